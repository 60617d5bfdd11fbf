import Verif.Bodies.Chain
/-!
# Blocks with several bodies: running them in order
-/
namespace Verif.Bodies
variable {V S R : Type} {m : Type → Type} [Monad m] [LawfulMonad m] {W : World V S m}

/-- It never goes on to another body. -/
def Body.Closed (b : Body V S R m) : Prop := ∀ i ∈ b.code, i.isSeth = false ∧ i.isPred = false

theorem chain_run (law : W.Lawful) {B : Block V S R m} {first : Bool} {args : List V} (h6 : B.ga ≤ 6) (la : args.length = B.ga)
    (good : ∀ v ∈ args, W.bad v = false) (hi : B.imm = true → first = true)
    (hw : B.imm = false → ∃ w, args[2]? = some w ∧ W.nothing w = first) :
    ∀ (bs : List (Body V S R m)) (o : Option Nat) (fuel : Nat), Chain B.ga B.made first bs o → (∀ b ∈ bs, b.Ok B.ga) → bs.length ≤ fuel →
      (B.imm = true → ∀ b, bs.getLast? = some b → 3 ≤ b.vam ∨ b.Closed) →
      run W B fuel (o.getD 0) args = firstBody W args bs := by
  intro bs
  induction bs with
  | nil =>
    intro o fuel hc _ _ _
    cases hc
    show run W B fuel 0 args = W.fail R
    unfold run
    rfl
  | cons b bs ih =>
    intro o fuel hc hok hf hlast
    match fuel, hf with
    | fuel + 1, hf =>
    cases hc with
    | @cons a _ _ n1 n2 hm hc =>
      have hb := hok b (by simp)
      have hsz : B.ga ≤ size B.ga b := by have := hb.args; unfold size; omega
      show run W B (fuel + 1) (a + 1) args = _
      unfold run
      rw [hm]
      dsimp only
      unfold scope
      rw [if_neg (by omega)]
      dsimp only
      rw [List.take_of_length_le (by omega)]
      unfold firstBody runBody
      rw [bind_assoc, la]
      by_cases hcl : bs = [] ∧ b.Closed
      · obtain ⟨e, hcl⟩ := hcl
        have np : hasPred b.code = false := by
          cases hp : hasPred b.code with
          | false => rfl
          | true =>
            obtain ⟨i, hi, hi'⟩ := List.any_eq_true.1 hp
            rw [(hcl i (mem_before hi)).2] at hi'
            cases hi'
        have e1 : code B.ga b = b.code := by unfold code; rw [np]; rfl
        have e2 : size B.ga b = b.vam := by unfold size; rw [np]; rfl
        rw [e1, e2]
        refine straight law _ _ ?_ _ _ _ (fun i hi => hcl i (mem_before hi))
        intro r
        simp only [pure_bind]
      · refine (made_runs law hb h6 la good _ _ ?_ ?_).symm
        · intro r
          simp only [pure_bind]
        · intro v v' ht hn
          simp only [pure_bind]
          have v2 : ∀ w, args[2]? = some w → v'[2]? = some w := by
            intro w hw
            rw [← ht, List.getElem?_take] at hw
            split at hw
            · exact hw
            · cases hw
          have some2 : (if first then n1 else n2) = none → ∃ w, v'[2]? = some w := by
            intro hn1
            cases himm : B.imm with
            | false => obtain ⟨w, hw, _⟩ := hw himm; exact ⟨w, v2 w hw⟩
            | true =>
              rw [hn1] at hc
              have hbs : bs = [] := by cases hc; rfl
              have := (hlast himm b (by rw [hbs]; rfl)).resolve_right (fun h => hcl ⟨hbs, h⟩)
              have : 2 < v'.length := by rw [hn]; unfold size; omega
              exact ⟨_, List.getElem?_eq_getElem this⟩
          have go : (match (if first then n1 else n2) with
              | none => match v'[2]? with
                | none => W.ud R
                | some _ => W.fail R
              | some a => run W B fuel a (v'.take B.ga)) = firstBody W args bs := by
            have e := ih _ fuel hc (fun x hx => hok x (List.mem_cons_of_mem _ hx)) (by simp at hf; omega) (fun himm x hx => hlast himm x (by
              cases bs with
              | nil => cases hx
              | cons y ys => exact hx))
            rw [← e]
            cases hnx : (if first then n1 else n2) with
            | none =>
              obtain ⟨w, hw⟩ := some2 hnx
              rw [hw]
              show _ = run W B fuel 0 args
              unfold run
              rfl
            | some a => rw [ht]; rfl
          unfold goto
          cases himm : B.imm with
          | true =>
            rw [hi himm] at go
            rw [if_pos rfl]
            exact go.symm
          | false =>
            obtain ⟨w, hw, hw'⟩ := hw himm
            simp only [Bool.false_eq_true, if_false]
            rw [v2 w hw] at go ⊢
            dsimp only at go ⊢
            rw [hw']
            exact go.symm

theorem ascending_of : ∀ l : List Nat, l.Pairwise (· < ·) → ascending l = true
  | [], _ => rfl
  | [_], _ => rfl
  | a :: b :: l, h => by
    obtain ⟨h1, h2⟩ := List.pairwise_cons.1 h
    unfold ascending
    rw [ascending_of (b :: l) h2, decide_eq_true (h1 b (by simp))]
    rfl

theorem pairwise_of : ∀ l : List Nat, ascending l = true → l.Pairwise (· < ·)
  | [], _ => .nil
  | [_], _ => List.pairwise_singleton ..
  | a :: b :: l, h => by
    unfold ascending at h
    rw [Bool.and_eq_true] at h
    have ih := pairwise_of (b :: l) h.2
    refine List.pairwise_cons.2 ⟨fun x hx => ?_, ih⟩
    have hab := of_decide_eq_true h.1
    cases hx with
    | head => exact hab
    | tail _ hx => exact Nat.lt_trans hab ((List.pairwise_cons.1 ih).1 x hx)

/-- At most five lists, of numbers of bodies in increasing order. -/
structure Obj.Ok (all : List (Body V S R m)) (ga : Nat) (o : Obj) : Prop where
  count : ∀ ls, o = .lists ls → 1 ≤ ls.length ∧ ls.length ≤ 5
  sorted : ∀ k, (o.bodies k).Pairwise (· < ·)
  small : ∀ k, ∀ x ∈ o.bodies k, x < 2^31 - 1
  bodies : ∀ k, ∀ x ∈ o.bodies k, ∃ b, all[x]? = some b ∧ b.Ok ga

theorem pair0 {all : List (Body V S R m)} {ga : Nat} {o : Obj} (h : o.Ok all ga) : o.pair 0 = (o.bodies .mon, o.bodies .dy) := by
  match o, h with
  | .one b, _ => rfl
  | .lists ls, h =>
    have := h.count ls rfl
    match ls, this with
    | [a], _ => rfl
    | a :: b :: ls, _ => rfl

theorem pair2 {all : List (Body V S R m)} {ga : Nat} {o : Obj} (h : o.Ok all ga) : o.pair 2 = (o.bodies .invM, o.bodies .invX) := by
  match o, h with
  | .one b, _ => rfl
  | .lists ls, h =>
    have := h.count ls rfl
    match ls, this with
    | [a], _ => rfl
    | [a, b], _ => rfl
    | [a, b, c], _ => rfl
    | [a, b, c, d], _ => rfl
    | [a, b, c, d, e], _ => rfl
    | a :: b :: c :: d :: e :: f :: ls, this => simp at this

theorem pair4 {all : List (Body V S R m)} {ga : Nat} {o : Obj} (h : o.Ok all ga) : o.pair 4 = ([], o.bodies .invW) := by
  match o, h with
  | .one b, _ => rfl
  | .lists ls, h =>
    have := h.count ls rfl
    match ls, this with
    | [a], _ => rfl
    | [a, b], _ => rfl
    | [a, b, c], _ => rfl
    | [a, b, c, d], _ => rfl
    | [a, b, c, d, e], _ => rfl
    | a :: b :: c :: d :: e :: f :: ls, this => simp at this

theorem badCount {all : List (Body V S R m)} {ga : Nat} {o : Obj} (h : o.Ok all ga) : o.badCount = false := by
  match o, h with
  | .one _, _ => rfl
  | .lists ls, h =>
    have := h.count ls rfl
    show (decide (ls.length < 1) || decide (ls.length > 5)) = false
    rw [decide_eq_false (by omega), decide_eq_false (by omega)]
    rfl

theorem compile_chain {ty : Nat} {imm : Bool} (hty : ty ≤ 2) {all : List (Body V S R m)} (junk : Option Nat) {o : Obj} (h : o.Ok all (argCount ty imm)) :
    ∃ B, compile ty imm all junk o = .ok B ∧ B.imm = imm ∧ B.ga = argCount ty imm ∧
      ∀ k, ∃ s : Option Nat, B.start k = s.getD 0 ∧
        Chain B.ga B.made k.alone ((o.bodies k).filterMap (all[·]?)) s ∧ ((o.bodies k).filterMap (all[·]?)).length ≤ B.made.length := by
  have asc := fun k => ascending_of _ (h.sorted k)
  obtain ⟨p0, e0, l0, l0', c0⟩ := pair_chain junk [] (asc .mon) (asc .dy) (h.small .mon) (h.small .dy) (h.bodies .mon) (h.bodies .dy)
  obtain ⟨p2, e2, l2, l2', c2⟩ := pair_chain junk p0.made (asc .invM) (asc .invX) (h.small .invM) (h.small .invX) (h.bodies .invM) (h.bodies .invX)
  obtain ⟨p4, e4, l4, l4', c4⟩ := pair_chain (ms := []) junk (p0.made ++ p2.made) rfl (asc .invW) nofun (h.small .invW) nofun (h.bodies .invW)
  refine ⟨⟨imm, argCount ty imm, p0.made ++ p2.made ++ p4.made, p0.first1.getD 0, p0.first2.getD 0, p2.first1.getD 0, p2.first2.getD 0, p4.first2.getD 0⟩, ?_, rfl, rfl, ?_⟩
  · unfold compile
    rw [pair0 h, pair2 h, pair4 h]
    have bad := badCount h
    simp only [List.length_nil, Nat.add_zero] at e0
    rw [List.length_append, ← Nat.add_assoc] at e4
    dsimp only
    rw [if_neg (by omega), bad]
    simp only [Bool.false_eq_true, if_false]
    rw [e0]
    show (makePair _ _ _ _ _ _).bind _ = _
    rw [e2]
    show (makePair _ _ _ _ _ _).bind _ = _
    rw [e4]
    rfl
  · have fl : ∀ (l : List Nat), (l.filterMap (all[·]?)).length ≤ l.length := fun l => List.length_filterMap_le ..
    have a0 := c0 (p2.made ++ p4.made)
    rw [List.nil_append, ← List.append_assoc] at a0
    have a2 := c2 p4.made
    have a4 := c4 []
    rw [List.append_nil] at a4
    intro k
    have := fl (o.bodies k)
    cases k with
    | mon => exact ⟨_, rfl, a0.1, by simp; omega⟩
    | dy => exact ⟨_, rfl, a0.2, by simp; omega⟩
    | invM => exact ⟨_, rfl, a2.1, by simp; omega⟩
    | invX => exact ⟨_, rfl, a2.2, by simp; omega⟩
    | invW => exact ⟨_, rfl, a4.2, by simp; omega⟩

end Verif.Bodies
