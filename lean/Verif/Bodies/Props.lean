import Verif.Bodies.Run
/-!
# Blocks with several bodies: properties
-/
namespace Verif.Bodies
variable {V S R : Type} {m : Type → Type} [Monad m] [LawfulMonad m] {W : World V S m}

/-! ## A concrete block: `{𝕩+↩1 ⋄ 𝕩=4? 44 ; 𝕩}`, and with an inverse that has a header `𝕊⁼ 5: 55`. -/

inductive Bad
  | fail | ud
deriving DecidableEq

/-- 1000 is a variable without a value, 1001 is `·`. -/
def plain : World Nat Unit (Except Bad) :=
  ⟨fun v => v == 1000, 1000, 1000, fun v => v == 1001, fun v => if v < 2 then some (v == 1) else none, (), fun _ => .error .fail, fun _ => .error .ud⟩

theorem plain_lawful : plain.Lawful := ⟨fun _ => rfl, fun _ => rfl⟩

abbrev I := Instr Nat Unit Nat (Except Bad)
def inc1 : I := .op 1 fun _ vs => pure ([], vs.map (· + 1))
def eq4 : I := .op 1 fun _ vs => pure ([], vs.map fun v => if v = 4 then 1 else 0)
def push (n : Nat) : I := .op 0 fun _ _ => pure ([], [n])
def store : I := .set 1 fun _ _ vs => pure (vs.map some, [])
def is5 : I := .seth fun _ v => pure (v == 5, [])
def back : I := .ret fun _ v => pure v

def b0 : Body Nat Unit Nat (Except Bad) := ⟨[.varO 1, inc1, .varM 1, store, .varO 1, eq4, .pred, push 44, back], 3⟩
def b1 : Body Nat Unit Nat (Except Bad) := ⟨[.varO 1, back], 3⟩
def b2 : Body Nat Unit Nat (Except Bad) := ⟨[.varO 1, push 5, .con fun _ => (), is5, push 55, back], 4⟩

theorem b0_ok : b0.Ok 3 where
  returns := ⟨back, by simp [b0], rfl⟩
  inScope := by simp [b0, Instr.pos, inc1, store, eq4, push, back]
  args := by decide
  small := by decide
  headers := .inl ⟨.pred, by simp [b0, Instr.isRet, inc1, store, eq4, push, back], rfl⟩

theorem b1_ok : b1.Ok 3 where
  returns := ⟨back, by simp [b1], rfl⟩
  inScope := by simp [b1, Instr.pos, back]
  args := by decide
  small := by decide
  headers := .inr ⟨[], b1.code, rfl, nofun, by simp [b1, Instr.isSeth, back]⟩

theorem b2_ok : b2.Ok 3 where
  returns := ⟨back, by simp [b2], rfl⟩
  inScope := by simp [b2, Instr.pos, push, is5, back]
  args := by decide
  small := by decide
  headers := .inr ⟨[.varO 1, push 5, .con fun _ => (), is5], [push 55, back], rfl, by simp [Instr.mut, push, is5], by simp [Instr.isSeth, push, back]⟩

def three : Obj := .lists [[0, 1], [1], [2]]

theorem three_ok : three.Ok [b0, b1, b2] (argCount 0 false) where
  count := fun ls h => by cases h; decide
  sorted := fun k => by cases k <;> decide
  small := fun k => by cases k <;> decide
  bodies := fun k => by
    cases k <;> intro x hx <;> simp [three, Obj.bodies] at hx
    · rcases hx with rfl | rfl
      · exact ⟨b0, rfl, b0_ok⟩
      · exact ⟨b1, rfl, b1_ok⟩
    · subst hx; exact ⟨b1, rfl, b1_ok⟩
    · subst hx; exact ⟨b2, rfl, b2_ok⟩

def calls (k : Kind) (args : List Nat) : Except Bad Nat :=
  match compile 0 false [b0, b1, b2] none three with
  | .ok B => call plain B k args
  | _ => .error .ud

example : calls .mon [0, 3, 1001] = .ok 44 := rfl
example : calls .mon [0, 4, 1001] = .ok 4 := rfl
example : calls .dy [0, 3, 7] = .ok 3 := rfl
example : calls .invM [0, 5, 1001] = .ok 55 := rfl
example : calls .invM [0, 6, 1001] = .error .fail := rfl
example : calls .invX [0, 6, 3] = .error .fail := rfl

/-! ## C64 -/

/-- **C64**: A call of a block runs, of the bodies for that kind of call, the first one whose header matches and whose predicates are 1, each on the arguments of the call, whatever the bodies before it did to them. If there is none, then the call is an error. -/
theorem body_selected (law : W.Lawful) {ty : Nat} (hty : ty ≤ 2) {all : List (Body V S R m)} (junk : Option Nat) {o : Obj} (ok : o.Ok all (argCount ty false)) :
    ∃ B, compile ty false all junk o = .ok B ∧
      ∀ (k : Kind) (args : List V) (w : V), args.length = argCount ty false → (∀ v ∈ args, W.bad v = false) →
        args[2]? = some w → W.nothing w = k.alone →
        call W B k args = firstBody W args ((o.bodies k).filterMap (all[·]?)) := by
  obtain ⟨B, e, hi, hg, hc⟩ := compile_chain hty junk ok
  refine ⟨B, e, fun k args w la good hw hk => ?_⟩
  obtain ⟨s, e, c, l⟩ := hc k
  unfold call
  rw [e]
  have oks : ∀ b ∈ (o.bodies k).filterMap (all[·]?), b.Ok B.ga := fun b hb => by
    obtain ⟨x, hx, hb⟩ := List.mem_filterMap.1 hb
    obtain ⟨b', hb', hok⟩ := ok.bodies k x hx
    rw [hb] at hb'
    cases hb'
    rw [hg]
    exact hok
  have h6 : B.ga ≤ 6 := by
    rw [hg]
    unfold argCount
    simp only [Bool.false_eq_true, if_false]
    split <;> omega
  exact chain_run law h6 (by rw [hg]; exact la) good (fun h => by rw [hi] at h; cases h) (fun _ => ⟨w, hw, hk⟩) _ s _ c oks l
    (fun h => by rw [hi] at h; cases h)

example : ∃ B, compile 0 false [b0, b1, b2] none three = .ok B ∧ call plain B .mon [0, 4, 1001] = firstBody plain [0, 4, 1001] [b0, b1] := by
  obtain ⟨B, e, h⟩ := body_selected plain_lawful (by decide) none three_ok
  exact ⟨B, e, h .mon [0, 4, 1001] 1001 rfl (by decide) rfl rfl⟩

/-- The same for blocks that are run at once: blocks without arguments, and modifiers that only use their operands. The last body has no header and no predicate, or at least three variables. -/
theorem body_selected_at_once_partial (law : W.Lawful) {ty : Nat} (hty : ty ≤ 2) {all : List (Body V S R m)} (junk : Option Nat) {o : Obj} (ok : o.Ok all (argCount ty true))
    (last : ∀ b, ((o.bodies .mon).filterMap (all[·]?)).getLast? = some b → 3 ≤ b.vam ∨ b.Closed) :
    ∃ B, compile ty true all junk o = .ok B ∧
      ∀ args : List V, args.length = argCount ty true → (∀ v ∈ args, W.bad v = false) →
        call W B .mon args = firstBody W args ((o.bodies .mon).filterMap (all[·]?)) := by
  obtain ⟨B, e, hi, hg, hc⟩ := compile_chain hty junk ok
  refine ⟨B, e, fun args la good => ?_⟩
  obtain ⟨s, e, c, l⟩ := hc .mon
  unfold call
  rw [e]
  have oks : ∀ b ∈ (o.bodies .mon).filterMap (all[·]?), b.Ok B.ga := fun b hb => by
    obtain ⟨x, hx, hb⟩ := List.mem_filterMap.1 hb
    obtain ⟨b', hb', hok⟩ := ok.bodies .mon x hx
    rw [hb] at hb'
    cases hb'
    rw [hg]
    exact hok
  have h6 : B.ga ≤ 6 := by
    rw [hg]
    unfold argCount
    simp only [if_true]
    split <;> omega
  exact chain_run law h6 (by rw [hg]; exact la) good (fun _ => rfl) (fun h => by rw [hi] at h; cases h) _ s _ c oks l (fun _ => last)

/-- `{0? 1 ; 2}` -/
def c0 : Body Nat Unit Nat (Except Bad) := ⟨[push 0, .pred, push 1, back], 0⟩
def c1 : Body Nat Unit Nat (Except Bad) := ⟨[push 2, back], 0⟩

theorem cond_ok : (Obj.lists [[0, 1]]).Ok [c0, c1] (argCount 0 true) where
  count := fun ls h => by cases h; decide
  sorted := fun k => by cases k <;> decide
  small := fun k => by cases k <;> decide
  bodies := fun k => by
    cases k <;> intro x hx <;> simp [Obj.bodies] at hx
    rcases hx with rfl | rfl
    · exact ⟨c0, rfl, ⟨back, by simp [c0], rfl⟩, by simp [c0, Instr.pos, push, back], by decide, by decide,
        .inl ⟨.pred, by simp [c0, Instr.isRet, push, back], rfl⟩⟩
    · exact ⟨c1, rfl, ⟨back, by simp [c1], rfl⟩, by simp [c1, Instr.pos, push, back], by decide, by decide,
        .inr ⟨[], c1.code, rfl, nofun, by simp [c1, Instr.isSeth, push, back]⟩⟩

example : ∃ B, compile 0 true [c0, c1] none (.lists [[0, 1]]) = .ok B ∧ call plain B .mon [] = .ok 2 := by
  obtain ⟨B, e, h⟩ := body_selected_at_once_partial plain_lawful (by decide) none cond_ok
    (fun b hb => .inr (by cases hb; simp [Body.Closed, c1, Instr.isSeth, Instr.isPred, push, back]))
  exact ⟨B, e, h [] rfl nofun⟩

/-- Without that the code reads a variable that isn't there: `{0? 1}`, where it looks for `𝕨` to choose the message. -/
theorem no_match_reads_past :
    ∃ B, compile 0 true [c0] none (.lists [[0]]) = .ok B ∧ call plain B .mon [] = .error .ud ∧ firstBody plain [] [c0] = .error .fail :=
  ⟨_, rfl, rfl, rfl⟩

/-- The number of variables is checked before the copies of the arguments are added: with more than `2⋆16` after that, the scope is too small for the arguments. -/
theorem copies_wrap {ty : Nat} (hty : ty ≤ 2) {b : Body V S R m} (hv : b.vam < 2^16) (big : 2^16 ≤ b.vam + argCount ty false)
    (ret : ∃ i ∈ b.code, i.isRet = true) (pred : hasPred b.code = true) (args : List V) :
    ∃ B, compile ty false [b] none (.one 0) = .ok B ∧ call W B .mon args = W.ud R := by
  have hr : b.code.any (fun i => i.isRet) = true := List.any_eq_true.2 ret
  have hm : argCount ty false ≤ 6 := by
    unfold argCount
    simp only [Bool.false_eq_true, if_false]
    split <;> omega
  have mk : makePair (argCount ty false) [b] none 1 [0] [0] =
      .ok ⟨[⟨code (argCount ty false) b, b.vam, (b.vam + argCount ty false) % 2^16, none, none⟩], some 1, some 1⟩ := by
    show (Out.bind (mapO (makeBody (argCount ty false) [b] [some 1, none, some 1, none]) [⟨0, true, true, 1, 3⟩]) _) = _
    unfold mapO makeBody
    dsimp only [List.getElem?_cons_zero]
    rw [if_neg (by omega), hr, if_neg (by simp), pred]
    rfl
  refine ⟨⟨false, argCount ty false, [⟨code (argCount ty false) b, b.vam, (b.vam + argCount ty false) % 2^16, none, none⟩], 1, 1, 0, 0, 0⟩, ?_, ?_⟩
  · unfold compile
    dsimp only
    rw [if_neg (by omega)]
    show (makePair (argCount ty false) [b] none 1 [0] [0]).bind _ = _
    rw [mk]
    rfl
  · show run W _ 1 1 args = _
    unfold run
    dsimp only [List.getElem?_cons_zero]
    unfold scope
    rw [if_pos (.inl (by omega))]

example : ∃ B, compile 0 false [⟨b0.code, 2^16 - 2⟩] none (.one 0) = .ok B ∧ call plain B .mon [0, 3, 1001] = .error .ud :=
  copies_wrap (by decide) (by decide) (by decide) ⟨back, by simp [b0], rfl⟩ rfl _

/-- Lists that aren't increasing are refused. -/
theorem unsorted_refused {ty : Nat} {imm : Bool} (all : List (Body V S R m)) (junk : Option Nat) (ls : List (List Nat))
    (h : ¬((Obj.lists ls).bodies .mon).Pairwise (· < ·)) : compile ty imm all junk (.lists ls) = .err := by
  unfold compile
  dsimp only
  split
  · rfl
  split
  · rfl
  · rename_i hb
    match ls, h, hb with
    | [], h, _ => exact absurd List.Pairwise.nil h
    | a :: ls, h, hb =>
      have h : ascending a = false := Bool.eq_false_iff.2 fun e => h (pairwise_of a e)
      have e : ((Obj.lists (a :: ls)).pair 0).1 = a := rfl
      rw [e]
      unfold makePair
      rw [h]
      rfl

example : compile 0 false [b0, b1] none (.lists [[1, 0]]) = .err := unsorted_refused _ _ _ (by decide)

end Verif.Bodies
