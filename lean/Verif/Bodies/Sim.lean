import Verif.Bodies.Basic
/-!
# Blocks with several bodies: the copied arguments
-/
namespace Verif.Bodies
variable {V S R : Type} {m : Type → Type}

/-- Errors end the run. -/
structure World.Lawful [Monad m] (W : World V S m) : Prop where
  fail_bind : ∀ {α β : Type} (f : α → m β), W.fail α >>= f = W.fail β
  ud_bind : ∀ {α β : Type} (f : α → m β), W.ud α >>= f = W.ud β

theorem take_set {ga p : Nat} (h : ga ≤ p) (vars : List V) (v : V) : (vars.set p v).take ga = vars.take ga := by
  rw [List.take_set, List.set_eq_of_length_le (by rw [List.length_take]; omega)]

theorem take_assign {ga : Nat} : ∀ (vars : List V) (ps : List Nat) (ls : List (Option V)), (∀ p ∈ ps, ga ≤ p) →
    (assign vars ps ls).take ga = vars.take ga
  | _, [], _, _ => rfl
  | vars, p :: ps, [], _ => rfl
  | vars, p :: ps, none :: ls, h => take_assign vars ps ls (fun q hq => h q (List.mem_cons_of_mem _ hq))
  | vars, p :: ps, some v :: ls, h =>
    (take_assign (vars.set p v) ps ls (fun q hq => h q (List.mem_cons_of_mem _ hq))).trans (take_set (h p (by simp)) vars v)

/-- Where a variable is. -/
def place (ga vam p : Nat) : Nat := if p < ga then p + vam else p

theorem map_range' (ga vam : Nat) : (List.range' ga (vam - ga)).map (place ga vam) = List.range' ga (vam - ga) := by
  have : ∀ p ∈ List.range' ga (vam - ga), place ga vam p = id p := fun p hp => by
    have := (List.mem_range'_1.1 hp).1
    exact if_neg (by omega)
  rw [List.map_congr_left this, List.map_id]

theorem before_cons {i : Instr V S R m} {c : List (Instr V S R m)} (h : i.isRet = false) : before (i :: c) = i :: before c := by
  unfold before
  rw [List.takeWhile_cons]
  simp [h]

variable [Monad m] [LawfulMonad m] {W : World V S m}

theorem sim (law : W.Lawful) {ga vam n : Nat} {args : List V} {P : Nat → Prop} (hga : ga ≤ vam) (hP : ∀ p, P p → p < vam)
    (hloc : ∀ p, ga ≤ p → p < vam → P p) {α : Type} (k k' : R ⊕ List V → m α)
    (hl : ∀ r, k (.inl r) = k' (.inl r)) (hr : ∀ v v' : List V, v'.take ga = args → v'.length = n → k (.inr v) = k' (.inr v')) :
    ∀ (c : List (Instr V S R m)) (vars vars' : List V) (st : List (Item V S)), Same P (place ga vam) vars vars' →
      vars'.take ga = args → vars'.length = n → (∀ i ∈ st, i.In P) → (∀ i ∈ before c, ∀ p, i.pos = some p → P p) →
      exec W ga vam c vars st >>= k = exec W ga vam (c.map (remap ga vam)) vars' (st.map (Item.ren (place ga vam))) >>= k' := by
  have inj : ∀ p q, P p → P q → place ga vam p = place ga vam q → p = q := by
    intro p q hp hq e
    have := hP p hp
    have := hP q hq
    unfold place at e
    split at e <;> split at e <;> omega
  have away : ∀ p, P p → ga ≤ place ga vam p := by
    intro p hp
    unfold place
    split <;> omega
  have away' : ∀ ps : List Nat, (∀ p ∈ ps, P p) → ∀ p ∈ ps.map (place ga vam), ga ≤ p := by
    intro ps h p hp
    obtain ⟨q, hq, rfl⟩ := List.mem_map.1 hp
    exact away q (h q hq)
  have locs : ∀ p ∈ List.range' ga (vam - ga), P p := fun p hp => by
    have := List.mem_range'_1.1 hp
    exact hloc p this.1 (by omega)
  have ud : (W.ud (R ⊕ List V) >>= k) = (W.ud (R ⊕ List V) >>= k') := by rw [law.ud_bind, law.ud_bind]
  have fail : (W.fail (R ⊕ List V) >>= k) = (W.fail (R ⊕ List V) >>= k') := by rw [law.fail_bind, law.fail_bind]
  intro c
  induction c with
  | nil => intro vars vars' st _ _ _ _ _; exact ud
  | cons i c ih =>
    intro vars vars' st hs ht hn hst hc
    have rest : i.isRet = false → (∀ i ∈ before c, ∀ p, i.pos = some p → P p) := fun h i hi => by
      rw [before_cons h] at hc
      exact hc i (List.mem_cons_of_mem _ hi)
    have here : i.isRet = false → ∀ p, i.pos = some p → P p := fun h => by
      rw [before_cons h] at hc
      exact hc i (List.mem_cons_self ..)
    have loc := hs.reads _ locs
    rw [map_range'] at loc
    cases i with
    | varO p =>
      have hp := here rfl p rfl
      show exec W ga vam (.varO p :: c) vars st >>= k = exec W ga vam (.varO (place ga vam p) :: c.map (remap ga vam)) vars' _ >>= k'
      unfold exec
      rw [hs p hp]
      cases vars[p]? with
      | none => exact ud
      | some v =>
        dsimp only
        cases W.bad v with
        | true => exact fail
        | false =>
          simp only [Bool.false_eq_true, if_false]
          exact ih vars vars' (.val v :: st) hs ht hn (fun i hi => by
            cases hi with
            | head => trivial
            | tail _ hi => exact hst i hi) (rest rfl)
    | varU p =>
      have hp := here rfl p rfl
      show exec W ga vam (.varU p :: c) vars st >>= k = exec W ga vam (.varU (place ga vam p) :: c.map (remap ga vam)) vars' _ >>= k'
      unfold exec
      rw [hs p hp]
      cases vars[p]? with
      | none => exact ud
      | some v =>
        dsimp only
        exact ih _ _ (.val v :: st) (hs.set inj hp _) ((take_set (away p hp) _ _).trans ht) ((List.length_set ..).trans hn) (fun i hi => by
            cases hi with
            | head => trivial
            | tail _ hi => exact hst i hi) (rest rfl)
    | varM p =>
      have hp := here rfl p rfl
      show exec W ga vam (.varM p :: c) vars st >>= k = exec W ga vam (.varM (place ga vam p) :: c.map (remap ga vam)) vars' _ >>= k'
      unfold exec
      exact ih _ _ (.tgt W.var [p] :: st) hs ht hn (fun i hi => by
            cases hi with
            | head => intro q hq; rw [List.mem_singleton.1 hq]; exact hp
            | tail _ hi => exact hst i hi) (rest rfl)
    | op a f =>
      show exec W ga vam (.op a f :: c) vars st >>= k = exec W ga vam (.op a f :: c.map (remap ga vam)) vars' _ >>= k'
      unfold exec
      rw [loc, popV_ren]
      cases hv : popV a st with
      | none => exact ud
      | some q =>
        cases reads vars (List.range' ga (vam - ga)) with
        | none => exact ud
        | some ls =>
          show (f ls q.1 >>= _) >>= k = (f ls q.1 >>= _) >>= k'
          rw [bind_assoc, bind_assoc]
          congr 1
          funext lv
          have := hs.assign inj (List.range' ga (vam - ga)) lv.1 locs
          rw [map_range'] at this
          have e := ih _ _ (pushV lv.2 q.2) this ((take_assign _ _ _ (fun p hp => (List.mem_range'_1.1 hp).1)).trans ht) ((assign_length ..).trans hn)
            (pushV_in _ _ (popV_in a st hst q.1 q.2 hv)) (rest rfl)
          rw [← pushV_ren] at e
          exact e
    | mkT a f =>
      show exec W ga vam (.mkT a f :: c) vars st >>= k = exec W ga vam (.mkT a f :: c.map (remap ga vam)) vars' _ >>= k'
      unfold exec
      rw [popT_ren]
      cases hv : popT a st with
      | none => exact ud
      | some q =>
        have hq := popT_in a st hst q.1 q.2.1 q.2.2 hv
        exact ih _ _ (.tgt (f q.1) q.2.1 :: q.2.2) hs ht hn (fun i hi => by
            cases hi with
            | head => exact hq.1
            | tail _ hi => exact hq.2 i hi) (rest rfl)
    | con f =>
      show exec W ga vam (.con f :: c) vars st >>= k = exec W ga vam (.con f :: c.map (remap ga vam)) vars' _ >>= k'
      unfold exec
      match st, hst with
      | [], _ => exact ud
      | .tgt .. :: _, _ => exact ud
      | .val v :: st, hst =>
        exact ih _ _ (.tgt (f v) [] :: st) hs ht hn (fun i hi => by
            cases hi with
            | head => exact nofun
            | tail _ hi => exact hst i (List.mem_cons_of_mem _ hi)) (rest rfl)
    | set a f =>
      show exec W ga vam (.set a f :: c) vars st >>= k = exec W ga vam (.set a f :: c.map (remap ga vam)) vars' _ >>= k'
      unfold exec
      match st, hst with
      | [], _ => exact ud
      | .val .. :: _, _ => exact ud
      | .tgt s ps :: st, hst =>
        have hps : ∀ p ∈ ps, P p := hst _ (List.mem_cons_self ..)
        have hst : ∀ i ∈ st, i.In P := fun i hi => hst i (List.mem_cons_of_mem _ hi)
        simp only [List.map_cons, Item.ren]
        rw [popV_ren, hs.reads ps hps]
        cases hv : popV a st with
        | none => exact ud
        | some q =>
          cases reads vars ps with
          | none => exact ud
          | some ls =>
            show (f s ls q.1 >>= _) >>= k = (f s ls q.1 >>= _) >>= k'
            rw [bind_assoc, bind_assoc]
            congr 1
            funext lv
            have e := ih _ _ (pushV lv.2 q.2) (hs.assign inj ps lv.1 hps) ((take_assign _ _ _ (away' ps hps)).trans ht) ((assign_length ..).trans hn)
              (pushV_in _ _ (popV_in a st hst q.1 q.2 hv)) (rest rfl)
            rw [← pushV_ren] at e
            exact e
    | seth f =>
      show exec W ga vam (.seth f :: c) vars st >>= k = exec W ga vam (.seth f :: c.map (remap ga vam)) vars' _ >>= k'
      unfold exec
      match st, hst with
      | [], _ => exact ud
      | .val .. :: _, _ => exact ud
      | [.tgt ..], _ => exact ud
      | .tgt .. :: .tgt .. :: _, _ => exact ud
      | .tgt s ps :: .val v :: st, hst =>
        have hps : ∀ p ∈ ps, P p := hst _ (List.mem_cons_self ..)
        have hst : ∀ i ∈ st, i.In P := fun i hi => hst i (List.mem_cons_of_mem _ (List.mem_cons_of_mem _ hi))
        simp only [List.map_cons, Item.ren]
        rw [hs.reads ps hps]
        cases reads vars ps with
        | none => exact ud
        | some ls =>
          show (f s v >>= _) >>= k = (f s v >>= _) >>= k'
          rw [bind_assoc, bind_assoc]
          congr 1
          funext lv
          have t' := (take_assign vars' (ps.map (place ga vam)) lv.2 (away' ps hps)).trans ht
          have n' := (assign_length vars' (ps.map (place ga vam)) lv.2).trans hn
          obtain ⟨ok, ls'⟩ := lv
          cases ok with
          | true => exact ih _ _ st (hs.assign inj ps ls' hps) t' n' hst (rest rfl)
          | false =>
            show pure _ >>= k = pure _ >>= k'
            rw [pure_bind, pure_bind]
            exact hr _ _ t' n'
    | pred =>
      show exec W ga vam (.pred :: c) vars st >>= k = exec W ga vam (.pred :: c.map (remap ga vam)) vars' _ >>= k'
      unfold exec
      match st, hst with
      | [], _ => exact ud
      | .tgt .. :: _, _ => exact ud
      | .val v :: st, hst =>
        simp only [List.map_cons, Item.ren]
        cases W.truth v with
        | none => exact fail
        | some t =>
          cases t with
          | true => exact ih _ _ st hs ht hn (fun i hi => hst i (List.mem_cons_of_mem _ hi)) (rest rfl)
          | false =>
            show pure _ >>= k = pure _ >>= k'
            rw [pure_bind, pure_bind]
            exact hr _ _ ht hn
    | ret f =>
      show exec W ga vam (.ret f :: c) vars st >>= k = exec W ga vam (.ret f :: c.map (remap ga vam)) vars' _ >>= k'
      unfold exec
      match st, hst with
      | [], _ => exact ud
      | .tgt .. :: _, _ => exact ud
      | .val v :: st, hst =>
        simp only [List.map_cons, Item.ren]
        rw [loc]
        cases reads vars (List.range' ga (vam - ga)) with
        | none => exact ud
        | some ls =>
          show (f ls v >>= _) >>= k = (f ls v >>= _) >>= k'
          rw [bind_assoc, bind_assoc]
          congr 1
          funext r
          rw [pure_bind, pure_bind]
          exact hl r

end Verif.Bodies
