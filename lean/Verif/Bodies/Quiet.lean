import Verif.Bodies.Sim
/-!
# Blocks with several bodies: running one
-/
namespace Verif.Bodies
variable {V S R : Type} {m : Type → Type} [Monad m] [LawfulMonad m] {W : World V S m}

theorem mem_before {i : Instr V S R m} {c : List (Instr V S R m)} (h : i ∈ before c) : i ∈ c :=
  (List.takeWhile_sublist _).subset h

/-- Without headers and predicates, a body has a result. -/
theorem straight (law : W.Lawful) {lo hi : Nat} {α : Type} (k k' : R ⊕ List V → m α) (hl : ∀ r, k (.inl r) = k' (.inl r)) :
    ∀ (c : List (Instr V S R m)) (vars : List V) (st : List (Item V S)), (∀ i ∈ before c, i.isSeth = false ∧ i.isPred = false) →
      exec W lo hi c vars st >>= k = exec W lo hi c vars st >>= k' := by
  have ud : (W.ud (R ⊕ List V) >>= k) = (W.ud (R ⊕ List V) >>= k') := by rw [law.ud_bind, law.ud_bind]
  have fail : (W.fail (R ⊕ List V) >>= k) = (W.fail (R ⊕ List V) >>= k') := by rw [law.fail_bind, law.fail_bind]
  intro c
  induction c with
  | nil => intro vars st _; exact ud
  | cons i c ih =>
    intro vars st hc
    have rest : i.isRet = false → ∀ i ∈ before c, i.isSeth = false ∧ i.isPred = false := fun h i hi => by
      rw [before_cons h] at hc
      exact hc i (List.mem_cons_of_mem _ hi)
    have here : i.isRet = false → i.isSeth = false ∧ i.isPred = false := fun h => by
      rw [before_cons h] at hc
      exact hc i (List.mem_cons_self ..)
    cases i with
    | varO p =>
      unfold exec
      cases vars[p]? with
      | none => exact ud
      | some v =>
        dsimp only
        cases W.bad v with
        | true => exact fail
        | false =>
          simp only [Bool.false_eq_true, if_false]
          exact ih _ _ (rest rfl)
    | varU p =>
      unfold exec
      cases vars[p]? with
      | none => exact ud
      | some v => exact ih _ _ (rest rfl)
    | varM p => exact ih _ _ (rest rfl)
    | op a f =>
      unfold exec
      cases popV a st with
      | none => exact ud
      | some q =>
        cases reads vars (List.range' lo (hi - lo)) with
        | none => exact ud
        | some ls =>
          show (f ls q.1 >>= _) >>= k = (f ls q.1 >>= _) >>= k'
          rw [bind_assoc, bind_assoc]
          congr 1
          funext lv
          exact ih _ _ (rest rfl)
    | mkT a f =>
      unfold exec
      cases popT a st with
      | none => exact ud
      | some q => exact ih _ _ (rest rfl)
    | con f =>
      unfold exec
      match st with
      | [] => exact ud
      | .tgt .. :: _ => exact ud
      | .val v :: st => exact ih _ _ (rest rfl)
    | set a f =>
      unfold exec
      match st with
      | [] => exact ud
      | .val .. :: _ => exact ud
      | .tgt s ps :: st =>
        dsimp only
        cases popV a st with
        | none => exact ud
        | some q =>
          cases reads vars ps with
          | none => exact ud
          | some ls =>
            show (f s ls q.1 >>= _) >>= k = (f s ls q.1 >>= _) >>= k'
            rw [bind_assoc, bind_assoc]
            congr 1
            funext lv
            exact ih _ _ (rest rfl)
    | seth f => cases (here rfl).1
    | pred => cases (here rfl).2
    | ret f =>
      unfold exec
      match st with
      | [] => exact ud
      | .tgt .. :: _ => exact ud
      | .val v :: st =>
        dsimp only
        cases reads vars (List.range' lo (hi - lo)) with
        | none => exact ud
        | some ls =>
          show (f ls v >>= _) >>= k = (f ls v >>= _) >>= k'
          rw [bind_assoc, bind_assoc]
          congr 1
          funext r
          rw [pure_bind, pure_bind]
          exact hl r

/-- When a header doesn't match, the arguments are as they were. -/
theorem quiet (law : W.Lawful) {ga hi n : Nat} {args : List V} {α : Type} (k k' : R ⊕ List V → m α) (hl : ∀ r, k (.inl r) = k' (.inl r))
    (hr : ∀ v : List V, v.take ga = args → v.length = n → k (.inr v) = k' (.inr v)) (t : List (Instr V S R m)) (hq : ∀ i ∈ t, i.isSeth = false) :
    ∀ (h : List (Instr V S R m)) (vars : List V) (st : List (Item V S)), vars.take ga = args → vars.length = n →
      (∀ i ∈ st, i.In (ga ≤ ·)) → (∀ i ∈ h, ∀ p, i.mut = some p → ga ≤ p) → (∀ i ∈ before (h ++ t), i.isPred = false) →
      exec W ga hi (h ++ t) vars st >>= k = exec W ga hi (h ++ t) vars st >>= k' := by
  have ud : (W.ud (R ⊕ List V) >>= k) = (W.ud (R ⊕ List V) >>= k') := by rw [law.ud_bind, law.ud_bind]
  have fail : (W.fail (R ⊕ List V) >>= k) = (W.fail (R ⊕ List V) >>= k') := by rw [law.fail_bind, law.fail_bind]
  have locs : ∀ p ∈ List.range' ga (hi - ga), ga ≤ p := fun p hp => (List.mem_range'_1.1 hp).1
  intro h
  induction h with
  | nil =>
    intro vars st _ _ _ _ hp
    exact straight law k k' hl _ _ _ (fun i hi => ⟨hq i (mem_before hi), hp i hi⟩)
  | cons i c ih =>
    intro vars st ht hn hst hc hp
    have rest : i.isRet = false → ∀ i ∈ before (c ++ t), i.isPred = false := fun h i hi => by
      rw [List.cons_append, before_cons h] at hp
      exact hp i (List.mem_cons_of_mem _ hi)
    have here : i.isRet = false → i.isPred = false := fun h => by
      rw [List.cons_append, before_cons h] at hp
      exact hp i (List.mem_cons_self ..)
    have hm := hc i (List.mem_cons_self ..)
    have hc' : ∀ i ∈ c, ∀ p, i.mut = some p → ga ≤ p := fun i hi => hc i (List.mem_cons_of_mem _ hi)
    rw [List.cons_append]
    cases i with
    | varO p =>
      unfold exec
      cases vars[p]? with
      | none => exact ud
      | some v =>
        dsimp only
        cases W.bad v with
        | true => exact fail
        | false =>
          simp only [Bool.false_eq_true, if_false]
          exact ih _ _ ht hn (fun i hi => by
            cases hi with
            | head => trivial
            | tail _ hi => exact hst i hi) hc' (rest rfl)
    | varU p =>
      unfold exec
      cases vars[p]? with
      | none => exact ud
      | some v =>
        exact ih _ _ ((take_set (hm p rfl) _ _).trans ht) ((List.length_set ..).trans hn) (fun i hi => by
            cases hi with
            | head => trivial
            | tail _ hi => exact hst i hi) hc' (rest rfl)
    | varM p =>
      exact ih _ _ ht hn (fun i hi => by
            cases hi with
            | head => intro q hq; rw [List.mem_singleton.1 hq]; exact hm p rfl
            | tail _ hi => exact hst i hi) hc' (rest rfl)
    | op a f =>
      unfold exec
      cases hv : popV a st with
      | none => exact ud
      | some q =>
        cases reads vars (List.range' ga (hi - ga)) with
        | none => exact ud
        | some ls =>
          show (f ls q.1 >>= _) >>= k = (f ls q.1 >>= _) >>= k'
          rw [bind_assoc, bind_assoc]
          congr 1
          funext lv
          exact ih _ _ ((take_assign _ _ _ locs).trans ht) ((assign_length ..).trans hn)
            (pushV_in _ _ (popV_in a st hst q.1 q.2 hv)) hc' (rest rfl)
    | mkT a f =>
      unfold exec
      cases hv : popT a st with
      | none => exact ud
      | some q =>
        have hq := popT_in a st hst q.1 q.2.1 q.2.2 hv
        exact ih _ _ ht hn (fun i hi => by
            cases hi with
            | head => exact hq.1
            | tail _ hi => exact hq.2 i hi) hc' (rest rfl)
    | con f =>
      unfold exec
      match st, hst with
      | [], _ => exact ud
      | .tgt .. :: _, _ => exact ud
      | .val v :: st, hst =>
        exact ih _ _ ht hn (fun i hi => by
            cases hi with
            | head => exact nofun
            | tail _ hi => exact hst i (List.mem_cons_of_mem _ hi)) hc' (rest rfl)
    | set a f =>
      unfold exec
      match st, hst with
      | [], _ => exact ud
      | .val .. :: _, _ => exact ud
      | .tgt s ps :: st, hst =>
        have hps : ∀ p ∈ ps, ga ≤ p := hst _ (List.mem_cons_self ..)
        have hst : ∀ i ∈ st, i.In (ga ≤ ·) := fun i hi => hst i (List.mem_cons_of_mem _ hi)
        dsimp only
        cases hv : popV a st with
        | none => exact ud
        | some q =>
          cases reads vars ps with
          | none => exact ud
          | some ls =>
            show (f s ls q.1 >>= _) >>= k = (f s ls q.1 >>= _) >>= k'
            rw [bind_assoc, bind_assoc]
            congr 1
            funext lv
            exact ih _ _ ((take_assign _ _ _ hps).trans ht) ((assign_length ..).trans hn)
              (pushV_in _ _ (popV_in a st hst q.1 q.2 hv)) hc' (rest rfl)
    | seth f =>
      unfold exec
      match st, hst with
      | [], _ => exact ud
      | .val .. :: _, _ => exact ud
      | [.tgt ..], _ => exact ud
      | .tgt .. :: .tgt .. :: _, _ => exact ud
      | .tgt s ps :: .val v :: st, hst =>
        have hps : ∀ p ∈ ps, ga ≤ p := hst _ (List.mem_cons_self ..)
        have hst : ∀ i ∈ st, i.In (ga ≤ ·) := fun i hi => hst i (List.mem_cons_of_mem _ (List.mem_cons_of_mem _ hi))
        dsimp only
        cases reads vars ps with
        | none => exact ud
        | some ls =>
          show (f s v >>= _) >>= k = (f s v >>= _) >>= k'
          rw [bind_assoc, bind_assoc]
          congr 1
          funext lv
          have t' := (take_assign vars ps lv.2 hps).trans ht
          have n' := (assign_length vars ps lv.2).trans hn
          obtain ⟨ok, ls'⟩ := lv
          cases ok with
          | true => exact ih _ _ t' n' hst hc' (rest rfl)
          | false =>
            show pure _ >>= k = pure _ >>= k'
            rw [pure_bind, pure_bind]
            exact hr _ t' n'
    | pred => cases here rfl
    | ret f =>
      unfold exec
      match st, hst with
      | [], _ => exact ud
      | .tgt .. :: _, _ => exact ud
      | .val v :: st, hst =>
        dsimp only
        cases reads vars (List.range' ga (hi - ga)) with
        | none => exact ud
        | some ls =>
          show (f ls v >>= _) >>= k = (f ls v >>= _) >>= k'
          rw [bind_assoc, bind_assoc]
          congr 1
          funext r
          rw [pure_bind, pure_bind]
          exact hl r

end Verif.Bodies
