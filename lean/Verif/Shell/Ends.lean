import Verif.Shell.Lemmas
namespace Verif.Shell

/-- How far the interpreter is in one turn of the loop. -/
def rank : Pc → Nat
  | .poll => 5
  | .rd .out => 4
  | .rd .err => 3
  | .inp => 2
  | .hup => 1
  | _ => 0

/-- The results of the last `poll` will not end the loop. -/
def again (s : State) : Nat := if s.pc ≠ .poll ∧ (s.out.phup && s.err.phup) = false then 5 else 0

/-- An upper bound for the number of steps left once both outputs are closed. -/
def left (s : State) : Nat := s.out.q.length + s.err.q.length + rank s.pc + again s

theorem left_par {cap : Nat} {input : List UInt8} {s s' : State} {k : Nat}
    (ho : s.out.wr = false) (he : s.err.wr = false) (h : par cap input s k = some s') :
    left s' < left s ∧ s'.out.wr = false ∧ s'.err.wr = false := by
  simp only [par] at h
  split at h
  · rename_i hpc
    split at h
    · injection h with h
      subst h
      refine ⟨?_, ho, he⟩
      simp [left, again, Chan.poll, ho, he, hpc, rank]
    · exact nomatch h
  · rename_i e hpc
    split at h
    · injection h with h
      subst h
      refine ⟨?_, ho, he⟩
      cases e <;> simp [left, again, hpc, rank, Pc.after]
    · rename_i hc
      split at h
      · rename_i hk
        injection h with h
        subst h
        cases e
        · refine ⟨?_, ho, he⟩
          simp only [State.chan] at hk
          simp [left, again, hpc, rank, State.setChan, State.chan]
          omega
        · refine ⟨?_, ho, he⟩
          simp only [State.chan] at hk
          simp [left, again, hpc, rank, State.setChan, State.chan]
          omega
      · exact nomatch h
  · rename_i hpc
    split at h
    · rw [if_neg (show ¬ s.iDone = true by rename_i hd; revert hd; cases s.iDone <;> simp)] at h
      split at h
      · injection h with h
        subst h
        exact ⟨by simp [left, again, hpc, rank], ho, he⟩
      · split at h
        · injection h with h
          subst h
          exact ⟨by simp [left, again, hpc, rank], ho, he⟩
        · split at h
          · injection h with h
            subst h
            exact ⟨by simp [left, again, hpc, rank], ho, he⟩
          · split at h
            · injection h with h
              subst h
              exact ⟨by simp [left, again, hpc, rank], ho, he⟩
            · exact nomatch h
    · injection h with h
      subst h
      exact ⟨by simp [left, again, hpc, rank], ho, he⟩
  · rename_i hpc
    injection h with h
    subst h
    refine ⟨?_, ho, he⟩
    by_cases hh : (s.out.phup && s.err.phup) = true
    · rw [if_pos hh]
      simp [left, again, hpc, rank, hh]
    · rw [if_neg hh]
      simp only [left, again, hpc, rank]
      simp [hh]
      
  · exact nomatch h

theorem left_step {cap : Nat} {input : List UInt8} {s s' : State} {ev : Ev}
    (ho : s.out.wr = false) (he : s.err.wr = false) (h : step cap input s ev = some s') :
    steps [ev] + left s' ≤ left s ∧ s'.out.wr = false ∧ s'.err.wr = false := by
  cases ev with
  | par k =>
    obtain ⟨a, b⟩ := left_par ho he h
    refine ⟨?_, b⟩
    simp only [steps]
    omega
  | put e bs =>
    simp only [step] at h
    split at h
    · rename_i hc
      cases e
      · rw [show (s.chan .out).wr = false from ho] at hc; exact nomatch hc.1
      · rw [show (s.chan .err).wr = false from he] at hc; exact nomatch hc.1
    · exact nomatch h
  | shut e =>
    simp only [step] at h
    split at h
    · rename_i hc
      cases e
      · rw [show (s.chan .out).wr = false from ho] at hc; exact nomatch hc
      · rw [show (s.chan .err).wr = false from he] at hc; exact nomatch hc
    · exact nomatch h
  | take bs =>
    simp only [step] at h
    split at h
    · injection h with h
      subst h
      exact ⟨by simp [steps, left, again], ho, he⟩
    · exact nomatch h
  | eof =>
    simp only [step] at h
    split at h
    · injection h with h
      subst h
      exact ⟨by simp [steps], ho, he⟩
    · exact nomatch h
  | shutIn =>
    simp only [step] at h
    split at h
    · injection h with h
      subst h
      exact ⟨by simp [steps, left, again], ho, he⟩
    · exact nomatch h
  | fail =>
    simp only [step] at h
    split at h
    · rename_i hpc
      injection h with h
      subst h
      refine ⟨?_, ho, he⟩
      simp only [left, again, hpc, rank, steps]
      split <;> split <;> simp_all
    · exact nomatch h

theorem left_run {cap : Nat} {input : List UInt8} (evs : List Ev) : ∀ {s s' : State},
    s.out.wr = false → s.err.wr = false → run cap input s evs = some s' → steps evs + left s' ≤ left s := by
  induction evs with
  | nil =>
    intro s s' _ _ h
    injection h with h
    subst h
    simp [steps]
  | cons ev r ih =>
    intro s s' ho he h
    simp only [run] at h
    cases h1 : step cap input s ev with
    | none => rw [h1] at h; exact nomatch h
    | some s1 =>
      rw [h1] at h
      obtain ⟨a, b, c⟩ := left_step ho he h1
      have := ih b c h
      have e1 : steps (ev :: r) = steps [ev] + steps r := by cases ev <;> simp [steps]
      omega

end Verif.Shell
