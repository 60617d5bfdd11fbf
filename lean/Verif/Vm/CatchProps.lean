import Verif.Vm.CatchLemmas
/-! # C35: catching an error restores the stacks -/
namespace Verif.Vm.Catch

/-- The state at the end of a run. -/
def Res.state : Res → St
  | .normal s => s
  | .jumped _ s => s
  | .exited s => s

theorem inv_init : Inv init := ⟨fun i h => absurd h (Nat.not_lt_zero i), fun _ j _ _ _ h => absurd h (Nat.not_lt_zero j)⟩
theorem rec_init : Rec init := ⟨.refl _, by simp [init], by simp [init, labels], by simp [init, labels]⟩

theorem post_rec {s : St} {r : Res} (h : Post s r) : Rec r.state := by
  cases r with
  | normal s' => exact h.2.2.2.2.2.1
  | jumped l s' => obtain ⟨_, _, _, _, _, _, _, _, _, h, _⟩ := h; exact h
  | exited s' => exact h.2

/-- For any program, with any nesting of calls, catches, handlers and errors, including those from running out of stack: no assertion fails and no jump goes anywhere
other than to a catch, and whenever an error is caught, the value stack, the environment stack, the number of catch frames, and the current error message are what they were
when that catch was installed. (Each label belongs to one installed catch.) -/
theorem catch_restores (junk : Frame) (gsMax envMax : Nat) (p : Prog) :
    ∃ r, run junk gsMax envMax p init = some r ∧ (labels r.state.log).Nodup ∧
      ∀ l gs env cf last, Event.caught l gs env cf last ∈ r.state.log → Event.installed l gs env cf last ∈ r.state.log := by
  obtain ⟨r, h, hp⟩ := run_post junk gsMax envMax p init inv_init rec_init
  exact ⟨r, h, (post_rec hp).distinct, (post_rec hp).events⟩

/-- A program either ends normally, with all stacks empty and no current error message, or by exiting with an error that nothing catches. -/
theorem run_balanced (junk : Frame) (gsMax envMax : Nat) (p : Prog) :
    (∃ s, run junk gsMax envMax p init = some (.normal s) ∧ s.gs = [] ∧ s.env = [] ∧ s.cf = 0 ∧ s.last = none) ∨
    ∃ s, run junk gsMax envMax p init = some (.exited s) := by
  obtain ⟨r, h, hp⟩ := run_post junk gsMax envMax p init inv_init rec_init
  cases r with
  | normal s => exact .inl ⟨s, h, hp.1, hp.2.1, hp.2.2.2.1, hp.2.2.1⟩
  | jumped l s => exact absurd hp.1 (Nat.lt_irrefl 0)
  | exited s => exact .inr ⟨s, h⟩

/-- No error gets past a catch: a program in a catch with a handler that does nothing ends normally. -/
theorem catch_stops_errors (junk : Frame) (gsMax envMax : Nat) (p : Prog) (h0 : gsMax ≠ 0) :
    ∃ s, run junk gsMax envMax (.catching p .skip) init = some (.normal s) := by
  obtain ⟨s1, hprep, hi1, hr1, hg1, _, _, hc1, _, hnew, _⟩ := prepare_spec junk init inv_init rec_init
  obtain ⟨r, hrun, hpost⟩ := run_post junk gsMax envMax p s1 hi1 hr1
  rw [run, hprep, Option.bind_some, hrun]
  cases r with
  | normal s2 =>
    have hc : s2.cf = 1 := hpost.2.2.2.1.trans hc1
    exact ⟨{ s2 with cf := s2.cf - 1 }, by simp [popCatch, hc]⟩
  | jumped l s2 =>
    obtain ⟨_, fr, hfr, hj, hg, _⟩ := hpost
    rw [hc1, Nat.add_sub_cancel, hnew] at hfr
    injection hfr with hfr; subst hfr
    have hg : s2.gs = [] := by rw [hg, hg1]; rfl
    simp only [if_pos (show l = init.next from hj), holding, hg, List.length_nil, if_neg (Ne.symm h0), run, andThen]
    exact ⟨_, rfl⟩
  | exited s2 => exact absurd hpost.1 (by omega)

/-- Every value that was put on the stack is freed once, or is still on the stack: errors neither lose values nor free them twice. -/
theorem stack_values_freed_once (junk : Frame) (gsMax envMax : Nat) (p : Prog) (r : Res) (h : run junk gsMax envMax p init = some r) :
    r.state.pushed.Perm (r.state.freed ++ r.state.gs) := by
  obtain ⟨r', h', hp⟩ := run_post junk gsMax envMax p init inv_init rec_init
  rw [h] at h'; injection h' with h'; subst h'
  exact (post_rec hp).values

/-- An error within a handler within calls. -/
def nested : Prog := .hold 1 (.call 5 (.catching (.hold 3 (.catching (.call 6 (.hold 4 (.throw 7))) (.hold 2 (.throw 8)))) .skip))

example : ∃ s, run ⟨9, 9, 9, 9⟩ 100 100 nested init = some (.normal s) ∧
    s.log = [.installed 0 [.plain 1] [5] 0 none, .installed 1 [.plain 3, .plain 1] [5] 1 none, .caught 1 [.plain 3, .plain 1] [5] 1 none, .caught 0 [.plain 1] [5] 0 none] ∧
    s.freed = [.plain 4, .plain 2, .re none, .plain 3, .re none, .plain 1] :=
  ⟨_, rfl, by decide +kernel, by decide +kernel⟩

/-- Many nested catches, which make the array of frames grow. -/
def deep : Nat → Prog
  | 0 => .throw 1
  | n + 1 => .catching (.hold n (deep n)) (.throw 2)

example : ∃ s, run ⟨9, 9, 9, 9⟩ 100 100 (deep 20) init = some (.exited s) ∧ s.frames.length = 32 ∧ s.log.length = 40 := ⟨_, rfl, by decide +kernel, by decide +kernel⟩

/-- Running out of space is an error like others. -/
example : ∃ s, run ⟨9, 9, 9, 9⟩ 100 1 (.catching (.call 1 (.call 2 .skip)) .skip) init = some (.normal s) ∧ s.log.length = 2 := ⟨_, rfl, by decide +kernel⟩

end Verif.Vm.Catch
