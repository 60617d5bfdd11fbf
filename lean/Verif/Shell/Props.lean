import Verif.Shell.Ends
/-
C83: what passes between the interpreter and a process started with `•SH`.

Every theorem is for all capacities of the pipes, all inputs, and all histories: whatever the process does, and
however its actions fall between those of the interpreter.
-/
namespace Verif.Shell

/-- At every moment what the interpreter has of an output, followed by what is in the pipe, is what was written. -/
theorem output_in_order (cap : Nat) (input : List UInt8) (evs : List Ev) (s : State)
    (h : run cap input init evs = some s) :
    s.out.got ++ s.out.q = wrote .out evs ∧ s.err.got ++ s.err.q = wrote .err evs :=
  ⟨(good_run h .out).all, (good_run h .err).all⟩

/-- When the loop has ended, unless it was interrupted, the interpreter has all that was written to both outputs, both
    are closed, and nothing is written later. -/
theorem output_complete_partial (cap : Nat) (input : List UInt8) (evs : List Ev) (s : State)
    (h : run cap input init evs = some s) (hd : s.pc = .done) :
    s.out.got = wrote .out evs ∧ s.err.got = wrote .err evs ∧ .shut .out ∈ evs ∧ .shut .err ∈ evs ∧
    ∀ more s', run cap input init (evs ++ more) = some s' →
      wrote .out more = [] ∧ wrote .err more = [] ∧ s'.out.got = s.out.got ∧ s'.err.got = s.err.got := by
  have o := good_run h .out
  have e := good_run h .err
  obtain ⟨o1, o2⟩ := o.done hd
  obtain ⟨e1, e2⟩ := e.done hd
  have oa := o.all
  have ea := e.all
  rw [o2, List.append_nil] at oa
  rw [e2, List.append_nil] at ea
  refine ⟨oa, ea, o.shut o1, e.shut e1, ?_⟩
  intro more
  have o1 : s.out.wr = false := o1
  have e1 : s.err.wr = false := e1
  have key : ∀ (more : List Ev) (t s' : State), t.pc.live = false → run cap input t more = some s' →
      wrote .out more = [] ∧ wrote .err more = [] ∧ s'.out.got = t.out.got ∧ s'.err.got = t.err.got := by
    intro more
    induction more with
    | nil =>
      intro t s' _ hr
      injection hr with hr
      subst hr
      exact ⟨rfl, rfl, rfl, rfl⟩
    | cons ev r ih =>
      intro t s' hl hr
      simp only [run] at hr
      cases h1 : step cap input t ev with
      | none => rw [h1] at hr; exact nomatch hr
      | some t1 =>
        rw [h1] at hr
        have : t1.pc.live = false ∧ t1.out.got = t.out.got ∧ t1.err.got = t.err.got ∧
            wrote .out (ev :: r) = wrote .out r ∧ wrote .err (ev :: r) = wrote .err r := by
          cases ev with
          | put e' bs =>
            simp only [step] at h1
            split at h1
            · rename_i hc
              rw [hl] at hc; exact nomatch hc.2.1
            · exact nomatch h1
          | shut e' =>
            simp only [step] at h1
            split at h1
            · injection h1 with h1
              subst h1
              cases e' <;> exact ⟨hl, rfl, rfl, rfl, rfl⟩
            · exact nomatch h1
          | take bs =>
            simp only [step] at h1
            split at h1
            · injection h1 with h1
              subst h1
              exact ⟨hl, rfl, rfl, rfl, rfl⟩
            · exact nomatch h1
          | eof =>
            simp only [step] at h1
            split at h1
            · injection h1 with h1
              subst h1
              exact ⟨hl, rfl, rfl, rfl, rfl⟩
            · exact nomatch h1
          | shutIn =>
            simp only [step] at h1
            split at h1
            · injection h1 with h1
              subst h1
              exact ⟨hl, rfl, rfl, rfl, rfl⟩
            · exact nomatch h1
          | fail =>
            simp only [step] at h1
            split at h1
            · rename_i hp
              rw [hp] at hl; exact nomatch hl
            · exact nomatch h1
          | par k =>
            simp only [step, par] at h1
            cases hp : t.pc <;> rw [hp] at hl h1 <;> first | (simp [Pc.live] at hl; done) | exact nomatch h1
        obtain ⟨a, b, c, d, f⟩ := this
        obtain ⟨i1, i2, i3, i4⟩ := ih t1 s' a hr
        exact ⟨d.trans i1, f.trans i2, i3.trans b, i4.trans c⟩
  intro s' hr
  rw [run_append, h] at hr
  exact key more s s' (by rw [hd]; rfl) hr

/-- The process reads the input from its beginning, in order and without gaps. -/
theorem input_in_order (cap : Nat) (input : List UInt8) (evs : List Ev) (s : State)
    (h : run cap input init evs = some s) : received evs <+: input := by
  have g := (goodIn_run h).all
  exact (List.prefix_append _ s.inq).trans (g ▸ List.take_prefix _ _)

/-- If the process is told that its input is at its end, it has read all of it; unless both outputs had been closed,
    the wait was interrupted, or the interpreter was killed. -/
theorem input_complete_partial (cap : Nat) (input : List UInt8) (evs : List Ev) (s : State)
    (h : run cap input init (evs ++ [.eof]) = some s) (hc : s.pc ≠ .cut) (hk : s.pc ≠ .killed) :
    received evs = input ∨ (.shut .out ∈ evs ∧ .shut .err ∈ evs) := by
  rw [run_append] at h
  cases h1 : run cap input init evs with
  | none => rw [h1] at h; exact nomatch h
  | some s1 =>
    rw [h1] at h
    have h : (step cap input s1 .eof).bind (fun s' => run cap input s' []) = some s := h
    simp only [step] at h
    split at h
    · rename_i hs
      injection h with h
      subst h
      obtain ⟨_, hq, hw⟩ := hs
      have g := goodIn_run h1
      by_cases hd : s1.iDone = true
      · have ga := g.all
        rw [hq, List.append_nil, g.fin hd, List.take_length] at ga
        exact .inl ga
      · have hl : s1.pc.live = false := by
          simp only [State.inwr] at hw
          revert hw
          cases s1.pc.live <;> simp [hd]
        have hdone : s1.pc = .done := by
          have hb := g.bad
          cases hp : s1.pc <;> rw [hp] at hl hc hk hb <;> first | rfl | (simp [Pc.live] at hl; done) | contradiction
        exact .inr ⟨(good_run h1 .out).shut ((good_run h1 .out).done hdone).1,
          (good_run h1 .err).shut ((good_run h1 .err).done hdone).1⟩
    · exact nomatch h

/-- The interpreter waits only while the process can go on: whatever it wants to do with its pipes is possible at once.
    So the two never wait for each other. -/
theorem no_deadlock (cap : Nat) (input : List UInt8) (s : State) (k : Nat) (hcap : 0 < cap)
    (hp : s.pc = .poll) (hb : step cap input s (.par k) = none) :
    (∀ e b, (s.chan e).wr = true → (step cap input s (.put e [b])).isSome) ∧
    (s.inrd = true → (∃ b, (step cap input s (.take [b])).isSome) ∨ (step cap input s .eof).isSome) ∧
    ((s.chan .out).wr = true ∨ (s.chan .err).wr = true) := by
  have hr : ready cap s k = false := by
    simp only [step, par, hp] at hb
    split at hb
    · exact nomatch hb
    · rename_i hh; exact Bool.eq_false_iff.mpr hh
  simp only [ready, Chan.poll, Bool.or_eq_false_iff, Bool.not_eq_false', List.isEmpty_iff] at hr
  obtain ⟨⟨⟨⟨h1, h2⟩, h3⟩, h4⟩, h5⟩ := hr
  refine ⟨?_, ?_, .inl h2⟩
  · intro e b hw
    have hq : (s.chan e).q = [] := by
      cases e
      · exact h1
      · exact h3
    simp only [step]
    rw [if_pos ⟨hw, by rw [hp]; rfl, nofun, by rw [hq]; exact hcap⟩]
    rfl
  · intro hrd
    cases hq : s.inq with
    | nil =>
      right
      have hd : s.iDone = true := by
        cases hd : s.iDone with
        | true => rfl
        | false => rw [hd] at h5; simp [room, hq] at h5
      simp only [step]
      rw [if_pos ⟨hrd, hq, by simp [State.inwr, hd]⟩]
      rfl
    | cons b r =>
      left
      refine ⟨b, ?_⟩
      simp only [step]
      rw [if_pos ⟨hrd, nofun, by rw [hq]; rfl⟩]
      rfl

/-- The interpreter waits nowhere but in `poll`. -/
theorem waits_in_poll (cap : Nat) (input : List UInt8) (s : State) (hl : s.pc.live = true) (hp : s.pc ≠ .poll) :
    ∃ k, (step cap input s (.par k)).isSome := by
  simp only [step, par]
  cases h : s.pc with
  | poll => exact absurd h hp
  | rd e =>
    refine ⟨1, ?_⟩
    dsimp only
    split
    · rfl
    · rename_i hc
      have : 0 < (s.chan e).q.length := by
        cases hq : (s.chan e).q with
        | nil => exact absurd (.inr hq) hc
        | cons _ _ => exact Nat.succ_pos _
      rw [if_pos ⟨Nat.one_pos, by omega, this⟩]
      rfl
  | inp =>
    refine ⟨0, ?_⟩
    dsimp only
    split
    · split
      · rfl
      · split
        · rfl
        · split
          · rfl
          · rfl
    · rfl
  | hup => exact ⟨0, rfl⟩
  | done => rw [h] at hl; exact nomatch hl
  | cut => rw [h] at hl; exact nomatch hl
  | killed => rw [h] at hl; exact nomatch hl
  | bad => rw [h] at hl; exact nomatch hl

/-- Once both outputs are closed the interpreter is never held up, and ends within a number of steps that depends only
    on how much is left to read. -/
theorem ends (cap : Nat) (input : List UInt8) (s : State) (ho : s.out.wr = false) (he : s.err.wr = false) :
    (∀ evs s', run cap input s evs = some s' → steps evs ≤ s.out.q.length + s.err.q.length + 10) ∧
    (s.pc.live = true → ∃ k, (step cap input s (.par k)).isSome) := by
  constructor
  · intro evs s' h
    have := left_run evs ho he h
    have hr : rank s.pc + again s ≤ 10 := by
      unfold again
      cases hp : s.pc with
      | rd e => cases e <;> simp only [rank] <;> split <;> omega
      | _ => simp only [rank] <;> split <;> omega
    simp only [left] at this
    omega
  · intro hl
    by_cases hp : s.pc = .poll
    · refine ⟨0, ?_⟩
      simp only [step, par, hp]
      rw [if_pos (by simp [ready, Chan.poll, ho])]
      rfl
    · exact waits_in_poll cap input s hl hp

/-- A process that waits for input gets some, or the end, in the next turn of the loop: an empty pipe is seen by `poll`,
    and then a write that does not fail gives the process at least a byte, or closes the pipe. -/
theorem process_fed (cap : Nat) (input : List UInt8) (s : State) (k : Nat) (s' : State) (hq : s.inq = [])
    (h : step cap input s (.par k) = some s') :
    (s.pc = .poll → s'.pc = .rd .out ∧ s'.inq = [] ∧ (s'.pout = true ∨ s'.iDone = true)) ∧
    (s.pc = .inp → s.inrd = true → s.pout = true ∨ s.iDone = true → k ≠ 0 →
      s'.pc = .hup ∧ ((∃ b, (step cap input s' (.take [b])).isSome) ∨ (step cap input s' .eof).isSome)) := by
  constructor
  · intro hp
    simp only [step, par, hp] at h
    split at h
    · injection h with h
      subst h
      refine ⟨rfl, hq, ?_⟩
      dsimp only
      cases s.iDone with
      | true => exact .inr rfl
      | false => exact .inl (by simp [room, hq])
    · exact nomatch h
  · intro hp hrd hpo hk
    have heof : ∀ t : State, t.inrd = true → t.inq = [] → t.iDone = true → (step cap input t .eof).isSome := by
      intro t h1 h2 h3
      simp only [step]
      rw [if_pos ⟨h1, h2, by simp [State.inwr, h3]⟩]
      rfl
    simp only [step, par, hp] at h
    split at h
    · rename_i hd
      rw [if_neg (show ¬ s.iDone = true by revert hd; cases s.iDone <;> simp)] at h
      split at h
      · injection h with h
        subst h
        exact ⟨rfl, .inr (heof _ hrd hq rfl)⟩
      · rename_i hz
        rw [if_neg (by rw [hrd]; exact nofun)] at h
        split at h
        · injection h with h
          subst h
          refine ⟨rfl, .inl ?_⟩
          cases hdr : input.drop s.iOff with
          | nil =>
            have := congrArg List.length hdr
            rw [List.length_drop, List.length_nil] at this
            omega
          | cons b r =>
            refine ⟨b, ?_⟩
            simp only [step]
            have hb : [b] = (s.inq ++ (b :: r).take k).take 1 := by
              cases k with
              | zero => exact absurd rfl hk
              | succ k => rw [hq]; rfl
            rw [if_pos ⟨hrd, nofun, hb⟩]
            rfl
        · exact nomatch h
    · rename_i hd
      injection h with h
      subst h
      refine ⟨rfl, .inr (heof _ hrd hq ?_)⟩
      rcases hpo with h | h
      · revert hd
        rw [h]
        cases hdn : s.iDone <;> simp [hdn]
      · exact h

/-- The pipe to the process is closed once, and not written to after that. -/
theorem closed_once (cap : Nat) (input : List UInt8) (evs : List Ev) (s : State)
    (h : run cap input init evs = some s) : s.pc ≠ .bad := (goodIn_run h).bad

/-- The interpreter is killed only if the process closed its standard input before reading all of the input. -/
theorem killed_only (cap : Nat) (input : List UInt8) (evs : List Ev) (s : State)
    (h : run cap input init evs = some s) (hk : s.pc = .killed) :
    .shutIn ∈ evs ∧ (received evs).length < input.length := by
  have g := goodIn_run h
  obtain ⟨h1, h2⟩ := g.killed hk
  refine ⟨g.rd h1, ?_⟩
  have := congrArg List.length g.all
  rw [List.length_append, List.length_take] at this
  omega

/-- But then it is: with any input that is not empty, a process which closes its standard input at once can have the
    interpreter killed. -/
theorem sigpipe_kills (cap : Nat) (input : List UInt8) (hi : input ≠ []) :
    ∃ evs s, run cap input init evs = some s ∧ s.pc = .killed ∧ .fail ∉ evs := by
  refine ⟨[.shutIn, .par 0, .par 0, .par 0, .par 0], { init with pc := .killed, inrd := false, pout := true }, ?_, rfl,
    by decide⟩
  have : input.length ≠ 0 := by
    intro h; exact hi (List.length_eq_zero_iff.mp h)
  simp [run, step, par, init, ready, room, Chan.poll, State.chan, Pc.after, this]

/-- A process which closes both outputs and goes on reading can be told that the input is at its end when it is not. -/
theorem input_cut :
    ∃ cap input evs s, run cap input init (evs ++ [.eof]) = some s ∧ s.pc = .done ∧ .shutIn ∉ evs ∧ .fail ∉ evs ∧
      received evs ≠ input := by
  refine ⟨2, [1, 2, 3], [.par 0, .par 0, .par 0, .par 2, .par 0, .shut .out, .shut .err, .take [1], .par 0, .par 0,
    .par 0, .par 0, .par 0, .take [2]], _, rfl, ?_⟩
  decide

/-- If the wait is interrupted the interpreter goes on with less than was written. -/
theorem output_cut :
    ∃ cap evs s, run cap [] init evs = some s ∧ s.pc = .cut ∧ .shut .out ∈ evs ∧ .shut .err ∈ evs ∧
      s.out.got ≠ wrote .out evs := by
  refine ⟨2, [.put .out [7], .shut .out, .shut .err, .fail], _, rfl, ?_⟩
  decide

/-! A history in which the process copies its input to one output and writes to the other. -/

/-- Input of three bytes through pipes of two. -/
def copyHistory : List Ev :=
  [.par 1, .par 0, .par 0, .par 2, .take [5, 6], .put .out [5, 6], .par 0, .put .err [9], .par 1, .par 1, .put .out [8],
   .par 2, .par 0, .par 1, .par 0, .par 1, .take [7]]

def copyRest : List Ev :=
  [.put .out [7], .shut .out, .shut .err, .par 0, .par 0, .par 1, .par 0, .par 0, .par 0, .par 0]

/-- `output_in_order`, `input_in_order`: in the middle. -/
example : ((run 2 [5, 6, 7] init copyHistory).map fun s => (s.out.got, s.out.q, s.err.got, received copyHistory)) =
    some ([5, 6, 8], [], [9], [5, 6, 7]) := by decide

/-- `input_complete_partial`: the process can be told of the end. -/
example : ((run 2 [5, 6, 7] init (copyHistory ++ [.eof])).map fun s => s.pc) = some .hup := by decide

/-- `output_complete_partial`, `ends`. -/
example : ((run 2 [5, 6, 7] init (copyHistory ++ .eof :: copyRest)).map fun s => (s.pc, s.out.got, s.err.got)) =
    some (.done, [5, 6, 8, 7], [9]) := by decide

/-- `no_deadlock`: the interpreter waits, with a full pipe to the process. -/
example : ((run 2 [5, 6, 7] init [.par 1, .par 0, .par 0, .par 2, .par 0]).map fun s =>
    (s.pc, s.inq, step 2 [5, 6, 7] s (.par 1))) = some (.poll, [5, 6], none) := by decide

/-- `process_fed`: with empty input, the process is told of the end in the first turn. -/
example : ((run 2 [] init [.par 0, .par 0, .par 0]).map fun s => (s.pc, s.pout, s.inrd)) = some (.inp, true, true) ∧
    ((run 2 [] init [.par 0, .par 0, .par 0, .par 1, .eof]).map fun s => s.pc) = some .hup := by decide

/-- `closed_once`: the loop goes on after the pipe was closed, and leaves it alone. -/
example : ((run 2 [] init [.par 0, .par 0, .par 0, .par 1, .par 0, .put .out [1], .par 0, .par 1, .par 0, .par 0,
    .par 0]).map fun s => (s.pc, s.iDone)) = some (.hup, true) := by decide

/-- `waits_in_poll`: after `poll` the outputs are read. -/
example : ((run 2 [5, 6, 7] init [.put .out [4], .par 1]).map fun s => (s.pc, s.pc.live)) = some (.rd .out, true) := by
  decide

/-- `killed_only`: the process reads one byte, then closes its standard input. -/
example : ((run 2 [5, 6, 7] init [.par 1, .par 0, .par 0, .par 2, .take [5], .shutIn, .par 0, .par 1, .par 0, .par 0,
    .par 1]).map fun s => s.pc) = some .killed := by decide

/-- `sigpipe_kills`: some input is not empty. -/
example : ([5, 6, 7] : List UInt8) ≠ [] := by decide

end Verif.Shell
