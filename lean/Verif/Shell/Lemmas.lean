import Verif.Shell.Model
namespace Verif.Shell

theorem wrote_append (e : Stream) (a b : List Ev) : wrote e (a ++ b) = wrote e a ++ wrote e b := by
  induction a with
  | nil => rfl
  | cons x a ih =>
    cases x <;> simp only [List.cons_append, wrote, ih]
    split <;> simp

theorem received_append (a b : List Ev) : received (a ++ b) = received a ++ received b := by
  induction a with
  | nil => rfl
  | cons x a ih => cases x <;> simp [received, ih]

theorem run_append (cap : Nat) (input : List UInt8) (s : State) (a b : List Ev) :
    run cap input s (a ++ b) = (run cap input s a).bind fun s' => run cap input s' b := by
  induction a generalizing s with
  | nil => rfl
  | cons x a ih =>
    simp only [List.cons_append, run]
    cases step cap input s x with
    | none => rfl
    | some s' => exact ih s'

/-- Induction over histories, with the last event last. -/
theorem run_ind {cap : Nat} {input : List UInt8} {P : List Ev → State → Prop} (h0 : P [] init)
    (hs : ∀ evs s ev s', run cap input init evs = some s → P evs s → step cap input s ev = some s' →
      P (evs ++ [ev]) s') :
    ∀ (n : Nat) evs s, evs.length = n → run cap input init evs = some s → P evs s := by
  intro n
  induction n with
  | zero =>
    intro evs s hl h
    cases evs with
    | nil => injection h with h; exact h ▸ h0
    | cons _ _ => exact nomatch hl
  | succ n ih =>
    intro evs s hl h
    have hne : evs ≠ [] := by intro h0; rw [h0] at hl; exact nomatch hl
    have he := List.dropLast_concat_getLast hne
    rw [← he, run_append] at h
    cases h1 : run cap input init evs.dropLast with
    | none => rw [h1] at h; exact nomatch h
    | some s1 =>
      rw [h1] at h
      have h : run cap input s1 [evs.getLast hne] = some s := h
      simp only [run] at h
      cases h2 : step cap input s1 (evs.getLast hne) with
      | none => rw [h2] at h; exact nomatch h
      | some s2 =>
        rw [h2] at h
        injection h with h
        rw [← he]
        exact hs _ _ _ _ h1 (ih _ _ (by rw [List.length_dropLast, hl]; rfl) h1) (h ▸ h2)

/-- The interpreter is past the reading of an output. -/
def past : Stream → Pc → Bool
  | .out, .rd .err => true
  | _, .inp => true
  | _, .hup => true
  | _, _ => false

/-- What holds of an output. -/
structure Good (e : Stream) (evs : List Ev) (pc : Pc) (c : Chan) : Prop where
  all : c.got ++ c.q = wrote e evs
  hup : c.phup = true → c.wr = false
  nopin : c.phup = true → c.pin = false → c.q = []
  past : c.phup = true → past e pc = true → c.q = []
  done : pc = .done → c.wr = false ∧ c.q = []
  shut : c.wr = false → .shut e ∈ evs

/-- What holds of the standard input. -/
structure GoodIn (input : List UInt8) (evs : List Ev) (s : State) : Prop where
  le : s.iOff ≤ input.length
  all : received evs ++ s.inq = input.take s.iOff
  fin : s.iDone = true → s.iOff = input.length
  rd : s.inrd = false → .shutIn ∈ evs
  killed : s.pc = .killed → s.inrd = false ∧ s.iOff < input.length
  bad : s.pc ≠ .bad

theorem chan_set (s : State) (c : Chan) (e e' : Stream) :
    (s.setChan c e).chan e' = if e = e' then c else s.chan e' := by
  cases e <;> cases e' <;> rfl

theorem set_pc (s : State) (c : Chan) (e : Stream) : (s.setChan c e).pc = s.pc := by cases e <;> rfl

theorem good_mono {e : Stream} {evs : List Ev} {pc : Pc} {c : Chan} (ev : Ev) (h : Good e evs pc c)
    (hw : wrote e [ev] = []) : Good e (evs ++ [ev]) pc c :=
  ⟨by rw [wrote_append, hw, List.append_nil]; exact h.all, h.hup, h.nopin, h.past, h.done,
   fun hh => List.mem_append_left _ (h.shut hh)⟩

/-- Moving on. -/
theorem good_pc {e : Stream} {evs : List Ev} {pc : Pc} {c : Chan} (pc' : Pc) (h : Good e evs pc c)
    (hp : past e pc' = true → c.phup = true → c.q = []) (hd : pc' = .done → c.wr = false ∧ c.q = []) :
    Good e evs pc' c :=
  ⟨h.all, h.hup, h.nopin, fun a b => hp b a, hd, h.shut⟩

theorem good_poll {e : Stream} {evs : List Ev} {pc : Pc} {c : Chan} (h : Good e evs pc c) :
    Good e evs (.rd .out) c.poll := by
  refine ⟨h.all, ?_, ?_, ?_, nofun, h.shut⟩
  · intro hh
    simpa [Chan.poll] using hh
  · intro _ hh
    simpa [Chan.poll] using hh
  · intro _ hh
    cases e <;> exact nomatch hh

theorem good_step {cap : Nat} {input : List UInt8} {evs : List Ev} {s s' : State} {ev : Ev} (e : Stream)
    (h : Good e evs s.pc (s.chan e)) (hs : step cap input s ev = some s') :
    Good e (evs ++ [ev]) s'.pc (s'.chan e) := by
  cases ev with
  | put e' bs =>
    simp only [step] at hs
    split at hs
    · rename_i hc
      injection hs with hs
      subst hs
      rw [set_pc, chan_set]
      by_cases he : e' = e
      · subst he
        rw [if_pos rfl]
        obtain ⟨hw, hl, _, _⟩ := hc
        refine ⟨?_, h.hup, ?_, ?_, ?_, fun hh => List.mem_append_left _ (h.shut hh)⟩
        · dsimp only
          rw [wrote_append, ← h.all]
          simp [wrote]
        · intro hh _
          have := h.hup hh
          rw [hw] at this; exact nomatch this
        · intro hh _
          have := h.hup hh
          rw [hw] at this; exact nomatch this
        · intro hh
          rw [hh] at hl; exact nomatch hl
      · rw [if_neg he]
        exact good_mono _ h (by simp [wrote, he])
    · exact nomatch hs
  | shut e' =>
    simp only [step] at hs
    split at hs
    · injection hs with hs
      subst hs
      rw [set_pc, chan_set]
      have hm := good_mono (.shut e') h rfl
      by_cases he : e' = e
      · subst he
        rw [if_pos rfl]
        exact ⟨hm.all, fun _ => rfl, hm.nopin, hm.past, fun hh => ⟨rfl, (hm.done hh).2⟩, fun _ => by simp⟩
      · rw [if_neg he]; exact hm
    · exact nomatch hs
  | take bs =>
    simp only [step] at hs
    split at hs
    · injection hs with hs
      subst hs
      have hm := good_mono (.take bs) h rfl
      cases e <;> exact hm
    · exact nomatch hs
  | eof =>
    simp only [step] at hs
    split at hs
    · injection hs with hs
      subst hs
      exact good_mono .eof h rfl
    · exact nomatch hs
  | shutIn =>
    simp only [step] at hs
    split at hs
    · injection hs with hs
      subst hs
      have hm := good_mono .shutIn h rfl
      cases e <;> exact hm
    · exact nomatch hs
  | fail =>
    simp only [step] at hs
    split at hs
    · injection hs with hs
      subst hs
      have hm := good_pc .cut (good_mono .fail h rfl) (by intro hh; cases e <;> exact nomatch hh) nofun
      cases e <;> exact hm
    · exact nomatch hs
  | par k =>
    have hm := good_mono (.par k) h rfl
    revert hm
    generalize evs ++ [Ev.par k] = evs'
    intro hm
    simp only [step, par] at hs
    split at hs
    · split at hs
      · injection hs with hs
        subst hs
        have := good_poll hm
        cases e <;> exact this
      · exact nomatch hs
    · rename_i e' hpc
      split at hs
      · rename_i hc
        injection hs with hs
        subst hs
        have key : Good e evs' (Pc.after e') (s.chan e) := by
          refine good_pc _ hm ?_ (by cases e' <;> exact nofun)
          intro hp hh
          by_cases he : e' = e
          · subst he
            rcases hc with hc | hc
            · exact h.nopin hh hc
            · exact hc
          · apply h.past hh
            rw [hpc]
            cases e <;> cases e' <;> first | rfl | contradiction | exact nomatch hp
        cases e <;> exact key
      · split at hs
        · injection hs with hs
          subst hs
          rw [set_pc, chan_set]
          by_cases he : e' = e
          · subst he
            rw [if_pos rfl]
            refine ⟨?_, hm.hup, ?_, ?_, ?_, hm.shut⟩
            · dsimp only
              rw [List.append_assoc, List.take_append_drop]; exact hm.all
            · intro a b
              dsimp only at a b ⊢
              rw [hm.nopin a b, List.drop_nil]
            · intro a b
              dsimp only at a b ⊢
              rw [hm.past a b, List.drop_nil]
            · intro a
              rw [hpc] at a; exact nomatch a
          · rw [if_neg he]; exact hm
        · exact nomatch hs
    · rename_i hpc
      have hp : ∀ pc', pc' ≠ .done → Good e evs' pc' (s.chan e) := fun pc' hd =>
        good_pc pc' hm (fun _ hh => h.past hh (by rw [hpc]; cases e <;> rfl)) (fun hh => absurd hh hd)
      split at hs
      · rw [if_neg (show ¬ s.iDone = true by rename_i hd; revert hd; cases s.iDone <;> simp)] at hs
        split at hs
        · injection hs with hs
          subst hs
          have := hp .hup nofun
          cases e <;> exact this
        · split at hs
          · injection hs with hs
            subst hs
            have := hp .killed nofun
            cases e <;> exact this
          · split at hs
            · injection hs with hs
              subst hs
              have := hp .hup nofun
              cases e <;> exact this
            · split at hs
              · injection hs with hs
                subst hs
                have := hp .hup nofun
                cases e <;> exact this
              · exact nomatch hs
      · injection hs with hs
        subst hs
        have := hp .hup nofun
        cases e <;> exact this
    · rename_i hpc
      injection hs with hs
      subst hs
      have hq : (s.chan e).phup = true → (s.chan e).q = [] := fun hh => h.past hh (by rw [hpc]; cases e <;> rfl)
      by_cases hh : (s.out.phup && s.err.phup) = true
      · have hph : (s.chan e).phup = true := by
          rw [Bool.and_eq_true] at hh
          cases e
          · exact hh.1
          · exact hh.2
        have := good_pc .done hm (fun _ => hq) (fun _ => ⟨h.hup hph, hq hph⟩)
        rw [if_pos hh]
        cases e <;> exact this
      · have := good_pc .poll hm (fun _ => hq) nofun
        rw [if_neg hh]
        cases e <;> exact this
    · exact nomatch hs

theorem goodIn_mono {input : List UInt8} {evs : List Ev} {s s' : State} (ev : Ev) (h : GoodIn input evs s)
    (hr : received [ev] = []) (h1 : s'.iOff = s.iOff) (h2 : s'.inq = s.inq) (h3 : s'.iDone = s.iDone)
    (h4 : s'.inrd = s.inrd) (h5 : s'.pc = .killed → s.pc = .killed)
    (h6 : s'.pc = .bad → s.pc = .bad) : GoodIn input (evs ++ [ev]) s' := by
  refine ⟨h1 ▸ h.le, ?_, ?_, ?_, ?_, fun hh => h.bad (h6 hh)⟩
  · rw [received_append, hr, List.append_nil, h1, h2]; exact h.all
  · rw [h3, h1]; exact h.fin
  · rw [h4]; exact fun hh => List.mem_append_left _ (h.rd hh)
  · rw [h4, h1]; exact fun hh => h.killed (h5 hh)

theorem goodIn_step {cap : Nat} {input : List UInt8} {evs : List Ev} {s s' : State} {ev : Ev}
    (h : GoodIn input evs s) (hs : step cap input s ev = some s') : GoodIn input (evs ++ [ev]) s' := by
  cases ev with
  | put e' bs =>
    simp only [step] at hs
    split at hs
    · injection hs with hs
      subst hs
      cases e' <;> exact goodIn_mono _ h rfl rfl rfl rfl rfl id id
    · exact nomatch hs
  | shut e' =>
    simp only [step] at hs
    split at hs
    · injection hs with hs
      subst hs
      cases e' <;> exact goodIn_mono _ h rfl rfl rfl rfl rfl id id
    · exact nomatch hs
  | take bs =>
    simp only [step] at hs
    split at hs
    · rename_i hc
      obtain ⟨_, _, hb⟩ := hc
      injection hs with hs
      subst hs
      refine ⟨h.le, ?_, h.fin, fun hh => List.mem_append_left _ (h.rd hh), h.killed, h.bad⟩
      rw [received_append, ← h.all]
      have e1 : received [Ev.take bs] = bs := by simp [received]
      rw [e1]
      dsimp only
      rw [List.append_assoc]
      congr 1
      conv => lhs; lhs; rw [hb]
      exact List.take_append_drop _ _
    · exact nomatch hs
  | eof =>
    simp only [step] at hs
    split at hs
    · injection hs with hs
      subst hs
      exact goodIn_mono _ h rfl rfl rfl rfl rfl id id
    · exact nomatch hs
  | shutIn =>
    simp only [step] at hs
    split at hs
    · injection hs with hs
      subst hs
      refine ⟨h.le, ?_, h.fin, fun _ => by simp, fun hh => ⟨rfl, (h.killed hh).2⟩, h.bad⟩
      rw [received_append]
      simpa [received] using h.all
    · exact nomatch hs
  | fail =>
    simp only [step] at hs
    split at hs
    · injection hs with hs
      subst hs
      exact goodIn_mono _ h rfl rfl rfl rfl rfl nofun nofun
    · exact nomatch hs
  | par k =>
    simp only [step, par] at hs
    split at hs
    · split at hs
      · injection hs with hs
        subst hs
        exact goodIn_mono _ h rfl rfl rfl rfl rfl nofun nofun
      · exact nomatch hs
    · rename_i e' hpc
      split at hs
      · injection hs with hs
        subst hs
        exact goodIn_mono _ h rfl rfl rfl rfl rfl (by cases e' <;> exact nofun)
          (by cases e' <;> exact nofun)
      · split at hs
        · injection hs with hs
          subst hs
          cases e' <;> exact goodIn_mono _ h rfl rfl rfl rfl rfl id id
        · exact nomatch hs
    · rename_i hpc
      have hl := h.le
      split at hs
      · rename_i hd
        rw [if_neg (show ¬ s.iDone = true by revert hd; cases s.iDone <;> simp)] at hs
        split at hs
        · rename_i hz
          injection hs with hs
          subst hs
          refine ⟨h.le, ?_, fun _ => ?_, fun hh => List.mem_append_left _ (h.rd hh), nofun, nofun⟩
          · rw [received_append]; simpa [received] using h.all
          · dsimp only; omega
        · rename_i hz
          split at hs
          · rename_i hrd
            injection hs with hs
            subst hs
            refine ⟨h.le, ?_, h.fin, fun hh => List.mem_append_left _ (h.rd hh), fun _ => ⟨hrd, ?_⟩, nofun⟩
            · rw [received_append]; simpa [received] using h.all
            · dsimp only; omega
          · split at hs
            · injection hs with hs
              subst hs
              exact goodIn_mono _ h rfl rfl rfl rfl rfl nofun nofun
            · split at hs
              · rename_i hk
                injection hs with hs
                subst hs
                refine ⟨?_, ?_, ?_, fun hh => List.mem_append_left _ (h.rd hh), nofun, nofun⟩
                · dsimp only; omega
                · dsimp only
                  rw [received_append, List.take_add, ← h.all]
                  simp [received]
                · exact fun hh => of_decide_eq_true hh
              · exact nomatch hs
      · injection hs with hs
        subst hs
        exact goodIn_mono _ h rfl rfl rfl rfl rfl nofun nofun
    · injection hs with hs
      subst hs
      refine goodIn_mono _ h rfl rfl rfl rfl rfl ?_ ?_
      · dsimp only
        split <;> exact nofun
      · dsimp only
        split <;> exact nofun
    · exact nomatch hs

theorem good_run {cap : Nat} {input : List UInt8} {evs : List Ev} {s : State}
    (h : run cap input init evs = some s) (e : Stream) : Good e evs s.pc (s.chan e) := by
  refine run_ind (P := fun evs s => Good e evs s.pc (s.chan e)) ?_ ?_ _ _ _ rfl h
  · cases e <;> exact ⟨rfl, nofun, nofun, nofun, nofun, nofun⟩
  · exact fun _ _ _ _ _ a b => good_step e a b

theorem goodIn_run {cap : Nat} {input : List UInt8} {evs : List Ev} {s : State}
    (h : run cap input init evs = some s) : GoodIn input evs s := by
  refine run_ind (P := fun evs s => GoodIn input evs s) ?_ ?_ _ _ _ rfl h
  · exact ⟨Nat.zero_le _, rfl, nofun, nofun, nofun, nofun⟩
  · exact fun _ _ _ _ _ a b => goodIn_step a b

end Verif.Shell
