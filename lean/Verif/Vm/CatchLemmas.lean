import Verif.Vm.Catch
/-! # Lemmas about catching errors -/
namespace Verif.Vm.Catch

/-- The current message after freeing values. -/
def afterAll (vs : List Val) (last : Option Nat) : Option Nat := vs.foldl (fun l v => after v l) last

theorem popTo_spec (n : Nat) : ∀ (gs freed : List Val) (last : Option Nat), n ≤ gs.length →
    popTo n gs freed last = some (gs.drop (gs.length - n), freed ++ gs.take (gs.length - n), afterAll (gs.take (gs.length - n)) last) := by
  intro gs
  induction gs with
  | nil => intro freed last h; simp at h; subst h; simp [popTo, afterAll]
  | cons v gs ih =>
    intro freed last h
    rw [popTo]
    split
    · rename_i hn
      rw [List.length_cons, hn, Nat.sub_self]; simp [afterAll]
    · rename_i hn
      rw [List.length_cons] at h
      rw [ih _ _ (by omega), List.length_cons, show gs.length + 1 - n = gs.length - n + 1 by omega]
      simp [afterAll]

theorem unwindTo_spec (n : Nat) : ∀ (env : List Nat), n ≤ env.length → unwindTo n env = some (env.drop (env.length - n)) := by
  intro env
  induction env with
  | nil => intro h; simp at h; subst h; rfl
  | cons v gs ih =>
    intro h
    rw [unwindTo]
    split
    · rename_i hn
      rw [List.length_cons, hn, Nat.sub_self]; rfl
    · rename_i hn
      rw [List.length_cons] at h
      rw [ih (by omega), List.length_cons, show gs.length + 1 - n = gs.length - n + 1 by omega]
      rfl

/-- The catch frames fit to the stacks. -/
structure Inv (s : St) : Prop where
  frame : ∀ i, i < s.cf → ∃ fr, s.frames[i]? = some fr ∧ fr.cfDepth = i ∧ fr.gsDepth ≤ s.gs.length ∧ fr.envDepth ≤ s.env.length
  mono : ∀ i j fi fj, i < j → j < s.cf → s.frames[i]? = some fi → s.frames[j]? = some fj → fi.gsDepth ≤ fj.gsDepth ∧ fi.envDepth ≤ fj.envDepth

/-- The labels of the installed catches. -/
def labels (log : List Event) : List Nat := log.filterMap fun | .installed l _ _ _ _ => some l | .caught .. => none

/-- The records. -/
structure Rec (s : St) : Prop where
  values : s.pushed.Perm (s.freed ++ s.gs)
  events : ∀ l gs env cf last, Event.caught l gs env cf last ∈ s.log → Event.installed l gs env cf last ∈ s.log
  fresh : ∀ l ∈ labels s.log, l < s.next
  distinct : (labels s.log).Nodup

/-- How the end of a run relates to its start. -/
def Post (s : St) : Res → Prop
  | .normal s' => s'.gs = s.gs ∧ s'.env = s.env ∧ s'.last = s.last ∧ s'.cf = s.cf ∧ (∀ i, i < s.cf → s'.frames[i]? = s.frames[i]?) ∧ Rec s' ∧ (∀ e ∈ s.log, e ∈ s'.log)
  | .jumped l s' => 0 < s.cf ∧ ∃ fr, s.frames[s.cf - 1]? = some fr ∧ l = fr.jmp ∧ s'.gs = s.gs.drop (s.gs.length - fr.gsDepth) ∧
      s'.last = afterAll (s.gs.take (s.gs.length - fr.gsDepth)) s.last ∧ s'.env = s.env.drop (s.env.length - fr.envDepth) ∧
      s'.cf = s.cf - 1 ∧ (∀ i, i < s.cf - 1 → s'.frames[i]? = s.frames[i]?) ∧ Rec s' ∧ (∀ e ∈ s.log, e ∈ s'.log)
  | .exited s' => s.cf = 0 ∧ Rec s'

theorem Inv.of_same {s s' : St} (h : Inv s) (hg : s'.gs = s.gs) (he : s'.env = s.env) (hc : s'.cf = s.cf) (hf : ∀ i, i < s.cf → s'.frames[i]? = s.frames[i]?) : Inv s' where
  frame := by
    intro i hi
    rw [hc] at hi
    rw [hf i hi, hg, he]
    exact h.frame i hi
  mono := by
    intro i j fi fj hij hj hfi hfj
    rw [hc] at hj
    rw [hf i (by omega)] at hfi
    rw [hf j hj] at hfj
    exact h.mono i j fi fj hij hj hfi hfj

theorem Post.trans {s s1 : St} {r : Res} (h1 : Post s (.normal s1)) (h2 : Post s1 r) : Post s r := by
  obtain ⟨hg, he, hl, hc, hf, _, hlog⟩ := h1
  cases r with
  | normal s' =>
    obtain ⟨hg', he', hl', hc', hf', hr', hlog'⟩ := h2
    exact ⟨hg'.trans hg, he'.trans he, hl'.trans hl, hc'.trans hc, fun i hi => (hf' i (by omega)).trans (hf i hi), hr', fun e h => hlog' e (hlog e h)⟩
  | jumped l s' =>
    obtain ⟨hp, fr, hfr, hj, hg', hl', he', hc', hf', hr', hlog'⟩ := h2
    rw [hc] at hp hfr hf' hc'
    rw [hg] at hg' hl'
    rw [hl] at hl'
    rw [he] at he'
    rw [hf _ (by omega)] at hfr
    exact ⟨hp, fr, hfr, hj, hg', hl', he', hc', fun i hi => (hf' i hi).trans (hf i (by omega)), hr', fun e h => hlog' e (hlog e h)⟩
  | exited s' => exact ⟨hc ▸ h2.1, h2.2⟩

theorem throw_post (s : St) (hi : Inv s) (hr : Rec s) : ∃ r, throwImpl s = some r ∧ Post s r := by
  by_cases h0 : 0 < s.cf
  · obtain ⟨fr, hfr, hcf, hgs, henv⟩ := hi.frame (s.cf - 1) (by omega)
    have : throwImpl s = some (.jumped fr.jmp { s with
        gs := s.gs.drop (s.gs.length - fr.gsDepth), env := s.env.drop (s.env.length - fr.envDepth), cf := s.cf - 1,
        freed := s.freed ++ s.gs.take (s.gs.length - fr.gsDepth), last := afterAll (s.gs.take (s.gs.length - fr.gsDepth)) s.last }) := by
      rw [throwImpl, if_pos h0]
      simp only [hfr, Option.bind_some, if_pos hgs, popTo_spec _ _ _ _ hgs, if_pos henv, unwindTo_spec _ _ henv, hcf]
      rw [if_neg (by omega), Option.map_some]
    refine ⟨_, this, h0, fr, hfr, rfl, rfl, rfl, rfl, rfl, fun i _ => rfl, ⟨?_, hr.events, hr.fresh, hr.distinct⟩, fun e h => h⟩
    show s.pushed.Perm (s.freed ++ s.gs.take _ ++ s.gs.drop _)
    rw [List.append_assoc, List.take_append_drop]
    exact hr.values
  · have : throwImpl s = some (.exited { s with env := s.env.drop (s.env.length - 0) }) := by
      rw [throwImpl, if_neg h0, unwindTo_spec 0 _ (by omega)]; rfl
    exact ⟨_, this, by omega, ⟨hr.values, hr.events, hr.fresh, hr.distinct⟩⟩

theorem holding_post (gsMax : Nat) (v : Val) (last : Option Nat) (f : St → Option Res) (s : St) (hi : Inv s) (hr : Rec s) (hv : after v last = s.last)
    (hf : ∀ s, Inv s → Rec s → ∃ r, f s = some r ∧ Post s r) : ∃ r, holding gsMax v last f s = some r ∧ Post s r := by
  rw [holding]
  split
  · exact throw_post { s with thrown := 0 } ⟨hi.frame, hi.mono⟩ ⟨hr.values, hr.events, hr.fresh, hr.distinct⟩
  · have hi1 : Inv { s with gs := v :: s.gs, pushed := s.pushed ++ [v], last := last } := by
      refine ⟨fun i h => ?_, hi.mono⟩
      obtain ⟨fr, a, b, c, d⟩ := hi.frame i h
      exact ⟨fr, a, b, by simp; omega, d⟩
    have hr1 : Rec { s with gs := v :: s.gs, pushed := s.pushed ++ [v], last := last } := by
      refine ⟨?_, hr.events, hr.fresh, hr.distinct⟩
      show (s.pushed ++ [v]).Perm (s.freed ++ v :: s.gs)
      refine List.Perm.trans (List.perm_append_comm (l₁ := s.pushed) (l₂ := [v])) ?_
      refine List.Perm.trans (List.Perm.cons v hr.values) ?_
      exact List.perm_middle.symm
    obtain ⟨r, hrun, hpost⟩ := hf _ hi1 hr1
    rw [hrun]
    cases r with
    | normal s2 =>
      obtain ⟨hg, he, hl, hc, hfr, hrec, hlog⟩ := hpost
      refine ⟨.normal { s2 with gs := s.gs, freed := s2.freed ++ [v], last := after v s2.last }, by simp only [andThen, hg], rfl, he, ?_, hc, hfr, ⟨?_, hrec.events, hrec.fresh, hrec.distinct⟩, hlog⟩
      · show after v s2.last = s.last
        rw [hl]; exact hv
      · show s2.pushed.Perm (s2.freed ++ [v] ++ s.gs)
        have := hrec.values
        rw [hg] at this
        simpa using this
    | jumped l s2 =>
      obtain ⟨hp, fr, hfr, hj, hg, hl, he, hc, hfs, hrec, hlog⟩ := hpost
      obtain ⟨fr', hfr', _, hd, _⟩ := hi.frame (s.cf - 1) (by have : 0 < s.cf := hp; omega)
      have : fr' = fr := by
        have h : s.frames[s.cf - 1]? = some fr := hfr
        rw [hfr'] at h; injection h
      subst this
      refine ⟨_, rfl, hp, fr', hfr, hj, ?_, ?_, he, hc, hfs, hrec, hlog⟩
      · rw [hg]; simp only [List.length_cons]
        rw [show s.gs.length + 1 - fr'.gsDepth = s.gs.length - fr'.gsDepth + 1 by omega]; rfl
      · rw [hl]; simp only [List.length_cons]
        rw [show s.gs.length + 1 - fr'.gsDepth = s.gs.length - fr'.gsDepth + 1 by omega, List.take_succ_cons, afterAll, List.foldl_cons, hv]; rfl
    | exited s2 => exact ⟨_, rfl, hpost.1, hpost.2⟩

theorem prepare_spec (junk : Frame) (s : St) (hi : Inv s) (hr : Rec s) : ∃ s1, prepareCatch junk s = some s1 ∧ Inv s1 ∧ Rec s1 ∧ s1.gs = s.gs ∧ s1.env = s.env ∧ s1.last = s.last ∧
    s1.cf = s.cf + 1 ∧ (∀ i, i < s.cf → s1.frames[i]? = s.frames[i]?) ∧ s1.frames[s.cf]? = some ⟨s.next, s.gs.length, s.env.length, s.cf⟩ ∧
    (∀ e ∈ s.log, e ∈ s1.log) ∧ Event.installed s.next s.gs s.env s.cf s.last ∈ s1.log := by
  have hle : s.cf ≤ s.frames.length := by
    rcases Nat.eq_zero_or_pos s.cf with h | h
    · omega
    · obtain ⟨fr, hfr, _⟩ := hi.frame (s.cf - 1) (by omega)
      have := (List.getElem?_eq_some_iff.1 hfr).1
      omega
  generalize hF : (if s.cf = s.frames.length then s.frames ++ List.replicate ((if s.frames.length < 8 then 8 else s.frames.length * 2) - s.frames.length) junk else s.frames) = F
  have hlt : s.cf < F.length := by
    rw [← hF]
    split
    · rw [List.length_append, List.length_replicate]; split <;> omega
    · omega
  have hold : ∀ i, i < s.cf → F[i]? = s.frames[i]? := by
    intro i h
    rw [← hF]
    split
    · rw [List.getElem?_append_left (by omega)]
    · rfl
  have hset : ∀ i, i < s.cf → (F.set s.cf ⟨s.next, s.gs.length, s.env.length, s.cf⟩)[i]? = s.frames[i]? := by
    intro i h
    rw [List.getElem?_set_ne (by omega), hold i h]
  have hnew : (F.set s.cf ⟨s.next, s.gs.length, s.env.length, s.cf⟩)[s.cf]? = some ⟨s.next, s.gs.length, s.env.length, s.cf⟩ := by
    rw [List.getElem?_set_self hlt]
  have heq : prepareCatch junk s = some { s with
      frames := F.set s.cf ⟨s.next, s.gs.length, s.env.length, s.cf⟩, cf := s.cf + 1, next := s.next + 1,
      log := s.log ++ [.installed s.next s.gs s.env s.cf s.last] } := by
    rw [prepareCatch]; simp only [hF, if_pos hlt]
  refine ⟨_, heq, ⟨?_, ?_⟩, ⟨hr.values, ?_, ?_, ?_⟩, rfl, rfl, rfl, rfl, hset, hnew, fun e h => List.mem_append_left _ h, by simp⟩
  · intro i h
    show ∃ fr, (F.set _ _)[i]? = some fr ∧ _
    by_cases h' : i < s.cf
    · rw [hset i h']; exact hi.frame i h'
    · have : i = s.cf := by have : i < s.cf + 1 := h; omega
      subst this
      exact ⟨_, hnew, rfl, Nat.le_refl _, Nat.le_refl _⟩
  · intro i j fi fj hij hj hfi hfj
    have hj : j < s.cf + 1 := hj
    have hfi : (F.set s.cf ⟨s.next, s.gs.length, s.env.length, s.cf⟩)[i]? = some fi := hfi
    have hfj : (F.set s.cf ⟨s.next, s.gs.length, s.env.length, s.cf⟩)[j]? = some fj := hfj
    rw [hset i (by omega)] at hfi
    by_cases h' : j < s.cf
    · rw [hset j h'] at hfj
      exact hi.mono i j fi fj hij h' hfi hfj
    · have : j = s.cf := by omega
      subst this
      rw [hnew] at hfj
      injection hfj with hfj
      subst hfj
      obtain ⟨fr, hfr, _, h1, h2⟩ := hi.frame i (by omega)
      rw [hfr] at hfi; injection hfi with hfi; subst hfi
      exact ⟨h1, h2⟩
  · intro l gs env cf last h
    rw [List.mem_append] at h ⊢
    rcases h with h | h
    · exact .inl (hr.events l gs env cf last h)
    · simp at h
  · intro l h
    simp only [labels, List.filterMap_append, List.mem_append] at h
    rcases h with h | h
    · exact Nat.lt_succ_of_lt (hr.fresh l h)
    · simp at h; subst h; exact Nat.lt_succ_self _
  · simp only [labels, List.filterMap_append]
    rw [List.nodup_append]
    refine ⟨hr.distinct, by simp, ?_⟩
    intro a ha b hb
    simp at hb; subst hb
    have := hr.fresh a ha
    omega

theorem run_post (junk : Frame) (gsMax envMax : Nat) : ∀ (p : Prog) (s : St), Inv s → Rec s → ∃ r, run junk gsMax envMax p s = some r ∧ Post s r := by
  intro p
  induction p with
  | skip => intro s _ hr; exact ⟨_, rfl, rfl, rfl, rfl, rfl, fun _ _ => rfl, hr, fun _ h => h⟩
  | throw m => intro s hi hr; exact throw_post { s with thrown := m } ⟨hi.frame, hi.mono⟩ ⟨hr.values, hr.events, hr.fresh, hr.distinct⟩
  | seq p q ihp ihq =>
    intro s hi hr
    obtain ⟨r, h1, hp⟩ := ihp s hi hr
    rw [run, h1]
    cases r with
    | normal s1 =>
      obtain ⟨r2, h2, hp2⟩ := ihq s1 (hi.of_same hp.1 hp.2.1 hp.2.2.2.1 hp.2.2.2.2.1) hp.2.2.2.2.2.1
      exact ⟨r2, h2, hp.trans hp2⟩
    | jumped l s1 => exact ⟨_, rfl, hp⟩
    | exited s1 => exact ⟨_, rfl, hp⟩
  | hold v p ih => intro s hi hr; rw [run]; exact holding_post gsMax _ _ _ s hi hr rfl ih
  | call sc p ih =>
    intro s hi hr
    rw [run]
    split
    · exact throw_post { s with thrown := 0 } ⟨hi.frame, hi.mono⟩ ⟨hr.values, hr.events, hr.fresh, hr.distinct⟩
    · have hi1 : Inv { s with env := sc :: s.env } := by
        refine ⟨fun i h => ?_, hi.mono⟩
        obtain ⟨fr, a, b, c, d⟩ := hi.frame i h
        exact ⟨fr, a, b, c, by simp; omega⟩
      obtain ⟨r, hrun, hpost⟩ := ih _ hi1 ⟨hr.values, hr.events, hr.fresh, hr.distinct⟩
      rw [hrun]
      cases r with
      | normal s2 =>
        obtain ⟨hg, he, hl, hc, hfr, hrec, hlog⟩ := hpost
        exact ⟨.normal { s2 with env := s.env }, by simp only [andThen, he], hg, rfl, hl, hc, hfr, ⟨hrec.values, hrec.events, hrec.fresh, hrec.distinct⟩, hlog⟩
      | jumped l s2 =>
        obtain ⟨hp, fr, hfr, hj, hg, hl, he, hc, hfs, hrec, hlog⟩ := hpost
        obtain ⟨fr', hfr', _, _, hd⟩ := hi.frame (s.cf - 1) (by have : 0 < s.cf := hp; omega)
        have : fr' = fr := by
          have h : s.frames[s.cf - 1]? = some fr := hfr
          rw [hfr'] at h; injection h
        subst this
        refine ⟨_, rfl, hp, fr', hfr, hj, hg, hl, ?_, hc, hfs, hrec, hlog⟩
        rw [he]; simp only [List.length_cons]
        rw [show s.env.length + 1 - fr'.envDepth = s.env.length - fr'.envDepth + 1 by omega]; rfl
      | exited s2 => exact ⟨_, rfl, hpost.1, hpost.2⟩
  | catching p h ihp ihh =>
    intro s hi hr
    obtain ⟨s1, hprep, hi1, hr1, hg1, he1, hl1, hc1, hf1, hnew, hlog1, hev⟩ := prepare_spec junk s hi hr
    obtain ⟨r, hrun, hpost⟩ := ihp s1 hi1 hr1
    rw [run, hprep, Option.bind_some, hrun]
    cases r with
    | normal s2 =>
      obtain ⟨hg, he, hl, hc, hfr, hrec, hlog⟩ := hpost
      have hpop : popCatch s2 = some { s2 with cf := s2.cf - 1 } := if_pos (by omega)
      refine ⟨.normal { s2 with cf := s2.cf - 1 }, by simp only [hpop, Option.map_some], hg.trans hg1, he.trans he1, hl.trans hl1, ?_, fun i hi => (hfr i (by omega)).trans (hf1 i hi),
        ⟨hrec.values, hrec.events, hrec.fresh, hrec.distinct⟩, fun e h => hlog e (hlog1 e h)⟩
      show s2.cf - 1 = s.cf
      omega
    | jumped l s2 =>
      obtain ⟨hp, fr, hfr, hj, hg, hl, he, hc, hfs, hrec, hlog⟩ := hpost
      rw [hc1, Nat.add_sub_cancel, hnew] at hfr
      injection hfr with hfr
      subst hfr
      have hj : l = s.next := hj
      rw [hc1, Nat.add_sub_cancel] at hc hfs
      simp only [hg1, Nat.sub_self, List.drop_zero] at hg
      simp only [hg1, Nat.sub_self, List.take_zero, hl1] at hl
      have hl : s2.last = s.last := hl
      simp only [he1, Nat.sub_self, List.drop_zero] at he
      have hsame : ∀ i, i < s.cf → s2.frames[i]? = s.frames[i]? := fun i hi => (hfs i hi).trans (hf1 i hi)
      simp only [if_pos hj]
      have hrec' : Rec { s2 with log := s2.log ++ [Event.caught l s2.gs s2.env s2.cf s2.last] } := by
        refine ⟨hrec.values, ?_, ?_, ?_⟩
        · intro l' gs env cf last h
          rw [List.mem_append] at h ⊢
          left
          rcases h with h | h
          · exact hrec.events _ _ _ _ _ h
          · rw [List.mem_singleton] at h
            injection h with a b c d e
            subst a; subst b; subst c; subst d; subst e
            rw [hj, hg, he, hc, hl]
            exact hlog _ hev
        · intro l h
          refine hrec.fresh l ?_
          simpa [labels, List.filterMap_append] using h
        · have := hrec.distinct
          simpa [labels, List.filterMap_append] using this
      have hi2 : Inv { s2 with log := s2.log ++ [Event.caught l s2.gs s2.env s2.cf s2.last] } :=
        hi.of_same hg he hc hsame
      obtain ⟨r, hr2, hp2⟩ := holding_post gsMax (.re s2.last) (some s2.thrown) (run junk gsMax envMax h) _ hi2 hrec' rfl ihh
      refine ⟨r, hr2, Post.trans (s1 := { s2 with log := s2.log ++ [Event.caught l s2.gs s2.env s2.cf s2.last] }) ?_ hp2⟩
      exact ⟨hg, he, hl, hc, hsame, hrec', fun e h => List.mem_append_left _ (hlog e (hlog1 e h))⟩
    | exited s2 => exact absurd hpost.1 (by omega)

end Verif.Vm.Catch
