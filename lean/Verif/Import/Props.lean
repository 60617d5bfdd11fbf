import Verif.Import.Model
/-!
# Importing files: properties
-/
namespace Verif.Import
variable {ι V σ : Type} [DecidableEq ι]

def toSt : Option (Tag V) → St V
  | none => .idle
  | some .running => .running
  | some (.val v) => .done v

def Inv (a : S ι V σ) : Prop := Legal a.log fun q => toSt (a.map q)

theorem Inv.note {a : S ι V σ} (h : Inv a) {e : Ev ι V} {p : ι} {t : Option (Tag V)} (hs : Step e p (toSt (a.map p)) (toSt t)) : Inv ((a.set p t).note e) := by
  have := Legal.snoc h hs
  unfold Inv S.note S.set
  dsimp only
  rwa [show (fun q => toSt (if q = p then t else a.map q)) = fun q => if q = p then toSt t else toSt (a.map q) from funext fun q => by split <;> rfl]

theorem set_same {a : S ι V σ} {p : ι} : a.set p (a.map p) = a := by
  unfold S.set
  congr
  funext q
  split
  · subst q; rfl
  · rfl

/-- What running something keeps: the history stays legal, and in the end the same files are running. -/
structure Keeps (a : S ι V σ) (o : Out ι V σ) : Prop where
  inv : Inv o.st
  run : ∀ q, (∀ b, o ≠ .out b) → (o.st.map q = some .running ↔ a.map q = some .running)
  up : ∀ q, a.map q = some .running → o.st.map q = some .running

theorem import1_keeps {exec : ι → S ι V σ → Out ι V σ} (he : ∀ p a, Inv a → Keeps a (exec p a)) (p : ι) {a : S ι V σ} (h : Inv a) : Keeps a (import1 exec p a) := by
  unfold import1
  cases hm : a.map p with
  | none =>
    dsimp only
    have h1 : Inv ((a.set p (some .running)).note (.start p)) := h.note (by rw [hm]; exact .start)
    have hk := he p _ h1
    have hp : ((a.set p (some .running)).note (.start p)).map p = some .running := by simp [S.set, S.note]
    have hup := hk.up p hp
    have hq : ∀ q, q ≠ p → ((a.set p (some .running)).note (.start p)).map q = a.map q := by intro q hq; simp [S.set, S.note, hq]
    revert hk hup
    cases exec p ((a.set p (some .running)).note (.start p)) with
    | ok r b =>
      intro hk hup
      have hup : b.map p = some .running := hup
      refine ⟨?_, ?_, ?_⟩
      · exact Inv.note hk.inv (by show Step _ _ (toSt (b.map p)) _; rw [hup]; exact .first)
      · intro q _
        have := hk.run q (by nofun)
        by_cases c : q = p
        · subst c
          simp [Out.st, S.set, S.note, hm]
        · rw [hq q c] at this
          rw [← this]
          simp [Out.st, S.set, S.note, c]
      · intro q hr
        have hc : q ≠ p := by rintro rfl; rw [hm] at hr; cases hr
        have := hk.up q (by rw [hq q hc]; exact hr)
        simpa [Out.st, S.set, S.note, hc] using this
    | err b =>
      intro hk hup
      have hup : b.map p = some .running := hup
      refine ⟨?_, ?_, ?_⟩
      · exact Inv.note hk.inv (by show Step _ _ (toSt (b.map p)) _; rw [hup]; exact .fails)
      · intro q _
        have := hk.run q (by nofun)
        by_cases c : q = p
        · subst c
          simp [Out.st, S.set, S.note, hm]
        · rw [hq q c] at this
          rw [← this]
          simp [Out.st, S.set, S.note, c]
      · intro q hr
        have hc : q ≠ p := by rintro rfl; rw [hm] at hr; cases hr
        have := hk.up q (by rw [hq q hc]; exact hr)
        simpa [Out.st, S.set, S.note, hc] using this
    | out b =>
      intro hk hup
      refine ⟨hk.inv, fun q hn => absurd rfl (hn b), ?_⟩
      intro q hr
      have hc : q ≠ p := by rintro rfl; rw [hm] at hr; cases hr
      exact hk.up q (by rw [hq q hc]; exact hr)
  | some t => cases t with
    | running =>
      dsimp only
      have := h.note (e := .cyclic p) (t := a.map p) (p := p) (by rw [hm]; exact .cyclic)
      rw [set_same] at this
      exact ⟨this, fun _ _ => Iff.rfl, fun _ h => h⟩
    | val v =>
      dsimp only
      have := h.note (e := .gives p v) (t := a.map p) (p := p) (by rw [hm]; exact .again)
      rw [set_same] at this
      exact ⟨this, fun _ _ => Iff.rfl, fun _ h => h⟩

theorem Keeps.trans {a b : S ι V σ} {o o' : Out ι V σ} (h1 : Keeps a o) (hb : o.st = b) (hn : ∀ c, o ≠ .out c) (h2 : Keeps b o') : Keeps a o' := by
  subst hb
  exact ⟨h2.inv, fun q h => (h2.run q h).trans (h1.run q hn), fun q h => h2.up q (h1.up q h)⟩

theorem runP_keeps {exec : Option V → ι → S ι V σ → Out ι V σ} (he : ∀ w p a, Inv a → Keeps a (exec w p a)) (m : Prog ι V σ) : ∀ {a : S ι V σ}, Inv a → Keeps a (runP exec m a) := by
  induction m with
  | ret v => exact fun h => ⟨h, fun _ _ => Iff.rfl, fun _ h => h⟩
  | fail => exact fun h => ⟨h, fun _ _ => Iff.rfl, fun _ h => h⟩
  | act f k ih =>
    intro a h
    have := ih (f a.s).1 (a := { a with s := (f a.s).2 }) h
    exact ⟨this.inv, this.run, this.up⟩
  | imp p k ih =>
    intro a h
    have h1 := import1_keeps (he none) p h
    rw [runP]
    revert h1
    cases import1 (exec none) p a with
    | ok v b => exact fun h1 => h1.trans rfl nofun (ih v h1.inv)
    | err b => exact id
    | out b => exact id
  | imp2 p w k ih =>
    intro a h
    have h1 := he (some w) p a h
    rw [runP]
    revert h1
    cases exec (some w) p a with
    | ok v b => exact fun h1 => h1.trans rfl nofun (ih v h1.inv)
    | err b => exact id
    | out b => exact id
  | «catch» b g k ihb ihg ih =>
    intro a h
    have h1 := ihb h
    rw [runP]
    revert h1
    cases runP exec b a with
    | ok v b => exact fun h1 => h1.trans rfl nofun (ih v h1.inv)
    | err b =>
      intro h1
      have h2 := h1.trans rfl nofun (ihg h1.inv)
      dsimp only [Out.st] at h2 ⊢
      revert h2
      cases runP exec g b with
      | ok v b => exact fun h2 => h2.trans rfl nofun (ih v h2.inv)
      | err b => exact id
      | out b => exact id
    | out b => exact id

theorem exec_keeps (files : ι → Option V → Prog ι V σ) (n : Nat) : ∀ w p (a : S ι V σ), Inv a → Keeps a (exec files n w p a) := by
  induction n with
  | zero => exact fun w p a h => ⟨h, fun q hn => absurd rfl (hn a), fun _ h => h⟩
  | succ n ih => exact fun w p a h => runP_keeps ih _ h

theorem run_keeps (files : ι → Option V → Prog ι V σ) (n : Nat) (m : Prog ι V σ) (s : σ) : Keeps ⟨fun _ => none, s, []⟩ (run files n m s) :=
  runP_keeps (exec_keeps files n) m .nil

/-- Whatever programs do, what happens at imports is legal: a file is run only if it isn't running and hasn't given a value; the value it gives is what all imports of it return; an import is refused as cyclic only while the file is running; if it fails it may be run again. -/
theorem imports_legal (files : ι → Option V → Prog ι V σ) (n : Nat) (m : Prog ι V σ) (s : σ) : ∃ st, Legal (run files n m s).st.log st :=
  ⟨_, (run_keeps files n m s).inv⟩

/-- When a program has ended, with a result or an error, no file counts as running. -/
theorem none_running (files : ι → Option V → Prog ι V σ) (n : Nat) (m : Prog ι V σ) (s : σ) (h : ∀ a, run files n m s ≠ .out a) :
    ∃ st, Legal (run files n m s).st.log st ∧ ∀ p, st p ≠ .running := by
  have hk := run_keeps files n m s
  refine ⟨_, hk.inv, fun p hp => ?_⟩
  have hr := (hk.run p h).1
  revert hp
  cases hm : (run files n m s).st.map p with
  | none => nofun
  | some t => cases t with
    | running => exact fun _ => absurd (hr hm) nofun
    | val v => nofun

/-! What legal histories are like. -/

inductive Reach : (ι → St V) → List (Ev ι V) → (ι → St V) → Prop
  | nil {a} : Reach a [] a
  | cons {a : ι → St V} {e p b l c} : Step e p (a p) b → Reach (fun q => if q = p then b else a q) l c → Reach a (e :: l) c

theorem Reach.snoc {a c : ι → St V} {l : List (Ev ι V)} (h : Reach a l c) {e : Ev ι V} {p : ι} {b : St V} (hs : Step e p (c p) b) : Reach a (l ++ [e]) fun q => if q = p then b else c q := by
  induction h with
  | nil => exact .cons hs .nil
  | cons h1 _ ih => exact .cons h1 (ih hs)

theorem Legal.reach {l : List (Ev ι V)} {st : ι → St V} (h : Legal l st) : Reach (fun _ => .idle) l st := by
  induction h with
  | nil => exact .nil
  | snoc _ hs ih => exact ih.snoc hs

theorem Reach.split {l1 l2 : List (Ev ι V)} : ∀ {a c : ι → St V}, Reach a (l1 ++ l2) c → ∃ b, Reach a l1 b ∧ Reach b l2 c := by
  induction l1 with
  | nil => exact fun h => ⟨_, .nil, h⟩
  | cons e l1 ih =>
    intro a c h
    cases h with
    | cons hs h =>
      obtain ⟨b, h1, h2⟩ := ih h
      exact ⟨b, .cons hs h1, h2⟩

theorem Reach.done {l : List (Ev ι V)} {a c : ι → St V} (h : Reach a l c) {p : ι} {v : V} (hd : a p = .done v) :
    .start p ∉ l ∧ .fails p ∉ l ∧ .cyclic p ∉ l ∧ ∀ v', .gives p v' ∈ l → v' = v := by
  induction h with
  | nil => simp
  | @cons a e p' b l c hs _ ih =>
    by_cases hp : p = p'
    · subst hp
      rw [hd] at hs
      cases hs with
      | again =>
        obtain ⟨h1, h2, h3, h4⟩ := ih (by simp)
        refine ⟨by simp [h1], by simp [h2], by simp [h3], ?_⟩
        intro v' hv
        rcases List.mem_cons.1 hv with e | h
        · cases e; rfl
        · exact h4 _ h
    · obtain ⟨h1, h2, h3, h4⟩ := ih (by simp [hp, hd])
      have ne : ∀ e', e' = .start p ∨ e' = .fails p ∨ e' = .cyclic p ∨ (∃ v, e' = .gives p v) → e' ≠ e := by
        rintro e' he rfl
        generalize a p' = s0 at hs
        rcases he with rfl | rfl | rfl | ⟨v, rfl⟩ <;> cases hs <;> exact hp rfl
      refine ⟨fun h => ?_, fun h => ?_, fun h => ?_, fun v' h => ?_⟩
      · rcases List.mem_cons.1 h with h | h
        · exact ne _ (.inl rfl) h
        · exact h1 h
      · rcases List.mem_cons.1 h with h | h
        · exact ne _ (.inr (.inl rfl)) h
        · exact h2 h
      · rcases List.mem_cons.1 h with h | h
        · exact ne _ (.inr (.inr (.inl rfl))) h
        · exact h3 h
      · rcases List.mem_cons.1 h with h | h
        · exact absurd h (ne _ (.inr (.inr (.inr ⟨_, rfl⟩))))
        · exact h4 _ h

/-- A file that is idle in the end and wasn't before has failed. -/
theorem Reach.idle {l : List (Ev ι V)} {a c : ι → St V} (h : Reach a l c) {p : ι} (ha : a p ≠ .idle) (hc : c p = .idle) : .fails p ∈ l := by
  induction h with
  | nil => exact absurd hc ha
  | @cons a e p' b l c hs _ ih =>
    by_cases hp : p = p'
    · subst hp
      by_cases hb : b = .idle
      · subst hb
        generalize a p = s0 at hs
        cases hs
        exact List.mem_cons_self
      · exact List.mem_cons_of_mem _ (ih (by simpa using hb) hc)
    · exact List.mem_cons_of_mem _ (ih (by simpa [hp] using ha) hc)

/-- A file that is running was started, and neither gave a value nor failed since. -/
theorem Legal.running {l : List (Ev ι V)} {st : ι → St V} (h : Legal l st) {p : ι} (hr : st p = .running) :
    ∃ l1 l2, l = l1 ++ .start p :: l2 ∧ .fails p ∉ l2 ∧ ∀ v, .gives p v ∉ l2 := by
  induction h with
  | nil => cases hr
  | @snoc l st e p' b _ hs ih =>
    by_cases hp : p = p'
    · subst hp
      have hr : (if p = p then b else st p) = .running := hr
      rw [if_pos rfl] at hr
      subst hr
      generalize hst : st p = s at hs
      cases hs with
      | start => exact ⟨l, [], rfl, by simp, by simp⟩
      | cyclic =>
        obtain ⟨l1, l2, rfl, h1, h2⟩ := ih hst
        exact ⟨l1, l2 ++ [.cyclic p], by simp, by simp [h1], by simp [h2]⟩
    · have hr : (if p = p' then b else st p) = .running := hr
      rw [if_neg hp] at hr
      generalize st p' = s0 at hs
      obtain ⟨l1, l2, rfl, h1, h2⟩ := ih hr
      refine ⟨l1, l2 ++ [e], by simp, ?_, ?_⟩
      · intro h
        rcases List.mem_append.1 h with h | h
        · exact h1 h
        · cases List.mem_singleton.1 h
          cases hs
          exact hp rfl
      · intro v h
        rcases List.mem_append.1 h with h | h
        · exact h2 v h
        · cases List.mem_singleton.1 h
          cases hs <;> exact hp rfl

theorem step_at {e : Ev ι V} {a c : ι → St V} {l : List (Ev ι V)} (h : Reach a (e :: l) c) : ∃ p b, Step e p (a p) b ∧ Reach (fun q => if q = p then b else a q) l c := by
  cases h with
  | cons h1 h2 => exact ⟨_, _, h1, h2⟩

/-- After an import has returned a value, the file isn't run again, and every import of it returns that value. -/
theorem import_once (files : ι → Option V → Prog ι V σ) (n : Nat) (m : Prog ι V σ) (s : σ) {l1 l2 : List (Ev ι V)} {p : ι} {v : V} (h : (run files n m s).st.log = l1 ++ .gives p v :: l2) :
    .start p ∉ l2 ∧ .fails p ∉ l2 ∧ .cyclic p ∉ l2 ∧ ∀ v', .gives p v' ∈ l2 → v' = v := by
  obtain ⟨st, hl⟩ := imports_legal files n m s
  rw [h] at hl
  obtain ⟨b, _, h2⟩ := hl.reach.split
  obtain ⟨p', b', hs, h2⟩ := step_at h2
  generalize b p' = s0 at hs
  cases hs <;> exact h2.done (by simp)

/-- A file is run again only after it failed. -/
theorem import_again (files : ι → Option V → Prog ι V σ) (n : Nat) (m : Prog ι V σ) (s : σ) {l1 l2 l3 : List (Ev ι V)} {p : ι} (h : (run files n m s).st.log = l1 ++ .start p :: (l2 ++ .start p :: l3)) :
    .fails p ∈ l2 := by
  obtain ⟨st, hl⟩ := imports_legal files n m s
  rw [h] at hl
  obtain ⟨b, _, h2⟩ := hl.reach.split
  obtain ⟨p', b', hs, h2⟩ := step_at h2
  generalize b p' = s0 at hs
  cases hs
  obtain ⟨c, h3, h4⟩ := h2.split
  obtain ⟨p', b', hs, _⟩ := step_at h4
  generalize hc : c p' = s1 at hs
  cases hs
  exact h3.idle (by simp) hc

/-- An import is refused as cyclic only if the file was started by an import and still runs. -/
theorem import_cyclic (files : ι → Option V → Prog ι V σ) (n : Nat) (m : Prog ι V σ) (s : σ) {l1 l2 : List (Ev ι V)} {p : ι} (h : (run files n m s).st.log = l1 ++ .cyclic p :: l2) :
    ∃ l3 l4, l1 = l3 ++ .start p :: l4 ∧ .fails p ∉ l4 ∧ ∀ v, .gives p v ∉ l4 := by
  obtain ⟨st, hl⟩ := imports_legal files n m s
  rw [h] at hl
  have : ∀ {l : List (Ev ι V)} {st : ι → St V} {l1 l2 e}, Legal l st → l = l1 ++ e :: l2 → ∃ st p b, Legal l1 st ∧ Step e p (st p) b := by
    intro l st l1 l2 e h
    induction h generalizing l2 with
    | nil => intro h; simp at h
    | @snoc l st e' p' b hl hs ih =>
      intro h
      rcases List.eq_nil_or_concat l2 with rfl | ⟨l2, e2, rfl⟩
      · obtain ⟨rfl, e⟩ := List.append_inj' h rfl
        cases e
        exact ⟨st, p', b, hl, hs⟩
      · rw [List.concat_eq_append, show l1 ++ e :: (l2 ++ [e2]) = (l1 ++ e :: l2) ++ [e2] by simp] at h
        exact ih (List.append_inj' h rfl).1
  obtain ⟨st, p', b, hl, hs⟩ := this hl rfl
  generalize hc : st p' = s1 at hs
  cases hs
  exact hl.running hc

/-- The first import of a file runs it once, in the state as it is, and returns or fails as it does. -/
theorem import_runs (exec : ι → S ι V σ → Out ι V σ) (p : ι) {a : S ι V σ} (h : a.map p = none) :
    ∃ a' : S ι V σ, a'.s = a.s ∧ (∀ r b, exec p a' = .ok r b → ∃ c, import1 exec p a = .ok r c ∧ c.s = b.s) ∧ ∀ b, exec p a' = .err b → ∃ c, import1 exec p a = .err c ∧ c.s = b.s := by
  refine ⟨(a.set p (some .running)).note (.start p), rfl, fun r b he => ?_, fun b he => ?_⟩
  all_goals
    unfold import1
    rw [h]
    dsimp only
    rw [he]
    exact ⟨_, rfl, rfl⟩

/-- A later import does nothing but return the value. -/
theorem import_cached (exec : ι → S ι V σ → Out ι V σ) (p : ι) {a : S ι V σ} {v : V} (h : a.map p = some (.val v)) : ∃ c, import1 exec p a = .ok v c ∧ c.s = a.s := by
  unfold import1
  rw [h]
  exact ⟨_, rfl, rfl⟩

/-- File 0 imports itself and gives 5 if that fails; file 1 fails when the state is 0, and counts. -/
def example1 : Nat → Option Nat → Prog Nat Nat Nat
  | 0, _ => .catch (.imp 0 .ret) (.ret 5) .ret
  | _, _ => .act (fun s => (s, s + 1)) fun v => if v = 0 then .fail else .ret v

-- file 0 is imported twice, and file 1 three times, of which the first fails
example : (run example1 3 (.imp 0 fun _ => .imp 0 fun _ => .catch (.imp 1 .ret) (.ret 0) fun _ => .imp 1 fun _ => .imp 1 .ret) 0).st.log
    = [.start 0, .cyclic 0, .gives 0 5, .gives 0 5, .start 1, .fails 1, .start 1, .gives 1 1, .gives 1 1] := by decide +kernel

end Verif.Import
