import Verif.Session.Lemmas
/-
C88: variables of a session keep their names and values while lines add others.
-/
namespace Verif.Session

/-- A scope without added variables. -/
def Sess.scope (s : Sess) : Sc := ⟨s.first.map (·.2), s.first.map (·.1), none⟩

theorem step_ok (s : Sess) (sc : Sc) (h : Rel s sc) (o : Op) (r : Obs × Sess) (hs : s.step o = some r) :
    ∃ sc', step sc o = some (r.1, sc') ∧ Rel r.2 sc' := by
  obtain ⟨h1, h2, h3⟩ := h
  have hl : sc.regs.length = s.first.length := by rw [h1, List.length_map]
  have hal : s.all.length = s.first.length + s.more.length := List.length_append
  cases o with
  | line count names =>
    simp only [Sess.step] at hs
    simp only [step, compileLine]
    by_cases hc : 65536 ≤ count
    · rw [if_pos hc] at hs
      injection hs with hs
      subst hs
      rw [if_pos (by omega)]
      exact ⟨sc, rfl, h1, h2, h3⟩
    · rw [if_neg hc] at hs
      rw [if_neg (by omega)]
      by_cases hn : names.length < count
      · rw [if_pos hn] at hs
        exact nomatch hs
      rw [if_neg hn] at hs
      injection hs with hs
      subst hs
      -- nothing is added
      have none' : count ≤ s.all.length →
          Rel { s with more := s.more ++ ((names.take count).drop s.all.length).map fun n => (n, none) } sc := by
        intro hle
        rw [List.drop_of_length_le (by rw [List.length_take]; omega), List.map_nil, List.append_nil]
        exact ⟨h1, h2, h3⟩
      -- the scope is extended
      have some' : s.all.length ≤ count → ∃ e, grow names sc.regs.length count sc.ext = some e ∧
          Rel { s with more := s.more ++ ((names.take count).drop s.all.length).map (fun n => (n, none)) }
            { sc with ext := some e } := by
        intro hle
        obtain ⟨e, a1, a2⟩ := grow_ok names sc.regs.length count s.more sc.ext h3 (by omega) (by omega)
        rw [hl, ← hal] at a2
        exact ⟨e, a1, h1, h2, a2⟩
      by_cases hr : sc.regs.length < count
      · rw [if_pos hr]
        by_cases hg : mustGrow sc.regs.length count sc.ext = true
        · rw [if_pos hg]
          obtain ⟨e, a1, a2⟩ := some' (by
            cases he : sc.ext with
            | none =>
              rw [he] at h3
              have : s.more = [] := h3
              rw [hal, this, List.length_nil]
              omega
            | some oE =>
              rw [he] at h3 hg
              have q1 : oE.varAm = s.more.length := h3.1
              simp only [mustGrow, decide_eq_true_eq] at hg
              omega)
          exact ⟨_, by rw [a1]; rfl, a2⟩
        · rw [if_neg hg]
          refine ⟨sc, rfl, none' ?_⟩
          cases he : sc.ext with
          | none => rw [he] at hg; exact absurd rfl hg
          | some oE =>
            rw [he] at h3 hg
            have q1 : oE.varAm = s.more.length := h3.1
            simp only [mustGrow, decide_eq_true_eq] at hg
            omega
      · rw [if_neg hr]
        exact ⟨sc, rfl, none' (by omega)⟩
  | get p =>
    simp only [Sess.step] at hs
    simp only [step, getVar]
    by_cases hp : p < s.first.length
    · rw [Sess.all, List.getElem?_append_left hp, List.getElem?_eq_getElem hp] at hs
      injection hs with hs
      subst hs
      rw [if_pos (by omega), h1, List.getElem?_map, List.getElem?_eq_getElem hp]
      exact ⟨sc, rfl, h1, h2, h3⟩
    · by_cases hp2 : p - s.first.length < s.more.length
      · rw [Sess.all, List.getElem?_append_right (by omega), List.getElem?_eq_getElem hp2] at hs
        injection hs with hs
        subst hs
        rw [if_neg (by omega), hl]
        cases he : sc.ext with
        | none =>
          rw [he] at h3
          have : s.more = [] := h3
          rw [this] at hp2
          exact absurd hp2 (Nat.not_lt_zero _)
        | some e =>
          have h3' := h3
          rw [he] at h3'
          simp only [h3'.2, val_at _ _ hp2]
          exact ⟨sc, rfl, h1, h2, h3⟩
      · rw [Sess.all, List.getElem?_eq_none (by rw [List.length_append]; omega)] at hs
        exact nomatch hs
  | set p v =>
    simp only [Sess.step] at hs
    simp only [step, setVar]
    by_cases hp : p < s.first.length
    · rw [if_pos hp] at hs
      injection hs with hs
      subst hs
      rw [if_pos (by omega)]
      refine ⟨_, rfl, ?_, ?_, h3⟩
      · show sc.regs.set p (some v) = _
        rw [h1]
        apply List.ext_getElem?
        intro j
        simp only [List.getElem?_set, List.getElem?_map, List.getElem?_modify, List.length_map]
        by_cases hj : p = j
        · subst hj
          simp [hp]
        · simp [hj]
      · show sc.regNames = _
        rw [h2]
        apply List.ext_getElem?
        intro j
        simp only [List.getElem?_map, List.getElem?_modify]
        by_cases hj : p = j
        · subst hj
          cases s.first[p]? <;> simp
        · simp [hj]
    · rw [if_neg hp] at hs
      by_cases hp2 : p < s.all.length
      · rw [if_pos hp2] at hs
        injection hs with hs
        subst hs
        rw [if_neg (by omega), hl]
        have hp3 : p - s.first.length < s.more.length := by omega
        cases he : sc.ext with
        | none =>
          rw [he] at h3
          have : s.more = [] := h3
          rw [this] at hp3
          exact absurd hp3 (Nat.not_lt_zero _)
        | some e =>
          rw [he] at h3
          obtain ⟨q1, q2⟩ := h3
          simp only [q2, val_at _ _ hp3, set_val _ _ hp3]
          exact ⟨_, rfl, h1, h2, by show e.varAm = _; rw [List.length_modify]; exact q1, rfl⟩
      · rw [if_neg hp2] at hs
        exact nomatch hs
  | list =>
    simp only [Sess.step] at hs
    injection hs with hs
    subst hs
    simp only [step, listVars]
    cases he : sc.ext with
    | none =>
      have h3' := h3
      rw [he] at h3'
      have : s.more = [] := h3'
      refine ⟨sc, ?_, h1, h2, h3⟩
      simp [Sess.all, this, h2]
    | some e =>
      have h3' := h3
      rw [he] at h3'
      refine ⟨sc, ?_, h1, h2, h3⟩
      simp only [h3'.1, h3'.2, names_ok s.more s.more.length 0 (by omega), Sess.all, List.map_append, h2]
      rfl
  | erase n =>
    simp only [Sess.step] at hs
    injection hs with hs
    subst hs
    simp only [step]
    cases he : sc.ext with
    | none =>
      have h3' := h3
      rw [he] at h3'
      have : s.more = [] := h3'
      simp only [this, eraseIn]
      exact ⟨sc, rfl, h1, h2, by rw [he]; rfl⟩
    | some e =>
      rw [he] at h3
      obtain ⟨q1, q2⟩ := h3
      have := erase_ok n s.more.length [] s.more rfl
      simp only [List.nil_append, List.length_nil] at this
      simp only [q1, q2, this]
      refine ⟨_, rfl, h1, h2, ?_, rfl⟩
      have len : ∀ l : List Var, l.length = (eraseIn n l).1.length := by
        intro l
        induction l with
        | nil => rfl
        | cons v l ih =>
          simp only [eraseIn]
          split
          · rfl
          · simp only [List.length_cons, ih]
      exact len _

theorem run_ok (os : List Op) : ∀ (s : Sess) (sc : Sc), Rel s sc → ∀ r, s.run os = some r →
    ∃ sc', run os sc = some (r.1, sc') ∧ Rel r.2 sc' := by
  induction os with
  | nil =>
    intro s sc h r hr
    injection hr with hr
    subst hr
    exact ⟨sc, rfl, h⟩
  | cons o os ih =>
    intro s sc h r hr
    simp only [Sess.run] at hr
    cases hs : s.step o with
    | none => rw [hs] at hr; exact nomatch hr
    | some p =>
      rw [hs, Option.bind_some] at hr
      cases ht : p.2.run os with
      | none => rw [ht] at hr; exact nomatch hr
      | some q =>
        rw [ht] at hr
        injection hr with hr
        subst hr
        obtain ⟨sc1, a1, a2⟩ := step_ok s sc h o p hs
        obtain ⟨sc2, b1, b2⟩ := ih p.2 sc1 a2 q ht
        exact ⟨sc2, by simp only [run, a1, b1, Option.bind_some, Option.map_some], b2⟩

/-- Whatever lines are compiled and variables read, written, listed and erased, all that is seen is as it should be, no
memory is used that is not there or was not set. -/
theorem session (first : List Var) (os : List Op) (r : List Obs × Sess) (h : (Sess.mk first []).run os = some r) :
    ∃ sc, run os (Sess.mk first []).scope = some (r.1, sc) := by
  obtain ⟨sc, h1, _⟩ := run_ok os ⟨first, []⟩ (Sess.mk first []).scope ⟨rfl, rfl, rfl⟩ r h
  exact ⟨sc, h1⟩

def lines : List Op := [.line 2 [71, 72], .set 1 5, .line 2 [71, 72], .get 1, .line 4 [71, 72, 73, 74], .set 3 6, .get 1, .get 2,
  .list, .erase 72, .get 1, .get 3, .erase 75]

example : ((Sess.mk [] []).run lines).map (·.1) = some [.done, .done, .done, .value (some 5), .done, .done, .value (some 5),
    .value none, .names [71, 72, 73, 74], .erased true, .value none, .value (some 6), .erased false] := by decide

/-- With fewer than 32768 added variables, the garbage collector sees all of them, with their names. -/
theorem all_visited_partial (first : List Var) (os : List Op) (r : List Obs × Sess) (sc : Sc) (e : Ext)
    (h : (Sess.mk first []).run os = some r) (hr : run os (Sess.mk first []).scope = some (r.1, sc))
    (he : sc.ext = some e) (hlt : r.2.more.length < 32768) (v : Var) (hv : v ∈ r.2.more) :
    .val v.2 ∈ visited e ∧ .name v.1 ∈ visited e := by
  obtain ⟨sc', h1, h2⟩ := run_ok os ⟨first, []⟩ (Sess.mk first []).scope ⟨rfl, rfl, rfl⟩ r h
  rw [hr] at h1
  simp only [Option.some.injEq, Prod.mk.injEq, true_and] at h1
  subst h1
  have h3 := h2.2.2
  rw [he] at h3
  obtain ⟨q1, q2⟩ := h3
  have : visited e = vals r.2.more ++ nms r.2.more := by
    unfold visited
    rw [q1, q2, Nat.mod_eq_of_lt (by omega), List.take_of_length_le (by rw [List.length_append, vals_length, nms_length]; omega)]
  rw [this]
  exact ⟨List.mem_append_left _ (List.mem_map.mpr ⟨v, hv, rfl⟩), List.mem_append_right _ (List.mem_map.mpr ⟨v, hv, rfl⟩)⟩

/-- With 32768 it sees none: values that only variables hold are freed by the next collection, and used after that. -/
theorem none_visited (first : List Var) (os : List Op) (r : List Obs × Sess) (sc : Sc) (e : Ext)
    (h : (Sess.mk first []).run os = some r) (hr : run os (Sess.mk first []).scope = some (r.1, sc))
    (he : sc.ext = some e) (hn : r.2.more.length = 32768) : visited e = [] := by
  obtain ⟨sc', h1, h2⟩ := run_ok os ⟨first, []⟩ (Sess.mk first []).scope ⟨rfl, rfl, rfl⟩ r h
  rw [hr] at h1
  simp only [Option.some.injEq, Prod.mk.injEq, true_and] at h1
  subst h1
  have h3 := h2.2.2
  rw [he] at h3
  unfold visited
  rw [h3.1, hn]
  rfl

/-- That many can be added: a line with 32768 variables is accepted. -/
theorem many_accepted (names : List Nat) (hl : names.length = 32768) :
    ∃ sc e, run [.line names.length names] (Sess.mk [] []).scope = some ([.done], sc) ∧
    sc.ext = some e ∧ visited e = [] := by
  have h : (Sess.mk [] []).run [.line names.length names] =
      some ([.done], ⟨[], names.map fun n => (n, none)⟩) := by
    simp only [Sess.run, Sess.step]
    rw [if_neg (by omega), if_neg (by omega), List.take_length]
    rfl
  obtain ⟨sc, h1, h2⟩ := run_ok _ ⟨[], []⟩ (Sess.mk [] []).scope ⟨rfl, rfl, rfl⟩ _ h
  have h3 := h2.2.2
  cases he : sc.ext with
  | none =>
    rw [he] at h3
    have h3 : names.map (fun n => (n, (none : Option Nat))) = [] := h3
    have := congrArg List.length h3
    rw [List.length_map, hl] at this
    exact nomatch this
  | some e => exact ⟨sc, e, h1, he, none_visited [] _ _ sc e h h1 he (by rw [← hl]; exact List.length_map _)⟩

example : (List.range 32768).length = 32768 := List.length_range

end Verif.Session
