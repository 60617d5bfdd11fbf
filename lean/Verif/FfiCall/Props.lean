import Verif.FfiCall.Lemmas
/-
C81: calls of foreign functions.
-/
namespace Verif.FfiCall
open Verif.Ffi

/-! ### Sizes and offsets -/

/-- Types below 4 GiB are laid out without overlap and within their size, so that
C80 applies to every type that can be written. -/
theorem layout_ok (t : PTy) (hg : Good t) (hs : fsz t < 2 ^ 32) : WF (lay t) ∧ size (lay t) = fsz t :=
  lay_wf t hg hs

/-- The temporary memory of a call: places of result and arguments follow the list
of pointers, are disjoint and within the allocation. -/
theorem plan_disjoint (argn : Nat) (sizes offs : List Nat) (total : Nat) (ha : argn < 65535)
    (hs : ∀ s ∈ sizes, s < 2 ^ 32 - 15) (h : plan argn sizes = some (offs, total)) :
    offs.length = sizes.length ∧
    (∀ (i : Nat) (h1 : i < offs.length) (h2 : i < sizes.length), argn * 8 ≤ offs[i] ∧ offs[i] + sizes[i] ≤ total) ∧
    (∀ (i j : Nat) (h1 : i < j) (h2 : j < offs.length) (h3 : j < sizes.length), offs[i] + sizes[i] ≤ offs[j]) := by
  have tm : ∀ n, n < 2 ^ 32 - 15 → n ≤ tmpAlign n := by
    intro n hn
    unfold tmpAlign
    omega
  have key : ∀ (sizes : List Nat) (pos : Nat), (∀ s ∈ sizes, s < 2 ^ 32 - 15) →
      (slots pos sizes).1.length = sizes.length ∧ pos ≤ (slots pos sizes).2 ∧
      (∀ (i : Nat) (h1 : i < (slots pos sizes).1.length) (h2 : i < sizes.length),
        pos ≤ (slots pos sizes).1[i] ∧ (slots pos sizes).1[i] + sizes[i] ≤ (slots pos sizes).2) ∧
      (∀ (i j : Nat) (h1 : i < j) (h2 : j < (slots pos sizes).1.length) (h3 : j < sizes.length),
        (slots pos sizes).1[i] + sizes[i] ≤ (slots pos sizes).1[j]) := by
    intro sizes
    induction sizes with
    | nil => intro pos _; exact ⟨rfl, Nat.le_refl _, fun i h => (nomatch h), fun i j _ h => (nomatch h)⟩
    | cons s ss ih =>
      intro pos hs
      obtain ⟨i1, i2, i3, i4⟩ := ih (pos + tmpAlign s) (fun t ht => hs t (.tail _ ht))
      have hsz := tm s (hs s (.head _))
      refine ⟨by simp only [slots, List.length_cons, i1], by simp only [slots]; omega, ?_, ?_⟩
      · intro i h1 h2
        cases i with
        | zero => simp only [slots, List.getElem_cons_zero]; omega
        | succ i =>
          have := i3 i (by rw [i1]; simpa using h2) (by simpa using h2)
          simp only [slots, List.getElem_cons_succ]
          omega
      · intro i j h1 h2 h3
        cases j with
        | zero => exact nomatch h1
        | succ j =>
          have hj : j < ss.length := by simpa using h3
          cases i with
          | zero =>
            have := i3 j (by rw [i1]; exact hj) hj
            simp only [slots, List.getElem_cons_zero, List.getElem_cons_succ]
            omega
          | succ i =>
            have := i4 i j (by omega) (by rw [i1]; exact hj) hj
            simp only [slots, List.getElem_cons_succ]
            exact this
  unfold plan at h
  obtain ⟨k1, k2, k3, k4⟩ := key sizes (tmpAlign (argn * 8)) hs
  have h8 := tm (argn * 8) (by omega)
  by_cases hb : (slots (tmpAlign (argn * 8)) sizes).2 > 2 ^ 32 - 1 - 64
  · simp only [if_pos hb] at h; exact nomatch h
  · simp only [if_neg hb] at h
    injection h with h
    injection h with e1 e2
    have ht := tm (slots (tmpAlign (argn * 8)) sizes).2 (by omega)
    subst e1
    subst e2
    refine ⟨k1, fun i h1 h2 => ?_, k4⟩
    have := k3 i h1 h2
    omega

/-! ### Arguments -/

/-- Arguments are taken from the lists `𝕨` and `𝕩` in order, each element once. -/
theorem pick_order (w x : V) (ws xs : List V) (es : List Bool) (vs : List V)
    (hw : ws.length = (es.filter id).length) (hx : xs.length = (es.filter (!·)).length)
    (h : pick w x ws xs (es.map fun b => (b, false)) 0 0 = some vs) :
    vs.length = es.length ∧ ((es.zip vs).filter (·.1)).map (·.2) = ws ∧
      ((es.zip vs).filter (fun p => !p.1)).map (·.2) = xs := by
  have key : ∀ (es : List Bool) (i j : Nat) (vs : List V), i + (es.filter id).length = ws.length →
      j + (es.filter (!·)).length = xs.length →
      pick w x ws xs (es.map fun b => (b, false)) i j = some vs →
      vs.length = es.length ∧ ((es.zip vs).filter (·.1)).map (·.2) = ws.drop i ∧
      ((es.zip vs).filter (fun p => !p.1)).map (·.2) = xs.drop j := by
    intro es
    induction es with
    | nil =>
      intro i j vs hi hj h
      injection h with h
      subst h
      simp only [List.filter_nil, List.length_nil] at hi hj
      refine ⟨rfl, ?_, ?_⟩
      · rw [List.drop_eq_nil_of_le (by omega)]; rfl
      · rw [List.drop_eq_nil_of_le (by omega)]; rfl
    | cons b es ih =>
      intro i j vs hi hj h
      cases b with
      | true =>
        simp only [List.map_cons, pick, Bool.false_eq_true, if_false, if_true] at h
        cases hv : ws[i]? with
        | none => rw [hv] at h; exact nomatch h
        | some v =>
          rw [hv] at h
          simp only [true_and, if_true, Bool.true_eq_false, and_false, if_false] at h
          cases hp : pick w x ws xs (es.map fun b => (b, false)) (i + 1) j with
          | none => rw [hp] at h; exact nomatch h
          | some us =>
            rw [hp] at h
            injection h with h
            subst h
            obtain ⟨i1, i2, i3⟩ := ih (i + 1) j us (by simp at hi; omega) (by simpa using hj) hp
            obtain ⟨hlt, hget⟩ := List.getElem?_eq_some_iff.1 hv
            refine ⟨by rw [List.length_cons, List.length_cons, i1], ?_, ?_⟩
            · rw [List.drop_eq_getElem_cons hlt, hget, ← i2]
              rfl
            · rw [← i3]; rfl
      | false =>
        simp only [List.map_cons, pick, Bool.false_eq_true, if_false] at h
        cases hv : xs[j]? with
        | none => rw [hv] at h; exact nomatch h
        | some v =>
          rw [hv] at h
          simp only [and_true, if_true, and_false, if_false] at h
          cases hp : pick w x ws xs (es.map fun b => (b, false)) i (j + 1) with
          | none => rw [hp] at h; exact nomatch h
          | some us =>
            rw [hp] at h
            injection h with h
            subst h
            obtain ⟨i1, i2, i3⟩ := ih i (j + 1) us (by simpa using hi) (by simp at hj; omega) hp
            obtain ⟨hlt, hget⟩ := List.getElem?_eq_some_iff.1 hv
            refine ⟨by rw [List.length_cons, List.length_cons, i1], ?_, ?_⟩
            · rw [← i2]; rfl
            · rw [List.drop_eq_getElem_cons hlt, hget, ← i3]
              rfl
  have := key es 0 0 vs (by omega) (by omega) h
  simpa only [List.drop_zero] using this

section
variable (F : F32) (junk : Nat) (addr : Nat → BitVec 64) (init : Nat → Mem) (C : Callee)

/-- What one argument leaves among the objects. -/
theorem genArg_obj (t : Arg) (v : V) (m m' : Mem) (os os' : List Obj) (a : Int)
    (h : genArg F junk addr init t v m os a = some (m', os')) :
    ∃ new, os' = os ++ new ∧ new.length = t.count ∧
      match (generalizing := false) t with
      | .val _ => True
      | .arr _ _ => True
      | .mut e => (∃ xs b, v = .arr xs ∧ new = [.buf xs.length b] ∧ fill F junk e xs 0 (init os.length) = some b) ∨
          (∃ p t, v = .ptr p t ∧ new = [.ns p t])
      | .repr _ _ r => (∃ xs p, v = .arr xs ∧ new = [.pack r xs.length p] ∧ toW r xs = some p) ∨
          (∃ p t, v = .ptr p t ∧ new = [.ns p t]) := by
  unfold genArg at h
  cases t with
  | val t =>
    obtain ⟨new, e, c⟩ := genS_count F junk addr init t v m m' os os' a h
    exact ⟨new, e, c, trivial⟩
  | «mut» e =>
    rcases genPtr_obj F junk addr init none e v m m' os os' a h with ⟨xs, b, h1, h2, h3, _⟩ | ⟨p, t, h1, h2⟩
    · exact ⟨_, h2, rfl, .inl ⟨xs, b, h1, rfl, h3⟩⟩
    · exact ⟨_, h2, rfl, .inr ⟨p, t, h1, rfl⟩⟩
  | arr n e =>
    rcases genPtr_obj F junk addr init (some n) e v m m' os os' a h with ⟨xs, b, h1, h2, h3, _⟩ | ⟨p, t, h1, h2⟩
    · exact ⟨_, h2, rfl, trivial⟩
    · exact ⟨_, h2, rfl, trivial⟩
  | repr isMut s r =>
    cases v with
    | ptr p t =>
      dsimp only at h
      by_cases ht : tyEqual t (.sc s) = true
      · rw [if_pos ht] at h
        injection h with h
        injection h with _ h
        exact ⟨_, h.symm, rfl, .inr ⟨p, t, rfl, rfl⟩⟩
      · rw [if_neg ht] at h; exact nomatch h
    | arr xs =>
      dsimp only at h
      by_cases hl : (styW s * 8) >>> reW r ≠ 0 ∧ xs.length % ((styW s * 8) >>> reW r) ≠ 0
      · rw [if_pos hl] at h; exact nomatch h
      · rw [if_neg hl] at h
        cases ht : toW r xs with
        | none => rw [ht] at h; exact nomatch h
        | some p =>
          rw [ht] at h
          injection h with h
          injection h with _ h
          exact ⟨_, h.symm, rfl, .inl ⟨xs, p, rfl, rfl, ht⟩⟩
    | _ => exact nomatch h

theorem genAll_append : ∀ (ts : List Arg) (vs : List V) (as : List Int) (m m' : Mem) (os os' : List Obj),
    genAll F junk addr init ts vs as m os = some (m', os') → ∃ new, os' = os ++ new
  | [], [], [], m, m', os, os', h => by
    injection h with h
    injection h with _ h
    exact ⟨[], by rw [List.append_nil]; exact h.symm⟩
  | t :: ts, v :: vs, a :: as, m, m', os, os', h => by
    rw [genAll] at h
    cases hg : genArg F junk addr init t v m os a with
    | none => rw [hg] at h; exact nomatch h
    | some mo =>
      obtain ⟨m1, o1⟩ := mo
      rw [hg] at h
      obtain ⟨n1, e1, _⟩ := genArg_obj F junk addr init t v m m1 os o1 a hg
      obtain ⟨n2, e2⟩ := genAll_append ts vs as m1 m' o1 os' h
      exact ⟨n1 ++ n2, by rw [e2, e1, List.append_assoc]⟩

/-- The objects of an argument are those which reading after the call takes. -/
theorem readUpd_obj (t : Arg) (v : V) (m m' : Mem) (os new : List Obj) (a : Int) (A : List Obj)
    (h : genArg F junk addr init t v m os a = some (m', os ++ new)) :
    (∃ o, readUpd F t (applyC C os.length new ++ A) = .ok o A ∧
      match (generalizing := false) t with
      | .mut e => (∃ xs ys b, v = .arr xs ∧ o = some (.arr ys) ∧ fill F junk e xs 0 (init os.length) = some b ∧
            readBuf F e (C.mem os.length b) xs.length 0 = some ys) ∨
          (∃ p t, v = .ptr p t ∧ o = some (.ptr p t) ∧ direct e = true)
      | .repr true _ r => (∃ xs p, v = .arr xs ∧ o = some (.arr (elems r xs.length (C.pk os.length p))) ∧
            toW r xs = some p) ∨
          (∃ p t, v = .ptr p t ∧ o = some (.ptr p t))
      | _ => o = none) ∨
    (readUpd F t (applyC C os.length new ++ A) = .err ∧ ∃ e xs, t = .mut e ∧ v = .arr xs) ∨
    (readUpd F t (applyC C os.length new ++ A) = .ub ∧ ∃ e p t', t = .mut e ∧ v = .ptr p t' ∧ direct e = false) := by
  obtain ⟨new', e1, c1, hk⟩ := genArg_obj F junk addr init t v m m' os _ a h
  have : new = new' := List.append_cancel_left e1
  subst this
  cases t with
  | val t =>
    left
    refine ⟨none, ?_, rfl⟩
    rw [readUpd, skip_append t _ _ (by rw [applyC_length]; exact c1)]
  | arr n e =>
    left
    refine ⟨none, ?_, rfl⟩
    obtain ⟨o, rfl⟩ := List.length_eq_one_iff.1 c1
    cases o <;> rfl
  | «mut» e =>
    rcases hk with ⟨xs, b, h1, h2, h3⟩ | ⟨p, t, h1, h2⟩
    · subst h2
      cases hr : readBuf F e (C.mem os.length b) xs.length 0 with
      | none =>
        right; left
        refine ⟨?_, e, xs, rfl, h1⟩
        simp only [applyC, List.singleton_append, readUpd, hr]
      | some ys =>
        left
        refine ⟨some (.arr ys), ?_, .inl ⟨xs, ys, b, h1, rfl, h3, hr⟩⟩
        simp only [applyC, List.singleton_append, readUpd, hr]
    · subst h2
      cases hd : direct e with
      | true =>
        left
        refine ⟨some (.ptr p t), ?_, .inr ⟨p, t, h1, rfl, hd⟩⟩
        simp only [applyC, List.singleton_append, readUpd, hd, if_true]
      | false =>
        right; right
        refine ⟨?_, e, p, t, rfl, h1, hd⟩
        simp only [applyC, List.singleton_append, readUpd, hd, Bool.false_eq_true, if_false]
  | repr isMut s r =>
    left
    rcases hk with ⟨xs, p, h1, h2, h3⟩ | ⟨p, t, h1, h2⟩
    · subst h2
      cases isMut with
      | true =>
        exact ⟨some (.arr (elems r xs.length (C.pk os.length p))), rfl, .inl ⟨xs, p, h1, rfl, h3⟩⟩
      | false => exact ⟨none, rfl, rfl⟩
    · subst h2
      cases isMut with
      | true => exact ⟨some (.ptr p t), rfl, .inr ⟨p, t, h1, rfl⟩⟩
      | false => exact ⟨none, rfl, rfl⟩

/-- Whatever the foreign function does to its buffers, the values given back for
mutable arguments are what it left in the buffers of those arguments, and before
the call these held the values given. -/
theorem call_updates : ∀ (ts : List Arg) (vs : List V) (as : List Int) (m m' : Mem) (os new : List Obj) (rs : List V)
    (rest : List Obj), (∀ e, Arg.mut e ∈ ts → WF e) →
    genAll F junk addr init ts vs as m os = some (m', os ++ new) →
    readAll F ts (applyC C os.length new) = .ok rs rest → Updated F C os.length ts vs rs
  | [], [], [], m, m', os, new, rs, rest, hw, h, hr => by
    injection h with h
    injection h with _ h
    have : new = [] := by
      have := congrArg List.length h
      rw [List.length_append] at this
      exact List.eq_nil_of_length_eq_zero (by omega)
    subst this
    injection hr with hr
    exact ⟨rfl, hr.symm⟩
  | t :: ts, v :: vs, a :: as, m, m', os, new, rs, rest, hw, h, hr => by
    rw [genAll] at h
    cases hg : genArg F junk addr init t v m os a with
    | none => rw [hg] at h; exact nomatch h
    | some mo =>
      obtain ⟨m1, o1⟩ := mo
      rw [hg] at h
      obtain ⟨n1, e1, c1, hk⟩ := genArg_obj F junk addr init t v m m1 os o1 a hg
      obtain ⟨n2, e2⟩ := genAll_append F junk addr init ts vs as m1 m' o1 _ h
      subst e1
      have : new = n1 ++ n2 := by
        rw [List.append_assoc] at e2
        exact List.append_cancel_left e2
      subst this
      rw [e2] at h
      have ih := fun rs' rest' => call_updates ts vs as m1 m' (os ++ n1) n2 rs' rest'
        (fun e he => hw e (.tail _ he)) h
      rw [List.length_append, c1] at ih
      rw [applyC_append, c1, readAll] at hr
      rcases readUpd_obj F junk addr init C t v m m1 os n1 a (applyC C (os.length + t.count) n2) hg with
        ⟨o, ho, hc⟩ | ⟨he, _⟩ | ⟨he, _⟩
      · rw [ho] at hr
        dsimp only at hr
        cases ha : readAll F ts (applyC C (os.length + t.count) n2) with
        | err => rw [ha] at hr; exact nomatch hr
        | ub => rw [ha] at hr; exact nomatch hr
        | ok rs' rest' =>
          rw [ha] at hr
          have ih' := ih rs' rest' ha
          injection hr with hr hr2
          cases t with
          | val t =>
            dsimp only at hc
            subst hc
            subst hr
            simp only [Updated]
            exact ih'
          | arr n e =>
            dsimp only at hc
            subst hc
            subst hr
            simp only [Updated]
            exact ih'
          | «mut» e =>
            dsimp only at hc
            rcases hc with ⟨xs, ys, b, h1, h2, h3, h4⟩ | ⟨p, t, h1, h2, h3⟩
            · subst h1; subst h2; subst hr
              simp only [Updated]
              obtain ⟨y1, y2⟩ := readBuf_spec F e _ _ 0 ys h4
              refine ⟨⟨b, ys, rfl, y1, fun i hi hp => ?_, fun i hi => ?_⟩, ih'⟩
              · have := fill_back F junk e (hw e (.head _)) xs 0 _ b h3 i hi hp
                rwa [Nat.zero_add] at this
              · have := y2 i hi
                rwa [Nat.zero_add] at this
            · subst h1; subst h2; subst hr
              simp only [Updated]
              exact ⟨trivial, ih'⟩
          | repr isMut s r =>
            cases isMut with
            | true =>
              dsimp only at hc
              rcases hc with ⟨xs, p, h1, h2, h3⟩ | ⟨p, t, h1, h2⟩
              · subst h1; subst h2; subst hr
                simp only [Updated]
                obtain ⟨_, q2, q3⟩ := toW_back r xs p h3
                exact ⟨⟨p, _, _, rfl, elems_spec r _ p, q3, elems_spec r _ _⟩, ih'⟩
              · subst h1; subst h2; subst hr
                simp only [Updated]
                exact ⟨trivial, ih'⟩
            | false =>
              dsimp only at hc
              subst hc
              subst hr
              simp only [Updated]
              exact ih'
      · rw [he] at hr; exact nomatch hr
      · rw [he] at hr; exact nomatch hr

/-- The objects kept for the arguments are exactly those taken after the call, and each
is of the kind assumed, unless a pointer object is given for `&e` of some types. -/
theorem call_safe_partial : ∀ (ts : List Arg) (vs : List V) (as : List Int) (m m' : Mem) (os new : List Obj),
    NoPtr ts vs → genAll F junk addr init ts vs as m os = some (m', os ++ new) →
    readAll F ts (applyC C os.length new) ≠ .ub
  | [], [], [], m, m', os, new, hn, h => by
    injection h with h
    injection h with _ h
    have : new = [] := by
      have := congrArg List.length h
      rw [List.length_append] at this
      exact List.eq_nil_of_length_eq_zero (by omega)
    subst this
    exact nofun
  | t :: ts, v :: vs, a :: as, m, m', os, new, hn, h => by
    rw [genAll] at h
    cases hg : genArg F junk addr init t v m os a with
    | none => rw [hg] at h; exact nomatch h
    | some mo =>
      obtain ⟨m1, o1⟩ := mo
      rw [hg] at h
      obtain ⟨n1, e1, c1, hk⟩ := genArg_obj F junk addr init t v m m1 os o1 a hg
      obtain ⟨n2, e2⟩ := genAll_append F junk addr init ts vs as m1 m' o1 _ h
      subst e1
      have : new = n1 ++ n2 := by
        rw [List.append_assoc] at e2
        exact List.append_cancel_left e2
      subst this
      rw [e2] at h
      have hn' : NoPtr ts vs := by
        cases t <;> simp only [NoPtr] at hn <;> first | exact hn | exact hn.2
      have ih := call_safe_partial ts vs as m1 m' (os ++ n1) n2 hn' h
      rw [List.length_append, c1] at ih
      rw [applyC_append, c1, readAll]
      rcases readUpd_obj F junk addr init C t v m m1 os n1 a (applyC C (os.length + t.count) n2) hg with
        ⟨o, ho, _⟩ | ⟨he, _⟩ | ⟨he, e, p, t', h1, h2, h3⟩
      · rw [ho]
        dsimp only
        cases ha : readAll F ts (applyC C (os.length + t.count) n2) with
        | err => exact nofun
        | ub => exact absurd ha ih
        | ok _ _ => exact nofun
      · rw [he]; exact nofun
      · subst h1; subst h2
        simp only [NoPtr] at hn
        rcases hn.1 p t' rfl with rfl | rfl | rfl | rfl <;> exact nomatch h3

end

/-! ### Where the code falls short -/

/-- A pointer object given for `&u8` is afterwards read as if it were an array. -/
theorem mutable_pointer_ub (F : F32) (C : Callee) (m : Mem) (p : BitVec 64) (init : Nat → Mem) :
    ∃ m' new, genAll F 0 (fun _ => 0) init [.mut (.sc .u8)] [.ptr p (.sc .u8)] [0] m [] = some (m', [] ++ new) ∧
      readAll F [.mut (.sc .u8)] (applyC C 0 new) = .ub :=
  ⟨store m 0 8 p.toNat, [.ns p (.sc .u8)], rfl, rfl⟩

theorem rowEnd_one (s : Nat) : ∀ k pos, rowEnd k pos s 1 = pos + k * s
  | 0, pos => by rw [rowEnd, Nat.zero_mul, Nat.add_zero]
  | k + 1, pos => by
    rw [rowEnd, rowEnd_one s k, show up pos 1 = pos by unfold up; omega, Nat.add_mul, Nat.one_mul]
    omega

/-- The size of a structure is kept modulo 2⋆32: an array of 65536 arrays of 65536
bytes has the size 0. -/
theorem size_wraps : Good (.arr 65536 (.arr 65536 (.sc .u8))) ∧
    fsz (.arr 65536 (.arr 65536 (.sc .u8))) = 2 ^ 32 ∧
    size (lay (.arr 65536 (.arr 65536 (.sc .u8)))) = 0 ∧
    ¬ WF (lay (.arr 65536 (.arr 65536 (.sc .u8)))) := by
  have hi : fsz (.arr 65536 (.sc .u8)) = 65536 := by
    rw [fsz, al, fsz, show styW .u8 = 1 from rfl, rowEnd_one]; rfl
  have ho : fsz (.arr 65536 (.arr 65536 (.sc .u8))) = 2 ^ 32 := by
    rw [fsz, hi, al, al, show styW .u8 = 1 from rfl, rowEnd_one]; rfl
  refine ⟨by simp [Good], ho, ?_, ?_⟩
  · rw [lay, size, ho]
  · intro h
    rw [lay, ho, WF, show (65536 : Nat) = 65535 + 1 from rfl, row, WFs] at h
    have hl := WFs_le _ _ _ h.2.2
    rw [lay, size, show (65535 + 1 : Nat) = 65536 from rfl, hi] at hl
    have : (2 ^ 32 : Nat) % 2 ^ 32 = 0 := by decide
    omega

/-- The place of an argument whose size is close to 2⋆32 has the size 0. -/
theorem plan_wraps : plan 1 [8, 2 ^ 32 - 8] = some ([16, 32], 32) := by decide +kernel

/-- The buffer for an array of structures is too small if their total size reaches
2⋆32: for 65536 arrays of 65536 bytes it has 4 bytes. -/
theorem buffer_short : bufAlloc (size (lay (.arr 65536 (.sc .u8)))) 65536 = 4 := by
  have hi : fsz (.arr 65536 (.sc .u8)) = 65536 := by
    rw [fsz, al, fsz, show styW .u8 = 1 from rfl, rowEnd_one]; rfl
  rw [lay, size, hi]
  rfl

/-- Below that, the buffer holds the count and all structures. -/
theorem buffer_fits (elSz ia : Nat) (h : elSz * ia < 2 ^ 32) : elSz * ia + 4 ≤ bufAlloc elSz ia := by
  unfold bufAlloc
  rw [Nat.mod_eq_of_lt h]
  exact Nat.le_refl _

/-! ### Examples -/

/-- `{u8,i32,[2]{i16,f64}}` is laid out as in C. -/
example : fsz (.str (.cons (.sc .u8) (.cons (.sc .i32) (.cons
    (.arr 2 (.str (.cons (.sc .i16) (.cons (.sc .f64) .nil)))) .nil)))) = 40 := by decide +kernel
example : plan 2 [8, 1, 24] = some ([16, 32, 48], 80) := by decide +kernel
example : pick .other .other [.num (ofInt 1)] [.num (ofInt 2), .num (ofInt 3)]
    ([false, true, false].map fun b => (b, false)) 0 0 = some [.num (ofInt 2), .num (ofInt 1), .num (ofInt 3)] := rfl
/-- A call with `*u8` and `&{i16,u8}`-like arguments: objects of both, in order. -/
example : ∃ m os, genAll ⟨fun _ => 0, fun _ => 0⟩ 0 (fun _ => 0) (fun _ _ => 0)
    [.val (.ptr (.sc .u8)), .mut (.sc .i16)] [.arr [.num (ofInt 7)], .arr [.num (ofInt (-2)), .num (ofInt 3)]]
    [16, 32] (fun _ => 0) [] = some (m, [] ++ os) ∧ os.length = 2 ∧
    ∃ rs, readAll ⟨fun _ => 0, fun _ => 0⟩ [.val (.ptr (.sc .u8)), .mut (.sc .i16)]
      (applyC ⟨fun k m b => if k = 1 ∧ b = 2 then 9 else m b, fun _ p => p⟩ 0 os) = .ok rs [] ∧
      rs = [.arr [.num (ofInt (-2)), .num (ofInt 9)]] := by
  refine ⟨_, _, rfl, rfl, _, rfl, ?_⟩
  rfl

end Verif.FfiCall
