import Verif.Assign.Model
/-!
# Assignment: proofs
-/
namespace Verif.Assign

/-! ## Well-formed values -/

theorem wfL_iff {vs : List V} : wfL vs ↔ ∀ v ∈ vs, v.Wf := by
  induction vs with
  | nil => simp [wfL]
  | cons v vs ih => rw [wfL, ih]; simp

theorem WfS.put {σ : Store} (h : WfS σ) (k : Key) {v : V} (hv : v.Wf) : WfS (put σ k v) := by
  intro k'
  show (if k' = k then v else σ k').Wf
  by_cases e : k' = k
  · rw [if_pos e]; exact hv
  · rw [if_neg e]; exact h k'

theorem put_other {σ : Store} {k k' : Key} {v : V} (h : k' ≠ k) : put σ k v k' = σ k' := if_neg h
theorem put_same {σ : Store} {k : Key} {v : V} : put σ k v k = v := if_pos rfl

theorem apply_append (a b : List (Key × V)) : ∀ σ, apply (a ++ b) σ = apply b (apply a σ) := by
  induction a with
  | nil => intro σ; rfl
  | cons p a ih => intro σ; exact ih _

theorem apply_one (k : Key) (v : V) (σ : Store) : apply [(k, v)] σ = put σ k v := rfl

/-! ## Fields -/

theorem findField_iff {g : Nat} : ∀ {e : List (Option Nat)} {i0 i : Nat}, findField g e i0 = some i ↔ ∃ j, i = i0 + j ∧ e[j]? = some (some g) ∧ ∀ j', j' < j → e[j']? ≠ some (some g) := by
  intro e
  induction e with
  | nil => intro i0 i; simp [findField]
  | cons o e ih =>
    intro i0 i
    rw [findField]
    by_cases h : o = some g
    · rw [if_pos h]
      constructor
      · intro h'
        cases h'
        exact ⟨0, rfl, by rw [h]; rfl, fun j' h => absurd h (Nat.not_lt_zero _)⟩
      · rintro ⟨j, rfl, h1, h2⟩
        cases j with
        | zero => rfl
        | succ j => exact absurd (by rw [h]; rfl) (h2 0 (Nat.succ_pos _))
    · rw [if_neg h, ih]
      constructor
      · rintro ⟨j, rfl, h1, h2⟩
        refine ⟨j + 1, by omega, h1, ?_⟩
        intro j' hj'
        cases j' with
        | zero => intro h'; exact h (Option.some.inj h')
        | succ j' => exact h2 j' (by omega)
      · rintro ⟨j, rfl, h1, h2⟩
        cases j with
        | zero => exact absurd (Option.some.inj h1) h
        | succ j => exact ⟨j, by omega, h1, fun j' hj' => h2 (j' + 1) (by omega)⟩

theorem field_iff {s : Nat} {e : List (Option Nat)} {g : Nat} {k : Key} : Field s e g k ↔ ∃ i, findField g e 0 = some i ∧ k = .var s i := by
  constructor
  · rintro ⟨h1, h2⟩
    exact ⟨_, findField_iff.2 ⟨_, (Nat.zero_add _).symm, h1, h2⟩, rfl⟩
  · rintro ⟨i, h, rfl⟩
    obtain ⟨j, rfl, h1, h2⟩ := findField_iff.1 h
    rw [Nat.zero_add]
    exact .mk h1 h2

/-! ## Cells -/

theorem chunks_flatten (k : Nat) : ∀ (n : Nat) (es : List V), es.length = n * k → (chunks k n es).flatten = es ∧ (∀ c ∈ chunks k n es, c.length = k) ∧ (chunks k n es).length = n := by
  intro n
  induction n with
  | zero =>
    intro es h
    have : es = [] := List.eq_nil_of_length_eq_zero (by rw [h, Nat.zero_mul])
    rw [this]; exact ⟨rfl, (fun c h => by cases h), rfl⟩
  | succ n ih =>
    intro es h
    rw [Nat.succ_mul] at h
    obtain ⟨h1, h2, h3⟩ := ih (es.drop k) (by rw [List.length_drop]; omega)
    rw [chunks]
    refine ⟨by rw [List.flatten_cons, h1, List.take_append_drop], ?_, by rw [List.length_cons, h3]⟩
    intro c hc
    rcases List.mem_cons.1 hc with rfl | hc
    · rw [List.length_take]; omega
    · exact h2 c hc

theorem chunks_of_flatten (k : Nat) : ∀ (cells : List (List V)), (∀ c ∈ cells, c.length = k) → chunks k cells.length cells.flatten = cells := by
  intro cells
  induction cells with
  | nil => intro _; rfl
  | cons c cells ih =>
    intro h
    have hc := h c (List.mem_cons_self ..)
    rw [List.length_cons, chunks, List.flatten_cons, List.take_left' hc, List.drop_left' hc, ih fun c hc => h c (List.mem_cons_of_mem _ hc)]

/-- The cells of an array. -/
theorem cellsOf_spec {n : Nat} {sh : List Nat} {es : List V} (h : es.length = n * prod sh) : ∃ cells : List (List V), cellsOf n sh es = cells.map (.arr sh) ∧ cells.flatten = es ∧ (∀ c ∈ cells, c.length = prod sh) ∧ cells.length = n := by
  unfold cellsOf
  by_cases h0 : n = 0
  · rw [if_pos h0]
    subst h0
    have : es = [] := List.eq_nil_of_length_eq_zero (by rw [h, Nat.zero_mul])
    exact ⟨[], rfl, this.symm, (fun c h => by cases h), rfl⟩
  · rw [if_neg h0]
    cases sh with
    | nil =>
      refine ⟨es.map fun e => [e], by rw [List.map_map]; rfl, ?_, ?_, by rw [List.length_map, h, prod, Nat.mul_one]⟩
      · clear h; induction es with
        | nil => rfl
        | cons e es ih => rw [List.map_cons, List.flatten_cons, ih]; rfl
      · intro c hc
        obtain ⟨e, _, rfl⟩ := List.mem_map.1 hc
        rfl
    | cons m sh =>
      obtain ⟨h1, h2, h3⟩ := chunks_flatten (prod (m :: sh)) n es h
      exact ⟨_, rfl, h1, h2, h3⟩

theorem cellsOf_of {cells : List (List V)} {sh : List Nat} (h : ∀ c ∈ cells, c.length = prod sh) : cellsOf cells.length sh cells.flatten = cells.map (.arr sh) := by
  have hl : cells.flatten.length = cells.length * prod sh := by
    induction cells with
    | nil => simp
    | cons c cells ih =>
      rw [List.flatten_cons, List.length_append, List.length_cons, Nat.succ_mul, ih fun c hc => h c (List.mem_cons_of_mem _ hc), h c (List.mem_cons_self ..)]
      omega
  obtain ⟨cells', h1, h2, h3, h4⟩ := cellsOf_spec hl
  rw [h1]
  congr 1
  rw [← chunks_of_flatten (prod sh) cells' h3, h4, h2, chunks_of_flatten (prod sh) cells h]

theorem cellsOf_wf {n : Nat} {sh : List Nat} {es : List V} (h : (V.arr (n :: sh) es).Wf) : wfL (cellsOf n sh es) := by
  rw [V.Wf, wfL_iff] at h
  obtain ⟨cells, h1, h2, h3, _⟩ := cellsOf_spec (n := n) (sh := sh) (es := es) h.1
  rw [h1, wfL_iff]
  intro v hv
  obtain ⟨c, hc, rfl⟩ := List.mem_map.1 hv
  rw [V.Wf, wfL_iff]
  exact ⟨h3 c hc, fun v hv => h.2 v (by rw [← h2]; exact List.mem_flatten.2 ⟨c, hc, hv⟩)⟩

theorem cellsOf_length {n : Nat} {sh : List Nat} {es : List V} (h : (V.arr (n :: sh) es).Wf) : (cellsOf n sh es).length = n := by
  rw [V.Wf] at h
  obtain ⟨cells, h1, _, _, h4⟩ := cellsOf_spec (n := n) (sh := sh) (es := es) h.1
  rw [h1, List.length_map, h4]

/-! ## Only variables of the target are changed, and there's nothing undefined -/

/-- What's true of the end of an assignment. -/
def R.Good (σ : Store) (ks : List Key) (ud : Prop) : R → Prop
  | .ok σ' => WfS σ' ∧ ∀ k, k ∉ ks → σ' k = σ k
  | .err σ' => WfS σ' ∧ ∀ k, k ∉ ks → σ' k = σ k
  | .ud => ud

theorem setVar_good {upd chk : Bool} {σ : Store} {k : Key} {x : V} (hσ : WfS σ) (hx : x.Wf) {ud : Prop} : (setVar upd chk σ k x).Good σ [k] ud := by
  unfold setVar
  by_cases h : (upd && chk && badWrite (σ k)) = true
  · rw [if_pos h]; exact ⟨hσ, fun _ _ => rfl⟩
  · rw [if_neg h]; exact ⟨hσ.put k hx, fun k' hk => put_other (by simpa using hk)⟩

theorem good_then {r : R} {f : Store → R} {σ : Store} {ks ls : List Key} {ud ud' : Prop} (h : r.Good σ ks ud) (hf : ∀ σ', WfS σ' → (f σ').Good σ' ls ud') : (r.then f).Good σ (ks ++ ls) (ud ∨ ud') := by
  cases r with
  | ok σ' =>
    have := hf σ' h.1
    show (f σ').Good _ _ _
    cases hf' : f σ' with
    | ok σ'' =>
      rw [hf'] at this
      exact ⟨this.1, fun k hk => by rw [this.2 k fun h => hk (List.mem_append_right _ h), h.2 k fun h => hk (List.mem_append_left _ h)]⟩
    | err σ'' =>
      rw [hf'] at this
      exact ⟨this.1, fun k hk => by rw [this.2 k fun h => hk (List.mem_append_right _ h), h.2 k fun h => hk (List.mem_append_left _ h)]⟩
    | ud => rw [hf'] at this; exact .inr this
  | err σ' => exact ⟨h.1, fun k hk => h.2 k fun h => hk (List.mem_append_left _ h)⟩
  | ud => exact .inl h

theorem R.Good.mono {r : R} {σ : Store} {ks : List Key} {ud ud' : Prop} (h : r.Good σ ks ud) (hu : ud → ud') : r.Good σ ks ud' := by
  cases r with
  | ok _ => exact h
  | err _ => exact h
  | ud => exact hu h

theorem err_good {σ : Store} (hσ : WfS σ) {ks : List Key} {ud : Prop} : (R.err σ).Good σ ks ud := ⟨hσ, fun _ _ => rfl⟩
theorem ok_good {σ : Store} (hσ : WfS σ) {ks : List Key} {ud : Prop} : (R.ok σ).Good σ ks ud := ⟨hσ, fun _ _ => rfl⟩

mutual
theorem set_good (W : World) (hdr upd chk : Bool) : ∀ (t : T) (x : V) (σ : Store), WfS σ → x.Wf → (set W hdr upd chk σ t x).Good σ (t.vars W) (t.fits hdr = false ∨ t.flat hdr = false)
  | .var d p, x, σ, hσ, hx => by rw [set]; exact setVar_good hσ hx
  | .ext d p, x, σ, hσ, hx => by
    rw [set]
    cases hdr with
    | true => exact .inl rfl
    | false => exact setVar_good hσ hx
  | .nothing, x, σ, hσ, hx => by rw [set]; exact ok_good hσ
  | .list ts, .arr sh xs, σ, hσ, hx => by
    rw [set]
    by_cases h : sh = [ts.length]
    · rw [if_pos h, T.vars]
      rw [V.Wf] at hx
      refine (setAll_good W hdr upd ts xs σ hσ hx.2 (by rw [hx.1, h]; simp [prod])).mono ?_
      rw [T.fits, T.flat]
      rintro (h | h)
      · exact .inl h
      · exact .inr (by rw [h]; rfl)
    · rw [if_neg h]; exact err_good hσ
  | .list ts, .ns s e, σ, hσ, hx => by
    rw [set, T.vars]
    refine (setFields_good W hdr upd ts s e σ hσ).mono ?_
    rw [T.fits, T.flat]
    rintro (h | h)
    · exact .inl h
    · exact .inr h
  | .list _, .atom _, σ, hσ, hx => by rw [set]; exact err_good hσ; all_goals nofun
  | .list _, .noVar, σ, hσ, hx => by rw [set]; exact err_good hσ; all_goals nofun
  | .list _, .optOut, σ, hσ, hx => by rw [set]; exact err_good hσ; all_goals nofun
  | .merge ts, .arr [] es, σ, hσ, hx => by rw [set]; exact err_good hσ; all_goals nofun
  | .merge ts, .arr (n :: sh) es, σ, hσ, hx => by
    rw [set]
    by_cases h : n = ts.length
    · rw [if_pos h, T.vars]
      refine (setAll_good W hdr upd ts _ σ hσ (cellsOf_wf hx) (by rw [cellsOf_length hx, h])).mono ?_
      rw [T.fits, T.flat]
      exact id
    · rw [if_neg h]; exact err_good hσ
  | .merge ts, .atom _, σ, hσ, hx => by rw [set]; exact err_good hσ; all_goals nofun
  | .merge ts, .ns _ _, σ, hσ, hx => by rw [set]; exact err_good hσ; all_goals nofun
  | .merge ts, .noVar, σ, hσ, hx => by rw [set]; exact err_good hσ; all_goals nofun
  | .merge ts, .optOut, σ, hσ, hx => by rw [set]; exact err_good hσ; all_goals nofun
  | .alias _ _, x, σ, hσ, hx => by rw [set]; exact err_good hσ
  | .verify v, x, σ, hσ, hx => by
    rw [set]
    cases hdr with
    | true =>
      rw [if_pos rfl]
      cases W.eq v x with
      | true => exact ok_good hσ
      | false => exact err_good hσ
    | false => exact .inl rfl
theorem setAll_good (W : World) (hdr upd : Bool) : ∀ (ts : List T) (xs : List V) (σ : Store), WfS σ → wfL xs → xs.length = ts.length → (setAll W hdr upd σ ts xs).Good σ (varsL W ts) (fitsL hdr ts = false ∨ flatL hdr ts = false)
  | [], _, σ, hσ, _, _ => by rw [setAll]; exact ok_good hσ
  | _ :: _, [], σ, _, _, h => by cases h
  | t :: ts, x :: xs, σ, hσ, hx, h => by
    rw [setAll, varsL, fitsL, flatL]
    rw [wfL] at hx
    refine (good_then (set_good W hdr upd true t x σ hσ hx.1) fun σ' hσ' => setAll_good W hdr upd ts xs σ' hσ' hx.2 (Nat.succ.inj h)).mono ?_
    rintro ((h | h) | (h | h)) <;> rw [h] <;> simp
theorem setFields_good (W : World) (hdr upd : Bool) : ∀ (ts : List T) (s : Nat) (e : List (Option Nat)) (σ : Store), WfS σ → (setFields W hdr upd σ ts s e).Good σ (varsL W ts) (fitsL hdr ts = false ∨ (flatL hdr ts && (hdr || !ts.any T.isMerge)) = false)
  | [], _, _, σ, hσ => by rw [setFields]; exact ok_good hσ
  | .var d p :: ts, s, e, σ, hσ => by
    rw [setFields, varsL]
    refine (good_then (ks := (T.var d p).vars W) (ud := False) ?_ fun σ' hσ' => setFields_good W hdr upd ts s e σ' hσ').mono ?_
    · cases (W.name (W.scope d) p).bind fun g => findField g e 0 with
      | none => exact err_good hσ
      | some i => exact setVar_good hσ (hσ _)
    · rintro (h | h | h)
      · exact h.elim
      · exact .inl (by rw [fitsL, h]; simp)
      · exact .inr h
  | .ext d p :: ts, s, e, σ, hσ => by
    rw [setFields, varsL]
    cases hdr with
    | true => exact err_good hσ
    | false =>
      simp only [Bool.false_eq_true, if_false]
      refine (good_then (ks := (T.ext d p).vars W) (ud := False) ?_ fun σ' hσ' => setFields_good W false upd ts s e σ' hσ').mono ?_
      · cases findField (W.extName (W.scope d) p) e 0 with
        | none => exact err_good hσ
        | some i => exact setVar_good hσ (hσ _)
      · rintro (h | h | h)
        · exact h.elim
        · exact .inl (by rw [fitsL, h]; simp)
        · exact .inr h
  | .alias t g :: ts, s, e, σ, hσ => by
    rw [setFields, varsL]
    refine (good_then (ks := (T.alias t g).vars W) (ud := t.fits hdr = false ∨ t.flat hdr = false) ?_ fun σ' hσ' => setFields_good W hdr upd ts s e σ' hσ').mono ?_
    · rw [T.vars]
      cases findField g e 0 with
      | none => exact err_good hσ
      | some i => exact set_good W hdr upd true t _ σ hσ (hσ _)
    · rintro ((h | h) | h | h)
      · exact .inl (by rw [fitsL, T.fits, h]; rfl)
      · exact .inr (by rw [flatL, T.flat, h]; rfl)
      · exact .inl (by rw [fitsL, h]; simp)
      · refine .inr ?_
        rw [flatL, List.any_cons, show (T.alias t g).isMerge = false from rfl, Bool.false_or, Bool.and_assoc, h, Bool.and_false]
  | .nothing :: ts, s, e, σ, hσ => by rw [setFields]; exact err_good hσ
  | .list _ :: ts, s, e, σ, hσ => by rw [setFields]; exact err_good hσ
  | .merge _ :: ts, s, e, σ, hσ => by
    rw [setFields]
    cases hdr with
    | true => exact err_good hσ
    | false => exact .inr (by simp [T.isMerge])
  | .verify _ :: ts, s, e, σ, hσ => by
    rw [setFields]
    cases hdr with
    | true => exact err_good hσ
    | false => exact .inl rfl
end

end Verif.Assign
