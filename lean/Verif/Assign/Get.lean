import Verif.Assign.Binds
/-!
# Assignment: reading targets that are modified
-/
namespace Verif.Assign

theorem taken_append (a b : List Key) (σ : Store) : taken (a ++ b) σ = taken b (taken a σ) := by
  funext k
  unfold taken
  by_cases hb : k ∈ b
  · rw [if_pos (List.mem_append_right _ hb), if_pos hb]
  · rw [if_neg hb]
    by_cases ha : k ∈ a
    · rw [if_pos (List.mem_append_left _ ha), if_pos ha]
    · rw [if_neg ha, if_neg]
      intro h
      rcases List.mem_append.1 h with h | h
      · exact ha h
      · exact hb h

theorem taken_one (k : Key) (σ : Store) : put σ k .optOut = taken [k] σ := by
  funext k'
  show (if k' = k then V.optOut else σ k') = if k' ∈ [k] then V.optOut else σ k'
  by_cases h : k' = k
  · rw [if_pos h, if_pos (by rw [h]; exact List.mem_singleton.2 rfl)]
  · rw [if_neg h, if_neg (by simpa using h)]

theorem taken_nil (σ : Store) : taken [] σ = σ := by
  funext k
  exact if_neg (by simp)

theorem taken_avail {ks : List Key} {σ : Store} {k : Key} : (taken ks σ k).Avail ↔ (σ k).Avail ∧ k ∉ ks := by
  unfold taken
  by_cases h : k ∈ ks
  · rw [if_pos h]
    exact ⟨fun h => absurd rfl h.2, fun h' => absurd h h'.2⟩
  · rw [if_neg h]
    exact ⟨fun h' => ⟨h', h⟩, fun h => h.1⟩

theorem taken_of {ks : List Key} {σ : Store} {k : Key} (h : k ∉ ks) : taken ks σ k = σ k := if_neg h

mutual
/-- What can be read after something was taken. -/
theorem value_taken (W : World) (σ : Store) (ks : List Key) : ∀ (t : T) (v : V), Value W (taken ks σ) t v ↔ Value W σ t v ∧ ∀ k ∈ t.vars W, k ∉ ks
  | .var d p, v => by
    constructor
    · rintro ⟨h⟩
      have := taken_avail.1 h
      rw [taken_of this.2]
      exact ⟨.var this.1, fun k hk => by rw [T.vars, List.mem_singleton] at hk; rw [hk]; exact this.2⟩
    · rintro ⟨⟨h⟩, hk⟩
      have hk := hk _ (List.mem_singleton.2 rfl)
      rw [← taken_of hk (σ := σ)]
      exact .var (taken_avail.2 ⟨h, hk⟩)
  | .ext d p, v => by
    constructor
    · intro h
      cases h with
      | ext h =>
        have := taken_avail.1 h
        rw [taken_of this.2]
        exact ⟨.ext this.1, fun k hk => by rw [T.vars, List.mem_singleton] at hk; rw [hk]; exact this.2⟩
    · rintro ⟨h, hk⟩
      cases h with
      | ext h =>
        have hk := hk _ (List.mem_singleton.2 rfl)
        rw [← taken_of hk (σ := σ)]
        exact .ext (taken_avail.2 ⟨h, hk⟩)
  | .nothing, v => by constructor <;> intro h; cases h; cases h.1
  | .list ts, v => by
    rw [T.vars]
    constructor
    · intro h
      cases h with
      | list h =>
        have := (values_taken W σ ks ts _).1 h
        exact ⟨.list this.1, this.2⟩
    · rintro ⟨h, hk⟩
      cases h with
      | list h => exact .list ((values_taken W σ ks ts _).2 ⟨h, hk⟩)
  | .merge ts, v => by
    rw [T.vars]
    constructor
    · intro h
      cases h with
      | merge h h1 h2 =>
        have := (values_taken W σ ks ts _).1 h
        exact ⟨.merge this.1 h1 h2, this.2⟩
    · rintro ⟨h, hk⟩
      cases h with
      | merge h h1 h2 => exact .merge ((values_taken W σ ks ts _).2 ⟨h, hk⟩) h1 h2
  | .alias _ _, v => by constructor <;> intro h; cases h; cases h.1
  | .verify _, v => by constructor <;> intro h; cases h; cases h.1
theorem values_taken (W : World) (σ : Store) (ks : List Key) : ∀ (ts : List T) (vs : List V), Values W (taken ks σ) ts vs ↔ Values W σ ts vs ∧ ∀ k ∈ varsL W ts, k ∉ ks
  | [], vs => by
    constructor
    · intro h; cases h; exact ⟨.nil, fun k hk => by cases hk⟩
    · rintro ⟨h, _⟩; cases h; exact .nil
  | t :: ts, vs => by
    rw [varsL]
    constructor
    · intro h
      cases h with
      | cons h1 h2 =>
        have h1 := (value_taken W σ ks t _).1 h1
        have h2 := (values_taken W σ ks ts _).1 h2
        refine ⟨.cons h1.1 h2.1, ?_⟩
        intro k hk
        rcases List.mem_append.1 hk with hk | hk
        · exact h1.2 k hk
        · exact h2.2 k hk
    · rintro ⟨h, hk⟩
      cases h with
      | cons h1 h2 =>
        exact .cons ((value_taken W σ ks t _).2 ⟨h1, fun k h => hk k (List.mem_append_left _ h)⟩) ((values_taken W σ ks ts _).2 ⟨h2, fun k h => hk k (List.mem_append_right _ h)⟩)
end

theorem badRead_iff {v : V} : badRead v = false ↔ v.Avail := by
  cases v <;> simp [badRead, V.isNoVar, V.isOptOut, V.Avail]

theorem getVar_ok {σ : Store} {k : Key} {v : V} {σ' : Store} : getVar σ k = .ok v σ' ↔ (σ k).Avail ∧ v = σ k ∧ σ' = taken [k] σ := by
  unfold getVar
  rw [taken_one]
  cases h : badRead (σ k) with
  | true =>
    rw [if_pos rfl]
    refine ⟨nofun, fun h' => ?_⟩
    rw [badRead_iff.2 h'.1] at h
    cases h
  | false =>
    simp only [Bool.false_eq_true, if_false]
    constructor
    · intro h'; cases h'; exact ⟨badRead_iff.1 h, rfl, rfl⟩
    · rintro ⟨_, rfl, rfl⟩; rfl

theorem bind_ok {α β : Type} {g : G α} {f : α → Store → G β} {v : β} {σ' : Store} : g.bind f = .ok v σ' ↔ ∃ u σ1, g = .ok u σ1 ∧ f u σ1 = .ok v σ' := by
  cases g with
  | ok u σ1 =>
    constructor
    · intro h; exact ⟨u, σ1, rfl, h⟩
    · rintro ⟨_, _, h, h'⟩; cases h; exact h'
  | err _ => constructor <;> intro h; cases h; obtain ⟨_, _, h, _⟩ := h; cases h
  | ud => constructor <;> intro h; cases h; obtain ⟨_, _, h, _⟩ := h; cases h

theorem mergeV_some {vs : List V} {v : V} : mergeV vs = some v ↔ vs ≠ [] ∧ ∃ sh, (∀ u ∈ vs, u.shape = sh) ∧ v = .arr (vs.length :: sh) (vs.flatMap V.elems) := by
  cases vs with
  | nil => simp [mergeV]
  | cons u us =>
    rw [mergeV]
    constructor
    · intro h
      by_cases ha : (us.all fun w => w.shape = u.shape) = true
      · rw [if_pos ha] at h
        cases h
        refine ⟨nofun, u.shape, ?_, rfl⟩
        intro w hw
        rcases List.mem_cons.1 hw with rfl | hw
        · rfl
        · simpa using List.all_eq_true.1 ha w hw
      · rw [if_neg ha] at h; cases h
    · rintro ⟨_, sh, h1, rfl⟩
      have h0 := h1 u (List.mem_cons_self ..)
      rw [if_pos, h0]; rfl
      rw [List.all_eq_true]
      intro w hw
      rw [h0]
      simpa using h1 w (List.mem_cons_of_mem _ hw)

theorem Values.length {W : World} {σ : Store} {ts : List T} : ∀ {vs : List V}, Values W σ ts vs → vs.length = ts.length := by
  induction ts with
  | nil => intro vs h; cases h; rfl
  | cons t ts ih => intro vs h; cases h with | cons _ h => rw [List.length_cons, List.length_cons, ih h]

mutual
/-- What's read, and what's left. -/
theorem get_iff (W : World) : ∀ (t : T) (σ σ' : Store) (v : V), get W σ t = .ok v σ' ↔ Value W σ t v ∧ (t.vars W).Nodup ∧ σ' = taken (t.vars W) σ
  | .var d p, σ, σ', v => by
    rw [get, getVar_ok, T.vars]
    constructor
    · rintro ⟨h, rfl, rfl⟩; exact ⟨.var h, by simp, rfl⟩
    · rintro ⟨⟨h⟩, _, rfl⟩; exact ⟨h, rfl, rfl⟩
  | .ext d p, σ, σ', v => by
    rw [get, getVar_ok, T.vars]
    constructor
    · rintro ⟨h, rfl, rfl⟩; exact ⟨.ext h, by simp, rfl⟩
    · rintro ⟨h, _, rfl⟩; cases h with | ext h => exact ⟨h, rfl, rfl⟩
  | .nothing, σ, σ', v => by rw [get]; constructor <;> intro h; cases h; cases h.1
  | .list ts, σ, σ', v => by
    rw [get, bind_ok, T.vars]
    constructor
    · rintro ⟨vs, σ1, h, h'⟩
      cases h'
      obtain ⟨h1, h2⟩ := (getAll_iff W ts σ σ' vs).1 h
      exact ⟨.list h1, h2⟩
    · rintro ⟨h, h'⟩
      cases h with
      | @list _ vs h => exact ⟨vs, σ', (getAll_iff W ts σ σ' vs).2 ⟨h, h'⟩, rfl⟩
  | .merge ts, σ, σ', v => by
    rw [get, bind_ok, T.vars]
    constructor
    · rintro ⟨vs, σ1, h, h'⟩
      cases hm : mergeV vs with
      | none => rw [hm] at h'; cases h'
      | some u =>
        rw [hm] at h'
        cases h'
        obtain ⟨h1, h2⟩ := (getAll_iff W ts σ σ' vs).1 h
        obtain ⟨g1, sh, g2, rfl⟩ := mergeV_some.1 hm
        rw [h1.length]
        exact ⟨.merge h1 g2 g1, h2⟩
    · rintro ⟨h, h'⟩
      cases h with
      | @merge _ vs sh h g2 g1 =>
        refine ⟨vs, σ', (getAll_iff W ts σ σ' vs).2 ⟨h, h'⟩, ?_⟩
        rw [mergeV_some.2 ⟨g1, sh, g2, rfl⟩, h.length]
  | .alias _ _, σ, σ', v => by rw [get]; constructor <;> intro h; cases h; cases h.1
  | .verify _, σ, σ', v => by rw [get]; constructor <;> intro h; cases h; cases h.1
theorem getAll_iff (W : World) : ∀ (ts : List T) (σ σ' : Store) (vs : List V), getAll W σ ts = .ok vs σ' ↔ Values W σ ts vs ∧ (varsL W ts).Nodup ∧ σ' = taken (varsL W ts) σ
  | [], σ, σ', vs => by
    rw [getAll, varsL, taken_nil]
    constructor
    · intro h; cases h; exact ⟨.nil, List.nodup_nil, rfl⟩
    · rintro ⟨h, _, rfl⟩; cases h; rfl
  | t :: ts, σ, σ', vs => by
    rw [getAll, bind_ok, varsL]
    constructor
    · rintro ⟨v, σ1, h1, h2⟩
      obtain ⟨vs', σ2, h3, h4⟩ := bind_ok.1 h2
      cases h4
      obtain ⟨g1, g2, rfl⟩ := (get_iff W t σ σ1 v).1 h1
      obtain ⟨g3, g4, rfl⟩ := (getAll_iff W ts _ σ' vs').1 h3
      have g3 := (values_taken W σ _ ts vs').1 g3
      refine ⟨.cons g1 g3.1, ?_, by rw [taken_append]⟩
      rw [List.nodup_append]
      refine ⟨g2, g4, ?_⟩
      intro a ha b hb e
      exact g3.2 b hb (e ▸ ha)
    · rintro ⟨h, hn, rfl⟩
      rw [List.nodup_append] at hn
      cases h with
      | @cons _ _ v vs h1 h2 =>
        refine ⟨v, taken (t.vars W) σ, (get_iff W t σ _ v).2 ⟨h1, hn.1, rfl⟩, ?_⟩
        rw [bind_ok]
        refine ⟨vs, _, (getAll_iff W ts _ _ vs).2 ⟨(values_taken W σ _ ts vs).2 ⟨h2, ?_⟩, hn.2.1, rfl⟩, by rw [taken_append]⟩
        intro k hk hk'
        exact hn.2.2 k hk' k hk rfl
end

/-- What's true of the end of reading. -/
def G.Good {α : Type} (σ : Store) (ks : List Key) : G α → Prop
  | .ok _ σ' => ∀ k, σ' k = σ k ∨ (k ∈ ks ∧ σ' k = .optOut)
  | .err σ' => ∀ k, σ' k = σ k ∨ (k ∈ ks ∧ σ' k = .optOut)
  | .ud => False

theorem good_bind {α β : Type} {g : G α} {f : α → Store → G β} {σ : Store} {ks ls : List Key} (h : g.Good σ ks) (hf : ∀ u σ', g = .ok u σ' → (f u σ').Good σ' ls) : (g.bind f).Good σ (ks ++ ls) := by
  have step : ∀ σ1 σ2 : Store, (∀ k, σ1 k = σ k ∨ (k ∈ ks ∧ σ1 k = .optOut)) → (∀ k, σ2 k = σ1 k ∨ (k ∈ ls ∧ σ2 k = .optOut)) → ∀ k, σ2 k = σ k ∨ (k ∈ ks ++ ls ∧ σ2 k = .optOut) := by
    intro σ1 σ2 h1 h2 k
    rcases h2 k with e2 | ⟨m2, e2⟩
    · rcases h1 k with e1 | ⟨m1, e1⟩
      · exact .inl (e2.trans e1)
      · exact .inr ⟨List.mem_append_left _ m1, e2.trans e1⟩
    · exact .inr ⟨List.mem_append_right _ m2, e2⟩
  cases g with
  | ok u σ1 =>
    have := hf u σ1 rfl
    show (f u σ1).Good _ _
    cases hfu : f u σ1 with
    | ok w σ2 => rw [hfu] at this; exact step σ1 σ2 h this
    | err σ2 => rw [hfu] at this; exact step σ1 σ2 h this
    | ud => rw [hfu] at this; exact this
  | err σ1 =>
    intro k
    rcases h k with e1 | ⟨m1, e1⟩
    · exact .inl e1
    · exact .inr ⟨List.mem_append_left _ m1, e1⟩
  | ud => exact h

theorem getVar_good (σ : Store) (k : Key) : (getVar σ k).Good σ [k] := by
  unfold getVar
  by_cases h : badRead (σ k) = true
  · rw [if_pos h]; exact fun _ => .inl rfl
  · rw [if_neg h]
    intro k'
    by_cases e : k' = k
    · exact .inr ⟨List.mem_singleton.2 e, by rw [e]; exact put_same⟩
    · exact .inl (put_other e)

mutual
theorem get_good (W : World) : ∀ (t : T) (σ : Store), t.plain = true → (get W σ t).Good σ (t.vars W)
  | .var d p, σ, _ => by rw [get]; exact getVar_good _ _
  | .ext d p, σ, _ => by rw [get]; exact getVar_good _ _
  | .nothing, σ, h => by cases h
  | .list ts, σ, h => by
    rw [get, T.vars]
    rw [T.plain] at h
    rw [← List.append_nil (varsL W ts)]
    exact good_bind (getAll_good W ts σ h) fun u σ' _ => fun _ => .inl rfl
  | .merge ts, σ, h => by
    rw [get, T.vars]
    rw [T.plain] at h
    rw [← List.append_nil (varsL W ts)]
    refine good_bind (getAll_good W ts σ h) fun u σ' _ => ?_
    cases mergeV u with
    | none => exact fun _ => .inl rfl
    | some v => exact fun _ => .inl rfl
  | .alias _ _, σ, h => by cases h
  | .verify _, σ, h => by cases h
theorem getAll_good (W : World) : ∀ (ts : List T) (σ : Store), plainL ts = true → (getAll W σ ts).Good σ (varsL W ts)
  | [], σ, _ => by rw [getAll]; exact fun _ => .inl rfl
  | t :: ts, σ, h => by
    rw [plainL, Bool.and_eq_true] at h
    rw [getAll, varsL]
    refine good_bind (get_good W t σ h.1) fun u σ' _ => ?_
    rw [← List.append_nil (varsL W ts)]
    exact good_bind (getAll_good W ts σ' h.2) fun u σ' _ => fun _ => .inl rfl
end

/-! ## Setting it to the same values -/

theorem apply_keys (σ : Store) : ∀ (ks : List Key) (σ' : Store) (k : Key), apply (ks.map fun k => (k, σ k)) σ' k = if k ∈ ks then σ k else σ' k := by
  intro ks
  induction ks with
  | nil => intro σ' k; rfl
  | cons k0 ks ih =>
    intro σ' k
    show apply (ks.map fun k => (k, σ k)) (put σ' k0 (σ k0)) k = _
    rw [ih]
    by_cases h : k ∈ ks
    · rw [if_pos h, if_pos (List.mem_cons_of_mem _ h)]
    · rw [if_neg h]
      by_cases e : k = k0
      · rw [if_pos (by rw [e]; exact List.mem_cons_self ..), e, put_same]
      · rw [if_neg (by simp [e, h]), put_other e]

/-- Marks that a variable isn't defined don't appear. -/
theorem apply_defined (σ : Store) (ks : List Key) (σ' : Store) (h : ∀ k ∈ ks, σ k ≠ .noVar) (k : Key) (h' : σ' k ≠ .noVar) : apply (ks.map fun k => (k, σ k)) σ' k ≠ .noVar := by
  rw [apply_keys]
  by_cases hk : k ∈ ks
  · rw [if_pos hk]; exact h k hk
  · rw [if_neg hk]; exact h'

mutual
theorem value_defined (W : World) (σ : Store) : ∀ (t : T) (v : V), Value W σ t v → ∀ k ∈ t.vars W, (σ k).Avail
  | .var d p, v, h => by cases h with | var h => intro k hk; rw [T.vars, List.mem_singleton] at hk; rw [hk]; exact h
  | .ext d p, v, h => by cases h with | ext h => intro k hk; rw [T.vars, List.mem_singleton] at hk; rw [hk]; exact h
  | .nothing, v, h => by cases h
  | .list ts, v, h => by cases h with | list h => rw [T.vars]; exact values_defined W σ ts _ h
  | .merge ts, v, h => by cases h with | merge h => rw [T.vars]; exact values_defined W σ ts _ h
  | .alias _ _, v, h => by cases h
  | .verify _, v, h => by cases h
theorem values_defined (W : World) (σ : Store) : ∀ (ts : List T) (vs : List V), Values W σ ts vs → ∀ k ∈ varsL W ts, (σ k).Avail
  | [], vs, h => by intro k hk; cases hk
  | t :: ts, vs, h => by
    cases h with
    | cons h1 h2 =>
      intro k hk
      rw [varsL] at hk
      rcases List.mem_append.1 hk with hk | hk
      · exact value_defined W σ t _ h1 k hk
      · exact values_defined W σ ts _ h2 k hk
end

mutual
theorem value_arrays (W : World) (σ : Store) : ∀ (t : T) (v : V), Value W σ t v → Arrays σ (t.vars W) → ∃ sh es, v = .arr sh es ∧ es.length = prod sh
  | .var d p, v, h, ha => by cases h with | var h => exact ha _ (List.mem_singleton.2 rfl)
  | .ext d p, v, h, ha => by cases h with | ext h => exact ha _ (List.mem_singleton.2 rfl)
  | .nothing, v, h, ha => by cases h
  | .list ts, v, h, ha => by cases h with | list h => exact ⟨_, _, rfl, by rw [h.length]; simp [prod]⟩
  | .merge ts, v, h, ha => by
    cases h with
    | @merge _ vs sh h h1 h2 =>
      rw [T.vars] at ha
      refine ⟨_, _, rfl, ?_⟩
      have hall := values_arrays W σ ts vs h ha
      rw [← h.length, prod]
      clear h h2 ha
      induction vs with
      | nil => simp
      | cons v vs ih =>
        rw [List.flatMap_cons, List.length_append, ih (fun v hv => h1 v (List.mem_cons_of_mem _ hv)) (fun v hv => hall v (List.mem_cons_of_mem _ hv)), List.length_cons, Nat.succ_mul]
        obtain ⟨sh', es, rfl, hl⟩ := hall v (List.mem_cons_self ..)
        have : sh' = sh := h1 _ (List.mem_cons_self ..)
        subst this
        show es.length + _ = _
        omega
  | .alias _ _, v, h, ha => by cases h
  | .verify _, v, h, ha => by cases h
theorem values_arrays (W : World) (σ : Store) : ∀ (ts : List T) (vs : List V), Values W σ ts vs → Arrays σ (varsL W ts) → ∀ v ∈ vs, ∃ sh es, v = V.arr sh es ∧ es.length = prod sh
  | [], vs, h, ha => by cases h; intro v hv; cases hv
  | t :: ts, vs, h, ha => by
    rw [varsL] at ha
    cases h with
    | cons h1 h2 =>
      intro v hv
      rcases List.mem_cons.1 hv with rfl | hv
      · exact value_arrays W σ t _ h1 fun k hk => ha k (List.mem_append_left _ hk)
      · exact values_arrays W σ ts _ h2 (fun k hk => ha k (List.mem_append_right _ hk)) v hv
end

mutual
theorem value_binds (W : World) (σ : Store) : ∀ (t : T) (v : V) (σ' : Store), Value W σ t v → (t.noMerge = true ∨ Arrays σ (t.vars W)) → (∀ k ∈ t.vars W, σ' k ≠ .noVar) → Binds W true σ' t v ((t.vars W).map fun k => (k, σ k))
  | .var d p, v, σ', h, hm, hd => by cases h with | var h => exact .var fun _ => hd _ (List.mem_singleton.2 rfl)
  | .ext d p, v, σ', h, hm, hd => by cases h with | ext h => exact .ext fun _ => hd _ (List.mem_singleton.2 rfl)
  | .nothing, v, σ', h, hm, hd => by cases h
  | .list ts, v, σ', h, hm, hd => by
    rw [T.vars, T.noMerge] at hm
    rw [T.vars] at hd ⊢
    cases h with
    | list h => exact .list (values_binds W σ ts _ σ' h hm hd)
  | .merge ts, v, σ', h, hm, hd => by
    rw [T.vars, T.noMerge] at hm
    rw [T.vars] at hd ⊢
    cases h with
    | @merge _ vs sh h h1 h2 =>
      have ha : Arrays σ (varsL W ts) := by
        rcases hm with hm | hm
        · cases hm
        · exact hm
      have hall := values_arrays W σ ts vs h ha
      have hb := values_binds W σ ts _ σ' h (.inr ha) hd
      have e : (vs.map V.elems).map (V.arr sh) = vs := by
        rw [List.map_map]
        conv => rhs; rw [← List.map_id vs]
        apply List.map_congr_left
        intro v hv
        obtain ⟨sh', es, rfl, _⟩ := hall v hv
        have : sh' = sh := h1 _ hv
        subst this
        rfl
      rw [List.flatMap_def]
      refine .merge ?_ (by rw [e]; exact hb)
      intro c hc
      obtain ⟨v, hv, rfl⟩ := List.mem_map.1 hc
      obtain ⟨sh', es, rfl, hl⟩ := hall v hv
      have : sh' = sh := h1 _ hv
      subst this
      exact hl
  | .alias _ _, v, σ', h, hm, hd => by cases h
  | .verify _, v, σ', h, hm, hd => by cases h
theorem values_binds (W : World) (σ : Store) : ∀ (ts : List T) (vs : List V) (σ' : Store), Values W σ ts vs → (noMergeL ts = true ∨ Arrays σ (varsL W ts)) → (∀ k ∈ varsL W ts, σ' k ≠ .noVar) → BindsAll W true σ' ts vs ((varsL W ts).map fun k => (k, σ k))
  | [], vs, σ', h, hm, hd => by cases h; exact .nil
  | t :: ts, vs, σ', h, hm, hd => by
    rw [varsL, noMergeL, Bool.and_eq_true] at hm
    rw [varsL] at hd ⊢
    rw [List.map_append]
    cases h with
    | cons h1 h2 =>
      refine .cons (value_binds W σ t _ σ' h1 ?_ fun k hk => hd k (List.mem_append_left _ hk)) (values_binds W σ ts _ _ h2 ?_ ?_)
      · exact hm.imp And.left fun h k hk => h k (List.mem_append_left _ hk)
      · exact hm.imp And.right fun h k hk => h k (List.mem_append_right _ hk)
      · intro k hk
        exact apply_defined σ _ σ' (fun k hk => (value_defined W σ t _ h1 k hk).1) k (hd k (List.mem_append_right _ hk))
end

end Verif.Assign
