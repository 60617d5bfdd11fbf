import Verif.Reorder.Axes
/-!
# Reorder Axes: the simplified axes give the same copy
-/
namespace Verif.Reorder
open Verif.Bits Verif.Slash Verif.Rep Verif.Select Verif.Under Verif.Rotate
open Verif.Group (GKind GLawful)

/-- Where element `q` of the result is in `𝕩`, for cells of `c` elements. -/
def src (A : List (Nat × Nat)) (c q : Nat) : Nat := offR A (q / c) + q % c

def SizeInv (s : Simp) : Prop := s.sz = match s.kept with | [] => s.csz | (l, st) :: _ => l * st

theorem simpStep_inv {s : Simp} (h : SizeInv s) (a : Nat × Nat) : SizeInv (simpStep s a) := by
  unfold simpStep
  by_cases h1 : a.1 = 1
  · rw [if_pos h1]; exact h
  · rw [if_neg h1]
    by_cases h2 : a.2 = s.sz
    · rw [if_pos h2]
      obtain ⟨kept, csz, sz⟩ := s
      cases kept with
      | nil =>
        have h : sz = csz := h
        show sz * a.1 = csz * a.1
        rw [h]
      | cons k ks =>
        obtain ⟨l, st⟩ := k
        have h : sz = l * st := h
        show sz * a.1 = l * a.1 * st
        rw [h, Nat.mul_right_comm]
    · rw [if_neg h2]
      rfl

theorem offR_merge (l0 s0 l : Nat) (R : List (Nat × Nat)) (t : Nat) : offR ((l0, s0) :: (l, l0 * s0) :: R) t = offR ((l0 * l, s0) :: R) t := by
  rw [offR, offR, offR, Nat.mod_mul, Nat.div_div_eq_div_mul, Nat.add_mul, ← Nat.add_assoc]
  congr 2
  rw [Nat.mul_comm l0 (t / l0 % l), Nat.mul_assoc]

theorem src_merge (c l : Nat) (R : List (Nat × Nat)) (q : Nat) : src ((l, c) :: R) c q = src R (c * l) q := by
  rw [src, src, offR, Nat.mod_mul, Nat.div_div_eq_div_mul, Nat.mul_comm c (q / c % l)]
  omega

theorem simpStep_src {s : Simp} (h : SizeInv s) (a : Nat × Nat) (R : List (Nat × Nat)) (q : Nat) :
    src ((simpStep s a).kept.reverse ++ R) (simpStep s a).csz q = src (s.kept.reverse ++ a :: R) s.csz q := by
  unfold simpStep
  obtain ⟨l, st⟩ := a
  by_cases h1 : l = 1
  · rw [if_pos h1, src, src, offR_append, offR_append, h1, offR, Nat.mod_one, Nat.zero_mul, Nat.zero_add, Nat.div_one]
  · rw [if_neg h1]
    by_cases h2 : st = s.sz
    · rw [if_pos h2]
      obtain ⟨kept, csz, sz⟩ := s
      cases kept with
      | nil =>
        have h : sz = csz := h
        have h2 : st = sz := h2
        show src R (csz * l) q = src ((l, st) :: R) csz q
        rw [h2, h, src_merge]
      | cons k ks =>
        obtain ⟨l0, s0⟩ := k
        have h : sz = l0 * s0 := h
        have h2 : st = sz := h2
        show src (((l0 * l, s0) :: ks).reverse ++ R) csz q = src (((l0, s0) :: ks).reverse ++ (l, st) :: R) csz q
        rw [h2, h, List.reverse_cons, List.reverse_cons, List.append_assoc, List.append_assoc, src, src, offR_append ks.reverse, offR_append ks.reverse]
        show offR ks.reverse (q / csz) + offR ((l0 * l, s0) :: R) _ + _ = offR ks.reverse (q / csz) + offR ((l0, s0) :: (l, l0 * s0) :: R) _ + _
        rw [offR_merge]
    · rw [if_neg h2]
      show src (((l, st) :: s.kept).reverse ++ R) s.csz q = _
      rw [List.reverse_cons, List.append_assoc]
      rfl

theorem simpStep_total {s : Simp} (a : Nat × Nat) (R : List (Nat × Nat)) :
    (simpStep s a).csz * lens ((simpStep s a).kept.reverse ++ R) = s.csz * lens (s.kept.reverse ++ a :: R) := by
  unfold simpStep
  obtain ⟨l, st⟩ := a
  by_cases h1 : l = 1
  · rw [if_pos h1, lens_append, lens_append, h1, lens_cons, Nat.one_mul]
  · rw [if_neg h1]
    by_cases h2 : st = s.sz
    · rw [if_pos h2]
      obtain ⟨kept, csz, sz⟩ := s
      cases kept with
      | nil =>
        show csz * l * lens R = csz * lens ((l, st) :: R)
        rw [lens_cons, Nat.mul_assoc]
      | cons k ks =>
        obtain ⟨l0, s0⟩ := k
        show csz * lens (((l0 * l, s0) :: ks).reverse ++ R) = csz * lens (((l0, s0) :: ks).reverse ++ (l, st) :: R)
        rw [List.reverse_cons, List.reverse_cons, List.append_assoc, List.append_assoc, lens_append ks.reverse, lens_append ks.reverse]
        show csz * (lens ks.reverse * lens ((l0 * l, s0) :: R)) = csz * (lens ks.reverse * lens ((l0, s0) :: (l, st) :: R))
        rw [lens_cons, lens_cons, lens_cons, Nat.mul_assoc]
    · rw [if_neg h2]
      show s.csz * lens (((l, st) :: s.kept).reverse ++ R) = _
      rw [List.reverse_cons, List.append_assoc]
      rfl

theorem simp_fold : ∀ (R : List (Nat × Nat)) (s : Simp), SizeInv s →
    (∀ q, src (R.foldl simpStep s).kept.reverse (R.foldl simpStep s).csz q = src (s.kept.reverse ++ R) s.csz q) ∧
    (R.foldl simpStep s).csz * lens (R.foldl simpStep s).kept.reverse = s.csz * lens (s.kept.reverse ++ R)
  | [], s, _ => ⟨fun q => by rw [List.append_nil]; rfl, by rw [List.append_nil]; rfl⟩
  | a :: R, s, h => by
    obtain ⟨h1, h2⟩ := simp_fold R (simpStep s a) (simpStep_inv h a)
    exact ⟨fun q => (h1 q).trans (simpStep_src h a R q), h2.trans (simpStep_total a R)⟩

theorem simplify_src (A : List (Nat × Nat)) (c q : Nat) : src (simplify A c).kept.reverse (simplify A c).csz q = src A c q := (simp_fold A ⟨[], c, c⟩ rfl).1 q

theorem simplify_total (A : List (Nat × Nat)) (c : Nat) : (simplify A c).csz * lens (simplify A c).kept.reverse = c * lens A := (simp_fold A ⟨[], c, c⟩ rfl).2

/-! ## Strides are multiples of the cell -/

/-- The stride of the axis `j` of the result; the pairs are the axis of the result and the length for the axes of `𝕩` from the last one on. -/
def strideOf : List (Nat × Nat) → Nat → Nat → Nat
  | [], _, _ => 0
  | (j', l) :: ps, c, j => (if j' = j then c else 0) + strideOf ps (c * l) j

def lengths (ps : List (Nat × Nat)) : Nat := prod (ps.map Prod.snd)

theorem strideOf_append : ∀ (u v : List (Nat × Nat)) (c j : Nat), strideOf (u ++ v) c j = strideOf u c j + strideOf v (c * lengths u) j
  | [], v, c, j => by
    show strideOf v c j = 0 + strideOf v (c * 1) j
    rw [Nat.mul_one, Nat.zero_add]
  | (j', l) :: u, v, c, j => by
    rw [List.cons_append, strideOf, strideOf, strideOf_append u v]
    show _ = _ + _ + strideOf v (c * (l * lengths u)) j
    rw [Nat.mul_assoc, Nat.add_assoc]

theorem strideOf_zero : ∀ {u : List (Nat × Nat)} {c j : Nat}, (∀ l, (j, l) ∉ u) → strideOf u c j = 0
  | [], _, _, _ => rfl
  | (j', l) :: u, c, j, h => by
    rw [strideOf, strideOf_zero (fun l' hl => h l' (List.mem_cons_of_mem _ hl)), if_neg]
    intro e
    exact h l (by rw [e]; exact List.mem_cons_self)

theorem strideOf_dvd : ∀ (v : List (Nat × Nat)) (c j : Nat), c ∣ strideOf v c j
  | [], c, _ => Nat.dvd_zero c
  | (j', l) :: v, c, j => by
    rw [strideOf]
    refine Nat.dvd_add ?_ (Nat.dvd_trans ⟨l, rfl⟩ (strideOf_dvd v (c * l) j))
    by_cases h : j' = j
    · rw [if_pos h]; exact Nat.dvd_refl c
    · rw [if_neg h]; exact Nat.dvd_zero c

theorem strideOf_ge : ∀ {v : List (Nat × Nat)} {c j l : Nat}, (∀ a ∈ v, 0 < a.2) → (j, l) ∈ v → c ≤ strideOf v c j
  | [], _, _, _, _, h => by cases h
  | (j', l') :: v, c, j, l, hp, h => by
    rw [strideOf]
    rcases List.mem_cons.1 h with h | h
    · cases h
      rw [if_pos rfl]
      omega
    · have h1 := strideOf_ge (c := c * l') (fun a ha => hp a (List.mem_cons_of_mem _ ha)) h
      have h2 : 0 < l' := hp (j', l') List.mem_cons_self
      have h3 : c * 1 ≤ c * l' := Nat.mul_le_mul_left c h2
      omega

theorem strideOf_first : ∀ {v : List (Nat × Nat)} {c j l : Nat}, 0 < c → (∀ a ∈ v, 0 < a.2) → (j, l) ∈ v → strideOf v c j = c →
    ∃ v1 l' v2, v = v1 ++ (j, l') :: v2 ∧ (∀ a ∈ v1, a.2 = 1) ∧ (∀ l'', (j, l'') ∈ v → l'' = l')
  | [], _, _, _, _, _, h, _ => by cases h
  | (j', l0) :: v, c, j, l, hc, hp, h, he => by
    rw [strideOf] at he
    have hp' : ∀ a ∈ v, 0 < a.2 := fun a ha => hp a (List.mem_cons_of_mem _ ha)
    have hl0 : 0 < l0 := hp (j', l0) List.mem_cons_self
    by_cases hj : j' = j
    · rw [if_pos hj] at he
      subst hj
      refine ⟨[], l0, v, rfl, fun a ha => (List.not_mem_nil ha).elim, fun l'' hl => ?_⟩
      rcases List.mem_cons.1 hl with hl | hl
      · cases hl; rfl
      · have := strideOf_ge (c := c * l0) hp' hl
        have h2 : c * 1 ≤ c * l0 := Nat.mul_le_mul_left c hl0
        omega
    · rw [if_neg hj, Nat.zero_add] at he
      have hmem : (j, l) ∈ v := by
        rcases List.mem_cons.1 h with h | h
        · cases h; exact (hj rfl).elim
        · exact h
      have h1 := strideOf_ge (c := c * l0) hp' hmem
      have h2 : l0 = 1 := by
        have h3 : c * l0 ≤ c * 1 := by omega
        have := Nat.le_of_mul_le_mul_left h3 hc
        omega
      subst h2
      rw [Nat.mul_one] at he
      obtain ⟨v1, l', v2, ev, hv1, hu⟩ := strideOf_first hc hp' hmem he
      refine ⟨(j', 1) :: v1, l', v2, by rw [ev]; rfl, fun a ha => ?_, fun l'' hl => ?_⟩
      · rcases List.mem_cons.1 ha with ha | ha
        · rw [ha]
        · exact hv1 a ha
      · rcases List.mem_cons.1 hl with hl | hl
        · cases hl; exact (hj rfl).elim
        · exact hu l'' hl

theorem lengths_ones : ∀ {v : List (Nat × Nat)}, (∀ a ∈ v, a.2 = 1) → lengths v = 1
  | [], _ => rfl
  | a :: v, h => by
    show a.2 * lengths v = 1
    rw [h a List.mem_cons_self, lengths_ones fun b hb => h b (List.mem_cons_of_mem _ hb)]

theorem lengths_append (u v : List (Nat × Nat)) : lengths (u ++ v) = lengths u * lengths v := by
  rw [lengths, List.map_append, prod_append]; rfl

theorem step_one {s : Simp} {l t : Nat} (h : l = 1) : simpStep s (l, t) = s := if_pos h

theorem step_same {c l t : Nat} (h : l ≠ 1) (ht : t = c) : simpStep ⟨[], c, c⟩ (l, t) = ⟨[], c * l, c * l⟩ := by
  unfold simpStep
  rw [if_neg h, if_pos ht]
  rfl

theorem step_new {c l t : Nat} (h : l ≠ 1) (ht : t ≠ c) : simpStep ⟨[], c, c⟩ (l, t) = ⟨[(l, t)], c, l * t⟩ := by
  unfold simpStep
  rw [if_neg h, if_neg ht]

/-- The axes of the result from the last one on. -/
def axesOf (ps : List (Nat × Nat)) (c : Nat) (r : Nat → Nat) : Nat → List (Nat × Nat)
  | 0 => []
  | b + 1 => (r b, strideOf ps c b) :: axesOf ps c r b

theorem fold_dvd_kept (c' : Nat) : ∀ (R : List (Nat × Nat)) (s : Simp), s.kept ≠ [] → s.csz = c' → (∀ a ∈ s.kept, c' ∣ a.2) → (∀ a ∈ R, a.1 = 1 ∨ c' ∣ a.2) →
    (R.foldl simpStep s).csz = c' ∧ ∀ a ∈ (R.foldl simpStep s).kept, c' ∣ a.2
  | [], s, _, h1, h2, _ => ⟨h1, h2⟩
  | a :: R, s, hk, h1, h2, h3 => by
    have hR : ∀ a ∈ R, a.1 = 1 ∨ c' ∣ a.2 := fun b hb => h3 b (List.mem_cons_of_mem _ hb)
    rw [List.foldl_cons]
    unfold simpStep
    by_cases ha : a.1 = 1
    · rw [if_pos ha]
      exact fold_dvd_kept c' R s hk h1 h2 hR
    · rw [if_neg ha]
      by_cases hs : a.2 = s.sz
      · rw [if_pos hs]
        obtain ⟨kept, csz, sz⟩ := s
        cases kept with
        | nil => exact (hk rfl).elim
        | cons k ks =>
          refine fold_dvd_kept c' R _ (by simp [mulLast]) h1 (fun b hb => ?_) hR
          have hb : b ∈ (k.1 * a.1, k.2) :: ks := hb
          rcases List.mem_cons.1 hb with hb | hb
          · rw [hb]; exact h2 k List.mem_cons_self
          · exact h2 b (List.mem_cons_of_mem _ hb)
      · rw [if_neg hs]
        refine fold_dvd_kept c' R _ (by simp) h1 (fun b hb => ?_) hR
        rcases List.mem_cons.1 hb with hb | hb
        · rw [hb]; exact (h3 a List.mem_cons_self).resolve_left ha
        · exact h2 b hb

theorem fold_dvd {ps : List (Nat × Nat)} {c0 : Nat} {r : Nat → Nat} {na : Nat} (hc0 : 0 < c0) (hpos : ∀ a ∈ ps, 0 < a.2) (hle : ∀ a ∈ ps, r a.1 ≤ a.2) (hat : ∀ j, j < na → (j, r j) ∈ ps) :
    ∀ (b c : Nat), b ≤ na → (∃ u v, ps = u ++ v ∧ c = c0 * lengths u ∧ ∀ a ∈ u, a.2 = 1 ∨ b ≤ a.1) →
      ∀ a ∈ ((axesOf ps c0 r b).foldl simpStep ⟨[], c, c⟩).kept, ((axesOf ps c0 r b).foldl simpStep ⟨[], c, c⟩).csz ∣ a.2
  | 0, c, _, _, a, ha => (List.not_mem_nil ha).elim
  | b + 1, c, hb, ⟨u, v, eps, ec, hu⟩, a, ha => by
    have hnotu : ∀ j, j < b + 1 → r j ≠ 1 → ∀ l, (j, l) ∉ u := fun j hj hr l hl => by
      have hm : (j, l) ∈ ps := by rw [eps]; exact List.mem_append_left _ hl
      have h1 := hle _ hm
      have h2 := hpos _ (hat j (by omega))
      have h3 := hu _ hl
      dsimp only at h1 h2 h3
      omega
    have hst : ∀ j, j < b + 1 → r j ≠ 1 → strideOf ps c0 j = strideOf v c j := fun j hj hr => by
      rw [eps, strideOf_append, strideOf_zero (hnotu j hj hr), Nat.zero_add, ← ec]
    have hdv : ∀ j, j < b + 1 → r j = 1 ∨ c ∣ strideOf ps c0 j := fun j hj => by
      by_cases hr : r j = 1
      · exact Or.inl hr
      · rw [hst j hj hr]
        exact Or.inr (strideOf_dvd v c j)
    have hrest : ∀ k, k ≤ b → ∀ a ∈ axesOf ps c0 r k, a.1 = 1 ∨ c ∣ a.2 := by
      intro k
      induction k with
      | zero => intro _ a ha; exact (List.not_mem_nil ha).elim
      | succ k ih =>
        intro hk a ha
        rw [axesOf] at ha
        rcases List.mem_cons.1 ha with ha | ha
        · rw [ha]; exact hdv k (by omega)
        · exact ih (by omega) a ha
    rw [axesOf, List.foldl_cons] at ha ⊢
    by_cases hr : r b = 1
    · rw [step_one hr] at ha ⊢
      exact fold_dvd hc0 hpos hle hat b c (by omega) ⟨u, v, eps, ec, fun a ha => (hu a ha).imp id (by omega)⟩ a ha
    · by_cases hs : strideOf ps c0 b = c
      · rw [step_same hr hs] at ha ⊢
        have hmem : (b, r b) ∈ v := by
          have := hat b (by omega)
          rw [eps] at this
          exact (List.mem_append.1 this).resolve_left (hnotu b (by omega) hr _)
        have hcpos : 0 < c := by
          rw [← hs]
          exact Nat.lt_of_lt_of_le hc0 (strideOf_ge hpos (hat b (by omega)))
        have hposv : ∀ a ∈ v, 0 < a.2 := fun a ha => hpos a (by rw [eps]; exact List.mem_append_right _ ha)
        obtain ⟨v1, l', v2, ev, hv1, huq⟩ := strideOf_first hcpos hposv hmem (by rw [← hst b (by omega) hr, hs])
        have el := huq _ hmem
        refine fold_dvd hc0 hpos hle hat b (c * r b) (by omega) ⟨u ++ (v1 ++ [(b, l')]), v2, by rw [eps, ev]; simp, ?_, fun a ha => ?_⟩ a ha
        · rw [lengths_append, lengths_append, lengths_ones hv1, ec, el]
          show _ = c0 * (lengths u * (1 * (l' * 1)))
          rw [Nat.one_mul, Nat.mul_one, Nat.mul_assoc]
        · rcases List.mem_append.1 ha with ha | ha
          · exact (hu a ha).imp id (by omega)
          · rcases List.mem_append.1 ha with ha | ha
            · exact Or.inl (hv1 a ha)
            · rw [List.mem_singleton.1 ha]; exact Or.inr (Nat.le_refl _)
      · rw [step_new hr hs] at ha ⊢
        obtain ⟨e, hd⟩ := fold_dvd_kept c (axesOf ps c0 r b) ⟨[(r b, strideOf ps c0 b)], c, r b * strideOf ps c0 b⟩ (by simp) rfl (fun a ha => by
          rw [List.mem_singleton.1 ha]
          exact (hdv b (by omega)).resolve_left hr) (hrest b (Nat.le_refl b))
        rw [e]
        exact hd a ha

theorem simplify_dvd {ps : List (Nat × Nat)} {c0 : Nat} {r : Nat → Nat} {na : Nat} (hc0 : 0 < c0) (hpos : ∀ a ∈ ps, 0 < a.2) (hle : ∀ a ∈ ps, r a.1 ≤ a.2) (hat : ∀ j, j < na → (j, r j) ∈ ps) :
    ∀ a ∈ (simplify (axesOf ps c0 r na) c0).kept, (simplify (axesOf ps c0 r na) c0).csz ∣ a.2 :=
  fold_dvd hc0 hpos hle hat na c0 (Nat.le_refl _) ⟨[], ps, rfl, (Nat.mul_one _).symm, fun _ h => (List.not_mem_nil h).elim⟩

/-! ## The copy -/

section
variable {M α : Type} {K : GKind M α} {ok : Nat → M → Prop}

theorem copyAxes_spec (hK : GLawful K ok) {x : M} {A : List (Nat × Nat)} {csz nx : Nat} (hx : ok nx x) (hin : ∀ t, t < lens A → offR A t + csz ≤ nx) (hc : 0 < csz) (hl : 0 < lens A)
    (hd : ∀ a ∈ A, csz ∣ a.2) : ∃ m', copyAxes K x A csz = some m' ∧ Good K ok x A csz (fun _ => True) m' := by
  cases A with
  | nil =>
    have hg := good_new hK x [] csz (S := fun _ => False) (fun _ h => h)
    obtain ⟨m', e, h⟩ := put hK hx hin hg (t := 0) hl (i := 0) (j := 0) (by rw [Nat.zero_mul]) rfl
    refine ⟨m', ?_, h.mono fun t ht _ => Or.inr (by have : t < 1 := ht; omega)⟩
    have e1 : csz * lens [] = csz := Nat.mul_one _
    rw [e1] at e
    exact e
  | cons ax rest =>
    obtain ⟨l, str⟩ := ax
    have hl' := hl
    rw [lens_cons] at hl'
    have hl0 : 0 < l := Nat.pos_of_mul_pos_right hl'
    have hr0 : 0 < lens rest := Nat.pos_of_mul_pos_left hl'
    have hnew := good_new hK x ((l, str) :: rest) csz (S := fun _ => False) (fun _ h => h)
    have via : ∃ m', selectCells K x csz (indices csz rest ((List.range l).map fun k => str / csz * k)) 0 (K.new (csz * lens ((l, str) :: rest))) = some m' ∧
        Good K ok x ((l, str) :: rest) csz (fun _ => True) m' := by
      have e0 : ((List.range l).map fun k => str / csz * k) = (List.range (lens [(l, str)])).map (offR (perCell csz [(l, str)])) := by
        rw [show lens [(l, str)] = l from Nat.mul_one _]
        apply List.map_congr_left
        intro k hk
        show str / csz * k = k % l * (str / csz) + 0
        rw [Nat.mod_eq_of_lt (List.mem_range.1 hk), Nat.mul_comm, Nat.add_zero]
      rw [e0, indices_spec csz rest [(l, str)] hl]
      show ∃ m', selectCells K x csz ((List.range (lens ((l, str) :: rest))).map (offR (perCell csz ((l, str) :: rest)))) 0 _ = some m' ∧ _
      refine selectCells_spec hK hx hin _ 0 _ (by simp) (fun k v hv => ?_) (hnew.mono fun t _ h => by omega)
      rw [List.getElem?_map] at hv
      cases hk : (List.range (lens ((l, str) :: rest)))[k]? with
      | none => rw [hk] at hv; cases hv
      | some k' =>
        have hk' : k' = k := by
          have := List.getElem?_eq_some_iff.1 hk
          obtain ⟨h1, h2⟩ := this
          rw [List.getElem_range] at h2
          exact h2.symm
        rw [hk, Option.map_some] at hv
        cases hv
        rw [offR_perCell csz _ _ hd, hk', Nat.zero_add]
    rw [copyAxes]
    by_cases h1 : (32 * 8) >>> K.log ≤ csz
    · rw [if_pos h1, zeros_eq]
      have := axisLoop_spec hK hx hin hc hl0 (lens rest) 0 _ hr0 (by omega) (hnew.mono fun t _ h => by omega)
      rw [offR_zero, Nat.mul_zero, Nat.zero_mul] at this
      exact this
    · rw [if_neg h1]
      by_cases h2 : (cpuCell csz K.log K.notB && !rest.isEmpty) = true
      · rw [if_pos h2]
        cases hf : findOne rest with
        | none => exact via
        | some v =>
          obtain ⟨mid, w, outer⟩ := v
          dsimp only
          by_cases h3 : w * l < (256 * 8) >>> K.log
          · rw [if_pos h3]; exact via
          · rw [if_neg h3]
            have er := findOne_spec hf
            subst er
            have hc1 : csz = 1 := Nat.dvd_one.1 (hd (w, 1) (by simp))
            subst hc1
            rw [lens_append, lens_cons] at hr0
            have hm0 := Nat.pos_of_mul_pos_right hr0
            have hw0 := Nat.pos_of_mul_pos_right (Nat.pos_of_mul_pos_left hr0)
            have ho0 := Nat.pos_of_mul_pos_left (Nat.pos_of_mul_pos_left hr0)
            by_cases h4 : (mid.isEmpty && outer.isEmpty) = true
            · rw [if_pos h4]
              rw [Bool.and_eq_true, List.isEmpty_iff, List.isEmpty_iff] at h4
              obtain ⟨em, eo⟩ := h4
              subst em eo
              obtain ⟨m', e, hg⟩ := tran_spec hK (mid := []) (outer := []) hx hin (a := 0) (b := 0) hm0 ho0 hnew (i := 0) (j := 0) (by simp) rfl
              refine ⟨m', e, hg.mono fun t ht _ => ?_⟩
              obtain ⟨a, b, p, q, ha, hb, hp, hq, et⟩ := cellAt_exists (mid := []) (outer := []) ht
              have ha : a < 1 := ha
              have hb : b < 1 := hb
              exact Or.inr ⟨p, q, hp, hq, by rw [et, show a = 0 by omega, show b = 0 by omega]⟩
            · rw [if_neg h4, zeros_eq, zeros_eq]
              have := tranLoop_spec hK hx hin hl0 hw0 (lens mid * lens outer) 0 0 _ hm0 ho0 (by omega) (hnew.mono fun t _ h => by
                obtain ⟨_, _, _, _, _, _, _, _, h⟩ := h
                omega)
              simp only [offR_zero, Nat.mul_zero, Nat.add_zero] at this
              exact this
      · rw [if_neg h2]; exact via

/-- The copy along the simplified axes puts every element in its place. -/
theorem copy_src (hK : GLawful K ok) {x : M} {A : List (Nat × Nat)} {c nx : Nat} (hx : ok nx x) (hc : 0 < c) (hl : 0 < lens A) (hin : ∀ q, q < c * lens A → src A c q < nx)
    (hd : ∀ a ∈ (simplify A c).kept, (simplify A c).csz ∣ a.2) :
    ∃ m', copyAxes K x (simplify A c).kept.reverse (simplify A c).csz = some m' ∧ ok (c * lens A) m' ∧ ∀ q, q < c * lens A → K.get m' q = K.get x (src A c q) := by
  have htot := simplify_total A c
  have hsrc := simplify_src A c
  have hd' : ∀ a ∈ (simplify A c).kept.reverse, (simplify A c).csz ∣ a.2 := fun a ha => hd a (List.mem_reverse.1 ha)
  generalize (simplify A c).kept.reverse = B at *
  generalize (simplify A c).csz = d at *
  have hp : 0 < d * lens B := by rw [htot]; exact Nat.mul_pos hc hl
  have hd0 : 0 < d := Nat.pos_of_mul_pos_right hp
  obtain ⟨m', e, hok, hg⟩ := copyAxes_spec hK hx (A := B) (csz := d) (fun t ht => by
    have hlt := digits_lt (show d - 1 < d by omega) ht
    have h1 := hin (d - 1 + d * t) (by rw [← htot]; exact hlt)
    rw [← hsrc, src, Nat.add_mul_div_left _ _ hd0, Nat.div_eq_of_lt (by omega), Nat.add_mul_mod_self_left, Nat.mod_eq_of_lt (by omega), Nat.zero_add] at h1
    omega) hd0 (Nat.pos_of_mul_pos_left hp) hd'
  rw [htot] at hok
  refine ⟨m', e, hok, fun q hq => ?_⟩
  have h1 := hg (q / d) ((Nat.div_lt_iff_lt_mul hd0).2 (by rw [Nat.mul_comm, htot]; exact hq)) trivial (q % d) (Nat.mod_lt _ hd0)
  rw [Nat.mul_comm, Nat.div_add_mod] at h1
  rw [h1, ← hsrc]
  rfl

end

end Verif.Reorder
