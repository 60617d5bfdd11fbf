import Verif.Reorder.Perm
/-!
# Reorder Axes: the whole function
-/
namespace Verif.Reorder
open Verif.Bits Verif.Slash Verif.Rep Verif.Select Verif.Under Verif.Rotate
open Verif.Group (GKind GLawful)

/-! ## The axes in place -/

theorem range_getD {xr : Nat} {is : List Nat} (h : is.length = xr) : (List.range xr).map (fun j => is.getD j 0) = is := by
  apply List.ext_getElem?
  intro j
  rw [List.getElem?_map]
  rcases Nat.lt_or_ge j xr with hj | hj
  · rw [List.getElem?_range hj, Option.map_some, List.getD_eq_getElem?_getD, List.getElem?_eq_getElem (by omega), Option.getD_some]
  · rw [List.getElem?_eq_none (by simpa using hj), List.getElem?_eq_none (by omega)]
    rfl

theorem distinct_range (n : Nat) : (distinct (List.range n)).length = n := by
  have := nodup_length_eq (nodup_distinct (List.range n)) (List.nodup_range (n := n)) fun a => mem_distinct
  rwa [List.length_range] at this

theorem fits_range {k xr : Nat} (h : k ≤ xr) : Fits (List.range k) xr ∧ newRank (List.range k) xr = xr := by
  have e : newRank (List.range k) xr = xr := by
    rw [newRank, distinct_range, List.length_range]
    omega
  refine ⟨⟨by rw [List.length_range]; exact h, fun w hw => ?_⟩, e⟩
  rw [e]
  have := List.mem_range.1 hw
  omega

theorem target_range {k xr : Nat} (h : k ≤ xr) : target (List.range k) xr = List.range xr := by
  obtain ⟨hf, e⟩ := fits_range h
  obtain ⟨et, hl, _⟩ := target_eq hf
  have hw : ∀ w ∈ List.range k, w < k := fun w => List.mem_range.1
  have h0 : free k (List.range k) = [] := List.eq_nil_of_length_eq_zero (by have := free_length hw; rw [distinct_range] at this; omega)
  rw [et, e, show xr = k + (xr - k) by omega, free_add hw, h0, List.nil_append, List.range_add, List.range'_eq_map_range]

theorem axisLen_range {xsh : List Nat} {j : Nat} (hj : j < xsh.length) : axisLen j ((List.range xsh.length).zip xsh) = some (xsh.getD j 0) := by
  have hm : ∀ l, (j, l) ∈ (List.range xsh.length).zip xsh → l = xsh.getD j 0 := fun l hl => by
    obtain ⟨k, hk, e⟩ := List.mem_iff_getElem.1 hl
    rw [List.getElem_zip, List.getElem_range] at e
    cases e
    rw [List.getD_eq_getElem?_getD, List.getElem?_eq_getElem hj, Option.getD_some]
  obtain ⟨l, hl⟩ := zip_mem_fst (T := List.range xsh.length) (xsh := xsh) (by simp) (List.mem_range.2 hj)
  have := hm l hl
  subst this
  exact axisLen_eq hl fun l' hl' => Nat.le_of_eq (hm l' hl').symm

theorem identity {k : Nat} {xsh : List Nat} (h : k ≤ xsh.length) :
    newShape (List.range k) xsh = xsh ∧ ∀ is : List Nat, is.length = xsh.length → sourceIdx (List.range k) xsh.length is = is := by
  obtain ⟨_, e⟩ := fits_range h
  refine ⟨?_, fun is hi => by rw [sourceIdx, target_range h]; exact range_getD hi⟩
  rw [newShape, e, target_range h]
  rw [List.map_congr_left (g := fun j => xsh.getD j 0) fun j hj => by rw [axisLen_range (List.mem_range.1 hj), Option.getD_some]]
  exact range_getD rfl

/-! ## The moved axes -/

theorem prod_pos_mem : ∀ {sh : List Nat}, prod sh ≠ 0 → ∀ l ∈ sh, 0 < l
  | s :: sh, h, l, hl => by
    have h : s * prod sh ≠ 0 := h
    have h1 : 0 < s := Nat.pos_of_ne_zero fun e => h (by rw [e, Nat.zero_mul])
    have h2 : prod sh ≠ 0 := fun e => h (by rw [e, Nat.mul_zero])
    rcases List.mem_cons.1 hl with hl | hl
    · rw [hl]; exact h1
    · exact prod_pos_mem h2 l hl

theorem take_zip : ∀ (n : Nat) (A B : List Nat), (A.zip B).take n = (A.take n).zip (B.take n)
  | 0, _, _ => rfl
  | _ + 1, [], _ => by simp
  | _ + 1, _ :: _, [] => by simp
  | n + 1, a :: A, b :: B => by
    rw [List.zip_cons_cons, List.take_succ_cons, List.take_succ_cons, List.take_succ_cons, List.zip_cons_cons, take_zip n A B]

/-- What is used of the numbers of axes. -/
structure Split (ws xsh : List Nat) (na dup : Nat) : Prop where
  fits : Fits ws xsh.length
  dup : dup + (distinct ws).length = ws.length
  below : ∀ w ∈ ws, w < na
  le : na ≤ newRank ws xsh.length

theorem Split.target {ws xsh : List Nat} {na dup : Nat} (h : Split ws xsh na dup) :
    (target ws xsh.length).take (na + dup) = ws ++ free na ws ∧ (target ws xsh.length).drop (na + dup) = List.range' na (newRank ws xsh.length - na) ∧ na + dup ≤ xsh.length ∧
      newRank ws xsh.length - na = xsh.length - (na + dup) := by
  obtain ⟨et, hl, hle⟩ := target_eq h.fits
  have h1 := free_length h.below
  have h2 := h.dup
  have h3 := h.le
  have h4 := h.fits.1
  have hr : newRank ws xsh.length = (distinct ws).length + (xsh.length - ws.length) := rfl
  have hlen : (ws ++ free na ws).length = na + dup := by rw [List.length_append]; omega
  have e : Reorder.target ws xsh.length = (ws ++ free na ws) ++ List.range' na (newRank ws xsh.length - na) := by
    rw [et, List.append_assoc, ← free_add h.below, show na + (newRank ws xsh.length - na) = newRank ws xsh.length by omega]
  rw [e]
  refine ⟨List.take_left' hlen, List.drop_left' hlen, by omega, by omega⟩

theorem newShape_split {ws xsh : List Nat} {na dup : Nat} (h : Split ws xsh na dup) :
    newShape ws xsh = (List.range na).map (fun j => (axisLen j ((target ws xsh.length).zip xsh)).getD 0) ++ xsh.drop (na + dup) := by
  obtain ⟨e1, e2, h3, h4⟩ := h.target
  have hle := h.le
  have hz : (target ws xsh.length).zip xsh = (ws ++ free na ws).zip (xsh.take (na + dup)) ++ (List.range' na (newRank ws xsh.length - na)).zip (xsh.drop (na + dup)) := by
    have hl := target_length h.fits
    rw [← e1, ← e2, ← List.zip_append (by rw [List.length_take, List.length_take, hl]), List.take_append_drop, List.take_append_drop]
  apply List.ext_getElem?
  intro j
  rcases Nat.lt_or_ge j na with hj | hj
  · rw [List.getElem?_append_left (by simpa using hj), newShape, List.getElem?_map, List.getElem?_map, List.getElem?_range hj, List.getElem?_range (by omega)]
  · rw [List.getElem?_append_right (by simpa using hj), List.length_map, List.length_range, newShape, List.getElem?_map]
    rcases Nat.lt_or_ge j (newRank ws xsh.length) with hj2 | hj2
    · rw [List.getElem?_range hj2, Option.map_some, hz, axisLen_append_right fun l hl => by
        rcases List.mem_append.1 (List.of_mem_zip hl).1 with h5 | h5
        · have := h.below j h5; omega
        · have := (mem_free.1 h5).1; omega]
      have hk : j - na < (xsh.drop (na + dup)).length := by rw [List.length_drop]; omega
      rw [List.getElem?_eq_getElem hk]
      have hm : ∀ l, (j, l) ∈ (List.range' na (newRank ws xsh.length - na)).zip (xsh.drop (na + dup)) → l = (xsh.drop (na + dup))[j - na] := fun l hl => by
        obtain ⟨k, hk2, e⟩ := List.mem_iff_getElem.1 hl
        rw [List.getElem_zip, List.getElem_range'] at e
        have e3 := congrArg Prod.fst e
        have e4 := congrArg Prod.snd e
        dsimp only at e3 e4
        have : k = j - na := by omega
        subst this
        exact e4.symm
      obtain ⟨l, hl⟩ := zip_mem_fst (T := List.range' na (newRank ws xsh.length - na)) (xsh := xsh.drop (na + dup)) (j := j) (by rw [List.length_range', List.length_drop]; omega)
        (List.mem_range'_1.2 ⟨hj, by omega⟩)
      have := hm l hl
      rw [axisLen_eq hl fun l' hl' => by rw [hm l' hl', this]; exact Nat.le_refl _, Option.getD_some, this]
    · rw [List.getElem?_eq_none (by simpa using hj2), List.getElem?_eq_none (by rw [List.length_drop]; omega)]
      rfl

theorem source_offset {ws xsh is : List Nat} {na dup : Nat} (h : Split ws xsh na dup) (hi : InShape (newShape ws xsh) is) (hc : 0 < prod (xsh.drop (na + dup))) :
    ravel xsh (sourceIdx ws xsh.length is) = src (axesOf (((target ws xsh.length).zip xsh).take (na + dup)).reverse (prod (xsh.drop (na + dup)))
      (fun j => (axisLen j ((target ws xsh.length).zip xsh)).getD 0) na) (prod (xsh.drop (na + dup))) (ravel (newShape ws xsh) is) := by
  have hsrc := source_inShape h.fits hi
  have hl := target_length h.fits
  obtain ⟨e1, e2, h3, h4⟩ := h.target
  have hrk : is.length = newRank ws xsh.length := by rw [hi.length, newShape]; simp
  rw [newShape_split h] at hi ⊢
  generalize hrr : (fun j => (axisLen j ((target ws xsh.length).zip xsh)).getD 0) = r at hi ⊢
  generalize hC : xsh.drop (na + dup) = C at *
  obtain ⟨i1, i2, ei, hi1, hi2⟩ := InShape.split hi
  have hl1 : i1.length = na := by rw [hi1.length]; simp
  have hX : xsh = xsh.take (na + dup) ++ C := by rw [← hC, List.take_append_drop]
  have hT : target ws xsh.length = (ws ++ free na ws) ++ List.range' na (newRank ws xsh.length - na) := by rw [← e1, ← e2, List.take_append_drop]
  have hTlen : (ws ++ free na ws).length = (xsh.take (na + dup)).length := by rw [← e1, List.length_take, List.length_take, hl]
  have hT1 : ∀ j ∈ ws ++ free na ws, j < na := fun j hj => (List.mem_append.1 hj).elim (h.below j) fun h5 => (mem_free.1 h5).1
  have hs2 : (List.range' na (newRank ws xsh.length - na)).map (fun j => is.getD j 0) = i2 := by
    rw [ei, List.range'_eq_map_range, List.map_map]
    have hl2 : i2.length = newRank ws xsh.length - na := by
      rw [ei, List.length_append] at hrk
      omega
    rw [← hl2]
    refine (List.map_congr_left fun j _ => ?_).trans (range_getD (is := i2) rfl)
    show (i1 ++ i2).getD (na + j) 0 = i2.getD j 0
    rw [List.getD_eq_getElem?_getD, List.getElem?_append_right (by omega), hl1, Nat.add_sub_cancel_left, ← List.getD_eq_getElem?_getD]
  have hs : sourceIdx ws xsh.length is = (ws ++ free na ws).map (fun j => is.getD j 0) ++ i2 := by
    rw [sourceIdx, hT, List.map_append, hs2]
  have hzip : ((target ws xsh.length).zip xsh).take (na + dup) = (ws ++ free na ws).zip (xsh.take (na + dup)) := by
    rw [← e1]; exact take_zip _ _ _
  rw [hs] at hsrc ⊢
  rw [hX] at hsrc
  obtain ⟨j1, j2, ej, hj1, hj2⟩ := InShape.split hsrc
  have hj1l : j1.length = ((ws ++ free na ws).map (fun j => is.getD j 0)).length := by rw [hj1.length, List.length_map, hTlen]
  obtain ⟨ea, eb⟩ := List.append_inj ej hj1l.symm
  have hin1 : InShape (xsh.take (na + dup)) ((ws ++ free na ws).map (fun j => is.getD j 0)) := by rw [ea]; exact hj1
  have hleft : ravel xsh ((ws ++ free na ws).map (fun j => is.getD j 0) ++ i2) = ravel (xsh.take (na + dup)) ((ws ++ free na ws).map (fun j => is.getD j 0)) * prod C + ravel C i2 := by
    have := ravel_append hin1 C i2
    rwa [← hX] at this
  have hlt := ravel_lt hi2
  rw [hleft, show ravel ((List.range na).map r ++ C) is = ravel C i2 + prod C * ravel ((List.range na).map r) i1 by
      rw [ei, ravel_append hi1, Nat.mul_comm]; omega, src, Nat.add_mul_div_left _ _ hc, Nat.div_eq_of_lt hlt, Nat.zero_add, Nat.add_mul_mod_self_left, Nat.mod_eq_of_lt hlt,
    offR_axesOf _ _ _ _ _ hi1, hzip, sumTo_congr (g := fun j => is.getD j 0 * strideOf ((ws ++ free na ws).zip (xsh.take (na + dup))).reverse (prod C) j) fun j hj => by
      rw [ei, List.getD_eq_getElem?_getD, List.getD_eq_getElem?_getD, List.getElem?_append_left (by omega)],
    sum_strides _ na _ _ fun a ha => hT1 _ (List.of_mem_zip (List.mem_reverse.1 ha)).1, List.map_reverse, List.map_reverse, List.map_snd_zip (by omega)]
  have e5 : ((ws ++ free na ws).zip (xsh.take (na + dup))).map (fun a => is.getD a.1 0) = (ws ++ free na ws).map (fun j => is.getD j 0) := by
    have : ((ws ++ free na ws).zip (xsh.take (na + dup))).map (fun a => is.getD a.1 0) = (((ws ++ free na ws).zip (xsh.take (na + dup))).map Prod.fst).map (fun j => is.getD j 0) := by
      rw [List.map_map]; rfl
    rw [this, List.map_fst_zip (by omega)]
  rw [e5, rav_reverse hin1, Nat.mul_comm]

/-! ## The function -/

section
variable {M α : Type} {K : GKind M α} {ok : Nat → M → Prop}

theorem reorder_ok (hK : GLawful K ok) {ws xsh : List Nat} {x : M} (hx : ok (prod xsh) x) (hn : ∀ l ∈ xsh, l < noSh) (h : Fits ws xsh.length) :
    ∃ r, reorder K ws x xsh = some (.ok (r, newShape ws xsh)) ∧ ok (prod (newShape ws xsh)) r ∧
      ∀ is, InShape (newShape ws xsh) is → K.get r (ravel (newShape ws xsh) is) = K.get x (ravel xsh (sourceIdx ws xsh.length is)) := by
  have hid : ∀ k, k ≤ xsh.length → ws = List.range k → ok (prod (newShape ws xsh)) x ∧ newShape ws xsh = xsh ∧
      ∀ is, InShape (newShape ws xsh) is → K.get x (ravel (newShape ws xsh) is) = K.get x (ravel xsh (sourceIdx ws xsh.length is)) := fun k hk e => by
    obtain ⟨h1, h2⟩ := identity hk
    rw [e, h1]
    exact ⟨hx, rfl, fun is hi => by rw [h2 is hi.length]⟩
  have hlen := h.1
  unfold reorder
  dsimp only
  by_cases h0 : ws.length = 0
  · rw [if_pos h0]
    obtain ⟨h1, h2, h3⟩ := hid 0 (Nat.zero_le _) (List.eq_nil_of_length_eq_zero h0)
    exact ⟨x, by rw [h2], h1, h3⟩
  · rw [if_neg h0, if_neg (by omega), if_neg (by
      rw [List.any_eq_true]
      intro ⟨w, hw, h2⟩
      have h3 := h.2 w hw
      have h4 := (target_eq h).2.2
      have h5 := of_decide_eq_true h2
      omega)]
    obtain ⟨s, es, hs⟩ := scan_spec (xr := xsh.length) ws xsh [] ⟨List.replicate xsh.length noSh, 0, 0, 0⟩ hlen (fun w hw => by
        have h3 := h.2 w hw
        have h4 := (target_eq h).2.2
        omega) hn (fun a ha => (List.not_mem_nil ha).elim)
      ⟨List.length_replicate, fun j hj => by rw [List.getElem?_replicate, if_pos hj]; rfl, rfl, fun j hj => (List.not_mem_nil hj).elim, Or.inl rfl, Nat.le_refl _, ⟨fun _ => rfl, fun _ => rfl⟩⟩
    rw [List.length_nil] at es
    rw [List.nil_append] at hs
    rw [es, Option.bind_some]
    have hfst : (ws.zip xsh).map Prod.fst = ws := List.map_fst_zip hlen
    have hzl : (ws.zip xsh).length = ws.length := by rw [List.length_zip]; omega
    by_cases hi : s.id = ws.length
    · rw [if_pos hi]
      have := hs.id
      rw [hfst, hzl] at this
      obtain ⟨h1, h2, h3⟩ := hid ws.length hlen (this.1 hi)
      exact ⟨x, by rw [h2], h1, h3⟩
    · rw [if_neg hi]
      obtain ⟨hrr, rsh, ef, hsh⟩ := shape_spec h hn hs
      have hmax : s.max < newRank ws xsh.length := by
        rcases hs.maxIn with h1 | h1
        · cases ws with
          | nil => exact (h0 rfl).elim
          | cons w ws =>
            have := h.2 w List.mem_cons_self
            omega
        · rw [hfst] at h1
          exact h.2 _ h1
      rw [if_neg (by omega), ef, Option.bind_some]
      dsimp only
      rw [hrr, hsh]
      have hdup := hs.dup
      rw [hfst, hzl] at hdup
      have hsp : Split ws xsh (s.max + 1) s.dup := ⟨h, hdup, fun w hw => by
        have := hs.max w (by rw [hfst]; exact hw)
        omega, by omega⟩
      by_cases hp : prod xsh = 0
      · rw [if_pos hp]
        have hz : prod (newShape ws xsh) = 0 := by
          rcases Nat.eq_zero_or_pos (prod (newShape ws xsh)) with h1 | h1
          · exact h1
          · obtain ⟨is, his, _⟩ := exists_index _ 0 h1
            have := ravel_lt (source_inShape h his)
            omega
        refine ⟨K.new 0, rfl, by rw [hz]; exact hK.new 0, fun is his => ?_⟩
        have := ravel_lt his
        omega
      · rw [if_neg hp]
        have ht : ws ++ free (newRank ws xsh.length) ws = target ws xsh.length := (target_eq h).1.symm
        rw [ht]
        obtain ⟨e1, e2, h3, h4⟩ := hsp.target
        have hc : 0 < prod (xsh.drop (s.max + 1 + s.dup)) := by
          have h5 : prod xsh = prod (xsh.take (s.max + 1 + s.dup)) * prod (xsh.drop (s.max + 1 + s.dup)) := by rw [← prod_append, List.take_append_drop]
          rw [h5] at hp
          exact Nat.pos_of_ne_zero fun e => hp (by rw [e, Nat.mul_zero])
        generalize hps : (((target ws xsh.length).zip xsh).take (s.max + 1 + s.dup)).reverse = ps
        have hmem : ∀ a ∈ ps, a.1 < s.max + 1 ∧ a ∈ (target ws xsh.length).zip xsh := fun a ha => by
          rw [← hps, List.mem_reverse] at ha
          refine ⟨?_, List.mem_of_mem_take ha⟩
          rw [take_zip, e1] at ha
          exact (List.mem_append.1 (List.of_mem_zip ha).1).elim (hsp.below _) fun h5 => (mem_free.1 h5).1
        obtain ⟨st, est, hstl, hst⟩ := strides_spec ps (prod (xsh.drop (s.max + 1 + s.dup))) (List.replicate (s.max + 1) 0) (fun a ha => by rw [List.length_replicate]; exact (hmem a ha).1)
        rw [est, Option.bind_some]
        rw [List.length_replicate] at hstl hst
        have hstE : st = (List.range (s.max + 1)).map (strideOf ps (prod (xsh.drop (s.max + 1 + s.dup)))) := by
          apply List.ext_getElem?
          intro j
          rcases Nat.lt_or_ge j (s.max + 1) with hj | hj
          · rw [hst j hj, List.getElem?_map, List.getElem?_range hj, List.getD_eq_getElem?_getD, List.getElem?_replicate, if_pos hj, Option.getD_some, Nat.zero_add]
            rfl
          · rw [List.getElem?_eq_none (by omega), List.getElem?_eq_none (by simpa using hj)]
        have hrt : rsh.take (s.max + 1) = (List.range (s.max + 1)).map (fun j => (axisLen j ((target ws xsh.length).zip xsh)).getD 0) := by
          have h5 : rsh.take (s.max + 1) = (rsh.take (newRank ws xsh.length)).take (s.max + 1) := by rw [List.take_take, Nat.min_eq_left (by omega)]
          rw [h5, hsh, newShape_split hsp]
          exact List.take_left' (by simp)
        rw [hstE, hrt, ← axesOf_eq]
        have hsz : prod (newShape ws xsh) = prod (xsh.drop (s.max + 1 + s.dup)) * lens (axesOf ps (prod (xsh.drop (s.max + 1 + s.dup)))
            (fun j => (axisLen j ((target ws xsh.length).zip xsh)).getD 0) (s.max + 1)) := by
          rw [newShape_split hsp, prod_append, lens_axesOf, Nat.mul_comm]
        have hall := prod_pos_mem hp
        have hpos : ∀ a ∈ ps, 0 < a.2 := fun a ha => hall _ (List.of_mem_zip (hmem a ha).2).2
        have hat : ∀ j, j < s.max + 1 → (j, (axisLen j ((target ws xsh.length).zip xsh)).getD 0) ∈ ps := fun j hj => by
          obtain ⟨l, e, hl⟩ := axisLen_target h (show j < newRank ws xsh.length by omega)
          rw [e, Option.getD_some, ← hps, List.mem_reverse, take_zip, e1]
          have hzz : (target ws xsh.length).zip xsh = ((target ws xsh.length).zip xsh).take (s.max + 1 + s.dup) ++ ((target ws xsh.length).drop (s.max + 1 + s.dup)).zip (xsh.drop (s.max + 1 + s.dup)) := by
            rw [take_zip, ← List.zip_append (by rw [List.length_take, List.length_take, target_length h]), List.take_append_drop, List.take_append_drop]
          rw [hzz, take_zip, e1, e2] at hl
          refine (List.mem_append.1 hl).resolve_right fun h5 => ?_
          have := List.mem_range'_1.1 (List.of_mem_zip h5).1
          omega
        have hle : ∀ a ∈ ps, (axisLen a.1 ((target ws xsh.length).zip xsh)).getD 0 ≤ a.2 := fun a ha => by
          obtain ⟨l, e, _⟩ := axisLen_target h (show a.1 < newRank ws xsh.length by have := (hmem a ha).1; omega)
          rw [e, Option.getD_some]
          exact ((axisLen_spec _ _).1 l e).2 a.2 (hmem a ha).2
        have hlens : 0 < lens (axesOf ps (prod (xsh.drop (s.max + 1 + s.dup))) (fun j => (axisLen j ((target ws xsh.length).zip xsh)).getD 0) (s.max + 1)) := by
          rw [lens_axesOf]
          have : ∀ (L : List Nat) (f : Nat → Nat), (∀ j ∈ L, 0 < f j) → 0 < prod (L.map f) := by
            intro L f
            induction L with
            | nil => intro _; exact Nat.one_pos
            | cons a L ih =>
              intro hL
              exact Nat.mul_pos (hL a List.mem_cons_self) (ih fun j hj => hL j (List.mem_cons_of_mem _ hj))
          exact this _ _ fun j hj => hpos _ (hat j (List.mem_range.1 hj))
        have hoff := fun is hi => source_offset (is := is) hsp hi hc
        rw [hps] at hoff
        obtain ⟨r, er, hok, hg⟩ := copy_src hK hx hc hlens (fun q hq => by
          rw [← hsz] at hq
          obtain ⟨is, his, e⟩ := exists_index _ q hq
          rw [← e, ← hoff is his]
          exact ravel_lt (source_inShape h his)) (simplify_dvd hc hpos hle hat)
        rw [← hsz] at hok hg
        refine ⟨r, by rw [er]; rfl, hok, fun is his => ?_⟩
        rw [hg _ (ravel_lt his), hoff is his]

theorem reorder_err {ws xsh : List Nat} {x : M} (hn : ∀ l ∈ xsh, l < noSh) (h : ¬ Fits ws xsh.length) : reorder K ws x xsh = some .err := by
  unfold reorder
  dsimp only
  by_cases h0 : ws.length = 0
  · exact (h ⟨by omega, fun w hw => by rw [List.eq_nil_of_length_eq_zero h0] at hw; exact (List.not_mem_nil hw).elim⟩).elim
  · rw [if_neg h0]
    by_cases h1 : xsh.length < ws.length
    · rw [if_pos h1]
    · rw [if_neg h1]
      by_cases h2 : ws.any (xsh.length ≤ ·) = true
      · rw [if_pos h2]
      · rw [if_neg h2]
        have hlt : ∀ w ∈ ws, w < xsh.length := fun w hw => by
          rcases Nat.lt_or_ge w xsh.length with h3 | h3
          · exact h3
          · exact (h2 (List.any_eq_true.2 ⟨w, hw, decide_eq_true h3⟩)).elim
        have hlen : ws.length ≤ xsh.length := by omega
        obtain ⟨s, es, hs⟩ := scan_spec (xr := xsh.length) ws xsh [] ⟨List.replicate xsh.length noSh, 0, 0, 0⟩ hlen hlt hn (fun a ha => (List.not_mem_nil ha).elim)
          ⟨List.length_replicate, fun j hj => by rw [List.getElem?_replicate, if_pos hj]; rfl, rfl, fun j hj => (List.not_mem_nil hj).elim, Or.inl rfl, Nat.le_refl _, ⟨fun _ => rfl, fun _ => rfl⟩⟩
        rw [List.length_nil] at es
        rw [List.nil_append] at hs
        rw [es, Option.bind_some]
        have hfst : (ws.zip xsh).map Prod.fst = ws := List.map_fst_zip hlen
        have hzl : (ws.zip xsh).length = ws.length := by rw [List.length_zip]; omega
        rw [if_neg]
        · rw [if_pos]
          have hdup := hs.dup
          rw [hfst, hzl] at hdup
          have hr : newRank ws xsh.length = (distinct ws).length + (xsh.length - ws.length) := rfl
          rcases Nat.lt_or_ge s.max (xsh.length - s.dup) with h3 | h3
          · exact (h ⟨hlen, fun w hw => by
              have := hs.max w (by rw [hfst]; exact hw)
              omega⟩).elim
          · exact h3
        · intro hi
          have := hs.id
          rw [hfst, hzl] at this
          have e := this.1 hi
          rw [e] at h
          exact h (fits_range hlen).1

end

end Verif.Reorder
