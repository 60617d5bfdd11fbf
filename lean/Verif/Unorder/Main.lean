import Verif.Unorder.Lemmas
import Verif.Unorder.Spec
/-!
# The inverse of Reorder Axes: proofs
-/
namespace Verif.Unorder
open Verif.Rep Verif.Reorder Verif.Rotate
open Verif.Group (elems)

theorem Invertible.perm {w : Axes} {r : Nat} (h : Invertible w r) : Perm w.nums r := ⟨h.1, h.2.1, h.2.2⟩

theorem back_drop {ws : List Nat} {r : Nat} (n : Nat) : (backAxes ws r).drop n = (List.range' n (r - n)).map (from_ ws r) := by
  rw [backAxes, ← List.map_drop, List.range_eq_range', List.drop_range']
  simp

theorem back_take {ws : List Nat} {r n : Nat} (hn : n ≤ r) : (backAxes ws r).take n = (List.range' 0 n).map (from_ ws r) := by
  rw [backAxes, ← List.map_take, List.take_range, Nat.min_eq_left hn, List.range_eq_range']

theorem place_start (ws : List Nat) (xr : Nat) (hle : ws.length ≤ xr) :
    match place xr 0 ws (List.replicate xr xr) 0 with
    | none => False
    | some .err => ∃ w ∈ ws, xr ≤ w
    | some .dup => ¬ ws.Nodup
    | some (.ok (q, m)) => ws.Nodup ∧ (∀ w ∈ ws, w < xr) ∧ (∀ a, a < xr → q[a]? = some (if a ∈ ws then ws.idxOf a else xr)) ∧ (∀ w ∈ ws, w ≤ m) ∧ (ws ≠ [] → m ∈ ws) :=
  place_spec (xr := xr) ws [] (List.replicate xr xr) 0 (by simp) (by simpa using hle) nofun List.nodup_nil (fun a ha => by simp [ha]) nofun (fun h => (h rfl).elim) (fun _ => rfl)

theorem invertW_list {ws : List Nat} {r : Nat} (h : Invertible (.list ws) r) (h0 : ws.length ≠ 0) :
    ∃ m, m ∈ ws ∧ (∀ w ∈ ws, w ≤ m) ∧ invertW (.list ws) r = some (.ok ((List.range' 0 (m + 1)).map (from_ ws r))) := by
  have hp : Perm ws r := h.perm
  have hst := place_start ws r hp.len
  rw [invertW]
  show ∃ m, _ ∧ _ ∧ (if ws.length = 0 then _ else _) = _
  rw [if_neg h0, if_neg (by have := hp.len; omega)]
  cases e : place r 0 ws (List.replicate r r) 0 with
  | none => rw [e] at hst; exact hst.elim
  | some v =>
    rw [e] at hst
    cases v with
    | err =>
      obtain ⟨w, h1, h2⟩ := hst
      have := hp.lt w h1
      omega
    | dup => exact (hst hp.nodup).elim
    | ok q =>
      obtain ⟨q, m⟩ := q
      obtain ⟨_, _, hq, hm, hmem⟩ := hst
      have hmm := hmem fun h1 => h0 (by rw [h1]; rfl)
      have hmr := hp.lt m hmm
      refine ⟨m, hmm, hm, ?_⟩
      rw [Option.bind_some]
      show (number r q (m + 1) 0 ws.length).map Inv.ok = _
      rw [number_spec hp hq (m + 1) 0 ws.length (by omega) (by simp [free])]
      rfl

/-- The list that `invert_transp_w` makes stands for the inverse permutation. -/
theorem invertW_ok {w : Axes} {r : Nat} (h : Invertible w r) : ∃ wi, invertW w r = some (.ok wi) ∧ Perm wi r ∧ target wi r = backAxes w.nums r := by
  have hp := h.perm
  cases w with
  | atom a =>
    have ha : a < r := h.2.2 a List.mem_cons_self
    change Perm [a] r at hp
    show ∃ wi, _ ∧ Perm wi r ∧ target wi r = backAxes [a] r
    have hfree : ∀ i, i ≤ a → free i [a] = List.range i := fun i hi => by
      rw [free, List.filter_eq_self]
      intro b hb
      have := List.mem_range.1 hb
      simp
      omega
    have e : (List.range a).map (· + 1) = (backAxes [a] r).take a := by
      rw [back_take (Nat.le_of_lt ha), List.range_eq_range']
      refine List.map_congr_left fun i hi => ?_
      have hi := List.mem_range'_1.1 hi
      rw [from_free hp (by omega) (by simp; omega), hfree i (by omega)]
      simp
      omega
    have hs : ((backAxes [a] r).drop a).Pairwise (· < ·) := by
      rw [back_drop, show r - a = (r - a - 1) + 1 by omega, List.range'_succ, List.map_cons, List.pairwise_cons, from_mem hp List.mem_cons_self, List.idxOf_cons_self]
      have hh : (List.range' (a + 1) (r - a - 1)).map (from_ [a] r) = List.range' (a + 1) (r - a - 1) := by
        conv => rhs; rw [← List.map_id (List.range' (a + 1) (r - a - 1))]
        refine List.map_congr_left fun i hi => ?_
        have hi := List.mem_range'_1.1 hi
        exact from_high hp (by omega) fun w hw => by rw [List.mem_singleton.1 hw]; omega
      rw [hh]
      exact ⟨fun b hb => by have := List.mem_range'_1.1 hb; omega, List.pairwise_lt_range'⟩
    refine ⟨_, ?_, e ▸ start_target hp (Nat.le_of_lt ha) hs⟩
    rw [invertW, if_neg (by omega), if_neg (by omega)]
  | list ws =>
    change Perm ws r at hp
    show ∃ wi, _ ∧ Perm wi r ∧ target wi r = backAxes ws r
    by_cases h0 : ws.length = 0
    · obtain rfl := List.eq_nil_of_length_eq_zero h0
      refine ⟨[], rfl, hp, ?_⟩
      have e : backAxes [] r = List.range r := by
        rw [backAxes]
        conv => rhs; rw [← List.map_id (List.range r)]
        refine List.map_congr_left fun i hi => from_high hp (List.mem_range.1 hi) nofun
      rw [e, hp.target, free]
      simp
    obtain ⟨m, hmm, hm, e⟩ := invertW_list h h0
    have hmr := hp.lt m hmm
    have hs : ((backAxes ws r).drop (m + 1)).Pairwise (· < ·) := by
      rw [back_drop]
      have hh : (List.range' (m + 1) (r - (m + 1))).map (from_ ws r) = List.range' (m + 1) (r - (m + 1)) := by
        conv => rhs; rw [← List.map_id (List.range' (m + 1) (r - (m + 1)))]
        refine List.map_congr_left fun i hi => ?_
        have hi := List.mem_range'_1.1 hi
        exact from_high hp (by omega) fun w hw => by have := hm w hw; omega
      rw [hh]
      exact List.pairwise_lt_range'
    refine ⟨(backAxes ws r).take (m + 1), ?_, start_target hp hmr hs⟩
    rw [e, back_take hmr]

/-- When there is no inverse, it isn't made. -/
theorem invertW_not {w : Axes} {r : Nat} (h : ¬ Invertible w r) : invertW w r = some .err ∨ (invertW w r = some .dup ∧ ¬ w.nums.Nodup) := by
  cases w with
  | atom a =>
    have ha : r ≤ a := by
      by_cases ha : r ≤ a
      · exact ha
      · exact (h ⟨by simp [Axes.nums], by simp [Axes.nums]; omega, fun b hb => by rw [List.mem_singleton.1 hb]; omega⟩).elim
    left
    rw [invertW]
    by_cases h1 : r < 1
    · rw [if_pos h1]
    · rw [if_neg h1, if_pos ha]
  | list ws =>
    change ¬ (ws.Nodup ∧ ws.length ≤ r ∧ ∀ a ∈ ws, a < r) at h
    rw [invertW]
    show (if ws.length = 0 then _ else _) = _ ∨ (if ws.length = 0 then _ else _) = _ ∧ ¬ ws.Nodup
    have h0 : ws.length ≠ 0 := fun h0 => by
      obtain rfl := List.eq_nil_of_length_eq_zero h0
      exact h ⟨List.nodup_nil, by simp, nofun⟩
    rw [if_neg h0]
    by_cases hle : r < ws.length
    · rw [if_pos hle]; exact .inl rfl
    rw [if_neg hle]
    have hst := place_start ws r (by omega)
    cases e : place r 0 ws (List.replicate r r) 0 with
    | none => rw [e] at hst; exact hst.elim
    | some v =>
      rw [e] at hst
      cases v with
      | err => exact .inl rfl
      | dup => exact .inr ⟨rfl, hst⟩
      | ok q => exact (h ⟨hst.1, by omega, hst.2.1⟩).elim

/-! ## Two permutations that undo each other -/

theorem newShape_at {ws sh : List Nat} (h : Perm ws sh.length) {k : Nat} (hk : k < sh.length) : (newShape ws sh)[(target ws sh.length)[k]'(by rw [h.lenT]; exact hk)]? = some sh[k] := by
  have hkT : k < (target ws sh.length).length := by rw [h.lenT]; exact hk
  have hlt := h.memT.1 (List.getElem_mem hkT)
  have e : axisLen ((target ws sh.length)[k]) ((target ws sh.length).zip sh) = some sh[k] := by
    refine axisLen_eq (List.mem_iff_getElem.2 ⟨k, by rw [List.length_zip]; omega, List.getElem_zip⟩) fun l' hl => ?_
    obtain ⟨k', hk', e⟩ := List.mem_iff_getElem.1 hl
    rw [List.getElem_zip] at e
    have e1 := congrArg Prod.fst e
    have e2 := congrArg Prod.snd e
    have hk2 : k' < (target ws sh.length).length := by rw [List.length_zip] at hk'; omega
    have : k' = k := by
      have h1 := h.nodupT.idxOf_getElem k' hk2
      have h2 := h.nodupT.idxOf_getElem k hkT
      rw [← h1, ← h2]
      exact congrArg (fun v => (target ws sh.length).idxOf v) e1
    subst this
    exact Nat.le_of_eq e2
  rw [newShape, h.rank, List.getElem?_map, List.getElem?_range hlt, Option.map_some, e, Option.getD_some]

theorem newShape_length {ws sh : List Nat} (h : Perm ws sh.length) : (newShape ws sh).length = sh.length := by rw [newShape, h.rank]; simp

/-- `b` undoes `a`. -/
def Undoes (a b : List Nat) (r : Nat) : Prop := ∀ k, k < r → ∃ j, (target a r)[k]? = some j ∧ (target b r)[j]? = some k

theorem undo_shape {a b sh : List Nat} (ha : Perm a sh.length) (hb : Perm b sh.length) (hu : Undoes a b sh.length) : newShape b (newShape a sh) = sh := by
  have hl := newShape_length ha
  have hb' : Perm b (newShape a sh).length := by rw [hl]; exact hb
  apply List.ext_getElem (by rw [newShape_length hb', hl])
  intro k h1 h2
  obtain ⟨j, e1, e2⟩ := hu k h2
  obtain ⟨hkT, e1⟩ := List.getElem?_eq_some_iff.1 e1
  obtain ⟨hjT, e2⟩ := List.getElem?_eq_some_iff.1 e2
  have hj : j < sh.length := by rwa [hb.lenT] at hjT
  have h3 := newShape_at ha h2
  have h4 := newShape_at hb' (k := j) (by omega)
  simp only [hl] at h4
  rw [e2] at h4
  rw [e1] at h3
  have h5 := List.getElem?_eq_some_iff.1 h3
  have h6 := List.getElem?_eq_some_iff.1 h4
  obtain ⟨_, h5⟩ := h5
  obtain ⟨_, h6⟩ := h6
  rw [h6, h5]

theorem undo_index {a b : List Nat} {r : Nat} (ha : Perm a r) (hu : Undoes a b r) {is : List Nat} (hi : is.length = r) : sourceIdx a r (sourceIdx b r is) = is := by
  rw [sourceIdx]
  apply List.ext_getElem
  · rw [List.length_map, ha.lenT, hi]
  · intro k h1 h2
    obtain ⟨j, e1, e2⟩ := hu k (by omega)
    obtain ⟨_, e1⟩ := List.getElem?_eq_some_iff.1 e1
    rw [List.getElem_map, e1, sourceIdx, List.getD_eq_getElem?_getD, List.getElem?_map, e2, Option.map_some, Option.getD_some, List.getD_eq_getElem?_getD, List.getElem?_eq_getElem h2, Option.getD_some]

theorem undoes_symm {a b : List Nat} {r : Nat} (ha : Perm a r) (hb : Perm b r) (hu : Undoes a b r) : Undoes b a r := by
  intro k hk
  obtain ⟨i, hi, e⟩ := List.mem_iff_getElem.1 (ha.memT.2 hk)
  obtain ⟨j, e1, e2⟩ := hu i (by rwa [ha.lenT] at hi)
  rw [List.getElem?_eq_getElem hi, e] at e1
  cases e1
  exact ⟨i, e2, by rw [List.getElem?_eq_getElem hi, e]⟩

theorem back_undoes {ws wi : List Nat} {r : Nat} (h : Perm ws r) (e : target wi r = backAxes ws r) : Undoes ws wi r := by
  intro k hk
  have hkT : k < (target ws r).length := by rw [h.lenT]; exact hk
  refine ⟨_, List.getElem?_eq_getElem hkT, ?_⟩
  have hlt := h.memT.1 (List.getElem_mem hkT)
  rw [e, backAxes, List.getElem?_map, List.getElem?_range hlt, Option.map_some, from_target h hk]

/-- `y` is `x` with its axes moved. -/
structure Moved {α} (ws : List Nat) (x : List α) (xsh : List Nat) (y : List α) (ysh : List Nat) : Prop where
  shape : ysh = newShape ws xsh
  len : y.length = prod ysh
  get : ∀ is, InShape ysh is → InShape xsh (sourceIdx ws xsh.length is) ∧ y[ravel ysh is]? = x[ravel xsh (sourceIdx ws xsh.length is)]?

theorem moved_reorder {α} (log : Nat) (notB : Bool) (d : Nat → α) {ws xsh : List Nat} {x : List α} (hx : x.length = prod xsh) (hd : ∀ l ∈ xsh, l < 2^32 - 1) (h : Perm ws xsh.length) :
    ∃ y, reorder (elems log notB d) ws x xsh = some (.ok (y, newShape ws xsh)) ∧ Moved ws x xsh y (newShape ws xsh) := by
  obtain ⟨r, e, h1, h2⟩ := reorder_elems log notB d ws xsh x hx hd h.fits
  refine ⟨r, e, rfl, h1, fun is hi => ?_⟩
  obtain ⟨h3, v, h4, h5⟩ := h2 is hi
  exact ⟨h3, by rw [h4, h5]⟩

theorem moved_back {α} {a b xsh ysh zsh : List Nat} {x y z : List α} (hx : x.length = prod xsh) (ha : Perm a xsh.length) (hb : Perm b xsh.length) (hu : Undoes a b xsh.length)
    (h1 : Moved a x xsh y ysh) (h2 : Moved b y ysh z zsh) : z = x ∧ zsh = xsh := by
  obtain ⟨rfl, _, g1⟩ := h1
  obtain ⟨rfl, l2, g2⟩ := h2
  have es := undo_shape ha hb hu
  rw [es] at l2 g2 ⊢
  refine ⟨?_, rfl⟩
  apply List.ext_getElem?
  intro i
  by_cases hi : i < prod xsh
  · obtain ⟨is, his, e⟩ := exists_index _ _ hi
    obtain ⟨h3, h4⟩ := g2 is his
    obtain ⟨h5, h6⟩ := g1 _ h3
    rw [newShape_length ha] at h4 h6
    rw [← e, h4, h6, undo_index ha hu his.length]
  · rw [List.getElem?_eq_none (by omega), List.getElem?_eq_none (by omega)]

/-! ## A number for the last axis -/

theorem target_last (n : Nat) : target [n] (n + 1) = n :: List.range n := by
  have hp : Perm [n] (n + 1) := ⟨by simp, by simp, by simp⟩
  rw [hp.target, free, List.range_succ, List.filter_append, List.filter_cons_of_neg (by simp), List.filter_nil, List.append_nil, List.filter_eq_self.2]
  · rfl
  · intro a ha
    have := List.mem_range.1 ha
    simp
    omega

theorem newShape_last (h : Nat) (sh : List Nat) : newShape [sh.length] (h :: sh) = sh ++ [h] := by
  have hp : Perm [sh.length] (h :: sh).length := ⟨by simp, by simp, by simp⟩
  apply List.ext_getElem
  · rw [newShape_length hp]; simp
  · intro k h1 h2
    rw [newShape_length hp] at h1
    have key : (newShape [sh.length] (h :: sh))[k]? = (sh ++ [h])[k]? := by
      by_cases hk : k = sh.length
      · have := newShape_at hp (k := 0) (by simp)
        simp only [List.length_cons, target_last] at this
        rw [hk]
        simpa using this
      · rw [List.length_cons] at h1
        have := newShape_at hp (k := k + 1) (by simp; omega)
        simp only [List.length_cons, target_last, List.getElem_cons_succ, List.getElem_range] at this
        rw [this, List.getElem?_append_left (by omega), List.getElem?_eq_getElem]
    rw [List.getElem?_eq_getElem (by rw [newShape_length hp]; exact h1), List.getElem?_eq_getElem h2] at key
    exact Option.some.inj key

theorem source_last (i : Nat) (is : List Nat) : sourceIdx [is.length] (is.length + 1) (is ++ [i]) = i :: is := by
  rw [sourceIdx, target_last, List.map_cons]
  congr 1
  · simp
  · apply List.ext_getElem
    · simp
    · intro k h1 h2
      rw [List.getElem_map, List.getElem_range, List.getD_eq_getElem?_getD, List.getElem?_append_left h2, List.getElem?_eq_getElem h2, Option.getD_some]

theorem inShape_snoc {h : Nat} {sh js : List Nat} (hj : InShape (sh ++ [h]) js) : ∃ i is, js = is ++ [i] ∧ i < h ∧ InShape sh is := by
  induction sh generalizing js with
  | nil =>
    cases hj with
    | cons hi ht =>
      cases ht
      exact ⟨_, [], rfl, hi, .nil⟩
  | cons s sh ih =>
    cases hj with
    | cons hi ht =>
      obtain ⟨i, is, e, h1, h2⟩ := ih ht
      exact ⟨i, _ :: is, by rw [e]; rfl, h1, .cons hi h2⟩

theorem moved_last {α} {tr : List α → List Nat → Option (List α × List Nat)} (ht : IsTranspose tr) {xsh : List Nat} {x : List α} (hx : x.length = prod xsh) (h0 : 1 ≤ xsh.length) :
    ∃ y, tr x xsh = some (y, newShape [xsh.length - 1] xsh) ∧ Moved [xsh.length - 1] x xsh y (newShape [xsh.length - 1] xsh) := by
  match xsh, h0 with
  | h :: sh, _ =>
    rw [show (h :: sh).length - 1 = sh.length by simp, newShape_last]
    have key : ∀ y : List α, (∀ i is, i < h → InShape sh is → y[ravel (sh ++ [h]) (is ++ [i])]? = x[ravel (h :: sh) (i :: is)]?) → y.length = prod (sh ++ [h]) → Moved [sh.length] x (h :: sh) y (sh ++ [h]) := by
      intro y hy hl
      refine ⟨(newShape_last h sh).symm, hl, fun js hj => ?_⟩
      obtain ⟨i, is, rfl, h1, h2⟩ := inShape_snoc hj
      rw [List.length_cons, ← h2.length, source_last]
      exact ⟨.cons h1 h2, hy i is h1 h2⟩
    by_cases hsh : sh = []
    · subst hsh
      refine ⟨x, ht.1 _ _ (by simp), key x (fun i is hi his => ?_) hx⟩
      cases his
      rfl
    · obtain ⟨y, e, hl, hy⟩ := ht.2 x h sh hsh hx
      exact ⟨y, e, key y hy hl⟩

theorem moved_reorderW {α} (log : Nat) (notB : Bool) (d : Nat → α) {tr : List α → List Nat → Option (List α × List Nat)} (ht : IsTranspose tr) {w : Axes} {xsh : List Nat} {x : List α}
    (hx : x.length = prod xsh) (hd : ∀ l ∈ xsh, l < 2^32 - 1) (h : Invertible w xsh.length) :
    ∃ y, reorderW (elems log notB d) tr w x xsh = some (.ok (y, newShape w.nums xsh)) ∧ Moved w.nums x xsh y (newShape w.nums xsh) := by
  cases w with
  | list ws => exact moved_reorder log notB d hx hd h.perm
  | atom a =>
    have ha : a < xsh.length := h.2.2 a List.mem_cons_self
    rw [reorderW]
    show ∃ y, (if xsh.length < 1 then _ else _) = some (Out.ok (y, newShape [a] xsh)) ∧ Moved [a] x xsh y (newShape [a] xsh)
    rw [if_neg (by omega), if_neg (by omega)]
    by_cases hl : a = xsh.length - 1
    · rw [if_pos hl]
      obtain ⟨y, e, hm⟩ := moved_last ht hx (by omega)
      rw [hl]
      exact ⟨y, by rw [e]; rfl, hm⟩
    · rw [if_neg hl]
      exact moved_reorder log notB d hx hd h.perm

theorem newShape_mem {ws sh : List Nat} (h : Perm ws sh.length) : ∀ l ∈ newShape ws sh, l ∈ sh := by
  intro l hl
  obtain ⟨j, hj, e⟩ := List.mem_iff_getElem.1 hl
  rw [newShape_length h] at hj
  obtain ⟨k, hk, e2⟩ := List.mem_iff_getElem.1 (h.memT.2 hj)
  have h2 : k < sh.length := by rwa [h.lenT] at hk
  have := newShape_at h h2
  rw [e2, List.getElem?_eq_getElem (by rw [newShape_length h]; exact hj)] at this
  rw [← e, Option.some.inj this]
  exact List.getElem_mem _

/-- The inverse is the same list for arrays with more or fewer axes. -/
theorem invertW_same {w : Axes} {r r' : Nat} (h : Invertible w r) (h' : Invertible w r') {wi wj : List Nat} (e : invertW w r = some (.ok wi)) (e' : invertW w r' = some (.ok wj)) : wj = wi := by
  cases w with
  | atom a =>
    have ha : a < r := h.2.2 a List.mem_cons_self
    have ha' : a < r' := h'.2.2 a List.mem_cons_self
    rw [invertW, if_neg (by omega), if_neg (by omega)] at e e'
    cases e
    cases e'
    rfl
  | list ws =>
    by_cases h0 : ws.length = 0
    · rw [invertW] at e e'
      rw [if_pos h0] at e e'
      cases e
      cases e'
      rfl
    obtain ⟨n, hm1, hm2, e1⟩ := invertW_list h h0
    obtain ⟨n', hm1', hm2', e1'⟩ := invertW_list h' h0
    have hn : n = n' := Nat.le_antisymm (hm2' n hm1) (hm2 n' hm1')
    subst hn
    rw [e1] at e
    rw [e1'] at e'
    cases e
    cases e'
    refine List.map_congr_left fun i hi => ?_
    have hi := List.mem_range'_1.1 hi
    have h3 : n < r := h.2.2 n hm1
    have h4 : n < r' := h'.2.2 n hm1
    have hp : Perm ws r := h.perm
    have hp' : Perm ws r' := h'.perm
    by_cases hw : i ∈ ws
    · rw [from_mem hp hw, from_mem hp' hw]
    · rw [from_free hp (by omega) hw, from_free hp' (by omega) hw]

theorem nodup_max {ws : List Nat} {m : Nat} (hn : ws.Nodup) (hm : ∀ w ∈ ws, w ≤ m) : ws.length ≤ m + 1 := by
  have h1 := free_length (n := m + 1) fun w hw => Nat.lt_succ_of_le (hm w hw)
  rw [distinct_nodup hn] at h1
  omega

/-- The inverse for one number of axes is not good for arrays that `𝕨` isn't good for. -/
theorem invertW_misfit {w : Axes} {r r' : Nat} (h : Invertible w r) (h' : ¬ Invertible w r') (h0 : w ≠ .atom 0) {wi : List Nat} (e : invertW w r = some (.ok wi)) : ¬ Fits wi r' := by
  cases w with
  | atom a =>
    have ha : a < r := h.2.2 a List.mem_cons_self
    have ha0 : a ≠ 0 := fun h1 => h0 (by rw [h1])
    have ha' : r' ≤ a := by
      by_cases ha : r' ≤ a
      · exact ha
      · exact (h' ⟨by simp [Axes.nums], by simp [Axes.nums]; omega, fun b hb => by rw [List.mem_singleton.1 hb]; omega⟩).elim
    rw [invertW, if_neg (by omega), if_neg (by omega)] at e
    cases e
    rintro ⟨h1, h2⟩
    rw [List.length_map, List.length_range] at h1
    have h3 := h2 a (List.mem_map.2 ⟨a - 1, List.mem_range.2 (by omega), by omega⟩)
    have h4 := distinct_le ((List.range a).map (· + 1))
    rw [newRank] at h3
    rw [List.length_map, List.length_range] at h3 h4
    omega
  | list ws =>
    have hp : Perm ws r := h.perm
    by_cases h1 : ws.length = 0
    · obtain rfl := List.eq_nil_of_length_eq_zero h1
      exact (h' ⟨List.nodup_nil, by simp [Axes.nums], nofun⟩).elim
    obtain ⟨m, hm1, hm2, e1⟩ := invertW_list h h1
    rw [e1] at e
    cases e
    rintro ⟨h2, _⟩
    rw [List.length_map, List.length_range'] at h2
    have h3 := nodup_max hp.nodup hm2
    exact h' ⟨hp.nodup, Nat.le_trans h3 h2, fun b hb => by have := hm2 b hb; omega⟩

end Verif.Unorder
