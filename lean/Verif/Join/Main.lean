import Verif.Join.Move
/-!
# Join: arrays with two axes or more
-/
namespace Verif.Join
open Verif.Cells (Arr Val Full)
open Verif.Rotate
variable {E : Type}

theorem rav_append' : ∀ (a i1 b i2 : List Nat), i1.length = a.length → rav (a ++ b) (i1 ++ i2) = rav a i1 + prod a * rav b i2
  | [], i1, b, i2, h => by
    rw [List.length_eq_zero_iff.1 h]
    show rav b i2 = 0 + 1 * _
    omega
  | s :: a, [], _, _, h => by cases h
  | s :: a, i :: i1, b, i2, h => by
    show i + s * rav (a ++ b) (i1 ++ i2) = i + s * rav a i1 + s * prod a * _
    rw [rav_append' a i1 b i2 (Nat.succ.inj h), Nat.mul_add, Nat.mul_assoc, Nat.add_assoc]

theorem rav_reverse' : ∀ (sh is : List Nat), is.length = sh.length → rav sh.reverse is.reverse = ravel sh is
  | [], is, h => by rw [List.length_eq_zero_iff.1 h]; rfl
  | s :: sh, [], h => by cases h
  | s :: sh, i :: is, h => by
    have h := Nat.succ.inj h
    rw [List.reverse_cons, List.reverse_cons, rav_append' _ _ _ _ (by rw [List.length_reverse, List.length_reverse, h]), rav_reverse' sh is h, prod_reverse]
    show _ + prod sh * (i + s * 0) = i * prod sh + _
    rw [Nat.mul_zero, Nat.add_zero, Nat.mul_comm, Nat.add_comm]

theorem ravel_inj {sh is js : List Nat} (h : InShape sh is) (hj : InShape sh js) (e : ravel sh is = ravel sh js) : is = js := by
  have h1 := rav_reverse' sh is h.length
  have h2 := rav_reverse' sh js hj.length
  exact List.reverse_inj.1 (rav_inj h.reverse hj.reverse (by rw [h1, h2, e]))

/-! ## One axis -/

theorem start_succ (l : Lens) (i : Nat) (h : i < l.length) : start l (i + 1) = start l i + room (l[i]?.getD none) := by
  unfold start total
  rw [List.take_succ, List.map_append, List.sum_append, List.getElem?_eq_getElem h]
  show _ + (room l[i] + 0) = _ + room l[i]
  rw [Nat.add_zero]

theorem start_le (l : Lens) {i j : Nat} (h : i ≤ j) : start l i ≤ start l j := by
  unfold start total
  obtain ⟨k, rfl⟩ : ∃ k, j = i + k := ⟨j - i, by omega⟩
  rw [List.take_add, List.map_append, List.sum_append]
  exact Nat.le_add_right _ _

theorem start_total (l : Lens) (i : Nat) : start l i ≤ total l := by
  have := start_le l (show i ≤ i + l.length by omega)
  unfold start at this ⊢
  rwa [List.take_of_length_le (show l.length ≤ i + l.length by omega)] at this

/-- Positions of different elements differ. -/
theorem start_inj {l : Lens} {i j k k' : Nat} (hi : i < l.length) (hj : j < l.length) (hk : k < room (l[i]?.getD none)) (hk' : k' < room (l[j]?.getD none)) (e : start l i + k = start l j + k') : i = j ∧ k = k' := by
  have h1 := start_succ l i hi
  have h2 := start_succ l j hj
  rcases Nat.lt_trichotomy i j with h | h | h
  · have := start_le l (show i + 1 ≤ j from h)
    omega
  · subst h
    exact ⟨rfl, by omega⟩
  · have := start_le l (show j + 1 ≤ i from h)
    omega

/-- Every position is that of some element. -/
theorem locate : ∀ (l : Lens) (j : Nat), j < total l → ∃ i k, i < l.length ∧ k < room (l[i]?.getD none) ∧ start l i + k = j
  | [], j, h => absurd h (Nat.not_lt_zero _)
  | o :: l, j, h => by
    have ht : total (o :: l) = room o + total l := rfl
    by_cases h0 : j < room o
    · exact ⟨0, j, Nat.succ_pos _, h0, Nat.zero_add _⟩
    · obtain ⟨i, k, h1, h2, h3⟩ := locate l (j - room o) (by omega)
      refine ⟨i + 1, k, Nat.succ_lt_succ h1, h2, ?_⟩
      have : start (o :: l) (i + 1) = room o + start l i := rfl
      omega

/-! ## All axes -/

/-- Where the element at `is` starts. -/
def starts : List Lens → List Nat → List Nat
  | l :: ls, i :: is => start l i :: starts ls is
  | _, _ => []

theorem place_in : ∀ {ls : List Lens} {is ks : List Nat}, InShape (ls.map List.length) is → InShape (block ls is) ks → InShape (ls.map total) (place ls is ks)
  | [], _, _, h, hk => by cases h; cases hk; exact .nil
  | l :: ls, _, _, @InShape.cons _ i _ is hi h, @InShape.cons _ k _ ks hk hks => by
    have h1 := start_succ l i hi
    have h2 := start_total l (i + 1)
    have hk : k < room (l[i]?.getD none) := hk
    exact .cons (by show start l i + k < total l; omega) (place_in h hks)

theorem place_inj : ∀ {ls : List Lens} {is ks is' ks' : List Nat}, InShape (ls.map List.length) is → InShape (block ls is) ks → InShape (ls.map List.length) is' → InShape (block ls is') ks' →
    place ls is ks = place ls is' ks' → is = is' ∧ ks = ks'
  | [], _, _, _, _, h, hk, h', hk', _ => by cases h; cases hk; cases h'; cases hk'; exact ⟨rfl, rfl⟩
  | l :: ls, _, _, _, _, @InShape.cons _ i _ is hi h, @InShape.cons _ k _ ks hk hks, @InShape.cons _ i' _ is' hi' h', @InShape.cons _ k' _ ks' hk' hks', e => by
    have e : (start l i + k) :: place ls is ks = (start l i' + k') :: place ls is' ks' := e
    obtain ⟨e1, e2⟩ := List.cons.inj e
    obtain ⟨rfl, rfl⟩ := start_inj hi hi' hk hk' e1
    obtain ⟨rfl, rfl⟩ := place_inj h hks h' hks' e2
    exact ⟨rfl, rfl⟩

theorem place_all : ∀ {ls : List Lens} {js : List Nat}, InShape (ls.map total) js → ∃ is ks, InShape (ls.map List.length) is ∧ InShape (block ls is) ks ∧ place ls is ks = js
  | [], _, h => by cases h; exact ⟨[], [], .nil, .nil, rfl⟩
  | l :: ls, _, @InShape.cons _ j _ js hj h => by
    obtain ⟨i, k, h1, h2, h3⟩ := locate l j hj
    obtain ⟨is, ks, h4, h5, h6⟩ := place_all h
    exact ⟨i :: is, k :: ks, .cons h1 h4, .cons h2 h5, by show (start l i + k) :: place ls is ks = _; rw [h3, h6]⟩

theorem place_ravel : ∀ (ls : List Lens) (is ks : List Nat), is.length = ls.length → ks.length = ls.length →
    ravel (ls.map total) (place ls is ks) = ravel (ls.map total) (starts ls is) + ravel (ls.map total) ks
  | [], _, _, _, _ => rfl
  | l :: ls, [], _, h, _ => by cases h
  | l :: ls, _ :: _, [], _, h => by cases h
  | l :: ls, i :: is, k :: ks, h, h' => by
    show (start l i + k) * prod (ls.map total) + ravel (ls.map total) (place ls is ks) = start l i * prod (ls.map total) + ravel (ls.map total) (starts ls is) + (k * prod (ls.map total) + ravel (ls.map total) ks)
    rw [place_ravel ls is ks (Nat.succ.inj h) (Nat.succ.inj h'), Nat.add_mul]
    omega

theorem block_prod : ∀ (ls : List Lens) (is t : List Nat), InShape (ls.map List.length) is → prod (elementShape ls is t) = prod (block ls is) * prod t
  | [], _, t, h => by cases h; exact (Nat.one_mul _).symm
  | l :: ls, _, t, @InShape.cons _ i _ is hi h => by
    have ih := block_prod ls is t h
    have hi : i < l.length := hi
    unfold elementShape block
    rw [List.getElem?_eq_getElem hi]
    show _ = room l[i] * prod (block ls is) * prod t
    cases l[i] with
    | none =>
      show prod (elementShape ls is t) = 1 * prod (block ls is) * prod t
      rw [Nat.one_mul, ih]
    | some n =>
      show n * prod (elementShape ls is t) = n * prod (block ls is) * prod t
      rw [ih, Nat.mul_assoc]

theorem own_ravel : ∀ (ls : List Lens) (is ks t ts : List Nat), InShape (ls.map List.length) is → InShape (block ls is) ks →
    ravel (elementShape ls is t) (own ls is ks ++ ts) = ravel (block ls is) ks * prod t + ravel t ts
  | [], _, _, t, ts, h, hk => by cases h; cases hk; show ravel t ts = 0 * _ + _; omega
  | l :: ls, _, _, t, ts, @InShape.cons _ i _ is hi h, @InShape.cons _ k _ ks hk hks => by
    have ih := own_ravel ls is ks t ts h hks
    have hp := block_prod ls is t h
    have hi : i < l.length := hi
    have hk : k < room (l[i]?.getD none) := hk
    have hb : ravel (block (l :: ls) (i :: is)) (k :: ks) = k * prod (block ls is) + ravel (block ls is) ks := rfl
    rw [hb]
    unfold elementShape own
    rw [List.getElem?_eq_getElem hi] at hk ⊢
    have hk : k < room l[i] := hk
    cases hl : l[i] with
    | none =>
      rw [hl] at hk
      have hk : k < 1 := hk
      have : k = 0 := by omega
      subst this
      show ravel (elementShape ls is t) (own ls is ks ++ ts) = _
      rw [ih, Nat.zero_mul, Nat.zero_add]
    | some n =>
      show k * prod (elementShape ls is t) + ravel (elementShape ls is t) (own ls is ks ++ ts) = _
      rw [ih, hp, Nat.add_mul, Nat.mul_assoc, Nat.add_assoc]

/-! ## The axes in reverse -/

def axF (ls : List Lens) : List (List Nat × Nat) := ls.map fun l => (l.map room, total l)

theorem axNs_rev (ls : List Lens) : axNs (axF ls).reverse = (ls.map List.length).reverse := by
  unfold axNs axF
  rw [List.map_reverse, List.map_map]
  congr 1
  apply List.map_congr_left
  intro l _
  exact List.length_map ..

theorem axSs_rev (ls : List Lens) : axSs (axF ls).reverse = (ls.map total).reverse := by
  unfold axSs axF
  rw [List.map_reverse, List.map_map]; rfl

theorem axBlk_append : ∀ (is is' : List Nat) (ax ax' : List (List Nat × Nat)), is.length = ax.length → axBlk (is ++ is') (ax ++ ax') = axBlk is ax ++ axBlk is' ax'
  | [], _, [], _, _ => rfl
  | [], _, _ :: _, _, h => by cases h
  | _ :: _, _, [], _, h => by cases h
  | i :: is, is', p :: ax, ax', h => by
    show _ :: axBlk (is ++ is') (ax ++ ax') = _ :: _
    rw [axBlk_append is is' ax ax' (Nat.succ.inj h)]; rfl

theorem axOff_append : ∀ (is is' : List Nat) (ax ax' : List (List Nat × Nat)), is.length = ax.length → axOff (is ++ is') (ax ++ ax') = axOff is ax ++ axOff is' ax'
  | [], _, [], _, _ => rfl
  | [], _, _ :: _, _, h => by cases h
  | _ :: _, _, [], _, h => by cases h
  | i :: is, is', p :: ax, ax', h => by
    show _ :: axOff (is ++ is') (ax ++ ax') = _ :: _
    rw [axOff_append is is' ax ax' (Nat.succ.inj h)]; rfl

theorem axBlk_rev : ∀ (ls : List Lens) (is : List Nat), InShape (ls.map List.length) is → axBlk is.reverse (axF ls).reverse = (block ls is).reverse
  | [], _, h => by cases h; rfl
  | l :: ls, _, @InShape.cons _ i _ is hi h => by
    have hi : i < l.length := hi
    show axBlk (i :: is).reverse ((l.map room, total l) :: axF ls).reverse = (room (l[i]?.getD none) :: block ls is).reverse
    rw [List.reverse_cons, List.reverse_cons, List.reverse_cons, axBlk_append _ _ _ _ (by rw [List.length_reverse, List.length_reverse, h.length, axF, List.length_map, List.length_map]), axBlk_rev ls is h]
    congr 1
    show [((l.map room)[i]?).getD 0] = _
    rw [List.getElem?_map, List.getElem?_eq_getElem hi]; rfl

theorem axOff_rev : ∀ (ls : List Lens) (is : List Nat), InShape (ls.map List.length) is → axOff is.reverse (axF ls).reverse = (starts ls is).reverse
  | [], _, h => by cases h; rfl
  | l :: ls, _, @InShape.cons _ i _ is hi h => by
    show axOff (i :: is).reverse ((l.map room, total l) :: axF ls).reverse = (start l i :: starts ls is).reverse
    rw [List.reverse_cons, List.reverse_cons, List.reverse_cons, axOff_append _ _ _ _ (by rw [List.length_reverse, List.length_reverse, h.length, axF, List.length_map, List.length_map]), axOff_rev ls is h]
    congr 1
    show [((l.map room).take i).sum] = [((l.take i).map room).sum]
    rw [List.map_take]

theorem starts_length : ∀ (ls : List Lens) (is : List Nat), is.length = ls.length → (starts ls is).length = ls.length
  | [], is, h => by cases is <;> rfl
  | l :: ls, [], h => by cases h
  | l :: ls, i :: is, h => by show _ + 1 = _ + 1; rw [starts_length ls is (Nat.succ.inj h)]

theorem block_length : ∀ (ls : List Lens) (is : List Nat), is.length = ls.length → (block ls is).length = ls.length
  | [], is, h => by cases is <;> rfl
  | l :: ls, [], h => by cases h
  | l :: ls, i :: is, h => by show _ + 1 = _ + 1; rw [block_length ls is (Nat.succ.inj h)]

/-- What is written for an element, in terms of the specification. -/
theorem wrote_iff (ls : List Lens) (csz : Nat) (is : List Nat) (his : InShape (ls.map List.length) is) (v : List E) (p : Nat) (e : E) :
    Wrote csz is.reverse (axF ls).reverse v p e ↔ ∃ ks u, InShape (block ls is) ks ∧ u < csz ∧ p = csz * ravel (ls.map total) (place ls is ks) + u ∧ v[ravel (block ls is) ks * csz + u]? = some e := by
  have hil : is.length = ls.length := by rw [his.length, List.length_map]
  unfold Wrote
  rw [axBlk_rev ls is his, axSs_rev, axOff_rev ls is his]
  have conv : ∀ ks, InShape (block ls is) ks → rav (ls.map total).reverse (starts ls is).reverse + rav (ls.map total).reverse ks.reverse = ravel (ls.map total) (place ls is ks) := by
    intro ks hks
    have hkl : ks.length = ls.length := by rw [hks.length, block_length _ _ hil]
    rw [rav_reverse' _ _ (by rw [starts_length _ _ hil, List.length_map]), rav_reverse' _ _ (by rw [hkl, List.length_map]), place_ravel ls is ks hil hkl]
  constructor
  · rintro ⟨kk, u, hkk, hu, hp, hv⟩
    have hks := hkk.reverse
    rw [List.reverse_reverse] at hks
    refine ⟨kk.reverse, u, hks, hu, ?_, ?_⟩
    · rw [hp, ← conv _ hks, List.reverse_reverse]
    · rw [← hv, ← rav_reverse' _ _ hks.length, List.reverse_reverse]
  · rintro ⟨ks, u, hks, hu, hp, hv⟩
    refine ⟨ks.reverse, u, hks.reverse, hu, ?_, ?_⟩
    · rw [hp, conv _ hks]
    · rw [← hv, rav_reverse' _ _ hks.length]

/-- Moving everything gives the elements put together. -/
theorem move_joined {x : Arr (Val E)} {ls : List Lens} {t : List Nat} (hx : Full x) (hf : Fits x ls t) (hv : ∀ v ∈ x.els, v.els.length = prod v.sh) (hls : ls ≠ []) (hpx : 0 < prod x.sh)
    (hN : prod (ls.map total) * prod t < 2^32) (hN0 : 0 < prod (ls.map total) * prod t) :
    ∃ mem els, moveAll (prod t) (axF ls).reverse x.els (x.sh.map fun _ => 0) 0 (List.replicate (prod (ls.map total) * prod t) none) = .ok mem ∧ mem.mapM id = some els ∧ Joined x ls t ⟨ls.map total ++ t, els⟩ := by
  have hlen := hf.lengths
  have hc : 0 < prod t := Nat.pos_of_mul_pos_left hN0
  have hss : prod (axSs (axF ls).reverse) = prod (ls.map total) := by rw [axSs_rev, prod_reverse]
  have hns : axNs (axF ls).reverse = x.sh.reverse := by rw [axNs_rev, hlen]
  have hax : (axF ls).reverse ≠ [] := by
    intro h
    exact hls (List.map_eq_nil_iff.1 (List.reverse_eq_nil_iff.1 h))
  have hsum : ∀ q ∈ (axF ls).reverse, q.2 = q.1.sum := by
    intro q hq
    obtain ⟨l, _, rfl⟩ := List.mem_map.1 (List.mem_reverse.1 hq)
    rfl
  have helem : ∀ is v, InShape x.sh is → x.els[ravel x.sh is]? = some v → v.els.length = prod (block ls is) * prod t := by
    intro is v his hg
    rw [hv v (List.mem_of_getElem? hg), hf.shapes is v his hg, block_prod ls is t (by rw [hlen]; exact his)]
  obtain ⟨mem, e1, w⟩ := moveAll_spec (prod t) (axF ls).reverse hax hsum (by rw [hss]; exact hN) x.els (by rw [hns, prod_reverse]; exact hx) (by
      intro ei v hei hg
      rw [hns] at hei hg
      have his := hei.reverse
      rw [List.reverse_reverse] at his
      have hr := rav_reverse' _ _ his.length
      rw [List.reverse_reverse] at hr
      have := helem ei.reverse v his (by rw [← hr]; exact hg)
      have hb := axBlk_rev ls ei.reverse (by rw [hlen]; exact his)
      rw [List.reverse_reverse] at hb
      rw [this, hb, prod_reverse])
    x.els (x.sh.map fun _ => 0) (List.replicate (prod (ls.map total) * prod t) none) (by rw [zeros_rav, List.drop_zero]) (by
      rw [hns]
      refine zeros_in' (by rw [List.length_reverse]) (by rw [prod_reverse]; exact hpx)) (by rw [List.length_replicate, hss])
  have hoff : rav (axSs (axF ls).reverse) (axOff (x.sh.map fun _ => 0) (axF ls).reverse) = 0 := by
    have : ∀ (n : List Nat) (ax : List (List Nat × Nat)), axOff (n.map fun _ => 0) ax = (axOff (n.map fun _ => 0) ax).map fun _ => 0 := by
      intro n
      induction n with
      | nil => intro ax; rfl
      | cons _ n ih =>
        intro ax
        cases ax with
        | nil => rfl
        | cons p ax =>
          show _ :: axOff (n.map fun _ => 0) ax = 0 :: _
          rw [ih ax]
          simp [axOff]
    rw [this, zeros_rav]
  rw [hoff, Nat.mul_zero] at e1
  have hw : ∀ p e, (∃ fi v, InShape (axNs (axF ls).reverse) fi ∧ rav (axNs (axF ls).reverse) (x.sh.map fun _ => 0) ≤ rav (axNs (axF ls).reverse) fi ∧ x.els[rav (axNs (axF ls).reverse) fi]? = some v ∧ Wrote (prod t) fi (axF ls).reverse v.els p e) ↔
      ∃ is v ks u, InShape x.sh is ∧ x.els[ravel x.sh is]? = some v ∧ InShape (block ls is) ks ∧ u < prod t ∧ p = prod t * ravel (ls.map total) (place ls is ks) + u ∧ v.els[ravel (block ls is) ks * prod t + u]? = some e := by
    intro p e
    rw [hns]
    constructor
    · rintro ⟨fi, v, hfi, _, hg, hw⟩
      have his := hfi.reverse
      rw [List.reverse_reverse] at his
      have hr := rav_reverse' _ _ his.length
      rw [List.reverse_reverse] at hr
      rw [show fi = fi.reverse.reverse from (List.reverse_reverse fi).symm] at hw
      obtain ⟨ks, u, h1, h2, h3, h4⟩ := (wrote_iff ls (prod t) fi.reverse (by rw [hlen]; exact his) v.els p e).1 hw
      exact ⟨fi.reverse, v, ks, u, his, by rw [← hr]; exact hg, h1, h2, h3, h4⟩
    · rintro ⟨is, v, ks, u, his, hg, h1, h2, h3, h4⟩
      refine ⟨is.reverse, v, his.reverse, by rw [zeros_rav]; exact Nat.zero_le _, by rw [rav_reverse' _ _ his.length]; exact hg, ?_⟩
      exact (wrote_iff ls (prod t) is (by rw [hlen]; exact his) v.els p e).2 ⟨ks, u, h1, h2, h3, h4⟩
  have w := w.congr fun p e => (hw p e).symm
  have hml : mem.length = prod (ls.map total) * prod t := by rw [w.length, List.length_replicate]
  -- what is at a position
  have hat : ∀ is v ks u, InShape x.sh is → x.els[ravel x.sh is]? = some v → InShape (block ls is) ks → u < prod t → ∃ e, mem[prod t * ravel (ls.map total) (place ls is ks) + u]? = some (some e) ∧ v.els[ravel (block ls is) ks * prod t + u]? = some e := by
    intro is v ks u his hg hks hu
    have hb : ravel (block ls is) ks * prod t + u < v.els.length := by
      rw [helem is v his hg]
      have := Nat.mul_le_mul_right (prod t) (Nat.succ_le_of_lt (ravel_lt hks))
      rw [Nat.succ_mul] at this
      omega
    have hex := List.getElem?_eq_getElem hb
    rcases w.eq (prod t * ravel (ls.map total) (place ls is ks) + u) with ⟨e, ⟨is', v', ks', u', his', hg', hks', hu', hp, hv'⟩, hm⟩ | ⟨hn, _⟩
    · refine ⟨e, hm, ?_⟩
      have hA : ravel (ls.map total) (place ls is ks) = ravel (ls.map total) (place ls is' ks') := by
        have := congrArg (· / prod t) hp
        simp only [Nat.mul_add_div hc, Nat.div_eq_of_lt hu, Nat.div_eq_of_lt hu', Nat.add_zero] at this
        exact this
      have hi1 : InShape (ls.map List.length) is := by rw [hlen]; exact his
      have hi2 : InShape (ls.map List.length) is' := by rw [hlen]; exact his'
      have hpl := ravel_inj (place_in hi1 hks) (place_in hi2 hks') hA
      obtain ⟨rfl, rfl⟩ := place_inj hi1 hks hi2 hks' hpl
      have : u = u' := by omega
      subst this
      rw [hg] at hg'
      cases hg'
      exact hv'
    · exact absurd ⟨_, is, v, ks, u, his, hg, hks, hu, rfl, hex⟩ hn
  obtain ⟨els, e2, hel, hek⟩ := mapM_opt id mem (by
    intro o ho
    obtain ⟨p, hp⟩ := List.mem_iff_getElem?.1 ho
    have hpl : p < prod (ls.map total) * prod t := by rw [← hml]; exact (List.getElem?_eq_some_iff.1 hp).1
    obtain ⟨js, hjs, hj⟩ := exists_index (ls.map total) (p / prod t) ((Nat.div_lt_iff_lt_mul hc).2 hpl)
    obtain ⟨is, ks, his, hks, rfl⟩ := place_all hjs
    rw [hlen] at his
    have hrl := ravel_lt his
    rw [← hx] at hrl
    obtain ⟨e, he, _⟩ := hat is _ ks (p % prod t) his (List.getElem?_eq_getElem hrl) hks (Nat.mod_lt _ hc)
    rw [hj, Nat.div_add_mod, hp] at he
    cases he; rfl)
  refine ⟨mem, els, e1, e2, rfl, ?_, ?_⟩
  · show els.length = prod (ls.map total ++ t)
    rw [hel, hml, prod_append]
  · intro is v his hg ks ts hks hts
    show els[ravel (ls.map total ++ t) (place ls is ks ++ ts)]? = _
    have hi1 : InShape (ls.map List.length) is := by rw [hlen]; exact his
    rw [ravel_append (place_in hi1 hks), hf.shapes is v his hg, own_ravel ls is ks t ts hi1 hks, Nat.mul_comm]
    obtain ⟨e, he, hve⟩ := hat is v ks (ravel t ts) his hg hks (ravel_lt hts)
    rw [hek, he, hve]; rfl

/-- What's done once the lengths are known. -/
theorem joinAxes_start (junk : Nat → Nat) {x : Arr (Val E)} {x0 : Val E} (g : Good x x0) {ls : List Lens} {t : List Nat} (hf : Fits x ls t) (hst : ∀ l ∈ ls, total l < 2^32) :
    joinAxes junk x =
      if prod (ls.map total) % 2^32 * (prod t % 2^32) ≥ 2^32 then .large
      else if prod (ls.map total) % 2^32 * (prod t % 2^32) = 0 then .ok ⟨ls.map total ++ t, []⟩
      else (moveAll (prod t % 2^32) (axF ls).reverse x.els (x.sh.map fun _ => 0) 0 (List.replicate (prod (ls.map total) % 2^32 * (prod t % 2^32)) none)).bind fun mem =>
        (need (mem.mapM id)).bind fun els => .ok ⟨ls.map total ++ t, els⟩ := by
  have hj : ((List.range (x.sh.length + rank x0)).map junk).length = x.sh.length + rank x0 := by rw [List.length_map, List.length_range]
  have hax := axes_complete g ((List.range (x.sh.length + rank x0)).map junk) hj x.sh [] [] ls x0.sh t rfl {
      lengths := rfl
      present := fun _ h => absurd h List.not_mem_nil
      suffix := List.suffix_refl _
      shapes := fun is v his hv => by
        cases his
        have hv : x.els[0 * prod x.sh]? = some v := hv
        rw [Nat.zero_mul, g.root] at hv
        cases hv; rfl } hf
  have hdrop : x0.sh.drop (rank x0 - t.length) = t := by
    have hr := root_shape g (List.append_nil _).symm (inv_of_fits (ls' := []) g (List.append_nil _).symm (by rw [List.append_nil]; exact hf) hf.lengths)
    have hr : x0.sh = _ ++ t := hr
    rw [rank]
    conv => lhs; rw [hr]
    rw [List.length_append, Nat.add_sub_cancel]
    exact List.drop_left
  have hax : axes ((List.range (x.sh.length + rank x0)).map junk) x x0 x.sh 1 (rank x0) = .ok (ls, t.length) := hax
  have hst' : (ls.map fun l => l.map room).map (fun l => l.sum % 2^32) = ls.map total := by
    rw [List.map_map]
    apply List.map_congr_left
    intro l hl
    exact Nat.mod_eq_of_lt (hst l hl)
  have hzip : ((ls.map fun l => l.map room).zip (ls.map total)) = axF ls := by
    have : ∀ ls : List Lens, ((ls.map fun l => l.map room).zip (ls.map total)) = axF ls := by
      intro ls
      induction ls with
      | nil => rfl
      | cons l ls ih => exact congrArg (_ :: ·) ih
    exact this ls
  unfold joinAxes
  rw [g.root]
  show (axes _ x x0 x.sh 1 (rank x0)).bind _ = _
  rw [hax]
  dsimp only [Res.bind]
  rw [hst', hdrop, hzip]

/-- Too large. -/
theorem joinAxes_large (junk : Nat → Nat) {x : Arr (Val E)} {x0 : Val E} (g : Good x x0) {ls : List Lens} {t : List Nat} (hf : Fits x ls t) (hst : ∀ l ∈ ls, total l < 2^32)
    (h1 : prod (ls.map total) < 2^32) (h2 : prod t < 2^32) (hN : prod (ls.map total) * prod t ≥ 2^32) : joinAxes junk x = .large := by
  rw [joinAxes_start junk g hf hst, Nat.mod_eq_of_lt h1, Nat.mod_eq_of_lt h2, if_pos hN]

/-- The number of elements wraps to 0. -/
theorem joinAxes_wraps (junk : Nat → Nat) {x : Arr (Val E)} {x0 : Val E} (g : Good x x0) {ls : List Lens} {t : List Nat} (hf : Fits x ls t) (hst : ∀ l ∈ ls, total l < 2^32)
    (h : prod (ls.map total) % 2^32 = 0) : joinAxes junk x = .ok ⟨ls.map total ++ t, []⟩ := by
  rw [joinAxes_start junk g hf hst, h, Nat.zero_mul, if_neg (by decide), if_pos rfl]

/-- What `joinAxes` gives for what fits together. -/
theorem joinAxes_fits (junk : Nat → Nat) {x : Arr (Val E)} {x0 : Val E} (g : Good x x0) (hv : ∀ v ∈ x.els, v.els.length = prod v.sh) (hr : x.sh ≠ []) {ls : List Lens} {t : List Nat} (hf : Fits x ls t)
    (hst : ∀ l ∈ ls, total l < 2^32) (hN : prod (ls.map total) * prod t < 2^32) : ∃ r, joinAxes junk x = .ok r ∧ Joined x ls t r := by
  rw [joinAxes_start junk g hf hst]
  have hmod : prod (ls.map total) % 2^32 * (prod t % 2^32) = prod (ls.map total) * prod t := by
    rcases Nat.eq_zero_or_pos (prod (ls.map total)) with h | h
    · rw [h]; simp
    · rcases Nat.eq_zero_or_pos (prod t) with h' | h'
      · rw [h']; simp
      · have h1 : prod (ls.map total) * 1 ≤ prod (ls.map total) * prod t := Nat.mul_le_mul_left _ h'
        have h2 : 1 * prod t ≤ prod (ls.map total) * prod t := Nat.mul_le_mul_right _ h
        rw [Nat.mod_eq_of_lt (by omega), Nat.mod_eq_of_lt (by omega)]
  rw [hmod, if_neg (by omega)]
  by_cases h0 : prod (ls.map total) * prod t = 0
  · rw [if_pos h0]
    refine ⟨_, rfl, rfl, by show 0 = prod (ls.map total ++ t); rw [prod_append, h0], ?_⟩
    intro is v his hg ks ts hks hts
    have := ravel_lt ((place_in (by rw [hf.lengths]; exact his) hks).append hts)
    rw [prod_append, h0] at this
    omega
  · have hc : prod t % 2^32 = prod t := by
      have : 0 < prod (ls.map total) * prod t := by omega
      have h := Nat.pos_of_mul_pos_right this
      have h2 : 1 * prod t ≤ prod (ls.map total) * prod t := Nat.mul_le_mul_right _ h
      exact Nat.mod_eq_of_lt (by omega)
    rw [if_neg h0, hc]
    have hls : ls ≠ [] := by
      intro h
      have := hf.lengths
      rw [h] at this
      exact hr this.symm
    obtain ⟨mem, els, e1, e2, hJ⟩ := move_joined g.full hf hv hls (els_pos g) hN (by omega)
    rw [e1]
    show ∃ r, (need (mem.mapM id)).bind _ = _ ∧ _
    rw [e2]
    exact ⟨_, rfl, hJ⟩

theorem joinAxes_unfit (junk : Nat → Nat) {x : Arr (Val E)} {x0 : Val E} (g : Good x x0) (h : ¬ ∃ ls t, Fits x ls t) : joinAxes junk x = .err := by
  have hj : ((List.range (x.sh.length + rank x0)).map junk).length = x.sh.length + rank x0 := by rw [List.length_map, List.length_range]
  unfold joinAxes
  rw [g.root]
  show (axes _ x x0 x.sh 1 (rank x0)).bind _ = _
  rw [(axes_spec g _ hj).2 h]; rfl

end Verif.Join
