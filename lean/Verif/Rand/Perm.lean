import Verif.Rand.Model
/-! # Shuffling keeps the elements -/
namespace Verif.Rand
open Verif.Bits Verif.Fold Verif.Slash Verif.Select

theorem wy2u0k_lt (r : Word) (k : Nat) (hk : 0 < k) : wy2u0k r k < k := by
  unfold wy2u0k
  have h1 : r.toNat * k / 2^64 < k := by
    apply Nat.div_lt_of_lt_mul
    exact Nat.mul_lt_mul_of_pos_right r.isLt hk
  exact Nat.lt_of_le_of_lt (Nat.mod_le _ _) h1

theorem wr_ok {α} {m : List α} {i : Nat} (v : α) (h : i < m.length) : wr m i v = some (m.set i v) := if_pos h

theorem cons_set_perm (a c : Nat) : ∀ (l : List Nat) (j : Nat), l[j]? = some c → (c :: l.set j a).Perm (a :: l)
  | [], j, h => by simp at h
  | x :: l, 0, h => by
    simp at h; subst h
    exact List.Perm.swap _ _ _
  | x :: l, j + 1, h => by
    simp only [List.getElem?_cons_succ] at h
    have := cons_set_perm a c l j h
    simp only [List.set_cons_succ]
    exact (List.Perm.swap _ _ _).trans ((this.cons x).trans (List.Perm.swap _ _ _))

theorem set_set_perm : ∀ (l : List Nat) (i j : Nat) (a c : Nat), l[j]? = some c → l[i]? = some a → ((l.set j a).set i c).Perm l
  | [], i, j, a, c, h, _ => by simp at h
  | x :: l, 0, 0, a, c, h, h' => by
    simp at h h' ⊢; subst h; exact List.Perm.refl _
  | x :: l, 0, j + 1, a, c, h, h' => by
    simp at h h'; subst h'
    simp only [List.set_cons_succ, List.set_cons_zero]
    exact cons_set_perm x c l j h
  | x :: l, i + 1, 0, a, c, h, h' => by
    simp at h h'; subst h
    simp only [List.set_cons_succ, List.set_cons_zero]
    exact cons_set_perm x a l i h'
  | x :: l, i + 1, j + 1, a, c, h, h' => by
    simp at h h'
    simp only [List.set_cons_succ]
    exact (set_set_perm l i j a c h h').cons x

theorem swap_ok (rp : List Nat) (i j : Nat) (hi : i < rp.length) (hj : j < rp.length) :
    ∃ r, swap rp i j = some r ∧ r = (rp.set j rp[i]).set i rp[j] ∧ r.Perm rp := by
  refine ⟨(rp.set j rp[i]).set i rp[j], ?_, rfl, set_set_perm _ _ _ _ _ (List.getElem?_eq_getElem hj) (List.getElem?_eq_getElem hi)⟩
  unfold swap
  rw [List.getElem?_eq_getElem hj, List.getElem?_eq_getElem hi, Option.bind_some, Option.bind_some, wr_ok _ hj, Option.bind_some,
    wr_ok _ (by rw [List.length_set]; exact hi)]

theorem shuf_ok (rnd : Nat → Word) (n : Nat) : ∀ (l i : Nat) (rp : List Nat), rp.length = n → i + l ≤ n →
    ∃ r, shuf rnd n l i rp = some r ∧ r.Perm rp
  | 0, _, rp, _, _ => ⟨rp, rfl, List.Perm.refl _⟩
  | l + 1, i, rp, hn, hi => by
    have hj := wy2u0k_lt (rnd i) (n - i) (by omega)
    obtain ⟨r, e, -, hp⟩ := swap_ok rp i (wy2u0k (rnd i) (n - i) + i) (by omega) (by omega)
    obtain ⟨r', e', hp'⟩ := shuf_ok rnd n l (i + 1) r (by rw [hp.length_eq, hn]) (by omega)
    exact ⟨r', by rw [shuf, e, Option.bind_some, e'], hp'.trans hp⟩

theorem insideOut_ok (rnd : Nat → Word) (n : Nat) : ∀ (l i t : Nat) (rp : List Nat), rp.length = n → i + l ≤ n →
    ∃ r, insideOut rnd l i t rp = some r ∧ r.Perm rp
  | 0, _, _, rp, _, _ => ⟨rp, rfl, List.Perm.refl _⟩
  | l + 1, i, t, rp, hn, hi => by
    have hj := wy2u0k_lt (rnd t) (1 + i) (by omega)
    obtain ⟨r, e, -, hp⟩ := swap_ok rp i (wy2u0k (rnd t) (1 + i)) (by omega) (by omega)
    obtain ⟨r', e', hp'⟩ := insideOut_ok rnd n l (i + 1) (t + 1) r (by rw [hp.length_eq, hn]) (by omega)
    exact ⟨r', by rw [insideOut, e, Option.bind_some, e'], hp'.trans hp⟩

/-! ## Slices -/

/-- The elements from `a` to `b`. -/
def slice (rp : List Nat) (a b : Nat) : List Nat := (rp.drop a).take (b - a)

theorem slice_set_out (rp : List Nat) (a b p v : Nat) (h : p < a ∨ b ≤ p) : slice (rp.set p v) a b = slice rp a b := by
  unfold slice
  apply List.ext_getElem?
  intro i
  by_cases hi : i < b - a
  · rw [List.getElem?_take_of_lt hi, List.getElem?_take_of_lt hi, List.getElem?_drop, List.getElem?_drop, List.getElem?_set_ne (by omega)]
  · rw [List.getElem?_take_eq_none (by omega), List.getElem?_take_eq_none (by omega)]

theorem slice_succ (rp : List Nat) (a b : Nat) (v : Nat) (hab : a ≤ b) (h : rp[b]? = some v) : slice rp a (b + 1) = slice rp a b ++ [v] := by
  unfold slice
  rw [show b + 1 - a = (b - a) + 1 by omega, List.take_add_one, List.getElem?_drop, show a + (b - a) = b by omega, h]
  rfl

theorem slice_cons (rp : List Nat) (a b : Nat) (v : Nat) (hab : a < b) (h : rp[a]? = some v) : slice rp a b = v :: slice rp (a + 1) b := by
  unfold slice
  have ha : a < rp.length := (List.getElem?_eq_some_iff.1 h).1
  have hv : rp[a] = v := (List.getElem?_eq_some_iff.1 h).2
  rw [List.drop_eq_getElem_cons ha, hv, show b - a = (b - (a + 1)) + 1 by omega, List.take_succ_cons]

theorem slice_empty (rp : List Nat) (a b : Nat) (h : b ≤ a) : slice rp a b = [] := by
  unfold slice
  rw [show b - a = 0 by omega, List.take_zero]

theorem slice_set_in (rp : List Nat) (a b p v : Nat) (h : a ≤ p) (h' : p < b) : slice (rp.set p v) a b = (slice rp a b).set (p - a) v := by
  unfold slice
  apply List.ext_getElem?
  intro i
  rw [List.getElem?_set]
  by_cases hi : i < b - a
  · rw [List.getElem?_take_of_lt hi, List.getElem?_drop, List.getElem?_set, List.getElem?_take_of_lt hi, List.getElem?_drop, List.length_take, List.length_drop]
    by_cases e : p = a + i
    · subst e
      rw [if_pos rfl, if_pos (show a + i - a = i by omega)]
      by_cases hl : a + i < rp.length
      · rw [if_pos hl, if_pos (by omega)]
      · rw [if_neg hl, if_neg (by omega)]
    · rw [if_neg e, if_neg (by omega)]
  · rw [List.getElem?_take_eq_none (by omega), List.getElem?_take_eq_none (by omega), if_neg (by omega)]

theorem slice_get (rp : List Nat) (a b i : Nat) (h : a + i < b) : (slice rp a b)[i]? = rp[a + i]? := by
  unfold slice
  rw [List.getElem?_take_of_lt (by omega), List.getElem?_drop]

/-- The elements of all parts: `p`-th from its start to its current position. -/
def parted (rp : List Nat) : Nat → List Nat → List Nat → List Nat
  | s, c :: cur, e :: ends => slice rp s c ++ parted rp e cur ends
  | _, _, _ => []

/-- Positions are in order. -/
def Ordered (n : Nat) : Nat → List Nat → List Nat → Prop
  | s, c :: cur, e :: ends => s ≤ c ∧ c ≤ e ∧ Ordered n e cur ends
  | s, [], [] => s ≤ n
  | _, _, _ => False

theorem Ordered.le {n} : ∀ {s cur ends}, Ordered n s cur ends → s ≤ n
  | _, _ :: _, _ :: _, h => Nat.le_trans (Nat.le_trans h.1 h.2.1) (Ordered.le h.2.2)
  | _, [], [], h => h
  | _, [], _ :: _, h => h.elim
  | _, _ :: _, [], h => h.elim

theorem parted_set_low {n} (rp : List Nat) (p v : Nat) : ∀ (s : Nat) (cur ends : List Nat), Ordered n s cur ends → p < s →
    parted (rp.set p v) s cur ends = parted rp s cur ends
  | s, c :: cur, e :: ends, h, hp => by
    rw [parted, parted, slice_set_out rp s c p v (Or.inl hp), parted_set_low rp p v e cur ends h.2.2 (by have := h.1; have := h.2.1; omega)]
  | _, [], _, _, _ => by simp [parted]
  | _, _ :: _, [], h, _ => h.elim

theorem place_ok {n} (rp : List Nat) (q : Nat) : ∀ (s : Nat) (cur ends : List Nat) (k p e : Nat), Ordered n s cur ends → rp.length = n → cur[k]? = some p →
    ends[k]? = some e → p ≠ e →
    p < n ∧ s ≤ p ∧ Ordered n s (cur.set k (p + 1)) ends ∧ (parted (rp.set p q) s (cur.set k (p + 1)) ends).Perm (q :: parted rp s cur ends)
  | s, c :: cur, e :: ends, 0, p, e', h, hl, hp, he, hne => by
    simp at hp he; subst hp he
    have hle := Ordered.le h.2.2
    have h1 := h.1; have h2 := h.2.1
    refine ⟨by omega, h1, ⟨by omega, by omega, h.2.2⟩, ?_⟩
    rw [List.set_cons_zero, parted, parted, parted_set_low rp c q e cur ends h.2.2 (by omega), slice_succ _ s c q h1 (by rw [List.getElem?_set_self (by omega)]),
      slice_set_out rp s c c q (Or.inr (Nat.le_refl _)), List.append_assoc]
    exact List.perm_middle
  | s, c :: cur, e :: ends, k + 1, p, e', h, hl, hp, he, hne => by
    simp only [List.getElem?_cons_succ] at hp he
    obtain ⟨a, b, o, pe⟩ := place_ok rp q e cur ends k p e' h.2.2 hl hp he hne
    have h1 := h.1; have h2 := h.2.1
    refine ⟨a, by omega, ⟨h1, h2, o⟩, ?_⟩
    rw [List.set_cons_succ, parted, parted, slice_set_out rp s c p q (Or.inr (by omega))]
    exact (List.Perm.append_left _ pe).trans List.perm_middle
  | _, [], _, _, _, _, _, _, hp, _, _ => by simp at hp
  | _, _ :: _, [], _, _, _, h, _, _, _, _ => h.elim

theorem parted_length {n} (rp : List Nat) : ∀ (s : Nat) (cur ends : List Nat), Ordered n s cur ends → rp.length = n → (parted rp s cur ends).length + s ≤ n
  | s, c :: cur, e :: ends, h, hl => by
    have := parted_length rp e cur ends h.2.2 hl
    have h1 := h.1; have h2 := h.2.1
    have h3 : (slice rp s c).length ≤ c - s := by unfold slice; rw [List.length_take]; omega
    rw [parted, List.length_append]; omega
  | _, [], [], h, _ => by simp [parted]; exact h
  | _, [], _ :: _, h, _ => h.elim
  | _, _ :: _, [], h, _ => h.elim

theorem Ordered.lens {n} : ∀ {s cur ends}, Ordered n s cur ends → cur.length = ends.length
  | _, _ :: _, _ :: _, h => by have := Ordered.lens h.2.2; simp [this]
  | _, [], [], _ => rfl
  | _, [], _ :: _, h => h.elim
  | _, _ :: _, [], h => h.elim

theorem split_ok (rnd : Nat → Word) (m n : Nat) (ends : List Nat) (hk : ∀ q, part rnd m q < ends.length) :
    ∀ (fuel q : Nat) (cur rp : List Nat), Ordered n 0 cur ends → rp.length = n → (parted rp 0 cur ends).Perm (List.range q) → n < q + fuel →
    ∃ i cur' rp', split rnd m ends fuel q cur rp = some (i, cur', rp') ∧ Ordered n 0 cur' ends ∧ rp'.length = n ∧ (parted rp' 0 cur' ends).Perm (List.range i) ∧ i ≤ n
  | 0, q, cur, rp, ho, hl, hp, hf => by
    have := parted_length rp 0 cur ends ho hl
    rw [hp.length_eq, List.length_range] at this
    omega
  | fuel + 1, q, cur, rp, ho, hl, hp, hf => by
    have hk' := hk q
    have hk2 : part rnd m q < cur.length := by rw [ho.lens]; exact hk'
    have hq : q ≤ n := by
      have := parted_length rp 0 cur ends ho hl
      rw [hp.length_eq, List.length_range] at this
      omega
    rw [split]
    rw [List.getElem?_eq_getElem hk2, List.getElem?_eq_getElem hk', Option.bind_some, Option.bind_some]
    by_cases hc : cur[part rnd m q] = ends[part rnd m q]
    · rw [if_pos hc]
      exact ⟨q, cur, rp, rfl, ho, hl, hp, hq⟩
    · rw [if_neg hc]
      obtain ⟨a, -, o, pe⟩ := place_ok rp q 0 cur ends _ _ _ ho hl (List.getElem?_eq_getElem hk2) (List.getElem?_eq_getElem hk') hc
      rw [wr_ok _ hk2, Option.bind_some, wr_ok _ (by omega), Option.bind_some]
      apply split_ok rnd m n ends hk fuel (q + 1) _ _ o (by rw [List.length_set, hl]) ?_ (by omega)
      rw [List.range_succ]
      exact pe.trans ((hp.cons q).trans (List.perm_append_singleton _ _).symm)

theorem pack_ok (rnd : Nat → Word) {n : Nat} (b s l : Nat) (e : Nat) (cur ends : List Nat) (hbs : b ≤ s) (hsl : s + l ≤ e) (ho : Ordered n e cur ends) (R : List Nat) :
    ∀ (fuel i t : Nat) (rp : List Nat), i + fuel = l → rp.length = n → (rp.take (b + i) ++ (slice rp (s + i) (s + l) ++ parted rp e cur ends)).Perm R →
    ∃ r, pack rnd b s l fuel i t rp = some r ∧ r.length = n ∧ (r.take (b + l) ++ parted r e cur ends).Perm R
  | 0, i, t, rp, hi, hl, hp => by
    have hil : i = l := by omega
    subst hil
    rw [slice_empty _ _ _ (Nat.le_refl _), List.nil_append] at hp
    exact ⟨rp, rfl, hl, hp⟩
  | fuel + 1, i, t, rp, hi, hl, hp => by
    have hen := ho.le
    have hj := wy2u0k_lt (rnd t) (l - i) (by omega)
    rw [pack]
    generalize wy2u0k (rnd t) (l - i) = d at hj ⊢
    have hsj : s + (d + i) < rp.length := by omega
    have hsi : s + i < rp.length := by omega
    rw [List.getElem?_eq_getElem hsj, List.getElem?_eq_getElem hsi, Option.bind_some, Option.bind_some, wr_ok _ hsj, Option.bind_some,
      wr_ok _ (by rw [List.length_set]; omega), Option.bind_some]
    apply pack_ok rnd b s l e cur ends hbs hsl ho R fuel (i + 1) (t + 1) _ (by omega) (by rw [List.length_set, List.length_set, hl])
    refine List.Perm.trans ?_ hp
    have t1 : ((rp.set (s + (d + i)) rp[s + i]).set (b + i) rp[s + (d + i)]).take (b + (i + 1)) = rp.take (b + i) ++ [rp[s + (d + i)]] := by
      rw [show b + (i + 1) = b + i + 1 by omega, List.take_add_one, List.getElem?_set_self (by rw [List.length_set]; omega)]
      rw [List.take_set_of_le (Nat.le_refl _), List.take_set_of_le (by omega)]
      rfl
    rw [t1, parted_set_low _ _ _ e cur ends ho (by omega), parted_set_low _ _ _ e cur ends ho (by omega), slice_set_out _ _ _ _ _ (Or.inl (by omega)), List.append_assoc]
    apply List.Perm.append_left
    rw [List.singleton_append, ← List.cons_append]
    apply List.Perm.append_right
    rw [slice_cons rp (s + i) (s + l) rp[s + i] (by omega) (List.getElem?_eq_getElem hsi)]
    by_cases hd : d = 0
    · subst hd
      rw [slice_set_out _ _ _ _ _ (Or.inl (by omega))]
      have e1 : rp[s + (0 + i)]'hsj = rp[s + i] := by congr 1; omega
      rw [e1]; exact List.Perm.refl _
    · have := cons_set_perm rp[s + i] rp[s + (d + i)] (slice rp (s + i + 1) (s + l)) (d - 1) (by
        rw [slice_get _ _ _ _ (by omega), show s + i + 1 + (d - 1) = s + (d + i) by omega, List.getElem?_eq_getElem hsj])
      rw [slice_set_in _ _ _ _ _ (by omega) (by omega), show s + (d + i) - (s + (i + 1)) = d - 1 by omega]
      exact this

theorem packAll_ok (rnd : Nat → Word) {n : Nat} (R : List Nat) : ∀ (cur ends : List Nat) (b s t : Nat) (rp : List Nat), Ordered n s cur ends → b ≤ s → rp.length = n →
    (rp.take b ++ parted rp s cur ends).Perm R → ∃ t' r, packAll rnd cur ends b s t rp = some (t', r) ∧ r.length = n ∧ (r.take R.length).Perm R
  | c :: cur, e :: ends, b, s, t, rp, ho, hb, hl, hp => by
    have h1 := ho.1; have h2 := ho.2.1; have h3 := ho.2.2
    rw [packAll, if_neg (by omega)]
    rw [parted] at hp
    obtain ⟨r, er, hr, pr⟩ := pack_ok rnd b s (c - s) e cur ends hb (by omega) h3 R (c - s) 0 t rp (by omega) hl (by
      rw [Nat.add_zero, Nat.add_zero, show s + (c - s) = c by omega]; exact hp)
    rw [er, Option.bind_some]
    exact packAll_ok rnd R cur ends (b + (c - s)) e _ r h3 (by omega) hr pr
  | [], ends, b, s, t, rp, ho, hb, hl, hp => by
    refine ⟨t, rp, by simp [packAll], hl, ?_⟩
    simp only [parted, List.append_nil] at hp
    have hb2 : b ≤ n := Nat.le_trans hb ho.le
    have := hp.length_eq
    rw [List.length_take, hl] at this
    rw [← this, show min b n = b by omega]
    exact hp
  | _ :: _, [], _, _, _, _, ho, _, _, _ => ho.elim

theorem part_lt (rnd : Nat → Word) (sd q : Nat) (h : sd ≤ 8) : part rnd (2 ^ sd) q < 2 ^ sd := by
  unfold part
  dsimp only
  have hb : q % 8 < 8 := Nat.mod_lt _ (by decide)
  generalize q % 8 = j at hb
  generalize rnd (q / 8) = w
  have key : ∀ sd : Fin 9, ∀ j : Fin 8, ((0x0101010101010101#64 * BitVec.ofNat 64 (2 ^ sd.val - 1)) >>> (8 * j.val)).toNat % 256 = 2 ^ sd.val - 1 := by decide +kernel
  have := key ⟨sd, by omega⟩ ⟨j, hb⟩
  dsimp only at this
  rw [BitVec.toNat_setWidth, BitVec.toNat_ushiftRight, BitVec.toNat_and, Nat.shiftRight_and_distrib, show (2:Nat)^8 = 2^8 from rfl, Nat.and_mod_two_pow]
  rw [BitVec.toNat_ushiftRight, show (256:Nat) = 2^8 from rfl] at this
  rw [this]
  have := Nat.and_le_right (n := w.toNat >>> (8 * j) % 2 ^ 8) (m := 2 ^ sd - 1)
  have := Nat.two_pow_pos sd
  omega

theorem starts (n sd : Nat) : ∀ (l p : Nat), p + l = 2 ^ sd → Ordered n ((n * p) >>> sd) ((List.range' p l).map fun p => (n * p) >>> sd) ((List.range' p l).map fun p => (n * (p + 1)) >>> sd)
  | 0, p, h => by
    simp only [List.range'_zero, List.map_nil]
    have hp : p = 2 ^ sd := by omega
    rw [hp, Nat.shiftRight_eq_div_pow, Nat.mul_div_cancel _ (Nat.two_pow_pos sd)]
    exact Nat.le_refl _
  | l + 1, p, h => by
    rw [List.range'_succ, List.map_cons, List.map_cons]
    refine ⟨Nat.le_refl _, ?_, starts n sd l (p + 1) (by omega)⟩
    rw [Nat.shiftRight_eq_div_pow, Nat.shiftRight_eq_div_pow]
    exact Nat.div_le_div_right (Nat.mul_le_mul_left _ (Nat.le_succ _))

theorem starts_empty (rp : List Nat) (n sd : Nat) : ∀ (l p : Nat), parted rp ((n * p) >>> sd) ((List.range' p l).map fun p => (n * p) >>> sd) ((List.range' p l).map fun p => (n * (p + 1)) >>> sd) = []
  | 0, p => by simp [parted]
  | l + 1, p => by
    rw [List.range'_succ, List.map_cons, List.map_cons, parted, slice_empty _ _ _ (Nat.le_refl _), starts_empty rp n sd l (p + 1)]
    rfl

theorem parts_le (n : Nat) : parts n ≤ 8 := by
  unfold parts
  dsimp only
  by_cases h : (n - 1).log2 + 1 < 24
  · rw [if_pos h]; omega
  · rw [if_neg h]; omega

theorem dealLarge_ok (rnd : Nat → Word) (n : Nat) (junk : Nat → Nat) : ∃ r, dealLarge rnd n junk = some r ∧ r.Perm (List.range n) := by
  unfold dealLarge
  dsimp only
  have hfl : (fresh junk n).length = n := by simp [fresh]
  have ho : Ordered n 0 ((List.range (2 ^ parts n)).map fun p => (n * p) >>> parts n) ((List.range (2 ^ parts n)).map fun p => (n * (p + 1)) >>> parts n) := by
    have := starts n (parts n) (2 ^ parts n) 0 (by omega)
    rw [← List.range_eq_range', Nat.mul_zero, Nat.zero_shiftRight] at this
    exact this
  have he : parted (fresh junk n) 0 ((List.range (2 ^ parts n)).map fun p => (n * p) >>> parts n) ((List.range (2 ^ parts n)).map fun p => (n * (p + 1)) >>> parts n) = [] := by
    have := starts_empty (fresh junk n) n (parts n) (2 ^ parts n) 0
    rw [← List.range_eq_range', Nat.mul_zero, Nat.zero_shiftRight] at this
    exact this
  obtain ⟨i, cur, rp, e, o, hl, hp, hi⟩ := split_ok rnd (2 ^ parts n) n _ (fun q => by rw [List.length_map, List.length_range]; exact part_lt rnd _ q (parts_le n))
    (n + 1) 0 _ (fresh junk n) ho hfl (by rw [he]; exact List.Perm.refl _) (by omega)
  rw [e, Option.bind_some]
  obtain ⟨t, r, e2, hr, pr⟩ := packAll_ok rnd (List.range i) cur _ 0 0 (i / 8 + 1) rp o (Nat.le_refl _) hl (by rw [List.take_zero]; exact hp)
  dsimp only
  rw [e2, Option.bind_some]
  dsimp only
  rw [List.length_range] at pr
  obtain ⟨r', e3, p3⟩ := insideOut_ok rnd n (n - i) i t (r.take i ++ (List.range (n - i)).map fun k => i + k) (by
    rw [List.length_append, List.length_take, List.length_map, List.length_range, hr]; omega) (by omega)
  refine ⟨r', e3, p3.trans ?_⟩
  have : List.range n = List.range i ++ (List.range (n - i)).map fun k => i + k := by
    rw [← List.range_add, show i + (n - i) = n by omega]
  rw [this]
  exact List.Perm.append_right _ pr

theorem iota_shuf (rnd : Nat → Word) (lim n l : Nat) (h : n ≤ lim) (hl : l ≤ n) : ∃ r, ((iota lim n).bind fun rp => shuf rnd n l 0 rp) = some r ∧ r.Perm (List.range n) := by
  unfold iota
  rw [if_pos h, Option.bind_some]
  exact shuf_ok rnd n l 0 _ List.length_range (by omega)

theorem deal_ok (rnd : Nat → Word) (n : Nat) (junk : Nat → Nat) (hn : n < 2^31) : ∃ r, deal rnd n junk = some (.ok r) ∧ r.Perm (List.range n) := by
  unfold deal
  dsimp only
  rw [Int.toNat_natCast]
  by_cases h1 : n ≤ 1
  · rw [if_pos (show (n : Int) ≤ 1 by omega), if_neg (show ¬ (n : Int) < 0 by omega)]
    have : n = 0 ∨ n = 1 := by omega
    rcases this with rfl | rfl
    · exact ⟨_, rfl, List.Perm.refl _⟩
    · exact ⟨_, rfl, List.Perm.refl _⟩
  rw [if_neg (show ¬ (n : Int) ≤ 1 by omega)]
  by_cases h2 : n = 2
  · rw [if_pos h2]; subst h2
    refine ⟨_, rfl, ?_⟩
    by_cases hb : rnd 0 &&& 1#64 = 0#64
    · rw [if_pos hb]; exact List.Perm.refl _
    · rw [if_neg hb]; exact List.Perm.swap _ _ _
  rw [if_neg h2]
  by_cases h3 : n ≤ 128
  · rw [if_pos h3]
    obtain ⟨r, e, p⟩ := iota_shuf rnd 128 n (n - 1) h3 (by omega)
    exact ⟨r, by rw [e]; rfl, p⟩
  rw [if_neg h3]
  by_cases h4 : n ≤ 2^15
  · rw [if_pos h4]
    obtain ⟨r, e, p⟩ := iota_shuf rnd (2^15) n (n - 1) h4 (by omega)
    exact ⟨r, by rw [e]; rfl, p⟩
  rw [if_neg h4]
  by_cases h5 : n ≤ 2^19
  · rw [if_pos h5]
    obtain ⟨r, e, p⟩ := iota_shuf rnd (2^31) n (n - 1) (by omega) (by omega)
    exact ⟨r, by rw [e]; rfl, p⟩
  rw [if_neg h5]
  obtain ⟨r, e, p⟩ := dealLarge_ok rnd n junk
  exact ⟨r, by rw [e]; rfl, p⟩

end Verif.Rand
