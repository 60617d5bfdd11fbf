import Verif.Rep.Main
/-!
# The inverse of Indices: proofs
-/
namespace Verif.Rep
open Verif.Bits Verif.Fold Verif.Slash

/-! ## The specification -/

/-- One more than the greatest number. -/
def bound (ns : List Nat) : Nat := ns.foldl (fun m n => max m (n + 1)) 0

theorem foldl_bound (ns : List Nat) : ∀ b, ns.foldl (fun m n => max m (n + 1)) b = max b (bound ns) := by
  unfold bound
  induction ns with
  | nil => intro b; simp
  | cons n ns ih =>
    intro b
    rw [List.foldl_cons, List.foldl_cons, ih, ih (max 0 (n + 1))]
    omega

theorem bound_cons (n : Nat) (ns : List Nat) : bound (n :: ns) = max (n + 1) (bound ns) := by
  unfold bound
  rw [List.foldl_cons, foldl_bound]
  unfold bound
  omega

theorem lt_bound {n : Nat} : ∀ {ns : List Nat}, n ∈ ns → n < bound ns
  | m :: ns, h => by
    rw [bound_cons]
    rcases List.mem_cons.1 h with rfl | h
    · omega
    · have := lt_bound h
      omega

theorem bound_le {b : Nat} : ∀ {ns : List Nat}, (∀ n ∈ ns, n < b) → bound ns ≤ b
  | [], _ => Nat.zero_le _
  | n :: ns, h => by
    rw [bound_cons]
    have h1 := h n (List.mem_cons_self ..)
    have h2 := bound_le (ns := ns) fun m hm => h m (List.mem_cons_of_mem _ hm)
    omega

theorem bound_append (as bs : List Nat) : bound (as ++ bs) = max (bound as) (bound bs) := by
  induction as with
  | nil => simp [bound]
  | cons a as ih => rw [List.cons_append, bound_cons, ih, bound_cons]; omega

theorem occurrences_eq (ns : List Nat) : occurrences ns = (List.range (bound ns)).map fun i => ns.count i := rfl

/-! ## Counters -/

theorem countAll_spec : ∀ (vs : List Nat) (t : List (BitVec 32)), (∀ v ∈ vs, v < t.length) →
    ∃ t', countAll vs t = some t' ∧ t'.length = t.length ∧ ∀ i, t'[i]? = (t[i]?).map fun c => c + BitVec.ofNat 32 (vs.count i)
  | [], t, _ => ⟨t, rfl, rfl, fun i => by simp⟩
  | v :: vs, t, h => by
    have hv := h v (List.mem_cons_self ..)
    rw [countAll, List.getElem?_eq_getElem hv, Option.bind_some, wr_some hv, Option.bind_some]
    obtain ⟨t', e, hl, hg⟩ := countAll_spec vs (t.set v (t[v] + 1#32)) (fun u hu => by rw [List.length_set]; exact h u (List.mem_cons_of_mem _ hu))
    refine ⟨t', e, by rw [hl, List.length_set], fun i => ?_⟩
    rw [hg, List.count_cons]
    by_cases hi : v = i
    · subst hi
      rw [List.getElem?_set_self hv, List.getElem?_eq_getElem hv]
      rw [if_pos (by simp)]
      show some (t[v] + 1#32 + BitVec.ofNat 32 (vs.count v)) = some (t[v] + BitVec.ofNat 32 (vs.count v + 1))
      rw [BitVec.add_assoc, Nat.add_comm, BitVec.ofNat_add]
    · rw [List.getElem?_set_ne hi, if_neg (by simpa using hi), Nat.add_zero]

theorem countAll_zeros (vs : List Nat) (n : Nat) (h : ∀ v ∈ vs, v < n) :
    countAll vs (List.replicate n 0#32) = some ((List.range n).map fun i => BitVec.ofNat 32 (vs.count i)) := by
  obtain ⟨t', e, hl, hg⟩ := countAll_spec vs (List.replicate n 0#32) (by rw [List.length_replicate]; exact h)
  rw [e]
  congr 1
  apply List.ext_getElem?
  intro i
  rw [hg, List.getElem?_replicate, List.getElem?_map]
  by_cases hi : i < n
  · rw [if_pos hi, List.getElem?_range hi]
    simp
  · rw [if_neg hi, List.getElem?_eq_none (by simpa using hi)]
    rfl

theorem setAll_spec : ∀ (vs : List Nat) (m : List Word), (∀ v ∈ vs, v < 64 * m.length) →
    ∃ m', setAll vs m = some m' ∧ m'.length = m.length ∧ ∀ i, bitL m' i = (bitL m i || decide (i ∈ vs))
  | [], m, _ => ⟨m, rfl, rfl, fun i => by simp⟩
  | v :: vs, m, h => by
    have hv := h v (List.mem_cons_self ..)
    have hv' : v / 64 < m.length := by omega
    rw [setAll, List.getElem?_eq_getElem hv', Option.bind_some, wr_some hv', Option.bind_some]
    obtain ⟨m', e, hl, hg⟩ := setAll_spec vs (m.set (v / 64) (m[v / 64] ||| 1#64 <<< (v % 64))) (fun u hu => by rw [List.length_set]; exact h u (List.mem_cons_of_mem _ hu))
    refine ⟨m', e, by rw [hl, List.length_set], fun i => ?_⟩
    rw [hg, bitL_set hv']
    by_cases hi : i / 64 = v / 64
    · rw [if_pos hi, BitVec.getLsbD_or, BitVec.getLsbD_shiftLeft, decide_eq_true (by omega), Bool.true_and]
      have hb : bitL m i = m[v / 64].getLsbD (i % 64) := bitL_get (by rw [hi, List.getElem?_eq_getElem hv'])
      rw [hb]
      by_cases hiv : i = v
      · subst hiv
        rw [decide_eq_false (Nat.lt_irrefl _), Nat.sub_self]
        simp
      · have h2 : (!decide (i % 64 < v % 64) && (1#64).getLsbD (i % 64 - v % 64)) = false := by
          rw [BitVec.getLsbD_one]
          by_cases h3 : i % 64 < v % 64
          · rw [decide_eq_true h3]; rfl
          · rw [decide_eq_false (p := i % 64 - v % 64 = 0) (by omega)]
            simp
        rw [h2, Bool.or_false]
        simp [hiv]
    · have hiv : i ≠ v := fun h => hi (by rw [h])
      rw [if_neg hi]
      simp [hiv]

/-! ## Integers -/

theorem foldl_max (us : List Nat) : ∀ u, us.foldl (fun m c => if c > m then c else m) u + 1 = bound (u :: us) := by
  induction us with
  | nil => intro u; simp [bound]
  | cons v us ih =>
    intro u
    rw [List.foldl_cons, ih, bound_cons, bound_cons, bound_cons]
    split <;> omega

theorem toNat_ofInt {b : Nat} (hb : 0 < b) {v : Int} (h1 : -2^(b - 1) ≤ v) (h2 : v ≤ 2^(b - 1) - 1) :
    (v < 0 ∧ 2^(b - 1) ≤ (BitVec.ofInt b v).toNat) ∨ (0 ≤ v ∧ (BitVec.ofInt b v).toNat = v.toNat ∧ v.toNat < 2^(b - 1)) := by
  rw [BitVec.toNat_ofInt]
  have hp : (2:Int)^b = 2 * 2^(b - 1) := by
    obtain ⟨c, rfl⟩ : ∃ c, b = c + 1 := ⟨b - 1, by omega⟩
    rw [Nat.add_sub_cancel, Int.pow_succ, Int.mul_comm]
  have hpn : ((2^b : Nat) : Int) = 2 * 2^(b - 1) := by rw [← hp]; norm_cast
  have hpn2 : ((2^(b - 1) : Nat) : Int) = 2^(b - 1) := by norm_cast
  rw [hpn]
  generalize (2:Int)^(b - 1) = A at *
  rcases Int.lt_or_le v 0 with h | h
  · left
    refine ⟨h, ?_⟩
    have : v % (2 * A) = v + 2 * A := by
      rw [← Int.add_emod_right, Int.emod_eq_of_lt (by omega) (by omega)]
    rw [this]
    omega
  · right
    refine ⟨h, ?_, by omega⟩
    rw [Int.emod_eq_of_lt h (by omega)]

theorem mod_nat32 {c : Nat} (h : c ≤ 2147483647) : (BitVec.ofNat 32 c).toInt = Int.ofNat c := by
  rw [BitVec.toInt_ofNat']
  have : (c : Int).bmod (2^32) = c := Int.bmod_eq_of_le (by omega) (by omega)
  exact this

theorem count_le (vs : List Nat) (i : Nat) : vs.count i ≤ vs.length := List.count_le_length

theorem elems_counts {vs : List Nat} (hl : vs.length ≤ 2147483647) (n : Nat) :
    (Ints.i32 ((List.range n).map fun i => BitVec.ofNat 32 (vs.count i))).elems = ((List.range n).map fun i => vs.count i).map Int.ofNat := by
  unfold Ints.elems
  dsimp only
  rw [List.map_map, List.map_map]
  apply List.map_congr_left
  intro i _
  exact mod_nat32 (Nat.le_trans (count_le vs i) hl)

theorem slashImInts_spec (t : Sum.Ty) (xs : List Int) (hok : ∀ v ∈ xs, -2^(t.bits - 1) ≤ v ∧ v ≤ 2^(t.bits - 1) - 1) (hne : xs ≠ []) (hl : xs.length < 2^32) :
    (slashImInts t.bits xs).map (Out.map Nums.elems) = some (match naturals (xs.map some) with | none => .err | some ns => .ok ((occurrences ns).map Int.ofNat)) := by
  have hb : 0 < t.bits := by cases t <;> decide
  obtain ⟨x, xs', rfl⟩ := List.exists_cons_of_ne_nil hne
  unfold slashImInts
  generalize hus : (x :: xs').map (fun v => (BitVec.ofInt t.bits v).toNat) = us
  have hus' : us = (BitVec.ofInt t.bits x).toNat :: xs'.map fun v => (BitVec.ofInt t.bits v).toNat := by rw [← hus]; rfl
  have hbd : us.tail.foldl (fun m c => if c > m then c else m) (us.headD 0) + 1 = bound us := by
    rw [hus', List.tail_cons, List.headD_cons, foldl_max]
  rw [hus'] at hbd
  simp only [List.tail_cons, List.headD_cons] at hbd
  rw [← hus'] at hbd
  dsimp only
  rw [hus']
  dsimp only
  rw [← hus']
  rcases naturals_some (x :: xs') with ⟨⟨v, hv, hneg⟩, hn⟩ | ⟨hnn, hn, _, _⟩
  · rw [hn]
    have hmem : (BitVec.ofInt t.bits v).toNat ∈ us := by rw [← hus]; exact List.mem_map_of_mem hv
    have hlt := lt_bound hmem
    have := hok v hv
    rcases toNat_ofInt hb this.1 this.2 with ⟨_, h⟩ | ⟨h, _⟩
    · rw [if_pos (by omega)]
      rfl
    · omega
  · rw [hn]
    have husn : us = (x :: xs').map Int.toNat := by
      rw [← hus]
      apply List.map_congr_left
      intro v hv
      have := hok v hv
      rcases toNat_ofInt hb this.1 this.2 with ⟨h, _⟩ | ⟨_, h, _⟩
      · exact absurd ⟨v, hv, h⟩ hnn
      · exact h
    have hsmall : ∀ u ∈ us, u < 2^(t.bits - 1) := by
      intro u hu
      rw [husn] at hu
      obtain ⟨v, hv, rfl⟩ := List.mem_map.1 hu
      have := hok v hv
      rcases toNat_ofInt hb this.1 this.2 with ⟨h, _⟩ | ⟨_, _, h⟩
      · exact absurd ⟨v, hv, h⟩ hnn
      · exact h
    have hble := bound_le hsmall
    rw [if_neg (by omega), hbd, countAll_zeros us _ (fun v hv => lt_bound hv)]
    dsimp only
    rw [← husn]
    have hlen : us.length = (x :: xs').length := by rw [husn, List.length_map]
    by_cases hs : (x :: xs').length ≤ 2147483647
    · show some (Out.map Nums.elems (if _ then _ else _)) = _
      rw [if_pos hs]
      show some (Out.ok (Ints.i32 _).elems) = _
      rw [elems_counts (by omega)]
      rfl
    · show some (Out.map Nums.elems (if _ then _ else _)) = _
      rw [if_neg hs]
      show some (Out.ok (Ints.f64 _).elems) = some (Out.ok _)
      unfold Ints.elems
      dsimp only
      rw [occurrences_eq, List.map_map, List.map_map, List.map_map]
      congr 2
      apply List.map_congr_left
      intro i _
      show Int.ofNat (BitVec.ofNat 32 (us.count i)).toNat = Int.ofNat (us.count i)
      have := count_le us i
      rw [BitVec.toNat_ofNat, Nat.mod_eq_of_lt (by omega)]

/-! ## Doubles -/

/-- Numbers that each are greater than the ones before. -/
def Ascending (mx : Int) : List Nat → Prop
  | [] => True
  | n :: ns => mx < n ∧ Ascending n ns

theorem ascending_lt : ∀ {ns : List Nat} {mx : Int}, Ascending mx ns → ∀ n ∈ ns, mx < n
  | n :: ns, mx, h, k, hk => by
    rcases List.mem_cons.1 hk with rfl | hk
    · exact h.1
    · have h1 := ascending_lt h.2 k hk
      have h2 := h.1
      omega

theorem ascending_count : ∀ {ns : List Nat} {mx : Int}, Ascending mx ns → ∀ i, ns.count i = if i ∈ ns then 1 else 0
  | [], _, _, i => by simp
  | n :: ns, mx, h, i => by
    rw [List.count_cons, ascending_count h.2 i]
    by_cases hi : n = i
    · subst hi
      rw [if_neg fun hm => by have := ascending_lt h.2 n hm; omega]
      simp
    · have hne : i ≠ n := fun e => hi e.symm
      simp [hi, hne]

theorem imAscending_spec : ∀ (ns : List Nat) (mx : Int) (i : Nat), -1 ≤ mx → (∀ n ∈ ns, n < 4294967296) →
    ∃ k, k ≤ ns.length ∧ imAscending (ns.map fun n => some (Int.ofNat n)) mx i = some (max mx ((bound (ns.take k) : Int) - 1), i + k) ∧ Ascending mx (ns.take k)
  | [], mx, i, hm, _ => ⟨0, Nat.le_refl _, by
      show some (mx, i) = some (max mx ((0 : Int) - 1), i + 0)
      rw [show max mx ((0 : Int) - 1) = mx by omega]; rfl, trivial⟩
  | n :: ns, mx, i, hm, h => by
    rw [List.map_cons, imAscending]
    have hn := h n (List.mem_cons_self ..)
    rw [if_neg (by show ¬ (Int.ofNat n < 0 ∨ 4294967296 ≤ Int.ofNat n); simp only [Int.ofNat_eq_natCast]; omega)]
    by_cases hle : Int.ofNat n ≤ mx
    · rw [if_pos hle]
      refine ⟨0, Nat.zero_le _, ?_, trivial⟩
      show some (mx, i) = some (max mx ((0 : Int) - 1), i + 0)
      rw [show max mx ((0 : Int) - 1) = mx by omega]; rfl
    · rw [if_neg hle]
      simp only [Int.ofNat_eq_natCast] at hle
      obtain ⟨k, hk, e, ha⟩ := imAscending_spec ns (Int.ofNat n) (i + 1) (by simp only [Int.ofNat_eq_natCast]; omega) (fun m hm => h m (List.mem_cons_of_mem _ hm))
      refine ⟨k + 1, by rw [List.length_cons]; omega, ?_, ?_⟩
      · rw [e, List.take_succ_cons, bound_cons]
        simp only [Int.ofNat_eq_natCast]
        congr 2
        · omega
        · omega
      · rw [List.take_succ_cons]
        exact ⟨by omega, ha⟩

theorem imRest_spec : ∀ (ns : List Nat) (mx : Int), -1 ≤ mx → (∀ n ∈ ns, n < 4294967296) →
    imRest (ns.map fun n => some (Int.ofNat n)) mx = some (max mx ((bound ns : Int) - 1))
  | [], mx, hm, _ => by
    show some mx = some (max mx ((0 : Int) - 1))
    rw [show max mx ((0 : Int) - 1) = mx by omega]
  | n :: ns, mx, hm, h => by
    rw [List.map_cons, imRest]
    have hn := h n (List.mem_cons_self ..)
    rw [if_neg (by show ¬ (Int.ofNat n < 0 ∨ 4294967296 ≤ Int.ofNat n); simp only [Int.ofNat_eq_natCast]; omega)]
    simp only [Int.ofNat_eq_natCast]
    rw [← (funext fun n => rfl : (fun n : Nat => some (Int.ofNat n)) = fun n : Nat => some (n : Int)), imRest_spec ns _ (by split <;> omega) (fun m hm => h m (List.mem_cons_of_mem _ hm)),
      bound_cons]
    congr 1
    split <;> omega

/-- Elements the loops don't accept. -/
def Bad (z : Option Int) : Prop := ∀ c, z = some c → c < 0 ∨ 4294967296 ≤ c

theorem imAscending_bad : ∀ (xs : List (Option Int)) (mx : Int) (i : Nat), (∃ z ∈ xs, Bad z) →
    imAscending xs mx i = none ∨ ∃ mx' k, imAscending xs mx i = some (mx', i + k) ∧ ∃ z ∈ xs.drop k, Bad z
  | none :: _, mx, i, _ => Or.inl rfl
  | some c :: xs, mx, i, ⟨z, hz, hb⟩ => by
    rw [imAscending]
    by_cases hc : c < 0 ∨ 4294967296 ≤ c
    · rw [if_pos hc]; exact Or.inl rfl
    · rw [if_neg hc]
      by_cases hle : c ≤ mx
      · rw [if_pos hle]
        exact Or.inr ⟨mx, 0, rfl, z, hz, hb⟩
      · rw [if_neg hle]
        rcases List.mem_cons.1 hz with rfl | hz
        · exact absurd (hb c rfl) hc
        · rcases imAscending_bad xs c (i + 1) ⟨z, hz, hb⟩ with h | ⟨mx', k, h, hd⟩
          · exact Or.inl h
          · exact Or.inr ⟨mx', k + 1, by rw [h]; congr 2; omega, hd⟩

theorem imRest_bad : ∀ (xs : List (Option Int)) (mx : Int), (∃ z ∈ xs, Bad z) → imRest xs mx = none
  | none :: _, mx, _ => rfl
  | some c :: xs, mx, ⟨z, hz, hb⟩ => by
    rw [imRest]
    by_cases hc : c < 0 ∨ 4294967296 ≤ c
    · rw [if_pos hc]
    · rw [if_neg hc]
      rcases List.mem_cons.1 hz with rfl | hz
      · exact absurd (hb c rfl) hc
      · exact imRest_bad xs _ ⟨z, hz, hb⟩

theorem naturals_none_bad : ∀ {xs : List (Option Int)}, naturals xs = none → ∃ z ∈ xs, Bad z
  | [], h => by cases h
  | none :: xs, _ => ⟨none, List.mem_cons_self .., fun c h => by cases h⟩
  | some c :: xs, h => by
    rw [naturals] at h
    by_cases hc : c < 0
    · exact ⟨some c, List.mem_cons_self .., fun c' h => by injection h with h; omega⟩
    · rw [if_neg hc] at h
      rcases hn : naturals xs with _ | ns
      · obtain ⟨z, hz, hb⟩ := naturals_none_bad hn
        exact ⟨z, List.mem_cons_of_mem _ hz, hb⟩
      · rw [hn] at h; cases h

theorem slashImF64_bad (xs : List (Option Int)) (h : ∃ z ∈ xs, Bad z) : slashImF64 xs = some .err := by
  unfold slashImF64
  rcases imAscending_bad xs (-1) 0 h with e | ⟨mx', k, e, hd⟩
  · rw [e]
  · rw [e]
    dsimp only
    rw [Nat.zero_add, imRest_bad _ _ hd]

/-- The elements of a result of booleans. -/
theorem bits_elems {m : List Word} {ns : List Nat} (hm : ∀ i, bitL m i = decide (i ∈ ns)) {mx : Int} (ha : Ascending mx ns) (n : Nat) :
    (Nums.bits m n).elems = ((List.range n).map fun i => ns.count i).map Int.ofNat := by
  unfold Nums.elems
  dsimp only
  have : listL m n = (List.range n).map fun i => decide (i ∈ ns) := by
    show firstN (bitL m) n = _
    apply List.ext_getElem?
    intro i
    rw [getElem?_firstN, List.getElem?_map]
    by_cases hi : i < n
    · rw [if_pos hi, List.getElem?_range hi, hm]; rfl
    · rw [if_neg hi, List.getElem?_eq_none (by simpa using hi)]; rfl
  rw [this, List.map_map, List.map_map]
  apply List.map_congr_left
  intro i _
  show (if decide (i ∈ ns) = true then (1 : Int) else 0) = Int.ofNat (ns.count i)
  rw [ascending_count ha]
  by_cases h : i ∈ ns <;> simp [h]

/-- Numbers of any size: a result or an error, and an error only for numbers or lists that are too large. -/
theorem slashImF64_spec (ns : List Nat) (hne : ns ≠ []) :
    ∃ r, (slashImF64 (ns.map fun n => some (Int.ofNat n))).map (Out.map Nums.elems) = some r ∧ (r = .ok ((occurrences ns).map Int.ofNat) ∨
      r = .err ∧ ((∃ n ∈ ns, bitMax ≤ n) ∨ 2147483647 < ns.length)) := by
  have hbm : bitMax = 4294967230 := rfl
  by_cases hbad : ∃ n ∈ ns, 4294967296 ≤ n
  · obtain ⟨n, hn, hb⟩ := hbad
    rw [slashImF64_bad _ ⟨some (Int.ofNat n), List.mem_map_of_mem (f := fun n : Nat => some (Int.ofNat n)) hn, fun c hc => by
      injection hc with hc
      simp only [Int.ofNat_eq_natCast] at hc
      omega⟩]
    exact ⟨_, rfl, Or.inr ⟨rfl, Or.inl ⟨n, hn, by omega⟩⟩⟩
  have hlt : ∀ n ∈ ns, n < 4294967296 := fun n hn => by
    rcases Nat.lt_or_ge n 4294967296 with h | h
    · exact h
    · exact absurd ⟨n, hn, h⟩ hbad
  have hbd := bound_le hlt
  obtain ⟨k, hk, e, ha⟩ := imAscending_spec ns (-1) 0 (by omega) hlt
  unfold slashImF64
  rw [e]
  dsimp only
  rw [Nat.zero_add, ← List.map_drop, imRest_spec _ _ (by omega) (fun n hn => hlt n (List.mem_of_mem_drop hn))]
  dsimp only
  have hb2 := bound_append (ns.take k) (ns.drop k)
  rw [List.take_append_drop] at hb2
  have hmx : max (max (-1) ((bound (ns.take k) : Int) - 1)) ((bound (ns.drop k) : Int) - 1) = (bound ns : Int) - 1 := by omega
  rw [hmx, show ((bound ns : Int) - 1 + 1).toNat = bound ns by omega]
  have hpos : 0 < bound ns := by
    obtain ⟨n, ns', rfl⟩ := List.exists_cons_of_ne_nil hne
    rw [bound_cons]; omega
  have hus : ((ns.map fun n => some (Int.ofNat n)).map fun z => (z.getD 0).toNat) = ns := getD_counts (naturals_of_map ns)
  rw [hus]
  have hmem : ∀ b, b ≤ bound ns → 0 < b → ∃ n ∈ ns, b ≤ n + 1 := by
    intro b hb hb0
    rcases Classical.em (∃ n ∈ ns, b ≤ n + 1) with h | h
    · exact h
    · have := bound_le (ns := ns) (b := b - 1) fun n hn => by
        rcases Nat.lt_or_ge n (b - 1) with h' | h'
        · exact h'
        · exact absurd ⟨n, hn, by omega⟩ h
      omega
  by_cases hz : bound ns % 4294967296 = 0
  · rw [if_pos hz]
    obtain ⟨n, hn, hb⟩ := hmem (bound ns) (Nat.le_refl _) hpos
    exact ⟨_, rfl, Or.inr ⟨rfl, Or.inl ⟨n, hn, by omega⟩⟩⟩
  · rw [if_neg hz, Nat.mod_eq_of_lt (by omega)]
    by_cases hkl : k = (ns.map fun n => some (Int.ofNat n)).length
    · rw [if_pos hkl]
      rw [List.length_map] at hkl
      by_cases hbig : bound ns > bitMax
      · rw [if_pos hbig]
        obtain ⟨n, hn, hb⟩ := hmem (bound ns) (Nat.le_refl _) hpos
        exact ⟨_, rfl, Or.inr ⟨rfl, Or.inl ⟨n, hn, by omega⟩⟩⟩
      · rw [if_neg hbig]
        obtain ⟨m', e2, hl2, hb⟩ := setAll_spec ns (List.replicate ((bound ns + 63) / 64) 0#64) (fun v hv => by
          have := lt_bound hv
          rw [List.length_replicate]
          omega)
        rw [e2]
        refine ⟨_, rfl, Or.inl ?_⟩
        rw [hkl, List.take_length] at ha
        show Out.ok (Nums.bits m' (bound ns)).elems = _
        rw [bits_elems (ns := ns) (fun i => by
          rw [hb]
          have : bitL (List.replicate ((bound ns + 63) / 64) 0#64) i = false := by
            unfold bitL
            rw [List.getD_eq_getElem?_getD, List.getElem?_replicate]
            split <;> simp
          rw [this, Bool.false_or]) ha]
        rfl
    · rw [if_neg hkl, List.length_map]
      by_cases hlong : ns.length > 2147483647
      · rw [if_pos hlong]
        exact ⟨_, rfl, Or.inr ⟨rfl, Or.inr hlong⟩⟩
      · rw [if_neg hlong, countAll_zeros ns _ (fun v hv => lt_bound hv)]
        refine ⟨_, rfl, Or.inl ?_⟩
        show Out.ok (Ints.i32 _).elems = _
        rw [elems_counts (by omega)]
        rfl

/-! ## Booleans -/

theorem occurrences_bits (b : Nat → Bool) (n : Nat) (hn : 0 < n) : occurrences (ofBits (firstN b n)) = if cnt b n > 0 then [n - cnt b n, cnt b n] else [n - cnt b n] := by
  suffices h : ∀ n, bound (ofBits (firstN b n)) = (if cnt b n > 0 then 2 else if 0 < n then 1 else 0) ∧ (ofBits (firstN b n)).count 1 = cnt b n ∧
      (ofBits (firstN b n)).count 0 = n - cnt b n by
    obtain ⟨h1, h2, h3⟩ := h n
    rw [occurrences_eq, h1]
    by_cases hc : cnt b n > 0
    · rw [if_pos hc, if_pos hc]
      show [(ofBits (firstN b n)).count 0, (ofBits (firstN b n)).count 1] = _
      rw [h2, h3]
    · rw [if_neg hc, if_neg hc, if_pos hn]
      show [(ofBits (firstN b n)).count 0] = _
      rw [h3]
  intro n
  induction n with
  | zero => exact ⟨rfl, rfl, rfl⟩
  | succ n ih =>
    obtain ⟨h1, h2, h3⟩ := ih
    have hle := cnt_le b n
    have hs : ofBits (firstN b (n + 1)) = ofBits (firstN b n) ++ [if b n then 1 else 0] := by
      unfold ofBits
      rw [firstN_succ_last, List.map_append]
      rfl
    rw [hs, bound_append, List.count_append, List.count_append, h1, h2, h3, cnt]
    by_cases hb : b n
    · rw [if_pos hb]
      refine ⟨?_, by simp, by simp⟩
      rw [if_pos (c := cnt b n + 1 > 0) (by omega)]
      show max _ 2 = 2
      split
      · rfl
      · split <;> rfl
    · rw [if_neg hb]
      refine ⟨?_, by simp, by simp; omega⟩
      rw [if_pos (c := 0 < n + 1) (by omega)]
      show max _ 1 = _
      split <;> (try split) <;> simp_all <;> omega

/-! ## The round trip -/

theorem snoc_ind {P : List Nat → Prop} (h0 : P []) (hs : ∀ ns c, P ns → P (ns ++ [c])) (ns : List Nat) : P ns := by
  suffices h : ∀ n (ns : List Nat), ns.length = n → P ns from h _ ns rfl
  intro n
  induction n with
  | zero => intro ns hn; rw [List.eq_nil_of_length_eq_zero hn]; exact h0
  | succ n ih =>
    intro ns hn
    have hne : ns ≠ [] := fun e => by rw [e] at hn; cases hn
    rw [← List.dropLast_concat_getLast hne]
    exact hs _ _ (ih _ (by rw [List.length_dropLast]; omega))

theorem count_indices (ns : List Nat) : ∀ i, (indices ns).count i = ns.getD i 0 := by
  induction ns using snoc_ind with
  | h0 => intro i; simp [indices]
  | hs ns c ih =>
    intro i
    rw [indices_snoc, List.count_append, ih, List.count_replicate, List.getD_eq_getElem?_getD, List.getD_eq_getElem?_getD, List.getElem?_append]
    by_cases h : i < ns.length
    · rw [if_pos h, if_neg (by simp; omega), Nat.add_zero]
    · rw [if_neg h, List.getElem?_eq_none (by omega)]
      by_cases h2 : i = ns.length
      · subst h2; simp
      · rw [if_neg (by simp; omega), List.getElem?_eq_none (by simp; omega)]
        rfl

theorem occurrences_indices (ns : List Nat) : occurrences (indices ns) = dropZeros ns := by
  induction ns using snoc_ind with
  | h0 => rfl
  | hs ns c ih =>
    unfold dropZeros
    rw [List.reverse_append, List.reverse_singleton, List.singleton_append, List.dropWhile_cons]
    by_cases hc : c = 0
    · subst hc
      rw [if_pos (by rfl), indices_snoc, List.replicate_zero, List.append_nil]
      exact ih
    · rw [if_neg (by simpa using hc), List.reverse_cons, List.reverse_reverse, occurrences_eq]
      have hb : bound (indices (ns ++ [c])) = ns.length + 1 := by
        have h1 : bound (indices (ns ++ [c])) ≤ (ns ++ [c]).length := bound_le fun n hn => indices_lt hn
        have h2 : ns.length ∈ indices (ns ++ [c]) := by
          rw [indices_snoc]
          exact List.mem_append_right _ (List.mem_replicate.2 ⟨hc, rfl⟩)
        have h3 := lt_bound h2
        rw [List.length_append, List.length_singleton] at h1
        omega
      rw [hb]
      apply List.ext_getElem?
      intro i
      rw [List.getElem?_map]
      by_cases hi : i < ns.length + 1
      · rw [List.getElem?_range hi, Option.map_some, count_indices, List.getD_eq_getElem?_getD, List.getElem?_eq_getElem (by simpa using hi)]
        rfl
      · rw [List.getElem?_eq_none (by simpa using hi), List.getElem?_eq_none (by simpa using hi)]
        rfl

end Verif.Rep
