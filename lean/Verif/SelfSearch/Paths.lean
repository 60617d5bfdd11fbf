import Verif.SelfSearch.Radix
/-! # Lemmas: the other methods -/
namespace Verif.SelfSearch
open Verif HTab

/-! ## answers in terms of the specification -/

theorem along_marks (xs : List Nat) : marks xs = along (fun pre k => decide (k ∉ pre)) [] xs := by
  rw [← along_mapIdx]; simp [marks]

theorem along_occs (xs : List Nat) : occs xs = along (fun pre k => pre.count k) [] xs := by
  rw [← along_mapIdx]; simp [occs]

theorem along_map (F : List Nat → Nat → β) (f : β → γ) : ∀ (xs pre : List Nat),
    (along F pre xs).map f = along (fun p v => f (F p v)) pre xs
  | [], _ => rfl
  | v :: xs, pre => by rw [along, List.map_cons, along_map F f xs, along]

/-- `g` of a table of marks -/
def markG (t : Nat) : Nat := if t = 0 then 1 else 0

theorem ans_marks (xs : List Nat) : (along (ans markG) [] xs).map (fun r => decide (r ≠ 0)) = marks xs := by
  rw [along_map, along_marks]
  congr 1
  funext pre v
  unfold ans markG
  by_cases c : v ∈ pre
  · have := List.count_pos_iff.2 c
    rw [if_neg (by omega)]; simp [c]
  · rw [List.count_eq_zero.2 c]; simp [c]

theorem bmod_small {w : Nat} {v : Int} (h1 : -2^(w-1) ≤ v) (h2 : v < 2^(w-1)) (hw : w ≠ 0) : v.bmod (2^w) = v := by
  obtain ⟨k, rfl⟩ : ∃ k, w = k+1 := ⟨w-1, by omega⟩
  simp only [Nat.add_sub_cancel] at h1 h2
  apply Int.bmod_eq_of_le
  · have : ((2^(k+1) : Nat) : Int) / 2 = 2^k := by
      rw [Nat.pow_succ]; simp
    rw [this]; exact h1
  · have : (((2^(k+1) : Nat) : Int) + 1) / 2 = 2^k := by
      rw [Nat.pow_succ]; simp; omega
    rw [this]; exact h2

theorem bmod32 {v : Int} (h1 : 0 ≤ v) (h2 : v < 2147483648) : v.bmod (2^32) = v :=
  bmod_small (by simp only [Nat.add_one_sub_one, Int.reducePow, Int.reduceNeg]; omega) (by simp only [Int.reducePow, Nat.reduceSub]; omega) (by decide)
theorem bmod16 {v : Int} (h1 : 0 ≤ v) (h2 : v < 32768) : v.bmod (2^16) = v :=
  bmod_small (by simp only [Nat.add_one_sub_one, Int.reducePow, Int.reduceNeg]; omega) (by simp only [Int.reducePow, Nat.reduceSub]; omega) (by decide)
theorem bmod8 {v : Int} (h1 : 0 ≤ v) (h2 : v < 128) : v.bmod (2^8) = v :=
  bmod_small (by simp only [Nat.add_one_sub_one, Int.reducePow, Int.reduceNeg]; omega) (by simp only [Int.reducePow, Nat.reduceSub]; omega) (by decide)

theorem ans_occs (xs : List Nat) (hl : xs.length ≤ 2147483648) :
    (along (ans (fun t => t % M32)) [] xs).map (fun r : Nat => (r : Int).bmod (2^32)) = (occs xs).map fun n : Nat => (n : Int) := by
  rw [along_map, along_occs, along_map]
  apply along_congr
  intro a v b e
  have hc := List.count_le_length (a := v) (l := a)
  have := congrArg List.length e
  simp only [List.nil_append, List.length_append, List.length_cons] at this
  unfold ans
  have : (fun t => t % M32) (a.count v) = a.count v := Nat.mod_eq_of_lt (by unfold M32; omega)
  rw [this]
  exact bmod32 (by omega) (by omega)

/-! ## comparing all pairs -/

theorem range_all (v : Nat) (xs : List Nat) (i : Nat) (hi : i ≤ xs.length) :
    (List.range i).foldl (fun c j => c && decide (some v ≠ xs[j]?)) true = decide (v ∉ xs.take i) := by
  induction i with
  | zero => simp
  | succ i ih =>
    rw [List.range_succ, List.foldl_append, ih (by omega)]
    simp only [List.foldl_cons, List.foldl_nil]
    rw [List.take_add_one]
    rw [List.getElem?_eq_getElem (by omega)]
    by_cases c : v ∈ xs.take i
    · simp only [List.mem_append, c, true_or, not_true_eq_false, decide_false, Bool.false_and]
    · simp only [List.mem_append, c, false_or, not_false_eq_true, decide_true, Bool.true_and, Option.toList_some,
        List.mem_singleton, ne_eq, Option.some.injEq]

theorem bruteMark_eq (xs : List Nat) : bruteMark xs = marks xs := by
  unfold bruteMark marks
  apply List.ext_getElem?
  intro i
  rw [List.getElem?_mapIdx, List.getElem?_mapIdx]
  cases h : xs[i]? with
  | none => rfl
  | some v =>
    have hi := (List.getElem?_eq_some_iff.1 h).1
    simp only [Option.map_some]
    by_cases c : i = 0
    · subst c; simp
    · rw [if_neg c, range_all v xs i (by omega)]

theorem range_count (v : Nat) (xs : List Nat) (i : Nat) (hi : i ≤ xs.length) :
    (List.range i).foldl (fun c j => c + if some v = xs[j]? then 1 else 0) 0 = (xs.take i).count v := by
  induction i with
  | zero => simp
  | succ i ih =>
    rw [List.range_succ, List.foldl_append, ih (by omega)]
    simp only [List.foldl_cons, List.foldl_nil]
    rw [List.take_add_one, List.getElem?_eq_getElem (by omega)]
    simp only [Option.toList_some]
    rw [List.count_append, List.count_singleton]
    by_cases c : v = xs[i]
    · rw [if_pos (by rw [c]), if_pos (by rw [c]; exact beq_self_eq_true _)]
    · rw [if_neg (fun h => c (Option.some.inj h)), if_neg (fun h => c (beq_iff_eq.1 h).symm)]

theorem bruteCount_eq (xs : List Nat) (hl : xs.length ≤ 128) : bruteCount xs = (occs xs).map fun n : Nat => (n : Int) := by
  unfold bruteCount occs
  apply List.ext_getElem?
  intro i
  rw [List.getElem?_mapIdx, List.getElem?_map, List.getElem?_mapIdx]
  cases h : xs[i]? with
  | none => simp only [Option.map_none]
  | some v =>
    have hi := (List.getElem?_eq_some_iff.1 h).1
    simp only [Option.map_some]
    rw [range_count v xs i (by omega)]
    have := List.count_le_length (a := v) (l := xs.take i)
    rw [List.length_take] at this
    rw [bmod8 (by omega) (by omega)]

theorem uniq_fold (v : Nat) : ∀ (uniq : List Nat) (b : Bool) (s : Nat),
    (uniq.foldl (fun (p : Bool × Nat) u => let c := p.1 && decide (v ≠ u); (c, p.2 + if c then 1 else 0)) (b, s)).2 =
      s + if b then uniq.idxOf v else 0
  | [], b, s => by cases b <;> simp
  | u :: uniq, b, s => by
    rw [List.foldl_cons, uniq_fold v uniq]
    cases b with
    | false => simp
    | true =>
      by_cases c : v = u
      · subst c; simp
      · have : (u :: uniq).idxOf v = uniq.idxOf v + 1 := by
          have d : (u == v) = false := beq_eq_false_iff_ne.2 fun h => c h.symm
          rw [List.idxOf_cons, d]; rfl
        simp only [this]
        simp [c]; omega

theorem firsts_le (xs : List Nat) : (firsts xs).length ≤ xs.length := by
  induction xs with
  | nil => exact Nat.le_refl _
  | cons a x ih =>
    rw [firsts, List.length_cons, List.length_cons]
    have := List.length_filter_le (fun b => decide (b ≠ a)) (firsts x)
    omega

theorem class_at (pre xs : List Nat) (v : Nat) :
    (firsts (pre ++ v :: xs)).idxOf v = if v ∈ pre then (firsts pre).idxOf v else (firsts pre).length := by
  have h1 : firsts (pre ++ [v]) <+: firsts (pre ++ v :: xs) := by
    have := firsts_prefix (pre ++ [v]) xs
    rwa [List.append_assoc, List.singleton_append] at this
  rw [idxOf_prefix h1 ((mem_firsts _ _).2 (by simp)), firsts_snoc]
  split
  · rfl
  · rename_i h
    rw [List.idxOf_append, if_neg (fun h' => h ((mem_firsts _ _).1 h'))]
    simp

theorem class_lt (xs : List Nat) {v : Nat} (h : v ∈ xs) : (firsts xs).idxOf v < (firsts xs).length :=
  List.idxOf_lt_length_iff.2 ((mem_firsts _ _).2 h)

theorem bruteClass_eq : ∀ (xs pre : List Nat), (pre ++ xs).length ≤ 128 →
    bruteClass (firsts pre) xs = xs.map fun v => (((firsts (pre ++ xs)).idxOf v : Nat) : Int)
  | [], _, _ => rfl
  | v :: xs, pre, hl => by
    rw [bruteClass]
    simp only []
    rw [uniq_fold, if_pos rfl, Nat.zero_add, List.map_cons, class_at]
    have hx := bruteClass_eq xs (pre ++ [v]) (by simpa using hl)
    rw [List.append_assoc, List.singleton_append, firsts_snoc] at hx
    have hfl := firsts_le pre
    rw [List.length_append, List.length_cons] at hl
    by_cases c : v ∈ pre
    · have h1 := class_lt pre c
      rw [if_pos c] at hx ⊢
      rw [if_neg (by omega), hx, bmod8 (by omega) (by omega)]
    · have h1 : (firsts pre).idxOf v = (firsts pre).length := List.idxOf_eq_length (fun h => c ((mem_firsts _ _).1 h))
      rw [if_neg c] at hx ⊢
      rw [if_pos h1, hx, h1, bmod8 (by omega) (by omega)]

/-! ## tables of classes -/

theorem dotab_spec (n : Nat) (low : Nat → Int) : ∀ (xs pre : List Nat) (tab : Int → Option Int), (pre ++ xs).length = n →
    (∀ v ∈ xs, ∀ w ∈ xs, low v = low w → v = w) →
    (∀ v ∈ xs, tab (low v) = some (if v ∈ pre then (((firsts pre).idxOf v : Nat) : Int) else n)) →
    dotab n low tab (((firsts pre).length : Nat) : Int) xs =
      some (xs.map fun v => (((firsts (pre ++ xs)).idxOf v : Nat) : Int), (((firsts (pre ++ xs)).length : Nat) : Int))
  | [], pre, tab, _, _, _ => by simp [dotab]
  | v :: xs, pre, tab, hn, hi, ht => by
    have hfl := firsts_le pre
    have hlen := hn
    rw [List.length_append, List.length_cons] at hlen
    have hn' : ((pre ++ [v]) ++ xs).length = n := by simpa using hn
    have hi' : ∀ a ∈ xs, ∀ b ∈ xs, low a = low b → a = b :=
      fun a ha b hb => hi a (List.mem_cons_of_mem _ ha) b (List.mem_cons_of_mem _ hb)
    rw [dotab, ht v List.mem_cons_self, Option.bind_some, List.map_cons, class_at]
    by_cases c : v ∈ pre
    · have h1 := class_lt pre c
      have hfs : firsts (pre ++ [v]) = firsts pre := by rw [firsts_snoc, if_pos c]
      have := dotab_spec n low xs (pre ++ [v]) tab hn' hi' (by
        intro w hw
        rw [ht w (List.mem_cons_of_mem _ hw), hfs]
        by_cases d : w ∈ pre
        · simp [d]
        · have : w ≠ v := by rintro rfl; exact d c
          simp [d, this])
      rw [hfs, List.append_assoc, List.singleton_append] at this
      rw [if_pos c, if_pos c, if_neg (by omega), this]
      rfl
    · have hfs : firsts (pre ++ [v]) = firsts pre ++ [v] := by rw [firsts_snoc, if_neg c]
      have hnf : v ∉ firsts pre := fun h => c ((mem_firsts _ _).1 h)
      have := dotab_spec n low xs (pre ++ [v])
        (fun k => if k = low v then some (((firsts pre).length : Nat) : Int) else tab k) hn' hi' (by
        intro w hw
        rw [hfs]
        by_cases d : low w = low v
        · have := hi w (List.mem_cons_of_mem _ hw) v List.mem_cons_self d
          subst this
          simp [List.idxOf_append, hnf]
        · have hwv : w ≠ v := by rintro rfl; exact d rfl
          simp only [if_neg d]
          rw [ht w (List.mem_cons_of_mem _ hw)]
          by_cases e : w ∈ pre
          · simp [e, List.idxOf_append, (mem_firsts pre w).2 e]
          · simp [e, hwv])
      rw [hfs, List.append_assoc, List.singleton_append, List.length_append, List.length_singleton] at this
      rw [if_neg c, if_neg c, if_pos rfl]
      have e : ((((firsts pre).length + 1 : Nat)) : Int) = ((firsts pre).length : Int) + 1 := by omega
      rw [e] at this
      rw [this]
      rfl

theorem reduceBelow_eq {r : List Int} {u : Nat} (h : ∀ v ∈ r, 0 ≤ v ∧ v < u) : reduceBelow r u = r := by
  unfold reduceBelow
  split
  · rw [List.map_congr_left (g := id), List.map_id]
    intro v hv; have := h v hv; show v % 2 = v; omega
  · split
    · rw [List.map_congr_left (g := id), List.map_id]
      intro v hv; have := h v hv; exact bmod8 (by omega) (by omega)
    · split
      · rw [List.map_congr_left (g := id), List.map_id]
        intro v hv; have := h v hv; exact bmod16 (by omega) (by omega)
      · rfl

theorem classes_reduce (xs : List Nat) :
    reduceBelow (xs.map fun v => (((firsts xs).idxOf v : Nat) : Int)) (firsts xs).length = (classes xs).map fun n : Nat => (n : Int) := by
  rw [reduceBelow_eq]
  · unfold classes; rw [List.map_map]; rfl
  · intro r hr
    obtain ⟨v, hv, rfl⟩ := List.mem_map.1 hr
    have := class_lt xs hv
    omega

theorem lookupClass_eq (junk : Nat → Option Nat) (T : Nat) (xs : List Nat) (hx : ∀ v ∈ xs, v < 2^T) (hl : xs.length < 2147483648) :
    lookupClass junk T xs = some ((classes xs).map fun n : Nat => (n : Int)) := by
  unfold lookupClass
  simp only []
  have hm : ∀ v ∈ xs, v % 2^T = v := fun v hv => Nat.mod_eq_of_lt (hx v hv)
  have h := dotab_spec xs.length (fun v => ((v % 2^T : Nat) : Int)) xs []
    (fun k => if 0 ≤ k then (tabInit (8 < T && xs.length < 2^T/16) (2^T) xs.length (· % 2^T) junk xs k.toNat).map
      fun t : Nat => (t : Int).bmod (2^32) else none) rfl
    (fun v hv w hw e => by
      have e : v % 2^T = w % 2^T := Int.ofNat.inj e
      rw [← hm v hv, ← hm w hw]; exact e)
    (fun v hv => by
      have h1 := tabInit_spec (8 < T && xs.length < 2^T/16) (2^T) xs.length (· % 2^T) junk xs
        (fun v _ => Nat.mod_lt _ (Nat.two_pow_pos T)) v hv
      rw [if_pos (Int.natCast_nonneg _), Int.toNat_natCast, h1]
      simp only [Option.map_some]
      rw [bmod32 (by omega) (by omega)]
      simp)
  rw [show ((firsts ([] : List Nat)).length : Int) = 0 from rfl] at h
  rw [h, Option.map_some]
  simp only [List.nil_append, Int.toNat_natCast]
  rw [classes_reduce]

theorem asI32_inj {v w : Nat} (hv : v < M32) (hw : w < M32) (h : asI32 v = asI32 w) : v = w := by
  unfold asI32 at h
  rw [Int.bmod_def, Int.bmod_def] at h
  simp only [Nat.reducePow] at h
  unfold M32 at *
  split at h <;> split at h <;> omega

theorem fold_min : ∀ (xs : List Nat) (m : Int), (∀ v ∈ xs, xs.foldl (fun m v => if asI32 v < m then asI32 v else m) m ≤ asI32 v) ∧
    xs.foldl (fun m v => if asI32 v < m then asI32 v else m) m ≤ m
  | [], m => ⟨by simp, Int.le_refl _⟩
  | x :: xs, m => by
    rw [List.foldl_cons]
    obtain ⟨h1, h2⟩ := fold_min xs (if asI32 x < m then asI32 x else m)
    generalize xs.foldl (fun m v => if asI32 v < m then asI32 v else m) (if asI32 x < m then asI32 x else m) = F at *
    have h3 : F ≤ asI32 x ∧ F ≤ m := by split at h2 <;> omega
    refine ⟨?_, h3.2⟩
    intro v hv
    rcases List.mem_cons.1 hv with rfl | hv
    · exact h3.1
    · exact h1 v hv

theorem fold_max : ∀ (xs : List Nat) (m : Int), (∀ v ∈ xs, asI32 v ≤ xs.foldl (fun m v => if asI32 v > m then asI32 v else m) m) ∧
    m ≤ xs.foldl (fun m v => if asI32 v > m then asI32 v else m) m
  | [], m => ⟨by simp, Int.le_refl _⟩
  | x :: xs, m => by
    rw [List.foldl_cons]
    obtain ⟨h1, h2⟩ := fold_max xs (if asI32 x > m then asI32 x else m)
    generalize xs.foldl (fun m v => if asI32 v > m then asI32 v else m) (if asI32 x > m then asI32 x else m) = F at *
    have h3 : asI32 x ≤ F ∧ m ≤ F := by split at h2 <;> omega
    refine ⟨?_, h3.2⟩
    intro v hv
    rcases List.mem_cons.1 hv with rfl | hv
    · exact h3.1
    · exact h1 v hv

theorem rangeClass_eq (xs : List Nat) (hx : ∀ v ∈ xs, v < M32) (hl : xs.length < 2147483648) (r : Option (List Int))
    (h : rangeClass xs = some r) : r = some ((classes xs).map fun n : Nat => (n : Int)) := by
  unfold rangeClass at h
  simp only [] at h
  have hmin := (fold_min xs 2147483647).1
  have hmax := (fold_max xs (-2147483648)).1
  generalize xs.foldl (fun m v => if asI32 v < m then asI32 v else m) 2147483647 = mn at *
  generalize xs.foldl (fun m v => if asI32 v > m then asI32 v else m) (-2147483648) = mx at *
  split at h
  · have hd := dotab_spec xs.length asI32 xs []
      (fun k => if mn ≤ k ∧ k < mn + (1 + (mx - mn)) then some ((xs.length : Int).bmod (2^32)) else none) rfl
      (fun v hv w hw e => asI32_inj (hx v hv) (hx w hw) e)
      (fun v hv => by
        have h1 := hmin v hv
        have h2 := hmax v hv
        rw [if_pos ⟨h1, by omega⟩, bmod32 (by omega) (by omega)]
        simp)
    rw [show ((firsts ([] : List Nat)).length : Int) = 0 from rfl] at hd
    rw [hd, Option.map_some] at h
    simp only [List.nil_append, Int.toNat_natCast] at h
    rw [classes_reduce] at h
    exact (Option.some.inj h).symm
  · cases h

theorem ctr_fold : ∀ (xs pre : List Nat),
    (xs.map fun v => (firsts (pre ++ xs)).idxOf v).foldl (fun m v => if v = m then m + 1 else m) (firsts pre).length =
      (firsts (pre ++ xs)).length
  | [], pre => by simp
  | v :: xs, pre => by
    rw [List.map_cons, List.foldl_cons, class_at]
    have h := ctr_fold xs (pre ++ [v])
    rw [List.append_assoc, List.singleton_append, firsts_snoc] at h
    by_cases c : v ∈ pre
    · have := class_lt pre c
      rw [if_pos c] at h ⊢
      rw [if_neg (by omega), h]
    · rw [if_neg c, List.length_append, List.length_singleton] at h
      rw [if_neg c, if_pos rfl, h]

theorem hashClass_eq (hash : Nat → Nat) (hh : ∀ k, hash k ≠ 0) (junk : Nat × Nat) (xs : List Nat) (hl : xs.length ≤ 2147483648) :
    hashClass hash junk xs = some ((classes xs).map fun n : Nat => (n : Int)) := by
  unfold hashClass
  rw [classify_hash_eq hash hh, Option.map_some]
  have h1 : (classes xs).foldl (fun m v => if v = m then m + 1 else m) 0 = (firsts xs).length := ctr_fold xs []
  have h2 : ((classes xs).map fun v : Nat => (v : Int).bmod (2^32)) = xs.map fun v => (((firsts xs).idxOf v : Nat) : Int) := by
    unfold classes
    rw [List.map_map]
    apply List.map_congr_left
    intro v hv
    have := class_lt xs hv
    have := firsts_le xs
    rw [Function.comp_apply]
    exact bmod32 (by omega) (by omega)
  rw [h1, h2, classes_reduce]

/-! ## sorted arguments -/

/-- Equal cells are next to each other. -/
def Contig (xs : List Nat) : Prop := ∀ i v, xs[i+1]? = some v → (v ∈ xs.take (i+1) ↔ xs[i]? = some v)

theorem contig_of_sorted {xs : List Nat} {key : Nat → Int} (hk : ∀ a ∈ xs, ∀ b ∈ xs, key a = key b → a = b)
    (hs : xs.Pairwise (fun a b => key a ≤ key b) ∨ xs.Pairwise (fun a b => key a ≥ key b)) : Contig xs := by
  intro i v hv
  obtain ⟨h1, e1⟩ := List.getElem?_eq_some_iff.1 hv
  have hi : i < xs.length := by omega
  constructor
  · intro hm
    obtain ⟨j, hj⟩ := List.getElem?_of_mem hm
    rw [List.getElem?_take] at hj
    split at hj
    · rename_i hlt
      obtain ⟨h2, e2⟩ := List.getElem?_eq_some_iff.1 hj
      rw [List.getElem?_eq_getElem hi]
      congr 1
      apply hk _ (List.getElem_mem _) _ (List.mem_of_getElem? hv)
      by_cases c : j = i
      · subst c; rw [e2]
      · rcases hs with hs | hs
        · have a1 := List.pairwise_iff_getElem.1 hs j i h2 hi (by omega)
          have a2 := List.pairwise_iff_getElem.1 hs i (i+1) hi h1 (by omega)
          rw [e2] at a1; rw [e1] at a2; omega
        · have a1 := List.pairwise_iff_getElem.1 hs j i h2 hi (by omega)
          have a2 := List.pairwise_iff_getElem.1 hs i (i+1) hi h1 (by omega)
          rw [e2] at a1; rw [e1] at a2; omega
    · cases hj
  · intro h
    rw [List.mem_iff_getElem?]
    exact ⟨i, by rw [List.getElem?_take, if_pos (by omega)]; exact h⟩

theorem shiftNe_get (before : Nat) (r0 : Bool) (xs : List Nat) (i : Nat) :
    (shiftNe before r0 xs)[i]? = (if i = 0 then xs[0]?.map fun _ => r0
      else xs[i]?.map fun v => decide (xs[i-1]? ≠ some v)) := by
  unfold shiftNe
  rw [List.getElem?_set]
  cases i with
  | zero =>
    cases xs with
    | nil => simp
    | cons a xs => simp
  | succ i =>
    rw [if_neg (by omega), if_neg (by omega), List.getElem?_zipWith]
    simp only [List.getElem?_cons_succ, Nat.add_sub_cancel]
    cases h : xs[i+1]? with
    | none => cases xs[i]? <;> rfl
    | some v =>
      have := (List.getElem?_eq_some_iff.1 h).1
      rw [List.getElem?_eq_getElem (by omega)]
      simp

theorem marks_get (xs : List Nat) (i : Nat) : (marks xs)[i]? = xs[i]?.map fun v => decide (v ∉ xs.take i) := by
  unfold marks; rw [List.getElem?_mapIdx]

theorem shiftNe_marks (before : Nat) {xs : List Nat} (h : Contig xs) : shiftNe before true xs = marks xs := by
  apply List.ext_getElem?
  intro i
  rw [shiftNe_get, marks_get]
  cases i with
  | zero => simp
  | succ i =>
    rw [if_neg (by omega), Nat.add_sub_cancel]
    cases hv : xs[i+1]? with
    | none => rfl
    | some v =>
      simp only [Option.map_some, Option.some.injEq]
      have := h i v hv
      by_cases c : v ∈ xs.take (i+1)
      · simp [c, this.1 c]
      · have d : xs[i]? ≠ some v := fun e => c (this.2 e)
        simp [c, d]

theorem maxScan_get : ∀ (l : List Nat) (m i a : Nat), l[i+1]? = some a → ∃ t, (maxScan m l)[i]? = some t ∧ (maxScan m l)[i+1]? = some (max t a)
  | [], _, _, _, h => by simp at h
  | [x], _, i, _, h => by simp at h
  | x :: y :: l, m, 0, a, h => by
    have : y = a := by simpa using h
    subst this
    exact ⟨max m x, by simp [maxScan], by simp [maxScan]⟩
  | x :: y :: l, m, i+1, a, h => by
    obtain ⟨t, h1, h2⟩ := maxScan_get (y :: l) (max m x) i a (by simpa using h)
    exact ⟨t, by rw [maxScan, List.getElem?_cons_succ]; exact h1, by rw [maxScan, List.getElem?_cons_succ]; exact h2⟩

theorem sumScan_get : ∀ (l : List Bool) (m i : Nat) (a : Bool), l[i+1]? = some a →
    ∃ t, (sumScan m l)[i]? = some t ∧ (sumScan m l)[i+1]? = some (t + a.toNat)
  | [], _, _, _, h => by simp at h
  | [x], _, i, _, h => by simp at h
  | x :: y :: l, m, 0, a, h => by
    have : y = a := by simpa using h
    subst this
    exact ⟨m + x.toNat, by simp [sumScan], by simp [sumScan]⟩
  | x :: y :: l, m, i+1, a, h => by
    obtain ⟨t, h1, h2⟩ := sumScan_get (y :: l) (m + x.toNat) i a (by simpa using h)
    exact ⟨t, by rw [sumScan, List.getElem?_cons_succ]; exact h1, by rw [sumScan, List.getElem?_cons_succ]; exact h2⟩

theorem maxScan_length : ∀ (l : List Nat) (m : Nat), (maxScan m l).length = l.length
  | [], _ => rfl
  | _ :: l, m => by rw [maxScan, List.length_cons, maxScan_length l, List.length_cons]

theorem sumScan_length : ∀ (l : List Bool) (m : Nat), (sumScan m l).length = l.length
  | [], _ => rfl
  | _ :: l, m => by rw [sumScan, List.length_cons, sumScan_length l, List.length_cons]

theorem marks_length (xs : List Nat) : (marks xs).length = xs.length := by unfold marks; simp

theorem take_succ_some {xs : List Nat} {i v : Nat} (h : xs[i]? = some v) : xs.take (i+1) = xs.take i ++ [v] := by
  rw [List.take_add_one, h]; rfl

theorem sortedCount_eq {xs : List Nat} (h : Contig xs) : sortedCount (marks xs) = (occs xs).map fun n : Nat => (n : Int) := by
  unfold sortedCount
  simp only [marks_length]
  generalize hq : List.zipWith (fun (c : Bool) (i : Nat) => if c then i else 0) (marks xs) (List.range xs.length) = q
  have hql : q.length = xs.length := by rw [← hq, List.length_zipWith, marks_length, List.length_range]; omega
  have hqg : ∀ i v, xs[i]? = some v → q[i]? = some (if v ∈ xs.take i then 0 else i) := by
    intro i v hv
    have hi := (List.getElem?_eq_some_iff.1 hv).1
    rw [← hq, List.getElem?_zipWith, marks_get, hv, List.getElem?_range hi]
    simp only [Option.map_some]
    by_cases c : v ∈ xs.take i <;> simp [c]
  have key : ∀ i v, xs[i]? = some v → ∃ t, (maxScan 0 q)[i]? = some t ∧ t ≤ i ∧ (xs.take i).count v = i - t := by
    intro i
    induction i with
    | zero =>
      intro v hv
      have h1 := hqg 0 v hv
      refine ⟨0, ?_, Nat.le_refl _, by simp⟩
      cases q with
      | nil => simp at h1
      | cons a q =>
        have : a = 0 := by simpa using h1
        subst this
        simp [maxScan]
    | succ i ih =>
      intro v hv
      obtain ⟨hi, _⟩ := List.getElem?_eq_some_iff.1 hv
      obtain ⟨u, hu⟩ : ∃ u, xs[i]? = some u := ⟨xs[i], by simp⟩
      obtain ⟨t, h1, h2, h3⟩ := ih u hu
      obtain ⟨t', h4, h5⟩ := maxScan_get q 0 i _ (hqg (i+1) v hv)
      rw [h1] at h4
      have : t = t' := by simpa using h4
      subst this
      refine ⟨_, h5, ?_⟩
      have hc := h i v hv
      by_cases c : v ∈ xs.take (i+1)
      · have hu' := hc.1 c
        rw [hu] at hu'
        have : u = v := by simpa using hu'
        subst this
        rw [if_pos c, Nat.max_zero, take_succ_some hu, List.count_append, List.count_singleton_self, h3]
        exact ⟨by omega, by omega⟩
      · rw [if_neg c, List.count_eq_zero.2 c]
        exact ⟨by omega, by omega⟩
  apply List.ext_getElem?
  intro i
  rw [List.getElem?_zipWith, List.getElem?_map]
  unfold occs
  rw [List.getElem?_mapIdx]
  cases hv : xs[i]? with
  | none =>
    have : xs.length ≤ i := List.getElem?_eq_none_iff.1 hv
    have h2 : (List.range xs.length)[i]? = none := List.getElem?_eq_none_iff.2 (by simpa using this)
    rw [h2]; rfl
  | some v =>
    have hi := (List.getElem?_eq_some_iff.1 hv).1
    obtain ⟨t, h1, h2, h3⟩ := key i v hv
    rw [List.getElem?_range hi, h1]
    simp only [Option.map_some]
    rw [h3]
    congr 1
    omega

theorem sortedClass_eq (before : Nat) {xs : List Nat} (h : Contig xs) : sumScan 0 (shiftNe before false xs) = classes xs := by
  have hlen : (shiftNe before false xs).length = xs.length := by unfold shiftNe; simp
  have key : ∀ i v, xs[i]? = some v → ∃ t, (sumScan 0 (shiftNe before false xs))[i]? = some t ∧
      (firsts (xs.take (i+1))).idxOf v = t ∧ (firsts (xs.take (i+1))).length = t + 1 := by
    intro i
    induction i with
    | zero =>
      intro v hv
      refine ⟨0, ?_, ?_⟩
      · have h1 : (shiftNe before false xs)[0]? = some false := by rw [shiftNe_get, if_pos rfl, hv]; rfl
        cases hq : shiftNe before false xs with
        | nil => rw [hq] at h1; simp at h1
        | cons a q =>
          rw [hq] at h1
          have : a = false := by simpa using h1
          subst this
          simp [sumScan]
      · rw [take_succ_some hv]; simp [firsts]
    | succ i ih =>
      intro v hv
      obtain ⟨hi, _⟩ := List.getElem?_eq_some_iff.1 hv
      obtain ⟨u, hu⟩ : ∃ u, xs[i]? = some u := ⟨xs[i], by simp⟩
      obtain ⟨t, h1, h2, h3⟩ := ih u hu
      obtain ⟨t', h4, h5⟩ := sumScan_get (shiftNe before false xs) 0 i (decide (xs[i]? ≠ some v)) (by
        rw [shiftNe_get, if_neg (by omega), hv]; rfl)
      rw [h1] at h4
      have : t = t' := by simpa using h4
      subst this
      refine ⟨_, h5, ?_⟩
      have hc := h i v hv
      rw [take_succ_some hv, firsts_snoc]
      by_cases c : v ∈ xs.take (i+1)
      · have hu' := hc.1 c
        rw [hu] at hu'
        have : u = v := by simpa using hu'
        subst this
        rw [if_pos c, hu]
        simp [h2, h3]
      · have d : xs[i]? ≠ some v := fun e => c (hc.2 e)
        have hnf : v ∉ firsts (xs.take (i+1)) := fun h => c ((mem_firsts _ _).1 h)
        rw [if_neg c]
        simp [d, List.idxOf_append, hnf, h3]
  apply List.ext_getElem?
  intro i
  unfold classes
  rw [List.getElem?_map]
  cases hv : xs[i]? with
  | none =>
    have : xs.length ≤ i := List.getElem?_eq_none_iff.1 hv
    rw [List.getElem?_eq_none_iff.2 (by rw [sumScan_length, hlen]; exact this)]; rfl
  | some v =>
    obtain ⟨t, h1, h2, _⟩ := key i v hv
    rw [h1, Option.map_some, ← h2]
    congr 1
    have hp : firsts (xs.take (i+1)) <+: firsts xs := by
      have := firsts_prefix (xs.take (i+1)) (xs.drop (i+1))
      rwa [List.take_append_drop] at this
    rw [idxOf_prefix hp]
    rw [mem_firsts, take_succ_some hv]
    simp

/-! ## one or two different cells -/

theorem marks_same {xs : List Nat} (h : ∀ a ∈ xs, ∀ b ∈ xs, a = b) : (List.replicate xs.length false).set 0 true = marks xs := by
  apply List.ext_getElem?
  intro i
  rw [marks_get, List.getElem?_set]
  cases hv : xs[i]? with
  | none =>
    have := List.getElem?_eq_none_iff.1 hv
    split
    · subst i; rw [if_neg (by simpa using this)]; rfl
    · rw [List.getElem?_replicate, if_neg (by omega)]; rfl
  | some v =>
    have hi := (List.getElem?_eq_some_iff.1 hv).1
    by_cases c : i = 0
    · subst c
      rw [if_pos rfl, if_pos (by simpa using hi)]; simp
    · rw [if_neg (fun h => c h.symm), List.getElem?_replicate, if_pos hi]
      have : v ∈ xs.take i := by
        obtain ⟨u, hu⟩ : ∃ u, xs[0]? = some u := ⟨xs[0], by simp⟩
        rw [h v (List.mem_of_getElem? hv) u (List.mem_of_getElem? hu), List.mem_iff_getElem?]
        exact ⟨0, by rw [List.getElem?_take, if_pos (by omega)]; exact hu⟩
      simp [this]

theorem marks_bits {xs : List Nat} (h : ∀ a ∈ xs, a < 2) (hne : xs ≠ []) :
    ((List.replicate xs.length false).set 0 true).set (xs.idxOf (1 - xs.headD 0)) true = marks xs := by
  apply List.ext_getElem?
  intro i
  rw [marks_get, List.getElem?_set, List.getElem?_set]
  have hx0 : xs[0]? = some (xs.headD 0) := by
    cases xs with
    | nil => exact absurd rfl hne
    | cons a xs => rfl
  have h0 := h _ (List.mem_of_getElem? hx0)
  generalize hq : xs.headD 0 = x0 at *
  have hidx0 : xs.idxOf (1 - x0) ≠ 0 := by
    cases xs with
    | nil => exact absurd rfl hne
    | cons a xs =>
      have : a = x0 := by simpa using hx0
      subst this
      have d : (a == 1 - a) = false := beq_eq_false_iff_ne.2 (by omega)
      rw [List.idxOf_cons, d]
      exact Nat.succ_ne_zero _
  simp only [List.length_set, List.length_replicate]
  cases hv : xs[i]? with
  | none =>
    have := List.getElem?_eq_none_iff.1 hv
    have e : (List.replicate xs.length false)[i]? = none := List.getElem?_eq_none_iff.2 (by simpa using this)
    rw [e]
    split
    · rw [if_neg (by omega)]; rfl
    · split
      · rw [if_neg (by omega)]; rfl
      · rfl
  | some v =>
    have hi := (List.getElem?_eq_some_iff.1 hv).1
    have hv2 := h v (List.mem_of_getElem? hv)
    by_cases c : xs.idxOf (1 - x0) = i
    · rw [if_pos c, if_pos (by omega)]
      have hve : v = 1 - x0 := by
        have := List.getElem_idxOf (x := 1 - x0) (xs := xs) (by omega)
        rw [← c, List.getElem?_eq_getElem (by omega), this] at hv
        exact (Option.some.inj hv).symm
      have : v ∉ xs.take i := by
        rw [← c, hve]
        intro hm
        obtain ⟨j, hj⟩ := List.getElem?_of_mem hm
        rw [List.getElem?_take] at hj
        split at hj
        · rename_i hlt
          have := List.not_of_lt_findIdx (show j < xs.findIdx (· == (1 - x0)) from hlt)
          obtain ⟨hjl, hj⟩ := List.getElem?_eq_some_iff.1 hj
          rw [hj] at this
          simp at this
        · cases hj
      simp [this]
    · rw [if_neg c]
      by_cases d : i = 0
      · subst d
        rw [if_pos rfl, if_pos (by omega)]; simp
      · rw [if_neg (fun h => d h.symm), List.getElem?_replicate, if_pos hi]
        have : v ∈ xs.take i := by
          rw [List.mem_iff_getElem?]
          by_cases e : v = x0
          · exact ⟨0, by rw [List.getElem?_take, if_pos (by omega), hx0, e]⟩
          · have hve : v = 1 - x0 := by omega
            have hmem : (1 - x0) ∈ xs := by rw [← hve]; exact List.mem_of_getElem? hv
            have hlt := List.idxOf_lt_length_iff.2 hmem
            have hle : xs.idxOf (1 - x0) ≤ i := by
              apply Classical.byContradiction
              intro hgt
              have := List.not_of_lt_findIdx (show i < xs.findIdx (· == (1 - x0)) by unfold List.idxOf at hgt; omega)
              obtain ⟨hil, hve'⟩ := List.getElem?_eq_some_iff.1 hv
              rw [hve', hve] at this
              simp at this
            exact ⟨xs.idxOf (1 - x0), by
              rw [List.getElem?_take, if_pos (by omega), List.getElem?_eq_getElem hlt, List.getElem_idxOf, hve]⟩
        simp [this]

theorem countBool_eq (w : Nat) (hw : w ≠ 0) : ∀ (xs pre : List Nat), (∀ a ∈ pre ++ xs, a < 2) → ((pre ++ xs).length : Int) ≤ 2^(w-1) →
    countBool w pre.length (pre.count 1) xs = (along (fun p v => p.count v) pre xs).map fun n : Nat => (n : Int)
  | [], _, _, _ => rfl
  | b :: xs, pre, h, hl => by
    have hb := h b (by simp)
    have hlen : (pre ++ b :: xs).length = pre.length + (xs.length + 1) := by simp
    have hcl := List.count_le_length (a := b) (l := pre)
    have hc01 : pre.count 0 + pre.count 1 = pre.length := by
      have : ∀ l : List Nat, (∀ a ∈ l, a < 2) → l.count 0 + l.count 1 = l.length := by
        intro l
        induction l with
        | nil => intro _; rfl
        | cons a l ih =>
          intro h
          have h1 := ih fun b hb => h b (List.mem_cons_of_mem _ hb)
          have h2 := h a List.mem_cons_self
          rw [List.count_cons, List.count_cons, List.length_cons]
          by_cases c : a = 0
          · subst c; simp; omega
          · have : a = 1 := by omega
            subst this; simp; omega
      exact this pre fun a ha => h a (List.mem_append_left _ ha)
    have ih := countBool_eq w hw xs (pre ++ [b]) (by simpa using h) (by simpa using hl)
    rw [countBool, along, List.map_cons]
    have e1 : (if b = 1 then ((pre.count 1 : Nat) : Int) else ((pre.length : Nat) : Int) - (pre.count 1 : Nat)) = ((pre.count b : Nat) : Int) := by
      by_cases c : b = 1
      · rw [if_pos c, c]
      · have : b = 0 := by omega
        rw [if_neg c, this]; omega
    rw [e1, bmod_small (by have : (0 : Int) < 2^(w-1) := Int.pow_pos (by decide); omega) (by rw [hlen] at hl; omega) hw]
    congr 1
    rw [← ih, List.length_append, List.length_singleton]
    congr 1
    rw [List.count_append, List.count_singleton]
    simp

theorem marks_firsts : ∀ (xs pre : List Nat),
    (((along (fun p k => decide (k ∉ p)) pre xs).zip xs).filter (·.1)).map (·.2) = (firsts xs).filter (fun k => decide (k ∉ pre))
  | [], _ => rfl
  | a :: xs, pre => by
    rw [along, List.zip_cons_cons, firsts, List.filter_cons, List.filter_cons]
    have ih := marks_firsts xs (pre ++ [a])
    have e : (firsts xs).filter (fun k => decide (k ∉ pre ++ [a])) = ((firsts xs).filter (· ≠ a)).filter (fun k => decide (k ∉ pre)) := by
      rw [List.filter_filter]
      apply List.filter_congr
      intro k _
      simp
    rw [e] at ih
    by_cases c : a ∈ pre
    · simp only [c, not_true_eq_false, decide_false]
      simpa using ih
    · simp only [c, not_false_eq_true, decide_true, if_true, List.map_cons]
      congr 1

end Verif.SelfSearch
