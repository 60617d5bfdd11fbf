import Verif.Squeeze.Verdicts
/-!
# Squeezing: sorted arrays, and the functions with flags
-/
namespace Verif.Squeeze
open Verif.Bins (ofInt)

theorem elems_ints {d : Data} (h : d.ty.int = true) : d.elems = d.ints.map fun i => .num (ofInt i) := by
  cases d with
  | bit xs => rw [Data.ints, List.map_map]; rfl
  | i8 xs => rw [Data.ints, List.map_map]; rfl
  | i16 xs => rw [Data.ints, List.map_map]; rfl
  | i32 xs => rw [Data.ints, List.map_map]; rfl
  | _ => exact nomatch h

theorem ints_small {d : Data} : ∀ i ∈ d.ints, -2147483648 ≤ i ∧ i ≤ 2147483647 := by
  intro i hi
  cases d with
  | bit xs => obtain ⟨b, _, rfl⟩ := List.mem_map.1 hi; cases b <;> decide
  | i8 xs => obtain ⟨b, _, rfl⟩ := List.mem_map.1 hi; have := range8 b; omega
  | i16 xs => obtain ⟨b, _, rfl⟩ := List.mem_map.1 hi; have := range16 b; omega
  | i32 xs => obtain ⟨b, _, rfl⟩ := List.mem_map.1 hi; exact range32 b
  | _ => exact nomatch hi

theorem ints_eq_of_sames : ∀ {is js : List Int}, (∀ i ∈ is, -2147483648 ≤ i ∧ i ≤ 2147483647) → (∀ i ∈ js, -2147483648 ≤ i ∧ i ≤ 2147483647) →
    Sames (is.map fun i => .num (ofInt i)) (js.map fun i => .num (ofInt i)) → is = js
  | [], [], _, _, _ => rfl
  | [], _ :: _, _, _, h => nomatch h
  | _ :: _, [], _, _, h => nomatch h
  | i :: is, j :: js, hi, hj, h => by
    cases h with
    | cons a h =>
      have b1 := hi i List.mem_cons_self
      have b2 := hj j List.mem_cons_self
      rw [same_ofInt (by omega) (by omega) a,
        ints_eq_of_sames (fun x hx => hi x (List.mem_cons_of_mem _ hx)) (fun x hx => hj x (List.mem_cons_of_mem _ hx)) h]

theorem self_spec (i : BitVec 32) : (selfI32 i).rank ≤ 3 ∧ ∀ u : El, u.rank ≤ 3 → ((lo u ≤ i.toInt ∧ i.toInt ≤ hi u) ↔ (selfI32 i).rank ≤ u.rank) := by
  have f8 : fits8 i = true ↔ -128 ≤ i.toInt ∧ i.toInt ≤ 127 := by
    unfold fits8
    rw [beq_iff_eq]
    constructor
    · intro h
      have : i.toInt = (i.setWidth 8).toInt := by
        rw (occs := .pos [1]) [h]
        rw [BitVec.toInt_signExtend, show min 32 8 = 8 from rfl, BitVec.toInt_bmod_cancel]
      rw [this]
      exact range8 _
    · intro h
      apply BitVec.eq_of_toInt_eq
      rw [BitVec.toInt_signExtend, show min 32 8 = 8 from rfl, BitVec.toInt_bmod_cancel, ← BitVec.signExtend_eq_setWidth_of_le _ (by decide),
        BitVec.toInt_signExtend, show min 8 32 = 8 from rfl]
      exact (Int.bmod_eq_of_le (by omega) (by omega)).symm
  have f16 : fits16 i = true ↔ -32768 ≤ i.toInt ∧ i.toInt ≤ 32767 := by
    unfold fits16
    rw [beq_iff_eq]
    constructor
    · intro h
      have : i.toInt = (i.setWidth 16).toInt := by
        rw (occs := .pos [1]) [h]
        rw [BitVec.toInt_signExtend, show min 32 16 = 16 from rfl, BitVec.toInt_bmod_cancel]
      rw [this]
      exact range16 _
    · intro h
      apply BitVec.eq_of_toInt_eq
      rw [BitVec.toInt_signExtend, show min 32 16 = 16 from rfl, BitVec.toInt_bmod_cancel, ← BitVec.signExtend_eq_setWidth_of_le _ (by decide),
        BitVec.toInt_signExtend, show min 16 32 = 16 from rfl]
      exact (Int.bmod_eq_of_le (by omega) (by omega)).symm
  have f1 : (i == i &&& 1#32) = true ↔ 0 ≤ i.toInt ∧ i.toInt ≤ 1 := by
    rw [beq_iff_eq]
    have hlt := i.isLt
    have e : (i &&& 1#32).toNat = i.toNat % 2 := by rw [BitVec.toNat_and]; exact Nat.and_one_is_mod _
    have hi : i.toInt = if i.toNat < 2^31 then (i.toNat : Int) else (i.toNat : Int) - 2^32 := by
      rw [BitVec.toInt_eq_toNat_bmod, Int.bmod_def]; split <;> split <;> omega
    constructor
    · intro h
      have := congrArg BitVec.toNat h
      rw [e] at this
      rw [hi]; split <;> omega
    · intro h
      apply BitVec.eq_of_toNat_eq
      rw [e]
      rw [hi] at h
      split at h <;> omega
  have r := range32 i
  unfold selfI32
  by_cases h8 : fits8 i = true
  · rw [if_pos h8]
    rw [f8] at h8
    by_cases h1 : (i == i &&& 1#32) = true
    · rw [if_pos h1]
      rw [f1] at h1
      refine ⟨by decide, fun u hu => ⟨fun _ => Nat.zero_le _, fun _ => ?_⟩⟩
      cases u <;> simp only [lo, hi] <;> first | omega
    · rw [if_neg h1]
      rw [f1] at h1
      refine ⟨by decide, fun u hu => ?_⟩
      cases u <;> simp only [lo, hi, El.rank] at * <;> omega
  · rw [if_neg h8]
    rw [f8] at h8
    by_cases h2 : fits16 i = true
    · rw [if_pos h2]
      rw [f16] at h2
      refine ⟨by decide, fun u hu => ?_⟩
      cases u <;> simp only [lo, hi, El.rank] at * <;> omega
    · rw [if_neg h2]
      rw [f16] at h2
      refine ⟨by decide, fun u hu => ?_⟩
      cases u <;> simp only [lo, hi, El.rank] at * <;> omega

theorem ends_spec {d : Data} (ht : d.ty.int = true) (hb : d.ty ≠ .bit) (hne : d.elems ≠ []) :
    ∃ a b, ends d = some (a, b) ∧ d.ints.head? = some a.toInt ∧ d.ints.getLast? = some b.toInt := by
  have e8 : ∀ x : BitVec 8, (x.signExtend 32).toInt = x.toInt := fun x => by
    rw [BitVec.toInt_signExtend, show min 32 8 = 8 from rfl, BitVec.toInt_bmod_cancel]
  have e16 : ∀ x : BitVec 16, (x.signExtend 32).toInt = x.toInt := fun x => by
    rw [BitVec.toInt_signExtend, show min 32 16 = 16 from rfl, BitVec.toInt_bmod_cancel]
  have last : ∀ {α} (x : α) xs, ∃ y, (x :: xs).getLast? = some y := fun x xs => ⟨_, List.getLast?_cons⟩
  cases d with
  | i8 xs =>
    cases xs with
    | nil => exact absurd rfl hne
    | cons x xs =>
      obtain ⟨y, hy⟩ := last x xs
      refine ⟨x.signExtend 32, y.signExtend 32, ?_, ?_, ?_⟩
      · simp only [ends, List.head?_cons, hy]
      · simp only [Data.ints, List.head?_map, List.head?_cons, Option.map_some, e8]
      · simp only [Data.ints, List.getLast?_map, hy, Option.map_some, e8]
  | i16 xs =>
    cases xs with
    | nil => exact absurd rfl hne
    | cons x xs =>
      obtain ⟨y, hy⟩ := last x xs
      refine ⟨x.signExtend 32, y.signExtend 32, ?_, ?_, ?_⟩
      · simp only [ends, List.head?_cons, hy]
      · simp only [Data.ints, List.head?_map, List.head?_cons, Option.map_some, e16]
      · simp only [Data.ints, List.getLast?_map, hy, Option.map_some, e16]
  | i32 xs =>
    cases xs with
    | nil => exact absurd rfl hne
    | cons x xs =>
      obtain ⟨y, hy⟩ := last x xs
      refine ⟨x, y, ?_, ?_, ?_⟩
      · simp only [ends, List.head?_cons, hy]
      · simp only [Data.ints, List.head?_map, List.head?_cons, Option.map_some]
      · simp only [Data.ints, List.getLast?_map, hy, Option.map_some]
  | bit xs => exact absurd rfl hb
  | _ => exact nomatch ht

theorem between_asc {is : List Int} {a b : Int} (h : is.Pairwise (· ≤ ·)) (ha : is.head? = some a) (hb : is.getLast? = some b) :
    ∀ i ∈ is, a ≤ i ∧ i ≤ b := by
  intro i hi
  constructor
  · cases is with
    | nil => exact nomatch hi
    | cons x xs =>
      cases ha
      rcases List.mem_cons.1 hi with rfl | hi
      · exact Int.le_refl _
      · exact (List.pairwise_cons.1 h).1 i hi
  · obtain ⟨ys, rfl⟩ := List.getLast?_eq_some_iff.1 hb
    rcases List.mem_append.1 hi with hi | hi
    · exact (List.pairwise_append.1 h).2.2 i hi b (by simp)
    · rw [List.mem_singleton.1 hi]; exact Int.le_refl _

theorem between_dsc {is : List Int} {a b : Int} (h : is.Pairwise (· ≥ ·)) (ha : is.head? = some a) (hb : is.getLast? = some b) :
    ∀ i ∈ is, b ≤ i ∧ i ≤ a := by
  intro i hi
  constructor
  · obtain ⟨ys, rfl⟩ := List.getLast?_eq_some_iff.1 hb
    rcases List.mem_append.1 hi with hi | hi
    · exact (List.pairwise_append.1 h).2.2 i hi b (by simp)
    · rw [List.mem_singleton.1 hi]; exact Int.le_refl _
  · cases is with
    | nil => exact nomatch hi
    | cons x xs =>
      cases ha
      rcases List.mem_cons.1 hi with rfl | hi
      · exact Int.le_refl _
      · exact (List.pairwise_cons.1 h).1 i hi

/-- Result of squeezing: the same elements, the least type, and flags that tell the truth. -/
structure Squeezed (x r : Arr) : Prop where
  same : Sames r.data.elems x.data.elems
  least : x.data.elems ≠ [] → Least r.data.ty r.data.elems
  flags : Flags r

theorem Flags.set {x : Arr} (h : Flags x) (hl : x.data.elems = [] ∨ Least x.data.ty x.data.elems) : Flags { x with squoze := true } :=
  ⟨fun _ => hl, h.asc, h.dsc⟩

theorem sorted_spec {bad : BitVec 64 → BitVec 32} {x : Arr} (hf : Flags x) (hs : (x.asc || x.dsc) = true) (ht : x.data.ty.int = true) :
    ∃ r, sorted bad x = some r ∧ Squeezed x r ∧ r.squoze = true := by
  unfold sorted
  by_cases he : x.data.empty = true
  · rw [if_pos he]
    have he := empty_iff.1 he
    exact ⟨_, rfl, ⟨Sames.refl _, fun h => absurd he h, hf.set (.inl he)⟩, rfl⟩
  rw [if_neg he]
  have hne : x.data.elems ≠ [] := fun h => he (empty_iff.2 h)
  by_cases hb : x.data.ty = .bit
  · rw [if_pos hb]
    have hl : Least x.data.ty x.data.elems := by
      refine ⟨elems_hold _, fun u _ => ?_⟩
      rw [hb]; exact Nat.zero_le _
    exact ⟨_, rfl, ⟨Sames.refl _, fun _ => hl, hf.set (.inr hl)⟩, rfl⟩
  rw [if_neg hb]
  obtain ⟨a, b, e1, e2, e3⟩ := ends_spec ht hb hne
  rw [e1]
  dsimp only
  obtain ⟨ra, sa⟩ := self_spec a
  obtain ⟨rb, sb⟩ := self_spec b
  have bet : ∀ i ∈ x.data.ints, (a.toInt ≤ i ∧ i ≤ b.toInt) ∨ (b.toInt ≤ i ∧ i ≤ a.toInt) := by
    rcases Bool.or_eq_true _ _ ▸ hs with h | h
    · exact fun i hi => .inl (between_asc (hf.asc h) e2 e3 i hi)
    · exact fun i hi => .inr (between_dsc (hf.dsc h) e2 e3 i hi)
  generalize hre : (if (selfI32 a).rank > (selfI32 b).rank then selfI32 a else selfI32 b) = re
  have hr : re.rank ≤ 3 ∧ (selfI32 a).rank ≤ re.rank ∧ (selfI32 b).rank ≤ re.rank ∧
      (re.rank = (selfI32 a).rank ∨ re.rank = (selfI32 b).rank) := by
    rw [← hre]; split <;> omega
  obtain ⟨hr3, hra, hrb, hmax⟩ := hr
  have hine : x.data.ints ≠ [] := by intro h; rw [h] at e2; exact nomatch e2
  have hl : Least re x.data.elems := by
    rw [elems_ints ht]
    refine least_ints hr3 hine (fun i hi => ?_) (fun u hu => ?_)
    · have p := (sa re hr3).2 hra
      have q := (sb re hr3).2 hrb
      have := bet i hi
      omega
    · rcases hmax with h | h
      · exact ⟨a.toInt, List.mem_of_mem_head? (by rw [e2]; rfl), fun hc => by have := (sa u (by omega)).1 hc; omega⟩
      · exact ⟨b.toInt, List.mem_of_getLast? e3, fun hc => by have := (sb u (by omega)).1 hc; omega⟩
  by_cases hty : x.data.ty = re
  · rw [if_pos hty]
    have hl' : Least x.data.ty x.data.elems := hty ▸ hl
    exact ⟨_, rfl, ⟨Sames.refl _, fun _ => hl', hf.set (.inr hl')⟩, rfl⟩
  rw [if_neg hty, if_neg]
  · obtain ⟨d', c1, c2, c3⟩ := conv_spec bad hl.1
    rw [c1]
    have hl2 : Least d'.ty d'.elems := c2 ▸ hl.same c3.symm
    have hint : d'.ints = x.data.ints := by
      have hd : d'.ty.int = true := by rw [c2]; exact decide_eq_true hr3
      refine ints_eq_of_sames ints_small ints_small ?_
      rw [← elems_ints ht, ← elems_ints hd]
      exact c3
    exact ⟨_, rfl, ⟨c3, fun _ => hl2, ⟨fun _ => .inr hl2, fun h => hint ▸ hf.asc h, fun h => hint ▸ hf.dsc h⟩⟩, rfl⟩
  · intro h
    have := hl.2 _ (elems_hold x.data)
    subst h
    cases hd : x.data.ty <;> rw [hd] at this hty ht <;> first | exact hty rfl | exact absurd this (by decide) | exact nomatch ht

theorem apply_spec {bad : BitVec 64 → BitVec 32} {x : Arr} (hf : Flags x) {v : Verdict} (h : Right x.data v) (hv : v ≠ .keep) :
    ∃ r, apply bad x v = some r ∧ Squeezed x r ∧ r.squoze = true := by
  cases v with
  | keep => exact absurd rfl hv
  | squeezed => exact ⟨_, rfl, ⟨Sames.refl _, fun _ => h, hf.set (.inr h)⟩, rfl⟩
  | copy t =>
    have h : Least t x.data.elems := h
    obtain ⟨d', c1, c2, c3⟩ := conv_spec bad h.1
    have hl2 : Least d'.ty d'.elems := c2 ▸ h.same c3.symm
    exact ⟨⟨d', true, false, false⟩, by unfold apply; dsimp only; rw [c1]; rfl, ⟨c3, fun _ => hl2, ⟨fun _ => .inr hl2, (fun h => nomatch h), (fun h => nomatch h)⟩⟩, rfl⟩

theorem squeezeB_nokeep {bad : BitVec 64 → BitVec 32} (xs : List Val) : squeezeB bad xs ≠ .keep := by
  have hn : ∀ (vs : List Val) o, squeezeNumB bad true o vs ≠ .keep := by
    intro vs
    induction vs with
    | nil => exact fun _ h => nomatch h
    | cons v vs ih =>
      intro o
      rw [squeezeNumB]
      split
      · exact ih _
      · split
        · exact fun h => nomatch h
        · exact fun h => nomatch h
  have hc : ∀ (vs : List Val) o, squeezeChrB true o vs ≠ .keep := by
    intro vs
    induction vs with
    | nil => exact fun _ h => nomatch h
    | cons v vs ih =>
      intro o
      cases v with
      | chr c => rw [squeezeChrB]; exact ih _
      | num => exact fun h => nomatch h
      | other => exact fun h => nomatch h
  unfold squeezeB
  split
  · exact hn _ _
  · exact hc _ _
  · exact fun h => nomatch h

theorem squeezeF64_nokeep {bad : BitVec 64 → BitVec 32} : ∀ (xs : List (BitVec 64)) o, squeezeF64 bad o xs ≠ .keep
  | [], _ => fun h => nomatch h
  | f :: fs, o => by
    rw [squeezeF64]
    split
    · exact squeezeF64_nokeep fs _
    · exact fun h => nomatch h

theorem squeezeC32_nokeep : ∀ (xs : List (BitVec 32)) o, squeezeC32 o xs ≠ .keep
  | [], _ => fun h => nomatch h
  | f :: fs, o => by
    rw [squeezeC32]
    split
    · exact fun h => nomatch h
    · exact squeezeC32_nokeep fs _

theorem squeezeI8_nokeep (xs : List (BitVec 8)) : squeezeI8 xs ≠ .keep := by
  unfold squeezeI8; split <;> exact fun h => nomatch h
theorem squeezeI16_nokeep (xs : List (BitVec 16)) : squeezeI16 xs ≠ .keep := by
  unfold squeezeI16; dsimp only; split <;> exact fun h => nomatch h
theorem squeezeI32_nokeep (xs : List (BitVec 32)) : squeezeI32 xs ≠ .keep := by
  unfold squeezeI32; dsimp only; split <;> exact fun h => nomatch h
theorem squeezeC16_nokeep (xs : List (BitVec 16)) : squeezeC16 xs ≠ .keep := by
  unfold squeezeC16; split <;> exact fun h => nomatch h

theorem anyFns_nokeep {bad : BitVec 64 → BitVec 32} (d : Data) : anyFns bad d ≠ .keep := by
  cases d with
  | bit xs => exact fun h => nomatch h
  | i8 xs => exact squeezeI8_nokeep xs
  | i16 xs => exact squeezeI16_nokeep xs
  | i32 xs => exact squeezeI32_nokeep xs
  | f64 xs => exact squeezeF64_nokeep xs _
  | c8 xs => exact fun h => nomatch h
  | c16 xs => exact squeezeC16_nokeep xs
  | c32 xs => exact squeezeC32_nokeep xs _
  | B xs => exact squeezeB_nokeep xs

/-- `squeeze_numFns` leaves an array alone only if not all elements are numbers. -/
theorem numFns_keep {bad : BitVec 64 → BitVec 32} {d : Data} (hne : d.elems ≠ []) (h : numFns bad d = .keep) : ¬ ∀ v ∈ d.elems, ∃ f, v = .num f := by
  intro hall
  cases d with
  | bit xs => exact nomatch h
  | i8 xs => exact squeezeI8_nokeep xs h
  | i16 xs => exact squeezeI16_nokeep xs h
  | i32 xs => exact squeezeI32_nokeep xs h
  | f64 xs => exact squeezeF64_nokeep xs _ h
  | c8 xs => exact nomatch h
  | c16 xs =>
    cases xs with
    | nil => exact hne rfl
    | cons x xs => obtain ⟨f, e⟩ := hall _ List.mem_cons_self; exact nomatch e
  | c32 xs =>
    cases xs with
    | nil => exact hne rfl
    | cons x xs => obtain ⟨f, e⟩ := hall _ List.mem_cons_self; exact nomatch e
  | B xs =>
    obtain ⟨fs, _, e⟩ := nums_spec hall
    change xs = _ at e
    subst e
    rcases all_or (qI32 bad) fs with hq | hq
    · have := squeezeNumB_all (b := false) fs 0#32 hq; rw [numFns, this] at h; exact nomatch h
    · have := squeezeNumB_float (b := false) fs 0#32 hq; rw [numFns, this] at h; exact nomatch h

/-- `squeeze_chrFns` leaves an array alone only if not all elements are characters. -/
theorem chrFns_keep {d : Data} (hne : d.elems ≠ []) (h : chrFns d = .keep) : ¬ ∀ v ∈ d.elems, ∃ c, v = .chr c := by
  intro hall
  cases d with
  | bit xs => exact nomatch h
  | c8 xs => exact nomatch h
  | c16 xs => exact squeezeC16_nokeep xs h
  | c32 xs => exact squeezeC32_nokeep xs _ h
  | B xs =>
    obtain ⟨fs, _, e⟩ := chrs_spec hall
    change xs = _ at e
    subst e
    have := squeezeChrB_chrs (b := false) fs 0#32; rw [chrFns, this] at h; exact nomatch h
  | i8 xs =>
    cases xs with
    | nil => exact hne rfl
    | cons x xs => obtain ⟨f, e⟩ := hall _ List.mem_cons_self; exact nomatch e
  | i16 xs =>
    cases xs with
    | nil => exact hne rfl
    | cons x xs => obtain ⟨f, e⟩ := hall _ List.mem_cons_self; exact nomatch e
  | i32 xs =>
    cases xs with
    | nil => exact hne rfl
    | cons x xs => obtain ⟨f, e⟩ := hall _ List.mem_cons_self; exact nomatch e
  | f64 xs =>
    cases xs with
    | nil => exact hne rfl
    | cons x xs => obtain ⟨f, e⟩ := hall _ List.mem_cons_self; exact nomatch e

theorem squeezeAny_spec (bad : BitVec 64 → BitVec 32) {x : Arr} (hf : Flags x) :
    ∃ r, squeezeAny bad x = some r ∧ Squeezed x r ∧ r.squoze = true := by
  unfold squeezeAny
  by_cases hq : x.squoze = true
  · rw [if_pos hq]
    exact ⟨x, rfl, ⟨Sames.refl _, fun h => (hf.squoze hq).resolve_left h, hf⟩, hq⟩
  rw [if_neg hq]
  by_cases hs : ((x.asc || x.dsc) && x.data.ty.int) = true
  · rw [if_pos hs]
    obtain ⟨h1, h2⟩ := Bool.and_eq_true _ _ ▸ hs
    exact sorted_spec hf h1 h2
  rw [if_neg hs]
  by_cases he : x.data.empty = true
  · rw [if_pos he]
    have he := empty_iff.1 he
    exact ⟨_, rfl, ⟨Sames.refl _, fun h => absurd he h, hf.set (.inl he)⟩, rfl⟩
  rw [if_neg he]
  exact apply_spec hf (anyFns_right fun h => he (empty_iff.2 h)) (anyFns_nokeep _)

theorem empty_flags (d : Data) (he : d.elems = []) : Flags ⟨d, false, false, false⟩ :=
  ⟨(fun h => nomatch h), (fun h => nomatch h), (fun h => nomatch h)⟩

/-- Result of squeezing numbers (`p` is "is a number") or characters: as `Squeezed` if all elements qualify,
the stored elements untouched otherwise. -/
structure SqueezedIf (p : Val → Prop) (x r : Arr) : Prop where
  same : Sames r.data.elems x.data.elems
  type : x.data.elems ≠ [] → (∀ v ∈ x.data.elems, p v) → Least r.data.ty r.data.elems
  other : x.data.elems ≠ [] → (¬ ∀ v ∈ x.data.elems, p v) → r.data = x.data ∨ Least r.data.ty r.data.elems
  flags : Flags r

theorem apply_keep {bad : BitVec 64 → BitVec 32} {p : Val → Prop} {x : Arr} (hf : Flags x) {v : Verdict} (h : Right x.data v)
    (hk : v = .keep → ¬ ∀ v ∈ x.data.elems, p v) : ∃ r, apply bad x v = some r ∧ SqueezedIf p x r := by
  by_cases hv : v = .keep
  · subst hv
    exact ⟨x, rfl, Sames.refl _, fun _ ha => absurd ha (hk rfl), fun _ _ => .inl rfl, hf⟩
  · obtain ⟨r, a, b, _⟩ := apply_spec (bad := bad) hf h hv
    exact ⟨r, a, b.same, fun h _ => b.least h, fun h _ => .inr (b.least h), b.flags⟩

theorem Squeezed.toIf {p : Val → Prop} {x r : Arr} (h : Squeezed x r) : SqueezedIf p x r :=
  ⟨h.same, fun a _ => h.least a, fun a _ => .inr (h.least a), h.flags⟩

end Verif.Squeeze
