import Verif.Squeeze.Main
/-!
# Squeezing: properties (C11)

Elements, equality of elements (`Sames`) and the least element type (`Least`) are in `Verif.Squeeze.Spec`;
`Flags x` says that the flags of `x` tell the truth.  `bad` is what a conversion of a double out of range gives,
which C leaves undefined: the theorems hold whatever it is.  A result `some` means that no element is read as
something that it is not.
-/
namespace Verif.Squeeze
open Verif.Bins (ofInt)

/-- `squeeze_any`: the same elements, stored in the least type that can hold all of them. -/
theorem squeeze_any_partial (bad : BitVec 64 → BitVec 32) (x : Arr) (hf : Flags x) :
    ∃ r, squeezeAny bad x = some r ∧ Sames r.data.elems x.data.elems ∧
      (x.data.elems ≠ [] → Least r.data.ty r.data.elems) ∧ r.squoze = true ∧ Flags r := by
  obtain ⟨r, e, h, q⟩ := squeezeAny_spec bad hf
  exact ⟨r, e, h.same, h.least, q, h.flags⟩

-- `⟨1.0, 0.0, -0.0⟩` as doubles becomes three bits; with `300.0` it becomes 16-bit, with 0.5 it stays.
example : squeezeAny (fun _ => 0) ⟨.f64 [0x3FF0000000000000, 0, 0x8000000000000000], false, false, false⟩ =
    some ⟨.bit [true, false, false], true, false, false⟩ := by decide +kernel
example : squeezeAny (fun _ => 0) ⟨.f64 [0x4072C00000000000, 0x3FF0000000000000], false, false, false⟩ =
    some ⟨.i16 [300, 1], true, false, false⟩ := by decide +kernel
example : squeezeAny (fun _ => 0) ⟨.f64 [0x3FE0000000000000, 0x3FF0000000000000], false, false, false⟩ =
    some ⟨.f64 [0x3FE0000000000000, 0x3FF0000000000000], true, false, false⟩ := by decide +kernel
-- An ascending array of 32-bit integers, by its ends.
example : squeezeAny (fun _ => 0) ⟨.i32 [-1, 0, 127], false, true, false⟩ = some ⟨.i8 [-1, 0, 127], true, true, false⟩ := by decide +kernel
example : Flags ⟨.i32 [-1, 0, 127], false, true, false⟩ :=
  ⟨(fun h => nomatch h), (fun _ => by decide), (fun h => nomatch h)⟩
-- A generic array of characters.
example : squeezeAny (fun _ => 0) ⟨.B [.chr 97, .chr 955], false, false, false⟩ = some ⟨.c16 [97, 955], true, false, false⟩ := by decide +kernel
-- The type of 40000 and 1 is the 32-bit one.
example : Least .i32 [.num (ofInt 40000), .num (ofInt 1)] :=
  least_ints (t := .i32) (is := [40000, 1]) (by decide) (by decide) (by decide)
    (fun u hu => ⟨40000, by decide, by cases u <;> first | decide | exact absurd hu (by decide)⟩)

/-- `squeeze_numNew`: an array of numbers gets the least type; one with other elements keeps its elements; an
empty one becomes an empty array of bits. -/
theorem squeeze_num_new (bad : BitVec 64 → BitVec 32) (x : Arr) (hf : Flags x) :
    ∃ r, squeezeNumNew bad x = some r ∧ Sames r.data.elems x.data.elems ∧ Flags r ∧
      (x.data.elems = [] → r.data.ty = .bit) ∧
      (x.data.elems ≠ [] → (∀ v ∈ x.data.elems, ∃ f, v = .num f) → Least r.data.ty r.data.elems) := by
  unfold squeezeNumNew
  by_cases he : x.data.empty = true
  · rw [if_pos he]
    have he := empty_iff.1 he
    by_cases hb : x.data.ty = .bit
    · rw [if_pos hb]; exact ⟨x, rfl, Sames.refl _, hf, fun _ => hb, fun h => absurd he h⟩
    · rw [if_neg hb]
      exact ⟨_, rfl, he ▸ Sames.nil, empty_flags _ rfl, fun _ => rfl, fun h => absurd he h⟩
  · rw [if_neg he]
    have hne : x.data.elems ≠ [] := fun h => he (empty_iff.2 h)
    obtain ⟨r, e, h⟩ := apply_keep (bad := bad) (p := fun v => ∃ f, v = .num f) hf (numFns_right hne) (numFns_keep (bad := bad) hne)
    exact ⟨r, e, h.same, h.flags, fun h => absurd h hne, h.type⟩

example : squeezeNumNew (fun _ => 0) ⟨.B [.num (ofInt (-200)), .num (ofInt 7)], false, false, false⟩ =
    some ⟨.i16 [-200, 7], true, false, false⟩ := by decide +kernel
example : squeezeNumNew (fun _ => 0) ⟨.B [.num (ofInt 1), .chr 97], false, false, false⟩ =
    some ⟨.B [.num (ofInt 1), .chr 97], false, false, false⟩ := by decide +kernel

/-- `squeeze_chrNew`. -/
theorem squeeze_chr_new (bad : BitVec 64 → BitVec 32) (x : Arr) (hf : Flags x) :
    ∃ r, squeezeChrNew bad x = some r ∧ Sames r.data.elems x.data.elems ∧ Flags r ∧
      (x.data.elems = [] → r.data.ty = .c8) ∧
      (x.data.elems ≠ [] → (∀ v ∈ x.data.elems, ∃ c, v = .chr c) → Least r.data.ty r.data.elems) := by
  unfold squeezeChrNew
  by_cases he : x.data.empty = true
  · rw [if_pos he]
    have he := empty_iff.1 he
    by_cases hb : x.data.ty = .c8
    · rw [if_pos hb]; exact ⟨x, rfl, Sames.refl _, hf, fun _ => hb, fun h => absurd he h⟩
    · rw [if_neg hb]
      exact ⟨_, rfl, he ▸ Sames.nil, empty_flags _ rfl, fun _ => rfl, fun h => absurd he h⟩
  · rw [if_neg he]
    have hne : x.data.elems ≠ [] := fun h => he (empty_iff.2 h)
    obtain ⟨r, e, h⟩ := apply_keep (bad := bad) (p := fun v => ∃ c, v = .chr c) hf (chrFns_right hne) (chrFns_keep hne)
    exact ⟨r, e, h.same, h.flags, fun h => absurd h hne, h.type⟩

example : squeezeChrNew (fun _ => 0) ⟨.c32 [97, 255], false, false, false⟩ = some ⟨.c8 [97, 255], true, false, false⟩ := by decide +kernel
example : squeezeChrNew (fun _ => 0) ⟨.c32 [97, 256], false, false, false⟩ = some ⟨.c16 [97, 256], true, false, false⟩ := by decide +kernel

/-- `squeeze_numTry`, which uses the flags. -/
theorem squeeze_num_try_partial (bad : BitVec 64 → BitVec 32) (x : Arr) (hf : Flags x) :
    ∃ r, squeezeNumTry bad x = some r ∧ Sames r.data.elems x.data.elems ∧ Flags r ∧
      (x.data.elems = [] → r.data.ty = .bit) ∧
      (x.data.elems ≠ [] → (∀ v ∈ x.data.elems, ∃ f, v = .num f) → Least r.data.ty r.data.elems) := by
  unfold squeezeNumTry
  by_cases he : x.data.empty = true
  · rw [if_pos he]
    have he := empty_iff.1 he
    by_cases hb : x.data.ty = .bit
    · rw [if_pos hb]; exact ⟨x, rfl, Sames.refl _, hf, fun _ => hb, fun h => absurd he h⟩
    · rw [if_neg hb]
      exact ⟨_, rfl, he ▸ Sames.nil, empty_flags _ rfl, fun _ => rfl, fun h => absurd he h⟩
  rw [if_neg he]
  have hne : x.data.elems ≠ [] := fun h => he (empty_iff.2 h)
  by_cases hq : x.squoze = true
  · rw [if_pos hq]
    exact ⟨x, rfl, Sames.refl _, hf, fun h => absurd h hne, fun h _ => (hf.squoze hq).resolve_left h⟩
  rw [if_neg hq]
  by_cases hs : ((x.asc || x.dsc) && x.data.ty.int) = true
  · rw [if_pos hs]
    obtain ⟨h1, h2⟩ := Bool.and_eq_true _ _ ▸ hs
    obtain ⟨r, e, h, _⟩ := sorted_spec (bad := bad) hf h1 h2
    exact ⟨r, e, h.same, h.flags, fun h => absurd h hne, fun a _ => h.least a⟩
  rw [if_neg hs]
  obtain ⟨r, e, h⟩ := apply_keep (bad := bad) (p := fun v => ∃ f, v = .num f) hf (numFns_right hne) (numFns_keep (bad := bad) hne)
  exact ⟨r, e, h.same, h.flags, fun h => absurd h hne, h.type⟩

example : squeezeNumTry (fun _ => 0) ⟨.i32 [40000, 7, 7], false, false, true⟩ = some ⟨.i32 [40000, 7, 7], true, false, true⟩ := by decide +kernel
example : squeezeNumTry (fun _ => 0) ⟨.c16 [], true, false, false⟩ = some ⟨.bit [], false, false, false⟩ := by decide +kernel

/-- `squeeze_chrTry`, which uses the flags. -/
theorem squeeze_chr_try_partial (bad : BitVec 64 → BitVec 32) (x : Arr) (hf : Flags x) :
    ∃ r, squeezeChrTry bad x = some r ∧ Sames r.data.elems x.data.elems ∧ Flags r ∧
      (x.data.elems = [] → x.squoze = false → r.data.ty = .c8) ∧
      (x.data.elems ≠ [] → (∀ v ∈ x.data.elems, ∃ c, v = .chr c) → Least r.data.ty r.data.elems) := by
  unfold squeezeChrTry
  by_cases hq : x.squoze = true
  · rw [if_pos hq]
    exact ⟨x, rfl, Sames.refl _, hf, (fun _ h => by rw [h] at hq; cases hq), fun h _ => (hf.squoze hq).resolve_left h⟩
  rw [if_neg hq]
  by_cases he : x.data.empty = true
  · rw [if_pos he]
    have he := empty_iff.1 he
    by_cases hb : x.data.ty = .c8
    · rw [if_pos hb]; exact ⟨x, rfl, Sames.refl _, hf, fun _ _ => hb, fun h => absurd he h⟩
    · rw [if_neg hb]
      exact ⟨_, rfl, he ▸ Sames.nil, empty_flags _ rfl, fun _ _ => rfl, fun h => absurd he h⟩
  rw [if_neg he]
  have hne : x.data.elems ≠ [] := fun h => he (empty_iff.2 h)
  obtain ⟨r, e, h⟩ := apply_keep (bad := bad) (p := fun v => ∃ c, v = .chr c) hf (chrFns_right hne) (chrFns_keep hne)
  exact ⟨r, e, h.same, h.flags, fun h => absurd h hne, h.type⟩

example : squeezeChrTry (fun _ => 0) ⟨.B [.chr 97, .chr 0x1F600], false, false, false⟩ = some ⟨.c32 [97, 0x1F600], true, false, false⟩ := by decide +kernel

/-- `squeeze_chrTry` of an empty array with `fl_squoze` keeps any type, although other empty arrays become arrays
of characters (harmless: an empty array has no elements to misread). -/
theorem squeeze_chr_try_empty (bad : BitVec 64 → BitVec 32) :
    squeezeChrTry bad ⟨.f64 [], true, false, false⟩ = some ⟨.f64 [], true, false, false⟩ := rfl

end Verif.Squeeze
