import Verif.Match.Typed
/-!
# Comparison of typed arrays: every pair of types
-/
namespace Verif.Match
open Verif.Squeeze (Val El Data Arr feq)
open Verif.Bits (Word bitF)
open Verif.Bins (ofInt)

/-- A number of a signed type at index `i`. -/
theorem rdI_elem {x : Data} {i : Nat} {v : Val} (ht : x.ty = .i8 ∨ x.ty = .i16 ∨ x.ty = .i32) (h : x.elems[i]? = some v) :
    ∃ n : Int, rdI x.ty x i = some n ∧ v = .num (ofInt n) ∧ n.natAbs < 2^53 := by
  cases x with
  | i8 xs => obtain ⟨a, e, rfl⟩ := hit h; exact ⟨a.toInt, by simp [rdI, Data.ty, e], rfl, small8 a⟩
  | i16 xs => obtain ⟨a, e, rfl⟩ := hit h; exact ⟨a.toInt, by simp [rdI, Data.ty, e], rfl, small16 a⟩
  | i32 xs => obtain ⟨a, e, rfl⟩ := hit h; exact ⟨a.toInt, by simp [rdI, Data.ty, e], rfl, small32 a⟩
  | _ => simp [Data.ty] at ht

theorem zext_toNat {n : Nat} (hn : n ≤ 32) (a : BitVec n) : (a.zeroExtend 32).toNat = a.toNat := by
  rw [BitVec.toNat_setWidth]
  exact Nat.mod_eq_of_lt (Nat.lt_of_lt_of_le a.isLt (Nat.pow_le_pow_right (by omega) hn))

/-- A character at index `i`. -/
theorem rdU_elem {x : Data} {i : Nat} {v : Val} (ht : x.ty = .c8 ∨ x.ty = .c16 ∨ x.ty = .c32) (h : x.elems[i]? = some v) :
    ∃ c : BitVec 32, rdU x.ty x i = some c.toNat ∧ v = .chr c := by
  cases x with
  | c8 xs => obtain ⟨a, e, rfl⟩ := hit h; exact ⟨a.zeroExtend 32, by simp only [rdU, Data.ty, e, Option.map_some, zext_toNat (by omega : 8 ≤ 32)], rfl⟩
  | c16 xs => obtain ⟨a, e, rfl⟩ := hit h; exact ⟨a.zeroExtend 32, by simp only [rdU, Data.ty, e, Option.map_some, zext_toNat (by omega : 16 ≤ 32)], rfl⟩
  | c32 xs => obtain ⟨a, e, rfl⟩ := hit h; exact ⟨a, by simp [rdU, Data.ty, e], rfl⟩
  | _ => simp [Data.ty] at ht

theorem atomEq_chr (r : Bool) (c d : BitVec 32) : atomEq r (.chr c) (.chr d) = decide (c.toNat = d.toNat) := by
  rw [Bool.eq_iff_iff, decide_eq_true_iff]
  simp only [atomEq, beq_iff_eq]
  exact ⟨fun h => h ▸ rfl, BitVec.eq_of_toNat_eq⟩

section
variable {r : Bool} {w x : Data} {tw tx : Nat → Word} {l : Nat}

/-- What has to be shown of each entry of the table. -/
abbrev Right (r : Bool) (w x : Data) (tw tx : Nat → Word) (l : Nat) (fn : Fn) (d : Nat) : Prop :=
  ∃ b, call fn d w tw x tx l = some b ∧ Tells r w.elems x.elems b

theorem right_s (hw : w.elems.length = l) (hx : x.elems.length = l) (tyw : w.ty = .i8 ∨ w.ty = .i16 ∨ w.ty = .i32)
    (tyx : x.ty = .i8 ∨ x.ty = .i16 ∨ x.ty = .i32) : Right r w x tw tx l (.s w.ty x.ty) 0 :=
  loop_tells hw hx fun i u v hu hv => by
    obtain ⟨m, e1, rfl, s1⟩ := rdI_elem tyw hu
    obtain ⟨n, e2, rfl, s2⟩ := rdI_elem tyx hv
    simp only [ne_eq, not_true, if_false, e1, e2, Option.bind_some, Option.map_some, atomEq_int r s1 s2]

theorem right_s' (hw : w.elems.length = l) (hx : x.elems.length = l) (tyw : w.ty = .i8 ∨ w.ty = .i16 ∨ w.ty = .i32)
    (tyx : x.ty = .i8 ∨ x.ty = .i16 ∨ x.ty = .i32) : Right r w x tw tx l (.s x.ty w.ty) 1 :=
  loop_tells hw hx fun i u v hu hv => by
    obtain ⟨m, e1, rfl, s1⟩ := rdI_elem tyw hu
    obtain ⟨n, e2, rfl, s2⟩ := rdI_elem tyx hv
    simp only [ne_eq, Nat.one_ne_zero, not_false_eq_true, if_true, e1, e2, Option.bind_some, Option.map_some]
    rw [atomEq_comm, atomEq_int r s2 s1]

theorem right_u (hw : w.elems.length = l) (hx : x.elems.length = l) (tyw : w.ty = .c8 ∨ w.ty = .c16 ∨ w.ty = .c32)
    (tyx : x.ty = .c8 ∨ x.ty = .c16 ∨ x.ty = .c32) : Right r w x tw tx l (.u w.ty x.ty) 0 :=
  loop_tells hw hx fun i u v hu hv => by
    obtain ⟨m, e1, rfl⟩ := rdU_elem tyw hu
    obtain ⟨n, e2, rfl⟩ := rdU_elem tyx hv
    simp only [ne_eq, not_true, if_false, e1, e2, Option.bind_some, Option.map_some, atomEq_chr]

theorem right_u' (hw : w.elems.length = l) (hx : x.elems.length = l) (tyw : w.ty = .c8 ∨ w.ty = .c16 ∨ w.ty = .c32)
    (tyx : x.ty = .c8 ∨ x.ty = .c16 ∨ x.ty = .c32) : Right r w x tw tx l (.u x.ty w.ty) 1 :=
  loop_tells hw hx fun i u v hu hv => by
    obtain ⟨m, e1, rfl⟩ := rdU_elem tyw hu
    obtain ⟨n, e2, rfl⟩ := rdU_elem tyx hv
    simp only [ne_eq, Nat.one_ne_zero, not_false_eq_true, if_true, e1, e2, Option.bind_some, Option.map_some]
    rw [atomEq_comm, atomEq_chr]

theorem right_sf {fs : List (BitVec 64)} (hw : w.elems.length = l) (hx : (Data.f64 fs).elems.length = l)
    (tyw : w.ty = .i8 ∨ w.ty = .i16 ∨ w.ty = .i32) : Right r w (.f64 fs) tw tx l (.sf w.ty) 0 :=
  loop_tells hw hx fun i u v hu hv => by
    obtain ⟨m, e1, rfl, s1⟩ := rdI_elem tyw hu
    obtain ⟨f, e2, rfl⟩ := hit hv
    simp only [ne_eq, not_true, if_false, e1, rdF, e2, Option.bind_some, Option.map_some, atomEq_intF r s1]

theorem right_sf' {fs : List (BitVec 64)} (hw : (Data.f64 fs).elems.length = l) (hx : x.elems.length = l)
    (tyx : x.ty = .i8 ∨ x.ty = .i16 ∨ x.ty = .i32) : Right r (.f64 fs) x tw tx l (.sf x.ty) 1 :=
  loop_tells hw hx fun i u v hu hv => by
    obtain ⟨m, e1, rfl, s1⟩ := rdI_elem tyx hv
    obtain ⟨f, e2, rfl⟩ := hit hu
    simp only [ne_eq, Nat.one_ne_zero, not_false_eq_true, if_true, e1, rdF, e2, Option.bind_some, Option.map_some]
    rw [atomEq_comm, atomEq_intF r s1]

theorem right_1 {bs : List Bool} (hw : (Data.bit bs).elems.length = l) (hx : x.elems.length = l)
    (tyx : x.ty = .i8 ∨ x.ty = .i16 ∨ x.ty = .i32) : Right r (.bit bs) x tw tx l (.f1 x.ty) 0 :=
  loop_tells hw hx fun i u v hu hv => by
    obtain ⟨m, e1, rfl, s1⟩ := rdI_elem tyx hv
    obtain ⟨b, e2, rfl⟩ := hit hu
    have hf : x.ty ≠ .f64 := by rcases tyx with h | h | h <;> rw [h] <;> decide
    simp only [ne_eq, not_true, if_false, hf, wordsOf_bit bs tw i e2, e1, Option.map_some, atomEq_int r (small1 b) s1]

theorem right_1' {bs : List Bool} (hw : w.elems.length = l) (hx : (Data.bit bs).elems.length = l)
    (tyw : w.ty = .i8 ∨ w.ty = .i16 ∨ w.ty = .i32) : Right r w (.bit bs) tw tx l (.f1 w.ty) 1 :=
  loop_tells hw hx fun i u v hu hv => by
    obtain ⟨m, e1, rfl, s1⟩ := rdI_elem tyw hu
    obtain ⟨b, e2, rfl⟩ := hit hv
    have hf : w.ty ≠ .f64 := by rcases tyw with h | h | h <;> rw [h] <;> decide
    simp only [ne_eq, Nat.one_ne_zero, not_false_eq_true, if_true, if_false, hf, wordsOf_bit bs tx i e2, e1, Option.map_some]
    rw [atomEq_comm, atomEq_int r (small1 b) s1]

theorem right_1f {bs : List Bool} {fs : List (BitVec 64)} (hw : (Data.bit bs).elems.length = l) (hx : (Data.f64 fs).elems.length = l) :
    Right r (.bit bs) (.f64 fs) tw tx l (.f1 .f64) 0 :=
  loop_tells hw hx fun i u v hu hv => by
    obtain ⟨f, e1, rfl⟩ := hit hv
    obtain ⟨b, e2, rfl⟩ := hit hu
    simp only [ne_eq, not_true, if_false, if_true, wordsOf_bit bs tw i e2, rdF, e1, Option.map_some, atomEq_intF r (small1 b)]

theorem right_1f' {bs : List Bool} {fs : List (BitVec 64)} (hw : (Data.f64 fs).elems.length = l) (hx : (Data.bit bs).elems.length = l) :
    Right r (.f64 fs) (.bit bs) tw tx l (.f1 .f64) 1 :=
  loop_tells hw hx fun i u v hu hv => by
    obtain ⟨f, e1, rfl⟩ := hit hu
    obtain ⟨b, e2, rfl⟩ := hit hv
    simp only [ne_eq, Nat.one_ne_zero, not_false_eq_true, if_true, wordsOf_bit bs tx i e2, rdF, e1, Option.map_some]
    rw [atomEq_comm, atomEq_intF r (small1 b)]

theorem right_ff {fs gs : List (BitVec 64)} (hw : (Data.f64 fs).elems.length = l) (hx : (Data.f64 gs).elems.length = l) :
    Right r (.f64 fs) (.f64 gs) tw tx l (if r then .ffR else .ff) 0 := by
  cases r
  · exact loop_tells hw hx fun i u v hu hv => by
      obtain ⟨f, e1, rfl⟩ := hit hu
      obtain ⟨g, e2, rfl⟩ := hit hv
      simp [rdF, e1, e2, atomEq]
  · exact loop_tells hw hx fun i u v hu hv => by
      obtain ⟨f, e1, rfl⟩ := hit hu
      obtain ⟨g, e2, rfl⟩ := hit hv
      simp [rdF, e1, e2, atomEq]

theorem int_iff (r : Bool) {n : Nat} (hn : ∀ a : BitVec n, a.toInt.natAbs < 2^53) (a b : BitVec n) :
    atomEq r (.num (ofInt a.toInt)) (.num (ofInt b.toInt)) = true ↔ a = b := by
  rw [atomEq_int r (hn a) (hn b), decide_eq_true_iff]
  exact ⟨BitVec.eq_of_toInt_eq, fun h => h ▸ rfl⟩

theorem chr_iff (r : Bool) {n : Nat} (hn : n ≤ 32) (a b : BitVec n) :
    atomEq r (.chr (a.zeroExtend 32)) (.chr (b.zeroExtend 32)) = true ↔ a = b := by
  rw [atomEq_chr, decide_eq_true_iff, zext_toNat hn, zext_toNat hn]
  exact ⟨BitVec.eq_of_toNat_eq, fun h => h ▸ rfl⟩

theorem right_88 {n d : Nat} {xs ys : List (BitVec n)} {f : BitVec n → Val} (hd : n = 8 * 2^d) (hx : xs.length = l) (hy : ys.length = l)
    (hf : ∀ a b, atomEq r (f a) (f b) = true ↔ a = b) {m : Nat} (hm : m = 2^d) :
    ∃ b, (loop (l <<< d) 0 fun i => (xs.flatMap (le m))[i]?.bind fun a => (ys.flatMap (le m))[i]?.map fun b => a == b) = some b ∧
      Tells r (xs.map f) (ys.map f) b := by
  obtain ⟨b, e, hb⟩ := f88_spec hd hx hy hm
  exact ⟨b, e, tells_of_eq (hx.trans hy.symm) hf hb⟩

theorem right_11 {ws xs : List Bool} (hl : l < 2^64) (hw : ws.length = l) (hx : xs.length = l) :
    Right r (.bit ws) (.bit xs) tw tx l .f11 0 := by
  refine ⟨_, rfl, tells_of_eq (hw.trans hx.symm) (fun a b => ?_) ?_⟩
  · rw [atomEq_int r (small1 a) (small1 b), decide_eq_true_iff]
    cases a <;> cases b <;> decide
  · rw [equal11_spec _ _ _ hl]
    constructor
    · intro h
      apply List.ext_getElem?
      intro k
      by_cases hk : k < l
      · have a : ws[k]? = some ws[k] := List.getElem?_eq_getElem (by omega)
        have b : xs[k]? = some xs[k] := List.getElem?_eq_getElem (by omega)
        have := h k hk
        rw [wordsOf_bit ws tw k a, wordsOf_bit xs tx k b] at this
        rw [a, b, this]
      · rw [List.getElem?_eq_none (by omega), List.getElem?_eq_none (by omega)]
    · rintro rfl k hk
      have a : ws[k]? = some ws[k] := List.getElem?_eq_getElem (by omega)
      rw [wordsOf_bit ws tw k a, wordsOf_bit ws tx k a]

/-- Numbers and characters never match. -/
theorem right_ne (hl : 0 < l) (hw : w.elems.length = l) (hx : x.elems.length = l) (d : Nat)
    (h : ∀ u ∈ w.elems, ∀ v ∈ x.elems, atomEq r u v = false) : Right r w x tw tx l .notEq d := by
  refine ⟨false, rfl, ?_⟩
  simp only [Tells, Bool.false_eq_true, false_iff]
  intro a
  have hu : w.elems[0]? = some w.elems[0] := List.getElem?_eq_getElem (by omega)
  have hv : x.elems[0]? = some x.elems[0] := List.getElem?_eq_getElem (by omega)
  have := a 0 _ _ hu hv
  rw [h _ (List.getElem_mem _) _ (List.getElem_mem _)] at this
  cases this

theorem num_chr {us vs : List Val} (hu : ∀ u ∈ us, ∃ f, u = .num f) (hv : ∀ v ∈ vs, ∃ c, v = .chr c) :
    ∀ u ∈ us, ∀ v ∈ vs, atomEq r u v = false := by
  intro u h v g
  obtain ⟨f, rfl⟩ := hu u h
  obtain ⟨c, rfl⟩ := hv v g
  rfl

theorem chr_num {us vs : List Val} (hu : ∀ u ∈ us, ∃ c, u = .chr c) (hv : ∀ v ∈ vs, ∃ f, v = .num f) :
    ∀ u ∈ us, ∀ v ∈ vs, atomEq r u v = false := by
  intro u h v g
  obtain ⟨f, rfl⟩ := hu u h
  obtain ⟨c, rfl⟩ := hv v g
  rfl

theorem is_num {d : Data} (hd : d.ty.rank ≤ 4) : ∀ u ∈ d.elems, ∃ f, u = .num f := by
  intro u hu
  cases d <;> simp only [Data.elems, List.mem_map] at hu <;>
    first
    | (obtain ⟨a, _, e⟩ := hu; exact ⟨_, e.symm⟩)
    | simp [Data.ty, El.rank] at hd

theorem is_chr {d : Data} (hd : 5 ≤ d.ty.rank) (hd2 : d.ty ≠ .B) : ∀ u ∈ d.elems, ∃ c, u = .chr c := by
  intro u hu
  cases d <;> simp only [Data.elems, List.mem_map] at hu <;>
    first
    | exact absurd rfl hd2
    | (obtain ⟨a, _, e⟩ := hu; exact ⟨_, e.symm⟩)
    | simp [Data.ty, El.rank] at hd

theorem right_nc (hl : 0 < l) (hw : w.elems.length = l) (hx : x.elems.length = l) (tw' : w.ty.rank ≤ 4) (tx' : 5 ≤ x.ty.rank)
    (nx : x.ty ≠ .B) : Right r w x tw tx l .notEq 99 := right_ne hl hw hx 99 (num_chr (is_num tw') (is_chr tx' nx))

theorem right_cn (hl : 0 < l) (hw : w.elems.length = l) (hx : x.elems.length = l) (tw' : 5 ≤ w.ty.rank) (nw : w.ty ≠ .B)
    (tx' : x.ty.rank ≤ 4) : Right r w x tw tx l .notEq 99 := right_ne hl hw hx 99 (chr_num (is_chr tw' nw) (is_num tx'))

/-- The entry of the tables for any two types other than the generic one is right. -/
theorem typed_right (hl : 0 < l) (hb : l < 2^64) (hw : w.elems.length = l) (hx : x.elems.length = l) (nw : w.ty ≠ .B) (nx : x.ty ≠ .B) :
    ∃ b, matchTyped r w tw x tx l = some b ∧ Tells r w.elems x.elems b := by
  have el : ∀ {α : Type} (xs : List α) (f : α → Val), (xs.map f).length = l → xs.length = l := fun _ _ h => by simpa using h
  cases w with
  | B _ => exact absurd rfl nw
  | bit ws =>
    cases x with
    | B _ => exact absurd rfl nx
    | bit xs => exact (show Right r (.bit ws) (.bit xs) tw tx l .f11 0 from right_11 hb (el _ _ hw) (el _ _ hx))
    | i8 xs => exact (show Right r (.bit ws) (.i8 xs) tw tx l (.f1 .i8) 0 from right_1 hw hx (by simp [Data.ty]))
    | i16 xs => exact (show Right r (.bit ws) (.i16 xs) tw tx l (.f1 .i16) 0 from right_1 hw hx (by simp [Data.ty]))
    | i32 xs => exact (show Right r (.bit ws) (.i32 xs) tw tx l (.f1 .i32) 0 from right_1 hw hx (by simp [Data.ty]))
    | f64 xs => exact (show Right r (.bit ws) (.f64 xs) tw tx l (.f1 .f64) 0 from right_1f hw hx)
    | c8 xs => exact (show Right r (.bit ws) (.c8 xs) tw tx l .notEq 99 from right_nc hl hw hx (by simp [Data.ty, El.rank]) (by simp [Data.ty, El.rank]) nx)
    | c16 xs => exact (show Right r (.bit ws) (.c16 xs) tw tx l .notEq 99 from right_nc hl hw hx (by simp [Data.ty, El.rank]) (by simp [Data.ty, El.rank]) nx)
    | c32 xs => exact (show Right r (.bit ws) (.c32 xs) tw tx l .notEq 99 from right_nc hl hw hx (by simp [Data.ty, El.rank]) (by simp [Data.ty, El.rank]) nx)
  | i8 ws =>
    cases x with
    | B _ => exact absurd rfl nx
    | bit xs => exact (show Right r (.i8 ws) (.bit xs) tw tx l (.f1 .i8) 1 from right_1' hw hx (by simp [Data.ty]))
    | i8 xs => exact (show Right r (.i8 ws) (.i8 xs) tw tx l .f88 0 from right_88 (d := 0) (by decide) (el _ _ hw) (el _ _ hx) (int_iff r small8) (by decide))
    | i16 xs => exact (show Right r (.i8 ws) (.i16 xs) tw tx l (.s .i8 .i16) 0 from right_s hw hx (by simp [Data.ty]) (by simp [Data.ty]))
    | i32 xs => exact (show Right r (.i8 ws) (.i32 xs) tw tx l (.s .i8 .i32) 0 from right_s hw hx (by simp [Data.ty]) (by simp [Data.ty]))
    | f64 xs => exact (show Right r (.i8 ws) (.f64 xs) tw tx l (.sf .i8) 0 from right_sf hw hx (by simp [Data.ty]))
    | c8 xs => exact (show Right r (.i8 ws) (.c8 xs) tw tx l .notEq 99 from right_nc hl hw hx (by simp [Data.ty, El.rank]) (by simp [Data.ty, El.rank]) nx)
    | c16 xs => exact (show Right r (.i8 ws) (.c16 xs) tw tx l .notEq 99 from right_nc hl hw hx (by simp [Data.ty, El.rank]) (by simp [Data.ty, El.rank]) nx)
    | c32 xs => exact (show Right r (.i8 ws) (.c32 xs) tw tx l .notEq 99 from right_nc hl hw hx (by simp [Data.ty, El.rank]) (by simp [Data.ty, El.rank]) nx)
  | i16 ws =>
    cases x with
    | B _ => exact absurd rfl nx
    | bit xs => exact (show Right r (.i16 ws) (.bit xs) tw tx l (.f1 .i16) 1 from right_1' hw hx (by simp [Data.ty]))
    | i8 xs => exact (show Right r (.i16 ws) (.i8 xs) tw tx l (.s .i8 .i16) 1 from right_s' hw hx (by simp [Data.ty]) (by simp [Data.ty]))
    | i16 xs => exact (show Right r (.i16 ws) (.i16 xs) tw tx l .f88 1 from right_88 (d := 1) (by decide) (el _ _ hw) (el _ _ hx) (int_iff r small16) (by decide))
    | i32 xs => exact (show Right r (.i16 ws) (.i32 xs) tw tx l (.s .i16 .i32) 0 from right_s hw hx (by simp [Data.ty]) (by simp [Data.ty]))
    | f64 xs => exact (show Right r (.i16 ws) (.f64 xs) tw tx l (.sf .i16) 0 from right_sf hw hx (by simp [Data.ty]))
    | c8 xs => exact (show Right r (.i16 ws) (.c8 xs) tw tx l .notEq 99 from right_nc hl hw hx (by simp [Data.ty, El.rank]) (by simp [Data.ty, El.rank]) nx)
    | c16 xs => exact (show Right r (.i16 ws) (.c16 xs) tw tx l .notEq 99 from right_nc hl hw hx (by simp [Data.ty, El.rank]) (by simp [Data.ty, El.rank]) nx)
    | c32 xs => exact (show Right r (.i16 ws) (.c32 xs) tw tx l .notEq 99 from right_nc hl hw hx (by simp [Data.ty, El.rank]) (by simp [Data.ty, El.rank]) nx)
  | i32 ws =>
    cases x with
    | B _ => exact absurd rfl nx
    | bit xs => exact (show Right r (.i32 ws) (.bit xs) tw tx l (.f1 .i32) 1 from right_1' hw hx (by simp [Data.ty]))
    | i8 xs => exact (show Right r (.i32 ws) (.i8 xs) tw tx l (.s .i8 .i32) 1 from right_s' hw hx (by simp [Data.ty]) (by simp [Data.ty]))
    | i16 xs => exact (show Right r (.i32 ws) (.i16 xs) tw tx l (.s .i16 .i32) 1 from right_s' hw hx (by simp [Data.ty]) (by simp [Data.ty]))
    | i32 xs => exact (show Right r (.i32 ws) (.i32 xs) tw tx l .f88 2 from right_88 (d := 2) (by decide) (el _ _ hw) (el _ _ hx) (int_iff r small32) (by decide))
    | f64 xs => exact (show Right r (.i32 ws) (.f64 xs) tw tx l (.sf .i32) 0 from right_sf hw hx (by simp [Data.ty]))
    | c8 xs => exact (show Right r (.i32 ws) (.c8 xs) tw tx l .notEq 99 from right_nc hl hw hx (by simp [Data.ty, El.rank]) (by simp [Data.ty, El.rank]) nx)
    | c16 xs => exact (show Right r (.i32 ws) (.c16 xs) tw tx l .notEq 99 from right_nc hl hw hx (by simp [Data.ty, El.rank]) (by simp [Data.ty, El.rank]) nx)
    | c32 xs => exact (show Right r (.i32 ws) (.c32 xs) tw tx l .notEq 99 from right_nc hl hw hx (by simp [Data.ty, El.rank]) (by simp [Data.ty, El.rank]) nx)
  | f64 ws =>
    cases x with
    | B _ => exact absurd rfl nx
    | bit xs => exact (show Right r (.f64 ws) (.bit xs) tw tx l (.f1 .f64) 1 from right_1f' hw hx)
    | i8 xs => exact (show Right r (.f64 ws) (.i8 xs) tw tx l (.sf .i8) 1 from right_sf' hw hx (by simp [Data.ty]))
    | i16 xs => exact (show Right r (.f64 ws) (.i16 xs) tw tx l (.sf .i16) 1 from right_sf' hw hx (by simp [Data.ty]))
    | i32 xs => exact (show Right r (.f64 ws) (.i32 xs) tw tx l (.sf .i32) 1 from right_sf' hw hx (by simp [Data.ty]))
    | f64 xs => exact (show Right r (.f64 ws) (.f64 xs) tw tx l (if r then .ffR else .ff) 0 from right_ff hw hx)
    | c8 xs => exact (show Right r (.f64 ws) (.c8 xs) tw tx l .notEq 99 from right_nc hl hw hx (by simp [Data.ty, El.rank]) (by simp [Data.ty, El.rank]) nx)
    | c16 xs => exact (show Right r (.f64 ws) (.c16 xs) tw tx l .notEq 99 from right_nc hl hw hx (by simp [Data.ty, El.rank]) (by simp [Data.ty, El.rank]) nx)
    | c32 xs => exact (show Right r (.f64 ws) (.c32 xs) tw tx l .notEq 99 from right_nc hl hw hx (by simp [Data.ty, El.rank]) (by simp [Data.ty, El.rank]) nx)
  | c8 ws =>
    cases x with
    | B _ => exact absurd rfl nx
    | bit xs => exact (show Right r (.c8 ws) (.bit xs) tw tx l .notEq 99 from right_cn hl hw hx (by simp [Data.ty, El.rank]) nw (by simp [Data.ty, El.rank]))
    | i8 xs => exact (show Right r (.c8 ws) (.i8 xs) tw tx l .notEq 99 from right_cn hl hw hx (by simp [Data.ty, El.rank]) nw (by simp [Data.ty, El.rank]))
    | i16 xs => exact (show Right r (.c8 ws) (.i16 xs) tw tx l .notEq 99 from right_cn hl hw hx (by simp [Data.ty, El.rank]) nw (by simp [Data.ty, El.rank]))
    | i32 xs => exact (show Right r (.c8 ws) (.i32 xs) tw tx l .notEq 99 from right_cn hl hw hx (by simp [Data.ty, El.rank]) nw (by simp [Data.ty, El.rank]))
    | f64 xs => exact (show Right r (.c8 ws) (.f64 xs) tw tx l .notEq 99 from right_cn hl hw hx (by simp [Data.ty, El.rank]) nw (by simp [Data.ty, El.rank]))
    | c8 xs => exact (show Right r (.c8 ws) (.c8 xs) tw tx l .f88 0 from right_88 (d := 0) (by decide) (el _ _ hw) (el _ _ hx) (chr_iff r (by decide)) (by decide))
    | c16 xs => exact (show Right r (.c8 ws) (.c16 xs) tw tx l (.u .c8 .c16) 0 from right_u hw hx (by simp [Data.ty]) (by simp [Data.ty]))
    | c32 xs => exact (show Right r (.c8 ws) (.c32 xs) tw tx l (.u .c8 .c32) 0 from right_u hw hx (by simp [Data.ty]) (by simp [Data.ty]))
  | c16 ws =>
    cases x with
    | B _ => exact absurd rfl nx
    | bit xs => exact (show Right r (.c16 ws) (.bit xs) tw tx l .notEq 99 from right_cn hl hw hx (by simp [Data.ty, El.rank]) nw (by simp [Data.ty, El.rank]))
    | i8 xs => exact (show Right r (.c16 ws) (.i8 xs) tw tx l .notEq 99 from right_cn hl hw hx (by simp [Data.ty, El.rank]) nw (by simp [Data.ty, El.rank]))
    | i16 xs => exact (show Right r (.c16 ws) (.i16 xs) tw tx l .notEq 99 from right_cn hl hw hx (by simp [Data.ty, El.rank]) nw (by simp [Data.ty, El.rank]))
    | i32 xs => exact (show Right r (.c16 ws) (.i32 xs) tw tx l .notEq 99 from right_cn hl hw hx (by simp [Data.ty, El.rank]) nw (by simp [Data.ty, El.rank]))
    | f64 xs => exact (show Right r (.c16 ws) (.f64 xs) tw tx l .notEq 99 from right_cn hl hw hx (by simp [Data.ty, El.rank]) nw (by simp [Data.ty, El.rank]))
    | c8 xs => exact (show Right r (.c16 ws) (.c8 xs) tw tx l (.u .c8 .c16) 1 from right_u' hw hx (by simp [Data.ty]) (by simp [Data.ty]))
    | c16 xs => exact (show Right r (.c16 ws) (.c16 xs) tw tx l .f88 1 from right_88 (d := 1) (by decide) (el _ _ hw) (el _ _ hx) (chr_iff r (by decide)) (by decide))
    | c32 xs => exact (show Right r (.c16 ws) (.c32 xs) tw tx l (.u .c16 .c32) 0 from right_u hw hx (by simp [Data.ty]) (by simp [Data.ty]))
  | c32 ws =>
    cases x with
    | B _ => exact absurd rfl nx
    | bit xs => exact (show Right r (.c32 ws) (.bit xs) tw tx l .notEq 99 from right_cn hl hw hx (by simp [Data.ty, El.rank]) nw (by simp [Data.ty, El.rank]))
    | i8 xs => exact (show Right r (.c32 ws) (.i8 xs) tw tx l .notEq 99 from right_cn hl hw hx (by simp [Data.ty, El.rank]) nw (by simp [Data.ty, El.rank]))
    | i16 xs => exact (show Right r (.c32 ws) (.i16 xs) tw tx l .notEq 99 from right_cn hl hw hx (by simp [Data.ty, El.rank]) nw (by simp [Data.ty, El.rank]))
    | i32 xs => exact (show Right r (.c32 ws) (.i32 xs) tw tx l .notEq 99 from right_cn hl hw hx (by simp [Data.ty, El.rank]) nw (by simp [Data.ty, El.rank]))
    | f64 xs => exact (show Right r (.c32 ws) (.f64 xs) tw tx l .notEq 99 from right_cn hl hw hx (by simp [Data.ty, El.rank]) nw (by simp [Data.ty, El.rank]))
    | c8 xs => exact (show Right r (.c32 ws) (.c8 xs) tw tx l (.u .c8 .c32) 1 from right_u' hw hx (by simp [Data.ty]) (by simp [Data.ty]))
    | c16 xs => exact (show Right r (.c32 ws) (.c16 xs) tw tx l (.u .c16 .c32) 1 from right_u' hw hx (by simp [Data.ty]) (by simp [Data.ty]))
    | c32 xs => exact (show Right r (.c32 ws) (.c32 xs) tw tx l .f88 2 from right_88 (d := 2) (by decide) (el _ _ hw) (el _ _ hx) (fun a b => by simp [atomEq]) (by decide))

end

end Verif.Match
