import Verif.Ffi.Frame
/-
C80: values in foreign memory.
-/
namespace Verif.Ffi

/-- A structure of a `u8`, an `i32` and an array of two pairs `{i16,f64}`. -/
def tS : Ty :=
  .agg false 40 (.cons 0 (.sc .u8) (.cons 4 (.sc .i32) (.cons 8
    (.agg true 32 (.cons 0 (.agg false 16 (.cons 0 (.sc .i16) (.cons 8 (.sc .f64) .nil)))
      (.cons 16 (.agg false 16 (.cons 0 (.sc .i16) (.cons 8 (.sc .f64) .nil))) .nil))) .nil)))
/-- The double with an integer value, as a BQN value. -/
def n (i : Int) : V := .num (ofInt i)
def vS : V := .arr [n 200, n (-3), .arr [.arr [n (-7), n 8], .arr [n 9, n 10]]]
def f0 : F32 := ⟨fun _ => 0, fun _ => 0⟩
def m0 : Mem := fun _ => 0

/-- A value which has been written is read back: every number and character is the
same, for any type built from scalars, pointers, structures, arrays and
reinterpreted values (`F` and `junk` are arbitrary: conversion to single precision,
and memory after an array). -/
theorem write_read (F : F32) (junk : Nat) (p : Ptr) (i : Int) (v : V) (m m' : Mem)
    (hw : WF p.ty) (hp : Plain p.ty v) (h : p.write F junk i v m = .done m') :
    ∃ r, p.read F i m' = some r ∧ Back F p.ty v r := by
  unfold Ptr.write at h
  unfold Ptr.read
  cases he : elbase p i false with
  | none => rw [he] at h; exact nomatch h
  | some a =>
    rw [he] at h
    exact genObj_back F junk p.ty v m m' a hw hp h

theorem elbase_some (p : Ptr) (i : Int) (hw : WF p.ty) :
    elbase p i false = some (p.addr + i * p.stride) := by
  unfold elbase
  cases hp : p.ty with
  | void => rw [hp, WF] at hw; exact hw.elim
  | _ => rfl

/-- Writing succeeds exactly for the values which suit the type; all others are errors. -/
theorem write_accepts (F : F32) (junk : Nat) (p : Ptr) (i : Int) (v : V) (m : Mem) (hw : WF p.ty) :
    (∃ m', p.write F junk i v m = .done m') ↔ Fits p.ty v := by
  unfold Ptr.write
  rw [elbase_some p i hw]
  exact genObj_fits F junk p.ty v m _ hw

/-- Writing changes only the bytes of the value written, and at most 7 after it. -/
theorem write_near (F : F32) (junk : Nat) (p : Ptr) (i : Int) (v : V) (m : Mem) (hw : WF p.ty) (b : Int)
    (hb : b < p.addr + i * p.stride ∨ p.addr + i * p.stride + size p.ty + 7 ≤ b) :
    (p.write F junk i v m).mem b = m b := by
  unfold Ptr.write
  rw [elbase_some p i hw]
  rcases hb with hb | hb
  · exact genObj_below F junk p.ty v m _ b hb
  · exact genObj_above F junk 7 p.ty v m _ b hw (.inl rfl) hb

/-- If no scalar of less than 8 bytes is reinterpreted, writing changes only the bytes
of the value written, also when it fails.  Missing: the same for all types, which
`write_overruns` shows to be false of the code. -/
theorem write_within_partial (F : F32) (junk : Nat) (p : Ptr) (i : Int) (v : V) (m : Mem) (hw : WF p.ty)
    (hn : NoShort p.ty) (b : Int)
    (hb : b < p.addr + i * p.stride ∨ p.addr + i * p.stride + size p.ty ≤ b) :
    (p.write F junk i v m).mem b = m b := by
  unfold Ptr.write
  rw [elbase_some p i hw]
  rcases hb with hb | hb
  · exact genObj_below F junk p.ty v m _ b hb
  · exact genObj_above F junk 0 p.ty v m _ b hw (.inr hn) (by omega)

/-- The elements of memory behave as an array: writing one leaves the others. -/
theorem write_elsewhere (F : F32) (junk : Nat) (p : Ptr) (i j : Int) (v : V) (m : Mem) (hw : WF p.ty)
    (hn : NoShort p.ty) (hs : size p.ty ≤ p.stride) (hij : i ≠ j) :
    p.read F j (p.write F junk i v m).mem = p.read F j m := by
  unfold Ptr.read
  rw [elbase_some p j hw]
  refine readAny_congr F p.ty _ _ _ hw (fun b h1 h2 => ?_)
  refine write_within_partial F junk p i v m hw hn b ?_
  have hss : (size p.ty : Int) ≤ p.stride := by omega
  generalize (p.stride : Int) = s at *
  rcases Int.lt_or_gt_of_ne hij with h | h
  · right
    have : (i + 1) * s ≤ j * s := Int.mul_le_mul_of_nonneg_right (by omega) (by omega)
    rw [Int.add_mul, Int.one_mul] at this
    omega
  · left
    have : (j + 1) * s ≤ i * s := Int.mul_le_mul_of_nonneg_right (by omega) (by omega)
    rw [Int.add_mul, Int.one_mul] at this
    omega

/-- The stride of a new pointer is the size of its type. -/
theorem ptrobj_stride (a : Int) (t : Ty) : (ptrobj a t).stride = size t := calcMemSize_eq t

/-- A field of a pointer to structures is that field of what the pointer reads, at
every offset. -/
theorem field_read (F : F32) (p q : Ptr) (k : Nat) (i : Int) (m : Mem) (xs : List V) (hw : WF p.ty)
    (hf : p.field k = some q) (hr : p.read F i m = some (.arr xs)) :
    ∃ x, xs[k]? = some x ∧ q.read F i m = some x := by
  unfold Ptr.read at hr
  rw [elbase_some p i hw] at hr
  unfold Ptr.field at hf
  cases ht : p.ty with
  | agg isA sz fs =>
    rw [ht] at hf hr hw
    rw [WF] at hw
    cases hg : fs.get k with
    | none => simp only [hg] at hf; exact nomatch hf
    | some ot =>
      obtain ⟨off, t⟩ := ot
      simp only [hg] at hf
      injection hf with hf
      subst hf
      obtain ⟨_, _, b3⟩ := get_bounds fs k 0 sz off t hw hg
      simp only [readAny] at hr
      cases hs : readStruct F fs m (p.addr + i * p.stride) with
      | none => rw [hs] at hr; exact nomatch hr
      | some ys =>
        rw [hs] at hr
        injection hr with hr
        injection hr with hr
        subst hr
        obtain ⟨x, x1, x2⟩ := struct_read F fs k off t m _ ys hg hs
        refine ⟨x, x1, ?_⟩
        unfold Ptr.read
        rw [elbase_some _ i (by exact b3)]
        rw [show p.addr + i * p.stride + (off : Int) = p.addr + off + i * p.stride by omega] at x2
        exact x2
  | _ => rw [ht] at hf; exact nomatch hf

/-- Writing through a field changes that field of the structure and no other. -/
theorem field_write (F : F32) (junk : Nat) (p q : Ptr) (k : Nat) (i : Int) (v : V) (m m' : Mem) (xs : List V)
    (hw : WF p.ty) (hn : NoShort p.ty) (hf : p.field k = some q) (hp : Plain q.ty v)
    (hr : p.read F i m = some (.arr xs)) (h : q.write F junk i v m = .done m') :
    ∃ y, p.read F i m' = some (.arr (xs.set k y)) ∧ Back F q.ty v y := by
  unfold Ptr.read at hr ⊢
  rw [elbase_some p i hw] at hr ⊢
  unfold Ptr.field at hf
  cases ht : p.ty with
  | agg isA sz fs =>
    rw [ht] at hf hr hw hn
    rw [WF] at hw
    rw [NoShort] at hn
    cases hg : fs.get k with
    | none => simp only [hg] at hf; exact nomatch hf
    | some ot =>
      obtain ⟨off, t⟩ := ot
      simp only [hg] at hf
      injection hf with hf
      subst hf
      obtain ⟨_, _, b3⟩ := get_bounds fs k 0 sz off t hw hg
      have hq := write_within_partial F junk ⟨p.addr + off, t, p.stride⟩ i v m b3 (get_noShort fs k off t hn hg)
      obtain ⟨y, y1, y2⟩ := write_read F junk ⟨p.addr + off, t, p.stride⟩ i v m m' b3 hp h
      rw [h] at hq
      simp only [readAny] at hr ⊢
      cases hs : readStruct F fs m (p.addr + i * p.stride) with
      | none => rw [hs] at hr; exact nomatch hr
      | some ys =>
        rw [hs] at hr
        injection hr with hr
        injection hr with hr
        subst hr
        refine ⟨y, ?_, y2⟩
        unfold Ptr.read at y1
        rw [elbase_some _ i (by exact b3)] at y1
        rw [struct_write F fs k 0 sz off t m m' (p.addr + i * p.stride) ys y hw hg
          (fun b hb => hq b (by dsimp only; omega))
          (by rw [show p.addr + i * p.stride + (off : Int) = p.addr + off + i * p.stride by omega]; exact y1) hs]
  | _ => rw [ht] at hf; exact nomatch hf

/-- There is no pointer to a field past the last. -/
theorem field_bound (a : Int) (s sz : Nat) (k : Bool) (fs : Flds) (i : Nat) :
    (Ptr.field ⟨a, .agg k sz fs, s⟩ i = none) ↔ fs.len ≤ i := by
  rw [← get_none]
  unfold Ptr.field
  dsimp only
  cases fs.get i with
  | none => exact ⟨fun _ => rfl, fun _ => rfl⟩
  | some _ => exact ⟨fun h => (nomatch h), fun h => (nomatch h)⟩

/-- Moving a pointer by `i` and reading at `j` is reading at `i+j`. -/
theorem add_read (F : F32) (p : Ptr) (i j : Int) (m : Mem) (hw : WF p.ty) :
    ∃ q, p.add i = some q ∧ q.read F j m = p.read F (i + j) m := by
  refine ⟨⟨p.addr + i * p.stride, p.ty, p.stride⟩, ?_, ?_⟩
  · rw [Ptr.add, elbase_some p i hw]
  · unfold Ptr.read
    rw [elbase_some _ j (by exact hw), elbase_some p _ hw]
    dsimp only
    rw [Int.add_mul, ← Int.add_assoc]

/-- Moving back by the same amount gives the pointer itself. -/
theorem add_sub (p q : Ptr) (i : Int) (h : p.add i = some q) : q.sub i = some p := by
  obtain ⟨a, t, s⟩ := p
  unfold Ptr.add elbase at h
  unfold Ptr.sub elbase
  cases t with
  | void => exact nomatch h
  | _ =>
    injection h with h
    subst h
    simp only [if_true]
    congr 2
    simp only [Bool.false_eq_true, if_false]
    rw [Int.neg_mul]
    omega

/-- The difference of a pointer and one it was made from is the amount moved. -/
theorem add_diff (p q : Ptr) (i : Int) (hs : 0 < p.stride) (h : p.add i = some q) : q.diff p = .num i := by
  have hr := (tyEqual_iff p.ty p.ty).2 (compat_refl p.ty)
  obtain ⟨a, t, s⟩ := p
  unfold Ptr.add elbase at h
  dsimp only at hs hr
  have fin : ∀ d : Int, d = a + i * (s : Int) - a →
      (if (s : Nat) ≠ s then Diff.err else if tyEqual t t = false then .err else if s = 0 then .crash
        else if d.tdiv s * s ≠ d then .err else .num (d.tdiv s)) = .num i := by
    intro d hd
    have hd' : d = i * s := by omega
    have he : (i * (s : Int)).tdiv s = i := Int.mul_tdiv_cancel i (by omega)
    rw [if_neg (by simp), if_neg (by rw [hr]; decide), if_neg (by omega), hd', he, if_neg (by simp)]
  cases t with
  | void => exact nomatch h
  | _ =>
    injection h with h
    subst h
    exact fin _ rfl

/-- A difference of pointers is the number of steps between them, of compatible types. -/
theorem diff_sound (p q : Ptr) (d : Int) (h : p.diff q = .num d) :
    p.addr = q.addr + d * q.stride ∧ p.stride = q.stride ∧ Compat p.ty q.ty := by
  obtain ⟨a, t, s⟩ := p
  obtain ⟨a', t', s'⟩ := q
  have fin : (if s ≠ s' then Diff.err else if tyEqual t t' = false then .err else if s = 0 then .crash
        else if (a - a').tdiv s * s ≠ a - a' then .err else .num ((a - a').tdiv s)) = .num d →
      a = a' + d * s' ∧ s = s' ∧ Compat t t' := by
    intro h
    by_cases h1 : s = s'
    · subst h1
      rw [if_neg (by simp)] at h
      by_cases h2 : tyEqual t t' = true
      · rw [if_neg (by rw [h2]; decide)] at h
        by_cases h3 : s = 0
        · rw [if_pos h3] at h; exact nomatch h
        · rw [if_neg h3] at h
          by_cases h4 : (a - a').tdiv s * s = a - a'
          · rw [if_neg (by simpa using h4)] at h
            injection h with h
            subst h
            exact ⟨by omega, rfl, (tyEqual_iff _ _).1 h2⟩
          · rw [if_pos h4] at h; exact nomatch h
      · rw [if_pos (by simpa using h2)] at h; exact nomatch h
    · rw [if_pos h1] at h; exact nomatch h
  cases t <;> cases t' <;> first | exact fin h | (exact nomatch h)

/-- The check of pointer types is symmetric, and every type passes against itself. -/
theorem compat_same (t : Ty) : tyEqual t t = true := (tyEqual_iff t t).2 (compat_refl t)
theorem compat_comm (s t : Ty) (h : tyEqual s t = true) : tyEqual t s = true :=
  (tyEqual_iff t s).2 (alike_symm _ _ ((tyEqual_iff s t).1 h))

/-- An untyped pointer cannot be read, written or moved. -/
theorem untyped (F : F32) (junk : Nat) (a : Int) (s : Nat) (i : Int) (v : V) (m : Mem) :
    Ptr.read F ⟨a, .void, s⟩ i m = none ∧ Ptr.write F junk ⟨a, .void, s⟩ i v m = .fail m ∧
    Ptr.add ⟨a, .void, s⟩ i = none := ⟨rfl, rfl, rfl⟩

/-! ### Where the code falls short -/

/-- Writing a reinterpreted scalar of less than 8 bytes overwrites the memory after
it: of two neighbouring `u8:u1`, writing the first changes the second. -/
theorem write_overruns (F : F32) (m : Mem) (a : Int) :
    ∃ m', (ptrobj a (.repr (some .u8) .u1)).write F 255 0 (.arr (List.replicate 8 (n 0))) m = .done m' ∧
      (ptrobj a (.repr (some .u8) .u1)).read F 1 m' = some (.arr (List.replicate 8 (n 1))) := by
  have ht : toW .u1 (List.replicate 8 (n 0)) = some 0 := by decide +kernel
  refine ⟨copy8 255 m a 1 0, ?_, ?_⟩
  · simp only [Ptr.write, ptrobj, elbase, genObj, ht]
    rw [if_pos (by decide)]
    simp [elSz, styW]
  · simp only [Ptr.read, ptrobj, elbase, readAny]
    have : load (copy8 255 m a 1 0) (a + 1) 1 = 255 := by
      simp only [copy8, store, load]
      rw [if_neg (by omega), if_neg (by omega), if_neg (by omega), if_neg (by omega), if_neg (by omega),
        if_neg (by omega), if_pos trivial]
      decide
    simp only [elSz, styW, calcMemSize, Bool.false_eq_true, if_false, Int.one_mul]
    rw [show a + ((1 : Nat) : Int) = a + 1 from rfl, this]
    rfl

/-- A write which fails may have written the first fields of the structure. -/
theorem fail_writes (F : F32) (junk : Nat) (a : Int) :
    ∃ m', (ptrobj a (.agg false 2 (.cons 0 (.sc .u8) (.cons 1 (.sc .u8) .nil)))).write F junk 0
      (.arr [n 7, .chr 120]) m0 = .fail m' ∧ m' a = 7 ∧ m0 a = 0 := by
  have h1 : scalarBits F .u8 (n 7) = some 7 := by
    rw [scalarBits]; decide +kernel
  have h2 : scalarBits F .u8 (.chr 120) = none := rfl
  refine ⟨store m0 a 1 7, ?_, ?_, rfl⟩
  · simp [Ptr.write, ptrobj, elbase, genObj, genObjs, Flds.len, h1, h2, styW]
  · simp [store]

/-! ### Examples -/

example : WF tS ∧ NoShort tS := by
  simp [tS, WF, WFs, size, Sc.width, NoShort, NoShorts]
example : Plain tS vS := by
  simp [tS, vS, Plain, Plains]
example : ∃ m', (ptrobj 100 tS).write f0 0 2 vS m0 = .done m' := by
  rw [write_accepts]
  · have h : ∀ (s : Sc) (lo hi : Int) (i : Int), s.range = some (lo, hi) → lo ≤ i → i ≤ hi → i.natAbs < 2 ^ 53 →
        FitsSc s (n i) := by
      intro s lo hi i hr h1 h2 h3
      refine ⟨_, rfl, fun lo' hi' h' => ?_⟩
      rw [hr] at h'
      injection h' with h'
      injection h' with ha hb
      subst ha; subst hb
      exact ⟨i, asInt_ofInt i h3, h1, h2⟩
    have hf : ∀ i, FitsSc .f64 (n i) := fun i => ⟨_, rfl, nofun⟩
    simp only [ptrobj, tS, vS, Fits, Fitss]
    refine ⟨_, rfl, h .u8 _ _ _ rfl (by decide) (by decide) (by decide),
      h .i32 _ _ _ rfl (by decide) (by decide) (by decide),
      ⟨_, rfl, ⟨_, rfl, h .i16 _ _ _ rfl (by decide) (by decide) (by decide), hf _, rfl⟩,
        ⟨_, rfl, h .i16 _ _ _ rfl (by decide) (by decide) (by decide), hf _, rfl⟩, rfl⟩, rfl⟩
  · simp [ptrobj, tS, WF, WFs, size, Sc.width]
/-- 256 is not a `u8`, and 1.5 is no integer. -/
example : scalarBits f0 .u8 (n 256) = none ∧ scalarBits f0 .i32 (.num 0x3FF8000000000000#64) = none := by
  decide +kernel
example : asInt 0x3FF8000000000000#64 = none ∧ asInt 0xC01C000000000000#64 = some (-7) := by decide +kernel
/-- Both halves of `f32` are reinterpreted. -/
example : toW .i16 [n (-1), n 2] = some (65535 + 65536 * 2) := by decide +kernel
example : ((ptrobj 100 tS).field 1).map (fun q => (q.addr, q.stride)) = some (104, 40) := by decide +kernel
example : (ptrobj 180 tS).diff (ptrobj 100 tS) = .num 2 ∧ (ptrobj 170 tS).diff (ptrobj 100 tS) = .err := by
  decide +kernel
example : tyEqual (.ptr (.repr (some .u32) .i8)) (.ptr (.sc .u32)) = true ∧
    tyEqual (.ptr (.sc .i32)) (.ptr (.sc .u32)) = false ∧ tyEqual (.ptr .void) (.ptr (.sc .u32)) = true := by
  decide +kernel

end Verif.Ffi
