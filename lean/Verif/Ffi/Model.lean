import Verif.Ffi.Spec
/-
Model of writing to and reading from foreign memory, /repo/src/ffi.c.

Memory is a function from addresses (unbounded integers, so pointer arithmetic
never wraps) to bytes.  Multi-byte values are little-endian, as on x86-64.

Not modelled: the scalar type `a` (a BQN object as such), places of type
`*scalar:r` (written like pointers, never readable), arguments of foreign calls
(where `genObj` may also be given arrays for pointers), parsing of types, and the
computation of field offsets, which libffi does.
-/
namespace Verif.Ffi

/-- Memory. -/
abbrev Mem := Int → BitVec 8

/-- `*(uN*)ptr = v` for a value of `n` bytes. -/
def store (m : Mem) (a : Int) : Nat → Nat → Mem
  | 0, _ => m
  | n + 1, v => store (fun b => if b = a then BitVec.ofNat 8 v else m b) (a + 1) n (v / 256)

/-- `*(uN*)ptr` for a value of `n` bytes. -/
def load (m : Mem) (a : Int) : Nat → Nat
  | 0 => 0
  | n + 1 => (m a).toNat + 256 * load m (a + 1) n

/-- Conversion of an integer below 2⋆53 in magnitude to a double, `m_f64(v)`,
`m_i32(v)` (h.h 486-487). -/
def ofInt (i : Int) : BitVec 64 :=
  let n := i.natAbs
  if n = 0 then 0
  else
    let l := n.log2
    BitVec.ofNat 64 ((if i < 0 then 2 ^ 63 else 0) + (l + 1023) * 2 ^ 52 + (n * 2 ^ (52 - l) - 2 ^ 52))

/-- An integer reduced to an unsigned one of `b` bits: the cast in `*(iN*)ptr = (iN)f`. -/
def wrap (b : Nat) (i : Int) : Nat := (i % (2 ^ b : Nat)).toNat

/-- An unsigned integer of `b` bits reinterpreted as a signed one: `*(iN*)ptr`. -/
def signed (b : Nat) (v : Nat) : Int := if 2 ^ b ≤ 2 * v then (v : Int) - (2 ^ b : Nat) else v

/-- `q_fu8` etc. (h.h 491-501) on the `.f` of a value, followed by the cast; a
value which is not a number has a NaN there.  Whatever a cast of an unsuitable
double gives, it is in the range of the type and so differs from the double. -/
def intIn (lo hi : Int) : V → Option Int
  | .num x =>
    match asInt x with
    | some i => if lo ≤ i ∧ i ≤ hi then some i else none
    | none => none
  | _ => none

/-- The bits which `genObj` stores for a scalar, or an error: ffi.c 731-748. -/
def scalarBits (F : F32) (s : Sc) (v : V) : Option Nat :=
  match s with
  | .u8 => (intIn 0 255 v).map (wrap 8)
  | .i8 => (intIn (-128) 127 v).map (wrap 8)
  | .u16 => (intIn 0 65535 v).map (wrap 16)
  | .i16 => (intIn (-32768) 32767 v).map (wrap 16)
  | .u32 => (intIn 0 4294967295 v).map (wrap 32)
  | .i32 => (intIn (-2147483648) 2147483647 v).map (wrap 32)
  | .u64 => (intIn 0 (2 ^ 53 - 1) v).map (wrap 64)
  | .i64 => (intIn (-(2 ^ 53 - 1)) (2 ^ 53 - 1) v).map (wrap 64)
  | .f32 => match v with | .num x => some (F.narrow x).toNat | _ => none
  | .f64 => match v with | .num x => some x.toNat | _ => none

/-- `sty_w`: ffi.c 356-361. -/
def styW : Sc → Nat
  | .u8 => 1 | .u16 => 2 | .u32 => 4 | .u64 => 8
  | .i8 => 1 | .i16 => 2 | .i32 => 4 | .i64 => 8
  | .f32 => 4 | .f64 => 8

/-- `readSimple`: ffi.c 858-870. -/
def readSimple (F : F32) (s : Sc) (m : Mem) (a : Int) : Option V :=
  match s with
  | .i8 => some (.num (ofInt (signed 8 (load m a 1))))
  | .u8 => some (.num (ofInt (load m a 1)))
  | .i16 => some (.num (ofInt (signed 16 (load m a 2))))
  | .u16 => some (.num (ofInt (load m a 2)))
  | .i32 => some (.num (ofInt (signed 32 (load m a 4))))
  | .u32 => some (.num (ofInt (load m a 4)))
  | .i64 =>
    let v := signed 64 (load m a 8)
    if 2 ^ 53 ≤ v.natAbs then none else some (.num (ofInt v))
  | .u64 =>
    let v := load m a 8
    if 2 ^ 53 ≤ v then none else some (.num (ofInt v))
  | .f32 => some (.num (F.widen (BitVec.ofNat 32 (load m a 4))))
  | .f64 => some (.num (BitVec.ofNat 64 (load m a 8)))

/-- `reWidth`, the logarithm of the element width: ffi.c 540. -/
def reW : Re → Nat
  | .u1 => 0 | .i8 => 3 | .i16 => 4 | .i32 => 5
  | .c8 => 3 | .c16 => 4 | .c32 => 5 | .f64 => 6

/-- One element as converted by `toW`: ffi.c 598-606, with the checks of
`ffi_numRange` and `ffi_anyRange` (286-343). -/
def reBits (r : Re) (v : V) : Option Nat :=
  match r with
  | .u1 => (intIn 0 1 v).map (wrap 1)
  | .i8 => (intIn (-128) 127 v).map (wrap 8)
  | .i16 => (intIn (-32768) 32767 v).map (wrap 16)
  | .i32 => (intIn (-2147483648) 2147483647 v).map (wrap 32)
  | .c8 => match v with | .chr c => if c ≤ 255 then some c else none | _ => none
  | .c16 => match v with | .chr c => if c ≤ 65535 then some c else none | _ => none
  | .c32 => match v with | .chr c => if c ≤ 4294967295 then some c else none | _ => none
  | .f64 => match v with | .num x => some x.toNat | _ => none

/-- The data of the array which `toW` gives, as one little-endian number. -/
def toW (r : Re) : List V → Option Nat
  | [] => some 0
  | v :: vs =>
    match reBits r v with
    | none => none
    | some b =>
      match toW r vs with
      | none => none
      | some p => some (b + 2 ^ (2 ^ reW r) * p)

/-- One element of the array made by `readRe`: `reTyMapC`, `reTyMapI` in ffi.c
872-873, and the meaning of those array types. -/
def reElem (r : Re) (b : Nat) : V :=
  match r with
  | .u1 => .num (ofInt b)
  | .i8 => .num (ofInt (signed 8 b))
  | .i16 => .num (ofInt (signed 16 b))
  | .i32 => .num (ofInt (signed 32 b))
  | .c8 | .c16 | .c32 => .chr b
  | .f64 => .num (BitVec.ofNat 64 b)

/-- The elements of an array of `n` elements whose data is the number `p`. -/
def elems (r : Re) : Nat → Nat → List V
  | 0, _ => []
  | n + 1, p => reElem r (p % 2 ^ (2 ^ reW r)) :: elems r n (p / 2 ^ (2 ^ reW r))

/-- `elSz`, `elW`: ffi.c 787-789, 804-806 and 876-878. -/
def elSz : Option Sc → Nat
  | some s => styW s
  | none => 8

/-- `ptrty_simplify`: ffi.c 1323-1328; here for any type. -/
def simplify : Ty → Ty
  | .repr (some s) _ => .sc s
  | .repr none _ => .ptr .void
  | t => t

mutual
/-- `ty_equal`: ffi.c 1329-1363. -/
def tyEqual : Ty → Ty → Bool
  | .void, _ => true
  | .sc s, b =>
    match simplify b with
    | .void => true
    | .sc s' => decide (s = s')
    | _ => false
  | .repr (some s) _, b =>
    match simplify b with
    | .void => true
    | .sc s' => decide (s = s')
    | _ => false
  | .repr none _, b =>
    match simplify b with
    | .void => true
    | .ptr _ => true
    | _ => false
  | .ptr e, b =>
    match simplify b with
    | .void => true
    | .ptr e' => tyEqual e e'
    | _ => false
  | .agg k _ fs, b =>
    match simplify b with
    | .void => true
    | .agg k' _ gs => decide (k = k') && tyEquals fs gs
    | _ => false
/-- The loop over the fields: ffi.c 1354-1360. -/
def tyEquals : Flds → Flds → Bool
  | .nil, .nil => true
  | .cons _ t r, .cons _ t' r' => tyEqual t t' && tyEquals r r'
  | _, _ => false
end

/-- Number of fields, `t->ia-1`. -/
def Flds.len : Flds → Nat
  | .nil => 0
  | .cons _ _ r => r.len + 1

/-- What writing leaves: the memory, and whether there was an error. -/
inductive Wr
  | done (m : Mem)
  | fail (m : Mem)

/-- `memcpy(ptr, tyany_ptr(cG), 8)`, ffi.c 799: 8 bytes are copied, of which the
first `n` are the data of the array and the others whatever follows it. -/
def copy8 (junk : Nat) (m : Mem) (a : Int) (n p : Nat) : Mem :=
  store m a 8 (p % 256 ^ n + 256 ^ n * junk)

mutual
/-- `genObj` without source objects, as called by `Write`: ffi.c 731-845 and
`genObj_writePtr`, 722-730.  `junk` stands for the memory after a converted array. -/
def genObj (F : F32) (junk : Nat) : Ty → V → Mem → Int → Wr
  | .void, _, m, _ => .fail m
  | .sc s, v, m, a =>
    match scalarBits F s v with
    | some b => .done (store m a (styW s) b)
    | none => .fail m
  | .ptr e, v, m, a =>
    match v with
    | .ptr p t => if tyEqual t e then .done (store m a 8 p.toNat) else .fail m
    | _ => .fail m
  | .repr base r, v, m, a =>
    match v with
    | .arr xs =>
      if xs.length = (elSz base * 8) >>> reW r then
        match toW r xs with
        | some p => .done (copy8 junk m a (elSz base) p)
        | none => .fail m
      else .fail m
    | .ptr p _ =>
      match base with
      | none => .done (store m a 8 p.toNat)
      | some _ => .fail m
    | _ => .fail m
  | .agg _ _ fs, v, m, a =>
    match v with
    | .arr xs => if xs.length = fs.len then genObjs F junk fs xs m a else .fail m
    | _ => .fail m
/-- The loop over fields: ffi.c 839-842. -/
def genObjs (F : F32) (junk : Nat) : Flds → List V → Mem → Int → Wr
  | .cons off t rest, x :: xs, m, a =>
    match genObj F junk t x m (a + off) with
    | .done m' => genObjs F junk rest xs m' a
    | .fail m' => .fail m'
  | _, _, m, _ => .done m
end

mutual
/-- `readAny`, `readCompound`, `readRe`, `readStruct`: ffi.c 848-856, 874-901. -/
def readAny (F : F32) : Ty → Mem → Int → Option V
  | .void, _, _ => some (.chr 0)
  | .sc s, m, a => readSimple F s m a
  | .ptr e, m, a => some (.ptr (BitVec.ofNat 64 (load m a 8)) e)
  | .repr base r, m, a => some (.arr (elems r ((elSz base * 8) >>> reW r) (load m a (elSz base))))
  | .agg _ _ fs, m, a =>
    match readStruct F fs m a with
    | some xs => some (.arr xs)
    | none => none
def readStruct (F : F32) : Flds → Mem → Int → Option (List V)
  | .nil, _, _ => some []
  | .cons off t rest, m, a =>
    match readAny F t m (a + off) with
    | none => none
    | some x =>
      match readStruct F rest m a with
      | none => none
      | some xs => some (x :: xs)
end

/-- A pointer object: `ptrh_ptr`, `ptrh_type`, `ptrh_stride` (ffi.c 1228-1230). -/
structure Ptr where
  addr : Int
  ty : Ty
  stride : Nat

/-- `calcMemSize`: ffi.c 1067-1084. -/
def calcMemSize : Ty → Nat
  | .void => 0
  | .sc s => styW s
  | .ptr _ => 8
  | .repr (some s) _ => styW s
  | .repr none _ => 8
  | .agg _ n _ => n

/-- `m_ptrobj_s`: ffi.c 1232-1234. -/
def ptrobj (a : Int) (t : Ty) : Ptr := ⟨a, t, calcMemSize t⟩

/-- `ptrobj_elbase` for an integer offset: ffi.c 1260-1266. -/
def elbase (h : Ptr) (off : Int) (negate : Bool) : Option Int :=
  match h.ty with
  | .void => none
  | _ => some (h.addr + (if negate then -off else off) * h.stride)

/-- `Read`: ffi.c 1267-1270. -/
def Ptr.read (F : F32) (h : Ptr) (off : Int) (m : Mem) : Option V :=
  match elbase h off false with
  | none => none
  | some a => readAny F h.ty m a

/-- `Write`: ffi.c 1271-1277. -/
def Ptr.write (F : F32) (junk : Nat) (h : Ptr) (off : Int) (v : V) (m : Mem) : Wr :=
  match elbase h off false with
  | none => .fail m
  | some a => genObj F junk h.ty v m a

/-- `Add` and `Sub` with a number: ffi.c 1319-1322, 1366. -/
def Ptr.add (h : Ptr) (off : Int) : Option Ptr :=
  match elbase h off false with
  | none => none
  | some a => some ⟨a, h.ty, h.stride⟩
def Ptr.sub (h : Ptr) (off : Int) : Option Ptr :=
  match elbase h off true with
  | none => none
  | some a => some ⟨a, h.ty, h.stride⟩

/-- The field with a number. -/
def Flds.get : Flds → Nat → Option (Nat × Ty)
  | .nil, _ => none
  | .cons off t _, 0 => some (off, t)
  | .cons _ _ r, k + 1 => r.get k

/-- `Field`: ffi.c 1297-1318. -/
def Ptr.field (h : Ptr) (k : Nat) : Option Ptr :=
  match h.ty with
  | .agg _ _ fs =>
    match fs.get k with
    | some (off, t) => some ⟨h.addr + off, t, h.stride⟩
    | none => none
  | _ => none

/-- Outcome of `Sub` with a pointer: a number, an error, or a division by zero. -/
inductive Diff
  | num (i : Int)
  | err
  | crash
deriving DecidableEq

/-- `Sub` with a pointer: ffi.c 1367-1381.  The division is C's, toward zero. -/
def Ptr.diff (h h2 : Ptr) : Diff :=
  match h.ty, h2.ty with
  | .void, _ => .err
  | _, .void => .err
  | t1, t2 =>
    if h.stride ≠ h2.stride then .err
    else if tyEqual t1 t2 = false then .err
    else if h.stride = 0 then .crash
    else
      let d := (h.addr - h2.addr).tdiv h.stride
      if d * h.stride ≠ h.addr - h2.addr then .err else .num d

end Verif.Ffi
