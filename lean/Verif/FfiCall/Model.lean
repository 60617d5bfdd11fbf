import Verif.FfiCall.Spec
/-
Model of calls of foreign functions, /repo/src/ffi.c.

`genObj` with source objects, `readUpdatedObj`, the loops of `libffiFn_c2`, the
places of arguments in the temporary allocation, and the sizes and offsets of
structures.  `Verif.Ffi.Model` has `genObj` without source objects and reading.

The foreign function itself is any function of the buffers (`Callee`), and each
buffer is a memory of its own: writes past the end of one are not seen in others.
The types in which BQN arrays are stored are not modelled: a buffer always holds a
converted copy.  For `*i8` etc. the code passes the array itself if it has the
right type; for `&` it always copies.
-/
namespace Verif.FfiCall
open Verif.Ffi

/-! ### Sizes and offsets -/

/-- Rounding up to a multiple. -/
def up (n a : Nat) : Nat := (n + a - 1) / a * a

mutual
/-- Alignment of a type in libffi (not in /repo): x86-64. -/
def al : PTy → Nat
  | .sc s => styW s
  | .ptr _ => 8
  | .repr b _ => elSz b
  | .arr _ e => al e
  | .str fs => als fs
def als : PFlds → Nat
  | .nil => 1
  | .cons t rest => max (al t) (als rest)
end

/-- The end of `k` elements of size `s` and alignment `a`, placed from `pos` on. -/
def rowEnd : Nat → Nat → Nat → Nat → Nat
  | 0, pos, _, _ => pos
  | k + 1, pos, s, a => rowEnd k (up pos a + s) s a

mutual
/-- `rt.size` after `ffi_get_struct_offsets` (libffi, a `size_t`), called by
`storeStructOffsets`: ffi.c 400-414. -/
def fsz : PTy → Nat
  | .sc s => styW s
  | .ptr _ => 8
  | .repr b _ => elSz b
  | .arr n e => up (rowEnd n 0 (fsz e) (al e)) (al e)
  | .str fs => up (fldEnd fs 0) (als fs)
def fldEnd : PFlds → Nat → Nat
  | .nil, pos => pos
  | .cons t rest, pos => fldEnd rest (up pos (al t) + fsz t)
end

/-- The entries of an array type: ffi.c 452-464. -/
def row : Nat → Nat → Nat → Nat → Ty → Flds
  | 0, _, _, _, _ => .nil
  | k + 1, pos, s, a, t => .cons (up pos a) t (row k (up pos a + s) s a t)

mutual
/-- `ffi_parseType` after parsing: ffi.c 441-465, 511-534, with
`storeStructOffsets`, where `structSize` has 32 bits (ffi.c 249, 409). -/
def lay : PTy → Ty
  | .sc s => .sc s
  | .ptr e => .ptr e
  | .repr b r => .repr b r
  | .arr n e => .agg true (fsz (.arr n e) % 2 ^ 32) (row n 0 (fsz e) (al e) (lay e))
  | .str fs => .agg false (fsz (.str fs) % 2 ^ 32) (lays fs 0)
def lays : PFlds → Nat → Flds
  | .nil, _ => .nil
  | .cons t rest, pos => .cons (up pos (al t)) (lay t) (lays rest (up pos (al t) + fsz t))
end

/-- `ffiTmpAlign`, with a parameter and result of 32 bits: ffi.c 591-595. -/
def tmpAlign (n : Nat) : Nat := (n % 2 ^ 32 + 15) % 2 ^ 32 / 16 * 16

/-- The offsets given out by `STATIC_ALLOC`, and the end: ffi.c 1099-1100, 1141-1143. -/
def slots : Nat → List Nat → List Nat × Nat
  | pos, [] => ([], pos)
  | pos, s :: ss => let r := slots (pos + tmpAlign s) ss; (pos :: r.1, r.2)

/-- The temporary allocation for a function with a number of arguments and the given
sizes of result and arguments: offsets and total size, or an error: ffi.c 1099-1158. -/
def plan (argn : Nat) (sizes : List Nat) : Option (List Nat × Nat) :=
  let r := slots (tmpAlign (argn * 8)) sizes
  if r.2 > 2 ^ 32 - 1 - 64 then none else some (r.1, tmpAlign r.2)

/-- The size of the buffer made for `ia` structures, with a product of 32 bits: ffi.c 779-780. -/
def bufAlloc (elSz ia : Nat) : Nat := elSz * ia % 2 ^ 32 + 4

/-! ### Arguments -/

/-- The choice of the arguments from `𝕨` and `𝕩`: `e.onW`, `e.wholeArg`, and the
counters `idxs`, ffi.c 970, 982-990.  `none` is a read past the end of a list. -/
def pick (w x : V) (ws xs : List V) : List (Bool × Bool) → Nat → Nat → Option (List V)
  | [], _, _ => some []
  | (onW, whole) :: es, i, j =>
    let here := if whole then some (if onW then w else x) else (if onW then ws else xs)[if onW then i else j]?
    match here with
    | none => none
    | some v =>
      match pick w x ws xs es (if whole = false ∧ onW = true then i + 1 else i)
          (if whole = false ∧ onW = false then j + 1 else j) with
      | none => none
      | some vs => some (v :: vs)

/-- An object in `sourceObjs`: a buffer of elements, a buffer with a converted array
for `s:r`, or a pointer object. -/
inductive Obj
  | buf (ia : Nat) (m : Mem)
  | pack (r : Re) (ia : Nat) (p : Nat)
  | ns (a : BitVec 64) (t : Ty)

/-- Elements written one after the other: ffi.c 784 for structures; for scalars the
conversions `cpyI8Arr` … `cpyF32Bits` after `ffi_numRange`, 763-770. -/
def fill (F : F32) (junk : Nat) (e : Ty) : List V → Nat → Mem → Option Mem
  | [], _, m => some m
  | x :: xs, i, m =>
    match genObj F junk e x m (i * calcMemSize e : Nat) with
    | .done m' => fill F junk e xs (i + 1) m'
    | .fail _ => none

/-- Which element types an array can be given for: ffi.c 758-777. -/
def elemOk : Ty → Bool
  | .sc .u64 => false
  | .sc .i64 => false
  | .sc _ => true
  | .agg _ _ _ => true
  | _ => false

/-- The part of `genObj` for `*e`, `&e` and `[n]e`: ffi.c 749-788.  The address of
the next buffer is `addr`, and its contents at first `init`. -/
def genPtr (F : F32) (junk : Nat) (addr : Nat → BitVec 64) (init : Nat → Mem) (len : Option Nat) (e : Ty) (v : V)
    (m : Mem) (os : List Obj) (a : Int) : Option (Mem × List Obj) :=
  match v with
  | .ptr p t => if tyEqual t e then some (store m a 8 p.toNat, os ++ [.ns p t]) else none
  | .arr xs =>
    if len ≠ none ∧ len ≠ some xs.length then none
    else if elemOk e = false then none
    else
      match fill F junk e xs 0 (init os.length) with
      | none => none
      | some b => some (store m a 8 (addr os.length).toNat, os ++ [.buf xs.length b])
  | _ => none

mutual
/-- `genObj` with source objects: ffi.c 731-845. -/
def genS (F : F32) (junk : Nat) (addr : Nat → BitVec 64) (init : Nat → Mem) :
    Ty → V → Mem → List Obj → Int → Option (Mem × List Obj)
  | .ptr e, v, m, os, a => genPtr F junk addr init none e v m os a
  | .agg _ _ fs, v, m, os, a =>
    match v with
    | .arr xs => if xs.length = fs.len then genSs F junk addr init fs xs m os a else none
    | _ => none
  | .void, _, _, _, _ => none
  | .sc s, v, m, os, a =>
    match genObj F junk (.sc s) v m a with
    | .done m' => some (m', os)
    | .fail _ => none
  | .repr b r, v, m, os, a =>
    match genObj F junk (.repr b r) v m a with
    | .done m' => some (m', os)
    | .fail _ => none
def genSs (F : F32) (junk : Nat) (addr : Nat → BitVec 64) (init : Nat → Mem) :
    Flds → List V → Mem → List Obj → Int → Option (Mem × List Obj)
  | .cons off t rest, x :: xs, m, os, a =>
    match genS F junk addr init t x m os (a + off) with
    | some (m', os') => genSs F junk addr init rest xs m' os' a
    | none => none
  | _, _, m, os, _ => some (m, os)
end

/-- `genObj` for the type of an argument; for `*s:r` and `&s:r`, ffi.c 802-832. -/
def genArg (F : F32) (junk : Nat) (addr : Nat → BitVec 64) (init : Nat → Mem) (t : Arg) (v : V) (m : Mem)
    (os : List Obj) (a : Int) : Option (Mem × List Obj) :=
  match t with
  | .val t => genS F junk addr init t v m os a
  | .mut e => genPtr F junk addr init none e v m os a
  | .arr n e => genPtr F junk addr init (some n) e v m os a
  | .repr _ s r =>
    match v with
    | .ptr p t => if tyEqual t (.sc s) then some (store m a 8 p.toNat, os ++ [.ns p t]) else none
    | .arr xs =>
      let mul := (styW s * 8) >>> reW r
      if mul ≠ 0 ∧ xs.length % mul ≠ 0 then none
      else
        match toW r xs with
        | none => none
        | some p => some (store m a 8 (addr os.length).toNat, os ++ [.pack r xs.length p])
    | _ => none

/-- The loop over arguments, with their places: ffi.c 982-992. -/
def genAll (F : F32) (junk : Nat) (addr : Nat → BitVec 64) (init : Nat → Mem) :
    List Arg → List V → List Int → Mem → List Obj → Option (Mem × List Obj)
  | t :: ts, v :: vs, a :: as, m, os =>
    match genArg F junk addr init t v m os a with
    | none => none
    | some (m', os') => genAll F junk addr init ts vs as m' os'
  | [], [], [], m, os => some (m, os)
  | _, _, _, _, _ => none

/-- The foreign call: it changes the contents of buffers. -/
def applyC (C : Callee) : Nat → List Obj → List Obj
  | _, [] => []
  | k, .buf ia m :: os => .buf ia (C.mem k m) :: applyC C (k + 1) os
  | k, .pack r ia p :: os => .pack r ia (C.pk k p) :: applyC C (k + 1) os
  | k, .ns a t :: os => .ns a t :: applyC C (k + 1) os

/-- Outcome of reading: a value and the remaining objects, an error, or undefined
behavior: an object that is missing, left over, or of another kind than assumed. -/
inductive Upd (α : Type)
  | ok (r : α) (os : List Obj)
  | err
  | ub

mutual
/-- `readUpdatedObj` without a mutable pointer: only moves on.  ffi.c 903-948. -/
def skip : Ty → List Obj → Option (List Obj)
  | .ptr _, os => match os with | [] => none | _ :: os => some os
  | .agg _ _ fs, os => skips fs os
  | _, os => some os
def skips : Flds → List Obj → Option (List Obj)
  | .nil, os => some os
  | .cons _ t rest, os =>
    match skip t os with
    | none => none
    | some os' => skips rest os'
end

/-- The elements of a buffer: `readU8Bits` … `readF32Bits` (ffi.c 665-668), the array
itself for the other types, or the loop over structures, 928-929. -/
def readBuf (F : F32) (e : Ty) (m : Mem) : Nat → Nat → Option (List V)
  | 0, _ => some []
  | n + 1, i =>
    match readAny F e m (i * calcMemSize e : Nat) with
    | none => none
    | some y =>
      match readBuf F e m n (i + 1) with
      | none => none
      | some ys => some (y :: ys)

/-- Whether the object itself is the result for `&e`: ffi.c 911-912. -/
def direct : Ty → Bool
  | .sc .i8 | .sc .i16 | .sc .i32 | .sc .f64 => true
  | _ => false

/-- `readUpdatedObj`: ffi.c 903-948; `none` is a value which isn't used. -/
def readUpd (F : F32) : Arg → List Obj → Upd (Option V)
  | .val t, os =>
    match skip t os with
    | none => .ub
    | some os' => .ok none os'
  | .mut e, os =>
    match os with
    | .buf ia m :: os' =>
      match readBuf F e m ia 0 with
      | none => .err
      | some ys => .ok (some (.arr ys)) os'
    | .ns a t :: os' => if direct e then .ok (some (.ptr a t)) os' else .ub
    | _ => .ub
  | .arr _ _, os => match os with | [] => .ub | _ :: os' => .ok none os'
  | .repr isMut _ _, os =>
    match os with
    | .pack r ia p :: os' => .ok (if isMut then some (.arr (elems r ia p)) else none) os'
    | .ns a t :: os' => .ok (if isMut then some (.ptr a t) else none) os'
    | _ => .ub

/-- The loop over arguments after the call, and the assertion after it: ffi.c 1028-1049. -/
def readAll (F : F32) : List Arg → List Obj → Upd (List V)
  | [], os => match os with | [] => .ok [] [] | _ :: _ => .ub
  | t :: ts, os =>
    match readUpd F t os with
    | .err => .err
    | .ub => .ub
    | .ok v os' =>
      match readAll F ts os' with
      | .err => .err
      | .ub => .ub
      | .ok vs os'' => .ok (match v with | none => vs | some v => v :: vs) os''

end Verif.FfiCall
