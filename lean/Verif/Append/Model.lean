import Verif.Squeeze.Model
/-!
# Joining and appending: model

`src/utils/mut.h` 72-75, 156-235, `src/utils/mut.c` 4-24, 77-130, 138-330 (sets and copies), 937-946: the element
type of a combination, appending a value (`vec_add`) and joining two arrays (`arr_join_inline`), both of which
write into the buffer of their left argument when they hold its only reference and it has room.

A heap of arrays with reference counts.  An array owns a buffer of as many elements as its allocation has room
for, of which the first `ia` are its elements, or is a slice of another array.  Array elements of generic arrays
are names; their own reference counts are not modelled (that is `Verif.Gc`).  Shapes and fills are not modelled.
Sizes are those of the default configuration: 32-bit lengths, 24 bytes before the elements (32 with a fill).
-/
namespace Verif.Append
open Verif.Squeeze
open Verif.Bins (ofInt)

/-- `elNum`, `elChr`, `src/h.h`. -/
def isNumEl (t : El) : Bool := t.rank ≤ 4
def isChrEl (t : El) : Bool := 5 ≤ t.rank && t.rank ≤ 7

/-- `el_or`: `mut.h` 72-75, table filled by `mutF_init`, `mut.c` 937-946 (without `el_MAX`). -/
def elOr (i j : El) : El :=
  if isNumEl i && isNumEl j then (if i.rank > j.rank then i else j)
  else if isChrEl i && isChrEl j then (if i.rank > j.rank then i else j)
  else .B

/-! ## Buffers -/

/-- Number of stored elements. -/
def len (d : Data) : Nat := d.elems.length

/-- The elements from `off`, `n` of them. -/
def sub (off n : Nat) : Data → Data
  | .bit xs => .bit ((xs.drop off).take n)
  | .i8 xs => .i8 ((xs.drop off).take n)
  | .i16 xs => .i16 ((xs.drop off).take n)
  | .i32 xs => .i32 ((xs.drop off).take n)
  | .f64 xs => .f64 ((xs.drop off).take n)
  | .c8 xs => .c8 ((xs.drop off).take n)
  | .c16 xs => .c16 ((xs.drop off).take n)
  | .c32 xs => .c32 ((xs.drop off).take n)
  | .B xs => .B ((xs.drop off).take n)

/-- Overwrite the elements from `i`; outside of the buffer: no meaning. -/
def over {α} (xs : List α) (i : Nat) (ys : List α) : Option (List α) :=
  if i + ys.length ≤ xs.length then some (xs.take i ++ ys ++ xs.drop (i + ys.length)) else none

/-- Write elements of the type of the buffer at `i`. -/
def write (d : Data) (i : Nat) (e : Data) : Option Data :=
  match d, e with
  | .bit xs, .bit ys => (over xs i ys).map .bit
  | .i8 xs, .i8 ys => (over xs i ys).map .i8
  | .i16 xs, .i16 ys => (over xs i ys).map .i16
  | .i32 xs, .i32 ys => (over xs i ys).map .i32
  | .f64 xs, .f64 ys => (over xs i ys).map .f64
  | .c8 xs, .c8 ys => (over xs i ys).map .c8
  | .c16 xs, .c16 ys => (over xs i ys).map .c16
  | .c32 xs, .c32 ys => (over xs i ys).map .c32
  | .B xs, .B ys => (over xs i ys).map .B
  | _, _ => none

/-- Bytes before the elements: `offsetof(TyArr,a)`, `offsetof(HArr,a)`, `offsetof(FillArr,a)`. -/
def head (fill : Bool) : Nat := if fill then 32 else 24

/-- `BITARR_SZ`, `TYARR_SZ`, `fsizeof(HArr,a,B,n)`, `fsizeof(FillArr,a,B,n)`: `core/numarr.h` 71,
`core/stuff.h` 71, `h.h` 119. -/
def size (fill : Bool) (t : El) (n : Nat) : Nat :=
  head fill + match t with
    | .bit => 8 * ((n + 63) / 64)
    | .i8 | .c8 => n
    | .i16 | .c16 => 2 * n
    | .i32 | .c32 => 4 * n
    | .f64 | .B => 8 * n

/-- The number of elements that an allocation of a given size has room for. -/
def cap (fill : Bool) (t : El) (bytes : Nat) : Nat :=
  let b := bytes - head fill
  match t with
    | .bit => b / 8 * 64
    | .i8 | .c8 => b
    | .i16 | .c16 => b / 2
    | .i32 | .c32 => b / 4
    | .f64 | .B => b / 8

/-- A buffer of `n` elements with whatever memory contains. -/
def fresh (t : El) (junk : Nat → BitVec 64) (n : Nat) : Data :=
  match t with
  | .bit => .bit ((List.range n).map fun i => (junk i).getLsbD 0)
  | .i8 => .i8 ((List.range n).map fun i => (junk i).setWidth 8)
  | .i16 => .i16 ((List.range n).map fun i => (junk i).setWidth 16)
  | .i32 => .i32 ((List.range n).map fun i => (junk i).setWidth 32)
  | .f64 => .f64 ((List.range n).map junk)
  | .c8 => .c8 ((List.range n).map fun i => (junk i).setWidth 8)
  | .c16 => .c16 ((List.range n).map fun i => (junk i).setWidth 16)
  | .c32 => .c32 ((List.range n).map fun i => (junk i).setWidth 32)
  | .B => .B ((List.range n).map fun i => .num (junk i))

/-- `copyFns[t]`, `m_copyG`: `mut.c` 214-330.  The source type must be one that `t` contains (`default: UD`). -/
def copyTo (bad : BitVec 64 → BitVec 32) (t : El) (d : Data) : Option Data :=
  if elOr t d.ty = t then conv bad t d else none

/-- One value as an element: `m_setG`, `mut.c` 146-155, and the writes of `inplace_add`, `mut.h` 212-222, with
`o2bG`, `o2iG`, `o2cG`, `o2fG`, `h.h` 513-517. -/
def single (bad : BitVec 64 → BitVec 32) (t : El) (v : Val) : Option Data :=
  match t, v with
  | .bit, .num f => some (.bit [(f <<< 1) != 0])
  | .i8, .num f => some (.i8 [(toI32 bad f).setWidth 8])
  | .i16, .num f => some (.i16 [(toI32 bad f).setWidth 16])
  | .i32, .num f => some (.i32 [toI32 bad f])
  | .f64, .num f => some (.f64 [f])
  | .c8, .chr c => some (.c8 [c.setWidth 8])
  | .c16, .chr c => some (.c16 [c.setWidth 16])
  | .c32, .chr c => some (.c32 [c])
  | .B, v => some (.B [v])
  | _, _ => none

/-- `q_bit`, `q_i8`, … `q_f64`, `h.h` 490-506; generic arrays take everything. -/
def storable (bad : BitVec 64 → BitVec 32) (t : El) (v : Val) : Bool :=
  match t, v with
  | .bit, .num f => feq f 0 || feq f (ofInt 1)
  | .i8, .num f => feq f (ofInt ((toI32 bad f).setWidth 8).toInt)
  | .i16, .num f => feq f (ofInt ((toI32 bad f).setWidth 16).toInt)
  | .i32, .num f => qI32 bad f
  | .f64, .num _ => true
  | .c8, .chr c => c >>> 8 == 0
  | .c16, .chr c => c >>> 16 == 0
  | .c32, .chr _ => true
  | .B, _ => true
  | _, _ => false

/-! ## The heap -/

/-- What an array is. -/
inductive Body
  /-- `t_bitarr`, `t_i8arr`, …, `t_harr` (`fill = false`), `t_fillarr` (`fill = true`): a buffer. -/
  | own (fill : Bool) (buf : Data)
  /-- A slice of array `p` from element `off`; `t_fillslice` if `fill`. -/
  | slice (fill : Bool) (p off : Nat)

/-- An array: `Arr`, `h.h` 294-308; `bytes` is `mm_sizeUsable`. -/
structure Obj where
  body : Body
  ia : Nat
  bytes : Nat
  refc : Nat
  squoze : Bool
  asc : Bool
  dsc : Bool

/-- Freed memory. -/
def dead : Obj := ⟨.own false (.B []), 0, 0, 0, false, false, false⟩

/-- The heap, and the variables, each holding a reference. -/
structure State where
  heap : List Obj
  vars : List Nat

/-- The elements of an array, as stored. -/
def view (h : List Obj) (id : Nat) : Option Data :=
  match h[id]? with
  | none => none
  | some o =>
    match o.body with
    | .own _ buf => some (sub 0 o.ia buf)
    | .slice _ p off =>
      match (h[p]?).map Obj.body with
      | some (.own _ buf) => some (sub off o.ia buf)
      | _ => none

/-- Result of an operation: a state, an error that is thrown, or something without meaning in C. -/
inductive Res
  | ok (s : State)
  | error
  | undef

/-- The counter of an array goes down; arrays without references are freed (`dec`, `tyarr_freeO`), except that
the array that a slice is of keeps its count. -/
def dec1 (h : List Obj) (id : Nat) : List Obj :=
  match h[id]? with
  | none => h
  | some o => if o.refc ≤ 1 then h.set id dead else h.set id { o with refc := o.refc - 1 }

/-- `dec`, with `slice_freeO`, `core/stuff.c`: a freed slice drops its reference to the array it is of. -/
def dec (h : List Obj) (id : Nat) : List Obj :=
  match h[id]? with
  | none => h
  | some o =>
    match o.body with
    | .slice _ p _ => if o.refc ≤ 1 then dec1 (dec1 h id) p else dec1 h id
    | .own _ _ => dec1 h id

/-- How an allocation turns out: how much more room than asked for, and what the memory contains. -/
structure Alloc where
  extra : Nat
  junk : Nat → BitVec 64

/-- `mut_make_arr`, `mut.c` 4-19, with `CHECK_BITARR_IA` (`core/numarr.h` 68) and `CHECK_IA` (`h.h` 172, in
`m_harrUp`, `core/harr.h` 32); lengths are stored in 32 bits (`m_arrUnchecked`, `core/stuff.h` 80-84).  The
result is a buffer for `n` elements. -/
def make (a : Alloc) (t : El) (n : Nat) : Option Obj :=
  if t = .bit ∧ n > 4294967295 - 65 then none
  else if t = .B ∧ n > 2147483648 / 8 - 1000 then none
  else
    let bytes := size false t n + a.extra
    some ⟨.own false (fresh t a.junk (cap false t bytes)), n % 4294967296, bytes, 1, false, false, false⟩

/-- A new array with the given parts, each written after the one before; the old array of variable `i` is
dropped. -/
def build (s : State) (i id : Nat) (a : Alloc) (t : El) (n m : Nat) (d e : Option Data) : Res :=
  match make a t n with
  | none => .error
  | some o =>
    match d, e with
    | some d, some e =>
      match o.body with
      | .own f buf =>
        match write buf 0 d with
        | none => .undef
        | some buf =>
          match write buf m e with
          | none => .undef
          | some buf => .ok ⟨dec (s.heap ++ [{ o with body := .own f buf }]) id, s.vars.set i s.heap.length⟩
      | _ => .undef
    | _, _ => .undef

/-- The flags that stay: `FL_KEEP(w,fl_squoze)`. -/
def Obj.keep (o : Obj) : Obj := { o with asc := false, dsc := false }

/-- `inplace_add`, `mut.h` 205-230: `some` if it succeeds.  `usz ria = wia+1` has 32 bits. -/
def inplaceAdd (bad : BitVec 64 → BitVec 32) (s : State) (id : Nat) (v : Val) : Option Res :=
  match s.heap[id]? with
  | none => some .undef
  | some o =>
    let ria := (o.ia + 1) % 4294967296
    match o.body with
    | .own false buf =>
      if o.refc = 1 ∧ size false buf.ty ria < o.bytes ∧ storable bad buf.ty v = true then
        match single bad buf.ty v with
        | none => some .undef
        | some e =>
          match write buf o.ia e with
          | none => some .undef
          | some buf => some (.ok ⟨s.heap.set id { o.keep with body := .own false buf, ia := ria }, s.vars⟩)
      else none
    | _ => none

/-- `vec_add`, `mut.h` 232-235, and `vec_addF`, `mut.c` 77-84, for the array of variable `i`. -/
def vecAdd (bad : BitVec 64 → BitVec 32) (s : State) (i : Nat) (v : Val) (a : Alloc) : Res :=
  match s.vars[i]? with
  | none => .ok s
  | some id =>
    match inplaceAdd bad s id v with
    | some r => r
    | none =>
      match view s.heap id with
      | none => .undef
      | some w =>
        let t := elOr w.ty (selfTy bad v)
        build s i id a t ((len w + 1) % 4294967296) (len w) (copyTo bad t w) (single bad t v)

/-- The tests on the element type of the right argument, `mut.h` 170-179. -/
def fitsIn (we xe : El) : Bool :=
  match we with
  | .bit => xe = .bit
  | .i8 => xe.rank ≤ El.i8.rank
  | .i16 => xe.rank ≤ El.i16.rank
  | .i32 => xe.rank ≤ El.i32.rank
  | .f64 => xe.rank ≤ El.f64.rank
  | .c8 => xe = .c8
  | .c16 => xe.rank ≤ El.c16.rank && El.c8.rank ≤ xe.rank
  | .c32 => xe.rank ≤ El.c32.rank && El.c8.rank ≤ xe.rank
  | .B => true

/-- Label `yes`, `mut.h` 197-202: array `id` with buffer `buf` gets the elements of `x` after its own. -/
def extend (bad : BitVec 64 → BitVec 32) (s : State) (i id : Nat) (o : Obj) (fill : Bool) (buf : Data) (wia ria : Nat) (x : Data) : Res :=
  match copyTo bad buf.ty x with
  | none => .undef
  | some e =>
    match write buf wia e with
    | none => .undef
    | some buf => .ok ⟨s.heap.set id { o.keep with body := .own fill buf, ia := ria % 4294967296 }, s.vars.set i id⟩

/-- Label `no`, `mut.h` 187-195. -/
def joinNew (bad : BitVec 64 → BitVec 32) (s : State) (i id : Nat) (w x : Data) (ria : Nat) (a : Alloc) : Res :=
  build s i id a (elOr w.ty x.ty) ria (len w) (copyTo bad (elOr w.ty x.ty) w) (copyTo bad (elOr w.ty x.ty) x)

/-- `arr_join_inline`, `mut.h` 159-203, for the array of variable `i` with that of variable `j`, whose reference
stays.  `fillslice_getJoin`, `mut.c` 105-130: `usz ria` and `usz wsz` have 32 bits. -/
def join (bad : BitVec 64 → BitVec 32) (s : State) (i j : Nat) (a : Alloc) : Res :=
  match s.vars[i]?, s.vars[j]? with
  | some id, some jd =>
    match s.heap[id]?, view s.heap id, view s.heap jd with
    | some o, some w, some x =>
      let ria := len w + len x
      if o.refc = 1 then
        match o.body with
        | .own fill buf =>
          if size fill buf.ty ria < o.bytes ∧ fitsIn buf.ty x.ty = true then extend bad s i id o fill buf o.ia ria x
          else joinNew bad s i id w x ria a
        | .slice true p off =>
          match s.heap[p]? with
          | some q =>
            match q.body with
            | .own pf buf =>
              if q.refc = 1 ∧ buf.ty = .B ∧ off = 0 ∧ q.ia = o.ia ∧
                  size pf .B (ria % 4294967296) < q.bytes % 4294967296 then
                -- the slice is freed, its reference to `p` becomes that of the variable
                extend bad ⟨s.heap.set id dead, s.vars⟩ i p q pf buf o.ia ria x
              else joinNew bad s i id w x ria a
            | _ => joinNew bad s i id w x ria a
          | none => .undef
        | _ => joinNew bad s i id w x ria a
      else joinNew bad s i id w x ria a
    | _, _, _ => .undef
  | _, _ => .ok s

/-! ## Histories -/

/-- What a program does with its arrays. -/
inductive Op
  /-- A new array, in a buffer with room. -/
  | new (fill : Bool) (d : Data) (a : Alloc)
  /-- Another variable with the same array. -/
  | share (i : Nat)
  /-- A variable goes away. -/
  | drop (i : Nat)
  /-- A slice of an array, in a new variable. -/
  | slice (fill : Bool) (i off n : Nat)
  /-- `vec_add`. -/
  | add (i : Nat) (v : Val) (a : Alloc)
  /-- `arr_join_inline`. -/
  | join (i j : Nat) (a : Alloc)
  /-- `squeeze_any`. -/
  | squeeze (i : Nat) (a : Alloc)
  /-- A function finds that an array is sorted and notes it (`FL_SET` of `fl_asc`, `fl_dsc`). -/
  | mark (i : Nat) (asc dsc : Bool)

/-- `m_c…arrv`, `m_harrUv`, `m_fillarrp`: a new array with given elements. -/
def newObj (fill : Bool) (d : Data) (a : Alloc) : Option Obj :=
  let bytes := size fill d.ty (len d) + a.extra
  (write (fresh d.ty a.junk (cap fill d.ty bytes)) 0 d).map fun buf => ⟨.own fill buf, len d, bytes, 1, false, false, false⟩

/-- `TI(x,slice)`, `core/tyarrTemplate.c` 5-13, `core/harr.c` 28-29, `core/fillarr.c` 39-40 (bit arrays, which are
copied, `core/tyarr.c` 76-81, are a case of `new`): a slice of a slice is one of the same array.  The array
gets another reference. -/
def mkSlice (s : State) (fill : Bool) (i off n : Nat) : Res :=
  match s.vars[i]? with
  | none => .ok s
  | some id =>
    match s.heap[id]? with
    | none => .undef
    | some o =>
      if off + n ≤ o.ia then
        match o.body with
        | .own _ _ =>
          .ok ⟨s.heap.set id { o with refc := o.refc + 1 } ++ [⟨.slice fill id off, n, 0, 1, false, false, false⟩],
            s.vars ++ [s.heap.length]⟩
        | .slice _ p b =>
          match s.heap[p]? with
          | none => .undef
          | some q => .ok ⟨s.heap.set p { q with refc := q.refc + 1 } ++ [⟨.slice fill p (b + off), n, 0, 1, false, false, false⟩],
              s.vars ++ [s.heap.length]⟩
      else .ok s

/-- `squeeze_any` of the array of variable `i`: flags are set in place, copies are new arrays. -/
def squeeze (bad : BitVec 64 → BitVec 32) (s : State) (i : Nat) (a : Alloc) : Res :=
  match s.vars[i]? with
  | none => .ok s
  | some id =>
    match s.heap[id]?, view s.heap id with
    | some o, some d =>
      match squeezeAny bad ⟨d, o.squoze, o.asc, o.dsc⟩ with
      | none => .undef
      | some r =>
        if r.data.ty = d.ty then .ok ⟨s.heap.set id { o with squoze := r.squoze, asc := r.asc, dsc := r.dsc }, s.vars⟩
        else
          match newObj false r.data a with
          | none => .undef
          | some n => .ok ⟨dec (s.heap ++ [{ n with squoze := r.squoze, asc := r.asc, dsc := r.dsc }]) id, s.vars.set i s.heap.length⟩
    | _, _ => .undef

/-- `FL_SET(x, fl_asc)`, `FL_SET(x, fl_dsc)` by a caller that has found the array to be sorted. -/
def mark (s : State) (i : Nat) (asc dsc : Bool) : Res :=
  match s.vars[i]? with
  | none => .ok s
  | some id =>
    match s.heap[id]?, view s.heap id with
    | some o, some d =>
      if (asc = true → d.ints.Pairwise (· ≤ ·)) ∧ (dsc = true → d.ints.Pairwise (· ≥ ·)) then
        .ok ⟨s.heap.set id { o with asc := o.asc || asc, dsc := o.dsc || dsc }, s.vars⟩
      else .ok s
    | _, _ => .undef

def step (bad : BitVec 64 → BitVec 32) (s : State) : Op → Res
  | .new fill d a =>
    if fill = true ∧ d.ty ≠ .B then .ok s
    else match newObj fill d a with
      | none => .undef
      | some o => .ok ⟨s.heap ++ [o], s.vars ++ [s.heap.length]⟩
  | .share i =>
    match s.vars[i]? with
    | none => .ok s
    | some id =>
      match s.heap[id]? with
      | none => .undef
      | some o => .ok ⟨s.heap.set id { o with refc := o.refc + 1 }, s.vars ++ [id]⟩
  | .drop i =>
    match s.vars[i]? with
    | none => .ok s
    | some id => .ok ⟨dec s.heap id, s.vars.eraseIdx i⟩
  | .slice fill i off n => mkSlice s fill i off n
  | .add i v a => vecAdd bad s i v a
  | .join i j a => join bad s i j a
  | .squeeze i a => squeeze bad s i a
  | .mark i asc dsc => mark s i asc dsc

/-- A history from an empty heap. -/
def run (bad : BitVec 64 → BitVec 32) (s : State) : List Op → Res
  | [] => .ok s
  | o :: os =>
    match step bad s o with
    | .ok s => run bad s os
    | r => r

def start : State := ⟨[], []⟩

end Verif.Append
