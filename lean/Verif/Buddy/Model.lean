/-!
# Model of the buddy allocator (`/repo/src/opt/mm_buddyTemplate.h`, `mm_buddyTemplate.c`, `mm_buddy.h`)

Pointer-level model: block headers at their addresses, bucket heads, `next` pointers inside empty blocks, the list `al`
of memory ranges obtained from the system, the per-bucket counters. Address 0 is `NULL`. `mul` is the template
parameter `MUL` (1 for `mm_buddy`, and 3 for the second heap of `mm_2buddy`): a block in bucket `b` has `mul<<b` bytes.
Simplifications: only the fields type, mmInfo (without the collector's mark bit) and next of a header are kept; type is
empty, freed or anything else (`live`); `u64` sizes are naturals (all of them below 2^48). The collections started from
`allocateMore` are histories in which the collector's frees and a merge come before the (retried) allocation.
-/
namespace Verif.Buddy

/-- `t_empty`, `t_freed`, any other type. -/
inductive Kind where
  | empty | freed | live
deriving DecidableEq, Repr

/-- The fields of `Value` / `EmptyValue` used by the allocator (mm_buddy.h 3-7). -/
structure Hdr where
  kind : Kind
  info : Nat
  next : Nat
deriving DecidableEq, Repr

/-- The allocator's global state: headers, `buckets`, `ctrs`, `al`, `mm_heapAlloc`. -/
structure Heap where
  hdr : Nat → Hdr
  bkt : Nat → Nat
  ctr : Nat → Int
  al : List (Nat × Nat)
  heapAlloc : Nat

/-- `BSZ(X)` (mm_buddy.c 14, mm_2buddy.c) -/
def bsz (mul b : Nat) : Nat := mul * 2^b

/-- Pointwise update. -/
def upd {α} (f : Nat → α) (i : Nat) (v : α) : Nat → α := fun j => if j = i then v else f j

def Heap.setHdr (h : Heap) (a : Nat) (x : Hdr) : Heap := { h with hdr := upd h.hdr a x }
def Heap.setBkt (h : Heap) (b a : Nat) : Heap := { h with bkt := upd h.bkt b a }

/-- `LOG2(X)` (mm_buddy.h 21): `64-CLZ(X-1)`, for `X ≥ 2` -/
def LOG2 (x : Nat) : Nat := Nat.log2 (x - 1) + 1

/-- mm_buddyTemplate.h 5-23 `freeLink`, with `link` -/
def freeLink (h : Heap) (x : Nat) (link : Bool) : Heap :=
  let b := (h.hdr x).info
  let h := { h with ctr := upd h.ctr b (h.ctr b - 1) }
  let h := if link then (h.setHdr x { h.hdr x with next := h.bkt b }).setBkt b x else h
  h.setHdr x { h.hdr x with kind := .empty }

/-- mm_buddyTemplate.h 25-27 `free` -/
def free (h : Heap) (x : Nat) : Heap := freeLink h x true

/-- mm_buddyTemplate.h 33-38: the part of `allocL` after `x` was found non-null. -/
def take (h : Heap) (b : Nat) : Nat × Heap :=
  let x := h.bkt b
  let h := h.setBkt b (h.hdr x).next
  let h := { h with ctr := upd h.ctr b (h.ctr b + 1) }
  (x, h.setHdr x { h.hdr x with kind := .live, info := b })

/-- mm_buddyTemplate.c 18-26: the loop of `splitTo`, from `to+n` down to `to`. -/
def splitLoop (mul : Nat) (h : Heap) (c to : Nat) : Nat → Heap
  | 0 => h
  | n+1 =>
    let f := to + n
    let b := c + bsz mul f
    let h := h.setHdr b ⟨.empty, f, h.bkt f⟩
    splitLoop mul (h.setBkt f b) c to n

/-- mm_buddyTemplate.c 16-30 `splitTo` -/
def splitTo (mul : Nat) (h : Heap) (c frm to : Nat) : Heap :=
  let h := h.setHdr c { h.hdr c with info := to }
  let h := splitLoop mul h c to (frm - to)
  let h := h.setHdr c { h.hdr c with next := h.bkt to }
  h.setBkt to c

/-- mm_buddyTemplate.c 104-113: `while (true) { if (from>=63) …; from++; if (buckets[from]) break; }` with `k = 63-from`. -/
def findFrom (bkt : Nat → Nat) : Nat → Option Nat
  | 0 => none
  | k+1 => if bkt (63 - k) ≠ 0 then some (63 - k) else findFrom bkt k

/-- Result of an allocation. `oom` is an out-of-memory error or fatal exit; `stuck` would be another round of
`allocL` → `allocS` with an empty bucket. -/
inductive Res where
  | ok (x : Nat) (h : Heap) | oom | stuck

/-- `ALSZ` (mm_buddy.c 13) -/
def ALSZ : Nat := 20

/-- mm_buddyTemplate.c 36-96 `allocateMore`, up to the final `allocL`; `os` is the address obtained (after the padding
is skipped; the padding is left out of the 2^48 check) or a failure; `max` is `mm_heapMax`. -/
def allocateMore (mul max : Nat) (os : Option Nat) (h : Heap) (to : Nat) : Option Heap :=
  let frm := if ALSZ < to then to else ALSZ
  let sz := bsz mul frm
  if h.heapAlloc + sz > max then none
  else match os with
    | none => none
    | some mem =>
      if mem + sz > 2^48 then none
      else
        let h := { h with heapAlloc := h.heapAlloc + sz, al := h.al ++ [(mem, sz)] }
        let h := h.setHdr mem ⟨.empty, frm, 0⟩
        some (splitTo mul h mem frm to)

/-- mm_buddyTemplate.h 30-49 `allocL` with mm_buddyTemplate.c 100-117 `allocS` and the last line of `allocateMore` -/
def allocL (mul max : Nat) (os : Option Nat) (h : Heap) (b : Nat) : Res :=
  let again (h : Heap) : Res := if h.bkt b = 0 then .stuck else .ok (take h b).1 (take h b).2
  if h.bkt b ≠ 0 then .ok (take h b).1 (take h b).2
  else match findFrom h.bkt (63 - b) with
    | some frm =>
      let c := h.bkt frm
      let h := h.setBkt frm (h.hdr c).next
      again (splitTo mul h c frm b)
    | none => match allocateMore mul max os h b with
      | none => .oom
      | some h => again h

/-- mm_buddy.h 24-38 `mm_alloc` -/
def mm_alloc (max : Nat) (os : Option Nat) (h : Heap) (sz : Nat) : Res := allocL 1 max os h (LOG2 sz)

/-- mm_buddyTemplate.c 160-176: redistribute `n` units of free memory at `start`, lowest set bit first. -/
def flush (mul : Nat) (h : Heap) (start n : Nat) : Heap :=
  if _hn : n = 0 then h
  else
    let left := n &&& (n - 1)
    let curr := n ^^^ left
    let b := Nat.log2 curr
    let h := (h.setHdr start ⟨.empty, b, h.bkt b⟩).setBkt b start
    flush mul h (start + curr * mul) left
termination_by n
decreasing_by
  have := Nat.and_le_right (n := n) (m := n - 1)
  omega

/-- mm_buddyTemplate.c 151-185: the walk over one memory range `…e`, at `c` with `es = emptySize`. `none`: the walk does
not arrive at `e` within `fuel` blocks. -/
def walk (mul : Nat) (e : Nat) (h : Heap) (c es : Nat) : Nat → Option Heap
  | 0 => none
  | fuel+1 =>
    let h := if (h.hdr c).kind = .freed then freeLink h c false else h
    let next := c + bsz mul (h.hdr c).info
    let p : Heap × Nat :=
      if (h.hdr c).kind = .empty then (h, es + 2^(h.hdr c).info)
      else if es > 0 then (flush mul h (c - es * mul) es, 0)
      else (h, es)
    if next = e then some (if p.2 ≠ 0 then flush mul p.1 (e - p.2 * mul) p.2 else p.1)
    else walk mul e p.1 next p.2 fuel

/-- mm_buddyTemplate.c 145-186: all ranges in turn. -/
def walkAll (mul : Nat) (h : Heap) : List (Nat × Nat) → Option Heap
  | [] => some h
  | (p, sz) :: rs => (walk mul (p + sz) h p 0 sz).bind fun h => walkAll mul h rs

/-- mm_buddyTemplate.c 142-187 `freeFreedAndMerge` -/
def freeFreedAndMerge (mul : Nat) (h : Heap) : Option Heap :=
  walkAll mul { h with bkt := fun _ => 0 } h.al

/-- gc.c: the collector gives an unreachable object the type `t_freed`. -/
def kill (h : Heap) (x : Nat) : Heap := h.setHdr x { h.hdr x with kind := .freed }

/-- mm_buddyTemplate.c 121-127 `forHeap`: the non-empty blocks of one range. -/
def blocksOf (mul : Nat) (e : Nat) (h : Heap) (s : Nat) : Nat → Option (List Nat)
  | 0 => if s = e then some [] else none
  | fuel+1 =>
    if s = e then some []
    else (blocksOf mul e h (s + bsz mul (h.hdr s).info) fuel).map fun l =>
      if (h.hdr s).kind ≠ .empty then s :: l else l

/-- mm_buddyTemplate.c 119-129 `forHeap`: the addresses the callback is called on. -/
def forHeap (mul : Nat) (h : Heap) : List (Nat × Nat) → Option (List Nat)
  | [] => some []
  | (p, sz) :: rs => (blocksOf mul (p + sz) h p sz).bind fun l => (forHeap mul h rs).map (l ++ ·)

/-- mm_buddyTemplate.c 190-194 `heapUsed` -/
def heapUsed (mul : Nat) (h : Heap) : Int := ((List.range 64).map fun b => h.ctr b * bsz mul b).sum

/-- The initial state: globals are zero. -/
def init : Heap := ⟨fun _ => ⟨.live, 0, 0⟩, fun _ => 0, fun _ => 0, [], 0⟩

end Verif.Buddy
