import Verif.Buddy.Model
/-! Specification of the allocator: histories of a program using it, and what the free lists hold. -/
namespace Verif.Buddy

/-- The allocator together with what its user holds: `live`, blocks in use with the requested sizes; `dead`, blocks whose
contents the collector discarded (type `t_freed`) but whose memory is not yet reusable. -/
structure State where
  heap : Heap
  live : List (Nat × Nat)
  dead : List Nat

/-- Memory given by the system is a new range: not at address 0 and disjoint from all earlier ranges. `n` bytes. -/
def FreshRange (h : Heap) (os : Option Nat) (n : Nat) : Prop :=
  ∀ p, os = some p → 0 < p ∧ ∀ r ∈ h.al, r.1 + r.2 ≤ p ∨ p + n ≤ r.1

/-- One call of the allocator. Requests are of 16 bytes (an object header and a pointer) to 2^62. A failed allocation
leaves everything as it was. Only blocks the program holds are freed, each once. -/
inductive Step (max : Nat) : State → State → Prop where
  | alloc {h live dead sz os x h'} : 16 ≤ sz → sz ≤ 2^62 → FreshRange h os (2 ^ Nat.max 20 (LOG2 sz)) → mm_alloc max os h sz = .ok x h' →
      Step max ⟨h, live, dead⟩ ⟨h', (x, sz) :: live, dead⟩
  | fail {h live dead sz os} : mm_alloc max os h sz = .oom → Step max ⟨h, live, dead⟩ ⟨h, live, dead⟩
  | free {h live dead x n} : (x, n) ∈ live → Step max ⟨h, live, dead⟩ ⟨free h x, live.erase (x, n), dead⟩
  | discard {h live dead x n} : (x, n) ∈ live → Step max ⟨h, live, dead⟩ ⟨kill h x, live.erase (x, n), x :: dead⟩
  | freeDead {h live dead x} : x ∈ dead → Step max ⟨h, live, dead⟩ ⟨free h x, live, dead.erase x⟩
  | merge {h live dead h'} : freeFreedAndMerge 1 h = some h' → Step max ⟨h, live, dead⟩ ⟨h', live, []⟩

/-- States reachable by any history. -/
inductive Reach (max : Nat) : State → Prop where
  | init : Reach max ⟨init, [], []⟩
  | step {s s'} : Reach max s → Step max s s' → Reach max s'

/-- `a` is met when following `next` pointers from `p` until `NULL`. -/
inductive OnList (h : Heap) : Nat → Nat → Prop where
  | here {p} : p ≠ 0 → OnList h p p
  | next {p a} : p ≠ 0 → OnList h (h.hdr p).next a → OnList h p a

/-- There is a free block of `2^b` bytes at `a`. -/
def FreeBlock (h : Heap) (a b : Nat) : Prop := b < 64 ∧ OnList h (h.bkt b) a

/-- Size in bytes of the block at `x`, free or in use. -/
def blockSize (h : Heap) (x : Nat) : Nat := 2 ^ (h.hdr x).info

/-- Ranges of `n` bytes at `x` and of `m` bytes at `y` do not overlap. -/
def Apart (x n y m : Nat) : Prop := x + n ≤ y ∨ y + m ≤ x

end Verif.Buddy
