import Verif.Append.Limits
/-!
# Joining and appending: properties (C12)

Elements and element types are those of `Verif.Squeeze.Spec`.  In a history, variables contain arrays that may be
shared, or be slices of each other; allocations have any amount of room to spare and any contents.  What the
variables should contain is in `Verif.Append.Spec`: each a list of its own.
-/
namespace Verif.Append
open Verif.Squeeze
open Verif.Bins (ofInt)

/-- `el_or`: the type for two arrays holds whatever either type holds, and is the least that does. -/
theorem el_or_least (a b : El) :
    (∀ v, Holds a v ∨ Holds b v → Holds (elOr a b) v) ∧
    ∀ c : El, (∀ v, Holds a v ∨ Holds b v → Holds c v) → (elOr a b).rank ≤ c.rank := by
  refine ⟨fun v h => ?_, fun c h => ?_⟩
  · rcases h with h | h
    · exact holds_mono h (elOr_left a b)
    · exact holds_mono h (elOr_right a b)
  · exact elOr_least (wit_only (h _ (.inl (wit_holds a)))) (wit_only (h _ (.inr (wit_holds b))))

example : elOr .bit .i16 = .i16 ∧ elOr .i32 .f64 = .f64 ∧ elOr .c8 .c32 = .c32 ∧ elOr .i8 .c8 = .B := by decide
-- Numbers and characters have only the generic type in common.
example : ¬ ∃ c : El, c.rank < 8 ∧ (∀ v, Holds .bit v ∨ Holds .c8 v → Holds c v) := by
  rintro ⟨c, hc, h⟩
  have := (el_or_least .bit .c8).2 c h
  have : (elOr .bit .c8).rank = 8 := rfl
  omega

/-- A value is put into an array in place only if the array's type can hold it. -/
theorem storable_holds (bad : BitVec 64 → BitVec 32) (t : El) (v : Val) : storable bad t v = true ↔ Holds t v :=
  storable_iff bad t v

example : storable (fun _ => 0) .i8 (.num (ofInt (-128))) = true ∧ storable (fun _ => 0) .i8 (.num (ofInt 128)) = false ∧
    storable (fun _ => 0) .i32 (.num 0x3FE0000000000000) = false ∧ storable (fun _ => 0) .c8 (.num 0) = false := by decide +kernel

/-- Whatever arrays a program makes, shares, slices, drops, appends to and joins, in place or not: every
variable contains its own list, as long as no list has 2^32 elements.  The only other outcome is an error,
when a list is longer than 268434456. -/
theorem append_history (bad : BitVec 64 → BitVec 32) (ops : List Op) (h : Short 4294967296 [] ops) :
    (∃ s, run bad start ops = .ok s ∧ Shows s (specRun [] ops)) ∨ (run bad start ops = .error ∧ ¬ Short 268434457 [] ops) := by
  rcases run_spec (closed_sorted bad) ops start [] (start_inv _) start_shows (.inl trivial) h with ⟨s, e, _, h⟩ | h
  · exact .inl ⟨s, e, h⟩
  · exact .inr h

/-- A history: an array of bits with room, shared, appended to in one variable; a slice; a join in place. -/
def demo : List Op :=
  [.new false (.bit [true, false]) ⟨100, fun _ => 0⟩, .add 0 (.num (ofInt 1)) ⟨0, fun _ => 0⟩, .share 0,
    .add 0 (.num (ofInt 300)) ⟨64, fun _ => 7⟩, .slice false 0 1 2, .drop 2, .join 0 1 ⟨5, fun _ => 0⟩, .squeeze 0 ⟨0, fun _ => 0⟩, .join 1 0 ⟨3, fun _ => 1⟩]

def decShort (n : Nat) : ∀ (ops : List Op) (xs : List (List Val)), Decidable (Short n xs ops)
  | [], xs => inferInstanceAs (Decidable (∀ x ∈ xs, x.length < n))
  | o :: os, xs =>
    have := decShort n os (specStep xs o)
    inferInstanceAs (Decidable ((∀ x ∈ xs, x.length < n) ∧ Short n (specStep xs o) os))

instance (n : Nat) (xs : List (List Val)) (ops : List Op) : Decidable (Short n xs ops) := decShort n ops xs

/-- The arrays of the variables after a history. -/
def shown (r : Res) : Option (List (Option Arr)) :=
  match r with
  | .ok s => some (s.vars.map fun id => arr s.heap id)
  | _ => none

example : Short 100 [] demo := by decide +kernel
-- The first variable was changed in place twice, and once with a new type; the second has its own elements.
example : shown (run (fun _ => 0) start demo) = some [some ⟨.i16 [1, 0, 1, 300, 1, 0, 1], true, false, false⟩,
    some ⟨.i16 [1, 0, 1, 1, 0, 1, 300, 1, 0, 1], false, false, false⟩] := by decide +kernel
example : specRun [] demo = [[1, 0, 1, 300, 1, 0, 1].map fun i => .num (ofInt i), [1, 0, 1, 1, 0, 1, 300, 1, 0, 1].map fun i => .num (ofInt i)] := by
  decide +kernel

/-- A history in place: a generic array with room, then only a slice of it, then a join. -/
def demo2 : List Op :=
  [.new true (.B [.chr 97, .num 0]) ⟨80, fun _ => 0⟩, .slice true 0 0 2, .drop 0, .new false (.c16 [955]) ⟨0, fun _ => 0⟩, .join 0 1 ⟨0, fun _ => 0⟩]

example : shown (run (fun _ => 0) start demo2) = some [some ⟨.B [.chr 97, .num 0, .chr 955], false, false, false⟩, some ⟨.c16 [955], false, false, false⟩] := by
  decide +kernel
-- No array was made for the join: the heap still has three.
example : (match run (fun _ => 0) start demo2 with | .ok s => s.heap.length | _ => 0) = 3 := by decide +kernel

/-- The flags of every array tell the truth (`Flags`): arrays flagged as squeezed have the least type, those
flagged as sorted are sorted.  Partial: for histories in which nothing is appended to an empty list; see
`stale_squeezed_flag`. -/
theorem flags_history_partial (bad : BitVec 64 → BitVec 32) (ops : List Op) (h : Short 4294967296 [] ops) (hne : Nonempty [] ops)
    (s : State) (hr : run bad start ops = .ok s) (id : Nat) (x : Arr) (hx : arr s.heap id = some x) : Flags x := by
  rcases run_spec (closed_flags bad) ops start [] (start_inv _) start_shows (.inr hne) h with ⟨s', e, hi, _⟩ | ⟨e, _⟩
  · rw [hr] at e
    injection e with e
    subst e
    exact hi.all hx
  · rw [hr] at e; cases e

/-- Flags about order tell the truth in all histories. -/
theorem order_flags_history (bad : BitVec 64 → BitVec 32) (ops : List Op) (h : Short 4294967296 [] ops)
    (s : State) (hr : run bad start ops = .ok s) (id : Nat) (x : Arr) (hx : arr s.heap id = some x) :
    (x.asc = true → x.data.ints.Pairwise (· ≤ ·)) ∧ (x.dsc = true → x.data.ints.Pairwise (· ≥ ·)) := by
  rcases run_spec (closed_sorted bad) ops start [] (start_inv _) start_shows (.inl trivial) h with ⟨s', e, hi, _⟩ | ⟨e, _⟩
  · rw [hr] at e
    injection e with e
    subst e
    have := hi.all hx
    exact ⟨this.asc, this.dsc⟩
  · rw [hr] at e; cases e

-- An array marked as ascending loses the mark when something is appended in place.
example : shown (run (fun _ => 0) start [.new false (.i8 [1, 5]) ⟨40, fun _ => 0⟩, .mark 0 true false]) = some [some ⟨.i8 [1, 5], false, true, false⟩] ∧
    shown (run (fun _ => 0) start [.new false (.i8 [1, 5]) ⟨40, fun _ => 0⟩, .mark 0 true false, .add 0 (.num (ofInt 3)) ⟨0, fun _ => 0⟩]) =
      some [some ⟨.i8 [1, 5, 3], false, false, false⟩] := by decide +kernel
example : Nonempty [] demo := by
  unfold demo
  simp only [Nonempty]
  refine ⟨trivial, ?_, trivial, ?_, trivial, trivial, ?_, trivial, ?_, trivial⟩ <;> decide +kernel

/-! ## What is wrong -/

/-- An empty generic array flagged as squeezed keeps the flag when a number is appended in place.  The result is
the list of one number stored as a generic array, which `squeeze_any` then leaves as it is. -/
theorem stale_squeezed_flag (bad : BitVec 64 → BitVec 32) : ∃ ops s x, Short 2 [] ops ∧ run bad start ops = .ok s ∧
    (s.vars[0]?).bind (arr s.heap ·) = some x ∧ x.squoze = true ∧ squeezeAny bad x = some x ∧ ¬ Least x.data.ty x.data.elems := by
  refine ⟨[.new false (.B []) ⟨16, fun _ => 0⟩, .squeeze 0 ⟨0, fun _ => 0⟩, .add 0 (.num 0) ⟨0, fun _ => 0⟩], _, ⟨.B [.num 0], true, false, false⟩,
    by decide +kernel, rfl, rfl, rfl, rfl, fun h => ?_⟩
  have := h.2 .f64 (by
    intro v hv
    cases hv with
    | head => exact ⟨0, rfl⟩
    | tail _ hv => cases hv)
  exact absurd this (by decide)

/-- Appending a character to a full array of 2^32 - 1 characters writes after the end of the array. -/
theorem append_writes_past_end (bad : BitVec 64 → BitVec 32) : ∃ xs : List (BitVec 8), ∃ a, xs.length < 4294967296 ∧
    ∀ b, run bad start [.new false (.c8 xs) a, .add 0 (.chr 97) b] = .undef := by
  obtain ⟨n, hn⟩ : ∃ n, n = 4294967295 := ⟨_, rfl⟩
  exact ⟨List.replicate n 97, ⟨0, fun _ => 0⟩, by rw [List.length_replicate]; omega, fun b => append_full bad n hn 97 ⟨0, fun _ => 0⟩ b rfl⟩

/-- Joining two arrays of 2^31 characters gives an empty array. -/
theorem join_loses_elements (bad : BitVec 64 → BitVec 32) : ∃ xs : List (BitVec 8), ∃ a, xs.length = 2147483648 ∧
    ∀ b, ∃ s id, run bad start [.new false (.c8 xs) a, .new false (.c8 xs) a, .join 0 1 b] = .ok s ∧
      s.vars[0]? = some id ∧ view s.heap id = some (.c8 []) := by
  obtain ⟨n, hn⟩ : ∃ n, n = 2147483648 := ⟨_, rfl⟩
  exact ⟨List.replicate n 97, ⟨0, fun _ => 0⟩, by rw [List.length_replicate, hn], fun b => join_halves bad n hn 97 ⟨0, fun _ => 0⟩ b rfl⟩

/-- Joining the longest array of bits to a slice of a generic array of 100 elements writes after the end of the
array. -/
theorem join_writes_past_end (bad : BitVec 64 → BitVec 32) : ∃ (xs : List Bool) (ys : List Val) (a : Alloc), xs.length = 4294967230 ∧ ys.length = 100 ∧
    ∀ b, run bad start [.new true (.B ys) a, .slice true 0 0 100, .drop 0, .new false (.bit xs) a, .join 0 1 b] = .undef := by
  obtain ⟨n, hn⟩ : ∃ n, n = 4294967230 := ⟨_, rfl⟩
  exact ⟨List.replicate n false, List.replicate 100 (.num 0), ⟨64, fun _ => 0⟩, by rw [List.length_replicate, hn], List.length_replicate,
    fun b => join_slice_past bad n hn false (.num 0) ⟨64, fun _ => 0⟩ b rfl⟩

end Verif.Append
