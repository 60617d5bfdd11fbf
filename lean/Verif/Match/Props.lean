import Verif.Match.Hash
import Verif.Append.Props
/-!
# Matching and hashing: properties (C45)

Heaps, `Match` and what a well-formed heap is are in `Verif.Match.Spec`.  A result `some` of `equalN` and `hashN`
means that memory is never read with a type that it does not have.
-/
namespace Verif.Match
open Verif.Squeeze (Val El Data Arr)
open Verif.Bits (Word)
open Verif.Bins (ofInt)

/-- `≡`: the program says yes exactly for matching values, whatever types the arrays are stored in and whatever the unused bits of
boolean arrays hold. -/
theorem match_exact (h : Heap) (depth : Nat → Nat) (G : Good h depth) (n : Nat) (w x : Val) (hn : vdepth depth w < n) :
    ∃ b, equalN h n false w x = some b ∧ (b = true ↔ Match h false w x) := equalN_spec G n false w x hn

/-- The variant used inside functions, for fills and by searches: a NaN matches a NaN. -/
theorem ematch_exact (h : Heap) (depth : Nat → Nat) (G : Good h depth) (n : Nat) (w x : Val) (hn : vdepth depth w < n) :
    ∃ b, equalN h n true w x = some b ∧ (b = true ↔ Match h true w x) := equalN_spec G n true w x hn

/-- Two arrays that are not generic, compared by the function of the table for their types: every pair of types is right. -/
theorem typed_exact (h : Heap) (r : Bool) (w x : Data) (tw tx : Nat → Word) (hl : w.elems.length = x.elems.length) (h0 : x.elems ≠ [])
    (hs : x.elems.length < 2^32) (nw : w.ty ≠ .B) (nx : x.ty ≠ .B) :
    ∃ b, matchTyped r w tw x tx x.elems.length = some b ∧
      (b = true ↔ ∀ (k : Nat) u v, w.elems[k]? = some u → x.elems[k]? = some v → Match h r u v) := by
  obtain ⟨b, eb, hb⟩ := typed_right (r := r) (tw := tw) (tx := tx) (List.length_pos_iff.2 h0) (by omega) hl rfl nw nx
  refine ⟨b, eb, hb.trans ⟨fun a k u v hu hv => ?_, fun a k u v hu hv => ?_⟩⟩
  · exact (atomEq_iff (plain_elems nw u (List.mem_of_getElem? hu)) (plain_elems nx v (List.mem_of_getElem? hv))).1 (a k u v hu hv)
  · exact (atomEq_iff (h := h) (plain_elems nw u (List.mem_of_getElem? hu)) (plain_elems nx v (List.mem_of_getElem? hv))).2 (a k u v hu hv)

/-- Matching values have the same hash, whatever they are stored in, whatever memory holds past them, and whatever the secret. -/
theorem match_same_hash (h : Heap) (depth : Nat → Nat) (G : Good h depth) (T : Truthful h) (P : Plain h) (E E' : Env) (A : Alike E E')
    (r : Bool) (n n' : Nat) (w x : Val) (hw : vdepth depth w < n) (hx : vdepth depth x < n') (pw : PlainVal w) (px : PlainVal x)
    (m : Match h r w x) : ∃ c, hashN E h n w = some c ∧ hashN E' h n' x = some c :=
  hashN_match G T P A n n' w x hw hx pw px (rel_of_match (match_mono m))

/-- The hash of bytes does not depend on what follows them, although up to 8 bytes are read at once. -/
theorem wyhash_bytes (p q : Nat → BitVec 8) (len : Nat) (seed : Word) (s : Nat → Word) (e : ∀ i, i < len → p i = q i) :
    wyhash p len seed s = wyhash q len seed s := wyhash_congr e seed

/-! ## Examples -/

/-- `2‿"ab"‿(2+⊢)` twice: once with the number as a double in a generic array and the string as 32-bit characters. -/
def demo : Heap
  | 0 => .arr [3] ⟨.B [.num (ofInt 2), .other 2, .other 4], false, false, false⟩ (fun _ => 0)
  | 1 => .arr [3] ⟨.B [.num (ofInt 2), .other 3, .other 5], false, false, false⟩ (fun _ => 0)
  | 2 => .arr [2] ⟨.c8 [97, 98], false, false, false⟩ (fun _ => 0)
  | 3 => .arr [2] ⟨.c32 [97, 98], false, false, false⟩ (fun _ => 0)
  | 4 => .der .fork [.num (ofInt 2), .other 6, .other 7]
  | 5 => .der .fork [.num (ofInt 2), .other 6, .other 7]
  | 8 => .arr [3] ⟨.bit [true, false, true], true, false, false⟩ (fun _ => 0xABC0)
  | 9 => .arr [3] ⟨.f64 [ofInt 1, 0x8000000000000000, ofInt 1], false, false, false⟩ (fun _ => 0)
  | 10 => .arr [1] ⟨.f64 [0x7FF8000000000000], false, false, false⟩ (fun _ => 0)
  | _ => .single

def demoDepth : Nat → Nat
  | 0 => 2 | 1 => 2 | 2 => 1 | 3 => 1 | 4 => 1 | 5 => 1 | 8 => 1 | 9 => 1 | 10 => 1 | _ => 0

def demoEnv : Env := ⟨wyp, fun i => BitVec.ofNat 64 (8*i), fun i _ => BitVec.ofNat 8 i, fun i _ => BitVec.ofNat 8 i, fun _ => 0⟩

example : Good demo demoDepth := by
  refine ⟨fun i j hj => ?_, fun i sh a s e => ?_, fun i sh a s e => ?_, fun i d ps e => ?_⟩
  · match i with
    | 0 | 1 | 2 | 3 | 4 | 5 | 6 | 7 | 8 | 9 | 10 => simp [demo, Obj.parts, Data.elems] at hj <;> rcases hj with rfl | rfl <;> decide
    | n+11 => simp [demo, Obj.parts] at hj
  · match i, e with
    | 0, e | 1, e | 2, e | 3, e | 8, e | 9, e | 10, e => cases e; decide
  · match i, e with
    | 0, e | 1, e | 2, e | 3, e | 8, e | 9, e | 10, e => cases e; decide
  · match i, e with
    | 0, e | 1, e | 2, e | 3, e | 6, e | 7, e | 8, e | 9, e | 10, e | _+11, e => cases e
    | 4, e | 5, e => cases e; rfl

example : equalN demo 4 false (.other 0) (.other 1) = some true := by decide +kernel
example : equalN demo 4 false (.other 8) (.other 9) = some true := by decide +kernel
example : equalN demo 4 false (.other 2) (.other 9) = some false := by decide +kernel
-- A list with a NaN does not match itself, except inside functions.
example : equalN demo 4 false (.other 10) (.other 10) = some false := by decide +kernel
example : equalN demo 4 true (.other 10) (.other 10) = some true := by decide +kernel
example : hashN demoEnv demo 4 (.other 0) = hashN demoEnv demo 4 (.other 1) ∧ (hashN demoEnv demo 4 (.other 0)).isSome = true := by decide +kernel
example : hashN demoEnv demo 4 (.other 8) = hashN demoEnv demo 4 (.other 9) := by decide +kernel
example : hashN demoEnv demo 4 (.other 8) ≠ hashN demoEnv demo 4 (.other 2) := by decide +kernel

example : Truthful demo := by
  intro i sh a s e
  match i, e with
  | 4, e | 5, e | 6, e | 7, e | _+11, e => cases e
  | 0, e | 1, e | 2, e | 3, e | 9, e | 10, e =>
    cases e
    exact ⟨(fun h => nomatch h), (fun h => nomatch h), (fun h => nomatch h)⟩
  | 8, e =>
    cases e
    exact ⟨fun _ => Or.inr ⟨Squeeze.elems_hold (.bit [true, false, true]), fun _ _ => Nat.zero_le _⟩, (fun h => nomatch h), (fun h => nomatch h)⟩

example : Plain demo := by
  intro i f hf
  match i with
  | 2 | 3 | 6 | 7 => simp [demo, Obj.parts, Data.elems] at hf
  | 0 | 1 | 4 | 5 => simp [demo, Obj.parts, Data.elems] at hf; subst hf; exact fun e => absurd e (by decide +kernel)
  | 8 | 9 =>
    have hf : Val.num f ∈ [Val.num (ofInt 1), .num 0, .num (ofInt 1)] ∨ Val.num f ∈ [Val.num (ofInt 1), .num 0x8000000000000000, .num (ofInt 1)] := by
      first | exact Or.inl hf | exact Or.inr hf
    simp at hf
    rcases hf with (rfl | rfl | rfl) | (rfl | rfl | rfl) <;> exact fun e => absurd e (by decide +kernel)
  | 10 => simp [demo, Obj.parts, Data.elems] at hf; subst hf; exact fun _ => Or.inl rfl
  | n+11 => simp [demo, Obj.parts] at hf

/-! ## What is wrong -/

/-- Three steps (an empty generic list, a squeeze that flags it, a number appended in place) give the list of the number 0 stored
generically and flagged as squeezed.  It matches a list of one bit, and its hash is another one: a search by hashing, or a •HashMap
with such lists as keys, does not find it. -/
theorem stale_flag_hash (bad : BitVec 64 → BitVec 32) : ∃ ops s x, Append.Short 2 [] ops ∧ Append.run bad Append.start ops = .ok s ∧
    (s.vars[0]?).bind (Append.arr s.heap ·) = some x ∧
    ∀ (E : Env), E.secret = wyp → ∀ h : Heap, h 0 = .arr [1] x (fun _ => 0) → h 1 = .arr [1] ⟨.bit [false], true, false, false⟩ (fun _ => 0) →
      Match h false (.other 0) (.other 1) ∧ ∃ c d, hashN E h 2 (.other 0) = some c ∧ hashN E h 2 (.other 1) = some d ∧ c ≠ d := by
  refine ⟨[.new false (.B []) ⟨16, fun _ => 0⟩, .squeeze 0 ⟨0, fun _ => 0⟩, .add 0 (.num 0) ⟨0, fun _ => 0⟩], _, ⟨.B [.num 0], true, false, false⟩,
    by decide +kernel, rfl, rfl, fun E hE h h0 h1 => ⟨?_, ?_⟩⟩
  · refine .arr h0 h1 rfl fun k u v hu hv => ?_
    match k with
    | 0 =>
      cases hu; cases hv
      exact .num (Or.inl ⟨by decide, by decide, by decide⟩)
    | k+1 => simp [Data.elems] at hu
  · refine ⟨wyhash (memOf (le 8 (wyhash64 (wyp 0) 0)) (fun _ => 0)) 8 (wyhash64 1 8) wyp,
      wyhash (memWords (bcl (wordsOf [false] fun _ => 0) 1)) 1 (wyhash64 1 0) wyp, ?_, ?_, by decide +kernel⟩
    · have e : hashN E h 2 (.other 0) = some (wyhash (memOf ([wyhash64 (E.secret 0) 0].flatMap (le 8)) (E.past 0)) 8 (wyhash64 1 8) E.secret) := by
        rw [hashN]; simp only [h0]; rfl
      rw [e, hE]
      exact congrArg some (wyhash_congr (fun k hk => by
        rw [List.flatMap_cons, List.flatMap_nil, List.append_nil]
        exact memOf_lt (by rw [length_le]; exact hk)) _)
    · rw [← hE, hashN]; simp only [h1]; rfl

end Verif.Match
