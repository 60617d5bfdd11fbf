import Verif.Merge.Main
/-!
# C53: merging arrays

`>𝕩` of an array whose elements have the same shape has the shape of `𝕩` before the shape of the elements, and the elements of the elements in order, unchanged, whatever types
they are stored with. It is an error when the shapes differ. The result has a fill exactly when all elements agree on it.
-/
namespace Verif.Merge
open Verif.Squeeze (Val Data Sames El)
open Verif.Rotate (prod)

/-- Arrays that exist: as many elements as the shape says, no more than 255 axes, and only those without a generic element type are `typed`. -/
def Arg.Ok (x : Arg) : Prop :=
  x.sh.length ≤ 255 ∧ prod x.sh = x.elems.length ∧ (∀ c ∈ x.elems, Full c ∧ c.part.sh.length ≤ 255) ∧ (∀ a, x = .typed a → a.data.ty ≠ .B)

/-- The elements of `𝕩`, as the user sees them. -/
def Arg.parts (x : Arg) : List Part := x.elems.map Cell.part

theorem alike_cells {x : Arg} {s : List Nat} (h : Alike s x.parts) : ∀ c ∈ x.elems, c.part.sh = s := fun c hc => h _ (List.mem_map_of_mem hc)

theorem typed_parts (d : List Val) : (d.map Cell.atom).map Cell.part = d.map fun v => ⟨[], [v]⟩ := by
  rw [List.map_map]; rfl

theorem typed_flat (d : List Val) : ((d.map Cell.atom).map Cell.part).flatMap Part.els = d := by
  induction d with
  | nil => rfl
  | cons v d ih => rw [List.map_cons, List.map_cons, List.flatMap_cons, ih]; rfl

/-- The whole of merging an array that has elements of one shape. -/
theorem merge_all (bad : BitVec 64 → BitVec 32) (junk : Nat → BitVec 64) {x : Arg} (hx : x.Ok) (hne : x.parts ≠ []) {s : List Nat} (ha : Alike s x.parts) :
    (bqnMerge bad junk x = some .oom ∧ x.parts.length * prod s > 4294967230) ∨
    (bqnMerge bad junk x = some .rank ∧ x.sh.length + s.length > 255) ∨
    (x.sh.length + s.length ≤ 255 ∧ ∃ a, bqnMerge bad junk x = some (.ok a) ∧ MergedFill x.sh s x.elems a) := by
  have hne' : x.elems ≠ [] := fun h => hne (by unfold Arg.parts; rw [h]; rfl)
  have hc := alike_cells ha
  cases x with
  | typed a =>
    right; right
    obtain ⟨v, hv⟩ := List.exists_mem_of_ne_nil _ hne'
    have hs : s = [] := by
      rw [← hc v hv]
      obtain ⟨w, _, rfl⟩ := List.mem_map.1 hv
      rfl
    subst hs
    refine ⟨hx.1, a, rfl, ⟨(List.append_nil _).symm, ?_⟩, fun _ _ f => ?_⟩
    · have : ((Arg.typed a).elems.map Cell.part).flatMap Part.els = a.data.elems := typed_flat _
      rw [this]
      exact Sames.refl _
    · have hB := hx.2.2.2 a rfl
      have ht : Verif.Append.elOr a.data.ty a.data.ty = a.data.ty := by cases a.data.ty <;> decide
      rw [natural_arr hB ht]
      have hn : ∀ c ∈ (Arg.typed a).elems, c.getFill = some (natural a.data.ty) := by
        intro c hc
        obtain ⟨w, hw, rfl⟩ := List.mem_map.1 hc
        exact natural_atom hB (Verif.Squeeze.elems_hold _ _ hw)
      constructor
      · intro e c hc; rw [hn c hc, e]
      · intro e; rw [← hn v hv, e v hv]
  | cells fr y ys =>
    have hl : (Arg.cells fr y ys).parts.length = (y :: ys).length := List.length_map _
    rw [hl]
    exact merge_alike bad junk hne' hx.2.1 (fun c h => (hx.2.2.1 c h).1) (by rw [← hc y List.mem_cons_self]; exact (hx.2.2.1 y List.mem_cons_self).2) hx.1 hc
  | empty fr f => exact absurd rfl hne'

/-- `>𝕩` of elements with the same shape, when the result isn't too large: the leading axes are those of `𝕩`, and the elements follow one another in order. -/
theorem merge_same (bad : BitVec 64 → BitVec 32) (junk : Nat → BitVec 64) {x : Arg} (hx : x.Ok) (hne : x.parts ≠ []) {s : List Nat} (ha : Alike s x.parts)
    (hr : x.sh.length + s.length ≤ 255) (hn : x.parts.length * prod s ≤ 4294967230) :
    ∃ a, bqnMerge bad junk x = some (.ok a) ∧ Merged x.sh s x.parts a.sh a.data.elems := by
  rcases merge_all bad junk hx hne ha with ⟨_, h⟩ | ⟨_, h⟩ | ⟨_, a, h1, h2, _⟩
  · omega
  · omega
  · exact ⟨a, h1, h2⟩

/-- Two strings of different element types: `>⟨"ab", ⟨1000,'c'⟩⟩`, as bytes and as generic elements. -/
def twoStrings : Arg := .cells [2] (.arr ⟨[2], .c8 [97#8, 98#8], none⟩) [.arr ⟨[2], .B [.num 0#64, .chr 99#32], some .chr⟩]

example : twoStrings.Ok ∧ twoStrings.parts ≠ [] ∧ Alike [2] twoStrings.parts ∧ twoStrings.sh.length + 1 ≤ 255 ∧ twoStrings.parts.length * prod [2] ≤ 4294967230 := by
  refine ⟨⟨by decide, by decide, ?_, fun a h => by cases h⟩, (fun h => by cases h), ?_, by decide, by decide⟩
  · intro c hc
    simp only [twoStrings, Arg.elems, List.mem_cons, List.not_mem_nil, or_false] at hc
    rcases hc with rfl | rfl <;> exact ⟨rfl, by decide⟩
  · intro p hp
    simp only [twoStrings, Arg.parts, Arg.elems, List.map_cons, List.map_nil, List.mem_cons, List.not_mem_nil, or_false] at hp
    rcases hp with rfl | rfl <;> rfl

/-- Whatever `>𝕩` gives, the elements of `𝕩` had the same shape, and it consists of them in order. -/
theorem merge_only (bad : BitVec 64 → BitVec 32) (junk : Nat → BitVec 64) {x : Arg} (hx : x.Ok) (hne : x.parts ≠ []) {a : Arr} (h : bqnMerge bad junk x = some (.ok a)) :
    ∃ s, Alike s x.parts ∧ x.sh.length + s.length ≤ 255 ∧ Merged x.sh s x.parts a.sh a.data.elems := by
  have alike : ∀ s, Alike s x.parts → ∃ s, Alike s x.parts ∧ x.sh.length + s.length ≤ 255 ∧ Merged x.sh s x.parts a.sh a.data.elems := by
    intro s ha
    rcases merge_all bad junk hx hne ha with ⟨h1, _⟩ | ⟨h1, _⟩ | ⟨hr, b, h1, h2, _⟩
    · rw [h] at h1; cases h1
    · rw [h] at h1; cases h1
    · rw [h] at h1; cases h1
      exact ⟨s, ha, hr, h2⟩
  cases x with
  | typed b =>
    refine alike [] fun p hp => ?_
    obtain ⟨c, hc, rfl⟩ := List.mem_map.1 hp
    obtain ⟨w, _, rfl⟩ := List.mem_map.1 hc
    rfl
  | empty fr f => exact absurd rfl hne
  | cells fr y ys =>
    by_cases hd : ∃ c ∈ ys, c.part.sh ≠ y.part.sh
    · have h' : mergeParts bad junk fr (y :: ys) = some (.ok a) := h
      rcases merge_unlike (fr := fr) bad junk hx.2.1 (fun c hc => (hx.2.2.1 c hc).1) hd with ⟨h1, _⟩ | ⟨h1, _⟩ | h1 <;> rw [h'] at h1 <;> cases h1
    · refine alike y.part.sh fun p hp => ?_
      obtain ⟨c, hc, rfl⟩ := List.mem_map.1 hp
      rcases List.mem_cons.1 hc with rfl | hc
      · rfl
      · exact Decidable.byContradiction fun hne => hd ⟨c, hc, hne⟩

example : ∃ a, bqnMerge (fun _ => 0#32) (fun _ => 0#64) twoStrings = some (.ok a) := ⟨_, rfl⟩

/-- Elements of different shapes are an error, unless the first of them already makes the result too large. -/
theorem merge_differ (bad : BitVec 64 → BitVec 32) (junk : Nat → BitVec 64) {x : Arg} (hx : x.Ok) (hd : ¬ ∃ s, Alike s x.parts) :
    bqnMerge bad junk x = some .shapes ∨ (∃ p, x.parts.head? = some p ∧
      ((bqnMerge bad junk x = some .rank ∧ x.sh.length + p.sh.length > 255) ∨ (bqnMerge bad junk x = some .oom ∧ x.parts.length * prod p.sh > 4294967230))) := by
  cases x with
  | typed b =>
    refine absurd ⟨[], fun p hp => ?_⟩ hd
    obtain ⟨c, hc, rfl⟩ := List.mem_map.1 hp
    obtain ⟨w, _, rfl⟩ := List.mem_map.1 hc
    rfl
  | empty fr f => exact absurd ⟨[], fun p hp => by cases hp⟩ hd
  | cells fr y ys =>
    have hd' : ∃ c ∈ ys, c.part.sh ≠ y.part.sh := by
      refine Decidable.byContradiction fun h => hd ⟨y.part.sh, fun p hp => ?_⟩
      obtain ⟨c, hc, rfl⟩ := List.mem_map.1 hp
      rcases List.mem_cons.1 hc with rfl | hc
      · rfl
      · exact Decidable.byContradiction fun hne => h ⟨c, hc, hne⟩
    have hl : (Arg.cells fr y ys).parts.length = (y :: ys).length := List.length_map _
    rw [hl]
    rcases merge_unlike (fr := fr) bad junk hx.2.1 (fun c hc => (hx.2.2.1 c hc).1) hd' with h1 | h1 | h1
    · exact .inr ⟨y.part, rfl, .inr h1⟩
    · exact .inr ⟨y.part, rfl, .inl h1⟩
    · exact .inl h1

example : ∃ x : Arg, x.Ok ∧ ¬ ∃ s, Alike s x.parts := by
  refine ⟨.cells [2] (.atom (.num 0#64)) [.arr ⟨[1], .bit [true], none⟩], ⟨by decide, by decide, ?_, fun a h => by cases h⟩, ?_⟩
  · intro c hc
    simp only [Arg.elems, List.mem_cons, List.not_mem_nil, or_false] at hc
    rcases hc with rfl | rfl <;> exact ⟨rfl, by decide⟩
  · rintro ⟨s, hs⟩
    have h1 : [] = s := hs ⟨[], [.num 0#64]⟩ List.mem_cons_self
    have h2 : [1] = s := hs (Cell.arr ⟨[1], .bit [true], none⟩).part (List.mem_cons_of_mem _ List.mem_cons_self)
    rw [← h1] at h2
    cases h2

/-- A result with more than 255 axes is an error. -/
theorem merge_rank (bad : BitVec 64 → BitVec 32) (junk : Nat → BitVec 64) {x : Arg} (hx : x.Ok) (hne : x.parts ≠ []) {s : List Nat} (ha : Alike s x.parts) (hr : x.sh.length + s.length > 255)
    (hn : x.parts.length * prod s ≤ 4294967230) : bqnMerge bad junk x = some .rank := by
  rcases merge_all bad junk hx hne ha with ⟨_, h⟩ | ⟨h, _⟩ | ⟨h, _⟩
  · omega
  · exact h
  · omega

example : ∃ x : Arg, x.Ok ∧ x.parts ≠ [] ∧ Alike (List.replicate 250 1) x.parts ∧ x.sh.length + (List.replicate 250 1).length > 255 ∧ x.parts.length * prod (List.replicate 250 1) ≤ 4294967230 := by
  refine ⟨.cells (List.replicate 6 1) (.arr ⟨List.replicate 250 1, .i8 [5#8], none⟩) [], ⟨by decide, by decide, ?_, fun a h => by cases h⟩, (fun h => by cases h), ?_, by decide +kernel, by decide +kernel⟩
  · intro c hc
    rw [List.mem_singleton.1 hc]
    exact ⟨by unfold Full; decide +kernel, by decide +kernel⟩
  · intro p hp
    rw [List.mem_singleton.1 hp]
    rfl

/-- The fill of the result, for elements that aren't empty: the one that all elements have, and none when there isn't one. (For arrays without axes in `𝕩` this isn't claimed.) -/
theorem merge_fill (bad : BitVec 64 → BitVec 32) (junk : Nat → BitVec 64) {x : Arg} (hx : x.Ok) (hne : x.parts ≠ []) {s : List Nat} (ha : Alike s x.parts) (hs : prod s ≠ 0)
    (hp : ∀ c ∈ x.elems, c.part.sh = [] → ∃ v, c = .atom v) {a : Arr} (h : bqnMerge bad junk x = some (.ok a)) (f : Fill) :
    a.getFill = some f ↔ ∀ c ∈ x.elems, c.getFill = some f := by
  rcases merge_all bad junk hx hne ha with ⟨h1, _⟩ | ⟨h1, _⟩ | ⟨_, b, h1, _, h2⟩
  · rw [h] at h1; cases h1
  · rw [h] at h1; cases h1
  · rw [h] at h1; cases h1
    exact h2 hs hp f

example : ∀ c ∈ twoStrings.elems, c.part.sh = [] → ∃ v, c = .atom v := by
  intro c hc
  simp only [twoStrings, Arg.elems, List.mem_cons, List.not_mem_nil, or_false] at hc
  rcases hc with rfl | rfl <;> exact fun h => by cases h

example : ∃ a, bqnMerge (fun _ => 0#32) (fun _ => 0#64) twoStrings = some (.ok a) ∧ a.getFill = some .chr := ⟨_, rfl, by decide⟩

/-- Empty arrays: the shape of the fill takes the place of the shape of the elements. -/
theorem merge_empty (bad : BitVec 64 → BitVec 32) (junk : Nat → BitVec 64) (fr : List Nat) (f : Cell) :
    (fr.length + f.part.sh.length ≤ 255 → ∃ a, bqnMerge bad junk (.empty fr (some f)) = some (.ok a) ∧ a.sh = fr ++ f.part.sh ∧ a.data.elems = [] ∧ a.getFill = f.getFill) ∧
    (fr.length ≤ 255 → fr.length + f.part.sh.length > 255 → bqnMerge bad junk (.empty fr (some f)) = some .rank) ∧
    bqnMerge bad junk (.empty fr none) = some .noFill := by
  refine ⟨fun h => ?_, fun h0 h => ?_, rfl⟩
  · cases f with
    | atom v => exact ⟨_, rfl, (List.append_nil _).symm, rfl, rfl⟩
    | arr a =>
      refine ⟨_, if_neg (show ¬ fr.length + a.sh.length > 255 from ?_), rfl, rfl, rfl⟩
      have : fr.length + a.sh.length ≤ 255 := h
      omega
  · cases f with
    | atom v => have : fr.length + 0 > 255 := h; omega
    | arr a => exact if_pos h

example : bqnMerge (fun _ => 0#32) (fun _ => 0#64) (.empty [0] (some (.arr ⟨[2], .c8 [32#8, 32#8], none⟩))) = some (.ok ⟨[0, 2], .B [], some .chr⟩) := rfl

/-- Appending parts of any shapes when the total number of elements is known, as for `∾𝕩`: they follow one another in order. -/
theorem appended_in_order (bad : BitVec 64 → BitVec 32) (junk : Nat → BitVec 64) {cells : List Cell} (hne : cells ≠ [])
    (hn : ((cells.map Cell.part).flatMap Part.els).length ≤ 4294967230) :
    ∃ a, joinParts bad junk ((cells.map Cell.part).flatMap Part.els).length cells = some (.ok a) ∧ Sames a.data.elems ((cells.map Cell.part).flatMap Part.els) := by
  have e : (cells.map Cell.part).flatMap Part.els = cells.flatMap fun c => c.part.els := List.flatMap_map _ _ _
  rw [e] at hn ⊢
  rcases join_spec bad junk hne rfl with ⟨_, h⟩ | h
  · omega
  · exact h

example : ∃ a, joinParts (fun _ => 0#32) (fun _ => 0#64) 3 [.arr ⟨[2], .i8 [1#8, 2#8], none⟩, .arr ⟨[0], .B [], none⟩, .atom (.chr 97#32)] = some (.ok a) ∧ a.data.elems.length = 3 :=
  ⟨_, rfl, by decide⟩

end Verif.Merge
