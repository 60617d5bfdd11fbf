import Verif.HTab.Search
/-!
# Properties: the hash table is a finite map, names are interned one-to-one, generic searches are linear searches

For every hash function that is not 0 (also one that is constant, so that all keys collide), every content of
uninitialised entries (`junk`), and all histories.
-/
namespace Verif.HTab
variable {K V : Type} [DecidableEq K]

/-- **C04**. A table that starts empty with at least four slots (the program uses 32 and 64) answers every list of requests
as a finite map does: inserting tells whether the key was there, looking up gives the value inserted last, or that there is
none. In particular every search of the table ends, and growing the table changes no answer. -/
theorem table_is_map (hash : K → Nat) (hh : ∀ k, hash k ≠ 0) (junk : K × V) (s : Nat) (hs : 2 ≤ s) (os : List (Op K V)) :
    serve hash junk (m junk (2^s)) os = some (answers [] os) :=
  serve_good hh junk os [] _ (m_good hash junk s hs)

/-- All keys colliding, the table growing twice. -/
example : serve (K := Nat) (V := Nat) (fun _ => 7) (0, 0) (m (0, 0) 4)
    [.ins 1 10, .ins 2 20, .ins 3 30, .ins 4 40, .ins 5 50, .ins 6 60, .swap 2 21 0, .get 2 0, .has 9, .get 9 8, .ins 6 61, .get 6 0]
    = some [.bool false, .bool false, .bool false, .bool false, .bool false, .bool false, .val 20, .val 21, .bool false, .val 8,
        .bool true, .val 61] := by decide +kernel

/-- With room for only two entries a search of the table need not end: the size is needed. -/
theorem small_table_hangs : serve (K := Nat) (V := Nat) (fun _ => 7) (0, 0) (m (0, 0) 2) [.ins 1 10, .ins 2 20, .has 3] = none := by
  decide +kernel

/-- Interning names, from the empty table: the numbers given are the positions of the names in the name list, which lists
each interned name once. So a name always gets the same number, and different names different ones. -/
theorem interning (hash : K → Nat) (hh : ∀ k, hash k ≠ 0) (junk : K × Nat) (ss : List K) :
    ∃ ids names, internAll hash junk (m junk 32) [] ss = some (ids, names) ∧ names.Nodup ∧ (∀ k, k ∈ names ↔ k ∈ ss) ∧
      ids.length = ss.length ∧ (∀ i : Nat, ∀ s, ss[i]? = some s → ∃ n, ids[i]? = some n ∧ names[n]? = some s) ∧
      ∀ i j : Nat, i < ss.length → j < ss.length → (ids[i]? = ids[j]? ↔ ss[i]? = ss[j]?) := by
  have g0 : Good hash (m junk (2^5)) (clsMap []) := by
    have : clsMap ([] : List K) = fun _ => none := by funext k; simp [clsMap]
    rw [this]; exact m_good hash junk 5 (by omega)
  have h := internAll_good hh junk ss [] _ g0
  rw [List.nil_append] at h
  have hmem : ∀ s, s ∈ ss → (firsts ss)[(firsts ss).idxOf s]? = some s := by
    intro s hs
    have hm := (mem_firsts ss s).2 hs
    have hlt := List.idxOf_lt_length_iff.2 hm
    rw [List.getElem?_eq_getElem hlt, List.getElem_idxOf hlt]
  refine ⟨_, _, h, firsts_nodup ss, mem_firsts ss, by simp, ?_, ?_⟩
  · intro i s hs
    refine ⟨(firsts ss).idxOf s, by rw [List.getElem?_map, hs]; rfl, hmem s (List.mem_of_getElem? hs)⟩
  · intro i j hi hj
    rw [List.getElem?_map, List.getElem?_map, List.getElem?_eq_getElem hi, List.getElem?_eq_getElem hj]
    simp only [Option.map_some, Option.some.injEq]
    constructor
    · intro e
      have h1 := hmem ss[i] (List.getElem_mem hi)
      rw [e, hmem ss[j] (List.getElem_mem hj)] at h1
      injection h1 with h1
      exact h1.symm
    · intro e; rw [e]

example : internAll (fun s : String => s.length + 1) ("", 0) (m ("", 0) 32) [] ["x", "foo", "y", "foo", "x"]
    = some ([0, 1, 2, 1, 0], ["x", "foo", "y"]) := by decide +kernel

/-- `w⊐x` by hashing is the index of the first occurrence, or the length of `w`. -/
theorem indexOf_hash_eq (hash : K → Nat) (hh : ∀ k, hash k ≠ 0) (junk : K × Nat) (w x : List K) :
    indexOf hash junk w x = some (x.map fun k => w.idxOf k) := by
  have g0 : Good hash (m junk (2^6)) (idxMap []) := by
    have : idxMap ([] : List K) = fun _ => none := by funext k; simp [idxMap]
    rw [this]; exact m_good hash junk 6 (by omega)
  obtain ⟨u, h1, h2⟩ := indexFill_good hh junk w [] _ g0
  rw [List.nil_append] at h2
  unfold indexOf
  have h1' : indexFill hash junk (m junk 64) 0 w = some u := h1
  rw [h1', Option.bind_some]
  refine mapO_some x fun k _ => ?_
  rw [getD_good h2 k (hh k)]
  congr 1
  unfold idxMap
  split
  · rfl
  · rename_i c; rw [List.idxOf_eq_length c]; rfl

example : indexOf (fun n : Nat => n % 2 + 1) (0, 0) [5, 3, 5, 8] [8, 5, 1] = some [3, 0, 4] := by decide +kernel

/-- `w∊x` by hashing says which elements of `w` occur in `x`. -/
theorem memberOf_hash_eq (hash : K → Nat) (hh : ∀ k, hash k ≠ 0) (junk : K × Unit) (w x : List K) :
    memberOf hash junk w x = some (w.map fun k => decide (k ∈ x)) := by
  have g0 : Good hash (m junk (2^6)) (memMap []) := by
    have : memMap ([] : List K) = fun _ => none := by funext k; simp [memMap]
    rw [this]; exact m_good hash junk 6 (by omega)
  obtain ⟨u, h1, h2⟩ := setFill_good hh junk x [] _ g0
  rw [List.nil_append] at h2
  unfold memberOf
  have h1' : setFill hash junk (m junk 64) x = some u := h1
  rw [h1', Option.bind_some]
  refine mapO_some w fun k _ => ?_
  rw [has_good h2 k (hh k)]
  congr 1
  unfold memMap
  by_cases c : k ∈ x <;> simp [c]

example : memberOf (fun n : Nat => n % 2 + 1) (0, ()) [5, 3, 8] [8, 5, 1] = some [true, false, true] := by decide +kernel

/-- `w⊒x` by hashing matches each element of `x` with its own occurrence in `w`, in order. -/
theorem progIndexOf_hash_eq (hash : K → Nat) (hh : ∀ k, hash k ≠ 0) (junk : K × Nat) (w x : List K) :
    progIndexOf hash junk w x = some (progressive w x) := by
  have g0 : Good hash (m junk (2^6)) (sufMap w.length []) := by
    have : sufMap w.length ([] : List K) = fun _ => none := by funext k; simp [sufMap]
    rw [this]; exact m_good hash junk 6 (by omega)
  obtain ⟨u, h1, h2⟩ := countFill_good hh junk w.length w [] _ (by simp) g0
  rw [List.append_nil] at h1 h2
  unfold progIndexOf
  have h1' : countFill hash junk w.length (m junk 64) [w.length] w.reverse = some (u, nexts w.length 0 w) := h1
  rw [h1', Option.bind_some]
  have hm : sufMap 0 w = progMap w [] := by
    funext k
    unfold sufMap progMap
    simp [nthIdx_zero]
  rw [hm] at h2
  rw [countGet_good hh w x [] u h2, ← along_mapIdx]
  simp [progressive]

example : progIndexOf (fun n : Nat => n % 2 + 1) (0, 0) [5, 3, 5, 8] [5, 8, 5, 5, 8] = some [0, 3, 2, 4, 4] := by decide +kernel

/-- `∊x` by hashing marks the elements that do not occur earlier. -/
theorem markFirsts_hash_eq (hash : K → Nat) (hh : ∀ k, hash k ≠ 0) (junk : K × Unit) (x : List K) :
    markFirsts hash junk x = some (marks x) := markFirsts_good hh junk x

example : markFirsts (fun n : Nat => n % 2 + 1) (0, ()) [5, 5, 3, 5, 3, 4] = some [true, false, true, false, false, true] := by
  decide +kernel

/-- `⊒x` by hashing counts the earlier occurrences of each element. -/
theorem occurrence_hash_eq (hash : K → Nat) (hh : ∀ k, hash k ≠ 0) (junk : K × Nat) (x : List K) :
    occurrence hash junk x = some (occs x) := by
  have g0 : Good hash (m junk (2^6)) (occMap []) := by
    have : occMap ([] : List K) = fun _ => none := by funext k; simp [occMap]
    rw [this]; exact m_good hash junk 6 (by omega)
  have := occLoop_good hh junk x [] _ g0
  rw [← along_mapIdx] at this
  simpa [occurrence, occs] using this

example : occurrence (fun n : Nat => n % 2 + 1) (0, 0) [5, 5, 3, 5, 3, 4] = some [0, 1, 0, 2, 1, 0] := by decide +kernel

/-- `⊐x` by hashing gives each element its position among the different elements in order of first appearance. -/
theorem classify_hash_eq (hash : K → Nat) (hh : ∀ k, hash k ≠ 0) (junk : K × Nat) (x : List K) :
    classify hash junk x = some (classes x) := by
  have g0 : Good hash (m junk (2^6)) (clsMap []) := by
    have : clsMap ([] : List K) = fun _ => none := by funext k; simp [clsMap]
    rw [this]; exact m_good hash junk 6 (by omega)
  have := classLoop_good hh junk x [] _ g0
  simpa [classify, classes, firsts] using this

example : classify (fun n : Nat => n % 2 + 1) (0, 0) [5, 5, 3, 5, 3, 4] = some [0, 0, 1, 0, 1, 2] := by decide +kernel

end Verif.HTab
