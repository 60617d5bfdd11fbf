import Verif.Reorder.Main
/-!
# Reorder Axes: properties
-/
namespace Verif.Reorder
open Verif.Bits Verif.Slash Verif.Rep Verif.Select Verif.Under Verif.Rotate
open Verif.Group (elems bools elems_lawful bools_lawful)

/-- `𝕨⍉𝕩` for elements of any type and width, when `𝕨` fits: the shape, and at every index the element of `𝕩` that belongs there. No memory outside of the arrays is used. The path that is taken
depends on the width, `2^log` bits. -/
theorem reorder_elems {α} (log : Nat) (notB : Bool) (d : Nat → α) (ws xsh : List Nat) (x : List α) (hx : x.length = prod xsh) (hd : ∀ l ∈ xsh, l < 2^32 - 1) (h : Fits ws xsh.length) :
    ∃ r, reorder (elems log notB d) ws x xsh = some (.ok (r, newShape ws xsh)) ∧ r.length = prod (newShape ws xsh) ∧
      ∀ is, InShape (newShape ws xsh) is → InShape xsh (sourceIdx ws xsh.length is) ∧
        ∃ v, r[ravel (newShape ws xsh) is]? = some v ∧ x[ravel xsh (sourceIdx ws xsh.length is)]? = some v := by
  obtain ⟨r, e, hl, hg⟩ := reorder_ok (elems_lawful log notB d) hx hd h
  refine ⟨r, e, hl, fun is hi => ⟨source_inShape h hi, ?_⟩⟩
  have hlt := ravel_lt (source_inShape h hi)
  rw [← hx] at hlt
  have h1 : r[ravel (newShape ws xsh) is]? = x[ravel xsh (sourceIdx ws xsh.length is)]? := hg is hi
  exact ⟨_, h1.trans (List.getElem?_eq_getElem hlt), List.getElem?_eq_getElem hlt⟩

example : Fits [2, 0] [30, 40, 50].length ∧ (∀ l ∈ [30, 40, 50], l < 2^32 - 1) ∧ newShape [2, 0] [30, 40, 50] = [40, 50, 30] := by decide
example : reorder (elems 3 true fun _ => 0) [1, 0] [1, 2, 3, 4, 5, 6] [2, 3] = some (.ok ([1, 4, 2, 5, 3, 6], [3, 2])) := by rfl
example : reorder (elems 6 true fun _ => 0) [0, 0] [1, 2, 3, 4, 5, 6] [2, 3] = some (.ok ([1, 5], [2])) := by rfl
example : reorder (elems 6 true fun _ => 0) [1] (List.range 24) [2, 3, 4] =
    some (.ok ([0, 1, 2, 3, 12, 13, 14, 15, 4, 5, 6, 7, 16, 17, 18, 19, 8, 9, 10, 11, 20, 21, 22, 23], [3, 2, 4])) := by rfl

/-- The same for booleans. -/
theorem reorder_bools (junk : Nat → Word) (ws xsh : List Nat) (x : List Word) (hx : x.length = (prod xsh + 63) / 64) (hd : ∀ l ∈ xsh, l < 2^32 - 1) (h : Fits ws xsh.length) :
    ∃ r, reorder (bools junk) ws x xsh = some (.ok (r, newShape ws xsh)) ∧ r.length = (prod (newShape ws xsh) + 63) / 64 ∧
      ∀ is, InShape (newShape ws xsh) is → InShape xsh (sourceIdx ws xsh.length is) ∧
        ∃ v, getBit r (ravel (newShape ws xsh) is) = some v ∧ getBit x (ravel xsh (sourceIdx ws xsh.length is)) = some v := by
  obtain ⟨r, e, hl, hg⟩ := reorder_ok (bools_lawful junk) hx hd h
  refine ⟨r, e, hl, fun is hi => ⟨source_inShape h hi, ?_⟩⟩
  have hlt := ravel_lt (source_inShape h hi)
  have h1 : getBit r (ravel (newShape ws xsh) is) = getBit x (ravel xsh (sourceIdx ws xsh.length is)) := hg is hi
  have h2 := getBit_some (m := x) (k := ravel xsh (sourceIdx ws xsh.length is)) (by omega)
  exact ⟨_, h1.trans h2, h2⟩

example : reorder (bools fun _ => 0#64) [1, 0] [0b010101#64] [2, 3] = some (.ok ([0b011001#64], [3, 2])) := by rfl

/-- A `𝕨` that doesn't fit gives an error, for every kind of array. -/
theorem reorder_refused {M α} (K : Group.GKind M α) (ws xsh : List Nat) (x : M) (hd : ∀ l ∈ xsh, l < 2^32 - 1) (h : ¬ Fits ws xsh.length) : reorder K ws x xsh = some .err :=
  reorder_err hd h

example : ¬ Fits [0, 2] [5, 6].length ∧ ¬ Fits [1, 1] [5, 6].length ∧ ¬ Fits [0, 1, 2] [5, 6].length := by decide

/-- Different indices of the result have different sources: no element is taken twice. -/
theorem source_injective (ws xsh is js : List Nat) (h : Fits ws xsh.length) (hi : InShape (newShape ws xsh) is) (hj : InShape (newShape ws xsh) js)
    (e : sourceIdx ws xsh.length is = sourceIdx ws xsh.length js) : is = js := by
  have hl : ∀ {k : List Nat}, InShape (newShape ws xsh) k → k.length = newRank ws xsh.length := fun hk => by rw [hk.length, newShape]; simp
  rw [← range_getD (hl hi), ← range_getD (hl hj)]
  apply List.map_congr_left
  intro j hj'
  have hm := mem_target h (List.mem_range.1 hj')
  exact List.map_inj_left.1 e j hm

/-- Without repeated numbers every element of `𝕩` is in the result. -/
theorem source_surjective (ws xsh ks : List Nat) (h : Fits ws xsh.length) (hn : ws.Nodup) (hk : InShape xsh ks) :
    ∃ is, InShape (newShape ws xsh) is ∧ sourceIdx ws xsh.length is = ks := by
  obtain ⟨et, hfl, hle⟩ := target_eq h
  have htl := target_length h
  have hnd : (target ws xsh.length).Nodup := by
    rw [et, List.nodup_append]
    refine ⟨hn, nodup_free _ _, fun a ha b hb e => ?_⟩
    subst e
    exact (mem_free.1 hb).2 ha
  have hidx : ∀ k (hk : k < (target ws xsh.length).length), (target ws xsh.length).idxOf (target ws xsh.length)[k] = k := fun k hk => hnd.idxOf_getElem k hk
  refine ⟨(List.range (newRank ws xsh.length)).map fun j => ks.getD ((target ws xsh.length).idxOf j) 0, ?_, ?_⟩
  · rw [newShape]
    have key : ∀ (L : List Nat), (∀ j ∈ L, j < newRank ws xsh.length) → InShape (L.map fun j => (axisLen j ((target ws xsh.length).zip xsh)).getD 0)
        (L.map fun j => ks.getD ((target ws xsh.length).idxOf j) 0) := by
      intro L
      induction L with
      | nil => intro _; exact .nil
      | cons j L ih =>
        intro hL
        refine .cons ?_ (ih fun j hj => hL j (List.mem_cons_of_mem _ hj))
        obtain ⟨l, e, hl⟩ := axisLen_target h (hL j List.mem_cons_self)
        obtain ⟨k, hk2, e2⟩ := List.mem_iff_getElem.1 hl
        rw [List.getElem_zip] at e2
        have hkT : k < (target ws xsh.length).length := by rw [List.length_zip] at hk2; omega
        have e3 : (target ws xsh.length)[k] = j := congrArg Prod.fst e2
        have e4 : xsh[k]'(by omega) = l := congrArg Prod.snd e2
        show ks.getD ((target ws xsh.length).idxOf j) 0 < (axisLen j ((target ws xsh.length).zip xsh)).getD 0
        rw [e, Option.getD_some, ← e3, hidx k hkT, ← e4]
        have := inShape_getD hk k (by omega)
        rwa [List.getD_eq_getElem?_getD (l := xsh), List.getElem?_eq_getElem (by omega), Option.getD_some] at this
    exact key _ fun j hj => List.mem_range.1 hj
  · rw [sourceIdx]
    apply List.ext_getElem
    · rw [List.length_map, htl, hk.length]
    · intro k h1 h2
      have hkT : k < (target ws xsh.length).length := by rw [htl, ← hk.length]; exact h2
      have hlt := target_lt h _ (List.getElem_mem hkT)
      rw [List.getElem_map, List.getD_eq_getElem?_getD, List.getElem?_map, List.getElem?_range hlt, Option.map_some, Option.getD_some, hidx k hkT, List.getD_eq_getElem?_getD,
        List.getElem?_eq_getElem h2, Option.getD_some]

example : Fits [2, 0] [30, 40, 50].length ∧ [2, 0].Nodup ∧ InShape [30, 40, 50] [29, 0, 7] ∧ sourceIdx [2, 0] 3 [0, 7, 29] = [29, 0, 7] := by
  exact ⟨by decide, by decide, .cons (by decide) (.cons (by decide) (.cons (by decide) .nil)), by decide⟩

/-- An axis of length `2⋆32-1` is taken for one that was not there yet: `0‿0⍉𝕩` for `𝕩` of shape `4294967295‿0` has shape `0‿4294967295`, not `⟨0⟩`. -/
theorem reorder_dup_missed {α} (log : Nat) (notB : Bool) (d : Nat → α) :
    reorder (elems log notB d) [0, 0] [] [4294967295, 0] = some (.ok ([], [0, 4294967295])) ∧ Fits [0, 0] 2 ∧ newShape [0, 0] [4294967295, 0] = [0] :=
  ⟨rfl, by decide, by decide⟩

end Verif.Reorder
