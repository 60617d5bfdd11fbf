import Verif.Append.Join
/-!
# Joining and appending: histories
-/
namespace Verif.Append
open Verif.Squeeze

theorem ints_same {d e : Data} (ht : d.ty = e.ty) (h : Sames d.elems e.elems) : d.ints = e.ints := by
  by_cases hi : d.ty.int = true
  · refine ints_eq_of_sames ints_small ints_small ?_
    rw [← elems_ints hi, ← elems_ints (ht ▸ hi)]
    exact h
  · cases d <;> cases e <;> first | rfl | (cases ht; done) | exact absurd rfl hi

theorem sames_nil {xs : List Val} (h : Sames [] xs) : xs = [] := by cases h; rfl

theorem flags_same {x r : Arr} (hf : Flags r) (hs : Sames r.data.elems x.data.elems) (ht : r.data.ty = x.data.ty) :
    Flags ⟨x.data, r.squoze, r.asc, r.dsc⟩ := by
  have hi := ints_same ht hs
  refine ⟨fun h => ?_, fun h => hi ▸ hf.asc h, fun h => hi ▸ hf.dsc h⟩
  rcases hf.squoze h with h0 | hl
  · left
    rw [h0] at hs
    exact sames_nil hs
  · right
    rw [ht] at hl
    exact hl.same hs

/-- The flags about order tell the truth. -/
structure Sorted (x : Arr) : Prop where
  asc : x.asc = true → x.data.ints.Pairwise (· ≤ ·)
  dsc : x.dsc = true → x.data.ints.Pairwise (· ≥ ·)

theorem closed_sorted (bad : BitVec 64 → BitVec 32) : Closed bad True Sorted where
  new d := ⟨(fun h => nomatch h), (fun h => nomatch h)⟩
  ext x y _ _ _ _ ha hd _ := ⟨(fun h => by rw [ha] at h; cases h), (fun h => by rw [hd] at h; cases h)⟩
  sq x hx := by
    by_cases hq : x.squoze = true
    · refine ⟨x, ?_, Sames.refl _, hx, fun _ => hx⟩
      unfold squeezeAny
      rw [if_pos hq]
    · obtain ⟨r, e, h, _⟩ := squeezeAny_spec bad (x := x) ⟨(fun h => absurd h hq), hx.asc, hx.dsc⟩
      refine ⟨r, e, h.same, ⟨h.flags.asc, h.flags.dsc⟩, fun ht => ?_⟩
      have := flags_same h.flags h.same ht
      exact ⟨this.asc, this.dsc⟩
  mark x asc dsc hx h1 h2 := by
    refine ⟨fun h => ?_, fun h => ?_⟩
    · rcases Bool.or_eq_true _ _ ▸ h with h | h
      · exact hx.asc h
      · exact h1 h
    · rcases Bool.or_eq_true _ _ ▸ h with h | h
      · exact hx.dsc h
      · exact h2 h

theorem closed_flags (bad : BitVec 64 → BitVec 32) : Closed bad False Flags where
  new d := ⟨(fun h => nomatch h), (fun h => nomatch h), (fun h => nomatch h)⟩
  ext x y hx ht hz hq ha hd hE := by
    refine ⟨fun h => .inr ?_, (fun h => by rw [ha] at h; cases h), (fun h => by rw [hd] at h; cases h)⟩
    rw [hq] at h
    obtain ⟨zs, hz⟩ := hz
    rcases hx.squoze h with h0 | hl
    · exact absurd h0 (hE.resolve_left id)
    · refine ⟨elems_hold y.data, fun u hu => ?_⟩
      rw [ht]
      refine hl.2 u fun v hv => hu v ?_
      rw [hz]
      exact List.mem_append_left _ hv
  sq x hx := by
    obtain ⟨r, e, h, _⟩ := squeezeAny_spec bad hx
    exact ⟨r, e, h.same, h.flags, flags_same h.flags h.same⟩
  mark x asc dsc hx h1 h2 := by
    refine ⟨hx.squoze, fun h => ?_, fun h => ?_⟩
    · rcases Bool.or_eq_true _ _ ▸ h with h | h
      · exact hx.asc h
      · exact h1 h
    · rcases Bool.or_eq_true _ _ ▸ h with h | h
      · exact hx.dsc h
      · exact h2 h

theorem Short.head {n : Nat} {xs : List (List Val)} {ops : List Op} (h : Short n xs ops) : ∀ x ∈ xs, x.length < n := by
  cases ops with
  | nil => exact h
  | cons o os => exact h.1

/-- All of a history. -/
theorem run_spec {bad : BitVec 64 → BitVec 32} {E : Prop} {P : Arr → Prop} (hc : Closed bad E P) : ∀ (ops : List Op) (s : State) (xs : List (List Val)),
    Inv P s.heap (cnt s.vars) → Shows s xs → (E ∨ Nonempty xs ops) → Short 4294967296 xs ops →
    (∃ s', run bad s ops = .ok s' ∧ Inv P s'.heap (cnt s'.vars) ∧ Shows s' (specRun xs ops)) ∨
      (run bad s ops = .error ∧ ¬ Short 268434457 xs ops)
  | [], s, xs, hi, hs, _, _ => .inl ⟨s, rfl, hi, hs⟩
  | o :: os, s, xs, hi, hs, hE, hsh => by
    rcases step_spec hc hi hs o (hE.imp_right fun h => ⟨h.1, trivial⟩) hsh.2.head with ⟨s', e, hi', hs'⟩ | ⟨e, x, hx, hl⟩
    · rw [run, e]
      rcases run_spec hc os s' _ hi' hs' (hE.imp_right fun h => h.2) hsh.2 with h | ⟨h1, h2⟩
      · exact .inl h
      · exact .inr ⟨h1, fun h => h2 h.2⟩
    · rw [run, e]
      exact .inr ⟨rfl, fun h => by have := h.2.head x hx; omega⟩

theorem start_inv (P : Arr → Prop) : Inv P start.heap (cnt start.vars) :=
  ⟨(fun h => by simp [start] at h), (fun k => by simp [start, sl]), (fun {k y} h => by simp [start, arr, view] at h)⟩

theorem start_shows : Shows start [] := ⟨rfl, fun i id x h => by simp [start] at h⟩

end Verif.Append
