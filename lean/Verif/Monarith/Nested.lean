import Verif.Monarith.Main
/-!
# Arithmetic with one argument: nested arrays
-/
namespace Verif.Monarith
open Verif.Pervade (V T abs abss tv Sound Sounds)
open Verif.Squeeze (Data Val El Arr Flags)

theorem abss_map : ∀ l : List V, abss l = l.map abs
  | [] => rfl
  | a :: l => by rw [abss, abss_map l]; rfl

theorem maps_of_got {p : BitVec 64 → BitVec 64} {sh : List Nat} {d : Data} {o : Out V} (h : Got p sh d.elems o) : ∃ r, o = .ok r ∧ Maps p (abs (.typed sh d)) (abs r) := by
  obtain ⟨r, ys, e, e1, e2, e3⟩ := h
  refine ⟨r, e, ?_⟩
  rw [e1, abs]
  refine .arr (by rw [List.length_map]; exact e2) fun i x y hx hy => ?_
  rw [List.getElem?_map] at hx
  obtain ⟨v, hv, rfl⟩ := Option.map_eq_some_iff.1 hx
  obtain ⟨a, b, rfl, rfl, h3⟩ := e3 i y v hy hv
  exact .num h3

theorem maps_self {p : BitVec 64 → BitVec 64} (hp : ∀ v, p v = v) {x y : T} (h : Maps p x y) : Maps p x x := by
  induction h with
  | num _ => exact .num (by rw [hp]; exact Equal.refl _)
  | @arr sh xs ys hl _ ih =>
    refine .arr rfl fun i a b ha hb => ?_
    rw [ha] at hb
    cases hb
    have hlt := (List.getElem?_eq_some_iff.1 ha).1
    exact ih i a _ ha (List.getElem?_eq_getElem (by omega))

theorem not_chr {p : BitVec 64 → BitVec 64} {c : BitVec 32} {y : T} : ¬ Maps p (.chr c) y := nofun
theorem not_fn {p : BitVec 64 → BitVec 64} {c : Nat} {y : T} : ¬ Maps p (.fn c) y := nofun

/-- An element that can't be mapped keeps the array from being mapped. -/
theorem not_arr {p : BitVec 64 → BitVec 64} {sh : List Nat} {xs : List T} {i : Nat} {x : T} (h : xs[i]? = some x) (hx : ∀ y, ¬ Maps p x y) (y : T) : ¬ Maps p (.arr sh xs) y := by
  intro hm
  cases hm with
  | arr hl hh =>
    have hlt := (List.getElem?_eq_some_iff.1 h).1
    exact hx _ (hh i x _ h (List.getElem?_eq_getElem (by omega)))

/-- Arrays of characters. -/
theorem chars {sh : List Nat} {d : Data} (h : Sound (.typed sh d)) (hn : numeric d.ty = false) {v : Val} (hv : v ∈ d.elems) : ∃ c, v = .chr c := by
  cases d with
  | c8 _ | c16 _ | c32 _ => obtain ⟨a, _, rfl⟩ := List.mem_map.1 hv; exact ⟨_, rfl⟩
  | B xs => exact (h.1 rfl).elim
  | _ => exact nomatch hn

mutual
theorem mon_spec {F : Flt} (hF : F.Ieee) (bad : BitVec 64 → BitVec 32) {arr : Data → Arr} (ha : ∀ d, (arr d).data = d ∧ Flags (arr d)) (op : Fn) : (x : V) → Sound x →
    (∃ r, mon F bad arr op x = .ok r ∧ Maps (op.value F) (abs x) (abs r)) ∨ (mon F bad arr op x = .err ∧ ∀ y, ¬ Maps (op.value F) (abs x) y)
  | .num v, _ => .inl ⟨_, rfl, .num (by rw [fexpr_eq]; exact Equal.refl _)⟩
  | .chr _, _ => .inr ⟨rfl, fun _ => not_chr⟩
  | .fn _, _ => .inr ⟨rfl, fun _ => not_fn⟩
  | .typed sh d, hs => by
    rw [mon]
    cases hn : numeric d.ty with
    | true =>
      rw [if_pos rfl]
      exact .inl (maps_of_got (got_typed hF bad ha op sh hn))
    | false =>
      simp only [Bool.false_eq_true, if_false]
      cases he : d.elems with
      | nil =>
        refine .inl ⟨_, rfl, ?_⟩
        rw [abs, he]
        exact .arr rfl fun i x y h => by simp at h
      | cons v vs =>
        obtain ⟨c, rfl⟩ := chars hs hn (show v ∈ d.elems by rw [he]; exact .head _)
        refine .inr ⟨rfl, fun y => ?_⟩
        rw [abs, he]
        exact not_arr (i := 0) rfl (fun _ => not_chr) y
  | .boxed sh xs, hs => by
    rw [mon]
    rcases mons_spec hF bad ha op xs hs.2 with ⟨rs, e, hl, hm⟩ | ⟨e, i, x, hx, hno⟩
    · rw [e]
      dsimp only
      have hmap : Maps (op.value F) (abs (.boxed sh xs)) (abs (.boxed sh rs)) := by
        rw [abs, abs, abss_map, abss_map]
        refine .arr (by rw [List.length_map, List.length_map]; exact hl) fun i x y hx hy => ?_
        rw [List.getElem?_map] at hx hy
        obtain ⟨a, ha', rfl⟩ := Option.map_eq_some_iff.1 hx
        obtain ⟨b, hb, rfl⟩ := Option.map_eq_some_iff.1 hy
        exact hm i a b ha' hb
      cases xs with
      | nil =>
        cases rs with
        | nil => exact .inl ⟨_, rfl, hmap⟩
        | cons _ _ => cases hl
      | cons a as =>
        rw [if_neg (by simp)]
        by_cases hp : op = .plus
        · rw [if_pos hp]
          subst hp
          exact .inl ⟨_, rfl, maps_self (fun _ => rfl) hmap⟩
        · rw [if_neg hp]
          exact .inl ⟨_, rfl, hmap⟩
    · rw [e]
      refine .inr ⟨rfl, fun y => ?_⟩
      rw [abs, abss_map]
      exact not_arr (i := i) (by rw [List.getElem?_map, hx]; rfl) hno y
theorem mons_spec {F : Flt} (hF : F.Ieee) (bad : BitVec 64 → BitVec 32) {arr : Data → Arr} (ha : ∀ d, (arr d).data = d ∧ Flags (arr d)) (op : Fn) : (xs : List V) → Sounds xs →
    (∃ rs, mons F bad arr op xs = .ok rs ∧ rs.length = xs.length ∧ ∀ (i : Nat) x r, xs[i]? = some x → rs[i]? = some r → Maps (op.value F) (abs x) (abs r)) ∨
    (mons F bad arr op xs = .err ∧ ∃ (i : Nat) (x : V), xs[i]? = some x ∧ ∀ y, ¬ Maps (op.value F) (abs x) y)
  | [], _ => .inl ⟨[], rfl, rfl, fun i x r h => by simp at h⟩
  | x :: xs, h => by
    rw [mons]
    rcases mon_spec hF bad ha op x h.1 with ⟨r, e, hm⟩ | ⟨e, hno⟩
    · rw [e]
      dsimp only
      rcases mons_spec hF bad ha op xs h.2 with ⟨rs, e2, hl, hms⟩ | ⟨e2, i, a, ha', hno⟩
      · rw [e2]
        refine .inl ⟨r :: rs, rfl, by rw [List.length_cons, List.length_cons, hl], fun i a b ha' hb => ?_⟩
        cases i with
        | zero => cases ha'; cases hb; exact hm
        | succ i => exact hms i a b ha' hb
      · rw [e2]
        exact .inr ⟨rfl, i + 1, a, ha', hno⟩
    · rw [e]
      exact .inr ⟨rfl, 0, x, rfl, hno⟩
end

end Verif.Monarith
