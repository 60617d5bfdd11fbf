import Verif.Lens.Model
import Verif.Pick.Main
import Verif.Rotate.Props
import Verif.Under.Props
/-!
# Under: lemmas
-/
namespace Verif.Lens
open Verif.Rotate
open Verif.Table (T)
open Verif.Pick (Ix IsIndex Position)
variable {A : Type}

theorem ok_same {sh : List Nat} {xs rs : List (T A)} (h : Ok (.arr sh xs)) (hl : rs.length = xs.length) (hr : ∀ e ∈ rs, Ok e) : Ok (.arr sh rs) := by
  cases h with
  | arr h1 h2 h3 h4 h5 => exact .arr (hl.trans h1) h2 h3 h4 hr

theorem ok_els {sh : List Nat} {xs : List (T A)} (h : Ok (.arr sh xs)) : ∀ e ∈ xs, Ok e := by cases h with | arr h1 h2 h3 h4 h5 => exact h5
theorem ok_full {sh : List Nat} {xs : List (T A)} (h : Ok (.arr sh xs)) : xs.length = prod sh := by cases h with | arr h1 h2 h3 h4 h5 => exact h1
theorem ok_fits {sh : List Nat} {xs : List (T A)} (h : Ok (.arr sh xs)) : Fits sh := by cases h with | arr h1 h2 h3 h4 h5 => exact ⟨h2, h3, h4⟩
theorem ok_of_fits {sh : List Nat} {xs : List (T A)} (h : Fits sh) (hl : xs.length = prod sh) (hr : ∀ e ∈ xs, Ok e) : Ok (.arr sh xs) := .arr hl h.1 h.2.1 h.2.2 hr

/-! ## Views -/

/-- Replacing an element. -/
theorem one_replace {sh : List Nat} {xs : List (T A)} {p : Nat} (hp : p < xs.length) {rep r : T A} :
    (Shows r (.one p) rep ∧ Others (.one p) (.arr sh xs) r) ↔ r = .arr sh (xs.set p rep) := by
  constructor
  · rintro ⟨h1, rs, rfl, hl, h2⟩
    show T.arr sh rs = _
    congr 1
    apply List.ext_getElem?
    intro i
    by_cases hi : i = p
    · subst hi
      rw [List.getElem?_set_self hp]
      exact h1
    · rw [List.getElem?_set_ne (fun h => hi h.symm)]
      exact h2 i (by simpa [View.places] using hi)
  · rintro rfl
    refine ⟨?_, _, rfl, by simp [T.els], fun q hq => ?_⟩
    · show (xs.set p rep)[p]? = _
      rw [List.getElem?_set_self hp]
    · have : q ≠ p := by simpa [View.places] using hq
      show (xs.set p rep)[q]? = xs[q]?
      rw [List.getElem?_set_ne (fun h => this h.symm)]

theorem shows_range {sh vsh : List Nat} {xs : List (T A)} {s l : Nat} (hs : s + l ≤ xs.length) {v : T A} :
    Shows (.arr sh xs) (.many vsh (List.range' s l)) v ↔ v = .arr vsh ((xs.drop s).take l) := by
  constructor
  · rintro ⟨vs, rfl, hl, h⟩
    rw [List.length_range'] at hl
    congr 1
    apply List.ext_getElem?
    intro i
    by_cases hi : i < l
    · rw [(h i (s + i) (by rw [List.getElem?_range' hi]; simp)).2, List.getElem?_take, if_pos hi, List.getElem?_drop]; rfl
    · rw [List.getElem?_eq_none (by omega), List.getElem?_take, if_neg hi]
  · rintro rfl
    refine ⟨_, rfl, ?_, fun i p hp => ?_⟩
    · rw [List.length_take, List.length_drop, List.length_range']; omega
    · have hi : i < l := by
        have := (List.getElem?_eq_some_iff.1 hp).1
        rwa [List.length_range'] at this
      rw [List.getElem?_range' hi] at hp
      have hp : s + i = p := by simpa using hp
      subst hp
      refine ⟨by show s + i < xs.length; omega, ?_⟩
      rw [List.getElem?_take, if_pos hi, List.getElem?_drop]; rfl

/-- Replacing elements next to each other. -/
theorem range_replace {sh vsh : List Nat} {xs : List (T A)} {s l : Nat} (hs : s + l ≤ xs.length) {rep r : T A} :
    (Shows r (.many vsh (List.range' s l)) rep ∧ Others (.many vsh (List.range' s l)) (.arr sh xs) r) ↔ ∃ rs, rep = .arr vsh rs ∧ rs.length = l ∧ r = .arr sh (xs.take s ++ rs ++ xs.drop (s + l)) := by
  constructor
  · rintro ⟨h1, ys, rfl, hl, h2⟩
    have hl : ys.length = xs.length := hl
    rw [shows_range (by omega)] at h1
    refine ⟨_, h1, by rw [List.length_take, List.length_drop]; omega, ?_⟩
    show T.arr sh ys = _
    have hn : ∀ p, p ∉ List.range' s l → ys[p]? = xs[p]? := h2
    congr 1
    have e : ys = ys.take s ++ (ys.drop s).take l ++ ys.drop (s + l) := by
      rw [List.append_assoc, ← List.drop_drop, List.take_append_drop, List.take_append_drop]
    rw [e]
    congr 1
    · congr 1
      · apply List.ext_getElem?
        intro i
        rw [List.getElem?_take, List.getElem?_take]
        by_cases hi : i < s
        · rw [if_pos hi, if_pos hi, hn i (by simp; omega)]
        · rw [if_neg hi, if_neg hi]
      · rw [← e]
    · apply List.ext_getElem?
      intro i
      rw [List.getElem?_drop, List.getElem?_drop, hn (s + l + i) (by simp)]
  · rintro ⟨rs, rfl, hl, rfl⟩
    have hlen : (xs.take s ++ rs ++ xs.drop (s + l)).length = xs.length := by
      rw [List.length_append, List.length_append, List.length_take, List.length_drop]; omega
    refine ⟨?_, _, rfl, hlen, fun p hp => ?_⟩
    · rw [shows_range (by omega)]
      congr 1
      rw [List.append_assoc, List.drop_append, List.length_take, List.drop_eq_nil_of_le (by rw [List.length_take]; omega), List.nil_append, show s - min s xs.length = 0 by omega, List.drop_zero,
        List.take_append, ← hl, List.take_length, Nat.sub_self, List.take_zero, List.append_nil]
    · have hp : p ∉ List.range' s l := hp
      show (xs.take s ++ rs ++ xs.drop (s + l))[p]? = xs[p]?
      rw [List.append_assoc, List.getElem?_append, List.length_take, List.getElem?_append]
      by_cases h1 : p < s
      · rw [if_pos (by omega), List.getElem?_take, if_pos h1]
      · have h2 : ¬ p < s + l := fun h2 => hp (by simp; omega)
        rw [if_neg (by omega), if_neg (by omega), List.getElem?_drop]
        congr 1
        omega

/-! ## What is looked at is determined -/

theorem position_unique : ∀ {sh : List Nat} {is : List Int} {ks ks' : List Nat}, Position sh is ks → Position sh is ks' → ks = ks'
  | _, _, _, _, .nil, .nil => rfl
  | _, _, _, _, .cons h1 h2 h3, .cons h1' h2' h3' => by
    rw [position_unique h3 h3']
    congr 1
    omega

/-- The numbers of an index. -/
def nums : Ix → List (Option Int)
  | .num n => [n]
  | .other => []
  | .ints _ ns => ns.map some
  | .floats _ ns => ns
  | .boxed _ gs => gs.map Pick.asInt

theorem index_nums {w : Ix} {is : List Int} (h : IsIndex w is) : nums w = is.map some := by
  cases h with
  | num i => rfl
  | ints n => rfl
  | floats n => rfl
  | boxed n => rw [nums, List.map_map]; rfl

theorem map_some_inj {α} {a b : List α} (h : a.map some = b.map some) : a = b := by
  have := congrArg (List.filterMap id) h
  simpa [List.filterMap_map] using this

theorem index_unique {w : Ix} {is is' : List Int} (h : IsIndex w is) (h' : IsIndex w is') : is = is' :=
  map_some_inj ((index_nums h).symm.trans (index_nums h'))

theorem spot_unique {sh : List Nat} {g : Ix} {p p' : Nat} (h : Spot sh g p) (h' : Spot sh g p') : p = p' := by
  obtain ⟨is, ks, h1, h2, rfl⟩ := h
  obtain ⟨is', ks', h1', h2', rfl⟩ := h'
  cases index_unique h1 h1'
  rw [position_unique h2 h2']

theorem spot_lt {sh : List Nat} {g : Ix} {p : Nat} (h : Spot sh g p) : p < prod sh := by
  obtain ⟨is, ks, h1, h2, rfl⟩ := h
  exact ravel_lt h2.inShape

theorem spot_boxed {sh wsh : List Nat} {gs : List Ix} {p : Nat} (h : Spot sh (.boxed wsh gs) p) : ∀ g ∈ gs, g.isArr = false := by
  obtain ⟨is, ks, h1, h2, rfl⟩ := h
  cases h1 with
  | boxed n ns =>
    intro g hg
    obtain ⟨i, _, rfl⟩ := List.mem_map.1 hg
    rfl

theorem looks2_unique {sh : List Nat} {p : P2} {w w' : View} (h : Looks2 sh p w) (h' : Looks2 sh p w') : w = w' := by
  cases h with
  | one h1 =>
    cases h' with
    | one h2 => rw [spot_unique h1 h2]
    | many h2 _ h3 _ =>
      obtain ⟨g, hg⟩ := List.exists_mem_of_ne_nil _ h2
      exact absurd (spot_boxed h1 g hg) (by rw [h3 g hg]; decide)
  | @many wsh gs ps h1 h2 h3 h4 =>
    cases h' with
    | one h5 =>
      obtain ⟨g, hg⟩ := List.exists_mem_of_ne_nil _ h1
      exact absurd (spot_boxed h5 g hg) (by rw [h3 g hg]; decide)
    | @many _ _ ps' h1' h2' h3' h4' =>
      congr 1
      apply List.ext_getElem (h2.symm.trans h2')
      intro i hi hi'
      have hg : i < gs.length := by omega
      exact spot_unique (h4 i _ _ (List.getElem?_eq_getElem hg) (List.getElem?_eq_getElem hi)) (h4' i _ _ (List.getElem?_eq_getElem hg) (List.getElem?_eq_getElem hi'))
  | @takeFirst n h1 =>
    generalize he : (n : Int) = i at h'
    cases h' with
    | takeFirst h2 => cases Int.ofNat.inj he; rfl
    | takeLast h2 h3 => omega
  | @takeLast n h0 h1 =>
    generalize he : (-(n : Int)) = i at h'
    cases h' with
    | takeFirst h2 => omega
    | @takeLast n' h2 h3 =>
      have : n = n' := by omega
      rw [this]
  | @dropFirst n k h1 =>
    generalize he : (n : Int) = i at h'
    cases h' with
    | dropFirst h2 => cases Int.ofNat.inj he; rw [h1, h2]
    | dropLast h2 h3 => omega
  | @dropLast n k h1 h0 =>
    generalize he : (-(n : Int)) = i at h'
    cases h' with
    | dropFirst h2 => omega
    | @dropLast n' k' h2 h3 =>
      have : n = n' := by omega
      subst this
      rw [h1, h2]
  | reshape h1 => cases h'; rfl

theorem looks1_unique {sh : List Nat} {p : P1} {w w' : View} (h : Looks1 sh p w) (h' : Looks1 sh p w') : w = w' := by
  cases h <;> cases h' <;> rfl

theorem shows_unique {x : T A} {w : View} {v v' : T A} (h : Shows x w v) (h' : Shows x w v') : v = v' := by
  cases w with
  | one p =>
    have h : x.els[p]? = some v := h
    have h' : x.els[p]? = some v' := h'
    rw [h] at h'
    injection h'
  | many sh ps =>
    obtain ⟨vs, rfl, hl, h⟩ := h
    obtain ⟨vs', rfl, hl', h'⟩ := h'
    congr 1
    apply List.ext_getElem?
    intro i
    by_cases hi : i < ps.length
    · rw [(h i _ (List.getElem?_eq_getElem hi)).2, (h' i _ (List.getElem?_eq_getElem hi)).2]
    · rw [List.getElem?_eq_none (by omega), List.getElem?_eq_none (by omega)]

/-! ## Reverse and Rotate -/

theorem at_cell {n csz k : Nat} (h : k < n * csz) : ∃ i j, i < n ∧ j < csz ∧ k = i * csz + j := by
  have hc : 0 < csz := by
    rcases Nat.eq_zero_or_pos csz with h0 | h0
    · rw [h0, Nat.mul_zero] at h; exact absurd h (Nat.not_lt_zero _)
    · exact h0
  refine ⟨k / csz, k % csz, Nat.div_lt_of_lt_mul (by rwa [Nat.mul_comm]), Nat.mod_lt _ hc, ?_⟩
  rw [Nat.mul_comm, Nat.div_add_mod]

theorem revCells_length {α} (csz : Nat) (xs : List α) : ∀ n, n * csz ≤ xs.length → (revCells csz xs n).length = n * csz
  | 0, _ => by simp [revCells]
  | n+1, h => by
    rw [Nat.add_mul, Nat.one_mul] at h ⊢
    rw [revCells, List.length_append, List.length_take, List.length_drop, revCells_length csz xs n (by omega)]
    omega

theorem revCells_get {α} (csz : Nat) (xs : List α) : ∀ n, n * csz ≤ xs.length → ∀ i j, i < n → j < csz → (revCells csz xs n)[i * csz + j]? = xs[(n - 1 - i) * csz + j]?
  | 0, _, i, j, hi, hj => by omega
  | n+1, h, i, j, hi, hj => by
    rw [Nat.add_mul, Nat.one_mul] at h
    have hlen : ((xs.drop (n * csz)).take csz).length = csz := by rw [List.length_take, List.length_drop]; omega
    rw [revCells, List.getElem?_append, hlen]
    cases i with
    | zero =>
      rw [Nat.zero_mul, Nat.zero_add, if_pos hj, List.getElem?_take, if_pos hj, List.getElem?_drop]
      rfl
    | succ i =>
      rw [Nat.add_mul, Nat.one_mul, if_neg (by omega), show i * csz + csz + j - csz = i * csz + j by omega, revCells_get csz xs n (by omega) i j (by omega) hj]
      congr 2
      congr 1
      omega

theorem revCells_mem {α} (csz : Nat) (xs : List α) : ∀ n, ∀ e ∈ revCells csz xs n, e ∈ xs
  | 0, e, h => by cases h
  | n+1, e, h => by
    rw [revCells, List.mem_append] at h
    rcases h with h | h
    · exact List.mem_of_mem_drop (List.mem_of_mem_take h)
    · exact revCells_mem csz xs n e h

theorem reversed_iff {n : Nat} {sh : List Nat} {xs : List (T A)} (hl : xs.length = prod (n :: sh)) {v : T A} : Reversed (.arr (n :: sh) xs) v ↔ v = .arr (n :: sh) (revCells (prod sh) xs n) := by
  have hl' : xs.length = n * prod sh := hl
  constructor
  · rintro ⟨n', sh', xs', vs, h1, rfl, _, hv, h⟩
    cases h1
    congr 1
    apply List.ext_getElem?
    intro k
    by_cases hk : k < n * prod sh
    · obtain ⟨i, j, hi, hj, rfl⟩ := at_cell hk
      obtain ⟨is, his, rfl⟩ := exists_index sh j hj
      rw [revCells_get _ _ n (by omega) i _ hi hj]
      exact h i is (.cons hi his)
    · rw [List.getElem?_eq_none (by omega), List.getElem?_eq_none (by rw [revCells_length _ _ n (by omega)]; omega)]
  · rintro rfl
    refine ⟨n, sh, xs, _, rfl, rfl, hl, by rw [revCells_length _ _ n (by omega), hl'], fun i is h => ?_⟩
    cases h with
    | cons hi his => exact revCells_get _ _ n (by omega) i _ hi (ravel_lt his)

theorem reversed_symm {x v : T A} (h : Reversed x v) : Reversed v x := by
  obtain ⟨n, sh, xs, vs, rfl, rfl, hf, hl, h⟩ := h
  refine ⟨n, sh, vs, xs, rfl, rfl, hl.trans hf, hl.symm, fun i is hi => ?_⟩
  cases hi with
  | cons hi his =>
    rw [h (n - 1 - i) is (.cons (by omega) his), show n - 1 - (n - 1 - i) = i by omega]

theorem reversed_arr {x v : T A} (h : Reversed x v) : ∃ n sh xs, x = .arr (n :: sh) xs := by
  obtain ⟨n, sh, xs, vs, rfl, rfl, hl, h⟩ := h
  exact ⟨n, sh, xs, rfl⟩

theorem rotated_symm {k : Int} {x v : T A} (h : Rotated k x v) : Rotated (-k) v x := by
  obtain ⟨sh, xs, vs, h0, rfl, rfl, hf, hl, h⟩ := h
  refine ⟨sh, vs, xs, h0, rfl, rfl, hl.trans hf, hl.symm, fun is hi => ?_⟩
  rw [h _ (InShape.rotated [-k] hi)]
  exact congrArg (fun is => xs[ravel sh is]?) (rotated_neg [k] hi).symm

theorem rotated_unique {k : Int} {sh : List Nat} {xs vs vs' : List (T A)} (hx : xs.length = prod sh) (h : Rotated k (.arr sh xs) (.arr sh vs)) (h' : Rotated k (.arr sh xs) (.arr sh vs')) : vs = vs' := by
  obtain ⟨_, _, _, h0, ⟨⟩, ⟨⟩, _, hl, h⟩ := h
  obtain ⟨_, _, _, h0', ⟨⟩, ⟨⟩, _, hl', h'⟩ := h'
  apply List.ext_getElem?
  intro i
  by_cases hi : i < prod sh
  · obtain ⟨is, his, rfl⟩ := exists_index sh i hi
    rw [h is his, h' is his]
  · rw [List.getElem?_eq_none (by omega), List.getElem?_eq_none (by omega)]

end Verif.Lens
