import Verif.Monarith.Sound
/-!
# C78: arithmetic with one argument

`F` is what doubles do, `bad` what C leaves undefined when a double is converted to an integer, `arr` gives the flags of an array, which have to tell the truth.
-/
namespace Verif.Monarith
open Verif.Pervade (V T abs abss Sound)
open Verif.Squeeze (Data Val El Arr Flags)
open Verif.Bins (ofInt ofInt_nan ofInt_key mag)

/-- `+ - | ⌊ ⌈ × ¬ ÷ √` on any value, stored in any way: the result has the same shapes at all depths, and in place of each number the one that the function gives for it alone. It is an error exactly if there
is a character or a function in it. -/
theorem every_number {F : Flt} (hF : F.Ieee) (bad : BitVec 64 → BitVec 32) (arr : Data → Arr) (ha : ∀ d, (arr d).data = d ∧ Flags (arr d)) (op : Fn) (x : V) (hx : Sound x) :
    (∃ r, mon F bad arr op x = .ok r ∧ Maps (op.value F) (abs x) (abs r)) ∨ (mon F bad arr op x = .err ∧ ∀ y, ¬ Maps (op.value F) (abs x) y) :=
  mon_spec hF bad ha op x hx

/-- All such results are the same, up to the sign of zeroes and the kind of NaN. -/
theorem one_result {p : BitVec 64 → BitVec 64} {x y z : T} (hy : Maps p x y) (hz : Maps p x z) : Maps id y z := by
  induction hy generalizing z with
  | num h => cases hz with | num k => exact .num (k.trans h.symm)
  | @arr sh xs ys hl _ ih => cases hz with
    | @arr _ _ zs kl kk =>
      refine .arr (by omega) fun i a b ha hb => ?_
      have hlt := (List.getElem?_eq_some_iff.1 ha).1
      have hx : xs[i]? = some xs[i] := List.getElem?_eq_getElem (by omega)
      exact ih i _ a hx ha (kk i _ b hx hb)

/-- One function after the other. -/
theorem maps_comp {p q s : BitVec 64 → BitVec 64} (hq : ∀ a b, Equal a b → Equal (q a) (q b)) (hs : ∀ v, Equal (q (p v)) (s v)) {x y z : T} (hy : Maps p x y) (hz : Maps q y z) : Maps s x z := by
  induction hy generalizing z with
  | num h => cases hz with | num k => exact .num (k.trans ((hq _ _ h).trans (hs _)))
  | @arr sh xs ys hl _ ih => cases hz with
    | @arr _ _ zs kl kk =>
      refine .arr (by omega) fun i a b ha hb => ?_
      have hlt := (List.getElem?_eq_some_iff.1 ha).1
      have hy : ys[i]? = some ys[i] := List.getElem?_eq_getElem (by omega)
      exact ih i a _ ha hy (kk i _ b hy hb)

/-- A value on which one of the functions works: all of its atoms are numbers. -/
theorem maps_any {p q : BitVec 64 → BitVec 64} {x y : T} (h : Maps p x y) : ∃ z, Maps q x z := by
  induction h with
  | num _ => exact ⟨_, .num (Equal.refl _)⟩
  | @arr sh xs ys hl hh ih =>
    have h1 : ∀ l : List T, (∀ a ∈ l, ∃ z, Maps q a z) → ∃ zs : List T, zs.length = l.length ∧ ∀ (i : Nat) a b, l[i]? = some a → zs[i]? = some b → Maps q a b := by
      intro l
      induction l with
      | nil => exact fun _ => ⟨[], rfl, fun i a b h => by simp at h⟩
      | cons a l ihl =>
        intro h
        obtain ⟨z, hz⟩ := h a (.head _)
        obtain ⟨zs, e, hzs⟩ := ihl fun b hb => h b (.tail _ hb)
        refine ⟨z :: zs, by rw [List.length_cons, List.length_cons, e], fun i b c hb hc => ?_⟩
        cases i with
        | zero => cases hb; cases hc; exact hz
        | succ i => exact hzs i b c hb hc
    obtain ⟨zs, e, hzs⟩ := h1 xs fun a ha => by
      obtain ⟨i, hi⟩ := List.getElem?_of_mem ha
      have hlt := (List.getElem?_eq_some_iff.1 hi).1
      exact ih i a _ hi (List.getElem?_eq_getElem (by omega))
    exact ⟨_, .arr e hzs⟩

/-- The result is an array as those that the theorems are about, so that functions can be applied to it again. -/
theorem sound_result {F : Flt} (hF : F.Ieee) (bad : BitVec 64 → BitVec 32) (arr : Data → Arr) (ha : ∀ d, (arr d).data = d ∧ Flags (arr d)) (op : Fn) (x : V) (hx : Sound x) (r : V)
    (h : mon F bad arr op x = .ok r) : Sound r := mon_sound hF bad ha op x hx r h

/-- `--𝕩` is `𝕩`, and `|-𝕩` is `|𝕩`, whatever types they pass through. -/
theorem minus_minus {F : Flt} (hF : F.Ieee) (bad : BitVec 64 → BitVec 32) (arr : Data → Arr) (ha : ∀ d, (arr d).data = d ∧ Flags (arr d)) (x : V) (hx : Sound x) (r : V)
    (h : mon F bad arr .minus x = .ok r) :
    (∃ s, mon F bad arr .minus r = .ok s ∧ Maps id (abs x) (abs s)) ∧ ∃ s t, mon F bad arr .abs r = .ok s ∧ mon F bad arr .abs x = .ok t ∧ Maps id (abs t) (abs s) := by
  have hr : Sound r := mon_sound hF bad ha .minus x hx r h
  rcases every_number hF bad arr ha .minus x hx with ⟨r', e, hm⟩ | ⟨e, _⟩
  · rw [h] at e
    cases e
    have hany : ∀ (q : BitVec 64 → BitVec 64), ∃ z, Maps q (abs r) z := fun q => maps_any (one_result hm hm)
    have hcong : ∀ a b, Equal a b → Equal (Fn.value F .abs a) (Fn.value F .abs b) := by
      intro a b hab
      have key : ∀ v, Compare.nan (Fn.value F .abs v) = Compare.nan v ∧ Compare.key (Fn.value F .abs v) = (Compare.key v).natAbs := by
        intro v
        rw [Fn.value]
        by_cases hv : v.toNat < 2^63
        · rw [if_pos hv]
          exact ⟨rfl, by rw [Compare.key, if_pos hv]; omega⟩
        · rw [if_neg hv]
          refine ⟨nan_neg v, ?_⟩
          rw [key_neg]
          have : Compare.key v = -((v.toNat - 2^63 : Nat) : Int) := by rw [Compare.key, if_neg hv]
          omega
      refine ⟨by rw [(key a).1, (key b).1]; exact hab.1, fun hn => ?_⟩
      rw [(key a).1] at hn
      rw [(key a).2, (key b).2, hab.2 hn]
    refine ⟨?_, ?_⟩
    · rcases every_number hF bad arr ha .minus r hr with ⟨s, e, hs⟩ | ⟨e, hno⟩
      · exact ⟨s, e, maps_comp (fun a b => neg_congr) (fun v => by show Equal (neg (neg v)) v; rw [neg_neg]; exact Equal.refl _) hm hs⟩
      · obtain ⟨z, hz⟩ := hany (Fn.value F .minus)
        exact (hno z hz).elim
    · rcases every_number hF bad arr ha .abs r hr with ⟨s, e, hs⟩ | ⟨e, hno⟩
      · rcases every_number hF bad arr ha .abs x hx with ⟨t, e2, ht⟩ | ⟨_, hno⟩
        · refine ⟨s, t, e, e2, one_result ht (maps_comp hcong (fun v => ?_) hm hs)⟩
          rw [show Fn.value F .minus v = neg v from rfl, Fn.value, Fn.value, neg_toNat, neg_neg]
          have hv := v.isLt
          by_cases h1 : v.toNat < 2^63
          · rw [if_pos h1, if_pos h1, if_neg (by omega)]; exact Equal.refl _
          · rw [if_neg h1, if_neg h1, if_pos (by omega)]; exact Equal.refl _
        · obtain ⟨z, hz⟩ := maps_any (q := Fn.value F .abs) hm
          exact (hno z hz).elim
      · obtain ⟨z, hz⟩ := hany (Fn.value F .abs)
        exact (hno z hz).elim
  · rw [h] at e; cases e

/-! ## There are such doubles -/

theorem ofInt_neg {n : Int} (h : I32 n) : Equal (neg (ofInt n)) (ofInt (0 - n)) := by
  have h1 := h.abs
  have h2 : (0 - n).natAbs < 2^53 := by omega
  refine ⟨by rw [nan_neg, ofInt_nan h1, ofInt_nan h2], fun _ => ?_⟩
  rw [key_neg, ofInt_key h1, ofInt_key h2, show (0 - n).natAbs = n.natAbs by omega]
  by_cases hn : n < 0
  · rw [if_pos hn, if_neg (by omega)]; omega
  · by_cases h0 : n = 0
    · subst h0; decide
    · rw [if_neg hn, if_pos (by omega)]

open Classical in
/-- Differences that are right where they have to be. -/
noncomputable def someSub (a b : BitVec 64) : BitVec 64 := if a = ofInt 0 then neg b else if h : ∃ n, I32 n ∧ Equal b (ofInt n) then ofInt (1 - h.choose) else b

noncomputable def someDoubles : Flt := ⟨someSub, id, id, id, id⟩

theorem someSub_zero (b : BitVec 64) : someSub (ofInt 0) b = neg b := if_pos rfl
theorem someSub_int {b : BitVec 64} (h : ∃ n, I32 n ∧ Equal b (ofInt n)) : someSub (ofInt 1) b = ofInt (1 - h.choose) := by rw [someSub, if_neg (by decide), dif_pos h]
theorem someSub_other {b : BitVec 64} (h : ¬ ∃ n, I32 n ∧ Equal b (ofInt n)) : someSub (ofInt 1) b = b := by rw [someSub, if_neg (by decide), dif_neg h]

theorem i32_unique {b : BitVec 64} {m n : Int} (hm : I32 m) (hn : I32 n) (h1 : Equal b (ofInt m)) (h2 : Equal b (ofInt n)) : m = n := by
  have := h1.symm.trans h2
  exact Squeeze.ofInt_inj hm.abs hn.abs (this.2 (ofInt_nan hm.abs))

example : someDoubles.Ieee where
  zero v := by
    show Equal (someSub _ _) _
    rw [someSub_zero]
    exact Equal.refl _
  int c n hc h1 h2 := by
    show Equal (someSub _ _) _
    rcases hc with rfl | rfl
    · rw [someSub_zero]
      exact ofInt_neg ⟨h1, h2⟩
    · have h : ∃ m, I32 m ∧ Equal (ofInt n) (ofInt m) := ⟨n, ⟨h1, h2⟩, Equal.refl _⟩
      rw [someSub_int h, i32_unique h.choose_spec.1 ⟨h1, h2⟩ h.choose_spec.2 (Equal.refl _)]
      exact Equal.refl _
  congr a b hab := by
    show Equal (someSub _ _) (someSub _ _)
    by_cases h : ∃ m, I32 m ∧ Equal a (ofInt m)
    · have h' : ∃ m, I32 m ∧ Equal b (ofInt m) := ⟨_, h.choose_spec.1, hab.symm.trans h.choose_spec.2⟩
      rw [someSub_int h, someSub_int h', i32_unique h.choose_spec.1 h'.choose_spec.1 (hab.symm.trans h.choose_spec.2) h'.choose_spec.2]
      exact Equal.refl _
    · rw [someSub_other h, someSub_other fun h' => h ⟨_, h'.choose_spec.1, hab.trans h'.choose_spec.2⟩]
      exact hab
  floor _ _ _ := Equal.refl _
  ceil _ _ _ := Equal.refl _

/-! ## Examples -/

/-- Enough of the doubles to compute with them. -/
def few : Flt := ⟨fun a b => if a = 0 then neg b else if b = 0 then a else neg b, id, id, id, id⟩
def plain (d : Data) : Arr := ⟨d, false, false, false⟩
example : ∀ d, (plain d).data = d ∧ Flags (plain d) := fun d => ⟨rfl, nofun, nofun, nofun⟩
/-- A list of a table of bytes, a number and a boolean list. -/
def ex : V := .boxed [3] [.typed [2, 2] (.i8 [1, -127, 0, 3]), .num (ofInt (-5)), .typed [2] (.bit [true, false])]
example : Sound ex := ⟨rfl, ⟨nofun, rfl, by decide, fun c hc => by simp [Data.elems] at hc⟩, trivial, ⟨nofun, rfl, by decide, fun c hc => by simp [Data.elems] at hc⟩, trivial⟩

/-- The numbers in a value, in order, with the shapes. -/
def show' : V → List (List Nat × List (BitVec 64))
  | .boxed sh xs => [(sh, xs.filterMap fun | .num f => some f | _ => none)] ++ (xs.attach.flatMap fun ⟨x, _⟩ => match x with | .typed sh d => [(sh, (d.elems.filterMap fun | .num f => some f | _ => none))] | _ => [])
  | .typed sh d => [(sh, d.elems.filterMap fun | .num f => some f | _ => none)]
  | .num f => [([], [f])]
  | _ => []
def shown (o : Out V) : Option (List (List Nat × List (BitVec 64))) := match o with | .ok r => some (show' r) | _ => none
def ints (l : List (List Nat × List Int)) := l.map fun p => (p.1, p.2.map ofInt)

example : shown (mon few (fun _ => 0) plain .minus ex) = some (ints [([3], [5]), ([2, 2], [-1, 127, 0, -3]), ([2], [-1, 0])]) := by decide +kernel
example : shown (mon few (fun _ => 0) plain .abs ex) = some (ints [([3], [5]), ([2, 2], [1, 127, 0, 3]), ([2], [1, 0])]) := by decide +kernel
example : shown (mon few (fun _ => 0) plain .sign ex) = some (ints [([3], [-1]), ([2, 2], [1, -1, 0, 1]), ([2], [1, 0])]) := by decide +kernel
/-- `¯128` doesn't fit when its sign is changed. -/
example : shown (mon few (fun _ => 0) plain .minus (.typed [2] (.i8 [1, -128]))) = some [([2], [ofInt (-1), ofInt 128])] := by decide +kernel
example : shown (mon few (fun _ => 0) plain .abs (.typed [2] (.i16 [-1, -32768]))) = some [([2], [ofInt 1, ofInt 32768])] := by decide +kernel
example : shown (mon few (fun _ => 0) plain .not (.typed [2] (.i8 [1, 0]))) = some [([2], [ofInt 0, ofInt 1])] := by decide +kernel
example : shown (mon few (fun _ => 0) plain .minus (.boxed [2] [.num 0, .typed [1] (.c8 [97])])) = none := by decide +kernel

end Verif.Monarith
