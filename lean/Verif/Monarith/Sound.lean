import Verif.Monarith.Nested
/-!
# Arithmetic with one argument: its results are as sound as its arguments
-/
namespace Verif.Monarith
open Verif.Pervade (V T abs abss Sound Sounds)
open Verif.Squeeze (Data Val El Arr Flags toF64s)

/-- An array of numbers, stored as such or as values. -/
def Form (sh : List Nat) (o : Out V) : Prop := ∀ r, o = .ok r → (∃ d, r = .typed sh d ∧ numeric d.ty = true) ∨ ∃ fs : List (BitVec 64), r = .boxed sh (fs.map V.num)

theorem form_typed {sh : List Nat} {d : Data} (h : numeric d.ty = true) : Form sh (.ok (.typed sh d)) := fun r e => by cases e; exact .inl ⟨d, rfl, h⟩
theorem form_ub {sh : List Nat} : Form sh .ub := nofun
theorem form_recm {f : BitVec 64 → BitVec 64} {sh : List Nat} {d : Data} : Form sh (recm f sh d) := by
  intro r e
  rw [recm] at e
  cases h : toF64s d with
  | none => rw [h] at e; cases e
  | some fs => rw [h] at e; cases e; exact .inr ⟨fs.map f, by rw [List.map_map]; rfl⟩
theorem form_try {n : Nat} {sh : List Nat} {mk : List (BitVec n) → Data} (hm : ∀ l, numeric (mk l).ty = true) {l : Option (List (BitVec n))} {base : Out V} (h : Form sh base) : Form sh (tryInts sh mk l base) := by
  cases l with
  | none => exact h
  | some l => exact form_typed (hm l)
theorem form_subSA {F : Flt} {c : Int} {sh : List Nat} {d : Data} : Form sh (subSA F c sh d) := by
  cases d with
  | i8 _ | i16 _ | i32 _ => exact form_try (fun _ => rfl) form_recm
  | f64 _ => exact form_typed rfl
  | _ => exact form_ub

theorem form_spec (F : Flt) (bad : BitVec 64 → BitVec 32) (arr : Data → Arr) (op : Fn) (sh : List Nat) {d : Data} (h : numeric d.ty = true) : Form sh (typed F bad arr op sh d) := by
  have hnot : ∀ o : Option Arr, Form sh (match o with
      | none => .ub
      | some r => match r.data with
        | .bit bs => .ok (.typed sh (.bit (bs.map (!·))))
        | d => subSA F 1 sh d) := by
    intro o
    cases o with
    | none => exact form_ub
    | some r =>
      dsimp only
      cases r.data with
      | bit _ => exact form_typed rfl
      | _ => exact form_subSA
  have hf : ∀ (g : BitVec 64 → BitVec 64) (o : Option (List (BitVec 64))), Form sh (match o with | some fs => .ok (.typed sh (.f64 (fs.map g))) | none => .ub) := by
    intro g o
    cases o with
    | none => exact form_ub
    | some _ => exact form_typed rfl
  cases op with
  | plus => exact form_typed h
  | recip => exact hf F.recip _
  | sqrt => exact hf F.sqrt _
  | minus => cases d with
    | bit _ => exact form_typed rfl
    | _ => rw [typed]; exact form_subSA; exact nofun
  | abs => cases d with
    | i8 _ | i16 _ | i32 _ => exact form_try (fun _ => rfl) form_recm
    | bit _ | f64 _ => exact form_typed rfl
    | _ => exact form_ub
  | floor | ceil => cases d <;> exact form_typed (by first | rfl | exact h)
  | sign => cases d with
    | bit _ | i8 _ | i16 _ | i32 _ | f64 _ => exact form_typed rfl
    | _ => exact form_ub
  | not => cases d with
    | bit _ => exact form_typed rfl
    | _ => exact hnot _

theorem sounds_nums : ∀ fs : List (BitVec 64), Sounds (fs.map V.num)
  | [] => trivial
  | _ :: fs => ⟨trivial, sounds_nums fs⟩

theorem sound_nums {sh : List Nat} {fs : List (BitVec 64)} (h : fs.length = Rotate.prod sh) : Sound (.boxed sh (fs.map V.num)) := by
  rw [Sound]
  exact ⟨by rw [List.length_map]; exact h, sounds_nums fs⟩

theorem sound_typed {sh : List Nat} {d : Data} (h : numeric d.ty = true) (hl : d.elems.length = Rotate.prod sh) (hs : Rotate.prod sh < 2^32) : Sound (.typed sh d) := by
  refine ⟨fun e => (by rw [e] at h; cases h), hl, hs, fun c hc => ?_⟩
  obtain ⟨f, e⟩ := elems_num h _ hc
  cases e

theorem sounds_of_got {p : BitVec 64 → BitVec 64} {sh : List Nat} {vs : List Val} {o : Out V} (hf : Form sh o) (hg : Got p sh vs o) (hl : vs.length = Rotate.prod sh) (hs : Rotate.prod sh < 2^32) :
    ∀ r, o = .ok r → Sound r := by
  intro r hr
  obtain ⟨r', ys, e, e1, e2, _⟩ := hg
  rw [hr] at e
  cases e
  rcases hf r hr with ⟨d, rfl, hd⟩ | ⟨fs, rfl⟩
  · rw [abs] at e1
    injection e1 with _ e1
    exact sound_typed hd (by rw [← hl, ← e2, ← e1, List.length_map]) hs
  · rw [abs, abss_map] at e1
    injection e1 with _ e1
    exact sound_nums (by rw [← hl, ← e2, ← e1, List.length_map, List.length_map])

mutual
/-- Results are sound. -/
theorem mon_sound {F : Flt} (hF : F.Ieee) (bad : BitVec 64 → BitVec 32) {arr : Data → Arr} (ha : ∀ d, (arr d).data = d ∧ Flags (arr d)) (op : Fn) : (x : V) → Sound x → ∀ r, mon F bad arr op x = .ok r → Sound r
  | .num v, _, r, e => by rw [mon] at e; cases e; trivial
  | .chr _, _, r, e => by rw [mon] at e; cases e
  | .fn _, _, r, e => by rw [mon] at e; cases e
  | .typed sh d, hs, r, e => by
    rw [mon] at e
    cases hn : numeric d.ty with
    | true =>
      rw [hn, if_pos rfl] at e
      exact sounds_of_got (form_spec F bad arr op sh hn) (got_typed hF bad ha op sh hn) hs.2.1 hs.2.2.1 r e
    | false =>
      rw [hn] at e
      simp only [Bool.false_eq_true, if_false] at e
      cases he : d.elems with
      | nil => rw [he] at e; cases e; exact hs
      | cons v vs => rw [he] at e; cases e
  | .boxed sh xs, hs, r, e => by
    rw [mon] at e
    cases hm : mons F bad arr op xs with
    | err => rw [hm] at e; cases e
    | ub => rw [hm] at e; cases e
    | ok rs =>
      rw [hm] at e
      dsimp only at e
      obtain ⟨h1, h2⟩ := mons_sound hF bad ha op xs hs.2 rs hm
      by_cases h0 : xs.isEmpty = true
      · rw [if_pos h0] at e; cases e; exact hs
      · rw [if_neg h0] at e
        by_cases hp : op = .plus
        · rw [if_pos hp] at e; cases e; exact hs
        · rw [if_neg hp] at e; cases e; exact ⟨by rw [h1]; exact hs.1, h2⟩
theorem mons_sound {F : Flt} (hF : F.Ieee) (bad : BitVec 64 → BitVec 32) {arr : Data → Arr} (ha : ∀ d, (arr d).data = d ∧ Flags (arr d)) (op : Fn) : (xs : List V) → Sounds xs →
    ∀ rs, mons F bad arr op xs = .ok rs → rs.length = xs.length ∧ Sounds rs
  | [], _, rs, e => by rw [mons] at e; cases e; exact ⟨rfl, trivial⟩
  | x :: xs, h, rs, e => by
    rw [mons] at e
    cases hm : mon F bad arr op x with
    | err => rw [hm] at e; cases e
    | ub => rw [hm] at e; cases e
    | ok r =>
      rw [hm] at e
      dsimp only at e
      cases hms : mons F bad arr op xs with
      | err => rw [hms] at e; cases e
      | ub => rw [hms] at e; cases e
      | ok rs' =>
        rw [hms] at e
        cases e
        obtain ⟨h1, h2⟩ := mons_sound hF bad ha op xs h.2 rs' hms
        exact ⟨by rw [List.length_cons, List.length_cons, h1], mon_sound hF bad ha op x h.1 r hm, h2⟩
end
end Verif.Monarith
