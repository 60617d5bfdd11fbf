import Verif.Sort.GradeLemmas
import Verif.Compare.Props
/-! # Putting the sorts together -/
namespace Verif.Sort
open Verif.Radix Verif.Bits

variable {α : Type}

/-! ## the order of values -/

/-- Values as in `Verif.Compare`. -/
abbrev Value := {v : Compare.Val // Compare.Ok v}
/-- `compare` of two values; it is always defined (`Compare.compare_defined`). -/
def cmpValue (a b : Value) : Int := (Compare.compare a.1 b.1).getD 0

theorem cmpValue_some (a b : Value) : Compare.compare a.1 b.1 = some (cmpValue a b) := by
  unfold cmpValue
  rcases Compare.compare_defined a.2 b.2 with h | h | h <;> rw [h] <;> rfl

theorem cmpValue_order : Order cmpValue := by
  constructor
  · intro a b
    obtain ⟨c, h1, h2⟩ := Compare.compare_antisymm a.2 b.2
    rw [cmpValue_some] at h1 h2
    injection h1 with h1
    injection h2 with h2
    omega
  · intro a b d h1 h2
    obtain ⟨c, h3, h4⟩ := Compare.compare_trans a.2 b.2 d.2 (cmpValue_some a b) h1 (cmpValue_some b d) h2
    rw [cmpValue_some] at h3
    injection h3 with h3
    omega

/-! ## a list in order is its own sort -/

theorem isSort_self {c : α → α → Int} {xs : List α} (h : xs.Pairwise fun a b => c a b ≤ 0) : IsSort c xs xs := ⟨h, fun _ => rfl⟩

theorem pairwise_short {R : α → α → Prop} {xs : List α} (h : xs.length ≤ 1) : xs.Pairwise R := by
  match xs, h with
  | [], _ => exact .nil
  | [x], _ => simp

/-! ## integers -/

theorem radix_sort (up : Bool) (M T : Nat) (hM : 1 < M) (t : IntTy) (cap : Nat → Nat) (junk : Nat → Nat) (xs : List Int) (hl : xs.length < M)
    (hcap : ∀ t, xs.length ≤ cap t)
    (hlex : ∀ a b : Int, t.has a → t.has b → Lex up (digit T) T 0 (fun _ _ => True) a b → intOrder up a b < 0 ∨ (a = b ∧ True))
    (hx : ∀ x ∈ xs, t.has x) : ∃ r, radix up M T (digit T) cap junk xs = some r ∧ IsSort (intOrder up) xs r := by
  have hd : ∀ s x, digit T s x < 256 := digit_lt T
  refine ⟨_, radix_spec up M hM hd cap T junk xs hl hcap, ?_⟩
  have hp := sorted_perm up hd T 0 xs
  refine isSort_of_perm (intOrder_zero up) hp ?_
  refine List.Pairwise.imp_of_mem ?_ (sorted_pairwise up _ T 0 xs (fun _ _ => True) (List.pairwise_of_forall fun _ _ => trivial))
  intro a b ha hb h
  rcases hlex a b (hx _ (hp.mem_iff.1 ha)) (hx _ (hp.mem_iff.1 hb)) h with h | ⟨h, _⟩
  · omega
  · have := (intOrder_zero up a b).2 h; omega

theorem sortInt_spec (up : Bool) (t : IntTy) (rp : List Int) (junk : Nat → Nat) (xs : List Int) (hr : rp.length = xs.length) (hl : xs.length < 2^32)
    (h30 : t = .i32 → xs.length < 2^30) (h0 : xs ≠ []) (hx : ∀ x ∈ xs, t.has x) : ∃ r, sortInt up t rp junk xs = some r ∧ IsSort (intOrder up) xs r := by
  have h0' : 0 < xs.length := List.length_pos_iff.2 h0
  unfold sortInt
  dsimp only
  cases t with
  | i8 =>
    dsimp only
    split
    · exact insertionSort_spec up rp xs hr h0
    · split
      · exact radix_sort up _ 1 (by decide) .i8 _ junk xs (by omega) (fun _ => Nat.le_refl _) (fun a b ha hb h => lex_i8 up (f := id) ha hb h) hx
      · exact countingSort_spec up 1 (.inl rfl) xs hx hl h0'
  | i16 =>
    dsimp only
    have hcap : ∀ cs t, xs.length < 2^15 → xs.length ≤ cap16 up cs xs.length t := by
      intro cs t h
      unfold cap16 r0cap16
      split
      · rw [Nat.mod_eq_of_lt (by omega)]; omega
      · omega
    split
    · exact insertionSort_spec up rp xs hr h0
    · split
      · exact radix_sort up _ 2 (by decide) .i16 _ junk xs (by omega) (fun t => hcap 1 t (by omega)) (fun a b ha hb h => lex_i16 up (f := id) ha hb h) hx
      · split
        · exact radix_sort up _ 2 (by decide) .i16 _ junk xs (by omega) (fun t => hcap 4 t (by omega)) (fun a b ha hb h => lex_i16 up (f := id) ha hb h) hx
        · exact countingSort_spec up 2 (.inr rfl) xs hx hl h0'
  | i32 =>
    dsimp only
    have h30 := h30 rfl
    have hcap : ∀ cs t, xs.length ≤ cap32 up cs xs.length t := by
      intro cs t
      unfold cap32 r0cap32
      split
      · rw [Nat.mod_eq_of_lt (by omega)]; omega
      · omega
    split
    · exact insertionSort_spec up rp xs hr h0
    · split
      · exact radix_sort up _ 4 (by decide) .i32 _ junk xs (by omega) (hcap 1) (fun a b ha hb h => lex_i32 up (f := id) ha hb h) hx
      · exact radix_sort up _ 4 (by decide) .i32 _ junk xs (by omega) (hcap 4) (fun a b ha hb h => lex_i32 up (f := id) ha hb h) hx

theorem sortInt_none (up : Bool) (rp : List Int) (junk : Nat → Nat) (xs : List Int) (h1 : 2^30 ≤ xs.length) (h2 : xs.length < 2^32) :
    sortInt up .i32 rp junk xs = none := by
  unfold sortInt
  dsimp only
  rw [if_neg (by omega), if_neg (by omega)]
  refine radix_none up _ (by decide) (digit_lt 4) _ 3 junk xs h2 ?_
  unfold cap32 r0cap32 roff
  rw [if_pos (by decide)]
  have : xs.length * 4 % 2^32 + 2^32 ≤ xs.length * 4 := by omega
  split <;> omega

/-! ## grade -/

theorem gradeBig_spec {n : Nat} {c : α → α → Int} {xs : List α} (hn : xs.length = n) (h : n ≤ 2^31 - 1) {g : Option (List Nat)}
    (hg : ∃ r, g = some r ∧ IsGrade c xs r) : ∃ r : List Nat, gradeBig n g = some (.ok (r.map fun i : Nat => (i : Int))) ∧ IsGrade c xs r := by
  obtain ⟨r, h1, h2⟩ := hg
  refine ⟨r, ?_, h2⟩
  unfold gradeBig
  rw [if_neg (by omega), h1]
  simp only [Option.map_some]
  congr 2
  apply List.map_congr_left
  intro i hi
  have := List.mem_range.1 (h2.1.mem_iff.1 hi)
  exact store_lt (by omega)

theorem gradeInt_spec (up : Bool) (c : α → α → Int) (t : IntTy) (junk : Nat → Nat) (xs : List Int) (hl : xs.length < 2^31) (hx : ∀ x ∈ xs, t.has x) :
    ∃ r : List Nat, gradeC1 up c junk (.int t xs) = some (.ok (r.map fun i : Nat => (i : Int))) ∧ IsGrade (intOrder up) xs r := by
  rw [gradeC1]
  by_cases c2 : xs.length ≤ 2
  · rw [if_pos c2]
    obtain ⟨r, h1, h2⟩ := gradeSmall_spec cmpInt_order up xs c2
    exact ⟨r, by rw [h1]; rfl, cmpInt_grade up h2⟩
  · rw [if_neg c2]
    refine gradeBig_spec rfl (by omega) ?_
    split
    · rename_i h; rw [h.1] at hx
      exact radix_grade up 1 .i8 junk xs (by omega) (fun a b ha hb h => lex_i8 up ha hb h) hx
    · split
      · rename_i h; rw [h.1] at hx
        exact radix_grade up 2 .i16 junk xs (by omega) (fun a b ha hb h => lex_i16 up ha hb h) hx
      · split
        · rename_i h; rw [h] at hx
          exact grade32_spec up junk xs (by omega) (fun e => c2 (by rw [e]; decide)) hx
        · obtain ⟨r, h1, h2⟩ := genericGrade_spec cmpInt_order up xs (by omega)
          exact ⟨r, h1, cmpInt_grade up h2⟩

theorem gradeChr_spec (up : Bool) (c : α → α → Int) (junk : Nat → Nat) (xs : List Int) (hl : xs.length < 2^31) (hx : ∀ x ∈ xs, 0 ≤ x ∧ x ≤ 1114111) :
    ∃ r : List Nat, gradeC1 up c junk (.chr xs) = some (.ok (r.map fun i : Nat => (i : Int))) ∧ IsGrade (intOrder up) xs r := by
  rw [gradeC1]
  by_cases c2 : xs.length ≤ 2
  · rw [if_pos c2]
    obtain ⟨r, h1, h2⟩ := gradeSmall_spec cmpInt_order up xs c2
    exact ⟨r, by rw [h1]; rfl, cmpInt_grade up h2⟩
  · rw [if_neg c2]
    refine gradeBig_spec rfl (by omega) (grade32_spec up junk xs (by omega) (fun e => c2 (by rw [e]; decide)) ?_)
    intro x h
    have := hx x h
    show -(2147483648 : Int) ≤ x ∧ x < 2147483648
    omega

theorem gradeOther_spec (up : Bool) {c : α → α → Int} (hc : Order c) (junk : Nat → Nat) (xs : List α) (hl : xs.length < 2^31) :
    ∃ r : List Nat, gradeC1 up c junk (.other xs) = some (.ok (r.map fun i : Nat => (i : Int))) ∧ IsGrade (fun a b => if up then c a b else -c a b) xs r := by
  rw [gradeC1]
  by_cases c2 : xs.length ≤ 2
  · rw [if_pos c2]
    obtain ⟨r, h1, h2⟩ := gradeSmall_spec hc up xs c2
    exact ⟨r, by rw [h1]; rfl, h2⟩
  · rw [if_neg c2]
    exact gradeBig_spec rfl (by omega) (genericGrade_spec hc up xs (by omega))

theorem gradeBit_spec (up : Bool) (c : α → α → Int) (junk : Nat → Nat) (x : Nat → Word) (n : Nat) (hn : n < 2^32) :
    ∃ r : List Nat, gradeC1 up c junk (.bit x n) = some (.ok (r.map fun i : Nat => (i : Int))) ∧ IsGrade (boolOrder up) (listF x n) r := by
  rw [gradeC1]
  by_cases c2 : n ≤ 2
  · rw [if_pos c2]
    have ho : Order (fun a b : Bool => cmpInt a.toNat b.toNat) := ⟨fun a b => cmpInt_order.neg _ _, fun a b d => cmpInt_order.trans _ _ _⟩
    obtain ⟨r, h1, h2⟩ := gradeSmall_spec ho up (listF x n) (by rw [length_firstN]; exact c2)
    refine ⟨r, by rw [h1]; rfl, h2.congr ?_ ?_⟩ <;> intro a b <;> cases up <;> cases a <;> cases b <;> decide
  · rw [if_neg c2]
    obtain ⟨r, h1, h2⟩ := gradeBool_spec up x n hn
    exact ⟨r, by rw [h1]; rfl, h2⟩

/-! ## the sort is the selection by the grade -/

theorem sameClasses_unique {c : α → α → Int} (hc : Order c) : ∀ {r s : List α}, (r.Pairwise fun a b => c a b ≤ 0) → (s.Pairwise fun a b => c a b ≤ 0) →
    SameClasses c r s → r = s
  | [], [], _, _, _ => rfl
  | [], b :: s, _, _, h => by
    have := h b
    simp [hc.refl b] at this
  | a :: r, [], _, _, h => by
    have := h a
    simp [hc.refl a] at this
  | a :: r, b :: s, hr, hs, h => by
    have hp : (b :: s).Perm (a :: r) := perm_of_sameClasses hc h
    obtain ⟨hr1, hr2⟩ := List.pairwise_cons.1 hr
    obtain ⟨hs1, hs2⟩ := List.pairwise_cons.1 hs
    have h1 : c a b ≤ 0 := by
      rcases List.mem_cons.1 (hp.mem_iff.1 (List.mem_cons_self (a := b) (l := s))) with e | e
      · rw [e, hc.refl]; exact Int.le_refl _
      · exact hr1 b e
    have h2 : c b a ≤ 0 := by
      rcases List.mem_cons.1 (hp.mem_iff.2 (List.mem_cons_self (a := a) (l := r))) with e | e
      · rw [e, hc.refl]; exact Int.le_refl _
      · exact hs1 a e
    have h3 : c a b = 0 := by have := hc.neg a b; have := hc.neg b a; omega
    have h4 := h a
    rw [List.filter_cons_of_pos (by simpa using h3), List.filter_cons_of_pos (by simpa using hc.refl a)] at h4
    injection h4 with h5 h6
    subst h5
    congr 1
    refine sameClasses_unique hc hr2 hs2 fun x => ?_
    have := h x
    by_cases e : c x b = 0
    · rw [List.filter_cons_of_pos (by simpa using e), List.filter_cons_of_pos (by simpa using e)] at this
      injection this
    · rw [List.filter_cons_of_neg (by simpa using e), List.filter_cons_of_neg (by simpa using e)] at this
      exact this

theorem grade_selects {c : α → α → Int} (hc : Order c) {xs s : List α} {g : List Nat} (hs : IsSort c xs s) (hg : IsGrade c xs g) :
    s.map some = g.map fun i => xs[i]? := by
  have hlt : ∀ i ∈ g, i < xs.length := fun i hi => List.mem_range.1 (hg.1.mem_iff.1 hi)
  -- the selected list
  have hsel : (g.filterMap fun i => xs[i]?).map some = g.map fun i => xs[i]? := by
    have : ∀ l : List Nat, (∀ i ∈ l, i < xs.length) → (l.filterMap fun i => xs[i]?).map some = l.map fun i => xs[i]? := by
      intro l
      induction l with
      | nil => intro _; rfl
      | cons i l ih =>
        intro h
        have hi := h i List.mem_cons_self
        rw [List.filterMap_cons_some (List.getElem?_eq_getElem hi), List.map_cons, List.map_cons, ih fun j hj => h j (List.mem_cons_of_mem _ hj),
          List.getElem?_eq_getElem hi]
    exact this g hlt
  rw [← hsel]
  congr 1
  refine sameClasses_unique hc hs.1 ?_ ?_
  · rw [List.pairwise_filterMap]
    refine hg.2.imp ?_
    rintro i j ⟨a, b, ha, hb, h⟩ a' ha' b' hb'
    rw [ha] at ha'; rw [hb] at hb'
    injection ha' with ha'; injection hb' with hb'
    subst ha'; subst hb'
    omega
  · intro x
    rw [hs.2 x, List.filter_filterMap]
    have e : ∀ l : List Nat, (l.filterMap fun i => Option.filter (fun y => decide (c x y = 0)) xs[i]?) =
        (l.filter fun i => (Option.filter (fun y => decide (c x y = 0)) xs[i]?).isSome).filterMap fun i => xs[i]? := by
      intro l
      rw [List.filterMap_filter]
      refine congrArg (fun f => List.filterMap f l) (funext fun i => ?_)
      cases xs[i]? with
      | none => simp
      | some v => by_cases h : c x v = 0 <;> simp [Option.filter, h]
    rw [e]
    have hperm : (g.filter fun i => (Option.filter (fun y => decide (c x y = 0)) xs[i]?).isSome).Perm
        ((List.range xs.length).filter fun i => (Option.filter (fun y => decide (c x y = 0)) xs[i]?).isSome) := hg.1.filter _
    have hpw : (g.filter fun i => (Option.filter (fun y => decide (c x y = 0)) xs[i]?).isSome).Pairwise (· < ·) := by
      rw [List.pairwise_filter]
      refine hg.2.imp ?_
      rintro i j ⟨a, b, ha, hb, h⟩ hi hj
      rw [ha] at hi; rw [hb] at hj
      have hi : c x a = 0 := by by_cases h : c x a = 0 <;> simp [Option.filter, h] at hi ⊢
      have hj : c x b = 0 := by by_cases h : c x b = 0 <;> simp [Option.filter, h] at hj ⊢
      rcases h with h | ⟨_, h⟩
      · exfalso
        have h1 : c b x ≤ 0 := by have := hc.neg b x; have := hc.neg x b; omega
        have h2 := hc.trans b x a h1 (by omega)
        have := hc.neg a b
        omega
      · exact h
    have := List.Perm.eq_of_pairwise (le := fun a b : Nat => a < b) (fun a b _ _ h1 h2 => by omega) hpw (List.pairwise_lt_range.filter _) hperm
    rw [this, ← e]
    rw [← List.filter_filterMap]
    congr 1
    have : ∀ xs : List α, (List.range xs.length).filterMap (fun i => xs[i]?) = xs := by
      intro xs
      induction xs with
      | nil => rfl
      | cons y ys ih =>
        rw [List.length_cons, List.range_succ_eq_map, List.filterMap_cons, List.filterMap_map]
        exact congrArg (y :: ·) ih
    exact this xs

end Verif.Sort
