import Verif.Sort.Tim
/-! # Lemmas about the merge sort -/
namespace Verif.Sort
variable {α : Type} {c : α → α → Int}

/-! ## arrays -/

theorem get_mid (A : List α) (x : α) (B : List α) : (A ++ x :: B)[A.length]? = some x := by simp
theorem get_mid' {A : List α} {x : α} {B : List α} {i : Nat} (h : i = A.length) : (A ++ x :: B)[i]? = some x := by rw [h]; simp
theorem put_mid {A : List α} {x : α} {B : List α} {i : Nat} {v : α} (h : i = A.length) : put (A ++ x :: B) i v = some (A ++ v :: B) := by
  unfold put
  rw [if_pos (by rw [List.length_append, List.length_cons]; omega), h, List.set_append_right _ _ (Nat.le_refl _), Nat.sub_self, List.set_cons_zero]

/-! ## orders -/

theorem Order.refl (h : Order c) (a : α) : c a a = 0 := by have := h.neg a a; omega
theorem Order.lt_of (h : Order c) {a b : α} (h1 : ¬ c a b ≤ 0) : c b a < 0 := by have := h.neg b a; omega
theorem Order.ge_of (h : Order c) {a b : α} (h1 : ¬ c a b < 0) : c b a ≤ 0 := by have := h.neg a b; omega
theorem Order.lt_le (h : Order c) {a b d : α} (h1 : c a b < 0) (h2 : c b d ≤ 0) : c a d < 0 := by
  have := h.neg a d; have := h.neg a b; have := h.trans b d a; have := h.neg d a
  omega
theorem Order.le_lt (h : Order c) {a b d : α} (h1 : c a b ≤ 0) (h2 : c b d < 0) : c a d < 0 := by
  have := h.neg a d; have := h.neg b d; have := h.trans d a b; have := h.neg d a
  omega
theorem Order.flip (h : Order c) : Order fun a b => c b a :=
  ⟨fun a b => h.neg b a, fun a b d h1 h2 => h.trans d b a h2 h1⟩
theorem Order.zero_symm (h : Order c) {a b : α} : c a b = 0 ↔ c b a = 0 := by have := h.neg a b; have := h.neg b a; omega

/-! ## classes -/

theorem SameClasses.refl (xs : List α) : SameClasses c xs xs := fun _ => rfl
theorem SameClasses.trans {xs ys zs : List α} (h1 : SameClasses c xs ys) (h2 : SameClasses c ys zs) : SameClasses c xs zs := fun x => (h2 x).trans (h1 x)
theorem SameClasses.append {xs ys us vs : List α} (h1 : SameClasses c xs ys) (h2 : SameClasses c us vs) : SameClasses c (xs ++ us) (ys ++ vs) := fun x => by
  rw [List.filter_append, List.filter_append, h1 x, h2 x]
theorem SameClasses.mid (P Q : List α) {xs ys : List α} (h : SameClasses c xs ys) : SameClasses c (P ++ xs ++ Q) (P ++ ys ++ Q) :=
  (SameClasses.append (SameClasses.refl P) h).append (SameClasses.refl Q)

/-- Exchanging elements that are strictly apart. -/
theorem swap_classes (hc : Order c) {S : List α} {x : α} (h : ∀ b ∈ S, c x b < 0) : SameClasses c (S ++ [x]) (x :: S) := by
  intro z
  rw [List.filter_append, List.filter_cons, List.filter_cons, List.filter_nil]
  by_cases d : c z x = 0
  · have : S.filter (fun y => decide (c z y = 0)) = [] := by
      rw [List.filter_eq_nil_iff]
      intro b hb
      have h1 := hc.le_lt (show c z x ≤ 0 by omega) (h b hb)
      simp; omega
    simp [d, this]
  · simp [d]

abbrev Sorted (c : α → α → Int) (xs : List α) : Prop := xs.Pairwise fun a b => c a b ≤ 0

theorem Sorted.get {xs : List α} (h : Sorted c xs) {i j : Nat} {a b : α} (hij : i < j) (ha : xs[i]? = some a) (hb : xs[j]? = some b) : c a b ≤ 0 := by
  obtain ⟨h1, h2⟩ := List.getElem?_eq_some_iff.1 ha
  obtain ⟨h3, h4⟩ := List.getElem?_eq_some_iff.1 hb
  rw [← h2, ← h4]
  exact List.pairwise_iff_getElem.1 h i j h1 h3 hij

theorem Sorted.le_get (hc : Order c) {xs : List α} (h : Sorted c xs) {i j : Nat} {a b : α} (hij : i ≤ j) (ha : xs[i]? = some a) (hb : xs[j]? = some b) : c a b ≤ 0 := by
  rcases Nat.lt_or_eq_of_le hij with h1 | h1
  · exact h.get h1 ha hb
  · rw [h1, hb] at ha; cases ha; rw [hc.refl]; exact Int.le_refl _

/-! ## binary insertion -/

theorem findLoop_spec (hc : Order c) {d S T : List α} (hd : d = S ++ T) (hS : Sorted c S) (x : α) : ∀ (n l r m : Nat),
    m = l + (r - l) / 2 → l ≤ r → r < S.length → r - l < n →
    (∀ a, S[l]? = some a → c a x ≤ 0) → (∀ b, S[r]? = some b → c x b < 0) →
    ∃ p, findLoop c d x n l r m = some p ∧ p ≤ S.length ∧ (∀ j a, j < p → S[j]? = some a → c a x ≤ 0) ∧ (∀ j b, p ≤ j → S[j]? = some b → c x b < 0)
  | 0, _, _, _, _, _, _, h, _, _ => absurd h (by omega)
  | n+1, l, r, m, hm, hlr0, hr, hn, hl, hx => by
    obtain ⟨cx, hcx⟩ : ∃ cx, S[m]? = some cx := ⟨S[m], List.getElem?_eq_getElem (by omega)⟩
    obtain ⟨al, hal⟩ : ∃ al, S[l]? = some al := ⟨S[l], List.getElem?_eq_getElem (by omega)⟩
    obtain ⟨ar, har⟩ : ∃ ar, S[r]? = some ar := ⟨S[r], List.getElem?_eq_getElem (by omega)⟩
    have hdm : d[m]? = some cx := by rw [hd, List.getElem?_append_left (by omega)]; exact hcx
    rw [findLoop, hdm]
    simp only []
    have h1 := hl al hal
    have h2 := hx ar har
    have hlr : l < r := by
      rcases Nat.lt_or_eq_of_le hlr0 with g | g
      · exact g
      · rw [g, har] at hal; injection hal with hal; subst hal
        have := hc.neg x ar; omega
    by_cases q : c x cx < 0
    · rw [if_pos q]
      by_cases g : m - l ≤ 1
      · rw [if_pos g]
        refine ⟨m, rfl, by omega, ?_, ?_⟩
        · intro j a hj ha
          have hne : m ≠ l := by intro e; rw [e, hal] at hcx; injection hcx with hcx; subst hcx; have := hc.neg x al; omega
          exact hc.trans a al x (hS.le_get hc (by omega) ha hal) h1
        · intro j b hj hb
          exact hc.lt_le q (hS.le_get hc hj hcx hb)
      · rw [if_neg g]
        exact findLoop_spec hc hd hS x n l m _ rfl (by omega) (by omega) (by omega) hl (fun b hb => by rw [hcx] at hb; cases hb; exact q)
    · rw [if_neg q]
      have q' : c cx x ≤ 0 := hc.ge_of q
      by_cases g : r - m ≤ 1
      · rw [if_pos g]
        refine ⟨m + 1, rfl, by omega, ?_, ?_⟩
        · intro j a hj ha
          exact hc.trans a cx x (hS.le_get hc (by omega) ha hcx) q'
        · intro j b hj hb
          exact hc.lt_le h2 (hS.le_get hc (by omega) har hb)
      · rw [if_neg g]
        exact findLoop_spec hc hd hS x n m r _ rfl (by omega) (by omega) (by omega) (fun a ha => by rw [hcx] at ha; cases ha; exact q') hx

theorem find_spec (hc : Order c) {d S T : List α} (hd : d = S ++ T) (hS : Sorted c S) (hne : 1 ≤ S.length) (x : α)
    (hx : ∀ b, S[S.length - 1]? = some b → c x b < 0) :
    ∃ p, find c d x S.length = some p ∧ p ≤ S.length ∧ (∀ j a, j < p → S[j]? = some a → c a x ≤ 0) ∧ (∀ j b, p ≤ j → S[j]? = some b → c x b < 0) := by
  obtain ⟨a0, ha0⟩ : ∃ a, S[0]? = some a := ⟨S[0], List.getElem?_eq_getElem (by omega)⟩
  obtain ⟨al, hal⟩ : ∃ a, S[S.length - 1]? = some a := ⟨S[S.length - 1], List.getElem?_eq_getElem (by omega)⟩
  have e0 : d[0]? = some a0 := by rw [hd, List.getElem?_append_left (by omega)]; exact ha0
  have el : d[S.length - 1]? = some al := by rw [hd, List.getElem?_append_left (by omega)]; exact hal
  have hxl := hx al hal
  unfold find
  rw [e0, el]
  simp only []
  by_cases q : c x a0 < 0
  · rw [if_pos q]
    exact ⟨0, rfl, by omega, fun j a h => absurd h (by omega), fun j b _ hb => hc.lt_le q (hS.le_get hc (Nat.zero_le _) ha0 hb)⟩
  · rw [if_neg q, if_neg (by omega)]
    exact findLoop_spec hc hd hS x S.length 0 (S.length - 1) _ (by omega) (by omega) (by omega) (by omega)
      (fun a ha => by rw [ha0] at ha; cases ha; exact hc.ge_of q) hx

theorem shiftUp_spec (A : List α) (x : α) : ∀ (n : Nat) (B : List α) (y : α) (Q : List α), B.length = n →
    ∃ h, shiftUp (A ++ (B ++ y :: Q)) n (A.length + n - 1) = some (A ++ h :: (B ++ Q))
  | 0, B, y, Q, hn => by
    have : B = [] := List.length_eq_zero_iff.1 hn
    subst this
    exact ⟨y, rfl⟩
  | n+1, B, y, Q, hn => by
    have hB : B ≠ [] := by intro h; rw [h] at hn; simp at hn
    obtain ⟨B', b, rfl⟩ : ∃ B' b, B = B' ++ [b] := ⟨B.dropLast, B.getLast hB, (List.dropLast_concat_getLast hB).symm⟩
    have hl : B'.length = n := by simpa using hn
    have e1 : A ++ (B' ++ [b] ++ y :: Q) = (A ++ B') ++ b :: (y :: Q) := by simp
    have e2 : A ++ (B' ++ [b] ++ y :: Q) = (A ++ B' ++ [b]) ++ y :: Q := by simp
    rw [shiftUp]
    have h1 : (A ++ (B' ++ [b] ++ y :: Q))[A.length + (n+1) - 1]? = some b := by
      rw [e1]; exact get_mid' (by rw [List.length_append]; omega)
    have h2 : put (A ++ (B' ++ [b] ++ y :: Q)) (A.length + (n+1) - 1 + 1) b = some ((A ++ B' ++ [b]) ++ b :: Q) := by
      rw [e2]; exact put_mid (by simp; omega)
    rw [h1]
    simp only []
    rw [h2]
    simp only []
    obtain ⟨h, hh⟩ := shiftUp_spec A x n B' b (b :: Q) hl
    refine ⟨h, ?_⟩
    rw [show A ++ B' ++ [b] ++ b :: Q = A ++ (B' ++ b :: (b :: Q)) by simp, show A.length + (n+1) - 1 - 1 = A.length + n - 1 by omega, hh]
    simp

theorem insertOne_spec (hc : Order c) {P S Q : List α} {x : α} (hS : Sorted c S) (hne : 1 ≤ S.length) :
    ∃ S', insertOne c P.length (P ++ (S ++ x :: Q)) S.length = some (P ++ (S' ++ Q)) ∧ Sorted c S' ∧ S'.length = S.length + 1 ∧ SameClasses c (S ++ [x]) S' := by
  have hSne : S ≠ [] := by intro h; rw [h] at hne; simp at hne
  obtain ⟨S0, al, hS0⟩ : ∃ B' b, S = B' ++ [b] := ⟨S.dropLast, S.getLast hSne, (List.dropLast_concat_getLast hSne).symm⟩
  have hlen : S.length = S0.length + 1 := by rw [hS0]; simp
  have h1 : (P ++ (S ++ x :: Q))[P.length + (S.length - 1)]? = some al := by
    rw [show P ++ (S ++ x :: Q) = (P ++ S0) ++ al :: (x :: Q) by rw [hS0]; simp]
    exact get_mid' (by rw [List.length_append]; omega)
  have h2 : (P ++ (S ++ x :: Q))[P.length + S.length]? = some x := by
    rw [← List.append_assoc]; exact get_mid' (by rw [List.length_append])
  have hal : S[S.length - 1]? = some al := by rw [hS0]; simp
  unfold insertOne
  rw [h1, h2]
  simp only []
  by_cases q : c al x ≤ 0
  · rw [if_pos q]
    refine ⟨S ++ [x], by simp, ?_, by simp, SameClasses.refl _⟩
    rw [Sorted, List.pairwise_append]
    refine ⟨hS, by simp, ?_⟩
    intro a ha b hb
    rw [List.mem_singleton] at hb; subst hb
    obtain ⟨i, hi⟩ := List.getElem?_of_mem ha
    have : i < S.length := (List.getElem?_eq_some_iff.1 hi).1
    exact hc.trans a al b (hS.le_get hc (by omega) hi hal) q
  · rw [if_neg q]
    have hd : (P ++ (S ++ x :: Q)).drop P.length = S ++ x :: Q := by simp
    obtain ⟨p, hp, hple, hlow, hhigh⟩ := find_spec hc hd hS hne x (fun b hb => by rw [hal] at hb; cases hb; exact hc.lt_of q)
    rw [hp]
    simp only []
    have hsplit : P ++ (S ++ x :: Q) = (P ++ S.take p) ++ (S.drop p ++ x :: Q) := by
      rw [List.append_assoc, ← List.append_assoc (S.take p), List.take_append_drop]
    obtain ⟨h, hh⟩ := shiftUp_spec (P ++ S.take p) x (S.length - p) (S.drop p) x Q (by rw [List.length_drop])
    have hidx : (P ++ S.take p).length + (S.length - p) - 1 = P.length + (S.length - 1) := by
      rw [List.length_append, List.length_take]; omega
    rw [hidx, ← hsplit] at hh
    rw [hh]
    simp only []
    refine ⟨S.take p ++ x :: S.drop p, ?_, ?_, ?_, ?_⟩
    · rw [put_mid (by rw [List.length_append, List.length_take]; omega)]; simp
    · have hlow' : ∀ a ∈ S.take p, c a x ≤ 0 := by
        intro a ha
        obtain ⟨i, hi⟩ := List.getElem?_of_mem ha
        have hi' : i < p := by
          have := (List.getElem?_eq_some_iff.1 hi).1; rw [List.length_take] at this; omega
        rw [List.getElem?_take_of_lt hi'] at hi
        exact hlow i a hi' hi
      have hhigh' : ∀ b ∈ S.drop p, c x b < 0 := by
        intro b hb
        obtain ⟨i, hi⟩ := List.getElem?_of_mem hb
        rw [List.getElem?_drop] at hi
        exact hhigh _ b (by omega) hi
      have hS2 := hS
      rw [← List.take_append_drop p S, Sorted, List.pairwise_append] at hS2
      rw [Sorted, List.pairwise_append, List.pairwise_cons]
      refine ⟨hS2.1, ⟨fun b hb => by have := hhigh' b hb; omega, hS2.2.1⟩, ?_⟩
      intro a ha b hb
      rcases List.mem_cons.1 hb with e | e
      · rw [e]; exact hlow' a ha
      · exact hS2.2.2 a ha b e
    · rw [List.length_append, List.length_cons, List.length_take, List.length_drop]; omega
    · have hhigh' : ∀ b ∈ S.drop p, c x b < 0 := by
        intro b hb
        obtain ⟨i, hi⟩ := List.getElem?_of_mem hb
        rw [List.getElem?_drop] at hi
        exact hhigh _ b (by omega) hi
      have h3 := SameClasses.append (SameClasses.refl (c := c) (S.take p)) (swap_classes hc hhigh')
      rw [← List.append_assoc, List.take_append_drop] at h3
      exact h3

theorem insertRest_spec (hc : Order c) {P Q : List α} : ∀ (n : Nat) (S X : List α), X.length = n → Sorted c S → 1 ≤ S.length →
    ∃ S', insertRest c P.length n S.length (P ++ (S ++ (X ++ Q))) = some (P ++ (S' ++ Q)) ∧ Sorted c S' ∧ S'.length = S.length + n ∧ SameClasses c (S ++ X) S'
  | 0, S, X, hX, hS, _ => by
    have : X = [] := List.length_eq_zero_iff.1 hX
    subst this
    exact ⟨S, by simp [insertRest], hS, rfl, by rw [List.append_nil]; exact SameClasses.refl _⟩
  | n+1, S, X, hX, hS, hne => by
    cases X with
    | nil => simp at hX
    | cons x X =>
      obtain ⟨S1, h1, h2, h3, h4⟩ := insertOne_spec hc (P := P) (Q := X ++ Q) (x := x) hS hne
      obtain ⟨S2, g1, g2, g3, g4⟩ := insertRest_spec hc (P := P) (Q := Q) n S1 X (by simpa using hX) h2 (by omega)
      refine ⟨S2, ?_, g2, by omega, ?_⟩
      · rw [insertRest, List.cons_append, h1, Option.bind_some, ← h3]; exact g1
      · refine SameClasses.trans ?_ g4
        have := SameClasses.append h4 (SameClasses.refl (c := c) X)
        rw [List.append_assoc] at this
        exact this

/-! ## runs -/

theorem reverse_spec (P Q : List α) : ∀ (n : Nat) (S : List α) (s e : Nat), S.length < n + n → 1 ≤ n → s = P.length → (S.length ≠ 0 → e + 1 = P.length + S.length) → (S.length = 0 → e ≤ s) →
    reverse n s e (P ++ (S ++ Q)) = some (P ++ (S.reverse ++ Q))
  | 0, _, _, _, _, h, _, _, _ => absurd h (by omega)
  | n+1, S, s, e, hn, _, hs, he, he0 => by
    rw [reverse]
    by_cases q : s ≥ e
    · rw [if_pos q]
      cases S with
      | nil => rfl
      | cons a S =>
        have := he (by simp)
        rw [List.length_cons] at this
        have : S = [] := List.length_eq_zero_iff.1 (by omega)
        subst this; rfl
    · rw [if_neg q]
      have hl : S.length ≠ 0 := fun h => q (he0 h)
      have he' := he hl
      cases S with
      | nil => simp at hl
      | cons a S =>
        rw [List.length_cons] at he' hn
        have hS : S ≠ [] := by intro h; rw [h, List.length_nil] at he'; omega
        obtain ⟨M, b, rfl⟩ : ∃ B' b, S = B' ++ [b] := ⟨S.dropLast, S.getLast hS, (List.dropLast_concat_getLast hS).symm⟩
        rw [List.length_append, List.length_singleton] at he' hn
        have h1 : (P ++ (a :: (M ++ [b]) ++ Q))[s]? = some a := by rw [List.cons_append]; exact get_mid' hs
        have h2 : (P ++ (a :: (M ++ [b]) ++ Q))[e]? = some b := by
          rw [show P ++ (a :: (M ++ [b]) ++ Q) = (P ++ a :: M) ++ b :: Q by simp]
          exact get_mid' (by simp; omega)
        rw [h1, h2]
        simp only []
        have h3 : put (P ++ (a :: (M ++ [b]) ++ Q)) s b = some (P ++ (b :: M) ++ b :: Q) := by
          rw [List.cons_append, put_mid hs]; simp
        rw [h3]
        simp only []
        rw [put_mid (by simp; omega)]
        simp only []
        rw [show P ++ b :: M ++ a :: Q = (P ++ [b]) ++ (M ++ a :: Q) by simp]
        have ih := reverse_spec (P ++ [b]) (a :: Q) n M (s+1) (e-1) (by omega) (by omega) (by simp; omega) (by intro _; simp; omega) (by intro h; omega)
        rw [ih]
        simp

/-- Every neighbouring pair. -/
def Chain (R : α → α → Prop) (xs : List α) : Prop := ∀ i a b, xs[i]? = some a → xs[i+1]? = some b → R a b

theorem Chain.pairwise {R : α → α → Prop} (tr : ∀ a b d, R a b → R b d → R a d) : ∀ {xs : List α}, Chain R xs → xs.Pairwise R
  | [], _ => List.Pairwise.nil
  | x :: xs, h => by
    have ih : xs.Pairwise R := Chain.pairwise tr fun i a b ha hb => h (i+1) a b (by simpa using ha) (by simpa using hb)
    rw [List.pairwise_cons]
    refine ⟨?_, ih⟩
    intro y hy
    cases xs with
    | nil => exact nomatch hy
    | cons z xs =>
      have h0 := h 0 x z (by simp) (by simp)
      rcases List.mem_cons.1 hy with e | e
      · rw [e]; exact h0
      · exact tr x z y h0 ((List.pairwise_cons.1 ih).1 y e)

theorem runEnd_spec (d : List α) (down : Bool) (s : Nat) : ∀ (n i : Nat), d.length - i < n → s < i → i + 1 ≤ d.length →
    (∀ j a b, s ≤ j → j + 1 < i → d[j]? = some a → d[j+1]? = some b → ¬ (if down then c a b ≤ 0 else c a b > 0)) →
    ∃ e, runEnd c d down n i = some e ∧ i ≤ e ∧ e < d.length ∧
      ∀ j a b, s ≤ j → j + 1 < e → d[j]? = some a → d[j+1]? = some b → ¬ (if down then c a b ≤ 0 else c a b > 0)
  | 0, i, h, _, _, _ => absurd h (by omega)
  | n+1, i, hn, hsi, hi, h => by
    rw [runEnd]
    by_cases q : i = d.length - 1
    · rw [if_pos q]; exact ⟨i, rfl, Nat.le_refl _, by omega, h⟩
    · rw [if_neg q]
      obtain ⟨a, ha⟩ : ∃ a, d[i-1]? = some a := ⟨d[i-1], List.getElem?_eq_getElem (by omega)⟩
      obtain ⟨b, hb⟩ : ∃ a, d[i]? = some a := ⟨d[i], List.getElem?_eq_getElem (by omega)⟩
      rw [ha, hb]
      simp only []
      by_cases g : (if down then c a b ≤ 0 else c a b > 0)
      · rw [if_pos g]; exact ⟨i, rfl, Nat.le_refl _, by omega, h⟩
      · rw [if_neg g]
        obtain ⟨e, h1, h2, h3, h4⟩ := runEnd_spec d down s n (i+1) (by omega) (by omega) (by omega) (by
          intro j x y hj hj2 hx hy
          by_cases g2 : j + 1 < i
          · exact h j x y hj g2 hx hy
          · have : j = i - 1 := by omega
            subst this
            rw [show i - 1 + 1 = i by omega] at hy
            rw [ha] at hx; rw [hb] at hy; cases hx; cases hy
            exact g)
        exact ⟨e, h1, by omega, h3, h4⟩

theorem reverse_classes (hc : Order c) {A : List α} (h : A.Pairwise fun a b => c b a < 0) : SameClasses c A A.reverse := by
  induction A with
  | nil => exact SameClasses.refl _
  | cons a A ih =>
    rw [List.pairwise_cons] at h
    rw [List.reverse_cons]
    have h1 := ih h.2
    intro z
    rw [List.filter_append, h1 z, List.filter_cons, List.filter_cons, List.filter_nil]
    by_cases d : c z a = 0
    · have : A.filter (fun y => decide (c z y = 0)) = [] := by
        rw [List.filter_eq_nil_iff]
        intro b hb
        have h2 := hc.lt_le (h.1 b hb) (show c a z ≤ 0 by have := hc.zero_symm.1 d; omega)
        have := hc.neg b z
        simp; omega
      simp [d, this]
    · simp [d]

theorem countRun_spec (hc : Order c) {P R : List α} (hR : R ≠ []) :
    ∃ A B A', R = A ++ B ∧ A ≠ [] ∧ countRun c (P ++ R) P.length = some (P ++ (A' ++ B), A'.length) ∧ A'.length = A.length ∧ Sorted c A' ∧ SameClasses c A A' := by
  have hl : 1 ≤ R.length := Nat.pos_of_ne_zero fun h => hR (List.length_eq_zero_iff.1 h)
  have hlen : (P ++ R).length = P.length + R.length := List.length_append
  unfold countRun
  simp only []
  rw [hlen]
  by_cases q1 : P.length + R.length - P.length = 1
  · rw [if_pos q1]
    cases R with
    | nil => exact absurd rfl hR
    | cons a R =>
      have : R = [] := by rw [List.length_cons] at q1; exact List.length_eq_zero_iff.1 (by omega)
      subst this
      exact ⟨[a], [], [a], rfl, by simp, rfl, rfl, by simp, SameClasses.refl _⟩
  · rw [if_neg q1]
    by_cases q2 : P.length ≥ P.length + R.length - 2
    · rw [if_pos q2]
      match R, hR, q1, q2, hl with
      | [_], _, q1, _, _ => simp at q1
      | [a, b], _, _, _, _ =>
        have e1 : (P ++ [a, b])[P.length + [a,b].length - 2]? = some a := get_mid' (by simp)
        have e2 : (P ++ [a, b])[P.length + [a,b].length - 1]? = some b := by
          rw [show P ++ [a, b] = (P ++ [a]) ++ b :: [] by simp]; exact get_mid' (by simp)
        rw [e1, e2]
        simp only []
        by_cases g : c a b > 0
        · rw [if_pos g]
          refine ⟨[a, b], [], [b, a], by simp, by simp, ?_, rfl, ?_, ?_⟩
          · have s1 : (P ++ [a, b]).set (P.length + [a,b].length - 2) b = P ++ [b, b] := by
              rw [List.set_append_right _ _ (by simp), show P.length + [a,b].length - 2 - P.length = 0 by simp]; rfl
            have s2 : (P ++ [b, b]).set (P.length + [a,b].length - 1) a = P ++ [b, a] := by
              rw [List.set_append_right _ _ (by simp), show P.length + [a,b].length - 1 - P.length = 1 by simp]; rfl
            rw [s1, s2]; rfl
          · have := hc.neg b a; simp [Sorted]; omega
          · have := hc.neg b a
            exact swap_classes hc (S := [a]) (x := b) (by simp; omega)
        · rw [if_neg g]
          exact ⟨[a, b], [], [a, b], by simp, by simp, rfl, rfl, by simp [Sorted]; omega, SameClasses.refl _⟩
      | a :: b :: d :: R, _, _, q2, _ => simp at q2
    · rw [if_neg q2]
      obtain ⟨a, ha⟩ : ∃ a, R[0]? = some a := ⟨R[0], List.getElem?_eq_getElem (by omega)⟩
      obtain ⟨b, hb⟩ : ∃ b, R[1]? = some b := ⟨R[1], List.getElem?_eq_getElem (by omega)⟩
      have e1 : (P ++ R)[P.length]? = some a := by rw [List.getElem?_append_right (Nat.le_refl _), Nat.sub_self]; exact ha
      have e2 : (P ++ R)[P.length + 1]? = some b := by rw [List.getElem?_append_right (by omega), Nat.add_sub_cancel_left]; exact hb
      rw [e1, e2]
      simp only []
      have base : ∀ down : Bool, ¬ (if down then c a b ≤ 0 else c a b > 0) → ∃ e, runEnd c (P ++ R) down (P.length + R.length) (P.length + 2) = some e ∧
          P.length + 2 ≤ e ∧ e < P.length + R.length ∧ Chain (fun a b => ¬ (if down then c a b ≤ 0 else c a b > 0)) (R.take (e - P.length)) := by
        intro down hab
        obtain ⟨e, g1, g2, g3, g4⟩ := runEnd_spec (c := c) (P ++ R) down P.length (P.length + R.length) (P.length + 2) (by rw [hlen]; omega) (by omega) (by rw [hlen]; omega) (by
          intro j x y hj hj2 hx hy
          have : j = P.length := by omega
          subst this
          rw [e1] at hx; rw [e2] at hy; cases hx; cases hy
          exact hab)
        rw [hlen] at g3
        refine ⟨e, g1, g2, g3, ?_⟩
        intro i x y hx hy
        have hi : i + 1 < e - P.length := by
          have := (List.getElem?_eq_some_iff.1 hy).1; rw [List.length_take] at this; omega
        rw [List.getElem?_take_of_lt (by omega)] at hx hy
        exact g4 (P.length + i) x y (by omega) (by omega) (by rw [List.getElem?_append_right (by omega), Nat.add_sub_cancel_left]; exact hx)
          (by rw [List.getElem?_append_right (by omega), show P.length + i + 1 - P.length = i + 1 by omega]; exact hy)
      by_cases g : c a b ≤ 0
      · rw [if_pos g]
        obtain ⟨e, g1, g2, g3, g4⟩ := base false (by simp; omega)
        rw [g1]
        have hA : (R.take (e - P.length)).length = e - P.length := by rw [List.length_take]; omega
        refine ⟨R.take (e - P.length), R.drop (e - P.length), R.take (e - P.length), (List.take_append_drop _ _).symm, ?_, ?_, rfl, ?_, SameClasses.refl _⟩
        · intro h; rw [h, List.length_nil] at hA; omega
        · rw [List.take_append_drop, hA]; rfl
        · exact Chain.pairwise hc.trans fun i x y hx hy => by have := g4 i x y hx hy; simp at this; omega
      · rw [if_neg g]
        obtain ⟨e, g1, g2, g3, g4⟩ := base true (by simp; omega)
        rw [g1]
        simp only []
        have hA : (R.take (e - P.length)).length = e - P.length := by rw [List.length_take]; omega
        have hrev := reverse_spec P (R.drop (e - P.length)) (P.length + R.length) (R.take (e - P.length)) P.length (e - 1) (by omega) (by omega) rfl (by intro _; omega) (by intro h; omega)
        rw [List.take_append_drop] at hrev
        rw [hrev]
        have hp : (R.take (e - P.length)).Pairwise fun a b => c b a < 0 :=
          Chain.pairwise (fun x y z (h1 : c y x < 0) (h2 : c z y < 0) => hc.lt_le h2 (by omega)) fun i x y hx hy => by
            have := g4 i x y hx hy; simp at this; exact hc.lt_of (by omega)
        refine ⟨R.take (e - P.length), R.drop (e - P.length), (R.take (e - P.length)).reverse, (List.take_append_drop _ _).symm, ?_, ?_, by rw [List.length_reverse], ?_, reverse_classes hc hp⟩
        · intro h; rw [h, List.length_nil] at hA; omega
        · rw [List.length_reverse, hA]; rfl
        · rw [Sorted, List.pairwise_reverse]
          exact hp.imp fun h => by omega

/-! ## merging -/

def mrg (c : α → α → Int) : List α → List α → List α
  | [], ys => ys
  | x :: xs, [] => x :: xs
  | x :: xs, y :: ys => if c x y ≤ 0 then x :: mrg c xs (y :: ys) else y :: mrg c (x :: xs) ys
termination_by xs ys => xs.length + ys.length

theorem mrg_nil_right (xs : List α) : mrg c xs [] = xs := by cases xs <;> rw [mrg]

theorem mrg_length : ∀ (xs ys : List α), (mrg c xs ys).length = xs.length + ys.length
  | [], ys => by rw [mrg]; simp
  | x :: xs, [] => by rw [mrg]; simp
  | x :: xs, y :: ys => by
    rw [mrg]
    split
    · rw [List.length_cons, mrg_length xs (y :: ys)]; simp; omega
    · rw [List.length_cons, mrg_length (x :: xs) ys]; simp; omega
termination_by xs ys => xs.length + ys.length

theorem mrg_mem : ∀ (xs ys : List α) (z : α), z ∈ mrg c xs ys → z ∈ xs ∨ z ∈ ys
  | [], ys, z, h => by rw [mrg] at h; exact .inr h
  | x :: xs, [], z, h => by rw [mrg] at h; exact .inl h
  | x :: xs, y :: ys, z, h => by
    rw [mrg] at h
    split at h
    · rcases List.mem_cons.1 h with e | e
      · left; rw [e]; simp
      · rcases mrg_mem xs (y :: ys) z e with g | g
        · left; simp [g]
        · right; exact g
    · rcases List.mem_cons.1 h with e | e
      · right; rw [e]; simp
      · rcases mrg_mem (x :: xs) ys z e with g | g
        · left; exact g
        · right; simp [g]
termination_by xs ys => xs.length + ys.length

theorem mrg_sorted (hc : Order c) : ∀ (xs ys : List α), Sorted c xs → Sorted c ys → Sorted c (mrg c xs ys)
  | [], ys, _, h => by rw [mrg]; exact h
  | x :: xs, [], h, _ => by rw [mrg]; exact h
  | x :: xs, y :: ys, h1, h2 => by
    rw [mrg]
    have h1' := List.pairwise_cons.1 h1
    have h2' := List.pairwise_cons.1 h2
    split
    case isTrue q =>
      rw [Sorted, List.pairwise_cons]
      refine ⟨?_, mrg_sorted hc xs (y :: ys) h1'.2 h2⟩
      intro z hz
      rcases mrg_mem _ _ z hz with g | g
      · exact h1'.1 z g
      · rcases List.mem_cons.1 g with e | e
        · rw [e]; exact q
        · exact hc.trans x y z q (h2'.1 z e)
    case isFalse q =>
      have q' := hc.lt_of q
      rw [Sorted, List.pairwise_cons]
      refine ⟨?_, mrg_sorted hc (x :: xs) ys h1 h2'.2⟩
      intro z hz
      rcases mrg_mem _ _ z hz with g | g
      · rcases List.mem_cons.1 g with e | e
        · rw [e]; omega
        · have := hc.trans y x z (by omega) (h1'.1 z e); exact this
      · exact h2'.1 z g
termination_by xs ys => xs.length + ys.length

theorem mrg_classes (hc : Order c) : ∀ (xs ys : List α), Sorted c xs → SameClasses c (xs ++ ys) (mrg c xs ys)
  | [], ys, _ => by rw [mrg]; exact SameClasses.refl _
  | x :: xs, [], _ => by rw [mrg, List.append_nil]; exact SameClasses.refl _
  | x :: xs, y :: ys, h1 => by
    rw [mrg]
    have h1' := List.pairwise_cons.1 h1
    split
    case isTrue q =>
      exact SameClasses.append (SameClasses.refl [x]) (mrg_classes hc xs (y :: ys) h1'.2)
    case isFalse q =>
      have q' := hc.lt_of q
      have ih := mrg_classes hc (x :: xs) ys h1
      have h2 : SameClasses c (x :: xs ++ [y]) (y :: (x :: xs)) := swap_classes hc (by
        intro b hb
        rcases List.mem_cons.1 hb with e | e
        · rw [e]; exact q'
        · exact hc.lt_le q' (h1'.1 b e))
      have h3 := SameClasses.append h2 (SameClasses.refl (c := c) ys)
      rw [List.append_assoc] at h3
      exact SameClasses.trans h3 (SameClasses.append (SameClasses.refl [y]) ih)
termination_by xs ys => xs.length + ys.length

theorem mergeUp_spec {st : List α} {Q : List α} : ∀ (n : Nat) (done S P G Y : List α) (i j k e : Nat), st = done ++ S → G.length = S.length → n = S.length + Y.length →
    i = done.length → k = P.length → j = k + G.length → e = j + Y.length →
    mergeUp c st e n i j k (P ++ (G ++ (Y ++ Q))) = some (P ++ (mrg c S Y ++ Q))
  | 0, done, S, P, G, Y, i, j, k, e, hst, hG, hn, hi, hk, hj, he => by
    have h1 : S = [] := List.length_eq_zero_iff.1 (by omega)
    have h2 : Y = [] := List.length_eq_zero_iff.1 (by omega)
    have h3 : G = [] := List.length_eq_zero_iff.1 (by rw [hG, h1]; rfl)
    subst h1 h2 h3
    rw [mergeUp, mrg]; rfl
  | n+1, done, S, P, G, Y, i, j, k, e, hst, hG, hn, hi, hk, hj, he => by
    rw [mergeUp]
    cases S with
    | nil =>
      have h3 : G = [] := List.length_eq_zero_iff.1 (by rw [hG]; rfl)
      have hlen : st.length = i := by rw [hst, hi]; simp
      subst h3
      rw [if_neg (by omega), if_neg (by omega), mrg]; rfl
    | cons s S =>
      have hlen : i < st.length := by rw [hst, hi]; simp
      have hs : st[i]? = some s := by rw [hst]; exact get_mid' hi
      cases G with
      | nil => simp at hG
      | cons g G =>
        rw [List.length_cons] at hj
        rw [List.length_cons, List.length_cons] at hG
        have hput : ∀ v Z, put (P ++ (g :: G ++ Z)) k v = some (P ++ [v] ++ (G ++ Z)) := by
          intro v Z
          rw [List.cons_append, put_mid hk]; simp
        cases Y with
        | nil =>
          rw [if_neg (by simp at he; omega), if_pos hlen, hs]
          simp only []
          rw [hput, Option.bind_some, mergeUp_spec n (done ++ [s]) S (P ++ [s]) G [] (i+1) j (k+1) e (by rw [hst]; simp) (by omega) (by simp at hn ⊢; omega) (by simp; omega) (by simp; omega) (by omega) (by simp at he ⊢; omega)]
          rw [mrg_nil_right, mrg_nil_right]; simp
        | cons y Y =>
          have hy : (P ++ (g :: G ++ (y :: Y ++ Q)))[j]? = some y := by
            rw [show P ++ (g :: G ++ (y :: Y ++ Q)) = (P ++ g :: G) ++ y :: (Y ++ Q) by simp]; exact get_mid' (by simp; omega)
          rw [if_pos ⟨hlen, by rw [List.length_cons] at he; omega⟩, hs, hy]
          simp only []
          rw [mrg]
          by_cases q : c s y ≤ 0
          · rw [if_pos q, if_pos q, hput, Option.bind_some,
              mergeUp_spec n (done ++ [s]) S (P ++ [s]) G (y :: Y) (i+1) j (k+1) e (by rw [hst]; simp) (by omega) (by simp at hn ⊢; omega) (by simp; omega) (by simp; omega) (by omega) he]
            simp
          · rw [if_neg q, if_neg q, hput, Option.bind_some]
            have := mergeUp_spec (Q := Q) n done (s :: S) (P ++ [y]) (G ++ [y]) Y i (j+1) (k+1) e hst (by simp; omega) (by simp at hn ⊢; omega) hi (by simp; omega) (by simp; omega) (by simp at he; omega)
            rw [show P ++ [y] ++ (G ++ [y] ++ (Y ++ Q)) = P ++ [y] ++ (G ++ (y :: Y ++ Q)) by simp] at this
            rw [this]
            simp

theorem mergeDown_spec {st : List α} {P : List α} : ∀ (n : Nat) (rX rY rG Q rest : List α) (i j : Nat), st = rY.reverse ++ rest → rG.length = rY.length → n = rX.length + rY.length →
    i = rY.length → j = P.length + rX.length →
    mergeDown c st P.length n i j (P ++ (rX.reverse ++ (rG.reverse ++ Q))) = some (P ++ ((mrg (fun a b => c b a) rY rX).reverse ++ Q))
  | 0, rX, rY, rG, Q, rest, i, j, hst, hG, hn, hi, hj => by
    have h1 : rX = [] := List.length_eq_zero_iff.1 (by omega)
    have h2 : rY = [] := List.length_eq_zero_iff.1 (by omega)
    have h3 : rG = [] := List.length_eq_zero_iff.1 (by rw [hG, h2]; rfl)
    subst h1 h2 h3
    rw [mergeDown, mrg]; rfl
  | n+1, rX, rY, rG, Q, rest, i, j, hst, hG, hn, hi, hj => by
    rw [mergeDown]
    cases rY with
    | nil =>
      have h3 : rG = [] := List.length_eq_zero_iff.1 (by rw [hG]; rfl)
      subst h3
      rw [List.length_nil] at hi
      rw [if_neg (by omega), if_neg (by omega), mrg]; rfl
    | cons b rY =>
      rw [List.length_cons] at hi hG hn
      have hb : st[i-1]? = some b := by
        rw [hst, List.reverse_cons, List.append_assoc]; exact get_mid' (by simp; omega)
      cases rG with
      | nil => simp at hG
      | cons g rG =>
        rw [List.length_cons] at hG
        have hput : ∀ v Z, Z.length + rG.length = n → put (P ++ (Z ++ ((g :: rG).reverse ++ Q))) (P.length + n) v = some (P ++ (Z ++ (rG.reverse ++ (v :: Q)))) := by
          intro v Z hZ
          rw [List.reverse_cons, show P ++ (Z ++ (rG.reverse ++ [g] ++ Q)) = (P ++ Z ++ rG.reverse) ++ g :: Q by simp, put_mid (by simp; omega)]
          simp
        cases rX with
        | nil =>
          rw [if_neg (by simp at hj; omega), if_pos (by omega), hb]
          simp only []
          rw [hput b _ (by simp at hn ⊢; omega), Option.bind_some,
            mergeDown_spec n [] rY rG (b :: Q) (b :: rest) (i-1) j (by rw [hst]; simp) (by omega) (by simp at hn ⊢; omega) (by omega) hj]
          rw [mrg_nil_right, mrg_nil_right]; simp
        | cons a rX =>
          rw [List.length_cons] at hj hn
          have ha : (P ++ ((a :: rX).reverse ++ ((g :: rG).reverse ++ Q)))[j-1]? = some a := by
            rw [List.reverse_cons, show P ++ (rX.reverse ++ [a] ++ ((g :: rG).reverse ++ Q)) = (P ++ rX.reverse) ++ a :: ((g :: rG).reverse ++ Q) by simp]
            exact get_mid' (by simp; omega)
          rw [if_pos ⟨by omega, by omega⟩, ha, hb]
          simp only []
          rw [mrg]
          by_cases q : c a b > 0
          · rw [if_pos q, if_neg (by omega), hput a _ (by simp; omega), Option.bind_some]
            have ih := mergeDown_spec (P := P) n rX (b :: rY) (rG ++ [a]) (a :: Q) rest i (j-1) hst (by simp; omega) (by simp; omega) (by simp; omega) (by omega)
            rw [show P ++ (rX.reverse ++ ((rG ++ [a]).reverse ++ a :: Q)) = P ++ ((a :: rX).reverse ++ (rG.reverse ++ a :: Q)) by simp] at ih
            rw [ih]; simp
          · rw [if_neg q, if_pos (by omega), hput b _ (by simp; omega), Option.bind_some,
              mergeDown_spec n (a :: rX) rY rG (b :: Q) (b :: rest) (i-1) j (by rw [hst]; simp) (by omega) (by simp; omega) (by omega) (by simp; omega)]
            simp

theorem merge_spec (hc : Order c) {P X Y Q : List α} (hX : Sorted c X) (hY : Sorted c Y) :
    ∃ M, merge c (P ++ (X ++ (Y ++ Q))) P.length X.length Y.length = some (P ++ (M ++ Q)) ∧ Sorted c M ∧ M.length = X.length + Y.length ∧ SameClasses c (X ++ Y) M := by
  unfold merge
  rw [if_neg (by simp; omega)]
  by_cases q : X.length < Y.length
  · rw [if_pos q]
    have hst : ((P ++ (X ++ (Y ++ Q))).drop P.length).take X.length = X := by simp
    rw [hst]
    refine ⟨mrg c X Y, mergeUp_spec (X.length + Y.length) [] X P X Y 0 _ _ _ (by simp) rfl rfl rfl rfl rfl rfl, mrg_sorted hc X Y hX hY, mrg_length X Y, mrg_classes hc X Y hX⟩
  · rw [if_neg q]
    have hst : ((P ++ (X ++ (Y ++ Q))).drop (P.length + X.length)).take Y.length = Y := by
      rw [← List.append_assoc P X, ← List.length_append]; simp
    rw [hst]
    have hX' : Sorted (fun a b => c b a) X.reverse := by rw [Sorted, List.pairwise_reverse]; exact hX
    have hY' : Sorted (fun a b => c b a) Y.reverse := by rw [Sorted, List.pairwise_reverse]; exact hY
    have h := mergeDown_spec (c := c) (st := Y) (P := P) (X.length + Y.length) X.reverse Y.reverse Y.reverse Q [] Y.length (P.length + X.length) (by simp) rfl (by simp) (by simp) (by simp)
    rw [List.reverse_reverse, List.reverse_reverse] at h
    refine ⟨_, h, ?_, ?_, ?_⟩
    · rw [Sorted, List.pairwise_reverse]; exact mrg_sorted hc.flip _ _ hY' hX'
    · rw [List.length_reverse, mrg_length, List.length_reverse, List.length_reverse]; omega
    · intro z
      have h2 := mrg_classes hc.flip Y.reverse X.reverse hY' z
      simp only [hc.zero_symm (a := _) (b := z)] at h2
      rw [List.filter_reverse, h2, ← List.filter_reverse]
      simp

end Verif.Sort
