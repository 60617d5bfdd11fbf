import Verif.Sort.Num
import Verif.Radix.Lemmas
/-! # The radix sort -/
namespace Verif.Sort
open Verif.Radix

variable {α : Type}

/-- The key a pass sorts by. -/
def dkey (up : Bool) (dig : Nat → α → Nat) (t : Nat) (x : α) : Nat := if up then dig t x else 255 - dig t x

theorem dkey_lt (up : Bool) {dig : Nat → α → Nat} (hd : ∀ t x, dig t x < 256) (t : Nat) (x : α) : dkey up dig t x < 256 := by
  have := hd t x
  unfold dkey; cases up <;> simp <;> omega

/-- The counters of a table before its pass. -/
def Ready (up : Bool) (dig : Nat → α → Nat) (xs : List α) (t : Nat) (c : Nat → Nat) : Prop :=
  ∀ k, k < 256 → c (256*t + k) = if up then below (dig t) xs k else xs.length - below (dig t) xs (k+1)

theorem rcount_up (M : Nat) (hM : 1 < M) {dig : Nat → α → Nat} (hd : ∀ t x, dig t x < 256) (xs : List α) (c : Nat → Nat) : ∀ T,
    (∀ t, t < T → ∀ k, k < 255 → c (256*t+1+k) = 0) →
    (∀ t, t < T → ∀ k, k < 255 → rcount true M dig xs T c (256*t+1+k) = cnt (dig t) xs k % M) ∧
    (∀ j, 256*T < j → rcount true M dig xs T c j = c j) ∧ rcount true M dig xs T c 0 = c 0
  | 0, _ => ⟨fun t h => absurd h (by omega), fun _ _ => rfl, rfl⟩
  | T+1, h => by
    obtain ⟨h1, h2, h3⟩ := rcount_up M hM hd xs c T (fun t ht => h t (by omega))
    have e : rcount true M dig xs (T+1) c = countUp M (256*T) (dig T) (rcount true M dig xs T c) xs := by
      unfold rcount; rw [List.range_succ, List.foldl_append]; rfl
    rw [e]
    refine ⟨?_, ?_, ?_⟩
    · intro t ht k hk
      by_cases c' : t = T
      · subst c'
        have h4 : rcount true M dig xs t c (256*t+1+k) = 0 := by rw [h2 _ (by omega)]; exact h t (by omega) k hk
        rw [countUp_at M (256*t) hM (dig t) xs _ k (by omega), h4, Nat.zero_add]
      · rw [countUp_out _ _ _ _ _ (fun x _ => by omega)]
        exact h1 t (by omega) k hk
    · intro j hj
      rw [countUp_out _ _ _ _ _ (fun x _ => by have := hd T x; omega)]
      exact h2 j (by omega)
    · rw [countUp_out _ _ _ _ _ (fun x _ => by omega), h3]

theorem rcount_down (M : Nat) (hM : 1 < M) {dig : Nat → α → Nat} (hd : ∀ t x, dig t x < 256) (xs : List α) (c : Nat → Nat) (hc : ∀ j, c j < M) : ∀ T,
    (∀ t, t < T → ∀ k, k < 256 → (rcount false M dig xs T c (256*t+k) + cnt (dig t) xs k) % M = c (256*t+k)) ∧
    (∀ j, 256*T ≤ j → rcount false M dig xs T c j = c j)
  | 0 => ⟨fun t h => absurd h (by omega), fun _ _ => rfl⟩
  | T+1 => by
    obtain ⟨h1, h2⟩ := rcount_down M hM hd xs c hc T
    have e : rcount false M dig xs (T+1) c = countDown M (256*T) (dig T) (rcount false M dig xs T c) xs := by
      unfold rcount; rw [List.range_succ, List.foldl_append]; rfl
    rw [e]
    refine ⟨?_, ?_⟩
    · intro t ht k hk
      by_cases c' : t = T
      · subst c'
        have h4 : rcount false M dig xs t c (256*t+k) = c (256*t+k) := h2 _ (by omega)
        rw [← h4]
        exact (countDown_at M (256*t) hM (dig t) xs _ k (by rw [h4]; exact hc _)).1
      · rw [countDown_out _ _ _ _ _ (fun x _ => by omega)]
        exact h1 t (by omega) k hk
    · intro j hj
      rw [countDown_out _ _ _ _ _ (fun x _ => by have := hd T x; omega)]
      exact h2 j (by omega)

theorem rsum_spec (up : Bool) (M : Nat) {dig : Nat → α → Nat} (xs : List α) (hl : xs.length < M) (c : Nat → Nat)
    (hup : up = true → c 0 = 0) : ∀ T,
    (up = true → ∀ t, t < T → ∀ k, k < 255 → c (256*t+1+k) = cnt (dig t) xs k % M) →
    (up = false → ∀ t, t < T → ∀ k, k < 256 → (c (256*t+k) + cnt (dig t) xs k) % M = if k = 0 then xs.length % M else 0) →
    (∀ t, t < T → Ready up dig xs t (rsum up M T c)) ∧ (∀ j, 256*T ≤ j → rsum up M T c j = c j)
  | 0, _, _ => ⟨fun t h => absurd h (by omega), fun _ _ => rfl⟩
  | T+1, h1, h2 => by
    obtain ⟨i1, i2⟩ := rsum_spec up M xs hl c hup T (fun e t ht => h1 e t (by omega)) (fun e t ht => h2 e t (by omega))
    have e : rsum up M (T+1) c = sums M 256 (256*T) 0 (if up ∧ T ≠ 0 then upd (rsum up M T c) (256*T) 0 else rsum up M T c) := by
      unfold rsum; rw [List.range_succ, List.foldl_append]; simp only [List.foldl_cons, List.foldl_nil]
    rw [e]
    have hout : ∀ j, j < 256*T ∨ 256*T + 256 ≤ j → (if up = true ∧ T ≠ 0 then upd (rsum up M T c) (256*T) 0 else rsum up M T c) j = rsum up M T c j := by
      intro j hj
      split
      · exact upd_other _ _ (by omega)
      · rfl
    refine ⟨?_, ?_⟩
    · intro t ht k hk
      by_cases c' : t = T
      · subst c'
        cases up
        · simp only [Bool.false_eq_true, false_and, if_false]
          apply sums_down M (256*t) (dig t) xs _ hl ?_ ?_ hk
          · rw [i2 _ (by omega)]; exact h2 rfl t (by omega) 0 (by omega)
          · intro k hk
            rw [i2 _ (by omega)]
            have := h2 rfl t (by omega) (k+1) (by omega)
            rwa [if_neg (by omega), show 256*t + (k+1) = 256*t+1+k by omega] at this
        · simp only [true_and, if_true]
          apply sums_up M (256*t) (dig t) xs _ ?_ ?_ hl hk
          · split
            · exact upd_same _ _ _
            · rename_i h0
              have h0 : t = 0 := Classical.not_not.1 h0
              subst h0
              rw [i2 _ (by omega)]
              exact hup rfl
          · intro k hk
            rw [← h1 rfl t (by omega) k hk, ← i2 _ (by omega)]
            split
            · exact upd_other _ _ (by omega)
            · rfl
      · rw [sums_out _ _ _ _ _ _ (by omega), hout _ (by omega)]
        exact i1 t (by omega) k hk
    · intro j hj
      rw [sums_out _ _ _ _ _ _ (by omega), hout _ (by omega)]
      exact i2 j (by omega)

theorem tables_ready (up : Bool) (M : Nat) (hM : 1 < M) {dig : Nat → α → Nat} (hd : ∀ t x, dig t x < 256) (xs : List α) (hl : xs.length < M)
    (T : Nat) (junk : Nat → Nat) :
    ∀ t, t < T → Ready up dig xs t (rsum up M T (rcount up M dig xs T (rinit up M xs.length T junk))) := by
  have hi0 : ∀ t, t < T → ∀ k, k < 256 → k ≠ 0 → rinit up M xs.length T junk (256*t+k) = 0 := by
    intro t ht k hk h0
    unfold rinit
    rw [if_pos (by omega), if_neg (by omega)]
  intro t ht
  refine (rsum_spec up M xs hl _ ?_ T ?_ ?_).1 t ht
  · intro e
    subst e
    rw [(rcount_up M hM hd xs _ T (fun t ht k hk => by rw [Nat.add_assoc]; exact hi0 t ht (1+k) (by omega) (by omega))).2.2]
    unfold rinit
    rw [if_pos (by omega)]; rfl
  · intro e
    subst e
    exact (rcount_up M hM hd xs _ T (fun t ht k hk => by rw [Nat.add_assoc]; exact hi0 t ht (1+k) (by omega) (by omega))).1
  · intro e
    subst e
    intro t ht k hk
    rw [(rcount_down M hM hd xs _ (fun j => by
      unfold rinit
      split
      · split
        · simp only [Bool.false_eq_true, if_false]; exact Nat.mod_lt _ (by omega)
        · omega
      · exact Nat.mod_lt _ (by omega)) T).1 t ht k hk]
    by_cases c : k = 0
    · subst c
      unfold rinit
      rw [if_pos (by omega), if_pos (by omega), if_pos rfl]; rfl
    · rw [hi0 t ht k hk c, if_neg c]

theorem ready_key (up : Bool) {dig : Nat → α → Nat} (hd : ∀ t x, dig t x < 256) {xs : List α} {t : Nat} {c : Nat → Nat} (h : Ready up dig xs t c)
    (x : α) : c (256*t + dig t x) = below (dkey up dig t) xs (dkey up dig t x) := by
  rw [h _ (hd t x)]
  cases up
  · exact (below_flip (dig t) xs (hd t) (hd t x)).symm
  · rfl

/-- Capacity does not matter as long as it is enough. -/
theorem move_cap (M : Nat) {n n' : Nat} (hn : n ≤ n') (idx : α → Nat) (val : α → β) : ∀ (xs : List α) (c : Nat → Nat) (o : Nat → Option β) (r),
    move M n idx val c o xs = some r → move M n' idx val c o xs = some r
  | [], _, _, _, h => h
  | x :: xs, c, o, r, h => by
    unfold move at h ⊢
    dsimp only at h ⊢
    by_cases hp : c (idx x) < n
    · rw [if_pos hp] at h
      rw [if_pos (by omega)]
      exact move_cap M hn idx val xs _ _ _ h
    · rw [if_neg hp] at h; cases h

theorem move_out (M n : Nat) (idx : α → Nat) (val : α → β) : ∀ (xs : List α) (c : Nat → Nat) (o : Nat → Option β) (r),
    move M n idx val c o xs = some r → ∀ j, n ≤ j → r.2 j = o j
  | [], _, _, _, h => by cases h; exact fun _ _ => rfl
  | x :: xs, c, o, r, h => by
    unfold move at h
    dsimp only at h
    by_cases hp : c (idx x) < n
    · rw [if_pos hp] at h
      intro j hj
      rw [move_out M n idx val xs _ _ _ h j hj]
      exact upd_other _ _ (by omega)
    · rw [if_neg hp] at h; cases h

/-- The list after `k` passes from `t`. -/
def sorted (up : Bool) (dig : Nat → α → Nat) : Nat → Nat → List α → List α
  | 0, _, l => l
  | k+1, t, l => sorted up dig k (t+1) (bsort (dkey up dig t) 256 l)

theorem below_perm (key : α → Nat) {xs ys : List α} (h : xs.Perm ys) (k : Nat) : below key xs k = below key ys k := h.countP_eq _

theorem Ready.perm {up : Bool} {dig : Nat → α → Nat} {xs ys : List α} {t : Nat} {c : Nat → Nat} (h : Ready up dig xs t c) (hp : xs.Perm ys) :
    Ready up dig ys t c := by
  intro k hk
  rw [h k hk, below_perm _ hp, below_perm _ hp, hp.length_eq]

theorem passes_spec (up : Bool) (M : Nat) {dig : Nat → α → Nat} (hd : ∀ t x, dig t x < 256) (cap : Nat → Nat) : ∀ (k t : Nat) (c : Nat → Nat) (l : List α),
    l.length < M → (∀ t, l.length ≤ cap t) → (∀ s, t ≤ s → s < t + k → Ready up dig l s c) →
    passes M dig cap k t c l = some (sorted up dig k t l)
  | 0, _, _, _, _, _, _ => rfl
  | k+1, t, c, l, hl, hcap, hr => by
    have hk := dkey_lt up hd t
    obtain ⟨c', o', h1, h2, h3, h4, h5⟩ := pass_bsort M l.length (fun x => 256*t + dig t x) (dkey up dig t)
      (by intro x y; have := hd t x; have := hd t y; unfold dkey; cases up <;> simp <;> omega) hk id l rfl hl c
      (fun x _ => ready_key up hd (hr t (by omega) (by omega)) x) (fun _ => none)
    have hb : (bsort (dkey up dig t) 256 l).Perm l := bsort_perm _ (fun x _ => hk x)
    have h6 : read o' 0 l.length = some (bsort (dkey up dig t) 256 l) := read_pass hb.length_eq (fun j hj => by rw [h4 j hj, List.map_id])
    have h7 := move_cap M (hcap t) _ _ _ _ _ _ h1
    unfold passes
    rw [h7]
    simp only [Option.bind_some]
    rw [h6]
    simp only [Option.bind_some]
    refine passes_spec up M hd cap k (t+1) c' _ (by rw [hb.length_eq]; exact hl) (by rw [hb.length_eq]; exact hcap) ?_
    intro s hs hs2
    refine Ready.perm ?_ hb.symm
    intro i hi
    rw [h3 _ (fun x _ => by have := hd t x; omega)]
    exact hr s (by omega) (by omega) i hi

/-- A first pass that does not fit. -/
theorem passes_none (up : Bool) (M : Nat) {dig : Nat → α → Nat} (hd : ∀ t x, dig t x < 256) (cap : Nat → Nat) (k t : Nat) (c : Nat → Nat) (l : List α)
    (hl : l.length < M) (hcap : cap t < l.length) (hr : Ready up dig l t c) : passes M dig cap (k+1) t c l = none := by
  have hk := dkey_lt up hd t
  obtain ⟨c', o', h1, h2, h3, h4, h5⟩ := pass_bsort M l.length (fun x => 256*t + dig t x) (dkey up dig t)
    (by intro x y; have := hd t x; have := hd t y; unfold dkey; cases up <;> simp <;> omega) hk id l rfl hl c
    (fun x _ => ready_key up hd hr x) (fun _ => none)
  unfold passes
  cases h : move M (cap t) (fun x => 256*t + dig t x) id c (fun _ => none) l with
  | none => rfl
  | some r =>
    exfalso
    have h6 := move_cap M (Nat.le_of_lt hcap) _ _ _ _ _ _ h
    rw [h1] at h6
    injection h6 with h6
    have h7 := move_out M _ _ _ _ _ _ _ h (l.length - 1) (by omega)
    rw [← h6] at h7
    have h8 : o' (l.length - 1) = none := h7
    rw [h4 _ (by omega)] at h8
    have h9 := List.getElem?_eq_none_iff.1 h8
    rw [List.length_map, bsort_length_all _ (fun x _ => hk x)] at h9
    omega

theorem radix_spec (up : Bool) (M : Nat) (hM : 1 < M) {dig : Nat → α → Nat} (hd : ∀ t x, dig t x < 256) (cap : Nat → Nat) (T : Nat)
    (junk : Nat → Nat) (xs : List α) (hl : xs.length < M) (hcap : ∀ t, xs.length ≤ cap t) :
    radix up M T dig cap junk xs = some (sorted up dig T 0 xs) :=
  passes_spec up M hd cap T 0 _ xs hl hcap fun s _ hs => tables_ready up M hM hd xs hl T junk s (by omega)

theorem radix_none (up : Bool) (M : Nat) (hM : 1 < M) {dig : Nat → α → Nat} (hd : ∀ t x, dig t x < 256) (cap : Nat → Nat) (T : Nat)
    (junk : Nat → Nat) (xs : List α) (hl : xs.length < M) (hcap : cap 0 < xs.length) :
    radix up M (T+1) dig cap junk xs = none :=
  passes_none up M hd cap T 0 _ xs hl hcap (tables_ready up M hM hd xs hl (T+1) junk 0 (by omega))

theorem sorted_perm (up : Bool) {dig : Nat → α → Nat} (hd : ∀ t x, dig t x < 256) : ∀ (k t : Nat) (l : List α), (sorted up dig k t l).Perm l
  | 0, _, l => .refl l
  | k+1, t, l => (sorted_perm up hd k (t+1) _).trans (bsort_perm _ fun x _ => dkey_lt up hd t x)

/-- The order after `k` passes from `t`, of elements with `R` between them before. -/
def Lex (up : Bool) (dig : Nat → α → Nat) : Nat → Nat → (α → α → Prop) → α → α → Prop
  | 0, _, R => R
  | k+1, t, R => Lex up dig k (t+1) fun a b => dkey up dig t a < dkey up dig t b ∨ (dkey up dig t a = dkey up dig t b ∧ R a b)

theorem sorted_pairwise (up : Bool) (dig : Nat → α → Nat) : ∀ (k t : Nat) (l : List α) (R : α → α → Prop), l.Pairwise R →
    (sorted up dig k t l).Pairwise (Lex up dig k t R)
  | 0, _, _, _, h => h
  | k+1, t, l, R, h => sorted_pairwise up dig k (t+1) _ _ (bsort_pairwise (dkey up dig t) 256 h)

theorem digit_lt (T t : Nat) (x : Int) : digit T t x < 256 := by
  unfold digit; split <;> omega

theorem lex_i8 (up : Bool) {f : α → Int} {R : α → α → Prop} {a b : α} (ha : IntTy.has .i8 (f a)) (hb : IntTy.has .i8 (f b))
    (h : Lex up (fun t x => digit 1 t (f x)) 1 0 R a b) : intOrder up (f a) (f b) < 0 ∨ (f a = f b ∧ R a b) := by
  simp only [Lex, dkey, digit, intOrder, IntTy.has, IntTy.size] at *
  by_cases hR : R a b <;> cases up <;> simp [hR] at * <;> omega

theorem lex_i16 (up : Bool) {f : α → Int} {R : α → α → Prop} {a b : α} (ha : IntTy.has .i16 (f a)) (hb : IntTy.has .i16 (f b))
    (h : Lex up (fun t x => digit 2 t (f x)) 2 0 R a b) : intOrder up (f a) (f b) < 0 ∨ (f a = f b ∧ R a b) := by
  simp only [Lex, dkey, digit, intOrder, IntTy.has, IntTy.size] at *
  by_cases hR : R a b <;> cases up <;> simp [hR] at * <;> omega

theorem digits_i32 {x : Int} (h : IntTy.has .i32 x) :
    x = ((digit 4 3 x : Int) - 128) * 16777216 + digit 4 2 x * 65536 + digit 4 1 x * 256 + digit 4 0 x := by
  simp only [digit, IntTy.has, IntTy.size] at *
  simp at *
  omega

theorem lex_i32 (up : Bool) {f : α → Int} {R : α → α → Prop} {a b : α} (ha : IntTy.has .i32 (f a)) (hb : IntTy.has .i32 (f b))
    (h : Lex up (fun t x => digit 4 t (f x)) 4 0 R a b) : intOrder up (f a) (f b) < 0 ∨ (f a = f b ∧ R a b) := by
  have ea := digits_i32 ha
  have eb := digits_i32 hb
  have a0 := digit_lt 4 0 (f a); have a1 := digit_lt 4 1 (f a); have a2 := digit_lt 4 2 (f a); have a3 := digit_lt 4 3 (f a)
  have b0 := digit_lt 4 0 (f b); have b1 := digit_lt 4 1 (f b); have b2 := digit_lt 4 2 (f b); have b3 := digit_lt 4 3 (f b)
  simp only [Lex, dkey, intOrder, Nat.zero_add, Nat.reduceAdd] at *
  generalize f a = x at *
  generalize f b = y at *
  generalize digit 4 0 x = x0 at *
  generalize digit 4 1 x = x1 at *
  generalize digit 4 2 x = x2 at *
  generalize digit 4 3 x = x3 at *
  generalize digit 4 0 y = y0 at *
  generalize digit 4 1 y = y1 at *
  generalize digit 4 2 y = y2 at *
  generalize digit 4 3 y = y3 at *
  clear ha hb
  cases up <;> simp only [if_true, if_false, Bool.false_eq_true] at * <;> rcases h with h | ⟨h3, h | ⟨h2, h | ⟨h1, h | ⟨h0, hR⟩⟩⟩⟩
  all_goals first
    | exact .inr ⟨by omega, hR⟩
    | exact .inl (by omega)

end Verif.Sort
