import Verif.Radix.Model
/-!
# Stable bucket order and the passes that compute it
-/
namespace Verif.Radix

/-- The elements with key 0, then those with key 1, … up to `B-1`, each in their original order. -/
def bsort (key : α → Nat) (B : Nat) (xs : List α) : List α := (List.range B).flatMap fun k => xs.filter fun x => key x = k

/-- number of elements with a smaller key -/
def below (key : α → Nat) (xs : List α) (k : Nat) : Nat := xs.countP fun x => decide (key x < k)

/-- number of elements with that key -/
def cnt (key : α → Nat) (xs : List α) (k : Nat) : Nat := xs.countP fun x => decide (key x = k)

theorem below_succ (key : α → Nat) (xs : List α) (k : Nat) : below key xs (k+1) = below key xs k + cnt key xs k := by
  unfold below cnt
  induction xs with
  | nil => rfl
  | cons x xs ih =>
    simp only [List.countP_cons, decide_eq_true_eq]
    rw [ih]
    rcases Nat.lt_trichotomy (key x) k with h | h | h
    · rw [if_pos (by omega), if_pos h, if_neg (by omega)]; omega
    · rw [if_pos (by omega), if_neg (by omega), if_pos h]; omega
    · rw [if_neg (by omega), if_neg (by omega), if_neg (by omega)]; omega

theorem below_mono (key : α → Nat) (xs : List α) {k l : Nat} (h : k ≤ l) : below key xs k ≤ below key xs l := by
  induction h with
  | refl => exact Nat.le_refl _
  | step _ ih => rw [below_succ]; omega

theorem below_zero (key : α → Nat) (xs : List α) : below key xs 0 = 0 := by
  unfold below
  rw [List.countP_eq_zero]
  simp

theorem below_all (key : α → Nat) {xs : List α} {B : Nat} (h : ∀ x ∈ xs, key x < B) : below key xs B = xs.length := by
  unfold below
  rw [List.countP_eq_length]
  simpa using h

theorem below_le (key : α → Nat) (xs : List α) (k : Nat) : below key xs k ≤ xs.length := List.countP_le_length

theorem cnt_append (key : α → Nat) (xs ys : List α) (k : Nat) : cnt key (xs ++ ys) k = cnt key xs k + cnt key ys k := by
  unfold cnt; exact List.countP_append

theorem cnt_le (key : α → Nat) (xs : List α) (k : Nat) : cnt key xs k ≤ xs.length := List.countP_le_length

theorem cnt_filter (key : α → Nat) (xs : List α) (k : Nat) : (xs.filter fun x => key x = k).length = cnt key xs k := by
  unfold cnt
  rw [List.countP_eq_length_filter]

/-! ## bsort -/

theorem bsort_succ (key : α → Nat) (B : Nat) (xs : List α) :
    bsort key (B+1) xs = bsort key B xs ++ xs.filter fun x => key x = B := by
  unfold bsort
  rw [List.range_succ, List.flatMap_append]
  simp

theorem bsort_length (key : α → Nat) (B : Nat) (xs : List α) : (bsort key B xs).length = below key xs B := by
  induction B with
  | zero => simp [bsort, below_zero]
  | succ B ih => rw [bsort_succ, List.length_append, ih, cnt_filter, below_succ]

theorem bsort_length_all (key : α → Nat) {B : Nat} {xs : List α} (h : ∀ x ∈ xs, key x < B) : (bsort key B xs).length = xs.length := by
  rw [bsort_length, below_all key h]

theorem bsort_split (key : α → Nat) {B k : Nat} (xs : List α) (h : k < B) :
    ∃ t, bsort key B xs = bsort key k xs ++ (xs.filter (fun x => key x = k) ++ t) := by
  induction B with
  | zero => omega
  | succ B ih =>
    rw [bsort_succ]
    by_cases c : k = B
    · exact ⟨[], by rw [c]; simp⟩
    · obtain ⟨t, ht⟩ := ih (by omega)
      exact ⟨t ++ xs.filter fun x => key x = B, by rw [ht]; simp⟩

theorem bsort_get (key : α → Nat) {B k : Nat} (xs : List α) (h : k < B) {t : Nat} (ht : t < cnt key xs k) :
    (bsort key B xs)[below key xs k + t]? = (xs.filter fun x => key x = k)[t]? := by
  obtain ⟨s, hs⟩ := bsort_split key xs h
  rw [hs, List.getElem?_append_right (by rw [bsort_length]; omega), bsort_length, Nat.add_sub_cancel_left,
    List.getElem?_append_left (by rw [cnt_filter]; exact ht)]

/-- Every position belongs to some bucket. -/
theorem bucket_of (key : α → Nat) (xs : List α) (B j : Nat) (h : j < below key xs B) :
    ∃ k t, k < B ∧ t < cnt key xs k ∧ j = below key xs k + t := by
  induction B with
  | zero => rw [below_zero] at h; omega
  | succ B ih =>
    by_cases c : j < below key xs B
    · obtain ⟨k, t, h1, h2, h3⟩ := ih c
      exact ⟨k, t, by omega, h2, h3⟩
    · rw [below_succ] at h
      exact ⟨B, j - below key xs B, by omega, by omega, by omega⟩

theorem mem_bsort (key : α → Nat) {B : Nat} {xs : List α} (h : ∀ x ∈ xs, key x < B) {x : α} : x ∈ bsort key B xs ↔ x ∈ xs := by
  unfold bsort
  rw [List.mem_flatMap]
  constructor
  · rintro ⟨k, _, hx⟩
    exact (List.mem_filter.1 hx).1
  · intro hx
    exact ⟨key x, List.mem_range.2 (h x hx), List.mem_filter.2 ⟨hx, by simp⟩⟩

theorem bsort_count [DecidableEq α] (key : α → Nat) (B : Nat) (xs : List α) (x : α) :
    (bsort key B xs).count x = if key x < B then xs.count x else 0 := by
  induction B with
  | zero => simp [bsort]
  | succ B ih =>
    rw [bsort_succ, List.count_append, ih]
    by_cases c : key x = B
    · rw [List.count_filter (by simpa using c), if_neg (by omega), if_pos (by omega)]; omega
    · have : (xs.filter fun x => key x = B).count x = 0 := by
        rw [List.count_eq_zero]
        intro h
        exact c (by simpa using (List.mem_filter.1 h).2)
      rw [this]
      by_cases d : key x < B
      · rw [if_pos d, if_pos (by omega)]; rfl
      · rw [if_neg d, if_neg (by omega)]

theorem bsort_perm (key : α → Nat) {B : Nat} {xs : List α} (h : ∀ x ∈ xs, key x < B) : (bsort key B xs).Perm xs := by
  have gen : ∀ (B : Nat) (xs : List α), (bsort key B xs ++ xs.filter fun x => decide (B ≤ key x)).Perm xs := by
    intro B xs
    induction B with
    | zero => simp only [bsort, List.range_zero, List.flatMap_nil, Nat.zero_le, decide_true, List.nil_append]; rw [List.filter_eq_self.2 (by simp)]
    | succ B ih =>
      rw [bsort_succ, List.append_assoc]
      refine List.Perm.trans (List.Perm.append_left _ ?_) ih
      have h1 := List.filter_append_perm (fun x => decide (key x = B)) (xs.filter fun x => decide (B ≤ key x))
      refine List.Perm.trans (List.Perm.of_eq ?_) h1
      rw [List.filter_filter, List.filter_filter]
      congr 1
      · apply List.filter_congr
        intro x _
        by_cases c : key x = B <;> simp [c]
      · apply List.filter_congr
        intro x _
        by_cases c : key x = B
        · simp [c]
        · simp [c]; omega
  have := gen B xs
  have h0 : (xs.filter fun x => decide (B ≤ key x)) = [] := by
    rw [List.filter_eq_nil_iff]
    intro x hx
    have := h x hx
    simp; omega
  rwa [h0, List.append_nil] at this

/-- The order is by key, and by what held between the elements before where keys are the same. -/
theorem bsort_pairwise (key : α → Nat) (B : Nat) {xs : List α} {R : α → α → Prop} (h : xs.Pairwise R) :
    (bsort key B xs).Pairwise fun a b => key a < key b ∨ (key a = key b ∧ R a b) := by
  induction B with
  | zero => simp [bsort]
  | succ B ih =>
    rw [bsort_succ, List.pairwise_append]
    refine ⟨ih, ?_, ?_⟩
    · have := h.filter (fun x => decide (key x = B))
      refine List.Pairwise.imp_of_mem ?_ this
      intro a b ha hb hr
      have ha := (List.mem_filter.1 ha).2
      have hb := (List.mem_filter.1 hb).2
      simp only [decide_eq_true_eq] at ha hb
      exact .inr ⟨by omega, hr⟩
    · intro a ha b hb
      have hb := (List.mem_filter.1 hb).2
      simp only [decide_eq_true_eq] at hb
      obtain ⟨k, hk, ha⟩ := List.mem_flatMap.1 ha
      have ha := (List.mem_filter.1 ha).2
      simp only [decide_eq_true_eq] at ha
      have := List.mem_range.1 hk
      exact .inl (by omega)

/-! ## counting and sums -/

@[simp] theorem upd_same (a : Nat → β) (i : Nat) (v : β) : upd a i v i = v := by simp [upd]
theorem upd_other (a : Nat → β) {i j : Nat} (v : β) (h : j ≠ i) : upd a i v j = a j := by simp [upd, h]

theorem cnt_cons (key : α → Nat) (x : α) (xs : List α) (k : Nat) :
    cnt key (x :: xs) k = cnt key xs k + if key x = k then 1 else 0 := by
  unfold cnt
  rw [List.countP_cons]
  simp

theorem countUp_at (M b : Nat) (hM : 1 < M) (key : α → Nat) (xs : List α) : ∀ (c : Nat → Nat) (k : Nat), c (b+1+k) < M →
    countUp M b key c xs (b + 1 + k) = (c (b+1+k) + cnt key xs k) % M := by
  induction xs with
  | nil => intro c k h; exact (Nat.mod_eq_of_lt h).symm
  | cons x xs ih =>
    intro c k h
    unfold countUp at *
    rw [List.foldl_cons]
    have hlt : upd c (b+1+key x) ((c (b+1+key x) + 1) % M) (b+1+k) < M := by
      unfold upd
      split
      · exact Nat.mod_lt _ (by omega)
      · exact h
    rw [ih _ k hlt, cnt_cons]
    unfold upd
    by_cases e : key x = k
    · rw [if_pos (by omega), if_pos e, e, Nat.mod_add_mod]
      congr 1; omega
    · rw [if_neg (by omega), if_neg e]; rfl

theorem countUp_out (M b : Nat) (key : α → Nat) (xs : List α) (j : Nat) (h : ∀ x ∈ xs, j ≠ b + 1 + key x) : ∀ (c : Nat → Nat),
    countUp M b key c xs j = c j := by
  induction xs with
  | nil => intro c; rfl
  | cons x xs ih =>
    intro c
    unfold countUp at *
    rw [List.foldl_cons, ih (fun y hy => h y (List.mem_cons_of_mem _ hy))]
    exact upd_other _ _ (h x List.mem_cons_self)

theorem countDown_at (M b : Nat) (hM : 1 < M) (key : α → Nat) (xs : List α) : ∀ (c : Nat → Nat) (k : Nat), c (b+k) < M →
    (countDown M b key c xs (b + k) + cnt key xs k) % M = c (b+k) ∧ countDown M b key c xs (b+k) < M := by
  induction xs with
  | nil => intro c k h; exact ⟨Nat.mod_eq_of_lt h, h⟩
  | cons x xs ih =>
    intro c k h
    unfold countDown at *
    rw [List.foldl_cons]
    have hlt : upd c (b+key x) ((c (b+key x) + (M-1)) % M) (b+k) < M := by
      unfold upd
      split
      · exact Nat.mod_lt _ (by omega)
      · exact h
    obtain ⟨h1, h2⟩ := ih _ k hlt
    refine ⟨?_, h2⟩
    rw [cnt_cons]
    by_cases e : key x = k
    · subst e
      rw [upd_same] at h1
      rw [if_pos rfl, ← Nat.add_assoc, ← Nat.mod_add_mod, h1, Nat.mod_add_mod,
        show c (b+key x) + (M-1) + 1 = c (b+key x) + M by omega, Nat.add_mod_right, Nat.mod_eq_of_lt h]
    · rw [upd_other _ _ (by omega)] at h1
      rw [if_neg e]
      exact h1

theorem countDown_out (M b : Nat) (key : α → Nat) (xs : List α) (j : Nat) (h : ∀ x ∈ xs, j ≠ b + key x) : ∀ (c : Nat → Nat),
    countDown M b key c xs j = c j := by
  induction xs with
  | nil => intro c; rfl
  | cons x xs ih =>
    intro c
    unfold countDown at *
    rw [List.foldl_cons, ih (fun y hy => h y (List.mem_cons_of_mem _ hy))]
    exact upd_other _ _ (h x List.mem_cons_self)

/-- sum of entries -/
def tot (c : Nat → Nat) (j : Nat) : Nat → Nat
  | 0 => 0
  | m+1 => tot c j m + c (j + m)

theorem sums_out (M : Nat) : ∀ (m j s : Nat) (c : Nat → Nat) (i : Nat), (i < j ∨ j + m ≤ i) → sums M m j s c i = c i
  | 0, _, _, _, _, _ => rfl
  | m+1, j, s, c, i, h => by
    rw [sums, sums_out M m (j+1) _ _ i (by omega)]
    exact upd_other _ _ (by omega)

theorem tot_upd (c : Nat → Nat) (j v : Nat) : ∀ i, tot (upd c j v) (j+1) i = tot c (j+1) i
  | 0 => rfl
  | i+1 => by
    rw [tot, tot, tot_upd c j v i, upd_other _ _ (by omega)]

theorem tot_first (c : Nat → Nat) (j : Nat) : ∀ i, tot c j (i+1) = c j + tot c (j+1) i
  | 0 => by simp [tot]
  | i+1 => by
    rw [tot, tot_first c j i, tot, show j + (i+1) = j + 1 + i by omega, Nat.add_assoc]

theorem sums_at (M : Nat) : ∀ (m j s : Nat) (c : Nat → Nat) (i : Nat), i < m →
    sums M m j s c (j + i) = (tot c j (i+1) + s) % M
  | 0, _, _, _, _, h => by omega
  | m+1, j, s, c, i, h => by
    rw [sums]
    cases i with
    | zero =>
      show sums M m (j+1) ((c j + s) % M) (upd c j ((c j + s) % M)) j = _
      rw [sums_out M m (j+1) _ _ j (by omega), upd_same]
      simp [tot]
    | succ i =>
      rw [show j + (i+1) = j + 1 + i by omega, sums_at M m (j+1) _ _ i (by omega), tot_upd, tot_first c j (i+1), Nat.add_mod_mod]
      congr 1; omega

/-! ## the move -/

/-- What is needed of the counters before a move: the buckets do not overlap and end before `n`. -/
structure Starts (key : α → Nat) (xs : List α) (n : Nat) (pre : Nat → Nat) : Prop where
  fit : ∀ k, 0 < cnt key xs k → pre k + cnt key xs k ≤ n
  disj : ∀ k l s t, k ≠ l → s < cnt key xs k → t < cnt key xs l → pre k + s ≠ pre l + t

theorem starts_below (key : α → Nat) (xs : List α) : Starts key xs xs.length (below key xs) := by
  constructor
  · intro k _
    rw [← below_succ]
    exact below_le _ _ _
  · intro k l s t hkl hs ht
    rcases Nat.lt_or_gt_of_ne hkl with h | h
    · have := below_mono key xs (show k+1 ≤ l from h)
      rw [below_succ] at this; omega
    · have := below_mono key xs (show l+1 ≤ k from h)
      rw [below_succ] at this; omega

theorem move_spec (M n : Nat) (idx key : α → Nat) (hidx : ∀ x y, idx x = idx y ↔ key x = key y) (val : α → β) (all : List α) (pre : Nat → Nat) (hst : Starts key all n pre)
    (hn : n < M) : ∀ (xs done : List α) (c : Nat → Nat) (o : Nat → Option β), all = done ++ xs →
    (∀ x ∈ xs, c (idx x) = pre (key x) + cnt key done (key x)) →
    (∀ k t, t < cnt key done k → o (pre k + t) = ((done.filter fun x => key x = k)[t]?).map val) →
    ∃ c' o', move M n idx val c o xs = some (c', o') ∧
      (∀ x ∈ xs, c' (idx x) = pre (key x) + cnt key all (key x)) ∧
      (∀ j, (∀ x ∈ xs, j ≠ idx x) → c' j = c j) ∧
      (∀ k t, t < cnt key all k → o' (pre k + t) = ((all.filter fun x => key x = k)[t]?).map val) ∧
      (∀ j, n ≤ j → o' j = o j) := by
  intro xs
  induction xs with
  | nil =>
    intro done c o ha _ ho
    rw [List.append_nil] at ha
    subst ha
    exact ⟨c, o, rfl, by simp, fun _ _ => rfl, ho, fun _ _ => rfl⟩
  | cons x xs ih =>
    intro done c o ha hc ho
    have hcx := hc x List.mem_cons_self
    have hcnt : cnt key all (key x) = cnt key done (key x) + (cnt key xs (key x) + 1) := by
      rw [ha, cnt_append, cnt_cons, if_pos rfl]
    have hfit := hst.fit (key x) (by omega)
    have hp : c (idx x) < n := by omega
    rw [move, if_pos hp]
    have hmod : (c (idx x) + 1) % M = c (idx x) + 1 := Nat.mod_eq_of_lt (by omega)
    obtain ⟨c', o', h1, h2, h3, h4, h5⟩ := ih (done ++ [x]) (upd c (idx x) ((c (idx x) + 1) % M))
      (upd o (c (idx x)) (some (val x))) (by rw [ha]; simp)
      (by
        intro y hy
        rw [cnt_append, cnt_cons]
        unfold upd
        by_cases e : key y = key x
        · rw [if_pos ((hidx _ _).2 e), if_pos e.symm, hmod, hcx, e]
          show _ = _ + (_ + (0 + 1)); omega
        · rw [if_neg (fun h => e ((hidx _ _).1 h)), if_neg (fun h => e h.symm), hc y (List.mem_cons_of_mem _ hy)]
          show _ = _ + (_ + (0 + 0)); omega)
      (by
        intro k t ht
        rw [List.filter_append]
        rw [cnt_append, cnt_cons] at ht
        by_cases e : key x = k
        · subst e
          rw [if_pos rfl] at ht
          by_cases d : t < cnt key done (key x)
          · rw [upd_other _ _ (by omega), ho _ t d, List.getElem?_append_left (by rw [cnt_filter]; exact d)]
          · have : t = cnt key done (key x) := by
              have : cnt key ([] : List α) (key x) = 0 := rfl
              omega
            subst this
            rw [← hcx, upd_same, List.getElem?_append_right (by rw [cnt_filter]; exact Nat.le_refl _), cnt_filter, Nat.sub_self]
            simp
        · rw [if_neg e] at ht
          have ht : t < cnt key done k := by
            have : cnt key ([] : List α) k = 0 := rfl
            omega
          have hk : t < cnt key all k := by rw [ha, cnt_append]; omega
          rw [upd_other _ _ (by rw [hcx]; exact hst.disj _ _ _ _ (fun h => e h.symm) hk (by omega)), ho _ t ht,
            List.getElem?_append_left (by rw [cnt_filter]; exact ht)])
    refine ⟨c', o', h1, ?_, ?_, h4, ?_⟩
    · intro y hy
      rcases List.mem_cons.1 hy with rfl | hy
      · by_cases e : ∃ z ∈ xs, key z = key y
        · obtain ⟨z, hz, e⟩ := e
          rw [← (hidx z y).2 e, ← e]; exact h2 z hz
        · rw [h3 _ (fun z hz h => e ⟨z, hz, ((hidx _ _).1 h).symm⟩), upd_same, hmod, hcx, hcnt]
          have : cnt key xs (key y) = 0 := by
            unfold cnt
            rw [List.countP_eq_zero]
            intro z hz
            simp only [decide_eq_true_eq]
            exact fun h => e ⟨z, hz, h⟩
          omega
      · exact h2 y hy
    · intro j hj
      rw [h3 j (fun y hy => hj y (List.mem_cons_of_mem _ hy)), upd_other _ _ (hj x List.mem_cons_self)]
    · intro j hj
      rw [h5 j hj, upd_other _ _ (by omega)]

theorem read_eq (o : Nat → Option β) (l : List β) : ∀ (n i : Nat), n ≤ l.length → (∀ j, i ≤ j → j < i + n → o j = l[j - i]?) →
    read o i n = some (l.take n)
  | 0, _, _, _ => by simp [read]
  | n+1, i, hl, h => by
    cases l with
    | nil => simp at hl
    | cons a l =>
      rw [read, h i (Nat.le_refl _) (by omega), Nat.sub_self]
      simp only [List.getElem?_cons_zero, Option.bind_some]
      rw [read_eq o l n (i+1) (by simpa using hl) (fun j h1 h2 => by
        rw [h j (by omega) (by omega), show j - i = j - (i+1) + 1 by omega, List.getElem?_cons_succ])]
      simp

theorem unmove_spec (M b : Nat) (s : Nat → Option β) (f : Nat → Nat → β) (pre : Nat → Nat) (n : Nat) (hn : n < M) :
    ∀ (ks done : List Nat) (c : Nat → Nat), (∀ k ∈ ks, c (b + k) = pre k + done.count k) →
    (∀ i k, ks[i]? = some k → pre k + (done ++ ks.take i).count k < n) →
    (∀ i k, ks[i]? = some k → s (pre k + (done ++ ks.take i).count k) = some (f (done.length + i) k)) →
    unmove M b s c ks = some (ks.mapIdx fun i k => f (done.length + i) k)
  | [], _, _, _, _, _ => by simp [unmove]
  | k :: ks, done, c, hc, hl, hs => by
    have h0 := hs 0 k (by simp)
    have hl0 := hl 0 k (by simp)
    simp only [List.take_zero, List.append_nil, Nat.add_zero] at h0 hl0
    rw [unmove, hc k List.mem_cons_self, h0]
    simp only [Option.bind_some]
    have hmod : (pre k + done.count k + 1) % M = pre k + done.count k + 1 := Nat.mod_eq_of_lt (by omega)
    rw [unmove_spec M b s f pre n hn ks (done ++ [k])]
    · simp only [Option.map_some, List.mapIdx_cons, List.length_append, List.length_singleton, Nat.add_zero]
      congr 3
      funext i k
      rw [Nat.add_assoc, Nat.add_comm 1 i]
    · intro l hl'
      unfold upd
      by_cases e : l = k
      · subst e
        rw [if_pos rfl, hmod, List.count_append]; simp; omega
      · rw [if_neg (by omega), hc l (List.mem_cons_of_mem _ hl'), List.count_append]
        have : [k].count l = 0 := by rw [List.count_eq_zero]; simpa using e
        omega
    · intro i l hi
      have := hl (i+1) l (by simpa using hi)
      simpa [List.append_assoc] using this
    · intro i l hi
      have := hs (i+1) l (by simpa using hi)
      rw [List.length_append, List.length_singleton, Nat.add_assoc, Nat.add_comm 1 i]
      simpa [List.append_assoc] using this

/-- Counters as left by an ascending count and sum. -/
theorem tot_up (M b : Nat) (key : α → Nat) (xs : List α) (c : Nat → Nat) (h0 : c b = 0) :
    ∀ m, (∀ k, k < m → c (b+1+k) = cnt key xs k % M) → tot c b (m+1) % M = below key xs m % M
  | 0, _ => by simp [tot, h0, below_zero]
  | m+1, h => by
    have ih := tot_up M b key xs c h0 m (fun k hk => h k (by omega))
    have hm := h m (by omega)
    rw [tot, show b + (m+1) = b+1+m by omega, hm, below_succ, Nat.add_mod_mod, ← Nat.mod_add_mod, ih, Nat.mod_add_mod]

theorem sums_up (M b : Nat) (key : α → Nat) (xs : List α) (c : Nat → Nat) (h0 : c b = 0)
    (h : ∀ k, k < 255 → c (b+1+k) = cnt key xs k % M) (hl : xs.length < M) {k : Nat} (hk : k < 256) :
    sums M 256 b 0 c (b + k) = below key xs k := by
  rw [sums_at M 256 b 0 c k hk, Nat.add_zero, tot_up M b key xs c h0 k (fun i hi => h i (by omega))]
  exact Nat.mod_eq_of_lt (Nat.lt_of_le_of_lt (below_le _ _ _) hl)

/-- Counters as left by a descending count and sum. -/
theorem tot_down (M b : Nat) (key : α → Nat) (xs : List α) (c : Nat → Nat) (n : Nat)
    (h0 : (c b + cnt key xs 0) % M = n % M) :
    ∀ m, (∀ k, k < m → (c (b+1+k) + cnt key xs (k+1)) % M = 0) → (tot c b (m+1) + below key xs (m+1)) % M = n % M
  | 0, _ => by simp only [tot, below_succ, below_zero]; simpa using h0
  | m+1, h => by
    have ih := tot_down M b key xs c n h0 m (fun k hk => h k (by omega))
    have hm := h m (by omega)
    rw [tot, below_succ, show b + (m+1) = b+1+m by omega,
      show tot c b (m+1) + c (b+1+m) + (below key xs (m+1) + cnt key xs (m+1)) =
        (tot c b (m+1) + below key xs (m+1)) + (c (b+1+m) + cnt key xs (m+1)) by omega, Nat.add_mod, ih, hm]
    simp

theorem sums_down (M b : Nat) (key : α → Nat) (xs : List α) (c : Nat → Nat) (hl : xs.length < M)
    (h0 : (c b + cnt key xs 0) % M = xs.length % M) (h : ∀ k, k < 255 → (c (b+1+k) + cnt key xs (k+1)) % M = 0)
    {k : Nat} (hk : k < 256) :
    sums M 256 b 0 c (b + k) = xs.length - below key xs (k+1) := by
  rw [sums_at M 256 b 0 c k hk, Nat.add_zero]
  have h1 := tot_down M b key xs c xs.length h0 k (fun i hi => h i (by omega))
  have h2 := below_le key xs (k+1)
  generalize below key xs (k+1) = B at *
  generalize tot c b (k+1) = T at *
  rw [Nat.mod_eq_of_lt hl, ← Nat.mod_add_mod] at h1
  have h3 : T % M < M := Nat.mod_lt _ (by omega)
  generalize T % M = t at *
  by_cases c : t + B < M
  · rw [Nat.mod_eq_of_lt c] at h1; omega
  · rw [Nat.mod_eq_sub_mod (by omega), Nat.mod_eq_of_lt (by omega)] at h1; omega

theorem below_flip (key : α → Nat) (xs : List α) (hk : ∀ x, key x < 256) {k : Nat} (h : k < 256) :
    below (fun x => 255 - key x) xs (255 - k) = xs.length - below key xs (k+1) := by
  have : below (fun x => 255 - key x) xs (255 - k) + below key xs (k+1) = xs.length := by
    unfold below
    induction xs with
    | nil => rfl
    | cons x xs ih =>
      simp only [List.countP_cons, decide_eq_true_eq, List.length_cons] at ih ⊢
      have := hk x
      by_cases c : key x < k + 1
      · rw [if_neg (by omega), if_pos c]; omega
      · rw [if_pos (by omega), if_neg c]; omega
  omega

/-- A pass: counters at the starts of the buckets, then a move, gives the stable bucket order. -/
theorem pass_bsort (M n : Nat) (idx key : α → Nat) (hidx : ∀ x y, idx x = idx y ↔ key x = key y) (hk : ∀ x, key x < 256)
    (val : α → β) (xs : List α) (hl : xs.length = n) (hn : n < M) (c : Nat → Nat) (hc : ∀ x ∈ xs, c (idx x) = below key xs (key x))
    (o : Nat → Option β) :
    ∃ c' o', move M n idx val c o xs = some (c', o') ∧
      (∀ x ∈ xs, c' (idx x) = below key xs (key x + 1)) ∧ (∀ j, (∀ x ∈ xs, j ≠ idx x) → c' j = c j) ∧
      (∀ j, j < n → o' j = ((bsort key 256 xs).map val)[j]?) ∧ (∀ j, n ≤ j → o' j = o j) := by
  subst hl
  obtain ⟨c', o', h1, h2, h3, h4, h5⟩ := move_spec M _ idx key hidx val xs _ (starts_below key xs) hn xs [] c o rfl
    (fun x hx => by rw [hc x hx]; rfl) (fun k t ht => by simp [cnt] at ht)
  refine ⟨c', o', h1, fun x hx => by rw [h2 x hx, below_succ], h3, ?_, h5⟩
  intro j hj
  rw [← below_all key (fun x _ => hk x)] at hj
  obtain ⟨k, t, hk, ht, rfl⟩ := bucket_of key xs 256 j hj
  rw [h4 k t ht, List.getElem?_map, bsort_get key xs hk ht]

theorem read_pass {o : Nat → Option β} {l : List β} {n : Nat} (hl : l.length = n) (h : ∀ j, j < n → o j = l[j]?) :
    read o 0 n = some l := by
  rw [read_eq o l n 0 (by omega) (fun j _ hj => by rw [h j (by omega)]; rfl), List.take_of_length_le (by omega)]

end Verif.Radix
