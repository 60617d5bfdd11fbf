import Verif.SelfSearch.Model
import Verif.HTab.Props
import Verif.Radix.Lemmas
/-! # Lemmas: tables and the radix method -/
namespace Verif.SelfSearch
open Verif HTab

theorem along_append (F : List Nat → Nat → β) : ∀ (a b pre : List Nat), along F pre (a ++ b) = along F pre a ++ along F (pre ++ a) b
  | [], b, pre => by simp [along]
  | v :: a, b, pre => by
    rw [List.cons_append, along, along, along_append F a b, List.append_assoc]; rfl

theorem along_get (F : List Nat → Nat → β) (xs : List Nat) (i : Nat) :
    (along F [] xs)[i]? = xs[i]?.map fun v => F (xs.take i) v := by
  rw [← along_mapIdx]; simp

theorem along_length (F : List Nat → Nat → β) (xs : List Nat) : (along F [] xs).length = xs.length := by
  rw [← along_mapIdx]; simp

theorem along_congr {F G : List Nat → Nat → β} : ∀ (xs pre : List Nat), (∀ a v b, pre ++ xs = a ++ v :: b → F a v = G a v) →
    along F pre xs = along G pre xs
  | [], _, _ => rfl
  | v :: xs, pre, h => by
    rw [along, along, h pre v xs rfl, along_congr xs (pre ++ [v]) (fun a w b e => h a w b (by simpa using e))]

/-- What a table answers: `g` of the number of earlier equal cells. -/
def ans (g : Nat → Nat) (pre : List Nat) (v : Nat) : Nat := g (pre.count v)

theorem tabRun_spec (low : Nat → Nat) (set : Nat → Nat) (g : Nat → Nat) (hg : ∀ t, g (t+1) = set (g t)) :
    ∀ (xs pre : List Nat) (tab : Nat → Option Nat), (∀ v ∈ xs, ∀ w ∈ xs, low v = low w → v = w) →
    (∀ v ∈ xs, tab (low v) = some (ans g pre v)) → ∃ tab', tabRun low set tab xs = some (along (ans g) pre xs, tab')
  | [], _, tab, _, _ => ⟨tab, rfl⟩
  | v :: xs, pre, tab, hi, ht => by
    obtain ⟨tab', h⟩ := tabRun_spec low set g hg xs (pre ++ [v]) (Radix.upd tab (low v) (some (set (ans g pre v))))
      (fun a ha b hb => hi a (List.mem_cons_of_mem _ ha) b (List.mem_cons_of_mem _ hb)) (by
        intro w hw
        by_cases c : low w = low v
        · have := hi w (List.mem_cons_of_mem _ hw) v List.mem_cons_self c
          subst this
          rw [Radix.upd_same]
          unfold ans
          rw [List.count_append, List.count_singleton_self, hg]
        · rw [Radix.upd_other _ _ c, ht w (List.mem_cons_of_mem _ hw)]
          unfold ans
          have : [v].count w = 0 := by
            rw [List.count_eq_zero, List.mem_singleton]
            rintro rfl
            exact c rfl
          rw [List.count_append, this, Nat.add_zero])
    exact ⟨tab', by rw [tabRun, ht v List.mem_cons_self, Option.bind_some, h]; rfl⟩

theorem tabInit_spec (sparse : Bool) (tn init : Nat) (low : Nat → Nat) (tab : Nat → Option Nat) (vs : List Nat)
    (hl : ∀ v ∈ vs, low v < tn) : ∀ v ∈ vs, tabInit sparse tn init low tab vs (low v) = some init := by
  intro v hv
  unfold tabInit
  cases sparse with
  | false => simp [hl v hv]
  | true =>
    simp only [if_true]
    clear hl
    have keep : ∀ (vs : List Nat) (tab : Nat → Option Nat), tab (low v) = some init →
        vs.foldl (fun tab v => Radix.upd tab (low v) (some init)) tab (low v) = some init := by
      intro vs
      induction vs with
      | nil => intro tab h; exact h
      | cons w vs ih =>
        intro tab h
        rw [List.foldl_cons]
        apply ih
        unfold Radix.upd
        split
        · rfl
        · exact h
    induction vs generalizing tab with
    | nil => simp at hv
    | cons w vs ih =>
      rw [List.foldl_cons]
      rcases List.mem_cons.1 hv with rfl | hv
      · exact keep _ _ (Radix.upd_same _ _ _)
      · exact ih _ hv

theorem lookup_spec (junk : Nat → Option Nat) (T d init : Nat) (set g : Nat → Nat) (h0 : g 0 = init) (hg : ∀ t, g (t+1) = set (g t))
    (xs : List Nat) (hx : ∀ v ∈ xs, v < 2^T) : lookup junk T d init set xs = some (along (ans g) [] xs) := by
  have hm : ∀ v ∈ xs, v % 2^T = v := fun v hv => Nat.mod_eq_of_lt (hx v hv)
  unfold lookup
  obtain ⟨t, ht⟩ := tabRun_spec (· % 2^T) set g hg xs [] (tabInit (8 < T && xs.length < 2^T/d) (2^T) init (· % 2^T) junk xs)
    (fun v hv w hw h => by rw [← hm v hv, ← hm w hw]; exact h)
    (fun v hv => by
      rw [tabInit_spec _ _ _ _ _ _ (fun v _ => Nat.mod_lt _ (Nat.two_pow_pos T)) v hv]
      simp [ans, h0])
  rw [ht]; rfl

/-! ## radix -/

theorem bsort_at (key : Nat → Nat) {B : Nat} (xs : List Nat) {i v : Nat} (hi : xs[i]? = some v) (hB : key v < B) :
    (Radix.bsort key B xs)[Radix.below key xs (key v) + Radix.cnt key (xs.take i) (key v)]? = some v ∧
    ((Radix.bsort key B xs).take (Radix.below key xs (key v) + Radix.cnt key (xs.take i) (key v))).count v = (xs.take i).count v := by
  obtain ⟨t, ht⟩ := Radix.bsort_split key xs hB
  have hxs : xs = xs.take i ++ v :: xs.drop (i+1) := by
    have := List.getElem?_eq_some_iff.1 hi
    obtain ⟨h, rfl⟩ := this
    simp
  have hf : xs.filter (fun x => key x = key v) = (xs.take i).filter (fun x => key x = key v) ++
      v :: (xs.drop (i+1)).filter (fun x => key x = key v) := by
    rw [show xs.filter (fun x => decide (key x = key v)) =
      (xs.take i ++ v :: xs.drop (i+1)).filter (fun x => decide (key x = key v)) by rw [← hxs], List.filter_append, List.filter_cons]
    simp
  have hb : Radix.bsort key B xs = (Radix.bsort key (key v) xs ++ (xs.take i).filter (fun x => key x = key v)) ++
      (v :: ((xs.drop (i+1)).filter (fun x => key x = key v) ++ t)) := by
    rw [ht, hf]; simp
  have hl : (Radix.bsort key (key v) xs ++ (xs.take i).filter (fun x => key x = key v)).length =
      Radix.below key xs (key v) + Radix.cnt key (xs.take i) (key v) := by
    rw [List.length_append, Radix.bsort_length, Radix.cnt_filter]
  rw [hb, ← hl]
  constructor
  · rw [List.getElem?_append_right (Nat.le_refl _), Nat.sub_self]; rfl
  · rw [List.take_left, List.count_append, Radix.bsort_count, if_neg (by omega), List.count_filter (by simp)]
    omega

theorem cnt_map (key : Nat → Nat) (xs : List Nat) (k : Nat) : (xs.map key).count k = Radix.cnt key xs k := by
  unfold Radix.cnt
  rw [List.count_eq_countP, List.countP_map]
  apply List.countP_congr
  intro x _
  simp only [Function.comp, beq_iff_eq, decide_eq_true_eq]

/-- Undoing the bucket order on the answers gives the answers in the original order. -/
theorem unmove_along (M b : Nat) (key : Nat → Nat) (hk : ∀ x, key x < 256) (g : Nat → Nat) (xs : List Nat) (hM : xs.length < M)
    (c : Nat → Nat) (hc : ∀ x ∈ xs, c (b + key x) = Radix.below key xs (key x)) :
    Radix.unmove M b (fun j => (along (ans g) [] (Radix.bsort key 256 xs))[j]?) c (xs.map key) = some (along (ans g) [] xs) := by
  have hpos : ∀ i k, (xs.map key)[i]? = some k → ∃ v, xs[i]? = some v ∧ key v = k ∧
      (xs.map key).take i = (xs.take i).map key := by
    intro i k h
    rw [List.getElem?_map] at h
    cases hv : xs[i]? with
    | none => rw [hv] at h; simp at h
    | some v => rw [hv] at h; exact ⟨v, rfl, by simpa using h, by rw [List.map_take]⟩
  rw [Radix.unmove_spec M b _ (fun i _ => ans g (xs.take i) (xs[i]?.getD 0)) (Radix.below key xs) xs.length hM (xs.map key) [] c]
  · rw [← along_mapIdx]
    congr 1
    apply List.ext_getElem?
    intro i
    simp only [List.getElem?_mapIdx, List.getElem?_map, List.length_nil, Nat.zero_add, List.nil_append]
    cases xs[i]? <;> rfl
  · intro k hk
    obtain ⟨x, hx, rfl⟩ := List.mem_map.1 hk
    rw [hc x hx]; rfl
  · intro i k h
    obtain ⟨v, hv, rfl, ht⟩ := hpos i k h
    rw [List.nil_append, ht, cnt_map]
    obtain ⟨h1, _⟩ := bsort_at key xs hv (hk v)
    have := (List.getElem?_eq_some_iff.1 h1).1
    rwa [Radix.bsort_length_all key (fun x _ => hk x)] at this
  · intro i k h
    obtain ⟨v, hv, rfl, ht⟩ := hpos i k h
    simp only [List.nil_append, List.length_nil, Nat.zero_add, hv]
    rw [ht, cnt_map, along_get]
    obtain ⟨h1, h2⟩ := bsort_at key xs hv (hk v)
    rw [h1]
    unfold ans
    rw [Option.map_some, h2]
    rfl

/-- The counters after a move are the ends of the buckets. -/
theorem after_move {key : Nat → Nat} {xs : List Nat} {b : Nat} {c c' : Nat → Nat}
    (hc : ∀ k, k < 256 → c (b + k) = Radix.below key xs k) (h2 : ∀ x ∈ xs, c' (b + key x) = Radix.below key xs (key x + 1))
    (h3 : ∀ j, (∀ x ∈ xs, j ≠ b + key x) → c' j = c j) : ∀ k, k < 256 → c' (b + k) = Radix.below key xs (k+1) := by
  intro k hk
  by_cases e : ∃ x ∈ xs, key x = k
  · obtain ⟨x, hx, rfl⟩ := e
    exact h2 x hx
  · rw [h3 _ (fun x hx h => e ⟨x, hx, by omega⟩), hc k hk, Radix.below_succ]
    have : Radix.cnt key xs k = 0 := by
      unfold Radix.cnt
      rw [List.countP_eq_zero]
      intro x hx
      simp only [decide_eq_true_eq]
      exact fun h => e ⟨x, hx, h⟩
    omega

theorem byte2_lt (v : Nat) : byte2 v < 256 := Nat.mod_lt _ (by decide)
theorem byte3_lt (v : Nat) : byte3 v < 256 := Nat.mod_lt _ (by decide)
theorem low16_lt (v : Nat) : low16 v < 65536 := Nat.mod_lt _ (by decide)

/-- In a list sorted by key, the elements with smaller keys come first. -/
theorem sorted_below (key : Nat → Nat) : ∀ (L : List Nat), L.Pairwise (fun a b => key a ≤ key b) → ∀ (j v m : Nat), L[j]? = some v →
    (key v < m ↔ j < Radix.below key L m)
  | [], _, _, _, _, h => by simp at h
  | x :: L, hs, j, v, m, h => by
    rw [List.pairwise_cons] at hs
    have hcons : Radix.below key (x :: L) m = Radix.below key L m + if key x < m then 1 else 0 := by
      unfold Radix.below
      rw [List.countP_cons]; simp
    rw [hcons]
    cases j with
    | zero =>
      simp only [List.getElem?_cons_zero, Option.some.injEq] at h
      subst h
      constructor
      · intro h; rw [if_pos h]; omega
      · intro h
        apply Classical.byContradiction
        intro c
        rw [if_neg c, Nat.add_zero] at h
        have : Radix.below key L m = 0 := by
          unfold Radix.below
          rw [List.countP_eq_zero]
          intro y hy
          have := hs.1 y hy
          simp only [decide_eq_true_eq]; omega
        omega
    | succ j =>
      rw [List.getElem?_cons_succ] at h
      have ih := sorted_below key L hs.2 j v m h
      by_cases c : key x < m
      · rw [if_pos c, ih]; omega
      · rw [if_neg c, Nat.add_zero]
        have hv : v ∈ L := List.mem_of_getElem? h
        have := hs.1 v hv
        constructor
        · intro h'; omega
        · intro h'
          have : Radix.below key L m = 0 := by
            unfold Radix.below
            rw [List.countP_eq_zero]
            intro y hy
            have := hs.1 y hy
            simp only [decide_eq_true_eq]; omega
          omega

theorem ans_fresh {g : Nat → Nat} {pre : List Nat} {v : Nat} (h : v ∉ pre) : ans g pre v = g 0 := by
  unfold ans; rw [List.count_eq_zero.2 h]

theorem buckets_spec (init : Nat) (set g : Nat → Nat) (h0 : g 0 = init) (hg : ∀ t, g (t+1) = set (g t)) (tim : Nat) (c : Nat → Nat)
    (L : List Nat) (hs : L.Pairwise fun a b => byte2 a ≤ byte2 b) (hc : ∀ v ∈ L, c (1 + byte2 v) = Radix.below byte2 L (byte2 v + 1))
    (hinj : ∀ v ∈ L, ∀ w ∈ L, byte2 v = byte2 w → low16 v = low16 w → v = w) :
    ∀ (fuel : Nat) (tab : Nat → Option Nat) (i : Nat), L.length - i ≤ fuel → (∀ a ∈ L.take i, ∀ b ∈ L.drop i, byte2 a < byte2 b) →
    buckets init set tim c L fuel tab i = some (along (ans g) (L.take i) (L.drop i)) := by
  intro fuel
  induction fuel with
  | zero =>
    intro tab i hf _
    rw [buckets, if_neg (by omega), List.drop_of_length_le (by omega)]; rfl
  | succ fuel ih =>
    intro tab i hf hbd
    rw [buckets]
    by_cases hi : i < L.length
    · rw [if_pos hi]
      obtain ⟨v, hv⟩ : ∃ v, L[i]? = some v := ⟨L[i], by simp [hi]⟩
      have hvL : v ∈ L := List.mem_of_getElem? hv
      rw [hv, Option.bind_some]
      simp only []
      rw [hc v hvL]
      have hle : Radix.below byte2 L (byte2 v + 1) ≤ L.length := Radix.below_le _ _ _
      rw [if_pos hle]
      have hil : i < Radix.below byte2 L (byte2 v + 1) := (sorted_below byte2 L hs i v _ hv).1 (by omega)
      generalize hl : Radix.below byte2 L (byte2 v + 1) = l at *
      have hpos : ∀ (j w : Nat), L[j]? = some w → (byte2 w < byte2 v + 1 ↔ j < l) := fun j w h => by
        rw [← hl]; exact sorted_below byte2 L hs j w _ h
      have hgrp : ∀ w ∈ (L.take l).drop i, byte2 w = byte2 v := by
        intro w hw
        obtain ⟨j, hj⟩ := List.getElem?_of_mem hw
        rw [List.getElem?_drop, List.getElem?_take] at hj
        split at hj
        · rename_i hlt
          have h1 := (hpos _ _ hj).2 hlt
          have h2 : byte2 v ≤ byte2 w := by
            by_cases e : j = 0
            · subst e
              rw [Nat.add_zero, hv] at hj
              have : v = w := by simpa using hj
              rw [this]; exact Nat.le_refl _
            · obtain ⟨hlv, rfl⟩ := List.getElem?_eq_some_iff.1 hv
              obtain ⟨hlw, rfl⟩ := List.getElem?_eq_some_iff.1 hj
              exact List.pairwise_iff_getElem.1 hs i (i+j) hlv hlw (by omega)
          omega
        · simp at hj
      have hgL : ∀ w ∈ (L.take l).drop i, w ∈ L := fun w hw => List.mem_of_mem_take (List.mem_of_mem_drop hw)
      have hgd : ∀ w ∈ (L.take l).drop i, w ∈ L.drop i := by
        intro w hw
        rw [List.drop_take] at hw
        exact List.mem_of_mem_take hw
      obtain ⟨tab', ht⟩ := tabRun_spec low16 set g hg ((L.take l).drop i) (L.take i)
        (tabInit (decide (l - i < tim)) 65536 init low16 tab ((L.take l).drop i))
        (fun a ha b hb e => hinj a (hgL a ha) b (hgL b hb) (by rw [hgrp a ha, hgrp b hb]) e)
        (fun w hw => by
          rw [tabInit_spec _ _ _ _ _ _ (fun v _ => low16_lt v) w hw, ans_fresh, h0]
          intro hm
          have := hbd w hm w (hgd w hw)
          omega)
      rw [ht, Option.bind_some, if_neg (by omega)]
      have hsplit : L.drop i = (L.take l).drop i ++ L.drop l := by
        have : L = L.take l ++ L.drop l := (List.take_append_drop _ _).symm
        calc L.drop i = (L.take l ++ L.drop l).drop i := by rw [← this]
          _ = _ := by rw [List.drop_append_of_le_length (by rw [List.length_take]; omega)]
      have htk : L.take i ++ (L.take l).drop i = L.take l := by
        have : (L.take l).take i = L.take i := by rw [List.take_take, Nat.min_eq_left (by omega)]
        rw [← this, List.take_append_drop]
      rw [ih tab' l (by omega)]
      · rw [Option.map_some, hsplit, along_append, htk]
      · intro a ha b hb
        obtain ⟨j, hj⟩ := List.getElem?_of_mem ha
        obtain ⟨j', hj'⟩ := List.getElem?_of_mem hb
        rw [List.getElem?_take] at hj
        rw [List.getElem?_drop] at hj'
        split at hj
        · rename_i hlt
          have h1 := (hpos _ _ hj).2 hlt
          have h2 : ¬ (byte2 b < byte2 v + 1) := fun h => by have := (hpos _ _ hj').1 h; omega
          omega
        · simp at hj
    · rw [if_neg hi, List.drop_of_length_le (by omega)]; rfl

/-! ## groups -/

theorem dropWhile_all {p : α → Bool} : ∀ {l : List α}, (∀ a ∈ l, p a = true) → l.dropWhile p = []
  | [], _ => rfl
  | a :: l, h => by
    rw [List.dropWhile_cons_of_pos (h a List.mem_cons_self), dropWhile_all fun b hb => h b (List.mem_cons_of_mem _ hb)]

def top (v : Nat) : Nat := v / 65536

theorem scanGroup_spec (init : Nat) (sent tv : Nat) : ∀ (rest : List Nat) (tab : Nat → Option Nat),
    ((rest ++ [sent]).dropWhile fun v => decide (top v = tv)) ≠ [] →
    ∃ tab' t', scanGroup init tab tv (rest ++ [sent]) =
      some (tab', (rest ++ [sent]).takeWhile (fun v => decide (top v = tv)), (rest ++ [sent]).dropWhile (fun v => decide (top v = tv)), t') ∧
      (((rest ++ [sent]).dropWhile fun v => decide (top v = tv)).head?.map top = some t') ∧
      (∀ w ∈ (rest ++ [sent]).takeWhile (fun v => decide (top v = tv)), tab' (low16 w) = some init) ∧
      (∀ j, tab j = some init → tab' j = some init) := by
  intro rest
  generalize hl : rest ++ [sent] = l
  clear hl rest
  induction l with
  | nil => intro tab h; simp at h
  | cons v l ih =>
    intro tab h
    by_cases c : top v = tv
    · rw [List.dropWhile_cons_of_pos (by simpa using c)] at h ⊢
      rw [List.takeWhile_cons_of_pos (by simpa using c)]
      obtain ⟨tab', t', h1, h2, h3, h4⟩ := ih (Radix.upd tab (low16 v) (some init)) h
      refine ⟨tab', t', ?_, h2, ?_, ?_⟩
      · rw [scanGroup, if_neg (by unfold top at c; omega), h1]; rfl
      · intro w hw
        rcases List.mem_cons.1 hw with rfl | hw
        · exact h4 _ (Radix.upd_same _ _ _)
        · exact h3 w hw
      · intro j hj
        apply h4
        unfold Radix.upd
        split
        · rfl
        · exact hj
    · rw [List.dropWhile_cons_of_neg (by simpa using c), List.takeWhile_cons_of_neg (by simpa using c)]
      refine ⟨tab, top v, ?_, rfl, by simp, fun _ h => h⟩
      rw [scanGroup, if_pos (by unfold top at c; omega)]; rfl

theorem groups_spec (init : Nat) (set g : Nat → Nat) (h0 : g 0 = init) (hg : ∀ t, g (t+1) = set (g t)) (sent : Nat) :
    ∀ (fuel : Nat) (rest pre : List Nat) (tab : Nat → Option Nat) (tv : Nat), rest.length < fuel →
    rest.Pairwise (fun a b => top a ≤ top b) → (∀ a ∈ pre, ∀ b ∈ rest, top a < top b) →
    (∀ v, rest.head? = some v → tv = top v) → (∀ v, rest.getLast? = some v → top v ≠ top sent) →
    groups init set fuel tab tv (rest ++ [sent]) = some (along (ans g) pre rest) := by
  intro fuel
  induction fuel with
  | zero => intro rest pre tab tv h; omega
  | succ fuel ih =>
    intro rest pre tab tv hf hs hpre htv hlast
    rw [groups]
    cases hr : rest with
    | nil => simp [along]
    | cons v rest' =>
      rw [← hr]
      have htv := htv v (by rw [hr]; rfl)
      subst htv
      rw [if_neg (by rw [hr]; simp)]
      have hdw : (rest ++ [sent]).dropWhile (fun w => decide (top w = top v)) =
          rest.dropWhile (fun w => decide (top w = top v)) ++ [sent] ∧
          (rest ++ [sent]).takeWhile (fun w => decide (top w = top v)) = rest.takeWhile (fun w => decide (top w = top v)) := by
        by_cases c : ∀ w ∈ rest, top w = top v
        · have h1 : ∀ w ∈ rest, decide (top w = top v) = true := fun w hw => by simpa using c w hw
          have hsent : top v ≠ top sent := by
            have hne : rest ≠ [] := by rw [hr]; simp
            have := hlast _ (List.getLast?_eq_some_getLast hne)
            rw [c _ (List.getLast_mem hne)] at this
            exact this
          rw [List.dropWhile_append_of_pos h1, List.takeWhile_append_of_pos h1]
          rw [List.dropWhile_cons_of_neg (by simpa using fun h => hsent h.symm), List.takeWhile_cons_of_neg (by simpa using fun h => hsent h.symm)]
          have h2 : rest.dropWhile (fun w => decide (top w = top v)) = [] := by
            exact dropWhile_all h1
          have h3 : rest.takeWhile (fun w => decide (top w = top v)) = rest := by
            have := List.takeWhile_append_dropWhile (p := fun w => decide (top w = top v)) (l := rest)
            rw [h2, List.append_nil] at this; exact this
          rw [h2, h3]; simp
        · have hne : rest.dropWhile (fun w => decide (top w = top v)) ≠ [] := by
            intro h
            have h' := List.takeWhile_append_dropWhile (p := fun w => decide (top w = top v)) (l := rest)
            rw [h, List.append_nil] at h'
            have h2 := List.all_takeWhile (p := fun w => decide (top w = top v)) (l := rest)
            rw [h', List.all_eq_true] at h2
            exact c (fun w hw => by simpa using h2 w hw)
          constructor
          · rw [List.dropWhile_append]
            rw [if_neg (by simpa using hne)]
          · rw [List.takeWhile_append]
            rw [if_neg]
            intro h
            apply hne
            have := congrArg List.length (List.takeWhile_append_dropWhile (p := fun w => decide (top w = top v)) (l := rest))
            rw [List.length_append] at this
            have : (rest.dropWhile (fun w => decide (top w = top v))).length = 0 := by omega
            exact List.length_eq_zero_iff.1 this
      obtain ⟨tab', t', h1, h2, h3, _⟩ := scanGroup_spec init sent (top v) rest tab (by rw [hdw.1]; simp)
      rw [hdw.1] at h1 h2
      rw [hdw.2] at h1 h3
      rw [h1, Option.bind_some]
      simp only []
      have hta : rest = rest.takeWhile (fun w => decide (top w = top v)) ++ rest.dropWhile (fun w => decide (top w = top v)) :=
        List.takeWhile_append_dropWhile.symm
      have hgt : ∀ w ∈ rest.takeWhile (fun w => decide (top w = top v)), top w = top v := by
        intro w hw
        have := List.all_takeWhile (p := fun w => decide (top w = top v)) (l := rest)
        rw [List.all_eq_true] at this
        simpa using this w hw
      have hgm : ∀ w ∈ rest.takeWhile (fun w => decide (top w = top v)), w ∈ rest := fun w hw => by
        rw [hta]; exact List.mem_append_left _ hw
      obtain ⟨tab'', ht⟩ := tabRun_spec low16 set g hg (rest.takeWhile fun w => decide (top w = top v)) pre tab'
        (fun a ha b hb e => by
          have h1 := hgt a ha
          have h2 := hgt b hb
          unfold top at h1 h2
          unfold low16 at e
          omega)
        (fun w hw => by
          rw [h3 w hw, ans_fresh, h0]
          intro hm
          have := hpre w hm w (hgm w hw)
          omega)
      rw [ht, Option.bind_some]
      generalize hA : rest.takeWhile (fun w => decide (top w = top v)) = A at *
      generalize hB : rest.dropWhile (fun w => decide (top w = top v)) = B at *
      have hAne : A ≠ [] := by
        rw [← hA, hr, List.takeWhile_cons_of_pos (by simp)]; simp
      have hlen := congrArg List.length hta
      rw [List.length_append] at hlen
      have hApos : 0 < A.length := List.length_pos_iff.2 hAne
      have hsB : B.Pairwise (fun a b => top a ≤ top b) := by
        rw [hta] at hs
        exact (List.pairwise_append.1 hs).2.1
      have hhead : ∀ b, B.head? = some b → top v < top b := by
        intro b hb
        have h1 : top b ≠ top v := by
          have := List.head?_dropWhile_not (fun w => decide (top w = top v)) rest
          rw [hB, hb] at this
          simpa using this
        have h2 : top v ≤ top b := by
          obtain ⟨a, ha⟩ := List.exists_mem_of_ne_nil _ hAne
          rw [hta] at hs
          have := (List.pairwise_append.1 hs).2.2 a ha b (List.mem_of_mem_head? hb)
          have := hgt a ha
          omega
        omega
      rw [ih B (pre ++ A) tab'' t' (by omega) hsB]
      · rw [Option.map_some, hta, along_append]
      · intro a ha b hb
        have hbv : top v < top b := by
          cases hBc : B with
          | nil => rw [hBc] at hb; simp at hb
          | cons b0 B' =>
            have h1 := hhead b0 (by rw [hBc]; rfl)
            rw [hBc] at hb hsB
            rcases List.mem_cons.1 hb with rfl | hb
            · exact h1
            · have := (List.pairwise_cons.1 hsB).1 b hb
              omega
        rcases List.mem_append.1 ha with ha | ha
        · exact hpre a ha b (by rw [hta]; exact List.mem_append_right _ hb)
        · have := hgt a ha; omega
      · intro b hb
        have : (B ++ [sent]).head? = some b := by
          cases hBc : B with
          | nil => rw [hBc] at hb; simp at hb
          | cons b0 B' => rw [hBc] at hb; simpa using hb
        rw [this] at h2
        simpa using h2.symm
      · intro b hb
        apply hlast
        rw [hta, List.getLast?_append, hb]; rfl

end Verif.SelfSearch
