import Verif.Group.Loops
/-!
# Group: objects, Replicate, filtering and statistics
-/
namespace Verif.Group
open Verif.Bits Verif.Fold Verif.Slash Verif.Rep Verif.Select Verif.Under Verif.Rotate

variable {M α : Type}

/-! ## Objects -/

theorem putObjs_spec {K : GKind M α} {ok : Nat → M → Prop} (L : GLawful K ok) {x : M} {nx p i csz nn : Nat} (hx : ok nx x) (hi : i + csz ≤ nx) (hp : p + csz ≤ nn) :
    ∀ fuel j m0, j + fuel = csz → m0.length = nn →
      ∃ m', putObjs K.toKind x p i fuel j m0 = some m' ∧ m'.length = nn ∧ ∀ q : Nat, q < nn → m'[q]? = if p + j ≤ q ∧ q < p + csz then K.get x (i + (q - p)) else m0[q]?
  | 0, j, m0, hj, hm => ⟨m0, rfl, hm, fun q hq => by rw [if_neg (by omega)]⟩
  | fuel + 1, j, m0, hj, hm => by
    obtain ⟨v, hv⟩ := L.get nx x (i + j) hx (by omega)
    obtain ⟨m', e, hl, hg⟩ := putObjs_spec L hx hi hp fuel (j + 1) (m0.set (p + j) v) (by omega) (by rw [List.length_set]; exact hm)
    refine ⟨m', ?_, hl, fun q hq => ?_⟩
    · rw [putObjs, hv]
      show (if p + j < m0.length then _ else none) = _
      rw [if_pos (by omega)]
      exact e
    · rw [hg q hq, List.getElem?_set]
      by_cases h1 : p + (j + 1) ≤ q ∧ q < p + csz
      · rw [if_pos h1, if_pos (by omega)]
      · rw [if_neg h1]
        by_cases h2 : p + j = q
        · rw [if_pos h2, if_pos (by omega), if_pos (by omega), ← hv]
          congr 1
          omega
        · rw [if_neg h2, if_neg (by omega)]

/-- A bucket of objects after the first `t` of `n` cells. -/
def GoodO (K : Kind M α) (w : Nat → Int) (n csz : Nat) (x : M) (t k : Nat) (b : Bucket M α) : Prop :=
  ∃ m : List α, b = .objs m (before w k n) ∧ m.length = before w k n * csz ∧ Placed K w csz x t k (fun q => m[q]?)

theorem GoodO.final {K : Kind M α} {w : Nat → Int} {n csz : Nat} {x : M} {k : Nat} {b : Bucket M α} (h : GoodO K w n csz x n k b) : Final K w n csz x k b := by
  obtain ⟨m, rfl, _, hp⟩ := h
  exact ⟨rfl, hp⟩

theorem GoodO.skip {K : Kind M α} {w : Nat → Int} {n csz : Nat} {x : M} {t t' k : Nat} {b : Bucket M α} (h : GoodO K w n csz x t k b)
    (hs : ∀ j, t ≤ j → j < t' → w j ≠ k) : GoodO K w n csz x t' k b := by
  obtain ⟨m, e, hk, hp⟩ := h
  refine ⟨m, e, hk, fun i hi hw => ?_⟩
  by_cases ht : i < t
  · exact hp i ht hw
  · exact absurd hw (hs i (by omega) hi)

theorem byObj_spec {K : GKind M α} {ok : Nat → M → Prop} (L : GLawful K ok) {w : Nat → Int} {n csz : Nat} {x : M} {ria : Nat} (hx : ok (n * csz) x) (hw : ∀ i, i < n → w i < ria) :
    ∀ fuel i pos rp, i + fuel = n → (∀ k, k < ria → pos k = before w k i) → (∀ k, k < ria → GoodO K.toKind w n csz x i k (rp k)) →
      ∃ rp', byObj K.toKind csz ria w x fuel i pos rp = some rp' ∧ ∀ k, k < ria → GoodO K.toKind w n csz x n k (rp' k)
  | 0, i, pos, rp, hi, _, h => ⟨rp, rfl, by rw [← show i = n by omega]; rw [show n = i by omega] at h; exact h⟩
  | fuel + 1, i, pos, rp, hi, hpos, h => by
    rw [byObj]
    dsimp only
    by_cases h0 : w i < 0
    · rw [if_pos h0]
      have hne : ∀ (k : Nat) j, i ≤ j → j < i + 1 → w j ≠ k := fun k j h1 h2 he => by rw [show j = i by omega] at he; omega
      refine byObj_spec L hx hw fuel (i + 1) pos rp (by omega) (fun k hk => ?_) (fun k hk => (h k hk).skip (hne k))
      rw [before_skip (hne k)]
      exact hpos k hk
    · have hwi := hw i (by omega)
      rw [if_neg h0, if_neg (by omega)]
      obtain ⟨m, e, hm, hp⟩ := h (w i).toNat (by omega)
      have hwk : w i = ((w i).toNat : Nat) := by omega
      generalize (w i).toNat = k at e hm hp hwk
      have hk : k < ria := by omega
      have hrun : ∀ j, i ≤ j → j < i + 1 → w j = k := fun j h1 h2 => by rw [show j = i by omega]; exact hwk
      have hb1 := before_run hrun
      have hb2 := before_mono w k (show i + 1 ≤ n by omega)
      have hfit : pos k * csz + csz ≤ before w k n * csz := by
        have : (pos k + 1) * csz ≤ before w k n * csz := Nat.mul_le_mul_right _ (by rw [hpos k hk]; omega)
        rw [Nat.add_mul, Nat.one_mul] at this
        exact this
      have hxs : i * csz + csz ≤ n * csz := by
        have : (i + 1) * csz ≤ n * csz := Nat.mul_le_mul_right _ (by omega)
        rw [Nat.add_mul, Nat.one_mul] at this
        exact this
      obtain ⟨m', e', hl', hg⟩ := putObjs_spec L hx hxs hfit csz 0 m (by omega) hm
      obtain ⟨rp', er, hr⟩ := byObj_spec L hx hw fuel (i + 1) (upd pos k (pos k + 1)) (upd rp k (.objs m' (before w k n))) (by omega)
        (fun k2 hk2 => by
          unfold upd
          by_cases he : k2 = k
          · rw [if_pos he, he, hb1, hpos k hk]
          · rw [if_neg he, before_skip fun j h1 h2 => by rw [hrun j h1 h2]; omega]
            exact hpos k2 hk2)
        (fun k2 hk2 => by
          unfold upd
          by_cases he : k2 = k
          · subst he
            rw [if_pos rfl]
            refine ⟨m', rfl, hl', hp.run (l := 1) hrun hb2 fun q hq => ?_⟩
            rw [Nat.one_mul, ← hpos k2 hk]
            have := hg q hq
            rw [Nat.add_zero] at this
            exact this
          · rw [if_neg he]
            exact (h k2 hk2).skip fun j h1 h2 => by rw [hrun j h1 h2]; omega)
      refine ⟨rp', ?_, hr⟩
      rw [e]
      dsimp only
      rw [e']
      exact er

/-! ## `𝕨/𝕩` -/

/-- Whether cell `i` is chosen, as a number. -/
def chosen (m : List Bool) (i : Nat) : Int := if m.getD i false then 1 else 0

theorem chosen_eq {m : List Bool} {i : Nat} : chosen m i = 1 ↔ m.getD i false = true := by
  unfold chosen
  split <;> simp_all

theorem chosen_count : ∀ (m : List Bool), before (chosen m) 1 m.length = (m.filter id).length := by
  intro m
  have key : ∀ n, n ≤ m.length → before (chosen m) 1 n = ((m.take n).filter id).length := by
    intro n
    induction n with
    | zero => intro _; rfl
    | succ n ih =>
      intro h
      show before (chosen m) 1 n + _ = _
      rw [ih (by omega), List.take_add_one, List.getElem?_eq_getElem (by omega), List.filter_append, List.length_append]
      congr 1
      have e : m.getD n false = m[n] := by rw [List.getD_eq_getElem?_getD, List.getElem?_eq_getElem (by omega)]; rfl
      cases hb : m[n]
      · rw [if_neg (by rw [chosen_eq, e, hb]; decide)]
        rfl
      · rw [if_pos (by rw [chosen_eq, e, hb])]
        rfl
  rw [key m.length (Nat.le_refl _), List.take_length]

theorem slashLoop_spec {K : GKind M α} {ok : Nat → M → Prop} (L : GLawful K ok) {csz n nn : Nat} {x : M} (hx : ok (n * csz) x) (m : List Bool) (hm : m.length = n)
    (hnn : before (chosen m) 1 n = nn) :
    ∀ (bs : List Bool) i p r, m.drop i = bs → i + bs.length = n → p = before (chosen m) 1 i → ok (nn * csz) r → Placed K.toKind (chosen m) csz x i 1 (K.get r) →
      ∃ r', slashLoop K.toKind csz x bs i p r = some r' ∧ ok (nn * csz) r' ∧ Placed K.toKind (chosen m) csz x n 1 (K.get r')
  | [], i, p, r, _, hi, _, hr, hp => ⟨r, rfl, hr, by rw [← show i = n from hi]; exact hp⟩
  | b :: bs, i, p, r, hd, hi, hpp, hr, hp => by
    have hi' : i + (bs.length + 1) = n := hi
    have hb : m.getD i false = b := by
      rw [List.getD_eq_getElem?_getD, ← List.head?_drop, hd]
      rfl
    have hd' : m.drop (i + 1) = bs := by rw [← List.drop_drop, hd]; rfl
    rw [slashLoop]
    cases b
    · rw [if_neg (by decide)]
      have hne : chosen m i ≠ 1 := fun h => by rw [chosen_eq, hb] at h; exact nomatch h
      refine slashLoop_spec L hx m hm hnn bs (i + 1) p r hd' (by omega) ?_ hr ?_
      · rw [hpp, before_skip (l := 1) fun j h1 h2 => by rw [show j = i by omega]; exact hne]
      · intro j hj hwj
        by_cases he : j = i
        · subst he; exact absurd hwj hne
        · exact hp j (by omega) hwj
    · rw [if_pos rfl]
      have hone : chosen m i = 1 := chosen_eq.2 hb
      have hrun : ∀ j, i ≤ j → j < i + 1 → chosen m j = (1 : Nat) := fun j h1 h2 => by rw [show j = i by omega]; exact hone
      have hb1 := before_run hrun
      have hb2 := before_mono (chosen m) 1 (show i + 1 ≤ n by omega)
      have hb1' : before (chosen m) 1 (i + 1) = p + 1 := by rw [hpp]; exact hb1
      have hfit : p * csz + csz ≤ nn * csz := by
        have : (p + 1) * csz ≤ nn * csz := Nat.mul_le_mul_right _ (by omega)
        rw [Nat.add_mul, Nat.one_mul] at this
        exact this
      have hxs : i * csz + csz ≤ n * csz := by
        have : (i + 1) * csz ≤ n * csz := Nat.mul_le_mul_right _ (by omega)
        rw [Nat.add_mul, Nat.one_mul] at this
        exact this
      obtain ⟨r1, e1, ho, hg⟩ := L.copy _ _ r x (p * csz) (i * csz) csz hr hx hfit hxs
      obtain ⟨r', e', h'⟩ := slashLoop_spec L hx m hm hnn bs (i + 1) (p + 1) r1 hd' (by omega) hb1'.symm ho
        (Placed.run (k := 1) (l := 1) (nn := nn) hp hrun (by have : before (chosen m) ((1 : Nat) : Int) (i + 1) = p + 1 := hb1'; omega) (fun q hq => by
          rw [hg q hq, Nat.one_mul, hpp]
          rfl))
      refine ⟨r', ?_, h'⟩
      rw [e1]
      exact e'

theorem slash_spec {K : GKind M α} {ok : Nat → M → Prop} (L : GLawful K ok) {csz n : Nat} {x : M} (hx : ok (n * csz) x) (m : List Bool) (hm : m.length = n) :
    ∃ r, slash K.toKind csz m x = some (r, before (chosen m) 1 n) ∧ ok (before (chosen m) 1 n * csz) r ∧ Placed K.toKind (chosen m) csz x n 1 (K.get r) := by
  have hc := chosen_count m
  rw [hm] at hc
  obtain ⟨r, e, ho, hp⟩ := slashLoop_spec L hx m hm rfl m 0 0 (K.new (before (chosen m) 1 n * csz)) rfl (by omega) rfl (L.new _) (fun i hi => absurd hi (Nat.not_lt_zero i))
  refine ⟨r, ?_, ho, hp⟩
  unfold slash
  dsimp only
  rw [← hc, e]
  rfl

/-! ## Without the ¯1s -/

/-- The number of indices other than ¯1 before `i`. -/
def rk (w : Nat → Int) : Nat → Nat
  | 0 => 0
  | i + 1 => rk w i + if w i ≠ -1 then 1 else 0

/-- `w` without the ¯1s. -/
def kept (w : Nat → Int) (n : Nat) : List Int := ((List.range n).map w).filter fun v => decide (v ≠ -1)

theorem kept_succ (w : Nat → Int) (n : Nat) : kept w (n + 1) = kept w n ++ if w n ≠ -1 then [w n] else [] := by
  unfold kept
  rw [List.range_succ, List.map_append, List.filter_append]
  congr 1
  show List.filter _ [w n] = _
  by_cases h : w n ≠ -1
  · rw [if_pos h, List.filter_cons_of_pos (by simp [h])]
    rfl
  · rw [if_neg h, List.filter_cons_of_neg (by simpa using h)]
    rfl

theorem kept_length (w : Nat → Int) (n : Nat) : (kept w n).length = rk w n := by
  induction n with
  | zero => rfl
  | succ n ih =>
    rw [kept_succ, List.length_append, ih]
    show _ = rk w n + _
    split <;> rfl

theorem rk_mono (w : Nat → Int) {i j : Nat} (h : i ≤ j) : rk w i ≤ rk w j := by
  induction j with
  | zero => rw [show i = 0 by omega]; exact Nat.le_refl _
  | succ j ih =>
    by_cases he : i = j + 1
    · rw [he]; exact Nat.le_refl _
    · have := ih (by omega)
      show _ ≤ rk w j + _
      omega

theorem kept_getD (w : Nat → Int) {n i : Nat} (hi : i < n) (hw : w i ≠ -1) : (kept w n).getD (rk w i) 0 = w i := by
  induction n with
  | zero => omega
  | succ n ih =>
    rw [kept_succ, List.getD_eq_getElem?_getD]
    by_cases he : i = n
    · subst he
      rw [List.getElem?_append_right (by rw [kept_length]; exact Nat.le_refl _), kept_length, Nat.sub_self, if_pos hw]
      rfl
    · have h1 := rk_mono w (show i + 1 ≤ n by omega)
      have h2 : rk w (i + 1) = rk w i + 1 := by
        show rk w i + _ = _
        rw [if_pos hw]
      rw [List.getElem?_append_left (by rw [kept_length]; omega), ← List.getD_eq_getElem?_getD]
      exact ih (by omega)

theorem kept_before (w : Nat → Int) (n : Nat) (k : Int) (hk : k ≠ -1) : ∀ i, i ≤ n → before (fun i => (kept w n).getD i 0) k (rk w i) = before w k i
  | 0, _ => rfl
  | i + 1, hi => by
    show before _ k (rk w i + _) = before w k i + _
    rw [← kept_before w n k hk i (by omega)]
    by_cases hw : w i ≠ -1
    · rw [if_pos hw]
      show before _ k (rk w i) + (if (kept w n).getD (rk w i) 0 = k then 1 else 0) = _
      rw [kept_getD w (by omega) hw]
    · rw [if_neg hw, if_neg (by omega)]
      rfl

theorem kept_surj (w : Nat → Int) (n : Nat) : ∀ j, j < rk w n → ∃ i, i < n ∧ w i ≠ -1 ∧ rk w i = j := by
  induction n with
  | zero => intro j hj; exact absurd hj (Nat.not_lt_zero j)
  | succ n ih =>
    intro j hj
    have hj : j < rk w n + (if w n ≠ -1 then 1 else 0) := hj
    by_cases h : j < rk w n
    · obtain ⟨i, h1, h2, h3⟩ := ih j h
      exact ⟨i, by omega, h2, h3⟩
    · by_cases hw : w n ≠ -1
      · rw [if_pos hw] at hj
        exact ⟨n, by omega, hw, by omega⟩
      · rw [if_neg hw] at hj
        omega

theorem rk_lt (w : Nat → Int) {i j : Nat} (hi : w i ≠ -1) (hj : w j ≠ -1) (h : rk w i < rk w j) : i < j := by
  apply Decidable.byContradiction
  intro hn
  have := rk_mono w (show j ≤ i by omega)
  omega

theorem rk_chosen (w : Nat → Int) (n : Nat) : ∀ i, i ≤ n → before (chosen ((List.range n).map fun i => decide (w i ≠ -1))) 1 i = rk w i
  | 0, _ => rfl
  | i + 1, hi => by
    show before _ 1 i + _ = rk w i + _
    rw [rk_chosen w n i (by omega)]
    congr 1
    have e : ((List.range n).map fun i => decide (w i ≠ -1)).getD i false = decide (w i ≠ -1) := by
      rw [List.getD_eq_getElem?_getD, List.getElem?_map, List.getElem?_range (by omega)]
      rfl
    by_cases hw : w i ≠ -1
    · rw [if_pos hw, if_pos (by rw [chosen_eq, e, decide_eq_true hw])]
    · rw [if_neg hw, if_neg (by rw [chosen_eq, e, decide_eq_false hw]; decide)]

theorem chosen_kept (w : Nat → Int) {n i : Nat} (hi : i < n) : chosen ((List.range n).map fun i => decide (w i ≠ -1)) i = 1 ↔ w i ≠ -1 := by
  rw [chosen_eq, List.getD_eq_getElem?_getD, List.getElem?_map, List.getElem?_range hi]
  exact decide_eq_true_iff

/-! ## Statistics -/

structure StatsOk (w : Nat → Int) (n : Nat) (s : Stats) : Prop where
  le : ∀ i, i < n → w i ≤ s.max
  ge : -1 ≤ s.max
  reached : s.max = -1 ∨ ∃ i, i < n ∧ w i = s.max
  bad : s.bad = true ↔ ∃ i, i < n ∧ w i < -1
  neg : s.neg = before w (-1) n
  prev : s.prev = if n = 0 then -1 else w (n - 1)
  sort : s.sort = true → ∀ i j, i < j → j < n → w i ≤ w j

theorem stats_spec (w : Nat → Int) : ∀ n, StatsOk w n (((List.range n).map w).foldl Stats.step {})
  | 0 => ⟨fun i hi => absurd hi (Nat.not_lt_zero i), Int.le_refl _, Or.inl rfl, ⟨fun h => (nomatch h), fun ⟨i, hi, _⟩ => absurd hi (Nat.not_lt_zero i)⟩, rfl, rfl,
      fun _ i j _ hj => absurd hj (Nat.not_lt_zero j)⟩
  | n + 1 => by
    rw [List.range_succ, List.map_append, List.foldl_append]
    have h := stats_spec w n
    generalize ((List.range n).map w).foldl Stats.step {} = s at h
    show StatsOk w (n + 1) (s.step (w n))
    unfold Stats.step
    refine ⟨fun i hi => ?_, ?_, ?_, ?_, ?_, ?_, fun hs => ?_⟩
    · dsimp only
      by_cases he : i = n
      · subst he; split <;> omega
      · have := h.le i (by omega)
        split <;> omega
    · have := h.ge
      dsimp only
      split <;> omega
    · dsimp only
      by_cases hm : w n > s.max
      · rw [if_pos hm]
        exact Or.inr ⟨n, by omega, rfl⟩
      · rw [if_neg hm]
        rcases h.reached with hr | ⟨i, hi, hr⟩
        · exact Or.inl hr
        · exact Or.inr ⟨i, by omega, hr⟩
    · dsimp only
      rw [Bool.or_eq_true, h.bad, decide_eq_true_iff]
      constructor
      · rintro (⟨i, hi, hb⟩ | hb)
        · exact ⟨i, by omega, hb⟩
        · exact ⟨n, by omega, hb⟩
      · rintro ⟨i, hi, hb⟩
        by_cases he : i = n
        · subst he; exact Or.inr hb
        · exact Or.inl ⟨i, by omega, hb⟩
    · dsimp only
      rw [h.neg]
      rfl
    · dsimp only
      rw [if_neg (by omega)]
      rfl
    · dsimp only at hs
      rw [Bool.and_eq_true, decide_eq_true_iff, h.prev] at hs
      obtain ⟨hs1, hs2⟩ := hs
      intro i j hij hj
      by_cases he : j = n
      · subst he
        rw [if_neg (by omega)] at hs2
        by_cases hi : i = j - 1
        · rw [hi]; exact hs2
        · have := h.sort hs1 i (j - 1) (by omega) (by omega)
          omega
      · exact h.sort hs1 i j hij (by omega)

end Verif.Group
