import Verif.Group.Basic
/-!
# Group: loops
-/
namespace Verif.Group
open Verif.Bits Verif.Fold Verif.Slash Verif.Rep Verif.Select Verif.Under Verif.Rotate

variable {M α : Type}

/-- The cells of the first `t` indices that go to bucket `k` are there. -/
def Placed (K : Kind M α) (w : Nat → Int) (csz : Nat) (x : M) (t : Nat) (k : Int) (get : Nat → Option α) : Prop :=
  ∀ i, i < t → w i = k → ∀ c, c < csz → get (before w k i * csz + c) = K.get x (i * csz + c)

/-- Bucket `k` after the first `t` of `n` cells. -/
def Good (K : Kind M α) (ok : Nat → M → Prop) (w : Nat → Int) (n csz : Nat) (x : M) (t k : Nat) (b : Bucket M α) : Prop :=
  (before w k n = 0 ∧ b = .empty) ∨ (0 < before w k n ∧ ∃ m, b = .mem m (before w k n) ∧ ok (before w k n * csz) m ∧ Placed K w csz x t k (K.get m))

/-- What is needed in the end. -/
def Final (K : Kind M α) (w : Nat → Int) (n csz : Nat) (x : M) (k : Nat) (b : Bucket M α) : Prop := b.size n = before w k n ∧ Placed K w csz x n k (b.get K x)

theorem Good.final {K : Kind M α} {ok : Nat → M → Prop} {w : Nat → Int} {n csz : Nat} {x : M} {k : Nat} {b : Bucket M α} (h : Good K ok w n csz x n k b) : Final K w n csz x k b := by
  rcases h with ⟨h0, rfl⟩ | ⟨_, m, rfl, _, hp⟩
  · refine ⟨h0.symm, fun i hi hw => ?_⟩
    have := before_lt w k hi hw
    omega
  · exact ⟨rfl, hp⟩

theorem Good.skip {K : Kind M α} {ok : Nat → M → Prop} {w : Nat → Int} {n csz : Nat} {x : M} {t t' k : Nat} {b : Bucket M α} (h : Good K ok w n csz x t k b)
    (hs : ∀ j, t ≤ j → j < t' → w j ≠ k) : Good K ok w n csz x t' k b := by
  rcases h with h | ⟨h0, m, e, hk, hp⟩
  · exact Or.inl h
  · refine Or.inr ⟨h0, m, e, hk, fun i hi hw => ?_⟩
    by_cases ht : i < t
    · exact hp i ht hw
    · exact absurd hw (hs i (by omega) hi)

/-- Cells `t` to `t + l`, whose index is `k`, are copied to where they belong. -/
theorem Placed.run {K : Kind M α} {w : Nat → Int} {csz : Nat} {x : M} {t l k nn : Nat} {get get' : Nat → Option α} (hp : Placed K w csz x t k get) (hw : ∀ j, t ≤ j → j < t + l → w j = k)
    (hn : before w k (t + l) ≤ nn)
    (hg : ∀ q, q < nn * csz → get' q = if before w k t * csz ≤ q ∧ q < before w k t * csz + l * csz then K.get x (t * csz + (q - before w k t * csz)) else get q) :
    Placed K w csz x (t + l) k get' := by
  intro i hi hwi c hc
  have hlt := before_lt w k hi hwi
  have hq : before w k i * csz + c < nn * csz := by
    have : (before w k i + 1) * csz ≤ nn * csz := Nat.mul_le_mul_right _ (by omega)
    rw [Nat.add_mul, Nat.one_mul] at this
    omega
  rw [hg _ hq]
  by_cases ht : i < t
  · have h1 := before_lt w k ht hwi
    have : (before w k i + 1) * csz ≤ before w k t * csz := Nat.mul_le_mul_right _ h1
    rw [Nat.add_mul, Nat.one_mul] at this
    rw [if_neg (by omega)]
    exact hp i ht hwi c hc
  · have e : before w k i = before w k t + (i - t) := by
      have := before_run (w := w) (k := k) (t := t) (l := i - t) fun j h1 h2 => hw j h1 (by omega)
      rw [show t + (i - t) = i by omega] at this
      exact this
    have h2 : (i - t + 1) * csz ≤ l * csz := Nat.mul_le_mul_right _ (by omega)
    rw [Nat.add_mul, Nat.one_mul] at h2
    have h3 : i * csz = t * csz + (i - t) * csz := by rw [← Nat.add_mul]; congr 1; omega
    rw [e, Nat.add_mul, if_pos (by omega), h3]
    congr 1
    omega

/-! ## Lengths -/

/-- `len`, moved by one, after `t` cells. -/
def LenInv (ria : Nat) (w : Nat → Int) (t : Nat) (len : Nat → Nat) : Prop := ∀ k : Int, 0 ≤ k → k < ria → len (k + 1).toNat = before w k t

theorem LenInv.step {ria : Nat} {w : Nat → Int} {t l : Nat} {len : Nat → Nat} (h : LenInv ria w t len) {v : Int} (hv : ∀ j, t ≤ j → j < t + l → w j = v) (h1 : -1 ≤ v) (h2 : v < ria) :
    ∃ len', addLen ria len v l = some len' ∧ LenInv ria w (t + l) len' := by
  refine ⟨_, if_pos (by omega), fun k hk1 hk2 => ?_⟩
  unfold upd
  by_cases hk : k = v
  · subst hk
    rw [if_pos rfl, h k hk1 hk2, before_run hv]
  · rw [if_neg (by omega), h k hk1 hk2, before_skip fun j ha hb => by rw [hv j ha hb]; exact fun e => hk e.symm]

theorem lens_spec {ria : Nat} {w : Nat → Int} {n : Nat} (hw : ∀ i, i < n → -1 ≤ w i ∧ w i < ria) :
    ∀ fuel i len, i + fuel = n → LenInv ria w i len → ∃ len', lens ria w fuel i len = some len' ∧ LenInv ria w n len'
  | 0, i, len, hi, h => ⟨len, rfl, by rw [← show i = n by omega]; exact h⟩
  | fuel + 1, i, len, hi, h => by
    obtain ⟨len', e, h'⟩ := h.step (l := 1) (v := w i) (fun j h1 h2 => by rw [show j = i by omega]) (hw i (by omega)).1 (hw i (by omega)).2
    obtain ⟨len2, e2, h2⟩ := lens_spec hw fuel (i + 1) len' (by omega) h'
    refine ⟨len2, ?_, h2⟩
    rw [lens, e]
    exact e2

theorem LenInv.start (ria : Nat) (w : Nat → Int) : LenInv ria w 0 fun _ => 0 := fun _ _ _ => rfl

/-! ## Buckets -/

theorem alloc_good {K : GKind M α} {ok : Nat → M → Prop} (L : GLawful K ok) {c : Cells} {w : Nat → Int} {n csz : Nat} (hc : c.csz = csz) {x : M} {k : Nat} (hsz : before w k n * c.width < 2^32) :
    ∃ b, alloc K.toKind c (before w k n) = some b ∧ Good K.toKind ok w n csz x 0 k b := by
  unfold alloc
  by_cases h0 : before w k n = 0
  · rw [if_pos h0]
    exact ⟨_, rfl, Or.inl ⟨h0, rfl⟩⟩
  · rw [if_neg h0, if_neg (by omega), hc]
    exact ⟨_, rfl, Or.inr ⟨by omega, _, rfl, L.new _, fun i hi => absurd hi (Nat.not_lt_zero i)⟩⟩

theorem width_le {c : Cells} {w : Nat → Int} {n : Nat} (hsz : n * c.width < 2^32) (k : Int) : before w k n * c.width < 2^32 :=
  Nat.lt_of_le_of_lt (Nat.mul_le_mul_right _ (before_le w k n)) hsz

theorem allocAll_good {K : GKind M α} {ok : Nat → M → Prop} (L : GLawful K ok) {c : Cells} {w : Nat → Int} {n csz : Nat} (hc : c.csz = csz) (x : M) {ria : Nat} {len : Nat → Nat}
    (hlen : LenInv ria w n len) (hsz : n * c.width < 2^32) : ∀ r, r ≤ ria → ∃ rp, allocAll K.toKind c len r = some rp ∧ ∀ k, k < r → Good K.toKind ok w n csz x 0 k (rp k)
  | 0, _ => ⟨_, rfl, fun k hk => absurd hk (Nat.not_lt_zero k)⟩
  | r + 1, hr => by
    obtain ⟨rp, e, h⟩ := allocAll_good L hc x hlen hsz r (by omega)
    obtain ⟨b, eb, hb⟩ := alloc_good L (w := w) (n := n) (csz := csz) hc (x := x) (k := r) (width_le hsz _)
    have hl : len (r + 1) = before w r n := by
      have := hlen r (by omega) (by omega)
      rw [show ((r : Int) + 1).toNat = r + 1 by omega] at this
      exact this
    refine ⟨upd rp r b, ?_, fun k hk => ?_⟩
    · rw [allocAll, e]
      show ((alloc K.toKind c (len (r + 1))).map _) = _
      rw [hl, eb]
      rfl
    · unfold upd
      by_cases hk2 : k = r
      · rw [if_pos hk2, hk2]; exact hb
      · rw [if_neg hk2]; exact h k (by omega)

/-! ## One cell at a time -/

/-- Positions and buckets after `t` cells. -/
structure Inv (K : Kind M α) (ok : Nat → M → Prop) (w : Nat → Int) (n csz : Nat) (x : M) (ria t : Nat) (pos : Nat → Nat) (rp : Nat → Bucket M α) : Prop where
  pos : ∀ k, k < ria → pos k = before w k t
  good : ∀ k, k < ria → Good K ok w n csz x t k (rp k)

theorem Inv.skip {K : Kind M α} {ok : Nat → M → Prop} {w : Nat → Int} {n csz : Nat} {x : M} {ria t l : Nat} {pos : Nat → Nat} {rp : Nat → Bucket M α} (h : Inv K ok w n csz x ria t pos rp)
    (hs : ∀ j, t ≤ j → j < t + l → w j < 0) : Inv K ok w n csz x ria (t + l) pos rp := by
  have hs' : ∀ (k : Nat) j, t ≤ j → j < t + l → w j ≠ k := fun k j h1 h2 he => by have := hs j h1 h2; omega
  refine ⟨fun k hk => ?_, fun k hk => (h.good k hk).skip (hs' k)⟩
  rw [before_skip (hs' k)]
  exact h.pos k hk

/-- The memory of the bucket for cells `t` to `t + l`. -/
theorem Inv.bucket {K : Kind M α} {ok : Nat → M → Prop} {w : Nat → Int} {n csz : Nat} {x : M} {ria t l : Nat} {pos : Nat → Nat} {rp : Nat → Bucket M α} (h : Inv K ok w n csz x ria t pos rp)
    {k : Nat} (hk : k < ria) (hw : ∀ j, t ≤ j → j < t + l → w j = k) (hl : 0 < l) (hn : t + l ≤ n) :
    ∃ m, rp k = .mem m (before w k n) ∧ ok (before w k n * csz) m ∧ pos k * csz + l * csz ≤ before w k n * csz ∧
      ∀ m', ok (before w k n * csz) m' →
        (∀ q, q < before w k n * csz → K.get m' q = if pos k * csz ≤ q ∧ q < pos k * csz + l * csz then K.get x (t * csz + (q - pos k * csz)) else K.get m q) →
        Inv K ok w n csz x ria (t + l) (upd pos k (pos k + l)) (upd rp k (.mem m' (before w k n))) := by
  have hlt := before_lt w k (show t < n by omega) (hw t (Nat.le_refl _) (by omega))
  have hpos := h.pos k hk
  have hrun := before_run hw
  have hle := before_mono w k hn
  rcases h.good k hk with ⟨h0, _⟩ | ⟨h0, m, e, ho, hp⟩
  · omega
  · refine ⟨m, e, ho, ?_, fun m' ho' hg => ⟨fun k2 hk2 => ?_, fun k2 hk2 => ?_⟩⟩
    · rw [← Nat.add_mul]
      exact Nat.mul_le_mul_right _ (by omega)
    · unfold upd
      by_cases he : k2 = k
      · rw [if_pos he, he, hrun, hpos]
      · rw [if_neg he, before_skip fun j h1 h2 => by rw [hw j h1 h2]; omega]
        exact h.pos k2 hk2
    · unfold upd
      by_cases he : k2 = k
      · subst he
        rw [if_pos rfl]
        rw [hpos] at hg
        exact Or.inr ⟨h0, m', rfl, ho', hp.run hw hle hg⟩
      · rw [if_neg he]
        exact (h.good k2 hk2).skip fun j h1 h2 => by rw [hw j h1 h2]; omega

theorem byCell_spec {K : Kind M α} {ok : Nat → M → Prop} {w : Nat → Int} {n csz : Nat} {x : M} {ria : Nat} {put : M → Nat → Nat → Option M} (hw : ∀ i, i < n → w i < ria)
    (hput : ∀ nn r p i, ok nn r → i < n → p * csz + csz ≤ nn → ∃ r', put r p i = some r' ∧ ok nn r' ∧
      ∀ q, q < nn → K.get r' q = if p * csz ≤ q ∧ q < p * csz + csz then K.get x (i * csz + (q - p * csz)) else K.get r q) :
    ∀ fuel i pos rp, i + fuel = n → Inv K ok w n csz x ria i pos rp → ∃ rp', byCell put ria w fuel i pos rp = some rp' ∧ ∀ k, k < ria → Good K ok w n csz x n k (rp' k)
  | 0, i, pos, rp, hi, h => ⟨rp, rfl, by rw [← show i = n by omega]; rw [show n = i by omega] at h; exact h.good⟩
  | fuel + 1, i, pos, rp, hi, h => by
    rw [byCell]
    dsimp only
    by_cases h0 : w i < 0
    · rw [if_pos h0]
      exact byCell_spec hw hput fuel (i + 1) pos rp (by omega) (h.skip fun j h1 h2 => by rw [show j = i by omega]; exact h0)
    · have hwi := hw i (by omega)
      rw [if_neg h0, if_neg (by omega)]
      obtain ⟨m, e, ho, hb, hnext⟩ := h.bucket (k := (w i).toNat) (l := 1) (by omega) (fun j h1 h2 => by rw [show j = i by omega]; omega) (by omega) (by omega)
      rw [Nat.one_mul] at hb
      obtain ⟨m', e', ho', hg⟩ := hput _ m (pos (w i).toNat) i ho (by omega) hb
      obtain ⟨rp', er, hr⟩ := byCell_spec hw hput fuel (i + 1) _ _ (by omega) (hnext m' ho' (by rw [Nat.one_mul]; exact hg))
      refine ⟨rp', ?_, hr⟩
      rw [e]
      dsimp only
      rw [e']
      exact er

/-! ## Runs -/

/-- `rl` are runs of equal indices that cover `t` to `n`. -/
def IsRuns (w : Nat → Int) (n : Nat) : Nat → List (Nat × Nat) → Prop
  | t, [] => t = n
  | t, (s, l) :: rl => s = t ∧ 0 < l ∧ s + l ≤ n ∧ (∀ j, s ≤ j → j < s + l → w j = w s) ∧ IsRuns w n (s + l) rl

theorem same_run {w : Nat → Int} {s e : Nat} (h : ∀ j, s < j → j < e → w (j - 1) = w j) : ∀ l, s + l < e → w (s + l) = w s
  | 0, _ => rfl
  | l + 1, hl => by
    have := h (s + (l + 1)) (by omega) hl
    rw [show s + (l + 1) - 1 = s + l by omega] at this
    rw [← this]
    exact same_run h l (by omega)

theorem runs_spec {w : Nat → Int} {n : Nat} : ∀ (s : Nat) (ss : List Nat), (s :: ss).Pairwise (· < ·) → (∀ j ∈ s :: ss, j < n) → (∀ j, s < j → j < n → j ∉ ss → w (j - 1) = w j) → IsRuns w n s (runs n (s :: ss))
  | s, [], _, hn, h => by
    have hs := hn s (List.mem_singleton.2 rfl)
    refine ⟨rfl, by omega, by omega, fun j h1 h2 => ?_, show s + (n - s) = n by omega⟩
    have := same_run (w := w) (s := s) (e := n) (fun j h1 h2 => h j h1 h2 (by simp)) (j - s) (by omega)
    rw [show s + (j - s) = j by omega] at this
    exact this
  | s, t :: ss, hp, hn, h => by
    have hst : s < t := (List.pairwise_cons.1 hp).1 t (by simp)
    have hp2 := (List.pairwise_cons.1 hp).2
    have htn := hn t (by simp)
    refine ⟨rfl, by omega, by omega, fun j h1 h2 => ?_, ?_⟩
    · have := same_run (w := w) (s := s) (e := t) (fun j h1 h2 => h j h1 (by omega) (fun hm => by
        rcases List.mem_cons.1 hm with he | he
        · omega
        · have := (List.pairwise_cons.1 hp2).1 j he; omega)) (j - s) (by omega)
      rw [show s + (j - s) = j by omega] at this
      exact this
    · rw [show s + (t - s) = t by omega]
      refine runs_spec t ss hp2 (fun j hj => hn j (List.mem_cons_of_mem _ hj)) (fun j h1 h2 h3 => h j (by omega) h2 (fun hm => ?_))
      rcases List.mem_cons.1 hm with he | he
      · omega
      · exact h3 he

theorem IsRuns.bound {w : Nat → Int} {n : Nat} : ∀ {t : Nat} {rl : List (Nat × Nat)}, IsRuns w n t rl → ∀ p ∈ rl, p.1 < n ∧ p.2 ≤ n
  | _, [], _, p, hp => nomatch hp
  | t, (s, l) :: rl, ⟨h1, h2, h3, _, h5⟩, p, hp => by
    rcases List.mem_cons.1 hp with rfl | hp
    · exact ⟨show s < n by omega, show l ≤ n by omega⟩
    · exact IsRuns.bound h5 p hp

/-- The starts of runs, 145-148. -/
theorem starts_spec (w : Nat → Int) (n : Nat) : ∃ t, t ≤ n ∧ (∀ j, j < t → w j = -1) ∧
    IsRuns w n t (runs n ((List.range n).filter fun i => if i = 0 then decide (w 0 ≠ -1) else decide (w (i - 1) ≠ w i))) := by
  generalize hss : (List.range n).filter (fun i => if i = 0 then decide (w 0 ≠ -1) else decide (w (i - 1) ≠ w i)) = ss
  have hsub : ss.Sublist (List.range n) := hss ▸ List.filter_sublist
  have hp : ss.Pairwise (· < ·) := List.Pairwise.sublist hsub List.pairwise_lt_range
  have hm : ∀ j, j ∈ ss ↔ j < n ∧ (if j = 0 then decide (w 0 ≠ -1) else decide (w (j - 1) ≠ w j)) = true := by
    intro j
    rw [← hss, List.mem_filter, List.mem_range]
  have hnot : ∀ j, 0 < j → j < n → j ∉ ss → w (j - 1) = w j := by
    intro j h1 h2 h3
    apply Decidable.byContradiction
    intro h4
    apply h3
    rw [hm, if_neg (by omega), decide_eq_true_iff]
    exact ⟨h2, h4⟩
  -- everything before the first start is ¯1
  have hfirst : ∀ t, t ≤ n → (∀ j ∈ ss, t ≤ j) → ∀ j, j < t → w j = -1 := by
    intro t ht hall j
    induction j with
    | zero =>
      intro hj
      apply Decidable.byContradiction
      intro h0
      have := hall 0 ((hm 0).2 ⟨by omega, by rw [if_pos rfl, decide_eq_true_iff]; exact h0⟩)
      omega
    | succ j ih =>
      intro hj
      have := hnot (j + 1) (by omega) (by omega) (fun h => by have := hall _ h; omega)
      rw [Nat.add_sub_cancel] at this
      rw [← this]
      exact ih (by omega)
  cases ss with
  | nil => exact ⟨n, Nat.le_refl _, hfirst n (Nat.le_refl _) (fun j h => nomatch h), rfl⟩
  | cons s ss =>
    have hsn := ((hm s).1 (by simp)).1
    refine ⟨s, by omega, hfirst s (by omega) (fun j hj => ?_), runs_spec s ss hp (fun j hj => ((hm j).1 hj).1) (fun j h1 h2 h3 => hnot j (by omega) h2 (fun h => ?_))⟩
    · rcases List.mem_cons.1 hj with rfl | hj
      · exact Nat.le_refl _
      · have := (List.pairwise_cons.1 hp).1 j hj; omega
    · rcases List.mem_cons.1 h with he | he
      · omega
      · exact h3 he

theorem chunkLens_spec {ria : Nat} {w : Nat → Int} {n : Nat} (hw : ∀ i, i < n → -1 ≤ w i ∧ w i < ria) :
    ∀ (rl : List (Nat × Nat)) t len, IsRuns w n t rl → LenInv ria w t len → ∃ len', chunkLens ria w rl len = some len' ∧ LenInv ria w n len'
  | [], t, len, hr, h => ⟨len, rfl, by rw [← show t = n from hr]; exact h⟩
  | (s, l) :: rl, t, len, ⟨h1, h2, h3, h4, h5⟩, h => by
    subst h1
    obtain ⟨len', e, h'⟩ := h.step (l := l) (v := w s) h4 (hw s (by omega)).1 (hw s (by omega)).2
    obtain ⟨len2, e2, h6⟩ := chunkLens_spec hw rl (s + l) len' h5 h'
    refine ⟨len2, ?_, h6⟩
    rw [chunkLens, e]
    exact e2

theorem chunks_spec {K : GKind M α} {ok : Nat → M → Prop} (L : GLawful K ok) {c : Cells} {w : Nat → Int} {n csz : Nat} {x : M} {ria : Nat} (hx : ok (n * csz) x) (hw : ∀ i, i < n → w i < ria)
    (hsz : n * c.width < 2^32) :
    ∀ (rl : List (Nat × Nat)) t pos rp, IsRuns w n t rl → Inv K.toKind ok w n csz x ria t pos rp →
      ∃ rp', chunks K.toKind c csz ria w x rl pos rp = some rp' ∧ ∀ k, k < ria → Good K.toKind ok w n csz x n k (rp' k)
  | [], t, pos, rp, hr, h => ⟨rp, rfl, by rw [show t = n from hr] at h; exact h.good⟩
  | (s, l) :: rl, t, pos, rp, ⟨h1, h2, h3, h4, h5⟩, h => by
    subst h1
    rw [chunks]
    dsimp only
    by_cases h0 : w s < 0
    · rw [if_pos h0]
      exact chunks_spec L hx hw hsz rl (s + l) pos rp h5 (h.skip fun j ha hb => by rw [h4 j ha hb]; exact h0)
    · have hws := hw s (by omega)
      have hpos := h.pos (w s).toNat (by omega)
      have hwid : pos (w s).toNat * c.width < 2^32 := by
        rw [hpos]
        exact Nat.lt_of_le_of_lt (Nat.mul_le_mul_right _ (Nat.le_trans (before_le _ _ s) (by omega))) hsz
      rw [if_neg h0, if_neg (by omega)]
      obtain ⟨m, e, ho, hb, hnext⟩ := h.bucket (k := (w s).toNat) (l := l) (by omega) (fun j ha hb => by rw [h4 j ha hb]; omega) h2 h3
      have hxs : s * csz + l * csz ≤ n * csz := by rw [← Nat.add_mul]; exact Nat.mul_le_mul_right _ h3
      obtain ⟨m', e', ho', hg⟩ := L.copy _ _ m x (pos (w s).toNat * csz) (s * csz) (l * csz) ho hx hb hxs
      obtain ⟨rp', er, hr⟩ := chunks_spec L hx hw hsz rl (s + l) _ _ h5 (hnext m' ho' hg)
      refine ⟨rp', ?_, hr⟩
      rw [e]
      dsimp only
      rw [e']
      exact er

/-! ## Sorted indices -/

/-- How many of the first `n` indices are below `k`. -/
def below (w : Nat → Int) (k : Int) : Nat → Nat
  | 0 => 0
  | i + 1 => below w k i + if w i < k then 1 else 0

theorem below_succ (w : Nat → Int) (k : Int) (n : Nat) : below w (k + 1) n = below w k n + before w k n := by
  induction n with
  | zero => rfl
  | succ n ih =>
    show below w (k + 1) n + _ = below w k n + _ + (before w k n + _)
    rw [ih]
    by_cases h1 : w n < k
    · rw [if_pos (show w n < k + 1 by omega), if_pos h1, if_neg (show ¬ w n = k by omega)]
      omega
    · rw [if_neg h1]
      by_cases h2 : w n = k
      · rw [if_pos h2, if_pos (show w n < k + 1 by omega)]
        omega
      · rw [if_neg h2, if_neg (show ¬ w n < k + 1 by omega)]
        omega

theorem below_none {w : Nat → Int} {k : Int} {n : Nat} (h : ∀ i, i < n → ¬ w i < k) : below w k n = 0 := by
  induction n with
  | zero => rfl
  | succ n ih =>
    show below w k n + _ = 0
    rw [ih fun i hi => h i (by omega), if_neg (h n (by omega))]

theorem below_le (w : Nat → Int) (k : Int) (n : Nat) : below w k n ≤ n := by
  induction n with
  | zero => exact Nat.le_refl _
  | succ n ih => show below w k n + _ ≤ _; split <;> omega

theorem below_sorted {w : Nat → Int} {n : Nat} (hs : ∀ i j, i < j → j < n → w i ≤ w j) (k : Int) : ∀ i, i < n → (w i < k ↔ i < below w k n) := by
  induction n with
  | zero => intro i hi; omega
  | succ n ih =>
    have ih := ih fun i j h1 h2 => hs i j h1 (by omega)
    have hle := below_le w k n
    intro i hi
    have e : below w k (n + 1) = below w k n + if w n < k then 1 else 0 := rfl
    rw [e]
    by_cases hn : w n < k
    · rw [if_pos hn]
      -- all of the earlier ones are below `k`
      have hall : below w k n = n := by
        by_cases h0 : n = 0
        · subst h0; rfl
        · have h1 := hs (n - 1) n (by omega) (by omega)
          have h2 := (ih (n - 1) (by omega)).1 (by omega)
          omega
      rw [hall]
      refine ⟨fun _ => by omega, fun _ => ?_⟩
      by_cases h : i = n
      · rw [h]; exact hn
      · have := hs i n (by omega) (by omega); omega
    · rw [if_neg hn, Nat.add_zero]
      by_cases h : i = n
      · rw [h]; omega
      · exact ih i (by omega)

theorem sorted_spec {K : GKind M α} {ok : Nat → M → Prop} (L : GLawful K ok) {c : Cells} {w : Nat → Int} {n csz : Nat} (hc : c.csz = csz) {x : M} {ria : Nat} (hx : ok (n * csz) x)
    (hs : ∀ i j, i < j → j < n → w i ≤ w j) (hsz : n * c.width < 2^32) {len : Nat → Nat} (hlen : LenInv ria w n len) :
    ∀ fuel j i rp, j + fuel = ria → i = below w j n → (∀ k, k < j → Good K.toKind ok w n csz x n k (rp k)) →
      ∃ rp', sorted K.toKind c csz x len fuel j i rp = some rp' ∧ ∀ k, k < ria → Good K.toKind ok w n csz x n k (rp' k)
  | 0, j, i, rp, hj, hi, h => ⟨rp, rfl, by rw [← show j = ria by omega]; exact h⟩
  | fuel + 1, j, i, rp, hj, hi, h => by
    have hl : len (j + 1) = before w j n := by
      have := hlen j (by omega) (by omega)
      rw [show ((j : Int) + 1).toNat = j + 1 by omega] at this
      exact this
    obtain ⟨b, eb, hb⟩ := alloc_good L (w := w) (n := n) (csz := csz) hc (x := x) (k := j) (width_le hsz _)
    have hnx := below_succ w j n
    have hup : ∀ b, Good K.toKind ok w n csz x n j b → ∀ k, k < j + 1 → Good K.toKind ok w n csz x n k (upd rp j b k) := by
      intro b hb k hk
      unfold upd
      by_cases hk2 : k = j
      · rw [if_pos hk2, hk2]; exact hb
      · rw [if_neg hk2]; exact h k (by omega)
    rw [sorted]
    rw [hl, eb]
    show ∃ rp', (match b with
      | .mem m l => (K.copy m 0 x (i * csz) (l * csz)).bind fun m => sorted K.toKind c csz x len fuel (j + 1) (i + l) (upd rp j (.mem m l))
      | b => sorted K.toKind c csz x len fuel (j + 1) i (upd rp j b)) = some rp' ∧ _
    rcases hb with ⟨h0, rfl⟩ | ⟨h0, m, rfl, ho, hp⟩
    · exact sorted_spec L hc hx hs hsz hlen fuel (j + 1) i _ (by omega) (by rw [hi]; show _ = below w ((j : Int) + 1) n; rw [hnx]; omega) (hup _ (Or.inl ⟨h0, rfl⟩))
    · have hbs := below_sorted hs j
      have hbs1 := below_sorted hs (j + 1)
      -- the block is within `𝕩`
      have hin : i + before w j n ≤ n := by
        have := below_le w (j + 1) n
        omega
      have hw : ∀ q, i ≤ q → q < i + before w j n → w q = j := by
        intro q h1 h2
        have a := hbs q (by omega)
        have b := hbs1 q (by omega)
        omega
      have hpre : ∀ q, q < i → w q ≠ j := by
        intro q h1
        have a := hbs q (by omega)
        omega
      have hxs : i * csz + before w j n * csz ≤ n * csz := by rw [← Nat.add_mul]; exact Nat.mul_le_mul_right _ hin
      obtain ⟨m', e', ho', hg⟩ := L.copy _ _ m x 0 (i * csz) (before w j n * csz) ho hx (by omega) hxs
      have hb0 : before w j i = 0 := before_zero hpre
      have hrun := before_run hw
      have hgood : Good K.toKind ok w n csz x n j (.mem m' (before w j n)) := by
        refine Or.inr ⟨h0, m', rfl, ho', ?_⟩
        have hp0 : Placed K.toKind w csz x i j (K.get m) := fun q h1 h2 => absurd h2 (hpre q h1)
        have := hp0.run (l := before w j n) (nn := before w j n) (get' := K.get m') hw (by rw [hrun, hb0]; omega) (by
          intro q hq
          rw [hg q hq, hb0]
          simp only [Nat.zero_mul, Nat.zero_add])
        intro q h1 h2
        refine this q ?_ h2
        have b := hbs1 q (by omega)
        omega
      obtain ⟨rp', er, hr⟩ := sorted_spec L hc hx hs hsz hlen fuel (j + 1) (i + before w j n) _ (by omega) (by rw [hi]; show _ = below w ((j : Int) + 1) n; rw [hnx]) (hup _ hgood)
      refine ⟨rp', ?_, hr⟩
      dsimp only
      rw [e']
      exact er

end Verif.Group
