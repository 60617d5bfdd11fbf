import Verif.Group.More
/-!
# Group: every path
-/
namespace Verif.Group
open Verif.Bits Verif.Fold Verif.Slash Verif.Rep Verif.Select Verif.Under Verif.Rotate

variable {M α : Type}

/-- All buckets are as they should be. -/
def AllFinal (K : Kind M α) (w : Nat → Int) (n csz : Nat) (x : M) (ria : Nat) (rs : List (Bucket M α)) : Prop := rs.length = ria ∧ ∀ k b, rs[k]? = some b → Final K w n csz x k b

/-- And none of them is `𝕩` itself. -/
def AllNew (K : Kind M α) (w : Nat → Int) (n csz : Nat) (x : M) (ria : Nat) (rs : List (Bucket M α)) : Prop :=
  rs.length = ria ∧ ∀ k b, rs[k]? = some b → Final K w n csz x k b ∧ b ≠ .all

theorem AllNew.final {K : Kind M α} {w : Nat → Int} {n csz : Nat} {x : M} {ria : Nat} {rs : List (Bucket M α)} (h : AllNew K w n csz x ria rs) : AllFinal K w n csz x ria rs :=
  ⟨h.1, fun k b hb => (h.2 k b hb).1⟩

theorem Good.new {K : Kind M α} {ok : Nat → M → Prop} {w : Nat → Int} {n csz : Nat} {x : M} {k : Nat} {b : Bucket M α} (h : Good K ok w n csz x n k b) : Final K w n csz x k b ∧ b ≠ .all := by
  refine ⟨h.final, fun he => ?_⟩
  rcases h with ⟨_, e⟩ | ⟨_, m, e, _⟩ <;> rw [he] at e <;> exact nomatch e

theorem GoodO.new {K : Kind M α} {w : Nat → Int} {n csz : Nat} {x : M} {k : Nat} {b : Bucket M α} (h : GoodO K w n csz x n k b) : Final K w n csz x k b ∧ b ≠ .all := by
  refine ⟨h.final, fun he => ?_⟩
  obtain ⟨m, e, _⟩ := h
  rw [he] at e
  exact nomatch e

theorem allNew_range {K : Kind M α} {w : Nat → Int} {n csz : Nat} {x : M} {ria : Nat} {rp : Nat → Bucket M α} (h : ∀ k, k < ria → Final K w n csz x k (rp k) ∧ rp k ≠ .all) :
    AllNew K w n csz x ria ((List.range ria).map rp) := by
  refine ⟨by simp, fun k b hb => ?_⟩
  rw [List.getElem?_map] at hb
  by_cases hk : k < ria
  · rw [List.getElem?_range hk] at hb
    cases hb
    exact h k hk
  · rw [List.getElem?_eq_none (by simpa using hk)] at hb
    exact nomatch hb

theorem rest_spec {K : GKind M α} {ok : Nat → M → Prop} (L : GLawful K ok) {log : Nat} (hlog : K.log = log) (hB : log = 0 → K.notB = true) {cell : List Nat} {c : Cells} (hc : CellsOk log cell c) (d : Nat → α) {w : Nat → Int} {n ria : Nat} {x : M}
    (hx : ok (n * prod cell) x) (hw : ∀ i, i < n → -1 ≤ w i ∧ w i < ria) (hsz : n * c.width < 2^32) {neg : Nat} (hneg : neg = before w (-1) n) {sort : Bool} (hs : sort = true → ∀ i j, i < j → j < n → w i ≤ w j) :
    ∃ rs, rest K c d ria n neg sort w x = some rs ∧ AllNew K.toKind w n (prod cell) x ria rs := by
  obtain ⟨len, el, hlen⟩ := lens_spec (ria := ria) (w := w) (n := n) hw n 0 _ (by omega) (LenInv.start ria w)
  unfold rest
  rw [el]
  dsimp only [Option.bind]
  have hper : c.per K.log = prod cell := by rw [hlog]; exact hc.per
  have hcsz := hc.csz
  have hinv : ∀ {rp : Nat → Bucket M α}, (∀ k, k < ria → Good K.toKind ok w n (prod cell) x 0 k (rp k)) → Inv K.toKind ok w n (prod cell) x ria 0 (fun _ => 0) rp := fun h => ⟨fun _ _ => rfl, h⟩
  obtain ⟨rp, er, hr⟩ := allocAll_good L hcsz x hlen hsz ria (Nat.le_refl _)
  by_cases c1 : K.notB = true ∧ c.csz = 0
  · rw [if_pos c1, er]
    refine ⟨_, rfl, allNew_range fun k hk => ?_⟩
    have h0 : prod cell = 0 := by rw [← hcsz]; exact c1.2
    have hg := hr k hk
    rw [h0] at hg ⊢
    rcases hg with ⟨h0, e⟩ | ⟨h0, m, e, _, _⟩
    · rw [e]
      exact ⟨⟨h0.symm, fun i _ _ c hc => absurd hc (Nat.not_lt_zero c)⟩, fun h => nomatch h⟩
    · rw [e]
      exact ⟨⟨rfl, fun i _ _ c hc => absurd hc (Nat.not_lt_zero c)⟩, fun h => nomatch h⟩
  · rw [if_neg c1]
    by_cases c2 : K.notB = true ∧ sort = true
    · rw [if_pos c2, hper]
      have hb0 : neg = below w ((0 : Nat) : Int) n := by
        have h1 := below_succ w (-1) n
        rw [below_none (k := -1) (fun i hi => by have := (hw i hi).1; omega)] at h1
        rw [hneg]
        show _ = below w (-1 + 1) n
        rw [h1]
        omega
      obtain ⟨rp', e', h'⟩ := sorted_spec L hcsz hx (hs c2.2) hsz hlen ria 0 neg (fun _ => .empty) (by omega) hb0 (fun k hk => absurd hk (Nat.not_lt_zero k))
      rw [e']
      exact ⟨_, rfl, allNew_range fun k hk => (h' k hk).new⟩
    · rw [if_neg c2]
      by_cases c3 : K.notB = true ∧ 3 ≤ c.xl ∧ c.xl - 3 ≤ 3
      · rw [if_pos c3, er]
        have hz : prod cell ≠ 0 := fun h => c1 ⟨c3.1, by rw [hcsz]; exact h⟩
        have hcp : 2^c.xl / 2^K.log = prod cell := by rw [hlog]; exact hc.cpu hz c3.2.1 c3.2.2
        rw [hcp]
        obtain ⟨rp', e', h'⟩ := byCell_spec (K := K.toKind) (ok := ok) (w := w) (n := n) (csz := prod cell) (x := x) (ria := ria) (put := fun r p i => K.copy r (p * prod cell) x (i * prod cell) (prod cell))
          (fun i hi => (hw i hi).2) (fun nn r p i hr hi hp => L.copy nn _ r x _ _ _ hr hx hp (by
            have : (i + 1) * prod cell ≤ n * prod cell := Nat.mul_le_mul_right _ (by omega)
            rw [Nat.add_mul, Nat.one_mul] at this
            exact this)) n 0 _ rp (by omega) (hinv hr)
        refine ⟨(List.range ria).map rp', ?_, allNew_range fun k hk => (h' k hk).new⟩
        show Option.map _ (byCell _ ria w n 0 (fun _ => 0) rp) = _
        rw [e']
        rfl
      · rw [if_neg c3]
        by_cases c4 : c.xl = 0
        · rw [if_pos c4, er]
          by_cases hz : prod cell = 0
          · -- objects have 64 bits
            by_cases hb : K.notB = true
            · exact absurd ⟨hb, by rw [hcsz]; exact hz⟩ c1
            · exact absurd (hB (hc.log0 c4)) hb
          · have h1 := hc.bit hz c4
            rw [h1] at hx hr ⊢
            obtain ⟨rp', e', h'⟩ := byCell_spec (K := K.toKind) (ok := ok) (w := w) (n := n) (csz := 1) (x := x) (ria := ria) (put := fun r p i => K.one r p x i)
              (fun i hi => (hw i hi).2) (fun nn r p i hr hi hp => by
                obtain ⟨r', e, ho, hg⟩ := L.one nn _ r x p i hr hx (by omega) (by omega)
                refine ⟨r', e, ho, fun q hq => (hg q hq).trans ?_⟩
                by_cases hqp : q = p
                · rw [if_pos hqp, if_pos (by omega)]
                  congr 1
                  omega
                · rw [if_neg hqp, if_neg (by omega)]) n 0 _ rp (by omega) (⟨fun _ _ => rfl, hr⟩ : Inv K.toKind ok w n 1 x ria 0 (fun _ => 0) rp)
            refine ⟨(List.range ria).map rp', ?_, allNew_range fun k hk => (h' k hk).new⟩
            show Option.map _ (byCell _ ria w n 0 (fun _ => 0) rp) = _
            rw [e']
            rfl
        · rw [if_neg c4]
          have hl : ∀ k, k < ria → len (k + 1) = before w k n := by
            intro k hk
            have := hlen k (by omega) (by omega)
            rw [show ((k : Int) + 1).toNat = k + 1 by omega] at this
            exact this
          have hg0 : ∀ k, k < ria → GoodO K.toKind w n (prod cell) x 0 k (.objs (fresh d (len (k + 1) * c.csz)) (len (k + 1))) := by
            intro k hk
            rw [hl k hk, hcsz]
            exact ⟨_, rfl, by show ((List.range _).map d).length = _; simp, fun i hi => absurd hi (Nat.not_lt_zero i)⟩
          by_cases c5 : c.csz = 0
          · rw [if_pos c5]
            refine ⟨_, rfl, allNew_range fun k hk => ?_⟩
            obtain ⟨m, e, _, _⟩ := hg0 k hk
            rw [e, show prod cell = 0 by rw [← hcsz]; exact c5]
            exact ⟨⟨rfl, fun i _ _ c hc => absurd hc (Nat.not_lt_zero c)⟩, fun h => nomatch h⟩
          · rw [if_neg c5, hcsz]
            rw [hcsz] at hg0
            obtain ⟨rp', e', h'⟩ := byObj_spec L hx (fun i hi => (hw i hi).2) n 0 (fun _ => 0) _ (by omega) (fun _ _ => rfl) hg0
            rw [e']
            exact ⟨_, rfl, allNew_range fun k hk => (h' k hk).new⟩

theorem starts_lt {w : Nat → Int} {n : Nat} (hn : n < 2^31) {t : Nat} {rl : List (Nat × Nat)} (h : IsRuns w n t rl) : (rl.any fun p => decide (2^31 ≤ p.1 ∨ 2^31 ≤ p.2)) = false := by
  rw [List.any_eq_false]
  intro p hp
  have := h.bound p hp
  rw [decide_eq_true_iff]
  omega

theorem groupInts_spec {K : GKind M α} {ok : Nat → M → Prop} (L : GLawful K ok) {log : Nat} (hlog : K.log = log) (hB : log = 0 → K.notB = true) {n : Nat} {cell : List Nat} {c : Cells} (hc : n ≠ 0 → CellsOk log cell c) (d : Nat → α)
    {w : Nat → Int} {ria : Nat} {x : M} (hx : ok (n * prod cell) x) (hw : ∀ i, i < n → -1 ≤ w i ∧ w i < ria) (hn : n < 2^31) (hsz : n * c.width < 2^32) {s : Stats} (hs : StatsOk w n s) :
    ∃ rs, groupInts K c d ria n s w x = some rs ∧ AllFinal K.toKind w n (prod cell) x ria rs := by
  have hneg := hs.neg
  unfold groupInts
  by_cases c1 : ria = 0
  · rw [if_pos c1]
    exact ⟨[], rfl, c1.symm, fun k b h => nomatch h⟩
  · rw [if_neg c1]
    by_cases c2 : ria = 1 ∧ s.neg = 0
    · rw [if_pos c2]
      -- all indices are 0
      have h0 : ∀ i, i < n → w i = 0 := by
        intro i hi
        have h1 := hw i hi
        by_cases he : w i = -1
        · have := before_lt w (-1) hi he
          omega
        · omega
      refine ⟨[.all], rfl, c2.1.symm, fun k b hb => ?_⟩
      cases k with
      | zero =>
        cases hb
        refine ⟨(before_all h0).symm, fun i hi _ cc hcc => ?_⟩
        have : before w ((0 : Nat) : Int) i = i := before_all fun j hj => h0 j (by omega)
        rw [this]
        rfl
      | succ k => exact nomatch hb
    · rw [if_neg c2]
      by_cases c3 : s.neg = n
      · rw [if_pos c3]
        have h1 := before_all' (hneg.symm.trans c3)
        refine ⟨_, rfl, List.length_replicate, fun k b hb => ?_⟩
        rw [List.getElem?_replicate] at hb
        split at hb
        · cases hb
          have hne : ∀ i, i < n → w i ≠ k := fun i hi => by rw [h1 i hi]; omega
          exact ⟨(before_zero hne).symm, fun i hi hwi => absurd hwi (hne i hi)⟩
        · exact nomatch hb
      · rw [if_neg c3]
        have hc := hc fun h0 => c3 (by rw [hneg, h0]; rfl)
        by_cases c4 : 64 < n ∧ K.notB = true ∧ s.change < n * c.width / 32
        · rw [if_pos c4]
          dsimp only
          obtain ⟨t, ht, hpre, hruns⟩ := starts_spec w n
          generalize runs n _ = rl at hruns ⊢
          rw [starts_lt hn hruns, if_neg (by decide)]
          have hl0 : LenInv ria w t fun _ => 0 := by
            intro k hk1 hk2
            rw [before_zero fun i hi => by rw [hpre i hi]; omega]
          obtain ⟨len, el, hlen⟩ := chunkLens_spec hw rl t _ hruns hl0
          rw [el]
          dsimp only [Option.bind]
          obtain ⟨rp, er, hr⟩ := allocAll_good L hc.csz x hlen hsz ria (Nat.le_refl _)
          rw [er]
          dsimp only
          have hper : c.per K.log = prod cell := by rw [hlog]; exact hc.per
          have hinv : Inv K.toKind ok w n (prod cell) x ria 0 (fun _ => 0) rp := ⟨fun _ _ => rfl, hr⟩
          have hinv := hinv.skip (l := t) fun j _ h2 => by rw [hpre j (by omega)]; decide
          rw [Nat.zero_add] at hinv
          obtain ⟨rp', er', hr'⟩ := chunks_spec L hx (fun i hi => (hw i hi).2) hsz rl t _ rp hruns hinv
          rw [hper, er']
          exact ⟨_, rfl, AllNew.final <| allNew_range fun k hk => (hr' k hk).new⟩
        · rw [if_neg c4]
          by_cases c5 : 32 < n ∧ s.neg > (if c.bits then 0 else n / 16)
          · rw [if_pos c5]
            dsimp only
            have hm : ((List.range n).map fun i => decide (w i ≠ -1)).length = n := by simp
            obtain ⟨x', e', ho', hp'⟩ := slash_spec L hx _ hm
            rw [hc.csz, e']
            dsimp only [Option.bind]
            rw [rk_chosen w n n (Nat.le_refl _)] at ho' ⊢
            have hle : rk w n ≤ n := by
              have h1 := before_le (chosen ((List.range n).map fun i => decide (w i ≠ -1))) 1 n
              rw [rk_chosen w n n (Nat.le_refl _)] at h1
              exact h1
            -- the indices that are left
            have hw' : ∀ j, j < rk w n → ∃ i, i < n ∧ w i ≠ -1 ∧ rk w i = j ∧ (kept w n).getD j 0 = w i := by
              intro j hj
              obtain ⟨i, h1, h2, h3⟩ := kept_surj w n j hj
              exact ⟨i, h1, h2, h3, by rw [← h3]; exact kept_getD w h1 h2⟩
            have hnone : before (fun i => (kept w n).getD i 0) (-1) (rk w n) = 0 := before_zero fun j hj => by
              obtain ⟨i, _, h2, _, h4⟩ := hw' j hj
              show (kept w n).getD j 0 ≠ -1
              rw [h4]
              exact h2
            obtain ⟨rs, er, hr⟩ := rest_spec (ria := ria) (neg := 0) (sort := s.sort) L hlog hB hc d (w := fun i => (kept w n).getD i 0) ho'
              (fun j hj => by
                obtain ⟨i, h1, _, _, h4⟩ := hw' j hj
                show -1 ≤ (kept w n).getD j 0 ∧ (kept w n).getD j 0 < ria
                rw [h4]
                exact hw i h1)
              (Nat.lt_of_le_of_lt (Nat.mul_le_mul_right _ hle) hsz) hnone.symm
              (fun hsort j1 j2 h1 h2 => by
                obtain ⟨i1, a1, a2, a3, a4⟩ := hw' j1 (by omega)
                obtain ⟨i2, b1, b2, b3, b4⟩ := hw' j2 h2
                show (kept w n).getD j1 0 ≤ (kept w n).getD j2 0
                rw [a4, b4]
                exact hs.sort hsort i1 i2 (rk_lt w a2 b2 (by omega)) b1)
            refine ⟨rs, er, hr.1, fun k b hb => ?_⟩
            obtain ⟨⟨f1, f2⟩, f3⟩ := hr.2 k b hb
            have hkb := kept_before w n k (by omega)
            have hsize : b.size n = b.size (rk w n) := by
              cases b with
              | all => exact absurd rfl f3
              | empty => rfl
              | mem => rfl
              | objs => rfl
            have hget : ∀ q, b.get K.toKind x q = b.get K.toKind x' q := by
              intro q
              cases b with
              | all => exact absurd rfl f3
              | empty => rfl
              | mem => rfl
              | objs => rfl
            refine ⟨by rw [hsize, f1, hkb n (Nat.le_refl _)], fun i hi hwi cc hcc => ?_⟩
            have hne : w i ≠ -1 := by rw [hwi]; omega
            have hrk : rk w i < rk w n := by
              have h1 := rk_mono w (show i + 1 ≤ n by omega)
              have h2 : rk w (i + 1) = rk w i + 1 := by
                show rk w i + _ = _
                rw [if_pos hne]
              omega
            have := f2 (rk w i) hrk (by show (kept w n).getD (rk w i) 0 = k; rw [kept_getD w hi hne]; exact hwi) cc hcc
            rw [hkb i (by omega)] at this
            rw [hget, this]
            have := hp' i hi ((chosen_kept w hi).2 hne) cc hcc
            rw [rk_chosen w n i (by omega)] at this
            exact this
          · rw [if_neg c5]
            obtain ⟨rs, er, hr⟩ := rest_spec L hlog hB hc d hx hw hsz hneg hs.sort
            exact ⟨rs, er, hr.final⟩

end Verif.Group
