import Verif.HashMap.Model
/-! # Lemmas: the slots -/
namespace Verif.HashMap

/-- The slots are sorted by hash; an entry is not before its home, and there are no empty slots between. -/
structure Tab (sh sz : Nat) (a : Nat → Nat) : Prop where
  hsz : sz = 2^(64 - sh) + 32
  lo : 32 ≤ sh
  hi : sh ≤ 58
  le : ∀ p, p < sz → a p ≤ empty
  sorted : ∀ p q, p < q → q < sz → a p ≠ empty → a q ≠ empty → a p / W ≤ a q / W
  home : ∀ p, p < sz → a p ≠ empty → a p / 2^sh ≤ p
  run : ∀ p, p < sz → a p ≠ empty → ∀ r, a p / 2^sh ≤ r → r < p → a r ≠ empty
  inj : ∀ p q, p < sz → q < sz → a p ≠ empty → a p = a q → p = q

/-- The slots that are in use. -/
def Has (sz : Nat) (a : Nat → Nat) (u : Nat) : Prop := u ≠ empty ∧ ∃ p, p < sz ∧ a p = u

theorem div_sh {sh : Nat} (h : 32 ≤ sh) (u : Nat) : u / 2^sh = u / W / 2^(sh-32) := by
  rw [Nat.div_div_eq_div_mul]
  congr 1
  have : sh = 32 + (sh - 32) := by omega
  rw [show W = 2^32 from rfl, ← Nat.pow_add, ← this]

theorem home_mono {sh : Nat} (h : 32 ≤ sh) {u v : Nat} (hu : u / W ≤ v / W) : u / 2^sh ≤ v / 2^sh := by
  rw [div_sh h, div_sh h]; exact Nat.div_le_div_right hu

theorem home_lt {sh sz : Nat} (h1 : 32 ≤ sh) (h2 : sh ≤ 58) (hsz : sz = 2^(64-sh)+32) {u : Nat} (hu : u ≤ empty) : u / 2^sh + 32 < sz := by
  have : u / 2^sh < 2^(64-sh) := by
    rw [Nat.div_lt_iff_lt_mul (Nat.two_pow_pos sh), ← Nat.pow_add, show 64 - sh + sh = 64 by omega]
    have : (2:Nat)^64 = 18446744073709551616 := by decide
    unfold empty at hu
    omega
  omega

/-! ## making a larger table -/

structure Placed (sh : Nat) (a : Nat → Nat) (j : Nat) : Prop where
  le : ∀ p, a p ≤ empty
  free : ∀ p, j ≤ p → a p = empty
  prev : j = 0 ∨ a (j-1) ≠ empty
  sorted : ∀ p q, p < q → a p ≠ empty → a q ≠ empty → a p / W ≤ a q / W
  home : ∀ p, a p ≠ empty → a p / 2^sh ≤ p
  run : ∀ p, a p ≠ empty → ∀ r, a p / 2^sh ≤ r → r < p → a r ≠ empty
  inj : ∀ p q, a p ≠ empty → a p = a q → p = q

theorem upd_same (a : Nat → Nat) (i v : Nat) : upd a i v i = v := by unfold upd; rw [if_pos rfl]
theorem upd_other (a : Nat → Nat) {i j : Nat} (v : Nat) (h : j ≠ i) : upd a i v j = a j := by unfold upd; rw [if_neg h]

theorem placed_add {sh : Nat} (h32 : 32 ≤ sh) {a : Nat → Nat} {j h : Nat} (hp : Placed sh a j) (hne : h ≠ empty) (hle : h ≤ empty)
    (hs : ∀ p, a p ≠ empty → a p / W ≤ h / W) (hn : ∀ p, a p ≠ h) :
    Placed sh (upd a (if j < h / 2^sh then h / 2^sh else j) h) ((if j < h / 2^sh then h / 2^sh else j) + 1) := by
  generalize hq : (if j < h / 2^sh then h / 2^sh else j) = q
  have hqj : j ≤ q := by rw [← hq]; split <;> omega
  have hqh : h / 2^sh ≤ q := by rw [← hq]; split <;> omega
  have hlt : ∀ p, a p ≠ empty → p < j := fun p hp' => Classical.byContradiction fun h' => hp' (hp.free p (by omega))
  have hrun : ∀ r, h / 2^sh ≤ r → r < q → a r ≠ empty := by
    intro r h1 h2
    by_cases c : j < h / 2^sh
    · rw [if_pos c] at hq; omega
    · rw [if_neg c] at hq
      subst hq
      rcases hp.prev with h0 | h0
      · omega
      · by_cases d : r = j - 1
        · rw [d]; exact h0
        · exact hp.run (j-1) h0 r (Nat.le_trans (home_mono h32 (hs _ h0)) h1) (by omega)
  refine ⟨?_, ?_, ?_, ?_, ?_, ?_, ?_⟩
  · intro p
    by_cases c : p = q
    · rw [c, upd_same]; exact hle
    · rw [upd_other _ _ c]; exact hp.le p
  · intro p h1
    rw [upd_other _ _ (by omega)]; exact hp.free p (by omega)
  · right; rw [Nat.add_sub_cancel, upd_same]; exact hne
  · intro p r hpr
    by_cases c : r = q
    · subst c
      rw [upd_same, upd_other _ _ (by omega)]
      intro h1 _; exact hs p h1
    · by_cases d : p = q
      · subst d
        rw [upd_same, upd_other _ _ c]
        intro _ h2; have := hlt r h2; omega
      · rw [upd_other _ _ c, upd_other _ _ d]; exact hp.sorted p r hpr
  · intro p
    by_cases c : p = q
    · rw [c, upd_same]; intro _; exact hqh
    · rw [upd_other _ _ c]; exact hp.home p
  · intro p
    by_cases c : p = q
    · subst c
      rw [upd_same]
      intro _ r h1 h2
      rw [upd_other _ _ (by omega)]; exact hrun r h1 h2
    · rw [upd_other _ _ c]
      intro h0 r h1 h2
      have := hlt p h0
      rw [upd_other _ _ (by omega)]; exact hp.run p h0 r h1 h2
  · intro p r
    by_cases c : p = q
    · by_cases d : r = q
      · intro _ _; omega
      · rw [c, upd_same, upd_other _ _ d]; intro _ h1; exact absurd h1.symm (hn r)
    · by_cases d : r = q
      · rw [d, upd_same, upd_other _ _ c]; intro _ h1; exact absurd h1 (hn p)
      · rw [upd_other _ _ c, upd_other _ _ d]; exact hp.inj p r

theorem place_spec {sh sz0 : Nat} {old : Nat → Nat} (ht : Tab (sh+1) sz0 old) (h32 : 32 ≤ sh) :
    ∀ (fuel i j : Nat) (a : Nat → Nat), i + fuel = sz0 → Placed sh a j →
      (∀ u, (u ≠ empty ∧ ∃ p, a p = u) ↔ (u ≠ empty ∧ ∃ p, p < i ∧ old p = u)) →
      (j = 0 ∨ ∃ p, p < i ∧ old p ≠ empty ∧ j ≤ p + old p / 2^(sh+1) + 2) →
      ∃ a' j', place sh (size sh) old fuel i j a = some a' ∧ Placed sh a' j' ∧ j' ≤ size sh ∧
        (∀ u, (u ≠ empty ∧ ∃ p, a' p = u) ↔ (u ≠ empty ∧ ∃ p, p < sz0 ∧ old p = u))
  | 0, i, j, a, hi, hp, hh, hb => by
    refine ⟨a, j, rfl, hp, ?_, ?_⟩
    · have hs := ht.hsz
      unfold size
      rcases hb with rfl | ⟨p, h1, h2, h3⟩
      · exact Nat.zero_le _
      · have h4 := home_lt ht.lo ht.hi ht.hsz (ht.le p (by omega))
        have h5 : 2^(64-sh) = 2 * 2^(64-(sh+1)) := by
          rw [show 64 - sh = (64 - (sh+1)) + 1 by have := ht.hi; omega, Nat.pow_succ, Nat.mul_comm]
        omega
    · rw [show sz0 = i by omega]; exact hh
  | fuel+1, i, j, a, hi, hp, hh, hb => by
    rw [place]
    simp only []
    by_cases c : old i = empty
    · rw [if_pos c]
      apply place_spec ht h32 fuel (i+1) j a (by omega) hp
      · intro u
        rw [hh u]
        constructor
        · rintro ⟨h0, p, h1, h2⟩; exact ⟨h0, p, by omega, h2⟩
        · rintro ⟨h0, p, h1, h2⟩
          have : p ≠ i := by rintro rfl; exact h0 (h2 ▸ c)
          exact ⟨h0, p, by omega, h2⟩
      · rcases hb with h | ⟨p, h1, h2, h3⟩
        · exact .inl h
        · exact .inr ⟨p, by omega, h2, h3⟩
    · rw [if_neg c]
      have hle := ht.le i (by omega)
      have hmem : ∀ p, a p ≠ empty → ∃ q, q < i ∧ old q = a p := fun p h => ((hh (a p)).1 ⟨h, p, rfl⟩).2
      have hs : ∀ p, a p ≠ empty → a p / W ≤ old i / W := by
        intro p h
        obtain ⟨q, h1, h2⟩ := hmem p h
        rw [← h2]
        exact ht.sorted q i h1 (by omega) (by rw [h2]; exact h) c
      have hn : ∀ p, a p ≠ old i := by
        intro p h
        obtain ⟨q, h1, h2⟩ := hmem p (by rw [h]; exact c)
        have := ht.inj q i (by omega) (by omega) (by rw [h2, h]; exact c) (by rw [h2, h])
        omega
      have hpa := placed_add h32 hp c hle hs hn
      have hH : old i / 2^sh ≤ 2 * (old i / 2^(sh+1)) + 1 := by
        rw [Nat.pow_succ, ← Nat.div_div_eq_div_mul]; omega
      have hhome := ht.home i (by omega) c
      have hhl := home_lt ht.lo ht.hi ht.hsz hle
      have h5 : 2^(64-sh) = 2 * 2^(64-(sh+1)) := by
        rw [show 64 - sh = (64 - (sh+1)) + 1 by have := ht.hi; omega, Nat.pow_succ, Nat.mul_comm]
      have hq : (if j < old i / 2^sh then old i / 2^sh else j) ≤ i + old i / 2^(sh+1) + 1 := by
        split
        · omega
        · rcases hb with h | ⟨p, h1, h2, h3⟩
          · omega
          · have := home_mono ht.lo (ht.sorted p i h1 (by omega) h2 c)
            omega
      have hsz := ht.hsz
      rw [if_pos (by unfold size; omega)]
      apply place_spec ht h32 fuel (i+1) _ _ (by omega) hpa
      · intro u
        generalize hqq : (if j < old i / 2^sh then old i / 2^sh else j) = q at *
        have hfree : a q = empty := hp.free q (by rw [← hqq]; split <;> omega)
        constructor
        · rintro ⟨h0, p, h1⟩
          by_cases d : p = q
          · rw [d, upd_same] at h1; exact ⟨h0, i, by omega, h1⟩
          · rw [upd_other _ _ d] at h1
            obtain ⟨_, p', h2, h3⟩ := (hh u).1 ⟨h0, p, h1⟩
            exact ⟨h0, p', by omega, h3⟩
        · rintro ⟨h0, p, h1, h2⟩
          by_cases d : p = i
          · exact ⟨h0, q, by rw [upd_same, ← h2, d]⟩
          · obtain ⟨_, p', h3⟩ := (hh u).2 ⟨h0, p, by omega, h2⟩
            refine ⟨h0, p', ?_⟩
            rw [upd_other _ _ (by rintro rfl; exact h0 (by rw [← h3, hfree]))]; exact h3
      · exact .inr ⟨i, by omega, c, by omega⟩

theorem placed_tab {sh : Nat} (h32 : 32 ≤ sh) (h58 : sh ≤ 58) {a : Nat → Nat} {j : Nat} (hp : Placed sh a j) : Tab sh (size sh) a :=
  ⟨rfl, h32, h58, fun p _ => hp.le p, fun p q h _ => hp.sorted p q h, fun p _ => hp.home p, fun p _ => hp.run p,
    fun p q _ _ => hp.inj p q⟩

/-- A larger table has the same entries, or there is an error. -/
theorem resize_spec : ∀ (sh : Nat) (m : Map), m.sh = sh → Tab m.sh m.sz m.a →
    (resize sh m = some none ∧
      (sh = 32 ∨ ∃ a, Tab 32 (size 32) a ∧ a (size 32 - 1) ≠ empty ∧ ∀ u, Has (size 32) a u ↔ Has m.sz m.a u)) ∨
    ∃ m', resize sh m = some (some m') ∧ Tab m'.sh m'.sz m'.a ∧ m'.a (m'.sz - 1) = empty ∧ m'.pop = m.pop ∧
      ∀ u, Has m'.sz m'.a u ↔ Has m.sz m.a u
  | 0, m, h, ht => absurd ht.lo (by omega)
  | sh+1, m, hs, ht => by
    rw [resize]
    by_cases c : sh < 32
    · rw [if_pos c]; exact .inl ⟨rfl, .inl (by have := ht.lo; omega)⟩
    · rw [if_neg c]
      rw [hs] at ht
      obtain ⟨a', j', h1, h2, h3, h4⟩ := place_spec ht (by omega) m.sz 0 0 (fun _ => empty) (by omega)
        ⟨fun _ => Nat.le_refl _, fun _ _ => rfl, .inl rfl, fun _ _ _ h => absurd rfl h, fun _ h => absurd rfl h,
          fun _ h => absurd rfl h, fun _ _ h => absurd rfl h⟩
        (fun u => ⟨fun ⟨h0, p, h⟩ => absurd h.symm h0, fun ⟨_, p, h, _⟩ => absurd h (by omega)⟩) (.inl rfl)
      have ht' : Tab sh (size sh) a' := placed_tab (by omega) (by have := ht.hi; omega) h2
      have hh : ∀ u, Has (size sh) a' u ↔ Has m.sz m.a u := by
        intro u
        unfold Has
        rw [← h4 u]
        constructor
        · rintro ⟨h0, p, _, h⟩; exact ⟨h0, p, h⟩
        · rintro ⟨h0, p, h⟩
          refine ⟨h0, p, ?_, h⟩
          apply Classical.byContradiction
          intro hge
          exact h0 (by rw [← h]; exact h2.free p (by omega))
      rw [h1, Option.bind_some]
      by_cases d : a' (size sh - 1) = empty
      · rw [if_pos d]
        exact .inr ⟨⟨m.pop, sh, size sh, a'⟩, rfl, ht', d, rfl, hh⟩
      · rw [if_neg d]
        rcases resize_spec sh ⟨m.pop, sh, size sh, a'⟩ rfl ht' with ⟨h, h'⟩ | ⟨m', e1, e2, e3, e4, e5⟩
        · refine .inl ⟨h, .inr ?_⟩
          rcases h' with h' | ⟨a, q1, q2, q3⟩
          · rw [h'] at ht' d hh
            exact ⟨a', ht', d, hh⟩
          · exact ⟨a, q1, q2, fun u => (q3 u).trans (hh u)⟩
        · exact .inr ⟨m', e1, e2, e3, e4, fun u => (e5 u).trans (hh u)⟩

/-! ## inserting -/

theorem shift_spec (sz : Nat) (a : Nat → Nat) (e : Nat) (he : e < sz) (hE : a e = empty) : ∀ (fuel : Nat) (b : Nat → Nat) (je : Nat),
    je ≤ e → e - je < fuel → (∀ r, je < r → b r = a r) → (∀ r, je ≤ r → r < e → a r ≠ empty) →
    ∃ c, shift sz fuel b je (a je) = some (c, e) ∧ ∀ r, c r = if je < r ∧ r ≤ e then a (r-1) else b r
  | 0, _, _, _, h, _, _ => absurd h (by omega)
  | fuel+1, b, je, h1, h2, h3, h4 => by
    rw [shift]
    by_cases c : je = e
    · rw [c, if_pos hE]
      exact ⟨b, rfl, fun r => by rw [if_neg (by omega)]⟩
    · rw [if_neg (h4 je (Nat.le_refl _) (by omega)), if_pos (by omega), h3 (je+1) (by omega)]
      obtain ⟨d, h5, h6⟩ := shift_spec sz a e he hE fuel (upd b (je+1) (a je)) (je+1) (by omega) (by omega)
        (fun r hr => by rw [upd_other _ _ (by omega)]; exact h3 r (by omega)) (fun r hr => h4 r (by omega))
      refine ⟨d, h5, fun r => ?_⟩
      rw [h6 r]
      by_cases q : je + 1 < r ∧ r ≤ e
      · rw [if_pos q, if_pos ⟨by omega, q.2⟩]
      · rw [if_neg q]
        by_cases w : r = je + 1
        · rw [w, upd_same, if_pos ⟨by omega, by omega⟩, Nat.add_sub_cancel]
        · rw [upd_other _ _ w, if_neg (by omega)]

/-- The slots after an insertion at `j`, with the empty slot `e` used up. -/
def ins (a : Nat → Nat) (j e x : Nat) : Nat → Nat := fun r => if r = j then x else if j < r ∧ r ≤ e then a (r-1) else a r

theorem first_empty {sz : Nat} {a : Nat → Nat} (hlast : a (sz-1) = empty) : ∀ (d j : Nat), j + d = sz - 1 →
    ∃ e, j ≤ e ∧ e ≤ sz - 1 ∧ a e = empty ∧ ∀ r, j ≤ r → r < e → a r ≠ empty
  | 0, j, h => ⟨j, by omega, by omega, by rw [show j = sz - 1 by omega]; exact hlast, fun r h1 h2 => by omega⟩
  | d+1, j, h => by
    by_cases c : a j = empty
    · exact ⟨j, by omega, by omega, c, fun r h1 h2 => by omega⟩
    · obtain ⟨e, h1, h2, h3, h4⟩ := first_empty hlast d (j+1) (by omega)
      refine ⟨e, by omega, h2, h3, fun r h5 h6 => ?_⟩
      by_cases q : r = j
      · rw [q]; exact c
      · exact h4 r (by omega) h6

/-- Where an entry with slot `x` may be inserted. -/
structure Spot (sh sz : Nat) (a : Nat → Nat) (j x : Nat) : Prop where
  lt : j < sz
  home : x / 2^sh ≤ j
  run : ∀ r, x / 2^sh ≤ r → r < j → a r ≠ empty
  before : ∀ p, p < j → a p ≠ empty → a p / W ≤ x / W
  after : ∀ p, j ≤ p → p < sz → a p ≠ empty → x / W ≤ a p / W

theorem ins_tab {sh sz : Nat} {a : Nat → Nat} (ht : Tab sh sz a) {j e x : Nat} (hs : Spot sh sz a j x) (hje : j ≤ e) (he : e < sz)
    (hE : a e = empty) (hne : ∀ r, j ≤ r → r < e → a r ≠ empty) (hx : x ≤ empty) (hx' : x ≠ empty) (hnew : ¬ Has sz a x) :
    Tab sh sz (ins a j e x) ∧ ∀ u, Has sz (ins a j e x) u ↔ Has sz a u ∨ u = x := by
  have hlow : ∀ r, r < j → ins a j e x r = a r := fun r h => by
    unfold ins; rw [if_neg (by omega), if_neg (by omega)]
  have hat : ins a j e x j = x := by unfold ins; rw [if_pos rfl]
  have hmid : ∀ r, j < r → r ≤ e → ins a j e x r = a (r-1) := fun r h1 h2 => by
    unfold ins; rw [if_neg (by omega), if_pos ⟨h1, h2⟩]
  have hhigh : ∀ r, e < r → ins a j e x r = a r := fun r h => by
    unfold ins; rw [if_neg (by omega), if_neg (by omega)]
  have hcase : ∀ r, (r < j ∧ ins a j e x r = a r) ∨ (r = j ∧ ins a j e x r = x) ∨ (j < r ∧ r ≤ e ∧ ins a j e x r = a (r-1)) ∨
      (e < r ∧ ins a j e x r = a r) := by
    intro r
    by_cases c1 : r < j
    · exact .inl ⟨c1, hlow r c1⟩
    · by_cases c2 : r = j
      · exact .inr (.inl ⟨c2, by rw [c2]; exact hat⟩)
      · by_cases c3 : r ≤ e
        · exact .inr (.inr (.inl ⟨by omega, c3, hmid r (by omega) c3⟩))
        · exact .inr (.inr (.inr ⟨by omega, hhigh r (by omega)⟩))
  have hhas : ∀ p, p < sz → a p ≠ empty → a p ≠ x := fun p hp h0 h1 => hnew ⟨hx', p, hp, h1⟩
  have hfull : ∀ r, j ≤ r → r ≤ e → ins a j e x r ≠ empty := by
    intro r h1 h2
    rcases hcase r with h | h | h | h
    · omega
    · rw [h.2]; exact hx'
    · rw [h.2.2]; exact hne (r-1) (by omega) (by omega)
    · omega
  have hkeep : ∀ r, a r ≠ empty → ins a j e x r ≠ empty := by
    intro r h0
    by_cases c : j ≤ r ∧ r ≤ e
    · exact hfull r c.1 c.2
    · rcases hcase r with h | h | h | h
      · rw [h.2]; exact h0
      · omega
      · omega
      · rw [h.2]; exact h0
  refine ⟨⟨ht.hsz, ht.lo, ht.hi, ?_, ?_, ?_, ?_, ?_⟩, ?_⟩
  · intro p hp
    rcases hcase p with h | h | h | h
    · rw [h.2]; exact ht.le p hp
    · rw [h.2]; exact hx
    · rw [h.2.2]; exact ht.le _ (by omega)
    · rw [h.2]; exact ht.le p hp
  · intro p q hpq hq h1 h2
    rcases hcase p with h | h | h | h
    · rw [h.2] at h1 ⊢
      rcases hcase q with g | g | g | g
      · rw [g.2] at h2 ⊢; exact ht.sorted p q hpq hq h1 h2
      · rw [g.2]; exact hs.before p h.1 h1
      · rw [g.2.2] at h2 ⊢; exact ht.sorted p (q-1) (by omega) (by omega) h1 h2
      · rw [g.2] at h2 ⊢; exact ht.sorted p q hpq hq h1 h2
    · rw [h.2]
      rcases hcase q with g | g | g | g
      · omega
      · omega
      · rw [g.2.2] at h2 ⊢; exact hs.after (q-1) (by omega) (by omega) h2
      · rw [g.2] at h2 ⊢; exact hs.after q (by omega) hq h2
    · rw [h.2.2] at h1 ⊢
      rcases hcase q with g | g | g | g
      · omega
      · omega
      · rw [g.2.2] at h2 ⊢; exact ht.sorted (p-1) (q-1) (by omega) (by omega) h1 h2
      · rw [g.2] at h2 ⊢; exact ht.sorted (p-1) q (by omega) hq h1 h2
    · rw [h.2] at h1 ⊢
      rcases hcase q with g | g | g | g
      · omega
      · omega
      · omega
      · rw [g.2] at h2 ⊢; exact ht.sorted p q hpq hq h1 h2
  · intro p hp h1
    rcases hcase p with h | h | h | h
    · rw [h.2] at h1 ⊢; exact ht.home p hp h1
    · rw [h.2, h.1]; exact hs.home
    · rw [h.2.2] at h1 ⊢; have := ht.home (p-1) (by omega) h1; omega
    · rw [h.2] at h1 ⊢; exact ht.home p hp h1
  · intro p hp h1 r hr hrp
    rcases hcase p with h | h | h | h
    · rw [h.2] at h1 hr; exact hkeep r (ht.run p hp h1 r hr hrp)
    · rw [h.2] at hr; exact hkeep r (hs.run r hr (by omega))
    · rw [h.2.2] at h1 hr
      by_cases c : r = p - 1
      · exact hfull r (by omega) (by omega)
      · exact hkeep r (ht.run (p-1) (by omega) h1 r hr (by omega))
    · rw [h.2] at h1 hr; exact hkeep r (ht.run p hp h1 r hr hrp)
  · intro p q hp hq h1 hpq
    have key : ∀ r, r < sz → ins a j e x r ≠ empty → ∃ s, s < sz ∧ (ins a j e x r = x ∧ r = j ∨ ins a j e x r = a s ∧ a s ≠ empty ∧
        ((r < j ∧ s = r) ∨ (j < r ∧ r ≤ e ∧ s = r-1) ∨ (e < r ∧ s = r))) := by
      intro r hr h0
      rcases hcase r with h | h | h | h
      · exact ⟨r, hr, .inr ⟨h.2, by rw [← h.2]; exact h0, .inl ⟨h.1, rfl⟩⟩⟩
      · exact ⟨r, hr, .inl ⟨h.2, h.1⟩⟩
      · exact ⟨r-1, by omega, .inr ⟨h.2.2, by rw [← h.2.2]; exact h0, .inr (.inl ⟨h.1, h.2.1, rfl⟩)⟩⟩
      · exact ⟨r, hr, .inr ⟨h.2, by rw [← h.2]; exact h0, .inr (.inr ⟨h.1, rfl⟩)⟩⟩
    obtain ⟨s, hs1, hs2⟩ := key p hp h1
    obtain ⟨t, ht1, ht2⟩ := key q hq (by rw [← hpq]; exact h1)
    rcases hs2 with ⟨e1, e2⟩ | ⟨e1, e2, e3⟩
    · rcases ht2 with ⟨f1, f2⟩ | ⟨f1, f2, f3⟩
      · omega
      · exact absurd (by rw [← f1, ← hpq, e1]) (hhas t ht1 f2)
    · rcases ht2 with ⟨f1, f2⟩ | ⟨f1, f2, f3⟩
      · exact absurd (by rw [← e1, hpq, f1]) (hhas s hs1 e2)
      · have := ht.inj s t hs1 ht1 e2 (by rw [← e1, ← f1, hpq])
        omega
  · intro u
    constructor
    · rintro ⟨h0, p, hp, h1⟩
      rcases hcase p with h | h | h | h
      · exact .inl ⟨h0, p, hp, by rw [← h.2]; exact h1⟩
      · exact .inr (by rw [← h1, h.2])
      · exact .inl ⟨h0, p-1, by omega, by rw [← h.2.2]; exact h1⟩
      · exact .inl ⟨h0, p, hp, by rw [← h.2]; exact h1⟩
    · rintro (⟨h0, p, hp, h1⟩ | rfl)
      · have hpe : p ≠ e := by rintro rfl; exact h0 (by rw [← h1, hE])
        by_cases c1 : p < j
        · exact ⟨h0, p, hp, by rw [hlow p c1]; exact h1⟩
        · by_cases c2 : p < e
          · exact ⟨h0, p+1, by omega, by rw [hmid (p+1) (by omega) (by omega), Nat.add_sub_cancel]; exact h1⟩
          · exact ⟨h0, p, hp, by rw [hhigh p (by omega)]; exact h1⟩
      · exact ⟨hx', j, hs.lt, hat⟩

/-- Only the last slot may have been used up. -/
theorem ins_last {sz : Nat} {a : Nat → Nat} {j e x : Nat} (hlast : a (sz-1) = empty) (hje : j ≤ e) (he : e ≠ sz - 1) (hes : e < sz) :
    ins a j e x (sz-1) = empty := by
  unfold ins
  rw [if_neg (by omega), if_neg (by omega)]; exact hlast

/-! ## deleting -/

/-- The slots after deleting the entry at `j`; `e` is the first later slot that is empty or holds an entry at its home. -/
def del (a : Nat → Nat) (j e : Nat) : Nat → Nat := fun r => if r = e - 1 then empty else if j ≤ r ∧ r < e - 1 then a (r+1) else a r

theorem unshift_spec (sh sz : Nat) (a : Nat → Nat) (e : Nat) (he : e < sz) (hE : a e = empty ∨ a e / 2^sh = e) : ∀ (fuel : Nat) (b : Nat → Nat) (j : Nat),
    j < e → e - j ≤ fuel → (∀ r, j < r → b r = a r) → (∀ r, j < r → r < e → a r ≠ empty ∧ a r / 2^sh ≠ r) →
    ∃ c, unshift sh sz fuel b j = some c ∧ ∀ r, c r = if r = e - 1 then empty else if j ≤ r ∧ r < e - 1 then a (r+1) else b r
  | 0, _, _, h1, h2, _, _ => absurd h2 (by omega)
  | fuel+1, b, j, h1, h2, h3, h4 => by
    rw [unshift, if_pos (by omega), h3 (j+1) (by omega)]
    simp only []
    by_cases c : j + 1 = e
    · have hu : (if a (j+1) / 2^sh = j+1 then empty else a (j+1)) = empty := by
        rw [c]
        rcases hE with h | h
        · rw [h]; split <;> rfl
        · rw [if_pos h]
      rw [hu, if_pos rfl]
      refine ⟨_, rfl, fun r => ?_⟩
      by_cases d : r = j
      · rw [d, upd_same, if_pos (by omega)]
      · rw [upd_other _ _ d, if_neg (by omega), if_neg (by omega)]
    · obtain ⟨h5, h6⟩ := h4 (j+1) (by omega) (by omega)
      rw [if_neg h6, if_neg h5]
      obtain ⟨d, h7, h8⟩ := unshift_spec sh sz a e he hE fuel (upd b j (a (j+1))) (j+1) (by omega) (by omega)
        (fun r hr => by rw [upd_other _ _ (by omega)]; exact h3 r (by omega)) (fun r hr => h4 r (by omega))
      refine ⟨d, h7, fun r => ?_⟩
      rw [h8 r]
      by_cases q : r = e - 1
      · rw [if_pos q, if_pos q]
      · rw [if_neg q, if_neg q]
        by_cases w : j + 1 ≤ r ∧ r < e - 1
        · rw [if_pos w, if_pos ⟨by omega, w.2⟩]
        · rw [if_neg w]
          by_cases z : r = j
          · rw [z, upd_same, if_pos ⟨by omega, by omega⟩]
          · rw [upd_other _ _ z, if_neg (by omega)]

theorem first_stop {sh sz : Nat} {a : Nat → Nat} (hlast : a (sz-1) = empty) : ∀ (d j : Nat), j + d = sz - 1 →
    ∃ e, j ≤ e ∧ e ≤ sz - 1 ∧ (a e = empty ∨ a e / 2^sh = e) ∧ ∀ r, j ≤ r → r < e → a r ≠ empty ∧ a r / 2^sh ≠ r
  | 0, j, h => ⟨j, by omega, by omega, .inl (by rw [show j = sz - 1 by omega]; exact hlast), fun r h1 h2 => by omega⟩
  | d+1, j, h => by
    by_cases c : a j = empty ∨ a j / 2^sh = j
    · exact ⟨j, by omega, by omega, c, fun r h1 h2 => by omega⟩
    · obtain ⟨e, h1, h2, h3, h4⟩ := first_stop (sh := sh) hlast d (j+1) (by omega)
      refine ⟨e, by omega, h2, h3, fun r h5 h6 => ?_⟩
      by_cases q : r = j
      · rw [q]; exact ⟨fun h => c (.inl h), fun h => c (.inr h)⟩
      · exact h4 r (by omega) h6

theorem del_tab {sh sz : Nat} {a : Nat → Nat} (ht : Tab sh sz a) {j e : Nat} (hje : j < e) (he : e < sz)
    (hE : a e = empty ∨ a e / 2^sh = e) (hne : ∀ r, j < r → r < e → a r ≠ empty ∧ a r / 2^sh ≠ r) (hj : a j ≠ empty) :
    Tab sh sz (del a j e) ∧ ∀ u, Has sz (del a j e) u ↔ Has sz a u ∧ u ≠ a j := by
  have hend : del a j e (e-1) = empty := by unfold del; rw [if_pos rfl]
  have hmid : ∀ r, j ≤ r → r < e - 1 → del a j e r = a (r+1) := fun r h1 h2 => by
    unfold del; rw [if_neg (by omega), if_pos ⟨h1, h2⟩]
  have hout : ∀ r, (r < j ∨ e ≤ r) → del a j e r = a r := fun r h => by
    unfold del; rw [if_neg (by omega), if_neg (by omega)]
  have hcase : ∀ r, del a j e r ≠ empty → (r < j ∧ del a j e r = a r) ∨ (j ≤ r ∧ r < e - 1 ∧ del a j e r = a (r+1)) ∨
      (e ≤ r ∧ del a j e r = a r) := by
    intro r h0
    by_cases c1 : r < j
    · exact .inl ⟨c1, hout r (.inl c1)⟩
    · by_cases c2 : r < e - 1
      · exact .inr (.inl ⟨by omega, c2, hmid r (by omega) c2⟩)
      · by_cases c3 : e ≤ r
        · exact .inr (.inr ⟨c3, hout r (.inr c3)⟩)
        · rw [show r = e - 1 by omega] at h0; exact absurd hend h0
  -- the old place of an entry
  have key : ∀ r, r < sz → del a j e r ≠ empty → ∃ s, s < sz ∧ del a j e r = a s ∧ a s ≠ empty ∧ s ≠ j ∧
      ((r < j ∧ s = r) ∨ (j ≤ r ∧ r < e - 1 ∧ s = r+1) ∨ (e ≤ r ∧ s = r)) := by
    intro r hr h0
    rcases hcase r h0 with h | h | h
    · exact ⟨r, hr, h.2, by rw [← h.2]; exact h0, by omega, .inl ⟨h.1, rfl⟩⟩
    · exact ⟨r+1, by omega, h.2.2, by rw [← h.2.2]; exact h0, by omega, .inr (.inl ⟨h.1, h.2.1, rfl⟩)⟩
    · exact ⟨r, hr, h.2, by rw [← h.2]; exact h0, by omega, .inr (.inr ⟨h.1, rfl⟩)⟩
  refine ⟨⟨ht.hsz, ht.lo, ht.hi, ?_, ?_, ?_, ?_, ?_⟩, ?_⟩
  · intro p hp
    by_cases c : del a j e p = empty
    · rw [c]; exact Nat.le_refl _
    · obtain ⟨s, h1, h2, _⟩ := key p hp c
      rw [h2]; exact ht.le s h1
  · intro p q hpq hq h1 h2
    obtain ⟨s, s1, s2, s3, s4, s5⟩ := key p (by omega) h1
    obtain ⟨t, t1, t2, t3, t4, t5⟩ := key q hq h2
    rw [s2, t2]
    exact ht.sorted s t (by omega) t1 s3 t3
  · intro p hp h1
    obtain ⟨s, s1, s2, s3, s4, s5⟩ := key p hp h1
    rw [s2]
    have hh := ht.home s s1 s3
    rcases s5 with h | h | h
    · omega
    · have := (hne s (by omega) (by omega)).2; omega
    · omega
  · intro p hp h1 r hr hrp
    obtain ⟨s, s1, s2, s3, s4, s5⟩ := key p hp h1
    rw [s2] at hr
    have hrun := ht.run s s1 s3
    have hstay : ∀ r, (r < j ∨ e ≤ r) → a r ≠ empty → del a j e r ≠ empty := fun r h h0 => by rw [hout r h]; exact h0
    rcases s5 with h | h | h
    · exact hstay r (by omega) (hrun r hr (by omega))
    · by_cases c : r < j
      · exact hstay r (.inl c) (hrun r hr (by omega))
      · rw [hmid r (by omega) (by omega)]; exact (hne (r+1) (by omega) (by omega)).1
    · -- the entry is after `e`, so its home is too
      have hhome : e ≤ a s / 2^sh := by
        by_cases c : s = e
        · rcases hE with h' | h'
          · rw [c] at s3; exact absurd h' s3
          · rw [c, h']; exact Nat.le_refl _
        · rcases hE with h' | h'
          · apply Classical.byContradiction
            intro hlt
            exact hrun e (by omega) (by omega) h'
          · have hee : a e ≠ empty := by
              intro h0
              apply hrun e ?_ (by omega) h0
              -- impossible home of an empty slot is harmless
              apply Classical.byContradiction
              intro hlt
              have hlt2 := home_lt ht.lo ht.hi ht.hsz (ht.le s s1)
              have : a s / 2^sh ≤ empty / 2^sh := Nat.div_le_div_right (ht.le s s1)
              rw [h0] at h'
              omega
            have := home_mono ht.lo (ht.sorted e s (by omega) s1 hee s3)
            omega
      exact hstay r (by omega) (hrun r hr (by omega))
  · intro p q hp hq h1 hpq
    obtain ⟨s, s1, s2, s3, s4, s5⟩ := key p hp h1
    obtain ⟨t, t1, t2, t3, t4, t5⟩ := key q hq (by rw [← hpq]; exact h1)
    have := ht.inj s t s1 t1 s3 (by rw [← s2, ← t2, hpq])
    omega
  · intro u
    constructor
    · rintro ⟨h0, p, hp, h1⟩
      obtain ⟨s, s1, s2, s3, s4, s5⟩ := key p hp (by rw [h1]; exact h0)
      refine ⟨⟨h0, s, s1, by rw [← s2]; exact h1⟩, ?_⟩
      rintro rfl
      exact s4 (ht.inj s j s1 (by omega) s3 (by rw [← s2, h1]))
    · rintro ⟨⟨h0, p, hp, h1⟩, h2⟩
      have hpj : p ≠ j := by rintro rfl; exact h2 h1.symm
      by_cases c1 : p < j ∨ e ≤ p
      · exact ⟨h0, p, hp, by rw [hout p c1]; exact h1⟩
      · exact ⟨h0, p-1, by omega, by rw [hmid (p-1) (by omega) (by omega), Nat.sub_add_cancel (by omega)]; exact h1⟩

theorem del_last {sz : Nat} {a : Nat → Nat} {j e : Nat} (hlast : a (sz-1) = empty) (hje : j < e) (he : e < sz) :
    del a j e (sz-1) = empty := by
  unfold del
  split
  · rfl
  · rw [if_neg (by omega)]; exact hlast

/-! ## other indices -/

theorem tab_map {sh sz : Nat} {a b : Nat → Nat} (ht : Tab sh sz a) (h1 : ∀ p, p < sz → b p / W = a p / W)
    (h2 : ∀ p, p < sz → (b p = empty ↔ a p = empty)) (h3 : ∀ p q, p < sz → q < sz → b p ≠ empty → b p = b q → p = q) : Tab sh sz b := by
  have hd : ∀ p, p < sz → b p / 2^sh = a p / 2^sh := fun p hp => by rw [div_sh ht.lo, div_sh ht.lo, h1 p hp]
  refine ⟨ht.hsz, ht.lo, ht.hi, ?_, ?_, ?_, ?_, h3⟩
  · intro p hp
    have := ht.le p hp
    have := h1 p hp
    unfold W empty at *
    omega
  · intro p q hpq hq hp0 hq0
    rw [h1 p (by omega), h1 q hq]
    exact ht.sorted p q hpq hq (fun h => hp0 ((h2 p (by omega)).2 h)) (fun h => hq0 ((h2 q hq).2 h))
  · intro p hp h0
    rw [hd p hp]; exact ht.home p hp (fun h => h0 ((h2 p hp).2 h))
  · intro p hp h0 r hr hrp
    rw [hd p hp] at hr
    intro h
    exact ht.run p hp (fun h => h0 ((h2 p hp).2 h)) r hr hrp ((h2 r (by omega)).1 h)

theorem renumber_spec (ind : Nat → Option Nat) (f : Nat → Nat) : ∀ (fuel i : Nat) (a : Nat → Nat),
    (∀ p, i ≤ p → p < i + fuel → ind ((a p % W + 1) % W) = some (f (a p))) →
    ∃ b, renumber ind fuel i a = some b ∧ ∀ p, b p = if i ≤ p ∧ p < i + fuel then a p / W * W + f (a p) else a p
  | 0, i, a, _ => ⟨a, rfl, fun p => by rw [if_neg (by omega)]⟩
  | fuel+1, i, a, h => by
    rw [renumber, h i (Nat.le_refl _) (by omega), Option.bind_some]
    obtain ⟨b, h1, h2⟩ := renumber_spec ind f fuel (i+1) (upd a i (a i / W * W + f (a i)))
      (fun p hp hp' => by rw [upd_other _ _ (by omega)]; exact h p (by omega) (by omega))
    refine ⟨b, h1, fun p => ?_⟩
    rw [h2 p]
    by_cases c : p = i
    · rw [c, upd_same, if_neg (by omega), if_pos (by omega)]
    · rw [upd_other _ _ c]
      by_cases d : i + 1 ≤ p ∧ p < i + 1 + fuel
      · rw [if_pos d, if_pos (by omega)]
      · rw [if_neg d, if_neg (by omega)]

end Verif.HashMap
