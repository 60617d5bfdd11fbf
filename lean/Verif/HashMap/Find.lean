import Verif.HashMap.Table
/-! # Lemmas: finding and inserting keys -/
namespace Verif.HashMap
variable {K V : Type} [DecidableEq K]

/-- arithmetic with the constants as numbers -/
local macro "wo" : tactic => `(tactic| ((try simp only [W, empty] at *); omega))

/-- The slot of key `k` with index `i`. -/
def word (hash : K → Nat) (k : K) (i : Nat) : Nat := hash k / W * W + i

/-- The slots in use are those of the keys in `live`. -/
structure Link (hash : K → Nat) (live : Nat → Option K) (m : Map) : Prop where
  tab : Tab m.sh m.sz m.a
  has : ∀ u, Has m.sz m.a u ↔ ∃ i k, live i = some k ∧ u = word hash k i
  lt : ∀ i k, live i = some k → i < W - 1
  inj : ∀ i j k, live i = some k → live j = some k → i = j

theorem word_div (hash : K → Nat) (k : K) {i : Nat} (hi : i < W) : word hash k i / W = hash k / W := by
  unfold word; unfold W at *; omega
theorem word_mod (hash : K → Nat) (k : K) {i : Nat} (hi : i < W) : word hash k i % W = i := by
  unfold word; unfold W at *; omega
theorem word_lt {hash : K → Nat} (hh : ∀ k, hash k < 2^64) (k : K) {i : Nat} (hi : i < W - 1) : word hash k i < empty := by
  have := hh k
  rw [show (2:Nat)^64 = 18446744073709551616 from rfl] at this
  unfold word; unfold W empty at *; omega

theorem skip_spec (sz : Nat) (a : Nat → Nat) (v e : Nat) (he : e < sz) (hE : v ≤ a e) : ∀ (fuel j : Nat), j ≤ e → e - j < fuel →
    ∃ j1, skip sz a v fuel j = some j1 ∧ j ≤ j1 ∧ j1 ≤ e ∧ v ≤ a j1 ∧ ∀ r, j ≤ r → r < j1 → a r < v
  | 0, _, _, h => absurd h (by omega)
  | fuel+1, j, h1, h2 => by
    rw [skip, if_pos (by omega)]
    by_cases c : a j < v
    · have hne : j ≠ e := by rintro rfl; omega
      obtain ⟨j1, e1, e2, e3, e4, e5⟩ := skip_spec sz a v e he hE fuel (j+1) (by omega) (by omega)
      rw [if_pos c]
      refine ⟨j1, e1, by omega, e3, e4, fun r h3 h4 => ?_⟩
      by_cases d : r = j
      · rw [d]; exact c
      · exact e5 r (by omega) h4
    · rw [if_neg c]
      exact ⟨j, rfl, Nat.le_refl _, h1, by omega, fun r h3 h4 => by omega⟩

theorem look_spec (sz : Nat) (a : Nat → Nat) (keys : List (Option K)) (x : K) (v e : Nat) (he : e < sz) (hE : v + (W-1) ≤ a e) :
    ∀ (fuel j : Nat), j ≤ e → e - j < fuel → (∀ r, j ≤ r → r < e → a r < v + (W-1) → ∃ k, keys[a r % W]? = some k) →
    ∃ j2 o, look sz a keys x v fuel j = some (j2, o) ∧ j ≤ j2 ∧ j2 ≤ e ∧
      (∀ r, j ≤ r → r < j2 → a r < v + (W-1) ∧ keys[a r % W]? ≠ some (some x)) ∧
      ((o = none ∧ v + (W-1) ≤ a j2) ∨ (o = some (a j2 % W) ∧ a j2 < v + (W-1) ∧ keys[a j2 % W]? = some (some x)))
  | 0, _, _, h, _ => absurd h (by omega)
  | fuel+1, j, h1, h2, hk => by
    rw [look, if_pos (by omega)]
    by_cases c : a j < v + (W-1)
    · have hne : j ≠ e := by rintro rfl; omega
      rw [if_pos c]
      obtain ⟨k, hk'⟩ := hk j (Nat.le_refl _) (by omega) c
      rw [hk', Option.bind_some]
      by_cases d : k = some x
      · rw [if_pos d]
        exact ⟨j, _, rfl, Nat.le_refl _, h1, fun r h3 h4 => by omega, .inr ⟨rfl, c, by rw [hk', d]⟩⟩
      · rw [if_neg d]
        obtain ⟨j2, o, e1, e2, e3, e4, e5⟩ := look_spec sz a keys x v e he hE fuel (j+1) (by omega) (by omega)
          (fun r h3 h4 => hk r (by omega) h4)
        refine ⟨j2, o, e1, by omega, e3, fun r h3 h4 => ?_, e5⟩
        by_cases q : r = j
        · rw [q]; exact ⟨c, by rw [hk']; simpa using d⟩
        · exact e4 r (by omega) h4
    · rw [if_neg c]
      exact ⟨j, none, rfl, Nat.le_refl _, h1, fun r h3 h4 => by omega, .inl ⟨rfl, by omega⟩⟩

theorem vE {T : Nat} (h : T ≤ 4294967295) : T * W + (W-1) ≤ empty := by unfold W empty; omega

theorem find_spec {hash : K → Nat} (hh : ∀ k, hash k < 2^64) {live : Nat → Option K} {m : Map} (hl : Link hash live m)
    (hlast : m.a (m.sz - 1) = empty) {keys : List (Option K)} (hk : ∀ i k, live i = some k → keys[i]? = some (some k)) (x : K) :
    ∃ j o, find hash m keys x = some (j, o) ∧ j < m.sz ∧
      ((∃ i, o = some i ∧ live i = some x ∧ m.a j = word hash x i) ∨
       (o = none ∧ (∀ i, live i ≠ some x) ∧ ∀ i, i < W → Spot m.sh m.sz m.a j (word hash x i))) := by
  have ht := hl.tab
  have hx := hh x
  rw [show (2:Nat)^64 = 18446744073709551616 from rfl] at hx
  have hhome : ∀ i, i < W → word hash x i / 2^m.sh = hash x / 2^m.sh := fun i hi => by
    rw [div_sh ht.lo, word_div hash x hi, ← div_sh ht.lo]
  have hx' : hash x ≤ empty := by wo
  have hhl := home_lt ht.lo ht.hi ht.hsz hx'
  have hmono : ∀ p, hash x / W ≤ m.a p / W → hash x / 2^m.sh ≤ m.a p / 2^m.sh := fun p h => home_mono ht.lo h
  have hmono' : ∀ p, m.a p / W ≤ hash x / W → m.a p / 2^m.sh ≤ hash x / 2^m.sh := fun p h => home_mono ht.lo h
  have hT : hash x / W ≤ 4294967295 := by wo
  have hwd : ∀ i, i < W → word hash x i / W = hash x / W := fun i hi => word_div hash x hi
  have hwx : ∀ i, word hash x i = hash x / W * W + i := fun i => rfl
  unfold find
  simp only []
  generalize hash x / 2^m.sh = H at *
  generalize hash x / W = T at *
  obtain ⟨j1, e1, e2, e3, e4, e5⟩ := skip_spec m.sz m.a (T * W) (m.sz - 1) (by wo)
    (hlast ▸ by wo) (m.sz + 1) (H) (by wo) (by wo)
  have hent : ∀ p, p < m.sz → m.a p ≠ empty → ∃ i k, live i = some k ∧ m.a p = word hash k i :=
    fun p hp h0 => (hl.has (m.a p)).1 ⟨h0, p, hp, rfl⟩
  have hvE : T * W + (W-1) ≤ empty := vE hT
  obtain ⟨j2, o, f1, f2, f3, f4, f5⟩ := look_spec m.sz m.a keys x (T * W) (m.sz - 1) (by wo)
    (hlast ▸ hvE) (m.sz + 1) j1 (by wo) (by wo)
    (fun r _ hr h => by
      obtain ⟨i, k, h1, h2⟩ := hent r (by wo) (by wo)
      have hi := hl.lt i k h1
      rw [h2, word_mod hash k (by wo)]
      exact ⟨_, hk i k h1⟩)
  rw [e1, Option.bind_some]
  refine ⟨j2, o, f1, by wo, ?_⟩
  rcases f5 with ⟨ho, h1⟩ | ⟨ho, h1, h2⟩
  · right
    refine ⟨ho, ?_, ?_⟩
    · intro i hi
      have hilt := hl.lt i x hi
      obtain ⟨h0, p, hp, hpw⟩ := (hl.has (word hash x i)).2 ⟨i, x, hi, rfl⟩
      have hph := ht.home p hp (by rw [hpw]; exact h0)
      rw [hpw, hhome i (by wo)] at hph
      have hwv : T * W ≤ word hash x i := hwx i ▸ Nat.le_add_right _ _
      have hwv2 : word hash x i < T * W + (W-1) := by have := hwx i; wo
      have hp1 : j1 ≤ p := by
        apply Classical.byContradiction
        intro hc
        have := e5 p hph (by wo)
        wo
      have hp2 : j2 ≤ p := by
        apply Classical.byContradiction
        intro hc
        apply (f4 p hp1 (by wo)).2
        rw [hpw, word_mod hash x (by wo)]
        exact hk i x hi
      have hne : p ≠ j2 := by
        intro hc
        rw [hc] at hpw
        wo
      have hj2 : m.a j2 ≠ empty := ht.run p hp (by rw [hpw]; exact h0) j2 (by rw [hpw, hhome i (by wo)]; wo) (by wo)
      have hs := ht.sorted j2 p (by wo) hp hj2 (by rw [hpw]; exact h0)
      rw [hpw, hwd i (by wo)] at hs
      obtain ⟨i', k', h3, h4⟩ := hent j2 (by wo) hj2
      have hi' := hl.lt i' k' h3
      have h5 := word_mod hash k' (show i' < W by wo)
      rw [← h4] at h5
      wo
    · intro i hi
      refine ⟨by wo, by rw [hhome i hi]; wo, ?_, ?_, ?_⟩
      · intro r h3 h4
        rw [hhome i hi] at h3
        by_cases c : r < j1
        · have := e5 r h3 c; wo
        · have := (f4 r (by wo) h4).1; wo
      · intro p hp h0
        rw [hwd i hi]
        by_cases c : p < H
        · apply Classical.byContradiction
          intro hc
          have h6 := hmono p (by wo)
          have := ht.home p (by wo) h0
          wo
        · have : m.a p < T * W + (W-1) := by
            by_cases d : p < j1
            · exact Nat.lt_of_lt_of_le (e5 p (by wo) d) (Nat.le_add_right _ _)
            · exact (f4 p (by wo) hp).1
          wo
      · intro p hp hps h0
        rw [hwd i hi]
        have hj : m.a j2 ≠ empty → T ≤ m.a j2 / W := by
          intro _
          have : T * W ≤ m.a j2 := Nat.le_trans (Nat.le_add_right _ _) h1
          wo
        by_cases c : m.a j2 = empty
        · have hne : p ≠ j2 := by rintro rfl; exact h0 c
          apply Classical.byContradiction
          intro hc
          have h6 := hmono' p (by wo)
          exact ht.run p hps h0 j2 (by wo) (by wo) c
        · by_cases d : p = j2
          · rw [d]; exact hj c
          · exact Nat.le_trans (hj c) (ht.sorted j2 p (by wo) hps c h0)
  · left
    obtain ⟨i, k, h3, h4⟩ := hent j2 (by wo) (by wo)
    have hi := hl.lt i k h3
    rw [h4, word_mod hash k (by wo)] at h2 ho
    rw [hk i k h3] at h2
    have : k = x := by simpa using h2
    subst this
    exact ⟨i, ho, h3, h4⟩

/-- Inserting a new key with a new index. -/
theorem insert_spec {hash : K → Nat} (hh : ∀ k, hash k < 2^64) {live : Nat → Option K} {m : Map} (hl : Link hash live m)
    (hlast : m.a (m.sz - 1) = empty) {x : K} {i j : Nat} (hi : i < W - 1) (hj : Spot m.sh m.sz m.a j (word hash x i))
    (hx : ∀ q, live q ≠ some x) (hn : live i = none) :
    ∃ b e, insertAt hash m x j i = some (b, e) ∧
      Link hash (fun q => if q = i then some x else live q) { m with a := b } ∧ ((e = m.sz - 1 ∧ b (m.sz - 1) ≠ empty) ∨ (e ≠ m.sz - 1 ∧ b (m.sz - 1) = empty)) := by
  obtain ⟨e, h1, h2, h3, h4⟩ := first_empty hlast (m.sz - 1 - j) j (by have := hj.lt; omega)
  have hjl := hj.lt
  obtain ⟨c, h5, h6⟩ := shift_spec m.sz m.a e (by omega) h3 (m.sz + 1) m.a j h1 (by omega) (fun _ _ => rfl) h4
  have hb : upd c j (word hash x i) = ins m.a j e (word hash x i) := by
    funext r
    unfold upd ins
    split
    · rfl
    · rw [h6 r]
  have hw := word_lt hh x hi
  have hnew : ¬ Has m.sz m.a (word hash x i) := by
    intro h
    obtain ⟨q, k, h7, h8⟩ := (hl.has _).1 h
    have h9 := word_mod hash x (show i < W by omega)
    rw [h8, word_mod hash k (by have := hl.lt q k h7; omega)] at h9
    rw [h9, hn] at h7; cases h7
  obtain ⟨t1, t2⟩ := ins_tab hl.tab hj h1 (by omega) h3 h4 (by omega) (by omega) hnew
  refine ⟨upd c j (word hash x i), e, ?_, ⟨?_, ?_, ?_, ?_⟩, ?_⟩
  · unfold insertAt
    rw [h5, Option.map_some]; rfl
  · rw [hb]; exact t1
  · intro u
    show Has m.sz (upd c j (word hash x i)) u ↔ _
    rw [hb, t2 u, hl.has u]
    constructor
    · rintro (⟨q, k, h7, h8⟩ | h7)
      · have : q ≠ i := by rintro rfl; rw [hn] at h7; cases h7
        exact ⟨q, k, by rw [if_neg this]; exact h7, h8⟩
      · exact ⟨i, x, by rw [if_pos rfl], h7⟩
    · rintro ⟨q, k, h7, h8⟩
      by_cases d : q = i
      · rw [if_pos d] at h7
        have : x = k := by simpa using h7
        subst this
        exact .inr (by rw [h8, d])
      · rw [if_neg d] at h7; exact .inl ⟨q, k, h7, h8⟩
  · intro q k h7
    by_cases d : q = i
    · omega
    · simp only [if_neg d] at h7; exact hl.lt q k h7
  · intro q r k h7 h8
    by_cases d : q = i
    · by_cases d' : r = i
      · omega
      · simp only [if_pos d, if_neg d'] at h7 h8
        have : x = k := by simpa using h7
        subst this
        exact absurd h8 (hx r)
    · by_cases d' : r = i
      · simp only [if_neg d, if_pos d'] at h7 h8
        have : x = k := by simpa using h8
        subst this
        exact absurd h7 (hx q)
      · simp only [if_neg d, if_neg d'] at h7 h8; exact hl.inj q r k h7 h8
  · by_cases d : e = m.sz - 1
    · refine .inl ⟨d, ?_⟩
      rw [hb]
      unfold ins
      by_cases d' : m.sz - 1 = j
      · rw [if_pos d']; omega
      · rw [if_neg d', if_pos (by omega)]
        exact h4 _ (by omega) (by omega)
    · refine .inr ⟨d, ?_⟩
      rw [hb]; exact ins_last hlast h1 d (by omega)

theorem resize_link {hash : K → Nat} {live : Nat → Option K} {m : Map} (hl : Link hash live m) :
    (resize m.sh m = some none ∧ (m.sh = 32 ∨ ∃ a, Link hash live ⟨0, 32, size 32, a⟩ ∧ a (size 32 - 1) ≠ empty)) ∨
    ∃ m', resize m.sh m = some (some m') ∧ Link hash live m' ∧ m'.a (m'.sz - 1) = empty ∧ m'.pop = m.pop := by
  rcases resize_spec m.sh m rfl hl.tab with ⟨h, h'⟩ | ⟨m', e1, e2, e3, e4, e5⟩
  · refine .inl ⟨h, h'.imp id ?_⟩
    rintro ⟨a, q1, q2, q3⟩
    exact ⟨a, ⟨q1, fun u => (q3 u).trans (hl.has u), hl.lt, hl.inj⟩, q2⟩
  · exact .inr ⟨m', e1, ⟨e2, fun u => (e5 u).trans (hl.has u), hl.lt, hl.inj⟩, e3, e4⟩

/-- The start of the filled slots before the end. -/
theorem run_start {sz : Nat} {a : Nat → Nat} : ∀ (n : Nat), n ≤ sz → (∀ r, n ≤ r → r < sz → a r ≠ empty) →
    ∃ t, t ≤ n ∧ (∀ r, t ≤ r → r < sz → a r ≠ empty) ∧ (t = 0 ∨ a (t-1) = empty)
  | 0, _, h => ⟨0, Nat.le_refl _, h, .inl rfl⟩
  | n+1, hn, h => by
    by_cases c : a n = empty
    · exact ⟨n+1, Nat.le_refl _, h, .inr c⟩
    · obtain ⟨t, h1, h2⟩ := run_start n (by omega) (fun r (h1 : n ≤ r) (h2 : r < sz) => by
        by_cases d : r = n
        · rw [d]; exact c
        · exact h r (by omega) h2)
      exact ⟨t, by omega, h2⟩

/-- If the last slot is in use, many keys have high hashes. -/
theorem crowd {hash : K → Nat} (hh : ∀ k, hash k < 2^64) {live : Nat → Option K} {m : Map} (hl : Link hash live m)
    (hlast : m.a (m.sz - 1) ≠ empty) :
    ∃ (t : Nat) (l : List K), t + 32 < m.sz ∧ l.length = m.sz - t ∧ l.Nodup ∧ ∀ k ∈ l, (∃ i, live i = some k) ∧ t ≤ hash k / 2^m.sh := by
  have ht := hl.tab
  have hsz : 32 ≤ m.sz := by have := ht.hsz; have := Nat.two_pow_pos (64 - m.sh); omega
  obtain ⟨t, h1, h2, h3⟩ := run_start (a := m.a) (m.sz - 1) (by omega) (fun r (h1 : m.sz - 1 ≤ r) (h2 : r < m.sz) => by
    rw [show r = m.sz - 1 by omega]; exact hlast)
  have hhome : ∀ p, t ≤ p → p < m.sz → t ≤ m.a p / 2^m.sh := by
    intro p h4 h5
    rcases h3 with h3 | h3
    · rw [h3]; exact Nat.zero_le _
    · apply Classical.byContradiction
      intro hc
      have h6 : m.a p / 2^m.sh < t := Nat.lt_of_not_le hc
      have h7 : t ≠ 0 := fun h => Nat.not_lt_zero _ (h ▸ h6)
      exact ht.run p h5 (h2 p h4 h5) (t-1) (Nat.le_pred_of_lt h6) (by omega) h3
  have hlt := home_lt ht.lo ht.hi ht.hsz (ht.le (m.sz - 1) (by omega))
  have hl1 := hhome (m.sz - 1) h1 (by omega)
  have key : ∀ d, d ≤ m.sz - t → ∃ l : List K, l.length = d ∧ l.Nodup ∧
      ∀ k ∈ l, ∃ i p, live i = some k ∧ m.sz - d ≤ p ∧ p < m.sz ∧ m.a p = word hash k i := by
    intro d
    induction d with
    | zero => exact fun _ => ⟨[], rfl, List.nodup_nil, fun k h => nomatch h⟩
    | succ d ih =>
      intro hd
      obtain ⟨l, e1, e2, e3⟩ := ih (by omega)
      obtain ⟨i, k, e4, e5⟩ := (hl.has (m.a (m.sz - (d+1)))).1 ⟨h2 _ (by omega) (by omega), _, by omega, rfl⟩
      refine ⟨k :: l, by simp [e1], ?_, ?_⟩
      · rw [List.nodup_cons]
        refine ⟨fun hm => ?_, e2⟩
        obtain ⟨i', p, f1, f2, f3, f4⟩ := e3 k hm
        rw [hl.inj i' i k f1 e4, ← e5] at f4
        have := ht.inj p (m.sz - (d+1)) f3 (by omega) (h2 _ (by omega) f3) f4
        omega
      · intro q hq
        rcases List.mem_cons.1 hq with hq | hq
        · subst hq; exact ⟨i, _, e4, Nat.le_refl _, by omega, e5⟩
        · obtain ⟨i', p, f1, f2, f3, f4⟩ := e3 q hq
          exact ⟨i', p, f1, by omega, f3, f4⟩
  obtain ⟨l, e1, e2, e3⟩ := key (m.sz - t) (Nat.le_refl _)
  refine ⟨t, l, by omega, e1, e2, fun k hk => ?_⟩
  obtain ⟨i, p, f1, f2, f3, f4⟩ := e3 k hk
  refine ⟨⟨i, f1⟩, ?_⟩
  have := hhome p (by omega) f3
  rw [f4, div_sh ht.lo, word_div hash k (by have := hl.lt i k f1; wo), ← div_sh ht.lo] at this
  exact this

/-- Keys whose hashes leave no slot for them in the largest table. -/
def Crowd (hash : K → Nat) (P : K → Prop) : Prop :=
  ∃ (t : Nat) (l : List K), t < W ∧ l.length = W + 32 - t ∧ l.Nodup ∧ ∀ k ∈ l, P k ∧ t ≤ hash k / W

theorem crowd_top {hash : K → Nat} (hh : ∀ k, hash k < 2^64) {live : Nat → Option K} {m : Map} (hl : Link hash live m) (h32 : m.sh = 32)
    (hlast : m.a (m.sz - 1) ≠ empty) : Crowd hash (fun k => ∃ i, live i = some k) := by
  obtain ⟨t, l, h1, h2, h3, h4⟩ := crowd hh hl hlast
  have hsz := hl.tab.hsz
  rw [h32] at hsz h4
  rw [show (2:Nat)^(64-32) = 4294967296 from rfl] at hsz
  rw [show (2:Nat)^32 = W from rfl] at h4
  exact ⟨t, l, by wo, by wo, h3, h4⟩

/-- Deleting a key. -/
theorem remove_spec {hash : K → Nat} {live : Nat → Option K} {m : Map} (hl : Link hash live m)
    (hlast : m.a (m.sz - 1) = empty) {x : K} {i j : Nat} (hj : j < m.sz) (hi : live i = some x) (ha : m.a j = word hash x i)
    (hh : ∀ k, hash k < 2^64) :
    ∃ b, unshift m.sh m.sz (m.sz + 1) m.a j = some b ∧
      (∀ p, Link hash (fun q => if q = i then none else live q) { m with a := b, pop := p }) ∧ b (m.sz - 1) = empty := by
  have hilt := hl.lt i x hi
  have hw := word_lt hh x hilt
  have hjl : j ≠ m.sz - 1 := by rintro rfl; omega
  obtain ⟨e, h1, h2, h3, h4⟩ := first_stop (sh := m.sh) hlast (m.sz - 1 - (j+1)) (j+1) (by omega)
  obtain ⟨c, h5, h6⟩ := unshift_spec m.sh m.sz m.a e (by omega) h3 (m.sz + 1) m.a j (by omega) (by omega) (fun _ _ => rfl)
    (fun r hr => h4 r (by omega))
  have hb : c = del m.a j e := by funext r; rw [h6 r]; rfl
  obtain ⟨t1, t2⟩ := del_tab hl.tab (show j < e by omega) (by omega) h3 (fun r hr => h4 r (by omega)) (by omega)
  refine ⟨c, h5, fun p => ⟨?_, ?_, ?_, ?_⟩, ?_⟩
  · rw [hb]; exact t1
  · intro u
    show Has m.sz c u ↔ _
    rw [hb, t2 u, hl.has u, ha]
    constructor
    · rintro ⟨⟨q, k, h7, h8⟩, h9⟩
      have : q ≠ i := by
        rintro rfl
        rw [hi] at h7
        have : x = k := by simpa using h7
        subst this
        exact h9 h8
      exact ⟨q, k, by rw [if_neg this]; exact h7, h8⟩
    · rintro ⟨q, k, h7, h8⟩
      by_cases d : q = i
      · rw [if_pos d] at h7; cases h7
      · rw [if_neg d] at h7
        refine ⟨⟨q, k, h7, h8⟩, fun h => d ?_⟩
        have h9 := word_mod hash k (show q < W by have := hl.lt q k h7; omega)
        rw [← h8, h, word_mod hash x (by omega)] at h9
        exact h9.symm
  · intro q k h7
    by_cases d : q = i
    · simp only [if_pos d] at h7; cases h7
    · simp only [if_neg d] at h7; exact hl.lt q k h7
  · intro q r k h7 h8
    by_cases d : q = i
    · simp only [if_pos d] at h7; cases h7
    · by_cases d' : r = i
      · simp only [if_pos d'] at h8; cases h8
      · simp only [if_neg d, if_neg d'] at h7 h8; exact hl.inj q r k h7 h8
  · rw [hb]; exact del_last hlast (by omega) (by omega)

end Verif.HashMap
