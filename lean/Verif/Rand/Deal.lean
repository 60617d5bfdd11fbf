import Verif.Rand.Perm
/-! # The hash table of `𝕨 Deal 𝕩` stands for the rest of the list -/
namespace Verif.Rand
open Verif.Bits Verif.Fold Verif.Slash Verif.Select

def key (h : List Nat) (p : Nat) : Nat := h.getD (2 * p) 0
def val (h : List Nat) (p : Nat) : Nat := h.getD (2 * p + 1) 0

theorem getD_set (h : List Nat) (i j v : Nat) (hi : i < h.length) : (h.set i v).getD j 0 = if i = j then v else h.getD j 0 := by
  rw [List.getD_eq_getElem?_getD, List.getD_eq_getElem?_getD, List.getElem?_set]
  by_cases e : i = j
  · rw [if_pos e, if_pos e, if_pos hi]; rfl
  · rw [if_neg e, if_neg e]

theorem mask_eq (k p : Nat) : (2 * p) &&& (2 * (2 ^ k - 1)) = 2 * (p % 2 ^ k) := by
  have h1 : (2 * p) &&& (2 * (2 ^ k - 1)) = (p <<< 1) &&& ((2 ^ k - 1) <<< 1) := by
    rw [Nat.shiftLeft_eq, Nat.shiftLeft_eq, Nat.pow_one, Nat.mul_comm 2 p, Nat.mul_comm 2 (2 ^ k - 1)]
  rw [h1, ← Nat.shiftLeft_and_distrib, Nat.and_two_pow_sub_one_eq_mod, Nat.shiftLeft_eq, Nat.pow_one, Nat.mul_comm]

theorem probe_ok (k j : Nat) (hash : List Nat) (hl : hash.length = 2 * 2 ^ k) (hj : 0 < j) (q : Nat) (hq : q < 2 ^ k) (hq0 : key hash ((j + q) % 2 ^ k) = 0) :
    ∀ (fuel d : Nat), (∀ e < d, key hash ((j + e) % 2 ^ k) ≠ 0 ∧ key hash ((j + e) % 2 ^ k) ≠ j) → q < d + fuel →
    ∃ d', d' ≤ q ∧ (∀ e < d', key hash ((j + e) % 2 ^ k) ≠ 0 ∧ key hash ((j + e) % 2 ^ k) ≠ j) ∧
      ((key hash ((j + d') % 2 ^ k) = 0 ∧ probe (2 * (2 ^ k - 1)) j fuel (2 * (j + d)) hash = some (2 * ((j + d') % 2 ^ k), j, hash.set (2 * ((j + d') % 2 ^ k)) j)) ∨
       (key hash ((j + d') % 2 ^ k) = j ∧ probe (2 * (2 ^ k - 1)) j fuel (2 * (j + d)) hash = some (2 * ((j + d') % 2 ^ k), val hash ((j + d') % 2 ^ k), hash)))
  | 0, d, hd, hf => absurd hq0 (hd q (by omega)).1
  | fuel + 1, d, hd, hf => by
    have hdq : d ≤ q := by
      rcases Nat.lt_or_ge q d with h | h
      · exact absurd hq0 (hd q h).1
      · exact h
    have hm := Nat.mod_lt (j + d) (Nat.two_pow_pos k)
    rw [probe, mask_eq]
    have g : hash[2 * ((j + d) % 2 ^ k)]? = some (key hash ((j + d) % 2 ^ k)) := by
      unfold key
      rw [List.getD_eq_getElem?_getD, List.getElem?_eq_getElem (by omega)]; rfl
    rw [g, Option.bind_some]
    by_cases h0 : key hash ((j + d) % 2 ^ k) = 0
    · rw [if_pos h0]
      exact ⟨d, hdq, hd, Or.inl ⟨h0, by rw [wr_ok _ (by omega)]; rfl⟩⟩
    rw [if_neg h0]
    by_cases h1 : key hash ((j + d) % 2 ^ k) = j
    · rw [if_pos h1]
      refine ⟨d, hdq, hd, Or.inr ⟨h1, ?_⟩⟩
      unfold val
      rw [List.getD_eq_getElem?_getD, List.getElem?_eq_getElem (by omega)]; rfl
    rw [if_neg h1, show 2 * ((j + d) % 2 ^ k) + 2 = 2 * ((j + d) % 2 ^ k + 1) by omega]
    obtain ⟨d', h2, h3, h4⟩ := probe_ok k j hash hl hj q hq hq0 fuel (d + 1) (fun e he => by
      rcases Nat.lt_or_ge e d with h | h
      · exact hd e h
      · rw [show e = d by omega]; exact ⟨h0, h1⟩) (by omega)
    have step : probe (2 * (2 ^ k - 1)) j fuel (2 * ((j + d) % 2 ^ k + 1)) hash = probe (2 * (2 ^ k - 1)) j fuel (2 * (j + (d + 1))) hash := by
      cases fuel with
      | zero => rfl
      | succ f => rw [probe, probe, mask_eq, mask_eq, Nat.mod_add_mod, Nat.add_assoc j d 1]
    rw [step]
    exact ⟨d', h2, h3, h4⟩

/-- The table `hash` says what is in `s` from `wi` on: for each key its value, and for other positions the position. -/
structure HInv (k wi xi i : Nat) (hash s : List Nat) : Prop where
  len : hash.length = 2 * 2 ^ k
  pos : ∀ p < 2 ^ k, key hash p = 0 ∨ wi ≤ key hash p
  chain : ∀ p < 2 ^ k, key hash p ≠ 0 → ∃ d, d < 2 ^ k ∧ p = (key hash p + d) % 2 ^ k ∧ ∀ e < d, key hash ((key hash p + e) % 2 ^ k) ≠ 0
  uniq : ∀ p < 2 ^ k, ∀ q < 2 ^ k, key hash p ≠ 0 → key hash p = key hash q → p = q
  vals : ∀ j, wi ≤ j → j < xi → (∃ p < 2 ^ k, key hash p = j ∧ s[j]? = some (val hash p)) ∨ ((∀ p < 2 ^ k, key hash p ≠ j) ∧ s[j]? = some j)
  used : ∃ us : List Nat, us.length ≤ i ∧ ∀ p < 2 ^ k, key hash p ≠ 0 → p ∈ us

theorem HInv.free {k wi xi i hash s} (h : HInv k wi xi i hash s) (hi : i < 2 ^ k) : ∃ p < 2 ^ k, key hash p = 0 := by
  obtain ⟨us, hu, hm⟩ := h.used
  apply Classical.byContradiction
  intro hn
  have hs : List.range (2 ^ k) ⊆ us := fun p hp => hm p (List.mem_range.1 hp) fun hk => hn ⟨p, List.mem_range.1 hp, hk⟩
  have := List.nodup_range.length_le_of_subset hs
  rw [List.length_range] at this
  omega

theorem HInv.absent {k wi xi i hash s} (h : HInv k wi xi i hash s) (j : Nat) (hj : 0 < j) (d : Nat) (hd : d < 2 ^ k)
    (hne : ∀ e < d, key hash ((j + e) % 2 ^ k) ≠ 0 ∧ key hash ((j + e) % 2 ^ k) ≠ j) (h0 : key hash ((j + d) % 2 ^ k) = 0) : ∀ p < 2 ^ k, key hash p ≠ j := by
  intro p hp e
  obtain ⟨d', h1, h2, h3⟩ := h.chain p hp (by omega)
  rw [e] at h2 h3
  rcases Nat.lt_trichotomy d' d with hh | hh | hh
  · have := (hne d' hh).2
    rw [← h2] at this
    exact this e
  · rw [hh] at h2
    rw [← h2, e] at h0
    omega
  · exact h3 d hh h0

theorem exists_dist (k j p : Nat) (hp : p < 2 ^ k) : ∃ d < 2 ^ k, (j + d) % 2 ^ k = p := by
  have hm := Nat.mod_lt j (Nat.two_pow_pos k)
  refine ⟨(p + (2 ^ k - j % 2 ^ k)) % 2 ^ k, Nat.mod_lt _ (Nat.two_pow_pos k), ?_⟩
  rw [Nat.add_mod_mod, ← Nat.mod_add_mod, show j % 2 ^ k + (p + (2 ^ k - j % 2 ^ k)) = p + 2 ^ k by omega, Nat.add_mod_right, Nat.mod_eq_of_lt hp]

/-- One step of the loop that goes through the table. -/
theorem table_step {k wi xi i : Nat} {hash s : List Nat} (h : HInv k wi xi i hash s) (hi : i < wi) (hik : i < 2 ^ k) (hw : wi ≤ xi) (hs : s.length = xi) (j : Nat) (hj : wi ≤ j) (hjx : j < xi)
    (a c : Nat) (ha : s[i]? = some a) (hc : s[j]? = some c) :
    ∃ p hash', p < 2 ^ k ∧ probe (2 * (2 ^ k - 1)) j (2 * (2 ^ k - 1) / 2 + 2) (2 * j) hash = some (2 * p, c, hash') ∧ hash'.length = 2 * 2 ^ k ∧
      HInv k wi xi (i + 1) (hash'.set (2 * p + 1) a) ((s.set j a).set i c) := by
  have hj0 : 0 < j := by omega
  obtain ⟨pf, hpf, hf0⟩ := h.free hik
  obtain ⟨q, hq, hqe⟩ := exists_dist k j pf hpf
  obtain ⟨d, hd, hne, hr⟩ := probe_ok k j hash h.len hj0 q hq (by rw [hqe]; exact hf0) (2 * (2 ^ k - 1) / 2 + 2) 0 (fun _ he => absurd he (Nat.not_lt_zero _)) (by omega)
  have hdk : d < 2 ^ k := by omega
  have hpk := Nat.mod_lt (j + d) (Nat.two_pow_pos k)
  rw [show 2 * (j + 0) = 2 * j from rfl] at hr
  -- in both cases the table has the key `j` at `p` and the value is the element
  have main : ∃ hash', probe (2 * (2 ^ k - 1)) j (2 * (2 ^ k - 1) / 2 + 2) (2 * j) hash = some (2 * ((j + d) % 2 ^ k), c, hash') ∧ hash' = hash.set (2 * ((j + d) % 2 ^ k)) j ∧
      (key hash ((j + d) % 2 ^ k) = 0 ∨ key hash ((j + d) % 2 ^ k) = j) ∧ (key hash ((j + d) % 2 ^ k) = 0 → ∀ p < 2 ^ k, key hash p ≠ j) := by
    rcases hr with ⟨h0, e⟩ | ⟨h1, e⟩
    · have hab := h.absent j hj0 d hdk hne h0
      rcases h.vals j hj hjx with ⟨p, hp, hk, _⟩ | ⟨_, hv⟩
      · exact absurd hk (hab p hp)
      · rw [hc] at hv
        exact ⟨_, by rw [e, Option.some.inj hv], rfl, Or.inl h0, fun _ => hab⟩
    · refine ⟨hash, ?_, ?_, Or.inr h1, fun h0 => by omega⟩
      · rcases h.vals j hj hjx with ⟨p, hp, hk, hv⟩ | ⟨hk, _⟩
        · have : p = (j + d) % 2 ^ k := h.uniq p hp _ hpk (by omega) (by rw [hk, h1])
          rw [this, hc] at hv
          rw [e, Option.some.inj hv]
        · exact absurd h1 (hk _ hpk)
      · apply List.ext_getElem?
        intro x
        rw [List.getElem?_set]
        by_cases hx : 2 * ((j + d) % 2 ^ k) = x
        · rw [if_pos hx, if_pos (by have := h.len; omega), ← hx]
          unfold key at h1
          rw [List.getD_eq_getElem?_getD, List.getElem?_eq_getElem (by have := h.len; omega), Option.getD_some] at h1
          rw [List.getElem?_eq_getElem (by have := h.len; omega), h1]
        · rw [if_neg hx]
  obtain ⟨hash', e, he, hcase, hab⟩ := main
  generalize hP : (j + d) % 2 ^ k = P at *
  have hlen := h.len
  have hl' : hash'.length = 2 * 2 ^ k := by rw [he, List.length_set, hlen]
  have K : ∀ r, key (hash'.set (2 * P + 1) a) r = if r = P then j else key hash r := by
    intro r
    unfold key
    rw [getD_set _ _ _ _ (by omega), if_neg (by omega), he, getD_set _ _ _ _ (by omega)]
    by_cases hx : r = P
    · rw [if_pos (by omega), if_pos hx]
    · rw [if_neg (by omega), if_neg hx]
  have V : ∀ r, val (hash'.set (2 * P + 1) a) r = if r = P then a else val hash r := by
    intro r
    unfold val
    rw [getD_set _ _ _ _ (by omega), he, getD_set _ _ _ _ (by omega)]
    by_cases hx : r = P
    · rw [if_pos (by omega), if_pos hx]
    · rw [if_neg (by omega), if_neg (by omega), if_neg hx]
  have mono : ∀ r, key hash r ≠ 0 → key (hash'.set (2 * P + 1) a) r ≠ 0 := by
    intro r hr0
    rw [K]
    by_cases hx : r = P
    · rw [if_pos hx]; omega
    · rw [if_neg hx]; exact hr0
  have other : ∀ r < 2 ^ k, r ≠ P → key hash r ≠ j := by
    intro r hr hx e2
    rcases hcase with h0 | h1
    · exact hab h0 r hr e2
    · exact hx (h.uniq r hr P hpk (by omega) (by rw [e2, h1]))
  refine ⟨P, hash', hpk, e, hl', ⟨by rw [List.length_set, hl'], ?_, ?_, ?_, ?_, ?_⟩⟩
  · intro p hp
    rw [K]
    by_cases hx : p = P
    · rw [if_pos hx]; exact Or.inr hj
    · rw [if_neg hx]; exact h.pos p hp
  · intro p hp hk0
    by_cases hx : p = P
    · have : key (hash'.set (2 * P + 1) a) p = j := by rw [K, if_pos hx]
      rw [this]
      exact ⟨d, hdk, by rw [hx, hP], fun e he' => mono _ (hne e he').1⟩
    · have e2 : key (hash'.set (2 * P + 1) a) p = key hash p := by rw [K, if_neg hx]
      rw [e2] at hk0 ⊢
      obtain ⟨d', h1, h2, h3⟩ := h.chain p hp hk0
      exact ⟨d', h1, h2, fun e he' => mono _ (h3 e he')⟩
  · intro p hp q' hq' hk0 hkk
    rw [K, K] at hkk
    rw [K] at hk0
    by_cases hx : p = P
    · by_cases hy : q' = P
      · rw [hx, hy]
      · rw [if_pos hx, if_neg hy] at hkk
        exact absurd hkk.symm (other q' hq' hy)
    · rw [if_neg hx] at hk0 hkk
      by_cases hy : q' = P
      · rw [if_pos hy] at hkk
        exact absurd hkk (other p hp hx)
      · rw [if_neg hy] at hkk
        exact h.uniq p hp q' hq' hk0 hkk
  · intro j' hj' hjx'
    rw [List.getElem?_set_ne (by omega)]
    by_cases hjj : j' = j
    · subst hjj
      left
      refine ⟨P, hpk, by rw [K, if_pos rfl], ?_⟩
      rw [V, if_pos rfl, List.getElem?_set_self (by omega)]
    · rw [List.getElem?_set_ne (by omega)]
      rcases h.vals j' hj' hjx' with ⟨p, hp, hk, hv⟩ | ⟨hk, hv⟩
      · left
        have hx : p ≠ P := by
          intro hx
          subst hx
          rcases hcase with h0 | h1 <;> omega
        exact ⟨p, hp, by rw [K, if_neg hx, hk], by rw [V, if_neg hx, hv]⟩
      · right
        refine ⟨fun p hp => ?_, hv⟩
        rw [K]
        by_cases hx : p = P
        · rw [if_pos hx]; omega
        · rw [if_neg hx]; exact hk p hp
  · obtain ⟨us, hu, hm⟩ := h.used
    refine ⟨P :: us, by rw [List.length_cons]; omega, fun p hp hk0 => ?_⟩
    by_cases hx : p = P
    · rw [hx]; exact List.mem_cons_self
    · rw [K, if_neg hx] at hk0
      exact List.mem_cons_of_mem _ (hm p hp hk0)

theorem HInv.mono {k wi xi i hash s} (h : HInv k wi xi i hash s) (s' : List Nat) (hs : ∀ j, wi ≤ j → s'[j]? = s[j]?) : HInv k wi xi (i + 1) hash s' := by
  obtain ⟨us, hu, hm⟩ := h.used
  exact ⟨h.len, h.pos, h.chain, h.uniq, fun j h1 h2 => by rw [hs j h1]; exact h.vals j h1 h2, us, by omega, hm⟩

theorem hashShuf_ok (rnd : Nat → Word) (k wi xi : Nat) (hw : wi ≤ xi) (hk : wi ≤ 2 ^ k) : ∀ (l i : Nat) (hash s : List Nat), i + l = wi → s.length = xi → HInv k wi xi i hash s →
    ∃ r, hashShuf rnd wi xi (2 * (2 ^ k - 1)) l i hash (s.take wi) = some (r.take wi) ∧ shuf rnd xi l i s = some r
  | 0, _, hash, s, _, _, _ => ⟨s, rfl, rfl⟩
  | l + 1, i, hash, s, hi, hs, h => by
    have hj := wy2u0k_lt (rnd i) (xi - i) (by omega)
    rw [hashShuf, shuf]
    dsimp only
    have hj2 : wy2u0k (rnd i) (xi - i) + i < xi := by omega
    generalize wy2u0k (rnd i) (xi - i) + i = j at hj2 ⊢
    have hjs : j < s.length := by omega
    have his : i < s.length := by omega
    obtain ⟨r, e, er, hp⟩ := swap_ok s i j (by omega) (by omega)
    rw [e, Option.bind_some]
    have hrl : r.length = xi := by rw [hp.length_eq, hs]
    have htl : (s.take wi).length = wi := by rw [List.length_take]; omega
    by_cases hjw : j < wi
    · rw [if_pos hjw]
      obtain ⟨r', e', er', hp'⟩ := swap_ok (s.take wi) i j (by omega) (by omega)
      have hr' : r' = r.take wi := by
        rw [er, er', List.take_set, List.take_set, List.getElem_take, List.getElem_take]
      rw [e', Option.bind_some, hr']
      apply hashShuf_ok rnd k wi xi hw hk l (i + 1) hash r (by omega) hrl
      apply h.mono
      intro j' hj'
      rw [er, List.getElem?_set_ne (by omega), List.getElem?_set_ne (by omega)]
    · rw [if_neg hjw]
      obtain ⟨p, hash', hpk, ep, hl', hi'⟩ := table_step h (by omega) (by omega) hw hs j (by omega) (by omega) s[i] s[j] (List.getElem?_eq_getElem _) (List.getElem?_eq_getElem _)
      rw [ep, Option.bind_some]
      dsimp only
      rw [List.getElem?_eq_getElem (show i < (s.take wi).length by omega), Option.bind_some, wr_ok _ (by omega), Option.bind_some, wr_ok _ (by omega), Option.bind_some]
      have hr' : (s.take wi).set i s[j] = r.take wi := by
        rw [er, List.take_set, List.take_set_of_le (show wi ≤ j by omega)]
      rw [hr', List.getElem_take]
      apply hashShuf_ok rnd k wi xi hw hk l (i + 1) _ r (by omega) hrl
      rw [er]
      exact hi'

theorem tableSize_ok (wi : Nat) : ∀ (fuel k : Nat), wi * 2 ≤ 2 ^ (k + fuel) → ∃ k', tableSize wi fuel (2 ^ k) = 2 ^ k' ∧ wi * 2 ≤ 2 ^ k'
  | 0, k, h => ⟨k, rfl, h⟩
  | fuel + 1, k, h => by
    rw [tableSize]
    by_cases hc : 2 ^ k < wi * 2
    · rw [if_pos hc, ← Nat.pow_succ]
      exact tableSize_ok wi fuel (k + 1) (by rw [show k + 1 + fuel = k + (fuel + 1) by omega]; exact h)
    · rw [if_neg hc]
      exact ⟨k, rfl, by omega⟩

theorem key_zeros (n p : Nat) : key (List.replicate n 0) p = 0 := by
  unfold key
  rw [List.getD_eq_getElem?_getD, List.getElem?_replicate]
  by_cases h : 2 * p < n
  · rw [if_pos h]; rfl
  · rw [if_neg h]; rfl

theorem take_props (wi xi : Nat) (hw : wi ≤ xi) (r : List Nat) (hp : r.Perm (List.range xi)) : (r.take wi).length = wi ∧ (r.take wi).Nodup ∧ ∀ v ∈ r.take wi, v < xi := by
  refine ⟨?_, ?_, fun v hv => ?_⟩
  · rw [List.length_take, hp.length_eq, List.length_range]; omega
  · exact (hp.nodup_iff.2 List.nodup_range).sublist (List.take_sublist _ _)
  · exact List.mem_range.1 (hp.mem_iff.1 (List.mem_of_mem_take hv))

theorem dealSome_ok (rnd : Nat → Word) (wi xi : Nat) (junk : Nat → Nat) (hw : wi ≤ xi) (hx : xi < 2^31) (hlim : wi < 2^29 ∨ wi = xi ∨ wi ≤ xi / 64) :
    ∃ r, dealSome rnd wi xi junk = some (.ok r) ∧ r.length = wi ∧ r.Nodup ∧ ∀ v ∈ r, v < xi := by
  unfold dealSome
  rw [if_neg (show ¬ (xi : Int) < 0 by omega), if_neg (show ¬ (wi : Int) < 0 by omega)]
  by_cases h0 : wi = 0
  · rw [if_pos (show (wi : Int) = 0 by omega)]
    exact ⟨[], rfl, by simp [h0], List.nodup_nil, fun v hv => by simp at hv⟩
  rw [if_neg (show ¬ (wi : Int) = 0 by omega), if_neg (show ¬ (wi : Int) > xi by omega)]
  by_cases h1 : wi = xi
  · rw [if_pos (show (wi : Int) = xi by omega)]
    obtain ⟨r, e, p⟩ := deal_ok rnd xi junk hx
    have := take_props xi xi (Nat.le_refl _) r p
    rw [List.take_of_length_le (by rw [p.length_eq, List.length_range]; exact Nat.le_refl _)] at this
    exact ⟨r, e, by rw [h1]; exact this⟩
  rw [if_neg (show ¬ (wi : Int) = xi by omega)]
  dsimp only
  rw [Int.toNat_natCast, Int.toNat_natCast]
  by_cases h2 : wi > xi / 64
  · rw [if_pos h2]
    obtain ⟨r, e, p⟩ := iota_shuf rnd (2^31) xi wi (by omega) hw
    rw [e, Option.bind_some, if_pos (by omega)]
    exact ⟨_, rfl, take_props wi xi hw r p⟩
  · rw [if_neg h2]
    obtain ⟨k, ek, hk⟩ := tableSize_ok wi 64 0 (by omega)
    rw [Nat.pow_zero] at ek
    rw [ek]
    have hinv : HInv k wi xi 0 (List.replicate (2 * 2 ^ k) 0) (List.range xi) :=
      ⟨List.length_replicate, fun p _ => Or.inl (key_zeros _ _), fun p _ h => absurd (key_zeros _ _) h, fun p _ q _ h => absurd (key_zeros _ _) h,
        fun j h1 h2 => Or.inr ⟨fun p _ => by rw [key_zeros]; omega, by rw [List.getElem?_range h2]⟩, [], Nat.le_refl _, fun p _ h => absurd (key_zeros _ _) h⟩
    obtain ⟨r, e, es⟩ := hashShuf_ok rnd k wi xi hw (by omega) wi 0 _ (List.range xi) (by omega) List.length_range hinv
    obtain ⟨r', es', p⟩ := shuf_ok rnd xi wi 0 (List.range xi) List.length_range (by omega)
    rw [es] at es'
    cases es'
    unfold iota
    rw [if_pos (by omega), Option.bind_some]
    have : List.range wi = (List.range xi).take wi := by rw [List.take_range]; congr 1; omega
    rw [this, e]
    exact ⟨_, rfl, take_props wi xi hw r p⟩

end Verif.Rand
