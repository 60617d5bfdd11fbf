import Verif.Group.Basic
import Verif.Rep.Ind
import Verif.Fold.Lemmas
import Verif.UnderSlash.Model
/-!
# Lemmas about Under Replicate
-/
namespace Verif.UnderSlash
open Verif.Bits Verif.Fold Verif.Slash Verif.Rep Verif.Under Verif.Rotate
open Verif.Group (GKind GLawful)

/-- How many of the first `n` are true. -/
def rk (b : Nat → Bool) : Nat → Nat
  | 0 => 0
  | n + 1 => rk b n + if b n then 1 else 0

theorem rk_mono (b : Nat → Bool) {i j : Nat} (h : i ≤ j) : rk b i ≤ rk b j := by
  induction h with
  | refl => exact Nat.le_refl _
  | step _ ih => exact Nat.le_trans ih (Nat.le_add_right _ _)

theorem rk_lt (b : Nat → Bool) {i n : Nat} (h : i < n) (hb : b i = true) : rk b i < rk b n := by
  have h1 := rk_mono b (show i + 1 ≤ n from h)
  rw [rk, if_pos hb] at h1
  omega

theorem rk_step (b : Nat → Bool) (i : Nat) : (if b i then rk b i + 1 else rk b i) = rk b (i + 1) := by
  rw [rk]
  cases b i <;> rfl

theorem blend_spec {M α} {K : GKind M α} {ok : Nat → M → Prop} (hK : GLawful K ok) {d : List Word} {b : Nat → Bool} {rep x : M} {xp : Option M} {ia nr : Nat} (hd : ∀ i, i < ia → getBit d i = some (b i))
    (hrep : ok nr rep) (hx : ok ia x) (hnr : rk b ia ≤ nr) (hxp : xp = none ∨ xp = some x) : ∀ (k i : Nat) (r : M), i + k = ia → ok ia r →
    (∀ j, j < i → K.get r j = if b j then K.get rep (rk b j) else K.get x j) → (xp = none → ∀ j, i ≤ j → j < ia → K.get r j = K.get x j) →
    ∃ r', blend K d rep xp k i (rk b i) r = some r' ∧ ok ia r' ∧ ∀ j, j < ia → K.get r' j = if b j then K.get rep (rk b j) else K.get x j
  | 0, i, r, hi, hr, h1, _ => ⟨r, rfl, hr, fun j hj => h1 j (by omega)⟩
  | k + 1, i, r, hi, hr, h1, h2 => by
    rw [blend, hd i (by omega), Option.bind_some, rk_step]
    have hone : ∃ r', (if b i then K.one r i rep (rk b i) else K.one r i (xp.getD r) i) = some r' ∧ ok ia r' ∧
        ∀ j, j < ia → K.get r' j = if j = i then (if b i then K.get rep (rk b i) else K.get x i) else K.get r j := by
      by_cases hb : b i = true
      · have := rk_lt b (show i < ia by omega) hb
        obtain ⟨r', e, ho, hg⟩ := hK.one ia nr r rep i (rk b i) hr hrep (by omega) (by omega)
        rw [if_pos hb, if_pos hb]
        exact ⟨r', e, ho, hg⟩
      · rw [if_neg hb, if_neg hb]
        have hsrc : ok ia (xp.getD r) ∧ K.get (xp.getD r) i = K.get x i := by
          rcases hxp with e | e
          · rw [e]; exact ⟨hr, h2 e i (Nat.le_refl _) (by omega)⟩
          · rw [e]; exact ⟨hx, rfl⟩
        obtain ⟨r', e, ho, hg⟩ := hK.one ia ia r (xp.getD r) i i hr hsrc.1 (by omega) (by omega)
        exact ⟨r', e, ho, fun j hj => by rw [hg j hj, hsrc.2]⟩
    obtain ⟨r', e, ho, hg⟩ := hone
    rw [e, Option.bind_some]
    refine blend_spec hK hd hrep hx hnr hxp k (i + 1) r' (by omega) ho (fun j hj => ?_) (fun e j hj hj2 => ?_)
    · rw [hg j (by omega)]
      by_cases hji : j = i
      · rw [if_pos hji, hji]
      · rw [if_neg hji, h1 j (by omega)]
    · rw [hg j hj2, if_neg (by omega), h2 e j (by omega) hj2]

/-! ## Runs of equal indices -/

theorem take_succ_sum {ns : List Nat} {i c : Nat} (h : ns[i]? = some c) : (ns.take (i + 1)).sum = (ns.take i).sum + c := by
  rw [List.take_succ, h, List.sum_append]
  simp

theorem indices_length (ns : List Nat) : (indices ns).length = ns.sum := by
  rw [indices_eq, copies_length _ _ (by simp)]

theorem indices_get (ns : List Nat) : ∀ p i, (indices ns)[p]? = some i ↔ ∃ c, ns[i]? = some c ∧ (ns.take i).sum ≤ p ∧ p < (ns.take i).sum + c := by
  induction hn : ns.length generalizing ns with
  | zero =>
    obtain rfl := List.eq_nil_of_length_eq_zero hn
    intro p i
    constructor
    · intro h; cases h
    · rintro ⟨c, h, _⟩; cases h
  | succ n ih =>
    obtain ⟨cs, c, rfl⟩ : ∃ cs c, ns = cs ++ [c] := ⟨ns.dropLast, ns.getLast (by intro h; rw [h] at hn; cases hn), (List.dropLast_concat_getLast _).symm⟩
    have hcs : cs.length = n := by simpa using hn
    intro p i
    rw [indices_snoc]
    by_cases hp : p < cs.sum
    · rw [List.getElem?_append_left (by rw [indices_length]; exact hp), ih cs hcs]
      constructor
      · rintro ⟨c', h, h1, h2⟩
        have hi : i < cs.length := (List.getElem?_eq_some_iff.1 h).1
        refine ⟨c', by rw [List.getElem?_append_left hi, h], ?_, ?_⟩ <;> rw [List.take_append_of_le_length (by omega)] <;> assumption
      · rintro ⟨c', h, h1, h2⟩
        by_cases hi : i < cs.length
        · rw [List.getElem?_append_left hi] at h
          rw [List.take_append_of_le_length (by omega)] at h1 h2
          exact ⟨c', h, h1, h2⟩
        · have hi2 : i = cs.length := by
            have := (List.getElem?_eq_some_iff.1 h).1
            rw [List.length_append, List.length_singleton] at this
            omega
          rw [hi2, List.take_left] at h1
          omega
    · rw [List.getElem?_append_right (by rw [indices_length]; omega), indices_length]
      constructor
      · intro h
        obtain ⟨h3, h4⟩ := List.getElem?_eq_some_iff.1 h
        rw [List.getElem_replicate] at h4
        rw [List.length_replicate] at h3
        subst h4
        refine ⟨c, by simp, ?_, ?_⟩ <;> rw [List.take_left] <;> omega
      · rintro ⟨c', h, h1, h2⟩
        by_cases hi : i < cs.length
        · rw [List.getElem?_append_left hi] at h
          rw [List.take_append_of_le_length (by omega)] at h2
          have h3 := take_succ_sum h
          have h4 : (cs.take (i + 1)).sum ≤ cs.sum := by
            conv => rhs; rw [← List.take_append_drop (i + 1) cs, List.sum_append]
            omega
          omega
        · have hi2 : i = cs.length := by
            have := (List.getElem?_eq_some_iff.1 h).1
            rw [List.length_append, List.length_singleton] at this
            omega
          subst hi2
          rw [List.take_left] at h2
          rw [List.getElem?_append_right (Nat.le_refl _), Nat.sub_self] at h
          cases h
          rw [List.getElem?_replicate, if_pos (by omega)]

/-- Where the new elements for the counts that aren't 0 start. -/
def heads : List Nat → Nat → List Nat
  | [], _ => []
  | c :: ws, ni => if c ≠ 0 then ni :: heads ws (ni + c) else heads ws (ni + c)

theorem heads_get {ws : List Nat} {b : Nat → Bool} : ∀ (ni : Nat) (rest : List Nat) (s : Nat), s + rest.length = ws.length → ws.drop s = rest → (∀ i c, ws[i]? = some c → b i = decide (c ≠ 0)) → ni = (ws.take s).sum →
    (heads rest ni).length + rk b s = rk b ws.length ∧ ∀ i c, s ≤ i → ws[i]? = some c → c ≠ 0 → (heads rest ni)[rk b i - rk b s]? = some (ws.take i).sum
  | ni, [], s, hl, hd, hb, hni => by
    rw [List.length_nil, Nat.add_zero] at hl
    subst hl
    refine ⟨by simp [heads], fun i c hi h => ?_⟩
    rw [List.getElem?_eq_none hi] at h
    cases h
  | ni, c0 :: rest, s, hl, hd, hb, hni => by
    rw [List.length_cons] at hl
    have hs : ws[s]? = some c0 := by rw [← List.head?_drop, hd]; rfl
    have hd2 : ws.drop (s + 1) = rest := by rw [← List.drop_drop, hd]; rfl
    obtain ⟨ih1, ih2⟩ := heads_get (b := b) (ni + c0) rest (s + 1) (by omega) hd2 hb (by rw [take_succ_sum hs, hni])
    have hbs := hb s c0 hs
    rw [heads]
    by_cases hc : c0 ≠ 0
    · rw [if_pos hc]
      have hbt : b s = true := by rw [hbs]; simpa using hc
      have hr : rk b (s + 1) = rk b s + 1 := by rw [rk, if_pos hbt]
      refine ⟨by rw [List.length_cons]; omega, fun i c hi h h0 => ?_⟩
      by_cases his : i = s
      · subst his
        rw [Nat.sub_self, hni]
        rfl
      · have h1 := ih2 i c (by omega) h h0
        have h2 := rk_mono b (show s + 1 ≤ i by omega)
        rw [show rk b i - rk b s = (rk b i - rk b (s + 1)) + 1 by omega, List.getElem?_cons_succ]
        exact h1
    · rw [if_neg hc]
      have hbt : b s = false := by rw [hbs]; simpa using hc
      have hr : rk b (s + 1) = rk b s := by rw [rk, hbt]; rfl
      rw [hr] at ih1 ih2
      refine ⟨ih1, fun i c hi h h0 => ?_⟩
      by_cases his : i = s
      · subst his
        rw [hs] at h
        cases h
        exact (hc h0).elim
      · exact ih2 i c (by omega) h h0

theorem sameRun_spec {α} (compat : α → α → Bool) {get : Nat → Option α} (cr : α) : ∀ (k p : Nat), (∀ j, j < k → ∃ v, get (p + j) = some v) →
    ∃ b, sameRun compat get cr p k = some b ∧ (b = true ↔ ∀ j, j < k → ∀ v, get (p + j) = some v → compat v cr = true)
  | 0, p, _ => ⟨true, rfl, by simp⟩
  | k + 1, p, h => by
    obtain ⟨v, hv⟩ := h 0 (by omega)
    rw [Nat.add_zero] at hv
    rw [sameRun, hv, Option.bind_some]
    by_cases hc : compat v cr = true
    · rw [if_pos hc]
      obtain ⟨b, e, hb⟩ := sameRun_spec compat cr k (p + 1) fun j hj => by
        obtain ⟨u, hu⟩ := h (j + 1) (by omega)
        exact ⟨u, by rw [show p + 1 + j = p + (j + 1) by omega]; exact hu⟩
      refine ⟨b, e, hb.trans ⟨fun h1 j hj u hu => ?_, fun h1 j hj u hu => h1 (j + 1) (by omega) u (by rw [show p + (j + 1) = p + 1 + j by omega]; exact hu)⟩⟩
      cases j with
      | zero =>
        rw [Nat.add_zero, hv] at hu
        cases hu
        exact hc
      | succ j => exact h1 j (by omega) u (by rw [show p + 1 + j = p + (j + 1) by omega]; exact hu)
    · rw [if_neg hc]
      refine ⟨false, rfl, by simp, fun h1 => (hc ?_).elim⟩
      exact h1 0 (by omega) v (by rw [Nat.add_zero]; exact hv)

/-- Every run matches its first element. -/
def Runs {α} (compat : α → α → Bool) (get : Nat → Option α) : List Nat → Nat → Prop
  | [], _ => True
  | c :: ws, ni => (∀ j, j < c → lift compat (get (ni + j)) (get ni) = true) ∧ Runs compat get ws (ni + c)

theorem collapse_spec {α} {compat : α → α → Bool} (hc : Equiv compat) {get : Nat → Option α} : ∀ (ws : List Nat) (ni : Nat), (∀ p, p < ni + ws.sum → ∃ v, get p = some v) →
    (Runs compat get ws ni → ∃ rp, collapse compat get ws ni = some (.ok rp) ∧ rp.length = (heads ws ni).length ∧ ∀ (k h : Nat), (heads ws ni)[k]? = some h → rp[k]? = get h) ∧
    (¬ Runs compat get ws ni → collapse compat get ws ni = some .err)
  | [], ni, _ => ⟨fun _ => ⟨[], rfl, rfl, fun k h e => by cases e⟩, fun h => (h trivial).elim⟩
  | c :: ws, ni, hg => by
    rw [List.sum_cons] at hg
    obtain ⟨ih1, ih2⟩ := collapse_spec hc ws (ni + c) (fun p hp => hg p (by omega))
    rw [collapse, heads, Runs]
    by_cases h0 : c ≠ 0
    · rw [if_pos h0, if_pos h0]
      obtain ⟨cr, hcr⟩ := hg ni (by omega)
      rw [hcr, Option.bind_some]
      obtain ⟨b, e, hb⟩ := sameRun_spec compat (get := get) cr (c - 1) (ni + 1) fun j hj => hg _ (by omega)
      rw [e, Option.bind_some]
      have hrun : b = true ↔ ∀ j, j < c → lift compat (get (ni + j)) (some cr) = true := by
        rw [hb]
        constructor
        · intro h j hj
          cases j with
          | zero => rw [Nat.add_zero, hcr]; exact hc.refl _
          | succ j =>
            obtain ⟨v, hv⟩ := hg (ni + (j + 1)) (by omega)
            rw [hv]
            exact h j (by omega) v (by rw [show ni + 1 + j = ni + (j + 1) by omega]; exact hv)
        · intro h j hj v hv
          have := h (j + 1) (by omega)
          rw [show ni + (j + 1) = ni + 1 + j by omega, hv] at this
          exact this
      by_cases hbt : b = true
      · rw [if_pos hbt]
        constructor
        · rintro ⟨_, hr⟩
          obtain ⟨rp, e2, hl, hk⟩ := ih1 hr
          refine ⟨cr :: rp, by rw [e2]; rfl, by rw [List.length_cons, List.length_cons, hl], fun k h hh => ?_⟩
          cases k with
          | zero => cases hh; exact hcr.symm
          | succ k => exact hk k h hh
        · intro hn
          rw [ih2 fun hr => hn ⟨hrun.1 hbt, hr⟩]
          rfl
      · rw [if_neg hbt]
        exact ⟨fun h => (hbt (hrun.2 h.1)).elim, fun _ => rfl⟩
    · rw [if_neg h0, if_neg h0]
      obtain rfl : c = 0 := by omega
      exact ⟨fun h => ih1 h.2, fun h => ih2 fun h2 => h ⟨fun j hj => absurd hj (by omega), h2⟩⟩

theorem runs_iff {α} {compat : α → α → Bool} {get : Nat → Option α} {ws : List Nat} : ∀ (rest : List Nat) (s : Nat), ws.drop s = rest →
    (Runs compat get rest (ws.take s).sum ↔ ∀ i c, s ≤ i → ws[i]? = some c → ∀ j, j < c → lift compat (get ((ws.take i).sum + j)) (get (ws.take i).sum) = true)
  | [], s, hd => by
    refine ⟨fun _ i c hi h => ?_, fun _ => trivial⟩
    rw [List.getElem?_eq_none (by have := List.drop_eq_nil_iff.1 hd; omega)] at h
    cases h
  | c0 :: rest, s, hd => by
    have hs : ws[s]? = some c0 := by rw [← List.head?_drop, hd]; rfl
    have hd2 : ws.drop (s + 1) = rest := by rw [← List.drop_drop, hd]; rfl
    have ih := runs_iff (compat := compat) (get := get) rest (s + 1) hd2
    rw [take_succ_sum hs] at ih
    rw [Runs, ih]
    constructor
    · rintro ⟨h1, h2⟩ i c hi h
      by_cases his : i = s
      · subst his
        rw [hs] at h
        cases h
        exact h1
      · exact h2 i c (by omega) h
    · intro h
      exact ⟨h s c0 (Nat.le_refl _) hs, fun i c hi hc => h i c (by omega) hc⟩

theorem consistent_iff {α} {compat : α → α → Bool} (hc : Equiv (lift compat)) {get : Nat → Option α} {ns : List Nat} : Consistent compat ns get ↔ Runs compat get ns 0 := by
  have hr := runs_iff (compat := compat) (get := get) (ws := ns) ns 0 rfl
  rw [List.take_zero, List.sum_nil] at hr
  rw [hr]
  constructor
  · intro h i c _ hi j hj
    exact h _ _ i ((indices_get ns _ i).2 ⟨c, hi, by omega, by omega⟩) ((indices_get ns _ i).2 ⟨c, hi, by omega, by omega⟩)
  · intro h p q i hp hq
    obtain ⟨c, hi, h1, h2⟩ := (indices_get ns p i).1 hp
    obtain ⟨c', hi', h3, h4⟩ := (indices_get ns q i).1 hq
    rw [hi] at hi'
    cases hi'
    have e1 := h i c (Nat.zero_le _) hi (p - (ns.take i).sum) (by omega)
    have e2 := h i c (Nat.zero_le _) hi (q - (ns.take i).sum) (by omega)
    rw [show (ns.take i).sum + (p - (ns.take i).sum) = p by omega] at e1
    rw [show (ns.take i).sum + (q - (ns.take i).sum) = q by omega] at e2
    exact hc.trans _ _ _ e1 (hc.symm _ _ e2)

theorem rk_sum {ns : List Nat} {b : Nat → Bool} (hb : ∀ i c, ns[i]? = some c → b i = decide (c ≠ 0)) (h1 : ∀ c ∈ ns, c ≤ 1) : ∀ i, i ≤ ns.length → rk b i = (ns.take i).sum
  | 0, _ => rfl
  | i + 1, hi => by
    have h : ns[i]? = some ns[i] := List.getElem?_eq_getElem (by omega)
    have h2 := h1 _ (List.getElem_mem (show i < ns.length by omega))
    rw [rk, take_succ_sum h, rk_sum hb h1 i (by omega), hb i _ h]
    by_cases h0 : ns[i] ≠ 0
    · rw [if_pos (by simpa using h0)]; omega
    · rw [if_neg (by simpa using h0)]; omega

end Verif.UnderSlash
