import Verif.Windows.Lemmas
/-!
# Windows: each path
-/
namespace Verif.Windows
open Verif.Rotate

theorem o2s_ok {n : Nat} (h : n < 2^32) : o2s (Int.ofNat n) = some n := by
  have : (0 : Int) ≤ Int.ofNat n ∧ Int.ofNat n < 2^32 := ⟨Int.natCast_nonneg _, by have := Int.ofNat_lt.2 h; simpa using this⟩
  rw [o2s, if_pos this]
  rfl

theorem mapM_o2s {ws : List Nat} (h : ∀ m ∈ ws, m < 2^32) : (ws.map Int.ofNat).mapM o2s = some ws := by
  induction ws with
  | nil => rfl
  | cons m ws ih =>
    rw [List.map_cons, List.mapM_cons, o2s_ok (h m (by simp)), ih fun t ht => h t (by simp [ht])]
    rfl

theorem mapM_bad {w : List Int} {v : Int} (hv : v ∈ w) (h : v < 0 ∨ 2^32 ≤ v) : w.mapM o2s = none := by
  induction w with
  | nil => cases hv
  | cons a w ih =>
    rw [List.mapM_cons]
    cases hv with
    | head =>
      have : o2s v = none := if_neg (by omega)
      rw [this]
      rfl
    | tail _ hv =>
      rw [ih hv]
      cases o2s a <;> rfl

theorem mulAll_ok : ∀ {sh : List Nat} {r : Nat}, (∀ l ∈ sh, 0 < l) → r * prod sh < 2^32 → mulAll sh r = some (r * prod sh)
  | [], r, _, _ => by rw [mulAll, prod, Nat.mul_one]
  | l :: sh, r, hl, h => by
    rw [prod, ← Nat.mul_assoc] at h ⊢
    have hp : 0 < prod sh := by
      have : ∀ l : List Nat, (∀ s ∈ l, 0 < s) → 0 < prod l := by
        intro l
        induction l with
        | nil => intro _; exact Nat.one_pos
        | cons s l ih => intro h; exact Nat.mul_pos (h s (by simp)) (ih fun t ht => h t (by simp [ht]))
      exact this _ fun s hs => hl s (by simp [hs])
    have : r * l ≤ r * l * prod sh := Nat.le_mul_of_pos_right _ hp
    rw [mulAll, if_neg (by omega)]
    exact mulAll_ok (fun s hs => hl s (by simp [hs])) h

theorem mulAll_bad : ∀ {sh : List Nat} {r : Nat}, r < 2^32 → 2^32 ≤ r * prod sh → mulAll sh r = none
  | [], r, h1, h2 => by
    rw [prod, Nat.mul_one] at h2
    omega
  | l :: sh, r, h1, h => by
    rw [prod, ← Nat.mul_assoc] at h
    rw [mulAll]
    by_cases c : r * l ≥ 2^32
    · rw [if_pos c]
    · rw [if_neg c]
      exact mulAll_bad (by omega) h

theorem prod_pos {l : List Nat} (h : ∀ s ∈ l, 0 < s) : 0 < prod l := by
  induction l with
  | nil => exact Nat.one_pos
  | cons s l ih => exact Nat.mul_pos (h s (by simp)) (ih fun t ht => h t (by simp [ht]))

theorem prod_zero {l : List Nat} (h : 0 ∈ l) : prod l = 0 := by
  induction l with
  | nil => cases h
  | cons s l ih =>
    rw [prod]
    cases h with
    | head => exact Nat.zero_mul _
    | tail _ h => rw [ih h, Nat.mul_zero]

theorem InShape.pos {sh is : List Nat} (h : InShape sh is) : ∀ s ∈ sh, 0 < s := by
  induction h with
  | nil => nofun
  | cons hi _ ih =>
    intro s hs
    cases hs with
    | head => omega
    | tail _ hs => exact ih s hs

theorem Fits.length {ws a : List Nat} (h : Fits ws a) : ws.length = a.length := by
  induction h with
  | nil => rfl
  | cons _ _ ih => rw [List.length_cons, List.length_cons, ih]

theorem Fits.places_length {ws a : List Nat} (h : Fits ws a) : (places ws a).length = ws.length := by
  rw [places, List.length_zipWith, ← h.length, Nat.min_self]

theorem Fits.small {ws a : List Nat} (h : Fits ws a) (ha : ∀ l ∈ a, l < 2^32 - 1) : ∀ m ∈ ws, m < 2^32 := by
  induction h with
  | nil => nofun
  | @cons m l ws a hm _ ih =>
    intro t ht
    have := ha l (by simp)
    cases ht with
    | head => omega
    | tail _ ht => exact ih (fun l hl => ha l (by simp [hl])) t ht

theorem frame_ok {ws a : List Nat} (h : Fits ws a) (ha : ∀ l ∈ a, l < 2^32 - 1) (b : List Nat) :
    ∃ e, frame ws (a ++ b) = some (places ws a, e) ∧ (e = true ↔ 0 ∈ ws ∨ 0 ∈ places ws a) := by
  induction h with
  | nil => exact ⟨false, by cases b <;> rfl, by simp [places]⟩
  | @cons m l ws a hm _ ih =>
    obtain ⟨e, h1, h2⟩ := ih fun l hl => ha l (by simp [hl])
    have hl := ha l (by simp)
    have e1 : addU l 1 = l + 1 := Nat.mod_eq_of_lt (by omega)
    have e2 : subU (l + 1) m = l + 1 - m := by unfold subU; omega
    rw [List.cons_append, frame, e1, if_neg (by omega), h1]
    dsimp only
    rw [e2]
    refine ⟨_, rfl, ?_⟩
    have : places (m :: ws) (l :: a) = (l + 1 - m) :: places ws a := rfl
    rw [this, Bool.or_eq_true, Bool.or_eq_true, h2, beq_iff_eq, beq_iff_eq, List.mem_cons, List.mem_cons]
    constructor
    · rintro ((h | h) | h | h)
      · exact .inl (.inl h.symm)
      · exact .inr (.inl (by omega))
      · exact .inl (.inr h)
      · exact .inr (.inr h)
    · rintro ((h | h) | h | h)
      · exact .inl (.inl h.symm)
      · exact .inr (.inl h)
      · exact .inl (.inr (by omega))
      · exact .inr (.inr h)

theorem frame_bad : ∀ {ws xsh : List Nat} {i m l : Nat}, ws[i]? = some m → xsh[i]? = some l → l + 1 < m → m < 2^32 → frame ws xsh = none
  | [], _, i, _, _, h, _, _, _ => by cases h
  | _ :: _, [], i, _, _, _, h, _, _ => by cases h
  | m :: ws, l :: xsh, 0, _, _, h1, h2, h3, h4 => by
    cases h1
    cases h2
    have e1 : addU l 1 = l + 1 := Nat.mod_eq_of_lt (by omega)
    rw [frame, e1, if_pos (by omega)]
  | m' :: ws, l' :: xsh, i + 1, _, _, h1, h2, h3, h4 => by
    have := frame_bad (ws := ws) (xsh := xsh) h1 h2 h3 h4
    rw [frame, this]
    split <;> rfl

theorem sum_in {ws a : List Nat} (h : Fits ws a) : ∀ {p q : List Nat}, InShape (places ws a) p → InShape ws q → InShape a (List.zipWith (· + ·) p q) := by
  induction h with
  | nil => intro p q hp hq; cases hp; exact .nil
  | @cons m l ws a hm _ ih =>
    intro p q hp hq
    match p, q, hp, hq with
    | i :: p, j :: q, .cons h1 hp, .cons h2 hq =>
      have h1 : i < l + 1 - m := h1
      exact .cons (show i + j < l by omega) (ih hp hq)

/-! ## Pairs -/

theorem dup_get {α} (x : List α) : ∀ i, (x.flatMap fun e => [e, e])[i]? = x[i / 2]? := by
  induction x with
  | nil => intro i; simp
  | cons e x ih =>
    intro i
    rw [List.flatMap_cons]
    match i with
    | 0 => rfl
    | 1 => rfl
    | i + 2 =>
      show (x.flatMap fun e => [e, e])[i]? = _
      rw [ih, show (i + 2) / 2 = i / 2 + 1 by omega]
      rfl

theorem dup_length {α} (x : List α) : (x.flatMap fun e => [e, e]).length = 2 * x.length := by
  induction x with
  | nil => rfl
  | cons e x ih =>
    rw [List.flatMap_cons, List.length_append, ih, List.length_cons, List.length_cons, List.length_cons, List.length_nil]
    omega

theorem pairs_ok {α} {x : List α} (h1 : 2 ≤ x.length) (h2 : 2 * x.length < 2^32) : ∃ r, pairs x = .ok r ∧ IsWindows [2] [x.length] [] x [x.length - 1, 2] r := by
  have hl := dup_length x
  obtain ⟨r, hc, hlen, hget⟩ := copy_ok (x := x.flatMap fun e => [e, e]) (j := 1) (k := (x.flatMap fun e => [e, e]).length - 2) (by omega)
  unfold pairs
  rw [if_neg (by omega)]
  dsimp only
  rw [hc]
  refine ⟨r, rfl, rfl, ?_, fun p q c hp hq hc => ?_⟩
  · show r.length = (x.length - 1) * (2 * 1)
    rw [hlen, hl]
    omega
  · match p, q, c, hp, hq, hc with
    | [i], [j], [], .cons hi .nil, .cons hj .nil, .nil =>
      have hi : i < x.length + 1 - 2 := hi
      have e1 : ravel [x.length - 1, 2] ([i] ++ [j] ++ []) = i * 2 + j := by
        show i * (2 * 1) + (j * 1 + 0) = _
        omega
      have e2 : ravel ([x.length] ++ []) (List.zipWith (· + ·) [i] [j] ++ []) = i + j := by
        show (i + j) * 1 + 0 = _
        omega
      rw [e1, e2, hget _ (by omega), dup_get]
      congr 1
      omega

/-! ## One axis -/

theorem one_ok {α} {m l : Nat} {b : List Nat} {x : List α} (hx : x.length = l * prod b) (hx32 : x.length < 2^32) (hm : 0 < m) (hml : m ≤ l)
    (hb : 0 < prod b) (hp : (l + 1 - m) * (m * prod b) < 2^32) :
    ∃ r, loop1 x (prod b) (mulU (prod b) m) (prod b * prod ([l + 1 - m] ++ [m])) (prod b * prod ([l + 1 - m] ++ [m]) + 1) 0 0 = .ok r ∧
      IsWindows [m] [l] b x ([l + 1 - m] ++ ([m] ++ b)) r := by
  have hk : mulU (prod b) m = m * prod b := by
    unfold mulU
    rw [Nat.mul_comm]
    have : m * prod b ≤ (l + 1 - m) * (m * prod b) := Nat.le_mul_of_pos_left _ (by omega)
    exact Nat.mod_eq_of_lt (by omega)
  have hr : prod b * prod ([l + 1 - m] ++ [m]) = (l + 1 - m) * (m * prod b) := by
    show prod b * ((l + 1 - m) * (m * 1)) = _
    rw [Nat.mul_one, Nat.mul_comm, Nat.mul_assoc]
  rw [hk, hr]
  have hk0 : 0 < m * prod b := Nat.mul_pos hm hb
  have hT : l + 1 - m ≤ (l + 1 - m) * (m * prod b) := Nat.le_mul_of_pos_right _ hk0
  obtain ⟨r, h1, h2, h3⟩ := loop1_spec (x := x) (cia := prod b) (k := m * prod b) (T := l + 1 - m) hk0 rfl hp hx32 (by
    intro t ht
    rw [← Nat.add_mul, hx]
    exact Nat.mul_le_mul_right _ (by omega)) ((l + 1 - m) * (m * prod b) + 1) 0 (by omega) (by omega)
  rw [Nat.zero_mul, Nat.zero_mul, Nat.zero_mod] at h1
  refine ⟨r, h1, rfl, h2, fun p q c hp hq hc => ?_⟩
  match p, q, hp, hq with
  | [i], [j], .cons hi .nil, .cons hj .nil =>
    have hi : i < l + 1 - m := hi
    have hcl := ravel_lt hc
    have hu : j * prod b + ravel b c < m * prod b := by
      have : (j + 1) * prod b ≤ m * prod b := Nat.mul_le_mul_right _ hj
      rw [Nat.add_mul] at this
      omega
    have := h3 i hi (by omega) _ hu
    have e1 : ravel ([l + 1 - m] ++ ([m] ++ b)) ([i] ++ [j] ++ c) = (i - 0) * (m * prod b) + (j * prod b + ravel b c) := rfl
    have e2 : ravel ([l] ++ b) (List.zipWith (· + ·) [i] [j] ++ c) = i * prod b + (j * prod b + ravel b c) := by
      show (i + j) * prod b + ravel b c = _
      rw [Nat.add_mul, Nat.add_assoc]
    rw [e1, e2]
    exact this

/-! ## Several axes -/

theorem strides_last : ∀ {a : List Nat} (cia : Nat), a ≠ [] → strides a cia = (strides a cia).dropLast ++ [cia]
  | [], _, h => absurd rfl h
  | [l], cia, _ => by
    show [cia * 1] = [] ++ [cia]
    rw [Nat.mul_one]
    rfl
  | l :: l' :: a, cia, _ => by
    have := strides_last (a := l' :: a) cia nofun
    show cia * prod (l' :: a) :: strides (l' :: a) cia = cia * prod (l' :: a) :: ((strides (l' :: a) cia).dropLast ++ [cia])
    rw [← this]

theorem zeros {l : List Nat} (h : ∀ s ∈ l, 0 < s) (ss : List Nat) : InShape l (l.map fun _ => 0) ∧ rav l (l.map fun _ => 0) = 0 ∧ off ss (l.map fun _ => 0) = 0 := by
  induction l generalizing ss with
  | nil => exact ⟨.nil, rfl, by cases ss <;> rfl⟩
  | cons s l ih =>
    have ih := ih fun t ht => h t (by simp [ht])
    refine ⟨.cons (h s (by simp)) (ih []).1, ?_, ?_⟩
    · show 0 + s * _ = 0
      rw [(ih []).2.1]
      rfl
    · cases ss with
      | nil => rfl
      | cons t ss =>
        show 0 * t + _ = 0
        rw [(ih ss).2.2]
        omega

theorem zip_zeros (l : List Nat) : (l.map fun l => (0, l)) = (l.map fun _ => 0).zip l := by
  induction l with
  | nil => rfl
  | cons s l ih => rw [List.map_cons, List.map_cons, List.zip_cons_cons, ih]

theorem place_off {ws' a p q' : List Nat} {m ql : Nat} (cia : Nat) (hf : Fits (ws' ++ [m]) a) (hp : InShape (places (ws' ++ [m]) a) p) (hq : InShape ws' q') (hm : ql < m) :
    off ((strides a cia).dropLast.reverse ++ (strides a cia).reverse) (p ++ q').reverse + ql * cia =
      ravel a (List.zipWith (· + ·) p (q' ++ [ql])) * cia := by
  have hq2 : InShape (ws' ++ [m]) (q' ++ [ql]) := hq.append (.cons hm .nil)
  have la := hf.length
  have lp := hp.length
  rw [hf.places_length] at lp
  have lq := hq.length
  have lq2 := hq2.length
  have hne : a ≠ [] := by rintro rfl; rw [List.length_append] at la; cases la
  have ls := strides_length a cia
  have hl := strides_last cia hne
  rw [← List.reverse_append, off_reverse, off_append (by omega)]
  · have e : off (strides a cia) (q' ++ [ql]) = off (strides a cia).dropLast q' + ql * cia := by
      rw [hl, List.dropLast_concat, off_append]
      · rfl
      · rw [List.length_dropLast, ls, ← la, List.length_append]
        simpa using lq.symm
    rw [Nat.add_assoc, ← e, off_add _ (by omega)]
    exact off_strides cia (sum_in hf hp hq2)
  · have lw : (ws' ++ [m]).length = ws'.length + 1 := by simp
    rw [List.length_append, List.length_append, List.length_dropLast]
    omega

theorem several_ok {α} {ws a b : List Nat} {x : List α} (hf : Fits ws a) (h2 : 2 ≤ ws.length) (hx : x.length = prod (a ++ b)) (hx32 : x.length < 2^32)
    (hw0 : ∀ m ∈ ws, 0 < m) (hp0 : ∀ m ∈ places ws a, 0 < m) (ha0 : ∀ m ∈ a, 0 < m) (hb : 0 < prod b) (hp : prod (places ws a ++ ws ++ b) < 2^32) :
    let rsh := places ws a ++ (ws ++ b)
    let ria := prod b * prod (places ws a ++ ws)
    ∃ r, loopN x (a ++ b) ws.length (prod b) (mulU (prod b) (rsh.getD (2 * ws.length - 1) 0)) ria (ria + 1) ((rsh.take (2 * ws.length - 1)).reverse.map fun l => (0, l)) 0 0 = .ok r ∧
      IsWindows ws a b x rsh r := by
  have la := hf.length
  have lp := hf.places_length
  have lx : x.length = prod a * prod b := by rw [hx, prod_append]
  obtain ⟨ws', m, rfl⟩ : ∃ ws' m, ws = ws' ++ [m] := ⟨ws.dropLast, ws.getLast (by rintro rfl; cases h2), (List.dropLast_concat_getLast _).symm⟩
  intro rsh ria
  have hrsh : rsh = (places (ws' ++ [m]) a ++ ws') ++ (m :: b) := by
    show _ ++ _ = _
    simp
  have hlen : (places (ws' ++ [m]) a ++ ws').length = 2 * (ws' ++ [m]).length - 1 := by
    rw [List.length_append, lp, List.length_append, List.length_singleton]
    omega
  have hget : rsh.getD (2 * (ws' ++ [m]).length - 1) 0 = m := by
    rw [hrsh, List.getD_eq_getElem?_getD, List.getElem?_append_right (by omega), hlen, Nat.sub_self]
    rfl
  have htake : rsh.take (2 * (ws' ++ [m]).length - 1) = places (ws' ++ [m]) a ++ ws' := by
    rw [hrsh, ← hlen, List.take_left]
  rw [hget, htake, zip_zeros]
  have hm0 : 0 < m := hw0 m (by simp)
  have hpos : ∀ s ∈ (places (ws' ++ [m]) a ++ ws'), 0 < s := by
    intro s hs
    rcases List.mem_append.1 hs with h | h
    · exact hp0 s h
    · exact hw0 s (by simp [h])
  have hposr : ∀ s ∈ (places (ws' ++ [m]) a ++ ws').reverse, 0 < s := fun s hs => hpos s (List.mem_reverse.1 hs)
  have hprod : prod rsh = prod (places (ws' ++ [m]) a ++ ws') * (m * prod b) := by rw [hrsh, prod_append]; rfl
  have hria : ria = prod (places (ws' ++ [m]) a ++ ws').reverse * (m * prod b) := by
    show prod b * prod (places (ws' ++ [m]) a ++ (ws' ++ [m])) = _
    rw [prod_reverse, ← List.append_assoc, prod_append _ [m]]
    show prod b * (_ * (m * 1)) = _
    rw [Nat.mul_one, Nat.mul_comm, Nat.mul_assoc]
  have hp' : prod rsh < 2^32 := by
    show prod (_ ++ _) < _
    rw [← List.append_assoc]
    exact hp
  have hk0 : 0 < m * prod b := Nat.mul_pos hm0 hb
  have hk : mulU (prod b) m = m * prod b := by
    unfold mulU
    have : m * prod b ≤ prod (places (ws' ++ [m]) a ++ ws') * (m * prod b) := Nat.le_mul_of_pos_left _ (prod_pos hpos)
    rw [Nat.mul_comm]
    exact Nat.mod_eq_of_lt (by omega)
  rw [hk]
  have hr32 : ria < 2^32 := by rw [hria, prod_reverse, ← hprod]; exact hp'
  have hlast : (a ++ b)[(ws' ++ [m]).length - 1]? = some (a[(ws' ++ [m]).length - 1]'(by omega)) := by
    rw [List.getElem?_append_left (by omega), List.getElem?_eq_getElem (by omega)]
  have ls := strides_length a (prod b)
  have hstr : mulU (prod b) (a[(ws' ++ [m]).length - 1]'(by omega)) = stride a (prod b) (a.length - 2) := by
    have e1 : stride a (prod b) (a.length - 1) = prod b := by
      unfold stride
      rw [Nat.sub_add_cancel (by omega), List.drop_length]
      exact Nat.mul_one _
    have e2 := stride_step (a := a) (b := a.length - 2) (s := a[(ws' ++ [m]).length - 1]'(by omega)) (prod b) (by
      rw [show a.length - 2 + 1 = (ws' ++ [m]).length - 1 by omega, List.getElem?_eq_getElem (by omega)])
    rw [show a.length - 2 + 1 = a.length - 1 by omega, e1] at e2
    unfold mulU
    rw [← e2]
    have := stride_le (prod b) (a.length - 2) ha0
    exact Nat.mod_eq_of_lt (by omega)
  have hwalk := walk_all (bs := b) (cia := prod b) ha0 (by omega) (by omega)
  rw [← hstr] at hwalk
  generalize (a[(ws' ++ [m]).length - 1]'(by omega)) = sl at hlast hstr hwalk
  rw [← la] at hwalk
  have hin : ∀ idx, InShape (places (ws' ++ [m]) a ++ ws').reverse idx →
      off ((strides a (prod b)).dropLast.reverse ++ (strides a (prod b)).reverse) idx + m * prod b ≤ x.length := by
    intro idx h
    have h := h.reverse
    rw [List.reverse_reverse] at h
    obtain ⟨p, q', e, h1, h2⟩ := h.split
    have := place_off (ql := m - 1) (prod b) hf h1 h2 (by omega)
    rw [← e, List.reverse_reverse] at this
    have hin := ravel_lt (sum_in hf h1 (h2.append (.cons (show m - 1 < m by omega) .nil)))
    have hle : (ravel a (List.zipWith (· + ·) p (q' ++ [m - 1])) + 1) * prod b ≤ prod a * prod b := Nat.mul_le_mul_right _ hin
    have hm' : m * prod b = (m - 1) * prod b + prod b := by
      conv => lhs; rw [show m = m - 1 + 1 by omega, Nat.add_mul, Nat.one_mul]
    rw [Nat.add_mul, Nat.one_mul] at hle
    omega
  obtain ⟨z1, z2, z3⟩ := zeros hposr ((strides a (prod b)).dropLast.reverse ++ (strides a (prod b)).reverse)
  have hTle : prod (places (ws' ++ [m]) a ++ ws').reverse ≤ ria := by
    rw [hria]
    exact Nat.le_mul_of_pos_right _ hk0
  obtain ⟨r, h1, h2, h3⟩ := loopN_spec hlast hwalk (by
      rw [List.length_append, List.length_reverse, List.length_reverse, List.length_reverse, List.length_append, List.length_dropLast, lp, ls, ← la, List.length_append, List.length_singleton]
      omega) hk0 hria hr32 hx32 hin (ria + 1) _ z1 (by omega)
  rw [z2, z3, Nat.zero_mul] at h1
  rw [z2, Nat.sub_zero] at h2
  refine ⟨r, h1, ?_, ?_, fun p q c hp hq hc => ?_⟩
  · rw [List.append_assoc]
  · rw [h2, prod_reverse, hprod]
  · obtain ⟨q', ql', e, hq1, hq2⟩ := hq.split
    match ql', hq2 with
    | [ql], .cons hql .nil =>
      subst e
      have hcl := ravel_lt hc
      have hu : ql * prod b + ravel b c < m * prod b := by
        have : (ql + 1) * prod b ≤ m * prod b := Nat.mul_le_mul_right _ hql
        rw [Nat.add_mul] at this
        omega
      have hpq := hp.append hq1
      have h3 := h3 _ hpq.reverse (by omega) _ hu
      rw [z2, Nat.sub_zero, rav_reverse hpq] at h3
      have e1 : ravel rsh (p ++ (q' ++ [ql]) ++ c) = ravel (places (ws' ++ [m]) a ++ ws') (p ++ q') * (m * prod b) + (ql * prod b + ravel b c) := by
        rw [hrsh, show p ++ (q' ++ [ql]) ++ c = (p ++ q') ++ (ql :: c) by simp, ravel_append hpq]
        rfl
      rw [e1, h3, ravel_append (sum_in hf hp hq), ← place_off (prod b) hf hp hq1 hql, Nat.add_assoc]

end Verif.Windows
