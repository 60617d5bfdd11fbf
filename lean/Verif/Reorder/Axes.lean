import Verif.Reorder.Model
import Verif.Group.Basic
import Verif.Transpose.Basic
/-!
# Reorder Axes: copying along axes with strides
-/
namespace Verif.Reorder
open Verif.Bits Verif.Slash Verif.Rep Verif.Select Verif.Under Verif.Rotate
open Verif.Group (GKind GLawful)
open Verif.Transpose (forLoop forLoop_spec)

/-- The offset in `𝕩` of item `t`, with the axes from the last one on. -/
def offR : List (Nat × Nat) → Nat → Nat
  | [], _ => 0
  | (l, s) :: A, t => t % l * s + offR A (t / l)

theorem lens_cons (l s : Nat) (A : List (Nat × Nat)) : lens ((l, s) :: A) = l * lens A := rfl

theorem lens_append (A B : List (Nat × Nat)) : lens (A ++ B) = lens A * lens B := by
  rw [lens, List.map_append, prod_append]; rfl

theorem offR_append : ∀ (A B : List (Nat × Nat)) (t : Nat), offR (A ++ B) t = offR A t + offR B (t / lens A)
  | [], B, t => by
    show offR B t = 0 + offR B (t / 1)
    rw [Nat.div_one, Nat.zero_add]
  | (l, s) :: A, B, t => by
    rw [List.cons_append, offR, offR, offR_append A B, lens_cons, Nat.div_div_eq_div_mul, Nat.add_assoc]

theorem offR_add_mul : ∀ (A : List (Nat × Nat)) (t k : Nat), 0 < lens A → offR A (t + lens A * k) = offR A t
  | [], _, _, _ => rfl
  | (l, s) :: A, t, k, h => by
    rw [lens_cons] at h ⊢
    have hl : 0 < l := Nat.pos_of_mul_pos_right h
    rw [offR, offR, Nat.mul_assoc, Nat.add_mul_mod_self_left, Nat.add_mul_div_left _ _ hl, offR_add_mul A _ _ (Nat.pos_of_mul_pos_left h)]

/-! ## Counters -/

def ctrs : List (Nat × Nat) → Nat → List Ctr
  | [], _ => []
  | (l, s) :: A, t => ⟨t % l, l, s⟩ :: ctrs A (t / l)

theorem zeros_eq : ∀ (A : List (Nat × Nat)), zeros A = ctrs A 0
  | [] => rfl
  | (l, s) :: A => by
    show ⟨0, l, s⟩ :: zeros A = _
    rw [ctrs, zeros_eq A, Nat.zero_mod, Nat.zero_div]

theorem offR_zero : ∀ (A : List (Nat × Nat)), offR A 0 = 0
  | [] => rfl
  | (l, s) :: A => by rw [offR, Nat.zero_mod, Nat.zero_div, offR_zero A, Nat.zero_mul]

theorem succ_mod_lt {t l : Nat} (h : t % l + 1 < l) : (t + 1) % l = t % l + 1 ∧ (t + 1) / l = t / l := by
  have e := Nat.div_add_mod t l
  have e2 : t + 1 = (t % l + 1) + l * (t / l) := by omega
  have h1 : (t + 1) % l = t % l + 1 := by
    rw [e2, Nat.add_mul_mod_self_left, Nat.mod_eq_of_lt h]
  refine ⟨h1, ?_⟩
  have : (t % l + 1 + l * (t / l)) / l = t / l := by rw [Nat.add_mul_div_left _ _ (by omega), Nat.div_eq_of_lt h, Nat.zero_add]
  rwa [← e2] at this

theorem succ_mod_eq {t l : Nat} (h : t % l + 1 = l) : (t + 1) % l = 0 ∧ (t + 1) / l = t / l + 1 := by
  have e := Nat.div_add_mod t l
  have e2 : t + 1 = l * (t / l + 1) := by rw [Nat.mul_add]; omega
  have hl : 0 < l := by omega
  refine ⟨by rw [e2, Nat.mul_mod_right], ?_⟩
  have : l * (t / l + 1) / l = t / l + 1 := Nat.mul_div_cancel_left _ hl
  rwa [← e2] at this

theorem carry_spec : ∀ (A : List (Nat × Nat)) (t e : Nat), t + 1 < lens A → carry (ctrs A t) (e + offR A t) = some (ctrs A (t + 1), e + offR A (t + 1))
  | [], t, e, h => by
    have : t + 1 < 1 := h
    omega
  | (l, s) :: A, t, e, h => by
    rw [lens_cons] at h
    have hl : 0 < l := Nat.pos_of_mul_pos_right (Nat.zero_lt_of_lt h)
    have hm := Nat.mod_lt t hl
    rw [ctrs, ctrs, carry, offR, offR]
    dsimp only
    by_cases hc : t % l + 1 < l
    · rw [if_pos hc, (succ_mod_lt hc).1, (succ_mod_lt hc).2, Nat.add_mul, Nat.one_mul]
      congr 2
      omega
    · have hc' : t % l + 1 = l := by omega
      have ht : t / l + 1 < lens A := by
        have e1 := (succ_mod_eq hc').2
        rw [← e1]
        exact (Nat.div_lt_iff_lt_mul hl).2 (by rw [Nat.mul_comm]; exact h)
      have e2 : t % l * s + s = l * s := by
        have : (t % l + 1) * s = l * s := by rw [hc']
        rw [Nat.add_mul, Nat.one_mul] at this
        exact this
      rw [if_neg hc, (succ_mod_eq hc').1, (succ_mod_eq hc').2,
        show e + (t % l * s + offR A (t / l)) + s - l * s = e + offR A (t / l) by omega, carry_spec A _ e ht, Option.map_some, Nat.zero_mul, Nat.zero_add]

theorem carry2_mid : ∀ (A : List (Nat × Nat)) (outer : List Ctr) (sk i t e : Nat), t + 1 < lens A →
    carry2 sk (ctrs A t) outer i (e + offR A t) = some (ctrs A (t + 1), outer, i, e + offR A (t + 1))
  | [], _, _, _, t, e, h => by
    have : t + 1 < 1 := h
    omega
  | (l, s) :: A, outer, sk, i, t, e, h => by
    rw [lens_cons] at h
    have hl : 0 < l := Nat.pos_of_mul_pos_right (Nat.zero_lt_of_lt h)
    have hm := Nat.mod_lt t hl
    rw [ctrs, ctrs, carry2, offR, offR]
    dsimp only
    by_cases hc : t % l + 1 < l
    · rw [if_pos hc, (succ_mod_lt hc).1, (succ_mod_lt hc).2, Nat.add_mul, Nat.one_mul]
      congr 4
      omega
    · have hc' : t % l + 1 = l := by omega
      have ht : t / l + 1 < lens A := by
        have e1 := (succ_mod_eq hc').2
        rw [← e1]
        exact (Nat.div_lt_iff_lt_mul hl).2 (by rw [Nat.mul_comm]; exact h)
      have e2 : t % l * s + s = l * s := by
        have : (t % l + 1) * s = l * s := by rw [hc']
        rw [Nat.add_mul, Nat.one_mul] at this
        exact this
      rw [if_neg hc, (succ_mod_eq hc').1, (succ_mod_eq hc').2,
        show e + (t % l * s + offR A (t / l)) + s - l * s = e + offR A (t / l) by omega, carry2_mid A outer sk i _ e ht, Option.map_some, Nat.zero_mul, Nat.zero_add]

theorem carry2_wrap : ∀ (A B : List (Nat × Nat)) (sk i t b : Nat), t + 1 = lens A → b + 1 < lens B →
    carry2 sk (ctrs A t) (ctrs B b) i (offR B b + offR A t) = some (ctrs A 0, ctrs B (b + 1), i + sk, offR B (b + 1))
  | [], B, sk, i, t, b, h, hb => by
    have := carry_spec B b 0 hb
    rw [Nat.zero_add, Nat.zero_add] at this
    rw [ctrs, carry2, offR, Nat.add_zero, this, Option.map_some]
    rfl
  | (l, s) :: A, B, sk, i, t, b, h, hb => by
    rw [lens_cons] at h
    have hl : 0 < l := by
      rcases Nat.eq_zero_or_pos l with h0 | h0
      · rw [h0, Nat.zero_mul] at h; omega
      · exact h0
    have hm := Nat.mod_lt t hl
    have hc' : t % l + 1 = l := by
      rcases Nat.lt_or_ge (t % l + 1) l with hc | hc
      · have := (succ_mod_lt hc).1
        rw [h, Nat.mul_mod_right] at this
        omega
      · omega
    have ht : t / l + 1 = lens A := by
      rw [← (succ_mod_eq hc').2, h, Nat.mul_div_cancel_left _ hl]
    have e2 : t % l * s + s = l * s := by
      have : (t % l + 1) * s = l * s := by rw [hc']
      rw [Nat.add_mul, Nat.one_mul] at this
      exact this
    rw [ctrs, ctrs, carry2, offR]
    dsimp only
    rw [if_neg (by omega), show offR B b + (t % l * s + offR A (t / l)) + s - l * s = offR B b + offR A (t / l) by omega, carry2_wrap A B sk i _ b ht hb, Option.map_some,
      Nat.zero_mod, Nat.zero_div]

/-! ## Correct cells -/

section
variable {M α : Type} {K : GKind M α} {ok : Nat → M → Prop}

/-- The cells in `S` of the result are there. -/
def Good (K : GKind M α) (ok : Nat → M → Prop) (x : M) (A : List (Nat × Nat)) (csz : Nat) (S : Nat → Prop) (m : M) : Prop :=
  ok (csz * lens A) m ∧ ∀ t, t < lens A → S t → ∀ r, r < csz → K.get m (t * csz + r) = K.get x (offR A t + r)

theorem Good.mono {x m : M} {A csz} {S S' : Nat → Prop} (h : Good K ok x A csz S m) (hs : ∀ t, t < lens A → S' t → S t) : Good K ok x A csz S' m :=
  ⟨h.1, fun t ht hS => h.2 t ht (hs t ht hS)⟩

theorem put (hK : GLawful K ok) {x m : M} {A : List (Nat × Nat)} {csz nx : Nat} {S : Nat → Prop} (hx : ok nx x) (hin : ∀ t, t < lens A → offR A t + csz ≤ nx)
    (h : Good K ok x A csz S m) {t : Nat} (ht : t < lens A) {i j : Nat} (hi : i = t * csz) (hj : j = offR A t) :
    ∃ m', K.copy m i x j csz = some m' ∧ Good K ok x A csz (fun u => S u ∨ u = t) m' := by
  subst hi hj
  have hle : (t + 1) * csz ≤ lens A * csz := Nat.mul_le_mul_right _ ht
  rw [Nat.add_mul, Nat.one_mul, Nat.mul_comm (lens A)] at hle
  obtain ⟨m', e, hok, hg⟩ := hK.copy (csz * lens A) nx m x (t * csz) (offR A t) csz h.1 hx hle (hin t ht)
  refine ⟨m', e, hok, fun u hu hS r hr => ?_⟩
  have hle2 : (u + 1) * csz ≤ lens A * csz := Nat.mul_le_mul_right _ hu
  rw [Nat.add_mul, Nat.one_mul, Nat.mul_comm (lens A)] at hle2
  rw [hg _ (by omega)]
  by_cases hut : u = t
  · rw [hut, if_pos (by omega), show t * csz + r - t * csz = r by omega]
  · rw [if_neg]
    · exact h.2 u hu (hS.resolve_right hut) r hr
    · rcases Nat.lt_or_gt_of_ne hut with hlt | hgt
      · have := Nat.mul_le_mul_right csz (show u + 1 ≤ t from hlt)
        rw [Nat.add_mul, Nat.one_mul] at this
        omega
      · have := Nat.mul_le_mul_right csz (show t + 1 ≤ u from hgt)
        rw [Nat.add_mul, Nat.one_mul] at this
        omega

theorem good_new (hK : GLawful K ok) (x : M) (A : List (Nat × Nat)) (csz : Nat) {S : Nat → Prop} (hS : ∀ t, ¬ S t) : Good K ok x A csz S (K.new (csz * lens A)) :=
  ⟨hK.new _, fun t _ h => (hS t h).elim⟩

/-! ## Path 3 -/

theorem selectCells_spec (hK : GLawful K ok) {x : M} {A : List (Nat × Nat)} {csz nx : Nat} (hx : ok nx x) (hin : ∀ t, t < lens A → offR A t + csz ≤ nx) :
    ∀ (ind : List Nat) (i : Nat) (m : M), i + ind.length = lens A → (∀ k v, ind[k]? = some v → v * csz = offR A (i + k)) → Good K ok x A csz (· < i) m →
      ∃ m', selectCells K x csz ind i m = some m' ∧ Good K ok x A csz (fun _ => True) m'
  | [], i, m, hl, _, h => ⟨m, rfl, h.mono fun t ht _ => by have : i + 0 = lens A := hl; omega⟩
  | v :: ind, i, m, hl, hv, h => by
    rw [List.length_cons] at hl
    obtain ⟨m1, e1, h1⟩ := put hK hx hin h (t := i) (by omega) rfl (hv 0 v rfl)
    obtain ⟨m2, e2, h2⟩ := selectCells_spec hK hx hin ind (i + 1) m1 (by omega) (fun k v hk => by
      rw [hv (k + 1) v hk, show i + (k + 1) = i + 1 + k by omega]) (h1.mono fun t _ hs => by omega)
    exact ⟨m2, by rw [selectCells, e1, Option.bind_some, e2], h2⟩

theorem range_flat (l n : Nat) (f g : Nat → Nat) : ((List.range l).map f).flatMap (fun v => ((List.range n).map g).map (v + ·)) = (List.range (n * l)).map fun t => f (t / n) + g (t % n) := by
  rcases Nat.eq_zero_or_pos n with hn | hn
  · subst hn; simp
  induction l with
  | zero => simp
  | succ l ih =>
    rw [List.range_succ, List.map_append, List.flatMap_append, ih, Nat.mul_succ, List.range_add, List.map_append]
    congr 1
    simp only [List.map_cons, List.map_nil, List.flatMap_cons, List.flatMap_nil, List.append_nil, List.map_map]
    apply List.map_congr_left
    intro t ht
    have ht := List.mem_range.1 ht
    show f l + g t = f ((n * l + t) / n) + g ((n * l + t) % n)
    rw [Nat.mul_add_div hn, Nat.div_eq_of_lt ht, Nat.mul_add_mod, Nat.mod_eq_of_lt ht, Nat.add_zero]

/-- Strides in cells. -/
def perCell (csz : Nat) (A : List (Nat × Nat)) : List (Nat × Nat) := A.map fun a => (a.1, a.2 / csz)

theorem lens_perCell (csz : Nat) (A : List (Nat × Nat)) : lens (perCell csz A) = lens A := by
  simp [lens, perCell, List.map_map, Function.comp_def]

theorem offR_perCell (csz : Nat) : ∀ (A : List (Nat × Nat)) (t : Nat), (∀ a ∈ A, csz ∣ a.2) → offR (perCell csz A) t * csz = offR A t
  | [], _, _ => Nat.zero_mul _
  | (l, s) :: A, t, h => by
    show (t % l * (s / csz) + offR (perCell csz A) (t / l)) * csz = _
    rw [Nat.add_mul, offR_perCell csz A _ (fun a ha => h a (List.mem_cons_of_mem _ ha)), Nat.mul_assoc, Nat.div_mul_cancel (h (l, s) List.mem_cons_self)]
    rfl

theorem indices_spec (csz : Nat) : ∀ (R D : List (Nat × Nat)), 0 < lens (D ++ R) →
    indices csz R ((List.range (lens D)).map (offR (perCell csz D))) = (List.range (lens (D ++ R))).map (offR (perCell csz (D ++ R)))
  | [], D, _ => by rw [List.append_nil]; rfl
  | (l, s) :: R, D, h => by
    have hd : 0 < lens D := by
      rw [lens_append] at h
      exact Nat.pos_of_mul_pos_right h
    have hl : 0 < l := by
      rw [lens_append, lens_cons] at h
      exact Nat.pos_of_mul_pos_right (Nat.pos_of_mul_pos_left h)
    have key : (((List.range l).map fun k => s / csz * k).flatMap fun v => ((List.range (lens D)).map (offR (perCell csz D))).map (v + ·)) =
        (List.range (lens (D ++ [(l, s)]))).map (offR (perCell csz (D ++ [(l, s)]))) := by
      rw [range_flat, lens_append, show lens [(l, s)] = l from Nat.mul_one _]
      apply List.map_congr_left
      intro t ht
      have ht := List.mem_range.1 ht
      have e : offR (perCell csz D) t = offR (perCell csz D) (t % lens D) := by
        have h2 := offR_add_mul (perCell csz D) (t % lens D) (t / lens D) (by rw [lens_perCell]; exact hd)
        rw [lens_perCell, Nat.mod_add_div] at h2
        exact h2
      have hlt : t / lens D < l := (Nat.div_lt_iff_lt_mul hd).2 (by rw [Nat.mul_comm]; exact ht)
      rw [show perCell csz (D ++ [(l, s)]) = perCell csz D ++ [(l, s / csz)] by simp [perCell], offR_append, lens_perCell, e]
      show _ = _ + ((t / lens D) % l * (s / csz) + 0)
      rw [Nat.mod_eq_of_lt hlt, Nat.mul_comm (s / csz)]
      omega
    rw [indices, key, indices_spec csz R (D ++ [(l, s)]) (by rw [List.append_assoc]; exact h), List.append_assoc]
    rfl

/-! ## Path 1 -/

theorem inner_spec (hK : GLawful K ok) {x : M} {A : List (Nat × Nat)} {csz nx l str T : Nat} (hx : ok nx x) (hin : ∀ t, t < lens ((l, str) :: A) → offR ((l, str) :: A) t + csz ≤ nx)
    (hT : T < lens A) : ∀ (n k : Nat) (m : M), k + n = l → Good K ok x ((l, str) :: A) csz (· < l * T + k) m →
      ∃ m', inner K x csz str (offR A T) n k ((l * T + k) * csz) m = some (m', l * (T + 1) * csz) ∧ Good K ok x ((l, str) :: A) csz (· < l * (T + 1)) m'
  | 0, k, m, hk, h => by
    have e : l * T + k = l * (T + 1) := by rw [Nat.mul_add]; omega
    rw [e] at h ⊢
    exact ⟨m, rfl, h⟩
  | n + 1, k, m, hk, h => by
    have hlt : l * T + k < lens ((l, str) :: A) := by
      rw [lens_cons]
      have := Nat.mul_le_mul_left l (show T + 1 ≤ lens A from hT)
      rw [Nat.mul_add] at this
      omega
    obtain ⟨m1, e1, h1⟩ := put hK hx hin h hlt rfl (j := offR A T + k * str) (by
      rw [offR, Nat.mul_add_mod, Nat.mul_add_div (by omega), Nat.mod_eq_of_lt (by omega), Nat.div_eq_of_lt (by omega), Nat.add_zero, Nat.add_comm])
    obtain ⟨m2, e2, h2⟩ := inner_spec hK hx hin hT n (k + 1) m1 (by omega) (h1.mono fun t _ hs => by omega)
    refine ⟨m2, ?_, h2⟩
    rw [inner, e1, Option.bind_some, ← e2, ← Nat.add_assoc, Nat.add_mul (l * T + k) 1, Nat.one_mul]

theorem axisLoop_spec (hK : GLawful K ok) {x : M} {A : List (Nat × Nat)} {csz nx l str : Nat} (hx : ok nx x) (hin : ∀ t, t < lens ((l, str) :: A) → offR ((l, str) :: A) t + csz ≤ nx)
    (hc : 0 < csz) (hl : 0 < l) : ∀ (fuel T : Nat) (m : M), T < lens A → lens A ≤ T + fuel → Good K ok x ((l, str) :: A) csz (· < l * T) m →
      ∃ m', axisLoop K x csz l str (csz * lens ((l, str) :: A)) fuel (ctrs A T) (offR A T) (l * T * csz) m = some m' ∧ Good K ok x ((l, str) :: A) csz (fun _ => True) m'
  | 0, T, m, h1, h2, _ => by omega
  | fuel + 1, T, m, h1, h2, h => by
    obtain ⟨m1, e1, hg⟩ := inner_spec hK hx hin h1 l 0 m (by omega) h
    rw [axisLoop]
    rw [Nat.add_zero] at e1
    rw [e1, Option.bind_some]
    dsimp only
    by_cases hT : T + 1 = lens A
    · rw [lens_cons, ← hT, if_pos (Nat.mul_comm _ _)]
      exact ⟨m1, rfl, hg.mono fun t ht _ => by rw [lens_cons, ← hT] at ht; exact ht⟩
    · rw [if_neg]
      · have hcar := carry_spec A T 0 (by omega)
        rw [Nat.zero_add, Nat.zero_add] at hcar
        rw [hcar, Option.bind_some]
        exact axisLoop_spec hK hx hin hc hl fuel (T + 1) m1 (by omega) (by omega) hg
      · intro e
        rw [Nat.mul_comm csz, lens_cons] at e
        exact hT (Nat.eq_of_mul_eq_mul_left hl (Nat.eq_of_mul_eq_mul_right hc e))

/-! ## Path 2 -/

theorem findOne_spec : ∀ {A mid outer : List (Nat × Nat)} {w : Nat}, findOne A = some (mid, w, outer) → A = mid ++ (w, 1) :: outer
  | [], _, _, _, h => by cases h
  | (l, s) :: A, mid, outer, w, h => by
    rw [findOne] at h
    by_cases hs : s = 1
    · rw [if_pos hs] at h
      cases h
      rw [hs]; rfl
    · rw [if_neg hs] at h
      cases hf : findOne A with
      | none => rw [hf] at h; cases h
      | some r =>
        obtain ⟨mid', w', outer'⟩ := r
        rw [hf] at h
        cases h
        rw [findOne_spec hf]
        rfl

/-- The cells of the piece with numbers `a` and `b`. -/
def cellAt (h lm w a b p q : Nat) : Nat := q + h * (a + lm * (p + w * b))

theorem offR_cellAt {h ws w : Nat} {mid outer : List (Nat × Nat)} {a b p q : Nat} (hp : p < w) (hq : q < h) (ha : a < lens mid) :
    offR ((h, ws) :: (mid ++ (w, 1) :: outer)) (cellAt h (lens mid) w a b p q) = q * ws + (offR mid a + (p + offR outer b)) := by
  rw [cellAt, offR, Nat.add_mul_mod_self_left, Nat.mod_eq_of_lt hq, Nat.add_mul_div_left _ _ (by omega), Nat.div_eq_of_lt hq, Nat.zero_add, offR_append,
    offR_add_mul mid _ _ (by omega), Nat.add_mul_div_left _ _ (by omega), Nat.div_eq_of_lt ha, Nat.zero_add, offR, Nat.add_mul_mod_self_left, Nat.mod_eq_of_lt hp,
    Nat.add_mul_div_left _ _ (by omega), Nat.div_eq_of_lt hp, Nat.zero_add, Nat.mul_one]

theorem digits_lt {a b n k : Nat} (ha : a < n) (hb : b < k) : a + n * b < n * k := by
  have := Nat.mul_le_mul_left n (show b + 1 ≤ k from hb)
  rw [Nat.mul_add] at this
  omega

theorem cellAt_lt {h ws w : Nat} {mid outer : List (Nat × Nat)} {a b p q : Nat} (hp : p < w) (hq : q < h) (ha : a < lens mid) (hb : b < lens outer) :
    cellAt h (lens mid) w a b p q < lens ((h, ws) :: (mid ++ (w, 1) :: outer)) := by
  rw [lens_cons, lens_append, lens_cons]
  exact digits_lt hq (digits_lt ha (digits_lt hp hb))

theorem cellAt_inj {h w lm a b p q a' b' p' q' : Nat} (hp : p < w) (hq : q < h) (ha : a < lm) (hp' : p' < w) (hq' : q' < h) (ha' : a' < lm)
    (e : cellAt h lm w a b p q = cellAt h lm w a' b' p' q') : a = a' ∧ b = b' ∧ p = p' ∧ q = q' := by
  have aux : ∀ {n u v u' v' : Nat}, u < n → u' < n → u + n * v = u' + n * v' → u = u' ∧ v = v' := fun {n u v u' v'} h1 h2 h3 => by
    have h4 : (u + n * v) / n = v := by rw [Nat.add_mul_div_left _ _ (by omega), Nat.div_eq_of_lt h1, Nat.zero_add]
    have h5 : (u' + n * v') / n = v' := by rw [Nat.add_mul_div_left _ _ (by omega), Nat.div_eq_of_lt h2, Nat.zero_add]
    have : v = v' := by rw [← h4, ← h5, h3]
    subst this
    exact ⟨by omega, rfl⟩
  obtain ⟨h1, h2⟩ := aux hq hq' e
  obtain ⟨h3, h4⟩ := aux ha ha' h2
  obtain ⟨h5, h6⟩ := aux hp hp' h4
  exact ⟨h3, h6, h5, h1⟩

theorem cellAt_exists {h ws w : Nat} {mid outer : List (Nat × Nat)} {t : Nat} (ht : t < lens ((h, ws) :: (mid ++ (w, 1) :: outer))) :
    ∃ a b p q, a < lens mid ∧ b < lens outer ∧ p < w ∧ q < h ∧ t = cellAt h (lens mid) w a b p q := by
  rw [lens_cons, lens_append, lens_cons] at ht
  have h0 : 0 < h * (lens mid * (w * lens outer)) := by omega
  have hh := Nat.pos_of_mul_pos_right h0
  have hm := Nat.pos_of_mul_pos_right (Nat.pos_of_mul_pos_left h0)
  have hw := Nat.pos_of_mul_pos_right (Nat.pos_of_mul_pos_left (Nat.pos_of_mul_pos_left h0))
  refine ⟨t / h % lens mid, t / h / lens mid / w, t / h / lens mid % w, t % h, Nat.mod_lt _ hm, ?_, Nat.mod_lt _ hw, Nat.mod_lt _ hh, ?_⟩
  · rw [Nat.div_div_eq_div_mul, Nat.div_div_eq_div_mul]
    refine (Nat.div_lt_iff_lt_mul (Nat.mul_pos hh (Nat.mul_pos hm hw))).2 ?_
    rw [Nat.mul_comm]
    simpa [Nat.mul_assoc] using ht
  · rw [cellAt, Nat.mod_add_div, Nat.mod_add_div, Nat.mod_add_div]


theorem tran_spec (hK : GLawful K ok) {x m : M} {h ws w : Nat} {mid outer : List (Nat × Nat)} {nx : Nat} {S : Nat → Prop} (hx : ok nx x)
    (hin : ∀ t, t < lens ((h, ws) :: (mid ++ (w, 1) :: outer)) → offR ((h, ws) :: (mid ++ (w, 1) :: outer)) t + 1 ≤ nx) {a b : Nat} (ha : a < lens mid) (hb : b < lens outer)
    (hg : Good K ok x ((h, ws) :: (mid ++ (w, 1) :: outer)) 1 S m) {i j : Nat} (hi : i = h * (a + lens mid * (w * b))) (hj : j = offR outer b + offR mid a) :
    ∃ m', tran K x 1 i j w h ws (lens mid * h) m = some m' ∧
      Good K ok x ((h, ws) :: (mid ++ (w, 1) :: outer)) 1 (fun t => S t ∨ ∃ p q, p < w ∧ q < h ∧ t = cellAt h (lens mid) w a b p q) m' := by
  have step : ∀ (S' : Nat → Prop) (m : M) (p q : Nat), p < w → q < h → Good K ok x ((h, ws) :: (mid ++ (w, 1) :: outer)) 1 S' m →
      ∃ m', K.copy m (i + (p * (lens mid * h) + q) * 1) x (j + (q * ws + p) * 1) 1 = some m' ∧
        Good K ok x ((h, ws) :: (mid ++ (w, 1) :: outer)) 1 (fun t => S' t ∨ t = cellAt h (lens mid) w a b p q) m' := fun S' m p q hp hq hgm =>
    put hK hx hin hgm (cellAt_lt hp hq ha hb) (by
      rw [hi, cellAt, Nat.mul_one, Nat.mul_one]
      simp only [Nat.mul_add, ← Nat.mul_assoc]
      have : p * lens mid * h = h * lens mid * p := by rw [Nat.mul_comm, Nat.mul_comm p, Nat.mul_assoc]
      omega) (by rw [hj, offR_cellAt hp hq ha]; omega)
  unfold tran
  by_cases hlt : h < w
  · rw [if_pos hlt]
    obtain ⟨m', e, hI⟩ := forLoop_spec (fun q m => forLoop (fun p m => K.copy m (i + (p * (lens mid * h) + q) * 1) x (j + (q * ws + p) * 1) 1) w 0 m)
      (fun y m => Good K ok x ((h, ws) :: (mid ++ (w, 1) :: outer)) 1 (fun t => S t ∨ ∃ p q, p < w ∧ q < y ∧ t = cellAt h (lens mid) w a b p q) m) h 0 m
      (hg.mono fun t _ hs => hs.resolve_right fun ⟨_, _, _, h0, _⟩ => by omega) (fun y m _ hy hI => by
        obtain ⟨m', e, hI'⟩ := forLoop_spec (fun p m => K.copy m (i + (p * (lens mid * h) + y) * 1) x (j + (y * ws + p) * 1) 1)
          (fun z m => Good K ok x ((h, ws) :: (mid ++ (w, 1) :: outer)) 1 (fun t => S t ∨ (∃ p q, p < w ∧ q < y ∧ t = cellAt h (lens mid) w a b p q) ∨
            ∃ p, p < z ∧ t = cellAt h (lens mid) w a b p y) m) w 0 m
          (hI.mono fun t _ hs => hs.elim Or.inl fun hs => Or.inr (hs.resolve_right fun ⟨_, h0, _⟩ => by omega)) (fun z m _ hz hI => by
            obtain ⟨m', e, h'⟩ := step _ m z y (by omega) (by omega) hI
            exact ⟨m', e, h'.mono fun t _ hs => by
              rcases hs with hs | hs | ⟨p, hp, et⟩
              · exact Or.inl (Or.inl hs)
              · exact Or.inl (Or.inr (Or.inl hs))
              · rcases Nat.lt_or_ge p z with hpz | hpz
                · exact Or.inl (Or.inr (Or.inr ⟨p, hpz, et⟩))
                · exact Or.inr (by rw [et, show p = z by omega])⟩)
        exact ⟨m', e, hI'.mono fun t _ hs => by
          rcases hs with hs | ⟨p, q, hp, hq, et⟩
          · exact Or.inl hs
          · rcases Nat.lt_or_ge q y with hqy | hqy
            · exact Or.inr (Or.inl ⟨p, q, hp, hqy, et⟩)
            · exact Or.inr (Or.inr ⟨p, by omega, by rw [et, show q = y by omega]⟩)⟩)
    rw [Nat.zero_add] at hI
    exact ⟨m', e, hI⟩
  · rw [if_neg hlt]
    obtain ⟨m', e, hI⟩ := forLoop_spec (fun p m => forLoop (fun q m => K.copy m (i + (p * (lens mid * h) + q) * 1) x (j + (q * ws + p) * 1) 1) h 0 m)
      (fun y m => Good K ok x ((h, ws) :: (mid ++ (w, 1) :: outer)) 1 (fun t => S t ∨ ∃ p q, p < y ∧ q < h ∧ t = cellAt h (lens mid) w a b p q) m) w 0 m
      (hg.mono fun t _ hs => hs.resolve_right fun ⟨_, _, h0, _, _⟩ => by omega) (fun y m _ hy hI => by
        obtain ⟨m', e, hI'⟩ := forLoop_spec (fun q m => K.copy m (i + (y * (lens mid * h) + q) * 1) x (j + (q * ws + y) * 1) 1)
          (fun z m => Good K ok x ((h, ws) :: (mid ++ (w, 1) :: outer)) 1 (fun t => S t ∨ (∃ p q, p < y ∧ q < h ∧ t = cellAt h (lens mid) w a b p q) ∨
            ∃ q, q < z ∧ t = cellAt h (lens mid) w a b y q) m) h 0 m
          (hI.mono fun t _ hs => hs.elim Or.inl fun hs => Or.inr (hs.resolve_right fun ⟨_, h0, _⟩ => by omega)) (fun z m _ hz hI => by
            obtain ⟨m', e, h'⟩ := step _ m y z (by omega) (by omega) hI
            exact ⟨m', e, h'.mono fun t _ hs => by
              rcases hs with hs | hs | ⟨p, hp, et⟩
              · exact Or.inl (Or.inl hs)
              · exact Or.inl (Or.inr (Or.inl hs))
              · rcases Nat.lt_or_ge p z with hpz | hpz
                · exact Or.inl (Or.inr (Or.inr ⟨p, hpz, et⟩))
                · exact Or.inr (by rw [et, show p = z by omega])⟩)
        exact ⟨m', e, hI'.mono fun t _ hs => by
          rcases hs with hs | ⟨p, q, hp, hq, et⟩
          · exact Or.inl hs
          · rcases Nat.lt_or_ge p y with hqy | hqy
            · exact Or.inr (Or.inl ⟨p, q, hqy, hq, et⟩)
            · exact Or.inr (Or.inr ⟨q, by omega, by rw [et, show p = y by omega]⟩)⟩)
    rw [Nat.zero_add] at hI
    exact ⟨m', e, hI⟩

/-- The pieces before the one with numbers `a` and `b`. -/
def Before (h lm w a b : Nat) (t : Nat) : Prop := ∃ a' b' p q, a' < lm ∧ p < w ∧ q < h ∧ t = cellAt h lm w a' b' p q ∧ (b' < b ∨ b' = b ∧ a' < a)

theorem tranLoop_spec (hK : GLawful K ok) {x : M} {h ws w : Nat} {mid outer : List (Nat × Nat)} {nx : Nat} (hx : ok nx x)
    (hin : ∀ t, t < lens ((h, ws) :: (mid ++ (w, 1) :: outer)) → offR ((h, ws) :: (mid ++ (w, 1) :: outer)) t + 1 ≤ nx) (hh : 0 < h) (hw : 0 < w) :
    ∀ (fuel a b : Nat) (m : M), a < lens mid → b < lens outer → lens mid * lens outer ≤ a + lens mid * b + fuel →
      Good K ok x ((h, ws) :: (mid ++ (w, 1) :: outer)) 1 (Before h (lens mid) w a b) m →
      ∃ m', tranLoop K x 1 w h ws (lens mid * h) ((w - 1) * (lens mid * h) * 1) (1 * lens ((h, ws) :: (mid ++ (w, 1) :: outer)) - (w - 1) * (lens mid * h) * 1) fuel
          (ctrs mid a) (ctrs outer b) (h * (a + lens mid * (w * b))) (offR outer b + offR mid a) m = some m' ∧
        Good K ok x ((h, ws) :: (mid ++ (w, 1) :: outer)) 1 (fun _ => True) m'
  | 0, a, b, m, ha, hb, hf, _ => by
    have := digits_lt ha hb
    omega
  | fuel + 1, a, b, m, ha, hb, hf, hg => by
    obtain ⟨m1, e1, h1⟩ := tran_spec hK hx hin ha hb hg rfl rfl
    rw [tranLoop, e1, Option.bind_some]
    dsimp only
    simp only [Nat.mul_one, Nat.one_mul]
    have hmp : 0 < lens mid := by omega
    have ewh : w * (lens mid * h) = (w - 1) * (lens mid * h) + lens mid * h := by
      have : w = (w - 1) + 1 := by omega
      conv => lhs; rw [this, Nat.add_mul, Nat.one_mul]
    -- the sizes
    have htot : lens ((h, ws) :: (mid ++ (w, 1) :: outer)) = (w * (lens mid * h)) * lens outer := by
      rw [lens_cons, lens_append, lens_cons]
      simp only [Nat.mul_comm, Nat.mul_left_comm, Nat.mul_assoc]
    have hpos : h * (a + lens mid * (w * b)) + h = h * (a + 1) + (w * (lens mid * h)) * b := by
      rw [Nat.mul_add, Nat.mul_add]
      have : h * (lens mid * (w * b)) = w * (lens mid * h) * b := by simp only [Nat.mul_comm, Nat.mul_left_comm, Nat.mul_assoc]
      omega
    by_cases hlast : a + 1 = lens mid ∧ b + 1 = lens outer
    · rw [if_pos]
      · refine ⟨m1, rfl, h1.mono fun t ht _ => ?_⟩
        obtain ⟨a', b', p, q, ha', hb', hp, hq, et⟩ := cellAt_exists ht
        by_cases hab : a' = a ∧ b' = b
        · exact Or.inr ⟨p, q, hp, hq, by rw [et, hab.1, hab.2]⟩
        · exact Or.inl ⟨a', b', p, q, ha', hp, hq, et, by omega⟩
      · rw [hpos, htot, ← hlast.2, Nat.mul_add (w * (lens mid * h)), hlast.1, Nat.mul_one, Nat.mul_comm h (lens mid)]
        omega
    · rw [if_neg]
      · by_cases hmid : a + 1 = lens mid
        · have hcar := carry2_wrap mid outer ((w - 1) * (lens mid * h)) (h * (a + lens mid * (w * b)) + h) a b hmid (by omega)
          rw [hcar, Option.bind_some]
          dsimp only
          have hnext := tranLoop_spec hK hx hin hh hw fuel 0 (b + 1) m1 hmp (by omega) (by rw [Nat.mul_add]; omega) (h1.mono fun t ht hs => by
            obtain ⟨a', b', p, q, ha', hp, hq, et, hlt⟩ := hs
            by_cases hab : a' = a ∧ b' = b
            · exact Or.inr ⟨p, q, hp, hq, by rw [et, hab.1, hab.2]⟩
            · exact Or.inl ⟨a', b', p, q, ha', hp, hq, et, by omega⟩)
          have ei : h * (a + lens mid * (w * b)) + h + (w - 1) * (lens mid * h) = h * (0 + lens mid * (w * (b + 1))) := by
            rw [hpos, hmid, Nat.zero_add, Nat.mul_comm h (lens mid)]
            have : h * (lens mid * (w * (b + 1))) = w * (lens mid * h) * (b + 1) := by simp only [Nat.mul_comm, Nat.mul_left_comm, Nat.mul_assoc]
            rw [this, Nat.mul_add]
            omega
          rw [ei]
          simp only [Nat.mul_one, Nat.one_mul, offR_zero, Nat.add_zero] at hnext
          exact hnext
        · rw [carry2_mid mid (ctrs outer b) _ _ a (offR outer b) (by omega), Option.bind_some]
          dsimp only
          have hnext := tranLoop_spec hK hx hin hh hw fuel (a + 1) b m1 (by omega) hb (by omega) (h1.mono fun t ht hs => by
            obtain ⟨a', b', p, q, ha', hp, hq, et, hlt⟩ := hs
            by_cases hab : a' = a ∧ b' = b
            · exact Or.inr ⟨p, q, hp, hq, by rw [et, hab.1, hab.2]⟩
            · exact Or.inl ⟨a', b', p, q, ha', hp, hq, et, by omega⟩)
          have ei : h * (a + lens mid * (w * b)) + h = h * (a + 1 + lens mid * (w * b)) := by
            rw [show a + 1 + lens mid * (w * b) = a + lens mid * (w * b) + 1 by omega, Nat.mul_add h _ 1, Nat.mul_one]
          rw [ei]
          simp only [Nat.mul_one, Nat.one_mul] at hnext
          exact hnext
      · rw [hpos, htot]
        intro e
        have hX : 0 < lens mid * h := Nat.mul_pos hmp hh
        have h2 : h * (a + 1) ≤ lens mid * h := by rw [Nat.mul_comm]; exact Nat.mul_le_mul_right h ha
        by_cases hbl : b + 1 = lens outer
        · rw [← hbl, Nat.mul_add (w * (lens mid * h)) b 1, Nat.mul_one] at e
          have h3 : h * (a + 1) < lens mid * h := by
            rw [Nat.mul_comm]
            exact Nat.mul_lt_mul_of_pos_right (by omega) hh
          omega
        · have h4 := Nat.mul_le_mul_left (w * (lens mid * h)) (show b + 2 ≤ lens outer by omega)
          rw [Nat.mul_add] at h4
          omega

end

end Verif.Reorder
