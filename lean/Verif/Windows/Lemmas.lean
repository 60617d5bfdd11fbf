import Verif.Windows.Model
import Verif.Rotate.Basic
/-!
# Windows: the counters and where they are in `𝕩`
-/
namespace Verif.Windows
open Verif.Rotate

/-- How far apart the elements along an axis are. -/
def stride (a : List Nat) (cia b : Nat) : Nat := cia * prod (a.drop (b + 1))
def strides : List Nat → Nat → List Nat
  | [], _ => []
  | _ :: a, cia => cia * prod a :: strides a cia

/-- The offset of an index. -/
def off : List Nat → List Nat → Nat
  | s :: ss, i :: is => i * s + off ss is
  | _, _ => 0

theorem off_append : ∀ {s1 i1 : List Nat}, s1.length = i1.length → ∀ (s2 i2 : List Nat), off (s1 ++ s2) (i1 ++ i2) = off s1 i1 + off s2 i2
  | [], [], _, s2, i2 => (Nat.zero_add _).symm
  | s :: s1, i :: i1, h, s2, i2 => by
    show i * s + off (s1 ++ s2) (i1 ++ i2) = i * s + off s1 i1 + off s2 i2
    rw [off_append (Nat.succ.inj h), Nat.add_assoc]

theorem off_reverse : ∀ {ss is : List Nat}, ss.length = is.length → off ss.reverse is.reverse = off ss is
  | [], [], _ => rfl
  | s :: ss, i :: is, h => by
    have h := Nat.succ.inj h
    rw [List.reverse_cons, List.reverse_cons, off_append (by simpa using h), off_reverse h]
    show _ + (i * s + 0) = i * s + _
    omega

theorem off_add : ∀ (ss : List Nat) {p q : List Nat}, p.length = q.length → off ss p + off ss q = off ss (List.zipWith (· + ·) p q)
  | [], [], [], _ => rfl
  | [], _ :: _, _ :: _, _ => rfl
  | _ :: _, [], [], _ => rfl
  | s :: ss, i :: p, j :: q, h => by
    show i * s + off ss p + (j * s + off ss q) = (i + j) * s + off ss (List.zipWith (· + ·) p q)
    rw [← off_add ss (Nat.succ.inj h), Nat.add_mul]
    omega

theorem off_strides {a : List Nat} (cia : Nat) {is : List Nat} (h : InShape a is) : off (strides a cia) is = ravel a is * cia := by
  induction h with
  | nil => exact (Nat.zero_mul _).symm
  | @cons s i a is hi h ih =>
    show i * (cia * prod a) + off (strides a cia) is = (i * prod a + ravel a is) * cia
    rw [ih, Nat.add_mul, Nat.mul_assoc, Nat.mul_comm cia]

theorem strides_length (a : List Nat) (cia : Nat) : (strides a cia).length = a.length := by
  induction a with
  | nil => rfl
  | cons l a ih => exact congrArg Nat.succ ih

theorem strides_eq (a : List Nat) (cia : Nat) : strides a cia = (List.range a.length).map (stride a cia) := by
  induction a with
  | nil => rfl
  | cons l a ih =>
    rw [List.length_cons, List.range_succ_eq_map, List.map_cons, List.map_map]
    show cia * prod a :: strides a cia = _
    rw [ih]
    rfl

theorem rav_inj : ∀ {sh i1 i2 : List Nat}, InShape sh i1 → InShape sh i2 → rav sh i1 = rav sh i2 → i1 = i2
  | _, _, _, .nil, .nil, _ => rfl
  | s :: sh, i1 :: is1, i2 :: is2, .cons h1 t1, .cons h2 t2, e => by
    have e : i1 + s * rav sh is1 = i2 + s * rav sh is2 := e
    have hs : 0 < s := by omega
    have a1 := congrArg (· % s) e
    have a2 := congrArg (· / s) e
    simp only [Nat.add_mul_mod_self_left, Nat.mod_eq_of_lt h1, Nat.mod_eq_of_lt h2] at a1
    simp only [Nat.add_mul_div_left _ _ hs, Nat.div_eq_of_lt h1, Nat.div_eq_of_lt h2, Nat.zero_add] at a2
    rw [a1, rav_inj t1 t2 a2]

theorem rav_lt {sh is : List Nat} (h : InShape sh is) : rav sh is < prod sh := by
  induction h with
  | nil => exact Nat.one_pos
  | @cons s i sh is hi _ ih =>
    show i + s * rav sh is < s * prod sh
    have := Nat.mul_le_mul_left s (show rav sh is + 1 ≤ prod sh from ih)
    rw [Nat.mul_add] at this
    omega

/-! ## Strides as the loop finds them -/

inductive Walk (xsh : List Nat) (wr cia : Nat) : Nat → Nat → List Nat → Prop
  | one (b str) : Walk xsh wr cia b str [str]
  | cons {b str s : Nat} {ss : List Nat} : xsh[b]? = some s → Walk xsh wr cia (if b = 0 then wr - 1 else b - 1) (if b = 0 then cia else mulU str s) ss →
      Walk xsh wr cia b str (str :: ss)

theorem carry_spec (xsh : List Nat) (wr cia : Nat) : ∀ {lens ss idx : List Nat} {b str j c0 : Nat}, Walk xsh wr cia b str ss → ss.length = lens.length →
    InShape lens idx → rav lens idx + 1 < prod lens → j = (c0 + off ss idx + str) % 2^32 →
    ∃ idx', InShape lens idx' ∧ rav lens idx' = rav lens idx + 1 ∧ carry xsh wr cia (idx.zip lens) b str j = some (idx'.zip lens, (c0 + off ss idx') % 2^32)
  | _, _, _, _, _, _, _, hw, hl, .nil, _, _ => by cases hw <;> cases hl
  | l :: lens, ss0, i :: idx, b, str, j, c0, hw, hl, .cons hi h, hr, hj => by
    have hr : i + l * rav lens idx + 1 < l * prod lens := hr
    unfold List.zip List.zipWith carry
    dsimp only
    by_cases c : i + 1 = l
    · rw [if_pos c]
      cases hw with
      | one =>
        have : lens = [] := List.length_eq_zero_iff.1 (Nat.succ.inj hl).symm
        subst this
        cases h
        have : rav [] [] = 0 := rfl
        have : prod [] = 1 := rfl
        simp only [‹rav [] [] = 0›, ‹prod [] = 1›] at hr
        omega
      | @cons _ _ s ss hs hw =>
        rw [hs]
        dsimp only
        generalize hstr : (if b = 0 then cia else mulU str s) = str' at hw ⊢
        have hr' : rav lens idx + 1 < prod lens := by
          have : l * (rav lens idx + 1) < l * prod lens := by rw [Nat.mul_add]; omega
          exact Nat.lt_of_mul_lt_mul_left this
        have hj' : addU (subU j (mulU l str)) str' = (c0 + off ss idx + str') % 2^32 := by
          have e : off (str :: ss) (i :: idx) = i * str + off ss idx := rfl
          rw [e] at hj
          have e2 : l * str = i * str + str := by rw [← c, Nat.add_mul, Nat.one_mul]
          unfold addU subU mulU
          rw [e2]
          generalize i * str = z at *
          omega
        obtain ⟨idx', f1, f2, f3⟩ := carry_spec xsh wr cia hw (Nat.succ.inj hl) h hr' hj'
        refine ⟨0 :: idx', .cons (by omega) f1, ?_, ?_⟩
        · show 0 + l * rav lens idx' = i + l * rav lens idx + 1
          rw [f2, Nat.mul_add]
          omega
        · unfold List.zip at f3
          rw [f3]
          have : off (str :: ss) (0 :: idx') = off ss idx' := by
            show 0 * str + _ = _
            omega
          rw [this]
    · rw [if_neg c]
      obtain ⟨ss', rfl⟩ : ∃ ss', ss0 = str :: ss' := by cases hw <;> exact ⟨_, rfl⟩
      refine ⟨(i + 1) :: idx, .cons (by omega) h, ?_, ?_⟩
      · show i + 1 + l * rav lens idx = i + l * rav lens idx + 1
        omega
      · have e : c0 + off (str :: ss') (i :: idx) + str = c0 + off (str :: ss') ((i + 1) :: idx) := by
          show c0 + (i * str + off ss' idx) + str = c0 + ((i + 1) * str + off ss' idx)
          rw [Nat.add_mul, Nat.one_mul]
          omega
        rw [hj, e]

theorem stride_step {a : List Nat} {b : Nat} {s : Nat} (cia : Nat) (h : a[b + 1]? = some s) : stride a cia b = stride a cia (b + 1) * s := by
  unfold stride
  obtain ⟨hlt, e⟩ := List.getElem?_eq_some_iff.1 h
  rw [List.drop_eq_getElem_cons hlt, e, prod, Nat.mul_assoc, Nat.mul_comm s]

theorem stride_le {a : List Nat} (cia b : Nat) (hp : ∀ s ∈ a, 0 < s) : stride a cia b ≤ prod a * cia := by
  unfold stride
  have e := congrArg prod (List.take_append_drop (b + 1) a)
  rw [prod_append] at e
  have : 0 < prod (a.take (b + 1)) := by
    have : ∀ l : List Nat, (∀ s ∈ l, 0 < s) → 0 < prod l := by
      intro l
      induction l with
      | nil => intro _; exact Nat.one_pos
      | cons s l ih => intro h; exact Nat.mul_pos (h s (by simp)) (ih fun t ht => h t (by simp [ht]))
    exact this _ fun s hs => hp s (List.mem_of_mem_take hs)
  rw [← e, Nat.mul_comm cia]
  exact Nat.mul_le_mul_right _ (Nat.le_mul_of_pos_left _ this)

theorem walk_down {a bs : List Nat} {cia : Nat} (hp : ∀ s ∈ a, 0 < s) (hx : prod a * cia < 2^32) (rest : List Nat)
    (hrest : rest = [] ∨ Walk (a ++ bs) a.length cia (a.length - 1) cia rest) : ∀ b, b < a.length →
    Walk (a ++ bs) a.length cia b (stride a cia b) ((List.range (b + 1)).reverse.map (stride a cia) ++ rest)
  | 0, hb => by
    show Walk _ _ _ _ _ (stride a cia 0 :: rest)
    cases hrest with
    | inl h => rw [h]; exact .one _ _
    | inr h =>
      refine .cons (s := (a ++ bs)[0]'(by rw [List.length_append]; omega)) (List.getElem?_eq_getElem _) ?_
      exact h
  | b + 1, hb => by
    rw [List.range_succ, List.reverse_append, List.reverse_singleton, List.map_append, List.append_assoc]
    refine .cons (s := a[b + 1]) (by rw [List.getElem?_append_left hb, List.getElem?_eq_getElem hb]) ?_
    have e := stride_step (b := b) cia (List.getElem?_eq_getElem hb)
    have := stride_le cia b hp
    rw [if_neg (by omega), if_neg (by omega)]
    have : mulU (stride a cia (b + 1)) a[b + 1] = stride a cia b := by
      unfold mulU
      rw [← e]
      exact Nat.mod_eq_of_lt (by omega)
    rw [this]
    exact walk_down hp hx rest hrest b (by omega)

/-- From the axis before the last of the window to the first place. -/
theorem walk_all {a bs : List Nat} {cia : Nat} (hp : ∀ s ∈ a, 0 < s) (hx : prod a * cia < 2^32) (hl : 2 ≤ a.length) :
    Walk (a ++ bs) a.length cia (a.length - 2) (stride a cia (a.length - 2)) ((strides a cia).dropLast.reverse ++ (strides a cia).reverse) := by
  have w1 := walk_down (bs := bs) hp hx [] (.inl rfl) (a.length - 1) (by omega)
  have e1 : stride a cia (a.length - 1) = cia := by
    unfold stride
    rw [Nat.sub_add_cancel (by omega), List.drop_length]
    exact Nat.mul_one _
  rw [e1, List.append_nil, Nat.sub_add_cancel (by omega), List.map_reverse, ← strides_eq] at w1
  have w2 := walk_down hp hx _ (.inr w1) (a.length - 2) (by omega)
  have e2 : (strides a cia).dropLast = (List.range (a.length - 2 + 1)).map (stride a cia) := by
    rw [strides_eq, ← List.map_dropLast]
    have : (List.range a.length).dropLast = List.range (a.length - 2 + 1) := by
      have : a.length = a.length - 2 + 1 + 1 := by omega
      rw [this, List.range_succ, List.dropLast_concat]
      rfl
    rw [this]
  rw [e2, ← List.map_reverse]
  exact w2

/-! ## The loops -/

theorem copy_ok {α} {x : List α} {j k : Nat} (h : j + k ≤ x.length) :
    ∃ p, copy x j k = some p ∧ p.length = k ∧ ∀ u < k, p[u]? = x[j + u]? := by
  refine ⟨_, if_pos h, by simp; omega, fun u hu => ?_⟩
  rw [List.getElem?_take_of_lt hu, List.getElem?_drop]

theorem loopN_spec {α} {x : List α} {xsh : List Nat} {wr cia k ria : Nat} {lens ss : List Nat} {s : Nat} (hs : xsh[wr - 1]? = some s)
    (hw : Walk xsh wr cia (wr - 2) (mulU cia s) ss) (hl : ss.length = lens.length) (hk : 0 < k) (hria : ria = prod lens * k) (hr : ria < 2^32)
    (hxl : x.length < 2^32) (hin : ∀ idx, InShape lens idx → off ss idx + k ≤ x.length) :
    ∀ (n : Nat) (idx : List Nat), InShape lens idx → prod lens ≤ rav lens idx + n →
    ∃ r, loopN x xsh wr cia k ria n (idx.zip lens) (rav lens idx * k) (off ss idx) = .ok r ∧ r.length = (prod lens - rav lens idx) * k ∧
      ∀ idx', InShape lens idx' → rav lens idx ≤ rav lens idx' → ∀ u < k, r[(rav lens idx' - rav lens idx) * k + u]? = x[off ss idx' + u]?
  | 0, idx, h, hn => by have := rav_lt h; omega
  | n + 1, idx, h, hn => by
    obtain ⟨p, hc, hpl, hpe⟩ := copy_ok (hin idx h)
    have ht := rav_lt h
    rw [loopN, hc]
    dsimp only
    have hle : (rav lens idx + 1) * k ≤ prod lens * k := Nat.mul_le_mul_right k ht
    have e1 : (rav lens idx + 1) * k = rav lens idx * k + k := by rw [Nat.add_mul, Nat.one_mul]
    have e2 : addU (rav lens idx * k) k = (rav lens idx + 1) * k := by
      unfold addU
      rw [← e1]
      exact Nat.mod_eq_of_lt (by omega)
    rw [e2, hria]
    by_cases c : rav lens idx + 1 = prod lens
    · rw [if_pos (by rw [c])]
      refine ⟨p, rfl, by rw [hpl, ← c, Nat.add_sub_cancel_left, Nat.one_mul], fun idx' h' hle u hu => ?_⟩
      have := rav_lt h'
      rw [rav_inj h' h (by omega), Nat.sub_self, Nat.zero_mul, Nat.zero_add]
      exact hpe u hu
    · have hlt : rav lens idx + 1 < prod lens := by omega
      rw [if_neg (fun e => c (Nat.eq_of_mul_eq_mul_right hk e)), hs]
      dsimp only
      obtain ⟨idx', f1, f2, f3⟩ := carry_spec xsh wr cia (c0 := 0) hw hl h hlt (show addU (off ss idx) (mulU cia s) = _ by rw [Nat.zero_add]; rfl)
      have := hin idx' f1
      rw [f3, Nat.zero_add, Nat.mod_eq_of_lt (by omega)]
      dsimp only
      obtain ⟨r, g1, g2, g3⟩ := loopN_spec hs hw hl hk hria hr hxl hin n idx' f1 (by omega)
      rw [← f2, ← hria, g1]
      have hsub : prod lens - rav lens idx = prod lens - rav lens idx' + 1 := by omega
      refine ⟨p ++ r, rfl, by rw [List.length_append, hpl, g2, hsub, Nat.add_mul, Nat.one_mul, Nat.add_comm], fun i h' hle u hu => ?_⟩
      by_cases c2 : rav lens i = rav lens idx
      · rw [rav_inj h' h c2, Nat.sub_self, Nat.zero_mul, Nat.zero_add, List.getElem?_append_left (by omega)]
        exact hpe u hu
      · have hsub : rav lens i - rav lens idx = rav lens i - rav lens idx' + 1 := by omega
        rw [hsub, Nat.add_mul, Nat.one_mul, List.getElem?_append_right (by omega), hpl, ← g3 i h' (by omega) u hu]
        congr 1
        omega

theorem loop1_spec {α} {x : List α} {cia k ria T : Nat} (hk : 0 < k) (hria : ria = T * k) (hr : ria < 2^32)
    (hxl : x.length < 2^32) (hin : ∀ t < T, t * cia + k ≤ x.length) :
    ∀ (n t : Nat), t ≤ T → T < t + n →
    ∃ r, loop1 x cia k ria n (t * k) (t * cia % 2^32) = .ok r ∧ r.length = (T - t) * k ∧
      ∀ t', t' < T → t ≤ t' → ∀ u < k, r[(t' - t) * k + u]? = x[t' * cia + u]?
  | 0, t, h, hn => by omega
  | n + 1, t, h, hn => by
    rw [loop1]
    by_cases c : t < T
    · have hle : (t + 1) * k ≤ T * k := Nat.mul_le_mul_right k c
      have e1 : (t + 1) * k = t * k + k := by rw [Nat.add_mul, Nat.one_mul]
      have e2 : addU (t * k) k = (t + 1) * k := by
        unfold addU
        rw [← e1]
        exact Nat.mod_eq_of_lt (by omega)
      have hj := hin t c
      have e3 : addU (t * cia % 2^32) cia = (t + 1) * cia % 2^32 := by
        unfold addU
        rw [Nat.add_mul, Nat.one_mul]
        omega
      rw [Nat.mod_eq_of_lt (show t * cia < 2^32 by omega)] at e3 ⊢
      obtain ⟨p, hc, hpl, hpe⟩ := copy_ok hj
      rw [if_pos (by omega), hc]
      dsimp only
      obtain ⟨r, g1, g2, g3⟩ := loop1_spec hk hria hr hxl hin n (t + 1) c (by omega)
      rw [e2, e3, g1]
      have hsub : T - t = T - (t + 1) + 1 := by omega
      refine ⟨p ++ r, rfl, by rw [List.length_append, hpl, g2, hsub, Nat.add_mul, Nat.one_mul, Nat.add_comm], fun i h' hle u hu => ?_⟩
      by_cases c2 : i = t
      · rw [c2, Nat.sub_self, Nat.zero_mul, Nat.zero_add, List.getElem?_append_left (by omega)]
        exact hpe u hu
      · have hsub : i - t = i - (t + 1) + 1 := by omega
        rw [hsub, Nat.add_mul, Nat.one_mul, List.getElem?_append_right (by omega), hpl, ← g3 i h' (by omega) u hu]
        congr 1
        omega
    · have : t = T := by omega
      subst this
      rw [if_neg (by omega)]
      exact ⟨[], rfl, by simp, fun t' a b => by omega⟩

end Verif.Windows
