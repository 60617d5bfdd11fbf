import Verif.Sizes.Model
import Verif.Sizes.Spec
/-!
# Lemmas about the computations of result sizes
-/
namespace Verif.Sizes

theorem foldl_mod (sh : List Nat) : ∀ r, sh.foldl (fun r l => r * l % U) (r % U) = r * sh.prod % U := by
  induction sh with
  | nil => intro r; simp
  | cons l sh ih =>
    intro r
    have := ih (r * l)
    simp only [List.foldl_cons, List.prod_cons]
    rw [Nat.mod_mul_mod, this, Nat.mul_assoc]

theorem shProd_eq (sh : List Nat) : shProd sh = sh.prod % U := by
  have := foldl_mod sh 1
  simpa [shProd] using this

theorem shProd_exact {sh : List Nat} (h : sh.prod < U) : shProd sh = sh.prod := by
  rw [shProd_eq, Nat.mod_eq_of_lt h]

theorem foldl_add_mod (l : List Nat) : ∀ r, l.foldl (fun r x => (r + x) % U) (r % U) = (r + l.sum) % U := by
  induction l with
  | nil => intro r; simp
  | cons x l ih =>
    intro r
    have := ih (r + x)
    simp only [List.foldl_cons, List.sum_cons]
    rw [Nat.mod_add_mod, this, Nat.add_assoc]

theorem prod_zero {l : List Nat} (h : 0 ∈ l) : l.prod = 0 := by
  induction l with
  | nil => simp at h
  | cons a l ih =>
    rw [List.prod_cons]
    rcases List.mem_cons.1 h with h | h
    · rw [← h, Nat.zero_mul]
    · rw [ih h, Nat.mul_zero]

theorem zero_mem {l : List Nat} (h : l.prod = 0) : 0 ∈ l := by
  induction l with
  | nil => simp at h
  | cons a l ih =>
    rw [List.prod_cons] at h
    rcases Nat.mul_eq_zero.1 h with h | h
    · simp [h]
    · exact List.mem_cons_of_mem _ (ih h)

theorem mulOn_ok {a b : Nat} (h : (mulOn a b).2 = false) : (mulOn a b).1 = a * b ∧ a * b < U := by
  simp only [mulOn, decide_eq_false_iff_not, Nat.not_le] at *
  exact ⟨Nat.mod_eq_of_lt h, h⟩

/-! ## Reshape -/

/-- The product of the lengths that `𝕨` gives. -/
def given : List Ax → Nat
  | [] => 1
  | .len v :: w => v * given w
  | _ :: w => given w

/-- A computed axis. -/
def computed : Ax → Bool
  | .len _ => false
  | _ => true

theorem reshapeLoop_spec (xia : Nat) (w : List Ax) : ∀ s r, reshapeLoop xia w s = some r →
    r.nia % U = s.nia * given w % U ∧ (r.nia < U ∨ r.nia = s.nia) ∧
    (r.bad = false → s.bad = false ∧ (s.nia < U → r.nia = s.nia * given w)) ∧
    (r.good = true → s.good = true ∨ given w = 0 ∨ (xia = 0 ∧ ∃ a ∈ w, computed a = true) ∨ Ax.floor ∈ w) ∧
    (s.unk = none → (r.unk = none ∧ ∀ a ∈ w, computed a = false) ∨ ∃ a, r.unk = some a ∧ computed a = true ∧ a ∈ w ∧ ∀ b ∈ w, computed b = true → b = a) ∧
    (s.unk ≠ none → r.unk = s.unk ∧ ∀ a ∈ w, computed a = false) := by
  induction w with
  | nil =>
    intro s r h
    simp only [reshapeLoop, Option.some.injEq] at h
    subst h
    simp [given]
  | cons a w ih =>
    intro s r h
    by_cases ha : ∃ v, a = .len v
    · obtain ⟨v, rfl⟩ := ha
      rw [reshapeLoop] at h
      have ⟨i1, i2, i3, i4, i5, i6⟩ := ih _ _ h
      refine ⟨?_, ?_, ?_, ?_, ?_, ?_⟩
      · rw [i1, given]
        simp only [mulOn]
        rw [Nat.mod_mul_mod, Nat.mul_assoc]
      · rcases i2 with i2 | i2
        · exact .inl i2
        · left; rw [i2]; exact Nat.mod_lt _ (by decide)
      · intro hb
        have ⟨k1, k2⟩ := i3 hb
        simp only [Bool.or_eq_false_iff] at k1
        refine ⟨k1.1, fun hs => ?_⟩
        have ⟨e, l⟩ := mulOn_ok k1.2
        rw [k2 (by rw [e]; exact l), e, given, Nat.mul_assoc]
      · intro hg
        rcases i4 hg with k | k | k | k
        · simp only [Bool.or_eq_true, decide_eq_true_eq] at k
          rcases k with k | k
          · exact .inl k
          · right; left; rw [given, k, Nat.zero_mul]
        · right; left; rw [given, k, Nat.mul_zero]
        · obtain ⟨k0, b, k1, k2⟩ := k
          exact .inr (.inr (.inl ⟨k0, b, List.mem_cons_of_mem _ k1, k2⟩))
        · exact .inr (.inr (.inr (List.mem_cons_of_mem _ k)))
      · intro hu
        rcases i5 hu with ⟨k1, k2⟩ | ⟨b, k1, k2, k3, k4⟩
        · refine .inl ⟨k1, fun c hc => ?_⟩
          rcases List.mem_cons.1 hc with hc | hc
          · rw [hc]; rfl
          · exact k2 c hc
        · refine .inr ⟨b, k1, k2, List.mem_cons_of_mem _ k3, fun c hc hcc => ?_⟩
          rcases List.mem_cons.1 hc with hc | hc
          · rw [hc] at hcc; simp [computed] at hcc
          · exact k4 c hc hcc
      · intro hu
        have ⟨k1, k2⟩ := i6 hu
        refine ⟨k1, fun c hc => ?_⟩
        rcases List.mem_cons.1 hc with hc | hc
        · rw [hc]; rfl
        · exact k2 c hc
    · have hc : computed a = true := by
        cases a with
        | len v => exact absurd ⟨v, rfl⟩ ha
        | _ => rfl
      have hgv : given (a :: w) = given w := by cases a <;> first | rfl | (simp [computed] at hc)
      have hl : reshapeLoop xia (a :: w) s = if s.unk ≠ none then none else reshapeLoop xia w { s with unk := some a, good := s.good || xia = 0 || a = .floor } := by
        cases a <;> first | rfl | (simp [computed] at hc)
      rw [hl] at h
      by_cases hu : s.unk ≠ none
      · simp [hu] at h
      · rw [if_neg hu] at h
        have hu : s.unk = none := Decidable.not_not.1 hu
        have ⟨i1, i2, i3, i4, i5, i6⟩ := ih _ _ h
        rw [hgv]
        refine ⟨i1, i2, i3, ?_, ?_, fun h => absurd hu h⟩
        · intro hg
          rcases i4 hg with k | k | k | k
          · simp only [Bool.or_eq_true, decide_eq_true_eq] at k
            rcases k with (k | k) | k
            · exact .inl k
            · exact .inr (.inr (.inl ⟨k, a, by simp, hc⟩))
            · exact .inr (.inr (.inr (by simp [k])))
          · exact .inr (.inl k)
          · obtain ⟨k0, b, k1, k2⟩ := k
            exact .inr (.inr (.inl ⟨k0, b, List.mem_cons_of_mem _ k1, k2⟩))
          · exact .inr (.inr (.inr (List.mem_cons_of_mem _ k)))
        · intro _
          have ⟨k1, k2⟩ := i6 (by simp)
          refine .inr ⟨a, k1, hc, by simp, fun b hb hbb => ?_⟩
          rcases List.mem_cons.1 hb with hb | hb
          · exact hb
          · rw [k2 b hb] at hbb; simp at hbb

theorem prod_none (w : List Ax) (h : ∀ a ∈ w, computed a = false) : (w.map (setAxis 0)).prod = given w := by
  induction w with
  | nil => rfl
  | cons a w ih =>
    have ha := h a (by simp)
    cases a with
    | len v => rw [List.map_cons, List.prod_cons, ih (fun b hb => h b (List.mem_cons_of_mem _ hb)), given, setAxis]
    | _ => simp [computed] at ha

/-- At most one computed axis. -/
def One : List Ax → Prop
  | [] => True
  | .len _ :: w => One w
  | _ :: w => ∀ a ∈ w, computed a = false

theorem reshapeLoop_one (xia : Nat) (w : List Ax) : ∀ s r, reshapeLoop xia w s = some r → One w := by
  induction w with
  | nil => intro _ _ _; trivial
  | cons a w ih =>
    intro s r h
    by_cases ha : ∃ v, a = .len v
    · obtain ⟨v, rfl⟩ := ha
      rw [reshapeLoop] at h
      exact ih _ _ h
    · have hl : reshapeLoop xia (a :: w) s = if s.unk ≠ none then none else reshapeLoop xia w { s with unk := some a, good := s.good || xia = 0 || a = .floor } := by
        cases a <;> first | rfl | exact absurd ⟨_, rfl⟩ ha
      rw [hl] at h
      by_cases hu : s.unk ≠ none
      · simp [hu] at h
      · rw [if_neg hu] at h
        have := ((reshapeLoop_spec xia w _ _ h).2.2.2.2.2 (by simp)).2
        cases a <;> first | exact this | exact absurd ⟨_, rfl⟩ ha

theorem prod_one (w : List Ax) (item : Nat) (h1 : One w) (h2 : ∃ a ∈ w, computed a = true) : (w.map (setAxis item)).prod = given w * item := by
  induction w with
  | nil => simp at h2
  | cons a w ih =>
    by_cases ha : ∃ v, a = .len v
    · obtain ⟨v, rfl⟩ := ha
      obtain ⟨b, hb, hc⟩ := h2
      have hb : b ∈ w := by
        rcases List.mem_cons.1 hb with hb | hb
        · rw [hb] at hc; simp [computed] at hc
        · exact hb
      rw [List.map_cons, List.prod_cons, ih h1 ⟨b, hb, hc⟩, given, setAxis, Nat.mul_assoc]
    · have h : ∀ b ∈ w, computed b = false := by
        cases a <;> first | exact h1 | exact absurd ⟨_, rfl⟩ ha
      have hs : setAxis item a = item := by cases a <;> first | rfl | exact absurd ⟨_, rfl⟩ ha
      have hg : given (a :: w) = given w := by cases a <;> first | rfl | exact absurd ⟨_, rfl⟩ ha
      have hm : w.map (setAxis item) = w.map (setAxis 0) := by
        apply List.map_congr_left
        intro b hb
        have := h b hb
        cases b <;> first | rfl | (simp [computed] at this)
      rw [List.map_cons, List.prod_cons, hs, hm, prod_none w h, hg, Nat.mul_comm]

/-! ## Range -/

theorem rangeLoop_spec (x : List Nat) : ∀ ria bad min max, let r := rangeLoop x (ria, bad, min, max)
    (r.2.1 = false → bad = false ∧ (ria < U → r.1 = ria * x.prod)) ∧ (r.2.2.1 = min ∨ r.2.2.1 ∈ x) ∧
    r.2.2.1 ≤ min ∧ (∀ c ∈ x, r.2.2.1 ≤ c) ∧ max ≤ r.2.2.2 ∧ (∀ c ∈ x, c ≤ r.2.2.2) ∧ r.1 % U = ria * x.prod % U ∧ (ria < U → r.1 < U) := by
  induction x with
  | nil => intro ria bad min max; simp [rangeLoop]
  | cons c x ih =>
    intro ria bad min max
    have ⟨i1, i2, i3, i4, i5, i6, i7, i8⟩ := ih (mulOn ria c).1 (bad || (mulOn ria c).2) (if c < min then c else min) (if c > max then c else max)
    simp only [rangeLoop] at *
    generalize rangeLoop x _ = r at *
    refine ⟨?_, ?_, ?_, ?_, ?_, ?_, ?_, ?_⟩
    · intro hb
      have ⟨k1, k2⟩ := i1 hb
      rw [Bool.or_eq_false_iff] at k1
      have ⟨e, l⟩ := mulOn_ok k1.2
      exact ⟨k1.1, fun _ => by rw [k2 (by rw [e]; exact l), e, List.prod_cons, Nat.mul_assoc]⟩
    · rcases i2 with i2 | i2
      · split at i2
        · right; simp [i2]
        · left; exact i2
      · right; exact List.mem_cons_of_mem _ i2
    · split at i3 <;> omega
    · intro d hd
      rcases List.mem_cons.1 hd with hd | hd
      · rw [hd]; split at i3 <;> omega
      · exact i4 d hd
    · split at i5 <;> omega
    · intro d hd
      rcases List.mem_cons.1 hd with hd | hd
      · rw [hd]; split at i5 <;> omega
      · exact i6 d hd
    · rw [i7, List.prod_cons]
      simp only [mulOn]
      rw [Nat.mod_mul_mod, Nat.mul_assoc]
    · intro _; exact i8 (Nat.mod_lt _ (by decide))

/-! ## Windows -/

theorem mulAll_spec (sh : List Nat) : ∀ r p, mulAll sh r = some p → r < U → p = r * sh.prod ∧ p < U := by
  induction sh with
  | nil => intro r p h hr; simp only [mulAll, Option.some.injEq] at h; simp [← h, hr]
  | cons l sh ih =>
    intro r p h hr
    rw [mulAll] at h
    split at h
    · simp at h
    · rename_i hb
      have ⟨e, lt⟩ := mulOn_ok (Bool.eq_false_iff.2 hb)
      rw [e] at h
      have := ih _ _ h lt
      rw [List.prod_cons, ← Nat.mul_assoc]
      exact this

theorem windowLoop_spec (w : List Nat) : ∀ x f e, windowLoop w x = some (f, e) → w.length ≤ x.length → (∀ l ∈ x, l < U - 1) → (∀ m ∈ w, m < U) →
    f.length = w.length ∧ (∀ i, i < w.length → w.getD i 0 ≤ x.getD i 0 + 1 ∧ f.getD i 0 + w.getD i 0 = x.getD i 0 + 1) ∧
    (e = true ↔ 0 ∈ f ∨ 0 ∈ w) := by
  induction w with
  | nil =>
    intro x f e h _ _ _
    simp only [windowLoop, Option.some.injEq, Prod.mk.injEq] at h
    simp [← h.1, ← h.2]
  | cons m w ih =>
    intro x f e h hl hx hw
    cases x with
    | nil => simp at hl
    | cons l x =>
      have hlU := hx l (by simp)
      have hmU := hw m (by simp)
      rw [windowLoop] at h
      have e1 : (l + 1) % U = l + 1 := Nat.mod_eq_of_lt (by omega)
      simp only [e1] at h
      split at h
      · simp at h
      · rename_i hm
        cases hr : windowLoop w x with
        | none => rw [hr] at h; simp at h
        | some r =>
          obtain ⟨g, d⟩ := r
          rw [hr] at h
          simp only [Option.map_some, Option.some.injEq, Prod.mk.injEq] at h
          have ⟨i1, i2, i3⟩ := ih x g d hr (by simp at hl; exact hl) (fun a ha => hx a (List.mem_cons_of_mem _ ha)) (fun a ha => hw a (List.mem_cons_of_mem _ ha))
          have e2 : (l + 1 + U - m) % U = l + 1 - m := by simp only [U] at *; omega
          rw [e2] at h
          obtain ⟨h1, h2⟩ := h
          subst h1
          refine ⟨by simp [i1], ?_, ?_⟩
          · intro i hi
            cases i with
            | zero => simp; omega
            | succ i => simpa using i2 i (by simpa using hi)
          · rw [← h2]
            simp only [Bool.or_eq_true, i3, decide_eq_true_eq, List.mem_cons]
            constructor
            · rintro (((h | h) | h) | h)
              · exact .inl (.inr h)
              · exact .inr (.inr h)
              · right; left; exact h.symm
              · left; left; omega
            · rintro ((h | h) | (h | h))
              · right; omega
              · exact .inl (.inl (.inl h))
              · left; right; exact h.symm
              · exact .inl (.inl (.inr h))

/-! ## Take and drop of several axes -/

/-- The lengths of the result axes. -/
def tdAxes (isTake : Bool) : List Nat → List Nat → List Nat
  | n :: w, l :: x => (if isTake then n else l - n) :: tdAxes isTake w x
  | _, _ => []

theorem tdLoop_spec (t : Bool) (w : List Nat) : ∀ x ria bad good, w.length = x.length → let r := tdLoop t w x (ria, bad, good)
    r.2 = (tdAxes t w x).map (· % U) ∧ (r.1.2.1 = false → bad = false ∧ (ria < U → r.1.1 = ria * (tdAxes t w x).prod ∧ r.1.1 < U)) ∧
    (r.1.2.2 = true ↔ good = true ∨ 0 ∈ tdAxes t w x) ∧ r.1.1 % U = ria * (tdAxes t w x).prod % U ∧ (ria < U → r.1.1 < U) := by
  induction w with
  | nil => intro x ria bad good h; cases x <;> simp [tdLoop, tdAxes] at *
  | cons n w ih =>
    intro x ria bad good h
    cases x with
    | nil => simp at h
    | cons l x =>
      have hc : (if t = true then n else if l ≤ n then 0 else l - n) = (if t = true then n else l - n) := by
        cases t
        · simp; omega
        · rfl
      simp only [tdLoop, tdAxes, hc]
      generalize (if t = true then n else l - n) = c
      have ⟨i1, i2, i3, i4, i5⟩ := ih x (mulOn ria c).1 (bad || (mulOn ria c).2) (good || c = 0) (by simpa using h)
      generalize tdLoop t w x _ = r at *
      refine ⟨by simp [i1], ?_, ?_, ?_, ?_⟩
      · intro hb
        have ⟨k1, k2⟩ := i2 hb
        rw [Bool.or_eq_false_iff] at k1
        have ⟨e, lt⟩ := mulOn_ok k1.2
        exact ⟨k1.1, fun _ => by rw [List.prod_cons, ← Nat.mul_assoc, ← e]; exact k2 (by rw [e]; exact lt)⟩
      · rw [i3]
        simp only [Bool.or_eq_true, decide_eq_true_eq, List.mem_cons, or_assoc]
        constructor
        · rintro (h | h | h)
          · exact .inl h
          · exact .inr (.inl h.symm)
          · exact .inr (.inr h)
        · rintro (h | h | h)
          · exact .inl h
          · exact .inr (.inl h.symm)
          · exact .inr (.inr h)
      · rw [i4, List.prod_cons]
        simp only [mulOn]
        rw [Nat.mod_mul_mod, Nat.mul_assoc]
      · intro _; exact i5 (Nat.mod_lt _ (by decide))

/-! ## Join -/

/-- The invariant of the loop of `∾𝕩`, for the items `x0 :: seen` that are done. -/
structure Jinv (x0 : List Nat) (seen : List (List Nat)) (s : Js) (n : Nat) : Prop where
  lt : s.cam < U
  cam : s.cam = n % U
  units : s.rm = 0 → s.rr = 1 ∧ s.rd = 0 ∧ s.esh = none ∧ (∀ c ∈ x0 :: seen, c = []) ∧ n = (x0 :: seen).length
  arrs : s.rm ≠ 0 → s.rr = s.rm ∧ s.rd ≤ 1 ∧ (s.esh.getD []).length + 1 = s.rm ∧ Joins (x0 :: seen) (s.esh.getD []) n ∧
    (s.rd = 0 → s.esh ≠ none ∧ x0 = s.esh0 :: s.esh.getD [] ∧ ∀ c ∈ seen, ∃ a, c = a :: s.esh.getD [])

theorem Joins.snoc {l : List (List Nat)} {t : List Nat} {n : Nat} (h : Joins l t n) {c : List Nat} (hc : c = t ∨ ∃ a, c = a :: t) :
    Joins (l ++ [c]) t (n + if c = t then 1 else c.headD 0) := by
  refine ⟨?_, ?_, ?_⟩
  · intro d hd
    rcases List.mem_append.1 hd with hd | hd
    · exact h.all d hd
    · rw [List.mem_singleton.1 hd]; exact hc
  · obtain ⟨d, hd, ha⟩ := h.any
    exact ⟨d, List.mem_append_left _ hd, ha⟩
  · rw [h.len]; simp

theorem sum_ones {l : List (List Nat)} {t : List Nat} (h : ∀ c ∈ l, c = t) : (l.map fun c => if c = t then 1 else c.headD 0).sum = l.length := by
  induction l with
  | nil => rfl
  | cons c l ih =>
    have hc : c = t := h c (by simp)
    simp only [List.map_cons, List.sum_cons, List.length_cons, if_pos hc]
    rw [ih (fun d hd => h d (List.mem_cons_of_mem _ hd))]
    omega

theorem cons_ne {a : Nat} {t : List Nat} : a :: t ≠ t := fun h => by
  have := congrArg List.length h
  simp at this

/-- The arrays of the largest rank after a unit are not met. -/
theorem joinLoop_spec (x0 : List Nat) (x : List (List Nat)) : ∀ (i : Nat) seen s n,
    Jinv x0 seen s n → i = 1 + seen.length → i + x.length < U → s.rm < 256 → (∀ c ∈ x, c.length < 256) → (s.rm = 0 → ∀ c ∈ x, c.length ≠ 255) →
    (∃ r n', joinLoop x i seen s = .ok r ∧ Jinv x0 (seen ++ x) r n') ∨
    (joinLoop x i seen s = .error .error) := by
  induction x with
  | nil =>
    intro i seen s n hI _ _ _ _ _
    exact .inl ⟨s, n, rfl, by simpa using hI⟩
  | cons c x ih =>
    intro i seen s n hI hi hlt hrm hr hN
    have hcr := hr c (by simp)
    have hr' : ∀ d ∈ x, d.length < 256 := fun d hd => hr d (List.mem_cons_of_mem _ hd)
    have next : ∀ (s' : Js) n', Jinv x0 (seen ++ [c]) s' n' → s'.rm < 256 → (s'.rm = 0 → s.rm = 0) →
        (∃ r n', joinLoop x (i + 1) (seen ++ [c]) s' = .ok r ∧ Jinv x0 (seen ++ c :: x) r n') ∨ (joinLoop x (i + 1) (seen ++ [c]) s' = .error .error) := by
      intro s' n' hI' h1 h2
      have := ih (i + 1) (seen ++ [c]) s' n' hI' (by simp; omega) (by simp at hlt ⊢; omega) h1 hr' (fun hz d hd => hN (h2 hz) d (List.mem_cons_of_mem _ hd))
      simpa using this
    rw [joinLoop]
    simp only
    by_cases hc0 : c.length = 0
    · rw [if_pos hc0]
      have hc : c = [] := List.length_eq_zero_iff.1 hc0
      split
      · exact .inr rfl
      · rename_i hrm1
        refine next _ (n + 1) ⟨Nat.mod_lt _ (by decide), ?_, ?_, ?_⟩ hrm id
        · show (s.cam + 1) % U = _
          rw [hI.cam, Nat.mod_add_mod]
        · intro hz
          have ⟨k1, k2, k3, k4, k5⟩ := hI.units hz
          refine ⟨k1, hz, k3, ?_, ?_⟩
          · intro d hd
            rw [← List.cons_append] at hd
            rcases List.mem_append.1 hd with hd | hd
            · exact k4 d hd
            · rw [List.mem_singleton.1 hd, hc]
          · rw [k5]; simp
        · intro hz
          have hz : s.rm ≠ 0 := hz
          have ⟨k1, k2, k3, k4, k5⟩ := hI.arrs hz
          have hT : s.esh.getD [] = [] := List.length_eq_zero_iff.1 (by omega)
          refine ⟨k1, show s.rm ≤ 1 by omega, k3, ?_, fun h => absurd h hz⟩
          have := k4.snoc (c := c) (.inl (by rw [hc, hT]))
          rw [if_pos (by rw [hc, hT])] at this
          exact this
    · rw [if_neg hc0]
      by_cases hz : s.rm = 0
      · -- the first item that is not a unit
        have ⟨k1, k2, k3, k4, k5⟩ := hI.units hz
        have hne := hN hz c (by simp)
        have hcd : (s.rm + 256 - c.length) % 256 = 256 - c.length := by rw [hz]; omega
        rw [hcd, k2, if_pos (by omega)]
        by_cases hle : (256 - c.length + 1 + 256 - 0) % 256 > 2 - 0
        · rw [if_pos hle]; exact .inr rfl
        · rw [if_neg hle]
          have hc1 : c.length = 1 := by omega
          obtain ⟨a, ha⟩ : ∃ a, c = [a] := List.length_eq_one_iff.1 hc1
          rw [k1, if_neg (by omega)]
          simp only [Except.map]
          rw [if_pos (show c.length > s.rm by omega), hc1, if_neg (by omega : ¬ 1 < 1)]
          simp only [Nat.sub_self, List.take_zero, if_true]
          refine next _ (n + a) ⟨Nat.mod_lt _ (by decide), ?_, ?_, ?_⟩ (by simp) (by simp)
          · rw [hI.cam, ha]; simp
          · simp
          · intro _
            refine ⟨k1, Nat.le_refl _, by simp [k3], ?_, fun h => absurd h (by simp)⟩
            simp only [k3, Option.getD_none]
            refine ⟨?_, ⟨c, by simp, a, by simp [ha]⟩, ?_⟩
            · intro d hd
              rw [← List.cons_append] at hd
              rcases List.mem_append.1 hd with hd | hd
              · left; exact k4 d hd
              · right; exact ⟨a, by rw [List.mem_singleton.1 hd, ha]⟩
            · rw [k5, ← List.cons_append, List.map_append, List.sum_append, sum_ones k4, ha]
              simp
      · have ⟨k1, k2, k3, k4, k5⟩ := hI.arrs hz
        -- the end of a step
        have fin : ∀ (s' : Js) n', Jinv x0 seen s' n' → s'.rm ≠ 0 → s'.rm < 256 → (s'.rd = 0 → c.length = s'.rm) → (c.length = s'.rm ∨ c.length + 1 = s'.rm) →
            (∃ r n', (if (if c.length < s'.rm then c else c.drop 1).take (s'.rm - 1) = (s'.esh.getD []).take (s'.rm - 1) then
                joinLoop x (i + 1) (seen ++ [c]) { s' with cam := (s'.cam + if c.length < s'.rm then 1 else c.headD 0) % U } else .error .error) = .ok r ∧
              Jinv x0 (seen ++ c :: x) r n') ∨
            ((if (if c.length < s'.rm then c else c.drop 1).take (s'.rm - 1) = (s'.esh.getD []).take (s'.rm - 1) then
                joinLoop x (i + 1) (seen ++ [c]) { s' with cam := (s'.cam + if c.length < s'.rm then 1 else c.headD 0) % U } else .error .error) = .error .error) := by
          intro s' n' hI' hz' hlt' hd0 hcl
          have ⟨j1, j2, j3, j4, j5⟩ := hI'.arrs hz'
          by_cases heq : (if c.length < s'.rm then c else c.drop 1).take (s'.rm - 1) = (s'.esh.getD []).take (s'.rm - 1)
          · rw [if_pos heq]
            rw [List.take_of_length_le (l := s'.esh.getD []) (by omega)] at heq
            have hcT : c = s'.esh.getD [] ∧ c.length < s'.rm ∨ c = c.headD 0 :: s'.esh.getD [] ∧ ¬ c.length < s'.rm := by
              by_cases hl : c.length < s'.rm
              · rw [if_pos hl, List.take_of_length_le (by omega)] at heq
                exact .inl ⟨heq, hl⟩
              · rw [if_neg hl, List.take_of_length_le (by simp; omega)] at heq
                right
                refine ⟨?_, hl⟩
                cases c with
                | nil => simp at hc0
                | cons a c => simpa using heq
            have hif : (if c.length < s'.rm then 1 else c.headD 0) = if c = s'.esh.getD [] then 1 else c.headD 0 := by
              rcases hcT with ⟨h1, h2⟩ | ⟨h1, h2⟩
              · rw [if_pos h1, if_pos h2]
              · rw [if_neg h2, if_neg (fun h => ?_)]
                rw [h] at h2
                omega
            refine next _ (n' + if c = s'.esh.getD [] then 1 else c.headD 0) ⟨Nat.mod_lt _ (by decide), ?_, fun h => absurd h hz', fun _ => ?_⟩ hlt' (fun h => absurd h hz')
            · show (_ + _) % U = _
              rw [hif, hI'.cam, Nat.mod_add_mod]
            · refine ⟨j1, j2, j3, ?_, ?_⟩
              · rw [← List.cons_append]
                refine j4.snoc ?_
                rcases hcT with ⟨h1, h2⟩ | ⟨h1, h2⟩
                · exact .inl h1
                · exact .inr ⟨_, h1⟩
              · intro hd
                have ⟨l1, l2, l3⟩ := j5 hd
                refine ⟨l1, l2, fun d hdm => ?_⟩
                rcases List.mem_append.1 hdm with hdm | hdm
                · exact l3 d hdm
                · rw [List.mem_singleton.1 hdm]
                  rcases hcT with ⟨h1, h2⟩ | ⟨h1, h2⟩
                  · have := hd0 hd
                    omega
                  · exact ⟨_, h1⟩
          · rw [if_neg heq]; exact .inr rfl
        by_cases hcd : (s.rm + 256 - c.length) % 256 > s.rd
        · rw [if_pos hcd]
          by_cases hbig : ((s.rm + 256 - c.length) % 256 + 1 + 256 - s.rd) % 256 > 2 - s.rd
          · rw [if_pos hbig]; exact .inr rfl
          · rw [if_neg hbig]
            have hrd : s.rd = 0 := by omega
            have hcl : c.length = s.rm + 1 ∨ c.length + 1 = s.rm := by rw [hrd] at hbig hcd; omega
            have ⟨l1, l2, l3⟩ := k5 hrd
            by_cases hup : c.length > s.rr
            · rw [if_pos hup]
              have hc1 : c.length = s.rm + 1 := by omega
              cases he : s.esh with
              | none => exact absurd he l1
              | some e =>
                rw [he] at l2 l3 k3 k4
                simp only [Option.getD_some] at l2 l3 k3 k4
                simp only
                by_cases hall : seen.all (fun y => y.head? = some s.esh0) = true
                · rw [if_pos hall]
                  simp only [Except.map]
                  rw [if_pos (show c.length > s.rm by omega)]
                  have hsame : ∀ d ∈ seen, d = s.esh0 :: e := by
                    intro d hd
                    obtain ⟨a, ha⟩ := l3 d hd
                    have := List.all_eq_true.1 hall d hd
                    rw [ha] at this ⊢
                    simp at this
                    rw [this]
                  have hsame0 : ∀ d ∈ x0 :: seen, d = s.esh0 :: e := by
                    intro d hd
                    rcases List.mem_cons.1 hd with hd | hd
                    · rw [hd, l2]
                    · exact hsame d hd
                  -- the step is done by hand, as the array of cells is the new item
                  rw [if_neg (by omega : ¬ c.length < c.length)]
                  split
                  · rename_i heq
                    simp only [Option.getD_some] at heq
                    rw [List.take_of_length_le (by simp), List.take_of_length_le (by simp; omega)] at heq
                    have hc2 : c = c.headD 0 :: s.esh0 :: e := by
                      cases c with
                      | nil => simp at hc0
                      | cons a c => simpa using heq
                    refine next _ (i + c.headD 0) ⟨Nat.mod_lt _ (by decide), by simp, fun h => absurd h hc0, fun _ => ?_⟩ hcr (fun h => absurd h hc0)
                    refine ⟨rfl, Nat.le_refl _, by simp; omega, ?_, fun h => absurd h (by simp)⟩
                    simp only [Option.getD_some]
                    refine ⟨?_, ⟨c, by simp, _, hc2⟩, ?_⟩
                    · intro d hd
                      rw [← List.cons_append] at hd
                      rcases List.mem_append.1 hd with hd | hd
                      · left; exact hsame0 d hd
                      · right; rw [List.mem_singleton.1 hd]; exact ⟨_, hc2⟩
                    · have hne : c ≠ s.esh0 :: e := by
                        rw [hc2]; exact cons_ne
                      rw [← List.cons_append, List.map_append, List.sum_append, sum_ones hsame0]
                      simp only [List.map_cons, List.map_nil, List.sum_cons, List.sum_nil, if_neg hne, List.length_cons]
                      omega
                  · exact .inr rfl
                · rw [if_neg hall]; exact .inr rfl
            · rw [if_neg hup]
              simp only [Except.map]
              rw [if_neg (show ¬ c.length > s.rm by omega)]
              exact fin { s with rd := 1 } n ⟨hI.lt, hI.cam, fun h => absurd h hz, fun _ => ⟨k1, Nat.le_refl _, k3, k4, fun h => absurd h (by simp)⟩⟩ hz hrm (fun h => absurd h (by simp)) (by show c.length = s.rm ∨ c.length + 1 = s.rm; omega)
        · rw [if_neg hcd]
          exact fin s n hI hz hrm (fun h => by omega) (by omega)

end Verif.Sizes
