import Verif.Gc.Spec
/-! # Lemmas about garbage collection -/
namespace Verif.Gc

theorem put_self (H : Mem) (x : Nat) (o : Obj) : put H x o x = o := if_pos rfl
theorem put_ne (H : Mem) {x y : Nat} (o : Obj) (h : y ≠ x) : put H x o y = H y := if_neg h

/-! ## sums -/

theorem sum_congr {f g : Nat → Nat} : ∀ {l : List Nat}, (∀ y ∈ l, f y = g y) → (l.map f).sum = (l.map g).sum := by
  intro l h
  rw [List.map_congr_left h]

/-- Changing a function at one element. -/
theorem sum_update {f g : Nat → Nat} {x : Nat} : ∀ {l : List Nat}, l.Nodup → x ∈ l → (∀ y, y ≠ x → f y = g y) →
    (l.map f).sum + g x = (l.map g).sum + f x := by
  intro l
  induction l with
  | nil => intro _ h; cases h
  | cons a l ih =>
    intro hn hx h
    rw [List.nodup_cons] at hn
    rw [List.map_cons, List.map_cons, List.sum_cons, List.sum_cons]
    rcases List.mem_cons.1 hx with e | hx
    · subst e
      have : (l.map f).sum = (l.map g).sum := sum_congr fun y hy => h y (fun e => hn.1 (e ▸ hy))
      omega
    · have hne : a ≠ x := fun e => hn.1 (e ▸ hx)
      have := ih hn.2 hx h
      have := h a hne
      omega

theorem sum_ge {f : Nat → Nat} {x : Nat} {l : List Nat} (hx : x ∈ l) : f x ≤ (l.map f).sum := by
  induction l with
  | nil => cases hx
  | cons a l ih =>
    rw [List.map_cons, List.sum_cons]
    rcases List.mem_cons.1 hx with e | hx
    · subst e; omega
    · have := ih hx; omega

theorem sum_pos {f : Nat → Nat} {l : List Nat} (h : 0 < (l.map f).sum) : ∃ x ∈ l, 0 < f x := by
  induction l with
  | nil => cases h
  | cons a l ih =>
    rw [List.map_cons, List.sum_cons] at h
    rcases Nat.eq_zero_or_pos (f a) with h0 | h0
    · obtain ⟨x, hx, hf⟩ := ih (by omega)
      exact ⟨x, List.mem_cons_of_mem _ hx, hf⟩
    · exact ⟨a, List.mem_cons_self .., h0⟩

/-! ## counting passes -/

theorem visitCount_eq (d : Int) : ∀ (cs : List Nat) (H : Mem), visitCount d cs H = fun x => { H x with refc := (H x).refc + d * (cs.count x : Nat) } := by
  intro cs
  induction cs with
  | nil => intro H; funext x; simp [visitCount]
  | cons c cs ih =>
    intro H
    rw [visitCount, ih]
    funext x
    by_cases h : x = c
    · subst h
      rw [put_self, List.count_cons_self]
      show Obj.mk _ _ _ _ _ = Obj.mk _ _ _ _ _
      congr 1
      show (H x).refc + d + d * (cs.count x : Nat) = (H x).refc + d * ((cs.count x + 1 : Nat) : Int)
      rw [Int.natCast_add, Int.mul_add, Int.natCast_one, Int.mul_one]
      omega
    · rw [put_ne _ _ h, List.count_cons_of_ne (fun e => h e.symm)]

/-- References as `visit` sees them. -/
def visits (H : Mem) (hp : List Nat) (x : Nat) : Nat := (hp.map fun y => if (H y).kind = .empty then 0 else (H y).refs.count x).sum

theorem visits_congr {H H' : Mem} (h : ∀ x, (H' x).kind = (H x).kind ∧ (H' x).refs = (H x).refs) (hp : List Nat) (x : Nat) :
    visits H' hp x = visits H hp x := sum_congr fun y _ => by rw [(h y).1, (h y).2]

theorem unmarkDec_eq (x : Nat) (H : Mem) : unmarkDec x H = some (fun y => { H y with
    refc := (H y).refc - ((H x).refs.count y : Nat), mark := if y = x then false else (H y).mark }) := by
  unfold unmarkDec resetTag
  rw [Option.map_some, visitCount_eq, put_self]
  congr 1
  funext y
  by_cases h : y = x
  · subst h
    rw [put_self, if_pos rfl]
    show Obj.mk _ _ _ _ _ = Obj.mk _ _ _ _ _
    congr 1
    show (H y).refc + -1 * ((H y).refs.count y : Nat) = (H y).refc - ((H y).refs.count y : Nat)
    omega
  · rw [put_ne _ _ h, if_neg h]
    show Obj.mk _ _ _ _ _ = Obj.mk _ _ _ _ _
    congr 1
    show (H y).refc + -1 * ((H x).refs.count y : Nat) = (H y).refc - ((H x).refs.count y : Nat)
    omega

theorem decPass_eq : ∀ (hp : List Nat) (H : Mem), forHeap unmarkDec hp H = some (fun x => { H x with
    refc := (H x).refc - (visits H hp x : Nat), mark := if x ∈ hp ∧ (H x).kind ≠ .empty then false else (H x).mark }) := by
  intro hp
  induction hp with
  | nil =>
    intro H
    rw [forHeap]
    congr 1
    funext x
    simp [visits]
  | cons a hp ih =>
    intro H
    rw [forHeap]
    by_cases he : (H a).kind = .empty
    · rw [if_pos he, Option.bind_some, ih]
      congr 1
      funext x
      have hv : visits H (a :: hp) x = visits H hp x := by simp [visits, he]
      rw [hv]
      congr 1
      by_cases h : x = a
      · subst h; simp [he]
      · simp [h]
    · rw [if_neg he, unmarkDec_eq, Option.bind_some, ih]
      congr 1
      funext x
      have hv : visits H (a :: hp) x = (H a).refs.count x + visits H hp x := by simp [visits, he]
      rw [hv, visits_congr (H := H)]
      · show Obj.mk _ _ _ _ _ = Obj.mk _ _ _ _ _
        congr 1
        · show (H x).refc - ((H a).refs.count x : Nat) - (visits H hp x : Nat) = _
          omega
        · by_cases h : x = a
          · subst h; simp [he]
          · simp [h]
      · intro x; exact ⟨rfl, rfl⟩

theorem incPass_eq : ∀ (hp : List Nat) (H : Mem), forHeap visitInc hp H = some (fun x => { H x with
    refc := (H x).refc + (visits H hp x : Nat) }) := by
  intro hp
  induction hp with
  | nil =>
    intro H
    rw [forHeap]
    congr 1
    funext x
    simp [visits]
  | cons a hp ih =>
    intro H
    rw [forHeap]
    by_cases he : (H a).kind = .empty
    · rw [if_pos he, Option.bind_some, ih]
      congr 1
      funext x
      have hv : visits H (a :: hp) x = visits H hp x := by simp [visits, he]
      rw [hv]
    · rw [if_neg he, visitInc, Option.bind_some, ih, visitCount_eq]
      congr 1
      funext x
      have hv : visits H (a :: hp) x = (H a).refs.count x + visits H hp x := by simp [visits, he]
      rw [hv, visits_congr (H := H)]
      · show Obj.mk _ _ _ _ _ = Obj.mk _ _ _ _ _
        congr 1
        show (H x).refc + 1 * ((H a).refs.count x : Nat) + (visits H hp x : Nat) = _
        omega
      · intro x; exact ⟨rfl, rfl⟩

theorem resetPass_eq : ∀ (hp : List Nat) (H : Mem), forHeap resetTag hp H = some (fun x => { H x with
    mark := if x ∈ hp ∧ (H x).kind ≠ .empty then false else (H x).mark }) := by
  intro hp
  induction hp with
  | nil =>
    intro H
    rw [forHeap]
    simp
  | cons a hp ih =>
    intro H
    rw [forHeap]
    by_cases he : (H a).kind = .empty
    · rw [if_pos he, Option.bind_some, ih]
      congr 1
      funext x
      congr 1
      by_cases h : x = a
      · subst h; simp [he]
      · simp [h]
    · rw [if_neg he, resetTag, Option.bind_some, ih]
      congr 1
      funext x
      by_cases h : x = a
      · subst h; rw [put_self]; simp [he]
      · rw [put_ne _ _ h]; simp [h]

/-! ## marking -/

/-- The memory with other marks. -/
def setMarks (H : Mem) (m : Nat → Bool) : Mem := fun x => { H x with mark := m x }

theorem reach_congr {H H' : Mem} (h : ∀ x, (H' x).refs = (H x).refs) {S : Nat → Prop} {x : Nat} (hr : Reach H S x) : Reach H' S x := by
  induction hr with
  | base h => exact .base h
  | step _ hx ih => exact .step ih (by rw [h]; exact hx)

theorem reach_mono {H : Mem} {S T : Nat → Prop} (h : ∀ x, S x → Reach H T x) {x : Nat} (hr : Reach H S x) : Reach H T x := by
  induction hr with
  | base hx => exact h _ hx
  | step _ hx ih => exact .step ih hx

/-- Objects refer to objects. -/
def Graph (hp : List Nat) (H : Mem) : Prop :=
  hp.Nodup ∧ (∀ x, (H x).kind ≠ .empty → x ∈ hp) ∧ ∀ x, (H x).kind ≠ .empty → ∀ c ∈ (H x).refs, (H c).kind ≠ .empty

/-- What marking has done: the marks `m` were `m0`. -/
structure Marked (H : Mem) (m0 m : Nat → Bool) (S : Nat → Prop) : Prop where
  mono : ∀ x, m0 x = true → m x = true
  all : ∀ x, S x → m x = true
  sound : ∀ x, m x = true → m0 x = true ∨ Reach H S x
  closed : ∀ x, m x = true → m0 x = true ∨ ∀ c ∈ (H x).refs, m c = true

theorem mark_spec {hp : List Nat} {H : Mem} (hg : Graph hp H) : ∀ (f : Nat) (xs : List Nat) (m0 : Nat → Bool),
    (∀ x ∈ xs, (H x).kind ≠ .empty) → xs.length + (hp.map fun y => if m0 y then 0 else (H y).refs.length + 1).sum ≤ f →
    ∃ m, mark f xs (setMarks H m0) = some (setMarks H m) ∧ Marked H m0 m (· ∈ xs) := by
  obtain ⟨hn, hdom, hrefs⟩ := hg
  intro f
  induction f with
  | zero =>
    intro xs m0 hx hf
    have : xs = [] := List.length_eq_zero_iff.1 (by omega)
    subst this
    refine ⟨m0, rfl, fun _ h => h, fun _ h => absurd h (List.not_mem_nil), fun _ h => .inl h, fun _ h => .inl h⟩
  | succ f ih =>
    intro xs m0 hx hf
    match xs with
    | [] =>
      refine ⟨m0, rfl, fun _ h => h, fun _ h => absurd h (List.not_mem_nil), fun _ h => .inl h, fun _ h => .inl h⟩
    | a :: xs =>
      have ha := hx a (List.mem_cons_self ..)
      rw [mark]
      rw [if_neg (show ¬ (setMarks H m0 a).kind = .empty from ha)]
      by_cases hm : m0 a = true
      · rw [if_pos (show (setMarks H m0 a).mark = true from hm)]
        obtain ⟨m, h1, h2⟩ := ih xs m0 (fun x h => hx x (List.mem_cons_of_mem _ h)) (by rw [List.length_cons] at hf; omega)
        refine ⟨m, h1, h2.mono, ?_, ?_, ?_⟩
        · intro x h
          rcases List.mem_cons.1 h with rfl | h
          · exact h2.mono _ hm
          · exact h2.all _ h
        · intro x h
          rcases h2.sound x h with h | h
          · exact .inl h
          · exact .inr (reach_mono (fun y hy => .base (List.mem_cons_of_mem _ hy)) h)
        · exact h2.closed
      · rw [if_neg (show ¬ (setMarks H m0 a).mark = true from hm)]
        let m1 : Nat → Bool := fun y => if y = a then true else m0 y
        have he : put (setMarks H m0) a { setMarks H m0 a with mark := true } = setMarks H m1 := by
          funext y
          by_cases h : y = a
          · subst h; rw [put_self]; simp [setMarks, m1]
          · rw [put_ne _ _ h]; simp [setMarks, m1, h]
        rw [he]
        have hsum := sum_update (f := fun y => if m1 y then 0 else (H y).refs.length + 1) (g := fun y => if m0 y then 0 else (H y).refs.length + 1)
          hn (hdom a ha) (fun y hy => by simp [m1, hy])
        have e1 : m1 a = true := if_pos rfl
        simp only [e1, if_true, if_neg hm] at hsum
        obtain ⟨m, h1, h2⟩ := ih ((H a).refs ++ xs) m1
          (by
            intro x h
            rcases List.mem_append.1 h with h | h
            · exact hrefs a ha x h
            · exact hx x (List.mem_cons_of_mem _ h))
          (by rw [List.length_append]; rw [List.length_cons] at hf; omega)
        have hm1 : ∀ x, m1 x = true → x = a ∨ m0 x = true := by
          intro x h
          by_cases e : x = a
          · exact .inl e
          · exact .inr (by rw [← h]; simp [m1, e])
        refine ⟨m, h1, ?_, ?_, ?_, ?_⟩
        · intro x h
          apply h2.mono
          by_cases e : x = a <;> simp [m1, e, h]
        · intro x h
          rcases List.mem_cons.1 h with rfl | h
          · exact h2.mono _ e1
          · exact h2.all _ (List.mem_append_right _ h)
        · intro x h
          rcases h2.sound x h with h | h
          · rcases hm1 x h with rfl | h
            · exact .inr (.base (List.mem_cons_self ..))
            · exact .inl h
          · refine .inr (reach_mono (fun y hy => ?_) h)
            rcases List.mem_append.1 hy with hy | hy
            · exact .step (.base (List.mem_cons_self ..)) hy
            · exact .base (List.mem_cons_of_mem _ hy)
        · intro x h
          rcases h2.closed x h with h | h
          · rcases hm1 x h with rfl | h
            · exact .inr fun c hc => h2.all c (List.mem_append_left _ hc)
            · exact .inl h
          · exact .inr h

theorem markSteps_enough (hp : List Nat) (H : Mem) (m0 : Nat → Bool) (xs : List Nat) :
    xs.length + (hp.map fun y => if m0 y then 0 else (H y).refs.length + 1).sum ≤ markSteps hp (setMarks H m0) xs := by
  unfold markSteps
  have : (hp.map fun y => if m0 y then 0 else (H y).refs.length + 1).sum ≤ (hp.map fun y => (setMarks H m0 y).refs.length + 1).sum := by
    induction hp with
    | nil => exact Nat.le_refl _
    | cons a hp ih =>
      rw [List.map_cons, List.map_cons, List.sum_cons, List.sum_cons]
      have : (if m0 a then 0 else (H a).refs.length + 1) ≤ (setMarks H m0 a).refs.length + 1 := by
        split
        · omega
        · exact Nat.le_refl _
      omega
  omega

theorem markPass_spec {hp : List Nat} {H : Mem} (hg : Graph hp H) : ∀ (l : List Nat) (m0 : Nat → Bool),
    ∃ m, forHeap (visitNonzero hp) l (setMarks H m0) = some (setMarks H m) ∧
      Marked H m0 m (fun x => x ∈ l ∧ (H x).kind ≠ .empty ∧ (H x).refc ≠ 0) := by
  intro l
  induction l with
  | nil =>
    intro m0
    refine ⟨m0, rfl, fun _ h => h, fun _ h => absurd h.1 (List.not_mem_nil), fun _ h => .inl h, fun _ h => .inl h⟩
  | cons a l ih =>
    intro m0
    rw [forHeap]
    -- what happens at the first object
    have first : ∃ m1, (if (setMarks H m0 a).kind = .empty then some (setMarks H m0) else visitNonzero hp a (setMarks H m0)) = some (setMarks H m1) ∧
        Marked H m0 m1 (fun x => x = a ∧ (H x).kind ≠ .empty ∧ (H x).refc ≠ 0) := by
      by_cases he : (H a).kind = .empty
      · rw [if_pos (show (setMarks H m0 a).kind = .empty from he)]
        refine ⟨m0, rfl, fun _ h => h, fun x h => absurd he (by rw [← h.1]; exact h.2.1), fun _ h => .inl h, fun _ h => .inl h⟩
      · rw [if_neg (show ¬ (setMarks H m0 a).kind = .empty from he)]
        unfold visitNonzero
        by_cases h0 : (H a).refc = 0
        · rw [if_pos (show (setMarks H m0 a).refc = 0 from h0)]
          refine ⟨m0, rfl, fun _ h => h, fun x h => absurd h0 (by rw [← h.1]; exact h.2.2), fun _ h => .inl h, fun _ h => .inl h⟩
        · rw [if_neg (show ¬ (setMarks H m0 a).refc = 0 from h0)]
          obtain ⟨m, h1, h2⟩ := mark_spec hg _ [a] m0 (by intro x hx; rw [List.mem_singleton.1 hx]; exact he) (markSteps_enough hp H m0 [a])
          refine ⟨m, h1, h2.mono, ?_, ?_, ?_⟩
          · intro x h; exact h2.all x (List.mem_singleton.2 h.1)
          · intro x h
            rcases h2.sound x h with h | h
            · exact .inl h
            · refine .inr (reach_mono (fun y hy => .base ?_) h)
              have := List.mem_singleton.1 hy
              subst this
              exact ⟨rfl, he, h0⟩
          · exact h2.closed
    obtain ⟨m1, e1, k1⟩ := first
    rw [e1, Option.bind_some]
    obtain ⟨m, e2, k2⟩ := ih m1
    refine ⟨m, e2, fun x h => k2.mono _ (k1.mono _ h), ?_, ?_, ?_⟩
    · rintro x ⟨h1, h2, h3⟩
      rcases List.mem_cons.1 h1 with rfl | h1
      · exact k2.mono _ (k1.all _ ⟨rfl, h2, h3⟩)
      · exact k2.all _ ⟨h1, h2, h3⟩
    · intro x h
      rcases k2.sound x h with h | h
      · rcases k1.sound x h with h | h
        · exact .inl h
        · refine .inr (reach_mono (fun y hy => .base ?_) h)
          exact ⟨by rw [hy.1]; exact List.mem_cons_self .., hy.2⟩
      · exact .inr (reach_mono (fun y hy => .base ⟨List.mem_cons_of_mem _ hy.1, hy.2⟩) h)
    · intro x h
      rcases k2.closed x h with h | h
      · rcases k1.closed x h with h | h
        · exact .inl h
        · exact .inr fun c hc => k2.mono c (h c hc)
      · exact .inr h

end Verif.Gc
