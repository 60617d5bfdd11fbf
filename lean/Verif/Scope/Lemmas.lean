import Verif.Scope.Model

/-! Lemmas on sums, and the invariant of the freeing loop. -/
namespace Verif.Scope

theorem total_congr {n : Nat} {f g : Nat → Nat} (h : ∀ j, j < n → f j = g j) :
    total n f = total n g := by
  induction n with
  | zero => rfl
  | succ n ih =>
    simp only [total]
    rw [ih (fun j hj => h j (by omega)), h n (by omega)]

theorem total_le {n : Nat} {f g : Nat → Nat} (h : ∀ j, f j ≤ g j) :
    total n f ≤ total n g := by
  induction n with
  | zero => exact Nat.le_refl _
  | succ n ih => simp only [total]; have := h n; omega

/-- Changing one term. -/
theorem total_point {n : Nat} {f g : Nat → Nat} {k : Nat} (hk : k < n)
    (h : ∀ j, j ≠ k → f j = g j) : total n f + g k = total n g + f k := by
  induction n with
  | zero => omega
  | succ n ih =>
    simp only [total]
    by_cases hkn : k = n
    · subst hkn
      rw [total_congr (fun j hj => h j (by omega))]
      omega
    · have := ih (by omega)
      rw [h n (fun e => hkn e.symm)]
      omega

theorem total_pos {n : Nat} {f : Nat → Nat} (h : 0 < total n f) : ∃ j, j < n ∧ 0 < f j := by
  induction n with
  | zero => simp [total] at h
  | succ n ih =>
    simp only [total] at h
    by_cases hn : 0 < f n
    · exact ⟨n, by omega, hn⟩
    · obtain ⟨j, hj, hf⟩ := ih (by omega)
      exact ⟨j, by omega, hf⟩

theorem le_total {n k : Nat} {f : Nat → Nat} (h : k < n) : f k ≤ total n f := by
  induction n with
  | zero => omega
  | succ n ih =>
    simp only [total]
    by_cases hk : k = n
    · subst hk; omega
    · have := ih (by omega); omega

theorem total_add {n : Nat} {f g : Nat → Nat} :
    total n (fun j => f j + g j) = total n f + total n g := by
  induction n with
  | zero => rfl
  | succ n ih => simp only [total, ih]; omega

/-! ## The invariant -/

/-- The references held by objects that are not being freed. -/
def held (h : Heap) (st : List Work) (i : Nat) : Nat :=
  total h.bound (fun j => if Work.gone j ∈ st then 0 else holds h j i)

def tail (e : Option Nat) : List Work := e.toList.map .gone

def owed (h : Heap) (roots : List Nat) (w : List Work) (e : Option Nat) (i : Nat) : Nat :=
  roots.count i + w.count (.dec i) + held h (w ++ tail e) i

/-- `w` is what is still to be done; `e` is the scope that is being freed early,
if there is one. -/
structure Inv (h : Heap) (roots : List Nat) (w : List Work) (e : Option Nat) : Prop where
  small : ∀ i, h.bound ≤ i → h.get i = none
  live : ∀ i o, h.get i = some o → Work.gone i ∉ w ++ tail e →
    o.refc = owed h roots w e i ∧ 0 < o.refc
  dying : ∀ i o, h.get i = some o → Work.gone i ∈ w →
    o.refc = 0 ∧ owed h roots w e i = 0
  early : ∀ s o, e = some s → h.get s = some o → o.refc = owed h roots w e s + 1
  there : ∀ i, Work.gone i ∈ w ++ tail e → h.get i ≠ none
  gap : ∀ i, h.get i = none → owed h roots w e i = 0
  once : ∀ i, (w ++ tail e).count (.gone i) ≤ 1
  priv : ∀ s, e = some s → roots.count s = 0 ∧
    ∀ j o, h.get j = some o → Work.gone j ∉ w ++ tail e → s ∈ o.kind.refs →
      roots.count j = 0 ∧ held h (w ++ tail e) j = 0

theorem get_set (h : Heap) (i j : Nat) (o : Option Obj) :
    (h.set i o).get j = if j = i then o else h.get j := rfl

theorem get_set_same (h : Heap) (i : Nat) (o : Option Obj) : (h.set i o).get i = o := by
  simp [get_set]

theorem get_set_ne (h : Heap) {i j : Nat} (o : Option Obj) (hn : j ≠ i) :
    (h.set i o).get j = h.get j := by
  rw [get_set, if_neg hn]

theorem bound_set (h : Heap) (i : Nat) (o : Option Obj) : (h.set i o).bound = h.bound := rfl

theorem holds_some {h : Heap} {j : Nat} {o : Obj} (hj : h.get j = some o) (i : Nat) :
    holds h j i = o.kind.refs.count i := by
  simp only [holds, hj]

theorem holds_none {h : Heap} {j : Nat} (hj : h.get j = none) (i : Nat) : holds h j i = 0 := by
  simp only [holds, hj]

/-- Changing a count changes no references. -/
theorem holds_set_refc {h : Heap} {i : Nat} {o : Obj} (hi : h.get i = some o) (n : Nat) (j k : Nat) :
    holds (h.set i (some { o with refc := n })) j k = holds h j k := by
  by_cases hj : j = i
  · subst hj
    rw [holds_some (get_set_same _ _ _), holds_some hi]
  · simp only [holds, get_set_ne h _ hj]

theorem mem_tail {e : Option Nat} {i : Nat} : Work.gone i ∈ tail e ↔ e = some i := by
  cases e with
  | none => simp [tail]
  | some s => simp [tail, eq_comm]

theorem dec_not_tail {e : Option Nat} {i : Nat} : Work.dec i ∉ tail e := by
  cases e <;> simp [tail]

theorem count_freeWork_dec (i k : Nat) (kd : Kind) :
    (freeWork i kd).count (.dec k) = kd.refs.count k := by
  unfold freeWork
  rw [List.count_append, List.count_eq_zero_of_not_mem (l := [Work.gone i]) (by simp)]
  have : ∀ l : List Nat, (l.map Work.dec).count (.dec k) = l.count k := by
    intro l
    induction l with
    | nil => rfl
    | cons a l ih =>
      simp only [List.map_cons, List.count_cons, ih]
      by_cases ha : a = k
      · subst ha; simp
      · simp [ha]
  rw [this]; rfl

theorem count_freeWork_gone (i k : Nat) (kd : Kind) :
    (freeWork i kd).count (.gone k) = if k = i then 1 else 0 := by
  unfold freeWork
  rw [List.count_append]
  have : (kd.refs.map Work.dec).count (.gone k) = 0 := by
    apply List.count_eq_zero_of_not_mem
    simp
  rw [this]
  by_cases hk : k = i
  · subst hk; simp
  · have : ¬ (i = k) := fun e => hk e.symm
    simp [hk, this]

theorem mem_freeWork {i k : Nat} {kd : Kind} : Work.gone k ∈ freeWork i kd ↔ k = i := by
  simp [freeWork]

theorem held_pos {h : Heap} {st : List Work} {i : Nat} (hp : 0 < held h st i) :
    ∃ j o, h.get j = some o ∧ Work.gone j ∉ st ∧ i ∈ o.kind.refs := by
  obtain ⟨j, _, hf⟩ := total_pos hp
  have hf' : 0 < (if Work.gone j ∈ st then 0 else holds h j i) := hf
  by_cases hg : Work.gone j ∈ st
  · rw [if_pos hg] at hf'; omega
  · rw [if_neg hg] at hf'
    cases hj : h.get j with
    | none => rw [holds_none hj] at hf'; omega
    | some o =>
      rw [holds_some hj] at hf'
      exact ⟨j, o, hj, hg, List.count_pos_iff.1 hf'⟩

/-- Lowering the count of an object that keeps other references. -/
theorem Inv.lower {h : Heap} {roots : List Nat} {w : List Work} {e : Option Nat} {i : Nat} {o : Obj}
    (hv : Inv h roots (.dec i :: w) e) (hi : h.get i = some o) (h1 : o.refc ≠ 1) (h0 : o.refc ≠ 0) :
    Inv (h.set i (some { o with refc := o.refc - 1 })) roots w e := by
  have hmem : ∀ k, Work.gone k ∈ Work.dec i :: w ++ tail e ↔ Work.gone k ∈ w ++ tail e := by
    intro k; simp
  have hheld : ∀ k, held (h.set i (some { o with refc := o.refc - 1 })) (w ++ tail e) k =
      held h (Work.dec i :: w ++ tail e) k := by
    intro k
    unfold held
    apply total_congr
    intro j _
    simp only [hmem, holds_set_refc hi]
  have howed : ∀ k, owed (h.set i (some { o with refc := o.refc - 1 })) roots w e k +
      (if k = i then 1 else 0) = owed h roots (.dec i :: w) e k := by
    intro k
    unfold owed
    rw [hheld k, List.count_cons]
    by_cases hk : k = i
    · subst hk; simp; omega
    · have : ¬ (i = k) := fun x => hk x.symm
      simp [hk, this]
  have hw0 : Work.gone i ∉ w := by
    intro hg
    have := (hv.dying i o hi (List.mem_cons_of_mem _ hg)).1
    exact h0 this
  refine ⟨?_, ?_, ?_, ?_, ?_, ?_, ?_, ?_⟩
  · intro k hk
    have : k ≠ i := by
      intro hki; subst hki
      rw [hv.small k hk] at hi; cases hi
    rw [get_set_ne h _ this]
    exact hv.small k hk
  · intro k p hp hg
    have hg' := fun x => hg ((hmem k).1 x)
    have hu := howed k
    by_cases hk : k = i
    · subst hk
      rw [get_set_same] at hp; cases hp
      have := hv.live k o hi hg'
      rw [if_pos rfl] at hu
      dsimp only
      omega
    · rw [get_set_ne h _ hk] at hp
      have := hv.live k p hp hg'
      rw [if_neg hk] at hu
      omega
  · intro k p hp hg
    have hk : k ≠ i := by
      intro x; subst x; exact hw0 hg
    rw [get_set_ne h _ hk] at hp
    have hu := howed k
    rw [if_neg hk] at hu
    have := hv.dying k p hp (List.mem_cons_of_mem _ hg)
    omega
  · intro s p hs hp
    have hu := howed s
    by_cases hk : s = i
    · subst hk
      rw [get_set_same] at hp; cases hp
      have := hv.early s o hs hi
      rw [if_pos rfl] at hu
      dsimp only
      omega
    · rw [get_set_ne h _ hk] at hp
      have := hv.early s p hs hp
      rw [if_neg hk] at hu
      omega
  · intro k hk
    by_cases hki : k = i
    · subst hki; rw [get_set_same]; nofun
    · rw [get_set_ne h _ hki]
      exact hv.there k ((hmem k).2 hk)
  · intro k hk
    by_cases hki : k = i
    · subst hki; rw [get_set_same] at hk; cases hk
    · rw [get_set_ne h _ hki] at hk
      have := hv.gap k hk
      have := howed k
      omega
  · intro k
    have := hv.once k
    simpa using this
  · intro s hs
    refine ⟨(hv.priv s hs).1, ?_⟩
    intro j p hp hg hsr
    rw [hheld j]
    have hg' := fun x => hg ((hmem j).1 x)
    by_cases hk : j = i
    · subst hk
      rw [get_set_same] at hp; cases hp
      exact (hv.priv s hs).2 j o hi hg' hsr
    · rw [get_set_ne h _ hk] at hp
      exact (hv.priv s hs).2 j p hp hg' hsr

/-- Starting to free an object whose last reference goes. -/
theorem Inv.start {h : Heap} {roots : List Nat} {w : List Work} {e : Option Nat} {i : Nat} {o : Obj}
    (hv : Inv h roots (.dec i :: w) e) (hi : h.get i = some o) (h1 : o.refc = 1) :
    Inv (h.set i (some { o with refc := 0 })) roots (freeWork i o.kind ++ w) e := by
  have hib : i < h.bound := by
    apply Nat.lt_of_not_le
    intro hle
    rw [hv.small i hle] at hi; cases hi
  have hcnt : 1 ≤ owed h roots (.dec i :: w) e i := by
    unfold owed; rw [List.count_cons]; simp; omega
  have hei : e ≠ some i := by
    intro hs
    have := hv.early i o hs hi
    omega
  have hgi : Work.gone i ∉ Work.dec i :: w ++ tail e := by
    intro hg
    rcases List.mem_append.1 hg with hg | hg
    · have := (hv.dying i o hi hg).1; omega
    · exact hei (mem_tail.1 hg)
  have hmem : ∀ k, Work.gone k ∈ freeWork i o.kind ++ w ++ tail e ↔
      (k = i ∨ Work.gone k ∈ Work.dec i :: w ++ tail e) := by
    intro k
    simp only [List.append_assoc, List.mem_append, mem_freeWork, List.mem_cons, List.cons_append]
    simp
  have hheld : ∀ k, held (h.set i (some { o with refc := 0 })) (freeWork i o.kind ++ w ++ tail e) k +
      o.kind.refs.count k = held h (Work.dec i :: w ++ tail e) k := by
    intro k
    unfold held
    have := total_point (n := h.bound) (k := i)
      (f := fun j => if Work.gone j ∈ freeWork i o.kind ++ w ++ tail e then 0
        else holds (h.set i (some { o with refc := 0 })) j k)
      (g := fun j => if Work.gone j ∈ Work.dec i :: w ++ tail e then 0 else holds h j k) hib
      (by
        intro j hj
        have hiff := hmem j
        simp only [hj, false_or] at hiff
        simp only [hiff, holds_set_refc hi])
    have e1 : (if Work.gone i ∈ freeWork i o.kind ++ w ++ tail e then 0
        else holds (h.set i (some { o with refc := 0 })) i k) = 0 :=
      if_pos ((hmem i).2 (Or.inl rfl))
    have e2 : (if Work.gone i ∈ Work.dec i :: w ++ tail e then 0 else holds h i k) =
        o.kind.refs.count k := by
      rw [if_neg hgi, holds_some hi]
    rw [e1, e2] at this
    exact this
  have howed : ∀ k, owed (h.set i (some { o with refc := 0 })) roots (freeWork i o.kind ++ w) e k +
      (if k = i then 1 else 0) = owed h roots (.dec i :: w) e k := by
    intro k
    unfold owed
    have := hheld k
    rw [List.count_append, count_freeWork_dec]
    by_cases hk : k = i
    · subst hk
      rw [List.count_cons_self, if_pos rfl]; omega
    · rw [List.count_cons_of_ne (by simpa using fun x : i = k => hk x.symm), if_neg hk]; omega
  have hown := (hv.live i o hi hgi).1
  refine ⟨?_, ?_, ?_, ?_, ?_, ?_, ?_, ?_⟩
  · intro k hk
    have : k ≠ i := by
      rw [bound_set] at hk; omega
    rw [get_set_ne h _ this]
    exact hv.small k hk
  · intro k p hp hg
    have hg' := fun x => hg ((hmem k).2 x)
    have hk : k ≠ i := fun x => hg' (Or.inl x)
    rw [get_set_ne h _ hk] at hp
    have := hv.live k p hp (fun x => hg' (Or.inr x))
    have hu := howed k
    rw [if_neg hk] at hu
    omega
  · intro k p hp hg
    have hu := howed k
    by_cases hk : k = i
    · subst hk
      rw [get_set_same] at hp; cases hp
      rw [if_pos rfl] at hu
      exact ⟨rfl, by omega⟩
    · rw [get_set_ne h _ hk] at hp
      rw [if_neg hk] at hu
      have hg' : Work.gone k ∈ Work.dec i :: w := by
        rcases List.mem_append.1 hg with hg | hg
        · exact absurd (mem_freeWork.1 hg) hk
        · exact List.mem_cons_of_mem _ hg
      have := hv.dying k p hp hg'
      omega
  · intro s p hs hp
    have hk : s ≠ i := by
      intro x; subst x; exact hei hs
    rw [get_set_ne h _ hk] at hp
    have hu := howed s
    rw [if_neg hk] at hu
    have := hv.early s p hs hp
    omega
  · intro k hk
    by_cases hki : k = i
    · subst hki; rw [get_set_same]; nofun
    · rw [get_set_ne h _ hki]
      rcases (hmem k).1 hk with x | x
      · exact absurd x hki
      · exact hv.there k x
  · intro k hk
    have hki : k ≠ i := by
      intro x; subst x; rw [get_set_same] at hk; cases hk
    rw [get_set_ne h _ hki] at hk
    have := hv.gap k hk
    have := howed k
    omega
  · intro k
    have := hv.once k
    rw [List.append_assoc, List.count_append, count_freeWork_gone]
    have hc : (Work.dec i :: w ++ tail e).count (.gone k) = (w ++ tail e).count (.gone k) := by
      simp
    rw [hc] at this
    by_cases hk : k = i
    · subst hk
      rw [if_pos rfl]
      have : (w ++ tail e).count (.gone k) = 0 := by
        apply List.count_eq_zero_of_not_mem
        intro x
        exact hgi (List.mem_cons_of_mem _ x)
      omega
    · rw [if_neg hk]; omega
  · intro s hs
    refine ⟨(hv.priv s hs).1, ?_⟩
    intro j p hp hg hsr
    have hg' := fun x => hg ((hmem j).2 x)
    have hk : j ≠ i := fun x => hg' (Or.inl x)
    rw [get_set_ne h _ hk] at hp
    have := (hv.priv s hs).2 j p hp (fun x => hg' (Or.inr x)) hsr
    have := hheld j
    omega

/-- An object that has dropped its references goes. -/
theorem Inv.finish {h : Heap} {roots : List Nat} {w : List Work} {e : Option Nat} {i : Nat}
    (hv : Inv h roots (.gone i :: w) e) : Inv (h.set i none) roots w e := by
  have hgone : Work.gone i ∉ w ++ tail e := by
    intro hg
    have h1 := hv.once i
    have h2 := List.count_pos_iff.2 hg
    rw [List.cons_append, List.count_cons_self] at h1
    omega
  have hei : e ≠ some i := fun x => hgone (List.mem_append_right _ (mem_tail.2 x))
  have hmem : ∀ k, k ≠ i → (Work.gone k ∈ Work.gone i :: w ++ tail e ↔ Work.gone k ∈ w ++ tail e) := by
    intro k hk; simp [hk]
  have hheld : ∀ k, held (h.set i none) (w ++ tail e) k = held h (Work.gone i :: w ++ tail e) k := by
    intro k
    unfold held
    apply total_congr
    intro j _
    by_cases hj : j = i
    · subst hj
      rw [if_neg hgone, holds_none (get_set_same _ _ _), if_pos (by simp)]
    · simp only [hmem j hj, holds, get_set_ne h _ hj]
  have howed : ∀ k, owed (h.set i none) roots w e k = owed h roots (.gone i :: w) e k := by
    intro k
    unfold owed
    rw [hheld k, List.count_cons]
    simp
  refine ⟨?_, ?_, ?_, ?_, ?_, ?_, ?_, ?_⟩
  · intro k hk
    by_cases hki : k = i
    · subst hki; rw [get_set_same]
    · rw [get_set_ne h _ hki]; exact hv.small k hk
  · intro k p hp hg
    have hk : k ≠ i := by
      intro x; subst x; rw [get_set_same] at hp; cases hp
    rw [get_set_ne h _ hk] at hp
    rw [howed k]
    exact hv.live k p hp (fun x => hg ((hmem k hk).1 x))
  · intro k p hp hg
    have hk : k ≠ i := by
      intro x; subst x; rw [get_set_same] at hp; cases hp
    rw [get_set_ne h _ hk] at hp
    rw [howed k]
    exact hv.dying k p hp (List.mem_cons_of_mem _ hg)
  · intro s p hs hp
    have hk : s ≠ i := by
      intro x; subst x; exact hei hs
    rw [get_set_ne h _ hk] at hp
    rw [howed s]
    exact hv.early s p hs hp
  · intro k hk
    have hki : k ≠ i := by
      intro x; subst x; exact hgone hk
    rw [get_set_ne h _ hki]
    exact hv.there k ((hmem k hki).2 hk)
  · intro k hk
    rw [howed k]
    by_cases hki : k = i
    · subst hki
      cases ho : h.get k with
      | none => exact absurd ho (hv.there k (by simp))
      | some o => exact (hv.dying k o ho List.mem_cons_self).2
    · rw [get_set_ne h _ hki] at hk
      exact hv.gap k hk
  · intro k
    have := hv.once k
    rw [List.cons_append, List.count_cons] at this
    omega
  · intro s hs
    refine ⟨(hv.priv s hs).1, ?_⟩
    intro j p hp hg hsr
    have hk : j ≠ i := by
      intro x; subst x; rw [get_set_same] at hp; cases hp
    rw [get_set_ne h _ hk] at hp
    rw [hheld j]
    exact (hv.priv s hs).2 j p hp (fun x => hg ((hmem j hk).1 x)) hsr

theorem held_nil (h : Heap) (i : Nat) : held h [] i = total h.bound (fun j => holds h j i) := by
  unfold held
  apply total_congr
  intro j _
  simp

/-- Nothing left to do. -/
theorem Inv.done {h : Heap} {roots : List Nat} (hv : Inv h roots [] none) : Accurate h roots := by
  have ho : ∀ i, owed h roots [] none i = refsTo h roots i := by
    intro i
    unfold owed refsTo
    have : ([] : List Work) ++ tail none = [] := rfl
    rw [this, held_nil]
    simp
  refine ⟨hv.small, ?_, ?_⟩
  · intro i o hi
    rw [← ho]
    exact hv.live i o hi (by simp [tail])
  · intro i hi
    rw [← ho]
    exact hv.gap i hi

/-- The scope that is freed early goes last; by then nothing refers to it. -/
theorem Inv.last {h : Heap} {roots : List Nat} {s : Nat} (hv : Inv h roots [] (some s)) :
    Inv (h.set s none) roots [] none := by
  have hz : ∀ j, ([] : List Work) ++ tail (some j) = [.gone j] := fun j => rfl
  have hn : ([] : List Work) ++ tail none = [] := rfl
  have hheld : ∀ k, held (h.set s none) [] k = held h [.gone s] k := by
    intro k
    unfold held
    apply total_congr
    intro j _
    by_cases hj : j = s
    · subst hj
      rw [if_neg (by simp), holds_none (get_set_same _ _ _), if_pos (by simp)]
    · simp [hj, holds, get_set_ne h _ hj]
  have howed : ∀ k, owed (h.set s none) roots [] none k = owed h roots [] (some s) k := by
    intro k
    unfold owed
    rw [hz, hn, hheld k]
  have hs0 : owed h roots [] (some s) s = 0 := by
    obtain ⟨hr, hp⟩ := hv.priv s rfl
    apply Nat.eq_zero_of_not_pos
    intro hpos
    unfold owed at hpos
    rw [hr, hz] at hpos
    have hpos' : 0 < held h [.gone s] s := by simpa using hpos
    obtain ⟨j, o, hj, hg, hm⟩ := held_pos hpos'
    have h1 := hp j o hj hg hm
    have h2 := hv.live j o hj hg
    unfold owed at h2
    rw [h1.1, h1.2] at h2
    simp at h2
    omega
  refine ⟨?_, ?_, ?_, ?_, ?_, ?_, ?_, ?_⟩
  · intro k hk
    by_cases hki : k = s
    · subst hki; rw [get_set_same]
    · rw [get_set_ne h _ hki]; exact hv.small k hk
  · intro k p hp _
    have hk : k ≠ s := by
      intro x; subst x; rw [get_set_same] at hp; cases hp
    rw [get_set_ne h _ hk] at hp
    rw [howed k]
    exact hv.live k p hp (by rw [hz]; simp [hk])
  · intro k p hp hg; cases hg
  · intro k p hs; cases hs
  · intro k hk; simp [tail] at hk
  · intro k hk
    rw [howed k]
    by_cases hki : k = s
    · subst hki; exact hs0
    · rw [get_set_ne h _ hki] at hk
      exact hv.gap k hk
  · intro k; simp [tail]
  · intro k hs; cases hs

/-! ## The loop -/

/-- What is still to be done, with each object that is not being freed counted
with its references. -/
def size (h : Heap) (st : List Work) : Nat :=
  st.length + total h.bound (fun j =>
    if Work.gone j ∈ st then 0
    else match h.get j with
      | some o => o.kind.refs.length + 1
      | none => 0)

theorem size_le_enough (h : Heap) (st : List Work) : size h st ≤ enough h st := by
  unfold size enough
  apply Nat.add_le_add_left
  apply total_le
  intro j
  split
  · omega
  · exact Nat.le_refl _

theorem Part.refl (h : Heap) : Part h h := fun _ o ho => ⟨o, ho, rfl⟩

theorem Part.trans {a b c : Heap} (h : Part a b) (k : Part b c) : Part a c := by
  intro i o ho
  obtain ⟨p, hp, e⟩ := h i o ho
  obtain ⟨q, hq, e'⟩ := k i p hp
  exact ⟨q, hq, e'.trans e⟩

theorem Part.set_refc {h : Heap} {i : Nat} {o : Obj} (hi : h.get i = some o) (n : Nat) :
    Part (h.set i (some { o with refc := n })) h := by
  intro k p hp
  by_cases hk : k = i
  · subst hk
    rw [get_set_same] at hp; cases hp
    exact ⟨o, hi, rfl⟩
  · rw [get_set_ne h _ hk] at hp
    exact ⟨p, hp, rfl⟩

theorem Part.set_none {h : Heap} {i : Nat} : Part (h.set i none) h := by
  intro k p hp
  by_cases hk : k = i
  · subst hk
    rw [get_set_same] at hp; cases hp
  · rw [get_set_ne h _ hk] at hp
    exact ⟨p, hp, rfl⟩

theorem run_inv {roots : List Nat} {e : Option Nat} (fuel : Nat) :
    ∀ (h : Heap) (w : List Work), Inv h roots w e → size h (w ++ tail e) ≤ fuel →
    ∃ h', run fuel h (w ++ tail e) = .done h' ∧ Accurate h' roots ∧ Part h' h ∧
      h'.bound = h.bound ∧ ∀ s, e = some s → h'.get s = none := by
  induction fuel with
  | zero =>
    intro h w hv hf
    have hl : (w ++ tail e).length = 0 := by
      unfold size at hf; omega
    have hnil := List.eq_nil_of_length_eq_zero hl
    have hw := (List.append_eq_nil_iff.1 hnil).1
    have he := (List.append_eq_nil_iff.1 hnil).2
    have hen : e = none := by
      cases e with
      | none => rfl
      | some s => simp [tail] at he
    subst hw; subst hen
    refine ⟨h, ?_, hv.done, Part.refl h, rfl, nofun⟩
    rw [hnil, run]
  | succ fuel ih =>
    intro h w hv hf
    match w, hv, hf with
    | [], hv, hf =>
      cases e with
      | none => exact ⟨h, by simp [tail, run], hv.done, Part.refl h, rfl, nofun⟩
      | some s =>
        have hl := hv.last
        cases hs : h.get s with
        | none => exact absurd hs (hv.there s (by simp [tail]))
        | some o =>
          refine ⟨h.set s none, ?_, hl.done, Part.set_none, rfl, ?_⟩
          · have : ([] : List Work) ++ tail (some s) = [.gone s] := rfl
            rw [this, run, hs]
            dsimp only
            cases fuel <;> rfl
          · intro t ht; cases ht; exact get_set_same _ _ _
    | .gone i :: w, hv, hf =>
      cases hs : h.get i with
      | none => exact absurd hs (hv.there i (by simp))
      | some o =>
        have hfin := hv.finish
        have hsz : size (h.set i none) (w ++ tail e) + 1 ≤ size h (.gone i :: w ++ tail e) := by
          unfold size
          rw [List.cons_append, List.length_cons]
          have : total (h.set i none).bound (fun j =>
              if Work.gone j ∈ w ++ tail e then 0
              else match (h.set i none).get j with
                | some o => o.kind.refs.length + 1
                | none => 0) ≤
            total h.bound (fun j =>
              if Work.gone j ∈ Work.gone i :: (w ++ tail e) then 0
              else match h.get j with
                | some o => o.kind.refs.length + 1
                | none => 0) := by
            apply total_le
            intro j
            by_cases hj : j = i
            · subst hj
              rw [get_set_same]
              split <;> simp
            · rw [get_set_ne h _ hj]
              simp [hj]
          omega
        obtain ⟨h', hr, ha, hp, hb, hg⟩ := ih (h.set i none) w hfin (by omega)
        refine ⟨h', ?_, ha, hp.trans Part.set_none, hb, hg⟩
        rw [List.cons_append, run, hs]
        exact hr
    | .dec i :: w, hv, hf =>
      have hpos : 0 < owed h roots (.dec i :: w) e i := by
        unfold owed; rw [List.count_cons_self]; omega
      cases hs : h.get i with
      | none =>
        have := hv.gap i hs
        omega
      | some o =>
        by_cases h0 : o.refc = 0
        · exfalso
          by_cases hg : Work.gone i ∈ Work.dec i :: w ++ tail e
          · rcases List.mem_append.1 hg with hg | hg
            · have := (hv.dying i o hs hg).2; omega
            · have := hv.early i o (mem_tail.1 hg) hs
              omega
          · have := hv.live i o hs hg
            omega
        · by_cases h1 : o.refc = 1
          · have hst := hv.start hs h1
            have hgi : Work.gone i ∉ w ++ tail e := by
              intro hg
              rcases List.mem_append.1 hg with hg | hg
              · have := (hv.dying i o hs (List.mem_cons_of_mem _ hg)).1; omega
              · have := hv.early i o (mem_tail.1 hg) hs
                omega
            have hib : i < h.bound := by
              apply Nat.lt_of_not_le
              intro hle
              rw [hv.small i hle] at hs; cases hs
            have hsz : size (h.set i (some { o with refc := 0 })) (freeWork i o.kind ++ w ++ tail e) + 1
                ≤ size h (.dec i :: w ++ tail e) := by
              unfold size
              have := total_point (n := h.bound) (k := i)
                (f := fun j =>
                  if Work.gone j ∈ freeWork i o.kind ++ w ++ tail e then 0
                  else match (h.set i (some { o with refc := 0 })).get j with
                    | some o => o.kind.refs.length + 1
                    | none => 0)
                (g := fun j =>
                  if Work.gone j ∈ Work.dec i :: w ++ tail e then 0
                  else match h.get j with
                    | some o => o.kind.refs.length + 1
                    | none => 0) hib
                (by
                  intro j hj
                  have hiff : Work.gone j ∈ freeWork i o.kind ++ w ++ tail e ↔
                      Work.gone j ∈ Work.dec i :: w ++ tail e := by
                    simp only [List.append_assoc, List.mem_append, mem_freeWork, List.mem_cons,
                      List.cons_append]
                    simp [hj]
                  rw [get_set_ne h _ hj]
                  simp only [hiff])
              have e1 : Work.gone i ∈ freeWork i o.kind ++ w ++ tail e := by
                rw [List.append_assoc]
                exact List.mem_append_left _ (mem_freeWork.2 rfl)
              have e2 : Work.gone i ∉ Work.dec i :: w ++ tail e := by
                rw [List.cons_append]
                intro hx
                rcases List.mem_cons.1 hx with hx | hx
                · cases hx
                · exact hgi hx
              rw [if_pos e1, if_neg e2, hs] at this
              dsimp only at this
              rw [bound_set]
              have hlen : (freeWork i o.kind ++ w ++ tail e).length =
                  o.kind.refs.length + 1 + (w ++ tail e).length := by
                simp [freeWork]; omega
              rw [hlen, List.cons_append, List.length_cons]
              rw [List.cons_append] at this
              omega
            obtain ⟨h', hr, ha, hp, hb, hg⟩ := ih _ _ hst (by omega)
            refine ⟨h', ?_, ha, hp.trans (Part.set_refc hs 0), hb, hg⟩
            rw [List.cons_append, run, hs]
            dsimp only
            rw [if_neg h0, if_pos h1, ← List.append_assoc]
            exact hr
          · have hst := hv.lower hs h1 h0
            have hsz : size (h.set i (some { o with refc := o.refc - 1 })) (w ++ tail e) + 1
                ≤ size h (.dec i :: w ++ tail e) := by
              unfold size
              rw [List.cons_append, List.length_cons]
              have : total (h.set i (some { o with refc := o.refc - 1 })).bound (fun j =>
                  if Work.gone j ∈ w ++ tail e then 0
                  else match (h.set i (some { o with refc := o.refc - 1 })).get j with
                    | some o => o.kind.refs.length + 1
                    | none => 0) =
                total h.bound (fun j =>
                  if Work.gone j ∈ Work.dec i :: (w ++ tail e) then 0
                  else match h.get j with
                    | some o => o.kind.refs.length + 1
                    | none => 0) := by
                apply total_congr
                intro j _
                by_cases hj : j = i
                · subst hj
                  rw [get_set_same, hs]
                  simp
                · rw [get_set_ne h _ hj]
                  simp
              omega
            obtain ⟨h', hr, ha, hp, hb, hg⟩ := ih _ _ hst (by omega)
            refine ⟨h', ?_, ha, hp.trans (Part.set_refc hs _), hb, hg⟩
            rw [List.cons_append, run, hs]
            dsimp only
            rw [if_neg h0, if_neg h1]
            exact hr

end Verif.Scope
