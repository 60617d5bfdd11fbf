import Verif.Scope.Lemmas

/-! Leaving a scope, and single operations, keep the heap accurate. -/
namespace Verif.Scope

theorem Accurate.lt {h : Heap} {roots : List Nat} (ha : Accurate h roots) {i : Nat} {o : Obj}
    (hi : h.get i = some o) : i < h.bound := by
  apply Nat.lt_of_not_le
  intro hle
  rw [ha.small i hle] at hi; cases hi

theorem Accurate.root {h : Heap} {roots : List Nat} (ha : Accurate h roots) {i : Nat}
    (hi : i ∈ roots) : ∃ o, h.get i = some o := by
  cases ho : h.get i with
  | none =>
    have := ha.closed i ho
    unfold refsTo at this
    have := List.count_pos_iff.2 hi
    omega
  | some o => exact ⟨o, rfl⟩

theorem Accurate.kid {h : Heap} {roots : List Nat} (ha : Accurate h roots) {i j : Nat} {o : Obj}
    (hi : h.get i = some o) (hj : j ∈ o.kind.refs) : ∃ p, h.get j = some p := by
  cases ho : h.get j with
  | none =>
    have h1 := ha.closed j ho
    unfold refsTo at h1
    have h2 := le_total (f := fun k => holds h k j) (ha.lt hi)
    have h3 : holds h i j = o.kind.refs.count j := holds_some hi j
    have := List.count_pos_iff.2 hj
    omega
  | some p => exact ⟨p, rfl⟩

theorem count_erase_add {roots : List Nat} {i : Nat} (hi : i ∈ roots) (k : Nat) :
    (roots.erase i).count k + (if k = i then 1 else 0) = roots.count k := by
  by_cases hk : k = i
  · subst hk
    rw [List.count_erase_self, if_pos rfl]
    have := List.count_pos_iff.2 hi
    omega
  · rw [List.count_erase_of_ne hk, if_neg hk]; rfl

theorem held_no_gone {h : Heap} {st : List Work} (hs : ∀ j, Work.gone j ∉ st) (i : Nat) :
    held h st i = total h.bound (fun j => holds h j i) := by
  unfold held
  apply total_congr
  intro j _
  rw [if_neg (hs j)]

/-- `dec` of a reference that is held. -/
theorem drop_ok {h : Heap} {roots : List Nat} (ha : Accurate h roots) {i : Nat} (hi : i ∈ roots) :
    ∃ h', free h [.dec i] = .done h' ∧ Accurate h' (roots.erase i) ∧ Part h' h ∧
      h'.bound = h.bound := by
  have hz : [Work.dec i] ++ tail none = [.dec i] := rfl
  have howed : ∀ k, owed h (roots.erase i) [.dec i] none k = refsTo h roots k := by
    intro k
    unfold owed refsTo
    have := count_erase_add hi k
    rw [hz, held_no_gone (by simp)]
    by_cases hk : k = i
    · subst hk
      rw [if_pos rfl] at this
      rw [List.count_cons_self]
      simp only [List.count_nil]
      omega
    · rw [if_neg hk] at this
      rw [List.count_cons_of_ne (by simpa using fun x : i = k => hk x.symm)]
      simp only [List.count_nil]
      omega
  have hv : Inv h (roots.erase i) [.dec i] none := by
    refine ⟨ha.small, ?_, ?_, nofun, ?_, ?_, ?_, nofun⟩
    · intro k o hk _
      rw [howed]; exact ha.count k o hk
    · intro k o hk hg; simp at hg
    · intro k hk; simp [tail] at hk
    · intro k hk
      rw [howed]; exact ha.closed k hk
    · intro k; simp [tail]
  obtain ⟨h', hr, hacc, hp, hb, _⟩ := run_inv (enough h [.dec i]) h [.dec i] hv (by
    rw [hz]; exact size_le_enough h _)
  exact ⟨h', hr, hacc, hp, hb⟩

/-! ## The blocks of a scope that nothing else refers to -/

def ownB (h : Heap) (sc c : Nat) : Bool :=
  match h.get c with
  | some o => o.refc == 1 && (match o.kind with | .block s _ => s == sc | _ => false)
  | none => false

def own (h : Heap) (sc : Nat) (vars : List (Option Nat)) : List Nat :=
  (vars.filterMap id).filter (ownB h sc)

theorem ownB_iff {h : Heap} {sc c : Nat} : ownB h sc c = true ↔ OwnBlock h sc c := by
  unfold ownB OwnBlock
  cases hc : h.get c with
  | none => simp
  | some o =>
    dsimp only
    constructor
    · intro hx
      simp only [Bool.and_eq_true, beq_iff_eq] at hx
      refine ⟨o, rfl, hx.1, ?_⟩
      cases hk : o.kind with
      | block s b =>
        rw [hk] at hx
        have hss : s = sc := by simpa using hx.2
        exact ⟨b, by rw [hss]⟩
      | scope _ _ => rw [hk] at hx; simp at hx
      | other _ => rw [hk] at hx; simp at hx
    · rintro ⟨p, hp, h1, b, hb⟩
      cases hp
      simp [h1, hb]

theorem innerRef_eq {h : Heap} {sc : Nat} (vars : List (Option Nat)) :
    ∀ n, (∀ c, some c ∈ vars → ∃ o, h.get c = some o) →
    innerRef h sc vars n = some (n + (own h sc vars).length) := by
  induction vars with
  | nil => intro n _; rfl
  | cons v vs ih =>
    intro n hl
    have hl' : ∀ c, some c ∈ vs → ∃ o, h.get c = some o :=
      fun c hc => hl c (List.mem_cons_of_mem _ hc)
    cases v with
    | none =>
      rw [innerRef, ih n hl']
      simp [own]
    | some c =>
      obtain ⟨o, ho⟩ := hl c List.mem_cons_self
      have hown : (own h sc (some c :: vs)).length =
          (if ownB h sc c then 1 else 0) + (own h sc vs).length := by
        unfold own
        rw [List.filterMap_cons_some (by rfl)]
        by_cases hb : ownB h sc c = true
        · rw [List.filter_cons_of_pos hb, if_pos hb, List.length_cons]; omega
        · rw [List.filter_cons_of_neg hb, if_neg hb]; omega
      rw [hown, innerRef, ho]
      dsimp only
      by_cases h1 : o.refc = 1
      · rw [if_pos h1]
        cases hk : o.kind with
        | block s b =>
          dsimp only
          by_cases hs : s = sc
          · have hb : ownB h sc c = true := by simp [ownB, ho, h1, hk, hs]
            rw [if_pos hs, if_pos hb, ih _ hl']
            congr 1; omega
          · have hb : ¬ (ownB h sc c = true) := by simp [ownB, ho, hk, hs]
            rw [if_neg hs, if_neg hb, ih _ hl']
            congr 1; omega
        | scope a b =>
          have hb : ¬ (ownB h sc c = true) := by simp [ownB, ho, hk]
          dsimp only
          rw [if_neg hb, ih _ hl']; congr 1; omega
        | other a =>
          have hb : ¬ (ownB h sc c = true) := by simp [ownB, ho, hk]
          dsimp only
          rw [if_neg hb, ih _ hl']; congr 1; omega
      · have hb : ¬ (ownB h sc c = true) := by simp [ownB, ho, h1]
        rw [if_neg h1, if_neg hb, ih _ hl']; congr 1; omega

/-- Counting the entries of a list by value. -/
theorem total_count {n : Nat} (l : List Nat) (hl : ∀ c ∈ l, c < n) :
    total n (fun j => l.count j) = l.length := by
  induction l with
  | nil =>
    have : ∀ m, total m (fun _ => 0) = 0 := by
      intro m; induction m with
      | zero => rfl
      | succ m ih => simp only [total, ih]
    exact this n
  | cons a l ih =>
    have h1 := ih (fun c hc => hl c (List.mem_cons_of_mem _ hc))
    have h2 := total_point (n := n) (k := a) (f := fun j => (a :: l).count j) (g := fun j => l.count j)
      (hl a List.mem_cons_self) (by
        intro j hj
        exact List.count_cons_of_ne (fun x => hj x.symm))
    rw [List.count_cons_self] at h2
    rw [List.length_cons]
    omega

theorem count_own_le {h : Heap} {sc : Nat} {vars : List (Option Nat)} (c : Nat) :
    (own h sc vars).count c ≤ (vars.filterMap id).count c :=
  List.Sublist.count_le c (List.filter_sublist)

theorem mem_own {h : Heap} {sc c : Nat} {vars : List (Option Nat)} :
    c ∈ own h sc vars ↔ some c ∈ vars ∧ OwnBlock h sc c := by
  unfold own
  rw [List.mem_filter, ownB_iff]
  simp

/-- Each block that is counted holds its own reference to the scope. -/
theorem own_le_holds {h : Heap} {roots : List Nat} (ha : Accurate h roots) {sc : Nat} {rc : Nat}
    {outer : List Nat} {vars : List (Option Nat)} (hs : h.get sc = some ⟨rc, .scope outer vars⟩)
    (c : Nat) : (own h sc vars).count c ≤ holds h c sc := by
  by_cases hc : c ∈ own h sc vars
  · obtain ⟨_, o, ho, h1, b, hb⟩ := mem_own.1 hc
    have h2 := ha.count c o ho
    have h3 := le_total (f := fun k => holds h k c) (ha.lt hs)
    have h3 : (Kind.scope outer vars).refs.count c ≤ total h.bound (fun k => holds h k c) := by
      rw [holds_some hs] at h3; exact h3
    have h4 : (vars.filterMap id).count c ≤ (Kind.scope outer vars).refs.count c := by
      simp only [Kind.refs, List.count_append]; omega
    have h5 := count_own_le (h := h) (sc := sc) (vars := vars) c
    unfold refsTo at h2
    rw [holds_some ho, hb]
    have : 1 ≤ (Kind.block sc b).refs.count sc := by
      simp only [Kind.refs, List.count_cons_self]; omega
    omega
  · rw [List.count_eq_zero_of_not_mem hc]; omega

theorem own_lt {h : Heap} {roots : List Nat} (ha : Accurate h roots) {sc : Nat}
    {vars : List (Option Nat)} : ∀ c ∈ own h sc vars, c < h.bound := by
  intro c hc
  obtain ⟨_, o, ho, _⟩ := mem_own.1 hc
  exact ha.lt ho

theorem own_length_le {h : Heap} {roots : List Nat} (ha : Accurate h roots) {sc : Nat} {rc : Nat}
    {outer : List Nat} {vars : List (Option Nat)} (hs : h.get sc = some ⟨rc, .scope outer vars⟩) :
    (own h sc vars).length ≤ total h.bound (fun j => holds h j sc) := by
  rw [← total_count (n := h.bound) (own h sc vars) (own_lt ha)]
  exact total_le (own_le_holds ha hs)

theorem total_eq_of_le {n : Nat} {f g : Nat → Nat} (h : ∀ j, f j ≤ g j)
    (he : total n f = total n g) : ∀ j, j < n → f j = g j := by
  induction n with
  | zero => intro j hj; omega
  | succ n ih =>
    simp only [total] at he
    have h1 := total_le (n := n) h
    have h2 := h n
    intro j hj
    by_cases hjn : j = n
    · subst hjn; omega
    · exact ih (by omega) j (by omega)

/-- Freeing a scope all of whose other references come from its own blocks. -/
theorem early_ok {h : Heap} {roots : List Nat} (ha : Accurate h roots) {sc : Nat} {rc : Nat}
    {outer : List Nat} {vars : List (Option Nat)} (hs : h.get sc = some ⟨rc, .scope outer vars⟩)
    (hr : sc ∈ roots) (hc : rc = 1 + (own h sc vars).length) :
    ∃ h', free h (freeWork sc (.scope outer vars)) = .done h' ∧ Accurate h' (roots.erase sc) ∧
      Part h' h ∧ h'.bound = h.bound ∧ h'.get sc = none := by
  have hcount := (ha.count sc _ hs).1
  dsimp only at hcount
  unfold refsTo at hcount
  have hr1 := List.count_pos_iff.2 hr
  have hle := own_length_le ha hs
  have htot : total h.bound (fun j => (own h sc vars).count j) =
      total h.bound (fun j => holds h j sc) := by
    rw [total_count _ (own_lt ha)]; omega
  have hrc : roots.count sc = 1 := by omega
  have hpt := total_eq_of_le (own_le_holds ha hs) htot
  have hst : (Kind.scope outer vars).refs.map Work.dec ++ tail (some sc) =
      freeWork sc (.scope outer vars) := rfl
  have hmem : ∀ k, Work.gone k ∈ freeWork sc (.scope outer vars) ↔ k = sc := fun k => mem_freeWork
  have hheld : ∀ k, held h (freeWork sc (.scope outer vars)) k +
      (Kind.scope outer vars).refs.count k = total h.bound (fun j => holds h j k) := by
    intro k
    unfold held
    have := total_point (n := h.bound) (k := sc)
      (f := fun j => if Work.gone j ∈ freeWork sc (.scope outer vars) then 0 else holds h j k)
      (g := fun j => holds h j k) (ha.lt hs) (by
        intro j hj
        exact if_neg (fun x => hj ((hmem j).1 x)))
    have e1 : (if Work.gone sc ∈ freeWork sc (.scope outer vars) then 0 else holds h sc k) = 0 :=
      if_pos ((hmem sc).2 rfl)
    have e2 : holds h sc k = (Kind.scope outer vars).refs.count k := holds_some hs k
    rw [e1] at this
    rw [e2] at this
    exact this
  have hdec : ∀ k, ((Kind.scope outer vars).refs.map Work.dec).count (.dec k) =
      (Kind.scope outer vars).refs.count k := by
    intro k
    have := count_freeWork_dec sc k (.scope outer vars)
    unfold freeWork at this
    rw [List.count_append] at this
    simpa using this
  have howed : ∀ k, owed h (roots.erase sc) ((Kind.scope outer vars).refs.map .dec) (some sc) k +
      (if k = sc then 1 else 0) = refsTo h roots k := by
    intro k
    unfold owed refsTo
    rw [hst, hdec]
    have h1 := count_erase_add hr k
    have h2 := hheld k
    omega
  have hnot : ∀ k, Work.gone k ∉ (Kind.scope outer vars).refs.map Work.dec := by
    intro k; simp
  have hv : Inv h (roots.erase sc) ((Kind.scope outer vars).refs.map .dec) (some sc) := by
    refine ⟨ha.small, ?_, ?_, ?_, ?_, ?_, ?_, ?_⟩
    · intro k o hk hg
      have hne : k ≠ sc := by
        intro x; subst x
        exact hg (by rw [hst]; exact (hmem k).2 rfl)
      have h1 := howed k
      rw [if_neg hne] at h1
      have := ha.count k o hk
      omega
    · intro k o hk hg; exact absurd hg (hnot k)
    · intro s o he ho
      cases he
      have h1 := howed sc
      rw [if_pos rfl] at h1
      have := ha.count sc o ho
      omega
    · intro k hk
      rw [hst] at hk
      have := (hmem k).1 hk
      subst this
      rw [hs]; nofun
    · intro k hk
      have h1 := howed k
      have := ha.closed k hk
      omega
    · intro k
      rw [hst, count_freeWork_gone]
      split <;> omega
    · intro s he
      cases he
      refine ⟨?_, ?_⟩
      · have := count_erase_add hr sc
        rw [if_pos rfl] at this
        omega
      · intro j o hj hg hm
        have h1 := hpt j (ha.lt hj)
        rw [holds_some hj] at h1
        have h2 := List.count_pos_iff.2 hm
        have h3 : j ∈ own h sc vars := List.count_pos_iff.1 (by omega)
        obtain ⟨hjv, p, hp, hp1, _⟩ := mem_own.1 h3
        have h4 := (ha.count j p hp).1
        unfold refsTo at h4
        have h5 : 1 ≤ (Kind.scope outer vars).refs.count j := by
          apply List.count_pos_iff.2
          simp only [Kind.refs, List.mem_append, List.mem_filterMap, id]
          exact Or.inr ⟨some j, hjv, rfl⟩
        have h6 := hheld j
        rw [hst]
        have h7 := count_erase_add hr j
        omega
  obtain ⟨h', hrun, hacc, hp, hb, hg⟩ := run_inv (enough h (freeWork sc (.scope outer vars))) h _ hv
    (by rw [hst]; exact size_le_enough h _)
  exact ⟨h', hrun, hacc, hp, hb, hg sc rfl⟩

theorem scopeDec_ok {h : Heap} {roots : List Nat} (ha : Accurate h roots) {sc : Nat} {rc : Nat}
    {outer : List Nat} {vars : List (Option Nat)} (hs : h.get sc = some ⟨rc, .scope outer vars⟩)
    (hr : sc ∈ roots) :
    ∃ h', scopeDec h sc = .done h' ∧ Accurate h' (roots.erase sc) ∧ Part h' h ∧
      h'.bound = h.bound ∧ (rc = 1 + (own h sc vars).length → h'.get sc = none) := by
  have hcount := ha.count sc _ hs
  have hr1 := List.count_pos_iff.2 hr
  have hle := own_length_le ha hs
  have hge : 1 + (own h sc vars).length ≤ rc := by
    have h1 := hcount.1
    dsimp only at h1
    unfold refsTo at h1
    omega
  have hvars : ∀ c, some c ∈ vars → ∃ o, h.get c = some o := by
    intro c hcv
    apply ha.kid hs (j := c)
    simp only [Kind.refs, List.mem_append, List.mem_filterMap, id]
    exact Or.inr ⟨some c, hcv, rfl⟩
  unfold scopeDec
  rw [hs]
  dsimp only
  by_cases h1 : rc = 1
  · rw [if_pos h1]
    obtain ⟨h', a, b, c, d, e⟩ := early_ok ha hs hr (by omega)
    exact ⟨h', a, b, c, d, fun _ => e⟩
  · rw [if_neg h1, innerRef_eq vars 1 hvars]
    dsimp only
    rw [if_neg (by omega)]
    by_cases h2 : 1 + (own h sc vars).length = rc
    · rw [if_pos h2]
      obtain ⟨h', a, b, c, d, e⟩ := early_ok ha hs hr h2.symm
      exact ⟨h', a, b, c, d, fun _ => e⟩
    · rw [if_neg h2]
      refine ⟨_, rfl, ?_, Part.set_refc hs _, rfl, fun x => absurd x.symm h2⟩
      have hto : ∀ k, refsTo (h.set sc (some ⟨rc - 1, .scope outer vars⟩)) (roots.erase sc) k +
          (if k = sc then 1 else 0) = refsTo h roots k := by
        intro k
        unfold refsTo
        have h3 := count_erase_add hr k
        have h4 : total (h.set sc (some ⟨rc - 1, .scope outer vars⟩)).bound
            (fun j => holds (h.set sc (some ⟨rc - 1, .scope outer vars⟩)) j k) =
            total h.bound (fun j => holds h j k) := by
          apply total_congr
          intro j _
          exact holds_set_refc hs (rc - 1) j k
        omega
      refine ⟨?_, ?_, ?_⟩
      · intro k hk
        have hne : k ≠ sc := by
          intro x; subst x
          have := ha.lt hs
          rw [bound_set] at hk; omega
        rw [get_set_ne h _ hne]
        exact ha.small k hk
      · intro k o hk
        have h3 := hto k
        by_cases hne : k = sc
        · subst hne
          rw [get_set_same] at hk; cases hk
          rw [if_pos rfl] at h3
          dsimp only at hcount ⊢
          omega
        · rw [get_set_ne h _ hne] at hk
          rw [if_neg hne] at h3
          have := ha.count k o hk
          omega
      · intro k hk
        have h3 := hto k
        have hne : k ≠ sc := by
          intro x; subst x; rw [get_set_same] at hk; cases hk
        rw [get_set_ne h _ hne] at hk
        have := ha.closed k hk
        omega

/-! ## Single operations -/

theorem inc_ok {h : Heap} {roots : List Nat} (ha : Accurate h roots) {i : Nat} {o : Obj}
    (hi : h.get i = some o) :
    Accurate (h.set i (some { o with refc := o.refc + 1 })) (i :: roots) := by
  have hto : ∀ k, refsTo (h.set i (some { o with refc := o.refc + 1 })) (i :: roots) k =
      refsTo h roots k + (if k = i then 1 else 0) := by
    intro k
    unfold refsTo
    have h4 : total (h.set i (some { o with refc := o.refc + 1 })).bound
        (fun j => holds (h.set i (some { o with refc := o.refc + 1 })) j k) =
        total h.bound (fun j => holds h j k) := by
      apply total_congr
      intro j _
      exact holds_set_refc hi _ j k
    rw [h4]
    by_cases hk : k = i
    · subst hk; rw [List.count_cons_self, if_pos rfl]; omega
    · rw [List.count_cons_of_ne (fun x => hk x.symm), if_neg hk]; omega
  have hc := ha.count i o hi
  refine ⟨?_, ?_, ?_⟩
  · intro k hk
    have hne : k ≠ i := by
      intro x; subst x
      have := ha.lt hi
      rw [bound_set] at hk; omega
    rw [get_set_ne h _ hne]
    exact ha.small k hk
  · intro k p hk
    rw [hto k]
    by_cases hne : k = i
    · subst hne
      rw [get_set_same] at hk; cases hk
      rw [if_pos rfl]
      dsimp only; omega
    · rw [get_set_ne h _ hne] at hk
      rw [if_neg hne]
      exact ha.count k p hk
  · intro k hk
    rw [hto k]
    have hne : k ≠ i := by
      intro x; subst x; rw [get_set_same] at hk; cases hk
    rw [get_set_ne h _ hne] at hk
    rw [if_neg hne]
    exact ha.closed k hk

theorem make_ok {h : Heap} {roots : List Nat} (ha : Accurate h roots) {k : Kind}
    (hk : ∀ r ∈ k.refs, r ∈ roots) :
    Accurate ⟨h.bound + 1, fun j =>
        if j = h.bound then some ⟨1, k⟩
        else (h.get j).map fun o => { o with refc := o.refc + k.refs.count j }⟩
      (h.bound :: roots) := by
  have hb : h.get h.bound = none := ha.small _ (Nat.le_refl _)
  have hroot : h.bound ∉ roots := by
    intro hx
    obtain ⟨o, ho⟩ := ha.root hx
    rw [hb] at ho; cases ho
  have hkb : k.refs.count h.bound = 0 :=
    List.count_eq_zero_of_not_mem (fun x => hroot (hk _ x))
  have hto : ∀ i, refsTo ⟨h.bound + 1, fun j =>
        if j = h.bound then some ⟨1, k⟩
        else (h.get j).map fun o => { o with refc := o.refc + k.refs.count j }⟩
      (h.bound :: roots) i = refsTo h roots i + k.refs.count i + (if i = h.bound then 1 else 0) := by
    intro i
    unfold refsTo
    simp only [total]
    have h1 : total h.bound (fun j => holds ⟨h.bound + 1, fun j =>
        if j = h.bound then some ⟨1, k⟩
        else (h.get j).map fun o => { o with refc := o.refc + k.refs.count j }⟩ j i) =
        total h.bound (fun j => holds h j i) := by
      apply total_congr
      intro j hj
      have hne : j ≠ h.bound := by omega
      unfold holds
      dsimp only
      rw [if_neg hne]
      cases h.get j <;> rfl
    rw [h1]
    have h2 : holds ⟨h.bound + 1, fun j =>
        if j = h.bound then some ⟨1, k⟩
        else (h.get j).map fun o => { o with refc := o.refc + k.refs.count j }⟩ h.bound i =
        k.refs.count i := by
      unfold holds
      dsimp only
      rw [if_pos rfl]
    rw [h2]
    by_cases hi : i = h.bound
    · subst hi
      rw [List.count_cons_self, if_pos rfl]; omega
    · rw [List.count_cons_of_ne (fun x => hi x.symm), if_neg hi]; omega
  refine ⟨?_, ?_, ?_⟩
  · intro i hi
    dsimp only at hi ⊢
    rw [if_neg (by omega), ha.small i (by omega)]
    rfl
  · intro i o ho
    rw [hto i]
    dsimp only at ho
    by_cases hi : i = h.bound
    · rw [if_pos hi] at ho
      cases ho
      subst hi
      have := ha.closed _ hb
      rw [if_pos rfl]
      dsimp only
      omega
    · rw [if_neg hi] at ho
      cases hg : h.get i with
      | none => rw [hg] at ho; cases ho
      | some p =>
        rw [hg] at ho
        simp only [Option.map_some, Option.some.injEq] at ho
        subst ho
        have := ha.count i p hg
        rw [if_neg hi]
        dsimp only
        omega
  · intro i hi
    rw [hto i]
    dsimp only at hi
    by_cases hib : i = h.bound
    · rw [if_pos hib] at hi; cases hi
    · rw [if_neg hib] at hi
      have hg : h.get i = none := by
        cases hg : h.get i with
        | none => rfl
        | some p => rw [hg] at hi; cases hi
      have h1 := ha.closed i hg
      have h2 : k.refs.count i = 0 := by
        apply List.count_eq_zero_of_not_mem
        intro x
        obtain ⟨o, ho⟩ := ha.root (hk i x)
        rw [hg] at ho; cases ho
      rw [if_neg hib]
      omega

/-- A count for an optional reference. -/
def ocount (v : Option Nat) (i : Nat) : Nat := v.toList.count i

theorem count_set {vars : List (Option Nat)} {k : Nat} {old v : Option Nat}
    (hk : vars[k]? = some old) (i : Nat) :
    ((vars.set k v).filterMap id).count i + ocount old i =
      (vars.filterMap id).count i + ocount v i := by
  induction vars generalizing k with
  | nil => simp at hk
  | cons a vs ih =>
    have hc : ∀ (b : Option Nat) (l : List (Option Nat)),
        ((b :: l).filterMap id).count i = ocount b i + (l.filterMap id).count i := by
      intro b l
      cases b with
      | none => simp [ocount]
      | some c =>
        simp only [ocount, Option.toList, List.filterMap_cons_some (f := id) (by rfl)]
        rw [List.count_cons, List.count_cons]; simp; omega
    cases k with
    | zero =>
      simp only [List.getElem?_cons_zero, Option.some.injEq] at hk
      subst hk
      rw [List.set_cons_zero, hc, hc]; omega
    | succ k =>
      simp only [List.getElem?_cons_succ] at hk
      have := ih hk
      rw [List.set_cons_succ, hc, hc]; omega

theorem put_ok {h : Heap} {roots : List Nat} (ha : Accurate h roots) {sc rc k : Nat}
    {outer : List Nat} {vars : List (Option Nat)} {old v : Option Nat}
    (hs : h.get sc = some ⟨rc, .scope outer vars⟩) (hv : ∀ i ∈ v, i ∈ roots)
    (hk : vars[k]? = some old) :
    Accurate (h.set sc (some ⟨rc, .scope outer (vars.set k v)⟩))
      (old.toList ++ without roots v) := by
  have hroots : ∀ i, (without roots v).count i + ocount v i =
      roots.count i := by
    intro i
    cases v with
    | none => simp [ocount, without]
    | some j =>
      have := count_erase_add (hv j rfl) i
      unfold without
      unfold ocount Option.toList
      by_cases hij : i = j
      · subst hij
        rw [if_pos rfl] at this
        simp only [List.count_cons_self, List.count_nil]; omega
      · rw [if_neg hij] at this
        rw [List.count_cons_of_ne (fun x => hij x.symm)]
        simp only [List.count_nil]; omega
  have hto : ∀ i, refsTo (h.set sc (some ⟨rc, .scope outer (vars.set k v)⟩))
      (old.toList ++ without roots v) i =
      refsTo h roots i := by
    intro i
    unfold refsTo
    rw [List.count_append]
    have h1 := hroots i
    have h2 := count_set (v := v) hk i
    have h3 := total_point (n := h.bound) (k := sc)
      (f := fun j => holds (h.set sc (some ⟨rc, .scope outer (vars.set k v)⟩)) j i)
      (g := fun j => holds h j i) (ha.lt hs) (by
        intro j hj
        unfold holds
        rw [get_set_ne h _ hj])
    rw [holds_some hs, holds_some (get_set_same _ _ _)] at h3
    simp only [Kind.refs, List.count_append] at h3
    rw [bound_set]
    have h4 : (old.toList).count i = ocount old i := rfl
    omega
  refine ⟨?_, ?_, ?_⟩
  · intro i hi
    have hne : i ≠ sc := by
      intro x; subst x
      have := ha.lt hs
      rw [bound_set] at hi; omega
    rw [get_set_ne h _ hne]
    exact ha.small i hi
  · intro i o ho
    rw [hto i]
    by_cases hne : i = sc
    · subst hne
      rw [get_set_same] at ho; cases ho
      exact ha.count i ⟨rc, .scope outer vars⟩ hs
    · rw [get_set_ne h _ hne] at ho
      exact ha.count i o ho
  · intro i hi
    rw [hto i]
    have hne : i ≠ sc := by
      intro x; subst x; rw [get_set_same] at hi; cases hi
    rw [get_set_ne h _ hne] at hi
    exact ha.closed i hi

/-- What a step may give. -/
def Step.Good : Step → Prop
  | .ub => False
  | .more => False
  | .refused => True
  | .done h roots => Accurate h roots

theorem act_good {h : Heap} {roots : List Nat} (ha : Accurate h roots) (op : Op) :
    (act h roots op).Good := by
  cases op with
  | copy i =>
    rw [act]
    by_cases hi : i ∈ roots
    · obtain ⟨o, ho⟩ := ha.root hi
      rw [if_pos hi, ho]
      exact inc_ok ha ho
    · rw [if_neg hi]; trivial
  | make k =>
    rw [act]
    by_cases hk : ∀ r ∈ k.refs, r ∈ roots
    · rw [if_pos hk]; exact make_ok ha hk
    · rw [if_neg hk]; trivial
  | put sc k v =>
    rw [act]
    by_cases hc : sc ∈ roots ∧ ∀ i ∈ v, i ∈ roots
    · obtain ⟨o, ho⟩ := ha.root hc.1
      rw [if_pos hc, ho]
      obtain ⟨rc, kd⟩ := o
      cases kd with
      | scope outer vars =>
        dsimp only
        cases hv : vars[k]? with
        | none => trivial
        | some old => exact put_ok ha ho hc.2 hv
      | block _ _ => trivial
      | other _ => trivial
    · rw [if_neg hc]; trivial
  | look i k =>
    rw [act]
    by_cases hi : i ∈ roots
    · obtain ⟨o, ho⟩ := ha.root hi
      rw [if_pos hi, ho]
      dsimp only
      cases hk : o.kind.refs[k]? with
      | none => trivial
      | some j =>
        obtain ⟨p, hp⟩ := ha.kid ho (List.mem_of_getElem? hk)
        dsimp only
        rw [hp]
        exact inc_ok ha hp
    · rw [if_neg hi]; trivial
  | drop i =>
    rw [act]
    by_cases hi : i ∈ roots
    · rw [if_pos hi]
      obtain ⟨h', hr, hacc, _⟩ := drop_ok ha hi
      rw [hr]
      exact hacc
    · rw [if_neg hi]; trivial
  | leave sc =>
    rw [act]
    by_cases hc : sc ∈ roots ∧ isScope h sc
    · rw [if_pos hc]
      obtain ⟨o, ho⟩ := ha.root hc.1
      obtain ⟨rc, kd⟩ := o
      cases kd with
      | scope outer vars =>
        obtain ⟨h', hr, hacc, _⟩ := scopeDec_ok ha ho hc.1
        rw [hr]
        exact hacc
      | block a b => have := hc.2; simp [isScope, ho] at this
      | other a => have := hc.2; simp [isScope, ho] at this
    · rw [if_neg hc]; trivial

theorem history_good (ops : List Op) : ∀ {h : Heap} {roots : List Nat}, Accurate h roots →
    (history h roots ops).Good := by
  induction ops with
  | nil => intro h roots ha; exact ha
  | cons op ops ih =>
    intro h roots ha
    have hg := act_good ha op
    unfold history
    cases hs : act h roots op with
    | ub => rw [hs] at hg; exact hg
    | more => rw [hs] at hg; exact hg
    | refused => trivial
    | done h' r' => rw [hs] at hg; exact ih hg

end Verif.Scope
