import Verif.Scope.Leave

/-!
# Properties: leaving a scope frees no more than it may, and frees its own cycles

A body that ends drops its scope.  When the only other references to the scope
come from blocks in its own variables that nothing else refers to, the scope is
freed although its count is not 1.
-/
namespace Verif.Scope

/-! ## Example heaps -/

/-- A body (0), a scope (1) with a variable that holds a block (2) made in it,
and another variable that holds a list (3). -/
def looped : Heap := ⟨4, fun
  | 0 => some ⟨3, .other []⟩
  | 1 => some ⟨2, .scope [0] [some 2, none, some 3]⟩
  | 2 => some ⟨1, .block 1 0⟩
  | 3 => some ⟨2, .other []⟩
  | _ => none⟩

/-- The same, but the block is held outside as well. -/
def escaped : Heap := ⟨4, fun
  | 0 => some ⟨3, .other []⟩
  | 1 => some ⟨2, .scope [0] [some 2, none, some 3]⟩
  | 2 => some ⟨2, .block 1 0⟩
  | 3 => some ⟨2, .other []⟩
  | _ => none⟩

theorem looped_accurate : Accurate looped [1, 3, 0] := by
  refine ⟨?_, ?_, ?_⟩
  · intro i hi
    match i, hi with
    | i + 4, _ => rfl
  · intro i o ho
    match i, ho with
    | 0, ho => cases ho; decide
    | 1, ho => cases ho; decide
    | 2, ho => cases ho; decide
    | 3, ho => cases ho; decide
  · intro i hi
    match i, hi with
    | i + 4, _ => simp [refsTo, looped, total, holds, Kind.refs]

theorem escaped_accurate : Accurate escaped [1, 2, 3, 0] := by
  refine ⟨?_, ?_, ?_⟩
  · intro i hi
    match i, hi with
    | i + 4, _ => rfl
  · intro i o ho
    match i, ho with
    | 0, ho => cases ho; decide
    | 1, ho => cases ho; decide
    | 2, ho => cases ho; decide
    | 3, ho => cases ho; decide
  · intro i hi
    match i, hi with
    | i + 4, _ => simp [refsTo, escaped, total, holds, Kind.refs]

/-- The counts that are left, by name. -/
def counts : Res → Option (List (Option Nat))
  | .done h => some ((List.range h.bound).map fun i => (h.get i).map Obj.refc)
  | _ => none

/-! ## Leaving -/

/-- Dropping the reference that a body had to its scope never touches an object
that is gone and never frees one twice.  Afterwards every count is right for the
references that are left, and nothing has changed but counts and objects that
have gone. -/
theorem leave_safe {h : Heap} {roots : List Nat} {sc rc : Nat} {outer : List Nat}
    {vars : List (Option Nat)} (ha : Accurate h roots) (hr : sc ∈ roots)
    (hs : h.get sc = some ⟨rc, .scope outer vars⟩) :
    ∃ h', scopeDec h sc = .done h' ∧ Accurate h' (roots.erase sc) ∧ Part h' h := by
  obtain ⟨h', a, b, c, _⟩ := scopeDec_ok ha hs hr
  exact ⟨h', a, b, c⟩

example : (∃ h', scopeDec looped 1 = .done h' ∧ Accurate h' [3, 0] ∧ Part h' looped) ∧
    counts (scopeDec looped 1) = some [some 1, none, none, some 1] ∧
    counts (scopeDec escaped 1) = some [some 3, some 1, some 2, some 2] :=
  ⟨leave_safe (roots := [1, 3, 0]) looped_accurate (by decide) rfl, by decide, by decide⟩

/-- Whatever can still be reached is still there, with the references that it
had. -/
theorem leave_keeps_reachable {h h' : Heap} {roots : List Nat} {sc rc : Nat} {outer : List Nat}
    {vars : List (Option Nat)} (ha : Accurate h roots) (hr : sc ∈ roots)
    (hs : h.get sc = some ⟨rc, .scope outer vars⟩) (hd : scopeDec h sc = .done h') {i : Nat}
    (hi : Reach h (roots.erase sc) i) :
    ∃ o o', h.get i = some o ∧ h'.get i = some o' ∧ o'.kind = o.kind := by
  obtain ⟨h'', hd', hacc, hp⟩ := leave_safe ha hr hs
  rw [hd] at hd'; cases hd'
  have key : ∃ o', h'.get i = some o' := by
    induction hi with
    | root hm => exact hacc.root hm
    | @step a b o _ ho hj ih =>
      obtain ⟨o', ho'⟩ := ih
      obtain ⟨p, hpp, he⟩ := hp a o' ho'
      rw [ho] at hpp; cases hpp
      exact hacc.kid ho' (by rw [← he]; exact hj)
  obtain ⟨o', ho'⟩ := key
  obtain ⟨o, ho, he⟩ := hp i o' ho'
  exact ⟨o, o', ho, ho', he.symm⟩

example : Reach escaped ([1, 2, 3, 0].erase 1) 3 :=
  .step (.step (i := 2) (.root (by decide)) rfl (j := 1) (by decide)) rfl (by decide)

/-- The scope goes when the body had the only outside reference to it and every
object that refers to it is a block made in it that only a variable of it
holds. -/
theorem leave_frees {h : Heap} {roots : List Nat} {sc rc : Nat} {outer : List Nat}
    {vars : List (Option Nat)} (ha : Accurate h roots) (hr : roots.count sc = 1)
    (hs : h.get sc = some ⟨rc, .scope outer vars⟩)
    (hb : ∀ j o, h.get j = some o → sc ∈ o.kind.refs →
      OwnBlock h sc j ∧ some j ∈ vars ∧ o.kind ≠ .block sc sc) :
    ∃ h', scopeDec h sc = .done h' ∧ h'.get sc = none := by
  obtain ⟨h', a, _, _, _, e⟩ := scopeDec_ok ha hs (List.count_pos_iff.1 (by omega))
  refine ⟨h', a, e ?_⟩
  have hc := (ha.count sc _ hs).1
  dsimp only at hc
  unfold refsTo at hc
  have : total h.bound (fun j => holds h j sc) =
      total h.bound (fun j => (own h sc vars).count j) := by
    apply total_congr
    intro j _
    have h1 := own_le_holds ha hs j
    cases hj : h.get j with
    | none =>
      rw [holds_none hj] at h1 ⊢
      omega
    | some o =>
      rw [holds_some hj] at h1 ⊢
      by_cases hm : sc ∈ o.kind.refs
      · obtain ⟨hown, hv, hne⟩ := hb j o hj hm
        have h2 := List.count_pos_iff.2 (mem_own.2 ⟨hv, hown⟩)
        obtain ⟨p, hp, _, body, hk⟩ := hown
        rw [hj] at hp; cases hp
        rw [hk] at hne h1 ⊢
        have hbs : body ≠ sc := fun x => hne (by rw [x])
        have h3 : (Kind.block sc body).refs.count sc = 1 := by
          simp [Kind.refs, hbs]
        omega
      · rw [List.count_eq_zero_of_not_mem hm] at h1 ⊢
        omega
  rw [total_count _ (own_lt ha)] at this
  omega

example : ∃ h', scopeDec looped 1 = .done h' ∧ h'.get 1 = none := by
  apply leave_frees (roots := [1, 3, 0]) looped_accurate (by decide) rfl
  intro j o hj hm
  match j, hj with
  | 0, hj => cases hj; simp [Kind.refs] at hm
  | 1, hj => cases hj; simp [Kind.refs] at hm
  | 2, hj => cases hj; exact ⟨⟨_, rfl, rfl, 0, rfl⟩, by decide, by decide⟩
  | 3, hj => cases hj; simp [Kind.refs] at hm

/-! ## Histories -/

/-- Whatever a program does, in any order — make objects, copy and drop
references, read them, set variables to anything it holds, leave scopes — no
object that is gone is touched, no count goes below 0, and after each operation
every count is right. -/
theorem history_safe (ops : List Op) :
    match history empty [] ops with
    | .ub => False
    | .more => False
    | .refused => True
    | .done h roots => Accurate h roots := by
  have h0 : Accurate empty [] :=
    ⟨fun _ _ => rfl, nofun, fun i _ => by simp [refsTo, empty, total]⟩
  have := history_good ops h0
  cases hs : history empty [] ops with
  | ub => rw [hs] at this; exact this
  | more => rw [hs] at this; exact this
  | refused => trivial
  | done h r => rw [hs] at this; exact this

/-- A program that makes a body, a scope, and a block in it, keeps the block in
a variable of the scope, and leaves. -/
def program : List Op :=
  [.make (.other []), .make (.scope [0] [none, none]), .make (.block 1 0), .put 1 1 (some 2)]

def left : Step → Option (List (Option Nat))
  | .done h _ => some ((List.range h.bound).map fun i => (h.get i).map Obj.refc)
  | _ => none

example : left (history empty [] program) = some [some 3, some 2, some 1] ∧
    left (history empty [] (program ++ [.leave 1])) = some [some 1, none, none] ∧
    left (history empty [] (program ++ [.look 1 1, .leave 1])) = some [some 3, some 1, some 2] ∧
    left (history empty [] (program ++ [.look 1 1, .leave 1, .put 1 1 none])) = none ∧
    left (history empty [] (program ++ [.look 1 1, .leave 1, .look 2 0, .leave 1, .drop 2])) =
      some [some 3, some 1, some 1] := by decide

/-- With right counts, an object that is left can be reached unless there is a
cycle: if references only ever go up in some order, nothing is left behind. -/
theorem nothing_lost {h : Heap} {roots : List Nat} (ha : Accurate h roots) (rank : Nat → Nat)
    (hk : ∀ j o, h.get j = some o → ∀ i ∈ o.kind.refs, rank j < rank i) {i : Nat} {o : Obj}
    (hi : h.get i = some o) : Reach h roots i := by
  have key : ∀ n i o, rank i = n → h.get i = some o → Reach h roots i := by
    intro n
    induction n using Nat.strongRecOn with
    | _ n ih =>
      intro i o hn hi
      have hc := ha.count i o hi
      unfold refsTo at hc
      by_cases hr : i ∈ roots
      · exact .root hr
      · rw [List.count_eq_zero_of_not_mem hr] at hc
        obtain ⟨j, _, hj⟩ := total_pos (n := h.bound) (f := fun j => holds h j i) (by omega)
        have hj' : 0 < holds h j i := hj
        cases hg : h.get j with
        | none => rw [holds_none hg] at hj'; omega
        | some p =>
          rw [holds_some hg] at hj'
          have hm := List.count_pos_iff.1 hj'
          have hlt := hk j p hg i hm
          exact .step (ih (rank j) (by omega) j p rfl hg) hg hm
  exact key _ i o rfl hi

/-- Leaving does not free a cycle that goes through more than one block: here
the scope holds a list that holds the block, nothing can be reached but the
body, and the three objects stay. -/
theorem longer_cycle_stays :
    left (history empty [] [.make (.other []), .make (.scope [0] [none]), .make (.block 1 0),
      .make (.other [2]), .drop 2, .put 1 0 (some 3), .leave 1]) =
      some [some 3, some 1, some 1, some 1] := by decide

end Verif.Scope
