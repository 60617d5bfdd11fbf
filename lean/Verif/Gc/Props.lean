import Verif.Gc.Main
/-!
# Garbage collection keeps what can be reached, frees everything else, and leaves right reference counts (C09, C10)

`Consistent hp H ext` says that reference counts are exact for the heap `H` with `ext x` references to `x` from outside of it.
-/
namespace Verif.Gc

/-- A heap to try things on: 0 has references to 1 and to the shape object 2; 3 and 4 refer to each other, and 3 to the shape object 5
and to 1; 6 is an object that only the cycle refers to, by 4; 7 is empty. There is a reference to 0 from outside. -/
def sample : Mem
  | 0 => ⟨.obj, 1, true, [1], [2, 1]⟩
  | 1 => ⟨.obj, 2, false, [], []⟩
  | 2 => ⟨.aux, 1, false, [], []⟩
  | 3 => ⟨.obj, 1, true, [4, 1], [4, 1, 5]⟩
  | 4 => ⟨.obj, 1, false, [3, 6], [3, 6]⟩
  | 5 => ⟨.aux, 1, false, [], []⟩
  | 6 => ⟨.obj, 1, true, [], []⟩
  | _ => ⟨.empty, 0, false, [], []⟩

def sampleExt : Nat → Nat
  | 0 => 1
  | _ => 0

theorem sample_consistent : Consistent [0, 1, 2, 3, 4, 5, 6, 7] sample sampleExt := by
  have split : ∀ (p : Nat → Prop), p 0 → p 1 → p 2 → p 3 → p 4 → p 5 → p 6 → (∀ n, p (n + 7)) → ∀ n, p n := by
    intro p h0 h1 h2 h3 h4 h5 h6 h n
    match n with
    | 0 => exact h0
    | 1 => exact h1
    | 2 => exact h2
    | 3 => exact h3
    | 4 => exact h4
    | 5 => exact h5
    | 6 => exact h6
    | n + 7 => exact h n
  have e : ∀ n, (sample (n + 7)).kind = .empty := fun _ => rfl
  refine ⟨by decide, ?_, ?_, ?_, ?_, ?_, ?_, ?_, ?_⟩
  · exact split _ (by decide) (by decide) (by decide) (by decide) (by decide) (by decide) (by decide) (fun n h => absurd (e n) h)
  · exact split _ (by decide) (by decide) (by decide) (by decide) (by decide) (by decide) (by decide) (fun n h => by rw [e n] at h; cases h)
  · refine split _ (fun _ => ⟨[2], ?_, by decide⟩) (fun _ => ⟨[], .refl _, by decide⟩) (fun h => nomatch h) (fun _ => ⟨[5], .refl _, by decide⟩)
      (fun _ => ⟨[], .refl _, by decide⟩) (fun h => nomatch h) (fun _ => ⟨[], .refl _, by decide⟩) (fun n h => by rw [e n] at h; cases h)
    exact List.Perm.swap _ _ _
  · exact split _ (by decide) (by decide) (by decide) (by decide) (by decide) (by decide) (by decide) (fun n h => by rw [e n] at h; cases h)
  · exact split _ (by decide) (by decide) (by decide) (by decide) (by decide) (by decide) (by decide) (fun n h => by rw [e n] at h; cases h)
  · exact split _ (by decide) (by decide) (by decide) (by decide) (by decide) (by decide) (by decide) (fun n h => absurd (e n) h)
  · exact split _ (by decide) (by decide) (by decide) (by decide) (by decide) (by decide) (by decide) (fun n h => absurd (e n) h)
  · exact split _ (by decide) (by decide) (by decide) (by decide) (by decide) (by decide) (by decide) (fun n h => absurd h (Nat.lt_irrefl 0))

/-- C09: a garbage collection, at any time or at top level when everything referenced from outside can be reached from the roots, does
not go wrong; whatever can be reached from outside is there as before with the same references, and all reference counts are exact
in the new heap. -/
theorem gc_keeps {hp : List Nat} {H : Mem} {ext : Nat → Nat} {top : Bool} {roots : List Nat} (h : Consistent hp H ext)
    (hroots : ∀ r ∈ roots, 0 < ext r) (htop : top = true → ∀ x, (H x).kind = .obj → 0 < ext x → Reach H (· ∈ roots) x) :
    ∃ H', gcRun top hp roots H = some H' ∧ Consistent hp H' ext ∧
      ∀ x, Reach H (fun x => 0 < ext x) x → (H' x).kind = (H x).kind ∧ (H' x).refs = (H x).refs ∧ (H' x).drops = (H x).drops := by
  obtain ⟨H', e, c, fr, k⟩ := gc_spec h hroots htop
  refine ⟨H', e, c, fun x hx => ⟨?_, (fr x).1, (fr x).2.1⟩⟩
  rcases hk : (H x).kind with _ | _ | _ | _
  · exact absurd hk (h.reach_there hx)
  · exact (k x hk).2 hx
  · rcases (fr x).2.2 with h' | h'
    · rw [h', hk]
    · cases hx with
      | base h0 => exact absurd h' (c.live x h0)
      | step hr hx =>
        have := h.refs _ (h.obj_of_ref (h.reach_there hr) hx) x hx
        rw [hk] at this; cases this
  · exact absurd hk (h.clean x)

/-- C10: every object that cannot be reached from outside is freed, and so is every shape object and temporary memory without
references left. -/
theorem gc_frees {hp : List Nat} {H H' : Mem} {ext : Nat → Nat} {top : Bool} {roots : List Nat} (h : Consistent hp H ext)
    (hroots : ∀ r ∈ roots, 0 < ext r) (htop : top = true → ∀ x, (H x).kind = .obj → 0 < ext x → Reach H (· ∈ roots) x)
    (hgc : gcRun top hp roots H = some H') :
    (∀ x, (H x).kind = .obj → ¬ Reach H (fun x => 0 < ext x) x → (H' x).kind = .empty) ∧
    (∀ x, (H x).kind = .aux → ext x = 0 → (∀ y, (H' y).kind = .obj → x ∉ (H' y).drops) → (H' x).kind = .empty) := by
  obtain ⟨H1, e, c, fr, k⟩ := gc_spec h hroots htop
  rw [hgc] at e
  cases e
  constructor
  · intro x hx hn
    rcases (fr x).2.2 with h' | h'
    · exact absurd ((k x hx).1 (h'.trans hx)) hn
    · exact h'
  · intro x hx h0 hn
    rcases (fr x).2.2 with h' | h'
    · exfalso
      have hne : (H' x).kind ≠ .empty := by rw [h', hx]; decide
      have hpos := c.pos x hne
      rw [c.count x hne, h0] at hpos
      have hr : 0 < references H' hp x := by omega
      obtain ⟨y, _, hy⟩ := sum_pos hr
      rcases hk : (H' y).kind with _ | _ | _ | _
      · rw [if_pos hk] at hy; exact absurd hy (by omega)
      · rw [if_neg (by rw [hk]; decide)] at hy
        exact hn y hk (List.count_pos_iff.1 hy)
      · rw [if_neg (by rw [hk]; decide), (c.aux y hk).2, List.count_nil] at hy; exact absurd hy (by decide)
      · exact absurd hk (c.clean y)
    · exact h'

-- the cycle 3, 4, the object 6 and the shape object 5 are freed; the count of 1 becomes 1
example : (gcRun false [0, 1, 2, 3, 4, 5, 6, 7] [] sample).map (fun H => [0, 1, 2, 3, 4, 5, 6, 7].map fun x => ((H x).kind, (H x).refc)) =
    some [(.obj, 1), (.obj, 1), (.aux, 1), (.empty, 0), (.empty, 0), (.empty, 0), (.empty, 0), (.empty, 0)] := by decide +kernel
example : (gcRun true [0, 1, 2, 3, 4, 5, 6, 7] [0] sample).map (fun H => [0, 1, 2, 3, 4, 5, 6, 7].map fun x => ((H x).kind, (H x).refc)) =
    some [(.obj, 1), (.obj, 1), (.aux, 1), (.empty, 0), (.empty, 0), (.empty, 0), (.empty, 0), (.empty, 0)] := by decide +kernel
example : ∃ H', gcRun false [0, 1, 2, 3, 4, 5, 6, 7] [] sample = some H' ∧ (H' 1).kind = .obj ∧ (H' 1).refs = [] := by
  obtain ⟨H', e, _, k⟩ := gc_keeps (top := false) (roots := []) sample_consistent (by decide) (fun h => nomatch h)
  have h1 : Reach sample (fun x => 0 < sampleExt x) 1 := .step (y := 0) (.base (by decide)) (by decide)
  exact ⟨H', e, (k 1 h1).1, (k 1 h1).2.1⟩

/-- C09: from the start of a program, after any sequence of operations that only uses references the program has, with garbage collections
at any points, reference counts are exact, nothing that is referenced has been freed, and the next such operation can be done. -/
theorem heap_history {ops : List Op} {s : State} (h : Runs start ops s) : Consistent s.hp s.mem s.ext ∧ ∀ op, Legal s op → ∃ s', exec s op = some s' := by
  have step : ∀ (s : State) (op : Op), Consistent s.hp s.mem s.ext → Legal s op → ∃ s', exec s op = some s' ∧ Consistent s'.hp s'.mem s'.ext := by
    intro s op h hl
    match op with
    | .inc x => exact ⟨_, rfl, inc_consistent h hl⟩
    | .dec x =>
      obtain ⟨H', e, c, _⟩ := dec_consistent h hl
      exact ⟨{ s with mem := H', ext := fun y => if y = x then s.ext y - 1 else s.ext y }, congrArg (Option.map _) e, c⟩
    | .new x refs shapes => exact ⟨_, rfl, new_consistent h hl.1 (.inl rfl) hl.2.1 hl.2.2.1 hl.2.2.2⟩
    | .newAux x =>
      exact ⟨_, rfl, new_consistent h (refs := []) (shapes := []) hl (.inr ⟨rfl, rfl, rfl⟩) (fun _ h => nomatch h) (fun _ h => nomatch h) (fun _ => Nat.zero_le _)⟩
    | .set y i c ds =>
      obtain ⟨h1, h2, h3, old, h4, h5⟩ := hl
      refine ⟨{ s with
        mem := put s.mem y { s.mem y with refs := (s.mem y).refs.set i c, drops := ds }
        ext := fun z => s.ext z + (if z = old then 1 else 0) - (if z = c then 1 else 0) }, ?_, set_consistent h h1 h2 h3 h4 h5⟩
      show (match (s.mem y).refs[i]? with | none => none | some old => _) = _
      rw [h4]
    | .gc top roots =>
      obtain ⟨H', e, c, _⟩ := gc_spec h hl.1 hl.2
      exact ⟨{ s with mem := H' }, congrArg (Option.map _) e, c⟩
  have all : ∀ (s : State) (ops : List Op) (s' : State), Runs s ops s' → Consistent s.hp s.mem s.ext → Consistent s'.hp s'.mem s'.ext := by
    intro s ops s' hr
    induction hr with
    | nil s => exact fun h => h
    | cons hl he _ ih =>
      intro h
      obtain ⟨s1, e1, c1⟩ := step _ _ h hl
      rw [he] at e1
      cases e1
      exact ih c1
  have c0 : Consistent start.hp start.mem start.ext :=
    ⟨List.nodup_nil, fun x h => absurd rfl h, (fun x h => nomatch h), (fun x h => nomatch h), (fun x h => nomatch h), (fun x h => nomatch h),
      fun x h => absurd rfl h, fun x h => absurd rfl h, fun x h => absurd h (Nat.lt_irrefl 0)⟩
  have c := all _ _ _ h c0
  exact ⟨c, fun op hl => by obtain ⟨s', e, _⟩ := step s op c hl; exact ⟨s', e⟩⟩

/-- C09, C10: after a garbage collection in any history, the objects are exactly those that can be reached from outside. -/
theorem heap_after_gc {ops : List Op} {s s' : State} {top : Bool} {roots : List Nat} (h : Runs start ops s) (hl : Legal s (.gc top roots))
    (hs : exec s (.gc top roots) = some s') (x : Nat) :
    (s'.mem x).kind = .obj ↔ (s.mem x).kind = .obj ∧ Reach s.mem (fun x => 0 < s.ext x) x := by
  obtain ⟨H', e, c, fr, k⟩ := gc_spec (heap_history h).1 hl.1 hl.2
  have : exec s (.gc top roots) = some { s with mem := H' } := congrArg (Option.map _) e
  rw [hs] at this
  cases this
  constructor
  · intro ho
    rcases (fr x).2.2 with h' | h'
    · exact ⟨h'.symm.trans ho, (k x (h'.symm.trans ho)).1 ho⟩
    · have ho : (H' x).kind = .obj := ho
      rw [ho] at h'; cases h'
  · intro ho
    exact (k x ho.1).2 ho.2

-- two objects are made to refer to each other; after the program gives up its references, a collection frees them
def demo : List Op := [.newAux 3, .new 1 [] [3], .new 0 [1] [], .inc 0, .inc 1, .new 2 [1] [], .set 2 0 0 [0], .dec 2, .dec 1, .gc false []]
example : (demo.foldlM exec start).map (fun s => [0, 1, 2, 3].map fun x => ((s.mem x).kind, (s.mem x).refc, s.ext x)) =
    some [(.obj, 1, 1), (.obj, 1, 0), (.empty, 0, 0), (.aux, 1, 0)] := by decide +kernel

-- a history: an object that refers to itself is made and given up; it is then collected
example : ∃ s, Runs start [.new 0 [] [], .inc 0, .new 1 [0] [], .inc 1, .set 1 0 1 [1], .dec 1, .gc false []] s ∧ (s.mem 1).kind = .empty ∧ (s.mem 0).kind = .obj := by
  refine ⟨_, .cons (op := .new 0 [] []) ?_ rfl (.cons (op := .inc 0) ?_ rfl (.cons (op := .new 1 [0] []) ?_ rfl (.cons (op := .inc 1) ?_ rfl
    (.cons (op := .set 1 0 1 [1]) ?_ rfl (.cons (op := .dec 1) ?_ rfl (.cons (op := .gc false []) ?_ rfl (.nil _))))))), ?_, ?_⟩
  · exact ⟨rfl, (fun _ h => nomatch h), (fun _ h => nomatch h), fun _ => Nat.zero_le _⟩
  · show Kind.obj ≠ _; decide
  · refine ⟨rfl, ?_, (fun _ h => nomatch h), ?_⟩
    · intro c hc; rw [List.mem_singleton.1 hc]; rfl
    · intro c
      match c with
      | 0 => decide
      | c + 1 => exact Nat.zero_le _
  · show Kind.obj ≠ _; decide
  · exact ⟨rfl, rfl, by decide, 0, rfl, .refl _⟩
  · show 0 < 1; decide
  · exact ⟨(fun _ h => nomatch h), (fun h => nomatch h)⟩
  · rfl
  · rfl

/-! ## what is not visited is freed -/

/-- vm.c 1143 and 1109: `bBlks_visit` and `bBlks_freeO` use a `u16` for the number of blocks -/
def first16 (l : List Nat) : List Nat := l.take (l.length % 65536)

/-- The block list 0 has references to the `n` blocks; all of them are the object 1 here. -/
def manyBlocks (n : Nat) : Mem
  | 0 => ⟨.obj, 1, false, first16 (List.replicate n 1), first16 (List.replicate n 1)⟩
  | 1 => ⟨.obj, n, false, [], []⟩
  | _ => ⟨.empty, 0, false, [], []⟩

/-- C09 fails for a block list of 65536 blocks: a garbage collection at top level frees the block, to which the block list, a root, has
65536 references. -/
theorem many_blocks_freed : (gcRun true [0, 1] [0] (manyBlocks 65536)).map (fun H => ((H 0).kind, (H 1).kind)) = some (.obj, .empty) := by
  have : first16 (List.replicate 65536 1) = [] := by
    unfold first16
    rw [List.length_replicate]
    rfl
  have e : manyBlocks 65536 = fun | 0 => ⟨.obj, 1, false, [], []⟩ | 1 => ⟨.obj, 65536, false, [], []⟩ | _ => ⟨.empty, 0, false, [], []⟩ := by
    funext x
    match x with
    | 0 => show Obj.mk _ _ _ _ _ = _; rw [this]; rfl
    | 1 => rfl
    | _ + 2 => rfl
  rw [e]
  decide +kernel

-- with one block fewer it is kept; 3 stands for the number of blocks here
example : (gcRun true [0, 1] [0] (manyBlocks 3)).map (fun H => ((H 0).kind, (H 1).kind)) = some (.obj, .obj) := by decide +kernel

end Verif.Gc
