import Verif.EachRef.Dyadic
/-
C86: Each uses every reference it is given once, and calls the function once for every item of the result, in order.
-/
namespace Verif.EachRef

/-- `𝕨 F¨ 𝕩`: given a reference to each argument, whether or not they may be overwritten, nothing is given away that is
not owned and no element is read after it was moved out; at the end no reference is left, the result holds that of call
`i` at place `i`, and call `i` was made with the items of both arguments that belong there.  For a function that only
returns a constant the calls may be left out. -/
theorem each_two (res : Nat → V) (new : V) (const : Option V) (w x : Arg) (hw : w.Ok) (hx : x.Ok) (ha : Agree w x)
    (hk : ∀ fo, const = some fo → ∀ i, res i = fo) :
    ∃ s', eachd res new const w x ⟨fun v => one w.v v + one x.v v, [], []⟩ = some s' ∧
      (∀ v, s'.hand v = 0) ∧
      s'.slots = (List.range (count w x)).map (fun i => some (res i)) ∧
      (const = none → s'.calls.map (fun c => (c.1, some c.2)) =
        (List.range (count w x)).map fun i => (w.at (count w x) i, x.at (count w x) i)) := by
  obtain ⟨s', h1, h2, h3, h4⟩ := eachd_ok res new const w x ⟨fun v => one w.v v + one x.v v, [], []⟩ hw hx ha hk
    (fun _ => rfl) rfl
  exact ⟨s', h1, h2, h3, fun hc => (h4 hc).2⟩

/-- A table with two rows of three (value 10, elements 1 to 6, may be overwritten) and a list of two (value 11,
elements 7 and 8). -/
def table : Arg := ⟨10, true, 2, [1, 2, 3, 4, 5, 6], true⟩
def list2 : Arg := ⟨11, true, 1, [7, 8], true⟩
def list6 : Arg := ⟨12, true, 2, [7, 8, 9, 7, 8, 9], false⟩
def atom : Arg := ⟨13, false, 0, [], false⟩

example : table.Ok ∧ list2.Ok ∧ atom.Ok := by
  simp [Arg.Ok, table, list2, atom]

example : Agree list2 table := by
  refine ⟨nofun, fun _ => ⟨3, rfl⟩, fun h => absurd h (by decide)⟩

example : (eachd (fun i => 20 + i) 30 none list2 table ⟨fun v => one 11 v + one 10 v, [], []⟩).map (fun s => (s.calls, s.slots)) =
    some ([(some 7, 1), (some 7, 2), (some 7, 3), (some 8, 4), (some 8, 5), (some 8, 6)],
      [some 20, some 21, some 22, some 23, some 24, some 25]) := by decide

example : (eachd (fun i => 20 + i) 30 none table list6 ⟨fun v => one 10 v + one 12 v, [], []⟩).map (fun s => s.calls) =
    some [(some 1, 7), (some 2, 8), (some 3, 9), (some 4, 7), (some 5, 8), (some 6, 9)] := by decide

example : (eachd (fun i => 20 + i) 30 none atom table ⟨fun v => one 13 v + one 10 v, [], []⟩).map (fun s => s.calls) =
    some [(some 13, 1), (some 13, 2), (some 13, 3), (some 13, 4), (some 13, 5), (some 13, 6)] := by decide

/-- Without a reference to begin with, the model reports it. -/
example : eachd (fun i => 20 + i) 30 none atom table ⟨fun v => one 13 v, [], []⟩ = none := rfl

/-- `F¨ 𝕩`, for each kind of storage. -/
theorem each_one (res : Nat → V) (new : V) (kind : Kind) (x : V) (els : List V) :
    ∃ s', eachm res new kind x els ⟨one x, [], []⟩ = some s' ∧
      (∀ v, s'.hand v = 0) ∧
      s'.slots = (List.range els.length).map (fun i => some (res i)) ∧
      s'.calls = els.map fun v => (none, v) := by
  have key : ∀ s' : S, Good res els.length (fun _ => none) (fun k => els[k]?) s' →
      s'.slots = (List.range els.length).map (fun i => some (res i)) ∧ s'.calls = els.map fun v => (none, v) := by
    intro s' hg
    refine ⟨hg.1, ?_⟩
    have h2 := hg.2
    have inj : ∀ a b : List (Option V × V),
        a.map (fun c => (c.1, some c.2)) = b.map (fun c => (c.1, some c.2)) → a = b := by
      intro a
      induction a with
      | nil => intro b h; cases b with
        | nil => rfl
        | cons _ _ => exact nomatch h
      | cons p a ih => intro b h; cases b with
        | nil => exact nomatch h
        | cons q b =>
          simp only [List.map_cons, List.cons.injEq, Prod.mk.injEq, Option.some.injEq] at h
          rw [ih b h.2]
          have : p = q := Prod.ext h.1.1 h.1.2
          rw [this]
    apply inj
    rw [h2]
    apply List.ext_getElem?
    intro k
    rw [List.getElem?_map, List.getElem?_map, List.getElem?_map]
    by_cases hk : k < els.length
    · rw [List.getElem?_range hk, List.getElem?_eq_getElem hk]
      simp [List.getElem?_eq_getElem hk]
    · rw [List.getElem?_eq_none (by rw [List.length_range]; omega), List.getElem?_eq_none (by omega)]
      rfl
  -- overwriting
  have ov : ∀ (r : V) (fill : Option V) (s : S), (∀ j, s.hand j = one r j) → s.calls = [] →
      ∃ s', ((match fill with
          | none => some s
          | some v => (s.inc v 1).give v).bind fun s =>
          (loop res .no .move els.length 0 { s with slots := els.map some }).bind fun s => s.give r) = some s' ∧
        (∀ j, s'.hand j = 0) ∧ Good res els.length (fun _ => none) (fun k => els[k]?) s' := by
    intro r fill s h hc
    have tail : ∀ s1 : S, (∀ j, s1.hand j = one r j) → s1.calls = [] →
        ∃ s', ((loop res .no .move els.length 0 { s1 with slots := els.map some }).bind fun s => s.give r) = some s' ∧
          (∀ j, s'.hand j = 0) ∧ Good res els.length (fun _ => none) (fun k => els[k]?) s' := by
      intro s1 b2 b3
      obtain ⟨s2, c1, c2, c3⟩ := reuse_ok (res := res) (ws := .no) (xs := .move) (els := els) (wf := fun _ => none)
        (xf := fun k => els.getD k 0) (wo := fun _ => none) (xo := fun k => els[k]?) (b := one r)
        (s := { s1 with slots := els.map some }) (.inl ⟨rfl, rfl⟩) trivial trivial
        (fun j => by show s1.hand j = _; rw [b2 j]; simp [Src.cost]) b3 rfl
        (fun k hk => ⟨rfl, (slot_move hk).1⟩) (fun k hk => ⟨rfl, getq hk⟩)
      obtain ⟨s3, d1, d2, d3, d4⟩ := give1 c2
      exact ⟨s3, by rw [c1]; exact d1, d2, good_congr c3 d3 d4⟩
    cases fill with
    | none => exact tail s h hc
    | some v =>
      obtain ⟨s1, a1, a2, _, a4⟩ := give_ok (s := s.inc v 1) (v := v) (b := one r)
        (fun j => by rw [inc_hand, h j]; omega)
      obtain ⟨s', b1, b2, b3⟩ := tail s1 a2 (a4.trans hc)
      exact ⟨s', by simp only [a1, Option.bind_some]; exact b1, b2, b3⟩
  by_cases h0 : els.length = 0
  · obtain ⟨s', a1, a2, a3, a4⟩ := give1 (s := ⟨one x, [], []⟩) (a := x) (fun _ => rfl)
    refine ⟨s', ?_, a2, ?_, ?_⟩
    · simp only [eachm, if_pos h0]
      exact a1
    · rw [a3, h0]
      rfl
    · rw [a4, List.length_eq_zero_iff.mp h0]
      rfl
  · simp only [eachm, if_neg h0, Option.bind_eq_bind]
    cases kind with
    | harr =>
      obtain ⟨s', a1, a2, a3⟩ := ov x none ⟨one x, [], []⟩ (fun _ => rfl) rfl
      exact ⟨s', a1, a2, key s' a3⟩
    | fillarr v =>
      obtain ⟨s', a1, a2, a3⟩ := ov x (some v) ⟨one x, [], []⟩ (fun _ => rfl) rfl
      exact ⟨s', a1, a2, key s' a3⟩
    | slice p fill =>
      obtain ⟨s1, b1, b2, _, b4⟩ := give_ok (s := (⟨one x, [], []⟩ : S).inc p 1) (v := x) (b := one p)
        (fun j => by rw [inc_hand]; show one x j + _ = _; omega)
      obtain ⟨s', a1, a2, a3⟩ := ov p fill s1 b2 b4
      exact ⟨s', by simp only [b1, Option.bind_some]; cases fill <;> exact a1, a2, key s' a3⟩
    | other =>
      obtain ⟨s2, c1, c2, c3⟩ := fresh_ok (res := res) (ws := .no) (xs := .get x els) (n := els.length)
        (wf := fun _ => none) (xf := fun k => els.getD k 0) (wo := fun _ => none) (xo := fun k => els[k]?)
        (b := fun j => one x j + one new j)
        (s := { (⟨one x, [], []⟩ : S).inc new 1 with slots := List.replicate els.length none }) ⟨rfl, rfl⟩ trivial
        (by show 1 ≤ one x x + _; rw [one_self]; omega)
        (fun j => by show one x j + 1 * one new j = _; simp [Src.cost]) rfl rfl
        (fun k hk => ⟨rfl, get_item hk⟩) (fun k hk => ⟨rfl, getq hk⟩)
      obtain ⟨s3, d1, d2, d3, d4⟩ := give2 c2
      exact ⟨s3, by rw [c1]; exact d1, d2, key s3 (good_congr c3 d3 d4)⟩

example : (eachm (fun i => 20 + i) 30 (.slice 5 (some 6)) 4 [1, 2, 1] ⟨one 4, [], []⟩).map (fun s => (s.calls, s.slots, s.hand 5)) =
    some ([(none, 1), (none, 2), (none, 1)], [some 20, some 21, some 22], 0) := by decide

end Verif.EachRef
