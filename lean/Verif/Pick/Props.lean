import Verif.Pick.Main
/-!
# C60: Pick and Choose
-/
namespace Verif.Pick
open Verif.Cells (Arr Val)
open Verif.Rotate
variable {E : Type}

/-- Each index is replaced by the element at its position. -/
theorem pick_gives {w : Ix} (ho : w.Ok) (hp : w.Plain) {x : Val E} (hx : ∀ a, x = .arr a → ArrOk a) {r : R E} (h : Picks (asArr x) w r) : pick2 w x = .ok r := by
  rw [pick2_eq]
  exact (pickArr_spec (asArr_ok hx) w ho hp).1 r h

/-- All else is an error. -/
theorem pick_refuses {w : Ix} (ho : w.Ok) (hp : w.Plain) {x : Val E} (hx : ∀ a, x = .arr a → ArrOk a) (h : ¬ ∃ r, Picks (asArr x) w r) : pick2 w x = .err := by
  rw [pick2_eq]
  exact (pickArr_spec (asArr_ok hx) w ho hp).2 h

/-- Without 𝕨, it's the first element, and an error if there's none. -/
theorem pick_first (x : Val E) : pick1 x = match (asArr x).els with | [] => .err | e :: _ => .ok e := by
  cases x with
  | atom e => rfl
  | arr a =>
    obtain ⟨sh, els⟩ := a
    cases els <;> rfl

variable {m : Type → Type} [Monad m] {X Y : Type}

/-- `𝔽◶𝕘` calls `𝔽` once; then what its result picks from `𝕘` is called with the same arguments, or there's an error if nothing is picked. -/
theorem choose_calls (apply : R E → X → m Y) (fail undef : m Y) (f : X → m Ix) {g : Val E} (hg : ∀ a, g = .arr a → ArrOk a) (x : X) :
    ∃ k : Ix → m Y, choose apply fail undef f g x = f x >>= k ∧
      ∀ w, w.Ok → w.Plain → (∀ r, Picks (asArr g) w r → k w = apply r x) ∧ ((¬ ∃ r, Picks (asArr g) w r) → k w = fail) := by
  refine ⟨_, rfl, ?_⟩
  intro w ho hp
  have key := pickArr_spec (asArr_ok hg) w ho hp
  rw [← pick2_eq] at key
  have e : ∀ o, pick2 w g = o → (match w with
    | .num n =>
      match g with
      | .atom _ => fail
      | .arr g =>
        if g.sh.length ≠ 1 then fail
        else match n with
          | none => fail
          | some i =>
            match wrap i g.els.length with
            | none => fail
            | some p => match g.els[p]? with
              | none => undef
              | some h => apply (.val h) x
    | fr =>
      match pick2 fr g with
      | .ok fn => apply fn x
      | .err => fail
      | .undef => undef) = match o with
      | .ok fn => apply fn x
      | .err => fail
      | .undef => undef := by
    rintro o rfl
    cases w with
    | num n =>
      cases g with
      | atom e => rfl
      | arr g =>
        show _ = match pickArr (.num n) g with | .ok fn => apply fn x | .err => fail | .undef => undef
        unfold pickArr
        dsimp only
        by_cases hl : g.sh.length ≠ 1
        · rw [if_pos hl, if_pos hl]
        · rw [if_neg hl, if_neg hl]
          cases n with
          | none => rfl
          | some i =>
            dsimp only
            cases wrap i g.els.length with
            | none => rfl
            | some p =>
              dsimp only
              cases g.els[p]? <;> rfl
    | other => rfl
    | ints sh ns => rfl
    | floats sh ns => rfl
    | boxed sh gs => rfl
  constructor
  · intro r hr
    exact e _ (key.1 r hr)
  · intro hn
    exact e _ (key.2 hn)

/-! ## Cases -/

/-- `⟨0‿¯1, ⟨1‿0⟩⟩ ⊑ 2‿3⥊↕6` is `⟨2, ⟨3⟩⟩`. -/
def sampleW : Ix := .boxed [2] [.ints [2] [0, -1], .boxed [1] [.boxed [2] [.num (some 1), .num (some 0)]]]
def sampleX : Val Nat := .arr ⟨[2, 3], [0, 1, 2, 3, 4, 5]⟩
def sampleR : R Nat := .arr [2] [.val 2, .arr [1] [.val 3]]

theorem sample_ok : sampleW.Ok ∧ sampleW.Plain ∧ ∀ a, sampleX = .arr a → ArrOk a := by
  refine ⟨?_, ?_, ?_⟩
  · simp [sampleW, Ix.Ok, OkL, prod]
  · simp [sampleW, Ix.Plain, PlainL]
  · rintro a ⟨⟩
    exact ⟨rfl, by decide, by decide⟩

theorem sample_picks : Picks (asArr sampleX) sampleW sampleR := by
  refine .each (by decide) rfl ?_ ?_
  · intro i g h
    match i, h with
    | 0, h => cases h; rfl
    | 1, h => cases h; rfl
  · intro i g r h h'
    match i, h, h' with
    | 0, h, h' =>
      cases h; cases h'
      exact .one (.ints 2 _) (.cons (k := 0) (by decide) (.inl rfl) (.cons (k := 2) (by decide) (.inr rfl) .nil)) rfl
    | 1, h, h' =>
      cases h; cases h'
      refine .each (by decide) rfl ?_ ?_
      · intro i g h
        match i, h with
        | 0, h => cases h; rfl
      · intro i g r h h'
        match i, h, h' with
        | 0, h, h' =>
          cases h; cases h'
          exact .one (.boxed 2 [1, 0]) (.cons (k := 1) (by decide) (.inl rfl) (.cons (k := 0) (by decide) (.inl rfl) .nil)) rfl

example : pick2 sampleW sampleX = .ok sampleR := pick_gives sample_ok.1 sample_ok.2.1 sample_ok.2.2 sample_picks

/-- `2‿0 ⊑ 2‿3⥊↕6` -/
example : pick2 (.ints [2] [2, 0]) sampleX = .err := by
  refine pick_refuses (by simp [Ix.Ok, prod]) (by simp [Ix.Plain]) sample_ok.2.2 ?_
  rintro ⟨r, h⟩
  cases h with
  | one h1 h2 _ =>
    cases h1
    cases h2 with
    | cons hk hk' _ => omega

example : choose (m := Option) (fun (r : R Nat) (x : Nat) => match r with | .val h => some (h + x) | .arr _ _ => none) none none (fun x => some (.num (some (x - 5)))) (.arr ⟨[3], [10, 20, 30]⟩) 3 = some 23 := by rfl

/-- An empty array with other than one axis picks the element of a unit, or is refused, depending on how it is stored. -/
theorem pick_empty_depends (e : E) : pick2 (.boxed [0, 3] []) (.arr ⟨[], [e]⟩) = .ok (.val e) ∧ pick2 (.ints [0, 3] []) (.arr ⟨[], [e]⟩) = .err := ⟨rfl, rfl⟩

end Verif.Pick
