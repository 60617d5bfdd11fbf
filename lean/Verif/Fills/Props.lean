import Verif.Fills.Lemmas

/-!
# Fills: properties
-/
namespace Verif.Fills

theorem wfO_some {f : Option V} (h : ∀ (g : V), f = some g → IsFill g) : wfO f := by
  cases f with
  | none => trivial
  | some g => exact h g rfl

/-- The prototype that is made of a value is that of the specification, and there is none
exactly where that has none. It is blank, well-formed, and has the fill that the value has. -/
theorem asFill_is_proto {x : V} (h : wf x) :
    (asFill x).map val = proto (val x) ∧
    ∀ (f : V), asFill x = some f → IsFill f ∧ fillVal f = fillVal x :=
  ⟨(asFill_made x h).1, fun f e =>
    have := (asFill_made x h).2 f e
    ⟨⟨this.1, this.2.1⟩, this.2.2⟩⟩

/-- `⟨1‿2, "ab"⟩` with the fill of the first element. -/
def sample : V :=
  .arr [2] .farr (some (.arr [2] .num none [.num 0, .num 0]))
    [.arr [2] .num none [.num 1, .num 2], .arr [2] .chr none [.chr 97, .chr 98]]
/-- Its prototype. -/
def sampleProto : P := .arr [2] [.arr [2] [.num 0, .num 0], .arr [2] [.chr 32, .chr 32]]

theorem sample_wf : wf sample := by
  simp [sample, wf, wfL, wfO, blank, blankL, prod, V.isNum, V.isChr]
example : proto (val sample) = some sampleProto := by
  simp [sample, sampleProto, val, valL, proto, protoL]
example : proto (.arr [2] [.num 5, .fn 0]) = none := by simp [proto, protoL]

/-- Two fills are taken to be the same exactly when `≡` says that they match. -/
theorem fillEqual_matches {w x : V} (hw : IsFill w) (hx : IsFill x) :
    fillEqual w x = true ↔ val w = val x :=
  fillEqual_val w x hw.1 hw.2 hx.1 hx.2

example : IsFill (.arr [2] .num none [.num 0, .num 0]) := by
  simp [IsFill, wf, wfL, wfO, blank, blankL, prod, V.isNum]
example : fillEqual (.arr [2] .num none [.num 0, .num 0]) (.arr [2] .harr none [.num 0, .num 0]) = true := by
  decide +kernel
example : fillEqual (.arr [1] .num none [.num 0]) (.arr [1] .chr none [.chr 32]) = false := by
  decide +kernel

/-- So arrays without elements are the same fill whatever their own fills are. -/
theorem empty_fills_match (sh : List Nat) (k k' : Kind) (f f' : Option V) :
    fillEqual (.arr sh k f []) (.arr sh k' f' []) = true := by
  simp [fillEqual]

/-- An array given a fill has the elements and the shape that it had, and that fill. -/
theorem withFill_gives (reuse squoze : Bool) {x f : V} (ha : x.isArr = true) (hx : wf x)
    (hf : IsFill f) :
    val (withFill reuse squoze x (some f)) = val x ∧ wf (withFill reuse squoze x (some f)) ∧
    fillVal (withFill reuse squoze x (some f)) = some (val f) :=
  have h := withFill_filled reuse squoze (f := some f) ha hx hf
  ⟨h.same, h.good, h.fill f rfl⟩

example : sample.isArr = true ∧ wf sample ∧ IsFill (.num 0) ∧
    fillVal sample ≠ some (val (.num 0)) := by
  refine ⟨rfl, sample_wf, ⟨rfl, trivial⟩, ?_⟩
  simp [fillVal, sample, getFill, val]

/-- Where the fill is not known, an array of numbers or of characters keeps its own, and
other arrays have none. -/
theorem withFill_unknown (reuse squoze : Bool) {x : V} (ha : x.isArr = true) (hx : wf x) :
    val (withFill reuse squoze x none) = val x ∧ wf (withFill reuse squoze x none) ∧
    fillVal (withFill reuse squoze x none) = unfilled x :=
  have h := withFill_filled reuse squoze (f := none) ha hx trivial
  ⟨h.same, h.good, h.keep rfl⟩

example : unfilled sample = none ∧ fillVal sample ≠ none := by
  refine ⟨rfl, ?_⟩
  simp [fillVal, sample, getFill]
example : unfilled (.arr [1] .num none [.num 7]) = some (.num 0) := rfl

/-- A result made of two arguments has a fill exactly when both have one and these match. -/
theorem fillBoth_gives {w x : V} (hw : wf w) (hx : wf x) (p : P) :
    (fillBoth w x).map val = some p ↔ fillVal w = some p ∧ fillVal x = some p := by
  have gw := wfO_getFill hw
  have gx := wfO_getFill hx
  unfold fillBoth fillVal
  cases e1 : getFill w with
  | none => simp
  | some a =>
    rw [e1] at gw
    have key := fillEqualO_val gw gx
    simp only
    by_cases h : fillEqualO (some a) (getFill x) = true
    · rw [if_pos h]
      have := key.1 h
      rw [this]
      simp
    · rw [if_neg h]
      have : ¬ Option.map val (some a) = Option.map val (getFill x) := fun e => h (key.2 e)
      constructor
      · intro h; cases h
      · rintro ⟨h1, h2⟩
        exact absurd (h1.trans h2.symm) this

example : (fillBoth sample sample).map val = some (.arr [2] [.num 0, .num 0]) := by
  rw [fillBoth_gives sample_wf sample_wf]
  simp [fillVal, sample, getFill, val, valL]
example : fillBoth sample (.num 3) = none := by
  simp [fillBoth, sample, getFill, fillEqualO, fillEqual]

/-- The fill that a fill given to an array by `fillBoth` is can be one. -/
theorem fillBoth_isFill {w x : V} (hx : wf x) (f : V) (h : fillBoth w x = some f) : IsFill f := by
  have gx := wfO_getFill hx
  unfold fillBoth at h
  cases e1 : getFill w with
  | none => rw [e1] at h; cases h
  | some a =>
    rw [e1] at h
    simp only at h
    by_cases c : fillEqualO (some a) (getFill x) = true
    · rw [if_pos c] at h; rw [h] at gx; exact gx
    · rw [if_neg c] at h; cases h

/-- An array of one element has the prototype of that as its fill, and none if that has none. -/
theorem oneItem_gives {x : V} (h : wf x) (rank1 : Bool) :
    val (oneItem x rank1) = .arr (if rank1 then [1] else []) [val x] ∧
    wf (oneItem x rank1) ∧ fillVal (oneItem x rank1) = proto (val x) := by
  have hp := asFill_is_proto h
  have sub : ∀ (x : V), wf x → (∀ (f : V), asFill x = some f → IsFill f ∧ fillVal f = fillVal x) →
      (asFill x).map val = proto (val x) →
      ∀ (b : Bool), x.isNum = false → x.isChr = false →
      val (oneItem x b) = .arr (if b then [1] else []) [val x] ∧
      wf (oneItem x b) ∧ fillVal (oneItem x b) = proto (val x) := by
    intro x h h1 h2 b hn hc
    have e : oneItem x b = if b then .arr [1] .farr (asFill x) [x] else
        match asFill x with
        | none => .arr [] .harr none [x]
        | some f => .arr [] .farr (some f) [x] := by
      cases x with
      | num n => simp [V.isNum] at hn
      | chr n => simp [V.isChr] at hc
      | fn i => cases b <;> rfl
      | arr sh k f els => cases b <;> rfl
    rw [e]
    cases b with
    | true =>
      simp only [if_true]
      refine ⟨rfl, ?_, h2⟩
      rw [wf]
      exact ⟨rfl, nofun, nofun, fun h => absurd rfl h, wfO_some fun g hg => (h1 g hg).1, h, trivial⟩
    | false =>
      simp only [Bool.false_eq_true, if_false]
      cases e2 : asFill x with
      | none =>
        rw [e2] at h2
        refine ⟨rfl, ?_, h2⟩
        rw [wf]
        exact ⟨rfl, nofun, nofun, fun _ => rfl, trivial, h, trivial⟩
      | some f =>
        rw [e2] at h2
        refine ⟨rfl, ?_, h2⟩
        rw [wf]
        exact ⟨rfl, nofun, nofun, fun h => absurd rfl h, (h1 f e2).1, h, trivial⟩
  cases x with
  | num n =>
    refine ⟨by cases rank1 <;> rfl, ?_, rfl⟩
    rw [oneItem, wf]
    refine ⟨by cases rank1 <;> rfl, fun _ e he => ?_, nofun, fun _ => rfl, trivial, trivial, trivial⟩
    rw [List.mem_singleton.mp he]; rfl
  | chr n =>
    refine ⟨by cases rank1 <;> rfl, ?_, rfl⟩
    rw [oneItem, wf]
    refine ⟨by cases rank1 <;> rfl, nofun, fun _ e he => ?_, fun _ => rfl, trivial, trivial, trivial⟩
    rw [List.mem_singleton.mp he]; rfl
  | fn i => exact sub _ h hp.2 hp.1 _ rfl rfl
  | arr sh k f els => exact sub _ h hp.2 hp.1 _ rfl rfl

example : fillVal (oneItem sample true) = some sampleProto := by
  rw [(oneItem_gives sample_wf true).2.2]
  simp [sample, sampleProto, val, valL, proto, protoL]
example : fillVal (oneItem (.fn 3) true) = none := (oneItem_gives (x := .fn 3) trivial true).2.2

/-- An array without elements made in place of another has the fill of that. -/
theorem emptyArr_gives {x : V} (sh : List Nat) (h0 : prod sh = 0) (ha : x.isArr = true) (h : wf x) :
    val (emptyArr sh x) = .arr sh [] ∧ wf (emptyArr sh x) ∧ fillVal (emptyArr sh x) = fillVal x := by
  have good : ∀ (k : Kind), k ≠ .farr → wf (.arr sh k none []) := by
    intro k hk
    rw [wf]
    exact ⟨h0.symm, fun _ => nofun, fun _ => nofun, fun _ => rfl, trivial, trivial⟩
  have rest : ∀ (f : Option V), wfO f →
      let r : V := if numFill f then .arr sh .num none []
        else if chrFill f then .arr sh .chr none []
        else match f with
          | none => .arr sh .harr none []
          | some f => .arr sh .farr (some f) []
      val r = .arr sh [] ∧ wf r ∧ fillVal r = f.map val := by
    intro f hf
    simp only
    by_cases c1 : numFill f = true
    · rw [if_pos c1, numFill_eq c1]
      exact ⟨rfl, good _ nofun, rfl⟩
    rw [if_neg c1]
    by_cases c2 : chrFill f = true
    · rw [if_pos c2, chrFill_eq hf c2]
      exact ⟨rfl, good _ nofun, rfl⟩
    rw [if_neg c2]
    cases f with
    | none => exact ⟨rfl, good _ nofun, rfl⟩
    | some f =>
      refine ⟨rfl, ?_, rfl⟩
      rw [wf]
      exact ⟨h0.symm, nofun, nofun, fun h => absurd rfl h, hf, trivial⟩
  cases x with
  | num n => cases ha
  | chr n => cases ha
  | fn n => cases ha
  | arr sh' k f els =>
    have h' := h
    rw [wf] at h
    cases k with
    | num => exact ⟨rfl, good _ nofun, rfl⟩
    | chr => exact ⟨rfl, good _ nofun, rfl⟩
    | farr => exact rest f h.2.2.2.2.1
    | harr =>
      have hn : f = none := by
        have := h.2.2.2.1 nofun
        cases f with
        | none => rfl
        | some f => cases this
      subst hn
      exact rest none trivial

example : prod [3, 0, 2] = 0 ∧ fillVal sample = some (.arr [2] [.num 0, .num 0]) := by
  refine ⟨rfl, ?_⟩
  simp [fillVal, sample, getFill, val, valL]

end Verif.Fills
