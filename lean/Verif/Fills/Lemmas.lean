import Verif.Fills.Wf

namespace Verif.Fills

theorem valL_length : ∀ (l : List V), (valL l).length = l.length
  | [] => rfl
  | _ :: as => by simp [valL, valL_length as]

theorem isNum_cases {x : V} (h : x.isNum = true) : ∃ n, x = .num n := by
  cases x <;> simp [V.isNum] at h
  exact ⟨_, rfl⟩

theorem isChr_cases {x : V} (h : x.isChr = true) : ∃ n, x = .chr n := by
  cases x <;> simp [V.isChr] at h
  exact ⟨_, rfl⟩

theorem blank_nums : ∀ {l : List V}, blankL l → (∀ (e : V), e ∈ l → e.isNum = true) →
    valL l = List.replicate l.length (.num 0)
  | [], _, _ => rfl
  | a :: as, hb, hn => by
    obtain ⟨n, rfl⟩ := isNum_cases (hn a (by simp))
    have h0 : n = 0 := hb.1
    subst h0
    rw [valL, blank_nums hb.2 (fun e he => hn e (by simp [he]))]
    rfl

theorem blank_chrs : ∀ {l : List V}, blankL l → (∀ (e : V), e ∈ l → e.isChr = true) →
    valL l = List.replicate l.length (.chr 32)
  | [], _, _ => rfl
  | a :: as, hb, hn => by
    obtain ⟨n, rfl⟩ := isChr_cases (hn a (by simp))
    have h0 : n = 32 := hb.1
    subst h0
    rw [valL, blank_chrs hb.2 (fun e he => hn e (by simp [he]))]
    rfl

theorem rep_ne {n : Nat} (h : n ≠ 0) {m : Nat} :
    List.replicate n (P.num 0) ≠ List.replicate m (P.chr 32) := by
  cases n with
  | zero => exact absurd rfl h
  | succ n =>
    cases m with
    | zero => simp [List.replicate]
    | succ m => simp [List.replicate]

mutual
theorem fillEqual_val : ∀ (w x : V), blank w → wf w → blank x → wf x →
    (fillEqual w x = true ↔ val w = val x)
  | .num a, x, _, _, _, _ => by cases x <;> simp [fillEqual, val]
  | .chr a, x, _, _, _, _ => by cases x <;> simp [fillEqual, val]
  | .fn a, x, hb, _, _, _ => by cases x <;> simp [fillEqual, val]
  | .arr sh k f els, x, hbw, hww, hbx, hwx => by
    cases x with
    | num n => simp [fillEqual, val]
    | chr n => simp [fillEqual, val]
    | fn n => simp [fillEqual, val]
    | arr sh' k' f' els' =>
      rw [blank] at hbw hbx
      rw [wf] at hww hwx
      obtain ⟨hl, hn, hc, -, -, he⟩ := hww
      obtain ⟨hl', hn', hc', -, -, he'⟩ := hwx
      rw [fillEqual, val, val]
      by_cases hs : sh = sh'
      · subst hs
        have hll : els.length = els'.length := by omega
        rw [if_neg (by simp)]
        by_cases h0 : els.length = 0
        · rw [if_pos (by simpa using h0)]
          have e1 : els = [] := List.length_eq_zero_iff.mp h0
          have e2 : els' = [] := List.length_eq_zero_iff.mp (by omega)
          subst e1; subst e2
          simp
        · rw [if_neg (by simpa using h0)]
          have ih := fillEqualL_val els els' hll hbw he hbx he'
          have key : (P.arr sh (valL els) = P.arr sh (valL els')) ↔ valL els = valL els' := by
            simp
          rw [key]
          cases k <;> cases k' <;> simp only [Kind.typed, Bool.and_true, Bool.and_false,
            Bool.false_eq_true, if_true, if_false] <;> try exact ih
          · rw [blank_nums hbw (hn rfl), blank_nums hbx (hn' rfl), hll]; simp
          · rw [blank_nums hbw (hn rfl), blank_chrs hbx (hc' rfl)]
            simp [rep_ne h0]
          · rw [blank_chrs hbw (hc rfl), blank_nums hbx (hn' rfl)]
            have := rep_ne (n := els'.length) (by omega) (m := els.length)
            constructor
            · intro h; simp at h
            · intro h; exact absurd h.symm this
          · rw [blank_chrs hbw (hc rfl), blank_chrs hbx (hc' rfl), hll]; simp
      · rw [if_pos (by simpa using hs)]
        simp [hs]
theorem fillEqualL_val : ∀ (w x : List V), w.length = x.length → blankL w → wfL w →
    blankL x → wfL x → (fillEqualL w x = true ↔ valL w = valL x)
  | [], [], _, _, _, _, _ => by simp [fillEqualL]
  | [], _ :: _, h, _, _, _, _ => by simp at h
  | _ :: _, [], h, _, _, _, _ => by simp at h
  | a :: as, b :: bs, h, hb, hw, hb', hw' => by
    rw [fillEqualL, valL, valL, Bool.and_eq_true,
      fillEqual_val a b hb.1 hw.1 hb'.1 hw'.1,
      fillEqualL_val as bs (by simpa using h) hb.2 hw.2 hb'.2 hw'.2]
    simp
end

theorem fillEqualO_val {w x : Option V} (hw : wfO w) (hx : wfO x) :
    fillEqualO w x = true ↔ w.map val = x.map val := by
  cases w <;> cases x
  · simp [fillEqualO]
  · simp [fillEqualO]
  · simp [fillEqualO]
  · rename_i a b
    rw [wfO] at hw hx
    simp [fillEqualO, fillEqual_val a b hw.1 hw.2 hx.1 hx.2]

theorem wfO_num : wfO (some (.num 0)) := by simp [wfO, blank, wf]
theorem wfO_chr : wfO (some (.chr 32)) := by simp [wfO, blank, wf]

theorem wfO_getFill {x : V} (h : wf x) : wfO (getFill x) := by
  cases x with
  | num n => exact wfO_num
  | chr n => exact wfO_chr
  | fn n => simp [getFill, wfO]
  | arr sh k f els =>
    rw [wf] at h
    cases k with
    | num => exact wfO_num
    | chr => exact wfO_chr
    | harr => simp [getFill, wfO]
    | farr => exact h.2.2.2.2.1

theorem numFill_eq {f : Option V} (h : numFill f = true) : f = some (.num 0) := by
  cases f with
  | none => simp [numFill] at h
  | some f => cases f <;> simp [numFill] at h; subst h; rfl

theorem chrFill_eq {f : Option V} (hw : wfO f) (h : chrFill f = true) : f = some (.chr 32) := by
  cases f with
  | none => simp [chrFill] at h
  | some f =>
    cases f <;> simp [chrFill] at h
    have : blank (.chr _) := hw.1
    rw [blank] at this; subst this; rfl

/-- Everything about `withFill` at once. -/
structure Filled (x : V) (f : Option V) (r : V) : Prop where
  same : val r = val x
  good : wf r
  fill : ∀ (g : V), f = some g → fillVal r = some (val g)
  keep : f = none → fillVal r = unfilled x

theorem filled_farr {sh k xf els} {f : Option V} (hx : wf (.arr sh k xf els)) (hf : wfO f)
    (hk : f = none → k = .farr) : Filled (.arr sh k xf els) f (.arr sh .farr f els) := by
  rw [wf] at hx
  refine ⟨rfl, ?_, ?_, ?_⟩
  · rw [wf]
    exact ⟨hx.1, nofun, nofun, fun h => absurd rfl h, hf, hx.2.2.2.2.2⟩
  · intro g hg; subst hg; rfl
  · intro hn; subst hn; rw [hk rfl]; rfl

theorem filled_self {x : V} {f : Option V} (hx : wf x) (h : fillVal x = f.map val)
    : Filled x f x := by
  refine ⟨rfl, hx, ?_, ?_⟩
  · intro g hg; subst hg; exact h
  · intro hn; subst hn
    unfold unfilled
    split
    · exact h
    · rfl

theorem withFill_filled (reuse squoze : Bool) {x : V} {f : Option V} (ha : x.isArr = true)
    (hx : wf x) (hf : wfO f) : Filled x f (withFill reuse squoze x f) := by
  cases x with
  | num n => simp [V.isArr] at ha
  | chr n => simp [V.isArr] at ha
  | fn n => simp [V.isArr] at ha
  | arr sh k xf els =>
    have hx' := hx
    rw [wf] at hx'
    rw [withFill]
    by_cases c1 : (f.isNone && k != .farr) = true
    · rw [if_pos c1]
      simp at c1
      refine ⟨rfl, hx, ?_, ?_⟩
      · intro g hg; rw [hg] at c1; simp at c1
      · intro _
        cases k
        · rfl
        · rfl
        · rfl
        · exact absurd rfl c1.2
    rw [if_neg c1]
    have hk : f = none → k = .farr := by
      intro h; subst h; simpa using c1
    by_cases c2 : (k == .num && numFill f) = true
    · rw [if_pos c2]
      simp at c2
      obtain ⟨rfl, h⟩ := c2
      exact filled_self hx (by rw [numFill_eq h]; rfl)
    rw [if_neg c2]
    by_cases c3 : (k == .chr && chrFill f) = true
    · rw [if_pos c3]
      simp at c3
      obtain ⟨rfl, h⟩ := c3
      exact filled_self hx (by rw [chrFill_eq hf h]; rfl)
    rw [if_neg c3]
    by_cases c4 : (k == .farr && fillEqualO xf f) = true
    · rw [if_pos c4]
      simp at c4
      obtain ⟨rfl, h⟩ := c4
      exact filled_self hx ((fillEqualO_val hx'.2.2.2.2.1 hf).1 h)
    rw [if_neg c4]
    by_cases c5 : (k == .farr && reuse) = true
    · rw [if_pos c5]; exact filled_farr hx hf hk
    rw [if_neg c5]
    by_cases c6 : (!squoze && numFill f && els.all V.isNum) = true
    · rw [if_pos c6]
      simp at c6
      have e := numFill_eq c6.1.2
      refine ⟨rfl, ?_, ?_, ?_⟩
      · rw [wf]
        exact ⟨hx'.1, fun _ => c6.2, nofun, fun _ => rfl, trivial, hx'.2.2.2.2.2⟩
      · intro g hg; rw [e] at hg; cases hg; rfl
      · intro hn; rw [e] at hn; cases hn
    rw [if_neg c6]
    by_cases c7 : (!squoze && chrFill f && els.all V.isChr) = true
    · rw [if_pos c7]
      simp at c7
      have e := chrFill_eq hf c7.1.2
      refine ⟨rfl, ?_, ?_, ?_⟩
      · rw [wf]
        exact ⟨hx'.1, nofun, fun _ => c7.2, fun _ => rfl, trivial, hx'.2.2.2.2.2⟩
      · intro g hg; rw [e] at hg; cases hg; rfl
      · intro hn; rw [e] at hn; cases hn
    rw [if_neg c7]
    exact filled_farr hx hf hk

theorem protoL_nums : ∀ {l : List V}, (∀ (e : V), e ∈ l → e.isNum = true) →
    protoL (valL l) = some (List.replicate l.length (.num 0))
  | [], _ => rfl
  | a :: as, h => by
    obtain ⟨n, rfl⟩ := isNum_cases (h a (by simp))
    rw [valL, protoL, protoL_nums (fun e he => h e (by simp [he]))]
    rfl

theorem protoL_chrs : ∀ {l : List V}, (∀ (e : V), e ∈ l → e.isChr = true) →
    protoL (valL l) = some (List.replicate l.length (.chr 32))
  | [], _ => rfl
  | a :: as, h => by
    obtain ⟨n, rfl⟩ := isChr_cases (h a (by simp))
    rw [valL, protoL, protoL_chrs (fun e he => h e (by simp [he]))]
    rfl

theorem rep_nums (n : Nat) : valL (List.replicate n (.num 0)) = List.replicate n (.num 0) ∧
    blankL (List.replicate n (.num 0)) ∧ wfL (List.replicate n (.num 0)) := by
  induction n with
  | zero => exact ⟨rfl, trivial, trivial⟩
  | succ n ih =>
    rw [List.replicate_succ, List.replicate_succ]
    exact ⟨by rw [valL, ih.1, val], ⟨rfl, ih.2.1⟩, ⟨trivial, ih.2.2⟩⟩

theorem rep_chrs (n : Nat) : valL (List.replicate n (.chr 32)) = List.replicate n (.chr 32) ∧
    blankL (List.replicate n (.chr 32)) ∧ wfL (List.replicate n (.chr 32)) := by
  induction n with
  | zero => exact ⟨rfl, trivial, trivial⟩
  | succ n ih =>
    rw [List.replicate_succ, List.replicate_succ]
    exact ⟨by rw [valL, ih.1, val], ⟨rfl, ih.2.1⟩, ⟨trivial, ih.2.2⟩⟩

theorem blank_withFill {reuse squoze : Bool} {sh k xf els} {f : Option V} (h : blankL els) :
    blank (withFill reuse squoze (.arr sh k xf els) f) := by
  unfold withFill
  simp only
  split
  · exact h
  · split
    · exact h
    · split
      · exact h
      · split
        · exact h
        · split
          · exact h
          · split
            · exact h
            · split <;> exact h

theorem asFill_any {sh : List Nat} {k : Kind} {f : Option V} {els : List V}
    (hk : k = .harr ∨ k = .farr) : asFill (.arr sh k f els) =
      (asFillL els).map fun r =>
        withFill true false (.arr sh .harr none r) (getFill (.arr sh k f els)) := by
  rcases hk with rfl | rfl <;> rw [asFill] <;> first | (intro h; cases h; done) | (cases asFillL els <;> rfl)

/-- What `asFill` gives. -/
def Made (x : V) (r : Option V) : Prop :=
  r.map val = proto (val x) ∧ ∀ (f : V), r = some f → blank f ∧ wf f ∧ fillVal f = fillVal x

theorem made_any {sh k f els} (h : wf (.arr sh k f els))
    (hl : (asFillL els).map valL = protoL (valL els) ∧
      ∀ (r : List V), asFillL els = some r → blankL r ∧ wfL r ∧ r.length = els.length)
    (hn : getFill (.arr sh k f els) = none → fillVal (.arr sh k f els) = none) :
    Made (.arr sh k f els) ((asFillL els).map fun r =>
      withFill true false (.arr sh .harr none r) (getFill (.arr sh k f els))) := by
  have hg := wfO_getFill h
  rw [wf] at h
  cases e : asFillL els with
  | none =>
    rw [e] at hl
    refine ⟨?_, nofun⟩
    rw [val, proto, ← hl.1]; rfl
  | some r =>
    obtain ⟨hb, hw, hlen⟩ := hl.2 r e
    have hx : wf (.arr sh .harr none r) := by
      rw [wf]
      exact ⟨by omega, nofun, nofun, fun _ => rfl, trivial, hw⟩
    have hf := withFill_filled true false (f := getFill (.arr sh k f els)) rfl hx hg
    refine ⟨?_, ?_⟩
    · rw [val, proto, ← hl.1, e]
      exact congrArg some hf.same
    · intro g h'
      cases h'
      refine ⟨blank_withFill hb, hf.good, ?_⟩
      cases e2 : getFill (.arr sh k f els) with
      | none =>
        rw [hn e2]
        have := hf.keep e2
        rw [e2] at this
        exact this
      | some g =>
        have := hf.fill g e2
        rw [e2] at this
        rw [this, fillVal, e2]; rfl

mutual
theorem asFill_made : ∀ (x : V), wf x → Made x (asFill x)
  | .num n, _ => ⟨rfl, fun f h => by cases h; exact ⟨rfl, trivial, rfl⟩⟩
  | .chr n, _ => ⟨rfl, fun f h => by cases h; exact ⟨rfl, trivial, rfl⟩⟩
  | .fn n, _ => ⟨rfl, nofun⟩
  | .arr sh .num f els, h => by
    rw [wf] at h
    have hr := rep_nums els.length
    refine ⟨?_, ?_⟩
    · rw [asFill, val, proto, protoL_nums (h.2.1 rfl)]
      simp [val, hr.1]
    · intro g hg
      rw [asFill] at hg
      cases hg
      refine ⟨hr.2.1, ?_, rfl⟩
      rw [wf]
      refine ⟨by simpa using h.1, fun _ e he => ?_, nofun, fun _ => rfl, trivial, hr.2.2⟩
      rw [(List.mem_replicate.mp he).2]; rfl
  | .arr sh .chr f els, h => by
    rw [wf] at h
    have hr := rep_chrs els.length
    refine ⟨?_, ?_⟩
    · rw [asFill, val, proto, protoL_chrs (h.2.2.1 rfl)]
      simp [val, hr.1]
    · intro g hg
      rw [asFill] at hg
      cases hg
      refine ⟨hr.2.1, ?_, rfl⟩
      rw [wf]
      refine ⟨by simpa using h.1, nofun, fun _ e he => ?_, fun _ => rfl, trivial, hr.2.2⟩
      rw [(List.mem_replicate.mp he).2]; rfl
  | .arr sh .harr f els, h => by
    rw [asFill_any (.inl rfl)]
    exact made_any h (asFillL_made els (by rw [wf] at h; exact h.2.2.2.2.2)) (fun _ => rfl)
  | .arr sh .farr f els, h => by
    rw [asFill_any (.inr rfl)]
    exact made_any h (asFillL_made els (by rw [wf] at h; exact h.2.2.2.2.2))
      (fun e => by rw [fillVal, e]; rfl)
theorem asFillL_made : ∀ (l : List V), wfL l → (asFillL l).map valL = protoL (valL l) ∧
    ∀ (r : List V), asFillL l = some r → blankL r ∧ wfL r ∧ r.length = l.length
  | [], _ => ⟨rfl, fun r h => by cases h; exact ⟨trivial, trivial, rfl⟩⟩
  | a :: as, h => by
    obtain ⟨h1, h2⟩ := asFill_made a h.1
    obtain ⟨h3, h4⟩ := asFillL_made as h.2
    rw [asFillL, valL, protoL, ← h1, ← h3]
    cases e1 : asFill a with
    | none => exact ⟨rfl, nofun⟩
    | some b =>
      cases e2 : asFillL as with
      | none => exact ⟨rfl, nofun⟩
      | some bs =>
        refine ⟨rfl, fun r hr => ?_⟩
        cases hr
        have := h2 b e1
        have h5 := h4 bs e2
        exact ⟨⟨this.1, h5.1⟩, ⟨this.2.1, h5.2.1⟩, by simp [h5.2.2]⟩
end
end Verif.Fills
