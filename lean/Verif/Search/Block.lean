import Verif.Search.Lemmas
/-! # Lemmas: which path is taken, and what its arguments look like -/
namespace Verif.Search
open Verif

/-- What the typed paths rely on. -/
structure BlockOK (we xe : Nat) (w x : Arr) : Prop where
  wfw : WF w
  wfx : WF x
  bitw : we = 0 → ∀ a ∈ w.els, a = .int 0 ∨ a = .int 1
  bitx : xe = 0 → ∀ a ∈ x.els, a = .int 0 ∨ a = .int 1
  rngw : we ≤ 2 → ∀ a ∈ w.els, rng we (rd (width we) a)
  rngx : xe ≤ 2 → ∀ a ∈ x.els, rng xe (rd (width xe) a)
  intw : xe = 0 → we ≤ 2 → ∀ i, ∀ a ∈ w.els, (rd (width we) a = i ↔ a = .int i)
  intx : we = 0 → xe ≤ 2 → ∀ i, ∀ a ∈ x.els, (rd (width xe) a = i ↔ a = .int i)
  mtch : we ≤ 2 → xe ≤ 2 → ∀ a ∈ w.els, ∀ b ∈ x.els, (rd (width we) a = rd (width xe) b ↔ a = b)
  injx : xe ≤ 2 → ∀ a ∈ x.els, ∀ b ∈ x.els, rd (width xe) a = rd (width xe) b → a = b

theorem num_small {t : ET} {a : El} (ht : t.num = true) (h2 : t.code ≤ 2) (hf : fits t a = true) :
    ∃ i, a = .int i ∧ rng t.code i := by
  cases t <;> simp only [ET.num, ET.code] at ht h2 <;> first | omega | (cases ht; done) | skip
  all_goals
    cases a with
    | int i =>
      refine ⟨i, rfl, ?_⟩
      simp [fits, rng, ET.code] at hf ⊢
      omega
    | _ => cases hf

theorem block_num {w x : Arr} (hw : WF w) (hx : WF x) (nw : w.et.num = true) (nx : x.et.num = true) :
    BlockOK w.et.code x.et.code w x := by
  have iw : w.et.code ≤ 2 → ∀ a ∈ w.els, ∃ i, a = .int i ∧ rng w.et.code i := fun h a ha => num_small nw h (hw a ha)
  have ix : x.et.code ≤ 2 → ∀ a ∈ x.els, ∃ i, a = .int i ∧ rng x.et.code i := fun h a ha => num_small nx h (hx a ha)
  refine ⟨hw, hx, ?_, ?_, ?_, ?_, ?_, ?_, ?_, ?_⟩
  · intro h a ha
    obtain ⟨i, rfl, hr⟩ := iw (by omega) a ha
    rw [h] at hr
    rcases hr with h | h <;> simp [h]
  · intro h a ha
    obtain ⟨i, rfl, hr⟩ := ix (by omega) a ha
    rw [h] at hr
    rcases hr with h | h <;> simp [h]
  · intro h a ha
    obtain ⟨i, rfl, hr⟩ := iw h a ha
    exact hr
  · intro h a ha
    obtain ⟨i, rfl, hr⟩ := ix h a ha
    exact hr
  · intro _ h i a ha
    obtain ⟨j, rfl, hr⟩ := iw h a ha
    simp [rd]
  · intro _ h i a ha
    obtain ⟨j, rfl, hr⟩ := ix h a ha
    simp [rd]
  · intro h1 h2 a ha b hb
    obtain ⟨i, rfl, _⟩ := iw h1 a ha
    obtain ⟨j, rfl, _⟩ := ix h2 b hb
    simp [rd]
  · intro h2 a ha b hb h
    obtain ⟨i, rfl, _⟩ := ix h2 a ha
    obtain ⟨j, rfl, _⟩ := ix h2 b hb
    simpa [rd] using h

theorem rd8_rng {a : El} (h : fits .c8 a = true) : rng 1 (rd 8 a) := by
  obtain ⟨c, rfl, hc⟩ := fits_c8 h
  simp only [rng, rd, Int.bmod_def, Nat.reducePow]
  split <;> omega
theorem rd16_rng {a : El} (h : fits .c16 a = true) : rng 2 (rd 16 a) := by
  obtain ⟨c, rfl, hc⟩ := fits_c16 h
  simp only [rng, rd, Int.bmod_def, Nat.reducePow]
  split <;> omega

theorem block_c16 {w x : Arr} (hw : WF w) (hx : WF x) (cw : w.et = .c16) (cx : x.et = .c16) : BlockOK 2 2 w x := by
  refine ⟨hw, hx, nofun, nofun, ?_, ?_, nofun, nofun, ?_, ?_⟩
  · intro _ a ha
    exact rd16_rng (cw ▸ hw a ha)
  · intro _ a ha
    exact rd16_rng (cx ▸ hx a ha)
  · intro _ _ a ha b hb
    exact ⟨fun h => rd_inj16 (cw ▸ hw a ha) (cx ▸ hx b hb) h, fun h => by rw [h]⟩
  · intro _ a ha b hb h
    exact rd_inj16 (cx ▸ hx a ha) (cx ▸ hx b hb) h

theorem block_c8 {w x : Arr} (hw : WF w) (hx : WF x) (cw : w.et = .c8) (cx : x.et = .c8) : BlockOK 1 1 w x := by
  refine ⟨hw, hx, nofun, nofun, ?_, ?_, nofun, nofun, ?_, ?_⟩
  · intro _ a ha
    exact rd8_rng (cw ▸ hw a ha)
  · intro _ a ha
    exact rd8_rng (cx ▸ hx a ha)
  · intro _ _ a ha b hb
    exact ⟨fun h => rd_inj8 (cw ▸ hw a ha) (cx ▸ hx b hb) h, fun h => by rw [h]⟩
  · intro _ a ha b hb h
    exact rd_inj8 (cx ▸ hx a ha) (cx ▸ hx b hb) h

theorem WF_widen {a : Arr} (h : WF a) (t : a.et = .c8) : WF { a with et := .c16 } := by
  intro e he
  have := h e he
  rw [t] at this
  obtain ⟨c, rfl, hc⟩ := fits_c8 this
  simp [fits]; omega

theorem chr_not_num {t u : ET} {a : El} (ht : t.num = true) (hu : u.chr = true) (h1 : fits t a = true) (h2 : fits u a = true) :
    False := by
  cases t <;> simp [ET.num, ET.code] at ht <;> cases u <;> simp [ET.chr, ET.code] at hu <;> cases a <;>
    simp [fits] at h1 h2

/-- The outcomes of the type checks. -/
theorem checkChrs_spec {w x : Arr} (hw : WF w) (hx : WF x) :
    (checkChrs w x = .noneFound ∧ ∀ a ∈ w.els, a ∉ x.els) ∨
    checkChrs w x = .generic ∨
    (∃ we xe w' x', checkChrs w x = .block we xe w' x' ∧ w'.els = w.els ∧ x'.els = x.els ∧ BlockOK we xe w' x' ∧
      (w.et = x.et → we = xe)) := by
  unfold checkChrs
  by_cases nw : w.et.num = true
  · rw [if_neg (by simp [nw])]
    by_cases nx : x.et.num = true
    · rw [if_neg (by simp [nx])]
      exact Or.inr (Or.inr ⟨_, _, _, _, rfl, rfl, rfl, block_num hw hx nw nx, fun h => by rw [h]⟩)
    · rw [if_pos (by simpa using nx)]
      by_cases cx : x.et.chr = true
      · rw [if_pos cx]
        exact Or.inl ⟨rfl, fun a ha hb => chr_not_num nw cx (hw a ha) (hx a hb)⟩
      · rw [if_neg cx]
        exact Or.inr (Or.inl rfl)
  · rw [if_pos (by simpa using nw)]
    by_cases cw : w.et.chr = true
    · rw [if_pos cw]
      by_cases nx : x.et.num = true
      · rw [if_pos nx]
        exact Or.inl ⟨rfl, fun a ha hb => chr_not_num nx cw (hx a hb) (hw a ha)⟩
      · rw [if_neg nx]
        by_cases cc : w.et ≠ x.et ∧ w.et.code ≤ 6 ∧ x.et.code ≤ 6
        · rw [if_pos cc]
          have hwt : w.et = .c8 ∨ w.et = .c16 := by
            cases h : w.et <;> rw [h] at cw cc <;> simp [ET.chr, ET.code] at cw cc <;> simp
          have hxt : x.et = .c8 ∨ x.et = .c16 := by
            cases h : x.et <;> rw [h] at nx cc <;> simp [ET.num, ET.code] at nx cc <;> simp
          rcases hwt with h1 | h1 <;> rcases hxt with h2 | h2
          · exact absurd (h1.trans h2.symm) cc.1
          · rw [if_neg (by rw [h1, h2]; decide)]
            exact Or.inr (Or.inr ⟨_, _, _, _, rfl, rfl, rfl, block_c16 (WF_widen hw h1) hx rfl h2, fun _ => rfl⟩)
          · rw [if_pos (by rw [h1, h2]; decide)]
            exact Or.inr (Or.inr ⟨_, _, _, _, rfl, rfl, rfl, block_c16 hw (WF_widen hx h2) h1 rfl, fun _ => rfl⟩)
          · exact absurd (h1.trans h2.symm) cc.1
        · rw [if_neg cc]
          by_cases cx : x.et.chr = true
          · rw [if_pos cx]
            refine Or.inr (Or.inr ⟨_, _, _, _, rfl, rfl, rfl, ?_, fun h => by rw [h]⟩)
            by_cases e : w.et = x.et
            · cases h : w.et <;> rw [h] at cw <;> simp [ET.chr, ET.code] at cw
              · have := block_c8 hw hx h (e ▸ h)
                rw [← e, h]; exact this
              · have := block_c16 hw hx h (e ▸ h)
                rw [← e, h]; exact this
              · rw [← e, h]
                exact ⟨hw, hx, nofun, nofun, nofun, nofun, nofun, nofun, nofun, fun h => absurd h (by decide)⟩
            · have hbig : w.et.code - 4 = 3 ∨ x.et.code - 4 = 3 := by
                cases h : w.et <;> cases h' : x.et <;> rw [h] at cw cc e <;> rw [h'] at cx cc e <;>
                  simp [ET.chr, ET.code] at cw cx cc e ⊢
              refine ⟨hw, hx, ?_, ?_, ?_, ?_, ?_, ?_, ?_, ?_⟩
              · intro h; exfalso; cases h1 : w.et <;> rw [h1] at cw h <;> simp [ET.chr, ET.code] at cw h
              · intro h; exfalso; cases h1 : x.et <;> rw [h1] at cx h <;> simp [ET.chr, ET.code] at cx h
              · intro h a ha
                have hf := hw a ha
                cases h1 : w.et <;> rw [h1] at cw h hf <;> simp [ET.chr, ET.code] at cw h
                · exact rd8_rng hf
                · exact rd16_rng hf
              · intro h a ha
                have hf := hx a ha
                cases h1 : x.et <;> rw [h1] at cx h hf <;> simp [ET.chr, ET.code] at cx h
                · exact rd8_rng hf
                · exact rd16_rng hf
              · intro h; exfalso; cases h1 : x.et <;> rw [h1] at cx h <;> simp [ET.chr, ET.code] at cx h
              · intro h; exfalso; cases h1 : w.et <;> rw [h1] at cw h <;> simp [ET.chr, ET.code] at cw h
              · intro h1 h2; omega
              · intro h a ha b hb hr
                have hf := hx a ha
                have hf' := hx b hb
                cases h1 : x.et <;> rw [h1] at cx h hf hf' hr <;> simp [ET.chr, ET.code] at cx h
                · exact rd_inj8 hf hf' hr
                · exact rd_inj16 hf hf' hr
          · rw [if_neg cx]
            exact Or.inr (Or.inl rfl)
    · rw [if_neg cw]
      exact Or.inr (Or.inl rfl)

/-! ## the short paths -/

theorem shortIndex_eq (x : El) : ∀ w : List El, w ≠ [] → shortIndex x w = (w.idxOf x : Int) := by
  intro w
  induction w with
  | nil => intro h; exact absurd rfl h
  | cons a w ih =>
    intro _
    cases w with
    | nil =>
      unfold shortIndex ne
      rw [List.idxOf_cons]
      by_cases c : a = x
      · simp [c]
      · have c2 : (a == x) = false := by simpa using c
        rw [if_neg c, c2]; rfl
    | cons b w =>
      unfold shortIndex ne
      rw [ih (by simp), List.idxOf_cons (x := a)]
      by_cases c : a = x
      · simp [c]
      · have c2 : (a == x) = false := by simpa using c
        rw [if_neg c, c2, cond_false]; omega

theorem foldl_or (e : El) : ∀ (x : List El) (b : Bool),
    x.foldl (fun r v => or r (eq e v)) (if b then 1 else 0) = if b || decide (e ∈ x) then 1 else 0 := by
  intro x
  induction x with
  | nil => intro b; simp
  | cons a x ih =>
    intro b
    rw [List.foldl_cons]
    have : or (if b then 1 else 0) (eq e a) = if (b || decide (e = a)) then 1 else 0 := by
      unfold or eq
      by_cases c : e = a <;> cases b <;> simp [c]
    rw [this, ih]
    congr 1
    cases b <;> simp

theorem shortMember_eq (e : El) (x : List El) : shortMember e x = if e ∈ x then 1 else 0 := by
  cases x with
  | nil => rfl
  | cons a x =>
    show List.foldl (fun r v => or r (eq e v)) (eq e a) x = _
    have : eq e a = if decide (e = a) then 1 else 0 := by unfold eq; simp
    rw [this, foldl_or]
    by_cases c : e = a <;> simp [c]

/-- a list of two values, not empty -/
theorem two_valued {l : List El} {p q : El} (hne : l ≠ []) (hpq : p ≠ q) (h : ∀ a ∈ l, a = p ∨ a = q) (d : El) (e : El) :
    let w0 := l.headD d
    let w1 := if w0 = p then q else p
    (l.idxOf e : Int) = if e = w0 then 0 else if e = w1 then (l.idxOf w1 : Int) else l.length := by
  cases l with
  | nil => exact absurd rfl hne
  | cons a l =>
    show (List.idxOf e (a :: l) : Int) = if e = a then 0 else if e = (if a = p then q else p) then
      (List.idxOf (if a = p then q else p) (a :: l) : Int) else ((a :: l).length : Int)
    by_cases c : e = a
    · subst c; simp
    · rw [if_neg c]
      by_cases c2 : e = (if a = p then q else p)
      · rw [if_pos c2, ← c2]
      · rw [if_neg c2, List.idxOf_eq_length]
        intro hm
        rcases h e hm with h1 | h1
        · rcases h a (by simp) with h2 | h2
          · exact c (h1.trans h2.symm)
          · apply c2; rw [if_neg (by rw [h2]; exact fun h => hpq h.symm)]; exact h1
        · rcases h a (by simp) with h2 | h2
          · apply c2; rw [if_pos h2]; exact h1
          · exact c (h1.trans h2.symm)

end Verif.Search
