import Verif.File.Model
import Verif.Utf8.Props
/-!
# Files, lines and paths: proofs
-/
namespace Verif.File
open Verif.Utf8 (Byte Code Out utf8Decode toUTF8)

/-! ## Lines -/

section
variable {α : Type} {a b : α}

theorem mem_takeWhile (p : α → Bool) (l : List α) {c : α} (h : c ∈ l.takeWhile p) : p c = true := by
  induction l with
  | nil => cases h
  | cons d l ih =>
    rw [List.takeWhile_cons] at h
    cases hd : p d with
    | false => rw [hd] at h; cases h
    | true =>
      rw [hd] at h
      rcases List.mem_cons.1 h with rfl | h
      · exact hd
      · exact ih h

/-- Everything has lines. -/
theorem lines_some [DecidableEq α] (a b : α) (hab : a ≠ b) : ∀ (n : Nat) (p : List α), p.length ≤ n → ∃ ls, Lines a b p ls := by
  intro n
  induction n with
  | zero =>
    intro p hp
    cases p with
    | nil => exact ⟨[], .nil⟩
    | cons _ _ => exact absurd hp (by simp)
  | succ n ih =>
    intro p hp
    have hsplit := List.takeWhile_append_dropWhile (p := fun c => !decide (c = a) && !decide (c = b)) (l := p)
    have hl : ∀ c ∈ p.takeWhile (fun c => !decide (c = a) && !decide (c = b)), c ≠ a ∧ c ≠ b := by
      intro c hc
      have := mem_takeWhile _ _ hc
      simpa using this
    have h1 : a ∉ p.takeWhile (fun c => !decide (c = a) && !decide (c = b)) := fun h => (hl a h).1 rfl
    have h2 : b ∉ p.takeWhile (fun c => !decide (c = a) && !decide (c = b)) := fun h => (hl b h).2 rfl
    generalize hL : p.takeWhile (fun c => !decide (c = a) && !decide (c = b)) = l at *
    cases hd : p.dropWhile (fun c => !decide (c = a) && !decide (c = b)) with
    | nil =>
      rw [hd, List.append_nil] at hsplit
      subst hsplit
      by_cases h0 : l = []
      · rw [h0]; exact ⟨[], .nil⟩
      · exact ⟨[l], .last h0 h1 h2⟩
    | cons c r =>
      rw [hd] at hsplit
      have hc : c = a ∨ c = b := by
        have := List.head?_dropWhile_not (p := fun c => !decide (c = a) && !decide (c = b)) (l := p)
        rw [hd] at this
        simp at this
        by_cases ha : c = a
        · exact .inl ha
        · exact .inr (this ha)
      have hlen : r.length ≤ n := by
        have := congrArg List.length hsplit
        rw [List.length_append, List.length_cons] at this
        omega
      rw [← hsplit]
      rcases hc with rfl | rfl
      · obtain ⟨ls, hr⟩ := ih r hlen
        exact ⟨l :: ls, .unix h1 h2 hr⟩
      · by_cases hr : r.head? = some a
        · cases r with
          | nil => cases hr
          | cons d r =>
            cases hr
            obtain ⟨ls, hr⟩ := ih r (by rw [List.length_cons] at hlen; omega)
            exact ⟨l :: ls, .windows h1 h2 hr⟩
        · obtain ⟨ls, hr'⟩ := ih r hlen
          exact ⟨l :: ls, .mac h1 h2 hr hr'⟩

theorem Lines.clean {p : List α} {ls : List (List α)} (h : Lines a b p ls) : ∀ l ∈ ls, a ∉ l ∧ b ∉ l := by
  induction h with
  | nil => intro l hl; cases hl
  | last _ h1 h2 => intro l hl; rw [List.mem_singleton] at hl; subst hl; exact ⟨h1, h2⟩
  | unix h1 h2 _ ih | windows h1 h2 _ ih | mac h1 h2 _ _ ih =>
    intro l hl
    rcases List.mem_cons.1 hl with rfl | hl
    · exact ⟨h1, h2⟩
    · exact ih l hl

theorem Lines.nil_iff {p : List α} {ls : List (List α)} (h : Lines a b p ls) : p = [] → ls = [] := by
  cases h with
  | nil => intro _; rfl
  | last h _ _ => intro h'; exact absurd h' h
  | unix _ _ _ => intro h; simp at h
  | windows _ _ _ => intro h; simp at h
  | mac _ _ _ _ => intro h; simp at h

end

/-- Not a line end. -/
def plain (b : Byte) : Bool := !isNl b && !isCr b

theorem plain_iff {b : Byte} : plain b = true ↔ b ≠ 10#8 ∧ b ≠ 13#8 := by
  simp [plain, isNl, isCr]

theorem breaks_plain (l p : List Byte) (h1 : 10#8 ∉ l) (h2 : 13#8 ∉ l) : breaks (l ++ p) = breaks p := by
  induction l with
  | nil => rfl
  | cons c l ih =>
    have hc1 : isNl c = false := by simp [isNl]; exact fun h => h1 (h ▸ List.mem_cons_self ..)
    have hc2 : isCr c = false := by simp [isCr]; exact fun h => h2 (h ▸ List.mem_cons_self ..)
    have ih := ih (fun h => h1 (List.mem_cons_of_mem _ h)) (fun h => h2 (List.mem_cons_of_mem _ h))
    rw [← ih, List.cons_append]
    cases l ++ p with
    | nil => simp [breaks, hc1, hc2]
    | cons d q => simp [breaks, hc1, hc2]

theorem breaks_nl (p : List Byte) : breaks (10#8 :: p) = 1 + breaks p := by
  cases p <;> simp [breaks, isNl]

theorem breaks_crnl (p : List Byte) : breaks (13#8 :: 10#8 :: p) = 1 + breaks p := by
  simp [breaks, isNl, isCr]

theorem breaks_cr (p : List Byte) (h : p.head? ≠ some 10#8) : breaks (13#8 :: p) = 1 + breaks p := by
  cases p with
  | nil => simp [breaks, isNl, isCr]
  | cons c p =>
    have : isNl c = false := by simpa [isNl] using h
    simp only [breaks, this]
    simp [isNl, isCr]

/-- What is added for the last line. -/
def rest (p : List Byte) : Nat :=
  match p.getLast? with
  | none => 0
  | some b => if !isNl b && !isCr b then 1 else 0

theorem rest_append (l p : List Byte) (c : Byte) (hc : plain c = false) : rest (l ++ c :: p) = rest p := by
  unfold rest
  rw [List.getLast?_append, List.getLast?_cons]
  cases hp : p.getLast? with
  | none =>
    have hc : (!isNl c && !isCr c) = false := hc
    simp [hc]
  | some d => simp

/-- As many as there are. -/
theorem lineCount_eq {p : List Byte} {ls : List (List Byte)} (h : Lines 10#8 13#8 p ls) : lineCount p = ls.length := by
  show breaks p + rest p = _
  induction h with
  | nil => rfl
  | @last l h0 h1 h2 =>
    have e := breaks_plain l [] h1 h2
    rw [List.append_nil] at e
    have : rest l = 1 := by
      unfold rest
      have hm := List.getLast_mem h0
      rw [List.getLast?_eq_some_getLast h0]
      have : plain (l.getLast h0) = true := plain_iff.2 ⟨fun h => h1 (h ▸ hm), fun h => h2 (h ▸ hm)⟩
      have this : (!isNl (l.getLast h0) && !isCr (l.getLast h0)) = true := this
      dsimp only
      rw [this]; rfl
    rw [e, this]; rfl
  | @unix l p ls h1 h2 _ ih =>
    rw [breaks_plain _ _ h1 h2, breaks_nl, rest_append _ _ _ (by decide), Nat.add_assoc, ih, List.length_cons]; omega
  | @windows l p ls h1 h2 _ ih =>
    rw [breaks_plain _ _ h1 h2, breaks_crnl, show l ++ 13#8 :: 10#8 :: p = (l ++ [13#8]) ++ 10#8 :: p by simp, rest_append _ _ _ (by decide), Nat.add_assoc, ih, List.length_cons]; omega
  | @mac l p ls h1 h2 h3 _ ih =>
    rw [breaks_plain _ _ h1 h2, breaks_cr _ h3, rest_append _ _ _ (by decide), Nat.add_assoc, ih, List.length_cons]; omega

/-- Decoding one after the other. -/
def decodeAll : List (List Byte) → Out (List (List Code))
  | [] => .ok []
  | l :: ls => (utf8Decode l).bind fun t => (decodeAll ls).bind fun ts => .ok (t :: ts)

theorem take_plain (l r : List Byte) (h1 : 10#8 ∉ l) (h2 : 13#8 ∉ l) (hr : ∀ c, r.head? = some c → plain c = false) : (l ++ r).takeWhile (fun b => !isNl b && !isCr b) = l := by
  rw [List.takeWhile_append_of_pos (p := fun b => !isNl b && !isCr b) (fun c hc => plain_iff.2 ⟨fun h => h1 (h ▸ hc), fun h => h2 (h ▸ hc)⟩)]
  cases r with
  | nil => simp
  | cons c r =>
    have : (!isNl c && !isCr c) = false := hr c rfl
    rw [List.takeWhile_cons, this]
    simp

/-- Reading from somewhere on. -/
theorem readLines_eq {q : List Byte} {ls : List (List Byte)} (h : Lines 10#8 13#8 q ls) : ∀ (s : List Byte), readLines (s ++ q) ls.length s.length = decodeAll ls := by
  have step : ∀ (s l r : List Byte) (k n : Nat), 10#8 ∉ l → 13#8 ∉ l → (∀ c, r.head? = some c → plain c = false) →
      (if (r[0]?.map isCr) = some true ∧ (r[1]?.map isNl) = some true then 2 else 1) = n →
      readLines (s ++ (l ++ r)) (k + 1) s.length = (utf8Decode l).bind fun t => (readLines (s ++ (l ++ r)) k (s.length + l.length + n)).bind fun ts => .ok (t :: ts) := by
    intro s l r k n h1 h2 hr hn
    rw [readLines, if_neg (by rw [List.length_append]; omega)]
    dsimp only
    rw [List.drop_left, take_plain l r h1 h2 hr]
    have g : ∀ j : Nat, (s ++ (l ++ r))[s.length + l.length + j]? = r[j]? := by
      intro j
      rw [← List.append_assoc, List.getElem?_append_right (by rw [List.length_append]; omega)]
      congr 1
      rw [List.length_append]; omega
    have g0 := g 0
    rw [Nat.add_zero] at g0
    rw [g0, g 1, ← hn]
    by_cases hc : (r[0]?.map isCr) = some true ∧ (r[1]?.map isNl) = some true
    · rw [if_pos hc, if_pos hc]
    · rw [if_neg hc, if_neg hc]
  induction h with
  | nil => intro s; rfl
  | @last l h0 h1 h2 =>
    intro s
    have := step s l [] 0 1 h1 h2 (fun c h => by cases h) rfl
    rw [List.append_nil] at this
    rw [List.length_singleton, this]; rfl
  | @unix l p ls h1 h2 _ ih =>
    intro s
    rw [List.length_cons, step s l (10#8 :: p) ls.length 1 h1 h2 (fun c h => by cases h; decide) (if_neg fun h => absurd (show some false = some true from h.1) (by decide))]
    have := ih (s ++ (l ++ [10#8]))
    rw [show (s ++ (l ++ [10#8])) ++ p = s ++ (l ++ 10#8 :: p) by simp, show (s ++ (l ++ [10#8])).length = s.length + l.length + 1 by simp; omega] at this
    rw [this]; rfl
  | @windows l p ls h1 h2 _ ih =>
    intro s
    rw [List.length_cons, step s l (13#8 :: 10#8 :: p) ls.length 2 h1 h2 (fun c h => by cases h; decide) (if_pos ⟨rfl, rfl⟩)]
    have := ih (s ++ (l ++ [13#8, 10#8]))
    rw [show (s ++ (l ++ [13#8, 10#8])) ++ p = s ++ (l ++ 13#8 :: 10#8 :: p) by simp, show (s ++ (l ++ [13#8, 10#8])).length = s.length + l.length + 2 by simp; omega] at this
    rw [this]; rfl
  | @mac l p ls h1 h2 h3 _ ih =>
    intro s
    rw [List.length_cons, step s l (13#8 :: p) ls.length 1 h1 h2 (fun c h => by cases h; decide) (if_neg (by
      intro h
      have h : p[0]?.map isNl = some true := h.2
      rw [← List.head?_eq_getElem?] at h
      cases hp : p.head? with
      | none => rw [hp] at h; cases h
      | some c =>
        rw [hp] at h
        have : c = 10#8 := by simpa [isNl] using h
        exact h3 (by rw [hp, this])))]
    have := ih (s ++ (l ++ [13#8]))
    rw [show (s ++ (l ++ [13#8])) ++ p = s ++ (l ++ 13#8 :: p) by simp, show (s ++ (l ++ [13#8])).length = s.length + l.length + 1 by simp; omega] at this
    rw [this]; rfl

theorem pathLines_eq {p : List Byte} {ls : List (List Byte)} (h : Lines 10#8 13#8 p ls) : pathLines p = decodeAll ls := by
  unfold pathLines
  rw [lineCount_eq h]
  exact readLines_eq h []

/-- There's only one way. -/
theorem lines_unique {α : Type} {a b : α} (hab : a ≠ b) {p : List α} {ls : List (List α)} (h : Lines a b p ls) : ∀ {ls'}, Lines a b p ls' → ls = ls' := by
  have cut : ∀ (l r l' r' : List α), l ++ r = l' ++ r' → a ∉ l → b ∉ l → a ∉ l' → b ∉ l' → (∀ c, r.head? = some c → c = a ∨ c = b) → (∀ c, r'.head? = some c → c = a ∨ c = b) → l = l' ∧ r = r' := by
    intro l
    induction l with
    | nil =>
      intro r l' r' h _ _ ha' hb' hr _
      cases l' with
      | nil => exact ⟨rfl, h⟩
      | cons c l' =>
        exfalso
        have h : r = c :: (l' ++ r') := h
        rcases hr c (by rw [h]; rfl) with rfl | rfl
        · exact ha' (List.mem_cons_self ..)
        · exact hb' (List.mem_cons_self ..)
    | cons d l ih =>
      intro r l' r' h ha hb ha' hb' hr hr'
      cases l' with
      | nil =>
        exfalso
        have h : d :: (l ++ r) = r' := h
        rcases hr' d (by rw [← h]; rfl) with rfl | rfl
        · exact ha (List.mem_cons_self ..)
        · exact hb (List.mem_cons_self ..)
      | cons c l' =>
        rw [List.cons_append, List.cons_append] at h
        obtain ⟨rfl, h'⟩ := List.cons.inj h
        obtain ⟨rfl, h''⟩ := ih r l' r' h' (fun h => ha (List.mem_cons_of_mem _ h)) (fun h => hb (List.mem_cons_of_mem _ h)) (fun h => ha' (List.mem_cons_of_mem _ h)) (fun h => hb' (List.mem_cons_of_mem _ h)) hr hr'
        exact ⟨rfl, h''⟩
  -- the first line and what follows it
  have view : ∀ {p ls}, Lines a b p ls → (p = [] ∧ ls = []) ∨ ∃ l r ls', p = l ++ r ∧ ls = l :: ls' ∧ a ∉ l ∧ b ∉ l ∧ (∀ c, r.head? = some c → c = a ∨ c = b) := by
    intro p ls h
    cases h with
    | nil => exact .inl ⟨rfl, rfl⟩
    | last _ h1 h2 => exact .inr ⟨_, [], [], by rw [List.append_nil], rfl, h1, h2, fun c h => by cases h⟩
    | unix h1 h2 _ => exact .inr ⟨_, _, _, rfl, rfl, h1, h2, fun c h => by cases h; exact .inl rfl⟩
    | windows h1 h2 _ => exact .inr ⟨_, _, _, rfl, rfl, h1, h2, fun c h => by cases h; exact .inr rfl⟩
    | mac h1 h2 _ _ => exact .inr ⟨_, _, _, rfl, rfl, h1, h2, fun c h => by cases h; exact .inr rfl⟩
  induction h with
  | nil => intro ls' h'; exact (h'.nil_iff rfl).symm
  | @last l h0 h1 h2 =>
    intro ls' h'
    cases h' with
    | nil => exact absurd rfl h0
    | last _ _ _ => rfl
    | unix _ _ _ => exact absurd (by simp) h1
    | windows _ _ _ => exact absurd (by simp) h2
    | mac _ _ _ _ => exact absurd (by simp) h2
  | @unix l p ls h1 h2 _ ih =>
    intro ls' h'
    generalize hq : l ++ a :: p = q at h'
    cases h' with
    | nil => simp at hq
    | last _ h3 _ => subst hq; exact absurd (by simp) h3
    | unix h3 h4 hp =>
      obtain ⟨rfl, e⟩ := cut _ _ _ _ hq h1 h2 h3 h4 (fun c h => by cases h; exact .inl rfl) (fun c h => by cases h; exact .inl rfl)
      cases e
      rw [ih hp]
    | windows h3 h4 hp =>
      obtain ⟨rfl, e⟩ := cut _ _ _ _ hq h1 h2 h3 h4 (fun c h => by cases h; exact .inl rfl) (fun c h => by cases h; exact .inr rfl)
      exact absurd (List.cons.inj e).1 hab
    | mac h3 h4 _ hp =>
      obtain ⟨rfl, e⟩ := cut _ _ _ _ hq h1 h2 h3 h4 (fun c h => by cases h; exact .inl rfl) (fun c h => by cases h; exact .inr rfl)
      exact absurd (List.cons.inj e).1 hab
  | @windows l p ls h1 h2 _ ih =>
    intro ls' h'
    generalize hq : l ++ b :: a :: p = q at h'
    cases h' with
    | nil => simp at hq
    | last _ h3 _ => subst hq; exact absurd (by simp) h3
    | unix h3 h4 hp =>
      obtain ⟨rfl, e⟩ := cut _ _ _ _ hq h1 h2 h3 h4 (fun c h => by cases h; exact .inr rfl) (fun c h => by cases h; exact .inl rfl)
      exact absurd (List.cons.inj e).1.symm hab
    | windows h3 h4 hp =>
      obtain ⟨rfl, e⟩ := cut _ _ _ _ hq h1 h2 h3 h4 (fun c h => by cases h; exact .inr rfl) (fun c h => by cases h; exact .inr rfl)
      cases e
      rw [ih hp]
    | mac h3 h4 h5 hp =>
      obtain ⟨rfl, e⟩ := cut _ _ _ _ hq h1 h2 h3 h4 (fun c h => by cases h; exact .inr rfl) (fun c h => by cases h; exact .inr rfl)
      exact absurd (by rw [← (List.cons.inj e).2]; rfl) h5
  | @mac l p ls h1 h2 h6 _ ih =>
    intro ls' h'
    generalize hq : l ++ b :: p = q at h'
    cases h' with
    | nil => simp at hq
    | last _ _ h3 => subst hq; exact absurd (by simp) h3
    | unix h3 h4 hp =>
      obtain ⟨rfl, e⟩ := cut _ _ _ _ hq h1 h2 h3 h4 (fun c h => by cases h; exact .inr rfl) (fun c h => by cases h; exact .inl rfl)
      exact absurd (List.cons.inj e).1.symm hab
    | windows h3 h4 hp =>
      obtain ⟨rfl, e⟩ := cut _ _ _ _ hq h1 h2 h3 h4 (fun c h => by cases h; exact .inr rfl) (fun c h => by cases h; exact .inr rfl)
      exact absurd (by rw [(List.cons.inj e).2]; rfl) h6
    | mac h3 h4 h5 hp =>
      obtain ⟨rfl, e⟩ := cut _ _ _ _ hq h1 h2 h3 h4 (fun c h => by cases h; exact .inr rfl) (fun c h => by cases h; exact .inr rfl)
      cases e
      rw [ih hp]

/-! ## Text -/

theorem toUTF8_append (x y : List Code) : toUTF8 (x ++ y) = toUTF8 x ++ toUTF8 y := by
  unfold toUTF8; rw [List.flatMap_append]

theorem toUTF8_cons (c : Code) (y : List Code) : toUTF8 (c :: y) = Utf8.utf8_w c ++ toUTF8 y := rfl

/-- Bytes below 128 are only in the encoding of the same code. -/
theorem utf8_w_ascii {c : Code} (hc : c.toNat < 2^21) {b : Byte} (hb : b.toNat < 128) (h : b ∈ Utf8.utf8_w c) : b.toNat = c.toNat := by
  have e := Utf8.nats_utf8_w c hc
  have hm : b.toNat ∈ Utf8.nats (Utf8.utf8_w c) := List.mem_map.2 ⟨b, h, rfl⟩
  rw [e] at hm
  by_cases h1 : c.toNat < 128
  · rw [if_pos h1] at hm; simpa using hm
  · exfalso
    rw [if_neg h1] at hm
    by_cases h2 : c.toNat < 0x800
    · rw [if_pos h2] at hm; simp at hm; omega
    · rw [if_neg h2] at hm
      by_cases h3 : c.toNat < 0x10000
      · rw [if_pos h3] at hm; simp at hm; omega
      · rw [if_neg h3] at hm; simp at hm; omega

theorem toUTF8_ascii {l : List Code} (hl : ∀ c ∈ l, c.toNat < 2^21) {b : Byte} (hb : b.toNat < 128) (h : b ∈ toUTF8 l) : ∃ c ∈ l, b.toNat = c.toNat := by
  obtain ⟨c, hc, h⟩ := List.mem_flatMap.1 h
  exact ⟨c, hc, utf8_w_ascii (hl c hc) hb h⟩

theorem no_break {l : List Code} (hl : ∀ c ∈ l, c.toNat < 2^21) {k : Nat} (hk : k < 128) (h : BitVec.ofNat 32 k ∉ l) : BitVec.ofNat 8 k ∉ toUTF8 l := by
  intro hm
  have e : (BitVec.ofNat 8 k).toNat = k := by rw [BitVec.toNat_ofNat, Nat.mod_eq_of_lt (by omega)]
  obtain ⟨c, hc, h2⟩ := toUTF8_ascii hl (by rw [e]; exact hk) hm
  apply h
  have : BitVec.ofNat 32 k = c := by
    apply BitVec.eq_of_toNat_eq
    rw [BitVec.toNat_ofNat, Nat.mod_eq_of_lt (by omega), ← h2, e]
  rw [this]; exact hc

theorem lenOf_pos (c : Code) : 1 ≤ Utf8.lenOf c := by
  unfold Utf8.lenOf
  split
  · exact Nat.le_refl _
  · split
    · decide
    · split <;> decide

/-- Lines of text are lines of its bytes. -/
theorem lines_encode {cs : List Code} {ts : List (List Code)} (h : Lines 10#32 13#32 cs ts) (hc : ∀ c ∈ cs, c.toNat < 2^21) : Lines 10#8 13#8 (toUTF8 cs) (ts.map toUTF8) := by
  have e1 : toUTF8 [10#32] = [10#8] := by decide
  have e2 : toUTF8 [13#32] = [13#8] := by decide
  have nn : ∀ l : List Code, (∀ c ∈ l, c.toNat < 2^21) → 10#32 ∉ l → 13#32 ∉ l → 10#8 ∉ toUTF8 l ∧ 13#8 ∉ toUTF8 l := by
    intro l hl h1 h2
    exact ⟨no_break (k := 10) hl (by decide) h1, no_break (k := 13) hl (by decide) h2⟩
  induction h with
  | nil => exact .nil
  | @last l h0 h1 h2 =>
    obtain ⟨g1, g2⟩ := nn l hc h1 h2
    refine .last ?_ g1 g2
    intro he
    have : l.length ≤ (toUTF8 l).length := by
      clear hc h0 h1 h2 g1 g2 he
      induction l with
      | nil => exact Nat.le_refl _
      | cons c l ih =>
        rw [toUTF8_cons, List.length_append, List.length_cons, Utf8.length_utf8_w]
        have := lenOf_pos c
        omega
    rw [he] at this
    exact h0 (List.eq_nil_of_length_eq_zero (Nat.le_zero.1 this))
  | @unix l p ls h1 h2 _ ih =>
    obtain ⟨g1, g2⟩ := nn l (fun c h => hc c (List.mem_append_left _ h)) h1 h2
    rw [toUTF8_append, show (10#32 :: p) = [10#32] ++ p from rfl, toUTF8_append, e1]
    exact .unix g1 g2 (ih fun c h => hc c (List.mem_append_right _ (List.mem_cons_of_mem _ h)))
  | @windows l p ls h1 h2 _ ih =>
    obtain ⟨g1, g2⟩ := nn l (fun c h => hc c (List.mem_append_left _ h)) h1 h2
    rw [toUTF8_append, show (13#32 :: 10#32 :: p) = [13#32] ++ ([10#32] ++ p) from rfl, toUTF8_append, toUTF8_append, e1, e2]
    exact .windows g1 g2 (ih fun c h => hc c (List.mem_append_right _ (List.mem_cons_of_mem _ (List.mem_cons_of_mem _ h))))
  | @mac l p ls h1 h2 h3 _ ih =>
    obtain ⟨g1, g2⟩ := nn l (fun c h => hc c (List.mem_append_left _ h)) h1 h2
    have hp : ∀ c ∈ p, c.toNat < 2^21 := fun c h => hc c (List.mem_append_right _ (List.mem_cons_of_mem _ h))
    rw [toUTF8_append, show (13#32 :: p) = [13#32] ++ p from rfl, toUTF8_append, e2]
    refine .mac g1 g2 ?_ (ih hp)
    cases p with
    | nil => intro h; cases h
    | cons c p =>
      intro h
      have hw : 10#8 ∈ Utf8.utf8_w c := by
        rw [toUTF8_cons] at h
        cases hw : Utf8.utf8_w c with
        | nil => have := congrArg List.length hw; rw [Utf8.length_utf8_w] at this; have h1 := lenOf_pos c; rw [this] at h1; exact absurd h1 (by decide)
        | cons d w =>
          rw [hw] at h
          cases h
          exact List.mem_cons_self ..
      have := utf8_w_ascii (hp c (List.mem_cons_self ..)) (by decide) hw
      apply h3
      show some c = some 10#32
      congr 1
      exact BitVec.eq_of_toNat_eq this.symm

theorem decodeAll_encode {ts : List (List Code)} (h : ∀ t ∈ ts, ∀ c ∈ t, c.toNat < 2^21) : decodeAll (ts.map toUTF8) = .ok ts := by
  induction ts with
  | nil => rfl
  | cons t ts ih =>
    show (utf8Decode (toUTF8 t)).bind _ = _
    rw [Utf8.decode_encode t (h t (List.mem_cons_self ..))]
    dsimp only [Out.bind]
    rw [ih fun t ht => h t (List.mem_cons_of_mem _ ht)]

theorem Lines.mem {α : Type} {a b : α} {p : List α} {ls : List (List α)} (h : Lines a b p ls) : ∀ l ∈ ls, ∀ c ∈ l, c ∈ p := by
  induction h with
  | nil => intro l hl; cases hl
  | last _ _ _ => intro l hl; rw [List.mem_singleton] at hl; subst hl; exact fun c h => h
  | unix _ _ _ ih | mac _ _ _ _ ih =>
    intro l hl c hc
    rcases List.mem_cons.1 hl with rfl | hl
    · exact List.mem_append_left _ hc
    · exact List.mem_append_right _ (List.mem_cons_of_mem _ (ih l hl c hc))
  | windows _ _ _ ih =>
    intro l hl c hc
    rcases List.mem_cons.1 hl with rfl | hl
    · exact List.mem_append_left _ hc
    · exact List.mem_append_right _ (List.mem_cons_of_mem _ (List.mem_cons_of_mem _ (ih l hl c hc)))

/-- What's written, before it's encoded. -/
theorem writeLines_eq (ts : List (List Code)) : writeLines ts = toUTF8 (ts.flatMap (· ++ [10#32])) := by
  unfold writeLines
  congr 1
  have : ∀ (ts : List (List Code)) s, ts.foldl (fun s l => (s ++ l) ++ [10#32]) s = s ++ ts.flatMap (· ++ [10#32]) := by
    intro ts
    induction ts with
    | nil => intro s; simp
    | cons t ts ih => intro s; rw [List.foldl_cons, ih, List.flatMap_cons]; simp
  rw [this, List.nil_append]

theorem lines_written {α : Type} {a b : α} (ts : List (List α)) (h : ∀ t ∈ ts, a ∉ t ∧ b ∉ t) : Lines a b (ts.flatMap (· ++ [a])) ts := by
  induction ts with
  | nil => exact .nil
  | cons t ts ih =>
    rw [List.flatMap_cons, List.append_assoc]
    have := h t (List.mem_cons_self ..)
    exact .unix this.1 this.2 (ih fun t ht => h t (List.mem_cons_of_mem _ ht))

/-! ## Paths -/

theorem lastSep_some {p : List Nat} : ∀ {k i : Nat}, lastSep p k = some i → i < k ∧ p[i]? = some sep ∧ ∀ j, i < j → j < k → p[j]? ≠ some sep := by
  intro k
  induction k with
  | zero => intro i h; cases h
  | succ k ih =>
    intro i h
    rw [lastSep] at h
    by_cases hk : (p[k]?.map isSep) = some true
    · rw [if_pos hk] at h
      cases h
      refine ⟨Nat.lt_succ_self _, ?_, fun j h1 h2 => by omega⟩
      cases hp : p[k]? with
      | none => rw [hp] at hk; cases hk
      | some c =>
        rw [hp] at hk
        have : c = 47 := by simpa [isSep] using hk
        rw [this]
    · rw [if_neg hk] at h
      obtain ⟨h1, h2, h3⟩ := ih h
      refine ⟨by omega, h2, fun j hj hj' => ?_⟩
      by_cases e : j = k
      · subst e
        intro hs
        rw [hs] at hk
        exact hk rfl
      · exact h3 j hj (by omega)

theorem lastSep_none {p : List Nat} : ∀ {k : Nat}, lastSep p k = none → ∀ j, j < k → p[j]? ≠ some sep := by
  intro k
  induction k with
  | zero => intro _ j h; omega
  | succ k ih =>
    intro h j hj
    rw [lastSep] at h
    by_cases hk : (p[k]?.map isSep) = some true
    · rw [if_pos hk] at h; cases h
    · rw [if_neg hk] at h
      by_cases e : j = k
      · subst e
        intro hs
        rw [hs] at hk
        exact hk rfl
      · exact ih h j (by omega)

/-- Names: after the last separator. -/
theorem lastSep_append (d n : List Nat) (hn : sep ∉ n) : ∀ k, d.length < k → k ≤ (d ++ sep :: n).length → lastSep (d ++ sep :: n) k = some d.length := by
  intro k
  induction k with
  | zero => intro h; omega
  | succ k ih =>
    intro h1 h2
    rw [lastSep]
    by_cases e : k = d.length
    · subst e
      rw [if_pos (by rw [List.getElem?_append_right (Nat.le_refl _), Nat.sub_self]; rfl)]
    · rw [if_neg, ih (by omega) (by omega)]
      rw [List.getElem?_append_right (by omega)]
      obtain ⟨j, hj⟩ : ∃ j, k - d.length = j + 1 := ⟨k - d.length - 1, by omega⟩
      rw [hj, List.getElem?_cons_succ]
      intro h
      cases hg : n[j]? with
      | none => rw [hg] at h; cases h
      | some c =>
        rw [hg] at h
        have : c = sep := by simpa [isSep] using h
        exact hn (this ▸ List.mem_of_getElem? hg)

theorem lastSep_no {p : List Nat} (h : sep ∉ p) : ∀ k, lastSep p k = none := by
  intro k
  induction k with
  | zero => rfl
  | succ k ih =>
    rw [lastSep, if_neg, ih]
    intro hk
    cases hg : p[k]? with
    | none => rw [hg] at hk; cases hk
    | some c =>
      rw [hg] at hk
      have : c = sep := by simpa [isSep] using hk
      exact h (this ▸ List.mem_of_getElem? hg)

end Verif.File
