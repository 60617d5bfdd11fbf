import Verif.File.Main
/-!
# C61: Files, lines and paths
-/
namespace Verif.File
open Verif.Utf8 (Byte Code Out utf8Decode toUTF8)

/-! ## Lines -/

/-- Every sequence of bytes or characters has lines, in one way. -/
theorem lines_exist {α : Type} [DecidableEq α] (a b : α) (h : a ≠ b) (p : List α) : ∃ ls, Lines a b p ls ∧ ∀ ls', Lines a b p ls' → ls' = ls := by
  obtain ⟨ls, hl⟩ := lines_some a b h p.length p (Nat.le_refl _)
  exact ⟨ls, hl, fun ls' h' => lines_unique h h' hl⟩

/-- Reading the lines of any file gives the texts that its lines encode. -/
theorem lines_read {p : List Byte} {ls : List (List Byte)} (h : Lines 10#8 13#8 p ls) {ts : List (List Code)} :
    pathLines p = .ok ts ↔ ls.length = ts.length ∧ ∀ (i : Nat) (l : List Byte) (t : List Code), ls[i]? = some l → ts[i]? = some t → Utf8.Spec.Text (l.map BitVec.toNat) (t.map BitVec.toNat) := by
  rw [pathLines_eq h]
  clear h
  induction ls generalizing ts with
  | nil =>
    cases ts with
    | nil => exact ⟨fun _ => ⟨rfl, fun i l t h => by cases h⟩, fun _ => rfl⟩
    | cons _ _ => exact ⟨(fun h => by cases h), (fun h => absurd h.1 (by simp))⟩
  | cons l ls ih =>
    rw [decodeAll]
    cases ts with
    | nil =>
      refine ⟨fun h => ?_, fun h => absurd h.1 (by simp)⟩
      cases hd : utf8Decode l <;> rw [hd] at h <;> simp [Out.bind] at h
      cases hd : decodeAll ls <;> rw [hd] at h <;> simp at h
    | cons t ts =>
      constructor
      · intro h
        cases hd : utf8Decode l with
        | ok t' =>
          rw [hd] at h
          dsimp only [Out.bind] at h
          cases hd' : decodeAll ls with
          | ok ts' =>
            rw [hd'] at h
            cases h
            obtain ⟨h1, h2⟩ := ih.1 hd'
            refine ⟨by rw [List.length_cons, List.length_cons, h1], ?_⟩
            intro i l' t' hl ht
            cases i with
            | zero => cases hl; cases ht; exact (Utf8.decode_ok_iff _ _).1 hd
            | succ i => exact h2 i l' t' hl ht
          | err => rw [hd'] at h; cases h
          | oob => rw [hd'] at h; cases h
          | ud => rw [hd'] at h; cases h
        | err => rw [hd] at h; cases h
        | oob => rw [hd] at h; cases h
        | ud => rw [hd] at h; cases h
      · rintro ⟨h1, h2⟩
        rw [(Utf8.decode_ok_iff _ _).2 (h2 0 l t rfl rfl)]
        dsimp only [Out.bind]
        rw [ih.2 ⟨Nat.succ.inj h1, fun i l t hl ht => h2 (i + 1) l t hl ht⟩]

/-- If one of them isn't text that's an error, and nothing worse. -/
theorem lines_invalid {p : List Byte} {ls : List (List Byte)} (h : Lines 10#8 13#8 p ls) (he : ∃ l ∈ ls, ¬ ∃ ns, Utf8.Spec.Text (l.map BitVec.toNat) ns) : pathLines p = .err := by
  rw [pathLines_eq h]
  clear h
  induction ls with
  | nil => obtain ⟨l, hl, _⟩ := he; cases hl
  | cons l ls ih =>
    rw [decodeAll]
    obtain ⟨g1, g2⟩ := Utf8.decode_in_bounds l
    cases hd : utf8Decode l with
    | ok t =>
      dsimp only [Out.bind]
      rw [ih]
      obtain ⟨l', hl, hn⟩ := he
      rcases List.mem_cons.1 hl with rfl | hl
      · exact absurd ⟨_, (Utf8.decode_ok_iff _ _).1 hd⟩ hn
      · exact ⟨l', hl, hn⟩
    | err => rfl
    | oob => exact absurd hd g1
    | ud => exact absurd hd g2

/-- Reading the lines of a file that contains some text gives the lines of the text. -/
theorem lines_of_text {cs : List Code} (hc : ∀ c ∈ cs, c.toNat < 2^21) {ts : List (List Code)} (h : Lines 10#32 13#32 cs ts) : pathLines (writeChars cs) = .ok ts := by
  show pathLines (toUTF8 cs) = _
  rw [pathLines_eq (lines_encode h hc), decodeAll_encode]
  intro t ht c hct
  exact hc c (h.mem t ht c hct)

/-- Lines that are written are read again exactly if there are no line ends in them. -/
theorem lines_round_trip {ts : List (List Code)} (hc : ∀ t ∈ ts, ∀ c ∈ t, c.toNat < 2^21) : pathLines (writeLines ts) = .ok ts ↔ ∀ t ∈ ts, 10#32 ∉ t ∧ 13#32 ∉ t := by
  have hall : ∀ c ∈ ts.flatMap (· ++ [10#32]), c.toNat < 2^21 := by
    intro c h
    obtain ⟨t, ht, h⟩ := List.mem_flatMap.1 h
    rcases List.mem_append.1 h with h | h
    · exact hc t ht c h
    · rw [List.mem_singleton.1 h]; decide
  rw [writeLines_eq]
  constructor
  · intro h
    obtain ⟨ts', h', _⟩ := lines_exist 10#32 13#32 (by decide) (ts.flatMap (· ++ [10#32]))
    have e := lines_of_text hall h'
    have e : Out.ok ts = .ok ts' := by rw [← h, ← e]; rfl
    cases e
    exact h'.clean
  · intro h
    exact lines_of_text hall (lines_written ts h)

/-- `"ab"`, `""`, `"é"` and no end after the last line. -/
example : Lines 10#32 13#32 [97#32, 98#32, 13#32, 10#32, 13#32, 233#32] [[97#32, 98#32], [], [233#32]] :=
  .windows (l := [97#32, 98#32]) (by decide) (by decide) (.mac (l := []) (by decide) (by decide) (by decide) (.last (by decide) (by decide) (by decide)))

example : pathLines (writeChars [97#32, 98#32, 13#32, 10#32, 13#32, 233#32]) = .ok [[97#32, 98#32], [], [233#32]] :=
  lines_of_text (by simp) (.windows (l := [97#32, 98#32]) (by decide) (by decide) (.mac (l := []) (by decide) (by decide) (by decide) (.last (by decide) (by decide) (by decide))))

example : pathLines (writeLines [[97#32], [], [233#32, 128512#32]]) = .ok [[97#32], [], [233#32, 128512#32]] := (lines_round_trip (by simp)).2 (by decide)

example : pathLines (writeLines [[97#32, 13#32]]) ≠ .ok [[97#32, 13#32]] := fun h => absurd ((lines_round_trip (by simp)).1 h) (by decide)

/-! ## Characters and bytes -/

/-- Text that is written is read again. -/
theorem chars_round_trip {cs : List Code} (hc : ∀ c ∈ cs, c.toNat < 2^21) : readChars (writeChars cs) = .ok cs := Utf8.decode_encode cs hc

example : readChars (writeChars [97#32, 233#32]) = .ok [97#32, 233#32] := chars_round_trip (by simp)

/-- What an element is as 8 bits. -/
def low8 : Elem → Nat
  | .num n => n.toNat % 256
  | .chr c => c.toNat % 256

/-- Bytes that are written are read again, as characters. -/
theorem bytes_round_trip (x : List Elem) : (readBytes (writeBytes x)).map BitVec.toNat = x.map low8 := by
  unfold readBytes writeBytes
  rw [List.map_map, List.map_map]
  apply List.map_congr_left
  intro e _
  cases e with
  | num n =>
    show ((n.setWidth 8).setWidth 32).toNat = n.toNat % 256
    rw [BitVec.toNat_setWidth, BitVec.toNat_setWidth]
    omega
  | chr c =>
    show ((c.setWidth 8).setWidth 32).toNat = c.toNat % 256
    rw [BitVec.toNat_setWidth, BitVec.toNat_setWidth]
    omega

/-- Bytes that are read are the same when written. -/
theorem bytes_copy (p : List Byte) : writeBytes ((readBytes p).map .chr) = p := by
  unfold readBytes writeBytes
  rw [List.map_map, List.map_map]
  conv => rhs; rw [← List.map_id p]
  apply List.map_congr_left
  intro b _
  show (b.setWidth 32).setWidth 8 = b
  apply BitVec.eq_of_toNat_eq
  rw [BitVec.toNat_setWidth, BitVec.toNat_setWidth]
  omega

/-- A character that isn't a byte is written as another one, without an error: `@+300` as `@+44`. -/
theorem bytes_truncated : readBytes (writeBytes [.chr 300#32]) = [44#32] := by decide

/-! ## Paths -/

/-- An absolute path is what it is. -/
theorem at_absolute (base : Option (List Nat)) (rel : List Nat) : pathRel base (sep :: rel) = some (sep :: rel) := by
  unfold pathRel
  rw [if_pos ⟨by simp, rfl⟩]

/-- A relative path needs a base. -/
theorem at_nowhere {rel : List Nat} (h : rel.head? ≠ some sep) : pathRel none rel = none := by
  unfold pathRel
  rw [if_neg]
  rintro ⟨_, h'⟩
  apply h
  unfold isAbs at h'
  cases hr : rel.head? with
  | none => rw [hr] at h'; cases h'
  | some c =>
    rw [hr] at h'
    have : c = 47 := by simpa [isSep] using h'
    rw [this]

/-- After an empty base, a path is what it is. -/
theorem at_empty_base (rel : List Nat) : pathRel (some []) rel = some rel := by
  unfold pathRel
  by_cases h : rel.length > 0 ∧ isAbs rel = some true
  · rw [if_pos h]
  · rw [if_neg h]
    cases rel <;> rfl

example : pathRel (some []) [98, 47, 99] = some [98, 47, 99] := by decide

/-- A relative path is put after the base, with one separator between them. -/
theorem at_relative {base rel : List Nat} (h : rel.head? ≠ some sep) (h0 : rel ≠ []) :
    pathRel (some (base ++ [sep])) rel = some (base ++ sep :: rel) ∧ (base ≠ [] → base.getLast? ≠ some sep → pathRel (some base) rel = some (base ++ sep :: rel)) := by
  have hl : ¬ rel.length = 0 := fun h => h0 (List.eq_nil_of_length_eq_zero h)
  have hneg : ¬ (rel.length > 0 ∧ isAbs rel = some true) := by
    rintro ⟨_, h'⟩
    apply h
    unfold isAbs at h'
    cases hr : rel.head? with
    | none => rw [hr] at h'; cases h'
    | some c =>
      rw [hr] at h'
      have : c = 47 := by simpa [isSep] using h'
      rw [this]
  unfold pathRel
  rw [if_neg hneg, if_neg hneg]
  dsimp only
  rw [if_neg hl, if_neg hl]
  constructor
  · rw [List.getLast?_append]
    simp [isSep]
  · intro hb hb'
    cases hg : base.getLast? with
    | none => exact absurd (List.getLast?_eq_none_iff.1 hg) hb
    | some c =>
      have : isSep c = false := by
        simp [isSep]
        intro e
        exact hb' (by rw [hg, e])
      simp [this]

/-- The name is what follows the last separator. -/
theorem name_last (d n : List Nat) (hn : sep ∉ n) : name (d ++ sep :: n) = if n = [] then none else some n := by
  unfold name
  have hlen : (d ++ sep :: n).length = d.length + n.length + 1 := by simp; omega
  rw [if_neg (by omega), lastSep_append d n hn _ (by omega) (Nat.le_refl _)]
  dsimp only
  by_cases h0 : n = []
  · rw [if_pos h0, if_pos (by rw [hlen, h0]; simp)]
  · have : n.length ≠ 0 := fun h => h0 (List.eq_nil_of_length_eq_zero h)
    rw [if_neg (by omega), if_neg h0, show d ++ sep :: n = (d ++ [sep]) ++ n by simp, List.drop_left' (by simp), List.take_of_length_le (by simp; omega)]

theorem name_whole {n : List Nat} (hn : sep ∉ n) (h0 : n ≠ []) : name n = some n := by
  unfold name
  rw [if_neg (fun h => h0 (List.eq_nil_of_length_eq_zero h)), lastSep_no hn]

/-- The parent is what precedes the name, with its separator. A separator at the end belongs to the name. -/
theorem parent_of (d n : List Nat) (hn : sep ∉ n) (h0 : n ≠ []) : parent (d ++ sep :: n) = some (d ++ [sep]) ∧ parent (d ++ sep :: n ++ [sep]) = some (d ++ [sep]) := by
  have hl : n.length ≠ 0 := fun h => h0 (List.eq_nil_of_length_eq_zero h)
  constructor
  · unfold parent
    have hlen : (d ++ sep :: n).length = d.length + n.length + 1 := by simp; omega
    rw [if_neg (by omega), lastSep_append d n hn _ (by omega) (by omega)]
    dsimp only
    rw [show d ++ sep :: n = (d ++ [sep]) ++ n by simp, List.take_left' (by simp)]
  · unfold parent
    have hlen : (d ++ sep :: n ++ [sep]).length = d.length + n.length + 2 := by simp; omega
    have ext : ∀ k, k ≤ (d ++ sep :: n).length → lastSep (d ++ sep :: n ++ [sep]) k = lastSep (d ++ sep :: n) k := by
      intro k
      induction k with
      | zero => intro _; rfl
      | succ k ih =>
        intro hk
        rw [lastSep, lastSep, ih (by omega), List.getElem?_append_left (by omega)]
    have hlen' : (d ++ sep :: n).length = d.length + n.length + 1 := by simp; omega
    rw [if_neg (by omega), ext _ (by omega), lastSep_append d n hn _ (by omega) (by omega)]
    dsimp only
    rw [show d ++ sep :: n ++ [sep] = (d ++ [sep]) ++ (n ++ [sep]) by simp, List.take_left' (by simp)]

/-- The parent of a name by itself is the current directory. -/
theorem parent_here {n : List Nat} (hn : sep ∉ n) (h0 : n ≠ []) : parent n = some [46, sep] ∧ parent (n ++ [sep]) = some [46, sep] := by
  have ext : ∀ k, k ≤ n.length → lastSep (n ++ [sep]) k = lastSep n k := by
    intro k
    induction k with
    | zero => intro _; rfl
    | succ k ih =>
      intro hk
      rw [lastSep, lastSep, ih (by omega), List.getElem?_append_left (by omega)]
  have ha : isAbs n ≠ some true ∧ isAbs (n ++ [sep]) ≠ some true := by
    cases n with
    | nil => exact absurd rfl h0
    | cons c n =>
      have : isSep c = false := by
        simp [isSep]
        intro e
        exact hn (e ▸ List.mem_cons_self ..)
      simp [isAbs, this]
  unfold parent
  constructor
  · rw [if_neg (fun h => h0 (List.eq_nil_of_length_eq_zero h)), lastSep_no hn]
    dsimp only
    rw [if_neg ha.1]
  · rw [if_neg (by simp), ext _ (by simp), lastSep_no hn]
    dsimp only
    rw [if_neg ha.2]

/-- The parent and the name together are the path again. -/
theorem at_parent_name (d n : List Nat) (hn : sep ∉ n) (h0 : n ≠ []) :
    (parent (d ++ sep :: n)).bind (fun p => (name (d ++ sep :: n)).bind fun n => pathRel (some p) n) = some (d ++ sep :: n) := by
  rw [(parent_of d n hn h0).1, name_last d n hn, if_neg h0]
  show pathRel (some (d ++ [sep])) n = _
  refine (at_relative ?_ h0).1
  cases n with
  | nil => exact absurd rfl h0
  | cons c n =>
    intro h
    cases h
    exact hn (List.mem_cons_self ..)

/-- `"a/b"` and `"/"` -/
example : name [97, 47, 98] = some [98] ∧ parent [97, 47, 98] = some [97, 47] ∧ parent [47] = some [47] ∧ name [97, 47] = none := by decide
example : pathRel (some [47, 97]) [98, 47, 99] = some [47, 97, 47, 98, 47, 99] ∧ pathRel (some [47, 97, 47]) [98] = some [47, 97, 47, 98] ∧ pathRel (some [47]) [] = some [47] := by decide

end Verif.File
