import Verif.Point.Lemmas
/-
C89: an error message shows the line of the error, its number, and marks below the right characters.
-/
namespace Verif.Point

/-- Every position of a text, its end included, is on a line. -/
theorem located (text : Text) (p : Nat) (h : p ≤ text.length) : ∃ pre line post, Located text pre line post p := by
  obtain ⟨a, b, h1, h2, h3⟩ := starts (text.take p)
  obtain ⟨c, d, h4, h5, h6⟩ := stops (text.drop p)
  have hl := congrArg List.length h1
  rw [List.length_take, List.length_append] at hl
  refine ⟨a, b ++ c, d, ?_, h2, ?_, h6, by omega, by rw [List.length_append]; omega⟩
  · rw [← List.take_append_drop p text, h1, h4]
    simp only [List.append_assoc]
  · intro h
    rcases List.mem_append.mp h with h | h
    · exact h3 h
    · exact h5 h

/-- For an error from `cs` up to `ce`, the message says the number of the line that has `cs`, shows that line, and marks
the characters of the error that are on it.  `s₂` is what is on the same line of the message before the line of source. -/
theorem message (digits : Nat → Text) (src prepend pre line post s₁ s₂ : Text) (path : Option Text) (cs ce : Nat)
    (h : Located src pre line post cs) (hce : cs ≤ ce)
    (hs : Located (prepend ++ header digits path (pre.count nl + 1)) s₁ s₂ [] (s₁ ++ s₂).length) :
    fmtPoint digits src prepend path cs ce =
      some (prepend ++ header digits path (pre.count nl + 1) ++ marked line pre.length s₂.length cs ce) := by
  have hb := back_ok h
  have hsb := back_ok hs
  obtain ⟨h1, h2, h3, h4, h5, h6⟩ := h
  have hlen : src.length - pre.length = line.length + post.length := by
    rw [h1, List.length_append, List.length_append]; omega
  have hf : fwd src (src.length - pre.length) pre.length = some (pre.length + line.length) := by
    rw [fwd_print src _ _ [], hlen, h1, fwdPrint_ok post h4 line pre [] h3]; rfl
  have hn : lines src pre.length 0 1 = some (1 + pre.count nl) := by
    have := lines_ok pre [] (line ++ post) 1
    rw [List.nil_append, ← List.append_assoc, ← h1] at this
    exact this
  have hd : (src.drop pre.length).take (pre.length + line.length - pre.length) = line := by
    rw [h1, List.append_assoc, List.drop_left, Nat.add_sub_cancel_left, List.take_left]
  have hhead : place digits prepend path (1 + pre.count nl) = prepend ++ header digits path (pre.count nl + 1) := by
    rw [Nat.add_comm 1]
    cases path with
    | none => rfl
    | some p => cases p with
      | nil => rfl
      | cons c p => simp [place, header, nl]
  have hl : ∀ s, lead src pre.length (cs - pre.length) 0 s = some (s ++ (line.take (cs - pre.length)).map under) := by
    intro s
    have := lead_ok pre (line.drop (cs - pre.length) ++ post) (line.take (cs - pre.length)) [] s
    rw [List.nil_append, ← List.append_assoc (line.take _), List.take_append_drop, ← List.append_assoc, ← h1, List.length_take,
      Nat.min_eq_left (by omega)] at this
    exact this
  have hlen2 := congrArg List.length hs.parts
  rw [List.append_nil] at hlen2
  unfold fmtPoint
  simp only [hb, hf, hn, Option.bind_some, hhead, hlen2, hsb, hd, hl, Option.map_some, chars_eq, marked]
  have e1 : (s₁ ++ s₂).length - s₁.length = s₂.length := by rw [List.length_append]; omega
  have e2 : (if pre.length + line.length < ce then pre.length + line.length else ce) - pre.length - (cs - pre.length) =
      min ce (pre.length + line.length) - cs := by
    split <;> omega
  rw [e1, e2]
  simp only [List.append_assoc, nl]

/-- The same for the simpler message that is printed when the first cannot be made; tabs are not kept there. -/
theorem simple_message (src pre line post : Text) (cs ce : Nat) (h : Located src pre line post cs) (hce : cs ≤ ce) :
    nativePrint src cs ce = some ([97, 116, 32] ++ line ++ [nl] ++ List.replicate (cs - pre.length + 3) 32 ++
      List.replicate (min ce (pre.length + line.length) - cs) 94 ++ [nl]) := by
  have hb := back_ok h
  obtain ⟨h1, h2, h3, h4, h5, h6⟩ := h
  have hlen : src.length - pre.length = line.length + post.length := by
    rw [h1, List.length_append, List.length_append]; omega
  have hf : fwdPrint src (src.length - pre.length) pre.length [97, 116, 32] =
      some (pre.length + line.length, [97, 116, 32] ++ line) := by
    rw [hlen, h1, fwdPrint_ok post h4 line pre _ h3]
  unfold nativePrint
  simp only [hb, hf, Option.bind_some, Option.map_some, chars_eq]
  have e2 : (if pre.length + line.length < ce then pre.length + line.length else ce) - pre.length - (cs - pre.length) =
      min ce (pre.length + line.length) - cs := by
    split <;> omega
  rw [e2]
  simp only [List.append_assoc, nl]

/-- A tab, `a`, `b`, on the second of three lines. -/
def source : Text := [120, 10, 9, 97, 98, 10, 121]

example : Located source [120, 10] [9, 97, 98] [10, 121] 3 :=
  ⟨rfl, Or.inr ⟨[120], rfl⟩, by decide, Or.inr ⟨[121], rfl⟩, by decide, by decide⟩

example : Located ([33, 10] ++ header (fun n => [48 + n]) (some [112]) 2) [33, 10, 112, 58, 50, 58, 10] [32, 32] [] 9 :=
  ⟨rfl, Or.inr ⟨[33, 10, 112, 58, 50, 58], rfl⟩, by decide, Or.inl rfl, by decide, by decide⟩

example : fmtPoint (fun n => [48 + n]) source [33, 10] (some [112]) 3 6 =
    some [33, 10, 112, 58, 50, 58, 10, 32, 32, 9, 97, 98, 10, 32, 32, 9, 94, 94] := by decide

example : nativePrint source 3 4 = some [97, 116, 32, 9, 97, 98, 10, 32, 32, 32, 32, 94, 10] := by decide

end Verif.Point
