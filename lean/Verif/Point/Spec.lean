/-
C89: what is shown of the source when there is an error.  Characters are code points.
-/
namespace Verif.Point

abbrev Text := List Nat

/-- Newline. -/
def nl : Nat := 10

/-- The text consists of whole lines, a line with position `p` on it (or at its end), and what follows that line. -/
structure Located (text pre line post : Text) (p : Nat) : Prop where
  parts : text = pre ++ line ++ post
  start : pre = [] ∨ ∃ q, pre = q ++ [nl]
  one : nl ∉ line
  stop : post = [] ∨ ∃ q, post = nl :: q
  lo : pre.length ≤ p
  hi : p ≤ pre.length + line.length

/-- What comes before the line: `at `, or the path, the number of the line, a new line and two spaces. -/
def header (digits : Nat → Text) (path : Option Text) (n : Nat) : Text :=
  match path with
  | none => [97, 116, 32]
  | some [] => [97, 116, 32]
  | some p => p ++ [58] ++ digits n ++ [58, nl, 32, 32]

/-- What is put below a character that is not marked. -/
def under (c : Nat) : Nat := if c = 9 then 9 else 32

/-- The line, and below it marks at those of its characters that are at `cs`, `cs + 1`, …, `ce - 1`, indented by as much
as the line is, which starts at `start`. -/
def marked (line : Text) (start indent cs ce : Nat) : Text :=
  line ++ [nl] ++ List.replicate indent 32 ++ (line.take (cs - start)).map under ++
    List.replicate (min ce (start + line.length) - cs) 94

end Verif.Point
