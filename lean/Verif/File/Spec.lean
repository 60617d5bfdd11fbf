/-!
# Files, lines and paths: specification
-/
namespace Verif.File

/-- `ls` are the lines of `p`: each is ended by `nl`, by `cr` followed by `nl`, or by `cr` that isn't followed by `nl`, and they don't contain these. The end of the last one may be missing if it isn't empty. -/
inductive Lines {α : Type} (nl cr : α) : List α → List (List α) → Prop
  | nil : Lines nl cr [] []
  | last {l : List α} : l ≠ [] → nl ∉ l → cr ∉ l → Lines nl cr l [l]
  | unix {l p : List α} {ls : List (List α)} : nl ∉ l → cr ∉ l → Lines nl cr p ls → Lines nl cr (l ++ nl :: p) (l :: ls)
  | windows {l p : List α} {ls : List (List α)} : nl ∉ l → cr ∉ l → Lines nl cr p ls → Lines nl cr (l ++ cr :: nl :: p) (l :: ls)
  | mac {l p : List α} {ls : List (List α)} : nl ∉ l → cr ∉ l → p.head? ≠ some nl → Lines nl cr p ls → Lines nl cr (l ++ cr :: p) (l :: ls)

/-- Newline and carriage return. -/
abbrev nl : Nat := 10
abbrev cr : Nat := 13

/-- The separator of paths. -/
abbrev sep : Nat := 47

end Verif.File
