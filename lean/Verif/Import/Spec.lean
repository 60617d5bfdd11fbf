/-!
# Importing files: specification

What happens at calls of `•Import 𝕩`, in order.
-/
namespace Verif.Import

/-- The file `p` starts to run because it is imported; an import of it returns `v`; the run of it fails, and so does its import; an import of it is refused as cyclic. -/
inductive Ev (ι V : Type)
  | start (p : ι)
  | gives (p : ι) (v : V)
  | fails (p : ι)
  | cyclic (p : ι)
  deriving DecidableEq

/-- What is known of a file: it hasn't been run or failed the last time; it is running; it was run and gave `v`. -/
inductive St (V : Type)
  | idle
  | running
  | done (v : V)
  deriving DecidableEq

/-- What may happen, with the file that it happens to. -/
inductive Step {ι V : Type} : Ev ι V → ι → St V → St V → Prop
  | start {p} : Step (.start p) p .idle .running
  | first {p v} : Step (.gives p v) p .running (.done v)
  | again {p v} : Step (.gives p v) p (.done v) (.done v)
  | fails {p} : Step (.fails p) p .running .idle
  | cyclic {p} : Step (.cyclic p) p .running .running

/-- A history that starts with no file known, and what is known in the end. -/
inductive Legal {ι V : Type} [DecidableEq ι] : List (Ev ι V) → (ι → St V) → Prop
  | nil : Legal [] fun _ => .idle
  | snoc {l st e p b} : Legal l st → Step e p (st p) b → Legal (l ++ [e]) fun q => if q = p then b else st q

end Verif.Import
