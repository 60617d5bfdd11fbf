import Verif.Import.Spec
/-!
# Importing files: model

`•Import`, `import_c1` and `import_c2`, `src/builtins/sysfn.c` 842-878. Programs are trees of what they do: anything that changes the state `σ`, imports, and catching errors. Paths are as `path_abs` gives them. The map from paths to values is a •HashMap (C05).
-/
namespace Verif.Import
variable {ι V σ : Type} [DecidableEq ι]

/-- A program: it returns a value, fails, does something to the state, calls `•Import` with one or two arguments, or catches an error. -/
inductive Prog (ι V σ : Type)
  | ret (v : V)
  | fail
  | act (f : σ → V × σ) (k : V → Prog ι V σ)
  | imp (p : ι) (k : V → Prog ι V σ)
  | imp2 (p : ι) (w : V) (k : V → Prog ι V σ)
  | catch (a h : Prog ι V σ) (k : V → Prog ι V σ)

/-- What the map has for a path. -/
inductive Tag (V : Type)
  | running
  | val (v : V)
  deriving DecidableEq

/-- The map, the state of everything else, and what has happened. -/
structure S (ι V σ : Type) where
  map : ι → Option (Tag V)
  s : σ
  log : List (Ev ι V)

def S.set (a : S ι V σ) (p : ι) (t : Option (Tag V)) : S ι V σ := { a with map := fun q => if q = p then t else a.map q }
def S.note (a : S ι V σ) (e : Ev ι V) : S ι V σ := { a with log := a.log ++ [e] }

/-- A result, an error, or that the number of nested imports is reached. -/
inductive Out (ι V σ : Type)
  | ok (v : V) (a : S ι V σ)
  | err (a : S ι V σ)
  | out (a : S ι V σ)

def Out.st : Out ι V σ → S ι V σ
  | .ok _ a | .err a | .out a => a

/-- `import_c1`, 849-878; `exec` is `bqn_execFileRe` without arguments. -/
def import1 (exec : ι → S ι V σ → Out ι V σ) (p : ι) (a : S ι V σ) : Out ι V σ :=
  match a.map p with
  | some .running => .err (a.note (.cyclic p))
  | some (.val v) => .ok v (a.note (.gives p v))
  | none =>
    let a := a.set p (some .running)
    match exec p (a.note (.start p)) with
    | .err a => .err ((a.set p none).note (.fails p))
    | .ok r a => .ok r ((a.set p (some (.val r))).note (.gives p r))
    | .out a => .out a

/-- A program, given what runs files. -/
def runP (exec : Option V → ι → S ι V σ → Out ι V σ) : Prog ι V σ → S ι V σ → Out ι V σ
  | .ret v, a => .ok v a
  | .fail, a => .err a
  | .act f k, a => runP exec (k (f a.s).1) { a with s := (f a.s).2 }
  | .imp p k, a => match import1 (exec none) p a with
    | .ok v a => runP exec (k v) a
    | o => o
  | .imp2 p w k, a => match exec (some w) p a with
    | .ok v a => runP exec (k v) a
    | o => o
  | .catch b h k, a => match runP exec b a with
    | .ok v a => runP exec (k v) a
    | .err a => match runP exec h a with
      | .ok v a => runP exec (k v) a
      | o => o
    | o => o

/-- Running a file, with at most `n` nested. `files p w` is the program in the file `p` with the arguments `w`. -/
def exec (files : ι → Option V → Prog ι V σ) : Nat → Option V → ι → S ι V σ → Out ι V σ
  | 0, _, _, a => .out a
  | n + 1, w, p, a => runP (exec files n) (files p w) a

/-- Running a program from the start. -/
def run (files : ι → Option V → Prog ι V σ) (n : Nat) (m : Prog ι V σ) (s : σ) : Out ι V σ := runP (exec files n) m ⟨fun _ => none, s, []⟩

end Verif.Import
