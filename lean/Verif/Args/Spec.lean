/-
C90: the command line.  Words are lists of bytes, none of them 0.
-/
namespace Verif.Args

abbrev Word := List Nat

/-- What is done: code executed, its result ignored, formatted or printed; the limit of memory set, in bytes; a file
executed with arguments; the standard input executed; a REPL started. -/
inductive Act
  | exec (code : Word)
  | show (code : Word)
  | out (code : Word)
  | limit (bytes : Nat)
  | file (path : Word) (args : List Word)
  | stdin (args : List Word)
  | repl (silent : Bool)
deriving DecidableEq, Repr

/-- How it ends. -/
inductive Stop
  | done
  | error
  | help
  | version
  | crash
deriving DecidableEq, Repr

/-- Options without argument: `-r`, `-s`, and `-L`, which does nothing else than what is done anyway. -/
inductive Flag
  | repl
  | silent
  | load
deriving DecidableEq, Repr

/-- Options with an argument: `-e`, `-p`, `-o`, and `-M` with a number, by its digits. -/
inductive Opt
  | e (code : Word)
  | p (code : Word)
  | o (code : Word)
  | M (digits : List Nat)

def Flag.letter : Flag → Nat
  | .repl => 114
  | .silent => 115
  | .load => 76

def Opt.letter : Opt → Nat
  | .e _ => 101
  | .p _ => 112
  | .o _ => 111
  | .M _ => 77

def Opt.arg : Opt → Word
  | .e w => w
  | .p w => w
  | .o w => w
  | .M ds => ds.map (48 + ·)

def value (ds : List Nat) : Nat := ds.foldl (fun a d => a * 10 + d) 0

def Opt.act : Opt → Act
  | .e w => .exec w
  | .p w => .show w
  | .o w => .out w
  | .M ds => .limit (value ds * 1048576)

/-- Numbers have digits, and are less than 2⋆44. -/
def Opt.ok : Opt → Prop
  | .M ds => (∀ d ∈ ds, d < 10) ∧ value ds < 2 ^ 44
  | _ => True

/-- Options written together: `-rse code`. -/
structure Group where
  flags : List Flag
  last : Option Opt

def Group.ok (g : Group) : Prop := (g.flags ≠ [] ∨ g.last ≠ none) ∧ ∀ o, g.last = some o → o.ok

def Group.words (g : Group) : List Word :=
  match g.last with
  | none => [45 :: g.flags.map Flag.letter]
  | some o => [45 :: (g.flags.map Flag.letter ++ [o.letter]), o.arg]

def Group.acts (g : Group) : List Act := (g.last.map Opt.act).toList

/-- What follows the groups: nothing; a file that does not start with `-`; `-`; `-f` after other options. -/
inductive Rest
  | nothing
  | file (path : Word) (args : List Word)
  | stdin (args : List Word)
  | f (flags : List Flag) (path : Word) (args : List Word)

def Rest.ok : Rest → Prop
  | .file path _ => path.head? ≠ some 45
  | _ => True

def Rest.words : Rest → List Word
  | .nothing => []
  | .file path args => path :: args
  | .stdin args => [45] :: args
  | .f flags path args => (45 :: (flags.map Flag.letter ++ [102])) :: path :: args

def Rest.acts : Rest → List Act
  | .nothing => []
  | .file path args => [.file path args]
  | .stdin args => [.stdin args]
  | .f _ path args => [.file path args]

def Rest.flags : Rest → List Flag
  | .f flags _ _ => flags
  | _ => []

/-- A REPL is started at the end if an option says so. -/
def replActs (flags : List Flag) : List Act :=
  if .silent ∈ flags then [.repl true] else if .repl ∈ flags then [.repl false] else []

end Verif.Args
