/-
C88: the variables of a session in which each line is compiled in the scope of those before.
-/
namespace Verif.Session

/-- A variable: its name, and its value if it has one. -/
abbrev Var := Nat × Option Nat

/-- The variables that the scope was made with, and those that lines added, oldest first. -/
structure Sess where
  first : List Var
  more : List Var

def Sess.all (s : Sess) : List Var := s.first ++ s.more

/-- What is done: a line is compiled, of which the compiler says how many variables the scope has then, and the names of
all; a variable is read; one is written; the names are listed; a variable is erased by its name. -/
inductive Op
  | line (count : Nat) (names : List Nat)
  | get (p : Nat)
  | set (p : Nat) (v : Nat)
  | list
  | erase (name : Nat)

/-- What is seen. -/
inductive Obs
  | done
  | tooMany
  | value (v : Option Nat)
  | names (l : List Nat)
  | erased (b : Bool)
deriving DecidableEq, Repr

/-- The first variable with the name loses its value. -/
def eraseIn (n : Nat) : List Var → List Var × Bool
  | [] => ([], false)
  | v :: l => if v.1 = n then ((v.1, none) :: l, true) else (v :: (eraseIn n l).1, (eraseIn n l).2)

/-- One step; `none` if it names a variable that does not exist. -/
def Sess.step (s : Sess) : Op → Option (Obs × Sess)
  | .line count names =>
    if 65536 ≤ count then some (.tooMany, s)
    else if names.length < count then none
    else some (.done, { s with more := s.more ++ ((names.take count).drop s.all.length).map fun n => (n, none) })
  | .get p => s.all[p]?.map fun v => (.value v.2, s)
  | .set p v =>
    if p < s.first.length then some (.done, { s with first := s.first.modify p fun u => (u.1, some v) })
    else if p < s.all.length then some (.done, { s with more := s.more.modify (p - s.first.length) fun u => (u.1, some v) })
    else none
  | .list => some (.names (s.all.map (·.1)), s)
  | .erase n => some (.erased (eraseIn n s.more).2, { s with more := (eraseIn n s.more).1 })

/-- A session. -/
def Sess.run : List Op → Sess → Option (List Obs × Sess)
  | [], s => some ([], s)
  | o :: os, s => (s.step o).bind fun p => (run os p.2).map fun q => (p.1 :: q.1, q.2)

end Verif.Session
