import Verif.Cells.Spec
/-!
# Fold, Insert and Scan: specification

`E` is what elements are: any values. `m` is any monad of effects; errors of the operand are effects.
-/
namespace Verif.Insert
open Verif.Cells (Arr Val Full cellAt Agree longer)
open Verif.Rotate (prod)
variable {E A : Type} {m : Type → Type}

/-- What a call gives. `mismatch` is the error of shapes that don't agree, and `undef` is undefined behaviour. -/
inductive Res (A : Type)
  | ok (a : A)
  | rank
  | noIdentity
  | modifier
  | mismatch
  | undef

/-- From right to left: `x₀ F x₁ F … F w`. The calls on the right come first; a mismatch stops it. -/
def foldR [Monad m] (f : A → A → m (Option A)) : List A → A → m (Option A)
  | [], w => pure (some w)
  | x :: xs, w => do
    match ← foldR f xs w with
    | none => pure none
    | some r => f x r

def toRes : Option A → Res A
  | some a => .ok a
  | none => .mismatch

/-- An operand for elements: not a function, a modifier, `⊣`, `⊢`, or another function. Some functions have an identity. -/
inductive Op (m : Type → Type) (E : Type)
  | const (v : E)
  | md
  | ltack
  | rtack
  /-- a function -/
  | fn (f : E → E → m E) (ident : Option E)
  /-- arithmetic on these elements -/
  | perv (el : E → E → m E) (ident : Option E)

/-- A call on two elements. -/
def Op.run [Monad m] : Op m E → E → E → m E
  | .const v, _, _ => pure v
  | .md, a, _ => pure a
  | .ltack, a, _ => pure a
  | .rtack, _, b => pure b
  | .fn f _, a, b => f a b
  | .perv f _, a, b => f a b

def Op.ident : Op m E → Option E
  | .fn _ i => i
  | .perv _ i => i
  | _ => none

def Op.isMd : Op m E → Bool
  | .md => true
  | _ => false

/-- A call that can't mismatch. -/
def sure [Monad m] (f : A → A → m A) (a b : A) : m (Option A) := do pure (some (← f a b))

/-- `𝔽´𝕩`. -/
def fold1 [Monad m] (op : Op m E) (x : Val E) : m (Res E) :=
  if x.sh.length ≠ 1 then pure .rank
  else match x.els.reverse with
    | [] => pure (match op.ident with | some i => .ok i | none => .noIdentity)
    | [a] => pure (.ok a)
    | z :: ys => if op.isMd then pure .modifier else toRes <$> foldR (sure op.run) ys.reverse z

/-- `𝕨𝔽´𝕩`. -/
def fold2 [Monad m] (op : Op m E) (w : E) (x : Val E) : m (Res E) :=
  if x.sh.length ≠ 1 then pure .rank
  else if x.els = [] then pure (.ok w)
  else if op.isMd then pure .modifier
  else toRes <$> foldR (sure op.run) x.els w

/-- A call on two elements that are there. -/
def both [Monad m] (el : E → E → m E) : Option E → Option E → m (Option E)
  | some p, some q => do pure (some (← el p q))
  | _, _ => pure none

/-- Arithmetic on arrays that agree on their leading axes; the elements in the order of their indices. -/
def pairUp [Monad m] (el : E → E → m E) (a b : Val E) : m (Option (Val E)) :=
  match a, b with
  | .atom a, .atom b => do pure (some (.atom (← el a b)))
  | _, _ =>
    let z := longer a.sh b.sh
    if Agree a.sh b.sh then do
      let rs ← (List.range (prod z)).mapM fun i => both el a.els[i / prod (z.drop a.sh.length)]? b.els[i / prod (z.drop b.sh.length)]?
      pure ((rs.mapM id).map fun es => .arr ⟨z, es⟩)
    else pure none

/-- `𝕨∾𝕩`: arrays with cells of the same shape, or one of them is such a cell. -/
def joinV (a b : Val E) : Option (Val E) :=
  match a.sh, b.sh with
  | [], [] => some (.arr ⟨[2], a.els ++ b.els⟩)
  | [], [q] => some (.arr ⟨[q + 1], a.els ++ b.els⟩)
  | [p], [] => some (.arr ⟨[p + 1], a.els ++ b.els⟩)
  | p :: t, q :: u =>
    if t = u then some (.arr ⟨(p + q) :: t, a.els ++ b.els⟩)
    else if p :: t = u then some (.arr ⟨(q + 1) :: u, a.els ++ b.els⟩)
    else if t = q :: u then some (.arr ⟨(p + 1) :: t, a.els ++ b.els⟩)
    else none
  | _, _ => none

/-- An operand for cells: like `Op`, and `∾`. The identity of a function may be an array. -/
inductive COp (m : Type → Type) (E : Type)
  | const (v : Val E)
  | md
  | ltack
  | rtack
  | join
  | perv (el : E → E → m E) (ident : Option E)
  | fn (f : Val E → Val E → m (Val E)) (ident : Option (Val E))

def COp.run [Monad m] : COp m E → Val E → Val E → m (Option (Val E))
  | .const v, _, _ => pure (some v)
  | .md, a, _ => pure (some a)
  | .ltack, a, _ => pure (some a)
  | .rtack, _, b => pure (some b)
  | .join, a, b => pure (joinV a b)
  | .perv el _, a, b => pairUp el a b
  | .fn f _, a, b => do pure (some (← f a b))

def COp.isMd : COp m E → Bool
  | .md => true
  | _ => false

/-- All elements the same. -/
def constant (sh : List Nat) (e : E) : Arr E := ⟨sh, List.replicate (prod sh) e⟩

/-- The result for no cells, when cells have the shape `t`. An atom is repeated. `∾` of no cells is there if they are at least lists: it has no elements, along the first axis. -/
def COp.noCells (t : List Nat) : COp m E → Option (Val E)
  | .perv _ (some e) => some (.arr (constant t e))
  | .fn _ (some (.atom e)) => some (.arr (constant t e))
  | .fn _ (some (.arr a)) => some (.arr a)
  | .join => match t with
    | [] => none
    | _ :: t => some (.arr ⟨0 :: t, []⟩)
  | _ => none

/-- The major cells. -/
def majors (x : Arr E) : List (Val E) := (List.range x.sh.head!).map fun i => .arr (cellAt x 1 i)

/-- `𝔽˝𝕩`. -/
def insert1 [Monad m] (op : COp m E) (x : Val E) : m (Res (Val E)) :=
  match x with
  | .atom _ => pure .rank
  | .arr a =>
    if a.sh = [] then pure .rank
    else match (majors a).reverse with
      | [] => pure (match op.noCells a.sh.tail with | some i => .ok i | none => .noIdentity)
      | [c] => pure (.ok c)
      | z :: ys => if op.isMd then pure .modifier else toRes <$> foldR op.run ys.reverse z

/-- `𝕨𝔽˝𝕩`. -/
def insert2 [Monad m] (op : COp m E) (w : Val E) (x : Val E) : m (Res (Val E)) :=
  match x with
  | .atom _ => pure .rank
  | .arr a =>
    if a.sh = [] then pure .rank
    else if a.sh.head! = 0 then pure (.ok w)
    else if op.isMd then pure .modifier
    else toRes <$> foldR op.run (majors a) w

/-- Along the first axis: element `i` comes from the one `c` before it, or from the first elements `w` if there are any. The calls are in order. -/
def scanFrom [Monad m] (f : E → E → m E) : List E → List E → m (List E)
  | _, [] => pure []
  | [], x :: xs => do pure (x :: (← scanFrom f [] xs))
  | p :: prev, x :: xs => do
    let r ← f p x
    let rs ← scanFrom f (prev ++ [r]) xs
    pure (r :: rs)

/-- `𝔽`𝕩`: the first cell stays. -/
def scan1 [Monad m] (op : Op m E) (x : Val E) : m (Res (Arr E)) :=
  match x with
  | .atom _ => pure .rank
  | .arr a =>
    match a.sh with
    | [] => pure .rank
    | n :: t =>
      if n ≤ 1 ∨ prod t = 0 then pure (.ok a)
      else if op.isMd then pure .modifier
      else do
        let rs ← scanFrom op.run (a.els.take (prod t)) (a.els.drop (prod t))
        pure (.ok ⟨a.sh, a.els.take (prod t) ++ rs⟩)

/-- `𝕨𝔽`𝕩`: `𝕨` has the shape of a cell. -/
def scan2 [Monad m] (op : Op m E) (w : Val E) (x : Val E) : m (Res (Arr E)) :=
  match x with
  | .atom _ => pure .rank
  | .arr a =>
    match a.sh with
    | [] => pure .rank
    | _ :: t =>
      if w.sh ≠ t then pure .mismatch
      else if a.els = [] then pure (.ok a)
      else if op.isMd then pure .modifier
      else do
        let rs ← scanFrom op.run w.els a.els
        pure (.ok ⟨a.sh, rs⟩)

end Verif.Insert
