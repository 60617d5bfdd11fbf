import Verif.Scope.Spec

/-!
# Model: dropping references, and leaving a scope

Sources: `src/h.h` lines 638-654 (`DEF_FREE`, `value_free`, `dec`, `ptr_dec`),
`src/vm.h` lines 255-270 (the free function of a scope, `scope_dec`),
`src/vm.c` lines 677-692 (`scope_decF`), 1104-1106 (the free functions of
blocks).  Callers: `src/vm.c` lines 704 (the next body of a block is tried) and
972 (a body ends).

Simplifications: counts are unbounded (the code has 32 bits); the free function
of any other object drops its references in the order in which they are listed;
the calls of C that are still to be made are kept in a list, the first one next,
with an entry for the `mm_free` that ends each free function.  An object that is
being freed is still there, with the count that it then has, until its
`mm_free`, as in C.  Touching an object that is not there, and lowering a count
of 0, are the outcome `ub`.
-/
namespace Verif.Scope

/-- What is still to be done: `dec` a reference, or `mm_free` an object whose
references have been dropped. -/
inductive Work where
  | dec (i : Nat)
  | gone (i : Nat)
deriving DecidableEq, Repr

/-- `more`: the step limit was too low. -/
inductive Res where
  | ub
  | more
  | done (h : Heap)

def Heap.set (h : Heap) (i : Nat) (o : Option Obj) : Heap :=
  { h with get := fun j => if j = i then o else h.get j }

/-- The free function of an object.  `vm.h` lines 255-264: a scope drops the
outer scope, the extension and the body, and then its variables; `vm.c` lines
1104-1106: a block drops its scope and then its code; `h.h` line 643: after that
comes `mm_free`. -/
def freeWork (i : Nat) (k : Kind) : List Work :=
  k.refs.map .dec ++ [.gone i]

/-- `h.h` lines 646-651. -/
def run : Nat → Heap → List Work → Res
  | _, h, [] => .done h
  | 0, _, _ :: _ => .more
  | k + 1, h, .dec i :: w =>
    match h.get i with
    | none => .ub
    | some o =>
      if o.refc = 0 then .ub
      else if o.refc = 1 then
        run k (h.set i (some { o with refc := 0 })) (freeWork i o.kind ++ w)
      else run k (h.set i (some { o with refc := o.refc - 1 })) w
  | k + 1, h, .gone i :: w =>
    match h.get i with
    | none => .ub
    | some _ => run k (h.set i none) w

/-- A step limit: each entry of the list and each reference is dealt with once. -/
def enough (h : Heap) (w : List Work) : Nat :=
  w.length + total h.bound (fun j =>
    match h.get j with
    | some o => o.kind.refs.length + 1
    | none => 0)

def free (h : Heap) (w : List Work) : Res := run (enough h w) h w

/-- The loop of `scope_decF`, `vm.c` lines 679-687, from the value `n` of
`innerRef`; `none` when a variable refers to an object that is not there. -/
def innerRef (h : Heap) (sc : Nat) : List (Option Nat) → Nat → Option Nat
  | [], n => some n
  | none :: vs, n => innerRef h sc vs n
  | some c :: vs, n =>
    match h.get c with
    | none => none
    | some o =>
      if o.refc = 1 then
        match o.kind with
        | .block s _ => if s = sc then innerRef h sc vs (n + 1) else innerRef h sc vs n
        | _ => innerRef h sc vs n
      else innerRef h sc vs n

/-- `scope_dec`, `vm.h` lines 266-269, and `scope_decF`, `vm.c` lines 677-692.
The free function is called without lowering the count first.  The assertion of
line 689 is `__builtin_unreachable` in a release build. -/
def scopeDec (h : Heap) (sc : Nat) : Res :=
  match h.get sc with
  | none => .ub
  | some o =>
    match o.kind with
    | .scope outer vars =>
      if o.refc = 1 then free h (freeWork sc (.scope outer vars))
      else
        match innerRef h sc vars 1 with
        | none => .ub
        | some n =>
          if o.refc < n then .ub
          else if n = o.refc then free h (freeWork sc (.scope outer vars))
          else .done (h.set sc (some { o with refc := o.refc - 1 }))
    | _ => .ub

/-! ## Programs

What a program may do with the references that it holds (`roots`).  An
operation on something that is not held is refused: the interpreter has no way
to write it. -/

inductive Op where
  /-- `inc`, `h.h` lines 655-658. -/
  | copy (i : Nat)
  /-- A new object that refers to held objects: `m_scopeI`, `vm.c` lines
  643-675, `m_funBlock` and so on. -/
  | make (k : Kind)
  /-- A variable of a scope is set, and what it held is given back: `v_setI`,
  `vm.h` lines 307-316 (the reference that the interpreter then drops is dropped by `drop`). -/
  | put (sc k : Nat) (v : Option Nat)
  /-- Read a reference of an object. -/
  | look (i k : Nat)
  /-- `dec`. -/
  | drop (i : Nat)
  /-- `scope_dec`, at the end of a body. -/
  | leave (sc : Nat)
deriving Repr

inductive Step where
  | ub
  | more
  | refused
  | done (h : Heap) (roots : List Nat)

def Res.step (roots : List Nat) : Res → Step
  | .ub => .ub
  | .more => .more
  | .done h => .done h roots

def isScope (h : Heap) (i : Nat) : Bool :=
  match h.get i with
  | some ⟨_, .scope _ _⟩ => true
  | _ => false

/-- The roots when the reference `v`, if it is one, has been given away. -/
def without (roots : List Nat) : Option Nat → List Nat
  | some i => roots.erase i
  | none => roots

def act (h : Heap) (roots : List Nat) : Op → Step
  | .copy i =>
    if i ∈ roots then
      match h.get i with
      | none => .ub
      | some o => .done (h.set i (some { o with refc := o.refc + 1 })) (i :: roots)
    else .refused
  | .make k =>
    if ∀ r ∈ k.refs, r ∈ roots then
      .done ⟨h.bound + 1, fun j =>
          if j = h.bound then some ⟨1, k⟩
          else (h.get j).map fun o => { o with refc := o.refc + k.refs.count j }⟩
        (h.bound :: roots)
    else .refused
  | .put sc k v =>
    if sc ∈ roots ∧ ∀ i ∈ v, i ∈ roots then
      match h.get sc with
      | none => .ub
      | some ⟨rc, .scope outer vars⟩ =>
        match vars[k]? with
        | none => .refused
        | some old =>
          .done (h.set sc (some ⟨rc, .scope outer (vars.set k v)⟩))
            (old.toList ++ without roots v)
      | some _ => .refused
    else .refused
  | .look i k =>
    if i ∈ roots then
      match h.get i with
      | none => .ub
      | some o =>
        match o.kind.refs[k]? with
        | none => .refused
        | some j =>
          match h.get j with
          | none => .ub
          | some p => .done (h.set j (some { p with refc := p.refc + 1 })) (j :: roots)
    else .refused
  | .drop i =>
    if i ∈ roots then (free h [.dec i]).step (roots.erase i) else .refused
  | .leave sc =>
    if sc ∈ roots ∧ isScope h sc then (scopeDec h sc).step (roots.erase sc) else .refused

/-- A history of operations; it ends when one is refused. -/
def history (h : Heap) (roots : List Nat) : List Op → Step
  | [] => .done h roots
  | op :: ops =>
    match act h roots op with
    | .done h' roots' => history h' roots' ops
    | s => s

/-- No objects at all. -/
def empty : Heap := ⟨0, fun _ => none⟩

end Verif.Scope
