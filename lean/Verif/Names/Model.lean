import Verif.Names.Spec

/-!
# Model: names as numbers, and namespaces

Sources: `src/builtins/fns.c` lines 375-404 (`str2gid`, `str2gidQ`, `gid2str`),
`src/ns.c` lines 5-33 (`m_nsDesc`), 46-101 (`ns_getU`, `ns_qgetU`, `ns_getNU`,
`ns_set`), 171-179 (`pos2gid`), `src/vm.c` lines 368-369, 900-905 and 554-570
(fields in programs), `src/builtins/sysfn.c` lines 1360-1412
(`name_normalize`, `•ns.Keys`, `•ns.Get`, `•ns.Has`).

Simplifications: `-1` is `none`; numbers of names are unbounded (the code has 31
bits); the hash table from names to numbers is a function (tables are C05);
the values of variables are of any type.  A read or write outside of an array is
`ub`.
-/
namespace Verif.Names

inductive Out (α : Type) where
  | ub
  | err
  | ok (a : α)
deriving DecidableEq, Repr

/-- `globalNames` and `globalNameList`. -/
structure Globals where
  id : Name → Option Nat
  list : List Name

def Globals.init : Globals := ⟨fun _ => none, []⟩

/-- `str2gid`, lines 377-391. -/
def str2gid (g : Globals) (s : Name) : Nat × Globals :=
  match g.id s with
  | some v => (v, g)
  | none => (g.list.length, ⟨fun t => if t = s then some g.list.length else g.id t, g.list ++ [s]⟩)

/-- `str2gidQ`, lines 393-396. -/
def str2gidQ (g : Globals) (s : Name) : Option Nat := g.id s

/-- `gid2str`, lines 398-402. -/
def gid2str (g : Globals) (n : Nat) : Out Name :=
  match g.list[n]? with
  | some s => .ok s
  | none => .ub

/-- The fields of `Body` and `NSDesc` that are about names: `varData` as its two
halves, `expGIDs` with `varAm` of the description, and the list of names. -/
structure Body where
  names : List Name
  gids : List (Option Nat)
  ids : List (Option Nat)
  exp : List (Option Nat)
  descAm : Nat
deriving DecidableEq, Repr

/-- The loop of `m_nsDesc`, lines 24-29. -/
def descLoop (names : List Name) (off : Nat) : Nat → List (Nat × Bool) → Globals →
    List (Option Nat) → List (Option Nat) → Out (Globals × List (Option Nat) × List (Option Nat))
  | _, [], g, ids, exp => .ok (g, ids, exp)
  | i, (cid, cexp) :: l, g, ids, exp =>
    if i + off < ids.length ∧ i + off < exp.length then
      if cexp then
        match names[cid]? with
        | none => .ub
        | some s =>
          let (n, g') := str2gid g s
          descLoop names off (i + 1) l g' (ids.set (i + off) (some cid)) (exp.set (i + off) (some n))
      else descLoop names off (i + 1) l g (ids.set (i + off) (some cid)) (exp.set (i + off) none)
    else .ub

/-- `m_nsDesc`, lines 5-31. -/
def nsDesc (g : Globals) (d : Decl) : Out (Globals × Body) :=
  if d.ids.length ≠ d.exported.length then .err
  else
    match descLoop d.names d.off 0 (d.ids.zip d.exported) g
        (List.replicate d.varAm none) (List.replicate d.varAm none) with
    | .ub => .ub
    | .err => .err
    | .ok (g', ids, exp) =>
      .ok (g', ⟨d.names, List.replicate d.varAm none, ids, exp, d.ids.length + d.off⟩)

/-- The loop of `ns_getU`, `ns_qgetU`, `ns_getNU` and `ns_set`: the first of the
next `k` variables, from `i` on, with the number `gid`. -/
def findGid (exp : List (Option Nat)) (gid : Nat) : Nat → Nat → Out (Option Nat)
  | 0, _ => .ok none
  | k + 1, i =>
    match exp[i]? with
    | none => .ub
    | some e => if e = some gid then .ok (some i) else findGid exp gid k (i + 1)

/-- What there is at a position of the scope. -/
def valueAt {α : Type} (vars : List α) : Out (Option Nat) → Out α
  | .ub => .ub
  | .err => .err
  | .ok none => .err
  | .ok (some i) => match vars[i]? with | some v => .ok v | none => .ub

/-- `ns_getU`, lines 46-53. -/
def nsGetU {α : Type} (b : Body) (vars : List α) (gid : Nat) : Out α :=
  valueAt vars (findGid b.exp gid b.descAm 0)

/-- `ns_getNU`, lines 64-74, with `thrEmpty`. -/
def nsGetNU {α : Type} (g : Globals) (b : Body) (vars : List α) (s : Name) : Out α :=
  match str2gidQ g s with
  | none => .err
  | some gid => valueAt vars (findGid b.exp gid b.descAm 0)

/-- `ns_set`, lines 82-98. -/
def nsSet {α : Type} (g : Globals) (b : Body) (vars : List α) (s : Name) (v : α) :
    Out (Globals × List α) :=
  let (gid, g') := str2gid g s
  match findGid b.exp gid b.descAm 0 with
  | .ub => .ub
  | .err => .err
  | .ok none => .err
  | .ok (some i) => if i < vars.length then .ok (g', vars.set i v) else .ub

/-- `pos2gid`, lines 171-179. -/
def pos2gid (g : Globals) (b : Body) (pos : Nat) : Out (Nat × Globals × Body) :=
  match b.gids[pos]? with
  | none => .ub
  | some (some n) => .ok (n, g, b)
  | some none =>
    match b.ids[pos]? with
    | none => .ub
    | some none => .err
    | some (some i) =>
      match b.names[i]? with
      | none => .ub
      | some s =>
        let (n, g') := str2gid g s
        .ok (n, g', { b with gids := b.gids.set pos (some n) })

/-- `nKeys_c1`, `sysfn.c` lines 1380-1395. -/
def nKeys (g : Globals) (b : Body) : Out (List Name) :=
  (b.exp.take b.descAm).foldr (fun e r =>
    match r with
    | .ok l =>
      match e with
      | none => .ok l
      | some n =>
        match gid2str g n with
        | .ok s => .ok (s :: l)
        | _ => .ub
    | r => r) (.ok [])

/-- `name_isUpper`, `sysfn.c` line 1360. -/
def isUpper (c : Nat) : Bool := (65 ≤ c && c ≤ 90) || (192 ≤ c && c ≤ 222)

/-- `name_normalize`, `sysfn.c` lines 1363-1378: `done` are the characters that
were passed over. -/
def normalize (done : Name) : Name → Name
  | [] => done
  | c0 :: l =>
    if isUpper c0 || c0 == 95 then
      let r := done ++ (c0 :: l).map fun c => if isUpper c && c != 215 then c + 32 else c
      ((done ++ c0 :: l).zip r).filterMap fun (x, c) => if x != 95 then some c else none
    else normalize (done ++ [c0]) l

/-- `nGet_c2`, `sysfn.c` lines 1396-1403. -/
def nGet {α : Type} (g : Globals) (b : Body) (vars : List α) (s : Name) : Out α :=
  nsGetNU g b vars (normalize [] s)

/-- `nHas_c2`, `sysfn.c` lines 1404-1411. -/
def nHas {α : Type} (g : Globals) (b : Body) (vars : List α) (s : Name) : Out Bool :=
  match nsGetNU g b vars (normalize [] s) with
  | .ub => .ub
  | .err => .ok false
  | .ok _ => .ok true

/-! ## Histories -/

inductive Op where
  /-- A field is named somewhere in a program that is compiled: `vm.c` lines
  368-369. -/
  | mention (s : Name)
  /-- A body is compiled: `vm.c` line 391. -/
  | compile (d : Decl)
  /-- A variable of a body is assigned from a namespace: `vm.c` line 560. -/
  | extract (b pos : Nat)
deriving Repr

structure State where
  g : Globals
  bodies : List Body

def State.init : State := ⟨Globals.init, []⟩

def act (st : State) : Op → Out State
  | .mention s => .ok { st with g := (str2gid st.g s).2 }
  | .compile d =>
    match nsDesc st.g d with
    | .ub => .ub
    | .err => .ok st
    | .ok (g, b) => .ok ⟨g, st.bodies ++ [b]⟩
  | .extract k pos =>
    match st.bodies[k]? with
    | none => .ok st
    | some b =>
      if pos < b.gids.length then
        match pos2gid st.g b pos with
        | .ub => .ub
        | .err => .ok st
        | .ok (_, g, b') => .ok ⟨g, st.bodies.set k b'⟩
      else .ok st

def history (st : State) : List Op → Out State
  | [] => .ok st
  | op :: ops =>
    match act st op with
    | .ok st' => history st' ops
    | .err => .err
    | .ub => .ub

end Verif.Names
