import Verif.Session.Spec
/-
Extending a scope when a line of a session is compiled: `compileBlock`, `src/vm.c` 236-264 and 342-360; reading and
writing the added variables, 580-588 and 847-856; `listVars`, 92-113; `)erase`, `src/main.c` 685-707; the visit and free
functions of extensions, `src/vm.c` 1110 and 1144.

`none` is an access outside of an array, or a use of memory that was not set.

Simplified: of names only equality matters.  `EXTU` and reading by a modified assignment, which leave a mark instead of
a value that will be replaced, are left out; so is the error for reading a variable without a value, which here is the
value read.
-/
namespace Verif.Session

/-- An element of `ScopeExt.vars`. -/
inductive Slot
  | junk
  | val (v : Option Nat)
  | name (n : Nat)
deriving DecidableEq, Repr

/-- `ScopeExt`, `src/vm.h` 146-150: values first, then names. -/
structure Ext where
  varAm : Nat
  vars : List Slot
deriving DecidableEq, Repr

/-- `Scope`, `src/vm.h` 152-159, with the names that `listVars` takes from the body. -/
structure Sc where
  regs : List (Option Nat)
  regNames : List Nat
  ext : Option Ext
deriving DecidableEq, Repr

def memcpy (dst : List Slot) (to : Nat) (src : List Slot) (frm n : Nat) : Option (List Slot) :=
  if to + n ≤ dst.length ∧ frm + n ≤ src.length then some (dst.take to ++ ((src.drop frm).take n ++ dst.drop (to + n)))
  else none

/-- vm.c 258-261; `k` turns are left. -/
def fill (names : List Nat) (regAm nSZ : Nat) : Nat → Nat → List Slot → Option (List Slot)
  | 0, _, m => some m
  | k + 1, i, m =>
    match names[regAm + i]? with
    | none => none
    | some nm =>
      if i + nSZ < m.length then fill names regAm nSZ k (i + 1) ((m.set i (.val none)).set (i + nSZ) (.name nm)) else none

/-- vm.c 247-262. -/
def grow (names : List Nat) (regAm vam : Nat) (oE : Option Ext) : Option Ext :=
  let nSZ := vam - regAm
  let m := List.replicate (nSZ * 2) Slot.junk
  match oE with
  | none => (fill names regAm nSZ (nSZ - 0) 0 m).map fun m => ⟨nSZ, m⟩
  | some oE =>
    let oSZ := oE.varAm
    (memcpy m 0 oE.vars 0 oSZ).bind fun m => (memcpy m nSZ oE.vars oSZ oSZ).bind fun m =>
      (fill names regAm nSZ (nSZ - oSZ) oSZ m).map fun m => ⟨nSZ, m⟩

/-- The condition in vm.c 246. -/
def mustGrow (regAm vam : Nat) : Option Ext → Bool
  | none => true
  | some oE => decide (regAm + oE.varAm < vam)

/-- vm.c 236-264. -/
def compileLine (sc : Sc) (vam : Nat) (names : List Nat) : Option (Obs × Sc) :=
  if vam ≠ vam % 65536 then some (.tooMany, sc)
  else if sc.regs.length < vam then
    let regAm := sc.regs.length
    if mustGrow regAm vam sc.ext then
      (grow names regAm vam sc.ext).map fun e => (.done, { sc with ext := some e })
    else some (.done, sc)
  else some (.done, sc)

/-- `VARO` as compiled, vm.c 342-360, and run, 851-856. -/
def getVar (sc : Sc) (p : Nat) : Option (Option Nat) :=
  if p < sc.regs.length then sc.regs[p]?
  else match sc.ext with
    | none => none
    | some e => match e.vars[p - sc.regs.length]? with
      | some (.val v) => some v
      | _ => none

/-- Assignment, vm.c 580-588. -/
def setVar (sc : Sc) (p v : Nat) : Option Sc :=
  if p < sc.regs.length then some { sc with regs := sc.regs.set p (some v) }
  else match sc.ext with
    | none => none
    | some e => match e.vars[p - sc.regs.length]? with
      | some (.val _) => some { sc with ext := some { e with vars := e.vars.set (p - sc.regs.length) (.val (some v)) } }
      | _ => none

/-- The loop in `listVars`, vm.c 110. -/
def readNames (vars : List Slot) (am : Nat) : Nat → Nat → Option (List Nat)
  | 0, _ => some []
  | k + 1, i => match vars[i + am]? with
    | some (.name n) => (readNames vars am k (i + 1)).map (n :: ·)
    | _ => none

/-- `listVars`, vm.c 92-113. -/
def listVars (sc : Sc) : Option (List Nat) :=
  match sc.ext with
  | none => some sc.regNames
  | some e => (readNames e.vars e.varAm e.varAm 0).map (sc.regNames ++ ·)

/-- `)erase`, main.c 689-705. -/
def eraseLoop (name : Nat) (am : Nat) : Nat → Nat → List Slot → Option (Bool × List Slot)
  | 0, _, vars => some (false, vars)
  | k + 1, i, vars => match vars[i + am]? with
    | some (.name n) =>
      if n = name then match vars[i]? with
        | some (.val _) => some (true, vars.set i (.val none))
        | _ => none
      else eraseLoop name am k (i + 1) vars
    | _ => none

def step (sc : Sc) : Op → Option (Obs × Sc)
  | .line count names => compileLine sc count names
  | .get p => (getVar sc p).map fun v => (.value v, sc)
  | .set p v => (setVar sc p v).map fun sc => (.done, sc)
  | .list => (listVars sc).map fun l => (.names l, sc)
  | .erase n => match sc.ext with
    | none => some (.erased false, sc)
    | some e => (eraseLoop n e.varAm e.varAm 0 e.vars).map fun p => (.erased p.1, { sc with ext := some { e with vars := p.2 } })

def run : List Op → Sc → Option (List Obs × Sc)
  | [], s => some ([], s)
  | o :: os, s => (step s o).bind fun p => (run os p.2).map fun q => (p.1 :: q.1, q.2)

/-- What `scExt_visit` shows the garbage collector, vm.c 1144, and `scExt_freeO` releases, 1110: `am` has 16 bits. -/
def visited (e : Ext) : List Slot := e.vars.take (e.varAm * 2 % 65536)

end Verif.Session
