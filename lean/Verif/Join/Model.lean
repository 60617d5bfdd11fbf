import Verif.Join.Spec
/-!
# Model of Join with one argument

`join_c1`, `/repo/src/builtins/sfns.c` 760-992, for arrays with elements. Fills, element types and how `x` is stored aren't modelled. What `M_APD_TOT` does is modelled in `Verif.Merge`.
A length of 2⋆32-1, which only empty arrays have, is a mark in the code (`ll[i] = -1`); here the mark is `none`.
-/
namespace Verif.Join
open Verif.Cells (Arr Val)
open Verif.Rotate (prod)
variable {E : Type}

/-- What a call does. `large` is out of memory, and `undef` memory outside of arrays. -/
inductive Res (A : Type)
  | ok (a : A)
  | err
  | large
  | undef

def Res.bind {A B : Type} : Res A → (A → Res B) → Res B
  | .ok a, f => f a
  | .err, _ => .err
  | .large, _ => .large
  | .undef, _ => .undef

instance : Monad Res where
  pure := .ok
  bind := Res.bind

/-- Memory that should be there. -/
def need {A : Type} : Option A → Res A
  | some a => .ok a
  | none => .undef

def rank (v : Val E) : Nat := v.sh.length

/-! ## Lists, 789-841 -/

/-- The variables of the loop. `esh` is the first element's shape from `off` on. -/
structure LState where
  rm : Nat
  rr : Nat
  rd : Nat
  off : Nat
  cam : Nat

/-- 793-804. -/
def listInit (x0 : Val E) : LState :=
  match x0.sh with
  | [] => ⟨0, 1, 0, 0, 1⟩
  | n :: _ => ⟨rank x0 % 2^8, rank x0 % 2^8, 0, 1, n % 2^32⟩

/-- `eqShPart`, at most as many as there are. -/
def eqPart (a b : List Nat) (n : Nat) : Res Unit :=
  if a.length < n ∨ b.length < n then .undef else if a.take n = b.take n then .ok () else .err

/-- When the rank isn't one of those seen so far, 815-829: element `i` has rank `cr`, the ones before it are `prev`. `ur` has 8 bits. -/
def listDiffer (x0 : Val E) (prev : List (Val E)) (i cr : Nat) (s : LState) : Res LState :=
  let cd := (s.rm + 2^8 - cr) % 2^8
  if cd > s.rd then
    if (cd + 1 + 2^8 - s.rd) % 2^8 > 2 - s.rd then .err
    else if cr > s.rr then
      if s.rd ≠ 0 ∨ s.rr = 0 ∨ s.off = 0 then .undef
      else (need (x0.sh[s.off - 1]?)).bind fun l =>
        if (prev.drop 1).all (fun v => v.sh.head? == some l) then .ok ⟨if cr > s.rm then cr else s.rm, cr, 1, s.off - 1, i⟩
        else if (prev.drop 1).any (fun v => v.sh == []) then .undef else .err
    else .ok { s with rm := if cr > s.rm then cr else s.rm, rd := 1 }
  else .ok s

/-- The length and the other axes, 830-831. -/
def listAdd (x0 : Val E) (c : Val E) (cr : Nat) (s : LState) : Res LState :=
  if cr < s.rm then (eqPart c.sh (x0.sh.drop s.off) (s.rm - 1)).bind fun _ => .ok { s with cam := (s.cam + 1) % 2^32 }
  else (need c.sh.head?).bind fun n => (eqPart (c.sh.drop 1) (x0.sh.drop s.off) (s.rm - 1)).bind fun _ => .ok { s with cam := (s.cam + n) % 2^32 }

/-- One turn, 806-834. -/
def listStep (x0 : Val E) (prev : List (Val E)) (i : Nat) (c : Val E) (s : LState) : Res LState :=
  let cr := rank c % 2^8
  if cr = 0 then
    if s.rm > 1 then .err else .ok { s with rd := s.rm, cam := (s.cam + 1) % 2^32 }
  else (listDiffer x0 prev i cr s).bind (listAdd x0 c cr)

/-- The loop. -/
def listLoop (x0 : Val E) : List (Val E) → List (Val E) → LState → Res LState
  | _, [], s => .ok s
  | prev, c :: cs, s => (listStep x0 prev prev.length c s).bind fun s => listLoop x0 (prev ++ [c]) cs s

/-- 789-847. The parts are appended one after the other (C53), for which the number of elements has to be right. -/
def joinList (x : Arr (Val E)) : Res (Arr E) :=
  (need x.els[0]?).bind fun x0 =>
  (listLoop x0 [x0] (x.els.drop 1) (listInit x0)).bind fun s =>
  if s.rm = 0 then .err
  else
    let esh := (x0.sh.drop s.off).take (s.rr - 1)
    if esh.length < s.rr - 1 then .undef
    else
      let els := x.els.flatMap Val.els
      if els.length ≠ s.cam * prod esh % 2^32 then .undef
      else .ok ⟨s.cam :: esh, els⟩

/-! ## Arrays with more axes, 850-991 -/

/-- `shcpy` inside of a buffer, `core/stuff.h` 171-173: forward, one number after the other. -/
def shcpy (dst src n : Nat) (b : List Nat) : List Nat := (List.range n).foldl (fun b i => b.set (dst + i) (b[src + i]?.getD 0)) b

/-- `shcpy` from somewhere else. -/
def shput (sh b : List Nat) : List Nat := sh ++ b.drop sh.length

/-- Lengths along the axis, 886-895. -/
def axisLens (r0 tr r1 : Nat) : List (Val E) → Res Lens
  | [] => .ok []
  | c :: cs =>
    let rd := r1 - rank c
    let l : Res (Option Nat) := if rd ≠ 0 then (if rd > 1 then .err else .ok none) else (need (c.sh[r0 - tr]?)).bind fun n => .ok (some n)
    l.bind fun l => (axisLens r0 tr r1 cs).bind fun ls => .ok (l :: ls)

/-- The elements of one line along the axis against its first one, 912-920. -/
def checkLine (tsh tsh0 : List Nat) (lr r1 : Nat) : List (Option Nat × Val E) → Res Unit
  | [] => .ok ()
  | (l, c) :: cs =>
    let rd := l.isNone
    let t := if rd then tsh0 else tsh.set lr (l.getD 0)
    if rank c + (if rd then 1 else 0) ≠ r1 then .err
    else (eqPart t c.sh (rank c)).bind fun _ => checkLine tsh tsh0 lr r1 cs

/-- One base element, 898-911; `a0` is whether the root has the axis, and `junk` is what's in the buffers, both as long. -/
def checkBase (junk : List Nat) (tr : Nat) (a0 : Bool) (base : Val E) (rest : List (Option Nat × Val E)) : Res Unit :=
  let r := rank base
  let r1 := (r + 1 - (if a0 then 1 else 0)) % 2^8
  let lr := if r ≠ 0 then (r + 2^8 - tr) % 2^8 else 0
  let tsh := shput base.sh junk
  let tsh0 := shput base.sh junk
  let tsh' := if r ≠ 0 ∧ !a0 then shcpy (lr + 1) lr tr tsh else tsh
  let tsh0' := if r ≠ 0 ∧ a0 then shcpy lr (lr + 1) (tr - 1) tsh0 else tsh0
  if r + (if a0 then 0 else 1) > junk.length then .undef
  else checkLine tsh' tsh0' lr r1 rest

/-- The elements at `b`, `b + step` and so on. -/
def line (x : Arr (Val E)) (b step n : Nat) : Res (List (Val E)) := need ((List.range n).mapM fun i => x.els[b + i * step]?)

def checkAll (junk : List Nat) (x : Arr (Val E)) (step n tr : Nat) (a0 : Bool) (ll : Lens) : List Nat → Res Unit
  | [] => .ok ()
  | j :: js => (line x j step n).bind fun cs =>
    match cs with
    | [] => .undef
    | base :: rest => (checkBase junk tr a0 base ((ll.drop 1).zip rest)).bind fun _ => checkAll junk x step n tr a0 ll js

/-- One axis, 865-931: `n` is its length, `step` how far apart the elements along it are, and `bases` how many lines there are. -/
def axis (junk : List Nat) (x : Arr (Val E)) (x0 : Val E) (n step bases tr : Nat) : Res (Lens × Nat) :=
  let r0 := rank x0
  if n = 1 then
    if tr = 0 then .err else (need (x0.sh[r0 - tr]?)).bind fun l => .ok ([some l], tr - 1)
  else
    (line x 0 step n).bind fun cs =>
    let r1 := (cs.map rank).foldl max r0
    let a0 := r1 == r0
    if tr = 0 ∧ a0 then .err
    else (axisLens r0 tr r1 cs).bind fun ll =>
      (checkAll junk x step n tr a0 ll ((List.range bases).map (· * (n * step)))).bind fun _ =>
      .ok (ll, tr - (if a0 then 1 else 0))

/-- The loop over the axes `sh` that are left. -/
def axes (junk : List Nat) (x : Arr (Val E)) (x0 : Val E) : List Nat → Nat → Nat → Res (List Lens × Nat)
  | [], _, tr => .ok ([], tr)
  | n :: sh, bases, tr => (axis junk x x0 n (prod sh) bases tr).bind fun p =>
    (axes junk x x0 sh (bases * n) p.2).bind fun q => .ok (p.1 :: q.1, q.2)

/-- Elements in a row are written to memory. -/
def copyTo (mem : List (Option E)) (p : Int) (es : List E) : Res (List (Option E)) :=
  let q := (p % 2^32).toNat
  if q + es.length ≤ mem.length then .ok (mem.take q ++ es.map some ++ mem.drop (q + es.length)) else .undef

/-- The axes of the element from the last but one to the first, its position `i` on each and how long it is there; then the length of the result there. 963-968. Positions have 32 bits; they are taken modulo that when they are used. -/
def bumpRow : List Nat → List (Nat × Nat) → Int → Int → Option (List Nat × Int)
  | i :: ii, (l, s) :: ax, str, rj =>
    if i + 1 = l then (bumpRow ii ax (str * s) (rj - (i + 1) * str + str * s)).map fun p => (0 :: p.1, p.2)
    else some ((i + 1) :: ii, rj)
  | _, _, _, _ => none

/-- The rows of an element, 957-969. -/
def rows (l : Nat) (e : List E) (ax : List (Nat × Nat)) (str0 : Int) : Nat → List Nat → Int → Nat → List (Option E) → Res (List (Option E))
  | 0, _, _, _, _ => .undef
  | fuel+1, ii, rj, j, mem =>
    if j + l > e.length then .undef
    else (copyTo mem rj ((e.drop j).take l)).bind fun mem =>
      if j + l = e.length then .ok mem
      else match bumpRow ii ax str0 (rj + str0) with
        | none => .undef
        | some (ii, rj) => rows l e ax str0 fuel ii rj (j + l) mem

/-- The next element of `x`, 973-980: the axes from the last to the first, each with the room of its positions and their sum. -/
def bumpElem : List Nat → List (List Nat × Nat) → Int → Int → Option (List Nat × Int)
  | i :: is, (ll, s) :: ax, str, ri =>
    if i + 1 = ll.length then
      match is, ax with
      | i' :: _, (ll', _) :: _ => (bumpElem is ax (str * s) (ri + ((ll'[i']?.getD 0 : Nat) - 1) * (str * s))).map fun p => (0 :: p.1, p.2)
      | _, _ => none
    else some ((i + 1) :: is, ri)
  | _, _, _, _ => none

/-- One element, 946-971. `ei` and `ax` are from the last axis on. -/
def moveOne (csz : Nat) (ei : List Nat) (ax : List (List Nat × Nat)) (ri : Int) (e : Val E) (mem : List (Option E)) : Res (List (Option E)) :=
  match ei, ax with
  | i :: is, (ll, s) :: ax =>
    let l := (ll[i]?.getD 0) * csz % 2^32
    match e with
    | .atom e => if l = 1 then copyTo mem ri [e] else .undef
    | .arr a =>
      if a.els.length = 0 then .ok mem
      else rows l a.els ((is.zip ax).map fun p => ((p.2.1[p.1]?).getD 0, p.2.2)) ((s * csz : Nat) : Int) a.els.length (is.map fun _ => 0) ri 0 mem
  | _, _ => .undef

/-- All of them, 940-981. -/
def moveAll (csz : Nat) (ax : List (List Nat × Nat)) : List (Val E) → List Nat → Int → List (Option E) → Res (List (Option E))
  | [], _, _, mem => .ok mem
  | e :: es, ei, ri, mem => (moveOne csz ei ax ri e mem).bind fun mem =>
    if es.isEmpty then .ok mem
    else match ei, ax with
      | i :: _, (ll, _) :: _ =>
        match bumpElem ei ax csz (ri + ((ll[i]?.getD 0) * csz : Nat)) with
        | none => .undef
        | some (ei, ri) => moveAll csz ax es ei ri mem
      | _, _ => .undef

/-- 850-991. `junk` is what's in fresh memory. -/
def joinAxes (junk : Nat → Nat) (x : Arr (Val E)) : Res (Arr E) :=
  (need x.els[0]?).bind fun x0 =>
  (axes ((List.range (x.sh.length + rank x0)).map junk) x x0 x.sh 1 (rank x0)).bind fun p =>
  let lens := p.1.map fun l => l.map room
  let st := lens.map fun l => l.sum % 2^32
  let csh := x0.sh.drop (rank x0 - p.2)
  let csz := prod csh % 2^32
  let ria := prod st % 2^32
  if ria * csz ≥ 2^32 then .large
  else if ria * csz = 0 then .ok ⟨st ++ csh, []⟩
  else
    let ax := (lens.zip st).reverse
    (moveAll csz ax x.els (x.sh.map fun _ => 0) 0 (List.replicate (ria * csz) none)).bind fun mem =>
    (need (mem.mapM id)).bind fun els => .ok ⟨st ++ csh, els⟩

/-- `∾𝕩` of an array with elements. For one without axes it's the element, 848-849. -/
def join1 (junk : Nat → Nat) (x : Arr (Val E)) : Res (Arr E) :=
  match x.sh with
  | [] => (need x.els[0]?).bind fun v => .ok ⟨v.sh, v.els⟩
  | [_] => joinList x
  | _ => joinAxes junk x

end Verif.Join
