import Verif.Fills.Spec

/-!
# Model: fills of arrays

Sources: `src/core/fillarr.c` lines 3-30 (`asFill`), 94-106 (`fillEqualF`),
110-155 (`withFill`), 158-239 (`m_funit`, `m_fvec1`, `m_oneItemArr`, `emptyVec`,
`emptyArr`, `emptyWithFill`), `src/core/fillarr.h` lines 22-63 (`fillEqual`,
`numFill`, `chrFill`, `getFillN`, `getFillR`), 127-134 (`fill_both`).

Simplifications: the widths of numbers and characters are not told apart;
`t_fillslice` is stored as `t_fillarr`, as both have a fill and elements; that
the same object compares equal to itself before anything is looked at is left
out, since the comparison gives that as well; `squeeze_numTry` and
`squeeze_chrTry` give an array of numbers, or of characters, exactly when all
elements are (C14).
-/
namespace Verif.Fills

/-- How elements are stored: numbers, characters, any objects, any objects with
a fill. -/
inductive Kind where
  | num
  | chr
  | harr
  | farr
deriving DecidableEq, Repr

/-- `fill` is `none` for `bi_noFill`, and for arrays that aren't `farr`. -/
inductive V where
  | num (n : Int)
  | chr (c : Nat)
  | fn (i : Nat)
  | arr (sh : List Nat) (k : Kind) (fill : Option V) (els : List V)

/-- `fillarr.h` lines 29-30; only called with fills. -/
def numFill : Option V → Bool
  | some (.num n) => n == 0
  | _ => false
def chrFill : Option V → Bool
  | some (.chr _) => true
  | _ => false

def V.isNum : V → Bool
  | .num _ => true
  | _ => false
def V.isChr : V → Bool
  | .chr _ => true
  | _ => false
def V.isArr : V → Bool
  | .arr .. => true
  | _ => false

/-- `getFillN` and `getFillR`, `fillarr.h` lines 32-63. -/
def getFill : V → Option V
  | .arr _ .num _ _ => some (.num 0)
  | .arr _ .chr _ _ => some (.chr 32)
  | .arr _ .farr f _ => f
  | .arr _ .harr _ _ => none
  | .num _ => some (.num 0)
  | .chr _ => some (.chr 32)
  | .fn _ => none

def Kind.typed : Kind → Bool
  | .num => true
  | .chr => true
  | _ => false

/- `fillEqual`, `fillarr.h` lines 23-27, and `fillEqualF`, `fillarr.c` lines
94-106.  The lengths are those of equal shapes; where the second list ends first
the code would read outside of it. -/
mutual
def fillEqual : V → V → Bool
  | .num a, .num b => a == b
  | .chr a, .chr b => a == b
  | .fn a, .fn b => a == b
  | .arr sh k _ els, .arr sh' k' _ els' =>
    if sh != sh' then false
    else if els.length == 0 then true
    else if k.typed && k'.typed then (k == .num) == (k' == .num)
    else fillEqualL els els'
  | _, _ => false
def fillEqualL : List V → List V → Bool
  | [], _ => true
  | _ :: _, [] => false
  | a :: as, b :: bs => fillEqual a b && fillEqualL as bs
end

/-- With `bi_noFill`, which is an atom and equal to itself only. -/
def fillEqualO : Option V → Option V → Bool
  | none, none => true
  | some a, some b => fillEqual a b
  | _, _ => false

/-- `withFill`, `fillarr.c` lines 110-155: `reuse` is whether nothing else refers
to the array, `squoze` whether it has the flag that says that its type is the
smallest. -/
def withFill (reuse squoze : Bool) (x : V) (f : Option V) : V :=
  match x with
  | .arr sh k xf els =>
    if f.isNone && k != .farr then x
    else if k == .num && numFill f then x
    else if k == .chr && chrFill f then x
    else if k == .farr && fillEqualO xf f then x
    else if k == .farr && reuse then .arr sh .farr f els
    else if !squoze && numFill f && els.all V.isNum then .arr sh .num none els
    else if !squoze && chrFill f && els.all V.isChr then .arr sh .chr none els
    else .arr sh .farr f els
  | x => x

/- `asFill`, `fillarr.c` lines 3-30; the array made of the new elements is new, so has no
flags. -/
mutual
def asFill : V → Option V
  | .num _ => some (.num 0)
  | .chr _ => some (.chr 32)
  | .fn _ => none
  | .arr sh k f els =>
    match k with
    | .num => some (.arr sh .num none (List.replicate els.length (.num 0)))
    | .chr => some (.arr sh .chr none (List.replicate els.length (.chr 32)))
    | _ =>
      match asFillL els with
      | none => none
      | some r => some (withFill true false (.arr sh .harr none r) (getFill (.arr sh k f els)))
def asFillL : List V → Option (List V)
  | [] => some []
  | a :: as =>
    match asFill a with
    | none => none
    | some b =>
      match asFillL as with
      | none => none
      | some bs => some (b :: bs)
end

/-- `fill_both`, `fillarr.h` lines 127-134. -/
def fillBoth (w x : V) : Option V :=
  match getFill w with
  | none => none
  | some wf => if fillEqualO (some wf) (getFill x) then getFill x else none

/-- `m_oneItemArr`, `fillarr.c` lines 176-200, with `m_funit` and `m_fvec1`. -/
def oneItem (x : V) (rank1 : Bool) : V :=
  let sh := if rank1 then [1] else []
  match x with
  | .num _ => .arr sh .num none [x]
  | .chr _ => .arr sh .chr none [x]
  | _ =>
    if rank1 then .arr sh .farr (asFill x) [x]
    else
      match asFill x with
      | none => .arr sh .harr none [x]
      | some f => .arr sh .farr (some f) [x]

/-- `emptyVec`, lines 205-216, and, for other ranks, `emptyArr`, lines 218-227. -/
def emptyArr (sh : List Nat) : V → V
  | .arr _ .num _ _ => .arr sh .num none []
  | .arr _ .chr _ _ => .arr sh .chr none []
  | .arr _ _ f _ =>
    if numFill f then .arr sh .num none []
    else if chrFill f then .arr sh .chr none []
    else match f with
      | none => .arr sh .harr none []
      | some f => .arr sh .farr (some f) []
  | _ => .arr sh .harr none []

end Verif.Fills
