import Verif.EachRef.Spec
/-
`eachd_fn` and `eachm_fn`, `src/utils/each.c` 5-126, as what they do with references.  `none` is a reference given away
that is not owned, an array read that is not owned, a store over an element that is still there, or an element that is
not there.

Simplified: the function called takes the references to its arguments and gives one to its result, which is any value;
errors are left out, as is squeezing; numbers, which have no references, are treated like other values.
-/
namespace Verif.EachRef

structure S where
  hand : Hand
  /-- The array that becomes the result: `none` for an element that was moved out or is not there yet. -/
  slots : List (Option V)
  /-- The calls made. -/
  calls : List (Option V × V)

/-- `inc`, `incBy`. -/
def S.inc (s : S) (v : V) (k : Nat) : S := { s with hand := fun i => s.hand i + k * one v i }

/-- A reference given away: `dec`, or an argument that is consumed. -/
def S.give (s : S) (v : V) : Option S :=
  if s.hand v = 0 then none else some { s with hand := fun i => s.hand i - one v i }

/-- `mv`, `hmv`: 5-6. -/
def S.move (s : S) (i : Nat) : Option (V × S) :=
  match s.slots[i]? with
  | some (some v) => some (v, { s.inc v 1 with slots := s.slots.set i none })
  | _ => none

/-- `r.a[i] = v`, `HARR_ADD`. -/
def S.put (s : S) (i : Nat) (v : V) : Option S :=
  match s.slots[i]? with
  | some none => (s.give v).map fun s => { s with slots := s.slots.set i (some v) }
  | _ => none

/-- Where an argument of the calls comes from. -/
inductive Src
  /-- No argument. -/
  | no
  /-- A value of which enough references were made before. -/
  | copy (v : V)
  /-- `Get(a,i)`. -/
  | get (a : V) (els : List V)
  /-- `mv(p,i)`. -/
  | move

def S.fetch (s : S) (i : Nat) : Src → Option (Option V × S)
  | .no => some (none, s)
  | .copy v => some (some v, s)
  | .get a els => if s.hand a = 0 then none else els[i]?.map fun v => (some v, s.inc v 1)
  | .move => (s.move i).map fun p => (some p.1, p.2)

/-- A call; the result of call `n` is `res n`. -/
def S.call (res : Nat → V) (s : S) (w : Option V) (x : V) : Option (V × S) := do
  let s ← match w with
    | none => some s
    | some w => s.give w
  let s ← s.give x
  let r := res s.calls.length
  some (r, { s.inc r 1 with calls := s.calls ++ [(w, x)] })

/-- One turn: `r.a[i] = f(fo, w, x)`. -/
def S.turn (res : Nat → V) (ws xs : Src) (i : Nat) (s : S) : Option S := do
  let (w, s) ← s.fetch i ws
  let (x, s) ← s.fetch i xs
  match x with
  | none => none
  | some x =>
    let (r, s) ← s.call res w x
    s.put i r

/-- The loops. -/
def loop (res : Nat → V) (ws xs : Src) : Nat → Nat → S → Option S
  | 0, _, s => some s
  | n + 1, i, s => (s.turn res ws xs i).bind (loop res ws xs n (i + 1))

/-- The nested loops, 61-62: `small` is the argument with fewer elements, `left` whether it is `𝕨`. -/
def blocks (res : Nat → V) (left : Bool) (small : V) (big : Src) (ext : Nat) : List V → Nat → S → Option S
  | [], _, s => some s
  | c :: cs, i, s =>
    if s.hand small = 0 then none
    else
      let s := (s.inc c 1).inc c (ext - 1)
      (if left then loop res (.copy c) big ext i s else loop res big (.copy c) ext i s).bind
        (blocks res left small big ext cs (i + ext))

/-- Ranks, and disclosing: 10-11. -/
def S.disclose (s : S) (a : Arg) : Option (V × S) :=
  if a.isArr ∧ a.rank = 0 then
    if s.hand a.v = 0 then none
    else match a.els[0]? with
      | none => none
      | some e => ((s.inc e 1).give a.v).map fun s => (e, s)
  else some (a.v, s)

/-- `eachd_fn`, 8-68.  `new` is the array that is allocated; `const` is `fo` if `f` is `arr_c2`. -/
def eachd (res : Nat → V) (new : V) (const : Option V) (w x : Arg) (s : S) : Option S := do
  let (wv, s) ← s.disclose w
  let (xv, s) ← s.disclose x
  let wr := w.rank
  let xr := x.rank
  let wg := decide (xr < wr)
  let rM := if wg then wr else xr
  let rm := if wg then xr else wr
  if rM = 0 then
    -- `squeezed_unit` puts the result into a new array
    let s ← ({ s.inc new 1 with slots := [none] }).turn res (.copy wv) (.copy xv) 0
    s.give new
  else
    let rw := decide (rM = wr) && w.reuse
    let rx := decide (rM = xr) && x.reuse
    if (rw || rx) && (decide (wr = xr) || decide (rm = 0)) then
      let els := if rw then w.els else x.els
      let r := if rw then wv else xv
      let ria := els.length
      -- storing into an array that may be in use elsewhere is misuse
      let s ← if (if rw then w else x).reuse then some { s with slots := els.map some } else none
      let s ←
        if 0 < ria then
          if wr = 0 then loop res (.copy wv) .move ria 0 (s.inc wv (ria - 1))
          else if xr = 0 then loop res .move (.copy xv) ria 0 (s.inc xv (ria - 1))
          else
            (if rw then loop res .move (.get xv x.els) ria 0 s else loop res (.get wv w.els) .move ria 0 s).bind
              fun s => s.give (if rw then xv else wv)
        else s.give (if rw then xv else wv)
      s.give r
    else
      let ria := if wg then w.els.length else x.els.length
      let s := { s.inc new 1 with slots := List.replicate ria none }
      let s ←
        if ria = 0 then some s
        else match const with
        | some fo => some { s with slots := List.replicate ria (some fo) }   -- `mut_fill` makes its own references
        | none =>
          if wr = xr then loop res (.get wv w.els) (.get xv x.els) ria 0 s
          else if wr = 0 then loop res (.copy wv) (.get xv x.els) ria 0 (s.inc wv ria)
          else if xr = 0 then loop res (.get wv w.els) (.copy xv) ria 0 (s.inc xv ria)
          else if wg then blocks res false xv (.get wv w.els) (ria / x.els.length) x.els 0 s
          else blocks res true wv (.get xv x.els) (ria / w.els.length) w.els 0 s
      let s ← s.give wv
      let s ← s.give xv
      s.give new

/-- What the storage of the argument of `eachm_fn` is, if it may be overwritten: 74-105. -/
inductive Kind
  | harr
  /-- With its fill. -/
  | fillarr (fill : V)
  /-- A slice of all of array `p`, which nothing else uses; `p` is of one of the other two kinds. -/
  | slice (p : V) (fill : Option V)
  /-- Anything else. -/
  | other
deriving DecidableEq

/-- `eachm_fn`, 70-126. -/
def eachm (res : Nat → V) (new : V) (kind : Kind) (x : V) (els : List V) (s : S) : Option S :=
  let ia := els.length
  if ia = 0 then s.give x
  else
    -- 108-110; `dropFill`: the reference of the fill is taken out and given away, 77-78
    let overwrite := fun (r : V) (fill : Option V) (s : S) => do
      let s ← match fill with
        | none => some s
        | some v => (s.inc v 1).give v
      let s ← loop res .no .move ia 0 { s with slots := els.map some }
      s.give r
    match kind with
    | .harr => overwrite x none s
    | .fillarr v => overwrite x (some v) s
    | .slice p fill => do
      -- 99-100: the reference to `p` that the freed slice held is left to us
      let s ← (s.inc p 1).give x
      overwrite p fill s
    | .other => do
      let s ← loop res .no (.get x els) ia 0 { s.inc new 1 with slots := List.replicate ia none }
      let s ← s.give x
      s.give new

end Verif.EachRef
