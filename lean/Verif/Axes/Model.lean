import Verif.Axes.Spec
/-!
# Select along several axes: model

`𝕨⊏𝕩` for a list `𝕨` of at least two elements that aren't all numbers: `select_depth2_impl`, `src/builtins/select.c` 352-389, with `select_depth2_parse_inds`, 221-263, `select_depth2_inds`, 275-306, and `select_depth2_select`, 311-350. What a list of one array does is in `Verif.Select`, as is `⊏` of the list of all elements, 344; Table is in `Verif.Table`; the copies of `cf_call`, 100-130, are taken to copy the elements that they are told to. Numbers are integers here, which all of those that occur are exactly.
-/
namespace Verif.Axes
open Verif.Rotate

/-- A shape and elements, an error, or undefined behaviour. -/
inductive Res (α : Type)
  | ok (sh : List Nat) (r : List α)
  | err
  | ub
  deriving DecidableEq

/-- One turn of the loop 237-258: the indices along an axis of length `l`, and the least and the greatest of them. `getRange_fns` gives these, or that there are others than integers. -/
def parseOne (l : Nat) (c : List (Option Int)) : Option (List Nat × Int × Int) :=
  match c.mapM id with
  | none => none
  | some [] => some ([], 0, 0)
  | some (v :: vs) =>
    let lo := vs.foldl min v
    let hi := vs.foldl max v
    if lo < -(l : Int) ∨ hi ≥ l then none
    else if lo < 0 then some ((v :: vs).map fun (e : Int) => (e + (l : Int) * (if e < 0 then 1 else 0)).toNat, lo, hi)
    else some ((v :: vs).map Int.toNat, lo, hi)

/-- `select_depth2_parse_inds` 237-261: the indices, and whether the last of them may be a range. -/
def parse : List Idx → List Nat → Option (List (List Nat) × Bool)
  | [], _ => some ([], false)
  | _ :: _, [] => none
  | w :: ws, l :: ls => (parseOne l w.is).bind fun c => match ws with
    | [] => some ([c.1], c.1.length != 0 && (decide (c.2.1 < 0) || c.2.2 + 1 - c.2.1 == c.1.length))
    | _ => (parse ws ls).map fun r => (c.1 :: r.1, r.2)

/-- The loop 301-304: the indices of each next axis, with its length. Table refuses results that are too large. -/
def starts : List Nat → List (List Nat × Nat) → Option (List Nat)
  | c, [] => some c
  | c, (p, l) :: rest =>
    let c := c.map (· * l)
    if c.length * p.length ≥ 2^32 then none
    else starts (c.flatMap fun a => p.map fun b => a + b) rest

/-- The loop 292 -/
def isRange (l : List Nat) : Bool := l == (List.range l.length).map fun i => l.headD 0 + i

/-- `Spans`, 271-274 -/
structure Spans where
  starts : List Nat
  span : Nat
  mul : Nat
  add : Nat
  deriving DecidableEq

/-- `select_depth2_inds`; `shProd` multiplies in 32 bits. -/
def spans (inds : List (List Nat)) (xsh : List Nat) (maybe : Bool) : Option Spans :=
  let n := inds.length
  let span := prod (xsh.drop n) % 2^32
  let l := inds.getLastD []
  if maybe && 3 < l.length && isRange l then
    (starts (inds.headD []) ((inds.dropLast.drop 1).zip (xsh.drop 1))).map fun c =>
      ⟨c, span * l.length, span * xsh.getD (n - 1) 0, l.headD 0 * span⟩
  else
    (starts (inds.headD []) ((inds.drop 1).zip (xsh.drop 1))).map fun c => ⟨c, span, span, 0⟩

variable {α : Type}

/-- The loops 325-329 and 331-335: `cap` is how many elements there is memory for. -/
def copies (span cap : Nat) (xs : List α) : List Nat → List α → Option (List α)
  | [], r => some r
  | p :: ps, r => if r.length + span ≤ cap ∧ p + span ≤ xs.length then copies span cap xs ps (r ++ (xs.drop p).take span) else none

/-- `select_depth2_select`: the elements, without the shape. `typed` is whether `𝕩` stores numbers or characters; `m_arrp_copyFill`, `src/utils/mut.c` 838-844, then keeps the length in 32 bits, and otherwise refuses lengths that are too large. -/
def select (typed : Bool) (s : Spans) (xs : List α) : Res α :=
  if s.span ≠ 1 then
    let n := s.starts.length * s.span
    if !typed && decide (n > 2^31 / 8 - 1000) then .err
    else match copies s.span (if typed then n % 2^32 else n) xs (s.starts.map fun c => s.add + s.mul * c) [] with
      | some r => .ok [] r
      | none => .ub
  else
    let c := if s.mul ≠ 1 then s.starts.map (· * s.mul) else s.starts
    let c := if s.add ≠ 0 then c.map (· + s.add) else c
    match c.mapM fun p => xs[p]? with
    | some r => .ok [] r
    | none => .err

/-- The number of elements, 245, in 64 bits. -/
def count (inds : List (List Nat)) : Nat := inds.foldl (fun p c => p * c.length % 2^64) 1

/-- `select_depth2_impl` -/
def selectAxes (typed : Bool) (w : List Idx) (xsh : List Nat) (xs : List α) : Res α :=
  if w.length > xsh.length then .err
  else match parse w xsh with
    | none => .err
    | some (inds, maybe) =>
      let rr := (w.map fun c => c.sh.length).foldl (· + ·) (xsh.length - w.length)
      if rr > 255 then .err
      else
        let r0 : Res α :=
          if count inds = 0 then .ok [] []
          else if xs.length = 0 then .ub
          else match spans inds xsh maybe with
            | none => .err
            | some s => select typed s xs
        match r0 with
        | .ok _ r => .ok (if rr ≥ 2 then (w.map Idx.sh).flatten ++ xsh.drop w.length else if rr = 1 then [r.length] else []) r
        | .err => .err
        | .ub => .ub

end Verif.Axes
