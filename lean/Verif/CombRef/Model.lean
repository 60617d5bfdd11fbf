import Verif.CombRef.Spec
/-
Combinators in `src/builtins/md2.c` as what they do with references; `c1`, `c2`, `c1I`, `c2I`, `c1iX`, `c2iWX` in
`src/h.h` 698-729.  `none` is a reference given away that is not owned, or a function called that nothing holds.

What the caller holds during the call, the operands, is in the ledger too, and has to be there at the end.

Simplified: errors are left out, and with them modifiers as operands; numbers, which have no references, are treated
like other values, and a number that is read is given away then; functions to do with validation are left out.
-/
namespace Verif.CombRef
open Verif.EachRef (V Hand one)

structure T where
  hand : Hand
  calls : List Call

/-- `inc`. -/
def T.inc (s : T) (v : V) : T := { s with hand := fun i => s.hand i + one v i }

/-- `inc(w)` where there is a `𝕨`. -/
def T.incO (s : T) : Option V → T
  | none => s
  | some w => s.inc w

/-- `dec`, or an argument that is consumed. -/
def T.give (s : T) (v : V) : Option T :=
  if s.hand v = 0 then none else some { s with hand := fun i => s.hand i - one v i }

def T.giveO (s : T) : Option V → Option T
  | none => some s
  | some w => s.give w

/-- `for (…) dec(all[i])`. -/
def T.giveAll : List V → T → Option T
  | [], s => some s
  | v :: vs, s => (s.give v).bind (giveAll vs)

/-- `m1_d`, `m2_d`, `m_harr…`: a new value that holds others. -/
def T.build (s : T) (parts : List V) (new : V) : Option T := (s.giveAll parts).map fun s => s.inc new

/-- `c1`, `c2`, `c1I`, `c2I`: h.h 702-721.  `holder` is what keeps the function while it runs. -/
def T.app (res : Nat → V) (fn : V → Bool) (holder f : V) (w : Option V) (x : V) (s : T) : Option (V × T) := do
  let s ← s.giveO w
  let s ← s.give x
  if s.hand holder = 0 then none
  else if fn f then
    let r := res s.calls.length
    some (r, { s.inc r with calls := s.calls ++ [(f, w, x)] })
  else some (f, s.inc f)

/-- `c1iX`, `c2iWX`: h.h 722-729. -/
def T.appKeep (res : Nat → V) (fn : V → Bool) (f : V) (w : Option V) (x : V) (s : T) : Option (V × T) :=
  if fn f then ((s.incO w).inc x).app res fn f f w x
  else if s.hand f = 0 then none
  else some (f, s.inc f)

/-- `before_c1`, `before_c1F`, `before_c2`: md2.c 136-140. -/
def before (res : Nat → V) (fn : V → Bool) (f g : V) (w : Option V) (x : V) (s : T) : Option (V × T) :=
  match w with
  | none =>
    if fn f then do
      let (a, s) ← (s.inc x).app res fn f f none x
      s.app res fn g g (some a) x
    else if s.hand f = 0 then none
    else (s.inc f).app res fn g g (some f) x
  | some w => do
    let (a, s) ← s.app res fn f f none w
    s.app res fn g g (some a) x

/-- `after_c1`, `after_c1F`, `after_c2`: md2.c 137-141. -/
def after (res : Nat → V) (fn : V → Bool) (f g : V) (w : Option V) (x : V) (s : T) : Option (V × T) :=
  match w with
  | none =>
    if fn g then do
      let (b, s) ← (s.inc x).app res fn g g none x
      s.app res fn f f (some x) b
    else if s.hand g = 0 then none
    else (s.inc g).app res fn f f (some x) g
  | some w => do
    let (b, s) ← s.app res fn g g none x
    s.app res fn f f (some w) b

/-- `atop_c1`, `atop_c2`, `over_c1`: md2.c 142-144. -/
def atop (res : Nat → V) (fn : V → Bool) (f g : V) (w : Option V) (x : V) (s : T) : Option (V × T) := do
  let (b, s) ← s.app res fn g g w x
  s.app res fn f f none b

/-- `over_c2`: md2.c 145. -/
def over (res : Nat → V) (fn : V → Bool) (f g w x : V) (s : T) : Option (V × T) := do
  let (b, s) ← s.app res fn g g none x
  let (a, s) ← s.app res fn g g none w
  s.app res fn f f (some a) b

/-- `cond_c1`, `cond_c2`: md2.c 149-174.  `num` tells the numbers, `sel` is the element of `𝕘` that is picked. -/
def cond (res : Nat → V) (fn num : V → Bool) (sel : V → V) (f g : V) (w : Option V) (x : V) (s : T) : Option (V × T) := do
  let (fr, s) ← s.appKeep res fn f w x
  if num fr then
    let s ← s.give fr
    s.app res fn g (sel fr) w x
  else
    -- `C2(pick, fr, inc(g))`
    if s.hand g = 0 then none
    else
      let s ← (s.inc g).give fr
      let s ← s.give g
      let h := sel fr
      let (r, s) ← (s.inc h).app res fn h h w x
      let s ← s.give h
      some (r, s)

/-- What running for some turns leads to. -/
inductive Out
  | misuse
  | running
  | done (r : V) (s : T)

/-- `while_c1`, `while_c2`: md2.c 194-206, for at most `n` turns. -/
def whileC (res : Nat → V) (fn tr : V → Bool) (f g : V) (w : Option V) : Nat → V → T → Out
  | 0, _, _ => .running
  | n + 1, x, s =>
    match ((s.incO w).inc x).app res fn g g w x with
    | none => .misuse
    | some (c, s) => match s.give c with
      | none => .misuse
      | some s =>
        if tr c then match (s.incO w).app res fn f f w x with
          | none => .misuse
          | some (x, s) => whileC res fn tr f g w n x s
        else match s.giveO w with
          | none => .misuse
          | some s => .done x s

/-- The loop of `⍟` for a number, md2.c 104. -/
def plainLoop (res : Nat → V) (fn : V → Bool) (f : V) (w : Option V) : Nat → V → T → Option (V × T)
  | 0, x, s => some (x, s)
  | n + 1, x, s => do
    let (x, s) ← (s.incO w).app res fn f f w x
    plainLoop res fn f w n x s

/-- The loops that keep all results, md2.c 119 and 123: the results, and the last one. -/
def keepLoop (res : Nat → V) (fn : V → Bool) (f : V) (w : Option V) : Nat → V → T → Option (List V × V × T)
  | 0, x, s => some ([], x, s)
  | n + 1, x, s => do
    let (x, s) ← (s.incO w).app res fn f f w x
    let (l, y, s) ← keepLoop res fn f w n x (s.inc x)
    some (x :: l, y, s)

/-- `repeat_replace`, md2.c 87-97: one reference for each number of `𝔾`. -/
def picks (all : List V) (min : Nat) : List Int → T → Option (List V × T)
  | [], s => some ([], s)
  | i :: l, s =>
    match all[((min : Int) + i).toNat]? with
    | none => none
    | some v => if s.hand v = 0 then none else (picks all min l (s.inc v)).map fun p => (v :: p.1, p.2)

/-- The inverse part, md2.c 116-122: `undo` is `⁼`, `fi` the derived inverse. -/
def negPart (res : Nat → V) (fn : V → Bool) (undo fi f : V) (w : Option V) (n : Nat) (x : V) (s : T) : Option (List V × T) :=
  if n = 0 then some ([], s)
  else do
    let s ← (((s.inc x).inc undo).inc f).build [undo, f] fi
    let (neg, x2, s) ← keepLoop res fn fi w n x s
    let s ← s.give x2
    let s ← s.give fi
    some (neg, s)

/-- md2.c 110-125: all results, and those that are picked. -/
def allResults (res : Nat → V) (fn : V → Bool) (undo fi f : V) (w : Option V) (l : List Int) (x : V) (s : T) :
    Option (List V × List V × T) := do
  let min := top (l.map fun i => -i)
  let max := top l
  let s := s.inc x                                                      -- `q[0] = inc(x)`
  let (neg, s) ← negPart res fn undo fi f w min x s
  let (pos, y, s) ← keepLoop res fn f w max x s
  let s ← s.give y
  let all := neg.reverse ++ x :: pos
  let (p, s) ← picks all min l s
  some (all, p, s)

/-- md2.c 126-129. -/
def finish (gr : V) (all : List V) (w : Option V) (r : V) (s : T) : Option (V × T) := do
  let s ← s.give gr
  let s ← s.giveAll all
  let s ← s.giveO w
  some (r, s)

/-- `REPEAT_T`, md2.c 98-132.  `cnt` reads the result of `𝔾`; `new` tells the array of values made by `repeat_replaceR`. -/
def repeatC (res : Nat → V) (fn : V → Bool) (cnt : V → Counts) (undo fi : V) (new : List V → V) (f g : V)
    (w : Option V) (x : V) (s : T) :
    Option (V × T) := do
  let (gr, s) ← ((s.incO w).inc x).app res fn g g w x
  match cnt gr with
  | .num (.ofNat n) => do
    let s ← s.give gr
    let (x, s) ← plainLoop res fn f w n x s
    let s ← s.giveO w
    some (x, s)
  | .num (.negSucc m) => do
    let (all, p, s) ← allResults res fn undo fi f w [.negSucc m] x s
    match p with
    | [v] => finish gr all w v s
    | _ => none
  | .arr l => do
    let (all, p, s) ← allResults res fn undo fi f w l x s
    let s ← s.build p (new p)
    finish gr all w (new p) s

/-- `under_c2`, md2.c 179-184: `uc1` calls `TI(g,fn_uc1)(g, f2, x)`, taken as a call of `ug`. -/
def underC (res : Nat → V) (fn : V → Bool) (bef f2 ug f g w x : V) (s : T) : Option (V × T) := do
  let (a, s) ← s.app res fn g g none w
  let s ← ((s.inc bef).inc f).build [bef, a, f] f2
  let s ← s.give x
  if s.hand f2 = 0 then none
  else
    let r := res s.calls.length
    let s := { s.inc r with calls := s.calls ++ [(ug, some f2, x)] }
    let s ← s.give f2
    some (r, s)

end Verif.CombRef
