import Verif.EachRef.Spec
/-
C87: what combinators call, in which order, without references.

Values are numbers that tell which value it is, functions included.  `fn` tells the functions; applying anything else
gives that value back.  Call number `n` of a run returns `res n`, which can be any value.
-/
namespace Verif.CombRef
open Verif.EachRef (V Hand one)

/-- A reference, if there is a value. -/
def oneO : Option V → Hand
  | none => fun _ => 0
  | some v => one v

/-- A call: the function, `𝕨` if there is one, `𝕩`. -/
abbrev Call := V × Option V × V

/-- Applying a function or constant: the result, and all calls until now. -/
def apply (res : Nat → V) (fn : V → Bool) (f : V) (w : Option V) (x : V) (cs : List Call) : V × List Call :=
  if fn f then (res cs.length, cs ++ [(f, w, x)]) else (f, cs)

/-- `𝔽⊸𝔾`: `𝔽` gets `𝕨`, or `𝕩` if there is none. -/
def beforeSpec (res : Nat → V) (fn : V → Bool) (f g : V) (w : Option V) (x : V) (cs : List Call) : V × List Call :=
  let a := apply res fn f none (w.getD x) cs
  apply res fn g (some a.1) x a.2

/-- `𝔽⟜𝔾`: `𝔾` gets `𝕩`; `𝔽` gets `𝕨`, or `𝕩` if there is none, and that result. -/
def afterSpec (res : Nat → V) (fn : V → Bool) (f g : V) (w : Option V) (x : V) (cs : List Call) : V × List Call :=
  let b := apply res fn g none x cs
  apply res fn f (some (w.getD x)) b.1 b.2

/-- `𝔽∘𝔾`. -/
def atopSpec (res : Nat → V) (fn : V → Bool) (f g : V) (w : Option V) (x : V) (cs : List Call) : V × List Call :=
  let b := apply res fn g w x cs
  apply res fn f none b.1 b.2

/-- `𝔽○𝔾` of two arguments, the right one first. -/
def overSpec (res : Nat → V) (fn : V → Bool) (f g w x : V) (cs : List Call) : V × List Call :=
  let b := apply res fn g none x cs
  let a := apply res fn g none w b.2
  apply res fn f (some a.1) b.1 a.2

/-- `𝔽◶𝕘`: `sel` is what the result of `𝔽` picks from `𝕘`. -/
def condSpec (res : Nat → V) (fn : V → Bool) (sel : V → V) (f : V) (w : Option V) (x : V) (cs : List Call) : V × List Call :=
  let a := apply res fn f w x cs
  apply res fn (sel a.1) w x a.2

/-- `𝔽•_while_𝔾`, for at most `n` turns; `none` if that is not enough.  `tr` tells which results of `𝔾` are 1. -/
def whileSpec (res : Nat → V) (fn tr : V → Bool) (f g : V) (w : Option V) : Nat → V → List Call → Option (V × List Call)
  | 0, _, _ => none
  | n + 1, x, cs =>
    let a := apply res fn g w x cs
    if tr a.1 then
      let b := apply res fn f w x a.2
      whileSpec res fn tr f g w n b.1 b.2
    else some (x, a.2)

/-- A function applied `n` times: the results, and the calls. -/
def times (res : Nat → V) (fn : V → Bool) (f : V) (w : Option V) : Nat → V → List Call → List V × List Call
  | 0, _, cs => ([], cs)
  | n + 1, x, cs =>
    let a := apply res fn f w x cs
    let r := times res fn f w n a.1 a.2
    (a.1 :: r.1, r.2)

/-- The largest of the numbers as a natural number, 0 if all are negative. -/
def top (l : List Int) : Nat := l.foldr (fun i n => max i.toNat n) 0

/-- The result of `𝔾` of `⍟`: a number, or an array of numbers (nested arrays are flattened here). -/
inductive Counts
  | num (i : Int)
  | arr (l : List Int)

/-- The result for a number: `𝕩`, or one of those of the inverse or of the function. -/
def resultAt (neg pos : List V) (x : V) : Int → V
  | .ofNat 0 => x
  | .ofNat (k + 1) => pos.getD k 0
  | .negSucc k => neg.getD k 0

/-- `𝔽⍟𝔾`: `fi` is the inverse of `𝔽`.  A number of calls gives the last result; for an array the value
`new` of the results is made, after as many calls of `fi`, then of `𝔽`, as the furthest number needs. -/
def repeatSpec (res : Nat → V) (fn : V → Bool) (cnt : V → Counts) (fi : V) (new : List V → V) (f g : V)
    (w : Option V) (x : V) (cs : List Call) :
    V × List Call :=
  let a := apply res fn g w x cs
  match cnt a.1 with
  | .num (.ofNat n) =>
    let t := times res fn f w n x a.2
    (t.1.getLast?.getD x, t.2)
  | .num (.negSucc m) =>
    let t := times res fn fi w (m + 1) x a.2
    (t.1.getLast?.getD x, t.2)
  | .arr l =>
    let neg := times res fn fi w (top (l.map fun i => -i)) x a.2
    let pos := times res fn f w (top l) x neg.2
    (new (l.map (resultAt neg.1 pos.1 x)), pos.2)

end Verif.CombRef
