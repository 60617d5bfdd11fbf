import Verif.Table.Spec
import Verif.Reshape.Model
/-!
# Model of Table and of Each with one argument

`tbl_c2`, `each_c1` and `tbl_c1`, `/repo/src/builtins/md1.c` 39-162, and `eachm_fn`, `/repo/src/utils/each.c` 68-124. Fills and the types that arrays are stored with aren't modelled, so that neither is squeezing (C11).
-/
namespace Verif.Table
open Verif.Rotate (prod)
open Verif.Reshape (cycleItems)
variable {A : Type} {m : Type → Type}

/-- A call of a pervasive function. -/
def callP [Monad m] (fail : ∀ α, m α) (p : T A → T A → Option (T A)) (w x : T A) : m (T A) :=
  match p w x with
  | some r => pure r
  | none => fail _

/-- `replicate_by`, 69-73: each element `rep` times (C24). -/
def replicateBy (rep : Nat) (xs : List (T A)) : List (T A) := xs.flatMap fun a => List.replicate rep a

/-- The loops at `generic`, 127-137: `cs` is what's left of `𝕨`, and `r` what has been added to the result. -/
def inner [Monad m] (f : T A → T A → m (T A)) (cw : T A) : List (T A) → List (T A) → m (List (T A))
  | [], r => pure r
  | b :: bs, r => do
    let e ← f cw b
    inner f cw bs (r ++ [e])

def generic [Monad m] (f : T A → T A → m (T A)) (xs : List (T A)) : List (T A) → List (T A) → m (List (T A))
  | [], r => pure r
  | a :: as, r => do
    let r ← inner f a xs r
    generic f xs as r

/-- The loop of 116-120: the elements of each result are appended (C53). -/
def perElement [Monad m] (f : T A → T A → m (T A)) (x : T A) : List (T A) → List (T A) → m (List (T A))
  | [], r => pure r
  | a :: as, r => do
    let e ← f a x
    perElement f x as (r ++ e.els)

/-- Elements with the right shape. A number of elements that doesn't belong to the shape isn't noticed. -/
def shaped (sh : List Nat) (ria : Nat) (r : List (T A)) : Res A :=
  if r.length = ria then .ok (.arr sh r) else .undef

/-- `m_unit`, 75-76. -/
def unit : T A → T A
  | .atom a => .arr [] [.atom a]
  | x => x

/-- A pervasive operand, 100-125. `wd` and `xd` say that the type of the argument is one for atoms (`arrD1`), and `lx` is the logarithm of the number of bits of an element of `𝕩`. -/
def pervasive [Monad m] (fail : ∀ α, m α) (p : T A → T A → Option (T A)) (w x : T A) (sh : List Nat) (ria : Nat) (wd xd : Bool) (lx : Nat) : m (Res A) :=
  let wia := w.els.length
  let xia := x.els.length
  if ria = 0 then do
    let r ← callP fail p (.arr [0] []) (.arr [0] [])
    pure (shaped sh ria r.els)
  else if !wd then do
    let r ← generic (callP fail p) x.els w.els []
    pure (shaped sh ria r)
  else if xd ∧ wia ≥ 3 ∧ xia < 2560 >>> lx then do
    let r ← callP fail p (.arr [ria] (replicateBy xia w.els)) (.arr [ria] (cycleItems ria x.els))
    pure (shaped sh ria r.els)
  else if xia > 3 then do
    let r ← perElement (callP fail p) x w.els []
    pure (shaped sh ria r)
  else do
    let r ← generic (callP fail p) x.els w.els []
    pure (shaped sh ria r)

/-- `tbl_c2`, 74-162. Ranks have 8 bits; `uszMul` (`/repo/src/utils/builtins.h`, C36) is an error when the product is too large. -/
def tbl [Monad m] (fail : ∀ α, m α) (op : Op m A) (w x : T A) (wd xd : Bool) (lx : Nat) : m (Res A) :=
  let w := unit w
  let x := unit x
  let wr := w.sh.length % 2^8
  let xr := x.sh.length % 2^8
  let rr := (wr + xr) % 2^8
  if w.els.length * x.els.length ≥ 2^32 then pure .size
  else
    let ria := w.els.length * x.els.length
    if rr < xr then pure .rank
    else
      let sh := w.sh.take wr ++ x.sh.take xr
      match op with
      | .md => if ria > 0 then fail _ else pure (shaped sh ria [])
      | .const v => pure (shaped sh ria (List.replicate ria v))
      | .ltack => pure (shaped sh ria (replicateBy x.els.length w.els))
      | .rtack => pure (shaped sh ria (if ria ≤ x.els.length then x.els.take ria else cycleItems ria x.els))
      | .perv p => pervasive fail p w x sh ria wd xd lx
      | .fn f => do
        let r ← generic f x.els w.els []
        pure (shaped sh ria r)

/-- When nothing else refers to the argument the results are put in place of its elements, each.c 107-108: `mv` leaves a number, `zero`, and `f` gets what was there. `n` elements are left. -/
def inPlace [Monad m] (zero : T A) (f : T A → m (T A)) : Nat → Nat → List (T A) → m (List (T A))
  | 0, _, xp => pure xp
  | n+1, i, xp => do
    let a := xp.getD i zero
    let r ← f a
    inPlace zero f n (i+1) ((xp.set i zero).set i r)

/-- Otherwise they are put in a new array, 111-123. -/
def fresh [Monad m] (f : T A → m (T A)) : List (T A) → List (T A) → m (List (T A))
  | [], r => pure r
  | a :: as, r => do
    let e ← f a
    fresh f as (r ++ [e])

/-- `eachm_fn`, each.c 68-124; `reuse` says that nothing else refers to the argument and that its elements are stored as values. -/
def eachm [Monad m] (zero : T A) (reuse : Bool) (f : T A → m (T A)) (sh : List Nat) (xs : List (T A)) : m (T A) :=
  if xs.length = 0 then pure (.arr sh xs)
  else if reuse then do
    let r ← inPlace zero f xs.length 0 xs
    pure (.arr sh r)
  else do
    let r ← fresh f xs []
    pure (.arr sh r)

/-- `each_c1`, 39-60. -/
def each1 [Monad m] (fail : ∀ α, m α) (zero : T A) (reuse : Bool) (op : Op1 m A) (x : T A) : m (T A) :=
  match x with
  | .atom a => do
    let r ← op.run fail (.atom a)
    pure (.arr [] [r])
  | .arr sh xs =>
    match op with
    | .same => pure (.arr sh xs)
    | .fn f => eachm zero reuse f sh xs
    | .md => if xs.length > 0 then fail _ else pure (.arr sh [])
    | .const v => pure (.arr sh (List.replicate xs.length v))

/-! ## References to an operand that is an array -/

/-- `inc(f)`: one more place, and it's counted. -/
def Obj.inc (o : Obj) : Obj := ⟨o.count + 1, o.held + 1⟩

/-- Passing on a pointer to a function that takes it over, without `inc`. -/
def Obj.copy (o : Obj) : Obj := ⟨o.count, o.held + 1⟩

/-- `reshape_one`, `/repo/src/builtins/sfns.c` 171-176: `incBy(x, nia)`; there are `nia` elements that refer to `x` afterwards, and the pointer that was passed on is given to `asFill`, which takes it over. -/
def Obj.reshapeOne (nia : Nat) (o : Obj) : Obj := ⟨o.count + nia - 1, o.held + nia - 1⟩

/-- `each_c1`, line 54: `reshape_one(ia, inc(f))`. -/
def eachConst (n : Nat) (o : Obj) : Obj := o.inc.reshapeOne n

/-- `tbl_c2`, line 88: `reshape_one(ria, f)`. -/
def tblConst (n : Nat) (o : Obj) : Obj := o.copy.reshapeOne n

/-- An array of `n` elements that refer to it is freed. -/
def Obj.release (n : Nat) (o : Obj) : Obj := ⟨o.count - n, o.held - n⟩

end Verif.Table
