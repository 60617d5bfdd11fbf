import Verif.Repeat.Spec
/-!
# Model of Repeat and •_while_

`repeat_bounds`, `repeat_replace`, `REPEAT_T` and `while_c1`, `/repo/src/builtins/md2.c` 59-134 and 194-206; `getRange_fns`, `/repo/src/builtins/search.c` 53-66 and 589-595. With two arguments `𝕨` is passed on to every call, so that functions are called on `𝕩` and what they do may depend on `𝕨`. Not modelled are reference counts, and squeezing (C11).
-/
namespace Verif.Repeat
variable {X : Type} {m : Type → Type}

/-- `bound`. -/
structure Bound where
  lo : Int
  hi : Int

/-- `UPD_BOUNDS`: 81-82. -/
def upd (b : Bound) (c : Int) : Bound :=
  let b := if c < b.lo then { b with lo := c } else b
  if c > b.hi then { b with hi := c } else b

/-- `getRange_i8` and so on, `getRange_f64`, search.c 53-66: the least and greatest one, `none` when there is one that isn't an integer. -/
def rangeLoop : Int → Int → List (Option Int) → Option Bound
  | min, max, [] => some ⟨min, max⟩
  | _, _, none :: _ => none
  | min, max, some c :: cs => rangeLoop (if c < min then c else min) (if c > max then c else max) cs

def getRange : List (Option Int) → Option Bound
  | some c :: cs => rangeLoop c c cs
  | _ => none

/-- `getRangeBool`, search.c 589-595. -/
def getRangeBool : List Bool → Option Bound
  | [] => none
  | b :: bs => if (b :: bs).any (fun c => c == !b) then some ⟨0, 1⟩ else some ⟨b.toNat, b.toNat⟩

/-- 73-74. -/
def widen (b r : Bound) : Bound :=
  let b := if r.lo < b.lo then { b with lo := r.lo } else b
  if r.hi > b.hi then { b with hi := r.hi } else b

mutual
/-- `repeat_bounds`, 64-85. `none` is an error. -/
def bounds (b : Bound) : G → Option Bound
  | .bits _ bs => if bs.length = 0 then some b else (getRangeBool bs).map (widen b)
  | .nums _ ns => if ns.length = 0 then some b else (getRange ns).map (widen b)
  | .boxed _ gs => boundsL b gs
  | .num (some c) => some (upd b c)
  | .num none => none
  | .other => none
def boundsL (b : Bound) : List G → Option Bound
  | [] => some b
  | g :: gs => (bounds b g).bind fun b => boundsL b gs
end

/-- `q[i]`; `q` points at element `min` of the memory. `none` is memory that isn't set. -/
def lookup (mem : List (Option X)) (min : Nat) (i : Int) : Option X :=
  if 0 ≤ min + i then (mem[(min + i).toNat]?).join else none

mutual
/-- `repeat_replace` and `repeat_replaceR`, 86-98. -/
def replaceC (mem : List (Option X)) (min : Nat) : G → Option (R X)
  | .num n => (n.bind (lookup mem min)).map .val
  | .other => none
  | .bits sh bs => (bs.mapM fun b => (lookup mem min b.toNat).map R.val).map (.arr sh)
  | .nums sh ns => (ns.mapM fun (n : Option Int) => (n.bind (lookup mem min)).map R.val).map (.arr sh)
  | .boxed sh gs => (replaceCL mem min gs).map (.arr sh)
def replaceCL (mem : List (Option X)) (min : Nat) : List G → Option (List (R X))
  | [] => some []
  | g :: gs => (replaceC mem min g).bind fun r => (replaceCL mem min gs).map fun rs => r :: rs
end

/-- `for (i64 i = 0; i < am; i++) x = CN(f, x)`, 104. -/
def times [Monad m] (f : X → m X) : Nat → X → m X
  | 0, x => pure x
  | n+1, x => do
    let x ← f x
    times f n x

/-- `for (i64 i = 0; i < n; i++) all[pos(i)] = x = CN(f, x)`, 119 and 123. `n` are left. -/
def store [Monad m] (f : X → m X) (pos : Nat → Nat) : Nat → Nat → X → List (Option X) → m (List (Option X))
  | 0, _, _, mem => pure mem
  | n+1, i, x, mem => do
    let x ← f x
    store f pos n (i+1) x (mem.set (pos i) (some x))

/-- `(min|max) >> 48 != 0`, 112, for `i64 min = -(u64)bound[0]`. -/
def outside (lo hi : Int) : Bool := ((BitVec.ofInt 64 (-lo) ||| BitVec.ofInt 64 hi).sshiftRight 48) != 0#64

/-- Calls of the inverse, 115-122. -/
def below [Monad m] (undo : X → m X) (x : X) (min : Nat) (mem : List (Option X)) : m (List (Option X)) :=
  if min ≠ 0 then store undo (fun i => min - 1 - i) min 0 x mem else pure mem

/-- Calls of the function and the result, 123-129. `undef` stands for memory that isn't there or isn't set. -/
def above [Monad m] (undef : ∀ α, m α) (f : X → m X) (g : G) (x : X) (min max : Nat) (mem : List (Option X)) : m (R X) := do
  let mem ← store f (fun i => min + (i + 1)) max 0 x mem
  match replaceC mem min g with
  | some r => pure r
  | none => undef _

/-- 113-129. -/
def both [Monad m] (undef : ∀ α, m α) (f undo : X → m X) (g : G) (x : X) (min max : Nat) : m (R X) := do
  let mem ← below undo x min ((List.replicate (min + max + 1) none).set min (some x))
  above undef f g x min max mem

/-- From line 109 on. -/
def several [Monad m] (fail undef : ∀ α, m α) (f undo : X → m X) (g : G) (x : X) : m (R X) :=
  match bounds ⟨0, 0⟩ g with
  | none => fail _
  | some b => if outside b.lo b.hi then fail _ else both undef f undo g x (-b.lo).toNat b.hi.toNat

/-- What's done for the value of `𝔾`, 102-129. -/
def given [Monad m] (fail undef : ∀ α, m α) (f undo : X → m X) (x : X) (gv : G) : m (R X) :=
  match gv with
  | .num none => fail _
  | .num (some am) =>
    if am ≥ 0 then do
      let r ← times f am.toNat x
      pure (.val r)
    else several fail undef f undo gv x
  | _ => several fail undef f undo gv x

/-- `REPEAT_T`, 99-129. -/
def repeatC [Monad m] (fail undef : ∀ α, m α) (g : X → m G) (f undo : X → m X) (x : X) : m (R X) := do
  let gv ← g x
  given fail undef f undo x gv

/-- `while_c1` and `while_c2`, 194-206, for at most `fuel` calls of the condition. `o2b` fails on what isn't 0 or 1. The result `none` is that it hasn't ended. -/
def whileC [Monad m] (fail : ∀ α, m α) (g : X → m (Option Bool)) (f : X → m X) : Nat → X → m (Option X)
  | 0, _ => pure none
  | n+1, x => do
    match ← g x with
    | none => fail _
    | some false => pure (some x)
    | some true => do
      let x ← f x
      whileC fail g f n x

end Verif.Repeat
