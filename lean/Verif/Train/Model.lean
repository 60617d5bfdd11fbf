import Verif.Train.Spec
/-!
# Trains and combinators: model

`src/core/derv.c` 20-86, `src/builtins/md2.c` 8-9 and 136-180, `src/builtins/md1.c` 173-177, `src/h.h` 702-732, `src/core/stuff.c` 43-48.

The state has, for each object, the number of references that the running C functions hold. Functions that are called don't own themselves or their parts: whoever calls them keeps them. A fork stores which of its functions to use after the first call; that depends only on its parts, which don't change, so here it's found at each call.
-/
namespace Verif.Train

/-- A result with the references that are held and the state, an error, the use of a reference that isn't held, or that the number of nested calls is reached. -/
inductive Out (σ β : Type)
  | ok (r : β) (H : Nat → Nat) (s : σ)
  | err
  | ub
  | out

def M (σ β : Type) := (Nat → Nat) → σ → Out σ β

instance {σ} : Monad (M σ) where
  pure r := fun H s => .ok r H s
  bind m k := fun H s => match m H s with
    | .ok r H s => k r H s
    | .err => .err
    | .ub => .ub
    | .out => .out

def fail {σ β} : M σ β := fun _ _ => .err

def V.id? : V → Option Nat
  | .num _ | .chr _ => none
  | .arr id _ _ | .ns id | .md id | .fn id | .fork id .. | .atop id .. | .md1 id .. | .md2 id .. => some id

def bump (i : Nat) (f : Nat → Nat) (H : Nat → Nat) : Nat → Nat := fun j => if j = i then f (H j) else H j

/-- `inc(x)` of a value that is held. -/
def inc {σ} (v : V) : M σ V := fun H s => match v.id? with
  | none => .ok v H s
  | some i => if H i = 0 then .ub else .ok v (bump i (· + 1) H) s

/-- `inc(x)` of a part of the function that is called, which keeps it. -/
def incPart {σ} (v : V) : M σ V := fun H s => match v.id? with
  | none => .ok v H s
  | some i => .ok v (bump i (· + 1) H) s

/-- `dec(x)`, or giving a value to a function that consumes it. -/
def dec {σ} (v : V) : M σ Unit := fun H s => match v.id? with
  | none => .ok () H s
  | some i => if H i = 0 then .ub else .ok () (bump i (· - 1) H) s

def decArgs {σ} (w : Option V) (x : V) : M σ Unit := do
  match w with
  | none => pure ()
  | some w => dec w
  dec x

/-- Any other function: it consumes its arguments, and the caller gets a reference to the result. -/
def runPrim {σ} (P : Prims σ) (i : Nat) (w : Option V) (x : V) : M σ V := do
  decArgs w x
  let r ← fun H s => match P.fn i w x s with
    | none => .err
    | some (r, s) => .ok r H s
  incPart r

/-- `isVal`: whether it's an object. -/
def V.isVal (v : V) : Bool := v.id?.isSome
def V.isNum : V → Bool
  | .num _ => true
  | _ => false
/-- `isCallable`, `h.h` 479 -/
def V.isCallable (v : V) : Bool := v.isFun || v.isMd

/-- `errMd`, `h.h` 710 -/
def errMd {σ} (f : V) : M σ Unit := if f.isMd then fail else pure ()

/-- `WRAP`, `src/core/stuff.h` 75: an index, from the end if it's negative. -/
def wrap (i : Int) (n : Nat) : Option Nat :=
  let i := if i < 0 then i + n else i
  if i < 0 ∨ i ≥ n then none else some i.toNat

section
variable {σ : Type} (P : Prims σ) (call : V → Option V → V → M σ V)

/-- `c1` and `c2`, `h.h` 702-709, with `c1F` and `c2F`; also `c1I` and `c2I`, 712-721. -/
def cN (f : V) (w : Option V) (x : V) : M σ V :=
  if f.isFun then call f w x
  else do
    decArgs w x
    errMd f
    incPart f

/-- `c1iX` and `c2iWX`, 722-729 -/
def ciN (f : V) (w : Option V) (x : V) : M σ V :=
  if f.isFun then do
    match w with
    | none => pure ()
    | some w => discard (inc w)
    let x ← inc x
    call f w x
  else do
    errMd f
    incPart f

def incArgs (w : Option V) (x : V) : M σ Unit := do
  match w with
  | none => pure ()
  | some w => discard (inc w)
  discard (inc x)

/-- `fork_c1` and `fork_c2`, `derv.c` 27-86: the general one, `fff`, `vff` and `nff`. -/
def forkN (f g h : V) (w : Option V) (x : V) : M σ V :=
  if g.isFun = false ∨ h.isFun = false then do
    incArgs w x
    let hr ← cN call h w x
    let fr ← cN call f w x
    cN call g (some fr) hr
  else if f.isFun then do
    incArgs w x
    let hr ← call h w x
    let fr ← call f w x
    call g (some fr) hr
  else if f.isVal then do
    let hr ← call h w x
    let fr ← incPart f
    call g (some fr) hr
  else do
    let hr ← call h w x
    call g (some f) hr

/-- `cond_c1` and `cond_c2`, `md2.c` 149-176 -/
def condN (f g : V) (w : Option V) (x : V) : M σ V := do
  let fr ← ciN call f w x
  if fr.isNum then
    match g, fr with
    | .arr _ true els, .num (some i) => match wrap i els.length with
      | none => fail
      | some k => match els[k]? with
        | none => fun _ _ => .ub
        | some e => cN call e w x
    | _, _ => fail
  else do
    let g ← incPart g
    dec fr
    dec g
    match P.pick fr g with
    | none => fail
    | some fn => do
      let fn ← incPart fn
      let r ← cN call fn w x
      dec fn
      pure r

/-- Modifiers: `md2.c` 8-9, 136-147; `md1.c` 173-177. -/
def md1N (m : Mod1) (f : V) (w : Option V) (x : V) : M σ V := match m, w with
  | .const, w => do decArgs w x; incPart f
  | .swap, none => do let x' ← inc x; cN call f (some x') x
  | .swap, some w => cN call f (some x) w

def md2N (m : Mod2) (f g : V) (w : Option V) (x : V) : M σ V := match m, w with
  | .val, none => cN call f none x
  | .val, some w => cN call g (some w) x
  | .before, none =>
    if f.isCallable then do
      errMd f
      let x' ← inc x
      let a ← call f none x'
      cN call g (some a) x
    else do
      let a ← incPart f
      cN call g (some a) x
  | .after, none =>
    if g.isCallable then do
      errMd g
      let x' ← inc x
      let b ← call g none x'
      cN call f (some x) b
    else do
      let b ← incPart g
      cN call f (some x) b
  | .before, some w => do
    let a ← cN call f none w
    cN call g (some a) x
  | .after, some w => do
    let b ← cN call g none x
    cN call f (some w) b
  | .atop, w => do
    let b ← cN call g w x
    cN call f none b
  | .over, none => do
    let b ← cN call g none x
    cN call f none b
  | .over, some w => do
    let b ← cN call g none x
    let a ← cN call g none w
    cN call f (some a) b
  | .cond, w => condN P call f g w x
end

/-- The call of a function, with at most `n` nested calls of trains and combinators. -/
def call {σ} (P : Prims σ) : Nat → V → Option V → V → M σ V
  | 0, _, _, _ => fun _ _ => .out
  | n + 1, f, w, x => match f with
    | .fn i => runPrim P i w x
    | .fork _ f g h => forkN (call P n) f g h w x
    | .atop _ g h => do
      let b ← cN (call P n) h w x
      cN (call P n) g none b
    | .md1 _ m f => md1N (call P n) m f w x
    | .md2 _ m f g => md2N P (call P n) m f g w x
    | _ => fun _ _ => .ub

end Verif.Train
