import Verif.Pick.Spec
/-!
# Pick and Choose: model

`⊑` with one and two arguments, of `src/builtins/sfns.c` 395-487, and `◶`, of `src/builtins/md2.c` 149-174.
Error messages, and the checks that only decide on one (`checkIndexList`, sfns.c 406-414), aren't modelled; nor is the squeezing of the result.
-/
namespace Verif.Pick
open Verif.Cells (Arr Val)
variable {E : Type}

def Out.bind {α β} (a : Out α) (f : α → Out β) : Out β :=
  match a with
  | .ok a => f a
  | .err => .err
  | .undef => .undef

/-- Reading memory. -/
def need {α} : Option α → Out α
  | some a => .ok a
  | none => .undef

/-- `WRAP`, `src/core/stuff.h:75`. The 64-bit number `wV` is compared as unsigned; the result is a 32-bit `usz`. -/
def wrap (i : Int) (ia : Nat) : Option Nat :=
  let wV := (i % 2^64).toNat
  if wV ≥ ia then
    let wV := (wV + ia) % 2^64
    if wV ≥ ia then none else some (wV % 2^32)
  else some (wV % 2^32)

/-- `PICK_IDX`, sfns.c 417-421, with the rest of the index and of the shape; `none` is a number that isn't an integer, for which `GET` gives an error. There are as many numbers as axes. -/
def pickIdx : List (Option Int) → List Nat → Nat → Out Nat
  | [], [], c => .ok c
  | i :: is, n :: sh, c =>
    match i with
    | none => .err
    | some i =>
      match wrap i n with
      | none => .err
      | some k => pickIdx is sh ((c * n + k) % 2^32)
  | _, _, _ => .undef

/-- The cases of 434-437 for numbers that were read. -/
def pickList (x : Arr E) (sh : List Nat) (ns : List (Option Int)) : Out (R E) :=
  if sh.length ≠ 1 then .err
  else if ns.length ≠ x.sh.length then .err
  else (pickIdx ns x.sh 0).bind fun c => (need x.els[c]?).bind fun e => .ok (.val e)

/-- `o2i64` of an element, 450-452: anything else than an integer gives an error. -/
def asInt : Ix → Option Int
  | .num n => n
  | _ => none

/-- `isNum` -/
def Ix.isNum : Ix → Bool
  | .num _ => true
  | _ => false

mutual
/-- `recPick`, 428-471. -/
def recPick (x : Arr E) : Ix → Out (R E)
  | .num _ => .undef
  | .other => .undef
  | .ints sh ns => pickList x sh (ns.map some)
  | .floats sh ns => pickList x sh ns
  | .boxed sh gs =>
    if gs.length = 0 then
      if x.sh.length ≠ 0 then .err else (need x.els[0]?).bind fun e => .ok (.val e)
    else if (gs.head?.map Ix.isNum) = some true then pickList x sh (gs.map asInt)
    else (recPickL x gs).bind fun rs => .ok (.arr sh rs)
/-- The loop 458-462. -/
def recPickL (x : Arr E) : List Ix → Out (List (R E))
  | [] => .ok []
  | g :: gs => if g.isArr = false then .err else (recPick x g).bind fun r => (recPickL x gs).bind fun rs => .ok (r :: rs)
end

/-- `pick_c2` for an array 𝕩, 478-486. -/
def pickArr (w : Ix) (x : Arr E) : Out (R E) :=
  match w with
  | .num n =>
    if x.sh.length ≠ 1 then .err
    else match n with
      | none => .err
      | some i =>
        match wrap i x.els.length with
        | none => .err
        | some p => (need x.els[p]?).bind fun e => .ok (.val e)
  | .other => .err
  | w => recPick x w

/-- `isArr(w) && RNK(w)==1 && IA(w)==0`, 475. -/
def Ix.isEmptyList : Ix → Bool
  | .ints sh ns => sh.length == 1 && ns.length == 0
  | .floats sh ns => sh.length == 1 && ns.length == 0
  | .boxed sh gs => sh.length == 1 && gs.length == 0
  | _ => false

/-- `pick_c2`, 473-487. -/
def pick2 (w : Ix) : Val E → Out (R E)
  | .atom e => if w.isEmptyList then .ok (.val e) else pickArr w ⟨[], [e]⟩
  | .arr x => pickArr w x

/-- `pick_c1`, 395-404. -/
def pick1 : Val E → Out E
  | .atom e => .ok e
  | .arr x => if x.els.length = 0 then .err else need x.els[0]?

variable {m : Type → Type} [Monad m] {X Y : Type}

/-- `cond_c1` and `cond_c2`, md2.c 149-174. `X` is the arguments, `apply` calls what's picked with them, `fail` is an error, and `undef` undefined behaviour. -/
def choose (apply : R E → X → m Y) (fail undef : m Y) (f : X → m Ix) (g : Val E) (x : X) : m Y :=
  f x >>= fun fr =>
    match fr with
    | .num n =>
      match g with
      | .atom _ => fail
      | .arr g =>
        if g.sh.length ≠ 1 then fail
        else match n with
          | none => fail
          | some i =>
            match wrap i g.els.length with
            | none => fail
            | some p => match g.els[p]? with
              | none => undef
              | some h => apply (.val h) x
    | fr =>
      match pick2 fr g with
      | .ok fn => apply fn x
      | .err => fail
      | .undef => undef

end Verif.Pick
