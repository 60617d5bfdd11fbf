/-!
# Model of garbage collection (`/repo/src/opt/gc.c`, freeing in `/repo/src/h.h` 641-650)

The heap is a memory of objects at addresses; `hp` is the list of the addresses of all blocks in the order of `mm_forHeap`
(mm_buddyTemplate.c 119-129). Blocks are not split or joined here (that is `Verif.Buddy`), so `hp` does not change.
A `refc` is an integer that does not wrap at 32 bits. Decrementing the count of an unused block, or a count that is not
positive, is `none`: the code does not check (except with DEBUG), and would continue with a corrupted heap.
-/
namespace Verif.Gc

/-- `type`, up to what gc.c distinguishes: `t_empty`; an object; `t_shape`, `t_temp` or `t_talloc`; `t_freed`. -/
inductive Kind | empty | obj | aux | freed
deriving DecidableEq

/-- h.h `Value`. `refs` is what `TIv(x,visit)` visits, `drops` what `TIv(x,freeO)` decrements, each in its order. -/
structure Obj where
  kind : Kind
  refc : Int
  mark : Bool
  refs : List Nat
  drops : List Nat
deriving DecidableEq

abbrev Mem := Nat → Obj

/-- Write an object. -/
def put (H : Mem) (x : Nat) (o : Obj) : Mem := fun y => if y = x then o else H y

/-- mm_buddyTemplate.c 119-129: `f` for each block that is not empty when it is reached -/
def forHeap (f : Nat → Mem → Option Mem) : List Nat → Mem → Option Mem
  | [], H => some H
  | x :: hp, H => (if (H x).kind = .empty then some H else f x H).bind (forHeap f hp)

/-- gc.c 92-107 with `GC_DEC_REFC` (`d = -1`) and `GC_INC_REFC` (`d = 1`), for all objects visited -/
def visitCount (d : Int) : List Nat → Mem → Mem
  | [], H => H
  | c :: cs, H => visitCount d cs (put H c { H c with refc := (H c).refc + d })

/-- gc.c 107-115 with `GC_MARK`: the objects still to be visited, the next one first. The first argument limits the steps. -/
def mark : Nat → List Nat → Mem → Option Mem
  | _, [], H => some H
  | 0, _ :: _, _ => none
  | f+1, x :: xs, H =>
    if (H x).kind = .empty then none
    else if (H x).mark then mark f xs H
    else mark f ((H x).refs ++ xs) (put H x { H x with mark := true })

/-- Enough steps to mark. -/
def markSteps (hp : List Nat) (H : Mem) (xs : List Nat) : Nat := xs.length + (hp.map fun y => (H y).refs.length + 1).sum

/-- What is left to do while objects are freed: decrement a count; give the block back (`mm_free`). -/
inductive Task | dec (x : Nat) | release (x : Nat)
deriving DecidableEq

/-- h.h 643-650 `dec`, `ptr_dec` and 640 `DEF_FREE`: `freeF` is `freeO` and then `mm_free`; of `t_freed`, `freeO` does nothing
(load.c 832); shape objects have no references (core/stuff.h 39). -/
def run : Nat → List Task → Mem → Option Mem
  | _, [], H => some H
  | 0, _ :: _, _ => none
  | f+1, .dec x :: ts, H =>
    if (H x).kind = .empty ∨ (H x).refc ≤ 0 then none
    else
      let H' := put H x { H x with refc := (H x).refc - 1 }
      if (H x).refc - 1 ≠ 0 then run f ts H'
      else if (H x).kind = .obj then run f ((H x).drops.map .dec ++ .release x :: ts) H'
      else run f (.release x :: ts) H'
  | f+1, .release x :: ts, H =>
    if (H x).kind = .empty then none
    else run f ts (put H x { H x with kind := .empty })

/-- Enough steps to do the tasks. -/
def runSteps (hp : List Nat) (H : Mem) (ts : List Task) : Nat :=
  ts.length + (hp.map fun y => if 0 < (H y).refc then (H y).drops.length + 2 else 0).sum

/-- gc.c 55-79 -/
def tryFree (hp : List Nat) (v : Nat) (H : Mem) : Option Mem :=
  if (H v).kind ≠ .empty ∧ (H v).mark = false then
    match (H v).kind with
    | .aux => some H
    | .freed => some (put H v { H v with kind := .empty })
    | _ =>
      let H1 := put H v { H v with kind := .freed, refc := (H v).refc + 1 }
      let ts := (H v).drops.map Task.dec
      (run (runSteps hp H1 ts) ts H1).map fun H2 =>
        let H3 := put H2 v { H2 v with refc := (H2 v).refc - 1 }
        if (H2 v).refc - 1 = 0 then put H3 v { H3 v with kind := .empty } else H3
  else some H

/-- gc.c 143-145 -/
def resetTag (x : Nat) (H : Mem) : Option Mem := some (put H x { H x with mark := false })

/-- gc.c 46-48 and 117-123 `gcv2_unmark_visit` in mode `GC_DEC_REFC` -/
def unmarkDec (x : Nat) (H : Mem) : Option Mem := (resetTag x H).map fun H => visitCount (-1) (H x).refs H

/-- gc.c 134-141 in mode `GC_MARK` -/
def visitNonzero (hp : List Nat) (x : Nat) (H : Mem) : Option Mem :=
  if (H x).refc = 0 then some H else mark (markSteps hp H [x]) [x] H

/-- gc.c 117-119 `gcv2_visit` in mode `GC_INC_REFC` -/
def visitInc (x : Nat) (H : Mem) : Option Mem := some (visitCount 1 (H x).refs H)

/-- gc.c 49-53 in mode `GC_MARK`: the roots in the order they are visited -/
def visitRoots (hp : List Nat) (roots : List Nat) (H : Mem) : Option Mem := mark (markSteps hp H roots) roots H

/-- mm_buddyTemplate.c 142-156: blocks of type `t_freed` become empty -/
def freeFreed (H : Mem) : Mem := fun x => if (H x).kind = .freed then { H x with kind := .empty } else H x

/-- gc.c 163-178 `gc_run` -/
def gcRun (toplevel : Bool) (hp : List Nat) (roots : List Nat) (H : Mem) : Option Mem :=
  (if toplevel then forHeap resetTag hp H
   else ((forHeap unmarkDec hp H).bind (forHeap (visitNonzero hp) hp)).bind (forHeap visitInc hp)).bind fun H =>
  (visitRoots hp roots H).bind fun H =>
  (forHeap (tryFree hp) hp H).map freeFreed

end Verif.Gc
