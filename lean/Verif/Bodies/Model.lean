import Verif.Bodies.Spec
/-!
# Blocks with several bodies: model

`compileBlock`, `src/vm.c` 146-454, without what instructions are translated to (C34); `gotoNextBody`, 694-706; `execBlock` and its callers, 1025-1063.
Blocks directly in a REPL aren't modelled, nor are reference counts, the stack of environments and namespaces.
Blocks within a body don't refer to its arguments: in them `𝕩` is their own, and names have other variables (`off` in `m_nsDesc`, `src/ns.c` 10-28).
-/
namespace Verif.Bodies
variable {V S R : Type} {m : Type → Type}

/-- The result of compilation: an error, or undefined behaviour. -/
inductive Out (α : Type)
  | ok (a : α)
  | err
  | ud

def Out.bind {α β : Type} (o : Out α) (f : α → Out β) : Out β :=
  match o with
  | .ok a => f a
  | .err => .err
  | .ud => .ud

/-- 222-235: a step of the loop, after `pos1` and `pos2` are changed. `is1` and `is2` say in which of both lists it is. -/
structure Entry where
  src : Nat
  is1 : Bool
  is2 : Bool
  pos1 : Nat
  pos2 : Nat

/-- `I32_MAX` -/
def lim : Nat := 2^31 - 1

/-- The loop 222-399, over what is left of both lists, which end with `I32_MAX`. -/
def merge : Nat → List Nat → List Nat → Nat → Nat → List Entry
  | 0, _, _, _, _ => []
  | n + 1, ms, ds, p1, p2 =>
    let curr1 := ms.headD lim
    let curr2 := ds.headD lim
    let curr := if curr1 < curr2 then curr1 else curr2
    if curr = lim then []
    else
      let is1 := curr1 == curr
      let is2 := curr2 == curr
      let p1 := if is1 then p1 + 1 else p1
      let p2 := if is2 then p2 + 1 else p2
      ⟨curr, is1, is2, p1, p2⟩ :: merge n (if is1 then ms.tail else ms) (if is2 then ds.tail else ds) p1 p2

/-- 396-398: `bodyMap`, where `a` is the next body to be added to `bodies`. -/
def writes : Nat → List Entry → List (Option Nat) → List (Option Nat)
  | _, [], M => M
  | a, e :: es, M =>
    let M := if e.is1 then M.set (e.pos1 - 1) (some a) else M
    let M := if e.is2 then M.set (e.pos2 - 1) (some a) else M
    writes (a + 1) es M

/-- 268-289: instructions before the first return. -/
def before (c : List (Instr V S R m)) : List (Instr V S R m) := c.takeWhile fun i => !i.isRet

/-- `remapArgs`, 268-274 -/
def hasPred (c : List (Instr V S R m)) : Bool := (before c).any fun i => i.isPred

/-- `argUsed[i]`, 276-283 -/
def used (ga : Nat) (c : List (Instr V S R m)) (i : Nat) : Bool := (before c).any fun ins => match ins.pos with
  | some p => p == i && decide (p < ga)
  | none => false

/-- 342-360 -/
def remap (ga vam : Nat) : Instr V S R m → Instr V S R m
  | .varO p => .varO (if p < ga then p + vam else p)
  | .varU p => .varU (if p < ga then p + vam else p)
  | .varM p => .varM (if p < ga then p + vam else p)
  | i => i

/-- `SETN` of a variable and `POPS`. -/
def setn [Monad m] : Instr V S R m := .set 1 fun _ _ vs => pure (vs.map some, vs)
def pops [Monad m] : Instr V S R m := .op 1 fun _ _ => pure ([], [])

/-- 284-287: the arguments that are used are copied. -/
def prelude [Monad m] (vam : Nat) (u : Nat → Bool) : List Nat → List (Instr V S R m)
  | [] => []
  | i :: is => if u i then .varO i :: .varM (vam + i) :: setn :: pops :: prelude vam u is else prelude vam u is

/-- A `Body` that was made: its code, which variables aren't arguments, how many there are, and where `SETH` and `PRED` go next. -/
structure Made (V S R : Type) (m : Type → Type) where
  code : List (Instr V S R m)
  hi : Nat
  varAm : Nat
  next1 : Option Nat
  next2 : Option Nat

/-- The code, 268-384. It ends at the first return; what comes after that is never run. -/
def code [Monad m] (ga : Nat) (b : Body V S R m) : List (Instr V S R m) :=
  if hasPred b.code then prelude b.vam (used ga b.code) (List.range 6) ++ b.code.map (remap ga b.vam) else b.code

/-- 232-394, with the pointers that are filled in later, 400-405. Sizes have 16 bits (`m_body`; `varAm` in `src/vm.h`). -/
def makeBody [Monad m] (ga : Nat) (all : List (Body V S R m)) (M : List (Option Nat)) (e : Entry) : Out (Made V S R m) :=
  match all[e.src]? with
  | none => .ud
  | some b =>
    if b.vam ≥ 2^16 then .err
    else if b.code.any (fun i => i.isRet) = false then .err
    else match M[e.pos1]?, M[e.pos2]? with
      | some n1, some n2 => .ok ⟨code ga b, b.vam, (b.vam + if hasPred b.code then ga else 0) % 2^16, n1, n2⟩
      | _, _ => .ud

def mapO {α β : Type} (f : α → Out β) : List α → Out (List β)
  | [] => .ok []
  | a :: as => (f a).bind fun b => (mapO f as).bind fun bs => .ok (b :: bs)

/-- The bodies of one pair of lists, and the first ones, `startBodies`. -/
structure Pair (V S R : Type) (m : Type → Type) where
  made : List (Made V S R m)
  first1 : Option Nat
  first2 : Option Nat

/-- 201-202 -/
def ascending : List Nat → Bool
  | a :: b :: l => decide (a < b) && ascending (b :: l)
  | _ => true

/-- 180-408 for one `i`. `junk` is what is in `bodyMap` before. -/
def makePair [Monad m] (ga : Nat) (all : List (Body V S R m)) (junk : Option Nat) (a : Nat) (ms ds : List Nat) : Out (Pair V S R m) :=
  if !ascending ms || !ascending ds then .err
  else
    let es := merge (ms.length + ds.length) ms ds 0 (ms.length + 1)
    let M := ((List.replicate (ms.length + ds.length + 2) junk).set ms.length none).set (ms.length + ds.length + 1) none
    (mapO (makeBody ga all (writes a es M)) es).bind fun bs =>
      .ok ⟨bs, (es.findIdx? fun e => e.is1).map (a + ·), (es.findIdx? fun e => e.is2).map (a + ·)⟩

/-- A block. `made` are the bodies in the order in which they were made, after the failing one (number 0); `first` is `bodies[0]`. -/
structure Block (V S R : Type) (m : Type → Type) where
  imm : Bool
  ga : Nat
  made : List (Made V S R m)
  first : Nat
  dyBody : Nat
  invMBody : Nat
  invXBody : Nat
  invWBody : Nat

/-- 176-210: both lists for `i`. -/
def Obj.pair (o : Obj) (i : Nat) : List Nat × List Nat :=
  match o with
  | .one b => if i = 0 then ([b], [b]) else ([], [])
  | .lists ls =>
    if i ≥ ls.length then ([], [])
    else if i = 4 then ([], ls[4]?.getD [])
    else (ls[i]?.getD [], if i + 1 < ls.length then ls[i+1]?.getD [] else [])

/-- 171-173 -/
def Obj.badCount : Obj → Bool
  | .one _ => false
  | .lists ls => decide (ls.length < 1) || decide (ls.length > 5)

/-- `compileBlock`; 440-444 move the first body for a call without `𝕨` to `bodies[0]`. -/
def compile [Monad m] (ty : Nat) (imm : Bool) (all : List (Body V S R m)) (junk : Option Nat) (o : Obj) : Out (Block V S R m) :=
  let ga := argCount ty imm
  if ty > 2 then .err
  else if o.badCount then .err
  else
    (makePair ga all junk 1 (o.pair 0).1 (o.pair 0).2).bind fun p0 =>
    (makePair ga all junk (1 + p0.made.length) (o.pair 2).1 (o.pair 2).2).bind fun p2 =>
    (makePair ga all junk (1 + p0.made.length + p2.made.length) (o.pair 4).1 (o.pair 4).2).bind fun p4 =>
      .ok ⟨imm, ga, p0.made ++ p2.made ++ p4.made, p0.first1.getD 0, p0.first2.getD 0, p2.first1.getD 0, p2.first2.getD 0, p4.first2.getD 0⟩

variable [Monad m] (W : World V S m)

/-- `m_scopeI`, 643-675 -/
def scope (varAm ga : Nat) (vars : List V) : Option (List V) :=
  if varAm < ga ∨ vars.length < ga then none else some (vars.take ga ++ List.replicate (varAm - ga) W.noVar)

/-- `gotoNextBody`, 694-706, up to the next body; the instructions, 881-898, choose `v1` or `v2`. -/
def goto (B : Block V S R m) (b : Made V S R m) (vars : List V) (run : Nat → List V → m R) : m R :=
  let other (n : Option Nat) : m R :=
    match n with
    | none => match vars[2]? with
      | none => W.ud _
      | some _ => W.fail _
    | some a => run a (vars.take B.ga)
  if B.imm then other b.next1
  else match vars[2]? with
    | none => W.ud _
    | some w => other (if W.nothing w then b.next1 else b.next2)

/-- `execBlock` of body `a`, and `evalBC`. There are never more steps than bodies (`fuel`). -/
def run (B : Block V S R m) : Nat → Nat → List V → m R
  | _, 0, _ => W.fail _
  | 0, _, _ => W.ud _
  | fuel + 1, a + 1, args => match B.made[a]? with
    | none => W.ud _
    | some b => match scope W b.varAm B.ga args with
      | none => W.ud _
      | some vars => exec W B.ga b.hi b.code vars [] >>= fun
        | .inl r => pure r
        | .inr vars => goto W B b vars (run B fuel)

/-- The body each kind of call starts with, 1036-1060. -/
def Block.start (B : Block V S R m) : Kind → Nat
  | .mon => B.first
  | .dy => B.dyBody
  | .invM => B.invMBody
  | .invX => B.invXBody
  | .invW => B.invWBody

/-- Calls, 1036-1063. A block that is run at once has only the first kind. Without a body for the kind, that's the failing one (`FAIL`, 923), or `noInv`. -/
def call (B : Block V S R m) (k : Kind) (args : List V) : m R :=
  run W B B.made.length (B.start k) args

end Verif.Bodies
