/-!
# Blocks with several bodies: specification

What an instruction of a body does to the variables of its scope and to the stack, after `evalBC` in `src/vm.c` (714-958); which body of a block is run.
`V` are values, `S` targets of assignments (without the variables in them), `R` results.
-/
namespace Verif.Bodies
variable {V S R : Type} {m : Type → Type}

/-- What is on the stack: a value, or a target with the positions of its variables. -/
inductive Item (V S : Type)
  | val (v : V)
  | tgt (s : S) (ps : List Nat)

/-- Instructions, for variables of the scope of the body (depth 0).
`op` is any other instruction: it takes `k` values, and may change variables that aren't arguments, as blocks within the body can do. `set` assigns to a target, and may look at what it has. -/
inductive Instr (V S R : Type) (m : Type → Type)
  | varO (p : Nat)
  | varU (p : Nat)
  | varM (p : Nat)
  | op (k : Nat) (f : List V → List V → m (List (Option V) × List V))
  | mkT (k : Nat) (f : List S → S)
  | con (f : V → S)
  | set (k : Nat) (f : S → List V → List V → m (List (Option V) × List V))
  | seth (f : S → V → m (Bool × List (Option V)))
  | pred
  | ret (f : List V → V → m R)

/-- The body of a block: its code and the number of variables. The arguments are the first ones. -/
structure Body (V S R : Type) (m : Type → Type) where
  code : List (Instr V S R m)
  vam : Nat

/-- Values that are marks, and what happens otherwise. -/
structure World (V S : Type) (m : Type → Type) where
  /-- variables without a value, or being changed -/
  bad : V → Bool
  noVar : V
  optOut : V
  /-- `·` -/
  nothing : V → Bool
  /-- a boolean -/
  truth : V → Option Bool
  /-- a target that is a variable -/
  var : S
  fail : ∀ α, m α
  ud : ∀ α, m α

/-- Assigns new values to variables. -/
def assign (vars : List V) : List Nat → List (Option V) → List V
  | p :: ps, some v :: vs => assign (vars.set p v) ps vs
  | _ :: ps, none :: vs => assign vars ps vs
  | _, _ => vars

/-- The values of all of these variables. -/
def reads (vars : List V) : List Nat → Option (List V)
  | [] => some []
  | p :: ps => (vars[p]?).bind fun v => (reads vars ps).map (v :: ·)

/-- `k` values from the stack. -/
def popV : Nat → List (Item V S) → Option (List V × List (Item V S))
  | 0, st => some ([], st)
  | k + 1, .val v :: st => (popV k st).map fun (vs, st) => (v :: vs, st)
  | _ + 1, _ => none

/-- `k` targets from the stack. -/
def popT : Nat → List (Item V S) → Option (List S × List Nat × List (Item V S))
  | 0, st => some ([], [], st)
  | k + 1, .tgt s ps :: st => (popT k st).map fun (ss, qs, st) => (s :: ss, ps ++ qs, st)
  | _ + 1, _ => none

def pushV (vs : List V) (st : List (Item V S)) : List (Item V S) := vs.map .val ++ st

variable [Monad m] (W : World V S m)

/-- Runs code. The result is that of the body, or the variables at the point where a header doesn't match or a predicate is 0. Variables from `lo` to `hi-1` are those that aren't arguments. -/
def exec (lo hi : Nat) : List (Instr V S R m) → List V → List (Item V S) → m (R ⊕ List V)
  | [], _, _ => W.ud _
  | .varO p :: c, vars, st => match vars[p]? with
    | none => W.ud _
    | some v => if W.bad v then W.fail _ else exec lo hi c vars (.val v :: st)
  | .varU p :: c, vars, st => match vars[p]? with
    | none => W.ud _
    | some v => exec lo hi c (vars.set p W.optOut) (.val v :: st)
  | .varM p :: c, vars, st => exec lo hi c vars (.tgt W.var [p] :: st)
  | .op k f :: c, vars, st => match popV k st, reads vars (List.range' lo (hi - lo)) with
    | some (vs, st), some ls => f ls vs >>= fun (ls, vs) => exec lo hi c (assign vars (List.range' lo (hi - lo)) ls) (pushV vs st)
    | _, _ => W.ud _
  | .mkT k f :: c, vars, st => match popT k st with
    | some (ss, ps, st) => exec lo hi c vars (.tgt (f ss) ps :: st)
    | none => W.ud _
  | .con f :: c, vars, st => match st with
    | .val v :: st => exec lo hi c vars (.tgt (f v) [] :: st)
    | _ => W.ud _
  | .set k f :: c, vars, st => match st with
    | .tgt s ps :: st => match popV k st, reads vars ps with
      | some (vs, st), some ls => f s ls vs >>= fun (ls, vs) => exec lo hi c (assign vars ps ls) (pushV vs st)
      | _, _ => W.ud _
    | _ => W.ud _
  | .seth f :: c, vars, st => match st with
    | .tgt s ps :: .val v :: st => match reads vars ps with
      | some _ => f s v >>= fun (ok, ls) => if ok then exec lo hi c (assign vars ps ls) st else pure (.inr (assign vars ps ls))
      | none => W.ud _
    | _ => W.ud _
  | .pred :: c, vars, st => match st with
    | .val v :: st => match W.truth v with
      | none => W.fail _
      | some true => exec lo hi c vars st
      | some false => pure (.inr vars)
    | _ => W.ud _
  | .ret f :: _, vars, st => match st with
    | .val v :: _ => match reads vars (List.range' lo (hi - lo)) with
      | some ls => f ls v >>= fun r => pure (.inl r)
      | none => W.ud _
    | _ => W.ud _

/-- A body called with these arguments; its other variables have no value yet. `none` if a header doesn't match or a predicate is 0. -/
def runBody (b : Body V S R m) (args : List V) : m (Option R) :=
  exec W args.length b.vam b.code (args ++ List.replicate (b.vam - args.length) W.noVar) [] >>= fun
    | .inl r => pure (some r)
    | .inr _ => pure none

/-- The first body whose header matches and whose predicates are 1; an error if there is none. Each is called with the same arguments. -/
def firstBody (args : List V) : List (Body V S R m) → m R
  | [] => W.fail _
  | b :: bs => runBody W b args >>= fun
    | some r => pure r
    | none => firstBody args bs

/-- How many arguments a block has: `𝕊`, `𝕩` and `𝕨`, unless it's run at once; a modifier (`ty` is 1 or 2) also itself and its operands. `argCount`, `src/vm.h` 243. -/
def argCount (ty : Nat) (imm : Bool) : Nat := (if imm then 0 else 3) + ty + (if ty > 0 then 1 else 0)

/-- The ways to call a block: `𝔽𝕩`, `𝕨𝔽𝕩`, `𝔽⁼𝕩`, `𝕨𝔽⁼𝕩` and `𝕨𝔽˜⁼𝕩`. -/
inductive Kind
  | mon | dy | invM | invX | invW

/-- Without `𝕨`. -/
def Kind.alone : Kind → Bool
  | .mon => true
  | .invM => true
  | _ => false

/-- Which bodies a block has: one for all calls, or a list for each kind. -/
inductive Obj
  | one (b : Nat)
  | lists (ls : List (List Nat))

/-- The bodies for this kind of call, in the order of the source. -/
def Obj.bodies : Obj → Kind → List Nat
  | .one b, .mon => [b]
  | .one b, .dy => [b]
  | .one _, _ => []
  | .lists ls, .mon => ls[0]?.getD []
  | .lists ls, .dy => ls[1]?.getD []
  | .lists ls, .invM => ls[2]?.getD []
  | .lists ls, .invX => ls[3]?.getD []
  | .lists ls, .invW => ls[4]?.getD []

def Instr.isRet : Instr V S R m → Bool
  | .ret _ => true
  | _ => false
def Instr.isPred : Instr V S R m → Bool
  | .pred => true
  | _ => false
def Instr.isSeth : Instr V S R m → Bool
  | .seth _ => true
  | _ => false
/-- The variable it's about. -/
def Instr.pos : Instr V S R m → Option Nat
  | .varO p => some p
  | .varU p => some p
  | .varM p => some p
  | _ => none
/-- It may change this variable. -/
def Instr.mut : Instr V S R m → Option Nat
  | .varU p => some p
  | .varM p => some p
  | _ => none

/-- What can be the body of a block with `ga` arguments: it returns, variables are in the scope, and there are fewer than `2⋆16`, also with a copy of the arguments.
If it has no predicate, then it has its headers at the start, where arguments aren't changed. -/
structure Body.Ok (ga : Nat) (b : Body V S R m) : Prop where
  returns : ∃ i ∈ b.code, i.isRet = true
  inScope : ∀ i ∈ b.code, ∀ p, i.pos = some p → p < b.vam
  args : ga ≤ b.vam
  small : b.vam + ga < 2^16
  headers : (∃ i ∈ b.code.takeWhile fun i => !i.isRet, i.isPred = true) ∨
    ∃ h t, b.code = h ++ t ∧ (∀ i ∈ h, ∀ p, i.mut = some p → ga ≤ p) ∧ (∀ i ∈ t, i.isSeth = false)

end Verif.Bodies
