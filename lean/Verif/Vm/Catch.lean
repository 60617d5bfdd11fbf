/-!
# Model of catching errors

`/repo/src/vm.c` 1310-1340 (`prepareCatch`, `popCatch`), 1681-1689 (`unwindEnv`), 1710-1742 (`throwImpl`); `/repo/src/vm.h` 230-242 (`pushEnv`, `popEnv`);
`/repo/src/core/gstack.h` 32-42 (`gsAdd`, `gsPop`); `/repo/src/builtins/md2.c` 36-53 (the modifier `⎊`); `/repo/src/h.h` 421-422 (`CATCH`).

The three stacks are as in the code: the value stack, the stack of environments (here only their scopes) and the array of catch frames, which is moved to a larger one when full.
`longjmp` is a jump to the label that was put in the frame. `none` is a failed assertion, a `fatal` error, a memory access outside of the array of frames, or a stack
whose pointer goes below its start.
-/
namespace Verif.Vm.Catch

/-- `CatchFrame`, vm.c 1310-1317. -/
structure Frame where
  jmp : Nat
  gsDepth : Nat
  envDepth : Nat
  cfDepth : Nat
deriving Repr, DecidableEq

/-- A value on the stack: any value, or the object that `pushRe` makes (md2.c 38-50), which has the message that was current before and makes it current again when freed. -/
inductive Val
  | plain (n : Nat)
  | re (saved : Option Nat)
deriving Repr, DecidableEq

/-- What is recorded of a run, for the theorems: a catch was installed, or an error was caught; with the label, both stacks, the number of catch frames, and the current message. -/
inductive Event
  | installed (l : Nat) (gs : List Val) (env : List Nat) (cf : Nat) (last : Option Nat)
  | caught (l : Nat) (gs : List Val) (env : List Nat) (cf : Nat) (last : Option Nat)
deriving Repr, DecidableEq

/-- The state. `gs` and `env` have their top first. `frames` is the memory from `cfStart` to `cfEnd`, and `cf` is the index of the first unused one. `next` is the next label.
`last` is `lastErrMsg`, which `•CurrentError` gives, and `thrown` is `thrownMsg`. `pushed`, `freed` and `log` are records for the theorems. -/
structure St where
  gs : List Val
  env : List Nat
  frames : List Frame
  cf : Nat
  next : Nat
  last : Option Nat
  thrown : Nat
  pushed : List Val
  freed : List Val
  log : List Event
deriving Repr, DecidableEq

/-- At the start. -/
def init : St := ⟨[], [], [], 0, 0, none, 0, [], [], []⟩

/-- How running a program ends. -/
inductive Res
  | normal (s : St)
  | jumped (l : Nat) (s : St)
  | exited (s : St)
deriving Repr, DecidableEq

/-- `prepareCatch`, vm.c 1323-1336. `junk` is what new memory contains. -/
def prepareCatch (junk : Frame) (s : St) : Option St :=
  let frames := if s.cf = s.frames.length then s.frames ++ List.replicate ((if s.frames.length < 8 then 8 else s.frames.length * 2) - s.frames.length) junk else s.frames
  if s.cf < frames.length then
    some { s with
      frames := frames.set s.cf ⟨s.next, s.gs.length, s.env.length, s.cf⟩, cf := s.cf + 1, next := s.next + 1,
      log := s.log ++ [.installed s.next s.gs s.env s.cf s.last] }
  else none

/-- `popCatch`, vm.c 1337-1340. -/
def popCatch (s : St) : Option St := if 0 < s.cf then some { s with cf := s.cf - 1 } else none

/-- The current message after freeing a value, `re_freeO`, md2.c 43. -/
def after : Val → Option Nat → Option Nat
  | .plain _, last => last
  | .re saved, _ => saved

/-- `while (gStack!=gStackNew) dec(*--gStack)`; the result is the stack, the freed values, and the current message. -/
def popTo (n : Nat) : List Val → List Val → Option Nat → Option (List Val × List Val × Option Nat)
  | [], freed, last => if 0 = n then some ([], freed, last) else none
  | v :: gs, freed, last => if gs.length + 1 = n then some (v :: gs, freed, last) else popTo n gs (freed ++ [v]) (after v last)

/-- `unwindEnv`, vm.c 1681-1689; `n` is the new height. -/
def unwindTo (n : Nat) : List Nat → Option (List Nat)
  | [] => if 0 = n then some [] else none
  | e :: env => if env.length + 1 = n then some (e :: env) else unwindTo n env

/-- `throwImpl`, vm.c 1710-1742. The positions in the environments, which are for printing, are left out. -/
def throwImpl (s : St) : Option Res :=
  if 0 < s.cf then
    let cf := s.cf - 1
    (s.frames[cf]?).bind fun fr =>
      if fr.gsDepth ≤ s.gs.length then
        (popTo fr.gsDepth s.gs s.freed s.last).bind fun (gs, freed, last) =>
          if fr.envDepth ≤ s.env.length then
            (unwindTo fr.envDepth s.env).bind fun env =>
              if fr.cfDepth > cf then none
              else
                (s.frames[fr.cfDepth]?).map fun t => .jumped t.jmp { s with gs := gs, env := env, cf := fr.cfDepth, freed := freed, last := last }
          else none
      else none
  else (unwindTo 0 s.env).map fun env => .exited { s with env := env }

/-- What a run does with the stacks. Runs that depend on values are the union of the runs over all programs. `hold v p` keeps a value on the stack while it runs `p`; `call` runs a
block in a new environment; `catching p h` is `p⎊h`. -/
inductive Prog
  | skip
  | throw (m : Nat)
  | seq (p q : Prog)
  | hold (v : Nat) (p : Prog)
  | call (sc : Nat) (p : Prog)
  | catching (p h : Prog)

/-- Going on after a normal end. -/
def andThen : Option Res → (St → Option Res) → Option Res
  | some (.normal s), f => f s
  | r, _ => r

/-- `gsAdd(v)`, making `last` the current message, running something, `dec(gsPop())`. -/
def holding (gsMax : Nat) (v : Val) (last : Option Nat) (run : St → Option Res) (s : St) : Option Res :=
  if s.gs.length = gsMax then throwImpl { s with thrown := 0 }
  else
    andThen (run { s with gs := v :: s.gs, pushed := s.pushed ++ [v], last := last }) fun s =>
      match s.gs with
      | [] => none
      | v :: gs => some (.normal { s with gs := gs, freed := s.freed ++ [v], last := after v s.last })

/-- Running a program. `gsMax` and `envMax` are the sizes of the stacks; the message of running out of space is 0. -/
def run (junk : Frame) (gsMax envMax : Nat) : Prog → St → Option Res
  | .skip, s => some (.normal s)
  | .throw m, s => throwImpl { s with thrown := m }
  | .seq p q, s => andThen (run junk gsMax envMax p s) (run junk gsMax envMax q)
  | .hold v p, s => holding gsMax (.plain v) s.last (run junk gsMax envMax p) s
  | .call sc p, s =>
    if s.env.length = envMax then throwImpl { s with thrown := 0 }
    else
      andThen (run junk gsMax envMax p { s with env := sc :: s.env }) fun s =>
        match s.env with
        | [] => none
        | _ :: env => some (.normal { s with env := env })
  | .catching p h, s =>
    (prepareCatch junk s).bind fun s1 =>
      match run junk gsMax envMax p s1 with
      | some (.normal s2) => (popCatch s2).map .normal
      | some (.jumped l s2) =>
        if l = s.next then holding gsMax (.re s2.last) (some s2.thrown) (run junk gsMax envMax h) { s2 with log := s2.log ++ [.caught l s2.gs s2.env s2.cf s2.last] }
        else some (.jumped l s2)
      | r => r

end Verif.Vm.Catch
