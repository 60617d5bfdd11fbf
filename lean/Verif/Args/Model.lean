import Verif.Args.Spec
/-
The reading of the command line in `main`, `src/main.c` 920-1059.

`argv` has the name of the program and the arguments.  Reading an argument that is not there is `Stop.crash`.

Simplified: executions return, and are recorded by their code; `repl_init`, which is done before the first of them, is not
recorded.  Options that only some builds have (`--replxx-read-only`, `--disable-jit`, `-R`) are left out.
-/
namespace Verif.Args

structure St where
  acts : List Act
  startREPL : Bool
  silentREPL : Bool
deriving DecidableEq, Repr

def St.add (s : St) (a : Act) : St := { s with acts := s.acts ++ [a] }

/-- Where the letters of an option lead: on to the next argument, to `execFile`, or out of the program. -/
inductive Res
  | next (i : Nat) (s : St)
  | file (i : Nat) (s : St)
  | stop (r : Stop) (s : St)
deriving DecidableEq, Repr

/-- The loop for `-M`, main.c 1004-1009. -/
def number : Word → Nat → Option Nat
  | [], am => some am
  | c :: str, am =>
    if c < 48 ∨ c > 57 then none
    else if am > 2 ^ 48 then none
    else number str (am * 10 + c - 48)

/-- `REQARG`, main.c 979, and the argument. -/
def reqArg (argv : List Word) (carg : Word) (i : Nat) (s : St) (k : Word → Res) : Res :=
  if carg ≠ [] then .stop .error s
  else if i = argv.length then .stop .error s
  else match argv[i]? with
    | none => .stop .crash s
    | some w => k w

/-- `while ((c = *carg++))`, main.c 977-1027. -/
def letters (argv : List Word) : Word → Nat → St → Res
  | [], i, s => .next i s
  | c :: carg, i, s =>
    if c = 102 then reqArg argv carg i s fun _ => .file i s
    else if c = 101 then reqArg argv carg i s fun w => letters argv carg (i + 1) (s.add (.exec w))
    else if c = 76 then letters argv carg i s
    else if c = 112 then reqArg argv carg i s fun w => letters argv carg (i + 1) (s.add (.show w))
    else if c = 111 then reqArg argv carg i s fun w => letters argv carg (i + 1) (s.add (.out w))
    else if c = 77 then reqArg argv carg i s fun w => match number w 0 with
      | none => .stop .error s
      | some am => letters argv carg (i + 1) (s.add (.limit (am * 1024 * 1024 % 2 ^ 64)))
    else if c = 104 then .stop .help s
    else if c = 114 then letters argv carg i { s with startREPL := true }
    else if c = 115 then letters argv carg i { s with startREPL := true, silentREPL := true }
    else .stop .error s

/-- `if (startREPL)`, main.c 1059. -/
def repl (s : St) : List Act × Stop := ((if s.startREPL then s.add (.repl s.silentREPL) else s).acts, .done)

/-- From `execFile` on, main.c 1032-1057. -/
def execFile (argv : List Word) (i : Nat) (execStdin : Bool) (s : St) : List Act × Stop :=
  if i ≠ argv.length ∨ execStdin then
    if execStdin then repl (s.add (.stdin (argv.drop i)))
    else match argv[i]? with
      | none => (s.acts, .crash)
      | some src => repl (s.add (.file src (argv.drop (i + 1))))
  else repl s

/-- `while (i!=argc)`, main.c 931-1031; at most `n` turns. -/
def loop (argv : List Word) : Nat → Nat → St → List Act × Stop
  | 0, _, s => (s.acts, .crash)
  | n + 1, i, s =>
    if i = argv.length then execFile argv i false s
    else match argv[i]? with
      | none => (s.acts, .crash)
      | some carg => match carg with
        | [] => execFile argv i false s
        | c :: carg =>
          if c ≠ 45 then execFile argv i false s
          else match carg with
            | [] => execFile argv (i + 1) true s
            | d :: tail =>
              if d = 45 then
                if tail = [104, 101, 108, 112] then (s.acts, .help)
                else if tail = [118, 101, 114, 115, 105, 111, 110] then (s.acts, .version)
                else (s.acts, .error)
              else match letters argv (d :: tail) (i + 1) s with
                | .next i s => loop argv n i s
                | .file i s => execFile argv i false s
                | .stop r s => (s.acts, r)

/-- `main`, main.c 920-1059. -/
def main (argv : List Word) : List Act × Stop :=
  let s : St := ⟨[], decide (argv.length = 1), false⟩
  if s.startREPL then repl s else loop argv (argv.length + 1) 1 s

end Verif.Args
