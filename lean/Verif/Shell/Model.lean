import Verif.Shell.Spec
/-
The loop of `sh_core`, `src/builtins/sysfn.c` 1056-1156, and the pipes it uses.

Pipes are as on Linux: a queue of bytes; `poll` reports `POLLIN` if there are bytes, `POLLHUP` if nobody can write,
`POLLERR` if nobody can read, and `POLLOUT` if there surely is room.  Events of the process come between any two
steps of the interpreter.

Simplified: one capacity for all pipes; joining the part read to what was read before is appending (C12 and the other
properties of `vec_join` say that it is, and that the result does not share memory with the buffer read into; results
too long for an array are left out); system calls do not fail other than as said here; `posix_spawnp` succeeded.
-/
namespace Verif.Shell

/-- Where the interpreter is. -/
inductive Pc
  /-- Before `poll`, 1116. -/
  | poll
  /-- At the loop that reads an output, 1119 and 1120. -/
  | rd (e : Stream)
  /-- At the write, 1121-1130. -/
  | inp
  /-- At the test for the end, 1136. -/
  | hup
  /-- Past the loop, left from 1136. -/
  | done
  /-- Past the loop, left because `poll` failed. -/
  | cut
  /-- Killed by `SIGPIPE`: nothing in `src` changes what that signal does. -/
  | killed
  /-- The closed `p_in[1]` is used again, or closed again: `shClose` ends the interpreter, 1034. -/
  | bad
deriving DecidableEq, Repr

/-- An output: the pipe, what the interpreter has (`s_out`, `s_err`), and its `revents`. -/
structure Chan where
  /-- Bytes in the pipe. -/
  q : List UInt8
  /-- Some process can write to it. -/
  wr : Bool
  /-- `s_out`, `s_err`: 1100-1101. -/
  got : List UInt8
  /-- `revents & POLLIN`. -/
  pin : Bool
  /-- `revents & POLLHUP`. -/
  phup : Bool
deriving DecidableEq, Repr

structure State where
  pc : Pc
  out : Chan
  err : Chan
  /-- Bytes in the pipe to the standard input. -/
  inq : List UInt8
  /-- Some process can read from it. -/
  inrd : Bool
  /-- `iOff`, 1084. -/
  iOff : Nat
  /-- `iDone`, 1098. -/
  iDone : Bool
  /-- `ps[in_i].revents & POLLOUT`. -/
  pout : Bool
deriving DecidableEq, Repr

/-- Set-up: 1098-1114.  The process runs already, which makes no difference: what it did before are events. -/
def init : State :=
  { pc := .poll, out := ⟨[], true, [], false, false⟩, err := ⟨[], true, [], false, false⟩
    inq := [], inrd := true, iOff := 0, iDone := false, pout := false }

/-- The interpreter holds its ends of the pipes: until 1146-1148. -/
def Pc.live : Pc → Bool
  | .done => false
  | .cut => false
  | .killed => false
  | .bad => false
  | _ => true

/-- `p_in[1]` is open: it is closed at 1127 or 1146. -/
def State.inwr (s : State) : Bool := s.pc.live && !s.iDone

def State.chan (s : State) : Stream → Chan
  | .out => s.out
  | .err => s.err

def State.setChan (s : State) (c : Chan) : Stream → State
  | .out => { s with out := c }
  | .err => { s with err := c }

/-- What `poll` stores for an output. -/
def Chan.poll (c : Chan) : Chan := { c with pin := !c.q.isEmpty, phup := !c.wr }

/-- `POLLOUT` for the standard input.  An empty pipe has room, a full one has not; in between it depends on how the
    bytes lie in the pages of the pipe, which is left to `k`. -/
def room (cap : Nat) (s : State) (k : Nat) : Bool := s.inq.isEmpty || (k != 0 && decide (s.inq.length < cap))

/-- `poll` has something to report; the entry of the standard input is left out once `iDone`: 1116. -/
def ready (cap : Nat) (s : State) (k : Nat) : Bool :=
  s.out.poll.pin || s.out.poll.phup || s.err.poll.pin || s.err.poll.phup || (!s.iDone && (room cap s k || !s.inrd))

/-- After the loop of an output comes the other one, then the write. -/
def Pc.after : Stream → Pc
  | .out => .rd .err
  | .err => .inp

/-- One step of the interpreter: 1116-1137. -/
def par (cap : Nat) (input : List UInt8) (s : State) (k : Nat) : Option State :=
  match s.pc with
  | .poll =>
    if ready cap s k then
      some { s with pc := .rd .out, out := s.out.poll, err := s.err.poll
                    pout := if s.iDone then s.pout else room cap s k }
    else none
  | .rd e =>
    let c := s.chan e
    -- `read` gives 0 or ¯1 exactly if the pipe is empty; `bufsz` is 1024
    if c.pin = false ∨ c.q = [] then some { s with pc := .after e }
    else if 0 < k ∧ k ≤ 1024 ∧ k ≤ c.q.length then
      some (s.setChan { c with q := c.q.drop k, got := c.got ++ c.q.take k } e)
    else none
  | .inp =>
    if !s.iDone && s.pout then
      if s.iDone then some { s with pc := .bad }
      else if input.length - s.iOff = 0 then some { s with pc := .hup, iDone := true }
      else if s.inrd = false then some { s with pc := .killed }
      else if k = 0 then some { s with pc := .hup }
      else if k ≤ input.length - s.iOff ∧ s.inq.length + k ≤ cap then
        some { s with pc := .hup, inq := s.inq ++ (input.drop s.iOff).take k, iOff := s.iOff + k
                      iDone := decide (s.iOff + k = input.length) }
      else none
    else some { s with pc := .hup }
  | .hup => some { s with pc := if s.out.phup && s.err.phup then .done else .poll }
  | _ => none

/-- One event; `none` if it is not possible. -/
def step (cap : Nat) (input : List UInt8) (s : State) : Ev → Option State
  | .put e bs =>
    -- writing needs a reader (the interpreter) and room
    if (s.chan e).wr ∧ s.pc.live ∧ bs ≠ [] ∧ (s.chan e).q.length + bs.length ≤ cap then
      some (s.setChan { s.chan e with q := (s.chan e).q ++ bs } e)
    else none
  | .shut e => if (s.chan e).wr then some (s.setChan { s.chan e with wr := false } e) else none
  | .take bs =>
    if s.inrd ∧ bs ≠ [] ∧ bs = s.inq.take bs.length then some { s with inq := s.inq.drop bs.length } else none
  | .eof => if s.inrd ∧ s.inq = [] ∧ s.inwr = false then some s else none
  | .shutIn => if s.inrd then some { s with inrd := false } else none
  | .par k => par cap input s k
  | .fail => if s.pc = .poll then some { s with pc := .cut } else none

/-- A history. -/
def run (cap : Nat) (input : List UInt8) : State → List Ev → Option State
  | s, [] => some s
  | s, ev :: r => (step cap input s ev).bind fun s' => run cap input s' r

end Verif.Shell
