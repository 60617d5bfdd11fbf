/-
C83: what happens between the interpreter and a process started with `•SH`, as seen from outside.

A history is a list of events in the order in which they happen.  What the process wrote and what it read are
properties of the history alone.
-/
namespace Verif.Shell

/-- The two outputs of the process. -/
inductive Stream
  | out
  | err
deriving DecidableEq, Repr

/-- One thing that happens. -/
inductive Ev
  /-- The process, or one it started, writes to an output. -/
  | put (e : Stream) (bs : List UInt8)
  /-- The last process holding an output closes it (or exits). -/
  | shut (e : Stream)
  /-- The process reads from its standard input. -/
  | take (bs : List UInt8)
  /-- The process reads from its standard input and is told that there is no more. -/
  | eof
  /-- The last process holding the read end of the standard input closes it (or exits). -/
  | shutIn
  /-- The interpreter makes its next step; a system call that can transfer a varying number of bytes transfers `k`. -/
  | par (k : Nat)
  /-- The interpreter's `poll` fails, which it does if a signal is handled while it waits. -/
  | fail
deriving DecidableEq, Repr

/-- Everything written to an output in a history. -/
def wrote (e : Stream) : List Ev → List UInt8
  | [] => []
  | .put e' bs :: r => if e' = e then bs ++ wrote e r else wrote e r
  | _ :: r => wrote e r

/-- Everything the process read from its standard input in a history. -/
def received : List Ev → List UInt8
  | [] => []
  | .take bs :: r => bs ++ received r
  | _ :: r => received r

/-- How many steps of the interpreter there are in a history. -/
def steps : List Ev → Nat
  | [] => 0
  | .par _ :: r => 1 + steps r
  | _ :: r => steps r

end Verif.Shell
