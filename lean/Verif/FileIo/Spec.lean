/-
C85: reading and writing files when system calls can fail.
-/
namespace Verif.FileIo

/-- What a file or stream has to give, in order: a byte, or a failing system call.  The end of the list is the end of
    the file. -/
inductive Src
  | byte (b : UInt8)
  | err
deriving DecidableEq, Repr

/-- The contents of a file or stream. -/
def contents : List Src → List UInt8
  | [] => []
  | .byte b :: r => b :: contents r
  | .err :: r => contents r

/-- What the system does with a call to write `n` bytes: take some of them, or fail. -/
inductive Wr
  | took (k : Nat)
  | err
deriving DecidableEq, Repr

/-- The elements of a list that is to be written as bytes. -/
inductive El
  /-- A number, rounded towards zero. -/
  | num (v : Int)
  /-- A character. -/
  | chr (c : Nat)
  /-- Anything else. -/
  | other
deriving DecidableEq, Repr

/-- The byte that an element stands for, if it stands for one. -/
def byteOf : El → Option UInt8
  | .num v => if -128 ≤ v ∧ v < 256 then some (UInt8.ofNat (v % 256).toNat) else none
  | .chr c => if c < 256 then some (UInt8.ofNat c) else none
  | .other => none

end Verif.FileIo
