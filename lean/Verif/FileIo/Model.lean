import Verif.FileIo.Spec
/-
`path_bytes`, `stream_bytes`, `get_chars`, `path_wBytes`: `src/utils/file.c` 100-131, 228-288, and as much of glibc's
streams as decides what they report.

Simplified: opening succeeds; the file is not changed while it is read; memory is available.
-/
namespace Verif.FileIo

/-- A result, an error that is thrown, or something without meaning in C. -/
inductive Res (α : Type)
  | val (r : α)
  | error
  | ub
deriving DecidableEq, Repr

/-- `fread(t, 1, n, f)`: reads until there are `n` bytes, the file ends or a call fails; gives what was read, and what
    is left. -/
def fread : Nat → List Src → List UInt8 × List Src
  | 0, s => ([], s)
  | _ + 1, [] => ([], [])
  | _ + 1, .err :: r => ([], r)
  | n + 1, .byte b :: r => (b :: (fread n r).1, (fread n r).2)

/-- The loop of `stream_bytes`, 104-110, with a bound on the number of turns; `SZ` is 8192.  Joining is C12. -/
def streamLoop : Nat → List UInt8 → List Src → Res (List UInt8)
  | 0, _, _ => .ub
  | fuel + 1, r, s =>
    let p := fread 8192 s
    if p.1 = [] then .val r else streamLoop fuel (r ++ p.1) p.2

/-- `stream_bytes`, 100-113.  Every turn but the last reads something, so the bound is never reached
    (`stream_ends`). -/
def streamBytes (s : List Src) : Res (List UInt8) := streamLoop (s.length + 1) [] s

/-- `path_bytes`, 115-131: `seek` is whether `fseek` works, `len` what `ftell` gives. -/
def pathBytes (seek : Bool) (len : Nat) (s : List Src) : Res (List UInt8) :=
  if seek then
    let p := fread len s
    if p.1.length ≠ len then .error else .val p.1
  else streamBytes s

/-- `new_do_write` of glibc: calls `write` until all is written or a call fails; gives what was written, whether that
    is all, and the calls left.  A call that takes nothing or more than given is taken for one that fails. -/
def push : List UInt8 → List Wr → List UInt8 × Bool × List Wr
  | bs, [] => (bs, true, [])
  | bs, .err :: o => if bs = [] then (bs, true, .err :: o) else ([], false, o)
  | bs, .took k :: o =>
    if bs = [] then (bs, true, .took k :: o)
    else if k = 0 ∨ bs.length < k then ([], false, o)
    else (bs.take k ++ (push (bs.drop k) o).1, (push (bs.drop k) o).2)

/-- `file_openWriteClose`, 251-256, for a stream with a buffer of `cap` bytes: the file after it, and `written`.
    `fwrite` writes whole buffers at once and keeps the rest (`_IO_new_file_xsputn`); `fclose` writes the rest, and
    its result is not used. -/
def openWriteClose (cap : Nat) (data : List UInt8) (o : List Wr) : List UInt8 × Nat :=
  let direct := data.length - data.length % cap
  let p := push (data.take direct) o
  if p.2.1 then (p.1 ++ (push (data.drop direct) p.2.2).1, data.length)
  else (p.1, p.1.length)

/-- One element in `get_chars`, 242: `o2iG` is `(i32)x.f`, `o2c` is an error for what isn't a character, and the
    result is stored in a `char`. -/
def getChar : El → Res UInt8
  | .num v => if -2^31 ≤ v ∧ v < 2^31 then .val (UInt8.ofNat (v % 256).toNat) else .ub
  | .chr c => .val (UInt8.ofNat (c % 256))
  | .other => .error

/-- `get_chars`, 228-246.  Arrays of bytes are used as they are, which is the same. -/
def getChars : List El → Res (List UInt8)
  | [] => .val []
  | e :: r =>
    match getChar e with
    | .val b => match getChars r with
      | .val bs => .val (b :: bs)
      | .error => .error
      | .ub => .ub
    | .error => .error
    | .ub => .ub

/-- `path_wBytes`, 272-281: the file after it, if it comes to that, and the outcome. -/
def wBytes (cap : Nat) (x : List El) (o : List Wr) : Option (List UInt8) × Res Unit :=
  match getChars x with
  | .ub => (none, .ub)
  | .error => (none, .error)
  | .val bs =>
    let p := openWriteClose cap bs o
    (some p.1, if p.2 ≠ x.length then .error else .val ())

end Verif.FileIo
