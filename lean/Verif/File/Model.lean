import Verif.Utf8.Model
import Verif.File.Spec
/-!
# Files, lines and paths: model

`src/utils/file.c` 115-283 and `src/builtins/sysfn.c` 781-840, for Unix. A file is the list of its bytes; opening it, and errors of the operating system, aren't modelled. It has fewer than `2⋆32` bytes, so the 32-bit counters and positions here don't wrap.
-/
namespace Verif.File
open Verif.Utf8 (Byte Code Out utf8Decode toUTF8)

/-- `p[i]=='\n'` and `p[i]=='\r'` -/
def isNl (b : Byte) : Bool := b == 10#8
def isCr (b : Byte) : Bool := b == 13#8

/-- The loop that counts line ends, file.c 139-145, with the bytes from `i` on. -/
def breaks : List Byte → Nat
  | [] => 0
  | [b] => if isNl b then 1 else if isCr b then 1 else 0
  | b :: c :: p =>
    if isNl b then 1 + breaks (c :: p)
    else if isCr b then if isNl c then 1 + breaks p else 1 + breaks (c :: p)
    else breaks (c :: p)

/-- 138-146 -/
def lineCount (p : List Byte) : Nat :=
  breaks p + match p.getLast? with
    | none => 0
    | some b => if !isNl b && !isCr b then 1 else 0

/-- The loop 149-155: `k` lines are left, from `pos` on. -/
def readLines (p : List Byte) : Nat → Nat → Out (List (List Code))
  | 0, _ => .ok []
  | k+1, pos =>
    if pos > p.length then .oob
    else
      let l := (p.drop pos).takeWhile fun b => !isNl b && !isCr b
      let e := pos + l.length
      (utf8Decode l).bind fun t =>
      (readLines p k (if (p[e]?.map isCr) = some true ∧ (p[e+1]?.map isNl) = some true then e + 2 else e + 1)).bind fun ts =>
      .ok (t :: ts)

/-- `path_lines`, 135-158: `•file.Lines 𝕩`. -/
def pathLines (p : List Byte) : Out (List (List Code)) := readLines p (lineCount p) 0

/-- `flines_c2`, sysfn.c 820-838, with `path_wChars`, file.c 261-271: what's written. -/
def writeLines (ts : List (List Code)) : List Byte := toUTF8 (ts.foldl (fun s l => (s ++ l) ++ [10#32]) [])

/-- `fchars_c1`, sysfn.c:792, and `fchars_c2`, 795. -/
def readChars (p : List Byte) : Out (List Code) := utf8Decode p
def writeChars (cs : List Code) : List Byte := toUTF8 cs

/-- An element to be written as byte: an integer or a character. Numbers that aren't integers of 32 bits, for which the conversion isn't defined or drops a fraction, aren't modelled. -/
inductive Elem
  | num (n : BitVec 32)
  | chr (c : Code)

/-- `get_chars`, file.c 228-246, and `fbytes_c2`, sysfn.c 809: each is made a `char`. The memory of 8-bit types is used as it is, which are the same bytes. -/
def writeBytes (x : List Elem) : List Byte := x.map fun | .num n => n.setWidth 8 | .chr c => c.setWidth 8

/-- `fbytes_c1`, 803-808: bytes become 8-bit characters. -/
def readBytes (p : List Byte) : List Code := p.map (·.setWidth 32)

/-! ## Paths -/

/-- `isPathSep` and `isAbsolutePath`, file.c 95-96. The latter reads the first character. -/
def isSep (c : Nat) : Bool := c == 47
def isAbs (p : List Nat) : Option Bool := p.head?.map isSep

/-- `path_rel`, 163-182. `base` is `none` if there's none; `none` as result is an error. -/
def pathRel (base : Option (List Nat)) (rel : List Nat) : Option (List Nat) :=
  if rel.length > 0 ∧ isAbs rel = some true then some rel
  else match base with
    | none => none
    | some base =>
      if rel.length = 0 then some base
      else match base.getLast? with
        | none => some rel
        | some b => some (base.take (base.length - (if isSep b then 1 else 0)) ++ sep :: rel)

/-- The loops of 189 and 202: the last position below `k` of a separator. -/
def lastSep (p : List Nat) : Nat → Option Nat
  | 0 => none
  | k+1 => if (p[k]?.map isSep) = some true then some k else lastSep p k

/-- `path_parent`, 184-196. `(i64)pia-2` is -1 for a single character. -/
def parent (p : List Nat) : Option (List Nat) :=
  if p.length = 0 then none
  else match lastSep p (p.length - 1) with
    | some i => some (p.take (i + 1))
    | none => if isAbs p = some true then some p else some [46, sep]

/-- `path_name`, 197-209. -/
def name (p : List Nat) : Option (List Nat) :=
  if p.length = 0 then none
  else match lastSep p p.length with
    | some i => if i = p.length - 1 then none else some ((p.drop (i + 1)).take (p.length - (i + 1)))
    | none => some p

end Verif.File
