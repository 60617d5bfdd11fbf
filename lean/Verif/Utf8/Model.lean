/-!
# Model of `/repo/src/utils/utf.c`

Bytes are `BitVec 8`, code points `BitVec 32` (`u32`). The source string is a list whose reads are checked: a read
past the end of the string is the distinct outcome `oob`, as is a write past the end of the result buffer.
-/
namespace Verif.Utf8

abbrev Byte := BitVec 8
abbrev Code := BitVec 32

/-- Outcome of a C function: value, BQN error (`thrM`), out-of-bounds access, or unreachable code (`UD`). -/
inductive Out (α : Type) where
  | ok (a : α) | err | oob | ud
deriving DecidableEq, Repr

/-- utf.c 4-10 `utf8lenb`, result `-1` is `none`. -/
def utf8lenb (ch : Byte) : Option Nat :=
  if ch.ult 128#8 then some 1
  else if ch >>> 5 == 0b110#8 then some 2
  else if ch >>> 4 == 0b1110#8 then some 3
  else if ch >>> 3 == 0b11110#8 then some 4
  else none

/-- Reading byte `i` of the string `s`. -/
def rd (s : List Byte) (i : Nat) : Out Byte := match s[i]? with | some b => .ok b | none => .oob

def Out.bind {α β} (x : Out α) (f : α → Out β) : Out β :=
  match x with | .ok a => f a | .err => .err | .oob => .oob | .ud => .ud

/-- Masking a byte as a `u32`: `(m & p[i])` with `m` an `unsigned` literal. -/
def mb (m : Code) (b : Byte) : Code := m &&& b.setWidth 32

/-- utf.c 11-20 `utf8_p(s+i)`. The `-1` case returns `(u32)-1`. Only the bytes named in the C expression of the chosen
case are read. -/
def utf8_p (s : List Byte) (i : Nat) : Out Code :=
  (rd s i).bind fun p0 =>
  match utf8lenb p0 with
  | none => .ok (BitVec.allOnes 32)
  | some 1 => .ok (p0.setWidth 32)
  | some 2 => (rd s (i+1)).bind fun p1 => .ok (mb 0b11111#32 p0 <<< 6 ||| mb 0b111111#32 p1)
  | some 3 => (rd s (i+2)).bind fun p2 => (rd s (i+1)).bind fun p1 =>
      .ok (mb 0b1111#32 p0 <<< 12 ||| mb 0b111111#32 p2 ||| mb 0b111111#32 p1 <<< 6)
  | some 4 => (rd s (i+3)).bind fun p3 => (rd s (i+2)).bind fun p2 => (rd s (i+1)).bind fun p1 =>
      .ok (mb 0b111#32 p0 <<< 18 ||| mb 0b111111#32 p3 ||| mb 0b111111#32 p2 <<< 6 ||| mb 0b111111#32 p1 <<< 12)
  | some _ => .ud

theorem utf8lenb_pos {b : Byte} {l : Nat} (h : utf8lenb b = some l) : 0 < l ∧ l ≤ 4 := by
  unfold utf8lenb at h
  split at h; · cases h; decide
  split at h; · cases h; decide
  split at h; · cases h; decide
  split at h; · cases h; decide
  cases h

/-- utf.c 30-42, the counting pass of `utf8Decode`: position `j`, count `sz`. -/
def countPass (s : List Byte) (j sz : Nat) : Out Nat :=
  if _hj : j ≥ s.length then
    if j ≠ s.length then .err else .ok sz
  else
    match rd s j with
    | .ok b => match hl : utf8lenb b with
      | none => .err
      | some l => countPass s (j + l) (sz + 1)
    | .err => .err | .oob => .oob | .ud => .ud
termination_by s.length - j
decreasing_by have := utf8lenb_pos hl; omega

/-- utf.c 46-48, the writing pass: `rp` has room for `sz` code points, `acc` holds those already written in order
(`p = acc.length`). A step of `-1` (invalid leading byte) would move `i` backwards; it is the outcome `ud`. -/
def writePass (s : List Byte) (sz : Nat) (i : Nat) (acc : List Code) : Out (List Code) :=
  if _hi : i < s.length then
    match utf8_p s i with
    | .ok c =>
      if acc.length < sz then
        match rd s i with
        | .ok b => match _hl : utf8lenb b with
          | none => .ud
          | some l => writePass s sz (i + l) (acc ++ [c])
        | .err => .err | .oob => .oob | .ud => .ud
      else .oob
    | .err => .err | .oob => .oob | .ud => .ud
  else .ok acc
termination_by s.length - i
decreasing_by have := utf8lenb_pos ‹_›; omega

/-- utf.c 30-52 `utf8Decode`. The result array is the list of its code points; `m_c8vec` (line 44) stores the bytes
as 8-bit characters. The result buffer's final length must be `sz` (uninitialised cells otherwise), which the theorems
show. -/
def utf8Decode (s : List Byte) : Out (List Code) :=
  (countPass s 0 0).bind fun sz =>
    if sz = s.length then .ok (s.map (·.setWidth 32)) else writePass s sz 0 []

/-- utf.c 21-28 `utf8_w`: the bytes appended to the buffer, each truncated to `char`. -/
def utf8_w (c : Code) : List Byte :=
  let t (x : Code) : Byte := x.setWidth 8
  if c.ult 128#32 then [t c]
  else if c.ule 0x07FF#32 then [t (0xC0#32 ||| c >>> 6), t (0x80#32 ||| (c &&& 0x3F#32))]
  else if c.ule 0xFFFF#32 then
    [t (0xE0#32 ||| c >>> 12), t (0x80#32 ||| (c >>> 6 &&& 0x3F#32)), t (0x80#32 ||| (c &&& 0x3F#32))]
  else
    [t (0xF0#32 ||| c >>> 18), t (0x80#32 ||| (c >>> 12 &&& 0x3F#32)), t (0x80#32 ||| (c >>> 6 &&& 0x3F#32)),
     t (0x80#32 ||| (c &&& 0x3F#32))]

/-- utf.c 151-155 `toUTF8`: writes every element in turn. -/
def toUTF8 (cs : List Code) : List Byte := cs.flatMap utf8_w

/-- utf.c 147, one term of `utf8lenB`. -/
def lenOf (c : Code) : Nat :=
  if c.ule 127#32 then 1 else if c.ule 0x07FF#32 then 2 else if c.ule 0xFFFF#32 then 3 else 4

/-- utf.c 140-150 `utf8lenB`; the `u64` counter cannot wrap for an array of at most 2^32 elements. -/
def utf8lenB (cs : List Code) : Nat := cs.foldl (fun res c => res + lenOf c) 0

end Verif.Utf8
