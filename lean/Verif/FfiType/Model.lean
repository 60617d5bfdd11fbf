import Verif.FfiType.Spec
/-
Model of the parser of foreign types, /repo/src/ffi.c.

A position in the string is the list of the code points from there on; the string
ends with a code point 0 (`parseType_pre`, ffi.c 566-571), so that reading at the
end gives 0.  Only the resulting type is modelled, not the `ffi_type` made along
with it; sizes and offsets are in `Verif.FfiCall.Model`.
-/
namespace Verif.FfiType
open Verif.Ffi

/-- Outcome: a result, an error, a read behind the end of the string, or too little
fuel for the recursion in this model. -/
inductive Res (α : Type)
  | ok (a : α)
  | err
  | oob
  | fuel

def Res.bind {α β : Type} (x : Res α) (f : α → Res β) : Res β :=
  match x with
  | .ok a => f a
  | .err => .err
  | .oob => .oob
  | .fuel => .fuel

instance (c : Nat) : Decidable (isDigit c) := inferInstanceAs (Decidable (_ ∧ _))

/-- The loop of `readUInt`: ffi.c 389-395. -/
def readLoop : Nat → Str → Option (Nat × Str)
  | r, [] => some (r, [])
  | r, c :: s =>
    if isDigit c then
      if r ≥ (2 ^ 32 - 1) / 10 - 10 then none
      else readLoop ((r * 10 + c - ch '0') % 2 ^ 32) s
    else some (r, c :: s)

/-- `readUInt`: ffi.c 388-399. -/
def readUInt (s : Str) : Res (Nat × Str) :=
  match readLoop 0 s with
  | none => .err
  | some (n, s') => if s'.length = s.length then .err else .ok (n, s')

/-- Letter and width of a representation: ffi.c 544-552. -/
def toRe (t n : Nat) : Option Re :=
  if t = ch 'i' then
    if n = 8 then some .i8 else if n = 16 then some .i16 else if n = 32 then some .i32 else none
  else if t = ch 'c' then
    if n = 8 then some .c8 else if n = 16 then some .c16 else if n = 32 then some .c32 else none
  else if t = ch 'u' then if n = 1 then some .u1 else none
  else if t = ch 'f' then if n = 64 then some .f64 else none
  else none

/-- The representation after a colon: ffi.c 542-552.  The letter is read as a `u8`.
At the end of the string the terminator is taken for the letter, and `readUInt` reads
behind it. -/
def readRe : Str → Res (Re × Str)
  | [] => .oob
  | c :: s =>
    (readUInt s).bind fun p =>
      match toRe (c % 256) p.1 with
      | none => .err
      | some r => .ok (r, p.2)

/-- `ParsedType` (ffi.c 421-425), with the position after it. -/
structure Parsed where
  t : PT
  can : Bool
  mu : Bool
  rest : Str

/-- Whether the representation is wider than a scalar: ffi.c 554. -/
def tooWide (t : PT) (r : Re) : Bool :=
  match t with
  | .sc s => decide (r.bits > s.width * 8)
  | _ => false

/-- The end of `ffi_parseType`: ffi.c 542-564. -/
def finish (parseRepr : Bool) (t : PT) (can mu : Bool) (s : Str) : Res Parsed :=
  if parseRepr = true ∧ s.headD 0 = ch ':' then
    (readRe s.tail).bind fun p =>
      if tooWide t p.1 then .err else .ok ⟨.repr t p.1, can, mu, p.2⟩
  else .ok ⟨t, can, mu, s⟩

/-- The scalar with a letter and a width: ffi.c 470-484. -/
def scalarOf (c n : Nat) : Option Sc :=
  if c = ch 'f' then if n = 32 then some .f32 else if n = 64 then some .f64 else none
  else if n = 8 then some (if c = ch 'i' then .i8 else .u8)
  else if n = 16 then some (if c = ch 'i' then .i16 else .u16)
  else if n = 32 then some (if c = ch 'i' then .i32 else .u32)
  else if n = 64 then some (if c = ch 'i' then .i64 else .u64)
  else none

mutual
/-- `ffi_parseType`: ffi.c 426-565. -/
def parseT : Nat → Bool → Bool → Str → Res Parsed
  | 0, _, _, _ => .fuel
  | fuel + 1, inPtr, top, s =>
    let c0 := s.headD 0
    if c0 = ch '[' then
      (readUInt s.tail).bind fun p =>
        if p.2.headD 0 ≠ ch ']' then .err
        else if p.1 = 0 then .err
        else
          (parseT fuel top false p.2.tail).bind fun e =>
            if top then finish e.can (.tlarr p.1 e.t) false false e.rest
            else finish false (.starr p.1 e.t) false false e.rest
    else if c0 = ch 'i' ∨ c0 = ch 'u' ∨ c0 = ch 'f' then
      (readUInt s.tail).bind fun p =>
        match scalarOf c0 p.1 with
        | none => .err
        | some k => finish (!inPtr) (.sc k) inPtr false p.2
    else if c0 = ch 'a' then finish false .a false false s.tail
    else if c0 = ch '*' ∨ c0 = ch '&' then
      let d := s.tail.headD 0
      if c0 = ch '*' ∧ (d = 0 ∨ d = ch ':' ∨ d = ch '}' ∨ d = ch ',') then
        finish (!inPtr) .vptr inPtr false s.tail
      else if c0 = ch '&' ∧ top = false then .err
      else
        (parseT fuel true false s.tail).bind fun e =>
          finish e.can (.ptr (decide (c0 = ch '&')) e.t) false (decide (c0 = ch '&')) e.rest
    else if c0 = ch '{' then
      (parseFs fuel s.tail).bind fun p => finish false (.str p.1) false false p.2
    else .err
/-- The loop over fields: ffi.c 519-524. -/
def parseFs : Nat → Str → Res (PTs × Str)
  | 0, _ => .fuel
  | fuel + 1, s =>
    (parseT fuel false false s).bind fun e =>
      if e.rest.headD 0 = ch '}' then .ok (.cons e.t .nil, e.rest.tail)
      else if e.rest.headD 0 ≠ ch ',' then .err
      else (parseFs fuel e.rest.tail).bind fun p => .ok (.cons e.t p.1, p.2)
end

/-- The loop over decorations: ffi.c 600-606. -/
def decos : Nat → Bool → Str → Option (Nat × Bool × Str)
  | side, whole, [] => some (side, whole, [])
  | side, whole, c :: s =>
    if c = ch '𝕩' then if side ≠ 0 then none else decos 1 whole s
    else if c = ch '𝕨' then if side ≠ 0 then none else decos 2 whole s
    else if c = ch '>' then if whole then none else decos side true s
    else some (side, whole, c :: s)

/-- A type on its own, as for `Cast`: ffi.c 1286-1296, with `parseType_post`, 572-575. -/
def parseAlone (top : Bool) (s : Str) : Res Parsed :=
  (parseT (2 * s.length + 1) false top s).bind fun e => if e.rest = [] then .ok e else .err

/-- `ffi_parseDecoratedType`: ffi.c 581-619. -/
def parseDec (forRes : Bool) (s : Str) : Res Dec :=
  if s = [] then if forRes then .ok (.void false) else .err
  else if forRes = true ∧ s.headD 0 = ch '&' ∧ s.tail.headD 0 = 0 then
    if s.tail = [] then .ok (.void true) else .err
  else
    match decos 0 false s with
    | none => .err
    | some (side, whole, r) =>
      if forRes = true ∧ side ≠ 0 then .err
      else (parseAlone true r).bind fun e => .ok (.ty e.t (decide (side = 2)) whole e.mu)

end Verif.FfiType
