import Verif.Ffi.Spec
/-
The notation of foreign types (C82): which strings denote which types.
Strings are lists of code points.
-/
namespace Verif.FfiType
open Verif.Ffi

abbrev Str := List Nat

/-- The code point of a character. -/
abbrev ch (c : Char) : Nat := c.toNat

mutual
/-- Types as written. -/
inductive PT
  | sc (s : Sc)
  | a
  | vptr
  | ptr (isMut : Bool) (e : PT)
  | tlarr (n : Nat) (e : PT)
  | starr (n : Nat) (e : PT)
  | str (fs : PTs)
  | repr (b : PT) (r : Re)
inductive PTs
  | nil
  | cons (t : PT) (rest : PTs)
end

def isDigit (c : Nat) : Prop := ch '0' ≤ c ∧ c ≤ ch '9'

/-- The value of digits. -/
def value (ds : Str) : Nat := ds.foldl (fun n d => n * 10 + (d - ch '0')) 0

/-- `ds` is a number in decimal notation, leading zeros allowed, within the limit
on numbers. -/
def Num (ds : Str) (n : Nat) : Prop :=
  ds ≠ [] ∧ (∀ d ∈ ds, isDigit d) ∧ value ds = n ∧ n < 4294967190

def Sc.letter : Sc → Nat
  | .u8 | .u16 | .u32 | .u64 => ch 'u'
  | .i8 | .i16 | .i32 | .i64 => ch 'i'
  | .f32 | .f64 => ch 'f'

def Re.letter : Re → Nat
  | .u1 => ch 'u'
  | .i8 | .i16 | .i32 => ch 'i'
  | .c8 | .c16 | .c32 => ch 'c'
  | .f64 => ch 'f'

/-- `u1`, `i8`, …, `f64` after a colon. -/
def ReSp (r : Re) (s : Str) : Prop := ∃ ds, Num ds r.bits ∧ s = Re.letter r :: ds

/-- Scalars and `*`. -/
def PT.simple : PT → Bool
  | .sc _ => true
  | .vptr => true
  | _ => false

/-- What a representation can be given for: scalars and `*` outside of pointers, and
pointers to those. -/
def PT.reOk : PT → Bool → Bool
  | .sc _, p => !p
  | .vptr, p => !p
  | .ptr _ e, _ => e.simple
  | .tlarr _ e, _ => e.simple
  | _, _ => false

/-- The representation isn't wider than the scalar. -/
def Narrow : PT → Re → Prop
  | .sc s, r => r.bits ≤ 8 * s.width
  | _, _ => True

mutual
/-- The string `s` denotes the type, directly within a pointer or not, as the
outermost type or not. -/
def Denotes : PT → (inPtr top : Bool) → Str → Prop
  | .sc k, _, _, s => ∃ ds, Num ds (8 * k.width) ∧ s = Sc.letter k :: ds
  | .a, _, _, s => s = [ch 'a']
  | .vptr, _, _, s => s = [ch '*']
  | .ptr m e, _, top, s =>
    (m = true → top = true) ∧ ∃ u, Denotes e true false u ∧ s = (if m then ch '&' else ch '*') :: u
  | .tlarr n e, _, top, s =>
    top = true ∧ 1 ≤ n ∧ ∃ ds u, Num ds n ∧ Denotes e true false u ∧ s = ch '[' :: (ds ++ ch ']' :: u)
  | .starr n e, _, top, s =>
    top = false ∧ 1 ≤ n ∧ ∃ ds u, Num ds n ∧ Denotes e false false u ∧ s = ch '[' :: (ds ++ ch ']' :: u)
  | .str fs, _, _, s => ∃ u, DenotesAll fs u ∧ s = ch '{' :: (u ++ [ch '}'])
  | .repr b r, p, top, s =>
    b.reOk p = true ∧ Narrow b r ∧ ∃ u v, Denotes b p top u ∧ ReSp r v ∧ s = u ++ ch ':' :: v
/-- Types with commas between them. -/
def DenotesAll : PTs → Str → Prop
  | .nil, _ => False
  | .cons t .nil, s => Denotes t false false s
  | .cons t (.cons t' r), s => ∃ u v, Denotes t false false u ∧ DenotesAll (.cons t' r) v ∧ s = u ++ ch ',' :: v
end

/-- No character directly after a colon is outside of Latin-1. -/
def Narrows (s : Str) : Prop := ∀ pre c post, s = pre ++ ch ':' :: c :: post → c < 256

/-- The type of an argument or result. -/
inductive Dec
  | void (single : Bool)
  | ty (t : PT) (onW whole isMut : Bool)

/-- Which string denotes which type of an argument or (`forRes`) result: `𝕩` or `𝕨`
and `>` may stand before it in any order, for results only `>`. -/
def DenotesDec (forRes : Bool) : Dec → Str → Prop
  | .void single, s => forRes = true ∧ s = if single then [ch '&'] else []
  | .ty t onW whole isMut, s =>
    ∃ side pre u, s = pre ++ u ∧ Denotes t false true u ∧ isMut = decide (u.head? = some (ch '&')) ∧
      (pre = side ++ (if whole then [ch '>'] else []) ∨ pre = (if whole then [ch '>'] else []) ++ side) ∧
      (if onW then side = [ch '𝕨'] else side = [] ∨ side = [ch '𝕩']) ∧ (forRes = true → side = [])

end Verif.FfiType
