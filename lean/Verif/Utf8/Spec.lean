/-!
# Specification for UTF-8

Independent of the C code: framing by the leading byte, payload bits, stated with natural-number arithmetic.
The standard encoder used for comparison is Lean's own `String.utf8EncodeChar`.
-/
namespace Verif.Utf8.Spec

/-- `Char1 bs n`: the bytes `bs` are one well-framed sequence (leading byte announces exactly `bs.length` bytes) with
payload `n`. Continuation bytes contribute their low six bits (their top bits are not checked by CBQN). -/
inductive Char1 : List Nat → Nat → Prop
  | one   {a}       : a < 0x80 → Char1 [a] a
  | two   {a b}     : 0xC0 ≤ a → a < 0xE0 → Char1 [a, b] ((a - 0xC0) * 64 + b % 64)
  | three {a b c}   : 0xE0 ≤ a → a < 0xF0 → Char1 [a, b, c] (((a - 0xE0) * 64 + b % 64) * 64 + c % 64)
  | four  {a b c d} : 0xF0 ≤ a → a < 0xF8 → Char1 [a, b, c, d] ((((a - 0xF0) * 64 + b % 64) * 64 + c % 64) * 64 + d % 64)

/-- `Text bs ns`: the byte string is a concatenation of well-framed sequences with payloads `ns`. -/
inductive Text : List Nat → List Nat → Prop
  | nil : Text [] []
  | cons {b n bs ns} : Char1 b n → Text bs ns → Text (b ++ bs) (n :: ns)

end Verif.Utf8.Spec
