/-!
# Model of the value-word tag tests (`/repo/src/h.h`)

A BQN value is the union `B` of a `u64` and a `double` (h.h 206-210). Everything here works on the 64-bit
pattern. `tag >> 48` comparisons are kept as shifts of a `BitVec 64`.
-/
namespace Verif.NanBox

/-- The word of a value, `x.u` in C. -/
abbrev Word := BitVec 64

/- Tag constants, h.h 186-197. -/
/-- h.h 186 `C32_TAG` -/
def C32_TAG : BitVec 64 := 0x7FF1#64
/-- h.h 187 `TAG_TAG` -/
def TAG_TAG : BitVec 64 := 0x7FF2#64
/-- h.h 188 `VAR_TAG` -/
def VAR_TAG : BitVec 64 := 0x7FF3#64
/-- h.h 189 `EXT_TAG` -/
def EXT_TAG : BitVec 64 := 0x7FF4#64
/-- h.h 190 `RAW_TAG` -/
def RAW_TAG : BitVec 64 := 0x7FF5#64
/-- h.h 191 `MD1_TAG` -/
def MD1_TAG : BitVec 64 := 0xFFF2#64
/-- h.h 192 `MD2_TAG` -/
def MD2_TAG : BitVec 64 := 0xFFF3#64
/-- h.h 193 `FUN_TAG` -/
def FUN_TAG : BitVec 64 := 0xFFF4#64
/-- h.h 194 `NSP_TAG` -/
def NSP_TAG : BitVec 64 := 0xFFF5#64
/-- h.h 195 `OBJ_TAG` -/
def OBJ_TAG : BitVec 64 := 0xFFF6#64
/-- h.h 196 `ARR_TAG` -/
def ARR_TAG : BitVec 64 := 0xFFF7#64
/-- h.h 197 `VAL_TAG`, 13 bits -/
def VAL_TAG : BitVec 64 := 0x1FFE#64

/-- h.h 461 -/
def isFun (x : Word) : Bool := x >>> 48 == FUN_TAG
/-- h.h 462 -/
def isArr (x : Word) : Bool := x >>> 48 == ARR_TAG
/-- h.h 463 -/
def isC32 (x : Word) : Bool := x >>> 48 == C32_TAG
/-- h.h 464 -/
def isVar (x : Word) : Bool := x >>> 48 == VAR_TAG
/-- h.h 465 -/
def isExt (x : Word) : Bool := x >>> 48 == EXT_TAG
/-- h.h 466 -/
def isTag (x : Word) : Bool := x >>> 48 == TAG_TAG
/-- h.h 467 -/
def isMd1 (x : Word) : Bool := x >>> 48 == MD1_TAG
/-- h.h 468 -/
def isMd2 (x : Word) : Bool := x >>> 48 == MD2_TAG
/-- h.h 469: one shift fewer, both modifier tags at once -/
def isMd (x : Word) : Bool := x >>> 49 == MD2_TAG >>> 1
/-- h.h 470 -/
def isNsp (x : Word) : Bool := x >>> 48 == NSP_TAG
/-- h.h 471 -/
def isObj (x : Word) : Bool := x >>> 48 == OBJ_TAG
/-- h.h 474: `(x.u - (((u64)VAL_TAG<<51) + 1)) < ((1ull<<51) - 1)`, unsigned wrap-around subtraction -/
def isVal (x : Word) : Bool := (x - ((VAL_TAG <<< 51) + 1#64)).ult ((1#64 <<< 51) - 1#64)
/-- h.h 475: `(x.u<<1) - ((0xFFEull<<52) + 2) >= (1ull<<52) - 2` -/
def isF64 (x : Word) : Bool := ((1#64 <<< 52) - 2#64).ule ((x <<< 1) - ((0xFFE#64 <<< 52) + 2#64))
/-- h.h 476 -/
def isNum (x : Word) : Bool := isF64 x
/-- h.h 478 -/
def isAtm (x : Word) : Bool := !isArr x
/-- h.h 479: `u16 tag = x.u>>48; return tag>=MD1_TAG && tag<=FUN_TAG`. The shift already fits 16 bits, so the
`u16` truncation is omitted. -/
def isCallable (x : Word) : Bool := MD1_TAG.ule (x >>> 48) && (x >>> 48).ule FUN_TAG

/-- h.h 198-200 `ftag`, `tagu64`: `(u64)V | ((u64)T << 48)` -/
def tagu64 (v t : BitVec 64) : Word := v ||| (t <<< 48)
/-- h.h 485 `m_c32` -/
def m_c32 (n : BitVec 32) : Word := tagu64 (n.setWidth 64) C32_TAG
/-- h.h 515 `o2cG`: truncation of the word to 32 bits -/
def o2cG (x : Word) : BitVec 32 := x.setWidth 32
/-- h.h 202 `c(T,X)`: the pointer stored in a word -/
def payload (x : Word) : BitVec 64 := x &&& 0xFFFFFFFFFFFF#64
/-- h.h 504 `q_c8` -/
def q_c8 (x : Word) : Bool := x >>> 8 == C32_TAG <<< 40
/-- h.h 505 `q_c16` -/
def q_c16 (x : Word) : Bool := x >>> 16 == C32_TAG <<< 32

end Verif.NanBox
