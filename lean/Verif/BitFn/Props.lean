import Verif.BitFn.Two
/-!
# `•bit`: the theorems

`bad` is what the hardware gives for a double that does not fit in 32 bits, `tail` and `junk` are memory contents beyond the
elements and of new arrays: the theorems hold whatever they are.
-/
namespace Verif.BitFn
open Verif.Squeeze
open Verif.Bits (Word bitF)
open Verif.Rotate (prod)

/-! ## `•bit._cast` -/

/-- The result has the same bits, in rows of as many elements as the new width allows.  Partial: for results of fewer than
2⋆32 elements, see `cast_count_wraps`; and characters must be stored in a character array, see `cast_boxed_chars`. -/
theorem cast_bits_partial (bad : BitVec 64 → BitVec 32) {a c : Arg} {x : Arr} {xt rt : El} {pre : List Nat} {n n' : Nat} {b : Nat → Bool}
    (fresh shared : Bool) (tail tail' : Mem)
    (ha : named (isChr x.data.ty) a = some xt) (hc : named false c = some rt) (hsh : x.sh = pre ++ [n])
    (hlen : x.data.elems.length = prod x.sh) (hb : Reads xt x.data.elems b) (hn : width xt * n = width rt * n')
    (hrl : n' < 2^32-1) (hsmall : prod pre * n' < 2^32) :
    ∃ r, castC1 bad [a, c] x fresh shared tail tail' = .ok r ∧ r.sh = pre ++ [n'] ∧ r.ia = prod r.sh ∧ r.data.ty = rt ∧
      r.data.elems.length = prod r.sh ∧ Reads rt r.data.elems b ∧ width rt * r.ia ≤ r.cap :=
  cast_ok bad fresh shared tail tail' ha hc hsh hlen hb hn hrl hsmall

theorem named_again {c : Arg} {rt : El} (h : named false c = some rt) : named (isChr rt) c = some rt := by
  cases c with
  | wid s =>
    rw [named_wid] at h ⊢
    have : isChr rt = false := by
      unfold elOf at h
      dsimp only at h
      repeat' split at h
      all_goals first | contradiction | (injection h with h; subst h; rfl)
    rw [this, h]
  | pair s t =>
    rw [← h]
    cases isChr rt
    · rfl
    · unfold named
      split <;> simp_all

/-- Its inverse gives the argument back. -/
theorem cast_back_partial (bad : BitVec 64 → BitVec 32) {a c : Arg} {x : Arr} {xt rt : El} {pre : List Nat} {n n' : Nat} {b : Nat → Bool}
    (fresh shared fresh' shared' : Bool) (tail tail' tail2 tail2' : Mem)
    (ha : named (isChr x.data.ty) a = some xt) (ha' : named false a = some xt) (hc : named false c = some rt) (hsh : x.sh = pre ++ [n])
    (hlen : x.data.elems.length = prod x.sh) (hb : Reads xt x.data.elems b) (hn : width xt * n = width rt * n')
    (hrl : n' < 2^32-1) (hxl : n < 2^32-1) (hsmall : prod pre * n' < 2^32) (hx : prod x.sh < 2^32) :
    ∃ r, castC1 bad [a, c] x fresh shared tail tail' = .ok r ∧
      ∃ y, castIm bad [a, c] ⟨r.sh, r.data⟩ fresh' shared' tail2 tail2' = .ok y ∧ y.sh = x.sh ∧ Sames y.data.elems x.data.elems := by
  obtain ⟨r, e, rsh, _, rty, rlen, rb, _⟩ := cast_bits_partial bad fresh shared tail tail' ha hc hsh hlen hb hn hrl hsmall
  refine ⟨r, e, ?_⟩
  have hx' : prod pre * n < 2^32 := by rw [hsh, prod_snoc] at hx; exact hx
  obtain ⟨y, e2, ysh, _, _, ylen, yb, _⟩ := cast_ok bad (a := c) (c := a) (x := ⟨r.sh, r.data⟩) (xt := rt) (rt := xt) (pre := pre) (n := n') (n' := n) (b := b)
    fresh' shared' tail2 tail2' (by show named (isChr r.data.ty) c = some rt; rw [rty]; exact named_again hc) ha' rsh rlen rb hn.symm hxl hx'
  refine ⟨y, e2, ysh.trans hsh.symm, yb.sames hb ?_⟩
  rw [ylen, hlen, ysh, hsh]

/-- What it refuses: anything but two types, an atom, a type that there is not, rows that are not a whole number of elements,
and rows too long. -/
theorem cast_refused (bad : BitVec 64 → BitVec 32) (x : Arr) (fresh shared : Bool) (tail tail' : Mem) :
    (∀ f, f.length ≠ 2 → castC1 bad f x fresh shared tail tail' = .err) ∧
    (∀ f, x.sh = [] → castC1 bad f x fresh shared tail tail' = .err) ∧
    (∀ a c, named (isChr x.data.ty) a = none ∨ named false c = none → castC1 bad [a, c] x fresh shared tail tail' = .err) ∧
    (∀ a c xt rt pre n, named (isChr x.data.ty) a = some xt → named false c = some rt → x.sh = pre ++ [n] →
      (∀ n', width xt * n ≠ width rt * n') ∨ (∃ n', width xt * n = width rt * n' ∧ 2^32-1 ≤ n') →
      castC1 bad [a, c] x fresh shared tail tail' = .err) := by
  have at0 : ∀ a c, x.sh = [] → cast bad a c x fresh shared tail tail' = .err := by
    intro a c h
    unfold cast
    rw [h]
    rfl
  refine ⟨?_, ?_, ?_, ?_⟩
  · intro f hf
    unfold castC1
    split
    · simp at hf
    · rfl
  · intro f h
    unfold castC1
    split
    · exact at0 _ _ h
    · rfl
  · intro a c h
    show cast bad a c x fresh shared tail tail' = .err
    by_cases h0 : x.sh.length < 1
    · exact at0 a c (List.length_eq_zero_iff.1 (by omega))
    · unfold cast
      rw [if_neg h0]
      rcases h with h | h
      · rw [getCastType_none (val := some x.data.ty) h]
      · rw [getCastType_none (val := none) h]
        cases getCastType a (some x.data.ty) <;> rfl
  · intro a c xt rt pre n ha hc hsh h
    show cast bad a c x fresh shared tail tail' = .err
    obtain ⟨xct, e1, f1, g1⟩ := getCastType_some (val := some x.data.ty) ha
    obtain ⟨rct, e2, f2, g2⟩ := getCastType_some (val := none) hc
    unfold cast
    rw [if_neg (by rw [hsh]; simp), e1, e2, hsh]
    dsimp only
    rw [getD_snoc, g1, g2]
    rcases h with h | ⟨n', h, l⟩
    · rw [if_pos fun e => h (width xt * n / width rt) ((Nat.mul_comm _ _).trans e).symm]
    · have rpos : 0 < width rt := width_wide.pos
      rw [h, Nat.mul_div_cancel_left _ rpos, if_neg (by rw [Nat.mul_comm]; simp), if_pos l]

/-- With 2⋆32 elements or more the number of elements wraps around, although the shape is right: 2⋆26 doubles seen as bits. -/
theorem cast_count_wraps (bad : BitVec 64 → BitVec 32) (xs : List (BitVec 64)) (fresh shared : Bool) (tail tail' : Mem) :
    ∃ r, castC1 bad [.wid 64, .wid 1] ⟨[65536, 1024], .f64 xs⟩ fresh shared tail tail' = .ok r ∧ r.sh = [65536, 65536] ∧ r.ia = 0 := by
  have e1 : getCastType (.wid 64) (some (Data.f64 xs).ty) = some ⟨64, false⟩ := rfl
  have e2 : getCastType (.wid 1) none = some ⟨1, false⟩ := rfl
  have e3 : elOf ⟨64, false⟩ = some .f64 := rfl
  have e4 : elOf ⟨1, false⟩ = some .bit := rfl
  obtain ⟨d, ec, _⟩ := conv_reads bad (memOf_reads (fun _ => 0) (.f64 xs) (fun h => by cases h)) (t := .f64) (by decide)
  unfold castC1
  dsimp only
  unfold cast
  rw [if_neg (show ¬ [65536, 1024].length < 1 by decide), e1, e2]
  dsimp only
  rw [if_neg (by decide), if_neg (by decide), e3, e4]
  dsimp only
  rw [ec]
  dsimp only
  refine ⟨_, rfl, ?_⟩
  cases shared <;> exact ⟨by rfl, by rfl⟩

/-- The same characters, kept in a generic array, are read as numbers: what comes out is not defined. -/
theorem cast_boxed_chars (bad : BitVec 64 → BitVec 32) (fresh shared : Bool) (tail tail' : Mem) :
    castC1 bad [.wid 8, .wid 1] ⟨[1], .B [.chr 97#32]⟩ fresh shared tail tail' = .ub ∧
    ∃ r, castC1 bad [.wid 8, .wid 1] ⟨[1], .c8 [97#8]⟩ fresh shared tail tail' = .ok r := by
  constructor
  · rfl
  · obtain ⟨r, h, _⟩ := cast_bits_partial bad (a := .wid 8) (c := .wid 1) (x := ⟨[1], .c8 [97#8]⟩) (pre := []) (n := 1) (n' := 8)
      fresh shared tail tail' rfl rfl rfl rfl (memOf_reads (fun _ => 0) (.c8 [97#8]) (by decide)) rfl (by decide) (by decide)
    exact ⟨r, h⟩

/-! Non-vacuity: two rows of two 16-bit numbers seen as rows of four characters. -/

example (bad : BitVec 64 → BitVec 32) (fresh shared : Bool) (tail tail' : Mem) :
    ∃ r, castC1 bad [.wid 16, .pair 8 0x63] ⟨[2, 2], .i32 [0x4241#32, 0x4443#32, 0x6261#32, 0x6463#32]⟩ fresh shared tail tail' = .ok r ∧ r.sh = [2, 4] := by
  have rd : Reads .i16 (Data.i32 [0x4241#32, 0x4443#32, 0x6261#32, 0x6463#32]).elems (bitF (memOf (fun _ => 0) (.i16 [0x4241#16, 0x4443#16, 0x6261#16, 0x6463#16]))) :=
    memOf_reads (fun _ => 0) (.i16 [0x4241#16, 0x4443#16, 0x6261#16, 0x6463#16]) (by decide)
  obtain ⟨r, h, s, _⟩ := cast_bits_partial bad (a := .wid 16) (c := .pair 8 0x63)
    (x := ⟨[2, 2], .i32 [0x4241#32, 0x4443#32, 0x6261#32, 0x6463#32]⟩) (pre := [2]) (n := 2) (n' := 4)
    fresh shared tail tail' rfl rfl rfl rfl rd rfl (by decide) (by decide)
  exact ⟨r, h, s⟩

def shown : Out Res → Option (List Nat × Data)
  | .ok r => some (r.sh, r.data)
  | _ => none

example : shown (castC1 (fun _ => 0) [.wid 16, .pair 8 0x63] ⟨[2, 2], .i32 [0x4241#32, 0x4443#32, 0x6261#32, 0x6463#32]⟩ false false (fun _ => 0) (fun _ => 0)) =
    some ([2, 4], .c8 [0x41#8, 0x42#8, 0x43#8, 0x44#8, 0x61#8, 0x62#8, 0x63#8, 0x64#8]) := by decide +kernel

/-! ## `•bit._not` and `•bit._neg` -/

/-- Every piece of the result is the complement, or the negation, of that of the argument.  Partial: for arguments of fewer than
2⋆32 bits, see `bits_not_allocated`. -/
theorem one_pieces_partial (bad : BitVec 64 → BitVec 32) (op : Op1) {f : List Nat} {x : Arr} {xt rt : El} {pre : List Nat} {n n' : Nat} {b : Nat → Bool}
    (fresh shared : Bool) (tail junk : Mem) (h1 : 1 ≤ f.length) (h2 : f.length ≤ 3) (hp : Pows f)
    (ha : named (isChr x.data.ty) (.wid (nth f 2)) = some xt) (hc : named false (.wid (nth f 1)) = some rt) (hsh : x.sh = pre ++ [n])
    (hlen : x.data.elems.length = prod x.sh) (hb : Reads xt x.data.elems b) (how : nth f 0 ∣ width xt * n) (hn : width xt * n = width rt * n')
    (hsmall : width xt * prod x.sh < 2^32) (hrl : n' < 2^32-1) (hneg : op = .neg → ArithW (nth f 0)) :
    ∃ r, op1 bad op f x fresh shared tail junk = .ok r ∧ r.sh = pre ++ [n'] ∧ r.data.ty = rt ∧
      r.data.elems.length = prod r.sh ∧ width rt * r.ia ≤ r.cap ∧
      ∃ b', Reads rt r.data.elems b' ∧
        ∀ i, i < width xt * prod x.sh / nth f 0 → piece (nth f 0) b' i = op.on (nth f 0) (piece (nth f 0) b i) :=
  op1_ok bad op fresh shared tail junk h1 h2 hp ha hc hsh hlen hb how hn hsmall hrl hneg

example (bad : BitVec 64 → BitVec 32) (fresh shared : Bool) (tail junk : Mem) :
    ∃ r, op1 bad .neg [16, 8] ⟨[4], .i8 [1#8, 0#8, 0#8, 1#8]⟩ fresh shared tail junk = .ok r ∧ r.sh = [4] := by
  obtain ⟨r, h, s, _⟩ := one_pieces_partial bad .neg (f := [16, 8]) (x := ⟨[4], .i8 [1#8, 0#8, 0#8, 1#8]⟩) (pre := []) (n := 4) (n' := 4)
    fresh shared tail junk (by decide) (by decide)
    (by intro s hs; simp at hs; rcases hs with rfl | rfl
        · exact ⟨4, by decide, rfl⟩
        · exact ⟨3, by decide, rfl⟩)
    rfl rfl rfl rfl (memOf_reads (fun _ => 0) (.i8 [1#8, 0#8, 0#8, 1#8]) (by decide)) (by decide) rfl (by decide) (by decide) (fun _ => .inr (.inl rfl))
  exact ⟨r, h, s⟩

/-- In 16-bit pieces, 1 becomes 65535 and 256 becomes 65280. -/
example : shown (op1 (fun _ => 0) .neg [16, 8] ⟨[4], .i8 [1#8, 0#8, 0#8, 1#8]⟩ true false (fun _ => 0) (fun _ => 0)) =
    some ([4], .i8 [255#8, 255#8, 0#8, 255#8]) := by decide +kernel

/-- What they refuse: no width, too many, a width that is not a power of two, an atom, rows that are not a whole number of pieces. -/
theorem one_refused (bad : BitVec 64 → BitVec 32) (op : Op1) (f : List Nat) (x : Arr) (fresh shared : Bool) (tail junk : Mem)
    (h : f.length < 1 ∨ f.length > 3 ∨ (∃ s ∈ f, s < 2^32 ∧ ∀ a, s ≠ 2^a) ∨
      (1 ≤ f.length ∧ f.length ≤ 3 ∧ Pows f ∧ (x.sh = [] ∨ ∃ pre n, x.sh = pre ++ [n] ∧ ¬ nth f 0 ∣ nth f 2 * n))) :
    op1 bad op f x fresh shared tail junk = .err := by
  unfold op1
  rcases h with h | h | h | ⟨h1, h2, hp, h⟩
  · rw [widths_none (.inl h)]
  · rw [widths_none (.inr (.inl h))]
  · rw [widths_none (.inr (.inr h))]
  · rw [widths3 h1 h2 hp.req]
    dsimp only
    rcases h with h | ⟨pre, n, hs, hd⟩
    · rw [if_pos (by rw [h]; decide)]
    · rw [if_neg (by rw [hs]; simp), if_pos]
      left
      rw [and_pow (hp _ (nth_mem h1 0)), ctz_pow (hp _ (nth_mem h1 2)), hs, getD_snoc, Nat.mul_comm]
      exact fun e => hd (Nat.dvd_of_mod_eq_zero e)

example (bad : BitVec 64 → BitVec 32) (x : Arr) (fresh shared : Bool) (tail junk : Mem) : op1 bad .not [24] x fresh shared tail junk = .err := by
  refine one_refused bad .not [24] x fresh shared tail junk (.inr (.inr (.inl ⟨24, by simp, by decide, fun a h => ?_⟩)))
  rcases Nat.lt_or_ge a 5 with g | g
  · have : a = 0 ∨ a = 1 ∨ a = 2 ∨ a = 3 ∨ a = 4 := by omega
    rcases this with rfl | rfl | rfl | rfl | rfl <;> omega
  · have := Nat.pow_le_pow_right (n := 2) (by decide) g
    omega

/-- The number of bits is kept in 32 bits: for 2⋆26 doubles it is 0, and the result gets no memory for its 2⋆26 elements. -/
theorem bits_not_allocated (bad : BitVec 64 → BitVec 32) (op : Op1) (xs : List (BitVec 64)) (shared : Bool) (tail junk : Mem) :
    ∃ r, op1 bad op [64] ⟨[2^26], .f64 xs⟩ true shared tail junk = .ok r ∧ r.el = .f64 ∧ r.ia = 2^26 ∧ r.cap = 0 := by
  have e0 : widths 3 [64] = some [64, 64, 64] := rfl
  have e3 : ∀ c, elOf ⟨64, c⟩ = some .f64 := fun _ => rfl
  obtain ⟨d, ec, _⟩ := conv_reads bad (memOf_reads (fun _ => 0) (.f64 xs) (fun h => by cases h)) (t := .f64) (by decide)
  unfold op1
  rw [e0]
  dsimp only
  rw [if_neg (by decide), if_neg (by decide), if_neg (by decide), e3]
  dsimp only
  rw [ec, e3]
  dsimp only
  cases op with
  | not => exact ⟨_, rfl, by rfl, by rfl, by rfl⟩
  | neg =>
    dsimp only
    rw [if_pos (by decide)]
    exact ⟨_, rfl, by rfl, by rfl, by rfl⟩

/-! ## `•bit._and`, `_or`, `_xor`, `_add`, `_sub`, `_mul` -/

/-- Arguments of the same shape, up to the different widths: pieces are paired.  Partial: for arguments of fewer than 2⋆32 bits,
see `two_not_allocated`; and for `mul` the signed product must fit, see `mul_undefined`. -/
theorem two_same_partial (bad : BitVec 64 → BitVec 32) (op : Op2) {f : List Nat} {w x : Arr} {wt xt rt : El} {pre : List Nat} {m n n' : Nat} {a b : Nat → Bool}
    (wtail xtail junk : Mem) (h1 : 1 ≤ f.length) (h2 : f.length ≤ 4) (hp : Pows f)
    (hw : named (isChr w.data.ty) (.wid (nth f 3)) = some wt) (hx : named (isChr x.data.ty) (.wid (nth f 2)) = some xt)
    (hr : named false (.wid (nth f 1)) = some rt) (hwsh : w.sh = pre ++ [m]) (hxsh : x.sh = pre ++ [n])
    (hwlen : w.data.elems.length = prod w.sh) (hxlen : x.data.elems.length = prod x.sh)
    (ha : Reads wt w.data.elems a) (hb : Reads xt x.data.elems b) (hrow : width wt * m = width xt * n)
    (how : nth f 0 ∣ width xt * n) (hn : width xt * n = width rt * n') (hsmall : width xt * prod x.sh < 2^32) (hrl : n' < 2^32-1)
    (har : op.bitwise = false → ArithW (nth f 0))
    (hd : ∀ i, i < width xt * prod x.sh / nth f 0 → Defined op (nth f 0) (piece (nth f 0) a i) (piece (nth f 0) b i)) :
    ∃ r, op2 bad op f w x wtail xtail junk = .ok r ∧ r.sh = pre ++ [n'] ∧ r.data.ty = rt ∧ r.data.elems.length = prod r.sh ∧
      width rt * r.ia ≤ r.cap ∧ ∃ b', Reads rt r.data.elems b' ∧
        ∀ i, i < width xt * prod x.sh / nth f 0 → piece (nth f 0) b' i = op.on (nth f 0) (piece (nth f 0) a i) (piece (nth f 0) b i) :=
  op2_same_ok bad op wtail xtail junk h1 h2 hp hw hx hr hwsh hxsh hwlen hxlen ha hb hrow how hn hsmall hrl har hd

/-- 𝕨 is one piece: it is used for all pieces of 𝕩. -/
theorem two_left_partial (bad : BitVec 64 → BitVec 32) (op : Op2) {f : List Nat} {w x : Arr} {wt xt rt : El} {pre : List Nat} {n n' : Nat} {a b : Nat → Bool}
    (wtail xtail junk : Mem) (h1 : 1 ≤ f.length) (h2 : f.length ≤ 4) (hp : Pows f)
    (hw : named (isChr w.data.ty) (.wid (nth f 3)) = some wt) (hx : named (isChr x.data.ty) (.wid (nth f 2)) = some xt)
    (hr : named false (.wid (nth f 1)) = some rt) (hone : One w.sh (width wt) (nth f 0)) (hxsh : x.sh = pre ++ [n])
    (hwlen : w.data.elems.length = prod w.sh) (hxlen : x.data.elems.length = prod x.sh)
    (ha : Reads wt w.data.elems a) (hb : Reads xt x.data.elems b)
    (how : nth f 0 ∣ width xt * n) (hn : width xt * n = width rt * n') (hsmall : width xt * prod x.sh < 2^32) (hrl : n' < 2^32-1)
    (hbw : op.bitwise = true → nth f 0 ≤ 64) (har : op.bitwise = false → ArithW (nth f 0))
    (hd : ∀ i, i < width xt * prod x.sh / nth f 0 → Defined op (nth f 0) (piece (nth f 0) a 0) (piece (nth f 0) b i)) :
    ∃ r, op2 bad op f w x wtail xtail junk = .ok r ∧ r.sh = pre ++ [n'] ∧ r.data.ty = rt ∧ r.data.elems.length = prod r.sh ∧
      width rt * r.ia ≤ r.cap ∧ ∃ b', Reads rt r.data.elems b' ∧
        ∀ i, i < width xt * prod x.sh / nth f 0 → piece (nth f 0) b' i = op.on (nth f 0) (piece (nth f 0) a 0) (piece (nth f 0) b i) :=
  op2_left_ok bad op wtail xtail junk h1 h2 hp hw hx hr hone hxsh hwlen hxlen ha hb how hn hsmall hrl hbw har hd

/-- 𝕩 is one piece: it is used for all pieces of 𝕨. -/
theorem two_right_partial (bad : BitVec 64 → BitVec 32) (op : Op2) {f : List Nat} {w x : Arr} {wt xt rt : El} {pre : List Nat} {n n' : Nat} {a b : Nat → Bool}
    (wtail xtail junk : Mem) (h1 : 1 ≤ f.length) (h2 : f.length ≤ 4) (hp : Pows f)
    (hw : named (isChr w.data.ty) (.wid (nth f 3)) = some wt) (hx : named (isChr x.data.ty) (.wid (nth f 2)) = some xt)
    (hr : named false (.wid (nth f 1)) = some rt) (hone : One x.sh (width xt) (nth f 0)) (hwsh : w.sh = pre ++ [n])
    (hwlen : w.data.elems.length = prod w.sh) (hxlen : x.data.elems.length = prod x.sh)
    (ha : Reads wt w.data.elems a) (hb : Reads xt x.data.elems b)
    (how : nth f 0 ∣ width wt * n) (hn : width wt * n = width rt * n') (hsmall : width wt * prod w.sh < 2^32) (hrl : n' < 2^32-1)
    (hbw : op.bitwise = true → nth f 0 ≤ 64) (har : op.bitwise = false → ArithW (nth f 0))
    (hd : ∀ i, i < width wt * prod w.sh / nth f 0 → Defined op (nth f 0) (piece (nth f 0) a i) (piece (nth f 0) b 0)) :
    ∃ r, op2 bad op f w x wtail xtail junk = .ok r ∧ r.sh = pre ++ [n'] ∧ r.data.ty = rt ∧ r.data.elems.length = prod r.sh ∧
      width rt * r.ia ≤ r.cap ∧ ∃ b', Reads rt r.data.elems b' ∧
        ∀ i, i < width wt * prod w.sh / nth f 0 → piece (nth f 0) b' i = op.on (nth f 0) (piece (nth f 0) a i) (piece (nth f 0) b 0) :=
  op2_right_ok bad op wtail xtail junk h1 h2 hp hw hx hr hone hwsh hwlen hxlen ha hb how hn hsmall hrl hbw har hd

theorem pows16_8 : Pows [16, 8] := by
  intro s hs
  simp at hs
  rcases hs with rfl | rfl
  · exact ⟨4, by decide, rfl⟩
  · exact ⟨3, by decide, rfl⟩

example (bad : BitVec 64 → BitVec 32) (wtail xtail junk : Mem) :
    ∃ r, op2 bad .mul [16, 8] ⟨[4], .i8 [1#8, 1#8, 3#8, 0#8]⟩ ⟨[4], .i8 [5#8, 0#8, 100#8, 0#8]⟩ wtail xtail junk = .ok r := by
  obtain ⟨r, h, _⟩ := two_same_partial bad .mul (f := [16, 8]) (w := ⟨[4], .i8 [1#8, 1#8, 3#8, 0#8]⟩) (x := ⟨[4], .i8 [5#8, 0#8, 100#8, 0#8]⟩)
    (pre := []) (m := 4) (n := 4) (n' := 4) wtail xtail junk (by decide) (by decide) pows16_8 rfl rfl rfl rfl rfl rfl rfl
    (memOf_reads (fun _ => 0) (.i8 [1#8, 1#8, 3#8, 0#8]) (by decide)) (memOf_reads (fun _ => 0) (.i8 [5#8, 0#8, 100#8, 0#8]) (by decide))
    rfl (by decide) rfl (by decide) (by decide) (fun _ => .inr (.inl rfl)) (fun i _ _ h => absurd h (by decide))
  exact ⟨r, h⟩

example (bad : BitVec 64 → BitVec 32) (wtail xtail junk : Mem) :
    ∃ r, op2 bad .sub [16, 8] ⟨[2], .i8 [1#8, 1#8]⟩ ⟨[2, 4], .i8 [5#8, 0#8, 100#8, 0#8, 5#8, 0#8, 100#8, 0#8]⟩ wtail xtail junk = .ok r := by
  obtain ⟨r, h, _⟩ := two_left_partial bad .sub (f := [16, 8]) (w := ⟨[2], .i8 [1#8, 1#8]⟩) (x := ⟨[2, 4], .i8 [5#8, 0#8, 100#8, 0#8, 5#8, 0#8, 100#8, 0#8]⟩)
    (pre := [2]) (n := 4) (n' := 4) wtail xtail junk (by decide) (by decide) pows16_8 rfl rfl rfl (.inr ⟨2, rfl, rfl⟩) rfl rfl rfl
    (memOf_reads (fun _ => 0) (.i8 [1#8, 1#8]) (by decide)) (memOf_reads (fun _ => 0) (.i8 [5#8, 0#8, 100#8, 0#8, 5#8, 0#8, 100#8, 0#8]) (by decide))
    (by decide) rfl (by decide) (by decide) (fun h => by cases h) (fun _ => .inr (.inl rfl)) (fun i _ h => by cases h)
  exact ⟨r, h⟩

example (bad : BitVec 64 → BitVec 32) (wtail xtail junk : Mem) :
    ∃ r, op2 bad .sub [16, 8] ⟨[2, 4], .i8 [5#8, 0#8, 100#8, 0#8, 5#8, 0#8, 100#8, 0#8]⟩ ⟨[2], .i8 [1#8, 1#8]⟩ wtail xtail junk = .ok r := by
  obtain ⟨r, h, _⟩ := two_right_partial bad .sub (f := [16, 8]) (x := ⟨[2], .i8 [1#8, 1#8]⟩) (w := ⟨[2, 4], .i8 [5#8, 0#8, 100#8, 0#8, 5#8, 0#8, 100#8, 0#8]⟩)
    (pre := [2]) (n := 4) (n' := 4) wtail xtail junk (by decide) (by decide) pows16_8 rfl rfl rfl (.inr ⟨2, rfl, rfl⟩) rfl rfl rfl
    (memOf_reads (fun _ => 0) (.i8 [5#8, 0#8, 100#8, 0#8, 5#8, 0#8, 100#8, 0#8]) (by decide)) (memOf_reads (fun _ => 0) (.i8 [1#8, 1#8]) (by decide))
    (by decide) rfl (by decide) (by decide) (fun h => by cases h) (fun _ => .inr (.inl rfl)) (fun i _ h => by cases h)
  exact ⟨r, h⟩

/-- 257 × 5 and 3 × 100 in 16-bit pieces. -/
example : shown (op2 (fun _ => 0) .mul [16, 8] ⟨[4], .i8 [1#8, 1#8, 3#8, 0#8]⟩ ⟨[4], .i8 [5#8, 0#8, 100#8, 0#8]⟩ (fun _ => 0) (fun _ => 0) (fun _ => 0)) =
    some ([4], .i8 [5#8, 5#8, 44#8, 1#8]) := by decide +kernel

/-- 5 − 257 and 100 − 257. -/
example : shown (op2 (fun _ => 0) .sub [16, 8] ⟨[4], .i8 [5#8, 0#8, 100#8, 0#8]⟩ ⟨[2], .i8 [1#8, 1#8]⟩ (fun _ => 0) (fun _ => 0) (fun _ => 0)) =
    some ([4], .i8 [4#8, 255#8, 99#8, 255#8]) := by decide +kernel

/-- What they refuse: no width, too many, a width that is not a power of two, two atoms, and two arrays neither of which is one
piece and which do not have the same shape up to the widths. -/
theorem two_refused (bad : BitVec 64 → BitVec 32) (op : Op2) (f : List Nat) (w x : Arr) (wtail xtail junk : Mem)
    (h : f.length < 1 ∨ f.length > 4 ∨ (∃ s ∈ f, s < 2^32 ∧ ∀ a, s ≠ 2^a) ∨
      (1 ≤ f.length ∧ f.length ≤ 4 ∧ Pows f ∧ ((w.sh = [] ∧ x.sh = []) ∨
        ∃ pre m pre' n, w.sh = pre ++ [m] ∧ x.sh = pre' ++ [n] ∧ ¬ (pre = pre' ∧ nth f 3 * m = nth f 2 * n) ∧
          ¬ One w.sh (nth f 3) (nth f 0) ∧ ¬ One x.sh (nth f 2) (nth f 0)))) :
    op2 bad op f w x wtail xtail junk = .err := by
  unfold op2
  rcases h with h | h | h | ⟨h1, h2, hp, h⟩
  · rw [widths_none (.inl h)]
  · rw [widths_none (.inr (.inl h))]
  · rw [widths_none (.inr (.inr h))]
  · rw [widths4 h1 h2 hp.req]
    dsimp only
    rcases h with ⟨hw, hx⟩ | ⟨pre, m, pre', n, hw, hx, hne, now, nox⟩
    · rw [if_pos ⟨by rw [hw, hx], by rw [hx]; rfl⟩]
    · have wl : w.sh.length = pre.length + 1 := by rw [hw]; simp
      have xl : x.sh.length = pre'.length + 1 := by rw [hx]; simp
      rw [if_neg (by omega), rowBits_snoc hw, rowBits_snoc hx]
      have single : ∀ {y : Arr} {p : List Nat} {k v : Nat}, y.sh = p ++ [k] → ¬ One y.sh v (nth f 0) → y.sh.length > 1 ∨ v * k ≠ nth f 0 := by
        intro y p k v hy hno
        rcases Nat.lt_or_ge 1 y.sh.length with g | g
        · exact .inl g
        · refine .inr fun e => hno (.inr ⟨k, ?_, e⟩)
          rw [hy, List.length_append, List.length_singleton] at g
          rw [hy, List.length_eq_zero_iff.1 (show p.length = 0 by omega)]
          rfl
      by_cases c : w.sh.length = x.sh.length ∧ nth f 3 * m = nth f 2 * n
      · rw [if_pos c, if_pos]
        intro e
        apply hne
        refine ⟨?_, c.2⟩
        rw [hx, hw, List.length_append, List.length_singleton, Nat.add_sub_cancel, List.take_left,
          show pre'.length = pre.length by omega, List.take_left] at e
        exact e.symm
      · rw [if_neg c, if_pos (by rcases single hw now with g | g; exact .inl g; exact .inr (.inl g)),
          if_pos (by rcases single hx nox with g | g; exact .inl g; exact .inr (.inl g))]

example (bad : BitVec 64 → BitVec 32) (wtail xtail junk : Mem) :
    op2 bad .and [16, 8] ⟨[4], .i8 [1#8, 1#8, 3#8, 0#8]⟩ ⟨[6], .i8 [5#8, 0#8, 100#8, 0#8, 1#8, 2#8]⟩ wtail xtail junk = .err := by
  refine two_refused bad .and [16, 8] _ _ wtail xtail junk (.inr (.inr (.inr ⟨by decide, by decide, pows16_8, .inr
    ⟨[], 4, [], 6, rfl, rfl, fun h => absurd h.2 (by decide), ?_, ?_⟩⟩)))
  · rintro (⟨h, _⟩ | ⟨m, h, e⟩)
    · cases h
    · injection h with h; subst h; exact absurd e (by decide)
  · rintro (⟨h, _⟩ | ⟨m, h, e⟩)
    · cases h
    · injection h with h; subst h; exact absurd e (by decide)

/-- As `bits_not_allocated`, for two arguments. -/
theorem two_not_allocated (bad : BitVec 64 → BitVec 32) (xs ys : List (BitVec 64)) (wtail xtail junk : Mem) :
    ∃ r, op2 bad .and [64] ⟨[2^26], .f64 xs⟩ ⟨[2^26], .f64 ys⟩ wtail xtail junk = .ok r ∧ r.el = .f64 ∧ r.ia = 2^26 ∧ r.cap = 0 := by
  have e0 : widths 4 [64] = some [64, 64, 64, 64] := rfl
  have e3 : ∀ c, elOf ⟨64, c⟩ = some .f64 := fun _ => rfl
  obtain ⟨d, ec, _⟩ := conv_reads bad (memOf_reads (fun _ => 0) (.f64 xs) (fun h => by cases h)) (t := .f64) (by decide)
  obtain ⟨d', ec', _⟩ := conv_reads bad (memOf_reads (fun _ => 0) (.f64 ys) (fun h => by cases h)) (t := .f64) (by decide)
  have ew : ∀ zs, rowBits ⟨[2^26], .f64 zs⟩ 64 = 2^32 := fun zs => by
    rw [rowBits_snoc (x := ⟨[2^26], .f64 zs⟩) (pre := []) (n := 2^26) rfl 64]
  unfold op2
  rw [e0]
  dsimp only
  rw [ew, ew, if_neg (by decide), if_pos ⟨rfl, rfl⟩, if_neg (by decide)]
  unfold op2go
  dsimp only
  rw [if_neg (by decide), if_neg (by decide), e3, e3, e3]
  dsimp only
  rw [ec, ec']
  exact ⟨_, rfl, by rfl, by rfl, by rfl⟩

/-- The product of 65536 and 65536 in 32 bits is a signed overflow in C. -/
theorem mul_undefined (bad : BitVec 64 → BitVec 32) (wtail xtail junk : Mem) :
    op2 bad .mul [32] ⟨[1], .i32 [65536#32]⟩ ⟨[1], .i32 [65536#32]⟩ wtail xtail junk = .ub := by
  have e0 : widths 4 [32] = some [32, 32, 32, 32] := rfl
  have ew : rowBits ⟨[1], .i32 [65536#32]⟩ 32 = 32 := rfl
  have e3 : elOf ⟨32, false⟩ = some .i32 := rfl
  have ec : conv bad .i32 (.i32 [65536#32]) = some (.i32 [65536#32]) := rfl
  have er : ∀ tail, rd 32 (place [65536#32] tail) 0 = 65536#32 := by
    intro tail
    apply BitVec.eq_of_getLsbD_eq
    intro k hk
    rw [rd_bit (.inr (.inr (.inr (.inl rfl)))) _ _ hk, place_bit _ _ hk rfl]
  have ea : arith .mul 32 65536#32 65536#32 = none := by decide
  unfold op2
  rw [e0]
  dsimp only
  rw [ew, if_neg (by decide), if_pos ⟨rfl, rfl⟩, if_neg (by decide)]
  unfold op2go
  dsimp only
  rw [if_neg (by decide), if_neg (by decide), show isChr (Data.i32 [65536#32]).ty = false from rfl, e3]
  dsimp only
  rw [ec]
  dsimp only
  have : compute .mul 32 true false (memOf wtail (.i32 [65536#32])) (memOf xtail (.i32 [65536#32])) (shl32 (prod [1]) (ctz 32)) junk = .ub := by
    rw [show shl32 (prod [1]) (ctz 32) = 32 by decide +kernel]
    unfold compute
    rw [if_neg (by decide), if_pos (by decide)]
    unfold arithLoop
    rw [show 32/32 = 1 from rfl]
    simp only [loopU, memOf, Bool.false_eq_true, if_false, if_true, er, ea]
    rfl
  rw [this]

end Verif.BitFn
