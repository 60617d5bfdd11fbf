import Verif.BitFn.Main
/-!
# `•bit`: the functions on pieces
-/
namespace Verif.BitFn
open Verif.Squeeze
open Verif.Bits (Word bitF)
open Verif.Rotate (prod)

theorem ArithW.wide {w : Nat} (h : ArithW w) : Wide w := Or.inr h

theorem lt_piece {ow N i k : Nat} (hi : i < N / ow) (hk : k < ow) : ow * i + k < N := by
  have h1 : ow * (i+1) ≤ ow * (N/ow) := Nat.mul_le_mul_left _ hi
  have h2 : ow * (N/ow) ≤ N := Nat.mul_div_le N ow
  rw [Nat.mul_succ] at h1
  omega

theorem piece_congr {ow : Nat} {b c : Nat → Bool} {N i : Nat} (hi : i < N / ow) (h : ∀ p, p < N → b p = c p) : piece ow b i = piece ow c i :=
  num_congr fun _ hk => h _ (lt_piece hi hk)

theorem op1_ok (bad : BitVec 64 → BitVec 32) (op : Op1) {f : List Nat} {x : Arr} {xt rt : El} {pre : List Nat} {n n' : Nat} {b : Nat → Bool}
    (fresh shared : Bool) (tail junk : Mem) (h1 : 1 ≤ f.length) (h2 : f.length ≤ 3) (hp : Pows f)
    (ha : named (isChr x.data.ty) (.wid (nth f 2)) = some xt) (hc : named false (.wid (nth f 1)) = some rt) (hsh : x.sh = pre ++ [n])
    (hlen : x.data.elems.length = prod x.sh) (hb : Reads xt x.data.elems b) (how : nth f 0 ∣ width xt * n) (hn : width xt * n = width rt * n')
    (hsmall : width xt * prod x.sh < 2^32) (hrl : n' < 2^32-1) (hneg : op = .neg → ArithW (nth f 0)) :
    ∃ r, op1 bad op f x fresh shared tail junk = .ok r ∧ r.sh = pre ++ [n'] ∧ r.data.ty = rt ∧
      r.data.elems.length = prod r.sh ∧ width rt * r.ia ≤ r.cap ∧
      ∃ b', Reads rt r.data.elems b' ∧
        ∀ i, i < width xt * prod x.sh / nth f 0 → piece (nth f 0) b' i = op.on (nth f 0) (piece (nth f 0) b i) := by
  rw [named_wid] at ha hc
  obtain ⟨wx, xB⟩ := elOf_width ha
  obtain ⟨wr, rB⟩ := elOf_width hc
  dsimp only at wx wr
  have p0 := hp _ (nth_mem h1 0)
  have p1 := hp _ (nth_mem h1 1)
  have p2 := hp _ (nth_mem h1 2)
  obtain ⟨d, ec, td, ld, rd⟩ := conv_reads bad hb xB
  have rpos : 0 < width rt := width_wide.pos
  have hN : width xt * prod x.sh = width rt * (prod pre * n') := by
    rw [hsh, prod_snoc, Nat.mul_left_comm, hn, Nat.mul_left_comm]
  have hsm' : prod pre * n' < 2^32 := by
    have : prod pre * n' ≤ width rt * (prod pre * n') := Nat.le_mul_of_pos_left _ rpos
    omega
  have hlast : x.sh.getD (x.sh.length - 1) 0 = n := by rw [hsh, getD_snoc]
  have e1 : n * 2^ctz (nth f 2) = width xt * n := by rw [ctz_pow p2, wx, Nat.mul_comm]
  have e2 : 2^ctz (nth f 1) = width rt := by rw [ctz_pow p1, wr]
  have e3 : shl32 (prod x.sh) (ctz (nth f 2)) = width xt * prod x.sh := by
    rw [shl32_eq p2 (by rw [← wx]; exact hsmall), wx]
  have e4 : width xt * n / width rt = n' := by rw [hn, Nat.mul_comm, Nat.mul_div_cancel _ rpos]
  have e5 : width xt * n &&& (nth f 0 - 1) = 0 := by rw [and_pow p0]; exact Nat.mod_eq_zero_of_dvd how
  unfold op1
  rw [widths3 h1 h2 hp.req]
  dsimp only
  rw [if_neg (by rw [hsh]; simp), hlast, e1, e2, e3, e4,
    if_neg (by rw [e5, hn, Nat.mul_comm]; simp), if_neg (by omega), ha]
  dsimp only
  rw [ec]
  dsimp only
  rw [hc]
  dsimp only
  have mb : ∀ p, p < width xt * prod x.sh → bitF (memOf tail d) p = b p :=
    fun p hp => mem_bits tail td xB rd (by rw [ld, hlen]; exact hp)
  have capOk : width rt * prod (pre ++ [n']) ≤ (if fresh then 8 * ((width xt * prod x.sh + 7) / 8) else width xt * prod x.sh) := by
    rw [prod_snoc, ← hN]
    split <;> omega
  cases op with
  | not =>
    dsimp only
    refine ⟨_, rfl, ?_⟩
    rw [hsh, setResult_spec, ← hsh]
    obtain ⟨i1, i2, i3, i4⟩ := result_reads (b := bitF (notLoop (fun m => if fresh = true then memOf tail d else m) (width xt * prod x.sh) (if fresh = true then junk else memOf tail d)))
      (cap := if fresh = true then 8 * ((width xt * prod x.sh + 7) / 8) else width xt * prod x.sh) rB hN hsm' fun p _ => rfl
    refine ⟨rfl, i2, i3, by rw [i1]; exact capOk, _, i4, fun i hi => ?_⟩
    apply piece_not
    intro k hk
    have lt := lt_piece hi hk
    rw [notLoop_bit (by omega) _ _ _ lt, mb _ lt]
  | neg =>
    have aw := hneg rfl
    dsimp only
    rw [if_pos (show nth f 0 = 8 ∨ nth f 0 = 16 ∨ nth f 0 = 32 ∨ nth f 0 = 64 from aw)]
    refine ⟨_, rfl, ?_⟩
    rw [hsh, setResult_spec, ← hsh]
    obtain ⟨i1, i2, i3, i4⟩ := result_reads (b := bitF (negLoop (nth f 0) (fun m => if fresh = true then memOf tail d else m) (width xt * prod x.sh) (if fresh = true then junk else memOf tail d)))
      (cap := if fresh = true then 8 * ((width xt * prod x.sh + 7) / 8) else width xt * prod x.sh) rB hN hsm' fun p _ => rfl
    refine ⟨rfl, i2, i3, by rw [i1]; exact capOk, _, i4, fun i hi => ?_⟩
    rw [piece_rd aw.wide, negLoop_rd aw.wide _ _ _ _ hi, ← piece_congr hi mb, piece_rd aw.wide, BitVec.toNat_neg]
    rfl

/-! ## Two arguments -/

theorem arith_add {w : Nat} (a b : BitVec w) : (a + b).toNat = Op2.on w .add a.toNat b.toNat := BitVec.toNat_add _ _

theorem arith_sub {w : Nat} (a b : BitVec w) : (a - b).toNat = Op2.on w .sub a.toNat b.toNat := by
  rw [BitVec.toNat_sub, Nat.add_comm]
  rfl

theorem arith_mul {w : Nat} (hw : 1 ≤ w) {a b : BitVec w} (h : Fits w a.toNat b.toNat) :
    arith .mul w a b = some (BitVec.ofInt w (a.toInt * b.toInt)) ∧
      (BitVec.ofInt w (a.toInt * b.toInt)).toNat = Op2.on w .mul a.toNat b.toNat := by
  refine ⟨?_, ?_⟩
  · unfold arith
    dsimp only
    rw [if_neg]
    rintro ⟨h32, h'⟩
    have := h h32
    rw [← toInt_signed hw, ← toInt_signed hw] at this
    omega
  · have : BitVec.ofInt w (a.toInt * b.toInt) = a * b := by
      apply BitVec.eq_of_toInt_eq
      rw [BitVec.toInt_ofInt, BitVec.toInt_mul]
    rw [this, BitVec.toNat_mul]
    rfl

theorem arith_some {op : Op2} (hop : op.bitwise = false) {w : Nat} (hw : 1 ≤ w) {a b : BitVec w} (h : Defined op w a.toNat b.toNat) :
    ∃ v, arith op w a b = some v ∧ v.toNat = op.on w a.toNat b.toNat := by
  cases op with
  | and => cases hop
  | or => cases hop
  | xor => cases hop
  | add => exact ⟨_, rfl, arith_add a b⟩
  | sub => exact ⟨_, rfl, arith_sub a b⟩
  | mul => exact ⟨_, (arith_mul hw (h rfl)).1, (arith_mul hw (h rfl)).2⟩

theorem arithLoop_ok {op : Op2} (hop : op.bitwise = false) {w : Nat} (hw : ArithW w) (wv : Nat → BitVec w) (xp : Mem) (n : Nat) (junk : Mem)
    (h : ∀ i, i < n/w → Defined op w (wv i).toNat (rd w xp i).toNat) :
    ∃ m, arithLoop op w wv xp n junk = some m ∧ ∀ i, i < n/w → (rd w m i).toNat = op.on w (wv i).toNat (rd w xp i).toNat := by
  have c : ∀ i, ∃ v : BitVec w, i < n/w → arith op w (wv i) (rd w xp i) = some v ∧ v.toNat = op.on w (wv i).toNat (rd w xp i).toNat := by
    intro i
    by_cases hi : i < n/w
    · obtain ⟨v, hv⟩ := arith_some hop hw.wide.pos (h i hi)
      exact ⟨v, fun _ => hv⟩
    · exact ⟨0, fun h => absurd h hi⟩
  refine ⟨loop (fun i m => wr w m i (c i).choose) (n/w) junk, loopU_some fun i hi => ((c i).choose_spec hi).1, fun i hi => ?_⟩
  rw [loop_rd hw.wide (g := fun i _ => (c i).choose) (fun _ _ _ => rfl) hi]
  exact ((c i).choose_spec hi).2

/-- What `compute` does to the pieces; `j` is the piece of the other argument. -/
theorem compute_ok {op : Op2} {ow : Nat} (how : ∃ a, a < 32 ∧ ow = 2^a) (noext negw : Bool) (wp xp : Mem) {n : Nat} (junk : Mem) (hn : n < 2^32)
    (hext : noext = false → op.bitwise = true → ow ≤ 64) (har : op.bitwise = false → ArithW ow)
    (hneg : negw = true → noext = false ∧ op = .add)
    (hd : negw = false → ∀ i, i < n/ow → Defined op ow (piece ow (bitF wp) (if noext then i else 0)) (piece ow (bitF xp) i)) :
    ∃ m, compute op ow noext negw wp xp n junk = .ok m ∧ ∀ i, i < n/ow →
      piece ow (bitF m) i = if negw then Op2.on ow .sub (piece ow (bitF xp) i) (piece ow (bitF wp) 0)
        else op.on ow (piece ow (bitF wp) (if noext then i else 0)) (piece ow (bitF xp) i) := by
  have opos : 0 < ow := by obtain ⟨a, _, rfl⟩ := how; exact Nat.two_pow_pos a
  unfold compute
  cases hop : op.bitwise with
  | true =>
    rw [if_pos rfl]
    have nw : negw = false := by
      cases negw with
      | false => rfl
      | true => rw [(hneg rfl).2] at hop; cases hop
    subst nw
    cases noext with
    | true =>
      rw [if_pos rfl]
      refine ⟨_, rfl, fun i hi => ?_⟩
      simp only [Bool.false_eq_true, if_false, if_true]
      exact piece_bitwise hop fun k hk => binLoop_bit hop (by omega) _ _ _ (lt_piece hi hk)
    | false =>
      have h64 := hext rfl hop
      rw [if_neg (by simp), if_neg (by omega)]
      refine ⟨_, rfl, fun i hi => ?_⟩
      simp only [Bool.false_eq_true, if_false]
      apply piece_bitwise hop
      intro k hk
      rw [binLoop_bit hop (by omega) _ _ _ (lt_piece hi hk)]
      congr 1
      have h3 : 64 % ow = 0 := by
        obtain ⟨a, ha, rfl⟩ := how
        have : a ≤ 6 := by
          rcases Nat.lt_or_ge 6 a with g | g
          · have := Nat.pow_le_pow_right (n := 2) (by decide) g
            omega
          · exact g
        have : ∀ a, a ≤ 6 → 64 % 2^a = 0 := by decide
        exact this a (by assumption)
      unfold bitF
      rw [spread_low opos h3 _ (Nat.mod_lt _ (by decide)), Nat.mul_zero, Nat.zero_add]
      have hk64 : k < 64 := by omega
      rw [Nat.div_eq_of_lt hk64, Nat.mod_eq_of_lt hk64, Nat.mod_mod_of_dvd _ (Nat.dvd_of_mod_eq_zero h3), Nat.mul_add_mod, Nat.mod_eq_of_lt hk]
  | false =>
    have aw := har hop
    rw [if_neg (by simp), if_pos (show ow = 8 ∨ ow = 16 ∨ ow = 32 ∨ ow = 64 from aw)]
    dsimp only
    cases negw with
    | true =>
      obtain ⟨ne, oe⟩ := hneg rfl
      subst ne; subst oe
      obtain ⟨m, em, hm⟩ := arithLoop_ok (op := .add) rfl aw (fun i => rd ow (fun _ => -(wp 0)) (if false = true then i else 0)) xp n junk
        (fun i hi h => by cases h)
      refine ⟨m, ?_, fun i hi => ?_⟩
      · rw [if_pos rfl, em]
      · rw [if_pos rfl, piece_rd aw.wide, hm i hi, piece_rd aw.wide, piece_rd aw.wide, ← arith_add, ← arith_sub]
        simp only [Bool.false_eq_true, if_false]
        have e : rd ow (fun _ => -(wp 0)) 0 = -(rd ow wp 0) := by
          unfold rd
          rw [Nat.mul_zero, Nat.zero_div, Nat.zero_mod, BitVec.ushiftRight_zero, BitVec.ushiftRight_zero]
          apply BitVec.eq_of_toNat_eq
          have l : ow ≤ 64 := aw.wide.le
          rw [BitVec.toNat_setWidth, BitVec.toNat_neg, BitVec.toNat_neg, BitVec.toNat_setWidth]
          have := (wp 0).isLt
          generalize (wp 0).toNat = v at *
          rcases aw with rfl | rfl | rfl | rfl <;> omega
        rw [e, BitVec.sub_eq_add_neg, BitVec.add_comm]
    | false =>
      have hd' := hd rfl
      obtain ⟨m, em, hm⟩ := arithLoop_ok hop aw (fun i => rd ow wp (if noext = true then i else 0)) xp n junk
        (fun i hi => by have := hd' i hi; rwa [piece_rd aw.wide, piece_rd aw.wide] at this)
      refine ⟨m, ?_, fun i hi => ?_⟩
      · rw [if_neg (by simp), em]
      · rw [if_neg (by simp), piece_rd aw.wide, hm i hi, piece_rd aw.wide, piece_rd aw.wide]

theorem op2go_ok (bad : BitVec 64 → BitVec 32) {op : Op2} {ow rw : Nat} (noext negw : Bool) {w x : Arr} {ww xw : Nat} (wtail xtail junk : Mem)
    {wt xt rt : El} {pre : List Nat} {n n' W : Nat} {a b : Nat → Bool}
    (p0 : ∃ a, a < 32 ∧ ow = 2^a) (p1 : ∃ a, a < 32 ∧ rw = 2^a) (p2 : ∃ a, a < 32 ∧ xw = 2^a)
    (hw : elOf ⟨ww, isChr w.data.ty⟩ = some wt) (hx : elOf ⟨xw, isChr x.data.ty⟩ = some xt) (hr : elOf ⟨rw, false⟩ = some rt)
    (hsh : x.sh = pre ++ [n]) (hxlen : x.data.elems.length = prod x.sh) (hwlen : width wt * w.data.elems.length = W)
    (ha : Reads wt w.data.elems a) (hb : Reads xt x.data.elems b)
    (how : ow ∣ width xt * n) (hn : width xt * n = width rt * n') (hsmall : width xt * prod x.sh < 2^32) (hrl : n' < 2^32-1)
    (hW : if noext then W = width xt * prod x.sh else W = ow)
    (hext : noext = false → op.bitwise = true → ow ≤ 64) (har : op.bitwise = false → ArithW ow)
    (hneg : negw = true → noext = false ∧ op = .add)
    (hd : negw = false → ∀ i, i < width xt * prod x.sh / ow → Defined op ow (piece ow a (if noext then i else 0)) (piece ow b i)) :
    ∃ r, op2go bad op ow rw noext negw w ww x xw (width xt * n) wtail xtail junk = .ok r ∧ r.sh = pre ++ [n'] ∧ r.data.ty = rt ∧
      r.data.elems.length = prod r.sh ∧ width rt * r.ia ≤ r.cap ∧
      ∃ b', Reads rt r.data.elems b' ∧ ∀ i, i < width xt * prod x.sh / ow →
        piece ow b' i = if negw then Op2.on ow .sub (piece ow b i) (piece ow a 0) else op.on ow (piece ow a (if noext then i else 0)) (piece ow b i) := by
  obtain ⟨wx, xB⟩ := elOf_width hx
  obtain ⟨wr, rB⟩ := elOf_width hr
  obtain ⟨_, wB⟩ := elOf_width hw
  dsimp only at wx wr
  have opos : 0 < ow := by obtain ⟨a, _, rfl⟩ := p0; exact Nat.two_pow_pos a
  obtain ⟨xd, ecx, tdx, ldx, rdx⟩ := conv_reads bad hb xB
  obtain ⟨wd, ecw, tdw, ldw, rdw⟩ := conv_reads bad ha wB
  have rpos : 0 < width rt := width_wide.pos
  have hN : width xt * prod x.sh = width rt * (prod pre * n') := by
    rw [hsh, prod_snoc, Nat.mul_left_comm, hn, Nat.mul_left_comm]
  have hsm' : prod pre * n' < 2^32 := by
    have : prod pre * n' ≤ width rt * (prod pre * n') := Nat.le_mul_of_pos_left _ rpos
    omega
  have e2 : 2^ctz rw = width rt := by rw [ctz_pow p1, wr]
  have e3 : shl32 (prod x.sh) (ctz xw) = width xt * prod x.sh := by
    rw [shl32_eq p2 (by rw [← wx]; exact hsmall), wx]
  have e4 : width xt * n / width rt = n' := by rw [hn, Nat.mul_comm, Nat.mul_div_cancel _ rpos]
  have e5 : width xt * n &&& (ow - 1) = 0 := by rw [and_pow p0]; exact Nat.mod_eq_zero_of_dvd how
  have xb : ∀ p, p < width xt * prod x.sh → bitF (memOf xtail xd) p = b p :=
    fun p hp => mem_bits xtail tdx xB rdx (by rw [ldx, hxlen]; exact hp)
  have wb : ∀ p, p < W → bitF (memOf wtail wd) p = a p :=
    fun p hp => mem_bits wtail tdw wB rdw (by rw [ldw, hwlen]; exact hp)
  have pa : ∀ i, i < width xt * prod x.sh / ow → piece ow (bitF (memOf wtail wd)) (if noext then i else 0) = piece ow a (if noext then i else 0) := by
    intro i hi
    cases noext with
    | true =>
      rw [if_pos rfl] at hW
      exact piece_congr hi (by rw [← hW]; exact wb)
    | false =>
      rw [if_neg (by simp)] at hW
      simp only [Bool.false_eq_true, if_false]
      exact piece_congr (N := W) (by rw [hW, Nat.div_self opos]; decide) wb
  obtain ⟨m, em, hm⟩ := compute_ok p0 noext negw (memOf wtail wd) (memOf xtail xd) junk hsmall hext har hneg
    (fun nn i hi => by rw [pa i hi, piece_congr hi xb]; exact hd nn i hi)
  unfold op2go
  dsimp only
  rw [e2, e3, e4, if_neg (by rw [e5, hn, Nat.mul_comm]; simp), if_neg (by omega), hw, hx, hr]
  dsimp only
  rw [ecw, ecx]
  dsimp only
  rw [em]
  dsimp only
  refine ⟨_, rfl, ?_⟩
  rw [hsh, setResult_spec, ← hsh]
  obtain ⟨i1, i2, i3, i4⟩ := result_reads (m := m) (b := bitF m) (cap := 8 * ((width xt * prod x.sh + 7) / 8)) rB hN hsm' fun p _ => rfl
  refine ⟨rfl, i2, i3, ?_, _, i4, fun i hi => ?_⟩
  · rw [i1]
    dsimp only
    rw [prod_snoc, ← hN]
    omega
  · rw [hm i hi]
    cases negw with
    | true =>
      have := pa i hi
      rw [(hneg rfl).1] at this
      simp only [Bool.false_eq_true, if_false] at this
      rw [if_pos rfl, if_pos rfl, this, piece_congr hi xb]
    | false =>
      have e1 : ∀ (c d : Nat), (if false = true then c else d) = d := fun _ _ => rfl
      rw [e1, e1, pa i hi, piece_congr hi xb]

end Verif.BitFn
