import Verif.Utf8.Model
import Verif.Utf8.Spec
/-! # Lemmas about the UTF-8 model -/
namespace Verif.Utf8
open Spec

/-- Bytes as naturals. -/
abbrev nats (s : List Byte) : List Nat := s.map BitVec.toNat

theorem utf8lenb_eq (b : Byte) : utf8lenb b =
    if b.toNat < 0x80 then some 1 else if b.toNat < 0xC0 then none else if b.toNat < 0xE0 then some 2
    else if b.toNat < 0xF0 then some 3 else if b.toNat < 0xF8 then some 4 else none := by
  have hb := b.isLt
  simp only [utf8lenb, BitVec.ult, beq_iff_eq, BitVec.toNat_eq, BitVec.toNat_ushiftRight, BitVec.toNat_ofNat,
    Nat.shiftRight_eq_div_pow, decide_eq_true_eq, Nat.reducePow, Nat.reduceMod]
  repeat' split
  all_goals first | rfl | omega

theorem mb_toNat (k : Nat) (b : Byte) (hk : k ≤ 8) : (mb (BitVec.ofNat 32 (2^k-1)) b).toNat = b.toNat % 2^k := by
  have hb := b.isLt
  have h2 : 2^k ≤ 2^8 := Nat.pow_le_pow_right (by decide) hk
  rw [mb, BitVec.toNat_and, BitVec.toNat_ofNat, BitVec.toNat_setWidth, Nat.and_comm,
    Nat.mod_eq_of_lt (a := 2^k-1) (by omega), Nat.and_two_pow_sub_one_eq_mod, Nat.mod_eq_of_lt (a := b.toNat) (by omega)]

theorem or_shift {a b : Code} {k : Nat} (ha : a.toNat * 2^k < 2^32) (hb : b.toNat < 2^k) :
    (a <<< k ||| b).toNat = a.toNat * 2^k + b.toNat := by
  rw [BitVec.toNat_or, BitVec.toNat_shiftLeft, Nat.shiftLeft_eq, Nat.mod_eq_of_lt ha, ← Nat.shiftLeft_eq,
    Nat.shiftLeft_add_eq_or_of_lt hb, Nat.shiftLeft_eq]

theorem shl_toNat {a : Code} {k : Nat} (ha : a.toNat * 2^k < 2^32) : (a <<< k).toNat = a.toNat * 2^k := by
  rw [BitVec.toNat_shiftLeft, Nat.shiftLeft_eq, Nat.mod_eq_of_lt ha]

theorem mul_or {a b k : Nat} (hb : b < 2^k) : a * 2^k ||| b = a * 2^k + b := by
  rw [← Nat.shiftLeft_eq, Nat.shiftLeft_add_eq_or_of_lt hb]

theorem val2 (a b : Byte) :
    (mb 0b11111#32 a <<< 6 ||| mb 0b111111#32 b).toNat = (a.toNat % 32) * 64 + b.toNat % 64 := by
  have h1 := mb_toNat 5 a (by decide); have h2 := mb_toNat 6 b (by decide)
  simp only [Nat.reducePow, Nat.reduceSub] at h1 h2
  rw [or_shift (by omega) (by omega), h1, h2]

theorem comb3 (a b c : Code) (ha : a.toNat < 16) (hb : b.toNat < 64) (hc : c.toNat < 64) :
    (a <<< 12 ||| c ||| b <<< 6).toNat = (a.toNat * 64 + b.toNat) * 64 + c.toNat := by
  have e1 : (b <<< 6 ||| c).toNat = b.toNat * 64 + c.toNat := by rw [or_shift] <;> omega
  rw [BitVec.or_assoc, BitVec.or_comm (x := c), or_shift, e1] <;> omega

theorem comb4 (a b c d : Code) (ha : a.toNat < 8) (hb : b.toNat < 64) (hc : c.toNat < 64) (hd : d.toNat < 64) :
    (a <<< 18 ||| d ||| c <<< 6 ||| b <<< 12).toNat = ((a.toNat * 64 + b.toNat) * 64 + c.toNat) * 64 + d.toNat := by
  have e : a <<< 18 ||| d ||| c <<< 6 ||| b <<< 12 = a <<< 18 ||| (b <<< 12 ||| (c <<< 6 ||| d)) := by
    generalize a <<< 18 = a; generalize b <<< 12 = b; generalize c <<< 6 = c; ac_rfl
  have e1 : (c <<< 6 ||| d).toNat = c.toNat * 64 + d.toNat := by rw [or_shift] <;> omega
  have e2 : (b <<< 12 ||| (c <<< 6 ||| d)).toNat = b.toNat * 4096 + (c.toNat * 64 + d.toNat) := by
    rw [or_shift, e1] <;> omega
  rw [e, or_shift, e2] <;> omega

theorem val3 (a b c : Byte) :
    (mb 0b1111#32 a <<< 12 ||| mb 0b111111#32 c ||| mb 0b111111#32 b <<< 6).toNat
      = (a.toNat % 16 * 64 + b.toNat % 64) * 64 + c.toNat % 64 := by
  have h1 := mb_toNat 4 a (by decide); have h2 := mb_toNat 6 b (by decide); have h3 := mb_toNat 6 c (by decide)
  simp only [Nat.reducePow, Nat.reduceSub] at h1 h2 h3
  rw [comb3, h1, h2, h3] <;> omega

theorem val4 (a b c d : Byte) :
    (mb 0b111#32 a <<< 18 ||| mb 0b111111#32 d ||| mb 0b111111#32 c <<< 6 ||| mb 0b111111#32 b <<< 12).toNat
      = ((a.toNat % 8 * 64 + b.toNat % 64) * 64 + c.toNat % 64) * 64 + d.toNat % 64 := by
  have h1 := mb_toNat 3 a (by decide); have h2 := mb_toNat 6 b (by decide); have h3 := mb_toNat 6 c (by decide)
  have h4 := mb_toNat 6 d (by decide)
  simp only [Nat.reducePow, Nat.reduceSub] at h1 h2 h3 h4
  rw [comb4, h1, h2, h3, h4] <;> omega

theorem rd_append (pre s : List Byte) (k : Nat) : rd (pre ++ s) (pre.length + k) = rd s k := by
  have : (pre ++ s)[pre.length + k]? = s[k]? := by
    rw [List.getElem?_append_right (by omega)]; congr 1; omega
  simp only [rd, this]

theorem utf8_p_append (pre s : List Byte) : utf8_p (pre ++ s) pre.length = utf8_p s 0 := by
  have h0 := rd_append pre s 0
  have h1 := rd_append pre s 1
  have h2 := rd_append pre s 2
  have h3 := rd_append pre s 3
  simp only [Nat.add_zero] at h0
  simp only [utf8_p, h0, h1, h2, h3, Nat.zero_add]

/-- One well-framed sequence at the head: length and decoded value. -/
theorem char1_model {b : List Byte} {n : Nat} (h : Char1 (nats b) n) :
    ∃ a t, b = a :: t ∧ utf8lenb a = some b.length ∧ n < 2^21 ∧
      ∀ rest, utf8_p (b ++ rest) 0 = .ok (BitVec.ofNat 32 n) := by
  generalize hb : nats b = bs at h
  cases h with
  | one ha =>
    match b, hb with
    | [x], hb =>
      simp only [nats, List.map_cons, List.map_nil, List.cons.injEq, and_true] at hb
      subst hb
      have hl : utf8lenb x = some 1 := by rw [utf8lenb_eq, if_pos ha]
      refine ⟨x, [], rfl, hl, by omega, fun rest => ?_⟩
      simp only [utf8_p, rd, List.cons_append, List.getElem?_cons_zero, Out.bind, hl]
      congr 1
      apply BitVec.eq_of_toNat_eq
      simp only [BitVec.toNat_setWidth, BitVec.toNat_ofNat]
  | two h1 h2 =>
    match b, hb with
    | [x, y], hb =>
      simp only [nats, List.map_cons, List.map_nil, List.cons.injEq, and_true] at hb
      obtain ⟨rfl, rfl⟩ := hb
      have hl : utf8lenb x = some 2 := by rw [utf8lenb_eq]; repeat' split
                                          all_goals first | rfl | omega
      refine ⟨x, [y], rfl, hl, by omega, fun rest => ?_⟩
      simp only [utf8_p, rd, List.cons_append, List.getElem?_cons_zero, List.getElem?_cons_succ, Out.bind, hl, Nat.zero_add]
      congr 1
      apply BitVec.eq_of_toNat_eq
      rw [val2, BitVec.toNat_ofNat]
      omega
  | three h1 h2 =>
    match b, hb with
    | [x, y, z], hb =>
      simp only [nats, List.map_cons, List.map_nil, List.cons.injEq, and_true] at hb
      obtain ⟨rfl, rfl, rfl⟩ := hb
      have hl : utf8lenb x = some 3 := by rw [utf8lenb_eq]; repeat' split
                                          all_goals first | rfl | omega
      refine ⟨x, [y, z], rfl, hl, by omega, fun rest => ?_⟩
      simp only [utf8_p, rd, List.cons_append, List.getElem?_cons_zero, List.getElem?_cons_succ, Out.bind, hl, Nat.zero_add]
      congr 1
      apply BitVec.eq_of_toNat_eq
      rw [val3, BitVec.toNat_ofNat]
      omega
  | four h1 h2 =>
    match b, hb with
    | [x, y, z, w], hb =>
      simp only [nats, List.map_cons, List.map_nil, List.cons.injEq, and_true] at hb
      obtain ⟨rfl, rfl, rfl, rfl⟩ := hb
      have hl : utf8lenb x = some 4 := by rw [utf8lenb_eq]; repeat' split
                                          all_goals first | rfl | omega
      refine ⟨x, [y, z, w], rfl, hl, by omega, fun rest => ?_⟩
      simp only [utf8_p, rd, List.cons_append, List.getElem?_cons_zero, List.getElem?_cons_succ, Out.bind, hl, Nat.zero_add]
      congr 1
      apply BitVec.eq_of_toNat_eq
      rw [val4, BitVec.toNat_ofNat]
      omega

/-- A leading byte announcing `l` available bytes starts a well-framed sequence. -/
theorem char1_exists {a : Byte} {t : List Byte} {l : Nat} (hl : utf8lenb a = some l) (h : l ≤ (a :: t).length) :
    ∃ n, Char1 (nats ((a :: t).take l)) n := by
  rw [utf8lenb_eq] at hl
  split at hl
  · cases hl; exact ⟨_, .one (by assumption)⟩
  split at hl
  · cases hl
  split at hl
  · cases hl
    match t, h with
    | b :: t, _ => exact ⟨_, .two (by omega) (by omega)⟩
  split at hl
  · cases hl
    match t, h with
    | b :: c :: t, _ => exact ⟨_, .three (by omega) (by omega)⟩
  split at hl
  · cases hl
    match t, h with
    | b :: c :: d :: t, _ => exact ⟨_, .four (by omega) (by omega)⟩
  · cases hl

theorem drop_cons {s : List Byte} {j : Nat} (h : j < s.length) : ∃ b t, s.drop j = b :: t ∧ rd s j = .ok b :=
  ⟨s[j], s.drop (j+1), List.drop_eq_getElem_cons h, by simp [rd, h]⟩

/-- A text's first sequence, seen from the model's side. -/
theorem text_cons_inv {t : List Byte} {ns : List Nat} (h : Text (nats t) ns) (ht : t ≠ []) :
    ∃ b rest n ns', t = b ++ rest ∧ ns = n :: ns' ∧ Char1 (nats b) n ∧ Text (nats rest) ns' := by
  generalize hb : nats t = bs at h
  cases h with
  | nil => simp only [nats, List.map_eq_nil_iff] at hb; exact absurd hb ht
  | cons h1 h2 =>
    obtain ⟨l1, l2, rfl, e1, e2⟩ := List.map_eq_append_iff.1 hb
    exact ⟨l1, l2, _, _, rfl, rfl, by rw [nats, e1]; exact h1, by rw [nats, e2]; exact h2⟩

theorem countPass_of_text {s : List Byte} (ns : List Nat) : ∀ (pre t : List Byte) (sz : Nat), s = pre ++ t →
    Text (nats t) ns → countPass s pre.length sz = .ok (sz + ns.length) := by
  induction ns with
  | nil =>
    intro pre t sz hs ht
    have : t = [] := by
      cases t with
      | nil => rfl
      | cons a t => obtain ⟨_, _, _, _, _, h, _⟩ := text_cons_inv ht (by simp); cases h
    subst this
    rw [countPass]; simp [hs]
  | cons n ns ih =>
    intro pre t sz hs ht
    have hne : t ≠ [] := by
      rintro rfl
      generalize hb : nats [] = bs at ht
      cases ht with
      | cons h1 h2 => simp [nats] at hb; obtain ⟨rfl, _⟩ := hb; cases h1
    obtain ⟨b, rest, n', ns', rfl, hns, hc, ht'⟩ := text_cons_inv ht hne
    cases hns
    obtain ⟨a, tl, rfl, hl, _, _⟩ := char1_model hc
    rw [countPass, dif_neg (by simp [hs])]
    have hrd : rd s pre.length = .ok a := by simp [rd, hs]
    split
    · rename_i b' hb'
      rw [hrd] at hb'; cases hb'
      split
      · rename_i hn; rw [hl] at hn; cases hn
      · rename_i l' hl'
        rw [hl] at hl'; cases hl'
        have := ih (pre ++ (a :: tl)) rest (sz+1) (by simp [hs]) ht'
        rw [List.length_append] at this
        rw [this]; simp; omega
    all_goals (rename_i h; rw [hrd] at h; cases h)

theorem text_of_countPass {s : List Byte} {j sz m : Nat} (h : countPass s j sz = .ok m) :
    j ≤ s.length ∧ ∃ ns, Text (nats (s.drop j)) ns := by
  fun_induction countPass s j sz with
  | case1 => cases h
  | case2 j sz hj hj' => simp at hj'; subst hj'; simp; exact ⟨[], .nil⟩
  | case3 => cases h
  | case4 j sz hj b hr l hl ih =>
    obtain ⟨hle, ns, ht⟩ := ih h
    refine ⟨by omega, ?_⟩
    obtain ⟨b', t, hd, hr'⟩ := drop_cons (s := s) (j := j) (by omega)
    rw [hr] at hr'; cases hr'
    have hlen : (b :: t).length = s.length - j := by rw [← hd]; simp
    obtain ⟨n, hn⟩ := char1_exists (t := t) hl (by omega)
    refine ⟨n :: ns, ?_⟩
    have : s.drop j = (b::t).take l ++ s.drop (j+l) := by
      rw [← List.drop_drop, hd, List.take_append_drop]
    rw [this, nats, List.map_append]
    exact .cons hn ht
  | case5 => cases h
  | case6 => cases h
  | case7 => cases h

theorem countPass_safe (s : List Byte) (j sz : Nat) : countPass s j sz ≠ .oob ∧ countPass s j sz ≠ .ud := by
  fun_induction countPass s j sz with
  | case1 => simp
  | case2 => simp
  | case3 => simp
  | case4 j sz hj b hr l hl ih => exact ih
  | case5 j sz hj h => simp
  | case6 j sz hj h => exfalso; obtain ⟨_, _, _, h'⟩ := drop_cons (s := s) (j := j) (by omega); rw [h] at h'; cases h'
  | case7 j sz hj h => exfalso; obtain ⟨_, _, _, h'⟩ := drop_cons (s := s) (j := j) (by omega); rw [h] at h'; cases h'

theorem writePass_of_text {s : List Byte} (sz : Nat) (ns : List Nat) : ∀ (pre t : List Byte) (acc : List Code), s = pre ++ t →
    Text (nats t) ns → acc.length + ns.length ≤ sz →
    writePass s sz pre.length acc = .ok (acc ++ ns.map (BitVec.ofNat 32)) := by
  induction ns with
  | nil =>
    intro pre t acc hs ht _
    have : t = [] := by
      cases t with
      | nil => rfl
      | cons a t => obtain ⟨_, _, _, _, _, h, _⟩ := text_cons_inv ht (by simp); cases h
    subst this
    rw [writePass]; simp [hs]
  | cons n ns ih =>
    intro pre t acc hs ht hsz
    have hne : t ≠ [] := by
      rintro rfl
      generalize hb : nats [] = bs at ht
      cases ht with
      | cons h1 h2 => simp [nats] at hb; obtain ⟨rfl, _⟩ := hb; cases h1
    obtain ⟨b, rest, n', ns', rfl, hns, hc, ht'⟩ := text_cons_inv ht hne
    cases hns
    obtain ⟨a, tl, rfl, hl, _, hp⟩ := char1_model hc
    simp only [List.length_cons] at hsz
    rw [writePass, dif_pos (by simp [hs])]
    have hrd : rd s pre.length = .ok a := by simp [rd, hs]
    have hpp : utf8_p s pre.length = .ok (BitVec.ofNat 32 n) := by rw [hs, utf8_p_append, hp]
    rw [hpp]
    simp only []
    rw [if_pos (by omega)]
    split
    · rename_i b' hb'
      rw [hrd] at hb'; cases hb'
      split
      · rename_i hn; rw [hl] at hn; cases hn
      · rename_i l' hl'
        rw [hl] at hl'; cases hl'
        have := ih (pre ++ (a :: tl)) rest (acc ++ [BitVec.ofNat 32 n]) (by simp [hs]) ht' (by simp; omega)
        rw [List.length_append] at this
        rw [this]; simp
    all_goals (rename_i h; rw [hrd] at h; cases h)

theorem char1_len {b : List Nat} {n : Nat} (h : Char1 b n) : 1 ≤ b.length ∧ (b.length = 1 → b = [n]) := by
  cases h <;> simp

theorem text_len {b ns : List Nat} (h : Text b ns) : ns.length ≤ b.length ∧ (ns.length = b.length → ns = b) := by
  induction h with
  | nil => simp
  | cons h1 h2 ih =>
    have hl := char1_len h1
    simp only [List.length_cons, List.length_append]
    refine ⟨by omega, fun h => ?_⟩
    rw [hl.2 (by omega), ← ih.2 (by omega)]; rfl

theorem text_lt {b ns : List Nat} (h : Text b ns) : ∀ n ∈ ns, n < 2^21 := by
  induction h with
  | nil => simp
  | cons h1 h2 ih =>
    intro n hn
    rcases List.mem_cons.1 hn with rfl | hn
    · cases h1 <;> omega
    · exact ih n hn

theorem utf8Decode_of_text {s : List Byte} {ns : List Nat} (h : Text (nats s) ns) :
    utf8Decode s = .ok (ns.map (BitVec.ofNat 32)) := by
  have h1 := countPass_of_text ns [] s 0 rfl h
  simp only [List.length_nil, Nat.zero_add, List.nil_append] at h1
  simp only [utf8Decode, h1, Out.bind]
  split
  · rename_i he
    have := (text_len h).2 (by simpa using he)
    rw [this, nats, List.map_map]
    congr 1
    apply List.map_congr_left
    intro a _
    apply BitVec.eq_of_toNat_eq
    simp
  · have := writePass_of_text ns.length ns [] s [] rfl h (by simp)
    simpa using this

theorem t_or (h k : Nat) (x : Code) (hx : x.toNat < 2^k) (hh : h * 2^k + 2^k ≤ 256) :
    ((BitVec.ofNat 32 (h * 2^k) ||| x).setWidth 8).toNat = h * 2^k + x.toNat := by
  rw [BitVec.toNat_setWidth, BitVec.toNat_or, BitVec.toNat_ofNat, Nat.mod_eq_of_lt (a := h*2^k) (by omega), mul_or hx]
  omega

theorem and63 (x : Code) : (x &&& 0x3F#32).toNat = x.toNat % 64 := by
  rw [BitVec.toNat_and]; exact Nat.and_two_pow_sub_one_eq_mod _ 6

theorem cont (x : Code) : ((0x80#32 ||| (x &&& 0x3F#32)).setWidth 8).toNat = 128 + x.toNat % 64 := by
  have := t_or 2 6 (x &&& 0x3F#32) (by rw [and63]; omega) (by decide)
  rw [and63] at this; exact this

theorem nats_utf8_w (c : Code) (h : c.toNat < 2^21) : nats (utf8_w c) =
    if c.toNat < 0x80 then [c.toNat]
    else if c.toNat < 0x800 then [0xC0 + c.toNat / 64, 0x80 + c.toNat % 64]
    else if c.toNat < 0x10000 then [0xE0 + c.toNat / 4096, 0x80 + c.toNat / 64 % 64, 0x80 + c.toNat % 64]
    else [0xF0 + c.toNat / 262144, 0x80 + c.toNat / 4096 % 64, 0x80 + c.toNat / 64 % 64, 0x80 + c.toNat % 64] := by
  have s6 : (c >>> 6).toNat = c.toNat / 64 := by rw [BitVec.toNat_ushiftRight, Nat.shiftRight_eq_div_pow]
  have s12 : (c >>> 12).toNat = c.toNat / 4096 := by rw [BitVec.toNat_ushiftRight, Nat.shiftRight_eq_div_pow]
  have s18 : (c >>> 18).toNat = c.toNat / 262144 := by rw [BitVec.toNat_ushiftRight, Nat.shiftRight_eq_div_pow]
  simp only [utf8_w, BitVec.ult, BitVec.ule, decide_eq_true_eq, BitVec.toNat_ofNat, Nat.reducePow, Nat.reduceMod]
  by_cases h1 : c.toNat < 128
  · rw [if_pos (by omega), if_pos (by omega)]
    simp only [nats, List.map_cons, List.map_nil, BitVec.toNat_setWidth]; congr 1; omega
  by_cases h2 : c.toNat < 2048
  · rw [if_neg (by omega), if_pos (by omega), if_neg (by omega), if_pos (by omega)]
    have := t_or 6 5 (c >>> 6) (by omega) (by decide)
    simp only [nats, List.map_cons, List.map_nil, cont]
    simp only [Nat.reducePow, Nat.reduceMul] at this
    rw [this, s6]
  by_cases h3 : c.toNat < 65536
  · rw [if_neg (by omega), if_neg (by omega), if_pos (by omega), if_neg (by omega), if_neg (by omega), if_pos (by omega)]
    have := t_or 14 4 (c >>> 12) (by omega) (by decide)
    simp only [nats, List.map_cons, List.map_nil, cont]
    simp only [Nat.reducePow, Nat.reduceMul] at this
    rw [this, s6, s12]
  · rw [if_neg (by omega), if_neg (by omega), if_neg (by omega), if_neg (by omega), if_neg (by omega), if_neg (by omega)]
    have := t_or 30 3 (c >>> 18) (by omega) (by decide)
    simp only [nats, List.map_cons, List.map_nil, cont]
    simp only [Nat.reducePow, Nat.reduceMul] at this
    rw [this, s6, s12, s18]

theorem char1_utf8_w (c : Code) (h : c.toNat < 2^21) : Char1 (nats (utf8_w c)) c.toNat := by
  rw [nats_utf8_w c h]
  split
  · exact .one (by omega)
  split
  · have := Char1.two (a := 0xC0 + c.toNat / 64) (b := 0x80 + c.toNat % 64) (by omega) (by omega)
    rwa [show (0xC0 + c.toNat / 64 - 0xC0) * 64 + (0x80 + c.toNat % 64) % 64 = c.toNat by omega] at this
  split
  · have := Char1.three (a := 0xE0 + c.toNat / 4096) (b := 0x80 + c.toNat / 64 % 64) (c := 0x80 + c.toNat % 64) (by omega) (by omega)
    rwa [show (((0xE0 + c.toNat / 4096 - 0xE0) * 64 + (0x80 + c.toNat / 64 % 64) % 64) * 64 + (0x80 + c.toNat % 64) % 64 = c.toNat) by omega] at this
  · have := Char1.four (a := 0xF0 + c.toNat / 262144) (b := 0x80 + c.toNat / 4096 % 64) (c := 0x80 + c.toNat / 64 % 64) (d := 0x80 + c.toNat % 64) (by omega) (by omega)
    rwa [show ((((0xF0 + c.toNat / 262144 - 0xF0) * 64 + (0x80 + c.toNat / 4096 % 64) % 64) * 64 + (0x80 + c.toNat / 64 % 64) % 64) * 64 + (0x80 + c.toNat % 64) % 64 = c.toNat) by omega] at this

theorem length_utf8_w (c : Code) : (utf8_w c).length = lenOf c := by
  simp only [utf8_w, lenOf, BitVec.ult, BitVec.ule, decide_eq_true_eq, BitVec.toNat_ofNat, Nat.reducePow, Nat.reduceMod]
  repeat' split
  all_goals first | rfl | omega

theorem text_toUTF8 (cs : List Code) (h : ∀ c ∈ cs, c.toNat < 2^21) : Text (nats (toUTF8 cs)) (cs.map BitVec.toNat) := by
  induction cs with
  | nil => exact .nil
  | cons c cs ih =>
    simp only [toUTF8, List.flatMap_cons, nats, List.map_append, List.map_cons]
    exact .cons (char1_utf8_w c (h c (by simp))) (ih fun x hx => h x (by simp [hx]))

theorem foldl_add {α} (f : α → Nat) (l : List α) (a : Nat) : l.foldl (fun r c => r + f c) a = a + (l.map f).sum := by
  induction l generalizing a with
  | nil => simp
  | cons x l ih => simp [ih]; omega

end Verif.Utf8
