import Verif.Utf8.Lemmas
/-! # C02, C03: UTF-8 -/
namespace Verif.Utf8
open Spec

/-- C02. Decoding any byte string never reads outside the string, never writes outside the result buffer and never
reaches undefined behaviour. -/
theorem decode_in_bounds (s : List Byte) : utf8Decode s ≠ .oob ∧ utf8Decode s ≠ .ud := by
  have hs := countPass_safe s 0 0
  cases h : countPass s 0 0 with
  | ok sz =>
    obtain ⟨_, ns, ht⟩ := text_of_countPass h
    rw [utf8Decode_of_text (by simpa using ht)]
    simp
  | err => simp [utf8Decode, h, Out.bind]
  | oob => exact absurd h hs.1
  | ud => exact absurd h hs.2

/-- C02. Decoding succeeds exactly on well-framed text, and the result is exactly the framed payloads. -/
theorem decode_ok_iff (s : List Byte) (cs : List Code) :
    utf8Decode s = .ok cs ↔ Text (s.map BitVec.toNat) (cs.map BitVec.toNat) := by
  constructor
  · intro h
    cases hc : countPass s 0 0 with
    | ok sz =>
      obtain ⟨_, ns, ht⟩ := text_of_countPass hc
      rw [List.drop_zero] at ht
      rw [utf8Decode_of_text ht] at h
      cases h
      rw [List.map_map]
      have : ns.map (BitVec.toNat ∘ BitVec.ofNat 32) = ns := by
        conv => rhs; rw [← List.map_id ns]
        apply List.map_congr_left
        intro n hn
        have := text_lt ht n hn
        simp only [Function.comp, BitVec.toNat_ofNat, id]; omega
      rw [this]; exact ht
    | _ => simp [utf8Decode, hc, Out.bind] at h
  · intro h
    rw [utf8Decode_of_text h, List.map_map]
    congr 1
    conv => rhs; rw [← List.map_id cs]
    apply List.map_congr_left
    intro c _
    simp

/-- C02. Anything that is not well-framed text is reported as an error (never decoded to something). -/
theorem decode_err_iff (s : List Byte) :
    utf8Decode s = .err ↔ ¬ ∃ ns, Text (s.map BitVec.toNat) ns := by
  constructor
  · rintro h ⟨ns, ht⟩
    rw [utf8Decode_of_text ht] at h; cases h
  · intro h
    have h1 := decode_in_bounds s
    cases hd : utf8Decode s with
    | ok cs => exact absurd ⟨_, (decode_ok_iff s cs).1 hd⟩ h
    | err => rfl
    | oob => exact absurd hd h1.1
    | ud => exact absurd hd h1.2

/-- Non-vacuity: a string using all four lengths decodes to the expected characters, and a truncated one is an error. -/
example : utf8Decode [0x61#8, 0xC3#8, 0xA9#8, 0xE2#8, 0x8A#8, 0x90#8, 0xF0#8, 0x9F#8, 0x98#8, 0x80#8]
    = .ok [0x61#32, 0xE9#32, 0x2290#32, 0x1F600#32] := by
  rw [decode_ok_iff]
  exact Text.cons (b := [0x61]) (.one (by decide)) (Text.cons (b := [0xC3, 0xA9]) (.two (by decide) (by decide))
    (Text.cons (b := [0xE2, 0x8A, 0x90]) (.three (by decide) (by decide))
    (Text.cons (b := [0xF0, 0x9F, 0x98, 0x80]) (.four (by decide) (by decide)) .nil)))
example : utf8Decode [0x61#8, 0xC3#8] = .err := by
  simp [utf8Decode, countPass, rd, utf8lenb, Out.bind]

/-- C03. Encoding then decoding is the identity, for all code points below 2^21 (in particular up to U+10FFFF,
surrogates included). -/
theorem decode_encode (cs : List Code) (h : ∀ c ∈ cs, c.toNat < 2^21) : utf8Decode (toUTF8 cs) = .ok cs :=
  (decode_ok_iff _ _).2 (text_toUTF8 cs h)

/-- C03. The size computed in advance is exactly the number of bytes written, for every array of 32-bit codes. -/
theorem encode_length (cs : List Code) : (toUTF8 cs).length = utf8lenB cs := by
  rw [utf8lenB, foldl_add, Nat.zero_add, toUTF8, List.length_flatMap]
  congr 1
  exact List.map_congr_left fun c _ => length_utf8_w c

/-- C03. For every Unicode scalar value the bytes written are the standard UTF-8 encoding (Lean's own definition), so
any conforming reader recovers the text. -/
theorem encode_standard (cs : List Char) :
    toUTF8 (cs.map fun c => c.val.toBitVec) = (cs.flatMap String.utf8EncodeChar).map UInt8.toBitVec := by
  induction cs with
  | nil => rfl
  | cons c cs ih =>
    simp only [toUTF8, List.map_cons, List.flatMap_cons, List.map_append] at ih ⊢
    rw [ih]
    congr 1
    have hv : c.val.toBitVec.toNat < 0x110000 := by
      have hc : c.val.toNat = c.val.toBitVec.toNat := rfl
      rcases c.valid with h | h <;> omega
    have hinj : ∀ a b : List Byte, nats a = nats b → a = b := fun a b h =>
      List.map_inj_right (fun _ _ => BitVec.eq_of_toNat_eq) |>.1 h
    apply hinj
    rw [nats_utf8_w _ (by omega)]
    have hc : c.val.toNat = c.val.toBitVec.toNat := rfl
    simp only [String.utf8EncodeChar, hc]
    generalize c.val.toBitVec.toNat = v at *
    by_cases h1 : v ≤ 0x7f
    · rw [if_pos (by omega), if_pos h1]; simp [nats]; omega
    by_cases h2 : v ≤ 0x7ff
    · rw [if_neg (by omega), if_pos (by omega), if_neg (by omega), if_pos (by omega)]; simp [nats]; omega
    by_cases h3 : v ≤ 0xffff
    · rw [if_neg (by omega), if_neg (by omega), if_pos (by omega), if_neg (by omega), if_neg (by omega), if_pos (by omega)]
      simp [nats]; omega
    · rw [if_neg (by omega), if_neg (by omega), if_neg (by omega), if_neg (by omega), if_neg (by omega), if_neg (by omega)]
      simp [nats]; omega

/-- C03. Standard UTF-8 text decodes to its characters. -/
theorem decode_standard (cs : List Char) :
    utf8Decode ((cs.flatMap String.utf8EncodeChar).map UInt8.toBitVec) = .ok (cs.map fun c => c.val.toBitVec) := by
  rw [← encode_standard]
  apply decode_encode
  intro c hc
  obtain ⟨d, _, rfl⟩ := List.mem_map.1 hc
  have hd : d.val.toNat = d.val.toBitVec.toNat := rfl
  rcases d.valid with h | h <;> omega

/-- C03. ASCII text is stored unchanged. -/
theorem encode_ascii (cs : List Code) (h : ∀ c ∈ cs, c.toNat < 128) :
    toUTF8 cs = cs.map (BitVec.setWidth 8) := by
  induction cs with
  | nil => rfl
  | cons c cs ih =>
    simp only [toUTF8, List.flatMap_cons, List.map_cons] at ih ⊢
    rw [ih fun x hx => h x (by simp [hx])]
    have : c.ult 128#32 = true := by simpa [BitVec.ult] using h c (by simp)
    simp [utf8_w, this]

/-- Non-vacuity of the range hypothesis, and its need: the code 2^21 does not survive. -/
example : utf8Decode (toUTF8 [0x10FFFF#32, 0xD800#32, 0x41#32]) = .ok [0x10FFFF#32, 0xD800#32, 0x41#32] :=
  decode_encode _ (by simp)
example : utf8lenB [0x10FFFF#32, 0x7FF#32, 0x800#32, 0x41#32] = 10 := by decide
example : utf8Decode (toUTF8 [0x200000#32]) = .err := by
  simp [utf8Decode, countPass, rd, utf8lenb, Out.bind, toUTF8, utf8_w]

end Verif.Utf8
