import Verif.Append.Spec
import Verif.Squeeze.Main
/-!
# Joining and appending: element types and buffers
-/
namespace Verif.Append
open Verif.Squeeze
open Verif.Bins (ofInt)

/-! ## Element types -/

theorem holds_mono {a b : El} {v : Val} (h : Holds a v) (hab : elOr b a = b) : Holds b v := by
  have wid : ∀ {l l' u u' : Int}, l' ≤ l → u ≤ u' → IntIn l u v → IntIn l' u' v :=
    fun h1 h2 ⟨i, x, y, z⟩ => ⟨i, by omega, by omega, z⟩
  have num : ∀ {l u : Int}, IntIn l u v → ∃ f, v = .num f := fun h => intIn_num h
  have c8 : ∀ {m n : Nat}, m ≤ n → (∃ c, v = .chr c ∧ c.toNat < m) → ∃ c, v = .chr c ∧ c.toNat < n :=
    fun hmn ⟨c, x, y⟩ => ⟨c, x, by omega⟩
  have c : ∀ {n : Nat}, (∃ c, v = .chr c ∧ c.toNat < n) → ∃ c, v = .chr c := fun ⟨c, x, _⟩ => ⟨c, x⟩
  cases a <;> cases b <;> first
    | exact h
    | exact trivial
    | exact absurd hab (by decide)
    | exact wid (by decide) (by decide) h
    | exact num h
    | exact c8 (by decide) h
    | exact c h

theorem elOr_left (a b : El) : elOr (elOr a b) a = elOr a b := by cases a <;> cases b <;> decide
theorem elOr_right (a b : El) : elOr (elOr a b) b = elOr a b := by cases a <;> cases b <;> decide
theorem fitsIn_iff (a b : El) : fitsIn a b = true ↔ elOr a b = a := by cases a <;> cases b <;> decide

/-- For each type an element that no lower type holds. -/
def wit : El → Val
  | .bit => .num (ofInt 1)
  | .i8 => .num (ofInt 127)
  | .i16 => .num (ofInt 32767)
  | .i32 => .num (ofInt 2147483647)
  | .f64 => .num (ofInt 2147483648)
  | .c8 => .chr 97
  | .c16 => .chr 256
  | .c32 => .chr 65536
  | .B => .other 0

theorem wit_holds (t : El) : Holds t (wit t) := by
  cases t with
  | bit => exact ⟨1, by decide, by decide, Same.refl _⟩
  | i8 => exact ⟨127, by decide, by decide, Same.refl _⟩
  | i16 => exact ⟨32767, by decide, by decide, Same.refl _⟩
  | i32 => exact ⟨2147483647, by decide, by decide, Same.refl _⟩
  | f64 => exact ⟨_, rfl⟩
  | c8 => exact ⟨_, rfl, by decide⟩
  | c16 => exact ⟨_, rfl, by decide⟩
  | c32 => exact ⟨_, rfl⟩
  | B => exact trivial

/-- A type that holds the witness of `a` contains `a`. -/
theorem wit_only {a c : El} (h : Holds c (wit a)) : elOr c a = c := by
  have int : ∀ {i l u : Int}, -2147483648 ≤ l → u ≤ 2147483647 → i.natAbs < 2^53 → IntIn l u (.num (ofInt i)) → l ≤ i ∧ i ≤ u :=
    fun h1 h2 h3 h => (intIn_ofInt h1 h2 h3).1 h
  have nc : ∀ {l u : Int} {x : BitVec 32}, ¬ IntIn l u (.chr x) := fun ⟨_, _, _, z⟩ => z
  have no : ∀ {l u : Int} {x : Nat}, ¬ IntIn l u (.other x) := fun ⟨_, _, _, z⟩ => z
  cases a <;> cases c <;> first
    | decide
    | (exact absurd (int (by decide) (by decide) (by decide) h) (by decide))
    | exact absurd h nc
    | exact absurd h no
    | (obtain ⟨_, e, l⟩ := h; cases e; exact absurd l (by decide))
    | (obtain ⟨_, e, _⟩ := h; cases e; done)
    | (obtain ⟨_, e⟩ := h; cases e; done)

theorem elOr_least {a b c : El} (ha : elOr c a = c) (hb : elOr c b = c) : (elOr a b).rank ≤ c.rank := by
  revert ha hb
  cases a <;> cases b <;> cases c <;> decide

/-! ## Single values -/

theorem chr_shift8 {c : BitVec 32} : (c >>> 8 == 0) = true ↔ c.toNat < 256 := by
  rw [beq_iff_eq]
  constructor
  · intro h
    have := congrArg BitVec.toNat h
    rw [BitVec.toNat_ushiftRight, Nat.shiftRight_eq_div_pow] at this
    have e : (0 : BitVec 32).toNat = 0 := rfl
    omega
  · intro h
    apply BitVec.eq_of_toNat_eq
    rw [BitVec.toNat_ushiftRight, Nat.shiftRight_eq_div_pow]
    exact Nat.div_eq_of_lt h

theorem chr_shift16 {c : BitVec 32} : (c >>> 16 == 0) = true ↔ c.toNat < 65536 := by
  rw [beq_iff_eq]
  constructor
  · intro h
    have := congrArg BitVec.toNat h
    rw [BitVec.toNat_ushiftRight, Nat.shiftRight_eq_div_pow] at this
    have e : (0 : BitVec 32).toNat = 0 := rfl
    omega
  · intro h
    apply BitVec.eq_of_toNat_eq
    rw [BitVec.toNat_ushiftRight, Nat.shiftRight_eq_div_pow]
    exact Nat.div_eq_of_lt h

theorem eqF_zero_one {f : BitVec 64} : (feq f 0 || feq f (ofInt 1)) = true ↔ Holds .bit (.num f) := by
  rw [Bool.or_eq_true, feq_iff, feq_iff]
  constructor
  · rintro (h | h)
    · exact ⟨0, by decide, by decide, .inr h⟩
    · exact ⟨1, by decide, by decide, .inr h⟩
  · rintro ⟨i, a, b, s⟩
    have : i = 0 ∨ i = 1 := by omega
    rcases this with rfl | rfl
    · rcases s with rfl | s
      · exact .inl (eqF_self (by decide))
      · exact .inl s
    · rcases s with rfl | s
      · exact .inr (eqF_self (by decide))
      · exact .inr s

/-- `q_i8`, `q_i16`: exactly the values that the type can hold. -/
theorem qIw {w : Nat} (hw : 1 ≤ w) (hw' : w ≤ 32) (bad : BitVec 64 → BitVec 32) {f : BitVec 64} :
    feq f (ofInt ((toI32 bad f).setWidth w).toInt) = true ↔ IntIn (-2^(w-1)) (2^(w-1) - 1) (.num f) := by
  have hp : (2:Int)^(w-1) ≤ 2^31 := by
    have := Nat.pow_le_pow_right (n := 2) (by decide) (show w - 1 ≤ 31 by omega)
    exact_mod_cast this
  rw [feq_iff]
  constructor
  · intro h
    refine ⟨_, ?_, ?_, .inr h⟩
    · exact BitVec.le_toInt _
    · have := @BitVec.toInt_lt w ((toI32 bad f).setWidth w); omega
  · rintro ⟨i, a, b, s⟩
    have e : EqF f (ofInt i) := by
      rcases s with s | s
      · rw [s]; exact eqF_self (by omega)
      · exact s
    rw [toI32_eqF bad (by omega) (by omega) e, ← BitVec.signExtend_eq_setWidth_of_le _ hw', BitVec.toInt_signExtend,
      BitVec.toInt_ofInt, show min w 32 = w from Nat.min_eq_left hw', Int.bmod_eq_of_le (n := i) (by omega) (by omega)]
    obtain ⟨k, rfl⟩ : ∃ k, w = k + 1 := ⟨w - 1, by omega⟩
    have h2 : (2:Nat)^(k+1) = 2 * 2^k := by rw [Nat.pow_succ]; omega
    have h3 : ((2^k : Nat) : Int) = (2:Int)^k := by norm_cast
    rw [show k + 1 - 1 = k from rfl] at a b
    rw [Int.bmod_eq_of_le (by rw [h2]; omega) (by rw [h2]; omega)]
    exact e

theorem storable_iff (bad : BitVec 64 → BitVec 32) (t : El) (v : Val) : storable bad t v = true ↔ Holds t v := by
  have nc : ∀ {l u : Int} {x : BitVec 32}, ¬ IntIn l u (.chr x) := fun ⟨_, _, _, z⟩ => z
  have no : ∀ {l u : Int} {x : Nat}, ¬ IntIn l u (.other x) := fun ⟨_, _, _, z⟩ => z
  cases t with
  | bit => cases v with
    | num f => exact eqF_zero_one
    | chr c => exact ⟨(fun h => nomatch h), fun h => absurd h nc⟩
    | other i => exact ⟨(fun h => nomatch h), fun h => absurd h no⟩
  | i8 => cases v with
    | num f => exact qIw (w := 8) (by decide) (by decide) bad
    | chr c => exact ⟨(fun h => nomatch h), fun h => absurd h nc⟩
    | other i => exact ⟨(fun h => nomatch h), fun h => absurd h no⟩
  | i16 => cases v with
    | num f => exact qIw (w := 16) (by decide) (by decide) bad
    | chr c => exact ⟨(fun h => nomatch h), fun h => absurd h nc⟩
    | other i => exact ⟨(fun h => nomatch h), fun h => absurd h no⟩
  | i32 => cases v with
    | num f => exact qI32_iff
    | chr c => exact ⟨(fun h => nomatch h), fun h => absurd h nc⟩
    | other i => exact ⟨(fun h => nomatch h), fun h => absurd h no⟩
  | f64 => cases v with
    | num f => exact ⟨fun _ => ⟨f, rfl⟩, fun _ => rfl⟩
    | chr c => exact ⟨(fun h => nomatch h), fun ⟨_, e⟩ => nomatch e⟩
    | other i => exact ⟨(fun h => nomatch h), fun ⟨_, e⟩ => nomatch e⟩
  | c8 => cases v with
    | num f => exact ⟨(fun h => nomatch h), fun ⟨_, e, _⟩ => nomatch e⟩
    | chr c => exact chr_shift8.trans ⟨fun h => ⟨c, rfl, h⟩, fun ⟨_, e, h⟩ => by cases e; exact h⟩
    | other i => exact ⟨(fun h => nomatch h), fun ⟨_, e, _⟩ => nomatch e⟩
  | c16 => cases v with
    | num f => exact ⟨(fun h => nomatch h), fun ⟨_, e, _⟩ => nomatch e⟩
    | chr c => exact chr_shift16.trans ⟨fun h => ⟨c, rfl, h⟩, fun ⟨_, e, h⟩ => by cases e; exact h⟩
    | other i => exact ⟨(fun h => nomatch h), fun ⟨_, e, _⟩ => nomatch e⟩
  | c32 => cases v with
    | num f => exact ⟨(fun h => nomatch h), fun ⟨_, e⟩ => nomatch e⟩
    | chr c => exact ⟨fun _ => ⟨c, rfl⟩, fun _ => rfl⟩
    | other i => exact ⟨(fun h => nomatch h), fun ⟨_, e⟩ => nomatch e⟩
  | B => exact ⟨fun _ => trivial, fun _ => by cases v <;> rfl⟩

theorem holds_int_num {l u : Int} {v : Val} (h : IntIn l u v) : ∃ f, v = .num f := intIn_num h

theorem single_spec (bad : BitVec 64 → BitVec 32) {t : El} {v : Val} (h : Holds t v) :
    ∃ e, single bad t v = some e ∧ e.ty = t ∧ Sames e.elems [v] := by
  have one : ∀ {a b : Val}, Same a b → Sames [a] [b] := fun h => .cons h .nil
  cases t with
  | bit =>
    obtain ⟨f, rfl⟩ := holds_int_num h
    refine ⟨_, rfl, rfl, one ?_⟩
    obtain ⟨i, a, b, s⟩ := h
    refine Same.symm (s.trans ?_)
    have e : EqF f (ofInt i) := by
      rcases s with s | s
      · rw [s]; exact eqF_self (by omega)
      · exact s
    have hb : i = (((f <<< 1) != 0).toNat : Int) := by
      have : i = 0 ∨ i = 1 := by omega
      have sh : (f <<< 1).toNat = f.toNat % 2^63 * 2 := by
        rw [BitVec.toNat_shiftLeft, Nat.shiftLeft_eq]; omega
      have kz : (f <<< 1) = 0 ↔ f.toNat % 2^63 = 0 := by
        constructor
        · intro h; rw [h] at sh; have : (0 : BitVec 64).toNat = 0 := rfl; omega
        · intro h; apply BitVec.eq_of_toNat_eq; rw [sh, h]; rfl
      rcases this with rfl | rfl
      · have : f.toNat % 2^63 = 0 := by
          have hk := e.2.2
          rw [show Compare.key (ofInt 0) = 0 from rfl] at hk
          have hf := f.isLt
          unfold Compare.key at hk
          split at hk <;> omega
        rw [bne_eq_false_iff_eq.2 (kz.2 this)]; rfl
      · have : f.toNat % 2^63 ≠ 0 := by
          intro h0
          have hk := e.2.2
          rw [show Compare.key (ofInt 1) = 4607182418800017408 from rfl] at hk
          have hf := f.isLt
          unfold Compare.key at hk
          split at hk <;> omega
        rw [bne_iff_ne.2 (fun h => this (kz.1 h))]; rfl
    rw [hb]
    exact Same.refl _
  | i8 =>
    obtain ⟨f, rfl⟩ := holds_int_num h
    refine ⟨_, rfl, rfl, one ?_⟩
    exact Same.symm (.inr (feq_iff.1 ((storable_iff bad .i8 (.num f)).2 h)))
  | i16 =>
    obtain ⟨f, rfl⟩ := holds_int_num h
    refine ⟨_, rfl, rfl, one ?_⟩
    exact Same.symm (.inr (feq_iff.1 ((storable_iff bad .i16 (.num f)).2 h)))
  | i32 =>
    obtain ⟨f, rfl⟩ := holds_int_num h
    refine ⟨_, rfl, rfl, one ?_⟩
    exact Same.symm (.inr (feq_iff.1 ((storable_iff bad .i32 (.num f)).2 h)))
  | f64 => obtain ⟨f, rfl⟩ := h; exact ⟨_, rfl, rfl, one (Same.refl _)⟩
  | c8 =>
    obtain ⟨c, rfl, h⟩ := h
    refine ⟨_, rfl, rfl, one ?_⟩
    show BitVec.zeroExtend 32 (c.setWidth 8) = c
    apply BitVec.eq_of_toNat_eq
    show ((c.setWidth 8).setWidth 32).toNat = _
    rw [BitVec.toNat_setWidth, BitVec.toNat_setWidth]
    omega
  | c16 =>
    obtain ⟨c, rfl, h⟩ := h
    refine ⟨_, rfl, rfl, one ?_⟩
    show BitVec.zeroExtend 32 (c.setWidth 16) = c
    apply BitVec.eq_of_toNat_eq
    show ((c.setWidth 16).setWidth 32).toNat = _
    rw [BitVec.toNat_setWidth, BitVec.toNat_setWidth]
    omega
  | c32 => obtain ⟨f, rfl⟩ := h; exact ⟨_, rfl, rfl, one (Same.refl _)⟩
  | B => exact ⟨.B [v], by cases v <;> rfl, rfl, one (Same.refl _)⟩

theorem selfTy_holds (bad : BitVec 64 → BitVec 32) (v : Val) : Holds (selfTy bad v) v := by
  cases v with
  | num f =>
    unfold selfTy
    dsimp only
    by_cases h : qI32 bad f = true
    · rw [if_pos h]
      have hs := self_spec (toI32 bad f)
      refine Holds.same ?_ (qI32_same h).symm
      rw [holds_int hs.1]
      have := (hs.2 _ hs.1).2 (Nat.le_refl _)
      exact ⟨_, this.1, this.2, Same.refl _⟩
    · rw [if_neg h]; exact ⟨f, rfl⟩
  | chr c =>
    unfold selfTy selfC32
    dsimp only
    by_cases h : c ≤ 255#32
    · rw [if_pos h]; exact ⟨c, rfl, by have : c.toNat ≤ 255 := h; omega⟩
    · rw [if_neg h]
      by_cases h : c ≤ 65535#32
      · rw [if_pos h]; exact ⟨c, rfl, by have : c.toNat ≤ 65535 := h; omega⟩
      · rw [if_neg h]; exact ⟨c, rfl⟩
  | other i => exact trivial

theorem copyTo_spec (bad : BitVec 64 → BitVec 32) {t : El} {d : Data} (h : elOr t d.ty = t) :
    ∃ r, copyTo bad t d = some r ∧ r.ty = t ∧ Sames r.elems d.elems := by
  unfold copyTo
  rw [if_pos h]
  exact conv_spec bad fun v hv => holds_mono (elems_hold d v hv) h

/-! ## Buffers -/

theorem sub_ty (off n : Nat) (d : Data) : (sub off n d).ty = d.ty := by cases d <;> rfl

theorem sub_elems (off n : Nat) (d : Data) : (sub off n d).elems = (d.elems.drop off).take n := by
  cases d <;> first | rfl | (simp only [sub, Data.elems, List.map_take, List.map_drop])

theorem write_spec {d e : Data} {i : Nat} (ht : d.ty = e.ty) (hl : i + len e ≤ len d) :
    ∃ b, write d i e = some b ∧ b.ty = d.ty ∧ b.elems = d.elems.take i ++ e.elems ++ d.elems.drop (i + len e) := by
  unfold len at *
  cases d <;> cases e <;> first
    | (cases ht; done)
    | (simp only [Data.elems, List.length_map] at hl
       rw [write, over, if_pos hl]
       refine ⟨_, rfl, rfl, ?_⟩
       simp only [Data.elems, List.map_append, List.map_take, List.map_drop, List.length_map])

theorem fresh_ty (t : El) (junk : Nat → BitVec 64) (n : Nat) : (fresh t junk n).ty = t := by cases t <;> rfl

theorem fresh_len (t : El) (junk : Nat → BitVec 64) (n : Nat) : len (fresh t junk n) = n := by
  cases t <;> simp [fresh, len, Data.elems]

theorem cap_size {fill : Bool} {t : El} {n bytes : Nat} (h : size fill t n ≤ bytes) : n ≤ cap fill t bytes := by
  unfold size at h
  unfold cap
  cases t <;> dsimp only at h ⊢ <;> omega

end Verif.Append
