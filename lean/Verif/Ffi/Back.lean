import Verif.Ffi.Lemmas
/-
More lemmas for C80: what writing changes, and what is read afterwards.
-/
namespace Verif.Ffi

theorem styW_eq (s : Sc) : styW s = s.width := by cases s <;> rfl
theorem elSz_eq (b : Option Sc) : elSz b = baseWidth b := by
  cases b
  · rfl
  · exact styW_eq _
theorem elSz_le (b : Option Sc) : elSz b ≤ 8 := by
  cases b with
  | none => decide
  | some s => cases s <;> decide
theorem bits_eq (r : Re) : r.bits = 2 ^ reW r := by cases r <;> rfl

theorem calcMemSize_eq (t : Ty) : calcMemSize t = size t := by
  cases t with
  | sc s => exact styW_eq s
  | repr b r =>
    cases b with
    | none => rfl
    | some s => exact styW_eq s
  | _ => rfl

theorem mul_bits (b : Option Sc) (r : Re) (h : r.bits ≤ 8 * baseWidth b) :
    ((elSz b * 8) >>> reW r) * 2 ^ reW r = 8 * elSz b := by
  revert h
  cases b with
  | none => cases r <;> decide
  | some s => cases s <;> cases r <;> decide

/-! ### Scalars -/

theorem scalar_back (F : F32) (s : Sc) (v : V) (b : Nat) (h : scalarBits F s v = some b) :
    b < 256 ^ styW s ∧ ∀ m a, load m a (styW s) = b →
      ∃ r, readSimple F s m a = some r ∧ Back F (.sc s) v r := by
  have mapc : ∀ {o : Option Int} {f : Int → Nat} {b : Nat}, o.map f = some b → ∃ i, o = some i ∧ f i = b := by
    intro o f b h
    cases o with
    | none => exact nomatch h
    | some i => injection h with h; exact ⟨i, rfl, h⟩
  cases s with
  | u8 =>
    obtain ⟨i, hi, rfl⟩ := mapc h
    obtain ⟨x, rfl, hx, h1, h2⟩ := intIn_some hi
    refine ⟨wrap_lt 8 i, fun m a hl => ⟨_, rfl, ?_⟩⟩
    rw [show load m a 1 = wrap 8 i from hl, wrap_pos 8 i h1 (by omega)]
    exact sameNum_of x i hx (by omega)
  | u16 =>
    obtain ⟨i, hi, rfl⟩ := mapc h
    obtain ⟨x, rfl, hx, h1, h2⟩ := intIn_some hi
    refine ⟨wrap_lt 16 i, fun m a hl => ⟨_, rfl, ?_⟩⟩
    rw [show load m a 2 = wrap 16 i from hl, wrap_pos 16 i h1 (by omega)]
    exact sameNum_of x i hx (by omega)
  | u32 =>
    obtain ⟨i, hi, rfl⟩ := mapc h
    obtain ⟨x, rfl, hx, h1, h2⟩ := intIn_some hi
    refine ⟨wrap_lt 32 i, fun m a hl => ⟨_, rfl, ?_⟩⟩
    rw [show load m a 4 = wrap 32 i from hl, wrap_pos 32 i h1 (by omega)]
    exact sameNum_of x i hx (by omega)
  | u64 =>
    obtain ⟨i, hi, rfl⟩ := mapc h
    obtain ⟨x, rfl, hx, h1, h2⟩ := intIn_some hi
    refine ⟨wrap_lt 64 i, fun m a hl => ⟨.num (ofInt i), ?_, ?_⟩⟩
    · have hw := wrap_pos 64 i h1 (by omega)
      rw [readSimple, show load m a 8 = wrap 64 i from hl, hw]
      exact if_neg (by omega)
    · exact sameNum_of x i hx (by omega)
  | i8 =>
    obtain ⟨i, hi, rfl⟩ := mapc h
    obtain ⟨x, rfl, hx, h1, h2⟩ := intIn_some hi
    refine ⟨wrap_lt 8 i, fun m a hl => ⟨_, rfl, ?_⟩⟩
    rw [show load m a 1 = wrap 8 i from hl, signed_wrap 8 (by decide) i (by omega) (by omega)]
    exact sameNum_of x i hx (by omega)
  | i16 =>
    obtain ⟨i, hi, rfl⟩ := mapc h
    obtain ⟨x, rfl, hx, h1, h2⟩ := intIn_some hi
    refine ⟨wrap_lt 16 i, fun m a hl => ⟨_, rfl, ?_⟩⟩
    rw [show load m a 2 = wrap 16 i from hl, signed_wrap 16 (by decide) i (by omega) (by omega)]
    exact sameNum_of x i hx (by omega)
  | i32 =>
    obtain ⟨i, hi, rfl⟩ := mapc h
    obtain ⟨x, rfl, hx, h1, h2⟩ := intIn_some hi
    refine ⟨wrap_lt 32 i, fun m a hl => ⟨_, rfl, ?_⟩⟩
    rw [show load m a 4 = wrap 32 i from hl, signed_wrap 32 (by decide) i (by omega) (by omega)]
    exact sameNum_of x i hx (by omega)
  | i64 =>
    obtain ⟨i, hi, rfl⟩ := mapc h
    obtain ⟨x, rfl, hx, h1, h2⟩ := intIn_some hi
    refine ⟨wrap_lt 64 i, fun m a hl => ⟨.num (ofInt i), ?_, ?_⟩⟩
    · rw [readSimple, show load m a 8 = wrap 64 i from hl, signed_wrap 64 (by decide) i (by omega) (by omega)]
      exact if_neg (by omega)
    · exact sameNum_of x i hx (by omega)
  | f32 =>
    cases v with
    | num x =>
      injection h with h
      subst h
      refine ⟨(F.narrow x).isLt, fun m a hl => ⟨_, rfl, x, rfl, ?_⟩⟩
      rw [show load m a 4 = _ from hl, BitVec.ofNat_toNat, BitVec.setWidth_eq]
    | _ => exact nomatch h
  | f64 =>
    cases v with
    | num x =>
      injection h with h
      subst h
      refine ⟨x.isLt, fun m a hl => ⟨_, rfl, ?_⟩⟩
      rw [show load m a 8 = _ from hl, BitVec.ofNat_toNat, BitVec.setWidth_eq]
      exact .inl rfl
    | _ => exact nomatch h

theorem scalar_fits (F : F32) (s : Sc) (v : V) : (∃ b, scalarBits F s v = some b) ↔ FitsSc s v := by
  have mapi : ∀ (lo hi : Int) (f : Int → Nat), (∃ b, (intIn lo hi v).map f = some b) ↔
      ∃ x, v = .num x ∧ InRange lo hi x := by
    intro lo hi f
    rw [← intIn_iff]
    cases intIn lo hi v with
    | none => exact ⟨fun ⟨_, h⟩ => (nomatch h), fun ⟨_, h⟩ => (nomatch h)⟩
    | some i => exact ⟨fun _ => ⟨i, rfl⟩, fun _ => ⟨_, rfl⟩⟩
  have fin : ∀ (lo hi : Int), s.range = some (lo, hi) →
      ((∃ x, v = .num x ∧ InRange lo hi x) ↔ FitsSc s v) := by
    intro lo hi hr
    constructor
    · rintro ⟨x, h1, h2⟩
      refine ⟨x, h1, fun lo' hi' h' => ?_⟩
      rw [hr] at h'
      injection h' with h'
      injection h' with ha hb
      subst ha; subst hb
      exact h2
    · rintro ⟨x, h1, h2⟩
      exact ⟨x, h1, h2 lo hi hr⟩
  cases s with
  | u8 => exact (mapi _ _ _).trans (fin _ _ rfl)
  | u16 => exact (mapi _ _ _).trans (fin _ _ rfl)
  | u32 => exact (mapi _ _ _).trans (fin _ _ rfl)
  | u64 => exact (mapi _ _ _).trans (fin _ _ rfl)
  | i8 => exact (mapi _ _ _).trans (fin _ _ rfl)
  | i16 => exact (mapi _ _ _).trans (fin _ _ rfl)
  | i32 => exact (mapi _ _ _).trans (fin _ _ rfl)
  | i64 => exact (mapi _ _ _).trans (fin _ _ rfl)
  | f32 =>
    constructor
    · rintro ⟨b, h⟩
      cases v with
      | num x => exact ⟨x, rfl, nofun⟩
      | _ => exact nomatch h
    · rintro ⟨x, rfl, _⟩
      exact ⟨_, rfl⟩
  | f64 =>
    constructor
    · rintro ⟨b, h⟩
      cases v with
      | num x => exact ⟨x, rfl, nofun⟩
      | _ => exact nomatch h
    · rintro ⟨x, rfl, _⟩
      exact ⟨_, rfl⟩

/-! ### Reinterpreted values -/

theorem re_back (r : Re) (v : V) (b : Nat) (h : reBits r v = some b) :
    b < 2 ^ (2 ^ reW r) ∧ SameAtom v (reElem r b) := by
  have mapc : ∀ {o : Option Int} {f : Int → Nat} {b : Nat}, o.map f = some b → ∃ i, o = some i ∧ f i = b := by
    intro o f b h
    cases o with
    | none => exact nomatch h
    | some i => injection h with h; exact ⟨i, rfl, h⟩
  have chrc : ∀ (M : Nat), (match (generalizing := false) v with | .chr c => if c ≤ M then some c else none | _ => none) = some b →
      v = .chr b ∧ b ≤ M := by
    intro M h
    cases v with
    | chr c =>
      by_cases hc : c ≤ M
      · rw [show (match (generalizing := false) V.chr c with | .chr c => if c ≤ M then some c else none | _ => none) = some c from if_pos hc] at h
        injection h with h
        subst h
        exact ⟨rfl, hc⟩
      · rw [show (match (generalizing := false) V.chr c with | .chr c => if c ≤ M then some c else none | _ => none) = none from if_neg hc] at h
        exact nomatch h
    | _ => exact nomatch h
  cases r with
  | u1 =>
    obtain ⟨i, hi, rfl⟩ := mapc h
    obtain ⟨x, rfl, hx, h1, h2⟩ := intIn_some hi
    refine ⟨wrap_lt 1 i, ?_⟩
    rw [reElem, wrap_pos 1 i h1 (by omega)]
    exact sameNum_of x i hx (by omega)
  | i8 =>
    obtain ⟨i, hi, rfl⟩ := mapc h
    obtain ⟨x, rfl, hx, h1, h2⟩ := intIn_some hi
    refine ⟨wrap_lt 8 i, ?_⟩
    rw [reElem, signed_wrap 8 (by decide) i (by omega) (by omega)]
    exact sameNum_of x i hx (by omega)
  | i16 =>
    obtain ⟨i, hi, rfl⟩ := mapc h
    obtain ⟨x, rfl, hx, h1, h2⟩ := intIn_some hi
    refine ⟨wrap_lt 16 i, ?_⟩
    rw [reElem, signed_wrap 16 (by decide) i (by omega) (by omega)]
    exact sameNum_of x i hx (by omega)
  | i32 =>
    obtain ⟨i, hi, rfl⟩ := mapc h
    obtain ⟨x, rfl, hx, h1, h2⟩ := intIn_some hi
    refine ⟨wrap_lt 32 i, ?_⟩
    rw [reElem, signed_wrap 32 (by decide) i (by omega) (by omega)]
    exact sameNum_of x i hx (by omega)
  | c8 =>
    obtain ⟨rfl, hb⟩ := chrc 255 h
    exact ⟨Nat.lt_of_le_of_lt hb (by decide), rfl⟩
  | c16 =>
    obtain ⟨rfl, hb⟩ := chrc 65535 h
    exact ⟨Nat.lt_of_le_of_lt hb (by decide), rfl⟩
  | c32 =>
    obtain ⟨rfl, hb⟩ := chrc 4294967295 h
    exact ⟨Nat.lt_of_le_of_lt hb (by decide), rfl⟩
  | f64 =>
    cases v with
    | num x =>
      injection h with h
      subst h
      refine ⟨x.isLt, ?_⟩
      rw [reElem, BitVec.ofNat_toNat, BitVec.setWidth_eq]
      exact .inl rfl
    | _ => exact nomatch h

theorem re_fits (r : Re) (v : V) : (∃ b, reBits r v = some b) ↔ FitsRe r v := by
  have mapi : ∀ (lo hi : Int) (f : Int → Nat), (∃ b, (intIn lo hi v).map f = some b) ↔
      ∃ x, v = .num x ∧ InRange lo hi x := by
    intro lo hi f
    rw [← intIn_iff]
    cases intIn lo hi v with
    | none => exact ⟨fun ⟨_, h⟩ => (nomatch h), fun ⟨_, h⟩ => (nomatch h)⟩
    | some i => exact ⟨fun _ => ⟨i, rfl⟩, fun _ => ⟨_, rfl⟩⟩
  cases r with
  | u1 => exact mapi _ _ _
  | i8 => exact mapi _ _ _
  | i16 => exact mapi _ _ _
  | i32 => exact mapi _ _ _
  | c8 =>
    cases v with
    | chr c =>
      simp only [reBits, FitsRe]
      by_cases hc : c ≤ 255
      · exact ⟨fun _ => ⟨c, rfl, by omega⟩, fun _ => ⟨c, if_pos hc⟩⟩
      · refine ⟨fun ⟨b, hb⟩ => ?_, fun ⟨d, h1, h2⟩ => ?_⟩
        · rw [if_neg hc] at hb; exact nomatch hb
        · injection h1 with h1; omega
    | _ => exact ⟨fun ⟨_, h⟩ => (nomatch h), fun ⟨_, h, _⟩ => (nomatch h)⟩
  | c16 =>
    cases v with
    | chr c =>
      simp only [reBits, FitsRe]
      by_cases hc : c ≤ 65535
      · exact ⟨fun _ => ⟨c, rfl, by omega⟩, fun _ => ⟨c, if_pos hc⟩⟩
      · refine ⟨fun ⟨b, hb⟩ => ?_, fun ⟨d, h1, h2⟩ => ?_⟩
        · rw [if_neg hc] at hb; exact nomatch hb
        · injection h1 with h1; omega
    | _ => exact ⟨fun ⟨_, h⟩ => (nomatch h), fun ⟨_, h, _⟩ => (nomatch h)⟩
  | c32 =>
    cases v with
    | chr c =>
      simp only [reBits, FitsRe]
      by_cases hc : c ≤ 4294967295
      · exact ⟨fun _ => ⟨c, rfl, by omega⟩, fun _ => ⟨c, if_pos hc⟩⟩
      · refine ⟨fun ⟨b, hb⟩ => ?_, fun ⟨d, h1, h2⟩ => ?_⟩
        · rw [if_neg hc] at hb; exact nomatch hb
        · injection h1 with h1; omega
    | _ => exact ⟨fun ⟨_, h⟩ => (nomatch h), fun ⟨_, h, _⟩ => (nomatch h)⟩
  | f64 =>
    cases v with
    | num x => exact ⟨fun _ => ⟨x, rfl⟩, fun _ => ⟨_, rfl⟩⟩
    | _ => exact ⟨fun ⟨_, h⟩ => (nomatch h), fun ⟨_, h⟩ => (nomatch h)⟩

theorem toW_back (r : Re) : ∀ (xs : List V) (p : Nat), toW r xs = some p →
    p < 2 ^ (xs.length * 2 ^ reW r) ∧ (elems r xs.length p).length = xs.length ∧
    ∀ (i : Nat) (h : i < xs.length) (h' : i < (elems r xs.length p).length),
      SameAtom xs[i] (elems r xs.length p)[i]
  | [], p, h => by
    injection h with h
    subst h
    exact ⟨by simp, rfl, fun i h => (nomatch h)⟩
  | v :: vs, p, h => by
    rw [toW] at h
    cases hb : reBits r v with
    | none => rw [hb] at h; exact nomatch h
    | some b =>
      rw [hb] at h
      cases hq : toW r vs with
      | none => rw [hq] at h; exact nomatch h
      | some q =>
        rw [hq] at h
        injection h with h
        obtain ⟨i1, i2, i3⟩ := toW_back r vs q hq
        obtain ⟨b1, b2⟩ := re_back r v b hb
        have hpos : 0 < 2 ^ (2 ^ reW r) := Nat.two_pow_pos _
        have hm : p % 2 ^ (2 ^ reW r) = b := by
          rw [← h, Nat.add_mul_mod_self_left, Nat.mod_eq_of_lt b1]
        have hd : p / 2 ^ (2 ^ reW r) = q := by
          rw [← h, Nat.add_mul_div_left _ _ hpos, Nat.div_eq_of_lt b1, Nat.zero_add]
        have he : elems r (v :: vs).length p = reElem r b :: elems r vs.length q := by
          rw [List.length_cons, elems, hm, hd]
        refine ⟨?_, ?_, ?_⟩
        · rw [List.length_cons, Nat.add_mul, Nat.one_mul, Nat.pow_add, ← h]
          generalize 2 ^ (2 ^ reW r) = B at *
          generalize 2 ^ (vs.length * 2 ^ reW r) = C at *
          have : B * (q + 1) ≤ B * C := Nat.mul_le_mul_left _ i1
          rw [Nat.mul_add] at this
          rw [Nat.mul_comm C B]
          omega
        · rw [he, List.length_cons, i2, List.length_cons]
        · intro i h1 h2
          simp only [he]
          cases i with
          | zero => exact b2
          | succ i => exact i3 i (by simpa using h1) (by rw [i2]; simpa using h1)

theorem toW_fits (r : Re) : ∀ (xs : List V), (∃ p, toW r xs = some p) ↔ ∀ x ∈ xs, FitsRe r x
  | [] => ⟨fun _ x hx => (nomatch hx), fun _ => ⟨0, rfl⟩⟩
  | v :: vs => by
    rw [toW, List.forall_mem_cons, ← re_fits, ← toW_fits r vs]
    cases reBits r v with
    | none => exact ⟨fun ⟨_, h⟩ => (nomatch h), fun ⟨⟨_, h⟩, _⟩ => (nomatch h)⟩
    | some b =>
      cases toW r vs with
      | none => exact ⟨fun ⟨_, h⟩ => (nomatch h), fun ⟨_, ⟨_, h⟩⟩ => (nomatch h)⟩
      | some q => exact ⟨fun _ => ⟨⟨_, rfl⟩, ⟨_, rfl⟩⟩, fun _ => ⟨_, rfl⟩⟩

end Verif.Ffi
