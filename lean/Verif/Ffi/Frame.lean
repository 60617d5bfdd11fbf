import Verif.Ffi.Back
/-
More lemmas for C80: structures.
-/
namespace Verif.Ffi

/-- The memory after writing, whether or not there was an error. -/
def Wr.mem : Wr → Mem
  | .done m => m
  | .fail m => m

/-! ### What is changed -/

mutual
theorem genObj_below (F : F32) (junk : Nat) : ∀ (t : Ty) (v : V) (m : Mem) (a b : Int), b < a →
    (genObj F junk t v m a).mem b = m b
  | .void, v, m, a, b, h => by rw [genObj]; rfl
  | .sc s, v, m, a, b, h => by
    rw [genObj]
    cases scalarBits F s v with
    | none => rfl
    | some w => exact store_out _ _ _ _ _ (.inl h)
  | .ptr e, v, m, a, b, h => by
    cases v with
    | ptr p t =>
      rw [genObj]
      by_cases ht : tyEqual t e = true
      · rw [if_pos ht]; exact store_out _ _ _ _ _ (.inl h)
      · rw [if_neg ht]; rfl
    | _ => rw [genObj]; rfl; exact nofun
  | .repr base r, v, m, a, b, h => by
    cases v with
    | arr xs =>
      rw [genObj]
      by_cases hl : xs.length = (elSz base * 8) >>> reW r
      · rw [if_pos hl]
        cases toW r xs with
        | none => rfl
        | some p => exact store_out _ _ _ _ _ (.inl h)
      · rw [if_neg hl]; rfl
    | ptr p t =>
      cases base with
      | none => rw [genObj]; exact store_out _ _ _ _ _ (.inl h)
      | some s => rw [genObj]; rfl
    | _ => rw [genObj]; rfl; exact nofun; exact nofun
  | .agg k n fs, v, m, a, b, h => by
    cases v with
    | arr xs =>
      rw [genObj]
      by_cases hl : xs.length = fs.len
      · rw [if_pos hl]; exact genObjs_below F junk fs xs m a b h
      · rw [if_neg hl]; rfl
    | _ => rw [genObj]; rfl; exact nofun
theorem genObjs_below (F : F32) (junk : Nat) : ∀ (fs : Flds) (xs : List V) (m : Mem) (a b : Int), b < a →
    (genObjs F junk fs xs m a).mem b = m b
  | .nil, xs, m, a, b, h => by rw [genObjs]; rfl; exact nofun
  | .cons off t rest, [], m, a, b, h => by rw [genObjs]; rfl; exact nofun
  | .cons off t rest, x :: xs, m, a, b, h => by
    have h1 := genObj_below F junk t x m (a + off) b (by omega)
    rw [genObjs]
    cases hg : genObj F junk t x m (a + off) with
    | fail m' => rw [hg] at h1; exact h1
    | done m' =>
      rw [hg] at h1
      exact (genObjs_below F junk rest xs m' a b h).trans h1
end

mutual
/-- Nothing is changed after a value and `k` more bytes, where `k` is 7, or 0 if no
narrow scalar is reinterpreted. -/
theorem genObj_above (F : F32) (junk k : Nat) : ∀ (t : Ty) (v : V) (m : Mem) (a b : Int),
    WF t → k = 7 ∨ NoShort t → a + size t + k ≤ b → (genObj F junk t v m a).mem b = m b
  | .void, v, m, a, b, hw, _, h => by rw [genObj]; rfl
  | .sc s, v, m, a, b, hw, _, h => by
    rw [genObj]
    cases scalarBits F s v with
    | none => rfl
    | some w =>
      refine store_out _ _ _ _ _ (.inr ?_)
      rw [styW_eq]
      rw [size] at h
      omega
  | .ptr e, v, m, a, b, hw, _, h => by
    rw [size] at h
    cases v with
    | ptr p t =>
      rw [genObj]
      by_cases ht : tyEqual t e = true
      · rw [if_pos ht]; exact store_out _ _ _ _ _ (.inr (by omega))
      · rw [if_neg ht]; rfl
    | _ => rw [genObj]; rfl; exact nofun
  | .repr base r, v, m, a, b, hw, hk, h => by
    rw [size] at h
    have hb : 8 ≤ baseWidth base + k := by
      rcases hk with rfl | hn
      · cases base with
        | none => decide
        | some s => cases s <;> decide
      · rw [NoShort] at hn; omega
    cases v with
    | arr xs =>
      rw [genObj]
      by_cases hl : xs.length = (elSz base * 8) >>> reW r
      · rw [if_pos hl]
        cases toW r xs with
        | none => rfl
        | some p => exact store_out _ _ _ _ _ (.inr (by omega))
      · rw [if_neg hl]; rfl
    | ptr p t =>
      cases base with
      | none => rw [genObj]; exact store_out _ _ _ _ _ (.inr (by omega))
      | some s => rw [genObj]; rfl
    | _ => rw [genObj]; rfl; exact nofun; exact nofun
  | .agg q n fs, v, m, a, b, hw, hk, h => by
    cases v with
    | arr xs =>
      rw [genObj]
      by_cases hl : xs.length = fs.len
      · rw [if_pos hl]
        rw [size] at h
        rw [WF] at hw
        exact genObjs_above F junk k fs xs m a b 0 n hw (hk.imp id (fun hn => by rw [NoShort] at hn; exact hn)) h
      · rw [if_neg hl]; rfl
    | _ => rw [genObj]; rfl; exact nofun
theorem genObjs_above (F : F32) (junk k : Nat) : ∀ (fs : Flds) (xs : List V) (m : Mem) (a b : Int) (lo n : Nat),
    WFs lo n fs → k = 7 ∨ NoShorts fs → a + n + k ≤ b → (genObjs F junk fs xs m a).mem b = m b
  | .nil, xs, m, a, b, lo, n, _, _, h => by rw [genObjs]; rfl; exact nofun
  | .cons off t rest, [], m, a, b, lo, n, _, _, h => by rw [genObjs]; rfl; exact nofun
  | .cons off t rest, x :: xs, m, a, b, lo, n, hw, hk, h => by
    rw [WFs] at hw
    obtain ⟨w1, w2, w3⟩ := hw
    have hn := WFs_le rest _ _ w3
    have h1 := genObj_above F junk k t x m (a + off) b w2
      (hk.imp id (fun hn => by rw [NoShorts] at hn; exact hn.1)) (by omega)
    rw [genObjs]
    cases hg : genObj F junk t x m (a + off) with
    | fail m' => rw [hg] at h1; exact h1
    | done m' =>
      rw [hg] at h1
      exact (genObjs_above F junk k rest xs m' a b _ n w3
        (hk.imp id (fun hn => by rw [NoShorts] at hn; exact hn.2)) h).trans h1
theorem WFs_le : ∀ (fs : Flds) (lo n : Nat), WFs lo n fs → lo ≤ n
  | .nil, lo, n, h => by rw [WFs] at h; exact h
  | .cons off t rest, lo, n, h => by
    rw [WFs] at h
    have := WFs_le rest _ _ h.2.2
    omega
end

/-! ### Reading -/

theorem readSimple_congr (F : F32) (s : Sc) (m m' : Mem) (a : Int)
    (h : ∀ b, a ≤ b → b < a + styW s → m b = m' b) : readSimple F s m a = readSimple F s m' a := by
  have e := load_congr (styW s) m m' a h
  cases s <;> simp only [styW] at e <;> simp only [readSimple, e]

mutual
theorem readAny_congr (F : F32) : ∀ (t : Ty) (m m' : Mem) (a : Int), WF t →
    (∀ b, a ≤ b → b < a + size t → m b = m' b) → readAny F t m a = readAny F t m' a
  | .void, m, m', a, hw, h => by rw [readAny, readAny]
  | .sc s, m, m', a, hw, h => by
    rw [readAny, readAny]
    exact readSimple_congr F s m m' a (fun b h1 h2 => h b h1 (by rw [size, ← styW_eq]; exact h2))
  | .ptr e, m, m', a, hw, h => by
    rw [readAny, readAny, load_congr 8 m m' a (fun b h1 h2 => h b h1 (by rw [size]; omega))]
  | .repr base r, m, m', a, hw, h => by
    rw [readAny, readAny, load_congr (elSz base) m m' a
      (fun b h1 h2 => h b h1 (by rw [size, ← elSz_eq]; exact h2))]
  | .agg q n fs, m, m', a, hw, h => by
    rw [WF] at hw
    rw [size] at h
    rw [readAny, readAny, readStruct_congr F fs m m' a 0 n hw (fun b h1 h2 => h b (by omega) h2)]
theorem readStruct_congr (F : F32) : ∀ (fs : Flds) (m m' : Mem) (a : Int) (lo n : Nat), WFs lo n fs →
    (∀ b, a + lo ≤ b → b < a + n → m b = m' b) → readStruct F fs m a = readStruct F fs m' a
  | .nil, m, m', a, lo, n, hw, h => by rw [readStruct, readStruct]
  | .cons off t rest, m, m', a, lo, n, hw, h => by
    rw [WFs] at hw
    obtain ⟨w1, w2, w3⟩ := hw
    have hn := WFs_le rest _ _ w3
    rw [readStruct, readStruct, readAny_congr F t m m' (a + off) w2 (fun b h1 h2 => h b (by omega) (by omega)),
      readStruct_congr F rest m m' a _ n w3 (fun b h1 h2 => h b (by omega) h2)]
end

/-! ### Round trip -/

theorem repr_back (F : F32) (junk : Nat) (base : Option Sc) (r : Re) (xs : List V) (p : Nat) (m : Mem) (a : Int)
    (hw : WF (.repr base r)) (hl : xs.length = (elSz base * 8) >>> reW r) (ht : toW r xs = some p) :
    ∃ y, readAny F (.repr base r) (copy8 junk m a (elSz base) p) a = some y ∧
      Back F (.repr base r) (.arr xs) y := by
  rw [WF] at hw
  obtain ⟨t1, t2, t3⟩ := toW_back r xs p ht
  rw [hl, mul_bits base r hw] at t1
  have hp : p % 256 ^ elSz base = p := by
    refine Nat.mod_eq_of_lt ?_
    rw [show (256 : Nat) = 2 ^ 8 from rfl, ← Nat.pow_mul]
    exact t1
  refine ⟨_, by rw [readAny], ?_⟩
  rw [load_copy8 junk m a _ _ (elSz_le base), hp, ← hl, Back]
  exact ⟨xs, _, rfl, rfl, t2.symm, t3⟩

mutual
theorem genObj_back (F : F32) (junk : Nat) : ∀ (t : Ty) (v : V) (m m' : Mem) (a : Int),
    WF t → Plain t v → genObj F junk t v m a = .done m' →
    ∃ r, readAny F t m' a = some r ∧ Back F t v r
  | .void, v, m, m', a, hw, hp, h => by rw [WF] at hw; exact hw.elim
  | .sc s, v, m, m', a, hw, hp, h => by
    rw [genObj] at h
    cases hb : scalarBits F s v with
    | none => rw [hb] at h; exact nomatch h
    | some w =>
      rw [hb] at h
      injection h with h
      subst h
      obtain ⟨h1, h2⟩ := scalar_back F s v w hb
      rw [readAny]
      exact h2 _ a (by rw [load_store, Nat.mod_eq_of_lt h1])
  | .ptr e, v, m, m', a, hw, hp, h => by
    cases v with
    | ptr p t =>
      rw [genObj] at h
      by_cases ht : tyEqual t e = true
      · rw [if_pos ht] at h
        injection h with h
        subst h
        refine ⟨_, by rw [readAny], ?_⟩
        rw [load_store, Nat.mod_eq_of_lt (show p.toNat < 256 ^ 8 from p.isLt), BitVec.ofNat_toNat,
          BitVec.setWidth_eq, Back]
        exact ⟨p, t, rfl, rfl⟩
      · rw [if_neg ht] at h; exact nomatch h
    | _ => rw [genObj] at h; exact nomatch h; exact nofun
  | .repr base r, v, m, m', a, hw, hp, h => by
    cases v with
    | arr xs =>
      rw [genObj] at h
      by_cases hl : xs.length = (elSz base * 8) >>> reW r
      · rw [if_pos hl] at h
        cases ht : toW r xs with
        | none => rw [ht] at h; exact nomatch h
        | some p =>
          rw [ht] at h
          injection h with h
          subst h
          exact repr_back F junk base r xs p m a hw hl ht
      · rw [if_neg hl] at h; exact nomatch h
    | ptr p t =>
      cases base with
      | none => rw [Plain] at hp; obtain ⟨xs, hx⟩ := hp; exact nomatch hx
      | some s => rw [genObj] at h; exact nomatch h
    | _ => rw [genObj] at h; exact nomatch h; exact nofun; exact nofun
  | .agg q n fs, v, m, m', a, hw, hp, h => by
    cases v with
    | arr xs =>
      rw [genObj] at h
      by_cases hl : xs.length = fs.len
      · rw [if_pos hl] at h
        rw [WF] at hw
        rw [Plain] at hp
        obtain ⟨ys, h1, h2⟩ := genObjs_back F junk fs xs m m' a 0 n hw (hp xs rfl) hl h
        refine ⟨.arr ys, ?_, ?_⟩
        · rw [readAny, h1]
        · rw [Back]; exact ⟨xs, ys, rfl, rfl, h2⟩
      · rw [if_neg hl] at h; exact nomatch h
    | _ => rw [genObj] at h; exact nomatch h; exact nofun
theorem genObjs_back (F : F32) (junk : Nat) : ∀ (fs : Flds) (xs : List V) (m m' : Mem) (a : Int) (lo n : Nat),
    WFs lo n fs → Plains fs xs → xs.length = fs.len → genObjs F junk fs xs m a = .done m' →
    ∃ ys, readStruct F fs m' a = some ys ∧ Backs F fs xs ys
  | .nil, xs, m, m', a, lo, n, hw, hp, hl, h => by
    have : xs = [] := List.eq_nil_of_length_eq_zero hl
    refine ⟨[], by rw [readStruct], ?_⟩
    rw [Backs]
    exact ⟨this, rfl⟩
  | .cons off t rest, [], m, m', a, lo, n, hw, hp, hl, h => by rw [Flds.len] at hl; exact nomatch hl
  | .cons off t rest, x :: xs, m, m', a, lo, n, hw, hp, hl, h => by
    rw [WFs] at hw
    obtain ⟨w1, w2, w3⟩ := hw
    rw [Plains] at hp
    rw [genObjs] at h
    cases hg : genObj F junk t x m (a + off) with
    | fail m1 => rw [hg] at h; exact nomatch h
    | done m1 =>
      rw [hg] at h
      obtain ⟨y, y1, y2⟩ := genObj_back F junk t x m m1 (a + off) w2 hp.1 hg
      have hl' : xs.length = rest.len := by
        rw [Flds.len, List.length_cons] at hl; omega
      obtain ⟨ys, z1, z2⟩ := genObjs_back F junk rest xs m1 m' a _ n w3 hp.2 hl' h
      have hk : ∀ b, b < a + off + size t → m' b = m1 b := by
        intro b hb
        have := genObjs_before F junk rest xs m1 a b (off + size t) n w3 (by omega)
        rw [show genObjs F junk rest xs m1 a = .done m' from h] at this
        exact this
      refine ⟨y :: ys, ?_, ?_⟩
      · rw [readStruct, readAny_congr F t m' m1 (a + off) w2 (fun b _ h2 => hk b h2), y1, z1]
      · rw [Backs]; exact ⟨y2, z2⟩
theorem genObjs_before (F : F32) (junk : Nat) : ∀ (fs : Flds) (xs : List V) (m : Mem) (a b : Int) (lo n : Nat),
    WFs lo n fs → b < a + lo → (genObjs F junk fs xs m a).mem b = m b
  | .nil, xs, m, a, b, lo, n, _, h => by rw [genObjs]; rfl; exact nofun
  | .cons off t rest, [], m, a, b, lo, n, _, h => by rw [genObjs]; rfl; exact nofun
  | .cons off t rest, x :: xs, m, a, b, lo, n, hw, h => by
    rw [WFs] at hw
    obtain ⟨w1, w2, w3⟩ := hw
    have h1 := genObj_below F junk t x m (a + off) b (by omega)
    rw [genObjs]
    cases hg : genObj F junk t x m (a + off) with
    | fail m' => rw [hg] at h1; exact h1
    | done m' =>
      rw [hg] at h1
      exact (genObjs_before F junk rest xs m' a b _ n w3 (by omega)).trans h1
end

/-! ### Which values are accepted -/

theorem simplify_strip (b : Ty) : strip (simplify b) = strip b := by
  cases b with
  | repr base r => cases base <;> rfl
  | _ => rfl

mutual
theorem tyEqual_iff : ∀ (a b : Ty), tyEqual a b = true ↔ Compat a b
  | .void, b => by
    unfold Compat
    rw [tyEqual, strip, Alike]
    exact ⟨fun _ => trivial, fun _ => rfl⟩
  | .sc s, b => by
    unfold Compat
    cases b with
    | repr base r => cases base <;> simp [tyEqual, simplify, strip, Alike]
    | _ => simp [tyEqual, simplify, strip, Alike]
  | .repr (some s) r, b => by
    unfold Compat
    cases b with
    | repr base r => cases base <;> simp [tyEqual, simplify, strip, Alike]
    | _ => simp [tyEqual, simplify, strip, Alike]
  | .repr none r, b => by
    unfold Compat
    cases b with
    | repr base r => cases base <;> simp [tyEqual, simplify, strip, Alike]
    | _ => simp [tyEqual, simplify, strip, Alike]
  | .ptr e, b => by
    have ih := fun e' => tyEqual_iff e e'
    unfold Compat at ih ⊢
    cases b with
    | ptr e' => simp only [tyEqual, simplify, strip, Alike]; exact ih e'
    | repr base r =>
      cases base with
      | none =>
        simp only [tyEqual, simplify, strip, Alike]
        have := ih .void
        rw [strip] at this
        exact this
      | some s => simp [tyEqual, simplify, strip, Alike]
    | _ => simp [tyEqual, simplify, strip, Alike]
  | .agg k n fs, b => by
    unfold Compat
    cases b with
    | agg k' n' gs =>
      simp only [tyEqual, simplify, strip, Alike, Bool.and_eq_true, decide_eq_true_eq, tyEquals_iff fs gs]
    | repr base r => cases base <;> simp [tyEqual, simplify, strip, Alike]
    | _ => simp [tyEqual, simplify, strip, Alike]
theorem tyEquals_iff : ∀ (fs gs : Flds), tyEquals fs gs = true ↔ Alikes (strips fs) (strips gs)
  | .nil, .nil => by simp [tyEquals, strips, Alikes]
  | .nil, .cons _ _ _ => by simp [tyEquals, strips, Alikes]
  | .cons _ _ _, .nil => by simp [tyEquals, strips, Alikes]
  | .cons _ t r, .cons _ t' r' => by
    have h1 := tyEqual_iff t t'
    unfold Compat at h1
    simp only [tyEquals, strips, Alikes, Bool.and_eq_true, h1, tyEquals_iff r r']
end

mutual
theorem genObj_fits (F : F32) (junk : Nat) : ∀ (t : Ty) (v : V) (m : Mem) (a : Int), WF t →
    ((∃ m', genObj F junk t v m a = .done m') ↔ Fits t v)
  | .void, v, m, a, hw => by rw [WF] at hw; exact hw.elim
  | .sc s, v, m, a, hw => by
    rw [genObj, Fits, ← scalar_fits F]
    cases scalarBits F s v with
    | none => exact ⟨fun ⟨_, h⟩ => (nomatch h), fun ⟨_, h⟩ => (nomatch h)⟩
    | some b => exact ⟨fun _ => ⟨_, rfl⟩, fun _ => ⟨_, rfl⟩⟩
  | .ptr e, v, m, a, hw => by
    rw [Fits]
    cases v with
    | ptr p t =>
      rw [genObj]
      by_cases ht : tyEqual t e = true
      · rw [if_pos ht]
        exact ⟨fun _ => ⟨p, t, rfl, (tyEqual_iff t e).1 ht⟩, fun _ => ⟨_, rfl⟩⟩
      · rw [if_neg ht]
        refine ⟨fun ⟨_, h⟩ => (nomatch h), fun ⟨p', t', h1, h2⟩ => ?_⟩
        injection h1 with h3 h4
        subst h4
        exact absurd ((tyEqual_iff _ _).2 h2) ht
    | _ =>
      rw [genObj]
      exact ⟨fun ⟨_, h⟩ => (nomatch h), fun ⟨_, _, h, _⟩ => (nomatch h)⟩
      exact nofun
  | .repr base r, v, m, a, hw => by
    rw [WF] at hw
    have hmul := mul_bits base r hw
    rw [Fits]
    cases v with
    | arr xs =>
      rw [genObj]
      by_cases hl : xs.length = (elSz base * 8) >>> reW r
      · rw [if_pos hl]
        have hl' : xs.length * r.bits = 8 * baseWidth base := by
          rw [bits_eq, hl, hmul, elSz_eq]
        have hf := toW_fits r xs
        cases ht : toW r xs with
        | none =>
          rw [ht] at hf
          refine ⟨fun ⟨_, h⟩ => (nomatch h), fun h => ?_⟩
          rcases h with ⟨ys, h1, h2, h3⟩ | ⟨_, _, _, h1⟩
          · injection h1 with h1
            subst h1
            obtain ⟨_, h4⟩ := hf.2 h3
            exact nomatch h4
          · exact nomatch h1
        | some p =>
          exact ⟨fun _ => .inl ⟨xs, rfl, hl', hf.1 ⟨p, ht⟩⟩, fun _ => ⟨_, rfl⟩⟩
      · rw [if_neg hl]
        refine ⟨fun ⟨_, h⟩ => (nomatch h), fun h => ?_⟩
        rcases h with ⟨ys, h1, h2, h3⟩ | ⟨_, _, _, h1⟩
        · injection h1 with h1
          subst h1
          rw [bits_eq, ← elSz_eq, ← hmul] at h2
          exact absurd (Nat.eq_of_mul_eq_mul_right (Nat.two_pow_pos _) h2) hl
        · exact nomatch h1
    | ptr p t =>
      cases base with
      | none => rw [genObj]; exact ⟨fun _ => .inr ⟨rfl, p, t, rfl⟩, fun _ => ⟨_, rfl⟩⟩
      | some s =>
        rw [genObj]
        refine ⟨fun ⟨_, h⟩ => (nomatch h), fun h => ?_⟩
        rcases h with ⟨_, h1, _⟩ | ⟨h1, _⟩ <;> exact nomatch h1
    | _ =>
      rw [genObj]
      refine ⟨fun ⟨_, h⟩ => (nomatch h), fun h => ?_⟩
      rcases h with ⟨_, h1, _⟩ | ⟨_, _, _, h1⟩ <;> exact nomatch h1
      exact nofun
      exact nofun
  | .agg q n fs, v, m, a, hw => by
    rw [WF] at hw
    rw [Fits]
    cases v with
    | arr xs =>
      rw [genObj]
      by_cases hl : xs.length = fs.len
      · rw [if_pos hl, genObjs_fits F junk fs xs m a 0 n hw hl]
        refine ⟨fun h => ⟨xs, rfl, h⟩, fun ⟨ys, h1, h2⟩ => ?_⟩
        injection h1 with h1
        subst h1
        exact h2
      · rw [if_neg hl]
        refine ⟨fun ⟨_, h⟩ => (nomatch h), fun ⟨ys, h1, h2⟩ => ?_⟩
        injection h1 with h1
        subst h1
        exact absurd (Fitss_len fs xs h2) hl
    | _ =>
      rw [genObj]
      exact ⟨fun ⟨_, h⟩ => (nomatch h), fun ⟨_, h, _⟩ => (nomatch h)⟩
      exact nofun
theorem genObjs_fits (F : F32) (junk : Nat) : ∀ (fs : Flds) (xs : List V) (m : Mem) (a : Int) (lo n : Nat),
    WFs lo n fs → xs.length = fs.len → ((∃ m', genObjs F junk fs xs m a = .done m') ↔ Fitss fs xs)
  | .nil, xs, m, a, lo, n, hw, hl => by
    rw [Fitss, genObjs]
    exact ⟨fun _ => List.eq_nil_of_length_eq_zero hl, fun _ => ⟨_, rfl⟩⟩
    exact nofun
  | .cons off t rest, [], m, a, lo, n, hw, hl => by rw [Flds.len] at hl; exact nomatch hl
  | .cons off t rest, x :: xs, m, a, lo, n, hw, hl => by
    rw [WFs] at hw
    have h1 := genObj_fits F junk t x m (a + off) hw.2.1
    have hl' : xs.length = rest.len := by
      rw [Flds.len, List.length_cons] at hl; omega
    rw [genObjs, Fitss]
    cases hg : genObj F junk t x m (a + off) with
    | fail m' =>
      rw [hg] at h1
      refine ⟨fun ⟨_, h⟩ => (nomatch h), fun h => ?_⟩
      obtain ⟨_, h2⟩ := h1.2 h.1
      exact nomatch h2
    | done m' =>
      have h2 := genObjs_fits F junk rest xs m' a _ n hw.2.2 hl'
      exact ⟨fun h => ⟨h1.1 ⟨_, hg⟩, h2.1 h⟩, fun h => h2.2 h.2⟩
theorem Fitss_len : ∀ (fs : Flds) (xs : List V), Fitss fs xs → xs.length = fs.len
  | .nil, xs, h => by rw [Fitss] at h; subst h; rfl
  | .cons off t rest, [], h => by rw [Fitss] at h; exact h.elim
  | .cons off t rest, x :: xs, h => by
    rw [Fitss] at h
    rw [List.length_cons, Flds.len, Fitss_len rest xs h.2]
end

/-! ### Fields -/

theorem get_bounds : ∀ (fs : Flds) (k lo n off : Nat) (t : Ty), WFs lo n fs → fs.get k = some (off, t) →
    lo ≤ off ∧ off + size t ≤ n ∧ WF t
  | .nil, k, lo, n, off, t, hw, h => nomatch h
  | .cons o u rest, 0, lo, n, off, t, hw, h => by
    rw [WFs] at hw
    injection h with h
    injection h with h1 h2
    subst h1; subst h2
    exact ⟨hw.1, WFs_le rest _ _ hw.2.2, hw.2.1⟩
  | .cons o u rest, k + 1, lo, n, off, t, hw, h => by
    rw [WFs] at hw
    have := get_bounds rest k _ n off t hw.2.2 h
    exact ⟨by omega, this.2⟩

theorem get_noShort : ∀ (fs : Flds) (k off : Nat) (t : Ty), NoShorts fs → fs.get k = some (off, t) → NoShort t
  | .nil, k, off, t, hw, h => nomatch h
  | .cons o u rest, 0, off, t, hw, h => by
    rw [NoShorts] at hw
    injection h with h
    injection h with h1 h2
    subst h2
    exact hw.1
  | .cons o u rest, k + 1, off, t, hw, h => by
    rw [NoShorts] at hw
    exact get_noShort rest k off t hw.2 h

theorem get_none : ∀ (fs : Flds) (k : Nat), fs.get k = none ↔ fs.len ≤ k
  | .nil, k => ⟨fun _ => Nat.zero_le k, fun _ => rfl⟩
  | .cons o u rest, 0 => ⟨fun h => (nomatch h), fun h => by rw [Flds.len] at h; omega⟩
  | .cons o u rest, k + 1 => by
    rw [Flds.get, get_none rest k, Flds.len]
    omega

theorem struct_read (F : F32) : ∀ (fs : Flds) (k off : Nat) (t : Ty) (m : Mem) (a : Int) (xs : List V),
    fs.get k = some (off, t) → readStruct F fs m a = some xs →
    ∃ x, xs[k]? = some x ∧ readAny F t m (a + off) = some x
  | .nil, k, off, t, m, a, xs, h, _ => nomatch h
  | .cons o u rest, k, off, t, m, a, xs, h, hr => by
    rw [readStruct] at hr
    cases h1 : readAny F u m (a + o) with
    | none => rw [h1] at hr; exact nomatch hr
    | some y =>
      rw [h1] at hr
      cases h2 : readStruct F rest m a with
      | none => rw [h2] at hr; exact nomatch hr
      | some ys =>
        rw [h2] at hr
        injection hr with hr
        subst hr
        cases k with
        | zero =>
          injection h with h
          injection h with e1 e2
          subst e1; subst e2
          exact ⟨y, rfl, h1⟩
        | succ k =>
          obtain ⟨x, x1, x2⟩ := struct_read F rest k off t m a ys h h2
          exact ⟨x, by simpa using x1, x2⟩

theorem struct_write (F : F32) : ∀ (fs : Flds) (k lo n off : Nat) (t : Ty) (m m' : Mem) (a : Int) (xs : List V) (y : V),
    WFs lo n fs → fs.get k = some (off, t) → (∀ b, b < a + off ∨ a + off + size t ≤ b → m' b = m b) →
    readAny F t m' (a + off) = some y → readStruct F fs m a = some xs →
    readStruct F fs m' a = some (xs.set k y)
  | .nil, k, lo, n, off, t, m, m', a, xs, y, hw, h, hm, hy, hr => nomatch h
  | .cons o u rest, k, lo, n, off, t, m, m', a, xs, y, hw, h, hm, hy, hr => by
    rw [WFs] at hw
    obtain ⟨w1, w2, w3⟩ := hw
    rw [readStruct] at hr
    cases h1 : readAny F u m (a + o) with
    | none => rw [h1] at hr; exact nomatch hr
    | some x =>
      rw [h1] at hr
      cases h2 : readStruct F rest m a with
      | none => rw [h2] at hr; exact nomatch hr
      | some ys =>
        rw [h2] at hr
        injection hr with hr
        subst hr
        cases k with
        | zero =>
          injection h with h
          injection h with e1 e2
          subst e1; subst e2
          rw [readStruct, hy, readStruct_congr F rest m' m a _ n w3 (fun b b1 _ => hm b (.inr (by omega))), h2]
          rfl
        | succ k =>
          have hb := get_bounds rest k _ n off t w3 h
          rw [readStruct, readAny_congr F u m' m (a + o) w2 (fun b _ b2 => hm b (.inl (by omega))), h1,
            struct_write F rest k _ n off t m m' a ys y w3 h hm hy h2]
          rfl

mutual
theorem compat_refl : ∀ (t : Ty), Compat t t
  | .void => by simp [Compat, strip, Alike]
  | .sc s => by simp [Compat, strip, Alike]
  | .ptr e => by
    have := compat_refl e
    unfold Compat at this ⊢
    simpa only [strip, Alike] using this
  | .repr none r => by simp [Compat, strip, Alike]
  | .repr (some s) r => by simp [Compat, strip, Alike]
  | .agg k n fs => by
    have := alikes_refl fs
    unfold Compat
    simpa only [strip, Alike, true_and] using this
theorem alikes_refl : ∀ (fs : Flds), Alikes (strips fs) (strips fs)
  | .nil => by simp [strips, Alikes]
  | .cons _ t r => by
    have h1 := compat_refl t
    have h2 := alikes_refl r
    unfold Compat at h1
    rw [strips, Alikes]
    exact ⟨h1, h2⟩
end

mutual
theorem alike_symm : ∀ (a b : Ty), Alike a b → Alike b a
  | .void, b, h => by cases b <;> simp [Alike]
  | .sc s, b, h => by
    cases b with
    | sc s' => rw [Alike] at h ⊢; exact h.symm
    | void => simp [Alike]
    | _ => simp [Alike] at h
  | .ptr e, b, h => by
    cases b with
    | ptr e' => rw [Alike] at h ⊢; exact alike_symm e e' h
    | void => simp [Alike]
    | _ => simp [Alike] at h
  | .repr _ _, b, h => by
    cases b with
    | void => simp [Alike]
    | _ => simp [Alike] at h
  | .agg k n fs, b, h => by
    cases b with
    | agg k' n' gs => rw [Alike] at h ⊢; exact ⟨h.1.symm, alikes_symm fs gs h.2⟩
    | void => simp [Alike]
    | _ => simp [Alike] at h
theorem alikes_symm : ∀ (fs gs : Flds), Alikes fs gs → Alikes gs fs
  | .nil, .nil, h => h
  | .nil, .cons _ _ _, h => by simp [Alikes] at h
  | .cons _ _ _, .nil, h => by simp [Alikes] at h
  | .cons _ t r, .cons _ t' r', h => by
    rw [Alikes] at h ⊢
    exact ⟨alike_symm t t' h.1, alikes_symm r r' h.2⟩
end

end Verif.Ffi
