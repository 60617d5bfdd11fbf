import Verif.FfiCall.Model
/-
Lemmas for C81.
-/
namespace Verif.FfiCall
open Verif.Ffi

/-! ### Sizes and offsets -/

theorem up_ge (n a : Nat) (ha : 0 < a) : n ≤ up n a := by
  unfold up
  have h1 := Nat.div_add_mod (n + a - 1) a
  have h2 := Nat.mod_lt (n + a - 1) ha
  rw [Nat.mul_comm] at h1
  omega

theorem WFs_mono : ∀ (fs : Flds) (lo lo' n : Nat), lo ≤ lo' → WFs lo' n fs → WFs lo n fs
  | .nil, lo, lo', n, h, hw => by rw [WFs] at hw ⊢; omega
  | .cons off t rest, lo, lo', n, h, hw => by
    rw [WFs] at hw ⊢
    exact ⟨by omega, hw.2⟩

theorem styW_pos (s : Sc) : 0 < styW s := by cases s <;> decide
theorem elSz_pos (b : Option Sc) : 0 < elSz b := by
  cases b with
  | none => decide
  | some s => exact styW_pos s

mutual
theorem al_pos : ∀ t, 0 < al t
  | .sc s => by rw [al]; exact styW_pos s
  | .ptr _ => by rw [al]; decide
  | .repr b _ => by rw [al]; exact elSz_pos b
  | .arr _ e => by rw [al]; exact al_pos e
  | .str fs => by rw [al]; exact als_pos fs
theorem als_pos : ∀ fs, 0 < als fs
  | .nil => by rw [als]; decide
  | .cons t rest => by rw [als]; exact Nat.lt_of_lt_of_le (al_pos t) (Nat.le_max_left _ _)
end

theorem rowEnd_ge (s a : Nat) (ha : 0 < a) : ∀ k pos, pos ≤ rowEnd k pos s a
  | 0, pos => Nat.le_refl _
  | k + 1, pos => by
    rw [rowEnd]
    have h1 := up_ge pos a ha
    have h2 := rowEnd_ge s a ha k (up pos a + s)
    omega

theorem row_wf (t : Ty) (s a : Nat) (ha : 0 < a) (hw : WF t) (hs : size t ≤ s) : ∀ (k pos n : Nat),
    rowEnd k pos s a ≤ n → WFs pos n (row k pos s a t)
  | 0, pos, n, h => by rw [row, WFs]; exact h
  | k + 1, pos, n, h => by
    rw [rowEnd] at h
    rw [row, WFs]
    refine ⟨up_ge pos a ha, hw, WFs_mono _ _ _ _ ?_ (row_wf t s a ha hw hs k _ n h)⟩
    omega

theorem fldEnd_ge : ∀ (fs : PFlds) (pos : Nat), pos ≤ fldEnd fs pos
  | .nil, pos => by rw [fldEnd]; exact Nat.le_refl _
  | .cons t rest, pos => by
    rw [fldEnd]
    have h1 := up_ge pos (al t) (al_pos t)
    have h2 := fldEnd_ge rest (up pos (al t) + fsz t)
    omega

mutual
theorem lay_wf : ∀ t, Good t → fsz t < 2 ^ 32 → WF (lay t) ∧ size (lay t) = fsz t
  | .sc s, _, _ => by rw [lay, WF, size, fsz]; exact ⟨trivial, (styW_eq s).symm⟩
  | .ptr _, _, _ => by rw [lay, WF, size, fsz]; exact ⟨trivial, rfl⟩
  | .repr b r, hg, _ => by
    rw [Good] at hg
    rw [lay, WF, size, fsz]
    exact ⟨hg, (elSz_eq b).symm⟩
  | .arr n e, hg, hs => by
    rw [Good] at hg
    have ha := al_pos e
    have h0 : rowEnd n 0 (fsz e) (al e) ≤ fsz (.arr n e) := by rw [fsz]; exact up_ge _ _ ha
    have h1 : fsz e ≤ rowEnd n 0 (fsz e) (al e) := by
      obtain ⟨k, rfl⟩ : ∃ k, n = k + 1 := ⟨n - 1, by omega⟩
      rw [rowEnd]
      have := rowEnd_ge (fsz e) (al e) ha k (up 0 (al e) + fsz e)
      omega
    obtain ⟨w1, w2⟩ := lay_wf e hg.2 (by omega)
    have hm : fsz (.arr n e) % 2 ^ 32 = fsz (.arr n e) := Nat.mod_eq_of_lt hs
    rw [lay, WF, size, hm]
    exact ⟨row_wf _ _ _ ha w1 (by omega) n 0 _ h0, rfl⟩
  | .str fs, hg, hs => by
    rw [Good] at hg
    have h0 : fldEnd fs 0 ≤ fsz (.str fs) := by rw [fsz]; exact up_ge _ _ (als_pos fs)
    have hm : fsz (.str fs) % 2 ^ 32 = fsz (.str fs) := Nat.mod_eq_of_lt hs
    rw [lay, WF, size, hm]
    exact ⟨lays_wf fs 0 _ hg h0 hs, rfl⟩
theorem lays_wf : ∀ (fs : PFlds) (pos n : Nat), Goods fs → fldEnd fs pos ≤ n → n < 2 ^ 32 →
    WFs pos n (lays fs pos)
  | .nil, pos, n, _, h, _ => by rw [fldEnd] at h; rw [lays, WFs]; exact h
  | .cons t rest, pos, n, hg, h, hn => by
    rw [Goods] at hg
    rw [fldEnd] at h
    have h1 := fldEnd_ge rest (up pos (al t) + fsz t)
    obtain ⟨w1, w2⟩ := lay_wf t hg.1 (by omega)
    rw [lays, WFs, w2]
    exact ⟨up_ge pos _ (al_pos t), w1, lays_wf rest _ n hg.2 h hn⟩
end

/-! ### Buffers -/

theorem fill_below (F : F32) (junk : Nat) (e : Ty) : ∀ (xs : List V) (i : Nat) (m m' : Mem),
    fill F junk e xs i m = some m' → ∀ b : Int, b < (i * size e : Nat) → m' b = m b
  | [], i, m, m', h, b, hb => by injection h with h; rw [h]
  | x :: xs, i, m, m', h, b, hb => by
    rw [fill, calcMemSize_eq] at h
    have h1 := genObj_below F junk e x m (i * size e : Nat) b hb
    cases hg : genObj F junk e x m (i * size e : Nat) with
    | fail m1 => rw [hg] at h; exact nomatch h
    | done m1 =>
      rw [hg] at h h1
      refine (fill_below F junk e xs (i + 1) m1 m' h b ?_).trans h1
      rw [Nat.add_mul]
      omega

theorem fill_back (F : F32) (junk : Nat) (e : Ty) (hw : WF e) : ∀ (xs : List V) (i : Nat) (m m' : Mem),
    fill F junk e xs i m = some m' → ∀ (j : Nat) (h : j < xs.length), Plain e xs[j] →
      ∃ y, readAny F e m' ((i + j) * size e : Nat) = some y ∧ Back F e xs[j] y
  | [], i, m, m', h, j, hj, hp => nomatch hj
  | x :: xs, i, m, m', h, j, hj, hp => by
    rw [fill, calcMemSize_eq] at h
    cases hg : genObj F junk e x m (i * size e : Nat) with
    | fail m1 => rw [hg] at h; exact nomatch h
    | done m1 =>
      rw [hg] at h
      cases j with
      | zero =>
        obtain ⟨y, y1, y2⟩ := genObj_back F junk e x m m1 _ hw hp hg
        refine ⟨y, ?_, y2⟩
        rw [Nat.add_zero, readAny_congr F e m' m1 _ hw (fun b _ hb => ?_), y1]
        refine fill_below F junk e xs (i + 1) m1 m' h b ?_
        rw [Nat.add_mul]
        omega
      | succ j =>
        obtain ⟨y, y1, y2⟩ := fill_back F junk e hw xs (i + 1) m1 m' h j (by simpa using hj) hp
        exact ⟨y, by rw [show i + (j + 1) = i + 1 + j by omega]; exact y1, y2⟩

theorem readBuf_spec (F : F32) (e : Ty) (m : Mem) : ∀ (n i : Nat) (ys : List V), readBuf F e m n i = some ys →
    ys.length = n ∧ ∀ (j : Nat) (h : j < ys.length), readAny F e m ((i + j) * size e : Nat) = some ys[j]
  | 0, i, ys, h => by
    injection h with h
    subst h
    exact ⟨rfl, fun j h => (nomatch h)⟩
  | n + 1, i, ys, h => by
    rw [readBuf, calcMemSize_eq] at h
    cases h1 : readAny F e m (i * size e : Nat) with
    | none => rw [h1] at h; exact nomatch h
    | some y =>
      rw [h1] at h
      cases h2 : readBuf F e m n (i + 1) with
      | none => rw [h2] at h; exact nomatch h
      | some zs =>
        rw [h2] at h
        injection h with h
        subst h
        obtain ⟨i1, i2⟩ := readBuf_spec F e m n (i + 1) zs h2
        refine ⟨by rw [List.length_cons, i1], fun j hj => ?_⟩
        cases j with
        | zero => exact h1
        | succ j =>
          rw [show i + (j + 1) = i + 1 + j by omega]
          exact i2 j (by simpa using hj)

theorem elems_spec (r : Re) : ∀ (n p : Nat), Elems r n p (elems r n p)
  | 0, p => ⟨rfl, fun i h => (nomatch h)⟩
  | n + 1, p => by
    obtain ⟨h1, h2⟩ := elems_spec r n (p / 2 ^ 2 ^ reW r)
    rw [elems]
    refine ⟨by rw [List.length_cons, h1], fun i hi => ?_⟩
    cases i with
    | zero => rw [Nat.zero_mul, Nat.pow_zero, Nat.div_one, bits_eq]; rfl
    | succ i =>
      rw [List.getElem_cons_succ, h2 i (by simpa using hi), bits_eq, Nat.div_div_eq_div_mul, ← Nat.pow_add,
        Nat.add_mul, Nat.one_mul, Nat.add_comm (2 ^ reW r)]

/-! ### Objects -/

theorem applyC_append (C : Callee) : ∀ (l1 l2 : List Obj) (k : Nat),
    applyC C k (l1 ++ l2) = applyC C k l1 ++ applyC C (k + l1.length) l2
  | [], l2, k => rfl
  | o :: l1, l2, k => by
    have ih := applyC_append C l1 l2 (k + 1)
    have e : k + (o :: l1).length = k + 1 + l1.length := by rw [List.length_cons]; omega
    rw [e]
    cases o <;> rw [List.cons_append, applyC, applyC, ih, List.cons_append]

theorem applyC_length (C : Callee) : ∀ (l : List Obj) (k : Nat), (applyC C k l).length = l.length
  | [], k => rfl
  | o :: l, k => by
    have ih := applyC_length C l (k + 1)
    cases o <;> rw [applyC, List.length_cons, ih, List.length_cons]

section
variable (F : F32) (junk : Nat) (addr : Nat → BitVec 64) (init : Nat → Mem)

theorem genPtr_obj (len : Option Nat) (e : Ty) (v : V) (m m' : Mem) (os os' : List Obj) (a : Int)
    (h : genPtr F junk addr init len e v m os a = some (m', os')) :
    (∃ xs b, v = .arr xs ∧ os' = os ++ [.buf xs.length b] ∧ fill F junk e xs 0 (init os.length) = some b ∧
      (∀ n, len = some n → xs.length = n)) ∨
    (∃ p t, v = .ptr p t ∧ os' = os ++ [.ns p t]) := by
  unfold genPtr at h
  cases v with
  | ptr p t =>
    right
    dsimp only at h
    by_cases ht : tyEqual t e = true
    · rw [if_pos ht] at h
      injection h with h
      injection h with _ h
      exact ⟨p, t, rfl, h.symm⟩
    · rw [if_neg ht] at h; exact nomatch h
  | arr xs =>
    left
    dsimp only at h
    by_cases hl : len ≠ none ∧ len ≠ some xs.length
    · rw [if_pos hl] at h; exact nomatch h
    · rw [if_neg hl] at h
      by_cases he : elemOk e = false
      · rw [if_pos he] at h; exact nomatch h
      · rw [if_neg he] at h
        cases hf : fill F junk e xs 0 (init os.length) with
        | none => rw [hf] at h; exact nomatch h
        | some b =>
          rw [hf] at h
          injection h with h
          injection h with _ h
          refine ⟨xs, b, rfl, h.symm, hf, fun n hn => ?_⟩
          subst hn
          by_cases hx : xs.length = n
          · exact hx
          · exact absurd ⟨nofun, fun hc => hx (by injection hc with hc; exact hc.symm)⟩ hl
  | _ => exact nomatch h

mutual
theorem genS_count : ∀ (t : Ty) (v : V) (m m' : Mem) (os os' : List Obj) (a : Int),
    genS F junk addr init t v m os a = some (m', os') → ∃ new, os' = os ++ new ∧ new.length = count t
  | .void, v, m, m', os, os', a, h => by rw [genS] at h; exact nomatch h
  | .sc s, v, m, m', os, os', a, h => by
    rw [genS] at h
    cases hg : genObj F junk (.sc s) v m a with
    | fail _ => rw [hg] at h; exact nomatch h
    | done _ =>
      rw [hg] at h
      injection h with h
      injection h with _ h
      exact ⟨[], by rw [List.append_nil]; exact h.symm, by rw [count]; rfl; exact nofun; exact nofun⟩
  | .repr b r, v, m, m', os, os', a, h => by
    rw [genS] at h
    cases hg : genObj F junk (.repr b r) v m a with
    | fail _ => rw [hg] at h; exact nomatch h
    | done _ =>
      rw [hg] at h
      injection h with h
      injection h with _ h
      exact ⟨[], by rw [List.append_nil]; exact h.symm, by rw [count]; rfl; exact nofun; exact nofun⟩
  | .ptr e, v, m, m', os, os', a, h => by
    rw [genS] at h
    rw [count]
    rcases genPtr_obj F junk addr init none e v m m' os os' a h with ⟨_, _, _, h1, _⟩ | ⟨_, _, _, h1⟩ <;>
      exact ⟨_, h1, rfl⟩
  | .agg k n fs, v, m, m', os, os', a, h => by
    cases v with
    | arr xs =>
      rw [genS] at h
      rw [count]
      by_cases hl : xs.length = fs.len
      · rw [if_pos hl] at h
        exact genSs_count fs xs m m' os os' a hl h
      · rw [if_neg hl] at h; exact nomatch h
    | _ => rw [genS] at h; exact nomatch h; exact nofun
theorem genSs_count : ∀ (fs : Flds) (xs : List V) (m m' : Mem) (os os' : List Obj) (a : Int),
    xs.length = fs.len → genSs F junk addr init fs xs m os a = some (m', os') →
    ∃ new, os' = os ++ new ∧ new.length = counts fs
  | .nil, xs, m, m', os, os', a, hl, h => by
    rw [genSs] at h
    · injection h with h
      injection h with _ h
      exact ⟨[], by rw [List.append_nil]; exact h.symm, by rw [counts]; rfl⟩
    · exact nofun
  | .cons off t rest, [], m, m', os, os', a, hl, h => by rw [Flds.len] at hl; exact nomatch hl
  | .cons off t rest, x :: xs, m, m', os, os', a, hl, h => by
    rw [genSs] at h
    cases hg : genS F junk addr init t x m os (a + off) with
    | none => rw [hg] at h; exact nomatch h
    | some mo =>
      obtain ⟨m1, o1⟩ := mo
      rw [hg] at h
      obtain ⟨n1, e1, c1⟩ := genS_count t x m m1 os o1 _ hg
      obtain ⟨n2, e2, c2⟩ := genSs_count rest xs m1 m' o1 os' a
        (by rw [Flds.len, List.length_cons] at hl; omega) h
      refine ⟨n1 ++ n2, ?_, ?_⟩
      · rw [e2, e1, List.append_assoc]
      · rw [List.length_append, c1, c2, counts]
end

end

mutual
theorem skip_append : ∀ (t : Ty) (l A : List Obj), l.length = count t → skip t (l ++ A) = some A
  | .ptr e, l, A, h => by
    rw [count] at h
    obtain ⟨o, rfl⟩ := List.length_eq_one_iff.1 h
    rw [List.singleton_append, skip]
  | .agg _ _ fs, l, A, h => by
    rw [count] at h
    rw [skip]
    exact skips_append fs l A h
  | .void, l, A, h => by
    rw [count] at h
    · rw [List.eq_nil_of_length_eq_zero h, List.nil_append, skip]
      exact nofun
      exact nofun
    · exact nofun
    · exact nofun
  | .sc s, l, A, h => by
    rw [count] at h
    · rw [List.eq_nil_of_length_eq_zero h, List.nil_append, skip]
      exact nofun
      exact nofun
    · exact nofun
    · exact nofun
  | .repr b r, l, A, h => by
    rw [count] at h
    · rw [List.eq_nil_of_length_eq_zero h, List.nil_append, skip]
      exact nofun
      exact nofun
    · exact nofun
    · exact nofun
theorem skips_append : ∀ (fs : Flds) (l A : List Obj), l.length = counts fs → skips fs (l ++ A) = some A
  | .nil, l, A, h => by
    rw [counts] at h
    rw [List.eq_nil_of_length_eq_zero h, List.nil_append, skips]
  | .cons off t rest, l, A, h => by
    rw [counts] at h
    have h1 : (l.take (count t)).length = count t := by rw [List.length_take]; omega
    have h2 : (l.drop (count t)).length = counts rest := by rw [List.length_drop]; omega
    have h3 : l ++ A = l.take (count t) ++ (l.drop (count t) ++ A) := by
      rw [← List.append_assoc, List.take_append_drop]
    rw [skips, h3, skip_append t _ _ h1]
    exact skips_append rest _ _ h2
end

end Verif.FfiCall
