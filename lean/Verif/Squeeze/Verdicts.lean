import Verif.Squeeze.Conv
/-!
# Squeezing: every decision is the least type
-/
namespace Verif.Squeeze
open Verif.Bins (ofInt)

theorem gt_iff {a b : BitVec 32} : (a > b) ↔ b.toNat < a.toNat := BitVec.lt_def

theorem foldl_append_or (ms : List (BitVec 32)) (o : BitVec 32) : orAll (o :: ms) = ms.foldl (· ||| ·) o := by
  unfold orAll
  rw [List.foldl_cons, BitVec.zero_or]

/-- `mostI32` of the OR of the masks is the least type. -/
theorem mostI32_least {xs : List (BitVec 32)} (hne : xs ≠ []) :
    Least (mostI32 (orAll (xs.map mask))) (xs.map fun x => .num (ofInt x.toInt)) := by
  have hz : (orAll (xs.map mask)).toNat < 2^0 ↔ ∀ x ∈ xs, 0 ≤ x.toInt ∧ x.toInt ≤ 1 := by
    rw [orAll_lt]
    constructor
    · exact fun h x hx => mask_zero.1 (by have := h _ (List.mem_map_of_mem hx); omega)
    · intro h m hm; obtain ⟨x, hx, rfl⟩ := List.mem_map.1 hm; have := mask_zero.2 (h x hx); omega
  have h8 : (orAll (xs.map mask)).toNat < 2^7 ↔ ∀ x ∈ xs, -128 ≤ x.toInt ∧ x.toInt ≤ 127 := by
    rw [orAll_lt]
    constructor
    · exact fun h x hx => mask_8.1 (h _ (List.mem_map_of_mem hx))
    · intro h m hm; obtain ⟨x, hx, rfl⟩ := List.mem_map.1 hm; exact mask_8.2 (h x hx)
  have h16 : (orAll (xs.map mask)).toNat < 2^15 ↔ ∀ x ∈ xs, -32768 ≤ x.toInt ∧ x.toInt ≤ 32767 := by
    rw [orAll_lt]
    constructor
    · exact fun h x hx => mask_16.1 (h _ (List.mem_map_of_mem hx))
    · intro h m hm; obtain ⟨x, hx, rfl⟩ := List.mem_map.1 hm; exact mask_16.2 (h x hx)
  generalize orAll (xs.map mask) = o at *
  have hl : ∀ t : El, t.rank ≤ 3 → (∀ x ∈ xs, lo t ≤ x.toInt ∧ x.toInt ≤ hi t) →
      (∀ u : El, u.rank < t.rank → ¬ ∀ x ∈ xs, lo u ≤ x.toInt ∧ x.toInt ≤ hi u) →
      Least t (xs.map fun x => .num (ofInt x.toInt)) := by
    intro t ht h hm
    have := least_ints (t := t) (is := xs.map (·.toInt)) ht (by simpa using hne)
      (by intro i hi; obtain ⟨x, hx, rfl⟩ := List.mem_map.1 hi; exact h x hx)
      (by
        intro u hu
        apply Classical.byContradiction
        intro hc
        refine hm u hu fun x hx => ?_
        apply Classical.byContradiction
        intro hn
        exact hc ⟨_, List.mem_map_of_mem hx, hn⟩)
    rw [List.map_map] at this
    exact this
  have c127 : (127#32).toNat = 127 := rfl
  have c32767 : (32767#32).toNat = 32767 := rfl
  have c0 : (0#32).toNat = 0 := rfl
  unfold mostI32 mostI16 mostI8
  split
  · rename_i h
    rw [gt_iff] at h
    refine hl .i32 (by decide) (fun x _ => range32 x) fun u hu => ?_
    have n0 : ¬ o.toNat < 2^0 := by omega
    have n8 : ¬ o.toNat < 2^7 := by omega
    have n16 : ¬ o.toNat < 2^15 := by omega
    rw [hz] at n0; rw [h8] at n8; rw [h16] at n16
    cases u <;> first | exact n0 | exact n8 | exact n16 | exact absurd hu (by decide)
  · rename_i h
    rw [gt_iff] at h
    split
    · rename_i h'
      rw [gt_iff] at h'
      refine hl .i16 (by decide) (h16.1 (by omega)) fun u hu => ?_
      have n0 : ¬ o.toNat < 2^0 := by omega
      have n8 : ¬ o.toNat < 2^7 := by omega
      rw [hz] at n0; rw [h8] at n8
      cases u <;> first | exact n0 | exact n8 | exact absurd hu (by decide)
    · rename_i h'
      rw [gt_iff] at h'
      split
      · rename_i h''
        rw [gt_iff] at h''
        refine hl .i8 (by decide) (h8.1 (by omega)) fun u hu => ?_
        have n0 : ¬ o.toNat < 2^0 := by omega
        rw [hz] at n0
        cases u <;> first | exact n0 | exact absurd hu (by decide)
      · rename_i h''
        rw [gt_iff] at h''
        refine hl .bit (by decide) (hz.1 (by omega)) fun u hu => ?_
        exact absurd hu (Nat.not_lt_zero _)

/-- A decision is right: kept arrays already have the least type, copies get it. -/
def Right (d : Data) : Verdict → Prop
  | .squeezed => Least d.ty d.elems
  | .copy t => Least t d.elems
  | .keep => True

theorem squeezeI32_right {xs : List (BitVec 32)} (hne : xs ≠ []) : Right (.i32 xs) (squeezeI32 xs) := by
  have h := mostI32_least hne
  unfold squeezeI32
  dsimp only
  unfold mostI32 at h
  split
  · rename_i hg; rw [if_pos hg] at h; exact h
  · rename_i hg; rw [if_neg hg] at h; exact h

theorem squeezeI16_right {xs : List (BitVec 16)} (hne : xs ≠ []) : Right (.i16 xs) (squeezeI16 xs) := by
  have e : ∀ x : BitVec 16, (x.signExtend 32).toInt = x.toInt := fun x => by
    rw [BitVec.toInt_signExtend, show min 32 16 = 16 from rfl, BitVec.toInt_bmod_cancel]
  have h := mostI32_least (xs := xs.map (·.signExtend 32)) (by simpa using hne)
  rw [List.map_map, List.map_map] at h
  have e1 : ((fun x : BitVec 32 => Val.num (ofInt x.toInt)) ∘ fun x : BitVec 16 => x.signExtend 32) = fun x => .num (ofInt x.toInt) := by
    funext x; show Val.num (ofInt (x.signExtend 32).toInt) = _; rw [e]
  rw [e1] at h
  have e2 : (mask ∘ fun x : BitVec 16 => x.signExtend 32) = fun x => mask (x.signExtend 32) := rfl
  rw [e2] at h
  have hle : (orAll (xs.map fun x => mask (x.signExtend 32))).toNat < 2^15 := by
    rw [orAll_lt]
    intro m hm
    obtain ⟨x, _, rfl⟩ := List.mem_map.1 hm
    rw [mask_16, e]
    exact range16 x
  have hn : ¬ orAll (xs.map fun x => mask (x.signExtend 32)) > 32767#32 := by
    rw [gt_iff]
    have : (32767#32).toNat = 32767 := rfl
    omega
  unfold squeezeI16
  dsimp only
  unfold mostI32 mostI16 at h
  rw [if_neg hn] at h
  split
  · rename_i hg; rw [if_pos hg] at h; exact h
  · rename_i hg; rw [if_neg hg] at h; exact h

theorem squeezeI8_right {xs : List (BitVec 8)} (hne : xs ≠ []) : Right (.i8 xs) (squeezeI8 xs) := by
  have hb : (orAll (xs.map (·.setWidth 32))).toNat < 2^1 ↔ ∀ x ∈ xs, 0 ≤ x.toInt ∧ x.toInt ≤ 1 := by
    rw [orAll_lt]
    have one : ∀ x : BitVec 8, (x.setWidth 32).toNat < 2^1 ↔ 0 ≤ x.toInt ∧ x.toInt ≤ 1 := by
      intro x
      have := x.isLt
      rw [BitVec.toNat_setWidth, BitVec.toInt_eq_toNat_bmod, Int.bmod_def]
      omega
    constructor
    · exact fun h x hx => (one x).1 (h _ (List.mem_map_of_mem hx))
    · intro h m hm; obtain ⟨x, hx, rfl⟩ := List.mem_map.1 hm; exact (one x).2 (h x hx)
  have c1 : (1#32).toNat = 1 := rfl
  have go : ∀ t : El, t.rank ≤ 3 → (∀ x ∈ xs, lo t ≤ x.toInt ∧ x.toInt ≤ hi t) →
      (∀ u : El, u.rank < t.rank → ∃ x ∈ xs, ¬ (lo u ≤ x.toInt ∧ x.toInt ≤ hi u)) →
      Least t (xs.map fun x => .num (ofInt x.toInt)) := by
    intro t ht h hm
    have := least_ints (t := t) (is := xs.map (·.toInt)) ht (by simpa using hne)
      (by intro i hi; obtain ⟨x, hx, rfl⟩ := List.mem_map.1 hi; exact h x hx)
      (by intro u hu; obtain ⟨x, hx, hn⟩ := hm u hu; exact ⟨_, List.mem_map_of_mem hx, hn⟩)
    rw [List.map_map] at this
    exact this
  unfold squeezeI8
  split
  · rename_i h
    rw [gt_iff] at h
    refine go .i8 (by decide) (fun x _ => range8 x) fun u hu => ?_
    have hu : u = .bit := by cases u <;> first | rfl | exact absurd hu (by decide)
    subst hu
    have n : ¬ (orAll (xs.map (·.setWidth 32))).toNat < 2^1 := by omega
    rw [hb] at n
    apply Classical.byContradiction
    intro hc
    refine n fun x hx => ?_
    apply Classical.byContradiction
    exact fun hn => hc ⟨x, hx, hn⟩
  · rename_i h
    rw [gt_iff] at h
    exact go .bit (by decide) (hb.1 (by omega)) fun u hu => absurd hu (Nat.not_lt_zero _)

theorem holds_up {u : El} (hu : u.rank ≤ 3) {v : Val} (h : Holds u v) : Holds .i32 v := by
  obtain ⟨i, a, b, s⟩ := (holds_int hu).1 h
  refine ⟨i, ?_, ?_, s⟩
  · have : -2147483648 ≤ lo u := by cases u <;> decide
    omega
  · have : hi u ≤ 2147483647 := by cases u <;> decide
    omega

theorem holds_num {u : El} (hu : u.rank ≤ 4) {v : Val} (h : Holds u v) : ∃ f, v = .num f := by
  rcases Nat.lt_or_ge u.rank 4 with hl | hg
  · exact intIn_num (holds_up (by omega) h)
  · have : u = .f64 := by cases u <;> first | rfl | exact absurd hu (by decide) | exact absurd hg (by decide)
    subst this
    exact h

/-- Numbers, not all of them 32-bit integers. -/
theorem least_f64 {fs : List (BitVec 64)} (h : ∃ f ∈ fs, ¬ Holds .i32 (.num f)) : Least .f64 (fs.map .num) := by
  obtain ⟨f, hf, hn⟩ := h
  constructor
  · intro v hv; obtain ⟨g, _, rfl⟩ := List.mem_map.1 hv; exact ⟨g, rfl⟩
  · intro u hu
    rcases Nat.lt_or_ge u.rank 4 with hl | hg
    · exact absurd (holds_up (by omega) (hu _ (List.mem_map_of_mem hf))) hn
    · exact hg

/-- Numbers that are all 32-bit integers. -/
theorem least_i32s {bad : BitVec 64 → BitVec 32} {fs : List (BitVec 64)} (hne : fs ≠ []) (h : ∀ f ∈ fs, qI32 bad f = true) :
    Least (mostI32 (orAll (fs.map fun f => mask (toI32 bad f)))) (fs.map .num) := by
  have := mostI32_least (xs := fs.map (toI32 bad)) (by simpa using hne)
  rw [List.map_map] at this
  exact this.same (Sames.map fun f hf => (qI32_same (h f hf)).symm)

theorem squeezeF64_all {bad : BitVec 64 → BitVec 32} : ∀ (fs : List (BitVec 64)) (o : BitVec 32), (∀ f ∈ fs, qI32 bad f = true) →
    squeezeF64 bad o fs = .copy (mostI32 ((fs.map fun f => mask (toI32 bad f)).foldl (· ||| ·) o))
  | [], o, _ => rfl
  | f :: fs, o, h => by
    rw [squeezeF64, if_pos (h f List.mem_cons_self), squeezeF64_all fs _ fun g hg => h g (List.mem_cons_of_mem _ hg)]
    rfl

theorem squeezeF64_not {bad : BitVec 64 → BitVec 32} : ∀ (fs : List (BitVec 64)) (o : BitVec 32), (∃ f ∈ fs, qI32 bad f = false) →
    squeezeF64 bad o fs = .squeezed
  | [], o, h => nomatch h
  | f :: fs, o, ⟨g, hg, hq⟩ => by
    rw [squeezeF64]
    cases h : qI32 bad f with
    | false => rfl
    | true =>
      rw [if_pos rfl]
      refine squeezeF64_not fs _ ⟨g, ?_, hq⟩
      rcases List.mem_cons.1 hg with rfl | hg
      · rw [h] at hq; exact nomatch hq
      · exact hg

theorem all_or {α : Type} (p : α → Bool) (fs : List α) : (∀ f ∈ fs, p f = true) ∨ ∃ f ∈ fs, p f = false := by
  cases h : fs.all p with
  | true => exact .inl (List.all_eq_true.1 h)
  | false =>
    refine .inr ?_
    obtain ⟨x, hx, hp⟩ := List.all_eq_false.1 h
    exact ⟨x, hx, by simpa using hp⟩

theorem squeezeF64_right {bad : BitVec 64 → BitVec 32} {fs : List (BitVec 64)} (hne : fs ≠ []) :
    Right (.f64 fs) (squeezeF64 bad 0#32 fs) := by
  rcases all_or (qI32 bad) fs with h | h
  · rw [squeezeF64_all fs _ h]; exact least_i32s hne h
  · rw [squeezeF64_not fs _ h]
    obtain ⟨f, hf, hq⟩ := h
    exact least_f64 ⟨f, hf, fun hc => by rw [qI32_iff.2 hc] at hq; exact nomatch hq⟩

/-! ## Characters -/

/-- Least type of a list of characters. -/
theorem least_chrs {t : El} {cs : List (BitVec 32)} (hne : cs ≠ [])
    (ht : (t = .c8 ∧ ∀ c ∈ cs, c.toNat < 256) ∨ (t = .c16 ∧ (∀ c ∈ cs, c.toNat < 65536) ∧ ∃ c ∈ cs, ¬ c.toNat < 256) ∨
      (t = .c32 ∧ ∃ c ∈ cs, ¬ c.toNat < 65536)) : Least t (cs.map .chr) := by
  have nonum : ∀ u : El, (∀ v ∈ cs.map Val.chr, Holds u v) → 5 ≤ u.rank := by
    intro u hu
    cases cs with
    | nil => exact absurd rfl hne
    | cons c cs =>
      rcases Nat.lt_or_ge u.rank 5 with hl | hg
      · obtain ⟨f, e⟩ := holds_num (by omega) (hu (.chr c) List.mem_cons_self)
        exact nomatch e
      · exact hg
  constructor
  · intro v hv
    obtain ⟨c, hc, rfl⟩ := List.mem_map.1 hv
    rcases ht with ⟨rfl, h⟩ | ⟨rfl, h, _⟩ | ⟨rfl, _⟩
    · exact ⟨c, rfl, h c hc⟩
    · exact ⟨c, rfl, h c hc⟩
    · exact ⟨c, rfl⟩
  · intro u hu
    have h5 := nonum u hu
    rcases ht with ⟨rfl, h⟩ | ⟨rfl, _, c, hc, hn⟩ | ⟨rfl, c, hc, hn⟩
    · exact h5
    · have := hu _ (List.mem_map_of_mem hc)
      cases u with
      | c8 => obtain ⟨_, e, hl⟩ := this; cases e; exact absurd hl hn
      | c16 => decide
      | c32 => decide
      | B => decide
      | _ => exact absurd h5 (by decide)
    · have := hu _ (List.mem_map_of_mem hc)
      cases u with
      | c8 => obtain ⟨_, e, hl⟩ := this; cases e; omega
      | c16 => obtain ⟨_, e, hl⟩ := this; cases e; exact absurd hl hn
      | c32 => decide
      | B => decide
      | _ => exact absurd h5 (by decide)

theorem trunc_eq {n w : Nat} (hw : w ≤ n) (x : BitVec n) : (x != (x.setWidth w).setWidth n) = !decide (x.toNat < 2^w) := by
  have e : ((x.setWidth w).setWidth n).toNat = x.toNat % 2^w := by
    rw [BitVec.toNat_setWidth, BitVec.toNat_setWidth]
    exact Nat.mod_eq_of_lt (Nat.lt_of_le_of_lt (Nat.mod_le _ _) x.isLt)
  by_cases h : x.toNat < 2^w
  · have : x = (x.setWidth w).setWidth n := BitVec.eq_of_toNat_eq (by rw [e, Nat.mod_eq_of_lt h])
    rw [← this, decide_eq_true h]
    simp
  · have : x ≠ (x.setWidth w).setWidth n := by
      intro hc
      have := congrArg BitVec.toNat hc
      rw [e] at this
      have := Nat.mod_lt x.toNat (Nat.two_pow_pos w)
      omega
    rw [decide_eq_false h, bne_iff_ne.2 this]
    rfl

theorem ext16 (x : BitVec 16) : (x.zeroExtend 32).toNat = x.toNat := by
  show (x.setWidth 32).toNat = _
  rw [BitVec.toNat_setWidth]
  have := x.isLt
  omega

theorem squeezeC16_right {xs : List (BitVec 16)} (hne : xs ≠ []) : Right (.c16 xs) (squeezeC16 xs) := by
  have e : (Data.c16 xs).elems = (xs.map fun c => c.zeroExtend 32).map .chr := by rw [List.map_map]; rfl
  unfold squeezeC16
  split
  · rename_i h
    obtain ⟨x, hx, h⟩ := List.any_eq_true.1 h
    rw [trunc_eq (by decide)] at h
    unfold Right
    rw [e]
    refine least_chrs (by simpa using hne) (.inr (.inl ⟨rfl, ?_, ?_⟩))
    · intro c hc; obtain ⟨y, _, rfl⟩ := List.mem_map.1 hc; have := ext16 y; have := y.isLt; omega
    · refine ⟨_, List.mem_map_of_mem hx, ?_⟩
      rw [ext16]
      simpa using h
  · rename_i h
    unfold Right
    rw [e]
    refine least_chrs (by simpa using hne) (.inl ⟨rfl, ?_⟩)
    intro c hc
    obtain ⟨y, hy, rfl⟩ := List.mem_map.1 hc
    rw [ext16]
    apply Classical.byContradiction
    intro hn
    refine h (List.any_eq_true.2 ⟨y, hy, ?_⟩)
    rw [trunc_eq (by decide), decide_eq_false hn]
    rfl

theorem squeezeC32_eq : ∀ (xs : List (BitVec 32)) (b : Bool),
    squeezeC32 b xs = if ∀ x ∈ xs, x.toNat < 65536 then .copy (if b = true ∧ ∀ x ∈ xs, x.toNat < 256 then .c8 else .c16) else .squeezed
  | [], b => by
    rw [if_pos (fun _ h => nomatch h), squeezeC32]
    cases b
    · rw [if_neg (by decide), if_neg (fun h => nomatch h.1)]
    · rw [if_pos rfl, if_pos ⟨rfl, fun _ h => nomatch h⟩]
  | x :: xs, b => by
    rw [squeezeC32, trunc_eq (by decide), trunc_eq (by decide)]
    by_cases h : x.toNat < 2^16
    · rw [decide_eq_true h, if_neg (by decide), squeezeC32_eq xs]
      have e1 : (∀ y ∈ x :: xs, y.toNat < 65536) ↔ ∀ y ∈ xs, y.toNat < 65536 := by
        simp only [List.mem_cons, forall_eq_or_imp]
        exact and_iff_right h
      have e2 : (b = true ∧ ∀ y ∈ x :: xs, y.toNat < 256) ↔
          ((if (!decide (x.toNat < 2^8)) = true then false else b) = true ∧ ∀ y ∈ xs, y.toNat < 256) := by
        simp only [List.mem_cons, forall_eq_or_imp]
        by_cases h8 : x.toNat < 2^8
        · rw [decide_eq_true h8, if_neg (by decide)]
          constructor
          · exact fun ⟨a, _, c⟩ => ⟨a, c⟩
          · exact fun ⟨a, c⟩ => ⟨a, h8, c⟩
        · rw [decide_eq_false h8, if_pos (by decide)]
          constructor
          · exact fun ⟨_, a, _⟩ => absurd a h8
          · exact fun ⟨a, _⟩ => nomatch a
      simp only [e1, e2]
    · rw [decide_eq_false h, if_pos (by decide), if_neg]
      exact fun hc => h (hc x List.mem_cons_self)

theorem squeezeC32_right {xs : List (BitVec 32)} (hne : xs ≠ []) : Right (.c32 xs) (squeezeC32 true xs) := by
  rw [squeezeC32_eq]
  split
  · rename_i h
    split
    · rename_i h8; exact least_chrs hne (.inl ⟨rfl, h8.2⟩)
    · rename_i h8
      refine least_chrs hne (.inr (.inl ⟨rfl, h, ?_⟩))
      apply Classical.byContradiction
      intro hc
      refine h8 ⟨rfl, fun x hx => ?_⟩
      apply Classical.byContradiction
      exact fun hn => hc ⟨x, hx, hn⟩
  · rename_i h
    refine least_chrs hne (.inr (.inr ⟨rfl, ?_⟩))
    apply Classical.byContradiction
    intro hc
    refine h fun x hx => ?_
    apply Classical.byContradiction
    exact fun hn => hc ⟨x, hx, hn⟩

/-! ## Generic arrays -/

theorem least_B {vs : List Val} (hn : ¬ ∀ v ∈ vs, ∃ f, v = .num f) (hc : ¬ ∀ v ∈ vs, ∃ c, v = .chr c) : Least .B vs := by
  refine ⟨fun _ _ => trivial, fun u hu => ?_⟩
  rcases Nat.lt_or_ge u.rank 5 with hl | hg
  · exact absurd (fun v hv => holds_num (by omega) (hu v hv)) hn
  · cases u with
    | c8 => exact absurd (fun v hv => (hu v hv).imp fun _ => And.left) hc
    | c16 => exact absurd (fun v hv => (hu v hv).imp fun _ => And.left) hc
    | c32 => exact absurd hu hc
    | B => exact Nat.le_refl _
    | _ => exact absurd hg (by decide)

theorem isNum_iff {v : Val} : v.isNum = true ↔ ∃ f, v = .num f := by
  cases v with
  | num f => exact ⟨fun _ => ⟨f, rfl⟩, fun _ => rfl⟩
  | chr c => exact ⟨(fun h => nomatch h), (fun ⟨_, e⟩ => nomatch e)⟩
  | other c => exact ⟨(fun h => nomatch h), (fun ⟨_, e⟩ => nomatch e)⟩

theorem squeezeNumB_all {bad : BitVec 64 → BitVec 32} {b : Bool} : ∀ (fs : List (BitVec 64)) (o : BitVec 32), (∀ f ∈ fs, qI32 bad f = true) →
    squeezeNumB bad b o (fs.map .num) = .copy (mostI32 ((fs.map fun f => mask (toI32 bad f)).foldl (· ||| ·) o))
  | [], o, _ => rfl
  | f :: fs, o, h => by
    rw [List.map_cons, squeezeNumB, if_pos (show Val.qI32 bad (.num f) = true from h f List.mem_cons_self),
      squeezeNumB_all fs _ fun g hg => h g (List.mem_cons_of_mem _ hg)]
    rfl

theorem squeezeNumB_float {bad : BitVec 64 → BitVec 32} {b : Bool} : ∀ (fs : List (BitVec 64)) (o : BitVec 32), (∃ f ∈ fs, qI32 bad f = false) →
    squeezeNumB bad b o (fs.map .num) = .copy .f64
  | [], o, h => nomatch h
  | f :: fs, o, ⟨g, hg, hq⟩ => by
    rw [List.map_cons, squeezeNumB]
    cases h : qI32 bad f with
    | false =>
      rw [if_neg (show ¬ Val.qI32 bad (.num f) = true by rw [show Val.qI32 bad (.num f) = qI32 bad f from rfl, h]; decide), if_pos]
      rw [← List.map_cons, List.all_eq_true]
      intro v hv
      obtain ⟨g, _, rfl⟩ := List.mem_map.1 hv
      rfl
    | true =>
      rw [if_pos (show Val.qI32 bad (.num f) = true from h)]
      refine squeezeNumB_float fs _ ⟨g, ?_, hq⟩
      rcases List.mem_cons.1 hg with rfl | hg
      · rw [h] at hq; exact nomatch hq
      · exact hg

theorem squeezeNumB_not {bad : BitVec 64 → BitVec 32} {b : Bool} : ∀ (vs : List Val) (o : BitVec 32),
    (¬ ∀ v ∈ vs, ∃ f, v = .num f) → squeezeNumB bad b o vs = if b then .squeezed else .keep
  | [], _, h => absurd (fun _ hv => nomatch hv) h
  | v :: vs, o, h => by
    rw [squeezeNumB]
    by_cases hq : v.qI32 bad = true
    · rw [if_pos hq]
      refine squeezeNumB_not vs _ fun hc => h fun w hw => ?_
      rcases List.mem_cons.1 hw with rfl | hw
      · cases w with
        | num f => exact ⟨f, rfl⟩
        | chr => exact nomatch hq
        | other => exact nomatch hq
      · exact hc w hw
    · rw [if_neg hq, if_neg]
      rw [List.all_eq_true]
      exact fun hc => h fun w hw => isNum_iff.1 (hc w hw)

theorem squeezeNumB_right {bad : BitVec 64 → BitVec 32} {vs : List Val} (hne : vs ≠ []) (b : Bool)
    (hb : b = true → ¬ ∀ v ∈ vs, ∃ c, v = .chr c) : Right (.B vs) (squeezeNumB bad b 0#32 vs) := by
  by_cases h : ∀ v ∈ vs, ∃ f, v = .num f
  · obtain ⟨fs, _, rfl⟩ := nums_spec h
    have hne : fs ≠ [] := by simpa using hne
    rcases all_or (qI32 bad) fs with hq | hq
    · rw [squeezeNumB_all fs _ hq]; exact least_i32s hne hq
    · rw [squeezeNumB_float fs _ hq]
      obtain ⟨f, hf, hq⟩ := hq
      exact least_f64 ⟨f, hf, fun hc => by rw [qI32_iff.2 hc] at hq; exact nomatch hq⟩
  · rw [squeezeNumB_not vs _ h]
    cases b
    · exact trivial
    · exact least_B h (hb rfl)

theorem squeezeChrB_chrs {b : Bool} : ∀ (cs : List (BitVec 32)) (o : BitVec 32),
    squeezeChrB b o (cs.map .chr) =
      .copy (if cs.foldl (· ||| ·) o > 65535#32 then .c32 else if cs.foldl (· ||| ·) o > 255#32 then .c16 else .c8)
  | [], o => rfl
  | c :: cs, o => by rw [List.map_cons, squeezeChrB, squeezeChrB_chrs cs]; rfl

theorem squeezeChrB_not {b : Bool} : ∀ (vs : List Val) (o : BitVec 32),
    (¬ ∀ v ∈ vs, ∃ c, v = .chr c) → squeezeChrB b o vs = if b then .squeezed else .keep
  | [], _, h => absurd (fun _ hv => nomatch hv) h
  | .chr c :: vs, o, h => by
    rw [squeezeChrB]
    refine squeezeChrB_not vs _ fun hc => h fun w hw => ?_
    rcases List.mem_cons.1 hw with rfl | hw
    · exact ⟨c, rfl⟩
    · exact hc w hw
  | .num f :: vs, o, _ => rfl
  | .other f :: vs, o, _ => rfl

theorem squeezeChrB_right {vs : List Val} (hne : vs ≠ []) (b : Bool)
    (hb : b = true → ¬ ∀ v ∈ vs, ∃ f, v = .num f) : Right (.B vs) (squeezeChrB b 0#32 vs) := by
  by_cases h : ∀ v ∈ vs, ∃ c, v = .chr c
  · obtain ⟨cs, _, rfl⟩ := chrs_spec h
    have hne : cs ≠ [] := by simpa using hne
    rw [squeezeChrB_chrs]
    have h16 := orAll_lt (k := 16) cs
    have h8 := orAll_lt (k := 8) cs
    unfold orAll at h16 h8
    have c1 : (65535#32).toNat = 65535 := rfl
    have c2 : (255#32).toNat = 255 := rfl
    generalize cs.foldl (· ||| ·) 0#32 = o at *
    have ex : ∀ k, ¬ (∀ c ∈ cs, c.toNat < k) → ∃ c ∈ cs, ¬ c.toNat < k := by
      intro k hk
      apply Classical.byContradiction
      intro hc
      refine hk fun x hx => ?_
      apply Classical.byContradiction
      exact fun hn => hc ⟨x, hx, hn⟩
    split
    · rename_i hg
      rw [gt_iff] at hg
      exact least_chrs hne (.inr (.inr ⟨rfl, ex _ (fun hc => by have := h16.2 hc; omega)⟩))
    · rename_i hg
      rw [gt_iff] at hg
      split
      · rename_i hg'
        rw [gt_iff] at hg'
        exact least_chrs hne (.inr (.inl ⟨rfl, h16.1 (by omega), ex _ (fun hc => by have := h8.2 hc; omega)⟩))
      · rename_i hg'
        rw [gt_iff] at hg'
        exact least_chrs hne (.inl ⟨rfl, h8.1 (by omega)⟩)
  · rw [squeezeChrB_not vs _ h]
    cases b
    · exact trivial
    · exact least_B (hb rfl) h

theorem squeezeB_right {bad : BitVec 64 → BitVec 32} {vs : List Val} (hne : vs ≠ []) : Right (.B vs) (squeezeB bad vs) := by
  cases vs with
  | nil => exact absurd rfl hne
  | cons v vs =>
    cases v with
    | num f => exact squeezeNumB_right hne true fun _ h => by obtain ⟨c, e⟩ := h _ List.mem_cons_self; exact nomatch e
    | chr c => exact squeezeChrB_right hne true fun _ h => by obtain ⟨c, e⟩ := h _ List.mem_cons_self; exact nomatch e
    | other c =>
      exact least_B (fun h => by obtain ⟨c, e⟩ := h _ List.mem_cons_self; exact nomatch e)
        (fun h => by obtain ⟨c, e⟩ := h _ List.mem_cons_self; exact nomatch e)

/-! ## The smallest types -/

theorem least_bits {xs : List Bool} (hne : xs ≠ []) : Least .bit (Data.bit xs).elems :=
  ⟨elems_hold (.bit xs), fun _ _ => Nat.zero_le _⟩

theorem least_c8s {xs : List (BitVec 8)} (hne : xs ≠ []) : Least .c8 (Data.c8 xs).elems := by
  have e : (Data.c8 xs).elems = (xs.map fun c => c.zeroExtend 32).map .chr := by rw [List.map_map]; rfl
  rw [e]
  refine least_chrs (by simpa using hne) (.inl ⟨rfl, ?_⟩)
  intro c hc
  obtain ⟨y, _, rfl⟩ := List.mem_map.1 hc
  show (y.setWidth 32).toNat < 256
  rw [BitVec.toNat_setWidth]
  have := y.isLt
  omega

theorem empty_iff {d : Data} : d.empty = true ↔ d.elems = [] := List.isEmpty_iff

theorem anyFns_right {bad : BitVec 64 → BitVec 32} {d : Data} (hne : d.elems ≠ []) : Right d (anyFns bad d) := by
  cases d with
  | bit xs => exact least_bits (by simpa [Data.elems] using hne)
  | i8 xs => exact squeezeI8_right (by simpa [Data.elems] using hne)
  | i16 xs => exact squeezeI16_right (by simpa [Data.elems] using hne)
  | i32 xs => exact squeezeI32_right (by simpa [Data.elems] using hne)
  | f64 xs => exact squeezeF64_right (by simpa [Data.elems] using hne)
  | c8 xs => exact least_c8s (by simpa [Data.elems] using hne)
  | c16 xs => exact squeezeC16_right (by simpa [Data.elems] using hne)
  | c32 xs => exact squeezeC32_right (by simpa [Data.elems] using hne)
  | B xs => exact squeezeB_right (by simpa [Data.elems] using hne)

theorem numFns_right {bad : BitVec 64 → BitVec 32} {d : Data} (hne : d.elems ≠ []) : Right d (numFns bad d) := by
  cases d with
  | bit xs => exact least_bits (by simpa [Data.elems] using hne)
  | i8 xs => exact squeezeI8_right (by simpa [Data.elems] using hne)
  | i16 xs => exact squeezeI16_right (by simpa [Data.elems] using hne)
  | i32 xs => exact squeezeI32_right (by simpa [Data.elems] using hne)
  | f64 xs => exact squeezeF64_right (by simpa [Data.elems] using hne)
  | c8 xs => exact least_c8s (by simpa [Data.elems] using hne)
  | c16 xs => exact trivial
  | c32 xs => exact trivial
  | B xs => exact squeezeNumB_right (by simpa [Data.elems] using hne) false (fun h => nomatch h)

theorem chrFns_right {d : Data} (hne : d.elems ≠ []) : Right d (chrFns d) := by
  cases d with
  | bit xs => exact least_bits (by simpa [Data.elems] using hne)
  | i8 xs => exact trivial
  | i16 xs => exact trivial
  | i32 xs => exact trivial
  | f64 xs => exact trivial
  | c8 xs => exact least_c8s (by simpa [Data.elems] using hne)
  | c16 xs => exact squeezeC16_right (by simpa [Data.elems] using hne)
  | c32 xs => exact squeezeC32_right (by simpa [Data.elems] using hne)
  | B xs => exact squeezeChrB_right (by simpa [Data.elems] using hne) false (fun h => nomatch h)

end Verif.Squeeze
