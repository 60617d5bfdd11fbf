import Verif.Repeat.Lemmas
/-!
# Repeat does what it should
-/
namespace Verif.Repeat
variable {X : Type} {m : Type → Type}

/-- The memory after both loops. -/
def filled (x : X) (min max : Nat) (neg pos : List X) : List (Option X) :=
  putAll (fun i => min + (i + 1)) 0 pos (putAll (fun i => min - 1 - i) 0 neg ((List.replicate (min + max + 1) none).set min (some x)))

theorem filled_get (x : X) (min max : Nat) (neg pos : List X) (hn : neg.length = min) (hp : pos.length = max) (i : Int) (h1 : -(min : Int) ≤ i) (h2 : i ≤ max) :
    lookup (filled x min max neg pos) min i = some (result x neg pos i) := by
  rw [lookup, if_pos (by omega), result, filled]
  have hlen : (putAll (fun i => min - 1 - i) 0 neg ((List.replicate (min + max + 1) none).set min (some x))).length = min + max + 1 := by
    rw [putAll_length, List.length_set, List.length_replicate]
  by_cases h : i < 0
  · rw [if_pos h]
    obtain ⟨k, hk⟩ : ∃ k : Nat, i = -(k + 1 : Int) := ⟨(-i).toNat - 1, by omega⟩
    subst hk
    have hkl : k < neg.length := by omega
    rw [putAll_other _ _ _ _ _ (fun j hj => by omega)]
    have := putAll_get (fun i => min - 1 - i) neg 0 ((List.replicate (min + max + 1) none).set min (some x)) k neg[k] (List.getElem?_eq_getElem hkl)
      (fun j hj => by rw [List.length_set, List.length_replicate]; omega) (fun j j' _ _ => by omega)
    rw [show ((min : Int) + -(k + 1)).toNat = min - 1 - (0 + k) by omega, this, show (- -((k : Int) + 1)).toNat - 1 = k by omega, List.getD_eq_getElem?_getD, List.getElem?_eq_getElem hkl]
    rfl
  · rw [if_neg h]
    obtain ⟨k, hk⟩ : ∃ k : Nat, i = k := ⟨i.toNat, by omega⟩
    subst hk
    rw [show ((min : Int) + k).toNat = min + k by omega, show (k : Int).toNat = k by omega]
    cases k with
    | zero =>
      rw [putAll_other _ _ _ _ _ (fun j hj => by omega), putAll_other _ _ _ _ _ (fun j hj => by omega)]
      rw [show min + 0 = min from rfl, List.getElem?_set_self (by rw [List.length_replicate]; omega)]
      rfl
    | succ k =>
      have hkl : k < pos.length := by omega
      have := putAll_get (fun i => min + (i + 1)) pos 0 _ k pos[k] (List.getElem?_eq_getElem hkl) (fun j hj => by rw [hlen]; omega) (fun j j' _ _ => by omega)
      rw [Nat.zero_add] at this
      rw [this, List.getD_cons_succ, List.getD_eq_getElem?_getD, List.getElem?_eq_getElem hkl]
      rfl

/-- Integers of 64 bits. -/
def Words (g : G) : Prop := ∀ l, g.ints = some l → ∀ i ∈ l, -2^63 ≤ i ∧ i < 2^63

theorem several_eq [Monad m] [LawfulMonad m] (fail undef : ∀ α, m α) (f undo : X → m X) (g : G) (hg : Words g) (x : X) :
    several fail undef f undo g x = match g.ints with
      | none => fail _
      | some l =>
        if (l.all fun i => -2^48 < i && i < 2^48) = true then do
          let neg ← chain undo (most (l.map fun i => (-i).toNat)) x
          let pos ← chain f (most (l.map Int.toNat)) x
          pure (g.replace (result x neg pos))
        else fail _ := by
  rw [several, bounds_eq]
  cases hl : g.ints with
  | none => rfl
  | some l =>
    have hw := hg l hl
    have hf := fold_eq l 0 0
    rw [show (-((0 : Nat) : Int)) = 0 from rfl, show (((0 : Nat) : Int)) = 0 from rfl] at hf
    dsimp only [Option.map]
    rw [hf]
    dsimp only
    change (if outside (-((most (l.map fun i => (-i).toNat) : Nat) : Int)) ((most (l.map Int.toNat) : Nat) : Int) = true then _ else both undef f undo g x (- -((most (l.map fun i => (-i).toNat) : Nat) : Int)).toNat ((most (l.map Int.toNat) : Nat) : Int).toNat) = _
    have hlo : most (l.map fun i => (-i).toNat) ≤ 2^63 := by
      rw [most_le]; intro i hi; obtain ⟨j, hj, rfl⟩ := List.mem_map.mp hi; have := hw j hj; omega
    have hhi : most (l.map Int.toNat) ≤ 2^63 - 1 := by
      rw [most_le]; intro i hi; obtain ⟨j, hj, rfl⟩ := List.mem_map.mp hi; have := hw j hj; omega
    have hlo' := (most_le (l.map fun i => (-i).toNat) _).mp (Nat.le_refl _)
    have hhi' := (most_le (l.map Int.toNat) _).mp (Nat.le_refl _)
    have hlo48 := most_le (l.map fun i => (-i).toNat) (2^48 - 1)
    have hhi48 := most_le (l.map Int.toNat) (2^48 - 1)
    generalize most (l.map fun i => (-i).toNat) = lo at *
    generalize most (l.map Int.toNat) = hi at *
    rw [outside_eq lo hi hlo (by omega), Int.neg_neg, show ((lo : Int)).toNat = lo from rfl, show ((hi : Int)).toNat = hi from rfl]
    have hall : (l.all fun i => -2^48 < i && i < 2^48) = decide (lo < 2^48 ∧ hi < 2^48) := by
      rw [Bool.eq_iff_iff, List.all_eq_true, decide_eq_true_iff]
      constructor
      · intro h
        constructor
        · have : lo ≤ 2^48 - 1 := hlo48.mpr fun i hi => by
            obtain ⟨j, hj, rfl⟩ := List.mem_map.mp hi
            have := h j hj
            simp only [Bool.and_eq_true, decide_eq_true_iff] at this
            omega
          omega
        · have : hi ≤ 2^48 - 1 := hhi48.mpr fun i hi => by
            obtain ⟨j, hj, rfl⟩ := List.mem_map.mp hi
            have := h j hj
            simp only [Bool.and_eq_true, decide_eq_true_iff] at this
            omega
          omega
      · rintro ⟨h1, h2⟩ i hi
        have a := hlo' _ (List.mem_map.mpr ⟨i, hi, rfl⟩)
        have b := hhi' _ (List.mem_map.mpr ⟨i, hi, rfl⟩)
        simp only [Bool.and_eq_true, decide_eq_true_iff]
        omega
    rw [hall]
    by_cases h : lo < 2^48 ∧ hi < 2^48
    · rw [decide_eq_true h, if_neg (by decide), if_pos rfl]
      have e0 : ∀ mem, below undo x lo mem = chain undo lo x >>= fun l => pure (putAll (fun i => lo - 1 - i) 0 l mem) := by
        intro mem
        rw [below]
        by_cases h0 : lo = 0
        · subst h0
          rw [if_neg (by simp), chain, pure_bind]; rfl
        · rw [if_pos h0, store_eq]
      rw [both, e0, bind_assoc]
      refine chain_bind undo lo x _ _ fun neg hneg => ?_
      rw [pure_bind, above, store_eq, bind_assoc]
      refine chain_bind f hi x _ _ fun pos hpos => ?_
      rw [pure_bind]
      have := replace_eq (filled x lo hi neg pos) lo (result x neg pos) g l hl fun i hi' => filled_get x lo hi neg pos hneg hpos i
        (by have := hlo' _ (List.mem_map.mpr ⟨i, hi', rfl⟩); omega) (by have := hhi' _ (List.mem_map.mpr ⟨i, hi', rfl⟩); omega)
      rw [filled] at this
      rw [this]
    · rw [decide_eq_false h, if_pos (by decide), if_neg (by decide)]

theorem given_eq [Monad m] [LawfulMonad m] (fail undef : ∀ α, m α) (f undo : X → m X) (x : X) (gv : G) (hw : Words gv) :
    given fail undef f undo x gv = match gv.ints with
      | none => fail (R X)
      | some l =>
        if allowed gv l then do
          let neg ← chain undo (most (l.map fun i => (-i).toNat)) x
          let pos ← chain f (most (l.map Int.toNat)) x
          pure (gv.replace (result x neg pos))
        else fail _ := by
  cases gv with
  | num n =>
    cases n with
    | none => rfl
    | some i =>
      rw [given]
      by_cases h : i ≥ 0
      · rw [if_pos h, G.ints]
        dsimp only [Option.map]
        rw [if_pos (by simp [allowed]; omega), times_eq, bind_assoc]
        have e1 : most ([i].map fun i => (-i).toNat) = 0 := by simp [most]; omega
        have e2 : most ([i].map Int.toNat) = i.toNat := by simp [most]
        rw [e1, e2, chain, pure_bind]
        refine chain_bind f _ x _ _ fun pos hpos => ?_
        rw [pure_bind, G.replace, result, if_neg (by simp; omega)]
        rfl
      · rw [if_neg h, several_eq fail undef f undo _ hw]
        have : allowed (.num (some i)) [i] = [i].all fun i => -2^48 < i && i < 2^48 := by
          simp only [allowed, List.all_cons, List.all_nil, Bool.and_true]
          rw [Bool.eq_iff_iff]
          simp only [Bool.or_eq_true, Bool.and_eq_true, decide_eq_true_iff]
          omega
        rw [G.ints]
        dsimp only [Option.map]
        rw [this]
  | other => exact several_eq fail undef f undo _ hw x
  | bits sh bs => exact several_eq fail undef f undo _ hw x
  | nums sh ns => exact several_eq fail undef f undo _ hw x
  | boxed sh gs => exact several_eq fail undef f undo _ hw x

mutual
theorem replace_congr (h h' : Int → X) : ∀ (g : G) (l : List Int), g.ints = some l → (∀ i ∈ l, h i = h' i) → g.replace h = g.replace h'
  | .num none, l, e, _ => by rw [G.ints] at e; cases e
  | .num (some c), l, e, hl => by
    rw [G.ints] at e
    cases e
    rw [G.replace, G.replace]
    show R.val (h c) = R.val (h' c)
    rw [hl c List.mem_cons_self]
  | .other, l, e, _ => by rw [G.ints] at e; cases e
  | .bits sh bs, l, e, hl => by
    rw [G.ints] at e
    cases e
    rw [G.replace, G.replace]
    congr 1
    exact List.map_congr_left fun c hc => by rw [hl _ (List.mem_map.mpr ⟨c, hc, rfl⟩)]
  | .nums sh ns, l, e, hl => by
    rw [G.ints] at e
    rw [G.replace, G.replace]
    congr 1
    induction ns generalizing l with
    | nil => rfl
    | cons c cs ih =>
      rw [List.mapM_cons] at e
      cases c with
      | none => cases e
      | some c =>
        cases hk : cs.mapM id with
        | none => rw [hk] at e; cases e
        | some k =>
          rw [hk] at e
          cases e
          rw [List.map_cons, List.map_cons, ih k hk (fun d hd => hl d (List.mem_cons_of_mem _ hd))]
          show R.val (h c) :: _ = R.val (h' c) :: _
          rw [hl c List.mem_cons_self]
  | .boxed sh gs, l, e, hl => by
    rw [G.ints] at e
    rw [G.replace, G.replace, replaceL_congr h h' gs l e hl]
theorem replaceL_congr (h h' : Int → X) : ∀ (gs : List G) (l : List Int), intsL gs = some l → (∀ i ∈ l, h i = h' i) → replaceL h gs = replaceL h' gs
  | [], _, _, _ => by rw [replaceL, replaceL]
  | g :: gs, l, e, hl => by
    rw [intsL] at e
    cases ha : g.ints with
    | none => rw [ha] at e; cases e
    | some a =>
      cases hb : intsL gs with
      | none => rw [ha, hb] at e; cases e
      | some b =>
        rw [ha, hb] at e
        cases e
        rw [replaceL, replaceL, replace_congr h h' g a ha fun i hi => hl i (List.mem_append_left _ hi), replaceL_congr h h' gs b hb fun i hi => hl i (List.mem_append_right _ hi)]
end

end Verif.Repeat
