import Verif.Repeat.Model
/-!
# Lemmas about Repeat
-/
namespace Verif.Repeat
variable {X : Type} {m : Type → Type}

theorem upd_eq (b : Bound) (c : Int) : upd b c = ⟨min b.lo c, max b.hi c⟩ := by
  obtain ⟨lo, hi⟩ := b
  rw [upd]
  by_cases h1 : c < lo <;> by_cases h2 : c > hi <;> simp only [h1, h2, if_true, if_false, Bound.mk.injEq] <;> constructor <;> omega

theorem widen_eq (b r : Bound) : widen b r = ⟨min b.lo r.lo, max b.hi r.hi⟩ := by
  obtain ⟨lo, hi⟩ := b
  obtain ⟨l, h⟩ := r
  rw [widen]
  by_cases h1 : l < lo <;> by_cases h2 : h > hi <;> simp only [h1, h2, if_true, if_false, Bound.mk.injEq] <;> constructor <;> omega

theorem rangeLoop_eq : ∀ (ns : List (Option Int)) (mn mx : Int), rangeLoop mn mx ns = (ns.mapM id).map fun l => l.foldl upd ⟨mn, mx⟩
  | [], mn, mx => by simp [rangeLoop]
  | none :: ns, mn, mx => by rw [rangeLoop, List.mapM_cons]; rfl
  | some c :: ns, mn, mx => by
    rw [rangeLoop, rangeLoop_eq ns, List.mapM_cons]
    cases h : ns.mapM id with
    | none => rfl
    | some l =>
      show some (l.foldl upd _) = some ((c :: l).foldl upd _)
      rw [List.foldl_cons, upd_eq]
      congr 3 <;> dsimp only <;> split <;> omega

theorem widen_fold : ∀ (l : List Int) (b r : Bound), widen b (l.foldl upd r) = l.foldl upd (widen b r)
  | [], b, r => rfl
  | c :: l, b, r => by
    rw [List.foldl_cons, List.foldl_cons, widen_fold l]
    congr 1
    simp only [widen_eq, upd_eq, Bound.mk.injEq]
    constructor <;> omega

theorem widen_one (b : Bound) (c : Int) : widen b ⟨c, c⟩ = upd b c := by rw [widen_eq, upd_eq]

theorem bits_fold : ∀ (bs : List Bool) (b : Bool) (r : Bound), r.lo ≤ b.toNat → (b.toNat : Int) ≤ r.hi → (∀ c ∈ bs, c = b) → bs.foldl (fun r c => upd r (c.toNat : Int)) r = r
  | [], _, _, _, _, _ => rfl
  | c :: bs, b, r, h1, h2, h => by
    have : c = b := h c List.mem_cons_self
    subst this
    rw [List.foldl_cons]
    have : upd r (c.toNat : Int) = r := by
      rw [upd_eq]
      obtain ⟨lo, hi⟩ := r
      simp only [Bound.mk.injEq] at *
      omega
    rw [this]
    exact bits_fold bs c r h1 h2 fun d hd => h d (List.mem_cons_of_mem _ hd)

theorem bits_bound : ∀ (bs : List Bool) (r : Bound), 0 ≤ r.lo → r.lo ≤ 1 → r.hi ≤ 1 → 0 ≤ r.hi →
    bs.foldl (fun r c => upd r (c.toNat : Int)) r = ⟨if false ∈ bs then 0 else r.lo, if true ∈ bs then 1 else r.hi⟩
  | [], _, _, _, _, _ => rfl
  | c :: bs, r, h1, h2, h3, h4 => by
    rw [List.foldl_cons, upd_eq]
    have hc : (c.toNat : Int) = 0 ∧ c = false ∨ (c.toNat : Int) = 1 ∧ c = true := by cases c <;> simp
    rw [bits_bound bs _ (by dsimp only; omega) (by dsimp only; omega) (by dsimp only; omega) (by dsimp only; omega)]
    rcases hc with ⟨h, rfl⟩ | ⟨h, rfl⟩
    · simp only [h, List.mem_cons, true_or, if_true, Bound.mk.injEq, Bool.true_eq_false, false_or]
      constructor
      · split <;> omega
      · split <;> omega
    · simp only [h, List.mem_cons, true_or, if_true, Bound.mk.injEq, Bool.false_eq_true, false_or]
      constructor
      · split <;> omega
      · split <;> omega

theorem getRangeBool_eq (b : Bool) (bs : List Bool) : getRangeBool (b :: bs) = some (((b :: bs).map fun c => (c.toNat : Int)).foldl upd ⟨b.toNat, b.toNat⟩) := by
  rw [List.foldl_map, bits_bound _ _ (by simp) (by cases b <;> simp) (by cases b <;> simp) (by simp), getRangeBool]
  cases b with
  | false =>
    by_cases h : true ∈ bs <;> simp [h]
  | true =>
    by_cases h : false ∈ bs <;> simp [h]

mutual
theorem bounds_eq (b : Bound) : ∀ g : G, bounds b g = g.ints.map fun l => l.foldl upd b
  | .num none => by rw [bounds, G.ints]; rfl
  | .num (some c) => by rw [bounds, G.ints]; rfl
  | .other => by rw [bounds, G.ints]; rfl
  | .bits sh bs => by
    rw [bounds, G.ints]
    cases bs with
    | nil => rfl
    | cons c bs =>
      rw [if_neg (by simp), getRangeBool_eq]
      show some (widen _ _) = some _
      rw [widen_fold, widen_one, List.map_cons, List.foldl_cons]
      show _ = some (List.foldl upd (upd b _) _)
      congr 2
      simp only [upd_eq, Bound.mk.injEq]
      omega
  | .nums sh ns => by
    rw [bounds, G.ints]
    cases ns with
    | nil => rfl
    | cons c ns =>
      rw [if_neg (by simp), List.mapM_cons]
      cases c with
      | none => rfl
      | some c =>
        rw [getRange, rangeLoop_eq]
        cases h : ns.mapM id with
        | none => rfl
        | some l =>
          show some (widen _ _) = some _
          rw [widen_fold, widen_one]
          rfl
  | .boxed sh gs => by rw [bounds, G.ints]; exact boundsL_eq b gs
theorem boundsL_eq (b : Bound) : ∀ gs : List G, boundsL b gs = (intsL gs).map fun l => l.foldl upd b
  | [] => by rw [boundsL, intsL]; rfl
  | g :: gs => by
    rw [boundsL, intsL, bounds_eq b g]
    cases g.ints with
    | none => rfl
    | some l =>
      show boundsL _ gs = _
      rw [boundsL_eq _ gs]
      cases intsL gs with
      | none => rfl
      | some k => show some _ = some ((l ++ k).foldl upd b); rw [List.foldl_append]
end

theorem fold_eq : ∀ (l : List Int) (a b : Nat), l.foldl upd ⟨-(a : Int), b⟩ = ⟨-((l.map fun i => (-i).toNat).foldl max a : Nat), ((l.map Int.toNat).foldl max b : Nat)⟩
  | [], a, b => rfl
  | c :: l, a, b => by
    rw [List.foldl_cons, upd_eq, List.map_cons, List.map_cons, List.foldl_cons, List.foldl_cons, ← fold_eq l]
    congr 2 <;> dsimp only <;> omega

theorem max_le : ∀ (l : List Nat) (a k : Nat), l.foldl max a ≤ k ↔ a ≤ k ∧ ∀ i ∈ l, i ≤ k
  | [], a, k => by simp
  | c :: l, a, k => by
    rw [List.foldl_cons, max_le l]
    simp only [List.mem_cons, forall_eq_or_imp, Nat.max_le, and_assoc]

theorem most_le (l : List Nat) (k : Nat) : most l ≤ k ↔ ∀ i ∈ l, i ≤ k := by rw [most, max_le]; simp

theorem outside_eq (a b : Nat) (ha : a ≤ 2^63) (hb : b < 2^63) : outside (-(a : Int)) b = !decide (a < 2^48 ∧ b < 2^48) := by
  rw [outside]
  have e1 : BitVec.ofInt 64 (-(-(a : Int))) = BitVec.ofNat 64 a := by rw [Int.neg_neg]; exact BitVec.ofInt_natCast ..
  have e2 : BitVec.ofInt 64 (b : Int) = BitVec.ofNat 64 b := BitVec.ofInt_natCast ..
  rw [e1, e2]
  have key : (BitVec.ofNat 64 a ||| BitVec.ofNat 64 b).sshiftRight 48 = 0#64 ↔ a < 2^48 ∧ b < 2^48 := by
    have hor : (BitVec.ofNat 64 a ||| BitVec.ofNat 64 b).toNat = a ||| b := by
      rw [BitVec.toNat_or, BitVec.toNat_ofNat, BitVec.toNat_ofNat, Nat.mod_eq_of_lt (by omega), Nat.mod_eq_of_lt (by omega)]
    have hle1 : a ≤ a ||| b := Nat.left_le_or
    have hle2 : b ≤ a ||| b := Nat.right_le_or
    have hlt : a ||| b < 2^64 := Nat.or_lt_two_pow (by omega) (by omega)
    constructor
    · intro h
      have ht := congrArg BitVec.toInt h
      rw [BitVec.toInt_sshiftRight] at ht
      rw [Int.shiftRight_eq_div_pow] at ht
      have h0 : (0#64 : BitVec 64).toInt = 0 := by decide
      rw [h0, BitVec.toInt_eq_toNat_cond, hor] at ht
      split at ht <;> omega
    · rintro ⟨h1, h2⟩
      have h3 : a ||| b < 2^48 := Nat.or_lt_two_pow h1 h2
      apply BitVec.eq_of_toInt_eq
      rw [BitVec.toInt_sshiftRight, Int.shiftRight_eq_div_pow]
      have h0 : (0#64 : BitVec 64).toInt = 0 := by decide
      rw [h0, BitVec.toInt_eq_toNat_cond, hor]
      split <;> omega
  by_cases h : a < 2^48 ∧ b < 2^48
  · rw [key.mpr h]; simp [h]
  · have : (BitVec.ofNat 64 a ||| BitVec.ofNat 64 b).sshiftRight 48 ≠ 0#64 := fun e => h (key.mp e)
    rw [bne_iff_ne.mpr this]; simp [h]

/-! ## The memory -/

/-- The results are written one after the other. -/
def putAll (pos : Nat → Nat) : Nat → List X → List (Option X) → List (Option X)
  | _, [], mem => mem
  | i, y :: l, mem => putAll pos (i+1) l (mem.set (pos i) (some y))

theorem store_eq [Monad m] [LawfulMonad m] (f : X → m X) (pos : Nat → Nat) : ∀ (n i : Nat) (x : X) (mem : List (Option X)), store f pos n i x mem = chain f n x >>= fun l => pure (putAll pos i l mem)
  | 0, i, x, mem => by simp [store, chain, putAll]
  | n+1, i, x, mem => by
    rw [store, chain, bind_assoc]
    congr 1; funext y
    rw [store_eq f pos n, bind_assoc]
    congr 1; funext l
    rw [pure_bind]; rfl

theorem putAll_length (pos : Nat → Nat) : ∀ (l : List X) (i : Nat) (mem : List (Option X)), (putAll pos i l mem).length = mem.length
  | [], _, _ => rfl
  | y :: l, i, mem => by rw [putAll, putAll_length pos l, List.length_set]

theorem putAll_other (pos : Nat → Nat) (q : Nat) : ∀ (l : List X) (i : Nat) (mem : List (Option X)), (∀ j, j < l.length → pos (i + j) ≠ q) → (putAll pos i l mem)[q]? = mem[q]?
  | [], _, _, _ => rfl
  | y :: l, i, mem, h => by
    rw [putAll, putAll_other pos q l (i+1) _ (fun j hj => by rw [show i + 1 + j = i + (j + 1) by omega]; exact h (j+1) (by rw [List.length_cons]; omega))]
    exact List.getElem?_set_ne (h 0 (by simp))

theorem putAll_get (pos : Nat → Nat) : ∀ (l : List X) (i : Nat) (mem : List (Option X)) (k : Nat) (y : X), l[k]? = some y → (∀ j, j < l.length → pos (i + j) < mem.length) →
    (∀ j j', j < j' → j' < l.length → pos (i + j) ≠ pos (i + j')) → (putAll pos i l mem)[pos (i + k)]? = some (some y)
  | [], _, _, _, _, hk, _, _ => by cases hk
  | z :: l, i, mem, 0, y, hk, hlt, hinj => by
    cases hk
    rw [putAll, putAll_other pos _ l (i+1) _ (fun j hj => by
      have := hinj 0 (j+1) (by omega) (by rw [List.length_cons]; omega)
      rw [show i + 1 + j = i + (j + 1) by omega]; exact fun e => this e.symm)]
    exact List.getElem?_set_self (hlt 0 (by simp))
  | z :: l, i, mem, k+1, y, hk, hlt, hinj => by
    have := putAll_get pos l (i+1) (mem.set (pos i) (some z)) k y hk
      (fun j hj => by rw [List.length_set, show i + 1 + j = i + (j + 1) by omega]; exact hlt (j+1) (by rw [List.length_cons]; omega))
      (fun j j' h h' => by
        rw [show i + 1 + j = i + (j + 1) by omega, show i + 1 + j' = i + (j' + 1) by omega]
        exact hinj (j+1) (j'+1) (by omega) (by rw [List.length_cons]; omega))
    rw [show i + 1 + k = i + (k + 1) by omega] at this
    exact this

theorem chain_bind [Monad m] [LawfulMonad m] {D : Type} (f : X → m X) : ∀ (n : Nat) (x : X) (k k' : List X → m D), (∀ r, r.length = n → k r = k' r) → chain f n x >>= k = chain f n x >>= k'
  | 0, x, k, k', h => by rw [chain, pure_bind, pure_bind, h [] rfl]
  | n+1, x, k, k', h => by
    rw [chain, bind_assoc, bind_assoc]
    congr 1; funext y
    rw [bind_assoc, bind_assoc]
    refine chain_bind f n y _ _ fun r hr => ?_
    rw [pure_bind, pure_bind]
    exact h _ (by rw [List.length_cons, hr])

theorem times_eq [Monad m] [LawfulMonad m] (f : X → m X) : ∀ (n : Nat) (x : X), times f n x = chain f n x >>= fun l => pure ((x :: l).getD n x)
  | 0, x => by simp [times, chain]
  | n+1, x => by
    rw [times, chain, bind_assoc]
    congr 1; funext y
    rw [times_eq f n y, bind_assoc]
    refine chain_bind f n y _ _ fun r hr => ?_
    rw [pure_bind]
    congr 1
    rw [List.getD_cons_succ, List.getD_eq_getElem?_getD, List.getD_eq_getElem?_getD]
    have : n < (y :: r).length := by rw [List.length_cons]; omega
    rw [List.getElem?_eq_getElem this]; rfl

/-! ## Replacing -/

mutual
theorem replace_eq (mem : List (Option X)) (min : Nat) (h : Int → X) : ∀ (g : G) (l : List Int), g.ints = some l → (∀ i ∈ l, lookup mem min i = some (h i)) → replaceC mem min g = some (g.replace h)
  | .num none, l, e, _ => by rw [G.ints] at e; cases e
  | .num (some c), l, e, hl => by
    rw [G.ints] at e
    cases e
    rw [replaceC, G.replace]
    show (lookup mem min c).map _ = _
    rw [hl c List.mem_cons_self]; rfl
  | .other, l, e, _ => by rw [G.ints] at e; cases e
  | .bits sh bs, l, e, hl => by
    rw [G.ints] at e
    cases e
    rw [replaceC, G.replace]
    have : ∀ cs : List Bool, (∀ c ∈ cs, lookup mem min (c.toNat : Int) = some (h c.toNat)) → (cs.mapM fun b => (lookup mem min b.toNat).map R.val) = some (cs.map fun b => R.val (h b.toNat)) := by
      intro cs
      induction cs with
      | nil => intro _; rfl
      | cons c cs ih =>
        intro hc
        rw [List.mapM_cons, hc c List.mem_cons_self, ih fun d hd => hc d (List.mem_cons_of_mem _ hd)]
        rfl
    rw [this bs fun c hc => hl _ (List.mem_map.mpr ⟨c, hc, rfl⟩)]
    rfl
  | .nums sh ns, l, e, hl => by
    rw [G.ints] at e
    rw [replaceC, G.replace]
    have : ∀ (cs : List (Option Int)) (l : List Int), cs.mapM id = some l → (∀ i ∈ l, lookup mem min i = some (h i)) →
        (cs.mapM fun (n : Option Int) => (n.bind (lookup mem min)).map R.val) = some (cs.map fun n => R.val (h (n.getD 0))) := by
      intro cs
      induction cs with
      | nil => intro _ _ _; rfl
      | cons c cs ih =>
        intro l e hc
        rw [List.mapM_cons] at e
        cases c with
        | none => cases e
        | some c =>
          cases hk : cs.mapM id with
          | none => rw [hk] at e; cases e
          | some k =>
            rw [hk] at e
            cases e
            rw [List.mapM_cons, ih k hk fun d hd => hc d (List.mem_cons_of_mem _ hd)]
            show ((lookup mem min c).map R.val >>= _) = _
            rw [hc c List.mem_cons_self]
            rfl
    rw [this ns l e hl]
    rfl
  | .boxed sh gs, l, e, hl => by
    rw [G.ints] at e
    rw [replaceC, G.replace, replaceL_eq mem min h gs l e hl]
    rfl
theorem replaceL_eq (mem : List (Option X)) (min : Nat) (h : Int → X) : ∀ (gs : List G) (l : List Int), intsL gs = some l → (∀ i ∈ l, lookup mem min i = some (h i)) → replaceCL mem min gs = some (replaceL h gs)
  | [], _, _, _ => by rw [replaceCL, replaceL]
  | g :: gs, l, e, hl => by
    rw [intsL] at e
    cases ha : g.ints with
    | none => rw [ha] at e; cases e
    | some a =>
      cases hb : intsL gs with
      | none => rw [ha, hb] at e; cases e
      | some b =>
        rw [ha, hb] at e
        cases e
        rw [replaceCL, replaceL, replace_eq mem min h g a ha fun i hi => hl i (List.mem_append_left _ hi)]
        show (replaceCL mem min gs).map _ = _
        rw [replaceL_eq mem min h gs b hb fun i hi => hl i (List.mem_append_right _ hi)]
        rfl
end

end Verif.Repeat
