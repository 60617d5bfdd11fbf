import Verif.Rep.Basic
/-!
# Indices: proofs
-/
namespace Verif.Rep
open Verif.Bits Verif.Fold Verif.Slash

theorem elems_length (c : Counts) : c.elems.length = c.len := by
  cases c <;> simp [Counts.elems, Counts.len]

/-! ## Totals -/

theorem naturals_length : ∀ {es : List (Option Int)} {ns : List Nat}, naturals es = some ns → ns.length = es.length
  | [], ns, h => by injection h with h; rw [← h]; rfl
  | none :: es, ns, h => by cases h
  | some z :: es, ns, h => by
    rw [naturals] at h
    split at h
    · cases h
    · cases he : naturals es with
      | none => rw [he] at h; cases h
      | some ms =>
        rw [he] at h
        injection h with h
        rw [← h, List.length_cons, List.length_cons, naturals_length he]

theorem naturals_map : ∀ {es : List (Option Int)} {ns : List Nat}, naturals es = some ns → es = ns.map fun n => some (Int.ofNat n)
  | [], ns, h => by injection h with h; rw [← h]; rfl
  | none :: es, ns, h => by cases h
  | some z :: es, ns, h => by
    rw [naturals] at h
    split at h
    · cases h
    · rename_i hz
      cases he : naturals es with
      | none => rw [he] at h; cases h
      | some ms =>
        rw [he] at h
        injection h with h
        rw [← h, List.map_cons, ← naturals_map he]
        congr 2
        exact (Int.toNat_of_nonneg (by omega)).symm

theorem naturals_of_map (ns : List Nat) : naturals (ns.map fun n => some (Int.ofNat n)) = some ns := by
  induction ns with
  | nil => rfl
  | cons n ns ih =>
    rw [List.map_cons, naturals, ih, if_neg (by show ¬ Int.ofNat n < 0; simp)]
    rfl

theorem mem_le_sum {n : Nat} : ∀ {ns : List Nat}, n ∈ ns → n ≤ ns.sum
  | m :: ns, h => by
    rw [List.sum_cons]
    rcases List.mem_cons.1 h with rfl | h
    · omega
    · have := mem_le_sum h; omega

theorem usumAny_spec : ∀ (es : List (Option Int)) (r : Nat), r < 2^64 →
    (naturals es = none ∧ usumAny r es = .err) ∨ ∃ ns, naturals es = some ns ∧ usumAny r es = if r + ns.sum < 2^64 then .ok (r + ns.sum) else .err
  | [], r, hr => Or.inr ⟨[], rfl, by rw [usumAny]; rw [if_pos (by simpa using hr)]; rfl⟩
  | none :: es, r, hr => Or.inl ⟨rfl, rfl⟩
  | some z :: es, r, hr => by
    rw [naturals, usumAny]
    by_cases hz : z < 0
    · rw [if_pos hz, if_pos (Or.inl hz)]
      exact Or.inl ⟨rfl, rfl⟩
    · rw [if_neg hz]
      by_cases hz2 : 2^64 ≤ z
      · rw [if_pos (Or.inr hz2)]
        cases he : naturals es with
        | none => exact Or.inl ⟨rfl, rfl⟩
        | some ms =>
          refine Or.inr ⟨z.toNat :: ms, rfl, ?_⟩
          rw [List.sum_cons, if_neg (by omega)]
      · rw [if_neg (by omega)]
        by_cases hr2 : r + z.toNat < 2^64
        · rw [if_pos hr2]
          rcases usumAny_spec es (r + z.toNat) hr2 with ⟨h1, h2⟩ | ⟨ms, h1, h2⟩
          · rw [h1, h2]
            exact Or.inl ⟨rfl, rfl⟩
          · rw [h1, h2]
            refine Or.inr ⟨z.toNat :: ms, rfl, ?_⟩
            rw [List.sum_cons, Nat.add_assoc]
        · rw [if_neg hr2]
          cases he : naturals es with
          | none => exact Or.inl ⟨rfl, rfl⟩
          | some ms =>
            refine Or.inr ⟨z.toNat :: ms, rfl, ?_⟩
            rw [List.sum_cons, if_neg (by omega)]

theorem naturals_some (xs : List Int) : (∃ v ∈ xs, v < 0) ∧ naturals (xs.map some) = none ∨
    (¬ ∃ v ∈ xs, v < 0) ∧ naturals (xs.map some) = some (xs.map Int.toNat) ∧ (xs.map Int.toNat).sum = xs.sum.toNat ∧ 0 ≤ xs.sum := by
  induction xs with
  | nil => exact Or.inr ⟨by simp, rfl, rfl, by simp⟩
  | cons x xs ih =>
    rw [List.map_cons, naturals]
    by_cases hx : x < 0
    · rw [if_pos hx]
      exact Or.inl ⟨⟨x, List.mem_cons_self .., hx⟩, rfl⟩
    · rw [if_neg hx]
      rcases ih with ⟨⟨v, h1, h2⟩, h3⟩ | ⟨h1, h2, h3, h4⟩
      · rw [h3]
        exact Or.inl ⟨⟨v, List.mem_cons_of_mem _ h1, h2⟩, rfl⟩
      · rw [h2]
        refine Or.inr ⟨?_, rfl, ?_, ?_⟩
        · rintro ⟨v, hv, hv2⟩
          rcases List.mem_cons.1 hv with rfl | hv
          · exact hx hv2
          · exact h1 ⟨v, hv, hv2⟩
        · rw [List.map_cons, List.sum_cons, List.sum_cons, h3, Int.toNat_add (by omega) h4]
        · rw [List.sum_cons]; omega

/-- The numbers of a boolean list. -/
def ofBits (bs : List Bool) : List Nat := bs.map fun b => if b then 1 else 0

theorem naturals_bits (bs : List Bool) : naturals (bs.map fun b => some (if b then 1 else 0)) = some (ofBits bs) := by
  have : (bs.map fun b => some (if b then (1 : Int) else 0)) = (ofBits bs).map fun n => some (Int.ofNat n) := by
    unfold ofBits
    rw [List.map_map]
    apply List.map_congr_left
    intro b _
    cases b <;> rfl
  rw [this, naturals_of_map]

theorem ofBits_sum (b : Nat → Bool) : ∀ n, (ofBits (firstN b n)).sum = cnt b n
  | 0 => rfl
  | n + 1 => by
    have ih := ofBits_sum b n
    unfold ofBits at ih ⊢
    rw [firstN_succ_last, List.map_append, List.sum_append, ih, cnt]
    simp

theorem usumC_spec (x : Counts) (hx : x.Ok) (hl : x.len < 2^32) :
    (naturals x.elems = none ∧ usumC x = .err) ∨ ∃ ns, naturals x.elems = some ns ∧ usumC x = if ns.sum < 2^64 then .ok ns.sum else .err := by
  cases x with
  | bit x n =>
    refine Or.inr ⟨_, naturals_bits _, ?_⟩
    rw [ofBits_sum, usumC, bit_sum_eq, if_pos]
    have := cnt_le (bitF x) n
    have : n < 2^32 := hl
    omega
  | ints t xs =>
    have hu := Sum.usum_correct t xs hx hl
    rcases naturals_some xs with ⟨h1, h2⟩ | ⟨h1, h2, h3, h4⟩
    · rw [if_pos h1] at hu
      exact Or.inl ⟨h2, hu⟩
    · rw [if_neg h1] at hu
      refine Or.inr ⟨_, h2, ?_⟩
      rw [usumC, hu, h3, if_pos]
      have hbound : ∀ (ys : List Int), (∀ v ∈ ys, v ≤ 2^31) → ys.sum ≤ ys.length * 2^31 := by
        intro ys
        induction ys with
        | nil => intro _; simp
        | cons y ys ih =>
          intro h
          have h1 := ih fun v hv => h v (List.mem_cons_of_mem _ hv)
          have h2 := h y (List.mem_cons_self ..)
          rw [List.sum_cons, List.length_cons]
          push_cast
          omega
      have h5 := hbound xs (fun v hv => by
        have := (hx v hv).2
        cases t <;> simp only [Sum.Ty.bits] at this <;> omega)
      have : xs.length < 2^32 := hl
      omega
  | any xs =>
    rcases usumAny_spec xs 0 (by decide) with h | ⟨ns, h1, h2⟩
    · exact Or.inl h
    · rw [Nat.zero_add] at h2
      exact Or.inr ⟨ns, h1, h2⟩

theorem o2sAll_spec : ∀ {es : List (Option Int)} {ns : List Nat}, naturals es = some ns → (∀ n ∈ ns, n < 2^32) → o2sAll es = some ns
  | [], ns, h, _ => h
  | none :: es, ns, h, _ => by cases h
  | some z :: es, ns, h, hb => by
    rw [naturals] at h
    split at h
    · cases h
    · rename_i hz
      cases he : naturals es with
      | none => rw [he] at h; cases h
      | some ms =>
        rw [he] at h
        injection h with h
        subst h
        have := hb z.toNat (List.mem_cons_self ..)
        rw [o2sAll, if_neg (by omega), o2sAll_spec he fun n hn => hb n (List.mem_cons_of_mem _ hn)]
        rfl

/-! ## Booleans -/

theorem indices_snoc (cs : List Nat) (c : Nat) : indices (cs ++ [c]) = indices cs ++ List.replicate c cs.length := by
  rw [indices_eq, copies_append, List.length_append, List.length_singleton, List.range_succ, ← copies_take cs, List.take_left' (by simp), List.drop_left' (by simp),
    indices_eq]
  congr 1
  show List.replicate c cs.length ++ [] = _
  rw [List.append_nil]

theorem indices_bits (b : Nat → Bool) : ∀ n, indices (ofBits (firstN b n)) = P b 0 n
  | 0 => rfl
  | n + 1 => by
    have : ofBits (firstN b (n + 1)) = ofBits (firstN b n) ++ [if b n then 1 else 0] := by
      unfold ofBits
      rw [firstN_succ_last, List.map_append]
      rfl
    rw [this, indices_snoc, indices_bits b n, P_add, P_succ, P_zero, List.append_nil, Nat.zero_add]
    congr 1
    have hl : (ofBits (firstN b n)).length = n := by unfold ofBits; simp
    rw [hl]
    cases b n <;> rfl

theorem keep_copies {α} : ∀ (bs : List Bool) (xs : List α), keep bs xs = copies (ofBits bs) xs
  | [], xs => by cases xs <;> simp [keep, copies, ofBits]
  | true :: bs, [] => by simp [keep, copies, ofBits]
  | false :: bs, [] => by simp [keep, copies, ofBits]
  | true :: bs, x :: xs => by
    rw [keep, keep_copies bs xs]
    rfl
  | false :: bs, x :: xs => by
    rw [keep, keep_copies bs xs]
    rfl

/-! ## `slash_c1` -/

/-- `squeeze_numTry` keeps the elements. -/
def Keeps (sq : Counts → Counts) : Prop := ∀ c, c.Ok → (sq c).Ok ∧ (sq c).elems = c.elems

theorem slashC1_spec (sq : Counts → Counts) (hsq : Keeps sq) (x : Counts) (hx : x.Ok) (hl : x.len < 2^32) (junk : Nat → Word) :
    (slashC1 sq x junk).map (Out.map Ints.elems) = some (match naturals x.elems with
      | none => .err
      | some ns => if ns.sum ≥ 4294967295 then .err else .ok ((indices ns).map Int.ofNat)) := by
  unfold slashC1
  rcases usumC_spec x hx hl with ⟨h1, h2⟩ | ⟨ns, h1, h2⟩
  · rw [h1, h2]
    rfl
  · rw [h1, h2]
    dsimp only
    by_cases hs : ns.sum ≥ 4294967295
    · rw [if_pos hs]
      by_cases h64 : ns.sum < 2^64
      · rw [if_pos h64]
        dsimp only
        rw [if_pos hs]
        rfl
      · rw [if_neg h64]
        rfl
    · rw [if_neg hs, if_pos (by omega)]
      dsimp only
      rw [if_neg hs]
      by_cases h0 : ns.sum = 0
      · rw [if_pos h0]
        have : indices ns = [] := List.eq_nil_of_length_eq_zero (by rw [indices_eq, copies_length _ _ (by simp), h0])
        rw [this]
        rfl
      · rw [if_neg h0]
        generalize hy : (if (!x.isBit) = true ∧ ns.sum ≤ x.len then sq x else x) = y
        have hye : y.Ok ∧ y.elems = x.elems := by
          rw [← hy]
          split
          · exact hsq x hx
          · exact ⟨hx, rfl⟩
        obtain ⟨hyo, hye⟩ := hye
        have hlen : ns.length = x.len := by rw [naturals_length h1, elems_length]
        have hylen : y.len = x.len := by rw [← elems_length, hye, elems_length]
        rw [← hye] at h1
        rw [← hlen] at hl hylen ⊢
        have ho2s := o2sAll_spec h1 fun n hn => by have := mem_le_sum hn; omega
        have hlt : ∀ v ∈ indices ns, v < ns.length := fun v hv => indices_lt hv
        have hf64 : ∀ junk : Nat → Nat, indLoop id ns ns.sum junk = some (indices ns) := fun junk => by rw [indLoop_spec id ns _ junk rfl, List.map_id]
        cases y with
        | bit w n =>
          have hn : n = ns.length := hylen
          subst hn
          have hb := naturals_bits (listF w ns.length)
          rw [show (listF w ns.length).map (fun b => some (if b then (1 : Int) else 0)) = (Counts.bit w ns.length).elems from rfl, h1] at hb
          injection hb with hb
          have hsum : ns.sum = cnt (bitF w) ns.length := by
            have := congrArg List.sum hb
            rwa [ofBits_sum] at this
          have hind : indices ns = P (bitF w) 0 ns.length := by
            have := congrArg indices hb
            rwa [indices_bits] at this
          dsimp only
          have := where_spec w ns.length ns.sum junk hl hsum
          rw [Option.map_map]
          have e : Out.map Ints.elems ∘ (Out.ok : Ints → Out Ints) = Out.ok ∘ Ints.elems := rfl
          rw [e, ← Option.map_map, this, hind]
          rfl
        | any xs =>
          dsimp only
          rw [show (Counts.any xs).elems = xs from rfl] at ho2s
          rw [ho2s]
          dsimp only
          split
          · rw [hf64]
            rfl
          · rw [indLoop_spec _ _ _ _ rfl, Option.map_some, Option.map_some]
            show some (Out.ok (((indices ns).map (BitVec.ofNat 32)).map (·.toInt))) = _
            rw [toInt_map 32 _ (by decide) fun v hv => by have := hlt v hv; omega]
        | ints t xs =>
          rw [show (Counts.ints t xs).elems = xs.map some from rfl] at ho2s h1
          dsimp only
          split
          · rw [ho2s]
            dsimp only
            rw [hf64]
            rfl
          · have hns : xs.map Int.toNat = ns := by
              rcases naturals_some xs with ⟨_, h⟩ | ⟨_, h, _⟩
              · rw [h] at h1; cases h1
              · rw [h] at h1; injection h1
            rw [hns]
            have htl := trimZeros_length ns
            have hts : ns.sum = (trimZeros ns).sum := (trimZeros_sum ns).symm
            have hti := indices_trim ns
            have hlt2 : ∀ v ∈ indices (trimZeros ns), v < (trimZeros ns).length := fun v hv => indices_lt hv
            rw [← hti]
            split
            · rw [indLoop_spec _ _ _ _ hts, Option.map_some, Option.map_some]
              show some (Out.ok (((indices (trimZeros ns)).map (BitVec.ofNat 8)).map (·.toInt))) = _
              rw [toInt_map 8 _ (by decide) fun v hv => by have := hlt2 v hv; omega]
            · split
              · rw [indLoop_spec _ _ _ _ hts, Option.map_some, Option.map_some]
                show some (Out.ok (((indices (trimZeros ns)).map (BitVec.ofNat 16)).map (·.toInt))) = _
                rw [toInt_map 16 _ (by decide) fun v hv => by have := hlt2 v hv; omega]
              · rw [indLoop_spec _ _ _ _ hts, Option.map_some, Option.map_some]
                show some (Out.ok (((indices (trimZeros ns)).map (BitVec.ofNat 32)).map (·.toInt))) = _
                rw [toInt_map 32 _ (by decide) fun v hv => by have := hlt2 v hv; omega]

end Verif.Rep
