import Verif.Select.Basic
/-!
# Lemmas about the loops of Select: booleans and blocks of narrow indices
-/
namespace Verif.Select
open Verif.Bits Verif.Fold Verif.Slash Verif.Rep

/-- Integers that fit 64 bits. -/
def Fits (ws : List Int) : Prop := ∀ v ∈ ws, -2^63 ≤ v ∧ v < 2^63

theorem properError_none {M} {ws : List Int} {xn : Nat} (hf : Fits ws) (hn : xn < 2^32) (h : positions xn (ws.map some) = none) :
    properError (M := M) ws xn = some .err := by
  obtain ⟨k, w, h1, h2⟩ := positions_none h
  rw [List.getElem?_map] at h1
  rcases h3 : ws[k]? with _ | v
  · rw [h3] at h1; cases h1
  · rw [h3] at h1
    injection h1 with h1
    subst h1
    have hm := List.mem_of_getElem? h3
    unfold properError
    rw [if_neg]
    intro hall
    have := List.all_eq_true.1 hall v hm
    rw [wrap_spec (hf v hm).1 (hf v hm).2 hn] at this
    have h2 : position xn v = none := h2
    rw [h2] at this
    cases this

theorem shift_in (b y : Word) (j : Nat) (hj : j < 64) : (2#64 * b + (y &&& 1#64)).getLsbD j = if j = 0 then y.getLsbD 0 else b.getLsbD (j - 1) := by
  have e : 2#64 * b + (y &&& 1#64) = (b <<< 1) ||| (y &&& 1#64) := by
    have h1 : 2#64 * b = b <<< 1 := by
      apply BitVec.eq_of_toNat_eq
      rw [BitVec.toNat_mul, BitVec.toNat_shiftLeft, Nat.shiftLeft_eq, Nat.mul_comm]
      rfl
    rw [h1]
    apply BitVec.add_eq_or_of_and_eq_zero
    apply BitVec.eq_of_getLsbD_eq
    intro i hi
    rw [BitVec.getLsbD_and, BitVec.getLsbD_and, BitVec.getLsbD_shiftLeft, BitVec.getLsbD_one, BitVec.getLsbD_zero]
    by_cases h0 : i = 0
    · subst h0; simp
    · simp [h0]
  rw [e, BitVec.getLsbD_or, BitVec.getLsbD_and, BitVec.getLsbD_shiftLeft, BitVec.getLsbD_one, decide_eq_true hj]
  by_cases h0 : j = 0
  · subst h0; simp
  · simp [h0, show ¬ j < 1 by omega]

theorem low_bit (x : Nat → Word) (n : Nat) : (x (n / 64) >>> (n % 64)).getLsbD 0 = bitF x n := by
  rw [BitVec.getLsbD_ushiftRight, Nat.add_zero]
  rfl

theorem bitsLoop_ok (x : Nat → Word) {xn : Nat} {ws : List Int} (hf : Fits ws) (hn : xn < 2^32) {ps : List Nat} (hps : positions xn (ws.map some) = some ps) :
    ∀ (i : Nat) (b : Word) (m : List Word), i ≤ ws.length → ws.length ≤ 64 * m.length →
      (∀ j, j < 64 → b.getLsbD j = (decide (i + j < ws.length) && bitF x (ps.getD (i + j) 0))) →
      (∀ t, t < ws.length → i ≤ 64 * (t / 64) → bitL m t = bitF x (ps.getD t 0)) →
      ∃ m', bitsLoop x xn ws i b m = some (.ok m') ∧ ∀ t, t < ws.length → bitL m' t = bitF x (ps.getD t 0)
  | 0, b, m, hi, hm, hb, ht => ⟨m, rfl, fun t h => ht t h (Nat.zero_le _)⟩
  | i + 1, b, m, hi, hm, hb, ht => by
    have hlt : i < ws.length := by omega
    rw [bitsLoop, List.getElem?_eq_getElem hlt]
    obtain ⟨p, hp, hpos⟩ := positions_get hps i (some ws[i]) (by rw [List.getElem?_map, List.getElem?_eq_getElem hlt]; rfl)
    have hfi := hf ws[i] (List.getElem_mem hlt)
    have hw : wrap ws[i] xn = some p := by
      rw [wrap_spec hfi.1 hfi.2 hn]
      exact hpos
    have hpd : ps.getD i 0 = p := by rw [List.getD_eq_getElem?_getD, hp]; rfl
    show ∃ m', (match wrap ws[i] xn with
      | none => properError ws xn
      | some n =>
        (if i % 64 = 0 then wr m (i / 64) (2#64 * b + ((x (n / 64) >>> (n % 64)) &&& 1#64)) else some m).bind
          fun m => bitsLoop x xn ws i (2#64 * b + ((x (n / 64) >>> (n % 64)) &&& 1#64)) m) = some (.ok m') ∧ _
    rw [hw]
    dsimp only
    have hb' : ∀ j, j < 64 → (2#64 * b + ((x (p / 64) >>> (p % 64)) &&& 1#64)).getLsbD j = (decide (i + j < ws.length) && bitF x (ps.getD (i + j) 0)) := by
      intro j hj
      rw [shift_in _ _ j hj]
      by_cases h0 : j = 0
      · subst h0
        rw [if_pos rfl, low_bit, Nat.add_zero, hpd, decide_eq_true hlt, Bool.true_and]
      · rw [if_neg h0, hb (j - 1) (by omega), show i + 1 + (j - 1) = i + j by omega]
    generalize 2#64 * b + ((x (p / 64) >>> (p % 64)) &&& 1#64) = b' at hb'
    by_cases h0 : i % 64 = 0
    · have hl : i / 64 < m.length := by omega
      rw [if_pos h0, wr_some hl]
      refine bitsLoop_ok x hf hn hps i b' _ (by omega) (by rw [List.length_set]; exact hm) hb' (fun t h1 h2 => ?_)
      rw [bitL_set hl]
      by_cases h3 : t / 64 = i / 64
      · rw [if_pos h3, hb' _ (Nat.mod_lt _ (by omega)), show i + t % 64 = t by omega, decide_eq_true h1, Bool.true_and]
      · rw [if_neg h3]
        exact ht t h1 (by omega)
    · rw [if_neg h0]
      exact bitsLoop_ok x hf hn hps i b' m (by omega) hm hb' (fun t h1 h2 => ht t h1 (by omega))

theorem bitsLoop_err (x : Nat → Word) {xn : Nat} {ws : List Int} (hf : Fits ws) (hn : xn < 2^32) (hps : positions xn (ws.map some) = none) {k : Nat} {v : Int}
    (hk : ws[k]? = some v) (hv : position xn v = none) : ∀ (i : Nat) (b : Word) (m : List Word), k < i → i ≤ ws.length → ws.length ≤ 64 * m.length →
      bitsLoop x xn ws i b m = some .err
  | 0, b, m, h, _, _ => absurd h (Nat.not_lt_zero k)
  | i + 1, b, m, h, hi, hm => by
    have hlt : i < ws.length := by omega
    rw [bitsLoop, List.getElem?_eq_getElem hlt]
    have hfi := hf ws[i] (List.getElem_mem hlt)
    show (match wrap ws[i] xn with
      | none => properError ws xn
      | some n =>
        (if i % 64 = 0 then wr m (i / 64) (2#64 * b + ((x (n / 64) >>> (n % 64)) &&& 1#64)) else some m).bind
          fun m => bitsLoop x xn ws i (2#64 * b + ((x (n / 64) >>> (n % 64)) &&& 1#64)) m) = some .err
    rcases hw : wrap ws[i] xn with _ | p
    · exact properError_none hf hn hps
    · dsimp only
      have hki : k < i := by
        rcases Nat.lt_or_ge k i with h1 | h1
        · exact h1
        · exfalso
          have : k = i := by omega
          subst this
          rw [List.getElem?_eq_getElem hlt] at hk
          injection hk with hk
          rw [wrap_spec hfi.1 hfi.2 hn, hk, hv] at hw
          cases hw
      by_cases h0 : i % 64 = 0
      · have hl : i / 64 < m.length := by omega
        rw [if_pos h0, wr_some hl]
        exact bitsLoop_err x hf hn hps hk hv i _ _ hki (by omega) (by rw [List.length_set]; exact hm)
      · rw [if_neg h0]
        exact bitsLoop_err x hf hn hps hk hv i _ m hki (by omega) hm

theorem none_index {xn : Nat} {ws : List Int} (h : positions xn (ws.map some) = none) : ∃ (k : Nat) (v : Int), ws[k]? = some v ∧ position xn v = none := by
  obtain ⟨k, w, h1, h2⟩ := positions_none h
  rw [List.getElem?_map] at h1
  rcases h3 : ws[k]? with _ | v
  · rw [h3] at h1; cases h1
  · rw [h3] at h1
    injection h1 with h1
    subst h1
    exact ⟨k, v, h3, h2⟩

/-! ## Blocks -/

theorem gatherAt_spec {α} (xs : List α) (off : Nat) : ∀ (vs : List Int) (ps : List Nat) (i : Nat) (m : List α), vs.length = ps.length →
    (∀ (k : Nat) (v : Int) (p : Nat), vs[k]? = some v → ps[k]? = some p → (off : Int) + v = p ∧ p < xs.length) → i + vs.length ≤ m.length →
    ∃ m', gatherAt xs off vs i m = some m' ∧ Ext m i (at_ ps xs) m'
  | [], [], i, m, hl, h, hm => ⟨m, rfl, Ext.nil (by simpa using hm)⟩
  | [], _ :: _, i, m, hl, h, hm => by cases hl
  | _ :: _, [], i, m, hl, h, hm => by cases hl
  | v :: vs, p :: ps, i, m, hl, h, hm => by
    obtain ⟨h1, h2⟩ := h 0 v p rfl rfl
    rw [List.length_cons] at hm
    rw [gatherAt, if_neg (show ¬ (off : Int) + v < 0 by omega), show ((off : Int) + v).toNat = p by omega, List.getElem?_eq_getElem h2]
    show ∃ m', ((wr m i xs[p]).bind fun m => gatherAt xs off vs (i + 1) m) = some m' ∧ _
    have hi : i < m.length := by omega
    rw [wr_some hi]
    obtain ⟨m', e, hx⟩ := gatherAt_spec xs off vs ps (i + 1) (m.set i xs[p]) (by simpa using hl) (fun k v p hv hp => h (k + 1) v p hv hp) (by rw [List.length_set]; omega)
    refine ⟨m', e, ?_⟩
    have h3 : at_ (p :: ps) xs = [xs[p]] ++ at_ ps xs := by
      unfold at_
      rw [List.flatMap_cons, List.getElem?_eq_getElem h2]
      rfl
    rw [h3]
    exact (wr_ext hi xs[p]).append hx

theorem foldMin (l : List Int) : ∀ (a : Int), l.foldl (fun a e => if e < a then e else a) a ≤ a ∧ (∀ e ∈ l, l.foldl (fun a e => if e < a then e else a) a ≤ e) ∧
    (l.foldl (fun a e => if e < a then e else a) a = a ∨ l.foldl (fun a e => if e < a then e else a) a ∈ l) := by
  induction l with
  | nil => exact fun a => ⟨Int.le_refl _, (fun e he => absurd he List.not_mem_nil), Or.inl rfl⟩
  | cons b l ih =>
    intro a
    rw [List.foldl_cons]
    obtain ⟨h1, h2, h3⟩ := ih (if b < a then b else a)
    by_cases hb : b < a
    · rw [if_pos hb] at h1 h2 h3 ⊢
      refine ⟨by omega, fun e he => ?_, ?_⟩
      · rcases List.mem_cons.1 he with rfl | he
        · exact h1
        · exact h2 e he
      · rcases h3 with h3 | h3
        · exact Or.inr (by rw [h3]; exact List.mem_cons_self)
        · exact Or.inr (List.mem_cons_of_mem _ h3)
    · rw [if_neg hb] at h1 h2 h3 ⊢
      refine ⟨h1, fun e he => ?_, ?_⟩
      · rcases List.mem_cons.1 he with rfl | he
        · omega
        · exact h2 e he
      · rcases h3 with h3 | h3
        · exact Or.inl h3
        · exact Or.inr (List.mem_cons_of_mem _ h3)

theorem foldMax (l : List Int) : ∀ (a : Int), a ≤ l.foldl (fun a e => if a < e then e else a) a ∧ (∀ e ∈ l, e ≤ l.foldl (fun a e => if a < e then e else a) a) ∧
    (l.foldl (fun a e => if a < e then e else a) a = a ∨ l.foldl (fun a e => if a < e then e else a) a ∈ l) := by
  induction l with
  | nil => exact fun a => ⟨Int.le_refl _, (fun e he => absurd he List.not_mem_nil), Or.inl rfl⟩
  | cons b l ih =>
    intro a
    rw [List.foldl_cons]
    obtain ⟨h1, h2, h3⟩ := ih (if a < b then b else a)
    by_cases hb : a < b
    · rw [if_pos hb] at h1 h2 h3 ⊢
      refine ⟨by omega, fun e he => ?_, ?_⟩
      · rcases List.mem_cons.1 he with rfl | he
        · exact h1
        · exact h2 e he
      · rcases h3 with h3 | h3
        · exact Or.inr (by rw [h3]; exact List.mem_cons_self)
        · exact Or.inr (List.mem_cons_of_mem _ h3)
    · rw [if_neg hb] at h1 h2 h3 ⊢
      refine ⟨h1, fun e he => ?_, ?_⟩
      · rcases List.mem_cons.1 he with rfl | he
        · omega
        · exact h2 e he
      · rcases h3 with h3 | h3
        · exact Or.inl h3
        · exact Or.inr (List.mem_cons_of_mem _ h3)

theorem addLen_spec {bits xn : Nat} (hb : 0 < bits) {e : Int} (hx : xn ≤ 2^(bits - 1)) (h1 : -xn ≤ e) (h2 : e < xn) :
    addLen bits xn e = if e < 0 then e + xn else e := by
  have h2b : (2^bits : Nat) = 2 * 2^(bits - 1) := by
    obtain ⟨k, rfl⟩ : ∃ k, bits = k + 1 := ⟨bits - 1, by omega⟩
    rw [Nat.add_sub_cancel, Nat.pow_succ, Nat.mul_comm]
  unfold addLen
  by_cases h0 : e < 0
  · rw [if_pos h0, if_pos h0, BitVec.toInt_ofInt, BitVec.toInt_ofNat', Int.add_bmod_bmod, h2b]
    generalize 2^(bits - 1) = A at *
    apply Int.bmod_eq_of_le <;> omega
  · rw [if_neg h0, if_neg h0, Int.add_zero, BitVec.toInt_ofInt, h2b]
    generalize 2^(bits - 1) = A at *
    apply Int.bmod_eq_of_le <;> omega

theorem position_some {n : Nat} {e : Int} (h1 : -n ≤ e) (h2 : e < n) : position n e = some (if e < 0 then e + n else e).toNat := by
  unfold position
  by_cases h0 : e < 0
  · rw [if_neg (by omega), if_pos ⟨h1, h0⟩, if_pos h0, Int.add_comm]
  · rw [if_pos ⟨by omega, h2⟩, if_neg h0]

theorem position_bad {n : Nat} {e : Int} (h : e < -n ∨ n ≤ e) : position n e = none := by
  unfold position
  rw [if_neg (by omega), if_neg (by omega)]

theorem positions_all {n : Nat} : ∀ (vs : List Int), (∀ v ∈ vs, -n ≤ v ∧ v < n) → positions n (vs.map some) = some (vs.map fun e => (if e < 0 then e + (n : Int) else e).toNat)
  | [], _ => rfl
  | v :: vs, h => by
    have hv := h v List.mem_cons_self
    rw [List.map_cons, positions_cons, positions_all vs (fun w hw => h w (List.mem_cons_of_mem _ hw))]
    show (position n v).bind _ = _
    rw [position_some hv.1 hv.2]
    rfl

theorem positions_mem_none {n : Nat} {vs : List Int} {v : Int} (hm : v ∈ vs) (hv : position n v = none) : positions n (vs.map some) = none := by
  rcases h : positions n (vs.map some) with _ | ps
  · rfl
  · obtain ⟨k, hk⟩ := List.mem_iff_getElem?.1 hm
    obtain ⟨p, _, h2⟩ := positions_get h k (some v) (by rw [List.getElem?_map, hk]; rfl)
    have h2 : position n v = some p := h2
    rw [hv] at h2
    cases h2

/-- What the blocks give. -/
def BlocksDone {α} (xs : List α) (m : List α) (i : Nat) (ps : Option (List Nat)) (r : Option (Step (List α))) : Prop :=
  r = some .widen ∨ match ps with
    | none => r = some .bad
    | some ps => ∃ m', r = some (.ok m') ∧ Ext m i (at_ ps xs) m'

theorem at_append {α} (as bs : List Nat) (xs : List α) : at_ (as ++ bs) xs = at_ as xs ++ at_ bs xs := List.flatMap_append

theorem at_length {α} {xs : List α} : ∀ {ps : List Nat}, (∀ p ∈ ps, p < xs.length) → (at_ ps xs).length = ps.length
  | [], _ => rfl
  | p :: ps, h => by
    unfold at_
    rw [List.flatMap_cons, List.getElem?_eq_getElem (h p List.mem_cons_self), List.length_append]
    show 1 + (at_ ps xs).length = ps.length + 1
    rw [at_length (fun q hq => h q (List.mem_cons_of_mem _ hq)), Nat.add_comm]

theorem blocks_spec {α} {bits bl : Nat} (hbits : 0 < bits) (hbl : 0 < bl) (xs : List α) : ∀ (fuel : Nat) (ws : List Int) (i0 : Nat) (wt : Option Nat) (m : List α), ws.length ≤ fuel →
    (∀ s, wt = some s → min bl ws.length ≤ s) → i0 + ws.length ≤ m.length →
    BlocksDone xs m i0 (positions xs.length (ws.map some)) (blocks bits bl xs xs.length fuel ws i0 wt m) := by
  intro fuel
  induction fuel with
  | zero =>
    intro ws i0 wt m hf hwt hm
    obtain rfl : ws = [] := List.eq_nil_of_length_eq_zero (by omega)
    exact Or.inr ⟨m, rfl, Ext.nil (by simpa using hm)⟩
  | succ fuel ih =>
    intro ws i0 wt m hf hwt hm
    cases ws with
    | nil => exact Or.inr ⟨m, rfl, Ext.nil (by simpa using hm)⟩
    | cons w ws =>
      rw [blocks]
      dsimp only
      have hbd : ∀ v ∈ (w :: ws).take bl, v ∈ w :: ws := fun v hv => List.mem_of_mem_take hv
      have hsplit : (w :: ws).take bl ++ (w :: ws).drop bl = w :: ws := List.take_append_drop bl (w :: ws)
      have hblen : ((w :: ws).take bl).length = min bl (w :: ws).length := List.length_take
      have hw : w ∈ (w :: ws).take bl := by
        obtain ⟨k, rfl⟩ : ∃ k, bl = k + 1 := ⟨bl - 1, by omega⟩
        exact List.mem_cons_self
      obtain ⟨l1, l2, l3⟩ := foldMin ((w :: ws).take bl) w
      obtain ⟨u1, u2, u3⟩ := foldMax ((w :: ws).take bl) w
      have hdl : ((w :: ws).drop bl).length = (w :: ws).length - bl := List.length_drop
      generalize hB : (w :: ws).take bl = B at *
      generalize hD : (w :: ws).drop bl = D at *
      generalize B.foldl (fun a e => if e < a then e else a) w = lo at *
      generalize B.foldl (fun a e => if a < e then e else a) w = hi at *
      have hlo : lo ∈ w :: ws := by
        rcases l3 with h | h
        · rw [h]; exact List.mem_cons_self
        · exact hbd lo h
      have hhi : hi ∈ w :: ws := by
        rcases u3 with h | h
        · rw [h]; exact List.mem_cons_self
        · exact hbd hi h
      by_cases c1 : lo < -(xs.length : Int)
      · rw [if_pos c1]
        refine Or.inr ?_
        rw [positions_mem_none hlo (position_bad (Or.inl c1))]
      · rw [if_neg c1]
        by_cases c2 : hi ≥ (xs.length : Int)
        · rw [if_pos c2]
          refine Or.inr ?_
          rw [positions_mem_none hhi (position_bad (Or.inr c2))]
        · rw [if_neg c2]
          have hin : ∀ v ∈ B, -(xs.length : Int) ≤ v ∧ v < xs.length := fun v hv => ⟨by have := l2 v hv; omega, by have := u2 v hv; omega⟩
          have hBpos := positions_all B hin
          have hBM : B.length ≤ (w :: ws).length := by rw [hblen]; exact Nat.min_le_right _ _
          have hlenD : B.length + D.length = (w :: ws).length := by rw [← List.length_append, hsplit]
          have hBpos0 : 1 ≤ B.length := List.length_pos_of_mem hw
          -- after the copy of this block
          have main : ∀ (off : Nat) (vs : List Int) (wt' : Option Nat), vs.length = B.length →
              (∀ (k : Nat) (v e : Int), vs[k]? = some v → B[k]? = some e → (off : Int) + v = if e < 0 then e + (xs.length : Int) else e) →
              (∀ s, wt' = some s → min bl D.length ≤ s) →
              BlocksDone xs m i0 (positions xs.length ((w :: ws).map some))
                ((gatherAt xs off vs i0 m).bind fun m => blocks bits bl xs xs.length fuel D (i0 + B.length) wt' m) := by
            intro off vs wt' hvl hv hwt'
            obtain ⟨m1, e1, h1⟩ := gatherAt_spec xs off vs (B.map fun e => (if e < 0 then e + (xs.length : Int) else e).toNat) i0 m (by rw [List.length_map, hvl])
              (by
                intro k v p hk hp
                rw [List.getElem?_map] at hp
                rcases hbk : B[k]? with _ | e
                · rw [hbk] at hp; cases hp
                · rw [hbk] at hp
                  injection hp with hp
                  have h5 := hv k v e hk hbk
                  have h6 := hin e (List.mem_of_getElem? hbk)
                  have hp' : (if e < 0 then e + (xs.length : Int) else e).toNat = p := hp
                  rw [h5, ← hp']
                  by_cases h7 : e < 0
                  · rw [if_pos h7]; omega
                  · rw [if_neg h7]; omega)
              (by omega)
            rw [e1]
            have := ih D (i0 + B.length) wt' m1 (by simp only [List.length_cons] at hf hlenD; omega) hwt' (by rw [h1.len]; simp only [List.length_cons] at *; omega)
            rcases this with h2 | h2
            · exact Or.inl h2
            · refine Or.inr ?_
              rw [← hsplit, List.map_append, positions_append, hBpos]
              rcases hDp : positions xs.length (D.map some) with _ | ps
              · rw [hDp] at h2
                exact h2
              · rw [hDp] at h2
                obtain ⟨m2, e2, h3⟩ := h2
                refine ⟨m2, e2, ?_⟩
                show Ext m i0 (at_ (_ ++ ps) xs) m2
                rw [at_append]
                refine h1.append ?_
                rw [at_length (positions_lt hBpos), List.length_map]
                exact h3
          have hwtD : ∀ s, wt = some s → min bl D.length ≤ s := fun s hs => by
            have := hwt s hs
            simp only [List.length_cons] at *
            omega
          by_cases c3 : hi ≥ 0
          · rw [if_pos c3]
            by_cases c4 : lo < 0
            · rw [if_pos c4]
              by_cases c5 : xs.length > 2^(bits - 1)
              · rw [if_pos c5]
                exact Or.inl rfl
              · rw [if_neg c5]
                have hsz : ¬ wt.getD B.length < B.length := by
                  cases wt with
                  | none => exact Nat.lt_irrefl _
                  | some s =>
                    have := hwt s rfl
                    show ¬ s < B.length
                    omega
                rw [if_neg hsz]
                refine main 0 (B.map (addLen bits xs.length)) (some (wt.getD B.length)) (List.length_map _) ?_ ?_
                · intro k v e hk he
                  rw [List.getElem?_map, he] at hk
                  injection hk with hk
                  have := hin e (List.mem_of_getElem? he)
                  rw [← hk, addLen_spec hbits (by omega) this.1 this.2]
                  simp
                · intro s hs
                  injection hs with hs
                  simp only [List.length_cons] at *
                  omega
            · rw [if_neg c4]
              refine main 0 B wt rfl ?_ hwtD
              intro k v e hk he
              rw [he] at hk
              injection hk with hk
              have := l2 e (List.mem_of_getElem? he)
              rw [if_neg (by omega), hk]
              simp
          · rw [if_neg c3]
            refine main xs.length B wt rfl ?_ hwtD
            intro k v e hk he
            rw [he] at hk
            injection hk with hk
            have := u2 e (List.mem_of_getElem? he)
            rw [if_pos (by omega), hk, Int.add_comm]

theorem flatMap_single {α} (xs : List α) (ps : List Nat) : ps.flatMap (fun c => (xs[c]?).toList) = at_ ps xs := rfl

/-- The loop that copies one element after the other. -/
theorem elemLoop_spec {α} (xs : List α) (hn : xs.length < 2^32) (ws : List (Option Int)) (m : List α) (hm : ws.length ≤ m.length) :
    Done (fun us m' => Ext m 0 us m') (fun c => (xs[c]?).toList) [] (positions xs.length ws) (cellLoop (fun m i c => (xs[c]?).bind fun e => wr m i e) xs.length ws 0 m) := by
  refine cellLoop_spec (width := 1) (total := m.length) hn ?_ ?_ ws 0 [] m (Ext.nil (Nat.zero_le _)) rfl (by omega)
  · intro c hc
    rw [List.getElem?_eq_getElem hc]
    rfl
  · intro us m1 i c hO hl hi hc
    rw [List.getElem?_eq_getElem hc]
    show ∃ m', wr m1 i xs[c] = some m' ∧ _
    have hi1 : i < m1.length := by rw [hO.len]; exact hi
    refine ⟨_, wr_some hi1 _, hO.append ?_⟩
    rw [show 0 + us.length = i by omega]
    exact wr_ext hi1 _

theorem units32_spec {α} (xs : List α) (hn : xs.length < 2^32) (ws : List Int) (m : List α) (hm : ws.length ≤ m.length) :
    (units32 xs xs.length ws m).map (Out.map fun m => m.take ws.length) = some (match positions xs.length (ws.map some) with
      | none => .err
      | some ps => .ok (at_ ps xs)) := by
  have := elemLoop_spec xs hn (ws.map some) m (by rw [List.length_map]; exact hm)
  unfold units32
  rcases h : positions xs.length (ws.map some) with _ | ps
  · rw [h] at this
    rw [show cellLoop _ _ _ _ _ = _ from this]
    rfl
  · rw [h] at this
    obtain ⟨m', e, hx⟩ := this
    rw [e]
    have hx : Ext m 0 (at_ ps xs) m' := hx
    have hl : (at_ ps xs).length = ws.length := by rw [at_length (positions_lt h), positions_length h, List.length_map]
    show some (Out.ok (m'.take ws.length)) = _
    rw [← hl, hx.take]

theorem blocksOut {α} {xs : List α} {ws : List Int} {m : List α} {r : Option (Step (List α))} {next : Option (Out (List α))} (hf : Fits ws) (hn : xs.length < 2^32)
    (h : BlocksDone xs m 0 (positions xs.length (ws.map some)) r)
    (hnext : next.map (Out.map fun m => m.take ws.length) = some (match positions xs.length (ws.map some) with
      | none => .err
      | some ps => .ok (at_ ps xs))) :
    (r.bind fun
      | .ok m => some (.ok m)
      | .bad => properError ws xs.length
      | .widen => next).map (Out.map fun m => m.take ws.length) = some (match positions xs.length (ws.map some) with
      | none => .err
      | some ps => .ok (at_ ps xs)) := by
  rcases h with h | h
  · rw [h]
    exact hnext
  · rcases hp : positions xs.length (ws.map some) with _ | ps
    · rw [hp] at h
      have h : r = some .bad := h
      rw [h]
      show (properError ws xs.length).map _ = _
      rw [properError_none hf hn hp]
      rfl
    · rw [hp] at h
      obtain ⟨m', e, hx⟩ := h
      rw [e]
      have hl : (at_ ps xs).length = ws.length := by rw [at_length (positions_lt hp), positions_length hp, List.length_map]
      show some (Out.ok (m'.take ws.length)) = _
      rw [← hl, hx.take]

theorem cpusel_spec {α} (xs : List α) (hn : xs.length < 2^32) (t : Sum.Ty) (ws : List Int) (hf : Fits ws) (m : List α) (hm : ws.length ≤ m.length) :
    (cpusel xs xs.length ws m t).map (Out.map fun m => m.take ws.length) = some (match positions xs.length (ws.map some) with
      | none => .err
      | some ps => .ok (at_ ps xs)) := by
  have h32 := units32_spec xs hn ws m hm
  have h16 : (cpusel16 xs xs.length ws m).map (Out.map fun m => m.take ws.length) = some (match positions xs.length (ws.map some) with
      | none => .err
      | some ps => .ok (at_ ps xs)) := by
    unfold cpusel16
    exact blocksOut hf hn (blocks_spec (by decide) (by decide) xs ws.length ws 0 none m (Nat.le_refl _) (fun s h => nomatch h) (by omega)) h32
  cases t with
  | i32 => exact h32
  | i16 => exact h16
  | i8 => exact blocksOut hf hn (blocks_spec (by decide) (by decide) xs ws.length ws 0 none m (Nat.le_refl _) (fun s h => nomatch h) (by omega)) h16

end Verif.Select
