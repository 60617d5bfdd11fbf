import Verif.Join.Main
/-!
# Join: lists
-/
namespace Verif.Join
open Verif.Cells (Arr Val Full)
open Verif.Rotate
variable {E : Type}

/-- The shapes are as they should be, some length being there or not. -/
def Fit0 (vs : List (Val E)) (l : Lens) (t : List Nat) : Prop := vs.map Val.sh = l.map fun o => o.toList ++ t

theorem Fit0.length {vs : List (Val E)} {l : Lens} {t : List Nat} (h : Fit0 vs l t) : vs.length = l.length := by
  have := congrArg List.length h
  rwa [List.length_map, List.length_map] at this

theorem Fit0.mem {vs : List (Val E)} {l : Lens} {t : List Nat} (h : Fit0 vs l t) {v : Val E} (hv : v ∈ vs) : ∃ o : Option Nat, v.sh = o.toList ++ t := by
  have := List.mem_map_of_mem (f := Val.sh) hv
  rw [h] at this
  obtain ⟨o, _, e⟩ := List.mem_map.1 this
  exact ⟨o, e.symm⟩

theorem Fit0.has {vs : List (Val E)} {l : Lens} {t : List Nat} (h : Fit0 vs l t) {o : Option Nat} (ho : o ∈ l) : ∃ v ∈ vs, v.sh = o.toList ++ t := by
  have := List.mem_map_of_mem (f := fun o : Option Nat => o.toList ++ t) ho
  rw [← h] at this
  obtain ⟨v, hv, e⟩ := List.mem_map.1 this
  exact ⟨v, hv, e⟩

theorem Fit0.snoc {vs : List (Val E)} {l : Lens} {t : List Nat} (h : Fit0 vs l t) {c : Val E} {o : Option Nat} (hc : c.sh = o.toList ++ t) : Fit0 (vs ++ [c]) (l ++ [o]) t := by
  unfold Fit0
  rw [List.map_append, h, List.map_append, List.map_cons, hc]; rfl

theorem Fit0.prefix {vs ws : List (Val E)} {l : Lens} {t : List Nat} (h : Fit0 (vs ++ ws) l t) : Fit0 vs (l.take vs.length) t := by
  unfold Fit0
  rw [List.map_take, ← h, List.map_append]
  rw [show vs.length = (vs.map Val.sh).length from (List.length_map ..).symm, List.take_left]

/-- An element that has the axis and one that hasn't, or both. -/
theorem tail_of {b t T : List Nat} {m : Nat} {o p : Option Nat} (h1 : m :: t = o.toList ++ T) (h2 : b = p.toList ++ T) : b.length ≤ t.length → T = t ∧ b = t := by
  intro hle
  have l2 := congrArg List.length h2
  rw [List.length_append] at l2
  cases o with
  | none =>
    have h1 : m :: t = T := h1
    have := congrArg List.length h1
    rw [List.length_cons] at this
    omega
  | some n =>
    have h1 : m :: t = n :: T := h1
    obtain ⟨_, rfl⟩ := List.cons.inj h1
    refine ⟨rfl, ?_⟩
    cases p with
    | none => exact h2
    | some q =>
      have l2 : b.length = 1 + _ := l2
      omega

/-- Where the loop is after the elements `vs`. -/
inductive At (x0 : Val E) (vs : List (Val E)) : LState → Prop
  | atoms : (∀ v ∈ vs, v.sh = []) → At x0 vs ⟨0, 1, 0, 0, vs.length % 2^32⟩
  | fits (l : Lens) (t : List Nat) (m : Nat) (off rd : Nat) : Fit0 vs l t → some m ∈ l → off + t.length = x0.sh.length → (rd = 0 ∧ none ∉ l ∨ rd = 1 ∧ none ∈ l) → At x0 vs ⟨t.length + 1, t.length + 1, rd, off, total l % 2^32⟩

theorem total_snoc (l : Lens) (o : Option Nat) : total (l ++ [o]) = total l + room o := by
  unfold total
  rw [List.map_append, List.sum_append]
  show _ + (room o + 0) = _
  rw [Nat.add_zero]

theorem mod_add (a b : Nat) : (a % 2^32 + b) % 2^32 = (a + b) % 2^32 := by omega

theorem total_none : ∀ n, total (List.replicate n none) = n
  | 0 => rfl
  | n+1 => by
    show room none + total (List.replicate n none) = n + 1
    rw [total_none n]; show 1 + n = _; omega

theorem fit0_none {vs : List (Val E)} {s : List Nat} (h : ∀ v ∈ vs, v.sh = s) : Fit0 vs (List.replicate vs.length none) s := by
  unfold Fit0
  rw [List.map_replicate]
  exact List.eq_replicate_iff.2 ⟨List.length_map .., fun b hb => by
    obtain ⟨v, hv, rfl⟩ := List.mem_map.1 hb
    exact h v hv⟩

theorem eqPart_full {a b : List Nat} {n : Nat} (ha : a.length = n) (hb : b.length = n) : (a = b → eqPart a b n = .ok ()) ∧ (a ≠ b → eqPart a b n = .err) := by
  unfold eqPart
  rw [if_neg (by omega), List.take_of_length_le (by omega), List.take_of_length_le (by omega)]
  exact ⟨fun e => if_pos e, fun e => if_neg e⟩

theorem add_axis (x0 c : Val E) {t t' : List Nat} {m off rr rd cam : Nat} (hc : c.sh = m :: t') (hl : t'.length = t.length) (hx : x0.sh.drop off = t) :
    (t' = t → listAdd x0 c (rank c) ⟨t.length + 1, rr, rd, off, cam⟩ = .ok ⟨t.length + 1, rr, rd, off, (cam + m) % 2^32⟩) ∧
    (t' ≠ t → listAdd x0 c (rank c) ⟨t.length + 1, rr, rd, off, cam⟩ = .err) := by
  have hr : rank c = t.length + 1 := by rw [rank, hc, List.length_cons, hl]
  obtain ⟨e1, e2⟩ := eqPart_full hl (rfl : t.length = t.length)
  unfold listAdd
  dsimp only
  rw [hr, if_neg (by omega), hc, hx, Nat.add_sub_cancel]
  exact ⟨fun h => by show (eqPart t' t _).bind _ = _; rw [e1 h]; rfl, fun h => by show (eqPart t' t _).bind _ = _; rw [e2 h]; rfl⟩

theorem add_cell (x0 c : Val E) {t : List Nat} {off rr rd cam : Nat} (hl : c.sh.length = t.length) (hx : x0.sh.drop off = t) :
    (c.sh = t → listAdd x0 c (rank c) ⟨t.length + 1, rr, rd, off, cam⟩ = .ok ⟨t.length + 1, rr, rd, off, (cam + 1) % 2^32⟩) ∧
    (c.sh ≠ t → listAdd x0 c (rank c) ⟨t.length + 1, rr, rd, off, cam⟩ = .err) := by
  obtain ⟨e1, e2⟩ := eqPart_full hl (rfl : t.length = t.length)
  unfold listAdd
  dsimp only
  rw [rank, hl, if_pos (by omega), hx, Nat.add_sub_cancel]
  exact ⟨fun h => by rw [e1 h]; rfl, fun h => by rw [e2 h]; rfl⟩

/-- One turn of the loop. -/
theorem listStep_spec (x0 : Val E) (vs : List (Val E)) (h0 : vs[0]? = some x0) (c : Val E) (hc : rank c < 255) (hvs : ∀ v ∈ vs, rank v < 255) (s : LState) (hs : At x0 vs s) :
    (∃ s', listStep x0 vs vs.length c s = .ok s' ∧ At x0 (vs ++ [c]) s') ∨ (listStep x0 vs vs.length c s = .err ∧ ¬ ∃ l t, Fit0 (vs ++ [c]) l t) := by
  have hx0 : x0 ∈ vs := List.mem_of_getElem? h0
  have hcr : rank c % 2^8 = rank c := by omega
  have hmem : ∀ {L T}, Fit0 (vs ++ [c]) L T → ∃ p : Option Nat, c.sh = p.toList ++ T := fun h => h.mem (List.mem_append_right _ (List.mem_singleton.2 rfl))
  have hmem' : ∀ {L T} {v : Val E}, v ∈ vs → Fit0 (vs ++ [c]) L T → ∃ p : Option Nat, v.sh = p.toList ++ T := fun hv h => h.mem (List.mem_append_left _ hv)
  have hle1 : ∀ o : Option Nat, o.toList.length ≤ 1 := by
    intro o; cases o
    · exact Nat.zero_le _
    · exact Nat.le_refl _
  -- ranks that are too far apart
  have far : ∀ {v : Val E}, v ∈ vs → (rank v + 1 < rank c ∨ rank c + 1 < rank v) → ¬ ∃ l t, Fit0 (vs ++ [c]) l t := by
    rintro v hv hd ⟨L, T, h⟩
    obtain ⟨p, hp⟩ := hmem h
    obtain ⟨o, ho⟩ := hmem' hv h
    have l1 := congrArg List.length hp
    have l2 := congrArg List.length ho
    rw [List.length_append] at l1 l2
    have l1 : rank c = _ := l1
    have l2 : rank v = _ := l2
    have := hle1 p
    have := hle1 o
    omega
  cases hs with
  | atoms hat =>
    have hsx := hat x0 hx0
    have hrx : rank x0 = 0 := by rw [rank, hsx]; rfl
    unfold listStep
    dsimp only
    rw [hcr]
    by_cases hr0 : rank c = 0
    · rw [if_pos hr0]
      refine .inl ⟨_, rfl, ?_⟩
      have hlen : (vs.length % 2^32 + 1) % 2^32 = (vs ++ [c]).length % 2^32 := by rw [List.length_append, mod_add]; rfl
      show At x0 (vs ++ [c]) ⟨0, 1, 0, 0, (vs.length % 2^32 + 1) % 2^32⟩
      rw [hlen]
      refine .atoms fun v hv => ?_
      rcases List.mem_append.1 hv with hv | hv
      · exact hat v hv
      · rw [List.mem_singleton.1 hv]; exact List.length_eq_zero_iff.1 hr0
    · rw [if_neg hr0]
      by_cases hr1 : rank c = 1
      · obtain ⟨m, hm⟩ : ∃ m, c.sh = [m] := List.length_eq_one_iff.1 hr1
        have hd : listDiffer x0 vs vs.length (rank c) ⟨0, 1, 0, 0, vs.length % 2^32⟩ = .ok ⟨1, 1, 1, 0, vs.length % 2^32⟩ := by
          unfold listDiffer
          dsimp only
          rw [hr1, if_pos (by decide), if_neg (by decide), if_neg (by decide)]; rfl
        rw [hd]
        left
        refine ⟨_, (add_axis x0 c (t := []) hm rfl (by rw [hsx]; rfl)).1 rfl, ?_⟩
        have ht : (vs.length % 2^32 + m) % 2^32 = total (List.replicate vs.length none ++ [some m]) % 2^32 := by
          rw [total_snoc, total_none, mod_add]; rfl
        rw [ht]
        refine At.fits (List.replicate vs.length none ++ [some m]) [] m 0 1 ((fit0_none hat).snoc (by rw [hm]; rfl)) (List.mem_append_right _ (List.mem_singleton.2 rfl)) (by rw [hsx]; rfl) (.inr ⟨rfl, List.mem_append_left _ (List.mem_replicate.2 ⟨?_, rfl⟩)⟩)
        have := (List.getElem?_eq_some_iff.1 h0).1
        omega
      · have hd : listDiffer x0 vs vs.length (rank c) ⟨0, 1, 0, 0, vs.length % 2^32⟩ = .err := by
          unfold listDiffer
          dsimp only
          rw [if_pos (by omega), if_pos (by omega)]
        rw [hd]
        exact .inr ⟨rfl, far hx0 (by omega)⟩
  | fits l t m off rd hf hm hoff hrd =>
    obtain ⟨w, hw, hws⟩ := hf.has hm
    have hws : w.sh = m :: t := hws
    have hrw : rank w = t.length + 1 := by rw [rank, hws]; rfl
    have hwb := hvs w hw
    have hrd1 : rd ≤ 1 := by omega
    obtain ⟨o0, ho0⟩ := hf.mem hx0
    have hdrop : x0.sh.drop off = t := by
      have hl := congrArg List.length ho0
      rw [List.length_append] at hl
      rw [ho0, show off = o0.toList.length by omega, List.drop_left]
    -- the next state, with or without the axis
    have nextAxis : ∀ n, c.sh = n :: t → At x0 (vs ++ [c]) ⟨t.length + 1, t.length + 1, rd, off, (total l % 2^32 + n) % 2^32⟩ := by
      intro n hn
      rw [mod_add, show n = room (some n) from rfl, ← total_snoc]
      refine At.fits (l ++ [some n]) t m off rd (hf.snoc (by rw [hn]; rfl)) (List.mem_append_left _ hm) hoff ?_
      rcases hrd with ⟨h1, h2⟩ | ⟨h1, h2⟩
      · refine .inl ⟨h1, fun h => ?_⟩
        rcases List.mem_append.1 h with h | h
        · exact h2 h
        · cases List.mem_singleton.1 h
      · exact .inr ⟨h1, List.mem_append_left _ h2⟩
    have nextCell : c.sh = t → At x0 (vs ++ [c]) ⟨t.length + 1, t.length + 1, 1, off, (total l % 2^32 + 1) % 2^32⟩ := by
      intro hn
      rw [mod_add, show 1 = room none from rfl, ← total_snoc]
      exact At.fits (l ++ [none]) t m off 1 (hf.snoc hn) (List.mem_append_left _ hm) hoff (.inr ⟨rfl, List.mem_append_right _ (List.mem_singleton.2 rfl)⟩)
    unfold listStep
    dsimp only
    rw [hcr]
    by_cases hr0 : rank c = 0
    · rw [if_pos hr0]
      by_cases ht : t.length + 1 > 1
      · rw [if_pos ht]
        exact .inr ⟨rfl, far hw (by omega)⟩
      · rw [if_neg ht]
        refine .inl ⟨_, rfl, ?_⟩
        have ht0 : t = [] := List.length_eq_zero_iff.1 (by omega)
        have := nextCell (by rw [ht0]; exact List.length_eq_zero_iff.1 hr0)
        rw [ht0] at this ⊢
        exact this
    · rw [if_neg hr0]
      by_cases hq1 : rank c = t.length + 1
      · have hd : listDiffer x0 vs vs.length (rank c) ⟨t.length + 1, t.length + 1, rd, off, total l % 2^32⟩ = .ok ⟨t.length + 1, t.length + 1, rd, off, total l % 2^32⟩ := by
          unfold listDiffer
          dsimp only
          rw [if_neg (by omega)]
        rw [hd]
        obtain ⟨n, t', hn⟩ : ∃ n t', c.sh = n :: t' := by
          cases hh : c.sh with
          | nil => rw [rank, hh] at hr0; exact absurd rfl hr0
          | cons n t' => exact ⟨n, t', rfl⟩
        have hl : t'.length = t.length := by rw [rank, hn, List.length_cons] at hq1; omega
        obtain ⟨e1, e2⟩ := add_axis x0 c (rr := t.length + 1) (rd := rd) (cam := total l % 2^32) hn hl hdrop
        by_cases htt : t' = t
        · exact .inl ⟨_, e1 htt, nextAxis n (by rw [hn, htt])⟩
        · refine .inr ⟨e2 htt, ?_⟩
          rintro ⟨L, T, h⟩
          obtain ⟨p, hp⟩ := hmem h
          obtain ⟨o, ho⟩ := hmem' hw h
          rw [hn] at hp
          rw [hws] at ho
          cases p with
          | none =>
            cases o with
            | none =>
              have : n :: t' = m :: t := hp.trans ho.symm
              exact htt (List.cons.inj this).2
            | some k =>
              have h1 := congrArg List.length hp
              have h2 := congrArg List.length ho
              have h1 : t'.length + 1 = T.length := h1
              have h2 : t.length + 1 = T.length + 1 := h2
              omega
          | some k' =>
            cases o with
            | none =>
              have h1 := congrArg List.length hp
              have h2 := congrArg List.length ho
              have h1 : t'.length + 1 = T.length + 1 := h1
              have h2 : t.length + 1 = T.length := h2
              omega
            | some k =>
              have h1 : n :: t' = k' :: T := hp
              have h2 : m :: t = k :: T := ho
              exact htt ((List.cons.inj h1).2.trans (List.cons.inj h2).2.symm)
      · by_cases hq : rank c = t.length
        · have hd : listDiffer x0 vs vs.length (rank c) ⟨t.length + 1, t.length + 1, rd, off, total l % 2^32⟩ = .ok ⟨t.length + 1, t.length + 1, 1, off, total l % 2^32⟩ := by
            unfold listDiffer
            dsimp only
            rw [hq]
            rcases hrd with ⟨h1, _⟩ | ⟨h1, _⟩
            · rw [h1, if_pos (by omega), if_neg (by omega), if_neg (by omega), if_neg (by omega)]
            · rw [h1, if_neg (by omega)]
          rw [hd]
          obtain ⟨e1, e2⟩ := add_cell x0 c (rr := t.length + 1) (rd := 1) (cam := total l % 2^32) hq hdrop
          by_cases htt : c.sh = t
          · exact .inl ⟨_, e1 htt, nextCell htt⟩
          · refine .inr ⟨e2 htt, ?_⟩
            rintro ⟨L, T, h⟩
            obtain ⟨p, hp⟩ := hmem h
            obtain ⟨o, ho⟩ := hmem' hw h
            rw [hws] at ho
            exact htt (tail_of ho hp (Nat.le_of_eq hq)).2
        · by_cases hq2 : rank c = t.length + 2 ∧ rd = 0
          · obtain ⟨hq2, hrd0⟩ := hq2
            have hnone : none ∉ l := by
              rcases hrd with ⟨_, h⟩ | ⟨h, _⟩
              · exact h
              · omega
            have hall : ∀ v ∈ vs, ∃ k, v.sh = k :: t := by
              intro v hv
              have := List.mem_map_of_mem (f := Val.sh) hv
              rw [hf] at this
              obtain ⟨o, ho, e⟩ := List.mem_map.1 this
              cases o with
              | none => exact absurd ho hnone
              | some k => exact ⟨k, e.symm⟩
            obtain ⟨m0, hm0⟩ := hall x0 hx0
            have hoff1 : off = 1 := by rw [hm0, List.length_cons] at hoff; omega
            have hd : listDiffer x0 vs vs.length (rank c) ⟨t.length + 1, t.length + 1, rd, off, total l % 2^32⟩ =
                if (vs.drop 1).all (fun v => v.sh.head? == some m0) then .ok ⟨t.length + 2, t.length + 2, 1, 0, vs.length⟩
                else if (vs.drop 1).any (fun v => v.sh == []) then .undef else .err := by
              unfold listDiffer
              dsimp only
              rw [hq2, hrd0, hoff1, if_pos (by omega), if_neg (by omega), if_pos (by omega), if_neg (by omega), hm0, if_pos (by omega)]; rfl
            rw [hd]
            by_cases heads : (vs.drop 1).all (fun v => v.sh.head? == some m0) = true
            · rw [if_pos heads]
              have hsame : ∀ v ∈ vs, v.sh = m0 :: t := by
                intro v hv
                obtain ⟨k, hk⟩ := hall v hv
                have hvs' : vs = x0 :: vs.drop 1 := by
                  cases vs with
                  | nil => cases hv
                  | cons a vs => cases h0; rfl
                rw [hvs'] at hv
                rcases List.mem_cons.1 hv with rfl | hv
                · exact hm0
                · have := List.all_eq_true.1 heads v hv
                  rw [hk] at this ⊢
                  have := eq_of_beq this
                  cases this; rfl
              obtain ⟨n, t', hn⟩ : ∃ n t', c.sh = n :: t' := by
                cases hh : c.sh with
                | nil => rw [rank, hh] at hr0; exact absurd rfl hr0
                | cons n t' => exact ⟨n, t', rfl⟩
              have hl : t'.length = (m0 :: t).length := by rw [rank, hn, List.length_cons] at hq2; rw [List.length_cons]; omega
              obtain ⟨e1, e2⟩ := add_axis x0 c (t := m0 :: t) (off := 0) (rr := t.length + 2) (rd := 1) (cam := vs.length) hn hl hm0
              by_cases htt : t' = m0 :: t
              · refine .inl ⟨_, e1 htt, ?_⟩
                have ht : (vs.length + n) % 2^32 = total (List.replicate vs.length none ++ [some n]) % 2^32 := by
                  rw [total_snoc, total_none]; rfl
                rw [ht]
                refine At.fits (List.replicate vs.length none ++ [some n]) (m0 :: t) n 0 1 ((fit0_none hsame).snoc (by rw [hn, htt]; rfl)) (List.mem_append_right _ (List.mem_singleton.2 rfl)) (by rw [hm0, Nat.zero_add]) (.inr ⟨rfl, List.mem_append_left _ (List.mem_replicate.2 ⟨?_, rfl⟩)⟩)
                have := (List.getElem?_eq_some_iff.1 h0).1
                omega
              · refine .inr ⟨e2 htt, ?_⟩
                rintro ⟨L, T, h⟩
                obtain ⟨p, hp⟩ := hmem h
                obtain ⟨o, ho⟩ := hmem' hx0 h
                rw [hn] at hp
                rw [hm0] at ho
                have h1 := (tail_of hp ho (Nat.le_of_eq hl.symm)).2
                exact htt h1.symm
            · rw [if_neg heads]
              have hany : (vs.drop 1).any (fun v => v.sh == []) = false := by
                rw [List.any_eq_false]
                intro v hv hh
                obtain ⟨k, hk⟩ := hall v (List.mem_of_mem_drop hv)
                rw [hk] at hh
                cases hh
              rw [hany]
              refine .inr ⟨rfl, ?_⟩
              rintro ⟨L, T, h⟩
              apply heads
              rw [List.all_eq_true]
              intro v hv
              obtain ⟨n, t', hn⟩ : ∃ n t', c.sh = n :: t' := by
                cases hh : c.sh with
                | nil => rw [rank, hh] at hr0; exact absurd rfl hr0
                | cons n t' => exact ⟨n, t', rfl⟩
              have hl : t'.length = t.length + 1 := by rw [rank, hn, List.length_cons] at hq2; omega
              obtain ⟨p, hp⟩ := hmem h
              obtain ⟨o, ho⟩ := hmem' hx0 h
              have hvm := List.mem_of_mem_drop hv
              obtain ⟨o', ho'⟩ := hmem' hvm h
              obtain ⟨k, hk⟩ := hall v hvm
              rw [hn] at hp
              have h1 := (tail_of hp ho (by rw [hm0, List.length_cons]; omega)).2
              have h2 := (tail_of hp ho' (by rw [hk, List.length_cons]; omega)).2
              rw [h2, ← h1, hm0]
              exact beq_self_eq_true _
          · have hd : listDiffer x0 vs vs.length (rank c) ⟨t.length + 1, t.length + 1, rd, off, total l % 2^32⟩ = .err := by
              unfold listDiffer
              dsimp only
              rcases hrd with ⟨h1, _⟩ | ⟨h1, _⟩
              · rw [h1, if_pos (by omega), if_pos (by omega)]
              · rw [h1, if_pos (by omega), if_pos (by omega)]
            rw [hd]
            refine .inr ⟨rfl, ?_⟩
            by_cases hq3 : rank c = t.length + 2
            · rcases hrd with ⟨h1, _⟩ | ⟨_, h2⟩
              · exact absurd ⟨hq3, h1⟩ hq2
              · obtain ⟨v, hv, hvs⟩ := hf.has h2
                have : rank v = t.length := congrArg List.length hvs
                exact far hv (by omega)
            · exact far hw (by omega)

theorem listLoop_spec (x0 : Val E) : ∀ (cs vs : List (Val E)) (s : LState), vs[0]? = some x0 → (∀ v ∈ vs ++ cs, rank v < 255) → At x0 vs s →
    (∃ s', listLoop x0 vs cs s = .ok s' ∧ At x0 (vs ++ cs) s') ∨ (listLoop x0 vs cs s = .err ∧ ¬ ∃ l t, Fit0 (vs ++ cs) l t)
  | [], vs, s, h0, hr, hs => .inl ⟨s, rfl, by rw [List.append_nil]; exact hs⟩
  | c :: cs, vs, s, h0, hr, hs => by
    rw [listLoop]
    rcases listStep_spec x0 vs h0 c (hr c (List.mem_append_right _ (List.mem_cons_self ..))) (fun v hv => hr v (List.mem_append_left _ hv)) s hs with ⟨s', e, h⟩ | ⟨e, h⟩
    · rw [e]
      have ih := listLoop_spec x0 cs (vs ++ [c]) s' (by rw [List.getElem?_append_left (List.getElem?_eq_some_iff.1 h0).1]; exact h0) (by rw [List.append_assoc]; exact hr) h
      rw [List.append_assoc] at ih
      exact ih
    · rw [e]
      refine .inr ⟨rfl, ?_⟩
      rintro ⟨l, t, hf⟩
      rw [show vs ++ c :: cs = (vs ++ [c]) ++ cs by rw [List.append_assoc]; rfl] at hf
      exact h ⟨_, t, hf.prefix⟩

theorem At.init (x0 : Val E) (h : rank x0 < 255) : At x0 [x0] (listInit x0) := by
  unfold listInit
  cases hs : x0.sh with
  | nil =>
    refine At.atoms fun v hv => ?_
    rw [List.mem_singleton.1 hv]; exact hs
  | cons n t =>
    have hr : rank x0 % 2^8 = t.length + 1 := by rw [Nat.mod_eq_of_lt (by omega), rank, hs]; rfl
    dsimp only
    rw [hr]
    have := At.fits (x0 := x0) (vs := [x0]) [some n] t n 1 0 (by unfold Fit0; rw [List.map_cons, hs]; rfl) (List.mem_singleton.2 rfl) (by rw [hs, List.length_cons]; omega) (.inl ⟨rfl, fun h => by cases List.mem_singleton.1 h⟩)
    exact this

/-! ## All elements one after the other -/

theorem flat_at : ∀ (vs : List (Val E)) (l : Lens) (c : Nat), vs.map (fun v => v.els.length) = l.map (fun o => room o * c) → ∀ (i : Nat) (v : Val E), vs[i]? = some v → ∀ q, q < v.els.length →
    (vs.flatMap Val.els)[start l i * c + q]? = v.els[q]?
  | [], _, _, _, i, _, h, _, _ => by cases i <;> cases h
  | w :: vs, [], _, h, _, _, _, _, _ => by cases h
  | w :: vs, o :: l, c, h, 0, v, hv, q, hq => by
    cases hv
    show (w.els ++ _)[0 * c + q]? = _
    rw [Nat.zero_mul, Nat.zero_add, List.getElem?_append_left hq]
  | w :: vs, o :: l, c, h, i+1, v, hv, q, hq => by
    have h : w.els.length :: vs.map (fun v => v.els.length) = room o * c :: l.map (fun o => room o * c) := h
    obtain ⟨h1, h2⟩ := List.cons.inj h
    have ih := flat_at vs l c h2 i v hv q hq
    have hst : start (o :: l) (i + 1) = room o + start l i := rfl
    show (w.els ++ vs.flatMap Val.els)[_]? = _
    rw [hst, Nat.add_mul, List.getElem?_append_right (by omega), h1]
    rw [← ih]
    congr 1; omega

theorem flat_length (vs : List (Val E)) : (vs.flatMap Val.els).length = (vs.map fun v => v.els.length).sum := List.length_flatMap

theorem total_mul : ∀ (l : Lens) (c : Nat), (l.map fun o => room o * c).sum = total l * c
  | [], c => (Nat.zero_mul c).symm
  | o :: l, c => by
    have ih := total_mul l c
    show room o * c + (l.map fun o => room o * c).sum = (room o + total l) * c
    rw [ih, Nat.add_mul]

/-- What fits as a list fits in the sense of `Fits`, and the other way. -/
theorem fits_list {x : Arr (Val E)} (hx : Full x) {n : Nat} (hn : x.sh = [n]) (l : Lens) (t : List Nat) : Fits x [l] t ↔ Fit0 x.els l t ∧ ∃ m, some m ∈ l := by
  have hlen : x.els.length = n := by rw [hx, hn]; exact Nat.mul_one n
  have hrav : ∀ i, ravel x.sh [i] = i := by
    intro i; rw [hn]; show i * 1 + 0 = i; omega
  have hes : ∀ i, elementShape [l] [i] t = (l[i]?.getD none).toList ++ t := by
    intro i
    unfold elementShape
    rcases l[i]? with _ | _ | k <;> rfl
  constructor
  · intro h
    refine ⟨?_, h.present l (List.mem_singleton.2 rfl)⟩
    have hll : l.length = n := by
      have := h.lengths
      rw [hn] at this
      exact (List.cons.inj this).1
    unfold Fit0
    apply List.ext_getElem?
    intro i
    rw [List.getElem?_map, List.getElem?_map]
    by_cases hi : i < n
    · have hv : x.els[i]? = some x.els[i] := List.getElem?_eq_getElem (by omega)
      have := h.shapes [i] x.els[i] (by rw [hn]; exact .cons hi .nil) (by rw [hrav]; exact hv)
      rw [hes] at this
      rw [hv, List.getElem?_eq_getElem (show i < l.length by omega)]
      rw [List.getElem?_eq_getElem (show i < l.length by omega)] at this
      exact congrArg some this
    · rw [List.getElem?_eq_none (by omega), List.getElem?_eq_none (by omega)]; rfl
  · rintro ⟨h, hp⟩
    have hll : l.length = n := by rw [← h.length, hlen]
    refine ⟨by rw [hn, ← hll]; rfl, fun k hk => by rw [List.mem_singleton.1 hk]; exact hp, ?_⟩
    intro is v his hv
    rw [hn] at his
    cases his with
    | @cons _ i _ is hi his =>
      cases his
      rw [hrav] at hv
      rw [hes]
      have := congrArg (·[i]?) h
      simp only [List.getElem?_map, hv, List.getElem?_eq_getElem (show i < l.length by omega)] at this
      rw [List.getElem?_eq_getElem (show i < l.length by omega)]
      exact Option.some.inj this

/-- There's only one way. -/
theorem fit0_unique {vs : List (Val E)} {l l' : Lens} {t t' : List Nat} (h : Fit0 vs l t) (h' : Fit0 vs l' t') (hp : ∃ m, some m ∈ l) (hp' : ∃ m, some m ∈ l') : l = l' ∧ t = t' := by
  have hle : ∀ {l l' : Lens} {t t' : List Nat}, Fit0 vs l t → Fit0 vs l' t' → (∃ m, some m ∈ l) → t.length ≤ t'.length := by
    rintro l l' t t' h h' ⟨m, hm⟩
    obtain ⟨v, hv, e⟩ := h.has hm
    obtain ⟨o, e'⟩ := h'.mem hv
    have l1 := congrArg List.length e
    have l2 := congrArg List.length e'
    rw [List.length_append] at l1 l2
    have l1 : v.sh.length = 1 + t.length := l1
    have : o.toList.length ≤ 1 := by
      cases o
      · exact Nat.zero_le _
      · exact Nat.le_refl _
    omega
  have hl := Nat.le_antisymm (hle h h' hp) (hle h' h hp')
  have hpt : ∀ (o o' : Option Nat), o.toList ++ t = o'.toList ++ t' → o = o' ∧ t = t' := by
    intro o o' e
    obtain ⟨e1, e2⟩ := List.append_inj' e hl
    refine ⟨?_, e2⟩
    cases o <;> cases o' <;> simp_all
  have ht : t = t' := by
    obtain ⟨m, hm⟩ := hp
    obtain ⟨v, hv, e⟩ := h.has hm
    obtain ⟨o, e'⟩ := h'.mem hv
    exact (hpt _ _ (e.symm.trans e')).2
  refine ⟨?_, ht⟩
  have hll : l.length = l'.length := h.length.symm.trans h'.length
  apply List.ext_getElem? 
  intro i
  by_cases hi : i < l.length
  · have e : (l.map fun o => o.toList ++ t)[i]? = (l'.map fun o => o.toList ++ t')[i]? := by
      have h : vs.map Val.sh = _ := h
      have h' : vs.map Val.sh = _ := h'
      rw [← h, ← h']
    rw [List.getElem?_map, List.getElem?_map, List.getElem?_eq_getElem hi, List.getElem?_eq_getElem (by omega)] at e
    rw [List.getElem?_eq_getElem hi, List.getElem?_eq_getElem (by omega)]
    exact congrArg some (hpt _ _ (Option.some.inj e)).1
  · rw [List.getElem?_eq_none (by omega), List.getElem?_eq_none (by omega)]

theorem fit0_of_fits {x : Arr (Val E)} (hx : Full x) {n : Nat} (hn : x.sh = [n]) {ls : List Lens} {t : List Nat} (h : Fits x ls t) : ∃ l, ls = [l] ∧ Fit0 x.els l t ∧ ∃ m, some m ∈ l := by
  have := h.lengths
  rw [hn] at this
  obtain ⟨l, e⟩ : ∃ l, ls = [l] := List.length_eq_one_iff.1 (by have := congrArg List.length this; rwa [List.length_map] at this)
  subst e
  exact ⟨l, rfl, (fits_list hx hn l t).1 h⟩

theorem joinList_fits {x : Arr (Val E)} (hx : Full x) {n : Nat} (hn : x.sh = [n]) (hn0 : 0 < n) (hr : ∀ v ∈ x.els, rank v < 255) (hv : ∀ v ∈ x.els, v.els.length = prod v.sh) {ls : List Lens} {t : List Nat} (hf : Fits x ls t)
    (hst : ∀ l ∈ ls, total l < 2^32) (hN : prod (ls.map total) * prod t < 2^32) : ∃ r, joinList x = .ok r ∧ Joined x ls t r := by
  obtain ⟨l, rfl, hf0, hp⟩ := fit0_of_fits hx hn hf
  have hlen : x.els.length = n := by rw [hx, hn]; exact Nat.mul_one n
  have hll : l.length = n := by rw [← hf0.length, hlen]
  have hst : total l < 2^32 := hst l (List.mem_singleton.2 rfl)
  have hN : total l * 1 * prod t < 2^32 := hN
  rw [Nat.mul_one] at hN
  have h0 : x.els[0]? = some x.els[0] := List.getElem?_eq_getElem (by omega)
  have hsplit : x.els = [x.els[0]] ++ x.els.drop 1 := by
    have := List.getElem_cons_drop (as := x.els) (i := 0) (by omega)
    exact this.symm
  have hloop := listLoop_spec x.els[0] (x.els.drop 1) [x.els[0]] (listInit x.els[0]) rfl (by rw [← hsplit]; exact hr) (At.init _ (hr _ (List.getElem_mem _)))
  rw [← hsplit] at hloop
  unfold joinList
  rw [h0]
  show ∃ r, (listLoop x.els[0] [x.els[0]] (x.els.drop 1) (listInit x.els[0])).bind _ = _ ∧ _
  rcases hloop with ⟨s, e, hs⟩ | ⟨_, h⟩
  · rw [e]
    cases hs with
    | atoms hat =>
      exfalso
      obtain ⟨m, hm⟩ := hp
      obtain ⟨v, hv, e⟩ := hf0.has hm
      rw [hat v hv] at e
      cases e
    | fits l' t' m off rd hf' hm hoff _ =>
      obtain ⟨rfl, rfl⟩ := fit0_unique hf0 hf' hp ⟨m, hm⟩
      have hdrop : x.els[0].sh.drop off = t := by
        obtain ⟨o0, ho0⟩ := hf0.mem (List.getElem_mem (show 0 < x.els.length by omega))
        have hl := congrArg List.length ho0
        rw [List.length_append] at hl
        rw [ho0, show off = o0.toList.length by omega, List.drop_left]
      have hels : x.els.map (fun v => v.els.length) = l.map fun o => room o * prod t := by
        apply List.ext_getElem?
        intro i
        rw [List.getElem?_map, List.getElem?_map]
        by_cases hi : i < n
        · have hvi : x.els[i]? = some x.els[i] := List.getElem?_eq_getElem (by omega)
          have hli : l[i]? = some l[i] := List.getElem?_eq_getElem (by omega)
          have hsh : x.els[i].sh = l[i].toList ++ t := by
            have := congrArg (·[i]?) hf0
            simp only [List.getElem?_map, hvi, hli] at this
            exact Option.some.inj this
          rw [hvi, hli]
          show some x.els[i].els.length = some (room l[i] * prod t)
          rw [hv _ (List.getElem_mem _), hsh, prod_append]
          congr 2
          cases l[i] with
          | none => rfl
          | some k => exact Nat.mul_one k
        · rw [List.getElem?_eq_none (by omega), List.getElem?_eq_none (by omega)]; rfl
      have hflat : (x.els.flatMap Val.els).length = total l * prod t := by rw [flat_length, hels, total_mul]
      dsimp only [Res.bind]
      rw [if_neg (by omega), hdrop, Nat.add_sub_cancel, List.take_length, if_neg (by omega), Nat.mod_eq_of_lt hst, hflat, Nat.mod_eq_of_lt hN, if_neg (by simp)]
      refine ⟨_, rfl, rfl, ?_, ?_⟩
      · show (x.els.flatMap Val.els).length = total l * prod t
        exact hflat
      · intro is v his hg ks ts hks hts
        rw [hn] at his
        cases his with
        | @cons _ i _ is hi his =>
          cases his
          have hg : x.els[i]? = some v := by
            have : ravel x.sh [i] = i := by rw [hn]; show i * 1 + 0 = i; omega
            rw [this] at hg; exact hg
          have hin : InShape ([l].map List.length) [i] := .cons (by show i < l.length; omega) .nil
          rw [hf.shapes [i] v (by rw [hn]; exact .cons hi .nil) (by rw [hn]; show x.els[i * 1 + 0]? = _; rw [Nat.mul_one]; exact hg), own_ravel [l] [i] ks t ts hin hks]
          cases hks with
          | @cons _ k _ ks hk hks =>
            cases hks
            have hk : k < room (l[i]?.getD none) := hk
            show (x.els.flatMap Val.els)[(start l i + k) * prod t + ravel t ts]? = v.els[(k * 1 + 0) * prod t + ravel t ts]?
            have hvl : v.els.length = room (l[i]?.getD none) * prod t := by
              have := congrArg (·[i]?) hels
              simp only [List.getElem?_map, hg] at this
              rw [List.getElem?_eq_getElem (show i < l.length by omega)] at this ⊢
              exact Option.some.inj this
            have hq : k * prod t + ravel t ts < v.els.length := by
              rw [hvl]
              have h1 := ravel_lt hts
              have h2 := Nat.mul_le_mul_right (prod t) hk
              rw [Nat.succ_mul] at h2
              omega
            have := flat_at x.els l (prod t) hels i v hg (k * prod t + ravel t ts) hq
            rw [Nat.add_mul, Nat.add_assoc, this, Nat.mul_one, Nat.add_zero]
  · exact absurd ⟨l, t, hf0⟩ h

theorem joinList_unfit {x : Arr (Val E)} (hx : Full x) {n : Nat} (hn : x.sh = [n]) (hn0 : 0 < n) (hr : ∀ v ∈ x.els, rank v < 255) (h : ¬ ∃ ls t, Fits x ls t) : joinList x = .err := by
  have hlen : x.els.length = n := by rw [hx, hn]; exact Nat.mul_one n
  have h0 : x.els[0]? = some x.els[0] := List.getElem?_eq_getElem (by omega)
  have hsplit : x.els = [x.els[0]] ++ x.els.drop 1 := by
    have := List.getElem_cons_drop (as := x.els) (i := 0) (by omega)
    exact this.symm
  have hloop := listLoop_spec x.els[0] (x.els.drop 1) [x.els[0]] (listInit x.els[0]) rfl (by rw [← hsplit]; exact hr) (At.init _ (hr _ (List.getElem_mem _)))
  rw [← hsplit] at hloop
  unfold joinList
  rw [h0]
  show (listLoop x.els[0] [x.els[0]] (x.els.drop 1) (listInit x.els[0])).bind _ = _
  rcases hloop with ⟨s, e, hs⟩ | ⟨e, _⟩
  · rw [e]
    cases hs with
    | atoms hat => rfl
    | fits l t m off rd hf hm hoff _ => exact absurd ⟨[l], t, (fits_list hx hn l t).2 ⟨hf, m, hm⟩⟩ h
  · rw [e]; rfl

end Verif.Join
