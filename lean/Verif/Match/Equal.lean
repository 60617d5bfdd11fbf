import Verif.Match.Table
/-!
# `equal` and `eequal`: proofs
-/
namespace Verif.Match
open Verif.Squeeze (Val El Data Arr feq EqF feq_iff)
open Verif.Bits (Word bitF)
open Verif.Bins (ofInt)

variable {h : Heap} {depth : Nat → Nat}

theorem num_iff {r : Bool} {f g : BitVec 64} : (if r then feqR f g else feq f g) = true ↔ NumMatch r f g := by
  cases r
  · simp [NumMatch, feq_iff]
  · simp [NumMatch, feqR, feq_iff]

theorem match_num {r : Bool} {f g : BitVec 64} : Match h r (.num f) (.num g) ↔ NumMatch r f g :=
  ⟨fun m => by cases m with | num e => exact e, .num⟩

theorem match_chr {r : Bool} {c d : BitVec 32} : Match h r (.chr c) (.chr d) ↔ c = d :=
  ⟨fun m => by cases m; rfl, fun e => e ▸ .chr⟩

/-- Atoms other than functions. -/
theorem atomEq_iff {r : Bool} {u v : Val} (hu : ∀ i, u ≠ .other i) (hv : ∀ i, v ≠ .other i) :
    atomEq r u v = true ↔ Match h r u v := by
  cases u with
  | other i => exact absurd rfl (hu i)
  | num f => cases v with
    | other i => exact absurd rfl (hv i)
    | num g => rw [match_num]; exact num_iff
    | chr d => exact ⟨fun e => by simp [atomEq] at e, fun m => nomatch m⟩
  | chr c => cases v with
    | other i => exact absurd rfl (hv i)
    | chr d => rw [match_chr]; simp [atomEq]
    | num g => exact ⟨fun e => by simp [atomEq] at e, fun m => nomatch m⟩

theorem vdepth_part (G : Good h depth) {i : Nat} {v : Val} (hv : v ∈ (h i).parts) : vdepth depth v ≤ depth i := by
  cases v with
  | other j => exact G.deep i j hv
  | _ => exact Nat.zero_le _

/-- `eequal` may stop at once for two references to the same object. -/
theorem match_refl (G : Good h depth) : ∀ (n : Nat) (v : Val), vdepth depth v < n → Match h true v v
  | 0, _, hn => by omega
  | n+1, v, hn => by
    cases v with
    | num f =>
      refine .num ?_
      by_cases hf : Compare.nan f = true
      · exact Or.inr ⟨rfl, hf, hf⟩
      · have hf : Compare.nan f = false := by simpa using hf
        exact Or.inl ⟨hf, hf, rfl⟩
    | chr c => exact .chr
    | other i =>
      have hd : depth i < n := by simp only [vdepth] at hn; omega
      cases hi : h i with
      | single => exact .same fun sh a s e => by rw [hi] at e; cases e
      | der t ps => exact .same fun sh a s e => by rw [hi] at e; cases e
      | arr sh a s =>
        refine .arr hi hi rfl fun k u v hu hv => ?_
        rw [hu] at hv; cases hv
        have hm : u ∈ (h i).parts := by rw [hi]; exact List.mem_of_getElem? hu
        exact match_refl G n u (Nat.lt_of_le_of_lt (vdepth_part G hm) hd)

/-! ## Loops -/

/-- A loop over pairs of elements. -/
theorem loop_pairs {ws xs : List Val} {l : Nat} {part : Val → Val → Option Bool} {P : Val → Val → Prop} (hw : ws.length = l) (hx : xs.length = l)
    (H : ∀ u ∈ ws, ∀ v ∈ xs, ∃ b, part u v = some b ∧ (b = true ↔ P u v)) :
    ∃ b, (loop l 0 fun i => ws[i]?.bind fun a => xs[i]?.bind fun b => part a b) = some b ∧
      (b = true ↔ ∀ (k : Nat) u v, ws[k]? = some u → xs[k]? = some v → P u v) := by
  obtain ⟨b, e, hb⟩ := loop_spec (f := fun i => ws[i]?.bind fun a => xs[i]?.bind fun b => part a b)
    (g := fun k => ((ws[k]?.bind fun a => xs[k]?.bind fun b => part a b).getD false)) l 0 (by
      intro k _ hk
      have a : ws[k]? = some ws[k] := List.getElem?_eq_getElem (by omega)
      have b : xs[k]? = some xs[k] := List.getElem?_eq_getElem (by omega)
      obtain ⟨c, e, _⟩ := H _ (List.getElem_mem (l := ws) (n := k) (by omega)) _ (List.getElem_mem (l := xs) (n := k) (by omega))
      simp only [a, b, Option.bind_some, e, Option.getD_some])
  refine ⟨b, e, hb.trans ⟨fun a k u v hu hv => ?_, fun a k _ hk => ?_⟩⟩
  · have hk := (List.getElem?_eq_some_iff.1 hu).1
    obtain ⟨c, e, hc⟩ := H u (List.mem_of_getElem? hu) v (List.mem_of_getElem? hv)
    have := a k (by omega) (by omega)
    simp only [hu, hv, Option.bind_some, e, Option.getD_some] at this
    exact hc.1 this
  · have p : ws[k]? = some ws[k] := List.getElem?_eq_getElem (by omega)
    have q : xs[k]? = some xs[k] := List.getElem?_eq_getElem (by omega)
    obtain ⟨c, e, hc⟩ := H _ (List.getElem_mem (l := ws) (n := k) (by omega)) _ (List.getElem_mem (l := xs) (n := k) (by omega))
    simp only [p, q, Option.bind_some, e, Option.getD_some]
    exact hc.2 (a k _ _ p q)

theorem eqShPart_spec {ws xs : List Nat} (hl : ws.length = xs.length) :
    ∃ b, eqShPart ws xs ws.length = some b ∧ (b = true ↔ ws = xs) := by
  obtain ⟨b, e, hb⟩ := loop_spec (f := fun i => ws[i]?.bind fun a => xs[i]?.map fun b => a == b)
    (g := fun k => ws[k]? == xs[k]?) ws.length 0 (by
      intro k _ hk
      have a : ws[k]? = some ws[k] := List.getElem?_eq_getElem (by omega)
      have b : xs[k]? = some xs[k] := List.getElem?_eq_getElem (by omega)
      simp only [a, b, Option.bind_some, Option.map_some]; rfl)
  refine ⟨b, e, hb.trans ⟨fun a => List.ext_getElem? fun k => ?_, fun a k _ _ => by rw [a]; simp⟩⟩
  by_cases hk : k < ws.length
  · exact eq_of_beq (a k (by omega) (by omega))
  · rw [List.getElem?_eq_none (by omega), List.getElem?_eq_none (by omega)]

/-- Elements of an array that is not generic are not objects. -/
theorem plain_elems {d : Data} (hd : d.ty ≠ .B) : ∀ u ∈ d.elems, ∀ i, u ≠ .other i := by
  intro u hu i e
  by_cases h4 : d.ty.rank ≤ 4
  · obtain ⟨f, e2⟩ := is_num h4 u hu; rw [e] at e2; cases e2
  · obtain ⟨f, e2⟩ := is_chr (by omega) hd u hu; rw [e] at e2; cases e2

theorem matchArr_spec {r : Bool} {part : Val → Val → Option Bool} {wsh xsh : List Nat} {wd xd : Data} {tw tx : Nat → Word}
    (cw : wd.elems.length = Compare.count wsh) (cx : xd.elems.length = Compare.count xsh) (sz : xd.elems.length < 2^32)
    (H : ∀ u ∈ wd.elems, ∀ v ∈ xd.elems, ∃ b, part u v = some b ∧ (b = true ↔ Match h r u v)) :
    ∃ b, matchArr r part wsh wd tw xsh xd tx = some b ∧
      (b = true ↔ wsh = xsh ∧ wd.elems.length = xd.elems.length ∧
        ∀ (k : Nat) u v, wd.elems[k]? = some u → xd.elems[k]? = some v → Match h r u v) := by
  unfold matchArr
  by_cases hr : wsh.length = xsh.length
  · rw [if_neg (by simpa using hr)]
    have hsh : ∃ b, (if wsh.length = 1 then some (xd.elems.length == wd.elems.length) else eqShPart wsh xsh wsh.length) = some b ∧ (b = true ↔ wsh = xsh) := by
      by_cases h1 : wsh.length = 1
      · rw [if_pos h1]
        refine ⟨_, rfl, ?_⟩
        obtain ⟨a, rfl⟩ := List.length_eq_one_iff.1 h1
        obtain ⟨b, rfl⟩ := List.length_eq_one_iff.1 (hr ▸ h1)
        rw [cw, cx]
        show (b * 1 == a * 1) = true ↔ [a] = [b]
        rw [Nat.mul_one, Nat.mul_one, beq_iff_eq]
        exact ⟨fun e => by rw [e], fun e => (List.cons.inj e).1.symm⟩
      · rw [if_neg h1]; exact eqShPart_spec hr
    obtain ⟨s, es, hs⟩ := hsh
    simp only [es, Option.bind_some]
    cases s with
    | false =>
      refine ⟨false, rfl, ?_⟩
      have : wsh ≠ xsh := fun e => by simpa using hs.2 e
      simp [this]
    | true =>
      have e := hs.1 rfl
      have hl : wd.elems.length = xd.elems.length := by rw [cw, cx, e]
      simp only [Bool.not_true, Bool.false_eq_true, if_false]
      by_cases h0 : xd.elems.length = 0
      · rw [if_pos h0]
        refine ⟨true, rfl, ?_⟩
        simp only [true_iff]
        refine ⟨e, hl, fun k u v hu hv => ?_⟩
        rw [List.length_eq_zero_iff.1 h0] at hv; simp at hv
      · rw [if_neg h0]
        by_cases hB : wd.ty ≠ .B ∧ xd.ty ≠ .B
        · rw [if_pos hB]
          obtain ⟨b, eb, hb⟩ := typed_right (r := r) (tw := tw) (tx := tx) (by omega) (by omega) hl rfl hB.1 hB.2
          refine ⟨b, eb, hb.trans ⟨fun a => ⟨e, hl, fun k u v hu hv => ?_⟩, fun a k u v hu hv => ?_⟩⟩
          · exact (atomEq_iff (plain_elems hB.1 u (List.mem_of_getElem? hu)) (plain_elems hB.2 v (List.mem_of_getElem? hv))).1 (a k u v hu hv)
          · exact (atomEq_iff (plain_elems hB.1 u (List.mem_of_getElem? hu)) (plain_elems hB.2 v (List.mem_of_getElem? hv))).2 (a.2.2 k u v hu hv)
        · rw [if_neg hB]
          obtain ⟨b, eb, hb⟩ := loop_pairs hl rfl H
          exact ⟨b, eb, hb.trans ⟨fun a => ⟨e, hl, a⟩, fun a => a.2.2⟩⟩
  · rw [if_pos hr]
    refine ⟨false, rfl, ?_⟩
    have : wsh ≠ xsh := fun e => hr (by rw [e])
    simp [this]

theorem kind_match {t : Der} {part : Val → Val → Option Bool} (H : ∀ f g : BitVec 64, ∃ b, part (.num f) (.num g) = some b ∧ (b = true ↔ NumMatch true f g)) :
    ∃ b, part (.num (ofInt t.kind)) (.num (ofInt t.kind)) = some b ∧ b = true := by
  obtain ⟨b, e, hb⟩ := H (ofInt t.kind) (ofInt t.kind)
  refine ⟨b, e, hb.2 (Or.inl (Squeeze.eqF_self ?_))⟩
  cases t <;> decide

theorem decomposeEqual_spec {part : Val → Val → Option Bool} {s t : Der} {ps qs : List Val} (aw : ps.length = s.arity) (ax : qs.length = t.arity)
    (N : ∀ f g : BitVec 64, ∃ b, part (.num f) (.num g) = some b ∧ (b = true ↔ NumMatch true f g))
    (H : ∀ u ∈ ps, ∀ v ∈ qs, ∃ b, part u v = some b ∧ (b = true ↔ Match h true u v)) :
    ∃ b, decomposeEqual part (.der s ps) (.der t qs) = some b ∧
      (b = true ↔ s = t ∧ ps.length = qs.length ∧ ∀ (k : Nat) u v, ps[k]? = some u → qs[k]? = some v → Match h true u v) := by
  unfold decomposeEqual
  simp only [Obj.decompose]
  by_cases hst : s = t
  · subst hst
    have hl : ps.length = qs.length := aw.trans ax.symm
    rw [if_neg (by simp), if_neg (by cases s <;> decide), if_neg (by simp [hl])]
    obtain ⟨c, ec, hc⟩ := kind_match (t := s) N
    rw [List.length_cons, loop]
    simp only [List.getElem?_cons_zero, Option.bind_some, ec, hc, if_true]
    obtain ⟨b, eb, hb⟩ := loop_pairs (l := ps.length) (P := Match h true) rfl hl.symm H
    refine ⟨b, ?_, hb.trans ⟨fun a => ⟨trivial, hl, a⟩, fun a => a.2.2⟩⟩
    rw [← eb]
    have shift : ∀ (n i : Nat) (f g : Nat → Option Bool), (∀ k, f (k+1) = g k) → loop n (i+1) f = loop n i g := by
      intro n
      induction n with
      | zero => intros; rfl
      | succ n ih => intro i f g hfg; rw [loop, loop, hfg i, ih (i+1) f g hfg]
    exact shift _ _ _ _ fun k => by simp
  · rw [if_pos hst]
    exact ⟨false, rfl, by simp [hst]⟩

theorem equalN_num (h : Heap) (n : Nat) (r : Bool) (f g : BitVec 64) :
    ∃ b, equalN h (n+1) r (.num f) (.num g) = some b ∧ (b = true ↔ NumMatch r f g) := by
  rw [equalN, equalStep]
  by_cases e : (r && decide (Val.num f = Val.num g)) = true
  · rw [if_pos e]
    refine ⟨true, rfl, ?_⟩
    simp only [true_iff]
    simp only [Bool.and_eq_true, decide_eq_true_iff, Val.num.injEq] at e
    obtain ⟨rfl, rfl⟩ := e
    by_cases hf : Compare.nan f = true
    · exact Or.inr ⟨rfl, hf, hf⟩
    · have hf : Compare.nan f = false := by simpa using hf
      exact Or.inl ⟨hf, hf, rfl⟩
  · rw [if_neg e]
    exact ⟨_, rfl, num_iff⟩

/-- `equal` and `eequal` tell whether two values match. -/
theorem equalN_spec (G : Good h depth) : ∀ (n : Nat) (r : Bool) (w x : Val), vdepth depth w < n →
    ∃ b, equalN h n r w x = some b ∧ (b = true ↔ Match h r w x)
  | 0, _, _, _, hn => by omega
  | n+1, r, w, x, hn => by
    by_cases e : (r && decide (w = x)) = true
    · rw [equalN, equalStep.eq_def, if_pos e]
      simp only [Bool.and_eq_true, decide_eq_true_iff] at e
      obtain ⟨rfl, rfl⟩ := e
      exact ⟨true, rfl, by simp only [true_iff]; exact match_refl G (n+1) w hn⟩
    rw [equalN, equalStep.eq_def, if_neg e]
    have no : ∀ {P : Prop}, ¬ P → ∃ b, some false = some b ∧ (b = true ↔ P) := fun hp => ⟨false, rfl, by simp [hp]⟩
    cases w with
    | num f =>
      cases x with
      | num g => exact ⟨_, rfl, by rw [match_num]; exact num_iff⟩
      | chr d => exact no (fun m => nomatch m)
      | other j => exact no (fun m => nomatch m)
    | chr c =>
      cases x with
      | num g => exact no (fun m => nomatch m)
      | chr d => exact ⟨_, rfl, by rw [match_chr]; simp⟩
      | other j => exact no (fun m => nomatch m)
    | other i =>
      cases x with
      | num g => exact no (fun m => nomatch m)
      | chr d => exact no (fun m => nomatch m)
      | other j =>
        have hd : depth i < n := by simp only [vdepth] at hn; omega
        have rec' : ∀ r, ∀ u ∈ (h i).parts, ∀ v, ∃ b, equalN h n r u v = some b ∧ (b = true ↔ Match h r u v) := fun r u hu v =>
          equalN_spec G n r u v (Nat.lt_of_le_of_lt (vdepth_part G hu) hd)
        obtain ⟨m, rfl⟩ : ∃ m, n = m+1 := ⟨n-1, by omega⟩
        simp only []
        cases hi : h i with
        | arr wsh a tw =>
          cases hj : h j with
          | arr xsh b tx =>
            simp only []
            obtain ⟨c, ec, hc⟩ := matchArr_spec (h := h) (r := r) (tw := tw) (tx := tx) (part := equalN h (m+1) r)
              (G.count i _ _ _ hi) (G.count j _ _ _ hj) (G.size j _ _ _ hj)
              (fun u hu v _ => rec' r u (by rw [hi]; exact hu) v)
            refine ⟨c, ec, hc.trans ⟨?_, ?_⟩⟩
            · rintro ⟨rfl, hl, hm⟩; exact .arr hi hj hl hm
            · intro mm
              cases mm with
              | arr e1 e2 hl hm =>
                rw [hi] at e1; rw [hj] at e2; cases e1; cases e2
                exact ⟨rfl, hl, hm⟩
              | same e1 => exact absurd hi (e1 _ _ _)
              | der e1 e2 _ _ => rw [hi] at e1; cases e1
          | der t qs =>
            refine no fun mm => ?_
            cases mm with
            | arr e1 e2 _ _ => rw [hj] at e2; cases e2
            | same e1 => exact absurd hi (e1 _ _ _)
            | der e1 e2 _ _ => rw [hi] at e1; cases e1
          | single =>
            refine no fun mm => ?_
            cases mm with
            | arr e1 e2 _ _ => rw [hj] at e2; cases e2
            | same e1 => exact absurd hi (e1 _ _ _)
            | der e1 e2 _ _ => rw [hi] at e1; cases e1
        | der s ps =>
          cases hj : h j with
          | arr xsh b tx =>
            refine no fun mm => ?_
            cases mm with
            | arr e1 e2 _ _ => rw [hi] at e1; cases e1
            | same e1 => exact absurd hj (e1 _ _ _)
            | der e1 e2 _ _ => rw [hj] at e2; cases e2
          | der t qs =>
            simp only []
            by_cases hij : i = j
            · rw [if_pos hij]
              refine ⟨true, rfl, ?_⟩
              simp only [true_iff]
              subst hij
              exact .same fun _ _ _ e => by rw [hi] at e; cases e
            · rw [if_neg hij]
              obtain ⟨c, ec, hc⟩ := decomposeEqual_spec (h := h) (part := equalN h (m+1) true) (G.arity i _ _ hi) (G.arity j _ _ hj)
                (equalN_num h m true) (fun u hu v _ => rec' true u (by rw [hi]; exact hu) v)
              refine ⟨c, ec, hc.trans ⟨?_, ?_⟩⟩
              · rintro ⟨rfl, hl, hm⟩; exact .der hi hj hl hm
              · intro mm
                cases mm with
                | arr e1 e2 _ _ => rw [hi] at e1; cases e1
                | same e1 => exact absurd rfl hij
                | der e1 e2 hl hm =>
                  rw [hi] at e1; rw [hj] at e2; cases e1; cases e2
                  exact ⟨rfl, hl, hm⟩
          | single =>
            simp only []
            by_cases hij : i = j
            · subst hij; rw [hi] at hj; cases hj
            · rw [if_neg hij]
              refine no fun mm => ?_
              cases mm with
              | arr e1 e2 _ _ => rw [hi] at e1; cases e1
              | same e1 => exact absurd rfl hij
              | der e1 e2 _ _ => rw [hj] at e2; cases e2
        | single =>
          cases hj : h j with
          | arr xsh b tx =>
            refine no fun mm => ?_
            cases mm with
            | arr e1 e2 _ _ => rw [hi] at e1; cases e1
            | same e1 => exact absurd hj (e1 _ _ _)
            | der e1 e2 _ _ => rw [hj] at e2; cases e2
          | der t qs =>
            simp only []
            by_cases hij : i = j
            · subst hij; rw [hi] at hj; cases hj
            · rw [if_neg hij]
              refine no fun mm => ?_
              cases mm with
              | arr e1 e2 _ _ => rw [hi] at e1; cases e1
              | same e1 => exact absurd rfl hij
              | der e1 e2 _ _ => rw [hi] at e1; cases e1
          | single =>
            simp only []
            by_cases hij : i = j
            · rw [if_pos hij]
              refine ⟨true, rfl, ?_⟩
              simp only [true_iff]
              subst hij
              exact .same fun _ _ _ e => by rw [hi] at e; cases e
            · rw [if_neg hij]
              refine no fun mm => ?_
              cases mm with
              | arr e1 e2 _ _ => rw [hi] at e1; cases e1
              | same e1 => exact absurd rfl hij
              | der e1 e2 _ _ => rw [hi] at e1; cases e1

end Verif.Match
