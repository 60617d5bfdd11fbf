import Verif.Gc.Run
/-! # Freeing the objects that are not marked -/
namespace Verif.Gc

/-- `ext` and one more reference to `v` -/
def plus (ext : Nat → Nat) (v : Nat) : Nat → Nat := fun x => if x = v then ext x + 1 else ext x

theorem not_rel_nil (x : Nat) : Task.release x ∉ ([] : List Task) := List.not_mem_nil

theorem Inv.pin {hp H ext} {v : Nat} (h : Inv hp H [] ext) (hv : (H v).kind = .obj) :
    Inv hp (put H v { H v with kind := .freed, refc := (H v).refc + 1 }) ((H v).drops.map .dec) (plus ext v) := by
  have hve : (H v).kind ≠ .empty := by rw [hv]; decide
  have hvp := h.dom v hve
  have kv : (put H v { H v with kind := .freed, refc := (H v).refc + 1 } v).kind = .freed := by rw [put_self]
  have kne : ∀ y, (put H v { H v with kind := .freed, refc := (H v).refc + 1 } y).kind ≠ .empty ↔ (H y).kind ≠ .empty := by
    intro y
    by_cases e : y = v
    · subst e; rw [kv]; exact ⟨fun _ => hve, fun _ => by decide⟩
    · rw [put_ne _ _ e]
  have hhold : ∀ y, y ≠ v → (Holds (put H v { H v with kind := .freed, refc := (H v).refc + 1 }) ((H v).drops.map .dec) y ↔ Holds H [] y) := by
    intro y hy
    unfold Holds
    rw [put_ne _ _ hy]
    exact ⟨fun h => ⟨h.1, not_rel_nil y⟩, fun h => ⟨h.1, mem_decs_release _ y⟩⟩
  have hnv : ¬ Holds (put H v { H v with kind := .freed, refc := (H v).refc + 1 }) ((H v).drops.map .dec) v := by
    intro h
    have := h.1
    rw [kv] at this
    cases this
  have hheld : ∀ z, held (put H v { H v with kind := .freed, refc := (H v).refc + 1 }) hp ((H v).drops.map .dec) z + (H v).drops.count z = held H hp [] z := by
    intro z
    have hoth : ∀ y, y ≠ v →
        (if Holds (put H v { H v with kind := .freed, refc := (H v).refc + 1 }) ((H v).drops.map .dec) y then
          (put H v { H v with kind := .freed, refc := (H v).refc + 1 } y).drops.count z else 0) =
        if Holds H [] y then (H y).drops.count z else 0 := by
      intro y hy
      rw [put_ne _ _ hy]
      by_cases hh : Holds H [] y
      · rw [if_pos hh, if_pos ((hhold y hy).2 hh)]
      · rw [if_neg hh, if_neg (fun h => hh ((hhold y hy).1 h))]
    exact sum_update' h.nodup hvp hoth (if_neg hnv) (if_pos ⟨hv, not_rel_nil v⟩)
  refine ⟨h.nodup, ?_, ?_, ?_, ?_, ?_, ?_, ?_, ?_, ?_⟩
  · intro y hy; exact h.dom y ((kne y).1 hy)
  · intro y hy
    have hc := h.count y ((kne y).1 hy)
    have hh := hheld y
    rw [List.count_nil] at hc
    rw [count_decs]
    by_cases e : y = v
    · subst e
      rw [put_self]
      show (H y).refc + 1 = _
      rw [plus, if_pos rfl]
      omega
    · rw [put_ne _ _ e, plus, if_neg e]
      omega
  · intro y hy _
    have hc := h.pos y ((kne y).1 hy) (not_rel_nil y)
    by_cases e : y = v
    · subst e
      rw [put_self]
      show 0 < (H y).refc + 1
      omega
    · rw [put_ne _ _ e]; exact hc
  · intro y hr; exact absurd hr (mem_decs_release _ _)
  · intro y; rw [count_decs_release]; exact Nat.zero_le _
  · intro y hr; exact absurd hr (mem_decs_release _ _)
  · intro y hy c hc
    have e : y ≠ v := fun e => hnv (e ▸ hy)
    rw [put_ne _ _ e] at hc
    exact (kne c).2 (h.holds y ((hhold y e).1 hy) c hc)
  · intro c hc
    obtain ⟨d, hd, e⟩ := List.mem_map.1 hc
    cases e
    exact (kne c).2 (h.holds v ⟨hv, not_rel_nil v⟩ c hd)
  · intro y hy
    apply (kne y).2
    by_cases e : y = v
    · rw [e]; exact hve
    · rw [plus, if_neg e] at hy
      exact h.live y hy

theorem put_put (H : Mem) (x : Nat) (a b : Obj) : put (put H x a) x b = put H x b := by
  funext y
  by_cases e : y = x
  · subst e; rw [put_self, put_self]
  · rw [put_ne _ _ e, put_ne _ _ e, put_ne _ _ e]

/-- Dropping the extra reference. -/
theorem Inv.unpin {hp H ext} {v : Nat} (h : Inv hp H [] (plus ext v)) (hv : (H v).kind = .freed) :
    Inv hp (if (H v).refc - 1 = 0 then put H v { H v with refc := (H v).refc - 1, kind := .empty } else put H v { H v with refc := (H v).refc - 1 }) [] ext := by
  have hve : (H v).kind ≠ .empty := by rw [hv]; decide
  have hc := h.count v hve
  rw [List.count_nil, plus, if_pos rfl] at hc
  -- without the reference, but before the block is given back
  have hhold : ∀ y, Holds (put H v { H v with refc := (H v).refc - 1 }) [] y ↔ Holds H [] y := by
    intro y; unfold Holds; rw [put_refc_kind]
  have hheld : ∀ z, held (put H v { H v with refc := (H v).refc - 1 }) hp [] z = held H hp [] z := by
    intro z
    refine sum_congr fun y _ => ?_
    rw [put_refc_drops]
    by_cases hy : Holds H [] y
    · rw [if_pos hy, if_pos ((hhold y).2 hy)]
    · rw [if_neg hy, if_neg (fun h => hy ((hhold y).1 h))]
  by_cases hz : (H v).refc - 1 = 0
  · rw [if_pos hz]
    -- think of the object as being released
    have h1 : Inv hp (put H v { H v with refc := (H v).refc - 1 }) [.release v] ext := by
      have hrel : ∀ y, Task.release y ∈ [Task.release v] ↔ y = v := by
        intro y; rw [List.mem_singleton]; exact ⟨fun h => Task.release.inj h, fun h => by rw [h]⟩
      have hhold' : ∀ y, Holds (put H v { H v with refc := (H v).refc - 1 }) [.release v] y ↔ Holds H [] y := by
        intro y
        unfold Holds
        rw [put_refc_kind, hrel]
        constructor
        · intro h; exact ⟨h.1, not_rel_nil y⟩
        · intro h; exact ⟨h.1, fun e => by rw [e, hv] at h; cases h.1⟩
      have hheld' : ∀ z, held (put H v { H v with refc := (H v).refc - 1 }) hp [.release v] z = held H hp [] z := by
        intro z
        refine sum_congr fun y _ => ?_
        rw [put_refc_drops]
        by_cases hy : Holds H [] y
        · rw [if_pos hy, if_pos ((hhold' y).2 hy)]
        · rw [if_neg hy, if_neg (fun h => hy ((hhold' y).1 h))]
      refine ⟨h.nodup, ?_, ?_, ?_, ?_, ?_, ?_, ?_, ?_, ?_⟩
      · intro y hy; rw [put_refc_kind] at hy; exact h.dom y hy
      · intro y hy
        rw [put_refc_kind] at hy
        have hc' := h.count y hy
        rw [List.count_nil] at hc'
        rw [hheld', List.count_eq_zero_of_not_mem (by rw [List.mem_singleton]; exact (fun h => nomatch h))]
        by_cases e : y = v
        · subst e
          rw [put_self]
          show (H y).refc - 1 = _
          omega
        · rw [put_ne _ _ e]; rw [plus, if_neg e] at hc'; exact hc'
      · intro y hy hr
        have e : y ≠ v := fun e => hr ((hrel y).2 e)
        rw [put_ne _ _ e] at hy ⊢
        exact h.pos y hy (not_rel_nil y)
      · intro y hr
        rw [(hrel y).1 hr, put_self]; exact hz
      · intro y
        have := List.count_le_length (a := Task.release y) (l := [Task.release v])
        exact this
      · intro y hr
        rw [(hrel y).1 hr, put_refc_kind]; exact hve
      · intro y hy c hc
        rw [put_refc_drops] at hc
        rw [put_refc_kind]
        exact h.holds y ((hhold' y).1 hy) c hc
      · intro c hc; rw [List.mem_singleton] at hc; cases hc
      · intro y hy
        rw [put_refc_kind]
        apply h.live
        unfold plus
        split <;> omega
    have hcv := h1.count v (by rw [put_refc_kind]; exact hve)
    rw [put_self] at hcv
    have hcv : (H v).refc - 1 = _ := hcv
    have hd0 : [Task.release v].count (.dec v) = 0 := List.count_eq_zero_of_not_mem (by rw [List.mem_singleton]; exact (fun h => nomatch h))
    rw [hd0] at hcv
    have := h1.release (x := v) (fun h => h.2 (List.mem_singleton.2 rfl)) (by omega) (by omega) hd0 (ts' := [])
      (fun y hy => by
        rw [List.count_nil, List.count_eq_zero_of_not_mem]
        rw [List.mem_singleton]; exact fun e => hy (Task.release.inj e)) (not_rel_nil v)
      (fun y => by
        rw [List.count_nil, List.count_eq_zero_of_not_mem]
        rw [List.mem_singleton]; exact (fun h => nomatch h))
    rw [put_put, put_self] at this
    exact this
  · rw [if_neg hz]
    refine ⟨h.nodup, ?_, ?_, ?_, (fun _ h => nomatch h), fun _ => Nat.zero_le _, (fun _ h => nomatch h), ?_, (fun _ h => nomatch h), ?_⟩
    · intro y hy; rw [put_refc_kind] at hy; exact h.dom y hy
    · intro y hy
      rw [put_refc_kind] at hy
      have hc' := h.count y hy
      rw [List.count_nil] at hc' ⊢
      rw [hheld]
      by_cases e : y = v
      · subst e
        rw [put_self]
        show (H y).refc - 1 = _
        omega
      · rw [put_ne _ _ e]; rw [plus, if_neg e] at hc'; exact hc'
    · intro y hy hr
      rw [put_refc_kind] at hy
      by_cases e : y = v
      · subst e
        rw [put_self]
        show 0 < (H y).refc - 1
        omega
      · rw [put_ne _ _ e]; exact h.pos y hy hr
    · intro y hy c hc
      rw [put_refc_drops] at hc
      rw [put_refc_kind]
      exact h.holds y ((hhold y).1 hy) c hc
    · intro y hy
      rw [put_refc_kind]
      apply h.live
      unfold plus
      split <;> omega

/-- Marks, references and what is dropped stay; blocks become empty, and objects in `l` that are not marked may be half-freed. -/
def FrameF (l : List Nat) (H H' : Mem) : Prop := ∀ x, (H' x).mark = (H x).mark ∧ (H' x).refs = (H x).refs ∧ (H' x).drops = (H x).drops ∧
  ((H' x).kind = (H x).kind ∨ (H' x).kind = .empty ∨ (H' x).kind = .freed ∧ x ∈ l ∧ (H x).mark = false ∧ (H x).kind = .obj)

theorem tryFree_spec {hp H ext} {v : Nat} (h : Inv hp H [] ext) (hv : (H v).kind = .obj) (hm : (H v).mark = false) :
    ∃ H', tryFree hp v H = some H' ∧ Inv hp H' [] ext ∧ FrameF [v] H H' ∧ ((H' v).kind = .empty ∨ (H' v).kind = .freed) ∧
      ∀ K, ¬ K v → Kept H [] ext K → ∀ x, K x → (H' x).kind = .obj := by
  have hp1 := h.pin hv
  obtain ⟨H2, e, i, fr, k⟩ := run_spec _ _ _ hp1 (Nat.le_refl _)
  have kv : (put H v { H v with kind := .freed, refc := (H v).refc + 1 } v).kind = .freed := by rw [put_self]
  have hv2 : (H2 v).kind = .freed := by
    rcases (fr v).2.2.2 with hk | hk
    · rw [hk, kv]
    · exact absurd hk (i.live v (by rw [plus, if_pos rfl]; omega))
  have hu := i.unpin hv2
  have ht : tryFree hp v H = some (if (H2 v).refc - 1 = 0 then put H2 v { H2 v with refc := (H2 v).refc - 1, kind := .empty } else put H2 v { H2 v with refc := (H2 v).refc - 1 }) := by
    unfold tryFree
    rw [if_pos ⟨by rw [hv]; decide, hm⟩, hv]
    dsimp only
    unfold weight at e
    unfold runSteps
    rw [e, Option.map_some]
    congr 1
    by_cases hz : (H2 v).refc - 1 = 0
    · rw [if_pos hz, if_pos hz, put_put, put_self]
    · rw [if_neg hz, if_neg hz]
  refine ⟨_, ht, hu, ?_, ?_, ?_⟩
  · intro x
    have hx := fr x
    by_cases e : x = v
    · subst e
      rw [put_self] at hx
      obtain ⟨h1, h2, h3, _⟩ := hx
      by_cases hz : (H2 x).refc - 1 = 0
      · rw [if_pos hz, put_self]
        exact ⟨h1, h2, h3, .inr (.inl rfl)⟩
      · rw [if_neg hz, put_self]
        exact ⟨h1, h2, h3, .inr (.inr ⟨hv2, List.mem_singleton.2 rfl, hm, hv⟩)⟩
    · rw [put_ne _ _ e] at hx
      obtain ⟨h1, h2, h3, h4⟩ := hx
      by_cases hz : (H2 v).refc - 1 = 0
      · rw [if_pos hz, put_ne _ _ e]
        exact ⟨h1, h2, h3, h4.elim .inl fun h => .inr (.inl h)⟩
      · rw [if_neg hz, put_ne _ _ e]
        exact ⟨h1, h2, h3, h4.elim .inl fun h => .inr (.inl h)⟩
  · by_cases hz : (H2 v).refc - 1 = 0
    · rw [if_pos hz, put_self]; exact .inl rfl
    · rw [if_neg hz, put_self]; exact .inr hv2
  · intro K hKv hk x hx
    have ne : ∀ y, K y → y ≠ v := fun y hy e => hKv (e ▸ hy)
    have := k K (by
      intro y hy
      obtain ⟨hh, hs⟩ := hk y hy
      refine ⟨⟨by rw [put_ne _ _ (ne y hy)]; exact hh.1, mem_decs_release _ _⟩, ?_⟩
      rcases hs with hs | ⟨z, hz, hd⟩
      · exact .inl (by rw [plus, if_neg (ne y hy)]; exact hs)
      · exact .inr ⟨z, hz, by rw [put_ne _ _ (ne z hz)]; exact hd⟩) x hx
    by_cases hz : (H2 v).refc - 1 = 0
    · rw [if_pos hz, put_ne _ _ (ne x hx)]; exact this
    · rw [if_neg hz, put_ne _ _ (ne x hx)]; exact this

theorem FrameF.refl (l : List Nat) (H : Mem) : FrameF l H H := fun _ => ⟨rfl, rfl, rfl, .inl rfl⟩

/-- All objects in `l` that are not marked are freed or half-freed. -/
theorem freePass_spec {hp : List Nat} {ext : Nat → Nat} : ∀ (l : List Nat) (H : Mem), l.Nodup → Inv hp H [] ext → (∀ x ∈ l, (H x).kind ≠ .freed) →
    ∃ H', forHeap (tryFree hp) l H = some H' ∧ Inv hp H' [] ext ∧ FrameF l H H' ∧
      (∀ x ∈ l, (H x).kind = .obj → (H x).mark = false → (H' x).kind = .empty ∨ (H' x).kind = .freed) ∧
      ∀ K, (∀ x, K x → (H x).mark = true) → Kept H [] ext K → ∀ x, K x → (H' x).kind = .obj := by
  intro l
  induction l with
  | nil => exact fun H _ h _ => ⟨H, rfl, h, .refl _ H, (fun _ h => nomatch h), fun K _ hk x hx => (hk x hx).1.1⟩
  | cons v l ih =>
    intro H hn h hf
    rw [List.nodup_cons] at hn
    rw [forHeap]
    -- one step
    have step : ∃ H1, (if (H v).kind = .empty then some H else tryFree hp v H) = some H1 ∧ Inv hp H1 [] ext ∧ FrameF [v] H H1 ∧
        ((H v).kind = .obj → (H v).mark = false → (H1 v).kind = .empty ∨ (H1 v).kind = .freed) ∧
        ∀ K, (∀ x, K x → (H x).mark = true) → Kept H [] ext K → ∀ x, K x → (H1 x).kind = .obj := by
      by_cases he : (H v).kind = .empty
      · rw [if_pos he]
        exact ⟨H, rfl, h, .refl _ H, (fun ho => by rw [he] at ho; cases ho), fun K _ hk x hx => (hk x hx).1.1⟩
      · rw [if_neg he]
        by_cases hm : (H v).mark = false
        · rcases hkind : (H v).kind with _ | _ | _ | _
          · exact absurd hkind he
          · obtain ⟨H1, e, i, fr, d, k⟩ := tryFree_spec h hkind hm
            exact ⟨H1, e, i, fr, fun _ _ => d, fun K hK hk => k K (fun hv => by rw [hK v hv] at hm; cases hm) hk⟩
          · refine ⟨H, ?_, h, .refl _ H, (fun ho => by cases ho), fun K _ hk x hx => (hk x hx).1.1⟩
            unfold tryFree
            rw [if_pos ⟨he, hm⟩, hkind]
          · exact absurd hkind (hf v (List.mem_cons_self ..))
        · refine ⟨H, ?_, h, .refl _ H, fun _ hm' => absurd hm' hm, fun K _ hk x hx => (hk x hx).1.1⟩
          unfold tryFree
          rw [if_neg (fun h => hm h.2)]
    obtain ⟨H1, e1, i1, f1, d1, k1⟩ := step
    rw [e1, Option.bind_some]
    have ne : ∀ x ∈ l, x ≠ v := fun x hx e => hn.1 (e ▸ hx)
    have kind1 : ∀ x ∈ l, (H1 x).kind = (H x).kind ∨ (H1 x).kind = .empty := by
      intro x hx
      rcases (f1 x).2.2.2 with h | h | h
      · exact .inl h
      · exact .inr h
      · exact absurd (List.mem_singleton.1 h.2.1) (ne x hx)
    obtain ⟨H', e2, i2, f2, d2, k2⟩ := ih H1 hn.2 i1 (by
      intro x hx
      rcases kind1 x hx with h | h
      · rw [h]; exact hf x (List.mem_cons_of_mem _ hx)
      · rw [h]; decide)
    have emp : ∀ x, (H1 x).kind = .empty → (H' x).kind = .empty := by
      intro x h
      rcases (f2 x).2.2.2 with h' | h' | h'
      · rw [h', h]
      · exact h'
      · rw [h] at h'; cases h'.2.2.2
    refine ⟨H', e2, i2, ?_, ?_, ?_⟩
    · intro x
      refine ⟨(f2 x).1.trans (f1 x).1, (f2 x).2.1.trans (f1 x).2.1, (f2 x).2.2.1.trans (f1 x).2.2.1, ?_⟩
      rcases (f2 x).2.2.2 with h | h | h
      · rcases (f1 x).2.2.2 with h' | h' | h'
        · exact .inl (h.trans h')
        · exact .inr (.inl (h.trans h'))
        · refine .inr (.inr ⟨h.trans h'.1, ?_, h'.2.2⟩)
          rw [List.mem_singleton.1 h'.2.1]; exact List.mem_cons_self ..
      · exact .inr (.inl h)
      · obtain ⟨ha, hb, hc, hd⟩ := h
        refine .inr (.inr ⟨ha, List.mem_cons_of_mem _ hb, ?_, ?_⟩)
        · rw [← (f1 x).1]; exact hc
        · rcases kind1 x hb with h | h
          · rw [← h]; exact hd
          · rw [h] at hd; cases hd
    · intro x hx ho hm
      rcases List.mem_cons.1 hx with rfl | hx
      · rcases d1 ho hm with h | h
        · exact .inl (emp x h)
        · rcases (f2 x).2.2.2 with h' | h' | h'
          · exact .inr (h'.trans h)
          · exact .inl h'
          · rw [h] at h'; cases h'.2.2.2
      · rcases kind1 x hx with h | h
        · exact d2 x hx (h.trans ho) ((f1 x).1.trans hm)
        · exact .inl (emp x h)
    · intro K hK hk
      apply k2 K
      · intro x hx; rw [(f1 x).1]; exact hK x hx
      · intro x hx
        refine ⟨⟨k1 K hK hk x hx, not_rel_nil x⟩, ?_⟩
        rcases (hk x hx).2 with h | ⟨y, hy, hd⟩
        · exact .inl h
        · exact .inr ⟨y, hy, by rw [(f1 y).2.2.1]; exact hd⟩

/-! ## the whole collection -/

theorem Consistent.toInv {hp H ext} (h : Consistent hp H ext) : Inv hp H [] ext := by
  have hheld : ∀ x, held H hp [] x = references H hp x := by
    intro x
    refine sum_congr fun y _ => ?_
    rcases hk : (H y).kind with _ | _ | _ | _
    · rw [if_neg (fun h => by rw [h.1] at hk; cases hk), if_pos rfl]
    · rw [if_pos ⟨hk, not_rel_nil y⟩, if_neg (by decide)]
    · rw [if_neg (fun h => by rw [h.1] at hk; cases hk), if_neg (by decide), (h.aux y hk).2]; rfl
    · exact absurd hk (h.clean y)
  refine ⟨h.nodup, h.dom, ?_, fun x hx _ => h.pos x hx, (fun _ h => nomatch h), fun _ => Nat.zero_le _, (fun _ h => nomatch h), ?_, (fun _ h => nomatch h), h.live⟩
  · intro x hx
    rw [hheld, List.count_nil, h.count x hx]; omega
  · intro y hy c hc
    obtain ⟨a, ha, hk⟩ := h.drops y hy.1
    rcases List.mem_append.1 (ha.mem_iff.1 hc) with hc | hc
    · rw [h.refs y hy.1 c hc]; decide
    · rw [hk c hc]; decide

/-- Only objects have references. -/
theorem Consistent.reach_there {hp H ext} (h : Consistent hp H ext) {z : Nat} (hz : Reach H (fun x => 0 < ext x) z) : (H z).kind ≠ .empty := by
  induction hz with
  | base h0 => exact h.live _ h0
  | step hr hx ih =>
    rename_i a b
    rcases hk : (H b).kind with _ | _ | _ | _
    · exact absurd hk ih
    · rw [h.refs b hk a hx]; decide
    · rw [(h.aux b hk).1] at hx; cases hx
    · exact absurd hk (h.clean b)

theorem Inv.congr_marks {hp H ts ext} (h : Inv hp H ts ext) (m : Nat → Bool) : Inv hp (setMarks H m) ts ext :=
  ⟨h.nodup, h.dom, h.count, h.pos, h.zero, h.once, h.there, h.holds, h.tasks, h.live⟩

/-- A heap that differs by counts and freed blocks. -/
theorem Consistent.of_frame {hp : List Nat} {H H' : Mem} {ext0 ext : Nat → Nat} (h : Consistent hp H ext0) (i : Inv hp H' [] ext)
    (fr : ∀ x, (H' x).refs = (H x).refs ∧ (H' x).drops = (H x).drops ∧ ((H' x).kind = (H x).kind ∨ (H' x).kind = .empty)) :
    Consistent hp H' ext := by
  have kinds := fun x => (fr x).2.2
  have clean : ∀ x, (H' x).kind ≠ .freed := by
    intro x hx
    rcases kinds x with h' | h'
    · exact h.clean x (h'.symm.trans hx)
    · rw [h'] at hx; cases hx
  have aux' : ∀ x, (H' x).kind = .aux → (H' x).refs = [] ∧ (H' x).drops = [] := by
    intro x hx
    rw [(fr x).1, (fr x).2.1]
    rcases kinds x with h' | h'
    · exact h.aux x (h'.symm.trans hx)
    · rw [h'] at hx; cases hx
  have hheld : ∀ x, held H' hp [] x = references H' hp x := by
    intro x
    refine sum_congr fun y _ => ?_
    rcases hk : (H' y).kind with _ | _ | _ | _
    · rw [if_neg (fun h => by rw [h.1] at hk; cases hk), if_pos rfl]
    · rw [if_pos ⟨hk, not_rel_nil y⟩, if_neg (by decide)]
    · rw [if_neg (fun h => by rw [h.1] at hk; cases hk), if_neg (by decide), (aux' y hk).2]; rfl
    · exact absurd hk (clean y)
  have objs : ∀ x, (H' x).kind = .obj → (H x).kind = .obj := by
    intro x hx
    rcases kinds x with h' | h'
    · exact h'.symm.trans hx
    · rw [h'] at hx; cases hx
  refine ⟨h.nodup, i.dom, clean, ?_, ?_, aux', ?_, fun x hx => i.pos x hx (not_rel_nil x), i.live⟩
  · intro x hx
    obtain ⟨a, ha, hk⟩ := h.drops x (objs x hx)
    refine ⟨a, by rw [(fr x).1, (fr x).2.1]; exact ha, ?_⟩
    intro c hc
    have hne := i.holds x ⟨hx, not_rel_nil x⟩ c (by rw [(fr x).2.1]; exact ha.mem_iff.2 (List.mem_append_right _ hc))
    rcases kinds c with h' | h'
    · rw [h']; exact hk c hc
    · exact absurd h' hne
  · intro x hx c hc
    rw [(fr x).1] at hc
    obtain ⟨a, ha, hk⟩ := h.drops x (objs x hx)
    have hne := i.holds x ⟨hx, not_rel_nil x⟩ c (by rw [(fr x).2.1]; exact ha.mem_iff.2 (List.mem_append_left _ hc))
    rcases kinds c with h' | h'
    · rw [h']; exact h.refs x (objs x hx) c hc
    · exact absurd h' hne
  · intro x hx
    rw [i.count x hx, hheld, List.count_nil]; omega

/-- The result of freeing what is not marked is consistent again. -/
theorem free_consistent {hp : List Nat} {H : Mem} {ext : Nat → Nat} (h : Consistent hp H ext) {m : Nat → Bool}
    (hsound : ∀ x, (H x).kind = .obj → m x = true → Reach H (fun x => 0 < ext x) x)
    (hall : ∀ x, (H x).kind = .obj → 0 < ext x → m x = true)
    (hclosed : ∀ x, (H x).kind = .obj → m x = true → ∀ c ∈ (H x).refs, m c = true) :
    ∃ H', (forHeap (tryFree hp) hp (setMarks H m)).map freeFreed = some H' ∧ Consistent hp H' ext ∧
      (∀ x, (H' x).refs = (H x).refs ∧ (H' x).drops = (H x).drops ∧ ((H' x).kind = (H x).kind ∨ (H' x).kind = .empty)) ∧
      (∀ x, (H x).kind = .obj → ((H' x).kind = .obj ↔ m x = true)) := by
  have hi := h.toInv
  obtain ⟨H', e, i, fr, d, k⟩ := freePass_spec hp (setMarks H m) h.nodup (hi.congr_marks m) (fun x _ => h.clean x)
  -- marked objects support each other
  have kept : Kept (setMarks H m) [] ext (fun x => (H x).kind = .obj ∧ m x = true) := by
    rintro x ⟨hx, hm⟩
    refine ⟨⟨hx, not_rel_nil x⟩, ?_⟩
    cases hsound x hx hm with
    | base h0 => exact .inl h0
    | step hr hxy =>
      rename_i y
      have hobj : (H y).kind = .obj := by
        rcases hk : (H y).kind with _ | _ | _ | _
        · exact absurd hk (h.reach_there hr)
        · rfl
        · rw [(h.aux y hk).1] at hxy; cases hxy
        · exact absurd hk (h.clean y)
      -- reached objects are marked
      have hmark : ∀ z, Reach H (fun x => 0 < ext x) z → (H z).kind = .obj → m z = true := by
        intro z hz
        induction hz with
        | base h0 => exact fun ho => hall _ ho h0
        | step hr hx ih =>
          rename_i a b
          intro _
          rcases hk : (H b).kind with _ | _ | _ | _
          · exact absurd hk (h.reach_there hr)
          · exact hclosed b hk (ih hk) a hx
          · rw [(h.aux b hk).1] at hx; cases hx
          · exact absurd hk (h.clean b)
      obtain ⟨a, ha, _⟩ := h.drops y hobj
      exact .inr ⟨y, ⟨hobj, hmark y hr hobj⟩, ha.mem_iff.2 (List.mem_append_left _ hxy)⟩
  have k' := k _ (fun x hx => hx.2) kept
  -- an object that is not marked is now empty
  have gone : ∀ x, (H x).kind = .obj → m x = false → (H' x).kind = .empty := by
    intro x hx hm
    have hxp := h.dom x (by rw [hx]; decide)
    rcases d x hxp hx hm with hd | hd
    · exact hd
    · exfalso
      have hne : (H' x).kind ≠ .empty := by rw [hd]; decide
      have hpos := i.pos x hne (not_rel_nil x)
      have hc := i.count x hne
      rw [List.count_nil] at hc
      have hext : ext x = 0 := by
        rcases Nat.eq_zero_or_pos (ext x) with h0 | h0
        · exact h0
        · rw [hall x hx h0] at hm; cases hm
      have hh : 0 < held H' hp [] x := by omega
      obtain ⟨y, hy, hf⟩ := sum_pos hh
      by_cases hhy : Holds H' [] y
      · rw [if_pos hhy] at hf
        have hdx := List.count_pos_iff.1 hf
        rw [(fr y).2.2.1] at hdx
        have hyo : (H y).kind = .obj := by
          rcases (fr y).2.2.2 with h' | h' | h'
          · rw [hhy.1] at h'; exact h'.symm
          · rw [hhy.1] at h'; cases h'
          · exact h'.2.2.2
        have hym : m y = true := by
          rcases hmy : m y with _ | _
          · rcases d y hy hyo hmy with h' | h'
            · rw [hhy.1] at h'; cases h'
            · rw [hhy.1] at h'; cases h'
          · rfl
        obtain ⟨a, ha, hk⟩ := h.drops y hyo
        rcases List.mem_append.1 (ha.mem_iff.1 hdx) with hc | hc
        · rw [hclosed y hyo hym x hc] at hm; cases hm
        · rw [hk x hc] at hx; cases hx
      · rw [if_neg hhy] at hf; exact absurd hf (by omega)
  have kinds : ∀ x, (H' x).kind = (H x).kind ∨ (H' x).kind = .empty := by
    intro x
    rcases (fr x).2.2.2 with h' | h' | h'
    · exact .inl h'
    · exact .inr h'
    · have := gone x h'.2.2.2 h'.2.2.1
      exact .inr this
  have clean : ∀ x, (H' x).kind ≠ .freed := by
    intro x hx
    rcases kinds x with h' | h'
    · exact h.clean x (h'.symm.trans hx)
    · rw [h'] at hx; cases hx
  have hff : freeFreed H' = H' := by
    funext x
    exact if_neg (clean x)
  refine ⟨H', by rw [e, Option.map_some, hff], h.of_frame i (fun x => ⟨(fr x).2.1, (fr x).2.2.1, kinds x⟩), ?_, ?_⟩
  · exact fun x => ⟨(fr x).2.1, (fr x).2.2.1, kinds x⟩
  · intro x hx
    constructor
    · intro ho
      rcases hm : m x with _ | _
      · rw [gone x hx hm] at ho; cases ho
      · rfl
    · exact fun hm => k' x ⟨hx, hm⟩

end Verif.Gc
