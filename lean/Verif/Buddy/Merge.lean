import Verif.Buddy.Ops
/-! Lemmas about the buddy allocator: merging, enumeration, accounting. -/
namespace Verif.Buddy

theorem tiles_next {sz : Nat → Nat} : ∀ {as : List Nat} {p e a}, tiles sz p e as → a ∈ as → a + sz a = e ∨ a + sz a ∈ as
  | [], p, e, a, h, ha => by simp at ha
  | x :: as, p, e, a, h, ha => by
    obtain ⟨h1, h2⟩ := h
    rcases List.mem_cons.1 ha with ea | ha'
    · cases as with
      | nil => left; simp only [tiles] at h2; subst ea; omega
      | cons y ys => right; rw [ea, h1, ← h1]; have := h2.1; simp; subst h1; right; left; rw [this]
    · rcases tiles_next h2 ha' with h3 | h3
      · exact .inl h3
      · exact .inr (List.mem_cons_of_mem _ h3)

section
variable {mul : Nat} {h : Heap} {T : Nat → List Nat} {sz : Nat → Nat} {L hole : Nat → Prop} {V : List Nat}

theorem Core.inRegion (H : Core mul h T sz L hole V) {a : Nat} {r : Nat × Nat} (ha : Blk h T a) (hr : r ∈ h.al) (h1 : r.1 ≤ a) (h2 : a < r.1 + r.2) :
    a ∈ T r.1 := by
  obtain ⟨s, hs, has⟩ := ha
  rcases H.regc hs hr with rfl | hd
  · exact has
  · have h3 := tiles_mem (H.tile s hs) has
    have := H.pos a ⟨s, hs, has⟩
    rcases hd with hd | hd <;> omega

theorem Core.next (H : Core mul h T sz L hole V) {a : Nat} {r : Nat × Nat} (ha : Blk h T a) (hr : r ∈ h.al) (h1 : r.1 ≤ a) (h2 : a < r.1 + r.2) :
    a + sz a ≤ r.1 + r.2 ∧ (a + sz a ≠ r.1 + r.2 → Blk h T (a + sz a)) := by
  have h3 := H.inRegion ha hr h1 h2
  refine ⟨(tiles_mem (H.tile r hr) h3).2, fun h4 => ⟨r, hr, ?_⟩⟩
  rcases tiles_next (H.tile r hr) h3 with h5 | h5
  · exact absurd h5 h4
  · exact h5

theorem Core.first (H : Core mul h T sz L hole V) {r : Nat × Nat} (hr : r ∈ h.al) : Blk h T r.1 := by
  refine ⟨r, hr, ?_⟩
  have h1 := H.tile r hr
  have h2 := H.base r hr
  cases e : T r.1 with
  | nil => rw [e] at h1; simp only [tiles] at h1; omega
  | cons x xs => rw [e] at h1; rw [h1.1]; simp

theorem Core.addL (H : Core mul h T sz L hole V) {c : Nat} (hc : c ∈ V) : Core mul h T sz (fun a => L a ∨ a = c) hole V := by
  obtain ⟨hB, hh, hk⟩ := (H.vmem c).1 hc
  constructor
  · exact H.tile
  · exact H.reg
  · exact H.base
  · exact H.pos
  · exact H.size
  · rintro a (ha | rfl)
    · exact H.LB a ha
    · exact hB
  · intro a ha
    refine ⟨(H.holeB a ha).1, ?_⟩
    rintro (e | rfl)
    · exact (H.holeB a ha).2 e
    · exact hh ha
  · intro d hd
    obtain ⟨F, h1, h2, h3⟩ := H.chn d hd
    refine ⟨F, h1, h2, fun a => ?_⟩
    rw [h3 a]
    constructor
    · rintro ⟨e1, e2⟩; exact ⟨.inl e1, e2⟩
    · rintro ⟨e1 | e1, e2⟩
      · exact ⟨e1, e2⟩
      · exact absurd (e1 ▸ e2.1) hk
  · exact H.vnd
  · exact H.vmem
  · exact H.cnt

/-- Redistributing the run of free memory ending at `q`. -/
theorem flush_at (hm : 0 < mul) {p e q es : Nat} {U : Nat → Prop} (hU : ∀ a, p ≤ a → a < e → ¬ U a) (hr : (p, e - p) ∈ h.al) (hpe : p ≤ e)
    (hes : es ≠ 0) (H : Core mul h T sz L (fun a => a = q - es * mul) V) (hle : p + es * mul ≤ q) (hq : q ≤ e)
    (hs : sz (q - es * mul) = es * mul) (hL : ∀ a, L a ↔ (Blk h T a ∧ ¬ (q - es * mul ≤ a ∧ a < e) ∧ ¬ U a)) :
    ∃ T' sz' L', Core mul (flush mul h (q - es * mul) es) T' sz' L' (fun _ => False) V ∧
      (∀ a, L' a ↔ (Blk (flush mul h (q - es * mul) es) T' a ∧ ¬ (q ≤ a ∧ a < e) ∧ ¬ U a)) ∧
      (flush mul h (q - es * mul) es).al = h.al ∧
      (∀ a, Blk h T a → a ≠ q - es * mul → (flush mul h (q - es * mul) es).hdr a = h.hdr a) ∧
      (∀ a, Blk h T a → Blk (flush mul h (q - es * mul) es) T' a) := by
  have hes64 : es < 2^64 := by
    have hb := (H.holeB _ rfl).1
    have hpos := Nat.mul_pos (Nat.pos_of_ne_zero hes) hm
    have h1 := (H.next hb hr (by simp; omega) (by simp; omega)).1
    have h2 := (H.base _ hr).2.2
    rw [hs] at h1
    simp at h1 h2
    have h3 : es * mul ≤ mul * 2^63 := by unfold bsz at h2; omega
    rw [Nat.mul_comm] at h3
    have := Nat.le_of_mul_le_mul_left h3 hm
    omega
  obtain ⟨T', sz', L', c1, c2, c3, c4, c5, c6, c7, c8, c9⟩ := flush_core hm es h T sz L V (q - es * mul) (by omega) hes64 H hs
  rw [show q - es * mul + es * mul = q by omega] at c6 c7 c8
  refine ⟨T', sz', L', c1, ?_, c2, c3, c4⟩
  intro a
  constructor
  · intro ha
    refine ⟨c1.LB a ha, ?_⟩
    rcases c8 a ha with h1 | h1
    · have := (hL a).1 h1
      exact ⟨fun h2 => this.2.1 ⟨by omega, h2.2⟩, this.2.2⟩
    · exact ⟨by omega, hU a (by omega) (by omega)⟩
  · rintro ⟨h1, h2, h3⟩
    by_cases h4 : q - es * mul ≤ a ∧ a < q
    · exact c7 a h1 h4.1 h4.2
    · apply c5
      rw [hL]
      refine ⟨?_, ?_, h3⟩
      · apply Classical.byContradiction
        intro h5
        exact h4 (c6 a h1 h5)
      · intro h5
        by_cases h6 : a < q
        · exact h4 ⟨h5.1, h6⟩
        · exact h2 ⟨by omega, h5.2⟩

/-- The first step at a block: a freed one becomes empty. -/
theorem unfree (H : Core mul h T sz L hole V) {c : Nat} (hcL : ¬ L c) (hch : ¬ hole c) (hB : Blk h T c) :
    ∃ V1, Core mul (if (h.hdr c).kind = .freed then freeLink h c false else h) T sz L hole V1 ∧
      (if (h.hdr c).kind = .freed then freeLink h c false else h).al = h.al ∧
      (∀ a, a ≠ c → (if (h.hdr c).kind = .freed then freeLink h c false else h).hdr a = h.hdr a) ∧
      ((if (h.hdr c).kind = .freed then freeLink h c false else h).hdr c).info = (h.hdr c).info ∧
      (((if (h.hdr c).kind = .freed then freeLink h c false else h).hdr c).kind ≠ .empty →
        (if (h.hdr c).kind = .freed then freeLink h c false else h).hdr c = h.hdr c) ∧
      (∀ a, a ∈ V1 ↔ (a ∈ V ∧ ¬ (a = c ∧ (h.hdr a).kind = .freed))) := by
  by_cases hk : (h.hdr c).kind = .freed
  · have hV : c ∈ V := (H.vmem c).2 ⟨hB, hch, by rw [hk]; simp⟩
    have e : freeLink h c false = ({ h with ctr := upd h.ctr (h.hdr c).info (h.ctr (h.hdr c).info - 1) } : Heap).setHdr c { h.hdr c with kind := .empty } := by
      simp [freeLink, Heap.setHdr]
    simp only [hk, if_true, e]
    refine ⟨V.erase c, (H.setEmpty hV).congr (fun a => ?_) (fun a => Iff.rfl), rfl, fun a ha => upd_ne _ _ ha, ?_, ?_, ?_⟩
    · exact ⟨fun h => ⟨h, by rintro rfl; exact hcL h⟩, fun h => h.1⟩
    · show (upd h.hdr c _ c).info = _; rw [upd_eq]
    · show (upd h.hdr c _ c).kind ≠ _ → _; rw [upd_eq]; intro h; exact absurd rfl h
    · intro a
      by_cases hac : a = c
      · subst hac; simp [hk, H.vnd.not_mem_erase]
      · rw [List.mem_erase_of_ne hac]; simp [hac]
  · rw [if_neg hk]
    refine ⟨V, H, rfl, fun _ _ => rfl, rfl, fun _ => rfl, ?_⟩
    intro a
    constructor
    · intro ha; exact ⟨ha, by rintro ⟨rfl, h2⟩; exact hk h2⟩
    · exact fun h => h.1

theorem walk_core (hm : 0 < mul) {p e : Nat} {U : Nat → Prop} (hpe : p ≤ e) (hU : ∀ a, p ≤ a → a < e → ¬ U a) :
    ∀ (fuel : Nat) (h : Heap) (T : Nat → List Nat) (sz : Nat → Nat) (L : Nat → Prop) (V : List Nat) (c es : Nat),
    (p, e - p) ∈ h.al → c < e → Blk h T c → Core mul h T sz L (fun a => es ≠ 0 ∧ a = c - es * mul) V → p + es * mul ≤ c →
    (es ≠ 0 → sz (c - es * mul) = es * mul) →
    (∀ a, L a ↔ (Blk h T a ∧ ¬ (c - es * mul ≤ a ∧ a < e) ∧ ¬ U a)) → e - c ≤ fuel →
    ∃ h' T' sz' V', walk mul e h c es fuel = some h' ∧ Core mul h' T' sz' (fun a => Blk h' T' a ∧ ¬ U a) (fun _ => False) V' ∧
      h'.al = h.al ∧ (∀ a, a ∈ V' ↔ (a ∈ V ∧ ¬ ((h.hdr a).kind = .freed ∧ c ≤ a ∧ a < e))) ∧ (∀ a ∈ V', h'.hdr a = h.hdr a)
  | 0, h, T, sz, L, V, c, es, _, hce, _, _, _, _, _, hf => by omega
  | fuel+1, h, T, sz, L, V, c, es, hr, hce, hB, H, hle, hs, hL, hf => by
    have hcL : ¬ L c := fun e1 => ((hL c).1 e1).2.1 ⟨by omega, hce⟩
    have hch : ¬ (es ≠ 0 ∧ c = c - es * mul) := by
      rintro ⟨h1, h2⟩
      have := Nat.mul_pos (Nat.pos_of_ne_zero h1) hm
      omega
    have hsz := H.size c hB hch
    have hpos := H.pos c hB
    have hnx := H.next hB hr (by simp; omega) (by simp; omega)
    simp only [show p + (e - p) = e by omega] at hnx
    unfold walk
    simp only
    obtain ⟨V1, H1, ha1, hh1, hi1, hk1, hV1⟩ := unfree H hcL hch hB
    generalize hh1e : (if (h.hdr c).kind = .freed then freeLink h c false else h) = h1 at *
    rw [hi1]
    rw [hsz.1] at hnx hpos
    have hB1 : ∀ a, Blk h1 T a ↔ Blk h T a := fun a => by unfold Blk; rw [ha1]
    -- the step
    have hstep : ∃ (h2 : Heap) (es2 : Nat) (T2 : Nat → List Nat) (sz2 : Nat → Nat) (L2 : Nat → Prop),
        (if (h1.hdr c).kind = .empty then (h1, es + 2^(h.hdr c).info)
          else if es > 0 then (flush mul h1 (c - es * mul) es, 0) else (h1, es)) = (h2, es2) ∧
        Core mul h2 T2 sz2 L2 (fun a => es2 ≠ 0 ∧ a = c + bsz mul (h.hdr c).info - es2 * mul) V1 ∧ h2.al = h.al ∧
        p + es2 * mul ≤ c + bsz mul (h.hdr c).info ∧
        (es2 ≠ 0 → sz2 (c + bsz mul (h.hdr c).info - es2 * mul) = es2 * mul) ∧
        (∀ a, L2 a ↔ (Blk h2 T2 a ∧ ¬ (c + bsz mul (h.hdr c).info - es2 * mul ≤ a ∧ a < e) ∧ ¬ U a)) ∧
        (c + bsz mul (h.hdr c).info ≠ e → Blk h2 T2 (c + bsz mul (h.hdr c).info)) ∧
        (∀ a ∈ V1, h2.hdr a = h.hdr a) := by
      have hV1h : ∀ a ∈ V1, h1.hdr a = h.hdr a := by
        intro a ha
        by_cases hac : a = c
        · subst hac; exact hk1 ((H1.vmem a).1 ha).2.2
        · exact hh1 a hac
      by_cases hk : (h1.hdr c).kind = .empty
      · rw [if_pos hk]
        refine ⟨h1, es + 2^(h.hdr c).info, ?_⟩
        have hb : bsz mul (h.hdr c).info = 2^(h.hdr c).info * mul := Nat.mul_comm _ _
        have hn : c + bsz mul (h.hdr c).info - (es + 2^(h.hdr c).info) * mul = c - es * mul := by
          rw [Nat.add_mul, ← hb]; omega
        have hn2 : (es + 2^(h.hdr c).info) * mul = es * mul + bsz mul (h.hdr c).info := by rw [Nat.add_mul, ← hb]
        have hnz : es + 2^(h.hdr c).info ≠ 0 := by have := Nat.two_pow_pos (h.hdr c).info; omega
        rw [hn]
        by_cases hes : es = 0
        · subst hes
          refine ⟨T, sz, L, rfl, (H1.dig ((hB1 c).2 hB) hcL hk).congr (fun _ => Iff.rfl) ?_, ha1, ?_, ?_, ?_, ?_, hV1h⟩
          · intro a; simp
          · rw [hn2]; omega
          · intro _; rw [hn2]; simp [hsz.1]
          · intro a; rw [hB1]; exact hL a
          · intro hne; rw [hB1]; exact hnx.2 hne
        · have hposes := Nat.mul_pos (Nat.pos_of_ne_zero hes) hm
          have hse := hs hes
          have hcc : c - es * mul + sz (c - es * mul) = c := by rw [hse]; omega
          have hBh := (H1.holeB (c - es * mul) ⟨hes, rfl⟩).1
          obtain ⟨T2, H2, hB2, -, -, -⟩ := H1.coalesce (c := c - es * mul) ⟨hes, rfl⟩ (by rw [hcc]; exact (hB1 c).2 hB)
            (by rw [hcc]; exact hcL) (by rw [hcc]; exact hk) (r := (p, e - p)) (by rw [ha1]; exact hr)
            (H1.inRegion hBh (by rw [ha1]; exact hr) (by simp; omega) (by simp; omega)) (by rw [hcc]; simp; omega)
          rw [hcc] at H2 hB2
          refine ⟨T2, _, L, rfl, H2.congr (fun _ => Iff.rfl) ?_, ha1, ?_, ?_, ?_, ?_, hV1h⟩
          · intro a
            constructor
            · rintro ⟨_, rfl⟩; exact ⟨⟨hes, rfl⟩, by omega⟩
            · rintro ⟨⟨_, h2⟩, _⟩; exact ⟨hnz, h2⟩
          · rw [hn2]; omega
          · intro _; rw [upd_eq, hse, hn2, hsz.1]
          · intro a
            rw [hL a, hB2, hB1]
            constructor
            · rintro ⟨e1, e2, e3⟩; exact ⟨⟨e1, by rintro rfl; exact e2 ⟨by omega, hce⟩⟩, e2, e3⟩
            · rintro ⟨⟨e1, _⟩, e2⟩; exact ⟨e1, e2⟩
          · intro hne; rw [hB2, hB1]; exact ⟨hnx.2 hne, by omega⟩
      · rw [if_neg hk]
        have hcV : c ∈ V1 := (H1.vmem c).2 ⟨(hB1 c).2 hB, hch, hk⟩
        by_cases hes : es > 0
        · rw [if_pos hes]
          have hposes := Nat.mul_pos hes hm
          obtain ⟨T2, sz2, L2, H2, hL2, ha2, hh2, hB2⟩ := flush_at hm (h := h1) (T := T) (L := L) (q := c) hU (by rw [ha1]; exact hr) hpe (by omega : es ≠ 0)
            (H1.congr (fun _ => Iff.rfl) (fun a => ⟨fun e1 => ⟨by omega, e1⟩, fun e1 => e1.2⟩)) hle (by omega) (hs (by omega))
            (fun a => by rw [hB1]; exact hL a)
          refine ⟨_, 0, T2, sz2, _, rfl, (H2.addL hcV).congr (fun _ => Iff.rfl) (by simp), ha2.trans ha1, by omega, fun e1 => absurd rfl e1, ?_, ?_, ?_⟩
          · intro a
            rw [hL2 a]
            have hBc2 := hB2 c ((hB1 c).2 hB)
            constructor
            · rintro (⟨e1, e2, e3⟩ | rfl)
              · exact ⟨e1, fun e4 => e2 ⟨by omega, e4.2⟩, e3⟩
              · exact ⟨hBc2, by omega, hU a (by omega) hce⟩
            · rintro ⟨e1, e2, e3⟩
              by_cases hac : a = c
              · exact .inr hac
              · refine .inl ⟨e1, ?_, e3⟩
                rintro ⟨e4, e5⟩
                have h6 := H2.apart hBc2 e1 (Ne.symm hac)
                have h7 := H2.size c hBc2 (by simp)
                rw [hh2 c ((hB1 c).2 hB) (by omega), hi1] at h7
                have h8 := H2.pos a e1
                rw [h7.1] at h6
                exact e2 ⟨by omega, e5⟩
          · intro hne; exact hB2 _ ((hB1 _).2 (hnx.2 hne))
          · intro a ha
            have hav := (H1.vmem a).1 ha
            rw [hh2 a hav.1 (fun e1 => hav.2.1 ⟨by omega, e1⟩)]
            exact hV1h a ha
        · rw [if_neg hes]
          have hes0 : es = 0 := by omega
          subst hes0
          refine ⟨h1, 0, T, sz, _, rfl, (H1.addL hcV).congr (fun _ => Iff.rfl) (by simp), ha1, by omega, fun e1 => absurd rfl e1, ?_, ?_, hV1h⟩
          · intro a
            rw [hL a, hB1]
            constructor
            · rintro (⟨e1, e2, e3⟩ | rfl)
              · exact ⟨e1, fun e4 => e2 ⟨by omega, e4.2⟩, e3⟩
              · exact ⟨hB, by omega, hU a (by omega) hce⟩
            · rintro ⟨e1, e2, e3⟩
              by_cases hac : a = c
              · exact .inr hac
              · refine .inl ⟨e1, ?_, e3⟩
                rintro ⟨e4, e5⟩
                have h6 := H.apart hB e1 (Ne.symm hac)
                have h8 := H.pos a e1
                rw [hsz.1] at h6
                exact e2 ⟨by omega, e5⟩
          · intro hne; rw [hB1]; exact hnx.2 hne
    obtain ⟨h2, es2, T2, sz2, L2, e2, H2, ha2, hle2, hs2, hL2, hB2, hV2⟩ := hstep
    rw [e2]
    simp only
    have hVm : ∀ a, a ∈ V1 ↔ (a ∈ V ∧ ¬ ((h.hdr a).kind = .freed ∧ c ≤ a ∧ a < c + bsz mul (h.hdr c).info)) := by
      intro a
      rw [hV1 a]
      constructor
      · rintro ⟨e3, e4⟩
        refine ⟨e3, ?_⟩
        rintro ⟨e5, e6, e7⟩
        by_cases hac : a = c
        · exact e4 ⟨hac, e5⟩
        · have hBa := ((H.vmem a).1 e3).1
          have h6 := H.apart hB hBa (Ne.symm hac)
          have h8 := H.pos a hBa
          rw [hsz.1] at h6
          omega
      · rintro ⟨e3, e4⟩
        refine ⟨e3, ?_⟩
        rintro ⟨rfl, e5⟩
        exact e4 ⟨e5, by omega, by omega⟩
    by_cases hend : c + bsz mul (h.hdr c).info = e
    · rw [if_pos hend]
      by_cases hes2 : es2 ≠ 0
      · rw [if_pos hes2]
        rw [hend] at H2 hs2 hL2 hle2
        obtain ⟨T3, sz3, L3, H3, hL3, ha3, hh3, hB3⟩ := flush_at hm (h := h2) (T := T2) (L := L2) (q := e) hU (by rw [ha2]; exact hr) hpe hes2
          (H2.congr (fun _ => Iff.rfl) (fun a => ⟨fun e1 => ⟨hes2, e1⟩, fun e1 => e1.2⟩)) hle2 (Nat.le_refl _) (hs2 hes2) hL2
        refine ⟨_, T3, sz3, V1, rfl, H3.congr (fun a => ?_) (fun _ => Iff.rfl), ha3.trans ha2, ?_, ?_⟩
        · rw [hL3 a]
          constructor
          · rintro ⟨e1, e2⟩; exact ⟨e1, by omega, e2⟩
          · rintro ⟨e1, _, e2⟩; exact ⟨e1, e2⟩
        · intro a; rw [hVm a, hend]
        · intro a ha
          have hav := (H2.vmem a).1 ha
          rw [hh3 a hav.1 (fun e1 => hav.2.1 ⟨hes2, e1⟩)]
          exact hV2 a ha
      · rw [if_neg hes2]
        have hes0 : es2 = 0 := by omega
        subst hes0
        refine ⟨_, T2, sz2, V1, rfl, H2.congr (fun a => ?_) (by simp), ha2, ?_, hV2⟩
        · rw [hL2 a, hend]
          constructor
          · rintro ⟨e1, e2⟩; exact ⟨e1, by omega, e2⟩
          · rintro ⟨e1, _, e2⟩; exact ⟨e1, e2⟩
        · intro a; rw [hVm a, hend]
    · rw [if_neg hend]
      obtain ⟨h', T', sz', V', r1, r2, r3, r4, r5⟩ := walk_core hm hpe hU fuel h2 T2 sz2 L2 V1 _ es2 (by rw [ha2]; exact hr) (by omega) (hB2 hend) H2 hle2 hs2 hL2 (by omega)
      refine ⟨h', T', sz', V', r1, r2, r3.trans ha2, ?_, ?_⟩
      · intro a
        rw [r4 a, hVm a]
        constructor
        · rintro ⟨⟨e1, e3⟩, e4⟩
          refine ⟨e1, ?_⟩
          rintro ⟨e5, e6, e7⟩
          have ha1 : a ∈ V1 := (hVm a).2 ⟨e1, e3⟩
          rw [hV2 a ha1] at e4
          by_cases h9 : a < c + bsz mul (h.hdr c).info
          · exact e3 ⟨e5, e6, h9⟩
          · exact e4 ⟨e5, by omega, e7⟩
        · rintro ⟨e1, e3⟩
          have e4 : a ∈ V1 := (hVm a).2 ⟨e1, by rintro ⟨e5, e6, e7⟩; exact e3 ⟨e5, e6, by omega⟩⟩
          refine ⟨(hVm a).1 e4, ?_⟩
          rw [hV2 a e4]
          rintro ⟨e5, e6, e7⟩
          exact e3 ⟨e5, by omega, e7⟩
      · intro a ha
        rw [r5 a ha]
        exact hV2 a ((r4 a).1 ha).1

/-- `a` is in one of the ranges. -/
def InR (rs : List (Nat × Nat)) (a : Nat) : Prop := ∃ r ∈ rs, r.1 ≤ a ∧ a < r.1 + r.2

theorem walkAll_core (hm : 0 < mul) : ∀ (rs : List (Nat × Nat)) (h : Heap) (T : Nat → List Nat) (sz : Nat → Nat) (V : List Nat),
    (∀ r ∈ rs, r ∈ h.al) → rs.Pairwise disj →
    Core mul h T sz (fun a => Blk h T a ∧ ¬ InR rs a) (fun _ => False) V →
    ∃ h' T' sz' V', walkAll mul h rs = some h' ∧ Core mul h' T' sz' (fun a => Blk h' T' a) (fun _ => False) V' ∧
      h'.al = h.al ∧ (∀ a, a ∈ V' ↔ (a ∈ V ∧ ¬ ((h.hdr a).kind = .freed ∧ InR rs a))) ∧ (∀ a ∈ V', h'.hdr a = h.hdr a)
  | [], h, T, sz, V, _, _, H => by
    refine ⟨h, T, sz, V, rfl, H.congr (fun a => ?_) (fun _ => Iff.rfl), rfl, fun a => ?_, fun _ _ => rfl⟩
    · simp [InR]
    · simp [InR]
  | (p, s) :: rs, h, T, sz, V, hrs, hd, H => by
    obtain ⟨hd1, hd2⟩ := List.pairwise_cons.1 hd
    have hr := hrs (p, s) (by simp)
    have hb := H.base _ hr
    simp only at hb
    have hIn : ∀ a, InR ((p, s) :: rs) a ↔ ((p ≤ a ∧ a < p + s) ∨ InR rs a) := by
      intro a; simp [InR]
    obtain ⟨h1, T1, sz1, V1, w1, H1, ha1, hV1, hh1⟩ := walk_core hm (p := p) (e := p + s) (U := InR rs) (by omega) (by
        rintro a h1 h2 ⟨r, hr, h3, h4⟩
        have := hd1 r hr
        rcases this with h5 | h5 <;> simp at h5 <;> omega) s h T sz _ V p 0 (by rw [show p + s - p = s by omega]; exact hr) (by omega)
      (H.first hr) (H.congr (L' := fun a => Blk h T a ∧ ¬ (p - 0 * mul ≤ a ∧ a < p + s) ∧ ¬ InR rs a) (by
        intro a; rw [hIn]
        constructor
        · rintro ⟨e1, e2, e3⟩
          refine ⟨e1, ?_⟩
          rintro (e4 | e4)
          · exact e2 ⟨by omega, e4.2⟩
          · exact e3 e4
        · rintro ⟨e1, e2⟩
          exact ⟨e1, fun e3 => e2 (.inl ⟨by omega, e3.2⟩), fun e3 => e2 (.inr e3)⟩) (by simp)) (by omega) (fun e => absurd rfl e) (fun a => Iff.rfl) (by omega)
    obtain ⟨h2, T2, sz2, V2, w2, H2, ha2, hV2, hh2⟩ := walkAll_core hm rs h1 T1 sz1 V1 (fun r hr => by rw [ha1]; exact hrs r (by simp [hr])) hd2 H1
    refine ⟨h2, T2, sz2, V2, ?_, H2, ha2.trans ha1, ?_, ?_⟩
    · unfold walkAll; rw [w1]; exact w2
    · intro a
      rw [hV2 a, hIn]
      constructor
      · rintro ⟨e1, e2⟩
        rw [hh1 a e1] at e2
        obtain ⟨e3, e4⟩ := (hV1 a).1 e1
        refine ⟨e3, ?_⟩
        rintro ⟨e5, e6 | e6⟩
        · exact e4 ⟨e5, e6⟩
        · exact e2 ⟨e5, e6⟩
      · rintro ⟨e1, e2⟩
        have e3 : a ∈ V1 := (hV1 a).2 ⟨e1, fun e4 => e2 ⟨e4.1, .inl e4.2⟩⟩
        refine ⟨e3, ?_⟩
        rw [hh1 a e3]
        exact fun e4 => e2 ⟨e4.1, .inr e4.2⟩
    · intro a ha
      rw [hh2 a ha]
      exact hh1 a ((hV2 a).1 ha).1

/-- `freeFreedAndMerge` succeeds, keeps the invariant and the allocated blocks that were not freed. -/
theorem merge_core (hm : 0 < mul) (H : Inv mul h V) :
    ∃ h' V', freeFreedAndMerge mul h = some h' ∧ Inv mul h' V' ∧ h'.al = h.al ∧
      (∀ a, a ∈ V' ↔ (a ∈ V ∧ (h.hdr a).kind ≠ .freed)) ∧ (∀ a ∈ V', h'.hdr a = h.hdr a) := by
  obtain ⟨T, sz, H⟩ := H
  have hIn : ∀ a, Blk h T a → InR h.al a := by
    rintro a ⟨r, hr, har⟩
    have h1 := tiles_mem (H.tile r hr) har
    have h2 := H.pos a ⟨r, hr, har⟩
    exact ⟨r, hr, by omega, by omega⟩
  have H0 : Core mul { h with bkt := fun _ => 0 } T sz (fun a => Blk h T a ∧ ¬ InR h.al a) (fun _ => False) V := by
    constructor
    · exact H.tile
    · exact H.reg
    · exact H.base
    · exact H.pos
    · exact H.size
    · intro a ha; exact ha.1
    · exact fun a ha => ha.elim
    · intro b hb
      refine ⟨[], rfl, List.nodup_nil, fun a => ?_⟩
      constructor
      · intro e; simp at e
      · rintro ⟨⟨e1, e2⟩, _⟩; exact absurd (hIn a e1) e2
    · exact H.vnd
    · exact H.vmem
    · exact H.cnt
  obtain ⟨h', T', sz', V', w, H', ha, hV, hh⟩ := walkAll_core hm h.al { h with bkt := fun _ => 0 } T sz V (fun _ h => h) H.reg H0
  refine ⟨h', V', w, ⟨T', sz', H'⟩, ha, fun a => ?_, hh⟩
  rw [hV a]
  constructor
  · rintro ⟨e1, e2⟩
    exact ⟨e1, fun e3 => e2 ⟨e3, hIn a ((H.vmem a).1 e1).1⟩⟩
  · rintro ⟨e1, e2⟩
    exact ⟨e1, fun e3 => e2 e3.1⟩

/-! ### enumeration and accounting -/

theorem blocksOf_eq (hm : 0 < mul) (h : Heap) (e : Nat) : ∀ (fuel : Nat) (as : List Nat) (p : Nat), tiles sz p e as →
    (∀ a ∈ as, sz a = bsz mul (h.hdr a).info) → e - p ≤ fuel → blocksOf mul e h p fuel = some (as.filter fun a => (h.hdr a).kind ≠ .empty)
  | 0, [], p, ht, _, _ => by simp only [tiles] at ht; subst ht; simp [blocksOf]
  | 0, a :: as, p, ht, hs, hf => by
    have h1 := tiles_mem ht (a := a) (by simp)
    have h2 := hs a (by simp)
    have := bsz_pos hm (h.hdr a).info
    omega
  | fuel+1, [], p, ht, _, _ => by simp only [tiles] at ht; subst ht; simp [blocksOf]
  | fuel+1, a :: as, p, ht, hs, hf => by
    have h1 := tiles_mem ht (a := a) (by simp)
    have h2 := hs a (by simp)
    have h3 := bsz_pos hm (h.hdr a).info
    obtain ⟨rfl, h4⟩ := ht
    unfold blocksOf
    rw [if_neg (by omega)]
    rw [← h2, blocksOf_eq hm h e fuel as _ h4 (fun b hb => hs b (by simp [hb])) (by omega)]
    simp [List.filter_cons]

theorem forHeap_eq (hm : 0 < mul) (h : Heap) : ∀ (rs : List (Nat × Nat)), (∀ r ∈ rs, tiles sz r.1 (r.1 + r.2) (T r.1)) →
    (∀ r ∈ rs, ∀ a ∈ T r.1, sz a = bsz mul (h.hdr a).info) →
    forHeap mul h rs = some (rs.flatMap fun r => (T r.1).filter fun a => (h.hdr a).kind ≠ .empty)
  | [], _, _ => rfl
  | (p, s) :: rs, ht, hs => by
    unfold forHeap
    rw [blocksOf_eq hm h (p + s) s (T p) p (ht (p, s) (by simp)) (hs (p, s) (by simp)) (by omega)]
    rw [Option.bind_some, forHeap_eq hm h rs (fun r hr => ht r (by simp [hr])) (fun r hr => hs r (by simp [hr]))]
    rfl

/-- `forHeap` visits every allocated block once. -/
theorem forHeap_core (hm : 0 < mul) (H : Inv mul h V) : ∃ l, forHeap mul h h.al = some l ∧ l.Perm V := by
  obtain ⟨T, sz, H⟩ := H
  refine ⟨_, forHeap_eq hm h h.al H.tile (fun r hr a ha => (H.size a ⟨r, hr, ha⟩ id).1), ?_⟩
  refine (List.perm_ext_iff_of_nodup ?_ H.vnd).2 ?_
  · unfold List.Nodup
    rw [List.pairwise_flatMap]
    refine ⟨fun r hr => (tiles_nodup (H.tile r hr) (fun a ha => H.pos a ⟨r, hr, ha⟩)).filter _, ?_⟩
    refine H.reg.imp_of_mem ?_
    intro r s hr hs hd
    rintro a ha b hb rfl
    have h1 := (List.mem_filter.1 ha).1
    have h2 := (List.mem_filter.1 hb).1
    have h3 := H.same hr hs h1 h2
    subst h3
    have := H.base r hr
    rcases hd with hd | hd <;> omega
  · intro a
    rw [H.vmem a, List.mem_flatMap]
    constructor
    · rintro ⟨r, hr, ha⟩
      have h1 := List.mem_filter.1 ha
      exact ⟨⟨r, hr, h1.1⟩, id, by simpa using h1.2⟩
    · rintro ⟨⟨r, hr, ha⟩, _, h2⟩
      exact ⟨r, hr, List.mem_filter.2 ⟨ha, by simpa using h2⟩⟩

theorem sum_countP (f : Nat → Nat) (g : Nat → Int) : ∀ (V : List Nat) (n : Nat), (∀ a ∈ V, f a < n) →
    ((List.range n).map fun b => ((V.countP fun a => f a = b : Nat) : Int) * g b).sum = (V.map fun a => g (f a)).sum
  | [], n, _ => by
    have : ∀ l : List Nat, (l.map fun b => ((([] : List Nat).countP fun a => f a = b : Nat) : Int) * g b).sum = 0 := by
      intro l; induction l with
      | nil => rfl
      | cons x l ih => rw [List.map_cons, List.sum_cons, ih]; simp
    exact this _
  | a :: V, n, hV => by
    have ih := sum_countP f g V n (fun b hb => hV b (by simp [hb]))
    have key : ∀ l : List Nat, l.Nodup → (l.map fun b => (((a :: V).countP fun c => f c = b : Nat) : Int) * g b).sum =
        (l.map fun b => ((V.countP fun c => f c = b : Nat) : Int) * g b).sum + if f a ∈ l then g (f a) else 0 := by
      intro l hl
      induction l with
      | nil => simp
      | cons x l ih2 =>
        obtain ⟨h1, h2⟩ := List.nodup_cons.1 hl
        rw [List.map_cons, List.sum_cons, ih2 h2, List.map_cons, List.sum_cons, List.countP_cons]
        by_cases hx : f a = x
        · subst hx
          rw [if_neg h1, if_pos (List.mem_cons_self ..), if_pos (by simp), Int.natCast_add, Int.add_mul]
          simp; omega
        · rw [if_neg (by simpa using hx)]
          simp only [List.mem_cons, hx, false_or]
          simp; omega
    rw [key _ List.nodup_range, ih, if_pos (List.mem_range.2 (hV a (by simp)))]
    simp; omega

/-- `heapUsed` is the total size of the allocated blocks. -/
theorem heapUsed_core (H : Inv mul h V) : heapUsed mul h = (V.map fun a => (bsz mul (h.hdr a).info : Int)).sum := by
  obtain ⟨T, sz, H⟩ := H
  unfold heapUsed
  rw [← sum_countP (fun a => (h.hdr a).info) (fun b => (bsz mul b : Int)) V 64]
  · congr 1
    apply List.map_congr_left
    intro b hb
    rw [H.cnt b (List.mem_range.1 hb)]
  · intro a ha
    have := (H.vmem a).1 ha
    exact (H.size a this.1 id).2

end
end Verif.Buddy
