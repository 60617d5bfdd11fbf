import Verif.Buddy.Lemmas
/-! Lemmas about the buddy allocator: the operations keep the invariant. -/
namespace Verif.Buddy

theorem upd_upd {α} (f : Nat → α) (i : Nat) (u v : α) : upd (upd f i u) i v = upd f i v := by
  funext j; unfold upd; split <;> rfl

/-- The invariant between operations. -/
def Inv (mul : Nat) (h : Heap) (V : List Nat) : Prop :=
  ∃ T sz, Core mul h T sz (fun a => Blk h T a) (fun _ => False) V

section
variable {mul : Nat}

/-- Blocks of `h` are also blocks of `h'`. -/
theorem splitLoop_core (hm : 0 < mul) (c to : Nat) : ∀ (n : Nat) (h : Heap) (T : Nat → List Nat) (sz : Nat → Nat) (L : Nat → Prop) (V : List Nat),
    to + n < 64 → Core mul h T sz L (fun a => a = c) V → sz c = bsz mul (to + n) → (∀ a, Blk h T a ↔ (L a ∨ a = c)) →
    ∃ T' sz' L', Core mul (splitLoop mul h c to n) T' sz' L' (fun a => a = c) V ∧ sz' c = bsz mul to ∧
      (∀ a, Blk (splitLoop mul h c to n) T' a ↔ (L' a ∨ a = c)) ∧ (splitLoop mul h c to n).al = h.al ∧
      (∀ a, Blk h T a → (splitLoop mul h c to n).hdr a = h.hdr a) ∧ (splitLoop mul h c to n).ctr = h.ctr
  | 0, h, T, sz, L, V, _, H, hs, hB => ⟨T, sz, L, H, hs, hB, rfl, fun _ _ => rfl, rfl⟩
  | n+1, h, T, sz, L, V, hn, H, hs, hB => by
    have hs' : sz c = bsz mul (to+n) + bsz mul (to+n) := by rw [hs, ← bsz_succ]; rfl
    have hpos := bsz_pos hm (to+n)
    have hBc : Blk h T c := (H.holeB c rfl).1
    have hnew : ¬ Blk h T (c + bsz mul (to+n)) := by
      intro hb
      rcases H.apart hBc hb (by omega) with h3 | h3
      · omega
      · have := H.pos _ hb; omega
    obtain ⟨T1, H1, hB1⟩ := H.retile rfl hs' hpos hpos
    have hcb : c ≠ c + bsz mul (to+n) := by omega
    have H2 := (H1.link (c := c + bsz mul (to+n)) (b := to+n) (.inr rfl) (by omega) (upd_eq _ _ _)).congr
      (L' := fun a => L a ∨ a = c + bsz mul (to+n)) (hole' := fun a => a = c) (fun a => Iff.rfl) (by
        intro a
        constructor
        · rintro rfl; exact ⟨.inl rfl, hcb⟩
        · rintro ⟨h1 | h1, h2⟩
          · exact h1
          · exact absurd h1 h2)
    obtain ⟨T', sz', L', H3, hs3, hB3, ha3, hf3, hc3⟩ := splitLoop_core hm c to n _ _ _ _ V (by omega) H2
      (by rw [upd_ne _ _ hcb, upd_eq]) (by
        intro a
        show Blk h T1 a ↔ _
        rw [hB1, hB]
        constructor
        · rintro ((h1 | h1) | h1)
          · exact .inl (.inl h1)
          · exact .inr h1
          · exact .inl (.inr h1)
        · rintro ((h1 | h1) | h1)
          · exact .inl (.inl h1)
          · exact .inr h1
          · exact .inl (.inr h1))
    refine ⟨T', sz', L', H3, hs3, hB3, ha3, ?_, hc3⟩
    intro a ha
    have := hf3 a ((hB1 a).2 (.inl ha))
    refine this.trans ?_
    show upd h.hdr _ _ a = h.hdr a
    exact upd_ne _ _ (by rintro rfl; exact hnew ha)

/-- `splitTo` on an unlinked empty block gives back the invariant, with a non-empty bucket `to`. -/
theorem splitTo_core (hm : 0 < mul) {h : Heap} {T : Nat → List Nat} {sz : Nat → Nat} {L : Nat → Prop} {V : List Nat} {c frm to : Nat}
    (H : Core mul h T sz L (fun a => a = c) V) (hs : sz c = bsz mul frm) (hB : ∀ a, Blk h T a ↔ (L a ∨ a = c))
    (hft : to ≤ frm) (hf : frm < 64) (hk : (h.hdr c).kind = .empty) :
    Inv mul (splitTo mul h c frm to) V ∧ (splitTo mul h c frm to).bkt to ≠ 0 ∧ (splitTo mul h c frm to).al = h.al ∧
      (∀ a ∈ V, (splitTo mul h c frm to).hdr a = h.hdr a) := by
  have hBc : Blk h T c := (H.holeB c rfl).1
  have H1 := H.setHole (c := c) rfl { h.hdr c with info := to }
  obtain ⟨T', sz', L', H2, hs2, hB2, ha2, hf2, hc2⟩ := splitLoop_core hm c to (frm - to) _ _ _ _ _ (by omega) H1
    (by rw [show to + (frm - to) = frm by omega]; exact hs) hB
  have hhc : (splitLoop mul (h.setHdr c { h.hdr c with info := to }) c to (frm - to)).hdr c = ⟨.empty, to, (h.hdr c).next⟩ := by
    rw [hf2 c hBc]
    show upd h.hdr c _ c = _
    rw [upd_eq, hk]
  have e : splitTo mul h c frm to =
      ((splitLoop mul (h.setHdr c { h.hdr c with info := to }) c to (frm - to)).setHdr c
        ⟨.empty, to, (splitLoop mul (h.setHdr c { h.hdr c with info := to }) c to (frm - to)).bkt to⟩).setBkt to c := by
    unfold splitTo
    simp only [hhc]
  have H3 := H2.link (c := c) (b := to) rfl (by omega) hs2
  rw [e]
  refine ⟨⟨T', sz', H3.congr (fun a => ?_) (fun a => ?_)⟩, ?_, ha2, ?_⟩
  · show Blk (splitLoop mul _ c to (frm - to)) T' a ↔ _
    rw [hB2]
  · constructor
    · exact False.elim
    · rintro ⟨h1, h2⟩; exact h2 h1
  · show upd _ to c to ≠ 0
    rw [upd_eq]; exact H.nz hBc
  · intro a ha
    have hav := (H.vmem a).1 ha
    show upd (splitLoop mul _ c to (frm - to)).hdr c _ a = h.hdr a
    rw [upd_ne _ _ hav.2.1, hf2 a hav.1]
    show upd h.hdr c _ a = _
    rw [upd_ne _ _ hav.2.1]

/-- Taking the first block of a non-empty bucket. -/
theorem take_core {h : Heap} {V : List Nat} {b : Nat} (H : Inv mul h V) (hb : b < 64) (hne : h.bkt b ≠ 0) :
    Inv mul (take h b).2 ((take h b).1 :: V) ∧ (take h b).1 ∉ V ∧ ((take h b).2.hdr (take h b).1).kind = .live ∧
      ((take h b).2.hdr (take h b).1).info = b ∧ (take h b).2.al = h.al ∧ (∀ a ∈ V, (take h b).2.hdr a = h.hdr a) := by
  obtain ⟨T, sz, H⟩ := H
  obtain ⟨H1, hL, _, hk, hi, hs⟩ := H.pop hb hne
  have hnV : h.bkt b ∉ V := fun hv => ((H.vmem _).1 hv).2.2 hk
  have H2 := H1.setLive (c := h.bkt b) (b := b) (n := (h.hdr (h.bkt b)).next) (.inr rfl) hb hs
  refine ⟨⟨T, sz, H2.congr (fun a => ?_) (fun a => ?_)⟩, hnV, ?_, ?_, rfl, ?_⟩
  · show Blk h T a ↔ _
    constructor
    · intro ha
      by_cases e : a = h.bkt b
      · exact .inr e
      · exact .inl ⟨ha, e⟩
    · rintro (h1 | h1)
      · exact h1.1
      · rw [h1]; exact hL
  · constructor
    · exact False.elim
    · rintro ⟨h1 | h1, h2⟩
      · exact h1
      · exact h2 h1
  · show (upd h.hdr (h.bkt b) _ (h.bkt b)).kind = _
    rw [upd_eq]
  · show (upd h.hdr (h.bkt b) _ (h.bkt b)).info = _
    rw [upd_eq]
  · intro a ha
    show upd h.hdr (h.bkt b) _ a = _
    exact upd_ne _ _ (by rintro rfl; exact hnV ha)

theorem findFrom_some {bkt : Nat → Nat} : ∀ {k f : Nat}, k ≤ 63 → findFrom bkt k = some f → bkt f ≠ 0 ∧ 63 - k < f ∧ f < 64
  | 0, f, _, h => by simp [findFrom] at h
  | k+1, f, hk, h => by
    unfold findFrom at h
    by_cases h1 : bkt (63 - k) ≠ 0
    · rw [if_pos h1] at h
      injection h with h; subst h
      exact ⟨h1, by omega, by omega⟩
    · rw [if_neg h1] at h
      have := findFrom_some (by omega) h
      exact ⟨this.1, by omega, this.2.2⟩

/-- The size of the range requested for bucket `to` -/
def regionSize (mul to : Nat) : Nat := bsz mul (if ALSZ < to then to else ALSZ)

theorem allocateMore_some {max : Nat} {os : Option Nat} {h h' : Heap} {to : Nat} (e : allocateMore mul max os h to = some h') :
    ∃ p, os = some p ∧ h' = splitTo mul (({ h with heapAlloc := h.heapAlloc + regionSize mul to, al := h.al ++ [(p, regionSize mul to)] } : Heap).setHdr p
      ⟨.empty, (if ALSZ < to then to else ALSZ), 0⟩) p (if ALSZ < to then to else ALSZ) to := by
  unfold allocateMore at e
  unfold regionSize
  simp only at e
  generalize (if ALSZ < to then to else ALSZ) = f at *
  split at e
  · exact absurd e (by simp)
  · cases os with
    | none => exact absurd e (by simp)
    | some p =>
      simp only at e
      split at e
      · exact absurd e (by simp)
      · injection e with e
        exact ⟨p, rfl, e.symm⟩

/-- `allocL` keeps the invariant and gives a block of bucket `b`. -/
theorem allocL_core (hm : 0 < mul) {h : Heap} {V : List Nat} {b max : Nat} {os : Option Nat} (H : Inv mul h V) (hb : b < 64)
    (hos : ∀ p, os = some p → 0 < p ∧ ∀ r ∈ h.al, disj r (p, regionSize mul b)) :
    match allocL mul max os h b with
    | .stuck => False
    | .oom => True
    | .ok x h' => Inv mul h' (x :: V) ∧ x ∉ V ∧ (h'.hdr x).kind = .live ∧ (h'.hdr x).info = b ∧
        (∀ r ∈ h.al, r ∈ h'.al) ∧ (∀ a ∈ V, h'.hdr a = h.hdr a) := by
  unfold allocL
  by_cases hne : h.bkt b ≠ 0
  · rw [if_pos hne]
    have := take_core H hb hne
    exact ⟨this.1, this.2.1, this.2.2.1, this.2.2.2.1, fun r hr => this.2.2.2.2.1 ▸ hr, this.2.2.2.2.2⟩
  · rw [if_neg hne]
    obtain ⟨T, sz, H⟩ := H
    cases hff : findFrom h.bkt (63 - b) with
    | some f =>
      obtain ⟨h1, h2, h3⟩ := findFrom_some (by omega) hff
      obtain ⟨H1, hL, _, hk, hi, hs⟩ := H.pop h3 h1
      have hs2 := splitTo_core hm (c := h.bkt f) (frm := f) (to := b) (H1.congr (L' := fun a => Blk h T a ∧ a ≠ h.bkt f) (hole' := fun a => a = h.bkt f)
        (fun a => Iff.rfl) (fun a => ⟨.inr, fun h => h.elim False.elim id⟩)) hs (by
          intro a
          show Blk h T a ↔ _
          constructor
          · intro ha
            by_cases e : a = h.bkt f
            · exact .inr e
            · exact .inl ⟨ha, e⟩
          · rintro (h1 | h1)
            · exact h1.1
            · rw [h1]; exact hL) (by omega) h3 hk
      have := take_core hs2.1 hb hs2.2.1
      simp only
      rw [if_neg hs2.2.1]
      refine ⟨this.1, this.2.1, this.2.2.1, this.2.2.2.1, fun r hr => ?_, fun a ha => ?_⟩
      · rw [this.2.2.2.2.1, hs2.2.2.1]; exact hr
      · rw [this.2.2.2.2.2 a ha, hs2.2.2.2 a ha]; rfl
    | none =>
      simp only
      cases ham : allocateMore mul max os h b with
      | none => trivial
      | some h' =>
        obtain ⟨p, hosp, rfl⟩ := allocateMore_some ham
        obtain ⟨hp, hd⟩ := hos p hosp
        have hfr : (if ALSZ < b then b else ALSZ) < 64 := by unfold ALSZ; split <;> omega
        have hfb : b ≤ (if ALSZ < b then b else ALSZ) := by unfold ALSZ; split <;> omega
        have hrs : regionSize mul b ≤ bsz mul 63 :=
          Nat.mul_le_mul_left _ (Nat.pow_le_pow_right (by omega) (by omega))
        obtain ⟨H1, hnb, hB1⟩ := H.newRegion (s := regionSize mul b) (n := h.heapAlloc + regionSize mul b) ⟨.empty, (if ALSZ < b then b else ALSZ), 0⟩ hp (bsz_pos hm _) hrs hd
        have hs2 := splitTo_core hm (c := p) (frm := if ALSZ < b then b else ALSZ) (to := b)
          (H1.congr (L' := fun a => Blk h T a) (hole' := fun a => a = p)
            (fun a => Iff.rfl) (fun a => ⟨.inr, fun h => h.elim False.elim id⟩)) (upd_eq _ _ _) hB1 hfb hfr (by
              show (upd h.hdr p _ p).kind = _
              rw [upd_eq])
        have := take_core hs2.1 hb hs2.2.1
        simp only
        rw [if_neg hs2.2.1]
        refine ⟨this.1, this.2.1, this.2.2.1, this.2.2.2.1, fun r hr => ?_, fun a ha => ?_⟩
        · rw [this.2.2.2.2.1, hs2.2.2.1]; exact List.mem_append.2 (.inl hr)
        · rw [this.2.2.2.2.2 a ha, hs2.2.2.2 a ha]
          show upd h.hdr p _ a = _
          exact upd_ne _ _ (hnb a ((H.vmem a).1 ha).1)

/-- `free` keeps the invariant. -/
theorem free_core {h : Heap} {V : List Nat} {c : Nat} (H : Inv mul h V) (hc : c ∈ V) :
    Inv mul (free h c) (V.erase c) ∧ (free h c).al = h.al ∧ ∀ a ∈ V.erase c, (free h c).hdr a = h.hdr a := by
  obtain ⟨T, sz, H⟩ := H
  obtain ⟨hBc, hch, hck⟩ := (H.vmem c).1 hc
  have hs := H.size c hBc hch
  have H1 := H.setEmpty hc
  have H2 := H1.dig (c := c) hBc (fun e => e.2 rfl) (by show (upd h.hdr c _ c).kind = _; rw [upd_eq])
  have H3 := H2.link (c := c) (b := (h.hdr c).info) (.inr rfl) hs.2 hs.1
  have e : free h c = ((({ h with ctr := upd h.ctr (h.hdr c).info (h.ctr (h.hdr c).info - 1) } : Heap).setHdr c { h.hdr c with kind := .empty }).setHdr c
      ⟨.empty, (h.hdr c).info, h.bkt (h.hdr c).info⟩).setBkt (h.hdr c).info c := by
    simp only [free, freeLink, Heap.setHdr, Heap.setBkt, if_true, upd_upd, upd_eq]
  rw [e]
  refine ⟨⟨T, sz, H3.congr (fun a => ?_) (fun a => ?_)⟩, rfl, ?_⟩
  · show Blk h T a ↔ _
    constructor
    · intro ha
      by_cases e : a = c
      · exact .inr e
      · exact .inl ⟨ha, e⟩
    · rintro (h1 | h1)
      · exact h1.1
      · rw [h1]; exact hBc
  · constructor
    · exact False.elim
    · rintro ⟨h1 | h1, h2⟩
      · exact h1
      · exact h2 h1
  · intro a ha
    have hac : a ≠ c := by rintro rfl; exact H.vnd.not_mem_erase ha
    show upd (upd h.hdr c _) c _ a = _
    rw [upd_ne _ _ hac, upd_ne _ _ hac]

theorem kill_core {h : Heap} {V : List Nat} {c : Nat} (H : Inv mul h V) (hc : c ∈ V) :
    Inv mul (kill h c) V ∧ (kill h c).al = h.al ∧ (∀ a, a ≠ c → (kill h c).hdr a = h.hdr a) ∧ ((kill h c).hdr c).kind = .freed := by
  obtain ⟨T, sz, H⟩ := H
  refine ⟨⟨T, sz, H.setKind hc (k := .freed) (by simp)⟩, rfl, ?_, ?_⟩
  · intro a ha; show upd h.hdr c _ a = _; exact upd_ne _ _ ha
  · show (upd h.hdr c _ c).kind = _; rw [upd_eq]

/-! ### merging -/

theorem low_bit : ∀ n : Nat, 0 < n → ∃ b, n ^^^ (n &&& (n-1)) = 2^b ∧ n = 2^b + (n &&& (n-1))
  | 0, h => by omega
  | n+1, _ => by
    by_cases ho : (n+1) % 2 = 1
    · refine ⟨0, ?_⟩
      have h1 : (n+1) &&& n = n := by
        apply Nat.eq_of_testBit_eq
        intro i
        rw [Nat.testBit_and]
        cases i with
        | zero => simp only [Nat.testBit_zero]; have : n % 2 = 0 := by omega
                  simp [this]
        | succ i =>
          rw [Nat.testBit_succ, Nat.testBit_succ, show (n+1)/2 = n/2 by omega, Bool.and_self]
      have h2 : (n+1) ^^^ n = 1 := by
        apply Nat.eq_of_testBit_eq
        intro i
        rw [Nat.testBit_xor]
        cases i with
        | zero => simp only [Nat.testBit_zero]; have : n % 2 = 0 := by omega
                  simp [this, ho]
        | succ i =>
          rw [Nat.testBit_succ, Nat.testBit_succ, Nat.testBit_succ, show (n+1)/2 = n/2 by omega, Bool.xor_self]
          simp
      rw [Nat.add_sub_cancel, h1, h2]
      exact ⟨rfl, by omega⟩
    · obtain ⟨b, h1, h2⟩ := low_bit ((n+1)/2) (by omega)
      refine ⟨b+1, ?_⟩
      have h3 : (n+1) &&& (n+1-1) = 2 * ((n+1)/2 &&& ((n+1)/2 - 1)) := by
        apply Nat.eq_of_testBit_eq
        intro i
        rw [Nat.testBit_and]
        cases i with
        | zero => simp only [Nat.testBit_zero]; simp; omega
        | succ i =>
          rw [Nat.testBit_succ, Nat.testBit_succ, Nat.testBit_succ, Nat.mul_div_cancel_left _ (by omega), Nat.testBit_and,
            show (n+1-1)/2 = (n+1)/2 - 1 by omega]
      have h4 : (n+1) ^^^ (2 * ((n+1)/2 &&& ((n+1)/2 - 1))) = 2 * ((n+1)/2 ^^^ ((n+1)/2 &&& ((n+1)/2 - 1))) := by
        apply Nat.eq_of_testBit_eq
        intro i
        rw [Nat.testBit_xor]
        cases i with
        | zero => simp only [Nat.testBit_zero]; simp; omega
        | succ i =>
          rw [Nat.testBit_succ, Nat.testBit_succ, Nat.testBit_succ, Nat.mul_div_cancel_left _ (by omega), Nat.mul_div_cancel_left _ (by omega), Nat.testBit_xor]
      rw [h3, h4, h1, Nat.pow_succ]
      generalize (n+1)/2 &&& ((n+1)/2 - 1) = y at *
      generalize 2^b = z at *
      omega
termination_by n => n

/-- Redistributing a hole of `n` units. -/
theorem flush_core (hm : 0 < mul) : ∀ (n : Nat) (h : Heap) (T : Nat → List Nat) (sz : Nat → Nat) (L : Nat → Prop) (V : List Nat) (start : Nat),
    0 < n → n < 2^64 → Core mul h T sz L (fun a => a = start) V → sz start = n * mul →
    ∃ T' sz' L', Core mul (flush mul h start n) T' sz' L' (fun _ => False) V ∧ (flush mul h start n).al = h.al ∧
      (∀ a, Blk h T a → a ≠ start → (flush mul h start n).hdr a = h.hdr a) ∧
      (∀ a, Blk h T a → Blk (flush mul h start n) T' a) ∧
      (∀ a, L a → L' a) ∧
      (∀ a, Blk (flush mul h start n) T' a → ¬ Blk h T a → start ≤ a ∧ a < start + n * mul) ∧
      (∀ a, Blk (flush mul h start n) T' a → start ≤ a → a < start + n * mul → L' a) ∧
      (∀ a, L' a → L a ∨ (start ≤ a ∧ a < start + n * mul)) ∧
      (∀ a, Blk h T a → a ≠ start → sz' a = sz a) := by
  intro n
  induction n using Nat.strongRecOn with
  | ind n ih =>
    intro h T sz L V start hn hn64 H hs
    obtain ⟨b, hb1, hb2⟩ := low_bit n hn
    have hb64 : b < 64 := by
      have : 2^b < 2^64 := by omega
      exact (Nat.pow_lt_pow_iff_right (by omega)).1 this
    have hBs := (H.holeB start rfl).1
    rw [flush, dif_neg (by omega)]
    simp only [hb1, Nat.log2_two_pow]
    generalize hl : n &&& (n-1) = left at *
    have hp : 0 < 2^b := Nat.two_pow_pos b
    by_cases hl0 : left = 0
    · subst hl0
      rw [flush, dif_pos rfl]
      have hn' : n = 2^b := by omega
      have H1 := H.link (c := start) (b := b) rfl hb64 (by rw [hs, hn', Nat.mul_comm]; rfl)
      refine ⟨T, sz, fun a => L a ∨ a = start, H1.congr (fun _ => Iff.rfl) (fun a => ⟨False.elim, fun h => h.2 h.1⟩), rfl, ?_, ?_, ?_, ?_, ?_, ?_, ?_⟩
      · intro a ha hne; exact upd_ne _ _ hne
      · intro a ha; exact ha
      · intro a ha; exact .inl ha
      · intro a ha hnb; exact absurd ha hnb
      · intro a ha h1 h2
        by_cases e : a = start
        · exact .inr e
        · exfalso
          have := H.apart hBs ha (Ne.symm e)
          rw [hs] at this
          have := H.pos a ha
          omega
      · rintro a (ha | rfl)
        · exact .inl ha
        · refine .inr ⟨Nat.le_refl _, ?_⟩
          have := Nat.mul_pos hn hm; omega
      · intro a _ _; rfl
    · have hlp : 0 < left * mul := Nat.mul_pos (by omega) hm
      have hcp : 0 < 2^b * mul := Nat.mul_pos hp hm
      have hsum : n * mul = 2^b * mul + left * mul := by rw [← Nat.add_mul, ← hb2]
      obtain ⟨T1, H1, hB1⟩ := H.retile (c := start) (s1 := 2^b * mul) (s2 := left * mul) rfl (by rw [hs, hsum]) hcp hlp
      have H2 := H1.link (c := start) (b := b) (.inl rfl) hb64 (by rw [upd_ne _ _ (by omega), upd_eq, Nat.mul_comm]; rfl)
      have H3 := H2.congr (L' := fun a => L a ∨ a = start) (hole' := fun a => a = start + 2^b * mul) (fun _ => Iff.rfl) (by
        intro a
        constructor
        · rintro rfl; exact ⟨.inr rfl, by omega⟩
        · rintro ⟨h1 | h1, h2⟩
          · exact absurd h1 h2
          · exact h1)
      obtain ⟨T', sz', L', c1, c2, c3, c4, c5, c6, c7, c8, c9⟩ := ih left (by omega) _ _ _ _ _ _ (by omega) (by omega) H3 (upd_eq _ _ _)
      have hnew : ¬ Blk h T (start + 2^b * mul) := by
        intro hb
        have := H.pos _ hb
        rcases H.apart hBs hb (by omega) with h3 | h3
        · rw [hs] at h3; omega
        · omega
      refine ⟨T', sz', L', c1, c2, ?_, ?_, ?_, ?_, ?_, ?_, ?_⟩
      · intro a ha hne
        rw [c3 a ((hB1 a).2 (.inl ha)) (by rintro rfl; exact hnew ha)]
        exact upd_ne _ _ hne
      · intro a ha; exact c4 a ((hB1 a).2 (.inl ha))
      · intro a ha; exact c5 a (.inl ha)
      · intro a ha hnb
        by_cases e : a = start + 2^b * mul
        · subst e; omega
        · have h5 := c6 a ha (fun hb => ((hB1 a).1 hb).elim hnb e)
          omega
      · intro a ha h1 h2
        by_cases e : a < start + 2^b * mul
        · have hbl : Blk h T a := by
            apply Classical.byContradiction
            intro hnb
            have h5 := c6 a ha (fun hb => ((hB1 a).1 hb).elim hnb (by omega))
            omega
          by_cases e2 : a = start
          · exact c5 a (.inr e2)
          · exfalso
            have := H.apart hBs hbl (Ne.symm e2)
            rw [hs] at this
            have := H.pos a hbl
            omega
        · exact c7 a ha (by omega) (by omega)
      · intro a ha
        rcases c8 a ha with (h1 | h1) | h1
        · exact .inl h1
        · right; omega
        · right; omega
      · intro a ha hne
        have e2 : a ≠ start + 2^b * mul := by rintro rfl; exact hnew ha
        rw [c9 a ((hB1 a).2 (.inl ha)) e2, upd_ne _ _ e2, upd_ne _ _ hne]

end
end Verif.Buddy
