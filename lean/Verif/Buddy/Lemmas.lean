import Verif.Buddy.Model
/-! Lemmas about the buddy allocator: the invariant and its preservation by each step. -/
namespace Verif.Buddy

theorem upd_eq {α} (f : Nat → α) (i : Nat) (v : α) : upd f i v i = v := by simp [upd]
theorem upd_ne {α} (f : Nat → α) {i j : Nat} (v : α) (h : j ≠ i) : upd f i v j = f j := by simp [upd, h]

theorem bsz_succ (mul b : Nat) : bsz mul (b+1) = bsz mul b + bsz mul b := by
  unfold bsz; rw [Nat.pow_succ, ← Nat.mul_assoc]; omega
theorem bsz_pos {mul : Nat} (hm : 0 < mul) (b : Nat) : 0 < bsz mul b := Nat.mul_pos hm (Nat.two_pow_pos b)

/-- `as` are the starts of consecutive blocks from `p` to `e`. -/
def tiles (sz : Nat → Nat) : Nat → Nat → List Nat → Prop
  | p, e, [] => p = e
  | p, e, a :: as => a = p ∧ tiles sz (p + sz a) e as

theorem tiles_append (sz : Nat → Nat) (xs ys : List Nat) : ∀ p e, tiles sz p e (xs ++ ys) ↔ ∃ m, tiles sz p m xs ∧ tiles sz m e ys := by
  induction xs with
  | nil => intro p e; simp [tiles]
  | cons x xs ih =>
    intro p e
    simp only [List.cons_append, tiles, ih]
    constructor
    · rintro ⟨h, m, h1, h2⟩; exact ⟨m, ⟨h, h1⟩, h2⟩
    · rintro ⟨m, ⟨h, h1⟩, h2⟩; exact ⟨h, m, h1, h2⟩

theorem tiles_congr {sz sz' : Nat → Nat} : ∀ {as : List Nat} {p e}, (∀ a ∈ as, sz' a = sz a) → tiles sz p e as → tiles sz' p e as
  | [], p, e, _, h => h
  | a :: as, p, e, hs, h => by
    obtain ⟨h1, h2⟩ := h
    refine ⟨h1, ?_⟩
    rw [hs a (by simp)]
    exact tiles_congr (fun b hb => hs b (by simp [hb])) h2

theorem tiles_le {sz : Nat → Nat} : ∀ {as : List Nat} {p e}, tiles sz p e as → p ≤ e
  | [], p, e, h => by simp only [tiles] at h; omega
  | a :: as, p, e, h => by have := tiles_le h.2; omega

theorem tiles_mem {sz : Nat → Nat} : ∀ {as : List Nat} {p e a}, tiles sz p e as → a ∈ as → p ≤ a ∧ a + sz a ≤ e
  | [], p, e, a, h, ha => by simp at ha
  | x :: as, p, e, a, h, ha => by
    obtain ⟨h1, h2⟩ := h
    have hle := tiles_le h2
    rcases List.mem_cons.1 ha with rfl | ha
    · omega
    · have := tiles_mem h2 ha; omega

/-- Two tiles of a range are equal or apart. -/
theorem tiles_disj {sz : Nat → Nat} : ∀ {as : List Nat} {p e a b}, tiles sz p e as → a ∈ as → b ∈ as → a ≠ b →
    a + sz a ≤ b ∨ b + sz b ≤ a
  | [], p, e, a, b, h, ha, hb, _ => by simp at ha
  | x :: as, p, e, a, b, h, ha, hb, hne => by
    obtain ⟨h1, h2⟩ := h
    rcases List.mem_cons.1 ha with ea | ha'
    · rcases List.mem_cons.1 hb with eb | hb'
      · exact absurd (ea.trans eb.symm) hne
      · have := tiles_mem h2 hb'; subst ea; omega
    · rcases List.mem_cons.1 hb with eb | hb'
      · have := tiles_mem h2 ha'; subst eb; omega
      · exact tiles_disj h2 ha' hb' hne

theorem tiles_nodup {sz : Nat → Nat} : ∀ {as : List Nat} {p e}, tiles sz p e as → (∀ a ∈ as, 0 < sz a) → as.Nodup
  | [], p, e, h, _ => List.nodup_nil
  | x :: as, p, e, h, hp => by
    obtain ⟨h1, h2⟩ := h
    refine List.nodup_cons.2 ⟨?_, tiles_nodup h2 (fun a ha => hp a (by simp [ha]))⟩
    intro hx
    have := tiles_mem h2 hx
    have := hp x (by simp)
    omega

/-- Every byte of a tiled range is in a tile. -/
theorem tiles_cover {sz : Nat → Nat} : ∀ {as : List Nat} {p e x}, tiles sz p e as → p ≤ x → x < e → ∃ a ∈ as, a ≤ x ∧ x < a + sz a
  | [], p, e, x, h, h1, h2 => by simp only [tiles] at h; omega
  | a :: as, p, e, x, h, h1, h2 => by
    obtain ⟨h3, h4⟩ := h
    by_cases hx : x < a + sz a
    · exact ⟨a, by simp, by omega, hx⟩
    · obtain ⟨b, hb, h5⟩ := tiles_cover h4 (x := x) (by omega) h2
      exact ⟨b, by simp [hb], h5⟩

/-- The linked list of a bucket. -/
def chain (hdr : Nat → Hdr) : Nat → List Nat → Prop
  | p, [] => p = 0
  | p, a :: as => a = p ∧ p ≠ 0 ∧ chain hdr (hdr p).next as

theorem chain_congr {hdr hdr' : Nat → Hdr} : ∀ {as : List Nat} {p}, (∀ a ∈ as, hdr' a = hdr a) → chain hdr p as → chain hdr' p as
  | [], p, _, h => h
  | a :: as, p, hs, h => by
    obtain ⟨h1, h2, h3⟩ := h
    refine ⟨h1, h2, ?_⟩
    subst h1
    rw [hs a (by simp)]
    exact chain_congr (fun b hb => hs b (by simp [hb])) h3

def disj (r s : Nat × Nat) : Prop := r.1 + r.2 ≤ s.1 ∨ s.1 + s.2 ≤ r.1

/-- `a` is the start of a block. -/
def Blk (h : Heap) (T : Nat → List Nat) (a : Nat) : Prop := ∃ r ∈ h.al, a ∈ T r.1

/-- The invariant. `T p` are the blocks of the range starting at `p`, `sz` their sizes, `L` those that are on a free
list if they are empty, `hole` those under construction, `V` the non-empty ones. -/
structure Core (mul : Nat) (h : Heap) (T : Nat → List Nat) (sz : Nat → Nat) (L hole : Nat → Prop) (V : List Nat) : Prop where
  tile : ∀ r ∈ h.al, tiles sz r.1 (r.1 + r.2) (T r.1)
  reg : h.al.Pairwise disj
  base : ∀ r ∈ h.al, 0 < r.1 ∧ 0 < r.2 ∧ r.2 ≤ bsz mul 63
  pos : ∀ a, Blk h T a → 0 < sz a
  size : ∀ a, Blk h T a → ¬ hole a → sz a = bsz mul (h.hdr a).info ∧ (h.hdr a).info < 64
  LB : ∀ a, L a → Blk h T a
  holeB : ∀ a, hole a → Blk h T a ∧ ¬ L a
  chn : ∀ b, b < 64 → ∃ F, chain h.hdr (h.bkt b) F ∧ F.Nodup ∧ ∀ a, a ∈ F ↔ (L a ∧ (h.hdr a).kind = .empty ∧ (h.hdr a).info = b)
  vnd : V.Nodup
  vmem : ∀ a, a ∈ V ↔ (Blk h T a ∧ ¬ hole a ∧ (h.hdr a).kind ≠ .empty)
  cnt : ∀ b, b < 64 → h.ctr b = (V.countP fun a => (h.hdr a).info = b : Nat)

theorem pw_cases {α} {R : α → α → Prop} (hs : ∀ x y, R x y → R y x) : ∀ {l : List α}, l.Pairwise R → ∀ {r s}, r ∈ l → s ∈ l → r = s ∨ R r s
  | [], _, r, s, hr, _ => by simp at hr
  | x :: l, h, r, s, hr, hsm => by
    obtain ⟨h1, h2⟩ := List.pairwise_cons.1 h
    rcases List.mem_cons.1 hr with er | hr'
    · rcases List.mem_cons.1 hsm with es | hsm'
      · exact .inl (er.trans es.symm)
      · exact .inr (er ▸ h1 _ hsm')
    · rcases List.mem_cons.1 hsm with es | hsm'
      · exact .inr (es ▸ hs _ _ (h1 _ hr'))
      · exact pw_cases hs h2 hr' hsm'

theorem disj_symm (r s : Nat × Nat) (h : disj r s) : disj s r := h.symm

section
variable {mul : Nat} {h : Heap} {T : Nat → List Nat} {sz : Nat → Nat} {L hole : Nat → Prop} {V : List Nat}

theorem Core.regc (H : Core mul h T sz L hole V) {r s} (hr : r ∈ h.al) (hs : s ∈ h.al) : r = s ∨ disj r s :=
  pw_cases disj_symm H.reg hr hs

/-- Two blocks are equal or apart. -/
theorem Core.apart (H : Core mul h T sz L hole V) {a b : Nat} (ha : Blk h T a) (hb : Blk h T b) (hne : a ≠ b) :
    a + sz a ≤ b ∨ b + sz b ≤ a := by
  obtain ⟨r, hr, har⟩ := ha
  obtain ⟨s, hs, hbs⟩ := hb
  rcases H.regc hr hs with rfl | hd
  · exact tiles_disj (H.tile r hr) har hbs hne
  · have h1 := tiles_mem (H.tile r hr) har
    have h2 := tiles_mem (H.tile s hs) hbs
    rcases hd with hd | hd <;> omega

theorem Core.same (H : Core mul h T sz L hole V) {r s : Nat × Nat} {a : Nat} (hr : r ∈ h.al) (hs : s ∈ h.al)
    (har : a ∈ T r.1) (has : a ∈ T s.1) : r = s := by
  rcases H.regc hr hs with rfl | hd
  · rfl
  · have h1 := tiles_mem (H.tile r hr) har
    have h2 := tiles_mem (H.tile s hs) has
    have := H.pos a ⟨r, hr, har⟩
    rcases hd with hd | hd <;> omega

theorem Core.nz (H : Core mul h T sz L hole V) {a : Nat} (ha : Blk h T a) : a ≠ 0 := by
  obtain ⟨r, hr, har⟩ := ha
  have h1 := tiles_mem (H.tile r hr) har
  have := H.base r hr
  omega

theorem Core.base_inj (H : Core mul h T sz L hole V) {r s : Nat × Nat} (hr : r ∈ h.al) (hs : s ∈ h.al) (he : r.1 = s.1) : r = s := by
  rcases H.regc hr hs with rfl | hd
  · rfl
  · have := H.base r hr
    have := H.base s hs
    rcases hd with hd | hd <;> omega

/-- Split an unlinked block in two (ghost step). -/
theorem Core.retile (H : Core mul h T sz L hole V) {c s1 s2 : Nat} (hc : hole c)
    (hsz : sz c = s1 + s2) (h1 : 0 < s1) (h2 : 0 < s2) :
    ∃ T', Core mul h T' (upd (upd sz c s1) (c+s1) s2) L (fun a => hole a ∨ a = c + s1) V ∧
      (∀ a, Blk h T' a ↔ (Blk h T a ∨ a = c + s1)) := by
  obtain ⟨⟨r, hr, hcr⟩, hcL⟩ := H.holeB c hc
  obtain ⟨xs, ys, hxy⟩ := List.append_of_mem hcr
  have hT := H.tile r hr
  have hnd : (T r.1).Nodup := tiles_nodup hT (fun a ha => H.pos a ⟨r, hr, ha⟩)
  rw [hxy] at hT hnd
  have hBc : Blk h T c := ⟨r, hr, hcr⟩
  -- the new address is no block
  have hnew : ¬ Blk h T (c + s1) := by
    intro hb
    rcases H.apart hBc hb (by omega) with h3 | h3
    · omega
    · have := H.pos _ hb; omega
  have hBlk : ∀ a, Blk h (upd T r.1 (xs ++ c :: (c+s1) :: ys)) a ↔ (Blk h T a ∨ a = c + s1) := by
    intro a
    constructor
    · rintro ⟨s, hs, has⟩
      by_cases he : s.1 = r.1
      · rw [he, upd_eq] at has
        by_cases ha : a = c + s1
        · exact .inr ha
        · refine .inl ⟨r, hr, ?_⟩
          rw [hxy]; simp at has ⊢; rcases has with h | h | h | h
          · exact .inl h
          · exact .inr (.inl h)
          · exact absurd h ha
          · exact .inr (.inr h)
      · rw [upd_ne _ _ he] at has
        exact .inl ⟨s, hs, has⟩
    · rintro (⟨s, hs, has⟩ | rfl)
      · refine ⟨s, hs, ?_⟩
        by_cases he : s.1 = r.1
        · have : s = r := H.base_inj hs hr he
          subst this
          rw [upd_eq]; rw [hxy] at has; simp at has ⊢
          rcases has with h | h | h
          · exact .inl h
          · exact .inr (.inl h)
          · exact .inr (.inr (.inr h))
        · rw [upd_ne _ _ he]; exact has
      · exact ⟨r, hr, by rw [upd_eq]; simp⟩
  refine ⟨upd T r.1 (xs ++ c :: (c+s1) :: ys), ?_, hBlk⟩
  have hszo : ∀ a, a ≠ c → a ≠ c + s1 → upd (upd sz c s1) (c+s1) s2 a = sz a := fun a ha hb => by
    rw [upd_ne _ _ hb, upd_ne _ _ ha]
  constructor
  · intro s hs
    by_cases he : s.1 = r.1
    · have : s = r := H.base_inj hs hr he
      subst this
      rw [upd_eq, tiles_append]
      rw [tiles_append] at hT
      obtain ⟨m, hm1, hm2, hm3⟩ := hT
      have hndx := List.nodup_append.1 hnd
      refine ⟨m, tiles_congr ?_ hm1, hm2, ?_, ?_⟩
      · intro a ha
        apply hszo
        · rintro rfl; exact hndx.2.2 a ha a (by simp) rfl
        · rintro rfl; exact hnew ⟨s, hs, by rw [hxy]; simp [ha]⟩
      · rw [upd_ne _ _ (by omega), upd_eq]; omega
      · rw [upd_ne _ _ (by omega), upd_eq, upd_eq]
        rw [show m + s1 + s2 = m + sz c by omega]
        refine tiles_congr ?_ hm3
        intro a ha
        apply hszo
        · rintro rfl; exact (List.nodup_cons.1 hndx.2.1).1 ha
        · rintro rfl; exact hnew ⟨s, hs, by rw [hxy]; simp [ha]⟩
    · rw [upd_ne _ _ he]
      refine tiles_congr ?_ (H.tile s hs)
      intro a ha
      apply hszo
      · rintro rfl
        exact he (by rw [H.same hs hr ha hcr])
      · rintro rfl; exact hnew ⟨s, hs, ha⟩
  · exact H.reg
  · exact H.base
  · intro a ha
    by_cases h3 : a = c + s1
    · subst h3; rw [upd_eq]; exact h2
    · rw [upd_ne _ _ h3]
      by_cases h4 : a = c
      · subst h4; rw [upd_eq]; exact h1
      · rw [upd_ne _ _ h4]
        rcases (hBlk a).1 ha with hb | hb
        · exact H.pos a hb
        · exact absurd hb h3
  · intro a ha hh
    have h3 : a ≠ c + s1 := fun e => hh (.inr e)
    have h4 : a ≠ c := fun e => hh (.inl (e ▸ hc))
    rw [hszo a h4 h3]
    rcases (hBlk a).1 ha with hb | hb
    · exact H.size a hb (fun e => hh (.inl e))
    · exact absurd hb h3
  · intro a ha; exact (hBlk a).2 (.inl (H.LB a ha))
  · rintro a (ha | rfl)
    · exact ⟨(hBlk a).2 (.inl (H.holeB a ha).1), (H.holeB a ha).2⟩
    · exact ⟨(hBlk _).2 (.inr rfl), fun hL => hnew (H.LB _ hL)⟩
  · exact H.chn
  · exact H.vnd
  · intro a
    rw [H.vmem a, hBlk]
    constructor
    · rintro ⟨h3, h4, h5⟩
      refine ⟨.inl h3, ?_, h5⟩
      rintro (h6 | rfl)
      · exact h4 h6
      · exact hnew h3
    · rintro ⟨h3 | h3, h4, h5⟩
      · exact ⟨h3, fun h => h4 (.inl h), h5⟩
      · exact absurd (.inr h3) h4
  · exact H.cnt

/-- Merge an unlinked block with the block after it (ghost step); the latter must be empty and unlinked too. -/
theorem Core.coalesce (H : Core mul h T sz L hole V) {c : Nat} (hc : hole c) (hb : Blk h T (c + sz c)) (hbL : ¬ L (c + sz c))
    (hbk : (h.hdr (c + sz c)).kind = .empty) {r : Nat × Nat} (hr : r ∈ h.al) (hcr : c ∈ T r.1) (hbr : c + sz c < r.1 + r.2) :
    ∃ T', Core mul h T' (upd sz c (sz c + sz (c + sz c))) L (fun a => hole a ∧ a ≠ c + sz c) V ∧
      (∀ a, Blk h T' a ↔ (Blk h T a ∧ a ≠ c + sz c)) ∧ c ∈ T' r.1 ∧ (∀ p, p ≠ r.1 → T' p = T p) ∧
      (∀ xs ys, T r.1 = xs ++ c :: (c + sz c) :: ys → T' r.1 = xs ++ c :: ys) := by
  have hBc := (H.holeB c hc).1
  have hT := H.tile r hr
  have hnd : (T r.1).Nodup := tiles_nodup hT (fun a ha => H.pos a ⟨r, hr, ha⟩)
  obtain ⟨xs, zs, hxz⟩ := List.append_of_mem hcr
  have hposc := H.pos c hBc
  obtain ⟨ys, rfl⟩ : ∃ ys, zs = (c + sz c) :: ys := by
    rw [hxz, tiles_append] at hT
    obtain ⟨m, _, hm2, hm3⟩ := hT
    cases zs with
    | nil => simp only [tiles] at hm3; omega
    | cons y ys => exact ⟨ys, by rw [hm3.1, hm2]⟩
  rw [hxz] at hT hnd
  have hndx := List.nodup_append.1 hnd
  have hndy := List.nodup_cons.1 hndx.2.1
  have hndz := List.nodup_cons.1 hndy.2
  have hBlk : ∀ a, Blk h (upd T r.1 (xs ++ c :: ys)) a ↔ (Blk h T a ∧ a ≠ c + sz c) := by
    intro a
    constructor
    · rintro ⟨s, hs, has⟩
      by_cases he : s.1 = r.1
      · rw [he, upd_eq] at has
        refine ⟨⟨r, hr, ?_⟩, ?_⟩
        · rw [hxz]; simp at has ⊢; rcases has with h | h | h
          · exact .inl h
          · exact .inr (.inl h)
          · exact .inr (.inr (.inr h))
        · rintro rfl
          rcases List.mem_append.1 has with h | h
          · exact hndx.2.2 _ h (c + sz c) (by simp) rfl
          · rcases List.mem_cons.1 h with h | h
            · omega
            · exact hndz.1 h
      · rw [upd_ne _ _ he] at has
        refine ⟨⟨s, hs, has⟩, ?_⟩
        rintro rfl
        exact he (by rw [H.same hs hr has (by rw [hxz]; simp)])
    · rintro ⟨⟨s, hs, has⟩, hne⟩
      refine ⟨s, hs, ?_⟩
      by_cases he : s.1 = r.1
      · have : s = r := H.base_inj hs hr he
        subst this
        rw [upd_eq]; rw [hxz] at has; simp at has ⊢
        rcases has with h | h | h | h
        · exact .inl h
        · exact .inr (.inl h)
        · exact absurd h hne
        · exact .inr (.inr h)
      · rw [upd_ne _ _ he]; exact has
  refine ⟨upd T r.1 (xs ++ c :: ys), ?_, hBlk, by rw [upd_eq]; simp, fun p hp => upd_ne _ _ hp, ?_⟩
  · have hszo : ∀ a, a ≠ c → upd sz c (sz c + sz (c + sz c)) a = sz a := fun a ha => upd_ne _ _ ha
    constructor
    · intro s hs
      by_cases he : s.1 = r.1
      · have : s = r := H.base_inj hs hr he
        subst this
        rw [upd_eq, tiles_append]
        rw [tiles_append] at hT
        obtain ⟨m, hm1, hm2, hm3, hm4⟩ := hT
        refine ⟨m, tiles_congr ?_ hm1, hm2, ?_⟩
        · intro a ha
          apply hszo
          rintro rfl; exact hndx.2.2 a ha a (by simp) rfl
        · rw [upd_eq]
          rw [show m + (sz c + sz (c + sz c)) = m + sz c + sz (c + sz c) by omega]
          refine tiles_congr ?_ hm4
          intro a ha
          apply hszo
          rintro rfl; exact hndy.1 (by simp [ha])
      · rw [upd_ne _ _ he]
        refine tiles_congr ?_ (H.tile s hs)
        intro a ha
        apply hszo
        rintro rfl
        exact he (by rw [H.same hs hr ha hcr])
    · exact H.reg
    · exact H.base
    · intro a ha
      by_cases h4 : a = c
      · subst h4; rw [upd_eq]; omega
      · rw [upd_ne _ _ h4]; exact H.pos a ((hBlk a).1 ha).1
    · intro a ha hh
      have h5 := (hBlk a).1 ha
      have h4 : a ≠ c := fun e => hh ⟨e ▸ hc, h5.2⟩
      rw [hszo a h4]
      exact H.size a h5.1 (fun e => hh ⟨e, h5.2⟩)
    · intro a ha; exact (hBlk a).2 ⟨H.LB a ha, fun e => hbL (e ▸ ha)⟩
    · rintro a ⟨ha, hne⟩
      exact ⟨(hBlk a).2 ⟨(H.holeB a ha).1, hne⟩, (H.holeB a ha).2⟩
    · exact H.chn
    · exact H.vnd
    · intro a
      rw [H.vmem a, hBlk]
      constructor
      · rintro ⟨h3, h4, h5⟩
        exact ⟨⟨h3, fun e => h5 (e ▸ hbk)⟩, fun h => h4 h.1, h5⟩
      · rintro ⟨⟨h3, hne⟩, h4, h5⟩
        exact ⟨h3, fun h => h4 ⟨h, hne⟩, h5⟩
    · exact H.cnt
  · intro xs' ys' he
    rw [hxz] at he
    have hl : xs = xs' := by
      -- the position of `c` is unique
      have h1 : c ∉ xs := fun hx => hndx.2.2 c hx c (by simp) rfl
      have h2 : c ∉ xs' := by
        intro hx
        have hn' := hnd
        rw [he] at hn'
        exact (List.nodup_append.1 hn').2.2 c hx c (by simp) rfl
      clear hBlk hndx hnd hT hxz
      induction xs generalizing xs' with
      | nil => cases xs' with
        | nil => rfl
        | cons x xs' => simp at he; exact absurd he.1 (by intro e; exact h2 (by simp [e]))
      | cons x xs ih => cases xs' with
        | nil => simp at he; exact absurd he.1 (by intro e; exact h1 (by simp [e]))
        | cons x' xs' =>
          simp at he
          rw [he.1, ih xs' (by simpa using he.2) (fun hx => h1 (by simp [hx])) (fun hx => h2 (by simp [hx]))]
    subst hl
    simp at he
    rw [upd_eq, he]

/-- Changing the header of an unlinked block leaves the free lists alone. -/
theorem chn_frame (H : Core mul h T sz L hole V) {c : Nat} (x : Hdr) (hc : ¬ L c) (b : Nat) (hb : b < 64) :
    ∃ F, chain (upd h.hdr c x) (h.bkt b) F ∧ F.Nodup ∧
      ∀ a, a ∈ F ↔ (L a ∧ (upd h.hdr c x a).kind = .empty ∧ (upd h.hdr c x a).info = b) := by
  obtain ⟨F, h1, h2, h3⟩ := H.chn b hb
  have hF : c ∉ F := fun hcf => hc ((h3 c).1 hcf).1
  refine ⟨F, chain_congr (fun a ha => upd_ne _ _ (by rintro rfl; exact hF ha)) h1, h2, ?_⟩
  intro a
  by_cases hac : a = c
  · subst hac; exact ⟨fun h => absurd h hF, fun h => absurd h.1 hc⟩
  · rw [upd_ne _ _ hac]; exact h3 a

/-- Write the header of an unlinked block and put it on the free list. -/
theorem Core.link (H : Core mul h T sz L hole V) {c b : Nat} (hc : hole c) (hb : b < 64) (hsz : sz c = bsz mul b) :
    Core mul ((h.setHdr c ⟨.empty, b, h.bkt b⟩).setBkt b c) T sz (fun a => L a ∨ a = c) (fun a => hole a ∧ a ≠ c) V := by
  obtain ⟨hBc, hcL⟩ := H.holeB c hc
  have hcV : c ∉ V := fun hv => ((H.vmem c).1 hv).2.1 hc
  constructor
  · exact H.tile
  · exact H.reg
  · exact H.base
  · exact H.pos
  · intro a ha hh
    by_cases hac : a = c
    · subst hac
      show sz a = bsz mul (upd h.hdr a _ a).info ∧ (upd h.hdr a _ a).info < 64
      rw [upd_eq]; exact ⟨hsz, hb⟩
    · show sz a = bsz mul (upd h.hdr c _ a).info ∧ (upd h.hdr c _ a).info < 64
      rw [upd_ne _ _ hac]
      exact H.size a ha (fun e => hh ⟨e, hac⟩)
  · rintro a (ha | rfl)
    · exact H.LB a ha
    · exact hBc
  · rintro a ⟨ha, hne⟩
    refine ⟨(H.holeB a ha).1, ?_⟩
    rintro (h1 | h1)
    · exact (H.holeB a ha).2 h1
    · exact hne h1
  · intro d hd
    obtain ⟨F, h1, h2, h3⟩ := chn_frame H ⟨.empty, b, h.bkt b⟩ hcL d hd
    have hcF : c ∉ F := fun hf => hcL ((h3 c).1 hf).1
    by_cases hdb : d = b
    · subst hdb
      refine ⟨c :: F, ⟨?_, ?_, ?_⟩, List.nodup_cons.2 ⟨hcF, h2⟩, ?_⟩
      · show c = upd h.bkt d c d; rw [upd_eq]
      · show upd h.bkt d c d ≠ 0; rw [upd_eq]; exact H.nz hBc
      · show chain (upd h.hdr c _) (upd h.hdr c _ (upd h.bkt d c d)).next F
        rw [upd_eq, upd_eq]; exact h1
      · intro a
        show a ∈ c :: F ↔ ((L a ∨ a = c) ∧ (upd h.hdr c _ a).kind = .empty ∧ (upd h.hdr c _ a).info = d)
        rw [List.mem_cons]
        by_cases hac : a = c
        · subst hac; rw [upd_eq]; simp
        · rw [h3 a]; simp [hac]
    · refine ⟨F, ?_, h2, ?_⟩
      · show chain (upd h.hdr c _) (upd h.bkt b c d) F
        rw [upd_ne _ _ hdb]; exact h1
      · intro a
        show a ∈ F ↔ ((L a ∨ a = c) ∧ (upd h.hdr c _ a).kind = .empty ∧ (upd h.hdr c _ a).info = d)
        by_cases hac : a = c
        · subst hac; rw [upd_eq]
          exact ⟨fun h => absurd h hcF, fun h => absurd h.2.2.symm hdb⟩
        · rw [h3 a]; simp [hac]
  · exact H.vnd
  · intro a
    show a ∈ V ↔ (Blk h T a ∧ ¬ (hole a ∧ a ≠ c) ∧ (upd h.hdr c _ a).kind ≠ .empty)
    by_cases hac : a = c
    · subst hac; rw [upd_eq]
      exact ⟨fun hv => absurd hv hcV, fun hv => absurd rfl hv.2.2⟩
    · rw [upd_ne _ _ hac, H.vmem a]; simp [hac]
  · intro d hd
    show h.ctr d = (V.countP fun a => (upd h.hdr c _ a).info = d : Nat)
    rw [H.cnt d hd]
    congr 1
    apply List.countP_congr
    intro a ha
    rw [upd_ne _ _ (by rintro rfl; exact hcV ha)]

/-- The header of an unlinked block may change (it becomes significant again when linked or allocated). -/
theorem Core.setHole (H : Core mul h T sz L hole V) {c : Nat} (hc : hole c) (x : Hdr) :
    Core mul (h.setHdr c x) T sz L hole V := by
  obtain ⟨hBc, hcL⟩ := H.holeB c hc
  have hcV : c ∉ V := fun hv => ((H.vmem c).1 hv).2.1 hc
  constructor
  · exact H.tile
  · exact H.reg
  · exact H.base
  · exact H.pos
  · intro a ha hh
    have hac : a ≠ c := by rintro rfl; exact hh hc
    show sz a = bsz mul (upd h.hdr c _ a).info ∧ (upd h.hdr c _ a).info < 64
    rw [upd_ne _ _ hac]
    exact H.size a ha hh
  · exact H.LB
  · exact H.holeB
  · intro d hd; exact chn_frame H x hcL d hd
  · exact H.vnd
  · intro a
    show a ∈ V ↔ (Blk h T a ∧ ¬ hole a ∧ (upd h.hdr c _ a).kind ≠ .empty)
    by_cases hac : a = c
    · subst hac
      exact ⟨fun hv => absurd hv hcV, fun hv => absurd hc hv.2.1⟩
    · rw [upd_ne _ _ hac, H.vmem a]
  · intro d hd
    show h.ctr d = (V.countP fun a => (upd h.hdr c _ a).info = d : Nat)
    rw [H.cnt d hd]
    congr 1
    apply List.countP_congr
    intro a ha
    rw [upd_ne _ _ (by rintro rfl; exact hcV ha)]

/-- Take the first block off a free list. -/
theorem Core.pop (H : Core mul h T sz L hole V) {b : Nat} (hb : b < 64) (hne : h.bkt b ≠ 0) :
    Core mul (h.setBkt b (h.hdr (h.bkt b)).next) T sz (fun a => L a ∧ a ≠ h.bkt b) (fun a => hole a ∨ a = h.bkt b) V ∧
      L (h.bkt b) ∧ ¬ hole (h.bkt b) ∧ (h.hdr (h.bkt b)).kind = .empty ∧ (h.hdr (h.bkt b)).info = b ∧ sz (h.bkt b) = bsz mul b := by
  obtain ⟨F, h1, h2, h3⟩ := H.chn b hb
  generalize hc : h.bkt b = c at *
  cases F with
  | nil => exact absurd h1 hne
  | cons f F =>
    obtain ⟨rfl, _, h4⟩ := h1
    obtain ⟨hL, hk, hi⟩ := (h3 f).1 (by simp)
    have hnh : ¬ hole f := fun hh => (H.holeB f hh).2 hL
    have hBf := H.LB f hL
    have hs := H.size f hBf hnh
    refine ⟨?_, hL, hnh, hk, hi, by rw [hs.1, hi]⟩
    constructor
    · exact H.tile
    · exact H.reg
    · exact H.base
    · exact H.pos
    · intro a ha hh; exact H.size a ha (fun e => hh (.inl e))
    · intro a ha; exact H.LB a ha.1
    · rintro a (ha | rfl)
      · exact ⟨(H.holeB a ha).1, fun e => (H.holeB a ha).2 e.1⟩
      · exact ⟨hBf, fun e => e.2 rfl⟩
    · intro d hd
      by_cases hdb : d = b
      · subst hdb
        refine ⟨F, ?_, (List.nodup_cons.1 h2).2, ?_⟩
        · show chain h.hdr (upd h.bkt d (h.hdr f).next d) F
          rw [upd_eq]; exact h4
        · intro a
          have h5 := h3 a
          rw [List.mem_cons] at h5
          by_cases haf : a = f
          · subst haf
            exact ⟨fun e => absurd e (List.nodup_cons.1 h2).1, fun e => absurd rfl e.1.2⟩
          · simp only [haf, false_or] at h5
            rw [h5]; show _ ↔ ((L a ∧ a ≠ f) ∧ _ ∧ _); simp [haf, Heap.setBkt]
      · obtain ⟨G, g1, g2, g3⟩ := H.chn d hd
        refine ⟨G, ?_, g2, ?_⟩
        · show chain h.hdr (upd h.bkt b (h.hdr f).next d) G
          rw [upd_ne _ _ hdb]; exact g1
        · intro a
          rw [g3 a]
          show _ ↔ ((L a ∧ a ≠ f) ∧ (h.hdr a).kind = .empty ∧ (h.hdr a).info = d)
          constructor
          · rintro ⟨e1, e2, e3⟩
            exact ⟨⟨e1, by rintro rfl; exact hdb (e3 ▸ hi)⟩, e2, e3⟩
          · rintro ⟨⟨e1, _⟩, e2⟩; exact ⟨e1, e2⟩
    · exact H.vnd
    · intro a
      rw [H.vmem a]
      constructor
      · rintro ⟨e1, e2, e3⟩
        refine ⟨e1, ?_, e3⟩
        rintro (e | rfl)
        · exact e2 e
        · exact e3 hk
      · rintro ⟨e1, e2, e3⟩; exact ⟨e1, fun e => e2 (.inl e), e3⟩
    · exact H.cnt

/-- An unlinked block becomes allocated. -/
theorem Core.setLive (H : Core mul h T sz L hole V) {c b n : Nat} (hc : hole c) (hb : b < 64) (hsz : sz c = bsz mul b) :
    Core mul (({ h with ctr := upd h.ctr b (h.ctr b + 1) } : Heap).setHdr c ⟨.live, b, n⟩) T sz
      (fun a => L a ∨ a = c) (fun a => hole a ∧ a ≠ c) (c :: V) := by
  obtain ⟨hBc, hcL⟩ := H.holeB c hc
  have hcV : c ∉ V := fun hv => ((H.vmem c).1 hv).2.1 hc
  constructor
  · exact H.tile
  · exact H.reg
  · exact H.base
  · exact H.pos
  · intro a ha hh
    show sz a = bsz mul (upd h.hdr c _ a).info ∧ (upd h.hdr c _ a).info < 64
    by_cases hac : a = c
    · subst hac; rw [upd_eq]; exact ⟨hsz, hb⟩
    · rw [upd_ne _ _ hac]; exact H.size a ha (fun e => hh ⟨e, hac⟩)
  · rintro a (ha | rfl)
    · exact H.LB a ha
    · exact hBc
  · rintro a ⟨ha, hne⟩
    refine ⟨(H.holeB a ha).1, ?_⟩
    rintro (h1 | h1)
    · exact (H.holeB a ha).2 h1
    · exact hne h1
  · intro d hd
    obtain ⟨F, h1, h2, h3⟩ := chn_frame H ⟨.live, b, n⟩ hcL d hd
    refine ⟨F, h1, h2, ?_⟩
    intro a
    show a ∈ F ↔ ((L a ∨ a = c) ∧ (upd h.hdr c _ a).kind = .empty ∧ (upd h.hdr c _ a).info = d)
    rw [h3 a]
    by_cases hac : a = c
    · subst hac; rw [upd_eq]; simp
    · simp [hac]
  · exact List.nodup_cons.2 ⟨hcV, H.vnd⟩
  · intro a
    show a ∈ c :: V ↔ (Blk h T a ∧ ¬ (hole a ∧ a ≠ c) ∧ (upd h.hdr c _ a).kind ≠ .empty)
    rw [List.mem_cons]
    by_cases hac : a = c
    · subst hac; rw [upd_eq]; simp [hBc]
    · rw [upd_ne _ _ hac, H.vmem a]; simp [hac]
  · intro d hd
    show upd h.ctr b (h.ctr b + 1) d = ((c :: V).countP fun a => (upd h.hdr c _ a).info = d : Nat)
    have e1 : V.countP (fun a => decide ((upd h.hdr c ⟨.live, b, n⟩ a).info = d)) = V.countP (fun a => decide ((h.hdr a).info = d)) := by
      apply List.countP_congr
      intro a ha
      rw [upd_ne _ _ (by rintro rfl; exact hcV ha)]
    rw [List.countP_cons, e1, upd_eq]
    by_cases hdb : d = b
    · subst hdb; rw [upd_eq, H.cnt d hd]; simp
    · rw [upd_ne _ _ hdb, H.cnt d hd]; simp [Ne.symm hdb]

/-- An allocated block becomes an empty unlinked one. -/
theorem Core.setEmpty (H : Core mul h T sz L hole V) {c : Nat} (hc : c ∈ V) :
    Core mul (({ h with ctr := upd h.ctr (h.hdr c).info (h.ctr (h.hdr c).info - 1) } : Heap).setHdr c { h.hdr c with kind := .empty }) T sz
      (fun a => L a ∧ a ≠ c) hole (V.erase c) := by
  obtain ⟨hBc, hch, hck⟩ := (H.vmem c).1 hc
  have hs := H.size c hBc hch
  have hinfo : ∀ a, (upd h.hdr c { h.hdr c with kind := .empty } a).info = (h.hdr a).info := by
    intro a
    by_cases hac : a = c
    · subst hac; rw [upd_eq]
    · rw [upd_ne _ _ hac]
  constructor
  · exact H.tile
  · exact H.reg
  · exact H.base
  · exact H.pos
  · intro a ha hh
    show sz a = bsz mul (upd h.hdr c _ a).info ∧ (upd h.hdr c _ a).info < 64
    rw [hinfo]; exact H.size a ha hh
  · intro a ha; exact H.LB a ha.1
  · intro a ha; exact ⟨(H.holeB a ha).1, fun e => (H.holeB a ha).2 e.1⟩
  · intro d hd
    obtain ⟨F, h1, h2, h3⟩ := H.chn d hd
    have hcF : c ∉ F := fun hf => hck ((h3 c).1 hf).2.1
    refine ⟨F, chain_congr (fun a ha => upd_ne _ _ (by rintro rfl; exact hcF ha)) h1, h2, ?_⟩
    intro a
    show a ∈ F ↔ ((L a ∧ a ≠ c) ∧ (upd h.hdr c _ a).kind = .empty ∧ (upd h.hdr c _ a).info = d)
    by_cases hac : a = c
    · subst hac; exact ⟨fun e => absurd e hcF, fun e => absurd rfl e.1.2⟩
    · rw [upd_ne _ _ hac, h3 a]; simp [hac]
  · exact H.vnd.erase c
  · intro a
    show a ∈ V.erase c ↔ (Blk h T a ∧ ¬ hole a ∧ (upd h.hdr c _ a).kind ≠ .empty)
    by_cases hac : a = c
    · subst hac; rw [upd_eq]
      exact ⟨fun e => absurd e H.vnd.not_mem_erase, fun e => absurd rfl e.2.2⟩
    · rw [upd_ne _ _ hac, List.mem_erase_of_ne hac, H.vmem a]
  · intro d hd
    show upd h.ctr (h.hdr c).info (h.ctr (h.hdr c).info - 1) d = ((V.erase c).countP fun a => (upd h.hdr c _ a).info = d : Nat)
    simp only [hinfo]
    have hp := (List.perm_cons_erase hc).countP_eq (fun a => decide ((h.hdr a).info = d))
    rw [List.countP_cons] at hp
    by_cases hdb : d = (h.hdr c).info
    · subst hdb
      rw [upd_eq, H.cnt _ hd, hp]
      simp
    · rw [upd_ne _ _ hdb, H.cnt d hd, hp]
      simp [Ne.symm hdb]

/-- An empty unlinked block becomes a hole (ghost step). -/
theorem Core.dig (H : Core mul h T sz L hole V) {c : Nat} (hB : Blk h T c) (hL : ¬ L c) (hk : (h.hdr c).kind = .empty) :
    Core mul h T sz L (fun a => hole a ∨ a = c) V := by
  constructor
  · exact H.tile
  · exact H.reg
  · exact H.base
  · exact H.pos
  · intro a ha hh; exact H.size a ha (fun e => hh (.inl e))
  · exact H.LB
  · rintro a (ha | rfl)
    · exact H.holeB a ha
    · exact ⟨hB, hL⟩
  · exact H.chn
  · exact H.vnd
  · intro a
    rw [H.vmem a]
    constructor
    · rintro ⟨e1, e2, e3⟩
      refine ⟨e1, ?_, e3⟩
      rintro (e | rfl)
      · exact e2 e
      · exact e3 hk
    · rintro ⟨e1, e2, e3⟩; exact ⟨e1, fun e => e2 (.inl e), e3⟩
  · exact H.cnt

theorem Core.congr (H : Core mul h T sz L hole V) {L' hole' : Nat → Prop} (hL : ∀ a, L' a ↔ L a) (hh : ∀ a, hole' a ↔ hole a) :
    Core mul h T sz L' hole' V := by
  have e1 : L' = L := funext fun a => propext (hL a)
  have e2 : hole' = hole := funext fun a => propext (hh a)
  rw [e1, e2]; exact H

/-- The type of an allocated block may change. -/
theorem Core.setKind (H : Core mul h T sz L hole V) {c : Nat} (hc : c ∈ V) {k : Kind} (hk : k ≠ .empty) :
    Core mul (h.setHdr c { h.hdr c with kind := k }) T sz L hole V := by
  obtain ⟨hBc, hch, hck⟩ := (H.vmem c).1 hc
  have hinfo : ∀ a, (upd h.hdr c { h.hdr c with kind := k } a).info = (h.hdr a).info := by
    intro a
    by_cases hac : a = c
    · subst hac; rw [upd_eq]
    · rw [upd_ne _ _ hac]
  constructor
  · exact H.tile
  · exact H.reg
  · exact H.base
  · exact H.pos
  · intro a ha hh
    show sz a = bsz mul (upd h.hdr c _ a).info ∧ (upd h.hdr c _ a).info < 64
    rw [hinfo]; exact H.size a ha hh
  · exact H.LB
  · exact H.holeB
  · intro d hd
    obtain ⟨F, h1, h2, h3⟩ := H.chn d hd
    have hcF : c ∉ F := fun hf => hck ((h3 c).1 hf).2.1
    refine ⟨F, chain_congr (fun a ha => upd_ne _ _ (by rintro rfl; exact hcF ha)) h1, h2, ?_⟩
    intro a
    show a ∈ F ↔ (L a ∧ (upd h.hdr c _ a).kind = .empty ∧ (upd h.hdr c _ a).info = d)
    by_cases hac : a = c
    · subst hac; rw [upd_eq]; exact ⟨fun e => absurd e hcF, fun e => absurd e.2.1 hk⟩
    · rw [upd_ne _ _ hac, h3 a]
  · exact H.vnd
  · intro a
    show a ∈ V ↔ (Blk h T a ∧ ¬ hole a ∧ (upd h.hdr c _ a).kind ≠ .empty)
    by_cases hac : a = c
    · subst hac; rw [upd_eq]
      exact ⟨fun _ => ⟨hBc, hch, hk⟩, fun _ => hc⟩
    · rw [upd_ne _ _ hac, H.vmem a]
  · intro d hd
    show h.ctr d = (V.countP fun a => (upd h.hdr c _ a).info = d : Nat)
    simp only [hinfo]
    exact H.cnt d hd

/-- A new range, as one unlinked block. -/
theorem Core.newRegion (H : Core mul h T sz L hole V) {p s n : Nat} (x : Hdr) (hp : 0 < p) (hs : 0 < s) (hs' : s ≤ bsz mul 63) (hd : ∀ r ∈ h.al, disj r (p, s)) :
    Core mul (({ h with heapAlloc := n, al := h.al ++ [(p, s)] } : Heap).setHdr p x) (upd T p [p]) (upd sz p s) L (fun a => hole a ∨ a = p) V ∧
      (∀ a, Blk h T a → a ≠ p) ∧
      (∀ a, Blk (({ h with heapAlloc := n, al := h.al ++ [(p, s)] } : Heap).setHdr p x) (upd T p [p]) a ↔ (Blk h T a ∨ a = p)) := by
  have hne : ∀ r ∈ h.al, r.1 ≠ p := by
    intro r hr
    have h1 := H.base r hr
    rcases hd r hr with h2 | h2 <;> simp at h2 <;> omega
  have hnb : ∀ a, Blk h T a → a ≠ p := by
    rintro a ⟨r, hr, har⟩ rfl
    have h1 := tiles_mem (H.tile r hr) har
    have h3 := H.pos a ⟨r, hr, har⟩
    rcases hd r hr with h2 | h2 <;> simp at h2 <;> omega
  have hBlk : ∀ a, Blk (({ h with heapAlloc := n, al := h.al ++ [(p, s)] } : Heap).setHdr p x) (upd T p [p]) a ↔ (Blk h T a ∨ a = p) := by
    intro a
    constructor
    · rintro ⟨r, hr, har⟩
      rcases List.mem_append.1 hr with hr | hr
      · rw [upd_ne _ _ (hne r hr)] at har
        exact .inl ⟨r, hr, har⟩
      · simp at hr; subst hr; rw [upd_eq] at har; simp at har; exact .inr har
    · rintro (⟨r, hr, har⟩ | rfl)
      · exact ⟨r, List.mem_append.2 (.inl hr), by rw [upd_ne _ _ (hne r hr)]; exact har⟩
      · exact ⟨(a, s), List.mem_append.2 (.inr (by simp)), by rw [upd_eq]; simp⟩
  have hpL : ¬ L p := fun e => hnb p (H.LB p e) rfl
  refine ⟨?_, hnb, hBlk⟩
  constructor
  · intro r hr
    rcases List.mem_append.1 hr with hr | hr
    · rw [upd_ne _ _ (hne r hr)]
      exact tiles_congr (fun a ha => upd_ne _ _ (hnb a ⟨r, hr, ha⟩)) (H.tile r hr)
    · simp at hr; subst hr; rw [upd_eq]
      exact ⟨rfl, by rw [upd_eq]; rfl⟩
  · refine List.pairwise_append.2 ⟨H.reg, by simp, ?_⟩
    intro r hr t ht
    simp at ht; subst ht; exact hd r hr
  · intro r hr
    rcases List.mem_append.1 hr with hr | hr
    · exact H.base r hr
    · simp at hr; subst hr; exact ⟨hp, hs, hs'⟩
  · intro a ha
    rcases (hBlk a).1 ha with hb | rfl
    · rw [upd_ne _ _ (hnb a hb)]; exact H.pos a hb
    · rw [upd_eq]; exact hs
  · intro a ha hh
    rcases (hBlk a).1 ha with hb | rfl
    · show upd sz p s a = bsz mul (upd h.hdr p x a).info ∧ (upd h.hdr p x a).info < 64
      rw [upd_ne _ _ (hnb a hb), upd_ne _ _ (hnb a hb)]; exact H.size a hb (fun e => hh (.inl e))
    · exact absurd (.inr rfl) hh
  · intro a ha; exact (hBlk a).2 (.inl (H.LB a ha))
  · rintro a (ha | rfl)
    · exact ⟨(hBlk a).2 (.inl (H.holeB a ha).1), (H.holeB a ha).2⟩
    · exact ⟨(hBlk a).2 (.inr rfl), hpL⟩
  · intro d hd'; exact chn_frame H x hpL d hd'
  · exact H.vnd
  · intro a
    rw [hBlk, H.vmem a]
    show _ ↔ (_ ∧ _ ∧ (upd h.hdr p x a).kind ≠ .empty)
    constructor
    · rintro ⟨e1, e2, e3⟩
      have := hnb a e1
      refine ⟨.inl e1, ?_, by rw [upd_ne _ _ this]; exact e3⟩
      rintro (e | e)
      · exact e2 e
      · exact this e
    · rintro ⟨e1 | e1, e2, e3⟩
      · rw [upd_ne _ _ (hnb a e1)] at e3
        exact ⟨e1, fun e => e2 (.inl e), e3⟩
      · exact absurd (.inr e1) e2
  · intro d hd'
    show h.ctr d = (V.countP fun a => (upd h.hdr p x a).info = d : Nat)
    rw [H.cnt d hd']
    congr 1
    apply List.countP_congr
    intro a ha
    rw [upd_ne _ _ (hnb a ((H.vmem a).1 ha).1)]

end
end Verif.Buddy
