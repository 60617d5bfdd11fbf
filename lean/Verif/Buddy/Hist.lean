import Verif.Buddy.Merge
import Verif.Buddy.Spec
/-! # Lemmas -/
namespace Verif.Buddy
theorem chain_onList {h : Heap} {a : Nat} : ∀ {F : List Nat} {p : Nat}, chain h.hdr p F → (OnList h p a ↔ a ∈ F)
  | [], p, hc => by
    simp only [chain] at hc; subst hc
    constructor
    · intro e; cases e with
      | here e => exact absurd rfl e
      | next e _ => exact absurd rfl e
    · intro e; simp at e
  | f :: F, p, hc => by
    obtain ⟨rfl, h1, h2⟩ := hc
    rw [List.mem_cons]
    constructor
    · intro e; cases e with
      | here _ => exact .inl rfl
      | next _ e => exact .inr ((chain_onList h2).1 e)
    · rintro (rfl | e)
      · exact .here h1
      · exact .next h1 ((chain_onList h2).2 e)

theorem log2up_spec {x : Nat} (hx : 16 ≤ x) (hx2 : x ≤ 2^62) : x ≤ 2 ^ LOG2 x ∧ LOG2 x < 64 := by
  unfold LOG2
  have h0 : x - 1 ≠ 0 := by omega
  have h1 := Nat.lt_log2_self (n := x - 1)
  refine ⟨by omega, ?_⟩
  have h2 : (x-1).log2 < 62 := (Nat.log2_lt h0).2 (by omega)
  omega

theorem regionSize_eq (b : Nat) : regionSize 1 b = 2 ^ Nat.max 20 b := by
  unfold regionSize bsz ALSZ
  have : (if 20 < b then b else 20) = Nat.max 20 b := by
    show _ = max 20 b
    split <;> omega
  rw [this, Nat.one_mul]

theorem init_inv (mul : Nat) : Inv mul init [] := by
  refine ⟨fun _ => [], fun _ => 0, ?_⟩
  have hB : ∀ a, ¬ Blk init (fun _ => []) a := by rintro a ⟨r, hr, ha⟩; simp at ha
  constructor
  · intro r hr; simp [init] at hr
  · exact List.Pairwise.nil
  · intro r hr; simp [init] at hr
  · intro a ha; exact absurd ha (hB a)
  · intro a ha; exact absurd ha (hB a)
  · exact fun _ h => h
  · exact fun _ h => h.elim
  · intro b hb
    refine ⟨[], rfl, List.nodup_nil, fun a => ⟨fun e => by simp at e, fun e => absurd e.1 (hB a)⟩⟩
  · exact List.nodup_nil
  · intro a; exact ⟨fun e => by simp at e, fun e => absurd e.1 (hB a)⟩
  · intro b hb; rfl

/-- The invariant of histories. -/
def Good (s : State) : Prop :=
  ∃ V, Inv 1 s.heap V ∧ V.Perm (s.live.map Prod.fst ++ s.dead) ∧
    (∀ p ∈ s.live, (s.heap.hdr p.1).kind = .live ∧ p.2 ≤ blockSize s.heap p.1) ∧ (∀ a ∈ s.dead, (s.heap.hdr a).kind = .freed) ∧
    s.heap.heapAlloc = (s.heap.al.map Prod.snd).sum

theorem blockSize_congr {h h' : Heap} {a : Nat} (e : h'.hdr a = h.hdr a) : blockSize h' a = blockSize h a := by
  unfold blockSize; rw [e]

theorem splitLoop_ha (mul : Nat) (c to : Nat) : ∀ (n : Nat) (h : Heap), (splitLoop mul h c to n).heapAlloc = h.heapAlloc ∧ (splitLoop mul h c to n).al = h.al
  | 0, h => ⟨rfl, rfl⟩
  | n+1, h => by unfold splitLoop; have := splitLoop_ha mul c to n; exact ⟨(this _).1, (this _).2⟩

theorem flush_ha (mul : Nat) : ∀ (n : Nat) (h : Heap) (st : Nat), (flush mul h st n).heapAlloc = h.heapAlloc := by
  intro n
  induction n using Nat.strongRecOn with
  | ind n ih =>
    intro h st
    rw [flush]
    split
    · rfl
    · have : n &&& (n-1) ≤ n - 1 := Nat.and_le_right
      rw [ih _ (by omega)]; rfl

theorem freeLink_ha (h : Heap) (c : Nat) (l : Bool) : (freeLink h c l).heapAlloc = h.heapAlloc := by cases l <;> rfl

theorem walk_ha (mul e : Nat) : ∀ (fuel : Nat) (h h' : Heap) (c es : Nat), walk mul e h c es fuel = some h' → h'.heapAlloc = h.heapAlloc
  | 0, h, h', c, es, w => by simp [walk] at w
  | fuel+1, h, h', c, es, w => by
    unfold walk at w
    simp only at w
    have e1 : (if (h.hdr c).kind = .freed then freeLink h c false else h).heapAlloc = h.heapAlloc := by
      split
      · exact freeLink_ha _ _ _
      · rfl
    generalize (if (h.hdr c).kind = .freed then freeLink h c false else h) = h1 at *
    have e2 : (if (h1.hdr c).kind = .empty then (h1, es + 2^(h1.hdr c).info)
          else if es > 0 then (flush mul h1 (c - es * mul) es, 0) else (h1, es)).1.heapAlloc = h.heapAlloc := by
      split
      · exact e1
      · split
        · rw [flush_ha]; exact e1
        · exact e1
    generalize (if (h1.hdr c).kind = .empty then (h1, es + 2^(h1.hdr c).info)
          else if es > 0 then (flush mul h1 (c - es * mul) es, 0) else (h1, es)) = p at *
    split at w
    · injection w with w
      rw [← w]
      split
      · rw [flush_ha]; exact e2
      · exact e2
    · rw [walk_ha mul e fuel _ _ _ _ w]; exact e2

theorem walkAll_ha (mul : Nat) : ∀ (rs : List (Nat × Nat)) (h h' : Heap), walkAll mul h rs = some h' → h'.heapAlloc = h.heapAlloc
  | [], h, h', w => by simp [walkAll] at w; rw [w]
  | (p, s) :: rs, h, h', w => by
    unfold walkAll at w
    cases e : walk mul (p + s) h p 0 s with
    | none => rw [e] at w; simp at w
    | some h1 =>
      rw [e, Option.bind_some] at w
      rw [walkAll_ha mul rs _ _ w, walk_ha _ _ _ _ _ _ _ e]

theorem alloc_ha {max : Nat} {os : Option Nat} {h : Heap} {b x : Nat} {h' : Heap} (e : allocL 1 max os h b = .ok x h')
    (hh : h.heapAlloc = (h.al.map Prod.snd).sum) : h'.heapAlloc = (h'.al.map Prod.snd).sum := by
  unfold allocL at e
  simp only at e
  split at e
  · injection e with _ e; rw [← e]; exact hh
  · split at e
    · split at e
      · exact absurd e (by simp)
      · injection e with _ e
        rw [← e]
        have := splitLoop_ha 1
        show (splitLoop 1 _ _ _ _).heapAlloc = ((splitLoop 1 _ _ _ _).al.map Prod.snd).sum
        rw [(this _ _ _ _).1, (this _ _ _ _).2]; exact hh
    · split at e
      · exact absurd e (by simp)
      · rename_i h1 e1
        split at e
        · exact absurd e (by simp)
        · injection e with _ e
          rw [← e]
          obtain ⟨p, -, rfl⟩ := allocateMore_some e1
          have := splitLoop_ha 1
          show (splitLoop 1 _ _ _ _).heapAlloc = ((splitLoop 1 _ _ _ _).al.map Prod.snd).sum
          rw [(this _ _ _ _).1, (this _ _ _ _).2]
          show h.heapAlloc + regionSize 1 b = ((h.al ++ [(p, regionSize 1 b)]).map Prod.snd).sum
          rw [List.map_append, List.sum_append, ← hh]; simp

theorem reach_good {max : Nat} {s : State} (H : Reach max s) : Good s := by
  induction H with
  | init => exact ⟨[], init_inv 1, by simp, by simp, by simp, rfl⟩
  | step hr0 st ih =>
    clear hr0
    obtain ⟨V, hI, hP, hL, hD, hA⟩ := ih
    cases st with
    | alloc h16 h62 hos e =>
      have hl := log2up_spec h16 h62
      rename_i h live dead sz os x h'
      have hc := allocL_core (max := max) (os := os) (by omega : 0 < 1) hI hl.2 (fun p hp => by
        have := hos p hp
        rw [← regionSize_eq] at this
        exact this)
      unfold mm_alloc at e
      rw [e] at hc
      obtain ⟨c1, c2, c3, c4, c5, c6⟩ := hc
      refine ⟨x :: V, c1, hP.cons x, ?_, ?_, alloc_ha e hA⟩
      · intro p hp
        rcases List.mem_cons.1 hp with rfl | hp
        · refine ⟨c3, ?_⟩
          show sz ≤ blockSize h' x
          unfold blockSize; rw [c4]; exact hl.1
        · have hpV : p.1 ∈ V := hP.mem_iff.2 (List.mem_append.2 (.inl (List.mem_map_of_mem hp)))
          have := hL p hp
          simp only at this ⊢
          rw [c6 _ hpV, blockSize_congr (c6 _ hpV)]
          exact this
      · intro a ha
        have haV : a ∈ V := hP.mem_iff.2 (List.mem_append.2 (.inr ha))
        show (h'.hdr a).kind = _
        rw [c6 _ haV]; exact hD a ha
    | fail _ => exact ⟨V, hI, hP, hL, hD, hA⟩
    | free hx =>
      rename_i h live dead x n
      have hxV : x ∈ V := hP.mem_iff.2 (List.mem_append.2 (.inl (List.mem_map_of_mem (f := Prod.fst) hx)))
      obtain ⟨c1, c2, c3⟩ := free_core hI hxV
      have hP2 : (V.erase x).Perm ((live.erase (x, n)).map Prod.fst ++ dead) := by
        have h1 : V.Perm (x :: ((live.erase (x, n)).map Prod.fst ++ dead)) :=
          hP.trans (((List.perm_cons_erase hx).map Prod.fst).append_right dead)
        exact (List.perm_cons_erase hxV).symm.trans h1 |>.cons_inv
      refine ⟨V.erase x, c1, hP2, ?_, ?_, ?_⟩
      · intro p hp
        have hpV : p.1 ∈ V.erase x := hP2.mem_iff.2 (List.mem_append.2 (.inl (List.mem_map_of_mem hp)))
        have := hL p (List.mem_of_mem_erase hp)
        simp only at this ⊢
        rw [c3 _ hpV, blockSize_congr (c3 _ hpV)]
        exact this
      · intro a ha
        have haV : a ∈ V.erase x := hP2.mem_iff.2 (List.mem_append.2 (.inr ha))
        show ((free h x).hdr a).kind = _
        rw [c3 _ haV]; exact hD a ha
      · show (free h x).heapAlloc = _
        rw [c2]; exact (freeLink_ha _ _ _).trans hA
    | discard hx =>
      rename_i h live dead x n
      have hxV : x ∈ V := hP.mem_iff.2 (List.mem_append.2 (.inl (List.mem_map_of_mem (f := Prod.fst) hx)))
      obtain ⟨c1, c2, c3, c4⟩ := kill_core hI hxV
      have h1 : V.Perm (x :: ((live.erase (x, n)).map Prod.fst ++ dead)) :=
          hP.trans (((List.perm_cons_erase hx).map Prod.fst).append_right dead)
      have hnd : V.Nodup := by obtain ⟨T, sz, H⟩ := hI; exact H.vnd
      have hnx := (List.nodup_cons.1 (h1.nodup_iff.1 hnd)).1
      refine ⟨V, c1, h1.trans List.perm_middle.symm, ?_, ?_, ?_⟩
      · intro p hp
        have hne : p.1 ≠ x := by
          intro e
          have h9 : p.1 ∈ (live.erase (x, n)).map Prod.fst := List.mem_map_of_mem hp
          rw [e] at h9
          exact hnx (List.mem_append.2 (.inl h9))
        have := hL p (List.mem_of_mem_erase hp)
        simp only at this ⊢
        rw [c3 _ hne, blockSize_congr (c3 _ hne)]
        exact this
      · intro a ha
        rcases List.mem_cons.1 ha with e | ha'
        · rw [e]; exact c4
        · have hne : a ≠ x := by
            intro e; exact hnx (List.mem_append.2 (.inr (e ▸ ha')))
          show ((kill h x).hdr a).kind = _
          rw [c3 _ hne]; exact hD a ha'
      · show (kill h x).heapAlloc = _
        rw [c2]; exact hA
    | freeDead hx =>
      rename_i h live dead x
      have hxV : x ∈ V := hP.mem_iff.2 (List.mem_append.2 (.inr hx))
      obtain ⟨c1, c2, c3⟩ := free_core hI hxV
      have hP2 : (V.erase x).Perm (live.map Prod.fst ++ dead.erase x) := by
        have h1 : V.Perm (x :: (live.map Prod.fst ++ dead.erase x)) :=
          (hP.trans ((List.perm_cons_erase hx).append_left _)).trans List.perm_middle
        exact (List.perm_cons_erase hxV).symm.trans h1 |>.cons_inv
      refine ⟨V.erase x, c1, hP2, ?_, ?_, ?_⟩
      · intro p hp
        have hpV : p.1 ∈ V.erase x := hP2.mem_iff.2 (List.mem_append.2 (.inl (List.mem_map_of_mem hp)))
        have := hL p hp
        simp only at this ⊢
        rw [c3 _ hpV, blockSize_congr (c3 _ hpV)]
        exact this
      · intro a ha
        have haV : a ∈ V.erase x := hP2.mem_iff.2 (List.mem_append.2 (.inr ha))
        show ((free h x).hdr a).kind = _
        rw [c3 _ haV]; exact hD a (List.mem_of_mem_erase ha)
      · show (free h x).heapAlloc = _
        rw [c2]; exact (freeLink_ha _ _ _).trans hA
    | merge e =>
      rename_i h live dead h'
      obtain ⟨h2, V', w, c1, c2, c3, c4⟩ := merge_core (by omega : 0 < 1) hI
      rw [e] at w; injection w with w; subst w
      have hnd : V.Nodup := by obtain ⟨T, sz, H⟩ := hI; exact H.vnd
      have hnd' : V'.Nodup := by obtain ⟨T, sz, H⟩ := c1; exact H.vnd
      have hlV : ∀ p ∈ live, p.1 ∈ V' := by
        intro p hp
        refine (c3 _).2 ⟨hP.mem_iff.2 (List.mem_append.2 (.inl (List.mem_map_of_mem hp))), ?_⟩
        have := (hL p hp).1
        simp only at this
        rw [this]; simp
      refine ⟨V', c1, ?_, ?_, by simp, ?_⟩
      · refine (List.perm_ext_iff_of_nodup hnd' ?_).2 ?_
        · have := hP.nodup_iff.1 hnd
          simp only [List.append_nil]
          exact (List.nodup_append.1 this).1
        · intro a
          simp only [List.append_nil]
          constructor
          · intro ha
            obtain ⟨h1, h2⟩ := (c3 a).1 ha
            rcases List.mem_append.1 (hP.mem_iff.1 h1) with h3 | h3
            · exact h3
            · exact absurd (hD a h3) h2
          · intro ha
            obtain ⟨p, hp, rfl⟩ := List.mem_map.1 ha
            exact hlV p hp
      · intro p hp
        have := hL p hp
        simp only at this ⊢
        rw [c4 _ (hlV p hp), blockSize_congr (c4 _ (hlV p hp))]
        exact this
      · show h'.heapAlloc = (h'.al.map _).sum
        rw [c2, walkAll_ha _ _ _ _ e]; exact hA

theorem tiles_sum {sz : Nat → Nat} : ∀ {as : List Nat} {p e}, tiles sz p e as → p + (as.map sz).sum = e
  | [], p, e, h => by simp only [tiles] at h; simpa using h
  | a :: as, p, e, h => by have := tiles_sum h.2; simp; omega

theorem sum_filter (f : Nat → Nat) (p : Nat → Bool) : ∀ l : List Nat, (l.map f).sum = ((l.filter p).map f).sum + ((l.filter fun a => !p a).map f).sum
  | [] => rfl
  | a :: l => by
    have := sum_filter f p l
    cases h : p a <;> simp [List.filter_cons, h] <;> omega

theorem bsz_one (b : Nat) : bsz 1 b = 2^b := Nat.one_mul _

theorem pairwise_of_forall {α} {R : α → α → Prop} : ∀ {l : List α}, l.Nodup → (∀ a ∈ l, ∀ b ∈ l, a ≠ b → R a b) → l.Pairwise R
  | [], _, _ => .nil
  | x :: l, hn, h => by
    obtain ⟨h1, h2⟩ := List.nodup_cons.1 hn
    exact .cons (fun b hb => h x (by simp) b (by simp [hb]) (by rintro rfl; exact h1 hb))
      (pairwise_of_forall h2 (fun a ha b hb => h a (by simp [ha]) b (by simp [hb])))

theorem free_iff {h : Heap} {V : List Nat} {T : Nat → List Nat} {sz : Nat → Nat} (H : Core 1 h T sz (fun a => Blk h T a) (fun _ => False) V) (a b : Nat) :
    FreeBlock h a b ↔ (Blk h T a ∧ (h.hdr a).kind = .empty ∧ (h.hdr a).info = b) := by
  unfold FreeBlock
  constructor
  · rintro ⟨hb, ho⟩
    obtain ⟨F, h1, h2, h3⟩ := H.chn b hb
    exact (h3 a).1 ((chain_onList h1).1 ho)
  · rintro ⟨h1, h2, h3⟩
    have hb := (H.size a h1 id).2
    obtain ⟨F, f1, f2, f3⟩ := H.chn b (h3 ▸ hb)
    exact ⟨h3 ▸ hb, (chain_onList f1).2 ((f3 a).2 ⟨h1, h2, h3⟩)⟩

/-- Parts of a successful result, for the examples. -/
def Res.isOk : Res → Bool | .ok _ _ => true | _ => false
def Res.ptr : Res → Nat | .ok x _ => x | _ => 0
def Res.heap : Res → Heap | .ok _ h => h | _ => init
theorem Res.eq_ok : ∀ {r : Res}, r.isOk = true → r = .ok r.ptr r.heap
  | .ok _ _, _ => rfl

/-- A concrete history used in the examples: two allocations, then the first block is freed, the second discarded and
another is allocated. -/
def ex1 : Res := mm_alloc (2^30) (some 4096) init 100
def ex2 : Res := mm_alloc (2^30) none ex1.heap 5000
def ex3 : Heap := kill (free ex2.heap 4096) (4096 + 8192)
def ex4 : Res := mm_alloc (2^30) none ex3 70000

theorem ex_reach : Reach (2^30) ⟨ex4.heap, [(4096 + 131072, 70000)], [4096 + 8192]⟩ := by
  have h1 : mm_alloc (2^30) (some 4096) init 100 = .ok 4096 ex1.heap :=
    (Res.eq_ok (r := ex1) (by decide +kernel)).trans (by rw [show ex1.ptr = 4096 by decide +kernel])
  have h2 : mm_alloc (2^30) none ex1.heap 5000 = .ok (4096 + 8192) ex2.heap :=
    (Res.eq_ok (r := ex2) (by decide +kernel)).trans (by rw [show ex2.ptr = 4096 + 8192 by decide +kernel])
  have h4 : mm_alloc (2^30) none ex3 70000 = .ok (4096 + 131072) ex4.heap :=
    (Res.eq_ok (r := ex4) (by decide +kernel)).trans (by rw [show ex4.ptr = 4096 + 131072 by decide +kernel])
  have s1 := Reach.step (max := 2^30) .init (.alloc (sz := 100) (by omega) (by omega) (by
    intro p hp; injection hp with hp; subst hp
    exact ⟨by omega, by intro r hr; simp [init] at hr⟩) h1)
  have s2 := s1.step (.alloc (sz := 5000) (by omega) (by omega) (by intro p hp; simp at hp) h2)
  have s3 := s2.step (.free (x := 4096) (n := 100) (by simp))
  have s4 := s3.step (.discard (x := 4096 + 8192) (n := 5000) (by decide))
  have s5 := s4.step (.alloc (sz := 70000) (by omega) (by omega) (by intro p hp; simp at hp) h4)
  exact s5

end Verif.Buddy
