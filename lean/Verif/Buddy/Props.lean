import Verif.Buddy.Hist
/-! Properties C07 and C08: the buddy allocator. -/
namespace Verif.Buddy
/-- C07: in every reachable state, blocks in use are pairwise disjoint, lie inside memory obtained from the system, are at
least as large as requested, and overlap no free block. -/
theorem live_disjoint {max : Nat} {s : State} (H : Reach max s) :
    s.live.Pairwise (fun p q => Apart p.1 p.2 q.1 q.2) ∧
    (∀ p ∈ s.live, ∃ r ∈ s.heap.al, r.1 ≤ p.1 ∧ p.1 + p.2 ≤ r.1 + r.2) ∧
    (∀ p ∈ s.live, p.2 ≤ blockSize s.heap p.1) ∧
    (∀ p ∈ s.live, ∀ a b, FreeBlock s.heap a b → Apart p.1 p.2 a (2^b)) := by
  obtain ⟨V, ⟨T, sz, hI⟩, hP, hL, hD, hA⟩ := reach_good H
  have hV : ∀ p ∈ s.live, Blk s.heap T p.1 ∧ sz p.1 = blockSize s.heap p.1 := by
    intro p hp
    have h1 := (hI.vmem p.1).1 (hP.mem_iff.2 (List.mem_append.2 (.inl (List.mem_map_of_mem hp))))
    exact ⟨h1.1, by rw [(hI.size _ h1.1 id).1, bsz_one]; rfl⟩
  have hnd := (List.nodup_append.1 (hP.nodup_iff.1 hI.vnd)).1
  refine ⟨?_, ?_, fun p hp => (hL p hp).2, ?_⟩
  · have h1 : (s.live.map Prod.fst).Pairwise (· ≠ ·) := hnd
    rw [List.pairwise_map] at h1
    refine h1.imp_of_mem ?_
    intro p q hp hq hne
    have h2 := hI.apart (hV p hp).1 (hV q hq).1 hne
    rw [(hV p hp).2, (hV q hq).2] at h2
    have h3 := (hL p hp).2
    have h4 := (hL q hq).2
    unfold Apart; omega
  · intro p hp
    obtain ⟨⟨r, hr, har⟩, h2⟩ := hV p hp
    have h1 := tiles_mem (hI.tile r hr) har
    have h3 := (hL p hp).2
    exact ⟨r, hr, h1.1, by omega⟩
  · intro p hp a b hf
    obtain ⟨f1, f2, f3⟩ := (free_iff hI a b).1 hf
    have hne : p.1 ≠ a := by
      rintro rfl; have := (hL p hp).1; rw [f2] at this; exact absurd this (by simp)
    have h2 := hI.apart (hV p hp).1 f1 hne
    rw [(hV p hp).2, (hI.size a f1 id).1, bsz_one, f3] at h2
    have h3 := (hL p hp).2
    unfold Apart; omega

/-- C07: an allocation in a reachable state either reports failure or hands out a block; the retry after splitting or
after obtaining memory always finds one. Blocks already in use are kept. -/
theorem alloc_progress {max : Nat} {s : State} (H : Reach max s) {n : Nat} (h16 : 16 ≤ n) (h62 : n ≤ 2^62) {os : Option Nat}
    (hos : FreshRange s.heap os (2 ^ Nat.max 20 (LOG2 n))) :
    mm_alloc max os s.heap n ≠ .stuck := by
  obtain ⟨V, hI, hP, hL, hD, hA⟩ := reach_good H
  have hc := allocL_core (max := max) (os := os) (by omega : 0 < 1) hI (log2up_spec h16 h62).2 (fun p hp => by
    have := hos p hp
    rw [← regionSize_eq] at this
    exact this)
  intro e
  unfold mm_alloc at e
  rw [e] at hc
  exact hc

/-- C07: an allocation fails only if the heap limit is reached or the system gave no (usable) memory. -/
theorem alloc_fails_only {max : Nat} {s : State} {n : Nat} {p : Nat}
    (hmax : s.heap.heapAlloc + 2 ^ Nat.max 20 (LOG2 n) ≤ max) (h48 : p + 2 ^ Nat.max 20 (LOG2 n) ≤ 2^48) :
    mm_alloc max (some p) s.heap n ≠ .oom := by
  intro e
  unfold mm_alloc allocL at e
  simp only at e
  split at e
  · exact absurd e (by simp)
  · split at e
    · split at e <;> exact absurd e (by simp)
    · split at e
      · rename_i e1
        unfold allocateMore at e1
        have hr := regionSize_eq (LOG2 n)
        unfold regionSize at hr
        simp only [hr] at e1
        rw [if_neg (by omega), if_neg (by omega)] at e1
        exact absurd e1 (by simp)
      · split at e <;> exact absurd e (by simp)

/-- C08: merging always runs to completion. -/
theorem merge_completes {max : Nat} {s : State} (H : Reach max s) : ∃ h, freeFreedAndMerge 1 s.heap = some h := by
  obtain ⟨V, hI, _⟩ := reach_good H
  obtain ⟨h', V', w, _⟩ := merge_core (by omega : 0 < 1) hI
  exact ⟨h', w⟩

/-- C08: in every reachable state (so also after any merge) every byte obtained from the system is in a block that is in
use, discarded, or free, and free blocks are disjoint from each other, inside the obtained memory, and on one list only. -/
theorem memory_partition {max : Nat} {s : State} (H : Reach max s) :
    (∀ r ∈ s.heap.al, ∀ x, r.1 ≤ x → x < r.1 + r.2 →
      (∃ a, (a ∈ s.live.map Prod.fst ∨ a ∈ s.dead) ∧ a ≤ x ∧ x < a + blockSize s.heap a) ∨
      (∃ a b, FreeBlock s.heap a b ∧ a ≤ x ∧ x < a + 2^b)) ∧
    (∀ a b a' b', FreeBlock s.heap a b → FreeBlock s.heap a' b' → (a = a' ∧ b = b') ∨ Apart a (2^b) a' (2^b')) ∧
    (∀ a b, FreeBlock s.heap a b → ∃ r ∈ s.heap.al, r.1 ≤ a ∧ a + 2^b ≤ r.1 + r.2) := by
  obtain ⟨V, ⟨T, sz, hI⟩, hP, hL, hD, hA⟩ := reach_good H
  refine ⟨?_, ?_, ?_⟩
  · intro r hr x h1 h2
    obtain ⟨a, ha, h3, h4⟩ := tiles_cover (hI.tile r hr) h1 h2
    have hs := (hI.size a ⟨r, hr, ha⟩ id).1
    rw [hs, bsz_one] at h4
    by_cases hk : (s.heap.hdr a).kind = .empty
    · exact .inr ⟨a, (s.heap.hdr a).info, (free_iff hI _ _).2 ⟨⟨r, hr, ha⟩, hk, rfl⟩, h3, h4⟩
    · exact .inl ⟨a, List.mem_append.1 (hP.mem_iff.1 ((hI.vmem a).2 ⟨⟨r, hr, ha⟩, id, hk⟩)), h3, h4⟩
  · intro a b a' b' hf hf'
    obtain ⟨f1, f2, f3⟩ := (free_iff hI a b).1 hf
    obtain ⟨g1, g2, g3⟩ := (free_iff hI a' b').1 hf'
    by_cases e : a = a'
    · subst e; exact .inl ⟨rfl, f3 ▸ g3⟩
    · have h2 := hI.apart f1 g1 e
      rw [(hI.size a f1 id).1, (hI.size a' g1 id).1, bsz_one, bsz_one, f3, g3] at h2
      exact .inr h2
  · intro a b hf
    obtain ⟨f1, f2, f3⟩ := (free_iff hI a b).1 hf
    have hs := (hI.size a f1 id).1
    obtain ⟨r, hr, har⟩ := f1
    have h1 := tiles_mem (hI.tile r hr) har
    rw [hs, bsz_one, f3] at h1
    exact ⟨r, hr, h1⟩

/-- C08: the reported heap usage is the total size of the blocks in use or discarded, and together with the free blocks
(each counted once) it is all the memory obtained from the system. So merging, which keeps the blocks in use, changes the
amount of free memory only by the discarded blocks it reclaims. -/
theorem memory_accounted {max : Nat} {s : State} (H : Reach max s) :
    heapUsed 1 s.heap = (((s.live.map Prod.fst ++ s.dead).map (blockSize s.heap)).sum : Nat) ∧
    ∃ F : List Nat, F.Nodup ∧ (∀ a, a ∈ F ↔ ∃ b, FreeBlock s.heap a b) ∧
      heapUsed 1 s.heap + (F.map (blockSize s.heap)).sum = (s.heap.al.map Prod.snd).sum ∧
      s.heap.heapAlloc = (s.heap.al.map Prod.snd).sum := by
  obtain ⟨V, hInv, hP, hL, hD, hA⟩ := reach_good H
  have hu := heapUsed_core hInv
  have hu2 : heapUsed 1 s.heap = ((V.map (blockSize s.heap)).sum : Nat) := by
    rw [hu]
    clear hu hP hInv
    induction V with
    | nil => rfl
    | cons a V ih => rw [List.map_cons, List.sum_cons, ih, bsz_one, List.map_cons, List.sum_cons, Int.natCast_add]; rfl
  refine ⟨?_, ?_⟩
  · rw [hu2, (hP.map _).sum_nat]
  · obtain ⟨l, hl, hlV⟩ := forHeap_core (by omega : 0 < 1) hInv
    obtain ⟨T, sz, hI⟩ := hInv
    have hl2 := forHeap_eq (by omega : 0 < 1) s.heap s.heap.al hI.tile (fun r hr a ha => (hI.size a ⟨r, hr, ha⟩ id).1)
    rw [hl] at hl2; injection hl2 with hl2
    refine ⟨s.heap.al.flatMap fun r => (T r.1).filter fun a => !decide ((s.heap.hdr a).kind ≠ .empty), ?_, ?_, ?_, hA⟩
    · unfold List.Nodup
      rw [List.pairwise_flatMap]
      refine ⟨fun r hr => (tiles_nodup (hI.tile r hr) (fun a ha => hI.pos a ⟨r, hr, ha⟩)).filter _, ?_⟩
      refine hI.reg.imp_of_mem ?_
      intro r t hr ht hd
      rintro a ha b hb rfl
      have h3 := hI.same hr ht (List.mem_filter.1 ha).1 (List.mem_filter.1 hb).1
      subst h3
      have := hI.base r hr
      rcases hd with hd | hd <;> omega
    · intro a
      rw [List.mem_flatMap]
      constructor
      · rintro ⟨r, hr, ha⟩
        have h1 := List.mem_filter.1 ha
        exact ⟨(s.heap.hdr a).info, (free_iff hI _ _).2 ⟨⟨r, hr, h1.1⟩, by simpa using h1.2, rfl⟩⟩
      · rintro ⟨b, hf⟩
        obtain ⟨⟨r, hr, ha⟩, h2, _⟩ := (free_iff hI _ _).1 hf
        exact ⟨r, hr, List.mem_filter.2 ⟨ha, by simpa using h2⟩⟩
    · rw [hu2, ← (hlV.map (blockSize s.heap)).sum_nat, hl2]
      have key : ∀ rs : List (Nat × Nat), (∀ r ∈ rs, r ∈ s.heap.al) →
          (((rs.flatMap fun r => (T r.1).filter fun a => (s.heap.hdr a).kind ≠ .empty).map (blockSize s.heap)).sum : Int) +
            ((rs.flatMap fun r => (T r.1).filter fun a => !decide ((s.heap.hdr a).kind ≠ .empty)).map (blockSize s.heap)).sum = (rs.map Prod.snd).sum := by
        intro rs
        induction rs with
        | nil => intro _; rfl
        | cons r rs ih =>
          intro hrs
          have h1 := ih (fun t ht => hrs t (by simp [ht]))
          have hr := hrs r (by simp)
          have h2 := tiles_sum (hI.tile r hr)
          have h3 : (T r.1).map sz = (T r.1).map (blockSize s.heap) := by
            apply List.map_congr_left
            intro a ha
            rw [(hI.size a ⟨r, hr, ha⟩ id).1, bsz_one]; rfl
          rw [h3] at h2
          have h4 := sum_filter (blockSize s.heap) (fun a => decide ((s.heap.hdr a).kind ≠ .empty)) (T r.1)
          simp only [List.flatMap_cons, List.map_append, List.sum_append, List.map_cons, List.sum_cons]
          omega
      exact key _ (fun _ h => h)

/-- C08: enumerating the heap (as the collector does) visits every block in use or discarded exactly once. -/
theorem forHeap_visits {max : Nat} {s : State} (H : Reach max s) :
    ∃ l, forHeap 1 s.heap s.heap.al = some l ∧ l.Perm (s.live.map Prod.fst ++ s.dead) := by
  obtain ⟨V, hI, hP, _⟩ := reach_good H
  obtain ⟨l, hl, hlV⟩ := forHeap_core (by omega : 0 < 1) hI
  exact ⟨l, hl, hlV.trans hP⟩

/-- C08: merging keeps the blocks in use where they are, with their sizes. -/
theorem merge_keeps {max : Nat} {s : State} (H : Reach max s) {h' : Heap} (e : freeFreedAndMerge 1 s.heap = some h') :
    h'.al = s.heap.al ∧ ∀ p ∈ s.live, h'.hdr p.1 = s.heap.hdr p.1 := by
  obtain ⟨V, hI, hP, hL, _⟩ := reach_good H
  obtain ⟨h2, V', w, c1, c2, c3, c4⟩ := merge_core (by omega : 0 < 1) hI
  rw [e] at w; injection w with w; subst w
  refine ⟨c2, fun p hp => c4 _ ((c3 _).2 ⟨hP.mem_iff.2 (List.mem_append.2 (.inl (List.mem_map_of_mem hp))), ?_⟩)⟩
  rw [(hL p hp).1]; simp

-- the hypotheses are met by a concrete history with a block in use, a discarded one and free ones
example : Reach (2^30) ⟨ex4.heap, [(135168, 70000)], [12288]⟩ := ex_reach
example : heapUsed 1 ex4.heap = 131072 + 8192 := by decide +kernel
example : (freeFreedAndMerge 1 ex4.heap).map (fun h => (heapUsed 1 h, h.bkt 17, h.bkt 18, h.bkt 19)) = some (131072, 4096, 266240, 528384) := by decide +kernel
example : FreshRange ex4.heap (some (2^24)) (2 ^ Nat.max 20 (LOG2 (2^21))) := by
  intro p hp; injection hp with hp; subst hp
  exact ⟨by omega, by decide +kernel⟩
end Verif.Buddy
