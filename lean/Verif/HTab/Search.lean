import Verif.HTab.Lemmas
import Verif.HTab.Serve
/-! # Lemmas: the searches built on the hash table -/
set_option linter.unusedSectionVars false
namespace Verif.HTab
variable {K V : Type} [DecidableEq K]

/-- `g` of what precedes and of the element, along a list -/
def along (g : List K → K → β) : List K → List K → List β
  | _, [] => []
  | pre, k :: x => g pre k :: along g (pre ++ [k]) x

theorem along_mapIdx (g : List K → K → β) : ∀ (x pre : List K),
    x.mapIdx (fun i k => g (pre ++ x.take i) k) = along g pre x := by
  intro x
  induction x with
  | nil => intro pre; rfl
  | cons k x ih =>
    intro pre
    rw [List.mapIdx_cons]
    unfold along
    have := ih (pre ++ [k])
    simp only [List.append_assoc, List.singleton_append] at this
    simp only [List.take_zero, List.append_nil, List.take_succ_cons]
    rw [this]

theorem mem_firsts (x : List K) (k : K) : k ∈ firsts x ↔ k ∈ x := by
  induction x with
  | nil => rfl
  | cons a x ih =>
    unfold firsts
    by_cases c : k = a
    · simp [c]
    · simp [c, ih]

theorem firsts_snoc (x : List K) (k : K) : firsts (x ++ [k]) = if k ∈ x then firsts x else firsts x ++ [k] := by
  induction x with
  | nil => simp [firsts]
  | cons a x ih =>
    simp only [List.cons_append, firsts, ih, List.mem_cons]
    by_cases c : k = a
    · subst c
      by_cases d : k ∈ x
      · simp [d]
      · simp [d]
    · by_cases d : k ∈ x
      · simp [c, d]
      · simp [c, d]

theorem firsts_prefix (x y : List K) : firsts x <+: firsts (x ++ y) := by
  induction y generalizing x with
  | nil => simp
  | cons k y ih =>
    have h1 := ih (x ++ [k])
    rw [List.append_assoc, List.singleton_append] at h1
    refine List.IsPrefix.trans ?_ h1
    rw [firsts_snoc]
    split
    · exact List.prefix_refl _
    · exact List.prefix_append _ _

theorem firsts_nodup (x : List K) : (firsts x).Nodup := by
  induction x with
  | nil => exact List.nodup_nil
  | cons a x ih =>
    unfold firsts
    rw [List.nodup_cons]
    exact ⟨by simp, ih.filter _⟩

theorem idxOf_prefix {x y : List K} (h : x <+: y) {k : K} (hk : k ∈ x) : y.idxOf k = x.idxOf k := by
  obtain ⟨t, rfl⟩ := h
  rw [List.idxOf_append, if_pos hk]

/-- results in order -/
theorem mapO_some {f : α → Option β} {g : α → β} : ∀ (l : List α), (∀ a ∈ l, f a = some (g a)) → mapO f l = some (l.map g) := by
  intro l
  induction l with
  | nil => intro _; rfl
  | cons a l ih =>
    intro h
    unfold mapO
    rw [h a (by simp), Option.bind_some, ih (fun b hb => h b (by simp [hb]))]
    rfl

theorem getD_good {hash : K → Nat} {t : Map K V} {f : K → Option V} (g : Good hash t f) (k : K) (hk : hash k ≠ 0) (d : V) :
    getD hash t k d = some ((f k).getD d) := by
  obtain ⟨p, _, h⟩ := find_good g k hk
  unfold getD
  rcases h with ⟨h1, _, _, h4⟩ | ⟨h1, h2, _⟩
  · rw [h1, h4]; rfl
  · rw [h1, h2]; rfl

theorem has_good {hash : K → Nat} {t : Map K V} {f : K → Option V} (g : Good hash t f) (k : K) (hk : hash k ≠ 0) :
    has hash t k = some (f k).isSome := by
  obtain ⟨p, _, h⟩ := find_good g k hk
  unfold has
  rcases h with ⟨h1, _, _, h4⟩ | ⟨h1, h2, _⟩
  · rw [h1, h4]; rfl
  · rw [h1, h2]; rfl

theorem ins_good {hash : K → Nat} (junk : K × V) {t : Map K V} {f : K → Option V} (g : Good hash t f) (k : K) (hk : hash k ≠ 0)
    (v : V) : ∃ u, ins hash junk t k v = some (u, (f k).isSome) ∧ Good hash u (upd f k v) := by
  obtain ⟨u, p, h1, _, h3⟩ := mkSet_good junk g k hk
  exact ⟨u.setVal p v, by unfold ins; rw [h1]; rfl, h3 v⟩

theorem swap_good {hash : K → Nat} (junk : K × V) {t : Map K V} {f : K → Option V} (g : Good hash t f) (k : K) (hk : hash k ≠ 0)
    (v d : V) : ∃ u, swap hash junk t k v d = some (u, (f k).getD d) ∧ Good hash u (upd f k v) := by
  obtain ⟨u, p, h1, h2, h3⟩ := mkSet_good junk g k hk
  refine ⟨u.setVal p v, ?_, h3 v⟩
  unfold swap
  rw [h1]
  cases hv : f k with
  | none => rfl
  | some w => simp [(h2 w hv).1]

theorem upd_of_eq {f : K → Option V} {k : K} {v : V} (h : f k = some v) : upd f k v = f := by
  funext j
  unfold upd
  split
  · rename_i c; rw [c, h]
  · rfl

/-! ## `⊐` -/

/-- index of the first occurrence, for keys that occur -/
def idxMap (w : List K) : K → Option Nat := fun k => if k ∈ w then some (w.idxOf k) else none

theorem idxMap_snoc (w : List K) (k : K) (h : k ∉ w) : upd (idxMap w) k w.length = idxMap (w ++ [k]) := by
  funext j
  unfold upd idxMap
  by_cases c : j = k
  · subst c
    simp [List.idxOf_append, h]
  · by_cases d : j ∈ w
    · simp [c, d, List.idxOf_append]
    · simp [c, d]

theorem idxMap_snoc_mem (w : List K) (k : K) (h : k ∈ w) : idxMap (w ++ [k]) = idxMap w := by
  funext j
  unfold idxMap
  by_cases d : j ∈ w
  · simp [d, List.idxOf_append]
  · have : j ≠ k := by rintro rfl; exact d h
    simp [d, this]

theorem indexFill_good {hash : K → Nat} (hh : ∀ k, hash k ≠ 0) (junk : K × Nat) : ∀ (w pre : List K) (t : Map K Nat),
    Good hash t (idxMap pre) → ∃ u, indexFill hash junk t pre.length w = some u ∧ Good hash u (idxMap (pre ++ w)) := by
  intro w
  induction w with
  | nil => intro pre t g; exact ⟨t, rfl, by simpa using g⟩
  | cons k w ih =>
    intro pre t g
    obtain ⟨u, p, h1, h2, h3⟩ := mkSet_good junk g k (hh k)
    unfold indexFill
    rw [h1, Option.bind_some]
    have e : pre.length + 1 = (pre ++ [k]).length := by simp
    have e2 : pre ++ k :: w = (pre ++ [k]) ++ w := by simp
    rw [e, e2]
    by_cases c : k ∈ pre
    · have hs : idxMap pre k = some (pre.idxOf k) := if_pos c
      refine ih (pre ++ [k]) _ ?_
      rw [idxMap_snoc_mem pre k c]
      simp only [hs, Option.isSome_some, if_true]
      exact (h2 _ hs).2
    · have hs : idxMap pre k = none := if_neg c
      refine ih (pre ++ [k]) _ ?_
      simp only [hs, Option.isSome_none]
      rw [← idxMap_snoc pre k c]
      exact h3 _

/-! ## `∊` -/

def memMap (w : List K) : K → Option Unit := fun k => if k ∈ w then some () else none

theorem memMap_snoc (w : List K) (k : K) : upd (memMap w) k () = memMap (w ++ [k]) := by
  funext j
  unfold upd memMap
  by_cases c : j = k
  · simp [c]
  · simp [c]

theorem setFill_good {hash : K → Nat} (hh : ∀ k, hash k ≠ 0) (junk : K × Unit) : ∀ (w pre : List K) (t : Map K Unit),
    Good hash t (memMap pre) → ∃ u, setFill hash junk t w = some u ∧ Good hash u (memMap (pre ++ w)) := by
  intro w
  induction w with
  | nil => intro pre t g; exact ⟨t, rfl, by simpa using g⟩
  | cons k w ih =>
    intro pre t g
    obtain ⟨u, p, hp, _, _, h⟩ := mk_good junk g k (hh k)
    have e2 : pre ++ k :: w = (pre ++ [k]) ++ w := by simp
    unfold setFill
    rw [e2]
    rcases h with ⟨h1, h2, h3⟩ | ⟨h1, h2, h3⟩
    · rw [h1, Option.bind_some]
      refine ih (pre ++ [k]) u ?_
      rw [← memMap_snoc, upd_of_eq h3]
      exact h2
    · rw [h1, Option.bind_some]
      refine ih (pre ++ [k]) u ?_
      rw [← memMap_snoc]
      exact h3

theorem markLoop_good {hash : K → Nat} (hh : ∀ k, hash k ≠ 0) (junk : K × Unit) : ∀ (w pre : List K) (t : Map K Unit),
    Good hash t (memMap pre) → markLoop hash junk t w = some (along (fun pre k => decide (k ∉ pre)) pre w) := by
  intro w
  induction w with
  | nil => intro pre t g; rfl
  | cons k w ih =>
    intro pre t g
    obtain ⟨u, h1, h2⟩ := ins_good junk g k (hh k) ()
    rw [memMap_snoc] at h2
    unfold markLoop along
    rw [h1, Option.bind_some, ih _ _ h2, Option.map_some]
    congr 2
    unfold memMap
    by_cases c : k ∈ pre <;> simp [c]

theorem memMap_run (x0 : K) (n : Nat) : memMap (List.replicate (n+1) x0) = memMap [x0] := by
  funext k
  unfold memMap
  simp

theorem along_run (x0 : K) : ∀ (n m : Nat) (t : List K),
    along (fun pre k => decide (k ∉ pre)) (List.replicate (m+1) x0) (List.replicate n x0 ++ t) =
      List.replicate n false ++ along (fun pre k => decide (k ∉ pre)) (List.replicate (m+1+n) x0) t := by
  intro n
  induction n with
  | zero => intro m t; simp
  | succ n ih =>
    intro m t
    rw [List.replicate_succ (n := n) (a := x0), List.cons_append, along]
    have e : List.replicate (m+1) x0 ++ [x0] = List.replicate (m+1+1) x0 := by
      rw [List.replicate_succ' (n := m+1)]
    rw [e, ih (m+1) t, List.replicate_succ (n := n), List.cons_append, show m+1+1+n = m+1+(n+1) by omega]
    congr 1
    simp

theorem takeWhile_run (x0 : K) (x : List K) :
    x.takeWhile (· = x0) = List.replicate (x.takeWhile (· = x0)).length x0 := by
  rw [List.eq_replicate_iff]
  refine ⟨rfl, fun b hb => ?_⟩
  have := List.all_takeWhile (p := fun a => decide (a = x0)) (l := x)
  rw [List.all_eq_true] at this
  simpa using this b hb

/-! ## `⊒` -/

def occMap (w : List K) : K → Option Nat := fun k => if k ∈ w then some (w.count k - 1) else none

theorem occLoop_good {hash : K → Nat} (hh : ∀ k, hash k ≠ 0) (junk : K × Nat) : ∀ (w pre : List K) (t : Map K Nat),
    Good hash t (occMap pre) → occLoop hash junk t w = some (along (fun pre k => pre.count k) pre w) := by
  intro w
  induction w with
  | nil => intro pre t g; rfl
  | cons k w ih =>
    intro pre t g
    obtain ⟨u, p, h1, h2, h3⟩ := mkSet_good junk g k (hh k)
    have hv : (if (occMap pre k).isSome = true then (u.a p).val + 1 else 0) = pre.count k := by
      by_cases c : k ∈ pre
      · have hs : occMap pre k = some (pre.count k - 1) := if_pos c
        rw [hs, if_pos (by rfl), (h2 _ hs).1]
        have := List.count_pos_iff.2 c
        omega
      · have hs : occMap pre k = none := if_neg c
        rw [hs, if_neg (by simp), List.count_eq_zero.2 c]
    have hm : upd (occMap pre) k (pre.count k) = occMap (pre ++ [k]) := by
      funext j
      unfold upd occMap
      by_cases c : j = k
      · subst c; simp
      · have : ¬ k = j := fun e => c e.symm
        simp [c, List.count_append, this]
    unfold occLoop along
    rw [h1, Option.bind_some]
    simp only
    rw [hv]
    have g' := h3 (pre.count k)
    rw [hm] at g'
    rw [ih _ _ g']
    rfl

/-! ## classify -/

def clsMap (w : List K) : K → Option Nat := fun k => if k ∈ w then some ((firsts w).idxOf k) else none

theorem clsMap_snoc_mem (w : List K) (k : K) (h : k ∈ w) : clsMap (w ++ [k]) = clsMap w := by
  funext j
  unfold clsMap
  rw [firsts_snoc, if_pos h]
  by_cases d : j ∈ w
  · simp [d]
  · have : j ≠ k := by rintro rfl; exact d h
    simp [d, this]

theorem clsMap_snoc (w : List K) (k : K) (h : k ∉ w) : upd (clsMap w) k (firsts w).length = clsMap (w ++ [k]) := by
  funext j
  unfold upd clsMap
  rw [firsts_snoc, if_neg h]
  by_cases c : j = k
  · subst c
    simp [List.idxOf_append, mem_firsts, h]
  · by_cases d : j ∈ w
    · simp [c, d, List.idxOf_append, mem_firsts]
    · simp [c, d]

theorem classLoop_good {hash : K → Nat} (hh : ∀ k, hash k ≠ 0) (junk : K × Nat) : ∀ (w pre : List K) (t : Map K Nat),
    Good hash t (clsMap pre) →
      classLoop hash junk t (firsts pre).length w = some (w.map fun k => (firsts (pre ++ w)).idxOf k) := by
  intro w
  induction w with
  | nil => intro pre t g; rfl
  | cons k w ih =>
    intro pre t g
    obtain ⟨u, p, h1, h2, h3⟩ := mkSet_good junk g k (hh k)
    have e2 : pre ++ k :: w = (pre ++ [k]) ++ w := by simp
    have hpf := firsts_prefix (pre ++ [k]) w
    have hk : (firsts ((pre ++ [k]) ++ w)).idxOf k = (firsts (pre ++ [k])).idxOf k :=
      idxOf_prefix hpf ((mem_firsts _ _).2 (by simp))
    unfold classLoop
    rw [h1, Option.bind_some, List.map_cons, e2, hk]
    by_cases c : k ∈ pre
    · have hs : clsMap pre k = some ((firsts pre).idxOf k) := if_pos c
      simp only [hs, Option.isSome_some, if_true]
      have := ih (pre ++ [k]) u (by rw [clsMap_snoc_mem pre k c]; exact (h2 _ hs).2)
      rw [firsts_snoc, if_pos c] at this ⊢
      rw [this, (h2 _ hs).1, Option.map_some]
    · have hs : clsMap pre k = none := if_neg c
      simp only [hs, Option.isSome_none]
      have g' := h3 (firsts pre).length
      rw [clsMap_snoc pre k c] at g'
      have := ih (pre ++ [k]) _ g'
      have hl : (firsts (pre ++ [k])).length = (firsts pre).length + 1 := by
        rw [firsts_snoc, if_neg c]; simp
      rw [hl] at this
      simp only [Bool.false_eq_true, if_false]
      rw [this, Option.map_some, firsts_snoc, if_neg c, List.idxOf_append, if_neg (by rw [mem_firsts]; exact c)]
      simp

/-! ## progressive index -/

/-- next occurrence after each position, positions of the list starting at `i`; `n` for none -/
def nexts (n i : Nat) : List K → List Nat
  | [] => [n]
  | k :: w => (if k ∈ w then i + 1 + w.idxOf k else n) :: nexts n (i+1) w

theorem nexts_length (n : Nat) : ∀ (w : List K) (i : Nat), (nexts n i w).length = w.length + 1 := by
  intro w
  induction w with
  | nil => intro i; rfl
  | cons k w ih => intro i; unfold nexts; simp [ih]

/-- first index from `i` -/
def sufMap (i : Nat) (w : List K) : K → Option Nat := fun k => if k ∈ w then some (i + w.idxOf k) else none

theorem countFill_good {hash : K → Nat} (hh : ∀ k, hash k ≠ 0) (junk : K × Nat) (n : Nat) : ∀ (w suf : List K) (t : Map K Nat),
    w.length + suf.length = n → Good hash t (sufMap w.length suf) →
      ∃ u, countFill hash junk n t (nexts n w.length suf) w.reverse = some (u, nexts n 0 (w ++ suf)) ∧
        Good hash u (sufMap 0 (w ++ suf)) := by
  intro w
  generalize hv : w.reverse = v
  induction v generalizing w with
  | nil =>
    intro suf t hl g
    have : w = [] := by simpa using hv
    subst this
    exact ⟨t, rfl, by simpa using g⟩
  | cons k v ih =>
    intro suf t hl g
    have hw : w = v.reverse ++ [k] := by
      rw [← List.reverse_reverse w, hv, List.reverse_cons]
    subst hw
    obtain ⟨u, p, h1, h2, h3⟩ := mkSet_good junk g k (hh k)
    simp only [List.length_append, List.length_reverse, List.length_singleton] at hl g h1 h2 h3 ⊢
    have hi : n - (nexts n (v.length + 1) suf).length = v.length := by
      rw [nexts_length]; omega
    have hn : (if (sufMap (v.length+1) suf k).isSome = true then (u.a p).val else n) :: nexts n (v.length + 1) suf
        = nexts n v.length (k :: suf) := by
      rw [nexts]
      congr 1
      by_cases c : k ∈ suf
      · have hs : sufMap (v.length+1) suf k = some (v.length + 1 + suf.idxOf k) := if_pos c
        rw [hs, if_pos (by rfl), if_pos c, (h2 _ hs).1]
      · have hs : sufMap (v.length+1) suf k = none := if_neg c
        rw [hs, if_neg (by simp), if_neg c]
    have hm : upd (sufMap (v.length+1) suf) k v.length = sufMap v.length (k :: suf) := by
      funext j
      unfold upd sufMap
      by_cases c : j = k
      · subst c; simp
      · have c' : ¬ k = j := fun e => c e.symm
        by_cases d : j ∈ suf
        · have c2 : (k == j) = false := by simpa using c'
          simp only [c, if_false, d, if_true, List.mem_cons, or_true, List.idxOf_cons, c2, cond_false]
          congr 1; omega
        · simp [c, d]
    have g' := h3 v.length
    rw [hm] at g'
    have := ih v.reverse (by simp) (k :: suf) (u.setVal p v.length) (by simp; omega) (by simpa using g')
    simp only [List.length_reverse] at this
    unfold countFill
    simp only
    rw [hi, h1, Option.bind_some]
    simp only
    rw [hn]
    simpa using this

theorem nthIdx_of_le (k : K) : ∀ (w : List K) (c : Nat), w.count k ≤ c → nthIdx k c w = w.length := by
  intro w
  induction w with
  | nil => intro c _; rfl
  | cons a w ih =>
    intro c hc
    unfold nthIdx
    rw [List.count_cons] at hc
    by_cases e : a = k
    · subst e
      simp only [beq_self_eq_true, if_true] at hc
      rw [if_pos rfl, if_neg (by omega), ih (c-1) (by omega)]; rfl
    · have : (a == k) = false := by simpa using e
      rw [this] at hc
      rw [if_neg e, ih c (by simpa using hc)]; rfl

theorem nthIdx_zero (k : K) (w : List K) : nthIdx k 0 w = w.idxOf k := by
  induction w with
  | nil => rfl
  | cons a w ih =>
    unfold nthIdx
    rw [List.idxOf_cons]
    by_cases e : a = k
    · simp [e]
    · have c2 : (a == k) = false := by simpa using e
      rw [if_neg e, ih, c2]; rfl

/-- following the chain -/
theorem nexts_nth (k : K) (n : Nat) : ∀ (w : List K) (i c : Nat), i + w.length = n → k ∈ w →
    (nexts n i w)[nthIdx k c w]? = some (i + nthIdx k (c+1) w) := by
  intro w
  induction w with
  | nil => intro i c _ h; simp at h
  | cons a w ih =>
    intro i c hl hk
    unfold nexts nthIdx
    simp only [List.length_cons] at hl
    have hend : k ∉ w → ∀ d j, nthIdx k d w = w.length ∧ (nexts n j w)[w.length]? = some n := by
      intro hkw d j
      refine ⟨nthIdx_of_le k w d (by rw [List.count_eq_zero.2 hkw]; omega), ?_⟩
      clear hl hk ih hkw
      induction w generalizing j with
      | nil => rfl
      | cons b w ihw => unfold nexts; simpa using ihw (j+1)
    by_cases e : a = k
    · subst e
      simp only [if_true]
      by_cases c0 : c = 0
      · subst c0
        simp only [if_true, Nat.zero_add, Nat.one_ne_zero, if_false, Nat.sub_self, List.getElem?_cons_zero]
        rw [nthIdx_zero]
        by_cases hm : a ∈ w
        · rw [if_pos hm]; congr 1; omega
        · rw [if_neg hm, List.idxOf_eq_length hm]; congr 1; omega
      · rw [if_neg c0, if_neg (Nat.succ_ne_zero c), List.getElem?_cons_succ]
        by_cases hm : a ∈ w
        · have := ih (i+1) (c-1) (by omega) hm
          rw [this, show c - 1 + 1 = c + 1 - 1 by omega]
          congr 1; omega
        · rw [(hend hm (c-1) (i+1)).1, (hend hm (c-1) (i+1)).2, (hend hm (c+1-1) 0).1]
          congr 1; omega
    · have hm : k ∈ w := by
        rcases List.mem_cons.1 hk with h | h
        · exact absurd h.symm e
        · exact h
      rw [if_neg e, if_neg e, List.getElem?_cons_succ, ih (i+1) c (by omega) hm]
      congr 1; omega

def progMap (w pre : List K) : K → Option Nat := fun k => if k ∈ w then some (nthIdx k (pre.count k) w) else none

theorem countGet_good {hash : K → Nat} (hh : ∀ k, hash k ≠ 0) (w : List K) : ∀ (x pre : List K) (t : Map K Nat),
    Good hash t (progMap w pre) →
      countGet hash w.length (nexts w.length 0 w) t x = some (along (fun pre k => nthIdx k (pre.count k) w) pre x) := by
  intro x
  induction x with
  | nil => intro pre t g; rfl
  | cons k x ih =>
    intro pre t g
    obtain ⟨p, hp, h⟩ := find_good g k (hh k)
    unfold countGet along
    rcases h with ⟨h1, h2, h3, h4⟩ | ⟨h1, h2, _⟩
    · have hk : k ∈ w := by
        unfold progMap at h4
        split at h4
        · assumption
        · cases h4
      have hv : (t.a p).val = nthIdx k (pre.count k) w := by
        unfold progMap at h4
        rw [if_pos hk] at h4
        injection h4 with h4
        exact h4.symm
      rw [h1, Option.bind_some]
      simp only [if_true]
      rw [hv, nexts_nth k w.length w 0 _ (by omega) hk, Option.bind_some, Nat.zero_add]
      have g' := setVal_good g hp h2 (nthIdx k (pre.count k + 1) w)
      rw [h3] at g'
      have hm : upd (progMap w pre) k (nthIdx k (pre.count k + 1) w) = progMap w (pre ++ [k]) := by
        funext j
        unfold upd progMap
        by_cases c : j = k
        · subst c; simp [hk]
        · have c' : ¬ k = j := fun e => c e.symm
          simp [c, List.count_append, c']
      rw [hm] at g'
      rw [ih _ _ g', Option.map_some]
    · have hk : k ∉ w := by
        intro hk
        unfold progMap at h2
        rw [if_pos hk] at h2
        cases h2
      rw [h1, Option.bind_some]
      simp only [Bool.false_eq_true, if_false]
      have hm : progMap w (pre ++ [k]) = progMap w pre := by
        funext j
        unfold progMap
        by_cases d : j ∈ w
        · have c' : ¬ k = j := by rintro rfl; exact hk d
          simp [d, List.count_append, c']
        · simp [d]
      rw [ih (pre ++ [k]) t (by rw [hm]; exact g), Option.map_some,
        nthIdx_of_le k w _ (by rw [List.count_eq_zero.2 hk]; omega)]

theorem step_good {hash : K → Nat} (hh : ∀ k, hash k ≠ 0) (junk : K × V) {t : Map K V} {h : List (Op K V)}
    (g : Good hash t (fun k => lastIns k h)) (o : Op K V) :
    ∃ u, step hash junk t o = some (u, answer h o) ∧ Good hash u (fun k => lastIns k (o :: h)) := by
  cases o with
  | ins k v =>
    obtain ⟨u, h1, h2⟩ := ins_good junk g k (hh k) v
    refine ⟨u, by unfold step; simp only [h1]; rfl, ?_⟩
    have e : upd (fun k => lastIns k h) k v = fun k' => lastIns k' (Op.ins k v :: h) := by
      funext j
      unfold upd
      simp only [lastIns, eq_comm]
    rw [← e]; exact h2
  | swap k v d =>
    obtain ⟨u, h1, h2⟩ := swap_good junk g k (hh k) v d
    refine ⟨u, by unfold step; simp only [h1]; rfl, ?_⟩
    have e : upd (fun k => lastIns k h) k v = fun k' => lastIns k' (Op.swap k v d :: h) := by
      funext j
      unfold upd
      simp only [lastIns, eq_comm]
    rw [← e]; exact h2
  | has k =>
    refine ⟨t, by unfold step; simp only [has_good g k (hh k)]; rfl, ?_⟩
    simpa only [lastIns] using g
  | get k d =>
    refine ⟨t, by unfold step; simp only [getD_good g k (hh k)]; rfl, ?_⟩
    simpa only [lastIns] using g

theorem serve_good {hash : K → Nat} (hh : ∀ k, hash k ≠ 0) (junk : K × V) : ∀ (os h : List (Op K V)) (t : Map K V),
    Good hash t (fun k => lastIns k h) → serve hash junk t os = some (answers h os) := by
  intro os
  induction os with
  | nil => intro h t _; rfl
  | cons o os ih =>
    intro h t g
    obtain ⟨u, h1, h2⟩ := step_good hh junk g o
    unfold serve
    rw [h1, Option.bind_some, ih _ _ h2]
    rfl

theorem idxMap_firsts_snoc (w : List K) (k : K) : firsts (firsts w ++ [k]) = firsts (w ++ [k]) := by
  have hid : ∀ x : List K, x.Nodup → firsts x = x := by
    intro x hx
    induction x with
    | nil => rfl
    | cons a x ih =>
      rw [List.nodup_cons] at hx
      unfold firsts
      rw [ih hx.2, List.filter_eq_self.2]
      intro b hb
      have : b ≠ a := by rintro rfl; exact hx.1 hb
      simpa using this
  rw [firsts_snoc, firsts_snoc, hid _ (firsts_nodup w)]
  by_cases c : k ∈ w
  · simp [c, mem_firsts]
  · simp [c, mem_firsts]

theorem internAll_good {hash : K → Nat} (hh : ∀ k, hash k ≠ 0) (junk : K × Nat) : ∀ (ss pre : List K) (t : Map K Nat),
    Good hash t (clsMap pre) →
      internAll hash junk t (firsts pre) ss = some (ss.map fun s => (firsts (pre ++ ss)).idxOf s, firsts (pre ++ ss)) := by
  intro ss
  induction ss with
  | nil => intro pre t _; simp [internAll]
  | cons k w ih =>
    intro pre t g
    obtain ⟨u, p, h1, h2, h3⟩ := mkSet_good junk g k (hh k)
    have e2 : pre ++ k :: w = (pre ++ [k]) ++ w := by simp
    have hk : (firsts ((pre ++ [k]) ++ w)).idxOf k = (firsts (pre ++ [k])).idxOf k :=
      idxOf_prefix (firsts_prefix (pre ++ [k]) w) ((mem_firsts _ _).2 (by simp))
    unfold internAll str2gid
    rw [h1, Option.map_some, Option.bind_some, List.map_cons, e2, hk]
    by_cases c : k ∈ pre
    · have hs : clsMap pre k = some ((firsts pre).idxOf k) := if_pos c
      simp only [hs, Option.isSome_some, if_true]
      have := ih (pre ++ [k]) u (by rw [clsMap_snoc_mem pre k c]; exact (h2 _ hs).2)
      have hf : firsts (pre ++ [k]) = firsts pre := by rw [firsts_snoc, if_pos c]
      rw [hf] at this ⊢
      rw [this, (h2 _ hs).1, Option.map_some]
    · have hs : clsMap pre k = none := if_neg c
      simp only [hs, Option.isSome_none, Bool.false_eq_true, if_false]
      have g' := h3 (firsts pre).length
      rw [clsMap_snoc pre k c] at g'
      have hf : firsts (pre ++ [k]) = firsts pre ++ [k] := by rw [firsts_snoc, if_neg c]
      have := ih (pre ++ [k]) _ g'
      rw [hf] at this ⊢
      rw [this, Option.map_some, List.idxOf_append, if_neg (by rw [mem_firsts]; exact c)]
      simp

theorem markFirsts_good {hash : K → Nat} (hh : ∀ k, hash k ≠ 0) (junk : K × Unit) (x : List K) :
    markFirsts hash junk x = some (marks x) := by
  have hm : marks x = along (fun pre k => decide (k ∉ pre)) [] x := by
    rw [← along_mapIdx]; simp [marks]
  rw [hm]
  unfold markFirsts
  cases x with
  | nil => rfl
  | cons x0 xs =>
    simp only
    have htd : (x0 :: xs).takeWhile (fun y => decide (y = x0)) ++ (x0 :: xs).dropWhile (fun y => decide (y = x0)) = x0 :: xs :=
      List.takeWhile_append_dropWhile
    have hrun := takeWhile_run x0 (x0 :: xs)
    have hdrop : (x0 :: xs).drop ((x0 :: xs).takeWhile (fun y => decide (y = x0))).length =
        (x0 :: xs).dropWhile (fun y => decide (y = x0)) := by
      have : (x0 :: xs).drop ((x0 :: xs).takeWhile (fun y => decide (y = x0))).length =
        ((x0 :: xs).takeWhile (fun y => decide (y = x0)) ++ (x0 :: xs).dropWhile (fun y => decide (y = x0))).drop
          ((x0 :: xs).takeWhile (fun y => decide (y = x0))).length := by rw [htd]
      rw [this, List.drop_left]
    have hpos : 0 < ((x0 :: xs).takeWhile (fun y => decide (y = x0))).length := by simp
    rw [hdrop]
    have hlen := congrArg List.length htd
    rw [List.length_append] at hlen
    generalize hrl : ((x0 :: xs).takeWhile (fun y => decide (y = x0))).length = run at *
    obtain ⟨n, rfl⟩ : ∃ n, run = n + 1 := ⟨run - 1, by omega⟩
    rw [hrun] at htd
    generalize (x0 :: xs).dropWhile (fun y => decide (y = x0)) = tl at *
    have hx : x0 :: xs = x0 :: (List.replicate n x0 ++ tl) := by
      rw [← htd, List.replicate_succ, List.cons_append]
    rw [hx, along]
    have ha := along_run x0 n 0 tl
    simp only [Nat.zero_add, List.replicate_one] at ha
    have e0 : ([] : List K) ++ [x0] = [x0] := rfl
    rw [e0, ha]
    have hd : (decide (x0 ∉ ([] : List K))) = true := by simp
    rw [hd, Nat.add_sub_cancel]
    rw [hx] at hlen
    by_cases c : n + 1 = (x0 :: (List.replicate n x0 ++ tl)).length
    · rw [if_pos c]
      have : tl = [] := by
        apply List.eq_nil_of_length_eq_zero
        simp only [List.length_cons, List.length_append, List.length_replicate] at c
        omega
      subst this
      rfl
    · rw [if_neg c]
      have g0 := m_good hash junk 6 (by omega)
      have g0' : Good hash (m junk (2^6)) (memMap []) := by
        have : memMap ([] : List K) = fun _ => none := by funext k; simp [memMap]
        rw [this]; exact g0
      obtain ⟨u, h1, h2⟩ := ins_good junk g0' x0 (hh x0) ()
      rw [memMap_snoc] at h2
      have h1' : ins hash junk (m junk 64) x0 () = some (u, (memMap [] x0).isSome) := h1
      rw [h1', Option.bind_some]
      have h3 : Good hash u (memMap (List.replicate (1 + n) x0)) := by
        rw [show 1 + n = n + 1 by omega, memMap_run]; exact h2
      rw [markLoop_good hh junk tl _ u h3]
      rfl

end Verif.HTab
