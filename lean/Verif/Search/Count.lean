import Verif.Search.Block
/-! # Lemmas: the table path of `⊒` -/
namespace Verif.Search
open Verif HTab
attribute [local irreducible] st

/-- next occurrence after each position; what the table held initially if there is none -/
def nx (n : Int) (T : Int → Option Int) (i : Nat) : List Int → List (Option Int)
  | [] => [some n]
  | k :: w => (if k ∈ w then some ((i + 1 + w.idxOf k : Nat) : Int) else T k) :: nx n T (i+1) w

theorem nx_length (n : Int) (T : Int → Option Int) : ∀ (w : List Int) (i : Nat), (nx n T i w).length = w.length + 1 := by
  intro w
  induction w with
  | nil => intro i; rfl
  | cons k w ih => intro i; unfold nx; simp [ih]

theorem countSet_eq (n : Int) (T : Int → Option Int) : ∀ (l : List Int) (t : Tab) (suf : List Int),
    l.length + suf.length < 2147483648 → (∀ j ∈ l, inTab t j) →
    (∀ k, t.f k = if k ∈ suf then some ((l.length + suf.idxOf k : Nat) : Int) else T k) →
    ∃ t', countSet t (nx n T l.length suf) l = some (t', nx n T 0 (l.reverse ++ suf)) ∧ t'.lo = t.lo ∧ t'.hi = t.hi ∧
      ∀ k, t'.f k = if k ∈ l.reverse ++ suf then some (((l.reverse ++ suf).idxOf k : Nat) : Int) else T k := by
  intro l
  induction l with
  | nil =>
    intro t suf hb hin hf
    refine ⟨t, rfl, rfl, rfl, ?_⟩
    intro k
    show t.f k = if k ∈ suf then some ((suf.idxOf k : Nat) : Int) else T k
    rw [hf]
    simp only [List.length_nil, Nat.zero_add]
  | cons j rest ih =>
    intro t suf hb hin hf
    simp only [List.length_cons] at hb hf ⊢
    have hj := hin j (by simp)
    unfold countSet
    have hraw : t.raw j = some (t.f j) := if_pos hj
    rw [hraw, Option.bind_some, set_some hj, Option.bind_some, st32 (by omega) (by omega)]
    have hw : t.f j :: nx n T (rest.length + 1) suf = nx n T rest.length (j :: suf) := by
      rw [nx, hf]
    rw [hw]
    obtain ⟨t', h1, h2, h3, h4⟩ := ih ⟨t.lo, t.hi, fun k => if k = j then some ((rest.length : Nat) : Int) else t.f k⟩ (j :: suf)
      (by simp; omega) (fun k hk => (hin k (by simp [hk]) : inTab t k)) (by
        intro k
        simp only [List.mem_cons]
        by_cases c : k = j
        · subst c; simp
        · have c' : (j == k) = false := by simpa using fun e : j = k => c e.symm
          rw [if_neg c, hf]
          by_cases d : k ∈ suf
          · rw [if_pos d, if_pos (Or.inr d), List.idxOf_cons, c', cond_false]
            congr 2; omega
          · rw [if_neg d, if_neg (by simp [c, d])])
    refine ⟨t', ?_, h2, h3, ?_⟩
    · rw [h1]; simp
    · intro k; rw [h4]; simp

theorem nx_nth (k : Int) (n : Nat) (T : Int → Option Int) (hT : T k = some (n : Int)) : ∀ (w : List Int) (i c : Nat), i + w.length = n →
    (nx n T i w)[nthIdx k c w]? = some (some ((i + nthIdx k (c+1) w : Nat) : Int)) := by
  intro w
  induction w with
  | nil => intro i c h; simp at h; simp [nx, nthIdx, h]
  | cons a w ih =>
    intro i c hl
    simp only [List.length_cons] at hl
    unfold nx nthIdx
    by_cases e : a = k
    · subst e
      simp only [if_true]
      by_cases c0 : c = 0
      · subst c0
        simp only [if_true, Nat.zero_add, Nat.one_ne_zero, if_false, Nat.sub_self, List.getElem?_cons_zero]
        rw [nthIdx_zero]
        by_cases hm : a ∈ w
        · rw [if_pos hm]; congr 3; omega
        · rw [if_neg hm, List.idxOf_eq_length hm, hT]; congr 3; omega
      · rw [if_neg c0, if_neg (Nat.succ_ne_zero c), List.getElem?_cons_succ, ih (i+1) (c-1) (by omega),
          show c - 1 + 1 = c + 1 - 1 by omega]
        congr 3; omega
    · rw [if_neg e, if_neg e, List.getElem?_cons_succ, ih (i+1) c (by omega)]
      congr 3; omega

theorem nthIdx_le (k : Int) : ∀ (w : List Int) (c : Nat), nthIdx k c w ≤ w.length := by
  intro w
  induction w with
  | nil => intro c; exact Nat.le_refl 0
  | cons a w ih =>
    intro c
    unfold nthIdx
    have h1 := ih c
    have h2 := ih (c-1)
    simp only [List.length_cons]
    split
    · split <;> omega
    · omega

theorem nthIdx_le' (k : El) : ∀ (w : List El) (c : Nat), nthIdx k c w ≤ w.length := by
  intro w
  induction w with
  | nil => intro c; exact Nat.le_refl 0
  | cons a w ih =>
    intro c
    unfold nthIdx
    have h1 := ih c
    have h2 := ih (c-1)
    simp only [List.length_cons]
    split
    · split <;> omega
    · omega

theorem prog_le (w x : List El) : ∀ v ∈ progressive w x, v ≤ w.length := by
  intro v hv
  unfold progressive at hv
  obtain ⟨i, hi, rfl⟩ := List.mem_mapIdx.1 hv
  exact nthIdx_le' _ _ _

theorem prog_none (w x : List El) (h : ∀ b ∈ x, b ∉ w) : progressive w x = x.map fun _ => w.length := by
  unfold progressive
  refine List.ext_getElem (by simp) fun i h1 h2 => ?_
  rw [List.getElem_mapIdx, List.getElem_map]
  rw [List.length_map] at h2
  exact nthIdx_of_le _ _ _ (by rw [List.count_eq_zero.2 (h _ (List.getElem_mem h2))]; omega)

theorem countLook_eq (w : List Int) (T : Int → Option Int) (hl : w.length < 2147483648) : ∀ (fp pre : List Int) (t : Tab),
    (∀ j ∈ fp, inTab t j) → (∀ j ∈ fp, T j = some (w.length : Int)) →
    (∀ j ∈ fp, t.f j = some ((nthIdx j (pre.count j) w : Nat) : Int)) →
    countLook (nx w.length T 0 w) t fp = some (along (fun pre k => ((nthIdx k (pre.count k) w : Nat) : Int)) pre fp) := by
  intro fp
  induction fp with
  | nil => intro pre t _ _ _; rfl
  | cons j fp ih =>
    intro pre t hin hT hf
    unfold countLook along
    have hj := hin j (by simp)
    rw [get_of hj (hf j (by simp)), Option.bind_some, if_neg (by omega), Int.toNat_natCast,
      nx_nth j w.length T (hT j (by simp)) w 0 _ (by omega), Option.bind_some,
      if_pos (show t.lo ≤ j ∧ j < t.hi from hj), Option.bind_some, Option.map_some, Nat.zero_add]
    have hle := nthIdx_le j w (pre.count j + 1)
    rw [st32 (by omega) (by omega)]
    rw [ih (pre ++ [j]) ⟨t.lo, t.hi, fun k => if k = j then some ((nthIdx j (pre.count j + 1) w : Nat) : Int) else t.f k⟩ (fun k hk => (hin k (by simp [hk]) : inTab t k)) (fun k hk => hT k (by simp [hk])) ?_,
      Option.map_some]
    intro k hk
    simp only
    by_cases c : k = j
    · subst c; simp
    · have c' : ¬ j = k := fun e => c e.symm
      rw [if_neg c, hf k (by simp [hk])]
      simp [List.count_append, c']

theorem nthIdx_map {f : El → Int} {b : El} : ∀ (l : List El) (c : Nat), (∀ a ∈ l, (f a = f b ↔ a = b)) →
    nthIdx (f b) c (l.map f) = nthIdx b c l := by
  intro l
  induction l with
  | nil => intro c _; rfl
  | cons a l ih =>
    intro c h
    rw [List.map_cons, nthIdx, nthIdx, ih _ (fun x hx => h x (by simp [hx])), ih _ (fun x hx => h x (by simp [hx]))]
    have := h a (by simp)
    by_cases e : a = b
    · rw [if_pos e, if_pos (this.2 e)]
    · rw [if_neg e, if_neg fun x => e (this.1 x)]

theorem nthIdx_map2 {f g : El → Int} {b : El} : ∀ (l : List El) (c : Nat), (∀ a ∈ l, (f a = g b ↔ a = b)) →
    nthIdx (g b) c (l.map f) = nthIdx b c l := by
  intro l
  induction l with
  | nil => intro c _; rfl
  | cons a l ih =>
    intro c h
    rw [List.map_cons, nthIdx, nthIdx, ih _ (fun x hx => h x (by simp [hx])), ih _ (fun x hx => h x (by simp [hx]))]
    have := h a (by simp)
    by_cases e : a = b
    · rw [if_pos e, if_pos (this.2 e)]
    · rw [if_neg e, if_neg fun x => e (this.1 x)]

theorem count_map {f : El → Int} {b : El} : ∀ (l : List El), (∀ a ∈ l, f a = f b → a = b) → (l.map f).count (f b) = l.count b := by
  intro l
  induction l with
  | nil => intro _; rfl
  | cons a l ih =>
    intro h
    rw [List.map_cons, List.count_cons, List.count_cons, ih (fun x hx => h x (by simp [hx]))]
    have := h a (by simp)
    by_cases e : a = b
    · simp [e]
    · have : ¬ f a = f b := fun x => e (this x)
      simp [e, this]

theorem along_map {f g : El → Int} (w : List El) : ∀ (x pre : List El), (∀ b ∈ x, ∀ a ∈ w, (f a = g b ↔ a = b)) →
    (∀ b ∈ x, ∀ a, a ∈ pre ∨ a ∈ x → g a = g b → a = b) →
    along (fun pre k => ((nthIdx k (pre.count k) (w.map f) : Nat) : Int)) (pre.map g) (x.map g) =
      along (fun pre k => ((nthIdx k (pre.count k) w : Nat) : Int)) pre x := by
  intro x
  induction x with
  | nil => intro pre _ _; rfl
  | cons b x ih =>
    intro pre hm hi
    rw [List.map_cons, along, along]
    have e : pre.map g ++ [g b] = (pre ++ [b]).map g := by simp
    rw [e, ih (pre ++ [b]) (fun c hc => hm c (by simp [hc])) (by
      intro c hc a ha
      refine hi c (by simp [hc]) a ?_
      rcases ha with h | h
      · rcases List.mem_append.1 h with h | h
        · exact Or.inl h
        · simp at h; right; simp [h]
      · right; simp [h])]
    rw [count_map pre (fun a ha h => hi b (by simp) a (Or.inl ha) h), nthIdx_map2 w _ (hm b (by simp))]

theorem countTab_eq (junk : Int → Option Int) {we xe : Nat} {w x : Arr} (ok : BlockOK we xe w x) (h1 : we ≤ 2) (h2 : xe ≤ 2)
    (hl : w.els.length < 2147483648) :
    countTab junk we xe w.els x.els = some ((progressive w.els x.els).map fun n : Nat => (n : Int)) := by
  unfold countTab
  simp only
  generalize hwe : (if we = 0 then 1 else we) = we'
  generalize hxe : (if xe = 0 then 1 else xe) = xe'
  have c1 : we' = 1 ∨ we' = 2 := by rw [← hwe]; split <;> omega
  have c2 : xe' = 1 ∨ xe' = 2 := by rw [← hxe]; split <;> omega
  have hrw : ∀ a ∈ w.els, rng we' (rd (width we') a) := by
    intro a ha
    rw [← hwe]
    split
    · rename_i c
      rcases ok.bitw c a ha with h | h <;> subst h <;> simp [rng, rd]
    · exact ok.rngw h1 a ha
  have hrx : ∀ a ∈ x.els, rng xe' (rd (width xe') a) := by
    intro a ha
    rw [← hxe]
    split
    · rename_i c
      rcases ok.bitx c a ha with h | h <;> subst h <;> simp [rng, rd]
    · exact ok.rngx h2 a ha
  have hrdw : ∀ a ∈ w.els, rd (width we') a = rd (width we) a := by
    intro a ha
    rw [← hwe]
    split
    · rename_i c
      rcases ok.bitw c a ha with h | h <;> subst h <;> rfl
    · rfl
  have hrdx : ∀ a ∈ x.els, rd (width xe') a = rd (width xe) a := by
    intro a ha
    rw [← hxe]
    split
    · rename_i c
      rcases ok.bitx c a ha with h | h <;> subst h <;> rfl
    · rfl
  generalize hT : (Tab.mk (-(((if elRange we' > elRange xe' then elRange we' else elRange xe') / 2 : Nat) : Int))
    (((if elRange we' > elRange xe' then elRange we' else elRange xe') -
      (if elRange we' > elRange xe' then elRange we' else elRange xe') / 2 : Nat) : Int) junk) = T
  have hlo : ∀ (e : Nat) (v : Int), (e = we' ∨ e = xe') → rng e v → inTab T v := by
    intro e v he hv
    rw [← hT]
    rcases c1 with h1 | h1 <;> rcases c2 with h2 | h2 <;> subst h1 <;> subst h2 <;> rcases he with he | he <;> subst he <;>
      simp only [rng, inTab, elRange] at hv ⊢ <;> simp <;> omega
  have hfin : ∀ j ∈ x.els.map (rd (width xe')), inTab T j := by
    intro j hj
    obtain ⟨b, hb, rfl⟩ := List.mem_map.1 hj
    exact hlo xe' _ (Or.inr rfl) (hrx b hb)
  have hiin : ∀ j ∈ w.els.map (rd (width we')), inTab T j := by
    intro j hj
    obtain ⟨b, hb, rfl⟩ := List.mem_map.1 hj
    exact hlo we' _ (Or.inl rfl) (hrw b hb)
  obtain ⟨T1, hT1, hl1, hh1, hinit⟩ : ∃ T1, (if xe' = 2 ∧ x.els.length < elRange xe' / 16 then
        sparse (st 32 w.els.length) T (x.els.map (rd (width xe')))
      else T.fill (-((elRange xe'/2 : Nat) : Int)) (elRange xe') (st 32 w.els.length)) = some T1 ∧
      T1.lo = T.lo ∧ T1.hi = T.hi ∧
      (∀ j ∈ x.els.map (rd (width xe')), T1.f j = some (w.els.length : Int)) := by
    rw [st32 (by omega) (by omega)]
    by_cases c : xe' = 2 ∧ x.els.length < elRange xe' / 16
    · rw [if_pos c, sparse_eq _ _ _ hfin]
      refine ⟨_, rfl, rfl, rfl, ?_⟩
      intro j hj
      simp only
      rw [if_pos hj]
    · rw [if_neg c]
      have hb : T.lo ≤ -((elRange xe'/2 : Nat) : Int) ∧ -((elRange xe'/2 : Nat) : Int) + (elRange xe' : Nat) ≤ T.hi := by
        rw [← hT]
        rcases c1 with h1 | h1 <;> rcases c2 with h2 | h2 <;> subst h1 <;> subst h2 <;> simp [elRange]
      refine ⟨_, if_pos hb, rfl, rfl, ?_⟩
      intro j hj
      obtain ⟨b, hb, rfl⟩ := List.mem_map.1 hj
      simp only
      rw [if_pos]
      have := hrx b hb
      rcases c2 with h2 | h2 <;> subst h2 <;> simp only [rng, elRange] at this ⊢ <;> simp <;> omega
  rw [hT1, Option.bind_some]
  have hin1 : ∀ k, inTab T k → inTab T1 k := by
    intro k hk; unfold inTab at hk ⊢; rw [hl1, hh1]; exact hk
  obtain ⟨t', g1, g2, g3, g4⟩ := countSet_eq (w.els.length : Int) T1.f (w.els.map (rd (width we'))).reverse T1 []
    (by simpa using hl) (fun j hj => hin1 j (hiin j (List.mem_reverse.1 hj))) (by intro k; simp)
  simp only [List.reverse_reverse, List.append_nil] at g1 g4
  rw [nx] at g1
  rw [g1, Option.bind_some]
  have hlen : (w.els.map (rd (width we'))).length = w.els.length := by simp
  have := countLook_eq (w.els.map (rd (width we'))) T1.f (by simpa using hl) (x.els.map (rd (width xe'))) [] t'
    (fun j hj => by
      have := hin1 j (hfin j hj)
      unfold inTab at this ⊢
      rw [g2, g3]; exact this)
    (fun j hj => by rw [hlen]; exact hinit j hj)
    (fun j hj => by
      rw [g4, List.count_nil, nthIdx_zero]
      split
      · rfl
      · rename_i c
        rw [hinit j hj, List.idxOf_eq_length c, hlen])
  rw [hlen] at this
  simp only
  rw [this]
  congr 1
  have hal := along_map (f := rd (width we')) (g := rd (width xe')) w.els x.els []
    (fun b hb a ha => by rw [hrdw a ha, hrdx b hb]; exact ok.mtch h1 h2 a ha b hb)
    (fun b hb a ha he => by
      have ha : a ∈ x.els := by simpa using ha
      rw [hrdx a ha, hrdx b hb] at he
      exact ok.injx h2 a ha b hb he)
  rw [List.map_nil] at hal
  rw [hal]
  have hp : progressive w.els x.els = along (fun pre k => nthIdx k (pre.count k) w.els) [] x.els := by
    rw [← along_mapIdx]; simp [progressive]
  rw [hp]
  generalize ([] : List El) = pre
  have hgen : ∀ (l pre : List El), along (fun pre k => ((nthIdx k (pre.count k) w.els : Nat) : Int)) pre l =
      (along (fun pre k => nthIdx k (pre.count k) w.els) pre l).map fun n : Nat => (n : Int) := by
    intro l
    induction l with
    | nil => intro pre; rfl
    | cons a l ih => intro pre; rw [along, along, List.map_cons, ih]
  exact hgen x.els pre

end Verif.Search
