import Verif.Bodies.One
/-!
# Blocks with several bodies: which one is next
-/
namespace Verif.Bodies
variable {V S R : Type} {m : Type → Type}

theorem merge_step (n : Nat) (ms ds : List Nat) (p1 p2 : Nat) (h1 : ∀ x ∈ ms, x < lim) (h2 : ∀ x ∈ ds, x < lim) (hne : ¬(ms = [] ∧ ds = [])) :
    (∃ s ms', ms = s :: ms' ∧ merge (n + 1) ms ds p1 p2 = ⟨s, true, false, p1 + 1, p2⟩ :: merge n ms' ds (p1 + 1) p2) ∨
    (∃ s ds', ds = s :: ds' ∧ merge (n + 1) ms ds p1 p2 = ⟨s, false, true, p1, p2 + 1⟩ :: merge n ms ds' p1 (p2 + 1)) ∨
    (∃ s ms' ds', ms = s :: ms' ∧ ds = s :: ds' ∧ merge (n + 1) ms ds p1 p2 = ⟨s, true, true, p1 + 1, p2 + 1⟩ :: merge n ms' ds' (p1 + 1) (p2 + 1)) := by
  match ms, ds with
  | [], [] => exact absurd ⟨rfl, rfl⟩ hne
  | s :: ms, [] =>
    have := h1 s (by simp)
    refine .inl ⟨s, ms, rfl, ?_⟩
    rw [merge]
    simp [this, Nat.ne_of_lt this, Nat.ne_of_gt this]
  | [], s :: ds =>
    have := h2 s (by simp)
    refine .inr (.inl ⟨s, ds, rfl, ?_⟩)
    rw [merge]
    simp [Nat.not_lt_of_gt this, Nat.ne_of_lt this, Nat.ne_of_gt this]
  | s :: ms, t :: ds =>
    have hs := h1 s (by simp)
    have ht := h2 t (by simp)
    rcases Nat.lt_trichotomy s t with h | h | h
    · refine .inl ⟨s, ms, rfl, ?_⟩
      rw [merge]
      simp [h, Nat.ne_of_lt hs, Nat.ne_of_gt h]
    · subst h
      refine .inr (.inr ⟨s, ms, ds, rfl, rfl, ?_⟩)
      rw [merge]
      simp [Nat.ne_of_lt hs]
    · refine .inr (.inl ⟨t, ds, rfl, ?_⟩)
      rw [merge]
      simp [Nat.not_lt_of_gt h, Nat.ne_of_lt ht, Nat.ne_of_gt h]

theorem findIdx?_step {p : Entry → Bool} {e : Entry} {es : List Entry} :
    (e :: es).findIdx? p = if p e then some 0 else (es.findIdx? p).map (· + 1) := by
  rw [List.findIdx?_cons]

/-- `writes` puts the bodies of the first list at `p1` and after, and those of the second at `p2` and after. -/
theorem merge_writes : ∀ (n : Nat) (ms ds : List Nat) (p1 p2 a : Nat) (M : List (Option Nat)),
    (∀ x ∈ ms, x < lim) → (∀ x ∈ ds, x < lim) → ms.length + ds.length ≤ n → p1 + ms.length < p2 → p2 + ds.length ≤ M.length →
    let es := merge n ms ds p1 p2
    let M' := writes a es M
    M'.length = M.length ∧
    (∀ q, ¬(p1 ≤ q ∧ q < p1 + ms.length) → ¬(p2 ≤ q ∧ q < p2 + ds.length) → M'[q]? = M[q]?) ∧
    (∀ k s, ms[k]? = some s → ∃ j e, es[j]? = some e ∧ e.src = s ∧ e.pos1 = p1 + k + 1 ∧ M'[p1+k]? = some (some (a + j))) ∧
    (∀ k s, ds[k]? = some s → ∃ j e, es[j]? = some e ∧ e.src = s ∧ e.pos2 = p2 + k + 1 ∧ M'[p2+k]? = some (some (a + j))) ∧
    (∀ e ∈ es, e.pos1 ≤ p1 + ms.length ∧ e.pos2 ≤ p2 + ds.length ∧ (e.src ∈ ms ∨ e.src ∈ ds)) ∧
    ((es.findIdx? fun e => e.is1) = none ∧ ms = [] ∨ ∃ j, (es.findIdx? fun e => e.is1) = some j ∧ ms ≠ [] ∧ M'[p1]? = some (some (a + j))) ∧
    ((es.findIdx? fun e => e.is2) = none ∧ ds = [] ∨ ∃ j, (es.findIdx? fun e => e.is2) = some j ∧ ds ≠ [] ∧ M'[p2]? = some (some (a + j))) ∧
    ms.length ≤ es.length ∧ ds.length ≤ es.length := by
  intro n
  induction n with
  | zero =>
    intro ms ds p1 p2 a M h1 h2 hn hp hM
    have e1 : ms = [] := List.length_eq_zero_iff.1 (by omega)
    have e2 : ds = [] := List.length_eq_zero_iff.1 (by omega)
    subst e1 e2
    exact ⟨rfl, fun _ _ _ => rfl, nofun, nofun, nofun, .inl ⟨rfl, rfl⟩, .inl ⟨rfl, rfl⟩, Nat.le_refl _, Nat.le_refl _⟩
  | succ n ih =>
    intro ms ds p1 p2 a M h1 h2 hn hp hM
    by_cases hne : ms = [] ∧ ds = []
    · obtain ⟨e1, e2⟩ := hne
      subst e1 e2
      have : merge (n + 1) [] [] p1 p2 = [] := by
        unfold merge
        simp [lim]
      rw [this]
      exact ⟨rfl, fun _ _ _ => rfl, nofun, nofun, nofun, .inl ⟨rfl, rfl⟩, .inl ⟨rfl, rfl⟩, Nat.le_refl _, Nat.le_refl _⟩
    rcases merge_step n ms ds p1 p2 h1 h2 hne with ⟨s, ms', e, he⟩ | ⟨s, ds', e, he⟩ | ⟨s, ms', ds', e, e', he⟩
    · subst e
      rw [List.length_cons] at hn hp
      rw [he]
      have hw : writes a (⟨s, true, false, p1 + 1, p2⟩ :: merge n ms' ds (p1 + 1) p2) M = writes (a + 1) (merge n ms' ds (p1 + 1) p2) (M.set p1 (some a)) := rfl
      have hl : (M.set p1 (some a)).length = M.length := List.length_set ..
      obtain ⟨i1, i2, i3, i4, i5, i6, i7, i8, i9⟩ := ih ms' ds (p1 + 1) p2 (a + 1) (M.set p1 (some a)) (fun x hx => h1 x (List.mem_cons_of_mem _ hx)) h2
        (by omega) (by omega) (by omega)
      have slot : (writes (a + 1) (merge n ms' ds (p1 + 1) p2) (M.set p1 (some a)))[p1]? = some (some a) := by
        rw [i2 p1 (by omega) (by omega), List.getElem?_set, if_pos rfl, if_pos (by omega)]
      intro es M'
      refine ⟨i1.trans hl, ?_, ?_, ?_, ?_, ?_, ?_, ?_, ?_⟩
      · intro q hq hq'
        rw [List.length_cons] at hq
        exact (i2 q (by omega) hq').trans (List.getElem?_set_ne (by omega))
      · intro k t ht
        cases k with
        | zero => cases ht; exact ⟨0, _, rfl, rfl, rfl, slot⟩
        | succ k =>
          obtain ⟨j, e, ej, e1, e2, e3⟩ := i3 k t ht
          exact ⟨j + 1, e, ej, e1, by omega, by rw [show p1 + (k + 1) = p1 + 1 + k by omega, show a + (j + 1) = a + 1 + j by omega]; exact e3⟩
      · intro k t ht
        obtain ⟨j, e, ej, e1, e2, e3⟩ := i4 k t ht
        exact ⟨j + 1, e, ej, e1, e2, by rw [show a + (j + 1) = a + 1 + j by omega]; exact e3⟩
      · intro e hm
        rcases List.mem_cons.1 hm with rfl | hm
        · exact ⟨by simp, by simp, .inl (by simp)⟩
        · obtain ⟨g1, g2, g3⟩ := i5 e hm
          exact ⟨by rw [List.length_cons]; omega, g2, g3.elim (fun h => .inl (List.mem_cons_of_mem _ h)) .inr⟩
      · exact .inr ⟨0, rfl, nofun, slot⟩
      · rw [findIdx?_step]
        rcases i7 with ⟨g1, g2⟩ | ⟨j, g1, g2, g3⟩
        · exact .inl ⟨by rw [g1]; rfl, g2⟩
        · exact .inr ⟨j + 1, by rw [g1]; rfl, g2, by rw [show a + (j + 1) = a + 1 + j by omega]; exact g3⟩
      · exact Nat.succ_le_succ i8
      · exact Nat.le_succ_of_le i9
    · subst e
      rw [List.length_cons] at hn hM
      rw [he]
      have hw : writes a (⟨s, false, true, p1, p2 + 1⟩ :: merge n ms ds' p1 (p2 + 1)) M = writes (a + 1) (merge n ms ds' p1 (p2 + 1)) (M.set p2 (some a)) := rfl
      have hl : (M.set p2 (some a)).length = M.length := List.length_set ..
      obtain ⟨i1, i2, i3, i4, i5, i6, i7, i8, i9⟩ := ih ms ds' p1 (p2 + 1) (a + 1) (M.set p2 (some a)) h1 (fun x hx => h2 x (List.mem_cons_of_mem _ hx))
        (by omega) (by omega) (by omega)
      have slot : (writes (a + 1) (merge n ms ds' p1 (p2 + 1)) (M.set p2 (some a)))[p2]? = some (some a) := by
        rw [i2 p2 (by omega) (by omega), List.getElem?_set, if_pos rfl, if_pos (by omega)]
      intro es M'
      refine ⟨i1.trans hl, ?_, ?_, ?_, ?_, ?_, ?_, ?_, ?_⟩
      · intro q hq hq'
        rw [List.length_cons] at hq'
        exact (i2 q hq (by omega)).trans (List.getElem?_set_ne (by omega))
      · intro k t ht
        obtain ⟨j, e, ej, e1, e2, e3⟩ := i3 k t ht
        exact ⟨j + 1, e, ej, e1, e2, by rw [show a + (j + 1) = a + 1 + j by omega]; exact e3⟩
      · intro k t ht
        cases k with
        | zero => cases ht; exact ⟨0, _, rfl, rfl, rfl, slot⟩
        | succ k =>
          obtain ⟨j, e, ej, e1, e2, e3⟩ := i4 k t ht
          exact ⟨j + 1, e, ej, e1, by omega, by rw [show p2 + (k + 1) = p2 + 1 + k by omega, show a + (j + 1) = a + 1 + j by omega]; exact e3⟩
      · intro e hm
        rcases List.mem_cons.1 hm with rfl | hm
        · exact ⟨by simp, by simp, .inr (by simp)⟩
        · obtain ⟨g1, g2, g3⟩ := i5 e hm
          exact ⟨g1, by rw [List.length_cons]; omega, g3.elim .inl (fun h => .inr (List.mem_cons_of_mem _ h))⟩
      · rw [findIdx?_step]
        rcases i6 with ⟨g1, g2⟩ | ⟨j, g1, g2, g3⟩
        · exact .inl ⟨by rw [g1]; rfl, g2⟩
        · exact .inr ⟨j + 1, by rw [g1]; rfl, g2, by rw [show a + (j + 1) = a + 1 + j by omega]; exact g3⟩
      · exact .inr ⟨0, rfl, nofun, slot⟩
      · exact Nat.le_succ_of_le i8
      · exact Nat.succ_le_succ i9
    · subst e e'
      rw [List.length_cons] at hn hp hM
      rw [List.length_cons] at hn
      rw [he]
      have hw : writes a (⟨s, true, true, p1 + 1, p2 + 1⟩ :: merge n ms' ds' (p1 + 1) (p2 + 1)) M =
        writes (a + 1) (merge n ms' ds' (p1 + 1) (p2 + 1)) ((M.set p1 (some a)).set p2 (some a)) := rfl
      have hl : ((M.set p1 (some a)).set p2 (some a)).length = M.length := (List.length_set ..).trans (List.length_set ..)
      obtain ⟨i1, i2, i3, i4, i5, i6, i7, i8, i9⟩ := ih ms' ds' (p1 + 1) (p2 + 1) (a + 1) ((M.set p1 (some a)).set p2 (some a))
        (fun x hx => h1 x (List.mem_cons_of_mem _ hx)) (fun x hx => h2 x (List.mem_cons_of_mem _ hx)) (by omega) (by omega) (by omega)
      have slot1 : (writes (a + 1) (merge n ms' ds' (p1 + 1) (p2 + 1)) ((M.set p1 (some a)).set p2 (some a)))[p1]? = some (some a) := by
        rw [i2 p1 (by omega) (by omega), List.getElem?_set_ne (by omega), List.getElem?_set, if_pos rfl, if_pos (by omega)]
      have slot2 : (writes (a + 1) (merge n ms' ds' (p1 + 1) (p2 + 1)) ((M.set p1 (some a)).set p2 (some a)))[p2]? = some (some a) := by
        rw [i2 p2 (by omega) (by omega), List.getElem?_set, if_pos rfl, if_pos (by rw [List.length_set]; omega)]
      intro es M'
      refine ⟨i1.trans hl, ?_, ?_, ?_, ?_, ?_, ?_, ?_, ?_⟩
      · intro q hq hq'
        rw [List.length_cons] at hq hq'
        exact (i2 q (by omega) (by omega)).trans ((List.getElem?_set_ne (by omega)).trans (List.getElem?_set_ne (by omega)))
      · intro k t ht
        cases k with
        | zero => cases ht; exact ⟨0, _, rfl, rfl, rfl, slot1⟩
        | succ k =>
          obtain ⟨j, e, ej, e1, e2, e3⟩ := i3 k t ht
          exact ⟨j + 1, e, ej, e1, by omega, by rw [show p1 + (k + 1) = p1 + 1 + k by omega, show a + (j + 1) = a + 1 + j by omega]; exact e3⟩
      · intro k t ht
        cases k with
        | zero => cases ht; exact ⟨0, _, rfl, rfl, rfl, slot2⟩
        | succ k =>
          obtain ⟨j, e, ej, e1, e2, e3⟩ := i4 k t ht
          exact ⟨j + 1, e, ej, e1, by omega, by rw [show p2 + (k + 1) = p2 + 1 + k by omega, show a + (j + 1) = a + 1 + j by omega]; exact e3⟩
      · intro e hm
        rcases List.mem_cons.1 hm with rfl | hm
        · exact ⟨by simp, by simp, .inl (by simp)⟩
        · obtain ⟨g1, g2, g3⟩ := i5 e hm
          exact ⟨by rw [List.length_cons]; omega, by rw [List.length_cons]; omega,
            g3.elim (fun h => .inl (List.mem_cons_of_mem _ h)) (fun h => .inr (List.mem_cons_of_mem _ h))⟩
      · exact .inr ⟨0, rfl, nofun, slot1⟩
      · exact .inr ⟨0, rfl, nofun, slot2⟩
      · exact Nat.succ_le_succ i8
      · exact Nat.succ_le_succ i9

theorem mapO_ok {α β : Type} (f : α → Out β) : ∀ es : List α, (∀ e ∈ es, ∃ b, f e = .ok b) →
    ∃ bs, mapO f es = .ok bs ∧ bs.length = es.length ∧ ∀ (j : Nat) (e : α), es[j]? = some e → ∃ b, bs[j]? = some b ∧ f e = .ok b
  | [], _ => ⟨[], rfl, rfl, nofun⟩
  | e :: es, h => by
    obtain ⟨b, hb⟩ := h e (by simp)
    obtain ⟨bs, h1, h2, h3⟩ := mapO_ok f es (fun x hx => h x (List.mem_cons_of_mem _ hx))
    refine ⟨b :: bs, ?_, by simp [h2], ?_⟩
    · unfold mapO
      rw [hb, h1]
      rfl
    · intro j x hx
      cases j with
      | zero => cases hx; exact ⟨b, rfl, hb⟩
      | succ j => exact h3 j x hx

/-- From this body, the next ones are those of the list. -/
inductive Chain [Monad m] (ga : Nat) (made : List (Made V S R m)) (first : Bool) : List (Body V S R m) → Option Nat → Prop
  | nil : Chain ga made first [] none
  | cons {a : Nat} {b : Body V S R m} {bs : List (Body V S R m)} {n1 n2 : Option Nat} : made[a]? = some ⟨code ga b, b.vam, size ga b, n1, n2⟩ →
      Chain ga made first bs (if first then n1 else n2) → Chain ga made first (b :: bs) (some (a + 1))

theorem size_small {ga : Nat} {b : Body V S R m} (h : b.Ok ga) : size ga b < 2^16 := by
  have := h.small
  unfold size
  split <;> omega

/-- What is made from a pair of lists, as part of all that is made. -/
theorem pair_chain [Monad m] {ga : Nat} {all : List (Body V S R m)} (junk : Option Nat) (pre : List (Made V S R m)) {ms ds : List Nat}
    (am : ascending ms = true) (ad : ascending ds = true) (lm : ∀ x ∈ ms, x < lim) (ld : ∀ x ∈ ds, x < lim)
    (okm : ∀ x ∈ ms, ∃ b, all[x]? = some b ∧ b.Ok ga) (okd : ∀ x ∈ ds, ∃ b, all[x]? = some b ∧ b.Ok ga) :
    ∃ p : Pair V S R m, makePair ga all junk (1 + pre.length) ms ds = .ok p ∧ ms.length ≤ p.made.length ∧ ds.length ≤ p.made.length ∧
      ∀ post, Chain ga (pre ++ p.made ++ post) true (ms.filterMap (all[·]?)) p.first1 ∧ Chain ga (pre ++ p.made ++ post) false (ds.filterMap (all[·]?)) p.first2 := by
  unfold makePair
  rw [am, ad]
  simp only [Bool.not_true, Bool.or_self, Bool.false_eq_true, if_false]
  generalize hM : ((List.replicate (ms.length + ds.length + 2) junk).set ms.length none).set (ms.length + ds.length + 1) none = M
  have hMl : M.length = ms.length + ds.length + 2 := by rw [← hM]; simp
  have hM1 : M[ms.length]? = some none := by
    rw [← hM, List.getElem?_set_ne (by omega), List.getElem?_set, if_pos rfl, if_pos (by simp; omega)]
  have hM2 : M[ms.length + 1 + ds.length]? = some none := by
    rw [← hM, List.getElem?_set, if_pos (by omega), if_pos (by simp)]
  obtain ⟨w1, w2, w3, w4, w5, w6, w7, w8, w9⟩ := merge_writes (ms.length + ds.length) ms ds 0 (ms.length + 1) (1 + pre.length) M lm ld
    (Nat.le_refl _) (by omega) (by omega)
  generalize merge (ms.length + ds.length) ms ds 0 (ms.length + 1) = es at *
  generalize writes (1 + pre.length) es M = M' at *
  have ok : ∀ e ∈ es, ∃ b, makeBody ga all M' e = .ok b := by
    intro e he
    obtain ⟨g1, g2, g3⟩ := w5 e he
    obtain ⟨b, hb, hok⟩ := g3.elim (okm _) (okd _)
    unfold makeBody
    rw [hb]
    dsimp only
    rw [if_neg (by have := hok.small; omega), if_neg, List.getElem?_eq_getElem (by omega), List.getElem?_eq_getElem (by omega)]
    · exact ⟨_, rfl⟩
    · obtain ⟨i, hi, hr⟩ := hok.returns
      rw [List.any_eq_true.2 ⟨i, hi, hr⟩]
      simp
  obtain ⟨bs, b1, b2, b3⟩ := mapO_ok _ es ok
  rw [b1]
  have is : ∀ (j : Nat) e, es[j]? = some e → ∃ b n1 n2, all[e.src]? = some b ∧ M'[e.pos1]? = some n1 ∧ M'[e.pos2]? = some n2 ∧
      bs[j]? = some ⟨code ga b, b.vam, size ga b, n1, n2⟩ := by
    intro j e he
    obtain ⟨g1, g2, g3⟩ := w5 e (List.mem_of_getElem? he)
    obtain ⟨b, hb, hok⟩ := g3.elim (okm _) (okd _)
    obtain ⟨x, hx, hf⟩ := b3 j e he
    unfold makeBody at hf
    rw [hb] at hf
    dsimp only at hf
    rw [if_neg (by have := hok.small; omega), if_neg, List.getElem?_eq_getElem (by omega), List.getElem?_eq_getElem (by omega)] at hf
    · cases hf
      refine ⟨b, _, _, hb, List.getElem?_eq_getElem (by omega), List.getElem?_eq_getElem (by omega), ?_⟩
      rw [hx]
      have := size_small hok
      show some (Made.mk _ _ (size ga b % 2^16) _ _) = _
      rw [Nat.mod_eq_of_lt this]
    · obtain ⟨i, hi, hr⟩ := hok.returns
      rw [List.any_eq_true.2 ⟨i, hi, hr⟩]
      simp
  refine ⟨_, rfl, by show _ ≤ bs.length; omega, by show _ ≤ bs.length; omega, fun post => ?_⟩
  have at' : ∀ (j : Nat) x, bs[j]? = some x → (pre ++ bs ++ post)[pre.length + j]? = some x := by
    intro j x hx
    have := (List.getElem?_eq_some_iff.1 hx).1
    rw [List.getElem?_append_left (by rw [List.length_append]; omega), List.getElem?_append_right (by omega), Nat.add_sub_cancel_left]
    exact hx
  have c1 : ∀ (l : List Nat) (k : Nat), k ≤ ms.length → ms.drop k = l → ∃ o, M'[k]? = some o ∧ Chain ga (pre ++ bs ++ post) true (l.filterMap (all[·]?)) o := by
    intro l
    induction l with
    | nil =>
      intro k hk e
      have : k = ms.length := by have := List.drop_eq_nil_iff.1 e; omega
      subst this
      exact ⟨none, by rw [w2 _ (by omega) (by omega)]; exact hM1, .nil⟩
    | cons s l ih =>
      intro k hk e
      have hk' : k < ms.length := by
        apply Nat.lt_of_not_le
        intro h
        rw [List.drop_of_length_le h] at e
        cases e
      rw [List.drop_eq_getElem_cons hk'] at e
      obtain ⟨e1, e2⟩ := List.cons.inj e
      obtain ⟨j, en, ej, f1, f2, f3⟩ := w3 k s (by rw [List.getElem?_eq_getElem hk', e1])
      obtain ⟨o, o1, o2⟩ := ih (k + 1) hk' e2
      obtain ⟨b, n1, n2, q1, q2, q3, q4⟩ := is j en ej
      rw [f1] at q1
      rw [f2, Nat.zero_add, o1] at q2
      cases q2
      refine ⟨some (pre.length + j + 1), ?_, ?_⟩
      · rw [Nat.zero_add] at f3
        rw [f3]
        congr 2
        omega
      · rw [List.filterMap_cons, q1]
        exact .cons (at' j _ q4) o2
  have c2 : ∀ (l : List Nat) (k : Nat), k ≤ ds.length → ds.drop k = l →
      ∃ o, M'[ms.length + 1 + k]? = some o ∧ Chain ga (pre ++ bs ++ post) false (l.filterMap (all[·]?)) o := by
    intro l
    induction l with
    | nil =>
      intro k hk e
      have : k = ds.length := by have := List.drop_eq_nil_iff.1 e; omega
      subst this
      exact ⟨none, by rw [w2 _ (by omega) (by omega)]; exact hM2, .nil⟩
    | cons s l ih =>
      intro k hk e
      have hk' : k < ds.length := by
        apply Nat.lt_of_not_le
        intro h
        rw [List.drop_of_length_le h] at e
        cases e
      rw [List.drop_eq_getElem_cons hk'] at e
      obtain ⟨e1, e2⟩ := List.cons.inj e
      obtain ⟨j, en, ej, f1, f2, f3⟩ := w4 k s (by rw [List.getElem?_eq_getElem hk', e1])
      obtain ⟨o, o1, o2⟩ := ih (k + 1) hk' e2
      obtain ⟨b, n1, n2, q1, q2, q3, q4⟩ := is j en ej
      rw [f1] at q1
      rw [f2, Nat.add_assoc, o1] at q3
      cases q3
      refine ⟨some (pre.length + j + 1), ?_, ?_⟩
      · rw [f3]
        congr 2
        omega
      · rw [List.filterMap_cons, q1]
        exact .cons (at' j _ q4) o2
  constructor
  · obtain ⟨o, o1, o2⟩ := c1 ms 0 (by omega) rfl
    show Chain _ _ _ _ ((es.findIdx? fun e => e.is1).map (1 + pre.length + ·))
    rcases w6 with ⟨g1, g2⟩ | ⟨j, g1, g2, g3⟩
    · rw [g1, g2]
      exact .nil
    · rw [g1]
      rw [o1] at g3
      cases g3
      exact o2
  · obtain ⟨o, o1, o2⟩ := c2 ds 0 (by omega) rfl
    show Chain _ _ _ _ ((es.findIdx? fun e => e.is2).map (1 + pre.length + ·))
    rcases w7 with ⟨g1, g2⟩ | ⟨j, g1, g2, g3⟩
    · rw [g1, g2]
      exact .nil
    · rw [g1]
      rw [Nat.add_zero] at o1
      rw [o1] at g3
      cases g3
      exact o2

end Verif.Bodies
