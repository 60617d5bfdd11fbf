import Verif.Axes.Model
import Verif.Rotate.Basic
import Verif.Select.Loops
/-!
# Select along several axes: lemmas
-/
namespace Verif.Axes
open Verif.Rotate Verif.Select
variable {α : Type}

theorem foldl_min_le : ∀ (vs : List Int) (v : Int), vs.foldl min v ≤ v ∧ ∀ e ∈ vs, vs.foldl min v ≤ e
  | [], v => ⟨Int.le_refl _, nofun⟩
  | a :: vs, v => by
    have h := foldl_min_le vs (min v a)
    rw [List.foldl_cons]
    refine ⟨by omega, fun e he => ?_⟩
    rcases List.mem_cons.1 he with rfl | he
    · omega
    · exact h.2 e he

theorem foldl_min_mem : ∀ (vs : List Int) (v : Int), vs.foldl min v = v ∨ vs.foldl min v ∈ vs
  | [], v => .inl rfl
  | a :: vs, v => by
    rw [List.foldl_cons]
    rcases foldl_min_mem vs (min v a) with h | h
    · rw [h]
      by_cases c : v ≤ a
      · exact .inl (by omega)
      · exact .inr (by rw [show min v a = a by omega]; simp)
    · exact .inr (List.mem_cons_of_mem _ h)

theorem le_foldl_max : ∀ (vs : List Int) (v : Int), v ≤ vs.foldl max v ∧ ∀ e ∈ vs, e ≤ vs.foldl max v
  | [], v => ⟨Int.le_refl _, nofun⟩
  | a :: vs, v => by
    have h := le_foldl_max vs (max v a)
    rw [List.foldl_cons]
    refine ⟨by omega, fun e he => ?_⟩
    rcases List.mem_cons.1 he with rfl | he
    · omega
    · exact h.2 e he

theorem foldl_max_mem : ∀ (vs : List Int) (v : Int), vs.foldl max v = v ∨ vs.foldl max v ∈ vs
  | [], v => .inl rfl
  | a :: vs, v => by
    rw [List.foldl_cons]
    rcases foldl_max_mem vs (max v a) with h | h
    · rw [h]
      by_cases c : a ≤ v
      · exact .inl (by omega)
      · exact .inr (by rw [show max v a = a by omega]; simp)
    · exact .inr (List.mem_cons_of_mem _ h)

theorem positions_ints (l : Nat) : ∀ (vs : List Int), (∀ e ∈ vs, -(l : Int) ≤ e ∧ e < l) →
    positions l (vs.map some) = some (vs.map fun e => (e + (l : Int) * (if e < 0 then 1 else 0)).toNat)
  | [], _ => rfl
  | v :: vs, h => by
    have hv := h v (by simp)
    rw [List.map_cons, positions_cons, positions_ints l vs (fun e he => h e (List.mem_cons_of_mem _ he))]
    show (position l v).bind _ = _
    rw [position_some hv.1 hv.2]
    simp only [Option.bind_some, Option.map_some, List.map_cons]
    congr 3
    by_cases c : v < 0
    · rw [if_pos c, if_pos c, Int.mul_one]
    · rw [if_neg c, if_neg c, Int.mul_zero, Int.add_zero]

theorem positions_bad (l : Nat) : ∀ (vs : List Int) (e : Int), e ∈ vs → e < -(l : Int) ∨ (l : Int) ≤ e → positions l (vs.map some) = none
  | v :: vs, e, he, h => by
    rw [List.map_cons, positions_cons]
    show (position l v).bind _ = _
    rcases List.mem_cons.1 he with rfl | he
    · rw [position_bad h]; rfl
    · rw [positions_bad l vs e he h]
      cases position l v <;> rfl

theorem mapM_id_some : ∀ (c : List (Option Int)) (vs : List Int), c.mapM id = some vs → c = vs.map some
  | [], vs, h => by simp at h; subst h; rfl
  | none :: c, vs, h => by simp at h
  | some v :: c, vs, h => by
    rw [List.mapM_cons] at h
    cases e : c.mapM id with
    | none => rw [e] at h; simp at h
    | some ws =>
      rw [e] at h
      simp at h
      subst h
      rw [mapM_id_some c ws e]; rfl

theorem mapM_id_none (l : Nat) : ∀ (c : List (Option Int)), c.mapM id = none → positions l c = none
  | [], h => by simp at h
  | none :: c, _ => rfl
  | some v :: c, h => by
    rw [positions_cons]
    rw [List.mapM_cons] at h
    cases e : c.mapM id with
    | none => rw [mapM_id_none l c e]; show (position l v).bind _ = _; cases position l v <;> rfl
    | some ws => rw [e] at h; simp at h

/-- The indices along one axis are the positions that they mean, or there is an error. -/
theorem parseOne_spec (l : Nat) (c : List (Option Int)) : (parseOne l c).map (·.1) = positions l c := by
  unfold parseOne
  cases e : c.mapM id with
  | none => rw [mapM_id_none l c e]; rfl
  | some vs =>
    rw [mapM_id_some c vs e]
    cases vs with
    | nil => rfl
    | cons v vs =>
      have h1 := foldl_min_le vs v
      have h2 := le_foldl_max vs v
      simp only
      by_cases b : vs.foldl min v < -(l : Int) ∨ vs.foldl max v ≥ l
      · rw [if_pos b]
        rcases b with b | b
        · rw [positions_bad l (v :: vs) _ (List.mem_cons.2 (foldl_min_mem vs v)) (.inl b)]; rfl
        · rw [positions_bad l (v :: vs) _ (List.mem_cons.2 (foldl_max_mem vs v)) (.inr b)]; rfl
      · rw [if_neg b]
        rw [positions_ints l (v :: vs) (by
          intro e he
          rcases List.mem_cons.1 he with rfl | he
          · omega
          · have := h1.2 e he; have := h2.2 e he; omega)]
        by_cases n : vs.foldl min v < 0
        · rw [if_pos n]; rfl
        · rw [if_neg n]
          show some _ = some _
          congr 1
          apply List.map_congr_left
          intro e he
          have : ¬ e < 0 := by
            rcases List.mem_cons.1 he with rfl | he
            · omega
            · have := h1.2 e he; omega
          rw [if_neg this, Int.mul_zero, Int.add_zero]

theorem parse_cons (w : Idx) (ws : List Idx) (l : Nat) (ls : List Nat) :
    (parse (w :: ws) (l :: ls)).map (·.1) = (positions l w.is).bind fun p => ((parse ws ls).map (·.1)).map (p :: ·) := by
  rw [parse, ← parseOne_spec]
  cases parseOne l w.is with
  | none => rfl
  | some c =>
    cases ws with
    | nil => rfl
    | cons a ws => simp only [Option.bind_some, Option.map_some]; cases parse (a :: ws) ls <;> rfl

theorem parse_means : ∀ {w : List Idx} {xsh : List Nat} {ps : List (List Nat)}, Means w xsh ps → (parse w xsh).map (·.1) = some ps
  | _, _, _, .nil _ => by rw [parse]; rfl
  | _, _, _, .cons h hs => by rw [parse_cons, h, parse_means hs]; rfl

theorem means_parse : ∀ {w : List Idx} {xsh : List Nat} {ps : List (List Nat)}, (parse w xsh).map (·.1) = some ps → Means w xsh ps
  | [], xsh, ps, h => by rw [parse] at h; cases h; exact .nil _
  | w :: ws, [], ps, h => by rw [parse] at h; cases h
  | w :: ws, l :: ls, ps, h => by
    rw [parse_cons] at h
    cases e1 : positions l w.is with
    | none => rw [e1] at h; cases h
    | some p =>
      cases e2 : (parse ws ls).map (·.1) with
      | none => rw [e1, e2] at h; cases h
      | some qs =>
        rw [e1, e2] at h
        cases h
        exact .cons e1 (means_parse e2)

theorem Means.len {w : List Idx} {xsh : List Nat} {ps : List (List Nat)} (h : Means w xsh ps) : ps.length = w.length ∧ w.length ≤ xsh.length := by
  induction h with
  | nil => simp
  | cons h hs ih => simp only [List.length_cons]; omega

/-- How many elements all arrays of indices have together. -/
def size (w : List Idx) : Nat := prod (w.map Idx.sh).flatten

theorem size_cons (w : Idx) (ws : List Idx) : size (w :: ws) = prod w.sh * size ws := by
  unfold size; rw [List.map_cons, List.flatten_cons, prod_append]

theorem size_append : ∀ (a b : List Idx), size (a ++ b) = size a * size b
  | [], b => by show size b = 1 * size b; rw [Nat.one_mul]
  | w :: a, b => by rw [List.cons_append, size_cons, size_cons, size_append a b, Nat.mul_assoc]

theorem Picks.inShape {w : List Idx} {ps : List (List Nat)} {is qs : List Nat} (h : Picks w ps is qs) : InShape (w.map Idx.sh).flatten is := by
  induction h with
  | nil => exact .nil
  | cons h _ _ ih => rw [List.map_cons, List.flatten_cons]; exact h.append ih

theorem Picks.qlen {w : List Idx} {ps : List (List Nat)} {is qs : List Nat} (h : Picks w ps is qs) : qs.length = w.length := by
  induction h with
  | nil => rfl
  | cons _ _ _ ih => rw [List.length_cons, List.length_cons, ih]

theorem Picks.qin {w : List Idx} {xsh : List Nat} {ps : List (List Nat)} {is qs : List Nat} (h : Picks w ps is qs) (hm : Means w xsh ps) : InShape (xsh.take w.length) qs := by
  induction h generalizing xsh with
  | nil => exact .nil
  | cons _ hq _ ih =>
    cases hm with
    | cons hp hs =>
      rw [List.length_cons, List.take_succ_cons]
      exact .cons (positions_lt hp _ (List.mem_of_getElem? hq)) (ih hs)

theorem Picks.split : ∀ {w : List Idx} {v : Idx} {ps : List (List Nat)} {p is qs : List Nat}, w.length = ps.length → Picks (w ++ [v]) (ps ++ [p]) is qs →
    ∃ i1 i2 q1 q2, is = i1 ++ i2 ∧ qs = q1 ++ [q2] ∧ Picks w ps i1 q1 ∧ InShape v.sh i2 ∧ p[ravel v.sh i2]? = some q2
  | [], v, [], p, is, qs, _, h => by
    cases h with
    | @cons _ _ i is' qs' q _ _ h1 h2 h3 =>
      cases h3
      exact ⟨[], i, [], q, by simp, rfl, .nil, h1, h2⟩
  | [], _, _ :: _, _, _, _, hl, _ => by simp at hl
  | _ :: _, _, [], _, _, _, hl, _ => by simp at hl
  | w :: ws, v, p' :: ps, p, is, qs, hl, h => by
    rw [List.cons_append, List.cons_append] at h
    cases h with
    | @cons _ _ i is' qs' q _ _ h1 h2 h3 =>
      obtain ⟨i1, i2, q1, q2, rfl, rfl, g1, g2, g3⟩ := Picks.split (by simpa using hl) h3
      exact ⟨i ++ i1, i2, q :: q1, q2, by simp, rfl, .cons h1 h2 g1, g2, g3⟩

theorem flat_get {β γ : Type} (f : β → List γ) (n : Nat) (hf : ∀ a, (f a).length = n) : ∀ (c : List β) (j k : Nat) (a : β), c[j]? = some a → k < n →
    (c.flatMap f)[j * n + k]? = (f a)[k]?
  | [], j, k, a, h, _ => by simp at h
  | b :: c, 0, k, a, h, hk => by
    simp at h
    subst h
    rw [List.flatMap_cons, Nat.zero_mul, Nat.zero_add, List.getElem?_append_left (by rw [hf]; exact hk)]
  | b :: c, j + 1, k, a, h, hk => by
    rw [List.flatMap_cons, List.getElem?_append_right (by rw [hf, Nat.add_mul]; omega), hf,
      show (j + 1) * n + k - n = j * n + k by rw [Nat.add_mul]; omega]
    exact flat_get f n hf c j k a (by simpa using h) hk

theorem flat_length {β γ : Type} (f : β → List γ) (n : Nat) (hf : ∀ a, (f a).length = n) : ∀ (c : List β), (c.flatMap f).length = c.length * n
  | [] => by simp
  | b :: c => by rw [List.flatMap_cons, List.length_append, hf, flat_length f n hf c, List.length_cons, Nat.add_mul]; omega

/-- The starts have, at each index of the arrays of indices, the place of the positions that these have there. -/
theorem starts_spec : ∀ {w : List Idx} {ls : List Nat} {ps : List (List Nat)} (c : List Nat), Means w ls ps → (∀ v ∈ w, v.Full) → (c.length * size w < 2^32 ∨ (w = [])) → (0 < size w) →
    ∃ s, starts c (ps.zip ls) = some s ∧ s.length = c.length * size w ∧ (∀ b, (∀ a ∈ c, a < b) → ∀ a ∈ s, a < b * prod (ls.take w.length)) ∧
      ∀ (j a : Nat) (is qs : List Nat), c[j]? = some a → Picks w ps is qs →
        s[j * size w + ravel (w.map Idx.sh).flatten is]? = some (a * prod (ls.take w.length) + ravel (ls.take w.length) qs)
  | [], ls, _, c, .nil _, _, _, _ => by
    refine ⟨c, ?_, ?_, ?_, ?_⟩
    · rw [List.zip_nil_left, starts]
    · show _ = c.length * 1; rw [Nat.mul_one]
    · intro b hb a ha; show a < b * 1; rw [Nat.mul_one]; exact hb a ha
    · intro j a is qs hj h
      cases h
      show c[j * 1 + 0]? = some (a * 1 + 0)
      rw [Nat.mul_one, Nat.mul_one]; exact hj
  | v :: w, l :: ls, p :: ps, c, .cons hp hm, hF, hl, h0 => by
    rw [size_cons] at h0
    have hl' : c.length * (prod v.sh * size w) < 2^32 := by
      rcases hl with hl | hl
      · rw [size_cons] at hl; exact hl
      · cases hl
    have hv := hF v (by simp)
    have hpl : p.length = prod v.sh := by rw [positions_length hp]; exact hv.1
    have hw0 : 0 < size w := Nat.pos_of_mul_pos_left h0
    have hf : ∀ a : Nat, (p.map fun b => a + b).length = p.length := by intro a; simp
    have hcl : ((c.map (· * l)).flatMap fun a => p.map fun b => a + b).length = c.length * p.length := by
      rw [flat_length _ _ hf, List.length_map]
    have hsmall : c.length * p.length < 2^32 := by
      rw [hpl]
      have : c.length * prod v.sh * 1 ≤ c.length * prod v.sh * size w := Nat.mul_le_mul_left _ hw0
      rw [Nat.mul_one, Nat.mul_assoc c.length] at this
      omega
    obtain ⟨s, h1, h2, h3, h4⟩ := starts_spec ((c.map (· * l)).flatMap fun a => p.map fun b => a + b) hm (fun u hu => hF u (List.mem_cons_of_mem _ hu))
      (.inl (by rw [hcl, hpl, Nat.mul_assoc]; exact hl')) hw0
    refine ⟨s, ?_, ?_, ?_, ?_⟩
    · rw [List.zip_cons_cons, starts]
      simp only [List.length_map]
      rw [if_neg (by omega)]
      exact h1
    · rw [h2, hcl, hpl, size_cons, Nat.mul_assoc]
    · intro b hb a ha
      rw [List.length_cons, List.take_succ_cons, prod, ← Nat.mul_assoc]
      refine h3 (b * l) ?_ a ha
      intro d hd
      simp only [List.mem_flatMap, List.mem_map] at hd
      obtain ⟨_, ⟨e, he, rfl⟩, q, hq, rfl⟩ := hd
      have e1 := hb e he
      have e2 := positions_lt hp q hq
      have : (e + 1) * l ≤ b * l := Nat.mul_le_mul_right _ e1
      rw [Nat.add_mul] at this
      omega
    · intro j a is qs hj h
      cases h with
      | @cons _ _ i is' qs' q _ _ g1 g2 g3 =>
        have hr := ravel_lt g1
        have hc : ((c.map (· * l)).flatMap fun a => p.map fun b => a + b)[j * p.length + ravel v.sh i]? = some (a * l + q) := by
          rw [flat_get _ p.length hf (c.map (· * l)) j (ravel v.sh i) (a * l) (by rw [List.getElem?_map, hj]; rfl) (by omega), List.getElem?_map, g2]
          rfl
        have := h4 _ _ _ _ hc g3
        rw [List.map_cons, List.flatten_cons, ravel_append g1, List.length_cons, List.take_succ_cons, size_cons]
        show s[j * (prod v.sh * size w) + (ravel v.sh i * size w + _)]? = some (a * (l * _) + (q * _ + _))
        rw [show j * (prod v.sh * size w) + (ravel v.sh i * size w + ravel (List.map Idx.sh w).flatten is') = (j * p.length + ravel v.sh i) * size w + ravel (List.map Idx.sh w).flatten is' by
          rw [hpl, Nat.add_mul, Nat.mul_assoc, Nat.add_assoc], this]
        congr 1
        rw [Nat.add_mul, Nat.mul_assoc, Nat.add_assoc]

theorem copies_spec (span cap : Nat) (xs : List α) : ∀ (ps : List Nat) (r : List α), r.length + ps.length * span ≤ cap → (∀ p ∈ ps, p + span ≤ xs.length) →
    copies span cap xs ps r = some (r ++ ps.flatMap fun p => (xs.drop p).take span)
  | [], r, _, _ => by rw [copies]; simp
  | p :: ps, r, h, hp => by
    have h1 := hp p (by simp)
    rw [List.length_cons, Nat.add_mul] at h
    rw [copies, if_pos ⟨by omega, h1⟩, copies_spec span cap xs ps _ _ (fun q hq => hp q (List.mem_cons_of_mem _ hq)), List.flatMap_cons, List.append_assoc]
    rw [List.length_append, List.length_take, List.length_drop]
    omega

/-- Copies that succeed were within memory. -/
theorem copies_fits (span cap : Nat) (xs : List α) : ∀ (ps : List Nat) (r r' : List α), r.length ≤ cap → copies span cap xs ps r = some r' → r.length + ps.length * span ≤ cap
  | [], r, r', h0, _ => by simpa using h0
  | p :: ps, r, r', h0, h => by
    rw [copies] at h
    by_cases c : r.length + span ≤ cap ∧ p + span ≤ xs.length
    · rw [if_pos c] at h
      have e : (r ++ (xs.drop p).take span).length = r.length + span := by
        rw [List.length_append, List.length_take, List.length_drop]; omega
      have := copies_fits span cap xs ps _ r' (by omega) h
      rw [e] at this
      rw [List.length_cons, Nat.add_mul]
      omega
    · rw [if_neg c] at h; cases h

theorem mapM_get (xs : List α) : ∀ (ps : List Nat), (∀ p ∈ ps, p < xs.length) → ps.mapM (fun p => xs[p]?) = some (ps.flatMap fun p => (xs.drop p).take 1)
  | [], _ => rfl
  | p :: ps, h => by
    have h1 := h p (by simp)
    rw [List.mapM_cons, mapM_get xs ps (fun q hq => h q (List.mem_cons_of_mem _ hq)), List.getElem?_eq_getElem h1, List.flatMap_cons,
      List.drop_eq_getElem_cons h1]
    rfl

theorem slices_get (xs : List α) (span : Nat) : ∀ (ps : List Nat), (∀ p ∈ ps, p + span ≤ xs.length) →
    (ps.flatMap fun p => (xs.drop p).take span).length = ps.length * span ∧
    ∀ (j p t : Nat), ps[j]? = some p → t < span → (ps.flatMap fun p => (xs.drop p).take span)[j * span + t]? = xs[p + t]?
  | [], _ => ⟨by simp, fun j p t h _ => by simp at h⟩
  | q :: ps, h => by
    have h1 := h q (by simp)
    have ih := slices_get xs span ps (fun q hq => h q (List.mem_cons_of_mem _ hq))
    have hl : ((xs.drop q).take span).length = span := by rw [List.length_take, List.length_drop]; omega
    refine ⟨by rw [List.flatMap_cons, List.length_append, hl, ih.1, List.length_cons, Nat.add_mul]; omega, ?_⟩
    intro j p t hj ht
    rw [List.flatMap_cons]
    cases j with
    | zero =>
      simp at hj
      subst hj
      rw [Nat.zero_mul, Nat.zero_add, List.getElem?_append_left (by omega), List.getElem?_take_of_lt ht, List.getElem?_drop]
    | succ j =>
      rw [List.getElem?_append_right (by rw [hl, Nat.add_mul]; omega), hl, show (j + 1) * span + t - span = j * span + t by rw [Nat.add_mul]; omega]
      exact ih.2 j p t (by simpa using hj) ht

/-- What is copied is each span. -/
theorem select_spec (typed : Bool) (s : Spans) (xs : List α) (h32 : s.starts.length * s.span < 2^32) (hB : typed = false → s.starts.length * s.span ≤ 2^31 / 8 - 1000)
    (hin : ∀ c ∈ s.starts, s.add + s.mul * c + s.span ≤ xs.length) :
    ∃ r, select typed s xs = .ok [] r ∧ r.length = s.starts.length * s.span ∧
      ∀ (j c t : Nat), s.starts[j]? = some c → t < s.span → r[j * s.span + t]? = xs[s.add + s.mul * c + t]? := by
  have hps : ∀ p ∈ s.starts.map (fun c => s.add + s.mul * c), p + s.span ≤ xs.length := by
    intro p hp
    obtain ⟨c, hc, rfl⟩ := List.mem_map.1 hp
    exact hin c hc
  have hsl := slices_get xs s.span (s.starts.map fun c => s.add + s.mul * c) hps
  refine ⟨(s.starts.map fun c => s.add + s.mul * c).flatMap fun p => (xs.drop p).take s.span, ?_, ?_, ?_⟩
  · unfold select
    by_cases h1 : s.span ≠ 1
    · rw [if_pos h1]
      simp only
      have hc : (!typed && decide (s.starts.length * s.span > 2^31 / 8 - 1000)) = false := by
        cases typed
        · have := hB rfl; simp; omega
        · rfl
      rw [hc]
      simp only [Bool.false_eq_true, if_false]
      have hcap : (if typed = true then s.starts.length * s.span % 2^32 else s.starts.length * s.span) = s.starts.length * s.span := by
        rw [Nat.mod_eq_of_lt h32]; simp
      rw [hcap, copies_spec s.span _ xs _ [] (by simp) hps]
      rfl
    · rw [if_neg h1]
      have h1 : s.span = 1 := by omega
      simp only
      have hc1 : (if s.mul ≠ 1 then s.starts.map (· * s.mul) else s.starts) = s.starts.map (· * s.mul) := by
        by_cases e : s.mul = 1
        · rw [if_neg (by simp [e]), e]; simp
        · rw [if_pos e]
      rw [hc1]
      have hc2 : (if s.add ≠ 0 then (s.starts.map (· * s.mul)).map (· + s.add) else s.starts.map (· * s.mul)) = s.starts.map fun c => s.add + s.mul * c := by
        by_cases e : s.add = 0
        · rw [if_neg (by simp [e]), e]
          apply List.map_congr_left; intro c _; show c * s.mul = 0 + s.mul * c; rw [Nat.mul_comm, Nat.zero_add]
        · rw [if_pos e, List.map_map]
          apply List.map_congr_left; intro c _; show c * s.mul + s.add = _; rw [Nat.mul_comm, Nat.add_comm]
      rw [hc2, mapM_get xs _ (fun p hp => by have := hps p hp; omega), h1]
  · rw [hsl.1, List.length_map]
  · intro j c t hj ht
    exact hsl.2 j _ t (by rw [List.getElem?_map, hj]; rfl) ht

end Verif.Axes
