import Verif.Axes.Lemmas
/-!
# Select along several axes: the starts and the spans
-/
namespace Verif.Axes
open Verif.Rotate Verif.Select
variable {α : Type}

/-- The starts of some leading axes. -/
theorem prefix_spec {v : Idx} {a : List Idx} {xsh p : List Nat} {pa : List (List Nat)} (hm : Means (v :: a) xsh (p :: pa)) (hF : ∀ u ∈ v :: a, u.Full)
    (h0 : 0 < size (v :: a)) (h32 : size (v :: a) < 2^32) :
    ∃ s, starts p (pa.zip (xsh.drop 1)) = some s ∧ s.length = size (v :: a) ∧ (∀ c ∈ s, c < prod (xsh.take (a.length + 1))) ∧
      ∀ (is qs : List Nat), Picks (v :: a) (p :: pa) is qs → s[ravel ((v :: a).map Idx.sh).flatten is]? = some (ravel (xsh.take (a.length + 1)) qs) := by
  cases hm with
  | @cons _ l _ _ ls _ hp hs =>
    have hpl : p.length = prod v.sh := by rw [positions_length hp]; exact (hF v (by simp)).1
    rw [size_cons] at h0 h32
    obtain ⟨s, h1, h2, h3, h4⟩ := starts_spec p hs (fun u hu => hF u (List.mem_cons_of_mem _ hu)) (.inl (by rw [hpl]; exact h32)) (Nat.pos_of_mul_pos_left h0)
    refine ⟨s, h1, by rw [h2, hpl, size_cons], ?_, ?_⟩
    · intro c hc
      rw [List.take_succ_cons]
      exact h3 l (fun a ha => positions_lt hp a ha) c hc
    · intro is qs h
      cases h with
      | @cons _ _ i is' qs' q _ _ g1 g2 g3 =>
        rw [List.map_cons, List.flatten_cons, ravel_append g1, List.take_succ_cons]
        exact h4 _ _ _ _ g2 g3

theorem Means.split : ∀ {a : List Idx} {u : Idx} {xsh : List Nat} {ps : List (List Nat)}, Means (a ++ [u]) xsh ps →
    ∃ pa pu l, ps = pa ++ [pu] ∧ Means a xsh pa ∧ positions l u.is = some pu ∧ xsh.drop a.length = l :: xsh.drop (a.length + 1)
  | [], u, _, _, .cons h (.nil ls) => ⟨[], _, _, rfl, .nil _, h, rfl⟩
  | v :: a, u, _, _, .cons h hs => by
    obtain ⟨pa, pu, l, rfl, g1, g2, g3⟩ := Means.split hs
    exact ⟨_ :: pa, pu, l, rfl, .cons h g1, g2, by simpa using g3⟩

/-- What is needed of the spans. -/
structure Good (w : List Idx) (ps : List (List Nat)) (xsh : List Nat) (s : Spans) : Prop where
  count : s.starts.length * s.span = size w * prod (xsh.drop w.length)
  within : ∀ c ∈ s.starts, s.add + s.mul * c + s.span ≤ prod xsh
  place : ∀ (is qs rest : List Nat), Picks w ps is qs → InShape (xsh.drop w.length) rest →
    ∃ j c t, s.starts[j]? = some c ∧ t < s.span ∧ ravel (resultShape w xsh) (is ++ rest) = j * s.span + t ∧ ravel xsh (qs ++ rest) = s.add + s.mul * c + t

theorem prod_split (xsh : List Nat) (n : Nat) : prod xsh = prod (xsh.take n) * prod (xsh.drop n) := by
  rw [← prod_append, List.take_append_drop]

/-- A place in `𝕩`, from that in the leading axes and that in the others. -/
theorem ravel_split {xsh q r : List Nat} (n : Nat) (h : InShape (xsh.take n) q) : ravel xsh (q ++ r) = ravel (xsh.take n) q * prod (xsh.drop n) + ravel (xsh.drop n) r := by
  have := ravel_append h (xsh.drop n) r
  rwa [List.take_append_drop] at this

theorem plain_good {v : Idx} {a : List Idx} {xsh p : List Nat} {pa : List (List Nat)} (hm : Means (v :: a) xsh (p :: pa)) {s : List Nat}
    (h2 : s.length = size (v :: a)) (h3 : ∀ c ∈ s, c < prod (xsh.take (a.length + 1)))
    (h4 : ∀ (is qs : List Nat), Picks (v :: a) (p :: pa) is qs → s[ravel ((v :: a).map Idx.sh).flatten is]? = some (ravel (xsh.take (a.length + 1)) qs)) :
    Good (v :: a) (p :: pa) xsh ⟨s, prod (xsh.drop (a.length + 1)), prod (xsh.drop (a.length + 1)), 0⟩ where
  count := by rw [h2]; rfl
  within := by
    intro c hc
    have := h3 c hc
    have := Nat.mul_le_mul_right (prod (xsh.drop (a.length + 1))) this
    rw [← prod_split, Nat.succ_mul, Nat.mul_comm c] at this
    show 0 + prod (xsh.drop (a.length + 1)) * c + prod (xsh.drop (a.length + 1)) ≤ prod xsh
    omega
  place := by
    intro is qs rest hp hr
    refine ⟨_, _, ravel (xsh.drop (a.length + 1)) rest, h4 is qs hp, ravel_lt hr, ?_, ?_⟩
    · rw [resultShape, ravel_append hp.inShape]; rfl
    · rw [ravel_split (a.length + 1) (hp.qin hm)]
      show _ = 0 + prod _ * ravel _ _ + _
      rw [Nat.zero_add, Nat.mul_comm]

theorem isRange_get {l : List Nat} (h : isRange l = true) {k q : Nat} (hk : l[k]? = some q) : q = l.headD 0 + k := by
  have e : l = (List.range l.length).map fun i => l.headD 0 + i := by simpa [isRange] using h
  have hlt : k < l.length := by
    rcases Nat.lt_or_ge k l.length with h | h
    · exact h
    · rw [List.getElem?_eq_none h] at hk; cases hk
  rw [e, List.getElem?_map, List.getElem?_range hlt] at hk
  simpa using hk.symm

theorem range_good {v u : Idx} {a : List Idx} {xsh p pu : List Nat} {pa : List (List Nat)} {l : Nat} (hm : Means (v :: a) xsh (p :: pa))
    (hu : positions l u.is = some pu) (hF : u.Full) (hl : xsh.drop (a.length + 1) = l :: xsh.drop (a.length + 2)) (hr : isRange pu = true) (h0 : pu ≠ []) {s : List Nat}
    (h2 : s.length = size (v :: a)) (h3 : ∀ c ∈ s, c < prod (xsh.take (a.length + 1)))
    (h4 : ∀ (is qs : List Nat), Picks (v :: a) (p :: pa) is qs → s[ravel ((v :: a).map Idx.sh).flatten is]? = some (ravel (xsh.take (a.length + 1)) qs)) :
    Good ((v :: a) ++ [u]) ((p :: pa) ++ [pu]) xsh ⟨s, prod (xsh.drop (a.length + 2)) * pu.length, prod (xsh.drop (a.length + 2)) * l, pu.headD 0 * prod (xsh.drop (a.length + 2))⟩ := by
  have hpl : pu.length = prod u.sh := by rw [positions_length hu]; exact hF.1
  have hlen : ((v :: a) ++ [u]).length = a.length + 2 := by simp
  have hwl : (v :: a).length = a.length + 1 := rfl
  have hpp : (v :: a).length = (p :: pa).length := hm.len.1.symm
  refine ⟨?_, ?_, ?_⟩
  · rw [hlen, size_append, h2]
    show _ * (_ * pu.length) = _
    rw [size_cons u [], hpl]
    show _ = _ * (_ * 1) * _
    rw [Nat.mul_one, Nat.mul_comm (prod (List.drop _ _)), Nat.mul_assoc]
  · intro c hc
    have hc := h3 c hc
    show pu.headD 0 * prod (xsh.drop (a.length + 2)) + prod (xsh.drop (a.length + 2)) * l * c + prod (xsh.drop (a.length + 2)) * pu.length ≤ prod xsh
    rw [prod_split xsh (a.length + 1), hl, prod]
    generalize prod (xsh.drop (a.length + 2)) = D
    generalize prod (xsh.take (a.length + 1)) = T at *
    -- the last of the range is a position
    have hlast : pu.headD 0 + pu.length ≤ l := by
      have hk : pu.length - 1 < pu.length := by
        have := List.length_pos_iff.2 h0; omega
      have e := isRange_get hr (List.getElem?_eq_getElem hk)
      have := positions_lt hu _ (List.getElem_mem hk)
      omega
    have e1 : (pu.headD 0 + pu.length) * D ≤ l * D := Nat.mul_le_mul_right _ hlast
    have e2 : (c + 1) * (l * D) ≤ T * (l * D) := Nat.mul_le_mul_right _ hc
    rw [Nat.add_mul] at e1 e2
    rw [Nat.mul_comm D l, Nat.mul_comm (l * D) c, Nat.mul_comm D pu.length]
    omega
  · intro is qs rest hp hrest
    obtain ⟨i1, i2, q1, q2, rfl, rfl, g1, g2, g3⟩ := hp.split hpp
    have hq := isRange_get hr g3
    rw [hlen] at hrest
    have r1 := ravel_lt g2
    have r2 := ravel_lt hrest
    refine ⟨_, _, ravel u.sh i2 * prod (xsh.drop (a.length + 2)) + ravel (xsh.drop (a.length + 2)) rest, h4 i1 q1 g1, ?_, ?_, ?_⟩
    · show _ < prod (xsh.drop (a.length + 2)) * pu.length
      rw [hpl]
      have := Nat.mul_le_mul_right (prod (xsh.drop (a.length + 2))) r1
      rw [Nat.succ_mul] at this
      rw [Nat.mul_comm (prod (xsh.drop (a.length + 2))) (prod u.sh)]
      omega
    · rw [resultShape, hlen, List.map_append, List.flatten_append, List.append_assoc, List.append_assoc, ravel_append g1.inShape]
      show _ * prod ((u.sh ++ []) ++ xsh.drop (a.length + 2)) + ravel ((u.sh ++ []) ++ xsh.drop (a.length + 2)) (i2 ++ rest) = _
      rw [List.append_nil, prod_append, ravel_append g2, hpl, Nat.mul_comm (prod (xsh.drop (a.length + 2)))]
    · rw [List.append_assoc, ravel_split (a.length + 1) (g1.qin hm), hl]
      show _ * (l * prod (xsh.drop (a.length + 2))) + (q2 * prod (xsh.drop (a.length + 2)) + ravel (xsh.drop (a.length + 2)) rest) = pu.headD 0 * prod (xsh.drop (a.length + 2)) + prod (xsh.drop (a.length + 2)) * l * _ + (_ + _)
      rw [hq, Nat.add_mul, Nat.mul_comm (prod (xsh.drop (a.length + 2))) l, Nat.mul_comm (l * _) (ravel _ _)]
      omega

/-- The spans are right, whether or not the last array of indices is used as a range. -/
theorem spans_spec {w : List Idx} {xsh : List Nat} {ps : List (List Nat)} (maybe : Bool) (hn : 2 ≤ w.length) (hm : Means w xsh ps) (hF : ∀ u ∈ w, u.Full)
    (h0 : 0 < size w) (h32 : size w < 2^32) (hd : prod (xsh.drop w.length) < 2^32) :
    ∃ s, spans ps xsh maybe = some s ∧ Good w ps xsh s := by
  obtain ⟨v, w1, rfl⟩ : ∃ v w1, w = v :: w1 := by
    cases w with
    | nil => simp at hn
    | cons v w1 => exact ⟨v, w1, rfl⟩
  obtain ⟨p, p1, rfl⟩ : ∃ p p1, ps = p :: p1 := by
    cases hm with
    | cons _ _ => exact ⟨_, _, rfl⟩
  have hlen := hm.len
  have hpl : (p :: p1).length = w1.length + 1 := hlen.1
  unfold spans
  simp only
  rw [hpl]
  rw [show (v :: w1).length = w1.length + 1 from rfl] at hd
  rw [Nat.mod_eq_of_lt hd]
  by_cases c : (maybe && decide (3 < ((p :: p1).getLastD []).length) && isRange ((p :: p1).getLastD [])) = true
  · rw [if_pos c]
    simp only [Bool.and_eq_true, decide_eq_true_eq] at c
    have hne : w1 ≠ [] := by intro e; rw [e] at hn; simp at hn
    have hw1 := List.dropLast_concat_getLast hne
    generalize w1.dropLast = a at hw1
    generalize w1.getLast hne = u at hw1
    subst hw1
    obtain ⟨pa, pu, l, he, g1, g2, g3⟩ := Means.split (a := v :: a) hm
    obtain ⟨p', pa', rfl⟩ : ∃ p' pa', pa = p' :: pa' := by
      cases g1 with
      | cons _ _ => exact ⟨_, _, rfl⟩
    rw [List.cons_append] at he
    cases he
    have hlast : (p :: (pa' ++ [pu])).getLastD [] = pu := by
      rw [← List.cons_append, List.getLastD_concat]
    rw [hlast] at c ⊢
    have hdl : (p :: (pa' ++ [pu])).dropLast = p :: pa' := by
      rw [← List.cons_append, List.dropLast_concat]
    rw [hdl]
    have hs : size (v :: (a ++ [u])) = size (v :: a) * prod u.sh := by
      rw [← List.cons_append, size_append, size_cons u []]
      show _ = _; rw [show size [] = 1 from rfl, Nat.mul_one]
    rw [hs] at h0 h32
    have hu0 : 0 < prod u.sh := Nat.pos_of_mul_pos_left h0
    have hle : size (v :: a) ≤ size (v :: a) * prod u.sh := Nat.le_mul_of_pos_right _ hu0
    have ha0 : 0 < size (v :: a) := Nat.pos_of_mul_pos_right h0
    obtain ⟨s, k1, k2, k3, k4⟩ := prefix_spec g1 (fun x hx => hF x (by
      rw [← List.cons_append]; exact List.mem_append_left _ hx)) ha0 (by omega)
    rw [show (p :: pa').drop 1 = pa' from rfl, show (p :: (pa' ++ [pu])).headD [] = p from rfl, k1]
    refine ⟨_, rfl, ?_⟩
    have hal : (a ++ [u]).length + 1 = a.length + 2 := by simp
    have hlx : xsh.getD (a.length + 2 - 1) 0 = l := by
      have e := congrArg (fun z => z[0]?) g3
      simp only [List.getElem?_drop, List.getElem?_cons_zero] at e
      rw [List.getD_eq_getElem?_getD, show a.length + 2 - 1 = (v :: a).length + 0 from rfl, e]
      rfl
    rw [hal, hlx]
    exact range_good g1 g2 (hF u (by simp)) g3 c.2 (by intro e; rw [e] at c; simp at c) k2 k3 k4
  · rw [if_neg c]
    obtain ⟨s, k1, k2, k3, k4⟩ := prefix_spec hm hF h0 h32
    rw [show (p :: p1).drop 1 = p1 from rfl, show (p :: p1).headD [] = p from rfl, k1]
    exact ⟨_, rfl, plain_good hm k2 k3 k4⟩

theorem span_gt {ps : List (List Nat)} {xsh : List Nat} {maybe : Bool} {s : Spans} (h : spans ps xsh maybe = some s) (h1 : 1 < prod (xsh.drop ps.length)) (h2 : prod (xsh.drop ps.length) < 2^32) : 1 < s.span := by
  unfold spans at h
  simp only at h
  rw [Nat.mod_eq_of_lt h2] at h
  by_cases c : (maybe && decide (3 < (ps.getLastD []).length) && isRange (ps.getLastD [])) = true
  · rw [if_pos c] at h
    simp only [Bool.and_eq_true, decide_eq_true_eq] at c
    obtain ⟨_, _, rfl⟩ := Option.map_eq_some_iff.1 h
    have := Nat.mul_le_mul_left (prod (xsh.drop ps.length)) (show 1 ≤ (ps.getLastD []).length by omega)
    show 1 < prod (xsh.drop ps.length) * (ps.getLastD []).length
    omega
  · rw [if_neg c] at h
    obtain ⟨_, _, rfl⟩ := Option.map_eq_some_iff.1 h
    exact h1

theorem count_eq : ∀ {w : List Idx} {xsh : List Nat} {ps : List (List Nat)}, Means w xsh ps → (∀ u ∈ w, u.Full) → ∀ n, ps.foldl (fun p c => p * c.length % 2^64) (n % 2^64) = n * size w % 2^64
  | _, _, _, .nil _, _, n => by rw [List.foldl_nil]; show _ = n * 1 % _; rw [Nat.mul_one]
  | _, _, _, .cons h hs, hF, n => by
    rw [List.foldl_cons, positions_length h, (hF _ (by simp)).1, Nat.mod_mul_mod, count_eq hs (fun u hu => hF u (List.mem_cons_of_mem _ hu)), size_cons, Nat.mul_assoc]

theorem rank_eq (w : List Idx) : ∀ n, (w.map fun c => c.sh.length).foldl (· + ·) n = n + (w.map Idx.sh).flatten.length := by
  induction w with
  | nil => intro n; rfl
  | cons v w ih => intro n; rw [List.map_cons, List.foldl_cons, ih, List.map_cons, List.flatten_cons, List.length_append]; omega

/-- The shape that is given is the right one, also where it isn't stored. -/
theorem shape_eq (rsh : List Nat) (n : Nat) (h : n = prod rsh) : (if rsh.length ≥ 2 then rsh else if rsh.length = 1 then [n] else []) = rsh := by
  match rsh with
  | [] => rfl
  | [k] => subst h; show [k * 1] = _; rw [Nat.mul_one]
  | a :: b :: c => rw [if_pos (by simp)]

end Verif.Axes
