import Verif.CombRef.Lemmas
namespace Verif.CombRef
open Verif.EachRef (V Hand one)

variable (res : Nat → V) (fn : V → Bool) (held : Hand) (f g : V) (w : Option V) (x : V) (cs : List Call)

theorem neg_ok {res : Nat → V} {fn : V → Bool} (undo fi f : V) (w : Option V) (x : V) (n : Nat) (b : Hand) (s : T)
    (h : ∀ j, s.hand j = b j) :
    ∃ s', negPart res fn undo fi f w n x s = some ((times res fn fi w n x s.calls).1, s') ∧
      (∀ j, s'.hand j = b j + ones (times res fn fi w n x s.calls).1 j) ∧
      s'.calls = (times res fn fi w n x s.calls).2 := by
  unfold negPart
  by_cases hn : n = 0
  · subst hn
    rw [if_pos rfl]
    exact ⟨s, rfl, fun j => by rw [h j]; rfl, rfl⟩
  · rw [if_neg hn]
    obtain ⟨s1, a1, a2, a3⟩ := build_ok (s := ((s.inc x).inc undo).inc f) (l := [undo, f]) (new := fi)
      (fun j => b j + one x j) (fun j => by rw [inc_hand, inc_hand, inc_hand, h j]; simp only [ones]; omega)
    obtain ⟨y, s2, b1, b2, b3⟩ := keepLoop_ok (res := res) (fn := fn) (f := fi) (w := w) n (fun j => b j + one fi j)
      (by rw [one_self]; omega) x s1 (fun j => by rw [a2 j]; omega)
    have hc : s1.calls = s.calls := a3
    rw [hc] at b1 b2 b3
    obtain ⟨s3, c1, c2, c3⟩ := give_ok (s := s2) (v := y) _ b2
    obtain ⟨s4, d1, d2, d3⟩ := give_ok (s := s3) (v := fi) (fun j => b j + ones (times res fn fi w n x s.calls).1 j)
      (fun j => by rw [c2 j]; omega)
    refine ⟨s4, ?_, d2, by rw [d3, c3, b3]⟩
    simp only [a1, b1, c1, d1, Option.bind_eq_bind, Option.bind_some]

theorem negs_head (l : List V) (r : List V) (x : V) (h : l ≠ []) : (l.reverse ++ r).getD 0 0 = l.getLast?.getD x := by
  rw [List.getD_eq_getElem?_getD, List.getElem?_append_left (by simp [List.length_pos_iff.mpr h]), ← List.head?_eq_getElem?,
    List.head?_reverse]
  cases hl : l.getLast? with
  | none => exact absurd (List.getLast?_eq_none_iff.mp hl) h
  | some v => rfl

/-- The array of results. -/
def allOf (res : Nat → V) (fn : V → Bool) (fi f : V) (w : Option V) (l : List Int) (x : V) (cs : List Call) : List V :=
  (times res fn fi w (top (l.map fun i => -i)) x cs).1.reverse ++
    x :: (times res fn f w (top l) x (times res fn fi w (top (l.map fun i => -i)) x cs).2).1

theorem all_ok {res : Nat → V} {fn : V → Bool} (undo fi f : V) (w : Option V) (l : List Int) (x : V) (b : Hand) (s1 : T)
    (hf : 1 ≤ b f) (h : ∀ j, s1.hand j = b j + one x j) :
    ∃ s6, allResults res fn undo fi f w l x s1 = some (allOf res fn fi f w l x s1.calls,
        l.map (fun i => (allOf res fn fi f w l x s1.calls).getD ((top (l.map fun i => -i) : Nat) + i : Int).toNat 0), s6) ∧
      (∀ j, s6.hand j = b j + ones (allOf res fn fi f w l x s1.calls) j + ones (l.map (fun i =>
        (allOf res fn fi f w l x s1.calls).getD ((top (l.map fun i => -i) : Nat) + i : Int).toNat 0)) j) ∧
      s6.calls = (times res fn f w (top l) x (times res fn fi w (top (l.map fun i => -i)) x s1.calls).2).2 := by
  obtain ⟨s3, b1, b2, b3⟩ := neg_ok (res := res) (fn := fn) undo fi f w x (top (l.map fun i => -i))
    (fun j => b j + one x j + one x j) (s1.inc x) (fun j => by rw [inc_hand, h j])
  rw [inc_calls] at b1 b2 b3
  unfold allOf allResults
  obtain ⟨neg, hneg⟩ : ∃ p, times res fn fi w (top (l.map fun i => -i)) x s1.calls = p := ⟨_, rfl⟩
  have hln : neg.1.length = top (l.map fun i => -i) := by rw [← hneg, times_length]
  rw [hneg] at b1 b2 b3 ⊢
  obtain ⟨y, s4, d1, d2, d3⟩ := keepLoop_ok (res := res) (fn := fn) (f := f) (w := w) (top l)
    (fun j => b j + one x j + ones neg.1 j) (by omega) x s3 (fun j => by rw [b2 j]; omega)
  rw [b3] at d1 d2 d3
  obtain ⟨pos, hpos⟩ : ∃ p, times res fn f w (top l) x neg.2 = p := ⟨_, rfl⟩
  have hlp : pos.1.length = top l := by rw [← hpos, times_length]
  rw [hpos] at d1 d2 d3 ⊢
  obtain ⟨s5, e1, e2, e3⟩ := give_ok (s := s4) (v := y) _ d2
  obtain ⟨s6, f1, f2, f3⟩ := picks_ok (neg.1.reverse ++ x :: pos.1) (top (l.map fun i => -i)) l s5
    (by
      intro i hi
      have h1 := le_top l i hi
      have h2 := le_top (l.map fun i => -i) (-i) (List.mem_map.mpr ⟨i, hi, rfl⟩)
      simp only [List.length_append, List.length_reverse, List.length_cons, hln, hlp]
      omega)
    (by
      intro v hv
      have := ones_pos _ v hv
      rw [ones_append, ones_reverse] at this
      simp only [ones] at this
      rw [e2 v]
      omega)
  refine ⟨s6, ?_, ?_, ?_⟩
  · simp only [b1, d1, e1, f1, Option.bind_eq_bind, Option.bind_some]
  · intro j
    rw [f2 j, e2 j, ones_append, ones_reverse]
    simp only [ones]
    omega
  · rw [f3, e3, d3]

theorem getD_all (neg pos : List V) (x : V) (i : Int) (hn : -i ≤ neg.length) :
    (neg.reverse ++ x :: pos).getD ((neg.length : Nat) + i : Int).toNat 0 = resultAt neg pos x i := by
  cases i with
  | ofNat k =>
    have : ((neg.length : Int) + Int.ofNat k).toNat = neg.length + k := by rw [Int.ofNat_eq_natCast]; omega
    rw [this, List.getD_eq_getElem?_getD, List.getElem?_append_right (by rw [List.length_reverse]; omega),
      List.length_reverse, Nat.add_sub_cancel_left]
    cases k with
    | zero => rfl
    | succ k => simp only [resultAt, List.getElem?_cons_succ, List.getD_eq_getElem?_getD]
  | negSucc k =>
    have h1 : k < neg.length := by omega
    have : ((neg.length : Int) + Int.negSucc k).toNat = neg.length - 1 - k := by omega
    rw [this, List.getD_eq_getElem?_getD, List.getElem?_append_left (by rw [List.length_reverse]; omega),
      List.getElem?_reverse (by omega)]
    have : neg.length - 1 - (neg.length - 1 - k) = k := by omega
    rw [this]
    simp only [resultAt, List.getD_eq_getElem?_getD]

theorem finish_ok {gr : V} {all : List V} {w : Option V} {r : V} {s : T} (held : Hand)
    (h : ∀ j, s.hand j = held j + oneO w j + one gr j + ones all j + one r j) :
    ∃ s', finish gr all w r s = some (r, s') ∧ (∀ j, s'.hand j = held j + one r j) ∧ s'.calls = s.calls := by
  obtain ⟨t1, b1, b2, b3⟩ := give_ok (s := s) (v := gr) (fun j => held j + oneO w j + ones all j + one r j)
    (fun j => by rw [h j]; omega)
  obtain ⟨t2, d1, d2, d3⟩ := giveAll_ok all (s := t1) (fun j => held j + oneO w j + one r j)
    (fun j => by rw [b2 j]; omega)
  obtain ⟨t3, e1, e2, e3⟩ := giveO_ok (s := t2) (w := w) (fun j => held j + one r j) (fun j => by rw [d2 j]; omega)
  exact ⟨t3, by simp only [finish, b1, d1, e1, Option.bind_eq_bind, Option.bind_some], e2, by rw [e3, d3, b3]⟩

/-- `⍟`. -/
theorem repeat_ok (cnt : V → Counts) (undo fi : V) (new : List V → V) (hf : 1 ≤ held f) (hg : 1 ≤ held g) :
    Ends held (repeatC res fn cnt undo fi new f g w x (start held w x cs)) (repeatSpec res fn cnt fi new f g w x cs) := by
  obtain ⟨s1, a1, a2, a3⟩ := app_ok' (res := res) (fn := fn) (holder := g) (f := g) (w := w) (x := x)
    (s := ((start held w x cs).incO w).inc x) (start held w x cs).hand (fun j => by rw [inc_hand, incO_hand])
    (by simp only [start]; omega)
  have hc : (((start held w x cs).incO w).inc x).calls = cs := by rw [inc_calls, incO_calls]; rfl
  rw [hc] at a1 a2 a3
  unfold repeatC repeatSpec
  rw [a1]
  simp only [Option.bind_eq_bind, Option.bind_some]
  obtain ⟨gr, hgr⟩ : ∃ p, (apply res fn g w x cs).1 = p := ⟨_, rfl⟩
  rw [hgr] at a2 ⊢
  rw [← a3]
  have h1 : ∀ j, s1.hand j = held j + oneO w j + one gr j + one x j := fun j => by rw [a2 j]; simp only [start]; omega
  cases hcnt : cnt gr with
  | num i =>
    cases i with
    | ofNat n =>
      simp only
      obtain ⟨s2, b1, b2, b3⟩ := give_ok (s := s1) (v := gr) _ a2
      obtain ⟨r, s3, d1, d2, d3, d4⟩ := plainLoop_ok (res := res) (fn := fn) (f := f) (w := w)
        (fun j => held j + oneO w j) (by omega) n x s2 (fun j => by rw [b2 j]; rfl)
      rw [b3] at d3 d4
      obtain ⟨s4, e1, e2, e3⟩ := giveO_ok (s := s3) (w := w) (fun j => held j + one r j) (fun j => by rw [d2 j]; omega)
      refine ⟨s4, ?_, ?_, by rw [e3, d4]⟩
      · simp only [b1, d1, e1, Option.bind_some, d3]
      · intro j
        rw [e2 j, d3]
    | negSucc m =>
      simp only
      obtain ⟨s6, b1, b2, b3⟩ := all_ok (res := res) (fn := fn) undo fi f w [.negSucc m] x
        (fun j => held j + oneO w j + one gr j) s1 (by omega) h1
      have t1 : top ([Int.negSucc m].map fun i => -i) = m + 1 := by simp [top, Int.neg_negSucc]
      have t2 : top [Int.negSucc m] = 0 := rfl
      have hidx : (((m + 1 : Nat) : Int) + Int.negSucc m).toNat = 0 := by omega
      have hv : (allOf res fn fi f w [.negSucc m] x s1.calls).getD 0 0 =
          (times res fn fi w (m + 1) x s1.calls).1.getLast?.getD x := by
        unfold allOf
        rw [t1]
        apply negs_head
        intro h
        have := times_length res fn fi w (m + 1) x s1.calls
        rw [h] at this
        exact nomatch this
      have hp : [Int.negSucc m].map (fun i => (allOf res fn fi f w [.negSucc m] x s1.calls).getD
          ((top ([Int.negSucc m].map fun i => -i) : Nat) + i : Int).toNat 0) =
          [(times res fn fi w (m + 1) x s1.calls).1.getLast?.getD x] := by
        rw [List.map_cons, List.map_nil, t1, hidx, hv]
      rw [hp] at b1 b2
      obtain ⟨s7, c1, c2, c3⟩ := finish_ok (s := s6) (gr := gr) (w := w) (all := allOf res fn fi f w [.negSucc m] x s1.calls)
        (r := (times res fn fi w (m + 1) x s1.calls).1.getLast?.getD x) held (fun j => by rw [b2 j]; simp only [ones]; omega)
      refine ⟨s7, ?_, c2, ?_⟩
      · simp only [b1, Option.bind_some, c1]
      · rw [c3, b3, t1, t2]
        rfl
  | arr l =>
    simp only
    obtain ⟨s6, b1, b2, b3⟩ := all_ok (res := res) (fn := fn) undo fi f w l x
      (fun j => held j + oneO w j + one gr j) s1 (by omega) h1
    have hp : l.map (fun i => (allOf res fn fi f w l x s1.calls).getD ((top (l.map fun i => -i) : Nat) + i : Int).toNat 0) =
        l.map (resultAt (times res fn fi w (top (l.map fun i => -i)) x s1.calls).1
          (times res fn f w (top l) x (times res fn fi w (top (l.map fun i => -i)) x s1.calls).2).1 x) := by
      apply List.map_congr_left
      intro i hi
      have hl := times_length res fn fi w (top (l.map fun i => -i)) x s1.calls
      have h2 := le_top (l.map fun i => -i) (-i) (List.mem_map.mpr ⟨i, hi, rfl⟩)
      have := getD_all (times res fn fi w (top (l.map fun i => -i)) x s1.calls).1
        (times res fn f w (top l) x (times res fn fi w (top (l.map fun i => -i)) x s1.calls).2).1 x i (by rw [hl]; omega)
      rw [hl] at this
      exact this
    rw [hp] at b1 b2
    obtain ⟨p, hpp⟩ : ∃ p, l.map (resultAt (times res fn fi w (top (l.map fun i => -i)) x s1.calls).1
          (times res fn f w (top l) x (times res fn fi w (top (l.map fun i => -i)) x s1.calls).2).1 x) = p := ⟨_, rfl⟩
    rw [hpp] at b1 b2 ⊢
    obtain ⟨s7, c1, c2, c3⟩ := build_ok (s := s6) (new := new p) _ b2
    obtain ⟨s8, d1, d2, d3⟩ := finish_ok (s := s7) (gr := gr) (w := w) (all := allOf res fn fi f w l x s1.calls)
      (r := new p) held c2
    refine ⟨s8, ?_, d2, ?_⟩
    · simp only [b1, c1, Option.bind_some, d1]
    · rw [d3, c3, b3]

end Verif.CombRef
