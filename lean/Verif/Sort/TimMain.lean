import Verif.Sort.TimLemmas
/-! # Lemmas about the stack of runs -/
namespace Verif.Sort
variable {α : Type} {c : α → α → Int}

/-- The runs, the last one first. -/
def cat : List (List α) → List α
  | [] => []
  | L :: Ls => cat Ls ++ L

/-- The stack describes these sorted runs. -/
def Stk (c : α → α → Int) : List Run → List (List α) → Prop
  | [], [] => True
  | r :: st, L :: Ls => r.start = (cat Ls).length ∧ r.length = L.length ∧ L ≠ [] ∧ Sorted c L ∧ Stk c st Ls
  | _, _ => False

/-- Lengths grow fast enough towards the bottom. -/
def Inv : List Run → Prop
  | x :: y :: r => x.length < y.length ∧ (∀ z ∈ r.head?, x.length + y.length < z.length) ∧ Inv (y :: r)
  | _ => True

theorem Inv.tail {r : Run} {st : List Run} (h : Inv (r :: st)) : Inv st := by
  cases st with
  | nil => trivial
  | cons y st => exact h.2.2

theorem Inv.tail' {st : List Run} (h : Inv st) : Inv st.tail := by
  cases st with
  | nil => trivial
  | cons y st => exact h.tail

theorem Stk.length : ∀ {st : List Run} {Ls : List (List α)}, Stk c st Ls → st.length = Ls.length
  | [], [], _ => rfl
  | r :: st, L :: Ls, h => by rw [List.length_cons, List.length_cons, Stk.length h.2.2.2.2]
  | [], _ :: _, h => h.elim
  | _ :: _, [], h => h.elim

theorem mergeRuns_spec (hc : Order c) {U L : Run} {st : List Run} {Us Ll : List α} {Ls : List (List α)} (h : Stk c (U :: L :: st) (Us :: Ll :: Ls)) (R : List α) :
    ∃ M, mergeRuns c (cat (Us :: Ll :: Ls) ++ R) U L = some (cat (M :: Ls) ++ R) ∧ M.length = Ll.length + Us.length ∧
      SameClasses c (Ll ++ Us) M ∧ Stk c (⟨L.start, L.length + U.length⟩ :: st) (M :: Ls) := by
  obtain ⟨h1, h2, h3, h4, g1, g2, g3, g4, g5⟩ := h
  obtain ⟨M, m1, m2, m3, m4⟩ := merge_spec hc (P := cat Ls) (X := Ll) (Y := Us) (Q := R) g4 h4
  refine ⟨M, ?_, m3, m4, g1, ?_, ?_, m2, g5⟩
  · unfold mergeRuns
    rw [g1, g2, h2, show cat (Us :: Ll :: Ls) ++ R = cat Ls ++ (Ll ++ (Us ++ R)) by simp [cat], m1]
    simp [cat]
  · show L.length + U.length = _
    omega
  · intro h; rw [h, List.length_nil] at m3
    exact h3 (List.length_eq_zero_iff.1 (by omega))

theorem cat_length_cons (L : List α) (Ls : List (List α)) : (cat (L :: Ls)).length = (cat Ls).length + L.length := by rw [cat, List.length_append]

theorem collapse_step (size n : Nat) (d : List α) (D C B : Run) (rest : List Run) : collapse c size (n+1) d (D :: C :: B :: rest) =
    if (!(decide (B.length ≤ C.length + D.length) || abc rest B C) && !decide (C.length ≤ D.length)) = true then some (d, D :: C :: B :: rest)
    else if ((decide (B.length ≤ C.length + D.length) || abc rest B C) && !decide (C.length ≤ D.length)) = true then
        (mergeRuns c d C B).bind fun d => collapse c size n d (D :: ⟨B.start, B.length + C.length⟩ :: rest)
    else (mergeRuns c d D C).bind fun d => collapse c size n d (⟨C.start, C.length + D.length⟩ :: B :: rest) := rfl

/-- Changing one run for another with the same length keeps what is above. -/
theorem collapse_spec (hc : Order c) (size : Nat) (R : List α) : ∀ (n : Nat) (st : List Run) (Ls : List (List α)),
    st.length ≤ n → 1 ≤ n → Stk c st Ls → Inv (st.drop 2) →
    ∃ st' Ls', collapse c size n (cat Ls ++ R) st = some (cat Ls' ++ R, st') ∧ Stk c st' Ls' ∧ Inv st' ∧
      (cat Ls').length = (cat Ls).length ∧ SameClasses c (cat Ls) (cat Ls') ∧ (check st = false → st'.length < st.length) ∧ st'.length ≤ st.length
  | 0, _, _, _, h, _, _ => absurd h (by omega)
  | n+1, st, Ls, hn, _, hS, hI => by
    match st, Ls, hn, hS, hI with
    | [], [], _, hS, hI => exact ⟨[], [], rfl, hS, trivial, rfl, SameClasses.refl _, by simp [check], Nat.le_refl _⟩
    | [A], [La], _, hS, hI => exact ⟨[A], [La], rfl, hS, trivial, rfl, SameClasses.refl _, by simp [check], Nat.le_refl _⟩
    | [B, A], [Lb, La], _, hS, hI =>
      obtain ⟨M, m1, m2, m3, m4⟩ := mergeRuns_spec hc hS R
      have cls : SameClasses c (cat [Lb, La]) (cat [M]) := by
        show SameClasses c (([] ++ La) ++ Lb) ([] ++ M)
        simpa using m3
      have ln : (cat [M]).length = (cat [Lb, La]).length := by simp [cat, m2]
      rw [collapse]
      by_cases q : A.length + B.length = size
      · rw [if_pos q, m1]
        exact ⟨_, [M], rfl, m4, trivial, ln, cls, fun _ => by simp, by simp⟩
      · rw [if_neg q]
        by_cases q2 : A.length ≤ B.length
        · rw [if_pos q2, m1]
          exact ⟨_, [M], rfl, m4, trivial, ln, cls, fun _ => by simp, by simp⟩
        · rw [if_neg q2]
          refine ⟨[B, A], [Lb, La], rfl, hS, ⟨by omega, by simp, trivial⟩, rfl, SameClasses.refl _, ?_, Nat.le_refl _⟩
          intro h
          simp [check] at h
          omega
    | D :: C :: B :: rest, Ld :: Lc :: Lb :: Lr, hn, hS, hI =>
      rw [collapse_step]
      generalize hABC : abc rest B C = ABC
      by_cases q1 : (!(decide (B.length ≤ C.length + D.length) || ABC) && !decide (C.length ≤ D.length)) = true
      · rw [if_pos q1]
        simp at q1
        obtain ⟨⟨q1, q2⟩, q3⟩ := q1
        refine ⟨_, Ld :: Lc :: Lb :: Lr, rfl, hS, ⟨by omega, ?_, ?_, ?_, hI⟩, rfl, SameClasses.refl _, ?_, Nat.le_refl _⟩
        · intro z hz; simp at hz; rw [← hz]; omega
        · omega
        · intro z hz
          cases rest with
          | nil => simp at hz
          | cons A rest =>
            simp at hz
            rw [q2] at hABC
            simp [abc] at hABC
            rw [← hz]; omega
        · intro h
          simp [check] at h
          omega
      · rw [if_neg q1]
        by_cases q2 : ((decide (B.length ≤ C.length + D.length) || ABC) && !decide (C.length ≤ D.length)) = true
        · rw [if_pos q2]
          obtain ⟨h1, h2, h3, h4, h5⟩ := hS
          obtain ⟨M, m1, m2, m3, m4⟩ := mergeRuns_spec hc h5 (Ld ++ R)
          have e1 : cat (Ld :: Lc :: Lb :: Lr) ++ R = cat (Lc :: Lb :: Lr) ++ (Ld ++ R) := by simp [cat]
          have e2 : cat (M :: Lr) ++ (Ld ++ R) = cat (Ld :: M :: Lr) ++ R := by simp [cat]
          have ln : (cat (M :: Lr)).length = (cat (Lc :: Lb :: Lr)).length := by
            rw [cat_length_cons, cat_length_cons, cat_length_cons, m2]; omega
          rw [e1, m1, Option.bind_some, e2]
          obtain ⟨st', Ls', g1, g2, g3, g4, g5, _, g6⟩ := collapse_spec hc size R n (D :: ⟨B.start, B.length + C.length⟩ :: rest) (Ld :: M :: Lr)
            (by simp at hn ⊢; omega) (by simp at hn; omega) ⟨by rw [h1, ln], h2, h3, h4, m4⟩ (by simpa using hI.tail)
          refine ⟨st', Ls', g1, g2, g3, ?_, ?_, ?_, ?_⟩
          · rw [g4]; simp only [cat_length_cons]; omega
          · refine SameClasses.trans ?_ g5
            show SameClasses c (((cat Lr ++ Lb) ++ Lc) ++ Ld) ((cat Lr ++ M) ++ Ld)
            rw [List.append_assoc (cat Lr)]
            exact SameClasses.mid _ _ m3
          · intro _; simp at g6 ⊢; omega
          · simp at g6 ⊢; omega
        · rw [if_neg q2]
          obtain ⟨M, m1, m2, m3, m4⟩ := mergeRuns_spec hc hS R
          rw [m1, Option.bind_some]
          obtain ⟨st', Ls', g1, g2, g3, g4, g5, _, g6⟩ := collapse_spec hc size R n (⟨C.start, C.length + D.length⟩ :: B :: rest) (M :: Lb :: Lr)
            (by simp at hn ⊢; omega) (by simp at hn; omega) m4 (by simpa using hI.tail)
          refine ⟨st', Ls', g1, g2, g3, ?_, ?_, ?_, ?_⟩
          · rw [g4]; simp only [cat_length_cons]; omega
          · refine SameClasses.trans ?_ g5
            show SameClasses c (((cat (Lb :: Lr)) ++ Lc) ++ Ld) (cat (Lb :: Lr) ++ M)
            rw [List.append_assoc]
            exact SameClasses.append (SameClasses.refl _) m3
          · intro _; simp at g6 ⊢; omega
          · simp at g6 ⊢; omega
    | [], _ :: _, _, hS, _ => exact hS.elim
    | _ :: _, [], _, hS, _ => exact hS.elim
    | [_], _ :: _ :: _, _, hS, _ => exact hS.2.2.2.2.elim
    | _ :: _ :: _, [_], _, hS, _ => exact hS.2.2.2.2.elim
    | [_, _], _ :: _ :: _ :: _, _, hS, _ => exact hS.2.2.2.2.2.2.2.2.elim
    | _ :: _ :: _ :: _, [_, _], _, hS, _ => exact hS.2.2.2.2.2.2.2.2.elim

theorem finish_one (L : List α) (A : Run) : finish c (cat [L]) [A] = some L := by
  rw [finish]
  · rfl
  · intro _ _ _ h; cases h

theorem finish_spec (hc : Order c) : ∀ (st : List Run) (Ls : List (List α)), st ≠ [] → Stk c st Ls →
    ∃ M, finish c (cat Ls) st = some M ∧ Sorted c M ∧ SameClasses c (cat Ls) M
  | [], _, h, _ => absurd rfl h
  | [A], [L], _, hS => ⟨L, finish_one L A, hS.2.2.2.1, by show SameClasses c ([] ++ L) L; exact SameClasses.refl _⟩
  | B :: A :: st, Lb :: La :: Ls, _, hS => by
    obtain ⟨M, m1, m2, m3, m4⟩ := mergeRuns_spec hc hS []
    obtain ⟨N, g1, g2, g3⟩ := finish_spec hc (⟨A.start, A.length + B.length⟩ :: st) (M :: Ls) (by simp) m4
    rw [List.append_nil, List.append_nil] at m1
    refine ⟨N, ?_, g2, ?_⟩
    · rw [finish, m1, Option.bind_some]; exact g1
    · refine SameClasses.trans ?_ g3
      show SameClasses c ((cat Ls ++ La) ++ Lb) (cat Ls ++ M)
      rw [List.append_assoc]
      exact SameClasses.append (SameClasses.refl _) m3
  | _ :: _, [], _, h => h.elim
  | [_], _ :: _ :: _, _, h => h.2.2.2.2.elim
  | _ :: _ :: _, [_], _, h => h.2.2.2.2.elim
termination_by st => st.length

/-- The state between pushes. -/
structure State (c : α → α → Int) (d0 d : List α) (st : List Run) (Ls : List (List α)) (R : List α) : Prop where
  arr : d = cat Ls ++ R
  stk : Stk c st Ls
  rest : R ≠ []
  len : d.length = d0.length
  cls : SameClasses c d0 d

theorem pushNext_spec (hc : Order c) (minrun : Nat) {d0 d : List α} {st : List Run} {Ls : List (List α)} {R : List α} (h : State c d0 d st Ls R) (hst : st.length < 128) :
    (∃ M, pushNext c minrun d st (cat Ls).length = some (.inl M) ∧ IsSort c d0 M) ∨
    (∃ d' r L R', pushNext c minrun d st (cat Ls).length = some (.inr (d', r :: st, (cat (L :: Ls)).length)) ∧ State c d0 d' (r :: st) (L :: Ls) R') := by
  obtain ⟨A, B, A', hR, hA, h1, h2, h3, h4⟩ := countRun_spec hc (P := cat Ls) h.rest
  have hd := h.arr
  have hAl : 1 ≤ A.length := Nat.pos_of_ne_zero fun h => hA (List.length_eq_zero_iff.1 h)
  unfold pushNext
  rw [hd, h1]
  simp only []
  -- the array after the insertion
  have key : ∀ run, run ≤ (cat Ls ++ R).length - (cat Ls).length → ∃ L B', (if run > A'.length then insertRest c (cat Ls).length (run - A'.length) A'.length (cat Ls ++ (A' ++ B)) else some (cat Ls ++ (A' ++ B))) =
      some (cat Ls ++ (L ++ B')) ∧ (if run > A'.length then run else A'.length) = L.length ∧ Sorted c L ∧ L ≠ [] ∧ SameClasses c R (L ++ B') ∧ (L ++ B').length = R.length := by
    intro run hrun
    have hRl : R.length = A'.length + B.length := by rw [hR, List.length_append, h2]
    have hcls : SameClasses c R (A' ++ B) := by rw [hR]; exact SameClasses.append h4 (SameClasses.refl _)
    by_cases q : run > A'.length
    · rw [if_pos q, if_pos q]
      rw [List.length_append, Nat.add_sub_cancel_left] at hrun
      have hB : (B.take (run - A'.length)).length = run - A'.length := by rw [List.length_take]; omega
      obtain ⟨S', g1, g2, g3, g4⟩ := insertRest_spec hc (P := cat Ls) (Q := B.drop (run - A'.length)) (run - A'.length) A' (B.take (run - A'.length)) hB h3 (by omega)
      rw [List.take_append_drop] at g1
      refine ⟨S', B.drop (run - A'.length), g1, by omega, g2, ?_, ?_, ?_⟩
      · intro e; rw [e, List.length_nil] at g3; omega
      · refine SameClasses.trans hcls ?_
        have := SameClasses.append g4 (SameClasses.refl (c := c) (B.drop (run - A'.length)))
        rw [List.append_assoc, List.take_append_drop] at this
        exact this
      · rw [List.length_append, List.length_drop]; omega
    · rw [if_neg q, if_neg q]
      refine ⟨A', B, rfl, rfl, h3, ?_, hcls, by rw [List.length_append]; omega⟩
      intro e; rw [e, List.length_nil] at h2; omega
  obtain ⟨L, B', k1, k2, k3, k4, k5, k6⟩ := key (if minrun > (cat Ls ++ R).length - (cat Ls).length then (cat Ls ++ R).length - (cat Ls).length else minrun) (by split <;> omega)
  rw [k1]
  simp only []
  rw [k2, if_neg (by omega)]
  have hS : Stk c (⟨(cat Ls).length, L.length⟩ :: st) (L :: Ls) := ⟨rfl, rfl, k4, k3, h.stk⟩
  have hcls : SameClasses c d0 (cat Ls ++ (L ++ B')) := by
    refine SameClasses.trans h.cls ?_
    rw [hd]
    exact SameClasses.append (SameClasses.refl _) k5
  rw [List.length_append] at k6
  by_cases q : (cat Ls).length + L.length = (cat Ls ++ R).length
  · rw [if_pos q]
    left
    rw [List.length_append] at q
    have hB : B' = [] := List.length_eq_zero_iff.1 (by omega)
    subst hB
    rw [List.append_nil] at hcls ⊢
    obtain ⟨M, m1, m2, m3⟩ := finish_spec hc _ _ (by simp) hS
    refine ⟨M, ?_, m2, SameClasses.trans hcls m3⟩
    rw [show cat Ls ++ L = cat (L :: Ls) from rfl, m1]; rfl
  · rw [if_neg q]
    right
    rw [List.length_append] at q
    refine ⟨cat Ls ++ (L ++ B'), ⟨(cat Ls).length, L.length⟩, L, B', ?_, ?_, hS, ?_, ?_, hcls⟩
    · rw [cat_length_cons]
    · rw [cat, List.append_assoc]
    · intro e; subst e; rw [List.length_nil] at k6; omega
    · rw [← h.len, hd, List.length_append, List.length_append, List.length_append]; omega

/-- Fast growth bounds the depth of the stack. -/
theorem inv_growth : ∀ (r : List Run) (k : Nat) (x y : Run), Inv (x :: y :: r) → 2^k ≤ x.length → 2^k ≤ y.length →
    ∃ l ∈ x :: y :: r, 2 ^ (k + r.length / 2) ≤ l.length
  | [], k, x, y, _, _, h => ⟨y, by simp, by simpa using h⟩
  | [z], k, x, y, _, _, h => ⟨y, by simp, by simpa using h⟩
  | z :: w :: r, k, x, y, hI, hx, hy => by
    have h1 := hI.2.1 z (by simp)
    have h2 := hI.2.2.2.1 w (by simp)
    have e : 2^(k+1) = 2^k + 2^k := by rw [Nat.pow_succ]; omega
    obtain ⟨l, h3, h4⟩ := inv_growth r (k+1) z w hI.2.2.2.2 (by omega) (by omega)
    refine ⟨l, List.mem_cons_of_mem _ (List.mem_cons_of_mem _ h3), ?_⟩
    rw [show k + (z :: w :: r).length / 2 = k + 1 + r.length / 2 by simp; omega]
    exact h4

theorem Stk.pos : ∀ {st : List Run} {Ls : List (List α)}, Stk c st Ls → ∀ r ∈ st, 1 ≤ r.length ∧ r.length ≤ (cat Ls).length
  | [], [], _, r, h => nomatch h
  | x :: st, L :: Ls, hS, r, h => by
    rw [cat_length_cons]
    rcases List.mem_cons.1 h with e | e
    · rw [e, hS.2.1]
      exact ⟨Nat.pos_of_ne_zero fun g => hS.2.2.1 (List.length_eq_zero_iff.1 g), by omega⟩
    · have := Stk.pos hS.2.2.2.2 r e
      omega
  | [], _ :: _, h, _, _ => h.elim
  | _ :: _, [], h, _, _ => h.elim

theorem stack_bound {st : List Run} {Ls : List (List α)} (hS : Stk c st Ls) (hI : Inv st) (hn : (cat Ls).length < 2^32) : st.length < 128 := by
  match st, hS, hI with
  | [], _, _ => simp
  | [_], _, _ => simp
  | x :: y :: r, hS, hI =>
    have hp := hS.pos
    obtain ⟨l, h1, h2⟩ := inv_growth r 0 x y hI (hp x (by simp)).1 (hp y (by simp)).1
    have h3 := (hp l h1).2
    have h4 : 0 + r.length / 2 < 32 := (Nat.pow_lt_pow_iff_right (by decide : 1 < 2)).1 (by omega : 2 ^ (0 + r.length / 2) < 2^32)
    simp; omega

theorem mainLoop_spec (hc : Order c) (minrun : Nat) {d0 : List α} (hd0 : d0.length < 2^32) : ∀ (n : Nat) (d : List α) (st : List Run) (Ls : List (List α)) (R : List α),
    State c d0 d st Ls R → (Inv st.tail ∨ st.length ≤ 3) → 2 * R.length + st.length ≤ n →
    ∃ M, mainLoop c minrun n d st (cat Ls).length = some M ∧ IsSort c d0 M
  | 0, d, st, Ls, R, h, _, hn => absurd (List.length_eq_zero_iff.1 (by omega)) h.rest
  | n+1, d, st, Ls, R, h, hI, hn => by
    have hlen : (cat Ls).length + R.length = d0.length := by rw [← h.len, h.arr, List.length_append]
    rw [mainLoop]
    by_cases q : check st = true
    · rw [if_pos q]
      have hInv : Inv st := by
        match st, q, hI with
        | [], _, _ => trivial
        | [_], _, _ => trivial
        | [B, A], q, _ =>
          simp [check] at q
          exact ⟨q, by simp, trivial⟩
        | C :: B :: A :: r, q, hI =>
          simp [check] at q
          refine ⟨q.2, by simp; omega, ?_⟩
          rcases hI with hI | hI
          · exact hI
          · have : r = [] := List.length_eq_zero_iff.1 (by simp only [List.length_cons] at hI; omega)
            subst this
            exact ⟨by omega, by simp, trivial⟩
      have hb := stack_bound h.stk hInv (by omega)
      rcases pushNext_spec hc minrun h hb with ⟨M, h1, h2⟩ | ⟨d', r, L, R', h1, h2⟩
      · rw [h1]; exact ⟨M, rfl, h2⟩
      · rw [h1]
        have hlen' : (cat (L :: Ls)).length + R'.length = d0.length := by rw [← h2.len, h2.arr, List.length_append]
        rw [cat_length_cons] at hlen'
        have hL : 1 ≤ L.length := Nat.pos_of_ne_zero fun g => h2.stk.2.2.1 (List.length_eq_zero_iff.1 g)
        exact mainLoop_spec hc minrun hd0 n d' (r :: st) (L :: Ls) R' h2 (.inl hInv) (by rw [List.length_cons]; omega)
    · rw [if_neg q]
      have q' : check st = false := by simpa using q
      have hst : 2 ≤ st.length := by
        match st, q' with
        | [], q => simp [check] at q
        | [_], q => simp [check] at q
        | _ :: _ :: _, _ => simp
      have hI2 : Inv (st.drop 2) := by
        rcases hI with hI | hI
        · match st, hI with
          | [], _ => trivial
          | [_], _ => trivial
          | _ :: _ :: _, hI => exact hI.tail
        · match st, hI with
          | [], _ => trivial
          | [_], _ => trivial
          | [_, _], _ => trivial
          | [_, _, _], _ => trivial
          | _ :: _ :: _ :: _ :: _, h => simp at h
      obtain ⟨st', Ls', g1, g2, g3, g4, g5, g6, g7⟩ := collapse_spec hc d.length R st.length st Ls (Nat.le_refl _) (by omega) h.stk hI2
      rw [← h.arr] at g1
      rw [g1]
      have g6' := g6 q'
      have := mainLoop_spec hc minrun hd0 n (cat Ls' ++ R) st' Ls' R ⟨rfl, g2, h.rest, by rw [List.length_append, g4]; exact hlen, SameClasses.trans h.cls (by rw [h.arr]; exact SameClasses.append g5 (SameClasses.refl _))⟩
        (.inl g3.tail') (by omega)
      rw [g4] at this
      exact this

theorem timSort_spec (hc : Order c) (d0 : List α) (hd0 : d0.length < 2^32) : ∃ M, timSort c d0 = some M ∧ IsSort c d0 M := by
  unfold timSort
  by_cases q1 : d0.length ≤ 1
  · rw [if_pos q1]
    refine ⟨d0, rfl, ?_, SameClasses.refl _⟩
    match d0, q1 with
    | [], _ => exact List.Pairwise.nil
    | [a], _ => simp
    | _ :: _ :: _, h => simp at h
  · rw [if_neg q1]
    by_cases q2 : d0.length < 64
    · rw [if_pos q2]
      cases d0 with
      | nil => simp at q1
      | cons a d0 =>
        obtain ⟨S', g1, g2, _, g4⟩ := insertRest_spec hc (P := []) (Q := []) d0.length [a] d0 rfl (by simp) (by simp)
        refine ⟨S', ?_, g2, g4⟩
        simpa using g1
    · rw [if_neg q2]
      simp only []
      have h0 : State c d0 d0 [] [] d0 := ⟨rfl, trivial, by intro h; rw [h] at q1; simp at q1, rfl, SameClasses.refl _⟩
      rcases pushNext_spec hc (computeMinrun d0.length) h0 (by simp) with ⟨M, h1, h2⟩ | ⟨d1, r1, L1, R1, h1, s1⟩
      · rw [show (0 : Nat) = (cat ([] : List (List α))).length from rfl, h1]; exact ⟨M, rfl, h2⟩
      · rw [show (0 : Nat) = (cat ([] : List (List α))).length from rfl, h1]
        simp only []
        rcases pushNext_spec hc (computeMinrun d0.length) s1 (by simp) with ⟨M, h1, h2⟩ | ⟨d2, r2, L2, R2, h1, s2⟩
        · rw [h1]; exact ⟨M, rfl, h2⟩
        · rw [h1]
          simp only []
          rcases pushNext_spec hc (computeMinrun d0.length) s2 (by simp) with ⟨M, h1, h2⟩ | ⟨d3, r3, L3, R3, h1, s3⟩
          · rw [h1]; exact ⟨M, rfl, h2⟩
          · rw [h1]
            simp only []
            have hl : ∀ {d st Ls L} {R : List α}, State c d0 d st (L :: Ls) R → 1 ≤ L.length := by
              intro d st Ls L R h
              have := h.stk
              cases st with
              | nil => exact this.elim
              | cons r st => exact Nat.pos_of_ne_zero fun g => this.2.2.1 (List.length_eq_zero_iff.1 g)
            have l1 := hl s1
            have l2 := hl s2
            have l3 := hl s3
            have e3 : d3.length = (cat [L3, L2, L1]).length + R3.length := by rw [s3.arr, List.length_append]
            rw [cat_length_cons, cat_length_cons, cat_length_cons] at e3
            exact mainLoop_spec hc _ hd0 (2 * d3.length) d3 _ _ R3 s3 (.inr (by simp)) (by simp; omega)

end Verif.Sort
