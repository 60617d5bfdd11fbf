import Verif.Compare.Model
/-! # Lemmas: comparison as a lexicographic order -/
namespace Verif.Compare

/-- An element, or the end of an axis. -/
inductive Sym where
  | mark
  | el (v : Val)

/-- Elements and ends of axes in order; `P` is the number of elements so far. -/
def keyGo : Nat → List Nat → List Val → List Sym
  | _, [], _ => []
  | P, d :: ds, xs => (xs.take (P * d - P)).map .el ++ .mark :: keyGo (P * d) ds (xs.drop (P * d - P))

def keyOf (sh : List Nat) : List Val → List Sym
  | [] => []
  | x :: xs => .el x :: keyGo 1 sh.reverse xs

def lex (cmp : Val → Val → Int) : List Sym → List Sym → Int
  | [], [] => 0
  | [], _ :: _ => -1
  | _ :: _, [] => 1
  | .mark :: a, .mark :: b => lex cmp a b
  | .mark :: _, .el _ :: _ => -1
  | .el _ :: _, .mark :: _ => 1
  | .el v :: a, .el w :: b => if cmp v w ≠ 0 then cmp v w else lex cmp a b

def atomOrd (cmp : Val → Val → Int) (w : Val) : List Val → Int
  | [] => 1
  | x :: _ => if cmp w x ≤ 0 then -1 else 1

def emptyOrd (s t : List Nat) (n m : Nat) : Int := if icmp n m ≠ 0 then icmp n m else (tails s.reverse t.reverse 1).2

def ord : Nat → Val → Val → Int
  | 0, _, _ => 0
  | n+1, w, x =>
    match w, x with
    | .num f, .num g => floatCompare f g
    | .chr c, .chr d => icmp c d
    | .num _, .chr _ => -1
    | .chr _, .num _ => 1
    | .num f, .arr _ xs => atomOrd (ord n) (.num f) xs
    | .chr c, .arr _ xs => atomOrd (ord n) (.chr c) xs
    | .arr _ ws, .num g => - atomOrd (ord n) (.num g) ws
    | .arr _ ws, .chr d => - atomOrd (ord n) (.chr d) ws
    | .arr s ws, .arr t xs =>
      if ws.length = 0 ∨ xs.length = 0 then emptyOrd s t ws.length xs.length
      else lex (ord n) (keyOf s ws) (keyOf t xs)

/-! ## the program computes `ord` -/

/-- The first difference of two lists, or `r`. -/
def firstDiff (cmp : Val → Val → Int) (r : Int) : List Val → List Val → Int
  | w :: ws, x :: xs => if cmp w x ≠ 0 then cmp w x else firstDiff cmp r ws xs
  | _, _ => r

theorem elements_append {cmp : Val → Val → Option Int} {c : Val → Val → Int} (rc : Int) (m : Nat) (ws' xs' : List Val) :
    ∀ (A B : List Val), A.length = B.length → (∀ a ∈ A, ∀ b ∈ B, cmp a b = some (c a b)) → ∀ r, elements cmp rc m ws' xs' = some r →
    elements cmp rc (A.length + m) (A ++ ws') (B ++ xs') = some (firstDiff c r A B)
  | [], [], _, _, r, h => by
    rw [List.length_nil, Nat.zero_add]; exact h
  | a :: A, b :: B, hl, hc, r, h => by
    rw [List.length_cons, show A.length + 1 + m = A.length + m + 1 by omega, List.cons_append, List.cons_append, elements,
      hc a (by simp) b (by simp), Option.bind_some, firstDiff]
    by_cases d : c a b = 0
    · rw [if_neg (by simpa using d), if_neg (by simpa using d)]
      exact elements_append rc m ws' xs' A B (by simpa using hl) (fun a ha b hb => hc a (by simp [ha]) b (by simp [hb])) r h
    · rw [if_pos d, if_pos d]
  | [], _ :: _, hl, _, _, _ => by simp at hl
  | _ :: _, [], hl, _, _, _ => by simp at hl

theorem lex_append {c : Val → Val → Int} (K1 K2 : List Sym) : ∀ (A B : List Val), A.length = B.length →
    lex c (A.map .el ++ K1) (B.map .el ++ K2) = firstDiff c (lex c K1 K2) A B
  | [], [], _ => rfl
  | a :: A, b :: B, hl => by
    rw [List.map_cons, List.map_cons, List.cons_append, List.cons_append, lex, firstDiff, lex_append K1 K2 A B (by simpa using hl)]
  | [], _ :: _, hl => by simp at hl
  | _ :: _, [], hl => by simp at hl

def prod (ds : List Nat) : Nat := ds.foldr (· * ·) 1

theorem prod_cons (d : Nat) (ds : List Nat) : prod (d :: ds) = d * prod ds := rfl

theorem prod_pos : ∀ {ds : List Nat}, (∀ d ∈ ds, 1 ≤ d) → 1 ≤ prod ds
  | [], _ => Nat.le_refl _
  | d :: ds, h => by
    rw [prod_cons]
    exact Nat.mul_pos (h d (by simp)) (prod_pos fun e he => h e (by simp [he]))

theorem tails_spec {cmp : Val → Val → Option Int} {c : Val → Val → Int} : ∀ (ds es : List Nat) (P : Nat) (ws xs : List Val), 1 ≤ P →
    (∀ d ∈ ds, 1 ≤ d) → (∀ d ∈ es, 1 ≤ d) → ws.length + P = P * prod ds → xs.length + P = P * prod es → P * prod ds < 2^32 →
    (∀ a ∈ ws, ∀ b ∈ xs, cmp a b = some (c a b)) →
    P ≤ (tails ds es P).1 ∧
    elements cmp (tails ds es P).2 ((tails ds es P).1 - P) ws xs = some (lex c (keyGo P ds ws) (keyGo P es xs))
  | [], [], P, ws, xs, hP, _, _, _, _, _, _ => by
    rw [tails]
    refine ⟨Nat.le_refl _, ?_⟩
    rw [Nat.sub_self]; rfl
  | [], e :: es, P, ws, xs, hP, _, _, _, _, _, _ => by
    rw [tails]
    refine ⟨Nat.le_refl _, ?_⟩
    rw [Nat.sub_self, keyGo, keyGo]
    cases (xs.take (P * e - P)) <;> rfl
  | d :: ds, [], P, ws, xs, hP, _, _, _, _, _, _ => by
    rw [tails]
    refine ⟨Nat.le_refl _, ?_⟩
    rw [Nat.sub_self, keyGo, keyGo]
    cases (ws.take (P * d - P)) <;> rfl
  | d :: ds, e :: es, P, ws, xs, hP, hd, he, hw, hx, hb, hc => by
    have hd1 := hd d (by simp)
    have he1 := he e (by simp)
    have pd := prod_pos fun x hx => hd x (List.mem_cons_of_mem _ hx)
    have pe := prod_pos fun x hx => he x (List.mem_cons_of_mem _ hx)
    rw [prod_cons, ← Nat.mul_assoc] at hw hx hb
    have hPd : P * d ≤ P * d * prod ds := Nat.le_mul_of_pos_right _ pd
    have hPe : P * e ≤ P * e * prod es := Nat.le_mul_of_pos_right _ pe
    have hPd' : P ≤ P * d := Nat.le_mul_of_pos_right _ hd1
    have hPe' : P ≤ P * e := Nat.le_mul_of_pos_right _ he1
    rw [tails]
    by_cases q : d = e
    · rw [if_pos q, Nat.mod_eq_of_lt (by omega)]
      subst q
      have hlw : (ws.take (P * d - P)).length = P * d - P := by rw [List.length_take]; omega
      have hlx : (xs.take (P * d - P)).length = P * d - P := by rw [List.length_take]; omega
      obtain ⟨h1, h2⟩ := tails_spec (cmp := cmp) (c := c) ds es (P * d) (ws.drop (P * d - P)) (xs.drop (P * d - P)) (by omega)
        (fun x hx => hd x (List.mem_cons_of_mem _ hx)) (fun x hx => he x (List.mem_cons_of_mem _ hx))
        (by rw [List.length_drop]; omega) (by rw [List.length_drop]; omega) hb
        (fun a ha b hb => hc a (List.mem_of_mem_drop ha) b (List.mem_of_mem_drop hb))
      refine ⟨by omega, ?_⟩
      have h3 := elements_append _ _ _ _ (ws.take (P * d - P)) (xs.take (P * d - P)) (by rw [hlw, hlx])
        (fun a ha b hb => hc a (List.mem_of_mem_take ha) b (List.mem_of_mem_take hb)) _ h2
      rw [List.take_append_drop, List.take_append_drop, hlw] at h3
      rw [show P * d - P + ((tails ds es (P * d)).1 - P * d) = (tails ds es (P * d)).1 - P by omega] at h3
      rw [h3, keyGo, keyGo, lex_append _ _ _ _ (by rw [hlw, hlx])]
      rfl
    · rw [if_neg q]
      have base : ∀ n A B ws' xs' rc, A ++ ws' = ws → B ++ xs' = xs → A.length = n → B.length = n →
          elements cmp rc n ws xs = some (firstDiff c rc A B) := by
        intro n A B ws' xs' rc h1 h2 h3 h4
        have := elements_append (cmp := cmp) (c := c) rc 0 ws' xs' A B (by rw [h3, h4]) (fun a ha b hb => hc a (by rw [← h1]; simp [ha]) b (by rw [← h2]; simp [hb])) rc rfl
        rw [h1, h2, h3] at this
        exact this
      by_cases q2 : d < e
      · rw [if_pos q2, Nat.mod_eq_of_lt (by omega)]
        refine ⟨hPd', ?_⟩
        have hmul : P * d + P ≤ P * e := by
          have := Nat.mul_le_mul_left P (show d + 1 ≤ e by omega)
          rw [Nat.mul_add, Nat.mul_one] at this
          exact this
        have hlw : (ws.take (P * d - P)).length = P * d - P := by rw [List.length_take]; omega
        have hlx : (xs.take (P * d - P)).length = P * d - P := by rw [List.length_take]; omega
        have hic : icmp (d : Int) (e : Int) = -1 := by
          unfold icmp; rw [if_neg (by omega), if_pos (by omega)]; rfl
        show elements cmp (icmp d e) (P * d - P) ws xs = _
        rw [hic, base (P * d - P) (ws.take (P * d - P)) (xs.take (P * d - P)) (ws.drop (P * d - P)) (xs.drop (P * d - P)) (-1)
          (List.take_append_drop _ _) (List.take_append_drop _ _) hlw hlx]
        congr 1
        rw [keyGo, keyGo]
        have hsplit : ∃ y ys, xs.take (P * e - P) = xs.take (P * d - P) ++ y :: ys := by
          have h1 : xs.take (P * e - P) = (xs.take (P * d - P)) ++ (xs.drop (P * d - P)).take (P * e - P - (P * d - P)) := by
            rw [← List.take_add]; congr 1; omega
          cases hq : (xs.drop (P * d - P)).take (P * e - P - (P * d - P)) with
          | nil =>
            have := congrArg List.length hq
            rw [List.length_take, List.length_drop, List.length_nil] at this
            omega
          | cons y ys => exact ⟨y, ys, by rw [h1, hq]⟩
        obtain ⟨y, ys, hy⟩ := hsplit
        rw [hy, List.map_append, List.append_assoc, lex_append _ _ _ _ (by rw [hlw, hlx])]
        rfl
      · rw [if_neg q2]
        have hmul : P * e + P ≤ P * d := by
          have := Nat.mul_le_mul_left P (show e + 1 ≤ d by omega)
          rw [Nat.mul_add, Nat.mul_one] at this
          exact this
        rw [Nat.mod_eq_of_lt (by omega)]
        refine ⟨hPe', ?_⟩
        have hlw : (ws.take (P * e - P)).length = P * e - P := by rw [List.length_take]; omega
        have hlx : (xs.take (P * e - P)).length = P * e - P := by rw [List.length_take]; omega
        have hic : icmp (d : Int) (e : Int) = 1 := by
          unfold icmp; rw [if_pos (by omega), if_neg (by omega)]; rfl
        show elements cmp (icmp d e) (P * e - P) ws xs = _
        rw [hic, base (P * e - P) (ws.take (P * e - P)) (xs.take (P * e - P)) (ws.drop (P * e - P)) (xs.drop (P * e - P)) 1
          (List.take_append_drop _ _) (List.take_append_drop _ _) hlw hlx]
        congr 1
        rw [keyGo, keyGo]
        have hsplit : ∃ y ys, ws.take (P * d - P) = ws.take (P * e - P) ++ y :: ys := by
          have h1 : ws.take (P * d - P) = (ws.take (P * e - P)) ++ (ws.drop (P * e - P)).take (P * d - P - (P * e - P)) := by
            rw [← List.take_add]; congr 1; omega
          cases hq : (ws.drop (P * e - P)).take (P * d - P - (P * e - P)) with
          | nil =>
            have := congrArg List.length hq
            rw [List.length_take, List.length_drop, List.length_nil] at this
            omega
          | cons y ys => exact ⟨y, ys, by rw [h1, hq]⟩
        obtain ⟨y, ys, hy⟩ := hsplit
        rw [hy, List.map_append, List.append_assoc, lex_append _ _ _ _ (by rw [hlw, hlx])]
        rfl

theorem prod_append : ∀ (a b : List Nat), prod (a ++ b) = prod a * prod b
  | [], b => by simp [prod]
  | x :: a, b => by rw [List.cons_append, prod_cons, prod_cons, prod_append a b, Nat.mul_assoc]

theorem prod_reverse : ∀ (a : List Nat), prod a.reverse = prod a
  | [] => rfl
  | x :: a => by rw [List.reverse_cons, prod_append, prod_reverse a, prod_cons, prod_cons, Nat.mul_comm]; simp [prod]

theorem pos_of_prod : ∀ {a : List Nat}, prod a ≠ 0 → ∀ d ∈ a, 1 ≤ d
  | [], _, d, h => nomatch h
  | x :: a, hp, d, h => by
    rw [prod_cons] at hp
    rcases List.mem_cons.1 h with h | h
    · subst h
      apply Nat.pos_of_ne_zero
      intro h0; rw [h0, Nat.zero_mul] at hp; exact hp rfl
    · exact pos_of_prod (fun h0 => hp (by rw [h0, Nat.mul_zero])) d h

theorem oks_mem : ∀ {xs : List Val}, Oks xs → ∀ v ∈ xs, Ok v
  | [], _, v, h => nomatch h
  | x :: xs, h, v, hv => by
    rw [Oks] at h
    rcases List.mem_cons.1 hv with e | e
    · rw [e]; exact h.1
    · exact oks_mem h.2 v e

theorem depth_mem : ∀ {xs : List Val}, ∀ v ∈ xs, depth v ≤ depths xs
  | [], v, h => nomatch h
  | x :: xs, v, hv => by
    rw [depths]
    rcases List.mem_cons.1 hv with e | e
    · rw [e]; exact Nat.le_max_left _ _
    · exact Nat.le_trans (depth_mem v e) (Nat.le_max_right _ _)

theorem atomArray_eq {cmp : Val → Val → Option Int} {c : Val → Val → Int} (w : Val) (neg : Bool) (xs : List Val)
    (h : ∀ x ∈ xs, cmp w x = some (c w x)) : atomArray cmp neg w xs = some (if neg then - atomOrd c w xs else atomOrd c w xs) := by
  cases xs with
  | nil => cases neg <;> rfl
  | cons x xs =>
    show (cmp w x).map _ = some (if neg then -(if c w x ≤ 0 then -1 else 1) else (if c w x ≤ 0 then -1 else 1))
    rw [h x (by simp), Option.map_some]
    by_cases d : c w x ≤ 0
    · cases neg <;> simp [d]
    · cases neg <;> simp [d]

theorem compareN_ord : ∀ (n : Nat) (w x : Val), Ok w → Ok x → depth w + depth x < n → compareN n w x = some (ord n w x)
  | 0, _, _, _, _, h => absurd h (by omega)
  | n+1, w, x, hw, hx, h => by
    cases w with
    | num f =>
      cases x with
      | num g => rfl
      | chr d => rfl
      | arr t xs =>
        rw [compareN, ord]
        rw [Ok] at hx
        rw [depth, depth] at h
        exact atomArray_eq _ false xs fun x hm => compareN_ord n _ _ hw (oks_mem hx.2.2 x hm) (by have := depth_mem x hm; rw [depth]; omega)
    | chr c =>
      cases x with
      | num g => rfl
      | chr d => rfl
      | arr t xs =>
        rw [compareN, ord]
        rw [Ok] at hx
        rw [depth, depth] at h
        exact atomArray_eq _ false xs fun x hm => compareN_ord n _ _ hw (oks_mem hx.2.2 x hm) (by have := depth_mem x hm; rw [depth]; omega)
    | arr s ws =>
      rw [Ok] at hw
      rw [depth] at h
      cases x with
      | num g =>
        rw [compareN, ord]
        rw [depth] at h
        exact atomArray_eq _ true ws fun x hm => compareN_ord n _ _ hx (oks_mem hw.2.2 x hm) (by have := depth_mem x hm; rw [depth]; omega)
      | chr g =>
        rw [compareN, ord]
        rw [depth] at h
        exact atomArray_eq _ true ws fun x hm => compareN_ord n _ _ hx (oks_mem hw.2.2 x hm) (by have := depth_mem x hm; rw [depth]; omega)
      | arr t xs =>
        rw [Ok] at hx
        rw [depth] at h
        rw [compareN, ord]
        by_cases c : ws.length = 0 ∨ xs.length = 0
        · rw [if_pos c, if_pos c]; rfl
        · rw [if_neg c, if_neg c]
          have hcm : ∀ a ∈ ws, ∀ b ∈ xs, compareN n a b = some (ord n a b) := fun a ha b hb =>
            compareN_ord n a b (oks_mem hw.2.2 a ha) (oks_mem hx.2.2 b hb) (by have := depth_mem a ha; have := depth_mem b hb; omega)
          cases ws with
          | nil => simp at c
          | cons w0 ws =>
            cases xs with
            | nil => simp at c
            | cons x0 xs =>
              have e1 : prod s.reverse = (w0 :: ws).length := by rw [prod_reverse, hw.1]; rfl
              have e2 : prod t.reverse = (x0 :: xs).length := by rw [prod_reverse, hx.1]; rfl
              have hb : prod s.reverse < 2^32 := by rw [prod_reverse]; exact hw.2.1
              rw [List.length_cons] at e1 e2
              obtain ⟨h1, h2⟩ := tails_spec (cmp := compareN n) (c := ord n) s.reverse t.reverse 1 ws xs (by omega)
                (pos_of_prod (by omega)) (pos_of_prod (by omega)) (by omega) (by omega) (by omega)
                (fun a ha b hb => hcm a (by simp [ha]) b (by simp [hb]))
              rw [show (tails s.reverse t.reverse 1).1 = ((tails s.reverse t.reverse 1).1 - 1) + 1 by omega, elements,
                hcm w0 (by simp) x0 (by simp), Option.bind_some, h2]
              show _ = some (lex (ord n) (.el w0 :: _) (.el x0 :: _))
              rw [lex]
              by_cases d : ord n w0 x0 = 0
              · rw [if_neg (by simpa using d), if_neg (by simpa using d)]
              · rw [if_pos d, if_pos d]

/-! ## enough recursion -/

theorem mem_keyGo : ∀ (ds : List Nat) (P : Nat) (xs : List Val) (v : Val), Sym.el v ∈ keyGo P ds xs → v ∈ xs
  | [], _, _, _, h => nomatch h
  | d :: ds, P, xs, v, h => by
    rw [keyGo, List.mem_append, List.mem_cons] at h
    rcases h with h | h | h
    · obtain ⟨u, h1, h2⟩ := List.mem_map.1 h
      cases h2
      exact List.mem_of_mem_take h1
    · cases h
    · exact List.mem_of_mem_drop (mem_keyGo ds _ _ v h)

theorem mem_keyOf {sh : List Nat} {xs : List Val} {v : Val} (h : Sym.el v ∈ keyOf sh xs) : v ∈ xs := by
  cases xs with
  | nil => exact nomatch h
  | cons x xs =>
    rcases List.mem_cons.1 h with h | h
    · cases h; simp
    · exact List.mem_cons_of_mem _ (mem_keyGo _ _ _ _ h)

theorem lex_congr {c d : Val → Val → Int} : ∀ (a b : List Sym), (∀ v w, .el v ∈ a → .el w ∈ b → c v w = d v w) → lex c a b = lex d a b
  | [], [], _ => rfl
  | [], _ :: _, _ => rfl
  | _ :: _, [], _ => by rw [lex, lex]
  | .mark :: a, .mark :: b, h => by
    rw [lex, lex]; exact lex_congr a b fun v w hv hw => h v w (by simp [hv]) (by simp [hw])
  | .mark :: _, .el _ :: _, _ => rfl
  | .el _ :: _, .mark :: _, _ => rfl
  | .el v :: a, .el w :: b, h => by
    rw [lex, lex, h v w (by simp) (by simp), lex_congr a b fun v w hv hw => h v w (by simp [hv]) (by simp [hw])]

theorem atomOrd_congr {c d : Val → Val → Int} (w : Val) (xs : List Val) (h : ∀ x ∈ xs, c w x = d w x) : atomOrd c w xs = atomOrd d w xs := by
  cases xs with
  | nil => rfl
  | cons x xs =>
    show (if c w x ≤ 0 then (-1 : Int) else 1) = if d w x ≤ 0 then -1 else 1
    rw [h x (by simp)]

theorem ord_stable : ∀ (n m : Nat) (w x : Val), depth w + depth x < n → depth w + depth x < m → ord n w x = ord m w x
  | 0, _, _, _, h, _ => absurd h (by omega)
  | _+1, 0, _, _, _, h => absurd h (by omega)
  | n+1, m+1, w, x, h, h' => by
    cases w <;> cases x <;> rw [ord, ord]
    case num.arr f t xs =>
      rw [depth, depth] at h h'
      exact atomOrd_congr _ _ fun x hx => ord_stable n m _ _ (by have := depth_mem x hx; rw [depth]; omega) (by have := depth_mem x hx; rw [depth]; omega)
    case chr.arr f t xs =>
      rw [depth, depth] at h h'
      exact atomOrd_congr _ _ fun x hx => ord_stable n m _ _ (by have := depth_mem x hx; rw [depth]; omega) (by have := depth_mem x hx; rw [depth]; omega)
    case arr.num f t xs =>
      rw [depth, depth] at h h'
      congr 1
      exact atomOrd_congr _ _ fun x hx => ord_stable n m _ _ (by have := depth_mem x hx; rw [depth]; omega) (by have := depth_mem x hx; rw [depth]; omega)
    case arr.chr f t xs =>
      rw [depth, depth] at h h'
      congr 1
      exact atomOrd_congr _ _ fun x hx => ord_stable n m _ _ (by have := depth_mem x hx; rw [depth]; omega) (by have := depth_mem x hx; rw [depth]; omega)
    case arr.arr s ws t xs =>
      rw [depth, depth] at h h'
      split
      · rfl
      · exact lex_congr _ _ fun v w hv hw => by
          have h1 := depth_mem v (mem_keyOf hv)
          have h2 := depth_mem w (mem_keyOf hw)
          exact ord_stable n m v w (by omega) (by omega)

theorem compare_ord {w x : Val} (hw : Ok w) (hx : Ok x) {N : Nat} (hN : depth w + depth x < N) : compare w x = some (ord N w x) := by
  unfold compare
  rw [compareN_ord _ w x hw hx (by omega), ord_stable _ N w x (by omega) hN]

/-! ## laws -/

theorem icmp_neg (a b : Int) : icmp b a = - icmp a b := by unfold icmp; split <;> split <;> omega
theorem icmp_le {a b : Int} : icmp a b ≤ 0 ↔ a ≤ b := by unfold icmp; split <;> split <;> omega
theorem icmp_range (a b : Int) : icmp a b = -1 ∨ icmp a b = 0 ∨ icmp a b = 1 := by unfold icmp; split <;> split <;> omega
theorem icmp_eq {a b : Int} : icmp a b = 0 ↔ a = b := by unfold icmp; split <;> split <;> omega

theorem float_neg (f g : BitVec 64) : floatCompare g f = - floatCompare f g := by
  unfold floatCompare
  cases nan f <;> cases nan g <;> simp
  split <;> split <;> split <;> split <;> omega

theorem float_le (f g : BitVec 64) : floatCompare f g ≤ 0 ↔ nan g = true ∨ (nan f = false ∧ key f ≤ key g) := by
  unfold floatCompare
  cases nan f <;> cases nan g <;> simp
  split <;> split <;> omega

theorem float_trans (f g h : BitVec 64) (h1 : floatCompare f g ≤ 0) (h2 : floatCompare g h ≤ 0) : floatCompare f h ≤ 0 := by
  rw [float_le] at *
  rcases h2 with h2 | ⟨h2, h3⟩
  · exact .inl h2
  · rcases h1 with h1 | ⟨h1, h4⟩
    · rw [h1] at h2; cases h2
    · exact .inr ⟨h1, Int.le_trans h4 h3⟩

theorem float_range (f g : BitVec 64) : floatCompare f g = -1 ∨ floatCompare f g = 0 ∨ floatCompare f g = 1 := by
  unfold floatCompare
  cases nan f <;> cases nan g <;> simp
  split <;> split <;> omega

theorem float_eq (f g : BitVec 64) : floatCompare f g = 0 ↔ nan f = nan g ∧ (nan f = false → key f = key g) := by
  unfold floatCompare
  cases nan f <;> cases nan g <;> simp
  split <;> split <;> omega

/-- Order of shapes of empty arrays. -/
theorem tails_rc_neg : ∀ (s t : List Nat) (p q : Nat), (tails t s q).2 = - (tails s t p).2
  | [], [], _, _ => rfl
  | [], _ :: _, _, _ => rfl
  | _ :: _, [], _, _ => rfl
  | a :: s, b :: t, p, q => by
    rw [tails, tails]
    by_cases c : a = b
    · rw [if_pos c, if_pos c.symm]; exact tails_rc_neg s t _ _
    · rw [if_neg c, if_neg (fun h => c h.symm)]; exact icmp_neg _ _

theorem tails_rc_trans : ∀ (s t u : List Nat) (p q r : Nat), (tails s t p).2 ≤ 0 → (tails t u q).2 ≤ 0 → (tails s u r).2 ≤ 0
  | [], _, [], _, _, _, _, _ => by rw [tails]; exact Int.le_refl _
  | [], _, _ :: _, _, _, _, _, _ => by rw [tails]; show (-1 : Int) ≤ 0; decide
  | a :: s, [], _, _, _, _, h, _ => by rw [tails] at h; exact absurd h (show ¬ (1 : Int) ≤ 0 by decide)
  | a :: s, b :: t, [], _, _, _, _, h => by rw [tails] at h; exact absurd h (show ¬ (1 : Int) ≤ 0 by decide)
  | a :: s, b :: t, c :: u, p, q, r, h1, h2 => by
    rw [tails] at h1 h2 ⊢
    by_cases e1 : a = b
    · rw [if_pos e1] at h1
      by_cases e2 : b = c
      · rw [if_pos e2] at h2
        rw [if_pos (e1.trans e2)]
        exact tails_rc_trans s t u _ _ _ h1 h2
      · rw [if_neg e2] at h2
        rw [if_neg (by rw [e1]; exact e2), e1]; exact h2
    · rw [if_neg e1] at h1
      have h1' := icmp_le.1 h1
      by_cases e2 : b = c
      · rw [if_neg (by rw [← e2]; exact e1), ← e2]; exact h1
      · rw [if_neg e2] at h2
        have h2' := icmp_le.1 h2
        rw [if_neg (by omega)]
        exact icmp_le.2 (by omega)

theorem lex_neg {c : Val → Val → Int} (h : ∀ v w, c w v = - c v w) : ∀ (a b : List Sym), lex c b a = - lex c a b
  | [], [] => rfl
  | [], _ :: _ => rfl
  | _ :: _, [] => by rw [lex, lex]
  | .mark :: a, .mark :: b => by rw [lex, lex]; exact lex_neg h a b
  | .mark :: _, .el _ :: _ => rfl
  | .el _ :: _, .mark :: _ => rfl
  | .el v :: a, .el w :: b => by
    rw [lex, lex, h v w, lex_neg h a b]
    by_cases d : c v w = 0
    · rw [if_neg (by omega), if_neg (by omega)]
    · rw [if_pos (by omega), if_pos (by omega)]

theorem lex_trans {c : Val → Val → Int} (hn : ∀ v w, c w v = - c v w) (ht : ∀ u v w, c u v ≤ 0 → c v w ≤ 0 → c u w ≤ 0) :
    ∀ (x y z : List Sym), lex c x y ≤ 0 → lex c y z ≤ 0 → lex c x z ≤ 0
  | [], _, [], _, _ => Int.le_refl _
  | [], _, _ :: _, _, _ => by rw [lex]; decide
  | _ :: _, [], _, h, _ => by rw [lex] at h; exact absurd h (by decide)
  | _ :: _, _ :: _, [], _, h => by rw [lex] at h; exact absurd h (by decide)
  | .mark :: x, .mark :: y, .mark :: z, h1, h2 => by rw [lex] at h1 h2 ⊢; exact lex_trans hn ht x y z h1 h2
  | .mark :: x, _ :: y, .el w :: z, _, _ => by rw [lex]; decide
  | .mark :: x, .el v :: y, .mark :: z, _, h => by rw [lex] at h; exact absurd h (by decide)
  | .el u :: x, .mark :: y, _ :: z, h, _ => by rw [lex] at h; exact absurd h (by decide)
  | .el u :: x, .el v :: y, .mark :: z, _, h => by rw [lex] at h; exact absurd h (by decide)
  | .el u :: x, .el v :: y, .el w :: z, h1, h2 => by
    rw [lex] at h1 h2 ⊢
    have huv := hn u v
    have hvw := hn v w
    have huw := hn u w
    have t1 := ht u v w
    have t2 := ht v w u
    have t3 := ht w u v
    have t4 := ht w v u
    have t5 := ht u w v
    have t6 := ht v u w
    by_cases d1 : c u v = 0
    · rw [if_neg (by omega)] at h1
      by_cases d2 : c v w = 0
      · rw [if_neg (by omega)] at h2
        rw [if_neg (by omega)]
        exact lex_trans hn ht x y z h1 h2
      · rw [if_pos d2] at h2
        rw [if_pos (by omega)]; omega
    · rw [if_pos d1] at h1
      by_cases d2 : c v w = 0
      · rw [if_neg (by omega)] at h2
        rw [if_pos (by omega)]; omega
      · rw [if_pos d2] at h2
        rw [if_pos (by omega)]; omega

theorem emptyOrd_neg (s t : List Nat) (n m : Nat) : emptyOrd t s m n = - emptyOrd s t n m := by
  unfold emptyOrd
  rw [icmp_neg (n : Int) m, tails_rc_neg s.reverse t.reverse 1 1]
  split <;> split <;> omega

theorem ord_neg : ∀ (n : Nat) (w x : Val), ord n x w = - ord n w x
  | 0, _, _ => rfl
  | n+1, w, x => by
    cases w <;> cases x <;> rw [ord, ord]
    case num.num f g => exact float_neg f g
    case num.chr f d => rfl
    case chr.chr c d => exact icmp_neg _ _
    case arr.num => rw [Int.neg_neg]
    case arr.chr => rw [Int.neg_neg]
    case arr.arr s ws t xs =>
      by_cases c : ws.length = 0 ∨ xs.length = 0
      · rw [if_pos c, if_pos c.symm]; exact emptyOrd_neg _ _ _ _
      · rw [if_neg c, if_neg (fun h => c h.symm)]; exact lex_neg (fun v w => ord_neg n v w) _ _

/-- An atom. -/
def Atom : Val → Prop
  | .arr _ _ => False
  | _ => True

theorem ord_atom_array {n : Nat} {a : Val} (ha : Atom a) (s : List Nat) (xs : List Val) : ord (n+1) a (.arr s xs) = atomOrd (ord n) a xs := by
  cases a
  · rw [ord]
  · rw [ord]
  · exact ha.elim

theorem ord_array_atom {n : Nat} {a : Val} (ha : Atom a) (s : List Nat) (xs : List Val) : ord (n+1) (.arr s xs) a = - atomOrd (ord n) a xs := by
  cases a
  · rw [ord]
  · rw [ord]
  · exact ha.elim

theorem ord_atoms {n m : Nat} {a b : Val} (ha : Atom a) (hb : Atom b) : ord (n+1) a b = ord (m+1) a b := by
  cases a <;> cases b <;> first | exact ha.elim | exact hb.elim | (rw [ord, ord])

theorem ord_atoms_trans {n : Nat} {a b c : Val} (ha : Atom a) (hb : Atom b) (hc : Atom c) (h1 : ord n a b ≤ 0) (h2 : ord n b c ≤ 0) : ord n a c ≤ 0 := by
  cases n with
  | zero => exact Int.le_refl _
  | succ n =>
    cases a <;> cases b <;> cases c <;> first | exact ha.elim | exact hb.elim | exact hc.elim | skip
    all_goals rw [ord] at *
    case num.num.num f g h => exact float_trans f g h h1 h2
    case num.chr.num => exact absurd h2 (show ¬ (1 : Int) ≤ 0 by decide)
    case chr.num.chr => exact absurd h1 (show ¬ (1 : Int) ≤ 0 by decide)
    case chr.num.num => exact absurd h1 (show ¬ (1 : Int) ≤ 0 by decide)
    case chr.chr.num => exact absurd h2 (show ¬ (1 : Int) ≤ 0 by decide)
    case chr.chr.chr a b c =>
      rw [icmp_le] at *
      omega
    all_goals exact (show (-1 : Int) ≤ 0 by decide)

/-- Arrays: what the order says about the first elements. -/
theorem ord_arrays_first {n : Nat} {s t : List Nat} {x y : Val} {xs ys : List Val} (h : ord (n+1) (.arr s (x :: xs)) (.arr t (y :: ys)) ≤ 0) : ord n x y ≤ 0 := by
  rw [ord, if_neg (by simp), keyOf, keyOf, lex] at h
  by_cases d : ord n x y = 0
  · omega
  · rw [if_pos d] at h; exact h

theorem ord_arrays_first_lt {n : Nat} {s t : List Nat} {x y : Val} {xs ys : List Val} (h : ord n x y < 0) : ord (n+1) (.arr s (x :: xs)) (.arr t (y :: ys)) ≤ 0 := by
  rw [ord, if_neg (by simp), keyOf, keyOf, lex, if_pos (by omega)]
  omega

theorem ord_empty_left {n : Nat} (s t : List Nat) (y : Val) (ys : List Val) : ord (n+1) (.arr s []) (.arr t (y :: ys)) = -1 := by
  rw [ord, if_pos (by simp)]
  unfold emptyOrd icmp
  simp
  omega

theorem ord_empty_right {n : Nat} (s t : List Nat) (y : Val) (ys : List Val) : ord (n+1) (.arr t (y :: ys)) (.arr s []) = 1 := by
  rw [ord_neg, ord_empty_left]; rfl

theorem atom_or (v : Val) : Atom v ∨ ∃ s xs, v = .arr s xs := by
  cases v
  · exact .inl trivial
  · exact .inl trivial
  · exact .inr ⟨_, _, rfl⟩

theorem atomOrd_nil (c : Val → Val → Int) (a : Val) : atomOrd c a [] = 1 := rfl
theorem atomOrd_cons (c : Val → Val → Int) (a x : Val) (xs : List Val) : atomOrd c a (x :: xs) = if c a x ≤ 0 then -1 else 1 := rfl

theorem ord_trans : ∀ (n : Nat) (u v w : Val), ord n u v ≤ 0 → ord n v w ≤ 0 → ord n u w ≤ 0
  | 0, _, _, _, _, _ => Int.le_refl _
  | n+1, u, v, w, h1, h2 => by
    have ih := ord_trans n
    have neg := ord_neg n
    have strict : ∀ a b c, ord n a b ≤ 0 → ord n b c < 0 → ord n a c < 0 := by
      intro a b c g1 g2
      have := ih c a b
      have := neg a c
      have := neg b c
      omega
    have strict' : ∀ a b c, ord n a b < 0 → ord n b c ≤ 0 → ord n a c < 0 := by
      intro a b c g1 g2
      have := ih b c a
      have := neg a c
      have := neg a b
      omega
    rcases atom_or u with hu | ⟨su, us, rfl⟩
    · rcases atom_or v with hv | ⟨sv, vs, rfl⟩
      · rcases atom_or w with hw | ⟨sw, ws, rfl⟩
        · exact ord_atoms_trans hu hv hw h1 h2
        · rw [ord_atom_array hv] at h2
          rw [ord_atom_array hu]
          cases ws with
          | nil => rw [atomOrd_nil] at h2; omega
          | cons y ws =>
            rw [atomOrd_cons] at h2 ⊢
            have h3 : ord n v y ≤ 0 := by split at h2 <;> omega
            have h4 : ord n u v ≤ 0 := by
              cases n with
              | zero => exact Int.le_refl _
              | succ m => rw [ord_atoms hu hv]; exact h1
            rw [if_pos (ih u v y h4 h3)]; decide
      · rw [ord_atom_array hu] at h1
        cases vs with
        | nil => rw [atomOrd_nil] at h1; omega
        | cons y vs =>
          rw [atomOrd_cons] at h1
          have h3 : ord n u y ≤ 0 := by split at h1 <;> omega
          rcases atom_or w with hw | ⟨sw, ws, rfl⟩
          · rw [ord_array_atom hw, atomOrd_cons] at h2
            have h4 : ¬ ord n w y ≤ 0 := by split at h2 <;> omega
            have h5 : ord n u w < 0 := strict u y w h3 (by have := neg w y; omega)
            cases n with
            | zero => exact absurd h5 (by rw [ord]; decide)
            | succ m => rw [ord_atoms hu hw (m := m)]; omega
          · rw [ord_atom_array hu]
            cases ws with
            | nil => rw [ord_empty_right] at h2; omega
            | cons z ws =>
              rw [atomOrd_cons, if_pos (ih u y z h3 (ord_arrays_first h2))]; decide
    · rcases atom_or v with hv | ⟨sv, vs, rfl⟩
      · rw [ord_array_atom hv] at h1
        rcases atom_or w with hw | ⟨sw, ws, rfl⟩
        · rw [ord_array_atom hw]
          cases us with
          | nil => rw [atomOrd_nil]; decide
          | cons x us =>
            rw [atomOrd_cons] at h1 ⊢
            have h3 : ¬ ord n v x ≤ 0 := by split at h1 <;> omega
            have h4 : ord n v w ≤ 0 := by
              cases n with
              | zero => exact Int.le_refl _
              | succ m => rw [ord_atoms hv hw]; exact h2
            have h5 := strict' x v w (by have := neg v x; omega) h4
            rw [if_neg (by have := neg w x; omega)]; decide
        · rw [ord_atom_array hv] at h2
          cases ws with
          | nil => rw [atomOrd_nil] at h2; omega
          | cons z ws =>
            rw [atomOrd_cons] at h2
            have h3 : ord n v z ≤ 0 := by split at h2 <;> omega
            cases us with
            | nil => rw [ord_empty_left]; decide
            | cons x us =>
              rw [atomOrd_cons] at h1
              have h4 : ¬ ord n v x ≤ 0 := by split at h1 <;> omega
              exact ord_arrays_first_lt (strict' x v z (by have := neg v x; omega) h3)
      · rcases atom_or w with hw | ⟨sw, ws, rfl⟩
        · rw [ord_array_atom hw] at h2 ⊢
          cases us with
          | nil => rw [atomOrd_nil]; decide
          | cons x us =>
            cases vs with
            | nil => rw [ord_empty_right] at h1; omega
            | cons y vs =>
              rw [atomOrd_cons] at h2 ⊢
              have h3 : ¬ ord n w y ≤ 0 := by split at h2 <;> omega
              have h4 := strict x y w (ord_arrays_first h1) (by have := neg w y; omega)
              rw [if_neg (by have := neg w x; omega)]; decide
        · cases us with
          | nil =>
            cases ws with
            | cons z ws => rw [ord_empty_left]; decide
            | nil =>
              cases vs with
              | cons y vs => rw [ord_empty_right] at h2; omega
              | nil =>
                rw [ord, if_pos (by simp)] at h1 h2 ⊢
                have hz : icmp ((([] : List Val).length : Nat) : Int) ((([] : List Val).length : Nat) : Int) = 0 := icmp_eq.2 rfl
                unfold emptyOrd at *
                rw [if_neg (by rw [hz]; decide)] at h1 h2 ⊢
                exact tails_rc_trans _ _ _ _ _ _ h1 h2
          | cons x us =>
            cases vs with
            | nil => rw [ord_empty_right] at h1; omega
            | cons y vs =>
              cases ws with
              | nil => rw [ord_empty_right] at h2; omega
              | cons z ws =>
                rw [ord, if_neg (by simp)] at h1 h2 ⊢
                exact lex_trans neg ih _ _ _ h1 h2

theorem lex_range {c : Val → Val → Int} (h : ∀ v w, c v w = -1 ∨ c v w = 0 ∨ c v w = 1) : ∀ (a b : List Sym), lex c a b = -1 ∨ lex c a b = 0 ∨ lex c a b = 1
  | [], [] => by rw [lex]; omega
  | [], _ :: _ => by rw [lex]; omega
  | _ :: _, [] => by rw [lex]; omega
  | .mark :: a, .mark :: b => by rw [lex]; exact lex_range h a b
  | .mark :: _, .el _ :: _ => by rw [lex]; omega
  | .el _ :: _, .mark :: _ => by rw [lex]; omega
  | .el v :: a, .el w :: b => by
    rw [lex]
    split
    · exact h v w
    · exact lex_range h a b

theorem tails_rc_range : ∀ (s t : List Nat) (p : Nat), (tails s t p).2 = -1 ∨ (tails s t p).2 = 0 ∨ (tails s t p).2 = 1
  | [], [], _ => by rw [tails]; simp
  | [], _ :: _, _ => by rw [tails]; simp
  | _ :: _, [], _ => by rw [tails]; simp
  | a :: s, b :: t, p => by
    rw [tails]
    by_cases c : a = b
    · rw [if_pos c]; exact tails_rc_range s t _
    · rw [if_neg c]; exact icmp_range _ _

theorem atomOrd_range (c : Val → Val → Int) (w : Val) (xs : List Val) : atomOrd c w xs = -1 ∨ atomOrd c w xs = 1 := by
  cases xs with
  | nil => exact .inr rfl
  | cons x xs => rw [atomOrd_cons]; split <;> simp

theorem ord_range : ∀ (n : Nat) (w x : Val), ord n w x = -1 ∨ ord n w x = 0 ∨ ord n w x = 1
  | 0, _, _ => by rw [ord]; omega
  | n+1, w, x => by
    cases w <;> cases x <;> rw [ord]
    case num.num f g => exact float_range f g
    case chr.chr c d => exact icmp_range _ _
    case num.arr f t xs => have := atomOrd_range (ord n) (.num f) xs; omega
    case chr.arr f t xs => have := atomOrd_range (ord n) (.chr f) xs; omega
    case arr.num t xs f => have := atomOrd_range (ord n) (.num f) xs; omega
    case arr.chr t xs f => have := atomOrd_range (ord n) (.chr f) xs; omega
    case arr.arr s ws t xs =>
      split
      · unfold emptyOrd
        split
        · exact icmp_range _ _
        · exact tails_rc_range _ _ _
      · exact lex_range (ord_range n) _ _
    all_goals omega

/-! ## equality -/

theorem tails_rc_eq : ∀ (s t : List Nat) (p : Nat), (tails s t p).2 = 0 ↔ s = t
  | [], [], _ => by simp [tails]
  | [], _ :: _, _ => by simp [tails]
  | _ :: _, [], _ => by simp [tails]
  | a :: s, b :: t, p => by
    rw [tails]
    by_cases c : a = b
    · rw [if_pos c, tails_rc_eq s t _, c]; simp
    · rw [if_neg c, List.cons.injEq]
      have : icmp (a : Int) b ≠ 0 := fun h => c (by have := icmp_eq.1 h; omega)
      simp [c, this]

theorem lex_keyGo_eq {c : Val → Val → Int} : ∀ (ds es : List Nat) (P : Nat) (ws xs : List Val), 1 ≤ P →
    (∀ d ∈ ds, 1 ≤ d) → (∀ d ∈ es, 1 ≤ d) → ws.length + P = P * prod ds → xs.length + P = P * prod es →
    (lex c (keyGo P ds ws) (keyGo P es xs) = 0 ↔ ds = es ∧ firstDiff c 0 ws xs = 0)
  | [], [], P, ws, xs, _, _, _, hw, hx => by
    have h1 : ws = [] := by simp [prod] at hw; exact hw
    have h2 : xs = [] := by simp [prod] at hx; exact hx
    rw [h1, h2]; simp [keyGo, lex, firstDiff]
  | [], e :: es, P, ws, xs, _, _, _, _, _ => by
    have : lex c (keyGo P [] ws) (keyGo P (e :: es) xs) = -1 := by
      rw [keyGo, keyGo]; cases (xs.take (P * e - P)) <;> rfl
    rw [this]; simp
  | d :: ds, [], P, ws, xs, _, _, _, _, _ => by
    have : lex c (keyGo P (d :: ds) ws) (keyGo P [] xs) = 1 := by
      rw [keyGo, keyGo]; cases (ws.take (P * d - P)) <;> rfl
    rw [this]; simp
  | d :: ds, e :: es, P, ws, xs, hP, hd, he, hw, hx => by
    have hd1 := hd d (by simp)
    have he1 := he e (by simp)
    have pd := prod_pos fun x hx => hd x (List.mem_cons_of_mem _ hx)
    have pe := prod_pos fun x hx => he x (List.mem_cons_of_mem _ hx)
    rw [prod_cons, ← Nat.mul_assoc] at hw hx
    have hPd : P * d ≤ P * d * prod ds := Nat.le_mul_of_pos_right _ pd
    have hPe : P * e ≤ P * e * prod es := Nat.le_mul_of_pos_right _ pe
    have hPd' : P ≤ P * d := Nat.le_mul_of_pos_right _ hd1
    have hPe' : P ≤ P * e := Nat.le_mul_of_pos_right _ he1
    have split : ∀ (l : List Val) (a b : Nat), a < b → b ≤ l.length → ∃ y ys, l.take b = l.take a ++ y :: ys := by
      intro l a b hab hbl
      have h1 : l.take b = l.take a ++ (l.drop a).take (b - a) := by rw [← List.take_add]; congr 1; omega
      cases hq : (l.drop a).take (b - a) with
      | nil =>
        have := congrArg List.length hq
        rw [List.length_take, List.length_drop, List.length_nil] at this
        omega
      | cons y ys => exact ⟨y, ys, by rw [h1, hq]⟩
    have fdne : ∀ (A B : List Val) (r : Int), r ≠ 0 → firstDiff c r A B ≠ 0 := by
      intro A
      induction A with
      | nil => intro B r hr; rw [firstDiff]; exact hr; intro _ _ _ _ h; cases h
      | cons a A ih =>
        intro B r hr
        cases B with
        | nil => rw [firstDiff]; exact hr; intro _ _ _ _ _ h; cases h
        | cons b B =>
          rw [firstDiff]
          by_cases z : c a b = 0
          · rw [if_neg (by simpa using z)]; exact ih B r hr
          · rw [if_pos z]; exact z
    by_cases q : d = e
    · subst q
      have hlw : (ws.take (P * d - P)).length = P * d - P := by rw [List.length_take]; omega
      have hlx : (xs.take (P * d - P)).length = P * d - P := by rw [List.length_take]; omega
      have ih := lex_keyGo_eq (c := c) ds es (P * d) (ws.drop (P * d - P)) (xs.drop (P * d - P)) (by omega)
        (fun x hx => hd x (List.mem_cons_of_mem _ hx)) (fun x hx => he x (List.mem_cons_of_mem _ hx))
        (by rw [List.length_drop]; omega) (by rw [List.length_drop]; omega)
      rw [keyGo, keyGo, lex_append _ _ _ _ (by rw [hlw, hlx])]
      have fdapp : ∀ (A B A' B' : List Val) (r : Int), A.length = B.length → firstDiff c r (A ++ A') (B ++ B') = firstDiff c (firstDiff c r A' B') A B := by
        intro A
        induction A with
        | nil =>
          intro B A' B' r hl
          cases B with
          | nil => rfl
          | cons => simp at hl
        | cons a A ih =>
          intro B A' B' r hl
          cases B with
          | nil => simp at hl
          | cons b B => rw [List.cons_append, List.cons_append, firstDiff, firstDiff, ih B A' B' r (by simpa using hl)]
      have fdz : ∀ (A B : List Val) (r : Int), A.length = B.length → (firstDiff c r A B = 0 ↔ firstDiff c 0 A B = 0 ∧ r = 0) := by
        intro A
        induction A with
        | nil =>
          intro B r hl
          cases B with
          | nil => simp [firstDiff]
          | cons => simp at hl
        | cons a A ih =>
          intro B r hl
          cases B with
          | nil => simp at hl
          | cons b B =>
            rw [firstDiff, firstDiff]
            by_cases z : c a b = 0
            · rw [if_neg (by simpa using z), if_neg (by simpa using z)]; exact ih B r (by simpa using hl)
            · rw [if_pos z, if_pos z]; simp [z]
      rw [fdz _ _ _ (by rw [hlw, hlx])]
      have e1 := fdapp (ws.take (P * d - P)) (xs.take (P * d - P)) (ws.drop (P * d - P)) (xs.drop (P * d - P)) 0 (by rw [hlw, hlx])
      rw [List.take_append_drop, List.take_append_drop] at e1
      rw [e1, fdz _ _ (firstDiff c 0 (ws.drop (P * d - P)) (xs.drop (P * d - P))) (by rw [hlw, hlx]), List.cons.injEq]
      show _ ∧ lex c (keyGo (P * d) ds _) (keyGo (P * d) es _) = 0 ↔ _
      rw [ih]
      constructor
      · rintro ⟨h1, h2, h3⟩; exact ⟨⟨rfl, h2⟩, h1, h3⟩
      · rintro ⟨⟨_, h2⟩, h1, h3⟩; exact ⟨h1, h2, h3⟩
    · have hne : lex c (keyGo P (d :: ds) ws) (keyGo P (e :: es) xs) ≠ 0 := by
        by_cases q2 : d < e
        · have hmul : P * d + P ≤ P * e := by
            have := Nat.mul_le_mul_left P (show d + 1 ≤ e by omega)
            rw [Nat.mul_add, Nat.mul_one] at this
            exact this
          obtain ⟨y, ys, hy⟩ := split xs (P * d - P) (P * e - P) (by omega) (by omega)
          rw [keyGo, keyGo, hy, List.map_append, List.append_assoc, lex_append _ _ _ _ (by rw [List.length_take, List.length_take]; omega)]
          exact fdne _ _ _ (by show (-1 : Int) ≠ 0; decide)
        · have hmul : P * e + P ≤ P * d := by
            have := Nat.mul_le_mul_left P (show e + 1 ≤ d by omega)
            rw [Nat.mul_add, Nat.mul_one] at this
            exact this
          obtain ⟨y, ys, hy⟩ := split ws (P * e - P) (P * d - P) (by omega) (by omega)
          rw [keyGo, keyGo, hy, List.map_append, List.append_assoc, lex_append _ _ _ _ (by rw [List.length_take, List.length_take]; omega)]
          exact fdne _ _ _ (by show (1 : Int) ≠ 0; decide)
      rw [List.cons.injEq]
      simp [hne, q]

theorem firstDiff_sames {c : Val → Val → Int} : ∀ (ws xs : List Val), ws.length = xs.length →
    (∀ w ∈ ws, ∀ x ∈ xs, (c w x = 0 ↔ Same w x)) → (firstDiff c 0 ws xs = 0 ↔ Sames ws xs)
  | [], [], _, _ => by simp [firstDiff, Sames]
  | w :: ws, x :: xs, hl, h => by
    have ih := firstDiff_sames ws xs (by simpa using hl) fun w hw x hx => h w (by simp [hw]) x (by simp [hx])
    have h0 := h w (by simp) x (by simp)
    rw [firstDiff, Sames]
    by_cases d : c w x = 0
    · rw [if_neg (by simpa using d), ih]; simp [h0.1 d]
    · rw [if_pos d]
      simp only [d, false_iff]
      intro hs; exact d (h0.2 hs.1)
  | [], _ :: _, hl, _ => by simp at hl
  | _ :: _, [], hl, _ => by simp at hl

theorem ord_same : ∀ (n : Nat) (w x : Val), Ok w → Ok x → depth w + depth x < n → (ord n w x = 0 ↔ Same w x)
  | 0, _, _, _, _, h => absurd h (by omega)
  | n+1, w, x, hw, hx, h => by
    cases w <;> cases x <;> rw [ord, Same]
    case num.num f g => exact float_eq f g
    case chr.chr c d => rw [icmp_eq]; omega
    case num.arr f t xs => have := atomOrd_range (ord n) (.num f) xs; simp; omega
    case chr.arr f t xs => have := atomOrd_range (ord n) (.chr f) xs; simp; omega
    case arr.num t xs f => have := atomOrd_range (ord n) (.num f) xs; simp; omega
    case arr.chr t xs f => have := atomOrd_range (ord n) (.chr f) xs; simp; omega
    case arr.arr s ws t xs =>
      rw [Ok] at hw hx
      rw [depth, depth] at h
      by_cases c : ws.length = 0 ∨ xs.length = 0
      · rw [if_pos c]
        unfold emptyOrd
        by_cases d : icmp (ws.length : Int) xs.length = 0
        · rw [if_neg (by simpa using d), tails_rc_eq]
          have := icmp_eq.1 d
          have h1 : ws = [] := List.length_eq_zero_iff.1 (by omega)
          have h2 : xs = [] := List.length_eq_zero_iff.1 (by omega)
          rw [h1, h2]
          simp [Sames]
        · rw [if_pos d]
          simp only [d, false_iff]
          rintro ⟨hs, _⟩
          apply d
          rw [icmp_eq, hw.1, hx.1, hs]
      · rw [if_neg c]
        have hm : ∀ w ∈ ws, ∀ x ∈ xs, (ord n w x = 0 ↔ Same w x) := fun a ha b hb =>
          ord_same n a b (oks_mem hw.2.2 a ha) (oks_mem hx.2.2 b hb) (by have := depth_mem a ha; have := depth_mem b hb; omega)
        cases ws with
        | nil => simp at c
        | cons w0 ws =>
          cases xs with
          | nil => simp at c
          | cons x0 xs =>
            have e1 : prod s.reverse = (w0 :: ws).length := by rw [prod_reverse, hw.1]; rfl
            have e2 : prod t.reverse = (x0 :: xs).length := by rw [prod_reverse, hx.1]; rfl
            rw [List.length_cons] at e1 e2
            have hk := lex_keyGo_eq (c := ord n) s.reverse t.reverse 1 ws xs (by omega) (pos_of_prod (by omega)) (pos_of_prod (by omega))
              (by omega) (by omega)
            rw [keyOf, keyOf, lex]
            have h0 := hm w0 (by simp) x0 (by simp)
            rw [Sames]
            by_cases d : ord n w0 x0 = 0
            · rw [if_neg (by simpa using d), hk]
              constructor
              · rintro ⟨g1, g2⟩
                have hst : s = t := List.reverse_inj.1 g1
                refine ⟨hst, h0.1 d, ?_⟩
                rw [hst, e2] at e1
                exact (firstDiff_sames ws xs (by omega) fun w hw x hx => hm w (by simp [hw]) x (by simp [hx])).1 g2
              · rintro ⟨hst, _, g2⟩
                refine ⟨by rw [hst], ?_⟩
                rw [hst, e2] at e1
                exact (firstDiff_sames ws xs (by omega) fun w hw x hx => hm w (by simp [hw]) x (by simp [hx])).2 g2
            · rw [if_pos d]
              simp only [d, false_iff]
              rintro ⟨_, g, _⟩
              exact d (h0.2 g)
    all_goals simp

end Verif.Compare
