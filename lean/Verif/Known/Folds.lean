import Verif.Known.Rows
import Verif.Insert.Main
/-!
# Insert, Fold and Scan on cells
-/
namespace Verif.Known
open Verif.Cells
open Verif.Insert (Op COp Res insert1 fold1 scan1 foldR majors cells cells_succ joinV toRes constant scanFrom sure)
open Verif.Rotate (prod prod_append)
variable {E : Type}
variable {fill : Arr E → E} {io : Info E} {d : E} {x : Arr E} {k n : Nat} {t : List Nat}

theorem majors_eq {a : Arr E} (hs : a.sh = n :: t) : majors a = cells a n := by
  unfold majors cells
  rw [hs]
  rfl

theorem insert1_zero (op : COp Option E) {a : Arr E} (hs : a.sh = 0 :: t) : insertFn op (.arr a) = op.noCells t := by
  unfold insertFn insert1
  dsimp only
  rw [if_neg (by rw [hs]; simp), majors_eq hs, hs]
  show (some (match op.noCells t with | some i => Res.ok i | none => .noIdentity)).bind ofRes = _
  cases op.noCells t <;> rfl

theorem insert1_one (op : COp Option E) {a : Arr E} (hs : a.sh = 1 :: t) : insertFn op (.arr a) = some (.arr (cellAt a 1 0)) := by
  unfold insertFn insert1
  dsimp only
  rw [if_neg (by rw [hs]; simp), majors_eq hs]
  rfl

theorem insert1_more (op : COp Option E) (hop : op.isMd = false) {a : Arr E} {n : Nat} (hs : a.sh = (n+2) :: t) :
    insertFn op (.arr a) = (toRes <$> foldR op.run (cells a (n+1)) (.arr (cellAt a 1 (n+1)))).bind ofRes := by
  unfold insertFn insert1
  dsimp only
  rw [if_neg (by rw [hs]; simp), majors_eq hs, cells_succ, List.reverse_append, cells_succ, List.reverse_append]
  simp only [List.reverse_cons, List.reverse_nil, List.nil_append, List.cons_append, hop, Bool.false_eq_true, if_false, List.reverse_reverse]

theorem selectAt_major {a : Arr E} (hs : a.sh = n :: t) {j : Nat} (hj : j < n) : selectAt (j : Int) (.arr a) = some (.arr (cellAt a 1 j)) := by
  unfold selectAt
  rw [show (Val.arr a).sh = n :: t from hs]
  dsimp only
  unfold place
  rw [if_pos ⟨by omega, by omega⟩]
  unfold cellAt
  rw [hs]
  rfl

theorem insert_first {a : Arr E} (hs : a.sh = n :: t) (hn : n ≠ 0) : insertFn .ltack (.arr a) = selectAt (0 : Nat) (.arr a) := by
  rw [selectAt_major hs (by omega)]
  match n, hn with
  | 1, _ => exact insert1_one _ hs
  | n+2, _ =>
    rw [insert1_more _ rfl hs]
    have : COp.run (m := Option) (E := E) .ltack = fun a _ => pure (some a) := by funext a b; rfl
    rw [this, Verif.Insert.foldR_left]
    unfold cells
    rw [List.range_succ_eq_map]
    rfl

theorem insert_last {a : Arr E} (hs : a.sh = n :: t) (hn : n ≠ 0) : insertFn .rtack (.arr a) = selectAt ((n - 1 : Nat) : Int) (.arr a) := by
  rw [selectAt_major hs (by omega)]
  match n, hn with
  | 1, _ => exact insert1_one _ hs
  | n+2, _ =>
    rw [insert1_more _ rfl hs]
    have : COp.run (m := Option) (E := E) .rtack = fun _ b => pure (some b) := by funext a b; rfl
    rw [this, Verif.Insert.foldR_right]
    rfl

theorem insert_one (op : COp Option E) {a : Arr E} (hs : a.sh = 1 :: t) : insertFn op (.arr a) = selectAt (0 : Nat) (.arr a) := by
  rw [selectAt_major hs (by omega), insert1_one op hs]

/-- `∾˝` makes one axis of the first two. -/
theorem insert_join {a : Arr E} (hf : Full a) {g : Nat} {u : List Nat} (hs : a.sh = n :: g :: u) : insertFn .join (.arr a) = some (.arr ⟨(n * g) :: u, a.els⟩) := by
  have hc : a.els.length = n * prod (g :: u) := by rw [hf, hs, prod]
  match n with
  | 0 =>
    rw [insert1_zero _ hs]
    rw [Nat.zero_mul] at hc
    rw [List.length_eq_zero_iff.1 hc, Nat.zero_mul]
    rfl
  | 1 =>
    rw [insert1_one _ hs, Verif.Insert.cellAt_eq hs, Nat.one_mul, Nat.zero_mul, List.drop_zero, List.take_of_length_le (by omega)]
  | n+2 =>
    rw [insert1_more _ rfl hs]
    have : COp.run (m := Option) (E := E) .join = fun a b => pure (joinV a b) := by funext a b; rfl
    rw [this, Verif.Insert.cellAt_eq hs]
    have hl : (a.els.drop ((n+1) * prod (g :: u))).take (prod (g :: u)) = a.els.drop ((n+1) * prod (g :: u)) := by
      apply List.take_of_length_le
      rw [List.length_drop, hc, Nat.succ_mul (n+1)]
      omega
    rw [hl, Verif.Insert.join_fold hs (Or.inr rfl) (n+1) g (by omega), show (n+1) * g + g = (n+2) * g from (Nat.succ_mul (n+1) g).symm]
    rfl

/-- `∾˝` of a list of two or more. -/
theorem insert_join_list {a : Arr E} (hf : Full a) (hs : a.sh = [n]) (hn : 2 ≤ n) : insertFn .join (.arr a) = some (.arr a) := by
  have hc : a.els.length = n := by rw [hf, hs]; simp [prod]
  match n, hn with
  | n+2, _ =>
    rw [insert1_more _ rfl hs]
    have : COp.run (m := Option) (E := E) .join = fun a b => pure (joinV a b) := by funext a b; rfl
    rw [this, Verif.Insert.cellAt_eq hs]
    have hl : (a.els.drop ((n+1) * prod [])).take (prod []) = a.els.drop ((n+1) * prod []) := by
      apply List.take_of_length_le
      rw [List.length_drop, hc]
      simp [prod]
    rw [hl, cells_succ, Verif.Insert.foldR_last]
    have e1 : (pure (joinV (Val.arr (cellAt a 1 n)) (Val.arr ⟨[], a.els.drop ((n+1) * prod [])⟩)) : Option (Option (Val E))) = pure (some (.arr ⟨[2], a.els.drop (n * prod [])⟩)) := by
      rw [Verif.Insert.cellAt_eq hs]
      show pure (some _) = pure (some _)
      congr 4
      simp only [prod, Nat.mul_one]
      show (a.els.drop n).take 1 ++ a.els.drop (n+1) = a.els.drop n
      rw [List.drop_eq_getElem_cons (show n < a.els.length by omega)]
      rfl
    rw [e1, pure_bind]
    dsimp only
    rw [Verif.Insert.join_fold hs (Or.inl ⟨rfl, rfl, rfl⟩) n 2 (by omega)]
    obtain ⟨sh, els⟩ := a
    cases hs
    rw [Nat.mul_one]
    rfl

theorem drop_two {g : Nat} {u : List Nat} (hd : x.sh.drop k = n :: g :: u) : x.sh[k+1]? = some g ∧ x.sh.drop (k+2) = u := by
  have h1 := (drop_cons hd).2.1
  exact ⟨(drop_cons h1).1, (drop_cons h1).2.1⟩

/-- When `˝` on cells is right. -/
structure InsertOk (x : Arr E) (k : Nat) (op : COp Option E) : Prop where
  /-- `∾˝` isn't for lists of one element -/
  join_one : op = .join → x.sh.drop k ≠ [1]
  /-- the two axes that become one -/
  join_two : op = .join → ∀ n g u, x.sh.drop k = n :: g :: u → n * g < 2^32
  /-- no cells and no identity -/
  missing : ∀ t, x.sh.drop k = 0 :: t → op.noCells t = none → prod (x.sh.take k) ≠ 0
  /-- the identity isn't an array -/
  ident : ∀ t, x.sh.drop k = 0 :: t → ∀ a, identV op ≠ some (.arr a)
  /-- the result exists -/
  total : ∀ t, x.sh.drop k = 0 :: t → prod (x.sh.take k) * prod t < 2^32

theorem errors (hk : k ≠ 0) (f : Operand Option (Val E) E) (h0 : prod (x.sh.take k) ≠ 0) (hr : ∀ i, i < prod (x.sh.take k) → f.run (.arr (cellAt x k i)) = none) :
    onCells fill f (.arr x) k = none := by
  unfold onCells
  dsimp only
  rw [show (Val.arr x).sh = x.sh from rfl, if_neg h0]
  obtain ⟨n, hn⟩ : ∃ n, prod (x.sh.take k) = n + 1 := ⟨prod (x.sh.take k) - 1, by omega⟩
  rw [hn, List.range_succ_eq_map, List.mapM_cons, argCell_own, hr 0 (by omega)]
  rfl

theorem insert_known (hio : io.Good) (box : Arr E → E) (op : COp Option E) (h : Arg x k) (hop : InsertOk x k op) :
    knownCells1 fill io d (.insert box op) x k = onCells fill (Known1.op io (fill x) (.insert box op)) (.arr x) k := by
  unfold knownCells1
  dsimp only
  rw [h.cam, h.generic]
  cases hd : x.sh.drop k with
  | nil => rw [if_neg (fun e => by have := h.cr_zero.2 hd; omega)]
  | cons n t =>
    have hcr := (drop_cons hd).2.2
    by_cases hfun : isFunC op = true
    · rw [if_pos ⟨by omega, hfun⟩, (drop_cons hd).1, Option.getD_some]
      by_cases hj : op = .join
      · subst hj
        rw [if_pos (show isJoin (E := E) COp.join = true from rfl)]
        unfold insertCellsJoin
        dsimp only
        rw [hcr, (drop_cons hd).1, Option.getD_some]
        cases t with
        | nil =>
          rw [if_pos (by simp)]
          by_cases hn : n = 0
          · subst hn
            rw [if_pos rfl, errors h.pos _ (hop.missing [] hd rfl)]
            intro i hi
            exact insert1_zero .join (a := cellAt x k i) hd
          · rw [if_neg hn]
            have h1 : n ≠ 1 := by rintro rfl; exact hop.join_one rfl hd
            rw [keeps h]
            · intro i hi
              exact insert_join_list (cell_full h.full hi) hd (by omega)
            · intro _
              exact ⟨insertFn .join, _, rfl, insert_join_list (a := ⟨x.sh.drop k, _⟩) (fill_len x k _) hd (by omega), rfl⟩
        | cons g u =>
          rw [if_neg (by simp), (drop_two hd).1, Option.getD_some, (drop_two hd).2, Nat.mod_eq_of_lt (hop.join_two rfl n g u hd)]
          rw [regular fill _ h.pos h.le h.cell (n * g :: u) (fun i => .arr ⟨n * g :: u, (cellAt x k i).els⟩) (fun _ _ => rfl) (fun i hi => insert_join (cell_full h.full hi) hd)
            (fun _ => ⟨insertFn .join, _, rfl, insert_join (a := ⟨x.sh.drop k, _⟩) (fill_len x k _) hd, rfl⟩)]
          have h2 := h.split
          have h3 := h.rank
          rw [hd] at h2
          rw [if_neg (show ¬ k + (n * g :: u).length > 255 by simp at h2 ⊢; omega)]
          simp only [Val.els]
          rw [rows_all h.full k]
          rfl
      · rw [if_neg (show ¬ isJoin op = true by intro e; cases op <;> first | exact hj rfl | cases e)]
        by_cases hn : n = 0
        · subst hn
          rw [if_pos rfl]
          unfold insertCellsIdentity
          cases hid : identV op with
          | none =>
            have hnc : op.noCells t = none := by
              cases op with
              | perv el i => cases i <;> first | rfl | cases hid
              | fn f i => cases i <;> first | rfl | cases hid
              | join => exact absurd rfl hj
              | _ => rfl
            dsimp only
            rw [errors h.pos _ (hop.missing t hd hnc)]
            intro i hi
            rw [← hnc]
            exact insert1_zero op (a := cellAt x k i) hd
          | some v =>
            cases v with
            | arr a => exact absurd hid (hop.ident t hd a)
            | atom e =>
              have hnc : op.noCells t = some (.arr (constant t e)) := by
                cases op with
                | perv el i => cases i <;> cases hid <;> rfl
                | fn f i => cases i <;> cases hid <;> rfl
                | _ => cases hid
              dsimp only
              rw [regular fill _ h.pos h.le h.cell t (fun _ => .arr (constant t e)) (fun _ _ => rfl) (fun i _ => (insert1_zero op (a := cellAt x k i) hd).trans hnc)
                (fun _ => ⟨insertFn op, _, rfl, (insert1_zero op (a := ⟨x.sh.drop k, _⟩) hd).trans hnc, rfl⟩)]
              have h2 := h.split
              have h3 := h.rank
              rw [hd] at h2
              rw [if_neg (show ¬ k + t.length > 255 by simp at h2; omega), (drop_cons hd).2.1]
              simp only [Val.els, constant]
              rw [replicate_flat, shProd_eq, shProd_eq, ← Nat.mul_mod, Nat.mod_eq_of_lt (hop.total t hd)]
              rfl
        · rw [if_neg hn]
          cases hb : io.boxed with
          | true => rfl
          | false =>
            simp only [Bool.false_eq_true, if_false]
            have safe : ∀ j : Nat, j < n → ∀ f : Fn1 E, (∀ a : Arr E, a.sh = n :: t → f (.arr a) = selectAt (j : Int) (.arr a)) →
                some (selectCells io j x (prod (x.sh.take k)) k) = onCells fill (pureOp f) (.arr x) k := by
              intro j hj f hf
              have hp : place (j : Int) n = some j := by
                unfold place
                rw [if_pos ⟨by omega, by omega⟩]
                rfl
              rw [selectCells_eq hio h hd hj, selectAt_cells h hd hp (pureOp f)]
              · intro a ha
                exact hf _ hd
              · intro _
                refine ⟨f, _, rfl, (hf ⟨x.sh.drop k, _⟩ hd).trans (selectAt_major (a := ⟨x.sh.drop k, _⟩) hd hj), ?_⟩
                show (cellAt _ 1 j).sh = t
                rw [cell_sh]
                show (x.sh.drop k).drop 1 = t
                rw [hd]
                rfl
            cases op with
            | ltack => exact safe 0 (by omega) _ fun a ha => insert_first ha hn
            | rtack => exact safe (n-1) (by omega) _ fun a ha => insert_last ha hn
            | join => exact absurd rfl hj
            | const v => cases hfun
            | md => cases hfun
            | perv el i =>
              dsimp only
              by_cases h1 : n = 1
              · subst h1
                rw [if_pos rfl]
                exact safe 0 (by omega) _ fun a ha => insert_one _ ha
              · rw [if_neg h1]
            | fn f i =>
              dsimp only
              by_cases h1 : n = 1
              · subst h1
                rw [if_pos rfl]
                exact safe 0 (by omega) _ fun a ha => insert_one _ ha
              · rw [if_neg h1]
    · rw [if_neg (fun e => hfun e.2)]

/-! ## Fold -/

theorem fold_zero (val : E → Val E) (op : Op Option E) {a : Arr E} (hs : a.sh = [0]) (hf : Full a) : foldFn val op (.arr a) = op.ident.map val := by
  unfold foldFn fold1
  have he : a.els = [] := List.length_eq_zero_iff.1 (by rw [hf, hs]; rfl)
  rw [if_neg (by show ¬ a.sh.length ≠ 1; rw [hs]; simp), show (Val.arr a).els = a.els from rfl, he]
  show ((some (match op.ident with | some i => Res.ok i | none => .noIdentity)).bind ofRes).map val = _
  cases op.ident <;> rfl

theorem fold_one (val : E → Val E) (op : Op Option E) {a : Arr E} {e : E} (hs : a.sh = [1]) (he : a.els = [e]) : foldFn val op (.arr a) = some (val e) := by
  unfold foldFn fold1
  rw [if_neg (by show ¬ a.sh.length ≠ 1; rw [hs]; simp), show (Val.arr a).els = a.els from rfl, he]
  rfl

theorem fold_more (val : E → Val E) (op : Op Option E) (hop : op.isMd = false) {a : Arr E} (hs : a.sh = [n]) {p q : E} {xs : List E} (he : a.els = xs ++ [p, q]) :
    foldFn val op (.arr a) = (((toRes <$> foldR (sure op.run) (xs ++ [p]) q).bind ofRes).map val) := by
  unfold foldFn fold1
  rw [if_neg (by show ¬ a.sh.length ≠ 1; rw [hs]; simp), show (Val.arr a).els = a.els from rfl, he]
  simp only [List.reverse_append, List.reverse_cons, List.reverse_nil, List.nil_append, List.cons_append, hop, Bool.false_eq_true, if_false]
  simp

theorem split_last2 {a : List E} (h : 2 ≤ a.length) : ∃ xs p q, a = xs ++ [p, q] := by
  refine ⟨a.take (a.length - 2), a[a.length - 2], a[a.length - 1], ?_⟩
  conv => lhs; rw [← List.take_append_drop (a.length - 2) a]
  congr 1
  rw [List.drop_eq_getElem_cons (by omega), List.drop_eq_getElem_cons (by omega), List.drop_of_length_le (by omega)]
  congr 2
  congr 1
  omega

theorem fold_left (val : E → Val E) {a : Arr E} (hf : Full a) (hs : a.sh = [n]) {e : E} (he : a.els[0]? = some e) : foldFn val .ltack (.arr a) = some (val e) := by
  by_cases h2 : 2 ≤ a.els.length
  · obtain ⟨xs, p, q, hx⟩ := split_last2 h2
    rw [fold_more val _ rfl hs hx]
    have : sure (m := Option) (Op.run (m := Option) (E := E) .ltack) = fun a _ => pure (some a) := by funext a b; rfl
    rw [this, Verif.Insert.foldR_left]
    rw [hx] at he
    cases xs with
    | nil => cases he; rfl
    | cons y ys => cases he; rfl
  · have hl : 0 < a.els.length := by
      by_cases h : 0 < a.els.length
      · exact h
      · rw [List.getElem?_eq_none (by omega)] at he; cases he
    have h1 : a.els.length = 1 := by omega
    have hn : n = 1 := by have := hf; unfold Full at this; rw [hs] at this; simp [prod] at this; omega
    subst hn
    match hm : a.els, h1 with
    | [y], _ =>
      rw [hm] at he
      cases he
      exact fold_one val _ hs hm

theorem fold_right (val : E → Val E) {a : Arr E} (hf : Full a) (hs : a.sh = [n]) {e : E} (he : a.els[n-1]? = some e) (hn : n ≠ 0) : foldFn val .rtack (.arr a) = some (val e) := by
  have hl : a.els.length = n := by rw [hf, hs]; simp [prod]
  by_cases h2 : 2 ≤ a.els.length
  · obtain ⟨xs, p, q, hx⟩ := split_last2 h2
    rw [fold_more val _ rfl hs hx]
    have : sure (m := Option) (Op.run (m := Option) (E := E) .rtack) = fun _ b => pure (some b) := by funext a b; rfl
    rw [this, Verif.Insert.foldR_right]
    have : e = q := by
      rw [hx] at he hl
      simp at hl
      rw [List.getElem?_append_right (by omega), show n - 1 - xs.length = 1 by omega] at he
      exact (Option.some.inj he).symm
    rw [this]
    rfl
  · have h1 : a.els.length = 1 := by omega
    obtain rfl : n = 1 := by omega
    match hm : a.els, h1 with
    | [y], _ =>
      rw [hm] at he
      cases he
      exact fold_one val _ hs hm

/-- When `´` on cells is right. -/
structure FoldOk (x : Arr E) (k : Nat) (val : E → Val E) (op : Op Option E) : Prop where
  missing : x.sh.drop k = [0] → op.ident = none → prod (x.sh.take k) ≠ 0
  ident : x.sh.drop k = [0] → ∀ e, op.ident = some e → val e = .atom e

theorem fold_known (hio : io.Good) (val : E → Val E) (hv : io.boxed = false → (∀ e ∈ x.els, val e = .atom e) ∧ val (fill x) = .atom (fill x)) (op : Op Option E) (h : Arg x k) (hop : FoldOk x k val op) :
    knownCells1 fill io d (.fold val op) x k = onCells fill (Known1.op io (fill x) (.fold val op)) (.arr x) k := by
  unfold knownCells1
  dsimp only
  rw [h.cam, h.generic]
  by_cases hcr : x.sh.length - k = 1 ∧ isFunE op = true
  · rw [if_pos hcr]
    obtain ⟨n, hd⟩ : ∃ n, x.sh.drop k = [n] := by
      have : (x.sh.drop k).length = 1 := by rw [List.length_drop]; exact hcr.1
      match hm : x.sh.drop k, this with
      | [a], _ => exact ⟨a, rfl⟩
    rw [(drop_cons hd).1, Option.getD_some]
    have hle : k + 0 ≤ 255 := by have := h.rank; have := h.le; omega
    by_cases hn : n = 0
    · subst hn
      rw [if_pos rfl]
      cases hid : op.ident with
      | none =>
        dsimp only
        rw [errors h.pos _ (hop.missing hd hid)]
        intro i hi
        refine (fold_zero val op (a := cellAt x k i) hd (cell_full h.full hi)).trans ?_
        rw [hid]
        rfl
      | some e =>
        dsimp only
        have hz : ∀ a : Arr E, a.sh = x.sh.drop k → Full a → foldFn val op (.arr a) = some (.atom e) := by
          intro a ha hf
          rw [fold_zero val op (ha.trans hd) hf, hid, Option.map_some, hop.ident hd e hid]
        rw [regular fill _ h.pos h.le h.cell [] (fun _ => .atom e) (fun _ _ => rfl) (fun i hi => hz _ rfl (cell_full h.full hi))
          (fun _ => ⟨foldFn val op, _, rfl, hz ⟨x.sh.drop k, _⟩ rfl (fill_len x k _), rfl⟩)]
        rw [if_neg (show ¬ k + ([] : List Nat).length > 255 by simp; omega), List.append_nil]
        simp only [Val.els]
        have := replicate_flat e 1 (prod (x.sh.take k))
        rw [Nat.mul_one] at this
        rw [show ((List.range (prod (x.sh.take k))).flatMap fun _ => [e]) = List.replicate (prod (x.sh.take k)) e from this]
        rfl
    · rw [if_neg hn]
      cases hb : io.boxed with
      | true => rfl
      | false =>
        simp only [Bool.false_eq_true, if_false]
        have hdp : prod (x.sh.drop k) = n := by rw [hd]; simp [prod]
        have safe : ∀ j : Nat, j < n → (∀ a : Arr E, a.sh = [n] → Full a → ∀ e, a.els[j]? = some e → foldFn val op (.arr a) = some (val e)) →
            some (selectCells io j x (prod (x.sh.take k)) k) = onCells fill (pureOp (foldFn val op)) (.arr x) k := by
          intro j hj hf
          rw [selectCells_eq hio h hd hj]
          by_cases hc : prod (x.sh.take k) = 0
          · -- no cells: the fill cell gives an element
            have hfill : ∃ v, foldFn val op (.arr ⟨x.sh.drop k, List.replicate (prod (x.sh.drop k)) (fill x)⟩) = some v ∧ v.sh = [] := by
              refine ⟨_, hf ⟨x.sh.drop k, _⟩ hd (fill_len x k _) (fill x) ?_, ?_⟩
              · show (List.replicate _ _)[j]? = _
                rw [List.getElem?_replicate, if_pos (by rw [hdp]; exact hj)]
              · rw [(hv hb).2]
                rfl
            obtain ⟨v, e1, e2⟩ := hfill
            rw [regular fill _ h.pos h.le h.cell [] (fun _ => v) (fun i hi => by omega) (fun i hi => by omega) (fun _ => ⟨_, v, rfl, e1, e2⟩), hc,
              if_neg (show ¬ k + ([] : List Nat).length > 255 by simp; omega)]
            rfl
          · rw [element_cells h (by rw [hdp]; exact hj) hc]
            · simp only [prod, Nat.mul_one, List.append_nil]
            · intro a ha e he
              rw [← (hv hb).1 e (cell_mem he)]
              exact hf _ hd (cell_full h.full ha) e he
        cases op with
        | ltack => exact safe 0 (by omega) fun a ha hf e he => fold_left val hf ha he
        | rtack => exact safe (n-1) (by omega) fun a ha hf e he => fold_right val hf ha he hn
        | const v => cases hcr.2
        | md => cases hcr.2
        | perv el i =>
          dsimp only
          by_cases h1 : n = 1
          · subst h1
            rw [if_pos rfl]
            refine safe 0 (by omega) fun a ha hf e he => ?_
            have hl : a.els.length = 1 := by rw [hf, ha]; rfl
            match hm : a.els, hl with
            | [y], _ =>
              rw [hm] at he
              cases he
              exact fold_one val _ ha hm
          · rw [if_neg h1]
        | fn f i =>
          dsimp only
          by_cases h1 : n = 1
          · subst h1
            rw [if_pos rfl]
            refine safe 0 (by omega) fun a ha hf e he => ?_
            have hl : a.els.length = 1 := by rw [hf, ha]; rfl
            match hm : a.els, hl with
            | [y], _ =>
              rw [hm] at he
              cases he
              exact fold_one val _ ha hm
          · rw [if_neg h1]
  · rw [if_neg hcr]

/-! ## Scan -/

/-- Like `regular`, for functions that may fail. -/
theorem failing (h : Arg x k) (f : Operand Option (Val E) E) (h0 : prod (x.sh.take k) ≠ 0) (r : Nat → Option (List E))
    (hr : ∀ i, i < prod (x.sh.take k) → f.run (.arr (cellAt x k i)) = (r i).map fun els => .arr ⟨x.sh.drop k, els⟩) :
    onCells fill f (.arr x) k = ((List.range (prod (x.sh.take k))).mapM r).map fun ls => .ok ⟨x.sh, ls.flatten⟩ := by
  unfold onCells
  dsimp only
  rw [show (Val.arr x).sh = x.sh from rfl, if_neg h0]
  have e1 : ((List.range (prod (x.sh.take k))).mapM fun i => f.run (argCell (.arr x) k (x.sh.take k) i)) =
      ((List.range (prod (x.sh.take k))).mapM r).map fun ls => ls.map fun els => .arr ⟨x.sh.drop k, els⟩ := by
    have : ∀ l : List Nat, (∀ i ∈ l, i < prod (x.sh.take k)) → (l.mapM fun i => f.run (argCell (.arr x) k (x.sh.take k) i)) = (l.mapM r).map fun ls => ls.map fun els => .arr ⟨x.sh.drop k, els⟩ := by
      intro l
      induction l with
      | nil => intro _; rfl
      | cons a l ih =>
        intro hl
        rw [List.mapM_cons, List.mapM_cons, ih (fun i hi => hl i (List.mem_cons_of_mem _ hi)), argCell_own, hr a (hl a (List.mem_cons_self ..))]
        cases r a with
        | none => rfl
        | some e =>
          cases l.mapM r with
          | none => rfl
          | some es => rfl
    exact this _ fun i hi => List.mem_range.1 hi
  rw [e1]
  cases hm : (List.range (prod (x.sh.take k))).mapM r with
  | none => rfl
  | some ls =>
    show some (merge _ (ls.map _)) = some _
    congr 1
    have hne : ls ≠ [] := by
      rintro rfl
      obtain ⟨n, hn⟩ : ∃ n, prod (x.sh.take k) = n + 1 := ⟨prod (x.sh.take k) - 1, by omega⟩
      rw [hn, List.range_succ_eq_map, List.mapM_cons] at hm
      cases hr0 : r 0 with
      | none => rw [hr0] at hm; cases hm
      | some e =>
        rw [hr0] at hm
        cases h1 : ((List.range n).map Nat.succ).mapM r with
        | none => rw [h1] at hm; cases hm
        | some es => rw [h1] at hm; cases hm
    cases ls with
    | nil => exact absurd rfl hne
    | cons l ls =>
      unfold merge
      rw [List.map_cons]
      dsimp only
      have htl : (x.sh.take k).length = k := by rw [List.length_take]; have := h.le; omega
      have hsp := h.split
      have hrk := h.rank
      rw [if_neg (by rw [htl]; show ¬ (k > 0 ∧ k + (x.sh.drop k).length > 255); omega), if_pos]
      · rw [show (Val.arr (⟨x.sh.drop k, l⟩ : Arr E)).sh = x.sh.drop k from rfl, List.take_append_drop, ← List.map_cons (f := fun els => Val.arr (⟨x.sh.drop k, els⟩ : Arr E)), List.flatMap_map _ _ _]
        congr 2
        rw [List.flatMap_def]
        simp only [Val.els, List.map_id']
      · rw [List.all_eq_true]
        intro v hv
        obtain ⟨l', _, rfl⟩ := List.mem_map.1 hv
        show (x.sh.drop k == x.sh.drop k) = true
        simp

theorem scanRow_eq (f : E → E → Option E) : ∀ (xs : List E) (p : E), scanFrom f [p] xs = scanRow f p xs
  | [], _ => rfl
  | y :: xs, p => by
    rw [scanFrom, scanRow]
    cases f p y with
    | none => rfl
    | some r =>
      show ((scanFrom f ([] ++ [r]) xs).bind fun rs => some (r :: rs)) = ((scanRow f r xs).bind fun rs => some (r :: rs))
      rw [List.nil_append, scanRow_eq f xs r]

/-- A row: its first element, and what comes from it. -/
def scanOne (f : E → E → Option E) : List E → Option (List E)
  | [] => some []
  | x :: xs => (scanRow f x xs).map (x :: ·)

theorem scanStride1_eq (f : E → E → Option E) {m : Nat} (hm : m ≠ 0) : ∀ (n : Nat) (xs : List E) (fuel : Nat), xs.length = n * m → n ≤ fuel →
    scanStride1 f m fuel xs = ((List.range n).mapM fun i => scanOne f ((xs.drop (i * m)).take m)).map List.flatten
  | 0, xs, fuel, hl, _ => by
    rw [Nat.zero_mul] at hl
    rw [List.length_eq_zero_iff.1 hl]
    cases fuel <;> rfl
  | n+1, xs, fuel, hl, hf => by
    have hs : (n+1) * m = n * m + m := Nat.succ_mul ..
    match fuel, xs with
    | fuel+1, [] => simp at hl; omega
    | fuel+1, y :: ys =>
      have hly : ys.length + 1 = (n+1) * m := hl
      rw [scanStride1]
      have e1 : ys.drop (m - 1) = (y :: ys).drop m := by
        cases m with
        | zero => exact absurd rfl hm
        | succ m => simp
      have e2 : (y :: ys).take m = y :: ys.take (m - 1) := by
        cases m with
        | zero => exact absurd rfl hm
        | succ m => simp
      rw [e1, scanStride1_eq f hm n ((y :: ys).drop m) fuel (by rw [List.length_drop]; show ys.length + 1 - m = n * m; omega) (by omega)]
      rw [List.range_succ_eq_map, List.mapM_cons, List.mapM_map, Nat.zero_mul, List.drop_zero, e2]
      show (scanRow f y (ys.take (m-1))).bind _ = ((((scanRow f y (ys.take (m-1))).map (y :: ·)).bind _).map _)
      have e3 : (List.range n).mapM ((fun i => scanOne f (((y :: ys).drop (i * m)).take m)) ∘ Nat.succ) = (List.range n).mapM fun i => scanOne f ((((y :: ys).drop m).drop (i * m)).take m) := by
        apply mapM_congr
        intro i _
        show scanOne f (((y :: ys).drop ((i+1) * m)).take m) = _
        rw [List.drop_drop, Nat.succ_mul, Nat.add_comm m]
      cases scanRow f y (ys.take (m-1)) with
      | none => rfl
      | some rs =>
        simp only [Option.bind_some, Option.map_some]
        have e4 := e3
        simp only [Function.comp_def] at e4
        simp only [Function.comp_def]
        rw [e4]
        cases (List.range n).mapM fun i => scanOne f ((((y :: ys).drop m).drop (i * m)).take m) with
        | none => rfl
        | some ls => rfl

theorem scan_cell (op : Op Option E) (hop : op.isMd = false) {a : Arr E} (hf : Full a) (hs : a.sh = n :: t) (hn : 1 < n) (ht : prod t = 1) :
    scanFn op (.arr a) = (scanOne op.run a.els).map fun els => .arr ⟨a.sh, els⟩ := by
  have hl : a.els.length = n := by rw [hf, hs, prod, ht, Nat.mul_one]
  unfold scanFn scan1
  dsimp only
  rw [hs]
  dsimp only
  rw [if_neg (by omega), hop]
  simp only [Bool.false_eq_true, if_false]
  rw [ht]
  match hm : a.els, hl with
  | [], h => simp at h; omega
  | y :: ys, _ =>
    show (((scanFrom op.run [y] ys).bind fun rs => some (Res.ok ⟨n :: t, [y] ++ rs⟩)).bind ofRes).map Val.arr = _
    rw [scanRow_eq]
    unfold scanOne
    dsimp only
    cases scanRow op.run y ys <;> rfl

theorem scan_right {a : Arr E} (hs : a.sh = n :: t) : scanFn .rtack (.arr a) = some (.arr a) := by
  unfold scanFn scan1
  dsimp only
  rw [hs]
  dsimp only
  by_cases h : n ≤ 1 ∨ prod t = 0
  · rw [if_pos h]; rfl
  · rw [if_neg h]
    have key : ∀ (xs prev : List E), prev ≠ [] → scanFrom (Op.run (m := Option) (E := E) .rtack) prev xs = some xs := by
      intro xs
      induction xs with
      | nil => intro prev _; rfl
      | cons y xs ih =>
        intro prev hp
        cases prev with
        | nil => exact absurd rfl hp
        | cons p prev =>
          rw [scanFrom]
          show Option.bind (scanFrom (m := Option) _ (prev ++ [y]) xs) (fun rs => some (y :: rs)) = _
          rw [ih _ (by simp)]
          rfl
    by_cases h2 : a.els = []
    · rw [h2]
      obtain ⟨sh, els⟩ := a
      cases hs
      cases h2
      simp [scanFrom, Op.isMd]
      rfl
    · simp only [Op.isMd, Bool.false_eq_true, if_false]
      rw [key _ _ (by
        intro e
        have := congrArg List.length e
        rw [List.length_take] at this
        have h3 : 0 < a.els.length := List.length_pos_iff.2 h2
        rw [List.length_nil] at this
        omega)]
      show (some (Val.arr ⟨n :: t, a.els.take (prod t) ++ a.els.drop (prod t)⟩)) = _
      rw [List.take_append_drop]
      obtain ⟨sh, els⟩ := a
      cases hs
      rfl

theorem scan_short (op : Op Option E) {a : Arr E} (hs : a.sh = n :: t) (h : n ≤ 1 ∨ prod t = 0) : scanFn op (.arr a) = some (.arr a) := by
  unfold scanFn scan1
  dsimp only
  rw [hs]
  dsimp only
  rw [if_pos h]
  rfl

/-- When `` ` `` on cells is right: there are cells, or the function has a result for a cell of fills. -/
def ScanOk (fill : Arr E → E) (x : Arr E) (k : Nat) (op : Op Option E) : Prop :=
  prod (x.sh.take k) = 0 → ∃ v, scanFn op (.arr ⟨x.sh.drop k, List.replicate (prod (x.sh.drop k)) (fill x)⟩) = some v ∧ v.sh = x.sh.drop k

theorem scan_known (op : Op Option E) (h : Arg x k) (hop : x.sh.drop k ≠ [] → ScanOk fill x k op) :
    knownCells1 fill io d (.scan op) x k = onCells fill (Known1.op io (fill x) (.scan op)) (.arr x) k := by
  unfold knownCells1
  dsimp only
  rw [h.cam, h.generic]
  have htot := h.total
  cases hd : x.sh.drop k with
  | nil => rw [if_pos (h.cr_zero.2 hd)]
  | cons n t =>
    have hok := hop (by rw [hd]; simp)
    have hs : prod (x.sh.take k) = 0 → ∃ p v, (Known1.op io (fill x) (.scan op)).safe = some p ∧ p (.arr ⟨x.sh.drop k, List.replicate (prod (x.sh.drop k)) (fill x)⟩) = some v ∧ v.sh = x.sh.drop k := by
      intro h0
      obtain ⟨v, e1, e2⟩ := hok h0
      exact ⟨scanFn op, v, rfl, e1, e2⟩
    rw [if_neg (by rw [(drop_cons hd).2.2]; omega), (drop_cons hd).1, Option.getD_some, (drop_cons hd).2.2]
    by_cases h1 : n ≤ 1 ∨ x.els.length = 0
    · rw [if_pos h1, keeps h _ _ hs]
      intro i hi
      refine scan_short op (a := cellAt x k i) hd ?_
      rcases h1 with h1 | h1
      · exact Or.inl h1
      · rw [hd, prod] at htot
        rw [h1] at htot
        by_cases h2 : n ≤ 1
        · exact Or.inl h2
        · refine Or.inr ?_
          by_cases h3 : prod t = 0
          · exact h3
          · have : 0 < prod (x.sh.take k) * (n * prod t) := Nat.mul_pos (by omega) (Nat.mul_pos (by omega) (by omega))
            omega
    · rw [if_neg h1]
      cases hfun : isFunE op with
      | false => rfl
      | true =>
        simp only [Bool.not_true, Bool.false_eq_true, if_false]
        have hc : prod (x.sh.take k) ≠ 0 := by intro e; rw [e, Nat.zero_mul] at htot; omega
        by_cases hrt : op = .rtack
        · subst hrt
          dsimp only
          rw [keeps h _ _ hs]
          intro i hi
          exact scan_right (a := cellAt x k i) hd
        · have hmd : op.isMd = false := by cases op <;> first | rfl | cases hfun
          have goal : (if (t.length + 1 = 1 ∨ prod (x.sh.take k) * n % 2^32 = x.els.length) ∧ n ≤ 6 then (scanStride1 op.run n x.els.length x.els).map fun els => Out.ok ⟨x.sh, els⟩
              else onCells fill (Known1.op io (fill x) (.scan op)) (.arr x) k) = onCells fill (Known1.op io (fill x) (.scan op)) (.arr x) k := by
            by_cases h2 : (t.length + 1 = 1 ∨ prod (x.sh.take k) * n % 2^32 = x.els.length) ∧ n ≤ 6
            · rw [if_pos h2]
              have ht : prod t = 1 := by
                rcases h2.1 with h3 | h3
                · have : t = [] := List.length_eq_zero_iff.1 (by omega)
                  subst this; rfl
                · rw [hd, prod, ← Nat.mul_assoc] at htot
                  have h5 : 0 < prod t := by
                    by_cases h6 : prod t = 0
                    · rw [h6, Nat.mul_zero] at htot; omega
                    · omega
                  have h4 := Nat.le_mul_of_pos_right (prod (x.sh.take k) * n) h5
                  have hlen := h.len
                  rw [Nat.mod_eq_of_lt (by omega)] at h3
                  have h7 : 0 < prod (x.sh.take k) * n := Nat.mul_pos (by omega) (by omega)
                  by_cases h8 : prod t = 1
                  · exact h8
                  · have h9 : prod (x.sh.take k) * n * 2 ≤ prod (x.sh.take k) * n * prod t := Nat.mul_le_mul_left _ (by omega)
                    omega
              have hdp : prod (x.sh.drop k) = n := by rw [hd, prod, ht, Nat.mul_one]
              rw [hdp] at htot
              have hle : prod (x.sh.take k) ≤ x.els.length := by rw [htot]; exact Nat.le_mul_of_pos_right _ (by omega)
              rw [scanStride1_eq op.run (by omega) _ x.els _ htot hle]
              rw [failing h (Known1.op io (fill x) (.scan op)) hc (fun i => scanOne op.run ((x.els.drop (i * n)).take n))]
              · rw [Option.map_map]
                rfl
              · intro i hi
                refine (scan_cell op hmd (a := cellAt x k i) (cell_full h.full hi) hd (by omega) ht).trans ?_
                rw [cell_sh]
                unfold cellAt
                dsimp only
                rw [hdp]
            · rw [if_neg h2]
          cases op with
          | rtack => exact absurd rfl hrt
          | _ => exact goal

end Verif.Known
