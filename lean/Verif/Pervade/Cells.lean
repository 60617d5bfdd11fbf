import Verif.Pervade.Each
import Verif.Pervade.Atom
/-!
# Comparisons: pairs of elements
-/
namespace Verif.Pervade
open Verif.Rotate (prod prod_append)
open Verif.Squeeze (Val Data)

theorem abss_map : ∀ vs : List V, abss vs = vs.map abs
  | [] => rfl
  | v :: vs => by rw [abss, abss_map vs, List.map_cons]

theorem abs_ofVal (a : Val) : abs (ofVal a) = tv a := by cases a <;> rfl

theorem abs_atomT {v : V} (h : v.isArr = false) : abs v = atomT v := by
  cases v <;> first | rfl | cases h

def T.sh : T → List Nat
  | .arr sh _ => sh
  | _ => []

def T.els : T → List T
  | .arr _ xs => xs
  | _ => []

theorem abs_atom (v : V) : (abs v).atom = !v.isArr := by cases v <;> rfl
theorem abs_sh (v : V) : (abs v).sh = v.sh := by cases v <;> rfl
theorem abs_els (v : V) : (abs v).els = v.els.map abs := by
  cases v with
  | typed sh d =>
    show d.elems.map tv = (d.elems.map ofVal).map abs
    rw [List.map_map]
    exact List.map_congr_left fun a _ => (abs_ofVal a).symm
  | boxed sh xs => exact abss_map xs
  | _ => rfl

/-- `cell` for trees. -/
def cellT (v : T) (sh : List Nat) (i : Nat) : T :=
  if v.atom then v else v.els.getD (i / prod (sh.drop v.sh.length)) (.num 0)

theorem getD_map' {α β : Type} (f : α → β) (l : List α) (i : Nat) (d : α) : (l.map f).getD i (f d) = f (l.getD i d) := by
  rw [List.getD_eq_getElem?_getD, List.getD_eq_getElem?_getD, List.getElem?_map]
  cases l[i]? <;> rfl

theorem abs_cell (v : V) (sh : List Nat) (i : Nat) : abs (cell v sh i) = cellT (abs v) sh i := by
  unfold cell cellT
  rw [abs_atom, abs_sh, abs_els]
  cases v.isArr
  · rfl
  · show abs (v.els.getD _ _) = (v.els.map abs).getD _ (abs (.num 0))
    rw [getD_map']

def FullT : T → Prop
  | .arr sh xs => xs.length = prod sh
  | _ => True

theorem full_abs {v : V} (h : Full v) : FullT (abs v) := by
  cases v with
  | typed sh d => show (d.elems.map tv).length = prod sh; rw [List.length_map]; have := h rfl; rw [V.els, List.length_map] at this; exact this
  | boxed sh xs => show (abss xs).length = prod sh; rw [abss_map, List.length_map]; exact h rfl
  | _ => trivial

theorem getD_of {α : Type} {l : List α} {i : Nat} {a : α} (d : α) (h : l[i]? = some a) : l.getD i d = a := by
  rw [List.getD_eq_getElem?_getD, h]; rfl

theorem getD_some {α : Type} {l : List α} {i : Nat} (d : α) (h : i < l.length) : l[i]? = some (l.getD i d) := by
  rw [List.getD_eq_getElem?_getD, List.getElem?_eq_getElem h]; rfl

/-- Which pairs `Pairs` compares. -/
theorem pairs_iff {p : T → T → Option Bool} {w x y : T} (hw : FullT w) (hx : FullT x) (h : w.atom = false ∨ x.atom = false) :
    Pairs p w x y ↔ Agree w.sh x.sh ∧ ∃ ys : List T, y = .arr (big w.sh x.sh) ys ∧ ys.length = prod (big w.sh x.sh) ∧
      ∀ (i : Nat) y, ys[i]? = some y → Pairs p (cellT w (big w.sh x.sh) i) (cellT x (big w.sh x.sh) i) y := by
  have atomsh : ∀ {v : T}, v.atom = true → v.sh = [] := by
    intro v hv; cases v <;> first | rfl | cases hv
  have cella : ∀ {v : T}, v.atom = true → ∀ sh i, cellT v sh i = v := by
    intro v hv sh i; unfold cellT; rw [if_pos hv]
  have cells : ∀ (s t : List Nat) (vs : List T) (i : Nat), cellT (.arr s vs) (s ++ t) i = vs.getD (i / prod t) (.num 0) := by
    intro s t vs i
    show vs.getD (i / prod ((s ++ t).drop s.length)) _ = _
    rw [List.drop_left']; rfl
  have cells0 : ∀ (s : List Nat) (vs : List T) (i : Nat), cellT (.arr s vs) s i = vs.getD i (.num 0) := by
    intro s vs i
    have := cells s [] vs i
    rw [List.append_nil] at this
    rw [this, prod, Nat.div_one]
  have lt : ∀ {s t : List Nat} {i : Nat}, i < prod (s ++ t) → i / prod t < prod s := by
    intro s t i h
    rw [prod_append] at h
    exact Nat.div_lt_of_lt_mul (by rw [Nat.mul_comm]; exact h)
  constructor
  · intro hp
    cases hp with
    | atoms a b c => rcases h with h | h; rw [a] at h; cases h; rw [b] at h; cases h
    | @left _ sh xs ys a l hh =>
      rw [atomsh a]
      have bg : big [] (T.arr sh xs).sh = sh := if_neg (by simp)
      have hl : ys.length = prod sh := by rw [l]; exact hx
      rw [bg]
      refine ⟨Agree.of_prefix [] sh, ys, rfl, hl, ?_⟩
      intro i y hy
      rw [cella a, cells0]
      have hi : i < xs.length := by rw [← l]; exact (List.getElem?_eq_some_iff.1 hy).1
      exact hh i _ y (getD_some _ hi) hy
    | @right _ sh ws ys a l hh =>
      rw [atomsh a]
      have bg : big (T.arr sh ws).sh [] = sh := by
        unfold big
        cases sh with
        | nil => rfl
        | cons s sh => exact if_pos (Nat.succ_pos _)
      have hl : ys.length = prod sh := by rw [l]; exact hw
      rw [bg]
      refine ⟨(Agree.of_prefix [] sh).symm, ys, rfl, hl, ?_⟩
      intro i y hy
      rw [cella a, cells0]
      have hi : i < ws.length := by rw [← l]; exact (List.getElem?_eq_some_iff.1 hy).1
      exact hh i _ y (getD_some _ hi) hy
    | @short sh t ws xs ys l hh =>
      have bg : big (T.arr sh ws).sh (T.arr (sh ++ t) xs).sh = sh ++ t := if_neg (by show ¬ sh.length > (sh ++ t).length; rw [List.length_append]; omega)
      have hl : ys.length = prod (sh ++ t) := by rw [l]; exact hx
      rw [bg]
      refine ⟨Agree.of_prefix sh t, ys, rfl, hl, ?_⟩
      intro i y hy
      have hi : i < xs.length := by rw [← l]; exact (List.getElem?_eq_some_iff.1 hy).1
      have hi' : i / prod t < ws.length := by
        have e1 : xs.length = prod (sh ++ t) := hx
        have e2 : ws.length = prod sh := hw
        rw [e2]; exact lt (by omega)
      rw [cells, cells0]
      exact hh i _ _ y (getD_some _ hi') (getD_some _ hi) hy
    | @long sh t ws xs ys l hh =>
      have bg : big (T.arr (sh ++ t) ws).sh (T.arr sh xs).sh = sh ++ t := by
        unfold big
        cases t with
        | nil =>
          rw [if_neg (by show ¬ (sh ++ []).length > sh.length; rw [List.append_nil]; omega)]
          exact (List.append_nil sh).symm
        | cons a t => exact if_pos (by show (sh ++ a :: t).length > sh.length; rw [List.length_append, List.length_cons]; omega)
      have hl : ys.length = prod (sh ++ t) := by rw [l]; exact hw
      rw [bg]
      refine ⟨(Agree.of_prefix sh t).symm, ys, rfl, hl, ?_⟩
      intro i y hy
      have hi : i < ws.length := by rw [← l]; exact (List.getElem?_eq_some_iff.1 hy).1
      have hi' : i / prod t < xs.length := by
        have e1 : ws.length = prod (sh ++ t) := hw
        have e2 : xs.length = prod sh := hx
        rw [e2]; exact lt (by omega)
      rw [cells, cells0]
      exact hh i _ _ y (getD_some _ hi) (getD_some _ hi') hy
  · rintro ⟨A, ys, rfl, l, hh⟩
    by_cases wa : w.atom = true
    · have xa : x.atom = false := by
        rcases h with h | h
        · rw [wa] at h; cases h
        · exact h
      cases x with
      | arr sh xs =>
        rw [atomsh wa] at hh l ⊢
        have bg : big [] (T.arr sh xs).sh = sh := if_neg (by simp)
        rw [bg] at hh l ⊢
        refine .left wa (by rw [l]; exact Eq.symm hx) ?_
        intro i x y hx' hy
        have := hh i y hy
        rw [cella wa, cells0, getD_of _ hx'] at this
        exact this
      | _ => cases xa
    · by_cases xa : x.atom = true
      · cases w with
        | arr sh ws =>
          rw [atomsh xa] at hh l ⊢
          have bg : big (T.arr sh ws).sh [] = sh := by
            unfold big
            cases sh with
            | nil => rfl
            | cons s sh => exact if_pos (Nat.succ_pos _)
          rw [bg] at hh l ⊢
          refine .right xa (by rw [l]; exact Eq.symm hw) ?_
          intro i w y hw' hy
          have := hh i y hy
          rw [cella xa, cells0, getD_of _ hw'] at this
          exact this
        | _ => exact absurd rfl wa
      · cases w with
        | arr s ws =>
          cases x with
          | arr t xs =>
            rcases A.cases with ⟨u, e, bg⟩ | ⟨u, e, _, bg⟩
            · have e : t = s ++ u := e
              subst e
              rw [bg] at hh l ⊢
              refine .short (by rw [l]; exact Eq.symm hx) ?_
              intro i w x y hw' hx' hy
              have := hh i y hy
              rw [T.sh, cells, cells0, getD_of _ hw', getD_of _ hx'] at this
              exact this
            · have e : s = t ++ u := e
              subst e
              rw [bg] at hh l ⊢
              refine .long (by rw [l]; exact Eq.symm hw) ?_
              intro i w x y hw' hx' hy
              have := hh i y hy
              rw [T.sh, cells, cells0, getD_of _ hw', getD_of _ hx'] at this
              exact this
          | _ => exact absurd rfl xa
        | _ => exact absurd rfl wa

/-! ## Results -/

/-- The result is that of `Pairs`, or an error when there is none. -/
def Good (p : T → T → Option Bool) (w x : T) (o : Out V) : Prop :=
  (∃ r, o = .ok r ∧ Pairs p w x (abs r)) ∨ (o = .err ∧ ∀ y, ¬ Pairs p w x y)

instance : LawfulMonad Out := LawfulMonad.mk'
  (id_map := by intro α x; cases x <;> rfl)
  (pure_bind := by intros; rfl)
  (bind_assoc := by intro α β γ x f g; cases x <;> rfl)

theorem out_mapM {α β : Type} {f : α → Out β} : ∀ {l : List α}, (∀ a ∈ l, (∃ b, f a = .ok b) ∨ f a = .err) →
    (∃ bs : List β, l.mapM f = .ok bs ∧ bs.length = l.length ∧ ∀ (i : Nat) b, bs[i]? = some b → ∃ a, l[i]? = some a ∧ f a = .ok b) ∨
    (l.mapM f = .err ∧ ∃ a ∈ l, f a = .err)
  | [], _ => .inl ⟨[], rfl, rfl, fun i b h => by simp at h⟩
  | a :: l, h => by
    have e : (a :: l).mapM f = (f a).bind fun b => (l.mapM f).bind fun bs => .ok (b :: bs) := by rw [List.mapM_cons]; rfl
    rw [e]
    rcases h a List.mem_cons_self with ⟨b, hb⟩ | hb
    · rw [hb]
      rcases out_mapM (l := l) (fun a ha => h a (List.mem_cons_of_mem _ ha)) with ⟨bs, e, hl, hh⟩ | ⟨e, a', ha, hh⟩
      · rw [e]
        refine .inl ⟨b :: bs, rfl, by rw [List.length_cons, List.length_cons, hl], ?_⟩
        intro i c hc
        cases i with
        | zero => simp at hc; exact ⟨a, rfl, by rw [hb, hc]⟩
        | succ i => exact hh i c (by simpa using hc)
      · rw [e]
        exact .inr ⟨rfl, a', List.mem_cons_of_mem _ ha, hh⟩
    · rw [hb]
      exact .inr ⟨rfl, a, List.mem_cons_self, hb⟩

/-- One pair without a result. -/
theorem no_pairs {p : T → T → Option Bool} {w x : T} (hw : FullT w) (hx : FullT x) (h : w.atom = false ∨ x.atom = false)
    {i : Nat} (hi : i < prod (big w.sh x.sh)) (hn : ∀ y, ¬ Pairs p (cellT w (big w.sh x.sh) i) (cellT x (big w.sh x.sh) i) y) :
    ∀ y, ¬ Pairs p w x y := by
  intro y hy
  obtain ⟨_, ys, rfl, l, hh⟩ := (pairs_iff hw hx h).1 hy
  exact hn _ (hh i _ (List.getElem?_eq_getElem (by omega)))

/-- Each gives what its operand gives on every pair. -/
theorem each_good {p : T → T → Option Bool} {f : V → V → Out V} {w x : V} (hw : Full w) (hx : Full x) (h : w.isArr = true ∨ x.isArr = true)
    (H : ∀ i, i < prod (big w.sh x.sh) → Good p (abs (cell w (big w.sh x.sh) i)) (abs (cell x (big w.sh x.sh) i))
      (f (cell w (big w.sh x.sh) i) (cell x (big w.sh x.sh) i))) :
    Good p (abs w) (abs x) (match eachd f w x with | some o => o | none => .err) := by
  have h' : (abs w).atom = false ∨ (abs x).atom = false := by
    rw [abs_atom, abs_atom]
    rcases h with h | h
    · left; rw [h]; rfl
    · right; rw [h]; rfl
  have hw' := full_abs hw
  have hx' := full_abs hx
  have I := fun y => pairs_iff (p := p) (y := y) hw' hx' h'
  have N := @no_pairs p _ _ hw' hx' h'
  rw [abs_sh, abs_sh] at I N
  rw [eachd_eq f hw hx]
  by_cases A : Agree w.sh x.sh
  · rw [if_pos A]
    dsimp only
    have H' : ∀ i ∈ List.range (prod (big w.sh x.sh)), (∃ b, f (cell w (big w.sh x.sh) i) (cell x (big w.sh x.sh) i) = .ok b) ∨
        f (cell w (big w.sh x.sh) i) (cell x (big w.sh x.sh) i) = .err := by
      intro i hi
      rcases H i (List.mem_range.1 hi) with ⟨r, e, _⟩ | ⟨e, _⟩
      · exact .inl ⟨r, e⟩
      · exact .inr e
    rcases out_mapM H' with ⟨bs, e, l, hh⟩ | ⟨e, i, hi, hh⟩
    · rw [e]
      refine .inl ⟨_, rfl, ?_⟩
      refine (I _).2 ⟨A, abss bs, rfl, by rw [abss_map, List.length_map, l, List.length_range], ?_⟩
      intro i y hy
      rw [abss_map] at hy
      obtain ⟨b, hb, rfl⟩ := map_some hy
      obtain ⟨j, hj, hf⟩ := hh i b hb
      have hi : i < prod (big w.sh x.sh) := by
        have := (List.getElem?_eq_some_iff.1 hj).1
        rw [List.length_range] at this
        exact this
      rw [List.getElem?_range hi] at hj
      injection hj with hj
      subst hj
      rcases H i hi with ⟨r, e', q⟩ | ⟨e', _⟩
      · rw [hf] at e'
        injection e' with e'
        subst e'
        rw [abs_cell, abs_cell] at q
        exact q
      · rw [hf] at e'; cases e'
    · rw [e]
      have hi := List.mem_range.1 hi
      refine .inr ⟨rfl, N hi ?_⟩
      rcases H i hi with ⟨r, e', q⟩ | ⟨e', q⟩
      · rw [hh] at e'; cases e'
      · rw [abs_cell, abs_cell] at q
        exact q
  · rw [if_neg A]
    refine .inr ⟨rfl, ?_⟩
    intro y hy
    exact A ((I y).1 hy).1

/-! ## The other way round -/

theorem pairs_flip {p q : T → T → Option Bool} (h : ∀ a b, p a b = q b a) {w x y : T} (hp : Pairs p w x y) : Pairs q x w y := by
  induction hp with
  | atoms a b c => exact .atoms b a (by rw [← h]; exact c)
  | left a l _ ih => exact .right a l ih
  | right a l _ ih => exact .left a l ih
  | short l _ ih => exact .long l fun i w x y hw hx hy => ih i x w y hx hw hy
  | long l _ ih => exact .short l fun i w x y hw hx hy => ih i x w y hx hw hy

theorem good_flip {p q : T → T → Option Bool} (h : ∀ a b, p a b = q b a) {w x : T} {o : Out V} (g : Good p w x o) : Good q x w o := by
  rcases g with ⟨r, e, g⟩ | ⟨e, g⟩
  · exact .inl ⟨r, e, pairs_flip h g⟩
  · exact .inr ⟨e, fun y hy => g y (pairs_flip (fun a b => (h b a).symm) hy)⟩

theorem int_rev (op : Op) (a b : Int) : op.rev.int a b = op.int b a := by
  cases op <;> simp only [Op.rev, Op.int, decide_eq_decide] <;> omega

theorem dbl_rev (op : Op) (f g : BitVec 64) : op.rev.dbl f g = op.dbl g f := by
  unfold Op.dbl
  rw [int_rev, Bool.or_comm]
  cases op <;> rfl

theorem rel_rev {same : Nat → Nat → Bool} (hs : ∀ i j, same i j = same j i) (op : Op) (a b : T) : rel same op.rev a b = rel same op b a := by
  cases a <;> cases b <;> first
    | (show some (op.rev.dbl _ _) = some (op.dbl _ _); rw [dbl_rev])
    | (show some (op.rev.int _ _) = some (op.int _ _); rw [int_rev])
    | (cases op <;> first | rfl | (show some (same _ _) = some (same _ _); rw [hs]) | (show some (!same _ _) = some (!same _ _); rw [hs]))

end Verif.Pervade
