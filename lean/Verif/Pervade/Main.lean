import Verif.Pervade.Cells
import Verif.BitFn.Main
/-!
# Comparisons: every path gives the pairs
-/
namespace Verif.Pervade
open Verif.Bins (ofInt)
open Verif.Rotate (prod prod_append)
open Verif.Bits (Word bitF)
open Verif.Squeeze (Val El Data conv feq toI32 toIw EqF Same Sames feq_iff Holds)
open Verif.BitFn (Mem memOf rd put wr loop shProd isChr)

/-! ## Typed arrays -/

/-- Characters have codes below 2⋆31. -/
def Chars (d : Data) : Prop := ∀ c, .chr c ∈ d.elems → c.toNat < 2^31

theorem Chars.ok {d : Data} (h : Chars d) : CharsOk d := by
  cases d with
  | c32 xs => exact fun c hc => h c (List.mem_map_of_mem hc)
  | _ => trivial

theorem sames_get : ∀ {as bs : List Val}, Sames as bs → ∀ {i : Nat} {b : Val}, bs[i]? = some b → ∃ a, as[i]? = some a ∧ Same a b
  | _, _, .nil, i, b, h => by simp at h
  | _, _, .cons s ss, 0, b, h => by simp at h; subst h; exact ⟨_, rfl, s⟩
  | _, _, .cons s ss, i+1, b, h => sames_get ss (by simpa using h)

theorem Chars.sames {d d' : Data} (h : Chars d) (s : Sames d'.elems d.elems) : Chars d' := by
  intro c hc
  obtain ⟨i, hi, e⟩ := List.mem_iff_getElem.1 hc
  obtain ⟨b, hb, sm⟩ := sames_get s.symm (i := i) (b := .chr c) (by rw [List.getElem?_eq_getElem hi, e])
  cases b with
  | chr c' =>
    have : c' = c := sm
    subst this
    exact h _ (List.mem_of_getElem? hb)
  | num f => exact sm.elim
  | other j => exact sm.elim

/-- `aMakeEq` gives two arrays of one type with the same elements. -/
theorem makeEq_spec (bad : BitVec 64 → BitVec 32) {w x : Data} (hw : w.ty ≠ .B) (hx : x.ty ≠ .B) (cw : Chars w) (cx : Chars x) :
    makeEq bad w x = none ∨ ∃ w' x', makeEq bad w x = some (some (w', x')) ∧ x'.ty = w'.ty ∧ w'.ty ≠ .B ∧
      Sames w'.elems w.elems ∧ Sames x'.elems x.elems ∧ Chars w' ∧ Chars x' := by
  unfold makeEq
  by_cases k : ((isNum w.ty && isNum x.ty) || (isChr w.ty && isChr x.ty)) = true
  · right
    rw [if_pos k]
    by_cases l : w.ty.rank < x.ty.rank
    · rw [if_pos l]
      obtain ⟨w', e, t, s⟩ := Squeeze.conv_spec bad (t := x.ty) (d := w) fun v hv => holds_wider k (by omega) (Squeeze.elems_hold w v hv)
      rw [e]
      exact ⟨w', x, rfl, t.symm, by rw [t]; exact hx, s, Sames.refl _, cw.sames s, cx⟩
    · rw [if_neg l]
      obtain ⟨x', e, t, s⟩ := Squeeze.conv_spec bad (t := w.ty) (d := x) fun v hv =>
        holds_wider (t := x.ty) (u := w.ty) (by rw [Bool.and_comm, Bool.and_comm (isChr x.ty)]; exact k) (by omega) (Squeeze.elems_hold x v hv)
      rw [e]
      exact ⟨w, x', rfl, t, hw, Sames.refl _, s, cw, cx.sames s⟩
  · left
    rw [if_neg k]

/-- Bits with the shape of the result, each that of its pair, or an error for a pair that cannot be compared. -/
def Typed (p : T → T → Option Bool) (w x : T) (o : Out V) : Prop :=
  (∃ bs, o = .ok (.typed (big w.sh x.sh) (.bit bs)) ∧ bs.length = prod (big w.sh x.sh) ∧
    ∀ (i : Nat) b, bs[i]? = some b → p (cellT w (big w.sh x.sh) i) (cellT x (big w.sh x.sh) i) = some b) ∨
  (o = .err ∧ ∃ i, i < prod (big w.sh x.sh) ∧ p (cellT w (big w.sh x.sh) i) (cellT x (big w.sh x.sh) i) = none)

theorem atom_pairs {p : T → T → Option Bool} {w x y : T} (hw : w.atom = true) (hx : x.atom = true) :
    Pairs p w x y ↔ ∃ b, p w x = some b ∧ y = truth b := by
  constructor
  · intro h
    cases h with
    | atoms a b c => exact ⟨_, c, rfl⟩
    | left => cases hx
    | right => cases hw
    | short => cases hw
    | long => cases hw
  · rintro ⟨b, e, rfl⟩
    exact .atoms hw hx e

theorem Typed.good {p : T → T → Option Bool} {w x : T} {o : Out V} (hw : FullT w) (hx : FullT x) (h : w.atom = false ∨ x.atom = false)
    (A : Agree w.sh x.sh) (H : ∀ i, i < prod (big w.sh x.sh) → (cellT w (big w.sh x.sh) i).atom = true ∧ (cellT x (big w.sh x.sh) i).atom = true)
    (t : Typed p w x o) : Good p w x o := by
  rcases t with ⟨bs, e, l, hh⟩ | ⟨e, i, hi, hn⟩
  · refine .inl ⟨_, e, ?_⟩
    refine (pairs_iff hw hx h).2 ⟨A, _, rfl, by rw [List.length_map, Data.elems, List.length_map, l], ?_⟩
    intro i y hy
    have hi := (List.getElem?_eq_some_iff.1 hy).1
    rw [List.length_map, Data.elems, List.length_map, l] at hi
    obtain ⟨v, hv, rfl⟩ := map_some hy
    obtain ⟨b, hb, rfl⟩ := map_some hv
    exact .atoms (H i hi).1 (H i hi).2 (hh i b hb)
  · refine .inr ⟨e, no_pairs hw hx h hi ?_⟩
    intro y hy
    obtain ⟨b, hb, _⟩ := (atom_pairs (H i hi).1 (H i hi).2).1 hy
    rw [hn] at hb
    cases hb

theorem tv_atom (a : Val) : (tv a).atom = true := by cases a <;> rfl

theorem cellT_same (sh : List Nat) (ts : List T) (i : Nat) : cellT (.arr sh ts) sh i = ts.getD i (.num 0) := by
  show ts.getD (i / prod (sh.drop sh.length)) _ = _
  rw [List.drop_length, prod, Nat.div_one]

theorem bits_get {l : Nat} {r : Mem} {i : Nat} {b : Bool} (h : ((List.range l).map (bitF r))[i]? = some b) : i < l ∧ b = bitF r i := by
  obtain ⟨j, hj, rfl⟩ := map_some h
  have hi := (List.getElem?_eq_some_iff.1 hj).1
  rw [List.length_range] at hi
  rw [List.getElem?_range hi] at hj
  injection hj with hj
  subst hj
  exact ⟨hi, rfl⟩

theorem cell_typed {sh : List Nat} {d : Data} {i : Nat} {a : Val} (h : d.elems[i]? = some a) : cellT (abs (.typed sh d)) sh i = tv a := by
  show cellT (.arr sh (d.elems.map tv)) sh i = _
  rw [cellT_same]
  exact getD_of _ (by rw [List.getElem?_map, h]; rfl)

/-- Two typed arrays of one shape. -/
theorem aa_typed (same : Nat → Nat → Bool) {op : Op} (h1 : op ≠ .le) (h2 : op ≠ .lt) {sh : List Nat} {w x : Data} {w' x' : Data}
    (lw : w.elems.length = prod sh) (lx : x.elems.length = prod sh)
    (ht : x'.ty = w'.ty) (hB : w'.ty ≠ .B) (sw : Sames w'.elems w.elems) (sx : Sames x'.elems x.elems) (cw : Chars w') (cx : Chars x') (e : Env) {o : Out V}
    (ho : o = if x'.elems.length ≠ 0 then
        match fnAA op w'.ty (memOf e.wtail w') (memOf e.xtail x') x'.elems.length e.junk with
        | some r => .ok (bits sh x'.elems.length r)
        | none => .ub
      else .ok (bits sh x'.elems.length e.junk)) :
    Typed (rel same op) (abs (.typed sh w)) (abs (.typed sh x)) o := by
  have lx' : x'.elems.length = prod sh := by rw [sx.length, lx]
  have lw' : w'.elems.length = prod sh := by rw [sw.length, lw]
  have bg : big (abs (.typed sh w)).sh (abs (.typed sh x)).sh = sh := big_self sh
  left
  rw [bg]
  by_cases z : x'.elems.length ≠ 0
  · rw [if_pos z] at ho
    obtain ⟨r, e', hh⟩ := fnAA_spec same h1 h2 ht hB cw.ok cx.ok e.wtail e.xtail e.junk (l := x'.elems.length) (by rw [lw', lx'])
    rw [e'] at ho
    refine ⟨_, ho, by rw [List.length_map, List.length_range, lx'], ?_⟩
    intro i b hb
    obtain ⟨hi, rfl⟩ := bits_get hb
    have hi : i < prod sh := by omega
    have ew := List.getElem?_eq_getElem (l := w.elems) (i := i) (by omega)
    have ex := List.getElem?_eq_getElem (l := x.elems) (i := i) (by omega)
    rw [cell_typed ew, cell_typed ex]
    obtain ⟨a', ea, sa⟩ := sames_get sw ew
    obtain ⟨b', eb, sb⟩ := sames_get sx ex
    rw [← rel_same_left same op sa, ← rel_same_right same op sb]
    exact hh i a' b' ea eb
  · rw [if_neg z] at ho
    refine ⟨_, ho, by rw [List.length_map, List.length_range, lx'], ?_⟩
    intro i b hb
    obtain ⟨hi, rfl⟩ := bits_get hb
    omega

theorem full_typed {sh : List Nat} {d : Data} (h : Sound (.typed sh d)) : Full (.typed sh d) := by
  intro _
  rw [V.els, List.length_map]
  exact h.2.1

theorem cells_atom {sh : List Nat} {d : Data} (h : d.elems.length = prod sh) {i : Nat} (hi : i < prod sh) : (cellT (abs (.typed sh d)) sh i).atom = true := by
  rw [cell_typed (List.getElem?_eq_getElem (l := d.elems) (i := i) (by omega))]
  exact tv_atom _

theorem recOp_good {same : Nat → Nat → Bool} (hs : ∀ i j, same i j = same j i) {recd : Op → V → V → Out V} {w x : V}
    (h1 : ∀ op, Good (rel same op) (abs w) (abs x) (recd op w x)) (h2 : ∀ op, Good (rel same op) (abs x) (abs w) (recd op x w)) (op : Op) (s : Bool) :
    Good (rel same op) (abs w) (abs x) (recOp recd op s w x) := by
  have f : ∀ op : Op, Good (rel same op.rev) (abs x) (abs w) (recd op.rev x w) → Good (rel same op) (abs w) (abs x) (recd op.rev x w) :=
    fun op g => good_flip (fun a b => rel_rev hs op a b) g
  cases op with
  | le => cases s; exact h1 .le; exact f .le (h2 .ge)
  | lt => cases s; exact h1 .lt; exact f .lt (h2 .gt)
  | ge => cases s; exact h1 .ge; exact f .ge (h2 .le)
  | gt => cases s; exact h1 .gt; exact f .gt (h2 .lt)
  | eq => exact h1 .eq
  | ne => exact h1 .ne

/-- Shapes that differ although the ranks do not. -/
theorem differ_same_rank {s t : List Nat} (l : s.length = t.length) (h : s ≠ t) : ¬ Agree s t := by
  unfold Agree
  rw [← l, Nat.min_self, List.take_length, l, List.take_length]
  exact h

theorem disagree_good {p : T → T → Option Bool} {w x : V} (hw : Full w) (hx : Full x) (h : w.isArr = true) (A : ¬ Agree w.sh x.sh) :
    Good p (abs w) (abs x) .err := by
  refine .inr ⟨rfl, fun y hy => A ?_⟩
  have := ((pairs_iff (full_abs hw) (full_abs hx) (.inl (by rw [abs_atom, h]; rfl))).1 hy).1
  rw [abs_sh, abs_sh] at this
  exact this

/-- Two typed arrays of one rank. -/
theorem opAA_same {same : Nat → Nat → Bool} (hs : ∀ i j, same i j = same j i) (bad : BitVec 64 → BitVec 32) {c2' recd : Op → V → V → Out V}
    {op : Op} (h1 : op ≠ .le) (h2 : op ≠ .lt) {wsh xsh : List Nat} {w x : Data} (hw : Sound (.typed wsh w)) (hx : Sound (.typed xsh x))
    (hr : wsh.length = xsh.length)
    (r1 : ∀ op, Good (rel same op) (abs (.typed wsh w)) (abs (.typed xsh x)) (recd op (.typed wsh w) (.typed xsh x)))
    (r2 : ∀ op, Good (rel same op) (abs (.typed xsh x)) (abs (.typed wsh w)) (recd op (.typed xsh x) (.typed wsh w))) (e : Env) (s : Bool) :
    Good (rel same op) (abs (.typed wsh w)) (abs (.typed xsh x)) (opAA c2' recd bad e op s (.typed wsh w) (.typed xsh x)) := by
  unfold opAA
  dsimp only
  rw [if_neg (not_not_intro hr)]
  by_cases es : wsh = xsh
  · subst es
    rw [if_neg (not_not_intro rfl)]
    obtain ⟨wB, wl, wp, wc⟩ := hw
    obtain ⟨xB, xl, xp, xc⟩ := hx
    have fin : ∀ {o}, Typed (rel same op) (abs (.typed wsh w)) (abs (.typed wsh x)) o → Good (rel same op) (abs (.typed wsh w)) (abs (.typed wsh x)) o := by
      intro o t
      have bg : big (abs (.typed wsh w)).sh (abs (.typed wsh x)).sh = wsh := big_self wsh
      refine t.good (full_abs (full_typed ⟨wB, wl, wp, wc⟩)) (full_abs (full_typed ⟨xB, xl, xp, xc⟩)) (.inl rfl) rfl ?_
      rw [bg]
      intro i hi
      exact ⟨cells_atom wl hi, cells_atom xl hi⟩
    by_cases et : w.ty = x.ty
    · rw [if_neg (not_not_intro et)]
      exact fin (aa_typed same h1 h2 wl xl et.symm wB (Sames.refl _) (Sames.refl _) wc xc e rfl)
    · rw [if_pos et]
      rcases makeEq_spec bad wB xB wc xc with h | ⟨w', x', h, t, b, sw, sx, cw, cx⟩
      · rw [h]
        exact recOp_good hs r1 r2 op s
      · rw [h]
        exact fin (aa_typed same h1 h2 wl xl t b sw sx cw cx e rfl)
  · rw [if_pos es]
    exact disagree_good (full_typed hw) (full_typed hx) rfl (differ_same_rank hr es)

/-- An element of a typed array is not a function. -/
theorem not_fn {d : Data} (h : d.ty ≠ .B) {v : Val} (hv : v ∈ d.elems) : ∀ i, v ≠ .other i := by
  intro i e
  subst e
  cases d <;> first | exact absurd rfl h | (obtain ⟨a, _, e⟩ := List.mem_map.1 hv; cases e)

/-- An atom and a typed array. -/
theorem opSA_typed {same : Nat → Nat → Bool} (hs : ∀ i j, same i j = same j i) (bad : BitVec 64 → BitVec 32) {recd : Op → V → V → Out V}
    (op : Op) {xsh : List Nat} {w : V} {x : Data} (hw : w.isArr = false) (hx : Sound (.typed xsh x)) (e : Env) (s : Bool) :
    Typed (rel same op) (abs w) (abs (.typed xsh x)) (opSA same recd bad e op s w (.typed xsh x)) := by
  obtain ⟨xB, xl, xp, xc⟩ := hx
  have bg : big (abs w).sh (abs (.typed xsh x)).sh = xsh := by
    rw [abs_sh, sh_atom hw]
    exact if_neg (by simp)
  have wc : ∀ i, cellT (abs w) xsh i = atomT w := by
    intro i
    unfold cellT
    rw [abs_atom, hw, abs_atomT hw]
    rfl
  unfold Typed
  rw [bg]
  unfold opSA
  dsimp only
  by_cases z : x.elems.length ≠ 0
  · rw [if_pos z]
    rcases fnAS_spec same bad op.rev xB e.xtail hw e.junk with ⟨r, e', h⟩ | ⟨e', i, a, ha, hn⟩
    · rw [e']
      refine .inl ⟨_, rfl, by rw [List.length_map, List.length_range, xl], ?_⟩
      intro i b hb
      obtain ⟨hi, rfl⟩ := bits_get hb
      have ex := List.getElem?_eq_getElem (l := x.elems) (i := i) hi
      rw [wc, cell_typed ex, ← rel_rev hs]
      exact h i _ ex
    · rw [e']
      refine .inr ⟨rfl, i, ?_, ?_⟩
      · rw [← xl]; exact (List.getElem?_eq_some_iff.1 ha).1
      · rw [wc, cell_typed ha, ← rel_rev hs]
        exact hn
  · rw [if_neg z]
    refine .inl ⟨_, rfl, by rw [List.length_map, List.length_range, xl], ?_⟩
    intro i b hb
    obtain ⟨hi, rfl⟩ := bits_get hb
    omega

theorem Typed.flip {p q : T → T → Option Bool} (h : ∀ a b, p a b = q b a) {w x : T} (hx : x.sh = [] ∨ w.sh = []) {o : Out V} (t : Typed p w x o) : Typed q x w o := by
  have bg : big x.sh w.sh = big w.sh x.sh := by
    rcases hx with e | e
    · rw [e]
      unfold big
      cases w.sh <;> rfl
    · rw [e]
      unfold big
      cases x.sh <;> rfl
  unfold Typed at *
  rw [bg]
  rcases t with ⟨bs, e, l, hh⟩ | ⟨e, i, hi, hn⟩
  · exact .inl ⟨bs, e, l, fun i b hb => by rw [← h]; exact hh i b hb⟩
  · exact .inr ⟨e, i, hi, by rw [← h]; exact hn⟩

end Verif.Pervade
