import Verif.Join.Checks
/-!
# Join: the checks of all axes
-/
namespace Verif.Join
open Verif.Cells (Arr Val Full)
open Verif.Rotate
variable {E : Type}

theorem mapM_opt {A B : Type} (f : A → Option B) : ∀ (l : List A), (∀ a ∈ l, (f a).isSome) →
    ∃ cs, l.mapM f = some cs ∧ cs.length = l.length ∧ ∀ k : Nat, cs[k]? = (l[k]?).bind f
  | [], _ => ⟨[], rfl, rfl, fun _ => rfl⟩
  | a :: l, h => by
    obtain ⟨cs, e, hl, hk⟩ := mapM_opt f l fun b hb => h b (List.mem_cons_of_mem _ hb)
    obtain ⟨c, hc⟩ := Option.isSome_iff_exists.1 (h a (List.mem_cons_self ..))
    refine ⟨c :: cs, by rw [List.mapM_cons, hc, e]; rfl, by rw [List.length_cons, List.length_cons, hl], fun k => ?_⟩
    cases k with
    | zero => exact hc.symm
    | succ k => exact hk k

theorem line_eq (x : Arr (Val E)) (b step n : Nat) (h : ∀ i < n, b + i * step < x.els.length) :
    ∃ cs, line x b step n = .ok cs ∧ cs.length = n ∧ ∀ i, i < n → cs[i]? = x.els[b + i * step]? := by
  obtain ⟨cs, e, hl, hk⟩ := mapM_opt (fun i => x.els[b + i * step]?) (List.range n) (fun i hi => by
    show (x.els[b + i * step]?).isSome
    rw [List.getElem?_eq_getElem (h i (List.mem_range.1 hi))]; rfl)
  refine ⟨cs, by unfold line; rw [e]; rfl, by rw [hl, List.length_range], fun i hi => ?_⟩
  rw [hk, List.getElem?_range hi]; rfl

/-- What `axisLens` gives for an element. -/
def lenOf (s r1 : Nat) (c : Val E) : Option Nat := if rank c < r1 then none else c.sh[s]?

theorem axisLens_spec (r0 tr r1 : Nat) : ∀ cs : List (Val E), (∀ c ∈ cs, r1 ≤ rank c → r0 - tr < rank c) →
    ((∀ c ∈ cs, r1 ≤ rank c + 1) → axisLens r0 tr r1 cs = .ok (cs.map (lenOf (r0 - tr) r1))) ∧
    ((¬ ∀ c ∈ cs, r1 ≤ rank c + 1) → axisLens r0 tr r1 cs = .err)
  | [], _ => ⟨fun _ => rfl, fun h => absurd (fun _ hp => by cases hp) h⟩
  | c :: cs, hc => by
    obtain ⟨ih1, ih2⟩ := axisLens_spec r0 tr r1 cs fun c h => hc c (List.mem_cons_of_mem _ h)
    have hc0 := hc c (List.mem_cons_self ..)
    by_cases h : r1 ≤ rank c + 1
    · have e : axisLens r0 tr r1 (c :: cs) = (axisLens r0 tr r1 cs).bind fun ls => .ok (lenOf (r0 - tr) r1 c :: ls) := by
        rw [axisLens]
        unfold lenOf
        by_cases h1 : rank c < r1
        · rw [if_pos (by omega), if_neg (by omega), if_pos h1]; rfl
        · rw [if_neg (by omega), if_neg h1]
          rw [List.getElem?_eq_getElem (show r0 - tr < c.sh.length from hc0 (by omega))]; rfl
      rw [e]
      refine ⟨fun hall => ?_, fun hn => ?_⟩
      · rw [ih1 fun c h => hall c (List.mem_cons_of_mem _ h)]; rfl
      · rw [ih2 fun hall => hn fun p hp => ?_]; rfl
        rcases List.mem_cons.1 hp with rfl | hp
        · exact h
        · exact hall p hp
    · refine ⟨fun hall => absurd (hall c (List.mem_cons_self ..)) h, fun _ => ?_⟩
      rw [axisLens]
      rw [if_pos (by omega), if_pos (by omega)]; rfl

/-- What a base element has of the axes before. -/
def leadAt (x : Arr (Val E)) (t : List Nat) (j : Nat) : List Nat :=
  match x.els[j]? with
  | some v => v.sh.take (v.sh.length - t.length)
  | none => []

theorem leadAt_eq {x : Arr (Val E)} {t q : List Nat} {j : Nat} {v : Val E} (h : x.els[j]? = some v) (hv : v.sh = q ++ t) : leadAt x t j = q := by
  unfold leadAt
  rw [h]
  show v.sh.take _ = _
  rw [hv, List.length_append, Nat.add_sub_cancel, List.take_left]

theorem mem_zip_get {A B : Type} {p : A × B} : ∀ {l : List A} {r : List B}, p ∈ l.zip r → ∃ i : Nat, l[i]? = some p.1 ∧ r[i]? = some p.2
  | [], _, h => by cases h
  | _ :: _, [], h => by cases h
  | a :: l, b :: r, h => by
    rcases List.mem_cons.1 h with rfl | h
    · exact ⟨0, rfl, rfl⟩
    · obtain ⟨i, h1, h2⟩ := mem_zip_get h
      exact ⟨i + 1, h1, h2⟩

theorem zip_get_mem {A B : Type} {a : A} {b : B} : ∀ {l : List A} {r : List B} {i : Nat}, l[i]? = some a → r[i]? = some b → (a, b) ∈ l.zip r
  | [], _, i, h, _ => by simp at h
  | _ :: _, [], i, _, h => by simp at h
  | a' :: l, b' :: r, 0, h1, h2 => by
    cases h1; cases h2; exact List.mem_cons_self ..
  | a' :: l, b' :: r, i+1, h1, h2 => List.mem_cons_of_mem _ (zip_get_mem (i := i) h1 h2)

/-- Everything on the lines from `js` is as it should be. -/
def Lines (x : Arr (Val E)) (step n : Nat) (t : List Nat) (a0 : Bool) (ll : Lens) (js : List Nat) : Prop :=
  ∀ j ∈ js, ∀ i v, 1 ≤ i → i < n → x.els[j + i * step]? = some v → v.sh = leadAt x t j ++ ((ll[i]?.getD none).toList ++ left a0 t)

theorem checkAll_spec (junk : List Nat) (x : Arr (Val E)) (step n : Nat) (t : List Nat) (a0 : Bool) (ll : Lens) (hn : 1 ≤ n) (hll : ll.length = n)
    (ht : a0 = true → t ≠ []) (hall : a0 = false → ∀ a ∈ t, ∀ b ∈ t, a = b) (hj0 : 0 < junk.length) :
    ∀ js : List Nat, (∀ j ∈ js, (∀ i < n, j + i * step < x.els.length) ∧ ∀ v, x.els[j]? = some v → ∃ q, v.sh = q ++ t ∧ q.length + t.length < 255 ∧ q.length + t.length + (if a0 then 0 else 1) ≤ junk.length) →
    (Lines x step n t a0 ll js → checkAll junk x step n t.length a0 ll js = .ok ()) ∧
    (¬ Lines x step n t a0 ll js → checkAll junk x step n t.length a0 ll js = .err)
  | [], _ => ⟨fun _ => rfl, fun h => absurd (fun _ hp => by cases hp) h⟩
  | j :: js, hjs => by
    obtain ⟨ih1, ih2⟩ := checkAll_spec junk x step n t a0 ll hn hll ht hall hj0 js fun c h => hjs c (List.mem_cons_of_mem _ h)
    obtain ⟨hin, hbase⟩ := hjs j (List.mem_cons_self ..)
    obtain ⟨cs, e, hl, hk⟩ := line_eq x j step n hin
    rw [checkAll, e]
    cases cs with
    | nil => exact absurd hl (by show ¬ 0 = n; omega)
    | cons base rest =>
      have hb : x.els[j]? = some base := by
        have := hk 0 (by omega)
        rw [Nat.zero_mul, Nat.add_zero] at this
        exact this.symm
      obtain ⟨q, hq, h255, hjl⟩ := hbase base hb
      have hlead := leadAt_eq hb hq
      obtain ⟨c1, c2⟩ := checkBase_spec junk q t a0 base ((ll.drop 1).zip rest) hq h255 ht hall hjl hj0
      have hiff : (∀ p ∈ (ll.drop 1).zip rest, p.2.sh = q ++ (p.1.toList ++ left a0 t)) ↔
          ∀ i v, 1 ≤ i → i < n → x.els[j + i * step]? = some v → v.sh = leadAt x t j ++ ((ll[i]?.getD none).toList ++ left a0 t) := by
        rw [hlead]
        constructor
        · intro h i v h1 h2 hv
          obtain ⟨k, rfl⟩ : ∃ k, i = k + 1 := ⟨i - 1, by omega⟩
          have hr : rest[k]? = some v := by rw [← hv, ← hk (k+1) h2]; rfl
          have hlk : ll[k + 1]? = some ll[k + 1] := List.getElem?_eq_getElem (by omega)
          have := h (ll[k + 1], v) (zip_get_mem (i := k) (by rw [List.getElem?_drop, Nat.add_comm]; exact hlk) hr)
          rw [hlk]; exact this
        · intro h p hp
          obtain ⟨k, h1, h2⟩ := mem_zip_get hp
          have hkn : k + 1 < n := by
            have := (List.getElem?_eq_some_iff.1 h2).1
            rw [List.length_cons] at hl; omega
          rw [List.getElem?_drop, Nat.add_comm] at h1
          have := h (k + 1) p.2 (by omega) hkn (by rw [← hk (k+1) hkn]; exact h2)
          rw [h1] at this; exact this
      show (_ → (checkBase junk t.length a0 base ((ll.drop 1).zip rest)).bind _ = _) ∧ (_ → (checkBase junk t.length a0 base ((ll.drop 1).zip rest)).bind _ = _)
      by_cases hg : ∀ p ∈ (ll.drop 1).zip rest, p.2.sh = q ++ (p.1.toList ++ left a0 t)
      · rw [c1 hg]
        refine ⟨fun h => ih1 fun j hj => h j (List.mem_cons_of_mem _ hj), fun h => ih2 fun hall => h fun j' hj' => ?_⟩
        rcases List.mem_cons.1 hj' with rfl | hj'
        · exact hiff.1 hg
        · exact hall j' hj'
      · rw [c2 hg]
        exact ⟨fun h => absurd (hiff.2 (h j (List.mem_cons_self ..))) hg, fun _ => rfl⟩

theorem foldl_max (l : List Nat) : ∀ a, a ≤ l.foldl max a ∧ (∀ b ∈ l, b ≤ l.foldl max a) ∧ (l.foldl max a = a ∨ l.foldl max a ∈ l) := by
  induction l with
  | nil => exact fun a => ⟨Nat.le_refl _, (fun _ h => absurd h List.not_mem_nil), .inl rfl⟩
  | cons b l ih =>
    intro a
    obtain ⟨h1, h2, h3⟩ := ih (max a b)
    rw [List.foldl_cons]
    refine ⟨by omega, fun c hc => ?_, ?_⟩
    · rcases List.mem_cons.1 hc with rfl | hc
      · omega
      · exact h2 c hc
    · rcases h3 with h3 | h3
      · rw [h3]
        by_cases hab : b ≤ a
        · exact .inl (by omega)
        · exact .inr (by rw [show max a b = b by omega]; exact List.mem_cons_self ..)
      · exact .inr (List.mem_cons_of_mem _ h3)

/-! ## One axis -/

/-- What is asked of `𝕩`: the ranks aren't the highest, and `shcpy` over itself doesn't matter, see `join_overlap`. -/
structure Good (x : Arr (Val E)) (x0 : Val E) : Prop where
  full : Full x
  root : x.els[0]? = some x0
  ranks : ∀ v ∈ x.els, rank v < 255
  copy : (∀ v ∈ x.els, rank v ≤ rank x0) ∨ ∀ a ∈ x0.sh, ∀ b ∈ x0.sh, a = b

/-- The elements at the start of the axes `sh` fit along the axes before it. -/
structure Inv (x : Arr (Val E)) (x0 : Val E) (done sh : List Nat) (ls : List Lens) (t : List Nat) : Prop where
  lengths : ls.map List.length = done
  present : ∀ l ∈ ls, ∃ n, some n ∈ l
  suffix : t <:+ x0.sh
  shapes : ∀ is v, InShape done is → x.els[ravel done is * prod sh]? = some v → v.sh = elementShape ls is t

theorem zeros_in : ∀ {sh : List Nat}, 0 < prod sh → InShape sh (sh.map fun _ => 0)
  | [], _ => .nil
  | s :: sh, h => by
    have h : 0 < s * prod sh := h
    exact .cons (Nat.pos_of_mul_pos_right h) (zeros_in (Nat.pos_of_mul_pos_left h))

theorem zeros_ravel : ∀ (sh : List Nat), ravel sh (sh.map fun _ => 0) = 0
  | [] => rfl
  | s :: sh => by
    show 0 * _ + ravel sh (sh.map fun _ => 0) = 0
    rw [zeros_ravel sh]; omega

theorem els_pos {x : Arr (Val E)} {x0 : Val E} (g : Good x x0) : 0 < prod x.sh := by
  have := (List.getElem?_eq_some_iff.1 g.root).1
  rw [← g.full]; exact this

theorem ravel_snoc {done is : List Nat} (h : InShape done is) (n i : Nat) : ravel (done ++ [n]) (is ++ [i]) = ravel done is * n + i := by
  rw [ravel_append h]
  show ravel done is * (n * 1) + (i * 1 + 0) = _
  rw [Nat.mul_one, Nat.mul_one, Nat.add_zero]

theorem InShape.snoc {done js : List Nat} {n : Nat} (h : InShape (done ++ [n]) js) : ∃ is i, js = is ++ [i] ∧ InShape done is ∧ i < n := by
  obtain ⟨i1, i2, e, h1, h2⟩ := InShape.split h
  cases h2 with
  | cons hi h2 => cases h2; exact ⟨i1, _, e, h1, hi⟩

/-- Where the elements of the line of `is` are. -/
theorem line_pos (r n s i : Nat) : (r * n + i) * s = r * (n * s) + i * s := by
  rw [Nat.add_mul, Nat.mul_assoc]

theorem root_shape {x : Arr (Val E)} {x0 : Val E} (g : Good x x0) {done sh : List Nat} {ls : List Lens} {t : List Nat} (hs : x.sh = done ++ sh) (h : Inv x x0 done sh ls t) :
    x0.sh = elementShape ls (done.map fun _ => 0) [] ++ t := by
  have hp := els_pos g
  rw [hs, prod_append] at hp
  rw [← elementShape_lead]
  refine h.shapes _ x0 (zeros_in (Nat.pos_of_mul_pos_right hp)) ?_
  rw [zeros_ravel, Nat.zero_mul]; exact g.root

/-- The next step of the invariant, in terms of the line. -/
theorem inv_next {x : Arr (Val E)} {x0 : Val E} {done sh : List Nat} {ls : List Lens} {t t' : List Nat} {n : Nat} {l : Lens} (h : Inv x x0 done (n :: sh) ls t)
    (hl : l.length = n) (hp : ∃ m, some m ∈ l) (hsuf : t' <:+ x0.sh)
    (hall : ∀ is i v, InShape done is → i < n → x.els[ravel done is * (n * prod sh) + i * prod sh]? = some v → v.sh = elementShape ls is [] ++ ((l[i]?.getD none).toList ++ t')) :
    Inv x x0 (done ++ [n]) sh (ls ++ [l]) t' where
  lengths := by rw [List.map_append, h.lengths, List.map_cons, hl]; rfl
  present := by
    intro k hk
    rcases List.mem_append.1 hk with hk | hk
    · exact h.present k hk
    · rw [List.mem_singleton.1 hk]; exact hp
  suffix := hsuf
  shapes := by
    intro js v hjs hv
    obtain ⟨is, i, rfl, his, hi⟩ := InShape.snoc hjs
    rw [ravel_snoc his, line_pos] at hv
    rw [elementShape_snoc]
    · exact hall is i v his hi hv
    · rw [his.length, ← h.lengths, List.length_map]

theorem inv_prev {x : Arr (Val E)} {x0 : Val E} {done sh : List Nat} {ls : List Lens} {t' : List Nat} {n : Nat} {l : Lens} (h : Inv x x0 (done ++ [n]) sh (ls ++ [l]) t') (hd : ls.map List.length = done)
    {is : List Nat} {i : Nat} {v : Val E} (his : InShape done is) (hi : i < n) (hv : x.els[ravel done is * (n * prod sh) + i * prod sh]? = some v) :
    v.sh = elementShape ls is [] ++ ((l[i]?.getD none).toList ++ t') := by
  rw [← elementShape_snoc]
  · refine h.shapes _ v (his.append (.cons hi .nil)) ?_
    rw [ravel_snoc his, line_pos]; exact hv
  · rw [his.length, ← hd, List.length_map]

/-- What an axis of at least two positions does. -/
theorem axis_eq {x : Arr (Val E)} {x0 : Val E} (g : Good x x0) (junk : List Nat) (hj : junk.length = x.sh.length + rank x0) {done sh : List Nat} {n : Nat} (hs : x.sh = done ++ n :: sh) {ls : List Lens} {t : List Nat}
    (h : Inv x x0 done (n :: sh) ls t) (hn : n ≠ 1) :
    ∃ (cs : List (Val E)) (r1 : Nat) (a0 : Bool), cs.length = n ∧ (∀ i, i < n → cs[i]? = x.els[i * prod sh]?) ∧ (∀ c ∈ cs, rank c ≤ r1) ∧ (∃ c ∈ cs, rank c = r1) ∧ (a0 = true ↔ r1 = rank x0) ∧
      (t = [] ∧ a0 = true → axis junk x x0 n (prod sh) (prod done) t.length = .err) ∧
      (¬ (t = [] ∧ a0 = true) →
        ((¬ ∀ c ∈ cs, r1 ≤ rank c + 1) → axis junk x x0 n (prod sh) (prod done) t.length = .err) ∧
        ((∀ c ∈ cs, r1 ≤ rank c + 1) →
          (¬ Lines x (prod sh) n t a0 (cs.map (lenOf (rank x0 - t.length) r1)) ((List.range (prod done)).map (· * (n * prod sh))) → axis junk x x0 n (prod sh) (prod done) t.length = .err) ∧
          (Lines x (prod sh) n t a0 (cs.map (lenOf (rank x0 - t.length) r1)) ((List.range (prod done)).map (· * (n * prod sh))) →
            axis junk x x0 n (prod sh) (prod done) t.length = .ok (cs.map (lenOf (rank x0 - t.length) r1), t.length - (if a0 then 1 else 0))))) := by
  have hlen : x.els.length = prod done * (n * prod sh) := by rw [g.full, hs, prod_append]; rfl
  have hpos : 0 < prod done * (n * prod sh) := by rw [← hlen, g.full]; exact els_pos g
  have hpn := Nat.pos_of_mul_pos_left hpos
  have hn0 : 0 < n := Nat.pos_of_mul_pos_right hpn
  have hps : 0 < prod sh := Nat.pos_of_mul_pos_left hpn
  have hin : ∀ r < prod done, ∀ i < n, r * (n * prod sh) + i * prod sh < x.els.length := by
    intro r hr i hi
    have h1 := Nat.mul_le_mul_right (n * prod sh) (show r + 1 ≤ prod done from hr)
    have h2 := Nat.mul_le_mul_right (prod sh) (show i + 1 ≤ n from hi)
    rw [Nat.succ_mul] at h1 h2
    omega
  obtain ⟨cs, e, hl, hk⟩ := line_eq x 0 (prod sh) n fun i hi => by
    have := hin 0 (Nat.pos_of_mul_pos_right hpos) i hi
    rw [Nat.zero_mul] at this; exact this
  have hk' : ∀ i, i < n → cs[i]? = x.els[i * prod sh]? := fun i hi => by rw [hk i hi, Nat.zero_add]
  have hc0 : cs[0]? = some x0 := by rw [hk' 0 hn0, Nat.zero_mul, g.root]
  have hm0 : x0 ∈ cs := List.mem_of_getElem? hc0
  obtain ⟨m1, m2, m3⟩ := foldl_max (cs.map rank) (rank x0)
  refine ⟨cs, (cs.map rank).foldl max (rank x0), (cs.map rank).foldl max (rank x0) == rank x0, hl, hk', fun c hc => m2 _ (List.mem_map_of_mem hc), ?_, beq_iff_eq, ?_⟩
  · rcases m3 with m3 | m3
    · exact ⟨x0, hm0, m3.symm⟩
    · obtain ⟨c, hc, e⟩ := List.mem_map.1 m3
      exact ⟨c, hc, e⟩
  · generalize hr1 : (cs.map rank).foldl max (rank x0) = r1 at *
    have hx0 := root_shape g hs h
    have hr0 : rank x0 = (elementShape ls (done.map fun _ => 0) []).length + t.length := by rw [rank, hx0, List.length_append]
    have hax : axis junk x x0 n (prod sh) (prod done) t.length = if t.length = 0 ∧ (r1 == rank x0) = true then .err else
        (axisLens (rank x0) t.length r1 cs).bind fun ll =>
          (checkAll junk x (prod sh) n t.length (r1 == rank x0) ll ((List.range (prod done)).map (· * (n * prod sh)))).bind fun _ =>
          .ok (ll, t.length - (if (r1 == rank x0) then 1 else 0)) := by
      unfold axis
      dsimp only
      rw [if_neg hn, e]
      show (if t.length = 0 ∧ ((cs.map rank).foldl max (rank x0) == rank x0) = true then _ else _) = _
      rw [hr1]
    refine ⟨fun ht => by rw [hax, if_pos ⟨by rw [ht.1]; rfl, ht.2⟩], fun ht => ?_⟩
    have ht' : ¬ (t.length = 0 ∧ (r1 == rank x0) = true) := fun hh => ht ⟨List.length_eq_zero_iff.1 hh.1, hh.2⟩
    rw [hax, if_neg ht']
    obtain ⟨a1, a2⟩ := axisLens_spec (rank x0) t.length r1 cs (fun c hc hle => by
      by_cases hr : r1 = rank x0
      · have : t.length ≠ 0 := fun h0 => ht' ⟨h0, by rw [hr]; exact beq_self_eq_true _⟩
        omega
      · omega)
    refine ⟨fun hh => by rw [a2 hh]; rfl, fun hh => ?_⟩
    rw [a1 hh]
    have hcopy : (r1 == rank x0) = false → ∀ a ∈ t, ∀ b ∈ t, a = b := by
      intro hf
      have hne : r1 ≠ rank x0 := by
        intro h'; rw [h', beq_self_eq_true] at hf; cases hf
      rcases g.copy with hc | hc
      · exfalso
        rcases m3 with m3 | m3
        · exact hne m3
        · obtain ⟨c, hcm, ec⟩ := List.mem_map.1 m3
          obtain ⟨i, hi⟩ := List.mem_iff_getElem?.1 hcm
          have hin' := (List.getElem?_eq_some_iff.1 hi).1
          rw [hk' i (by omega)] at hi
          have := hc c (List.mem_of_getElem? hi)
          omega
      · exact fun a ha b hb => hc a (h.suffix.subset ha) b (h.suffix.subset hb)
    obtain ⟨c1, c2⟩ := checkAll_spec junk x (prod sh) n t (r1 == rank x0) (cs.map (lenOf (rank x0 - t.length) r1)) hn0 (by rw [List.length_map, hl])
      (fun ha he => ht ⟨he, ha⟩) hcopy (by rw [hj, hs, List.length_append, List.length_cons]; omega) ((List.range (prod done)).map (· * (n * prod sh))) (by
        intro j hjm
        obtain ⟨r, hr, rfl⟩ := List.mem_map.1 hjm
        have hr := List.mem_range.1 hr
        refine ⟨hin r hr, fun v hv => ?_⟩
        obtain ⟨is, his, hrav⟩ := exists_index done r hr
        have hsh := h.shapes is v his (by rw [hrav]; exact hv)
        rw [elementShape_lead] at hsh
        have hlen := congrArg List.length hsh
        rw [List.length_append] at hlen
        have hrk := g.ranks v (List.mem_of_getElem? hv)
        have hrk : v.sh.length < 255 := hrk
        refine ⟨_, hsh, by omega, ?_⟩
        have h1 := lead_le ls is
        have h2 : ls.length = done.length := by rw [← h.lengths, List.length_map]
        rw [hj, hs, List.length_append, List.length_cons]
        cases (r1 == rank x0)
        · simp only [Bool.false_eq_true, if_false]; omega
        · simp only [if_true]; omega)
    refine ⟨fun hL => ?_, fun hL => ?_⟩
    · show (checkAll _ _ _ _ _ _ _ _).bind _ = _
      rw [c2 hL]; rfl
    · show (checkAll _ _ _ _ _ _ _ _).bind _ = _
      rw [c1 hL]; rfl

theorem axis_complete {x : Arr (Val E)} {x0 : Val E} (g : Good x x0) (junk : List Nat) (hj : junk.length = x.sh.length + rank x0) {done sh : List Nat} {n : Nat} (hs : x.sh = done ++ n :: sh) {ls : List Lens} {t : List Nat}
    (h : Inv x x0 done (n :: sh) ls t) {l : Lens} {t' : List Nat} (h' : Inv x x0 (done ++ [n]) sh (ls ++ [l]) t') :
    axis junk x x0 n (prod sh) (prod done) t.length = .ok (l, t'.length) := by
  have hp : ∃ m, some m ∈ l := h'.present l (List.mem_append_right _ (List.mem_singleton.2 rfl))
  have hll : l.length = n := by
    have := h'.lengths
    rw [List.map_append, h.lengths] at this
    have := List.append_cancel_left this
    exact (List.cons.inj this).1
  have hlen : x.els.length = prod done * (n * prod sh) := by rw [g.full, hs, prod_append]; rfl
  have hpos : 0 < prod done * (n * prod sh) := by rw [← hlen, g.full]; exact els_pos g
  have hdone := Nat.pos_of_mul_pos_right hpos
  have hpn := Nat.pos_of_mul_pos_left hpos
  have hn0 : 0 < n := Nat.pos_of_mul_pos_right hpn
  have hx0 := root_shape g hs h
  have hroot : ∀ i v, i < n → x.els[i * prod sh]? = some v → v.sh = elementShape ls (done.map fun _ => 0) [] ++ ((l[i]?.getD none).toList ++ t') := by
    intro i v hi hv
    refine inv_prev h' h.lengths (zeros_in hdone) hi ?_
    rw [zeros_ravel, Nat.zero_mul, Nat.zero_add]; exact hv
  have ht : t = (l[0]?.getD none).toList ++ t' := by
    have := hroot 0 x0 hn0 (by rw [Nat.zero_mul]; exact g.root)
    rw [hx0] at this
    exact List.append_cancel_left this
  have hr0 : rank x0 = (elementShape ls (done.map fun _ => 0) []).length + t.length := by rw [rank, hx0, List.length_append]
  have hl0 : l[0]? = some l[0] := List.getElem?_eq_getElem (by omega)
  rw [hl0] at ht
  have ht : t = l[0].toList ++ t' := ht
  by_cases hn : n = 1
  · subst hn
    obtain ⟨m, hm⟩ := hp
    obtain ⟨l0, rfl⟩ : ∃ l0, l = [l0] := List.length_eq_one_iff.1 hll
    have ht : t = m :: t' := by
      have : some m = l0 := List.mem_singleton.1 hm
      rw [ht]; show l0.toList ++ t' = _
      rw [← this]; rfl
    have hget : x0.sh[rank x0 - t.length]? = some m := by
      rw [hr0, Nat.add_sub_cancel, hx0, List.getElem?_append_right (Nat.le_refl _), Nat.sub_self, ht]; rfl
    unfold axis
    dsimp only
    rw [if_pos rfl, if_neg (by rw [ht, List.length_cons]; omega), hget]
    show Res.ok ([some m], t.length - 1) = _
    have : some m = l0 := List.mem_singleton.1 hm
    rw [this, ht]; rfl
  · obtain ⟨cs, r1, a0, hcl, hk, hmax, ⟨cm, hcm, ecm⟩, ha0, e1, e2⟩ := axis_eq g junk hj hs h hn
    have hrank : ∀ (i : Nat) (c : Val E), cs[i]? = some c → rank c = (elementShape ls (done.map fun _ => 0) []).length + ((l[i]?.getD none).toList.length + t'.length) := by
      intro i c hc
      have hi : i < n := by rw [← hcl]; exact (List.getElem?_eq_some_iff.1 hc).1
      rw [hk i hi] at hc
      rw [rank, hroot i c hi hc, List.length_append, List.length_append]
    have hle1 : ∀ o : Option Nat, o.toList.length ≤ 1 := by
      intro o; cases o
      · exact Nat.zero_le _
      · exact Nat.le_refl _
    have hr1 : r1 = (elementShape ls (done.map fun _ => 0) []).length + (1 + t'.length) := by
      apply Nat.le_antisymm
      · obtain ⟨i, hi⟩ := List.mem_iff_getElem?.1 hcm
        have := hrank i cm hi
        have := hle1 (l[i]?.getD none)
        omega
      · obtain ⟨m, hm⟩ := hp
        obtain ⟨i, hi⟩ := List.mem_iff_getElem?.1 hm
        have hin : i < n := by rw [← hll]; exact (List.getElem?_eq_some_iff.1 hi).1
        have hc : cs[i]? = some cs[i] := List.getElem?_eq_getElem (by omega)
        have h1 := hrank i _ hc
        have h2 := hmax _ (List.mem_of_getElem? hc)
        rw [hi] at h1
        have h1 : _ = _ + (1 + _) := h1
        omega
    have ha0' : a0 = l[0].isSome := by
      have : rank x0 = (elementShape ls (done.map fun _ => 0) []).length + (l[0].toList.length + t'.length) := by rw [hr0, ht, List.length_append]
      cases hl : l[0] with
      | none =>
        rw [hl] at this
        have this : rank x0 = _ + (0 + _) := this
        cases a0 with
        | false => rfl
        | true => have := ha0.1 rfl; omega
      | some m =>
        rw [hl] at this
        have this : rank x0 = _ + (1 + _) := this
        exact ha0.2 (by omega)
    have hnt : ¬ (t = [] ∧ a0 = true) := by
      rintro ⟨h1, h2⟩
      rw [ha0'] at h2
      obtain ⟨m, hm⟩ := Option.isSome_iff_exists.1 h2
      rw [hm, h1] at ht; cases ht
    have hleft : left a0 t = t' := by
      rw [ha0', ht]
      cases l[0] <;> rfl
    have hlens : cs.map (lenOf (rank x0 - t.length) r1) = l := by
      apply List.ext_getElem?
      intro i
      by_cases hi : i < n
      · have hc : cs[i]? = some cs[i] := List.getElem?_eq_getElem (by omega)
        have hli : l[i]? = some l[i] := List.getElem?_eq_getElem (by omega)
        rw [List.getElem?_map, hc, hli]
        have h1 := hrank i _ hc
        have h2 := hroot i _ hi (by rw [← hk i hi]; exact hc)
        rw [hli] at h1 h2
        show some (lenOf _ _ _) = _
        congr 1
        unfold lenOf
        cases hl : l[i] with
        | none =>
          rw [hl] at h1
          have h1 : _ = _ + (0 + _) := h1
          rw [if_pos (by omega)]
        | some m =>
          rw [hl] at h1 h2
          have h1 : _ = _ + (1 + _) := h1
          rw [if_neg (by omega), hr0, Nat.add_sub_cancel, h2, List.getElem?_append_right (Nat.le_refl _), Nat.sub_self]; rfl
      · rw [List.getElem?_eq_none (by rw [List.length_map]; omega), List.getElem?_eq_none (by omega)]
    obtain ⟨_, e3⟩ := e2 hnt
    obtain ⟨_, e4⟩ := e3 (fun c hc => by
      obtain ⟨i, hi⟩ := List.mem_iff_getElem?.1 hc
      have := hrank i c hi
      omega)
    rw [hlens] at e4
    rw [e4]
    · congr 2
      rw [ha0', ht, List.length_append]
      cases l[0] with
      | none => show 0 + _ - 0 = _; omega
      | some m => show 1 + _ - 1 = _; omega
    · intro j hjm i v h1 h2 hv
      obtain ⟨r, hr, rfl⟩ := List.mem_map.1 hjm
      obtain ⟨is, his, hrav⟩ := exists_index done r (List.mem_range.1 hr)
      have hb : r * (n * prod sh) < x.els.length := by
        rw [hlen]; exact Nat.mul_lt_mul_of_pos_right (List.mem_range.1 hr) hpn
      have hsh := h.shapes is _ his (by rw [hrav]; exact List.getElem?_eq_getElem hb)
      rw [elementShape_lead] at hsh
      rw [leadAt_eq (List.getElem?_eq_getElem hb) hsh, hleft]
      exact inv_prev h' h.lengths his h2 (by rw [hrav]; exact hv)

theorem axis_sound {x : Arr (Val E)} {x0 : Val E} (g : Good x x0) (junk : List Nat) (hj : junk.length = x.sh.length + rank x0) {done sh : List Nat} {n : Nat} (hs : x.sh = done ++ n :: sh) {ls : List Lens} {t : List Nat}
    (h : Inv x x0 done (n :: sh) ls t) :
    axis junk x x0 n (prod sh) (prod done) t.length = .err ∨
    ∃ l t', axis junk x x0 n (prod sh) (prod done) t.length = .ok (l, t'.length) ∧ Inv x x0 (done ++ [n]) sh (ls ++ [l]) t' := by
  have hlen : x.els.length = prod done * (n * prod sh) := by rw [g.full, hs, prod_append]; rfl
  have hpos : 0 < prod done * (n * prod sh) := by rw [← hlen, g.full]; exact els_pos g
  have hdone := Nat.pos_of_mul_pos_right hpos
  have hpn := Nat.pos_of_mul_pos_left hpos
  have hn0 : 0 < n := Nat.pos_of_mul_pos_right hpn
  have hx0 := root_shape g hs h
  have hr0 : rank x0 = (elementShape ls (done.map fun _ => 0) []).length + t.length := by rw [rank, hx0, List.length_append]
  by_cases hn : n = 1
  · subst hn
    cases t with
    | nil => left; unfold axis; rfl
    | cons m t' =>
      right
      refine ⟨[some m], t', ?_, ?_⟩
      · have hget : x0.sh[rank x0 - (m :: t').length]? = some m := by
          rw [hr0, Nat.add_sub_cancel, hx0, List.getElem?_append_right (Nat.le_refl _), Nat.sub_self]; rfl
        unfold axis
        dsimp only
        rw [if_pos rfl, if_neg (by rw [List.length_cons]; omega), hget]; rfl
      · refine inv_next h rfl ⟨m, List.mem_singleton.2 rfl⟩ ((List.suffix_cons _ _).trans h.suffix) fun is i v his hi hv => ?_
        have : i = 0 := by omega
        subst this
        rw [Nat.zero_mul, Nat.add_zero] at hv
        rw [h.shapes is v his hv, elementShape_lead]; rfl
  · obtain ⟨cs, r1, a0, hcl, hk, hmax, ⟨cm, hcm, ecm⟩, ha0, e1, e2⟩ := axis_eq g junk hj hs h hn
    by_cases h1 : t = [] ∧ a0 = true
    · exact .inl (e1 h1)
    · obtain ⟨e3, e4⟩ := e2 h1
      by_cases h2 : ∀ c ∈ cs, r1 ≤ rank c + 1
      · obtain ⟨e5, e6⟩ := e4 h2
        by_cases h3 : Lines x (prod sh) n t a0 (cs.map (lenOf (rank x0 - t.length) r1)) ((List.range (prod done)).map (· * (n * prod sh)))
        · right
          have hll : (left a0 t).length = t.length - (if a0 then 1 else 0) := by
            unfold left
            cases a0
            · rfl
            · exact List.length_tail
          refine ⟨_, left a0 t, by rw [hll]; exact e6 h3, inv_next h (by rw [List.length_map, hcl]) ?_ ?_ fun is i v his hi hv => ?_⟩
          · have hlt : rank x0 - t.length < cm.sh.length := by
              show _ < rank cm
              by_cases hr : r1 = rank x0
              · have : t.length ≠ 0 := fun h0 => h1 ⟨List.length_eq_zero_iff.1 h0, ha0.2 hr⟩
                omega
              · have hm0 : cs[0]? = some x0 := by rw [hk 0 hn0, Nat.zero_mul, g.root]
                have := hmax _ (List.mem_of_getElem? hm0)
                omega
            refine ⟨cm.sh[rank x0 - t.length], List.mem_map.2 ⟨cm, hcm, ?_⟩⟩
            unfold lenOf
            rw [if_neg (by omega), List.getElem?_eq_getElem hlt]
          · unfold left
            cases a0
            · exact h.suffix
            · exact (List.tail_suffix t).trans h.suffix
          · have hrl := ravel_lt his
            have hb : ravel done is * (n * prod sh) < x.els.length := by
              rw [hlen]; exact Nat.mul_lt_mul_of_pos_right hrl hpn
            have hsh := h.shapes is _ his (List.getElem?_eq_getElem hb)
            rw [elementShape_lead] at hsh
            by_cases hi0 : i = 0
            · subst hi0
              rw [Nat.zero_mul, Nat.add_zero, List.getElem?_eq_getElem hb] at hv
              cases hv
              rw [hsh]
              congr 1
              have hm0 : cs[0]? = some x0 := by rw [hk 0 hn0, Nat.zero_mul, g.root]
              rw [List.getElem?_map, hm0]
              show t = (lenOf _ _ _).toList ++ _
              unfold lenOf left
              have hle := hmax _ (List.mem_of_getElem? hm0)
              cases a0 with
              | true =>
                have hr := ha0.1 rfl
                cases t with
                | nil => exact absurd ⟨rfl, rfl⟩ h1
                | cons m t' =>
                  rw [if_neg (by omega), hr0, Nat.add_sub_cancel, hx0, List.getElem?_append_right (Nat.le_refl _), Nat.sub_self]; rfl
              | false =>
                have hr : r1 ≠ rank x0 := fun hh => by have := ha0.2 hh; cases this
                rw [if_pos (by omega)]; rfl
            · have := h3 _ (List.mem_map.2 ⟨_, List.mem_range.2 hrl, rfl⟩) i v (by omega) hi hv
              rw [leadAt_eq (List.getElem?_eq_getElem hb) hsh] at this
              exact this
        · exact .inl (e5 h3)
      · exact .inl (e3 h2)

/-! ## All axes -/

theorem axes_sound {x : Arr (Val E)} {x0 : Val E} (g : Good x x0) (junk : List Nat) (hj : junk.length = x.sh.length + rank x0) : ∀ (sh done : List Nat) (ls : List Lens) (t : List Nat), x.sh = done ++ sh → Inv x x0 done sh ls t →
    axes junk x x0 sh (prod done) t.length = .err ∨
    ∃ ls' t', axes junk x x0 sh (prod done) t.length = .ok (ls', t'.length) ∧ Inv x x0 (done ++ sh) [] (ls ++ ls') t'
  | [], done, ls, t, hs, h => .inr ⟨[], t, rfl, by rw [List.append_nil, List.append_nil]; exact h⟩
  | n :: sh, done, ls, t, hs, h => by
    rw [axes]
    rcases axis_sound g junk hj hs h with e | ⟨l, t', e, h'⟩
    · rw [e]; exact .inl rfl
    · rw [e]
      show ((axes junk x x0 sh (prod done * n) t'.length).bind _ = _) ∨ ∃ _ _, ((axes junk x x0 sh (prod done * n) t'.length).bind _ = _) ∧ _
      have hp : prod (done ++ [n]) = prod done * n := by rw [prod_append]; show _ * (n * 1) = _; rw [Nat.mul_one]
      have ih := axes_sound g junk hj sh (done ++ [n]) (ls ++ [l]) t' (by rw [hs, List.append_assoc]; rfl) h'
      rw [hp] at ih
      rcases ih with ih | ⟨ls', t'', e', h''⟩
      · rw [ih]; exact .inl rfl
      · refine .inr ⟨l :: ls', t'', by rw [e']; rfl, ?_⟩
        rw [List.append_assoc, List.append_assoc] at h''
        exact h''

/-- What fits as a whole fits along the first axes. -/
theorem inv_of_fits {x : Arr (Val E)} {x0 : Val E} (g : Good x x0) {ls ls' : List Lens} {t done sh : List Nat} (hs : x.sh = done ++ sh) (h : Fits x (ls ++ ls') t) (hd : ls.map List.length = done) :
    Inv x x0 done sh ls (elementShape ls' (sh.map fun _ => 0) t) where
  lengths := hd
  present := fun l hl => h.present l (List.mem_append_left _ hl)
  suffix := by
    have hp := els_pos g
    rw [hs, prod_append] at hp
    have hz := zeros_in (sh := x.sh) (els_pos g)
    have := h.shapes _ x0 hz (by rw [zeros_ravel]; exact g.root)
    rw [hs, List.map_append, elementShape_append _ _ _ _ _ (by rw [List.length_map, ← hd, List.length_map]), elementShape_lead] at this
    exact ⟨_, this.symm⟩
  shapes := by
    intro is v his hv
    have hp := els_pos g
    rw [hs, prod_append] at hp
    have hz := zeros_in (Nat.pos_of_mul_pos_left hp)
    have := h.shapes (is ++ sh.map fun _ => 0) v (by rw [hs]; exact his.append hz) (by rw [hs, ravel_append his, zeros_ravel, Nat.add_zero]; exact hv)
    rw [elementShape_append _ _ _ _ _ (by rw [his.length, ← hd, List.length_map])] at this
    exact this

theorem axes_complete {x : Arr (Val E)} {x0 : Val E} (g : Good x x0) (junk : List Nat) (hj : junk.length = x.sh.length + rank x0) : ∀ (sh done : List Nat) (ls ls' : List Lens) (t tail : List Nat), x.sh = done ++ sh → Inv x x0 done sh ls t →
    Fits x (ls ++ ls') tail → axes junk x x0 sh (prod done) t.length = .ok (ls', tail.length)
  | [], done, ls, ls', t, tail, hs, h, hf => by
    have hnil : ls' = [] := by
      have := hf.lengths
      rw [List.map_append, h.lengths, hs] at this
      exact List.map_eq_nil_iff.1 (List.append_cancel_left this)
    subst hnil
    have h1 := root_shape g hs h
    have h2 := root_shape g hs (inv_of_fits g hs hf h.lengths)
    rw [h1] at h2
    have h2 := List.append_cancel_left h2
    have h2 : t = tail := h2
    rw [h2]; rfl
  | n :: sh, done, ls, ls', t, tail, hs, h, hf => by
    cases ls' with
    | nil =>
      have := hf.lengths
      rw [List.map_append, h.lengths, hs] at this
      cases List.append_cancel_left this
    | cons l ls' =>
      have hln : l.length = n := by
        have := hf.lengths
        rw [List.map_append, h.lengths, hs] at this
        exact (List.cons.inj (List.append_cancel_left this)).1
      have hs' : x.sh = (done ++ [n]) ++ sh := by rw [hs, List.append_assoc]; rfl
      have hf' : Fits x ((ls ++ [l]) ++ ls') tail := by rw [List.append_assoc]; exact hf
      have h' := inv_of_fits g hs' hf' (by rw [List.map_append, h.lengths, List.map_cons, hln]; rfl)
      rw [axes, axis_complete g junk hj hs h h']
      have hp : prod (done ++ [n]) = prod done * n := by rw [prod_append]; show _ * (n * 1) = _; rw [Nat.mul_one]
      have ih := axes_complete g junk hj sh (done ++ [n]) (ls ++ [l]) ls' _ tail hs' h' hf'
      rw [hp] at ih
      show (axes junk x x0 sh (prod done * n) _).bind _ = _
      rw [ih]; rfl

/-- The checks accept exactly what fits together, and find how. -/
theorem axes_spec {x : Arr (Val E)} {x0 : Val E} (g : Good x x0) (junk : List Nat) (hj : junk.length = x.sh.length + rank x0) :
    ((∃ ls t, Fits x ls t) → ∃ ls t, Fits x ls t ∧ x0.sh.drop (rank x0 - t.length) = t ∧ axes junk x x0 x.sh 1 (rank x0) = .ok (ls, t.length)) ∧
    ((¬ ∃ ls t, Fits x ls t) → axes junk x x0 x.sh 1 (rank x0) = .err) := by
  have h0 : Inv x x0 [] x.sh [] x0.sh := {
    lengths := rfl
    present := fun _ h => absurd h List.not_mem_nil
    suffix := List.suffix_refl _
    shapes := fun is v his hv => by
      cases his
      have hv : x.els[0 * prod x.sh]? = some v := hv
      rw [Nat.zero_mul, g.root] at hv
      cases hv; rfl }
  constructor
  · rintro ⟨ls, t, hf⟩
    refine ⟨ls, t, hf, ?_, axes_complete g junk hj x.sh [] [] ls x0.sh t rfl h0 hf⟩
    have hr := root_shape g (List.append_nil _).symm (inv_of_fits (ls' := []) g (List.append_nil _).symm (by rw [List.append_nil]; exact hf) hf.lengths)
    have hr : x0.sh = _ ++ t := hr
    rw [rank]
    conv => lhs; rw [hr]
    rw [List.length_append, Nat.add_sub_cancel]
    exact List.drop_left
  · intro hn
    rcases axes_sound g junk hj x.sh [] [] x0.sh rfl h0 with e | ⟨ls, t, e, h⟩
    · exact e
    · exfalso
      refine hn ⟨ls, t, h.lengths, h.present, fun is v his hv => h.shapes is v his ?_⟩
      show x.els[ravel x.sh is * 1]? = _
      rw [Nat.mul_one]; exact hv

end Verif.Join
