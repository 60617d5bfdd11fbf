import Verif.Join.Axes
/-!
# Join: moving the elements

Axes are from the last one on, as the code goes through them.
-/
namespace Verif.Join
open Verif.Cells (Arr Val Full)
open Verif.Rotate
variable {E : Type}

theorem rav_lt {sh is : List Nat} (h : InShape sh is) : rav sh is < prod sh := by
  induction h with
  | nil => exact Nat.one_pos
  | @cons s i sh is hi _ ih =>
    rw [rav, prod]
    have := Nat.mul_le_mul_left s ih
    rw [Nat.mul_succ] at this
    omega

theorem rav_inj {sh is : List Nat} (h : InShape sh is) : ∀ {js : List Nat}, InShape sh js → rav sh is = rav sh js → is = js := by
  induction h with
  | nil => intro js hj _; cases hj; rfl
  | @cons s i sh is hi _ ih =>
    intro js hj e
    cases hj with
    | @cons _ j _ js hj' hjs =>
      rw [rav, rav] at e
      have h1 : i = j := by
        have := congrArg (· % s) e
        simp only [Nat.add_mul_mod_self_left] at this
        rw [Nat.mod_eq_of_lt hi, Nat.mod_eq_of_lt hj'] at this
        exact this
      subst h1
      have h2 : s * rav sh is = s * rav sh js := by omega
      rw [ih hjs (Nat.eq_of_mul_eq_mul_left (by omega) h2)]

/-! ## Writes -/

/-- `mem'` is `mem` with `W` written. -/
structure Writes (mem mem' : List (Option E)) (W : Nat → E → Prop) : Prop where
  length : mem'.length = mem.length
  eq : ∀ p, (∃ e, W p e ∧ mem'[p]? = some (some e)) ∨ ((¬ ∃ e, W p e) ∧ mem'[p]? = mem[p]?)

theorem Writes.none (mem : List (Option E)) (W : Nat → E → Prop) (h : ∀ p e, ¬ W p e) : Writes mem mem W :=
  ⟨rfl, fun _ => .inr ⟨fun ⟨e, he⟩ => h _ e he, rfl⟩⟩

theorem Writes.trans {m m' m'' : List (Option E)} {W W' V : Nat → E → Prop} (h : Writes m m' W) (h' : Writes m' m'' W') (hV : ∀ p e, V p e ↔ W p e ∨ W' p e) : Writes m m'' V := by
  refine ⟨h'.length.trans h.length, fun p => ?_⟩
  rcases h'.eq p with ⟨e, he, e1⟩ | ⟨hn, e1⟩
  · exact .inl ⟨e, (hV p e).2 (.inr he), e1⟩
  · rcases h.eq p with ⟨e, he, e2⟩ | ⟨hn', e2⟩
    · exact .inl ⟨e, (hV p e).2 (.inl he), e1.trans e2⟩
    · refine .inr ⟨?_, e1.trans e2⟩
      rintro ⟨e, he⟩
      rcases (hV p e).1 he with he | he
      · exact hn' ⟨e, he⟩
      · exact hn ⟨e, he⟩

theorem Writes.congr {m m' : List (Option E)} {W V : Nat → E → Prop} (h : Writes m m' W) (hV : ∀ p e, V p e ↔ W p e) : Writes m m' V := by
  have : V = W := by funext p e; exact propext (hV p e)
  rw [this]; exact h

theorem copyTo_spec (mem : List (Option E)) (q : Nat) (es : List E) (hq : q + es.length ≤ mem.length) (h32 : q < 2^32) :
    ∃ mem', copyTo mem q es = .ok mem' ∧ Writes mem mem' fun p e => ∃ u, es[u]? = some e ∧ p = q + u := by
  have hn : (((q : Int)) % 2^32).toNat = q := by omega
  unfold copyTo
  dsimp only
  rw [hn, if_pos hq]
  refine ⟨_, rfl, ?_, fun p => ?_⟩
  · rw [List.length_append, List.length_append, List.length_take, List.length_map, List.length_drop]; omega
  · have htl : (mem.take q).length = q := by rw [List.length_take]; omega
    rw [List.append_assoc]
    by_cases h1 : p < q
    · refine .inr ⟨?_, ?_⟩
      · rintro ⟨e, u, _, hu⟩; omega
      · rw [List.getElem?_append_left (by omega), List.getElem?_take, if_pos h1]
    · rw [List.getElem?_append_right (by omega), htl]
      by_cases h2 : p - q < es.length
      · refine .inl ⟨es[p - q], ⟨p - q, List.getElem?_eq_getElem h2, by omega⟩, ?_⟩
        rw [List.getElem?_append_left (by rw [List.length_map]; exact h2), List.getElem?_map, List.getElem?_eq_getElem h2]; rfl
      · refine .inr ⟨?_, ?_⟩
        · rintro ⟨e, u, hu, rfl⟩
          have := (List.getElem?_eq_some_iff.1 hu).1
          omega
        · rw [List.getElem?_append_right (by rw [List.length_map]; omega), List.length_map, List.getElem?_drop]
          congr 1; omega

/-! ## Rows of an element -/

theorem bumpRow_spec : ∀ (ax : List (Nat × Nat)) (ii : List Nat) (str c : Int), InShape (ax.map Prod.fst) ii → rav (ax.map Prod.fst) ii + 1 < prod (ax.map Prod.fst) →
    ∃ ii', bumpRow ii ax str (c + str * rav (ax.map Prod.snd) ii + str) = some (ii', c + str * rav (ax.map Prod.snd) ii') ∧ InShape (ax.map Prod.fst) ii' ∧ rav (ax.map Prod.fst) ii' = rav (ax.map Prod.fst) ii + 1
  | [], ii, str, c, h, hlt => by
    cases h
    exact absurd hlt (by decide)
  | (l, s) :: ax, _, str, c, @InShape.cons _ i _ ii hi h, hlt => by
    have hlt : i + l * rav (ax.map Prod.fst) ii + 1 < l * prod (ax.map Prod.fst) := hlt
    have hi : i < l := hi
    show ∃ ii', bumpRow (i :: ii) ((l, s) :: ax) str (c + str * ((i + s * rav (ax.map Prod.snd) ii : Nat) : Int) + str) = _ ∧ _
    rw [bumpRow]
    by_cases he : i + 1 = l
    · rw [if_pos he]
      have hlt' : rav (ax.map Prod.fst) ii + 1 < prod (ax.map Prod.fst) := by
        have : l * (rav (ax.map Prod.fst) ii + 1) < l * prod (ax.map Prod.fst) := by rw [Nat.mul_succ]; omega
        exact Nat.lt_of_mul_lt_mul_left this
      obtain ⟨ii', e, h1, h2⟩ := bumpRow_spec ax ii (str * s) c h hlt'
      have hpos : c + str * ((i + s * rav (ax.map Prod.snd) ii : Nat) : Int) + str - ((i : Int) + 1) * str + str * s = c + str * s * (rav (ax.map Prod.snd) ii : Int) + str * s := by
        push_cast
        rw [Int.mul_add, Int.add_mul, ← Int.mul_assoc, Int.mul_comm (i : Int) str]
        omega
      rw [hpos, e]
      refine ⟨0 :: ii', ?_, .cons (by omega) h1, ?_⟩
      · show some (0 :: ii', _) = some (0 :: ii', c + str * ((0 + s * rav (ax.map Prod.snd) ii' : Nat) : Int))
        congr 2
        push_cast
        rw [Int.zero_add, Int.mul_assoc]
      · show 0 + l * rav (ax.map Prod.fst) ii' = i + l * rav (ax.map Prod.fst) ii + 1
        rw [h2, Nat.mul_succ]; omega
    · rw [if_neg he]
      refine ⟨(i + 1) :: ii, ?_, .cons (by show i + 1 < l; omega) h, ?_⟩
      · show some ((i + 1) :: ii, _) = some ((i + 1) :: ii, c + str * ((i + 1 + s * rav (ax.map Prod.snd) ii : Nat) : Int))
        congr 2
        push_cast
        rw [Int.mul_add, Int.mul_add, Int.mul_add]
        omega
      · show i + 1 + l * rav (ax.map Prod.fst) ii = i + l * rav (ax.map Prod.fst) ii + 1
        omega

theorem rows_spec (l : Nat) (hl : 0 < l) (e : List E) (ax : List (Nat × Nat)) (str0 base N : Nat) (he : e.length = prod (ax.map Prod.fst) * l) (hN : N < 2^32)
    (hfit : ∀ kk, InShape (ax.map Prod.fst) kk → base + str0 * rav (ax.map Prod.snd) kk + l ≤ N) :
    ∀ (fuel : Nat) (ii : List Nat) (mem : List (Option E)), mem.length = N → InShape (ax.map Prod.fst) ii → prod (ax.map Prod.fst) - rav (ax.map Prod.fst) ii ≤ fuel →
    ∃ mem', rows l e ax (str0 : Int) fuel ii ((base : Int) + (str0 : Int) * rav (ax.map Prod.snd) ii) (rav (ax.map Prod.fst) ii * l) mem = .ok mem' ∧
      Writes mem mem' fun p v => ∃ kk u, InShape (ax.map Prod.fst) kk ∧ rav (ax.map Prod.fst) ii ≤ rav (ax.map Prod.fst) kk ∧ u < l ∧ p = base + str0 * rav (ax.map Prod.snd) kk + u ∧ e[rav (ax.map Prod.fst) kk * l + u]? = some v
  | 0, ii, mem, hm, hii, hf => by
    have := rav_lt hii
    omega
  | fuel+1, ii, mem, hm, hii, hf => by
    have hlt := rav_lt hii
    have hb : rav (ax.map Prod.fst) ii * l + l ≤ e.length := by
      rw [he]
      have := Nat.mul_le_mul_right l (show rav (ax.map Prod.fst) ii + 1 ≤ prod (ax.map Prod.fst) from hlt)
      rw [Nat.succ_mul] at this
      exact this
    have hfi := hfit ii hii
    have hlen : ((e.drop (rav (ax.map Prod.fst) ii * l)).take l).length = l := by
      rw [List.length_take, List.length_drop]; omega
    obtain ⟨m1, e1, w1⟩ := copyTo_spec mem (base + str0 * rav (ax.map Prod.snd) ii) ((e.drop (rav (ax.map Prod.fst) ii * l)).take l) (by rw [hlen, hm]; exact hfi) (by omega)
    rw [rows, if_neg (by omega)]
    have hcast : ((base : Int) + (str0 : Int) * rav (ax.map Prod.snd) ii) = ((base + str0 * rav (ax.map Prod.snd) ii : Nat) : Int) := by push_cast; rfl
    rw [hcast, e1]
    have hw1 : Writes mem m1 fun p v => ∃ u, u < l ∧ p = base + str0 * rav (ax.map Prod.snd) ii + u ∧ e[rav (ax.map Prod.fst) ii * l + u]? = some v := by
      refine w1.congr fun p v => ⟨?_, ?_⟩
      · rintro ⟨u, hu, rfl, hv⟩
        exact ⟨u, by rw [List.getElem?_take, if_pos hu, List.getElem?_drop]; exact hv, rfl⟩
      · rintro ⟨u, hu, rfl⟩
        have hul : u < l := by
          have := (List.getElem?_eq_some_iff.1 hu).1
          rw [hlen] at this; exact this
        rw [List.getElem?_take, if_pos hul, List.getElem?_drop] at hu
        exact ⟨u, hul, rfl, hu⟩
    show ∃ mem', (if rav (ax.map Prod.fst) ii * l + l = e.length then Res.ok m1 else _) = _ ∧ _
    by_cases hend : rav (ax.map Prod.fst) ii + 1 = prod (ax.map Prod.fst)
    · rw [if_pos (by rw [he, ← hend, Nat.succ_mul])]
      refine ⟨m1, rfl, hw1.congr fun p v => ⟨?_, ?_⟩⟩
      · rintro ⟨kk, u, hkk, hle, hu, hp, hv⟩
        have := rav_lt hkk
        have := rav_inj hii hkk (by omega)
        subst this
        exact ⟨u, hu, hp, hv⟩
      · rintro ⟨u, hu, hp, hv⟩
        exact ⟨ii, u, hii, Nat.le_refl _, hu, hp, hv⟩
    · have hlt' : rav (ax.map Prod.fst) ii + 1 < prod (ax.map Prod.fst) := by omega
      have hne : rav (ax.map Prod.fst) ii * l + l ≠ e.length := by
        rw [he]
        have := Nat.mul_lt_mul_of_pos_right hlt' hl
        rw [Nat.succ_mul] at this
        omega
      obtain ⟨ii', e2, hii', hr'⟩ := bumpRow_spec ax ii (str0 : Int) (base : Int) hii hlt'
      rw [hcast] at e2
      rw [if_neg hne, e2]
      obtain ⟨m2, e3, w3⟩ := rows_spec l hl e ax str0 base N he hN hfit fuel ii' m1 (hw1.length.trans hm) hii' (by omega)
      rw [show rav (ax.map Prod.fst) ii * l + l = rav (ax.map Prod.fst) ii' * l by rw [hr', Nat.succ_mul]]
      refine ⟨m2, e3, hw1.trans w3 fun p v => ⟨?_, ?_⟩⟩
      · rintro ⟨kk, u, hkk, hle, hu, hp, hv⟩
        by_cases heq : rav (ax.map Prod.fst) ii = rav (ax.map Prod.fst) kk
        · have := rav_inj hii hkk heq
          subst this
          exact .inl ⟨u, hu, hp, hv⟩
        · exact .inr ⟨kk, u, hkk, by omega, hu, hp, hv⟩
      · rintro (⟨u, hu, hp, hv⟩ | ⟨kk, u, hkk, hle, hu, hp, hv⟩)
        · exact ⟨ii, u, hii, Nat.le_refl _, hu, hp, hv⟩
        · exact ⟨kk, u, hkk, by omega, hu, hp, hv⟩

/-! ## The elements -/

def axNs (ax : List (List Nat × Nat)) : List Nat := ax.map fun p => p.1.length
def axSs (ax : List (List Nat × Nat)) : List Nat := ax.map fun p => p.2

/-- How long the element at `ei` is. -/
def axBlk : List Nat → List (List Nat × Nat) → List Nat
  | i :: is, p :: ax => (p.1[i]?.getD 0) :: axBlk is ax
  | _, _ => []

/-- Where it starts. -/
def axOff : List Nat → List (List Nat × Nat) → List Nat
  | i :: is, p :: ax => (p.1.take i).sum :: axOff is ax
  | _, _ => []

theorem take_sum_succ (ll : List Nat) (i : Nat) (h : i < ll.length) : (ll.take (i + 1)).sum = (ll.take i).sum + ll[i]?.getD 0 := by
  rw [List.take_succ, List.sum_append, List.getElem?_eq_getElem h]
  show _ + (ll[i] + 0) = _ + ll[i]
  rw [Nat.add_zero]

theorem bumpElem_spec : ∀ (ax : List (List Nat × Nat)) (p : List Nat × Nat) (is : List Nat) (i : Nat) (str c : Int), (∀ q ∈ p :: ax, q.2 = q.1.sum) → InShape (axNs (p :: ax)) (i :: is) →
    rav (axNs (p :: ax)) (i :: is) + 1 < prod (axNs (p :: ax)) →
    ∃ is', bumpElem (i :: is) (p :: ax) str (c + str * ((rav (axSs (p :: ax)) (axOff (i :: is) (p :: ax)) + p.1[i]?.getD 0 : Nat) : Int)) = some (is', c + str * (rav (axSs (p :: ax)) (axOff is' (p :: ax)) : Nat)) ∧
      InShape (axNs (p :: ax)) is' ∧ rav (axNs (p :: ax)) is' = rav (axNs (p :: ax)) (i :: is) + 1
  | ax, (ll, s), is, i, str, c, hsum, .cons hi h, hlt => by
    have hs : s = ll.sum := hsum (ll, s) (List.mem_cons_self ..)
    have hlt : i + ll.length * rav (axNs ax) is + 1 < ll.length * prod (axNs ax) := hlt
    have hi : i < ll.length := hi
    have hr : rav (axSs ((ll, s) :: ax)) (axOff (i :: is) ((ll, s) :: ax)) = (ll.take i).sum + s * rav (axSs ax) (axOff is ax) := rfl
    rw [hr]
    have hts := take_sum_succ ll i hi
    rw [bumpElem.eq_def]
    dsimp only
    by_cases he : i + 1 = ll.length
    · rw [if_pos he]
      have hfull : (ll.take i).sum + ll[i]?.getD 0 = s := by
        rw [← hts, he, List.take_length, hs]
      cases ax with
      | nil =>
        cases h
        have hlt : i + ll.length * 0 + 1 < ll.length * 1 := hlt
        omega
      | cons p' ax =>
        cases h with
        | @cons _ i' _ is' hi' h' =>
          obtain ⟨ll', s'⟩ := p'
          have hlt' : rav (axNs ((ll', s') :: ax)) (i' :: is') + 1 < prod (axNs ((ll', s') :: ax)) := by
            have : ll.length * (rav (axNs ((ll', s') :: ax)) (i' :: is') + 1) < ll.length * prod (axNs ((ll', s') :: ax)) := by rw [Nat.mul_succ]; omega
            exact Nat.lt_of_mul_lt_mul_left this
          obtain ⟨is'', e, h1, h2⟩ := bumpElem_spec ax (ll', s') is' i' (str * s) c (fun q hq => hsum q (List.mem_cons_of_mem _ hq)) (.cons hi' h') hlt'
          have hpos : c + str * (((ll.take i).sum + s * rav (axSs ((ll', s') :: ax)) (axOff (i' :: is') ((ll', s') :: ax)) + ll[i]?.getD 0 : Nat) : Int) + (((ll'[i']?.getD 0 : Nat) : Int) - 1) * (str * s)
              = c + str * s * ((rav (axSs ((ll', s') :: ax)) (axOff (i' :: is') ((ll', s') :: ax)) + ll'[i']?.getD 0 : Nat) : Int) := by
            generalize rav (axSs ((ll', s') :: ax)) (axOff (i' :: is') ((ll', s') :: ax)) = R
            rw [show (ll.take i).sum + s * R + ll[i]?.getD 0 = s + s * R by omega]
            generalize ll'[i']?.getD 0 = L
            push_cast
            rw [Int.mul_add, Int.sub_mul, Int.one_mul, Int.mul_add (str * s), ← Int.mul_assoc, Int.mul_comm (L : Int) (str * s)]
            omega
          show ∃ is'', Option.map _ (bumpElem (i' :: is') ((ll', s') :: ax) (str * s) _) = _ ∧ _
          rw [hpos, e]
          refine ⟨0 :: is'', ?_, .cons (by show 0 < ll.length; omega) h1, ?_⟩
          · show some (0 :: is'', _) = some (0 :: is'', c + str * ((0 + s * rav (axSs ((ll', s') :: ax)) (axOff is'' ((ll', s') :: ax)) : Nat) : Int))
            congr 2
            push_cast
            rw [Int.zero_add, Int.mul_assoc]
          · show 0 + ll.length * rav (axNs ((ll', s') :: ax)) is'' = i + ll.length * rav (axNs ((ll', s') :: ax)) (i' :: is') + 1
            rw [h2, Nat.mul_succ]; omega
    · rw [if_neg he]
      refine ⟨(i + 1) :: is, ?_, .cons (by show i + 1 < ll.length; omega) h, ?_⟩
      · show some ((i + 1) :: is, _) = some ((i + 1) :: is, c + str * (((ll.take (i + 1)).sum + s * rav (axSs ax) (axOff is ax) : Nat) : Int))
        rw [hts]
        congr 4
        omega
      · show i + 1 + ll.length * rav (axNs ax) is = i + ll.length * rav (axNs ax) is + 1
        omega

/-- The blocks are in the result. -/
theorem off_in : ∀ (ax : List (List Nat × Nat)) (is kk : List Nat), (∀ q ∈ ax, q.2 = q.1.sum) → InShape (axNs ax) is → InShape (axBlk is ax) kk →
    rav (axSs ax) (axOff is ax) + rav (axSs ax) kk < prod (axSs ax)
  | [], _, kk, _, h, hk => by cases h; cases hk; exact Nat.one_pos
  | (ll, s) :: ax, _, _, hsum, @InShape.cons _ i _ is hi h, @InShape.cons _ k _ kk hk hkk => by
    have hs : s = ll.sum := hsum (ll, s) (List.mem_cons_self ..)
    have ih := off_in ax is kk (fun q hq => hsum q (List.mem_cons_of_mem _ hq)) h hkk
    have hi : i < ll.length := hi
    have hk : k < ll[i]?.getD 0 := hk
    have hts := take_sum_succ ll i hi
    have hle : (ll.take (i + 1)).sum ≤ s := by
      rw [hs]
      conv => rhs; rw [← List.take_append_drop (i + 1) ll, List.sum_append]
      exact Nat.le_add_right _ _
    show (ll.take i).sum + s * rav (axSs ax) (axOff is ax) + (k + s * rav (axSs ax) kk) < s * prod (axSs ax)
    have := Nat.mul_le_mul_left s ih
    rw [Nat.mul_succ, Nat.mul_add] at this
    omega

theorem ones_zero : ∀ {sh kk : List Nat}, InShape sh kk → prod sh = 1 → ∀ ss, rav ss kk = 0
  | _, _, .nil, _, ss => by cases ss <;> rfl
  | _, _, @InShape.cons s i sh is hi h, hp, ss => by
    have hp : s * prod sh = 1 := hp
    have h1 : s = 1 := Nat.eq_one_of_mul_eq_one_right hp
    have h2 : prod sh = 1 := Nat.eq_one_of_mul_eq_one_left hp
    cases ss with
    | nil => rfl
    | cons t ss =>
      show i + t * rav ss is = 0
      rw [ones_zero h h2, Nat.mul_zero]; omega

theorem zip_blk : ∀ (ax : List (List Nat × Nat)) (is : List Nat), is.length = ax.length → ((is.zip ax).map fun p => ((p.2.1[p.1]?).getD 0, p.2.2)).map Prod.fst = axBlk is ax ∧ ((is.zip ax).map fun p => ((p.2.1[p.1]?).getD 0, p.2.2)).map Prod.snd = axSs ax
  | [], is, h => by rw [List.length_eq_zero_iff.1 h]; exact ⟨rfl, rfl⟩
  | p :: ax, [], h => by cases h
  | p :: ax, i :: is, h => by
    obtain ⟨h1, h2⟩ := zip_blk ax is (Nat.succ.inj h)
    refine ⟨?_, ?_⟩
    · exact congrArg (_ :: ·) h1
    · exact congrArg (_ :: ·) h2

theorem zeros_rav : ∀ (sh is : List Nat), rav sh (is.map fun _ => 0) = 0
  | [], is => by cases is <;> rfl
  | s :: sh, [] => rfl
  | s :: sh, i :: is => by
    show 0 + s * rav sh (is.map fun _ => 0) = 0
    rw [zeros_rav sh is, Nat.mul_zero]

theorem zeros_in' : ∀ {sh is : List Nat}, is.length = sh.length → 0 < prod sh → InShape sh (is.map fun _ => 0)
  | [], is, h, _ => by rw [List.length_eq_zero_iff.1 h]; exact .nil
  | s :: sh, [], h, _ => by cases h
  | s :: sh, i :: is, h, hp => by
    have hp : 0 < s * prod sh := hp
    exact .cons (Nat.pos_of_mul_pos_right hp) (zeros_in' (Nat.succ.inj h) (Nat.pos_of_mul_pos_left hp))

theorem axBlk_length : ∀ (ax : List (List Nat × Nat)) (is : List Nat), is.length = ax.length → (axBlk is ax).length = ax.length
  | [], is, h => by cases is <;> rfl
  | p :: ax, [], h => by cases h
  | p :: ax, i :: is, h => by show _ + 1 = _ + 1; rw [axBlk_length ax is (Nat.succ.inj h)]

/-- What is written for the element at `ei`. -/
def Wrote (csz : Nat) (ei : List Nat) (ax : List (List Nat × Nat)) (v : List E) (p : Nat) (e : E) : Prop :=
  ∃ kk u, InShape (axBlk ei ax) kk ∧ u < csz ∧ p = csz * (rav (axSs ax) (axOff ei ax) + rav (axSs ax) kk) + u ∧ v[rav (axBlk ei ax) kk * csz + u]? = some e

theorem moveOne_spec (csz : Nat) (ax : List (List Nat × Nat)) (hax : ax ≠ []) (hsum : ∀ q ∈ ax, q.2 = q.1.sum) (ei : List Nat) (hei : InShape (axNs ax) ei) (v : Val E) (hv : v.els.length = prod (axBlk ei ax) * csz)
    (mem : List (Option E)) (hm : mem.length = prod (axSs ax) * csz) (h32 : prod (axSs ax) * csz < 2^32) :
    ∃ mem', moveOne csz ei ax ((csz * rav (axSs ax) (axOff ei ax) : Nat) : Int) v mem = .ok mem' ∧ Writes mem mem' (Wrote csz ei ax v.els) := by
  cases ax with
  | nil => exact absurd rfl hax
  | cons p ax =>
    obtain ⟨ll, s⟩ := p
    cases hei with
    | @cons _ i _ is hi his =>
      have hi : i < ll.length := hi
      have hlen : is.length = ax.length := by rw [his.length]; exact List.length_map ..
      have hb : axBlk (i :: is) ((ll, s) :: ax) = (ll[i]?.getD 0) :: axBlk is ax := rfl
      rw [hb] at hv
      generalize hB : ll[i]?.getD 0 = B at *
      have hv : v.els.length = B * prod (axBlk is ax) * csz := hv
      have hpos := off_in ((ll, s) :: ax) (i :: is)
      have hfits : ∀ kk, InShape (B :: axBlk is ax) kk → 0 < csz → csz * (rav (axSs ((ll, s) :: ax)) (axOff (i :: is) ((ll, s) :: ax)) + rav (axSs ((ll, s) :: ax)) kk) + csz ≤ mem.length := by
        intro kk hkk hc
        have := hpos kk hsum (.cons hi his) (by rw [hb]; exact hkk)
        have := Nat.mul_le_mul_left csz (Nat.succ_le_of_lt this)
        rw [Nat.mul_succ] at this
        rw [hm, Nat.mul_comm (prod _)]
        exact this
      cases v with
      | atom e =>
        have hv : 1 = B * prod (axBlk is ax) * csz := hv
        have hc : csz = 1 := Nat.eq_one_of_mul_eq_one_left hv.symm
        have hbp : B * prod (axBlk is ax) = 1 := Nat.eq_one_of_mul_eq_one_right hv.symm
        have hB1 : B = 1 := Nat.eq_one_of_mul_eq_one_right hbp
        subst hc
        have hz : InShape (B :: axBlk is ax) ((i :: is).map fun _ => 0) :=
          zeros_in' (by rw [List.length_cons, List.length_cons, axBlk_length _ _ hlen, hlen]) (by show 0 < B * _; omega)
        have hf := hfits _ hz (by decide)
        rw [zeros_rav, Nat.add_zero] at hf
        obtain ⟨m1, e1, w1⟩ := copyTo_spec mem (1 * rav (axSs ((ll, s) :: ax)) (axOff (i :: is) ((ll, s) :: ax))) [e] hf (by omega)
        refine ⟨m1, ?_, w1.congr fun p e' => ⟨?_, ?_⟩⟩
        · unfold moveOne
          dsimp only
          rw [hB, hB1, if_pos (by decide)]
          exact e1
        · rintro ⟨kk, u, hkk, hu, rfl, he⟩
          rw [hb] at hkk he
          have hu0 : u = 0 := by omega
          subst hu0
          rw [ones_zero hkk (by exact hbp)] at he ⊢
          exact ⟨0, he, by omega⟩
        · rintro ⟨u, hu, rfl⟩
          have hu0 : u = 0 := by
            have := (List.getElem?_eq_some_iff.1 hu).1
            have this : u < 1 := this
            omega
          subst hu0
          refine ⟨_, 0, by rw [hb]; exact hz, by decide, ?_, ?_⟩
          · rw [zeros_rav]; rfl
          · rw [zeros_rav]; exact hu
      | arr a =>
        have hv : a.els.length = B * prod (axBlk is ax) * csz := hv
        by_cases h0 : a.els.length = 0
        · refine ⟨mem, ?_, Writes.none _ _ ?_⟩
          · unfold moveOne
            dsimp only
            rw [if_pos h0]
          · rintro p e ⟨kk, u, _, _, _, he⟩
            have := (List.getElem?_eq_some_iff.1 he).1
            have this : _ < a.els.length := this
            omega
        · have hv0 : 0 < B * prod (axBlk is ax) * csz := by omega
          have hc := Nat.pos_of_mul_pos_left hv0
          have hbp := Nat.pos_of_mul_pos_right hv0
          have hB0 := Nat.pos_of_mul_pos_right hbp
          have hbl := Nat.pos_of_mul_pos_left hbp
          obtain ⟨z1, z2⟩ := zip_blk ax is hlen
          have hl : 0 < B * csz := Nat.mul_pos hB0 hc
          have hfit : ∀ kk, InShape (axBlk is ax) kk → csz * rav (axSs ((ll, s) :: ax)) (axOff (i :: is) ((ll, s) :: ax)) + s * csz * rav (axSs ax) kk + B * csz ≤ prod (axSs ((ll, s) :: ax)) * csz := by
            intro kk hkk
            have := hfits ((B - 1) :: kk) (.cons (by omega) hkk) hc
            rw [hm] at this
            refine Nat.le_trans (Nat.le_of_eq ?_) this
            have hr : rav (axSs ((ll, s) :: ax)) ((B - 1) :: kk) = B - 1 + s * rav (axSs ax) kk := rfl
            rw [hr]
            generalize rav (axSs ((ll, s) :: ax)) _ = R
            generalize rav (axSs ax) kk = K
            obtain ⟨b, rfl⟩ : ∃ b, B = b + 1 := ⟨B - 1, by omega⟩
            rw [Nat.add_sub_cancel, Nat.mul_add, Nat.mul_add, Nat.succ_mul, Nat.mul_comm b csz, ← Nat.mul_assoc csz s K, Nat.mul_comm csz s]
            omega
          have hl32 : B * csz < 2^32 := by
            have := hfit _ (zeros_in' (by rw [axBlk_length _ _ hlen, hlen]) hbl : InShape (axBlk is ax) (is.map fun _ => 0))
            omega
          obtain ⟨m1, e1, w1⟩ := rows_spec (B * csz) hl a.els ((is.zip ax).map fun p => ((p.2.1[p.1]?).getD 0, p.2.2)) (s * csz) (csz * rav (axSs ((ll, s) :: ax)) (axOff (i :: is) ((ll, s) :: ax))) (prod (axSs ((ll, s) :: ax)) * csz)
            (by rw [z1, hv, Nat.mul_comm B, Nat.mul_assoc]) h32 (by rw [z1, z2]; exact hfit) a.els.length (is.map fun _ => 0) mem hm (by rw [z1]; exact zeros_in' (by rw [axBlk_length _ _ hlen, hlen]) hbl)
            (by
              rw [z1, hv]
              have : prod (axBlk is ax) * 1 ≤ prod (axBlk is ax) * (B * csz) := Nat.mul_le_mul_left _ hl
              rw [Nat.mul_comm B, Nat.mul_assoc]
              omega)
          refine ⟨m1, ?_, w1.congr fun p e' => ?_⟩
          · unfold moveOne
            dsimp only
            rw [if_neg h0, hB, Nat.mod_eq_of_lt hl32]
            rw [zeros_rav, zeros_rav, Nat.zero_mul] at e1
            rw [show ((0 : Nat) : Int) = 0 from rfl, Int.mul_zero, Int.add_zero] at e1
            exact e1
          · rw [z1, z2]
            constructor
            · rintro ⟨kk, u, hkk, hu, rfl, he⟩
              rw [hb] at hkk he
              cases hkk with
              | @cons _ k _ kk hk hkk =>
                refine ⟨kk, k * csz + u, hkk, by rw [zeros_rav]; exact Nat.zero_le _, ?_, ?_, ?_⟩
                · have := Nat.mul_le_mul_right csz hk
                  rw [Nat.succ_mul] at this
                  omega
                · show csz * (_ + (k + s * rav (axSs ax) kk)) + u = _
                  rw [Nat.mul_add, Nat.mul_add, ← Nat.mul_assoc csz s, Nat.mul_comm csz s, Nat.mul_comm csz k]
                  omega
                · rw [← he]
                  congr 1
                  show _ = (k + B * rav (axBlk is ax) kk) * csz + u
                  rw [Nat.add_mul, Nat.mul_comm B (rav _ _), Nat.mul_assoc]
                  omega
            · rintro ⟨kk, u', hkk, _, hu, rfl, he⟩
              have hk : u' / csz < B := (Nat.div_lt_iff_lt_mul hc).2 hu
              have hdm := Nat.div_add_mod u' csz
              refine ⟨u' / csz :: kk, u' % csz, by rw [hb]; exact .cons hk hkk, Nat.mod_lt _ hc, ?_, ?_⟩
              · show _ = csz * (_ + (u' / csz + s * rav (axSs ax) kk)) + _
                rw [Nat.mul_add, Nat.mul_add, ← Nat.mul_assoc csz s, Nat.mul_comm csz s]
                omega
              · rw [← he, hb]
                congr 1
                show (u' / csz + B * rav (axBlk is ax) kk) * csz + _ = _
                rw [Nat.add_mul, Nat.mul_comm B (rav _ _), Nat.mul_assoc, Nat.mul_comm (u' / csz)]
                omega

theorem moveAll_spec (csz : Nat) (ax : List (List Nat × Nat)) (hax : ax ≠ []) (hsum : ∀ q ∈ ax, q.2 = q.1.sum) (h32 : prod (axSs ax) * csz < 2^32) (xs : List (Val E)) (hx : xs.length = prod (axNs ax))
    (hv : ∀ ei v, InShape (axNs ax) ei → xs[rav (axNs ax) ei]? = some v → v.els.length = prod (axBlk ei ax) * csz) :
    ∀ (es : List (Val E)) (ei : List Nat) (mem : List (Option E)), es = xs.drop (rav (axNs ax) ei) → InShape (axNs ax) ei → mem.length = prod (axSs ax) * csz →
    ∃ mem', moveAll csz ax es ei ((csz * rav (axSs ax) (axOff ei ax) : Nat) : Int) mem = .ok mem' ∧
      Writes mem mem' fun p e => ∃ fi v, InShape (axNs ax) fi ∧ rav (axNs ax) ei ≤ rav (axNs ax) fi ∧ xs[rav (axNs ax) fi]? = some v ∧ Wrote csz fi ax v.els p e
  | [], ei, mem, hes, hei, hm => by
    have := rav_lt hei
    have := List.drop_eq_nil_iff.1 hes.symm
    omega
  | v :: es, ei, mem, hes, hei, hm => by
    have hlt := rav_lt hei
    have hget : xs[rav (axNs ax) ei]? = some v := by
      have : (xs.drop (rav (axNs ax) ei))[0]? = some v := by rw [← hes]; rfl
      rw [List.getElem?_drop, Nat.add_zero] at this
      exact this
    have hes' : es = xs.drop (rav (axNs ax) ei + 1) := by
      rw [← List.drop_drop, ← hes]; rfl
    obtain ⟨m1, e1, w1⟩ := moveOne_spec csz ax hax hsum ei hei v (hv ei v hei hget) mem hm h32
    rw [moveAll, e1]
    show ∃ mem', (if es.isEmpty = true then Res.ok m1 else _) = _ ∧ _
    by_cases hend : rav (axNs ax) ei + 1 = prod (axNs ax)
    · have hnil : es = [] := by rw [hes', hend, ← hx]; exact List.drop_length
      rw [hnil]
      refine ⟨m1, rfl, w1.congr fun p e => ⟨?_, ?_⟩⟩
      · rintro ⟨fi, v', hfi, hle, hv', hw⟩
        have := rav_lt hfi
        have := rav_inj hei hfi (by omega)
        subst this
        rw [hget] at hv'
        cases hv'
        exact hw
      · intro hw
        exact ⟨ei, v, hei, Nat.le_refl _, hget, hw⟩
    · have hne : es.isEmpty = false := by
        cases hh : es with
        | nil =>
          rw [hh] at hes'
          have := List.drop_eq_nil_iff.1 hes'.symm
          omega
        | cons => rfl
      rw [hne]
      cases ax with
      | nil => exact absurd rfl hax
      | cons p ax =>
        cases hei with
        | @cons _ i _ is hi his =>
          obtain ⟨is', e2, h1, h2⟩ := bumpElem_spec ax p is i (csz : Int) 0 hsum (.cons hi his) (by omega)
          have hpos : ((csz * rav (axSs (p :: ax)) (axOff (i :: is) (p :: ax)) : Nat) : Int) + ((p.1[i]?.getD 0 * csz : Nat) : Int) =
              0 + (csz : Int) * ((rav (axSs (p :: ax)) (axOff (i :: is) (p :: ax)) + p.1[i]?.getD 0 : Nat) : Int) := by
            push_cast
            rw [Int.mul_add, Int.zero_add, Int.mul_comm ((p.1[i]?.getD 0 : Nat) : Int)]
          show ∃ mem', (match bumpElem (i :: is) (p :: ax) csz (((csz * rav (axSs (p :: ax)) (axOff (i :: is) (p :: ax)) : Nat) : Int) + ((p.1[i]?.getD 0 * csz : Nat) : Int)) with | none => Res.undef | some (ei, ri) => moveAll csz (p :: ax) es ei ri m1) = _ ∧ _
          rw [hpos, e2]
          have hc2 : (0 : Int) + (csz : Int) * ((rav (axSs (p :: ax)) (axOff is' (p :: ax)) : Nat) : Int) = ((csz * rav (axSs (p :: ax)) (axOff is' (p :: ax)) : Nat) : Int) := by push_cast; omega
          obtain ⟨m2, e3, w3⟩ := moveAll_spec csz (p :: ax) hax hsum h32 xs hx hv es is' m1 (by rw [h2]; exact hes') h1 (w1.length.trans hm)
          refine ⟨m2, by show moveAll csz (p :: ax) es is' _ m1 = _; rw [hc2]; exact e3, w1.trans w3 fun q e => ⟨?_, ?_⟩⟩
          · rintro ⟨fi, v', hfi, hle, hv', hw⟩
            by_cases heq : rav (axNs (p :: ax)) (i :: is) = rav (axNs (p :: ax)) fi
            · have := rav_inj (.cons hi his) hfi heq
              subst this
              rw [hget] at hv'
              cases hv'
              exact .inl hw
            · exact .inr ⟨fi, v', hfi, by omega, hv', hw⟩
          · rintro (hw | ⟨fi, v', hfi, hle, hv', hw⟩)
            · exact ⟨i :: is, v, .cons hi his, Nat.le_refl _, hget, hw⟩
            · exact ⟨fi, v', hfi, by omega, hv', hw⟩

end Verif.Join
