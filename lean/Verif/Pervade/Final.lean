import Verif.Pervade.Main
/-!
# Comparisons: leading axes, and the whole
-/
namespace Verif.Pervade
open Verif.Bins (ofInt)
open Verif.Rotate (prod prod_append)
open Verif.Squeeze (Val El Data)
open Verif.BitFn (shProd)

/-! ## Repeating and slicing -/

theorem flatMap_replicate {α β : Type} (f : α → β) (n : Nat) (xs : List α) : (xs.flatMap (List.replicate n)).map f = (xs.map f).flatMap (List.replicate n) := by
  induction xs with
  | nil => rfl
  | cons a xs ih => rw [List.flatMap_cons, List.map_append, ih, List.map_replicate, List.map_cons, List.flatMap_cons]

theorem repEach_elems (n : Nat) (d : Data) : (repEach n d).elems = d.elems.flatMap (List.replicate n) := by
  cases d <;> first | rfl | exact flatMap_replicate _ _ _

theorem repEach_ty (n : Nat) (d : Data) : (repEach n d).ty = d.ty := by cases d <;> rfl

theorem slice_elems (s n : Nat) (d : Data) : (slice s n d).elems = (d.elems.drop s).take n := by
  cases d <;> first | rfl | (show List.map _ _ = _; rw [List.map_take, List.map_drop]; rfl)

theorem slice_ty (s n : Nat) (d : Data) : (slice s n d).ty = d.ty := by cases d <;> rfl

theorem rep_length {α : Type} (n : Nat) (xs : List α) : (xs.flatMap (List.replicate n)).length = xs.length * n := by
  induction xs with
  | nil => simp
  | cons a xs ih => rw [List.flatMap_cons, List.length_append, ih, List.length_replicate, List.length_cons, Nat.succ_mul]; omega

theorem rep_get {α : Type} {n : Nat} (hn : 0 < n) : ∀ (xs : List α) (i : Nat), (xs.flatMap (List.replicate n))[i]? = xs[i/n]?
  | [], i => by simp
  | a :: xs, i => by
    rw [List.flatMap_cons]
    by_cases h : i < n
    · rw [List.getElem?_append_left (by rw [List.length_replicate]; exact h), List.getElem?_replicate, if_pos h, Nat.div_eq_of_lt h]
      rfl
    · rw [List.getElem?_append_right (by rw [List.length_replicate]; omega), List.length_replicate, rep_get hn xs]
      have : i / n = (i - n) / n + 1 := by
        conv => lhs; rw [show i = (i - n) + n by omega]
        rw [Nat.add_div_right _ hn]
      rw [this, List.getElem?_cons_succ]

theorem flatten_get {α : Type} {n : Nat} (hn : 0 < n) : ∀ (ls : List (List α)), (∀ l ∈ ls, l.length = n) → ∀ i, ls.flatten[i]? = (ls[i/n]?).bind (·[i%n]?)
  | [], _, i => by simp
  | l :: ls, h, i => by
    have hl := h l List.mem_cons_self
    rw [List.flatten_cons]
    by_cases c : i < n
    · rw [List.getElem?_append_left (by omega), Nat.div_eq_of_lt c, Nat.mod_eq_of_lt c]
      rfl
    · rw [List.getElem?_append_right (by omega), hl, flatten_get hn ls fun l hl => h l (List.mem_cons_of_mem _ hl)]
      have e1 : i / n = (i - n) / n + 1 := by
        conv => lhs; rw [show i = (i - n) + n by omega]
        rw [Nat.add_div_right _ hn]
      have e2 : i % n = (i - n) % n := by
        conv => lhs; rw [show i = (i - n) + n by omega]
        rw [Nat.add_mod_right]
      rw [e1, e2, List.getElem?_cons_succ]

theorem flatten_length {α : Type} {n : Nat} : ∀ (ls : List (List α)), (∀ l ∈ ls, l.length = n) → ls.flatten.length = ls.length * n
  | [], _ => by simp
  | l :: ls, h => by
    rw [List.flatten_cons, List.length_append, h l List.mem_cons_self, flatten_length ls fun l hl => h l (List.mem_cons_of_mem _ hl), List.length_cons, Nat.succ_mul]
    omega

theorem foldl_lt : ∀ (l : List Nat) (a : Nat), a < 2^32 → l.foldl (fun r d => r * d % 2^32) a < 2^32
  | [], _, h => h
  | d :: l, a, _ => by
    rw [List.foldl_cons]
    exact foldl_lt l _ (Nat.mod_lt _ (by decide))

theorem shProd_eq {sh : List Nat} (h : prod sh < 2^32) : shProd sh = prod sh := by
  have hl : shProd sh < 2^32 := foldl_lt sh 1 (by decide)
  have := BitFn.foldl_mod sh 1
  unfold shProd at hl ⊢
  rw [Nat.one_mul, Nat.mod_eq_of_lt hl, Nat.mod_eq_of_lt h] at this
  exact this

/-! ## Leading axes -/

/-- A cell at a time. -/
theorem pieces {p : Nat → Option Bool} {g : Nat → Out V} {cam csz : Nat} (hc : 0 < csz) {u sh : List Nat}
    (h : ∀ i, i < cam → (∃ bs, g i = .ok (.typed u (.bit bs)) ∧ bs.length = csz ∧ ∀ (j : Nat) b, bs[j]? = some b → p (i*csz+j) = some b) ∨
      (g i = .err ∧ ∃ j, j < csz ∧ p (i*csz+j) = none)) {o : Out V}
    (ho : o = do let r ← fill (fun i => (g i).bind V.bits?) cam 0; pure (.typed sh (.bit r.flatten))) :
    (∃ bs, o = .ok (.typed sh (.bit bs)) ∧ bs.length = cam * csz ∧ ∀ (k : Nat) b, bs[k]? = some b → p k = some b) ∨
    (o = .err ∧ ∃ k, k < cam * csz ∧ p k = none) := by
  rw [fill_range] at ho
  have H : ∀ i ∈ List.range cam, (∃ b, (g i).bind V.bits? = .ok b) ∨ (g i).bind V.bits? = .err := by
    intro i hi
    rcases h i (List.mem_range.1 hi) with ⟨bs, e, _⟩ | ⟨e, _⟩
    · exact .inl ⟨bs, by rw [e]; rfl⟩
    · exact .inr (by rw [e]; rfl)
  rcases out_mapM H with ⟨bss, e, l, hh⟩ | ⟨e, i, hi, hh⟩
  · rw [e] at ho
    rw [List.length_range] at l
    have each : ∀ (i : Nat) bs, bss[i]? = some bs → bs.length = csz ∧ ∀ (j : Nat) b, bs[j]? = some b → p (i*csz+j) = some b := by
      intro i bs hb
      obtain ⟨i', hi', hg⟩ := hh i bs hb
      have hi := (List.getElem?_eq_some_iff.1 hi').1
      rw [List.length_range] at hi
      rw [List.getElem?_range hi] at hi'
      injection hi' with hi'
      subst hi'
      rcases h i hi with ⟨bs', e', l', h'⟩ | ⟨e', _⟩
      · rw [e'] at hg
        have : bs' = bs := by injection hg
        subst this
        exact ⟨l', h'⟩
      · rw [e'] at hg; cases hg
    have len : ∀ l ∈ bss, l.length = csz := by
      intro l hl
      obtain ⟨i, hi, e⟩ := List.mem_iff_getElem.1 hl
      exact (each i l (by rw [List.getElem?_eq_getElem hi, e])).1
    refine .inl ⟨bss.flatten, ho, by rw [flatten_length bss len, l], ?_⟩
    intro k b hk
    rw [flatten_get hc bss len] at hk
    cases hb : bss[k / csz]? with
    | none => rw [hb] at hk; cases hk
    | some bs =>
      rw [hb] at hk
      have := (each _ bs hb).2 (k % csz) b hk
      rw [Nat.mul_comm, Nat.div_add_mod] at this
      exact this
  · rw [e] at ho
    have hi := List.mem_range.1 hi
    refine .inr ⟨ho, ?_⟩
    rcases h i hi with ⟨bs, e', _⟩ | ⟨_, j, hj, hn⟩
    · rw [e'] at hh; cases hh
    · refine ⟨i*csz+j, ?_, hn⟩
      have := Nat.mul_le_mul_right csz (show i + 1 ≤ cam from hi)
      rw [Nat.succ_mul] at this
      omega

theorem mem_rep {α : Type} {n : Nat} {xs : List α} {a : α} (h : a ∈ xs.flatMap (List.replicate n)) : a ∈ xs := by
  obtain ⟨b, hb, hr⟩ := List.mem_flatMap.1 h
  rw [(List.mem_replicate.1 hr).2]
  exact hb

/-- Comparing the same pairs. -/
theorem pairs_congr {p : T → T → Option Bool} {w x w' x' : T} (hw : FullT w) (hx : FullT x) (hw' : FullT w') (hx' : FullT x')
    (h : w.atom = false ∨ x.atom = false) (h' : w'.atom = false ∨ x'.atom = false) (A : Agree w.sh x.sh) (A' : Agree w'.sh x'.sh)
    (bg : big w'.sh x'.sh = big w.sh x.sh)
    (hc : ∀ i, i < prod (big w.sh x.sh) → cellT w' (big w.sh x.sh) i = cellT w (big w.sh x.sh) i ∧ cellT x' (big w.sh x.sh) i = cellT x (big w.sh x.sh) i) {y : T} :
    Pairs p w' x' y ↔ Pairs p w x y := by
  rw [pairs_iff hw hx h, pairs_iff hw' hx' h', bg]
  have lt : ∀ {ys : List T} {i : Nat} {y : T}, ys.length = prod (big w.sh x.sh) → ys[i]? = some y → i < prod (big w.sh x.sh) := by
    intro ys i y l hy
    rw [← l]
    exact (List.getElem?_eq_some_iff.1 hy).1
  constructor
  · rintro ⟨_, ys, e, l, hh⟩
    refine ⟨A, ys, e, l, fun i y hy => ?_⟩
    have c := hc i (lt l hy)
    have := hh i y hy
    rw [c.1, c.2] at this
    exact this
  · rintro ⟨_, ys, e, l, hh⟩
    refine ⟨A', ys, e, l, fun i y hy => ?_⟩
    have c := hc i (lt l hy)
    rw [c.1, c.2]
    exact hh i y hy

theorem good_congr {p : T → T → Option Bool} {w x w' x' : T} (h : ∀ y, Pairs p w' x' y ↔ Pairs p w x y) {o : Out V} (g : Good p w' x' o) : Good p w x o := by
  rcases g with ⟨r, e, g⟩ | ⟨e, g⟩
  · exact .inl ⟨r, e, (h _).1 g⟩
  · exact .inr ⟨e, fun y hy => g y ((h y).2 hy)⟩

theorem sound_rep {s u : List Nat} {d : Data} {n : Nat} (hn : n = prod u) (h : Sound (.typed s d)) (hp : prod (s ++ u) < 2^32) : Sound (.typed (s ++ u) (repEach n d)) := by
  subst hn
  obtain ⟨a, b, c, e⟩ := h
  refine ⟨by rw [repEach_ty]; exact a, by rw [repEach_elems, rep_length, b, prod_append], hp, ?_⟩
  intro c hc
  rw [repEach_elems] at hc
  exact e c (mem_rep hc)

theorem sound_slice {s u : List Nat} {d : Data} (h : Sound (.typed (s ++ u) d)) {i : Nat} (hi : i < prod s) : Sound (.typed u (slice (i * prod u) (prod u) d)) := by
  obtain ⟨a, b, c, e⟩ := h
  rw [prod_append] at b c
  have m := Nat.mul_le_mul_right (prod u) (show i + 1 ≤ prod s from hi)
  rw [Nat.succ_mul] at m
  refine ⟨by rw [slice_ty]; exact a, ?_, by omega, ?_⟩
  · rw [slice_elems, List.length_take, List.length_drop, b]
    omega
  · intro c hc
    rw [slice_elems] at hc
    exact e c (List.mem_of_mem_drop (List.mem_of_mem_take hc))

theorem typed_get {s u : List Nat} {d : Data} (hd : d.elems.length = prod s) {i : Nat} (hi : i < prod (s ++ u)) :
    ∃ a, d.elems[i / prod u]? = some a ∧ cellT (abs (.typed s d)) (s ++ u) i = tv a := by
  rw [prod_append] at hi
  have hl : i / prod u < d.elems.length := by
    rw [hd]
    exact Nat.div_lt_of_lt_mul (by rw [Nat.mul_comm]; exact hi)
  refine ⟨d.elems[i / prod u], List.getElem?_eq_getElem hl, ?_⟩
  show (d.elems.map tv).getD (i / prod ((s ++ u).drop s.length)) _ = _
  rw [List.drop_left' rfl]
  exact getD_of _ (by rw [List.getElem?_map, List.getElem?_eq_getElem hl]; rfl)

theorem cell_rep {s u : List Nat} {d : Data} {n : Nat} (hn : n = prod u) (hd : d.elems.length = prod s) {i : Nat} (hi : i < prod (s ++ u)) :
    cellT (abs (.typed (s ++ u) (repEach n d))) (s ++ u) i = cellT (abs (.typed s d)) (s ++ u) i := by
  subst hn
  obtain ⟨a, ha, e⟩ := typed_get (u := u) hd hi
  have up : 0 < prod u := by
    apply Nat.pos_of_ne_zero
    intro h; rw [prod_append, h, Nat.mul_zero] at hi; omega
  rw [e]
  apply cell_typed
  rw [repEach_elems, rep_get up]
  exact ha

theorem cell_slice {s u : List Nat} {d : Data} (hd : d.elems.length = prod (s ++ u)) {i j : Nat} (hi : i < prod s) (hj : j < prod u) :
    cellT (abs (.typed u (slice (i * prod u) (prod u) d))) u j = cellT (abs (.typed (s ++ u) d)) (s ++ u) (i * prod u + j) := by
  have m := Nat.mul_le_mul_right (prod u) (show i + 1 ≤ prod s from hi)
  rw [Nat.succ_mul] at m
  rw [prod_append] at hd
  have hl : i * prod u + j < d.elems.length := by omega
  have e := List.getElem?_eq_getElem hl
  rw [cell_typed e]
  apply cell_typed
  rw [slice_elems, List.getElem?_take, if_pos hj, List.getElem?_drop]
  exact e

theorem get_typed {s u : List Nat} {d : Data} (hd : d.elems.length = prod s) {i j : Nat} (hi : i < prod s) (hj : j < prod u) :
    ((V.typed s d).get i).isArr = false ∧ abs ((V.typed s d).get i) = cellT (abs (.typed s d)) (s ++ u) (i * prod u + j) := by
  have m := Nat.mul_le_mul_right (prod u) (show i + 1 ≤ prod s from hi)
  rw [Nat.succ_mul] at m
  obtain ⟨a, ha, e⟩ := typed_get (u := u) hd (i := i * prod u + j) (by rw [prod_append]; omega)
  have q : (i * prod u + j) / prod u = i := by
    rw [Nat.mul_comm, Nat.mul_add_div (by omega), Nat.div_eq_of_lt hj, Nat.add_zero]
  rw [q] at ha
  have g : (V.typed s d).get i = ofVal a := by
    unfold V.get
    exact getD_of _ (by rw [V.els, List.getElem?_map, ha]; rfl)
  rw [g, e, abs_ofVal]
  exact ⟨(ofVal_atom a).1, rfl⟩

/-- What `leading` needs of the comparison that it uses. -/
structure Uses (p : T → T → Option Bool) (f : V → V → Out V) : Prop where
  same : ∀ {sh : List Nat} {a b : Data}, Sound (.typed sh a) → Sound (.typed sh b) → Good p (abs (.typed sh a)) (abs (.typed sh b)) (f (.typed sh a) (.typed sh b))
  left : ∀ {a : V} {sh : List Nat} {b : Data}, a.isArr = false → Sound (.typed sh b) → Typed p (abs a) (abs (.typed sh b)) (f a (.typed sh b))
  right : ∀ {a : V} {sh : List Nat} {b : Data}, a.isArr = false → Sound (.typed sh b) → Typed p (abs (.typed sh b)) (abs a) (f (.typed sh b) a)

theorem big_left (s u : List Nat) : big s (s ++ u) = s ++ u := if_neg (by rw [List.length_append]; omega)
theorem big_right {s u : List Nat} (h : u ≠ []) : big (s ++ u) s = s ++ u := if_pos (by
  rw [List.length_append]
  have := List.length_pos_iff.2 h
  omega)
theorem big_nil_left (s : List Nat) : big [] s = s := big_left [] s
theorem big_nil_right (s : List Nat) : big s [] = s := by
  cases s with
  | nil => rfl
  | cons a s => exact big_right (s := []) (by simp)

theorem leading_short {p : T → T → Option Bool} {f : V → V → Out V} (F : Uses p f) {wsh u : List Nat} {w x : Data} (hu : u ≠ [])
    (hw : Sound (.typed wsh w)) (hx : Sound (.typed (wsh ++ u) x)) (hne : 0 < prod (wsh ++ u)) :
    Good p (abs (.typed wsh w)) (abs (.typed (wsh ++ u) x)) (leading f wsh w (wsh ++ u) x wsh.length) := by
  have pp : prod (wsh ++ u) < 2^32 := hx.2.2.1
  have pe := prod_append wsh u
  have up : 0 < prod u := by
    apply Nat.pos_of_ne_zero
    intro h; rw [pe, h, Nat.mul_zero] at hne; omega
  have wp : 0 < prod wsh := by
    apply Nat.pos_of_ne_zero
    intro h; rw [pe, h, Nat.zero_mul] at hne; omega
  have ul : prod u < 2^32 := Nat.lt_of_le_of_lt (by rw [pe]; exact Nat.le_mul_of_pos_left _ wp) pp
  have wl : prod wsh < 2^32 := hw.2.2.1
  have Fw := full_abs (full_typed hw)
  have Fx := full_abs (full_typed hx)
  have A : Agree (abs (.typed wsh w)).sh (abs (.typed (wsh ++ u) x)).sh := Agree.of_prefix wsh u
  have bg : big (abs (.typed wsh w)).sh (abs (.typed (wsh ++ u) x)).sh = wsh ++ u := big_left wsh u
  unfold leading
  rw [List.take_left' rfl, decide_eq_true (rfl : wsh.length = wsh.length)]
  simp only [if_true]
  rw [List.drop_left' rfl, shProd_eq ul, shProd_eq wl]
  split
  · have hr := sound_rep (n := prod u) rfl hw pp
    refine good_congr (fun y => ?_) (F.same hr hx)
    refine pairs_congr Fw Fx (full_abs (full_typed hr)) Fx (.inl rfl) (.inl rfl) A rfl ?_ ?_
    · rw [bg]; exact big_self _
    · rw [bg]
      intro i hi
      exact ⟨cell_rep rfl hw.2.1 hi, rfl⟩
  · refine Typed.good Fw Fx (.inl rfl) A ?_ ?_
    · rw [bg]
      intro i hi
      obtain ⟨a, _, e⟩ := typed_get (u := u) hw.2.1 hi
      exact ⟨by rw [e]; exact tv_atom a, cells_atom hx.2.1 hi⟩
    · unfold Typed
      rw [bg, pe]
      refine pieces (p := fun k => p (cellT (abs (.typed wsh w)) (wsh ++ u) k) (cellT (abs (.typed (wsh ++ u) x)) (wsh ++ u) k)) (u := u)
        (g := fun i => f ((V.typed wsh w).get i) (.typed u (slice (i * prod u) (prod u) x))) up ?_ rfl
      intro i hi
      have ga := (get_typed (u := u) (j := 0) hw.2.1 hi up).1
      have sb := sound_slice hx hi
      have at0 : (abs ((V.typed wsh w).get i)).atom = true := by rw [abs_atom, ga]; rfl
      have T := F.left ga sb
      unfold Typed at T
      have bg2 : big (abs ((V.typed wsh w).get i)).sh (abs (.typed u (slice (i * prod u) (prod u) x))).sh = u := by
        rw [abs_sh, sh_atom ga]; exact big_nil_left u
      rw [bg2] at T
      have ca : ∀ j, cellT (abs ((V.typed wsh w).get i)) u j = abs ((V.typed wsh w).get i) := by
        intro j; unfold cellT; rw [if_pos at0]
      rcases T with ⟨bs, e, l, hh⟩ | ⟨e, j, hj, hn⟩
      · refine .inl ⟨bs, e, l, ?_⟩
        intro j b hb
        have hj : j < prod u := by rw [← l]; exact (List.getElem?_eq_some_iff.1 hb).1
        have := hh j b hb
        rw [ca, (get_typed (u := u) hw.2.1 hi hj).2, cell_slice hx.2.1 hi hj] at this
        exact this
      · refine .inr ⟨e, j, hj, ?_⟩
        rw [ca, (get_typed (u := u) hw.2.1 hi hj).2, cell_slice hx.2.1 hi hj] at hn
        exact hn

theorem leading_long {p : T → T → Option Bool} {f : V → V → Out V} (F : Uses p f) {xsh u : List Nat} {w x : Data} (hu : u ≠ [])
    (hw : Sound (.typed (xsh ++ u) w)) (hx : Sound (.typed xsh x)) (hne : 0 < prod (xsh ++ u)) :
    Good p (abs (.typed (xsh ++ u) w)) (abs (.typed xsh x)) (leading f (xsh ++ u) w xsh x xsh.length) := by
  have pp : prod (xsh ++ u) < 2^32 := hw.2.2.1
  have pe := prod_append xsh u
  have up : 0 < prod u := by
    apply Nat.pos_of_ne_zero
    intro h; rw [pe, h, Nat.mul_zero] at hne; omega
  have xp : 0 < prod xsh := by
    apply Nat.pos_of_ne_zero
    intro h; rw [pe, h, Nat.zero_mul] at hne; omega
  have ul : prod u < 2^32 := Nat.lt_of_le_of_lt (by rw [pe]; exact Nat.le_mul_of_pos_left _ xp) pp
  have xl : prod xsh < 2^32 := hx.2.2.1
  have Fw := full_abs (full_typed hw)
  have Fx := full_abs (full_typed hx)
  have A : Agree (abs (.typed (xsh ++ u) w)).sh (abs (.typed xsh x)).sh := (Agree.of_prefix xsh u).symm
  have bg : big (abs (.typed (xsh ++ u) w)).sh (abs (.typed xsh x)).sh = xsh ++ u := big_right hu
  have hd : decide (xsh.length = (xsh ++ u).length) = false := by
    apply decide_eq_false
    rw [List.length_append]
    have := List.length_pos_iff.2 hu
    omega
  unfold leading
  rw [List.take_length, hd]
  simp only [Bool.false_eq_true, if_false]
  rw [List.drop_left' rfl, shProd_eq ul, shProd_eq xl]
  split
  · have hr := sound_rep (n := prod u) rfl hx pp
    refine good_congr (fun y => ?_) (F.same hw hr)
    refine pairs_congr Fw Fx Fw (full_abs (full_typed hr)) (.inl rfl) (.inl rfl) A rfl ?_ ?_
    · rw [bg]; exact big_self _
    · rw [bg]
      intro i hi
      exact ⟨rfl, cell_rep rfl hx.2.1 hi⟩
  · refine Typed.good Fw Fx (.inl rfl) A ?_ ?_
    · rw [bg]
      intro i hi
      obtain ⟨a, _, e⟩ := typed_get (u := u) hx.2.1 hi
      exact ⟨cells_atom hw.2.1 hi, by rw [e]; exact tv_atom a⟩
    · unfold Typed
      rw [bg, pe]
      refine pieces (p := fun k => p (cellT (abs (.typed (xsh ++ u) w)) (xsh ++ u) k) (cellT (abs (.typed xsh x)) (xsh ++ u) k)) (u := u)
        (g := fun i => f (.typed u (slice (i * prod u) (prod u) w)) ((V.typed xsh x).get i)) up ?_ rfl
      intro i hi
      have ga := (get_typed (u := u) (j := 0) hx.2.1 hi up).1
      have sb := sound_slice hw hi
      have at0 : (abs ((V.typed xsh x).get i)).atom = true := by rw [abs_atom, ga]; rfl
      have T := F.right ga sb
      unfold Typed at T
      have bg2 : big (abs (.typed u (slice (i * prod u) (prod u) w))).sh (abs ((V.typed xsh x).get i)).sh = u := by
        rw [abs_sh ((V.typed xsh x).get i), sh_atom ga]; exact big_nil_right u
      rw [bg2] at T
      have ca : ∀ j, cellT (abs ((V.typed xsh x).get i)) u j = abs ((V.typed xsh x).get i) := by
        intro j; unfold cellT; rw [if_pos at0]
      rcases T with ⟨bs, e, l, hh⟩ | ⟨e, j, hj, hn⟩
      · refine .inl ⟨bs, e, l, ?_⟩
        intro j b hb
        have hj : j < prod u := by rw [← l]; exact (List.getElem?_eq_some_iff.1 hb).1
        have := hh j b hb
        rw [ca, (get_typed (u := u) hx.2.1 hi hj).2, cell_slice hw.2.1 hi hj] at this
        exact this
      · refine .inr ⟨e, j, hj, ?_⟩
        rw [ca, (get_typed (u := u) hx.2.1 hi hj).2, cell_slice hw.2.1 hi hj] at hn
        exact hn

/-! ## The whole -/

theorem sound_full {v : V} (h : Sound v) : Full v := by
  cases v with
  | typed sh d => exact full_typed h
  | boxed sh xs => exact fun _ => h.1
  | _ => exact fun h => by cases h

theorem sounds_mem : ∀ {vs : List V}, Sounds vs → ∀ v ∈ vs, Sound v
  | _ :: _, h, v, hv => by
    rcases List.mem_cons.1 hv with rfl | hv
    · exact h.1
    · exact sounds_mem h.2 v hv

theorem depths_mem : ∀ {vs : List V} {v : V}, v ∈ vs → depth v ≤ depths vs
  | u :: vs, v, h => by
    rw [depths]
    rcases List.mem_cons.1 h with rfl | h
    · omega
    · have := depths_mem h; omega

/-- Elements are sound and less deep. -/
theorem get_sound {v : V} (h : Sound v) (ha : v.isArr = true) (i : Nat) : Sound (v.get i) ∧ depth (v.get i) < depth v := by
  cases v with
  | typed sh d =>
    unfold V.get
    rw [List.getD_eq_getElem?_getD]
    cases e : (V.typed sh d).els[i]? with
    | none => exact ⟨trivial, by show 0 < 1; omega⟩
    | some a =>
      obtain ⟨b, _, rfl⟩ := List.mem_map.1 (List.mem_of_getElem? e)
      have : Sound (ofVal b) ∧ depth (ofVal b) = 0 := by cases b <;> exact ⟨trivial, rfl⟩
      exact ⟨this.1, by show depth (ofVal b) < 1; omega⟩
  | boxed sh xs =>
    unfold V.get
    rw [List.getD_eq_getElem?_getD]
    cases e : (V.boxed sh xs).els[i]? with
    | none => exact ⟨trivial, by show 0 < depth (.boxed sh xs); rw [depth]; omega⟩
    | some a =>
      have m := List.mem_of_getElem? e
      refine ⟨sounds_mem h.2 a m, ?_⟩
      have := depths_mem m
      show depth a < depth (.boxed sh xs)
      rw [depth]
      exact Nat.lt_succ_of_le this
  | _ => cases ha

theorem cell_sound {v : V} (h : Sound v) (sh : List Nat) (i : Nat) : Sound (cell v sh i) ∧ depth (cell v sh i) ≤ depth v ∧ (v.isArr = true → depth (cell v sh i) < depth v) := by
  unfold cell
  cases ha : v.isArr
  · exact ⟨h, Nat.le_refl _, fun h => by cases h⟩
  · have := get_sound h ha (i / prod (sh.drop v.sh.length))
    exact ⟨this.1, Nat.le_of_lt this.2, fun _ => this.2⟩

theorem atoms_good (same : Nat → Nat → Bool) (op : Op) {w x : V} (hw : w.isArr = false) (hx : x.isArr = false) :
    Good (rel same op) (abs w) (abs x) ((scalar same op w x).bind fun b => .ok (.num (ofInt b.toNat))) := by
  rw [scalar_rel same op hw hx]
  have aw : (abs w).atom = true := by rw [abs_atom, hw]; rfl
  have ax : (abs x).atom = true := by rw [abs_atom, hx]; rfl
  rw [← abs_atomT hw, ← abs_atomT hx]
  cases h : rel same op (abs w) (abs x) with
  | none =>
    refine .inr ⟨rfl, fun y hy => ?_⟩
    obtain ⟨b, hb, _⟩ := (atom_pairs aw ax).1 hy
    rw [h] at hb; cases hb
  | some b => exact .inl ⟨_, rfl, .atoms aw ax h⟩

theorem c2_atoms (same : Nat → Nat → Bool) (bad : BitVec 64 → BitVec 32) (e : Nat → V → V → Env) (n : Nat) (op : Op) {w x : V} (hw : w.isArr = false) (hx : x.isArr = false) :
    Good (rel same op) (abs w) (abs x) (c2 same bad e (n+1) op w x) := by
  cases op <;> (rw [c2, hw, hx]; exact atoms_good same _ hw hx; all_goals (intro h; cases h))

/-- `arith_recd` of a comparison. -/
def recd (same : Nat → Nat → Bool) (bad : BitVec 64 → BitVec 32) (e : Nat → V → V → Env) (n : Nat) (op : Op) (w x : V) : Out V :=
  match eachd (c2 same bad e n op) w x with
  | some o => o
  | none => .err

theorem isArr_of_typed {sh : List Nat} {d : Data} : (V.typed sh d).isArr = true := rfl

theorem c2_AA {same : Nat → Nat → Bool} {bad : BitVec 64 → BitVec 32} {e : Nat → V → V → Env} {n : Nat} {op : Op} (h1 : op ≠ .le) (h2 : op ≠ .lt) {w x : V}
    (hw : w.isArr = true) (hx : x.isArr = true) :
    c2 same bad e (n+1) op w x = opAA (c2 same bad e n) (recd same bad e n) bad (e n w x) op false w x := by
  cases op <;> first | exact absurd rfl h1 | exact absurd rfl h2 | (rw [c2, hw, hx]; rfl; all_goals (intro h; cases h))

theorem c2_le {same : Nat → Nat → Bool} {bad : BitVec 64 → BitVec 32} {e : Nat → V → V → Env} {n : Nat} {w x : V} (hw : w.isArr = true) (hx : x.isArr = true) :
    c2 same bad e (n+1) .le w x = opAA (c2 same bad e n) (recd same bad e n) bad (e n w x) .ge true x w ∧
    c2 same bad e (n+1) .lt w x = opAA (c2 same bad e n) (recd same bad e n) bad (e n w x) .gt true x w := by
  rw [c2, c2, hw, hx]
  exact ⟨rfl, rfl⟩

theorem c2_SA {same : Nat → Nat → Bool} {bad : BitVec 64 → BitVec 32} {e : Nat → V → V → Env} {n : Nat} {op : Op} {w x : V} (hw : w.isArr = false) (hx : x.isArr = true) :
    c2 same bad e (n+1) op w x = opSA same (recd same bad e n) bad (e n w x) op false w x := by
  cases op <;> (rw [c2, hw, hx]; rfl; all_goals (intro h; cases h))

theorem c2_AS {same : Nat → Nat → Bool} {bad : BitVec 64 → BitVec 32} {e : Nat → V → V → Env} {n : Nat} {op : Op} {w x : V} (hw : w.isArr = true) (hx : x.isArr = false) :
    c2 same bad e (n+1) op w x = opSA same (recd same bad e n) bad (e n w x) op.rev true x w := by
  cases op <;> (rw [c2, hw, hx]; rfl; all_goals (intro h; cases h))

/-- Two arrays of atoms. -/
theorem recd_atoms (same : Nat → Nat → Bool) (bad : BitVec 64 → BitVec 32) (e : Nat → V → V → Env) (n : Nat) (op : Op) {s t : List Nat} {w x : Data}
    (hw : Sound (.typed s w)) (hx : Sound (.typed t x)) :
    Good (rel same op) (abs (.typed s w)) (abs (.typed t x)) (recd same bad e (n+1) op (.typed s w) (.typed t x)) := by
  have at0 : ∀ {s : List Nat} {d : Data} (sh : List Nat) (i : Nat), (cell (.typed s d) sh i).isArr = false := by
    intro s d sh i
    show ((V.typed s d).get _).isArr = false
    unfold V.get
    rw [List.getD_eq_getElem?_getD]
    cases e : (V.typed s d).els[i / prod (sh.drop (V.typed s d).sh.length)]? with
    | none => rfl
    | some a =>
      obtain ⟨b, _, rfl⟩ := List.mem_map.1 (List.mem_of_getElem? e)
      exact (ofVal_atom b).1
  exact each_good (full_typed hw) (full_typed hx) (.inl rfl) fun i _ => c2_atoms same bad e n op (at0 _ i) (at0 _ i)

theorem rev_rev (op : Op) : op.rev.rev = op := by cases op <;> rfl

theorem c2_uses {same : Nat → Nat → Bool} (hs : ∀ i j, same i j = same j i) (bad : BitVec 64 → BitVec 32) (e : Nat → V → V → Env) (n : Nat) {op : Op} (h1 : op ≠ .le) (h2 : op ≠ .lt) :
    Uses (rel same op) (c2 same bad e (n+2) op) where
  same := by
    intro sh a b ha hb
    rw [c2_AA h1 h2 rfl rfl]
    exact opAA_same hs bad h1 h2 ha hb rfl (fun op => recd_atoms same bad e n op ha hb) (fun op => recd_atoms same bad e n op hb ha) _ false
  left := by
    intro a sh b ha hb
    rw [c2_SA ha rfl]
    exact opSA_typed hs bad op ha hb _ false
  right := by
    intro a sh b ha hb
    rw [c2_AS rfl ha]
    exact (opSA_typed hs bad op.rev ha hb _ true).flip (fun u v => by rw [rel_rev hs]) (.inr (by rw [abs_sh, sh_atom ha]))

/-- Two arrays, for the comparisons that have tables. -/
theorem opAA_good {same : Nat → Nat → Bool} (hs : ∀ i j, same i j = same j i) (bad : BitVec 64 → BitVec 32) (e : Nat → V → V → Env) {n : Nat}
    {op : Op} (h1 : op ≠ .le) (h2 : op ≠ .lt) {w x : V} (hw : Sound w) (hx : Sound x) (aw : w.isArr = true) (ax : x.isArr = true)
    (r1 : ∀ op, Good (rel same op) (abs w) (abs x) (recd same bad e (n+2) op w x)) (r2 : ∀ op, Good (rel same op) (abs x) (abs w) (recd same bad e (n+2) op x w)) (v : Env) (s : Bool) :
    Good (rel same op) (abs w) (abs x) (opAA (c2 same bad e (n+2)) (recd same bad e (n+2)) bad v op s w x) := by
  have R := recOp_good hs r1 r2 op s
  cases w with
  | boxed wsh ws => exact R
  | typed wsh wd =>
    cases x with
    | boxed xsh xs => exact R
    | typed xsh xd =>
      by_cases hr : wsh.length = xsh.length
      · exact opAA_same hs bad h1 h2 hw hx hr r1 r2 v s
      · unfold opAA
        dsimp only
        rw [if_pos hr]
        by_cases z : wd.elems.length = 0 ∨ xd.elems.length = 0
        · rw [if_pos z]; exact R
        · rw [if_neg z]
          have mn : (if wsh.length < xsh.length then wsh.length else xsh.length) = min wsh.length xsh.length := by
            by_cases c : wsh.length < xsh.length
            · rw [if_pos c]; omega
            · rw [if_neg c]; omega
          rw [mn]
          by_cases A : Agree wsh xsh
          · have A' : wsh.take (min wsh.length xsh.length) = xsh.take (min wsh.length xsh.length) := A
            rw [if_neg (not_not_intro A')]
            rcases A.cases with ⟨u, e1, _⟩ | ⟨u, e1, hu, _⟩
            · subst e1
              have hu : u ≠ [] := by
                intro h; apply hr; rw [h, List.append_nil]
              have hne : 0 < prod (wsh ++ u) := by rw [← hx.2.1]; omega
              rw [Nat.min_eq_left (by rw [List.length_append]; omega)]
              exact leading_short (c2_uses hs bad e n h1 h2) hu hw hx hne
            · subst e1
              have hne : 0 < prod (xsh ++ u) := by rw [← hw.2.1]; omega
              rw [Nat.min_eq_right (by rw [List.length_append]; omega)]
              exact leading_long (c2_uses hs bad e n h1 h2) hu hw hx hne
          · have A' : wsh.take (min wsh.length xsh.length) ≠ xsh.take (min wsh.length xsh.length) := A
            rw [if_pos A']
            exact disagree_good (full_typed hw) (full_typed hx) rfl A
    | _ => cases ax
  | _ => cases aw

/-- An atom and an array. -/
theorem opSA_good {same : Nat → Nat → Bool} (hs : ∀ i j, same i j = same j i) (bad : BitVec 64 → BitVec 32) {rc : Op → V → V → Out V}
    (op : Op) {w x : V} (hw : w.isArr = false) (hx : Sound x) (ax : x.isArr = true)
    (r1 : ∀ op, Good (rel same op) (abs w) (abs x) (rc op w x)) (r2 : ∀ op, Good (rel same op) (abs x) (abs w) (rc op x w)) (v : Env) (s : Bool) :
    Good (rel same op) (abs w) (abs x) (opSA same rc bad v op s w x) := by
  cases x with
  | boxed xsh xs => exact recOp_good hs r1 r2 op s
  | typed xsh xd =>
    have aw : (abs w).atom = true := by rw [abs_atom, hw]; rfl
    have fw : FullT (abs w) := full_abs fun h => by rw [hw] at h; cases h
    have bg : big (abs w).sh (abs (.typed xsh xd)).sh = xsh := by
      rw [abs_sh, sh_atom hw]; exact big_nil_left xsh
    refine (opSA_typed hs bad op hw hx v s).good fw (full_abs (full_typed hx)) (.inr rfl) ?_ ?_
    · rw [abs_sh, sh_atom hw]; exact Agree.of_prefix [] _
    · rw [bg]
      intro i hi
      refine ⟨?_, cells_atom hx.2.1 hi⟩
      unfold cellT
      rw [if_pos aw]
      exact aw
  | _ => cases ax

/-- Comparisons give the pairs. -/
theorem c2_good {same : Nat → Nat → Bool} (hs : ∀ i j, same i j = same j i) (bad : BitVec 64 → BitVec 32) (e : Nat → V → V → Env) :
    ∀ (n : Nat) (op : Op) (w x : V), Sound w → Sound x → depth w + depth x + 2 ≤ n → Good (rel same op) (abs w) (abs x) (c2 same bad e n op w x)
  | 0, _, _, _, _, _, h => by omega
  | n+1, op, w, x, hw, hx, h => by
    have R : ∀ {w x : V}, Sound w → Sound x → depth w + depth x + 2 ≤ n+1 → w.isArr = true ∨ x.isArr = true →
        ∀ op, Good (rel same op) (abs w) (abs x) (recd same bad e n op w x) := by
      intro w x hw hx h ha op
      refine each_good (sound_full hw) (sound_full hx) ha fun i _ => ?_
      obtain ⟨s1, d1, l1⟩ := cell_sound hw (big w.sh x.sh) i
      obtain ⟨s2, d2, l2⟩ := cell_sound hx (big w.sh x.sh) i
      apply c2_good hs bad e n op _ _ s1 s2
      rcases ha with ha | ha
      · have := l1 ha; omega
      · have := l2 ha; omega
    cases aw : w.isArr
    · cases ax : x.isArr
      · exact c2_atoms same bad e n op aw ax
      · rw [c2_SA aw ax]
        exact opSA_good hs bad op aw hx ax (R hw hx h (.inr ax)) (R hx hw (by omega) (.inl ax)) _ false
    · cases ax : x.isArr
      · rw [c2_AS aw ax]
        exact good_flip (fun a b => by rw [rel_rev hs])
          (opSA_good hs bad op.rev ax hw aw (R hx hw (by omega) (.inr aw)) (R hw hx h (.inl aw)) _ true)
      · have d1 : 0 < depth w := by cases w <;> first | (cases aw; done) | (rw [depth]; exact Nat.succ_pos _)
        have d2 : 0 < depth x := by cases x <;> first | (cases ax; done) | (rw [depth]; exact Nat.succ_pos _)
        obtain ⟨m, rfl⟩ : ∃ m, n = m+2 := ⟨n-2, by omega⟩
        have r1 := R hw hx h (.inl aw)
        have r2 := R hx hw (by omega) (.inl ax)
        cases op with
        | le =>
          rw [(c2_le aw ax).1]
          exact good_flip (fun a b => by rw [← rel_rev hs]; rfl) (opAA_good hs bad e (op := .ge) (by decide) (by decide) hx hw ax aw r2 r1 _ true)
        | lt =>
          rw [(c2_le aw ax).2]
          exact good_flip (fun a b => by rw [← rel_rev hs]; rfl) (opAA_good hs bad e (op := .gt) (by decide) (by decide) hx hw ax aw r2 r1 _ true)
        | ge => rw [c2_AA (by decide) (by decide) aw ax]; exact opAA_good hs bad e (by decide) (by decide) hw hx aw ax r1 r2 _ false
        | gt => rw [c2_AA (by decide) (by decide) aw ax]; exact opAA_good hs bad e (by decide) (by decide) hw hx aw ax r1 r2 _ false
        | eq => rw [c2_AA (by decide) (by decide) aw ax]; exact opAA_good hs bad e (by decide) (by decide) hw hx aw ax r1 r2 _ false
        | ne => rw [c2_AA (by decide) (by decide) aw ax]; exact opAA_good hs bad e (by decide) (by decide) hw hx aw ax r1 r2 _ false

/-- There is at most one result. -/
theorem pairs_unique {p : T → T → Option Bool} : ∀ (n : Nat) (w x : V), Sound w → Sound x → depth w + depth x ≤ n → ∀ {y z : T},
    Pairs p (abs w) (abs x) y → Pairs p (abs w) (abs x) z → y = z := by
  intro n
  induction n with
  | zero =>
    intro w x hw hx h y z hy hz
    have aw : (abs w).atom = true := by
      rw [abs_atom]
      cases w <;> first | rfl | (rw [depth] at h; omega)
    have ax : (abs x).atom = true := by
      rw [abs_atom]
      cases x <;> first | rfl | (simp only [depth] at h; omega)
    obtain ⟨b, e, rfl⟩ := (atom_pairs aw ax).1 hy
    obtain ⟨b', e', rfl⟩ := (atom_pairs aw ax).1 hz
    rw [e] at e'
    injection e' with e'
    rw [e']
  | succ n ih =>
    intro w x hw hx h y z hy hz
    by_cases ha : w.isArr = true ∨ x.isArr = true
    · have ha' : (abs w).atom = false ∨ (abs x).atom = false := by
        rw [abs_atom, abs_atom]
        rcases ha with h | h
        · left; rw [h]; rfl
        · right; rw [h]; rfl
      have fw := full_abs (sound_full hw)
      have fx := full_abs (sound_full hx)
      obtain ⟨_, ys, rfl, l1, h1⟩ := (pairs_iff fw fx ha').1 hy
      obtain ⟨_, zs, rfl, l2, h2⟩ := (pairs_iff fw fx ha').1 hz
      congr 1
      apply List.ext_getElem (by omega)
      intro i hi hi'
      have p1 := h1 i _ (List.getElem?_eq_getElem hi)
      have p2 := h2 i _ (List.getElem?_eq_getElem hi')
      rw [← abs_cell, ← abs_cell] at p1 p2
      obtain ⟨s1, d1, q1⟩ := cell_sound hw (big (abs w).sh (abs x).sh) i
      obtain ⟨s2, d2, q2⟩ := cell_sound hx (big (abs w).sh (abs x).sh) i
      refine ih _ _ s1 s2 ?_ p1 p2
      rcases ha with ha | ha
      · have := q1 ha; omega
      · have := q2 ha; omega
    · have aw : (abs w).atom = true := by
        rw [abs_atom]
        cases hh : w.isArr
        · rfl
        · exact absurd (.inl hh) ha
      have ax : (abs x).atom = true := by
        rw [abs_atom]
        cases hh : x.isArr
        · rfl
        · exact absurd (.inr hh) ha
      obtain ⟨b, e, rfl⟩ := (atom_pairs aw ax).1 hy
      obtain ⟨b', e', rfl⟩ := (atom_pairs aw ax).1 hz
      rw [e] at e'
      injection e' with e'
      rw [e']

end Verif.Pervade
