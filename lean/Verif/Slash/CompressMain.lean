import Verif.Slash.Group
/-!
# Replicate by booleans: proofs for each kind of array
-/
namespace Verif.Slash
open Verif.Bits Verif.Fold

theorem pickCells_one {α} (xs : List α) (ps : List Nat) (h : ∀ p ∈ ps, p < xs.length) : pickCells (slice xs) 1 ps = pick xs ps := by
  induction ps with
  | nil => rfl
  | cons p ps ih =>
    have hp := h p (List.mem_cons_self ..)
    show slice xs (p * 1) 1 ++ pickCells (slice xs) 1 ps = _
    rw [ih fun q hq => h q (List.mem_cons_of_mem _ hq), Nat.mul_one]
    unfold slice pick
    rw [List.filterMap_cons, List.getElem?_eq_getElem hp, List.drop_eq_getElem_cons hp]
    rfl

theorem flatten_length {α} {cs : List (List α)} {width : Nat} (h : ∀ c ∈ cs, c.length = width) : cs.flatten.length = cs.length * width := by
  induction cs with
  | nil => simp
  | cons c cs ih =>
    rw [List.flatten_cons, List.length_append, ih fun d hd => h d (List.mem_cons_of_mem _ hd), h c (List.mem_cons_self ..), List.length_cons, Nat.succ_mul]
    omega

theorem slice_flatten {α} {width : Nat} : ∀ {cs : List (List α)} (_ : ∀ c ∈ cs, c.length = width) (p : Nat) (hp : p < cs.length), slice cs.flatten (p * width) width = cs[p]
  | c :: cs, h, 0, hp => by
    unfold slice
    have := h c (List.mem_cons_self ..)
    rw [Nat.zero_mul, List.drop_zero, List.flatten_cons, List.take_append_of_le_length (by omega), List.take_of_length_le (by omega)]
    rfl
  | c :: cs, h, p + 1, hp => by
    have hc := h c (List.mem_cons_self ..)
    have := slice_flatten (cs := cs) (fun d hd => h d (List.mem_cons_of_mem _ hd)) p (by rw [List.length_cons] at hp; omega)
    unfold slice at this ⊢
    rw [List.flatten_cons, Nat.succ_mul, List.drop_append, List.drop_eq_nil_of_le (by omega), List.nil_append, hc, Nat.add_sub_cancel, this]
    rfl

theorem pickCells_flatten {α} {width : Nat} {cs : List (List α)} (h : ∀ c ∈ cs, c.length = width) (ps : List Nat) (hp : ∀ p ∈ ps, p < cs.length) :
    pickCells (slice cs.flatten) width ps = (pick cs ps).flatten := by
  induction ps with
  | nil => rfl
  | cons p ps ih =>
    have h0 := hp p (List.mem_cons_self ..)
    show slice cs.flatten (p * width) width ++ pickCells (slice cs.flatten) width ps = _
    rw [ih fun q hq => hp q (List.mem_cons_of_mem _ hq), slice_flatten h p h0]
    unfold pick
    rw [List.filterMap_cons, List.getElem?_eq_getElem h0, List.flatten_cons]

theorem pick_firstN {β} (f : Nat → β) (n : Nat) (ps : List Nat) (hp : ∀ p ∈ ps, p < n) : pick (firstN f n) ps = ps.map f := by
  induction ps with
  | nil => rfl
  | cons p ps ih =>
    have h0 := hp p (List.mem_cons_self ..)
    have := ih fun q hq => hp q (List.mem_cons_of_mem _ hq)
    unfold pick at this ⊢
    rw [List.filterMap_cons, getElem?_firstN, if_pos h0, this]
    rfl

/-- The cells given by whole words of booleans. -/
def bitCells (x : Nat → Word) (width n : Nat) : List (List Bool) := firstN (fun c => firstN (fun i => bitF x (c * width + i)) width) n

theorem pickCells_bits (x : Nat → Word) (width n : Nat) (ps : List Nat) (hp : ∀ p ∈ ps, p < n) :
    pickCells (fun a l => firstN (fun i => bitF x (a + i)) l) width ps = (pick (bitCells x width n) ps).flatten := by
  unfold bitCells
  rw [pick_firstN _ _ _ hp]
  unfold pickCells
  rw [List.flatMap_def]

/-- The steps of `compress` before the kind of `x` matters. -/
theorem compress_start {α} (w : Nat → Word) (x : Data α) (n : Nat) (junk : Nat → Word) (d : Nat → α) :
    (P (bitF w) 0 n = [] ∧ compress w x n junk d = some (match x with | .bits _ => .bits [] | .bitCells _ _ => .bits [] | _ => .elems [])) ∨
    (P (bitF w) 0 n = List.range' 0 n ∧ compress w x n junk d = some .same) ∨
    ∃ y n', 0 < n' ∧ n' ≤ n ∧ bitF y (n' - 1) = true ∧ Clean y n' ∧ P (bitF y) 0 n' = P (bitF w) 0 n ∧
      compress w x n junk d = compressBy y n' (cnt (bitF y) n') junk d x := by
  unfold compress
  dsimp only
  rcases cut_spec w n with ⟨e, h⟩ | ⟨ie, we, c, n', e, e1, e2, h1, h2, h3, h4, h5⟩
  · rw [e]
    exact Or.inl ⟨h, rfl⟩
  · rw [e]
    dsimp only
    rw [e1, Option.bind_some, e2, bit_sum_eq]
    have hl : cnt (bitF (trim w n)) n' = cnt (bitF w) n := by rw [← P_length0, h5, P_length0]
    by_cases hs : cnt (bitF (trim w n)) n' = n
    · rw [if_pos hs]
      exact Or.inr (Or.inl ⟨P_all (by omega), rfl⟩)
    · rw [if_neg hs]
      exact Or.inr (Or.inr ⟨trim w n, n', h1, h2, h3, h4, h5, rfl⟩)

theorem compressGet_all {α} (y : Nat → Word) (xs : List α) (width n n' : Nat) (d : Nat → α) (hl : xs.length = n * width) (hn : n' ≤ n) :
    compressGet y xs width n' 0 (fresh d (cnt (bitF y) n' * width)) 0 = some (pickCells (slice xs) width (P (bitF y) 0 n')) := by
  have hc : cnt (fun j => bitF y (0 + j)) n' = cnt (bitF y) n' := cnt_congr fun j _ => by rw [Nat.zero_add]
  obtain ⟨m', e, h⟩ := compressGet_spec y xs width n hl n' 0 (fresh d (cnt (bitF y) n' * width)) 0 (by omega) (by rw [length_fresh, hc]; omega)
  have hsl := slices xs
  rw [hl] at hsl
  rw [e, h.all]
  rw [pickCells_length hsl width _ (fun p hp => Nat.mul_le_mul_right _ (by have := P_mem hp; omega)), P_length0, length_fresh]

theorem compressBy_elems {α} {y : Nat → Word} {n n' : Nat} (xs : List α) (hxs : xs.length = n) (h0 : 0 < n') (hn : n' ≤ n) (hlast : bitF y (n' - 1) = true)
    (hy : Clean y n') (junk : Nat → Word) (d : Nat → α) (x : Data α) (hx : (∃ small, x = .typed small xs) ∨ ∃ ptr, x = .objs ptr xs) :
    compressBy y n' (cnt (bitF y) n') junk d x = some (.elems (pick xs (P (bitF y) 0 n'))) := by
  have hlt : ∀ p ∈ P (bitF y) 0 n', p < xs.length := fun p hp => by have := P_mem hp; omega
  have hfr : (fresh d (cnt (bitF y) n')).length = cnt (bitF y) n' := length_fresh _ _
  have hblock := compressBlock_spec y xs (fresh d (cnt (bitF y) n')) (d 0) n' _ junk hy (by omega) rfl hfr
  have hgroup : compressGroup (memCpy xs) y 1 n' (cnt (bitF y) n') (fresh d (cnt (bitF y) n')) = some (pick xs (P (bitF y) 0 n')) := by
    rw [compressGroup_mem y xs _ 1 n' n (by omega) (by omega) h0 hn hy (by rw [hfr, Nat.mul_one]), pickCells_one xs _ hlt]
  have hdense := compressDense_spec y xs (fresh d (cnt (bitF y) n')) (d 0) n' h0 (by omega) hfr hlast
  have hget := compressGet_all y xs 1 n n' d (by omega) hn
  rw [Nat.mul_one, pickCells_one xs _ hlt] at hget
  rcases hx with ⟨small, rfl⟩ | ⟨ptr, rfl⟩
  · cases small with
    | true =>
      rw [compressBy]
      rw [hblock, hgroup, hdense]
      split
      · rfl
      · split <;> rfl
    | false =>
      rw [compressBy]
      rw [hblock, hgroup]
      split <;> rfl
  · cases ptr with
    | true => rw [compressBy]; rw [hblock]; rfl
    | false => rw [compressBy]; rw [hget]; rfl

theorem compressBy_cells {α} {y : Nat → Word} {n' width : Nat} (cs : List (List α)) (hcs : ∀ c ∈ cs, c.length = width) (h0 : 0 < n') (hn : n' ≤ cs.length)
    (hy : Clean y n') (junk : Nat → Word) (d : Nat → α) (x : Data α) (hx : x = .cells width cs.flatten ∨ x = .objCells width cs.flatten) :
    compressBy y n' (cnt (bitF y) n') junk d x = some (.elems (pick cs (P (bitF y) 0 n')).flatten) := by
  have hlt : ∀ p ∈ P (bitF y) 0 n', p < cs.length := fun p hp => by have := P_mem hp; omega
  have hl := flatten_length hcs
  rcases Nat.eq_zero_or_pos width with hw | hw
  · subst hw
    have e1 : cs.flatten = [] := List.eq_nil_of_length_eq_zero (by rw [hl]; simp)
    have e2 : (pick cs (P (bitF y) 0 n')).flatten = [] := by
      rw [← pickCells_flatten hcs _ hlt, e1]
      unfold pickCells slice
      simp
    rw [e2]
    rcases hx with rfl | rfl <;> (rw [compressBy]; rw [e1, if_pos rfl])
  · have hne : cs.flatten ≠ [] := by
      intro h
      have h1 := congrArg List.length h
      rw [hl, List.length_nil] at h1
      have := Nat.mul_pos (show 0 < cs.length by omega) hw
      omega
    rcases hx with rfl | rfl
    · rw [compressBy]
      rw [if_neg hne, compressGroup_mem y cs.flatten _ width n' cs.length hw hl h0 hn hy (length_fresh _ _), pickCells_flatten hcs _ hlt]
      rfl
    · rw [compressBy]
      rw [if_neg hne, compressGet_all y cs.flatten width cs.length n' d hl hn, pickCells_flatten hcs _ hlt]
      rfl

end Verif.Slash
