import Verif.Rep.Xor
import Verif.Slash.Props
/-!
# Replicate: proofs
-/
namespace Verif.Rep
open Verif.Bits Verif.Fold Verif.Slash

/-! ## Copying cells -/

/-- `cpy` appends slices of the argument to what has been written. -/
def Appends {M β} (cpy : M → Nat → Nat → Nat → Option M) (O : List β → M → Prop) (sl : Nat → Nat → List β) (N cap : Nat) : Prop :=
  ∀ us m xi l, O us m → us.length + l ≤ cap → xi + l ≤ N → ∃ m', cpy m us.length xi l = some m' ∧ O (us ++ sl xi l) m'

theorem copyRun_spec {M β} {cpy : M → Nat → Nat → Nat → Option M} {O : List β → M → Prop} {sl : Nat → Nat → List β} {N cap : Nat} (hc : Appends cpy O sl N cap)
    (hsl : Slices sl N) (hcap : cap < 4294967296) (i csz : Nat) (hi : i * csz + csz ≤ N) : ∀ (c : Nat) (us : List β) (m : M), O us m → us.length + c * csz ≤ cap →
    ∃ m', copyRun cpy i csz c m us.length = some (m', us.length + c * csz) ∧ O (us ++ (List.replicate c (sl (i * csz) csz)).flatten) m'
  | 0, us, m, h, _ => ⟨m, by rw [copyRun, Nat.zero_mul]; rfl, by simpa using h⟩
  | c + 1, us, m, h, hl => by
    rw [Nat.succ_mul] at hl
    obtain ⟨m1, e1, h1⟩ := hc us m (i * csz) csz h (by omega) hi
    rw [copyRun, e1, Option.bind_some, Nat.mod_eq_of_lt (by omega)]
    have hlen : (us ++ sl (i * csz) csz).length = us.length + csz := by rw [List.length_append, hsl.len _ _ hi]
    obtain ⟨m2, e2, h2⟩ := copyRun_spec hc hsl hcap i csz hi c _ m1 h1 (by omega)
    rw [hlen] at e2
    refine ⟨m2, by rw [e2, Nat.succ_mul, Nat.add_assoc, Nat.add_comm csz], ?_⟩
    rw [List.replicate_succ, List.flatten_cons, ← List.append_assoc]
    exact h2

theorem flatten_replicate_length {β} (c : Nat) (l : List β) : (List.replicate c l).flatten.length = c * l.length := by
  induction c with
  | zero => simp
  | succ c ih => rw [List.replicate_succ, List.flatten_cons, List.length_append, ih, Nat.succ_mul, Nat.add_comm]

theorem copyCells_spec {M β} {cpy : M → Nat → Nat → Nat → Option M} {O : List β → M → Prop} {sl : Nat → Nat → List β} {N cap : Nat} (hc : Appends cpy O sl N cap)
    (hsl : Slices sl N) (hcap : cap < 4294967296) (csz : Nat) : ∀ (cs : List Nat) (i : Nat) (us : List β) (m : M), (i + cs.length) * csz ≤ N → O us m →
    us.length + cs.sum * csz ≤ cap →
    ∃ m', copyCells cpy csz cs i m us.length = some m' ∧ O (us ++ (copies cs (firstN (fun k => sl ((i + k) * csz) csz) cs.length)).flatten) m'
  | [], i, us, m, _, h, _ => ⟨m, rfl, by simpa [copies] using h⟩
  | c :: cs, i, us, m, hi, h, hl => by
    rw [List.sum_cons, Nat.add_mul] at hl
    have hi1 : i * csz + csz ≤ N := by
      rw [← Nat.succ_mul]
      exact Nat.le_trans (Nat.mul_le_mul_right _ (by simp)) hi
    obtain ⟨m1, e1, h1⟩ := copyRun_spec hc hsl hcap i csz hi1 c us m h (by omega)
    rw [copyCells, e1, Option.bind_some]
    have hlen : (us ++ (List.replicate c (sl (i * csz) csz)).flatten).length = us.length + c * csz := by
      rw [List.length_append, flatten_replicate_length, hsl.len _ _ hi1]
    obtain ⟨m2, e2, h2⟩ := copyCells_spec hc hsl hcap csz cs (i + 1) _ m1 (by rw [List.length_cons] at hi; rw [show i + 1 + cs.length = i + (cs.length + 1) by omega]; exact hi) h1
      (by omega)
    rw [hlen] at e2
    refine ⟨m2, e2, ?_⟩
    rw [List.length_cons, firstN_succ]
    show O (us ++ (List.replicate c (sl ((i + 0) * csz) csz) ++ copies cs (firstN (fun k => sl ((i + (k + 1)) * csz) csz) cs.length)).flatten) m2
    rw [List.flatten_append, ← List.append_assoc]
    have : (fun k => sl ((i + (k + 1)) * csz) csz) = fun k => sl ((i + 1 + k) * csz) csz := funext fun k => by rw [show i + (k + 1) = i + 1 + k by omega]
    rw [this]
    exact h2

theorem run64_eq {M : Type} (cpy : M → Nat → Nat → Nat → Option M) (i csz : Nat) (hi : i * csz < 4294967296) : ∀ (c : Nat) (m : M) (ri : Nat), ri + c * csz < 4294967296 →
    slashAtom.run64 cpy i csz c m ri = copyRun cpy i csz c m ri
  | 0, m, ri, _ => rfl
  | c + 1, m, ri, h => by
    rw [Nat.succ_mul] at h
    rw [slashAtom.run64, copyRun, Nat.mod_eq_of_lt (by omega), Nat.mod_eq_of_lt hi, Nat.mod_eq_of_lt (by omega)]
    congr 1
    funext m1
    exact run64_eq cpy i csz hi c m1 (ri + csz) (by omega)

theorem copyRun_end {M : Type} (cpy : M → Nat → Nat → Nat → Option M) (i csz : Nat) : ∀ (c : Nat) (m : M) (ri : Nat) (r : M × Nat), ri + c * csz < 4294967296 →
    copyRun cpy i csz c m ri = some r → r.2 = ri + c * csz
  | 0, m, ri, r, _, h => by
    injection h with h
    rw [← h, Nat.zero_mul]; rfl
  | c + 1, m, ri, r, hb, h => by
    rw [Nat.succ_mul] at hb
    rw [copyRun] at h
    rcases he : cpy m ri (i * csz) csz with _ | m1
    · rw [he] at h; cases h
    · rw [he, Option.bind_some, Nat.mod_eq_of_lt (by omega)] at h
      rw [copyRun_end cpy i csz c m1 _ r (by omega) h, Nat.succ_mul]
      omega

theorem cells64_eq {M : Type} (cpy : M → Nat → Nat → Nat → Option M) (csz : Nat) : ∀ (cs : List Nat) (i : Nat) (m : M) (ri : Nat), (i + cs.length) * csz < 4294967296 →
    ri + cs.sum * csz < 4294967296 → slashAtom.cells64 cpy csz cs i m ri = copyCells cpy csz cs i m ri
  | [], _, _, _, _, _ => rfl
  | c :: cs, i, m, ri, h1, h2 => by
    rw [List.length_cons] at h1
    rw [List.sum_cons, Nat.add_mul] at h2
    rw [slashAtom.cells64, copyCells, run64_eq cpy i csz (Nat.lt_of_le_of_lt (Nat.mul_le_mul_right _ (by omega)) h1) c m ri (by omega)]
    rcases he : copyRun cpy i csz c m ri with _ | ⟨m1, ri1⟩
    · rfl
    · rw [Option.bind_some, Option.bind_some]
      have := copyRun_end cpy i csz c m ri _ (by omega) he
      dsimp only at this ⊢
      exact cells64_eq cpy csz cs (i + 1) m1 ri1 (by rw [show i + 1 + cs.length = i + (cs.length + 1) by omega]; exact h1) (by omega)

/-! ## Cells of elements -/

theorem appends_mem {α} (xs : List α) (m0 : List α) : Appends (memCpy xs) (fun us m => Ext m0 0 us m) (slice xs) xs.length m0.length := by
  intro us m xi l h h1 h2
  obtain ⟨m', e, hx⟩ := memCpy_spec (xs := xs) (m := m) (ri := us.length) h2 (by rw [h.len]; exact h1)
  exact ⟨m', e, h.append (by rw [Nat.zero_add]; exact hx)⟩

theorem cells_slices {α} {width : Nat} {cs : List (List α)} (h : ∀ c ∈ cs, c.length = width) :
    firstN (fun k => slice cs.flatten ((0 + k) * width) width) cs.length = cs := by
  apply List.ext_getElem?
  intro i
  rw [getElem?_firstN]
  by_cases hi : i < cs.length
  · rw [if_pos hi, Nat.zero_add, slice_flatten h i hi, List.getElem?_eq_getElem hi]
  · rw [if_neg hi, List.getElem?_eq_none (by omega)]

theorem copies_cells_length {α} {width : Nat} {ns : List Nat} {cs : List (List α)} (h : ∀ c ∈ cs, c.length = width) (hl : ns.length = cs.length) :
    (copies ns cs).flatten.length = ns.sum * width := by
  rw [flatten_length (width := width) (fun c hc => h c (mem_copies hc)), copies_length _ _ (by omega)]

theorem copyCells_mem {α} {width : Nat} (ns : List Nat) (cs : List (List α)) (h : ∀ c ∈ cs, c.length = width) (hl : ns.length = cs.length) (m : List α)
    (hm : m.length = ns.sum * width) (hb : ns.sum * width < 4294967296) : copyCells (memCpy cs.flatten) width ns 0 m 0 = some (copies ns cs).flatten := by
  obtain ⟨m', e, hx⟩ := copyCells_spec (appends_mem cs.flatten m) (slices _) (by omega) width ns 0 [] m (by rw [Nat.zero_add, flatten_length h, hl]; exact Nat.le_refl _)
    (Ext.nil (Nat.zero_le _)) (by rw [hm]; simp)
  rw [hl, cells_slices h, List.nil_append] at hx
  have := hx.all (by rw [copies_cells_length h hl, hm])
  rw [← this]
  exact e

/-! ## Cells of booleans -/

theorem listL_out {cap n : Nat} {us : List Bool} {m : List Word} (h : BitsOut cap us m) (hl : us.length = n) : listL m n = us := by
  apply List.ext_getElem?
  intro t
  show (firstN (bitL m) n)[t]? = _
  rw [getElem?_firstN]
  by_cases ht : t < n
  · rw [if_pos ht, h.2.2 t (by omega)]
  · rw [if_neg ht, List.getElem?_eq_none (by omega)]

theorem copyCells_bits (x : Nat → Word) (width : Nat) (ns : List Nat) (m : List Word) (hm : m.length = (ns.sum * width + 63) / 64) (hb : ns.sum * width < 4294967296) :
    ∃ m', copyCells (bitCpy x) width ns 0 m 0 = some m' ∧ listL m' (ns.sum * width) = (copies ns (bitCells x width ns.length)).flatten := by
  obtain ⟨m', e, hx⟩ := copyCells_spec (cpy := bitCpy x) (O := BitsOut m.length) (cap := ns.sum * width) (N := ns.length * width)
    (fun us m1 xi l hO h1 h2 => bitCpy_spec x hO xi l (by omega)) (slices_bits x _) hb width ns 0 [] m (by rw [Nat.zero_add]; exact Nat.le_refl _)
    ⟨rfl, by simp, fun t ht => absurd ht (Nat.not_lt_zero t)⟩ (by simp)
  rw [List.nil_append] at hx
  have hc : firstN (fun k => firstN (fun i => bitF x ((0 + k) * width + i)) width) ns.length = bitCells x width ns.length := by
    unfold bitCells
    congr 1
    funext k
    rw [Nat.zero_add]
  rw [hc] at hx
  have hbc : ∀ c ∈ bitCells x width ns.length, c.length = width := by
    intro c hc
    obtain ⟨i, hi, rfl⟩ := List.mem_iff_getElem.1 hc
    have hi' : i < ns.length := by
      have := length_firstN (fun c => firstN (fun i => bitF x (c * width + i)) width) ns.length
      unfold bitCells at hi
      omega
    have := getElem?_firstN (fun c => firstN (fun i => bitF x (c * width + i)) width) ns.length i
    rw [if_pos hi'] at this
    have h2 : (bitCells x width ns.length)[i]? = some (firstN (fun j => bitF x (i * width + j)) width) := this
    rw [List.getElem?_eq_getElem hi] at h2
    injection h2 with h2
    rw [h2, length_firstN]
  exact ⟨m', e, listL_out hx (copies_cells_length hbc (by unfold bitCells; rw [length_firstN]))⟩

/-! ## Fills of booleans -/

theorem bitFill_spec {cap : Nat} {us : List Bool} {m : List Word} (h : BitsOut cap us m) (v : Bool) (l : Nat) (hc : us.length + l ≤ 64 * cap) :
    ∃ m', bitFill v l m us.length = some m' ∧ BitsOut cap (us ++ List.replicate l v) m' := by
  unfold bitFill
  dsimp only
  have hlog : ((BitCopy.bit_fill (fun i => m.getD i 0#64) us.length v l).log.all fun i => decide (i < m.length ∨ us.length + l ≤ 64 * i)) = true := by
    rw [List.all_eq_true]
    intro k hk
    obtain ⟨h1, h2, _⟩ := BitCopy.bit_fill_writes _ _ _ _ _ hk
    rw [h.1]
    exact decide_eq_true (by omega)
  rw [if_pos hlog]
  refine ⟨_, rfl, by rw [List.length_map, List.length_range, h.1], by rw [List.length_append, List.length_replicate]; omega, fun t ht => ?_⟩
  rw [List.length_append, List.length_replicate] at ht
  have hget : bitL ((List.range m.length).map (BitCopy.bit_fill (fun i => m.getD i 0#64) us.length v l).mem) t =
      bitF (BitCopy.bit_fill (fun i => m.getD i 0#64) us.length v l).mem t := by
    unfold bitL bitF
    rw [List.getD_eq_getElem?_getD, List.getElem?_map, List.getElem?_range (by rw [h.1]; omega)]
    rfl
  rw [hget, BitCopy.bit_fill_correct]
  rcases Nat.lt_or_ge t us.length with h1 | h1
  · rw [if_neg (by omega), List.getElem?_append_left h1, h.2.2 t h1]
    rfl
  · rw [if_pos (by omega), List.getElem?_append_right h1, List.getElem?_replicate, if_pos (by omega)]

theorem bitFills_spec (x : Nat → Word) (cap : Nat) : ∀ (cs : List Nat) (i : Nat) (us : List Bool) (m : List Word), BitsOut cap us m → us.length + cs.sum ≤ 64 * cap →
    ∃ m', bitFills x cs i m us.length = some m' ∧ BitsOut cap (us ++ copies cs (firstN (fun k => bitF x (i + k)) cs.length)) m'
  | [], i, us, m, h, _ => ⟨m, rfl, by simpa [copies] using h⟩
  | c :: cs, i, us, m, h, hl => by
    rw [List.sum_cons] at hl
    rw [bitFills, List.length_cons, firstN_succ]
    have hf : (fun k => bitF x (i + (k + 1))) = fun k => bitF x (i + 1 + k) := funext fun k => by rw [show i + (k + 1) = i + 1 + k by omega]
    show ∃ m', _ ∧ BitsOut cap (us ++ (List.replicate c (bitF x i) ++ copies cs (firstN (fun k => bitF x (i + (k + 1))) cs.length))) m'
    rw [hf]
    by_cases hc : c ≠ 0
    · rw [if_pos hc]
      obtain ⟨m1, e1, h1⟩ := bitFill_spec h (bitF x i) c (by omega)
      rw [e1, Option.bind_some]
      have hlen : (us ++ List.replicate c (bitF x i)).length = us.length + c := by rw [List.length_append, List.length_replicate]
      obtain ⟨m2, e2, h2⟩ := bitFills_spec x cap cs (i + 1) _ m1 h1 (by omega)
      rw [hlen] at e2
      exact ⟨m2, e2, by rw [← List.append_assoc]; exact h2⟩
    · rw [if_neg hc]
      have : c = 0 := by omega
      subst this
      obtain ⟨m2, e2, h2⟩ := bitFills_spec x cap cs (i + 1) us m h (by omega)
      exact ⟨m2, e2, by simpa using h2⟩

/-! ## The list `𝕨` -/

/-- The sum of the counts. -/
def total (w : Counts) : Nat := ((naturals w.elems).getD []).sum

theorem bit_total (wp : Nat → Word) (n : Nat) {ns : List Nat} (h : naturals (Counts.bit wp n).elems = some ns) :
    ns = ofBits (listF wp n) ∧ ns.sum = cnt (bitF wp) n := by
  have := naturals_bits (listF wp n)
  have h' : naturals ((listF wp n).map fun b => some (if b then 1 else 0)) = some ns := h
  rw [this] at h'
  injection h' with h'
  exact ⟨h'.symm, by rw [← h']; exact ofBits_sum _ _⟩

theorem getD_counts {es : List (Option Int)} {ns : List Nat} (h : naturals es = some ns) : (es.map fun z => (z.getD 0).toNat) = ns := by
  rw [naturals_map h, List.map_map]
  apply List.ext_getElem?
  intro i
  rw [List.getElem?_map]
  cases ns[i]? <;> rfl

theorem sq_len {sq : Counts → Counts} (hsq : Keeps sq) {w : Counts} (hw : w.Ok) : (sq w).len = w.len := by
  rw [← elems_length, ← elems_length, (hsq w hw).2]

theorem squeezeFirst_keeps {sq : Counts → Counts} (hsq : Keeps sq) {w : Counts} (hw : w.Ok) :
    (squeezeFirst sq w).Ok ∧ (squeezeFirst sq w).len = w.len ∧ (squeezeFirst sq w).elems = w.elems := by
  cases w with
  | bit wp n => exact ⟨hw, rfl, rfl⟩
  | ints t xs => exact ⟨hw, rfl, rfl⟩
  | any xs => exact ⟨(hsq _ hw).1, sq_len hsq hw, (hsq _ hw).2⟩

theorem repList_none {α} (sq : Counts → Counts) (w : Counts) (hw : w.Ok) (hl : w.len < 2^32) (x : Data α) (junk : Nat → Word) (d : Nat → α)
    (hn : naturals w.elems = none) : repList sq w x junk d = some .err := by
  have hus : usumC w = .err := by
    rcases usumC_spec w hw (by omega) with h | ⟨ns, h, _⟩
    · exact h.2
    · rw [hn] at h; cases h
  unfold repList
  cases w with
  | bit wp n => exact absurd ((naturals_bits (listF wp n)).symm.trans hn) (by simp)
  | ints t xs => dsimp only; rw [hus]
  | any xs => dsimp only; rw [hus]

theorem slashC2_none {α} (sq : Counts → Counts) (hsq : Keeps sq) (w : Counts) (hw : w.Ok) (hl : w.len < 2^32) (h0 : w.len ≠ 0) (x : Data α) (xlen : Nat)
    (junk : Nat → Word) (d : Nat → α) (hn : w.len ≠ xlen ∨ naturals w.elems = none) : slashC2 sq w x xlen junk d = some .err := by
  obtain ⟨h1, h2, h3⟩ := squeezeFirst_keeps hsq hw
  unfold slashC2
  dsimp only
  rw [if_neg (by omega)]
  by_cases hx : (squeezeFirst sq w).len ≠ xlen
  · rw [if_pos hx]
  · rw [if_neg hx]
    apply repList_none sq _ h1 (by omega)
    rw [h3]
    rcases hn with hn | hn
    · omega
    · exact hn

/-- What is expected of a result that an array of `big` elements can't hold. -/
def orErr {β} (big : Prop) [Decidable big] (want : β) : Option (Out β) := some (if big then .err else .ok want)

theorem repList_some {α β} (sq : Counts → Counts) (hsq : Keeps sq) (w : Counts) (hw : w.Ok) (hl : w.len < 4294967295) (x : Data α)
    (junk : Nat → Word) (d : Nat → α) (ns : List Nat) (hn : naturals w.elems = some ns) (view : Res α → β) (want : β) (big : Bool)
    (hcomp : ∀ wp, ns = ofBits (listF wp w.len) → (compress wp x w.len junk d).map view = some want ∧ big = false)
    (hbase : ∀ es, naturals es = some ns → ns.sum < 4294967295 → (arrWBase es ns.sum junk d x).map (Out.map view) = orErr big want)
    (hzero : oddCells x = false → ns.sum = 0 → view (zeroCells x) = want ∧ big = false)
    (hrep : oddCells x = false → (∀ p xs, x ≠ .objs p xs) → 0 < ns.sum → ns.sum < 4294967295 →
      (repTyped ns ns.sum junk d x).map (Out.map view) = orErr big want) :
    (repList sq w x junk d).map (Out.map view) = orErr (ns.sum ≥ 4294967295 ∨ big) want := by
  have hbits : ∀ wp n, naturals (Counts.bit wp n).elems = some ns → n = w.len →
      ((compress wp x n junk d).map Out.ok).map (Out.map view) = orErr (ns.sum ≥ 4294967295 ∨ big) want := by
    intro wp n h1 h2
    obtain ⟨h6, h7⟩ := bit_total wp n h1
    rw [h2] at h6 h7 ⊢
    obtain ⟨e, hb⟩ := hcomp wp h6
    have := cnt_le (bitF wp) w.len
    unfold orErr
    rw [hb, if_neg (by rintro (h | h); omega; cases h)]
    rcases hc : compress wp x w.len junk d with _ | r
    · rw [hc] at e; cases e
    · rw [hc] at e
      injection e with e
      show some (Out.ok (view r)) = _
      rw [e]
  have heq : ns.sum < 4294967295 → orErr big want = orErr (ns.sum ≥ 4294967295 ∨ big) want := by
    intro h
    unfold orErr
    congr 1
    by_cases hb : big = true
    · rw [if_pos hb, if_pos (Or.inr hb)]
    · rw [if_neg hb, if_neg (by rintro (h | h); omega; exact hb h)]
  have hbase' : ∀ es, naturals es = some ns → (arrWBase es ns.sum junk d x).map (Out.map view) = orErr (ns.sum ≥ 4294967295 ∨ big) want := by
    intro es he
    by_cases hs : ns.sum ≥ 4294967295
    · unfold orErr
      rw [if_pos (Or.inl hs)]
      unfold arrWBase
      rw [if_pos hs]
      rfl
    · rw [hbase es he (by omega), heq (by omega)]
  have hus : usumC w = if ns.sum < 2^64 then .ok ns.sum else .err := by
    rcases usumC_spec w hw (by omega) with h | ⟨ns', h, e⟩
    · rw [hn] at h; cases h.1
    · rw [hn] at h
      injection h with h
      rw [h]; exact e
  have hcounts : ∀ w2 : Counts, naturals w2.elems = some ns → w2.len = w.len → 0 < ns.sum → ns.sum < 4294967295 → oddCells x = false →
      (repCounts w2 ns.sum x junk d).map (Out.map view) = orErr (ns.sum ≥ 4294967295 ∨ big) want := by
    intro w2 hn2 hl2 hp hs hodd
    have hrep' := fun h => (hrep hodd h hp hs).trans (heq hs)
    have rest : w2.isBit = false → (repCounts w2 ns.sum x junk d).map (Out.map view) = orErr (ns.sum ≥ 4294967295 ∨ big) want := by
      intro hb
      unfold repCounts
      cases w2 with
      | bit _ _ => cases hb
      | ints t2 xs2 =>
        dsimp only
        rw [getD_counts hn2]
        cases x with
        | objs p xs => exact hbase' _ hn2
        | _ => exact hrep' (fun _ _ => nofun)
      | any xs2 =>
        dsimp only
        rw [getD_counts hn2]
        cases x with
        | objs p xs => exact hbase' _ hn2
        | _ => exact hrep' (fun _ _ => nofun)
    cases w2 with
    | bit wp n => exact hbits wp n hn2 hl2
    | ints t2 xs2 => exact rest rfl
    | any xs2 => exact rest rfl
  have hover : ¬ ns.sum < 2^64 → (some Out.err : Option (Out (Res α))).map (Out.map view) = orErr (ns.sum ≥ 4294967295 ∨ big) want := by
    intro hs
    unfold orErr
    rw [if_pos (Or.inl (by omega))]
    rfl
  unfold repList
  cases w with
  | bit wp n => exact hbits wp n hn rfl
  | any ws =>
    dsimp only
    rw [hus]
    by_cases hs : ns.sum < 2^64
    · rw [if_pos hs]
      exact hbase' ws hn
    · rw [if_neg hs]
      exact hover hs
  | ints t ws =>
    dsimp only
    rw [hus]
    by_cases hs : ns.sum < 2^64
    · rw [if_pos hs]
      dsimp only
      by_cases hs2 : ns.sum ≥ 4294967295
      · unfold orErr
        rw [if_pos hs2, if_pos (Or.inl hs2)]
        rfl
      rw [if_neg hs2]
      by_cases hodd : oddCells x = true
      · rw [if_pos hodd]
        exact hbase' _ hn
      rw [if_neg hodd]
      have hodd' : oddCells x = false := by simpa using hodd
      by_cases hz : ns.sum = 0
      · obtain ⟨e1, e2⟩ := hzero hodd' hz
        unfold orErr
        rw [if_pos hz, e2, if_neg (by rintro (h | h); omega; cases h), ← e1]
        rfl
      rw [if_neg hz]
      apply hcounts _ _ _ (by omega) (by omega) hodd'
      · by_cases hle : ns.sum ≤ (Counts.ints t ws).len
        · rw [if_pos hle, (hsq _ hw).2]; exact hn
        · rw [if_neg hle]; exact hn
      · by_cases hle : ns.sum ≤ (Counts.ints t ws).len
        · rw [if_pos hle, sq_len hsq hw]
        · rw [if_neg hle]
    · rw [if_neg hs]
      exact hover hs

theorem slashC2_some {α β} (sq : Counts → Counts) (hsq : Keeps sq) (w : Counts) (hw : w.Ok) (hl : w.len < 4294967295) (h0 : w.len ≠ 0) (x : Data α)
    (junk : Nat → Word) (d : Nat → α) (ns : List Nat) (hn : naturals w.elems = some ns) (view : Res α → β) (want : β) (big : Bool)
    (hcomp : ∀ wp, ns = ofBits (listF wp w.len) → (compress wp x w.len junk d).map view = some want ∧ big = false)
    (hbase : ∀ es, naturals es = some ns → ns.sum < 4294967295 → (arrWBase es ns.sum junk d x).map (Out.map view) = orErr big want)
    (hzero : oddCells x = false → ns.sum = 0 → view (zeroCells x) = want ∧ big = false)
    (hrep : oddCells x = false → (∀ p xs, x ≠ .objs p xs) → 0 < ns.sum → ns.sum < 4294967295 →
      (repTyped ns ns.sum junk d x).map (Out.map view) = orErr big want) :
    (slashC2 sq w x w.len junk d).map (Out.map view) = orErr (ns.sum ≥ 4294967295 ∨ big) want := by
  obtain ⟨h1, h2, h3⟩ := squeezeFirst_keeps hsq hw
  unfold slashC2
  dsimp only
  rw [if_neg (by omega), if_neg (by omega)]
  apply repList_some sq hsq _ h1 (by omega) x junk d ns (by rw [h3]; exact hn) view want big _ hbase hzero hrep
  rw [h2]
  exact hcomp

/-! ## Kinds of `𝕩` -/

theorem mem_lt_of_sum {ns : List Nat} (h : ns.sum < 4294967295) : ∀ n ∈ ns, n < 2^32 := fun n hn => by
  have := mem_le_sum hn
  omega

theorem zero_copies {β} {ns : List Nat} (h : ns.sum = 0) (xs : List β) (hl : ns.length ≤ xs.length) : copies ns xs = [] :=
  List.eq_nil_of_length_eq_zero (by rw [copies_length _ _ hl, h])

/-- Elements one per cell. -/
theorem slashC2_elems {α} (sq : Counts → Counts) (hsq : Keeps sq) (w : Counts) (hw : w.Ok) (hl : w.len < 4294967295) (h0 : w.len ≠ 0) (xs : List α) (x : Data α)
    (hx : (∃ small, x = .typed small xs) ∨ ∃ ptr, x = .objs ptr xs) (junk : Nat → Word) (d : Nat → α) (ns : List Nat) (hn : naturals w.elems = some ns) (hlen : w.len = xs.length) :
    (slashC2 sq w x w.len junk d).map (Out.map (Res.from xs)) = orErr (ns.sum ≥ 4294967295) (copies ns xs) := by
  have hnl : ns.length = xs.length := by rw [naturals_length hn, elems_length, hlen]
  have hfill : ∀ cs : List Nat, cs.length = xs.length → cs.sum = ns.sum → repLoop (cs.zip xs) (fresh d ns.sum) 0 = some (copies cs xs) := fun cs h1 h2 =>
    repLoop_all cs xs _ (by omega) (by rw [length_fresh, h2])
  have hmain := slashC2_some sq hsq w hw hl h0 x junk d ns hn (Res.from xs) (copies ns xs) false
    (fun wp hwp => by
      refine ⟨?_, rfl⟩
      rw [hlen] at hwp ⊢
      rw [compress_keeps wp xs junk d x hx, keep_copies, ← hwp])
    (fun es he hs => by
      have ho := o2sAll_spec he (mem_lt_of_sum hs)
      unfold arrWBase orErr
      rw [if_neg (by omega)]
      rcases hx with ⟨_, rfl⟩ | ⟨_, rfl⟩
      · dsimp only
        rw [ho]
        dsimp only
        rw [hfill ns hnl rfl]
        rfl
      · dsimp only
        rw [ho]
        dsimp only
        rw [hfill ns hnl rfl]
        rfl)
    (fun _ hz => by
      refine ⟨?_, rfl⟩
      rw [zero_copies hz xs (by omega)]
      rcases hx with ⟨_, rfl⟩ | ⟨_, rfl⟩ <;> rfl)
    (fun _ hno _ hs => by
      rcases hx with ⟨_, rfl⟩ | ⟨p, rfl⟩
      · unfold repTyped orErr
        dsimp only
        have htl := trimZeros_length ns
        rw [if_neg (by omega), repLoop_all (trimZeros ns) xs _ (by omega) (by rw [length_fresh, trimZeros_sum]), copies_trim ns xs]
        rfl
      · exact absurd rfl (hno p xs))
  rw [hmain]
  unfold orErr
  congr 1
  by_cases h : ns.sum ≥ 4294967295
  · rw [if_pos h, if_pos (Or.inl h)]
  · rw [if_neg h, if_neg (by rintro (h' | h'); exact h h'; cases h')]

/-- Cells of elements. -/
theorem slashC2_cells {α} (sq : Counts → Counts) (hsq : Keeps sq) (w : Counts) (hw : w.Ok) (hl : w.len < 4294967295) (h0 : w.len ≠ 0) (width : Nat) (cs : List (List α))
    (hcs : ∀ c ∈ cs, c.length = width) (x : Data α) (hx : x = .cells width cs.flatten ∨ x = .objCells width cs.flatten) (junk : Nat → Word) (d : Nat → α) (ns : List Nat)
    (hn : naturals w.elems = some ns) (hlen : w.len = cs.length) (hfit : ns.sum * width < 4294967296) :
    (slashC2 sq w x w.len junk d).map (Out.map (Res.from cs.flatten)) = orErr (ns.sum ≥ 4294967295) (copies ns cs).flatten := by
  have hnl : ns.length = cs.length := by rw [naturals_length hn, elems_length, hlen]
  have hodd : oddCells x = true := by rcases hx with rfl | rfl <;> rfl
  have hmain := slashC2_some sq hsq w hw hl h0 x junk d ns hn (Res.from cs.flatten) (copies ns cs).flatten false
    (fun wp hwp => by
      refine ⟨?_, rfl⟩
      rw [hlen] at hwp ⊢
      rw [compress_keeps_cells wp width cs hcs junk d x hx, keep_copies, ← hwp])
    (fun es he hs => by
      have ho := o2sAll_spec he (mem_lt_of_sum hs)
      unfold arrWBase orErr
      rw [if_neg (by omega)]
      have hmod : ns.sum * width % 2^64 = ns.sum * width := Nat.mod_eq_of_lt (by omega)
      rcases hx with rfl | rfl
      · dsimp only
        rw [ho]
        dsimp only
        rw [hmod, copyCells_mem ns cs hcs hnl _ (by rw [length_fresh]; rfl) hfit]
        rfl
      · dsimp only
        rw [ho]
        dsimp only
        rw [hmod, copyCells_mem ns cs hcs hnl _ (by rw [length_fresh]; unfold mutRoom; rw [if_pos rfl, Nat.mod_eq_of_lt hfit]) hfit]
        rfl)
    (fun h => by rw [hodd] at h; cases h)
    (fun h => by rw [hodd] at h; cases h)
  rw [hmain]
  unfold orErr
  congr 1
  by_cases h : ns.sum ≥ 4294967295
  · rw [if_pos h, if_pos (Or.inl h)]
  · rw [if_neg h, if_neg (by rintro (h' | h'); exact h h'; cases h')]

theorem orErr_big {β} {n k b : Nat} (want : β) (hb : k < b) : orErr (n ≥ b ∨ (decide (n > k)) = true) want = orErr (n > k) want := by
  unfold orErr
  congr 1
  by_cases h : n > k
  · rw [if_pos h, if_pos (Or.inr (decide_eq_true h))]
  · rw [if_neg h, if_neg (by rintro (h' | h'); omega; exact h (of_decide_eq_true h'))]

/-- Booleans one per cell. -/
theorem slashC2_bits {α} (sq : Counts → Counts) (hsq : Keeps sq) (w : Counts) (hw : w.Ok) (hl : w.len ≤ bitMax) (h0 : w.len ≠ 0) (x : Nat → Word) (junk : Nat → Word) (d : Nat → α)
    (ns : List Nat) (hn : naturals w.elems = some ns) :
    (slashC2 sq w (.bits x) w.len junk d).map (Out.map (Res.bitsFrom (listF x w.len) ns.sum)) = orErr (ns.sum > bitMax) (copies ns (listF x w.len)) := by
  have hnl : ns.length = w.len := by rw [naturals_length hn, elems_length]
  have hbm : bitMax = 4294967230 := rfl
  have hmain := slashC2_some sq hsq w hw (by omega) h0 (.bits x) junk d ns hn (Res.bitsFrom (listF x w.len) ns.sum) (copies ns (listF x w.len)) (decide (ns.sum > bitMax))
    (fun wp hwp => by
      have hsum : ns.sum = bit_sum wp w.len := by rw [hwp, bit_sum_eq]; exact ofBits_sum _ _
      have := cnt_le (bitF wp) w.len
      rw [← bit_sum_eq, ← hsum] at this
      refine ⟨?_, decide_eq_false (by omega)⟩
      rw [hsum, compress_keeps_bits wp x w.len junk d, keep_copies, ← hwp])
    (fun es he hs => by
      have ho := o2sAll_spec he (mem_lt_of_sum hs)
      unfold arrWBase orErr
      rw [if_neg (by omega)]
      dsimp only
      by_cases hb : ns.sum > bitMax
      · rw [if_pos hb, if_pos (decide_eq_true hb)]
        rfl
      · rw [if_neg hb, if_neg (by rw [decide_eq_true_iff]; exact hb), ho]
        dsimp only
        obtain ⟨m', e, h⟩ := bitFills_spec x ((ns.sum + 63) / 64) ns 0 [] (fresh junk ((ns.sum + 63) / 64)) ⟨length_fresh _ _, by simp, fun t ht => absurd ht (Nat.not_lt_zero t)⟩
          (by simp; omega)
        have e' : bitFills x ns 0 (fresh junk ((ns.sum + 63) / 64)) 0 = some m' := e
        rw [e']
        rw [List.nil_append] at h
        have hf : firstN (fun k => bitF x (0 + k)) ns.length = listF x w.len := by
          rw [hnl]
          exact firstN_congr fun i _ => by rw [Nat.zero_add]
        rw [hf] at h
        show some (Out.ok (listL m' ns.sum)) = _
        rw [listL_out h (copies_length _ _ (by rw [listF, length_firstN]; omega))])
    (fun _ hz => by
      refine ⟨?_, decide_eq_false (by omega)⟩
      rw [zero_copies hz _ (by rw [listF, length_firstN]; omega), hz]
      rfl)
    (fun _ _ hp hs => by
      unfold repTyped orErr
      dsimp only
      by_cases hb : ns.sum > bitMax
      · rw [if_pos hb, if_pos (decide_eq_true hb)]
        rfl
      · rw [if_neg hb, if_neg (c := decide (ns.sum > bitMax) = true) (by rw [decide_eq_true_iff]; exact hb)]
        by_cases hd : ns.sum / 1024 ≤ ns.length
        · rw [if_pos hd]
          obtain ⟨m', e, h⟩ := boolRepXorScan_spec ns (ns[·]?) (fun _ _ => rfl) x (fresh junk ((ns.sum + 63) / 64)) hp (length_fresh _ _)
          rw [e]
          show some (Out.ok (listL m' ns.sum)) = _
          rw [h, hnl]
        · rw [if_neg hd]
          obtain ⟨m', e, h⟩ := boolRepOver_spec ns x (fresh junk ((ns.sum + 63) / 64)) (length_fresh _ _)
          rw [e]
          show some (Out.ok (listL m' ns.sum)) = _
          rw [h, hnl])
  rw [hmain]
  exact orErr_big _ (by omega)

/-- Cells of booleans. -/
theorem slashC2_bitCells {α} (sq : Counts → Counts) (hsq : Keeps sq) (w : Counts) (hw : w.Ok) (hl : w.len < 4294967295) (h0 : w.len ≠ 0) (x : Nat → Word) (width : Nat)
    (hwl : w.len * width ≤ bitMax) (junk : Nat → Word) (d : Nat → α) (ns : List Nat) (hn : naturals w.elems = some ns) (hfit : ns.sum * width < 4294967296) :
    (slashC2 sq w (.bitCells width x) w.len junk d).map (Out.map (Res.bitsFrom (bitCells x width w.len).flatten (ns.sum * width))) =
      orErr (ns.sum ≥ 4294967295 ∨ ns.sum * width > bitMax) (copies ns (bitCells x width w.len)).flatten := by
  have hnl : ns.length = w.len := by rw [naturals_length hn, elems_length]
  have hmain := slashC2_some sq hsq w hw hl h0 (.bitCells width x) junk d ns hn (Res.bitsFrom (bitCells x width w.len).flatten (ns.sum * width))
    (copies ns (bitCells x width w.len)).flatten (decide (ns.sum * width > bitMax))
    (fun wp hwp => by
      have hsum : ns.sum = bit_sum wp w.len := by rw [hwp, bit_sum_eq]; exact ofBits_sum _ _
      have := cnt_le (bitF wp) w.len
      rw [← bit_sum_eq, ← hsum] at this
      have h2 := Nat.mul_le_mul_right width this
      refine ⟨?_, decide_eq_false (by omega)⟩
      rw [hsum, compress_keeps_bit_cells wp x width w.len junk d, keep_copies, ← hwp])
    (fun es he hs => by
      have ho := o2sAll_spec he (mem_lt_of_sum hs)
      unfold arrWBase orErr
      rw [if_neg (by omega)]
      dsimp only
      have hmod : ns.sum * width % 2^64 = ns.sum * width := Nat.mod_eq_of_lt (by omega)
      rw [hmod]
      by_cases hb : ns.sum * width > bitMax
      · rw [if_pos hb, if_pos (decide_eq_true hb)]
        rfl
      · rw [if_neg hb, if_neg (by rw [decide_eq_true_iff]; exact hb), ho]
        dsimp only
        obtain ⟨m', e, h⟩ := copyCells_bits x width ns (fresh junk ((ns.sum * width + 63) / 64)) (length_fresh _ _) hfit
        rw [e]
        show some (Out.ok (listL m' (ns.sum * width))) = _
        rw [h, hnl])
    (fun h => by cases h)
    (fun h => by cases h)
  rw [hmain]
  unfold orErr
  congr 1
  by_cases h : ns.sum ≥ 4294967295 ∨ ns.sum * width > bitMax
  · rw [if_pos h, if_pos (h.imp id decide_eq_true)]
  · rw [if_neg h, if_neg fun h' => h (h'.imp id of_decide_eq_true)]

/-! ## An integer `𝕨` -/

theorem copies_ones {β} (xs : List β) : copies (List.replicate xs.length 1) xs = xs := by
  induction xs with
  | nil => rfl
  | cons x xs ih => exact congrArg (x :: ·) ih

theorem replicate_sum (n c : Nat) : (List.replicate n c).sum = n * c := List.sum_replicate_nat

/-- The cases without copies, and the checks. -/
theorem slashAtom_start {α β} (wv : Int) (x : Data α) (xlen : Nat) (junk : Nat → Word) (d : Nat → α) (view : Res α → β) (xs : List γ) (fl : List γ → β)
    (hlen : xlen = xs.length) (hl : xlen < 2^32) (hsame : view .same = fl xs) (hz : xlen ≠ 0 → wv = 0 → view (zeroCells x) = fl []) (big : Bool) (hbig : wv ≤ 1 ∨ xlen = 0 → big = false)
    (hrest : ∀ c : Nat, wv = c → 1 < c → 0 < xlen → xlen * c < 4294967296 →
      (slashAtom wv x xlen junk d).map (Out.map view) = orErr big (fl (copies (List.replicate xlen c) xs))) :
    (slashAtom wv x xlen junk d).map (Out.map view) =
      if wv < 0 then some .err else orErr (xlen * wv.toNat ≥ 4294967296 ∨ big) (fl (copies (List.replicate xlen wv.toNat) xs)) := by
  by_cases h : wv < 0
  · unfold slashAtom
    rw [if_pos h, if_pos h]
    rfl
  rw [if_neg h]
  obtain ⟨c, hc⟩ : ∃ c : Nat, wv = c := ⟨wv.toNat, by omega⟩
  have hcn : wv.toNat = c := by omega
  rw [hcn]
  have easy : wv ≤ 1 ∨ xlen = 0 → (slashAtom wv x xlen junk d).map (Out.map view) = some (.ok (fl (copies (List.replicate xlen c) xs))) ∧ xlen * c < 4294967296 := by
    intro he
    unfold slashAtom
    rw [if_neg h]
    dsimp only
    rw [hcn]
    by_cases h1 : c ≤ 1
    · rw [if_pos h1]
      by_cases h2 : c = 1 ∨ xlen = 0
      · rw [if_pos h2]
        rcases h2 with h2 | h2
        · subst h2
          refine ⟨?_, by omega⟩
          rw [hlen, copies_ones, ← hsame]
          rfl
        · have hxs : xs = [] := List.eq_nil_of_length_eq_zero (by omega)
          subst hxs
          refine ⟨?_, by rw [h2]; omega⟩
          rw [h2]
          show some (Out.ok (view .same)) = _
          rw [hsame]
          rfl
      · rw [if_neg h2]
        have hc0 : c = 0 := by omega
        subst hc0
        refine ⟨?_, by omega⟩
        show some (Out.ok (view (zeroCells x))) = _
        rw [hz (by omega) (by omega), zero_copies (by rw [replicate_sum, Nat.mul_zero]) xs (by rw [List.length_replicate]; omega)]
    · have h2 : xlen = 0 := by
        rcases he with he | he
        · omega
        · exact he
      rw [if_neg h1, if_pos h2]
      have hxs : xs = [] := List.eq_nil_of_length_eq_zero (by omega)
      subst hxs
      refine ⟨?_, by rw [h2]; omega⟩
      rw [h2]
      show some (Out.ok (view .same)) = _
      rw [hsame]
      rfl
  by_cases he : wv ≤ 1 ∨ xlen = 0
  · obtain ⟨e, hb⟩ := easy he
    rw [e, hbig he]
    unfold orErr
    rw [if_neg (by rintro (h | h); omega; cases h)]
  · by_cases hb : xlen * c ≥ 4294967296
    · unfold orErr
      rw [if_pos (Or.inl hb)]
      unfold slashAtom
      rw [if_neg h]
      dsimp only
      rw [hcn, if_neg (by omega), if_neg (by omega), if_pos hb]
      rfl
    · rw [hrest c hc (by omega) (by omega) (by omega)]
      unfold orErr
      congr 1
      by_cases hbg : big = true
      · rw [if_pos hbg, if_pos (Or.inr hbg)]
      · rw [if_neg hbg, if_neg (by rintro (h | h); exact hb h; exact hbg h)]

theorem orErr_false {β} (p : Prop) [Decidable p] (want : β) : orErr (p ∨ false = true) want = orErr p want := by
  unfold orErr
  congr 1
  by_cases h : p
  · rw [if_pos h, if_pos (Or.inl h)]
  · rw [if_neg h, if_neg (by rintro (h' | h'); exact h h'; cases h')]

theorem slashAtom_elems {α} (wv : Int) (xs : List α) (x : Data α) (hx : (∃ small, x = .typed small xs) ∨ ∃ ptr, x = .objs ptr xs) (hl : xs.length < 2^32)
    (junk : Nat → Word) (d : Nat → α) :
    (slashAtom wv x xs.length junk d).map (Out.map (Res.from xs)) =
      if wv < 0 then some .err else orErr (xs.length * wv.toNat ≥ 4294967296) (copies (List.replicate xs.length wv.toNat) xs) := by
  rw [slashAtom_start wv x xs.length junk d (Res.from xs) xs id rfl hl rfl (fun _ _ => by rcases hx with ⟨_, rfl⟩ | ⟨_, rfl⟩ <;> rfl) false (fun _ => rfl)
    (fun c hc h1 h2 h3 => by
      unfold slashAtom
      rw [if_neg (by omega)]
      dsimp only
      rw [show wv.toNat = c by omega, if_neg (by omega), if_neg (by omega), if_neg (by omega)]
      have := repLoop_all (List.replicate xs.length c) xs (fresh d (xs.length * c)) (by rw [List.length_replicate]; omega) (by rw [length_fresh, replicate_sum])
      rcases hx with ⟨_, rfl⟩ | ⟨_, rfl⟩
      · dsimp only
        rw [this]
        rfl
      · dsimp only
        rw [this]
        rfl)]
  rw [orErr_false]
  rfl

theorem slashAtom_cells {α} (wv : Int) (width : Nat) (cs : List (List α)) (hcs : ∀ c ∈ cs, c.length = width) (x : Data α)
    (hx : x = .cells width cs.flatten ∨ x = .objCells width cs.flatten) (hl : cs.length < 2^32) (hfit : cs.length * wv.toNat * width < 4294967296) (junk : Nat → Word) (d : Nat → α) :
    (slashAtom wv x cs.length junk d).map (Out.map (Res.from cs.flatten)) =
      if wv < 0 then some .err else orErr (cs.length * wv.toNat ≥ 4294967296) (copies (List.replicate cs.length wv.toNat) cs).flatten := by
  rw [slashAtom_start wv x cs.length junk d (Res.from cs.flatten) cs List.flatten rfl hl rfl (fun _ _ => by rcases hx with rfl | rfl <;> rfl) false (fun _ => rfl)
    (fun c hc h1 h2 h3 => by
      unfold slashAtom
      rw [if_neg (by omega)]
      dsimp only
      rw [show wv.toNat = c by omega] at *
      have hsw : cs.length * width * c = cs.length * c * width := Nat.mul_right_comm ..
      have hle : cs.length * width ≤ cs.length * c * width := Nat.mul_le_mul_right _ (by
        have := Nat.mul_le_mul_left cs.length (show 1 ≤ c by omega)
        omega)
      rw [if_neg (by omega), if_neg (by omega), if_neg (by omega)]
      have := copyCells_mem (List.replicate cs.length c) cs hcs (by rw [List.length_replicate]) (fresh d (cs.length * c * width)) (by rw [length_fresh, replicate_sum])
        (by rw [replicate_sum]; exact hfit)
      have h64 := cells64_eq (memCpy cs.flatten) width (List.replicate cs.length c) 0 (fresh d (cs.length * c * width)) 0
        (by rw [Nat.zero_add, List.length_replicate]; omega) (by rw [replicate_sum]; omega)
      rw [this] at h64
      rcases hx with rfl | rfl
      · dsimp only [slashAtom.copyCells64]
        rw [hsw, Nat.mod_eq_of_lt hfit, h64]
        rfl
      · dsimp only [slashAtom.copyCells64]
        rw [hsw, Nat.mod_eq_of_lt hfit, h64]
        rfl)]
  rw [orErr_false]

theorem slashAtom_bits {α} (wv : Int) (x : Nat → Word) (n : Nat) (hl : n ≤ bitMax) (junk : Nat → Word) (d : Nat → α) :
    (slashAtom wv (.bits x) n junk d).map (Out.map (Res.bitsFrom (listF x n) (n * wv.toNat))) =
      if wv < 0 then some .err else orErr (n * wv.toNat > bitMax) (copies (List.replicate n wv.toNat) (listF x n)) := by
  have hbm : bitMax = 4294967230 := rfl
  rw [slashAtom_start wv (.bits x) n junk d (Res.bitsFrom (listF x n) (n * wv.toNat)) (listF x n) id (by rw [listF, length_firstN]) (by omega) rfl
    (fun hn h0 => by
      rw [h0]
      show listL [] (n * 0) = _
      rw [Nat.mul_zero]
      rfl) (decide (n * wv.toNat > bitMax)) (fun h => decide_eq_false (by
        rcases h with h | h
        · have := Nat.mul_le_mul_left n (show wv.toNat ≤ 1 by omega)
          omega
        · rw [h]; omega))
    (fun c hc h1 h2 h3 => by
      unfold slashAtom
      rw [if_neg (by omega)]
      dsimp only
      rw [show wv.toNat = c by omega] at *
      rw [if_neg (by omega), if_neg (by omega), if_neg (by omega)]
      unfold orErr
      by_cases hb : n * c > bitMax
      · rw [if_pos hb, if_pos (decide_eq_true hb)]
        rfl
      · rw [if_neg hb, if_neg (c := decide (n * c > bitMax) = true) (by rw [decide_eq_true_iff]; exact hb)]
        by_cases h64 : c ≤ 64
        · rw [if_pos h64]
          have hpos : 0 < n * c := Nat.mul_pos h2 (by omega)
          obtain ⟨m', e, h⟩ := boolRepXorScan_spec (List.replicate n c) (fun _ => some c) (fun j hj => by
              rw [List.length_replicate] at hj
              rw [List.getElem?_replicate, if_pos hj]) x (fresh junk ((n * c + 63) / 64)) (by rw [replicate_sum]; exact hpos) (by rw [replicate_sum, length_fresh])
          rw [replicate_sum, List.length_replicate] at e h
          rw [e]
          show some (Out.ok (listL m' (n * c))) = _
          rw [h]
          rfl
        · rw [if_neg h64]
          obtain ⟨m', e, h⟩ := constLoop_all x n c (by omega) (fresh junk ((n * c + 63) / 64)) (length_fresh _ _)
          rw [e]
          show some (Out.ok (listL m' (n * c))) = _
          rw [h]
          rfl)]
  by_cases hneg : wv < 0
  · rw [if_pos hneg, if_pos hneg]
  · rw [if_neg hneg, if_neg hneg]
    exact orErr_big _ (by omega)

theorem slashAtom_bitCells {α} (wv : Int) (x : Nat → Word) (width n : Nat) (hl : n < 2^32) (hwl : n * width ≤ bitMax) (hfit : n * wv.toNat * width < 4294967296)
    (junk : Nat → Word) (d : Nat → α) :
    (slashAtom wv (.bitCells width x) n junk d).map (Out.map (Res.bitsFrom (bitCells x width n).flatten (n * wv.toNat * width))) =
      if wv < 0 then some .err else orErr (n * wv.toNat ≥ 4294967296 ∨ n * wv.toNat * width > bitMax) (copies (List.replicate n wv.toNat) (bitCells x width n)).flatten := by
  have hbm : bitMax = 4294967230 := rfl
  rw [slashAtom_start wv (.bitCells width x) n junk d (Res.bitsFrom (bitCells x width n).flatten (n * wv.toNat * width)) (bitCells x width n) List.flatten
    (by unfold bitCells; rw [length_firstN]) (by omega) rfl
    (fun hn h0 => by
      rw [h0]
      show listL [] (n * 0 * width) = _
      rw [Nat.mul_zero, Nat.zero_mul]
      rfl) (decide (n * wv.toNat * width > bitMax)) (fun h => decide_eq_false (by
        rcases h with h | h
        · have h2 := Nat.mul_le_mul_left n (show wv.toNat ≤ 1 by omega)
          have := Nat.mul_le_mul_right width h2
          rw [Nat.mul_one] at this
          omega
        · rw [h, Nat.zero_mul, Nat.zero_mul]; omega))
    (fun c hc h1 h2 h3 => by
      unfold slashAtom
      rw [if_neg (by omega)]
      dsimp only
      rw [show wv.toNat = c by omega] at *
      rw [if_neg (by omega), if_neg (by omega), if_neg (by omega)]
      have hsw : n * width * c = n * c * width := Nat.mul_right_comm ..
      rw [hsw, Nat.mod_eq_of_lt hfit]
      unfold orErr
      by_cases hb : n * c * width > bitMax
      · rw [if_pos hb, if_pos (decide_eq_true hb)]
        rfl
      · rw [if_neg hb, if_neg (c := decide (n * c * width > bitMax) = true) (by rw [decide_eq_true_iff]; exact hb)]
        obtain ⟨m', e, h⟩ := copyCells_bits x width (List.replicate n c) (fresh junk ((n * c * width + 63) / 64)) (by rw [length_fresh, replicate_sum])
          (by rw [replicate_sum]; exact hfit)
        have h64 := cells64_eq (bitCpy x) width (List.replicate n c) 0 (fresh junk ((n * c * width + 63) / 64)) 0
          (by rw [Nat.zero_add, List.length_replicate]; omega) (by rw [replicate_sum]; omega)
        rw [replicate_sum, List.length_replicate] at h
        rw [e] at h64
        dsimp only [slashAtom.copyBits64]
        rw [h64]
        show some (Out.ok (listL m' (n * c * width))) = _
        rw [h])]
  by_cases hneg : wv < 0
  · rw [if_pos hneg, if_pos hneg]
  · rw [if_neg hneg, if_neg hneg]
    unfold orErr
    congr 1
    by_cases h : n * wv.toNat ≥ 4294967296 ∨ n * wv.toNat * width > bitMax
    · rw [if_pos h, if_pos (h.imp id decide_eq_true)]
    · rw [if_neg h, if_neg fun h' => h (h'.imp id of_decide_eq_true)]

end Verif.Rep
