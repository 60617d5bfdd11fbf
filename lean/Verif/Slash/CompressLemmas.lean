import Verif.Slash.Compress
import Verif.Slash.WhereMain
import Verif.BitCopy.Props
/-!
# Replicate by a boolean list: lemmas
-/
namespace Verif.Slash
open Verif.Bits Verif.Fold

/-! ## Elements at positions -/

/-- The elements at positions. -/
def pick {α} (xs : List α) (ps : List Nat) : List α := ps.filterMap fun i => xs[i]?

theorem keep_eq {α} : ∀ (xs : List α) (b : Nat → Bool), keep (firstN b xs.length) xs = pick xs (P b 0 xs.length)
  | [], b => rfl
  | x :: xs, b => by
    rw [List.length_cons, firstN_succ, P_succ]
    have ih := keep_eq xs fun i => b (i + 1)
    have hsh : P b (0 + 1) xs.length = (P (fun i => b (i + 1)) 0 xs.length).map (1 + ·) := by
      have := P_shift b 1 0 xs.length
      rw [show 1 + 0 = 0 + 1 from rfl] at this
      rw [this]
      congr 1
      exact P_congr fun k _ _ => by rw [Nat.add_comm]
    have hp : pick (x :: xs) ((P (fun i => b (i + 1)) 0 xs.length).map (1 + ·)) = pick xs (P (fun i => b (i + 1)) 0 xs.length) := by
      unfold pick
      rw [List.filterMap_map]
      congr 1
      funext i
      show (x :: xs)[1 + i]? = _
      rw [Nat.add_comm, List.getElem?_cons_succ]
    rw [hsh]
    unfold pick at hp ⊢
    rw [List.filterMap_append, hp]
    cases hb : b 0 with
    | true => rw [keep, ih, if_pos rfl]; rfl
    | false => rw [keep, ih, if_neg (by decide)]; rfl

theorem keep_length {α} (xs : List α) (b : Nat → Bool) : (keep (firstN b xs.length) xs).length = cnt b xs.length := by
  induction xs generalizing b with
  | nil => rfl
  | cons x xs ih =>
    rw [List.length_cons, firstN_succ, cnt_shift]
    cases hb : b 0 with
    | true => rw [keep, List.length_cons, ih]; simp; omega
    | false => rw [keep, ih]; simp

theorem pick_range {α} (xs : List α) : pick xs (List.range' 0 xs.length) = xs := by
  apply List.ext_getElem?
  intro i
  unfold pick
  have : (List.range' 0 xs.length).filterMap (fun i => xs[i]?) = xs := by
    induction xs with
    | nil => rfl
    | cons x xs ih =>
      rw [List.length_cons, List.range'_succ, List.filterMap_cons]
      show x :: _ = _
      congr 1
      rw [show (0:Nat) + 1 = 1 + 0 from rfl, ← List.map_add_range', List.filterMap_map]
      rw [show ((fun i => (x :: xs)[i]?) ∘ fun x => 1 + x) = fun i => xs[i]? from ?_, ih]
      funext i
      show (x :: xs)[1 + i]? = _
      rw [Nat.add_comm, List.getElem?_cons_succ]
  rw [this]

theorem P_all {b : Nat → Bool} {n : Nat} (h : cnt b n = n) : P b 0 n = List.range' 0 n := by
  unfold P
  apply List.filter_eq_self.2
  intro k hk
  have hk := (List.mem_range'_1.1 hk).2
  cases hb : b k with
  | true => rfl
  | false =>
    obtain ⟨d, hd⟩ := Nat.le.dest (show k + 1 ≤ n by omega)
    rw [← hd, cnt_add, cnt, hb] at h
    have h1 := cnt_le b k
    have h2 := cnt_le (fun i => b (k + 1 + i)) d
    simp at h
    omega

/-! ## The last one -/

theorem CLZ_spec {v : Word} (h : v ≠ 0#64) : ∃ c, CLZ v = some c ∧ c < 64 ∧ v.getLsbD (63 - c) = true ∧ ∀ i, 63 - c < i → v.getLsbD i = false := by
  unfold CLZ
  cases hf : (List.range 64).find? fun i => v.getLsbD (63 - i) with
  | none =>
    exfalso
    apply h
    apply word_ext
    intro i hi
    have := List.find?_eq_none.1 hf (63 - i) (List.mem_range.2 (by omega))
    rw [show 63 - (63 - i) = i by omega] at this
    rw [BitVec.getLsbD_zero]
    simpa using this
  | some c =>
    rw [List.find?_range_eq_some] at hf
    obtain ⟨h1, h2, h3⟩ := hf
    have hc := List.mem_range.1 h2
    refine ⟨c, rfl, hc, h1, fun i hi => ?_⟩
    rcases Nat.lt_or_ge i 64 with h | h
    · have := h3 (63 - i) (by omega)
      rw [show 63 - (63 - i) = i by omega] at this
      simpa using this
    · exact BitVec.getLsbD_of_ge _ _ h

theorem findLast_spec (y : Nat → Word) (E : Nat) : ∀ (ie : Nat) (we : Word),
    (∀ i, 64 * (ie + 1) ≤ i → i < E → bitF y i = false) → (∀ j, j < 64 → 64 * ie + j < E → bitF y (64 * ie + j) = we.getLsbD j) →
    (we ≠ 0#64 → we = y ie ∧ 64 * ie < E) → 64 * ie ≤ E →
    (findLast y ie we = none ∧ ∀ i, i < E → bitF y i = false) ∨
    ∃ ie' we', findLast y ie we = some (ie', we') ∧ we' ≠ 0#64 ∧ we' = y ie' ∧ 64 * ie' < E ∧ ∀ i, 64 * (ie' + 1) ≤ i → i < E → bitF y i = false := by
  intro ie
  induction ie with
  | zero =>
    intro we h1 h2 h3 hE
    unfold findLast
    by_cases hz : we = 0#64
    · rw [if_pos hz]
      left
      refine ⟨rfl, fun i hi => ?_⟩
      rcases Nat.lt_or_ge i 64 with h | h
      · have := h2 i h (by omega)
        rw [Nat.mul_zero, Nat.zero_add] at this
        rw [this, hz, BitVec.getLsbD_zero]
      · exact h1 i (by omega) hi
    · rw [if_neg hz]
      right
      exact ⟨0, we, rfl, hz, (h3 hz).1, (h3 hz).2, h1⟩
  | succ ie ih =>
    intro we h1 h2 h3 hE
    unfold findLast
    by_cases hz : we = 0#64
    · rw [if_pos hz]
      dsimp only
      have hw : 64 * ie < E := by omega
      refine ih (y ie) (fun i hi hiE => ?_) (fun j hj _ => bitF_word y ie j hj) (fun _ => ⟨rfl, hw⟩) (by omega)
      rcases Nat.lt_or_ge i (64 * (ie + 1 + 1)) with h | h
      · have := h2 (i - 64 * (ie + 1)) (by omega) (by omega)
        rw [show 64 * (ie + 1) + (i - 64 * (ie + 1)) = i by omega] at this
        rw [this, hz, BitVec.getLsbD_zero]
      · exact h1 i h hiE
    · rw [if_neg hz]
      right
      exact ⟨ie + 1, we, rfl, hz, (h3 hz).1, (h3 hz).2, h1⟩

/-- What `compress` knows of `w` after cutting it after the last one. -/
theorem cut_spec (w : Nat → Word) (n : Nat) :
    (findLast (trim w n) (n / 64) (if n % 64 ≠ 0 then trim w n (n / 64) else 0#64) = none ∧ P (bitF w) 0 n = []) ∨
    ∃ ie we c n', findLast (trim w n) (n / 64) (if n % 64 ≠ 0 then trim w n (n / 64) else 0#64) = some (ie, we) ∧ CLZ we = some c ∧
      64 * (ie + 1) - c = n' ∧ 0 < n' ∧ n' ≤ n ∧ bitF (trim w n) (n' - 1) = true ∧ Clean (trim w n) n' ∧ P (bitF (trim w n)) 0 n' = P (bitF w) 0 n := by
  generalize hE : 64 * ((n + 63) / 64) = E
  have htr : ∀ i, i < E → bitF (trim w n) i = (decide (i < n) && bitF w i) := fun i hi => bitF_trim w n i (by omega)
  have hP : P (bitF (trim w n)) 0 n = P (bitF w) 0 n := P_congr fun i _ hi => by
    rw [htr i (by omega), decide_eq_true (by omega), Bool.true_and]
  rcases findLast_spec (trim w n) E (n / 64) (if n % 64 ≠ 0 then trim w n (n / 64) else 0#64)
    (fun i h1 h2 => by omega)
    (fun j hj h => by
      rw [if_pos (by omega)]
      exact bitF_word _ _ _ hj)
    (fun h => by
      split at h
      · rename_i hq
        rw [if_pos hq]
        exact ⟨rfl, by omega⟩
      · exact absurd rfl h) (by omega) with ⟨h1, h2⟩ | ⟨ie, we, h1, h2, h3, h4, h5⟩
  · left
    refine ⟨h1, ?_⟩
    rw [← hP]
    apply List.eq_nil_of_length_eq_zero
    rw [P_length]
    exact (cnt_congr fun i hi => h2 _ (by omega)).trans (cnt_false n)
  · right
    obtain ⟨c, hc, hc64, hone, hzero⟩ := CLZ_spec h2
    have hall : ∀ i, 64 * (ie + 1) - c ≤ i → i < E → bitF (trim w n) i = false := by
      intro i hi hiE
      rcases Nat.lt_or_ge i (64 * (ie + 1)) with h | h
      · have := hzero (i - 64 * ie) (by omega)
        rw [h3, ← bitF_word _ _ _ (by omega), show 64 * ie + (i - 64 * ie) = i by omega] at this
        exact this
      · exact h5 i h hiE
    have hlast : bitF (trim w n) (64 * (ie + 1) - c - 1) = true := by
      rw [h3, ← bitF_word _ _ _ (by omega), show 64 * ie + (63 - c) = 64 * (ie + 1) - c - 1 by omega] at hone
      exact hone
    have hle : 64 * (ie + 1) - c ≤ n := by
      have := htr (64 * (ie + 1) - c - 1) (by omega)
      rw [hlast] at this
      have := (Bool.and_eq_true_iff.1 this.symm).1
      have := of_decide_eq_true this
      omega
    refine ⟨ie, we, c, 64 * (ie + 1) - c, h1, hc, rfl, by omega, hle, hlast, fun i h1 h2 => hall i h1 (by omega), ?_⟩
    rw [← hP]
    exact (P_zeros hle fun i h1 h2 => hall i h1 (by omega)).symm

theorem cnt_lt_of_last {b : Nat → Bool} {n j : Nat} (hj : j < n) (hb : b (n - 1) = true) : cnt b j < cnt b n := by
  obtain ⟨k, rfl⟩ : ∃ k, n = k + 1 := ⟨n - 1, by omega⟩
  rw [cnt, show k + 1 - 1 = k from rfl] at *
  rw [if_pos hb]
  have := cnt_mono b (show j ≤ k by omega)
  omega

/-! ## Copying elements -/

theorem memCpy_spec {α} {xs m : List α} {ri xi l : Nat} (h1 : xi + l ≤ xs.length) (h2 : ri + l ≤ m.length) :
    ∃ m', memCpy xs m ri xi l = some m' ∧ Ext m ri ((xs.drop xi).take l) m' := by
  refine ⟨_, if_pos ⟨h1, h2⟩, ?_⟩
  have hl : ((xs.drop xi).take l).length = l := by rw [List.length_take, List.length_drop]; omega
  have ht : (m.take ri).length = ri := by rw [List.length_take]; omega
  refine ⟨?_, by rw [hl]; exact h2, fun i hi => ?_, fun k hk => ?_⟩
  · rw [List.length_append, List.length_append, hl, ht, List.length_drop]
    omega
  · rw [List.append_assoc, List.getElem?_append_left (by omega), List.getElem?_take, if_pos hi]
  · rw [List.append_assoc, List.getElem?_append_right (by omega), ht, Nat.add_sub_cancel_left, List.getElem?_append_left hk]

theorem pick_lt {α} {xs : List α} {ps : List Nat} (h : ∀ p ∈ ps, p < xs.length) (f : α) : pick xs ps = ps.map fun i => (xs[i]?).getD f := by
  unfold pick
  induction ps with
  | nil => rfl
  | cons p ps ih =>
    have hp := h p (List.mem_cons_self ..)
    rw [List.filterMap_cons, List.getElem?_eq_getElem hp, List.map_cons, ih fun q hq => h q (List.mem_cons_of_mem _ hq), List.getElem?_eq_getElem hp]
    rfl

theorem pick_length {α} {xs : List α} {ps : List Nat} (h : ∀ p ∈ ps, p < xs.length) : (pick xs ps).length = ps.length := by
  unfold pick
  induction ps with
  | nil => rfl
  | cons p ps ih =>
    have hp := h p (List.mem_cons_self ..)
    rw [List.filterMap_cons, List.getElem?_eq_getElem hp]
    simp [ih fun q hq => h q (List.mem_cons_of_mem _ hq)]

theorem compressDense_eq {α} (w : Nat → Word) (xs : List α) (f : α) : ∀ (k i : Nat) (m : List α) (p : Nat), i + k ≤ xs.length →
    compressDense w xs k i m p = (denseBits (fun i => (xs[i]?).getD f) (bitF w) k i m p).map (·.1)
  | 0, _, _, _, _ => rfl
  | k + 1, i, m, p, h => by
    rw [compressDense, denseBits, List.getElem?_eq_getElem (by omega), Option.bind_some, Option.map_bind]
    show (wr m p _).bind _ = (wr m p _).bind _
    congr 1
    funext m'
    exact compressDense_eq w xs f k (i + 1) m' _ (by omega)

theorem compressDense_spec {α} (w : Nat → Word) (xs m : List α) (f : α) (n : Nat) (h0 : 0 < n) (hn : n ≤ xs.length) (hm : m.length = cnt (bitF w) n)
    (hlast : bitF w (n - 1) = true) : compressDense w xs n 0 m 0 = some (pick xs (P (bitF w) 0 n)) := by
  have hc : ∀ j, cnt (fun k => bitF w (0 + k)) j = cnt (bitF w) j := fun j => cnt_congr fun k _ => by rw [Nat.zero_add]
  obtain ⟨m', e, hx⟩ := denseBits_spec (fun i => (xs[i]?).getD f) (bitF w) n 0 m 0
    (fun j hj => by
      rw [hc, hm]
      have := cnt_lt_of_last hj hlast
      omega) (by omega) (by rw [hc]; omega)
  rw [compressDense_eq w xs f n 0 m 0 (by omega), e, Option.map_some, hx.all (by rw [List.length_map, P_length0, hm])]
  rw [pick_lt (fun p hp => by have := P_mem hp; omega) f]

theorem gather_spec {α} (xs : List α) (i : Nat) (buf : List (BitVec 16)) (p : Nat) (f : α) (vs : List Nat)
    (hb : ∀ k, k < vs.length → buf[k]? = (vs[k]?).map (BitVec.ofNat 16)) (hv : ∀ v ∈ vs, v < 32768 ∧ i + v < xs.length) :
    ∀ (k j : Nat) (m : List α), j + k = vs.length → p + vs.length ≤ m.length →
    ∃ m', gather xs i buf p k j m = some m' ∧ Ext m (p + j) ((vs.drop j).map fun v => (xs[i + v]?).getD f) m'
  | 0, j, m, h, hm => by
    refine ⟨m, rfl, ?_⟩
    rw [List.drop_eq_nil_of_le (by omega)]
    exact Ext.nil (by omega)
  | k + 1, j, m, h, hm => by
    have hj : j < vs.length := by omega
    have ⟨hv1, hv2⟩ := hv vs[j] (List.getElem_mem hj)
    have hn : (BitVec.ofNat 16 vs[j]).toNat = vs[j] := by rw [BitVec.toNat_ofNat, Nat.mod_eq_of_lt (by omega : vs[j] < 2^16)]
    have hmsb : (BitVec.ofNat 16 vs[j]).msb = false := by
      rw [BitVec.msb_eq_decide, hn]
      exact decide_eq_false (by omega)
    rw [gather, hb j hj, List.getElem?_eq_getElem hj, Option.map_some, Option.bind_some, hmsb, if_neg (by decide), hn,
      List.getElem?_eq_getElem hv2, Option.bind_some, wr_some (by omega), Option.bind_some]
    obtain ⟨m', e, hx⟩ := gather_spec xs i buf p f vs hb hv k (j + 1) (m.set (p + j) xs[i + vs[j]]) (by omega) (by rw [List.length_set]; exact hm)
    refine ⟨m', e, ?_⟩
    rw [List.drop_eq_getElem_cons hj, List.map_cons, List.getElem?_eq_getElem hv2]
    exact (wr_ext (by omega) _).append hx

theorem blockLoop_spec {α} (w : Nat → Word) (xs : List α) (f : α) (n s : Nat) (hx : Clean w n) (hl : n ≤ xs.length) (hs : s = cnt (bitF w) n) :
    ∀ (fuel i : Nat) (buf : List (BitVec 16)) (m : List α), (i < n → i % 64 = 0) → i ≤ n → n ≤ i + fuel * bspMax → bspMax ≤ buf.length → s ≤ m.length →
    ∃ m', blockLoop w xs n s fuel i buf m (cnt (bitF w) i) = some m' ∧
      Ext m (cnt (bitF w) i) ((P (bitF w) i (n - i)).map fun v => (xs[v]?).getD f) m'
  | fuel, i, buf, m, hi, hin, hf, hbuf, hm => by
    have hmono0 := cnt_mono (bitF w) hin
    by_cases hlt : i < n
    · have hi := hi hlt
      cases fuel with
      | zero => omega
      | succ fuel =>
        rw [blockLoop, if_pos hlt]
        dsimp only
        generalize hb : (if bspMax > n - i then n - i else bspMax) = b
        generalize hbs : (if bspMax > n - i then s - cnt (bitF w) i else bit_sum (fun k => w (i / 64 + k)) b) = bs
        rw [hs] at hbs
        obtain ⟨hb1, hb2, hb3, hb0, hcx, hbe, hcc, hcP, hi'⟩ := next_block hx hi hlt hb hbs
        have hmono := cnt_mono (bitF w) hb2
        obtain ⟨buf1, e1, x1⟩ := whereBlock_spec (fun k => w (i / 64 + k)) buf b bs hb1 hcx hbe hbuf
        have hlen : (P (bitF fun k => w (i / 64 + k)) 0 b).length = bs := by rw [P_length0, hbe]
        rw [e1, Option.bind_some]
        obtain ⟨m1, e2, x2⟩ := gather_spec xs i buf1 (cnt (bitF w) i) f (P (bitF fun k => w (i / 64 + k)) 0 b)
          (fun k hk => by
            have := x1.new k (by rw [List.length_map]; exact hk)
            rw [Nat.zero_add, List.getElem?_map] at this
            exact this)
          (fun v hv => by
            have := P_mem hv
            unfold bspMax at hb1
            omega) bs 0 m (by omega) (by omega)
        rw [e2, Option.bind_some]
        have hmap : (P (bitF fun k => w (i / 64 + k)) 0 b).map (fun v => (xs[i + v]?).getD f) = (P (bitF w) i b).map fun v => (xs[v]?).getD f := by
          rw [hcP, List.map_map]
          rfl
        rw [List.drop_zero, Nat.add_zero, hmap] at x2
        obtain ⟨m2, e3, x3⟩ := blockLoop_spec w xs f n s hx hl hs fuel (i + b) buf1 m1 hi' hb2 (by rw [Nat.succ_mul] at hf; omega) (by rw [x1.len]; exact hbuf)
          (by rw [x2.len]; exact hm)
        rw [hcc] at e3 x3
        refine ⟨m2, e3, ?_⟩
        rw [show n - i = b + (n - (i + b)) by omega, P_add, List.map_append]
        refine x2.append ?_
        rw [List.length_map, P_length]
        have : cnt (fun k => bitF w (i + k)) b = bs := by rw [cnt_add] at hcc; omega
        rw [this]
        exact x3
    · have : n - i = 0 := by omega
      rw [this, P_zero]
      refine ⟨m, ?_, Ext.nil (by omega)⟩
      cases fuel with
      | zero => rw [blockLoop, if_neg hlt]
      | succ fuel => rw [blockLoop, if_neg hlt]

theorem compressBlock_spec {α} (w : Nat → Word) (xs m : List α) (f : α) (n s : Nat) (junk : Nat → Word) (hx : Clean w n) (hl : n ≤ xs.length)
    (hs : s = cnt (bitF w) n) (hm : m.length = s) : compressBlock w xs n s junk m = some (pick xs (P (bitF w) 0 n)) := by
  obtain ⟨m', e, h⟩ := blockLoop_spec w xs f n s hx hl hs (n / bspMax + 1) 0 (fresh (fun i => (junk i).setWidth 16) bspMax) m
    (fun _ => rfl) (by omega) (by unfold bspMax; omega) (by rw [length_fresh]; exact Nat.le_refl _) (by omega)
  have e' : blockLoop w xs n s (n / bspMax + 1) 0 (fresh (fun i => (junk i).setWidth 16) bspMax) m 0 = some m' := e
  have h' : Ext m 0 ((P (bitF w) 0 n).map fun v => (xs[v]?).getD f) m' := h
  unfold compressBlock
  rw [e', h'.all (by rw [List.length_map, P_length0]; omega), pick_lt (fun p hp => by have := P_mem hp; omega) f]

/-! ## Cells -/

/-- The elements of the cells at positions; `sl xi l` are `l` elements from `xi`. -/
def pickCells {β} (sl : Nat → Nat → List β) (width : Nat) (ps : List Nat) : List β := ps.flatMap fun c => sl (c * width) width

theorem pickCells_append {β} (sl : Nat → Nat → List β) (width : Nat) (ps qs : List Nat) :
    pickCells sl width (ps ++ qs) = pickCells sl width ps ++ pickCells sl width qs := by
  unfold pickCells
  exact List.flatMap_append ..

/-- Slices are made of smaller slices. -/
structure Slices {β} (sl : Nat → Nat → List β) (N : Nat) : Prop where
  len : ∀ a l, a + l ≤ N → (sl a l).length = l
  add : ∀ a l l', a + l + l' ≤ N → sl a (l + l') = sl a l ++ sl (a + l) l'

theorem slice_run {β} {sl : Nat → Nat → List β} {N : Nat} (h : Slices sl N) (width : Nat) : ∀ (d c : Nat), (c + d) * width ≤ N →
    sl (c * width) (d * width) = pickCells sl width (List.range' c d)
  | 0, c, hc => by
    rw [Nat.zero_mul]
    exact List.eq_nil_of_length_eq_zero (h.len _ _ (by simpa using hc))
  | d + 1, c, hc => by
    have e1 : (c + (d + 1)) * width = c * width + width + d * width := by
      rw [Nat.add_mul, Nat.succ_mul]; omega
    rw [show (d + 1) * width = width + d * width by rw [Nat.succ_mul]; omega, h.add _ _ _ (by omega), List.range'_succ]
    show _ = sl (c * width) width ++ pickCells sl width (List.range' (c + 1) d)
    rw [← slice_run h width d (c + 1) (by rw [show c + 1 + d = c + (d + 1) by omega]; exact hc), Nat.succ_mul]

theorem pickCells_length {β} {sl : Nat → Nat → List β} {N : Nat} (h : Slices sl N) (width : Nat) : ∀ (ps : List Nat), (∀ p ∈ ps, (p + 1) * width ≤ N) →
    (pickCells sl width ps).length = ps.length * width
  | [], _ => by simp [pickCells]
  | p :: ps, hp => by
    have := pickCells_length h width ps fun q hq => hp q (List.mem_cons_of_mem _ hq)
    have h0 := hp p (List.mem_cons_self ..)
    rw [Nat.succ_mul] at h0
    show (sl (p * width) width ++ pickCells sl width ps).length = _
    rw [List.length_append, this, h.len _ _ h0, List.length_cons, Nat.succ_mul]
    omega

/-! ## Runs of ones -/

/-- `v | (v-1)` sets the bits below the lowest one. -/
theorem set_below (v : Word) {c : Nat} (h1 : v.getLsbD c = true) (h0 : ∀ i, i < c → v.getLsbD i = false) (i : Nat) :
    (v ||| (v - 1#64)).getLsbD i = (v.getLsbD i || decide (i < c)) := by
  have hcw : c < 64 := BitVec.lt_of_getLsbD h1
  have key : ∀ i, (v - 1#64).getLsbD i = if i < c then true else if i = c then false else v.getLsbD i := by
    intro i
    have hv : ∃ q, v.toNat = 2^(c+1) * q + 2^c := by
      refine ⟨v.toNat / 2^(c+1), ?_⟩
      have hm : v.toNat % 2^(c+1) = 2^c := by
        apply Nat.eq_of_testBit_eq
        intro j
        rw [Nat.testBit_mod_two_pow, Nat.testBit_two_pow]
        rcases Nat.lt_trichotomy j c with h | h | h
        · have := h0 j h
          rw [BitVec.getLsbD] at this
          rw [this, Bool.and_false]
          exact (decide_eq_false (by omega)).symm
        · subst h
          rw [BitVec.getLsbD] at h1
          simp [h1]
        · rw [decide_eq_false (show ¬ j < c + 1 by omega), Bool.false_and]
          exact (decide_eq_false (by omega)).symm
      have := Nat.div_add_mod v.toNat (2^(c+1))
      omega
    obtain ⟨q, hq⟩ := hv
    have hpos : 0 < 2^c := Nat.two_pow_pos c
    have hlt := v.isLt
    have hs : (v - 1#64).toNat = 2^(c+1) * q + (2^c - 1) := by
      rw [BitVec.toNat_sub]
      have h1w : (1#64).toNat = 1 := rfl
      rw [h1w]
      omega
    have hp2 : 2^c < 2^(c+1) := Nat.pow_lt_pow_right (by omega) (by omega)
    rw [BitVec.getLsbD, hs, Nat.testBit_two_pow_mul_add _ (by omega)]
    rcases Nat.lt_trichotomy i c with h | h | h
    · rw [if_pos (by omega), if_pos h, Nat.testBit_two_pow_sub_one, decide_eq_true h]
    · rw [if_pos (by omega), if_neg (by omega), if_pos h, Nat.testBit_two_pow_sub_one, decide_eq_false (by omega)]
    · rw [if_neg (by omega), if_neg (by omega), if_neg (by omega)]
      rw [BitVec.getLsbD, hq, Nat.testBit_two_pow_mul_add _ hp2, if_neg (by omega)]
  rw [BitVec.getLsbD_or, key]
  rcases Nat.lt_trichotomy i c with h | h | h
  · rw [if_pos h, decide_eq_true h]
  · subst h
    rw [h1]
    rfl
  · rw [if_neg (by omega), if_neg (by omega), decide_eq_false (by omega), Bool.or_self, Bool.or_false]

/-- `v & (v+1)` clears the ones below the lowest zero. -/
theorem clear_ones (v : Word) {c : Nat} (hc : c < 64) (h0 : v.getLsbD c = false) (h1 : ∀ i, i < c → v.getLsbD i = true) (i : Nat) :
    (v &&& (v + 1#64)).getLsbD i = (v.getLsbD i && decide (c ≤ i)) := by
  have hv : ∃ q, v.toNat = 2^(c+1) * q + (2^c - 1) := by
    refine ⟨v.toNat / 2^(c+1), ?_⟩
    have hm : v.toNat % 2^(c+1) = 2^c - 1 := by
      apply Nat.eq_of_testBit_eq
      intro j
      rw [Nat.testBit_mod_two_pow, Nat.testBit_two_pow_sub_one]
      rcases Nat.lt_trichotomy j c with h | h | h
      · have := h1 j h
        rw [BitVec.getLsbD] at this
        rw [this, Bool.and_true, decide_eq_true h, decide_eq_true (by omega)]
      · subst h
        rw [BitVec.getLsbD] at h0
        simp [h0]
      · rw [decide_eq_false (show ¬ j < c + 1 by omega), Bool.false_and]
        exact (decide_eq_false (by omega)).symm
    have := Nat.div_add_mod v.toNat (2^(c+1))
    omega
  obtain ⟨q, hq⟩ := hv
  have hpos : 0 < 2^c := Nat.two_pow_pos c
  have hp2 : 2^(c+1) = 2 * 2^c := by rw [Nat.pow_succ]; omega
  have hs : (v + 1#64).toNat = 2^(c+1) * q + 2^c := by
    rw [BitVec.toNat_add]
    have h1w : (1#64).toNat = 1 := rfl
    rw [h1w, hq]
    have hlt := v.isLt
    rw [hq] at hlt
    have hd : 2^64 = 2^(c+1) * 2^(63 - c) := by rw [← Nat.pow_add]; congr 1; omega
    have hql : q < 2^(63 - c) := by
      rcases Nat.lt_or_ge q (2^(63 - c)) with h | h
      · exact h
      · have := Nat.mul_le_mul_left (2^(c+1)) h
        omega
    have : 2^(c+1) * (q + 1) ≤ 2^64 := by rw [hd]; exact Nat.mul_le_mul_left _ hql
    rw [Nat.mul_succ] at this
    rw [Nat.mod_eq_of_lt (by omega)]
    omega
  rw [BitVec.getLsbD_and]
  have e2 : (v + 1#64).getLsbD i = (2^(c+1) * q + 2^c).testBit i := by rw [BitVec.getLsbD, hs]
  rw [e2, Nat.testBit_two_pow_mul_add _ (by omega)]
  rcases Nat.lt_trichotomy i c with h | h | h
  · rw [if_pos (by omega), Nat.testBit_two_pow, decide_eq_false (by omega), decide_eq_false (by omega)]
  · subst h
    rw [h0]
    rfl
  · rw [if_neg (by omega), decide_eq_true (by omega), Bool.and_true, BitVec.getLsbD, hq, Nat.testBit_two_pow_mul_add _ (by omega), if_neg (by omega), Bool.and_self]

end Verif.Slash
