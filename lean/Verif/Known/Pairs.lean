import Verif.Known.Rows
import Verif.Cells.Props
/-!
# Functions that Cells and Rank recognise: two arguments
-/
namespace Verif.Known
open Verif.Cells (Arr Val Operand Out onCells onPairs merge cellAt argCell Full Sized tooLarge emptyResult fillCell Agree longer forCellsAS forCellsSA forCellsAA shProd shProd_small shProd_eq prod_take_drop argCell_own argCell_id
  longer_nil_left longer_nil_right agree_nil_left agree_nil_right forCellsAS_eq forCellsSA_eq forCellsAA_eq cam_eq)
open Verif.Rotate (prod prod_append)
variable {E : Type} {fill : Arr E → E} {io : Info E} {d : E} {k n : Nat} {t : List Nat} {x w : Arr E}

/-- What isn't known of cells without elements: that they aren't too large. -/
theorem sized_cell (hx : Sized (.arr x)) (h0 : prod (x.sh.take k) ≠ 0) : tooLarge (x.sh.drop k) = false := by
  unfold tooLarge
  rw [List.any_eq_false]
  intro j _
  have h1 := hx.2.2 (k + j)
  rw [show (Val.arr x).sh = x.sh from rfl, List.take_add, prod_append] at h1
  have h2 := Nat.le_mul_of_pos_left (prod ((x.sh.drop k).take j)) (show 0 < prod (x.sh.take k) by omega)
  simp only [decide_eq_true_eq, ge_iff_le, Nat.not_le]
  omega

/-- An argument with leading axes. -/
structure Arg2 (x : Arr E) (k : Nat) : Prop where
  sized : Sized (.arr x)
  rank : x.sh.length ≤ 255
  pos : k ≠ 0
  le : k ≤ x.sh.length

theorem Arg2.arg (h : Arg2 x k) (h0 : prod (x.sh.take k) ≠ 0) : Arg x k := ⟨h.sized, h.rank, h.pos, h.le, sized_cell h.sized h0⟩

/-- With one pair or more and results of one shape. -/
theorem regular2 (fill : Arr E → E) (f : Operand Option (Val E × Val E) E) {w x : Val E} {wk xk : Nat} {z : List Nat} (hz : longer (w.sh.take wk) (x.sh.take xk) = z) (ha : Agree (w.sh.take wk) (x.sh.take xk))
    (h1 : z ≠ []) (h0 : prod z ≠ 0)
    (g : List Nat) (res : Nat → Val E) (hg : ∀ i, i < prod z → (res i).sh = g) (hr : ∀ i, i < prod z → f.run (argCell w wk z i, argCell x xk z i) = some (res i)) :
    onPairs fill f w x wk xk = some (if z.length + g.length > 255 then .rank else .ok ⟨z ++ g, (List.range (prod z)).flatMap fun i => (res i).els⟩) := by
  unfold onPairs
  dsimp only
  rw [hz, if_neg (not_not_intro ha), if_neg h0, mapM_pure_eq _ res _ (fun i hi => hr i (List.mem_range.1 hi)), pure_bind]
  show some _ = some _
  congr 1
  obtain ⟨n, hn⟩ : ∃ n, prod z = n + 1 := ⟨prod z - 1, by omega⟩
  have hall : ((List.range n).map fun i => res (i + 1)).all (fun v => v.sh == (res 0).sh) = true := by
    rw [List.all_eq_true]
    intro v hv
    obtain ⟨i, hi, rfl⟩ := List.mem_map.1 hv
    rw [hg (i+1) (by have := List.mem_range.1 hi; omega), hg 0 (by omega)]
    simp
  have hl : z.length > 0 := List.length_pos_iff.2 h1
  rw [hn, List.range_succ_eq_map, List.map_cons, List.map_map]
  unfold merge
  dsimp only
  rw [hg 0 (by omega)]
  by_cases hr2 : z.length + g.length > 255
  · rw [if_pos ⟨hl, hr2⟩, if_pos hr2]
  · rw [if_neg (fun h => hr2 h.2), if_neg hr2]
    rw [if_pos (by rw [← hg 0 (by omega)]; exact hall)]
    rw [← List.range_succ_eq_map, ← hn]
    congr 2
    rw [hn, List.range_succ_eq_map, List.flatMap_cons, List.flatMap_cons, List.flatMap_map, List.flatMap_map]
    rfl

theorem pairs_right (f : Operand Option (Val E × Val E) E) {w : Val E} (hw : Sized w) (h0 : prod (x.sh.take k) ≠ 0) :
    onPairs fill f w (.arr x) 0 k = onCells fill ⟨fun c => f.run (w, c), none⟩ (.arr x) k := by
  unfold onPairs onCells
  dsimp only
  rw [List.take_zero, longer_nil_left, if_neg (not_not_intro (agree_nil_left _))]
  rw [show (Val.arr x).sh = x.sh from rfl, if_neg h0, if_neg h0]
  rw [mapM_congr (g := fun i => f.run (w, argCell (.arr x) k (x.sh.take k) i)) fun i hi => by rw [argCell_id hw (List.mem_range.1 hi)]]

theorem pairs_left (f : Operand Option (Val E × Val E) E) {x : Val E} (hx : Sized x) (h0 : prod (w.sh.take k) ≠ 0) :
    onPairs fill f (.arr w) x k 0 = onCells fill ⟨fun c => f.run (c, x), none⟩ (.arr w) k := by
  unfold onPairs onCells
  dsimp only
  rw [List.take_zero, longer_nil_right, if_neg (not_not_intro (agree_nil_right _))]
  rw [show (Val.arr w).sh = w.sh from rfl, if_neg h0, if_neg h0]
  rw [mapM_congr (g := fun i => f.run (argCell (.arr w) k (w.sh.take k) i, x)) fun i hi => by rw [argCell_id hx (List.mem_range.1 hi)]]

/-- A function that always gives one value. -/
theorem constant_cells {v : Val E} (hv : v.els.length = prod v.sh) (h : Arg x k) (hc : prod (x.sh.take k) ≠ 0) (f : Operand Option (Val E) E) (hr : ∀ c, f.run c = some v) :
    some (constCells x k v) = onCells fill f (.arr x) k := by
  rw [regular fill f h.pos h.le h.cell v.sh (fun _ => v) (fun _ _ => rfl) (fun _ _ => hr _) (fun e => absurd e hc), constCells_eq hv h.pos h.le h.rank]
  rfl

theorem wrap_place {i : Int} {l : Nat} (h1 : -2^63 ≤ i) (h2 : i < 2^63) (hl : l < 2^32) : wrapIndex i l = place i l := by
  unfold wrapIndex place
  dsimp only
  by_cases h0 : 0 ≤ i
  · have e : (i % 2^64).toNat = i.toNat := by rw [Int.emod_eq_of_lt h0 (by omega)]
    rw [e]
    by_cases h3 : i < l
    · rw [if_neg (show ¬ i.toNat ≥ l by omega), if_pos (show 0 ≤ i ∧ i < l from ⟨h0, h3⟩), Nat.mod_eq_of_lt (by omega)]
    · rw [if_pos (show i.toNat ≥ l by omega), if_neg (show ¬ (0 ≤ i ∧ i < l) by omega), if_neg (show ¬ (i < 0 ∧ 0 ≤ i + l) by omega), if_pos]
      rw [Nat.mod_eq_of_lt (by omega)]
      omega
  · obtain ⟨u, hu⟩ : ∃ u : Nat, (u : Int) = i + 2^64 := ⟨(i + 2^64).toNat, by omega⟩
    have e : (i % 2^64).toNat = u := by omega
    rw [e, if_pos (show u ≥ l by omega), if_neg (show ¬ (0 ≤ i ∧ i < l) by omega)]
    by_cases h3 : 0 ≤ i + l
    · have e2 : (u + l) % 2^64 = (i + l).toNat := by omega
      rw [e2, if_neg (show ¬ (i + l).toNat ≥ l by omega), if_pos (show i < 0 ∧ 0 ≤ i + l from ⟨by omega, h3⟩), Nat.mod_eq_of_lt (by omega)]
    · have e2 : (u + l) % 2^64 = u + l := by omega
      rw [e2, if_pos (show u + l ≥ l by omega), if_neg (show ¬ (i < 0 ∧ 0 ≤ i + l) by omega)]

theorem unit_val {v : Val E} (hv : Sized v) {e : E} (h : unpackUnit v = some e) : v.sh = [] ∧ v.els = [e] := by
  match v, hv, h with
  | .atom a, _, h => cases h; exact ⟨rfl, rfl⟩
  | .arr ⟨sh, els⟩, hv, h =>
    unfold unpackUnit at h
    dsimp only at h
    by_cases h1 : sh.length ≠ 0
    · rw [if_pos h1] at h; cases h
    · rw [if_neg h1] at h
      have h2 : sh = [] := List.length_eq_zero_iff.1 (by omega)
      subst h2
      have h3 : els.length = 1 := hv.1
      match els, h3, h with
      | [a], _, h => cases h; exact ⟨rfl, rfl⟩

theorem flat_congr {n : Nat} {f g : Nat → List E} (h : ∀ i, i < n → f i = g i) : (List.range n).flatMap f = (List.range n).flatMap g := by
  rw [List.flatMap_def, List.flatMap_def]
  congr 1
  exact List.map_congr_left fun i hi => h i (List.mem_range.1 hi)

/-- `join_cells` for cells of one shape. -/
theorem joinCells_eq {c : Nat} (hw : Sized (.arr w)) (hx : Sized (.arr x)) (h0 : prod (x.sh.take k) = c) (hc : c ≠ 0) (h1 : prod (w.sh.take k) = c) (h2 : prod (w.sh.drop k) = prod (x.sh.drop k))
    (hs : w.els.length + x.els.length < 2^32) :
    joinCells w x k = some ((List.range c).flatMap fun i => (cellAt w k i).els ++ (cellAt x k i).els) := by
  have tw : w.els.length = c * prod (x.sh.drop k) := by rw [← h1, ← h2, prod_take_drop]; exact hw.1
  have tx : x.els.length = c * prod (x.sh.drop k) := by rw [← h0, prod_take_drop]; exact hx.1
  have hle : prod (x.sh.drop k) ≤ c * prod (x.sh.drop k) := Nat.le_mul_of_pos_left _ (by omega)
  unfold joinCells
  dsimp only
  rw [shProd_small (show prod (w.sh.drop k) < 2^32 by omega), shProd_small (show prod (x.sh.drop k) < 2^32 by omega), h2, Nat.mod_eq_of_lt hs]
  have hcw : ∀ i, (cellAt w k i).els = (w.els.drop (i * prod (x.sh.drop k))).take (prod (x.sh.drop k)) := by intro i; unfold cellAt; rw [h2]
  have hcx : ∀ i, (cellAt x k i).els = (x.els.drop (i * prod (x.sh.drop k))).take (prod (x.sh.drop k)) := fun _ => rfl
  simp only [hcw, hcx]
  generalize hp : prod (x.sh.drop k) = p at *
  by_cases hi : w.els.length + x.els.length = 0
  · rw [if_pos hi]
    have hp0 : p = 0 := by omega
    subst hp0
    simp
  · rw [if_neg hi]
    have hp0 : p ≠ 0 := by rintro rfl; simp at tw tx; exact hi (by rw [tw, tx]; rfl)
    rw [Nat.mod_eq_of_lt (show p + p < 2^32 by omega), if_neg (show ¬ p + p = 0 by omega)]
    have hq : (w.els.length + x.els.length + (p + p) - 1) / (p + p) = c := by
      have : w.els.length + x.els.length + (p + p) - 1 = (p + p - 1) + (p + p) * c := by
        rw [tw, tx, Nat.add_mul, Nat.mul_comm p c]; omega
      rw [this, Nat.add_mul_div_left _ _ (by omega), Nat.div_eq_of_lt (by omega), Nat.zero_add]
    rw [hq, mapM_some_eq _ (fun i => (w.els.drop (i * p)).take p ++ (x.els.drop (i * p)).take p)]
    · rw [Option.map_some, List.flatMap_def]
    · intro i hi
      have hb := Nat.mul_le_mul_right p (List.mem_range.1 hi)
      rw [Nat.succ_mul] at hb
      rw [gather_eq _ _ _ (by omega), gather_eq _ _ _ (by omega)]
      rfl

theorem pos_list (h : Arg2 x 1) (h1 : x.sh.length = 1) : x.sh = [x.els.length] := by
  match hs : x.sh, h1 with
  | [n], _ =>
    have := h.sized.1
    rw [show (Val.arr x).els = x.els from rfl, show (Val.arr x).sh = x.sh from rfl, hs] at this
    simp only [prod, Nat.mul_one] at this
    rw [this]

section
variable [DecidableEq E]

/-- `𝕨 F⎉∞‿k 𝕩` and the other way round. -/
theorem as_eq {x : Val E} (p : Known2 E) (hx : Sized x) (h : Arg2 w k) (hv : ∀ v, p = .const v → v.els.length = prod v.sh)
    (hs : p = .couple → w.els.length + w.els.length < 2^32) :
    knownAS fill p w k x = onPairs fill p.op (.arr w) x k 0 := by
  unfold knownAS
  dsimp only
  rw [shProd_small (sh := w.sh.take k) (h.sized.2.2 k), forCellsAS_eq fill _ h.sized hx h.pos]
  by_cases h0 : prod (w.sh.take k) = 0
  · rw [if_pos h0]
  · have h1 := h.arg h0
    rw [if_neg h0]
    match p, hv, hs with
    | .ltack, _, _ =>
      dsimp only
      rw [pairs_left _ hx h0, keeps h1 _ (fun _ _ => rfl) (fun e => absurd e h0)]
    | .rtack, _, _ =>
      dsimp only
      rw [pairs_left _ hx h0]
      exact constant_cells hx.1 h1 h0 _ (fun _ => rfl)
    | .const v, hv, _ =>
      dsimp only
      rw [pairs_left _ hx h0]
      exact constant_cells (hv v rfl) h1 h0 _ (fun _ => rfl)
    | .couple, _, hs =>
      dsimp only
      by_cases h2 : w.sh.length = 1
      · rw [if_pos h2]
        have hk : k = 1 := by have := h.le; have := h.pos; omega
        subst hk
        cases he : unpackUnit x with
        | none => rfl
        | some e =>
          dsimp only
          have hsh := pos_list h h2
          obtain ⟨xs, xe⟩ := unit_val hx he
          have hcw : prod (w.sh.take 1) = w.els.length := by rw [hsh]; simp [prod]
          have hdr : w.sh.drop 1 = [] := by rw [hsh]; rfl
          rw [pairs_left _ hx h0, regular fill _ h1.pos h1.le h1.cell [2] (fun i => .arr ⟨[2], (cellAt w 1 i).els ++ [e]⟩) (fun _ _ => rfl)
            (fun i hi => by
              show couple (_, x) = _
              unfold couple
              dsimp only
              rw [xs, show (Val.arr (cellAt w 1 i)).sh = w.sh.drop 1 from rfl, hdr, if_pos rfl, xe]
              rfl) (fun e => absurd e h0)]
          rw [if_neg (by simp)]
          unfold interleaveCells
          have hrs : Sized (.arr (⟨[w.els.length], List.replicate w.els.length e⟩ : Arr E)) := by
            refine ⟨by simp [Val.els, Val.sh, prod], by simpa [Val.els] using h1.len, fun j => ?_⟩
            have := h1.len
            match j with
            | 0 => simp [Val.sh, prod]
            | j+1 => simp [Val.sh, prod]; omega
          rw [joinCells_eq h.sized hrs (c := w.els.length) (by simp [prod]) (by omega) hcw (by rw [hdr]; rfl) (by simpa using hs rfl)]
          rw [if_neg (by simp)]
          show some _ = some _
          congr 1
          unfold arrOf
          dsimp only
          congr 2
          · rw [hsh]; rfl
          · rw [hcw]
            apply flat_congr
            intro i hi
            congr 1
            unfold cellAt
            simp only [List.drop_succ_cons, List.drop_zero, prod]
            rw [List.drop_replicate, List.take_replicate, Nat.min_eq_left (by omega)]
            rfl
      · rw [if_neg h2]
    | .select .., _, _ => rfl
    | .pick .., _, _ => rfl
    | .shift .., _, _ => rfl
    | .match_ .., _, _ => rfl

/-- What is asked of the numbers, the elements and the sizes. -/
structure Ok2 (io : Info E) (rboxed : Bool) (x : Arr E) (k : Nat) (p : Known2 E) : Prop where
  good : io.Good
  const : ∀ v, p = .const v → v.els.length = prod v.sh
  couple : p = .couple → x.els.length + x.els.length < 2^32
  select : ∀ num o, p = .select num o → ∀ e i, num e = some (some i) → -2^63 ≤ i ∧ i < 2^63
  pick : ∀ num val o, p = .pick num val o → (∀ e i, num e = some (some i) → -2^63 ≤ i ∧ i < 2^63) ∧ (io.flat = true → ∀ e ∈ x.els, val e = .atom e)
  shift : ∀ a o, p = .shift a o → rboxed = true → x.els.length + (x.sh[k]?.getD 0) ≤ 2^32

theorem errors_cells (hc : prod (x.sh.take k) ≠ 0) (f : Operand Option (Val E) E) (hr : f.run (.arr (cellAt x k 0)) = none) : onCells fill f (.arr x) k = none := by
  unfold onCells
  dsimp only
  rw [show (Val.arr x).sh = x.sh from rfl, if_neg hc]
  obtain ⟨m, hm⟩ : ∃ m, prod (x.sh.take k) = m + 1 := ⟨prod (x.sh.take k) - 1, by omega⟩
  rw [hm, List.range_succ_eq_map, List.mapM_cons, argCell_own, hr]
  rfl

theorem axis_lt (h : Arg x k) (hd : x.sh.drop k = n :: t) (h0 : prod (x.sh.take k) ≠ 0) : n < 2^32 := by
  have h1 := h.sized.2.2 (k + 1)
  rw [show (Val.arr x).sh = x.sh from rfl, Arg.take_succ hd, prod_append] at h1
  have h2 := Nat.le_mul_of_pos_left (prod [n]) (show 0 < prod (x.sh.take k) by omega)
  simp only [prod, Nat.mul_one] at h1 h2
  omega

theorem sa_select {w : Val E} {num : E → Option (Option Int)} {o : Fn2 E} (hio : io.Good) (hn : ∀ e i, num e = some (some i) → -2^63 ≤ i ∧ i < 2^63) (hw : Sized w) (h : Arg x k) (h0 : prod (x.sh.take k) ≠ 0) {rboxed rbit : Bool} :
    knownSA fill io rboxed rbit d (.select num o) w x k = onPairs fill (Known2.op (.select num o)) w (.arr x) 0 k := by
  unfold knownSA
  dsimp only
  rw [h.cam, if_neg h0, forCellsSA_eq fill _ hw h.sized h.pos]
  match w, hw with
  | .arr _, _ => rfl
  | .atom e, hw =>
    dsimp only
    cases he : num e with
    | none => rfl
    | some i =>
      dsimp only
      cases hd : x.sh.drop k with
      | nil => rw [if_neg (by rw [h.cr_zero.2 hd]; omega)]
      | cons n t =>
        rw [if_pos (by rw [(drop_cons hd).2.2]; omega), (drop_cons hd).1, Option.getD_some, pairs_right _ hw h0]
        have hrun : ∀ c, (Known2.op (.select num o)).run ((.atom e : Val E), c) = i.bind fun i => selectAt i c := by
          intro c
          show selectFn num o (.atom e, c) = _
          unfold selectFn
          dsimp only
          rw [he]
        cases i with
        | none =>
          rw [Option.bind_none, Option.map_none, errors_cells h0]
          exact hrun _
        | some i =>
          obtain ⟨b1, b2⟩ := hn e i he
          rw [Option.bind_some, wrap_place b1 b2 (axis_lt h hd h0)]
          cases hj : place i n with
          | none =>
            rw [Option.map_none, errors_cells h0]
            refine (hrun _).trans ?_
            rw [Option.bind_some]
            unfold selectAt
            rw [show (Val.arr (cellAt x k 0)).sh = n :: t from hd]
            dsimp only
            rw [hj]
            rfl
          | some j =>
            have hjn : j < n := by
              unfold place at hj
              split at hj
              · cases hj; omega
              · split at hj
                · cases hj; omega
                · cases hj
            rw [Option.map_some, selectCells_eq hio h hd hjn, selectAt_cells h hd hj _ (fun a _ => hrun _) (fun e => absurd e h0)]

theorem sa_pick {w : Val E} {num : E → Option (Option Int)} {val : E → Val E} {o : Fn2 E} (hio : io.Good) (hn : ∀ e i, num e = some (some i) → -2^63 ≤ i ∧ i < 2^63) (hv : io.flat = true → ∀ e ∈ x.els, val e = .atom e)
    (hw : Sized w) (h : Arg x k) (h0 : prod (x.sh.take k) ≠ 0) {rboxed rbit : Bool} :
    knownSA fill io rboxed rbit d (.pick num val o) w x k = onPairs fill (Known2.op (.pick num val o)) w (.arr x) 0 k := by
  unfold knownSA
  dsimp only
  rw [h.cam, if_neg h0, forCellsSA_eq fill _ hw h.sized h.pos]
  match w, hw with
  | .arr _, _ => rfl
  | .atom e, hw =>
    dsimp only
    cases he : num e with
    | none => rfl
    | some i =>
      dsimp only
      by_cases hc : x.sh.length - k = 1 ∧ io.flat = true
      · rw [if_pos hc]
        obtain ⟨n, hd⟩ : ∃ n, x.sh.drop k = [n] := by
          have h2 : (x.sh.drop k).length = 1 := by rw [List.length_drop]; exact hc.1
          match hm : x.sh.drop k, h2 with
          | [n], _ => exact ⟨n, rfl⟩
        have hpn : prod (x.sh.drop k) = n := by rw [hd]; simp [prod]
        rw [(drop_cons hd).1, Option.getD_some, pairs_right _ hw h0]
        have hrun : ∀ a, (Known2.op (.pick num val o)).run ((.atom e : Val E), .arr (cellAt x k a)) = i.bind fun i => pickAt val i (.arr (cellAt x k a)) := by
          intro c
          show pickFn num val o (.atom e, .arr (cellAt x k c)) = _
          unfold pickFn
          dsimp only
          rw [he]
          dsimp only
          rw [if_pos]
          rw [show (Val.arr (cellAt x k c)).sh = x.sh.drop k from rfl, hd]
          rfl
        have hpick : ∀ i a, pickAt val i (.arr (cellAt x k a)) = ((place i n).bind ((cellAt x k a).els[·]?)).map val := by
          intro i a
          unfold pickAt
          rw [show (Val.arr (cellAt x k a)).sh = [n] from hd]
          rfl
        cases i with
        | none =>
          rw [Option.bind_none, Option.map_none, errors_cells h0]
          exact hrun _
        | some i =>
          obtain ⟨b1, b2⟩ := hn e i he
          rw [Option.bind_some, wrap_place b1 b2 (axis_lt h hd h0)]
          cases hj : place i n with
          | none =>
            rw [Option.map_none, errors_cells h0]
            refine (hrun _).trans ?_
            rw [Option.bind_some, hpick, hj]
            rfl
          | some j =>
            have hjn : j < n := by
              unfold place at hj
              split at hj
              · cases hj; omega
              · split at hj
                · cases hj; omega
                · cases hj
            rw [Option.map_some, pick_cells_eq hio h (by rw [hpn]; exact hjn), element_cells h (by rw [hpn]; exact hjn) h0]
            intro a ha y hy
            refine (hrun _).trans ?_
            rw [Option.bind_some, hpick, hj, Option.bind_some, hy, Option.map_some, hv hc.2 y (cell_mem hy)]
      · rw [if_neg hc]

theorem sa_couple {w : Val E} (hs : x.els.length + x.els.length < 2^32) (hw : Sized w) (h : Arg x k) (h0 : prod (x.sh.take k) ≠ 0) {rboxed rbit : Bool} :
    knownSA fill io rboxed rbit d .couple w x k = onPairs fill (Known2.op .couple) w (.arr x) 0 k := by
  unfold knownSA
  dsimp only
  rw [h.cam, if_neg h0, forCellsSA_eq fill _ hw h.sized h.pos]
  by_cases h2 : x.sh.length = 1
  · rw [if_pos h2]
    have hk : k = 1 := by have := h.le; have := h.pos; omega
    subst hk
    cases he : unpackUnit w with
    | none => rfl
    | some e =>
      dsimp only
      have hsh := pos_list ⟨h.sized, h.rank, h.pos, h.le⟩ h2
      obtain ⟨ws, we⟩ := unit_val hw he
      have hcx : prod (x.sh.take 1) = x.els.length := by rw [hsh]; simp [prod]
      have hdr : x.sh.drop 1 = [] := by rw [hsh]; rfl
      rw [pairs_right _ hw h0, regular fill _ h.pos h.le h.cell [2] (fun i => .arr ⟨[2], e :: (cellAt x 1 i).els⟩) (fun _ _ => rfl)
        (fun i hi => by
          show couple (w, _) = _
          unfold couple
          dsimp only
          rw [ws, show (Val.arr (cellAt x 1 i)).sh = x.sh.drop 1 from rfl, hdr, if_pos rfl, we]
          rfl) (fun e => absurd e h0)]
      rw [if_neg (by simp)]
      unfold interleaveCells
      have hrs : Sized (.arr (⟨[x.els.length], List.replicate x.els.length e⟩ : Arr E)) := by
        refine ⟨by simp [Val.els, Val.sh, prod], by simpa [Val.els] using h.len, fun j => ?_⟩
        have := h.len
        match j with
        | 0 => simp [Val.sh, prod]
        | j+1 => simp [Val.sh, prod]; omega
      rw [joinCells_eq hrs h.sized (c := x.els.length) hcx (by omega) (by simp [prod]) (by rw [hdr]; rfl) (by simpa using hs)]
      rw [if_neg (by omega)]
      show some _ = some _
      congr 1
      unfold arrOf
      dsimp only
      congr 2
      · rw [hsh]; rfl
      · rw [hcx]
        apply flat_congr
        intro i hi
        show _ = [e] ++ _
        congr 1
        unfold cellAt
        simp only [List.drop_succ_cons, List.drop_zero, prod]
        rw [List.drop_replicate, List.take_replicate, Nat.min_eq_left (by omega)]
        rfl
  · rw [if_neg h2]

theorem sa_shift {w : Val E} {after : Bool} {o : Fn2 E} {rboxed rbit : Bool} (hb : rboxed = true → x.els.length + (x.sh[k]?.getD 0) ≤ 2^32) (hw : Sized w) (h : Arg x k) (h0 : prod (x.sh.take k) ≠ 0) :
    knownSA fill io rboxed rbit d (.shift after o) w x k = onPairs fill (Known2.op (.shift after o)) w (.arr x) 0 k := by
  unfold knownSA
  dsimp only
  rw [h.cam, if_neg h0, forCellsSA_eq fill _ hw h.sized h.pos]
  by_cases hc : x.sh.length - k ≠ 1
  · rw [if_pos hc]
  · rw [if_neg hc]
    cases he : unpackUnit w with
    | none => rfl
    | some e =>
      dsimp only
      obtain ⟨ws, we⟩ := unit_val hw he
      obtain ⟨n, hd⟩ : ∃ n, x.sh.drop k = [n] := by
        have h2 : (x.sh.drop k).length = 1 := by rw [List.length_drop]; omega
        match hm : x.sh.drop k, h2 with
        | [n], _ => exact ⟨n, rfl⟩
      have hpn : prod (x.sh.drop k) = n := by rw [hd]; simp [prod]
      have ht := h.total
      rw [hpn] at ht
      have hrun : ∀ a, (Known2.op (.shift after o)).run (w, .arr (cellAt x k a)) = shiftIn after e (.arr (cellAt x k a)) := by
        intro a
        show shiftFn after o _ = _
        unfold shiftFn
        dsimp only
        rw [ws, we]
        dsimp only
        rw [if_pos]
        rw [show (Val.arr (cellAt x k a)).sh = x.sh.drop k from rfl, hd]
        rfl
      have hin : ∀ a, shiftIn after e (.arr (cellAt x k a)) = if (cellAt x k a).els = [] then some (.arr (cellAt x k a)) else
          some (.arr ⟨x.sh.drop k, if after then (cellAt x k a).els.drop 1 ++ [e] else e :: (cellAt x k a).els.take ((cellAt x k a).els.length - 1)⟩) := by
        intro a
        unfold shiftIn
        rw [show (Val.arr (cellAt x k a)).sh = [n] from hd, hd]
        rfl
      rw [pairs_right _ hw h0, (drop_cons hd).1, Option.getD_some]
      by_cases h1 : x.els.length = 0
      · rw [if_pos h1, keeps h _ _ (fun e => absurd e h0)]
        intro i hi
        show (Known2.op (.shift after o)).run _ = _
        rw [hrun, hin, if_pos]
        have : x.els = [] := List.length_eq_zero_iff.1 h1
        unfold cellAt
        rw [this]
        simp
      · rw [if_neg h1]
        have hn : n ≠ 0 := by rintro rfl; exact h1 (by rw [ht, Nat.mul_zero])
        have hl : ∀ i, i < prod (x.sh.take k) → (cellAt x k i).els.length = n := fun i hi => by rw [cell_full h.full hi, hpn]
        rw [regular fill _ h.pos h.le h.cell (x.sh.drop k) (fun a => .arr ⟨x.sh.drop k, if after then (cellAt x k a).els.drop 1 ++ [e] else e :: (cellAt x k a).els.take ((cellAt x k a).els.length - 1)⟩)
          (fun _ _ => rfl) (fun i hi => by
            show (Known2.op (.shift after o)).run _ = _
            rw [hrun, hin, if_neg]
            · rfl
            · intro h3
              have h4 := hl i hi
              rw [h3] at h4
              exact hn h4.symm) (fun e => absurd e h0)]
        rw [h.split, if_neg (by have := h.rank; omega), List.take_append_drop]
        show some _ = some _
        congr 1
        simp only [Val.els]
        by_cases hn1 : n = 1
        · subst hn1
          unfold shiftCells
          dsimp only
          rw [if_pos rfl]
          congr 2
          rw [ht, ← replicate_flat]
          apply flat_congr
          intro i hi
          have := hl i hi
          cases after
          · simp [this]
          · have h6 : (cellAt x k i).els.drop 1 = [] := List.drop_eq_nil_of_le (by omega)
            rw [h6]
            rfl
        · rw [shiftRows_eq e (by omega) ht h.len (fun e => by have := hb e; rw [(drop_cons hd).1] at this; exact this) h0]
          congr 2
          apply flat_congr
          intro i hi
          rw [hl i hi]
          unfold cellAt
          rw [hpn]

theorem sa_eq {w : Val E} (p : Known2 E) {rboxed rbit : Bool} (hw : Sized w) (h : Arg2 x k) (ok : Ok2 io rboxed x k p) :
    knownSA fill io rboxed rbit d p w x k = onPairs fill p.op w (.arr x) 0 k := by
  by_cases h0 : prod (x.sh.take k) = 0
  · unfold knownSA
    dsimp only
    rw [shProd_small (sh := x.sh.take k) (h.sized.2.2 k), forCellsSA_eq fill _ hw h.sized h.pos, if_pos h0]
  · have h1 := h.arg h0
    match p, ok with
    | .select num o, ok => exact sa_select ok.good (ok.select num o rfl) hw h1 h0
    | .pick num val o, ok => exact sa_pick ok.good (ok.pick num val o rfl).1 (ok.pick num val o rfl).2 hw h1 h0
    | .couple, ok => exact sa_couple (ok.couple rfl) hw h1 h0
    | .shift after o, ok => exact sa_shift (ok.shift after o rfl) hw h1 h0
    | .ltack, _ =>
      unfold knownSA
      dsimp only
      rw [shProd_small (sh := x.sh.take k) (h.sized.2.2 k), if_neg h0, pairs_right _ hw h0]
      exact constant_cells hw.1 h1 h0 _ (fun _ => rfl)
    | .const v, ok =>
      unfold knownSA
      dsimp only
      rw [shProd_small (sh := x.sh.take k) (h.sized.2.2 k), if_neg h0, pairs_right _ hw h0]
      exact constant_cells (ok.const v rfl) h1 h0 _ (fun _ => rfl)
    | .rtack, _ =>
      unfold knownSA
      dsimp only
      rw [shProd_small (sh := x.sh.take k) (h.sized.2.2 k), if_neg h0, pairs_right _ hw h0, keeps h1 _ (fun _ _ => rfl) (fun e => absurd e h0)]
    | .match_ bit ne, _ =>
      unfold knownSA
      dsimp only
      rw [shProd_small (sh := x.sh.take k) (h.sized.2.2 k), if_neg h0, forCellsSA_eq fill _ hw h.sized h.pos]

theorem argCell_frame (v : Arr E) {z : List Nat} (hz : z.drop k = []) (i : Nat) : argCell (.arr v) k z i = .arr (cellAt v k i) := by
  unfold argCell
  dsimp only
  rw [hz, prod, Nat.div_one]

theorem take_drop_nil (l : List Nat) (k : Nat) : (l.take k).drop k = [] := List.drop_eq_nil_of_le (by rw [List.length_take]; omega)

/-- Two arrays with the same leading axes. -/
theorem aa_regular (hw : Arg2 w k) (hx : Arg2 x k) (hf : w.sh.take k = x.sh.take k) (h0 : prod (x.sh.take k) ≠ 0) (f : Operand Option (Val E × Val E) E) (g : List Nat) (res : Nat → Val E)
    (hg : ∀ i, i < prod (x.sh.take k) → (res i).sh = g) (hr : ∀ i, i < prod (x.sh.take k) → f.run (.arr (cellAt w k i), .arr (cellAt x k i)) = some (res i)) :
    onPairs fill f (.arr w) (.arr x) k k = some (if k + g.length > 255 then .rank else .ok ⟨x.sh.take k ++ g, (List.range (prod (x.sh.take k))).flatMap fun i => (res i).els⟩) := by
  have hl : (x.sh.take k).length = k := by rw [List.length_take]; have := hx.le; omega
  rw [regular2 fill f (z := x.sh.take k) _ _ _ h0 g res hg _, hl]
  · show longer (w.sh.take k) (x.sh.take k) = _
    rw [hf]
    unfold longer
    rw [if_neg (by omega)]
  · show Agree (w.sh.take k) (x.sh.take k)
    rw [hf]
    rfl
  · intro e
    rw [e] at hl
    exact hx.pos hl.symm
  · intro i hi
    rw [argCell_frame w (take_drop_nil _ _), argCell_frame x (take_drop_nil _ _)]
    exact hr i hi

theorem cells_els {c : Nat} (hx : Arg x k) (h0 : prod (x.sh.take k) ≠ 0) (hc : prod (x.sh.drop k) = c) : shProd (x.sh.drop k) = c := by
  rw [← hc]
  exact shProd_small (not_large hx.cell)

theorem matchCells_eq (bit : Bool → E) (ne : Bool) (hw : Arg2 w k) (hx : Arg2 x k) (hf : w.sh.take k = x.sh.take k) (h0 : prod (x.sh.take k) ≠ 0) :
    matchCells bit ne w x k (prod (x.sh.take k)) = (List.range (prod (x.sh.take k))).flatMap fun i => [bit (ne != ((cellAt w k i).sh == (cellAt x k i).sh && (cellAt w k i).els == (cellAt x k i).els))] := by
  have all : ∀ b : E, ((List.range (prod (x.sh.take k))).flatMap fun _ => [b]) = List.replicate (prod (x.sh.take k)) b := by
    intro b
    have := replicate_flat b 1 (prod (x.sh.take k))
    rw [Nat.mul_one] at this
    exact this
  have h1 := hw.arg (k := k) (by rw [hf]; exact h0)
  have h2 := hx.arg h0
  unfold matchCells
  dsimp only
  by_cases hd : w.sh.drop k = x.sh.drop k
  · have hlen : w.sh.length = x.sh.length := by
      have e1 := h1.split
      have e2 := h2.split
      rw [hd] at e1
      omega
    rw [if_neg (by rintro (h | h); exact h hlen; exact h.2 hd)]
    have hsz : shProd (w.sh.drop k) = prod (x.sh.drop k) := by rw [hd]; exact cells_els h2 h0 rfl
    rw [hsz]
    have hb : ∀ i, ((cellAt w k i).sh == (cellAt x k i).sh) = true := by
      intro i
      rw [cell_sh, cell_sh, hd]
      simp
    by_cases hp : prod (x.sh.drop k) = 0
    · rw [if_pos hp, ← all]
      apply flat_congr
      intro i hi
      have e1 : (cellAt w k i).els = [] := by unfold cellAt; rw [hd, hp]; simp
      have e2 : (cellAt x k i).els = [] := by unfold cellAt; rw [hp]; simp
      rw [hb, e1, e2]
      cases ne <;> rfl
    · rw [if_neg hp, List.map_eq_flatMap]
      apply flat_congr
      intro i hi
      rw [hb]
      simp only [Bool.true_and]
      unfold cellAt
      rw [hd]
  · have hc : w.sh.length ≠ x.sh.length ∨ (w.sh.length > k ∧ w.sh.drop k ≠ x.sh.drop k) := by
      by_cases hl : w.sh.length = x.sh.length
      · right
        refine ⟨?_, hd⟩
        by_cases h3 : w.sh.length > k
        · exact h3
        · exfalso
          apply hd
          rw [List.drop_eq_nil_of_le (by omega), List.drop_eq_nil_of_le (by omega)]
      · exact Or.inl hl
    rw [if_pos hc, ← all]
    apply flat_congr
    intro i hi
    have : ((cellAt w k i).sh == (cellAt x k i).sh) = false := by
      rw [cell_sh, cell_sh]
      simp [hd]
    rw [this]
    cases ne <;> rfl

/-- The frames agree, and what they are together. -/
theorem frames_of {wk xk : Nat} (hw : wk ≤ w.sh.length) (hx : xk ≤ x.sh.length) (h : w.sh.take (min wk xk) = x.sh.take (min wk xk)) :
    Agree (w.sh.take wk) (x.sh.take xk) ∧ longer (w.sh.take wk) (x.sh.take xk) = if xk > wk then x.sh.take xk else w.sh.take wk := by
  have lw : (w.sh.take wk).length = wk := by rw [List.length_take]; omega
  have lx : (x.sh.take xk).length = xk := by rw [List.length_take]; omega
  constructor
  · unfold Agree
    rw [lw, lx, List.take_take, List.take_take, Nat.min_eq_left (Nat.min_le_left ..), Nat.min_eq_left (Nat.min_le_right ..), h]
  · unfold longer
    rw [lw, lx]
    by_cases h1 : wk > xk
    · rw [if_pos h1, if_neg (by omega)]
    · rw [if_neg h1]
      by_cases h2 : xk > wk
      · rw [if_pos h2]
      · rw [if_neg h2]
        have : wk = xk := by omega
        subst this
        rw [Nat.min_self] at h
        exact h.symm

/-- `𝕨 F⎉j‿k 𝕩`. -/
theorem aa_eq {typed : Bool} {wk xk : Nat} (p : Known2 E) (hw : Arg2 w wk) (hx : Arg2 x xk) (hv : ∀ v, p = .const v → v.els.length = prod v.sh)
    (hs : p = .couple → w.els.length + x.els.length < 2^32 ∧ x.sh.length < 255) :
    knownAA fill typed p w wk x xk = onPairs fill p.op (.arr w) (.arr x) wk xk := by
  unfold knownAA
  dsimp only
  rw [forCellsAA_eq fill _ hw.sized hx.sized hw.le hx.le]
  have hk : (if (decide (xk > wk)) = true then wk else xk) = min wk xk := by
    by_cases h : xk > wk
    · rw [decide_eq_true h, if_pos rfl]; omega
    · rw [decide_eq_false h]; simp only [Bool.false_eq_true, if_false]; omega
  rw [hk]
  by_cases hf : w.sh.take (min wk xk) = x.sh.take (min wk xk)
  · rw [if_neg (not_not_intro hf)]
    obtain ⟨ha, hl⟩ := frames_of hw.le hx.le hf
    have hz : ((if decide (xk > wk) = true then x else w).sh.take (if decide (xk > wk) = true then xk else wk)) = longer (w.sh.take wk) (x.sh.take xk) := by
      rw [hl]
      by_cases h : xk > wk
      · rw [decide_eq_true h, if_pos rfl, if_pos rfl, if_pos h]
      · rw [decide_eq_false h, if_neg h]; rfl
    have hzt : (longer (w.sh.take wk) (x.sh.take xk)).take (min wk xk) = w.sh.take (min wk xk) := by
      rw [hl]
      by_cases h : xk > wk
      · rw [if_pos h, List.take_take, Nat.min_eq_left (by omega), hf]
      · rw [if_neg h, List.take_take, Nat.min_eq_left (by omega)]
    have hzl : prod (longer (w.sh.take wk) (x.sh.take xk)) < 2^32 := by
      rw [hl]
      by_cases h : xk > wk
      · rw [if_pos h]; exact hx.sized.2.2 xk
      · rw [if_neg h]; exact hw.sized.2.2 wk
    have hcam := cam_eq (k := min wk xk) hzl
    rw [hzt] at hcam
    rw [hz, hcam]
    by_cases h0 : prod (longer (w.sh.take wk) (x.sh.take xk)) = 0
    · rw [if_pos h0]
    · rw [if_neg h0]
      have same : ∀ (_ : wk = xk), longer (w.sh.take wk) (x.sh.take xk) = x.sh.take xk ∧ w.sh.take xk = x.sh.take xk := by
        rintro rfl
        rw [Nat.min_self] at hf
        rw [hl, if_neg (by omega)]
        exact ⟨hf, hf⟩
      match p, hv, hs with
      | .rtack, _, _ =>
        dsimp only
        by_cases he : wk = xk
        · obtain ⟨e1, e2⟩ := same he
          subst he
          rw [e1] at h0
          rw [if_pos rfl, aa_regular hw hx e2 h0 _ (x.sh.drop wk) (fun i => .arr (cellAt x wk i)) (fun _ _ => rfl) (fun _ _ => rfl)]
          have h1 := hx.arg h0
          rw [h1.split, if_neg (by have := h1.rank; omega), List.take_append_drop]
          have := rows_all h1.full wk
          simp only [Val.els]
          rw [this]
        · rw [if_neg he]
      | .ltack, _, _ =>
        dsimp only
        by_cases he : wk = xk
        · obtain ⟨e1, e2⟩ := same he
          subst he
          rw [e1] at h0
          rw [if_pos rfl, aa_regular hw hx e2 h0 _ (w.sh.drop wk) (fun i => .arr (cellAt w wk i)) (fun _ _ => rfl) (fun _ _ => rfl)]
          have h1 := hw.arg (by rw [e2]; exact h0)
          rw [h1.split, if_neg (by have := h1.rank; omega), ← e2, List.take_append_drop]
          have := rows_all h1.full wk
          simp only [Val.els]
          rw [this]
        · rw [if_neg he]
      | .match_ bit ne, _, _ =>
        dsimp only
        by_cases he : wk = xk ∧ (typed = true ∨ ¬ (w.sh.length = x.sh.length ∧ w.sh.drop wk = x.sh.drop wk ∧ shProd (w.sh.drop wk) ≠ 0))
        · rw [if_pos he]
          obtain ⟨e1, e2⟩ := same he.1
          obtain rfl := he.1
          rw [e1] at h0 ⊢
          rw [matchCells_eq bit ne hw hx e2 h0, aa_regular hw hx e2 h0 _ [] (fun i => .atom (bit (ne != ((cellAt w wk i).sh == (cellAt x wk i).sh && (cellAt w wk i).els == (cellAt x wk i).els)))) (fun _ _ => rfl) (fun _ _ => rfl)]
          rw [if_neg (by have := hx.le; have := hx.rank; simp; omega), List.append_nil]
          rfl
        · rw [if_neg he]
      | .couple, _, hs =>
        dsimp only
        by_cases he : wk = xk ∧ w.sh.length = x.sh.length ∧ w.sh.drop wk = x.sh.drop wk
        · rw [if_pos he]
          obtain ⟨e1, e2⟩ := same he.1
          have hd := he.2.2
          obtain rfl := he.1
          rw [e1] at h0
          have h1 := hx.arg h0
          obtain ⟨s1, s2⟩ := hs rfl
          rw [aa_regular hw hx e2 h0 _ (2 :: x.sh.drop wk) (fun i => .arr ⟨2 :: x.sh.drop wk, (cellAt w wk i).els ++ (cellAt x wk i).els⟩) (fun _ _ => rfl)
            (fun i hi => by
              show couple _ = _
              unfold couple
              dsimp only
              rw [show (Val.arr (cellAt w wk i)).sh = w.sh.drop wk from rfl, show (Val.arr (cellAt x wk i)).sh = x.sh.drop wk from rfl, hd, if_pos rfl]
              rfl)]
          unfold interleaveCells
          rw [if_neg (by omega), if_neg (by have := h1.split; rw [List.length_cons]; omega)]
          rw [joinCells_eq hw.sized hx.sized rfl h0 (by rw [e2]) (by rw [hd]) s1]
          rfl
        · rw [if_neg he]
      | .const v, hv, _ =>
        dsimp only
        have hlen : (longer (w.sh.take wk) (x.sh.take xk)).length = if decide (xk > wk) = true then xk else wk := by
          rw [hl]
          by_cases h : xk > wk
          · rw [if_pos h, decide_eq_true h, if_pos rfl, List.length_take]; have := hx.le; omega
          · rw [if_neg h, decide_eq_false h, List.length_take]; have := hw.le; simp only [Bool.false_eq_true, if_false]; omega
        have hne : longer (w.sh.take wk) (x.sh.take xk) ≠ [] := by
          intro e
          rw [e] at hlen
          have h1 := hw.pos
          have h2 := hx.pos
          by_cases h : xk > wk
          · rw [decide_eq_true h, if_pos rfl] at hlen; exact h2 hlen.symm
          · rw [decide_eq_false h] at hlen; exact h1 hlen.symm
        rw [regular2 fill _ (z := longer (w.sh.take wk) (x.sh.take xk)) rfl ha hne h0 v.sh (fun _ => v) (fun _ _ => rfl) (fun _ _ => rfl), hlen, ← hz]
        by_cases h : xk > wk
        · rw [decide_eq_true h]
          simp only [if_true]
          rw [constCells_eq (hv v rfl) hx.pos hx.le hx.rank]
        · rw [decide_eq_false h]
          simp only [Bool.false_eq_true, if_false]
          rw [constCells_eq (hv v rfl) hw.pos hw.le hw.rank]
      | .select .., _, _ => rfl
      | .pick .., _, _ => rfl
      | .shift .., _, _ => rfl
  · rw [if_pos hf]

end

end Verif.Known
