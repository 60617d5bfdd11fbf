import Verif.Insert.Cells
/-!
# Scan
-/
namespace Verif.Insert
open Verif.Cells (Arr Val Full cellAt Agree longer slice shProd shProd_small slice_cell merge prod_take_drop)
open Verif.Rotate (prod prod_append)
open Verif.Pervade (mapM_congr)
variable {E A B : Type} {m : Type → Type} {a : Arr E} {n : Nat} {t : List Nat}

theorem scanLoop_eq [Monad m] [LawfulMonad m] (f : E → E → m E) (x : List E) (c : Nat) (hc : 0 < c) :
    ∀ (k i : Nat) (r : List E), r.length = i → c ≤ i → i + k = x.length →
      scanLoop f x c k i r = (do let rs ← scanFrom f (r.drop (i - c)) (x.drop i); pure (some (r ++ rs))) := by
  intro k
  induction k with
  | zero =>
    intro i r hr hci hx
    rw [scanLoop, List.drop_of_length_le (show x.length ≤ i by omega)]
    cases r.drop (i - c) <;> simp [scanFrom]
  | succ k ih =>
    intro i r hr hci hx
    have hd : r.drop (i - c) = r[i-c] :: r.drop (i - c + 1) := List.drop_eq_getElem_cons (by omega)
    have hd' : x.drop i = x[i] :: x.drop (i + 1) := List.drop_eq_getElem_cons (by omega)
    rw [scanLoop, List.getElem?_eq_getElem (by omega), List.getElem?_eq_getElem (by omega), hd, hd', scanFrom]
    simp only [bind_assoc, pure_bind]
    congr 1
    funext v
    rw [ih (i+1) (r ++ [v]) (by simp [hr]) (by omega) (by omega)]
    rw [List.drop_append_of_le_length (by omega), show i + 1 - c = i - c + 1 by omega]
    simp

/-- The elements of a result, in the shape of the argument. -/
def shaped (sh : List Nat) (rs : List E) : Res (Arr E) := .ok ⟨sh, rs⟩

theorem scanFirst_eq [Monad m] [LawfulMonad m] (f : E → E → m E) (x : Arr E) (w : List E) (c : Nat) (hc : 0 < c) (hw : w.length = c) (hx : c ≤ x.els.length) :
    ∀ (k i : Nat) (r : List E), r.length = i → i + k = c →
      (do match ← scanFirst f w x.els k i r with
          | none => pure .undef
          | some r => pure (withShape x (← scanLoop f x.els c (x.els.length - c) c r)) : m (Res (Arr E))) =
      (do let rs ← scanFrom f (w.drop i ++ r) (x.els.drop i); pure (shaped x.sh (r ++ rs))) := by
  intro k
  induction k with
  | zero =>
    intro i r hr hi
    have : i = c := by omega
    subst this
    rw [scanFirst, pure_bind]
    dsimp only
    rw [scanLoop_eq f x.els i hc _ i r hr (Nat.le_refl _) (by omega), List.drop_of_length_le (show w.length ≤ i by omega), Nat.sub_self]
    simp [withShape, shaped]
  | succ k ih =>
    intro i r hr hi
    have hd : w.drop i = w[i] :: w.drop (i + 1) := List.drop_eq_getElem_cons (by omega)
    have hd' : x.els.drop i = x.els[i] :: x.els.drop (i + 1) := List.drop_eq_getElem_cons (by omega)
    rw [scanFirst, List.getElem?_eq_getElem (by omega), List.getElem?_eq_getElem (by omega), hd, hd', List.cons_append, scanFrom]
    simp only [bind_assoc, pure_bind]
    congr 1
    funext v
    have := ih (i+1) (r ++ [v]) (by simp [hr]) (by omega)
    rw [← List.append_assoc] at this
    rw [this]
    simp

/-- Elements in blocks of the size of a cell. -/
theorem scanFrom_block [Monad m] [LawfulMonad m] (f : E → E → m E) : ∀ (p q s rest : List E), p.length = s.length →
    scanFrom f (p ++ q) (s ++ rest) = (do let es ← zipM f p s; let rs ← scanFrom f (q ++ es) rest; pure (es ++ rs))
  | [], q, [], rest, _ => by simp [zipM]
  | [], q, y :: s, rest, h => by cases h
  | x :: p, q, [], rest, h => by cases h
  | x :: p, q, y :: s, rest, h => by
    rw [List.cons_append, List.cons_append, scanFrom, zip_cons]
    simp only [bind_assoc, pure_bind]
    congr 1
    funext v
    have := scanFrom_block f p (q ++ [v]) s rest (by simpa using h)
    rw [← List.append_assoc] at this
    rw [this]
    simp

def arithOut (n : Nat) : Option (List (Val E)) → Res (Arr E)
  | none => .undef
  | some rs => match merge [n] rs with
    | .ok a => .ok a
    | _ => .undef

theorem merge_rows {rs : List (Val E)} (h0 : rs ≠ []) (ht : ∀ v ∈ rs, v.sh = t) (hr : t.length + 1 ≤ 255) : merge [n] rs = .ok ⟨n :: t, rs.flatMap Val.els⟩ := by
  cases rs with
  | nil => exact absurd rfl h0
  | cons r rs =>
    unfold merge
    have e : r.sh = t := ht r (List.mem_cons_self ..)
    dsimp only
    rw [if_neg (by rw [e]; simp; omega), if_pos (by
      rw [List.all_eq_true]
      intro v hv
      rw [e, ht v (List.mem_cons_of_mem _ hv)]
      simp), e]
    rfl

theorem arithLoop_eq [Monad m] [LawfulMonad m] (f : E → E → m E) (h : Fits a) (hs : a.sh = n :: t) :
    ∀ (k j : Nat) (es : List E) (acc : List (Val E)), j + k = n → es.length = prod t → (acc ≠ [] ∨ 0 < k) → (∀ v ∈ acc, v.sh = t) →
      (arithOut n <$> arithLoop (pairUp f) a (prod t) k (j * prod t) (.arr ⟨t, es⟩) acc) =
        (do let rs ← scanFrom f es (a.els.drop (j * prod t)); pure (shaped (n :: t) (acc.flatMap Val.els ++ rs))) := by
  have hr : t.length + 1 ≤ 255 := by have := h.rank; rw [hs] at this; exact this
  have hl := h.count hs
  intro k
  induction k with
  | zero =>
    intro j es acc hj he h0 ha
    rw [arithLoop, map_pure, List.drop_of_length_le (by rw [hl, show j = n by omega]; exact Nat.le_refl _)]
    have : acc ≠ [] := by
      rcases h0 with h0 | h0
      · exact h0
      · omega
    rw [show arithOut n (some acc) = shaped (n :: t) (acc.flatMap Val.els) by unfold arithOut; dsimp only; rw [merge_rows this ha hr]; rfl]
    cases es <;> simp [scanFrom]
  | succ k ih =>
    intro j es acc hj he h0 ha
    have e : (j+1) * prod t = j * prod t + prod t := Nat.succ_mul ..
    have hcell := cell_len h hs (show j < n by omega)
    rw [arithLoop, cellFrom_eq h hs (by omega), cellAt_eq hs]
    dsimp only
    rw [pairUp_same f t _ _ he hcell]
    have hsplit : a.els.drop (j * prod t) = (a.els.drop (j * prod t)).take (prod t) ++ a.els.drop ((j+1) * prod t) := by
      rw [e, ← List.drop_drop, List.take_append_drop]
    have hb := scanFrom_block f es [] ((a.els.drop (j * prod t)).take (prod t)) (a.els.drop ((j+1) * prod t)) (by rw [he, hcell])
    rw [List.append_nil, ← hsplit] at hb
    rw [hb]
    simp only [bind_assoc, pure_bind, map_bind, List.nil_append]
    apply mapM_bind_congr
    intro es' hes
    have := ih (j+1) es' (acc ++ [.arr ⟨t, es'⟩]) (by omega) (by rw [hes, List.length_zip, he, hcell, Nat.min_self]) (Or.inl (by simp)) (by
      intro v hv
      rcases List.mem_append.1 hv with hv | hv
      · exact ha v hv
      · rw [List.mem_singleton.1 hv]; rfl)
    rw [← e, this]
    congr 1
    funext rs
    simp [Val.els]

theorem scanArith_some [Monad m] [LawfulMonad m] (f : E → E → m E) (h : Fits a) (hs : a.sh = n :: t) (hn : 0 < n) (es : List E) (he : es.length = prod t) :
    scanArith (pairUp f) (some (.arr ⟨t, es⟩)) a = (do let rs ← scanFrom f es a.els; pure (shaped a.sh rs)) := by
  have := arithLoop_eq f h hs n 0 es [] (by omega) he (Or.inr hn) (by intro v hv; cases hv)
  rw [Nat.zero_mul, List.drop_zero] at this
  unfold scanArith
  dsimp only
  rw [h.csz hs, show a.sh.head! = n by rw [hs]; rfl, hs]
  simp only [List.flatMap_nil, List.nil_append] at this
  rw [← this, map_eq_pure_bind]
  congr 1
  funext o
  cases o with
  | none => rfl
  | some rs =>
    unfold arithOut
    dsimp only
    cases merge [n] rs <;> rfl

theorem scanArith_none [Monad m] [LawfulMonad m] (f : E → E → m E) (h : Fits a) (hs : a.sh = (n+1) :: t) :
    scanArith (pairUp f) none a = (do let rs ← scanFrom f (a.els.take (prod t)) (a.els.drop (prod t)); pure (shaped a.sh (a.els.take (prod t) ++ rs))) := by
  have hcell := cell_len h hs (show 0 < n + 1 by omega)
  rw [Nat.zero_mul, List.drop_zero] at hcell
  have := arithLoop_eq f h hs n 1 (a.els.take (prod t)) [.arr ⟨t, a.els.take (prod t)⟩] (by omega) hcell (Or.inl (by simp)) (by
    intro v hv
    rw [List.mem_singleton.1 hv]; rfl)
  rw [Nat.one_mul] at this
  unfold scanArith
  dsimp only
  have hc0 := cellFrom_eq h hs (show 0 < n + 1 by omega)
  rw [Nat.zero_mul, cellAt_eq hs, Nat.zero_mul, List.drop_zero] at hc0
  rw [h.csz hs, show a.sh.head! = n+1 by rw [hs]; rfl, hs, hc0]
  dsimp only
  rw [show n + 1 - 1 = n from rfl]
  simp only [List.flatMap_cons, List.flatMap_nil, List.append_nil, Val.els] at this
  rw [← this, map_eq_pure_bind]
  congr 1
  funext o
  cases o with
  | none => rfl
  | some rs =>
    unfold arithOut
    dsimp only
    cases merge [n+1] rs <;> rfl

/-! ## Tacks and constants -/

theorem scanFrom_right [Monad m] [LawfulMonad m] : ∀ (xs w : List E), scanFrom (fun _ b => (pure b : m E)) w xs = pure xs
  | [], w => by cases w <;> rfl
  | x :: xs, [] => by rw [scanFrom, scanFrom_right xs []]; simp
  | x :: xs, p :: w => by rw [scanFrom, pure_bind, scanFrom_right xs (w ++ [x])]; simp

theorem scanFrom_const [Monad m] [LawfulMonad m] (v : E) : ∀ (xs w : List E), w ≠ [] → scanFrom (fun _ _ => (pure v : m E)) w xs = pure (List.replicate xs.length v)
  | [], w, _ => by cases w <;> rfl
  | x :: xs, [], h => absurd rfl h
  | x :: xs, p :: w, _ => by
    rw [scanFrom, pure_bind, scanFrom_const v xs (w ++ [v]) (by simp)]
    simp [List.replicate_succ]

/-- The elements of `s`, again and again. -/
def rounds (s : List E) (k : Nat) : List E := (List.range k).filterMap fun i => s[i % s.length]?

theorem rounds_eq {s : List E} (h : 0 < s.length) (k : Nat) : rounds s k = (List.range k).map fun i => s[i % s.length]'(Nat.mod_lt _ h) := by
  unfold rounds
  rw [← List.filterMap_eq_map]
  congr 1
  funext i
  rw [List.getElem?_eq_getElem (Nat.mod_lt _ h)]
  rfl

theorem cycle_eq {s : List E} (h : 0 < s.length) (k : Nat) : cycle k s = some (rounds s k) := by
  rw [rounds_eq h]
  unfold cycle
  induction List.range k with
  | nil => rfl
  | cons i l ih => rw [List.mapM_cons, ih, List.getElem?_eq_getElem (Nat.mod_lt _ h)]; rfl

theorem rounds_cons (p : E) (w : List E) (k : Nat) : rounds (p :: w) (k+1) = p :: rounds (w ++ [p]) k := by
  rw [rounds_eq (by simp), rounds_eq (by simp), List.range_succ_eq_map, List.map_cons, List.map_map]
  congr 1
  apply List.map_congr_left
  intro i _
  simp only [Function.comp, List.length_cons, List.length_append, List.length_nil]
  rw [List.getElem_append]
  have hlt := Nat.mod_lt i (show w.length + 1 > 0 by omega)
  have hs : (i.succ) % (w.length + 1) = if i % (w.length + 1) = w.length then 0 else i % (w.length + 1) + 1 := by
    rw [Nat.succ_eq_add_one, Nat.add_mod]
    by_cases hw : w.length = 0
    · rw [if_pos (by rw [hw, Nat.mod_one]), hw]; simp [Nat.mod_one]
    · rw [Nat.mod_eq_of_lt (show 1 < w.length + 1 by omega)]
      by_cases he : i % (w.length + 1) = w.length
      · rw [if_pos he, he, Nat.mod_self]
      · rw [if_neg he, Nat.mod_eq_of_lt (by omega)]
  by_cases he : i % (w.length + 1) = w.length
  · rw [dif_neg (by simp; omega)]
    rw [if_pos he] at hs
    simp [hs]
  · rw [dif_pos (by simp; omega)]
    rw [if_neg he] at hs
    simp [hs]

theorem scanFrom_left [Monad m] [LawfulMonad m] : ∀ (xs w : List E), w ≠ [] → scanFrom (fun a _ => (pure a : m E)) w xs = pure (rounds w xs.length)
  | [], w, _ => by cases w <;> rfl
  | x :: xs, [], h => absurd rfl h
  | x :: xs, p :: w, _ => by
    rw [scanFrom, pure_bind, scanFrom_left xs (w ++ [p]) (by simp), List.length_cons, rounds_cons]
    simp

theorem rounds_add {s : List E} (h : 0 < s.length) (k : Nat) : rounds s (s.length + k) = s ++ rounds s k := by
  rw [rounds_eq h, rounds_eq h, List.range_add, List.map_append, List.map_map]
  congr 1
  · apply List.ext_getElem
    · simp
    · intro i h1 h2
      simp [Nat.mod_eq_of_lt h2]
  · apply List.map_congr_left
    intro i _
    simp

/-! ## Scan -/

theorem arrCsz_eq (h : Fits a) (hs : a.sh = n :: t) : arrCsz a = prod t := by
  unfold arrCsz
  cases t with
  | nil => rw [if_pos (by rw [hs]; simp)]; rfl
  | cons q u => rw [if_neg (by rw [hs]; simp), h.csz hs]

theorem scanBase_eq [Monad m] [LawfulMonad m] (f : E → E → m E) (h : Fits a) (hs : a.sh = n :: t) (hn : 2 ≤ n) (hp : prod t ≠ 0) :
    scanBase f a = (do let rs ← scanFrom f (a.els.take (prod t)) (a.els.drop (prod t)); pure (shaped a.sh (a.els.take (prod t) ++ rs))) := by
  have hc := h.count hs
  have hle : prod t ≤ a.els.length := by
    rw [hc]
    have := Nat.mul_le_mul_right (prod t) (show 1 ≤ n by omega)
    omega
  have main : ∀ c, c = prod t → (do pure (withShape a (← scanLoop f a.els c (a.els.length - c) c (a.els.take c))) : m (Res (Arr E))) =
      (do let rs ← scanFrom f (a.els.take (prod t)) (a.els.drop (prod t)); pure (shaped a.sh (a.els.take (prod t) ++ rs))) := by
    intro c hcc
    subst hcc
    rw [scanLoop_eq f a.els (prod t) (by omega) _ (prod t) _ (by rw [List.length_take]; omega) (Nat.le_refl _) (by omega), Nat.sub_self, List.drop_zero]
    simp [withShape, shaped]
  unfold scanBase
  dsimp only
  by_cases h1 : a.els.length = a.sh.head!
  · rw [if_pos h1]
    apply main 1
    rw [hc, hs] at h1
    exact (Nat.eq_of_mul_eq_mul_left (show 0 < n by omega) ((show n * prod t = n from h1).trans (Nat.mul_one _).symm)).symm
  · rw [if_neg h1]
    exact main _ (arrCsz_eq h hs)

theorem cScan1_eq [Monad m] [LawfulMonad m] (op : Op m E) (x : Val E) (hx : ∀ a, x = .arr a → Fits a) : cScan1 op x = scan1 op x := by
  cases x with
  | atom e => rfl
  | arr a =>
    have h := hx a rfl
    unfold scan1
    dsimp only
    match hs : a.sh with
    | [] =>
      have : a.els.length = 1 := by rw [h.full, hs]; rfl
      unfold cScan1
      dsimp only
      rw [if_pos (by omega), if_pos ⟨this, by rw [hs]; rfl⟩]
    | n :: t =>
      have hc := h.count hs
      dsimp only
      by_cases h0 : n ≤ 1 ∨ prod t = 0
      · rw [if_pos h0]
        unfold cScan1
        dsimp only
        by_cases h1 : a.els.length ≤ 1
        · rw [if_pos h1, if_neg (by rw [hs]; simp)]
        · rw [if_neg h1, if_pos]
          rw [hs]
          show n ≤ 1
          rcases h0 with h0 | h0
          · exact h0
          · rw [hc, h0] at h1
            simp at h1
      · rw [if_neg h0]
        have hn : 2 ≤ n := by omega
        have hp : prod t ≠ 0 := by omega
        have hle : n * 1 ≤ a.els.length := by rw [hc]; exact Nat.mul_le_mul_left _ (by omega)
        have hle' : prod t ≤ a.els.length := by
          rw [hc]
          have := Nat.mul_le_mul_right (prod t) (show 1 ≤ n by omega)
          omega
        have ht : (a.els.take (prod t)).length = prod t := by rw [List.length_take]; omega
        have htn : a.els.take (prod t) ≠ [] := by intro e; rw [e] at ht; exact hp ht.symm
        have hhd : a.sh.head! = n := by rw [hs]; rfl
        unfold cScan1
        dsimp only
        rw [if_neg (by omega), if_neg (by rw [hhd]; omega), hhd, arrCsz_eq h hs, hs]
        cases op with
        | const v =>
          dsimp only [Op.isMd]
          rw [show Op.run (.const v) = fun (_ _ : E) => (pure v : m E) from rfl, scanFrom_const v _ _ htn]
          simp
        | md => rfl
        | rtack =>
          dsimp only [Op.isMd]
          rw [show Op.run (.rtack) = fun (_ b : E) => (pure b : m E) from rfl, scanFrom_right]
          obtain ⟨sh, els⟩ := a
          cases hs
          simp
        | ltack =>
          dsimp only [Op.isMd]
          rw [show Op.run (.ltack) = fun (a _ : E) => (pure a : m E) from rfl, scanFrom_left _ _ htn, cycle_eq (by omega)]
          have := rounds_add (s := a.els.take (prod t)) (by omega) (a.els.length - prod t)
          rw [ht, show prod t + (a.els.length - prod t) = a.els.length by omega] at this
          rw [this]
          simp [withShape, hs]
        | fn f i =>
          dsimp only [Op.isMd]
          rw [scanBase_eq f h hs hn hp, hs]
          rfl
        | perv f i =>
          dsimp only [Op.isMd]
          obtain ⟨n, rfl⟩ : ∃ k, n = k + 1 := ⟨n - 1, by omega⟩
          rw [scanArith_none f h hs, scanBase_eq f h hs hn hp, hs]
          split <;> rfl

theorem scanBase2_eq [Monad m] [LawfulMonad m] (f : E → E → m E) (w : Val E) (hw : FullV w) (h : Fits a) (hs : a.sh = n :: t) (hwt : w.sh = t) (h0 : a.els ≠ []) :
    scanBase2 f w a = (do let rs ← scanFrom f w.els a.els; pure (shaped a.sh rs)) := by
  have hc := h.count hs
  have hpos : 0 < a.els.length := List.length_pos_iff.2 h0
  have hp : prod t ≠ 0 := by intro e; rw [e] at hc; omega
  have hn : n ≠ 0 := by intro e; rw [e, Nat.zero_mul] at hc; omega
  have hle : prod t ≤ a.els.length := by
    rw [hc]
    have := Nat.mul_le_mul_right (prod t) (show 1 ≤ n by omega)
    omega
  cases w with
  | arr b =>
    unfold scanBase2
    dsimp only
    rw [arrCsz_eq h hs]
    refine (scanFirst_eq f a b.els (prod t) (by omega) (by rw [show b.els.length = prod b.sh from hw, show b.sh = t from hwt]) hle (prod t) 0 [] rfl (by omega)).trans ?_
    simp [Val.els]
  | atom e =>
    have : t = [] := hwt.symm
    subst this
    unfold scanBase2
    dsimp only
    cases hx : a.els with
    | nil => exact absurd hx h0
    | cons x0 xs =>
      dsimp only [List.getElem?_cons_zero]
      rw [show (Val.atom e : Val E).els = [e] from rfl, scanFrom]
      simp only [bind_assoc, pure_bind]
      congr 1
      funext v
      rw [scanLoop_eq f (x0 :: xs) 1 (by omega) _ 1 [v] rfl (Nat.le_refl _) (by simp; omega)]
      simp [withShape, shaped]

theorem cScan2_eq [Monad m] [LawfulMonad m] (op : Op m E) (w x : Val E) (hw : FullV w) (hx : ∀ a, x = .arr a → Fits a) : cScan2 op w x = scan2 op w x := by
  cases x with
  | atom e => rfl
  | arr a =>
    have h := hx a rfl
    unfold scan2
    dsimp only
    match hs : a.sh with
    | [] =>
      unfold cScan2
      dsimp only
      rw [if_pos (by rw [hs]; rfl)]
    | n :: t =>
      have hc := h.count hs
      dsimp only
      have hbad : unlike w a = decide (w.sh ≠ t) := by
        unfold unlike
        cases w with
        | arr b => dsimp only; rw [hs]; rfl
        | atom e =>
          dsimp only
          rw [hs]
          cases t <;> simp [Val.sh]
      unfold cScan2
      dsimp only
      rw [if_neg (by rw [hs]; simp), hbad]
      by_cases hwt : w.sh ≠ t
      · rw [if_pos (by simpa using hwt), if_pos hwt]
      · rw [if_neg (by simpa using hwt), if_neg hwt]
        have hwt' : w.sh = t := Decidable.of_not_not hwt
        by_cases h0 : a.els = []
        · rw [if_pos (by rw [h0]; rfl), if_pos h0]
        · rw [if_neg (by simpa using h0), if_neg h0]
          have hpos : 0 < a.els.length := List.length_pos_iff.2 h0
          have hp : prod t ≠ 0 := by intro e; rw [e] at hc; omega
          have hn : n ≠ 0 := by intro e; rw [e, Nat.zero_mul] at hc; omega
          have hwl : w.els.length = prod t := by rw [show w.els.length = prod w.sh from hw, hwt']
          have hwn : w.els ≠ [] := by intro e; rw [e] at hwl; exact hp hwl.symm
          rw [hs]
          cases op with
          | const v =>
            dsimp only [Op.isMd]
            rw [show Op.run (.const v) = fun (_ _ : E) => (pure v : m E) from rfl, scanFrom_const v _ _ hwn]
            simp
          | md => rfl
          | rtack =>
            dsimp only [Op.isMd]
            rw [show Op.run (.rtack) = fun (_ b : E) => (pure b : m E) from rfl, scanFrom_right]
            obtain ⟨sh, els⟩ := a
            cases hs
            simp
          | ltack =>
            dsimp only [Op.isMd]
            rw [show Op.run (.ltack) = fun (a _ : E) => (pure a : m E) from rfl, scanFrom_left _ _ hwn, cycle_eq (by omega)]
            simp [withShape, hs]
          | fn f i =>
            dsimp only [Op.isMd]
            rw [scanBase2_eq f w hw h hs hwt' h0, hs]
            rfl
          | perv f i =>
            dsimp only [Op.isMd]
            rw [scanBase2_eq f w hw h hs hwt' h0]
            by_cases h1 : (n :: t).length > 1 ∧ a.els.length ≥ 6 * (n :: t).head!
            · rw [if_pos h1]
              cases w with
              | atom e =>
                have : t = [] := hwt'.symm
                subst this
                simp at h1
              | arr b =>
                obtain ⟨bsh, bels⟩ := b
                have : bsh = t := hwt'
                subst this
                rw [scanArith_some f h hs (by omega) bels hwl, hs]
                rfl
            · rw [if_neg h1, hs]
              rfl

end Verif.Insert
