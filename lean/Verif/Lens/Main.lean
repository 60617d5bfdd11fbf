import Verif.Lens.Basic
/-!
# Under: each function
-/
namespace Verif.Lens
open Verif.Rotate
open Verif.Table (T)
open Verif.Pick (Ix IsIndex Position)
variable {A : Type} {m : Type → Type} [Monad m] [LawfulMonad m] {C : Ctx m A}

/-- `run` calls its operand with what is seen of `x`, and then gives what sees the result, keeping the rest of `x`. -/
def Act (C : Ctx m A) (run : (T A → m (T A)) → m (T A)) (sees kept : T A → T A → Prop) (x : T A) : Prop :=
  (∀ v, sees x v → Ok v ∧ ∃ k : T A → m (T A), (∀ F, run F = F v >>= k) ∧
    ∀ rep, Ok rep → (∀ r, sees r rep → kept x r → k rep = pure r ∧ Ok r) ∧ ((¬ ∃ r, sees r rep ∧ kept x r) → k rep = C.fail _)) ∧
  ((¬ ∃ v, sees x v) → ∀ F, run F = C.fail _)

def orFail (C : Ctx m A) : Option (T A) → m (T A)
  | some r => pure r
  | none => C.fail _

theorem act_some {run : (T A → m (T A)) → m (T A)} {sees kept : T A → T A → Prop} {x v0 : T A} (hs : ∀ v, sees x v ↔ v = v0) (hok : Ok v0) (k : T A → m (T A)) (g : T A → Option (T A))
    (hrun : ∀ F, run F = F v0 >>= k) (hk : ∀ rep, Ok rep → k rep = orFail C (g rep)) (hr : ∀ rep r, Ok rep → ((sees r rep ∧ kept x r) ↔ g rep = some r))
    (hok' : ∀ rep r, Ok rep → g rep = some r → Ok r) : Act C run sees kept x := by
  constructor
  · intro v hv
    rw [(hs v).1 hv]
    refine ⟨hok, k, hrun, fun rep hrep => ⟨fun r h1 h2 => ?_, fun hn => ?_⟩⟩
    · have h := (hr rep r hrep).1 ⟨h1, h2⟩
      rw [hk rep hrep, h]
      exact ⟨rfl, hok' rep r hrep h⟩
    · rw [hk rep hrep]
      cases h : g rep with
      | none => rfl
      | some r => exact absurd ⟨r, (hr rep r hrep).2 h⟩ hn
  · intro hn
    exact absurd ⟨v0, (hs v0).2 rfl⟩ hn

theorem act_none {run : (T A → m (T A)) → m (T A)} {sees kept : T A → T A → Prop} {x : T A} (hn : ¬ ∃ v, sees x v) (hrun : ∀ F, run F = C.fail _) : Act C run sees kept x :=
  ⟨fun v hv => absurd ⟨v, hv⟩ hn, fun _ => hrun⟩

theorem mem_take_drop {xs : List (T A)} {a b : Nat} {e : T A} (h : e ∈ (xs.drop a).take b) : e ∈ xs := List.mem_of_mem_drop (List.mem_of_mem_take h)

/-- A part of elements next to each other. -/
theorem act_range {run : (T A → m (T A)) → m (T A)} {sees kept : T A → T A → Prop} {x : T A} {sh vsh : List Nat} {xs : List (T A)} {s l : Nat} (hs : s + l ≤ xs.length) (hx : Ok (.arr sh xs))
    (hf : Fits vsh) (hl : prod vsh = l) (hsees : ∀ v, sees x v ↔ Shows (.arr sh xs) (.many vsh (List.range' s l)) v)
    (hrep : ∀ rep r, (sees r rep ∧ kept x r) ↔ (Shows r (.many vsh (List.range' s l)) rep ∧ Others (.many vsh (List.range' s l)) (.arr sh xs) r)) (k : T A → m (T A))
    (hrun : ∀ F, run F = F (.arr vsh ((xs.drop s).take l)) >>= k) (hk1 : ∀ a, k (.atom a) = C.fail _) (hk2 : ∀ rsh rs, rsh ≠ vsh → Ok (.arr rsh rs) → k (.arr rsh rs) = C.fail _)
    (hk3 : ∀ rs, rs.length = l → Ok (.arr vsh rs) → k (.arr vsh rs) = pure (.arr sh (xs.take s ++ rs ++ xs.drop (s + l)))) : Act C run sees kept x := by
  refine act_some (v0 := .arr vsh ((xs.drop s).take l)) (fun v => by rw [hsees, shows_range hs]) ?_ k
    (fun rep => match rep with | .atom _ => none | .arr rsh rs => if rsh = vsh then some (.arr sh (xs.take s ++ rs ++ xs.drop (s + l))) else none) hrun ?_ ?_ ?_
  · exact ok_of_fits hf (by rw [List.length_take, List.length_drop, hl]; omega) fun e he => ok_els hx e (mem_take_drop he)
  · intro rep hok
    cases rep with
    | atom a => exact hk1 a
    | arr rsh rs =>
      dsimp only
      by_cases h : rsh = vsh
      · subst h
        rw [if_pos rfl]
        exact hk3 rs (by rw [ok_full hok, hl]) hok
      · rw [if_neg h]
        exact hk2 rsh rs h hok
  · intro rep r hok
    rw [hrep, range_replace hs]
    cases rep with
    | atom a =>
      constructor
      · rintro ⟨rs, h, _⟩; cases h
      · intro h; cases h
    | arr rsh rs =>
      dsimp only
      constructor
      · rintro ⟨rs', h1, h2, rfl⟩
        cases h1
        rw [if_pos rfl]
      · intro h
        by_cases e : rsh = vsh
        · subst e
          rw [if_pos rfl] at h
          cases h
          exact ⟨rs, rfl, by rw [ok_full hok, hl], rfl⟩
        · rw [if_neg e] at h; cases h
  · intro rep r hok h
    cases rep with
    | atom a => cases h
    | arr rsh rs =>
      dsimp only at h
      by_cases e : rsh = vsh
      · subst e
        rw [if_pos rfl] at h
        cases h
        refine ok_same hx ?_ fun e he => ?_
        · have := ok_full hok
          rw [List.length_append, List.length_append, List.length_take, List.length_drop]; omega
        · rcases List.mem_append.1 he with he | he
          · rcases List.mem_append.1 he with he | he
            · exact ok_els hx e (List.mem_of_mem_take he)
            · exact ok_els hok e he
          · exact ok_els hx e (List.mem_of_mem_drop he)
      · rw [if_neg e] at h; cases h

theorem copied_eq (hC : C.Lawful) {k : C.S.K} {xs : List (T A)} (h : ∀ e ∈ xs, C.S.can k e = true) : copied C.S k xs = xs := by
  unfold copied
  rw [List.map_congr_left (g := id) fun e he => hC.store_eq k e (h e he), List.map_id]

/-- An element. -/
theorem act_one (hC : C.Lawful) {run : (T A → m (T A)) → m (T A)} {sees kept : T A → T A → Prop} {x : T A} {sh : List Nat} {xs : List (T A)} {p : Nat} (hp : p < xs.length) (hx : Ok (.arr sh xs))
    (hsees : ∀ v, sees x v ↔ Shows (.arr sh xs) (.one p) v) (hrep : ∀ rep r, (sees r rep ∧ kept x r) ↔ (Shows r (.one p) rep ∧ Others (.one p) (.arr sh xs) r))
    (hrun : ∀ F, run F = replaceOne C F p sh xs) : Act C run sees kept x := by
  have hget : xs[p]? = some xs[p] := List.getElem?_eq_getElem hp
  refine act_some (v0 := xs[p]) (fun v => ?_) (ok_els hx _ (List.getElem_mem hp)) (fun rep =>
    if C.S.boxed (C.S.kind (.arr sh xs)) then pure (.arr sh (xs.set p rep))
    else if C.S.reusable (.arr sh xs) && C.S.can (C.S.kind (.arr sh xs)) rep then pure (.arr sh (xs.set p (C.S.store (C.S.kind (.arr sh xs)) rep)))
    else
      pure (.arr sh (copied C.S (C.S.or (C.S.kind (.arr sh xs)) (C.S.self rep)) (xs.take p) ++ C.S.store (C.S.or (C.S.kind (.arr sh xs)) (C.S.self rep)) rep :: copied C.S (C.S.or (C.S.kind (.arr sh xs)) (C.S.self rep)) (xs.drop (p + 1)))))
    (fun rep => some (.arr sh (xs.set p rep))) ?_ ?_ ?_ ?_
  · rw [hsees]
    show xs[p]? = some v ↔ _
    rw [hget]
    exact ⟨fun h => by injection h with h; exact h.symm, fun h => by rw [h]⟩
  · intro F
    rw [hrun]
    unfold replaceOne
    rw [hget]
  · intro rep _
    by_cases h1 : C.S.boxed (C.S.kind (.arr sh xs)) = true
    · rw [if_pos h1]; rfl
    · rw [if_neg h1]
      by_cases h2 : (C.S.reusable (.arr sh xs) && C.S.can (C.S.kind (.arr sh xs)) rep) = true
      · rw [if_pos h2, hC.store_eq _ _ (by simp at h2; exact h2.2)]; rfl
      · rw [if_neg h2, hC.store_eq _ _ (hC.or_right _ _ _ (hC.self_can rep)), copied_eq hC (xs := xs.take p) fun e he => hC.or_left _ _ _ (hC.kind_can (.arr sh xs) e (List.mem_of_mem_take he)),
          copied_eq hC (xs := xs.drop (p + 1)) fun e he => hC.or_left _ _ _ (hC.kind_can (.arr sh xs) e (List.mem_of_mem_drop he))]
        rw [List.set_eq_take_append_cons_drop, if_pos hp]
        rfl
  · intro rep r _
    rw [hrep, one_replace hp]
    exact ⟨fun h => by rw [h], fun h => by injection h with h; exact h.symm⟩
  · intro rep r hok h
    cases h
    refine ok_same hx (List.length_set ..) fun e he => ?_
    rcases List.mem_or_eq_of_mem_set he with h | h
    · exact ok_els hx e h
    · rw [h]; exact hok

/-! ## Monadic functions -/

theorem act_tack (x : T A) (hx : Ok x) : Act C (fun F => prim1 C F .tack x) (Sees1 .tack) (Kept1 .tack) x :=
  act_some (v0 := x) (fun _ => Iff.rfl) hx pure some (fun F => (bind_pure (F x)).symm) (fun _ _ => rfl)
    (fun rep r _ => ⟨fun h => congrArg some h.1, fun h => ⟨by cases h; rfl, trivial⟩⟩) (fun rep r h e => by cases e; exact h)

theorem act_first (hC : C.Lawful) (x : T A) (hx : Ok x) (hn : Native1 .first x) : Act C (fun F => prim1 C F .first x) (Sees1 .first) (Kept1 .first) x := by
  cases x with
  | atom a => cases hn.1
  | arr sh xs =>
    have hne : xs ≠ [] := hn.2
    have hp : 0 < xs.length := List.length_pos_iff.2 hne
    refine act_one hC hp hx (fun v => ?_) (fun rep r => ?_) fun F => ?_
    · constructor
      · rintro ⟨w, h, h'⟩; cases h; exact h'
      · intro h; exact ⟨_, .first, h⟩
    · constructor
      · rintro ⟨⟨w, h, h'⟩, ⟨w', h2, h2'⟩⟩; cases h; cases h2; exact ⟨h', h2'⟩
      · rintro ⟨h, h'⟩; exact ⟨⟨_, .first, h⟩, ⟨_, .first, h'⟩⟩
    · show (if xs.length = 0 then _ else _) = _
      rw [if_neg (by omega)]

theorem prod_one (n : Nat) : prod [n] = n := Nat.mul_one n

theorem fits_one {n : Nat} (h : n < 2^32) : Fits [n] := ⟨by rw [prod_one]; exact h, by simpa using h, by simp⟩

theorem deshape_sees {sh : List Nat} {xs : List (T A)} {v : T A} : Sees1 .deshape (.arr sh xs) v ↔ Shows (.arr sh xs) (.many [prod sh] (List.range' 0 (prod sh))) v := by
  constructor
  · rintro ⟨w, h, h'⟩; cases h; rw [List.range_eq_range'] at h'; exact h'
  · intro h; exact ⟨_, .deshape, by rw [List.range_eq_range']; exact h⟩

theorem deshape_kept {sh : List Nat} {xs : List (T A)} {x r : T A} (hx : unitOf x = .arr sh xs) : Kept1 .deshape x r ↔ Others (.many [prod sh] (List.range' 0 (prod sh))) (.arr sh xs) r := by
  have hs : x.sh = sh := by
    cases x with
    | atom a => cases hx; rfl
    | arr sh' xs' => cases hx; rfl
  constructor
  · rintro ⟨w, h, h'⟩
    cases h
    rw [hx, hs, List.range_eq_range'] at h'
    exact h'
  · intro h
    refine ⟨_, .deshape, ?_⟩
    rw [hx, hs, List.range_eq_range']
    exact h

theorem others_sh {w : View} {sh : List Nat} {xs : List (T A)} {r : T A} (h : Others w (.arr sh xs) r) : ∃ rs, r = .arr sh rs := by
  obtain ⟨rs, rfl, _⟩ := h
  exact ⟨rs, rfl⟩

theorem act_deshape (x : T A) (hx : Ok x) : Act C (fun F => prim1 C F .deshape x) (Sees1 .deshape) (Kept1 .deshape) x := by
  have hrep : ∀ {sh xs} (h : unitOf x = .arr sh xs) rep r, (Sees1 .deshape r rep ∧ Kept1 .deshape x r) ↔
      (Shows r (.many [prod sh] (List.range' 0 (prod sh))) rep ∧ Others (.many [prod sh] (List.range' 0 (prod sh))) (.arr sh xs) r) := by
    intro sh xs h rep r
    rw [deshape_kept h]
    constructor
    · rintro ⟨h1, h2⟩
      obtain ⟨rs, rfl⟩ := others_sh h2
      exact ⟨deshape_sees.1 h1, h2⟩
    · rintro ⟨h1, h2⟩
      obtain ⟨rs, rfl⟩ := others_sh h2
      exact ⟨deshape_sees.2 h1, h2⟩
  have htest : ∀ (n : Nat) (rsh : List Nat) (rs : List (T A)), rsh ≠ [n] → Ok (.arr rsh rs) → (rsh.length ≠ 1 ∨ rs.length ≠ n) := by
    intro n rsh rs h hok
    by_cases h1 : rsh.length = 1
    · obtain ⟨k, rfl⟩ := List.length_eq_one_iff.1 h1
      refine .inr fun h2 => h ?_
      rw [ok_full hok, prod_one] at h2
      rw [h2]
    · exact .inl h1
  cases x with
  | atom a =>
    have hu : Ok (.arr [] [.atom a] : T A) := ok_of_fits ⟨by decide, by simp, by decide⟩ rfl (by simpa using hx)
    refine act_range (sh := []) (vsh := [1]) (s := 0) (l := 1) (xs := [.atom a]) (by simp) hu (fits_one (by decide)) rfl (fun v => ?_) (hrep rfl) (fun r => shapeT C 1 r fun rs => pure (.arr [] (rs.take 1)))
      (fun F => rfl) (fun _ => rfl) (fun rsh rs h hok => ?_) fun rs hl hok => ?_
    · constructor
      · rintro ⟨w, h, h'⟩; cases h; exact h'
      · intro h; exact ⟨_, .deshape, h⟩
    · show (if _ then _ else _) = _
      rw [if_pos (htest 1 rsh rs h hok)]
    · show (if _ then _ else _) = _
      rw [if_neg (by simp [hl])]
      rw [List.take_of_length_le (by omega)]
      simp
  | arr sh xs =>
    have hl := ok_full hx
    have hend : ∀ rs : List (T A), xs.take 0 ++ rs ++ xs.drop (0 + prod sh) = rs := by
      intro rs
      rw [List.drop_eq_nil_of_le (by omega)]; simp
    by_cases h0 : sh.length = 0
    · refine act_range (sh := sh) (vsh := [prod sh]) (s := 0) (l := prod sh) (xs := xs) (by omega) hx (fits_one (ok_fits hx).1) (prod_one _) (fun v => deshape_sees) (hrep rfl)
        (fun r => shapeT C xs.length r fun rs => pure (.arr [] (rs.take 1))) (fun F => ?_) (fun _ => rfl) (fun rsh rs h hok => ?_) fun rs hrl hok => ?_
      · show (if sh.length = 0 then _ else _) = _
        rw [if_pos h0, List.drop_zero, List.take_of_length_le (by omega), hl]
      · show (if _ then _ else _) = _
        rw [if_pos (htest _ rsh rs (by rw [hl]; exact h) hok)]
      · show (if _ then _ else _) = _
        cases List.eq_nil_of_length_eq_zero h0
        rw [if_neg (by simp [hrl, hl]), hend, List.take_of_length_le (by rw [hrl]; exact Nat.le_refl _)]
    · by_cases h1 : sh.length = 1
      · obtain ⟨n, rfl⟩ := List.length_eq_one_iff.1 h1
        refine act_range (sh := [n]) (vsh := [prod [n]]) (s := 0) (l := prod [n]) (xs := xs) (by omega) hx (fits_one (ok_fits hx).1) (prod_one _) (fun v => deshape_sees) (hrep rfl)
          (fun r => shapeT C xs.length r fun rs => pure (.arr [xs.length] rs)) (fun F => ?_) (fun _ => rfl) (fun rsh rs h hok => ?_) fun rs hrl hok => ?_
        · show shape1 C F (.arr [n] xs) = _
          unfold shape1
          dsimp only
          rw [if_neg (by simp), if_pos (by simp), List.drop_zero, List.take_of_length_le (by omega), prod_one]
        · show (if _ then _ else _) = _
          rw [if_pos (htest _ rsh rs (by rw [hl]; exact h) hok)]
        · show (if _ then _ else _) = _
          rw [if_neg (by simp [hrl, hl]), hend, hl, prod_one]
      · refine act_range (sh := sh) (vsh := [prod sh]) (s := 0) (l := prod sh) (xs := xs) (by omega) hx (fits_one (ok_fits hx).1) (prod_one _) (fun v => deshape_sees) (hrep rfl)
          (fun r => shapeT C xs.length r fun rs => pure (.arr sh (rs.take xs.length))) (fun F => ?_) (fun _ => rfl) (fun rsh rs h hok => ?_) fun rs hrl hok => ?_
        · show (if sh.length = 0 then _ else _) = _
          rw [if_neg h0, if_neg h1, List.drop_zero, List.take_of_length_le (by omega), hl]
        · show (if _ then _ else _) = _
          rw [if_pos (htest _ rsh rs (by rw [hl]; exact h) hok)]
        · show (if _ then _ else _) = _
          rw [if_neg (by simp [hrl, hl]), hend, List.take_of_length_le (by omega)]

theorem reverse1_eq {n : Nat} {sh : List Nat} {xs : List (T A)} (hl : xs.length = prod (n :: sh)) : reverse1 C (.arr (n :: sh) xs) = pure (.arr (n :: sh) (revCells (prod sh) xs n)) := by
  have hl : xs.length = n * prod sh := hl
  show (if n ≤ 1 then _ else _) = _
  by_cases h : n ≤ 1
  · rw [if_pos h]
    congr 2
    rcases Nat.le_one_iff_eq_zero_or_eq_one.1 h with rfl | rfl
    · rw [Nat.zero_mul] at hl
      rw [List.eq_nil_of_length_eq_zero hl]; rfl
    · rw [revCells, revCells, List.append_nil, Nat.zero_mul, List.drop_zero, List.take_of_length_le (by omega)]
  · rw [if_neg h]

theorem ok_rev {n : Nat} {sh : List Nat} {xs : List (T A)} (hx : Ok (.arr (n :: sh) xs)) : Ok (.arr (n :: sh) (revCells (prod sh) xs n)) := by
  have hl : xs.length = n * prod sh := ok_full hx
  exact ok_same hx (by rw [revCells_length _ _ n (by omega), hl]) fun e he => ok_els hx e (revCells_mem _ _ n e he)

theorem act_reverse (hC : C.Lawful) (x : T A) (hx : Ok x) : Act C (fun F => prim1 C F .reverse x) (Sees1 .reverse) (Kept1 .reverse) x := by
  have hno : (¬ ∃ n sh xs, x = .arr (n :: sh) xs) → reverse1 C x = C.fail _ := by
    intro h
    cases x with
    | atom a => rfl
    | arr sh xs =>
      cases sh with
      | nil => rfl
      | cons n sh => exact absurd ⟨n, sh, xs, rfl⟩ h
  by_cases hc : ∃ n sh xs, x = .arr (n :: sh) xs
  · obtain ⟨n, sh, xs, rfl⟩ := hc
    refine act_some (v0 := .arr (n :: sh) (revCells (prod sh) xs n)) (fun v => reversed_iff (ok_full hx)) (ok_rev hx) (reverse1 C)
      (fun rep => match rep with | .arr (n :: sh) xs => some (.arr (n :: sh) (revCells (prod sh) xs n)) | _ => none) (fun F => ?_) (fun rep hok => ?_) (fun rep r hok => ?_) fun rep r hok h => ?_
    · show reverse1 C _ >>= F >>= reverse1 C = _
      rw [reverse1_eq (ok_full hx), pure_bind]
    · match rep, hok with
      | .atom a, _ => rfl
      | .arr [] xs, _ => rfl
      | .arr (n :: sh) xs, hok => exact reverse1_eq (ok_full hok)
    · constructor
      · rintro ⟨h, _⟩
        have h : Reversed r rep := h
        have h := reversed_symm h
        obtain ⟨n, sh, xs, rfl⟩ := reversed_arr h
        rw [reversed_iff (ok_full hok)] at h
        rw [h]
      · intro h
        match rep, hok, h with
        | .arr (n :: sh) xs, hok, h =>
          cases h
          exact ⟨reversed_symm ((reversed_iff (ok_full hok)).2 rfl), trivial⟩
    · match rep, hok, h with
      | .arr (n :: sh) xs, hok, h =>
        cases h
        exact ok_rev hok
  · refine act_none ?_ fun F => ?_
    · rintro ⟨v, h⟩
      exact hc (reversed_arr h)
    · show reverse1 C x >>= F >>= reverse1 C = _
      rw [hno hc, hC.fail_bind, hC.fail_bind]

theorem act_enclose (x : T A) (hx : Ok x) : Act C (fun F => prim1 C F .enclose x) (Sees1 .enclose) (Kept1 .enclose) x := by
  refine act_some (v0 := .arr [] [x]) (fun _ => Iff.rfl) (ok_of_fits ⟨by decide, by simp, by decide⟩ rfl (by simpa using hx)) (encloseInv C)
    (fun rep => match rep with | .arr [] [e] => some e | _ => none) (fun F => rfl) (fun rep hok => ?_) (fun rep r hok => ?_) fun rep r hok h => ?_
  · match rep, hok with
    | .atom a, _ => rfl
    | .arr [] [], hok => exact absurd (ok_full hok) (by simp [prod])
    | .arr [] [e], hok => rfl
    | .arr [] (_ :: _ :: _), hok => exact absurd (ok_full hok) (by simp [prod])
    | .arr (n :: sh) xs, hok => rfl
  · constructor
    · rintro ⟨h, _⟩
      have h : rep = .arr [] [r] := h
      subst h
      rfl
    · intro h
      match rep, hok, h with
      | .arr [] [e], hok, h => cases h; exact ⟨rfl, trivial⟩
  · match rep, hok, h with
    | .arr [] [e], hok, h => cases h; exact ok_els hok _ (by simp)

theorem act_pair (x : T A) (hx : Ok x) : Act C (fun F => prim1 C F .pair x) (Sees1 .pair) (Kept1 .pair) x := by
  refine act_some (v0 := .arr [1] [x]) (fun _ => Iff.rfl) (ok_of_fits ⟨by decide, by simp, by decide⟩ rfl (by simpa using hx)) (pairInv C)
    (fun rep => match rep with | .arr [_] [e] => some e | _ => none) (fun F => rfl) (fun rep hok => ?_) (fun rep r hok => ?_) fun rep r hok h => ?_
  · match rep, hok with
    | .atom a, _ => rfl
    | .arr [] xs, hok => rfl
    | .arr [n] [], hok => rfl
    | .arr [n] [e], hok => rfl
    | .arr [n] (_ :: _ :: _), hok =>
      unfold pairInv
      dsimp only
      rw [if_pos (.inr (by simp))]; rfl
    | .arr (n :: n' :: sh) xs, hok =>
      unfold pairInv
      dsimp only
      rw [if_pos (.inl (by simp))]; rfl
  · constructor
    · rintro ⟨h, _⟩
      have h : rep = .arr [1] [r] := h
      subst h
      rfl
    · intro h
      match rep, hok, h with
      | .arr [n] [e], hok, h =>
        cases h
        have := ok_full hok
        rw [prod_one] at this
        cases this
        exact ⟨rfl, trivial⟩
  · match rep, hok, h with
    | .arr [n] [e], hok, h => cases h; exact ok_els hok _ (by simp)

theorem couple1_eq {x : T A} (hx : Ok x) (h : x.sh.length < 255) : couple1 C x = pure (.arr (1 :: x.sh) x.els) := by
  cases x with
  | atom a => rfl
  | arr sh xs =>
    have h : sh.length < 255 := h
    show (if sh.length = 255 then _ else _) = _
    rw [if_neg (by omega)]
    cases sh with
    | nil =>
      have : xs.length = 1 := ok_full hx
      rw [if_pos (by simp), this]; rfl
    | cons n sh => rfl

theorem act_couple (hC : C.Lawful) (x : T A) (hx : Ok x) : Act C (fun F => prim1 C F .couple x) (Sees1 .couple) (Kept1 .couple) x := by
  by_cases hr : x.sh.length < 255
  · have hfull : x.els.length = prod x.sh := by
      cases x with
      | atom a => rfl
      | arr sh xs => exact ok_full hx
    have hf : Fits x.sh := by
      cases x with
      | atom a => exact ⟨by simp [T.sh, prod], by simp [T.sh], by simp [T.sh]⟩
      | arr sh xs => exact ok_fits hx
    have he : ∀ e ∈ x.els, Ok e := by
      cases x with
      | atom a => simpa [T.els] using hx
      | arr sh xs => exact ok_els hx
    refine act_some (v0 := .arr (1 :: x.sh) x.els) (fun v => ⟨fun h => h.2, fun h => ⟨hr, h⟩⟩) (ok_of_fits ⟨?_, ?_, ?_⟩ ?_ he) (coupleInv C)
      (fun rep => match rep with | .arr (1 :: sh) xs => some (.arr sh xs) | _ => none) (fun F => ?_) (fun rep hok => ?_) (fun rep r hok => ?_) fun rep r hok h => ?_
    · show 1 * prod x.sh < _; rw [Nat.one_mul]; exact hf.1
    · intro n hn
      rcases List.mem_cons.1 hn with rfl | hn
      · decide
      · exact hf.2.1 n hn
    · show x.sh.length + 1 ≤ 255; omega
    · show _ = 1 * prod x.sh; rw [Nat.one_mul]; exact hfull
    · show couple1 C x >>= F >>= coupleInv C = _
      rw [couple1_eq hx hr, pure_bind]
    · match rep, hok with
      | .atom a, _ => rfl
      | .arr [] xs, _ => rfl
      | .arr (n :: sh) xs, hok =>
        show (if n ≠ 1 then _ else _) = _
        by_cases h1 : n = 1
        · subst h1
          have : xs.length = 1 * prod sh := ok_full hok
          rw [if_neg (fun h => h rfl), List.take_of_length_le (by omega)]
          rfl
        · rw [if_pos h1]
          split
          · rename_i h; cases h; exact absurd rfl h1
          · rfl
    · constructor
      · rintro ⟨⟨h1, rfl⟩, h2⟩
        have h2 : r.isAtom = false := h2
        cases r with
        | atom a => cases h2
        | arr sh xs => rfl
      · intro h
        split at h
        · cases h
          rename_i sh xs
          refine ⟨⟨?_, rfl⟩, rfl⟩
          have := (ok_fits hok).2.2
          show sh.length < 255
          have : sh.length + 1 ≤ 255 := this
          omega
        · cases h
    · split at h
      · cases h
        rename_i sh xs
        have h1 := ok_fits hok
        have h2 : xs.length = 1 * prod sh := ok_full hok
        have h3 : 1 * prod sh < 2^32 := h1.1
        have h4 : sh.length + 1 ≤ 255 := h1.2.2
        exact ok_of_fits ⟨by omega, fun n hn => h1.2.1 n (List.mem_cons_of_mem _ hn), by omega⟩ (by omega) (ok_els hok)
      · cases h
  · refine act_none ?_ fun F => ?_
    · rintro ⟨v, h, _⟩; exact hr h
    · show couple1 C x >>= F >>= coupleInv C = _
      have : couple1 C x = C.fail _ := by
        cases x with
        | atom a => exact absurd (by decide : (0 : Nat) < 255) hr
        | arr sh xs =>
          have h1 := (ok_fits hx).2.2
          have h2 : ¬ sh.length < 255 := hr
          show (if sh.length = 255 then _ else _) = _
          rw [if_pos (by omega)]
      rw [this, hC.fail_bind, hC.fail_bind]

theorem act_prim (hC : C.Lawful) (p : P1) (x : T A) (hx : Ok x) (hn : Native1 p x) : Act C (fun F => prim1 C F p x) (Sees1 p) (Kept1 p) x := by
  cases p with
  | tack => exact act_tack x hx
  | first => exact act_first hC x hx hn
  | deshape => exact act_deshape x hx
  | reverse => exact act_reverse hC x hx
  | enclose => exact act_enclose x hx
  | pair => exact act_pair x hx
  | couple => exact act_couple hC x hx

end Verif.Lens
