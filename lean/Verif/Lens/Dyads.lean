import Verif.Lens.Main
/-!
# Under: functions with a left argument
-/
namespace Verif.Lens
open Verif.Rotate
open Verif.Table (T)
open Verif.Pick (Ix IsIndex Position)
variable {A : Type} {m : Type → Type} [Monad m] [LawfulMonad m] {C : Ctx m A}

def P2.isRotate : P2 → Bool
  | .rotate _ => true
  | _ => false

theorem sees2_iff {p : P2} (hp : p.isRotate = false) {x v : T A} : Sees2 p x v ↔ ∃ w, Looks2 (p.base x).sh p w ∧ Shows (p.base x) w v := by
  cases p with
  | rotate n => cases hp
  | _ => exact Iff.rfl

theorem kept2_iff {p : P2} (hp : p.isRotate = false) {x r : T A} : Kept2 p x r ↔ ∃ w, Looks2 (p.base x).sh p w ∧ Others w (p.base x) r := by
  cases p with
  | rotate n => cases hp
  | _ => exact Iff.rfl

theorem base_arr (p : P2) (sh : List Nat) (xs : List (T A)) : p.base (.arr sh xs) = .arr sh xs := by cases p <;> rfl

theorem others_arr {w : View} {x r : T A} (h : Others w x r) : ∃ rs, r = .arr x.sh rs := by
  obtain ⟨rs, rfl, _⟩ := h
  exact ⟨rs, rfl⟩

theorem sees2_look {p : P2} (hp : p.isRotate = false) {x : T A} {w : View} (hw : Looks2 (p.base x).sh p w) {v : T A} : Sees2 p x v ↔ Shows (p.base x) w v := by
  rw [sees2_iff hp]
  constructor
  · rintro ⟨w', h, h'⟩; rw [looks2_unique hw h]; exact h'
  · intro h; exact ⟨w, hw, h⟩

theorem replaced2_look {p : P2} (hp : p.isRotate = false) {x : T A} {w : View} (hw : Looks2 (p.base x).sh p w) (rep r : T A) :
    (Sees2 p r rep ∧ Kept2 p x r) ↔ (Shows r w rep ∧ Others w (p.base x) r) := by
  rw [kept2_iff hp]
  constructor
  · rintro ⟨h1, w', h2, h3⟩
    cases looks2_unique hw h2
    obtain ⟨rs, rfl⟩ := others_arr h3
    refine ⟨?_, h3⟩
    have := (sees2_look hp (x := .arr (p.base x).sh rs) (w := w) (by rw [base_arr]; exact hw)).1 h1
    rwa [base_arr] at this
  · rintro ⟨h1, h3⟩
    refine ⟨?_, w, hw, h3⟩
    obtain ⟨rs, rfl⟩ := others_arr h3
    refine (sees2_look hp (x := .arr (p.base x).sh rs) (w := w) (by rw [base_arr]; exact hw)).2 ?_
    rw [base_arr]; exact h1

/-! ## Take and Drop -/

theorem asList_eq (x : T A) : listOf x = .arr (asList x).1 (asList x).2 := by cases x <;> rfl

theorem ok_listOf {x : T A} (hx : Ok x) : Ok (.arr (asList x).1 (asList x).2) := by
  cases x with
  | atom a => exact ok_of_fits ⟨by simp [asList, prod], by simp [asList], by simp [asList]⟩ rfl (by simpa [asList] using hx)
  | arr sh xs => exact hx

theorem firstLen_eq {sh : List Nat} {xs : List (T A)} (hx : Ok (.arr sh xs)) : firstLen sh xs = lead sh := by
  cases sh with
  | nil => exact ok_full hx
  | cons n sh => rfl

theorem full_lead {sh : List Nat} {xs : List (T A)} (hx : Ok (.arr sh xs)) : xs.length = lead sh * prod sh.tail := by
  cases sh with
  | nil => exact ok_full hx
  | cons n sh => exact ok_full hx

theorem fits_lead {sh : List Nat} {n : Nat} (hf : Fits sh) (hn : n ≤ lead sh) : Fits (n :: sh.tail) := by
  cases sh with
  | nil => exact fits_one (by have : n ≤ 1 := hn; omega)
  | cons s sh =>
    have hn : n ≤ s := hn
    refine ⟨Nat.lt_of_le_of_lt (Nat.mul_le_mul_right (prod sh) hn) hf.1, fun k hk => ?_, hf.2.2⟩
    rcases List.mem_cons.1 hk with rfl | hk
    · exact Nat.lt_of_le_of_lt hn (hf.2.1 s (List.mem_cons_self ..))
    · exact hf.2.1 k (List.mem_cons_of_mem _ hk)

theorem shape_test {sh rsh : List Nat} {am : Nat} : (rsh.length ≠ max 1 sh.length ∨ rsh.head? ≠ some am ∨ rsh.tail ≠ sh.tail) ↔ rsh ≠ am :: sh.tail := by
  constructor
  · rintro h rfl
    rcases h with h | h | h
    · apply h
      cases sh with
      | nil => rfl
      | cons n sh => simp
    · exact h rfl
    · exact h rfl
  · intro h
    cases rsh with
    | nil => exact .inr (.inl nofun)
    | cons n rsh =>
      by_cases h1 : n = am
      · subst h1
        refine .inr (.inr fun h2 => h ?_)
        have h2 : rsh = sh.tail := h2
        rw [h2]
      · exact .inr (.inl fun h2 => h1 (by simpa using h2))

/-- The cells from `a` on, with `takedrop_ucw`. -/
theorem act_takedrop (hC : C.Lawful) {p : P2} (hp : p.isRotate = false) {x : T A} {sh : List Nat} {xs : List (T A)} (hb : p.base x = .arr sh xs) (hx : Ok (.arr sh xs)) {neg : Bool} {am a : Nat}
    (hw : Looks2 sh p (cellRange sh a am)) (ha : am ≤ lead sh) (hneg : if neg then a = lead sh - am else a = 0) (hrun : ∀ F, prim2 C F p x = takedrop C neg F am sh xs) : Act C (fun F => prim2 C F p x) (Sees2 p) (Kept2 p) x := by
  have hlead := full_lead hx
  have hsmall : xs.length < 2^32 := by rw [ok_full hx]; exact (ok_fits hx).1
  generalize hcs : prod sh.tail = csz at hlead
  have hle : am * csz ≤ lead sh * csz := Nat.mul_le_mul_right csz ha
  have htk : prod sh.tail * am % 2^32 = am * csz := by rw [hcs, Nat.mul_comm, Nat.mod_eq_of_lt (by omega)]
  have hstart : a * csz = if neg then xs.length - am * csz else 0 := by
    cases neg with
    | true =>
      have h : a = lead sh - am := hneg
      rw [if_pos rfl, h, Nat.sub_mul, hlead]
    | false =>
      have h : a = 0 := hneg
      rw [h, Nat.zero_mul]; rfl
  have hs : a * csz + am * csz ≤ xs.length := by
    rw [hstart]
    cases neg with
    | true => rw [if_pos rfl]; omega
    | false => rw [if_neg (by decide)]; omega
  have hw' : cellRange sh a am = .many (am :: sh.tail) (List.range' (a * csz) (am * csz)) := by unfold cellRange; rw [hcs]
  rw [hw'] at hw
  have hk : ∀ (rep : T A) (e : T A), e ∈ xs → C.S.can (C.S.or (C.S.kind (.arr sh xs)) (C.S.kind rep)) e = true := fun rep e he => hC.or_left _ _ _ (hC.kind_can (.arr sh xs) e he)
  have hk' : ∀ (rep : T A) (e : T A), e ∈ rep.els → C.S.can (C.S.or (C.S.kind (.arr sh xs)) (C.S.kind rep)) e = true := fun rep e he => hC.or_right _ _ _ (hC.kind_can rep e he)
  refine act_range (k := fun rep => match rep with
    | .atom _ => C.fail _
    | .arr rsh rs =>
      if rsh.length ≠ max 1 sh.length ∨ rsh.head? ≠ some am ∨ rsh.tail ≠ sh.tail then C.fail _
      else
        pure (.arr sh (if neg then copied C.S (C.S.or (C.S.kind (.arr sh xs)) (C.S.kind rep)) (xs.take (xs.length - am * csz)) ++ copied C.S (C.S.or (C.S.kind (.arr sh xs)) (C.S.kind rep)) (rs.take (am * csz)) else copied C.S (C.S.or (C.S.kind (.arr sh xs)) (C.S.kind rep)) (rs.take (am * csz)) ++ copied C.S (C.S.or (C.S.kind (.arr sh xs)) (C.S.kind rep)) ((xs.drop (am * csz)).take (xs.length - am * csz)))))
    hs hx (fits_lead (ok_fits hx) ha) (by show am * prod sh.tail = _; rw [hcs]) (fun v => ?_) (fun rep r => ?_) (fun F => ?_) (fun _ => rfl) (fun rsh rs h hok => ?_) fun rs hl hok => ?_
  · have := sees2_look hp (x := x) (v := v) (by rw [hb]; exact hw)
    rwa [hb] at this
  · have := replaced2_look hp (x := x) (by rw [hb]; exact hw) rep r
    rwa [hb] at this
  · rw [hrun]
    unfold takedrop
    dsimp only
    rw [htk, if_neg (by omega), hstart]
    rfl
  · dsimp only
    rw [if_pos (shape_test.2 h)]
  · dsimp only
    rw [if_neg (fun h => shape_test.1 h rfl)]
    congr 2
    rw [List.take_of_length_le (l := rs) (by omega), copied_eq hC (xs := rs) fun e he => hk' (.arr (am :: sh.tail) rs) e he,
      copied_eq hC (xs := xs.take (xs.length - am * csz)) fun e he => hk _ e (List.mem_of_mem_take he),
      copied_eq hC (xs := (xs.drop (am * csz)).take (xs.length - am * csz)) fun e he => hk _ e (mem_take_drop he), hstart]
    cases neg with
    | true =>
      rw [if_pos rfl, if_pos rfl, List.drop_eq_nil_of_le (by omega), List.append_nil]
    | false =>
      rw [if_neg (by decide), if_neg (by decide), List.take_zero, List.nil_append, Nat.zero_add, List.take_of_length_le (l := xs.drop _) (by rw [List.length_drop]; omega)]

theorem amount_some {n : Int} (h : Sym (some n)) : amount (some n) = .ok (n, n.natAbs) := by
  have h := h n rfl
  unfold amount
  dsimp only
  rw [if_neg (by omega), if_neg (by omega)]

theorem take_looks {sh : List Nat} {n : Int} {w : View} (h : Looks2 sh (.take (some n)) w) : n.natAbs ≤ lead sh := by
  generalize he : n = k at h
  cases h with
  | takeFirst h => exact h
  | @takeLast n' h0 h => rw [Int.natAbs_neg]; exact h

theorem act_take (hC : C.Lawful) (n : Option Int) (x : T A) (hx : Ok x) (hn : Native2 (.take n) x) : Act C (fun F => prim2 C F (.take n) x) (Sees2 (.take n)) (Kept2 (.take n)) x := by
  have hxl := ok_listOf hx
  have hb : P2.base (.take n) x = .arr (asList x).1 (asList x).2 := asList_eq x
  cases n with
  | none =>
    refine act_none ?_ fun F => rfl
    rintro ⟨v, w, h, _⟩
    cases h
  | some n =>
    have hrun : ∀ F, prim2 C F (.take (some n)) x = if n.natAbs > firstLen (asList x).1 (asList x).2 then C.fail _ else takedrop C (decide (n < 0)) F n.natAbs (asList x).1 (asList x).2 := by
      intro F
      show C.out (amount (some n)) _ = _
      rw [amount_some hn]
      rfl
    rw [firstLen_eq hxl] at hrun
    by_cases hle : n.natAbs ≤ lead (asList x).1
    · have hrun' : ∀ F, prim2 C F (.take (some n)) x = takedrop C (decide (n < 0)) F n.natAbs (asList x).1 (asList x).2 := fun F => by rw [hrun, if_neg (by omega)]
      by_cases h0 : n < 0
      · obtain ⟨k, rfl⟩ : ∃ k : Nat, n = -k := ⟨n.natAbs, by omega⟩
        rw [Int.natAbs_neg, Int.natAbs_natCast] at hle hrun'
        exact act_takedrop hC rfl hb hxl (neg := true) (.takeLast (by omega) hle) hle rfl fun F => by rw [hrun', decide_eq_true h0]
      · obtain ⟨k, rfl⟩ : ∃ k : Nat, n = k := ⟨n.natAbs, by omega⟩
        rw [Int.natAbs_natCast] at hle hrun'
        exact act_takedrop hC rfl hb hxl (neg := false) (.takeFirst hle) hle rfl fun F => by rw [hrun', decide_eq_false h0]
    · refine act_none ?_ fun F => by rw [hrun, if_pos (by omega)]
      rintro ⟨v, w, h, _⟩
      rw [hb] at h
      exact hle (take_looks h)

theorem act_drop (hC : C.Lawful) (n : Option Int) (x : T A) (hx : Ok x) (hn : Native2 (.drop n) x) : Act C (fun F => prim2 C F (.drop n) x) (Sees2 (.drop n)) (Kept2 (.drop n)) x := by
  have hxl := ok_listOf hx
  have hb : P2.base (.drop n) x = .arr (asList x).1 (asList x).2 := asList_eq x
  cases n with
  | none =>
    refine act_none ?_ fun F => rfl
    rintro ⟨v, w, h, _⟩
    cases h
  | some n =>
    have hrun : ∀ F, prim2 C F (.drop (some n)) x = takedrop C (decide (-n < 0)) F (lead (asList x).1 - (if n.natAbs > lead (asList x).1 then lead (asList x).1 else n.natAbs)) (asList x).1 (asList x).2 := by
      intro F
      show C.out (amount (some n)) _ = _
      rw [amount_some hn, ← firstLen_eq hxl]
      rfl
    have hmin : (if n.natAbs > lead (asList x).1 then lead (asList x).1 else n.natAbs) = min n.natAbs (lead (asList x).1) := by
      by_cases h : n.natAbs > lead (asList x).1
      · rw [if_pos h]; omega
      · rw [if_neg h]; omega
    rw [hmin] at hrun
    by_cases h0 : n < 0
    · obtain ⟨k, rfl⟩ : ∃ k : Nat, n = -k := ⟨n.natAbs, by omega⟩
      rw [Int.natAbs_neg, Int.natAbs_natCast] at hrun
      exact act_takedrop hC rfl hb hxl (neg := false) (.dropLast rfl (by omega)) (Nat.sub_le ..) rfl fun F => by rw [hrun, decide_eq_false (by omega)]
    · obtain ⟨k, rfl⟩ : ∃ k : Nat, n = k := ⟨n.natAbs, by omega⟩
      rw [Int.natAbs_natCast] at hrun
      by_cases h1 : k = 0
      · subst h1
        refine act_takedrop hC rfl hb hxl (neg := false) (.dropFirst rfl) (Nat.sub_le ..) ?_ fun F => by rw [hrun, decide_eq_false (by omega)]
        show min 0 _ = 0
        omega
      · refine act_takedrop hC rfl hb hxl (neg := true) (.dropFirst rfl) (Nat.sub_le ..) ?_ fun F => by rw [hrun, decide_eq_true (by omega)]
        show min k _ = _
        omega

/-! ## Reshape -/

theorem act_reshape (hC : C.Lawful) (ash : List Nat) (x : T A) (hx : Ok x) (hn : Native2 (.reshape ash) x) : Act C (fun F => prim2 C F (.reshape ash) x) (Sees2 (.reshape ash)) (Kept2 (.reshape ash)) x := by
  obtain ⟨ha, hle, hf⟩ := hn
  cases x with
  | atom a => cases ha
  | arr sh xs =>
    have hle : prod ash ≤ prod sh := hle
    have hl := ok_full hx
    have hw : Looks2 (P2.base (.reshape ash) (.arr sh xs : T A)).sh (.reshape ash) (.many ash (List.range' 0 (prod ash))) := by
      rw [← List.range_eq_range']; exact .reshape hle
    refine act_range (k := fun rep => match rep with
      | .atom _ => C.fail _
      | .arr rsh rs =>
        if rsh ≠ ash then C.fail _
        else if xs.length = prod ash then pure (.arr sh rs)
        else
          pure (.arr sh (copied C.S (C.S.or (C.S.kind (.arr sh xs)) (C.S.kind rep)) (rs.take (prod ash)) ++ copied C.S (C.S.or (C.S.kind (.arr sh xs)) (C.S.kind rep)) ((xs.drop (prod ash)).take (xs.length - prod ash)))))
      (s := 0) (l := prod ash) (by omega) hx hf rfl (fun v => sees2_look rfl hw) (fun rep r => replaced2_look rfl hw rep r) (fun F => ?_) (fun _ => rfl) (fun rsh rs h hok => ?_) fun rs hrl hok => ?_
    · show (if prod ash > xs.length then _ else _) = _
      rw [if_neg (by omega)]
      rfl
    · dsimp only
      rw [if_pos h]
    · dsimp only
      rw [if_neg (fun h => h rfl)]
      by_cases he : xs.length = prod ash
      · rw [if_pos he, List.drop_eq_nil_of_le (by omega)]
        simp
      · rw [if_neg he, List.take_of_length_le (l := rs) (by omega), copied_eq hC (xs := rs) fun e he => hC.or_right _ _ _ (hC.kind_can (.arr ash rs) e he),
          copied_eq hC (xs := (xs.drop (prod ash)).take (xs.length - prod ash)) fun e he => hC.or_left _ _ _ (hC.kind_can (.arr sh xs) e (mem_take_drop he)),
          List.take_of_length_le (l := xs.drop _) (by rw [List.length_drop]; omega)]
        simp

/-! ## Rotate -/

theorem rotate2_eq {k : Int} (hk : I64 k) {sh : List Nat} (h0 : sh ≠ []) {xs : List (T A)} (hx : Ok (.arr sh xs)) :
    ∃ vs, rotate2 C (some k) (.arr sh xs) = pure (.arr sh vs) ∧ Rotated k (.arr sh xs) (.arr sh vs) ∧ Ok (.arr sh vs) := by
  have hl := ok_full hx
  obtain ⟨r, h1, h2, h3⟩ := rotate_number C.fresh k hk sh h0 (ok_fits hx).1 xs hl
  refine ⟨r, ?_, ⟨sh, xs, r, h0, rfl, rfl, hl, by omega, h3⟩, ok_same hx (by omega) fun e he => ?_⟩
  · unfold rotate2
    dsimp only
    rw [h1]
  · obtain ⟨i, hi, rfl⟩ := List.getElem_of_mem he
    obtain ⟨is, his, rfl⟩ := exists_index sh i (by omega)
    have := h3 is his
    rw [List.getElem?_eq_getElem hi] at this
    exact ok_els hx _ (List.mem_of_getElem? this.symm)

theorem rotate2_fail {n : Option Int} {x : T A} (h : x.sh = [] ∨ n = none) : rotate2 C n x = C.fail _ := by
  cases x with
  | atom a => rfl
  | arr sh xs =>
    unfold rotate2
    dsimp only
    rw [rotate_number_rejects _ n xs sh]
    rcases h with h | h
    · exact .inl h
    · exact .inr fun v hv => by rw [h] at hv; cases hv

theorem act_rotate (hC : C.Lawful) (n : Option Int) (x : T A) (hx : Ok x) (hn : Native2 (.rotate n) x) : Act C (fun F => prim2 C F (.rotate n) x) (Sees2 (.rotate n)) (Kept2 (.rotate n)) x := by
  by_cases hc : x.sh = [] ∨ n = none
  · refine act_none ?_ fun F => ?_
    · rintro ⟨v, k, rfl, h⟩
      obtain ⟨sh, xs, vs, h0, rfl, rfl, _⟩ := h
      rcases hc with h | h
      · exact h0 h
      · cases h
    · show rotate2 C n x >>= F >>= rotateInv C n = _
      rw [rotate2_fail hc, hC.fail_bind, hC.fail_bind]
  · cases n with
    | none => exact absurd (.inr rfl) hc
    | some k =>
      have hk := hn k rfl
      have hk1 : I64 k := ⟨by omega, by omega⟩
      have hk2 : I64 (-k) := ⟨by omega, by omega⟩
      cases x with
      | atom a => exact absurd (.inl rfl) hc
      | arr sh xs =>
        have h0 : sh ≠ [] := fun h => hc (.inl h)
        obtain ⟨vs, e, hr, hv⟩ := rotate2_eq (C := C) hk1 h0 hx
        have huniq : ∀ v, Rotated k (.arr sh xs) v ↔ v = .arr sh vs := by
          intro v
          constructor
          · intro h
            have h' := h
            obtain ⟨_, _, vs', _, ⟨⟩, rfl, _⟩ := h'
            rw [rotated_unique (ok_full hx) h hr]
          · rintro rfl; exact hr
        constructor
        · rintro v ⟨_, ⟨⟩, hv'⟩
          rw [(huniq v).1 hv']
          refine ⟨hv, rotateInv C (some k), fun F => ?_, fun rep hrep => ⟨fun r h1 _ => ?_, fun hno => ?_⟩⟩
          · show rotate2 C (some k) _ >>= F >>= rotateInv C (some k) = _
            rw [e, pure_bind]
          · obtain ⟨_, ⟨⟩, h1⟩ := h1
            have h2 := rotated_symm h1
            obtain ⟨rsh, rs, ys, hr0, rfl, rfl, _⟩ := h1
            obtain ⟨zs, e', hz, hok⟩ := rotate2_eq (C := C) hk2 hr0 hrep
            cases rotated_unique (ok_full hrep) h2 hz
            exact ⟨e', hok⟩
          · show rotate2 C (some (-k)) rep = _
            cases rep with
            | atom a => rfl
            | arr rsh rs =>
              by_cases hr0 : rsh = []
              · exact rotate2_fail (.inl hr0)
              · obtain ⟨zs, e', hz, hok⟩ := rotate2_eq (C := C) hk2 hr0 hrep
                refine absurd ⟨.arr rsh zs, ⟨k, rfl, ?_⟩, trivial⟩ hno
                have := rotated_symm hz
                rwa [Int.neg_neg] at this
        · intro hno
          exact absurd ⟨.arr sh vs, k, rfl, hr⟩ hno

end Verif.Lens
