import Verif.Lens.Comp
/-!
# C63: Under replaces the part that a function gives, and keeps the rest

`Sees G x v` (in `Spec.lean`) says that `v` is `𝔾x`, and `Replaced G x v r` that `r` is `x` with that part replaced by `v`: `𝔾r` is `v`, and what `𝔾` doesn't give of `x` is the same in `r`.
`𝔽` has any effects, in any lawful monad. `Native` are the cases that aren't left to the general definition of Under, written in BQN.
-/
namespace Verif.Lens
open Verif.Rotate (prod InShape ravel rotated)
open Verif.Table (T)
open Verif.Pick (Ix IsIndex Position)
variable {A : Type} {m : Type → Type} [Monad m] [LawfulMonad m] {C : Ctx m A}

/-- `𝔽⌾𝔾 𝕩` calls `𝔽` exactly once, with `𝔾𝕩`. If a value differs from `𝕩` in that `𝔾` gives the result of `𝔽`, it is the result. If there is none, it's an error. -/
theorem under_replaces (hC : C.Lawful) (G : Fn) (x v : T A) (hx : Ok x) (hn : Native G x) (hv : Sees G x v) :
    Ok v ∧ ∃ k : T A → m (T A), (∀ F, under1 C F G x = F v >>= k) ∧
      ∀ rep, Ok rep → (∀ r, Replaced G x rep r → k rep = pure r ∧ Ok r) ∧ ((¬ ∃ r, Replaced G x rep r) → k rep = C.fail _) := by
  obtain ⟨h1, k, h2, h3⟩ := (act_uc1 hC G x hx hn).1 v hv
  exact ⟨h1, k, h2, fun rep hrep => ⟨fun r hr => (h3 rep hrep).1 r hr.1 hr.2, (h3 rep hrep).2⟩⟩

/-- If `𝔾` gives nothing, it's an error, and `𝔽` isn't called. -/
theorem under_rejects (hC : C.Lawful) (G : Fn) (x : T A) (hx : Ok x) (hn : Native G x) (hv : ¬ ∃ v, Sees G x v) (F : T A → m (T A)) : under1 C F G x = C.fail _ :=
  (act_uc1 hC G x hx hn).2 hv F

/-- `𝕨 𝔽⌾𝔾 𝕩` calls `𝔽` with `𝔾𝕨` and `𝔾𝕩`, if values aren't functions; `call` is how `𝔾` is called with `𝕨`. -/
theorem under_dyadic (hC : C.Lawful) (callable : T A → Option (T A → m (T A))) (hc : ∀ v, callable v = none) (call : Fn → T A → m (T A)) (G : Fn) (w x v : T A) (hx : Ok x) (hn : Native G x) (hv : Sees G x v) :
    ∃ k : T A → m (T A), (∀ F, under2 C callable call F G w x = call G w >>= fun gw => F gw v >>= k) ∧
      ∀ rep, Ok rep → (∀ r, Replaced G x rep r → k rep = pure r) ∧ ((¬ ∃ r, Replaced G x rep r) → k rep = C.fail _) := by
  obtain ⟨_, k, h2, h3⟩ := under_replaces hC G x v hx hn hv
  refine ⟨k, fun F => ?_, fun rep hrep => ⟨fun r hr => ((h3 rep hrep).1 r hr).1, (h3 rep hrep).2⟩⟩
  unfold under2
  congr 1
  funext gw
  have h : uc1 C G (before callable F gw) x = before callable F gw v >>= k := h2 (before callable F gw)
  rw [h]
  unfold before
  rw [hc gw]

/-- Elements of any kind in one way, in a program that can only have errors. -/
noncomputable def plain (A : Type) : Ctx Option A where
  S := { K := Bool
         kind := fun x => x.els.any fun e => !e.isAtom
         can := fun k v => k || v.isAtom
         store := fun k v => match k, v with | false, .arr _ (e :: _) => e | _, v => v
         boxed := id
         or := (· || ·)
         self := fun v => !v.isAtom
         reusable := fun _ => false
         eq := fun a b => @decide (a = b) (Classical.propDecidable _) }
  fail := fun _ => none
  ud := fun _ => none
  rt := fun _ _ _ => none
  junk := fun _ => true
  fresh := fun _ => .arr [0] []
  fIdx := false

theorem plain_lawful (A : Type) : (plain A).Lawful where
  store_eq := fun k v h => by
    cases k with
    | true => cases v <;> rfl
    | false => cases v with
      | atom a => rfl
      | arr sh xs => cases h
  kind_can := fun x e he => by
    show ((x.els.any fun e => !e.isAtom) || e.isAtom) = true
    cases h : e.isAtom with
    | true => rw [Bool.or_true]
    | false => rw [Bool.or_false, List.any_eq_true]; exact ⟨e, he, by rw [h]; rfl⟩
  or_left := fun k l v h => by
    show ((k || l) || v.isAtom) = true
    have h : (k || v.isAtom) = true := h
    revert h; cases k <;> cases l <;> simp
  or_right := fun k l v h => by
    show ((k || l) || v.isAtom) = true
    have h : (l || v.isAtom) = true := h
    revert h; cases k <;> cases l <;> simp
  self_can := fun v => by
    show (!v.isAtom || v.isAtom) = true
    cases v.isAtom <;> rfl
  eq_iff := fun a b => @decide_eq_true_iff _ (Classical.propDecidable _)
  fail_bind := fun _ => rfl

/-- There is at most one such value. -/
theorem replaced_unique (G : Fn) (x v rep r r' : T A) (hx : Ok x) (hn : Native G x) (hv : Sees G x v) (hrep : Ok rep) (h : Replaced G x rep r) (h' : Replaced G x rep r') : r = r' := by
  obtain ⟨_, k, _, h3⟩ := under_replaces (plain_lawful A) G x v hx hn hv
  have h1 := ((h3 rep hrep).1 r h).1
  rw [((h3 rep hrep).1 r' h').1] at h1
  injection h1 with h1
  exact h1.symm

theorem ok_list (n : Nat) (xs : List Nat) (hl : xs.length = n) (h : n < 2^32) : Ok (.arr [n] (xs.map T.atom)) :=
  .arr (by simp [prod, hl]) (by simpa [prod] using h) (by simpa using h) (by simp) fun e he => by
    obtain ⟨a, _, rfl⟩ := List.mem_map.1 he
    exact .atom a

/-- The last two of `1‿2‿3`, in reverse order, are `3‿2`. -/
theorem ex_sees : Sees (A := Nat) (.fork (.take (some 2)) (.prim .reverse)) (.arr [3] ([1, 2, 3].map .atom)) (.arr [2] ([3, 2].map .atom)) := by
  refine ⟨.arr [3] ([3, 2, 1].map .atom), (reversed_iff rfl).2 rfl, _, .takeFirst (n := 2) (by decide), [3, 2].map .atom, rfl, rfl, ?_⟩
  intro i p h
  match i, h with
  | 0, h => cases h; exact ⟨by decide, rfl⟩
  | 1, h => cases h; exact ⟨by decide, rfl⟩
  | i + 2, h => cases h

theorem ex_native : Native (A := Nat) (.fork (.take (some 2)) (.prim .reverse)) (.arr [3] ([1, 2, 3].map .atom)) :=
  ⟨trivial, fun u _ k hk => by cases hk; decide⟩

/-- `5‿6` in their place gives `1‿6‿5`. -/
theorem ex_replaced : Replaced (A := Nat) (.fork (.take (some 2)) (.prim .reverse)) (.arr [3] ([1, 2, 3].map .atom)) (.arr [2] ([5, 6].map .atom)) (.arr [3] ([1, 6, 5].map .atom)) := by
  refine ⟨⟨.arr [3] ([5, 6, 1].map .atom), (reversed_iff rfl).2 rfl, _, .takeFirst (n := 2) (by decide), [5, 6].map .atom, rfl, rfl, ?_⟩, trivial, .arr [3] ([3, 2, 1].map .atom), .arr [3] ([5, 6, 1].map .atom),
    (reversed_iff rfl).2 rfl, (reversed_iff rfl).2 rfl, _, .takeFirst (n := 2) (by decide), [5, 6, 1].map .atom, rfl, rfl, ?_⟩
  · intro i p h
    match i, h with
    | 0, h => cases h; exact ⟨by decide, rfl⟩
    | 1, h => cases h; exact ⟨by decide, rfl⟩
    | i + 2, h => cases h
  · intro p h
    match p, h with
    | 0, h => exact absurd (by decide) h
    | 1, h => exact absurd (by decide) h
    | 2, _ => rfl
    | p + 3, _ => rfl

example : under1 (plain Nat) (fun _ => some (.arr [2] ([5, 6].map .atom))) (.fork (.take (some 2)) (.prim .reverse)) (.arr [3] ([1, 2, 3].map .atom)) = some (.arr [3] ([1, 6, 5].map .atom)) := by
  obtain ⟨_, k, h1, h2⟩ := under_replaces (plain_lawful Nat) _ _ _ (ok_list 3 [1, 2, 3] rfl (by decide)) ex_native ex_sees
  rw [h1]
  exact ((h2 _ (ok_list 2 [5, 6] rfl (by decide))).1 _ ex_replaced).1

example (F : T Nat → Option (T Nat)) : under1 (plain Nat) F (.bound (.take (some 2))) (.arr [1] [.atom 5]) = none :=
  under_rejects (plain_lawful Nat) (.bound (.take (some 2))) (.arr [1] [.atom 5]) (ok_list 1 [5] rfl (by decide)) (fun k hk => by cases hk; decide) (fun ⟨v, w, h, _⟩ => absurd (take_looks h) (by decide)) F

example : under2 (plain Nat) (fun _ => none) (fun _ w => some w) (fun w _ => some w) (.fork (.take (some 2)) (.prim .reverse)) (.arr [2] ([5, 6].map .atom)) (.arr [3] ([1, 2, 3].map .atom)) =
    some (.arr [3] ([1, 6, 5].map .atom)) := by
  obtain ⟨k, h1, h2⟩ := under_dyadic (plain_lawful Nat) (fun _ => none) (fun _ => rfl) (fun _ w => some w) _ (.arr [2] ([5, 6].map .atom)) _ _ (ok_list 3 [1, 2, 3] rfl (by decide)) ex_native ex_sees
  rw [h1]
  exact (h2 _ (ok_list 2 [5, 6] rfl (by decide))).1 _ ex_replaced

example (r : T Nat) (h : Replaced (.fork (.take (some 2)) (.prim .reverse)) (.arr [3] ([1, 2, 3].map .atom)) (.arr [2] ([5, 6].map .atom)) r) : r = .arr [3] ([1, 6, 5].map .atom) :=
  replaced_unique _ _ _ _ r _ (ok_list 3 [1, 2, 3] rfl (by decide)) ex_native ex_sees (ok_list 2 [5, 6] rfl (by decide)) h ex_replaced

/-! ## What goes wrong -/

/-- If `𝔾𝕨` is a function, it's called with `𝔾𝕩`, and `𝔽` gets the result. -/
theorem under_calls_left {G : Fn} {w x v gw : T A} {f : T A → m (T A)} {callable : T A → Option (T A → m (T A))} {call : Fn → T A → m (T A)} (hC : C.Lawful) (hx : Ok x) (hn : Native G x) (hv : Sees G x v)
    (hg : call G w = pure gw) (hf : callable gw = some f) : ∃ k : T A → m (T A), ∀ F, under2 C callable call F G w x = f v >>= fun fw => F fw v >>= k := by
  obtain ⟨_, k, h2, _⟩ := under_replaces hC G x v hx hn hv
  refine ⟨k, fun F => ?_⟩
  unfold under2
  rw [hg, pure_bind]
  have h : uc1 C G (before callable F gw) x = before callable F gw v >>= k := h2 (before callable F gw)
  rw [h]
  unfold before
  rw [hf]
  exact bind_assoc _ _ _

example : under2 (plain Nat) (fun w => match w with | .atom 7 => some fun _ => some (.atom 0) | _ => none) (fun _ w => some w) (fun w _ => some w) (.prim .tack) (.atom 7) (.atom 1) = some (.atom 0) := by
  obtain ⟨k, h⟩ := under_calls_left (C := plain Nat) (G := .prim .tack) (w := .atom 7) (x := .atom 1) (v := .atom 1) (gw := .atom 7) (f := fun _ => some (.atom 0))
    (callable := fun w => match w with | .atom 7 => some fun _ => some (.atom 0) | _ => none) (call := fun _ w => some w) (plain_lawful Nat) (.atom 1) trivial rfl rfl rfl
  rfl

/-- With an empty list, `𝔽⌾(⟨⟩⊸⊑) 𝕩` of an array with axes calls `𝔽` with an empty list and is no error, although there's nothing to pick. -/
theorem under_pick_empty (hC : C.Lawful) (sh : List Nat) (h0 : sh ≠ []) (xs : List (T A)) (hn : xs.length < 2^32) :
    (¬ ∃ v, Sees (.bound (.pick (.ints [0] []))) (.arr sh xs) v) ∧
    under1 C (fun v => pure v) (.bound (.pick (.ints [0] []))) (.arr sh xs) = pure (.arr sh xs) := by
  constructor
  · rintro ⟨v, w, h, _⟩
    have h : Looks2 sh (.pick (.ints [0] [])) w := h
    cases h with
    | one h =>
      obtain ⟨is, ks, h1, h2, _⟩ := h
      cases h1
      exact h0 (List.length_eq_zero_iff.1 h2.length.symm)
  · show pick2 C (fun v => pure v) (.ints [0] []) (.arr sh xs) = _
    unfold pick2
    dsimp only
    have h1 : sh.length ≠ 0 := by simpa using h0
    rw [if_neg (by simp [Ix.isArr]), if_neg h1]
    have : oneIndex (.ints [0] []) sh = .ok none := by
      unfold oneIndex
      dsimp only
      rw [if_pos (.inl fun h => h1 h.symm)]
    rw [this]
    show replaceMany C _ [0] [] sh xs = _
    unfold replaceMany
    show pure (T.arr [0] []) >>= _ = _
    rw [pure_bind]
    dsimp only
    rw [if_neg (fun h => h rfl)]
    obtain ⟨h1, _⟩ := select_replace hC.eq_iff C.fIdx (ps := []) (xs := xs) (rs := []) nofun rfl hn C.junk
    obtain ⟨r, e, hl, hr, _⟩ := h1 (fun i k p h => by cases h)
    rw [e]
    dsimp only
    rw [List.ext_getElem? fun k => hr k (by simp)]

example : under1 (plain Nat) (fun v => pure v) (.bound (.pick (.ints [0] []))) (.arr [2] [.atom 1, .atom 2]) = pure (.arr [2] [.atom 1, .atom 2]) :=
  (under_pick_empty (plain_lawful Nat) [2] (by simp) _ (by decide)).2

/-- `𝔽⌾(g∘h)`, where `g` or `h` isn't a function: the general definition is used for `g⌾(h∘𝔽)`. -/
theorem under_atop_swapped {X R : Type} (isFun : X → Bool) (rt impl : X → X → X → R) (o g h : X) (hf : isFun g = false ∨ isFun h = false) : atopM2 isFun rt impl o g h = rt g h o := by
  unfold atopM2
  rw [if_pos]
  rcases hf with hf | hf <;> simp [hf]

example : atopM2 (· < 3) (fun o g h => [o, g, h]) (fun o g h => [o, g, h]) 0 1 3 = [1, 3, 0] := under_atop_swapped _ _ _ _ _ _ (.inr rfl)

end Verif.Lens
