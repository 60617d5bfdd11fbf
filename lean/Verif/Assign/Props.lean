import Verif.Assign.Agree
/-!
# C62: Assignment
-/
namespace Verif.Assign

/-! ## New and changed variables -/

/-- `t←x` and `t↩x` succeed exactly if `x` fits the target, and variables get the values that belong to them. -/
theorem assign_binds {W : World} {upd : Bool} {σ σ' : Store} {t : T} {x : V} (hσ : WfS σ) (hx : x.Wf) (ht : t.fits false = true) :
    assign W upd σ t x = .ok σ' ↔ ∃ bs, Binds W upd σ t x bs ∧ σ' = apply bs σ := by
  constructor
  · exact set_sound W false upd t x σ σ' hσ hx
  · rintro ⟨bs, hb, rfl⟩
    exact set_complete W false upd t x σ bs ht hb

/-- Otherwise it's an error, and nothing but variables of the target has changed (those before the error may have). -/
theorem assign_fails {W : World} {upd : Bool} {σ : Store} {t : T} {x : V} (hσ : WfS σ) (hx : x.Wf) (ht : t.fits false = true) (hm : t.flat false = true) (h : ¬ ∃ bs, Binds W upd σ t x bs) :
    ∃ σ', assign W upd σ t x = .err σ' ∧ ∀ k, k ∉ t.vars W → σ' k = σ k := by
  have hg := set_good W false upd true t x σ hσ hx
  unfold assign
  cases hs : set W false upd true σ t x with
  | ok σ' =>
    obtain ⟨bs, hb, _⟩ := (assign_binds hσ hx ht).1 hs
    exact absurd ⟨bs, hb⟩ h
  | err σ' => rw [hs] at hg; exact ⟨σ', rfl, hg.2⟩
  | ud =>
    rw [hs] at hg
    rcases (show t.fits false = false ∨ t.flat false = false from hg) with hg | hg
    · rw [ht] at hg; cases hg
    · rw [hm] at hg; cases hg

/-- Nothing else changes when it succeeds, either. -/
theorem assign_only {W : World} {upd : Bool} {σ σ' : Store} {t : T} {x : V} (hσ : WfS σ) (hx : x.Wf) (h : assign W upd σ t x = .ok σ') {k : Key} (hk : k ∉ t.vars W) : σ' k = σ k := by
  have hg := set_good W false upd true t x σ hσ hx
  unfold assign at h
  rw [h] at hg
  exact hg.2 k hk

/-- A header matches exactly if the value fits, and then its variables have the values that belong to them; otherwise only these may have changed. -/
theorem header_binds {W : World} {σ : Store} {t : T} {x : V} (hσ : WfS σ) (hx : x.Wf) (ht : t.fits true = true) :
    (∀ σ', header W σ t x = .ok σ' ↔ ∃ bs, Binds W false σ t x bs ∧ σ' = apply bs σ) ∧
    ((¬ ∃ bs, Binds W false σ t x bs) → ∃ σ', header W σ t x = .err σ' ∧ ∀ k, k ∉ t.vars W → σ' k = σ k) := by
  have hchk : header W σ t x = set W true false true σ t x := by
    unfold header
    cases t with
    | var d p => rw [set, set]; rfl
    | ext d p => rw [set, set]
    | nothing => rw [set, set]
    | list ts => cases x <;> rw [set, set] <;> nofun
    | merge ts =>
      cases x with
      | arr sh es => cases sh <;> rw [set, set] <;> nofun
      | atom _ => rw [set, set] <;> nofun
      | ns _ _ => rw [set, set] <;> nofun
      | noVar => rw [set, set] <;> nofun
      | optOut => rw [set, set] <;> nofun
    | alias t g => rw [set, set]
    | verify v => rw [set, set]
  have hflat : ∀ t : T, t.flat true = true := by
    apply T.rec (motive_1 := fun t => t.flat true = true) (motive_2 := fun ts => flatL true ts = true)
    · intros; rfl
    · intros; rfl
    · rfl
    · intro ts h; rw [T.flat, h]; rfl
    · intro ts h; rw [T.flat, h]
    · intro t g h; rw [T.flat, h]
    · intros; rfl
    · rfl
    · intro t ts h1 h2; rw [flatL, h1, h2]; rfl
  have hg := set_good W true false true t x σ hσ hx
  rw [hchk]
  have iff1 : ∀ σ', set W true false true σ t x = .ok σ' ↔ ∃ bs, Binds W false σ t x bs ∧ σ' = apply bs σ := by
    intro σ'
    constructor
    · exact set_sound W true false t x σ σ' hσ hx
    · rintro ⟨bs, hb, rfl⟩
      exact set_complete W true false t x σ bs ht hb
  refine ⟨iff1, ?_⟩
  intro h
  cases hs : set W true false true σ t x with
  | ok σ' =>
    obtain ⟨bs, hb, _⟩ := (iff1 σ').1 hs
    exact absurd ⟨bs, hb⟩ h
  | err σ' => rw [hs] at hg; exact ⟨σ', rfl, hg.2⟩
  | ud =>
    rw [hs] at hg
    rcases (show t.fits true = false ∨ t.flat true = false from hg) with hg | hg
    · rw [ht] at hg; cases hg
    · rw [hflat t] at hg; cases hg

/-- Values stay well-formed. -/
theorem assign_wf {W : World} {upd : Bool} {σ σ' : Store} {t : T} {x : V} (hσ : WfS σ) (hx : x.Wf) (h : assign W upd σ t x = .ok σ' ∨ assign W upd σ t x = .err σ') : WfS σ' := by
  have hg := set_good W false upd true t x σ hσ hx
  unfold assign at h
  rcases h with h | h <;> rw [h] at hg <;> exact hg.1

/-! ## Modified assignment -/

/-- What a function that is called with the value of the target does: it gets that value, and while it runs the variables of the target can't be read. Then the target is assigned its result. -/
theorem modify_calls {W : World} {F : V → Store → G V} {σ σ2 : Store} {t : T} {w r : V} (hv : Value W σ t w) (hn : (t.vars W).Nodup) (hF : F w (taken (t.vars W) σ) = .ok r σ2) :
    (∀ d p, t = .var d p → modify W F σ t = .ok fun k => if k = .var (W.scope d) p then r else σ2 k) ∧
    ((∀ d p, t ≠ .var d p) → modify W F σ t = assign W true σ2 t r) := by
  have hg := (get_iff W t σ _ w).2 ⟨hv, hn, rfl⟩
  have e : modify W F σ t = set W false true false σ2 t r := by
    unfold modify
    rw [hg]
    dsimp only
    rw [hF]
  rw [e]
  constructor
  · rintro d p rfl
    rw [set]; rfl
  · intro ht
    unfold assign
    cases t with
    | var d p => exact absurd rfl (ht d p)
    | ext d p => rw [set, set]
    | nothing => rw [set, set]
    | list ts => cases r <;> rw [set, set] <;> nofun
    | merge ts =>
      cases r with
      | arr sh es => cases sh <;> rw [set, set] <;> nofun
      | atom _ => rw [set, set] <;> nofun
      | ns _ _ => rw [set, set] <;> nofun
      | noVar => rw [set, set] <;> nofun
      | optOut => rw [set, set] <;> nofun
    | alias t g => rw [set, set]
    | verify v => rw [set, set]

/-- If the function fails that's where it ends. -/
theorem modify_error {W : World} {F : V → Store → G V} {σ σ2 : Store} {t : T} {w : V} (hv : Value W σ t w) (hn : (t.vars W).Nodup) (hF : F w (taken (t.vars W) σ) = .err σ2) : modify W F σ t = .err σ2 := by
  unfold modify
  rw [(get_iff W t σ _ w).2 ⟨hv, hn, rfl⟩]
  dsimp only
  rw [hF]

/-- Without a value, or when a variable occurs twice, the function isn't called, and it's an error. Variables of the target may have become unavailable. -/
theorem modify_needs {W : World} {σ : Store} {t : T} (ht : t.plain = true) (h : ¬ ((∃ w, Value W σ t w) ∧ (t.vars W).Nodup)) :
    ∃ σ', (∀ F, modify W F σ t = .err σ') ∧ ∀ k, σ' k = σ k ∨ (k ∈ t.vars W ∧ σ' k = .optOut) := by
  have hg := get_good W t σ ht
  cases hs : get W σ t with
  | ok w σ' =>
    obtain ⟨h1, h2, _⟩ := (get_iff W t σ σ' w).1 hs
    exact absurd ⟨⟨w, h1⟩, h2⟩ h
  | err σ' =>
    rw [hs] at hg
    refine ⟨σ', fun F => ?_, hg⟩
    unfold modify
    rw [hs]
  | ud => rw [hs] at hg; exact hg.elim

/-- `t F↩` is the same as `t↩F t` for a function that only computes. -/
theorem modify_assign {W : World} {σ : Store} {t : T} {w : V} (f : V → V) (ht : t.plain = true) (hv : Value W σ t w) (hn : (t.vars W).Nodup) (hf : (f w).noNs = true) (σ' : Store) :
    modify W (fun w σ => .ok (f w) σ) σ t = .ok σ' ↔ assign W true σ t (f w) = .ok σ' := by
  have hd := value_defined W σ t w hv
  have hg := (get_iff W t σ _ w).2 ⟨hv, hn, rfl⟩
  have e : modify W (fun w σ => .ok (f w) σ) σ t = set W false true false (taken (t.vars W) σ) t (f w) := by
    unfold modify
    rw [hg]
  have htaken : ∀ k ∈ t.vars W, taken (t.vars W) σ k ≠ .noVar := by
    intro k hk
    unfold taken
    rw [if_pos hk]
    exact nofun
  rw [e, set_chk htaken]
  have hag : Agree (· ∈ t.vars W) (taken (t.vars W) σ) σ := ⟨fun k hk => taken_of hk, fun k hk => ⟨htaken k hk, (hd k hk).1⟩⟩
  have hr := set_agree W true t (f w) (· ∈ t.vars W) _ _ hag ht hf
  unfold assign
  cases h1 : set W false true true (taken (t.vars W) σ) t (f w) with
  | ok a =>
    cases h2 : set W false true true σ t (f w) with
    | ok b =>
      rw [h1, h2] at hr
      have : a = b := funext fun k => hr.1 k fun h => h.2 h.1
      rw [this]
    | err b => rw [h1, h2] at hr; exact hr.elim
    | ud => rw [h1, h2] at hr; exact hr.elim
  | err a =>
    cases h2 : set W false true true σ t (f w) with
    | ok b => rw [h1, h2] at hr; exact hr.elim
    | err b => exact ⟨nofun, nofun⟩
    | ud => exact ⟨nofun, nofun⟩
  | ud =>
    cases h2 : set W false true true σ t (f w) with
    | ok b => rw [h1, h2] at hr; exact hr.elim
    | err b => exact ⟨nofun, nofun⟩
    | ud => exact ⟨nofun, nofun⟩

/-- `t ⊢↩` changes nothing. In `[…]` that's true of arrays; cells are never atoms. -/
theorem modify_same {W : World} {σ : Store} {t : T} {w : V} (ht : t.plain = true) (hm : t.noMerge = true ∨ Arrays σ (t.vars W)) (hv : Value W σ t w) (hn : (t.vars W).Nodup) :
    modify W (fun w σ => .ok w σ) σ t = .ok σ := by
  have hg := (get_iff W t σ _ w).2 ⟨hv, hn, rfl⟩
  have htaken : ∀ k ∈ t.vars W, taken (t.vars W) σ k ≠ .noVar := by
    intro k hk
    unfold taken
    rw [if_pos hk]
    exact nofun
  have hfits : ∀ t : T, t.plain = true → t.fits false = true := by
    apply T.rec (motive_1 := fun t => t.plain = true → t.fits false = true) (motive_2 := fun ts => plainL ts = true → fitsL false ts = true)
    · intros; rfl
    · intros; rfl
    · intro h; cases h
    · intro ts ih h; rw [T.plain] at h; rw [T.fits]; exact ih h
    · intro ts ih h; rw [T.plain] at h; rw [T.fits]; exact ih h
    · intro t g ih h; cases h
    · intro v h; cases h
    · intro _; rfl
    · intro t ts h1 h2 h
      rw [plainL, Bool.and_eq_true] at h
      rw [fitsL, h1 h.1, h2 h.2]; rfl
  unfold modify
  rw [hg]
  dsimp only
  rw [set_chk htaken, set_complete W false true t w _ _ (hfits t ht) (value_binds W σ t w _ hv hm htaken)]
  congr 1
  funext k
  rw [apply_keys]
  by_cases hk : k ∈ t.vars W
  · rw [if_pos hk]
  · rw [if_neg hk, taken_of hk]

/-! ## Reading -/

/-- A variable is read exactly if it's available. -/
theorem read_var {W : World} {σ : Store} {d p : Nat} {v : V} : readVar W σ d p = some v ↔ v = σ (.var (W.scope d) p) ∧ v.Avail := by
  unfold readVar
  cases h : badRead (σ (.var (W.scope d) p)) with
  | true =>
    rw [if_pos rfl]
    refine ⟨nofun, ?_⟩
    rintro ⟨rfl, h'⟩
    rw [badRead_iff.2 h'] at h
    cases h
  | false =>
    simp only [Bool.false_eq_true, if_false]
    constructor
    · intro h'; cases h'; exact ⟨rfl, badRead_iff.1 h⟩
    · rintro ⟨rfl, _⟩; rfl

/-- A field is the variable that's exported by its name; setting it sets this one. -/
theorem read_field {σ : Store} {s : Nat} {e : List (Option Nat)} {g : Nat} : (∀ v, readField σ (.ns s e) g = some v ↔ ∃ k, Field s e g k ∧ v = σ k) ∧
    ∀ v σ', setField σ (.ns s e) g v = some σ' ↔ ∃ k, Field s e g k ∧ σ' = apply [(k, v)] σ := by
  unfold readField setField
  constructor
  · intro v
    rw [Option.map_eq_some_iff]
    constructor
    · rintro ⟨i, h, rfl⟩; exact ⟨_, field_iff.2 ⟨i, h, rfl⟩, rfl⟩
    · rintro ⟨k, hk, rfl⟩
      obtain ⟨i, h, rfl⟩ := field_iff.1 hk
      exact ⟨i, h, rfl⟩
  · intro v σ'
    rw [Option.map_eq_some_iff]
    constructor
    · rintro ⟨i, h, rfl⟩; exact ⟨_, field_iff.2 ⟨i, h, rfl⟩, rfl⟩
    · rintro ⟨k, hk, rfl⟩
      obtain ⟨i, h, rfl⟩ := field_iff.1 hk
      exact ⟨i, h, rfl⟩

/-! ## Examples -/

/-- Variables 0, 1, 2 of scope 0 are named 10, 11, 12. -/
def world : World := ⟨fun d => d, fun _ p => some (10 + p), fun _ p => p, fun _ _ => true⟩
def store : Store := fun k => if k = .var 0 0 then .atom 5 else if k = .var 0 1 then .arr [2] [.atom 6, .atom 7] else .noVar

theorem store_wf : WfS store := by
  intro k
  unfold store
  by_cases h0 : k = .var 0 0
  · rw [if_pos h0]; trivial
  · rw [if_neg h0]
    by_cases h1 : k = .var 0 1
    · rw [if_pos h1, V.Wf]; exact ⟨rfl, ⟨trivial, trivial, trivial⟩⟩
    · rw [if_neg h1]; trivial

/-- `⟨a,[·,c]⟩←⟨1,2‿3⟩` -/
example : Binds world false store (.list [.var 0 0, .merge [.nothing, .var 0 2]]) (.arr [2] [.atom 1, .arr [2] [.atom 2, .atom 3]]) ([(.var 0 0, .atom 1)] ++ (([] ++ ([(.var 0 2, .arr [] [.atom 3])] ++ [])) ++ [])) :=
  .list (.cons (.var nofun) (.cons (.merge (cells := [[.atom 2], [.atom 3]]) (sh := []) (by simp [prod]) (.cons .nothing (.cons (.var nofun) .nil))) .nil))

/-- `a‿c↩1‿2` fails since `c` isn't defined; `a` is changed. -/
example : ∃ σ', assign world true store (.list [.var 0 0, .var 0 2]) (.arr [2] [.atom 1, .atom 2]) = .err σ' ∧ σ' (.var 0 0) = .atom 1 := ⟨_, rfl, rfl⟩

example : ∃ w, Value world store (.list [.var 0 0, .var 0 1]) w ∧ ((T.list [.var 0 0, .var 0 1]).vars world).Nodup :=
  ⟨_, .list (.cons (.var ⟨nofun, nofun⟩) (.cons (.var ⟨nofun, nofun⟩) .nil)), by decide⟩

/-! ## Defects -/

/-- A variable whose value has been taken by `F↩` that failed can't be read, but as a field of a namespace it can: the mark in its place is given as a value. -/
theorem field_leaks : ∃ σ', modify world (fun _ σ => .err σ) store (.var 0 0) = .err σ' ∧ readVar world σ' 0 0 = none ∧ readField σ' (.ns 0 [some 10]) 10 = some .optOut :=
  ⟨_, rfl, rfl, rfl⟩

/-- `⟨[b]⟩←n` with a namespace `n` isn't noticed to be an error: the array is used as an alias. -/
theorem merge_in_fields (e : List (Option Nat)) : assign world false store (.list [.merge [.var 0 1]]) (.ns 0 e) = .ud := rfl

/-- `[a] ⊢↩` encloses an atom. -/
theorem merge_encloses : ∃ σ', modify world (fun w σ => .ok w σ) store (.merge [.var 0 0]) = .ok σ' ∧ σ' (.var 0 0) = .arr [] [.atom 5] := ⟨_, rfl, rfl⟩

end Verif.Assign
