import Verif.Assign.Get
/-!
# Assignment: what doesn't matter
-/
namespace Verif.Assign

theorem noNsL_iff {vs : List V} : noNsL vs = true ↔ ∀ v ∈ vs, v.noNs = true := by
  induction vs with
  | nil => simp [noNsL]
  | cons v vs ih => rw [noNsL, Bool.and_eq_true, ih]; simp

theorem mem_chunks (k : Nat) : ∀ (n : Nat) (es c : List V), c ∈ chunks k n es → ∀ e ∈ c, e ∈ es := by
  intro n
  induction n with
  | zero => intro es c h; cases h
  | succ n ih =>
    intro es c h e he
    rw [chunks] at h
    rcases List.mem_cons.1 h with rfl | h
    · exact List.mem_of_mem_take he
    · exact List.mem_of_mem_drop (ih _ c h e he)

theorem noNs_cells {n : Nat} {sh : List Nat} {es : List V} (h : noNsL es = true) : noNsL (cellsOf n sh es) = true := by
  rw [noNsL_iff] at h ⊢
  intro v hv
  unfold cellsOf at hv
  by_cases h0 : n = 0
  · rw [if_pos h0] at hv; cases hv
  · rw [if_neg h0] at hv
    cases sh with
    | nil =>
      obtain ⟨e, he, rfl⟩ := List.mem_map.1 hv
      rw [V.noNs, noNsL, noNsL, Bool.and_true]
      exact h e he
    | cons m sh =>
      obtain ⟨c, hc, rfl⟩ := List.mem_map.1 hv
      rw [V.noNs, noNsL_iff]
      exact fun e he => h e (mem_chunks _ _ _ _ hc e he)

/-- Two stores that are the same but for some defined variables. -/
def Agree (S : Key → Prop) (σ1 σ2 : Store) : Prop := (∀ k, ¬ S k → σ1 k = σ2 k) ∧ ∀ k, S k → σ1 k ≠ .noVar ∧ σ2 k ≠ .noVar

def RelR (S : Key → Prop) : R → R → Prop
  | .ok a, .ok b => Agree S a b
  | .err _, .err _ => True
  | .ud, .ud => True
  | _, _ => False

theorem setVar_agree {S : Key → Prop} {chk : Bool} {σ1 σ2 : Store} (h : Agree S σ1 σ2) (k : Key) (x : V) : RelR (fun k' => S k' ∧ k' ∉ [k]) (setVar true chk σ1 k x) (setVar true chk σ2 k x) := by
  have hput : Agree (fun k' => S k' ∧ k' ∉ [k]) (put σ1 k x) (put σ2 k x) := by
    constructor
    · intro k' hk
      by_cases e : k' = k
      · rw [e, put_same, put_same]
      · rw [put_other e, put_other e]
        exact h.1 k' fun hs => hk ⟨hs, by simpa using e⟩
    · rintro k' ⟨hs, hk⟩
      have e : k' ≠ k := by simpa using hk
      rw [put_other e, put_other e]
      exact h.2 k' hs
  have hb : badWrite (σ1 k) = badWrite (σ2 k) := by
    by_cases hs : S k
    · have := h.2 k hs
      have e : ∀ v : V, v ≠ .noVar → badWrite v = false := by
        intro v hv
        cases hb : badWrite v with
        | false => rfl
        | true => exact absurd (isNoVar_iff.1 hb) hv
      rw [e _ this.1, e _ this.2]
    · rw [h.1 k hs]
  unfold setVar
  rw [hb]
  by_cases hc : (true && chk && badWrite (σ2 k)) = true
  · rw [if_pos hc, if_pos hc]; trivial
  · rw [if_neg hc, if_neg hc]; exact hput

theorem rel_then {S S' : Key → Prop} {r1 r2 : R} {f : Store → R} (h : RelR S r1 r2) (hf : ∀ σ1 σ2, Agree S σ1 σ2 → RelR S' (f σ1) (f σ2)) : RelR S' (r1.then f) (r2.then f) := by
  cases r1 with
  | ok a =>
    cases r2 with
    | ok b => exact hf a b h
    | err _ => exact h.elim
    | ud => exact h.elim
  | err a =>
    cases r2 with
    | ok b => exact h.elim
    | err _ => trivial
    | ud => exact h.elim
  | ud =>
    cases r2 with
    | ok b => exact h.elim
    | err _ => exact h.elim
    | ud => trivial

theorem rel_mono {S S' : Key → Prop} {r1 r2 : R} (h : RelR S r1 r2) (hs : ∀ k, S k ↔ S' k) : RelR S' r1 r2 := by
  have : S = S' := funext fun k => propext (hs k)
  rw [← this]; exact h

mutual
theorem set_agree (W : World) (chk : Bool) : ∀ (t : T) (x : V) (S : Key → Prop) (σ1 σ2 : Store), Agree S σ1 σ2 → t.plain = true → x.noNs = true → RelR (fun k => S k ∧ k ∉ t.vars W) (set W false true chk σ1 t x) (set W false true chk σ2 t x)
  | .var d p, x, S, σ1, σ2, h, _, _ => by rw [set, set]; exact setVar_agree h _ x
  | .ext d p, x, S, σ1, σ2, h, _, _ => by rw [set, set]; exact setVar_agree h _ x
  | .nothing, _, _, _, _, _, hp, _ => by cases hp
  | .list ts, .arr sh xs, S, σ1, σ2, h, hp, hx => by
    rw [set, set]
    rw [T.plain] at hp
    rw [V.noNs] at hx
    by_cases hs : sh = [ts.length]
    · rw [if_pos hs, if_pos hs, T.vars]
      exact setAll_agree W ts xs S σ1 σ2 h hp hx
    · rw [if_neg hs, if_neg hs]; trivial
  | .list ts, .ns s e, S, σ1, σ2, h, hp, hx => by cases hx
  | .list _, .atom _, S, σ1, σ2, h, hp, hx => by rw [set, set]; trivial; all_goals nofun
  | .list _, .noVar, S, σ1, σ2, h, hp, hx => by rw [set, set]; trivial; all_goals nofun
  | .list _, .optOut, S, σ1, σ2, h, hp, hx => by rw [set, set]; trivial; all_goals nofun
  | .merge ts, .arr [] es, S, σ1, σ2, h, hp, hx => by rw [set, set]; trivial; all_goals nofun
  | .merge ts, .arr (n :: sh) es, S, σ1, σ2, h, hp, hx => by
    rw [set, set]
    rw [T.plain] at hp
    rw [V.noNs] at hx
    by_cases hs : n = ts.length
    · rw [if_pos hs, if_pos hs, T.vars]
      exact setAll_agree W ts _ S σ1 σ2 h hp (noNs_cells hx)
    · rw [if_neg hs, if_neg hs]; trivial
  | .merge ts, .atom _, S, σ1, σ2, h, hp, hx => by rw [set, set]; trivial; all_goals nofun
  | .merge ts, .ns _ _, S, σ1, σ2, h, hp, hx => by cases hx
  | .merge ts, .noVar, S, σ1, σ2, h, hp, hx => by rw [set, set]; trivial; all_goals nofun
  | .merge ts, .optOut, S, σ1, σ2, h, hp, hx => by rw [set, set]; trivial; all_goals nofun
  | .alias _ _, _, _, _, _, _, hp, _ => by cases hp
  | .verify _, _, _, _, _, _, hp, _ => by cases hp
theorem setAll_agree (W : World) : ∀ (ts : List T) (xs : List V) (S : Key → Prop) (σ1 σ2 : Store), Agree S σ1 σ2 → plainL ts = true → noNsL xs = true → RelR (fun k => S k ∧ k ∉ varsL W ts) (setAll W false true σ1 ts xs) (setAll W false true σ2 ts xs)
  | [], _, S, σ1, σ2, h, _, _ => by
    rw [setAll, setAll]
    refine rel_mono (S := S) h fun k => ?_
    rw [varsL]
    exact ⟨fun h => ⟨h, by simp⟩, fun h => h.1⟩
  | _ :: _, [], S, σ1, σ2, h, _, _ => by rw [setAll, setAll]; trivial
  | t :: ts, x :: xs, S, σ1, σ2, h, hp, hx => by
    rw [plainL, Bool.and_eq_true] at hp
    rw [noNsL, Bool.and_eq_true] at hx
    rw [setAll, setAll]
    refine rel_mono (rel_then (set_agree W true t x S σ1 σ2 h hp.1 hx.1) fun a b hab => setAll_agree W ts xs _ a b hab hp.2 hx.2) fun k => ?_
    rw [varsL, List.mem_append]
    constructor
    · rintro ⟨⟨h1, h2⟩, h3⟩; exact ⟨h1, fun h => h.elim h2 h3⟩
    · rintro ⟨h1, h2⟩; exact ⟨⟨h1, fun h => h2 (.inl h)⟩, fun h => h2 (.inr h)⟩
end

/-- Whether a single variable is defined is checked, or known. -/
theorem set_chk {W : World} {upd : Bool} {σ : Store} {t : T} {x : V} (h : ∀ k ∈ t.vars W, σ k ≠ .noVar) : set W false upd false σ t x = set W false upd true σ t x := by
  cases t with
  | var d p =>
    rw [set, set]
    unfold setVar
    have : badWrite (σ (.var (W.scope d) p)) = false := by
      cases hb : badWrite (σ (.var (W.scope d) p)) with
      | false => rfl
      | true => exact absurd (isNoVar_iff.1 hb) (h _ (List.mem_singleton.2 rfl))
    rw [this, Bool.and_false, Bool.and_false]
  | ext d p => rw [set, set]
  | nothing => rw [set, set]
  | list ts => cases x <;> rw [set, set] <;> nofun
  | merge ts =>
    cases x with
    | arr sh es => cases sh <;> rw [set, set] <;> nofun
    | atom _ => rw [set, set] <;> nofun
    | ns _ _ => rw [set, set] <;> nofun
    | noVar => rw [set, set] <;> nofun
    | optOut => rw [set, set] <;> nofun
  | alias t g => rw [set, set]
  | verify v => rw [set, set]

end Verif.Assign
