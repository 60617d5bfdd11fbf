import Verif.Vm.Lemmas
/-! # Running a compiled body -/
namespace Verif.Vm
open Op

theorem loop_mono (E : Ctx) (bc : List Nat) : ∀ (fuel c : Nat) (h hM : Int) (out prog : List Nat) (m : Int),
    compileLoop E bc fuel c h hM out = some (.ok prog m) → hM ≤ m := by
  intro fuel
  induction fuel with
  | zero => intro c h hM out prog m hc; cases hc
  | succ fuel ih =>
    intro c h hM out prog m hc
    rw [compileLoop, Option.bind_eq_some_iff] at hc
    obtain ⟨o, _, hc⟩ := hc
    rw [Option.bind_eq_some_iff] at hc
    obtain ⟨⟨a, b⟩, _, hc⟩ := hc
    dsimp only at hc
    split at hc
    · cases hc
    · cases hc
    · split at hc
      · cases hc
      · split at hc
        · injection hc with hc; injection hc with _ hc; rw [← hc]; split <;> omega
        · have := ih _ _ _ _ _ _ hc
          split at this <;> omega

/-- The conditions on the instructions of a body. -/
def Fine (l : List (Op × Nat)) : Prop := ∀ p ∈ l, p.1 ∈ source ∧ (counted p.1 = true → p.2 < 2 ^ 31) ∧ (p.1 = ARMO → p.2 ≠ 0)

theorem emit_ret (E : Ctx) (o : Op) (a b : Nat) (h : Int) (ws : List Nat) (hr : emit E o a b h = .ok ws true) :
    (o = RETN ∨ o = RETD) ∧ (ws = [code RETN] ∧ h = 1 ∨ ws = [code POPS, code RETD] ∧ h = 1 ∨ ws = [code RETD] ∧ h = 0) := by
  cases o <;> first
    | (simp only [emit] at hr; split at hr <;> cases hr; done)
    | (simp only [emit] at hr; cases hr; done)
    | skip
  · rw [emit] at hr; split at hr
    · cases hr
    · rename_i h1
      injection hr with hr _
      exact ⟨.inl rfl, .inl ⟨hr.symm, by omega⟩⟩
  · rw [emit] at hr; split at hr
    · cases hr
    · rename_i h1
      refine ⟨.inr rfl, ?_⟩
      split at hr
      · split at hr
        · cases hr
        · split at hr
          · cases hr
          · injection hr with hr _
            exact .inl ⟨hr.symm, by omega⟩
      · injection hr with hr _
        split at hr
        · exact .inr (.inl ⟨hr.symm, by assumption⟩)
        · exact .inr (.inr ⟨hr.symm, by omega⟩)

theorem emit_noret (E : Ctx) (o : Op) (a b : Nat) (h : Int) (ws : List Nat) (hr : emit E o a b h = .ok ws false) : o ≠ RETN ∧ o ≠ RETD := by
  constructor
  · rintro rfl; rw [emit] at hr; split at hr <;> cases hr
  · rintro rfl; rw [emit] at hr
    split at hr
    · cases hr
    · split at hr
      · split at hr
        · cases hr
        · split at hr <;> cases hr
      · cases hr

theorem get_tail (pre tail : List Nat) (i : Nat) : (pre ++ tail)[pre.length + i]? = tail[i]? := by
  rw [List.getElem?_append_right (by omega)]; congr 1; omega

/-- The end of a body. -/
theorem ret_runs (pre ws : List Nat) (h : Int) (cap : Nat) (throws fails : Nat → Bool) (h1 : 1 ≤ cap) (f : Nat) (hf : ws.length ≤ f)
    (hw : ws = [code RETN] ∧ h = 1 ∨ ws = [code POPS, code RETD] ∧ h = 1 ∨ ws = [code RETD] ∧ h = 0) :
    exec (pre ++ ws) cap throws fails f pre.length h.toNat = some .left ∨ exec (pre ++ ws) cap throws fails f pre.length h.toNat = some (.returned 0) := by
  have retd : ∀ (p : List Nat) (k : Nat), exec (p ++ [code RETD]) cap throws fails (k + 1) p.length 0 = some (.returned 0) := by
    intro p k
    have : (p ++ [code RETD])[p.length]? = some (code RETD) := by simp
    rw [exec, this, Option.bind_some, ofCode_code, Option.bind_some]
    simp [add, pops, show 0 < cap by omega]
  rcases hw with ⟨hw, hh⟩ | ⟨hw, hh⟩ | ⟨hw, hh⟩
  · subst hw; subst hh
    obtain ⟨k, rfl⟩ : ∃ k, f = k + 1 := ⟨f - 1, by simp at hf; omega⟩
    right
    have : (pre ++ [code RETN])[pre.length]? = some (code RETN) := by simp
    rw [exec, this, Option.bind_some, ofCode_code, Option.bind_some]
    rfl
  · subst hw; subst hh
    obtain ⟨k, rfl⟩ : ∃ k, f = k + 2 := ⟨f - 2, by simp at hf; omega⟩
    have := runs_effect pre [code POPS] [code RETD] cap throws fails 1 POPS 0 1 false rfl rfl rfl (by omega) (by simp) (k + 1)
    simp only [List.append_assoc, List.cons_append, List.nil_append] at this
    rcases this with this | this
    · exact .inl this
    · right
      show exec _ _ _ _ _ _ 1 = _
      rw [this]
      have := retd (pre ++ [code POPS]) k
      simpa using this
  · subst hw; subst hh
    obtain ⟨k, rfl⟩ : ∃ k, f = k + 1 := ⟨f - 1, by simp at hf; omega⟩
    exact .inr (retd pre k)

theorem loop_runs (E : Ctx) (bc : List Nat) (cap : Nat) (throws fails : Nat → Bool) (h1 : 1 ≤ cap) :
    ∀ (fuel c : Nat) (h hM : Int) (out prog : List Nat) (m : Int) (prev : Bool),
    compileLoop E bc fuel c h hM out = some (.ok prog m) → 0 ≤ h → (prev = true → 1 ≤ h) → m ≤ cap →
    Fine (instrs bc fuel c) → CheckedValues prev (instrs bc fuel c) →
    ∃ tail, prog = out ++ tail ∧ ∀ f, tail.length ≤ f →
      exec prog cap throws fails f out.length h.toNat = some .left ∨ exec prog cap throws fails f out.length h.toNat = some (.returned 0) := by
  intro fuel
  induction fuel with
  | zero => intro c h hM out prog m prev hc; cases hc
  | succ fuel ih =>
    intro c h hM out prog m prev hc hh hp hm hfine hchk
    rw [compileLoop, Option.bind_eq_some_iff] at hc
    obtain ⟨o, ho, hc⟩ := hc
    rw [Option.bind_eq_some_iff] at hc
    obtain ⟨⟨a, b⟩, hab, hc⟩ := hc
    dsimp only at hc
    have hins : instrs bc (fuel + 1) c = (o, bc.getD (c + 1) 0) :: if o = RETN ∨ o = RETD then [] else instrs bc fuel (c + bL o) := by
      rw [instrs, ho]
    rw [hins] at hfine hchk
    split at hc
    · cases hc
    · cases hc
    · rename_i ws ret he
      split at hc
      · cases hc
      · rename_i hcons
        split at hc
        · -- the end
          rename_i hret
          subst hret
          injection hc with hc; injection hc with hc hc2
          subst hc
          obtain ⟨_, hw⟩ := emit_ret E o a b h ws he
          exact ⟨ws, rfl, fun f hf => ret_runs out ws h cap throws fails h1 f hf hw⟩
        · rename_i hret
          have hret : ret = false := by simpa using hret
          subst hret
          obtain ⟨n1, n2⟩ := emit_noret E o a b h ws he
          rw [if_neg (by simp [n1, n2])] at hfine hchk
          have hmono := loop_mono E bc _ _ _ _ _ _ _ hc
          have hle : h + stackDiff o a ≤ cap := by split at hmono <;> omega
          have hgood : Good o a prev := by
            obtain ⟨g1, g2, g3⟩ := hfine (o, bc.getD (c + 1) 0) (by simp)
            have hop : counted o = true → bc.getD (c + 1) 0 = a := by
              intro hco
              have hbl : bL o = 2 := by cases o <;> simp [counted] at hco <;> rfl
              rw [operands, if_neg (by omega), if_neg (by omega), if_pos hbl, Option.map_eq_some_iff] at hab
              obtain ⟨a', ha', hab⟩ := hab
              injection hab with hab _
              simp [List.getD, ha', hab]
            refine ⟨g1, fun x => hop x ▸ g2 x, fun x => ?_, hchk.1⟩
            have := hop (by subst x; rfl)
            exact this ▸ g3 x
          obtain ⟨s0, s1, s2, _⟩ := step E o a b h prev cap throws fails out ws [] hgood hh hp he hcons hle
          have hfine' : Fine (instrs bc fuel (c + bL o)) := fun p hp => hfine p (by simp [hp])
          obtain ⟨tail, ht, hrun⟩ := ih _ _ _ _ _ _ (leaves o prev) hc s0 s1 hm hfine' hchk.2
          refine ⟨ws ++ tail, by rw [ht, List.append_assoc], ?_⟩
          intro f hf
          rw [List.length_append] at hf
          obtain ⟨k, rfl⟩ : ∃ k, f = k + 1 := ⟨f - 1, by omega⟩
          obtain ⟨_, _, _, hr⟩ := step E o a b h prev cap throws fails out ws tail hgood hh hp he hcons hle
          rw [← ht] at hr
          rcases hr k with hr | hr
          · exact .inl hr
          · rw [hr]
            have := hrun k (by omega)
            rw [List.length_append] at this
            exact this

/-- The copies of the arguments. -/
theorem prelude_runs (cap : Nat) (throws fails : Nat → Bool) (h2 : 2 ≤ cap) (vam : Nat) (post : List Nat) : ∀ (us : List Bool) (i : Nat) (pre : List Nat) (k : Nat),
    (prelude vam us i).length ≤ k → ∃ k', k ≤ k' + (prelude vam us i).length ∧
    (exec (pre ++ prelude vam us i ++ post) cap throws fails k pre.length 0 = some .left ∨
     exec (pre ++ prelude vam us i ++ post) cap throws fails k pre.length 0 =
      exec (pre ++ prelude vam us i ++ post) cap throws fails k' (pre.length + (prelude vam us i).length) 0) := by
  intro us
  induction us with
  | nil => intro i pre k hk; exact ⟨k, by simp [prelude], .inr rfl⟩
  | cons u us ih =>
    intro i pre k hk
    cases u
    · have : prelude vam (false :: us) i = prelude vam us (i + 1) := rfl
      rw [this] at hk ⊢
      exact ih (i + 1) pre k hk
    · have hpre : prelude vam (true :: us) i = [code VARO, 0, i] ++ ([code VARM, 0, vam + i] ++ ([code SETN] ++ ([code POPS] ++ prelude vam us (i + 1)))) := rfl
      generalize hrest : prelude vam us (i + 1) = rest at *
      rw [hpre] at hk ⊢
      simp only [List.length_append, List.length_cons, List.length_nil] at hk ⊢
      obtain ⟨n, rfl⟩ : ∃ n, k = n + 4 := ⟨k - 4, by omega⟩
      have r1 := runs_effect pre [code VARO, 0, i] ([code VARM, 0, vam + i] ++ ([code SETN] ++ ([code POPS] ++ (rest ++ post)))) cap throws fails 0 VARO 2 0 true rfl rfl rfl
        (by omega) (fun _ => by omega) (n + 3)
      have r2 := runs_effect (pre ++ [code VARO, 0, i]) [code VARM, 0, vam + i] ([code SETN] ++ ([code POPS] ++ (rest ++ post))) cap throws fails 1 VARM 2 0 true rfl rfl rfl
        (by omega) (fun _ => by omega) (n + 2)
      have r3 := runs_effect (pre ++ [code VARO, 0, i] ++ [code VARM, 0, vam + i]) [code SETN] ([code POPS] ++ (rest ++ post)) cap throws fails 2 SETN 0 2 true rfl rfl rfl
        (by omega) (fun _ => by omega) (n + 1)
      have r4 := runs_effect (pre ++ [code VARO, 0, i] ++ [code VARM, 0, vam + i] ++ [code SETN]) [code POPS] (rest ++ post) cap throws fails 1 POPS 0 1 false rfl rfl rfl
        (by omega) (by simp) n
      have r5 := ih (i + 1) (pre ++ [code VARO, 0, i] ++ [code VARM, 0, vam + i] ++ [code SETN] ++ [code POPS]) n (by rw [hrest]; omega)
      rw [hrest] at r5
      simp only [List.append_assoc, List.length_append, List.length_cons, List.length_nil] at r1 r2 r3 r4 r5 ⊢
      generalize pre ++ ([code VARO, 0, i] ++ ([code VARM, 0, vam + i] ++ ([code SETN] ++ ([code POPS] ++ (rest ++ post))))) = prog at *
      obtain ⟨k', hk', r5⟩ := r5
      rcases r1 with r1 | r1
      · exact ⟨k' , by omega, .inl r1⟩
      rcases r2 with r2 | r2
      · exact ⟨k', by omega, .inl (r1.trans r2)⟩
      rcases r3 with r3 | r3
      · exact ⟨k', by omega, .inl (r1.trans (r2.trans r3))⟩
      rcases r4 with r4 | r4
      · exact ⟨k', by omega, .inl (r1.trans (r2.trans (r3.trans r4)))⟩
      rcases r5 with r5 | r5
      · exact ⟨k', by omega, .inl (r1.trans (r2.trans (r3.trans (r4.trans r5))))⟩
      · refine ⟨k', by omega, .inr ?_⟩
        have := r1.trans (r2.trans (r3.trans (r4.trans r5)))
        rw [this]; congr 1; omega

end Verif.Vm
