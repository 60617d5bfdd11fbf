import Verif.Train.Model
/-!
# Trains and combinators: what each does with what is held
-/
namespace Verif.Train
variable {σ : Type}

/-- From holding `o`, `m` doesn't use a reference that isn't held, and what it returns and then holds is as `K` says. It may fail or reach the number of nested calls if `b` says so. -/
def wp {β : Type} (b : Bool × Bool) (m : M σ β) (s : σ) (o : Nat → Nat) (K : β → σ → (Nat → Nat) → Prop) : Prop :=
  ∀ H, (∀ i, o i ≤ H i) → match m H s with
    | .ok r H' s' => ∃ o', K r s' o' ∧ ∀ i, H' i + o i = H i + o' i
    | .ub => False
    | .err => b.1 = true
    | .out => b.2 = true

theorem wp_pure {β} {b : Bool × Bool} {r : β} {s : σ} {o} {K : β → σ → (Nat → Nat) → Prop} (h : K r s o) : wp b (pure r : M σ β) s o K :=
  fun _ _ => ⟨o, h, fun _ => rfl⟩

theorem wp_bind {β γ} {b : Bool × Bool} {m : M σ β} {k : β → M σ γ} {s : σ} {o} {K1 : β → σ → (Nat → Nat) → Prop} {K : γ → σ → (Nat → Nat) → Prop}
    (h1 : wp b m s o K1) (h2 : ∀ r s1 o1, K1 r s1 o1 → wp b (k r) s1 o1 K) : wp b (m >>= k) s o K := by
  intro H hH
  have h1 := h1 H hH
  show match (match m H s with | .ok r H s => k r H s | .err => .err | .ub => .ub | .out => .out) with
    | .ok r H' s' => ∃ o', K r s' o' ∧ ∀ i, H' i + o i = H i + o' i
    | .ub => False
    | .err => b.1 = true
    | .out => b.2 = true
  cases hm : m H s with
  | ok r H1 s1 =>
    rw [hm] at h1
    obtain ⟨o1, hk, ho⟩ := h1
    have h2 := h2 r s1 o1 hk H1 fun i => by have := ho i; have := hH i; omega
    dsimp only
    revert h2
    cases k r H1 s1 with
    | ok r' H2 s2 =>
      rintro ⟨o2, hk2, ho2⟩
      exact ⟨o2, hk2, fun i => by have := ho i; have := ho2 i; omega⟩
    | err => exact id
    | ub => exact id
    | out => exact id
  | err => rw [hm] at h1; exact h1
  | ub => rw [hm] at h1; exact h1
  | out => rw [hm] at h1; exact h1

theorem wp_mono {β} {b : Bool × Bool} {m : M σ β} {s : σ} {o} {K K' : β → σ → (Nat → Nat) → Prop} (h : wp b m s o K) (hk : ∀ r s' o', K r s' o' → K' r s' o') : wp b m s o K' := by
  intro H hH
  have h := h H hH
  revert h
  cases m H s with
  | ok r H' s' => rintro ⟨o', h1, h2⟩; exact ⟨o', hk _ _ _ h1, h2⟩
  | err => exact id
  | ub => exact id
  | out => exact id

/-- What is held besides stays. -/
theorem wp_frame {β} {b : Bool × Bool} {m : M σ β} {s : σ} {o} {K : β → σ → (Nat → Nat) → Prop} (f : Nat → Nat) (h : wp b m s o K) :
    wp b m s (fun i => o i + f i) fun r s' o' => ∃ o1, K r s' o1 ∧ o' = fun i => o1 i + f i := by
  intro H hH
  have h := h H fun i => by have : o i + f i ≤ H i := hH i; omega
  revert h
  cases m H s with
  | ok r H' s' => rintro ⟨o', h1, h2⟩; exact ⟨_, ⟨o', h1, rfl⟩, fun i => by have := h2 i; show H' i + (o i + f i) = H i + (o' i + f i); omega⟩
  | err => exact id
  | ub => exact id
  | out => exact id

theorem refs_id {v : V} : (v.id? = none ∧ ∀ i, v.refs i = 0) ∨ ∃ j, v.id? = some j ∧ ∀ i, v.refs i = if i = j then 1 else 0 := by
  cases v <;> first
    | exact .inl ⟨rfl, fun _ => rfl⟩
    | exact .inr ⟨_, rfl, fun i => by show (if _ = i then 1 else 0) = _; split <;> split <;> first | rfl | omega⟩

theorem wp_incPart {b : Bool × Bool} {v : V} {s : σ} {o} {K : V → σ → (Nat → Nat) → Prop} (h : K v s fun i => o i + v.refs i) : wp b (incPart v) s o K := by
  intro H hH
  rcases refs_id (v := v) with ⟨e, hr⟩ | ⟨j, e, hr⟩
  · unfold incPart
    rw [e]
    exact ⟨_, h, fun i => by rw [hr]; omega⟩
  · unfold incPart
    rw [e]
    refine ⟨_, h, fun i => ?_⟩
    rw [hr]
    show (if i = j then H i + 1 else H i) + o i = _
    split <;> omega

theorem wp_inc {b : Bool × Bool} {v : V} {s : σ} {o} {K : V → σ → (Nat → Nat) → Prop} (ho : ∀ i, v.refs i ≤ o i) (h : K v s fun i => o i + v.refs i) : wp b (inc v) s o K := by
  intro H hH
  rcases refs_id (v := v) with ⟨e, hr⟩ | ⟨j, e, hr⟩
  · unfold inc
    rw [e]
    exact ⟨_, h, fun i => by rw [hr]; omega⟩
  · unfold inc
    rw [e]
    have : H j ≠ 0 := by
      have h1 := ho j
      have h2 := hH j
      rw [hr, if_pos rfl] at h1
      omega
    dsimp only
    rw [if_neg this]
    refine ⟨_, h, fun i => ?_⟩
    rw [hr]
    show (if i = j then H i + 1 else H i) + o i = _
    split <;> omega

theorem wp_dec {b : Bool × Bool} {v : V} {s : σ} {o} {K : Unit → σ → (Nat → Nat) → Prop} (h : K () s o) : wp b (dec v) s (fun i => o i + v.refs i) K := by
  intro H hH
  have hH : ∀ i, o i + v.refs i ≤ H i := hH
  rcases refs_id (v := v) with ⟨e, hr⟩ | ⟨j, e, hr⟩
  · unfold dec
    rw [e]
    exact ⟨_, h, fun i => by show H i + (o i + v.refs i) = H i + o i; rw [hr]; rfl⟩
  · unfold dec
    rw [e]
    have : H j ≠ 0 := by
      have h2 := hH j
      rw [hr, if_pos rfl] at h2
      omega
    dsimp only
    rw [if_neg this]
    refine ⟨_, h, fun i => ?_⟩
    have hi := hH i
    show (if i = j then H i - 1 else H i) + (o i + v.refs i) = _
    rw [hr] at hi ⊢
    split <;> simp_all <;> omega

theorem wp_own {β} {b : Bool × Bool} {m : M σ β} {s : σ} {o o' : Nat → Nat} {K : β → σ → (Nat → Nat) → Prop} (h : wp b m s o K) (e : ∀ i, o' i = o i) : wp b m s o' K := by
  rwa [show o' = o from funext e]

theorem argRefs_none (i : Nat) (x : V) : argRefs i none x = x.refs i := rfl
theorem argRefs_some (i : Nat) (w x : V) : argRefs i (some w) x = x.refs i + w.refs i := rfl

theorem wp_decArgs {b : Bool × Bool} {w : Option V} {x : V} {s : σ} {o} {K : Unit → σ → (Nat → Nat) → Prop} (h : K () s o) :
    wp b (decArgs w x) s (fun i => o i + argRefs i w x) K := by
  cases w with
  | none => exact wp_dec h
  | some w =>
    unfold decArgs
    refine wp_bind (K1 := fun _ s1 o1 => s1 = s ∧ o1 = fun i => o i + x.refs i) ?_ ?_
    · exact wp_own (wp_dec ⟨rfl, rfl⟩) fun i => by rw [argRefs_some, Nat.add_assoc]
    · rintro _ _ _ ⟨rfl, rfl⟩
      exact wp_dec h

theorem wp_incArgs {b : Bool × Bool} {w : Option V} {x : V} {s : σ} {o} {K : Unit → σ → (Nat → Nat) → Prop} (ho : ∀ i, argRefs i w x ≤ o i) (h : K () s fun i => o i + argRefs i w x) :
    wp b (incArgs w x) s o K := by
  cases w with
  | none => exact wp_bind (K1 := fun _ s1 o1 => s1 = s ∧ o1 = fun i => o i + x.refs i) (wp_inc ho ⟨rfl, rfl⟩) (by rintro _ _ _ ⟨rfl, rfl⟩; exact wp_pure h)
  | some w =>
    have ho : ∀ i, x.refs i + w.refs i ≤ o i := ho
    unfold incArgs
    refine wp_bind (K1 := fun _ s1 o1 => s1 = s ∧ o1 = fun i => o i + w.refs i) ?_ ?_
    · exact wp_bind (K1 := fun _ s1 o1 => s1 = s ∧ o1 = fun i => o i + w.refs i) (wp_inc (fun i => by have := ho i; omega) ⟨rfl, rfl⟩)
        (by rintro _ _ _ ⟨rfl, rfl⟩; exact wp_pure ⟨rfl, rfl⟩)
    · rintro _ _ _ ⟨rfl, rfl⟩
      refine wp_bind (K1 := fun _ s2 o1 => s2 = _ ∧ o1 = fun i => o i + w.refs i + x.refs i) (wp_inc (fun i => by have := ho i; omega) ⟨rfl, rfl⟩) ?_
      rintro _ _ _ ⟨rfl, rfl⟩
      refine wp_pure ?_
      have e : (fun i => o i + argRefs i (some w) x) = fun i => o i + w.refs i + x.refs i := funext fun i => by rw [argRefs_some]; omega
      rwa [e] at h

/-- Only the result is held. -/
def Gives (Q : V → σ → Prop) : V → σ → (Nat → Nat) → Prop := fun r s' o' => Q r s' ∧ o' = fun i => r.refs i

/-- A call, from holding the arguments to holding the result. -/
def C (b : Bool × Bool) (call : V → Option V → V → M σ V) (f : V) (w : Option V) (x : V) (s : σ) (Q : V → σ → Prop) : Prop :=
  wp b (cN call f w x) s (fun i => argRefs i w x) (Gives Q)

variable {b : Bool × Bool} {call : V → Option V → V → M σ V} {P : Prims σ}

theorem C.frame {f : V} {w : Option V} {x : V} {s : σ} {Q : V → σ → Prop} (h : C b call f w x s Q) (fr : Nat → Nat) {o : Nat → Nat} (ho : ∀ i, o i = argRefs i w x + fr i) :
    wp b (cN call f w x) s o fun r s' o' => Q r s' ∧ o' = fun i => r.refs i + fr i := by
  rw [show o = fun i => argRefs i w x + fr i from funext ho]
  refine wp_mono (wp_frame fr h) ?_
  rintro r s' o' ⟨o1, ⟨h1, rfl⟩, rfl⟩
  exact ⟨h1, rfl⟩

theorem cN_fun {f : V} (h : f.isFun = true) (w : Option V) (x : V) : cN call f w x = call f w x := by
  unfold cN
  rw [if_pos h]

/-- What isn't callable is its own result. -/
theorem C_value {f : V} {w : Option V} {x : V} {s : σ} {Q : V → σ → Prop} (h1 : f.isFun = false) (h2 : f.isMd = false) (h : Q f s) : C b call f w x s Q := by
  unfold C cN errMd
  rw [h1, h2]
  simp only [Bool.false_eq_true, if_false]
  refine wp_bind (K1 := fun _ s1 o1 => s1 = s ∧ o1 = fun _ => 0) (wp_own (wp_decArgs (o := fun _ => 0) ⟨rfl, rfl⟩) fun i => by omega) ?_
  rintro _ s1 _ ⟨rfl, rfl⟩
  refine wp_bind (K1 := fun _ s2 o1 => s2 = s1 ∧ o1 = fun _ => 0) (wp_pure ⟨rfl, rfl⟩) ?_
  rintro _ s2 _ ⟨rfl, rfl⟩
  exact wp_incPart ⟨h, funext fun i => by omega⟩

/-- The other way round. -/
theorem C.value {f : V} {w : Option V} {x : V} {s : σ} {Q : V → σ → Prop} (h1 : f.isFun = false) (h2 : f.isMd = false) (h : C b call f w x s Q) : Q f s := by
  have hv : C (false, false) call f w x s fun r s' => r = f ∧ s' = s := C_value h1 h2 ⟨rfl, rfl⟩
  replace h := h (fun i => argRefs i w x) fun _ => Nat.le_refl _
  replace hv := hv (fun i => argRefs i w x) fun _ => Nat.le_refl _
  revert h hv
  cases cN call f w x (fun i => argRefs i w x) s with
  | ok r H s' =>
    rintro ⟨_, ⟨h', _⟩, _⟩ ⟨_, ⟨⟨rfl, rfl⟩, _⟩, _⟩
    exact h'
  | err => intro _ h; cases h
  | ub => intro h; exact h.elim
  | out => intro _ h; cases h

/-- The call of a modifier fails. -/
theorem C.modifier {f : V} {w : Option V} {x : V} {s : σ} {Q : V → σ → Prop} (h2 : f.isMd = true) (h : C b call f w x s Q) : b.1 = true := by
  have h1 : f.isFun = false := by cases f <;> first | rfl | cases h2
  have hv : wp (true, false) (cN call f w x) s (fun i => argRefs i w x) fun _ _ _ => False := by
    unfold cN errMd
    rw [h1, h2]
    simp only [Bool.false_eq_true, if_false, if_true]
    refine wp_bind (K1 := fun _ _ _ => True) (wp_own (wp_decArgs (o := fun _ => 0) trivial) fun i => by omega) ?_
    intro _ _ _ _
    exact wp_bind (K1 := fun _ _ _ => False) (fun _ _ => rfl) fun _ _ _ h => h.elim
  have h := h (fun i => argRefs i w x) fun _ => Nat.le_refl _
  have hv := hv (fun i => argRefs i w x) fun _ => Nat.le_refl _
  revert h hv
  cases cN call f w x (fun i => argRefs i w x) s with
  | ok r H s' =>
    rintro _ ⟨_, h, _⟩
    exact h.elim
  | err => intro h _; exact h
  | ub => intro h; exact h.elim
  | out => intro _ h; cases h

theorem C_modifier {f : V} {w : Option V} {x : V} {s : σ} {Q : V → σ → Prop} (h2 : f.isMd = true) : C (true, b.2) call f w x s Q := by
  have h1 : f.isFun = false := by cases f <;> first | rfl | cases h2
  unfold C cN errMd
  rw [h1, h2]
  simp only [Bool.false_eq_true, if_false, if_true]
  refine wp_bind (K1 := fun _ _ _ => True) (wp_own (wp_decArgs (o := fun _ => 0) trivial) fun i => by omega) ?_
  intro _ _ _ _
  exact wp_bind (K1 := fun _ _ _ => False) (fun _ _ => rfl) fun _ _ _ h => h.elim

theorem errMd_bind {β} {f : V} (h : f.isMd = false) (k : Unit → M σ β) : (errMd f >>= k) = k () := by
  unfold errMd
  rw [h]
  rfl

theorem errMd_fail {β} {f : V} (h : f.isMd = true) (k : Unit → M σ β) : (errMd f >>= k) = fail := by
  unfold errMd
  rw [h]
  rfl

/-- Two calls, the second with the result of the first. -/
theorem fork_tail {f g : V} {w : Option V} {x hr : V} {s : σ} {Qf : V → σ → Prop} {Q : V → σ → Prop} {o : Nat → Nat} (ho : ∀ i, o i = argRefs i w x + hr.refs i)
    (h2 : C b call f w x s Qf) (h3 : ∀ fr s2, Qf fr s2 → C b call g (some fr) hr s2 Q) :
    wp b (do let fr ← cN call f w x; cN call g (some fr) hr) s o (Gives Q) := by
  refine wp_bind (h2.frame _ ho) ?_
  rintro fr s2 _ ⟨h, rfl⟩
  exact wp_own (h3 fr s2 h) fun i => by rw [argRefs_some, Nat.add_comm]

theorem fork_wp {f g h : V} {w : Option V} {x : V} {s : σ} {Qh : V → σ → Prop} {Qf : V → σ → V → σ → Prop} {Q : V → σ → Prop} (hm : f.isMd = false)
    (h1 : C b call h w x s Qh) (h2 : ∀ hr s1, Qh hr s1 → C b call f w x s1 (Qf hr s1)) (h3 : ∀ hr s1 fr s2, Qh hr s1 → Qf hr s1 fr s2 → C b call g (some fr) hr s2 Q) :
    wp b (forkN call f g h w x) s (fun i => argRefs i w x) (Gives Q) := by
  have gen : wp b (do
      incArgs w x
      let hr ← cN call h w x
      let fr ← cN call f w x
      cN call g (some fr) hr) s (fun i => argRefs i w x) (Gives Q) := by
    refine wp_bind (K1 := fun _ s1 o1 => s1 = s ∧ o1 = fun i => argRefs i w x + argRefs i w x) (wp_incArgs (fun _ => Nat.le_refl _) ⟨rfl, rfl⟩) ?_
    rintro _ s1 _ ⟨rfl, rfl⟩
    refine wp_bind (h1.frame _ fun _ => rfl) ?_
    rintro hr s1 _ ⟨hh, rfl⟩
    exact fork_tail (fun i => by omega) (h2 hr s1 hh) fun fr s2 hf => h3 hr s1 fr s2 hh hf
  unfold forkN
  by_cases c : g.isFun = false ∨ h.isFun = false
  · rw [if_pos c]
    exact gen
  · rw [if_neg c]
    have cg : g.isFun = true := by cases e : g.isFun <;> simp_all
    have ch : h.isFun = true := by cases e : h.isFun <;> simp_all
    by_cases cf : f.isFun = true
    · rw [if_pos cf]
      simp only [cN_fun cg, cN_fun ch, cN_fun cf] at gen
      exact gen
    · have cf : f.isFun = false := by simpa using cf
      rw [if_neg (by simp [cf])]
      have h1 : wp b (cN call h w x) s (fun i => argRefs i w x) (Gives Qh) := h1
      rw [cN_fun ch] at h1
      by_cases cv : f.isVal = true
      · rw [if_pos cv]
        refine wp_bind h1 ?_
        rintro hr s1 _ ⟨hh, rfl⟩
        refine wp_bind (K1 := fun r s2 o1 => r = f ∧ s2 = s1 ∧ o1 = fun i => hr.refs i + f.refs i) (wp_incPart ⟨rfl, rfl, rfl⟩) ?_
        rintro fr s2 _ ⟨rfl, rfl, rfl⟩
        have := h3 hr _ _ _ hh ((h2 hr _ hh).value cf hm)
        unfold C at this
        rw [cN_fun cg] at this
        exact this
      · rw [if_neg cv]
        refine wp_bind h1 ?_
        rintro hr s1 _ ⟨hh, rfl⟩
        have := h3 hr _ _ _ hh ((h2 hr _ hh).value cf hm)
        unfold C at this
        rw [cN_fun cg] at this
        refine wp_own this fun i => ?_
        rw [argRefs_some]
        rcases refs_id (v := f) with ⟨_, e⟩ | ⟨j, e, _⟩
        · rw [e]
          rfl
        · exact absurd (by unfold V.isVal; rw [e]; rfl) cv

theorem atop_wp {g h : V} {w : Option V} {x : V} {s : σ} {Qh : V → σ → Prop} {Q : V → σ → Prop}
    (h1 : C b call h w x s Qh) (h2 : ∀ hr s1, Qh hr s1 → C b call g none hr s1 Q) :
    wp b (do let b ← cN call h w x; cN call g none b) s (fun i => argRefs i w x) (Gives Q) := by
  refine wp_bind h1 ?_
  rintro hr s1 _ ⟨hh, rfl⟩
  exact h2 hr s1 hh

theorem swap_wp {f : V} {w : Option V} {x : V} {s : σ} {Q : V → σ → Prop} (h : C b call f (some x) (w.getD x) s Q) :
    wp b (md1N call .swap f w x) s (fun i => argRefs i w x) (Gives Q) := by
  cases w with
  | none =>
    unfold md1N
    dsimp only
    refine wp_bind (K1 := fun r s1 o1 => r = x ∧ s1 = s ∧ o1 = fun i => x.refs i + x.refs i) (wp_inc (fun _ => Nat.le_refl _) ⟨rfl, rfl, rfl⟩) ?_
    rintro _ _ _ ⟨rfl, rfl, rfl⟩
    exact h
  | some w =>
    unfold md1N
    dsimp only
    exact wp_own h fun i => by rw [argRefs_some]; exact Nat.add_comm _ _

theorem const_wp {f : V} {w : Option V} {x : V} {s : σ} {Q : V → σ → Prop} (h : Q f s) :
    wp b (md1N call .const f w x) s (fun i => argRefs i w x) (Gives Q) := by
  unfold md1N
  dsimp only
  refine wp_bind (K1 := fun _ s1 o1 => s1 = s ∧ o1 = fun _ => 0) (wp_own (wp_decArgs (o := fun _ => 0) ⟨rfl, rfl⟩) fun i => by omega) ?_
  rintro _ s1 _ ⟨rfl, rfl⟩
  exact wp_incPart ⟨h, funext fun i => by omega⟩

theorem before_wp {f g : V} {w : Option V} {x : V} {s : σ} {Qa : V → σ → Prop} {Q : V → σ → Prop}
    (h1 : C b call f none (w.getD x) s Qa) (h2 : ∀ a s1, Qa a s1 → C b call g (some a) x s1 Q) :
    wp b (md2N P call .before f g w x) s (fun i => argRefs i w x) (Gives Q) := by
  cases w with
  | some w =>
    unfold md2N
    dsimp only
    refine wp_bind (h1.frame (fun i => x.refs i) fun i => by rw [argRefs_some]; exact Nat.add_comm _ _) ?_
    rintro a s1 _ ⟨ha, rfl⟩
    exact wp_own (h2 a s1 ha) fun i => by rw [argRefs_some, Nat.add_comm]
  | none =>
    have h1 : C b call f none x s Qa := h1
    unfold md2N
    dsimp only
    by_cases cm : f.isMd = true
    · rw [if_pos (by simp [V.isCallable, cm]), errMd_fail cm]
      intro _ _
      exact h1.modifier cm
    · have cm : f.isMd = false := by simpa using cm
      by_cases cf : f.isFun = true
      · rw [if_pos (by simp [V.isCallable, cf]), errMd_bind cm]
        refine wp_bind (K1 := fun r s1 o1 => r = x ∧ s1 = s ∧ o1 = fun i => x.refs i + x.refs i) (wp_inc (fun _ => Nat.le_refl _) ⟨rfl, rfl, rfl⟩) ?_
        rintro x s1 _ ⟨rfl, rfl, rfl⟩
        rw [← cN_fun (call := call) cf]
        refine wp_bind (h1.frame (fun i => x.refs i) fun i => rfl) ?_
        rintro a s1 _ ⟨ha, rfl⟩
        exact wp_own (h2 a s1 ha) fun i => by rw [argRefs_some, Nat.add_comm]
      · have cf : f.isFun = false := by simpa using cf
        rw [if_neg (by simp [V.isCallable, cf, cm])]
        refine wp_bind (K1 := fun r s1 o1 => r = f ∧ s1 = s ∧ o1 = fun i => x.refs i + f.refs i) (wp_incPart ⟨rfl, rfl, rfl⟩) ?_
        rintro _ s1 _ ⟨rfl, rfl, rfl⟩
        exact h2 _ _ (h1.value cf cm)

theorem after_wp {f g : V} {w : Option V} {x : V} {s : σ} {Qa : V → σ → Prop} {Q : V → σ → Prop}
    (h1 : C b call g none x s Qa) (h2 : ∀ a s1, Qa a s1 → C b call f (some (w.getD x)) a s1 Q) :
    wp b (md2N P call .after f g w x) s (fun i => argRefs i w x) (Gives Q) := by
  cases w with
  | some w =>
    unfold md2N
    dsimp only
    refine wp_bind (h1.frame (fun i => w.refs i) fun i => rfl) ?_
    rintro a s1 _ ⟨ha, rfl⟩
    exact h2 a s1 ha
  | none =>
    have h2 : ∀ a s1, Qa a s1 → C b call f (some x) a s1 Q := h2
    unfold md2N
    dsimp only
    by_cases cm : g.isMd = true
    · rw [if_pos (by simp [V.isCallable, cm]), errMd_fail cm]
      intro _ _
      exact h1.modifier cm
    · have cm : g.isMd = false := by simpa using cm
      by_cases cf : g.isFun = true
      · rw [if_pos (by simp [V.isCallable, cf]), errMd_bind cm]
        refine wp_bind (K1 := fun r s1 o1 => r = x ∧ s1 = s ∧ o1 = fun i => x.refs i + x.refs i) (wp_inc (fun _ => Nat.le_refl _) ⟨rfl, rfl, rfl⟩) ?_
        rintro x s1 _ ⟨rfl, rfl, rfl⟩
        rw [← cN_fun (call := call) cf]
        refine wp_bind (h1.frame (fun i => x.refs i) fun i => rfl) ?_
        rintro a s1 _ ⟨ha, rfl⟩
        exact h2 a s1 ha
      · have cf : g.isFun = false := by simpa using cf
        rw [if_neg (by simp [V.isCallable, cf, cm])]
        refine wp_bind (K1 := fun r s1 o1 => r = g ∧ s1 = s ∧ o1 = fun i => x.refs i + g.refs i) (wp_incPart ⟨rfl, rfl, rfl⟩) ?_
        rintro _ s1 _ ⟨rfl, rfl, rfl⟩
        exact wp_own (h2 _ _ (h1.value cf cm)) fun i => by rw [argRefs_some, Nat.add_comm]

theorem over_wp {f g : V} {w x : V} {s : σ} {Qb : V → σ → Prop} {Qa : V → σ → V → σ → Prop} {Q : V → σ → Prop}
    (h1 : C b call g none x s Qb) (h2 : ∀ b' s1, Qb b' s1 → C b call g none w s1 (Qa b' s1)) (h3 : ∀ b' s1 a s2, Qb b' s1 → Qa b' s1 a s2 → C b call f (some a) b' s2 Q) :
    wp b (md2N P call .over f g (some w) x) s (fun i => argRefs i (some w) x) (Gives Q) := by
  unfold md2N
  dsimp only
  refine wp_bind (h1.frame (fun i => w.refs i) fun i => rfl) ?_
  rintro b' s1 _ ⟨hb, rfl⟩
  exact fork_tail (fun i => by rw [argRefs_none, Nat.add_comm]) (h2 b' s1 hb) fun a s2 ha => h3 b' s1 a s2 hb ha

theorem ci_wp {f : V} {w : Option V} {x : V} {s : σ} {Q : V → σ → Prop} (h : C b call f w x s Q) :
    wp b (ciN call f w x) s (fun i => argRefs i w x) fun r s' o' => Q r s' ∧ o' = fun i => r.refs i + argRefs i w x := by
  unfold ciN
  by_cases cf : f.isFun = true
  · rw [if_pos cf]
    have h := h.frame (fun i => argRefs i w x) (fun i => rfl)
    rw [cN_fun cf] at h
    cases w with
    | none =>
      dsimp only
      refine wp_bind (K1 := fun r s1 o1 => r = x ∧ s1 = s ∧ o1 = fun i => x.refs i + x.refs i) (wp_inc (fun _ => Nat.le_refl _) ⟨rfl, rfl, rfl⟩) ?_
      rintro _ s1 _ ⟨rfl, rfl, rfl⟩
      exact h
    | some w =>
      dsimp only
      refine wp_bind (K1 := fun _ s1 o1 => s1 = s ∧ o1 = fun i => argRefs i (some w) x + w.refs i) ?_ ?_
      · exact wp_bind (K1 := fun _ s1 o1 => s1 = s ∧ o1 = fun i => argRefs i (some w) x + w.refs i) (wp_inc (fun i => by rw [argRefs_some]; omega) ⟨rfl, rfl⟩)
          (by rintro _ _ _ ⟨rfl, rfl⟩; exact wp_pure ⟨rfl, rfl⟩)
      · rintro _ s1 _ ⟨rfl, rfl⟩
        refine wp_bind (K1 := fun r s2 o1 => r = x ∧ s2 = s1 ∧ o1 = fun i => argRefs i (some w) x + w.refs i + x.refs i) (wp_inc (fun i => by rw [argRefs_some]; omega) ⟨rfl, rfl, rfl⟩) ?_
        rintro _ s2 _ ⟨rfl, rfl, rfl⟩
        exact wp_own h fun i => by rw [argRefs_some]; omega
  · have cf : f.isFun = false := by simpa using cf
    rw [if_neg (by simp [cf])]
    by_cases cm : f.isMd = true
    · rw [errMd_fail cm]
      intro _ _
      exact h.modifier cm
    · have cm : f.isMd = false := by simpa using cm
      rw [errMd_bind cm]
      exact wp_incPart ⟨h.value cf cm, funext fun i => Nat.add_comm _ _⟩

theorem wrap_some {i : Int} {n k : Nat} : wrap i n = some k ↔ k < n ∧ (i = k ∨ i = k - n) := by
  unfold wrap
  dsimp only
  split <;> split
  · constructor
    · intro h; cases h
    · rintro ⟨h1, h2⟩; omega
  · rw [Option.some.injEq]; omega
  · constructor
    · intro h; cases h
    · rintro ⟨h1, h2⟩; omega
  · rw [Option.some.injEq]; omega

theorem chosen_unique {v g e e' : V} (h : Chosen P v g e) (h' : Chosen P v g e') : e = e' := by
  cases h with
  | @number k _ _ _ _ _ h1 h2 h3 => cases h' with
    | @number k' _ _ _ _ _ h1' h2' h3' =>
      have l1 := (List.getElem?_eq_some_iff.1 h3).1
      have l2 := (List.getElem?_eq_some_iff.1 h3').1
      rw [h1] at l1 l2
      subst h1
      subst h1'
      have : k = k' := by omega
      subst this
      rw [h3] at h3'
      exact Option.some.inj h3'
    | array h1' _ => exact absurd rfl (h1' _)
  | array h1 h2 => cases h' with
    | number => exact absurd rfl (h1 _)
    | array _ h2' => rw [h2] at h2'; exact Option.some.inj h2'

theorem cond_wp {f g : V} {w : Option V} {x : V} {s : σ} {Qi : V → σ → Prop} {Q : V → σ → Prop}
    (h1 : C b call f w x s Qi) (h2 : ∀ i s1 e, Qi i s1 → Chosen P i g e → C b call e w x s1 Q) (h3 : ∀ i s1, Qi i s1 → b.1 = true ∨ ∃ e, Chosen P i g e) :
    wp b (condN P call f g w x) s (fun i => argRefs i w x) (Gives Q) := by
  unfold condN
  refine wp_bind (ci_wp h1) ?_
  rintro i s1 _ ⟨hi, rfl⟩
  by_cases cn : i.isNum = true
  · rw [if_pos cn]
    obtain ⟨n, rfl⟩ : ∃ n, i = .num n := by cases i <;> first | exact ⟨_, rfl⟩ | cases cn
    have bad (hb : ∀ e, ¬ Chosen P (.num n) g e) {o} : wp b (fail : M σ V) s1 o (Gives Q) := by
      intro _ _
      rcases h3 _ _ hi with h | ⟨e, he⟩
      · exact h
      · exact absurd he (hb e)
    split
    · rename_i id els i hni
      cases hni
      cases hw : wrap i els.length with
      | none =>
        refine bad ?_
        rintro e (⟨hl, hk, he⟩ | ⟨h, _⟩)
        · subst hl
          rw [wrap_some.2 ⟨(List.getElem?_eq_some_iff.1 he).1, hk⟩] at hw
          cases hw
        · exact h _ rfl
      | some k =>
        obtain ⟨hk, hk'⟩ := wrap_some.1 hw
        dsimp only
        rw [List.getElem?_eq_getElem hk]
        dsimp only
        refine wp_own (h2 _ _ _ hi (.number rfl hk' (List.getElem?_eq_getElem hk))) fun j => ?_
        show 0 + _ = _
        omega
    · rename_i hno
      refine bad ?_
      rintro e (⟨hl, hk, he⟩ | ⟨h, _⟩)
      · exact hno _ _ _ rfl rfl
      · exact h _ rfl
  · rw [if_neg cn]
    have ci : ∀ n, i ≠ .num n := by rintro n rfl; exact cn rfl
    refine wp_bind (K1 := fun r s2 o1 => r = g ∧ s2 = s1 ∧ o1 = fun j => i.refs j + argRefs j w x + g.refs j) (wp_incPart ⟨rfl, rfl, rfl⟩) ?_
    rintro g s1 _ ⟨rfl, rfl, rfl⟩
    refine wp_bind (K1 := fun _ s2 o1 => s2 = s1 ∧ o1 = fun j => argRefs j w x + g.refs j) (wp_own (wp_dec ⟨rfl, rfl⟩) fun j => by omega) ?_
    rintro _ s1 _ ⟨rfl, rfl⟩
    refine wp_bind (K1 := fun _ s2 o1 => s2 = s1 ∧ o1 = fun j => argRefs j w x) (wp_dec ⟨rfl, rfl⟩) ?_
    rintro _ s1 _ ⟨rfl, rfl⟩
    cases hp : P.pick i g with
    | none =>
      intro _ _
      rcases h3 _ _ hi with h | ⟨e, he⟩
      · exact h
      · cases he with
        | number => exact absurd rfl (ci _)
        | array _ he => rw [hp] at he; cases he
    | some e =>
      have h := h2 _ _ e hi (.array ci hp)
      dsimp only
      refine wp_bind (K1 := fun r s2 o1 => r = e ∧ s2 = s1 ∧ o1 = fun j => argRefs j w x + e.refs j) (wp_incPart ⟨rfl, rfl, rfl⟩) ?_
      rintro e s1 _ ⟨rfl, rfl, rfl⟩
      refine wp_bind (h.frame _ fun _ => rfl) ?_
      rintro r s2 _ ⟨hr, rfl⟩
      refine wp_bind (K1 := fun _ s3 o1 => s3 = s2 ∧ o1 = fun j => r.refs j) (wp_dec ⟨rfl, rfl⟩) ?_
      rintro _ _ _ ⟨rfl, rfl⟩
      exact wp_pure ⟨hr, rfl⟩

theorem prim_wp {i : Nat} {w : Option V} {x : V} {s : σ} {Q : V → σ → Prop} (h : ∀ r s', P.fn i w x s = some (r, s') → Q r s') (hb : P.fn i w x s = none → b.1 = true) :
    wp b (runPrim P i w x) s (fun j => argRefs j w x) (Gives Q) := by
  unfold runPrim
  refine wp_bind (K1 := fun _ s1 o1 => s1 = s ∧ o1 = fun _ => 0) (wp_own (wp_decArgs (o := fun _ => 0) ⟨rfl, rfl⟩) fun i => by omega) ?_
  rintro _ s1 _ ⟨rfl, rfl⟩
  refine wp_bind (K1 := fun r s2 o1 => Q r s2 ∧ o1 = fun _ => 0) ?_ ?_
  · intro H hH
    dsimp only
    cases hp : P.fn i w x s1 with
    | none => exact hb hp
    | some q => exact ⟨fun _ => 0, ⟨h _ _ hp, rfl⟩, fun _ => rfl⟩
  · rintro r s2 _ ⟨hr, rfl⟩
    exact wp_incPart ⟨hr, funext fun i => by omega⟩

end Verif.Train
