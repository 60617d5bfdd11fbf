import Verif.Train.Lemmas
/-!
# Trains and combinators: calls of any depth
-/
namespace Verif.Train
variable {σ : Type} {P : Prims σ}

theorem chosen_clean (hp : ∀ v g e, Clean g → P.pick v g = some e → Clean e) {v g e : V} (hg : Clean g) (h : Chosen P v g e) : Clean e := by
  cases h with
  | number _ _ h => cases hg with
    | arr hg => exact hg _ (List.mem_of_getElem? h)
  | array _ h => exact hp _ _ _ hg h

theorem sound (hp : ∀ v g e, Clean g → P.pick v g = some e → Clean e) (n : Nat) : ∀ (f : V) (w : Option V) (x : V) (s : σ), Clean f → f.isFun = true →
    wp (true, true) (call P n f w x) s (fun i => argRefs i w x) (Gives (Runs P f w x s)) := by
  induction n with
  | zero => exact fun _ _ _ _ _ _ _ _ => rfl
  | succ n ih =>
    have ih : ∀ f w x s, Clean f → C (true, true) (call P n) f w x s (Runs P f w x s) := by
      intro f w x s hc
      cases h1 : f.isFun with
      | true =>
        unfold C
        rw [cN_fun h1]
        exact ih f w x s hc h1
      | false => cases h2 : f.isMd with
        | true => exact C_modifier (b := (true, true)) h2
        | false => exact C_value h1 h2 (.value h1 h2)
    intro f w x s hc hf
    cases hc with
    | num => cases hf
    | chr => cases hf
    | arr => cases hf
    | ns => cases hf
    | md => cases hf
    | fn => exact prim_wp (fun _ _ h => .prim h) fun _ => rfl
    | fork hm hcf hcg hch =>
      exact fork_wp hm (ih _ _ _ _ hch) (fun _ _ _ => ih _ _ _ _ hcf) fun hr s1 fr s2 h1 h2 => wp_mono (ih _ _ _ _ hcg) fun r s' o' h => ⟨.fork h1 h2 h.1, h.2⟩
    | atop hcg hch => exact atop_wp (ih _ _ _ _ hch) fun hr s1 h1 => wp_mono (ih _ _ _ _ hcg) fun r s' o' h => ⟨.train h1 h.1, h.2⟩
    | @md1 _ m _ hcf => cases m with
      | swap => exact swap_wp (wp_mono (ih _ _ _ _ hcf) fun r s' o' h => ⟨.swap h.1, h.2⟩)
      | const => exact const_wp (call := call P n) .const
    | @md2 _ m _ _ hcf hcg => cases m with
      | atop => exact atop_wp (ih _ _ _ _ hcg) fun hr s1 h1 => wp_mono (ih _ _ _ _ hcf) fun r s' o' h => ⟨.atop h1 h.1, h.2⟩
      | over => cases w with
        | none => exact atop_wp (ih _ _ _ _ hcg) fun hr s1 h1 => wp_mono (ih _ _ _ _ hcf) fun r s' o' h => ⟨.over1 h1 h.1, h.2⟩
        | some w => exact over_wp (P := P) (ih _ _ _ _ hcg) (fun _ _ _ => ih _ _ _ _ hcg) fun hr s1 fr s2 h1 h2 => wp_mono (ih _ _ _ _ hcf) fun r s' o' h => ⟨.over2 h1 h2 h.1, h.2⟩
      | before => exact before_wp (P := P) (ih _ _ _ _ hcf) fun hr s1 h1 => wp_mono (ih _ _ _ _ hcg) fun r s' o' h => ⟨.before h1 h.1, h.2⟩
      | after => exact after_wp (P := P) (ih _ _ _ _ hcg) fun hr s1 h1 => wp_mono (ih _ _ _ _ hcf) fun r s' o' h => ⟨.after h1 h.1, h.2⟩
      | val => cases w with
        | none => exact wp_mono (ih _ _ _ _ hcf) fun r s' o' h => ⟨.val1 h.1, h.2⟩
        | some w => exact wp_mono (ih _ _ _ _ hcg) fun r s' o' h => ⟨.val2 h.1, h.2⟩
      | cond => exact cond_wp (ih _ _ _ _ hcf) (fun i s1 e h1 h2 => wp_mono (ih _ _ _ _ (chosen_clean hp hcg h2)) fun r s' o' h => ⟨.cond h1 h2 h.1, h.2⟩) fun _ _ _ => .inl rfl

/-- The call gives `r` if it doesn't reach the number of nested calls, and it doesn't from `n` on. -/
def Comes (P : Prims σ) (n : Nat) (f : V) (w : Option V) (x : V) (s : σ) (r : V) (s' : σ) : Prop :=
  ∀ m, C (false, decide (m < n)) (call P m) f w x s fun r1 s1 => r1 = r ∧ s1 = s'

theorem Comes.mono {n n' : Nat} {f : V} {w : Option V} {x : V} {s : σ} {r : V} {s' : σ} (h : Comes P n f w x s r s') (hn : n ≤ n') : Comes P n' f w x s r s' := by
  intro m H hH
  replace h := h m H hH
  revert h
  cases cN (call P m) f w x H s with
  | ok r H s => exact id
  | err => exact id
  | ub => exact id
  | out => intro h; have := of_decide_eq_true h; exact decide_eq_true (by omega)

theorem Comes.step {n : Nat} {f : V} {w : Option V} {x : V} {s : σ} {r : V} {s' : σ} (hf : f.isFun = true)
    (h : ∀ m, wp (false, decide (m < n)) (call P (m + 1) f w x) s (fun i => argRefs i w x) (Gives fun r1 s1 => r1 = r ∧ s1 = s')) : Comes P (n + 1) f w x s r s' := by
  intro m
  unfold C
  rw [cN_fun hf]
  cases m with
  | zero =>
    intro _ _
    exact decide_eq_true (Nat.succ_pos n)
  | succ m =>
    rw [show decide (m + 1 < n + 1) = decide (m < n) from decide_eq_decide.2 (by omega)]
    exact h m

theorem two {f g : V} {w w' : Option V} {x x' : V} {s s1 s1' s' : σ} {r r' : V} (h1 : ∃ n, Comes P n f w x s r s1) (h2 : ∃ n, Comes P n g w' x' s1' r' s') :
    ∃ n, Comes P n f w x s r s1 ∧ Comes P n g w' x' s1' r' s' :=
  let ⟨a, h1⟩ := h1
  let ⟨b, h2⟩ := h2
  ⟨max a b, h1.mono (Nat.le_max_left ..), h2.mono (Nat.le_max_right ..)⟩

theorem three {f g h : V} {w w' w'' : Option V} {x x' x'' : V} {s s1 s1' s' s3 s4 : σ} {r r' r'' : V} (h1 : ∃ n, Comes P n f w x s r s1) (h2 : ∃ n, Comes P n g w' x' s1' r' s') (h3 : ∃ n, Comes P n h w'' x'' s3 r'' s4) :
    ∃ n, Comes P n f w x s r s1 ∧ Comes P n g w' x' s1' r' s' ∧ Comes P n h w'' x'' s3 r'' s4 :=
  let ⟨a, h1⟩ := h1
  let ⟨b, h2, h3⟩ := two h2 h3
  ⟨max a b, h1.mono (Nat.le_max_left ..), h2.mono (Nat.le_max_right ..), h3.mono (Nat.le_max_right ..)⟩

theorem complete (hp : ∀ v g e, Clean g → P.pick v g = some e → Clean e) {f : V} {w : Option V} {x : V} {s : σ} {r : V} {s' : σ} (h : Runs P f w x s r s') (hc : Clean f) :
    ∃ n, Comes P n f w x s r s' := by
  induction h with
  | value h1 h2 => exact ⟨0, fun m => C_value h1 h2 ⟨rfl, rfl⟩⟩
  | prim h =>
    refine ⟨1, Comes.step rfl fun m => prim_wp ?_ ?_⟩
    · intro r' s'' h'
      rw [h] at h'
      cases h'
      exact ⟨rfl, rfl⟩
    · intro h'
      rw [h] at h'
      cases h'
  | @fork _ _ _ _ _ _ _ a _ _ _ s2 _ _ _ _ i1 i2 i3 => cases hc with
    | fork hm c1 c2 c3 =>
      obtain ⟨n, h1, h2, h3⟩ := three (i1 c3) (i2 c1) (i3 c2)
      exact ⟨n + 1, .step rfl fun m => fork_wp (Qf := fun _ _ r1 s1 => r1 = a ∧ s1 = s2) hm (h1 m) (fun _ _ e => by obtain ⟨rfl, rfl⟩ := e; exact h2 m) fun _ _ _ _ e e' => by obtain ⟨rfl, rfl⟩ := e; obtain ⟨rfl, rfl⟩ := e'; exact h3 m⟩
  | train _ _ i1 i2 => cases hc with
    | atop c1 c2 =>
      obtain ⟨n, h1, h2⟩ := two (i1 c2) (i2 c1)
      exact ⟨n + 1, .step rfl fun m => atop_wp (h1 m) fun _ _ e => by obtain ⟨rfl, rfl⟩ := e; exact h2 m⟩
  | swap _ i1 => cases hc with
    | md1 c1 =>
      obtain ⟨n, h1⟩ := i1 c1
      exact ⟨n + 1, .step rfl fun m => swap_wp (h1 m)⟩
  | const => exact ⟨1, .step rfl fun m => const_wp (call := call P m) ⟨rfl, rfl⟩⟩
  | atop _ _ i1 i2 => cases hc with
    | md2 c1 c2 =>
      obtain ⟨n, h1, h2⟩ := two (i1 c2) (i2 c1)
      exact ⟨n + 1, .step rfl fun m => atop_wp (h1 m) fun _ _ e => by obtain ⟨rfl, rfl⟩ := e; exact h2 m⟩
  | over1 _ _ i1 i2 => cases hc with
    | md2 c1 c2 =>
      obtain ⟨n, h1, h2⟩ := two (i1 c2) (i2 c1)
      exact ⟨n + 1, .step rfl fun m => atop_wp (h1 m) fun _ _ e => by obtain ⟨rfl, rfl⟩ := e; exact h2 m⟩
  | @over2 _ _ _ _ _ _ a _ _ _ s2 _ _ _ _ i1 i2 i3 => cases hc with
    | md2 c1 c2 =>
      obtain ⟨n, h1, h2, h3⟩ := three (i1 c2) (i2 c2) (i3 c1)
      exact ⟨n + 1, .step rfl fun m => over_wp (P := P) (Qa := fun _ _ r1 s1 => r1 = a ∧ s1 = s2) (h1 m) (fun _ _ e => by obtain ⟨rfl, rfl⟩ := e; exact h2 m) fun _ _ _ _ e e' => by obtain ⟨rfl, rfl⟩ := e; obtain ⟨rfl, rfl⟩ := e'; exact h3 m⟩
  | before _ _ i1 i2 => cases hc with
    | md2 c1 c2 =>
      obtain ⟨n, h1, h2⟩ := two (i1 c1) (i2 c2)
      exact ⟨n + 1, .step rfl fun m => before_wp (P := P) (h1 m) fun _ _ e => by obtain ⟨rfl, rfl⟩ := e; exact h2 m⟩
  | after _ _ i1 i2 => cases hc with
    | md2 c1 c2 =>
      obtain ⟨n, h1, h2⟩ := two (i1 c2) (i2 c1)
      exact ⟨n + 1, .step rfl fun m => after_wp (P := P) (h1 m) fun _ _ e => by obtain ⟨rfl, rfl⟩ := e; exact h2 m⟩
  | val1 _ i1 => cases hc with
    | md2 c1 c2 =>
      obtain ⟨n, h1⟩ := i1 c1
      exact ⟨n + 1, .step rfl fun m => h1 m⟩
  | val2 _ i1 => cases hc with
    | md2 c1 c2 =>
      obtain ⟨n, h1⟩ := i1 c2
      exact ⟨n + 1, .step rfl fun m => h1 m⟩
  | cond _ he _ i1 i2 => cases hc with
    | md2 c1 c2 =>
      obtain ⟨n, h1, h2⟩ := two (i1 c1) (i2 (chosen_clean hp c2 he))
      exact ⟨n + 1, .step rfl fun m => cond_wp (h1 m) (fun _ _ _ e he' => by obtain ⟨rfl, rfl⟩ := e; cases chosen_unique he he'; exact h2 m)
        fun _ _ e => by obtain ⟨rfl, rfl⟩ := e; exact .inr ⟨_, he⟩⟩

end Verif.Train
