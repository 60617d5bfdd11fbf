import Verif.Lens.Picks
/-!
# Under: compositions
-/
namespace Verif.Lens
open Verif.Rotate
open Verif.Table (T)
variable {A : Type} {m : Type → Type} [Monad m] [LawfulMonad m] {C : Ctx m A}

theorem sees1_unique {p : P1} {x v v' : T A} (h : Sees1 p x v) (h' : Sees1 p x v') : v = v' := by
  cases p with
  | tack => exact Eq.trans h (Eq.symm h')
  | first =>
    obtain ⟨w, h1, h2⟩ := h
    obtain ⟨w', h1', h2'⟩ := h'
    cases looks1_unique h1 h1'
    exact shows_unique h2 h2'
  | deshape =>
    obtain ⟨w, h1, h2⟩ := h
    obtain ⟨w', h1', h2'⟩ := h'
    cases looks1_unique h1 h1'
    exact shows_unique h2 h2'
  | reverse =>
    have h : Reversed x v := h
    have h' : Reversed x v' := h'
    have hx := h
    obtain ⟨n, sh, xs, vs, rfl, _, hf, _⟩ := hx
    rw [reversed_iff hf] at h h'
    rw [h, h']
  | enclose => exact Eq.trans h (Eq.symm h')
  | pair => exact Eq.trans h (Eq.symm h')
  | couple => exact Eq.trans h.2 (Eq.symm h'.2)

theorem sees2_unique {p : P2} {x v v' : T A} (h : Sees2 p x v) (h' : Sees2 p x v') : v = v' := by
  cases hp : p.isRotate with
  | false =>
    obtain ⟨w, h1, h2⟩ := (sees2_iff hp).1 h
    exact shows_unique h2 ((sees2_look hp h1).1 h')
  | true =>
    cases p with
    | rotate n =>
      obtain ⟨k, rfl, h⟩ := h
      obtain ⟨_, ⟨⟩, h'⟩ := h'
      have hx := h
      have hx' := h'
      obtain ⟨sh, xs, vs, _, rfl, rfl, hf, _⟩ := hx
      obtain ⟨_, _, vs', _, ⟨⟩, rfl, _⟩ := hx'
      rw [rotated_unique hf h h']
    | _ => cases hp

theorem sees_unique : ∀ {G : Fn} {x v v' : T A}, Sees G x v → Sees G x v' → v = v'
  | .prim _, _, _, _, h, h' => sees1_unique h h'
  | .bound _, _, _, _, h, h' => sees2_unique h h'
  | .fork p h, _, _, _, ⟨_, h1, h2⟩, ⟨_, h1', h2'⟩ => by
    cases sees_unique h1 h1'
    exact sees2_unique h2 h2'
  | .atop g h, _, _, _, ⟨_, h1, h2⟩, ⟨_, h1', h2'⟩ => by
    cases sees_unique h1 h1'
    exact sees_unique h2 h2'

/-- One after the other. -/
theorem act_comp (hC : C.Lawful) {runh : (T A → m (T A)) → m (T A)} {rung : (T A → m (T A)) → T A → m (T A)} {seesh kepth seesg keptg : T A → T A → Prop} {x : T A}
    (hu : ∀ x v v', seesh x v → seesh x v' → v = v') (hh : Act C runh seesh kepth x) (hg : ∀ u, seesh x u → Ok u → Act C (fun F => rung F u) seesg keptg u) :
    Act C (fun F => runh fun v => rung F v) (fun x v => ∃ u, seesh x u ∧ seesg u v) (fun x r => kepth x r ∧ ∃ u u', seesh x u ∧ seesh r u' ∧ keptg u u') x := by
  constructor
  · rintro v ⟨u, h1, h2⟩
    obtain ⟨hou, kh, hrunh, hkh⟩ := hh.1 u h1
    obtain ⟨hov, kg, hrung, hkg⟩ := (hg u h1 hou).1 v h2
    refine ⟨hov, fun rep => kg rep >>= kh, fun F => ?_, fun rep hrep => ⟨?_, fun hno => ?_⟩⟩
    · show runh (fun v => rung F v) = _
      have hg' : rung F u = F v >>= kg := hrung F
      rw [hrunh, hg', bind_assoc]
    · rintro r ⟨u', h3, h4⟩ ⟨h5, u1, u1', h6, h7, h8⟩
      cases hu _ _ _ h1 h6
      cases hu _ _ _ h3 h7
      obtain ⟨e, ho⟩ := (hkg rep hrep).1 u' h4 h8
      obtain ⟨e', ho'⟩ := (hkh u' ho).1 r h3 h5
      refine ⟨?_, ho'⟩
      show kg rep >>= kh = _
      rw [e, pure_bind, e']
    · show kg rep >>= kh = _
      by_cases hx : ∃ u', seesg u' rep ∧ keptg u u'
      · obtain ⟨u', h3, h4⟩ := hx
        obtain ⟨e, ho⟩ := (hkg rep hrep).1 u' h3 h4
        rw [e, pure_bind]
        refine (hkh u' ho).2 fun ⟨r, h5, h6⟩ => hno ⟨r, ⟨u', h5, h3⟩, h6, u, u', h1, h5, h4⟩
      · rw [(hkg rep hrep).2 hx, hC.fail_bind]
  · intro hno F
    show runh (fun v => rung F v) = _
    by_cases hs : ∃ u, seesh x u
    · obtain ⟨u, h1⟩ := hs
      obtain ⟨hou, kh, hrunh, hkh⟩ := hh.1 u h1
      have hg' : rung F u = C.fail _ := (hg u h1 hou).2 (fun ⟨v, h⟩ => hno ⟨v, u, h1, h⟩) F
      rw [hrunh, hg', hC.fail_bind]
    · exact hh.2 hs _

theorem act_uc1 (hC : C.Lawful) : ∀ (G : Fn) (x : T A), Ok x → Native G x → Act C (fun F => uc1 C G F x) (Sees G) (Kept G) x
  | .prim p, x, hx, hn => act_prim hC p x hx hn
  | .bound p, x, hx, hn => act_prim2 hC p x hx hn
  | .fork p h, x, hx, hn => act_comp hC (runh := fun F => uc1 C h F x) (seesh := Sees h) (kepth := Kept h) (seesg := Sees2 p) (keptg := Kept2 p) (fun _ _ _ => sees_unique) (act_uc1 hC h x hx hn.1) fun u hu ho => act_prim2 hC p u ho (hn.2 u hu)
  | .atop g h, x, hx, hn => act_comp hC (runh := fun F => uc1 C h F x) (seesh := Sees h) (kepth := Kept h) (seesg := Sees g) (keptg := Kept g) (fun _ _ _ => sees_unique) (act_uc1 hC h x hx hn.1) fun u hu ho => act_uc1 hC g u ho (hn.2 u hu)

end Verif.Lens
