import Verif.Bodies.Model
/-!
# Blocks with several bodies: variables and instructions
-/
namespace Verif.Bodies
variable {V S R : Type} {m : Type → Type}

theorem assign_length : ∀ (vars : List V) (ps : List Nat) (ls : List (Option V)), (assign vars ps ls).length = vars.length
  | _, [], _ => rfl
  | vars, p :: ps, [] => rfl
  | vars, p :: ps, none :: ls => assign_length vars ps ls
  | vars, p :: ps, some v :: ls => (assign_length (vars.set p v) ps ls).trans (List.length_set ..)

theorem assign_other (q : Nat) : ∀ (vars : List V) (ps : List Nat) (ls : List (Option V)), q ∉ ps → (assign vars ps ls)[q]? = vars[q]?
  | _, [], _, _ => rfl
  | vars, p :: ps, [], _ => rfl
  | vars, p :: ps, none :: ls, h => assign_other q vars ps ls (fun hq => h (List.mem_cons_of_mem _ hq))
  | vars, p :: ps, some v :: ls, h =>
    (assign_other q (vars.set p v) ps ls (fun hq => h (List.mem_cons_of_mem _ hq))).trans
      (List.getElem?_set_ne (fun e => h (by simp [e])))

/-- Both scopes have the same in places `p` and `r p`. -/
def Same (P : Nat → Prop) (r : Nat → Nat) (vars vars' : List V) : Prop := ∀ p, P p → vars'[r p]? = vars[p]?

theorem Same.set {P : Nat → Prop} {r : Nat → Nat} {vars vars' : List V} (inj : ∀ p q, P p → P q → r p = r q → p = q)
    (h : Same P r vars vars') {p : Nat} (hp : P p) (v : V) : Same P r (vars.set p v) (vars'.set (r p) v) := by
  intro q hq
  by_cases e : p = q
  · subst e
    rw [List.getElem?_set, List.getElem?_set, if_pos rfl, if_pos rfl]
    have := h p hp
    by_cases hl : p < vars.length
    · rw [List.getElem?_eq_getElem hl] at this
      have hl' := (List.getElem?_eq_some_iff.1 this).1
      rw [if_pos hl, if_pos hl']
    · have hl' := List.getElem?_eq_none_iff.1 (this.trans (List.getElem?_eq_none (by omega)))
      rw [if_neg hl, if_neg (by omega)]
  · rw [List.getElem?_set_ne e, List.getElem?_set_ne (fun h => e (inj _ _ hp hq h))]
    exact h q hq

theorem Same.assign {P : Nat → Prop} {r : Nat → Nat} (inj : ∀ p q, P p → P q → r p = r q → p = q) :
    ∀ {vars vars' : List V}, Same P r vars vars' → ∀ (ps : List Nat) (ls : List (Option V)), (∀ p ∈ ps, P p) →
      Same P r (assign vars ps ls) (assign vars' (ps.map r) ls)
  | _, _, h, [], _, _ => h
  | _, _, h, p :: ps, [], _ => h
  | _, _, h, p :: ps, none :: ls, hp => Same.assign inj (vars := _) (vars' := _) h ps ls (fun q hq => hp q (List.mem_cons_of_mem _ hq))
  | vars, vars', h, p :: ps, some v :: ls, hp =>
    Same.assign inj (vars := vars.set p v) (vars' := vars'.set (r p) v) (h.set inj (hp p (by simp)) v) ps ls (fun q hq => hp q (List.mem_cons_of_mem _ hq))

theorem Same.reads {P : Nat → Prop} {r : Nat → Nat} {vars vars' : List V} (h : Same P r vars vars') :
    ∀ ps : List Nat, (∀ p ∈ ps, P p) → reads vars' (ps.map r) = reads vars ps
  | [], _ => rfl
  | p :: ps, hp => by
    show (vars'[r p]?).bind _ = (vars[p]?).bind _
    rw [h p (hp p (by simp)), Same.reads h ps (fun q hq => hp q (List.mem_cons_of_mem _ hq))]

/-- An item with places replaced. -/
def Item.ren (r : Nat → Nat) : Item V S → Item V S
  | .val v => .val v
  | .tgt s ps => .tgt s (ps.map r)

def Item.In (P : Nat → Prop) : Item V S → Prop
  | .val _ => True
  | .tgt _ ps => ∀ p ∈ ps, P p

theorem popV_ren (r : Nat → Nat) : ∀ (k : Nat) (st : List (Item V S)), popV k (st.map (Item.ren r)) = (popV k st).map fun q => (q.1, q.2.map (Item.ren r))
  | 0, _ => rfl
  | k + 1, [] => rfl
  | k + 1, .tgt .. :: _ => rfl
  | k + 1, .val v :: st => by
    show (popV k (st.map (Item.ren r))).map _ = ((popV k st).map _).map _
    rw [popV_ren r k st]
    cases popV k st <;> rfl

theorem popV_in {P : Nat → Prop} : ∀ (k : Nat) (st : List (Item V S)), (∀ i ∈ st, i.In P) → ∀ vs st', popV k st = some (vs, st') → ∀ i ∈ st', i.In P
  | 0, st, h, vs, st', e => by cases e; exact h
  | k + 1, [], h, vs, st', e => by cases e
  | k + 1, .tgt .. :: _, h, vs, st', e => by cases e
  | k + 1, .val v :: st, h, vs, st', e => by
    have e : (popV k st).map _ = some (vs, st') := e
    cases e' : popV k st with
    | none => rw [e'] at e; cases e
    | some q =>
      rw [e'] at e
      cases e
      exact popV_in k st (fun i hi => h i (List.mem_cons_of_mem _ hi)) q.1 q.2 e'

theorem popT_ren (r : Nat → Nat) : ∀ (k : Nat) (st : List (Item V S)),
    popT k (st.map (Item.ren r)) = (popT k st).map fun q => (q.1, q.2.1.map r, q.2.2.map (Item.ren r))
  | 0, _ => rfl
  | k + 1, [] => rfl
  | k + 1, .val .. :: _ => rfl
  | k + 1, .tgt s ps :: st => by
    show (popT k (st.map (Item.ren r))).map _ = ((popT k st).map _).map _
    rw [popT_ren r k st]
    cases popT k st with
    | none => rfl
    | some q => simp

theorem popT_in {P : Nat → Prop} : ∀ (k : Nat) (st : List (Item V S)), (∀ i ∈ st, i.In P) → ∀ ss ps st', popT k st = some (ss, ps, st') →
    (∀ p ∈ ps, P p) ∧ ∀ i ∈ st', i.In P
  | 0, st, h, vs, ps, st', e => by cases e; exact ⟨nofun, h⟩
  | k + 1, [], h, vs, ps, st', e => by cases e
  | k + 1, .val .. :: _, h, vs, ps, st', e => by cases e
  | k + 1, .tgt s qs :: st, h, vs, ps, st', e => by
    have e : (popT k st).map _ = some (vs, ps, st') := e
    cases e' : popT k st with
    | none => rw [e'] at e; cases e
    | some q =>
      rw [e'] at e
      cases e
      have := popT_in k st (fun i hi => h i (List.mem_cons_of_mem _ hi)) q.1 q.2.1 q.2.2 e'
      refine ⟨fun p hp => ?_, this.2⟩
      cases List.mem_append.1 hp with
      | inl hp => exact h _ (List.mem_cons_self ..) p hp
      | inr hp => exact this.1 p hp

theorem pushV_ren (r : Nat → Nat) (vs : List V) (st : List (Item V S)) : pushV vs (st.map (Item.ren r)) = (pushV vs st).map (Item.ren r) := by
  unfold pushV
  rw [List.map_append, List.map_map]
  rfl

theorem pushV_in {P : Nat → Prop} (vs : List V) (st : List (Item V S)) (h : ∀ i ∈ st, i.In P) : ∀ i ∈ pushV vs st, i.In P := by
  intro i hi
  cases List.mem_append.1 hi with
  | inl hi => obtain ⟨v, _, rfl⟩ := List.mem_map.1 hi; trivial
  | inr hi => exact h i hi

end Verif.Bodies
