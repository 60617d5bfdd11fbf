import Verif.Bodies.Quiet
/-!
# Blocks with several bodies: one body that was made
-/
namespace Verif.Bodies
variable {V S R : Type} {m : Type → Type}

theorem used_lt {ga : Nat} {c : List (Instr V S R m)} {i : Nat} (h : used ga c i = true) : i < ga := by
  obtain ⟨ins, _, h⟩ := List.any_eq_true.1 h
  cases hp : ins.pos with
  | none => rw [hp] at h; cases h
  | some p =>
    rw [hp] at h
    simp at h
    omega

theorem used_of {ga : Nat} {c : List (Instr V S R m)} {i : Instr V S R m} (h : i ∈ before c) {p : Nat} (hp : i.pos = some p) (hl : p < ga) :
    used ga c p = true :=
  List.any_eq_true.2 ⟨i, h, by rw [hp]; simp [hl]⟩

theorem reads_some (vars : List V) : ∀ ps : List Nat, (∀ p ∈ ps, p < vars.length) → ∃ ls, reads vars ps = some ls
  | [], _ => ⟨[], rfl⟩
  | p :: ps, h => by
    obtain ⟨ls, hls⟩ := reads_some vars ps (fun q hq => h q (List.mem_cons_of_mem _ hq))
    have hp := h p (by simp)
    refine ⟨vars[p] :: ls, ?_⟩
    show (vars[p]?).bind _ = _
    rw [List.getElem?_eq_getElem hp, hls]
    rfl

variable [Monad m] [LawfulMonad m] {W : World V S m}

theorem prelude_run {ga vam : Nat} {args : List V} (hga : ga ≤ vam) (la : args.length = ga) (good : ∀ v ∈ args, W.bad v = false) (u : Nat → Bool)
    (hu : ∀ i, u i = true → i < ga) (c : List (Instr V S R m)) :
    ∀ (is : List Nat) (vars : List V), vars.length = vam + ga → (∀ q, q < ga → vars[q]? = args[q]?) →
      ∃ vars', exec W ga vam (prelude vam u is ++ c) vars [] = exec W ga vam c vars' [] ∧ vars'.length = vam + ga ∧
        (∀ q, q < vam → vars'[q]? = vars[q]?) ∧
        (∀ i, i ∈ is ∧ u i = true → vars'[vam+i]? = args[i]?) ∧ (∀ i, ¬(i ∈ is ∧ u i = true) → vars'[vam+i]? = vars[vam+i]?)
  | [], vars, hl, _ => ⟨vars, rfl, hl, fun _ _ => rfl, (fun i h => nomatch h.1), fun _ _ => rfl⟩
  | i :: is, vars, hl, ha => by
    cases hi : u i with
    | false =>
      obtain ⟨vars', he, h1, h2, h3, h4⟩ := prelude_run hga la good u hu c is vars hl ha
      refine ⟨vars', ?_, h1, h2, ?_, ?_⟩
      · unfold prelude
        rw [hi]
        exact he
      · rintro j ⟨hj, hj'⟩
        cases hj with
        | head => rw [hi] at hj'; cases hj'
        | tail _ hj => exact h3 j ⟨hj, hj'⟩
      · intro j hj
        exact h4 j (fun h => hj ⟨List.mem_cons_of_mem _ h.1, h.2⟩)
    | true =>
      have hig := hu i hi
      have hv : vars[i]? = some args[i] := (ha i hig).trans (List.getElem?_eq_getElem (by omega))
      have hb := good args[i] (List.getElem_mem ..)
      obtain ⟨ls, hls⟩ := reads_some vars [vam + i] (by simp; omega)
      obtain ⟨vars', he, h1, h2, h3, h4⟩ := prelude_run hga la good u hu c is (vars.set (vam + i) args[i]) ((List.length_set ..).trans hl)
        (fun q hq => (List.getElem?_set_ne (by omega)).trans (ha q hq))
      obtain ⟨ls', hls'⟩ := reads_some (vars.set (vam + i) args[i]) (List.range' ga (vam - ga)) (fun p hp => by
        have := List.mem_range'_1.1 hp
        rw [List.length_set]
        omega)
      refine ⟨vars', ?_, h1, ?_, ?_, ?_⟩
      · generalize exec W ga vam c vars' [] = X at he ⊢
        unfold prelude
        rw [hi, if_pos rfl, List.cons_append]
        unfold exec
        rw [hv]
        dsimp only
        rw [hb]
        simp only [Bool.false_eq_true, if_false, List.cons_append]
        unfold exec setn
        unfold exec
        dsimp only
        rw [hls]
        show (pure _ >>= _ : m _) = _
        rw [pure_bind]
        show exec W ga vam (pops :: (prelude vam u is ++ c)) (vars.set (vam + i) args[i]) [Item.val args[i]] = _
        unfold exec pops
        dsimp only
        rw [hls']
        show (pure _ >>= _ : m _) = _
        rw [pure_bind]
        have : ∀ (vs : List V) (ps : List Nat), assign vs ps [] = vs := fun vs ps => by cases ps <;> rfl
        show exec W ga vam (prelude vam u is ++ c) (assign (vars.set (vam + i) args[i]) _ []) [] = _
        rw [this]
        exact he
      · intro q hq
        exact (h2 q hq).trans (List.getElem?_set_ne (by omega))
      · intro j hj
        by_cases hm : j ∈ is ∧ u j = true
        · exact h3 j hm
        · rw [h4 j hm]
          have : j = i := by
            cases hj.1 with
            | head => rfl
            | tail _ hj' => exact absurd ⟨hj', hj.2⟩ hm
          rw [this, List.getElem?_set, if_pos rfl, if_pos (by omega), List.getElem?_eq_getElem (by omega)]
      · intro j hj
        rw [h4 j (fun h => hj ⟨List.mem_cons_of_mem _ h.1, h.2⟩)]
        have : j ≠ i := fun e => hj ⟨by rw [e]; simp, by rw [e]; exact hi⟩
        exact List.getElem?_set_ne (by omega)

/-- How many variables it has. -/
def size (ga : Nat) (b : Body V S R m) : Nat := b.vam + if hasPred b.code then ga else 0

/-- A body that was made does the same, and keeps the arguments until the next body is run. -/
theorem made_runs (law : W.Lawful) {ga : Nat} {args : List V} {b : Body V S R m} (hb : b.Ok ga) (h6 : ga ≤ 6) (la : args.length = ga)
    (good : ∀ v ∈ args, W.bad v = false) {α : Type} (k k' : R ⊕ List V → m α) (hl : ∀ r, k (.inl r) = k' (.inl r))
    (hr : ∀ v v' : List V, v'.take ga = args → v'.length = size ga b → k (.inr v) = k' (.inr v')) :
    exec W ga b.vam b.code (args ++ List.replicate (b.vam - ga) W.noVar) [] >>= k =
      exec W ga b.vam (code ga b) (args ++ List.replicate (size ga b - ga) W.noVar) [] >>= k' := by
  have hga := hb.args
  unfold code
  cases hp : hasPred b.code with
  | false =>
    have hs : size ga b = b.vam := by unfold size; rw [hp]; rfl
    rw [hs] at hr ⊢
    simp only [Bool.false_eq_true, if_false]
    have np : ∀ i ∈ before b.code, i.isPred = false := fun i hi => by
      cases hi' : i.isPred with
      | false => rfl
      | true => rw [show hasPred b.code = true from List.any_eq_true.2 ⟨i, hi, hi'⟩] at hp; cases hp
    obtain ⟨h, t, e, hh, ht⟩ := hb.headers.resolve_left (fun ⟨i, hi, hi'⟩ => by rw [np i hi] at hi'; cases hi')
    rw [e] at np ⊢
    exact quiet law k k' hl (fun v h1 h2 => hr v v h1 h2) t ht h _ [] (by rw [← la, List.take_left]) (by simp [la]; omega) nofun hh np
  | true =>
    have hs : size ga b = b.vam + ga := by unfold size; rw [hp]; rfl
    rw [hs] at hr ⊢
    rw [if_pos rfl]
    have h0 : ∀ (n q : Nat), q < ga → (args ++ List.replicate n W.noVar)[q]? = args[q]? := fun n q hq => List.getElem?_append_left (by omega)
    obtain ⟨vars', he, h1, h2, h3, h4⟩ := prelude_run (W := W) hga la good (used ga b.code) (fun i h => used_lt h) (b.code.map (remap ga b.vam))
      (List.range 6) (args ++ List.replicate (b.vam + ga - ga) W.noVar) (by simp [la]; omega) (h0 _)
    rw [he]
    refine sim law (P := fun p => p < b.vam ∧ (p < ga → used ga b.code p = true)) hga (fun p h => h.1) (fun p h h' => ⟨h', fun h'' => by omega⟩)
      k k' hl hr b.code _ vars' [] ?_ ?_ h1 nofun ?_
    · intro p hp
      unfold place
      by_cases hpg : p < ga
      · rw [if_pos hpg, Nat.add_comm, h3 p ⟨by simp; omega, hp.2 hpg⟩, h0 _ p hpg]
      · rw [if_neg hpg, h2 p hp.1, List.getElem?_append_right (by omega), List.getElem?_append_right (by omega),
          List.getElem?_replicate, List.getElem?_replicate, if_pos (by have := hp.1; omega), if_pos (by have := hp.1; omega)]
    · apply List.ext_getElem?
      intro q
      rw [List.getElem?_take]
      by_cases hq : q < ga
      · rw [if_pos hq, h2 q (by omega), h0 _ q hq]
      · rw [if_neg hq, List.getElem?_eq_none (by omega)]
    · intro i hi p hp
      exact ⟨hb.inScope i (mem_before hi) p hp, fun hpg => used_of hi hp hpg⟩

end Verif.Bodies
