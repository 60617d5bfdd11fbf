import Verif.FfiType.Sound
/-
Every string which denotes a type is accepted.
-/
namespace Verif.FfiType
open Verif.Ffi

/-- What may follow a type. -/
def Fol (b : Bool) (s : Str) : Prop :=
  s.headD 0 = 0 ∨ s.headD 0 = ch ',' ∨ s.headD 0 = ch '}' ∨ (b = true ∧ s.headD 0 = ch ':')

theorem fol_digit (b : Bool) (s : Str) (h : Fol b s) : ¬ isDigit (s.headD 0) := by
  rcases h with h | h | h | ⟨_, h⟩ <;> rw [h] <;> decide

theorem fol_mono (b b' : Bool) (s : Str) (h : Fol b s) (hb : b = true → b' = true) : Fol b' s := by
  rcases h with h | h | h | ⟨g, h⟩
  · exact .inl h
  · exact .inr (.inl h)
  · exact .inr (.inr (.inl h))
  · exact .inr (.inr (.inr ⟨hb g, h⟩))

theorem finish_skip (pr : Bool) (t : PT) (can mu : Bool) (s : Str) (h : pr = true → s.headD 0 ≠ ch ':') :
    finish pr t can mu s = .ok ⟨t, can, mu, s⟩ := by
  unfold finish
  rw [if_neg (fun hc => h hc.1 hc.2)]

def Start (c : Nat) : Prop :=
  c = ch '[' ∨ c = ch 'i' ∨ c = ch 'u' ∨ c = ch 'f' ∨ c = ch 'a' ∨ c = ch '*' ∨ c = ch '&' ∨ c = ch '{'

theorem denotes_start (t : PT) (p top : Bool) (u : Str) (h : Denotes t p top u) : ∃ c u', u = c :: u' ∧ Start c := by
  have simple : ∀ t, (∀ b r, t ≠ .repr b r) → ∀ u, Denotes t p top u → ∃ c u', u = c :: u' ∧ Start c := by
    intro t ht u h
    cases t with
    | sc k =>
      obtain ⟨ds, _, rfl⟩ := h
      refine ⟨_, _, rfl, ?_⟩
      rcases letter_cases k with e | e | e <;> rw [e] <;> simp [Start]
    | a => exact ⟨_, [], h, by simp [Start]⟩
    | vptr => exact ⟨_, [], h, by simp [Start]⟩
    | ptr m e =>
      obtain ⟨_, u, _, rfl⟩ := h
      refine ⟨_, _, rfl, ?_⟩
      cases m <;> simp [Start]
    | tlarr n e =>
      obtain ⟨_, _, ds, u, _, _, rfl⟩ := h
      exact ⟨_, _, rfl, by simp [Start]⟩
    | starr n e =>
      obtain ⟨_, _, ds, u, _, _, rfl⟩ := h
      exact ⟨_, _, rfl, by simp [Start]⟩
    | str fs =>
      obtain ⟨u, _, rfl⟩ := h
      exact ⟨_, _, rfl, by simp [Start]⟩
    | repr b r => exact absurd rfl (ht b r)
  cases t with
  | repr b r =>
    obtain ⟨h1, _, u, v, h2, _, rfl⟩ := h
    obtain ⟨c, u', rfl, hc⟩ := simple b (by rintro b' r' rfl; exact nomatch h1) u h2
    exact ⟨c, _, rfl, hc⟩
  | _ => exact simple _ (by intro b r h; cases h) u h

def Full (t : PT) : Prop :=
  ∀ (p top : Bool) (u rest : Str) (fuel : Nat), Denotes t p top u → Fol (p && t.simple) rest →
    2 * u.length + 1 ≤ fuel →
    parseT fuel p top (u ++ rest) = .ok ⟨t, p && t.simple, decide (u.headD 0 = ch '&'), rest⟩

def Head (t : PT) : Prop :=
  ∀ (p top : Bool) (u rest : Str) (fuel : Nat), Denotes t p top u → Fol (t.reOk p || (p && t.simple)) rest →
    2 * u.length + 1 ≤ fuel →
    parseT fuel p top (u ++ rest) = finish (t.reOk p) t (p && t.simple) (decide (u.headD 0 = ch '&')) rest

theorem full_of_head (t : PT) (h : Head t) : Full t := by
  intro p top u rest fuel hd hf hl
  rw [h p top u rest fuel hd (fol_mono _ _ _ hf (fun h => by rw [h, Bool.or_true])) hl]
  refine finish_skip _ _ _ _ _ fun hr => ?_
  rcases hf with h | h | h | ⟨g, _⟩
  · rw [h]; decide
  · rw [h]; decide
  · rw [h]; decide
  · exfalso
    rw [Bool.and_eq_true] at g
    cases t with
    | sc k => rw [g.1] at hr; exact nomatch hr
    | vptr => rw [g.1] at hr; exact nomatch hr
    | _ => exact nomatch g.2

theorem parseT_cons (fuel : Nat) (inPtr top : Bool) (c0 : Nat) (s : Str) : parseT (fuel + 1) inPtr top (c0 :: s) =
    if c0 = ch '[' then
      (readUInt s).bind fun p =>
        if p.2.headD 0 ≠ ch ']' then .err
        else if p.1 = 0 then .err
        else
          (parseT fuel top false p.2.tail).bind fun e =>
            if top then finish e.can (.tlarr p.1 e.t) false false e.rest
            else finish false (.starr p.1 e.t) false false e.rest
    else if c0 = ch 'i' ∨ c0 = ch 'u' ∨ c0 = ch 'f' then
      (readUInt s).bind fun p =>
        match scalarOf c0 p.1 with
        | none => .err
        | some k => finish (!inPtr) (.sc k) inPtr false p.2
    else if c0 = ch 'a' then finish false .a false false s
    else if c0 = ch '*' ∨ c0 = ch '&' then
      if c0 = ch '*' ∧ (s.headD 0 = 0 ∨ s.headD 0 = ch ':' ∨ s.headD 0 = ch '}' ∨ s.headD 0 = ch ',') then
        finish (!inPtr) .vptr inPtr false s
      else if c0 = ch '&' ∧ top = false then .err
      else
        (parseT fuel true false s).bind fun e =>
          finish e.can (.ptr (decide (c0 = ch '&')) e.t) false (decide (c0 = ch '&')) e.rest
    else if c0 = ch '{' then
      (parseFs fuel s).bind fun p => finish false (.str p.1) false false p.2
    else .err := by
  rw [parseT]
  rfl

mutual
theorem complete : ∀ t : PT, ((∀ b r, t ≠ .repr b r) → Head t) ∧ Full t
  | .sc k => by
    have : Head (.sc k) := by
      intro p top u rest fuel hd hf hl
      obtain ⟨ds, hn, rfl⟩ := hd
      cases fuel with
      | zero => omega
      | succ fuel =>
        have hm : decide ((Sc.letter k :: ds).headD 0 = ch '&') = false := by
          cases k <;> rfl
        rw [hm, List.cons_append, parseT_cons]
        rw [if_neg (show ¬ Sc.letter k = ch '[' by cases k <;> decide), if_pos (letter_cases k), readUInt_run ds _ rest hn (fol_digit _ _ hf)]
        show (match scalarOf (Sc.letter k) (8 * k.width) with
          | none => Res.err | some k => finish (!p) (.sc k) p false rest) = _
        rw [scalarOf_run]
        show finish (!p) (.sc k) p false rest = finish (!p) (.sc k) (p && true) false rest
        rw [Bool.and_true]
    exact ⟨fun _ => this, full_of_head _ this⟩
  | .a => by
    have : Head .a := by
      intro p top u rest fuel hd hf hl
      cases fuel with
      | zero => omega
      | succ fuel =>
        obtain rfl : u = [ch 'a'] := hd
        rw [List.singleton_append, parseT_cons]
        rw [if_neg (show ¬ ch 'a' = ch '[' by decide), if_neg (show ¬ (ch 'a' = ch 'i' ∨ ch 'a' = ch 'u' ∨ ch 'a' = ch 'f') by decide), if_pos rfl]
        show finish false .a false false rest = finish false .a (p && false) _ rest
        rw [Bool.and_false]
        rfl
    exact ⟨fun _ => this, full_of_head _ this⟩
  | .vptr => by
    have : Head .vptr := by
      intro p top u rest fuel hd hf hl
      cases fuel with
      | zero => omega
      | succ fuel =>
        obtain rfl : u = [ch '*'] := hd
        rw [List.singleton_append, parseT_cons]
        rw [if_neg (show ¬ ch '*' = ch '[' by decide), if_neg (show ¬ (ch '*' = ch 'i' ∨ ch '*' = ch 'u' ∨ ch '*' = ch 'f') by decide), if_neg (show ¬ ch '*' = ch 'a' by decide), if_pos (.inl rfl), if_pos]
        · show finish (!p) .vptr p false rest = finish (!p) .vptr (p && true) _ rest
          rw [Bool.and_true]
          rfl
        · refine ⟨rfl, ?_⟩
          rcases hf with h | h | h | ⟨_, h⟩
          · exact .inl h
          · exact .inr (.inr (.inr h))
          · exact .inr (.inr (.inl h))
          · exact .inr (.inl h)
    exact ⟨fun _ => this, full_of_head _ this⟩
  | .ptr m e => by
    have ih := (complete e).2
    have : Head (.ptr m e) := by
      intro p top u rest fuel hd hf hl
      obtain ⟨hm, u, hu, rfl⟩ := hd
      cases fuel with
      | zero => omega
      | succ fuel =>
        have hl' : 2 * u.length + 1 ≤ fuel := by rw [List.length_cons] at hl; omega
        have hin := ih true false u rest fuel hu
          (fol_mono _ _ _ hf (fun h => by simpa [PT.reOk, PT.simple] using h)) hl'
        obtain ⟨c, u', rfl, hc⟩ := denotes_start e true false u hu
        have hns : ¬ (c = 0 ∨ c = ch ':' ∨ c = ch '}' ∨ c = ch ',') := by
          rcases hc with h | h | h | h | h | h | h | h <;> rw [h] <;> decide
        have hsim : (p && (PT.ptr m e).simple) = false := Bool.and_false p
        rw [hsim]
        cases m with
        | true =>
          show parseT (fuel + 1) p top (ch '&' :: (c :: u' ++ rest)) = _
          rw [parseT_cons, if_neg (show ¬ ch '&' = ch '[' by decide), if_neg (show ¬ (ch '&' = ch 'i' ∨ ch '&' = ch 'u' ∨ ch '&' = ch 'f') by decide), if_neg (show ¬ ch '&' = ch 'a' by decide), if_pos (.inr rfl),
            if_neg (fun h => absurd h.1 (by decide)), if_neg (fun h => by rw [hm rfl] at h; exact nomatch h.2), hin]
          rfl
        | false =>
          show parseT (fuel + 1) p top (ch '*' :: (c :: u' ++ rest)) = _
          rw [parseT_cons, if_neg (show ¬ ch '*' = ch '[' by decide), if_neg (show ¬ (ch '*' = ch 'i' ∨ ch '*' = ch 'u' ∨ ch '*' = ch 'f') by decide), if_neg (show ¬ ch '*' = ch 'a' by decide), if_pos (.inl rfl),
            if_neg (fun h => hns h.2), if_neg (fun h => absurd h.1 (by decide)), hin]
          rfl
    exact ⟨fun _ => this, full_of_head _ this⟩
  | .tlarr n e => by
    have ih := (complete e).2
    have : Head (.tlarr n e) := by
      intro p top u rest fuel hd hf hl
      obtain ⟨rfl, hn1, ds, u, hn, hu, rfl⟩ := hd
      cases fuel with
      | zero => omega
      | succ fuel =>
        have hl' : 2 * u.length + 1 ≤ fuel := by
          rw [List.length_cons, List.length_append, List.length_cons] at hl; omega
        have hin := ih true false u rest fuel hu
          (fol_mono _ _ _ hf (fun h => by simpa [PT.reOk, PT.simple] using h)) hl'
        have hsim : (p && (PT.tlarr n e).simple) = false := Bool.and_false p
        rw [hsim, List.cons_append, List.append_assoc, List.cons_append, parseT_cons]
        rw [if_pos rfl, readUInt_run ds n _ hn (by rw [List.headD_cons]; decide)]
        dsimp only [Res.bind]
        rw [if_neg (fun h => h rfl), if_neg (show ¬ n = 0 by omega), List.tail_cons, hin]
        rfl
    exact ⟨fun _ => this, full_of_head _ this⟩
  | .starr n e => by
    have ih := (complete e).2
    have : Head (.starr n e) := by
      intro p top u rest fuel hd hf hl
      obtain ⟨rfl, hn1, ds, u, hn, hu, rfl⟩ := hd
      cases fuel with
      | zero => omega
      | succ fuel =>
        have hl' : 2 * u.length + 1 ≤ fuel := by
          rw [List.length_cons, List.length_append, List.length_cons] at hl; omega
        have hin := ih false false u rest fuel hu
          (fol_mono _ _ _ hf (fun h => by simp [PT.reOk, PT.simple] at h)) hl'
        have hsim : (p && (PT.starr n e).simple) = false := Bool.and_false p
        rw [hsim, List.cons_append, List.append_assoc, List.cons_append, parseT_cons]
        rw [if_pos rfl, readUInt_run ds n _ hn (by rw [List.headD_cons]; decide)]
        dsimp only [Res.bind]
        rw [if_neg (fun h => h rfl), if_neg (show ¬ n = 0 by omega), List.tail_cons, hin]
        rfl
    exact ⟨fun _ => this, full_of_head _ this⟩
  | .str fs => by
    have ih := completes fs
    have : Head (.str fs) := by
      intro p top u rest fuel hd hf hl
      obtain ⟨u, hu, rfl⟩ := hd
      cases fuel with
      | zero => omega
      | succ fuel =>
        have hl' : 2 * u.length + 2 ≤ fuel := by
          rw [List.length_cons, List.length_append, List.length_singleton] at hl; omega
        have hin := ih u rest fuel hu hl'
        have hsim : (p && (PT.str fs).simple) = false := Bool.and_false p
        rw [hsim, List.cons_append, List.append_assoc, List.singleton_append, parseT_cons]
        rw [if_neg (show ¬ ch '{' = ch '[' by decide), if_neg (show ¬ (ch '{' = ch 'i' ∨ ch '{' = ch 'u' ∨ ch '{' = ch 'f') by decide), if_neg (show ¬ ch '{' = ch 'a' by decide), if_neg (show ¬ (ch '{' = ch '*' ∨ ch '{' = ch '&') by decide), if_pos rfl, hin]
        rfl
    exact ⟨fun _ => this, full_of_head _ this⟩
  | .repr b r => by
    have ih := (complete b).1
    refine ⟨fun h => absurd rfl (h b r), ?_⟩
    intro p top u rest fuel hd hf hl
    obtain ⟨h1, h2, u, v, hu, hv, rfl⟩ := hd
    have hh := ih (by rintro b' r' rfl; exact nomatch h1) p top u (ch ':' :: (v ++ rest)) fuel hu
      (.inr (.inr (.inr ⟨by rw [h1]; rfl, rfl⟩))) (by rw [List.length_append] at hl; omega)
    rw [List.append_assoc, List.cons_append, hh]
    obtain ⟨c, u', rfl, _⟩ := denotes_start b p top u hu
    unfold finish
    rw [if_pos ⟨h1, rfl⟩, List.tail_cons, readRe_run r v rest hv (fol_digit _ _ hf)]
    show (if tooWide b r = true then Res.err else _) = _
    rw [(tooWide_iff b r).2 h2]
    simp only [Bool.false_eq_true, if_false]
    have hc : (p && b.simple) = (p && (PT.repr b r).simple) := by
      show _ = (p && false)
      rw [Bool.and_false]
      cases b with
      | sc k => rw [show p = false by simpa [PT.reOk] using h1]; rfl
      | vptr => rw [show p = false by simpa [PT.reOk] using h1]; rfl
      | _ => exact Bool.and_false p
    rw [hc]
    rfl
theorem completes : ∀ (fs : PTs) (u rest : Str) (fuel : Nat), DenotesAll fs u → 2 * u.length + 2 ≤ fuel →
    parseFs fuel (u ++ ch '}' :: rest) = .ok (fs, rest)
  | .nil, _, _, _, h, _ => h.elim
  | .cons t .nil, u, rest, fuel, h, hl => by
    rw [DenotesAll] at h
    cases fuel with
    | zero => omega
    | succ fuel =>
      rw [parseFs, (complete t).2 false false u (ch '}' :: rest) fuel h (.inr (.inr (.inl rfl))) (by omega)]
      rfl
  | .cons t (.cons t' r), u, rest, fuel, h, hl => by
    rw [DenotesAll] at h
    obtain ⟨u, v, h1, h2, rfl⟩ := h
    cases fuel with
    | zero => omega
    | succ fuel =>
      rw [List.length_append, List.length_cons] at hl
      rw [List.append_assoc, List.cons_append, parseFs,
        (complete t).2 false false u (ch ',' :: (v ++ ch '}' :: rest)) fuel h1 (.inr (.inl rfl)) (by omega)]
      dsimp only [Res.bind]
      rw [if_neg (show ¬ List.headD (ch ',' :: (v ++ ch '}' :: rest)) 0 = ch '}' by rw [List.headD_cons]; decide), if_neg (fun h => h rfl), List.tail_cons, completes (.cons t' r) v rest fuel h2 (by omega)]
end

end Verif.FfiType
