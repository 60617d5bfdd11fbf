import Verif.FfiType.Lemmas
/-
What the parser accepts, and that it ends.
-/
namespace Verif.FfiType
open Verif.Ffi

theorem narrows_drop (u s : Str) (h : Narrows (u ++ s)) : Narrows s :=
  fun pre c post e => h (u ++ pre) c post (by rw [e, List.append_assoc])

theorem narrows_tail (c : Nat) (s : Str) (h : Narrows (c :: s)) : Narrows s := narrows_drop [c] s h

mutual
theorem parseT_ok : ∀ (fuel : Nat) (p top : Bool) (s : Str) (q : Parsed), parseT fuel p top s = .ok q →
    ∃ u, u ≠ [] ∧ s = u ++ q.rest ∧ (Narrows s → Denotes q.t p top u) ∧ q.can = (p && q.t.simple) ∧
      q.mu = decide (s.headD 0 = ch '&')
  | 0, _, _, _, _, h => nomatch h
  | fuel + 1, p, top, s, q, h => by
    rw [parseT] at h
    dsimp only at h
    by_cases c1 : s.headD 0 = ch '['
    · rw [if_pos c1] at h
      have hs := head_cons s _ (by decide) c1
      obtain ⟨⟨n, s1⟩, h1, h2⟩ := bind_ok h
      dsimp only at h2
      obtain ⟨ds, e1, hnum⟩ := readUInt_ok _ _ _ h1
      by_cases c2 : s1.headD 0 = ch ']'
      · have hs1 := head_cons s1 _ (by decide) c2
        rw [if_neg (fun h => h c2)] at h2
        by_cases c3 : n = 0
        · rw [if_pos c3] at h2; exact nomatch h2
        · rw [if_neg c3] at h2
          obtain ⟨e, h3, h4⟩ := bind_ok h2
          obtain ⟨u, i1, i2, i3, i4, _⟩ := parseT_ok fuel top false s1.tail e h3
          have hmu : false = decide (s.headD 0 = ch '&') := by rw [c1]; rfl
          have hst : s = (ch '[' :: (ds ++ ch ']' :: u)) ++ e.rest := by
            rw [hs, e1, hs1, i2]; simp
          have hnt : Narrows s → Narrows s1.tail := by
            intro hn
            rw [hs, e1, hs1] at hn
            have := narrows_tail _ _ hn
            exact narrows_tail _ _ (narrows_drop _ _ this)
          cases top with
          | true =>
            rw [if_pos rfl] at h4
            obtain ⟨v, f1, f2, f3, f4⟩ := finish_denotes e.can (.tlarr n e.t) false false p true
              (ch '[' :: (ds ++ ch ']' :: u)) e.rest q h4 (by rw [i4]; rfl) (by simp [PT.simple]) (fun _ => rfl)
            refine ⟨(ch '[' :: (ds ++ ch ']' :: u)) ++ v, nofun, by rw [hst, f1, List.append_assoc], fun hn => ?_, f3, by rw [f4, hmu]⟩
            exact f2 (narrows_drop _ _ (hst ▸ hn)) ⟨rfl, by omega, ds, u, hnum, i3 (hnt hn), rfl⟩
          | false =>
            simp only [Bool.false_eq_true, if_false] at h4
            obtain ⟨v, f1, f2, f3, f4⟩ := finish_denotes false (.starr n e.t) false false p false
              (ch '[' :: (ds ++ ch ']' :: u)) e.rest q h4 rfl (by simp [PT.simple]) (fun _ => rfl)
            refine ⟨(ch '[' :: (ds ++ ch ']' :: u)) ++ v, nofun, by rw [hst, f1, List.append_assoc], fun hn => ?_, f3, by rw [f4, hmu]⟩
            exact f2 (narrows_drop _ _ (hst ▸ hn)) ⟨rfl, by omega, ds, u, hnum, i3 (hnt hn), rfl⟩
      · rw [if_pos c2] at h2; exact nomatch h2
    rw [if_neg c1] at h
    by_cases c2 : s.headD 0 = ch 'i' ∨ s.headD 0 = ch 'u' ∨ s.headD 0 = ch 'f'
    · rw [if_pos c2] at h
      obtain ⟨⟨n, s1⟩, h1, h2⟩ := bind_ok h
      dsimp only at h2
      obtain ⟨ds, e1, hnum⟩ := readUInt_ok _ _ _ h1
      cases hk : scalarOf (s.headD 0) n with
      | none => rw [hk] at h2; exact nomatch h2
      | some k =>
        rw [hk] at h2
        obtain ⟨k1, k2⟩ := scalarOf_ok _ _ _ c2 hk
        have hs : s = Sc.letter k :: s.tail := head_cons s _ (by cases k <;> decide) k1
        have hst : s = (Sc.letter k :: ds) ++ s1 := by rw [List.cons_append, ← e1]; exact hs
        have hmu : false = decide (s.headD 0 = ch '&') := by rw [k1]; cases k <;> rfl
        obtain ⟨v, f1, f2, f3, f4⟩ := finish_denotes (!p) (.sc k) p false p top
          (Sc.letter k :: ds) s1 q h2 rfl (by simp [PT.simple]) (fun h => by simpa [PT.reOk] using h)
        refine ⟨(Sc.letter k :: ds) ++ v, nofun, by rw [hst, f1, List.append_assoc], fun hn => ?_, f3, by rw [f4, hmu]⟩
        exact f2 (narrows_drop _ _ (hst ▸ hn)) ⟨ds, k2 ▸ hnum, rfl⟩
    rw [if_neg c2] at h
    by_cases c3 : s.headD 0 = ch 'a'
    · rw [if_pos c3] at h
      have hs := head_cons s _ (by decide) c3
      obtain ⟨v, f1, f2, f3, f4⟩ := finish_denotes false .a false false p top
        [ch 'a'] s.tail q h rfl (by simp [PT.simple]) (fun _ => rfl)
      have hst : s = [ch 'a'] ++ s.tail := hs
      have hmu : false = decide (s.headD 0 = ch '&') := by rw [c3]; rfl
      refine ⟨[ch 'a'] ++ v, nofun, by rw [List.append_assoc, ← f1]; exact hst, fun hn => ?_, f3, by rw [f4, hmu]⟩
      exact f2 (narrows_drop _ _ (hst ▸ hn)) rfl
    rw [if_neg c3] at h
    by_cases c4 : s.headD 0 = ch '*' ∨ s.headD 0 = ch '&'
    · rw [if_pos c4] at h
      by_cases c5 : s.headD 0 = ch '*' ∧ (s.tail.headD 0 = 0 ∨ s.tail.headD 0 = ch ':' ∨
          s.tail.headD 0 = ch '}' ∨ s.tail.headD 0 = ch ',')
      · rw [if_pos c5] at h
        have hs := head_cons s _ (by decide) c5.1
        obtain ⟨v, f1, f2, f3, f4⟩ := finish_denotes (!p) .vptr p false p top
          [ch '*'] s.tail q h rfl (by simp [PT.simple]) (fun h => by simpa [PT.reOk] using h)
        have hst : s = [ch '*'] ++ s.tail := hs
        have hmu : false = decide (s.headD 0 = ch '&') := by rw [c5.1]; rfl
        refine ⟨[ch '*'] ++ v, nofun, by rw [List.append_assoc, ← f1]; exact hst, fun hn => ?_, f3, by rw [f4, hmu]⟩
        exact f2 (narrows_drop _ _ (hst ▸ hn)) rfl
      · rw [if_neg c5] at h
        by_cases c6 : s.headD 0 = ch '&' ∧ top = false
        · rw [if_pos c6] at h; exact nomatch h
        · rw [if_neg c6] at h
          obtain ⟨e, h3, h4⟩ := bind_ok h
          obtain ⟨u, i1, i2, i3, i4, _⟩ := parseT_ok fuel true false s.tail e h3
          have hs : s = (if decide (s.headD 0 = ch '&') = true then ch '&' else ch '*') :: s.tail := by
            rcases c4 with c | c
            · rw [c]; exact head_cons s _ (by decide) c
            · rw [c]; exact head_cons s _ (by decide) c
          have hst : s = ((if decide (s.headD 0 = ch '&') = true then ch '&' else ch '*') :: u) ++ e.rest := by
            rw [List.cons_append, ← i2]; exact hs
          have hnt : Narrows s → Narrows s.tail := by
            intro hn
            rw [hs] at hn
            exact narrows_tail _ _ hn
          obtain ⟨v, f1, f2, f3, f4⟩ := finish_denotes e.can (.ptr (decide (s.headD 0 = ch '&')) e.t) false
            (decide (s.headD 0 = ch '&')) p top _ e.rest q h4 (by rw [i4]; rfl) (by simp [PT.simple]) (fun _ => rfl)
          refine ⟨((if decide (s.headD 0 = ch '&') = true then ch '&' else ch '*') :: u) ++ v, by simp,
            by rw [List.append_assoc, ← f1]; exact hst, fun hn => ?_, f3, f4⟩
          refine f2 (narrows_drop _ _ (Eq.subst (motive := Narrows) hst hn)) ⟨fun hm => ?_, u, i3 (hnt hn), rfl⟩
          cases top with
          | true => rfl
          | false => exact absurd ⟨of_decide_eq_true hm, rfl⟩ c6
    rw [if_neg c4] at h
    by_cases c7 : s.headD 0 = ch '{'
    · rw [if_pos c7] at h
      have hs := head_cons s _ (by decide) c7
      obtain ⟨⟨fs, s1⟩, h3, h4⟩ := bind_ok h
      obtain ⟨u, i2, i3⟩ := parseFs_ok fuel s.tail fs s1 h3
      have hst : s = (ch '{' :: (u ++ [ch '}'])) ++ s1 := by
        rw [List.cons_append, List.append_assoc, List.singleton_append, ← i2]; exact hs
      have hmu : false = decide (s.headD 0 = ch '&') := by rw [c7]; rfl
      have hnt : Narrows s → Narrows s.tail := by
        intro hn
        rw [hs] at hn
        exact narrows_tail _ _ hn
      obtain ⟨v, f1, f2, f3, f4⟩ := finish_denotes false (.str fs) false false p top
        (ch '{' :: (u ++ [ch '}'])) s1 q h4 rfl (by simp [PT.simple]) (fun _ => rfl)
      refine ⟨(ch '{' :: (u ++ [ch '}'])) ++ v, nofun, by rw [List.append_assoc, ← f1]; exact hst, fun hn => ?_, f3, by rw [f4, hmu]⟩
      exact f2 (narrows_drop _ _ (hst ▸ hn)) ⟨u, i3 (hnt hn), rfl⟩
    rw [if_neg c7] at h
    exact nomatch h
theorem parseFs_ok : ∀ (fuel : Nat) (s : Str) (fs : PTs) (s' : Str), parseFs fuel s = .ok (fs, s') →
    ∃ u, s = u ++ ch '}' :: s' ∧ (Narrows s → DenotesAll fs u)
  | 0, _, _, _, h => nomatch h
  | fuel + 1, s, fs, s', h => by
    rw [parseFs] at h
    obtain ⟨e, h1, h2⟩ := bind_ok h
    obtain ⟨u, i1, i2, i3, _⟩ := parseT_ok fuel false false s e h1
    by_cases c1 : e.rest.headD 0 = ch '}'
    · rw [if_pos c1] at h2
      injection h2 with h2
      injection h2 with e1 e2
      subst e1; subst e2
      have := head_cons e.rest _ (by decide) c1
      exact ⟨u, by rw [← this]; exact i2, fun hn => by rw [DenotesAll]; exact i3 hn⟩
    rw [if_neg c1] at h2
    by_cases c2 : e.rest.headD 0 = ch ','
    · rw [if_neg (fun h => h c2)] at h2
      have hr := head_cons e.rest _ (by decide) c2
      obtain ⟨⟨gs, s1⟩, h3, h4⟩ := bind_ok h2
      injection h4 with h4
      injection h4 with e1 e2
      subst e1; subst e2
      obtain ⟨v, j1, j2⟩ := parseFs_ok fuel e.rest.tail gs s1 h3
      refine ⟨u ++ ch ',' :: v, ?_, fun hn => ?_⟩
      · rw [List.append_assoc, List.cons_append, ← j1, ← hr]; exact i2
      · have hn' : Narrows e.rest.tail := by
          rw [i2, hr] at hn
          exact narrows_tail _ _ (narrows_drop _ _ hn)
        have hg := j2 hn'
        cases gs with
        | nil => exact hg.elim
        | cons t' r =>
          rw [DenotesAll]
          exact ⟨u, v, i3 hn, hg, rfl⟩
    · rw [if_pos c2] at h2; exact nomatch h2
end

theorem len_lt (u s s' : Str) (hu : u ≠ []) (h : s = u ++ s') : s'.length < s.length := by
  have : u.length ≠ 0 := fun h0 => hu (List.eq_nil_of_length_eq_zero h0)
  rw [h, List.length_append]
  omega

mutual
theorem parseT_fuel : ∀ (fuel : Nat) (p top : Bool) (s : Str), 2 * s.length + 1 ≤ fuel → parseT fuel p top s ≠ .fuel
  | 0, _, _, _, hf => by omega
  | fuel + 1, p, top, s, hf => by
    intro h
    rw [parseT] at h
    dsimp only at h
    by_cases c1 : s.headD 0 = ch '['
    · rw [if_pos c1] at h
      have hs := head_cons s _ (by decide) c1
      have hl : s.length = s.tail.length + 1 := congrArg List.length hs
      rcases bind_fuel h with h | ⟨⟨n, s1⟩, h1, h⟩
      · exact (readUInt_plain _).2 h
      · dsimp only at h
        obtain ⟨ds, e1, hnum⟩ := readUInt_ok _ _ _ h1
        have l1 := len_lt _ _ _ hnum.1 e1
        by_cases c2 : s1.headD 0 ≠ ch ']'
        · rw [if_pos c2] at h; exact nomatch h
        rw [if_neg c2] at h
        by_cases c3 : n = 0
        · rw [if_pos c3] at h; exact nomatch h
        rw [if_neg c3] at h
        rcases bind_fuel h with h | ⟨e, _, h⟩
        · refine parseT_fuel fuel top false s1.tail ?_ h
          rw [List.length_tail]
          omega
        · cases top with
          | true => rw [if_pos rfl] at h; exact finish_fuel _ _ _ _ _ h
          | false =>
            simp only [Bool.false_eq_true, if_false] at h
            exact finish_fuel _ _ _ _ _ h
    rw [if_neg c1] at h
    by_cases c2 : s.headD 0 = ch 'i' ∨ s.headD 0 = ch 'u' ∨ s.headD 0 = ch 'f'
    · rw [if_pos c2] at h
      rcases bind_fuel h with h | ⟨⟨n, s1⟩, h1, h⟩
      · exact (readUInt_plain _).2 h
      · dsimp only at h
        cases hk : scalarOf (s.headD 0) n with
        | none => rw [hk] at h; exact nomatch h
        | some k => rw [hk] at h; exact finish_fuel _ _ _ _ _ h
    rw [if_neg c2] at h
    by_cases c3 : s.headD 0 = ch 'a'
    · rw [if_pos c3] at h; exact finish_fuel _ _ _ _ _ h
    rw [if_neg c3] at h
    by_cases c4 : s.headD 0 = ch '*' ∨ s.headD 0 = ch '&'
    · rw [if_pos c4] at h
      have hl : s.length = s.tail.length + 1 := by
        rcases c4 with c | c
        · exact congrArg List.length (head_cons s _ (by decide) c)
        · exact congrArg List.length (head_cons s _ (by decide) c)
      by_cases c5 : s.headD 0 = ch '*' ∧ (s.tail.headD 0 = 0 ∨ s.tail.headD 0 = ch ':' ∨
          s.tail.headD 0 = ch '}' ∨ s.tail.headD 0 = ch ',')
      · rw [if_pos c5] at h; exact finish_fuel _ _ _ _ _ h
      rw [if_neg c5] at h
      by_cases c6 : s.headD 0 = ch '&' ∧ top = false
      · rw [if_pos c6] at h; exact nomatch h
      rw [if_neg c6] at h
      rcases bind_fuel h with h | ⟨e, _, h⟩
      · exact parseT_fuel fuel true false s.tail (by omega) h
      · exact finish_fuel _ _ _ _ _ h
    rw [if_neg c4] at h
    by_cases c7 : s.headD 0 = ch '{'
    · rw [if_pos c7] at h
      have hl : s.length = s.tail.length + 1 := congrArg List.length (head_cons s _ (by decide) c7)
      rcases bind_fuel h with h | ⟨e, _, h⟩
      · exact parseFs_fuel fuel s.tail (by omega) h
      · exact finish_fuel _ _ _ _ _ h
    rw [if_neg c7] at h
    exact nomatch h
theorem parseFs_fuel : ∀ (fuel : Nat) (s : Str), 2 * s.length + 2 ≤ fuel → parseFs fuel s ≠ .fuel
  | 0, _, hf => by omega
  | fuel + 1, s, hf => by
    intro h
    rw [parseFs] at h
    rcases bind_fuel h with h | ⟨e, h1, h⟩
    · exact parseT_fuel fuel false false s (by omega) h
    · obtain ⟨u, i1, i2, _⟩ := parseT_ok fuel false false s e h1
      have hl := len_lt _ _ _ i1 i2
      by_cases c1 : e.rest.headD 0 = ch '}'
      · rw [if_pos c1] at h; exact nomatch h
      rw [if_neg c1] at h
      by_cases c2 : e.rest.headD 0 = ch ','
      · rw [if_neg (fun h => h c2)] at h
        rcases bind_fuel h with h | ⟨_, _, h⟩
        · refine parseFs_fuel fuel e.rest.tail ?_ h
          rw [List.length_tail]
          omega
        · exact nomatch h
      · rw [if_pos c2] at h; exact nomatch h
end

/-- The string ends with a colon. -/
def Colon (s : Str) : Prop := ∃ pre, s = pre ++ [ch ':']

theorem colon_app (u s : Str) (h : Colon s) : Colon (u ++ s) := by
  obtain ⟨pre, e⟩ := h
  exact ⟨u ++ pre, by rw [e, List.append_assoc]⟩

theorem colon_tail (s : Str) (h : Colon s.tail) : Colon s := by
  cases s with
  | nil => exact h
  | cons c s => exact colon_app [c] s h

theorem colon_finish (pr : Bool) (t : PT) (can mu : Bool) (s : Str) (h : finish pr t can mu s = .oob) : Colon s :=
  ⟨[], finish_oob pr t can mu s h⟩

mutual
theorem parseT_oob : ∀ (fuel : Nat) (p top : Bool) (s : Str), parseT fuel p top s = .oob → Colon s
  | 0, _, _, _, h => nomatch h
  | fuel + 1, p, top, s, h => by
    rw [parseT] at h
    dsimp only at h
    by_cases c1 : s.headD 0 = ch '['
    · rw [if_pos c1] at h
      rcases bind_oob h with h | ⟨⟨n, s1⟩, h1, h⟩
      · exact absurd h (readUInt_plain _).1
      · dsimp only at h
        obtain ⟨ds, e1, hnum⟩ := readUInt_ok _ _ _ h1
        refine colon_tail s ?_
        rw [e1]
        refine colon_app ds s1 (colon_tail s1 ?_)
        by_cases c2 : s1.headD 0 ≠ ch ']'
        · rw [if_pos c2] at h; exact nomatch h
        rw [if_neg c2] at h
        by_cases c3 : n = 0
        · rw [if_pos c3] at h; exact nomatch h
        rw [if_neg c3] at h
        rcases bind_oob h with h | ⟨e, h2, h⟩
        · exact parseT_oob fuel top false s1.tail h
        · obtain ⟨u, i1, i2, _⟩ := parseT_ok fuel top false s1.tail e h2
          rw [i2]
          refine colon_app u _ ?_
          cases top with
          | true => rw [if_pos rfl] at h; exact colon_finish _ _ _ _ _ h
          | false =>
            simp only [Bool.false_eq_true, if_false] at h
            exact colon_finish _ _ _ _ _ h
    rw [if_neg c1] at h
    by_cases c2 : s.headD 0 = ch 'i' ∨ s.headD 0 = ch 'u' ∨ s.headD 0 = ch 'f'
    · rw [if_pos c2] at h
      rcases bind_oob h with h | ⟨⟨n, s1⟩, h1, h⟩
      · exact absurd h (readUInt_plain _).1
      · dsimp only at h
        obtain ⟨ds, e1, hnum⟩ := readUInt_ok _ _ _ h1
        refine colon_tail s ?_
        rw [e1]
        refine colon_app ds s1 ?_
        cases hk : scalarOf (s.headD 0) n with
        | none => rw [hk] at h; exact nomatch h
        | some k => rw [hk] at h; exact colon_finish _ _ _ _ _ h
    rw [if_neg c2] at h
    by_cases c3 : s.headD 0 = ch 'a'
    · rw [if_pos c3] at h; exact colon_tail s (colon_finish _ _ _ _ _ h)
    rw [if_neg c3] at h
    by_cases c4 : s.headD 0 = ch '*' ∨ s.headD 0 = ch '&'
    · rw [if_pos c4] at h
      refine colon_tail s ?_
      by_cases c5 : s.headD 0 = ch '*' ∧ (s.tail.headD 0 = 0 ∨ s.tail.headD 0 = ch ':' ∨
          s.tail.headD 0 = ch '}' ∨ s.tail.headD 0 = ch ',')
      · rw [if_pos c5] at h; exact colon_finish _ _ _ _ _ h
      rw [if_neg c5] at h
      by_cases c6 : s.headD 0 = ch '&' ∧ top = false
      · rw [if_pos c6] at h; exact nomatch h
      rw [if_neg c6] at h
      rcases bind_oob h with h | ⟨e, h2, h⟩
      · exact parseT_oob fuel true false s.tail h
      · obtain ⟨u, i1, i2, _⟩ := parseT_ok fuel true false s.tail e h2
        rw [i2]
        exact colon_app u _ (colon_finish _ _ _ _ _ h)
    rw [if_neg c4] at h
    by_cases c7 : s.headD 0 = ch '{'
    · rw [if_pos c7] at h
      refine colon_tail s ?_
      rcases bind_oob h with h | ⟨⟨fs, s1⟩, h2, h⟩
      · exact parseFs_oob fuel s.tail h
      · obtain ⟨u, i2, _⟩ := parseFs_ok fuel s.tail fs s1 h2
        rw [i2]
        exact colon_app u _ (colon_app [ch '}'] s1 (colon_finish _ _ _ _ _ h))
    rw [if_neg c7] at h
    exact nomatch h
theorem parseFs_oob : ∀ (fuel : Nat) (s : Str), parseFs fuel s = .oob → Colon s
  | 0, _, h => nomatch h
  | fuel + 1, s, h => by
    rw [parseFs] at h
    rcases bind_oob h with h | ⟨e, h1, h⟩
    · exact parseT_oob fuel false false s h
    · obtain ⟨u, i1, i2, _⟩ := parseT_ok fuel false false s e h1
      rw [i2]
      refine colon_app u _ (colon_tail _ ?_)
      by_cases c1 : e.rest.headD 0 = ch '}'
      · rw [if_pos c1] at h; exact nomatch h
      rw [if_neg c1] at h
      by_cases c2 : e.rest.headD 0 = ch ','
      · rw [if_neg (fun h => h c2)] at h
        rcases bind_oob h with h | ⟨_, _, h⟩
        · exact parseFs_oob fuel e.rest.tail h
        · exact nomatch h
      · rw [if_pos c2] at h; exact nomatch h
end

end Verif.FfiType
