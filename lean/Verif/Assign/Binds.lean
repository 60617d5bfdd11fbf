import Verif.Assign.Main
/-!
# Assignment: what is bound
-/
namespace Verif.Assign

theorem then_ok {r : R} {f : Store → R} {σ' : Store} (h : r.then f = .ok σ') : ∃ σ1, r = .ok σ1 ∧ f σ1 = .ok σ' := by
  cases r with
  | ok σ1 => exact ⟨σ1, rfl, h⟩
  | err _ => cases h
  | ud => cases h

theorem field_ok {σ : Store} {f : Nat → R} {o : Option Nat} {σ' : Store} (h : R.field σ f o = .ok σ') : ∃ i, o = some i ∧ f i = .ok σ' := by
  cases o with
  | none => cases h
  | some i => exact ⟨i, rfl, h⟩

theorem isNoVar_iff {v : V} : v.isNoVar = true ↔ v = .noVar := by
  cases v <;> simp [V.isNoVar]

theorem setVar_ok {upd : Bool} {σ : Store} {k : Key} {x : V} {σ' : Store} : setVar upd true σ k x = .ok σ' ↔ (upd = true → σ k ≠ .noVar) ∧ σ' = put σ k x := by
  unfold setVar badWrite
  cases upd with
  | false =>
    simp only [Bool.false_and, Bool.false_eq_true, if_false]
    exact ⟨(fun h => by cases h; exact ⟨nofun, rfl⟩), (fun h => by rw [h.2])⟩
  | true =>
    simp only [Bool.true_and]
    by_cases h : (σ k).isNoVar = true
    · rw [if_pos h]
      refine ⟨nofun, fun h' => absurd (isNoVar_iff.1 h) (h'.1 trivial)⟩
    · rw [if_neg h]
      exact ⟨(fun h' => by cases h'; exact ⟨fun _ e => h (isNoVar_iff.2 e), rfl⟩), (fun h => by rw [h.2])⟩

theorem wf_of_ok {W : World} {hdr upd chk : Bool} {t : T} {x : V} {σ σ' : Store} (hσ : WfS σ) (hx : x.Wf) (h : set W hdr upd chk σ t x = .ok σ') : WfS σ' := by
  have := set_good W hdr upd chk t x σ hσ hx
  rw [h] at this
  exact this.1

mutual
theorem set_sound (W : World) (hdr upd : Bool) : ∀ (t : T) (x : V) (σ σ' : Store), WfS σ → x.Wf → set W hdr upd true σ t x = .ok σ' → ∃ bs, Binds W upd σ t x bs ∧ σ' = apply bs σ
  | .var d p, x, σ, σ', hσ, hx, h => by
    rw [set] at h
    obtain ⟨h1, rfl⟩ := setVar_ok.1 h
    exact ⟨_, .var h1, rfl⟩
  | .ext d p, x, σ, σ', hσ, hx, h => by
    rw [set] at h
    cases hdr with
    | true => cases h
    | false =>
      obtain ⟨h1, rfl⟩ := setVar_ok.1 h
      exact ⟨_, .ext h1, rfl⟩
  | .nothing, x, σ, σ', hσ, hx, h => by
    rw [set] at h
    cases h
    exact ⟨_, .nothing, rfl⟩
  | .list ts, .arr sh xs, σ, σ', hσ, hx, h => by
    rw [set] at h
    by_cases hs : sh = [ts.length]
    · rw [if_pos hs] at h
      rw [V.Wf] at hx
      obtain ⟨bs, hb, rfl⟩ := setAll_sound W hdr upd ts xs σ σ' hσ hx.2 (by rw [hx.1, hs]; simp [prod]) h
      subst hs
      exact ⟨bs, .list hb, rfl⟩
    · rw [if_neg hs] at h; cases h
  | .list ts, .ns s e, σ, σ', hσ, hx, h => by
    rw [set] at h
    obtain ⟨bs, hb, rfl⟩ := setFields_sound W hdr upd ts s e σ σ' hσ h
    exact ⟨bs, .fields hb, rfl⟩
  | .list _, .atom _, σ, σ', hσ, hx, h => by rw [set] at h; cases h; all_goals nofun
  | .list _, .noVar, σ, σ', hσ, hx, h => by rw [set] at h; cases h; all_goals nofun
  | .list _, .optOut, σ, σ', hσ, hx, h => by rw [set] at h; cases h; all_goals nofun
  | .merge ts, .arr [] es, σ, σ', hσ, hx, h => by rw [set] at h; cases h; all_goals nofun
  | .merge ts, .arr (n :: sh) es, σ, σ', hσ, hx, h => by
    rw [set] at h
    by_cases hs : n = ts.length
    · rw [if_pos hs] at h
      obtain ⟨bs, hb, rfl⟩ := setAll_sound W hdr upd ts _ σ σ' hσ (cellsOf_wf hx) (by rw [cellsOf_length hx, hs]) h
      rw [V.Wf] at hx
      obtain ⟨cells, h1, h2, h3, h4⟩ := cellsOf_spec (n := n) (sh := sh) (es := es) hx.1
      rw [h1] at hb
      subst hs
      rw [← h2]
      exact ⟨bs, .merge h3 hb, rfl⟩
    · rw [if_neg hs] at h; cases h
  | .merge ts, .atom _, σ, σ', hσ, hx, h => by rw [set] at h; cases h; all_goals nofun
  | .merge ts, .ns _ _, σ, σ', hσ, hx, h => by rw [set] at h; cases h; all_goals nofun
  | .merge ts, .noVar, σ, σ', hσ, hx, h => by rw [set] at h; cases h; all_goals nofun
  | .merge ts, .optOut, σ, σ', hσ, hx, h => by rw [set] at h; cases h; all_goals nofun
  | .alias _ _, x, σ, σ', hσ, hx, h => by rw [set] at h; cases h
  | .verify v, x, σ, σ', hσ, hx, h => by
    rw [set] at h
    cases hdr with
    | true =>
      rw [if_pos rfl] at h
      cases he : W.eq v x with
      | true => rw [he] at h; cases h; exact ⟨_, .verify he, rfl⟩
      | false => rw [he] at h; cases h
    | false => cases h
theorem setAll_sound (W : World) (hdr upd : Bool) : ∀ (ts : List T) (xs : List V) (σ σ' : Store), WfS σ → wfL xs → xs.length = ts.length → setAll W hdr upd σ ts xs = .ok σ' → ∃ bs, BindsAll W upd σ ts xs bs ∧ σ' = apply bs σ
  | [], [], σ, σ', hσ, _, _, h => by rw [setAll] at h; cases h; exact ⟨_, .nil, rfl⟩
  | [], _ :: _, σ, σ', hσ, _, hl, h => by cases hl
  | _ :: _, [], σ, σ', _, _, h, _ => by cases h
  | t :: ts, x :: xs, σ, σ', hσ, hx, hl, h => by
    rw [setAll] at h
    rw [wfL] at hx
    obtain ⟨σ1, h1, h2⟩ := then_ok h
    obtain ⟨b, hb, e1⟩ := set_sound W hdr upd t x σ σ1 hσ hx.1 h1
    obtain ⟨bs, hbs, e2⟩ := setAll_sound W hdr upd ts xs σ1 σ' (wf_of_ok hσ hx.1 h1) hx.2 (Nat.succ.inj hl) h2
    subst e1
    exact ⟨b ++ bs, .cons hb hbs, by rw [e2, apply_append]⟩
theorem setFields_sound (W : World) (hdr upd : Bool) : ∀ (ts : List T) (s : Nat) (e : List (Option Nat)) (σ σ' : Store), WfS σ → setFields W hdr upd σ ts s e = .ok σ' → ∃ bs, BindsFields W upd σ ts s e bs ∧ σ' = apply bs σ
  | [], _, _, σ, σ', hσ, h => by rw [setFields] at h; cases h; exact ⟨_, .nil, rfl⟩
  | .var d p :: ts, s, e, σ, σ', hσ, h => by
    rw [setFields] at h
    obtain ⟨σ1, h1, h2⟩ := then_ok h
    obtain ⟨i, h3, h4⟩ := field_ok h1
    obtain ⟨g, h5, h6⟩ := Option.bind_eq_some_iff.1 h3
    obtain ⟨h7, rfl⟩ := setVar_ok.1 h4
    obtain ⟨bs, hbs, e2⟩ := setFields_sound W hdr upd ts s e _ σ' (hσ.put _ (hσ _)) h2
    exact ⟨[(.var (W.scope d) p, σ (.var s i))] ++ bs, .cons (b := [(.var (W.scope d) p, σ (.var s i))]) (.var h5) (field_iff.2 ⟨i, h6, rfl⟩) (.var h7) hbs, e2⟩
  | .ext d p :: ts, s, e, σ, σ', hσ, h => by
    rw [setFields] at h
    cases hdr with
    | true => cases h
    | false =>
      simp only [Bool.false_eq_true, if_false] at h
      obtain ⟨σ1, h1, h2⟩ := then_ok h
      obtain ⟨i, h3, h4⟩ := field_ok h1
      obtain ⟨h7, rfl⟩ := setVar_ok.1 h4
      obtain ⟨bs, hbs, e2⟩ := setFields_sound W false upd ts s e _ σ' (hσ.put _ (hσ _)) h2
      exact ⟨[(.ext (W.scope d) p, σ (.var s i))] ++ bs, .cons (b := [(.ext (W.scope d) p, σ (.var s i))]) .ext (field_iff.2 ⟨i, h3, rfl⟩) (.ext h7) hbs, e2⟩
  | .alias t g :: ts, s, e, σ, σ', hσ, h => by
    rw [setFields] at h
    obtain ⟨σ1, h1, h2⟩ := then_ok h
    obtain ⟨i, h3, h4⟩ := field_ok h1
    obtain ⟨b, hb, e1⟩ := set_sound W hdr upd t _ σ σ1 hσ (hσ _) h4
    obtain ⟨bs, hbs, e2⟩ := setFields_sound W hdr upd ts s e _ σ' (wf_of_ok hσ (hσ _) h4) h2
    subst e1
    exact ⟨b ++ bs, .cons .alias (field_iff.2 ⟨i, h3, rfl⟩) hb hbs, by rw [e2, apply_append]⟩
  | .nothing :: ts, s, e, σ, σ', hσ, h => by rw [setFields] at h; cases h
  | .list _ :: ts, s, e, σ, σ', hσ, h => by rw [setFields] at h; cases h
  | .merge _ :: ts, s, e, σ, σ', hσ, h => by rw [setFields] at h; cases hdr <;> cases h
  | .verify _ :: ts, s, e, σ, σ', hσ, h => by rw [setFields] at h; cases hdr <;> cases h
end

theorem BindsAll.length {W : World} {upd : Bool} {ts : List T} : ∀ {σ : Store} {xs : List V} {bs : List (Key × V)}, BindsAll W upd σ ts xs bs → xs.length = ts.length := by
  induction ts with
  | nil => intro σ xs bs h; cases h; rfl
  | cons t ts ih => intro σ xs bs h; cases h with | cons _ h => rw [List.length_cons, List.length_cons, ih h]

mutual
theorem set_complete (W : World) (hdr upd : Bool) : ∀ (t : T) (x : V) (σ : Store) (bs : List (Key × V)), t.fits hdr = true → Binds W upd σ t x bs → set W hdr upd true σ t x = .ok (apply bs σ)
  | .var d p, x, σ, bs, hf, h => by
    cases h with | var h => rw [set]; exact setVar_ok.2 ⟨h, rfl⟩
  | .ext d p, x, σ, bs, hf, h => by
    cases h with
    | ext h =>
      rw [set]
      cases hdr with
      | true => cases hf
      | false => exact setVar_ok.2 ⟨h, rfl⟩
  | .nothing, x, σ, bs, hf, h => by cases h; rw [set]; rfl
  | .list ts, x, σ, bs, hf, h => by
    rw [T.fits] at hf
    cases h with
    | list h => rw [set, if_pos rfl]; exact setAll_complete W hdr upd ts _ σ bs hf h
    | fields h => rw [set]; exact setFields_complete W hdr upd ts _ _ σ bs hf h
  | .merge ts, x, σ, bs, hf, h => by
    rw [T.fits] at hf
    cases h with
    | @merge _ _ sh cells _ h1 h2 =>
      rw [set, if_pos rfl]
      have : cells.length = ts.length := by rw [← h2.length, List.length_map]
      rw [← this, cellsOf_of h1]
      exact setAll_complete W hdr upd ts _ σ bs hf h2
  | .alias _ _, x, σ, bs, hf, h => by cases h
  | .verify v, x, σ, bs, hf, h => by
    cases h with
    | verify h =>
      rw [set]
      cases hdr with
      | true => rw [if_pos rfl, if_pos h]; rfl
      | false => cases hf
theorem setAll_complete (W : World) (hdr upd : Bool) : ∀ (ts : List T) (xs : List V) (σ : Store) (bs : List (Key × V)), fitsL hdr ts = true → BindsAll W upd σ ts xs bs → setAll W hdr upd σ ts xs = .ok (apply bs σ)
  | [], _, σ, bs, hf, h => by cases h; rw [setAll]; rfl
  | t :: ts, xs, σ, bs, hf, h => by
    rw [fitsL, Bool.and_eq_true] at hf
    cases h with
    | cons h1 h2 =>
      rw [setAll, set_complete W hdr upd t _ σ _ hf.1 h1, apply_append]
      exact setAll_complete W hdr upd ts _ _ _ hf.2 h2
theorem setFields_complete (W : World) (hdr upd : Bool) : ∀ (ts : List T) (s : Nat) (e : List (Option Nat)) (σ : Store) (bs : List (Key × V)), fitsL hdr ts = true → BindsFields W upd σ ts s e bs → setFields W hdr upd σ ts s e = .ok (apply bs σ)
  | [], _, _, σ, bs, hf, h => by cases h; rw [setFields]; rfl
  | .var d p :: ts, s, e, σ, bs, hf, h => by
    rw [fitsL, Bool.and_eq_true] at hf
    cases h with
    | cons hn hk h1 h2 =>
      cases hn with
      | var hn =>
        obtain ⟨i, hi, rfl⟩ := field_iff.1 hk
        cases h1 with
        | var h1 =>
          rw [setFields, hn, Option.bind_some, hi]
          show (setVar _ _ _ _ _).then _ = _
          rw [setVar_ok.2 ⟨h1, rfl⟩]
          exact setFields_complete W hdr upd ts _ _ _ _ hf.2 h2
  | .ext d p :: ts, s, e, σ, bs, hf, h => by
    rw [fitsL, Bool.and_eq_true] at hf
    cases h with
    | cons hn hk h1 h2 =>
      cases hn with
      | ext =>
        obtain ⟨i, hi, rfl⟩ := field_iff.1 hk
        cases h1 with
        | ext h1 =>
          cases hdr with
          | true => exact absurd hf.1 (by simp [T.fits])
          | false =>
            rw [setFields, hi]
            show (setVar _ _ _ _ _).then _ = _
            rw [setVar_ok.2 ⟨h1, rfl⟩]
            exact setFields_complete W false upd ts _ _ _ _ hf.2 h2
  | .alias t g :: ts, s, e, σ, bs, hf, h => by
    rw [fitsL, Bool.and_eq_true, T.fits] at hf
    cases h with
    | cons hn hk h1 h2 =>
      cases hn with
      | alias =>
        obtain ⟨i, hi, rfl⟩ := field_iff.1 hk
        rw [setFields, hi]
        show (set _ _ _ _ _ _ _).then _ = _
        rw [set_complete W hdr upd t _ σ _ hf.1 h1, apply_append]
        exact setFields_complete W hdr upd ts _ _ _ _ hf.2 h2
  | .nothing :: ts, s, e, σ, bs, hf, h => by cases h with | cons hn _ _ _ => cases hn
  | .list _ :: ts, s, e, σ, bs, hf, h => by cases h with | cons hn _ _ _ => cases hn
  | .merge _ :: ts, s, e, σ, bs, hf, h => by cases h with | cons hn _ _ _ => cases hn
  | .verify _ :: ts, s, e, σ, bs, hf, h => by cases h with | cons hn _ _ _ => cases hn
end

end Verif.Assign
