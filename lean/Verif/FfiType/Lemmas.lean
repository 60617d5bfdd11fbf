import Verif.FfiType.Model
/-
Lemmas about the parser of foreign types.
-/
namespace Verif.FfiType
open Verif.Ffi

theorem bind_ok {α β : Type} {x : Res α} {f : α → Res β} {b : β} (h : x.bind f = .ok b) :
    ∃ a, x = .ok a ∧ f a = .ok b := by
  cases x with
  | ok a => exact ⟨a, rfl, h⟩
  | _ => exact nomatch h

theorem bind_oob {α β : Type} {x : Res α} {f : α → Res β} (h : x.bind f = .oob) :
    x = .oob ∨ ∃ a, x = .ok a ∧ f a = .oob := by
  cases x with
  | ok a => exact .inr ⟨a, rfl, h⟩
  | oob => exact .inl rfl
  | _ => exact nomatch h

theorem bind_fuel {α β : Type} {x : Res α} {f : α → Res β} (h : x.bind f = .fuel) :
    x = .fuel ∨ ∃ a, x = .ok a ∧ f a = .fuel := by
  cases x with
  | ok a => exact .inr ⟨a, rfl, h⟩
  | fuel => exact .inl rfl
  | _ => exact nomatch h

/-! ### Numbers -/

def acc (r : Nat) (ds : Str) : Nat := ds.foldl (fun n d => n * 10 + (d - ch '0')) r

theorem acc_ge : ∀ (ds : Str) (r : Nat), r ≤ acc r ds
  | [], r => Nat.le_refl r
  | d :: ds, r => by
    have := acc_ge ds (r * 10 + (d - ch '0'))
    show r ≤ acc (r * 10 + (d - ch '0')) ds
    omega

theorem readLoop_ok : ∀ (s : Str) (r n : Nat) (s' : Str), readLoop r s = some (n, s') →
    ∃ ds, s = ds ++ s' ∧ (∀ d ∈ ds, isDigit d) ∧ n = acc r ds ∧ (ds ≠ [] → n < 4294967190)
  | [], r, n, s', h => by
    injection h with h
    injection h with h1 h2
    exact ⟨[], by rw [← h2]; rfl, nofun, h1.symm, fun h => absurd rfl h⟩
  | c :: s, r, n, s', h => by
    rw [readLoop] at h
    by_cases hd : isDigit c
    · rw [if_pos hd] at h
      by_cases hr : r ≥ (2 ^ 32 - 1) / 10 - 10
      · rw [if_pos hr] at h; exact nomatch h
      · rw [if_neg hr] at h
        have h0 : ch '0' = 48 := rfl
        have h9 : ch '9' = 57 := rfl
        unfold isDigit at hd
        have hm : (r * 10 + c - ch '0') % 2 ^ 32 = r * 10 + (c - ch '0') := by omega
        rw [hm] at h
        obtain ⟨ds, e1, e2, e3, e4⟩ := readLoop_ok s _ n s' h
        refine ⟨c :: ds, by rw [e1]; rfl, ?_, e3, fun _ => ?_⟩
        · intro d hd'
          cases hd' with
          | head => exact hd
          | tail _ h => exact e2 d h
        · cases ds with
          | nil =>
            rw [e3]
            show r * 10 + (c - ch '0') < _
            omega
          | cons _ _ => exact e4 nofun
    · rw [if_neg hd] at h
      injection h with h
      injection h with h1 h2
      exact ⟨[], by rw [← h2]; rfl, nofun, h1.symm, fun h => absurd rfl h⟩

theorem readLoop_run : ∀ (ds : Str) (r : Nat) (rest : Str), (∀ d ∈ ds, isDigit d) → acc r ds < 4294967190 →
    ¬ isDigit (rest.headD 0) → readLoop r (ds ++ rest) = some (acc r ds, rest)
  | [], r, [], _, _, _ => rfl
  | [], r, c :: rest, _, _, h => by
    rw [List.nil_append, readLoop, if_neg (show ¬ isDigit c from h)]
    rfl
  | d :: ds, r, rest, hd, hl, h => by
    have h0 : ch '0' = 48 := rfl
    have h9 : ch '9' = 57 := rfl
    have hdd := hd d (.head _)
    have hg : r * 10 + (d - ch '0') ≤ acc r (d :: ds) := acc_ge ds _
    rw [List.cons_append, readLoop, if_pos hdd]
    unfold isDigit at hdd
    rw [if_neg (by omega), show (r * 10 + d - ch '0') % 2 ^ 32 = r * 10 + (d - ch '0') by omega]
    exact readLoop_run ds _ rest (fun x hx => hd x (.tail _ hx)) hl h

theorem readUInt_ok (s : Str) (n : Nat) (s' : Str) (h : readUInt s = .ok (n, s')) :
    ∃ ds, s = ds ++ s' ∧ Num ds n := by
  unfold readUInt at h
  cases hl : readLoop 0 s with
  | none => rw [hl] at h; exact nomatch h
  | some p =>
    obtain ⟨n', s''⟩ := p
    rw [hl] at h
    dsimp only at h
    by_cases he : s''.length = s.length
    · rw [if_pos he] at h; exact nomatch h
    · rw [if_neg he] at h
      injection h with h
      injection h with h1 h2
      subst h1; subst h2
      obtain ⟨ds, e1, e2, e3, e4⟩ := readLoop_ok s 0 _ _ hl
      have hne : ds ≠ [] := by
        rintro rfl
        exact he (by rw [e1]; rfl)
      exact ⟨ds, e1, hne, e2, e3.symm, e4 hne⟩

theorem readUInt_run (ds : Str) (n : Nat) (rest : Str) (h : Num ds n) (hr : ¬ isDigit (rest.headD 0)) :
    readUInt (ds ++ rest) = .ok (n, rest) := by
  obtain ⟨h1, h2, h3, h4⟩ := h
  have := readLoop_run ds 0 rest h2 (by show value ds < _; omega) hr
  unfold readUInt
  rw [this]
  dsimp only
  rw [if_neg, show acc 0 ds = n from h3]
  intro he
  rw [List.length_append] at he
  exact h1 (List.eq_nil_of_length_eq_zero (by omega))

theorem readUInt_plain (s : Str) : readUInt s ≠ .oob ∧ readUInt s ≠ .fuel := by
  unfold readUInt
  cases readLoop 0 s with
  | none => exact ⟨nofun, nofun⟩
  | some p =>
    dsimp only
    by_cases he : p.2.length = s.length
    · rw [if_pos he]; exact ⟨nofun, nofun⟩
    · rw [if_neg he]; exact ⟨nofun, nofun⟩

/-! ### Representations -/

theorem toRe_ok (t n : Nat) (r : Re) (h : toRe t n = some r) : t = Re.letter r ∧ n = r.bits := by
  unfold toRe at h
  repeat' split at h
  all_goals first
    | contradiction
    | (injection h with h
       subst h
       constructor <;> assumption)

theorem toRe_run (r : Re) : toRe (Re.letter r % 256) r.bits = some r := by
  cases r <;> rfl

theorem readRe_ok (s : Str) (r : Re) (s' : Str) (h : readRe s = .ok (r, s')) :
    ∃ v, s = v ++ s' ∧ ((∀ c t, s = c :: t → c < 256) → ReSp r v) := by
  cases s with
  | nil => exact nomatch h
  | cons c s =>
    rw [readRe] at h
    obtain ⟨⟨n, u⟩, h1, h2⟩ := bind_ok h
    dsimp only at h2
    cases ht : toRe (c % 256) n with
    | none => rw [ht] at h2; exact nomatch h2
    | some r' =>
      rw [ht] at h2
      injection h2 with h2
      injection h2 with e1 e2
      subst e1; subst e2
      obtain ⟨t1, t2⟩ := toRe_ok _ _ _ ht
      obtain ⟨ds, e, hn⟩ := readUInt_ok _ _ _ h1
      subst t2; subst e
      refine ⟨c :: ds, rfl, fun hs => ⟨ds, hn, ?_⟩⟩
      rw [Nat.mod_eq_of_lt (hs c _ rfl)] at t1
      rw [t1]

theorem readRe_run (r : Re) (v rest : Str) (h : ReSp r v) (hr : ¬ isDigit (rest.headD 0)) :
    readRe (v ++ rest) = .ok (r, rest) := by
  obtain ⟨ds, hn, rfl⟩ := h
  rw [List.cons_append, readRe, readUInt_run ds _ rest hn hr]
  show (match toRe (Re.letter r % 256) r.bits with | none => Res.err | some r => .ok (r, rest)) = _
  rw [toRe_run]

theorem readRe_plain (s : Str) : (readRe s = .oob → s = []) ∧ readRe s ≠ .fuel := by
  cases s with
  | nil => exact ⟨fun _ => rfl, nofun⟩
  | cons c s =>
    rw [readRe]
    constructor
    · intro h
      rcases bind_oob h with h | ⟨p, _, h⟩
      · exact absurd h (readUInt_plain s).1
      · cases ht : toRe (c % 256) p.1 <;> rw [ht] at h <;> exact nomatch h
    · intro h
      rcases bind_fuel h with h | ⟨p, _, h⟩
      · exact absurd h (readUInt_plain s).2
      · cases ht : toRe (c % 256) p.1 <;> rw [ht] at h <;> exact nomatch h

/-- `headD` of a string which isn't the terminator. -/
theorem head_cons (s : Str) (c : Nat) (hc : c ≠ 0) (h : s.headD 0 = c) : s = c :: s.tail := by
  cases s with
  | nil => exact absurd h.symm hc
  | cons d s => exact congrArg (· :: s) h

theorem tooWide_iff (t : PT) (r : Re) : tooWide t r = false ↔ Narrow t r := by
  unfold tooWide Narrow
  cases t <;> simp <;> omega

theorem finish_cases (pr : Bool) (t : PT) (can mu : Bool) (s : Str) (q : Parsed)
    (h : finish pr t can mu s = .ok q) :
    q = ⟨t, can, mu, s⟩ ∨ (pr = true ∧ ∃ s', s = ch ':' :: s' ∧ ∃ r, readRe s' = .ok (r, q.rest) ∧
      Narrow t r ∧ q = ⟨.repr t r, can, mu, q.rest⟩) := by
  unfold finish at h
  by_cases hc : pr = true ∧ s.headD 0 = ch ':'
  · rw [if_pos hc] at h
    obtain ⟨⟨r, s'⟩, h1, h2⟩ := bind_ok h
    dsimp only at h2
    cases hw : tooWide t r with
    | true => rw [hw, if_pos rfl] at h2; exact nomatch h2
    | false =>
      rw [hw] at h2
      simp only [Bool.false_eq_true, if_false] at h2
      injection h2 with h2
      subst h2
      exact .inr ⟨hc.1, s.tail, head_cons s _ (by decide) hc.2, r, h1, (tooWide_iff t r).1 hw, rfl⟩
  · rw [if_neg hc] at h
    injection h with h
    exact .inl h.symm

theorem finish_ok (pr : Bool) (t : PT) (can mu : Bool) (s : Str) (q : Parsed)
    (h : finish pr t can mu s = .ok q) :
    q = ⟨t, can, mu, s⟩ ∨ (pr = true ∧ ∃ r v, s = ch ':' :: (v ++ q.rest) ∧ (Narrows s → ReSp r v) ∧
      Narrow t r ∧ q = ⟨.repr t r, can, mu, q.rest⟩) := by
  rcases finish_cases pr t can mu s q h with h | ⟨h1, s', h2, r, h3, h4, h5⟩
  · exact .inl h
  · right
    obtain ⟨v, e, hv⟩ := readRe_ok s' r q.rest h3
    exact ⟨h1, r, v, by rw [h2, e], fun hs => hv fun c t ht => hs [] c t (by rw [h2, ht]; rfl), h4, h5⟩

/-- How the end of parsing adds a representation. -/
theorem finish_denotes (pr : Bool) (t : PT) (can mu p top : Bool) (w s : Str) (q : Parsed)
    (h : finish pr t can mu s = .ok q) (hpr : pr = t.reOk p) (hcan : can = (p && t.simple))
    (hre : t.reOk p = true → can = false) :
    ∃ u, s = u ++ q.rest ∧ (Narrows s → Denotes t p top w → Denotes q.t p top (w ++ u)) ∧
      q.can = (p && q.t.simple) ∧ q.mu = mu := by
  rcases finish_ok pr t can mu s q h with h | ⟨h1, r, v, h2, h3, h4, h5⟩
  · subst h
    exact ⟨[], rfl, fun _ hd => by rw [List.append_nil]; exact hd, hcan, rfl⟩
  · refine ⟨ch ':' :: v, h2, fun hn hd => ?_, ?_, by rw [h5]⟩
    · rw [h5]
      exact ⟨hpr ▸ h1, h4, w, v, hd, h3 hn, rfl⟩
    · rw [h5]
      show can = (p && false)
      rw [Bool.and_false]
      exact hre (hpr ▸ h1)

theorem finish_oob (pr : Bool) (t : PT) (can mu : Bool) (s : Str) (h : finish pr t can mu s = .oob) :
    s = [ch ':'] := by
  unfold finish at h
  by_cases hc : pr = true ∧ s.headD 0 = ch ':'
  · rw [if_pos hc] at h
    have hs := head_cons s _ (by decide) hc.2
    rcases bind_oob h with h | ⟨p, _, h⟩
    · rw [hs, (readRe_plain _).1 h]
    · cases hw : tooWide t p.1 <;> simp [hw] at h
  · rw [if_neg hc] at h; exact nomatch h

theorem finish_fuel (pr : Bool) (t : PT) (can mu : Bool) (s : Str) : finish pr t can mu s ≠ .fuel := by
  intro h
  unfold finish at h
  by_cases hc : pr = true ∧ s.headD 0 = ch ':'
  · rw [if_pos hc] at h
    rcases bind_fuel h with h | ⟨p, _, h⟩
    · exact (readRe_plain _).2 h
    · cases hw : tooWide t p.1 <;> simp [hw] at h
  · rw [if_neg hc] at h; exact nomatch h

theorem scalarOf_ok (c n : Nat) (k : Sc) (hc : c = ch 'i' ∨ c = ch 'u' ∨ c = ch 'f') (h : scalarOf c n = some k) :
    c = Sc.letter k ∧ n = 8 * k.width := by
  rcases hc with rfl | rfl | rfl <;> unfold scalarOf at h <;> repeat' split at h
  all_goals first
    | contradiction
    | (injection h with h
       subst h
       first
       | exact ⟨rfl, by assumption⟩
       | (rename_i h0 _; exact absurd h0 (by decide))
       | (exfalso; revert ‹_ = ch 'f'›; decide)
       | (exfalso; revert ‹_ = ch 'i'›; decide)
       | (exfalso; rename_i h0; exact h0 rfl))

theorem scalarOf_run (k : Sc) : scalarOf (Sc.letter k) (8 * k.width) = some k := by
  cases k <;> rfl

theorem letter_cases (k : Sc) : Sc.letter k = ch 'i' ∨ Sc.letter k = ch 'u' ∨ Sc.letter k = ch 'f' := by
  cases k <;> simp [Sc.letter]

end Verif.FfiType
