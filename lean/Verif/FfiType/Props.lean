import Verif.FfiType.Complete
/-
C82: the notation of foreign types.
-/
namespace Verif.FfiType
open Verif.Ffi

/-- A string is accepted as a type exactly if it denotes that type. -/
theorem parse_exact (top : Bool) (s : Str) (t : PT) (hs : Narrows s) :
    (∃ e, parseAlone top s = .ok e ∧ e.t = t) ↔ Denotes t false top s := by
  constructor
  · rintro ⟨e, h, rfl⟩
    obtain ⟨e', h1, h2⟩ := bind_ok h
    obtain ⟨u, _, i2, i3, _⟩ := parseT_ok _ _ _ _ _ h1
    by_cases hr : e'.rest = []
    · rw [if_pos hr] at h2
      injection h2 with h2
      subst h2
      rw [hr, List.append_nil] at i2
      rw [← i2] at i3
      exact i3 hs
    · rw [if_neg hr] at h2; exact nomatch h2
  · intro h
    have := (complete t).2 false top s [] (2 * s.length + 1) h (.inl rfl) (Nat.le_refl _)
    rw [List.append_nil] at this
    refine ⟨⟨t, false && t.simple, decide (s.headD 0 = ch '&'), []⟩, ?_, rfl⟩
    unfold parseAlone
    rw [this]
    rfl

/-- No string denotes two types. -/
theorem unambiguous (top : Bool) (s : Str) (t t' : PT) (h : Denotes t false top s) (h' : Denotes t' false top s) :
    t = t' := by
  have a := (complete t).2 false top s [] (2 * s.length + 1) h (.inl rfl) (Nat.le_refl _)
  have b := (complete t').2 false top s [] (2 * s.length + 1) h' (.inl rfl) (Nat.le_refl _)
  rw [a] at b
  injection b with b
  injection b

/-- Parsing ends for every string. -/
theorem parse_ends (top : Bool) (s : Str) : parseAlone top s ≠ .fuel := by
  intro h
  rcases bind_fuel h with h | ⟨e, _, h⟩
  · exact parseT_fuel _ _ _ _ (Nat.le_refl _) h
  · by_cases hr : e.rest = []
    · rw [if_pos hr] at h; exact nomatch h
    · rw [if_neg hr] at h; exact nomatch h

/-- Nothing behind the end of the string is read, unless the string ends with a colon. -/
theorem parse_reads_partial (top : Bool) (s : Str) (h : s.getLast? ≠ some (ch ':')) : parseAlone top s ≠ .oob := by
  intro ho
  rcases bind_oob ho with ho | ⟨e, _, ho⟩
  · obtain ⟨pre, e⟩ := parseT_oob _ _ _ _ ho
    exact h (by rw [e]; simp)
  · by_cases hr : e.rest = []
    · rw [if_pos hr] at ho; exact nomatch ho
    · rw [if_neg hr] at ho; exact nomatch ho

/-! ### Decorations -/

theorem decos_full (a : Nat) (ha : a ≠ 0) (s : Str) (x : Nat × Bool × Str) (h : decos a true s = some x) :
    x = (a, true, s) := by
  cases s with
  | nil => injection h with h; exact h.symm
  | cons c s =>
    rw [decos] at h
    by_cases c1 : c = ch '𝕩'
    · rw [if_pos c1, if_pos ha] at h; exact nomatch h
    rw [if_neg c1] at h
    by_cases c2 : c = ch '𝕨'
    · rw [if_pos c2, if_pos ha] at h; exact nomatch h
    rw [if_neg c2] at h
    by_cases c3 : c = ch '>'
    · rw [if_pos c3, if_pos rfl] at h; exact nomatch h
    rw [if_neg c3] at h
    injection h with h
    exact h.symm

theorem decos_side (a : Nat) (ha : a ≠ 0) (s : Str) (x : Nat × Bool × Str) (h : decos a false s = some x) :
    x = (a, false, s) ∨ ∃ s', s = ch '>' :: s' ∧ x = (a, true, s') := by
  cases s with
  | nil => injection h with h; exact .inl h.symm
  | cons c s =>
    rw [decos] at h
    by_cases c1 : c = ch '𝕩'
    · rw [if_pos c1, if_pos ha] at h; exact nomatch h
    rw [if_neg c1] at h
    by_cases c2 : c = ch '𝕨'
    · rw [if_pos c2, if_pos ha] at h; exact nomatch h
    rw [if_neg c2] at h
    by_cases c3 : c = ch '>'
    · rw [if_pos c3] at h
      simp only [Bool.false_eq_true, if_false] at h
      exact .inr ⟨s, by rw [c3], decos_full a ha s x h⟩
    rw [if_neg c3] at h
    injection h with h
    exact .inl h.symm

theorem decos_whole (s : Str) (x : Nat × Bool × Str) (h : decos 0 true s = some x) :
    x = (0, true, s) ∨ (∃ s', s = ch '𝕩' :: s' ∧ x = (1, true, s')) ∨ ∃ s', s = ch '𝕨' :: s' ∧ x = (2, true, s') := by
  cases s with
  | nil => injection h with h; exact .inl h.symm
  | cons c s =>
    rw [decos] at h
    by_cases c1 : c = ch '𝕩'
    · rw [if_pos c1, if_neg (fun h => h rfl)] at h
      exact .inr (.inl ⟨s, by rw [c1], decos_full 1 (by decide) s x h⟩)
    rw [if_neg c1] at h
    by_cases c2 : c = ch '𝕨'
    · rw [if_pos c2, if_neg (fun h => h rfl)] at h
      exact .inr (.inr ⟨s, by rw [c2], decos_full 2 (by decide) s x h⟩)
    rw [if_neg c2] at h
    by_cases c3 : c = ch '>'
    · rw [if_pos c3, if_pos rfl] at h; exact nomatch h
    rw [if_neg c3] at h
    injection h with h
    exact .inl h.symm

def sideStr : Nat → Str
  | 0 => []
  | 1 => [ch '𝕩']
  | _ => [ch '𝕨']

theorem decos_ok (s : Str) (side : Nat) (whole : Bool) (r : Str) (h : decos 0 false s = some (side, whole, r)) :
    side ≤ 2 ∧ ∃ pre, s = pre ++ r ∧ (pre = sideStr side ++ (if whole then [ch '>'] else []) ∨
      pre = (if whole then [ch '>'] else []) ++ sideStr side) := by
  cases s with
  | nil =>
    injection h with h
    injection h with h1 h
    injection h with h2 h3
    subst h1; subst h2; subst h3
    exact ⟨by decide, [], rfl, .inl rfl⟩
  | cons c s =>
    rw [decos] at h
    by_cases c1 : c = ch '𝕩'
    · rw [if_pos c1, if_neg (fun h => h rfl)] at h
      rcases decos_side 1 (by decide) s _ h with h | ⟨s', e, h⟩ <;>
        (injection h with h1 h; injection h with h2 h3; subst h1; subst h2; subst h3)
      · exact ⟨by decide, [ch '𝕩'], by rw [c1]; rfl, .inl rfl⟩
      · exact ⟨by decide, [ch '𝕩', ch '>'], by rw [c1, e]; rfl, .inl rfl⟩
    rw [if_neg c1] at h
    by_cases c2 : c = ch '𝕨'
    · rw [if_pos c2, if_neg (fun h => h rfl)] at h
      rcases decos_side 2 (by decide) s _ h with h | ⟨s', e, h⟩ <;>
        (injection h with h1 h; injection h with h2 h3; subst h1; subst h2; subst h3)
      · exact ⟨by decide, [ch '𝕨'], by rw [c2]; rfl, .inl rfl⟩
      · exact ⟨by decide, [ch '𝕨', ch '>'], by rw [c2, e]; rfl, .inl rfl⟩
    rw [if_neg c2] at h
    by_cases c3 : c = ch '>'
    · rw [if_pos c3] at h
      simp only [Bool.false_eq_true, if_false] at h
      rcases decos_whole s _ h with h | ⟨s', e, h⟩ | ⟨s', e, h⟩ <;>
        (injection h with h1 h; injection h with h2 h3; subst h1; subst h2; subst h3)
      · exact ⟨by decide, [ch '>'], by rw [c3]; rfl, .inr rfl⟩
      · exact ⟨by decide, [ch '>', ch '𝕩'], by rw [c3, e]; rfl, .inr rfl⟩
      · exact ⟨by decide, [ch '>', ch '𝕨'], by rw [c3, e]; rfl, .inr rfl⟩
    rw [if_neg c3] at h
    injection h with h
    injection h with h1 h
    injection h with h2 h3
    subst h1; subst h2; subst h3
    exact ⟨by decide, [], rfl, .inl rfl⟩

theorem decos_stop (a : Nat) (b : Bool) (c : Nat) (s : Str) (h : Start c) :
    decos a b (c :: s) = some (a, b, c :: s) := by
  rw [decos, if_neg, if_neg, if_neg]
  all_goals rcases h with h | h | h | h | h | h | h | h <;> rw [h] <;> decide

theorem decos_run (side : Nat) (whole : Bool) (c : Nat) (s pre : Str) (hs : side ≤ 2) (h : Start c)
    (hp : pre = sideStr side ++ (if whole then [ch '>'] else []) ∨ pre = (if whole then [ch '>'] else []) ++ sideStr side) :
    decos 0 false (pre ++ c :: s) = some (side, whole, c :: s) := by
  have st := decos_stop side whole c s h
  have hx : ∀ b s, decos 0 b (ch '𝕩' :: s) = decos 1 b s := fun b s => by
    rw [decos, if_pos rfl, if_neg (fun h => h rfl)]
  have hw : ∀ b s, decos 0 b (ch '𝕨' :: s) = decos 2 b s := fun b s => by
    rw [decos, if_neg (show ¬ ch '𝕨' = ch '𝕩' by decide), if_pos rfl, if_neg (fun h => h rfl)]
  have hg : ∀ a s, decos a false (ch '>' :: s) = decos a true s := fun a s => by
    rw [decos, if_neg (show ¬ ch '>' = ch '𝕩' by decide), if_neg (show ¬ ch '>' = ch '𝕨' by decide), if_pos rfl]
    rfl
  rcases hp with rfl | rfl <;> rcases side with _ | _ | _ | side <;> cases whole <;> first
    | omega
    | exact st
    | exact (hx _ _).trans st
    | exact (hw _ _).trans st
    | exact (hg _ _).trans st
    | exact ((hx _ _).trans (hg _ _)).trans st
    | exact ((hw _ _).trans (hg _ _)).trans st
    | exact ((hg _ _).trans (hx _ _)).trans st
    | exact ((hg _ _).trans (hw _ _)).trans st

theorem head_mut (u : Str) : decide (u.headD 0 = ch '&') = decide (u.head? = some (ch '&')) := by
  cases u with
  | nil => rfl
  | cons c u => simp

/-- The type of an argument or result is accepted exactly if the string denotes it. -/
theorem dec_exact (forRes : Bool) (s : Str) (d : Dec) (hs : Narrows s) :
    parseDec forRes s = .ok d ↔ DenotesDec forRes d s := by
  constructor
  · intro h
    unfold parseDec at h
    by_cases c1 : s = []
    · rw [if_pos c1] at h
      cases forRes with
      | false => exact nomatch h
      | true =>
        rw [if_pos rfl] at h
        injection h with h
        subst h
        exact ⟨rfl, c1⟩
    rw [if_neg c1] at h
    by_cases c2 : forRes = true ∧ s.headD 0 = ch '&' ∧ s.tail.headD 0 = 0
    · rw [if_pos c2] at h
      by_cases c3 : s.tail = []
      · rw [if_pos c3] at h
        injection h with h
        subst h
        have := head_cons s _ (by decide) c2.2.1
        rw [c3] at this
        exact ⟨c2.1, this⟩
      · rw [if_neg c3] at h; exact nomatch h
    rw [if_neg c2] at h
    cases hd : decos 0 false s with
    | none => rw [hd] at h; exact nomatch h
    | some x =>
      obtain ⟨side, whole, r⟩ := x
      rw [hd] at h
      dsimp only at h
      by_cases c3 : forRes = true ∧ side ≠ 0
      · rw [if_pos c3] at h; exact nomatch h
      rw [if_neg c3] at h
      obtain ⟨e, h1, h2⟩ := bind_ok h
      injection h2 with h2
      subst h2
      obtain ⟨hle, pre, hp, hpre⟩ := decos_ok s side whole r hd
      have hr : Narrows r := narrows_drop pre r (hp ▸ hs)
      have hden := (parse_exact true r e.t hr).1 ⟨e, h1, rfl⟩
      obtain ⟨e', h3, h4⟩ := bind_ok h1
      obtain ⟨_, _, _, _, _, hm⟩ := parseT_ok _ _ _ _ _ h3
      have he : e' = e := by
        by_cases hx : e'.rest = []
        · rw [if_pos hx] at h4; injection h4
        · rw [if_neg hx] at h4; exact nomatch h4
      subst he
      refine ⟨sideStr side, pre, r, hp, hden, by rw [hm, head_mut], hpre, ?_, fun hf => ?_⟩
      · rcases side with _ | _ | _ | side
        · exact .inl rfl
        · exact .inr rfl
        · rfl
        · omega
      · have : side = 0 := Decidable.byContradiction fun h => c3 ⟨hf, h⟩
        rw [this]
        rfl
  · intro h
    cases d with
    | void single =>
      obtain ⟨rfl, h⟩ := h
      cases single with
      | true => rw [if_pos rfl] at h; subst h; rfl
      | false => simp only [Bool.false_eq_true, if_false] at h; subst h; rfl
    | ty t onW whole m =>
      obtain ⟨side, pre, u, rfl, hden, hm, hp, hside, hres⟩ := h
      have hu : Narrows u := narrows_drop pre u hs
      obtain ⟨c, u', rfl, hc⟩ := denotes_start t false true u hden
      obtain ⟨e, h1, h2⟩ := (parse_exact true _ t hu).2 hden
      have hn : ∃ n, n ≤ 2 ∧ side = sideStr n ∧ onW = decide (n = 2) ∧ (forRes = true → n = 0) := by
        cases onW with
        | true =>
          rw [if_pos rfl] at hside
          exact ⟨2, by decide, hside, rfl, fun hf => by rw [hres hf] at hside; exact nomatch hside⟩
        | false =>
          simp only [Bool.false_eq_true, if_false] at hside
          rcases hside with hs | hs
          · exact ⟨0, by decide, hs, rfl, fun _ => rfl⟩
          · exact ⟨1, by decide, hs, rfl, fun hf => by rw [hres hf] at hs; exact nomatch hs⟩
      obtain ⟨n, hn2, rfl, rfl, hn0⟩ := hn
      have hdec := decos_run n whole c u' pre hn2 hc hp
      unfold parseDec
      rw [if_neg (by simp), if_neg, hdec]
      · dsimp only
        rw [if_neg (fun h => h.2 (hn0 h.1)), h1]
        obtain ⟨e', h3, h4⟩ := bind_ok h1
        obtain ⟨_, _, _, _, _, hmm⟩ := parseT_ok _ _ _ _ _ h3
        have he : e' = e := by
          by_cases hx : e'.rest = []
          · rw [if_pos hx] at h4; injection h4
          · rw [if_neg hx] at h4; exact nomatch h4
        subst he
        show Res.ok (Dec.ty e'.t _ _ e'.mu) = _
        rw [h2, hm, hmm, head_mut]
      · rintro ⟨hf, hh, ht⟩
        have hn' := hn0 hf
        subst hn'
        -- the string is `&` alone or with the terminator after it
        have hpre : pre = [] ∨ pre = [ch '>'] := by
          rcases hp with rfl | rfl <;> cases whole <;> simp [sideStr]
        rcases hpre with rfl | rfl
        · rw [List.nil_append] at hh ht
          obtain rfl : c = ch '&' := hh
          have key : ∀ b, (∀ b' r, b ≠ .repr b' r) → ∀ w rest, Denotes b false true w → w ++ rest = ch '&' :: u' → False := by
            intro b hb w rest hw he
            cases b with
            | sc k =>
              obtain ⟨ds, _, rfl⟩ := hw
              have := (List.cons.inj he).1
              revert this
              cases k <;> decide
            | a => obtain rfl : w = [ch 'a'] := hw; exact absurd (List.cons.inj he).1 (by decide)
            | vptr => obtain rfl : w = [ch '*'] := hw; exact absurd (List.cons.inj he).1 (by decide)
            | ptr m e =>
              obtain ⟨_, w', hw', rfl⟩ := hw
              obtain ⟨d, w'', rfl, hd⟩ := denotes_start e true false w' hw'
              have := (List.cons.inj he).2
              rw [← this] at ht
              have : d = 0 := ht
              subst this
              revert hd
              unfold Start
              decide
            | tlarr n e => obtain ⟨_, _, ds, w', _, _, rfl⟩ := hw; exact absurd (List.cons.inj he).1 (by decide)
            | starr n e => obtain ⟨h, _⟩ := hw; exact nomatch h
            | str fs => obtain ⟨w', _, rfl⟩ := hw; exact absurd (List.cons.inj he).1 (by decide)
            | repr b r => exact hb b r rfl
          cases t with
          | repr b r =>
            obtain ⟨hr1, _, w, v, hw, _, he⟩ := hden
            exact key b (by rintro b' r' rfl; exact nomatch hr1) w _ hw he.symm
          | _ => exact key _ (by intro b r h; cases h) _ [] hden (List.append_nil _)
        · exact absurd hh (by rw [List.singleton_append, List.headD_cons]; decide)

/-- The same for types of arguments and results: parsing ends, and reads nothing behind
the end unless there is a colon at the end. -/
theorem dec_reads_partial (forRes : Bool) (s : Str) :
    parseDec forRes s ≠ .fuel ∧ (s.getLast? ≠ some (ch ':') → parseDec forRes s ≠ .oob) := by
  unfold parseDec
  by_cases c1 : s = []
  · rw [if_pos c1]
    cases forRes <;> exact ⟨nofun, fun _ => nofun⟩
  rw [if_neg c1]
  by_cases c2 : forRes = true ∧ s.headD 0 = ch '&' ∧ s.tail.headD 0 = 0
  · rw [if_pos c2]
    by_cases c3 : s.tail = []
    · rw [if_pos c3]; exact ⟨nofun, fun _ => nofun⟩
    · rw [if_neg c3]; exact ⟨nofun, fun _ => nofun⟩
  rw [if_neg c2]
  cases hd : decos 0 false s with
  | none => exact ⟨nofun, fun _ => nofun⟩
  | some x =>
    obtain ⟨side, whole, r⟩ := x
    dsimp only
    by_cases c3 : forRes = true ∧ side ≠ 0
    · rw [if_pos c3]; exact ⟨nofun, fun _ => nofun⟩
    rw [if_neg c3]
    obtain ⟨_, pre, hp, _⟩ := decos_ok s side whole r hd
    constructor
    · intro h
      rcases bind_fuel h with h | ⟨_, _, h⟩
      · exact parse_ends _ _ h
      · exact nomatch h
    · intro hl h
      rcases bind_oob h with h | ⟨_, _, h⟩
      · refine parse_reads_partial _ _ (fun hr => hl ?_) h
        rw [hp, List.getLast?_append, hr]
        rfl
      · exact nomatch h

/-! ### Where the code falls short, and examples -/

def str (s : String) : Str := s.toList.map ch

/-- A colon at the end makes the parser read behind the terminator. -/
theorem colon_overreads : parseAlone true (str "i32:") = .oob ∧ parseDec false (str "𝕨&u8:") = .oob := ⟨rfl, rfl⟩

/-- The letter after a colon is reduced modulo 256. -/
theorem letter_wraps : parseDec false (str "u16:𝕩8") = .ok (.ty (.repr (.sc .u16) .i8) false false false) ∧
    ¬ DenotesDec false (.ty (.repr (.sc .u16) .i8) false false false) (str "u16:𝕩8") := by
  refine ⟨rfl, ?_⟩
  rintro ⟨side, pre, u, h, ⟨_, _, w, v, hw, ⟨ds, hn, rfl⟩, hu⟩, -⟩
  have hm : ch '𝕩' ∈ str "u16:𝕩8" := by decide
  have hall : ∀ x ∈ str "u16:𝕩8", x = ch 'i' → False := by decide
  refine hall (Re.letter .i8) ?_ rfl
  rw [h, hu]
  simp

example : parseDec false (str ">𝕨&{u8,*,[3]f32,**:c16}") =
    .ok (.ty (.ptr true (.str (.cons (.sc .u8) (.cons .vptr (.cons (.starr 3 (.sc .f32))
      (.cons (.repr (.ptr false .vptr) .c16) .nil)))))) true true true) := rfl
example : parseDec true (str "&") = .ok (.void true) := rfl
example : parseDec true (str "𝕩i8") = .err := rfl
example : parseDec false (str "[10]i32:c8") = .ok (.ty (.repr (.tlarr 10 (.sc .i32)) .c8) false false false) := rfl
example : parseDec false (str "u8:f64") = .err := rfl
example : parseDec false (str "*&i8") = .err := rfl
example : parseDec false (str "{i8,}") = .err := rfl
def okN : Str → Bool
  | c :: d :: s => (decide (c ≠ ch ':') || decide (d < 256)) && okN (d :: s)
  | _ => true

theorem narrows_of (s : Str) (h : okN s = true) : Narrows s := by
  intro pre c post
  induction pre generalizing s with
  | nil =>
    rintro rfl
    simp [okN] at h
    exact h.1
  | cons x pre ih =>
    rintro rfl
    refine ih (pre ++ ch ':' :: c :: post) ?_ rfl
    cases pre with
    | nil => simp only [List.cons_append, List.nil_append, okN, Bool.and_eq_true] at h ⊢; exact h.2
    | cons y pre => simp only [List.cons_append, okN, Bool.and_eq_true] at h; exact h.2

example : Narrows (str ">𝕨&{u8,[2]f32:u1}") := narrows_of _ (by decide)

end Verif.FfiType
