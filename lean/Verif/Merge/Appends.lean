import Verif.Merge.Steps
/-!
# Merging: appending an array and an atom
-/
namespace Verif.Merge
open Verif.Squeeze
open Verif.Append (elOr fresh write copyTo single storable len isNumEl isChrEl sub copyTo_spec write_spec fresh_ty fresh_len sub_elems sub_ty holds_mono storable_iff
  single_spec selfTy_holds elOr_left elOr_right)
open Verif.Rotate (prod)

theorem fillOk_keep {r r' : Run} {done : List Cell} {x : Cell} (ht : r.buf.ty = .B) (ht' : r'.buf.ty = .B) (hf : ∀ f, r'.fill = some f ↔ r.fill = some f ∧ x.getFill = some f)
    (he : (r.fillEnd = false → r.fill = none) → r'.fillEnd = false → r'.fill = none) (h : FillOk r done) : FillOk r' (done ++ [x]) := by
  obtain ⟨h1, h2⟩ := h.2 ht
  refine ⟨fun k => absurd ht' k, fun _ => ⟨fun f => ?_, he h2⟩⟩
  rw [hf, h1]
  constructor
  · rintro ⟨a, b⟩ c hc
    rcases List.mem_append.1 hc with hc | hc
    · exact a c hc
    · rw [List.mem_singleton.1 hc]; exact b
  · intro a
    exact ⟨fun c hc => a c (List.mem_append_left _ hc), a x (List.mem_append_right _ List.mem_cons_self)⟩

theorem fillOk_typed {r r' : Run} {done : List Cell} {x : Cell} (ht : r.buf.ty ≠ .B) (ht' : r'.buf.ty ≠ .B) (hn : natural r.buf.ty = natural r'.buf.ty) (hx : x.getFill = some (natural r'.buf.ty))
    (h : FillOk r done) : FillOk r' (done ++ [x]) := by
  refine ⟨fun _ c hc => ?_, fun k => absurd k ht'⟩
  rcases List.mem_append.1 hc with hc | hc
  · rw [h.1 ht c hc, hn]
  · rw [List.mem_singleton.1 hc]; exact hx

theorem fillOk_wide {r r' : Run} {done : List Cell} {x : Cell} (hd : done ≠ []) (ht : r.buf.ty ≠ .B) (ht' : r'.buf.ty = .B)
    (hf : ∀ f, r'.fill = some f ↔ natural r.buf.ty = f ∧ x.getFill = some f) (he : r'.fillEnd = false → r'.fill = none) (h : FillOk r done) : FillOk r' (done ++ [x]) := by
  refine ⟨fun k => absurd ht' k, fun _ => ⟨fun f => ?_, he⟩⟩
  rw [hf]
  constructor
  · rintro ⟨rfl, b⟩ c hc
    rcases List.mem_append.1 hc with hc | hc
    · exact h.1 ht c hc
    · rw [List.mem_singleton.1 hc]; exact b
  · intro a
    obtain ⟨c, hc⟩ := List.exists_mem_of_ne_nil _ hd
    exact ⟨Option.some.inj ((h.1 ht c hc).symm.trans (a c (List.mem_append_left _ hc))), a x (List.mem_append_right _ List.mem_cons_self)⟩

theorem natural_arr {t : El} {a : Arr} (ht : t ≠ .B) (h : elOr t a.data.ty = t) : a.getFill = some (natural t) := by
  unfold Arr.getFill natural
  generalize a.data.ty = e at *
  cases t <;> cases e <;> first | rfl | (exact absurd rfl ht) | (exact absurd h (by decide))

theorem natural_or {a b : El} (h : elOr a b ≠ .B) : natural b = natural (elOr a b) := by
  cases a <;> cases b <;> first | rfl | (exact absurd rfl h)

theorem natural_atom {t : El} {v : Val} (ht : t ≠ .B) (h : Holds t v) : (Cell.atom v).getFill = some (natural t) := by
  cases t with
  | B => exact absurd rfl ht
  | bit => obtain ⟨f, rfl⟩ := intIn_num h; rfl
  | i8 => obtain ⟨f, rfl⟩ := intIn_num h; rfl
  | i16 => obtain ⟨f, rfl⟩ := intIn_num h; rfl
  | i32 => obtain ⟨f, rfl⟩ := intIn_num h; rfl
  | f64 => obtain ⟨f, rfl⟩ := h; rfl
  | c8 => obtain ⟨c, rfl, _⟩ := h; rfl
  | c16 => obtain ⟨c, rfl, _⟩ := h; rfl
  | c32 => obtain ⟨c, rfl⟩ := h; rfl

theorem not_room {t : El} {n : Nat} (h : room t n = false) : n > 4294967230 := by
  cases t <;> simp only [room, decide_eq_false_iff_not, Bool.true_eq_false, reduceCtorEq] at h <;> omega

theorem room_of {t : El} {n : Nat} (h : n ≤ 4294967230) : room t n = true := by
  cases t <;> simp only [room, decide_eq_true_eq] <;> omega

/-- Not an array without axes. -/
def Plain (x : Cell) : Prop := x.part.sh = [] → ∃ v, x = .atom v

/-- The result of an append. -/
def Appended (r : Run) (els vs : List Val) (filled : Bool) (done : List Cell) (x : Cell) (s : Option St) : Prop :=
  (s = some .oom ∧ len r.buf > 4294967230) ∨
  ∃ r', s = some (.run r') ∧ Frame r r' ∧ r'.pos = r.pos + vs.length ∧ Filled r' (els ++ vs) ∧ (filled = true → Plain x → FillOk r done → FillOk r' (done ++ [x]))

theorem appendArr_spec (bad : BitVec 64 → BitVec 32) (junk : Nat → BitVec 64) (filled : Bool) {r : Run} {els : List Val} {a : Arr} {done : List Cell} (hd : done ≠ []) (hf : Filled r els)
    (hl : r.pos + len a.data ≤ len r.buf) : Appended r els a.data.elems filled done (.arr a) (appendArr bad junk filled r a) := by
  have main : ∀ r1 : Run, Frame r r1 → r1.pos = r.pos → Filled r1 els → fitsAs r1.buf.ty a.data.ty = true →
      ∃ r', putArr bad (if filled = true then orFill r1 (.arr a) else r1) a.data = some (.run r') ∧ Frame r r' ∧ r'.pos = r.pos + a.data.elems.length ∧ Filled r' (els ++ a.data.elems) ∧
        r'.buf.ty = r1.buf.ty ∧ (filled = true → r'.fill = (orFill r1 (.arr a)).fill ∧ r'.fillEnd = (orFill r1 (.arr a)).fillEnd) := by
    intro r1 hfr hp hf1 hfit
    rw [fitsAs_iff] at hfit
    generalize hr2 : (if filled = true then orFill r1 (.arr a) else r1) = r2
    have h2 : Frame r1 r2 ∧ r2.buf = r1.buf ∧ r2.pos = r1.pos ∧ Filled r2 els := by
      rw [← hr2]
      cases filled
      · exact ⟨Frame.rfl' r1, rfl, rfl, hf1⟩
      · obtain ⟨a1, a2, a3, _⟩ := orFill_frame r1 (.arr a)
        exact ⟨a1, a2, a3, orFill_filled _ hf1⟩
    obtain ⟨g1, g2, g3, g4⟩ := h2
    obtain ⟨r', e1, e2, e3, e4, e5, e6, e7⟩ := putArr_spec bad (d := a.data) g4 (by rw [g2]; exact hfit) (by rw [g2, g3, hp]; rw [hfr.2.2.2.2.2]; exact hl)
    refine ⟨r', e1, (hfr.trans g1).trans e2, by rw [e3, g3, hp]; rfl, e7, by rw [e4, g2], fun hfl => ?_⟩
    rw [e5, e6, ← hr2, if_pos hfl]
    exact ⟨rfl, rfl⟩
  unfold Appended appendArr
  by_cases hfit : fitsAs r.buf.ty a.data.ty = true
  · rw [if_pos hfit]
    right
    obtain ⟨r', e1, e2, e3, e4, e5, e6⟩ := main r (Frame.rfl' r) rfl hf hfit
    refine ⟨r', e1, e2, e3, e4, fun hfl hpl hfo => ?_⟩
    obtain ⟨e7, e8⟩ := e6 hfl
    by_cases ht : r.buf.ty = .B
    · refine fillOk_keep ht (e5.trans ht) (fun f => by rw [e7]; exact orFill_fill _ ht f) (fun h => ?_) hfo
      rw [e7, e8]; exact orFill_end _ h
    · exact fillOk_typed ht (by rw [e5]; exact ht) (by rw [e5]) (by rw [e5]; exact natural_arr ht ((fitsAs_iff _ _).1 hfit)) hfo
  · rw [if_neg hfit]
    have hne : elOr ((Cell.arr a).ty bad) r.buf.ty ≠ r.buf.ty := by
      intro h
      apply hfit
      rw [fitsAs_iff, elOr_comm]; exact h
    rcases widen_spec bad junk hf hne with ⟨w1, w2⟩ | ⟨r1, w1, w2, w3, w4, w5, w6⟩
    · left
      rw [w1]
      exact ⟨rfl, not_room w2⟩
    · right
      rw [w1, Option.bind_some]
      dsimp only
      have hfit1 : fitsAs r1.buf.ty a.data.ty = true := by rw [fitsAs_iff, w4]; exact elOr_left _ _
      rw [if_pos hfit1]
      obtain ⟨r', e1, e2, e3, e4, e5, e6⟩ := main r1 w2 w3 w5 hfit1
      refine ⟨r', e1, e2, e3, e4, fun hfl hpl hfo => ?_⟩
      obtain ⟨e7, e8⟩ := e6 hfl
      have hB : r.buf.ty ≠ .B := fun h => hne (by rw [h]; exact elOr_B _)
      by_cases ht : r1.buf.ty = .B
      · obtain ⟨w7, w8⟩ := w6 ht
        refine fillOk_wide hd hB (e5.trans ht) (fun f => ?_) ?_ hfo
        · rw [e7, orFill_fill _ ht, w7]
          exact ⟨fun h => h.1, fun h => ⟨h, h.2⟩⟩
        · rw [e7, e8]; exact orFill_end _ w8
      · refine fillOk_typed hB (by rw [e5]; exact ht) ?_ ?_ hfo
        · rw [e5, w4]; rw [w4] at ht; exact natural_or ht
        · rw [e5]; exact natural_arr ht ((fitsAs_iff _ _).1 hfit1)

theorem appendAtom_spec (bad : BitVec 64 → BitVec 32) (junk : Nat → BitVec 64) (filled : Bool) {r : Run} {els : List Val} {v : Val} {x : Cell} {done : List Cell} (hd : done ≠ [])
    (hx : Holds (x.ty bad) v) (hn : Plain x → ∀ t : El, t ≠ .B → Holds t v → x.getFill = some (natural t)) (hf : Filled r els)
    (hl : r.pos + 1 ≤ len r.buf) : Appended r els [v] filled done x (appendAtom bad junk filled r v x) := by
  have main : ∀ r1 : Run, Frame r r1 → r1.pos = r.pos → Filled r1 els → storable bad r1.buf.ty v = true →
      ∃ r', putAtom bad r1 v = some (.run r') ∧ Frame r r' ∧ r'.pos = r.pos + [v].length ∧ Filled r' (els ++ [v]) ∧
        r'.buf.ty = r1.buf.ty ∧ r'.fill = r1.fill ∧ r'.fillEnd = r1.fillEnd := by
    intro r1 hfr hp hf1 hfit
    rw [storable_iff] at hfit
    obtain ⟨r', e1, e2, e3, e4, e5, e6, e7⟩ := putAtom_spec bad hf1 hfit (by rw [hp, hfr.2.2.2.2.2]; exact hl)
    exact ⟨r', e1, hfr.trans e2, by rw [e3, hp]; rfl, e7, e4, e5, e6⟩
  have hor : ∀ r1 : Run, Filled r1 els → ∃ r2, (if filled = true then orFill r1 x else r1) = r2 ∧ Frame r1 r2 ∧ r2.buf = r1.buf ∧ r2.pos = r1.pos ∧ Filled r2 els ∧
      (filled = true → r2.fill = (orFill r1 x).fill ∧ r2.fillEnd = (orFill r1 x).fillEnd) := by
    intro r1 hf1
    cases filled
    · exact ⟨r1, by simp only [Bool.false_eq_true, if_false], Frame.rfl' r1, rfl, rfl, hf1, fun h => by cases h⟩
    · obtain ⟨a1, a2, a3, _⟩ := orFill_frame r1 x
      exact ⟨_, by simp only [if_true], a1, a2, a3, orFill_filled _ hf1, fun _ => ⟨rfl, rfl⟩⟩
  unfold Appended appendAtom
  dsimp only
  obtain ⟨r0, z0, z1, z2, z3, z4, z5⟩ := hor r hf
  rw [z0]
  by_cases hfit : storable bad r0.buf.ty v = true
  · rw [if_pos hfit]
    right
    obtain ⟨r', e1, e2, e3, e4, e5, e6, e7⟩ := main r0 z1 z3 z4 hfit
    refine ⟨r', e1, e2, e3, e4, fun hfl hpl hfo => ?_⟩
    obtain ⟨y1, y2⟩ := z5 hfl
    rw [storable_iff] at hfit
    rw [z2] at e5 hfit
    by_cases ht : r.buf.ty = .B
    · refine fillOk_keep ht (e5.trans ht) (fun f => by rw [e6, y1]; exact orFill_fill _ ht f) (fun h => ?_) hfo
      rw [e6, e7, y1, y2]; exact orFill_end _ h
    · exact fillOk_typed ht (by rw [e5]; exact ht) (by rw [e5]) (by rw [e5]; exact hn hpl _ ht hfit) hfo
  · rw [if_neg hfit]
    rw [storable_iff] at hfit
    have hne : elOr (x.ty bad) r0.buf.ty ≠ r0.buf.ty := by
      intro h
      apply hfit
      exact holds_mono hx (by rw [elOr_comm]; exact h)
    rcases widen_spec bad junk z4 hne with ⟨w1, w2⟩ | ⟨r1, w1, w2, w3, w4, w5, w6⟩
    · left
      rw [w1]
      refine ⟨rfl, ?_⟩
      have := not_room w2
      rw [z2] at this
      exact this
    · right
      rw [w1, Option.bind_some]
      dsimp only
      obtain ⟨r2, y0, y1, y2, y3, y4, y5⟩ := hor r1 w5
      rw [y0]
      have hfit1 : storable bad r2.buf.ty v = true := by rw [storable_iff, y2, w4]; exact holds_mono hx (elOr_left _ _)
      rw [if_pos hfit1]
      obtain ⟨r', e1, e2, e3, e4, e5, e6, e7⟩ := main r2 ((z1.trans w2).trans y1) (by rw [y3, w3, z3]) y4 hfit1
      refine ⟨r', e1, e2, e3, e4, fun hfl hpl hfo => ?_⟩
      obtain ⟨u1, u2⟩ := y5 hfl
      rw [y2] at e5
      rw [z2] at hne w4 w6
      have hB : r.buf.ty ≠ .B := fun h => hne (by rw [h]; exact elOr_B _)
      by_cases ht : r1.buf.ty = .B
      · obtain ⟨w7, w8⟩ := w6 ht
        refine fillOk_wide hd hB (e5.trans ht) (fun f => ?_) ?_ hfo
        · rw [e6, u1, orFill_fill _ ht, w7]
          exact ⟨fun h => h.1, fun h => ⟨h, h.2⟩⟩
        · rw [e6, e7, u1, u2]; exact orFill_end _ w8
      · refine fillOk_typed hB (by rw [e5]; exact ht) ?_ ?_ hfo
        · rw [e5, w4]; rw [w4] at ht; exact natural_or ht
        · rw [e5]; refine hn hpl _ ht ?_; rw [w4]; exact holds_mono hx (elOr_left _ _)

end Verif.Merge
