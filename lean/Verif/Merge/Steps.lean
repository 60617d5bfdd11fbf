import Verif.Merge.Model
import Verif.Append.Buffers
/-!
# Merging: lemmas on one append
-/
namespace Verif.Merge
open Verif.Squeeze
open Verif.Append (elOr fresh write copyTo single storable len isNumEl isChrEl sub copyTo_spec write_spec fresh_ty fresh_len sub_elems sub_ty holds_mono storable_iff
  single_spec selfTy_holds elOr_left elOr_right)
open Verif.Rotate (prod)

theorem elOr_comm (a b : El) : elOr a b = elOr b a := by cases a <;> cases b <;> decide

theorem fitsAs_iff (t e : El) : fitsAs t e = true ↔ elOr t e = t := by cases t <;> cases e <;> decide

theorem elOr_B (a : El) : elOr a .B = .B := by cases a <;> decide

/-- The first `pos` elements of the memory are `els`. -/
def Filled (r : Run) (els : List Val) : Prop := r.pos ≤ len r.buf ∧ Sames (r.buf.elems.take r.pos) els

/-- What appending doesn't change. -/
def Frame (r r' : Run) : Prop := r'.mode = r.mode ∧ r'.sh = r.sh ∧ r'.csh = r.csh ∧ r'.cia = r.cia ∧ r'.cr = r.cr ∧ len r'.buf = len r.buf

theorem Frame.rfl' (r : Run) : Frame r r := ⟨rfl, rfl, rfl, rfl, rfl, rfl⟩
theorem Frame.trans {a b c : Run} (h : Frame a b) (g : Frame b c) : Frame a c :=
  ⟨g.1.trans h.1, g.2.1.trans h.2.1, g.2.2.1.trans h.2.2.1, g.2.2.2.1.trans h.2.2.2.1, g.2.2.2.2.1.trans h.2.2.2.2.1, g.2.2.2.2.2.trans h.2.2.2.2.2⟩

/-- The fill of an array with this element type. -/
def natural (t : El) : Fill := if isNumEl t then .num else .chr

/-- What is known about the fill after appending `done`. -/
def FillOk (r : Run) (done : List Cell) : Prop :=
  (r.buf.ty ≠ .B → ∀ c ∈ done, c.getFill = some (natural r.buf.ty)) ∧
  (r.buf.ty = .B → (∀ f, r.fill = some f ↔ ∀ c ∈ done, c.getFill = some f) ∧ (r.fillEnd = false → r.fill = none))

theorem put_write {r : Run} {els vs : List Val} {e : Data} (hf : Filled r els) (ht : e.ty = r.buf.ty) (hs : Sames e.elems vs) (hl : r.pos + vs.length ≤ len r.buf) :
    ∃ b, write r.buf r.pos e = some b ∧ b.ty = r.buf.ty ∧ len b = len r.buf ∧ Sames (b.elems.take (r.pos + vs.length)) (els ++ vs) := by
  have he : len e = vs.length := hs.length
  obtain ⟨b, e1, e2, e3⟩ := write_spec (d := r.buf) (e := e) (i := r.pos) ht.symm (by rw [he]; exact hl)
  have hl' : len r.buf = r.buf.elems.length := rfl
  have he' : e.elems.length = vs.length := he
  refine ⟨b, e1, e2, ?_, ?_⟩
  · show b.elems.length = _
    rw [e3, List.length_append, List.length_append, List.length_take, List.length_drop, he, he']
    omega
  · rw [e3, List.take_append_of_le_length (by rw [List.length_append, List.length_take, he']; omega), List.take_of_length_le (by rw [List.length_append, List.length_take, he']; omega)]
    exact hf.2.append hs

theorem putArr_spec (bad : BitVec 64 → BitVec 32) {r : Run} {els : List Val} {d : Data} (hf : Filled r els) (ht : elOr r.buf.ty d.ty = r.buf.ty) (hl : r.pos + len d ≤ len r.buf) :
    ∃ r', putArr bad r d = some (.run r') ∧ Frame r r' ∧ r'.pos = r.pos + len d ∧ r'.buf.ty = r.buf.ty ∧ r'.fill = r.fill ∧ r'.fillEnd = r.fillEnd ∧ Filled r' (els ++ d.elems) := by
  obtain ⟨e, e1, e2, e3⟩ := copyTo_spec bad ht
  obtain ⟨b, b1, b2, b3, b4⟩ := put_write hf e2 e3 hl
  refine ⟨{ r with buf := b, pos := r.pos + len d }, ?_, ⟨rfl, rfl, rfl, rfl, rfl, b3⟩, rfl, b2, rfl, rfl, ?_, b4⟩
  · unfold putArr
    rw [e1, Option.bind_some, b1]; rfl
  · show r.pos + len d ≤ len b
    omega

theorem putAtom_spec (bad : BitVec 64 → BitVec 32) {r : Run} {els : List Val} {v : Val} (hf : Filled r els) (hh : Holds r.buf.ty v) (hl : r.pos + 1 ≤ len r.buf) :
    ∃ r', putAtom bad r v = some (.run r') ∧ Frame r r' ∧ r'.pos = r.pos + 1 ∧ r'.buf.ty = r.buf.ty ∧ r'.fill = r.fill ∧ r'.fillEnd = r.fillEnd ∧ Filled r' (els ++ [v]) := by
  obtain ⟨e, e1, e2, e3⟩ := single_spec bad hh
  obtain ⟨b, b1, b2, b3, b4⟩ := put_write hf e2 e3 (by exact hl)
  refine ⟨{ r with buf := b, pos := r.pos + 1 }, ?_, ⟨rfl, rfl, rfl, rfl, rfl, b3⟩, rfl, b2, rfl, rfl, ?_, b4⟩
  · unfold putAtom
    rw [e1, Option.bind_some, b1]; rfl
  · show r.pos + 1 ≤ len b
    omega

theorem orFill_frame (r : Run) (x : Cell) : Frame r (orFill r x) ∧ (orFill r x).buf = r.buf ∧ (orFill r x).pos = r.pos ∧ (orFill r x).fillEnd = r.fillEnd := by
  unfold orFill
  by_cases h : r.buf.ty = .B
  · rw [if_pos h]
    cases r.fill with
    | none => exact ⟨Frame.rfl' r, rfl, rfl, rfl⟩
    | some f0 =>
      dsimp only
      by_cases g : x.getFill = some f0
      · rw [if_pos g]; exact ⟨Frame.rfl' r, rfl, rfl, rfl⟩
      · rw [if_neg g]; exact ⟨⟨rfl, rfl, rfl, rfl, rfl, rfl⟩, rfl, rfl, rfl⟩
  · rw [if_neg h]; exact ⟨Frame.rfl' r, rfl, rfl, rfl⟩

theorem orFill_filled {r : Run} {els : List Val} (x : Cell) (h : Filled r els) : Filled (orFill r x) els := by
  obtain ⟨_, h1, h2, _⟩ := orFill_frame r x
  unfold Filled
  rw [h1, h2]
  exact h

theorem orFill_fill {r : Run} (x : Cell) (h : r.buf.ty = .B) (f : Fill) : (orFill r x).fill = some f ↔ r.fill = some f ∧ x.getFill = some f := by
  unfold orFill
  rw [if_pos h]
  cases e : r.fill with
  | none => exact ⟨fun g => (by rw [e] at g; cases g), fun g => (by cases g.1)⟩
  | some f0 =>
    dsimp only
    by_cases g : x.getFill = some f0
    · rw [if_pos g, e]
      exact ⟨fun k => ⟨k, by rw [g]; exact k⟩, fun k => k.1⟩
    · rw [if_neg g]
      exact ⟨fun k => (by cases k), fun k => absurd (k.2.trans k.1.symm) g⟩

theorem orFill_end {r : Run} (x : Cell) (h : r.fillEnd = false → r.fill = none) : (orFill r x).fillEnd = false → (orFill r x).fill = none := by
  intro g
  rw [(orFill_frame r x).2.2.2] at g
  unfold orFill
  by_cases k : r.buf.ty = .B
  · rw [if_pos k, h g]; exact h g
  · rw [if_neg k]; exact h g

/-- Widening keeps the elements, and gives the element type that contains both. -/
theorem widen_spec (bad : BitVec 64 → BitVec 32) (junk : Nat → BitVec 64) {r : Run} {els : List Val} {x : Cell} (hf : Filled r els) (hne : elOr (x.ty bad) r.buf.ty ≠ r.buf.ty) :
    (widen bad junk r x = some .oom ∧ room (elOr (x.ty bad) r.buf.ty) (len r.buf) = false) ∨
    ∃ r', widen bad junk r x = some (.run r') ∧ Frame r r' ∧ r'.pos = r.pos ∧ r'.buf.ty = elOr (x.ty bad) r.buf.ty ∧ Filled r' els ∧
      (r'.buf.ty = .B → (∀ f, r'.fill = some f ↔ natural r.buf.ty = f ∧ x.getFill = some f) ∧ (r'.fillEnd = false → r'.fill = none)) := by
  have hB : r.buf.ty ≠ .B := fun h => hne (by rw [h]; exact elOr_B _)
  have hc : ¬ (r.buf.ty = elOr (x.ty bad) r.buf.ty ∨ r.buf.ty = .B) := by
    rintro (h | h)
    · exact hne h.symm
    · exact hB h
  by_cases hr : room (elOr (x.ty bad) r.buf.ty) (len r.buf) = false
  · left
    refine ⟨?_, hr⟩
    unfold widen
    dsimp only
    rw [if_neg hc]
    have hl : len (if elOr (x.ty bad) r.buf.ty = .B then (if x.getFill = some (if isNumEl r.buf.ty then Fill.num else Fill.chr) then { r with fill := some (if isNumEl r.buf.ty then Fill.num else Fill.chr), fillEnd := true } else { r with fill := none }) else r).buf = len r.buf := by
      by_cases h1 : elOr (x.ty bad) r.buf.ty = .B
      · rw [if_pos h1]
        by_cases h2 : x.getFill = some (if isNumEl r.buf.ty then Fill.num else Fill.chr)
        · rw [if_pos h2]
        · rw [if_neg h2]
      · rw [if_neg h1]
    rw [hl, if_pos hr]
  · right
    generalize hr2 : (if elOr (x.ty bad) r.buf.ty = .B then (if x.getFill = some (if isNumEl r.buf.ty then Fill.num else Fill.chr) then { r with fill := some (if isNumEl r.buf.ty then Fill.num else Fill.chr), fillEnd := true } else { r with fill := none }) else r) = r2
    have h2 : Frame r r2 ∧ r2.buf = r.buf ∧ r2.pos = r.pos ∧ (elOr (x.ty bad) r.buf.ty = .B → (∀ f, r2.fill = some f ↔ natural r.buf.ty = f ∧ x.getFill = some f) ∧ (r2.fillEnd = false → r2.fill = none)) := by
      rw [← hr2]
      by_cases h1 : elOr (x.ty bad) r.buf.ty = .B
      · rw [if_pos h1]
        by_cases h2 : x.getFill = some (if isNumEl r.buf.ty then Fill.num else Fill.chr)
        · rw [if_pos h2]
          refine ⟨⟨rfl, rfl, rfl, rfl, rfl, rfl⟩, rfl, rfl, fun _ => ⟨fun f => ?_, fun h => by cases h⟩⟩
          constructor
          · intro h; exact ⟨Option.some.inj h, h2.trans h⟩
          · intro h; exact congrArg some h.1
        · rw [if_neg h2]
          refine ⟨⟨rfl, rfl, rfl, rfl, rfl, rfl⟩, rfl, rfl, fun _ => ⟨fun f => ?_, fun _ => rfl⟩⟩
          constructor
          · intro h; cases h
          · intro h; exact absurd (h.2.trans (congrArg some h.1.symm)) h2
      · rw [if_neg h1]; exact ⟨Frame.rfl' r, rfl, rfl, fun h => absurd h h1⟩
    obtain ⟨hfr, hbuf, hpos, hfill⟩ := h2
    have hor : elOr (elOr (x.ty bad) r.buf.ty) (sub 0 r.pos r.buf).ty = elOr (x.ty bad) r.buf.ty := by rw [sub_ty]; exact elOr_right _ _
    obtain ⟨d, d1, d2, d3⟩ := copyTo_spec bad hor
    rw [sub_elems, List.drop_zero] at d3
    have hfr' : Filled ⟨r2.mode, r2.sh, r2.csh, r2.cia, r2.cr, fresh (elOr (x.ty bad) r.buf.ty) junk (len r.buf), 0, r2.fill, r2.fillEnd⟩ [] :=
      ⟨Nat.zero_le _, by show Sames (List.take 0 _) []; rw [List.take_zero]; exact .nil⟩
    have hel : els.length = r.pos := by
      have := hf.2.length
      rw [List.length_take] at this
      have h1 := hf.1
      unfold len at h1
      omega
    obtain ⟨b, b1, b2, b3, b4⟩ := put_write (e := d) (vs := els) hfr' (d2.trans (fresh_ty _ _ _).symm) (d3.trans hf.2) (by rw [hel]; show 0 + r.pos ≤ _; rw [fresh_len]; have := hf.1; omega)
    refine ⟨{ r2 with buf := b }, ?_, ?_, hpos, b2.trans (fresh_ty _ _ _), ?_, ?_⟩
    · unfold widen
      dsimp only
      rw [if_neg hc, hr2, hbuf, hpos, if_neg hr, d1, Option.bind_some]
      have b1' : write (fresh (elOr (x.ty bad) r.buf.ty) junk (len r.buf)) 0 d = some b := b1
      rw [b1']; rfl
    · refine hfr.trans ⟨rfl, rfl, rfl, rfl, rfl, ?_⟩
      show len b = len r2.buf
      rw [hbuf, b3]; exact fresh_len _ _ _
    · refine ⟨?_, ?_⟩
      · show r2.pos ≤ len b
        rw [hpos, b3]
        show r.pos ≤ len (fresh _ junk (len r.buf))
        rw [fresh_len]; exact hf.1
      · show Sames (b.elems.take r2.pos) els
        rw [hpos, ← hel]
        have : Sames (b.elems.take (0 + els.length)) ([] ++ els) := b4
        rw [Nat.zero_add] at this
        exact this
    · intro h
      exact hfill (by rw [← h]; exact (b2.trans (fresh_ty _ _ _)).symm)

end Verif.Merge
