import Verif.Merge.Appends
import Verif.Rotate.Basic
/-!
# Merging: all parts
-/
namespace Verif.Merge
open Verif.Squeeze
open Verif.Append (elOr fresh write copyTo single storable len isNumEl isChrEl sub copyTo_spec write_spec fresh_ty fresh_len sub_elems sub_ty holds_mono storable_iff
  single_spec selfTy_holds elOr_left elOr_right)
open Verif.Rotate (prod)

/-- As many elements as the shape says. -/
def Full (x : Cell) : Prop := x.part.els.length = prod x.part.sh

/-- `m->apd` is the function for cells of shape `s`. -/
def ModeOk (r : Run) (s : List Nat) : Prop :=
  (s = [] → r.mode = .sh0) ∧ (s ≠ [] → prod s = 0 → r.mode = .shE ∧ r.cr = s.length ∧ r.csh = s) ∧ (prod s ≠ 0 → s.length = 1 → r.mode = .sh1 ∧ r.cia = prod s) ∧
  (prod s ≠ 0 → 2 ≤ s.length → r.mode = .sh2 ∧ r.cr = s.length ∧ r.csh = s)

theorem ModeOk.frame {r r' : Run} {s : List Nat} (h : Frame r r') (hm : ModeOk r s) : ModeOk r' s := by
  obtain ⟨h1, _, h3, h4, h5, _⟩ := h
  unfold ModeOk
  rw [h1, h3, h4, h5]
  exact hm

structure Inv (fr s : List Nat) (done : List Cell) (r : Run) : Prop where
  sh : r.sh = fr ++ s
  size : len r.buf = prod fr * prod s
  pos : r.pos = done.length * prod s
  filled : Filled r (done.flatMap fun c => c.part.els)
  mode : ModeOk r s
  ne : done ≠ []
  fill : prod s ≠ 0 → (∀ c ∈ done, Plain c) → FillOk r done

theorem Inv.next {fr s : List Nat} {done : List Cell} {r : Run} {x : Cell} (hi : Inv fr s done r) (hx : x.part.sh = s) (hfull : Full x) {o : Option St}
    (h : Appended r (done.flatMap fun c => c.part.els) x.part.els true done x o) :
    (o = some .oom ∧ prod fr * prod s > 4294967230) ∨ ∃ r', o = some (.run r') ∧ Inv fr s (done ++ [x]) r' := by
  rcases h with ⟨h1, h2⟩ | ⟨r', h1, h2, h3, h4, h5⟩
  · left; rw [hi.size] at h2; exact ⟨h1, h2⟩
  · right
    refine ⟨r', h1, ?_⟩
    constructor
    · rw [h2.2.1]; exact hi.sh
    · rw [h2.2.2.2.2.2]; exact hi.size
    · unfold Full at hfull
      rw [h3, hi.pos, hfull, hx, List.length_append, List.length_singleton, Nat.add_mul, Nat.one_mul]
    · rw [List.flatMap_append]
      have e : [x].flatMap (fun c => c.part.els) = x.part.els := by simp
      rw [e]; exact h4
    · exact hi.mode.frame h2
    · simp
    · intro hp hpl
      exact h5 rfl (hpl x (List.mem_append_right _ List.mem_cons_self)) (hi.fill hp fun c hc => hpl c (List.mem_append_left _ hc))

theorem len_eq {a : Arr} (h : Full (.arr a)) : len a.data = prod a.sh := h

theorem shape_cases (s : List Nat) : s = [] ∨ (s ≠ [] ∧ prod s = 0) ∨ (prod s ≠ 0 ∧ s.length = 1) ∨ (prod s ≠ 0 ∧ 2 ≤ s.length) := by
  rcases s with _ | ⟨a, _ | ⟨b, s⟩⟩
  · exact .inl rfl
  · by_cases h : prod [a] = 0
    · exact .inr (.inl ⟨by simp, h⟩)
    · exact .inr (.inr (.inl ⟨h, rfl⟩))
  · by_cases h : prod (a :: b :: s) = 0
    · exact .inr (.inl ⟨by simp, h⟩)
    · exact .inr (.inr (.inr ⟨h, by simp⟩))

theorem append_same (bad : BitVec 64 → BitVec 32) (junk : Nat → BitVec 64) {fr s : List Nat} {done : List Cell} {r : Run} {x : Cell} (hi : Inv fr s done r) (hx : x.part.sh = s) (hfull : Full x)
    (hn : done.length + 1 ≤ prod fr) :
    (append bad junk r x = some .oom ∧ prod fr * prod s > 4294967230) ∨ ∃ r', append bad junk r x = some (.run r') ∧ Inv fr s (done ++ [x]) r' := by
  have hroom : r.pos + prod s ≤ len r.buf := by
    rw [hi.pos, hi.size]
    have := Nat.mul_le_mul_right (prod s) hn
    rw [Nat.add_mul, Nat.one_mul] at this
    exact this
  rcases shape_cases s with h0 | ⟨h0, h1⟩ | ⟨h0, h1⟩ | ⟨h0, h1⟩
  · have hm := hi.mode.1 h0
    refine hi.next hx hfull ?_
    have hp1 : r.pos + 1 ≤ len r.buf := by rw [h0] at hroom; exact hroom
    cases x with
    | atom v =>
      unfold append
      rw [hm]
      exact appendAtom_spec bad junk true hi.ne (selfTy_holds bad v) (fun _ t ht hh => natural_atom ht hh) hi.filled hp1
    | arr a =>
      unfold append
      rw [hm]
      have ha : a.sh = [] := hx.trans h0
      dsimp only
      rw [ha, if_neg (by simp)]
      unfold Full at hfull
      have hlen : a.data.elems.length = 1 := by
        have : a.data.elems.length = prod a.sh := hfull
        rw [this, ha]; rfl
      rcases he : a.data.elems with _ | ⟨v, _ | ⟨w, l⟩⟩
      · rw [he] at hlen; cases hlen
      · dsimp only
        have e : (Cell.arr a).part.els = [v] := he
        rw [e]
        refine appendAtom_spec bad junk true hi.ne ?_ (fun hpl t ht hh => ?_) hi.filled hp1
        · show Holds a.data.ty v
          exact elems_hold _ _ (by rw [he]; exact List.mem_cons_self)
        · obtain ⟨w, hw⟩ := hpl ha
          cases hw
      · rw [he] at hlen; simp at hlen
  · obtain ⟨hm, hc, hs⟩ := hi.mode.2.1 h0 h1
    cases x with
    | atom v => exact absurd hx.symm h0
    | arr a =>
      right
      have ha : a.sh = s := hx
      refine ⟨r, ?_, ?_⟩
      · unfold append
        rw [hm]
        dsimp only
        rw [hc, hs, ha, if_neg (by simp)]
      · have hz : (Cell.arr a).part.els = [] := by
          have : a.data.elems.length = 0 := by rw [show a.data.elems.length = prod a.sh from hfull, ha, h1]
          exact List.length_eq_zero_iff.1 this
        constructor
        · exact hi.sh
        · exact hi.size
        · rw [h1, Nat.mul_zero]; rw [hi.pos, h1, Nat.mul_zero]
        · rw [List.flatMap_append]
          have e : [Cell.arr a].flatMap (fun c => c.part.els) = [] := by rw [List.flatMap_singleton, hz]
          rw [e, List.append_nil]; exact hi.filled
        · exact hi.mode
        · simp
        · intro h; exact absurd h1 h
  · obtain ⟨hm, hc⟩ := hi.mode.2.2.1 h0 h1
    cases x with
    | atom v => have : ([] : List Nat) = s := hx; rw [← this] at h1; cases h1
    | arr a =>
      have ha : a.sh = s := hx
      refine hi.next hx hfull ?_
      unfold append
      rw [hm]
      dsimp only
      rw [hc, len_eq hfull, ha, if_neg (by omega)]
      exact appendArr_spec bad junk true hi.ne hi.filled (by rw [len_eq hfull, ha]; exact hroom)
  · obtain ⟨hm, hc, hs⟩ := hi.mode.2.2.2 h0 h1
    cases x with
    | atom v => have : ([] : List Nat) = s := hx; rw [← this] at h1; simp at h1
    | arr a =>
      have ha : a.sh = s := hx
      refine hi.next hx hfull ?_
      unfold append
      rw [hm]
      dsimp only
      rw [hc, hs, ha, if_neg (by simp)]
      exact appendArr_spec bad junk true hi.ne hi.filled (by rw [len_eq hfull, ha]; exact hroom)

theorem append_differ (bad : BitVec 64 → BitVec 32) (junk : Nat → BitVec 64) {fr s : List Nat} {done : List Cell} {r : Run} {x : Cell} (hi : Inv fr s done r) (hx : x.part.sh ≠ s) (hfull : Full x) :
    append bad junk r x = some .shapes := by
  rcases shape_cases s with h0 | ⟨h0, h1⟩ | ⟨h0, h1⟩ | ⟨h0, h1⟩
  · have hm := hi.mode.1 h0
    cases x with
    | atom v => exact absurd h0.symm hx
    | arr a =>
      unfold append
      rw [hm]
      have ha : a.sh ≠ s := hx
      dsimp only
      rw [if_pos (by rw [h0] at ha; intro h; exact ha (List.length_eq_zero_iff.1 h))]
  · obtain ⟨hm, hc, hs⟩ := hi.mode.2.1 h0 h1
    cases x with
    | atom v => unfold append; rw [hm]
    | arr a =>
      have ha : a.sh ≠ s := hx
      unfold append
      rw [hm]
      dsimp only
      rw [hc, hs, if_pos (.inr fun h => ha h.symm)]
  · obtain ⟨hm, hc⟩ := hi.mode.2.2.1 h0 h1
    cases x with
    | atom v => unfold append; rw [hm]
    | arr a =>
      have ha : a.sh ≠ s := hx
      unfold append
      rw [hm]
      dsimp only
      rw [hc, len_eq hfull, if_pos ?_]
      by_cases hl : a.sh.length ≠ 1
      · exact .inl hl
      · right
        intro hp
        apply ha
        rcases hs : s with _ | ⟨n, _ | ⟨k, s'⟩⟩
        · rw [hs] at h1; cases h1
        · rcases ht : a.sh with _ | ⟨m, _ | ⟨k, s'⟩⟩
          · rw [ht] at hl; exact absurd (by simp) hl
          · rw [hs, ht] at hp
            have e : n * 1 = m * 1 := hp
            rw [show n = m by omega]
          · rw [ht] at hl; exact absurd (by simp) hl
        · rw [hs] at h1; simp at h1
  · obtain ⟨hm, hc, hs⟩ := hi.mode.2.2.2 h0 h1
    cases x with
    | atom v => unfold append; rw [hm]
    | arr a =>
      have ha : a.sh ≠ s := hx
      unfold append
      rw [hm]
      dsimp only
      rw [hc, hs, if_pos (.inr fun h => ha h.symm)]

/-- Errors stay. -/
theorem fold_error (bad : BitVec 64 → BitVec 32) (junk : Nat → BitVec 64) {s : St} (hs : ∀ r, s ≠ .run r) : ∀ xs : List Cell, xs.foldlM (step bad junk) s = some s := by
  intro xs
  induction xs with
  | nil => rfl
  | cons x xs ih =>
    rw [List.foldlM_cons]
    have : step bad junk s x = some s := by
      cases s with
      | run r => exact absurd rfl (hs r)
      | _ => rfl
    rw [this]
    exact ih

/-- All appends after the first one. -/
theorem fold_spec (bad : BitVec 64 → BitVec 32) (junk : Nat → BitVec 64) {fr s : List Nat} : ∀ (xs : List Cell) {done : List Cell} {r : Run}, Inv fr s done r → (∀ x ∈ xs, Full x) → done.length + xs.length ≤ prod fr →
    (xs.foldlM (step bad junk) (.run r) = some .oom ∧ prod fr * prod s > 4294967230) ∨
    ((∃ x ∈ xs, x.part.sh ≠ s) ∧ xs.foldlM (step bad junk) (.run r) = some .shapes) ∨
    ((∀ x ∈ xs, x.part.sh = s) ∧ ∃ r', xs.foldlM (step bad junk) (.run r) = some (.run r') ∧ Inv fr s (done ++ xs) r') := by
  intro xs
  induction xs with
  | nil =>
    intro done r hi _ _
    right; right
    refine ⟨by simp, r, rfl, ?_⟩
    rw [List.append_nil]; exact hi
  | cons x xs ih =>
    intro done r hi hfull hl
    rw [List.foldlM_cons]
    rw [List.length_cons] at hl
    have hst : step bad junk (.run r) x = append bad junk r x := rfl
    rw [hst]
    by_cases hx : x.part.sh = s
    · rcases append_same bad junk hi hx (hfull x List.mem_cons_self) (by omega) with ⟨h1, h2⟩ | ⟨r', h1, h2⟩
      · left
        rw [h1]
        exact ⟨fold_error bad junk (fun r h => by cases h) xs, h2⟩
      · rw [h1]
        have := ih h2 (fun y hy => hfull y (List.mem_cons_of_mem _ hy)) (by rw [List.length_append, List.length_singleton]; omega)
        rw [List.append_assoc] at this
        rcases this with h | ⟨⟨y, hy, hne⟩, h⟩ | ⟨ha, h⟩
        · exact .inl h
        · exact .inr (.inl ⟨⟨y, List.mem_cons_of_mem _ hy, hne⟩, h⟩)
        · refine .inr (.inr ⟨fun y hy => ?_, h⟩)
          rcases List.mem_cons.1 hy with rfl | hy
          · exact hx
          · exact ha y hy
    · right; left
      rw [append_differ bad junk hi hx (hfull x List.mem_cons_self)]
      exact ⟨⟨x, List.mem_cons_self, hx⟩, fold_error bad junk (fun r h => by cases h) xs⟩

/-- The first append. -/
theorem shInit_spec (bad : BitVec 64 → BitVec 32) (junk : Nat → BitVec 64) (fr : List Nat) (x : Cell) (hfull : Full x) (hn : 1 ≤ prod fr) :
    (shInit bad junk fr x = some .oom ∧ prod fr * prod x.part.sh > 4294967230) ∨ (shInit bad junk fr x = some .rank ∧ x.part.sh ≠ [] ∧ fr.length + x.part.sh.length > 255) ∨
    ((x.part.sh = [] ∨ fr.length + x.part.sh.length ≤ 255) ∧ ∃ r, shInit bad junk fr x = some (.run r) ∧ Inv fr x.part.sh [x] r) := by
  have flat : ([x].flatMap fun c => c.part.els) = x.part.els := by simp
  cases x with
  | atom v =>
    have hp : prod (Cell.atom v).part.sh = 1 := rfl
    unfold shInit
    dsimp only
    by_cases hr : room (selfTy bad v) (prod fr) = false
    · left
      rw [if_pos hr, hp, Nat.mul_one]
      exact ⟨rfl, not_room hr⟩
    · right; right
      refine ⟨.inl rfl, ?_⟩
      rw [if_neg hr]
      generalize hr0 : (⟨.sh0, fr, [], 0, 0, fresh (selfTy bad v) junk (prod fr), 0, if (Cell.atom v).ty bad = .B then (Cell.atom v).getFill else none, decide ((Cell.atom v).ty bad = .B)⟩ : Run) = r0
      have hb : r0.buf = fresh (selfTy bad v) junk (prod fr) := by rw [← hr0]
      have hp0 : r0.pos = 0 := by rw [← hr0]
      have hf0 : Filled r0 [] := by
        unfold Filled
        rw [hp0, List.take_zero]
        exact ⟨Nat.zero_le _, .nil⟩
      obtain ⟨o1, o2, o3, o4⟩ := orFill_frame r0 (.atom v)
      have hty : r0.buf.ty = selfTy bad v := by rw [hb]; exact fresh_ty _ _ _
      have hh : Holds (orFill r0 (.atom v)).buf.ty v := by rw [o2, hty]; exact selfTy_holds bad v
      obtain ⟨r', e1, e2, e3, e4, e5, e6, e7⟩ := putAtom_spec bad (orFill_filled (.atom v) hf0) hh (by rw [o2, o3, hp0, hb, fresh_len]; exact hn)
      refine ⟨r', ?_, ?_⟩
      · unfold appendAtom
        simp only [if_true]
        rw [if_pos ((storable_iff _ _ _).2 hh)]
        exact e1
      · have hfr := o1.trans e2
        constructor
        · rw [hfr.2.1, ← hr0]; exact (List.append_nil fr).symm
        · rw [hfr.2.2.2.2.2, hb, fresh_len, hp, Nat.mul_one]
        · rw [e3, o3, hp0]; rfl
        · rw [flat]; exact e7
        · refine ⟨fun _ => (by rw [hfr.1, ← hr0]), fun h => absurd rfl h, fun _ h => (by cases h), fun _ h => ?_⟩
          have : (Cell.atom v).part.sh.length = 0 := rfl
          rw [this] at h; omega
        · simp
        · intro _ _
          rw [o2] at e4
          have hm : ∀ {c : Cell}, c ∈ [Cell.atom v] → c = .atom v := fun h => List.mem_singleton.1 h
          refine ⟨fun ht c hc => ?_, fun ht => ⟨fun f => ?_, fun hend => ?_⟩⟩
          · rw [hm hc]
            exact natural_atom ht (by rw [e4, hty]; exact selfTy_holds bad v)
          · rw [e4] at ht
            rw [e5, orFill_fill _ ht]
            have hB : (Cell.atom v).ty bad = .B := hty.symm.trans ht
            have : r0.fill = (Cell.atom v).getFill := by rw [← hr0]; exact if_pos hB
            rw [this]
            exact ⟨fun h c hc => by rw [hm hc]; exact h.1, fun h => ⟨h _ List.mem_cons_self, h _ List.mem_cons_self⟩⟩
          · rw [e6, o4, ← hr0] at hend
            rw [e4] at ht
            have hB : (Cell.atom v).ty bad = .B := hty.symm.trans ht
            exact absurd hB (of_decide_eq_false hend)
  | arr a =>
    have hla := len_eq hfull
    have common : ∀ (mode : Mode) (sh csh : List Nat) (cia cr tia : Nat), tia = prod fr * prod a.sh → sh = fr ++ a.sh →
        ModeOk ⟨mode, sh, csh, cia, cr, fresh a.data.ty junk tia, 0, if (Cell.arr a).ty bad = .B then (Cell.arr a).getFill else none, decide ((Cell.arr a).ty bad = .B)⟩ a.sh →
        ∃ r, putArr bad ⟨mode, sh, csh, cia, cr, fresh a.data.ty junk tia, 0, if (Cell.arr a).ty bad = .B then (Cell.arr a).getFill else none, decide ((Cell.arr a).ty bad = .B)⟩ a.data = some (.run r) ∧
          Inv fr a.sh [.arr a] r := by
      intro mode sh csh cia cr tia ht hsh hmode
      generalize hr0 : (⟨mode, sh, csh, cia, cr, fresh a.data.ty junk tia, 0, if (Cell.arr a).ty bad = .B then (Cell.arr a).getFill else none, decide ((Cell.arr a).ty bad = .B)⟩ : Run) = r0 at hmode
      have hb : r0.buf = fresh a.data.ty junk tia := by rw [← hr0]
      have hp0 : r0.pos = 0 := by rw [← hr0]
      have hty : r0.buf.ty = a.data.ty := by rw [hb]; exact fresh_ty _ _ _
      have hf0 : Filled r0 [] := by
        unfold Filled
        rw [hp0, List.take_zero]
        exact ⟨Nat.zero_le _, .nil⟩
      obtain ⟨r', e1, e2, e3, e4, e5, e6, e7⟩ := putArr_spec bad (d := a.data) hf0 (by rw [hty]; cases a.data.ty <;> decide) (by
        rw [hp0, hb, fresh_len, hla, ht]
        have := Nat.mul_le_mul_right (prod a.sh) hn
        omega)
      refine ⟨r', e1, ?_⟩
      constructor
      · rw [e2.2.1, ← hr0]; exact hsh
      · rw [e2.2.2.2.2.2, hb, fresh_len, ht]
      · rw [e3, hp0, hla]; simp
      · rw [flat]; exact e7
      · exact hmode.frame e2
      · simp
      · intro _ _
        have hm : ∀ {c : Cell}, c ∈ [Cell.arr a] → c = .arr a := fun h => List.mem_singleton.1 h
        refine ⟨fun ht c hc => ?_, fun ht => ⟨fun f => ?_, fun hend => ?_⟩⟩
        · rw [hm hc]
          rw [e4, hty] at ht ⊢
          exact natural_arr ht (by cases a.data.ty <;> decide)
        · rw [e4] at ht
          have hB : (Cell.arr a).ty bad = .B := hty.symm.trans ht
          have : r0.fill = (Cell.arr a).getFill := by rw [← hr0]; exact if_pos hB
          rw [e5, this]
          exact ⟨fun h c hc => by rw [hm hc]; exact h, fun h => h _ List.mem_cons_self⟩
        · rw [e6, ← hr0] at hend
          rw [e4] at ht
          have hB : (Cell.arr a).ty bad = .B := hty.symm.trans ht
          exact absurd hB (of_decide_eq_false hend)
    unfold shInit
    dsimp only
    have hsh : (Cell.arr a).part.sh = a.sh := rfl
    rw [hsh]
    by_cases h0 : a.sh.length = 0
    · have hnil := List.length_eq_zero_iff.1 h0
      rw [if_pos h0]
      have hp : prod a.sh = 1 := by rw [hnil]; rfl
      by_cases hr : room a.data.ty (prod fr) = false
      · left
        rw [if_pos hr, hp, Nat.mul_one]
        exact ⟨rfl, not_room hr⟩
      · right; right
        rw [if_neg hr]
        refine ⟨.inl hnil, common .sh0 fr [] 0 0 (prod fr) (by rw [hp, Nat.mul_one]) (by rw [hnil, List.append_nil]) ⟨fun _ => rfl, fun h => absurd hnil h, fun _ h => (by rw [hnil] at h; cases h), fun _ h => (by rw [h0] at h; omega)⟩⟩
    · have hnil : a.sh ≠ [] := fun h => h0 (by rw [h]; rfl)
      rw [if_neg h0]
      by_cases hr : fr.length + a.sh.length > 255
      · right; left
        rw [if_pos hr]
        exact ⟨rfl, hnil, hr⟩
      · rw [if_neg hr, hla]
        by_cases hb : prod fr * prod a.sh ≥ 2^32
        · left
          rw [if_pos hb]
          exact ⟨rfl, by omega⟩
        · rw [if_neg hb]
          by_cases hr2 : room a.data.ty (prod fr * prod a.sh) = false
          · left
            rw [if_pos hr2]
            exact ⟨rfl, not_room hr2⟩
          · right; right
            rw [if_neg hr2]
            refine ⟨.inr (by omega), common _ _ _ _ _ _ rfl rfl ?_⟩
            have hcsh : (if fr.length + a.sh.length > 1 then a.sh else [prod a.sh]) = a.sh := by
              by_cases h : fr.length + a.sh.length > 1
              · rw [if_pos h]
              · rw [if_neg h]
                rcases hs : a.sh with _ | ⟨n, _ | ⟨k, s'⟩⟩
                · exact absurd hs hnil
                · simp [prod]
                · rw [hs] at h; simp at h; omega
            refine ⟨fun h => absurd h hnil, fun _ h => ⟨if_pos h, rfl, hcsh⟩, fun h h1 => ⟨?_, rfl⟩, fun h h1 => ⟨?_, rfl, hcsh⟩⟩
            · dsimp only
              rw [if_neg h, if_pos h1]
            · dsimp only
              rw [if_neg h, if_neg (by omega)]

/-- The fill of the finished array. -/
theorem finish_fill {r : Run} {cells : List Cell} (hne : cells ≠ []) (h : FillOk r cells) (f : Fill) :
    (⟨r.sh, r.buf, if r.buf.ty = .B ∧ r.fillEnd = true then r.fill else none⟩ : Arr).getFill = some f ↔ ∀ c ∈ cells, c.getFill = some f := by
  by_cases ht : r.buf.ty = .B
  · obtain ⟨h1, h2⟩ := h.2 ht
    rw [← h1]
    unfold Arr.getFill
    dsimp only
    rw [ht]
    have e1 : isNumEl .B = false := by decide
    have e2 : isChrEl .B = false := by decide
    simp only [e1, e2, Bool.false_eq_true, if_false, true_and]
    by_cases hf : r.fillEnd = true
    · rw [if_pos hf]
    · rw [if_neg hf, h2 (by simpa using hf)]
  · have h1 := h.1 ht
    have hg : (⟨r.sh, r.buf, if r.buf.ty = .B ∧ r.fillEnd = true then r.fill else none⟩ : Arr).getFill = some (natural r.buf.ty) :=
      natural_arr ht (by show elOr r.buf.ty r.buf.ty = _; cases r.buf.ty <;> decide)
    rw [hg]
    constructor
    · intro e c hc
      rw [h1 c hc, e]
    · intro e
      obtain ⟨c, hc⟩ := List.exists_mem_of_ne_nil _ hne
      rw [← h1 c hc, e c hc]

theorem ones_of_prod : ∀ {fr : List Nat}, prod fr = 1 → fr = List.replicate fr.length 1 := by
  intro fr
  induction fr with
  | nil => intro _; rfl
  | cons n fr ih =>
    intro h
    have h' : n * prod fr = 1 := h
    obtain ⟨h1, h2⟩ : n = 1 ∧ prod fr = 1 := ⟨Nat.eq_one_of_mul_eq_one_right h', Nat.eq_one_of_mul_eq_one_left h'⟩
    rw [List.length_cons, List.replicate_succ, ← ih h2, h1]

/-- What merging the cells gives. -/
def MergedFill (fr s : List Nat) (cells : List Cell) (a : Arr) : Prop :=
  Merged fr s (cells.map Cell.part) a.sh a.data.elems ∧
  (prod s ≠ 0 → (∀ c ∈ cells, Plain c) → ∀ f, a.getFill = some f ↔ ∀ c ∈ cells, c.getFill = some f)

theorem reshape_spec (bad : BitVec 64 → BitVec 32) {fr : List Nat} {x : Cell} (hfr : prod fr = 1) (hl : x.part.sh.length ≤ 255) (hfull : Full x) :
    (fr.length + x.part.sh.length > 255 ∧ reshape bad fr x = some .rank) ∨
    (fr.length + x.part.sh.length ≤ 255 ∧ ∃ a, reshape bad fr x = some (.ok a) ∧ MergedFill fr x.part.sh [x] a) := by
  have main : ∀ a : Arr, a.sh = x.part.sh → Sames a.data.elems x.part.els → (a.sh = [] → len a.data = 1) → (Plain x → ∀ f, a.getFill = some f ↔ x.getFill = some f) →
      (fr.length + a.sh.length > 255 ∧ (if fr.length > 0 then
          if fr.length + a.sh.length > 255 then some .rank
          else if fr.length + a.sh.length ≤ 1 then some (.ok { a with sh := [len a.data] })
          else some (.ok { a with sh := List.replicate fr.length 1 ++ a.sh })
        else some (.ok a)) = some Out.rank) ∨
      (fr.length + a.sh.length ≤ 255 ∧ ∃ b, (if fr.length > 0 then
          if fr.length + a.sh.length > 255 then some .rank
          else if fr.length + a.sh.length ≤ 1 then some (.ok { a with sh := [len a.data] })
          else some (.ok { a with sh := List.replicate fr.length 1 ++ a.sh })
        else some (.ok a)) = some (Out.ok b) ∧ MergedFill fr a.sh [x] b) := by
    intro a h1 h2 h3 h4
    have mf : ∀ b : Arr, b.sh = fr ++ a.sh → b.data = a.data → b.fill = a.fill → MergedFill fr a.sh [x] b := by
      intro b hb hd hf
      refine ⟨⟨hb, ?_⟩, ?_⟩
      · rw [hd]
        simpa using h2
      · intro _ hpl f
        have : b.getFill = a.getFill := by unfold Arr.getFill; rw [hd, hf]
        rw [this, h4 (hpl x List.mem_cons_self)]
        simp
    by_cases g0 : fr.length > 0
    · rw [if_pos g0]
      by_cases g1 : fr.length + a.sh.length > 255
      · rw [if_pos g1]; exact .inl ⟨g1, rfl⟩
      · rw [if_neg g1]
        right
        refine ⟨by omega, ?_⟩
        by_cases g2 : fr.length + a.sh.length ≤ 1
        · rw [if_pos g2]
          refine ⟨_, rfl, mf _ ?_ rfl rfl⟩
          have : a.sh = [] := List.length_eq_zero_iff.1 (by omega)
          dsimp only
          rw [h3 this, this, List.append_nil, ones_of_prod hfr, show fr.length = 1 by omega]; rfl
        · rw [if_neg g2]
          refine ⟨_, rfl, mf _ ?_ rfl rfl⟩
          dsimp only
          rw [← ones_of_prod hfr]
    · rw [if_neg g0]
      have hnil : fr = [] := List.length_eq_zero_iff.1 (by omega)
      exact .inr ⟨by rw [h1]; omega, a, rfl, mf a (by rw [hnil]; rfl) rfl rfl⟩
  unfold reshape
  cases x with
  | atom v =>
    obtain ⟨d, e1, e2, e3⟩ := single_spec bad (selfTy_holds bad v)
    have hu : unit bad v = some ⟨[], d, none⟩ := by unfold unit; rw [e1]; rfl
    dsimp only
    rw [hu, Option.bind_some]
    refine main ⟨[], d, none⟩ rfl e3 (fun _ => e3.length) (fun _ f => ?_)
    by_cases hB : selfTy bad v = .B
    · have hv : ∃ o, v = .other o := by
        cases v with
        | num u =>
          exfalso
          revert hB
          unfold selfTy selfI32
          dsimp only
          repeat' split
          all_goals decide
        | chr c =>
          exfalso
          revert hB
          unfold selfTy selfC32
          dsimp only
          repeat' split
          all_goals decide
        | other o => exact ⟨o, rfl⟩
      obtain ⟨o, rfl⟩ := hv
      have : (⟨[], d, none⟩ : Arr).getFill = none := by
        unfold Arr.getFill
        dsimp only
        rw [e2, hB]; rfl
      rw [this]
      exact Iff.rfl
    · rw [natural_atom hB (selfTy_holds bad v), natural_arr (a := ⟨[], d, none⟩) hB (by show elOr _ d.ty = _; rw [e2]; cases selfTy bad v <;> decide)]
  | arr a =>
    dsimp only
    rw [Option.bind_some]
    exact main a rfl (Sames.refl _) (fun h => by rw [len_eq hfull, h]; rfl) (fun _ f => Iff.rfl)

/-- All cells of the same shape. -/
theorem merge_alike (bad : BitVec 64 → BitVec 32) (junk : Nat → BitVec 64) {fr s : List Nat} {cells : List Cell} (hne : cells ≠ []) (hfr : prod fr = cells.length) (hfull : ∀ c ∈ cells, Full c)
    (hr : s.length ≤ 255) (hl : fr.length ≤ 255) (ha : ∀ c ∈ cells, c.part.sh = s) :
    (mergeParts bad junk fr cells = some .oom ∧ cells.length * prod s > 4294967230) ∨
    (mergeParts bad junk fr cells = some .rank ∧ fr.length + s.length > 255) ∨
    (fr.length + s.length ≤ 255 ∧ ∃ a, mergeParts bad junk fr cells = some (.ok a) ∧ MergedFill fr s cells a) := by
  rcases hc : cells with _ | ⟨x, _ | ⟨y, ys⟩⟩
  · exact absurd hc hne
  · have hx := ha x (by rw [hc]; exact List.mem_cons_self)
    rw [hc] at hfr hfull
    right
    rcases reshape_spec bad (x := x) hfr (by rw [hx]; exact hr) (hfull x List.mem_cons_self) with ⟨h1, h2⟩ | ⟨h1, h2⟩
    · rw [hx] at h1; exact .inl ⟨h2, h1⟩
    · rw [hx] at h1 h2; exact .inr ⟨h1, h2⟩
  · have hx := ha x (by rw [hc]; exact List.mem_cons_self)
    have hxs : ∀ c ∈ y :: ys, c.part.sh = s := fun c h => ha c (by rw [hc]; exact List.mem_cons_of_mem _ h)
    rw [hc] at hfr hfull
    rw [← hfr]
    rw [show mergeParts bad junk fr (x :: y :: ys) = (shInit bad junk fr x).bind fun s => ((y :: ys).foldlM (step bad junk) s).bind finish from rfl]
    have hlen : (x :: y :: ys).length = 1 + (y :: ys).length := by simp; omega
    rcases shInit_spec bad junk fr x (hfull x List.mem_cons_self) (by rw [hfr]; simp) with ⟨h1, h2⟩ | ⟨h1, _, h2⟩ | ⟨h0, r, h1, h2⟩
    · left
      rw [h1, Option.bind_some, fold_error bad junk (fun r h => by cases h)]
      rw [hx] at h2
      exact ⟨rfl, h2⟩
    · right; left
      rw [h1, Option.bind_some, fold_error bad junk (fun r h => by cases h)]
      rw [hx] at h2
      exact ⟨rfl, h2⟩
    · rw [h1, Option.bind_some]
      rw [hx] at h0 h2
      have hle : fr.length + s.length ≤ 255 := by
        rcases h0 with h0 | h0
        · rw [h0]; exact hl
        · exact h0
      rcases fold_spec bad junk (y :: ys) h2 (fun c h => hfull c (List.mem_cons_of_mem _ h)) (by rw [hfr, hlen]; simp) with ⟨g1, g2⟩ | ⟨⟨c, hc', hne'⟩, _⟩ | ⟨_, r', g1, g2⟩
      · left; rw [g1]; exact ⟨rfl, g2⟩
      · exact absurd (hxs c hc') hne'
      · right; right
        refine ⟨hle, ?_⟩
        rw [g1, Option.bind_some]
        have hpos : r'.pos = len r'.buf := by
          rw [g2.pos, g2.size, hfr]; rfl
        refine ⟨_, by unfold finish; exact if_pos hpos, ⟨g2.sh, ?_⟩, ?_⟩
        · have := g2.filled.2
          rw [hpos, show len r'.buf = r'.buf.elems.length from rfl, List.take_length] at this
          rw [List.flatMap_map]
          exact this
        · intro hp hpl f
          exact finish_fill (by simp) (g2.fill hp hpl) f

/-- Cells of different shapes. -/
theorem merge_unlike (bad : BitVec 64 → BitVec 32) (junk : Nat → BitVec 64) {fr : List Nat} {x : Cell} {xs : List Cell} (hfr : prod fr = (x :: xs).length) (hfull : ∀ c ∈ x :: xs, Full c)
    (hd : ∃ c ∈ xs, c.part.sh ≠ x.part.sh) :
    (mergeParts bad junk fr (x :: xs) = some .oom ∧ (x :: xs).length * prod x.part.sh > 4294967230) ∨
    (mergeParts bad junk fr (x :: xs) = some .rank ∧ fr.length + x.part.sh.length > 255) ∨
    mergeParts bad junk fr (x :: xs) = some .shapes := by
  rcases xs with _ | ⟨y, ys⟩
  · obtain ⟨c, hc, _⟩ := hd; cases hc
  · rw [← hfr]
    rw [show mergeParts bad junk fr (x :: y :: ys) = (shInit bad junk fr x).bind fun s => ((y :: ys).foldlM (step bad junk) s).bind finish from rfl]
    have hlen : (x :: y :: ys).length = 1 + (y :: ys).length := by simp; omega
    rcases shInit_spec bad junk fr x (hfull x List.mem_cons_self) (by rw [hfr]; simp) with ⟨h1, h2⟩ | ⟨h1, _, h2⟩ | ⟨h0, r, h1, h2⟩
    · left
      rw [h1, Option.bind_some, fold_error bad junk (fun r h => by cases h)]
      exact ⟨rfl, h2⟩
    · right; left
      rw [h1, Option.bind_some, fold_error bad junk (fun r h => by cases h)]
      exact ⟨rfl, h2⟩
    · rw [h1, Option.bind_some]
      rcases fold_spec bad junk (y :: ys) h2 (fun c h => hfull c (List.mem_cons_of_mem _ h)) (by rw [hfr, hlen]; simp) with ⟨g1, g2⟩ | ⟨_, g1⟩ | ⟨h, _⟩
      · left; rw [g1]; exact ⟨rfl, g2⟩
      · right; right; rw [g1]; rfl
      · obtain ⟨c, hc, hne⟩ := hd
        exact absurd (h c hc) hne

/-- Appending without shapes. -/
structure TotInv (tia : Nat) (els : List Val) (r : Run) : Prop where
  mode : r.mode = .tot
  size : len r.buf = tia
  pos : r.pos = els.length
  filled : Filled r els

theorem tot_append (bad : BitVec 64 → BitVec 32) (junk : Nat → BitVec 64) {tia : Nat} {els : List Val} {r : Run} {x : Cell} (hi : TotInv tia els r) (hl : els.length + x.part.els.length ≤ tia) :
    (append bad junk r x = some .oom ∧ tia > 4294967230) ∨ ∃ r', append bad junk r x = some (.run r') ∧ TotInv tia (els ++ x.part.els) r' := by
  have next : ∀ {o : Option St} {vs : List Val}, vs = x.part.els → Appended r els vs false [x] x o → (o = some .oom ∧ tia > 4294967230) ∨ ∃ r', o = some (.run r') ∧ TotInv tia (els ++ x.part.els) r' := by
    intro o vs hvs h
    subst hvs
    rcases h with ⟨h1, h2⟩ | ⟨r', h1, h2, h3, h4, _⟩
    · left; rw [hi.size] at h2; exact ⟨h1, h2⟩
    · right
      exact ⟨r', h1, h2.1.trans hi.mode, h2.2.2.2.2.2.trans hi.size, by rw [h3, hi.pos, List.length_append], h4⟩
  unfold append
  cases x with
  | atom v =>
    rw [hi.mode]
    exact next rfl (appendAtom_spec bad junk false (by simp) (selfTy_holds bad v) (fun _ t ht hh => natural_atom ht hh) hi.filled (by rw [hi.pos, hi.size]; exact hl))
  | arr a =>
    rw [hi.mode]
    dsimp only
    by_cases h0 : len a.data = 0
    · rw [if_pos h0]
      right
      refine ⟨r, rfl, ?_⟩
      have : (Cell.arr a).part.els = [] := List.length_eq_zero_iff.1 h0
      rw [this, List.append_nil]
      exact hi
    · rw [if_neg h0]
      exact next rfl (appendArr_spec bad junk false (by simp) hi.filled (by rw [hi.pos, hi.size]; exact hl))

theorem tot_fold (bad : BitVec 64 → BitVec 32) (junk : Nat → BitVec 64) {tia : Nat} : ∀ (xs : List Cell) {els : List Val} {r : Run}, TotInv tia els r → els.length + (xs.flatMap fun c => c.part.els).length ≤ tia →
    (xs.foldlM (step bad junk) (.run r) = some .oom ∧ tia > 4294967230) ∨
    ∃ r', xs.foldlM (step bad junk) (.run r) = some (.run r') ∧ TotInv tia (els ++ xs.flatMap fun c => c.part.els) r' := by
  intro xs
  induction xs with
  | nil =>
    intro els r hi _
    exact .inr ⟨r, rfl, by rw [List.flatMap_nil, List.append_nil]; exact hi⟩
  | cons x xs ih =>
    intro els r hi hl
    rw [List.foldlM_cons]
    rw [List.flatMap_cons, List.length_append] at hl
    have hst : step bad junk (.run r) x = append bad junk r x := rfl
    rw [hst]
    rcases tot_append bad junk hi (x := x) (by omega) with ⟨h1, h2⟩ | ⟨r', h1, h2⟩
    · left
      rw [h1]
      exact ⟨fold_error bad junk (fun r h => by cases h) xs, h2⟩
    · rw [h1]
      have := ih h2 (by rw [List.length_append]; omega)
      rw [List.flatMap_cons, ← List.append_assoc]
      exact this

/-- `M_APD_TOT`. -/
theorem join_spec (bad : BitVec 64 → BitVec 32) (junk : Nat → BitVec 64) {cells : List Cell} (hne : cells ≠ []) {tia : Nat} (ht : tia = (cells.flatMap fun c => c.part.els).length) :
    (joinParts bad junk tia cells = some .oom ∧ tia > 4294967230) ∨ ∃ a, joinParts bad junk tia cells = some (.ok a) ∧ Sames a.data.elems (cells.flatMap fun c => c.part.els) := by
  rcases cells with _ | ⟨x, xs⟩
  · exact absurd rfl hne
  · unfold joinParts totInit
    dsimp only
    by_cases hr : room (x.ty bad) tia = false
    · left
      rw [if_pos hr, Option.bind_some, fold_error bad junk (fun r h => by cases h)]
      exact ⟨rfl, not_room hr⟩
    · rw [if_neg hr]
      rw [List.flatMap_cons, List.length_append] at ht
      have hi : TotInv tia [] ⟨.tot, [], [], 0, 0, fresh (x.ty bad) junk tia, 0, none, false⟩ :=
        ⟨rfl, fresh_len _ _ _, rfl, Nat.zero_le _, .nil⟩
      rcases tot_append bad junk hi (x := x) (by rw [List.length_nil]; omega) with ⟨h1, h2⟩ | ⟨r', h1, h2⟩
      · left
        rw [h1, Option.bind_some, fold_error bad junk (fun r h => by cases h)]
        exact ⟨rfl, h2⟩
      · rw [h1, Option.bind_some]
        rcases tot_fold bad junk xs h2 (by rw [List.nil_append]; omega) with ⟨g1, g2⟩ | ⟨r2, g1, g2⟩
        · left; rw [g1]; exact ⟨rfl, g2⟩
        · right
          rw [g1, Option.bind_some]
          have hpos : r2.pos = len r2.buf := by
            rw [g2.pos, g2.size, List.nil_append, List.length_append]; omega
          refine ⟨_, by unfold finish; exact if_pos hpos, ?_⟩
          have := g2.filled.2
          rw [hpos, show len r2.buf = r2.buf.elems.length from rfl, List.take_length] at this
          rw [List.nil_append] at this
          rw [List.flatMap_cons]
          exact this

end Verif.Merge
