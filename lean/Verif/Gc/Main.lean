import Verif.Gc.Free
/-! # Garbage collection and histories of the heap -/
namespace Verif.Gc

theorem visits_references {hp H ext} (h : Consistent hp H ext) {x : Nat} (hx : (H x).kind = .obj) : visits H hp x = references H hp x := by
  refine sum_congr fun y _ => ?_
  rcases hk : (H y).kind with _ | _ | _ | _
  · rw [if_pos rfl, if_pos rfl]
  · rw [if_neg (by decide), if_neg (by decide)]
    obtain ⟨a, ha, hka⟩ := h.drops y hk
    have h0 : a.count x = 0 := List.count_eq_zero_of_not_mem (fun hc => by rw [hka x hc] at hx; cases hx)
    rw [ha.count_eq, List.count_append, h0]
    rfl
  · rw [if_neg (by decide), if_neg (by decide), (h.aux y hk).1, (h.aux y hk).2]
  · exact absurd hk (h.clean y)

theorem Consistent.graph {hp H ext} (h : Consistent hp H ext) : Graph hp H := by
  refine ⟨h.nodup, h.dom, ?_⟩
  intro x hx c hc
  rcases hk : (H x).kind with _ | _ | _ | _
  · exact absurd hk hx
  · rw [h.refs x hk c hc]; decide
  · rw [(h.aux x hk).1] at hc; cases hc
  · exact absurd hk (h.clean x)

/-- An object with references is an object. -/
theorem Consistent.obj_of_ref {hp H ext} (h : Consistent hp H ext) {x c : Nat} (hx : (H x).kind ≠ .empty) (hc : c ∈ (H x).refs) : (H x).kind = .obj := by
  rcases hk : (H x).kind with _ | _ | _ | _
  · exact absurd hk hx
  · rfl
  · rw [(h.aux x hk).1] at hc; cases hc
  · exact absurd hk (h.clean x)

/-- What is done before the roots are visited. -/
def phase1 (toplevel : Bool) (hp : List Nat) (H : Mem) : Option Mem :=
  if toplevel then forHeap resetTag hp H
  else ((forHeap unmarkDec hp H).bind (forHeap (visitNonzero hp) hp)).bind (forHeap visitInc hp)

theorem phase1_spec {hp H ext} (h : Consistent hp H ext) (top : Bool) : ∃ m, phase1 top hp H = some (setMarks H m) ∧
    (∀ x, (H x).kind = .obj → m x = true → Reach H (fun x => 0 < ext x) x) ∧
    (∀ x, (H x).kind = .obj → m x = true → ∀ c ∈ (H x).refs, m c = true) ∧
    (top = false → ∀ x, (H x).kind = .obj → 0 < ext x → m x = true) := by
  have hobj : ∀ x, (H x).kind = .obj → (H x).kind ≠ .empty := fun x hx => by rw [hx]; decide
  let m0 : Nat → Bool := fun x => if x ∈ hp ∧ (H x).kind ≠ .empty then false else (H x).mark
  have hm0 : ∀ x, (H x).kind = .obj → m0 x = false := fun x hx => if_pos ⟨h.dom x (hobj x hx), hobj x hx⟩
  cases top with
  | true =>
    refine ⟨m0, ?_, ?_, ?_, fun h => by cases h⟩
    · show forHeap resetTag hp H = _
      rw [resetPass_eq]; rfl
    · intro x hx hm; rw [hm0 x hx] at hm; cases hm
    · intro x hx hm; rw [hm0 x hx] at hm; cases hm
  | false =>
    let Hr : Mem := fun x => { H x with refc := (H x).refc - (visits H hp x : Nat) }
    have e1 : forHeap unmarkDec hp H = some (setMarks Hr m0) := by rw [decPass_eq]; rfl
    have hg := h.graph
    have hgr : Graph hp Hr := ⟨hg.1, hg.2.1, hg.2.2⟩
    obtain ⟨m, e2, k⟩ := markPass_spec hgr hp m0
    have e3 : forHeap visitInc hp (setMarks Hr m) = some (setMarks H m) := by
      rw [incPass_eq]
      congr 1
      funext x
      rw [visits_congr (H := H) (H' := setMarks Hr m) (fun x => ⟨rfl, rfl⟩)]
      show Obj.mk _ _ _ _ _ = Obj.mk _ _ _ _ _
      congr 1
      show (H x).refc - (visits H hp x : Nat) + (visits H hp x : Nat) = (H x).refc
      omega
    have hr1 : ∀ x, (H x).kind = .obj → (Hr x).refc = ext x := by
      intro x hx
      show (H x).refc - (visits H hp x : Nat) = _
      rw [h.count x (hobj x hx), visits_references h hx]
      omega
    refine ⟨m, ?_, ?_, ?_, ?_⟩
    · show ((forHeap unmarkDec hp H).bind (forHeap (visitNonzero hp) hp)).bind (forHeap visitInc hp) = _
      rw [e1, Option.bind_some, e2, Option.bind_some, e3]
    · intro x hx hm
      have key : ∀ x, Reach Hr (fun x => x ∈ hp ∧ (Hr x).kind ≠ .empty ∧ (Hr x).refc ≠ 0) x →
          (H x).kind ≠ .empty ∧ ((H x).kind = .obj → Reach H (fun x => 0 < ext x) x) := by
        intro x hr
        induction hr with
        | base hs =>
          refine ⟨hs.2.1, fun ho => .base ?_⟩
          have := hs.2.2
          rw [hr1 _ ho] at this
          omega
        | step hr hxy ih =>
          rename_i a b
          have hb := h.obj_of_ref ih.1 hxy
          have ha := h.refs b hb a hxy
          exact ⟨hobj a ha, fun _ => .step (ih.2 hb) hxy⟩
      rcases k.sound x hm with hm | hr
      · rw [hm0 x hx] at hm; cases hm
      · exact (key x hr).2 hx
    · intro x hx hm
      rcases k.closed x hm with hm | hr
      · rw [hm0 x hx] at hm; cases hm
      · exact hr
    · intro _ x hx he
      apply k.all
      refine ⟨h.dom x (hobj x hx), hobj x hx, ?_⟩
      rw [hr1 x hx]
      omega

theorem gc_spec {hp H ext} (h : Consistent hp H ext) {top : Bool} {roots : List Nat} (hroots : ∀ r ∈ roots, 0 < ext r)
    (htop : top = true → ∀ x, (H x).kind = .obj → 0 < ext x → Reach H (· ∈ roots) x) :
    ∃ H', gcRun top hp roots H = some H' ∧ Consistent hp H' ext ∧
      (∀ x, (H' x).refs = (H x).refs ∧ (H' x).drops = (H x).drops ∧ ((H' x).kind = (H x).kind ∨ (H' x).kind = .empty)) ∧
      (∀ x, (H x).kind = .obj → ((H' x).kind = .obj ↔ Reach H (fun x => 0 < ext x) x)) := by
  obtain ⟨m1, e1, s1, c1, a1⟩ := phase1_spec h top
  obtain ⟨m, e2, k⟩ := mark_spec h.graph _ roots m1 (fun x hx => h.live x (hroots x hx)) (markSteps_enough hp H m1 roots)
  have toExt : ∀ x, Reach H (· ∈ roots) x → Reach H (fun x => 0 < ext x) x := fun x hr => reach_mono (fun y hy => .base (hroots y hy)) hr
  have sound : ∀ x, (H x).kind = .obj → m x = true → Reach H (fun x => 0 < ext x) x := by
    intro x hx hm
    rcases k.sound x hm with hm | hr
    · exact s1 x hx hm
    · exact toExt x hr
  have closed : ∀ x, (H x).kind = .obj → m x = true → ∀ c ∈ (H x).refs, m c = true := by
    intro x hx hm c hc
    rcases k.closed x hm with hm | hr
    · exact k.mono c (c1 x hx hm c hc)
    · exact hr c hc
  have rooted : ∀ x, Reach H (· ∈ roots) x → m x = true := by
    intro x hr
    induction hr with
    | base hx => exact k.all _ hx
    | step hr hx ih =>
      rename_i a b
      exact closed b (h.obj_of_ref (h.reach_there (toExt b hr)) hx) ih a hx
  have all : ∀ x, (H x).kind = .obj → 0 < ext x → m x = true := by
    intro x hx he
    cases top with
    | true => exact rooted x (htop rfl x hx he)
    | false => exact k.mono x (a1 rfl x hx he)
  obtain ⟨H', e3, cons, fr, ks⟩ := free_consistent h sound all closed
  refine ⟨H', ?_, cons, fr, ?_⟩
  · show (phase1 top hp H).bind (fun H => (visitRoots hp roots H).bind fun H => (forHeap (tryFree hp) hp H).map freeFreed) = _
    rw [e1, Option.bind_some]
    show (mark _ roots (setMarks H m1)).bind _ = _
    rw [e2, Option.bind_some]
    exact e3
  · intro x hx
    rw [ks x hx]
    refine ⟨sound x hx, ?_⟩
    have : ∀ x, Reach H (fun x => 0 < ext x) x → (H x).kind = .obj → m x = true := by
      intro x hr
      induction hr with
      | base he => exact fun hx => all _ hx he
      | step hr hx ih =>
        rename_i a b
        intro _
        have hb := h.obj_of_ref (h.reach_there hr) hx
        exact closed b hb (ih hb) a hx
    exact fun hr => this x hr hx

/-! ## the program's operations -/

theorem references_congr {H H' : Mem} (h : ∀ x, (H' x).kind = (H x).kind ∧ (H' x).drops = (H x).drops) (hp : List Nat) (x : Nat) :
    references H' hp x = references H hp x := sum_congr fun y _ => by rw [(h y).1, (h y).2]

theorem inc_consistent {hp H ext} (h : Consistent hp H ext) {x : Nat} (hx : (H x).kind ≠ .empty) :
    Consistent hp (put H x { H x with refc := (H x).refc + 1 }) (fun y => if y = x then ext y + 1 else ext y) := by
  have kd := put_refc_kind H x ((H x).refc + 1)
  have dd := put_refc_drops H x ((H x).refc + 1)
  have rr : ∀ y, (put H x { H x with refc := (H x).refc + 1 } y).refs = (H y).refs := by
    intro y
    by_cases e : y = x
    · subst e; rw [put_self]
    · rw [put_ne _ _ e]
  have hrf := references_congr (fun y => ⟨kd y, dd y⟩) hp
  refine ⟨h.nodup, ?_, ?_, ?_, ?_, ?_, ?_, ?_, ?_⟩
  · intro y hy; rw [kd] at hy; exact h.dom y hy
  · intro y; rw [kd]; exact h.clean y
  · intro y hy
    rw [kd] at hy
    obtain ⟨a, ha, hk⟩ := h.drops y hy
    exact ⟨a, by rw [rr, dd]; exact ha, fun c hc => by rw [kd]; exact hk c hc⟩
  · intro y hy c hc
    rw [kd] at hy
    rw [rr] at hc
    rw [kd]; exact h.refs y hy c hc
  · intro y hy
    rw [kd] at hy
    rw [rr, dd]; exact h.aux y hy
  · intro y hy
    rw [kd] at hy
    have := h.count y hy
    rw [hrf]
    by_cases e : y = x
    · subst e
      rw [put_self, if_pos rfl]
      show (H y).refc + 1 = _
      omega
    · rw [put_ne _ _ e, if_neg e]; exact this
  · intro y hy
    rw [kd] at hy
    have := h.pos y hy
    by_cases e : y = x
    · subst e
      rw [put_self]
      show 0 < (H y).refc + 1
      omega
    · rw [put_ne _ _ e]; exact this
  · intro y hy
    rw [kd]
    by_cases e : y = x
    · rw [e]; exact hx
    · rw [if_neg e] at hy; exact h.live y hy

theorem dec_consistent {hp H ext} (h : Consistent hp H ext) {x : Nat} (hx : 0 < ext x) :
    ∃ H', run (runSteps hp H [.dec x]) [.dec x] H = some H' ∧ Consistent hp H' (fun y => if y = x then ext y - 1 else ext y) ∧ Frame H H' := by
  have i := h.toInv
  have hnr : ∀ y, Task.release y ∉ [Task.dec x] := fun y hy => by rw [List.mem_singleton] at hy; cases hy
  have hheld : ∀ z, held H hp [.dec x] z = held H hp [] z := by
    intro z
    refine sum_congr fun y _ => ?_
    by_cases hy : (H y).kind = .obj
    · rw [if_pos ⟨hy, hnr y⟩, if_pos ⟨hy, not_rel_nil y⟩]
    · rw [if_neg (fun h => hy h.1), if_neg (fun h => hy h.1)]
  have i' : Inv hp H [.dec x] (fun y => if y = x then ext y - 1 else ext y) := by
    refine ⟨i.nodup, i.dom, ?_, fun y hy _ => i.pos y hy (not_rel_nil y), fun y hy => absurd hy (hnr y), ?_, fun y hy => absurd hy (hnr y),
      fun y hy => i.holds y ⟨hy.1, not_rel_nil y⟩, ?_, ?_⟩
    · intro y hy
      have := i.count y hy
      rw [List.count_nil] at this
      rw [hheld]
      by_cases e : y = x
      · subst e
        rw [if_pos rfl, List.count_cons_self, List.count_nil]
        omega
      · rw [if_neg e, List.count_cons_of_ne (fun h => e (Task.dec.inj h).symm)]
        exact this
    · intro y; rw [List.count_eq_zero_of_not_mem (hnr y)]; exact Nat.zero_le _
    · intro c hc
      rw [List.mem_singleton] at hc
      rw [Task.dec.inj hc]
      exact h.live x hx
    · intro y hy
      apply h.live
      by_cases e : y = x
      · rw [e]; exact hx
      · rw [if_neg e] at hy; exact hy
  obtain ⟨H', e, i2, fr, _⟩ := run_spec _ _ _ i' (Nat.le_refl _)
  exact ⟨H', e, h.of_frame i2 (fun x => (fr x).2), fr⟩

/-- Nothing refers to an empty block. -/
theorem Consistent.no_refs {hp H ext} (h : Consistent hp H ext) {x : Nat} (hx : (H x).kind = .empty) : ∀ y, (H y).kind ≠ .empty → x ∉ (H y).drops := by
  intro y hy hc
  rcases hk : (H y).kind with _ | _ | _ | _
  · exact absurd hk hy
  · exact absurd hx (h.toInv.holds y ⟨hk, not_rel_nil y⟩ x hc)
  · rw [(h.aux y hk).2] at hc; cases hc
  · exact absurd hk (h.clean y)

theorem new_consistent {hp H ext} (h : Consistent hp H ext) {x : Nat} {k : Kind} {refs shapes : List Nat} (hx : (H x).kind = .empty)
    (hk : k = .obj ∨ k = .aux ∧ refs = [] ∧ shapes = [])
    (hr : ∀ c ∈ refs, (H c).kind = .obj) (hs : ∀ c ∈ shapes, (H c).kind = .aux) (hc : ∀ c, (refs ++ shapes).count c ≤ ext c) :
    Consistent (if x ∈ hp then hp else x :: hp) (put H x ⟨k, 1, false, refs, refs ++ shapes⟩)
      (fun y => if y = x then 1 else ext y - (refs ++ shapes).count y) := by
  have hext : ext x = 0 := by
    rcases Nat.eq_zero_or_pos (ext x) with h0 | h0
    · exact h0
    · exact absurd hx (h.live x h0)
  have hke : k ≠ .empty := by rcases hk with rfl | ⟨rfl, _⟩ <;> decide
  have ne : ∀ c, (H c).kind ≠ .empty → c ≠ x := fun c hc e => hc (e ▸ hx)
  have hrefs : ∀ z, references (put H x ⟨k, 1, false, refs, refs ++ shapes⟩) (if x ∈ hp then hp else x :: hp) z = references H hp z + (refs ++ shapes).count z := by
    intro z
    have fx : (if (put H x ⟨k, 1, false, refs, refs ++ shapes⟩ x).kind = .empty then 0 else (put H x ⟨k, 1, false, refs, refs ++ shapes⟩ x).drops.count z) =
        (refs ++ shapes).count z := by
      rw [put_self]; exact if_neg hke
    have fy : ∀ y, y ≠ x → (if (put H x ⟨k, 1, false, refs, refs ++ shapes⟩ y).kind = .empty then 0 else (put H x ⟨k, 1, false, refs, refs ++ shapes⟩ y).drops.count z) =
        if (H y).kind = .empty then 0 else (H y).drops.count z := by
      intro y hy; rw [put_ne _ _ hy]
    by_cases hin : x ∈ hp
    · rw [if_pos hin]
      have := sum_update' h.nodup hin fy fx (if_pos hx)
      exact this
    · rw [if_neg hin]
      unfold references
      rw [List.map_cons, List.sum_cons, fx, Nat.add_comm]
      congr 1
      exact sum_congr fun y hy => fy y (fun e => hin (e ▸ hy))
  have hrx : references H hp x = 0 := by
    rcases Nat.eq_zero_or_pos (references H hp x) with h0 | h0
    · exact h0
    · obtain ⟨y, _, hy⟩ := sum_pos h0
      by_cases he : (H y).kind = .empty
      · rw [if_pos he] at hy; exact absurd hy (by omega)
      · rw [if_neg he] at hy
        exact absurd (List.count_pos_iff.1 hy) (h.no_refs hx y he)
  refine ⟨?_, ?_, ?_, ?_, ?_, ?_, ?_, ?_, ?_⟩
  · by_cases hin : x ∈ hp
    · rw [if_pos hin]; exact h.nodup
    · rw [if_neg hin]; exact List.nodup_cons.2 ⟨hin, h.nodup⟩
  · intro y hy
    by_cases e : y = x
    · subst e
      by_cases hin : y ∈ hp
      · rw [if_pos hin]; exact hin
      · rw [if_neg hin]; exact List.mem_cons_self ..
    · rw [put_ne _ _ e] at hy
      have := h.dom y hy
      by_cases hin : x ∈ hp
      · rw [if_pos hin]; exact this
      · rw [if_neg hin]; exact List.mem_cons_of_mem _ this
  · intro y
    by_cases e : y = x
    · subst e
      rw [put_self]
      rcases hk with rfl | ⟨rfl, _⟩ <;> exact (fun h => nomatch h)
    · rw [put_ne _ _ e]; exact h.clean y
  · intro y hy
    by_cases e : y = x
    · subst e
      rw [put_self]
      refine ⟨shapes, .refl _, ?_⟩
      intro c hc
      rw [put_ne _ _ (ne c (by rw [hs c hc]; decide))]; exact hs c hc
    · rw [put_ne _ _ e] at hy ⊢
      obtain ⟨a, ha, hka⟩ := h.drops y hy
      refine ⟨a, ha, fun c hc => ?_⟩
      rw [put_ne _ _ (ne c (by rw [hka c hc]; decide))]; exact hka c hc
  · intro y hy c hc
    by_cases e : y = x
    · subst e
      rw [put_self] at hc
      rw [put_ne _ _ (ne c (by rw [hr c hc]; decide))]; exact hr c hc
    · rw [put_ne _ _ e] at hy hc
      have := h.refs y hy c hc
      rw [put_ne _ _ (ne c (by rw [this]; decide))]; exact this
  · intro y hy
    by_cases e : y = x
    · subst e
      rw [put_self] at hy ⊢
      have hy : k = .aux := hy
      rcases hk with rfl | ⟨rfl, rfl, rfl⟩
      · cases hy
      · exact ⟨rfl, rfl⟩
    · rw [put_ne _ _ e] at hy ⊢; exact h.aux y hy
  · intro y hy
    rw [hrefs]
    by_cases e : y = x
    · subst e
      rw [put_self, if_pos rfl, hrx]
      have := hc y
      show (1 : Int) = _
      omega
    · rw [put_ne _ _ e] at hy ⊢
      rw [if_neg e, h.count y hy]
      have := hc y
      omega
  · intro y hy
    by_cases e : y = x
    · subst e; rw [put_self]; exact (by decide : (0 : Int) < 1)
    · rw [put_ne _ _ e] at hy ⊢; exact h.pos y hy
  · intro y hy
    by_cases e : y = x
    · subst e; rw [put_self]; exact hke
    · rw [if_neg e] at hy
      rw [put_ne _ _ e]; exact h.live y (by omega)

theorem set_consistent {hp H ext} (h : Consistent hp H ext) {y i c old : Nat} {ds : List Nat} (hy : (H y).kind = .obj) (hc : (H c).kind = .obj)
    (he : 0 < ext c) (hi : (H y).refs[i]? = some old) (hd : ds.Perm (c :: (H y).drops.erase old)) :
    Consistent hp (put H y { H y with refs := (H y).refs.set i c, drops := ds })
      (fun z => ext z + (if z = old then 1 else 0) - (if z = c then 1 else 0)) := by
  have hye : (H y).kind ≠ .empty := by rw [hy]; decide
  have kd : ∀ z, (put H y { H y with refs := (H y).refs.set i c, drops := ds } z).kind = (H z).kind := by
    intro z
    by_cases e : z = y
    · subst e; rw [put_self]
    · rw [put_ne _ _ e]
  obtain ⟨hil, hio⟩ := List.getElem?_eq_some_iff.1 hi
  have hor : old ∈ (H y).refs := List.mem_of_getElem? hi
  obtain ⟨a, ha, hka⟩ := h.drops y hy
  have hod : old ∈ (H y).drops := ha.mem_iff.2 (List.mem_append_left _ hor)
  have hsplit : (H y).refs = (H y).refs.take i ++ old :: (H y).refs.drop (i + 1) := by
    rw [← hio, ← List.drop_eq_getElem_cons hil, List.take_append_drop]
  have hset : (H y).refs.set i c = (H y).refs.take i ++ c :: (H y).refs.drop (i + 1) := by
    rw [List.set_eq_take_append_cons_drop, if_pos hil]
  have hcnt : ∀ z, ds.count z + (if z = old then 1 else 0) = (H y).drops.count z + (if z = c then 1 else 0) := by
    intro z
    rw [hd.count_eq, List.count_cons, List.count_erase]
    have hp : z = old → 0 < (H y).drops.count z := fun e => List.count_pos_iff.2 (e ▸ hod)
    by_cases e1 : z = old
    · subst e1
      have := hp rfl
      by_cases e2 : z = c
      · subst e2; simp; omega
      · simp [e2, Ne.symm e2]; omega
    · by_cases e2 : z = c
      · subst e2; simp [e1, Ne.symm e1]
      · simp [e1, e2, Ne.symm e1, Ne.symm e2]
  have hrefs : ∀ z, references (put H y { H y with refs := (H y).refs.set i c, drops := ds }) hp z + (if z = old then 1 else 0) =
      references H hp z + (if z = c then 1 else 0) := by
    intro z
    have fy : (if (put H y { H y with refs := (H y).refs.set i c, drops := ds } y).kind = .empty then 0
        else (put H y { H y with refs := (H y).refs.set i c, drops := ds } y).drops.count z) = ds.count z := by
      rw [put_self]; exact if_neg hye
    have fz : ∀ w, w ≠ y → (if (put H y { H y with refs := (H y).refs.set i c, drops := ds } w).kind = .empty then 0
        else (put H y { H y with refs := (H y).refs.set i c, drops := ds } w).drops.count z) = if (H w).kind = .empty then 0 else (H w).drops.count z := by
      intro w hw; rw [put_ne _ _ hw]
    have := sum_update' h.nodup (h.dom y hye) fz fy (if_neg hye)
    have h2 := hcnt z
    unfold references
    omega
  refine ⟨h.nodup, ?_, ?_, ?_, ?_, ?_, ?_, ?_, ?_⟩
  · intro z hz; rw [kd] at hz; exact h.dom z hz
  · intro z; rw [kd]; exact h.clean z
  · intro z hz
    by_cases e : z = y
    · subst e
      rw [put_self]
      refine ⟨a, ?_, fun c hc => by rw [kd]; exact hka c hc⟩
      show ds.Perm ((H z).refs.set i c ++ a)
      refine hd.trans ?_
      have h1 : ((H z).drops.erase old).Perm ((H z).refs.take i ++ ((H z).refs.drop (i + 1) ++ a)) := by
        have h2 : (H z).drops.Perm (old :: ((H z).refs.take i ++ ((H z).refs.drop (i + 1) ++ a))) := by
          refine ha.trans ?_
          rw (occs := .pos [1]) [hsplit]
          rw [List.append_assoc, List.cons_append]
          exact List.perm_middle
        have h3 := h2.erase old
        rw [List.erase_cons_head] at h3
        exact h3
      rw [hset, List.append_assoc, List.cons_append]
      exact (List.Perm.cons c h1).trans List.perm_middle.symm
    · rw [kd] at hz
      rw [put_ne _ _ e]
      obtain ⟨b, hb, hkb⟩ := h.drops z hz
      exact ⟨b, hb, fun c hc => by rw [kd]; exact hkb c hc⟩
  · intro z hz d hd
    rw [kd] at hz ⊢
    by_cases e : z = y
    · subst e
      rw [put_self] at hd
      rcases List.mem_or_eq_of_mem_set hd with hd | hd
      · exact h.refs z hz d hd
      · rw [hd]; exact hc
    · rw [put_ne _ _ e] at hd
      exact h.refs z hz d hd
  · intro z hz
    rw [kd] at hz
    have e : z ≠ y := fun e => by rw [e, hy] at hz; cases hz
    rw [put_ne _ _ e]; exact h.aux z hz
  · intro z hz
    rw [kd] at hz
    have h1 := h.count z hz
    have h2 := hrefs z
    have h3 : (put H y { H y with refs := (H y).refs.set i c, drops := ds } z).refc = (H z).refc := by
      by_cases e : z = y
      · subst e; rw [put_self]
      · rw [put_ne _ _ e]
    have h4 : z = c → 0 < ext z := fun e => e ▸ he
    rw [h3, h1]
    by_cases e1 : z = c
    · have := h4 e1
      rw [if_pos e1] at h2 ⊢
      omega
    · rw [if_neg e1] at h2 ⊢
      omega
  · intro z hz
    rw [kd] at hz
    have h3 : (put H y { H y with refs := (H y).refs.set i c, drops := ds } z).refc = (H z).refc := by
      by_cases e : z = y
      · subst e; rw [put_self]
      · rw [put_ne _ _ e]
    rw [h3]; exact h.pos z hz
  · intro z hz
    rw [kd]
    by_cases e : z = old
    · rw [e, h.refs y hy old hor]; decide
    · rw [if_neg e] at hz
      exact h.live z (by omega)

end Verif.Gc
