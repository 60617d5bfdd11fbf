import Verif.Gc.Lemmas
/-! # Freeing objects -/
namespace Verif.Gc

theorem sum_update' {f g : Nat → Nat} {x a b : Nat} {l : List Nat} (hn : l.Nodup) (hx : x ∈ l) (h : ∀ y, y ≠ x → f y = g y)
    (ha : f x = a) (hb : g x = b) : (l.map f).sum + b = (l.map g).sum + a := by
  rw [← ha, ← hb]
  exact sum_update hn hx h

/-- `y` holds its references: it is an object that is not being released. -/
def Holds (H : Mem) (ts : List Task) (y : Nat) : Prop := (H y).kind = .obj ∧ Task.release y ∉ ts

instance (H : Mem) (ts : List Task) (y : Nat) : Decidable (Holds H ts y) := inferInstanceAs (Decidable (_ ∧ _))

/-- The number of references held to `x`. -/
def held (H : Mem) (hp : List Nat) (ts : List Task) (x : Nat) : Nat :=
  (hp.map fun y => if Holds H ts y then (H y).drops.count x else 0).sum

/-- The heap while the tasks `ts` are left to do. -/
structure Inv (hp : List Nat) (H : Mem) (ts : List Task) (ext : Nat → Nat) : Prop where
  nodup : hp.Nodup
  dom : ∀ x, (H x).kind ≠ .empty → x ∈ hp
  count : ∀ x, (H x).kind ≠ .empty → (H x).refc = (ext x + held H hp ts x + ts.count (.dec x) : Nat)
  pos : ∀ x, (H x).kind ≠ .empty → Task.release x ∉ ts → 0 < (H x).refc
  zero : ∀ x, Task.release x ∈ ts → (H x).refc = 0
  once : ∀ x, ts.count (.release x) ≤ 1
  there : ∀ x, Task.release x ∈ ts → (H x).kind ≠ .empty
  holds : ∀ y, Holds H ts y → ∀ c ∈ (H y).drops, (H c).kind ≠ .empty
  tasks : ∀ c, Task.dec c ∈ ts → (H c).kind ≠ .empty
  live : ∀ x, 0 < ext x → (H x).kind ≠ .empty

theorem Inv.held_pos {hp H ts ext} (h : Inv hp H ts ext) {x y : Nat} (hy : Holds H ts y) (hx : x ∈ (H y).drops) : 0 < held H hp ts x := by
  have hd := h.dom y (by rw [hy.1]; decide)
  have := sum_ge (f := fun y => if Holds H ts y then (H y).drops.count x else 0) hd
  simp only [if_pos hy] at this
  have := List.count_pos_iff.2 hx
  unfold held
  omega

/-- Only counts have changed, and blocks have become empty. -/
def Frame (H H' : Mem) : Prop := ∀ x, (H' x).mark = (H x).mark ∧ (H' x).refs = (H x).refs ∧ (H' x).drops = (H x).drops ∧
  ((H' x).kind = (H x).kind ∨ (H' x).kind = .empty)

theorem Frame.refl (H : Mem) : Frame H H := fun _ => ⟨rfl, rfl, rfl, .inl rfl⟩

theorem Frame.trans {H H' H'' : Mem} (a : Frame H H') (b : Frame H' H'') : Frame H H'' := fun x =>
  ⟨(b x).1.trans (a x).1, (b x).2.1.trans (a x).2.1, (b x).2.2.1.trans (a x).2.2.1, by
    rcases (b x).2.2.2 with h | h
    · rw [h]; exact (a x).2.2.2
    · exact .inr h⟩

theorem Frame.put {H : Mem} {x : Nat} {o : Obj} (h : o.mark = (H x).mark ∧ o.refs = (H x).refs ∧ o.drops = (H x).drops ∧
    (o.kind = (H x).kind ∨ o.kind = .empty)) : Frame H (Gc.put H x o) := by
  intro y
  by_cases e : y = x
  · subst e; rw [put_self]; exact h
  · rw [put_ne _ _ e]; exact ⟨rfl, rfl, rfl, .inl rfl⟩

/-- Every object in `K` is referenced from outside or from another one in `K`. -/
def Kept (H : Mem) (ts : List Task) (ext : Nat → Nat) (K : Nat → Prop) : Prop :=
  ∀ x, K x → Holds H ts x ∧ (0 < ext x ∨ ∃ y, K y ∧ x ∈ (H y).drops)

theorem Inv.kept_pos {hp H ts ext K} (h : Inv hp H ts ext) (hk : Kept H ts ext K) {x : Nat} (hx : K x) : 0 < ext x + held H hp ts x := by
  rcases (hk x hx).2 with h1 | ⟨y, hy, hd⟩
  · omega
  · have := h.held_pos (hk y hy).1 hd
    omega

/-- A memory with one count changed. -/
theorem put_refc_kind (H : Mem) (x : Nat) (r : Int) (y : Nat) : (put H x { H x with refc := r } y).kind = (H y).kind := by
  by_cases e : y = x
  · subst e; rw [put_self]
  · rw [put_ne _ _ e]

theorem put_refc_drops (H : Mem) (x : Nat) (r : Int) (y : Nat) : (put H x { H x with refc := r } y).drops = (H y).drops := by
  by_cases e : y = x
  · subst e; rw [put_self]
  · rw [put_ne _ _ e]

/-- Release of a block nothing refers to. -/
theorem Inv.release {hp H ts ext} {x : Nat} (h : Inv hp H ts ext) (hh : ¬ Holds H ts x) (h0 : ext x = 0) (h1 : held H hp ts x = 0)
    (h2 : ts.count (.dec x) = 0) {ts' : List Task} (ht : ∀ y, y ≠ x → ts'.count (.release y) = ts.count (.release y))
    (htx : Task.release x ∉ ts') (hd : ∀ y, ts'.count (.dec y) = ts.count (.dec y)) :
    Inv hp (put H x { H x with kind := .empty }) ts' ext := by
  have kx : (put H x { H x with kind := .empty } x).kind = .empty := by rw [put_self]
  have ne : ∀ y, (put H x { H x with kind := .empty } y).kind ≠ .empty → y ≠ x := fun y hy e => hy (e ▸ kx)
  have hrel : ∀ y, y ≠ x → (Task.release y ∈ ts' ↔ Task.release y ∈ ts) := by
    intro y hy
    rw [← List.count_pos_iff, ← List.count_pos_iff, ht y hy]
  have hhold : ∀ y, Holds (put H x { H x with kind := .empty }) ts' y ↔ Holds H ts y := by
    intro y
    by_cases e : y = x
    · subst e
      refine ⟨fun h => ?_, fun h => absurd h hh⟩
      have := h.1
      rw [kx] at this
      cases this
    · unfold Holds
      rw [put_ne _ _ e, hrel y e]
  have hheld : ∀ z, held (put H x { H x with kind := .empty }) hp ts' z = held H hp ts z := by
    intro z
    refine sum_congr fun y _ => ?_
    have : (put H x { H x with kind := .empty } y).drops = (H y).drops := by
      by_cases e : y = x
      · subst e; rw [put_self]
      · rw [put_ne _ _ e]
    by_cases hy : Holds H ts y
    · rw [if_pos hy, if_pos ((hhold y).2 hy), this]
    · rw [if_neg hy, if_neg (fun h => hy ((hhold y).1 h))]
  have mem' : ∀ y, (Task.dec y ∈ ts' ↔ Task.dec y ∈ ts) := by
    intro y
    rw [← List.count_pos_iff, ← List.count_pos_iff, hd y]
  refine ⟨h.nodup, ?_, ?_, ?_, ?_, ?_, ?_, ?_, ?_, ?_⟩
  · intro y hy
    have e := ne y hy
    rw [put_ne _ _ e] at hy
    exact h.dom y hy
  · intro y hy
    have e := ne y hy
    rw [hheld, hd]
    rw [put_ne _ _ e] at hy ⊢
    exact h.count y hy
  · intro y hy hr
    have e := ne y hy
    rw [put_ne _ _ e] at hy ⊢
    exact h.pos y hy (fun h => hr ((hrel y e).2 h))
  · intro y hr
    have e : y ≠ x := fun e => htx (e ▸ hr)
    rw [put_ne _ _ e]
    exact h.zero y ((hrel y e).1 hr)
  · intro y
    by_cases e : y = x
    · subst e; rw [List.count_eq_zero_of_not_mem htx]; exact Nat.zero_le _
    · rw [ht y e]; exact h.once y
  · intro y hr
    have e : y ≠ x := fun e => htx (e ▸ hr)
    rw [put_ne _ _ e]
    exact h.there y ((hrel y e).1 hr)
  · intro y hy c hc
    have hy' := (hhold y).1 hy
    have e : y ≠ x := fun e => hh (e ▸ hy')
    rw [put_ne _ _ e] at hc
    have ec : c ≠ x := by
      intro e
      have := h.held_pos hy' hc
      rw [e, h1] at this
      exact absurd this (by omega)
    rw [put_ne _ _ ec]
    exact h.holds y hy' c hc
  · intro c hc
    have hc' := (mem' c).1 hc
    have ec : c ≠ x := by
      intro e
      have := List.count_pos_iff.2 hc'
      rw [e, h2] at this
      exact absurd this (by omega)
    rw [put_ne _ _ ec]
    exact h.tasks c hc'
  · intro y hy
    have e : y ≠ x := fun e => by rw [e, h0] at hy; exact absurd hy (by omega)
    rw [put_ne _ _ e]
    exact h.live y hy

theorem count_decs (ds : List Nat) (x : Nat) : (ds.map Task.dec).count (.dec x) = ds.count x := by
  induction ds with
  | nil => rfl
  | cons d ds ih =>
    rw [List.map_cons]
    by_cases h : d = x
    · subst h; rw [List.count_cons_self, List.count_cons_self, ih]
    · rw [List.count_cons_of_ne h, List.count_cons_of_ne (fun e => h (Task.dec.inj e)), ih]

theorem count_decs_release (ds : List Nat) (x : Nat) : (ds.map Task.dec).count (.release x) = 0 := by
  apply List.count_eq_zero_of_not_mem
  intro h
  obtain ⟨_, _, e⟩ := List.mem_map.1 h
  cases e

theorem mem_decs_release (ds : List Nat) (x : Nat) : Task.release x ∉ ds.map Task.dec := by
  intro h
  obtain ⟨_, _, e⟩ := List.mem_map.1 h
  cases e

/-- A decrement to a count that is not zero. -/
theorem Inv.dec_keep {hp H ts ext} {x : Nat} (h : Inv hp H (.dec x :: ts) ext) (hne : (H x).refc - 1 ≠ 0) :
    Inv hp (put H x { H x with refc := (H x).refc - 1 }) ts ext := by
  have hx : (H x).kind ≠ .empty := h.tasks x (List.mem_cons_self ..)
  have hcx := h.count x hx
  rw [List.count_cons_self] at hcx
  have hrel : ∀ y, (Task.release y ∈ Task.dec x :: ts ↔ Task.release y ∈ ts) := by
    intro y
    rw [List.mem_cons]
    exact ⟨fun h => h.resolve_left (fun e => by cases e), .inr⟩
  have hhold : ∀ y, Holds (put H x { H x with refc := (H x).refc - 1 }) ts y ↔ Holds H (.dec x :: ts) y := by
    intro y
    unfold Holds
    rw [put_refc_kind, hrel]
  have hheld : ∀ z, held (put H x { H x with refc := (H x).refc - 1 }) hp ts z = held H hp (.dec x :: ts) z := by
    intro z
    refine sum_congr fun y _ => ?_
    rw [put_refc_drops]
    by_cases hy : Holds H (.dec x :: ts) y
    · rw [if_pos hy, if_pos ((hhold y).2 hy)]
    · rw [if_neg hy, if_neg (fun h => hy ((hhold y).1 h))]
  refine ⟨h.nodup, ?_, ?_, ?_, ?_, ?_, ?_, ?_, ?_, ?_⟩
  · intro y hy
    rw [put_refc_kind] at hy
    exact h.dom y hy
  · intro y hy
    rw [put_refc_kind] at hy
    have := h.count y hy
    rw [hheld]
    by_cases e : y = x
    · subst e
      rw [put_self]
      rw [List.count_cons_self] at this
      show (H y).refc - 1 = _
      omega
    · rw [put_ne _ _ e]
      rw [List.count_cons_of_ne (fun h => e (Task.dec.inj h).symm)] at this
      exact this
  · intro y hy hr
    rw [put_refc_kind] at hy
    by_cases e : y = x
    · subst e
      rw [put_self]
      show 0 < (H y).refc - 1
      omega
    · rw [put_ne _ _ e]
      exact h.pos y hy (fun h => hr ((hrel y).1 h))
  · intro y hr
    have h0 := h.zero y ((hrel y).2 hr)
    have e : y ≠ x := fun e => by rw [e] at h0; omega
    rw [put_ne _ _ e]
    exact h0
  · intro y
    have := h.once y
    rw [List.count_cons_of_ne (fun h => by cases h)] at this
    exact this
  · intro y hr
    rw [put_refc_kind]
    exact h.there y ((hrel y).2 hr)
  · intro y hy c hc
    rw [put_refc_drops] at hc
    rw [put_refc_kind]
    exact h.holds y ((hhold y).1 hy) c hc
  · intro c hc
    rw [put_refc_kind]
    exact h.tasks c (List.mem_cons_of_mem _ hc)
  · intro y hy
    rw [put_refc_kind]
    exact h.live y hy

/-- A decrement to zero: the references of the object (`ds`) are to be dropped, and then it is to be released. -/
theorem Inv.dec_drop {hp H ts ext} {x : Nat} {ds : List Nat} (h : Inv hp H (.dec x :: ts) ext) (hne : (H x).refc - 1 = 0)
    (hds : ds = if (H x).kind = .obj then (H x).drops else []) :
    Inv hp (put H x { H x with refc := (H x).refc - 1 }) (ds.map .dec ++ .release x :: ts) ext := by
  have hx : (H x).kind ≠ .empty := h.tasks x (List.mem_cons_self ..)
  have hxp := h.dom x hx
  have hcx := h.count x hx
  rw [List.count_cons_self] at hcx
  have hnr : Task.release x ∉ ts := fun hr => by
    have := h.zero x (List.mem_cons_of_mem _ hr)
    omega
  have hrel : ∀ y, y ≠ x → (Task.release y ∈ ds.map Task.dec ++ .release x :: ts ↔ Task.release y ∈ Task.dec x :: ts) := by
    intro y hy
    rw [List.mem_append, List.mem_cons, List.mem_cons]
    constructor
    · rintro (h | h | h)
      · exact absurd h (mem_decs_release ds y)
      · exact absurd (Task.release.inj h) hy
      · exact .inr h
    · rintro (h | h)
      · cases h
      · exact .inr (.inr h)
  have hhold : ∀ y, y ≠ x → (Holds (put H x { H x with refc := (H x).refc - 1 }) (ds.map Task.dec ++ .release x :: ts) y ↔ Holds H (.dec x :: ts) y) := by
    intro y hy
    unfold Holds
    rw [put_refc_kind, hrel y hy]
  have hnx : ¬ Holds (put H x { H x with refc := (H x).refc - 1 }) (ds.map Task.dec ++ .release x :: ts) x := fun h =>
    h.2 (List.mem_append_right _ (List.mem_cons_self ..))
  have hheld : ∀ z, held (put H x { H x with refc := (H x).refc - 1 }) hp (ds.map Task.dec ++ .release x :: ts) z + ds.count z = held H hp (.dec x :: ts) z := by
    intro z
    have e2 : (if Holds H (.dec x :: ts) x then (H x).drops.count z else 0) = ds.count z := by
      by_cases hk : (H x).kind = .obj
      · rw [if_pos ⟨hk, by
          rw [List.mem_cons]; rintro (h | h)
          · cases h
          · exact hnr h⟩, hds, if_pos hk]
      · rw [if_neg (fun h => hk h.1), hds, if_neg hk]; rfl
    have hoth : ∀ y, y ≠ x →
        (if Holds (put H x { H x with refc := (H x).refc - 1 }) (ds.map Task.dec ++ .release x :: ts) y then
          (put H x { H x with refc := (H x).refc - 1 } y).drops.count z else 0) =
        if Holds H (.dec x :: ts) y then (H y).drops.count z else 0 := by
        intro y hy
        rw [put_refc_drops]
        by_cases hh : Holds H (.dec x :: ts) y
        · rw [if_pos hh, if_pos ((hhold y hy).2 hh)]
        · rw [if_neg hh, if_neg (fun h => hh ((hhold y hy).1 h))]
    exact sum_update' h.nodup hxp hoth (if_neg hnx) e2
  have hcnt : ∀ z, (ds.map Task.dec ++ .release x :: ts).count (.dec z) = ds.count z + ts.count (.dec z) := by
    intro z
    rw [List.count_append, count_decs, List.count_cons_of_ne (fun h => by cases h)]
  refine ⟨h.nodup, ?_, ?_, ?_, ?_, ?_, ?_, ?_, ?_, ?_⟩
  · intro y hy
    rw [put_refc_kind] at hy
    exact h.dom y hy
  · intro y hy
    rw [put_refc_kind] at hy
    have hc := h.count y hy
    have hh := hheld y
    rw [hcnt]
    by_cases e : y = x
    · subst e
      rw [put_self]
      rw [List.count_cons_self] at hc
      show (H y).refc - 1 = _
      omega
    · rw [put_ne _ _ e]
      rw [List.count_cons_of_ne (fun h => e (Task.dec.inj h).symm)] at hc
      omega
  · intro y hy hr
    rw [put_refc_kind] at hy
    have e : y ≠ x := fun e => hr (by rw [e]; exact List.mem_append_right _ (List.mem_cons_self ..))
    rw [put_ne _ _ e]
    exact h.pos y hy (fun h => hr ((hrel y e).2 h))
  · intro y hr
    by_cases e : y = x
    · subst e; rw [put_self]; exact hne
    · rw [put_ne _ _ e]
      exact h.zero y ((hrel y e).1 hr)
  · intro y
    rw [List.count_append, count_decs_release]
    by_cases e : y = x
    · subst e
      rw [List.count_cons_self, List.count_eq_zero_of_not_mem hnr]
      exact Nat.le_refl _
    · rw [List.count_cons_of_ne (fun h => e (Task.release.inj h).symm)]
      have := h.once y
      rw [List.count_cons_of_ne (fun h => by cases h)] at this
      omega
  · intro y hr
    rw [put_refc_kind]
    by_cases e : y = x
    · rw [e]; exact hx
    · exact h.there y ((hrel y e).1 hr)
  · intro y hy c hc
    have e : y ≠ x := fun e => hnx (e ▸ hy)
    rw [put_refc_drops] at hc
    rw [put_refc_kind]
    exact h.holds y ((hhold y e).1 hy) c hc
  · intro c hc
    rw [put_refc_kind]
    rcases List.mem_append.1 hc with hc | hc
    · obtain ⟨d, hd, e⟩ := List.mem_map.1 hc
      cases e
      by_cases hk : (H x).kind = .obj
      · rw [hds, if_pos hk] at hd
        refine h.holds x ⟨hk, ?_⟩ c hd
        rw [List.mem_cons]; rintro (h | h)
        · cases h
        · exact hnr h
      · rw [hds, if_neg hk] at hd; cases hd
    · rcases List.mem_cons.1 hc with hc | hc
      · cases hc
      · exact h.tasks c (List.mem_cons_of_mem _ hc)
  · intro y hy
    rw [put_refc_kind]
    exact h.live y hy

/-- The measure of `run`. -/
def weight (hp : List Nat) (H : Mem) : Nat := (hp.map fun y => if 0 < (H y).refc then (H y).drops.length + 2 else 0).sum

theorem run_spec {hp : List Nat} {ext : Nat → Nat} : ∀ (f : Nat) (ts : List Task) (H : Mem), Inv hp H ts ext → ts.length + weight hp H ≤ f →
    ∃ H', run f ts H = some H' ∧ Inv hp H' [] ext ∧ Frame H H' ∧
      ∀ K, Kept H ts ext K → ∀ x, K x → (H' x).kind = .obj := by
  intro f
  induction f with
  | zero =>
    intro ts H h hf
    have : ts = [] := List.length_eq_zero_iff.1 (by omega)
    subst this
    exact ⟨H, rfl, h, .refl H, fun K hk x hx => (hk x hx).1.1⟩
  | succ f ih =>
    intro ts H h hf
    match ts, h, hf with
    | [], h, _ => exact ⟨H, rfl, h, .refl H, fun K hk x hx => (hk x hx).1.1⟩
    | .release x :: ts, h, hf =>
      have hx := h.there x (List.mem_cons_self ..)
      rw [run, if_neg hx]
      have h0 := h.zero x (List.mem_cons_self ..)
      have hc := h.count x hx
      have hnh : ¬ Holds H (.release x :: ts) x := fun h => h.2 (List.mem_cons_self ..)
      have hnr : Task.release x ∉ ts := by
        intro hm
        have := h.once x
        rw [List.count_cons_self] at this
        have := List.count_pos_iff.2 hm
        omega
      have h' := h.release hnh (by omega) (by omega) (by omega) (ts' := ts)
        (fun y hy => by rw [List.count_cons_of_ne (fun h => hy (Task.release.inj h).symm)]) hnr
        (fun y => by rw [List.count_cons_of_ne (fun h => by cases h)])
      have hw : weight hp (put H x { H x with kind := .empty }) = weight hp H := by
        refine sum_congr fun y _ => ?_
        by_cases e : y = x
        · subst e; rw [put_self]
        · rw [put_ne _ _ e]
      obtain ⟨H', e, i, fr, k⟩ := ih ts _ h' (by rw [hw]; rw [List.length_cons] at hf; omega)
      refine ⟨H', e, i, Frame.trans (Frame.put (o := { H x with kind := .empty }) ⟨rfl, rfl, rfl, .inr rfl⟩) fr, ?_⟩
      intro K hk
      apply k
      have hKx : ¬ K x := fun hK => hnh (hk x hK).1
      have ne : ∀ y, K y → y ≠ x := fun y hy e => hKx (e ▸ hy)
      intro y hy
      obtain ⟨hh, hs⟩ := hk y hy
      refine ⟨⟨?_, fun hm => hh.2 (List.mem_cons_of_mem _ hm)⟩, ?_⟩
      · rw [put_ne _ _ (ne y hy)]; exact hh.1
      · rcases hs with hs | ⟨z, hz, hd⟩
        · exact .inl hs
        · exact .inr ⟨z, hz, by rw [put_ne _ _ (ne z hz)]; exact hd⟩
    | .dec x :: ts, h, hf =>
      have hx := h.tasks x (List.mem_cons_self ..)
      have hc := h.count x hx
      rw [List.count_cons_self] at hc
      have hxp := h.dom x hx
      rw [run, if_neg (by rintro (h | h); exact hx h; omega)]
      dsimp only
      have hrel : ∀ y, (Task.release y ∈ Task.dec x :: ts ↔ Task.release y ∈ ts) := by
        intro y
        rw [List.mem_cons]
        exact ⟨fun h => h.resolve_left (fun e => by cases e), .inr⟩
      have hsum : weight hp (put H x { H x with refc := (H x).refc - 1 }) + ((H x).drops.length + 2) =
          weight hp H + if 0 < (H x).refc - 1 then (H x).drops.length + 2 else 0 :=
        sum_update' h.nodup hxp (by intro y hy; dsimp only; rw [put_ne _ _ hy]) (by rw [put_self]) (if_pos (by omega))
      by_cases hz : (H x).refc - 1 ≠ 0
      · rw [if_pos hz]
        rw [if_pos (show 0 < (H x).refc - 1 by omega)] at hsum
        obtain ⟨H', e, i, fr, k⟩ := ih ts _ (h.dec_keep hz) (by rw [List.length_cons] at hf; omega)
        refine ⟨H', e, i, Frame.trans (Frame.put (o := { H x with refc := (H x).refc - 1 }) ⟨rfl, rfl, rfl, .inl rfl⟩) fr, ?_⟩
        intro K hk
        apply k
        intro y hy
        obtain ⟨hh, hs⟩ := hk y hy
        refine ⟨⟨by rw [put_refc_kind]; exact hh.1, fun hm => hh.2 (List.mem_cons_of_mem _ hm)⟩, ?_⟩
        rcases hs with hs | ⟨z, hz, hd⟩
        · exact .inl hs
        · exact .inr ⟨z, hz, by rw [put_refc_drops]; exact hd⟩
      · rw [if_neg hz]
        have hz : (H x).refc - 1 = 0 := by omega
        rw [if_neg (show ¬ 0 < (H x).refc - 1 by omega)] at hsum
        have keep : ∀ K, Kept H (.dec x :: ts) ext K → ∀ ds : List Nat,
            Kept (put H x { H x with refc := (H x).refc - 1 }) (ds.map Task.dec ++ .release x :: ts) ext K := by
          intro K hk ds y hy
          obtain ⟨hh, hs⟩ := hk y hy
          refine ⟨⟨by rw [put_refc_kind]; exact hh.1, ?_⟩, ?_⟩
          · intro hm
            rcases List.mem_append.1 hm with hm | hm
            · exact mem_decs_release _ _ hm
            · rcases List.mem_cons.1 hm with hm | hm
              · have := Task.release.inj hm
                subst this
                have := h.kept_pos hk hy
                omega
              · exact hh.2 (List.mem_cons_of_mem _ hm)
          · rcases hs with hs | ⟨z, hz, hd⟩
            · exact .inl hs
            · exact .inr ⟨z, hz, by rw [put_refc_drops]; exact hd⟩
        by_cases ho : (H x).kind = .obj
        · rw [if_pos ho]
          obtain ⟨H', e, i, fr, k⟩ := ih _ _ (h.dec_drop hz (ds := (H x).drops) (by rw [if_pos ho])) (by
            rw [List.length_append, List.length_map, List.length_cons]; rw [List.length_cons] at hf; omega)
          exact ⟨H', e, i, Frame.trans (Frame.put (o := { H x with refc := (H x).refc - 1 }) ⟨rfl, rfl, rfl, .inl rfl⟩) fr, fun K hk => k K (keep K hk _)⟩
        · rw [if_neg ho]
          obtain ⟨H', e, i, fr, k⟩ := ih _ _ (h.dec_drop hz (ds := []) (by rw [if_neg ho])) (by
            rw [List.map_nil, List.nil_append, List.length_cons]; rw [List.length_cons] at hf; omega)
          exact ⟨H', e, i, Frame.trans (Frame.put (o := { H x with refc := (H x).refc - 1 }) ⟨rfl, rfl, rfl, .inl rfl⟩) fr, fun K hk => k K (keep K hk _)⟩

end Verif.Gc
