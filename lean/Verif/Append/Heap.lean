import Verif.Append.Buffers
/-!
# Joining and appending: the heap
-/
namespace Verif.Append
open Verif.Squeeze

def sliceOf (id : Nat) (o : Obj) : Bool :=
  match o.body with
  | .slice _ p _ => p == id
  | .own _ _ => false

/-- Number of slices of an array. -/
def sl (h : List Obj) (id : Nat) : Nat := h.countP (sliceOf id)

def refcAt (h : List Obj) (id : Nat) : Nat :=
  match h[id]? with
  | some o => o.refc
  | none => 0

def Good (h : List Obj) (o : Obj) : Prop :=
  match o.body with
  | .own f buf => len buf = cap f buf.ty o.bytes ∧ o.ia ≤ len buf
  | .slice _ p off => ∃ q pf buf, h[p]? = some q ∧ q.body = .own pf buf ∧ off + o.ia ≤ q.ia

structure Inv (P : Arr → Prop) (h : List Obj) (f : Nat → Nat) : Prop where
  good : ∀ {id : Nat} {o}, h[id]? = some o → Good h o
  refs : ∀ id, f id + sl h id ≤ refcAt h id
  all : ∀ {id x}, arr h id = some x → P x

theorem Inv.mono {P : Arr → Prop} {h : List Obj} {f f' : Nat → Nat} (hi : Inv P h f) (hf : ∀ k, f' k ≤ f k) : Inv P h f' :=
  ⟨hi.good, fun id => Nat.le_trans (Nat.add_le_add_right (hf id) _) (hi.refs id), hi.all⟩

theorem Inv.exists {P : Arr → Prop} {h : List Obj} {f : Nat → Nat} (hi : Inv P h f) {id : Nat} (hf : 0 < f id) : ∃ o, h[id]? = some o ∧ f id ≤ o.refc := by
  have := hi.refs id
  unfold refcAt at this
  cases e : h[id]? with
  | none => rw [e] at this; dsimp only at this; omega
  | some o => rw [e] at this; dsimp only at this; exact ⟨o, rfl, by omega⟩

/-! ## Counting slices -/

theorem sl_set {h : List Obj} {id : Nat} {o o' : Obj} (e : h[id]? = some o) (k : Nat) :
    sl (h.set id o') k + (if sliceOf k o = true then 1 else 0) = sl h k + (if sliceOf k o' = true then 1 else 0) := by
  obtain ⟨hl, rfl⟩ := List.getElem?_eq_some_iff.1 e
  unfold sl
  rw [List.countP_set hl]
  have : (if sliceOf k h[id] = true then 1 else 0) ≤ h.countP (sliceOf k) := by
    by_cases hp : sliceOf k h[id] = true
    · rw [if_pos hp]; exact List.countP_pos_iff.2 ⟨_, List.getElem_mem hl, hp⟩
    · rw [if_neg hp]; exact Nat.zero_le _
  omega

theorem sl_set_body {h : List Obj} {id : Nat} {o o' : Obj} (e : h[id]? = some o) (hb : o'.body = o.body) (k : Nat) :
    sl (h.set id o') k = sl h k := by
  have := sl_set (o' := o') e k
  unfold sliceOf at this
  rw [hb] at this
  omega

theorem sl_set_own {h : List Obj} {id : Nat} {o o' : Obj} (e : h[id]? = some o) {f : Bool} {buf : Data} (hb : o'.body = .own f buf) (k : Nat) :
    sl (h.set id o') k + (if sliceOf k o = true then 1 else 0) = sl h k := by
  have := sl_set (o' := o') e k
  rw [show sliceOf k o' = false by unfold sliceOf; rw [hb]] at this
  rw [this]
  exact Nat.add_zero _

theorem sl_append (h : List Obj) (o : Obj) (k : Nat) : sl (h ++ [o]) k = sl h k + (if sliceOf k o = true then 1 else 0) := by
  unfold sl
  rw [List.countP_append, List.countP_singleton]

theorem no_slice {h : List Obj} {id : Nat} (e : sl h id = 0) {k : Nat} {o : Obj} (hk : h[k]? = some o) : sliceOf id o = false := by
  have := List.countP_eq_zero.1 e o (List.mem_of_getElem? hk)
  simpa using this

theorem refcAt_eq {h : List Obj} {id : Nat} {o : Obj} (e : h[id]? = some o) : refcAt h id = o.refc := by
  unfold refcAt; rw [e]

theorem refcAt_set_ne {h : List Obj} {id k : Nat} {o' : Obj} (hk : k ≠ id) : refcAt (h.set id o') k = refcAt h k := by
  unfold refcAt; rw [List.getElem?_set_ne (Ne.symm hk)]

theorem get_set {h : List Obj} {id : Nat} {o : Obj} (e : h[id]? = some o) (o' : Obj) : (h.set id o')[id]? = some o' :=
  List.getElem?_set_self (List.getElem?_eq_some_iff.1 e).1

/-! ## Arrays in a changed heap -/

theorem arr_own {h : List Obj} {id : Nat} {o : Obj} {f : Bool} {buf : Data} (e : h[id]? = some o) (hb : o.body = .own f buf) :
    arr h id = some ⟨sub 0 o.ia buf, o.squoze, o.asc, o.dsc⟩ := by
  unfold arr view
  rw [e]
  dsimp only
  rw [hb]

theorem view_arr {h : List Obj} {id : Nat} {x : Arr} (e : arr h id = some x) : view h id = some x.data := by
  unfold arr at e
  split at e
  · injection e with e; subst e; assumption
  · cases e

theorem arr_view {h : List Obj} {id : Nat} {o : Obj} {d : Data} (e : h[id]? = some o) (v : view h id = some d) :
    arr h id = some ⟨d, o.squoze, o.asc, o.dsc⟩ := by
  unfold arr
  rw [e, v]

theorem arr_get {h : List Obj} {id : Nat} {x : Arr} (e : arr h id = some x) :
    ∃ o, h[id]? = some o ∧ x = ⟨x.data, o.squoze, o.asc, o.dsc⟩ := by
  unfold arr at e
  split at e
  · injection e with e; subst e; exact ⟨_, by assumption, rfl⟩
  · cases e

/-- Enough to know: the object itself, and the body of what it is a slice of. -/
theorem arr_congr {h h' : List Obj} {k : Nat} (e : h'[k]? = h[k]?)
    (hp : ∀ o f p off, h[k]? = some o → o.body = .slice f p off → (h'[p]?).map Obj.body = (h[p]?).map Obj.body) :
    arr h' k = arr h k := by
  have : view h' k = view h k := by
    unfold view
    rw [e]
    cases ho : h[k]? with
    | none => rfl
    | some o =>
      dsimp only
      cases hb : o.body with
      | own f buf => rfl
      | slice f p off => dsimp only; rw [hp o f p off ho hb]
  unfold arr
  rw [e, this]

theorem arr_set_ne {h : List Obj} {id k : Nat} {o' : Obj} (hk : k ≠ id) (hs : ∀ o, h[k]? = some o → sliceOf id o = false) :
    arr (h.set id o') k = arr h k := by
  refine arr_congr (List.getElem?_set_ne (Ne.symm hk)) fun o f p off ho hb => ?_
  have := hs o ho
  unfold sliceOf at this
  rw [hb] at this
  have hne : p ≠ id := by simpa using this
  rw [List.getElem?_set_ne (Ne.symm hne)]

theorem map_set_body {h : List Obj} {id : Nat} {o o' : Obj} (e : h[id]? = some o) (hb : o'.body = o.body) (k : Nat) :
    ((h.set id o')[k]?).map Obj.body = (h[k]?).map Obj.body := by
  by_cases hk : k = id
  · subst hk
    rw [get_set e, e]
    exact congrArg some hb
  · rw [List.getElem?_set_ne (Ne.symm hk)]

theorem arr_set_body_ne {h : List Obj} {id k : Nat} {o o' : Obj} (e : h[id]? = some o) (hb : o'.body = o.body) (hk : k ≠ id) :
    arr (h.set id o') k = arr h k :=
  arr_congr (List.getElem?_set_ne (Ne.symm hk)) fun _ _ p _ _ _ => map_set_body e hb p

theorem view_set_body {h : List Obj} {id : Nat} {o o' : Obj} (e : h[id]? = some o) (hb : o'.body = o.body) (hi : o'.ia = o.ia) (k : Nat) :
    view (h.set id o') k = view h k := by
  by_cases hk : k = id
  · subst hk
    unfold view
    rw [get_set e, e]
    dsimp only
    rw [hb, hi]
    cases o.body with
    | own f buf => rfl
    | slice f p off => dsimp only; rw [map_set_body e hb p]
  · have := arr_set_body_ne e hb hk
    unfold view
    rw [List.getElem?_set_ne (Ne.symm hk)]
    cases h[k]? with
    | none => rfl
    | some q =>
      dsimp only
      cases q.body with
      | own f buf => rfl
      | slice f p off => dsimp only; rw [map_set_body e hb p]

theorem arr_set_body {h : List Obj} {id : Nat} {o o' : Obj} (e : h[id]? = some o) (hb : o'.body = o.body) (hi : o'.ia = o.ia)
    (h1 : o'.squoze = o.squoze) (h2 : o'.asc = o.asc) (h3 : o'.dsc = o.dsc) (k : Nat) : arr (h.set id o') k = arr h k := by
  by_cases hk : k = id
  · subst hk
    unfold arr
    rw [view_set_body e hb hi, get_set e, e]
    cases view h k with
    | none => rfl
    | some d => dsimp only; rw [h1, h2, h3]
  · exact arr_set_body_ne e hb hk

theorem arr_set_refc {h : List Obj} {id : Nat} {o : Obj} (e : h[id]? = some o) (r k : Nat) :
    arr (h.set id { o with refc := r }) k = arr h k :=
  arr_set_body (o' := { o with refc := r }) e rfl rfl rfl rfl rfl k

theorem arr_append {h : List Obj} {o : Obj} {k : Nat} (hk : k < h.length)
    (hg : ∀ q, h[k]? = some q → Good h q) : arr (h ++ [o]) k = arr h k := by
  refine arr_congr (List.getElem?_append_left hk) fun q f p off hq hb => ?_
  have := hg q hq
  unfold Good at this
  rw [hb] at this
  obtain ⟨r, _, _, hr, _, _⟩ := this
  rw [List.getElem?_append_left (List.getElem?_eq_some_iff.1 hr).1]

theorem Good.append {h : List Obj} {o q : Obj} (hg : Good h q) : Good (h ++ [o]) q := by
  unfold Good at *
  split
  · rename_i hb; rw [hb] at hg; exact hg
  · rename_i hb
    rw [hb] at hg
    obtain ⟨r, pf, buf, hr, x, y⟩ := hg
    exact ⟨r, pf, buf, by rw [List.getElem?_append_left (List.getElem?_eq_some_iff.1 hr).1]; exact hr, x, y⟩

theorem Good.set_ne {h : List Obj} {id : Nat} {o' q : Obj} (hg : Good h q) (hs : sliceOf id q = false) : Good (h.set id o') q := by
  unfold Good at *
  unfold sliceOf at hs
  split
  · rename_i hb; rw [hb] at hg; exact hg
  · rename_i p off hb
    rw [hb] at hg hs
    obtain ⟨r, pf, buf, hr, x, y⟩ := hg
    have hne : p ≠ id := by simpa using hs
    exact ⟨r, pf, buf, by rw [List.getElem?_set_ne (Ne.symm hne)]; exact hr, x, y⟩

theorem Good.set_body {h : List Obj} {id : Nat} {o o' q : Obj} (e : h[id]? = some o) (hb : o'.body = o.body) (hi : o'.ia = o.ia)
    (hg : Good h q) : Good (h.set id o') q := by
  unfold Good at *
  split
  · rename_i hq; rw [hq] at hg; exact hg
  · rename_i p off hq
    rw [hq] at hg
    obtain ⟨r, pf, buf, hr, x, y⟩ := hg
    by_cases hp : p = id
    · subst hp
      rw [e] at hr
      injection hr with hr
      subst hr
      exact ⟨o', pf, buf, get_set e o', hb.trans x, by rw [hi]; exact y⟩
    · exact ⟨r, pf, buf, by rw [List.getElem?_set_ne (Ne.symm hp)]; exact hr, x, y⟩

theorem Good.same {h : List Obj} {o o' : Obj} (hg : Good h o) (hb : o'.body = o.body) (hi : o'.ia = o.ia) (hy : o'.bytes = o.bytes) : Good h o' := by
  unfold Good at *
  rw [hb, hi, hy]
  exact hg

/-! ## Changes that keep the invariant -/

/-- Another count of references, or other flags. -/
theorem Inv.set_meta {P : Arr → Prop} {h : List Obj} {f f' : Nat → Nat} (hi : Inv P h f) {id : Nat} {o o' : Obj} (e : h[id]? = some o)
    (hb : o'.body = o.body) (hia : o'.ia = o.ia) (hy : o'.bytes = o.bytes)
    (hr : f' id + sl h id ≤ o'.refc) (hf : ∀ k, k ≠ id → f' k + sl h k ≤ refcAt h k)
    (hP : ∀ x, arr (h.set id o') id = some x → P x) : Inv P (h.set id o') f' := by
  refine ⟨?_, ?_, ?_⟩
  · intro k q hq
    by_cases hk : k = id
    · subst hk
      rw [get_set e] at hq
      injection hq with hq
      subst hq
      exact (hi.good e).same hb hia hy |>.set_body e hb hia
    · rw [List.getElem?_set_ne (Ne.symm hk)] at hq
      exact (hi.good hq).set_body e hb hia
  · intro k
    rw [sl_set_body e hb]
    by_cases hk : k = id
    · subst hk; rw [refcAt_eq (get_set e o')]; exact hr
    · rw [refcAt_set_ne hk]; exact hf k hk
  · intro k x hx
    by_cases hk : k = id
    · subst hk; exact hP x hx
    · rw [arr_set_body_ne e hb hk] at hx; exact hi.all hx

/-- A new array. -/
theorem Inv.push {P : Arr → Prop} {h : List Obj} {f f' : Nat → Nat} (hi : Inv P h f) {o : Obj} {fl : Bool} {buf : Data}
    (hb : o.body = .own fl buf) (hg : Good h o) (hP : P ⟨sub 0 o.ia buf, o.squoze, o.asc, o.dsc⟩) (hr : 1 ≤ o.refc)
    (hf : ∀ k, f' k ≤ f k + if k = h.length then 1 else 0) :
    Inv P (h ++ [o]) f' ∧ (∀ k, k < h.length → arr (h ++ [o]) k = arr h k) ∧
      arr (h ++ [o]) h.length = some ⟨sub 0 o.ia buf, o.squoze, o.asc, o.dsc⟩ := by
  have hlast : (h ++ [o])[h.length]? = some o := by simp
  have ha : arr (h ++ [o]) h.length = _ := arr_own hlast hb
  have hold : ∀ k, k < h.length → arr (h ++ [o]) k = arr h k := fun k hk => arr_append hk fun q hq => hi.good hq
  refine ⟨⟨?_, ?_, ?_⟩, hold, ha⟩
  · intro k q hq
    rcases Nat.lt_or_ge k h.length with hk | hk
    · rw [List.getElem?_append_left hk] at hq; exact (hi.good hq).append
    · have : k = h.length := by
        have := (List.getElem?_eq_some_iff.1 hq).1
        rw [List.length_append, List.length_singleton] at this
        omega
      subst this
      rw [hlast] at hq
      injection hq with hq
      subst hq
      exact hg.append
  · intro k
    have hs : sliceOf k o = false := by unfold sliceOf; rw [hb]
    rw [sl_append, hs, if_neg (by decide)]
    have h1 := hi.refs k
    have h2 := hf k
    by_cases hk : k = h.length
    · subst hk
      rw [if_pos rfl] at h2
      rw [refcAt_eq hlast]
      have : refcAt h h.length = 0 := by unfold refcAt; simp
      omega
    · rw [if_neg hk] at h2
      have : refcAt (h ++ [o]) k = refcAt h k := by
        unfold refcAt
        rcases Nat.lt_or_ge k h.length with hk' | hk'
        · rw [List.getElem?_append_left hk']
        · rw [List.getElem?_eq_none (by rw [List.length_append, List.length_singleton]; omega), List.getElem?_eq_none hk']
      omega
  · intro k x hx
    rcases Nat.lt_or_ge k h.length with hk | hk
    · rw [hold k hk] at hx; exact hi.all hx
    · obtain ⟨q, hq, _⟩ := arr_get hx
      have : k = h.length := by
        have := (List.getElem?_eq_some_iff.1 hq).1
        rw [List.length_append, List.length_singleton] at this
        omega
      subst this
      rw [ha] at hx
      injection hx with hx
      subst hx
      exact hP

/-- Another content of an array that nothing else refers to. -/
theorem Inv.inplace {P : Arr → Prop} {h : List Obj} {f f' : Nat → Nat} (hi : Inv P h f) {id : Nat} {o o' : Obj} (e : h[id]? = some o)
    {fl : Bool} {buf : Data} (hb : o'.body = .own fl buf) (hs : sl h id = 0) (hg : Good h o')
    (hP : P ⟨sub 0 o'.ia buf, o'.squoze, o'.asc, o'.dsc⟩) (hr : f' id ≤ o'.refc)
    (hf : ∀ k, k ≠ id → f' k + sl (h.set id o') k ≤ refcAt h k) :
    Inv P (h.set id o') f' ∧ (∀ k, k ≠ id → arr (h.set id o') k = arr h k) ∧
      arr (h.set id o') id = some ⟨sub 0 o'.ia buf, o'.squoze, o'.asc, o'.dsc⟩ := by
  have hn : ∀ {k : Nat} {q}, h[k]? = some q → sliceOf id q = false := fun hq => no_slice hs hq
  have ha : arr (h.set id o') id = _ := arr_own (get_set e o') hb
  have hold : ∀ k, k ≠ id → arr (h.set id o') k = arr h k := fun k hk => arr_set_ne hk fun q hq => hn hq
  have hso : ∀ k, sliceOf k o' = false := fun k => by unfold sliceOf; rw [hb]
  refine ⟨⟨?_, ?_, ?_⟩, hold, ha⟩
  · intro k q hq
    by_cases hk : k = id
    · subst hk
      rw [get_set e] at hq
      injection hq with hq
      subst hq
      exact hg.set_ne (hso _)
    · rw [List.getElem?_set_ne (Ne.symm hk)] at hq
      exact (hi.good hq).set_ne (hn hq)
  · intro k
    by_cases hk : k = id
    · subst hk
      rw [refcAt_eq (get_set e o')]
      have := sl_set_own e hb k
      omega
    · rw [refcAt_set_ne hk]; exact hf k hk
  · intro k x hx
    by_cases hk : k = id
    · subst hk; rw [ha] at hx; injection hx with hx; subst hx; exact hP
    · rw [hold k hk] at hx; exact hi.all hx

theorem dead_good (h : List Obj) : Good h dead := by
  show len (.B []) = cap false .B 0 ∧ 0 ≤ len (.B [])
  decide

theorem dead_sub (n : Nat) : sub 0 n (.B []) = .B [] := by
  simp [sub]

/-- The reference count of an array goes down. -/
theorem Inv.dec1 {P : Arr → Prop} (hPd : P ⟨.B [], false, false, false⟩) {h : List Obj} {f f' : Nat → Nat} (hi : Inv P h f) {id : Nat} {o : Obj} (e : h[id]? = some o)
    (hf : ∀ k, f' k + (if k = id then 1 else 0) ≤ f k) :
    Inv P (dec1 h id) f' ∧ (∀ k, (k ≠ id ∨ 1 < o.refc) → arr (dec1 h id) k = arr h k) ∧
      (o.refc ≤ 1 → dec1 h id = h.set id dead) ∧
      (∀ k, k ≠ id → refcAt (Append.dec1 h id) k = refcAt h k) := by
  have e1 := hi.refs id
  have e2 := hf id
  rw [if_pos rfl] at e2
  rw [refcAt_eq e] at e1
  unfold Append.dec1
  rw [e]
  dsimp only
  by_cases hr : o.refc ≤ 1
  · rw [if_pos hr]
    have hs : sl h id = 0 := by omega
    have := hi.inplace (o' := dead) (f' := f') e rfl hs (dead_good h) (by rw [show dead.ia = 0 from rfl, dead_sub]; exact hPd)
      (by show f' id ≤ 0; omega) (by
        intro k hk
        have a := hi.refs k
        have b := hf k
        rw [if_neg hk] at b
        have c := sl_set_own (o' := dead) e rfl k
        omega)
    refine ⟨this.1, fun k hk => this.2.1 k (by rcases hk with hk | hk <;> omega), fun _ => rfl, fun k hk => refcAt_set_ne hk⟩
  · rw [if_neg hr]
    refine ⟨?_, fun k _ => arr_set_refc e _ k, fun h => absurd h hr, fun k hk => refcAt_set_ne hk⟩
    refine hi.set_meta e rfl rfl rfl (by show f' id + sl h id ≤ o.refc - 1; omega) (fun k hk => ?_) (fun x hx => ?_)
    · have a := hi.refs k
      have b := hf k
      rw [if_neg hk] at b
      omega
    · rw [arr_set_refc e] at hx; exact hi.all hx

theorem Inv.dec {P : Arr → Prop} (hPd : P ⟨.B [], false, false, false⟩) {h : List Obj} {f f' : Nat → Nat} (hi : Inv P h f) {id : Nat}
    (hf : ∀ k, f' k + (if k = id then 1 else 0) ≤ f k) :
    Inv P (dec h id) f' ∧ (∀ k, 0 < f' k → arr (dec h id) k = arr h k) := by
  have e2 := hf id
  rw [if_pos rfl] at e2
  obtain ⟨o, e, hle⟩ := hi.exists (id := id) (by omega)
  have e1 := hi.refs id
  rw [refcAt_eq e] at e1
  unfold Append.dec
  rw [e]
  dsimp only
  have h1 := hi.dec1 hPd e hf
  cases hb : o.body with
  | own fl buf =>
    dsimp only
    refine ⟨h1.1, fun k hk => h1.2.1 k ?_⟩
    by_cases hk' : k = id
    · subst hk'; exact .inr (by omega)
    · exact .inl hk'
  | slice fl p off =>
    dsimp only
    by_cases hr : o.refc ≤ 1
    · rw [if_pos hr]
      have hg := hi.good e
      unfold Good at hg
      rw [hb] at hg
      obtain ⟨q, pf, buf, hq, hqb, _⟩ := hg
      have hne : p ≠ id := by
        intro h
        subst h
        rw [e] at hq
        injection hq with hq
        subst hq
        rw [hb] at hqb
        cases hqb
      have hd := h1.2.2.1 hr
      have hq' : (Append.dec1 h id)[p]? = some q := by rw [hd, List.getElem?_set_ne (Ne.symm hne)]; exact hq
      -- one more reference to `p` is left over
      have hi2 : Inv P (Append.dec1 h id) (fun k => f' k + if k = p then 1 else 0) := by
        refine ⟨h1.1.good, fun k => ?_, h1.1.all⟩
        have a := h1.1.refs k
        by_cases hk : k = p
        · subst hk
          rw [if_pos rfl, h1.2.2.2 k hne, hd]
          have c := sl_set_own (o' := dead) e rfl k
          rw [show sliceOf k o = true by unfold sliceOf; rw [hb]; simp, if_pos rfl] at c
          have d := hi.refs k
          have b := hf k
          rw [if_neg hne] at b
          omega
        · rw [if_neg hk]; exact a
      have h2 := hi2.dec1 (f' := f') hPd hq' (fun k => Nat.le_refl _)
      refine ⟨h2.1, fun k hk => ?_⟩
      rw [h2.2.1 k ?_, h1.2.1 k ?_]
      · left; intro h; subst h; omega
      · by_cases hk' : k = p
        · subst hk'
          right
          have := hi2.refs k
          rw [if_pos rfl, refcAt_eq hq'] at this
          omega
        · exact .inl hk'
    · rw [if_neg hr]
      exact ⟨h1.1, fun k _ => h1.2.1 k (.inr (by omega))⟩

end Verif.Append
