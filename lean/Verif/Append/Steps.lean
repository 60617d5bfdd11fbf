import Verif.Append.Heap
/-!
# Joining and appending: each operation
-/
namespace Verif.Append
open Verif.Squeeze

/-- A property of arrays that the operations keep; `E`: also when something is appended to an empty array. -/
structure Closed (bad : BitVec 64 → BitVec 32) (E : Prop) (P : Arr → Prop) : Prop where
  new : ∀ d, P ⟨d, false, false, false⟩
  ext : ∀ x y : Arr, P x → y.data.ty = x.data.ty → (∃ zs, y.data.elems = x.data.elems ++ zs) → y.squoze = x.squoze →
    y.asc = false → y.dsc = false → (E ∨ x.data.elems ≠ []) → P y
  sq : ∀ x, P x → ∃ r, squeezeAny bad x = some r ∧ Sames r.data.elems x.data.elems ∧ P r ∧
    (r.data.ty = x.data.ty → P ⟨x.data, r.squoze, r.asc, r.dsc⟩)
  mark : ∀ x asc dsc, P x → (asc = true → x.data.ints.Pairwise (· ≤ ·)) → (dsc = true → x.data.ints.Pairwise (· ≥ ·)) →
    P ⟨x.data, x.squoze, x.asc || asc, x.dsc || dsc⟩

/-- References from variables. -/
abbrev cnt (vars : List Nat) : Nat → Nat := fun id => vars.count id

theorem cnt_set {vars : List Nat} {i id : Nat} (h : vars[i]? = some id) (nid k : Nat) :
    cnt (vars.set i nid) k + (if k = id then 1 else 0) = cnt vars k + (if k = nid then 1 else 0) := by
  obtain ⟨hl, rfl⟩ := List.getElem?_eq_some_iff.1 h
  show (vars.set i nid).count k + _ = vars.count k + _
  rw [List.count_set hl]
  have : (if k = vars[i] then 1 else 0) ≤ vars.count k := by
    by_cases e : k = vars[i]
    · rw [if_pos e, e]; exact List.count_pos_iff.2 (List.getElem_mem hl)
    · rw [if_neg e]; exact Nat.zero_le _
  have a : (if (vars[i] == k) = true then 1 else 0) = if k = vars[i] then 1 else 0 := by
    by_cases e : k = vars[i]
    · rw [if_pos e, if_pos (by rw [e]; exact beq_self_eq_true _)]
    · rw [if_neg e, if_neg (by simpa using fun h => e h.symm)]
  have b : (if (nid == k) = true then 1 else 0) = if k = nid then 1 else 0 := by
    by_cases e : k = nid
    · rw [if_pos e, if_pos (by rw [e]; exact beq_self_eq_true _)]
    · rw [if_neg e, if_neg (by simpa using fun h => e h.symm)]
  rw [a, b]
  omega

theorem cnt_pos {vars : List Nat} {i id : Nat} (h : vars[i]? = some id) : 0 < cnt vars id :=
  List.count_pos_iff.2 (List.mem_of_getElem? h)

theorem cnt_two {vars : List Nat} {i k id : Nat} (h : vars[i]? = some id) (hk : vars[k]? = some id) (hne : k ≠ i) : 2 ≤ cnt vars id := by
  have a := cnt_set h (id + 1) id
  rw [if_pos rfl, if_neg (by omega)] at a
  have : 0 < cnt (vars.set i (id + 1)) id := cnt_pos (i := k) (by rw [List.getElem?_set_ne (Ne.symm hne)]; exact hk)
  omega

theorem cnt_append (vars : List Nat) (id k : Nat) : cnt (vars ++ [id]) k = cnt vars k + if k = id then 1 else 0 := by
  show (vars ++ [id]).count k = vars.count k + _
  rw [List.count_append, List.count_singleton]
  by_cases e : k = id
  · rw [if_pos e, if_pos (by rw [e]; exact beq_self_eq_true _)]
  · rw [if_neg e, if_neg (by simpa using fun h => e h.symm)]

theorem cnt_erase {vars : List Nat} {i id : Nat} (h : vars[i]? = some id) (k : Nat) :
    cnt (vars.eraseIdx i) k + (if k = id then 1 else 0) = cnt vars k := by
  obtain ⟨hl, rfl⟩ := List.getElem?_eq_some_iff.1 h
  show (vars.eraseIdx i).count k + _ = vars.count k
  have e : vars = vars.take i ++ vars[i] :: vars.drop (i + 1) := by
    rw [List.getElem_cons_drop, List.take_append_drop]
  have c := congrArg (List.count k) e
  rw [List.count_append, List.count_cons] at c
  rw [List.eraseIdx_eq_take_drop_succ, c, List.count_append]
  by_cases e : k = vars[i]
  · rw [if_pos e, if_pos (by rw [e]; exact beq_self_eq_true _)]; omega
  · rw [if_neg e, if_neg (by simpa using fun h => e h.symm)]; omega

theorem _root_.Verif.Squeeze.Sames.drop_take {vs ws : List Val} (h : Sames vs ws) (off n : Nat) : Sames ((vs.drop off).take n) ((ws.drop off).take n) := by
  have take : ∀ {vs ws : List Val}, Sames vs ws → ∀ n, Sames (vs.take n) (ws.take n) := by
    intro vs ws h
    induction h with
    | nil => intro n; rw [List.take_nil]; exact .nil
    | cons a _ ih => intro n; cases n with
      | zero => exact .nil
      | succ n => exact .cons a (ih n)
  have drop : ∀ {vs ws : List Val}, Sames vs ws → ∀ n, Sames (vs.drop n) (ws.drop n) := by
    intro vs ws h
    induction h with
    | nil => intro n; rw [List.drop_nil]; exact .nil
    | cons a t ih => intro n; cases n with
      | zero => exact .cons a t
      | succ n => exact ih n
  exact take (drop h off) n

/-! ## Variables -/

theorem Shows.get {s : State} {xs : List (List Val)} (h : Shows s xs) {i id : Nat} (hi : s.vars[i]? = some id) :
    ∃ x d, xs[i]? = some x ∧ view s.heap id = some d ∧ Sames d.elems x := by
  have hl := (List.getElem?_eq_some_iff.1 hi).1
  rw [h.1] at hl
  obtain ⟨d, a, b⟩ := h.2 i id xs[i] hi (List.getElem?_eq_getElem hl)
  exact ⟨_, d, List.getElem?_eq_getElem hl, a, b⟩

theorem Shows.none {s : State} {xs : List (List Val)} (h : Shows s xs) {i : Nat} (hi : s.vars[i]? = none) : xs[i]? = none := by
  rw [List.getElem?_eq_none_iff] at *
  rw [← h.1]
  exact hi

theorem Shows.set {s : State} {xs : List (List Val)} (h : Shows s xs) {i : Nat} {h' : List Obj} {nid : Nat} {x' : List Val}
    (hold : ∀ (k id' : Nat), k ≠ i → s.vars[k]? = some id' → arr h' id' = arr s.heap id')
    (hnew : ∃ d, view h' nid = some d ∧ Sames d.elems x') : Shows ⟨h', s.vars.set i nid⟩ (xs.set i x') := by
  refine ⟨by show (s.vars.set i nid).length = _; rw [List.length_set, List.length_set]; exact h.1, fun k id' x hk hx => ?_⟩
  by_cases hki : k = i
  · subst hki
    have hl := (List.getElem?_eq_some_iff.1 hk).1
    rw [List.length_set] at hl
    rw [List.getElem?_set_self hl] at hk
    rw [List.getElem?_set_self (by rw [← h.1]; exact hl)] at hx
    injection hk with hk
    injection hx with hx
    rw [← hk, ← hx]
    exact hnew
  · have hk : (s.vars.set i nid)[k]? = some id' := hk
    rw [List.getElem?_set_ne (Ne.symm hki)] at hk hx
    obtain ⟨d, a, b⟩ := h.2 k id' x hk hx
    have e := hold k id' hki hk
    obtain ⟨o, ho⟩ : ∃ o, s.heap[id']? = some o := by
      unfold view at a
      cases ho : s.heap[id']? with
      | none => rw [ho] at a; cases a
      | some o => exact ⟨o, rfl⟩
    rw [arr_view ho a] at e
    exact ⟨d, view_arr e, b⟩

theorem Shows.push {s : State} {xs : List (List Val)} (h : Shows s xs) {h' : List Obj} {nid : Nat} {x' : List Val}
    (hold : ∀ (k id' : Nat), s.vars[k]? = some id' → view h' id' = view s.heap id')
    (hnew : ∃ d, view h' nid = some d ∧ Sames d.elems x') : Shows ⟨h', s.vars ++ [nid]⟩ (xs ++ [x']) := by
  refine ⟨by simp [h.1], fun k id' x hk hx => ?_⟩
  have hk : (s.vars ++ [nid])[k]? = some id' := hk
  rcases Nat.lt_or_ge k s.vars.length with hl | hl
  · rw [List.getElem?_append_left hl] at hk
    rw [List.getElem?_append_left (by rw [← h.1]; exact hl)] at hx
    show ∃ d, view h' id' = some d ∧ _
    rw [hold k id' hk]
    exact h.2 k id' x hk hx
  · have : k = s.vars.length := by
      have := (List.getElem?_eq_some_iff.1 hk).1
      rw [List.length_append, List.length_singleton] at this
      omega
    subst this
    rw [List.getElem?_append_right (Nat.le_refl _), Nat.sub_self] at hk
    rw [h.1, List.getElem?_append_right (Nat.le_refl _), Nat.sub_self] at hx
    injection hk with hk
    injection hx with hx
    rw [← hk, ← hx]
    exact hnew

theorem Shows.heap {s : State} {xs : List (List Val)} (h : Shows s xs) {h' : List Obj}
    (hold : ∀ (k id' : Nat), s.vars[k]? = some id' → view h' id' = view s.heap id') : Shows ⟨h', s.vars⟩ xs := by
  refine ⟨h.1, fun k id' x hk hx => ?_⟩
  show ∃ d, view h' id' = some d ∧ _
  rw [hold k id' hk]
  exact h.2 k id' x hk hx

theorem view_of_arr {h h' : List Obj} {k : Nat} (e : arr h' k = arr h k) {d : Data} (hd : view h k = some d) : view h' k = some d := by
  unfold arr at e
  have ho : ∃ o, h[k]? = some o := by
    unfold view at hd
    cases ho : h[k]? with
    | none => rw [ho] at hd; cases hd
    | some o => exact ⟨o, rfl⟩
  obtain ⟨o, ho⟩ := ho
  rw [ho, hd] at e
  dsimp only at e
  split at e
  · rename_i o' d' _ hv
    rw [hv]
    injection e with e
    injection e with e1
    rw [e1]
  · cases e

theorem modify_some {xs : List (List Val)} {i : Nat} {x : List Val} (h : xs[i]? = some x) (f : List Val → List Val) :
    xs.modify i f = xs.set i (f x) := by
  apply List.ext_getElem?
  intro k
  rw [List.getElem?_modify]
  by_cases hk : i = k
  · subst hk
    rw [h, List.getElem?_set_self (List.getElem?_eq_some_iff.1 h).1]
    simp
  · rw [List.getElem?_set_ne hk]
    simp [hk]

theorem modify_none {xs : List (List Val)} {i : Nat} (h : xs[i]? = none) (f : List Val → List Val) : xs.modify i f = xs :=
  List.modify_eq_self (List.getElem?_eq_none_iff.1 h)

theorem set_self {vars : List Nat} {i id : Nat} (h : vars[i]? = some id) : vars.set i id = vars := by
  obtain ⟨hl, rfl⟩ := List.getElem?_eq_some_iff.1 h
  exact List.set_getElem_self hl

/-! ## New arrays -/

theorem write_front {d e b : Data} (h : write d 0 e = some b) : sub 0 (len e) b = e := by
  unfold len
  cases d <;> cases e <;> first
    | (cases h; done)
    | (rw [write, over] at h
       split at h
       · injection h with h
         subst h
         simp only [sub, Data.elems, List.length_map, List.take_zero, List.nil_append, List.drop_zero, List.take_left]
       · cases h)

/-- Two parts written one after the other. -/
theorem write_two {buf d e : Data} (hd : buf.ty = d.ty) (he : buf.ty = e.ty) (hl : len d + len e ≤ len buf) :
    ∃ b c, write buf 0 d = some b ∧ write b (len d) e = some c ∧ c.ty = buf.ty ∧ len c = len buf ∧
      (sub 0 (len d + len e) c).elems = d.elems ++ e.elems := by
  obtain ⟨b, hb, tb, eb⟩ := write_spec (i := 0) hd (by omega)
  have lb : len b = len buf := by
    unfold len at *
    rw [eb]
    simp only [List.take_zero, List.nil_append, List.length_append, List.length_drop]
    omega
  obtain ⟨c, hc, tc, ec⟩ := write_spec (d := b) (i := len d) (tb.trans he) (by omega)
  refine ⟨b, c, hb, hc, tc.trans tb, ?_, ?_⟩
  · unfold len at *
    rw [ec]
    simp only [List.length_append, List.length_take, List.length_drop]
    omega
  · rw [sub_elems, ec, eb, List.drop_zero]
    simp only [List.take_zero, List.nil_append]
    show List.take (d.elems.length + e.elems.length) (List.take d.elems.length (d.elems ++ _) ++ e.elems ++ _) = _
    rw [List.take_left, ← List.length_append, List.take_left]

theorem shorter {xs : List (List Val)} {i : Nat} {x' : List Val} {N : Nat} (hl : i < xs.length) (h : ∀ x ∈ xs.set i x', x.length < N) : x'.length < N :=
  h x' (List.mem_of_getElem? (List.getElem?_set_self hl))

theorem build_spec {bad : BitVec 64 → BitVec 32} {E : Prop} {P : Arr → Prop} (hc : Closed bad E P) {s : State} {xs : List (List Val)}
    (hi : Inv P s.heap (cnt s.vars)) (hs : Shows s xs) {i id : Nat} (hv : s.vars[i]? = some id) (a : Alloc) {t : El} {n : Nat} {d e : Data}
    (hd : d.ty = t) (he : e.ty = t) (hn : n = len d + len e) (h32 : n < 4294967296) {x' : List Val} (hx : Sames (d.elems ++ e.elems) x') :
    (∃ s', build s i id a t n (len d) (some d) (some e) = .ok s' ∧ Inv P s'.heap (cnt s'.vars) ∧ Shows s' (xs.set i x')) ∨
      (build s i id a t n (len d) (some d) (some e) = .error ∧ 268434456 < n) := by
  unfold build make
  by_cases h1 : t = .bit ∧ n > 4294967295 - 65
  · rw [if_pos h1]; exact .inr ⟨rfl, by omega⟩
  rw [if_neg h1]
  by_cases h2 : t = .B ∧ n > 2147483648 / 8 - 1000
  · rw [if_pos h2]; exact .inr ⟨rfl, by omega⟩
  rw [if_neg h2]
  left
  dsimp only
  have hcap : n ≤ cap false t (size false t n + a.extra) := cap_size (by omega)
  obtain ⟨b, c, hb, hc', tc, lc, ec⟩ := write_two (buf := fresh t a.junk (cap false t (size false t n + a.extra))) (d := d) (e := e)
    (by rw [fresh_ty, hd]) (by rw [fresh_ty, he]) (by rw [fresh_len]; omega)
  rw [fresh_ty] at tc
  rw [fresh_len] at lc
  rw [hb]
  dsimp only
  rw [hc']
  dsimp only
  refine ⟨_, rfl, ?_⟩
  dsimp only
  rw [Nat.mod_eq_of_lt h32]
  have hp := hi.push (o := ⟨.own false c, n, size false t n + a.extra, 1, false, false, false⟩) (f' := fun k => cnt s.vars k + if k = s.heap.length then 1 else 0)
    (fl := false) (buf := c) rfl
    (by show len c = cap false c.ty _ ∧ n ≤ len c; rw [tc, lc]; exact ⟨rfl, hcap⟩) (hc.new _) (Nat.le_refl 1) (fun k => Nat.le_refl _)
  have hd' := hp.1.dec (f' := cnt (s.vars.set i s.heap.length)) (hc.new _) (id := id) (fun k => Nat.le_of_eq (cnt_set hv _ k))
  refine ⟨hd'.1, hs.set (fun k id' hk hk' => ?_) ?_⟩
  · have hlt : id' < s.heap.length := by
      obtain ⟨o, ho, _⟩ := hi.exists (cnt_pos hk')
      exact (List.getElem?_eq_some_iff.1 ho).1
    rw [hd'.2 id' (cnt_pos (i := k) (by rw [List.getElem?_set_ne (Ne.symm hk)]; exact hk')), hp.2.1 id' hlt]
  · refine ⟨sub 0 n c, ?_, by rw [hn, ec]; exact hx⟩
    have hl := (List.getElem?_eq_some_iff.1 hv).1
    have := hd'.2 s.heap.length (cnt_pos (i := i) (List.getElem?_set_self hl))
    rw [hp.2.2] at this
    exact view_arr this

/-! ## Appending -/

theorem len_sames {d : Data} {x : List Val} (h : Sames d.elems x) : len d = x.length := h.length

theorem vecAdd_spec {bad : BitVec 64 → BitVec 32} {E : Prop} {P : Arr → Prop} (hc : Closed bad E P) {s : State} {xs : List (List Val)}
    (hi : Inv P s.heap (cnt s.vars)) (hs : Shows s xs) (i : Nat) (v : Val) (a : Alloc) (hE : E ∨ xs[i]? ≠ some [])
    (hsh : ∀ x ∈ xs.modify i (· ++ [v]), x.length < 4294967296) :
    (∃ s', vecAdd bad s i v a = .ok s' ∧ Inv P s'.heap (cnt s'.vars) ∧ Shows s' (xs.modify i (· ++ [v]))) ∨
      (vecAdd bad s i v a = .error ∧ ∃ x ∈ xs.modify i (· ++ [v]), 268434456 < x.length) := by
  unfold vecAdd
  cases hv : s.vars[i]? with
  | none =>
    rw [modify_none (hs.none hv)]
    exact .inl ⟨s, rfl, hi, hs⟩
  | some id =>
  dsimp only
  obtain ⟨x, d, hx, hd, hsa⟩ := hs.get hv
  rw [modify_some hx] at hsh ⊢
  have hxl := (List.getElem?_eq_some_iff.1 hx).1
  have h32 := shorter hxl hsh
  rw [List.length_append, List.length_singleton] at h32
  obtain ⟨o, ho, hcr⟩ := hi.exists (cnt_pos hv)
  have hlen := len_sames hsa
  -- what happens without enough room
  have hslow : ∀ r, r = (match view s.heap id with
      | none => Res.undef
      | some w =>
        let t := elOr w.ty (selfTy bad v)
        build s i id a t ((len w + 1) % 4294967296) (len w) (copyTo bad t w) (single bad t v)) →
      (∃ s', r = .ok s' ∧ Inv P s'.heap (cnt s'.vars) ∧ Shows s' (xs.set i (x ++ [v]))) ∨
      (r = .error ∧ ∃ y ∈ xs.set i (x ++ [v]), 268434456 < y.length) := by
    intro r hr
    rw [hd] at hr
    dsimp only at hr
    obtain ⟨d', c1, c2, c3⟩ := copyTo_spec bad (d := d) (elOr_left d.ty (selfTy bad v))
    obtain ⟨e, s1, s2, s3⟩ := single_spec bad (holds_mono (selfTy_holds bad v) (elOr_right d.ty (selfTy bad v)))
    have le : len e = 1 := s3.length
    have ld : len d' = len d := c3.length
    rw [c1, s1, ← ld, Nat.mod_eq_of_lt (by omega)] at hr
    subst hr
    rcases build_spec hc hi hs hv a c2 s2 (n := len d' + 1) (by omega) (by omega) (Sames.append (c3.trans hsa) s3) with h | h
    · exact .inl h
    · exact .inr ⟨h.1, x ++ [v], List.mem_of_getElem? (List.getElem?_set_self hxl), by rw [List.length_append, List.length_singleton]; omega⟩
  unfold inplaceAdd
  rw [ho]
  dsimp only
  cases hb : o.body with
  | slice fl p off => exact hslow _ rfl
  | own fl buf =>
  cases fl with
  | true => exact hslow _ rfl
  | false =>
  dsimp only
  by_cases hcond : o.refc = 1 ∧ size false buf.ty ((o.ia + 1) % 4294967296) < o.bytes ∧ storable bad buf.ty v = true
  · rw [if_pos hcond]
    obtain ⟨hr1, hsz, hst⟩ := hcond
    obtain ⟨e, s1, s2, s3⟩ := single_spec bad ((storable_iff bad buf.ty v).1 hst)
    have hg := hi.good ho
    unfold Good at hg
    rw [hb] at hg
    obtain ⟨hg1, hg2⟩ := hg
    have ha := arr_own ho hb
    have hdv : d = sub 0 o.ia buf := by have := view_arr ha; rw [hd] at this; injection this
    have hia : len d = o.ia := by
      rw [hdv]
      show (sub 0 o.ia buf).elems.length = _
      rw [sub_elems, List.drop_zero, List.length_take]
      exact Nat.min_eq_left hg2
    have le : len e = 1 := s3.length
    rw [Nat.mod_eq_of_lt (by omega)] at hsz ⊢
    have hcap := cap_size (Nat.le_of_lt hsz)
    rw [s1]
    dsimp only
    obtain ⟨b, w1, w2, w3⟩ := write_spec (d := buf) (e := e) (i := o.ia) s2.symm (by omega)
    rw [w1]
    dsimp only
    left
    refine ⟨_, rfl, ?_⟩
    have e1 := hi.refs id
    rw [refcAt_eq ho] at e1
    have e2 := cnt_pos hv
    have hsl : sl s.heap id = 0 := by omega
    have lb : len b = len buf := by
      show b.elems.length = buf.elems.length
      rw [w3]
      simp only [List.length_append, List.length_take, List.length_drop]
      have : e.elems.length = 1 := le
      have : buf.elems.length = len buf := rfl
      rw [show len e = 1 from le]
      omega
    have helems : (sub 0 (o.ia + 1) b).elems = d.elems ++ e.elems := by
      have le' : e.elems.length = 1 := le
      have ld' : (buf.elems.take o.ia).length = o.ia := by rw [List.length_take]; exact Nat.min_eq_left hg2
      rw [sub_elems, w3, hdv, sub_elems, List.drop_zero, List.drop_zero]
      rw (occs := .pos [1]) [show o.ia + 1 = (buf.elems.take o.ia ++ e.elems).length by rw [List.length_append, ld', le']]
      rw [List.take_left]
    have hp := hi.inplace (f' := cnt s.vars) (o' := { o.keep with body := .own false b, ia := o.ia + 1 }) ho (fl := false) (buf := b) rfl hsl
      (by show len b = cap false b.ty o.bytes ∧ o.ia + 1 ≤ len b; rw [w2, lb]; exact ⟨hg1, by omega⟩)
      (hc.ext _ _ (hi.all ha) (by show (sub 0 (o.ia + 1) b).ty = (sub 0 o.ia buf).ty; rw [sub_ty, sub_ty, w2])
        ⟨e.elems, by show (sub 0 (o.ia + 1) b).elems = (sub 0 o.ia buf).elems ++ _; rw [helems, hdv]⟩ rfl rfl rfl
        (hE.imp_right fun h => by
          show (sub 0 o.ia buf).elems ≠ []
          intro h0
          rw [← hdv] at h0
          rw [h0] at hsa
          cases hsa
          exact h hx))
      (by show cnt s.vars id ≤ o.refc; omega)
      (fun k hk => by
        have := hi.refs k
        have c := sl_set_own (o' := { o.keep with body := .own false b, ia := o.ia + 1 }) ho rfl k
        omega)
    refine ⟨hp.1, ?_⟩
    show Shows ⟨_, s.vars⟩ _
    rw (occs := .pos [1]) [← set_self hv]
    refine hs.set (fun k id' hk hk' => hp.2.1 id' ?_) ⟨_, view_arr hp.2.2, ?_⟩
    · intro h
      subst h
      have := cnt_two hv hk' hk
      omega
    · show Sames (sub 0 (o.ia + 1) b).elems _
      rw [helems]
      exact Sames.append hsa s3
  · rw [if_neg hcond]
    exact hslow _ rfl

end Verif.Append
