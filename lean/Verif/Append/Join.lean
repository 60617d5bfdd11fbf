import Verif.Append.Steps
/-!
# Joining and appending: joining, and the other operations
-/
namespace Verif.Append
open Verif.Squeeze

theorem own_len {h : List Obj} {o : Obj} {fl : Bool} {buf : Data} (hg : Good h o) (hb : o.body = .own fl buf) :
    len buf = cap fl buf.ty o.bytes ∧ o.ia ≤ len buf := by
  unfold Good at hg
  rw [hb] at hg
  exact hg

theorem sub_len {buf : Data} {n : Nat} (h : n ≤ len buf) : len (sub 0 n buf) = n := by
  show (sub 0 n buf).elems.length = _
  rw [sub_elems, List.drop_zero, List.length_take]
  exact Nat.min_eq_left h

/-- Elements put after those of an array that only variable `i` will refer to. -/
theorem extend_spec {bad : BitVec 64 → BitVec 32} {E : Prop} {P : Arr → Prop} (hc : Closed bad E P) {s : State} {i tid : Nat}
    (hi : Inv P s.heap (cnt (s.vars.set i tid))) {o : Obj} (ho : s.heap[tid]? = some o) {fill : Bool} {buf : Data} (hb : o.body = .own fill buf)
    (hsl : sl s.heap tid = 0) {x : Data} {ria : Nat} (hr : ria = o.ia + len x) (h32 : ria < 4294967296) (hsz : size fill buf.ty ria < o.bytes)
    (hty : elOr buf.ty x.ty = buf.ty) (hE : E ∨ (sub 0 o.ia buf).elems ≠ []) :
    ∃ h', extend bad s i tid o fill buf o.ia ria x = .ok ⟨h', s.vars.set i tid⟩ ∧ Inv P h' (cnt (s.vars.set i tid)) ∧
      (∀ k, k ≠ tid → arr h' k = arr s.heap k) ∧ ∃ d, view h' tid = some d ∧ Sames d.elems ((sub 0 o.ia buf).elems ++ x.elems) := by
  obtain ⟨hg1, hg2⟩ := own_len (hi.good ho) hb
  obtain ⟨e, c1, c2, c3⟩ := copyTo_spec bad hty
  have le : len e = len x := c3.length
  have hcap := cap_size (Nat.le_of_lt hsz)
  obtain ⟨b, w1, w2, w3⟩ := write_spec (d := buf) (e := e) (i := o.ia) c2.symm (by omega)
  unfold extend
  rw [c1]
  dsimp only
  rw [w1]
  dsimp only
  rw [Nat.mod_eq_of_lt h32]
  have ha := arr_own ho hb
  have lb : len b = len buf := by
    show b.elems.length = buf.elems.length
    rw [w3]
    simp only [List.length_append, List.length_take, List.length_drop]
    have : e.elems.length = len e := rfl
    have : buf.elems.length = len buf := rfl
    omega
  have helems : (sub 0 ria b).elems = (sub 0 o.ia buf).elems ++ e.elems := by
    have ld' : (buf.elems.take o.ia).length = o.ia := by rw [List.length_take]; exact Nat.min_eq_left hg2
    have le' : e.elems.length = len e := rfl
    rw [sub_elems, w3, sub_elems, List.drop_zero, List.drop_zero]
    rw [show ria = (buf.elems.take o.ia ++ e.elems).length by rw [List.length_append, ld', le', le, hr]]
    rw [List.take_left]
  have hp := hi.inplace (f' := cnt (s.vars.set i tid)) (o' := { o.keep with body := .own fill b, ia := ria }) ho (fl := fill) (buf := b) rfl hsl
    (by show len b = cap fill b.ty o.bytes ∧ ria ≤ len b; rw [w2, lb]; exact ⟨hg1, by omega⟩)
    (hc.ext _ _ (hi.all ha) (by show (sub 0 ria b).ty = (sub 0 o.ia buf).ty; rw [sub_ty, sub_ty, w2])
      ⟨e.elems, helems⟩ rfl rfl rfl hE)
    (by
      have := hi.refs tid
      rw [refcAt_eq ho] at this
      show cnt (s.vars.set i tid) tid ≤ o.refc
      omega)
    (fun k hk => by
      have := hi.refs k
      have c := sl_set_own (o' := { o.keep with body := .own fill b, ia := ria }) ho rfl k
      omega)
  exact ⟨_, rfl, hp.1, hp.2.1, _, view_arr hp.2.2, by
    show Sames (sub 0 ria b).elems _
    rw [helems]
    exact Sames.append (Sames.refl _) c3⟩

theorem joinNew_spec {bad : BitVec 64 → BitVec 32} {E : Prop} {P : Arr → Prop} (hc : Closed bad E P) {s : State} {xs : List (List Val)}
    (hi : Inv P s.heap (cnt s.vars)) (hs : Shows s xs) {i id : Nat} (hv : s.vars[i]? = some id) (a : Alloc) {w x : Data} {lw lx : List Val}
    (hw : Sames w.elems lw) (hx : Sames x.elems lx) (h32 : len w + len x < 4294967296) (hlw : i < xs.length) :
    (∃ s', joinNew bad s i id w x (len w + len x) a = .ok s' ∧ Inv P s'.heap (cnt s'.vars) ∧ Shows s' (xs.set i (lw ++ lx))) ∨
      (joinNew bad s i id w x (len w + len x) a = .error ∧ ∃ y ∈ xs.set i (lw ++ lx), 268434456 < y.length) := by
  unfold joinNew
  obtain ⟨d', c1, c2, c3⟩ := copyTo_spec bad (d := w) (elOr_left w.ty x.ty)
  obtain ⟨e', s1, s2, s3⟩ := copyTo_spec bad (d := x) (elOr_right w.ty x.ty)
  have ld : len d' = len w := c3.length
  have le : len e' = len x := s3.length
  rw [c1, s1, ← ld]
  rcases build_spec hc hi hs hv a c2 s2 (n := len d' + len x) (by omega) (by omega) (Sames.append (c3.trans hw) (s3.trans hx)) with h | h
  · exact .inl h
  · refine .inr ⟨h.1, lw ++ lx, List.mem_of_getElem? (List.getElem?_set_self hlw), ?_⟩
    have a1 := hw.length
    have a2 := hx.length
    have a3 : len w = w.elems.length := rfl
    have a4 : len x = x.elems.length := rfl
    rw [List.length_append]
    have := h.2
    omega

theorem join_spec {bad : BitVec 64 → BitVec 32} {E : Prop} {P : Arr → Prop} (hc : Closed bad E P) {s : State} {xs : List (List Val)}
    (hi : Inv P s.heap (cnt s.vars)) (hs : Shows s xs) (i j : Nat) (a : Alloc) (hE : E ∨ xs[i]? ≠ some [])
    (hsh : ∀ x ∈ specStep xs (.join i j a), x.length < 4294967296) :
    (∃ s', join bad s i j a = .ok s' ∧ Inv P s'.heap (cnt s'.vars) ∧ Shows s' (specStep xs (.join i j a))) ∨
      (join bad s i j a = .error ∧ ∃ x ∈ specStep xs (.join i j a), 268434456 < x.length) := by
  unfold specStep at hsh ⊢
  dsimp only at hsh ⊢
  unfold join
  cases hv : s.vars[i]? with
  | none =>
    have hn := hs.none hv
    left
    refine ⟨s, rfl, hi, ?_⟩
    cases xs[j]? with
    | none => exact hs
    | some y => dsimp only; rw [modify_none hn]; exact hs
  | some id =>
  cases hvj : s.vars[j]? with
  | none =>
    rw [hs.none hvj]
    exact .inl ⟨s, rfl, hi, hs⟩
  | some jd =>
  dsimp only
  obtain ⟨lw, w, hlw, hw, hsw⟩ := hs.get hv
  obtain ⟨lx, x, hlx, hx, hsx⟩ := hs.get hvj
  rw [hlx] at hsh ⊢
  dsimp only at hsh ⊢
  rw [modify_some hlw] at hsh ⊢
  obtain ⟨o, ho, hcr⟩ := hi.exists (cnt_pos hv)
  rw [ho, hw, hx]
  dsimp only
  have hl := (List.getElem?_eq_some_iff.1 hlw).1
  have h32 : len w + len x < 4294967296 := by
    have := shorter hl hsh
    rw [List.length_append] at this
    have a1 := hsw.length
    have a2 := hsx.length
    have a3 : len w = w.elems.length := rfl
    have a4 : len x = x.elems.length := rfl
    omega
  have hslow := joinNew_spec (E := E) hc hi hs hv a hsw hsx h32 hl
  have hEw : E ∨ w.elems ≠ [] := hE.imp_right fun h h0 => by
    rw [h0] at hsw
    cases hsw
    exact h hlw
  by_cases hr1 : o.refc = 1
  · rw [if_pos hr1]
    have e1 := hi.refs id
    rw [refcAt_eq ho] at e1
    have e2 := cnt_pos hv
    have hsl : sl s.heap id = 0 := by omega
    cases hb : o.body with
    | own fill buf =>
      dsimp only
      by_cases hcond : size fill buf.ty (len w + len x) < o.bytes ∧ fitsIn buf.ty x.ty = true
      · rw [if_pos hcond]
        obtain ⟨hsz, hfit⟩ := hcond
        have hwv : w = sub 0 o.ia buf := by have := view_arr (arr_own ho hb); rw [hw] at this; injection this
        have hwl : len w = o.ia := by rw [hwv]; exact sub_len (own_len (hi.good ho) hb).2
        have hi' : Inv P s.heap (cnt (s.vars.set i id)) := by rw [set_self hv]; exact hi
        obtain ⟨h', q1, q2, q3, d, q4, q5⟩ := extend_spec hc hi' ho hb hsl (x := x) (ria := len w + len x) (by omega) h32 hsz
          ((fitsIn_iff _ _).1 hfit) (by rw [← hwv]; exact hEw)
        left
        refine ⟨_, q1, q2, hs.set (fun k id' hk hk' => q3 id' ?_) ⟨d, q4, ?_⟩⟩
        · intro h
          subst h
          have := cnt_two hv hk' hk
          omega
        · rw [← hwv] at q5
          exact q5.trans (Sames.append hsw hsx)
      · rw [if_neg hcond]; exact hslow
    | slice fl p off =>
      cases fl with
      | false => exact hslow
      | true =>
      dsimp only
      have hg := hi.good ho
      unfold Good at hg
      rw [hb] at hg
      obtain ⟨q, pf, buf, hq, hqb, hoff⟩ := hg
      rw [hq]
      dsimp only
      rw [hqb]
      dsimp only
      by_cases hcond : q.refc = 1 ∧ buf.ty = .B ∧ off = 0 ∧ q.ia = o.ia ∧
          size pf .B ((len w + len x) % 4294967296) < q.bytes % 4294967296
      · rw [if_pos hcond]
        obtain ⟨hq1, hBty, rfl, hqia, hsz⟩ := hcond
        rw [Nat.mod_eq_of_lt h32] at hsz
        have hsz : size pf buf.ty (len w + len x) < q.bytes := by
          rw [hBty]; exact Nat.lt_of_lt_of_le hsz (Nat.mod_le _ _)
        have hne : p ≠ id := by
          intro h
          subst h
          rw [ho] at hq
          injection hq with hq
          subst hq
          rw [hb] at hqb
          cases hqb
        -- only this slice refers to `p`
        have hsp : sliceOf p o = true := by unfold sliceOf; rw [hb]; simp
        have c := sl_set_own (o' := dead) ho rfl p
        rw [hsp, if_pos rfl] at c
        have ep := hi.refs p
        rw [refcAt_eq hq] at ep
        have hcs : ∀ k, cnt (s.vars.set i p) k + (if k = id then 1 else 0) = cnt s.vars k + (if k = p then 1 else 0) := cnt_set hv p
        have hi1 := hi.inplace (o' := dead) (f' := cnt (s.vars.set i p)) ho rfl hsl (dead_good _)
          (by rw [show dead.ia = 0 from rfl, dead_sub]; exact hc.new _)
          (by
            show cnt (s.vars.set i p) id ≤ 0
            have := hcs id
            rw [if_pos rfl, if_neg (Ne.symm hne)] at this
            omega)
          (fun k hk => by
            have := hcs k
            rw [if_neg hk] at this
            have ck := sl_set_own (o' := dead) ho rfl k
            have := hi.refs k
            by_cases hkp : k = p
            · subst hkp; rw [if_pos rfl] at *; rw [refcAt_eq hq]; omega
            · rw [if_neg hkp] at *; omega)
        have hq' : (s.heap.set id dead)[p]? = some q := by rw [List.getElem?_set_ne (Ne.symm hne)]; exact hq
        have hwv : w = sub 0 q.ia buf := by
          unfold view at hw
          rw [ho] at hw
          dsimp only at hw
          rw [hb] at hw
          dsimp only at hw
          rw [hq] at hw
          simp only [Option.map_some, hqb] at hw
          injection hw with hw
          rw [← hw, hqia]
        have hwl : len w = q.ia := by rw [hwv]; exact sub_len (own_len (hi.good hq) hqb).2
        rw [← hqia]
        obtain ⟨h', q1, q2, q3, d, q4, q5⟩ := extend_spec hc (s := ⟨s.heap.set id dead, s.vars⟩) hi1.1 hq' hqb (by show sl (s.heap.set id dead) p = 0; omega)
          (x := x) (ria := len w + len x) (by omega) h32 hsz (by rw [hBty]; cases x.ty <;> decide) (by rw [← hwv]; exact hEw)
        left
        refine ⟨_, q1, q2, hs.set (fun k id' hk hk' => ?_) ⟨d, q4, ?_⟩⟩
        · rw [q3 id' ?_]
          · refine hi1.2.1 id' ?_
            intro h
            subst h
            have := cnt_two hv hk' hk
            omega
          · intro h
            subst h
            have := cnt_pos hk'
            omega
        · rw [← hwv] at q5
          exact q5.trans (Sames.append hsw hsx)
      · rw [if_neg hcond]; exact hslow
  · rw [if_neg hr1]; exact hslow

/-! ## The other operations -/

theorem newObj_spec (fill : Bool) (d : Data) (a : Alloc) :
    ∃ o buf, newObj fill d a = some o ∧ o.body = .own fill buf ∧ (∀ h, Good h o) ∧ o.refc = 1 ∧ sub 0 o.ia buf = d ∧
      o.squoze = false ∧ o.asc = false ∧ o.dsc = false := by
  unfold newObj
  dsimp only
  have hcap : len d ≤ cap fill d.ty (size fill d.ty (len d) + a.extra) := cap_size (by omega)
  obtain ⟨b, w1, w2, w3⟩ := write_spec (d := fresh d.ty a.junk (cap fill d.ty (size fill d.ty (len d) + a.extra))) (e := d) (i := 0)
    (fresh_ty _ _ _) (by rw [fresh_len]; omega)
  rw [fresh_ty] at w2
  have lb : len b = cap fill d.ty (size fill d.ty (len d) + a.extra) := by
    show b.elems.length = _
    have f1 := fresh_len d.ty a.junk (cap fill d.ty (size fill d.ty (len d) + a.extra))
    have f2 : (fresh d.ty a.junk (cap fill d.ty (size fill d.ty (len d) + a.extra))).elems.length = _ := f1
    have : d.elems.length = len d := rfl
    rw [w3]
    simp only [List.length_append, List.length_take, List.length_drop]
    omega
  rw [w1]
  refine ⟨_, b, rfl, rfl, fun h => ?_, rfl, write_front w1, rfl, rfl, rfl⟩
  show len b = cap fill b.ty _ ∧ len d ≤ len b
  rw [w2, lb]
  exact ⟨rfl, hcap⟩

theorem Inv.lt {P : Arr → Prop} {s : State} (hi : Inv P s.heap (cnt s.vars)) {k id : Nat} (h : s.vars[k]? = some id) : id < s.heap.length := by
  obtain ⟨o, ho, _⟩ := hi.exists (cnt_pos h)
  exact (List.getElem?_eq_some_iff.1 ho).1

theorem Shows.view {s : State} {xs : List (List Val)} (hs : Shows s xs) {h' : List Obj} {k id : Nat} (hk : s.vars[k]? = some id)
    (e : arr h' id = arr s.heap id) : Append.view h' id = Append.view s.heap id := by
  obtain ⟨x, d, _, hd, _⟩ := hs.get hk
  rw [hd]
  exact view_of_arr e hd

/-- What every operation does. -/
theorem step_spec {bad : BitVec 64 → BitVec 32} {E : Prop} {P : Arr → Prop} (hc : Closed bad E P) {s : State} {xs : List (List Val)}
    (hi : Inv P s.heap (cnt s.vars)) (hs : Shows s xs) (op : Op) (hE : E ∨ Nonempty xs [op])
    (hsh : ∀ x ∈ specStep xs op, x.length < 4294967296) :
    (∃ s', step bad s op = .ok s' ∧ Inv P s'.heap (cnt s'.vars) ∧ Shows s' (specStep xs op)) ∨
      (step bad s op = .error ∧ ∃ x ∈ specStep xs op, 268434456 < x.length) := by
  cases op with
  | add i v a => exact vecAdd_spec hc hi hs i v a (hE.imp_right fun h => h.1) hsh
  | join i j a => exact join_spec hc hi hs i j a (hE.imp_right fun h => h.1) hsh
  | new fill d a =>
    left
    unfold step specStep
    dsimp only
    by_cases h : fill = true ∧ d.ty ≠ .B
    · rw [if_pos h, if_pos h]; exact ⟨s, rfl, hi, hs⟩
    rw [if_neg h, if_neg h]
    obtain ⟨o, buf, n1, n2, n3, n4, n5, n6, n7, n8⟩ := newObj_spec fill d a
    rw [n1]
    dsimp only
    have hp := hi.push (f' := cnt (s.vars ++ [s.heap.length])) n2 (n3 _) (by rw [n5, n6, n7, n8]; exact hc.new d) (by omega)
      (fun k => Nat.le_of_eq (cnt_append _ _ _))
    refine ⟨_, rfl, hp.1, hs.push (fun k id hk => hs.view hk (hp.2.1 id (hi.lt hk))) ⟨d, ?_, Sames.refl _⟩⟩
    have := view_arr hp.2.2
    rw [n5] at this
    exact this
  | share i =>
    left
    unfold step specStep
    dsimp only
    cases hv : s.vars[i]? with
    | none => rw [hs.none hv]; exact ⟨s, rfl, hi, by simpa using hs⟩
    | some id =>
    dsimp only
    obtain ⟨x, d, hx, hd, hsa⟩ := hs.get hv
    obtain ⟨o, ho, _⟩ := hi.exists (cnt_pos hv)
    rw [ho, hx]
    dsimp only
    have ha := arr_set_refc ho (o.refc + 1)
    refine ⟨_, rfl, ?_, hs.push (fun k id' hk => hs.view hk (ha id')) ⟨d, view_of_arr (ha id) hd, hsa⟩⟩
    refine hi.set_meta (o' := { o with refc := o.refc + 1 }) ho rfl rfl rfl ?_ (fun k hk => ?_) (fun y hy => ?_)
    · have := hi.refs id
      rw [refcAt_eq ho] at this
      show cnt (s.vars ++ [id]) id + sl s.heap id ≤ o.refc + 1
      rw [cnt_append, if_pos rfl]
      omega
    · show cnt (s.vars ++ [id]) k + _ ≤ _
      rw [cnt_append, if_neg hk]
      exact hi.refs k
    · rw [ha] at hy; exact hi.all hy
  | drop i =>
    left
    unfold step specStep
    dsimp only
    cases hv : s.vars[i]? with
    | none =>
      refine ⟨s, rfl, hi, ?_⟩
      rw [List.eraseIdx_of_length_le (List.getElem?_eq_none_iff.1 (hs.none hv))]
      exact hs
    | some id =>
    dsimp only
    have hd := hi.dec (f' := cnt (s.vars.eraseIdx i)) (hc.new _) (id := id) (fun k => Nat.le_of_eq (cnt_erase hv k))
    refine ⟨_, rfl, hd.1, ?_, ?_⟩
    · show (s.vars.eraseIdx i).length = _
      rw [List.length_eraseIdx, List.length_eraseIdx, hs.1]
    · intro k id' x hk hx
      have hk : (s.vars.eraseIdx i)[k]? = some id' := hk
      have hpos := cnt_pos hk
      rw [List.getElem?_eraseIdx] at hk hx
      have : ∃ k' : Nat, s.vars[k']? = some id' ∧ xs[k']? = some x := by
        split at hk <;> rename_i hlt
        · rw [if_pos hlt] at hx; exact ⟨_, hk, hx⟩
        · rw [if_neg hlt] at hx; exact ⟨_, hk, hx⟩
      obtain ⟨k', h1, h2⟩ := this
      obtain ⟨d, a, b⟩ := hs.2 k' id' x h1 h2
      exact ⟨d, view_of_arr (hd.2 id' hpos) a, b⟩
  | slice fill i off n =>
    left
    unfold step specStep mkSlice
    dsimp only
    cases hv : s.vars[i]? with
    | none => rw [hs.none hv]; exact ⟨s, rfl, hi, hs⟩
    | some id =>
    dsimp only
    obtain ⟨x, d, hx, hd, hsa⟩ := hs.get hv
    obtain ⟨o, ho, _⟩ := hi.exists (cnt_pos hv)
    rw [ho, hx]
    dsimp only
    have hlenx : len d = x.length := hsa.length
    -- a slice of array `p` with another reference
    have key : ∀ (p b : Nat) (q : Obj) (pf : Bool) (buf : Data), s.heap[p]? = some q → q.body = .own pf buf → b + n ≤ q.ia →
        Sames ((buf.elems.drop b).take n) ((x.drop off).take n) →
        ∃ s', (⟨s.heap.set p { q with refc := q.refc + 1 } ++ [⟨.slice fill p b, n, 0, 1, false, false, false⟩], s.vars ++ [s.heap.length]⟩ : State) = s' ∧
          Inv P s'.heap (cnt s'.vars) ∧ Shows s' (xs ++ [(x.drop off).take n]) := by
      intro p b q pf buf hq hqb hbn hsame
      refine ⟨_, rfl, ?_⟩
      dsimp only
      have hlen : (s.heap.set p { q with refc := q.refc + 1 }).length = s.heap.length := List.length_set
      have ha := arr_set_refc hq (q.refc + 1)
      have hset : (s.heap.set p { q with refc := q.refc + 1 })[p]? = some { q with refc := q.refc + 1 } := get_set hq _
      have hplt := (List.getElem?_eq_some_iff.1 hq).1
      have hlast : (s.heap.set p { q with refc := q.refc + 1 } ++ [⟨.slice fill p b, n, 0, 1, false, false, false⟩])[s.heap.length]? =
          some ⟨.slice fill p b, n, 0, 1, false, false, false⟩ := by
        rw [← hlen, List.getElem?_append_right (Nat.le_refl _), Nat.sub_self]; rfl
      have hgood : ∀ {k : Nat} {r}, (s.heap.set p { q with refc := q.refc + 1 })[k]? = some r → Good (s.heap.set p { q with refc := q.refc + 1 }) r := by
        intro k r hr
        by_cases hk : k = p
        · subst hk
          rw [hset] at hr
          injection hr with hr
          subst hr
          exact ((hi.good hq).same (o' := { q with refc := q.refc + 1 }) rfl rfl rfl).set_body (o' := { q with refc := q.refc + 1 }) hq rfl rfl
        · rw [List.getElem?_set_ne (Ne.symm hk)] at hr
          exact (hi.good hr).set_body (o' := { q with refc := q.refc + 1 }) hq rfl rfl
      have hold : ∀ k, k < s.heap.length → arr (s.heap.set p { q with refc := q.refc + 1 } ++ [⟨.slice fill p b, n, 0, 1, false, false, false⟩]) k = arr s.heap k := by
        intro k hk
        rw [arr_append (by rw [hlen]; exact hk) (fun r hr => hgood hr), ha]
      have hview : Append.view (s.heap.set p { q with refc := q.refc + 1 } ++ [⟨.slice fill p b, n, 0, 1, false, false, false⟩]) s.heap.length = some (sub b n buf) := by
        unfold Append.view
        rw [hlast]
        dsimp only
        rw [List.getElem?_append_left (by rw [hlen]; exact hplt), hset]
        simp only [Option.map_some, hqb]
      have harr := arr_view hlast hview
      refine ⟨⟨?_, ?_, ?_⟩, hs.push (fun k id' hk => hs.view hk (hold id' (hi.lt hk))) ⟨_, hview, by rw [sub_elems]; exact hsame⟩⟩
      · intro k r hr
        rcases Nat.lt_or_ge k s.heap.length with hk | hk
        · rw [List.getElem?_append_left (by rw [hlen]; exact hk)] at hr
          exact (hgood hr).append
        · have : k = s.heap.length := by
            have := (List.getElem?_eq_some_iff.1 hr).1
            rw [List.length_append, List.length_singleton, hlen] at this
            omega
          subst this
          rw [hlast] at hr
          injection hr with hr
          subst hr
          exact ⟨{ q with refc := q.refc + 1 }, pf, buf, by rw [List.getElem?_append_left (by rw [hlen]; exact hplt)]; exact hset, hqb, hbn⟩
      · intro k
        have hr := hi.refs k
        rw [sl_append, sl_set_body (o' := { q with refc := q.refc + 1 }) hq rfl, cnt_append]
        have hss : (if sliceOf k (⟨.slice fill p b, n, 0, 1, false, false, false⟩ : Obj) = true then 1 else 0) = if k = p then 1 else 0 := by
          by_cases h : k = p
          · subst h; rw [if_pos rfl, if_pos (by show (k == k) = true; exact beq_self_eq_true _)]
          · rw [if_neg h, if_neg (by show ¬ (p == k) = true; simpa using fun e => h e.symm)]
        rw [hss]
        by_cases hk : k = s.heap.length
        · subst hk
          rw [if_pos rfl, refcAt_eq hlast, if_neg (by omega)]
          have : refcAt s.heap s.heap.length = 0 := by unfold refcAt; simp
          show _ ≤ 1
          omega
        · rw [if_neg hk]
          by_cases hkp : k = p
          · subst hkp
            rw [if_pos rfl, refcAt_eq (by rw [List.getElem?_append_left (by rw [hlen]; exact hplt)]; exact hset)]
            rw [refcAt_eq hq] at hr
            show _ ≤ q.refc + 1
            omega
          · rw [if_neg hkp]
            have : refcAt (s.heap.set p { q with refc := q.refc + 1 } ++ [⟨.slice fill p b, n, 0, 1, false, false, false⟩]) k = refcAt s.heap k := by
              unfold refcAt
              rcases Nat.lt_or_ge k s.heap.length with hk' | hk'
              · rw [List.getElem?_append_left (by rw [hlen]; exact hk'), List.getElem?_set_ne (Ne.symm hkp)]
              · rw [List.getElem?_eq_none (by rw [List.length_append, List.length_singleton, hlen]; omega), List.getElem?_eq_none hk']
            omega
      · intro k y hy
        rcases Nat.lt_or_ge k s.heap.length with hk | hk
        · rw [hold k hk] at hy; exact hi.all hy
        · obtain ⟨r, hr, _⟩ := arr_get hy
          have : k = s.heap.length := by
            have := (List.getElem?_eq_some_iff.1 hr).1
            rw [List.length_append, List.length_singleton, hlen] at this
            omega
          subst this
          rw [harr] at hy
          injection hy with hy
          subst hy
          exact hc.new _
    have hia : o.ia = x.length := by
      rw [← hlenx]
      unfold Append.view at hd
      rw [ho] at hd
      dsimp only at hd
      have hg := hi.good ho
      cases hb : o.body with
      | own f buf =>
        rw [hb] at hd
        injection hd with hd
        rw [← hd]
        exact (sub_len (own_len hg hb).2).symm
      | slice f p b =>
        rw [hb] at hd
        dsimp only at hd
        unfold Good at hg
        rw [hb] at hg
        obtain ⟨q, pf, buf, hq, hqb, hoff⟩ := hg
        rw [hq] at hd
        simp only [Option.map_some, hqb] at hd
        injection hd with hd
        rw [← hd]
        show _ = (sub b o.ia buf).elems.length
        have := (own_len (hi.good hq) hqb).2
        have e : len buf = buf.elems.length := rfl
        rw [sub_elems, List.length_take, List.length_drop]
        omega
    by_cases hfit : off + n ≤ o.ia
    · rw [if_pos hfit, if_pos (by omega)]
      cases hb : o.body with
      | own f buf =>
        dsimp only
        obtain ⟨s', e, h1, h2⟩ := key id off o f buf ho hb hfit (by
          have hdv : d = sub 0 o.ia buf := by have := view_arr (arr_own ho hb); rw [hd] at this; injection this
          have : (d.elems.drop off).take n = (buf.elems.drop off).take n := by
            rw [hdv, sub_elems, List.drop_zero, List.drop_take, List.take_take, Nat.min_eq_left (by omega)]
          rw [← this]
          exact hsa.drop_take off n)
        rw [hb] at e
        exact ⟨s', congrArg Res.ok e, h1, h2⟩
      | slice f p b =>
        dsimp only
        have hg := hi.good ho
        unfold Good at hg
        rw [hb] at hg
        obtain ⟨q, pf, buf, hq, hqb, hoff⟩ := hg
        rw [hq]
        dsimp only
        obtain ⟨s', e, h1, h2⟩ := key p (b + off) q pf buf hq hqb (by omega) (by
          have hdv : d = sub b o.ia buf := by
            unfold Append.view at hd
            rw [ho] at hd
            dsimp only at hd
            rw [hb] at hd
            dsimp only at hd
            rw [hq] at hd
            simp only [Option.map_some, hqb] at hd
            injection hd with hd
            exact hd.symm
          have : (d.elems.drop off).take n = (buf.elems.drop (b + off)).take n := by
            rw [hdv, sub_elems, List.drop_take, List.take_take, Nat.min_eq_left (by omega), List.drop_drop]
          rw [← this]
          exact hsa.drop_take off n)
        exact ⟨s', congrArg Res.ok e, h1, h2⟩
    · rw [if_neg hfit, if_neg (by omega)]
      exact ⟨s, rfl, hi, hs⟩
  | squeeze i a =>
    left
    unfold step specStep squeeze
    dsimp only
    cases hv : s.vars[i]? with
    | none => exact ⟨s, rfl, hi, hs⟩
    | some id =>
    dsimp only
    obtain ⟨x, d, hx, hd, hsa⟩ := hs.get hv
    obtain ⟨o, ho, _⟩ := hi.exists (cnt_pos hv)
    rw [ho, hd]
    dsimp only
    have ha := arr_view ho hd
    obtain ⟨r, r1, r2, r3, r4⟩ := hc.sq _ (hi.all ha)
    rw [r1]
    dsimp only
    by_cases ht : r.data.ty = d.ty
    · rw [if_pos ht]
      have hvw := view_set_body (o' := { o with squoze := r.squoze, asc := r.asc, dsc := r.dsc }) ho rfl rfl
      refine ⟨_, rfl, ?_, hs.heap fun k id' hk => hvw id'⟩
      refine hi.set_meta (o' := { o with squoze := r.squoze, asc := r.asc, dsc := r.dsc }) ho rfl rfl rfl ?_ (fun k hk => hi.refs k) (fun y hy => ?_)
      · have := hi.refs id
        rw [refcAt_eq ho] at this
        exact this
      · have := view_arr hy
        rw [hvw, hd] at this
        obtain ⟨o', ho', e⟩ := arr_get hy
        rw [get_set ho] at ho'
        injection ho' with ho'
        subst ho'
        injection this with this
        rw [e, ← this]
        exact r4 ht
    · rw [if_neg ht]
      obtain ⟨n, buf, n1, n2, n3, n4, n5, n6, n7, n8⟩ := newObj_spec false r.data a
      rw [n1]
      dsimp only
      have hp := hi.push (o := { n with squoze := r.squoze, asc := r.asc, dsc := r.dsc }) (f' := fun k => cnt s.vars k + if k = s.heap.length then 1 else 0) n2
        ((n3 _).same (o' := { n with squoze := r.squoze, asc := r.asc, dsc := r.dsc }) rfl rfl rfl)
        (by show P ⟨sub 0 n.ia buf, _, _, _⟩; rw [n5]; exact r3) (by show 1 ≤ n.refc; omega) (fun k => Nat.le_refl _)
      have hd' := hp.1.dec (f' := cnt (s.vars.set i s.heap.length)) (hc.new _) (id := id) (fun k => Nat.le_of_eq (cnt_set hv _ k))
      refine ⟨_, rfl, hd'.1, ?_⟩
      have hl := (List.getElem?_eq_some_iff.1 hv).1
      have := hs.set (i := i) (x' := x) (h' := Append.dec (s.heap ++ [{ n with squoze := r.squoze, asc := r.asc, dsc := r.dsc }]) id) (nid := s.heap.length)
        (fun k id' hk hk' => by
          rw [hd'.2 id' (cnt_pos (i := k) (by rw [List.getElem?_set_ne (Ne.symm hk)]; exact hk')), hp.2.1 id' (hi.lt hk')])
        ⟨r.data, by
          have := hd'.2 s.heap.length (cnt_pos (i := i) (List.getElem?_set_self hl))
          rw [hp.2.2] at this
          have := view_arr this
          dsimp only at this
          rw [n5] at this
          exact this, r2.trans hsa⟩
      have hxe : xs.set i x = xs := by
        obtain ⟨hl, rfl⟩ := List.getElem?_eq_some_iff.1 hx
        exact List.set_getElem_self hl
      rw [hxe] at this
      exact this
  | mark i asc dsc =>
    left
    unfold step specStep mark
    dsimp only
    cases hv : s.vars[i]? with
    | none => exact ⟨s, rfl, hi, hs⟩
    | some id =>
    dsimp only
    obtain ⟨x, d, hx, hd, hsa⟩ := hs.get hv
    obtain ⟨o, ho, _⟩ := hi.exists (cnt_pos hv)
    rw [ho, hd]
    dsimp only
    by_cases hcond : (asc = true → d.ints.Pairwise (· ≤ ·)) ∧ (dsc = true → d.ints.Pairwise (· ≥ ·))
    · rw [if_pos hcond]
      have hvw := view_set_body (o' := { o with asc := o.asc || asc, dsc := o.dsc || dsc }) ho rfl rfl
      refine ⟨_, rfl, ?_, hs.heap fun k id' hk => hvw id'⟩
      refine hi.set_meta (o' := { o with asc := o.asc || asc, dsc := o.dsc || dsc }) ho rfl rfl rfl ?_ (fun k hk => hi.refs k) (fun y hy => ?_)
      · have := hi.refs id
        rw [refcAt_eq ho] at this
        exact this
      · have := view_arr hy
        rw [hvw, hd] at this
        obtain ⟨o', ho', e⟩ := arr_get hy
        rw [get_set ho] at ho'
        injection ho' with ho'
        subst ho'
        injection this with this
        rw [e, ← this]
        exact hc.mark _ asc dsc (hi.all (arr_view ho hd)) hcond.1 hcond.2
    · rw [if_neg hcond]; exact ⟨s, rfl, hi, hs⟩

end Verif.Append
