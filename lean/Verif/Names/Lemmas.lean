import Verif.Names.Model

/-! Lemmas on the numbers of names and on the descriptions of bodies. -/
namespace Verif.Names

/-- The table and the list agree. -/
def Globals.OK (g : Globals) : Prop := ∀ s n, g.id s = some n ↔ g.list[n]? = some s

/-- No number changes. -/
def Globals.Ext (g g' : Globals) : Prop :=
  (∀ s n, g.id s = some n → g'.id s = some n)

theorem Globals.Ext.refl (g : Globals) : g.Ext g := fun _ _ h => h

theorem Globals.Ext.trans {a b c : Globals} (h : a.Ext b) (k : b.Ext c) : a.Ext c :=
  fun s n hn => k s n (h s n hn)

theorem init_ok : Globals.init.OK := by
  intro s n; simp [Globals.init]

theorem str2gid_ok {g : Globals} (hg : g.OK) (s : Name) :
    (str2gid g s).2.OK ∧ g.Ext (str2gid g s).2 ∧ (str2gid g s).2.id s = some (str2gid g s).1 := by
  unfold str2gid
  cases hs : g.id s with
  | some v => exact ⟨hg, Globals.Ext.refl g, hs⟩
  | none =>
    dsimp only
    refine ⟨?_, ?_, by simp⟩
    · intro t n
      dsimp only
      by_cases ht : t = s
      · subst ht
        rw [if_pos rfl]
        constructor
        · intro h; cases h; simp
        · intro h
          by_cases hn : n < g.list.length
          · rw [List.getElem?_append_left hn] at h
            have := (hg t n).2 h
            rw [hs] at this; cases this
          · have : n < (g.list ++ [t]).length := by
              apply Nat.lt_of_not_le
              intro hle
              rw [List.getElem?_eq_none hle] at h; cases h
            rw [List.length_append, List.length_singleton] at this
            congr 1; omega
      · rw [if_neg ht, hg t n]
        by_cases hn : n < g.list.length
        · rw [List.getElem?_append_left hn]
        · rw [List.getElem?_eq_none (by omega), List.getElem?_append_right (by omega)]
          constructor
          · intro h; cases h
          · intro h
            by_cases h0 : n - g.list.length = 0
            · rw [h0] at h
              simp at h
              exact absurd h.symm ht
            · rw [List.getElem?_eq_none (by simp; omega)] at h; cases h
    · intro t n ht
      dsimp only
      have : t ≠ s := by
        intro x; subst x; rw [hs] at ht; cases ht
      rw [if_neg this]; exact ht

theorem OK.inj {g : Globals} (hg : g.OK) {s t : Name} {n : Nat} (h1 : g.id s = some n)
    (h2 : g.id t = some n) : s = t := by
  have a := (hg s n).1 h1
  have b := (hg t n).1 h2
  rw [a] at b
  cases b; rfl

/-- The number of an exported variable. -/
def gidOf (g : Globals) (v : Var) : Option Nat := if v.exported then v.name.bind g.id else none

/-- The variables up to the last one with a name. -/
def Decl.named (d : Decl) : List Var :=
  List.replicate d.off special ++ (d.ids.zip d.exported).map (fun p => ⟨d.names[p.1]?, p.2⟩)

theorem vars_eq (d : Decl) : d.vars = d.named ++ List.replicate (d.varAm - d.off - d.ids.length) special := by
  unfold Decl.vars Decl.named; rfl

theorem set_step {α : Type} (l : List α) (k : Nat) (v : α) (m : List α) (hk : k < l.length) :
    (l.set k v).take (k + 1) ++ m ++ (l.set k v).drop (k + 1 + m.length) =
      l.take k ++ (v :: m) ++ l.drop (k + (v :: m).length) := by
  have h1 : (l.set k v).take (k + 1) = l.take k ++ [v] := by
    rw [List.take_succ, List.take_set_of_le (Nat.le_refl k), List.getElem?_set_self hk]
    rfl
  have h2 : (l.set k v).drop (k + 1 + m.length) = l.drop (k + (m.length + 1)) := by
    rw [List.drop_set_of_lt (by omega)]
    congr 1; omega
  rw [h1, h2]
  simp

theorem descLoop_ok {names : List Name} {off : Nat} (l : List (Nat × Bool)) :
    ∀ (i : Nat) (g : Globals) (ids exp : List (Option Nat)), g.OK →
    (∀ p ∈ l, p.1 < names.length) → i + off + l.length ≤ ids.length →
    i + off + l.length ≤ exp.length →
    ∃ g', descLoop names off i l g ids exp = .ok (g',
        ids.take (i + off) ++ l.map (fun p => some p.1) ++ ids.drop (i + off + l.length),
        exp.take (i + off) ++ l.map (fun p => gidOf g' ⟨names[p.1]?, p.2⟩) ++
          exp.drop (i + off + l.length)) ∧
      g'.OK ∧ g.Ext g' ∧ ∀ p ∈ l, p.2 = true → ∃ s n, names[p.1]? = some s ∧ g'.id s = some n := by
  induction l with
  | nil =>
    intro i g ids exp hg _ h1 h2
    refine ⟨g, ?_, hg, Globals.Ext.refl g, nofun⟩
    simp [descLoop]
  | cons p l ih =>
    obtain ⟨cid, cexp⟩ := p
    intro i g ids exp hg hl h1 h2
    rw [List.length_cons] at h1 h2
    have hcid : cid < names.length := hl (cid, cexp) List.mem_cons_self
    have hl' : ∀ p ∈ l, p.1 < names.length := fun p hp => hl p (List.mem_cons_of_mem _ hp)
    rw [descLoop, if_pos ⟨by omega, by omega⟩]
    have hi1 : ∀ v, i + 1 + off + l.length ≤ (ids.set (i + off) v).length := by
      intro v; rw [List.length_set]; omega
    have he1 : ∀ v, i + 1 + off + l.length ≤ (exp.set (i + off) v).length := by
      intro v; rw [List.length_set]; omega
    have hsh : i + 1 + off = i + off + 1 := by omega
    cases cexp with
    | true =>
      simp only [if_true]
      rw [List.getElem?_eq_getElem hcid]
      dsimp only
      obtain ⟨hg', hx, hid⟩ := str2gid_ok hg names[cid]
      obtain ⟨g2, hd, hok, hxx, hall⟩ := ih (i + 1) (str2gid g names[cid]).2
        (ids.set (i + off) (some cid)) (exp.set (i + off) (some (str2gid g names[cid]).1)) hg' hl'
        (hi1 _) (he1 _)
      refine ⟨g2, ?_, hok, hx.trans hxx, ?_⟩
      · rw [hd, hsh]
        have e1 := set_step ids (i + off) (some cid) (l.map fun p => some p.1) (by omega)
        have e2 := set_step exp (i + off) (some (str2gid g names[cid]).1)
          (l.map fun p => gidOf g2 ⟨names[p.1]?, p.2⟩) (by omega)
        rw [List.length_map] at e1 e2
        rw [e1, e2]
        have e3 : gidOf g2 ⟨names[cid]?, true⟩ = some (str2gid g names[cid]).1 := by
          unfold gidOf
          simp only [if_true]
          rw [List.getElem?_eq_getElem hcid]
          exact hxx _ _ hid
        simp only [List.map_cons, List.length_cons, List.length_map, e3]
      · intro p hp hpt
        rcases List.mem_cons.1 hp with hp | hp
        · subst hp
          exact ⟨names[cid], _, List.getElem?_eq_getElem hcid, hxx _ _ hid⟩
        · exact hall p hp hpt
    | false =>
      simp only [Bool.false_eq_true, if_false]
      obtain ⟨g2, hd, hok, hxx, hall⟩ := ih (i + 1) g
        (ids.set (i + off) (some cid)) (exp.set (i + off) none) hg hl' (hi1 _) (he1 _)
      refine ⟨g2, ?_, hok, hxx, ?_⟩
      · rw [hd, hsh]
        have e1 := set_step ids (i + off) (some cid) (l.map fun p => some p.1) (by omega)
        have e2 := set_step exp (i + off) none
          (l.map fun p => gidOf g2 ⟨names[p.1]?, p.2⟩) (by omega)
        rw [List.length_map] at e1 e2
        rw [e1, e2]
        have e3 : gidOf g2 ⟨names[cid]?, false⟩ = none := by
          unfold gidOf; simp
        simp only [List.map_cons, List.length_cons, List.length_map, e3]
      · intro p hp hpt
        rcases List.mem_cons.1 hp with hp | hp
        · subst hp; cases hpt
        · exact hall p hp hpt

/-- What a body knows of its declaration. -/
structure BodyOK (g : Globals) (d : Decl) (b : Body) : Prop where
  good : d.Good
  names : b.names = d.names
  am : b.descAm = d.named.length
  len : d.named.length ≤ b.exp.length
  exp : b.exp.take b.descAm = d.named.map (gidOf g)
  known : ∀ v ∈ d.named, v.exported = true → ∃ (s : Name) (n : Nat), v.name = some s ∧ g.id s = some n
  ids : b.ids.map (fun o => o.bind fun i => b.names[i]?) = d.vars.map Var.name
  valid : ∀ i, some i ∈ b.ids → i < b.names.length
  glen : b.gids.length = d.varAm
  cache : ∀ (p n : Nat), b.gids[p]? = some (some n) →
    ∃ (v : Var) (s : Name), d.vars[p]? = some v ∧ v.name = some s ∧ g.id s = some n

theorem named_length {d : Decl} (hd : d.Good) : d.named.length = d.ids.length + d.off := by
  unfold Decl.named
  rw [List.length_append, List.length_replicate, List.length_map, List.length_zip, hd.len]
  omega

theorem BodyOK.ext {g g' : Globals} {d : Decl} {b : Body} (h : BodyOK g d b) (hx : g.Ext g') :
    BodyOK g' d b := by
  refine ⟨h.good, h.names, h.am, h.len, ?_, ?_, h.ids, h.valid, h.glen, ?_⟩
  · rw [h.exp]
    apply List.map_congr_left
    intro v hv
    unfold gidOf
    by_cases he : v.exported = true
    · obtain ⟨s, n, hs, hn⟩ := h.known v hv he
      rw [if_pos he, if_pos he, hs]
      have e1 : (some s).bind g.id = g.id s := rfl
      have e2 : (some s).bind g'.id = g'.id s := rfl
      rw [e1, e2, hn, hx s n hn]
    · rw [if_neg he, if_neg he]
  · intro v hv he
    obtain ⟨s, n, hs, hn⟩ := h.known v hv he
    exact ⟨s, n, hs, hx s n hn⟩
  · intro p n hp
    obtain ⟨v, s, hv, hs, hn⟩ := h.cache p n hp
    exact ⟨v, s, hv, hs, hx s n hn⟩

theorem nsDesc_ok {g : Globals} (hg : g.OK) {d : Decl} (hd : d.Good) :
    ∃ g' b, nsDesc g d = .ok (g', b) ∧ g'.OK ∧ g.Ext g' ∧ BodyOK g' d b := by
  have hzl : (d.ids.zip d.exported).length = d.ids.length := by
    rw [List.length_zip, hd.len]; omega
  obtain ⟨g', he, hok, hx, hall⟩ := descLoop_ok (names := d.names) (off := d.off)
    (d.ids.zip d.exported) 0 g (List.replicate d.varAm none) (List.replicate d.varAm none) hg
    (by
      intro p hp
      exact hd.idx p.1 (List.of_mem_zip hp).1)
    (by rw [List.length_replicate, hzl]; have := hd.room; omega)
    (by rw [List.length_replicate, hzl]; have := hd.room; omega)
  have hroom := hd.room
  rw [hzl, Nat.zero_add, List.take_replicate, List.drop_replicate,
    Nat.min_eq_left (by omega)] at he
  have hn : ∀ r, descLoop d.names d.off 0 (d.ids.zip d.exported) g
      (List.replicate d.varAm none) (List.replicate d.varAm none) = .ok r →
      nsDesc g d = .ok (r.1, ⟨d.names, List.replicate d.varAm none, r.2.1, r.2.2, d.ids.length + d.off⟩) := by
    intro r hr
    unfold nsDesc
    rw [if_neg (by rw [hd.len]; simp), hr]
  refine ⟨g', _, hn _ he, hok, hx, ?_⟩
  · refine ⟨hd, rfl, (named_length hd).symm, ?_, ?_, ?_, ?_, ?_, by simp, ?_⟩
    · rw [named_length hd]
      dsimp only
      simp only [List.length_append, List.length_replicate, List.length_map, hzl]
      omega
    · dsimp only
      rw [List.take_append_of_le_length (by
        simp only [List.length_append, List.length_replicate, List.length_map, hzl]; omega)]
      rw [List.take_of_length_le (by
        simp only [List.length_append, List.length_replicate, List.length_map, hzl]; omega)]
      unfold Decl.named
      rw [List.map_append, List.map_replicate, List.map_map]
      rfl
    · intro v hv hexp
      unfold Decl.named at hv
      rcases List.mem_append.1 hv with hv | hv
      · rw [List.eq_of_mem_replicate hv] at hexp; cases hexp
      · obtain ⟨p, hp, rfl⟩ := List.mem_map.1 hv
        exact hall p hp hexp
    · dsimp only
      unfold Decl.vars
      simp only [List.map_append, List.map_replicate, List.map_map]
      have : d.varAm - (d.off + d.ids.length) = d.varAm - d.off - d.ids.length := by omega
      rw [this]
      rfl
    · intro i hi
      dsimp only at hi ⊢
      rcases List.mem_append.1 hi with hi | hi
      · rcases List.mem_append.1 hi with hi | hi
        · have := List.eq_of_mem_replicate hi; cases this
        · obtain ⟨p, hp, e⟩ := List.mem_map.1 hi
          cases e
          exact hd.idx _ (List.of_mem_zip hp).1
      · have := List.eq_of_mem_replicate hi; cases this
    · intro p n hp
      dsimp only at hp
      by_cases hpl : p < d.varAm
      · rw [List.getElem?_replicate_of_lt hpl] at hp; cases hp
      · rw [List.getElem?_eq_none (by simp; omega)] at hp; cases hp

/-! ## Looking a number up -/

theorem findGid_eq (exp : List (Option Nat)) (gid : Nat) : ∀ k i, i + k ≤ exp.length →
    findGid exp gid k i =
      .ok ((((exp.drop i).take k).findIdx? (fun e => e == some gid)).map (· + i)) := by
  intro k
  induction k with
  | zero => intro i _; simp [findGid]
  | succ k ih =>
    intro i hi
    have hlt : i < exp.length := by omega
    rw [findGid, List.getElem?_eq_getElem hlt]
    dsimp only
    rw [List.drop_eq_getElem_cons hlt, List.take_succ_cons, List.findIdx?_cons]
    by_cases he : exp[i] = some gid
    · rw [if_pos he, he]; simp
    · rw [if_neg he, ih (i + 1) (by omega)]
      have hb : (exp[i] == some gid) = false := by simpa using he
      simp only [hb, Bool.false_eq_true, if_false, Option.map_map]
      congr 2
      funext x
      simp only [Function.comp]
      omega

theorem findIdx?_special (n : Nat) (s : Name) :
    (List.replicate n special).findIdx? (fun v => v.exported && v.name == some s) = none := by
  rw [List.findIdx?_eq_none_iff]
  intro v hv
  rw [List.eq_of_mem_replicate hv]; rfl

theorem field_named (d : Decl) (s : Name) : field d.vars s = field d.named s := by
  unfold field
  rw [vars_eq, List.findIdx?_append, findIdx?_special]
  simp

theorem gidOf_match {g : Globals} (hg : g.OK) {v : Var} {s : Name} {n : Nat} (hs : g.id s = some n) :
    (gidOf g v == some n) = (v.exported && v.name == some s) := by
  unfold gidOf
  cases v.exported with
  | false => simp
  | true =>
    cases hv : v.name with
    | none => simp
    | some t =>
      simp only [if_true, Option.bind_some, Bool.true_and]
      by_cases ht : t = s
      · subst ht; simp [hs]
      · have h1 : (some t == some s) = false := by simpa using ht
        rw [h1]
        have : g.id t ≠ some n := fun x => ht (OK.inj hg x hs)
        simpa using this

/-- The search finds the field. -/
theorem findGid_field {g : Globals} (hg : g.OK) {d : Decl} {b : Body} (hb : BodyOK g d b) {s : Name}
    {n : Nat} (hs : g.id s = some n) :
    findGid b.exp n b.descAm 0 = .ok (field d.vars s) := by
  have hlen := hb.len
  rw [findGid_eq _ _ _ _ (by rw [hb.am]; omega), List.drop_zero, hb.exp, field_named]
  unfold field
  rw [List.findIdx?_map]
  have : ((fun e => e == some n) ∘ gidOf g) = (fun v => v.exported && v.name == some s) := by
    funext v
    exact gidOf_match hg hs
  rw [this]
  simp

/-- A name without a number is no field. -/
theorem field_unknown {g : Globals} {d : Decl} {b : Body} (hb : BodyOK g d b) {s : Name}
    (hs : g.id s = none) : field d.vars s = none := by
  rw [field_named]
  unfold field
  rw [List.findIdx?_eq_none_iff]
  intro v hv
  cases he : v.exported with
  | false => rfl
  | true =>
    obtain ⟨t, n, ht, hn⟩ := hb.known v hv he
    have : t ≠ s := by
      intro x; subst x; rw [hs] at hn; cases hn
    rw [ht]
    simpa using this

theorem vars_length {d : Decl} (hd : d.Good) : d.vars.length = d.varAm := by
  have h1 := named_length hd
  have h2 := hd.room
  rw [vars_eq, List.length_append, List.length_replicate, h1]; omega

theorem field_lt {vs : List Var} {s : Name} {i : Nat} (h : field vs s = some i) : i < vs.length := by
  unfold field at h
  rw [List.findIdx?_eq_some_iff_getElem] at h
  exact h.1

/-! ## Histories -/

def decls : List Op → List Decl
  | [] => []
  | .compile d :: ops => d :: decls ops
  | _ :: ops => decls ops

theorem decls_append (a b : List Op) : decls (a ++ b) = decls a ++ decls b := by
  induction a with
  | nil => rfl
  | cons op a ih =>
    cases op <;> simp [decls, ih]

/-- `ds` are the declarations of the bodies. -/
structure StateOK (ds : List Decl) (st : State) : Prop where
  g : st.g.OK
  len : st.bodies.length = ds.length
  body : ∀ (k : Nat) d b, ds[k]? = some d → st.bodies[k]? = some b → BodyOK st.g d b

theorem pos2gid_ok {g : Globals} (hg : g.OK) {d : Decl} {b : Body} (hb : BodyOK g d b) {pos : Nat}
    {v : Var} (hv : d.vars[pos]? = some v) :
    (v.name = none ∧ pos2gid g b pos = .err) ∨
    ∃ s n g' b', v.name = some s ∧ pos2gid g b pos = .ok (n, g', b') ∧ g'.OK ∧ g.Ext g' ∧
      g'.id s = some n ∧ BodyOK g' d b' := by
  have hpl : pos < d.vars.length := by
    apply Nat.lt_of_not_le
    intro hle
    rw [List.getElem?_eq_none hle] at hv; cases hv
  have hpg : pos < b.gids.length := by rw [hb.glen, ← vars_length hb.good]; exact hpl
  unfold pos2gid
  cases hgp : b.gids[pos]? with
  | none => rw [List.getElem?_eq_getElem hpg] at hgp; cases hgp
  | some o =>
    cases o with
    | some n =>
      obtain ⟨v', s, hv', hs, hn⟩ := hb.cache pos n hgp
      rw [hv] at hv'; cases hv'
      exact .inr ⟨s, n, g, b, hs, rfl, hg, Globals.Ext.refl g, hn, hb⟩
    | none =>
      dsimp only
      have hids := congrArg (fun l => l[pos]?) hb.ids
      simp only [List.getElem?_map, hv, Option.map_some] at hids
      cases hip : b.ids[pos]? with
      | none => rw [hip] at hids; cases hids
      | some o =>
        rw [hip] at hids
        cases o with
        | none =>
          simp only [Option.map_some, Option.bind_none, Option.some.injEq] at hids
          exact .inl ⟨hids.symm, rfl⟩
        | some i =>
          simp only [Option.map_some, Option.bind_some, Option.some.injEq] at hids
          have hi := hb.valid i (List.mem_of_getElem? hip)
          rw [List.getElem?_eq_getElem hi] at hids
          dsimp only
          rw [List.getElem?_eq_getElem hi]
          dsimp only
          obtain ⟨hg', hx, hid⟩ := str2gid_ok hg b.names[i]
          refine .inr ⟨b.names[i], _, _, _, hids.symm, rfl, hg', hx, hid, ?_⟩
          have hb' := hb.ext hx
          refine ⟨hb'.good, hb'.names, hb'.am, hb'.len, hb'.exp, hb'.known, hb'.ids, hb'.valid, ?_, ?_⟩
          · dsimp only
            rw [List.length_set]; exact hb'.glen
          · intro p n hp
            dsimp only at hp
            by_cases hpp : pos = p
            · subst hpp
              rw [List.getElem?_set_self hpg] at hp
              cases hp
              exact ⟨v, b.names[i], hv, hids.symm, hid⟩
            · rw [List.getElem?_set_ne hpp] at hp
              exact hb'.cache p n hp

theorem act_ok {ds : List Decl} {st : State} (h : StateOK ds st) (op : Op)
    (hop : ∀ d ∈ decls [op], d.Good) :
    ∃ st', act st op = .ok st' ∧ StateOK (ds ++ decls [op]) st' ∧ st.g.Ext st'.g := by
  cases op with
  | mention s =>
    obtain ⟨hg', hx, _⟩ := str2gid_ok h.g s
    refine ⟨_, rfl, ⟨hg', ?_, ?_⟩, hx⟩
    · simp [decls]; exact h.len
    · intro k d b hd hb
      simp only [decls, List.append_nil] at hd
      exact (h.body k d b hd hb).ext hx
  | compile d =>
    obtain ⟨g', b, he, hok, hx, hbo⟩ := nsDesc_ok h.g (hop d (by simp [decls]))
    refine ⟨⟨g', st.bodies ++ [b]⟩, by rw [act, he], ⟨hok, ?_, ?_⟩, hx⟩
    · simp [decls, h.len]
    · intro k d' b' hd' hb'
      simp only [decls] at hd'
      dsimp only at hb' ⊢
      by_cases hk : k < ds.length
      · rw [List.getElem?_append_left hk] at hd'
        rw [List.getElem?_append_left (by rw [h.len]; exact hk)] at hb'
        exact (h.body k d' b' hd' hb').ext hx
      · rw [List.getElem?_append_right (by omega)] at hd'
        rw [List.getElem?_append_right (by rw [h.len]; omega), h.len] at hb'
        by_cases h0 : k - ds.length = 0
        · rw [h0] at hd' hb'
          cases hd'; cases hb'
          exact hbo
        · rw [List.getElem?_eq_none (by simp; omega)] at hd'; cases hd'
  | extract k pos =>
    simp only [decls, List.append_nil]
    rw [act]
    cases hk : st.bodies[k]? with
    | none => exact ⟨st, rfl, h, Globals.Ext.refl _⟩
    | some b =>
      dsimp only
      have hkl : k < st.bodies.length := by
        apply Nat.lt_of_not_le
        intro hle
        rw [List.getElem?_eq_none hle] at hk; cases hk
      have hkd : k < ds.length := by rw [← h.len]; exact hkl
      have hbo := h.body k ds[k] b (List.getElem?_eq_getElem hkd) hk
      by_cases hp : pos < b.gids.length
      · rw [if_pos hp]
        have hpv : pos < ds[k].vars.length := by
          rw [vars_length hbo.good, ← hbo.glen]; exact hp
        rcases pos2gid_ok h.g hbo (List.getElem?_eq_getElem hpv) with ⟨_, he⟩ | ⟨s, n, g', b', _, he, hok, hx, _, hb'⟩
        · rw [he]
          exact ⟨st, rfl, h, Globals.Ext.refl _⟩
        · rw [he]
          refine ⟨_, rfl, ⟨hok, ?_, ?_⟩, hx⟩
          · rw [List.length_set]; exact h.len
          · intro j d' c hd' hc
            dsimp only at hc ⊢
            by_cases hj : k = j
            · subst hj
              rw [List.getElem?_set_self hkl] at hc
              cases hc
              rw [List.getElem?_eq_getElem hkd] at hd'
              cases hd'
              exact hb'
            · rw [List.getElem?_set_ne hj] at hc
              exact (h.body j d' c hd' hc).ext hx
      · rw [if_neg hp]
        exact ⟨st, rfl, h, Globals.Ext.refl _⟩

theorem decls_cons (op : Op) (ops : List Op) : decls (op :: ops) = decls [op] ++ decls ops :=
  decls_append [op] ops

theorem history_ok (ops : List Op) : ∀ {ds : List Decl} {st : State}, StateOK ds st →
    (∀ d ∈ decls ops, d.Good) →
    ∃ st', history st ops = .ok st' ∧ StateOK (ds ++ decls ops) st' ∧ st.g.Ext st'.g := by
  induction ops with
  | nil =>
    intro ds st h _
    exact ⟨st, rfl, by simpa [decls] using h, Globals.Ext.refl _⟩
  | cons op ops ih =>
    intro ds st h hg
    rw [decls_cons] at hg
    obtain ⟨st1, h1, hok, hx⟩ := act_ok h op (fun d hd => hg d (List.mem_append_left _ hd))
    obtain ⟨st2, h2, hok2, hx2⟩ := ih hok (fun d hd => hg d (List.mem_append_right _ hd))
    refine ⟨st2, ?_, ?_, hx.trans hx2⟩
    · rw [history, h1]; exact h2
    · rw [decls_cons, ← List.append_assoc]; exact hok2

theorem init_state : StateOK [] State.init :=
  ⟨init_ok, rfl, fun k d b hd _ => by simp at hd⟩

/-! ## Names as they are written -/

theorem zip_filter (f : Nat → Nat) (l : Name) :
    (l.zip (l.map f)).filterMap (fun (x, c) => if x != 95 then some c else none) =
      (l.filter (· != 95)).map f := by
  induction l with
  | nil => rfl
  | cons a l ih =>
    rw [List.map_cons, List.zip_cons_cons]
    by_cases ha : (a != 95) = true
    · rw [List.filter_cons_of_pos (p := (· != 95)) ha, List.map_cons, ← ih,
        List.filterMap_cons_some (b := f a) (by simp only [ha, if_true])]
    · rw [List.filter_cons_of_neg (p := (· != 95)) ha, ← ih,
        List.filterMap_cons_none (by simp only [ha]; rfl)]

theorem upper_eq (c : Nat) : (isUpper c && c != 215) = isCapital c := by
  unfold isUpper isCapital
  by_cases h1 : c = 215
  · subst h1; decide
  · have : (c != 215) = true := by simpa using h1
    rw [this]; simp

theorem zip_self_append (a b : Name) (f : Nat → Nat) :
    (a ++ b).zip (a ++ b.map f) = a.zip a ++ b.zip (b.map f) := by
  rw [List.zip_append rfl]

theorem normalize_eq (l : Name) : ∀ done, (∀ c ∈ done, isUpper c = false ∧ c ≠ 95) →
    normalize done l = done ++ plain l := by
  induction l with
  | nil => intro done _; simp [normalize, plain]
  | cons c l ih =>
    intro done hd
    rw [normalize]
    by_cases hc : (isUpper c || c == 95) = true
    · rw [if_pos hc]
      dsimp only
      rw [zip_self_append, List.filterMap_append, zip_filter]
      have h1 : (done.zip done).filterMap (fun (x, c) => if x != 95 then some c else none) = done := by
        have := zip_filter id done
        rw [List.map_id, List.map_id] at this
        rw [this]
        apply List.filter_eq_self.2
        intro a ha
        simpa using (hd a ha).2
      rw [h1]
      unfold plain
      simp only [upper_eq]
    · rw [if_neg hc]
      have hc' : isUpper c = false ∧ c ≠ 95 := by
        simpa using hc
      rw [ih (done ++ [c]) (by
        intro a ha
        rcases List.mem_append.1 ha with ha | ha
        · exact hd a ha
        · rw [List.mem_singleton.1 ha]; exact hc')]
      unfold plain
      have h95 : (c != 95) = true := by simpa using hc'.2
      have hcap : isCapital c = false := by
        rw [← upper_eq, hc'.1]; rfl
      rw [List.filter_cons_of_pos (p := (· != 95)) h95, List.map_cons, hcap]
      simp

end Verif.Names
