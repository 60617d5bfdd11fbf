import Verif.Names.Lemmas

/-!
# Properties: a field of a namespace is the exported variable with its name

Names are numbered when they are first met, anywhere in the program, and fields
are found by number.  The numbers depend on the history; what a field gives does
not.
-/
namespace Verif.Names

/-- The value of a field: that of the variable, or an error. -/
def Gives {α : Type} (d : Decl) (vars : List α) (s : Name) (r : Out α) : Prop :=
  match field d.vars s with
  | some i => ∃ v, vars[i]? = some v ∧ r = .ok v
  | none => r = .err

/-! ## An example: two bodies, compiled after a field was named.
`"a"` is 97, `"b"` is 98, `"c"` is 99. -/

/-- Two variables without a name, then `b`, and `a` and `c` exported. -/
def first : Decl := ⟨[[97], [98], [99]], [1, 0, 2], [false, true, true], 2, 5⟩
/-- `c` and `b` exported, and room for two more. -/
def second : Decl := ⟨[[99], [98]], [0, 1], [true, true], 0, 4⟩

theorem first_good : first.Good := ⟨rfl, by decide, by decide⟩
theorem second_good : second.Good := ⟨rfl, by decide, by decide⟩

def sample : List Op := [.mention [98], .compile first, .extract 0 4, .compile second, .mention [120]]

theorem sample_good : ∀ d ∈ decls sample, d.Good := by
  intro d hd
  simp only [sample, decls, List.mem_cons, List.not_mem_nil, or_false] at hd
  rcases hd with rfl | rfl
  · exact first_good
  · exact second_good

/-- What is left of a state that can be compared. -/
def view : Out State → Option (List Name × List Body)
  | .ok st => some (st.g.list, st.bodies)
  | _ => none

example : view (history State.init sample) = some ([[98], [97], [99], [120]],
    [⟨[[97], [98], [99]], [none, none, none, none, some 2], [none, none, some 1, some 0, some 2],
      [none, none, none, some 1, some 2], 5⟩,
     ⟨[[99], [98]], [none, none, none, none], [some 0, some 1, none, none],
      [some 2, some 0, none, none], 2⟩]) := by decide

/-! ## Histories -/

/-- Nothing outside of an array is read or written, whatever is compiled and in
whatever order. -/
theorem history_runs (ops : List Op) (h : ∀ d ∈ decls ops, d.Good) :
    ∃ st, history State.init ops = .ok st ∧ st.bodies.length = (decls ops).length := by
  obtain ⟨st, he, hok, _⟩ := history_ok ops init_state h
  exact ⟨st, he, by simpa using hok.len⟩

example : ∃ st, history State.init sample = .ok st ∧ st.bodies.length = 2 := history_runs sample sample_good

/-- Two names have the same number exactly when they are the same, and a number
gives its name back. -/
theorem numbers_distinct (ops : List Op) (h : ∀ d ∈ decls ops, d.Good) {st : State}
    (hs : history State.init ops = .ok st) (s t : Name) :
    ((str2gid st.g s).1 = (str2gid (str2gid st.g s).2 t).1 ↔ s = t) ∧
    gid2str (str2gid st.g s).2 (str2gid st.g s).1 = .ok s := by
  obtain ⟨st', he, hok, _⟩ := history_ok ops init_state h
  rw [hs] at he; cases he
  obtain ⟨h1, h2, h3⟩ := str2gid_ok hok.g s
  obtain ⟨k1, k2, k3⟩ := str2gid_ok h1 t
  refine ⟨⟨?_, ?_⟩, ?_⟩
  · intro he
    apply OK.inj k1 (n := (str2gid st.g s).1)
    · exact k2 _ _ h3
    · rw [he]; exact k3
  · intro he
    subst he
    have := k2 _ _ h3
    rw [k3] at this
    exact (Option.some.inj this).symm
  · unfold gid2str
    rw [(h1 s _).1 h3]

example : (str2gid Globals.init [97]).1 ≠ (str2gid (str2gid Globals.init [97]).2 [98]).1 := by decide

theorem gives_of_find {α : Type} {d : Decl} (hd : d.Good) {vars : List α} (hv : vars.length = d.varAm)
    {s : Name} {r : Out (Option Nat)} (hr : r = .ok (field d.vars s)) : Gives d vars s (valueAt vars r) := by
  subst hr
  unfold Gives
  cases hf : field d.vars s with
  | none => rfl
  | some i =>
    have hi : i < vars.length := by
      rw [hv, ← vars_length hd]; exact field_lt hf
    exact ⟨vars[i], List.getElem?_eq_getElem hi, by simp [valueAt, List.getElem?_eq_getElem hi]⟩

/-- `ns.s` in a program.  Its number was taken when the program was compiled, at
some point of the history; the namespace is of a body compiled before or after
that.  It gives the value of the first exported variable of that name, and an
error when there is none. -/
theorem field_read {α : Type} (before after : List Op) (s : Name)
    (hg : ∀ d ∈ decls (before ++ after), d.Good) :
    ∃ st1 st2, history State.init (before ++ [.mention s]) = .ok st1 ∧
      history st1 after = .ok st2 ∧
      ∀ (k : Nat) (d : Decl) (vars : List α), (decls (before ++ after))[k]? = some d →
        vars.length = d.varAm →
        ∃ b, st2.bodies[k]? = some b ∧ Gives d vars s (nsGetU b vars (str2gid st1.g s).1) := by
  rw [decls_append] at hg
  have hd1 : decls (before ++ [.mention s]) = decls before := by
    rw [decls_append]; simp [decls]
  obtain ⟨st0, h0, hok0, _⟩ := history_ok (before ++ [.mention s]) init_state (by
    rw [hd1]; exact fun d hd => hg d (List.mem_append_left _ hd))
  rw [hd1, List.nil_append] at hok0
  obtain ⟨st2, h2, hok2, hx⟩ := history_ok after hok0 (fun d hd => hg d (List.mem_append_right _ hd))
  refine ⟨st0, st2, h0, h2, ?_⟩
  intro k d vars hk hv
  rw [decls_append] at hk
  have hkl : k < st2.bodies.length := by
    rw [hok2.len]
    apply Nat.lt_of_not_le
    intro hle
    rw [List.getElem?_eq_none hle] at hk; cases hk
  refine ⟨st2.bodies[k], List.getElem?_eq_getElem hkl, ?_⟩
  have hb := hok2.body k d _ hk (List.getElem?_eq_getElem hkl)
  obtain ⟨_, _, hid⟩ := str2gid_ok hok0.g s
  have hid0 : st0.g.id s = some (str2gid st0.g s).1 := by
    have hex : ∃ n, st0.g.id s = some n := by
      have hap : ∀ (a : List Op) (st : State) (b : List Op),
          history st (a ++ b) = (match history st a with | .ok st' => history st' b | .err => .err | .ub => .ub) := by
        intro a
        induction a with
        | nil => intro st b; rfl
        | cons op a ih =>
          intro st b
          rw [List.cons_append, history, history]
          cases act st op with
          | ok st' => exact ih st' b
          | err => rfl
          | ub => rfl
      rw [hap] at h0
      cases hb0 : history State.init before with
      | ok st' =>
        rw [hb0] at h0
        obtain ⟨stb, hstb, hokb, _⟩ := history_ok before init_state
          (fun d hd => hg d (List.mem_append_left _ hd))
        rw [hb0] at hstb; cases hstb
        simp only [history, act] at h0
        cases h0
        exact ⟨_, (str2gid_ok hokb.g s).2.2⟩
      | err => rw [hb0] at h0; cases h0
      | ub => rw [hb0] at h0; cases h0
    obtain ⟨n, hn⟩ := hex
    have : str2gid st0.g s = (n, st0.g) := by
      unfold str2gid; rw [hn]
    rw [this]; exact hn
  exact gives_of_find hb.good hv (findGid_field hok2.g hb (hx _ _ hid0))

example : ∃ b, nsGetU (α := Nat) b [10, 11, 12, 13, 14] 1 = .ok 13 ∧ b.exp = [none, none, none, some 1, some 2] ∧
    field first.vars [97] = some 3 ∧ field first.vars [98] = none ∧ field second.vars [98] = some 1 :=
  ⟨⟨[], [], [], [none, none, none, some 1, some 2], 5⟩, by decide⟩

/-- `•ns.Get`, `•ns.Has` and `•ns.Keys`, at any time: the name is found however
it is written. -/
theorem get_reads {α : Type} (ops : List Op) (hg : ∀ d ∈ decls ops, d.Good) {st : State}
    (hs : history State.init ops = .ok st) {k : Nat} {d : Decl} (hk : (decls ops)[k]? = some d)
    {vars : List α} (hv : vars.length = d.varAm) (s : Name) :
    ∃ b, st.bodies[k]? = some b ∧ Gives d vars (plain s) (nGet st.g b vars s) ∧
      nHas st.g b vars s = .ok (field d.vars (plain s)).isSome ∧
      nKeys st.g b = .ok (keys d.vars) := by
  obtain ⟨st', he, hok, _⟩ := history_ok ops init_state hg
  rw [hs] at he; cases he
  rw [List.nil_append] at hok
  have hkl : k < st.bodies.length := by
    rw [hok.len]
    apply Nat.lt_of_not_le
    intro hle
    rw [List.getElem?_eq_none hle] at hk; cases hk
  have hb := hok.body k d _ hk (List.getElem?_eq_getElem hkl)
  have hn : normalize [] s = plain s := by
    rw [normalize_eq s [] nofun]; rfl
  have hget : Gives d vars (plain s) (nsGetNU st.g st.bodies[k] vars (plain s)) := by
    unfold nsGetNU str2gidQ
    cases hid : st.g.id (plain s) with
    | none =>
      unfold Gives
      rw [field_unknown hb hid]
    | some n => exact gives_of_find hb.good hv (findGid_field hok.g hb hid)
  refine ⟨st.bodies[k], List.getElem?_eq_getElem hkl, ?_, ?_, ?_⟩
  · unfold nGet
    rw [hn]
    exact hget
  · unfold nHas
    rw [hn]
    unfold Gives at hget
    cases hf : field d.vars (plain s) with
    | none =>
      rw [hf] at hget
      rw [hget]; rfl
    | some i =>
      rw [hf] at hget
      obtain ⟨v, _, hr⟩ := hget
      rw [hr]; rfl
  · unfold nKeys
    rw [hb.exp]
    have hkeys : keys d.vars = keys d.named := by
      unfold keys
      rw [vars_eq, List.filterMap_append, List.filterMap_replicate_of_none rfl, List.append_nil]
    rw [hkeys]
    have : ∀ l : List Var, (∀ v ∈ l, v.exported = true → ∃ (s : Name) (n : Nat), v.name = some s ∧ st.g.id s = some n) →
        (l.map (gidOf st.g)).foldr (fun e (r : Out (List Name)) =>
          match r with
          | .ok l =>
            match e with
            | none => .ok l
            | some n =>
              match gid2str st.g n with
              | .ok s => .ok (s :: l)
              | _ => .ub
          | r => r) (.ok []) = .ok (keys l) := by
      intro l hl
      induction l with
      | nil => rfl
      | cons v l ih =>
        rw [List.map_cons, List.foldr_cons, ih (fun w hw => hl w (List.mem_cons_of_mem _ hw))]
        dsimp only
        unfold keys gidOf
        cases he : v.exported with
        | false =>
          rw [List.filterMap_cons_none (by simp [he])]
          rfl
        | true =>
          obtain ⟨s, n, hvs, hsn⟩ := hl v List.mem_cons_self he
          rw [List.filterMap_cons_some (b := s) (by simp [he, hvs]), hvs]
          simp only [if_true, Option.bind_some, hsn]
          unfold gid2str
          rw [(hok.g s n).1 hsn]
    exact this _ hb.known

example : plain [65, 95, 215, 198] = [97, 215, 230] ∧ keys first.vars = [[97], [99]] ∧
    (field first.vars (plain [95, 67])).isSome = true := by decide

/-- A variable that takes its value from a namespace takes that of the field with
its own name; a variable without a name is an error. -/
theorem extract_reads {α : Type} (ops : List Op) (hg : ∀ d ∈ decls ops, d.Good) {st : State}
    (hs : history State.init ops = .ok st) {k j : Nat} {d e : Decl} (hk : (decls ops)[k]? = some d)
    (hj : (decls ops)[j]? = some e) {vars : List α} (hv : vars.length = e.varAm) {pos : Nat} {v : Var}
    (hp : d.vars[pos]? = some v) :
    ∃ b c, st.bodies[k]? = some b ∧ st.bodies[j]? = some c ∧
      match v.name with
      | none => pos2gid st.g b pos = .err
      | some s => ∃ n g' b', pos2gid st.g b pos = .ok (n, g', b') ∧ Gives e vars s (nsGetU c vars n) := by
  obtain ⟨st', he, hok, _⟩ := history_ok ops init_state hg
  rw [hs] at he; cases he
  rw [List.nil_append] at hok
  have hlt : ∀ {i : Nat} {x : Decl}, (decls ops)[i]? = some x → i < st.bodies.length := by
    intro i x hi
    rw [hok.len]
    apply Nat.lt_of_not_le
    intro hle
    rw [List.getElem?_eq_none hle] at hi; cases hi
  have hb := hok.body k d _ hk (List.getElem?_eq_getElem (hlt hk))
  have hc := hok.body j e _ hj (List.getElem?_eq_getElem (hlt hj))
  refine ⟨_, _, List.getElem?_eq_getElem (hlt hk), List.getElem?_eq_getElem (hlt hj), ?_⟩
  rcases pos2gid_ok hok.g hb hp with ⟨hn, hr⟩ | ⟨s, n, g', b', hn, hr, hg', hx, hid, _⟩
  · rw [hn]; exact hr
  · rw [hn]
    exact ⟨n, g', b', hr, gives_of_find hc.good hv (findGid_field hg' (hc.ext hx) hid)⟩

example : first.vars[4]? = some ⟨some [99], true⟩ ∧ first.vars[0]? = some special ∧
    field second.vars [99] = some 0 := by decide

/-- Setting a field from C changes that variable and no other. -/
theorem set_writes {α : Type} (ops : List Op) (hg : ∀ d ∈ decls ops, d.Good) {st : State}
    (hs : history State.init ops = .ok st) {k : Nat} {d : Decl} (hk : (decls ops)[k]? = some d)
    {vars : List α} (hv : vars.length = d.varAm) (s : Name) (x : α) :
    ∃ b, st.bodies[k]? = some b ∧
      match field d.vars s with
      | none => nsSet st.g b vars s x = .err
      | some i => ∃ g', nsSet st.g b vars s x = .ok (g', vars.set i x) := by
  obtain ⟨st', he, hok, _⟩ := history_ok ops init_state hg
  rw [hs] at he; cases he
  rw [List.nil_append] at hok
  have hkl : k < st.bodies.length := by
    rw [hok.len]
    apply Nat.lt_of_not_le
    intro hle
    rw [List.getElem?_eq_none hle] at hk; cases hk
  have hb := hok.body k d _ hk (List.getElem?_eq_getElem hkl)
  obtain ⟨h1, h2, h3⟩ := str2gid_ok hok.g s
  refine ⟨st.bodies[k], List.getElem?_eq_getElem hkl, ?_⟩
  unfold nsSet
  dsimp only
  rw [findGid_field h1 (hb.ext h2) h3]
  cases hf : field d.vars s with
  | none => rfl
  | some i =>
    have hi : i < vars.length := by
      rw [hv, ← vars_length hb.good]; exact field_lt hf
    exact ⟨_, by dsimp only; rw [if_pos hi]⟩

end Verif.Names
