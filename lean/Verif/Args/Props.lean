import Verif.Args.Lemmas
/-
C90: options are obeyed from left to right, and what follows them is the program and its arguments.
-/
namespace Verif.Args

def St.go (s : St) (acts : List Act) (fs : List Flag) : St := { s.flags fs with acts := s.acts ++ acts }

theorem go_go (s : St) (a b : List Act) (f g : List Flag) : (s.go a f).go b g = s.go (a ++ b) (f ++ g) := by
  unfold St.go St.flags
  simp only [List.mem_append, Bool.decide_or, List.append_assoc, St.mk.injEq, true_and]
  constructor
  · cases s.startREPL <;> cases decide (Flag.repl ∈ f) <;> cases decide (Flag.silent ∈ f) <;>
      cases decide (Flag.repl ∈ g) <;> cases decide (Flag.silent ∈ g) <;> rfl
  · rw [Bool.or_assoc]

theorem repl_go (acts : List Act) (fs : List Flag) :
    repl ((St.mk [] false false).go acts fs) = (acts ++ replActs fs, .done) := by
  unfold repl St.go St.flags St.add replActs
  by_cases h1 : Flag.silent ∈ fs
  · simp [h1]
  · by_cases h2 : Flag.repl ∈ fs
    · simp [h1, h2]
    · simp [h1, h2]

def cont (argv : List Word) (n : Nat) : Res → List Act × Stop
  | .next i s => loop argv n i s
  | .file i s => execFile argv i false s
  | .stop r s => (s.acts, r)

theorem loop_word (argv : List Word) (n i : Nat) (s : St) (rest : Word) (h : argv[i]? = some (45 :: rest)) (hne : rest ≠ [])
    (h45 : rest.head? ≠ some 45) : loop argv (n + 1) i s = cont argv n (letters argv rest (i + 1) s) := by
  have hi : ¬ i = argv.length := by
    intro he
    rw [he, List.getElem?_eq_none (Nat.le_refl _)] at h
    exact nomatch h
  cases rest with
  | nil => exact absurd rfl hne
  | cons d tail =>
    have hd : d ≠ 45 := fun h => h45 (by rw [h]; rfl)
    rw [loop, if_neg hi]
    simp only [h]
    rw [if_neg (by simp), if_neg hd]
    cases letters argv (d :: tail) (i + 1) s <;> rfl

theorem letter_ne (fs : List Flag) (more : Word) (h : more.head? ≠ some 45) :
    (fs.map Flag.letter ++ more).head? ≠ some 45 := by
  cases fs with
  | nil => exact h
  | cons f fs => cases f <;> simp [Flag.letter]

theorem group_ok (pre post : List Word) (g : Group) (hg : g.ok) (n : Nat) (s : St) :
    loop (pre ++ (g.words ++ post)) (n + 1) pre.length s =
      loop (pre ++ (g.words ++ post)) n (pre ++ g.words).length (s.go g.acts g.flags) := by
  obtain ⟨fs, last⟩ := g
  cases last with
  | none =>
    have hw : Group.words ⟨fs, none⟩ = [45 :: fs.map Flag.letter] := rfl
    rw [hw, List.singleton_append]
    have hfs : fs ≠ [] := hg.1.resolve_right (fun h => h rfl)
    have h45 := letter_ne fs [] (by simp)
    rw [List.append_nil] at h45
    rw [loop_word _ n _ s (fs.map Flag.letter) (mid pre _ post) (by simpa using hfs) h45]
    have := flags_ok (pre ++ (45 :: fs.map Flag.letter) :: post) [] (pre.length + 1) fs s
    rw [List.append_nil] at this
    rw [this, letters, List.length_append, List.length_singleton]
    simp [cont, St.go, St.flags, Group.acts]
  | some o =>
    have hw : Group.words ⟨fs, some o⟩ = [45 :: (fs.map Flag.letter ++ [o.letter]), o.arg] := rfl
    rw [hw]
    have h45 := letter_ne fs [o.letter] (by cases o <;> simp [Opt.letter])
    obtain ⟨w, hw'⟩ : ∃ w, 45 :: (fs.map Flag.letter ++ [o.letter]) = w := ⟨_, rfl⟩
    rw [List.cons_append, List.singleton_append,
      loop_word _ n _ s (fs.map Flag.letter ++ [o.letter]) (mid pre _ _) (by simp) h45, hw', flags_ok]
    have := opt_ok (pre ++ [w]) post o (hg.2 o rfl) (s.flags fs)
    rw [List.append_assoc, List.length_append, List.length_singleton] at this
    rw [show pre ++ w :: o.arg :: post = pre ++ ([w] ++ o.arg :: post) from rfl, this, List.length_append]
    rfl

theorem groups_ok (post : List Word) : ∀ (gs : List Group) (pre : List Word) (n : Nat) (s : St), (∀ g ∈ gs, g.ok) →
    loop (pre ++ (gs.flatMap Group.words ++ post)) (n + gs.length) pre.length s =
      loop (pre ++ (gs.flatMap Group.words ++ post)) n (pre ++ gs.flatMap Group.words).length
        (s.go (gs.flatMap Group.acts) (gs.flatMap Group.flags)) := by
  intro gs
  induction gs with
  | nil =>
    intro pre n s _
    have : s.go [] [] = s := by simp [St.go, St.flags]
    simp only [List.flatMap_nil, this, List.append_nil, List.length_nil, Nat.add_zero]
  | cons g gs ih =>
    intro pre n s hg
    simp only [List.flatMap_cons, List.length_cons, List.append_assoc]
    rw [← Nat.add_assoc, group_ok pre _ g (hg g List.mem_cons_self)]
    have := ih (pre ++ g.words) n (s.go g.acts g.flags) (fun x hx => hg x (List.mem_cons_of_mem _ hx))
    rw [go_go] at this
    simp only [List.append_assoc] at this ⊢
    exact this

theorem rest_ok (pre : List Word) (r : Rest) (hr : r.ok) (n : Nat) (s : St) :
    loop (pre ++ r.words) (n + 1) pre.length s = repl (s.go r.acts r.flags) := by
  have hadd : ∀ a, s.go [a] [] = s.add a := by intro a; simp [St.go, St.flags, St.add]
  cases r with
  | nothing =>
    have : s.go [] [] = s := by simp [St.go, St.flags]
    simp only [Rest.words, Rest.acts, Rest.flags, List.append_nil, this]
    rw [loop, if_pos rfl, execFile, if_neg (by simp)]
  | file path args =>
    simp only [Rest.words, Rest.acts, Rest.flags, hadd]
    have hne : pre.length ≠ (pre ++ path :: args).length := by rw [List.length_append, List.length_cons]; omega
    have hx : execFile (pre ++ path :: args) pre.length false s = repl (s.add (.file path args)) := by
      rw [execFile, if_pos (Or.inl hne), if_neg (by simp)]
      simp only [mid]
      congr 3
      have : pre ++ path :: args = (pre ++ [path]) ++ args := by simp
      rw [this]
      exact List.drop_left' (by simp)
    rw [loop, if_neg hne, ← hx]
    simp only [mid]
    cases path with
    | nil => rfl
    | cons c t =>
      have : c ≠ 45 := fun h => hr (by rw [h]; rfl)
      simp only [if_pos this]
  | stdin args =>
    simp only [Rest.words, Rest.acts, Rest.flags, hadd]
    have hne : pre.length ≠ (pre ++ [45] :: args).length := by rw [List.length_append, List.length_cons]; omega
    rw [loop, if_neg hne]
    simp only [mid]
    rw [if_neg (by simp), execFile, if_pos (Or.inr rfl), if_pos rfl]
    congr 3
    have : pre ++ [45] :: args = (pre ++ [[45]]) ++ args := by simp
    rw [this]
    exact List.drop_left' (by simp)
  | f fs path args =>
    simp only [Rest.words, Rest.acts, Rest.flags]
    have h45 := letter_ne fs [102] (by simp)
    obtain ⟨w, hw'⟩ : ∃ w, 45 :: (fs.map Flag.letter ++ [102]) = w := ⟨_, rfl⟩
    rw [loop_word _ n _ s (fs.map Flag.letter ++ [102]) (mid pre _ _) (by simp) h45, hw', flags_ok]
    have e : pre ++ w :: path :: args = (pre ++ [w]) ++ path :: args := by simp
    have el : pre.length + 1 = (pre ++ [w]).length := by simp
    have hne : (pre ++ [w]).length ≠ ((pre ++ [w]) ++ path :: args).length := by
      rw [List.length_append (as := pre ++ [w]), List.length_cons]; omega
    rw [e, el]
    have hl : letters ((pre ++ [w]) ++ path :: args) [102] (pre ++ [w]).length (s.flags fs) =
        .file (pre ++ [w]).length (s.flags fs) := by
      show reqArg _ [] _ _ _ = _
      unfold reqArg
      rw [if_neg (by simp), if_neg hne]
      simp only [mid]
    rw [hl, cont, execFile, if_pos (Or.inl hne), if_neg (by simp)]
    simp only [mid]
    have : List.drop ((pre ++ [w]).length + 1) ((pre ++ [w]) ++ path :: args) = args := by
      have : (pre ++ [w]) ++ path :: args = ((pre ++ [w]) ++ [path]) ++ args := by simp
      rw [this]
      exact List.drop_left' (by simp)
    rw [this]
    rfl

/-- Groups of options, then a file, `-`, `-f` and a file, or nothing: what the options say is done, from left to right,
then the program is executed with all that follows as its arguments, and then the REPL is started if an option says so. -/
theorem obeyed (name : Word) (gs : List Group) (r : Rest) (hg : ∀ g ∈ gs, g.ok) (hr : r.ok)
    (hne : gs.flatMap Group.words ++ r.words ≠ []) :
    main (name :: (gs.flatMap Group.words ++ r.words)) =
      (gs.flatMap Group.acts ++ r.acts ++ replActs (gs.flatMap Group.flags ++ r.flags), .done) := by
  have hl : (name :: (gs.flatMap Group.words ++ r.words)).length ≠ 1 := by
    rw [List.length_cons]
    have := List.length_pos_iff.mpr hne
    omega
  have hw : gs.length ≤ (gs.flatMap Group.words).length := by
    clear hg hne hl
    induction gs with
    | nil => exact Nat.le_refl _
    | cons g gs ih =>
      rw [List.flatMap_cons, List.length_append, List.length_cons]
      have : 1 ≤ g.words.length := by
        obtain ⟨fs, last⟩ := g
        cases last <;> simp [Group.words]
      omega
  unfold main
  simp only [decide_eq_false hl]
  rw [if_neg (by simp)]
  obtain ⟨n, hn⟩ : ∃ n, (name :: (gs.flatMap Group.words ++ r.words)).length + 1 = n + 1 + gs.length :=
    ⟨(name :: (gs.flatMap Group.words ++ r.words)).length - gs.length, by
      rw [List.length_cons, List.length_append]; omega⟩
  rw [hn]
  have h1 := groups_ok r.words gs [name] (n + 1) ⟨[], false, false⟩ hg
  rw [List.singleton_append] at h1
  refine h1.trans ?_
  have h2 := rest_ok ([name] ++ gs.flatMap Group.words) r hr n
    ((St.mk [] false false).go (gs.flatMap Group.acts) (gs.flatMap Group.flags))
  rw [List.append_assoc, go_go, repl_go] at h2
  exact h2

/-- Without arguments, there is a REPL. -/
theorem alone (name : Word) : main [name] = ([.repl false], .done) := rfl

/-- An option that there is not is an error, after what stands before it is done. -/
theorem unknown (name : Word) (gs : List Group) (hg : ∀ g ∈ gs, g.ok) (fs : List Flag) (c : Nat) (more : Word)
    (post : List Word) (hc : c ∉ [45, 102, 101, 76, 112, 111, 77, 104, 114, 115]) :
    main (name :: (gs.flatMap Group.words ++ (45 :: (fs.map Flag.letter ++ c :: more)) :: post)) =
      (gs.flatMap Group.acts, .error) := by
  simp only [List.mem_cons, List.not_mem_nil, or_false, not_or] at hc
  obtain ⟨c1, c2, c3, c4, c5, c6, c7, c8, c9, c10⟩ := hc
  obtain ⟨w, hw'⟩ : ∃ w, 45 :: (fs.map Flag.letter ++ c :: more) = w := ⟨_, rfl⟩
  rw [hw']
  have hw : gs.length ≤ (gs.flatMap Group.words).length := by
    clear hg
    induction gs with
    | nil => exact Nat.le_refl _
    | cons g gs ih =>
      rw [List.flatMap_cons, List.length_append, List.length_cons]
      have : 1 ≤ g.words.length := by
        obtain ⟨fs, last⟩ := g
        cases last <;> simp [Group.words]
      omega
  have hl : (name :: (gs.flatMap Group.words ++ w :: post)).length ≠ 1 := by simp
  unfold main
  simp only [decide_eq_false hl]
  rw [if_neg (by simp)]
  obtain ⟨n, hn⟩ : ∃ n, (name :: (gs.flatMap Group.words ++ w :: post)).length + 1 = n + 1 + gs.length :=
    ⟨(name :: (gs.flatMap Group.words ++ w :: post)).length - gs.length, by
      rw [List.length_cons, List.length_append]; omega⟩
  rw [hn]
  have h1 := groups_ok (w :: post) gs [name] (n + 1) ⟨[], false, false⟩ hg
  rw [List.singleton_append] at h1
  refine h1.trans ?_
  obtain ⟨s, hs⟩ : ∃ s, (St.mk [] false false).go (gs.flatMap Group.acts) (gs.flatMap Group.flags) = s := ⟨_, rfl⟩
  have ha : s.acts = gs.flatMap Group.acts := by rw [← hs]; rfl
  rw [hs]
  have hm := mid ([name] ++ gs.flatMap Group.words) w post
  rw [List.append_assoc, List.singleton_append] at hm
  have hx : ∀ (argv : List Word) (i : Nat), letters argv (fs.map Flag.letter ++ c :: more) i s = .stop .error (s.flags fs) := by
    intro argv i
    rw [flags_ok, letters, if_neg c2, if_neg c3, if_neg c4, if_neg c5, if_neg c6, if_neg c7, if_neg c8, if_neg c9, if_neg c10]
  have h45 := letter_ne fs (c :: more) (by simpa using c1)
  rw [← hw'] at hm ⊢
  simp only [List.singleton_append] at hm ⊢
  rw [loop_word _ n _ s _ hm (by simp) h45, hx, cont, ← ha]
  rfl

/-- What options lead to is inside of the arguments. -/
def Inside (n i : Nat) : Res → Prop
  | .next j _ => i ≤ j ∧ j ≤ n
  | .file j _ => j < n
  | .stop r _ => r ≠ .crash

theorem reqArg_in (argv : List Word) (carg : Word) (i : Nat) (hi : i ≤ argv.length) (s : St) (k : Word → Res)
    (hk : i < argv.length → ∀ w, Inside argv.length i (k w)) : Inside argv.length i (reqArg argv carg i s k) := by
  unfold reqArg
  split
  · exact Stop.noConfusion
  · split
    · exact Stop.noConfusion
    · rename_i _ h
      have hlt : i < argv.length := by omega
      rw [List.getElem?_eq_getElem hlt]
      exact hk hlt _

theorem letters_in (argv : List Word) : ∀ (carg : Word) (i : Nat) (s : St), i ≤ argv.length →
    Inside argv.length i (letters argv carg i s) := by
  intro carg
  induction carg with
  | nil => intro i s hi; exact ⟨Nat.le_refl _, hi⟩
  | cons c carg ih =>
    intro i s hi
    have up : ∀ s', i < argv.length → Inside argv.length i (letters argv carg (i + 1) s') := by
      intro s' h
      have := ih (i + 1) s' h
      revert this
      cases letters argv carg (i + 1) s' with
      | next j _ => intro h; exact ⟨by have := h.1; omega, h.2⟩
      | file j _ => exact id
      | stop r _ => exact id
    unfold letters
    split
    · exact reqArg_in argv carg i hi s _ fun h _ => h
    split
    · exact reqArg_in argv carg i hi s _ fun h _ => up _ h
    split
    · exact ih _ _ hi
    split
    · exact reqArg_in argv carg i hi s _ fun h _ => up _ h
    split
    · exact reqArg_in argv carg i hi s _ fun h _ => up _ h
    split
    · refine reqArg_in argv carg i hi s _ fun h w => ?_
      cases number w 0 with
      | none => exact Stop.noConfusion
      | some am => exact up _ h
    split
    · exact Stop.noConfusion
    split
    · exact ih _ _ hi
    split
    · exact ih _ _ hi
    · exact Stop.noConfusion

theorem execFile_in (argv : List Word) (i : Nat) (b : Bool) (s : St) (hi : i ≤ argv.length) :
    (execFile argv i b s).2 ≠ .crash := by
  unfold execFile
  split
  · rename_i h
    split
    · exact Stop.noConfusion
    · rename_i hb
      have hlt : i < argv.length := by
        rcases h with h | h
        · omega
        · exact absurd h hb
      rw [List.getElem?_eq_getElem hlt]
      exact Stop.noConfusion
  · exact Stop.noConfusion

theorem loop_in (argv : List Word) : ∀ (n i : Nat) (s : St), i ≤ argv.length → argv.length < n + i →
    (loop argv n i s).2 ≠ .crash := by
  intro n
  induction n with
  | zero => intro i s h1 h2; omega
  | succ n ih =>
    intro i s h1 h2
    by_cases hi : i = argv.length
    · rw [loop, if_pos hi]
      exact execFile_in argv i false s h1
    · have hlt : i < argv.length := by omega
      rw [loop, if_neg hi, List.getElem?_eq_getElem hlt]
      simp only []
      cases argv[i] with
      | nil => exact execFile_in argv i false s h1
      | cons c carg =>
        simp only []
        split
        · exact execFile_in argv i false s h1
        · cases carg with
          | nil => exact execFile_in argv (i + 1) true s hlt
          | cons d tail =>
            simp only []
            split
            · split
              · exact Stop.noConfusion
              · split <;> exact Stop.noConfusion
            · have := letters_in argv (d :: tail) (i + 1) s hlt
              revert this
              cases letters argv (d :: tail) (i + 1) s with
              | next j t => intro h; exact ih j t h.2 (by have := h.1; omega)
              | file j t => intro h; exact execFile_in argv j false t (Nat.le_of_lt h)
              | stop r t => exact id

/-- Whatever the arguments are, no argument is read that is not there, provided that there is a name of the program. -/
theorem no_crash (name : Word) (args : List Word) : (main (name :: args)).2 ≠ .crash := by
  unfold main
  simp only []
  split
  · exact Stop.noConfusion
  · exact loop_in _ _ 1 _ (by rw [List.length_cons]; omega) (by omega)

/-- Without it, as with `execve` and an empty list, the first argument is read although there is none. -/
theorem no_name : main [] = ([], .crash) := by decide

/-- The limit wraps: 2⋆44 megabytes is accepted as the limit of no memory at all. -/
theorem limit_wraps : main [[98], [45, 77], [49, 55, 53, 57, 50, 49, 56, 54, 48, 52, 52, 52, 49, 54]] =
    ([.limit 0], .done) := by decide

/-- `b -se 1 -M 64 a b`. -/
example : main [[98], [45, 115, 101], [49], [45, 77], [54, 52], [97], [98]] =
    ([.exec [49], .limit 67108864, .file [97] [[98]], .repl true], .done) := by decide

example : Group.ok ⟨[.silent], some (.e [49])⟩ ∧ Group.ok ⟨[], some (.M [6, 4])⟩ ∧ Rest.ok (.file [97] [[98]]) :=
  ⟨⟨Or.inl (by simp), by intro o h; injection h with h; subst h; trivial⟩,
   ⟨Or.inr (by simp), by intro o h; injection h with h; subst h; exact ⟨by decide, by decide⟩⟩, by show _ ≠ _; decide⟩

end Verif.Args
