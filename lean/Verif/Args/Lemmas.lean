import Verif.Args.Model
namespace Verif.Args

theorem mid {α : Type _} (a : List α) (c : α) (b : List α) : (a ++ c :: b)[a.length]? = some c := by
  rw [List.getElem?_append_right (Nat.le_refl _), Nat.sub_self]; rfl

/-- The state after flags. -/
def St.flags (s : St) (fs : List Flag) : St :=
  ⟨s.acts, s.startREPL || decide (.repl ∈ fs) || decide (.silent ∈ fs), s.silentREPL || decide (.silent ∈ fs)⟩

theorem flags_nil (s : St) : s.flags [] = s := by simp [St.flags]

theorem flags_ok (argv : List Word) (more : Word) (i : Nat) : ∀ (fs : List Flag) (s : St),
    letters argv (fs.map Flag.letter ++ more) i s = letters argv more i (s.flags fs) := by
  intro fs
  induction fs with
  | nil => intro s; rw [flags_nil]; rfl
  | cons f fs ih =>
    intro s
    cases f
    · have : letters argv ((Flag.repl :: fs).map Flag.letter ++ more) i s =
        letters argv (fs.map Flag.letter ++ more) i { s with startREPL := true } := rfl
      rw [this, ih]; simp [St.flags]
    · have : letters argv ((Flag.silent :: fs).map Flag.letter ++ more) i s =
        letters argv (fs.map Flag.letter ++ more) i { s with startREPL := true, silentREPL := true } := rfl
      rw [this, ih]; simp [St.flags]
    · have : letters argv ((Flag.load :: fs).map Flag.letter ++ more) i s =
        letters argv (fs.map Flag.letter ++ more) i s := rfl
      rw [this, ih]; simp [St.flags]

theorem le_fold : ∀ (ds : List Nat) (a : Nat), a ≤ ds.foldl (fun a d => a * 10 + d) a := by
  intro ds
  induction ds with
  | nil => intro a; exact Nat.le_refl _
  | cons d ds ih => intro a; exact Nat.le_trans (by omega) (ih (a * 10 + d))

theorem number_ok : ∀ (ds : List Nat) (a : Nat), (∀ d ∈ ds, d < 10) → ds.foldl (fun a d => a * 10 + d) a < 2 ^ 44 →
    number (ds.map (48 + ·)) a = some (ds.foldl (fun a d => a * 10 + d) a) := by
  intro ds
  induction ds with
  | nil => intro a _ _; rfl
  | cons d ds ih =>
    intro a hd hv
    have h1 := hd d List.mem_cons_self
    have h2 := le_fold (d :: ds) a
    simp only [List.map_cons, number]
    rw [if_neg (by omega), if_neg (by omega)]
    have e : a * 10 + (48 + d) - 48 = a * 10 + d := by omega
    rw [e]
    exact ih _ (fun x hx => hd x (List.mem_cons_of_mem _ hx)) hv

theorem opt_ok (pre post : List Word) (o : Opt) (ho : o.ok) (s : St) :
    letters (pre ++ o.arg :: post) [o.letter] pre.length s = .next (pre.length + 1) (s.add o.act) := by
  have hne : ¬ pre.length = (pre ++ o.arg :: post).length := by
    rw [List.length_append, List.length_cons]; omega
  have hr : ∀ k, reqArg (pre ++ o.arg :: post) [] pre.length s k = k o.arg := by
    intro k
    unfold reqArg
    rw [if_neg (by simp), if_neg hne, mid]
  cases o with
  | e w => exact hr _
  | p w => exact hr _
  | o w => exact hr _
  | M ds =>
    refine (hr _).trans ?_
    have := number_ok ds 0 ho.1 ho.2
    simp only [Opt.arg, this, letters]
    have hv : value ds < 2 ^ 44 := ho.2
    show Res.next _ (s.add (.limit (value ds * 1024 * 1024 % 2 ^ 64))) = _
    rw [Nat.mod_eq_of_lt (by omega), Nat.mul_assoc]
    rfl

end Verif.Args
