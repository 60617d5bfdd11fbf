import Verif.Pervade.Final
/-!
# C51, C52: comparisons and Each

`Spec.lean` says how atoms compare and how elements are paired, `EachSpec.lean` which elements Each passes to its operand.
`e` gives the memory that the program does not determine, `bad` what C leaves undefined when a double is converted to an
integer, `same` which functions are equal: the theorems hold for all of them.
-/
namespace Verif.Pervade
open Verif.Bins (ofInt)
open Verif.Rotate (prod)
open Verif.Squeeze (Val El Data)

/-- C51: a comparison gives the result of comparing every pair of atoms that belong together; it fails only when the shapes do
not agree somewhere or a pair of atoms cannot be compared. -/
theorem compare_every_pair (same : Nat → Nat → Bool) (hs : ∀ i j, same i j = same j i) (bad : BitVec 64 → BitVec 32) (e : Nat → V → V → Env)
    (op : Op) (w x : V) (hw : Sound w) (hx : Sound x) :
    (∃ r, compare same bad e op w x = .ok r ∧ Pairs (rel same op) (abs w) (abs x) (abs r)) ∨
    (compare same bad e op w x = .err ∧ ∀ y, ¬ Pairs (rel same op) (abs w) (abs x) y) :=
  c2_good hs bad e _ op w x hw hx (Nat.le_refl _)

/-- C51: there is only one such result. -/
theorem compare_one_result (p : T → T → Option Bool) (w x : V) (hw : Sound w) (hx : Sound x) (y z : T)
    (hy : Pairs p (abs w) (abs x) y) (hz : Pairs p (abs w) (abs x) z) : y = z :=
  pairs_unique _ w x hw hx (Nat.le_refl _) hy hz

/-- C51: so `≤` is `≥` with the arguments exchanged, and so on. -/
theorem compare_exchange (same : Nat → Nat → Bool) (hs : ∀ i j, same i j = same j i) (bad : BitVec 64 → BitVec 32) (e : Nat → V → V → Env)
    (op op' : Op) (ho : (op, op') ∈ [(Op.le, Op.ge), (.ge, .le), (.lt, .gt), (.gt, .lt), (.eq, .eq), (.ne, .ne)]) (w x r : V) (hw : Sound w) (hx : Sound x)
    (h : compare same bad e op w x = .ok r) : ∃ r', compare same bad e op' x w = .ok r' ∧ abs r' = abs r := by
  have er : op' = op.rev := by
    simp only [List.mem_cons, Prod.mk.injEq, List.mem_nil_iff, or_false] at ho
    rcases ho with ⟨rfl, rfl⟩ | ⟨rfl, rfl⟩ | ⟨rfl, rfl⟩ | ⟨rfl, rfl⟩ | ⟨rfl, rfl⟩ | ⟨rfl, rfl⟩ <;> rfl
  subst er
  rcases compare_every_pair same hs bad e op w x hw hx with ⟨r1, e1, p1⟩ | ⟨e1, _⟩
  · rw [h] at e1
    injection e1 with e1
    subst e1
    have p2 : Pairs (rel same op.rev) (abs x) (abs w) (abs r) := pairs_flip (fun a b => (rel_rev hs op b a).symm) p1
    rcases compare_every_pair same hs bad e op.rev x w hx hw with ⟨r2, e2, p3⟩ | ⟨_, n⟩
    · exact ⟨r2, e2, compare_one_result _ x w hx hw _ _ p3 p2⟩
    · exact absurd p2 (n _)
  · rw [h] at e1; cases e1

/-- The memory of the examples: ones everywhere. -/
def ones : Nat → V → V → Env := fun _ _ _ => ⟨fun _ => BitVec.allOnes 64, fun _ => BitVec.allOnes 64, fun _ => BitVec.allOnes 64⟩

/-- `2‿3⥊1‿2‿3‿4‿5‿6 ≥ ⟨3,'a'⟩`, a comparison of a table of bytes with a list. -/
def exW : V := .typed [2, 3] (.i8 [1, 2, 3, 4, 5, 6])
def exX : V := .boxed [2] [.num (ofInt 3), .chr 97]

example : Sound exW ∧ Sound exX := by
  refine ⟨⟨by decide, by decide, by decide, ?_⟩, ⟨by decide, trivial, trivial, trivial⟩⟩
  intro c hc
  obtain ⟨a, _, e⟩ := List.mem_map.1 hc
  cases e

example : (match compare (fun _ _ => false) (fun _ => 0) ones .ge exW exX with
    | .ok (.boxed sh rs) => sh == [2, 3] && rs.map (fun r => match r with | .num f => f == ofInt 1 | _ => false) == [false, false, true, false, false, false]
    | _ => false) = true := by decide +kernel

example : (match compare (fun _ _ => false) (fun _ => 0) ones .gt exW (.typed [2] (.f64 [ofInt 2, ofInt 5])) with
    | .ok (.typed sh (.bit bs)) => sh == [2, 3] && bs == [false, false, true, false, false, true]
    | _ => false) = true := by decide +kernel

/-- Shapes that do not agree, and functions that cannot be ordered. -/
example : (match compare (fun _ _ => false) (fun _ => 0) ones .gt exW (.typed [3] (.i8 [1, 2, 3])) with | .err => true | _ => false) = true := by decide +kernel
example : (match compare (fun _ _ => false) (fun _ => 0) ones .lt exW (.fn 5) with | .err => true | _ => false) = true := by decide +kernel

/-- Beyond the hypotheses: characters from code 2⋆31 on, which only `•bit._cast` makes, are ordered as negative numbers when
both arguments are arrays of four-byte characters. -/
theorem characters_signed :
    rel (fun _ _ => false) .gt (.chr 0x80000000#32) (.chr 0x61#32) = some true ∧
    (match compare (fun _ _ => false) (fun _ => 0) ones .gt (.typed [1] (.c32 [0x80000000#32])) (.typed [1] (.c32 [0x61#32])) with
      | .ok (.typed _ (.bit bs)) => bs == [false] | _ => false) = true ∧
    (match compare (fun _ _ => false) (fun _ => 0) ones .gt (.chr 0x80000000#32) (.typed [1] (.c32 [0x61#32])) with
      | .ok (.typed _ (.bit bs)) => bs == [true] | _ => false) = true := by
  refine ⟨by decide, by decide +kernel, by decide +kernel⟩

/-- C52: Each with two arguments calls its operand once for every element of the result, on the elements that belong to it, in
the order of the indices; the result has the longer shape; it is an error exactly when no shape begins with the other one.
The operand can do anything that a lawful monad can express. -/
theorem each_in_order {m : Type → Type} [Monad m] [LawfulMonad m] (f : V → V → m V) (w x : V) (hw : Full w) (hx : Full x) :
    eachd f w x =
      if Agree w.sh x.sh then
        some (do
          let r ← (List.range (prod (big w.sh x.sh))).mapM fun i => f (cell w (big w.sh x.sh) i) (cell x (big w.sh x.sh) i)
          pure (.boxed (big w.sh x.sh) r))
      else none :=
  eachd_eq f hw hx

/-- C52: the elements that belong to an index of the result: those at the index itself and at its beginning. -/
theorem cell_index (v : V) (u is js : List Nat) (hv : v.isArr = true) (hf : Full v) (hi : Rotate.InShape v.sh is) (hj : Rotate.InShape u js) :
    v.els[Rotate.ravel v.sh is]? = some (cell v (v.sh ++ u) (Rotate.ravel (v.sh ++ u) (is ++ js))) := by
  unfold cell
  rw [if_pos hv, List.drop_left' rfl, Rotate.ravel_append hi]
  have l := Rotate.ravel_lt hj
  have q : (Rotate.ravel v.sh is * prod u + Rotate.ravel u js) / prod u = Rotate.ravel v.sh is := by
    rw [Nat.mul_comm, Nat.mul_add_div (by omega), Nat.div_eq_of_lt l, Nat.add_zero]
  rw [q]
  exact getD_some _ (by rw [hf hv]; exact Rotate.ravel_lt hi)

/-- Each of a table and a list with an operand that keeps a log. -/
def logged (w x : V) : StateM (List (V × V)) V := fun s => (w, s ++ [(w, x)])

def numOf : V → Option (BitVec 64)
  | .num f => some f
  | _ => none

example : Full exW ∧ Full (.typed [2] (.i8 [7, 8])) := ⟨fun _ => by decide, fun _ => by decide⟩

example : ((eachd logged exW (.typed [2] (.i8 [7, 8]))).map fun o => ((o []).2.map fun p => (numOf p.1, numOf p.2))) =
    some ([(1, 7), (2, 7), (3, 7), (4, 8), (5, 8), (6, 8)].map fun p : Int × Int => (some (ofInt p.1), some (ofInt p.2))) := by decide +kernel

example : (eachd logged exW (.typed [3] (.i8 [7, 8, 9]))).isNone = true := by decide +kernel

end Verif.Pervade
