import Verif.Compare.Lemmas
/-!
# The ordering of values is a total order

`compare` is the program's comparison; `Ok` says that arrays have as many elements as their shape says; `Same` is the equality
of values. Together with the four laws of a total order, the order itself is given: numbers by value and before characters,
characters by code point, lists by the first difference, an atom before exactly the arrays whose first element it does not
exceed.
-/
namespace Verif.Compare

/-! ### concrete values -/
/-- The number 1. -/
def one : Val := .num 0x3FF0000000000000#64
def two : Val := .num 0x4000000000000000#64
/-- A NaN. -/
def notNumber : Val := .num 0x7FF8000000000000#64
def zero : Val := .num 0#64
def minusZero : Val := .num 0x8000000000000000#64
/-- `⟨1,2⟩`, `2‿1⥊1‿2`, and a nested list. -/
def lst : Val := .arr [2] [one, two]
def table : Val := .arr [2, 1] [one, two]
def nested : Val := .arr [3] [lst, .chr 97, .arr [0] []]

/-- Comparison gives -1, 0 or 1 for all values: it neither reads outside of the arrays nor fails to end. -/
theorem compare_defined {w x : Val} (hw : Ok w) (hx : Ok x) : compare w x = some (-1) ∨ compare w x = some 0 ∨ compare w x = some 1 := by
  rw [compare_ord hw hx (Nat.lt_succ_self _)]
  rcases ord_range (depth w + depth x + 1) w x with h | h | h <;> rw [h] <;> simp

example : Ok nested ∧ compare nested lst = some 1 ∧ compare table lst = some (-1) ∧ compare two lst = some 1 ∧ compare one lst = some (-1) := by
  refine ⟨?_, ?_, ?_, ?_, ?_⟩
  · simp [nested, lst, one, two, Ok, Oks, count]
  all_goals decide +kernel

/-- Exchanging the arguments negates the comparison: totality. -/
theorem compare_antisymm {w x : Val} (hw : Ok w) (hx : Ok x) : ∃ c : Int, compare w x = some c ∧ compare x w = some (-c) := by
  refine ⟨ord (depth w + depth x + 1) w x, compare_ord hw hx (by omega), ?_⟩
  rw [compare_ord hx hw (N := depth w + depth x + 1) (by omega), ord_neg]

example : compare lst nested = some (-1) ∧ compare nested lst = some 1 := by decide +kernel

/-- Transitivity. -/
theorem compare_trans {u v w : Val} (hu : Ok u) (hv : Ok v) (hw : Ok w) {a b : Int}
    (h1 : compare u v = some a) (ha : a ≤ 0) (h2 : compare v w = some b) (hb : b ≤ 0) : ∃ c : Int, compare u w = some c ∧ c ≤ 0 := by
  let N := depth u + depth v + depth w + 1
  rw [compare_ord hu hv (N := N) (by omega)] at h1
  rw [compare_ord hv hw (N := N) (by omega)] at h2
  injection h1 with h1
  injection h2 with h2
  exact ⟨_, compare_ord hu hw (N := N) (by omega), ord_trans N u v w (by omega) (by omega)⟩

example : compare one table = some (-1) ∧ compare table lst = some (-1) ∧ compare one lst = some (-1) := by decide +kernel
example : compare (.arr [0] []) one = some (-1) ∧ compare one (.chr 97) = some (-1) ∧ compare (.arr [0] []) (.chr 97) = some (-1) := by decide +kernel

/-- Two values compare equal exactly if they are the same value; in particular comparison is reflexive. -/
theorem compare_zero {w x : Val} (hw : Ok w) (hx : Ok x) : compare w x = some 0 ↔ Same w x := by
  rw [compare_ord hw hx (Nat.lt_succ_self _), Option.some.injEq]
  exact ord_same _ w x hw hx (by omega)

theorem compare_refl {w : Val} (hw : Ok w) : compare w w = some 0 := by
  obtain ⟨c, h1, h2⟩ := compare_antisymm hw hw
  rw [h1] at h2 ⊢
  injection h2 with h2
  congr 1; omega

example : compare zero minusZero = some 0 ∧ compare notNumber notNumber = some 0 ∧ compare nested nested = some 0 := by decide +kernel
example : compare (.arr [0, 2] []) (.arr [0, 3] []) = some (-1) := by decide +kernel

/-! ### which order it is -/

/-- Numbers by value, with every NaN after all others; numbers before characters; characters by code point. -/
theorem compare_numbers (f g : BitVec 64) : (∃ c : Int, compare (.num f) (.num g) = some c ∧ c ≤ 0) ↔ nan g = true ∨ (nan f = false ∧ key f ≤ key g) := by
  rw [← float_le]
  exact ⟨fun ⟨c, h, hc⟩ => by injection h with h; rw [h]; exact hc, fun h => ⟨_, rfl, h⟩⟩

theorem compare_characters (c d : Nat) : (∃ r : Int, compare (.chr c) (.chr d) = some r ∧ r ≤ 0) ↔ c ≤ d := by
  have : icmp (c : Int) d ≤ 0 ↔ c ≤ d := by rw [icmp_le]; omega
  rw [← this]
  exact ⟨fun ⟨c, h, hc⟩ => by injection h with h; rw [h]; exact hc, fun h => ⟨_, rfl, h⟩⟩

theorem compare_number_character (f : BitVec 64) (d : Nat) : compare (.num f) (.chr d) = some (-1) := rfl

example : compare one two = some (-1) ∧ compare minusZero one = some (-1) ∧ compare (.num 0xBFF0000000000000#64) zero = some (-1) ∧
    compare two notNumber = some (-1) ∧ compare (.chr 98) (.chr 97) = some 1 := by decide +kernel

/-- An atom comes before exactly the arrays whose first element it does not exceed, and never compares equal to an array. -/
theorem compare_atom {a : Val} (ha : ∀ s ys, a ≠ .arr s ys) {sh : List Nat} {xs : List Val} (hx : Ok (.arr sh xs)) :
    (compare a (.arr sh xs) = some (-1) ↔ ∃ x c, xs.head? = some x ∧ compare a x = some c ∧ c ≤ 0) ∧
    (compare a (.arr sh xs) = some (-1) ∨ compare a (.arr sh xs) = some 1) := by
  have ha' : Atom a := by
    cases a
    · trivial
    · trivial
    · exact absurd rfl (ha _ _)
  have oka : Ok a := by cases a <;> first | exact ha'.elim | simp [Ok]
  have hd : depth a = 0 := by cases a <;> first | exact ha'.elim | rfl
  rw [compare_ord oka hx (N := depths xs + 1 + 1) (by rw [hd, depth]; omega), ord_atom_array ha']
  refine ⟨?_, by have := atomOrd_range (ord (depths xs + 1)) a xs; simpa using this⟩
  rw [Ok] at hx
  cases xs with
  | nil =>
    constructor
    · intro h; rw [atomOrd_nil] at h; exact absurd h (by decide)
    · rintro ⟨x, c, h, _⟩; cases h
  | cons x xs =>
    have e := compare_ord oka (oks_mem hx.2.2 x (by simp)) (N := depths (x :: xs) + 1) (by have := depth_mem (xs := x :: xs) x (by simp); omega)
    rw [atomOrd_cons]
    by_cases d : ord (depths (x :: xs) + 1) a x ≤ 0
    · rw [if_pos d]; exact ⟨fun _ => ⟨x, _, rfl, e, d⟩, fun _ => rfl⟩
    · rw [if_neg d]
      constructor
      · intro h; exact absurd h (by decide)
      · rintro ⟨y, c, h, h2, h3⟩
        injection h with h
        rw [← h, e] at h2
        injection h2 with h2
        omega

example : compare one (.arr [2] [one, zero]) = some (-1) ∧ compare two (.arr [2] [one, zero]) = some 1 ∧ compare one (.arr [0] []) = some 1 := by decide +kernel

/-- Lists: the first elements that are not the same decide. -/
theorem compare_lists_differ {p q : List Val} {v w : Val} {ws xs : List Val} (hp : Sames p q) (hvw : ¬ Same v w)
    (hw : Ok (.arr [(p ++ v :: ws).length] (p ++ v :: ws))) (hx : Ok (.arr [(q ++ w :: xs).length] (q ++ w :: xs))) :
    compare (.arr [(p ++ v :: ws).length] (p ++ v :: ws)) (.arr [(q ++ w :: xs).length] (q ++ w :: xs)) = compare v w := by
  have hl : ∀ (p q : List Val), Sames p q → p.length = q.length := by
    intro p
    induction p with
    | nil => intro q h; cases q with | nil => rfl | cons => exact h.elim
    | cons a p ih => intro q h; cases q with | nil => exact h.elim | cons b q => rw [Sames] at h; rw [List.length_cons, List.length_cons, ih q h.2]
  have hn : ∀ (ws' : List Val), ws' ≠ [] → keyOf [ws'.length] ws' = ws'.map .el ++ [.mark] := by
    intro ws' h
    cases ws' with
    | nil => exact absurd rfl h
    | cons a ws' =>
      show Sym.el a :: keyGo 1 [_] ws' = _
      rw [keyGo, keyGo, List.length_cons, Nat.one_mul, Nat.add_sub_cancel, List.take_length]; rfl
  let N := depths (p ++ v :: ws) + depths (q ++ w :: xs) + 1
  have ok1 := hw; have ok2 := hx
  rw [Ok] at ok1 ok2
  have m1 : ∀ a ∈ p ++ v :: ws, Ok a ∧ depth a ≤ depths (p ++ v :: ws) := fun a h => ⟨oks_mem ok1.2.2 a h, depth_mem a h⟩
  have m2 : ∀ a ∈ q ++ w :: xs, Ok a ∧ depth a ≤ depths (q ++ w :: xs) := fun a h => ⟨oks_mem ok2.2.2 a h, depth_mem a h⟩
  have hv := m1 v (by simp)
  have hw' := m2 w (by simp)
  rw [compare_ord hw hx (N := N + 1 + 1) (by rw [depth, depth]; omega), compare_ord hv.1 hw'.1 (N := N + 1) (by omega)]
  rw [ord, if_neg (by simp), hn _ (by simp), hn _ (by simp), List.map_append, List.map_append, List.append_assoc, List.append_assoc,
    lex_append _ _ _ _ (hl p q hp)]
  have hfd : ∀ (p' q' : List Val) (r : Int), Sames p' q' → (∀ a ∈ p', a ∈ p) → (∀ a ∈ q', a ∈ q) → firstDiff (ord (N + 1)) r p' q' = r := by
    intro p'
    induction p' with
    | nil => intro q' r h _ _; cases q' with | nil => rfl | cons => exact h.elim
    | cons a p' ih =>
      intro q' r h h1 h2
      cases q' with
      | nil => exact h.elim
      | cons b q' =>
        rw [Sames] at h
        have ha := m1 a (by simp [h1 a (by simp)])
        have hb := m2 b (by simp [h2 b (by simp)])
        rw [firstDiff, if_neg]
        · exact ih q' r h.2 (fun a hm => h1 a (by simp [hm])) (fun a hm => h2 a (by simp [hm]))
        · exact not_not_intro ((ord_same (N + 1) a b ha.1 hb.1 (by omega)).2 h.1)
  rw [hfd p q _ hp (fun _ h => h) (fun _ h => h), List.map_cons, List.map_cons, List.cons_append, List.cons_append, lex, if_pos]
  exact fun h => hvw ((ord_same (N + 1) v w hv.1 hw'.1 (by omega)).1 h)

example : compare (.arr [3] [one, two, zero]) (.arr [2] [one, .chr 98]) = some (-1) := by decide +kernel

/-- Lists: a list comes before its proper extensions. -/
theorem compare_lists_prefix {p q : List Val} {w : Val} {xs : List Val} (hp : Sames p q)
    (hw : Ok (.arr [p.length] p)) (hx : Ok (.arr [(q ++ w :: xs).length] (q ++ w :: xs))) :
    compare (.arr [p.length] p) (.arr [(q ++ w :: xs).length] (q ++ w :: xs)) = some (-1) := by
  have hl : ∀ (p q : List Val), Sames p q → p.length = q.length := by
    intro p
    induction p with
    | nil => intro q h; cases q with | nil => rfl | cons => exact h.elim
    | cons a p ih => intro q h; cases q with | nil => exact h.elim | cons b q => rw [Sames] at h; rw [List.length_cons, List.length_cons, ih q h.2]
  have hn : ∀ (ws' : List Val), ws' ≠ [] → keyOf [ws'.length] ws' = ws'.map .el ++ [.mark] := by
    intro ws' h
    cases ws' with
    | nil => exact absurd rfl h
    | cons a ws' =>
      show Sym.el a :: keyGo 1 [_] ws' = _
      rw [keyGo, keyGo, List.length_cons, Nat.one_mul, Nat.add_sub_cancel, List.take_length]; rfl
  let N := depths p + depths (q ++ w :: xs) + 1
  have ok1 := hw; have ok2 := hx
  rw [Ok] at ok1 ok2
  have m1 : ∀ a ∈ p, Ok a ∧ depth a ≤ depths p := fun a h => ⟨oks_mem ok1.2.2 a h, depth_mem a h⟩
  have m2 : ∀ a ∈ q ++ w :: xs, Ok a ∧ depth a ≤ depths (q ++ w :: xs) := fun a h => ⟨oks_mem ok2.2.2 a h, depth_mem a h⟩
  rw [compare_ord hw hx (N := N + 1 + 1) (by rw [depth, depth]; omega)]
  cases p with
  | nil =>
    cases q with
    | nil => rw [List.nil_append, ord_empty_left]
    | cons => exact hp.elim
  | cons a p =>
    rw [ord, if_neg (by simp), hn _ (by simp), hn _ (by simp), List.map_append, List.append_assoc, lex_append _ _ _ _ (hl _ q hp)]
    have hfd : ∀ (p' q' : List Val) (r : Int), Sames p' q' → (∀ b ∈ p', b ∈ a :: p) → (∀ a ∈ q', a ∈ q) → firstDiff (ord (N + 1)) r p' q' = r := by
      intro p'
      induction p' with
      | nil => intro q' r h _ _; cases q' with | nil => rfl | cons => exact h.elim
      | cons a p' ih =>
        intro q' r h h1 h2
        cases q' with
        | nil => exact h.elim
        | cons b q' =>
          rw [Sames] at h
          have ha := m1 a (h1 a (by simp))
          have hb := m2 b (by simp [h2 b (by simp)])
          rw [firstDiff, if_neg]
          · exact ih q' r h.2 (fun a hm => h1 a (by simp [hm])) (fun a hm => h2 a (by simp [hm]))
          · exact not_not_intro ((ord_same (N + 1) a b ha.1 hb.1 (by omega)).2 h.1)
    rw [hfd _ q _ hp (fun _ h => h) (fun _ h => h)]
    rfl

example : compare lst (.arr [3] [one, two, .chr 0]) = some (-1) := by decide +kernel

end Verif.Compare
