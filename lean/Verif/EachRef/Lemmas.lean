import Verif.EachRef.Model
namespace Verif.EachRef

def oneO : Option V → Hand
  | none => fun _ => 0
  | some v => one v

/-- References that have to be there before a turn. -/
def Src.cost : Src → Hand
  | .copy v => one v
  | _ => fun _ => 0

def Src.isMove : Src → Bool
  | .move => true
  | _ => false

/-- The array that is read. -/
def Src.Reads (b : Hand) : Src → Prop
  | .get a _ => 1 ≤ b a
  | _ => True

def Src.item (slots : List (Option V)) (i : Nat) : Src → Option (Option V)
  | .no => some none
  | .copy v => some (some v)
  | .get _ els => els[i]?.map some
  | .move => match slots[i]? with
    | some (some v) => some (some v)
    | _ => none

theorem one_self (v : V) : one v v = 1 := if_pos rfl

theorem give_ok {s : S} {v : V} {b : Hand} (h : ∀ j, s.hand j = b j + one v j) :
    ∃ s', s.give v = some s' ∧ (∀ j, s'.hand j = b j) ∧ s'.slots = s.slots ∧ s'.calls = s.calls := by
  refine ⟨{ s with hand := fun i => s.hand i - one v i }, ?_, ?_, rfl, rfl⟩
  · unfold S.give
    rw [if_neg]
    rw [h v, one_self]
    omega
  · intro j
    dsimp only
    rw [h j]
    omega

theorem fetch_ok {s : S} {src : Src} {i : Nat} {b : Hand} {v : Option V} (h : ∀ j, s.hand j = b j + src.cost j)
    (hr : src.Reads b) (hi : src.item s.slots i = some v) :
    ∃ s', s.fetch i src = some (v, s') ∧ (∀ j, s'.hand j = b j + oneO v j) ∧
      s'.slots = (if src.isMove then s.slots.set i none else s.slots) ∧ s'.calls = s.calls := by
  cases src with
  | no =>
    injection hi with hi
    subst hi
    exact ⟨s, rfl, h, rfl, rfl⟩
  | copy c =>
    injection hi with hi
    subst hi
    exact ⟨s, rfl, h, rfl, rfl⟩
  | get a els =>
    simp only [Src.item] at hi
    cases he : els[i]? with
    | none => rw [he] at hi; exact nomatch hi
    | some e =>
      rw [he] at hi
      injection hi with hi
      subst hi
      refine ⟨s.inc e 1, ?_, ?_, rfl, rfl⟩
      · simp only [S.fetch]
        have : 1 ≤ b a := hr
        rw [if_neg (by rw [h a]; omega), he]
        rfl
      · intro j
        simp only [S.inc, h j, Src.cost, oneO]
        omega
  | move =>
    simp only [Src.item] at hi
    split at hi
    · rename_i e he
      injection hi with hi
      subst hi
      refine ⟨{ s.inc e 1 with slots := s.slots.set i none }, ?_, ?_, rfl, rfl⟩
      · simp only [S.fetch, S.move, he]
        rfl
      · intro j
        simp only [S.inc, h j, Src.cost, oneO]
        omega
    · exact nomatch hi

theorem call_ok {res : Nat → V} {s : S} {w : Option V} {x : V} {b : Hand}
    (h : ∀ j, s.hand j = b j + oneO w j + one x j) :
    ∃ s', s.call res w x = some (res s.calls.length, s') ∧ (∀ j, s'.hand j = b j + one (res s.calls.length) j) ∧
      s'.slots = s.slots ∧ s'.calls = s.calls ++ [(w, x)] := by
  have key : ∃ s1, (match w with
      | none => some s
      | some w => s.give w) = some s1 ∧ (∀ j, s1.hand j = b j + one x j) ∧ s1.slots = s.slots ∧
      s1.calls = s.calls := by
    cases w with
    | none => exact ⟨s, rfl, fun j => by rw [h j]; simp [oneO], rfl, rfl⟩
    | some w =>
      exact give_ok (s := s) (v := w) (b := fun j => b j + one x j) (fun j => by rw [h j]; simp only [oneO]; omega)
  obtain ⟨s1, a1, a2, a3, a4⟩ := key
  obtain ⟨s2, b1, b2, b3, b4⟩ := give_ok (s := s1) (v := x) (b := b) a2
  refine ⟨{ s2.inc (res s.calls.length) 1 with calls := s.calls ++ [(w, x)] }, ?_, ?_, ?_, rfl⟩
  · unfold S.call
    cases w with
    | none =>
      injection a1 with a1
      subst a1
      simp [b1, b4, Option.bind_eq_bind]
    | some w =>
      have a1 : s.give w = some s1 := a1
      simp [a1, b1, b4, a4, Option.bind_eq_bind]
  · intro j
    simp only [S.inc, b2 j]
    omega
  · simp only [S.inc, b3, a3]

theorem put_ok {s : S} {i : Nat} {v : V} {b : Hand} (h : ∀ j, s.hand j = b j + one v j) (hs : s.slots[i]? = some none) :
    ∃ s', s.put i v = some s' ∧ (∀ j, s'.hand j = b j) ∧ s'.slots = s.slots.set i (some v) ∧ s'.calls = s.calls := by
  obtain ⟨s1, a1, a2, a3, a4⟩ := give_ok h
  refine ⟨{ s1 with slots := s1.slots.set i (some v) }, ?_, a2, by rw [a3], a4⟩
  simp only [S.put, hs, a1]
  rfl

theorem item_set (src : Src) (slots : List (Option V)) (i k : Nat) (v : Option V) (h : k ≠ i ∨ src.isMove = false) :
    src.item (slots.set i v) k = src.item slots k := by
  cases src with
  | move =>
    rcases h with h | h
    · simp only [Src.item, List.getElem?_set_ne (Ne.symm h)]
    · exact nomatch h
  | _ => rfl

theorem reads_mono {src : Src} {b c : Hand} (h : src.Reads b) (hb : ∀ j, b j ≤ c j) : src.Reads c := by
  cases src with
  | get a els => exact Nat.le_trans h (hb a)
  | _ => trivial

/-- Which element is there before a turn. -/
def Before (ws xs : Src) (slots : List (Option V)) (i : Nat) : Prop :=
  if ws.isMove || xs.isMove then ∃ v, slots[i]? = some (some v) else slots[i]? = some none

theorem turn_ok {res : Nat → V} {ws xs : Src} {s : S} {i : Nat} {b : Hand} {w : Option V} {x : V}
    (h : ∀ j, s.hand j = b j + ws.cost j + xs.cost j) (hw : ws.Reads b) (hx : xs.Reads b)
    (hiw : ws.item s.slots i = some w) (hix : xs.item s.slots i = some (some x))
    (hm : ws.isMove = false ∨ xs.isMove = false) (hs : Before ws xs s.slots i) :
    ∃ s', s.turn res ws xs i = some s' ∧ (∀ j, s'.hand j = b j) ∧
      s'.slots = s.slots.set i (some (res s.calls.length)) ∧ s'.calls = s.calls ++ [(w, x)] := by
  obtain ⟨s1, a1, a2, a3, a4⟩ := fetch_ok (s := s) (src := ws) (i := i) (b := fun j => b j + xs.cost j) (v := w)
    (fun j => by rw [h j]; omega) (reads_mono hw (fun j => Nat.le_add_right _ _)) hiw
  have hix1 : xs.item s1.slots i = some (some x) := by
    rw [a3]
    split
    · rename_i hwm
      rw [item_set _ _ _ _ _ (.inr (by rcases hm with hm | hm; · rw [hm] at hwm; exact nomatch hwm
                                       · exact hm))]
      exact hix
    · exact hix
  obtain ⟨s2, b1, b2, b3, b4⟩ := fetch_ok (s := s1) (src := xs) (i := i) (b := fun j => b j + oneO w j) (v := some x)
    (fun j => by rw [a2 j]; omega) (reads_mono hx (fun j => Nat.le_add_right _ _)) hix1
  obtain ⟨s3, c1, c2, c3, c4⟩ := call_ok (res := res) (s := s2) (w := w) (x := x) (b := b) (fun j => b2 j)
  have e1 : s2.calls = s.calls := by rw [b4, a4]
  have hlt : i < s.slots.length := by
    unfold Before at hs
    split at hs
    · obtain ⟨v, hv⟩ := hs
      exact (List.getElem?_eq_some_iff.mp hv).1
    · exact (List.getElem?_eq_some_iff.mp hs).1
  have e2 : s3.slots[i]? = some none ∧ s3.slots.set i (some (res s.calls.length)) =
      s.slots.set i (some (res s.calls.length)) := by
    rw [c3, b3, a3]
    unfold Before at hs
    cases hwm : ws.isMove with
    | true =>
      have hxm : xs.isMove = false := by rcases hm with hm | hm; · rw [hm] at hwm; exact nomatch hwm
                                         · exact hm
      rw [hxm]
      simp [hlt]
    | false =>
      cases hxm : xs.isMove with
      | true => simp [hlt]
      | false =>
        rw [hwm, hxm] at hs
        simp only [Bool.or_false, Bool.false_eq_true, if_false] at hs ⊢
        exact ⟨hs, trivial⟩
  rw [e1] at c1 c2 c4
  obtain ⟨s4, d1, d2, d3, d4⟩ := put_ok (s := s3) (i := i) c2 e2.1
  refine ⟨s4, ?_, d2, by rw [d3, e2.2], by rw [d4, c4]⟩
  unfold S.turn
  simp [a1, b1, c1, d1, Option.bind_eq_bind]

theorem before_set (ws xs : Src) (slots : List (Option V)) (i k : Nat) (v : Option V) (h : k ≠ i)
    (hb : Before ws xs slots k) : Before ws xs (slots.set i v) k := by
  unfold Before at *
  rw [List.getElem?_set_ne (Ne.symm h)]
  exact hb

theorem loop_ok {res : Nat → V} {ws xs : Src} {wf : Nat → Option V} {xf : Nat → V} {b : Hand}
    (hm : ws.isMove = false ∨ xs.isMove = false) (hw : ws.Reads b) (hx : xs.Reads b) (n : Nat) : ∀ (i : Nat) (s : S),
    (∀ j, s.hand j = b j + n * ws.cost j + n * xs.cost j) →
    (∀ k, i ≤ k → k < i + n → ws.item s.slots k = some (wf k) ∧ xs.item s.slots k = some (some (xf k)) ∧
      Before ws xs s.slots k) →
    ∃ s', loop res ws xs n i s = some s' ∧ (∀ j, s'.hand j = b j) ∧
      s'.slots.length = s.slots.length ∧
      (∀ k, s'.slots[k]? = if i ≤ k ∧ k < i + n then some (some (res (s.calls.length + (k - i)))) else s.slots[k]?) ∧
      s'.calls = s.calls ++ (List.range' i n).map fun k => (wf k, xf k) := by
  induction n with
  | zero =>
    intro i s h _
    refine ⟨s, rfl, fun j => by rw [h j]; omega, rfl, ?_, by simp⟩
    intro k
    rw [if_neg (by omega)]
  | succ n ih =>
    intro i s h hi
    obtain ⟨i1, i2, i3⟩ := hi i (Nat.le_refl _) (by omega)
    obtain ⟨s1, a1, a2, a3, a4⟩ := turn_ok (res := res) (s := s) (i := i)
      (b := fun j => b j + n * ws.cost j + n * xs.cost j)
      (fun j => by rw [h j, Nat.succ_mul, Nat.succ_mul]; omega)
      (reads_mono hw (fun j => by omega)) (reads_mono hx (fun j => by omega)) i1 i2 hm i3
    have hlt : i < s.slots.length := by
      unfold Before at i3
      split at i3
      · obtain ⟨v, hv⟩ := i3
        exact (List.getElem?_eq_some_iff.mp hv).1
      · exact (List.getElem?_eq_some_iff.mp i3).1
    obtain ⟨s2, b1, b2, b3, b4, b5⟩ := ih (i + 1) s1 a2 (by
      intro k h1 h2
      obtain ⟨j1, j2, j3⟩ := hi k (by omega) (by omega)
      rw [a3, item_set _ _ _ _ _ (.inl (by omega)), item_set _ _ _ _ _ (.inl (by omega))]
      exact ⟨j1, j2, before_set _ _ _ _ _ _ (by omega) j3⟩)
    refine ⟨s2, ?_, b2, by rw [b3, a3, List.length_set], ?_, ?_⟩
    · simp only [loop, a1]
      exact b1
    · intro k
      rw [b4 k, a3, a4, List.length_append]
      by_cases hk : k = i
      · subst hk
        rw [if_neg (by omega), if_pos (by omega), List.getElem?_set_self hlt, Nat.sub_self]
        rfl
      · by_cases hk2 : i + 1 ≤ k ∧ k < i + 1 + n
        · rw [if_pos hk2, if_pos (by omega)]
          have : s.calls.length + [(wf i, xf i)].length + (k - (i + 1)) = s.calls.length + (k - i) := by
            simp only [List.length_cons, List.length_nil]; omega
          rw [this]
        · rw [if_neg hk2, if_neg (by omega), List.getElem?_set_ne (Ne.symm hk)]
    · rw [b5, a4, List.range'_succ, List.map_cons, List.append_assoc]
      rfl

end Verif.EachRef
