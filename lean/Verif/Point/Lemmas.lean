import Verif.Point.Model
namespace Verif.Point

theorem chars_eq (c : Nat) : ∀ k s, chars c k s = s ++ List.replicate k c := by
  intro k
  induction k with
  | zero => intro s; simp [chars]
  | succ k ih => intro s; rw [chars, ih, List.replicate_succ, List.append_assoc]; rfl

theorem mid {α : Type _} (a : List α) (c : α) (b : List α) : (a ++ c :: b)[a.length]? = some c := by
  rw [List.getElem?_append_right (Nat.le_refl _), Nat.sub_self]; rfl

theorem back_ok {text pre line post : Text} {p : Nat} (h : Located text pre line post p) : back text p = some pre.length := by
  obtain ⟨h1, h2, h3, _, h5, h6⟩ := h
  obtain ⟨k, rfl⟩ : ∃ k, p = pre.length + k := ⟨p - pre.length, by omega⟩
  have hk : k ≤ line.length := by omega
  clear h5 h6
  induction k with
  | zero =>
    rcases h2 with h2 | ⟨q, h2⟩
    · rw [h2]; rfl
    · subst h2
      have : text[q.length]? = some 10 := by
        rw [h1, List.append_assoc, List.append_assoc]
        exact mid q 10 _
      rw [List.length_append, List.length_singleton, Nat.add_zero]
      simp only [back, this]
      rfl
  | succ k ih =>
    have hx : text[pre.length + k]? = some line[k] := by
      rw [h1, List.append_assoc, List.getElem?_append_right (by omega), Nat.add_sub_cancel_left,
        List.getElem?_append_left (by omega), List.getElem?_eq_getElem (by omega)]
    have hne : line[k] ≠ 10 := fun he => h3 (by rw [nl, ← he]; exact List.getElem_mem _)
    rw [← Nat.add_assoc]
    simp only [back, hx, if_pos hne]
    exact ih (by omega)

theorem fwdPrint_ok (post : Text) (hp : post = [] ∨ ∃ q, post = nl :: q) : ∀ (line pre s : Text), nl ∉ line →
    fwdPrint (pre ++ line ++ post) (line.length + post.length) pre.length s = some (pre.length + line.length, s ++ line) := by
  intro line
  induction line with
  | nil =>
    intro pre s _
    rw [List.append_nil, List.append_nil]
    rcases hp with hp | ⟨q, hp⟩
    · rw [hp]; rfl
    · subst hp
      rw [List.length_nil, Nat.zero_add, List.length_cons]
      simp only [fwdPrint, mid pre nl q]
      rfl
  | cons c l ih =>
    intro pre s hn
    have hc : ¬ c = 10 := fun he => hn (by rw [he]; exact List.mem_cons_self)
    have hx : (pre ++ c :: l ++ post)[pre.length]? = some c := by
      rw [List.append_assoc]; exact mid pre c _
    have e : (c :: l).length + post.length = l.length + post.length + 1 := by rw [List.length_cons]; omega
    rw [e]
    simp only [fwdPrint, hx, if_neg hc]
    have := ih (pre ++ [c]) (s ++ [c]) (fun h => hn (List.mem_cons_of_mem _ h))
    simp only [List.length_append, List.length_singleton, List.append_assoc, List.singleton_append] at this
    rw [List.append_assoc, this, List.length_cons]
    congr 2
    omega

theorem fwd_print (text : Text) : ∀ k e s, fwd text k e = (fwdPrint text k e s).map (·.1) := by
  intro k
  induction k with
  | zero => intro e s; rfl
  | succ k ih =>
    intro e s
    simp only [fwd, fwdPrint]
    cases text[e]? with
    | none => rfl
    | some c =>
      simp only []
      split
      · rfl
      · exact ih _ _

theorem lines_ok : ∀ (b a rest : Text) (ln : Nat), lines (a ++ b ++ rest) b.length a.length ln = some (ln + b.count nl) := by
  intro b
  induction b with
  | nil => intro a rest ln; rfl
  | cons c b ih =>
    intro a rest ln
    have hx : (a ++ c :: b ++ rest)[a.length]? = some c := by
      rw [List.append_assoc]; exact mid a c _
    simp only [List.length_cons, lines, hx]
    have := ih (a ++ [c]) rest (if c = 10 then ln + 1 else ln)
    simp only [List.length_append, List.length_singleton, List.append_assoc, List.singleton_append] at this
    rw [List.append_assoc, this, List.count_cons]
    by_cases hc : c = 10
    · subst hc
      simp [nl]
      omega
    · simp [nl, hc]

theorem lead_ok (pre rest : Text) : ∀ (b a s : Text),
    lead (pre ++ (a ++ b ++ rest)) pre.length b.length a.length s = some (s ++ b.map under) := by
  intro b
  induction b with
  | nil => intro a s; simp [lead]
  | cons c b ih =>
    intro a s
    have hx : (pre ++ (a ++ c :: b ++ rest))[pre.length + a.length]? = some c := by
      rw [List.getElem?_append_right (by omega), Nat.add_sub_cancel_left, List.append_assoc]
      exact mid a c _
    simp only [List.length_cons, lead, hx]
    have := ih (a ++ [c]) (s ++ [under c])
    simp only [List.length_append, List.length_singleton, List.append_assoc, List.singleton_append] at this
    rw [List.append_assoc, List.cons_append]
    exact this

theorem starts (x : Text) : ∃ a b, x = a ++ b ∧ (a = [] ∨ ∃ q, a = q ++ [nl]) ∧ nl ∉ b := by
  induction x with
  | nil => exact ⟨[], [], rfl, Or.inl rfl, List.not_mem_nil⟩
  | cons c x ih =>
    obtain ⟨a, b, h1, h2, h3⟩ := ih
    rcases h2 with h2 | ⟨q, h2⟩
    · by_cases hc : nl = c
      · exact ⟨[c], b, by rw [h1, h2]; rfl, Or.inr ⟨[], by rw [hc]; rfl⟩, h3⟩
      · refine ⟨[], c :: b, by rw [h1, h2]; rfl, Or.inl rfl, ?_⟩
        intro h
        rcases List.mem_cons.mp h with h | h
        · exact hc h
        · exact h3 h
    · exact ⟨c :: a, b, by rw [h1]; rfl, Or.inr ⟨c :: q, by rw [h2]; rfl⟩, h3⟩

theorem stops (x : Text) : ∃ a b, x = a ++ b ∧ nl ∉ a ∧ (b = [] ∨ ∃ q, b = nl :: q) := by
  induction x with
  | nil => exact ⟨[], [], rfl, List.not_mem_nil, Or.inl rfl⟩
  | cons c x ih =>
    obtain ⟨a, b, h1, h2, h3⟩ := ih
    by_cases hc : nl = c
    · exact ⟨[], c :: x, rfl, List.not_mem_nil, Or.inr ⟨x, by rw [hc]⟩⟩
    · refine ⟨c :: a, b, by rw [h1]; rfl, ?_, h3⟩
      intro h
      rcases List.mem_cons.mp h with h | h
      · exact hc h
      · exact h2 h

end Verif.Point
