import Verif.Session.Model
namespace Verif.Session

def vals (l : List Var) : List Slot := l.map fun v => .val v.2
def nms (l : List Var) : List Slot := l.map fun v => .name v.1

theorem vals_length (l : List Var) : (vals l).length = l.length := List.length_map _
theorem nms_length (l : List Var) : (nms l).length = l.length := List.length_map _

/-- The extension holds the added variables. -/
def RelE (more : List Var) : Option Ext → Prop
  | none => more = []
  | some e => e.varAm = more.length ∧ e.vars = vals more ++ nms more

def Rel (s : Sess) (sc : Sc) : Prop :=
  sc.regs = s.first.map (·.2) ∧ sc.regNames = s.first.map (·.1) ∧ RelE s.more sc.ext

/-- The memory while variables are added. -/
def mid (a : List Var) (k : Nat) : List Slot :=
  vals a ++ (List.replicate k .junk ++ (nms a ++ List.replicate k .junk))

theorem set_at {α : Type} (l r : List α) (a b : α) (i : Nat) (h : i = l.length) : (l ++ a :: r).set i b = l ++ b :: r := by
  subst h
  rw [List.set_append_right _ _ (Nat.le_refl _), Nat.sub_self]
  rfl

theorem fill_ok (names : List Nat) (regAm nSZ : Nat) (k : Nat) : ∀ (a : List Var), a.length + k = nSZ →
    regAm + nSZ ≤ names.length →
    fill names regAm nSZ k a.length (mid a k) =
      some (mid (a ++ ((names.drop (regAm + a.length)).take k).map fun n => (n, none)) 0) := by
  induction k with
  | zero => intro a _ _; simp [fill]
  | succ k ih =>
    intro a hl hn
    have hlt : regAm + a.length < names.length := by omega
    simp only [fill, List.getElem?_eq_getElem hlt]
    have hm : (mid a (k + 1)).length = a.length + (k + 1) + (a.length + (k + 1)) := by
      simp only [mid, List.length_append, vals_length, nms_length, List.length_replicate]; omega
    rw [if_pos (by rw [hm]; omega)]
    have e1 : (mid a (k + 1)).set a.length (.val none) =
        (vals a ++ .val none :: (List.replicate k .junk ++ nms a)) ++ .junk :: List.replicate k .junk := by
      unfold mid
      rw [List.replicate_succ, List.cons_append, set_at _ _ _ _ _ (vals_length a).symm]
      simp
    have e2 : ((mid a (k + 1)).set a.length (.val none)).set (a.length + nSZ) (.name names[regAm + a.length]) =
        mid (a ++ [(names[regAm + a.length], none)]) k := by
      rw [e1, set_at _ _ _ _ _ (by
        simp only [List.length_append, List.length_cons, vals_length, nms_length, List.length_replicate]; omega)]
      simp [mid, vals, nms]
    rw [e2]
    have := ih (a ++ [(names[regAm + a.length], none)]) (by rw [List.length_append]; simp only [List.length_cons, List.length_nil]; omega) hn
    have hl1 : (a ++ [(names[regAm + a.length], none)]).length = a.length + 1 := by simp
    rw [hl1] at this
    rw [this]
    congr 2
    rw [List.append_assoc, ← Nat.add_assoc, List.drop_eq_getElem_cons hlt, List.take_succ_cons, List.map_cons]
    rfl

theorem mid_nil (n : Nat) : mid [] n = List.replicate (n * 2) Slot.junk := by
  simp only [mid, vals, nms, List.map_nil, List.nil_append]
  rw [List.replicate_append_replicate, Nat.mul_two]

theorem copied (o : List Var) (n : Nat) (h : o.length ≤ n) :
    ((memcpy (List.replicate (n * 2) Slot.junk) 0 (vals o ++ nms o) 0 o.length).bind fun m =>
      memcpy m n (vals o ++ nms o) o.length o.length) = some (mid o (n - o.length)) := by
  have e1 : memcpy (List.replicate (n * 2) Slot.junk) 0 (vals o ++ nms o) 0 o.length =
      some (vals o ++ List.replicate (n * 2 - o.length) .junk) := by
    unfold memcpy
    rw [if_pos (by simp only [List.length_replicate, List.length_append, vals_length, nms_length]; omega)]
    rw [List.take_zero, List.drop_zero, List.take_left' (vals_length o), List.drop_replicate, Nat.zero_add]
    rfl
  rw [e1, Option.bind_some]
  unfold memcpy
  rw [if_pos (by simp only [List.length_replicate, List.length_append, vals_length, nms_length]; omega)]
  have t1 : (vals o ++ List.replicate (n * 2 - o.length) Slot.junk).take n = vals o ++ List.replicate (n - o.length) .junk := by
    rw [List.take_append, vals_length, List.take_of_length_le (by rw [vals_length]; exact h), List.take_replicate]
    congr 2
    omega
  have t2 : (vals o ++ List.replicate (n * 2 - o.length) Slot.junk).drop (n + o.length) = List.replicate (n - o.length) .junk := by
    rw [List.drop_append, vals_length, List.drop_of_length_le (by rw [vals_length]; omega), List.drop_replicate, List.nil_append]
    congr 1
    omega
  have t3 : ((vals o ++ nms o).drop o.length).take o.length = nms o := by
    rw [List.drop_left' (vals_length o), List.take_of_length_le (by rw [nms_length]; exact Nat.le_refl _)]
  rw [t1, t2, t3, mid, List.append_assoc]

theorem mid_zero (l : List Var) : mid l 0 = vals l ++ nms l := by simp [mid]

theorem grow_ok (names : List Nat) (regAm vam : Nat) (more : List Var) (oE : Option Ext) (hr : RelE more oE)
    (h1 : regAm + more.length ≤ vam) (h2 : vam ≤ names.length) :
    ∃ e, grow names regAm vam oE = some e ∧
      RelE (more ++ ((names.take vam).drop (regAm + more.length)).map fun n => (n, none)) (some e) := by
  obtain ⟨new, hnew⟩ : ∃ l : List Var, ((names.take vam).drop (regAm + more.length)).map (fun n => (n, none)) = l := ⟨_, rfl⟩
  have hnl : new.length = vam - (regAm + more.length) := by
    rw [← hnew, List.length_map, List.length_drop, List.length_take]; omega
  have hnew2 : ((names.drop (regAm + more.length)).take (vam - regAm - more.length)).map (fun n => (n, none)) = new := by
    rw [← hnew, List.drop_take]
    congr 2
    omega
  have key : fill names regAm (vam - regAm) (vam - regAm - more.length) more.length (mid more (vam - regAm - more.length)) =
      some (vals (more ++ new) ++ nms (more ++ new)) := by
    rw [fill_ok _ _ _ _ more (by omega) (by omega), hnew2, mid_zero]
  rw [hnew]
  refine ⟨⟨vam - regAm, vals (more ++ new) ++ nms (more ++ new)⟩, ?_, ?_, rfl⟩
  · cases oE with
    | none =>
      have hm : more = [] := hr
      subst hm
      simp only [List.length_nil, mid_nil] at key
      rw [Nat.sub_zero] at key
      simp only [grow, Nat.sub_zero, key, Option.map_some]
    | some oE =>
      obtain ⟨q1, q2⟩ := hr
      have c := copied more (vam - regAm) (by omega)
      simp only [grow, q1, q2]
      cases hc : memcpy (List.replicate ((vam - regAm) * 2) Slot.junk) 0 (vals more ++ nms more) 0 more.length with
      | none => rw [hc] at c; exact nomatch c
      | some m =>
        rw [hc, Option.bind_some] at c
        rw [Option.bind_some, c, Option.bind_some, key, Option.map_some]
  · rw [List.length_append, hnl]
    show vam - regAm = _
    omega

theorem names_ok (m : List Var) (k : Nat) : ∀ (i : Nat), i + k = m.length →
    readNames (vals m ++ nms m) m.length k i = some ((m.drop i).map (·.1)) := by
  induction k with
  | zero => intro i h; rw [List.drop_of_length_le (by omega)]; rfl
  | succ k ih =>
    intro i h
    have hlt : i < m.length := by omega
    have : (vals m ++ nms m)[i + m.length]? = some (.name m[i].1) := by
      rw [List.getElem?_append_right (by rw [vals_length]; omega), vals_length, Nat.add_sub_cancel, nms, List.getElem?_map,
        List.getElem?_eq_getElem hlt]
      rfl
    simp only [readNames, this, ih (i + 1) (by omega), List.drop_eq_getElem_cons hlt, List.map_cons]
    rfl

theorem val_at (m : List Var) (i : Nat) (h : i < m.length) : (vals m ++ nms m)[i]? = some (.val m[i].2) := by
  rw [List.getElem?_append_left (by rw [vals_length]; exact h), vals, List.getElem?_map, List.getElem?_eq_getElem h]
  rfl

theorem set_val (m : List Var) (i : Nat) (h : i < m.length) (w : Option Nat) :
    (vals m ++ nms m).set i (.val w) = vals (m.modify i fun u => (u.1, w)) ++ nms (m.modify i fun u => (u.1, w)) := by
  rw [List.set_append_left _ _ (by rw [vals_length]; exact h)]
  congr 1
  · apply List.ext_getElem?
    intro j
    simp only [vals, List.getElem?_set, List.getElem?_map, List.getElem?_modify, List.length_map]
    by_cases hj : i = j
    · subst hj
      simp [h]
    · simp [hj]
  · apply List.ext_getElem?
    intro j
    simp only [nms, List.getElem?_map, List.getElem?_modify]
    by_cases hj : i = j
    · subst hj
      cases m[i]? <;> simp
    · simp [hj]

theorem erase_ok (n : Nat) (k : Nat) : ∀ (a b : List Var), b.length = k →
    eraseLoop n (a ++ b).length k a.length (vals (a ++ b) ++ nms (a ++ b)) =
      some ((eraseIn n b).2, vals (a ++ (eraseIn n b).1) ++ nms (a ++ (eraseIn n b).1)) := by
  induction k with
  | zero => intro a b h; rw [List.length_eq_zero_iff.mp h]; rfl
  | succ k ih =>
    intro a b h
    cases b with
    | nil => exact nomatch h
    | cons v b =>
      have hlt : a.length < (a ++ v :: b).length := by simp
      have hg : (a ++ v :: b)[a.length]'hlt = v := by simp
      have : (vals (a ++ v :: b) ++ nms (a ++ v :: b))[a.length + (a ++ v :: b).length]? = some (.name v.1) := by
        rw [List.getElem?_append_right (by rw [vals_length]; omega), vals_length, Nat.add_sub_cancel, nms, List.getElem?_map,
          List.getElem?_eq_getElem hlt, hg]
        rfl
      simp only [eraseLoop, this]
      by_cases hn : v.1 = n
      · rw [if_pos hn, val_at _ _ hlt]
        simp only [eraseIn, if_pos hn]
        rw [set_val _ _ hlt]
        have : (a ++ v :: b).modify a.length (fun u => (u.1, none)) = a ++ (v.1, none) :: b := by
          apply List.ext_getElem?
          intro j
          rw [List.getElem?_modify]
          by_cases hj : a.length = j
          · subst hj
            simp
          · simp only [if_neg hj]
            rcases Nat.lt_or_gt_of_ne hj with hj | hj
            · rw [List.getElem?_append_right (by omega), List.getElem?_append_right (by omega)]
              obtain ⟨d, hd⟩ : ∃ d, j - a.length = d + 1 := ⟨j - a.length - 1, by omega⟩
              rw [hd, List.getElem?_cons_succ, List.getElem?_cons_succ]
              simp
            · rw [List.getElem?_append_left hj, List.getElem?_append_left hj]
              simp
        rw [this]
      · rw [if_neg hn]
        have e : a ++ v :: b = (a ++ [v]) ++ b := by simp
        have := ih (a ++ [v]) b (by simpa using h)
        have hl : (a ++ [v]).length = a.length + 1 := by simp
        rw [← e, hl] at this
        rw [this]
        simp only [eraseIn, if_neg hn, List.append_assoc, List.singleton_append]

end Verif.Session
