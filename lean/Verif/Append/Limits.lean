import Verif.Append.History
/-!
# Joining and appending: what happens at 2^32 elements (lemmas)
-/
namespace Verif.Append
open Verif.Squeeze

theorem newObj_eq (fill : Bool) (d : Data) (a : Alloc) : ∃ buf, buf.ty = d.ty ∧ len buf = cap fill d.ty (size fill d.ty (len d) + a.extra) ∧
    sub 0 (len d) buf = d ∧ newObj fill d a = some ⟨.own fill buf, len d, size fill d.ty (len d) + a.extra, 1, false, false, false⟩ := by
  obtain ⟨o, buf, n1, n2, n3, n4, n5, n6, n7, n8⟩ := newObj_spec fill d a
  have hg := own_len (n3 []) n2
  have hty : buf.ty = d.ty := by rw [← n5, sub_ty]
  unfold newObj at n1 ⊢
  dsimp only at n1 ⊢
  cases hw : write (fresh d.ty a.junk (cap fill d.ty (size fill d.ty (len d) + a.extra))) 0 d with
  | none => rw [hw] at n1; cases n1
  | some b =>
    rw [hw] at n1
    simp only [Option.map_some, Option.some.injEq] at n1
    subst n1
    injection n2 with _ n2
    subst n2
    dsimp only at hg n5
    rw [hty] at hg
    exact ⟨b, hty, hg.1, n5, rfl⟩

theorem write_none {d e : Data} {i : Nat} (h : len d < i + len e) : write d i e = none := by
  have key : ∀ {α : Type} (xs ys : List α), xs.length < i + ys.length → over xs i ys = none := by
    intro α xs ys h
    unfold over
    rw [if_neg (by omega)]
  cases d <;> cases e <;> first
    | rfl
    | (unfold write
       simp only [len, Data.elems, List.length_map] at h
       dsimp only
       rw [key _ _ h]
       rfl)

/-- Appending in place to a full array of the greatest length. -/
theorem append_full (bad : BitVec 64 → BitVec 32) (n : Nat) (hn : n = 4294967295) (c : BitVec 8) (a b : Alloc) (ha : a.extra = 0) :
    run bad start [.new false (.c8 (List.replicate n c)) a, .add 0 (.chr 97) b] = .undef := by
  obtain ⟨buf, h1, h2, h3, h4⟩ := newObj_eq false (.c8 (List.replicate n c)) a
  have hl : len (.c8 (List.replicate n c)) = n := by simp [len, Data.elems]
  rw [ha, hl] at h2 h4
  rw [hl] at h3
  rw [run, step, if_neg (by intro h; cases h.1), h4]
  dsimp only
  rw [run, step]
  unfold vecAdd inplaceAdd
  simp only [start, List.nil_append, List.length_nil, List.getElem?_cons_zero]
  have hty : (Data.c8 (List.replicate n c)).ty = .c8 := rfl
  rw [hty] at h1 h2
  rw [h1, hty]
  have : (n + 1) % 4294967296 = 0 := by omega
  have hsz : size false .c8 0 < size false .c8 n + 0 := by simp only [size]; omega
  rw [this, if_pos ⟨trivial, hsz, rfl⟩]
  simp only [single]
  rw [write_none]
  rw [h2]
  simp only [size, cap, len, Data.elems, List.length_map, List.length_singleton]
  omega

/-- Joining two arrays of half of the greatest number of elements. -/
theorem join_halves (bad : BitVec 64 → BitVec 32) (n : Nat) (hn : n = 2147483648) (c : BitVec 8) (a b : Alloc) (ha : a.extra = 0) :
    ∃ s id, run bad start [.new false (.c8 (List.replicate n c)) a, .new false (.c8 (List.replicate n c)) a, .join 0 1 b] = .ok s ∧
      s.vars[0]? = some id ∧ view s.heap id = some (.c8 []) := by
  obtain ⟨buf, h1, h2, h3, h4⟩ := newObj_eq false (.c8 (List.replicate n c)) a
  have hl : len (.c8 (List.replicate n c)) = n := by simp [len, Data.elems]
  rw [ha, hl] at h2 h4
  rw [hl] at h3
  rw [run, step, if_neg (by intro h; cases h.1), h4]
  dsimp only
  rw [run, step, if_neg (by intro h; cases h.1), h4]
  dsimp only
  rw [run, step]
  unfold join
  simp only [start, List.nil_append, List.length_nil, List.cons_append, List.length_singleton, List.getElem?_cons_zero, List.getElem?_cons_succ,
    view, h3]
  rw [if_pos trivial, hl, h1, if_neg (by
    intro h
    have := h.1
    simp only [size, Data.ty] at this
    omega)]
  unfold joinNew build make
  obtain ⟨e, c1, c2, c3⟩ := copyTo_spec bad (t := .c8) (d := .c8 (List.replicate n c)) rfl
  have el : elOr (Data.c8 (List.replicate n c)).ty (Data.c8 (List.replicate n c)).ty = .c8 := rfl
  rw [el, if_neg (by intro h; cases h.1), if_neg (by intro h; cases h.1), c1]
  dsimp only
  have hel : len e = n := by
    rw [← hl]
    exact c3.length
  have hfl := fresh_len .c8 b.junk (cap false .c8 (size false .c8 (n + n) + b.extra))
  have hcp : n + n ≤ cap false .c8 (size false .c8 (n + n) + b.extra) := cap_size (by omega)
  obtain ⟨b1, w1, w2, w3⟩ := write_spec (d := fresh .c8 b.junk (cap false .c8 (size false .c8 (n + n) + b.extra))) (e := e) (i := 0)
    (by rw [fresh_ty, c2]) (by omega)
  rw [w1]
  dsimp only
  rw [fresh_ty] at w2
  have lb1 : len b1 = cap false .c8 (size false .c8 (n + n) + b.extra) := by
    show b1.elems.length = _
    rw [← hfl]
    show _ = (fresh .c8 b.junk (cap false .c8 (size false .c8 (n + n) + b.extra))).elems.length
    have : e.elems.length = n := hel
    have : (fresh .c8 b.junk (cap false .c8 (size false .c8 (n + n) + b.extra))).elems.length = _ := hfl
    rw [w3]
    simp only [List.length_append, List.length_take, List.length_drop]
    omega
  obtain ⟨b2, v1, v2, v3⟩ := write_spec (d := b1) (e := e) (i := n) (by rw [w2, c2]) (by omega)
  rw [hl, v1]
  dsimp only
  refine ⟨_, 2, rfl, rfl, ?_⟩
  simp only [dec, List.getElem?_cons_zero, dec1, Nat.le_refl, if_true]
  have hz : (n + n) % 4294967296 = 0 := by omega
  rw [hz]
  have : b2.ty = .c8 := by rw [v2, w2]
  cases b2 <;> first | (cases this; done) | rfl

/-- Joining to a slice of an array with little room, with a length that is not little. -/
theorem join_slice_past (bad : BitVec 64 → BitVec 32) (n : Nat) (hn : n = 4294967230) (z : Bool) (v : Val) (a b : Alloc) (ha : a.extra = 64) :
    run bad start [.new true (.B (List.replicate 100 v)) a, .slice true 0 0 100, .drop 0, .new false (.bit (List.replicate n z)) a, .join 0 1 b] =
      .undef := by
  obtain ⟨buf, h1, h2, h3, h4⟩ := newObj_eq true (.B (List.replicate 100 v)) a
  have hl : len (.B (List.replicate 100 v)) = 100 := by simp [len, Data.elems]
  rw [ha, hl] at h2 h4
  rw [hl] at h3
  obtain ⟨buf', h1', h2', h3', h4'⟩ := newObj_eq false (.bit (List.replicate n z)) a
  have hl' : len (.bit (List.replicate n z)) = n := by simp [len, Data.elems]
  rw [ha, hl'] at h2' h4'
  rw [hl'] at h3'
  rw [run, step, if_neg (by intro h; exact h.2 rfl), h4]
  dsimp only
  rw [run, step]
  unfold mkSlice
  simp only [start, List.nil_append, List.length_nil, List.getElem?_cons_zero]
  rw [if_pos (by decide)]
  dsimp only
  rw [run, step]
  simp only [List.set_cons_zero, List.cons_append, List.nil_append, List.getElem?_cons_zero, dec, dec1, List.length_singleton]
  rw [if_neg (by decide)]
  rw [run, step, if_neg (by intro h; cases h.1), h4']
  simp only [List.eraseIdx_zero, List.tail_cons, List.cons_append, List.nil_append, List.length_cons, List.length_nil]
  rw [run, step]
  unfold join
  simp only [List.getElem?_cons_zero, List.getElem?_cons_succ, view, h3, h3', Option.map_some]
  rw [if_pos trivial, hl, hl']
  have hty : buf.ty = .B := h1
  have hm : (100 + n) % 4294967296 = 34 := by omega
  rw [hm, if_pos ⟨trivial, hty, trivial, trivial, show size true .B 34 < (size true .B 100 + 64) % 4294967296 by decide⟩]
  unfold extend
  obtain ⟨e, c1, c2, c3⟩ := copyTo_spec bad (t := .B) (d := .bit (List.replicate n z)) rfl
  rw [hty, c1]
  dsimp only
  have hel : len e = n := by
    rw [← hl']
    exact c3.length
  rw [write_none]
  rw [h2, hel]
  have : cap true (Data.B (List.replicate 100 v)).ty (size true (Data.B (List.replicate 100 v)).ty 100 + 64) = 108 :=
    show cap true .B (size true .B 100 + 64) = 108 by decide
  omega

end Verif.Append
