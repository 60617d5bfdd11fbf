import Verif.FileIo.Model
namespace Verif.FileIo

theorem fread_spec (s : List Src) : ∀ n,
    (fread n s).1 ++ contents (fread n s).2 = contents s ∧ (fread n s).1.length ≤ n ∧
    (fread n s).2.length + (fread n s).1.length ≤ s.length := by
  induction s with
  | nil => intro n; cases n <;> simp [fread, contents]
  | cons c r ih =>
    intro n
    cases n with
    | zero => simp [fread]
    | succ n =>
      cases c with
      | err => simp [fread, contents]
      | byte b =>
        obtain ⟨h1, h2, h3⟩ := ih n
        simp only [fread, contents, List.cons_append, h1, List.length_cons]
        exact ⟨trivial, by omega, by omega⟩

theorem fread_full (s : List Src) (n : Nat) (h : (fread n s).1.length = n) : (fread n s).1 = (contents s).take n := by
  obtain ⟨h1, _, _⟩ := fread_spec s n
  rw [← h1]
  conv => rhs; lhs; rw [← h]
  rw [List.take_left]

theorem fread_stop (s : List Src) (h : .err ∉ s) (n : Nat) (hn : 0 < n) (h0 : (fread n s).1 = []) : s = [] := by
  cases s with
  | nil => rfl
  | cons c r =>
    cases n with
    | zero => omega
    | succ n =>
      cases c with
      | err => exact absurd List.mem_cons_self h
      | byte b => exact nomatch h0

theorem fread_noerr (s : List Src) (h : .err ∉ s) : ∀ n, .err ∉ (fread n s).2 := by
  induction s with
  | nil => intro n; cases n <;> exact nofun
  | cons c r ih =>
    intro n
    cases n with
    | zero => exact h
    | succ n =>
      cases c with
      | err => exact absurd List.mem_cons_self h
      | byte b => exact ih (fun hh => h (List.mem_cons_of_mem _ hh)) n

theorem stream_spec (fuel : Nat) : ∀ r s, s.length < fuel →
    ∃ t, streamLoop fuel r s = .val (r ++ t) ∧ t <+: contents s ∧ (.err ∉ s → t = contents s) := by
  induction fuel with
  | zero => intro r s h; omega
  | succ fuel ih =>
    intro r s h
    simp only [streamLoop]
    obtain ⟨h1, _, h3⟩ := fread_spec s 8192
    by_cases h0 : (fread 8192 s).1 = []
    · rw [if_pos h0]
      refine ⟨[], by rw [List.append_nil], List.nil_prefix, ?_⟩
      intro he
      rw [fread_stop s he 8192 (by omega) h0]
      rfl
    · rw [if_neg h0]
      have hp : 0 < (fread 8192 s).1.length := List.length_pos_iff.mpr h0
      obtain ⟨t, a, b, c⟩ := ih (r ++ (fread 8192 s).1) (fread 8192 s).2 (by omega)
      refine ⟨(fread 8192 s).1 ++ t, by rw [a, List.append_assoc], ?_, ?_⟩
      · rw [← h1]
        exact (List.prefix_append_right_inj _).mpr b
      · intro he
        rw [← h1, c (fread_noerr s he 8192)]

theorem push_spec (o : List Wr) : ∀ bs, (push bs o).1 <+: bs ∧ ((push bs o).2.1 = true → (push bs o).1 = bs) ∧
    ((push bs o).2.1 = false → (push bs o).1.length < bs.length) := by
  induction o with
  | nil => intro bs; simp [push]
  | cons w o ih =>
    intro bs
    cases w with
    | err =>
      simp only [push]
      by_cases h : bs = []
      · rw [if_pos h]; simp
      · rw [if_neg h]
        exact ⟨List.nil_prefix, nofun, fun _ => List.length_pos_iff.mpr h⟩
    | took k =>
      simp only [push]
      by_cases h : bs = []
      · rw [if_pos h]; simp
      · rw [if_neg h]
        by_cases hk : k = 0 ∨ bs.length < k
        · rw [if_pos hk]
          exact ⟨List.nil_prefix, nofun, fun _ => List.length_pos_iff.mpr h⟩
        · rw [if_neg hk]
          obtain ⟨a, b, c⟩ := ih (bs.drop k)
          refine ⟨?_, ?_, ?_⟩
          · have := (List.prefix_append_right_inj (bs.take k)).mpr a
            rwa [List.take_append_drop] at this
          · intro hh
            dsimp only at hh ⊢
            rw [b hh, List.take_append_drop]
          · intro hh
            have := c hh
            dsimp only
            rw [List.length_append, List.length_take]
            rw [List.length_drop] at this
            omega

theorem getChars_len (x : List El) : ∀ bs, getChars x = .val bs → bs.length = x.length := by
  induction x with
  | nil => intro bs h; injection h with h; subst h; rfl
  | cons e r ih =>
    intro bs h
    simp only [getChars] at h
    split at h
    · split at h
      · rename_i bs' hb
        injection h with h
        subst h
        simp [ih _ hb]
      · exact nomatch h
      · exact nomatch h
    · exact nomatch h
    · exact nomatch h

theorem getChars_spec (x : List El) (bs : List UInt8) (h : x.map byteOf = bs.map some) : getChars x = .val bs := by
  induction x generalizing bs with
  | nil => cases bs with
    | nil => rfl
    | cons _ _ => exact nomatch h
  | cons e r ih =>
    cases bs with
    | nil => exact nomatch h
    | cons b bs =>
      simp only [List.map_cons, List.cons.injEq] at h
      obtain ⟨h1, h2⟩ := h
      have hb : getChar e = .val b := by
        cases e with
        | num v =>
          simp only [byteOf] at h1
          split at h1
          · injection h1 with h1
            simp only [getChar]
            rw [if_pos (by omega), h1]
          · exact nomatch h1
        | chr c =>
          simp only [byteOf] at h1
          split at h1
          · rename_i hc
            injection h1 with h1
            simp only [getChar]
            rw [Nat.mod_eq_of_lt hc, h1]
          · exact nomatch h1
        | other => exact nomatch h1
      simp only [getChars]
      rw [hb, ih bs h2]

theorem wBytes_all {cap : Nat} {x : List El} {bs : List UInt8} {o : List Wr} {d : Nat} (hg : getChars x = .val bs)
    (hd : bs.length - bs.length % cap = d) (hp : (push (bs.take d) o).2.1 = true) :
    wBytes cap x o = (some ((push (bs.take d) o).1 ++ (push (bs.drop d) (push (bs.take d) o).2.2).1), .val ()) := by
  have hl := getChars_len x bs hg
  subst hd
  have : openWriteClose cap bs o = ((push (bs.take (bs.length - bs.length % cap)) o).1 ++
      (push (bs.drop (bs.length - bs.length % cap)) (push (bs.take (bs.length - bs.length % cap)) o).2.2).1,
      bs.length) := if_pos hp
  simp only [wBytes, hg, this]
  rw [if_neg (by omega)]

theorem wBytes_less {cap : Nat} {x : List El} {bs : List UInt8} {o : List Wr} {d : Nat} (hg : getChars x = .val bs)
    (hd : bs.length - bs.length % cap = d) (hp : (push (bs.take d) o).2.1 = false) :
    wBytes cap x o = (some (push (bs.take d) o).1, .error) := by
  have hl := getChars_len x bs hg
  have hc := (push_spec o (bs.take d)).2.2 hp
  rw [List.length_take] at hc
  subst hd
  have : openWriteClose cap bs o = ((push (bs.take (bs.length - bs.length % cap)) o).1,
      (push (bs.take (bs.length - bs.length % cap)) o).1.length) := if_neg (by rw [hp]; exact nofun)
  simp only [wBytes, hg, this]
  rw [if_pos (by omega)]

end Verif.FileIo
