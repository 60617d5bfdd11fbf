import Verif.FileIo.Lemmas
/-
C85: reading and writing files when system calls can fail.  For all contents, all sizes of buffers, and failures
anywhere.
-/
namespace Verif.FileIo

/-- Reading a file gives its contents or an error; an error only if a call failed. -/
theorem read_whole (s : List Src) :
    (pathBytes true (contents s).length s = .val (contents s) ∨ pathBytes true (contents s).length s = .error) ∧
    (.err ∉ s → pathBytes true (contents s).length s = .val (contents s)) := by
  have key : ∀ h : (fread (contents s).length s).1.length = (contents s).length,
      pathBytes true (contents s).length s = .val (contents s) := by
    intro h
    simp only [pathBytes, if_true]
    rw [if_neg (by omega), fread_full s _ h, List.take_length]
  constructor
  · by_cases h : (fread (contents s).length s).1.length = (contents s).length
    · exact .inl (key h)
    · right
      simp only [pathBytes, if_true]
      rw [if_pos h]
  · intro he
    apply key
    obtain ⟨h1, h2, _⟩ := fread_spec s (contents s).length
    have hnil : ∀ (s : List Src) n, .err ∉ s → (contents s).length ≤ n → (fread n s).1.length = (contents s).length := by
      intro s
      induction s with
      | nil => intro n _ _; cases n <;> rfl
      | cons c r ih =>
        intro n he hn
        cases c with
        | err => exact absurd List.mem_cons_self he
        | byte b =>
          cases n with
          | zero => simp [contents] at hn
          | succ n =>
            simp only [contents, List.length_cons] at hn
            simp only [fread, contents, List.length_cons]
            rw [ih n (fun h => he (List.mem_cons_of_mem _ h)) (by omega)]
    exact hnil s _ he (Nat.le_refl _)

/-- Reading a stream ends, gives the beginning of what it contains, and all of it if no call fails. -/
theorem stream_ends_partial (s : List Src) (len : Nat) :
    ∃ r, pathBytes false len s = .val r ∧ r <+: contents s ∧ (.err ∉ s → r = contents s) := by
  obtain ⟨t, a, b, c⟩ := stream_spec (s.length + 1) [] s (by omega)
  refine ⟨t, ?_, b, c⟩
  simp only [pathBytes, Bool.false_eq_true, if_false, streamBytes]
  rw [a, List.nil_append]

/-- But a failing call is taken for the end: whatever a stream contains, it can be read as empty without an error. -/
theorem stream_error_unseen (bs : List UInt8) (len : Nat) :
    ∃ s, contents s = bs ∧ pathBytes false len s = .val [] := by
  refine ⟨.err :: bs.map .byte, ?_, rfl⟩
  simp only [contents]
  induction bs with
  | nil => rfl
  | cons b r ih => simp [contents, ih]

/-- After writing, the file is a beginning of the data.  Without a failing call it is all of the data and no error is
    raised.  An error means that something is missing.  No error means that at most the last, partly filled buffer is
    missing. -/
theorem write_reports_partial (cap : Nat) (hcap : 0 < cap) (x : List El) (bs : List UInt8)
    (hx : x.map byteOf = bs.map some) (o : List Wr) :
    ∃ f res, wBytes cap x o = (some f, res) ∧ f <+: bs ∧
      (o = [] → f = bs ∧ res = .val ()) ∧
      (res = .error → f.length < bs.length) ∧
      (res = .val () → bs.length - bs.length % cap ≤ f.length) ∧ (res = .val () ∨ res = .error) := by
  have hg := getChars_spec x bs hx
  obtain ⟨d, hd⟩ : ∃ d, bs.length - bs.length % cap = d := ⟨_, rfl⟩
  rw [hd]
  obtain ⟨a, b, c⟩ := push_spec o (bs.take d)
  by_cases hp : (push (bs.take d) o).2.1 = true
  · rw [wBytes_all hg hd hp]
    obtain ⟨a', b', _⟩ := push_spec (push (bs.take d) o).2.2 (bs.drop d)
    refine ⟨_, _, rfl, ?_, ?_, nofun, ?_, .inl rfl⟩
    · rw [b hp]
      have := (List.prefix_append_right_inj (bs.take d)).mpr a'
      rwa [List.take_append_drop] at this
    · intro ho
      subst ho
      exact ⟨by simp [push], rfl⟩
    · intro _
      rw [b hp, List.length_append, List.length_take]
      omega
  · have hp := Bool.eq_false_iff.mpr hp
    rw [wBytes_less hg hd hp]
    have hc := c hp
    rw [List.length_take] at hc
    refine ⟨_, _, rfl, a.trans (List.take_prefix _ _), ?_, ?_, nofun, .inr rfl⟩
    · intro ho
      subst ho
      exact nomatch hp
    · intro _
      omega

/-- But the last buffer is written without looking at the result: any data that does not fill its buffers can be lost
    in part without an error. -/
theorem flush_unchecked (cap : Nat) (hcap : 0 < cap) (x : List El) (bs : List UInt8)
    (hx : x.map byteOf = bs.map some) (hm : bs.length % cap ≠ 0) :
    ∃ o f, wBytes cap x o = (some f, .val ()) ∧ f ≠ bs := by
  have hg := getChars_spec x bs hx
  have hle : bs.length % cap ≤ bs.length := Nat.mod_le _ _
  obtain ⟨d, hd⟩ : ∃ d, bs.length - bs.length % cap = d := ⟨_, rfl⟩
  have hrest : bs.drop d ≠ [] := by
    intro h
    have := congrArg List.length h
    rw [List.length_drop, List.length_nil] at this
    omega
  have h1 : (bs.take d).length = d := by rw [List.length_take]; omega
  have fin : ∀ o, push (bs.take d) o = (bs.take d, true, [.err]) → wBytes cap x o = (some (bs.take d), .val ()) := by
    intro o ho
    rw [wBytes_all hg hd (by rw [ho]), ho]
    simp [push, hrest]
  have hne : bs.take d ≠ bs := by
    intro h
    have := congrArg List.length h
    omega
  by_cases h0 : bs.take d = []
  · exact ⟨[.err], _, fin _ (by simp only [push]; rw [if_pos h0]), hne⟩
  · refine ⟨[.took d, .err], _, fin _ ?_, hne⟩
    have hd0 : d ≠ 0 := by
      intro h
      rw [h] at h0
      exact h0 rfl
    simp only [push]
    rw [if_neg h0, if_neg (by omega)]
    have h2 : (bs.take d).drop d = [] := List.drop_eq_nil_of_le (by omega)
    have h3 : (bs.take d).take d = bs.take d := List.take_of_length_le (by omega)
    rw [h2, h3]
    simp

/-- What is written without failures is read again. -/
theorem write_read (cap : Nat) (hcap : 0 < cap) (bs : List UInt8) :
    wBytes cap (bs.map fun b => .chr b.toNat) [] = (some bs, .val ()) ∧
    pathBytes true bs.length (bs.map .byte) = .val bs := by
  constructor
  · have hx : (bs.map fun b => El.chr b.toNat).map byteOf = bs.map some := by
      rw [List.map_map]
      apply List.map_congr_left
      intro b _
      have : b.toNat < 256 := b.toNat_lt
      simp only [Function.comp, byteOf]
      rw [if_pos this, UInt8.ofNat_toNat]
    obtain ⟨f, res, h1, _, h3, _⟩ := write_reports_partial cap hcap _ bs hx []
    obtain ⟨a, b⟩ := h3 rfl
    rw [h1, a, b]
  · have hc : ∀ bs : List UInt8, contents (bs.map .byte) = bs := by
      intro bs
      induction bs with
      | nil => rfl
      | cons b r ih => simp [contents, ih]
    have := (read_whole (bs.map .byte)).2 (by simp)
    rwa [hc] at this

/-- Elements that are not bytes are cut to their low eight bits, without an error … -/
theorem byte_narrowed (cap : Nat) (hcap : 0 < cap) :
    byteOf (.chr 300) = none ∧ byteOf (.num 300) = none ∧ wBytes cap [.chr 300, .num 300] [] = (some [44, 44], .val ()) := by
  refine ⟨rfl, rfl, ?_⟩
  have : getChars [.chr 300, .num 300] = .val [44, 44] := rfl
  simp only [wBytes, this, openWriteClose, push, if_true, List.take_append_drop]
  rfl

/-- … and numbers outside of 32 bits have no meaning. -/
theorem number_ub (cap : Nat) : wBytes cap [.num (2^31)] [] = (none, .ub) := rfl

/-- `read_whole`: a failure in the middle is an error. -/
example : pathBytes true 3 [.byte 1, .byte 2, .byte 3] = .val [1, 2, 3] ∧
    pathBytes true 3 [.byte 1, .err, .byte 2, .byte 3] = .error := by decide

/-- `stream_ends_partial`. -/
example : pathBytes false 0 [.byte 1, .byte 2] = .val [1, 2] := by decide

/-- `write_reports_partial`: with a buffer of two bytes, a failure in the first is an error, one in the last is not. -/
example : wBytes 2 [.chr 7, .num (-1), .chr 9] [.took 1, .err] = (some [7], .error) ∧
    wBytes 2 [.chr 7, .num (-1), .chr 9] [.took 1, .took 1, .err] = (some [7, 255], .val ()) := by decide

/-- `flush_unchecked`: its hypotheses can be met. -/
example : [El.chr 7, .num (-1), .chr 9].map byteOf = [7, 255, 9].map some ∧ [7, 255, 9].length % 2 ≠ 0 := by decide

/-- `write_read`. -/
example : wBytes 2 [.chr 7, .chr 200, .chr 9] [] = (some [7, 200, 9], .val ()) := by decide

end Verif.FileIo
