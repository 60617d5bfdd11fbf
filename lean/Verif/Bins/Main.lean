import Verif.Bins.BitLemmas
/-! # Bins: putting the cases together -/
namespace Verif.Bins
open Verif.Bits Verif.Sort Verif.Fold

theorem elems_length (x : BArr) : x.elems.length = x.len := by cases x <;> simp [BArr.elems, BArr.len]

theorem bin_const {up b : Bool} {ws : List Value} {v : Value} (h : ∀ a ∈ ws, notAfter up a v = b) : bin up ws v = if b then ws.length else 0 := by
  unfold bin
  cases b with
  | true => rw [List.filter_eq_self.2 h]; rfl
  | false =>
    rw [List.filter_eq_nil_iff.2 (fun a ha => by rw [h a ha]; exact Bool.false_ne_true)]; rfl

theorem map_const {xs : List α} {f : α → Nat} {c : Nat} (h : ∀ x ∈ xs, f x = c) : xs.map f = List.replicate xs.length c := by
  rw [List.eq_replicate_iff]
  refine ⟨List.length_map .., ?_⟩
  intro b hb
  obtain ⟨x, hx, rfl⟩ := List.mem_map.1 hb
  exact h x hx

/-- The first part of bins: with the checks passed. -/
structure Start (up flag : Bool) (w x : BArr) : Prop where
  hw : w.Ok
  hx : x.Ok
  w2 : 2 ≤ w.len
  x1 : 1 ≤ x.len
  big : w.len ≤ 2^31 - 11
  sorted : InOrder up w.elems

theorem start_sorted {up flag : Bool} {w x : BArr} (h : Start up flag w x) : (if flag = true then some true else isSorted up w) = some true := by
  split
  · rfl
  · obtain ⟨r, h1, h2⟩ := isSorted_spec up w h.hw
    rw [h1, h2.2 h.sorted]

theorem start_typed {up flag : Bool} {junk : Nat → Word} {k : Nat} {w x : BArr} (h : Start up flag w x) :
    binsN up junk (k+1) flag w x = typed up (binsN up junk k) w x := by
  rw [binsN, if_neg (by have := h.w2; have := h.x1; omega), if_neg (by have := h.w2; omega), if_neg (by have := h.big; omega), start_sorted h]
  rfl

theorem bins_chr_chr {up flag : Bool} {junk : Nat → Word} {k : Nat} {ws xs : List Nat} (h : Start up flag (.chr ws) (.chr xs)) :
    binsN up junk (k+1) flag (.chr ws) (.chr xs) = some (.ok ((BArr.chr xs).elems.map (bin up (BArr.chr ws).elems))) := by
  rw [start_typed h]
  show (search32 up (ws.map Int.ofNat) (xs.map Int.ofNat)).map Out.ok = _
  have e : (ws.map Int.ofNat).map (fun i : Int => chrV i.toNat) = ws.map chrV := by
    rw [List.map_map]; rfl
  rw [search32_spec up (g := fun i : Int => chrV i.toNat) ?_ (by rw [e]; exact h.sorted)]
  · rw [e]
    simp [BArr.elems, Function.comp_def]
  · intro a ha v hv
    obtain ⟨a', _, rfl⟩ := List.mem_map.1 ha
    obtain ⟨v', _, rfl⟩ := List.mem_map.1 hv
    exact notAfter_chr up a' v'

theorem bins_int_int {up flag : Bool} {junk : Nat → Word} {k : Nat} {ws xs : List Int} (h : Start up flag (.int ws) (.int xs)) :
    binsN up junk (k+1) flag (.int ws) (.int xs) = some (.ok ((BArr.int xs).elems.map (bin up (BArr.int ws).elems))) := by
  rw [start_typed h]
  show (search32 up ws xs).map Out.ok = _
  rw [search32_spec up (g := fun i => numV (ofInt i)) ?_ h.sorted]
  · simp [BArr.elems, Function.comp_def]
  · intro a ha v hv
    have h1 := h.hw a ha
    have h2 := h.hx v hv
    exact notAfter_int up (by omega) (by omega)

theorem general_start {up flag : Bool} {w x : BArr} (h : Start up flag w x) :
    (general up w.elems x.elems).map Out.ok = some (.ok (x.elems.map (bin up w.elems))) := by
  rw [general_spec up h.sorted (by rw [elems_length]; have := h.big; omega)]; rfl

theorem isNum_elems {x : BArr} (h : x.isNum = true) : ∀ v ∈ x.elems, ∃ f, v = numV f := by
  intro v hv
  match x, h with
  | .bit x n, _ => obtain ⟨b, _, rfl⟩ := List.mem_map.1 hv; exact ⟨_, rfl⟩
  | .int xs, _ => obtain ⟨b, _, rfl⟩ := List.mem_map.1 hv; exact ⟨_, rfl⟩
  | .flt xs, _ => obtain ⟨b, _, rfl⟩ := List.mem_map.1 hv; exact ⟨_, rfl⟩

theorem chr_num_all {up : Bool} {ws : List Nat} {x : BArr} (h : x.isNum = true) :
    x.elems.map (bin up (BArr.chr ws).elems) = List.replicate x.len (if up then 0 else ws.length) := by
  rw [← elems_length]
  apply map_const
  intro v hv
  obtain ⟨f, rfl⟩ := isNum_elems h v hv
  rw [bin_const (b := !up) ?_]
  · cases up <;> simp [BArr.elems]
  · intro a ha
    obtain ⟨c, _, rfl⟩ := List.mem_map.1 ha
    exact notAfter_chr_num up f c

theorem num_chr_all {up : Bool} {xs : List Nat} {w : BArr} (h : w.isNum = true) :
    (BArr.chr xs).elems.map (bin up w.elems) = List.replicate xs.length (if up then w.len else 0) := by
  rw [show xs.length = (BArr.chr xs).elems.length by simp [BArr.elems]]
  apply map_const
  intro v hv
  obtain ⟨c, _, rfl⟩ := List.mem_map.1 hv
  rw [bin_const (b := up) ?_, elems_length]
  intro a ha
  obtain ⟨f, rfl⟩ := isNum_elems h a ha
  exact notAfter_num_chr up f c

/-! ## boolean 𝕨 -/

theorem bit_c1 (up : Bool) (b : Nat → Word) (n : Nat) (hs : InOrder up (BArr.bit b n).elems) :
    bitBoundary up b n = some (bin up (BArr.bit b n).elems (bitV (!up))) := by
  apply bitBoundary_spec
  · have := bin_le up (BArr.bit b n).elems (bitV (!up)); rw [elems_length] at this; exact this
  · intro i hi
    have h := sorted_bin up (bitV (!up)) hs (i := i) (a := bitV (bitF b i)) (by
      show ((listF b n).map bitV)[i]? = _
      rw [List.getElem?_map, getElem?_firstN, if_pos hi]; rfl)
    rw [notAfter_bit] at h
    rw [← h]
    cases up <;> cases bitF b i <;> rfl

theorem mem_bits {b : Nat → Word} {n : Nat} {a : Value} (h : a ∈ (BArr.bit b n).elems) : ∃ c, a = bitV c := by
  obtain ⟨c, _, rfl⟩ := List.mem_map.1 h; exact ⟨c, rfl⟩

theorem bit_all (up : Bool) (b : Nat → Word) (n : Nat) : bin up (BArr.bit b n).elems (bitV up) = n := by
  rw [bin_const (b := true) ?_, elems_length]; rfl
  intro a ha
  obtain ⟨c, rfl⟩ := mem_bits ha
  rw [notAfter_bit]; cases up <;> cases c <;> rfl

theorem bits_bit (up : Bool) (b x : Nat → Word) (n m : Nat) :
    bitSel x m (if up then bin up (BArr.bit b n).elems (bitV (!up)) else n) (if up then n else bin up (BArr.bit b n).elems (bitV (!up)))
      = (BArr.bit x m).elems.map (bin up (BArr.bit b n).elems) := by
  show (listF x m).map _ = ((listF x m).map bitV).map _
  rw [List.map_map]
  apply List.map_congr_left
  intro v _
  have h := bit_all up b n
  show _ = bin up (BArr.bit b n).elems (bitV v)
  cases up <;> cases v
  · exact h.symm
  · rfl
  · rfl
  · exact h.symm

/-- The two values of a boolean list, in order. -/
theorem bits_lookup (up : Bool) (b : Nat → Word) (n : Nat) (v : Value) :
    [0, bin up (BArr.bit b n).elems (bitV (!up)), n][bin up [bitV (!up), bitV up] v]? = some (bin up (BArr.bit b n).elems v) := by
  have ho : notAfter up (bitV (!up)) (bitV up) = true := by rw [notAfter_bit]; cases up <;> rfl
  cases h1 : notAfter up (bitV (!up)) v with
  | false =>
    have h2 : notAfter up (bitV up) v = false := by
      cases h2 : notAfter up (bitV up) v with
      | false => rfl
      | true => rw [notAfter_trans up ho h2] at h1; cases h1
    have e : bin up [bitV (!up), bitV up] v = 0 := by simp [bin, h1, h2]
    rw [e, bin_const (b := false) (ws := (BArr.bit b n).elems) (v := v) ?_]
    · rfl
    · intro a ha
      obtain ⟨c, rfl⟩ := mem_bits ha
      cases up <;> cases c <;> assumption
  | true =>
    cases h2 : notAfter up (bitV up) v with
    | false =>
      have e : bin up [bitV (!up), bitV up] v = 1 := by simp [bin, h1, h2]
      rw [e]
      show some _ = some _
      unfold bin
      congr 2
      apply List.filter_congr
      intro a ha
      obtain ⟨c, rfl⟩ := mem_bits ha
      rw [notAfter_bit]
      cases up <;> cases c <;> first | exact h1.symm | exact h2.symm
    | true =>
      have e : bin up [bitV (!up), bitV up] v = 2 := by simp [bin, h1, h2]
      rw [e, bin_const (b := true) (ws := (BArr.bit b n).elems) (v := v) ?_, elems_length]
      · rfl
      · intro a ha
        obtain ⟨c, rfl⟩ := mem_bits ha
        cases up <;> cases c <;> assumption

theorem b01_start {up : Bool} {x : BArr} (hx : x.Ok) (h : 1 ≤ x.len) : Start up false (.int (if up then [0, 1] else [1, 0])) x where
  hw := by
    intro i hi
    cases up <;> simp at hi <;> omega
  hx := hx
  w2 := by cases up <;> decide
  x1 := h
  big := by cases up <;> decide
  sorted := by
    have : (BArr.int (if up then [0, 1] else [1, 0])).elems = [bitV (!up), bitV up] := by cases up <;> rfl
    rw [this]
    refine List.pairwise_cons.2 ⟨?_, List.pairwise_singleton ..⟩
    intro a ha
    rw [List.mem_singleton.1 ha, notAfter_bit]; cases up <;> rfl

theorem b01_elems (up : Bool) : (BArr.int (if up then [0, 1] else [1, 0])).elems = [bitV (!up), bitV up] := by cases up <;> rfl

theorem x01 {up flag : Bool} {w x : BArr} (h : Start up flag w x) : Start up true w (.int [0, 1]) where
  hw := h.hw
  hx := by intro i hi; simp at hi; omega
  w2 := h.w2
  x1 := by decide
  big := h.big
  sorted := h.sorted

theorem bits_x (x : Nat → Word) (m : Nat) (f : Value → Nat) : bitSel x m (f (bitV false)) (f (bitV true)) = (BArr.bit x m).elems.map f := by
  show (listF x m).map _ = ((listF x m).map bitV).map _
  rw [List.map_map]
  apply List.map_congr_left
  intro v _
  cases v <;> rfl

/-! ## all -/

/-- No booleans. -/
theorem bins_start1 {up flag : Bool} {junk : Nat → Word} {k : Nat} {w x : BArr} (h : Start up flag w x)
    (hw : ∀ b n, w ≠ .bit b n) (hx : ∀ b n, x ≠ .bit b n) :
    binsN up junk (k+1) flag w x = some (.ok (x.elems.map (bin up w.elems))) := by
  match w, x, h, hw, hx with
  | .bit b n, _, _, hw, _ => exact absurd rfl (hw b n)
  | _, .bit b n, _, _, hx => exact absurd rfl (hx b n)
  | .chr ws, .chr xs, h, _, _ => exact bins_chr_chr h
  | .int ws, .int xs, h, _, _ => exact bins_int_int h
  | .any ws, .any xs, h, _, _ | .any ws, .chr xs, h, _, _ | .any ws, .int xs, h, _, _ | .any ws, .flt xs, h, _, _
  | .int ws, .any xs, h, _, _ | .flt ws, .any xs, h, _, _ | .chr ws, .any xs, h, _, _
  | .int ws, .flt xs, h, _, _ | .flt ws, .int xs, h, _, _ | .flt ws, .flt xs, h, _, _ =>
    rw [start_typed h]
    exact general_start h
  | .chr ws, .int xs, h, _, _ | .chr ws, .flt xs, h, _, _ =>
    rw [start_typed h]
    rw [chr_num_all rfl]; rfl
  | .int ws, .chr xs, h, _, _ | .flt ws, .chr xs, h, _, _ =>
    rw [start_typed h]
    rw [num_chr_all rfl]; rfl

theorem bins_start {up flag : Bool} {junk : Nat → Word} {w x : BArr} (h : Start up flag w x) :
    binsC2 up junk flag w x = some (.ok (x.elems.map (bin up w.elems))) := by
  unfold binsC2
  match w, x, h with
  | .bit b n, .bit x m, h =>
    rw [start_typed h]
    show (bitBoundary up b n).map _ = _
    rw [bit_c1 up b n h.sorted, Option.map_some, bits_bit]
  | .bit b n, .any xs, h =>
    rw [start_typed h]
    exact general_start h
  | .any ws, .bit x m, h =>
    rw [start_typed h]
    exact general_start h
  | .bit b n, .chr xs, h =>
    rw [start_typed h]
    rw [num_chr_all rfl]; rfl
  | .chr ws, .bit x m, h =>
    rw [start_typed h]
    rw [chr_num_all rfl]; rfl
  | .bit b n, .int xs, h | .bit b n, .flt xs, h =>
    rw [start_typed h]
    show (bitBoundary up b n).bind _ = _
    rw [bit_c1 up b n h.sorted, Option.bind_some,
      bins_start1 (b01_start h.hx h.x1) (fun _ _ h => nomatch h) (fun _ _ h => nomatch h), Option.bind_some, b01_elems]
    dsimp only
    rw [List.mapM_map]
    exact congrArg (Option.map Out.ok) (mapM_some (fun v _ => bits_lookup up b n v))
  | .int ws, .bit x m, h | .flt ws, .bit x m, h =>
    rw [start_typed h]
    show Option.bind (binsN up junk 1 true _ _) _ = _
    rw [bins_start1 (x01 h) (fun _ _ h => nomatch h) (fun _ _ h => nomatch h), Option.bind_some]
    exact congrArg (fun l => some (Out.ok l)) (bits_x x m _)
  | .int ws, .int xs, h | .int ws, .flt xs, h | .int ws, .chr xs, h | .int ws, .any xs, h
  | .flt ws, .int xs, h | .flt ws, .flt xs, h | .flt ws, .chr xs, h | .flt ws, .any xs, h
  | .chr ws, .int xs, h | .chr ws, .flt xs, h | .chr ws, .chr xs, h | .chr ws, .any xs, h
  | .any ws, .int xs, h | .any ws, .flt xs, h | .any ws, .chr xs, h | .any ws, .any xs, h =>
    exact bins_start1 h (fun _ _ h => nomatch h) (fun _ _ h => nomatch h)

end Verif.Bins
