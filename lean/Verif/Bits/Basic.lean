/-!
# Bit arrays: common vocabulary

CBQN stores a boolean array as 64-bit words, bit `i` of the array being bit `i%64` of word `i/64`
(`/repo/src/core/numarr.h` 25-35, `bitp_get`; x86 is little endian so the byte access there is the same bit).
Words past the array's last one, and bits past its length, may hold anything.
-/
namespace Verif.Bits

abbrev Word := BitVec 64

/-- Bit `i` of a list of words. -/
def bitL (ws : List Word) (i : Nat) : Bool := (ws.getD (i/64) 0#64).getLsbD (i%64)

/-- Bit `i` of a memory of words. -/
def bitF (x : Nat → Word) (i : Nat) : Bool := (x (i/64)).getLsbD (i%64)

/-- The first `n` elements of a boolean sequence, as a list. -/
def firstN {α} (b : Nat → α) (n : Nat) : List α := (List.range n).map b

/-- The boolean list of length `n` stored in a list of words. -/
abbrev listL (ws : List Word) (n : Nat) : List Bool := firstN (bitL ws) n

/-- The boolean list of length `n` stored in memory. -/
abbrev listF (x : Nat → Word) (n : Nat) : List Bool := firstN (bitF x) n

@[simp] theorem length_firstN {α} (b : Nat → α) (n : Nat) : (firstN b n).length = n := by simp [firstN]

theorem firstN_succ {α} (b : Nat → α) (n : Nat) : firstN b (n+1) = b 0 :: firstN (fun i => b (i+1)) n := by
  simp [firstN, List.range_succ_eq_map, List.map_map, Function.comp_def]

theorem firstN_succ_last {α} (b : Nat → α) (n : Nat) : firstN b (n+1) = firstN b n ++ [b n] := by
  simp [firstN, List.range_succ]

theorem firstN_congr {α} {a b : Nat → α} {n : Nat} (h : ∀ i, i < n → a i = b i) : firstN a n = firstN b n := by
  apply List.map_congr_left
  intro i hi; exact h i (by simpa using hi)

theorem firstN_eq_iff {α} {a b : Nat → α} {n : Nat} : firstN a n = firstN b n ↔ ∀ i, i < n → a i = b i := by
  constructor
  · intro h i hi
    have := congrArg (fun l => l[i]?) h
    simpa [firstN, hi] using this
  · exact firstN_congr

theorem getElem?_firstN {α} (b : Nat → α) (n i : Nat) : (firstN b n)[i]? = if i < n then some (b i) else none := by
  simp only [firstN, List.getElem?_map]
  split
  · rename_i h; simp [h]
  · rename_i h; simp [Nat.not_lt.1 h]

theorem firstN_add {α} (b : Nat → α) (m n : Nat) : firstN b (m+n) = firstN b m ++ firstN (fun i => b (m+i)) n := by
  induction n with
  | zero => simp [firstN]
  | succ n ih => rw [← Nat.add_assoc, firstN_succ_last, ih, firstN_succ_last, List.append_assoc]

theorem bitL_cons_lt (w : Word) (ws : List Word) (i : Nat) (h : i < 64) : bitL (w::ws) i = w.getLsbD i := by
  simp [bitL, Nat.div_eq_of_lt h, Nat.mod_eq_of_lt h]

theorem bitL_cons_add (w : Word) (ws : List Word) (i : Nat) : bitL (w::ws) (64+i) = bitL ws i := by
  have h1 : (64+i)/64 = i/64 + 1 := by omega
  have h2 : (64+i)%64 = i%64 := by omega
  simp [bitL, h1, h2]

theorem word_ext {a b : Word} (h : ∀ i, i < 64 → a.getLsbD i = b.getLsbD i) : a = b :=
  BitVec.eq_of_getLsbD_eq h

end Verif.Bits
