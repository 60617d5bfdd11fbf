/-!
# Model of the radix (counting) passes (`/repo/src/builtins/radix.h`, uses in `/repo/src/builtins/grade.h` 147-200 and
`/repo/src/builtins/selfsearch.c` 105-150)

Counters are unsigned integers modulo `M` (2^8 or 2^32). The adjacent counter tables `c0`, `c1`, … are one array of counters;
table `t` begins at `256*t`. Output buffers have `n` entries; a write outside is `none`.
-/
namespace Verif.Radix

/-- `a[i] = v` -/
def upd (a : Nat → β) (i : Nat) (v : β) : Nat → β := fun j => if j = i then v else a j

/-- grade.h 148 `INC`, ascending: `(P+1)[I]++` for every element; also selfsearch.c 111. `b` is the start of the table. -/
def countUp (M b : Nat) (key : α → Nat) (c : Nat → Nat) (xs : List α) : Nat → Nat :=
  xs.foldl (fun c x => upd c (b + 1 + key x) ((c (b + 1 + key x) + 1) % M)) c

/-- grade.h 148 `INC`, descending: `P[I]--` -/
def countDown (M b : Nat) (key : α → Nat) (c : Nat → Nat) (xs : List α) : Nat → Nat :=
  xs.foldl (fun c x => upd c (b + key x) ((c (b + key x) + (M - 1)) % M)) c

/-- radix.h 9-12: `s=c[j]+=s` for `m` entries from `j`. The sums of adjacent tables are interleaved in the program; they use
different entries. -/
def sums (M : Nat) : Nat → Nat → Nat → (Nat → Nat) → (Nat → Nat)
  | 0, _, _, c => c
  | m+1, j, s, c =>
    let s := (c j + s) % M
    sums M m (j+1) s (upd c j s)

/-- `o[c[k]++]=v` for every element, `k` the index of its counter and `v` its output. -/
def move (M n : Nat) (idx : α → Nat) (val : α → β) : (Nat → Nat) → (Nat → Option β) → List α → Option ((Nat → Nat) × (Nat → Option β))
  | c, o, [] => some (c, o)
  | c, o, x :: xs =>
    let p := c (idx x)
    if p < n then move M n idx val (upd c (idx x) ((p + 1) % M)) (upd o p (some (val x))) xs else none

/-- `r[i]=s[c[k[i]]++]`: reading in the order of an earlier move; reading an entry that was not written is `none`. -/
def unmove (M b : Nat) (s : Nat → Option β) : (Nat → Nat) → List Nat → Option (List β)
  | _, [] => some []
  | c, k :: ks => (s (c (b + k))).bind fun v => (unmove M b s (upd c (b + k) ((c (b + k) + 1) % M)) ks).map (v :: ·)

/-- Reading a buffer of `n` entries from `i`. -/
def read (o : Nat → Option β) (i : Nat) : Nat → Option (List β)
  | 0 => some []
  | n+1 => (o i).bind fun v => (read o (i+1) n).map (v :: ·)

end Verif.Radix
