import Verif.Sort.Spec
/-!
# Model of the merge sort (`/repo/src/builtins/sortTemplate.h`)

The array is a list; a read or write outside of it is `none`. `c` is `SORT_CMP`. Temporary storage for merging is not modelled as
memory: `TIM_SORT_RESIZE` (237-245) makes it at least twice `MIN(X,Y)` entries long, and at most `MIN(X,Y)` are used. The stack of runs is a list with the top first; more
than 128 runs are `none`. Loops that do not obviously end have a step limit, and reaching it is `none`.
-/
namespace Verif.Sort

/-- `d[i] = v` -/
def put (d : List α) (i : Nat) (v : α) : Option (List α) := if i < d.length then some (d.set i v) else none

/-- sortTemplate.h 116-127, the loop of `BINARY_INSERTION_FIND`; `d` is the array from `dst` on -/
def findLoop (c : α → α → Int) (d : List α) (x : α) : Nat → Nat → Nat → Nat → Option Nat
  | 0, _, _, _ => none
  | n+1, l, r, m =>
    match d[m]? with
    | none => none
    | some cx =>
      if c x cx < 0 then (if m - l ≤ 1 then some m else findLoop c d x n l m (l + (m - l) / 2))
      else (if r - m ≤ 1 then some (m + 1) else findLoop c d x n m r (m + (r - m) / 2))

/-- 101-128 `BINARY_INSERTION_FIND` -/
def find (c : α → α → Int) (d : List α) (x : α) (size : Nat) : Option Nat :=
  match d[0]?, d[size - 1]? with
  | some a, some b => if c x a < 0 then some 0 else if c x b > 0 then some (size - 1) else findLoop c d x size 0 (size - 1) ((size - 1) / 2)
  | _, _ => none

/-- 143-146: `n` elements, the last from index `j`, are moved up by one -/
def shiftUp (d : List α) : Nat → Nat → Option (List α)
  | 0, _ => some d
  | n+1, j =>
    match d[j]? with
    | none => none
    | some v =>
      match put d (j + 1) v with
      | none => none
      | some d => shiftUp d n (j - 1)

/-- 132-149 the body for one `i`; `o` is the offset of `dst` -/
def insertOne (c : α → α → Int) (o : Nat) (d : List α) (i : Nat) : Option (List α) :=
  match d[o + (i - 1)]?, d[o + i]? with
  | some a, some x =>
    if c a x ≤ 0 then some d
    else
      match find c (d.drop o) x i with
      | none => none
      | some p =>
        match shiftUp d (i - p) (o + (i - 1)) with
        | none => none
        | some d => put d (o + p) x
  | _, _ => none

/-- 131-150 `BINARY_INSERTION_SORT_START`: `n` elements from `i` -/
def insertRest (c : α → α → Int) (o : Nat) : Nat → Nat → List α → Option (List α)
  | 0, _, d => some d
  | n+1, i, d => (insertOne c o d i).bind (insertRest c o n (i+1))

/-- 167-175 `REVERSE_ELEMENTS` -/
def reverse : Nat → Nat → Nat → List α → Option (List α)
  | 0, _, _, _ => none
  | n+1, s, e, d =>
    if s ≥ e then some d
    else
      match d[s]?, d[e]? with
      | some a, some b =>
        match put d s b with
        | none => none
        | some d =>
          match put d e a with
          | none => none
          | some d => reverse n (s+1) (e-1) d
      | _, _ => none

/-- 192-196 and 201-205: the end of a run; `down` says which of the two -/
def runEnd (c : α → α → Int) (d : List α) (down : Bool) : Nat → Nat → Option Nat
  | 0, _ => none
  | n+1, i =>
    if i = d.length - 1 then some i
    else
      match d[i-1]?, d[i]? with
      | some a, some b => if (if down then c a b ≤ 0 else c a b > 0) then some i else runEnd c d down n (i+1)
      | _, _ => none

/-- 177-211 `COUNT_RUN` with `size` the length of the array -/
def countRun (c : α → α → Int) (d : List α) (s : Nat) : Option (List α × Nat) :=
  let size := d.length
  if size - s = 1 then some (d, 1)
  else if s ≥ size - 2 then
    match d[size - 2]?, d[size - 1]? with
    | some a, some b => if c a b > 0 then some ((d.set (size - 2) b).set (size - 1) a, 2) else some (d, 2)
    | _, _ => none
  else
    match d[s]?, d[s+1]? with
    | some a, some b =>
      if c a b ≤ 0 then (runEnd c d false size (s + 2)).map fun e => (d, e - s)
      else
        match runEnd c d true size (s + 2) with
        | none => none
        | some e => (reverse size s (e - 1) d).map fun d => (d, e - s)
    | _, _ => none

/-- 263-275: merging upwards, `n` positions from `k`; `e` is `curr+X+Y` and `st` the temporary storage with `X` elements -/
def mergeUp (c : α → α → Int) (st : List α) (e : Nat) : Nat → Nat → Nat → Nat → List α → Option (List α)
  | 0, _, _, _, d => some d
  | n+1, i, j, k, d =>
    if i < st.length ∧ j < e then
      match st[i]?, d[j]? with
      | some a, some b =>
        if c a b ≤ 0 then (put d k a).bind (mergeUp c st e n (i+1) j (k+1))
        else (put d k b).bind (mergeUp c st e n i (j+1) (k+1))
      | _, _ => none
    else if i < st.length then
      match st[i]? with
      | some a => (put d k a).bind (mergeUp c st e n (i+1) j (k+1))
      | none => none
    else some d

/-- 283-295: merging downwards, `n` positions below `k = curr+n` -/
def mergeDown (c : α → α → Int) (st : List α) (curr : Nat) : Nat → Nat → Nat → List α → Option (List α)
  | 0, _, _, d => some d
  | n+1, i, j, d =>
    if i > 0 ∧ j > curr then
      match d[j-1]?, st[i-1]? with
      | some a, some b =>
        if c a b > 0 then (put d (curr + n) a).bind (mergeDown c st curr n i (j-1))
        else (put d (curr + n) b).bind (mergeDown c st curr n (i-1) j)
      | _, _ => none
    else if i > 0 then
      match st[i-1]? with
      | some b => (put d (curr + n) b).bind (mergeDown c st curr n (i-1) j)
      | none => none
    else some d

/-- 247-297 `TIM_SORT_MERGE`: the run of `x` elements from `curr` with the `y` after them -/
def merge (c : α → α → Int) (d : List α) (curr x y : Nat) : Option (List α) :=
  if curr + x + y > d.length then none
  else if x < y then mergeUp c ((d.drop curr).take x) (curr + x + y) (x + y) 0 (curr + x) curr d
  else mergeDown c ((d.drop (curr + x)).take y) curr (x + y) y (curr + x) d

/-- 85-88: a run -/
structure Run where
  start : Nat
  length : Nat

/-- 213-230 `CHECK_INVARIANT` -/
def check : List Run → Bool
  | C :: B :: A :: _ => !((A.length ≤ B.length + C.length : Bool) || (B.length ≤ C.length : Bool))
  | B :: A :: [] => !(A.length ≤ B.length : Bool)
  | _ => true

/-- Merge of two neighbouring runs, the upper one first. -/
def mergeRuns (c : α → α → Int) (d : List α) (upper lower : Run) : Option (List α) := merge c d lower.start lower.length upper.length

/-- 329-334: the fourth run from the top is too short -/
def abc (rest : List Run) (B C : Run) : Bool :=
  match rest with
  | A :: _ => A.length ≤ B.length + C.length
  | [] => false

/-- 299-359 `TIM_SORT_COLLAPSE` -/
def collapse (c : α → α → Int) (size : Nat) : Nat → List α → List Run → Option (List α × List Run)
  | 0, _, _ => none
  | n+1, d, st =>
    match st with
    | D :: C :: B :: rest =>
      let BCD : Bool := (B.length ≤ C.length + D.length : Bool) || abc rest B C
      let CD : Bool := C.length ≤ D.length
      if !BCD && !CD then some (d, st)
      else if BCD && !CD then
        (mergeRuns c d C B).bind fun d => collapse c size n d (D :: ⟨B.start, B.length + C.length⟩ :: rest)
      else
        (mergeRuns c d D C).bind fun d => collapse c size n d (⟨C.start, C.length + D.length⟩ :: B :: rest)
    | [B, A] =>
      if A.length + B.length = size then (mergeRuns c d B A).map fun d => (d, [⟨A.start, A.length + B.length⟩])
      else if A.length ≤ B.length then (mergeRuns c d B A).map fun d => (d, [⟨A.start, A.length + B.length⟩])
      else some (d, st)
    | _ => some (d, st)

/-- 386-391: at the end all runs are merged from the top -/
def finish (c : α → α → Int) : List α → List Run → Option (List α)
  | d, B :: A :: rest => (mergeRuns c d B A).bind fun d => finish c d (⟨A.start, A.length + B.length⟩ :: rest)
  | d, _ => some d
termination_by _ st => st.length

/-- 361-402 `PUSH_NEXT`: either the sorted array or the state for the next step -/
def pushNext (c : α → α → Int) (minrun : Nat) (d : List α) (st : List Run) (curr : Nat) : Option (List α ⊕ (List α × List Run × Nat)) :=
  match countRun c d curr with
  | none => none
  | some (d1, len) =>
    let run := if minrun > d.length - curr then d.length - curr else minrun
    match (if run > len then insertRest c curr (run - len) len d1 else some d1) with
    | none => none
    | some d2 =>
      let len := if run > len then run else len
      if st.length ≥ 128 then none
      else if curr + len = d.length then (finish c d2 (⟨curr, len⟩ :: st)).map .inl
      else some (.inr (d2, ⟨curr, len⟩ :: st, curr + len))

/-- 41-48 `compute_minrun`; `Nat.log2 size + 1` is `64 - CLZ(size)` for `size > 0` -/
def computeMinrun (size : Nat) : Nat :=
  let shift := max (Nat.log2 size + 1) 6 - 6
  if size % 2^shift ≠ 0 then size / 2^shift + 1 else size / 2^shift

/-- 430-437: the main loop -/
def mainLoop (c : α → α → Int) (minrun : Nat) : Nat → List α → List Run → Nat → Option (List α)
  | 0, _, _, _ => none
  | n+1, d, st, curr =>
    if check st then
      match pushNext c minrun d st curr with
      | none => none
      | some (.inl d) => some d
      | some (.inr (d, st, curr)) => mainLoop c minrun n d st curr
    else
      match collapse c d.length st.length d st with
      | none => none
      | some (d, st) => mainLoop c minrun n d st curr

/-- 404-438 `TIM_SORT` -/
def timSort (c : α → α → Int) (d : List α) : Option (List α) :=
  if d.length ≤ 1 then some d
  else if d.length < 64 then insertRest c 0 (d.length - 1) 1 d
  else
    let minrun := computeMinrun d.length
    match pushNext c minrun d [] 0 with
    | none => none
    | some (.inl d) => some d
    | some (.inr (d, st, curr)) =>
      match pushNext c minrun d st curr with
      | none => none
      | some (.inl d) => some d
      | some (.inr (d, st, curr)) =>
        match pushNext c minrun d st curr with
        | none => none
        | some (.inl d) => some d
        | some (.inr (d, st, curr)) => mainLoop c minrun (2 * d.length) d st curr

end Verif.Sort
