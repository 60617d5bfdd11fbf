import Verif.Point.Spec
/-
`vm_fmtPoint`, `src/vm.c` 1344-1371, and the printing that is used when that fails, 1397-1409.

`none` is an access outside of the text.

Simplified: `%l`, which formats the number of the line, is a parameter, and a path is appended as it is.  `path` is `none`
for the name of the REPL and for what is not an array.  Numbers do not overflow; as the end is not before the start, no
subtraction wraps.
-/
namespace Verif.Point

/-- vm.c 1348, 1361, and 1402: `while (i>0 && text[i-1]!='\n') i--;`. -/
def back (text : Text) : Nat → Option Nat
  | 0 => some 0
  | i + 1 => match text[i]? with
    | none => none
    | some c => if c ≠ 10 then back text i else some (i + 1)

/-- vm.c 1350 and 1403; `k` characters are left. -/
def fwd (text : Text) : Nat → Nat → Option Nat
  | 0, e => some e
  | k + 1, e => match text[e]? with
    | none => none
    | some c => if c = 10 then some e else fwd text k (e + 1)

/-- vm.c 1354; `k` turns are left. -/
def lines (text : Text) : Nat → Nat → Nat → Option Nat
  | 0, _, ln => some ln
  | k + 1, i, ln => match text[i]? with
    | none => none
    | some c => lines text k (i + 1) (if c = 10 then ln + 1 else ln)

/-- vm.c 1368; `k` turns are left. -/
def lead (text : Text) (srcS : Nat) : Nat → Nat → Text → Option Text
  | 0, _, s => some s
  | k + 1, i, s => match text[srcS + i]? with
    | none => none
    | some c => lead text srcS k (i + 1) (s ++ [if c = 9 then 9 else 32])

/-- `ACHR(c)`, `k` times: vm.c 1367 and 1369. -/
def chars (c : Nat) : Nat → Text → Text
  | 0, s => s
  | k + 1, s => chars c k (s ++ [c])

/-- vm.c 1355-1357. -/
def place (digits : Nat → Text) (s : Text) (path : Option Text) (ln : Nat) : Text :=
  match path with
  | none => s ++ [97, 116, 32]
  | some p => if p.length = 0 then s ++ [97, 116, 32] else s ++ (p ++ ([58] ++ (digits ln ++ [58, 10, 32, 32])))

/-- vm.c 1344-1371. -/
def fmtPoint (digits : Nat → Text) (src prepend : Text) (path : Option Text) (cs ce : Nat) : Option Text :=
  (back src cs).bind fun srcS =>
  (fwd src (src.length - srcS) srcS).bind fun srcE =>
  let ce := if srcE < ce then srcE else ce
  (lines src srcS 0 1).bind fun ln =>
  let s := place digits prepend path ln
  let padEnd := s.length
  (back s padEnd).bind fun padStart =>
  let s := s ++ (src.drop srcS).take (srcE - srcS)
  let cs := cs - srcS
  let ce := ce - srcS
  let s := s ++ [10]
  let s := chars 32 (padEnd - padStart) s
  (lead src srcS cs 0 s).map fun s => chars 94 (ce - cs) s

/-- vm.c 1403; the characters are printed one by one. -/
def fwdPrint (text : Text) : Nat → Nat → Text → Option (Nat × Text)
  | 0, e, s => some (e, s)
  | k + 1, e, s => match text[e]? with
    | none => none
    | some c => if c = 10 then some (e, s) else fwdPrint text k (e + 1) (s ++ [c])

/-- vm.c 1399-1409. -/
def nativePrint (src : Text) (cs ce : Nat) : Option Text :=
  let s := [97, 116, 32]
  let start := 3
  (back src cs).bind fun srcS =>
  (fwdPrint src (src.length - srcS) srcS s).map fun p =>
  let srcE := p.1
  let ce := if srcE < ce then srcE else ce
  let cs := cs - srcS
  let ce := ce - srcS
  let s := p.2 ++ [10]
  let s := chars 32 (cs + start) s
  chars 94 (ce - cs) s ++ [10]

end Verif.Point
