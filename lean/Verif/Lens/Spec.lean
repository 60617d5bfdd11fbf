import Verif.Pick.Spec
import Verif.Table.Spec
/-!
# Under: specification

`𝔽⌾𝔾 𝕩` for functions `𝔾` that move elements: `𝔽` is called with what `𝔾` gives, and the result is like `𝕩`, except that `𝔾` of it gives the result of `𝔽`.
-/
namespace Verif.Lens
open Verif.Rotate (prod InShape ravel rotated)
open Verif.Table (T)
open Verif.Pick (Ix IsIndex Position)
variable {A : Type}

/-- `𝔾` with one argument: `⊢` (or `⊣`), `⊑`, `⥊`, `⌽`, `<`, `⋈`, `≍`. -/
inductive P1
  | tack | first | deshape | reverse | enclose | pair | couple

/-- `𝔾` with a constant left argument: `w⊑`, `n↑`, `n↓`, `n⌽`, and `w⥊` for a `w` for which the result has the shape `sh`. A number `none` isn't an integer. -/
inductive P2
  | pick (w : Ix)
  | take (n : Option Int)
  | drop (n : Option Int)
  | reshape (sh : List Nat)
  | rotate (n : Option Int)

/-- `𝔾`: a function, a function bound to a left argument (`n⊸f`), the same in a train (`n f h`), or one after the other (`g h` and `g∘h`). -/
inductive Fn
  | prim (p : P1)
  | bound (p : P2)
  | fork (p : P2) (h : Fn)
  | atop (g h : Fn)

/-- The part of an array that is looked at: an element, or an array of this shape with the elements from these places. -/
inductive View
  | one (p : Nat)
  | many (sh : List Nat) (ps : List Nat)

def View.places : View → List Nat
  | .one p => [p]
  | .many _ ps => ps

/-- An index of an element that is at place `p`. -/
def Spot (sh : List Nat) (g : Ix) (p : Nat) : Prop := ∃ is ks, IsIndex g is ∧ Position sh is ks ∧ p = ravel sh ks

/-- The elements of cells `a` to `a+n-1`. -/
def cellRange (sh : List Nat) (a n : Nat) : View := .many (n :: sh.tail) (List.range' (a * prod sh.tail) (n * prod sh.tail))

/-- The length of the first axis; a unit is like a list of one element. -/
def lead (sh : List Nat) : Nat := sh.headD 1

inductive Looks1 (sh : List Nat) : P1 → View → Prop
  | first : Looks1 sh .first (.one 0)
  | deshape : Looks1 sh .deshape (.many [prod sh] (List.range (prod sh)))

/-- What a function with left argument looks at in an array of shape `sh`. With `n↑` and `n↓` it's the first cells or the last ones; no more than there are. -/
inductive Looks2 (sh : List Nat) : P2 → View → Prop
  | one {w : Ix} {p : Nat} : Spot sh w p → Looks2 sh (.pick w) (.one p)
  | many {wsh : List Nat} {gs : List Ix} {ps : List Nat} : gs ≠ [] → gs.length = ps.length → (∀ g ∈ gs, g.isArr = true) → (∀ (i : Nat) g p, gs[i]? = some g → ps[i]? = some p → Spot sh g p) →
      Looks2 sh (.pick (.boxed wsh gs)) (.many wsh ps)
  | takeFirst {n : Nat} : n ≤ lead sh → Looks2 sh (.take (some n)) (cellRange sh 0 n)
  | takeLast {n : Nat} : 0 < n → n ≤ lead sh → Looks2 sh (.take (some (-n))) (cellRange sh (lead sh - n) n)
  | dropFirst {n k : Nat} : k = min n (lead sh) → Looks2 sh (.drop (some n)) (cellRange sh k (lead sh - k))
  | dropLast {n k : Nat} : k = min n (lead sh) → 0 < n → Looks2 sh (.drop (some (-n))) (cellRange sh 0 (lead sh - k))
  | reshape {rsh : List Nat} : prod rsh ≤ prod sh → Looks2 sh (.reshape rsh) (.many rsh (List.range (prod rsh)))

/-- The view of `x` is `v`. -/
def Shows (x : T A) : View → T A → Prop
  | .one p, v => x.els[p]? = some v
  | .many sh ps, v => ∃ vs, v = .arr sh vs ∧ vs.length = ps.length ∧ ∀ (i p : Nat), ps[i]? = some p → p < x.els.length ∧ vs[i]? = x.els[p]?

/-- `r` is an array with the same shape as `x` and the same elements everywhere else. -/
def Others (w : View) (x r : T A) : Prop := ∃ rs, r = .arr x.sh rs ∧ rs.length = x.els.length ∧ ∀ p, p ∉ w.places → rs[p]? = x.els[p]?

/-- An atom counts as a unit for `⥊`, -/
def unitOf : T A → T A
  | .atom a => .arr [] [.atom a]
  | x => x

/-- and as a list for `↑` and `↓`. -/
def listOf : T A → T A
  | .atom a => .arr [1] [.atom a]
  | x => x

/-- `⌽`: cell `i` is cell `n-1-i` of `x`. -/
def Reversed (x v : T A) : Prop := ∃ n sh xs vs, x = .arr (n :: sh) xs ∧ v = .arr (n :: sh) vs ∧ xs.length = prod (n :: sh) ∧ vs.length = xs.length ∧
  ∀ i is, InShape (n :: sh) (i :: is) → vs[ravel (n :: sh) (i :: is)]? = xs[ravel (n :: sh) ((n - 1 - i) :: is)]?

/-- `k⌽` -/
def Rotated (k : Int) (x v : T A) : Prop := ∃ sh xs vs, sh ≠ [] ∧ x = .arr sh xs ∧ v = .arr sh vs ∧ xs.length = prod sh ∧ vs.length = xs.length ∧
  ∀ is, InShape sh is → vs[ravel sh is]? = xs[ravel sh (rotated sh [k] is)]?

/-- `v` is what the function gives for `x`. -/
def Sees1 (p : P1) (x v : T A) : Prop :=
  match p with
  | .tack => v = x
  | .first => ∃ w, Looks1 x.sh .first w ∧ Shows x w v
  | .deshape => ∃ w, Looks1 x.sh .deshape w ∧ Shows x w v
  | .reverse => Reversed x v
  | .enclose => v = .arr [] [x]
  | .pair => v = .arr [1] [x]
  | .couple => x.sh.length < 255 ∧ v = .arr (1 :: x.sh) x.els

/-- What the function doesn't give of `x` is the same in `r`. -/
def Kept1 (p : P1) (x r : T A) : Prop :=
  match p with
  | .first => ∃ w, Looks1 x.sh .first w ∧ Others w x r
  | .deshape => ∃ w, Looks1 x.sh .deshape w ∧ Others w (unitOf x) r
  | .couple => r.isAtom = false
  | _ => True

/-- The array that a function with left argument looks at. -/
def P2.base (p : P2) (x : T A) : T A :=
  match p with
  | .take _ => listOf x
  | .drop _ => listOf x
  | _ => x

def Sees2 (p : P2) (x v : T A) : Prop :=
  match p with
  | .rotate n => ∃ k, n = some k ∧ Rotated k x v
  | p => ∃ w, Looks2 (p.base x).sh p w ∧ Shows (p.base x) w v

def Kept2 (p : P2) (x r : T A) : Prop :=
  match p with
  | .rotate _ => True
  | p => ∃ w, Looks2 (p.base x).sh p w ∧ Others w (p.base x) r

/-- `v` is `𝔾x`. -/
def Sees : Fn → T A → T A → Prop
  | .prim p, x, v => Sees1 p x v
  | .bound p, x, v => Sees2 p x v
  | .fork p h, x, v => ∃ u, Sees h x u ∧ Sees2 p u v
  | .atop g h, x, v => ∃ u, Sees h x u ∧ Sees g u v

/-- What `𝔾` doesn't give of `x` is the same in `r`; for `g∘h` that's what `h` doesn't give, and of what `h` gives, what `g` doesn't. -/
def Kept : Fn → T A → T A → Prop
  | .prim p, x, r => Kept1 p x r
  | .bound p, x, r => Kept2 p x r
  | .fork p h, x, r => Kept h x r ∧ ∃ u u', Sees h x u ∧ Sees h r u' ∧ Kept2 p u u'
  | .atop g h, x, r => Kept h x r ∧ ∃ u u', Sees h x u ∧ Sees h r u' ∧ Kept g u u'

/-- `r` is `x` with what `𝔾` gives replaced by `v`. -/
def Replaced (G : Fn) (x v r : T A) : Prop := Sees G r v ∧ Kept G x r

/-- What can be a value: as many elements as the shape says, fewer than `2⋆32`, no axis is longer and there are at most 255. -/
inductive Ok : T A → Prop
  | atom (a : A) : Ok (.atom a)
  | arr {sh : List Nat} {xs : List (T A)} : xs.length = prod sh → prod sh < 2^32 → (∀ n ∈ sh, n < 2^32) → sh.length ≤ 255 → (∀ e ∈ xs, Ok e) → Ok (.arr sh xs)

/-- It's a list of `n` elements, the first of which is a number. -/
def isList (n : Nat) : Ix → Bool
  | .num _ => false
  | .other => false
  | .ints sh ns => sh.length == 1 && ns.length == n
  | .floats sh ns => sh.length == 1 && ns.length == n
  | .boxed sh gs => sh.length == 1 && gs.length == n && (match gs with | .num _ :: _ => true | _ => false)

/-- Numbers have 64 bits, and a range that's the same when negated. -/
def Sym (n : Option Int) : Prop := ∀ k, n = some k → -2^63 < k ∧ k < 2^63

/-- What can be a shape. -/
def Fits (sh : List Nat) : Prop := prod sh < 2^32 ∧ (∀ n ∈ sh, n < 2^32) ∧ sh.length ≤ 255

/-- The cases that aren't left to the general definition of Under (which is written in BQN): picking from an array with elements; with a number from a list, with a list for each axis, or with an array of such lists; and a part that isn't larger than the whole. -/
def Native1 (p : P1) (x : T A) : Prop :=
  match p with
  | .first => x.isAtom = false ∧ x.els ≠ []
  | _ => True

def Native2 (p : P2) (x : T A) : Prop :=
  match p with
  | .pick w => w.Ok ∧ x.isAtom = false ∧
      (w.isArr = false ∧ x.sh.length = 1 ∨ x.sh ≠ [] ∧ (isList x.sh.length w = true ∨ ∃ wsh gs, w = .boxed wsh gs ∧ Fits wsh ∧ gs ≠ [] ∧ isList x.sh.length w = false ∧ ∀ g ∈ gs, isList x.sh.length g = true))
  | .take n => Sym n
  | .drop n => Sym n
  | .reshape sh => x.isAtom = false ∧ prod sh ≤ prod x.sh ∧ Fits sh
  | .rotate n => Sym n

def Native : Fn → T A → Prop
  | .prim p, x => Native1 p x
  | .bound p, x => Native2 p x
  | .fork p h, x => Native h x ∧ ∀ u, Sees h x u → Native2 p u
  | .atop g h, x => Native h x ∧ ∀ u, Sees h x u → Native g u

end Verif.Lens
