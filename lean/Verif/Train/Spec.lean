/-!
# Trains and combinators: specification

`σ` is everything that calls may change: variables, files, output. What functions other than trains and combinators do is given by `Prims`.
-/
namespace Verif.Train

inductive Mod1
  | swap | const
  deriving DecidableEq
inductive Mod2
  | atop | over | before | after | val | cond
  deriving DecidableEq

/-- A value. The first number of an object tells which object it is. A number has its integer, if it is one; other values without storage are characters. -/
inductive V
  | num (n : Option Int)
  | chr (c : Nat)
  | arr (id : Nat) (list : Bool) (els : List V)
  | ns (id : Nat)
  | md (id : Nat)
  | fn (id : Nat)
  | fork (id : Nat) (f g h : V)
  | atop (id : Nat) (g h : V)
  | md1 (id : Nat) (m : Mod1) (f : V)
  | md2 (id : Nat) (m : Mod2) (f g : V)

/-- Functions other than trains and combinators, with the state before and after; `none` is an error. `pick i g` is `i⊑g`. -/
structure Prims (σ : Type) where
  fn : Nat → Option V → V → σ → Option (V × σ)
  pick : V → V → Option V

def V.isFun : V → Bool
  | .fn _ | .fork .. | .atop .. | .md1 .. | .md2 .. => true
  | _ => false
def V.isMd : V → Bool
  | .md _ => true
  | _ => false

/-- What `◶` chooses: for a number the item of a list, from the end if it's negative; for an array as `⊑` does. -/
inductive Chosen {σ} (P : Prims σ) : V → V → V → Prop
  | number {k n : Nat} {i : Int} {id : Nat} {els : List V} {e : V} : els.length = n → (i = k ∨ i = k - n) → els[k]? = some e → Chosen P (.num (some i)) (.arr id true els) e
  | array {v g e : V} : (∀ n, v ≠ .num n) → P.pick v g = some e → Chosen P v g e

/-- `Runs P f w x s r s'`: calling `f` with `𝕩` being `x` and maybe `𝕨` in the state `s` returns `r` and leaves `s'`. Calls are made from right to left, each once. -/
inductive Runs {σ} (P : Prims σ) : V → Option V → V → σ → V → σ → Prop
  | value {f w x s} : f.isFun = false → f.isMd = false → Runs P f w x s f s
  | prim {i w x s r s'} : P.fn i w x s = some (r, s') → Runs P (.fn i) w x s r s'
  | fork {id f g h w x s a b r s1 s2 s'} : Runs P h w x s b s1 → Runs P f w x s1 a s2 → Runs P g (some a) b s2 r s' → Runs P (.fork id f g h) w x s r s'
  | train {id g h w x s b r s1 s'} : Runs P h w x s b s1 → Runs P g none b s1 r s' → Runs P (.atop id g h) w x s r s'
  | swap {id f w x s r s'} : Runs P f (some x) (w.getD x) s r s' → Runs P (.md1 id .swap f) w x s r s'
  | const {id f w x s} : Runs P (.md1 id .const f) w x s f s
  | atop {id f g w x s b r s1 s'} : Runs P g w x s b s1 → Runs P f none b s1 r s' → Runs P (.md2 id .atop f g) w x s r s'
  | over1 {id f g x s b r s1 s'} : Runs P g none x s b s1 → Runs P f none b s1 r s' → Runs P (.md2 id .over f g) none x s r s'
  | over2 {id f g w x s a b r s1 s2 s'} : Runs P g none x s b s1 → Runs P g none w s1 a s2 → Runs P f (some a) b s2 r s' → Runs P (.md2 id .over f g) (some w) x s r s'
  | before {id f g w x s a r s1 s'} : Runs P f none (w.getD x) s a s1 → Runs P g (some a) x s1 r s' → Runs P (.md2 id .before f g) w x s r s'
  | after {id f g w x s b r s1 s'} : Runs P g none x s b s1 → Runs P f (some (w.getD x)) b s1 r s' → Runs P (.md2 id .after f g) w x s r s'
  | val1 {id f g x s r s'} : Runs P f none x s r s' → Runs P (.md2 id .val f g) none x s r s'
  | val2 {id f g w x s r s'} : Runs P g (some w) x s r s' → Runs P (.md2 id .val f g) (some w) x s r s'
  | cond {id f g w x s i e r s1 s'} : Runs P f w x s i s1 → Chosen P i g e → Runs P e w x s1 r s' → Runs P (.md2 id .cond f g) w x s r s'

/-- No fork in the value has a modifier as its left part. -/
inductive Clean : V → Prop
  | num {n} : Clean (.num n)
  | chr {c} : Clean (.chr c)
  | arr {id l els} : (∀ e ∈ els, Clean e) → Clean (.arr id l els)
  | ns {id} : Clean (.ns id)
  | md {id} : Clean (.md id)
  | fn {id} : Clean (.fn id)
  | fork {id f g h} : f.isMd = false → Clean f → Clean g → Clean h → Clean (.fork id f g h)
  | atop {id g h} : Clean g → Clean h → Clean (.atop id g h)
  | md1 {id m f} : Clean f → Clean (.md1 id m f)
  | md2 {id m f g} : Clean f → Clean g → Clean (.md2 id m f g)

/-- How many references to the object `i` a value is: one, if it's that object. -/
def V.refs (i : Nat) : V → Nat
  | .num _ | .chr _ => 0
  | .arr id _ _ | .ns id | .md id | .fn id | .fork id .. | .atop id .. | .md1 id .. | .md2 id .. => if id = i then 1 else 0
def argRefs (i : Nat) (w : Option V) (x : V) : Nat := x.refs i + (w.map (V.refs i)).getD 0

end Verif.Train
