import Verif.Gc.Model
/-!
# Heaps in a consistent state

`ext x` is the number of counted references to `x` from outside of the heap: roots, the stacks of the program and of the virtual
machine, global variables.
-/
namespace Verif.Gc

/-- `x` can be reached from an object in `S` by following references. -/
inductive Reach (H : Mem) (S : Nat → Prop) : Nat → Prop
  | base {x} : S x → Reach H S x
  | step {x y} : Reach H S y → x ∈ (H y).refs → Reach H S x

/-- The number of references to `x` from objects in the heap. -/
def references (H : Mem) (hp : List Nat) (x : Nat) : Nat :=
  (hp.map fun y => if (H y).kind = .empty then 0 else (H y).drops.count x).sum

/-- A heap between the program's operations. -/
structure Consistent (hp : List Nat) (H : Mem) (ext : Nat → Nat) : Prop where
  /-- `hp` has every block once -/
  nodup : hp.Nodup
  dom : ∀ x, (H x).kind ≠ .empty → x ∈ hp
  /-- there are no half-freed objects -/
  clean : ∀ x, (H x).kind ≠ .freed
  /-- freeing an object drops what visiting it visits, and shape objects -/
  drops : ∀ x, (H x).kind = .obj → ∃ a, (H x).drops.Perm ((H x).refs ++ a) ∧ ∀ c ∈ a, (H c).kind = .aux
  /-- references are to objects -/
  refs : ∀ x, (H x).kind = .obj → ∀ c ∈ (H x).refs, (H c).kind = .obj
  /-- shape objects and temporary memory have no references -/
  aux : ∀ x, (H x).kind = .aux → (H x).refs = [] ∧ (H x).drops = []
  /-- reference counts are right, and positive -/
  count : ∀ x, (H x).kind ≠ .empty → (H x).refc = ext x + references H hp x
  pos : ∀ x, (H x).kind ≠ .empty → 0 < (H x).refc
  /-- what is referenced from outside is there -/
  live : ∀ x, 0 < ext x → (H x).kind ≠ .empty

/-- A heap together with the references from outside. -/
structure State where
  hp : List Nat
  mem : Mem
  ext : Nat → Nat

/-- What a program does with its heap. -/
inductive Op
  /-- take a reference (h.h 658-667 `inc`, `ptr_inc`) -/
  | inc (x : Nat)
  /-- give a reference up (h.h 643-650) -/
  | dec (x : Nat)
  /-- make an object in the empty block `x`; it takes over the references `refs`, and `shapes` to shape objects -/
  | new (x : Nat) (refs shapes : List Nat)
  /-- make a shape object or temporary memory -/
  | newAux (x : Nat)
  /-- replace the reference with index `i` in the object `y` by `c`, taking `c` over and giving the old one out; `ds` is what freeing `y` drops then -/
  | set (y i c : Nat) (ds : List Nat)
  /-- collect garbage -/
  | gc (toplevel : Bool) (roots : List Nat)

/-- The program uses references it has. -/
def Legal (s : State) : Op → Prop
  | .inc x => (s.mem x).kind ≠ .empty
  | .dec x => 0 < s.ext x
  | .new x refs shapes => (s.mem x).kind = .empty ∧ (∀ c ∈ refs, (s.mem c).kind = .obj) ∧ (∀ c ∈ shapes, (s.mem c).kind = .aux) ∧
      ∀ c, (refs ++ shapes).count c ≤ s.ext c
  | .newAux x => (s.mem x).kind = .empty
  | .set y i c ds => (s.mem y).kind = .obj ∧ (s.mem c).kind = .obj ∧ 0 < s.ext c ∧
      ∃ old, (s.mem y).refs[i]? = some old ∧ ds.Perm (c :: (s.mem y).drops.erase old)
  | .gc top roots => (∀ r ∈ roots, 0 < s.ext r) ∧ (top = true → ∀ x, (s.mem x).kind = .obj → 0 < s.ext x → Reach s.mem (· ∈ roots) x)

/-- The state after an operation. -/
def exec (s : State) : Op → Option State
  | .inc x => some { s with mem := put s.mem x { s.mem x with refc := (s.mem x).refc + 1 }, ext := fun y => if y = x then s.ext y + 1 else s.ext y }
  | .dec x => (run (runSteps s.hp s.mem [.dec x]) [.dec x] s.mem).map fun H =>
      { s with mem := H, ext := fun y => if y = x then s.ext y - 1 else s.ext y }
  | .new x refs shapes => some {
      hp := if x ∈ s.hp then s.hp else x :: s.hp
      mem := put s.mem x ⟨.obj, 1, false, refs, refs ++ shapes⟩
      ext := fun y => if y = x then 1 else s.ext y - (refs ++ shapes).count y }
  | .newAux x => some {
      hp := if x ∈ s.hp then s.hp else x :: s.hp
      mem := put s.mem x ⟨.aux, 1, false, [], []⟩
      ext := fun y => if y = x then 1 else s.ext y }
  | .set y i c ds => match (s.mem y).refs[i]? with
    | none => none
    | some old => some { s with
        mem := put s.mem y { s.mem y with refs := (s.mem y).refs.set i c, drops := ds }
        ext := fun z => s.ext z + (if z = old then 1 else 0) - (if z = c then 1 else 0) }
  | .gc top roots => (gcRun top s.hp roots s.mem).map fun H => { s with mem := H }

/-- A program runs through the operations, each of them legal when it is done, and arrives at `s'`. -/
inductive Runs : State → List Op → State → Prop
  | nil (s) : Runs s [] s
  | cons {s s' s'' op ops} : Legal s op → exec s op = some s' → Runs s' ops s'' → Runs s (op :: ops) s''

/-- The heap before the program. -/
def start : State := ⟨[], fun _ => ⟨.empty, 0, false, [], []⟩, fun _ => 0⟩

end Verif.Gc
