import Verif.Squeeze.Spec
import Verif.Rotate.Spec
/-!
# Merging arrays: specification
-/
namespace Verif.Merge
open Verif.Squeeze (Val Sames)
open Verif.Rotate (prod)

/-- What a part of a merged array is to the user: a shape, and the elements in order. Atoms have no axes and are their own element. -/
structure Part where
  sh : List Nat
  els : List Val

/-- Parts of the same shape `s`. -/
def Alike (s : List Nat) (ps : List Part) : Prop := ∀ p ∈ ps, p.sh = s

/-- `sh` and `els` are the shape and the elements of the parts `ps`, of shape `s`, merged along a frame `fr`: first come all elements of the first part,
then those of the second one, and so on. -/
def Merged (fr s : List Nat) (ps : List Part) (sh : List Nat) (els : List Val) : Prop :=
  sh = fr ++ s ∧ Sames els (ps.flatMap Part.els)

example : Alike [2] [⟨[2], [.chr 97#32, .chr 98#32]⟩, ⟨[2], [.chr 99#32, .chr 100#32]⟩] ∧
    Merged [2] [2] [⟨[2], [.chr 97#32, .chr 98#32]⟩, ⟨[2], [.chr 99#32, .chr 100#32]⟩] [2, 2] [.chr 97#32, .chr 98#32, .chr 99#32, .chr 100#32] := by
  refine ⟨by intro p hp; simp only [List.mem_cons, List.not_mem_nil, or_false] at hp; rcases hp with rfl | rfl <;> rfl, rfl, ?_⟩
  exact .cons rfl (.cons rfl (.cons rfl (.cons rfl .nil)))

end Verif.Merge
