import Verif.CombRef.Model
namespace Verif.CombRef
open Verif.EachRef (V Hand one)

/-- The references and calls at the start. -/
def start (held : Hand) (w : Option V) (x : V) (cs : List Call) : T := ⟨fun j => held j + oneO w j + one x j, cs⟩

/-- The run ends with result and calls as wanted; of references there are those held before and one to the result. -/
def Ends (held : Hand) (out : Option (V × T)) (want : V × List Call) : Prop :=
  ∃ s, out = some (want.1, s) ∧ (∀ j, s.hand j = held j + one want.1 j) ∧ s.calls = want.2

end Verif.CombRef
