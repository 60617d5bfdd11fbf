/-!
# Specification of Scan (`` 𝔽` ``) on lists
-/
namespace Verif.Scan.Spec

/-- `𝕨 𝔽` 𝕩`: each result is 𝔽 applied to the previous result (𝕨 at first) and the next element. -/
def scanFrom {α β} (f : β → α → β) : β → List α → List β
  | _, [] => []
  | acc, x :: xs => f acc x :: scanFrom f (f acc x) xs

/-- `𝔽` 𝕩`: the first element is kept, then as above. -/
def scan {α} (f : α → α → α) : List α → List α
  | [] => []
  | x :: xs => x :: scanFrom f x xs

/- BQN's boolean comparison functions as functions of 𝕨 and 𝕩. -/
def lt (w x : Bool) : Bool := !w && x
def le (w x : Bool) : Bool := !w || x
def gt (w x : Bool) : Bool := w && !x
def ge (w x : Bool) : Bool := w || !x
def eq (w x : Bool) : Bool := w == x
def ne (w x : Bool) : Bool := w != x

end Verif.Scan.Spec
