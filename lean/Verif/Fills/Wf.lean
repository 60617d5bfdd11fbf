import Verif.Fills.Model

/-!
# What a stored array stands for, and which are well-formed
-/
namespace Verif.Fills

/- The value that an object stands for: what `≡` compares. -/
mutual
def val : V → P
  | .num n => .num n
  | .chr c => .chr c
  | .fn i => .fn i
  | .arr sh _ _ els => .arr sh (valL els)
def valL : List V → List P
  | [] => []
  | a :: as => val a :: valL as
end

/- Has only `0` for numbers, only a space for characters, and no functions. -/
mutual
def blank : V → Prop
  | .num n => n = 0
  | .chr c => c = 32
  | .fn _ => False
  | .arr _ _ _ els => blankL els
def blankL : List V → Prop
  | [] => True
  | a :: as => blank a ∧ blankL as
end

/- An array has as many elements as its shape says, of the type that it stores,
and a fill, where it stores one, is blank. -/
mutual
def wf : V → Prop
  | .num _ => True
  | .chr _ => True
  | .fn _ => True
  | .arr sh k f els =>
    els.length = prod sh ∧
    (k = .num → ∀ (e : V), e ∈ els → e.isNum = true) ∧
    (k = .chr → ∀ (e : V), e ∈ els → e.isChr = true) ∧
    (k ≠ .farr → f.isNone = true) ∧
    wfO f ∧ wfL els
def wfO : Option V → Prop
  | none => True
  | some f => blank f ∧ wf f
def wfL : List V → Prop
  | [] => True
  | a :: as => wf a ∧ wfL as
end

/-- A value that can be a fill. -/
def IsFill (f : V) : Prop := blank f ∧ wf f

/-- The value of the fill of an object, where it has one. -/
def fillVal (x : V) : Option P := (getFill x).map val

/-- The fill that is left where an unknown one is put on an array: none on those
that store a fill, and their own on others. -/
def unfilled : V → Option P
  | .arr _ .farr _ _ => none
  | x => fillVal x

end Verif.Fills
