/-!
# Assignment: specification
-/
namespace Verif.Assign

/-- A variable: of a scope, or added to a scope later. -/
inductive Key
  | var (scope pos : Nat)
  | ext (scope pos : Nat)
deriving DecidableEq

/-- What a variable can hold: atoms, arrays, namespaces (a scope, and for each of its variables the name it's exported as), or a mark: it isn't defined yet (`noVar`), or its value has been taken by `F↩` (`optOut`). -/
inductive V
  | atom (a : Nat)
  | arr (sh : List Nat) (es : List V)
  | ns (scope : Nat) (exp : List (Option Nat))
  | noVar
  | optOut

/-- Targets: a variable (`depth` scopes out), `·`, `⟨…⟩`, `[…]`, `t⇐name`, and in headers a constant. -/
inductive T
  | var (depth pos : Nat)
  | ext (depth pos : Nat)
  | nothing
  | list (ts : List T)
  | merge (ts : List T)
  | alias (t : T) (name : Nat)
  | verify (v : V)

/-- The values of all variables. -/
abbrev Store := Key → V

/-- One after the other, variables are given values. -/
def apply : List (Key × V) → Store → Store
  | [], σ => σ
  | (k, v) :: bs, σ => apply bs fun k' => if k' = k then v else σ k'

/-- The product of a shape. -/
def prod : List Nat → Nat
  | [] => 1
  | n :: sh => n * prod sh

/-- Where code runs: the scopes around it, the names of variables (`arg` etc. have none), and what `≡` is. -/
structure World where
  scope : Nat → Nat
  name : Nat → Nat → Option Nat
  extName : Nat → Nat → Nat
  eq : V → V → Bool

/-- The variable that a field of a namespace is. -/
inductive Field : Nat → List (Option Nat) → Nat → Key → Prop
  | mk {s : Nat} {e : List (Option Nat)} {g i : Nat} : e[i]? = some (some g) → (∀ j, j < i → e[j]? ≠ some (some g)) → Field s e g (.var s i)

/-- The name by which an element of a list of targets is looked up in a namespace, and the target it's for. -/
inductive Named (W : World) : T → Nat → T → Prop
  | var {d p g : Nat} : W.name (W.scope d) p = some g → Named W (.var d p) g (.var d p)
  | ext {d p : Nat} : Named W (.ext d p) (W.extName (W.scope d) p) (.ext d p)
  | alias {t : T} {g : Nat} : Named W (.alias t g) g t

mutual
/-- Assigning `x` to `t` gives variables these values, in this order. With `upd` (`↩`) variables must be defined. -/
inductive Binds (W : World) (upd : Bool) : Store → T → V → List (Key × V) → Prop
  | var {σ : Store} {d p : Nat} {x : V} : (upd = true → σ (.var (W.scope d) p) ≠ .noVar) → Binds W upd σ (.var d p) x [(.var (W.scope d) p, x)]
  | ext {σ : Store} {d p : Nat} {x : V} : (upd = true → σ (.ext (W.scope d) p) ≠ .noVar) → Binds W upd σ (.ext d p) x [(.ext (W.scope d) p, x)]
  | nothing {σ : Store} {x : V} : Binds W upd σ .nothing x []
  | list {σ : Store} {ts : List T} {xs : List V} {bs : List (Key × V)} : BindsAll W upd σ ts xs bs → Binds W upd σ (.list ts) (.arr [ts.length] xs) bs
  | fields {σ : Store} {ts : List T} {s : Nat} {e : List (Option Nat)} {bs : List (Key × V)} : BindsFields W upd σ ts s e bs → Binds W upd σ (.list ts) (.ns s e) bs
  | merge {σ : Store} {ts : List T} {sh : List Nat} {cells : List (List V)} {bs : List (Key × V)} : (∀ c ∈ cells, c.length = prod sh) → BindsAll W upd σ ts (cells.map (.arr sh)) bs →
      Binds W upd σ (.merge ts) (.arr (ts.length :: sh) cells.flatten) bs
  | verify {σ : Store} {v x : V} : W.eq v x = true → Binds W upd σ (.verify v) x []
/-- Each target in turn is given the value at its position. -/
inductive BindsAll (W : World) (upd : Bool) : Store → List T → List V → List (Key × V) → Prop
  | nil {σ : Store} : BindsAll W upd σ [] [] []
  | cons {σ : Store} {t : T} {ts : List T} {x : V} {xs : List V} {b bs : List (Key × V)} : Binds W upd σ t x b → BindsAll W upd (apply b σ) ts xs bs → BindsAll W upd σ (t :: ts) (x :: xs) (b ++ bs)
/-- Each target in turn is given the value of its field. -/
inductive BindsFields (W : World) (upd : Bool) : Store → List T → Nat → List (Option Nat) → List (Key × V) → Prop
  | nil {σ : Store} {s : Nat} {e : List (Option Nat)} : BindsFields W upd σ [] s e []
  | cons {σ : Store} {t t' : T} {ts : List T} {s : Nat} {e : List (Option Nat)} {g : Nat} {k : Key} {b bs : List (Key × V)} : Named W t g t' → Field s e g k → Binds W upd σ t' (σ k) b → BindsFields W upd (apply b σ) ts s e bs → BindsFields W upd σ (t :: ts) s e (b ++ bs)
end

mutual
/-- The variables of a target. -/
def T.vars (W : World) : T → List Key
  | .var d p => [.var (W.scope d) p]
  | .ext d p => [.ext (W.scope d) p]
  | .nothing => []
  | .list ts => varsL W ts
  | .merge ts => varsL W ts
  | .alias t _ => t.vars W
  | .verify _ => []
def varsL (W : World) : List T → List Key
  | [] => []
  | t :: ts => t.vars W ++ varsL W ts
end

/-- The shape and the elements of a cell of `[…]`. -/
def V.shape : V → List Nat
  | .arr sh _ => sh
  | _ => []
def V.elems : V → List V
  | .arr _ es => es
  | v => [v]

/-- A value that can be read. -/
def V.Avail (v : V) : Prop := v ≠ .noVar ∧ v ≠ .optOut

mutual
/-- The value of a target that's modified. -/
inductive Value (W : World) (σ : Store) : T → V → Prop
  | var {d p : Nat} : (σ (.var (W.scope d) p)).Avail → Value W σ (.var d p) (σ (.var (W.scope d) p))
  | ext {d p : Nat} : (σ (.ext (W.scope d) p)).Avail → Value W σ (.ext d p) (σ (.ext (W.scope d) p))
  | list {ts : List T} {vs : List V} : Values W σ ts vs → Value W σ (.list ts) (.arr [ts.length] vs)
  | merge {ts : List T} {vs : List V} {sh : List Nat} : Values W σ ts vs → (∀ v ∈ vs, v.shape = sh) → vs ≠ [] → Value W σ (.merge ts) (.arr (ts.length :: sh) (vs.flatMap V.elems))
inductive Values (W : World) (σ : Store) : List T → List V → Prop
  | nil : Values W σ [] []
  | cons {t : T} {ts : List T} {v : V} {vs : List V} : Value W σ t v → Values W σ ts vs → Values W σ (t :: ts) (v :: vs)
end

/-- Their values have been taken. -/
def taken (ks : List Key) (σ : Store) : Store := fun k => if k ∈ ks then .optOut else σ k

/-! ## Conditions on values and targets -/

mutual
/-- Arrays have as many elements as their shape says. -/
def V.Wf : V → Prop
  | .arr sh es => es.length = prod sh ∧ wfL es
  | _ => True
def wfL : List V → Prop
  | [] => True
  | v :: vs => v.Wf ∧ wfL vs
end

/-- All variables hold such values. -/
def WfS (σ : Store) : Prop := ∀ k, (σ k).Wf

mutual
/-- No constants, or in headers no extended variables. -/
def T.fits (hdr : Bool) : T → Bool
  | .var _ _ => true
  | .ext _ _ => !hdr
  | .nothing => true
  | .list ts => fitsL hdr ts
  | .merge ts => fitsL hdr ts
  | .alias t _ => t.fits hdr
  | .verify _ => hdr
def fitsL (hdr : Bool) : List T → Bool
  | [] => true
  | t :: ts => t.fits hdr && fitsL hdr ts
end

def T.isMerge : T → Bool
  | .merge _ => true
  | _ => false

mutual
/-- Outside of headers, no `[…]` as an element of `⟨…⟩`. -/
def T.flat (hdr : Bool) : T → Bool
  | .list ts => flatL hdr ts && (hdr || !ts.any T.isMerge)
  | .merge ts => flatL hdr ts
  | .alias t _ => t.flat hdr
  | _ => true
def flatL (hdr : Bool) : List T → Bool
  | [] => true
  | t :: ts => t.flat hdr && flatL hdr ts
end

mutual
/-- Variables, and lists and arrays of them. -/
def T.plain : T → Bool
  | .var _ _ => true
  | .ext _ _ => true
  | .list ts => plainL ts
  | .merge ts => plainL ts
  | _ => false
def plainL : List T → Bool
  | [] => true
  | t :: ts => t.plain && plainL ts
end

mutual
/-- There's no `[…]`. -/
def T.noMerge : T → Bool
  | .list ts => noMergeL ts
  | .merge _ => false
  | .alias t _ => t.noMerge
  | _ => true
def noMergeL : List T → Bool
  | [] => true
  | t :: ts => t.noMerge && noMergeL ts
end

/-- The values of the variables are arrays. -/
def Arrays (σ : Store) (ks : List Key) : Prop := ∀ k ∈ ks, ∃ sh es, σ k = .arr sh es ∧ es.length = prod sh

mutual
/-- There's no namespace in it. -/
def V.noNs : V → Bool
  | .arr _ es => noNsL es
  | .ns _ _ => false
  | _ => true
def noNsL : List V → Bool
  | [] => true
  | v :: vs => v.noNs && noNsL vs
end

end Verif.Assign
