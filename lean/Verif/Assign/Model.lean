import Verif.Assign.Spec
/-!
# Assignment: model

`src/vm.h` 284-334, `src/vm.c` 503-643 and 834-898, `src/ns.c` 47-98 and 172-179. Variables are in scopes, which a namespace refers to as well, so they are kept in one store. Names are numbers (C04); `pos2gid` gives them, and remembering them changes nothing. Reference counts aren't modelled. `eq` is `equal` (C45).
-/
namespace Verif.Assign

/-- The end of an assignment: done, an error, or something undefined in C. -/
inductive R
  | ok (σ : Store)
  | err (σ : Store)
  | ud

/-- `if` it's done. -/
def R.then : R → (Store → R) → R
  | .ok σ, f => f σ
  | .err σ, _ => .err σ
  | .ud, _ => .ud

def V.isNoVar : V → Bool
  | .noVar => true
  | _ => false

def V.isOptOut : V → Bool
  | .optOut => true
  | _ => false

/-- `v_checkBadRead`, vm.h:289: bits 47 and up are those of `TAG_TAG` with bit 47 set, as in both marks (h.h 376-378). -/
def badRead (v : V) : Bool := v.isNoVar || v.isOptOut
/-- `v_checkBadWrite`, vm.h:290: also bit 46, as in `bi_noVar` only. -/
def badWrite (v : V) : Bool := v.isNoVar

def put (σ : Store) (k : Key) (v : V) : Store := fun k' => if k' = k then v else σ k'

/-- `v_setI`, vm.h 306-315, and for extended variables vm.c 580-588. -/
def setVar (upd chk : Bool) (σ : Store) (k : Key) (x : V) : R :=
  if upd && chk && badWrite (σ k) then .err σ else .ok (put σ k x)

/-- The loop of `ns_getU`, ns.c 47-54, and of `ns_qgetU` and `ns_getNU`. -/
def findField (g : Nat) : List (Option Nat) → Nat → Option Nat
  | [], _ => none
  | o :: e, i => if o = some g then some i else findField g e (i + 1)

/-- `toCells` for the elements of an array with cells of `k` elements (C54). -/
def chunks (k : Nat) : Nat → List V → List (List V)
  | 0, _ => []
  | n+1, es => es.take k :: chunks k n (es.drop k)

/-- The cells that `v_merge` assigns, vm.c 520-539. -/
def cellsOf (n : Nat) (sh : List Nat) (es : List V) : List V :=
  if n = 0 then []
  else match sh with
    | [] => es.map fun e => .arr [] [e]
    | sh => (chunks (prod sh) n es).map (.arr sh)

/-- `thrF` or `return false` if there's no such field. -/
def R.field (σ : Store) (f : Nat → R) : Option Nat → R
  | none => .err σ
  | some i => f i

mutual
/-- `v_set`, vm.h 317-325, and `v_setF`, vm.c 547-589; or with `hdr` `v_seth`, vm.h 327-334, and `v_sethF`, vm.c 590-620, for which `.err` is false, and `upd` is false. They are the same otherwise (extended variables aren't expected in headers, constants only there), and share `v_merge`, 503-541. -/
def set (W : World) (hdr upd chk : Bool) (σ : Store) : T → V → R
  | .var d p, x => setVar upd chk σ (.var (W.scope d) p) x
  | .ext d p, x => if hdr then .ud else setVar upd true σ (.ext (W.scope d) p) x
  | .nothing, _ => .ok σ
  | .list ts, .arr sh xs => if sh = [ts.length] then setAll W hdr upd σ ts xs else .err σ
  | .list ts, .ns s e => setFields W hdr upd σ ts s e
  | .list _, _ => .err σ
  | .merge ts, .arr (n :: sh) es => if n = ts.length then setAll W hdr upd σ ts (cellsOf n sh es) else .err σ
  | .merge _, _ => .err σ
  | .alias _ _, _ => .err σ
  | .verify v, x => if hdr then (if W.eq v x then .ok σ else .err σ) else .ud
/-- The loops 523-533, 535-538, 575 and 613. Elements are read without a check. -/
def setAll (W : World) (hdr upd : Bool) (σ : Store) : List T → List V → R
  | [], _ => .ok σ
  | _ :: _, [] => .ud
  | t :: ts, x :: xs => (set W hdr upd true σ t x).then fun σ => setAll W hdr upd σ ts xs
/-- The loops 556-571 and 598-609. In the first one other objects than `t_fldAlias` aren't expected. In headers, a variable that has no name is an error and not just false. -/
def setFields (W : World) (hdr upd : Bool) (σ : Store) : List T → Nat → List (Option Nat) → R
  | [], _, _ => .ok σ
  | .var d p :: ts, s, e =>
    (R.field σ (fun i => setVar upd true σ (.var (W.scope d) p) (σ (.var s i))) ((W.name (W.scope d) p).bind fun g => findField g e 0)).then fun σ => setFields W hdr upd σ ts s e
  | .ext d p :: ts, s, e =>
    if hdr then .err σ
    else (R.field σ (fun i => setVar upd true σ (.ext (W.scope d) p) (σ (.var s i))) (findField (W.extName (W.scope d) p) e 0)).then fun σ => setFields W hdr upd σ ts s e
  | .alias t g :: ts, s, e =>
    (R.field σ (fun i => set W hdr upd true σ t (σ (.var s i))) (findField g e 0)).then fun σ => setFields W hdr upd σ ts s e
  | .nothing :: _, _, _ => .err σ
  | .list _ :: _, _, _ => .err σ
  | .merge _ :: _, _, _ => if hdr then .err σ else .ud
  | .verify _ :: _, _, _ => if hdr then .err σ else .ud
end

/-- The end of reading. -/
inductive G (α : Type)
  | ok (v : α) (σ : Store)
  | err (σ : Store)
  | ud

def G.bind {α β : Type} : G α → (α → Store → G β) → G β
  | .ok v σ, f => f v σ
  | .err σ, _ => .err σ
  | .ud, _ => .ud

/-- `v_getI`, vm.h 294-299, and vm.c 632-637. -/
def getVar (σ : Store) (k : Key) : G V := if badRead (σ k) then .err σ else .ok (σ k) (put σ k .optOut)

/-- `bqn_merge` (C53): arrays of the same shape, of which there's at least one. -/
def mergeV : List V → Option V
  | [] => none
  | v :: vs => if vs.all (fun u => u.shape = v.shape) then some (.arr ((vs.length + 1) :: v.shape) ((v :: vs).flatMap V.elems)) else none

mutual
/-- `v_get`, vm.h 300-303, and `v_getF`, vm.c 623-643. -/
def get (W : World) (σ : Store) : T → G V
  | .var d p => getVar σ (.var (W.scope d) p)
  | .ext d p => getVar σ (.ext (W.scope d) p)
  | .list ts => (getAll W σ ts).bind fun vs σ => .ok (.arr [ts.length] vs) σ
  | .merge ts => (getAll W σ ts).bind fun vs σ => match mergeV vs with
    | none => .err σ
    | some v => .ok v σ
  | .nothing => .ud
  | .alias _ _ => .ud
  | .verify _ => .ud
def getAll (W : World) (σ : Store) : List T → G (List V)
  | [] => .ok [] σ
  | t :: ts => (get W σ t).bind fun v σ => (getAll W σ ts).bind fun vs σ => .ok (v :: vs) σ
end

/-- `SETN` and `SETU`, vm.c 864-865: `t←x` and `t↩x`. -/
def assign (W : World) (upd : Bool) (σ : Store) (t : T) (x : V) : R := set W false upd true σ t x

/-- `SETH1` and `SETH2`, 881-890: whether a header matches. -/
def header (W : World) (σ : Store) (t : T) (x : V) : R := set W true false false σ t x

/-- `SETM` and `SETC`, 866-879: `t F↩ x` and `t F↩`; `F` may change variables, and may end with an error. -/
def modify (W : World) (F : V → Store → G V) (σ : Store) (t : T) : R :=
  match get W σ t with
  | .ok w σ =>
    match F w σ with
    | .ok r σ => set W false true false σ t r
    | .err σ => .err σ
    | .ud => .ud
  | .err σ => .err σ
  | .ud => .ud

/-- `VARO`, 834-839. -/
def readVar (W : World) (σ : Store) (d p : Nat) : Option V :=
  if badRead (σ (.var (W.scope d) p)) then none else some (σ (.var (W.scope d) p))

/-- `FLDG`, 900-905: `x.name`. -/
def readField (σ : Store) (x : V) (g : Nat) : Option V :=
  match x with
  | .ns s e => (findField g e 0).map fun i => σ (.var s i)
  | _ => none

/-- `ns_set`, ns.c 81-98. -/
def setField (σ : Store) (x : V) (g : Nat) (v : V) : Option Store :=
  match x with
  | .ns s e => (findField g e 0).map fun i => put σ (.var s i) v
  | _ => none

end Verif.Assign
