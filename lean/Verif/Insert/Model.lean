import Verif.Insert.Spec
import Verif.Cells.Model
/-!
# Model of Fold, Insert and Scan

`/repo/src/builtins/fold.c` 258-405 and 474-654, `scan.c` 245-440 and `cells.c` 70-88 and 120-142. The functions for typed numbers that give the result of arithmetic at once are not here: they are C17, C18,
C19, C37 and C39. Fills, reference counts and the types in which results are stored aren't modelled. Sizes have 32 bits and wrap.
-/
namespace Verif.Insert
open Verif.Cells (Arr Val slice shProd merge)
variable {E A : Type} {m : Type → Type}

/-- `c2` and `errMd`, `h.h` 706-710. -/
def call [Monad m] (op : Op m E) (a b : E) : m (Res E) :=
  match op with
  | .const v => pure (.ok v)
  | .md => pure .modifier
  | .ltack => pure (.ok a)
  | .rtack => pure (.ok b)
  | .fn f _ => do pure (.ok (← f a b))
  | .perv f _ => do pure (.ok (← f a b))

/-- `Get(x, i)`. -/
def get (x : List E) (i : Nat) : Res E :=
  match x[i]? with
  | some e => .ok e
  | none => .undef

/-- `for (usz i = …; i>0; i--) c = fc2(f, Get(x, i-1), c)`, 340 and 402. -/
def foldLoop [Monad m] (f : E → E → m E) (x : List E) : Nat → E → m (Res E)
  | 0, c => pure (.ok c)
  | i+1, c =>
    match x[i]? with
    | none => pure .undef
    | some a => do foldLoop f x i (← f a c)

/-- `fold_c1`, 258-344. -/
def cFold1 [Monad m] (op : Op m E) (x : Val E) : m (Res E) :=
  match x with
  | .atom _ => pure .rank
  | .arr a =>
    if a.sh.length ≠ 1 then pure .rank
    else
      let ia := a.els.length
      if ia ≤ 2 then
        if ia = 2 then
          match a.els[0]?, a.els[1]? with
          | some x0, some x1 => call op x0 x1
          | _, _ => pure .undef
        else if ia = 1 then pure (get a.els 0)
        else match op with
          | .fn _ (some i) => pure (.ok i)
          | .perv _ (some i) => pure (.ok i)
          | _ => pure .noIdentity
      else match op with
        | .const v => pure (.ok v)
        | .md => pure .modifier
        | .ltack => pure (get a.els 0)
        | .rtack => pure (get a.els (ia-1))
        | .fn f _ => match a.els[ia-1]? with
          | some c => foldLoop f a.els (ia-1) c
          | none => pure .undef
        | .perv f _ => match a.els[ia-1]? with
          | some c => foldLoop f a.els (ia-1) c
          | none => pure .undef

/-- `fold_c2`, 346-405. -/
def cFold2 [Monad m] (op : Op m E) (w : E) (x : Val E) : m (Res E) :=
  match x with
  | .atom _ => pure .rank
  | .arr a =>
    if a.sh.length ≠ 1 then pure .rank
    else
      let ia := a.els.length
      if ia = 0 then pure (.ok w)
      else match op with
        | .const v => pure (.ok v)
        | .md => pure .modifier
        | .ltack => pure (get a.els 0)
        | .rtack => pure (.ok w)
        | .fn f _ => foldLoop f a.els ia w
        | .perv f _ => foldLoop f a.els ia w

/-- `SLICE(x, p)`, `cells.c` 65. -/
def cellFrom (x : Arr E) (csz p : Nat) : Option (Val E) := (slice x 1 csz p).map .arr

/-- The loop of `insert_base`, `cells.c` 84-87. -/
def insertLoop [Monad m] (f : Val E → Val E → m (Option (Val E))) (x : Arr E) (csz : Nat) : Nat → Nat → Val E → m (Res (Val E))
  | 0, _, r => pure (.ok r)
  | n+1, p, r =>
    let p := (p + (2^32 - csz)) % 2^32
    match cellFrom x csz p with
    | none => pure .undef
    | some c => do
      match ← f c r with
      | none => pure .mismatch
      | some r => insertLoop f x csz n p r

/-- `insert_base`, `cells.c` 70-88. -/
def insertBase [Monad m] (f : Val E → Val E → m (Option (Val E))) (x : Arr E) (w : Option (Val E)) : m (Res (Val E)) :=
  let xn := x.sh.head!
  let csz := shProd (x.sh.drop 1)
  let p := xn * csz % 2^32
  match w with
  | some w => insertLoop f x csz xn p w
  | none =>
    let p := (p + (2^32 - csz)) % 2^32
    match cellFrom x csz p with
    | none => pure .undef
    | some c => insertLoop f x csz (xn - 1) p c

/-- `for (usz i=0; i<csz; i++) r.a[i] = fc2(f, Get(x, xi+i), r.a[i])`, 496: what is left of `n` elements from `i` on. -/
def scalRow [Monad m] (f : E → E → m E) (x : List E) (xi : Nat) : Nat → Nat → List E → m (Option (List E))
  | 0, _, r => pure (some r)
  | n+1, i, r =>
    match x[xi + i]?, r[i]? with
    | some a, some b => do scalRow f x xi n (i+1) (r.set i (← f a b))
    | _, _ => pure none

/-- `while (xi)`, 494-497. It ends after as many rows as there are. -/
def scalRows [Monad m] (f : E → E → m E) (x : List E) (csz : Nat) : Nat → Nat → List E → m (Option (List E))
  | 0, xi, r => pure (if xi = 0 then some r else none)
  | n+1, xi, r =>
    if xi = 0 then pure (some r)
    else do
      match ← scalRow f x (xi - csz) csz 0 r with
      | none => pure none
      | some r => scalRows f x csz n (xi - csz) r

/-- `insert_scal`, 474-521. -/
def insertScal [Monad m] (f : E → E → m E) (x : Arr E) (fxw : Option (Val E)) (rr : Nat) : m (Res (Val E)) :=
  let csz := if x.sh.length ≤ 1 then 1 else shProd (x.sh.drop 1)
  let xia := x.els.length
  let xi := xia - csz
  let r : Option (List E) := match fxw with
    | some v => if csz ≤ v.els.length then some (v.els.take csz) else none
    | none => if xi + csz ≤ xia then some ((x.els.drop xi).take csz) else none
  match r with
  | none => pure .undef
  | some r => do
    match ← scalRows f x.els csz x.sh.head! xi r with
    | none => pure .undef
    | some r => pure (.ok (.arr ⟨if rr > 1 then x.sh.drop 1 else if rr = 1 then [csz] else [], r⟩))

/-- `m_unit`. -/
def unit : Res E → Res (Val E)
  | .ok e => .ok (.arr ⟨[], [e]⟩)
  | .rank => .rank
  | .noIdentity => .noIdentity
  | .modifier => .modifier
  | .mismatch => .mismatch
  | .undef => .undef

/-- A single element with `rr` axes: 552-560 and 631-639. -/
def ones (rr : Nat) : Res E → Res (Val E)
  | .ok e => .ok (.arr ⟨List.replicate rr 1, [e]⟩)
  | r => unit r

/-- `C1(select, x)` and `C2(select, m_f64(-1), x)`. -/
def cellNo (x : Arr E) (i : Nat) : Res (Val E) :=
  match cellFrom x (shProd (x.sh.drop 1)) (i * shProd (x.sh.drop 1)) with
  | some c => .ok c
  | none => .undef

/-- `join:`, 595-608. -/
def joinAll (x : Arr E) : Val E :=
  let xr := x.sh.length
  if xr = 1 then .arr x
  else if xr > 2 then .arr ⟨(x.sh.getD 0 0 * x.sh.getD 1 0 % 2^32) :: x.sh.drop 2, x.els⟩
  else .arr ⟨[x.els.length], x.els⟩

/-- An atom repeated in the shape of a cell, 532-537. -/
def reshapeOne (x : Arr E) (e : E) : Val E := .arr ⟨x.sh.drop 1, List.replicate (shProd (x.sh.drop 1)) e⟩

/-- `insert_c1`, 523-611. -/
def cInsert1 [Monad m] (op : COp m E) (x : Val E) : m (Res (Val E)) :=
  match x with
  | .atom _ => pure .rank
  | .arr a =>
    let xr := a.sh.length
    if xr = 0 then pure .rank
    else
      let len := a.sh.head!
      if len = 0 then
        match op with
        | .perv _ (some i) => pure (.ok (reshapeOne a i))
        | .fn _ (some (.arr i)) => pure (.ok (.arr i))
        | .fn _ (some (.atom i)) => pure (.ok (reshapeOne a i))
        | .join => if xr ≤ 1 then pure .noIdentity else pure (.ok (joinAll a))
        | _ => pure .noIdentity
      else if len = 1 then pure (cellNo a 0)
      else match op with
        | .const v => pure (.ok v)
        | .md => pure .modifier
        | .perv el i =>
          let xia := a.els.length
          if xr = 1 then unit <$> cFold1 (.perv el i) x
          else if xia ≠ 0 ∧ len = xia then ones (xr-1) <$> cFold1 (.perv el i) (.arr ⟨[xia], a.els⟩)
          else if len > 2 ∧ xia < 6 * len then insertScal el a none (xr-1)
          else insertBase (pairUp el) a none
        | .ltack => pure (cellNo a 0)
        | .rtack => pure (cellNo a (len-1))
        | .join => pure (.ok (joinAll a))
        | .fn f _ => insertBase (sure f) a none

/-- `insert_c2`, 612-654. -/
def cInsert2 [Monad m] (op : COp m E) (w : Val E) (x : Val E) : m (Res (Val E)) :=
  match x with
  | .atom _ => pure .rank
  | .arr a =>
    let xr := a.sh.length
    if xr = 0 then pure .rank
    else
      let len := a.sh.head!
      if len = 0 then pure (.ok w)
      else match op with
        | .const v => pure (.ok v)
        | .md => pure .modifier
        | .perv el i =>
          let xia := a.els.length
          let rr := xr - 1
          let tryScal : m (Res (Val E)) :=
            if len > 2 ∧ xia < 6 * len ∧ ¬ w.sh.length > rr then
              match cellNo a (len-1) with
              | .ok c => do
                match ← pairUp el c w with
                | none => pure .mismatch
                | some w => insertScal el a (some w) rr
              | r => pure r
            else insertBase (pairUp el) a (some w)
          if len = xia then
            match w with
            | .arr b =>
              if b.els.length ≠ 1 then insertBase (pairUp el) a (some w)
              else match b.els[0]? with
                | some e => ones (if b.sh.length > rr then b.sh.length else rr) <$> cFold2 (.perv el i) e (.arr ⟨[xia], a.els⟩)
                | none => pure .undef
            | .atom e => ones rr <$> cFold2 (.perv el i) e (.arr ⟨[xia], a.els⟩)
          else tryScal
        | .ltack => pure (cellNo a 0)
        | .rtack => pure (.ok w)
        | .join => insertBase (fun a b => pure (joinV a b)) a (some w)
        | .fn f _ => insertBase (sure f) a (some w)

/-- `r.a[i] = fc2(f, inc(r.a[i-csz]), Get(x,i))`, `scan.c` 351-359 and 432-436: `n` more elements. -/
def scanLoop [Monad m] (f : E → E → m E) (x : List E) (csz : Nat) : Nat → Nat → List E → m (Option (List E))
  | 0, _, r => pure (some r)
  | n+1, i, r =>
    match r[i - csz]?, x[i]? with
    | some a, some b => do scanLoop f x csz n (i+1) (r ++ [← f a b])
    | _, _ => pure none

/-- 431: `r.a[i] = fc2(f, Get(w,i), Get(x,i))`. -/
def scanFirst [Monad m] (f : E → E → m E) (w x : List E) : Nat → Nat → List E → m (Option (List E))
  | 0, _, r => pure (some r)
  | n+1, i, r =>
    match w[i]?, x[i]? with
    | some a, some b => do scanFirst f w x n (i+1) (r ++ [← f a b])
    | _, _ => pure none

/-- The loop of `scan_arith`, `cells.c` 135-138. -/
def arithLoop [Monad m] (f : Val E → Val E → m (Option (Val E))) (x : Arr E) (csz : Nat) : Nat → Nat → Val E → List (Val E) → m (Option (List (Val E)))
  | 0, _, _, r => pure (some r)
  | n+1, p, c, r =>
    match cellFrom x csz p with
    | none => pure none
    | some s => do
      match ← f c s with
      | none => pure none
      | some c => arithLoop f x csz n (p + csz) c (r ++ [c])

/-- `scan_arith`, `cells.c` 120-142. Results are appended as in C53. -/
def scanArith [Monad m] (f : Val E → Val E → m (Option (Val E))) (w : Option (Val E)) (x : Arr E) : m (Res (Arr E)) := do
  let xn := x.sh.head!
  let csz := shProd (x.sh.drop 1)
  let rs ← match w with
    | some w => arithLoop f x csz xn 0 w []
    | none => match cellFrom x csz 0 with
      | none => pure none
      | some c => arithLoop f x csz (xn - 1) csz c [c]
  match rs with
  | none => pure .undef
  | some rs => match merge [xn] rs with
    | .ok a => pure (.ok a)
    | _ => pure .undef

/-- `C2(shape, …, s)` for `ia` elements. -/
def cycle (ia : Nat) (s : List E) : Option (List E) := (List.range ia).mapM fun i => s[i % s.length]?

def withShape (x : Arr E) : Option (List E) → Res (Arr E)
  | some r => .ok ⟨x.sh, r⟩
  | none => .undef

/-- `arr_csz`, `core/stuff.h` 180-184. -/
def arrCsz (x : Arr E) : Nat := if x.sh.length ≤ 1 then 1 else shProd (x.sh.drop 1)

/-- From `base` on in `scan_c1`, 342-361. -/
def scanBase [Monad m] (f : E → E → m E) (x : Arr E) : m (Res (Arr E)) :=
  let ia := x.els.length
  let n := x.sh.head!
  if ia = n then do pure (withShape x (← scanLoop f x.els 1 (ia - 1) 1 (x.els.take 1)))
  else do pure (withShape x (← scanLoop f x.els (arrCsz x) (ia - arrCsz x) (arrCsz x) (x.els.take (arrCsz x))))

/-- `scan_c1`, 245-362. -/
def cScan1 [Monad m] (op : Op m E) (x : Val E) : m (Res (Arr E)) :=
  match x with
  | .atom _ => pure .rank
  | .arr a =>
    let ia := a.els.length
    if ia ≤ 1 then (if ia = 1 ∧ a.sh.length = 0 then pure .rank else pure (.ok a))
    else
      let n := a.sh.head!
      if n ≤ 1 then pure (.ok a)
      else match op with
        | .const v => pure (.ok ⟨a.sh, a.els.take (arrCsz a) ++ List.replicate (ia - arrCsz a) v⟩)
        | .md => pure .modifier
        | .rtack => pure (.ok a)
        | .ltack => pure (withShape a (cycle ia (a.els.take (arrCsz a))))
        | .fn f _ => scanBase f a
        | .perv f _ => if ia ≠ n ∧ ia ≥ 6 * n then scanArith (pairUp f) none a else scanBase f a

/-- From `base` on in `scan_c2`, 418-440. -/
def scanBase2 [Monad m] (f : E → E → m E) (w : Val E) (x : Arr E) : m (Res (Arr E)) :=
  let ia := x.els.length
  match w with
  | .arr b => do
    let csz := arrCsz x
    match ← scanFirst f b.els x.els csz 0 [] with
    | none => pure .undef
    | some r => pure (withShape x (← scanLoop f x.els csz (ia - csz) csz r))
  | .atom e =>
    match x.els[0]? with
    | none => pure .undef
    | some x0 => do
      let pr ← f e x0
      pure (withShape x (← scanLoop f x.els 1 (ia - 1) 1 [pr]))

/-- Whether `𝕨` isn't like a cell of `𝕩`, 367. -/
def unlike (w : Val E) (x : Arr E) : Bool :=
  match w with
  | .arr b => decide (b.sh ≠ x.sh.drop 1)
  | .atom _ => decide (x.sh.length ≠ 1)

/-- `scan_c2`, 364-440. -/
def cScan2 [Monad m] (op : Op m E) (w : Val E) (x : Val E) : m (Res (Arr E)) :=
  match x with
  | .atom _ => pure .rank
  | .arr a =>
    let xr := a.sh.length
    if xr = 0 then pure .rank
    else
      let ia := a.els.length
      if unlike w a then pure .mismatch
      else if ia = 0 then pure (.ok a)
      else match op with
        | .const v => pure (.ok ⟨a.sh, List.replicate ia v⟩)
        | .md => pure .modifier
        | .rtack => pure (.ok a)
        | .ltack => pure (withShape a (cycle ia w.els))
        | .fn f _ => scanBase2 f w a
        | .perv f _ => if xr > 1 ∧ ia ≥ 6 * a.sh.head! then scanArith (pairUp f) (some w) a else scanBase2 f w a

end Verif.Insert
