/-!
# Model of the open-addressing hash table (`/repo/src/utils/hashmapTemplate.h`, instances in `/repo/src/utils/hash.h` 42-66)
and of the generic searches built on it (`/repo/src/builtins/search.c`, `/repo/src/builtins/selfsearch.c`,
`/repo/src/builtins/fns.c`)

`hash k` is `bqn_hashP(k)`, a function that is never 0; keys that are `equal` are the same key (so equal keys have equal
hashes). `H1 = H2 = H1R` is the hash. The uninitialised key and value of a fresh entry are an arbitrary pair `junk`.
Searches that would not end are `none`.
-/
namespace Verif.HTab

variable {K V : Type} [DecidableEq K]

/-- hashmapTemplate.h 29-37; the entry is empty if `hash` is 0 (hash.h 48) -/
structure Ent (K V : Type) where
  hash : Nat
  key : K
  val : V

/-- hashmapTemplate.h 39-45; `mask` is `sz-1`. -/
structure Map (K V : Type) where
  pop : Nat
  sz : Nat
  a : Nat → Ent K V

/-- hashmapTemplate.h 47-60 `m` -/
def m (junk : K × V) (sz : Nat) : Map K V := ⟨0, sz, fun _ => ⟨0, junk.1, junk.2⟩⟩

/-- `m->a[p] = e` -/
def Map.set (m : Map K V) (p : Nat) (e : Ent K V) : Map K V := { m with a := fun q => if q = p then e else m.a q }

/-- `m->a[p].val = v` -/
def Map.setVal (m : Map K V) (p : Nat) (v : V) : Map K V := m.set p { m.a p with val := v }

/-- `if (p++==mask) p = 0` -/
def next (mask p : Nat) : Nat := if p = mask then 0 else p + 1

/-- hashmapTemplate.h 71-76: the loop of `find`: position and `*had`. -/
def findLoop (m : Map K V) (k : K) (h : Nat) (p : Nat) : Nat → Option (Nat × Bool)
  | 0 => none
  | fuel+1 =>
    let e := m.a p
    if e.hash = h ∧ e.key = k then some (p, true)
    else if e.hash = 0 then some (p, false)
    else findLoop m k h (next (m.sz - 1) p) fuel

/-- hashmapTemplate.h 66-77 `find` -/
def find (m : Map K V) (k : K) (h : Nat) : Option (Nat × Bool) := findLoop m k h (h &&& (m.sz - 1)) m.sz

/-- hashmapTemplate.h 78-83 `has` -/
def has (hash : K → Nat) (m : Map K V) (k : K) : Option Bool := (find m k (hash k)).map (·.2)

/-- hashmapTemplate.h 85-90 `getD` -/
def getD (hash : K → Nat) (m : Map K V) (k : K) (d : V) : Option V :=
  (find m k (hash k)).map fun r => if r.2 then (m.a r.1).val else d

/-- hashmapTemplate.h 101-111: the loop of `qins` -/
def qinsLoop (m : Map K V) (e : Ent K V) (p : Nat) : Nat → Option (Map K V)
  | 0 => none
  | fuel+1 =>
    if (m.a p).hash = 0 then some { m.set p e with pop := m.pop + 1 }
    else qinsLoop m e (next (m.sz - 1) p) fuel

/-- hashmapTemplate.h 98-112 `qins` -/
def qins (m : Map K V) (e : Ent K V) : Option (Map K V) := qinsLoop m e (e.hash &&& (m.sz - 1)) m.sz

/-- hashmapTemplate.h 121-124: entries `i…` of the old table are put into the new one. -/
def dblLoop (pm : Map K V) (nm : Map K V) (i : Nat) : Nat → Option (Map K V)
  | 0 => some nm
  | n+1 =>
    let e := pm.a i
    if e.hash ≠ 0 then (qins nm e).bind fun nm => dblLoop pm nm (i+1) n
    else dblLoop pm nm (i+1) n

/-- hashmapTemplate.h 117-127 `dbl` -/
def dbl (junk : K × V) (pm : Map K V) : Option (Map K V) := dblLoop pm (HTab.m junk (pm.sz*2)) 0 pm.sz

/-- hashmapTemplate.h 131-141 `mk`: the new table, the position, `*had`. The value of a new entry is not set. -/
def mk (hash : K → Nat) (junk : K × V) (m : Map K V) (k : K) : Option (Map K V × Nat × Bool) :=
  (if m.pop * 2 > m.sz then dbl junk m else some m).bind fun m =>
    (find m k (hash k)).map fun r =>
      if r.2 then (m, r.1, true)
      else ({ m.set r.1 { m.a r.1 with hash := hash k, key := k } with pop := m.pop + 1 }, r.1, false)

/-- hashmapTemplate.h 142-147 `ins` -/
def ins (hash : K → Nat) (junk : K × V) (m : Map K V) (k : K) (v : V) : Option (Map K V × Bool) :=
  (mk hash junk m k).map fun r => (r.1.setVal r.2.1 v, r.2.2)

/-- hashmapTemplate.h 149-155 `swap` -/
def swap (hash : K → Nat) (junk : K × V) (m : Map K V) (k : K) (v d : V) : Option (Map K V × V) :=
  (mk hash junk m k).map fun r => (r.1.setVal r.2.1 v, if r.2.2 then (r.1.a r.2.1).val else d)

/-! ## searches -/

/-- fns.c 376-391 `str2gid`, on the table and the name list. -/
def str2gid (hash : K → Nat) (junk : K × Nat) (m : Map K Nat) (names : List K) (s : K) : Option (Nat × Map K Nat × List K) :=
  (mk hash junk m s).map fun r =>
    if r.2.2 then ((r.1.a r.2.1).val, r.1, names)
    else (names.length, r.1.setVal r.2.1 names.length, names ++ [s])

/-- search.c 352-355: the indices `i…` of `w` are entered. -/
def indexFill (hash : K → Nat) (junk : K × Nat) (m : Map K Nat) (i : Nat) : List K → Option (Map K Nat)
  | [] => some m
  | k :: w => (mk hash junk m k).bind fun r => indexFill hash junk (if r.2.2 then r.1 else r.1.setVal r.2.1 i) (i+1) w

/-- A loop collecting results in order. -/
def mapO (f : α → Option β) : List α → Option (List β)
  | [] => some []
  | x :: xs => (f x).bind fun y => (mapO f xs).map (y :: ·)

/-- search.c 348-357: `w⊐x` on arbitrary elements -/
def indexOf (hash : K → Nat) (junk : K × Nat) (w x : List K) : Option (List Nat) :=
  (indexFill hash junk (m junk 64) 0 w).bind fun mp => mapO (fun k => getD hash mp k w.length) x

/-- search.c 456: all of `x` is entered in a set. -/
def setFill (hash : K → Nat) (junk : K × Unit) (m : Map K Unit) : List K → Option (Map K Unit)
  | [] => some m
  | k :: x => (mk hash junk m k).bind fun r => setFill hash junk r.1 x

/-- search.c 453-458: `w∊x` on arbitrary elements -/
def memberOf (hash : K → Nat) (junk : K × Unit) (w x : List K) : Option (List Bool) :=
  (setFill hash junk (m junk 64) x).bind fun s => mapO (fun k => has hash s k) w

/-- search.c 525-529 (with `wnext[wia] = wia` of 486, the initial `wnext` being `[wia]`): from the last element of `w` to the first; `wnext` is built from the end, so `i` is `wia` minus
the length of what is already there. Takes the reversed list. -/
def countFill (hash : K → Nat) (junk : K × Nat) (wia : Nat) (m : Map K Nat) (wnext : List Nat) : List K → Option (Map K Nat × List Nat)
  | [] => some (m, wnext)
  | k :: w =>
    let i := wia - wnext.length
    (mk hash junk m k).bind fun r =>
      countFill hash junk wia (r.1.setVal r.2.1 i) ((if r.2.2 then (r.1.a r.2.1).val else wia) :: wnext) w

/-- search.c 530-535: the lookups of `w⊒x`; reading outside `wnext` is `none`. -/
def countGet (hash : K → Nat) (wia : Nat) (wnext : List Nat) (m : Map K Nat) : List K → Option (List Nat)
  | [] => some []
  | k :: x => (find m k (hash k)).bind fun r =>
    let j := if r.2 then (m.a r.1).val else wia
    if r.2 then
      wnext[j]?.bind fun nx => (countGet hash wia wnext (m.setVal r.1 nx) x).map (j :: ·)
    else (countGet hash wia wnext m x).map (j :: ·)

/-- search.c 522-535: `w⊒x` on arbitrary elements -/
def progIndexOf (hash : K → Nat) (junk : K × Nat) (w x : List K) : Option (List Nat) :=
  (countFill hash junk w.length (m junk 64) [w.length] w.reverse).bind fun r => countGet hash w.length r.2 r.1 x

/-- selfsearch.c 271: the loop of `∊x`; the set already holds the first element. -/
def markLoop (hash : K → Nat) (junk : K × Unit) (m : Map K Unit) : List K → Option (List Bool)
  | [] => some []
  | k :: x => (ins hash junk m k ()).bind fun r => (markLoop hash junk r.1 x).map ((!r.2) :: ·)

/-- selfsearch.c 257-276: `∊x` on arbitrary elements: a run of elements equal to the first is skipped. -/
def markFirsts (hash : K → Nat) (junk : K × Unit) (x : List K) : Option (List Bool) :=
  match x with
  | [] => some []
  | x0 :: _ =>
    let run := (x.takeWhile (· = x0)).length
    (if run = x.length then some []
     else (ins hash junk (m junk 64) x0 ()).bind fun r => markLoop hash junk r.1 (x.drop run)).map fun t =>
      true :: (List.replicate (run - 1) false ++ t)

/-- selfsearch.c 387-393: `⊒x` on arbitrary elements -/
def occLoop (hash : K → Nat) (junk : K × Nat) (m : Map K Nat) : List K → Option (List Nat)
  | [] => some []
  | k :: x => (mk hash junk m k).bind fun r =>
    let v := if r.2.2 then (r.1.a r.2.1).val + 1 else 0
    (occLoop hash junk (r.1.setVal r.2.1 v) x).map (v :: ·)

def occurrence (hash : K → Nat) (junk : K × Nat) (x : List K) : Option (List Nat) := occLoop hash junk (m junk 64) x

/-- selfsearch.c 505-514: `⊐x` on arbitrary elements -/
def classLoop (hash : K → Nat) (junk : K × Nat) (m : Map K Nat) (ctr : Nat) : List K → Option (List Nat)
  | [] => some []
  | k :: x => (mk hash junk m k).bind fun r =>
    if r.2.2 then (classLoop hash junk r.1 ctr x).map ((r.1.a r.2.1).val :: ·)
    else (classLoop hash junk (r.1.setVal r.2.1 ctr) (ctr+1) x).map (ctr :: ·)

def classify (hash : K → Nat) (junk : K × Nat) (x : List K) : Option (List Nat) := classLoop hash junk (m junk 64) 0 x

end Verif.HTab
