import Verif.HashMap.Spec
/-!
# Model of `•HashMap` (`/repo/src/builtins/search.c` 611-772, `/repo/src/builtins/sysfn.c` 747-760)

Slots are 64-bit words as numbers: the upper half is the upper half of the hash of a key, the lower half its index in the lists
of keys and values; all ones is an empty slot. Keys are identified when the program's `equal` says so (it is assumed to be an
equivalence; the hash function is any that agrees on equal keys). Lists that are also used elsewhere are copied before they are
changed (685-686, 733, 765-766), so the lists are values here. A deleted element (`bi_N`) is `none`. A read or write outside
of the slots, of the lists or of the table of new indices is `none`, as are a loop that does not end and the use of the table
after it was given up. Reference counts are not modelled.
-/
namespace Verif.HashMap
variable {K V : Type} [DecidableEq K]

abbrev W : Nat := 4294967296              -- 2^32
abbrev empty : Nat := 18446744073709551615   -- 621

/-- 612-618 -/
structure Map where
  pop : Nat
  sh : Nat
  sz : Nat
  a : Nat → Nat

structure St (K V : Type) where
  keys : List (Option K)
  vals : List (Option V)
  map : Option Map        -- `none` after 743 if 744 does not return

def upd (a : Nat → Nat) (i v : Nat) : Nat → Nat := fun j => if j = i then v else a j

/-- 619 `hashmap_size` -/
def size (sh : Nat) : Nat := 2^(64 - sh) + 32

/-- 626-631 `hashmap_alloc` -/
def alloc (pop sh : Nat) : Map := ⟨pop, sh, size sh, fun _ => empty⟩

/-- 638-643: the slots from `i` of the old table; `j` is one more than in the program. -/
def place (sh sz : Nat) (old : Nat → Nat) : Nat → Nat → Nat → (Nat → Nat) → Option (Nat → Nat)
  | 0, _, _, a => some a
  | fuel+1, i, j, a =>
    let h := old i
    if h = empty then place sh sz old fuel (i+1) j a
    else
      let jh := h / 2^sh
      let j := if j < jh then jh else j
      if j < sz then place sh sz old fuel (i+1) (j+1) (upd a j h) else none

/-- 633-647 `hashmap_resize`; the first argument is the old `sh`. The error is `some none`. -/
def resize : Nat → Map → Option (Option Map)
  | 0, _ => some none
  | sh+1, old =>
    if sh < 32 then some none
    else (place sh (size sh) old.a old.sz 0 0 (fun _ => empty)).bind fun a =>
      if a (size sh - 1) = empty then some (some ⟨old.pop, sh, size sh, a⟩) else resize sh ⟨old.pop, sh, size sh, a⟩

/-- 697: `while ((u=hp[j]) < v) j++;` -/
def skip (sz : Nat) (a : Nat → Nat) (v : Nat) : Nat → Nat → Option Nat
  | 0, _ => none
  | fuel+1, j => if j < sz then if a j < v then skip sz a v fuel (j+1) else some j else none

/-- 698-702: gives `j`, and `i` if the key was found. -/
def look (sz : Nat) (a : Nat → Nat) (keys : List (Option K)) (x : K) (v : Nat) : Nat → Nat → Option (Nat × Option Nat)
  | 0, _ => none
  | fuel+1, j =>
    if j < sz then
      if a j < v + (W - 1) then
        (keys[a j % W]?).bind fun k =>
          if k = some x then some (j, some (a j % W)) else look sz a keys x v fuel (j+1)
      else some (j, none)
    else none

/-- 691-702 `HASHMAP_FIND` -/
def find (hash : K → Nat) (m : Map) (keys : List (Option K)) (x : K) : Option (Nat × Option Nat) :=
  let v := hash x / W * W
  (skip m.sz m.a v (m.sz + 1) (hash x / 2^m.sh)).bind fun j => look m.sz m.a keys x v (m.sz + 1) j

/-- 706: `while (u!=empty) { u64 s=u; je++; u=hp[je]; hp[je]=s; }` -/
def shift (sz : Nat) : Nat → (Nat → Nat) → Nat → Nat → Option ((Nat → Nat) × Nat)
  | 0, _, _, _ => none
  | fuel+1, a, je, u =>
    if u = empty then some (a, je)
    else if je + 1 < sz then shift sz fuel (upd a (je+1) u) (je+1) (a (je+1)) else none

/-- 704-707 `HASHMAP_INSERT` when the key was not found: the slots after it and `je`. -/
def insertAt (hash : K → Nat) (m : Map) (x : K) (j i : Nat) : Option ((Nat → Nat) × Nat) :=
  (shift m.sz (m.sz + 1) m.a j (m.a j)).map fun s => (upd s.1 j (hash x / W * W + i), s.2)

/-- 715-723: the keys from number `i`; the error is `some none` with which error it is. -/
def buildLoop (hash : K → Nat) (keys : List (Option K)) : List K → Nat → Map → Option (Map ⊕ Out K V)
  | [], _, m => some (.inl m)
  | x :: xs, i, m => (find hash m keys x).bind fun r =>
    match r.2 with
    | some _ => some (.inr .duplicate)
    | none => (insertAt hash m x r.1 i).bind fun s =>
      if s.2 = m.sz - 1 then (resize m.sh { m with a := s.1 }).bind fun
        | none => some (.inr .tooBig)
        | some m => buildLoop hash keys xs (i+1) m
      else buildLoop hash keys xs (i+1) { m with a := s.1 }

/-- 710: `CLZ(n|16)-1` of 64 bits -/
def firstSh (n : Nat) : Nat := 62 - Nat.log2 (n ||| 16)

/-- 709-724 `hashmap_build`, and sysfn.c 776-783 -/
def build (hash : K → Nat) (keys : List K) (vals : List V) : Option (St K V ⊕ Out K V) :=
  (buildLoop hash (keys.map some) keys 0 (alloc keys.length (firstSh keys.length))).map fun
    | .inl m => .inl ⟨keys.map some, vals.map some, some m⟩
    | .inr e => .inr e

/-- 654: `while (l>0 && q_N(keys[l-1])) l--;` -/
def trim (keys : List (Option K)) : Nat → Nat
  | 0 => 0
  | l+1 => if (keys[l]?).join.isNone then trim keys l else l+1

/-- 658-664 -/
def compactLoop : Nat → Nat → Nat → List (Option K) → List (Option V) → (Nat → Option Nat) →
    Option (List (Option K) × List (Option V) × (Nat → Option Nat) × Nat)
  | 0, _, j, keys, vals, ind => some (keys, vals, ind, j)
  | fuel+1, i, j, keys, vals, ind =>
    (keys[i]?).bind fun ki => (vals[i]?).bind fun vi =>
      compactLoop fuel (i+1) (if ki.isSome then j+1 else j) (keys.set j ki) (vals.set j vi) (fun q => if q = i+1 then some j else ind q)

/-- 673-676; `(u32)h + 1` is computed in 32 bits. -/
def renumber (ind : Nat → Option Nat) : Nat → Nat → (Nat → Nat) → Option (Nat → Nat)
  | 0, _, a => some a
  | fuel+1, i, a => (ind ((a i % W + 1) % W)).bind fun q => renumber ind fuel (i+1) (upd a i (a i / W * W + q))

/-- 649-679 `hashmap_compact` -/
def compact (keys : List (Option K)) (vals : List (Option V)) (m : Map) : Option (St K V) :=
  let l := trim keys keys.length
  (compactLoop l 0 0 keys vals (fun q => if q = 0 then some (W - 1) else none)).bind fun r =>
    let j := r.2.2.2
    if j > 0 then (renumber r.2.2.1 m.sz 0 m.a).map fun a => ⟨r.1.take j, r.2.1.take j, some { m with a := a }⟩
    else some ⟨r.1.take j, r.2.1.take j, some m⟩

/-- 680-688 `hashmap_keys_or_vals` -/
def compacted (s : St K V) : Option (St K V) :=
  s.map.bind fun m => if m.pop = s.keys.length then some s else compact s.keys s.vals m

/-- 726-733 `hashmap_lookup`: the value, if found -/
def lookup (hash : K → Nat) (s : St K V) (x : K) : Option (Option V) :=
  s.map.bind fun m => (find hash m s.keys x).bind fun r =>
    match r.2 with
    | some i => (s.vals[i]?).bind fun v => v.map some
    | none => some none

/-- 735-752 `hashmap_set`. That the list of keys is full is checked here, not in the program. -/
def set (hash : K → Nat) (s : St K V) (w : K) (x : V) : Option (St K V × Out K V) :=
  s.map.bind fun m => (find hash m s.keys w).bind fun r =>
    match r.2 with
    | some i => if i < s.vals.length then some ({ s with vals := s.vals.set i (some x) }, .done) else none
    | none =>
      if W - 1 ≤ s.keys.length then some (s, .full)
      else (insertAt hash m w r.1 s.keys.length).bind fun q =>
        let m : Map := { m with a := q.1, pop := m.pop + 1 }
        if m.pop / 2^(64 - 3 - m.sh) > 7 ∨ q.2 = m.sz - 1 then (resize m.sh m).bind fun
          | none => some ({ s with map := none }, .tooBig)
          | some m => some (⟨s.keys ++ [some w], s.vals ++ [some x], some m⟩, .done)
        else some (⟨s.keys ++ [some w], s.vals ++ [some x], some m⟩, .done)

/-- 760-764 -/
def unshift (sh sz : Nat) : Nat → (Nat → Nat) → Nat → Option (Nat → Nat)
  | 0, _, _ => none
  | fuel+1, a, j =>
    if j + 1 < sz then
      let u := if a (j+1) / 2^sh = j+1 then empty else a (j+1)
      let a := upd a j u
      if u = empty then some a else unshift sh sz fuel a (j+1)
    else none

/-- 754-774 `hashmap_delete` -/
def delete (hash : K → Nat) (s : St K V) (x : K) : Option (St K V × Out K V) :=
  s.map.bind fun m => (find hash m s.keys x).bind fun r =>
    match r.2 with
    | none => some (s, .notFound)
    | some i => (unshift m.sh m.sz (m.sz + 1) m.a r.1).bind fun a =>
      if i < s.vals.length then
        let keys := s.keys.set i none
        let vals := s.vals.set i none
        let p := m.pop - 1
        let m : Map := { m with a := a, pop := p }
        if p = 0 ∨ p + 32 < keys.length / 2 then (compact keys vals m).map fun s => (s, .done)
        else some (⟨keys, vals, some m⟩, .done)
      else none

/-- sysfn.c 747-760: the calls -/
def step (hash : K → Nat) (s : St K V) : Op K V → Option (St K V × Out K V)
  | .get k => (lookup hash s k).map fun | some v => (s, .val v) | none => (s, .notFound)
  | .getD d k => (lookup hash s k).map fun v => (s, .val (v.getD d))
  | .has k => (lookup hash s k).map fun v => (s, .bool v.isSome)
  | .set k v => set hash s k v
  | .delete k => delete hash s k
  | .count => s.map.map fun m => (s, .num m.pop)
  | .keys => (compacted s).map fun s => (s, .keyList s.keys)
  | .values => (compacted s).map fun s => (s, .valList s.vals)

/-- A history of calls, up to one that gives an error about the size of the map. -/
def run (hash : K → Nat) : St K V → List (Op K V) → Option (List (Out K V))
  | _, [] => some []
  | s, o :: os => (step hash s o).bind fun r =>
    match r.2 with
    | .tooBig => some [.tooBig]
    | .full => some [.full]
    | out => (run hash r.1 os).map (out :: ·)

/-- A map is made, then used. sysfn.c 776-783 -/
def session (hash : K → Nat) (keys : List K) (vals : List V) (ops : List (Op K V)) : Option (List (Out K V)) :=
  (build hash keys vals).bind fun
    | .inl s => run hash s ops
    | .inr e => some [e]

end Verif.HashMap
