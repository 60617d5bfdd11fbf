import Verif.UnderSlash.Objects
/-!
# C77: Under Replicate replaces what Replicate takes and keeps the rest

`𝔽⌾(𝕨⊸/)𝕩` for lists `𝕨` and `𝕩` of the same length. `GLawful K ok` says that `K` is a kind of arrays in memory, `ok n m` that `m` is one of `n` elements; numbers and characters (`elems`) and booleans
(`bools`) are such. `compat` is the test for matching elements.
-/
namespace Verif.UnderSlash
open Verif.Bits Verif.Fold Verif.Slash Verif.Rep Verif.Under Verif.Rotate
open Verif.Group (GKind GLawful elems bools elems_lawful bools_lawful)

/-- `d` are the bits of `𝕨≠0`; bits after the last one may be anything. -/
def Mask (d : List Word) (ns : List Nat) : Prop := ∀ i c, ns[i]? = some c → getBit d i = some (decide (c ≠ 0))

theorem naturals_length : ∀ {ws : List (Option Int)} {ns : List Nat}, naturals ws = some ns → ns.length = ws.length
  | [], ns, h => by cases h; rfl
  | none :: _, ns, h => by cases h
  | some z :: ws, ns, h => by
    rw [naturals] at h
    by_cases hz : z < 0
    · rw [if_pos hz] at h; cases h
    · rw [if_neg hz] at h
      obtain ⟨ms, h1, h2⟩ := Option.map_eq_some_iff.1 h
      rw [← h2, List.length_cons, List.length_cons, naturals_length h1]

theorem lift_equiv {α} {compat : α → α → Bool} (hc : Equiv compat) : Equiv (lift compat) := hc.lift

/-- If the counts are natural numbers and `𝔽` turns `𝕨/𝕩` into a list `rep` of the same length: the result is `𝕩` with the new elements when those that go to the same place match, and otherwise an error. -/
theorem under_slash {M α} (K : GKind M α) (ok : Nat → M → Prop) (hK : GLawful K ok) (compat : α → α → Bool) (hc : Equiv compat) (toArr : List α → M)
    (hto : ∀ l, ok l.length (toArr l) ∧ ∀ k, k < l.length → K.get (toArr l) k = l[k]?) (isBit : Bool) (ws : List (Option Int)) (ns : List Nat) (hns : naturals ws = some ns) (hbit : isBit = true → ∀ c ∈ ns, c ≤ 1)
    (d : List Word) (hd : Mask d ns) (arg : M) (o : M → Nat → Option (Out (M × List Nat))) (rep : M) (ho : o arg ns.sum = some (.ok (rep, [ns.sum]))) (hrep : ok ns.sum rep) (x : M) (hx : ok ws.length x) (reuse : Bool) :
    (Consistent compat ns (K.get rep) → ∃ r, underSlash K compat toArr isBit ws d (some (.ok (arg, ns.sum))) o x reuse = some (.ok r) ∧ ok ws.length r ∧ Replaced compat ns (K.get rep) (K.get x) (K.get r)) ∧
    (¬ Consistent compat ns (K.get rep) → underSlash K compat toArr isBit ws d (some (.ok (arg, ns.sum))) o x reuse = some .err) := by
  have hlen := naturals_length hns
  have hlift := lift_equiv hc
  let b : Nat → Bool := fun i => decide (ns.getD i 0 ≠ 0)
  have hb : ∀ i c, ns[i]? = some c → b i = decide (c ≠ 0) := fun i c h => by
    show decide (ns.getD i 0 ≠ 0) = _
    rw [List.getD_eq_getElem?_getD, h]
    rfl
  have hdb : ∀ i, i < ws.length → getBit d i = some (b i) := fun i hi => by
    have h : ns[i]? = some ns[i] := List.getElem?_eq_getElem (by omega)
    rw [hd i _ h, hb i _ h]
  -- the loop, for new elements of which the one for `i` is at `rk b i`
  have hblend : ∀ (nr : Nat) (rep' : M), ok nr rep' → rk b ws.length ≤ nr →
      ∃ r, (if reuse then blend K d rep' none ws.length 0 0 x else blend K d rep' (some x) ws.length 0 0 (K.new ws.length)) = some r ∧ ok ws.length r ∧
        ∀ j, j < ws.length → K.get r j = if b j then K.get rep' (rk b j) else K.get x j := by
    intro nr rep' h1 h2
    cases reuse with
    | true => exact blend_spec hK hdb h1 hx h2 (.inl rfl) ws.length 0 x (by omega) hx (fun j hj => by omega) (fun _ _ _ _ => rfl)
    | false => exact blend_spec hK hdb h1 hx h2 (.inr rfl) ws.length 0 (K.new ws.length) (by omega) (hK.new _) (fun j hj => by omega) (by simp)
  -- from the values of the result to what is wanted
  have hfin : ∀ r, Consistent compat ns (K.get rep) → (∀ j, j < ws.length → K.get r j = if b j then K.get rep (ns.take j).sum else K.get x j) → Replaced compat ns (K.get rep) (K.get x) (K.get r) := by
    intro r hcon hr
    refine ⟨fun i hi => ?_, fun p i hp => ?_⟩
    · have hlt := (List.getElem?_eq_some_iff.1 hi).1
      rw [hr i (by omega), hb i 0 hi]
      rfl
    · obtain ⟨c, h1, h2, h3⟩ := (indices_get ns p i).1 hp
      have hlt := (List.getElem?_eq_some_iff.1 h1).1
      rw [hr i (by omega), hb i c h1, if_pos (by simp; omega)]
      exact hcon p _ i hp ((indices_get ns _ i).2 ⟨c, h1, Nat.le_refl _, by omega⟩)
  rw [underSlash, hns]
  dsimp only
  rw [Option.bind_some]
  dsimp only
  rw [ho, Option.bind_some]
  dsimp only
  rw [if_neg (by simp)]
  have hget : ∀ p, p < 0 + ns.sum → ∃ v, K.get rep p = some v := fun p hp => hK.get _ _ _ hrep (by omega)
  cases isBit with
  | true =>
    rw [if_pos rfl]
    have h1 := hbit rfl
    have hrk := rk_sum hb h1
    have hcon : Consistent compat ns (K.get rep) := by
      intro p q i hp hq
      obtain ⟨c, e1, e2, e3⟩ := (indices_get ns p i).1 hp
      obtain ⟨c', e1', e2', e3'⟩ := (indices_get ns q i).1 hq
      rw [e1] at e1'
      cases e1'
      have := h1 c (List.mem_of_getElem? e1)
      rw [show p = q by omega]
      exact hlift.refl _
    refine ⟨fun _ => ?_, fun h => (h hcon).elim⟩
    obtain ⟨r, e, ho', hg⟩ := hblend ns.sum rep hrep (by rw [hrk _ (by omega), ← hlen, List.take_length]; exact Nat.le_refl _)
    refine ⟨r, by rw [e]; rfl, ho', hfin r hcon fun j hj => ?_⟩
    rw [hg j hj, hrk j (by omega)]
  | false =>
    rw [if_neg (by simp)]
    obtain ⟨c1, c2⟩ := collapse_spec hc (get := K.get rep) ns 0 hget
    rw [← consistent_iff hlift] at c1 c2
    refine ⟨fun hcon => ?_, fun hcon => by rw [c2 hcon]; rfl⟩
    obtain ⟨rp, e, hl, hk⟩ := c1 hcon
    rw [e, Option.bind_some]
    dsimp only
    obtain ⟨h1, h2⟩ := heads_get (ws := ns) (b := b) 0 ns 0 (by omega) rfl hb rfl
    rw [rk, Nat.add_zero, hlen] at h1
    obtain ⟨t1, t2⟩ := hto rp
    obtain ⟨r, e2, ho', hg⟩ := hblend rp.length (toArr rp) t1 (by omega)
    refine ⟨r, by rw [e2]; rfl, ho', hfin r hcon fun j hj => ?_⟩
    rw [hg j hj]
    by_cases hbj : b j = true
    · rw [if_pos hbj, if_pos hbj]
      have hns' : ns[j]? = some ns[j] := List.getElem?_eq_getElem (by omega)
      have hnz : ns[j] ≠ 0 := by
        rw [hb j _ hns'] at hbj
        simpa using hbj
      have h3 := h2 j _ (Nat.zero_le _) hns' hnz
      rw [rk, Nat.sub_zero] at h3
      have hlt : rk b j < rp.length := by rw [hl]; exact (List.getElem?_eq_some_iff.1 h3).1
      rw [t2 _ hlt]
      exact hk _ _ h3
    · rw [if_neg hbj, if_neg hbj]

/-- With a count that is negative or isn't an integer, or when `𝕨/𝕩` is an error, the result is an error; so it is when `𝔽` gives something other than a list as long as `𝕨/𝕩`. -/
theorem under_slash_refused {M α} (K : GKind M α) (compat : α → α → Bool) (toArr : List α → M) (isBit : Bool) (ws : List (Option Int)) (d : List Word) (slash : Option (Out (M × Nat)))
    (o : M → Nat → Option (Out (M × List Nat))) (x : M) (reuse : Bool)
    (h : naturals ws = none ∨ slash = some .err ∨ ∃ arg n rep sh, slash = some (.ok (arg, n)) ∧ o arg n = some (.ok (rep, sh)) ∧ sh ≠ [n]) :
    underSlash K compat toArr isBit ws d slash o x reuse = some .err := by
  rw [underSlash]
  cases hn : naturals ws with
  | none => rfl
  | some ns =>
    rcases h with h | h | ⟨arg, n, rep, sh, h1, h2, h3⟩
    · rw [hn] at h; cases h
    · rw [h]; rfl
    · rw [h1]
      dsimp only
      rw [Option.bind_some]
      dsimp only
      rw [h2, Option.bind_some]
      dsimp only
      rw [if_pos h3]

/-- For objects, the result has at each place the new element or the old one, and the references are right: for every object the number of references goes up by the times it is in the result, and down by the times it
was in `𝕩` if those references belonged to the result. `rep` has one element for each 1 in `𝕨`. -/
theorem under_slash_objects {α : Type} [DecidableEq α] (ptr own reuse : Bool) (ns : List Nat) (h1 : ∀ c ∈ ns, c ≤ 1) (d : List Word) (hd : Mask d ns) (rep x fresh : List α) (hx : x.length = ns.length)
    (hrep : rep.length = ns.sum) (hf : fresh.length = x.length) :
    ∃ r es, blendObj ptr own reuse d rep x fresh = some (r, es) ∧ r.length = x.length ∧ copies ns r = rep ∧ (∀ i : Nat, ns[i]? = some 0 → r[i]? = x[i]?) ∧
      ∀ a, net a es = (r.count a : Int) - if own then (x.count a : Int) else 0 := by
  let b : Nat → Bool := fun i => decide (ns.getD i 0 ≠ 0)
  have hb : ∀ i c, ns[i]? = some c → b i = decide (c ≠ 0) := fun i c h => by
    show decide (ns.getD i 0 ≠ 0) = _
    rw [List.getD_eq_getElem?_getD, h]
    rfl
  have hdb : ∀ i, i < x.length → getBit d i = some (b i) := fun i hi => by
    have h : ns[i]? = some ns[i] := List.getElem?_eq_getElem (by omega)
    rw [hd i _ h, hb i _ h]
  have hrk := rk_sum hb h1
  have hle : rk b x.length ≤ rep.length := by rw [hx, hrk _ (Nat.le_refl _), List.take_length]; omega
  obtain ⟨r, es, e, hl, hg, hn⟩ := blendObj_spec ptr own reuse hdb hle hf
  refine ⟨r, es, e, hl, ?_, fun i hi => ?_, hn⟩
  · have hcl : (copies ns r).length = ns.sum := copies_length _ _ (by omega)
    apply List.ext_getElem?
    intro p
    by_cases hp : p < ns.sum
    · obtain ⟨i, hi⟩ : ∃ i, (indices ns)[p]? = some i := ⟨_, List.getElem?_eq_getElem (by rw [indices_length]; exact hp)⟩
      have hcp : (copies ns r)[p]? = r[i]? := by
        have hm : copies ns (r.map some) = (indices ns).map fun i => r[i]? := by
          rw [indices_eq, ← copies_map]
          congr 1
          apply List.ext_getElem
          · simp; omega
          · intro k hk1 hk2
            rw [List.getElem_map, List.getElem_map, List.getElem_range, List.getElem?_eq_getElem]
        have h2 := congrArg (fun l => l[p]?) hm
        rw [copies_map, List.getElem?_map, List.getElem?_map, hi, Option.map_some, List.getElem?_eq_getElem (by omega), Option.map_some] at h2
        rw [List.getElem?_eq_getElem (by omega)]
        exact Option.some.inj h2
      obtain ⟨c, e1, e2, e3⟩ := (indices_get ns p i).1 hi
      have hlt := (List.getElem?_eq_some_iff.1 e1).1
      have hc1 := h1 c (List.mem_of_getElem? e1)
      rw [hcp, hg i (by omega), hb i c e1, if_pos (by simp; omega), hrk i (by omega), show (ns.take i).sum = p by omega]
    · rw [List.getElem?_eq_none (by omega), List.getElem?_eq_none (by omega)]
  · have hlt := (List.getElem?_eq_some_iff.1 hi).1
    rw [hg i (by omega), hb i 0 hi]
    rfl

/-- Numbers and characters. -/
theorem under_slash_elements {α} (log : Nat) (notB : Bool) (junk : Nat → α) (compat : α → α → Bool) (hc : Equiv compat) (isBit : Bool) (ws : List (Option Int)) (ns : List Nat) (hns : naturals ws = some ns)
    (hbit : isBit = true → ∀ c ∈ ns, c ≤ 1) (d : List Word) (hd : Mask d ns) (arg : List α) (o : List α → Nat → Option (Out (List α × List Nat))) (rep : List α) (ho : o arg ns.sum = some (.ok (rep, [ns.sum])))
    (hrep : rep.length = ns.sum) (x : List α) (hx : x.length = ws.length) (reuse : Bool) :
    (Consistent compat ns (rep[·]?) → ∃ r, underSlash (elems log notB junk) compat id isBit ws d (some (.ok (arg, ns.sum))) o x reuse = some (.ok r) ∧ r.length = x.length ∧ Replaced compat ns (rep[·]?) (x[·]?) (r[·]?)) ∧
    (¬ Consistent compat ns (rep[·]?) → underSlash (elems log notB junk) compat id isBit ws d (some (.ok (arg, ns.sum))) o x reuse = some .err) := by
  rw [hx]
  exact under_slash (elems log notB junk) _ (elems_lawful log notB junk) compat hc id (fun l => ⟨rfl, fun _ _ => rfl⟩) isBit ws ns hns hbit d hd arg o rep ho hrep x hx reuse

/-- Booleans, when `𝕨` is one too. -/
theorem under_slash_booleans (junk : Nat → Word) (toArr : List Bool → List Word) (hto : ∀ l, (toArr l).length = (l.length + 63) / 64 ∧ ∀ k, k < l.length → getBit (toArr l) k = l[k]?) (isBit : Bool)
    (ws : List (Option Int)) (ns : List Nat) (hns : naturals ws = some ns) (hbit : isBit = true → ∀ c ∈ ns, c ≤ 1) (d : List Word) (hd : Mask d ns) (arg : List Word)
    (o : List Word → Nat → Option (Out (List Word × List Nat))) (rep : List Word) (ho : o arg ns.sum = some (.ok (rep, [ns.sum]))) (hrep : rep.length = (ns.sum + 63) / 64) (x : List Word)
    (hx : x.length = (ws.length + 63) / 64) (reuse : Bool) :
    (Consistent (fun a b : Bool => a == b) ns (getBit rep) →
      ∃ r, underSlash (bools junk) (fun a b => a == b) toArr isBit ws d (some (.ok (arg, ns.sum))) o x reuse = some (.ok r) ∧ r.length = x.length ∧ Replaced (fun a b : Bool => a == b) ns (getBit rep) (getBit x) (getBit r)) ∧
    (¬ Consistent (fun a b : Bool => a == b) ns (getBit rep) → underSlash (bools junk) (fun a b => a == b) toArr isBit ws d (some (.ok (arg, ns.sum))) o x reuse = some .err) := by
  rw [hx]
  exact under_slash (bools junk) _ (bools_lawful junk) _ ⟨fun a => by simp, fun a b => by simp; exact Eq.symm, fun a b c => by simp; exact Eq.trans⟩ toArr hto isBit ws ns hns hbit d hd arg o rep ho hrep x hx reuse

/-- `𝔽⌾(2‿0‿1⊸/)"abc"`, where `𝔽` gives `"xxy"`; and an error when it gives `"abc"`. -/
example : naturals [some 2, some 0, some 1] = some [2, 0, 1] ∧ underSlash (elems 3 true fun _ => '?') (fun a b => a == b) id false [some 2, some 0, some 1] [5#64] (some (.ok (['a', 'a', 'c'], 3)))
    (fun _ _ => some (.ok (['x', 'x', 'y'], [3]))) ['a', 'b', 'c'] false = some (.ok ['x', 'b', 'y']) ∧
    underSlash (elems 3 true fun _ => '?') (fun a b => a == b) id false [some 2, some 0, some 1] [5#64] (some (.ok (['a', 'a', 'c'], 3))) (fun _ _ => some (.ok (['a', 'b', 'c'], [3]))) ['a', 'b', 'c'] true =
      some .err := ⟨rfl, rfl, rfl⟩
example : Mask [5#64] [2, 0, 1] := by
  intro i c h
  match i with
  | 0 | 1 | 2 => cases h; rfl
  | i + 3 => cases h
example : underSlash (bools fun _ => 0#64) (fun a b => a == b) (fun _ => []) true [some 1, some 0, some 1] [5#64] (some (.ok ([3#64], 2))) (fun _ _ => some (.ok ([0#64], [2]))) [7#64] true = some (.ok [2#64]) := by rfl
example : blendObj false true true [5#64] ['x', 'y'] ['a', 'b', 'c'] [] = some (['x', 'b', 'y'], [(false, 'a'), (false, 'c'), (true, 'x'), (true, 'y')]) ∧
    blendObj true false false [5#64] ['x', 'y'] ['a', 'b', 'c'] ['?', '?', '?'] = some (['x', 'b', 'y'], [(true, 'x'), (true, 'b'), (true, 'y')]) := by decide
example : underSlash (elems 3 true fun _ => '?') (fun a b => a == b) id false [some 2, none] [3#64] (some (.ok (['a'], 1))) (fun _ _ => none) ['a', 'b'] false = some .err :=
  under_slash_refused _ _ _ _ _ _ _ _ _ _ (.inl rfl)

end Verif.UnderSlash
