import Verif.Pick.Model
import Verif.Rotate.Basic
/-!
# Pick: proofs
-/
namespace Verif.Pick
open Verif.Cells (Arr Val)
open Verif.Rotate
variable {E : Type}

theorem wrap_some {i : Int} (h1 : -2^63 ≤ i) (h2 : i < 2^63) {n k : Nat} (hn : n < 2^32) (hk : k < n) (h : (k : Int) = i ∨ (k : Int) = i + n) : wrap i n = some k := by
  unfold wrap
  dsimp only
  rcases h with h | h
  · have : (i % 2^64).toNat = k := by omega
    rw [this, if_neg (by omega), Nat.mod_eq_of_lt (by omega)]
  · by_cases hi : 0 ≤ i
    · exfalso; omega
    · have e : (i % 2^64).toNat = 2^64 - (-i).toNat := by omega
      have e2 : (2^64 - (-i).toNat + n) % 2^64 = k := by
        have : 2^64 - (-i).toNat + n = 2^64 + k := by omega
        rw [this]; omega
      rw [e, if_pos (by omega), e2, if_neg (by omega), Nat.mod_eq_of_lt (by omega)]

theorem wrap_none {i : Int} (h1 : -2^63 ≤ i) (h2 : i < 2^63) {n : Nat} (hn : n < 2^32) (h : ¬ ∃ k : Nat, k < n ∧ ((k : Int) = i ∨ (k : Int) = i + n)) : wrap i n = none := by
  unfold wrap
  dsimp only
  by_cases hi : 0 ≤ i
  · have hge : (n : Int) ≤ i := Int.not_lt.1 fun hlt => h ⟨i.toNat, by omega, .inl (by omega)⟩
    have e : (i % 2^64).toNat = i.toNat := by omega
    rw [e, if_pos (by omega), Nat.mod_eq_of_lt (by omega), if_pos (by omega)]
  · have hlt : i + n < 0 := Int.not_le.1 fun hle => h ⟨(i + n).toNat, by omega, .inr (by omega)⟩
    have e : (i % 2^64).toNat = 2^64 - (-i).toNat := by omega
    rw [e, if_pos (by omega), Nat.mod_eq_of_lt (by omega), if_pos (by omega)]

theorem Position.inShape {sh : List Nat} {is : List Int} {ks : List Nat} (h : Position sh is ks) : InShape sh ks := by
  induction h with
  | nil => exact .nil
  | cons hk _ _ ih => exact .cons hk ih

theorem Position.length {sh : List Nat} {is : List Int} {ks : List Nat} (h : Position sh is ks) : is.length = sh.length := by
  induction h with
  | nil => rfl
  | cons _ _ _ ih => rw [List.length_cons, List.length_cons, ih]

/-- The position of an index. The number of elements before the axes `sh` matters only modulo 2^32. -/
theorem pickIdx_ok {sh : List Nat} {is : List Int} {ks : List Nat} (h : Position sh is ks) (hn : ∀ n ∈ sh, n < 2^32) (hi : ∀ i ∈ is, -2^63 ≤ i ∧ i < 2^63) :
    ∀ c, pickIdx (is.map some) sh (c % 2^32) = .ok ((c * prod sh + ravel sh ks) % 2^32) := by
  induction h with
  | nil =>
    intro c
    show Out.ok (c % 2^32) = .ok ((c * 1 + 0) % 2^32)
    rw [Nat.mul_one, Nat.add_zero]
  | @cons n k i sh is ks hk h _ ih =>
    intro c
    have hi0 := hi i (List.mem_cons_self ..)
    show (match wrap i n with | none => Out.err | some k => pickIdx (is.map some) sh ((c % 2^32 * n + k) % 2^32)) = _
    rw [wrap_some hi0.1 hi0.2 (hn n (List.mem_cons_self ..)) hk h]
    dsimp only
    rw [show (c % 2^32 * n + k) % 2^32 = (c * n + k) % 2^32 by rw [Nat.add_mod, Nat.mod_mul_mod, ← Nat.add_mod], ih (fun n hn' => hn n (List.mem_cons_of_mem _ hn')) (fun i hi' => hi i (List.mem_cons_of_mem _ hi'))]
    congr 2
    show _ = c * (n * prod sh) + (k * prod sh + ravel sh ks)
    rw [Nat.add_mul, Nat.mul_assoc, Nat.add_assoc]

theorem pickIdx_err : ∀ {sh : List Nat} {ns : List (Option Int)}, ns.length = sh.length → (∀ n ∈ sh, n < 2^32) → (∀ i, some i ∈ ns → -2^63 ≤ i ∧ i < 2^63) →
    (¬ ∃ is ks, ns = is.map some ∧ Position sh is ks) → ∀ c, pickIdx ns sh c = .err := by
  intro sh
  induction sh with
  | nil =>
    intro ns hl _ _ h
    cases ns with
    | nil => exact absurd ⟨[], [], rfl, .nil⟩ h
    | cons _ _ => cases hl
  | cons n sh ih =>
    intro ns hl hn hi h c
    cases ns with
    | nil => cases hl
    | cons i ns =>
      cases i with
      | none => rfl
      | some i =>
        have hi0 := hi i (List.mem_cons_self ..)
        have hn0 := hn n (List.mem_cons_self ..)
        show (match wrap i n with | none => Out.err | some k => pickIdx ns sh ((c * n + k) % 2^32)) = _
        by_cases hk : ∃ k : Nat, k < n ∧ ((k : Int) = i ∨ (k : Int) = i + n)
        · obtain ⟨k, hk, hk'⟩ := hk
          rw [wrap_some hi0.1 hi0.2 hn0 hk hk']
          refine ih (Nat.succ.inj hl) (fun n hn' => hn n (List.mem_cons_of_mem _ hn')) (fun i hi' => hi i (List.mem_cons_of_mem _ hi')) ?_ _
          rintro ⟨is, ks, rfl, hp⟩
          exact h ⟨i :: is, k :: ks, rfl, .cons hk hk' hp⟩
        · rw [wrap_none hi0.1 hi0.2 hn0 hk]

theorem pickList_ok {x : Arr E} (hx : ArrOk x) {n : Nat} {is : List Int} {ks : List Nat} {e : E} (hi : ∀ i ∈ is, -2^63 ≤ i ∧ i < 2^63) (hp : Position x.sh is ks)
    (he : x.els[ravel x.sh ks]? = some e) : pickList x [n] (is.map some) = .ok (.val e) := by
  unfold pickList
  rw [if_neg (by simp), if_neg (by rw [List.length_map, hp.length]; exact fun h => h rfl)]
  have h := pickIdx_ok hp hx.axes hi 0
  have hlt := ravel_lt hp.inShape
  have := hx.small
  rw [Nat.zero_mul, Nat.zero_add, Nat.zero_mod, Nat.mod_eq_of_lt (by omega : ravel x.sh ks < 2^32)] at h
  rw [h]
  dsimp only [Out.bind]
  rw [he]; rfl

theorem pickList_err {x : Arr E} (hx : ArrOk x) {sh : List Nat} {ns : List (Option Int)} (hi : ∀ i, some i ∈ ns → -2^63 ≤ i ∧ i < 2^63)
    (h : ¬ ∃ is ks, sh.length = 1 ∧ ns = is.map some ∧ Position x.sh is ks) : pickList x sh ns = .err := by
  unfold pickList
  by_cases h1 : sh.length = 1
  · rw [if_neg (fun h => h h1)]
    by_cases h2 : ns.length = x.sh.length
    · rw [if_neg (fun h => h h2), pickIdx_err h2 hx.axes hi (by rintro ⟨is, ks, h3, h4⟩; exact h ⟨is, ks, h1, h3, h4⟩)]
      rfl
    · rw [if_pos h2]
  · rw [if_pos h1]

/-- What is at a position is an element. -/
theorem at_position {x : Arr E} (hx : ArrOk x) {is : List Int} {ks : List Nat} (hp : Position x.sh is ks) : ∃ e, x.els[ravel x.sh ks]? = some e := by
  have := ravel_lt hp.inShape
  rw [← hx.full] at this
  exact ⟨_, List.getElem?_eq_getElem this⟩

theorem map_asInt {gs : List Ix} {is : List Int} (h : gs.map asInt = is.map some) : gs = is.map fun i => Ix.num (some i) := by
  induction gs generalizing is with
  | nil =>
    cases is with
    | nil => rfl
    | cons _ _ => cases h
  | cons g gs ih =>
    cases is with
    | nil => cases h
    | cons i is =>
      rw [List.map_cons, List.map_cons] at h
      obtain ⟨h1, h2⟩ := List.cons.inj h
      rw [List.map_cons, ← ih h2]
      congr 1
      cases g <;> simp [asInt] at h1
      rw [h1]

theorem okL_mem {gs : List Ix} (h : OkL gs) : ∀ g ∈ gs, g.Ok := by
  induction gs with
  | nil => intro g hg; cases hg
  | cons a gs ih =>
    have h : a.Ok ∧ OkL gs := h
    intro g hg
    rcases List.mem_cons.1 hg with rfl | hg
    · exact h.1
    · exact ih h.2 g hg

theorem asInt_ok {gs : List Ix} (h : OkL gs) : ∀ i, some i ∈ gs.map asInt → -2^63 ≤ i ∧ i < 2^63 := by
  intro i hi
  obtain ⟨g, hg, he⟩ := List.mem_map.1 hi
  have hg := okL_mem h g hg
  cases g with
  | num n => exact hg i he
  | other => cases he
  | ints _ _ => cases he
  | floats _ _ => cases he
  | boxed _ _ => cases he

theorem list_dim {sh : List Nat} (h : sh.length = 1) : ∃ n, sh = [n] := List.length_eq_one_iff.1 h

theorem num_isIndex {n : Option Int} {is : List Int} (h : IsIndex (.num n) is) : ∃ i, n = some i ∧ is = [i] := by
  cases h; exact ⟨_, rfl, rfl⟩

/-- The elements of an array with numbers. -/
theorem pickList_spec {x : Arr E} (hx : ArrOk x) {w : Ix} {sh : List Nat} {ns : List (Option Int)} (hi : ∀ i, some i ∈ ns → -2^63 ≤ i ∧ i < 2^63)
    (hw : ∀ is, IsIndex w is ↔ ∃ n, sh = [n] ∧ ns = is.map some) (hb : ∀ r, Picks x w r → ∃ is ks e, IsIndex w is ∧ Position x.sh is ks ∧ x.els[ravel x.sh ks]? = some e ∧ r = .val e) :
    (∀ r, Picks x w r → pickList x sh ns = .ok r) ∧ ((¬ ∃ r, Picks x w r) → pickList x sh ns = .err) := by
  constructor
  · intro r hr
    obtain ⟨is, ks, e, h1, h2, h3, rfl⟩ := hb r hr
    obtain ⟨n, rfl, rfl⟩ := (hw is).1 h1
    refine pickList_ok hx (fun i hi' => hi i (List.mem_map.2 ⟨i, hi', rfl⟩)) h2 h3
  · intro hn
    refine pickList_err hx hi ?_
    rintro ⟨is, ks, h1, h2, h3⟩
    obtain ⟨n, rfl⟩ := list_dim h1
    obtain ⟨e, he⟩ := at_position hx h3
    exact hn ⟨_, .one ((hw is).2 ⟨n, rfl, h2⟩) h3 he⟩

theorem picks_one {x : Arr E} {w : Ix} (hb : ∀ sh gs, w = .boxed sh gs → gs.head?.map Ix.isNum = some true ∨ gs = []) {r : R E} (h : Picks x w r) :
    ∃ is ks e, IsIndex w is ∧ Position x.sh is ks ∧ x.els[ravel x.sh ks]? = some e ∧ r = .val e := by
  cases h with
  | one h1 h2 h3 => exact ⟨_, _, _, h1, h2, h3, rfl⟩
  | @each sh gs rs h0 _ ha _ =>
    exfalso
    rcases hb sh gs rfl with h | h
    · cases gs with
      | nil => exact h0 rfl
      | cons g gs =>
        have := ha 0 g rfl
        cases g <;> simp [Ix.isArr, Ix.isNum] at this h
    · exact h0 h

mutual
/-- `recPick` picks what's there, and gives an error otherwise. -/
theorem recPick_spec {x : Arr E} (hx : ArrOk x) : ∀ (w : Ix), w.isArr = true → w.Ok → w.Plain → (∀ r, Picks x w r → recPick x w = .ok r) ∧ ((¬ ∃ r, Picks x w r) → recPick x w = .err)
  | .num _, h, _, _ => by cases h
  | .other, h, _, _ => by cases h
  | .ints sh ns, _, ho, _ => by
    have ho : ns.length = prod sh ∧ ∀ i ∈ ns, -2^63 ≤ i ∧ i < 2^63 := by rw [Ix.Ok] at ho; exact ho
    rw [recPick]
    refine pickList_spec hx (w := .ints sh ns) ?_ ?_ (fun r hr => picks_one (fun _ _ h => by cases h) hr)
    · intro i hi
      obtain ⟨j, hj, he⟩ := List.mem_map.1 hi
      cases he
      exact ho.2 _ hj
    · intro is
      constructor
      · rintro ⟨⟩
        exact ⟨_, rfl, rfl⟩
      · rintro ⟨n, rfl, h⟩
        have : ns = is := (List.map_inj_right (fun a b h => Option.some.inj h)).1 h
        subst this
        exact .ints n ns
  | .floats sh ns, _, ho, _ => by
    have ho : ns.length = prod sh ∧ ∀ i, some i ∈ ns → -2^63 ≤ i ∧ i < 2^63 := by rw [Ix.Ok] at ho; exact ho
    rw [recPick]
    refine pickList_spec hx (w := .floats sh ns) ho.2 ?_ (fun r hr => picks_one (fun _ _ h => by cases h) hr)
    intro is
    constructor
    · intro h
      cases h
      exact ⟨_, rfl, rfl⟩
    · rintro ⟨n, rfl, rfl⟩
      exact .floats n is
  | .boxed sh gs, _, ho, hp => by
    have ho : gs.length = prod sh ∧ OkL gs := by rw [Ix.Ok] at ho; exact ho
    have hp : (gs = [] → sh.length = 1) ∧ PlainL gs := by rw [Ix.Plain] at hp; exact hp
    rw [recPick]
    by_cases h0 : gs = []
    · subst h0
      obtain ⟨n, rfl⟩ := list_dim (hp.1 rfl)
      have key := pickList_spec hx (w := .boxed [n] []) (sh := [n]) (ns := []) (fun i h => by cases h) (by
        intro is
        constructor
        · intro h
          generalize hg : ([] : List Ix) = g at h
          cases h
          cases is with
          | nil => exact ⟨n, rfl, rfl⟩
          | cons _ _ => cases hg
        · rintro ⟨_, _, h⟩
          cases is with
          | nil => exact .boxed n []
          | cons _ _ => cases h) (fun r hr => picks_one (fun _ _ h => .inr (by cases h; rfl)) hr)
      rw [if_pos (show ([] : List Ix).length = 0 from rfl)]
      have e : (if x.sh.length ≠ 0 then Out.err else (need x.els[0]?).bind fun e => .ok (.val e)) = pickList x [n] [] := by
        have e1 : pickList x [n] [] = if ([] : List (Option Int)).length ≠ x.sh.length then .err else (pickIdx [] x.sh 0).bind fun c => (need x.els[c]?).bind fun e => .ok (.val e) := rfl
        rw [e1]
        by_cases hs : x.sh = []
        · rw [hs]; rfl
        · have : x.sh.length ≠ 0 := fun h => hs (List.eq_nil_of_length_eq_zero h)
          rw [if_pos this, if_pos (show ([] : List (Option Int)).length ≠ x.sh.length from Ne.symm this)]
      rw [e]
      exact key
    · rw [if_neg (fun h => h0 (List.eq_nil_of_length_eq_zero h))]
      by_cases hh : gs.head?.map Ix.isNum = some true
      · rw [if_pos hh]
        refine pickList_spec hx (w := .boxed sh gs) (asInt_ok ho.2) ?_ (fun r hr => picks_one (fun _ _ h => by cases h; exact .inl hh) hr)
        intro is
        constructor
        · intro h
          cases h
          refine ⟨_, rfl, ?_⟩
          rw [List.map_map]; rfl
        · rintro ⟨n, rfl, h⟩
          rw [map_asInt h]
          exact .boxed n is
      · rw [if_neg hh]
        have key := recPickL_spec hx gs ho.2 hp.2
        have inv : ∀ r, Picks x (.boxed sh gs) r → ∃ rs, r = .arr sh rs ∧ gs.length = rs.length ∧ (∀ (i : Nat) (g : Ix), gs[i]? = some g → g.isArr = true) ∧ ∀ (i : Nat) (g : Ix) (r : R E), gs[i]? = some g → rs[i]? = some r → Picks x g r := by
          intro r hr
          cases hr with
          | @one _ is _ _ h1 _ _ =>
            exfalso
            cases h1 with
            | boxed n =>
              cases is with
              | nil => exact h0 rfl
              | cons _ _ => exact hh rfl
          | each _ h1 h2 h3 => exact ⟨_, rfl, h1, h2, h3⟩
        constructor
        · intro r hr
          obtain ⟨rs, rfl, h1, h2, h3⟩ := inv r hr
          rw [key.1 rs h1 h2 h3]; rfl
        · intro hn
          rw [key.2]
          · rfl
          · rintro ⟨rs, h1, h2, h3⟩
            exact hn ⟨_, .each h0 h1 h2 h3⟩
theorem recPickL_spec {x : Arr E} (hx : ArrOk x) : ∀ (gs : List Ix), OkL gs → PlainL gs →
    (∀ rs, gs.length = rs.length → (∀ (i : Nat) (g : Ix), gs[i]? = some g → g.isArr = true) → (∀ (i : Nat) (g : Ix) (r : R E), gs[i]? = some g → rs[i]? = some r → Picks x g r) → recPickL x gs = .ok rs) ∧
    ((¬ ∃ rs : List (R E), gs.length = rs.length ∧ (∀ (i : Nat) (g : Ix), gs[i]? = some g → g.isArr = true) ∧ (∀ (i : Nat) (g : Ix) (r : R E), gs[i]? = some g → rs[i]? = some r → Picks x g r)) → recPickL x gs = .err)
  | [], _, _ => by
    constructor
    · intro rs h _ _
      cases rs with
      | nil => rw [recPickL]
      | cons _ _ => cases h
    · intro h
      exact absurd ⟨[], rfl, (fun i g h => by cases h), fun i g r h => by cases h⟩ h
  | g :: gs, ho, hp => by
    have ho : g.Ok ∧ OkL gs := by rw [OkL] at ho; exact ho
    have hp : g.Plain ∧ PlainL gs := by rw [PlainL] at hp; exact hp
    have hL := recPickL_spec hx gs ho.2 hp.2
    rw [recPickL]
    constructor
    · intro rs hl ha hr
      cases rs with
      | nil => cases hl
      | cons r rs =>
        have h0 := ha 0 g rfl
        rw [if_neg (by rw [h0]; simp), (recPick_spec hx g h0 ho.1 hp.1).1 r (hr 0 g r rfl rfl)]
        dsimp only [Out.bind]
        rw [hL.1 rs (Nat.succ.inj hl) (fun i g h => ha (i + 1) g h) (fun i g r h h' => hr (i + 1) g r h h')]
    · intro hn
      by_cases h0 : g.isArr = true
      · rw [if_neg (by rw [h0]; simp)]
        by_cases h1 : ∃ r, Picks x g r
        · obtain ⟨r, h1⟩ := h1
          rw [(recPick_spec hx g h0 ho.1 hp.1).1 r h1]
          dsimp only [Out.bind]
          rw [hL.2]
          rintro ⟨rs, h2, h3, h4⟩
          refine hn ⟨r :: rs, by rw [List.length_cons, List.length_cons, h2], ?_, ?_⟩
          · intro i g' h
            cases i with
            | zero => cases h; exact h0
            | succ i => exact h3 i g' h
          · intro i g' r' h h'
            cases i with
            | zero => cases h; cases h'; exact h1
            | succ i => exact h4 i g' r' h h'
        · rw [(recPick_spec hx g h0 ho.1 hp.1).2 h1]; rfl
      · rw [if_pos (by simpa using h0)]
end

theorem pickArr_spec {x : Arr E} (hx : ArrOk x) (w : Ix) (ho : w.Ok) (hp : w.Plain) : (∀ r, Picks x w r → pickArr w x = .ok r) ∧ ((¬ ∃ r, Picks x w r) → pickArr w x = .err) := by
  cases w with
  | num n =>
    have ho : ∀ i, n = some i → -2^63 ≤ i ∧ i < 2^63 := by rw [Ix.Ok] at ho; exact ho
    unfold pickArr
    dsimp only
    constructor
    · intro r hr
      cases hr with
      | one h1 h2 h3 =>
        obtain ⟨i, rfl, rfl⟩ := num_isIndex h1
        generalize hs : x.sh = sh at h2 h3
        cases h2 with
        | @cons n k _ sh' _ ks' hk hk' h =>
          cases h
          have hl : x.els.length = n := by rw [hx.full, hs]; exact Nat.mul_one n
          rw [if_neg (by simp)]
          dsimp only
          rw [hl, wrap_some (ho i rfl).1 (ho i rfl).2 (hx.axes n (by rw [hs]; exact List.mem_cons_self ..)) hk hk']
          dsimp only
          have h3 : x.els[k * 1 + 0]? = some _ := h3
          rw [Nat.mul_one] at h3
          rw [show x.els[k]? = _ from h3]; rfl
    · intro hn
      by_cases hl : x.sh.length = 1
      · rw [if_neg (fun h => h hl)]
        obtain ⟨len, hs⟩ := list_dim hl
        have hl : x.els.length = len := by rw [hx.full, hs]; exact Nat.mul_one len
        cases n with
        | none => rfl
        | some i =>
          dsimp only
          rw [wrap_none (ho i rfl).1 (ho i rfl).2 (by rw [hl]; exact hx.axes _ (by rw [hs]; exact List.mem_cons_self ..))]
          rintro ⟨k, hk, hk'⟩
          rw [hl] at hk hk'
          have hp : Position x.sh [i] [k] := by rw [hs]; exact .cons hk hk' .nil
          obtain ⟨e, he⟩ := at_position hx hp
          exact hn ⟨_, .one (.num i) hp he⟩
      · rw [if_pos hl]
  | other =>
    refine ⟨fun r hr => ?_, fun _ => rfl⟩
    cases hr with
    | one h _ _ => cases h
  | ints sh ns => exact recPick_spec hx _ rfl ho hp
  | floats sh ns => exact recPick_spec hx _ rfl ho hp
  | boxed sh gs => exact recPick_spec hx _ rfl ho hp

theorem asArr_ok {x : Val E} (h : ∀ a, x = .arr a → ArrOk a) : ArrOk (asArr x) := by
  cases x with
  | atom e => exact ⟨rfl, by show 1 < _; decide, fun n h => by cases h⟩
  | arr a => exact h a rfl

/-- Empty lists pick from an atom what they do from a unit. -/
theorem empty_unit {w : Ix} (e : E) (h : w.isEmptyList = true) : pickArr w ⟨[], [e]⟩ = .ok (.val e) := by
  cases w with
  | num _ => cases h
  | other => cases h
  | ints sh ns =>
    simp [Ix.isEmptyList] at h
    show recPick _ _ = _
    rw [recPick, h.2]; unfold pickList
    rw [if_neg (by simp [h.1])]; rfl
  | floats sh ns =>
    simp [Ix.isEmptyList] at h
    show recPick _ _ = _
    rw [recPick, h.2]; unfold pickList
    rw [if_neg (by simp [h.1])]; rfl
  | boxed sh gs =>
    simp [Ix.isEmptyList] at h
    show recPick _ _ = _
    rw [recPick, h.2]; rfl

theorem pick2_eq (w : Ix) (x : Val E) : pick2 w x = pickArr w (asArr x) := by
  cases x with
  | atom e =>
    show (if _ then _ else _) = _
    by_cases h : w.isEmptyList = true
    · rw [if_pos h]; exact (empty_unit e h).symm
    · rw [if_neg h]; rfl
  | arr a => rfl

end Verif.Pick
