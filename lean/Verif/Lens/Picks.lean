import Verif.Lens.Dyads
import Verif.Pick.Main
import Verif.Under.Props
/-!
# Under: Pick
-/
namespace Verif.Lens
open Verif.Rotate
open Verif.Table (T)
open Verif.Pick (Ix IsIndex Position pickIdx)
variable {A : Type} {m : Type → Type} [Monad m] [LawfulMonad m] {C : Ctx m A}

/-! ## Indices -/

theorem list_index {n : Nat} {w : Ix} (hl : isList n w = true) {is : List Int} (h : nums w = is.map some) : IsIndex w is := by
  cases w with
  | num k => cases hl
  | other => cases hl
  | ints wsh ns =>
    simp [isList] at hl
    obtain ⟨k, rfl⟩ := List.length_eq_one_iff.1 hl.1
    cases map_some_inj h
    exact .ints k _
  | floats wsh ns =>
    simp [isList] at hl
    obtain ⟨k, rfl⟩ := List.length_eq_one_iff.1 hl.1
    have h : ns = is.map some := h
    subst h
    exact .floats k is
  | boxed wsh gs =>
    simp [isList] at hl
    obtain ⟨k, rfl⟩ := List.length_eq_one_iff.1 hl.1.1
    rw [Pick.map_asInt h]
    exact .boxed k is

theorem nums_ok {w : Ix} (h : w.Ok) : ∀ i, some i ∈ nums w → -2^63 ≤ i ∧ i < 2^63 := by
  intro i hi
  cases w with
  | num n =>
    rw [Ix.Ok] at h
    rw [nums, List.mem_singleton] at hi
    exact h i hi.symm
  | other => cases hi
  | ints sh ns =>
    rw [Ix.Ok] at h
    rw [nums] at hi
    exact h.2 i (by simpa using hi)
  | floats sh ns =>
    rw [Ix.Ok] at h
    exact h.2 i hi
  | boxed sh gs =>
    rw [Ix.Ok] at h
    exact Pick.asInt_ok h.2 i hi

theorem list_nums {n : Nat} {w : Ix} (h : isList n w = true) : (nums w).length = n := by
  cases w with
  | num k => cases h
  | other => cases h
  | ints sh ns => simp [isList] at h; simpa [nums] using h.2
  | floats sh ns => simp [isList] at h; simpa [nums] using h.2
  | boxed sh gs => simp [isList] at h; simpa [nums] using h.1.2

theorem oneIndex_list {sh : List Nat} {w : Ix} (h : isList sh.length w = true) : oneIndex w sh = (pickIdx (nums w) sh 0).bind fun c => .ok (some c) := by
  cases w with
  | num k => cases h
  | other => cases h
  | ints wsh ns =>
    simp [isList] at h
    unfold oneIndex
    dsimp only
    rw [if_neg (by omega)]
    rfl
  | floats wsh ns =>
    simp [isList] at h
    unfold oneIndex
    dsimp only
    rw [if_neg (by omega)]
    rfl
  | boxed wsh gs =>
    unfold oneIndex
    dsimp only
    cases gs with
    | nil => simp [isList] at h
    | cons g gs =>
      cases g with
      | num o =>
        simp [isList] at h
        rw [if_neg (by rw [List.length_cons]; omega), if_neg (by simp [Ix.isNum])]
        rfl
      | _ => simp [isList] at h

theorem oneIndex_none {sh wsh : List Nat} {gs : List Ix} (h : isList sh.length (.boxed wsh gs) = false) : oneIndex (.boxed wsh gs) sh = .ok none := by
  unfold oneIndex
  dsimp only
  by_cases h1 : gs.length ≠ sh.length ∨ wsh.length ≠ 1
  · rw [if_pos h1]
  · rw [if_neg h1, if_pos]
    intro h2
    have ha : gs.length = sh.length := Decidable.byContradiction fun h => h1 (.inl h)
    have hb : wsh.length = 1 := Decidable.byContradiction fun h => h1 (.inr h)
    cases gs with
    | nil => cases h2
    | cons g gs =>
      cases g with
      | num o => simp [isList, hb] at h; exact h ha
      | _ => simp [Ix.isNum] at h2

theorem oneIndex_spec {sh : List Nat} (hf : Fits sh) {w : Ix} (h : isList sh.length w = true) (hw : w.Ok) :
    (∀ p, Spot sh w p → oneIndex w sh = .ok (some p)) ∧ ((¬ ∃ p, Spot sh w p) → oneIndex w sh = .err) := by
  rw [oneIndex_list h]
  constructor
  · rintro p ⟨is, ks, h1, h2, rfl⟩
    have hn := index_nums h1
    have hr : ∀ i ∈ is, -2^63 ≤ i ∧ i < 2^63 := fun i hi => nums_ok hw i (by rw [hn]; exact List.mem_map_of_mem hi)
    have := Pick.pickIdx_ok h2 hf.2.1 hr 0
    have hlt := ravel_lt h2.inShape
    have h3 := hf.1
    rw [Nat.zero_mod, Nat.zero_mul, Nat.zero_add, Nat.mod_eq_of_lt (by omega)] at this
    rw [hn, this]
    rfl
  · intro hno
    rw [Pick.pickIdx_err (list_nums h) hf.2.1 (nums_ok hw)]
    · rfl
    · rintro ⟨is, ks, h1, h2⟩
      exact hno ⟨_, is, ks, list_index h h1, h2, rfl⟩

/-- Places of these indices. -/
def Spots (sh : List Nat) (gs : List Ix) (ps : List Nat) : Prop := gs.length = ps.length ∧ ∀ (i : Nat) g p, gs[i]? = some g → ps[i]? = some p → Spot sh g p

theorem spots_cons {sh : List Nat} {g : Ix} {gs : List Ix} {p : Nat} {ps : List Nat} (h : Spot sh g p) (h' : Spots sh gs ps) : Spots sh (g :: gs) (p :: ps) := by
  refine ⟨congrArg (· + 1) h'.1, fun i g' p' hi hp => ?_⟩
  cases i with
  | zero => cases hi; cases hp; exact h
  | succ i => exact h'.2 i g' p' hi hp

theorem indexLoop_spec {sh : List Nat} (hf : Fits sh) : ∀ {gs : List Ix}, (∀ g ∈ gs, isList sh.length g = true ∧ g.Ok) →
    (∀ ps, Spots sh gs ps → indexLoop sh gs = .ok (some ps)) ∧ ((¬ ∃ ps, Spots sh gs ps) → indexLoop sh gs = .err)
  | [], _ => by
    constructor
    · intro ps h
      cases ps with
      | nil => rfl
      | cons p ps => cases h.1
    · intro h
      exact absurd ⟨[], rfl, fun i g p hi => by cases hi⟩ h
  | g :: gs, hg => by
    have hg1 := hg g (List.mem_cons_self ..)
    obtain ⟨ih1, ih2⟩ := indexLoop_spec hf fun g h => hg g (List.mem_cons_of_mem _ h)
    obtain ⟨h1, h2⟩ := oneIndex_spec hf hg1.1 hg1.2
    constructor
    · intro ps h
      cases ps with
      | nil => cases h.1
      | cons p ps =>
        rw [indexLoop, h1 p (h.2 0 g p rfl rfl)]
        show (indexLoop sh gs).bind _ = _
        rw [ih1 ps ⟨by have := h.1; simpa using this, fun i g p hi hp => h.2 (i + 1) g p hi hp⟩]
        rfl
    · intro h
      rw [indexLoop]
      by_cases hs : ∃ p, Spot sh g p
      · obtain ⟨p, hp⟩ := hs
        rw [h1 p hp]
        show (indexLoop sh gs).bind _ = _
        rw [ih2 fun ⟨ps, h'⟩ => h ⟨p :: ps, spots_cons hp h'⟩]
        rfl
      · rw [h2 hs]; rfl

/-! ## Replacing elements -/

theorem lift_iff {α} {eq : α → α → Bool} (h : ∀ a b, eq a b = true ↔ a = b) {a b : Option α} : Under.lift eq a b = true ↔ a = b := by
  cases a with
  | none => cases b with
    | none => simp [Under.lift]
    | some b => simp [Under.lift]
  | some a => cases b with
    | none => simp [Under.lift]
    | some b => simp [Under.lift, h]

theorem positions_nat {n : Nat} : ∀ {ps : List Nat}, (∀ p ∈ ps, p < n) → Select.positions n ((ps.map fun (p : Nat) => (p : Int)).map some) = some ps
  | [], _ => rfl
  | p :: ps, h => by
    have hp := h p (List.mem_cons_self ..)
    show (Select.position n p).bind _ = _
    have : Select.position n (p : Int) = some p := by
      unfold Select.position
      rw [if_pos ⟨by omega, by omega⟩, Int.toNat_natCast]
    rw [this, positions_nat fun p h' => h p (List.mem_cons_of_mem _ h')]
    rfl

theorem select_replace {α} {eq : α → α → Bool} (h : ∀ a b, eq a b = true ↔ a = b) (fIdx : Bool) {ps : List Nat} {xs rs : List α} (hp : ∀ p ∈ ps, p < xs.length) (hl : rs.length = ps.length) (hn : xs.length < 2^32) (junk : Nat → Bool) :
    ((∀ (i k p : Nat), ps[i]? = some p → ps[k]? = some p → rs[i]? = rs[k]?) →
      ∃ r, Under.selectReplace eq fIdx (ps.map fun (p : Nat) => (p : Int)) xs.length (.elems xs rs) junk = some (.ok (.elems r)) ∧ r.length = xs.length ∧ (∀ k, k ∉ ps → r[k]? = xs[k]?) ∧ ∀ (i p : Nat), ps[i]? = some p → r[p]? = rs[i]?) ∧
    ((¬ ∀ (i k p : Nat), ps[i]? = some p → ps[k]? = some p → rs[i]? = rs[k]?) → Under.selectReplace eq fIdx (ps.map fun (p : Nat) => (p : Int)) xs.length (.elems xs rs) junk = some .err) := by
  have hc : Under.Equiv eq := ⟨fun a => (h a a).2 rfl, fun a b e => (h b a).2 ((h a b).1 e).symm, fun a b c e e' => (h a c).2 (((h a b).1 e).trans ((h b c).1 e'))⟩
  have hpos := positions_nat hp
  have := Under.under_select_elements eq hc false fIdx ((ps.map fun (p : Nat) => (p : Int)).map some) xs rs hn (by simpa using hl) (some (.ok .same)) nofun (by rw [hpos]; constructor <;> intro h <;> cases h) junk
  rw [hpos] at this
  have hu : Under.ucw eq false fIdx ((ps.map fun (p : Nat) => (p : Int)).map some) xs.length 1 (some (.ok .same)) (.elems xs rs) junk = Under.selectReplace eq fIdx (ps.map fun (p : Nat) => (p : Int)) xs.length (.elems xs rs) junk := by
    simp only [Under.ucw, Bool.false_eq_true, if_false]
    unfold Under.replaceOr
    rw [if_neg (by decide), List.filterMap_map]
    congr 1
    exact List.filterMap_some
  rw [hu] at this
  obtain ⟨h1, h2⟩ := this
  have hcons : Under.Consistent (Under.lift eq) 1 ps (rs[·]?) ↔ ∀ (i k p : Nat), ps[i]? = some p → ps[k]? = some p → rs[i]? = rs[k]? := by
    constructor
    · intro hc i k p hi hk
      have := (lift_iff h).1 (hc i k p hi hk 0 (by decide))
      simpa using this
    · intro hc i k p hi hk j hj
      obtain rfl : j = 0 := by omega
      refine (lift_iff h).2 ?_
      simpa using hc i k p hi hk
  rw [hcons] at h1 h2
  refine ⟨fun hok => ?_, h1⟩
  obtain ⟨r, e, hr, h3, h4⟩ := h2 hok
  refine ⟨r, e, hr, fun k hk => ?_, fun i p hi => ?_⟩
  · by_cases hkn : k < xs.length
    · exact h3 k (by omega) (by rwa [Nat.div_one])
    · rw [List.getElem?_eq_none (by omega), List.getElem?_eq_none (by omega)]
  · have := (lift_iff h).1 (h4 i p hi 0 (by decide))
    simpa using this

theorem gather_some (xs : List (T A)) : ∀ {ps : List Nat}, (∀ p ∈ ps, p < xs.length) → ∃ vs, gather xs ps = some vs ∧ vs.length = ps.length ∧ ∀ (i p : Nat), ps[i]? = some p → vs[i]? = xs[p]?
  | [], _ => ⟨[], rfl, rfl, fun i p h => by cases h⟩
  | p :: ps, h => by
    obtain ⟨vs, h1, h2, h3⟩ := gather_some xs fun p h' => h p (List.mem_cons_of_mem _ h')
    have hp := h p (List.mem_cons_self ..)
    refine ⟨xs[p] :: vs, ?_, congrArg (· + 1) h2, fun i q hq => ?_⟩
    · rw [gather, List.getElem?_eq_getElem hp, h1]; rfl
    · cases i with
      | zero => cases hq; exact (List.getElem?_eq_getElem hp).symm
      | succ i => exact h3 i q hq

/-- Several elements, perhaps the same one more than once. -/
theorem act_many (hC : C.Lawful) {run : (T A → m (T A)) → m (T A)} {sees kept : T A → T A → Prop} {x : T A} {sh wsh : List Nat} {xs : List (T A)} {ps : List Nat} (hp : ∀ p ∈ ps, p < xs.length) (hx : Ok (.arr sh xs))
    (hf : Fits wsh) (hl : ps.length = prod wsh) (hsees : ∀ v, sees x v ↔ Shows (.arr sh xs) (.many wsh ps) v)
    (hrep : ∀ rep r, (sees r rep ∧ kept x r) ↔ (Shows r (.many wsh ps) rep ∧ Others (.many wsh ps) (.arr sh xs) r))
    (hrun : ∀ F, run F = replaceMany C F wsh ps sh xs) : Act C run sees kept x := by
  obtain ⟨vs, hv, hvl, hvs⟩ := gather_some xs hp
  have hshow : Shows (.arr sh xs) (.many wsh ps) (.arr wsh vs) := ⟨vs, rfl, hvl, fun i p hi => ⟨hp p (List.mem_of_getElem? hi), hvs i p hi⟩⟩
  have hsmall : xs.length < 2^32 := by rw [ok_full hx]; exact (ok_fits hx).1
  have hrs := fun rs (h : rs.length = ps.length) => select_replace hC.eq_iff C.fIdx (ps := ps) (xs := xs) (rs := rs) hp h hsmall C.junk
  generalize hsel : (fun rs => Under.selectReplace C.S.eq C.fIdx (ps.map fun (p : Nat) => (p : Int)) xs.length (.elems xs rs) C.junk) = sel at hrs
  have hsel' : ∀ rs, Under.selectReplace C.S.eq C.fIdx (ps.map fun (p : Nat) => (p : Int)) xs.length (.elems xs rs) C.junk = sel rs := fun rs => by rw [← hsel]
  simp only [hsel'] at hrs
  let g : T A → Option (T A) := fun rep => match rep with
    | .atom _ => none
    | .arr rsh rs => if rsh ≠ wsh then none else match sel rs with
      | some (.ok (.elems r)) => some (.arr sh r)
      | _ => none
  have hiff : ∀ rs r, rs.length = ps.length → ((Shows r (.many wsh ps) (.arr wsh rs) ∧ Others (.many wsh ps) (.arr sh xs) r) ↔ ∃ ys, r = .arr sh ys ∧ sel rs = some (.ok (.elems ys))) := by
    intro rs r hr
    obtain ⟨h1, h2⟩ := hrs rs hr
    constructor
    · rintro ⟨⟨rs', e, hl', hs⟩, ys, rfl, hyl, ho⟩
      cases e
      have hcons : ∀ (i k p : Nat), ps[i]? = some p → ps[k]? = some p → rs[i]? = rs[k]? := fun i k p hi hk => ((hs i p hi).2).trans ((hs k p hk).2).symm
      obtain ⟨zs, e, hzl, hz1, hz2⟩ := h1 hcons
      refine ⟨ys, rfl, ?_⟩
      rw [e]
      congr 3
      apply List.ext_getElem?
      intro k
      by_cases hk : k ∈ ps
      · obtain ⟨i, hi⟩ := List.getElem?_of_mem hk
        rw [hz2 i k hi, (hs i k hi).2]
        rfl
      · rw [hz1 k hk, ho k hk]
        rfl
    · rintro ⟨ys, rfl, e⟩
      have hcons : ∀ (i k p : Nat), ps[i]? = some p → ps[k]? = some p → rs[i]? = rs[k]? := by
        apply Classical.byContradiction
        intro hn
        rw [h2 hn] at e
        cases e
      obtain ⟨zs, e', hzl, hz1, hz2⟩ := h1 hcons
      rw [e'] at e
      cases e
      refine ⟨⟨rs, rfl, hr, fun i p hi => ⟨?_, (hz2 i p hi).symm⟩⟩, ys, rfl, hzl, hz1⟩
      show p < ys.length
      rw [hzl]
      exact hp p (List.mem_of_getElem? hi)
  have hgiff : ∀ rsh rs, Ok (.arr rsh rs) → ∀ r, ((Shows r (.many wsh ps) (.arr rsh rs) ∧ Others (.many wsh ps) (.arr sh xs) r) ↔ g (.arr rsh rs) = some r) := by
    intro rsh rs hok r
    by_cases h : rsh = wsh
    · subst h
      rw [hiff rs r (by rw [ok_full hok, hl])]
      show _ ↔ (if rsh ≠ rsh then none else _) = _
      rw [if_neg (fun h => h rfl)]
      constructor
      · rintro ⟨ys, rfl, e⟩
        rw [e]
      · intro h
        split at h
        · cases h; exact ⟨_, rfl, by assumption⟩
        · cases h
    · constructor
      · rintro ⟨⟨_, e, _⟩, _⟩
        cases e
        exact absurd rfl h
      · intro e
        have e : (if rsh ≠ wsh then none else _) = some r := e
        rw [if_pos h] at e
        cases e
  refine act_some (v0 := .arr wsh vs) (fun v => ?_) (ok_of_fits hf (by omega) fun e he => ?_) (fun rep => match rep with
    | .atom _ => C.fail _
    | .arr rsh rs =>
      if rsh ≠ wsh then C.fail _
      else match sel rs with
        | some (.ok (.elems r)) => pure (.arr sh r)
        | some .err => C.fail _
        | _ => C.ud _) g (fun F => ?_) (fun rep hok => ?_) (fun rep r hok => ?_) fun rep r hok e => ?_
  · rw [hsees]
    exact ⟨fun h => shows_unique h hshow, fun h => by rw [h]; exact hshow⟩
  · obtain ⟨i, hi, rfl⟩ := List.getElem_of_mem he
    have hq : ps[i]? = some ps[i] := List.getElem?_eq_getElem (by omega)
    have := hvs i _ hq
    rw [List.getElem?_eq_getElem hi] at this
    exact ok_els hx _ (List.mem_of_getElem? this.symm)
  · rw [hrun]
    unfold replaceMany
    rw [hv]
    dsimp only
    congr 1
    funext rep
    cases rep with
    | atom a => rfl
    | arr rsh rs =>
      dsimp only
      rw [hsel']
      by_cases h : rsh = wsh
      · rw [if_neg (fun h' => h' h), if_neg (fun h' => h' h)]
        rcases sel rs with _ | ⟨⟨⟩ | _⟩ <;> rfl
      · rw [if_pos h, if_pos h]
  · cases rep with
    | atom a => rfl
    | arr rsh rs =>
      by_cases h : rsh = wsh
      · subst h
        show (if rsh ≠ rsh then _ else _) = orFail C (if rsh ≠ rsh then none else _)
        rw [if_neg (fun h => h rfl), if_neg (fun h => h rfl)]
        obtain ⟨h1, h2⟩ := hrs rs (by rw [ok_full hok, hl])
        by_cases hcons : ∀ (i k p : Nat), ps[i]? = some p → ps[k]? = some p → rs[i]? = rs[k]?
        · obtain ⟨r, e, _⟩ := h1 hcons
          rw [e]
          rfl
        · rw [h2 hcons]
          rfl
      · show (if rsh ≠ wsh then _ else _) = orFail C (if rsh ≠ wsh then none else _)
        rw [if_pos h, if_pos h]
        rfl
  · rw [hrep]
    cases rep with
    | atom a =>
      constructor
      · rintro ⟨⟨_, e, _⟩, _⟩; cases e
      · intro e; cases e
    | arr rsh rs => exact hgiff rsh rs hok r
  · cases rep with
    | atom a => cases e
    | arr rsh rs =>
      obtain ⟨⟨_, e', hrl, hs⟩, ys, rfl, hyl, ho⟩ := (hgiff rsh rs hok r).2 e
      cases e'
      refine ok_same hx hyl fun e he => ?_
      obtain ⟨k, hk, rfl⟩ := List.getElem_of_mem he
      by_cases hkp : k ∈ ps
      · obtain ⟨i, hi⟩ := List.getElem?_of_mem hkp
        have h2 : rs[i]? = ys[k]? := (hs i k hi).2
        rw [List.getElem?_eq_getElem hk] at h2
        exact ok_els hok _ (List.mem_of_getElem? h2)
      · have h2 : ys[k]? = xs[k]? := ho k hkp
        rw [List.getElem?_eq_getElem hk] at h2
        exact ok_els hx _ (List.mem_of_getElem? h2.symm)

/-! ## Pick -/

theorem pick_one (hC : C.Lawful) {w : Ix} {sh : List Nat} {xs : List (T A)} (hx : Ok (.arr sh xs)) (hw : ∀ v, Looks2 sh (.pick w) v → ∃ p, v = .one p ∧ Spot sh w p)
    (h1 : ∀ p, Spot sh w p → ∀ F, pick2 C F w (.arr sh xs) = replaceOne C F p sh xs) (h2 : (¬ ∃ p, Spot sh w p) → ∀ F, pick2 C F w (.arr sh xs) = C.fail _) :
    Act C (fun F => prim2 C F (.pick w) (.arr sh xs)) (Sees2 (.pick w)) (Kept2 (.pick w)) (.arr sh xs) := by
  by_cases h : ∃ p, Spot sh w p
  · obtain ⟨p, hp⟩ := h
    have hlt := spot_lt hp
    exact act_one hC (p := p) (by rw [ok_full hx]; exact hlt) hx (fun v => sees2_look rfl (x := .arr sh xs) (w := .one p) (.one hp)) (fun rep r => replaced2_look rfl (x := .arr sh xs) (w := .one p) (.one hp) rep r) (h1 p hp)
  · refine act_none ?_ (h2 h)
    rintro ⟨v, w', hl, _⟩
    obtain ⟨p, _, hp⟩ := hw w' hl
    exact h ⟨p, hp⟩

theorem spot_num {n : Nat} {w : Ix} (ha : w.isArr = false) {p : Nat} : Spot [n] w p ↔ ∃ i, w = .num (some i) ∧ p < n ∧ ((p : Int) = i ∨ (p : Int) = i + n) := by
  constructor
  · rintro ⟨is, ks, h1, h2, rfl⟩
    cases h1 with
    | num i =>
      cases h2 with
      | @cons _ k _ _ _ _ hk hi h3 =>
        cases h3
        have : ravel [n] [k] = k := by simp [ravel, prod]
        rw [this]
        exact ⟨i, rfl, hk, hi⟩
    | _ => cases ha
  · rintro ⟨i, rfl, hp, hi⟩
    exact ⟨[i], [p], .num i, .cons hp hi .nil, by simp [ravel, prod]⟩

theorem act_pick (hC : C.Lawful) (w : Ix) (x : T A) (hx : Ok x) (hn : Native2 (.pick w) x) : Act C (fun F => prim2 C F (.pick w) x) (Sees2 (.pick w)) (Kept2 (.pick w)) x := by
  obtain ⟨hok, hxa, hn⟩ := hn
  cases x with
  | atom a => cases hxa
  | arr sh xs =>
    have hf := ok_fits hx
    rcases hn with ⟨ha, h1⟩ | ⟨h0, hl | ⟨wsh, gs, rfl, hwf, hg0, hb, hgs⟩⟩
    · obtain ⟨n, rfl⟩ := List.length_eq_one_iff.1 (show sh.length = 1 from h1)
      have hlen : xs.length = n := by rw [ok_full hx]; simp [prod]
      have hn32 := hf.2.1 n (List.mem_cons_self ..)
      have hrun : ∀ F, pick2 C F w (.arr [n] xs) = C.out (wrapNum w n) fun pos => replaceOne C F pos [n] xs := by
        intro F
        unfold pick2
        dsimp only
        rw [if_pos ha, if_neg (by simp), hlen]
      refine pick_one hC hx (fun v hv => ?_) (fun p hp F => ?_) fun hno F => ?_
      · cases hv with
        | one h => exact ⟨_, rfl, h⟩
        | many => cases ha
      · obtain ⟨i, rfl, hp, hi⟩ := (spot_num ha).1 hp
        rw [Ix.Ok] at hok
        rw [hrun]
        unfold wrapNum
        dsimp only
        rw [Pick.wrap_some (hok i rfl).1 (hok i rfl).2 hn32 hp hi]
        rfl
      · rw [hrun]
        cases w with
        | num o =>
          cases o with
          | none => rfl
          | some i =>
            rw [Ix.Ok] at hok
            unfold wrapNum
            dsimp only
            rw [Pick.wrap_none (hok i rfl).1 (hok i rfl).2 hn32 fun ⟨k, hk, hi⟩ => hno ⟨k, (spot_num ha).2 ⟨i, rfl, hk, hi⟩⟩]
            rfl
        | other => rfl
        | _ => cases ha
    · have h0 : sh ≠ [] := h0
      have hl : isList sh.length w = true := hl
      have ha : w.isArr = true := by cases w <;> first | rfl | cases hl
      obtain ⟨h1, h2⟩ := oneIndex_spec hf hl hok
      refine pick_one hC hx (fun v hv => ?_) (fun p hp F => ?_) fun hno F => ?_
      · cases hv with
        | one h => exact ⟨_, rfl, h⟩
        | @many wsh gs ps h3 _ h4 _ =>
          exfalso
          cases gs with
          | nil => exact h3 rfl
          | cons g gs =>
            have := h4 g (List.mem_cons_self ..)
            cases g with
            | num o => cases this
            | _ => simp [isList] at hl
      · unfold pick2
        dsimp only
        rw [if_neg (by simp [ha]), if_neg (by simpa using h0), h1 p hp]
        rfl
      · unfold pick2
        dsimp only
        rw [if_neg (by simp [ha]), if_neg (by simpa using h0), h2 hno]
        rfl
    · have h0 : sh ≠ [] := h0
      have hb : isList sh.length (.boxed wsh gs) = false := hb
      rw [Ix.Ok] at hok
      have hall : ∀ g ∈ gs, isList sh.length g = true ∧ g.Ok := fun g hg => ⟨hgs g hg, Pick.okL_mem hok.2 g hg⟩
      have harr : ∀ g ∈ gs, g.isArr = true := fun g hg => by
        have := hgs g hg
        cases g <;> first | rfl | cases this
      obtain ⟨h1, h2⟩ := indexLoop_spec hf hall
      have hrun : ∀ F, pick2 C F (.boxed wsh gs) (.arr sh xs) = C.out (indexLoop sh gs) fun ps => match ps with
            | none => C.rt (.bound (.pick (.boxed wsh gs))) F (.arr sh xs)
            | some ps => replaceMany C F wsh ps sh xs := by
        intro F
        conv => lhs; unfold pick2
        dsimp only
        rw [if_neg (by simp [Ix.isArr]), if_neg (by simpa using h0), oneIndex_none hb]
        rfl
      by_cases hs : ∃ ps, Spots sh gs ps
      · obtain ⟨ps, hps⟩ := hs
        have hw : Looks2 (P2.base (.pick (.boxed wsh gs)) (.arr sh xs : T A)).sh (.pick (.boxed wsh gs)) (.many wsh ps) := .many hg0 hps.1 harr hps.2
        have hlt : ∀ p ∈ ps, p < xs.length := by
          intro p hp
          obtain ⟨i, hi⟩ := List.getElem?_of_mem hp
          have hlen := hps.1
          have hil := (List.getElem?_eq_some_iff.1 hi).1
          rw [ok_full hx]
          exact spot_lt (hps.2 i _ p (List.getElem?_eq_getElem (by omega)) hi)
        exact act_many hC hlt hx hwf (by rw [← hps.1]; exact hok.1) (fun v => sees2_look rfl hw) (fun rep r => replaced2_look rfl hw rep r) fun F => by
          show pick2 C F (.boxed wsh gs) (.arr sh xs) = _
          rw [hrun, h1 ps hps]
          rfl
      · refine act_none ?_ fun F => ?_
        · rintro ⟨v, w', hl, _⟩
          have hl : Looks2 sh (.pick (.boxed wsh gs)) w' := hl
          cases hl with
          | one h =>
            obtain ⟨g, hg⟩ := List.exists_mem_of_ne_nil _ hg0
            have := spot_boxed h g hg
            rw [harr g hg] at this
            cases this
          | many _ hl' _ h => exact hs ⟨_, hl', h⟩
        · show pick2 C F (.boxed wsh gs) (.arr sh xs) = _
          rw [hrun, h2 hs]
          rfl

theorem act_prim2 (hC : C.Lawful) (p : P2) (x : T A) (hx : Ok x) (hn : Native2 p x) : Act C (fun F => prim2 C F p x) (Sees2 p) (Kept2 p) x := by
  cases p with
  | pick w => exact act_pick hC w x hx hn
  | take n => exact act_take hC n x hx hn
  | drop n => exact act_drop hC n x hx hn
  | reshape sh => exact act_reshape hC sh x hx hn
  | rotate n => exact act_rotate hC n x hx hn

end Verif.Lens
