import Verif.Monarith.Lemmas
/-!
# Arithmetic with one argument: arrays of numbers, and nested arrays
-/
namespace Verif.Monarith
open Verif.Pervade (V T abs abss tv Sound Sounds)
open Verif.Squeeze (Data Val El Arr feq squeezeNumTry toF64s Same Sames EqF Flags elems_ints ints_small)
open Verif.Bins (ofInt ofInt_nan key_mono)

/-- A result that has the shape and, for every number, one that is equal to what `p` gives. -/
def Got (p : BitVec 64 → BitVec 64) (sh : List Nat) (vs : List Val) (o : Out V) : Prop :=
  ∃ r ys, o = .ok r ∧ abs r = .arr sh ys ∧ ys.length = vs.length ∧ ∀ (i : Nat) y v, ys[i]? = some y → vs[i]? = some v → ∃ a b, v = .num b ∧ y = .num a ∧ Equal a (p b)

theorem got_map {γ} {p : BitVec 64 → BitVec 64} {sh : List Nat} {vs : List Val} {r : V} (l : List γ) (g h : γ → BitVec 64) (he : vs = l.map fun c => .num (h c))
    (hr : abs r = .arr sh (l.map fun c => .num (g c))) (hp : ∀ c ∈ l, Equal (g c) (p (h c))) : Got p sh vs (.ok r) := by
  refine ⟨r, _, rfl, hr, by rw [he, List.length_map, List.length_map], fun i y v hy hv => ?_⟩
  rw [List.getElem?_map] at hy
  rw [he, List.getElem?_map] at hv
  obtain ⟨c, hc, rfl⟩ := Option.map_eq_some_iff.1 hy
  rw [hc] at hv
  cases hv
  exact ⟨_, _, rfl, rfl, hp c (List.mem_of_getElem? hc)⟩

theorem abs_typed {γ} {sh : List Nat} {d : Data} {l : List γ} {g : γ → BitVec 64} (h : d.elems = l.map fun c => .num (g c)) : abs (.typed sh d) = .arr sh (l.map fun c => .num (g c)) := by
  rw [abs, h, List.map_map]
  rfl

theorem abss_num {γ} (g : γ → BitVec 64) : ∀ l : List γ, abss (l.map fun c => V.num (g c)) = l.map fun c => T.num (g c)
  | [] => rfl
  | c :: l => by rw [List.map_cons, List.map_cons, abss, abss_num g l]; rfl

theorem got_ints {p : BitVec 64 → BitVec 64} {sh : List Nat} {d d' : Data} {k : Int → Int} (h : d.ty.int = true) (h' : d'.ty.int = true) (he : d'.ints = d.ints.map k)
    (hp : ∀ i, I32 i → Equal (ofInt (k i)) (p (ofInt i))) : Got p sh d.elems (.ok (.typed sh d')) := by
  refine got_map d.ints (fun i => ofInt (k i)) ofInt (elems_ints h) (abs_typed ?_) fun i hi => hp i (ints_small i hi)
  rw [elems_ints h', he, List.map_map]
  rfl

theorem got_floats {p g : BitVec 64 → BitVec 64} {sh : List Nat} {xs : List (BitVec 64)} (hp : ∀ v, Equal (g v) (p v)) : Got p sh (Data.f64 xs).elems (.ok (.typed sh (.f64 (xs.map g)))) :=
  got_map xs g id rfl (abs_typed (by rw [Data.elems, List.map_map]; rfl)) fun v _ => hp v

theorem elems_num {d : Data} (h : numeric d.ty = true) : ∀ v ∈ d.elems, ∃ f, v = .num f := by
  intro v hv
  cases d with
  | bit _ | i8 _ | i16 _ | i32 _ | f64 _ => obtain ⟨a, _, rfl⟩ := List.mem_map.1 hv; exact ⟨_, rfl⟩
  | _ => exact nomatch h

theorem toF64s_num {d : Data} (h : numeric d.ty = true) : ∃ fs, toF64s d = some fs ∧ d.elems = fs.map .num := by
  cases d with
  | f64 xs => exact ⟨_, rfl, rfl⟩
  | bit _ | i8 _ | i16 _ | i32 _ => exact ⟨_, rfl, by rw [Data.elems, List.map_map]; rfl⟩
  | _ => exact nomatch h

theorem got_recm {p g : BitVec 64 → BitVec 64} {sh : List Nat} {d : Data} (h : numeric d.ty = true) (hp : ∀ v, Equal (g v) (p v)) : Got p sh d.elems (recm g sh d) := by
  obtain ⟨fs, e1, e2⟩ := toF64s_num h
  rw [recm, e1]
  exact got_map fs g id e2 (by rw [abs, abss_num]) fun v _ => hp v

theorem got_try {n : Nat} {p : BitVec 64 → BitVec 64} {sh : List Nat} {vs : List Val} {mk : List (BitVec n) → Data} {l : Option (List (BitVec n))} {base : Out V}
    (h1 : ∀ r, l = some r → Got p sh vs (.ok (.typed sh (mk r)))) (h2 : Got p sh vs base) : Got p sh vs (tryInts sh mk l base) := by
  cases l with
  | none => exact h2
  | some r => exact h1 r rfl

theorem got_subSA {F : Flt} (hF : F.Ieee) {c : Int} (hc : c = 0 ∨ c = 1) {sh : List Nat} {d : Data} (h : numeric d.ty = true) (hb : d.ty ≠ .bit) : Got (F.sub (ofInt c)) sh d.elems (subSA F c sh d) := by
  have hi : ∀ i, I32 i → Equal (ofInt (c - i)) (F.sub (ofInt c) (ofInt i)) := fun i h => (hF.int c i hc h.1 h.2).symm
  have hr : Got (F.sub (ofInt c)) sh d.elems (recm (F.sub (ofInt c)) sh d) := got_recm h fun v => Equal.refl _
  cases d with
  | bit _ => exact (hb rfl).elim
  | i8 xs => exact got_try (fun r e => got_ints rfl rfl (by show r.map _ = _; rw [subLoop_spec (by omega) hc _ _ e]; exact (List.map_map ..).symm) hi) hr
  | i16 xs => exact got_try (fun r e => got_ints rfl rfl (by show r.map _ = _; rw [subLoop_spec (by omega) hc _ _ e]; exact (List.map_map ..).symm) hi) hr
  | i32 xs => exact got_try (fun r e => got_ints rfl rfl (by show r.map _ = _; rw [subLoop_spec (by omega) hc _ _ e]; exact (List.map_map ..).symm) hi) hr
  | f64 xs => exact got_floats fun v => Equal.refl _
  | _ => exact nomatch h

theorem Got.congr {p q : BitVec 64 → BitVec 64} {sh : List Nat} {vs : List Val} {o : Out V} (h : Got p sh vs o) (hpq : ∀ v, Equal (p v) (q v)) : Got q sh vs o := by
  obtain ⟨r, ys, e, e1, e2, e3⟩ := h
  refine ⟨r, ys, e, e1, e2, fun i y v hy hv => ?_⟩
  obtain ⟨a, b, h1, h2, h3⟩ := e3 i y v hy hv
  exact ⟨a, b, h1, h2, h3.trans (hpq b)⟩

theorem got_same {p : BitVec 64 → BitVec 64} {sh : List Nat} {d : Data} (h : numeric d.ty = true) (hp : ∀ v, .num v ∈ d.elems → Equal v (p v)) : Got p sh d.elems (.ok (.typed sh d)) := by
  obtain ⟨fs, _, e⟩ := toF64s_num h
  refine got_map fs id id e (abs_typed e) fun v hv => hp v ?_
  rw [e]
  exact List.mem_map.2 ⟨v, hv, rfl⟩

theorem equal_of_same {a : BitVec 64} {v : Val} (h : Same (.num a) v) : ∃ b, v = .num b ∧ Equal a b := by
  cases v with
  | num b =>
    rcases h with rfl | ⟨h1, h2, h3⟩
    · exact ⟨_, rfl, Equal.refl _⟩
    · exact ⟨_, rfl, by rw [h1, h2], fun _ => h3⟩
  | chr _ => exact h.elim
  | other _ => exact h.elim

theorem sames_get : ∀ {as bs : List Val}, Sames as bs → as.length = bs.length ∧ ∀ (i : Nat) a b, as[i]? = some a → bs[i]? = some b → Same a b
  | _, _, .nil => ⟨rfl, fun i a b h => by simp at h⟩
  | _, _, .cons h t => by
    obtain ⟨h1, h2⟩ := sames_get t
    refine ⟨by rw [List.length_cons, List.length_cons, h1], fun i a b ha hb => ?_⟩
    cases i with
    | zero => cases ha; cases hb; exact h
    | succ i => exact h2 i a b ha hb

/-- Elements that are the same may be taken instead. -/
theorem Got.sames {p : BitVec 64 → BitVec 64} {sh : List Nat} {vs us : List Val} {o : Out V} (h : Got p sh vs o) (hs : Sames vs us) (hp : ∀ a b, Equal a b → Equal (p a) (p b)) : Got p sh us o := by
  obtain ⟨r, ys, e, e1, e2, e3⟩ := h
  obtain ⟨hl, hg⟩ := sames_get hs
  refine ⟨r, ys, e, e1, by omega, fun i y u hy hu => ?_⟩
  have hlt := (List.getElem?_eq_some_iff.1 hu).1
  obtain ⟨a, b, h1, h2, h3⟩ := e3 i y _ hy (List.getElem?_eq_getElem (by omega))
  have := hg i _ u (List.getElem?_eq_getElem (by omega)) hu
  rw [h1] at this
  obtain ⟨b', rfl, h4⟩ := equal_of_same this
  exact ⟨a, b', rfl, h2, h3.trans (hp _ _ h4)⟩

theorem not_bits {F : Flt} (hF : F.Ieee) (sh : List Nat) (bs : List Bool) : Got (F.sub (ofInt 1)) sh (Data.bit bs).elems (.ok (.typed sh (.bit (bs.map (!·))))) :=
  got_ints (k := fun i => 1 - i) rfl rfl (by
    rw [Data.ints, Data.ints, List.map_map, List.map_map]
    apply List.map_congr_left
    intro b _
    cases b <;> rfl) fun i h => (hF.int 1 i (.inr rfl) h.1 h.2).symm

theorem abs_float (F : Flt) (v : BitVec 64) : Equal (if feq v 0 || pos v then v else v ^^^ 0x8000000000000000#64) (Fn.value F .abs v) := by
  show Equal (if feq v 0 || pos v then v else neg v) (if v.toNat < 2^63 then v else neg v)
  rw [feq_zero, pos]
  have hv := v.isLt
  cases hn : Compare.nan v with
  | true =>
    simp only [Bool.not_true, Bool.false_and, Bool.or_self, Bool.false_eq_true, if_false]
    by_cases h : v.toNat < 2^63
    · rw [if_pos h]
      exact ⟨nan_neg v, fun e => by rw [nan_neg, hn] at e; cases e⟩
    · rw [if_neg h]; exact Equal.refl _
  | false =>
    simp only [Bool.not_false, Bool.true_and]
    by_cases h : v.toNat < 2^63
    · have hk : Compare.key v = v.toNat := by rw [Compare.key, if_pos h]
      rw [if_pos h, if_pos (by simp [hk]; omega)]; exact Equal.refl _
    · have hk : Compare.key v = -((v.toNat - 2^63 : Nat) : Int) := by rw [Compare.key, if_neg h]
      rw [if_neg h]
      by_cases h0 : Compare.key v = 0
      · rw [if_pos (by simp [h0])]
        exact ⟨(nan_neg v).symm, fun _ => by rw [key_neg]; omega⟩
      · rw [if_neg (by simp [h0]; omega)]; exact Equal.refl _

theorem sign_float (F : Flt) (xs : List (BitVec 64)) (sh : List Nat) :
    Got (Fn.value F .sign) sh (Data.f64 xs).elems (.ok (.typed sh (.i8 (xs.map fun c => if pos c then 1 else if feq c 0 then 0 else -1)))) := by
  refine got_map xs (fun c => ofInt ((if pos c then (1 : BitVec 8) else if feq c 0 then 0 else -1).toInt)) id rfl (abs_typed (by rw [Data.elems, List.map_map]; rfl)) fun v _ => ?_
  rw [← fexpr_eq]
  show Equal (ofInt ((if pos v then (1 : BitVec 8) else if feq v 0 then 0 else -1).toInt)) (if feq v 0 then 0 else if pos v then ofInt 1 else ofInt (-1))
  cases hp : pos v with
  | true =>
    have h0 : feq v 0 = false := by
      rw [pos] at hp
      rw [feq_zero]
      simp at hp ⊢
      intro _
      omega
    rw [h0]
    exact Equal.refl _
  | false =>
    cases hz : feq v 0 with
    | true => exact Equal.refl _
    | false => exact Equal.refl _

/-- An array of numbers. -/
theorem got_typed {F : Flt} (hF : F.Ieee) (bad : BitVec 64 → BitVec 32) {arr : Data → Arr} (ha : ∀ d, (arr d).data = d ∧ Flags (arr d)) (op : Fn) (sh : List Nat) {d : Data} (h : numeric d.ty = true) :
    Got (op.value F) sh d.elems (typed F bad arr op sh d) := by
  have bits01 : ∀ (bs : List Bool) v, Val.num v ∈ (Data.bit bs).elems → v = ofInt 0 ∨ v = ofInt 1 := by
    intro bs v hv
    obtain ⟨b, _, e⟩ := List.mem_map.1 hv
    cases e
    cases b
    · exact .inl rfl
    · exact .inr rfl
  have ints : ∀ d : Data, d.ty.int = true → ∀ v, Val.num v ∈ d.elems → ∃ i, I32 i ∧ v = ofInt i := by
    intro d hd v hv
    rw [elems_ints hd] at hv
    obtain ⟨i, hi, e⟩ := List.mem_map.1 hv
    cases e
    exact ⟨i, ints_small i hi, rfl⟩
  have hrec : Got (Fn.value F .abs) sh d.elems (recm (fexpr F .abs) sh d) := got_recm h fun v => by rw [fexpr_eq]; exact Equal.refl _
  cases op with
  | plus => exact got_same h fun v _ => Equal.refl _
  | minus =>
    cases d with
    | bit bs =>
      refine got_ints (k := fun i => 0 - i) rfl rfl ?_ fun i hi => int_minus hF hi
      rw [Data.ints, Data.ints, List.map_map, List.map_map]
      apply List.map_congr_left
      intro b _
      cases b <;> rfl
    | i8 xs => exact (got_subSA hF (.inl rfl) h nofun).congr hF.zero
    | i16 xs => exact (got_subSA hF (.inl rfl) h nofun).congr hF.zero
    | i32 xs => exact (got_subSA hF (.inl rfl) h nofun).congr hF.zero
    | f64 xs => exact (got_subSA hF (.inl rfl) h nofun).congr hF.zero
    | _ => exact nomatch h
  | abs =>
    cases d with
    | bit bs => exact got_same h fun v hv => by rcases bits01 bs v hv with rfl | rfl <;> exact Equal.refl _
    | i8 xs => exact got_try (fun r e => got_ints rfl rfl (by show r.map _ = _; rw [absLoop_spec _ _ e, Data.ints, List.map_map]; rfl) fun i hi => int_abs hF hi) hrec
    | i16 xs => exact got_try (fun r e => got_ints rfl rfl (by show r.map _ = _; rw [absLoop_spec _ _ e, Data.ints, List.map_map]; rfl) fun i hi => int_abs hF hi) hrec
    | i32 xs => exact got_try (fun r e => got_ints rfl rfl (by show r.map _ = _; rw [absLoop_spec _ _ e, Data.ints, List.map_map]; rfl) fun i hi => int_abs hF hi) hrec
    | f64 xs => exact got_floats (abs_float F)
    | _ => exact nomatch h
  | floor =>
    cases d with
    | f64 xs => exact got_floats fun v => Equal.refl _
    | bit _ | i8 _ | i16 _ | i32 _ => exact got_same h fun v hv => by obtain ⟨i, hi, rfl⟩ := ints _ rfl v hv; exact (hF.floor i hi.1 hi.2).symm
    | _ => exact nomatch h
  | ceil =>
    cases d with
    | f64 xs => exact got_floats fun v => Equal.refl _
    | bit _ | i8 _ | i16 _ | i32 _ => exact got_same h fun v hv => by obtain ⟨i, hi, rfl⟩ := ints _ rfl v hv; exact (hF.ceil i hi.1 hi.2).symm
    | _ => exact nomatch h
  | sign =>
    have hs : ∀ (n : Nat) (xs : List (BitVec n)), (xs.map (signI n)).map BitVec.toInt = (xs.map BitVec.toInt).map fun i => if i > 0 then 1 else if i = 0 then 0 else -1 := by
      intro n xs
      rw [List.map_map, List.map_map]
      exact List.map_congr_left fun c _ => signI_toInt c
    cases d with
    | bit bs => exact got_same h fun v hv => by rcases bits01 bs v hv with rfl | rfl <;> exact Equal.refl _
    | i8 xs => exact got_ints rfl rfl (hs 8 xs) fun i hi => int_sign F hi
    | i16 xs => exact got_ints rfl rfl (hs 16 xs) fun i hi => int_sign F hi
    | i32 xs => exact got_ints rfl rfl (hs 32 xs) fun i hi => int_sign F hi
    | f64 xs => exact sign_float F xs sh
    | _ => exact nomatch h
  | not =>
    have hgen : ∀ d : Data, numeric d.ty = true → Got (F.sub (ofInt 1)) sh d.elems (match squeezeNumTry bad (arr d) with
      | none => .ub
      | some r => match r.data with
        | .bit bs => .ok (.typed sh (.bit (bs.map (!·))))
        | d => subSA F 1 sh d) := by
      intro d h
      obtain ⟨e0, hf⟩ := ha d
      obtain ⟨r, e, hsame, _, hempty, hleast⟩ := Squeeze.squeeze_num_try_partial bad (arr d) hf
      rw [e0] at hsame hempty hleast
      rw [e]
      dsimp only
      have hnum : numeric r.data.ty = true := by
        by_cases hd : d.elems = []
        · rw [hempty hd]; rfl
        · have hl := (hleast hd (elems_num h)).2 .f64 (fun v hv => by
            obtain ⟨i, hi⟩ := List.getElem?_of_mem hv
            obtain ⟨hlen, hg⟩ := sames_get hsame
            have hlt := (List.getElem?_eq_some_iff.1 hi).1
            have hs := hg i v _ hi (List.getElem?_eq_getElem (by omega))
            obtain ⟨f, hf⟩ := elems_num h _ (List.getElem_mem (show i < d.elems.length by omega))
            rw [hf] at hs
            cases v with
            | num a => exact ⟨a, rfl⟩
            | chr _ => exact hs.elim
            | other _ => exact hs.elim)
          cases ht : r.data.ty <;> rw [ht] at hl <;> first | rfl | exact absurd hl (by decide)
      have hcongr : ∀ a b, Equal a b → Equal (F.sub (ofInt 1) a) (F.sub (ofInt 1) b) := hF.congr
      refine Got.sames ?_ hsame hcongr
      cases hr : r.data with
      | bit bs => exact not_bits hF sh bs
      | i8 _ | i16 _ | i32 _ | f64 _ => rw [hr] at hnum; exact got_subSA hF (.inr rfl) hnum nofun
      | _ => rw [hr] at hnum; exact nomatch hnum
    cases d with
    | bit bs => exact not_bits hF sh bs
    | i8 _ | i16 _ | i32 _ | f64 _ => exact hgen _ h
    | _ => exact nomatch h
  | recip =>
    obtain ⟨fs, e1, e2⟩ := toF64s_num h
    show Got F.recip sh d.elems (match toF64s d with | some fs => .ok (.typed sh (.f64 (fs.map F.recip))) | none => .ub)
    rw [e1]
    exact got_map fs F.recip id e2 (abs_typed (by rw [Data.elems, List.map_map]; rfl)) fun v _ => Equal.refl _
  | sqrt =>
    obtain ⟨fs, e1, e2⟩ := toF64s_num h
    show Got F.sqrt sh d.elems (match toF64s d with | some fs => .ok (.typed sh (.f64 (fs.map F.sqrt))) | none => .ub)
    rw [e1]
    exact got_map fs F.sqrt id e2 (abs_typed (by rw [Data.elems, List.map_map]; rfl)) fun v _ => Equal.refl _

end Verif.Monarith
