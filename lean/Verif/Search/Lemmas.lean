import Verif.Search.Model
import Verif.HTab.Props
/-! # Lemmas on the dyadic searches -/
namespace Verif.Search
open Verif

theorem st8 {v : Int} (h1 : -128 ≤ v) (h2 : v < 128) : st 8 v = v := by
  unfold st; rw [Int.bmod_def]; simp only [Nat.reducePow]; split <;> omega
theorem st16 {v : Int} (h1 : -32768 ≤ v) (h2 : v < 32768) : st 16 v = v := by
  unfold st; rw [Int.bmod_def]; simp only [Nat.reducePow]; split <;> omega
theorem st32 {v : Int} (h1 : -2147483648 ≤ v) (h2 : v < 2147483648) : st 32 v = v := by
  unfold st; rw [Int.bmod_def]; simp only [Nat.reducePow]; split <;> omega

attribute [local irreducible] st

theorem reduce_id {r : List Int} {count : Nat} (h : ∀ v ∈ r, 0 ≤ v ∧ v ≤ count) : reduceI32Width r count = r := by
  unfold reduceI32Width
  split
  · refine (List.map_congr_left fun v hv => ?_).trans (List.map_id r)
    have := h v hv
    rw [st8 (by omega) (by omega)]; rfl
  · split
    · refine (List.map_congr_left fun v hv => ?_).trans (List.map_id r)
      have := h v hv
      rw [st16 (by omega) (by omega)]; rfl
    · rfl

def WF (a : Arr) : Prop := ∀ e ∈ a.els, fits a.et e = true

theorem idxOf_map_inj {f : El → Int} {l : List El} {e : El} (h : ∀ a ∈ l, f a = f e → a = e) :
    (l.map f).idxOf (f e) = l.idxOf e := by
  induction l with
  | nil => rfl
  | cons a l ih =>
    rw [List.map_cons, List.idxOf_cons, List.idxOf_cons, ih fun b hb => h b (by simp [hb])]
    by_cases c : a = e
    · subst c; simp
    · have c1 : ¬ f a = f e := fun x => c (h a (by simp) x)
      have c2 : (f a == f e) = false := by simpa using c1
      have c3 : (a == e) = false := by simpa using c
      rw [c2, c3]

theorem fits_c8 {a : El} (ha : fits .c8 a = true) : ∃ c, a = .chr c ∧ c < 256 := by
  cases a with
  | chr c => exact ⟨c, rfl, of_decide_eq_true ha⟩
  | int _ => cases ha
  | real _ => cases ha
  | obj _ => cases ha
theorem rd_inj8 {a b : El} (ha : fits .c8 a = true) (hb : fits .c8 b = true) (h : rd 8 a = rd 8 b) : a = b := by
  obtain ⟨c, rfl, hc⟩ := fits_c8 ha
  obtain ⟨d, rfl, hd⟩ := fits_c8 hb
  have : (c : Int).bmod (2^8) = (d : Int).bmod (2^8) := h
  rw [Int.bmod_def, Int.bmod_def] at this
  simp only [Nat.reducePow] at this
  have : c = d := by split at this <;> split at this <;> omega
  rw [this]
theorem fits_c16 {a : El} (ha : fits .c16 a = true) : ∃ c, a = .chr c ∧ c < 65536 := by
  cases a with
  | chr c => exact ⟨c, rfl, of_decide_eq_true ha⟩
  | int _ => cases ha
  | real _ => cases ha
  | obj _ => cases ha
theorem rd_inj16 {a b : El} (ha : fits .c16 a = true) (hb : fits .c16 b = true) (h : rd 16 a = rd 16 b) : a = b := by
  obtain ⟨c, rfl, hc⟩ := fits_c16 ha
  obtain ⟨d, rfl, hd⟩ := fits_c16 hb
  have : (c : Int).bmod (2^16) = (d : Int).bmod (2^16) := h
  rw [Int.bmod_def, Int.bmod_def] at this
  simp only [Nat.reducePow] at this
  have : c = d := by split at this <;> split at this <;> omega
  rw [this]
theorem fits_c32 {a : El} (ha : fits .c32 a = true) : ∃ c, a = .chr c ∧ c < 1114112 := by
  cases a with
  | chr c => exact ⟨c, rfl, of_decide_eq_true ha⟩
  | int _ => cases ha
  | real _ => cases ha
  | obj _ => cases ha
theorem rd_inj32 {a b : El} (ha : fits .c32 a = true) (hb : fits .c32 b = true) (h : rd 32 a = rd 32 b) : a = b := by
  obtain ⟨c, rfl, hc⟩ := fits_c32 ha
  obtain ⟨d, rfl, hd⟩ := fits_c32 hb
  have : (c : Int).bmod (2^32) = (d : Int).bmod (2^32) := h
  rw [Int.bmod_def, Int.bmod_def] at this
  simp only [Nat.reducePow] at this
  have : c = d := by split at this <;> split at this <;> omega
  rw [this]

theorem indexOfOne_eq {l : Arr} (hl : WF l) (e : El) : indexOfOne l e = l.els.idxOf e := by
  have hn : fits l.et e ≠ true → l.els.idxOf e = l.els.length := fun h =>
    List.idxOf_eq_length fun hm => h (hl e hm)
  obtain ⟨t, els⟩ := l
  unfold indexOfOne
  simp only [WF] at hl hn ⊢
  cases t <;> simp only
  case c8 =>
    split
    · rename_i hf
      exact idxOf_map_inj fun a ha h => rd_inj8 (hl a ha) hf h
    · exact (hn (by assumption)).symm
  case c16 =>
    split
    · rename_i hf
      exact idxOf_map_inj fun a ha h => rd_inj16 (hl a ha) hf h
    · exact (hn (by assumption)).symm
  case c32 =>
    split
    · rename_i hf
      exact idxOf_map_inj fun a ha h => rd_inj32 (hl a ha) hf h
    · exact (hn (by assumption)).symm
  all_goals
    split
    · rfl
    · exact (hn (by assumption)).symm

/-! ## tables -/

def inTab (t : Tab) (j : Int) : Prop := t.lo ≤ j ∧ j < t.hi

theorem set_some {t : Tab} {j : Int} (h : inTab t j) (v : Int) :
    t.set j v = some { t with f := fun k => if k = j then some v else t.f k } := if_pos h

theorem setLoop_eq (sv : Nat → Int) : ∀ (l : List Int) (t : Tab), (∀ j ∈ l, inTab t j) →
    setLoop sv t l = some { t with f := fun k => if k ∈ l then some (sv (l.reverse.idxOf k)) else t.f k } := by
  intro l
  induction l with
  | nil => intro t _; simp [setLoop]
  | cons j rest ih =>
    intro t h
    unfold setLoop
    rw [set_some (h j (by simp)), Option.bind_some,
      ih ⟨t.lo, t.hi, fun k => if k = j then some (sv rest.length) else t.f k⟩ (fun k hk => (h k (by simp [hk]) : inTab t k))]
    congr 2
    funext k
    simp only [List.reverse_cons, List.mem_cons]
    by_cases c : k ∈ rest
    · simp [c, List.idxOf_append]
    · by_cases d : k = j
      · subst d; simp [c, List.idxOf_append]
      · simp [c, d]

theorem sparse_eq (v : Int) : ∀ (l : List Int) (t : Tab), (∀ j ∈ l, inTab t j) →
    sparse v t l = some { t with f := fun k => if k ∈ l then some v else t.f k } := by
  intro l
  induction l with
  | nil => intro t _; simp [sparse]
  | cons j rest ih =>
    intro t h
    unfold sparse
    rw [set_some (h j (by simp)), Option.bind_some,
      ih ⟨t.lo, t.hi, fun k => if k = j then some v else t.f k⟩ (fun k hk => (h k (by simp [hk]) : inTab t k))]
    congr 2
    funext k
    by_cases c : k ∈ rest
    · simp [c]
    · by_cases d : k = j <;> simp [c, d]

/-- range of values of the integer element types -/
def rng : Nat → Int → Prop
  | 0, v => v = 0 ∨ v = 1
  | 1, v => -128 ≤ v ∧ v < 128
  | _, v => -32768 ≤ v ∧ v < 32768

theorem get_of {t : Tab} {j v : Int} (h : inTab t j) (hf : t.f j = some v) : t.get j = some v := by
  unfold Tab.get Tab.raw
  rw [if_pos (show t.lo ≤ j ∧ j < t.hi from h), hf]; rfl

theorem TABLE_eq (junk : Int → Option Int) (ine fore : Nat) (same : Bool) (n : Nat) (init : Int) (sv : Nat → Int)
    (inp forp : List El) (hin : 1 ≤ ine ∧ ine ≤ 2) (hfo : fore ≤ 2) (hsame : same = true → inp = forp ∧ ine = fore)
    (hi : ∀ a ∈ inp, rng ine (rd (width ine) a)) (hf : ∀ b ∈ forp, rng fore (rd (width fore) b))
    (hbit : fore = 0 → (∀ b ∈ forp, b = .int 0 ∨ b = .int 1) ∧ ∀ i, ∀ a ∈ inp, (rd (width ine) a = i ↔ a = .int i))
    (hmatch : ∀ a ∈ inp, ∀ b ∈ forp, (rd (width ine) a = rd (width fore) b ↔ a = b)) :
    TABLE junk ine fore same n init sv inp forp =
      some (forp.map fun b => if b ∈ inp then st n (sv (inp.idxOf b)) else st n init) := by
  unfold TABLE
  simp only
  generalize hT : (Tab.mk (-(((if elRange ine > elRange fore then elRange ine else elRange fore) / 2 : Nat) : Int))
    (((if elRange ine > elRange fore then elRange ine else elRange fore) -
      (if elRange ine > elRange fore then elRange ine else elRange fore) / 2 : Nat) : Int) junk) = T
  have hlo : ∀ (e : Nat) (v : Int), (e = ine ∨ e = fore) → rng e v → inTab T v := by
    intro e v he hv
    rw [← hT]
    have h1 : ine = 1 ∨ ine = 2 := by omega
    have h2 : fore = 0 ∨ fore = 1 ∨ fore = 2 := by omega
    rcases h1 with h1 | h1 <;> rcases h2 with h2 | h2 | h2 <;> subst h1 <;> subst h2 <;> rcases he with he | he <;> subst he <;>
      simp only [rng, inTab, elRange] at hv ⊢ <;> simp <;> omega
  have h01 : inTab T 0 ∧ inTab T 1 := by
    have : rng ine 0 ∧ rng ine 1 := by
      have h1 : ine = 1 ∨ ine = 2 := by omega
      rcases h1 with h1 | h1 <;> subst h1 <;> simp [rng]
    exact ⟨hlo ine 0 (Or.inl rfl) this.1, hlo ine 1 (Or.inl rfl) this.2⟩
  have hfin : ∀ b ∈ forp, inTab T (rd (width fore) b) := fun b hb => hlo fore _ (Or.inr rfl) (hf b hb)
  have hiin : ∀ a ∈ inp, inTab T (rd (width ine) a) := fun b hb => hlo ine _ (Or.inl rfl) (hi b hb)
  -- the initialised table
  obtain ⟨T1, hT1, hl1, hh1, hinit⟩ : ∃ T1, (if same = true then some T
      else if fore = 2 ∧ forp.length < elRange fore / (64/(n/8)) then sparse (st n init) T (forp.map (rd (width fore)))
      else T.fill (-((elRange fore/2 - (if elRange fore = 2 then 1 else 0) : Nat) : Int)) (elRange fore) (st n init)) = some T1 ∧
      T1.lo = T.lo ∧ T1.hi = T.hi ∧
      (∀ b ∈ forp, b ∉ inp → T1.f (rd (width fore) b) = some (st n init)) ∧
      (fore = 0 → same = false → T1.f 0 = some (st n init) ∧ T1.f 1 = some (st n init)) := by
    by_cases cs : same = true
    · rw [if_pos cs]
      refine ⟨T, rfl, rfl, rfl, ?_, ?_⟩
      · intro b hb hn
        rw [(hsame cs).1] at hn
        exact absurd hb hn
      · intro _ h; rw [cs] at h; cases h
    · rw [if_neg cs]
      by_cases c2 : fore = 2 ∧ forp.length < elRange fore / (64/(n/8))
      · rw [if_pos c2, sparse_eq]
        · refine ⟨_, rfl, rfl, rfl, ?_, ?_⟩
          · intro b hb _
            simp only
            rw [if_pos (List.mem_map_of_mem hb)]
          · intro h; omega
        · intro j hj
          obtain ⟨b, hb, rfl⟩ := List.mem_map.1 hj
          exact hfin b hb
      · rw [if_neg c2]
        have hb : T.lo ≤ -((elRange fore/2 - (if elRange fore = 2 then 1 else 0) : Nat) : Int) ∧
            -((elRange fore/2 - (if elRange fore = 2 then 1 else 0) : Nat) : Int) + (elRange fore : Nat) ≤ T.hi := by
          rw [← hT]
          have h1 : ine = 1 ∨ ine = 2 := by omega
          have h2 : fore = 0 ∨ fore = 1 ∨ fore = 2 := by omega
          rcases h1 with h1 | h1 <;> rcases h2 with h2 | h2 | h2 <;> subst h1 <;> subst h2 <;> simp [elRange]
        refine ⟨_, if_pos hb, rfl, rfl, ?_, ?_⟩
        · intro b hbm _
          simp only
          rw [if_pos]
          have h2 : fore = 0 ∨ fore = 1 ∨ fore = 2 := by omega
          have := hf b hbm
          rcases h2 with h2 | h2 | h2 <;> subst h2 <;> simp only [rng, elRange] at this ⊢ <;> simp <;> omega
        · intro h _
          subst h
          simp [elRange]
  have hset : ∀ j ∈ (inp.map (rd (width ine))).reverse, inTab T1 j := by
    intro j hj
    obtain ⟨a, ha, rfl⟩ := List.mem_map.1 (List.mem_reverse.1 hj)
    have := hiin a ha
    unfold inTab at this ⊢
    rw [hl1, hh1]; exact this
  rw [hT1, Option.bind_some, setLoop_eq _ _ _ hset, Option.bind_some]
  simp only [List.mem_reverse, List.reverse_reverse]
  generalize hT2 : (Tab.mk T1.lo T1.hi (fun k => if k ∈ List.map (rd (width ine)) inp then
      some (st n (sv (List.idxOf k (List.map (rd (width ine)) inp)))) else T1.f k)) = T2
  have hf2 : ∀ k, T2.f k = if k ∈ List.map (rd (width ine)) inp then
      some (st n (sv (List.idxOf k (List.map (rd (width ine)) inp)))) else T1.f k := by intro k; rw [← hT2]
  have hin2 : ∀ k, inTab T k → inTab T2 k := by
    intro k hk; rw [← hT2]; unfold inTab at hk ⊢; simp only; rw [hl1, hh1]; exact hk
  have hidx : ∀ b : El, (∀ a ∈ inp, (rd (width ine) a = rd (width fore) b ↔ a = b)) →
      (rd (width fore) b ∈ inp.map (rd (width ine)) ↔ b ∈ inp) ∧
        (b ∈ inp → (inp.map (rd (width ine))).idxOf (rd (width fore) b) = inp.idxOf b) := by
    intro b hb
    refine ⟨⟨?_, ?_⟩, ?_⟩
    · intro h
      obtain ⟨a, ha, h⟩ := List.mem_map.1 h
      rw [(hb a ha).1 h] at ha; exact ha
    · intro h
      exact List.mem_map.2 ⟨b, h, (hb b h).2 rfl⟩
    · intro h
      rw [← (hb b h).2 rfl]
      exact idxOf_map_inj fun a ha he => (hb a ha).1 (he.trans ((hb b h).2 rfl))
  by_cases c0 : fore = 0
  · rw [if_pos c0]
    have hns : same = false := by
      cases hs : same with
      | false => rfl
      | true => have := (hsame hs).2; omega
    have h1 := hinit.2 c0 hns
    have hb01 := (hbit c0).1
    have hval : ∀ i : Int, T1.f i = some (st n init) → T2.f i = some (if El.int i ∈ inp then st n (sv (inp.idxOf (.int i))) else st n init) := by
      intro i hT1i
      have hh := hidx (.int i) (fun a ha => (hbit c0).2 i a ha)
      have hr : rd (width fore) (.int i) = i := rfl
      rw [hr] at hh
      rw [hf2]
      by_cases c : El.int i ∈ inp
      · rw [if_pos (hh.1.2 c), if_pos c, hh.2 c]
      · rw [if_neg (fun h => c (hh.1.1 h)), if_neg c, hT1i]
    rw [get_of (hin2 0 h01.1) (hval 0 h1.1), Option.bind_some, get_of (hin2 1 h01.2) (hval 1 h1.2), Option.map_some]
    congr 1
    refine List.map_congr_left fun b hb => ?_
    rcases hb01 b hb with h | h
    · subst h; rw [if_pos rfl]
    · subst h
      rw [if_neg (by decide)]
  · rw [if_neg c0]
    have key : ∀ b ∈ forp, T2.get (rd (width fore) b) = some (if b ∈ inp then st n (sv (inp.idxOf b)) else st n init) := by
      intro b hb
      have hh := hidx b (fun a ha => hmatch a ha b hb)
      refine get_of (hin2 _ (hfin b hb)) ?_
      rw [hf2]
      by_cases c : b ∈ inp
      · rw [if_pos (hh.1.2 c), if_pos c, hh.2 c]
      · rw [if_neg (fun h => c (hh.1.1 h)), if_neg c, hinit.1 b hb c]
    have hmm : ∀ (l : List El), (∀ b ∈ l, b ∈ forp) → HTab.mapO (fun j => T2.get j) (l.map (rd (width fore))) =
        some (l.map fun b => if b ∈ inp then st n (sv (inp.idxOf b)) else st n init) := by
      intro l
      induction l with
      | nil => intro _; rfl
      | cons b l ih =>
        intro hl
        rw [List.map_cons, HTab.mapO, key b (hl b (by simp)), Option.bind_some, ih (fun c hc => hl c (by simp [hc]))]
        rfl
    exact hmm forp fun b hb => hb

end Verif.Search
