import Verif.HTab.Model
/-! # Lemmas on the open-addressing hash table -/
set_option linter.unusedSectionVars false
namespace Verif.HTab
variable {K V : Type} [DecidableEq K]

/-- used slot -/
def Used (t : Map K V) (p : Nat) : Prop := (t.a p).hash ≠ 0
instance (t : Map K V) (p : Nat) : Decidable (Used t p) := inferInstanceAs (Decidable (_ ≠ _))

/-- slots from the home of `h` up to before `p` are used -/
def Chain (t : Map K V) (h p : Nat) : Prop :=
  ∃ d, d < t.sz ∧ p = (h + d) % t.sz ∧ ∀ j, j < d → Used t ((h + j) % t.sz)

def used (t : Map K V) (n : Nat) : Nat := (List.range n).countP fun p => decide (Used t p)

structure Inv (hash : K → Nat) (t : Map K V) : Prop where
  pow : ∃ s, t.sz = 2^s
  hsh : ∀ p, p < t.sz → Used t p → (t.a p).hash = hash (t.a p).key
  chn : ∀ p, p < t.sz → Used t p → Chain t (t.a p).hash p
  uniq : ∀ p q, p < t.sz → q < t.sz → Used t p → Used t q → (t.a p).key = (t.a q).key → p = q
  pop : t.pop = used t t.sz

/-- the table holds exactly the map `f` -/
def Holds (t : Map K V) (f : K → Option V) : Prop :=
  ∀ k v, f k = some v ↔ ∃ p, p < t.sz ∧ Used t p ∧ (t.a p).key = k ∧ (t.a p).val = v

theorem Inv.sz_pos {hash : K → Nat} {t : Map K V} (i : Inv hash t) : 0 < t.sz := by
  obtain ⟨s, hs⟩ := i.pow
  rw [hs]; exact Nat.two_pow_pos s

theorem Inv.home {hash : K → Nat} {t : Map K V} (i : Inv hash t) (h : Nat) : h &&& (t.sz - 1) = h % t.sz := by
  obtain ⟨s, hs⟩ := i.pow
  rw [hs, Nat.and_two_pow_sub_one_eq_mod]

theorem next_mod {sz : Nat} (hsz : 0 < sz) (x : Nat) : next (sz - 1) (x % sz) = (x + 1) % sz := by
  have h := Nat.mod_lt x hsz
  unfold next
  rw [Nat.add_mod]
  split
  · rename_i e
    by_cases h1 : sz = 1
    · subst h1; omega
    · rw [e, Nat.mod_eq_of_lt (by omega : 1 < sz), Nat.sub_add_cancel hsz, Nat.mod_self]
  · by_cases h1 : sz = 1
    · subst h1; omega
    · rw [Nat.mod_eq_of_lt (by omega : 1 < sz), Nat.mod_eq_of_lt (by omega : x % sz + 1 < sz)]

theorem findLoop_first (t : Map K V) (k : K) (h : Nat) (hsz : 0 < t.sz) :
    ∀ (n d fuel : Nat), n < fuel →
      (∀ i, i < n → Used t ((h + d + i) % t.sz) ∧ ¬ ((t.a ((h + d + i) % t.sz)).hash = h ∧ (t.a ((h + d + i) % t.sz)).key = k)) →
      (¬ Used t ((h + d + n) % t.sz) ∨ ((t.a ((h + d + n) % t.sz)).hash = h ∧ (t.a ((h + d + n) % t.sz)).key = k)) →
      findLoop t k h ((h + d) % t.sz) fuel =
        some ((h + d + n) % t.sz, decide ((t.a ((h + d + n) % t.sz)).hash = h ∧ (t.a ((h + d + n) % t.sz)).key = k)) := by
  intro n
  induction n with
  | zero =>
    intro d fuel hf _ hs
    obtain ⟨fuel, rfl⟩ : ∃ g, fuel = g + 1 := ⟨fuel - 1, by omega⟩
    simp only [Nat.add_zero] at hs ⊢
    unfold findLoop
    by_cases hm : (t.a ((h + d) % t.sz)).hash = h ∧ (t.a ((h + d) % t.sz)).key = k
    · rw [decide_eq_true hm]; exact if_pos hm
    · have he : (t.a ((h + d) % t.sz)).hash = 0 := by
        rcases hs with hs | hs
        · exact Decidable.byContradiction hs
        · exact absurd hs hm
      simp only [if_neg hm, if_pos he, decide_eq_false hm]
  | succ n ih =>
    intro d fuel hf hn hs
    obtain ⟨fuel, rfl⟩ : ∃ g, fuel = g + 1 := ⟨fuel - 1, by omega⟩
    have h0 := hn 0 (by omega)
    simp only [Nat.add_zero] at h0
    unfold findLoop
    simp only [if_neg h0.2, if_neg h0.1, next_mod hsz]
    have e : ∀ i, h + (d + 1) + i = h + d + (i + 1) := by intro i; omega
    have := ih (d + 1) fuel (by omega) (by intro i hi; rw [e]; exact hn (i+1) (by omega)) (by rw [e]; exact hs)
    rw [e] at this
    exact this

theorem exists_probe {sz : Nat} (h : Nat) {p : Nat} (hp : p < sz) : ∃ d, d < sz ∧ (h + d) % sz = p := by
  have hsz : 0 < sz := by omega
  have hm := Nat.mod_lt h hsz
  by_cases c : h % sz ≤ p
  · refine ⟨p - h % sz, by omega, ?_⟩
    rw [Nat.add_mod, Nat.mod_eq_of_lt (by omega : p - h % sz < sz), show h % sz + (p - h % sz) = p by omega,
      Nat.mod_eq_of_lt hp]
  · refine ⟨p + sz - h % sz, by omega, ?_⟩
    rw [Nat.add_mod, Nat.mod_eq_of_lt (by omega : p + sz - h % sz < sz),
      show h % sz + (p + sz - h % sz) = p + sz by omega, Nat.add_mod_right, Nat.mod_eq_of_lt hp]

theorem used_lt {t : Map K V} {n : Nat} (h : used t n < n) : ∃ p, p < n ∧ ¬ Used t p := by
  refine Decidable.byContradiction fun hc => ?_
  have ha : ∀ p, p < n → Used t p := by
    intro p hp
    exact Decidable.byContradiction fun hu => hc ⟨p, hp, hu⟩
  have : used t n = n := by
    unfold used
    rw [List.countP_eq_length.2]
    · simp
    · intro p hp
      simp only [decide_eq_true_eq]
      exact ha p (List.mem_range.1 hp)
  omega

/-- smallest number with a property -/
theorem exists_least {P : Nat → Prop} [DecidablePred P] {n : Nat} (h : P n) : ∃ m, m ≤ n ∧ P m ∧ ∀ i, i < m → ¬ P i := by
  induction n using Nat.strongRecOn with
  | ind n ih =>
    by_cases c : ∃ i, i < n ∧ P i
    · obtain ⟨i, hi, hp⟩ := c
      obtain ⟨m, hm, hpm, hl⟩ := ih i hi hp
      exact ⟨m, by omega, hpm, hl⟩
    · exact ⟨n, Nat.le_refl n, h, fun i hi hp => c ⟨i, hi, hp⟩⟩

/-- `find` ends, at the entry of the key or at an empty slot reachable from its home. -/
theorem find_core {hash : K → Nat} {t : Map K V} (i : Inv hash t) (hp : t.pop < t.sz) (k : K) (hk : hash k ≠ 0) :
    ∃ p, p < t.sz ∧
      ((find t k (hash k) = some (p, true) ∧ Used t p ∧ (t.a p).key = k) ∨
       (find t k (hash k) = some (p, false) ∧ ¬ Used t p ∧ Chain t (hash k) p ∧
          ∀ q, q < t.sz → Used t q → (t.a q).key ≠ k)) := by
  have hsz := i.sz_pos
  obtain ⟨e, he, hu⟩ := used_lt (by rw [← i.pop]; exact hp : used t t.sz < t.sz)
  obtain ⟨d, hd, hde⟩ := exists_probe (hash k) he
  let P : Nat → Prop := fun n => ¬ Used t ((hash k + n) % t.sz) ∨
    ((t.a ((hash k + n) % t.sz)).hash = hash k ∧ (t.a ((hash k + n) % t.sz)).key = k)
  obtain ⟨n, hn, hpn, hl⟩ := exists_least (P := P) (n := d) (Or.inl (by rw [hde]; exact hu))
  have hl' : ∀ j, j < n → Used t ((hash k + j) % t.sz) ∧
      ¬ ((t.a ((hash k + j) % t.sz)).hash = hash k ∧ (t.a ((hash k + j) % t.sz)).key = k) := by
    intro j hj
    have := hl j hj
    exact ⟨Decidable.byContradiction fun c => this (Or.inl c), fun c => this (Or.inr c)⟩
  have hf := findLoop_first t k (hash k) hsz n 0 t.sz (by omega)
    (by simpa only [Nat.add_zero] using hl') (by simpa only [Nat.add_zero] using hpn)
  simp only [Nat.add_zero] at hf
  rw [← i.home] at hf
  refine ⟨(hash k + n) % t.sz, Nat.mod_lt _ hsz, ?_⟩
  by_cases hm : (t.a ((hash k + n) % t.sz)).hash = hash k ∧ (t.a ((hash k + n) % t.sz)).key = k
  · left
    rw [decide_eq_true hm] at hf
    refine ⟨hf, ?_, hm.2⟩
    unfold Used
    rw [hm.1]; exact hk
  · right
    rw [decide_eq_false hm] at hf
    have hnu : ¬ Used t ((hash k + n) % t.sz) := by
      rcases hpn with h | h
      · exact h
      · exact absurd h hm
    refine ⟨hf, hnu, ⟨n, by omega, rfl, fun j hj => (hl' j hj).1⟩, ?_⟩
    intro q hq huq hkq
    have hh := i.hsh q hq huq
    obtain ⟨d', hd', hq', hc⟩ := i.chn q hq huq
    rw [hkq] at hh
    rw [hh] at hq' hc
    by_cases c : d' < n
    · have := (hl' d' c).2
      rw [← hq'] at this
      exact this ⟨hh, hkq⟩
    · by_cases c' : n = d'
      · subst c'
        rw [← hq'] at hnu
        exact hnu huq
      · exact hnu (hc n (by omega))

theorem used_put {t u : Map K V} {p : Nat} (hu : ∀ q, q ≠ p → (Used u q ↔ Used t q)) (hp : Used u p) (hn : ¬ Used t p) :
    ∀ n, used u n = used t n + (if p < n then 1 else 0) := by
  intro n
  induction n with
  | zero => simp [used]
  | succ n ih =>
    unfold used at ih ⊢
    rw [List.range_succ, List.countP_append, List.countP_append, ih]
    simp only [List.countP_singleton]
    by_cases c : n = p
    · subst c
      rw [if_pos (show decide (Used u n) = true by simpa using hp), if_neg (show ¬ decide (Used t n) = true by simpa using hn)]
      simp
    · have h1 : decide (Used u n) = decide (Used t n) := by rw [decide_eq_decide]; exact hu n c
      rw [h1]
      have h2 : (p < n + 1) ↔ p < n := by omega
      simp only [h2]
      omega

/-- entering a new key at an empty slot its probing reaches -/
theorem put_inv {hash : K → Nat} {t : Map K V} (i : Inv hash t) {p : Nat} (hp : p < t.sz) (hnu : ¬ Used t p) (e : Ent K V)
    (he : e.hash = hash e.key) (hk : hash e.key ≠ 0) (hc : Chain t e.hash p)
    (hnew : ∀ q, q < t.sz → Used t q → (t.a q).key ≠ e.key) :
    Inv hash { t.set p e with pop := t.pop + 1 } := by
  have ha : ∀ q, ({ t.set p e with pop := t.pop + 1 } : Map K V).a q = if q = p then e else t.a q := fun _ => rfl
  generalize hu' : ({ t.set p e with pop := t.pop + 1 } : Map K V) = u at ha
  have hsz : u.sz = t.sz := by rw [← hu']; rfl
  have hpop : u.pop = t.pop + 1 := by rw [← hu']
  have hat : ∀ q, q ≠ p → u.a q = t.a q := by intro q hq; rw [ha, if_neg hq]
  have hap : u.a p = e := by rw [ha, if_pos rfl]
  have hup : Used u p := by unfold Used; rw [hap, he]; exact hk
  have huo : ∀ q, q ≠ p → (Used u q ↔ Used t q) := by intro q hq; unfold Used; rw [hat q hq]
  have humono : ∀ q, Used t q → Used u q := by
    intro q hq
    by_cases c : q = p
    · rw [c]; exact hup
    · exact (huo q c).2 hq
  have hcm : ∀ h q, Chain t h q → Chain u h q := by
    rintro h q ⟨d, hd, hq, hj⟩
    refine ⟨d, by rw [hsz]; exact hd, by rw [hsz]; exact hq, ?_⟩
    intro j hjd
    rw [hsz]
    exact humono _ (hj j hjd)
  refine ⟨by rw [hsz]; exact i.pow, ?_, ?_, ?_, ?_⟩
  · intro q hq hqu
    by_cases c : q = p
    · rw [c, hap]; exact he
    · rw [hat q c]
      exact i.hsh q (by rw [← hsz]; exact hq) ((huo q c).1 hqu)
  · intro q hq hqu
    by_cases c : q = p
    · rw [c, hap]; exact hcm _ _ hc
    · rw [hat q c]
      exact hcm _ _ (i.chn q (by rw [← hsz]; exact hq) ((huo q c).1 hqu))
  · intro q r hq hr hqu hru hkk
    rw [hsz] at hq hr
    by_cases c : q = p
    · by_cases c' : r = p
      · rw [c, c']
      · rw [c, hap, hat r c'] at hkk
        exact absurd hkk.symm (hnew r hr ((huo r c').1 hru))
    · by_cases c' : r = p
      · rw [c', hap, hat q c] at hkk
        exact absurd hkk (hnew q hq ((huo q c).1 hqu))
      · rw [hat q c, hat r c'] at hkk
        exact i.uniq q r hq hr ((huo q c).1 hqu) ((huo r c').1 hru) hkk
  · rw [hpop, hsz, used_put huo hup hnu, if_pos hp, i.pop]

theorem setVal_inv {hash : K → Nat} {t : Map K V} (i : Inv hash t) (p : Nat) (v : V) : Inv hash (t.setVal p v) := by
  have hh : ∀ q, ((t.setVal p v).a q).hash = (t.a q).hash := by
    intro q; unfold Map.setVal Map.set; simp only; split
    · rename_i c; rw [c]
    · rfl
  have hk : ∀ q, ((t.setVal p v).a q).key = (t.a q).key := by
    intro q; unfold Map.setVal Map.set; simp only; split
    · rename_i c; rw [c]
    · rfl
  have hu : ∀ q, Used (t.setVal p v) q ↔ Used t q := by intro q; unfold Used; rw [hh]
  have hsz : (t.setVal p v).sz = t.sz := rfl
  refine ⟨i.pow, ?_, ?_, ?_, ?_⟩
  · intro q hq hqu; rw [hh, hk]; exact i.hsh q hq ((hu q).1 hqu)
  · intro q hq hqu
    rw [hh]
    obtain ⟨d, a, b, c⟩ := i.chn q hq ((hu q).1 hqu)
    exact ⟨d, a, b, fun j hj => (hu _).2 (c j hj)⟩
  · intro q r hq hr h1 h2 h3
    rw [hk, hk] at h3
    exact i.uniq q r hq hr ((hu q).1 h1) ((hu r).1 h2) h3
  · show t.pop = _
    rw [i.pop, hsz]
    unfold used
    refine List.countP_congr fun q _ => ?_
    simp only [decide_eq_true_eq]
    exact (hu q).symm

/-- map update -/
def upd (f : K → Option V) (k : K) (v : V) : K → Option V := fun j => if j = k then some v else f j

theorem put_holds {t : Map K V} {f : K → Option V} (hf : Holds t f) {p : Nat} (hp : p < t.sz) (hnu : ¬ Used t p)
    (e : Ent K V) (he : e.hash ≠ 0) (hnew : ∀ q, q < t.sz → Used t q → (t.a q).key ≠ e.key) (n : Nat) :
    Holds { t.set p e with pop := n } (upd f e.key e.val) := by
  have ha : ∀ q, ({ t.set p e with pop := n } : Map K V).a q = if q = p then e else t.a q := fun _ => rfl
  generalize hu' : ({ t.set p e with pop := n } : Map K V) = u at ha
  have hsz : u.sz = t.sz := by rw [← hu']; rfl
  have hat : ∀ q, q ≠ p → u.a q = t.a q := by intro q hq; rw [ha, if_neg hq]
  have hap : u.a p = e := by rw [ha, if_pos rfl]
  have hup : Used u p := by unfold Used; rw [hap]; exact he
  have huo : ∀ q, q ≠ p → (Used u q ↔ Used t q) := by intro q hq; unfold Used; rw [hat q hq]
  intro k v
  unfold upd
  by_cases c : k = e.key
  · rw [if_pos c]
    constructor
    · intro h
      injection h with h
      exact ⟨p, by rw [hsz]; exact hp, hup, by rw [hap, c], by rw [hap, h]⟩
    · rintro ⟨q, hq, hqu, hqk, hqv⟩
      by_cases c' : q = p
      · rw [c', hap] at hqv; rw [hqv]
      · rw [hat q c', c] at hqk
        exact absurd hqk (hnew q (by rw [← hsz]; exact hq) ((huo q c').1 hqu))
  · rw [if_neg c, hf k v]
    constructor
    · rintro ⟨q, hq, hqu, hqk, hqv⟩
      have c' : q ≠ p := by intro c'; rw [c'] at hqu; exact hnu hqu
      exact ⟨q, by rw [hsz]; exact hq, (huo q c').2 hqu, by rw [hat q c']; exact hqk, by rw [hat q c']; exact hqv⟩
    · rintro ⟨q, hq, hqu, hqk, hqv⟩
      by_cases c' : q = p
      · rw [c', hap] at hqk; exact absurd hqk.symm c
      · exact ⟨q, by rw [← hsz]; exact hq, (huo q c').1 hqu, by rw [← hat q c']; exact hqk, by rw [← hat q c']; exact hqv⟩

theorem setVal_holds {hash : K → Nat} {t : Map K V} (i : Inv hash t) {f : K → Option V} (hf : Holds t f) {p : Nat}
    (hp : p < t.sz) (hu : Used t p) (v : V) : Holds (t.setVal p v) (upd f (t.a p).key v) := by
  have ha : ∀ q, (t.setVal p v).a q = if q = p then { t.a p with val := v } else t.a q := fun _ => rfl
  generalize hu' : t.setVal p v = u at ha
  have hsz : u.sz = t.sz := by rw [← hu']; rfl
  have hat : ∀ q, q ≠ p → u.a q = t.a q := by intro q hq; rw [ha, if_neg hq]
  have hap : u.a p = { t.a p with val := v } := by rw [ha, if_pos rfl]
  have huo : ∀ q, Used u q ↔ Used t q := by
    intro q
    by_cases c : q = p
    · unfold Used; rw [c, hap]
    · unfold Used; rw [hat q c]
  intro k w
  unfold upd
  by_cases c : k = (t.a p).key
  · rw [if_pos c]
    constructor
    · intro h
      injection h with h
      exact ⟨p, by rw [hsz]; exact hp, (huo p).2 hu, by rw [hap, c], by rw [hap, h]⟩
    · rintro ⟨q, hq, hqu, hqk, hqv⟩
      by_cases c' : q = p
      · rw [c', hap] at hqv; exact congrArg some hqv
      · rw [hat q c', c] at hqk
        exact absurd (i.uniq q p (by rw [← hsz]; exact hq) hp ((huo q).1 hqu) hu hqk) c'
  · rw [if_neg c, hf k w]
    constructor
    · rintro ⟨q, hq, hqu, hqk, hqv⟩
      have c' : q ≠ p := by intro c'; rw [c'] at hqk; exact c hqk.symm
      exact ⟨q, by rw [hsz]; exact hq, (huo q).2 hqu, by rw [hat q c']; exact hqk, by rw [hat q c']; exact hqv⟩
    · rintro ⟨q, hq, hqu, hqk, hqv⟩
      have c' : q ≠ p := by intro c'; rw [c', hap] at hqk; exact c hqk.symm
      exact ⟨q, by rw [← hsz]; exact hq, (huo q).1 hqu, by rw [← hat q c']; exact hqk, by rw [← hat q c']; exact hqv⟩

theorem m_inv (hash : K → Nat) (junk : K × V) (s : Nat) : Inv hash (m junk (2^s)) := by
  have hn : ∀ q, ¬ Used (m junk (2^s)) q := by intro q h; exact h rfl
  refine ⟨⟨s, rfl⟩, fun p _ h => absurd h (hn p), fun p _ h => absurd h (hn p), fun p _ _ _ h => absurd h (hn p), ?_⟩
  show 0 = _
  unfold used
  rw [List.countP_eq_zero.2]
  intro p _
  simpa using hn p

theorem m_holds (junk : K × V) (n : Nat) : Holds (m junk n) (fun _ => none) := by
  intro k v
  constructor
  · intro h; cases h
  · rintro ⟨q, _, h, _⟩; exact absurd rfl h

theorem qinsLoop_first (t : Map K V) (e : Ent K V) (h : Nat) (hsz : 0 < t.sz) :
    ∀ (n d fuel : Nat), n < fuel → (∀ i, i < n → Used t ((h + d + i) % t.sz)) → ¬ Used t ((h + d + n) % t.sz) →
      qinsLoop t e ((h + d) % t.sz) fuel = some { t.set ((h + d + n) % t.sz) e with pop := t.pop + 1 } := by
  intro n
  induction n with
  | zero =>
    intro d fuel hf _ hs
    obtain ⟨fuel, rfl⟩ : ∃ g, fuel = g + 1 := ⟨fuel - 1, by omega⟩
    simp only [Nat.add_zero] at hs ⊢
    have he : (t.a ((h + d) % t.sz)).hash = 0 := Decidable.byContradiction hs
    unfold qinsLoop
    rw [if_pos he]
  | succ n ih =>
    intro d fuel hf hn hs
    obtain ⟨fuel, rfl⟩ : ∃ g, fuel = g + 1 := ⟨fuel - 1, by omega⟩
    have h0 := hn 0 (by omega)
    simp only [Nat.add_zero] at h0
    have e' : ∀ i, h + (d + 1) + i = h + d + (i + 1) := by intro i; omega
    have := ih (d + 1) fuel (by omega) (by intro i hi; rw [e']; exact hn (i+1) (by omega)) (by rw [e']; exact hs)
    rw [e'] at this
    unfold qinsLoop
    rw [if_neg h0, next_mod hsz]
    exact this

theorem qins_core {hash : K → Nat} {t : Map K V} (i : Inv hash t) (hp : t.pop < t.sz) (e : Ent K V) :
    ∃ p, p < t.sz ∧ ¬ Used t p ∧ Chain t e.hash p ∧ qins t e = some { t.set p e with pop := t.pop + 1 } := by
  have hsz := i.sz_pos
  obtain ⟨x, hx, hu⟩ := used_lt (by rw [← i.pop]; exact hp : used t t.sz < t.sz)
  obtain ⟨d, hd, hde⟩ := exists_probe e.hash hx
  let P : Nat → Prop := fun n => ¬ Used t ((e.hash + n) % t.sz)
  obtain ⟨n, hn, hpn, hl⟩ := exists_least (P := P) (n := d) (by show ¬ Used t _; rw [hde]; exact hu)
  have hl' : ∀ j, j < n → Used t ((e.hash + j) % t.sz) := fun j hj => Decidable.byContradiction (hl j hj)
  have hf := qinsLoop_first t e e.hash hsz n 0 t.sz (by omega)
    (by simpa only [Nat.add_zero] using hl') (by simpa only [Nat.add_zero] using hpn)
  simp only [Nat.add_zero] at hf
  rw [← i.home] at hf
  exact ⟨(e.hash + n) % t.sz, Nat.mod_lt _ hsz, hpn, ⟨n, by omega, rfl, hl'⟩, hf⟩

theorem used_succ (t : Map K V) (n : Nat) : used t (n+1) = used t n + (if Used t n then 1 else 0) := by
  unfold used
  rw [List.range_succ, List.countP_append]
  simp only [List.countP_singleton, decide_eq_true_eq]

theorem used_le (t : Map K V) (n : Nat) : used t n ≤ n := by
  have := List.countP_le_length (p := fun p => decide (Used t p)) (l := List.range n)
  simpa [used] using this

/-- the entries of the first `i` slots -/
def prefixHolds (pm t : Map K V) (i : Nat) : Prop :=
  ∀ k v, (∃ p, p < i ∧ Used pm p ∧ (pm.a p).key = k ∧ (pm.a p).val = v) ↔
    (∃ p, p < t.sz ∧ Used t p ∧ (t.a p).key = k ∧ (t.a p).val = v)

theorem dblLoop_core {hash : K → Nat} {pm : Map K V} (ip : Inv hash pm) :
    ∀ (n i : Nat) (nm : Map K V), i + n = pm.sz → Inv hash nm → nm.sz = pm.sz * 2 → nm.pop = used pm i →
      prefixHolds pm nm i →
      ∃ r, dblLoop pm nm i n = some r ∧ Inv hash r ∧ r.sz = pm.sz * 2 ∧ r.pop = used pm pm.sz ∧ prefixHolds pm r pm.sz := by
  intro n
  induction n with
  | zero =>
    intro i nm hi inm hsz hpop hpre
    have : i = pm.sz := by omega
    subst this
    exact ⟨nm, rfl, inm, hsz, hpop, hpre⟩
  | succ n ih =>
    intro i nm hi inm hsz hpop hpre
    have hsp := ip.sz_pos
    unfold dblLoop
    simp only
    by_cases hu : (pm.a i).hash ≠ 0
    · rw [if_pos hu]
      have hul := used_le pm i
      obtain ⟨p, hp, hnu, hc, hq⟩ := qins_core inm (by omega) (pm.a i)
      rw [hq, Option.bind_some]
      have hiu : Used pm i := hu
      have hilt : i < pm.sz := by omega
      have hnew : ∀ q, q < nm.sz → Used nm q → (nm.a q).key ≠ (pm.a i).key := by
        intro q hq hqu hk
        obtain ⟨r, hr, hru, hrk, _⟩ := (hpre _ _).2 ⟨q, hq, hqu, hk, rfl⟩
        have := ip.uniq r i (by omega) hilt hru hiu hrk
        omega
      have hh := ip.hsh i hilt hiu
      have inm' := put_inv inm hp hnu (pm.a i) hh (by rw [← hh]; exact hiu) hc hnew
      have ha : ∀ q, ({ nm.set p (pm.a i) with pop := nm.pop + 1 } : Map K V).a q = if q = p then pm.a i else nm.a q :=
        fun _ => rfl
      refine ih (i+1) _ (by omega) inm' hsz (by rw [used_succ, if_pos hiu]; show nm.pop + 1 = _; rw [hpop]) ?_
      have hs' : ({ nm.set p (pm.a i) with pop := nm.pop + 1 } : Map K V).sz = nm.sz := rfl
      revert ha hs'
      generalize ({ nm.set p (pm.a i) with pop := nm.pop + 1 } : Map K V) = u
      intro ha hs' k v
      constructor
      · rintro ⟨q, hq, hqu, hqk, hqv⟩
        by_cases c : q = i
        · subst c
          refine ⟨p, by rw [hs']; exact hp, ?_, ?_, ?_⟩
          · unfold Used; rw [ha, if_pos rfl]; exact hqu
          · rw [ha, if_pos rfl]; exact hqk
          · rw [ha, if_pos rfl]; exact hqv
        · obtain ⟨r, hr, hru, hrk, hrv⟩ := (hpre k v).1 ⟨q, by omega, hqu, hqk, hqv⟩
          have hrp : r ≠ p := by intro e; rw [e] at hru; exact hnu hru
          refine ⟨r, by rw [hs']; exact hr, ?_, ?_, ?_⟩
          · unfold Used; rw [ha, if_neg hrp]; exact hru
          · rw [ha, if_neg hrp]; exact hrk
          · rw [ha, if_neg hrp]; exact hrv
      · rintro ⟨r, hr, hru, hrk, hrv⟩
        by_cases c : r = p
        · rw [ha, if_pos c] at hrk hrv
          exact ⟨i, by omega, hiu, hrk, hrv⟩
        · unfold Used at hru
          rw [ha, if_neg c] at hru hrk hrv
          obtain ⟨q, hq, rest⟩ := (hpre k v).2 ⟨r, by rw [← hs']; exact hr, hru, hrk, hrv⟩
          exact ⟨q, by omega, rest⟩
    · rw [if_neg hu]
      have hnu : ¬ Used pm i := hu
      refine ih (i+1) nm (by omega) inm hsz (by rw [used_succ, if_neg hnu, hpop]; rfl) ?_
      intro k v
      rw [← hpre k v]
      constructor
      · rintro ⟨q, hq, hqu, rest⟩
        have : q ≠ i := by intro e; rw [e] at hqu; exact hnu hqu
        exact ⟨q, by omega, hqu, rest⟩
      · rintro ⟨q, hq, rest⟩
        exact ⟨q, by omega, rest⟩

theorem dbl_core {hash : K → Nat} (junk : K × V) {t : Map K V} (i : Inv hash t) {f : K → Option V} (hf : Holds t f) :
    ∃ r, dbl junk t = some r ∧ Inv hash r ∧ r.sz = t.sz * 2 ∧ r.pop = t.pop ∧ Holds r f := by
  obtain ⟨s, hs⟩ := i.pow
  have hm : Inv hash (m junk (t.sz*2)) := by
    rw [hs, show 2^s*2 = 2^(s+1) from rfl]; exact m_inv hash junk (s+1)
  obtain ⟨r, hr, ir, hsz, hpop, hpre⟩ := dblLoop_core i t.sz 0 (m junk (t.sz*2)) (by omega) hm rfl rfl (by
    intro k v
    constructor
    · rintro ⟨p, hp, _⟩; omega
    · rintro ⟨p, _, hu, _⟩; exact absurd rfl hu)
  exact ⟨r, hr, ir, hsz, by rw [hpop, i.pop], fun k v => by rw [hf k v]; exact hpre k v⟩

/-- what every table in use satisfies -/
structure Good (hash : K → Nat) (t : Map K V) (f : K → Option V) : Prop where
  inv : Inv hash t
  big : 4 ≤ t.sz
  load : t.pop * 2 ≤ t.sz + 2
  holds : Holds t f

theorem m_good (hash : K → Nat) (junk : K × V) (s : Nat) (hs : 2 ≤ s) : Good hash (m junk (2^s)) (fun _ => none) :=
  ⟨m_inv hash junk s, Nat.pow_le_pow_right (n := 2) (by omega) hs, by show 0 * 2 ≤ _; omega, m_holds junk _⟩

theorem find_good {hash : K → Nat} {t : Map K V} {f : K → Option V} (g : Good hash t f) (k : K) (hk : hash k ≠ 0) :
    ∃ p, p < t.sz ∧
      ((find t k (hash k) = some (p, true) ∧ Used t p ∧ (t.a p).key = k ∧ f k = some (t.a p).val) ∨
       (find t k (hash k) = some (p, false) ∧ f k = none ∧ ¬ Used t p ∧ Chain t (hash k) p ∧
          ∀ q, q < t.sz → Used t q → (t.a q).key ≠ k)) := by
  have hb := g.big
  have hl := g.load
  obtain ⟨p, hp, h⟩ := find_core g.inv (by omega) k hk
  refine ⟨p, hp, ?_⟩
  rcases h with ⟨h1, h2, h3⟩ | ⟨h1, h2, h3, h4⟩
  · exact Or.inl ⟨h1, h2, h3, (g.holds k _).2 ⟨p, hp, h2, h3, rfl⟩⟩
  · refine Or.inr ⟨h1, ?_, h2, h3, h4⟩
    cases hv : f k with
    | none => rfl
    | some v =>
      obtain ⟨q, hq, hqu, hqk, _⟩ := (g.holds k v).1 hv
      exact absurd hqk (h4 q hq hqu)

theorem setVal_good {hash : K → Nat} {t : Map K V} {f : K → Option V} (g : Good hash t f) {p : Nat} (hp : p < t.sz)
    (hu : Used t p) (v : V) : Good hash (t.setVal p v) (upd f (t.a p).key v) :=
  ⟨setVal_inv g.inv p v, g.big, g.load, setVal_holds g.inv g.holds hp hu v⟩

/-- `mk`: the key is there afterwards. If it was there nothing changed; otherwise once the value is set the map is updated. -/
theorem mk_good {hash : K → Nat} (junk : K × V) {t : Map K V} {f : K → Option V} (g : Good hash t f) (k : K) (hk : hash k ≠ 0) :
    ∃ u p, p < u.sz ∧ Used u p ∧ (u.a p).key = k ∧
      ((mk hash junk t k = some (u, p, true) ∧ Good hash u f ∧ f k = some (u.a p).val) ∨
       (mk hash junk t k = some (u, p, false) ∧ f k = none ∧ Good hash u (upd f k (u.a p).val))) := by
  obtain ⟨t', ht', g', hl'⟩ : ∃ t', (if t.pop * 2 > t.sz then dbl junk t else some t) = some t' ∧ Good hash t' f ∧
      t'.pop * 2 ≤ t'.sz := by
    by_cases c : t.pop * 2 > t.sz
    · obtain ⟨r, hr, ir, hsz, hpop, hh⟩ := dbl_core (hash := hash) junk g.inv g.holds
      have hb := g.big
      have hl := g.load
      exact ⟨r, by rw [if_pos c, hr], ⟨ir, by omega, by omega, hh⟩, by omega⟩
    · exact ⟨t, by rw [if_neg c], g, by omega⟩
  unfold mk
  rw [ht', Option.bind_some]
  obtain ⟨p, hp, h⟩ := find_good g' k hk
  rcases h with ⟨h1, h2, h3, h4⟩ | ⟨h1, h2, h3, h4, h5⟩
  · refine ⟨t', p, hp, h2, h3, Or.inl ⟨?_, g', h4⟩⟩
    rw [h1]; rfl
  · have ee : ({ t'.a p with hash := hash k, key := k } : Ent K V) = ⟨hash k, k, (t'.a p).val⟩ := rfl
    refine ⟨{ t'.set p ⟨hash k, k, (t'.a p).val⟩ with pop := t'.pop + 1 }, p, hp, ?_, ?_, Or.inr ⟨?_, h2, ?_⟩⟩
    · show (if p = p then (⟨hash k, k, (t'.a p).val⟩ : Ent K V) else t'.a p).hash ≠ 0
      rw [if_pos rfl]; exact hk
    · show (if p = p then (⟨hash k, k, (t'.a p).val⟩ : Ent K V) else t'.a p).key = k
      rw [if_pos rfl]
    · rw [h1]; rfl
    · have hv : (({ t'.set p ⟨hash k, k, (t'.a p).val⟩ with pop := t'.pop + 1 } : Map K V).a p).val = (t'.a p).val := by
        show (if p = p then (⟨hash k, k, (t'.a p).val⟩ : Ent K V) else t'.a p).val = _
        rw [if_pos rfl]
      rw [hv]
      exact ⟨put_inv g'.inv hp h3 ⟨hash k, k, (t'.a p).val⟩ rfl hk h4 h5, g'.big,
        by show (t'.pop + 1) * 2 ≤ t'.sz + 2; omega,
        put_holds g'.holds hp h3 ⟨hash k, k, (t'.a p).val⟩ hk h5 (t'.pop+1)⟩

theorem upd_upd (f : K → Option V) (k : K) (v w : V) : upd (upd f k v) k w = upd f k w := by
  funext j
  unfold upd
  split <;> rfl

/-- `mk` and setting the value to `v` -/
theorem mkSet_good {hash : K → Nat} (junk : K × V) {t : Map K V} {f : K → Option V} (g : Good hash t f) (k : K) (hk : hash k ≠ 0) :
    ∃ u p, mk hash junk t k = some (u, p, (f k).isSome) ∧ (∀ v, f k = some v → (u.a p).val = v ∧ Good hash u f) ∧
      ∀ v, Good hash (u.setVal p v) (upd f k v) := by
  obtain ⟨u, p, hp, hu, hkey, h⟩ := mk_good junk g k hk
  rcases h with ⟨h1, h2, h3⟩ | ⟨h1, h2, h3⟩
  · refine ⟨u, p, by rw [h1, h3]; rfl, ?_, ?_⟩
    · intro v hv
      rw [h3] at hv
      injection hv with hv
      exact ⟨hv, h2⟩
    · intro v
      have := setVal_good h2 hp hu v
      rwa [hkey] at this
  · refine ⟨u, p, by rw [h1, h2]; rfl, ?_, ?_⟩
    · intro v hv; rw [h2] at hv; cases hv
    · intro v
      have := setVal_good h3 hp hu v
      rwa [hkey, upd_upd] at this

end Verif.HTab
