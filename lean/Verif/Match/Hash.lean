import Verif.Match.Equal
import Verif.Match.Wy
/-!
# `bqn_hash`: proofs
-/
namespace Verif.Match
open Verif.Squeeze (Val El Data Arr EqF Same Sames Holds Least IntIn)
open Verif.Bits (Word bitF)
open Verif.Bins (ofInt)

variable {h : Heap} {depth : Nat → Nat}

/-! ## Numbers -/

theorem plusZero_key (f : BitVec 64) : Compare.key (plusZero f) = Compare.key f := by
  unfold plusZero
  split
  · rename_i e; rw [e]; decide
  · rfl

theorem plusZero_eq {f g : BitVec 64} (e : Compare.key f = Compare.key g) : plusZero f = plusZero g := by
  unfold plusZero
  have hf := f.isLt
  have hg := g.isLt
  have t : (0x8000000000000000 : BitVec 64).toNat = 2^63 := by decide
  have z : (0 : BitVec 64).toNat = 0 := by decide
  unfold Compare.key at e
  by_cases a : f = 0x8000000000000000 <;> by_cases b : g = 0x8000000000000000
  · rw [if_pos a, if_pos b]
  · rw [if_pos a, if_neg b]
    have : g.toNat ≠ 2^63 := fun h => b (BitVec.eq_of_toNat_eq (h.trans t.symm))
    have ha := congrArg BitVec.toNat a
    rw [t] at ha
    apply BitVec.eq_of_toNat_eq
    rw [z]; split at e <;> split at e <;> omega
  · rw [if_neg a, if_pos b]
    have : f.toNat ≠ 2^63 := fun h => a (BitVec.eq_of_toNat_eq (h.trans t.symm))
    have ha := congrArg BitVec.toNat b
    rw [t] at ha
    apply BitVec.eq_of_toNat_eq
    rw [z]; split at e <;> split at e <;> omega
  · rw [if_neg a, if_neg b]
    have : f.toNat ≠ 2^63 := fun h => a (BitVec.eq_of_toNat_eq (h.trans t.symm))
    have : g.toNat ≠ 2^63 := fun h => b (BitVec.eq_of_toNat_eq (h.trans t.symm))
    apply BitVec.eq_of_toNat_eq
    split at e <;> split at e <;> omega

theorem norm_of_match {f g : BitVec 64} (e : NumMatch true f g) : normalizeFloat f = normalizeFloat g := by
  unfold normalizeFloat
  rcases e with ⟨a, b, c⟩ | ⟨_, a, b⟩
  · rw [a, b]; exact plusZero_eq c
  · simp [a, b]

theorem norm_nan (f : BitVec 64) : Compare.nan (normalizeFloat f) = Compare.nan f := by
  unfold normalizeFloat
  by_cases hf : Compare.nan f = true
  · rw [if_pos hf, hf]; decide
  · rw [if_neg hf]
    unfold plusZero
    split
    · rename_i e; rw [e]; decide
    · rfl

theorem key_of_norm {f g : BitVec 64} (hf : Compare.nan f = false) (hg : Compare.nan g = false) (e : normalizeFloat f = normalizeFloat g) :
    Compare.key f = Compare.key g := by
  simp only [normalizeFloat, hf, hg, Bool.false_eq_true, if_false] at e
  rw [← plusZero_key f, e, plusZero_key]

theorem int_of_norm {i j : Int} (hi : i.natAbs < 2^53) (hj : j.natAbs < 2^53) (e : normalizeFloat (ofInt i) = normalizeFloat (ofInt j)) : i = j :=
  Squeeze.ofInt_inj hi hj (key_of_norm (ofInt_not_nan hi) (ofInt_not_nan hj) e)

theorem asNormalized_map : ∀ fs, asNormalized fs = fs.map normalizeFloat
  | [] => rfl
  | f :: fs => by
    rw [asNormalized]
    by_cases hc : f = 0x8000000000000000 ∨ Compare.nan f = true
    · rw [if_pos hc]
    · rw [if_neg hc, asNormalized_map fs, List.map_cons]
      have h1 : Compare.nan f = false := by simpa using fun e => hc (Or.inr e)
      have : normalizeFloat f = f := by
        unfold normalizeFloat plusZero
        rw [if_neg (by rw [h1]; decide), if_neg (fun e => hc (Or.inl e))]
      rw [this]

/-! ## Elements after squeezing -/

/-- Values that hash alike: numbers with the same normal form, equal characters, matching objects. -/
def Rel (h : Heap) : Val → Val → Prop
  | .num f, .num g => normalizeFloat f = normalizeFloat g
  | .chr c, .chr d => c = d
  | .other i, .other j => Match h true (.other i) (.other j)
  | _, _ => False

theorem rel_of_match {u v : Val} (m : Match h true u v) : Rel h u v := by
  cases u <;> cases v <;> try (cases m; done)
  · exact norm_of_match (match_num.1 m)
  · exact match_chr.1 m
  · exact m

theorem norm_of_same {f g : BitVec 64} (e : f = g ∨ EqF f g) : normalizeFloat f = normalizeFloat g := by
  rcases e with rfl | e
  · rfl
  · exact norm_of_match (Or.inl e)

theorem rel_same {u v w x : Val} (a : Same u v) (m : Match h true v w) (b : Same w x) : Rel h u x := by
  cases v <;> cases w <;> try (cases m; done)
  · cases u <;> cases x <;> simp only [Same] at a b <;> try trivial
    exact ((norm_of_same a).trans (norm_of_match (match_num.1 m))).trans (norm_of_same b)
  · cases u <;> cases x <;> simp only [Same] at a b <;> try trivial
    exact (a.trans (match_chr.1 m)).trans b
  · cases u <;> cases x <;> simp only [Same] at a b <;> try trivial
    subst a; subst b; exact m

theorem Sames.get {us vs : List Val} (s : Sames us vs) : ∀ (k : Nat) u, us[k]? = some u → ∃ v, vs[k]? = some v ∧ Same u v := by
  induction s with
  | nil => intro k u e; simp at e
  | cons s _ ih =>
    intro k u e
    cases k with
    | zero => simp at e; subst e; exact ⟨_, by simp, s⟩
    | succ k => simp only [List.getElem?_cons_succ] at e ⊢; exact ih k u e

theorem match_mono {r : Bool} {u v : Val} (m : Match h r u v) : Match h true u v := by
  induction m with
  | num e =>
    refine .num ?_
    rcases e with e | ⟨_, e⟩
    · exact Or.inl e
    · exact Or.inr ⟨rfl, e⟩
  | chr => exact .chr
  | arr e1 e2 hl _ ih => exact .arr e1 e2 hl ih
  | same e => exact .same e
  | der e1 e2 hl hm _ => exact .der e1 e2 hl hm

theorem match_symm {r : Bool} {u v : Val} (m : Match h r u v) : Match h r v u := by
  induction m with
  | num e =>
    refine .num ?_
    rcases e with e | ⟨hr, a, b⟩
    · exact Or.inl e.symm
    · exact Or.inr ⟨hr, b, a⟩
  | chr => exact .chr
  | arr e1 e2 hl _ ih => exact .arr e2 e1 hl.symm fun k u v hu hv => ih k v u hv hu
  | same e => exact .same e
  | der e1 e2 hl _ ih => exact .der e2 e1 hl.symm fun k u v hu hv => ih k v u hv hu

theorem intIn_nan {lo hi : Int} (hl : -2147483648 ≤ lo) (hh : hi ≤ 2147483647) {f : BitVec 64} (g : IntIn lo hi (.num f)) : Compare.nan f = false := by
  obtain ⟨i, a, b, s⟩ := g
  rcases s with rfl | e
  · exact ofInt_not_nan (by omega)
  · exact e.1

theorem holds_match {t : El} {u v : Val} (m : Match h true u v) (g : Holds t u) : Holds t v := by
  cases u <;> cases v <;> try (cases m; done)
  · rename_i f f'
    rcases match_num.1 m with e | ⟨_, a, b⟩
    · exact g.same (Or.inr e)
    · cases t with
      | B => trivial
      | f64 => exact ⟨_, rfl⟩
      | bit => rw [intIn_nan (by decide) (by decide) g] at a; cases a
      | i8 => rw [intIn_nan (by decide) (by decide) g] at a; cases a
      | i16 => rw [intIn_nan (by decide) (by decide) g] at a; cases a
      | i32 => rw [intIn_nan (by decide) (by decide) g] at a; cases a
      | c8 => obtain ⟨_, e, _⟩ := g; cases e
      | c16 => obtain ⟨_, e, _⟩ := g; cases e
      | c32 => obtain ⟨_, e⟩ := g; cases e
  · exact match_chr.1 m ▸ g
  · cases t with
    | B => trivial
    | f64 => obtain ⟨_, e⟩ := g; cases e
    | bit => obtain ⟨_, _, _, e⟩ := g; cases e
    | i8 => obtain ⟨_, _, _, e⟩ := g; cases e
    | i16 => obtain ⟨_, _, _, e⟩ := g; cases e
    | i32 => obtain ⟨_, _, _, e⟩ := g; cases e
    | c8 => obtain ⟨_, e, _⟩ := g; cases e
    | c16 => obtain ⟨_, e, _⟩ := g; cases e
    | c32 => obtain ⟨_, e⟩ := g; cases e

/-- Pairwise. -/
abbrev Pairs (P : Val → Val → Prop) (us vs : List Val) : Prop := ∀ (k : Nat) u v, us[k]? = some u → vs[k]? = some v → P u v

theorem holds_pairs {t : El} {us vs : List Val} (hl : us.length = vs.length) (m : Pairs (Match h true) us vs) (g : ∀ u ∈ us, Holds t u) : ∀ v ∈ vs, Holds t v := by
  intro v hv
  obtain ⟨k, hk, e⟩ := List.getElem_of_mem hv
  have a : us[k]? = some us[k] := List.getElem?_eq_getElem (by omega)
  exact holds_match (m k _ v a (by rw [List.getElem?_eq_getElem hk, e])) (g _ (List.getElem_mem _))

theorem rank_inj {s t : El} (e : s.rank = t.rank) : s = t := by cases s <;> cases t <;> first | rfl | (exact absurd e (by decide))

theorem least_pairs {s t : El} {us vs : List Val} (hl : us.length = vs.length) (m : Pairs (Match h true) us vs) (a : Least s us) (b : Least t vs) : s = t := by
  have m' : Pairs (Match h true) vs us := fun k u v hu hv => match_symm (m k v u hv hu)
  exact rank_inj (Nat.le_antisymm (a.2 t (holds_pairs hl.symm m' b.1)) (b.2 s (holds_pairs hl m a.1)))

/-! ## Bytes -/

theorem eq_of_pairs {α} {xs ys : List α} {f : α → Val} {P : Val → Val → Prop} (hl : xs.length = ys.length) (hf : ∀ a b, P (f a) (f b) → a = b)
    (m : Pairs P (xs.map f) (ys.map f)) : xs = ys := by
  apply List.ext_getElem?
  intro k
  by_cases hk : k < xs.length
  · have a : xs[k]? = some xs[k] := List.getElem?_eq_getElem hk
    have b : ys[k]? = some ys[k] := List.getElem?_eq_getElem (by omega)
    rw [a, b, hf _ _ (m k (f xs[k]) (f ys[k]) (by simp [a]) (by simp [b]))]
  · rw [List.getElem?_eq_none (by omega), List.getElem?_eq_none (by omega)]

theorem memOf_lt {bs : List (BitVec 8)} {p q : Nat → BitVec 8} {k : Nat} (hk : k < bs.length) : memOf bs p k = memOf bs q k := by
  unfold memOf; rw [List.getElem?_eq_getElem hk]; rfl

/-- The same key: as many bytes, and the same ones. -/
def SameKey (m n : (Nat → BitVec 8) × Nat) : Prop := m.2 = n.2 ∧ ∀ k, k < m.2 → m.1 k = n.1 k

theorem key_flat {w n : Nat} {xs ys : List (BitVec w)} (e : xs = ys) {p q : Nat → BitVec 8} {a b : Nat} (ha : a = xs.length * n) (hb : b = ys.length * n) :
    SameKey (memOf (xs.flatMap (le n)) p, a) (memOf (ys.flatMap (le n)) q, b) := by
  subst e
  exact ⟨ha.trans hb.symm, fun k hk => memOf_lt (by rw [flat_length]; exact ha ▸ hk)⟩

theorem wordsOf_get (xs : List Bool) (tail : Nat → Word) (i j : Nat) (hj : j < 64) :
    (wordsOf xs tail i).getLsbD j = (match xs[64*i+j]? with | some b => b | none => (tail i).getLsbD j) := by
  unfold wordsOf
  rw [BitVec.getLsbD_setWidth, BitVec.getLsbD_ofBoolListLE]
  simp only [List.getElem?_map, List.getElem?_range hj, hj, decide_true, Bool.true_and, List.getD_eq_getElem?_getD, Option.map_some, Option.getD_some]
  cases xs[64*i+j]? <;> rfl

theorem key_bits {xs : List Bool} {t t' : Nat → Word} {n : Nat} (hn : n = xs.length) {k : Nat} (hk : k < (n+7)/8) :
    memWords (bcl (wordsOf xs t) n) k = memWords (bcl (wordsOf xs t') n) k := by
  unfold memWords
  have : bcl (wordsOf xs t) n (k/8) = bcl (wordsOf xs t') n (k/8) := by
    apply Bits.word_ext
    intro j hj
    unfold bcl
    by_cases hc : n % 64 ≠ 0 ∧ k/8 = n/64
    · rw [if_pos hc, if_pos hc, BitVec.getLsbD_and, BitVec.getLsbD_and, Fold.low_mask _ (Nat.mod_lt _ (by omega))]
      by_cases hjn : j < n % 64
      · rw [wordsOf_get _ _ _ _ hj, wordsOf_get _ _ _ _ hj, List.getElem?_eq_getElem (by omega)]
      · simp [hjn]
    · rw [if_neg hc, if_neg hc, wordsOf_get _ _ _ _ hj, wordsOf_get _ _ _ _ hj, List.getElem?_eq_getElem (by omega)]
  rw [this]

theorem allSome_pairs {us vs : List Val} {f g : Val → Option Word} (hl : us.length = vs.length)
    (H : Pairs (fun u v => ∃ c, f u = some c ∧ g v = some c) us vs) :
    ∃ hs, allSome (us.map f) = some hs ∧ allSome (vs.map g) = some hs ∧ hs.length = us.length := by
  induction us generalizing vs with
  | nil => cases vs with
    | nil => exact ⟨[], rfl, rfl, rfl⟩
    | cons => simp at hl
  | cons u us ih => cases vs with
    | nil => simp at hl
    | cons v vs =>
      obtain ⟨hs, e1, e2, e3⟩ := ih (by simpa using hl) (fun k a b ha hb => H (k+1) a b (by simpa using ha) (by simpa using hb))
      obtain ⟨c, f1, f2⟩ := H 0 u v (by simp) (by simp)
      exact ⟨c :: hs, by simp [allSome, f1, e1], by simp [allSome, f2, e2], by simp [e3]⟩

/-- The hashed data of two squeezed arrays of one type whose elements hash alike. -/
theorem hashData_same {E E' : Env} {i j : Nat} {t t' : Nat → Word} {el el' : Val → Option Word} {x y : Data} (ty : x.ty = y.ty)
    (hl : x.elems.length = y.elems.length) (m : Pairs (Rel h) x.elems y.elems)
    (H : Pairs (fun u v => ∃ c, el u = some c ∧ el' v = some c) x.elems y.elems) :
    ∃ a b, hashData E i t el x = some a ∧ hashData E' j t' el' y = some b ∧ SameKey a b := by
  have len : ∀ {α β : Type} {as : List α} {bs : List β} {f : α → Val} {g : β → Val}, (as.map f).length = (bs.map g).length → as.length = bs.length := by
    intro _ _ _ _ _ _ e; simpa using e
  cases x <;> cases y <;> try (simp [Data.ty] at ty; done)
  case bit.bit xs ys =>
    have e : xs = ys := eq_of_pairs (P := Rel h) (len hl) (fun a b r => by
      have := int_of_norm (small1 a) (small1 b) r
      cases a <;> cases b <;> first | rfl | exact absurd this (by decide)) m
    subst e
    exact ⟨_, _, rfl, rfl, rfl, fun k hk => key_bits (by simp [Data.elems]) hk⟩
  case i8.i8 xs ys =>
    exact ⟨_, _, rfl, rfl, key_flat (eq_of_pairs (P := Rel h) (f := fun a : BitVec 8 => .num (ofInt a.toInt)) (len hl)
        (fun a b r => BitVec.eq_of_toInt_eq (int_of_norm (small8 a) (small8 b) r)) m)
      (by simp [Data.elems]) (by simp [Data.elems])⟩
  case i16.i16 xs ys =>
    exact ⟨_, _, rfl, rfl, key_flat (eq_of_pairs (P := Rel h) (f := fun a : BitVec 16 => .num (ofInt a.toInt)) (len hl)
        (fun a b r => BitVec.eq_of_toInt_eq (int_of_norm (small16 a) (small16 b) r)) m)
      (by simp [Data.elems]) (by simp [Data.elems])⟩
  case i32.i32 xs ys =>
    exact ⟨_, _, rfl, rfl, key_flat (eq_of_pairs (P := Rel h) (f := fun a : BitVec 32 => .num (ofInt a.toInt)) (len hl)
        (fun a b r => BitVec.eq_of_toInt_eq (int_of_norm (small32 a) (small32 b) r)) m)
      (by simp [Data.elems]) (by simp [Data.elems])⟩
  case f64.f64 xs ys =>
    refine ⟨_, _, rfl, rfl, key_flat ?_ (by simp [Data.elems, asNormalized_map]) (by simp [Data.elems, asNormalized_map])⟩
    rw [asNormalized_map, asNormalized_map]
    have hl := len hl
    exact eq_of_pairs (f := Val.num) (P := fun u v => u = v) (by simp [hl]) (fun a b r => Val.num.inj r) (by
      intro k u v hu hv
      obtain ⟨a, ea, rfl⟩ := hit hu
      obtain ⟨b, eb, rfl⟩ := hit hv
      rw [List.getElem?_map] at ea eb
      obtain ⟨f, ef, rfl⟩ := Option.map_eq_some_iff.1 ea
      obtain ⟨g, eg, rfl⟩ := Option.map_eq_some_iff.1 eb
      have := m k (.num f) (.num g) (by simp [Data.elems, ef]) (by simp [Data.elems, eg])
      exact congrArg Val.num this)
  case c8.c8 xs ys =>
    exact ⟨_, _, rfl, rfl, key_flat (eq_of_pairs (P := Rel h) (f := fun c : BitVec 8 => .chr (c.zeroExtend 32)) (len hl)
        (fun a b r => (chr_iff true (by omega) a b).1 (by have r : a.zeroExtend 32 = b.zeroExtend 32 := r; simpa [atomEq] using r)) m)
      (by simp [Data.elems]) (by simp [Data.elems])⟩
  case c16.c16 xs ys =>
    exact ⟨_, _, rfl, rfl, key_flat (eq_of_pairs (P := Rel h) (f := fun c : BitVec 16 => .chr (c.zeroExtend 32)) (len hl)
        (fun a b r => (chr_iff true (by omega) a b).1 (by have r : a.zeroExtend 32 = b.zeroExtend 32 := r; simpa [atomEq] using r)) m)
      (by simp [Data.elems]) (by simp [Data.elems])⟩
  case c32.c32 xs ys =>
    exact ⟨_, _, rfl, rfl, key_flat (eq_of_pairs (P := Rel h) (f := Val.chr) (len hl) (fun a b r => r) m)
      (by simp [Data.elems]) (by simp [Data.elems])⟩
  case B.B xs ys =>
    obtain ⟨hs, e1, e2, e3⟩ := allSome_pairs hl H
    have e1 : allSome (xs.map el) = some hs := e1
    have e2 : allSome (ys.map el') = some hs := e2
    have hl : xs.length = ys.length := hl
    have e3 : hs.length = xs.length := e3
    refine ⟨(memOf (hs.flatMap (le 8)) (E.past i), xs.length*8), (memOf (hs.flatMap (le 8)) (E'.past j), ys.length*8), ?_, ?_, key_flat rfl (by rw [e3]) (by rw [e3, hl])⟩
    · simp only [hashData, e1]; rfl
    · simp only [hashData, e2]; rfl

/-! ## The hash of a value -/

/-- A number that is hashed. -/
theorem hashNum {s : Nat → Word} {f g : BitVec 64} (hf : PlainNaN f) (hg : PlainNaN g) (e : normalizeFloat f = normalizeFloat g) :
    (if !Compare.nan f then plusZero f else if f <<< 1 = 0xFFF0000000000000 then s 1 else f) =
    (if !Compare.nan g then plusZero g else if g <<< 1 = 0xFFF0000000000000 then s 1 else g) := by
  have en : Compare.nan f = Compare.nan g := by rw [← norm_nan f, e, norm_nan]
  have pl : ∀ f : BitVec 64, PlainNaN f → Compare.nan f = true → f <<< 1 = 0xFFF0000000000000 := by
    intro f hf hn
    rcases hf hn with e | e <;> rw [e] <;> decide
  cases hn : Compare.nan f with
  | true =>
    rw [hn] at en
    simp [← en, pl f hf hn, pl g hg en.symm]
  | false =>
    rw [hn] at en
    simp only [← en, Bool.not_false, if_true]
    exact plusZero_eq (key_of_norm hn en.symm e)

/-- Memory and conversions may differ from one hashing to the next; the secret and the words of functions do not. -/
structure Alike (E E' : Env) : Prop where
  secret : E.secret = E'.secret
  ref : E.ref = E'.ref

def PlainVal : Val → Prop
  | .num f => PlainNaN f
  | _ => True

theorem plain_part (P : Plain h) {i : Nat} {v : Val} (hv : v ∈ (h i).parts) : PlainVal v := by
  cases v with
  | num f => exact P i f hv
  | _ => trivial

theorem plain_same {u v : Val} (s : Same u v) (p : PlainVal v) : PlainVal u := by
  cases u <;> cases v <;> simp only [Same] at s <;> try trivial
  rename_i f g
  intro hn
  rcases s with rfl | e
  · exact p hn
  · rw [e.1] at hn; cases hn

theorem hashbuf_some {t : Der} {hs : List Word} (ha : hs.length = t.arity) : ∃ b, hashbuf t hs = some b ∧ b.length = 3 := by
  cases t <;> simp only [Der.arity] at ha
  · match hs, ha with
    | [a, b], _ => exact ⟨[0, a, b], rfl, rfl⟩
  · match hs, ha with
    | [a, b, c], _ => exact ⟨[c, a, b], rfl, rfl⟩
  · match hs, ha with
    | [a, b, c], _ => exact ⟨[a, b, c], rfl, rfl⟩
  · match hs, ha with
    | [a, b], _ => exact ⟨[0, a, b], rfl, rfl⟩

theorem hashN_match (G : Good h depth) (T : Truthful h) (P : Plain h) {E E' : Env} (A : Alike E E') : ∀ (n n' : Nat) (w x : Val),
    vdepth depth w < n → vdepth depth x < n' → PlainVal w → PlainVal x → Rel h w x →
    ∃ c, hashN E h n w = some c ∧ hashN E' h n' x = some c
  | 0, _, _, _, hn, _, _, _, _ => by omega
  | _, 0, _, _, _, hn, _, _, _ => by omega
  | n+1, n'+1, w, x, hn, hn', pw, px, m => by
    cases w <;> cases x <;> try (exact m.elim)
    case num.num f g =>
      rw [hashN, hashN, A.secret, hashNum pw px m]
      exact ⟨_, rfl, rfl⟩
    case chr.chr c d =>
      have m : c = d := m
      rw [hashN, hashN, A.secret, m]
      exact ⟨_, rfl, rfl⟩
    case other.other i j =>
      have hd : depth i < n := by simp only [vdepth] at hn; omega
      have hd' : depth j < n' := by simp only [vdepth] at hn'; omega
      have again : ∀ u ∈ (h i).parts, ∀ v ∈ (h j).parts, ∀ u' v', Same u' u → Match h true u v → Same v v' →
          ∃ c, hashN E h n u' = some c ∧ hashN E' h n' v' = some c := by
        intro u hu v hv u' v' su m sv
        have dep : ∀ {a b : Val}, Same a b → vdepth depth a = vdepth depth b := by
          intro a b s; cases a <;> cases b <;> simp only [Same] at s <;> first | rfl | (subst s; rfl)
        exact hashN_match G T P A n n' u' v' (by rw [dep su]; exact Nat.lt_of_le_of_lt (vdepth_part G hu) hd)
          (by rw [← dep sv]; exact Nat.lt_of_le_of_lt (vdepth_part G hv) hd')
          (plain_same su (plain_part P hu)) (plain_same sv.symm (plain_part P hv)) (rel_same su m sv)
      have m : Match h true (.other i) (.other j) := m
      rw [hashN, hashN]
      cases m with
      | @arr _ _ _ sh a b s t e1 e2 hl hm =>
        simp only [e1, e2]
        rw [e1, e2] at again
        unfold hashArr
        simp only [Obj.parts] at again
        by_cases h0 : a.data.elems.length = 0
        · rw [if_pos h0, if_pos (hl ▸ h0), A.secret]; exact ⟨_, rfl, rfl⟩
        · rw [if_neg h0, if_neg (hl ▸ h0)]
          have n1 : a.data.elems ≠ [] := fun e => h0 (by rw [e]; rfl)
          have n2 : b.data.elems ≠ [] := fun e => h0 (by rw [hl, e]; rfl)
          obtain ⟨x, ex, qx, _⟩ := Squeeze.squeezeAny_spec E.bad (T i _ _ _ e1)
          obtain ⟨y, ey, qy, _⟩ := Squeeze.squeezeAny_spec E'.bad (T j _ _ _ e2)
          rw [ex, ey]
          have ty : x.data.ty = y.data.ty := least_pairs hl hm ((qx.least n1).same qx.same) ((qy.least n2).same qy.same)
          have lx := qx.same.length
          have ly := qy.same.length
          have get : ∀ (k : Nat) u v, x.data.elems[k]? = some u → y.data.elems[k]? = some v → ∃ u' v', u' ∈ a.data.elems ∧ v' ∈ b.data.elems ∧
              Same u u' ∧ Same v v' ∧ Match h true u' v' := by
            intro k u v hu hv
            obtain ⟨u', eu, su⟩ := Sames.get qx.same k u hu
            obtain ⟨v', ev, sv⟩ := Sames.get qy.same k v hv
            exact ⟨u', v', List.mem_of_getElem? eu, List.mem_of_getElem? ev, su, sv, hm k u' v' eu ev⟩
          obtain ⟨p, q, ep, eq, k1, k2⟩ := hashData_same (h := h) (E := E) (E' := E') (i := i) (j := j) (t := s) (t' := t) (el := hashN E h n) (el' := hashN E' h n') ty
            (by rw [lx, ly, hl])
            (fun k u v hu hv => by
              obtain ⟨u', v', _, _, su, sv, mm⟩ := get k u v hu hv
              exact rel_same su mm sv.symm)
            (fun k u v hu hv => by
              obtain ⟨u', v', iu, iv, su, sv, mm⟩ := get k u v hu hv
              exact again u' iu v' iv u v su mm sv.symm)
          simp only [Option.bind_some, ep, eq, Option.map_some, ty, hl, A.secret]
          refine ⟨_, rfl, ?_⟩
          have hs : wyhash (memOf ((sh.map (BitVec.ofNat 32)).flatMap (le 4)) (E.pastSh i)) (sh.length * 4) (BitVec.ofNat 64 y.data.ty.rank) E'.secret =
              wyhash (memOf ((sh.map (BitVec.ofNat 32)).flatMap (le 4)) (E'.pastSh j)) (sh.length * 4) (BitVec.ofNat 64 y.data.ty.rank) E'.secret :=
            wyhash_congr (fun k hk => memOf_lt (by rw [flat_length, List.length_map]; exact hk)) _
          rw [hs, ← k1]
          exact congrArg some (wyhash_congr k2 _).symm
      | same e =>
        cases hi : h i with
        | arr sh a s => exact absurd hi (e _ _ _)
        | single => simp only []; rw [A.secret, A.ref]; exact ⟨_, rfl, rfl⟩
        | der t ps =>
          simp only []
          rw [hi] at again
          obtain ⟨hs, f1, f2, f3⟩ := allSome_pairs (us := ps) (vs := ps) (f := hashN E h n) (g := hashN E' h n') rfl
            (fun k u v hu hv => again u (List.mem_of_getElem? hu) v (List.mem_of_getElem? hv) u v (.refl u)
              (by rw [hu] at hv; cases hv
                  exact match_refl G n u (Nat.lt_of_le_of_lt (vdepth_part G (by rw [hi]; exact List.mem_of_getElem? hu)) hd)) (.refl v))
          rw [f1, f2]
          obtain ⟨b, eb, hb⟩ : ∃ b, hashbuf t hs = some b ∧ b.length = 3 := hashbuf_some (f3.trans (G.arity i _ _ hi))
          simp only [Option.bind_some, eb, Option.map_some, A.secret]
          exact ⟨_, rfl, congrArg some (wyhash_congr (fun k hk => memOf_lt (by rw [flat_length, hb]; exact hk)) _).symm⟩
      | @der _ _ _ t ps qs e1 e2 hl hm =>
        simp only [e1, e2]
        rw [e1, e2] at again
        obtain ⟨hs, f1, f2, f3⟩ := allSome_pairs (f := hashN E h n) (g := hashN E' h n') hl
          (fun k u v hu hv => again u (List.mem_of_getElem? hu) v (List.mem_of_getElem? hv) u v (.refl u) (hm k u v hu hv) (.refl v))
        rw [f1, f2]
        obtain ⟨b, eb, hb⟩ : ∃ b, hashbuf t hs = some b ∧ b.length = 3 := hashbuf_some (f3.trans (G.arity i _ _ e1))
        simp only [Option.bind_some, eb, Option.map_some, A.secret]
        exact ⟨_, rfl, congrArg some (wyhash_congr (fun k hk => memOf_lt (by rw [flat_length, hb]; exact hk)) _).symm⟩

end Verif.Match
