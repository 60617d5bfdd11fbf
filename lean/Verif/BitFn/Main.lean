import Verif.BitFn.Pieces
/-!
# `•bit`: the functions
-/
namespace Verif.BitFn
open Verif.Squeeze
open Verif.Bits (Word bitF)
open Verif.Rotate (prod)

/-! ## Types -/

theorem elOf_width {ct : CT} {t : El} (h : elOf ct = some t) : width t = ct.s ∧ t ≠ .B := by
  unfold elOf at h
  by_cases h1 : ct.s = 1
  · rw [if_pos h1] at h; injection h with h; subst h; exact ⟨h1.symm, by decide⟩
  · rw [if_neg h1] at h
    by_cases h8 : ct.s = 8
    · rw [if_pos h8] at h; injection h with h; subst h; cases ct.c <;> exact ⟨h8.symm, by decide⟩
    · rw [if_neg h8] at h
      by_cases h16 : ct.s = 16
      · rw [if_pos h16] at h; injection h with h; subst h; cases ct.c <;> exact ⟨h16.symm, by decide⟩
      · rw [if_neg h16] at h
        by_cases h32 : ct.s = 32
        · rw [if_pos h32] at h; injection h with h; subst h; cases ct.c <;> exact ⟨h32.symm, by decide⟩
        · rw [if_neg h32] at h
          by_cases h64 : ct.s = 64
          · rw [if_pos h64] at h; injection h with h; subst h; exact ⟨h64.symm, by decide⟩
          · rw [if_neg h64] at h; cases h

theorem width_wide {t : El} : Wide (width t) := by
  unfold Wide
  cases t <;> decide

theorem named_wid (c : Bool) (s : Nat) : named c (.wid s) = elOf ⟨s, c⟩ := by
  unfold named elOf
  split <;> simp_all

/-- Whether a width alone means characters. -/
def chars : Option El → Bool
  | some t => isChr t
  | none => false

theorem getCastType_named {e : Arg} {val : Option El} : (getCastType e val).bind elOf = named (chars val) e := by
  cases e with
  | wid s =>
    rw [named_wid]
    unfold getCastType
    dsimp only
    by_cases h : s ≠ 1 ∧ s ≠ 8 ∧ s ≠ 16 ∧ s ≠ 32 ∧ s ≠ 64
    · rw [if_pos h]
      unfold elOf
      simp [h]
    · rw [if_neg h]
      cases val <;> rfl
  | pair s t =>
    unfold getCastType
    dsimp only
    by_cases c1 : t = 0x63
    · subst c1
      rw [if_pos rfl]
      by_cases h : s ≠ 8 ∧ s ≠ 16 ∧ s ≠ 32
      · rw [if_pos h]; unfold named; split <;> simp_all
      · rw [if_neg h]
        have : s = 8 ∨ s = 16 ∨ s = 32 := by omega
        rcases this with rfl | rfl | rfl <;> rfl
    · rw [if_neg c1]
      by_cases c2 : t = 0x69
      · subst c2
        rw [if_pos rfl]
        by_cases h : s ≠ 8 ∧ s ≠ 16 ∧ s ≠ 32
        · rw [if_pos h]; unfold named; split <;> simp_all
        · rw [if_neg h]
          have : s = 8 ∨ s = 16 ∨ s = 32 := by omega
          rcases this with rfl | rfl | rfl <;> rfl
      · rw [if_neg c2]
        by_cases c3 : t = 0x75
        · subst c3
          rw [if_pos rfl]
          by_cases h : s ≠ 1
          · rw [if_pos h]; unfold named; split <;> simp_all
          · rw [if_neg h]
            have : s = 1 := by omega
            subst this; rfl
        · rw [if_neg c3]
          by_cases c4 : t = 0x66
          · subst c4
            rw [if_pos rfl]
            by_cases h : s ≠ 64
            · rw [if_pos h]; unfold named; split <;> simp_all
            · rw [if_neg h]
              have : s = 64 := by omega
              subst this; rfl
          · rw [if_neg c4]; unfold named; split <;> simp_all

theorem getCastType_some {e : Arg} {val : Option El} {t : El} (h : named (chars val) e = some t) :
    ∃ ct, getCastType e val = some ct ∧ elOf ct = some t ∧ ct.s = width t := by
  rw [← getCastType_named] at h
  cases g : getCastType e val with
  | none => rw [g] at h; cases h
  | some ct =>
    rw [g] at h
    exact ⟨ct, rfl, h, (elOf_width h).1.symm⟩

/-- A type that `getCastType` accepts has an element type. -/
theorem getCastType_none {e : Arg} {val : Option El} (h : named (chars val) e = none) : getCastType e val = none := by
  cases g : getCastType e val with
  | none => rfl
  | some ct =>
    rw [← getCastType_named, g] at h
    change elOf ct = none at h
    exfalso
    cases e with
    | wid s =>
      unfold getCastType at g
      dsimp only at g
      by_cases q : s ≠ 1 ∧ s ≠ 8 ∧ s ≠ 16 ∧ s ≠ 32 ∧ s ≠ 64
      · rw [if_pos q] at g; cases g
      · rw [if_neg q] at g
        injection g with g
        rw [← g] at h
        have : s = 1 ∨ s = 8 ∨ s = 16 ∨ s = 32 ∨ s = 64 := by omega
        rcases this with rfl | rfl | rfl | rfl | rfl <;> simp [elOf] at h
    | pair s t =>
      unfold getCastType at g
      dsimp only at g
      have fin : ∀ {c : Bool}, (s = 1 ∨ s = 8 ∨ s = 16 ∨ s = 32 ∨ s = 64) → some (CT.mk s c) = some ct → False := by
        intro c hs g
        injection g with g
        rw [← g] at h
        rcases hs with rfl | rfl | rfl | rfl | rfl <;> simp [elOf] at h
      split at g
      · split at g
        · cases g
        · exact fin (by omega) g
      · split at g
        · split at g
          · cases g
          · exact fin (by omega) g
        · split at g
          · split at g
            · cases g
            · exact fin (by omega) g
          · split at g
            · split at g
              · cases g
              · exact fin (by omega) g
            · cases g

/-! ## Shapes -/

theorem foldl_mod (l : List Nat) : ∀ a, l.foldl (fun r d => r * d % 2^32) a % 2^32 = a * prod l % 2^32 := by
  induction l with
  | nil => intro a; simp [prod]
  | cons d l ih =>
    intro a
    rw [List.foldl_cons, ih, prod, Nat.mod_mul_mod, Nat.mul_assoc]

theorem setResult_spec {rt : El} {rl : Nat} {pre : List Nat} {n : Nat} {shared : Bool} {cap : Nat} {m : Mem} :
    setResult rt (pre ++ [n]).length rl (pre ++ [n]) shared cap m =
      ⟨rt, pre ++ [rl], if pre = [] then rl else prod pre * rl % 2^32, cap, m⟩ := by
  unfold setResult
  rw [List.length_append, List.length_singleton, Nat.add_sub_cancel]
  cases pre with
  | nil => simp
  | cons a pre =>
    rw [if_neg (show ¬ (a :: pre).length + 1 ≤ 1 by simp), if_neg (show ¬ (a :: pre) = [] by simp)]
    have e : (if shared then ((a :: pre) ++ [n]).take (a :: pre).length ++ [rl] else ((a :: pre) ++ [n]).set (a :: pre).length rl) = (a :: pre) ++ [rl] := by
      cases shared with
      | true => rw [if_pos rfl, List.take_left]
      | false => rw [if_neg (by simp), List.set_append_right _ _ (Nat.le_refl _), Nat.sub_self]; rfl
    dsimp only
    rw [e, List.take_left]
    have : rl * shProd (a :: pre) % 2^32 = prod (a :: pre) * rl % 2^32 := by
      rw [Nat.mul_mod]
      unfold shProd
      rw [foldl_mod, Nat.one_mul, ← Nat.mul_mod, Nat.mul_comm]
    rw [this]

theorem prod_snoc (pre : List Nat) (n : Nat) : prod (pre ++ [n]) = prod pre * n := by
  induction pre with
  | nil => simp [prod]
  | cons a pre ih => rw [List.cons_append, prod, prod, ih, Nat.mul_assoc]

theorem getD_snoc (pre : List Nat) (n : Nat) : (pre ++ [n]).getD ((pre ++ [n]).length - 1) 0 = n := by
  simp

/-- The memory holds the bits `b` of the elements. -/
theorem mem_bits {t : El} {d : Data} (tail : Mem) {b : Nat → Bool} (hd : d.ty = t) (ht : t ≠ .B) (h : Reads t d.elems b) {p : Nat}
    (hp : p < width t * d.elems.length) : bitF (memOf tail d) p = b p := by
  have := memOf_reads tail d (by rw [hd]; exact ht)
  rw [hd] at this
  exact this.bits h hp

/-- What a result with the right memory contains. -/
theorem result_reads {rt : El} (hrt : rt ≠ .B) {pre : List Nat} {n' cap : Nat} {m : Mem} {b : Nat → Bool} {N : Nat}
    (hN : N = width rt * (prod pre * n')) (hsmall : prod pre * n' < 2^32) (hb : ∀ p, p < N → bitF m p = b p) :
    let r : Res := ⟨rt, pre ++ [n'], if pre = [] then n' else prod pre * n' % 2^32, cap, m⟩
    r.ia = prod r.sh ∧ r.data.ty = rt ∧ r.data.elems.length = prod r.sh ∧ Reads rt r.data.elems b := by
  have e : (if pre = [] then n' else prod pre * n' % 2^32) = prod (pre ++ [n']) := by
    rw [prod_snoc]
    by_cases h : pre = []
    · rw [if_pos h, h]; simp [prod]
    · rw [if_neg h, Nat.mod_eq_of_lt hsmall]
  rw [e]
  intro r
  have l : r.data.elems.length = prod (pre ++ [n']) := load_length hrt m _
  refine ⟨rfl, load_ty _ _ _, l, ?_⟩
  refine (load_reads rt m (prod (pre ++ [n']))).congr fun p hp => (hb p ?_).symm
  rw [load_length hrt, prod_snoc] at hp
  rw [hN]; exact hp

/-! ## Cast -/

theorem cast_ok (bad : BitVec 64 → BitVec 32) {a c : Arg} {x : Arr} {xt rt : El} {pre : List Nat} {n n' : Nat} {b : Nat → Bool}
    (fresh shared : Bool) (tail tail' : Mem)
    (ha : named (isChr x.data.ty) a = some xt) (hc : named false c = some rt) (hsh : x.sh = pre ++ [n])
    (hlen : x.data.elems.length = prod x.sh) (hb : Reads xt x.data.elems b) (hn : width xt * n = width rt * n')
    (hrl : n' < 2^32-1) (hsmall : prod pre * n' < 2^32) :
    ∃ r, cast bad a c x fresh shared tail tail' = .ok r ∧ r.sh = pre ++ [n'] ∧ r.ia = prod r.sh ∧ r.data.ty = rt ∧
      r.data.elems.length = prod r.sh ∧ Reads rt r.data.elems b ∧ width rt * r.ia ≤ r.cap := by
  obtain ⟨xct, e1, f1, g1⟩ := getCastType_some (val := some x.data.ty) ha
  obtain ⟨rct, e2, f2, g2⟩ := getCastType_some (val := none) hc
  have xB := (elOf_width f1).2
  have rB := (elOf_width f2).2
  have rpos : 0 < width rt := width_wide.pos
  obtain ⟨d, ec, td, ld, rd⟩ := conv_reads bad hb xB
  obtain ⟨d2, ec2, td2, ld2, rd2⟩ := conv_reads bad rd xB
  have hrl' : xct.s * n / rct.s = n' := by
    rw [g1, g2, hn, Nat.mul_comm, Nat.mul_div_cancel _ rpos]
  have hN : width xt * prod x.sh = width rt * (prod pre * n') := by
    rw [hsh, prod_snoc, Nat.mul_left_comm, hn, Nat.mul_left_comm]
  unfold cast
  dsimp only
  rw [if_neg (by rw [hsh]; simp), e1, e2]
  dsimp only
  rw [f1, f2]
  dsimp only
  have hlast : x.sh.getD (x.sh.length - 1) 0 = n := by rw [hsh, getD_snoc]
  rw [hlast, hrl', if_neg (by rw [g1, g2, hn, Nat.mul_comm]; simp), if_neg (by omega), ec]
  dsimp only
  rw [ec2]
  dsimp only
  rw [hsh, setResult_spec]
  rw [hsh] at hN hlen
  generalize hm : (if (fresh && (decide (rt = El.bit) || decide (xt = El.bit))) = true then memOf tail' d2 else memOf tail d) = m
  have bits : ∀ p, p < width xt * prod (pre ++ [n]) → bitF m p = b p := by
    intro p hp
    rw [← hm]
    split
    · exact mem_bits tail' td2 xB rd2 (by rw [ld2, ld, hlen]; exact hp)
    · exact mem_bits tail td xB rd (by rw [ld, hlen]; exact hp)
  obtain ⟨i1, i2, i3, i4⟩ := result_reads (cap := width xt * prod (pre ++ [n])) rB hN hsmall bits
  refine ⟨_, rfl, rfl, i1, i2, i3, i4, ?_⟩
  rw [i1]
  dsimp only
  rw [prod_snoc, hN]
  exact Nat.le_refl _

/-- Bits determine the elements. -/
theorem Reads.sames {t : El} : ∀ {vs ws : List Val} {b : Nat → Bool}, Reads t vs b → Reads t ws b → vs.length = ws.length → Sames vs ws := by
  intro vs ws b h g hl
  have key : ∀ {i : Nat} {v w : Val}, vs[i]? = some v → ws[i]? = some w → Same v w := by
    intro i v w hv hw
    obtain ⟨u, hu, cu, bu⟩ := h i v hv
    obtain ⟨u', hu', cu', bu'⟩ := g i w hw
    have : u = u' := by
      apply Nat.eq_of_testBit_eq
      intro k
      by_cases hk : k < width t
      · rw [← bu k hk, ← bu' k hk]
      · have le : 2^width t ≤ 2^k := Nat.pow_le_pow_right (by decide) (by omega)
        rw [Nat.testBit_lt_two_pow (by omega), Nat.testBit_lt_two_pow (by omega)]
    subst this
    cases t with
    | bit => exact cu.trans cu'.symm
    | i8 => exact cu.trans cu'.symm
    | i16 => exact cu.trans cu'.symm
    | i32 => exact cu.trans cu'.symm
    | f64 => exact (cu.trans cu'.symm) ▸ Same.refl _
    | c8 => exact (cu.trans cu'.symm) ▸ Same.refl _
    | c16 => exact (cu.trans cu'.symm) ▸ Same.refl _
    | c32 => exact (cu.trans cu'.symm) ▸ Same.refl _
    | B => exact cu.elim
  clear h g
  induction vs generalizing ws with
  | nil => cases ws with | nil => exact .nil | cons => cases hl
  | cons v vs ih =>
    cases ws with
    | nil => cases hl
    | cons w ws =>
      exact .cons (key (i := 0) rfl rfl) (ih (by simpa using hl) fun {i _ _} hv hw => key (i := i+1) hv hw)

/-! ## Widths -/

theorem pow2_facts : ∀ a, a < 32 → req2 (2^a) = true ∧ ctz (2^a) = a := by decide +kernel

theorem widths3 {f : List Nat} (h1 : 1 ≤ f.length) (h2 : f.length ≤ 3) (hp : ∀ s ∈ f, req2 s = true) :
    widths 3 f = some [nth f 0, nth f 1, nth f 2] := by
  unfold widths
  rw [if_neg (by omega), if_pos (by simpa using hp)]
  match f, h1, h2 with
  | [a], _, _ => rfl
  | [a, b], _, _ => rfl
  | [a, b, c], _, _ => rfl

theorem widths4 {f : List Nat} (h1 : 1 ≤ f.length) (h2 : f.length ≤ 4) (hp : ∀ s ∈ f, req2 s = true) :
    widths 4 f = some [nth f 0, nth f 1, nth f 2, nth f 3] := by
  unfold widths
  rw [if_neg (by omega), if_pos (by simpa using hp)]
  match f, h1, h2 with
  | [a], _, _ => rfl
  | [a, b], _, _ => rfl
  | [a, b, c], _, _ => rfl
  | [a, b, c, d], _, _ => rfl

theorem nth_mem {f : List Nat} (h1 : 1 ≤ f.length) (i : Nat) : nth f i ∈ f := by
  unfold nth
  have : min i (f.length - 1) < f.length := by omega
  rw [List.getD_eq_getElem?_getD, List.getElem?_eq_getElem this]
  exact List.getElem_mem this

theorem Pows.req {f : List Nat} (h : Pows f) : ∀ s ∈ f, req2 s = true := by
  intro s hs
  obtain ⟨a, ha, rfl⟩ := h s hs
  exact (pow2_facts a ha).1

theorem ctz_pow {s : Nat} (h : ∃ a, a < 32 ∧ s = 2^a) : 2^ctz s = s := by
  obtain ⟨a, ha, rfl⟩ := h
  rw [(pow2_facts a ha).2]

theorem shl32_eq {p s : Nat} (h : ∃ a, a < 32 ∧ s = 2^a) (hp : s * p < 2^32) : shl32 p (ctz s) = s * p := by
  obtain ⟨a, ha, rfl⟩ := h
  unfold shl32
  rw [(pow2_facts a ha).2, BitVec.toNat_shiftLeft, BitVec.toNat_ofNat, Nat.shiftLeft_eq]
  have : p ≤ 2^a * p := Nat.le_mul_of_pos_left _ (Nat.two_pow_pos a)
  rw [Nat.mod_eq_of_lt (show p < 2^32 by omega), Nat.mul_comm, Nat.mod_eq_of_lt hp]

theorem and_pow {s ow : Nat} (h : ∃ a, a < 32 ∧ ow = 2^a) : s &&& (ow-1) = s % ow := by
  obtain ⟨a, _, rfl⟩ := h
  exact Nat.and_two_pow_sub_one_eq_mod s a

end Verif.BitFn
