import Verif.BitFn.Ops
/-!
# `•bit`: which argument is extended
-/
namespace Verif.BitFn
open Verif.Squeeze
open Verif.Bits (Word bitF)
open Verif.Rotate (prod)

theorem on_comm {op : Op2} (h : op ≠ .sub) (w a b : Nat) : op.on w a b = op.on w b a := by
  cases op with
  | and => exact Nat.and_comm a b
  | or => exact Nat.or_comm a b
  | xor => exact Nat.xor_comm a b
  | add => show (a + b) % _ = (b + a) % _; rw [Nat.add_comm]
  | sub => exact absurd rfl h
  | mul => show a * b % _ = b * a % _; rw [Nat.mul_comm]

theorem Defined.comm {op : Op2} {w a b : Nat} (h : Defined op w a b) : Defined op w b a := by
  intro e g
  have := h e g
  rw [Int.mul_comm] at this
  exact this

theorem rowBits_snoc {x : Arr} {pre : List Nat} {n : Nat} (h : x.sh = pre ++ [n]) (w : Nat) : rowBits x w = w * n := by
  unfold rowBits
  rw [if_neg (by rw [h]; simp), h, getD_snoc]

theorem One.row {x : Arr} {w ow : Nat} (h : One x.sh w ow) : rowBits x w = ow := by
  unfold rowBits
  rcases h with ⟨h, e⟩ | ⟨m, h, e⟩
  · rw [h, if_pos (show ([] : List Nat).length = 0 from rfl), e]
  · rw [h, if_neg (by simp)]
    exact e

theorem One.len {sh : List Nat} {w ow : Nat} (h : One sh w ow) : w * prod sh = ow ∧ sh.length ≤ 1 := by
  rcases h with ⟨rfl, e⟩ | ⟨m, rfl, e⟩
  · exact ⟨by rw [prod, Nat.mul_one, e], by decide⟩
  · exact ⟨by rw [prod, prod, Nat.mul_one, e], by simp⟩

/-- What a function of two arguments gives: shape, type, and the pieces `g i`. -/
def Gives (o : Out Res) (rt : El) (sh : List Nat) (ow N : Nat) (g : Nat → Nat) : Prop :=
  ∃ r, o = .ok r ∧ r.sh = sh ∧ r.data.ty = rt ∧ r.data.elems.length = prod r.sh ∧ width rt * r.ia ≤ r.cap ∧
    ∃ b', Reads rt r.data.elems b' ∧ ∀ i, i < N / ow → piece ow b' i = g i

theorem Gives.congr {o : Out Res} {rt : El} {sh : List Nat} {ow N : Nat} {g h : Nat → Nat} (G : Gives o rt sh ow N g)
    (e : ∀ i, i < N / ow → g i = h i) : Gives o rt sh ow N h := by
  obtain ⟨r, a, b, c, d, f, b', k, l⟩ := G
  exact ⟨r, a, b, c, d, f, b', k, fun i hi => (l i hi).trans (e i hi)⟩

theorem op2_same_ok (bad : BitVec 64 → BitVec 32) (op : Op2) {f : List Nat} {w x : Arr} {wt xt rt : El} {pre : List Nat} {m n n' : Nat} {a b : Nat → Bool}
    (wtail xtail junk : Mem) (h1 : 1 ≤ f.length) (h2 : f.length ≤ 4) (hp : Pows f)
    (hw : named (isChr w.data.ty) (.wid (nth f 3)) = some wt) (hx : named (isChr x.data.ty) (.wid (nth f 2)) = some xt)
    (hr : named false (.wid (nth f 1)) = some rt) (hwsh : w.sh = pre ++ [m]) (hxsh : x.sh = pre ++ [n])
    (hwlen : w.data.elems.length = prod w.sh) (hxlen : x.data.elems.length = prod x.sh)
    (ha : Reads wt w.data.elems a) (hb : Reads xt x.data.elems b) (hrow : width wt * m = width xt * n)
    (how : nth f 0 ∣ width xt * n) (hn : width xt * n = width rt * n') (hsmall : width xt * prod x.sh < 2^32) (hrl : n' < 2^32-1)
    (har : op.bitwise = false → ArithW (nth f 0))
    (hd : ∀ i, i < width xt * prod x.sh / nth f 0 → Defined op (nth f 0) (piece (nth f 0) a i) (piece (nth f 0) b i)) :
    Gives (op2 bad op f w x wtail xtail junk) rt (pre ++ [n']) (nth f 0) (width xt * prod x.sh)
      fun i => op.on (nth f 0) (piece (nth f 0) a i) (piece (nth f 0) b i) := by
  rw [named_wid] at hw hx hr
  have wx := (elOf_width hx).1
  have ww := (elOf_width hw).1
  dsimp only at wx ww
  unfold op2
  rw [widths4 h1 h2 hp.req]
  dsimp only
  rw [rowBits_snoc hwsh, rowBits_snoc hxsh, ← wx, ← ww]
  have er : w.sh.length = x.sh.length := by rw [hwsh, hxsh]; simp
  have nz : x.sh.length ≠ 0 := by rw [hxsh]; simp
  have tk : ¬ x.sh.take (x.sh.length - 1) ≠ w.sh.take (x.sh.length - 1) := by
    rw [hxsh, hwsh, List.length_append, List.length_singleton, Nat.add_sub_cancel, List.take_left, List.take_left]
    simp
  rw [if_neg (by omega), if_pos ⟨er, hrow⟩, if_neg tk]
  have := op2go_ok bad (op := op) true false wtail xtail junk (hp _ (nth_mem h1 0)) (hp _ (nth_mem h1 1)) (hp _ (nth_mem h1 2)) hw hx hr hxsh hxlen
    rfl ha hb how hn hsmall hrl (by
      rw [if_pos rfl, hwlen, hwsh, hxsh, prod_snoc, prod_snoc, Nat.mul_left_comm, hrow, Nat.mul_left_comm]) (fun h => by cases h) har
      (fun h => by cases h) (fun _ i hi => by rw [if_pos rfl]; exact hd i hi)
  simp only [if_true, Bool.false_eq_true, if_false] at this
  rw [ww, wx]
  rw [wx] at this
  exact this

theorem op2_left_ok (bad : BitVec 64 → BitVec 32) (op : Op2) {f : List Nat} {w x : Arr} {wt xt rt : El} {pre : List Nat} {n n' : Nat} {a b : Nat → Bool}
    (wtail xtail junk : Mem) (h1 : 1 ≤ f.length) (h2 : f.length ≤ 4) (hp : Pows f)
    (hw : named (isChr w.data.ty) (.wid (nth f 3)) = some wt) (hx : named (isChr x.data.ty) (.wid (nth f 2)) = some xt)
    (hr : named false (.wid (nth f 1)) = some rt) (hone : One w.sh (width wt) (nth f 0)) (hxsh : x.sh = pre ++ [n])
    (hwlen : w.data.elems.length = prod w.sh) (hxlen : x.data.elems.length = prod x.sh)
    (ha : Reads wt w.data.elems a) (hb : Reads xt x.data.elems b)
    (how : nth f 0 ∣ width xt * n) (hn : width xt * n = width rt * n') (hsmall : width xt * prod x.sh < 2^32) (hrl : n' < 2^32-1)
    (hbw : op.bitwise = true → nth f 0 ≤ 64) (har : op.bitwise = false → ArithW (nth f 0))
    (hd : ∀ i, i < width xt * prod x.sh / nth f 0 → Defined op (nth f 0) (piece (nth f 0) a 0) (piece (nth f 0) b i)) :
    Gives (op2 bad op f w x wtail xtail junk) rt (pre ++ [n']) (nth f 0) (width xt * prod x.sh)
      fun i => op.on (nth f 0) (piece (nth f 0) a 0) (piece (nth f 0) b i) := by
  by_cases same : w.sh.length = x.sh.length ∧ nth f 0 = width xt * n
  · -- both are one piece
    obtain ⟨sl, st⟩ := same
    obtain ⟨ol, o1⟩ := hone.len
    have hpre : pre = [] := by
      rw [hxsh, List.length_append, List.length_singleton] at sl
      exact List.length_eq_zero_iff.1 (by omega)
    subst hpre
    have opos : 0 < nth f 0 := by obtain ⟨a, _, e⟩ := hp _ (nth_mem h1 0); rw [e]; exact Nat.two_pow_pos a
    have N1 : ∀ i, i < width xt * prod x.sh / nth f 0 → i = 0 := by
      intro i hi
      rw [hxsh, List.nil_append, show prod [n] = n by simp [prod], ← st, Nat.div_self opos] at hi
      omega
    rcases hone with ⟨e, _⟩ | ⟨m, e, em⟩
    · rw [e, hxsh] at sl; simp at sl
    · refine (op2_same_ok bad op (pre := []) wtail xtail junk h1 h2 hp hw hx hr e hxsh hwlen hxlen ha hb (by rw [em, st]) how hn hsmall hrl har
        (fun i hi => by have := hd i hi; rw [N1 i hi] at this ⊢; exact this)).congr fun i hi => by rw [N1 i hi]
  · rw [named_wid] at hw hx hr
    have wx := (elOf_width hx).1
    have ww := (elOf_width hw).1
    dsimp only at wx ww
    unfold op2
    rw [widths4 h1 h2 hp.req]
    dsimp only
    rw [ww] at hone
    have nz : x.sh.length ≠ 0 := by rw [hxsh]; simp
    obtain ⟨ol, o1⟩ := hone.len
    rw [hone.row, rowBits_snoc hxsh, ← wx, if_neg (by omega), if_neg same, if_neg (by omega)]
    have := op2go_ok bad (op := op) false false wtail xtail junk (hp _ (nth_mem h1 0)) (hp _ (nth_mem h1 1)) (hp _ (nth_mem h1 2)) hw hx hr hxsh hxlen
      rfl ha hb how hn hsmall hrl (by rw [if_neg (by simp), hwlen, ww, ol]) (fun _ => hbw) har
        (fun h => by cases h) (fun _ i hi => by rw [if_neg (by simp)]; exact hd i hi)
    simp only [Bool.false_eq_true, if_false] at this
    rw [wx]
    rw [wx] at this
    exact this

theorem op2_right_ok (bad : BitVec 64 → BitVec 32) (op : Op2) {f : List Nat} {w x : Arr} {wt xt rt : El} {pre : List Nat} {n n' : Nat} {a b : Nat → Bool}
    (wtail xtail junk : Mem) (h1 : 1 ≤ f.length) (h2 : f.length ≤ 4) (hp : Pows f)
    (hw : named (isChr w.data.ty) (.wid (nth f 3)) = some wt) (hx : named (isChr x.data.ty) (.wid (nth f 2)) = some xt)
    (hr : named false (.wid (nth f 1)) = some rt) (hone : One x.sh (width xt) (nth f 0)) (hwsh : w.sh = pre ++ [n])
    (hwlen : w.data.elems.length = prod w.sh) (hxlen : x.data.elems.length = prod x.sh)
    (ha : Reads wt w.data.elems a) (hb : Reads xt x.data.elems b)
    (how : nth f 0 ∣ width wt * n) (hn : width wt * n = width rt * n') (hsmall : width wt * prod w.sh < 2^32) (hrl : n' < 2^32-1)
    (hbw : op.bitwise = true → nth f 0 ≤ 64) (har : op.bitwise = false → ArithW (nth f 0))
    (hd : ∀ i, i < width wt * prod w.sh / nth f 0 → Defined op (nth f 0) (piece (nth f 0) a i) (piece (nth f 0) b 0)) :
    Gives (op2 bad op f w x wtail xtail junk) rt (pre ++ [n']) (nth f 0) (width wt * prod w.sh)
      fun i => op.on (nth f 0) (piece (nth f 0) a i) (piece (nth f 0) b 0) := by
  by_cases same : w.sh.length = x.sh.length ∧ width wt * n = nth f 0
  · obtain ⟨sl, st⟩ := same
    obtain ⟨ol, o1⟩ := hone.len
    have hpre : pre = [] := by
      rw [hwsh, List.length_append, List.length_singleton] at sl
      exact List.length_eq_zero_iff.1 (by omega)
    subst hpre
    have opos : 0 < nth f 0 := by obtain ⟨a, _, e⟩ := hp _ (nth_mem h1 0); rw [e]; exact Nat.two_pow_pos a
    have eN : width wt * prod w.sh = nth f 0 := by rw [hwsh, List.nil_append, show prod [n] = n by simp [prod], st]
    have N1 : ∀ i, i < nth f 0 / nth f 0 → i = 0 := by
      intro i hi
      rw [Nat.div_self opos] at hi
      omega
    rw [eN] at hd hsmall ⊢
    rcases hone with ⟨e, _⟩ | ⟨m, e, em⟩
    · rw [e, hwsh] at sl; simp at sl
    · have eX : width xt * prod x.sh = nth f 0 := ol
      have := (op2_same_ok bad op (pre := []) (n := m) wtail xtail junk h1 h2 hp hw hx hr hwsh e hwlen hxlen ha hb (by rw [em, st]) (by rw [em]; exact Nat.dvd_refl _)
        (by rw [em, ← st, hn]) (by rw [eX]; exact hsmall) hrl har
        (fun i hi => by rw [eX] at hi; have := hd i hi; rw [N1 i hi] at this ⊢; exact this))
      rw [eX] at this
      exact this.congr fun i hi => by rw [N1 i hi]
  · rw [named_wid] at hw hx hr
    have wx := (elOf_width hx).1
    have ww := (elOf_width hw).1
    dsimp only at wx ww
    unfold op2
    rw [widths4 h1 h2 hp.req]
    dsimp only
    rw [wx] at hone
    have nz : w.sh.length ≠ 0 := by rw [hwsh]; simp
    obtain ⟨ol, o1⟩ := hone.len
    rw [hone.row, rowBits_snoc hwsh, ← ww, if_neg (by omega), if_neg same]
    have ext : w.sh.length > 1 ∨ width wt * n ≠ nth f 0 ∨ x.sh.length = 0 := by
      rcases Nat.lt_or_ge 1 w.sh.length with g | g
      · exact .inl g
      · by_cases g2 : x.sh.length = 0
        · exact .inr (.inr g2)
        · exact .inr (.inl fun e => same ⟨by omega, e⟩)
    rw [if_pos ext, if_neg (by omega)]
    by_cases hs : op = .sub
    · subst hs
      rw [if_pos rfl]
      have := op2go_ok bad (op := .add) false true xtail wtail junk (hp _ (nth_mem h1 0)) (hp _ (nth_mem h1 1)) (hp _ (nth_mem h1 3)) hx hw hr hwsh hwlen
        rfl hb ha how hn hsmall hrl (by rw [if_neg (by simp), hxlen, wx, ol]) (fun _ h => by cases h) (fun _ => har rfl)
        (fun _ => ⟨rfl, rfl⟩) (fun h => by cases h)
      rw [ww]
      rw [ww] at this
      exact this
    · rw [if_neg hs, decide_eq_false hs]
      have := op2go_ok bad (op := op) false false xtail wtail junk (hp _ (nth_mem h1 0)) (hp _ (nth_mem h1 1)) (hp _ (nth_mem h1 3)) hx hw hr hwsh hwlen
        rfl hb ha how hn hsmall hrl (by rw [if_neg (by simp), hxlen, wx, ol]) (fun _ => hbw) har
        (fun h => by cases h) (fun _ i hi => by rw [if_neg (by simp)]; exact (hd i hi).comm)
      simp only [Bool.false_eq_true, if_false] at this
      rw [ww]
      rw [ww] at this
      exact Gives.congr this fun i _ => on_comm hs _ _ _

/-! ## Refusals -/

theorem req2_pow {s : Nat} (hs : s < 2^32) (h : req2 s = true) : ∃ a, a < 32 ∧ s = 2^a := by
  unfold req2 at h
  dsimp only at h
  have h' := congrArg BitVec.toNat (eq_of_beq h)
  have s0 : s ≠ 0 := by
    rintro rfl
    exact absurd h (by decide)
  rw [BitVec.toNat_and, BitVec.toNat_or, BitVec.toNat_sub, BitVec.toNat_ofNat, Nat.mod_eq_of_lt hs] at h'
  have e : (2^32 - (1#32).toNat + s) % 2^32 = s - 1 := by
    rw [show (1#32).toNat = 1 from rfl]; omega
  rw [e, Nat.and_or_distrib_right] at h'
  have z : s &&& (s - 1) = 0 := (Nat.or_eq_zero_iff.1 h').2
  obtain ⟨a, ha⟩ := (Nat.and_sub_one_eq_zero_iff_isPowerOfTwo s0).1 z
  refine ⟨a, ?_, ha⟩
  rcases Nat.lt_or_ge a 32 with g | g
  · exact g
  · have := Nat.pow_le_pow_right (n := 2) (by decide) g
    omega

theorem widths_none {n : Nat} {f : List Nat} (h : f.length < 1 ∨ f.length > n ∨ ∃ s ∈ f, s < 2^32 ∧ ∀ a, s ≠ 2^a) : widths n f = none := by
  unfold widths
  by_cases g : f.length < 1 ∨ f.length > n
  · rw [if_pos g]
  · rw [if_neg g, if_neg]
    intro q
    rcases h with h | h | ⟨s, hs, hl, hn⟩
    · exact g (.inl h)
    · exact g (.inr h)
    · obtain ⟨a, _, e⟩ := req2_pow hl (List.all_eq_true.1 q s hs)
      exact hn a e

end Verif.BitFn
