import Verif.HashMap.Lemmas
/-!
# `•HashMap` is an insertion-ordered map, and never leaves its memory

`hash` is any function giving 64-bit numbers. An answer `none` of the model is a read or write outside of memory, or a loop
without end.
-/
namespace Verif.HashMap
variable {K V : Type} [DecidableEq K]

theorem crowd_iff (hash : K → Nat) (P : K → Prop) : Crowd hash P ↔ Crowded hash P := Iff.rfl

/-- For every list of different keys, all values and every history of calls, the answers are those of an insertion-ordered map,
unless there are almost 2^32 keys or hashes are crowded at the top. -/
theorem hashmap_correct (hash : K → Nat) (hh : ∀ k, hash k < 2^64) (keys : List K) (vals : List V) (ops : List (Op K V))
    (hlen : vals.length = keys.length) (hn : keys.Nodup) (hk : keys.length < 2^31) (ho : keys.length + ops.length < 2^32 - 1)
    (hc : ¬ Crowded hash (Used keys ops)) :
    session hash keys vals ops = some (answers (keys.zip vals) ops) := by
  unfold session
  rcases build_spec hh keys vals hk hlen with ⟨s, m, h1, h2, h3, h4, h5⟩ | ⟨h1, h2⟩ | ⟨h1, h2⟩
  · rw [h1, Option.bind_some]
    rcases run_spec hh ops s m h2 with h | ⟨_, _, _, _, _, _, _, _, e⟩ | ⟨_, _, _, _, _, e⟩
    · rw [← h3]; exact h
    · rw [h3, zip_keys hlen] at e
      exact absurd e hc
    · rw [h5, List.length_map] at e
      exact absurd e (Nat.not_le.2 ho)
  · exact absurd hn h2
  · exact absurd (crowd_mono (fun k hk => .inl hk) h2) hc

example : session (K := Nat) (V := Nat) (fun k => k * 2^60 % 2^64) [3, 19, 5] [10, 20, 30]
      [.set 35 40, .delete 19, .set 3 11, .keys, .values, .count, .get 19, .getD 7 5, .has 35] =
    some [.done, .done, .done, .keyList [some 3, some 5, some 35], .valList [some 11, some 30, some 40], .num 3, .notFound, .val 30, .bool true] := by
  have h := hashmap_correct (K := Nat) (V := Nat) (fun k => k * 2^60 % 2^64) (fun k => Nat.mod_lt _ (by decide)) [3, 19, 5] [10, 20, 30]
    [.set 35 40, .delete 19, .set 3 11, .keys, .values, .count, .get 19, .getD 7 5, .has 35] rfl (by decide) (by decide) (by decide)
    (by
      rintro ⟨t, l, h1, h2, h3, h4⟩
      have hs : l ⊆ [3, 19, 5, 35] := by
        intro k hk
        rcases (h4 k hk).1 with h | ⟨v, h⟩
        · simp at h ⊢; omega
        · simp at h ⊢; omega
      have := h3.length_le_of_subset hs
      simp only [List.length_cons, List.length_nil] at this
      omega)
  rw [h]; rfl

/-- Up to 32 keys are never too crowded. -/
theorem hashmap_small (hash : K → Nat) (hh : ∀ k, hash k < 2^64) (keys : List K) (vals : List V) (ops : List (Op K V))
    (hlen : vals.length = keys.length) (hn : keys.Nodup) (all : List K) (ha : all.length ≤ 32) (hu : ∀ k, Used keys ops k → k ∈ all)
    (ho : ops.length < 2^31) :
    session hash keys vals ops = some (answers (keys.zip vals) ops) := by
  have hkl : keys.length ≤ 32 := Nat.le_trans (hn.length_le_of_subset fun k hk => hu k (.inl hk)) ha
  refine hashmap_correct hash hh keys vals ops hlen hn (by omega) (by omega) ?_
  rintro ⟨t, l, h1, h2, h3, h4⟩
  have := h3.length_le_of_subset (fun k hk => hu k (h4 k hk).1)
  omega

example : session (K := Nat) (V := Nat) (fun _ => 2^64 - 1) [1, 2] [3, 4] [.delete 1, .set 1 5, .keys] =
    some [.done, .done, .keyList [some 2, some 1]] := by
  rw [hashmap_small (fun _ => 2^64 - 1) (fun _ => by decide) [1, 2] [3, 4] [.delete 1, .set 1 5, .keys] rfl (by decide) [1, 2] (by decide)
    (by rintro k (h | ⟨v, h⟩) <;> simp at h ⊢ <;> omega) (by decide)]
  rfl

/-- Keys given twice are an error. -/
theorem hashmap_duplicates (hash : K → Nat) (hh : ∀ k, hash k < 2^64) (keys : List K) (vals : List V) (ops : List (Op K V))
    (hlen : vals.length = keys.length) (hn : ¬ keys.Nodup) (hk : keys.length < 2^31) (hc : ¬ Crowded hash (· ∈ keys)) :
    session hash keys vals ops = some [.duplicate] := by
  unfold session
  rcases build_spec hh keys vals hk hlen with ⟨s, m, h1, h2, h3, h4, h5⟩ | ⟨h1, h2⟩ | ⟨h1, h2⟩
  · exact absurd h4 hn
  · rw [h1]; rfl
  · exact absurd h2 hc

example : session (K := Nat) (V := Nat) (fun k => k % 2^64) [1, 2, 1] [3, 4, 5] [.count] = some [.duplicate] :=
  hashmap_duplicates (fun k => k % 2^64) (fun k => Nat.mod_lt _ (by decide)) [1, 2, 1] [3, 4, 5] [.count] rfl (by decide) (by decide)
    (by
      rintro ⟨t, l, h1, h2, h3, h4⟩
      have := h3.length_le_of_subset (fun k hk => (h4 k hk).1)
      simp only [List.length_cons, List.length_nil] at this
      omega)

/-- Whatever the hashes and the history: no access outside of memory and no loop without end, and the answers are right up to the
first error about the size. The error about hashes is only given for crowded hashes. -/
theorem hashmap_safe (hash : K → Nat) (hh : ∀ k, hash k < 2^64) (keys : List K) (vals : List V) (ops : List (Op K V))
    (hlen : vals.length = keys.length) (hk : keys.length < 2^31) :
    ∃ outs, session hash keys vals ops = some outs ∧
      (outs = answers (keys.zip vals) ops ∨
       (outs = [.duplicate] ∧ ¬ keys.Nodup) ∨
       (∃ pre rest, ops = pre ++ rest ∧ outs = answers (keys.zip vals) pre ++ [.tooBig] ∧ Crowded hash (Used keys ops)) ∨
       (outs = [.tooBig] ∧ Crowded hash (· ∈ keys)) ∨
       (∃ pre rest, ops = pre ++ rest ∧ outs = answers (keys.zip vals) pre ++ [.full] ∧ 2^32 - 1 ≤ keys.length + ops.length)) := by
  unfold session
  rcases build_spec hh keys vals hk hlen with ⟨s, m, h1, h2, h3, h4, h5⟩ | ⟨h1, h2⟩ | ⟨h1, h2⟩
  · rw [h1, Option.bind_some]
    rcases run_spec hh ops s m h2 with h | ⟨pre, o, rest, _, _, e1, _, e2, e3⟩ | ⟨pre, o, rest, e1, e2, e3⟩
    · exact ⟨_, h, .inl (by rw [h3])⟩
    · rw [h3, zip_keys hlen] at e3
      rw [h3] at e2
      exact ⟨_, e2, .inr (.inr (.inl ⟨pre, o :: rest, e1, rfl, e3⟩))⟩
    · rw [h3] at e2
      rw [h5, List.length_map] at e3
      exact ⟨_, e2, .inr (.inr (.inr (.inr ⟨pre, o :: rest, e1, rfl, e3⟩)))⟩
  · exact ⟨_, by rw [h1]; rfl, .inr (.inl ⟨rfl, h2⟩)⟩
  · exact ⟨_, by rw [h1]; rfl, .inr (.inr (.inr (.inl ⟨rfl, h2⟩)))⟩

example : ∃ outs, session (K := Nat) (V := Nat) (fun _ => 2^64 - 1) (List.range 40) (List.range 40) [.count] = some outs :=
  (hashmap_safe _ (fun _ => by decide) _ _ _ (by decide) (by decide)).imp fun _ h => h.1

/-- Keys that all have the highest hash: a map of 32 of them works, setting one more is an error, and after the error the map
is broken: the next call uses a table that is gone (search.c 743-745). -/
theorem hashmap_broken_after_error :
    ∃ s s' : St Nat Nat, build (fun _ => 2^64 - 1) (List.range 32) (List.range 32) = some (.inl s) ∧
      step (fun _ => 2^64 - 1) s (.set 32 0) = some (s', .tooBig) ∧ step (fun _ => 2^64 - 1) s' .count = none := by
  have hh : ∀ k : Nat, (fun _ : Nat => 2^64 - 1) k < 2^64 := fun _ => show 2^64 - 1 < 2^64 by decide
  rcases build_spec hh (List.range 32) (List.range 32) (by decide) rfl with ⟨s, m, h1, h2, h3, h4, h5⟩ | ⟨h1, h2⟩ | ⟨h1, h2⟩
  · have hset : ∃ s', step (fun _ => 2^64 - 1) s (.set 32 0) = some (s', .tooBig) ∧ s'.map = none := by
      rcases set_spec hh h2 32 0 with ⟨s', m', e1, e2, e3, e4⟩ | ⟨s', e1, e2⟩ | ⟨e1, e2⟩
      · exfalso
        have hv : valueOf (contents s) 32 = none := by
          rw [h3]; decide
        have hcs : contents s' = (List.range 32).zip (List.range 32) ++ [(32, 0)] := by
          rw [e3, answer, hv, h3]; rfl
        have hsh := e2.link.tab
        have hhome : (2^64 - 1) / 2^m'.sh = 2^(64 - m'.sh) - 1 := by
          have hlo := hsh.lo
          have hhi := hsh.hi
          have : m'.sh = 32 ∨ m'.sh = 33 ∨ m'.sh = 34 ∨ m'.sh = 35 ∨ m'.sh = 36 ∨ m'.sh = 37 ∨ m'.sh = 38 ∨ m'.sh = 39 ∨ m'.sh = 40 ∨
            m'.sh = 41 ∨ m'.sh = 42 ∨ m'.sh = 43 ∨ m'.sh = 44 ∨ m'.sh = 45 ∨ m'.sh = 46 ∨ m'.sh = 47 ∨ m'.sh = 48 ∨ m'.sh = 49 ∨
            m'.sh = 50 ∨ m'.sh = 51 ∨ m'.sh = 52 ∨ m'.sh = 53 ∨ m'.sh = 54 ∨ m'.sh = 55 ∨ m'.sh = 56 ∨ m'.sh = 57 ∨ m'.sh = 58 := by
            omega
          rcases this with h | h | h | h | h | h | h | h | h | h | h | h | h | h | h | h | h | h | h | h | h | h | h | h | h | h | h <;>
            rw [h]
        have hf := few_high e2.link e2.last (t := 2^(64 - m'.sh) - 1) (l := List.range 33) (by decide) (fun k hk => ⟨by
          apply mem_contents
          rw [hcs]
          rw [List.mem_range] at hk
          rw [List.map_append, List.mem_append, zip_keys rfl]
          by_cases c : k = 32
          · right; rw [c]; simp
          · left; rw [List.mem_range]; omega, Nat.le_of_eq hhome.symm⟩)
        have := hsh.hsz
        have hp := Nat.two_pow_pos (64 - m'.sh)
        rw [List.length_range] at hf
        generalize 2^(64 - m'.sh) = P at *
        omega
      · refine ⟨s', e1, ?_⟩
        unfold set at e1
        rw [h2.map, Option.bind_some] at e1
        obtain ⟨r, _, e1⟩ := Option.bind_eq_some_iff.1 e1
        cases hr : r.2 with
        | some i =>
          rw [hr] at e1
          simp only [] at e1
          split at e1
          · exact nomatch (Prod.mk.inj (Option.some.inj e1)).2
          · cases e1
        | none =>
          rw [hr] at e1
          simp only [] at e1
          split at e1
          · exact nomatch (Prod.mk.inj (Option.some.inj e1)).2
          · obtain ⟨q, _, e1⟩ := Option.bind_eq_some_iff.1 e1
            split at e1
            · obtain ⟨z, _, e1⟩ := Option.bind_eq_some_iff.1 e1
              cases z with
              | none => rw [← (Prod.mk.inj (Option.some.inj e1)).1]
              | some z => exact nomatch (Prod.mk.inj (Option.some.inj e1)).2
            · exact nomatch (Prod.mk.inj (Option.some.inj e1)).2
      · rw [h5] at e2; exact absurd e2 (by decide)
    obtain ⟨s', g1, g2⟩ := hset
    exact ⟨s, s', h1, g1, by rw [step, g2]; rfl⟩
  · exact absurd (by decide) h2
  · exfalso
    obtain ⟨t, l, q1, q2, q3, q4⟩ := h2
    have := q3.length_le_of_subset (fun k hk => (q4 k hk).1)
    rw [List.length_range] at this
    unfold W at *
    omega

end Verif.HashMap
