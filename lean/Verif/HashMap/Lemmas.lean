import Verif.HashMap.State
/-! # Lemmas: the calls -/
namespace Verif.HashMap
variable {K V : Type} [DecidableEq K]

local macro "wo" : tactic => `(tactic| ((try simp only [W, empty] at *); omega))

structure Good (hash : K → Nat) (s : St K V) (m : Map) : Prop where
  map : s.map = some m
  link : Link hash (live s.keys) m
  last : m.a (m.sz - 1) = empty
  sync : Sync s.keys s.vals
  pop : m.pop = (s.keys.filter (·.isSome)).length

theorem filter_twice {α : Type} (l : List (Option α)) : (l.filter (·.isSome)).filter (·.isSome) = l.filter (·.isSome) := by
  rw [List.filter_filter]; simp

theorem sync_filter {ks : List (Option K)} {vs : List (Option V)} (h : Sync ks vs) :
    Sync (ks.filter (·.isSome)) (vs.filter (·.isSome)) := by
  have hlen : (vs.filter (·.isSome)).length = (ks.filter (·.isSome)).length := by
    rw [← pairs_length h, ← pairs_vals h, List.length_map]
  refine ⟨hlen, fun i => ?_⟩
  have key : ∀ {α : Type} (l : List (Option α)), (live (l.filter (·.isSome)) i).isSome = decide (i < (l.filter (·.isSome)).length) := by
    intro α l
    unfold live
    by_cases c : i < (l.filter (·.isSome)).length
    · rw [List.getElem?_eq_getElem c]
      have := (List.mem_filter.1 (List.getElem_mem c)).2
      simp only [c, decide_true]
      simpa using this
    · rw [List.getElem?_eq_none (by omega)]; simp [c]
  rw [key, key, hlen]

theorem compact_good {hash : K → Nat} (hh : ∀ k, hash k < 2^64) {ks : List (Option K)} {vs : List (Option V)} {m : Map} (hs : Sync ks vs)
    (hl : Link hash (live ks) m) (hlast : m.a (m.sz - 1) = empty) (hp : m.pop = (ks.filter (·.isSome)).length) :
    ∃ s m', compact ks vs m = some s ∧ Good hash s m' ∧ s.keys = ks.filter (·.isSome) ∧ s.vals = vs.filter (·.isSome) := by
  obtain ⟨t1, t2⟩ := trim_spec ks ks.length
  have t3 : ∀ r, trim ks ks.length ≤ r → live ks r = none := by
    intro r hr
    by_cases c : r < ks.length
    · exact t2 r hr c
    · unfold live; rw [List.getElem?_eq_none (by omega)]; rfl
  obtain ⟨ks', vs', ind', j', e1, e2, e3, e4, e5⟩ := compactLoop_spec ks vs hs (fun q => if q = 0 then some (W-1) else none)
    (trim ks ks.length) 0 0 ks vs (fun q => if q = 0 then some (W-1) else none) (by omega) rfl rfl (fun _ _ => rfl) (fun _ _ => rfl)
    (by simp [rank]) (by simp) (by simp) (fun q => (if_neg (by omega)).symm)
  rw [Nat.zero_add] at e2 e3 e4 e5
  rw [filter_take_all ks _ t3] at e3
  rw [filter_take_all vs _ (fun r hr => by
    have h1 := hs.2 r
    rw [t3 r hr] at h1
    simpa using h1.symm)] at e4
  unfold compact
  simp only []
  rw [e1, Option.bind_some]
  simp only []
  rw [e3, e4]
  have hrk : ∀ i k, live ks i = some k → rank ks i < W - 1 := fun i k h => Nat.lt_of_le_of_lt (rank_le ks i) (hl.lt i k h)
  by_cases c : j' > 0
  · rw [if_pos c]
    have hent : ∀ p, p < m.sz → m.a p ≠ empty → ∃ i k, live ks i = some k ∧ m.a p = word hash k i :=
      fun p hp h0 => (hl.has (m.a p)).1 ⟨h0, p, hp, rfl⟩
    have hind : ∀ p, p < m.sz → ind' ((m.a p % W + 1) % W) = some (if m.a p = empty then W-1 else rank ks (m.a p % W)) := by
      intro p hp
      by_cases d : m.a p = empty
      · rw [if_pos d, d, show (empty % W + 1) % W = 0 from rfl, e5 0]; rfl
      · obtain ⟨i, k, h1, h2⟩ := hent p hp d
        have hi := hl.lt i k h1
        have hm : m.a p % W = i := by rw [h2]; exact word_mod hash k (by wo)
        rw [if_neg d, hm, Nat.mod_eq_of_lt (by wo), e5, if_pos]
        · rfl
        · refine ⟨by omega, ?_⟩
          apply Classical.byContradiction
          intro hc
          rw [t3 i (by omega)] at h1; cases h1
    obtain ⟨b, f1, f2⟩ := renumber_spec ind' (fun u => if u = empty then W-1 else rank ks (u % W)) m.sz 0 m.a
      (fun p _ hp => hind p (by omega))
    have hb0 : ∀ p, p < m.sz → m.a p = empty → b p = empty := by
      intro p hp h0
      rw [f2 p, if_pos ⟨Nat.zero_le _, by omega⟩, if_pos h0, h0]; rfl
    have hb1 : ∀ p, p < m.sz → ∀ i k, live ks i = some k → m.a p = word hash k i → b p = word hash k (rank ks i) := by
      intro p hp i k h1 h2
      have hi := hl.lt i k h1
      have hw := word_lt hh k hi
      rw [f2 p, if_pos ⟨Nat.zero_le _, by omega⟩, if_neg (by omega), h2, word_div hash k (by wo), word_mod hash k (by wo)]
      rfl
    have hbw : ∀ p, p < m.sz → b p ≠ empty → ∃ i k, live ks i = some k ∧ m.a p = word hash k i ∧ b p = word hash k (rank ks i) := by
      intro p hp h0
      obtain ⟨i, k, h1, h2⟩ := hent p hp (fun h => h0 (hb0 p hp h))
      exact ⟨i, k, h1, h2, hb1 p hp i k h1 h2⟩
    rw [f1, Option.map_some]
    refine ⟨_, { m with a := b }, rfl, ⟨rfl, ⟨?_, ?_, ?_, ?_⟩, ?_, sync_filter hs, ?_⟩, rfl, rfl⟩
    · show Tab m.sh m.sz b
      refine tab_map hl.tab ?_ ?_ ?_
      · intro p hp
        by_cases d : m.a p = empty
        · rw [hb0 p hp d, d]
        · obtain ⟨i, k, h1, h2⟩ := hent p hp d
          have hi := hl.lt i k h1
          have := hrk i k h1
          rw [hb1 p hp i k h1 h2, h2, word_div hash k (by wo), word_div hash k (by wo)]
      · intro p hp
        constructor
        · intro h0
          apply Classical.byContradiction
          intro d
          obtain ⟨i, k, h1, h2⟩ := hent p hp d
          have h3 := word_lt hh k (hrk i k h1)
          rw [← hb1 p hp i k h1 h2] at h3
          omega
        · exact hb0 p hp
      · intro p q hp hq h0 he
        obtain ⟨i, k, h1, h2, h3⟩ := hbw p hp h0
        obtain ⟨i', k', h1', h2', h3'⟩ := hbw q hq (by rw [← he]; exact h0)
        have r1 := hrk i k h1
        have r2 := hrk i' k' h1'
        have h4 := word_mod hash k (show rank ks i < W by wo)
        rw [← h3, he, h3', word_mod hash k' (by wo)] at h4
        have h5 := live_filter h1
        rw [← h4, live_filter h1'] at h5
        have h6 : k' = k := by simpa using h5
        subst h6
        have h7 := hl.inj i i' k' h1 h1'
        subst h7
        apply hl.tab.inj p q hp hq
        · intro h; exact h0 (hb0 p hp h)
        · rw [h2, h2']
    · intro u
      constructor
      · rintro ⟨h0, p, hp, rfl⟩
        obtain ⟨i, k, h1, h2, h3⟩ := hbw p hp h0
        exact ⟨rank ks i, k, live_filter h1, h3⟩
      · rintro ⟨j, k, h1, h2⟩
        obtain ⟨i, h3, h4⟩ := live_filter_inv h1
        obtain ⟨h5, p, hp, h6⟩ := (hl.has (word hash k i)).2 ⟨i, k, h3, rfl⟩
        have h7 := hb1 p hp i k h3 h6
        have h8 := word_lt hh k (hrk i k h3)
        rw [h4] at h7 h8
        exact ⟨by rw [h2]; omega, p, hp, h7.trans h2.symm⟩
    · intro j k h1
      obtain ⟨i, h3, h4⟩ := live_filter_inv h1
      rw [← h4]; exact hrk i k h3
    · intro j1 j2 k h1 h2
      obtain ⟨i, h3, h4⟩ := live_filter_inv h1
      obtain ⟨i', h3', h4'⟩ := live_filter_inv h2
      rw [← h4, ← h4', hl.inj i i' k h3 h3']
    · have hsz : 0 < m.sz := by
        have := hl.tab.hsz; have := Nat.two_pow_pos (64 - m.sh); omega
      exact hb0 _ (by show m.sz - 1 < m.sz; omega) hlast
    · show m.pop = _
      rw [filter_twice]; exact hp
  · rw [if_neg c]
    have hz : ks.filter (·.isSome) = [] := by
      rw [← e3, show j' = 0 by omega]; rfl
    have hz' : vs.filter (·.isSome) = [] := by
      rw [← e4, show j' = 0 by omega]; rfl
    have hnone : ∀ i k, live ks i ≠ some k := fun i k h => by
      have := live_filter h
      rw [hz] at this; simp at this
    refine ⟨_, m, rfl, ⟨rfl, ⟨hl.tab, ?_, ?_, ?_⟩, hlast, sync_filter hs, ?_⟩, rfl, rfl⟩
    · intro u
      show Has m.sz m.a u ↔ _
      rw [hl.has u]
      constructor
      · rintro ⟨i, k, h, _⟩; exact absurd h (hnone i k)
      · rintro ⟨i, k, h, _⟩; simp only [] at h; rw [hz] at h; simp at h
    · intro i k h; simp only [] at h; rw [hz] at h; simp at h
    · intro i j k h; simp only [] at h; rw [hz] at h; simp at h
    · show m.pop = _
      rw [filter_twice]; exact hp

/-- The contents of a state. -/
def contents (s : St K V) : List (K × V) := pairs s.keys s.vals

theorem lookup_spec {hash : K → Nat} (hh : ∀ k, hash k < 2^64) {s : St K V} {m : Map} (hg : Good hash s m) (x : K) :
    lookup hash s x = some (valueOf (contents s) x) := by
  unfold lookup
  rw [hg.map, Option.bind_some]
  obtain ⟨j, o, h1, _, h2⟩ := find_spec hh hg.link hg.last (fun i k h => live_get.1 h) x
  rw [h1, Option.bind_some]
  rcases h2 with ⟨i, rfl, h3, _⟩ | ⟨rfl, h3, _⟩
  · have h4 := hg.sync.2 i
    rw [h3] at h4
    obtain ⟨v, h5⟩ := Option.isSome_iff_exists.1 h4.symm
    rw [show contents s = pairs s.keys s.vals from rfl, valueOf_some hg.link.inj h3 h5]
    simp only []
    rw [live_get.1 h5]; rfl
  · rw [show contents s = pairs s.keys s.vals from rfl, valueOf_none h3]

theorem live_isSome_value {hash : K → Nat} {s : St K V} {m : Map} (hg : Good hash s m) {i : Nat} {x : K} (h : live s.keys i = some x) :
    (valueOf (contents s) x).isSome = true := by
  have h4 := hg.sync.2 i
  rw [h] at h4
  obtain ⟨v, h5⟩ := Option.isSome_iff_exists.1 h4.symm
  rw [show contents s = pairs s.keys s.vals from rfl, valueOf_some hg.link.inj h h5]; rfl

theorem filter_append_one {α : Type} (l : List (Option α)) (a : α) :
    ((l ++ [some a]).filter (·.isSome)).length = (l.filter (·.isSome)).length + 1 := by
  rw [List.filter_append, List.length_append]; rfl

theorem filter_del {α : Type} : ∀ (l : List (Option α)) (i : Nat) (k : α), live l i = some k →
    ((l.set i none).filter (·.isSome)).length + 1 = (l.filter (·.isSome)).length
  | [], _, _, h => by simp at h
  | a :: l, 0, k, h => by simp at h; subst h; simp
  | a :: l, i+1, k, h => by
    have ih := filter_del l i k (by simpa using h)
    cases a <;> simp [← ih]

/-- The keys of the contents, with `x`. -/
def Among (s : St K V) (x : K) (k : K) : Prop := k = x ∨ ∃ i, live s.keys i = some k

theorem set_spec {hash : K → Nat} (hh : ∀ k, hash k < 2^64) {s : St K V} {m : Map} (hg : Good hash s m) (w : K) (x : V) :
    (∃ s' m', set hash s w x = some (s', .done) ∧ Good hash s' m' ∧ contents s' = (answer (contents s) (.set w x)).1 ∧
      s'.keys.length ≤ s.keys.length + 1) ∨
    (∃ s', set hash s w x = some (s', .tooBig) ∧ Crowd hash (Among s w)) ∨
    (set hash s w x = some (s, .full) ∧ W - 1 ≤ s.keys.length) := by
  unfold set
  rw [hg.map, Option.bind_some]
  obtain ⟨j, o, h1, _, h2⟩ := find_spec hh hg.link hg.last (fun i k h => live_get.1 h) w
  rw [h1, Option.bind_some]
  rcases h2 with ⟨i, rfl, h3, _⟩ | ⟨rfl, h3, h4⟩
  · left
    simp only []
    rw [if_pos (by rw [hg.sync.1]; exact live_lt h3)]
    refine ⟨_, m, rfl, ⟨rfl, hg.link, hg.last, sync_set hg.sync h3 x, hg.pop⟩, ?_, Nat.le_succ _⟩
    show pairs s.keys (s.vals.set i (some x)) = _
    rw [pairs_set w x hg.sync hg.link.inj h3]
    rw [answer]
    rw [if_pos (live_isSome_value hg h3)]; rfl
  · simp only []
    by_cases c : W - 1 ≤ s.keys.length
    · rw [if_pos c]; exact .inr (.inr ⟨rfl, c⟩)
    · rw [if_neg c]
      have hn : live s.keys s.keys.length = none := by unfold live; rw [List.getElem?_eq_none (Nat.le_refl _)]; rfl
      obtain ⟨b, e, e1, e2, e3⟩ := insert_spec hh hg.link hg.last (show s.keys.length < W - 1 by omega)
        (h4 s.keys.length (by wo)) h3 hn
      rw [e1, Option.bind_some]
      simp only []
      have hlv : (fun q => if q = s.keys.length then some w else live s.keys q) = live (s.keys ++ [some w]) := by
        funext q; rw [live_append]
      rw [hlv] at e2
      have hpop : m.pop + 1 = ((s.keys ++ [some w]).filter (·.isSome)).length := by rw [filter_append_one, hg.pop]
      have hc : pairs (s.keys ++ [some w]) (s.vals ++ [some x]) = (answer (contents s) (.set w x)).1 := by
        rw [pairs_append w x hg.sync]
        rw [answer]
        rw [show contents s = pairs s.keys s.vals from rfl, valueOf_none h3]; rfl
      have fin : ∀ m' : Map, Link hash (live (s.keys ++ [some w])) m' → m'.a (m'.sz - 1) = empty → m'.pop = m.pop + 1 →
          ∃ s' m'', some ((⟨s.keys ++ [some w], s.vals ++ [some x], some m'⟩ : St K V), (.done : Out K V)) = some (s', .done) ∧ Good hash s' m'' ∧
          contents s' = (answer (contents s) (.set w x)).1 ∧ s'.keys.length ≤ s.keys.length + 1 := by
        intro m' g1 g2 g3
        exact ⟨_, m', rfl, ⟨rfl, g1, g2, sync_append hg.sync w x, by rw [g3, hpop]⟩, hc, by simp⟩
      have hlink : ∀ p, Link hash (live (s.keys ++ [some w])) { m with a := b, pop := p } := fun p => ⟨e2.tab, e2.has, e2.lt, e2.inj⟩
      by_cases d : (m.pop + 1) / 2^(64 - 3 - m.sh) > 7 ∨ e = m.sz - 1
      · rw [if_pos d]
        rcases resize_link (hlink (m.pop + 1)) with ⟨g, g'⟩ | ⟨m', g1, g2, g3, g4⟩
        · right; left
          rw [show ({ m with a := b, pop := m.pop + 1 } : Map).sh = m.sh from rfl] at g
          rw [g, Option.bind_some]
          refine ⟨_, rfl, ?_⟩
          have hcr : Crowd hash (fun k => ∃ i, live (s.keys ++ [some w]) i = some k) := by
            rcases g' with g' | ⟨a, q1, q2⟩
            · have g' : m.sh = 32 := g'
              rcases d with d | d
              · exfalso
                rw [g'] at d
                have hle : (s.keys.filter (·.isSome)).length ≤ s.keys.length := List.length_filter_le _ _
                rw [← hg.pop] at hle
                rw [show (2:Nat)^(64-3-32) = 536870912 from rfl] at d
                wo
              · rcases e3 with ⟨_, e3⟩ | ⟨e3, _⟩
                · exact crowd_top hh (hlink 0) g' e3
                · exact absurd d e3
            · exact crowd_top hh q1 rfl q2
          obtain ⟨t, l, q1, q2, q3, q4⟩ := hcr
          refine ⟨t, l, q1, q2, q3, fun k hk => ⟨?_, (q4 k hk).2⟩⟩
          obtain ⟨i, hi⟩ := (q4 k hk).1
          rw [live_append] at hi
          by_cases z : i = s.keys.length
          · rw [if_pos z] at hi; left; exact (Option.some.inj hi).symm
          · rw [if_neg z] at hi; exact .inr ⟨i, hi⟩
        · left
          rw [show ({ m with a := b, pop := m.pop + 1 } : Map).sh = m.sh from rfl] at g1
          rw [g1, Option.bind_some]
          exact fin m' g2 g3 g4
      · rw [if_neg d]
        left
        refine fin _ (hlink (m.pop + 1)) ?_ rfl
        rcases e3 with ⟨e3, _⟩ | ⟨_, e3⟩
        · exact absurd (.inr e3) d
        · exact e3

theorem delete_spec {hash : K → Nat} (hh : ∀ k, hash k < 2^64) {s : St K V} {m : Map} (hg : Good hash s m) (x : K) :
    ∃ s' m', delete hash s x = some (s', (answer (contents s) (.delete x)).2) ∧ Good hash s' m' ∧
      contents s' = (answer (contents s) (.delete x)).1 ∧ s'.keys.length ≤ s.keys.length := by
  unfold delete
  rw [hg.map, Option.bind_some]
  obtain ⟨j, o, h1, hj, h2⟩ := find_spec hh hg.link hg.last (fun i k h => live_get.1 h) x
  rw [h1, Option.bind_some]
  rcases h2 with ⟨i, rfl, h3, h4⟩ | ⟨rfl, h3, h4⟩
  · simp only []
    obtain ⟨b, e1, e2, e3⟩ := remove_spec hg.link hg.last hj h3 h4 hh
    have hil : i < s.keys.length := live_lt h3
    rw [e1, Option.bind_some, if_pos (by rw [hg.sync.1]; exact hil)]
    have hlv : (fun q => if q = i then none else live s.keys q) = live (s.keys.set i none) := by
      funext q; rw [live_set _ _ _ hil]
    rw [hlv] at e2
    have hsync := sync_del hg.sync hil
    have hpop : m.pop - 1 = ((s.keys.set i none).filter (·.isSome)).length := by
      have := filter_del s.keys i x h3
      rw [hg.pop]; omega
    have hc : pairs (s.keys.set i none) (s.vals.set i none) = (answer (contents s) (.delete x)).1 := by
      rw [pairs_del x hg.sync hg.link.inj h3]
      rw [answer]
      rw [if_pos (live_isSome_value hg h3)]; rfl
    have ho : (answer (contents s) (.delete x)).2 = .done := by
      rw [answer]
      rw [if_pos (live_isSome_value hg h3)]
    rw [ho]
    by_cases d : m.pop - 1 = 0 ∨ m.pop - 1 + 32 < (s.keys.set i none).length / 2
    · rw [if_pos d]
      obtain ⟨s', m', g1, g2, g3, g4⟩ := compact_good hh hsync (e2 (m.pop - 1)) e3 hpop
      rw [g1]
      refine ⟨s', m', rfl, g2, ?_, ?_⟩
      · unfold contents; rw [g3, g4, pairs_filter hsync]; exact hc
      · rw [g3]
        have : ((s.keys.set i none).filter (·.isSome)).length ≤ (s.keys.set i none).length := List.length_filter_le _ _
        rw [List.length_set] at this
        exact this
    · rw [if_neg d]
      exact ⟨_, _, rfl, ⟨rfl, e2 _, e3, hsync, hpop⟩, hc, by simp⟩
  · simp only []
    have hv : valueOf (contents s) x = none := valueOf_none h3
    have ha : answer (contents s) (.delete x) = (contents s, .notFound) := by
      rw [answer]; rw [hv]; rfl
    rw [ha]
    exact ⟨s, m, rfl, hg, rfl, Nat.le_refl _⟩

theorem compacted_spec {hash : K → Nat} (hh : ∀ k, hash k < 2^64) {s : St K V} {m : Map} (hg : Good hash s m) :
    ∃ s' m', compacted s = some s' ∧ Good hash s' m' ∧ contents s' = contents s ∧ s'.keys = (contents s).map (fun e => some e.1) ∧
      s'.vals = (contents s).map (fun e => some e.2) ∧ s'.keys.length ≤ s.keys.length := by
  unfold compacted contents
  rw [hg.map, Option.bind_some, pairs_keys hg.sync, pairs_vals hg.sync]
  by_cases c : m.pop = s.keys.length
  · rw [if_pos c]
    rw [hg.pop] at c
    have hk : s.keys.filter (·.isSome) = s.keys := List.filter_eq_self.2 (List.length_filter_eq_length_iff.1 c)
    have hv : s.vals.filter (·.isSome) = s.vals := by
      have h1 := (sync_filter hg.sync).1
      rw [c, ← hg.sync.1] at h1
      exact List.filter_eq_self.2 (List.length_filter_eq_length_iff.1 h1)
    exact ⟨s, m, rfl, hg, rfl, hk.symm, hv.symm, Nat.le_refl _⟩
  · rw [if_neg c]
    obtain ⟨s', m', g1, g2, g3, g4⟩ := compact_good hh hg.sync hg.link hg.last hg.pop
    refine ⟨s', m', g1, g2, ?_, g3, g4, ?_⟩
    · rw [g3, g4, pairs_filter hg.sync]
    · rw [g3]; exact List.length_filter_le _ _

/-- One call. -/
theorem step_spec {hash : K → Nat} (hh : ∀ k, hash k < 2^64) {s : St K V} {m : Map} (hg : Good hash s m) (o : Op K V) :
    (∃ s' m', step hash s o = some (s', (answer (contents s) o).2) ∧ Good hash s' m' ∧ contents s' = (answer (contents s) o).1 ∧
      s'.keys.length ≤ s.keys.length + 1) ∨
    (∃ s' w x, o = .set w x ∧ step hash s o = some (s', .tooBig) ∧ Crowd hash (Among s w)) ∨
    (step hash s o = some (s, .full) ∧ W - 1 ≤ s.keys.length) := by
  cases o with
  | get k =>
    left
    refine ⟨s, m, ?_, hg, rfl, Nat.le_succ _⟩
    rw [step, answer]
    rw [lookup_spec hh hg k, Option.map_some]
    cases valueOf (contents s) k <;> rfl
  | getD d k =>
    left
    refine ⟨s, m, ?_, hg, rfl, Nat.le_succ _⟩
    rw [step, answer]
    rw [lookup_spec hh hg k, Option.map_some]
  | has k =>
    left
    refine ⟨s, m, ?_, hg, rfl, Nat.le_succ _⟩
    rw [step, answer]
    rw [lookup_spec hh hg k, Option.map_some]
  | set w x =>
    rcases set_spec hh hg w x with h | ⟨s', h1, h2⟩ | h
    · exact .inl h
    · exact .inr (.inl ⟨s', w, x, rfl, h1, h2⟩)
    · exact .inr (.inr h)
  | delete k =>
    obtain ⟨s', m', h1, h2, h3, h4⟩ := delete_spec hh hg k
    exact .inl ⟨s', m', h1, h2, h3, by omega⟩
  | count =>
    left
    refine ⟨s, m, ?_, hg, rfl, Nat.le_succ _⟩
    rw [step, answer]
    rw [hg.map, Option.map_some, hg.pop, ← pairs_length hg.sync]; rfl
  | keys =>
    obtain ⟨s', m', h1, h2, h3, h4, h5, h6⟩ := compacted_spec hh hg
    refine .inl ⟨s', m', ?_, h2, h3, by omega⟩
    rw [step, answer]
    rw [h1, Option.map_some, h4]
  | values =>
    obtain ⟨s', m', h1, h2, h3, h4, h5, h6⟩ := compacted_spec hh hg
    refine .inl ⟨s', m', ?_, h2, h3, by omega⟩
    rw [step, answer]
    rw [h1, Option.map_some, h5]

/-! ## making a map -/

/-- The first `n` keys. -/
def firsts (keys : List K) (n i : Nat) : Option K := if i < n then keys[i]? else none

theorem buildLoop_spec {hash : K → Nat} (hh : ∀ k, hash k < 2^64) (keys : List K) (hn : keys.length ≤ W - 1) :
    ∀ (xs : List K) (i : Nat) (m : Map), keys.drop i = xs → i + xs.length = keys.length → Link hash (firsts keys i) m → m.a (m.sz - 1) = empty →
    (∃ m', buildLoop (V := V) hash (keys.map some) xs i m = some (.inl m') ∧ Link hash (firsts keys keys.length) m' ∧ m'.a (m'.sz - 1) = empty ∧ m'.pop = m.pop) ∨
    (buildLoop (V := V) hash (keys.map some) xs i m = some (.inr .duplicate) ∧ ¬ keys.Nodup) ∨
    (buildLoop (V := V) hash (keys.map some) xs i m = some (.inr .tooBig) ∧ Crowd hash (· ∈ keys))
  | [], i, m, _, hi, hl, hlast => by
    left
    rw [List.length_nil, Nat.add_zero] at hi
    rw [hi] at hl
    exact ⟨m, rfl, hl, hlast, rfl⟩
  | x :: xs, i, m, hx, hi, hl, hlast => by
    rw [List.length_cons] at hi
    have hxi : keys[i]? = some x := by
      have := congrArg (·[0]?) hx
      simpa using this
    have hd : keys.drop (i+1) = xs := by
      have := congrArg List.tail hx
      simpa using this
    have hfk : ∀ q k, firsts keys i q = some k → (keys.map some)[q]? = some (some k) := by
      intro q k h
      unfold firsts at h
      split at h
      · rw [List.getElem?_map, h]; rfl
      · cases h
    obtain ⟨j, o, h1, _, h2⟩ := find_spec hh hl hlast hfk x
    rw [buildLoop, h1, Option.bind_some]
    rcases h2 with ⟨q, rfl, h3, _⟩ | ⟨rfl, h3, h4⟩
    · right; left
      refine ⟨rfl, fun hnd => ?_⟩
      unfold firsts at h3
      split at h3
      · rename_i hq
        have h5 := List.getElem?_inj (by omega : q < keys.length) hnd (j := i)
        have := h5.1 (by rw [h3, hxi])
        omega
      · cases h3
    · simp only []
      have hnone : firsts keys i i = none := by unfold firsts; rw [if_neg (by omega)]
      obtain ⟨b, e, e1, e2, e3⟩ := insert_spec hh hl hlast (show i < W - 1 by omega) (h4 i (by wo)) h3 hnone
      have hlv : (fun q => if q = i then some x else firsts keys i q) = firsts keys (i+1) := by
        funext q
        unfold firsts
        by_cases c : q = i
        · rw [if_pos c, if_pos (by omega), c, hxi]
        · rw [if_neg c]
          by_cases d : q < i
          · rw [if_pos d, if_pos (by omega)]
          · rw [if_neg d, if_neg (by omega)]
      rw [hlv] at e2
      rw [e1, Option.bind_some]
      simp only []
      by_cases d : e = m.sz - 1
      · rw [if_pos d]
        rcases resize_link e2 with ⟨g, g'⟩ | ⟨m', g1, g2, g3, g4⟩
        · right; right
          rw [show ({ m with a := b } : Map).sh = m.sh from rfl] at g
          rw [g, Option.bind_some]
          refine ⟨rfl, ?_⟩
          have hcr : Crowd hash (fun k => ∃ q, firsts keys (i+1) q = some k) := by
            rcases g' with g' | ⟨a, q1, q2⟩
            · rcases e3 with ⟨_, e3⟩ | ⟨e3, _⟩
              · exact crowd_top hh e2 g' e3
              · exact absurd d e3
            · exact crowd_top hh q1 rfl q2
          obtain ⟨t, l, q1, q2, q3, q4⟩ := hcr
          refine ⟨t, l, q1, q2, q3, fun k hk => ⟨?_, (q4 k hk).2⟩⟩
          obtain ⟨q, hq⟩ := (q4 k hk).1
          unfold firsts at hq
          split at hq
          · exact List.mem_of_getElem? hq
          · cases hq
        · rw [show ({ m with a := b } : Map).sh = m.sh from rfl] at g1
          rw [g1, Option.bind_some]
          have ih := buildLoop_spec hh keys hn xs (i+1) m' hd (by omega) g2 g3
          rw [g4] at ih
          exact ih
      · rw [if_neg d]
        rcases e3 with ⟨e3, _⟩ | ⟨_, e3⟩
        · exact absurd e3 d
        · exact buildLoop_spec hh keys hn xs (i+1) { m with a := b } hd (by omega) e2 e3

theorem firstSh_range {n : Nat} (h : n < 2147483648) : 32 ≤ firstSh n ∧ firstSh n ≤ 58 := by
  unfold firstSh
  have h0 : n ||| 16 ≠ 0 := by
    intro hc
    have h1 : 16 ≤ n ||| 16 := Nat.right_le_or
    omega
  have h1 : 4 ≤ (n ||| 16).log2 := (Nat.le_log2 h0).2 (Nat.right_le_or (n := n) (m := 16))
  have h2 : (n ||| 16).log2 < 31 := (Nat.log2_lt h0).2 (Nat.or_lt_two_pow (n := 31) (by omega) (by omega))
  omega

theorem pairs_zip : ∀ (keys : List K) (vals : List V), pairs (keys.map some) (vals.map some) = keys.zip vals
  | [], _ => by simp [pairs]
  | _ :: _, [] => by simp [pairs]
  | k :: ks, v :: vs => by simp [pairs, pairs_zip ks vs]

theorem live_map_some {α : Type} (l : List α) (i : Nat) : live (l.map some) i = l[i]? := by
  unfold live; rw [List.getElem?_map]; cases l[i]? <;> rfl

theorem build_spec {hash : K → Nat} (hh : ∀ k, hash k < 2^64) (keys : List K) (vals : List V) (hn : keys.length < 2147483648)
    (hv : vals.length = keys.length) :
    (∃ s m, build hash keys vals = some (.inl s) ∧ Good hash s m ∧ contents s = keys.zip vals ∧ keys.Nodup ∧ s.keys = keys.map some) ∨
    (build hash keys vals = some (.inr .duplicate) ∧ ¬ keys.Nodup) ∨
    (build hash keys vals = some (.inr .tooBig) ∧ Crowd hash (· ∈ keys)) := by
  obtain ⟨f1, f2⟩ := firstSh_range hn
  have hl : Link hash (firsts keys 0) (alloc keys.length (firstSh keys.length)) := by
    refine ⟨⟨rfl, f1, f2, fun _ _ => Nat.le_refl _, fun _ _ _ _ h => absurd rfl h, fun _ _ h => absurd rfl h, fun _ _ h => absurd rfl h,
      fun _ _ _ _ h => absurd rfl h⟩, ?_, ?_, ?_⟩
    · intro u
      constructor
      · rintro ⟨h, p, _, h'⟩; exact absurd h'.symm h
      · rintro ⟨i, k, h, _⟩; unfold firsts at h; rw [if_neg (by omega)] at h; cases h
    · intro i k h; unfold firsts at h; rw [if_neg (by omega)] at h; cases h
    · intro i j k h; unfold firsts at h; rw [if_neg (by omega)] at h; cases h
  unfold build
  rcases buildLoop_spec (V := V) hh keys (by wo) keys 0 _ rfl (by omega) hl rfl with ⟨m', e1, e2, e3, e4⟩ | ⟨e1, e2⟩ | ⟨e1, e2⟩
  · left
    rw [e1]
    have hf : firsts keys keys.length = live (keys.map some) := by
      funext i
      rw [live_map_some]
      unfold firsts
      by_cases c : i < keys.length
      · rw [if_pos c]
      · rw [if_neg c, List.getElem?_eq_none (by omega)]
    rw [hf] at e2
    refine ⟨_, m', rfl, ⟨rfl, e2, e3, ⟨by simp [hv], fun i => ?_⟩, ?_⟩, pairs_zip keys vals, ?_, rfl⟩
    · rw [live_map_some, live_map_some]
      by_cases c : i < keys.length
      · rw [List.getElem?_eq_getElem c, List.getElem?_eq_getElem (by omega)]; rfl
      · rw [List.getElem?_eq_none (by omega), List.getElem?_eq_none (by omega)]; rfl
    · rw [e4]
      show keys.length = _
      rw [List.filter_map, List.length_map]
      congr 1
      symm
      rw [List.filter_eq_self]
      intro a _; rfl
    · refine List.pairwise_iff_getElem.2 fun i j hi hj hij h => ?_
      have h1 : live (keys.map some) i = some keys[i] := by rw [live_map_some, List.getElem?_eq_getElem hi]
      have h2 : live (keys.map some) j = some keys[i] := by rw [live_map_some, List.getElem?_eq_getElem hj, h]
      have := e2.inj i j _ h1 h2
      omega
  · right; left
    rw [e1]; exact ⟨rfl, e2⟩
  · right; right
    rw [e1]; exact ⟨rfl, e2⟩

/-! ## histories -/

/-- A key given to the map. -/
def Given (keys : List K) (ops : List (Op K V)) (k : K) : Prop := k ∈ keys ∨ ∃ v, Op.set k v ∈ ops

theorem mem_contents {s : St K V} {k : K} (h : k ∈ (contents s).map (·.1)) : ∃ i, live s.keys i = some k := by
  obtain ⟨e, h1, rfl⟩ := List.mem_map.1 h
  obtain ⟨i, h2, _⟩ := mem_pairs.1 (show (e.1, e.2) ∈ _ from h1)
  exact ⟨i, h2⟩

theorem live_contents {hash : K → Nat} {s : St K V} {m : Map} (hg : Good hash s m) {i : Nat} {k : K} (h : live s.keys i = some k) :
    k ∈ (contents s).map (·.1) := by
  have h4 := hg.sync.2 i
  rw [h] at h4
  obtain ⟨v, h5⟩ := Option.isSome_iff_exists.1 h4.symm
  exact List.mem_map.2 ⟨(k, v), mem_pairs.2 ⟨i, h, h5⟩, rfl⟩

/-- What a call adds to the keys. -/
theorem answer_keys (c : List (K × V)) (o : Op K V) (k : K) (h : k ∈ (answer c o).1.map (·.1)) : k ∈ c.map (·.1) ∨ ∃ v, o = .set k v := by
  cases o with
  | set w x =>
    rw [answer] at h
    simp only [] at h
    by_cases d : (valueOf c w).isSome = true
    · rw [if_pos d] at h
      obtain ⟨e, h1, h2⟩ := List.mem_map.1 h
      obtain ⟨e', h3, h4⟩ := List.mem_map.1 h1
      by_cases q : e'.1 = w
      · rw [if_pos q] at h4
        left
        rw [← h2, ← h4, ← q]
        exact List.mem_map.2 ⟨e', h3, rfl⟩
      · rw [if_neg q] at h4
        left
        rw [← h2, ← h4]
        exact List.mem_map.2 ⟨e', h3, rfl⟩
    · rw [if_neg d, List.map_append, List.mem_append] at h
      rcases h with h | h
      · exact .inl h
      · right
        simp at h
        exact ⟨x, by rw [h]⟩
  | delete w =>
    rw [answer] at h
    by_cases d : (valueOf c w).isSome = true
    · rw [if_pos d] at h
      obtain ⟨e, h1, h2⟩ := List.mem_map.1 h
      exact .inl (List.mem_map.2 ⟨e, (List.mem_filter.1 h1).1, h2⟩)
    · rw [if_neg d] at h; exact .inl h
  | get w => exact .inl h
  | getD d w => exact .inl h
  | has w => exact .inl h
  | count => exact .inl h
  | keys => exact .inl h
  | values => exact .inl h

theorem crowd_mono {hash : K → Nat} {P Q : K → Prop} (h : ∀ k, P k → Q k) : Crowd hash P → Crowd hash Q :=
  fun ⟨t, l, h1, h2, h3, h4⟩ => ⟨t, l, h1, h2, h3, fun k hk => ⟨h k (h4 k hk).1, (h4 k hk).2⟩⟩

theorem answer_out (c : List (K × V)) (o : Op K V) : (answer c o).2 ≠ .tooBig ∧ (answer c o).2 ≠ .full := by
  cases o <;> rw [answer]
  case get k => cases valueOf c k <;> exact ⟨fun h => (nomatch h), fun h => (nomatch h)⟩
  case delete k =>
    split <;> exact ⟨fun h => (nomatch h), fun h => (nomatch h)⟩
  all_goals exact ⟨fun h => (nomatch h), fun h => (nomatch h)⟩

theorem run_spec {hash : K → Nat} (hh : ∀ k, hash k < 2^64) : ∀ (ops : List (Op K V)) (s : St K V) (m : Map), Good hash s m →
    run hash s ops = some (answers (contents s) ops) ∨
    (∃ pre o rest w x, ops = pre ++ o :: rest ∧ o = .set w x ∧ run hash s ops = some (answers (contents s) pre ++ [.tooBig]) ∧
      Crowd hash (Given ((contents s).map (·.1)) ops)) ∨
    (∃ pre o rest, ops = pre ++ o :: rest ∧ run hash s ops = some (answers (contents s) pre ++ [.full]) ∧
      W - 1 ≤ s.keys.length + ops.length)
  | [], s, m, _ => .inl rfl
  | o :: os, s, m, hg => by
    rcases step_spec hh hg o with ⟨s', m', h1, h2, h3, h4⟩ | ⟨s', w, x, ho, h1, h2⟩ | ⟨h1, h2⟩
    · have hr : run hash s (o :: os) = (run hash s' os).map ((answer (contents s) o).2 :: ·) := by
        rw [run, h1, Option.bind_some]
        obtain ⟨n1, n2⟩ := answer_out (contents s) o
        generalize (answer (contents s) o).2 = out at n1 n2
        cases out <;> first | rfl | exact absurd rfl n1 | exact absurd rfl n2
      rw [hr, answers, ← h3]
      rcases run_spec hh os s' m' h2 with h | ⟨pre, o', rest, w, x, e1, e2, e3, e4⟩ | ⟨pre, o', rest, e1, e2, e3⟩
      · left; rw [h, Option.map_some]
      · right; left
        refine ⟨o :: pre, o', rest, w, x, by rw [e1]; rfl, e2, by rw [e3, Option.map_some, answers, ← h3]; rfl, ?_⟩
        refine crowd_mono (fun k hk => ?_) e4
        rcases hk with hk | ⟨v, hk⟩
        · rw [h3] at hk
          rcases answer_keys _ _ _ hk with hk | ⟨v, hk⟩
          · exact .inl hk
          · exact .inr ⟨v, by rw [hk]; exact List.mem_cons_self⟩
        · exact .inr ⟨v, List.mem_cons_of_mem _ hk⟩
      · right; right
        refine ⟨o :: pre, o', rest, by rw [e1]; rfl, by rw [e2, Option.map_some, answers, ← h3]; rfl, ?_⟩
        rw [List.length_cons]; omega
    · right; left
      refine ⟨[], o, os, w, x, rfl, ho, by rw [run, h1, Option.bind_some]; rfl, ?_⟩
      refine crowd_mono (fun k hk => ?_) h2
      rcases hk with hk | ⟨i, hk⟩
      · exact .inr ⟨x, by rw [hk, ho]; exact List.mem_cons_self⟩
      · exact .inl (live_contents hg hk)
    · right; right
      refine ⟨[], o, os, rfl, by rw [run, h1, Option.bind_some]; rfl, ?_⟩
      omega

theorem zip_keys : ∀ {keys : List K} {vals : List V}, vals.length = keys.length → (keys.zip vals).map (·.1) = keys
  | [], [], _ => rfl
  | k :: ks, v :: vs, h => by simp at h; simp [zip_keys h]
  | [], _ :: _, h => by simp at h
  | _ :: _, [], h => by simp at h

/-- Keys with high hashes fit before the last slot. -/
theorem few_high {hash : K → Nat} {live : Nat → Option K} {m : Map} (hl : Link hash live m) (hlast : m.a (m.sz - 1) = empty)
    {t : Nat} {l : List K} (hn : l.Nodup) (h : ∀ k ∈ l, (∃ i, live i = some k) ∧ t ≤ hash k / 2^m.sh) : l.length ≤ m.sz - 1 - t := by
  have hpos : ∀ k : K, ∃ p, k ∈ l → t ≤ p ∧ p < m.sz - 1 ∧ m.a p ≠ empty ∧ ∃ i, live i = some k ∧ m.a p = word hash k i := by
    intro k
    by_cases c : k ∈ l
    · obtain ⟨⟨i, h1⟩, h2⟩ := h k c
      have hi := hl.lt i k h1
      obtain ⟨h3, p, h4, h5⟩ := (hl.has (word hash k i)).2 ⟨i, k, h1, rfl⟩
      have h6 := hl.tab.home p h4 (by rw [h5]; exact h3)
      rw [h5, div_sh hl.tab.lo, word_div hash k (by wo), ← div_sh hl.tab.lo] at h6
      have h7 : p ≠ m.sz - 1 := by rintro rfl; rw [hlast] at h5; exact h3 h5.symm
      exact ⟨p, fun _ => ⟨Nat.le_trans h2 h6, by omega, by rw [h5]; exact h3, i, h1, h5⟩⟩
    · exact ⟨0, fun h => absurd h c⟩
  obtain ⟨f, hf⟩ := Classical.axiomOfChoice hpos
  have h1 : (l.map f).Nodup := by
    rw [List.nodup_iff_pairwise_ne, List.pairwise_map]
    refine List.Pairwise.imp_of_mem ?_ hn
    intro a b ha hb hab he
    obtain ⟨_, _, _, i, g1, g2⟩ := hf a ha
    obtain ⟨_, _, _, j, g3, g4⟩ := hf b hb
    rw [he, g4] at g2
    have hi := hl.lt i a g1
    have hj := hl.lt j b g3
    have h5 := word_mod hash a (show i < W by wo)
    rw [← g2, word_mod hash b (by wo)] at h5
    rw [h5] at g3
    exact hab (Option.some.inj (g1.symm.trans g3))
  have h2 : l.map f ⊆ List.range' t (m.sz - 1 - t) := by
    intro p hp
    obtain ⟨k, hk, rfl⟩ := List.mem_map.1 hp
    obtain ⟨g1, g2, _⟩ := hf k hk
    rw [List.mem_range'_1]
    omega
  have := h1.length_le_of_subset h2
  rw [List.length_map, List.length_range'] at this
  exact this

end Verif.HashMap
