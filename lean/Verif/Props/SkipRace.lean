/-
  C47: searches of the ordered index at the same time as insertions.

  One thread inserts, step by step (the writers of a memory table are one at a time), and a reader searches, step by
  step, without any lock of the log.  `seen` is the list of all contents the index had since the reader's call began,
  where an entry is in the content from the moment its node is published.  An answer is right if it is the answer of a
  search in one of them.
-/
import Verif.Index.SkipConcReader
import Verif.Props.Skiplist

set_option linter.unusedSectionVars false

namespace Jungle
open Skip
variable {K : Type} [LinearOrder K]

/-- The calls of a reader: exact search, greatest at or below, least at or above, greatest below, node after. -/
inductive RCall (K : Type)
  | find (k : K) | le (k : K) | ge (k : K) | lt (k : K) | next (i : Nat)

/-- The modes of `_sl_find` the calls use (src/skiplist.cc:673-689,978,987-992). -/
def RCall.ask : RCall K → SAsk K
  | .find k => ⟨some k, 0, none⟩
  | .le k => ⟨some k, -1, none⟩
  | .ge k => ⟨some k, 1, none⟩
  | .lt k => ⟨some k, -2, none⟩
  | .next i => ⟨none, 0, some i⟩

/-- Schedules of one writer and one reader.  `m` is the content, `c` the reader's call. -/
inductive RaceReach (mx : Nat) : Skip K → SWr → List (Nat × K) → RCall K → SRd → List (List (Nat × K)) → Prop
  | init (mem : Skip K) (c : RCall K) : RaceReach mx (Skip.init mem) .idle [] c .idle [[]]
  | write {s w m c rd seen s' w' ev} : RaceReach mx s w m c rd seen → WStep mx s w s' w' ev →
      RaceReach mx s' w' (ev.toList ++ m) c rd ((ev.toList ++ m) :: seen)
  | call {s w m c rd seen} (d : RCall K) : RaceReach mx s w m c rd seen → (∀ i, d = .next i → ∃ k, (i, k) ∈ m) →
      RaceReach mx s w m d (d.ask.first s) [m]
  | read {s w m c rd seen rd'} : RaceReach mx s w m c rd seen → c.ask.step s w rd = some rd' →
      RaceReach mx s w m c rd' seen

/-! ### the invariant -/

theorem race_inv {mx : Nat} (hmx : 0 < mx) {s : Skip K} {w : SWr} {m : List (Nat × K)} {c : RCall K} {rd : SRd} {seen : List (List (Nat × K))}
    (h : RaceReach mx s w m c rd seen) :
    ∃ full, WInv mx s w full ∧ SeenOk s full m seen ∧ (∀ e ∈ m, s.linked e.1 = true ∧ s.key e.1 = e.2) ∧ RInv mx s full c.ask seen rd := by
  induction h with
  | init mem c =>
    have h0 := init_ok hmx mem
    refine ⟨[], .idle h0, ⟨?_, by simp, ?_, ?_⟩, (fun e he => by cases he), trivial⟩
    · intro m' hm' e he
      simp only [List.mem_singleton] at hm'
      subst hm'; cases he
    · intro j hj
      have := (h0.linked j).1 hj
      cases this
    · intro j hj
      exact (h0.linked j).1 hj
  | @write s w m c rd seen s' w' ev _ hst ih =>
    obtain ⟨full, hw, hs, hm, hr⟩ := ih
    obtain ⟨full', hw', he, hl, hk⟩ := hw.step hst
    have hold : ∀ m' ∈ seen, ∀ e ∈ m', s'.linked e.1 = true ∧ s'.key e.1 = e.2 := by
      intro m' hm' e hme
      obtain ⟨h1, h2⟩ := hs.old m' hm' e hme
      exact ⟨he.linked _ h1, by rw [he.key _ (hs.mem _ h1)]; exact h2⟩
    have hnew : ∀ e ∈ ev.toList ++ m, s'.linked e.1 = true ∧ s'.key e.1 = e.2 := by
      intro e hme
      rcases List.mem_append.1 hme with h1 | h1
      · have h2 : ev = some e := by
          cases ev with
          | none => cases h1
          | some x => simp at h1; rw [h1]
        exact ⟨(hl e.1).2 (Or.inr ⟨e, h2, rfl⟩), (hk e h2).2⟩
      · exact hold m hs.now e h1
    refine ⟨full', hw', ⟨?_, by simp, ?_, ?_⟩, hnew, hr.ext he hs (fun m' h => List.mem_cons_of_mem _ h)⟩
    · intro m' hm'
      rcases List.mem_cons.1 hm' with rfl | hm'
      · exact hnew
      · exact hold m' hm'
    · intro j hj
      rcases (hl j).1 hj with h1 | ⟨e, h1, rfl⟩
      · have := hs.all j h1
        rw [he.key j (hs.mem j h1)]
        exact List.mem_append_right _ this
      · rw [(hk e h1).2, h1]
        simp
    · obtain ⟨on, hlay⟩ := hw'.lay
      exact hlay.mem
  | @call s w m c rd seen d _ hd ih =>
    obtain ⟨full, hw, hs, hm, hr⟩ := ih
    obtain ⟨on, hlay⟩ := hw.lay
    refine ⟨full, hw, ⟨?_, by simp, hs.all, hs.mem⟩, hm, first_inv hlay.topLt ?_⟩
    · intro m' hm' e he
      simp only [List.mem_singleton] at hm'
      subst hm'
      exact hm e he
    · intro i hi
      cases d with
      | next j =>
        cases hi
        obtain ⟨k, hk⟩ := hd _ rfl
        exact ⟨rfl, (hm _ hk).1⟩
      | find k => cases hi
      | le k => cases hi
      | ge k => cases hi
      | lt k => cases hi
  | @read s w m c rd seen rd' _ hst ih =>
    obtain ⟨full, hw, hs, hm, hr⟩ := ih
    exact ⟨full, hw, hs, hm, hr.step hw hs hst⟩

/-- What a search that has ended has seen. -/
theorem race_answer {mx : Nat} (hmx : 0 < mx) {s : Skip K} {w : SWr} {m : List (Nat × K)} {c : RCall K} {r : Option SPtr}
    {seen : List (List (Nat × K))} (h : RaceReach mx s w m c (.done r) seen) {k : K} (hq : c.ask.q = some k) (hst : c.ask.start = none) {mode : Int}
    (hmode : c.ask.mode = mode) :
    (-1 ≤ mode ∧ mode ≤ 1 ∧ ∃ j, (j, k) ∈ m ∧ m ∈ seen ∧ r = some (.node j)) ∨
    ∃ m' ∈ seen, ∃ cur p : Option (Nat × K), (∀ e, cur = some e → e ∈ m' ∧ e.2 < k) ∧
      (∀ e, p = some e → e ∈ m ∧ k ≤ e.2 ∧ (-1 ≤ mode ∧ mode ≤ 1 → e.2 ≠ k)) ∧
      (∀ e ∈ m', (∃ x, cur = some x ∧ e.2 ≤ x.2) ∨ ∃ x, p = some x ∧ x.2 ≤ e.2) ∧
      r = if mode < 0 ∧ cur ≠ none then cur.map (fun e => .node e.1) else if 0 < mode ∧ p ≠ none then p.map (fun e => .node e.1) else none := by
  subst hmode
  obtain ⟨full, hw, hs, hm, hr, -⟩ := race_inv hmx h
  unfold Answer at hr
  rw [hst] at hr
  rcases hr with ⟨h1, h2, ⟨j, h3, h4, h5⟩ | ⟨h3, -⟩⟩ | ⟨cur, p, h1, h2, ⟨m', hm', h3, h4⟩, h5⟩
  · left
    rw [hq] at h4
    cases h4
    exact ⟨h1, h2, j, hs.all j h3, hs.now, h5⟩
  · rw [hq] at h3; cases h3
  · right
    rw [hq] at h1 h2
    refine ⟨m', hm', ?_⟩
    have hb : ∀ j, Bef s (some k) j ↔ s.key j < k := fun j => ⟨fun h => h k rfl, fun h k' hk' => by cases hk'; exact h⟩
    rcases h1 with rfl | ⟨c0, rfl, h6, h7⟩
    · rcases h2 with rfl | ⟨j, rfl, h8, h9, h10⟩
      · refine ⟨none, none, (fun e he => by cases he), (fun e he => by cases he), ?_, ?_⟩
        · intro e he
          rcases h4 e he with ⟨_, h, _⟩ | ⟨_, h, _⟩ <;> cases h
        · rw [h5]; simp
      · refine ⟨none, some (j, s.key j), (fun e he => by cases he), ?_, ?_, ?_⟩
        · intro e he
          cases he
          exact ⟨hs.all j h8, not_lt.1 (fun hh => h9 ((hb j).2 hh)), fun hh he => h10 hh (by rw [← he])⟩
        · intro e he
          rcases h4 e he with ⟨_, h, _⟩ | ⟨_, h, h11⟩
          · cases h
          · cases h; exact Or.inr ⟨_, rfl, h11⟩
        · rw [h5]; simp
    · have hcur : ∀ e, some (c0, s.key c0) = some e → e ∈ m' ∧ e.2 < k := by
        intro e he
        cases he
        exact ⟨h3 c0 rfl, (hb c0).1 h7⟩
      rcases h2 with rfl | ⟨j, rfl, h8, h9, h10⟩
      · refine ⟨some (c0, s.key c0), none, hcur, (fun e he => by cases he), ?_, ?_⟩
        · intro e he
          rcases h4 e he with ⟨_, h, h11⟩ | ⟨_, h, _⟩
          · cases h; exact Or.inl ⟨_, rfl, h11⟩
          · cases h
        · rw [h5]; simp
      · refine ⟨some (c0, s.key c0), some (j, s.key j), hcur, ?_, ?_, ?_⟩
        · intro e he
          cases he
          exact ⟨hs.all j h8, not_lt.1 (fun hh => h9 ((hb j).2 hh)), fun hh he => h10 hh (by rw [← he])⟩
        · intro e he
          rcases h4 e he with ⟨_, h, h11⟩ | ⟨_, h, h11⟩
          · cases h; exact Or.inl ⟨_, rfl, h11⟩
          · cases h; exact Or.inr ⟨_, rfl, h11⟩
        · rw [h5]; simp

/-! ### the property -/

/-- **C47**, exact search.  Whatever a thread inserts meanwhile, the answer is that of a search in one of the contents
    the index had while the call ran: a node with the key, or nothing when the key was not there. -/
theorem C47_find {mx : Nat} (hmx : 0 < mx) {s : Skip K} {w : SWr} {m : List (Nat × K)} {k : K} {r : Option SPtr} {seen : List (List (Nat × K))}
    (h : RaceReach mx s w m (.find k) (.done r) seen) :
    ∃ m' ∈ seen, (r = none ∧ ∀ e ∈ m', e.2 ≠ k) ∨ ∃ i, r = some (.node i) ∧ (i, k) ∈ m' := by
  rcases race_answer hmx h rfl rfl (mode := 0) rfl with ⟨-, -, j, h1, h2, h3⟩ | ⟨m', hm', cur, p, h1, h2, h3, h4⟩
  · exact ⟨m, h2, Or.inr ⟨j, h3, h1⟩⟩
  · refine ⟨m', hm', Or.inl ⟨?_, ?_⟩⟩
    · rw [h4, if_neg (fun hh => absurd hh.1 (by decide)), if_neg (fun hh => absurd hh.1 (by decide))]
    · intro e he hek
      rcases h3 e he with ⟨x, h5, h6⟩ | ⟨x, h5, h6⟩
      · have := (h1 x h5).2
        rw [hek] at h6
        exact absurd this (not_lt.2 h6)
      · obtain ⟨-, h7, h8⟩ := h2 x h5
        rw [hek] at h6
        exact h8 ⟨by decide, by decide⟩ (le_antisymm h6 h7)

/-- **C47**, search for the greatest key at or below. -/
theorem C47_le {mx : Nat} (hmx : 0 < mx) {s : Skip K} {w : SWr} {m : List (Nat × K)} {k : K} {r : Option SPtr} {seen : List (List (Nat × K))}
    (h : RaceReach mx s w m (.le k) (.done r) seen) : ∃ m' ∈ seen, Spec.Greatest m' (fun x => x ≤ k) r := by
  rcases race_answer hmx h rfl rfl (mode := (-1)) rfl with ⟨-, -, j, h1, h2, h3⟩ | ⟨m', hm', cur, p, h1, h2, h3, h4⟩
  · exact ⟨m, h2, Or.inr ⟨j, k, h3, h1, le_refl _, fun e _ he => he⟩⟩
  · refine ⟨m', hm', ?_⟩
    have hp : ∀ e ∈ m', e.2 ≤ k → ∃ x, cur = some x ∧ e.2 ≤ x.2 := by
      intro e he hek
      rcases h3 e he with h5 | ⟨x, h5, h6⟩
      · exact h5
      · obtain ⟨-, h7, h8⟩ := h2 x h5
        exact absurd (le_antisymm (le_trans h6 hek) h7) (h8 ⟨by decide, by decide⟩)
    cases cur with
    | none =>
      left
      refine ⟨?_, ?_⟩
      · rw [h4, if_neg (fun hh => hh.2 rfl), if_neg (fun hh => absurd hh.1 (by decide))]
      · intro e he hek
        obtain ⟨x, h5, -⟩ := hp e he hek
        cases h5
    | some e0 =>
      right
      obtain ⟨h5, h6⟩ := h1 e0 rfl
      refine ⟨e0.1, e0.2, ?_, h5, le_of_lt h6, ?_⟩
      · rw [h4, if_pos ⟨by decide, by simp⟩]; rfl
      · intro e he hek
        obtain ⟨x, h7, h8⟩ := hp e he hek
        cases h7
        exact h8

/-- **C47**, search for the greatest key below; it is how the index goes back one entry. -/
theorem C47_lt {mx : Nat} (hmx : 0 < mx) {s : Skip K} {w : SWr} {m : List (Nat × K)} {k : K} {r : Option SPtr} {seen : List (List (Nat × K))}
    (h : RaceReach mx s w m (.lt k) (.done r) seen) : ∃ m' ∈ seen, Spec.Greatest m' (fun x => x < k) r := by
  rcases race_answer hmx h rfl rfl (mode := (-2)) rfl with ⟨h0, -, -⟩ | ⟨m', hm', cur, p, h1, h2, h3, h4⟩
  · exact absurd h0 (by decide)
  · refine ⟨m', hm', ?_⟩
    have hp : ∀ e ∈ m', e.2 < k → ∃ x, cur = some x ∧ e.2 ≤ x.2 := by
      intro e he hek
      rcases h3 e he with h5 | ⟨x, h5, h6⟩
      · exact h5
      · obtain ⟨-, h7, -⟩ := h2 x h5
        exact absurd (lt_of_le_of_lt h6 hek) (not_lt.2 h7)
    cases cur with
    | none =>
      left
      refine ⟨?_, ?_⟩
      · rw [h4, if_neg (fun hh => hh.2 rfl), if_neg (fun hh => absurd hh.1 (by decide))]
      · intro e he hek
        obtain ⟨x, h5, -⟩ := hp e he hek
        cases h5
    | some e0 =>
      right
      obtain ⟨h5, h6⟩ := h1 e0 rfl
      refine ⟨e0.1, e0.2, ?_, h5, h6, ?_⟩
      · rw [h4, if_pos ⟨by decide, by simp⟩]; rfl
      · intro e he hek
        obtain ⟨x, h7, h8⟩ := hp e he hek
        cases h7
        exact h8

/-- **C47**, search for the least key at or above.  "Nothing" is right for a content the index had during the call.  A
    node given is in the index, its key is at or above, and nothing that was in one of the contents is passed over.
    What is missing: the node and the gap need not be of one content, see `C47_ge_violation`. -/
theorem C47_ge_partial {mx : Nat} (hmx : 0 < mx) {s : Skip K} {w : SWr} {m : List (Nat × K)} {k : K} {r : Option SPtr} {seen : List (List (Nat × K))}
    (h : RaceReach mx s w m (.ge k) (.done r) seen) :
    ∃ m' ∈ seen, (r = none ∧ ∀ e ∈ m', e.2 < k) ∨
      ∃ i k', r = some (.node i) ∧ (i, k') ∈ m ∧ k ≤ k' ∧ ∀ e ∈ m', k ≤ e.2 → k' ≤ e.2 := by
  rcases race_answer hmx h rfl rfl (mode := 1) rfl with ⟨-, -, j, h1, h2, h3⟩ | ⟨m', hm', cur, p, h1, h2, h3, h4⟩
  · exact ⟨m, h2, Or.inr ⟨j, k, h3, h1, le_refl _, fun e _ he => he⟩⟩
  · refine ⟨m', hm', ?_⟩
    have hp : ∀ e ∈ m', k ≤ e.2 → ∃ x, p = some x ∧ x.2 ≤ e.2 := by
      intro e he hek
      rcases h3 e he with ⟨x, h5, h6⟩ | h5
      · have := (h1 x h5).2
        exact absurd (lt_of_le_of_lt h6 this) (not_lt.2 hek)
      · exact h5
    cases p with
    | none =>
      left
      refine ⟨?_, ?_⟩
      · rw [h4, if_neg (fun hh => absurd hh.1 (by decide)), if_neg (fun hh => hh.2 rfl)]
      · intro e he
        apply lt_of_not_ge
        intro hek
        obtain ⟨x, h5, -⟩ := hp e he hek
        cases h5
    | some e0 =>
      right
      obtain ⟨h5, h6, -⟩ := h2 e0 rfl
      refine ⟨e0.1, e0.2, ?_, h5, h6, ?_⟩
      · rw [h4, if_neg (fun hh => absurd hh.1 (by decide)), if_pos ⟨by decide, by simp⟩]; rfl
      · intro e he hek
        obtain ⟨x, h7, h8⟩ := hp e he hek
        cases h7
        exact h8

/-- **C47**, one step of a traversal.  It goes to a node of the index with a key at or above, and no key that was there
    at one moment of the call is passed over; in particular none that was there when the call began (`seen` grows). -/
theorem C47_next {mx : Nat} (hmx : 0 < mx) {s : Skip K} {w : SWr} {m : List (Nat × K)} {i : Nat} {r : Option SPtr} {seen : List (List (Nat × K))}
    (h : RaceReach mx s w m (.next i) (.done r) seen) :
    ∃ ki, (i, ki) ∈ m ∧ (r = none ∨ ∃ j k, r = some (.node j) ∧ (j, k) ∈ m ∧ ki ≤ k) ∧
      ∃ m' ∈ seen, ∀ e ∈ m', ki < e.2 → ∃ j k, r = some (.node j) ∧ (j, k) ∈ m ∧ k ≤ e.2 := by
  obtain ⟨full, hw, hs, hm, hr, hl⟩ := race_inv hmx h
  have hi := hl i rfl
  obtain ⟨h1, m', hm', h2⟩ := hr
  refine ⟨s.key i, hs.all i hi, ?_, m', hm', ?_⟩
  · rcases h1 with h1 | ⟨j, h3, h4, h5⟩
    · exact Or.inl h1
    · exact Or.inr ⟨j, s.key j, h3, hs.all j h4, h5⟩
  · intro e he hlt
    obtain ⟨j, h3, h4⟩ := h2 e he hlt
    rcases h1 with h1 | ⟨j', h5, h6, -⟩
    · rw [h1] at h3; cases h3
    · rw [h3] at h5; cases h5
      exact ⟨j, s.key j, h3, hs.all j h6, h4⟩

/-- The contents of one call only grow. -/
theorem C47_grow {mx : Nat} {s : Skip K} {w : SWr} {m : List (Nat × K)} {c : RCall K} {rd : SRd} {seen : List (List (Nat × K))}
    (h : RaceReach mx s w m c rd seen) : m ∈ seen ∧ seen.Pairwise (fun a b => ∀ e ∈ b, e ∈ a) ∧ ∀ m' ∈ seen, ∀ e ∈ m', e ∈ m := by
  induction h with
  | init mem c =>
    refine ⟨by simp, by simp, ?_⟩
    intro m' hm' e he
    simp only [List.mem_singleton] at hm'
    subst hm'; exact he
  | @write s w m c rd seen s' w' ev _ hst ih =>
    obtain ⟨h1, h2, h3⟩ := ih
    refine ⟨by simp, List.pairwise_cons.2 ⟨fun b hb e he => List.mem_append_right _ (h3 b hb e he), h2⟩, ?_⟩
    intro m' hm' e he
    rcases List.mem_cons.1 hm' with rfl | hm'
    · exact he
    · exact List.mem_append_right _ (h3 m' hm' e he)
  | call d _ _ ih =>
    refine ⟨by simp, by simp, ?_⟩
    intro m' hm' e he
    simp only [List.mem_singleton] at hm'
    subst hm'; exact he
  | read _ _ ih => exact ih

/-- **C47**, waiting.  A reader waits only for the lock of a node that is being linked. -/
theorem C47_waits {mx : Nat} (hmx : 0 < mx) {s : Skip K} {w : SWr} {m : List (Nat × K)} {c : RCall K} {rd : SRd} {seen : List (List (Nat × K))}
    (h : RaceReach mx s w m c rd seen) (hs : c.ask.step s w rd = none) :
    rd = .idle ∨ (∃ r, rd = .done r) ∨ ∃ i top l cur prevs nexts, w = .link i top l cur prevs nexts := by
  obtain ⟨full, hw, hsn, hm, hr⟩ := race_inv hmx h
  cases rd with
  | idle => exact Or.inl rfl
  | done r => exact Or.inr (Or.inl ⟨r, rfl⟩)
  | load layer cur =>
    right; right
    change (if w.locked cur = true then none
      else if s.valid cur = false then (if c.ask.start.isSome = true then none else some (c.ask.first s))
      else some (SRd.check layer cur (s.next cur layer))) = none at hs
    cases w with
    | link i top l cur prevs nexts => exact ⟨i, top, l, cur, prevs, nexts, rfl⟩
    | idle =>
      rw [if_neg (by show ¬ false = true; simp)] at hs
      rcases hr.2.1 with rfl | ⟨d, rfl, h1, -⟩
      · cases hs
      · rw [if_neg (by show ¬ s.linked d = false; rw [h1]; simp)] at hs; cases hs
    | count i top cur prevs =>
      rw [if_neg (by show ¬ false = true; simp)] at hs
      rcases hr.2.1 with rfl | ⟨d, rfl, h1, -⟩
      · cases hs
      · rw [if_neg (by show ¬ s.linked d = false; rw [h1]; simp)] at hs; cases hs
  | check layer cur p =>
    change (if s.valid p = true then some (c.ask.decide s layer cur p) else some (SRd.wait layer cur p)) = none at hs
    split at hs <;> cases hs
  | wait layer cur p =>
    right; right
    change (if w.locked p = true then none
      else if s.valid p = false then (if c.ask.start.isSome = true then none else some (c.ask.first s))
      else some (SRd.check layer cur (s.next p layer))) = none at hs
    obtain ⟨-, -, -, h4, m', h5, h6, hp, -⟩ := hr
    cases hlk : w.locked p with
    | true =>
      cases w with
      | link i top l cur prevs nexts => exact ⟨i, top, l, cur, prevs, nexts, rfl⟩
      | idle => cases hlk
      | count i top cur prevs => cases hlk
    | false =>
      exfalso
      rcases h4 with h8 | ⟨j, rfl, h9, -⟩
      · exact hp h8
      · have hv : s.linked j = true := hw.locked h9 hlk
        rw [hlk, if_neg (by simp), if_neg (by show ¬ s.linked j = false; rw [hv]; simp)] at hs
        cases hs

theorem step_ne_idle {a : SAsk K} {s : Skip K} {w : SWr} {rd rd' : SRd} (h : a.step s w rd = some rd') : rd' ≠ .idle := by
  have hf : a.first s ≠ .idle := by unfold SAsk.first; split <;> simp
  have hd : ∀ L cur nx, a.decide s L cur nx ≠ .idle := by
    intro L cur nx
    unfold SAsk.decide
    repeat' split
    all_goals simp
  cases rd with
  | idle => cases h
  | done r => cases h
  | load layer cur =>
    change (if w.locked cur = true then none
      else if s.valid cur = false then (if a.start.isSome = true then none else some (a.first s))
      else some (SRd.check layer cur (s.next cur layer))) = some rd' at h
    repeat' split at h
    all_goals cases h
    · exact hf
    · simp
  | check layer cur p =>
    change (if s.valid p = true then some (a.decide s layer cur p) else some (SRd.wait layer cur p)) = some rd' at h
    repeat' split at h
    all_goals cases h
    · exact hd _ _ _
    · simp
  | wait layer cur p =>
    change (if w.locked p = true then none
      else if s.valid p = false then (if a.start.isSome = true then none else some (a.first s))
      else some (SRd.check layer cur (s.next p layer))) = some rd' at h
    repeat' split at h
    all_goals cases h
    · exact hf
    · simp

/-- **C47**, end.  Once the insertion in progress has published its node, a call that has begun ends, without another
    step of the writer. -/
theorem C47_ends {mx : Nat} (hmx : 0 < mx) {s : Skip K} {w : SWr} {m : List (Nat × K)} {c : RCall K} {rd : SRd} {seen : List (List (Nat × K))}
    (h : RaceReach mx s w m c rd seen) (hw : ∀ i top l cur prevs nexts, w ≠ .link i top l cur prevs nexts) (hrd : rd ≠ .idle) :
    ∃ r, RaceReach mx s w m c (.done r) seen := by
  obtain ⟨full, hwi, hsn, -, hr0⟩ := race_inv hmx h
  have key : ∀ n rd, left full rd < n → RaceReach mx s w m c rd seen → RInv mx s full c.ask seen rd → rd ≠ .idle →
      ∃ r, RaceReach mx s w m c (.done r) seen := by
    intro n
    induction n with
    | zero => intro rd hn; omega
    | succ n ih =>
      intro rd hn hr hri hrd
      cases hs : c.ask.step s w rd with
      | none =>
        rcases C47_waits hmx hr hs with h1 | ⟨r, rfl⟩ | ⟨i, top, l, cur, prevs, nexts, h1⟩
        · exact absurd h1 hrd
        · exact ⟨r, hr⟩
        · exact absurd h1 (hw _ _ _ _ _ _)
      | some rd' =>
        have hr' := RaceReach.read hr hs
        rcases hri.less hwi hs with ⟨r, rfl⟩ | hlt
        · exact ⟨r, hr'⟩
        · refine ih rd' (by omega) hr' ?_ ?_
          · exact hri.step hwi hsn hs
          · rintro rfl
            exact step_ne_idle hs rfl
  exact key _ rd (Nat.lt_succ_self _) h hr0 hrd

/-! ### the writer alone -/

/-- Steps of the writer, with what becomes visible, newest first. -/
inductive WRun (mx : Nat) : Skip K → SWr → Skip K → SWr → List (Nat × K) → Prop
  | nil {s w} : WRun mx s w s w []
  | snoc {s w s' w' s'' w'' evs ev} : WRun mx s w s' w' evs → WStep mx s' w' s'' w'' ev → WRun mx s w s'' w'' (ev.toList ++ evs)

theorem linkAll_key (i : Nat) (prevs nexts : Nat → SPtr) (n : Nat) (s : Skip K) : (linkAll i prevs nexts n s).key = s.key := by
  induction n with
  | zero => rfl
  | succ n ih =>
    show (if (linkAll i prevs nexts n s).next (prevs n) n = nexts n then (linkAll i prevs nexts n s).setNext (prevs n) n (.node i)
      else linkAll i prevs nexts n s).key = s.key
    split
    · exact ih
    · exact ih

/-- The steps of the writer are those of the call of C40: an insertion that returns 0 makes its node visible once, one
    that is refused makes nothing visible, and both leave the index as the call does. -/
theorem C47_writer {mx : Nat} {s : Skip K} {ns : List Nat} (h : Ok mx s ns) {i : Nat} (hi : i ∉ ns) {k : K} {top : Nat} (ht : top < mx) {noDup : Bool}
    {e : Int} {s' : Skip K} (hins : s.insert mx i k top noDup = some (e, s')) :
    WRun mx s .idle s' .idle (if e = 0 then [(i, k)] else []) := by
  have hl : s.linked i = false := by
    cases hh : s.linked i with
    | false => rfl
    | true => exact absurd ((h.linked i).1 hh) hi
  obtain ⟨A, B, res, -, -, -, h1, h2⟩ := insSearch_ok h hi k ht noDup
  unfold Skip.insert at hins
  rw [h1] at hins
  rcases h2 with ⟨cur, prevs, nexts, s1, rfl, -, hk, -⟩ | ⟨s1, rfl, -⟩
  · cases hins
    have hlink : ∀ l, l ≤ top + 1 → WRun mx s .idle (linkAll i prevs nexts l s1) (.link i top l cur prevs nexts) [] := by
      intro l
      induction l with
      | zero => intro _; exact .snoc .nil (.search hl ht h1)
      | succ l ih =>
        intro hle
        exact .snoc (ih (by omega)) (.link (by omega))
    have := (WRun.snoc (WRun.snoc (hlink (top + 1) (le_refl _)) .publish) .count)
    have hkey : (linkAll i prevs nexts (top + 1) s1).key i = k := by
      rw [linkAll_key, hk]
      show (if i = i then k else s.key i) = k
      rw [if_pos rfl]
    rw [hkey] at this
    exact this
  · cases hins
    exact .snoc .nil (.refuse hl ht h1)

/-! ### a search that skips a node -/

namespace RaceEx

inductive Act
  | ins (i k top : Nat) | go | ask (c : RCall Nat) | rd

structure St where
  s : Skip Nat
  w : SWr
  m : List (Nat × Nat)
  c : RCall Nat
  r : SRd
  seen : List (List (Nat × Nat))

def St.act (x : St) : Act → Option St
  | .ins i k top =>
    match x.w with
    | .idle =>
      if x.s.linked i = false ∧ top < 12 then
        match x.s.insSearch i k top true with
        | some (.ready cur prevs nexts s') => some { x with s := s', w := .link i top 0 cur prevs nexts, seen := x.m :: x.seen }
        | some (.dup s') => some { x with s := s', seen := x.m :: x.seen }
        | none => none
      else none
    | _ => none
  | .go =>
    match x.w with
    | .idle => none
    | .link i top l cur prevs nexts =>
      if l ≤ top then
        some { x with s := if x.s.next (prevs l) l = nexts l then x.s.setNext (prevs l) l (.node i) else x.s, w := .link i top (l + 1) cur prevs nexts,
                      seen := x.m :: x.seen }
      else if l = top + 1 then
        some { x with s := { x.s with linked := fun j => if j = i then true else x.s.linked j }, w := .count i top cur prevs,
                      m := (i, x.s.key i) :: x.m, seen := ((i, x.s.key i) :: x.m) :: x.seen }
      else none
    | .count _ top cur prevs => some { x with s := x.s.countUp 12 top cur prevs, w := .idle, seen := x.m :: x.seen }
  | .ask c =>
    match c with
    | .next i => if x.m.any (fun e => e.1 == i) then some { x with c := .next i, r := (RCall.next i : RCall Nat).ask.first x.s, seen := [x.m] } else none
    | d => some { x with c := d, r := d.ask.first x.s, seen := [x.m] }
  | .rd => (x.c.ask.step x.s x.w x.r).map (fun r => { x with r := r })

def St.Ok (x : St) : Prop := RaceReach 12 x.s x.w x.m x.c x.r x.seen

theorem act_ok {x y : St} (h : x.Ok) {a : Act} (hy : x.act a = some y) : y.Ok := by
  cases a with
  | ins i k top =>
    unfold St.act at hy
    simp only at hy
    split at hy
    · next hw =>
      split at hy
      · next hc =>
        split at hy
        · next cur prevs nexts s' hr =>
          cases hy
          have h' := h; unfold St.Ok at h'; rw [hw] at h'
          exact RaceReach.write h' (.search hc.1 hc.2 hr)
        · next s' hr =>
          cases hy
          have h' := h; unfold St.Ok at h'; rw [hw] at h'
          have := RaceReach.write h' (.refuse hc.1 hc.2 hr)
          rw [← hw] at this
          exact this
        · cases hy
      · cases hy
    · cases hy
  | go =>
    unfold St.act at hy
    simp only at hy
    split at hy
    · cases hy
    · next i top l cur prevs nexts hw =>
      have h' := h; unfold St.Ok at h'; rw [hw] at h'
      split at hy
      · next hl =>
        cases hy
        exact RaceReach.write h' (.link hl)
      · split at hy
        · next hl =>
          cases hy
          rw [hl] at h'
          exact RaceReach.write h' .publish
        · cases hy
    · next i top cur prevs hw =>
      have h' := h; unfold St.Ok at h'; rw [hw] at h'
      cases hy
      exact RaceReach.write h' .count
  | ask c =>
    unfold St.act at hy
    cases c with
    | next i =>
      simp only at hy
      split at hy
      · next hc =>
        cases hy
        refine RaceReach.call (.next i) h ?_
        intro j hj
        cases hj
        obtain ⟨e, h1, h2⟩ := List.any_eq_true.1 hc
        have : e.1 = i := by simpa using h2
        exact ⟨e.2, by rw [← this]; exact h1⟩
      · cases hy
    | find k => cases hy; exact RaceReach.call (.find k) h (fun i hi => by cases hi)
    | le k => cases hy; exact RaceReach.call (.le k) h (fun i hi => by cases hi)
    | ge k => cases hy; exact RaceReach.call (.ge k) h (fun i hi => by cases hi)
    | lt k => cases hy; exact RaceReach.call (.lt k) h (fun i hi => by cases hi)
  | rd =>
    unfold St.act at hy
    simp only [Option.map_eq_some_iff] at hy
    obtain ⟨r, h1, rfl⟩ := hy
    exact RaceReach.read h h1

def start : St := ⟨Skip.init SkipEx.mem, .idle, [], .find 0, .idle, [[]]⟩

def runs : List Act → St → Option St
  | [], x => some x
  | a :: as, x => (x.act a).bind (runs as)

theorem runs_ok {as : List Act} {x y : St} (h : x.Ok) (hy : runs as x = some y) : y.Ok := by
  induction as generalizing x with
  | nil => cases hy; exact h
  | cons a as ih =>
    unfold runs at hy
    cases ha : x.act a with
    | none => rw [ha] at hy; cases hy
    | some z => rw [ha] at hy; exact ih (act_ok h ha) hy

/-- The nodes 0, 1 and 2 have the keys 30, 50 and 10; a reader searches while the node 3 with the key 40 is inserted. -/
def base : List Act := [.ins 0 30 1, .go, .go, .go, .go, .ins 1 50 0, .go, .go, .go, .ins 2 10 0, .go, .go, .go]

/-- What the reader's call is and what it has answered. -/
def St.out (x : St) : Option (Nat × Nat × Option SPtr) :=
  match x.c, x.r with
  | .find k, .done r => some (0, k, r)
  | .le k, .done r => some (1, k, r)
  | .ge k, .done r => some (2, k, r)
  | .lt k, .done r => some (3, k, r)
  | .next i, .done r => some (4, i, r)
  | _, _ => none

def res (as : List Act) : Option (Option (Nat × Nat × Option SPtr) × List (Nat × Nat) × List (List (Nat × Nat))) :=
  (runs as start).map (fun x => (x.out, x.m, x.seen))

def call : Nat → Nat → RCall Nat
  | 0, k => .find k
  | 1, k => .le k
  | 2, k => .ge k
  | 3, k => .lt k
  | _, k => .next k

theorem res_ok {as : List Act} {n k : Nat} {r : Option SPtr} {m : List (Nat × Nat)} {seen : List (List (Nat × Nat))}
    (h : res as = some (some (n, k, r), m, seen)) : ∃ s w, RaceReach 12 s w m (call n k) (.done r) seen := by
  unfold res at h
  obtain ⟨y, hr, h1⟩ := Option.map_eq_some_iff.1 h
  have hok : y.Ok := runs_ok (x := start) (RaceReach.init _ _) hr
  obtain ⟨s, w, m0, c0, r0, seen0⟩ := y
  simp only [Prod.mk.injEq] at h1
  obtain ⟨h1, rfl, rfl⟩ := h1
  refine ⟨s, w, ?_⟩
  cases r0 with
  | done r' => cases c0 <;> (cases h1; exact hok)
  | idle => cases c0 <;> cases h1
  | load a b => cases c0 <;> cases h1
  | check a b c => cases c0 <;> cases h1
  | wait a b c => cases c0 <;> cases h1

/-- A search for 40 that goes past the node while it is linked and waits for it: it then goes on with the node after,
    and says that 40 is not there, which was so when the call began. -/
def missed : List Act := base ++ [.ask (.find 40), .ins 3 40 0, .go, .rd, .rd, .rd, .rd, .rd, .rd, .go, .rd, .rd]

theorem missed_res : (res missed).map (fun x => (x.1, x.2.1)) = some (some (0, 40, none), [(3, 40), (2, 10), (1, 50), (0, 30)]) := by decide +kernel

/-- The hypotheses of the theorems are met by calls of each kind, with an insertion in progress or published meanwhile. -/
example : (res (base ++ [.ask (.le 45), .ins 3 40 0, .go, .rd, .rd, .rd, .rd, .rd, .go, .rd, .rd, .rd])).map (fun x => (x.1, x.2.1)) =
    some (some (1, 45, some (.node 3)), [(3, 40), (2, 10), (1, 50), (0, 30)]) := by decide +kernel
example : (res (base ++ [.ask (.lt 40), .ins 3 40 0, .go, .rd, .rd, .rd, .rd, .rd, .go, .rd])).map (fun x => (x.1, x.2.1)) =
    some (some (3, 40, some (.node 0)), [(3, 40), (2, 10), (1, 50), (0, 30)]) := by decide +kernel
example : (res (base ++ [.ask (.ge 35), .ins 3 40 0, .go, .rd, .rd, .rd, .rd, .rd, .go, .rd])).map (fun x => (x.1, x.2.1)) =
    some (some (2, 35, some (.node 3)), [(3, 40), (2, 10), (1, 50), (0, 30)]) := by decide +kernel
example : (res (base ++ [.ask (.next 0), .ins 3 40 0, .go, .rd, .rd, .go, .rd, .rd])).map (fun x => (x.1, x.2.1)) =
    some (some (4, 0, some (.node 1)), [(3, 40), (2, 10), (1, 50), (0, 30)]) := by decide +kernel

/-- The schedule of the counterexample: the reader of "at or above 1" has the pointer to the node 0, which is being
    inserted with the key 5; it waits; the node 0 is published; a node with the key 7 is inserted; the reader goes on
    with the node after 0. -/
def skip : List Act := [.ask (.ge 1), .ins 0 5 0, .go, .rd, .rd, .go, .go, .ins 1 7 0, .go, .go, .go, .rd, .rd]

set_option synthInstance.maxSize 1000 in
theorem skip_res : res skip = some (some (2, 1, some (.node 1)), [(1, 7), (0, 5)],
    [[(1, 7), (0, 5)], [(1, 7), (0, 5)], [(0, 5)], [(0, 5)], [(0, 5)], [(0, 5)], [], [], []]) := by decide +kernel

end RaceEx

/-- **C47 is violated** by the search for the least key at or above: the answer 7 is the answer of no content the index
    had during the call.  5 was inserted, with the call returned, before the insertion of 7 began. -/
theorem C47_ge_violation :
    ∃ (s : Skip Nat) (w : SWr) (m : List (Nat × Nat)) (seen : List (List (Nat × Nat))) (r : Option SPtr),
      RaceReach 12 s w m (.ge 1) (.done r) seen ∧ ∀ m' ∈ seen, ¬ Spec.Least m' (fun x => 1 ≤ x) r := by
  obtain ⟨s, w, h⟩ := RaceEx.res_ok RaceEx.skip_res
  refine ⟨s, w, _, _, _, h, ?_⟩
  have key : ∀ m' : List (Nat × Nat), ((1, 7) ∈ m' → (0, 5) ∈ m') → (∀ k, (1, k) ∈ m' → k = 7) → ¬ Spec.Least m' (fun x => 1 ≤ x) (some (.node 1)) := by
    intro m' h1 h2 h3
    rcases h3 with ⟨h3, -⟩ | ⟨i, k, h3, h4, -, h5⟩
    · cases h3
    · cases h3
      have h6 := h2 k h4
      subst h6
      have := h5 (0, 5) (h1 h4) (by decide)
      exact absurd this (by decide)
  intro m' hm'
  simp only [List.mem_cons, List.not_mem_nil, or_false] at hm'
  apply key
  · rcases hm' with rfl | rfl | rfl | rfl | rfl | rfl | rfl | rfl | rfl <;> simp
  · rcases hm' with rfl | rfl | rfl | rfl | rfl | rfl | rfl | rfl | rfl <;> simp

end Jungle
