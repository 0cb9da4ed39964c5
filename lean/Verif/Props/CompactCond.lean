/-
  C68: when background compaction starts, which kind, and on which table.
-/
import Verif.Worker.CompactCond

namespace Jungle

open Cond

/-! ### Specification -/

/-- Why a job may be given out for a level with tables `ts` (in key order). -/
def JobFits (e : Env) (ts : List CTab) : Job → Prop
  -- the level holds more active data than it may
  | .interlevel => e.levelLocked = false ∧ e.limit < (ts.map (·.wss)).foldl (· + ·) 0
  -- a merge into this table was interrupted
  | .fix x => x ∈ ts ∧ x.locked = false ∧ x.prevReq = true
  -- more than 1.5 times the size of a table
  | .split x => x ∈ ts ∧ x.locked = false ∧ 3 * e.maxTable < 2 * x.wss
  -- asked for by the user, or the file is big and is `threshold` percent or more of its data
  | .inplace x => x ∈ ts ∧ x.locked = false ∧
      ((e.urgentIdx ≠ 0 ∧ x.number ≤ e.urgentIdx) ∨
       (x.wss ≠ 0 ∧ e.minFile ≤ x.total ∧ e.threshold * x.wss ≤ x.total * 100))
  -- many tables, and this is neither the first nor the last
  | .merge x => (e.minTables < ts.length ∨ e.forceMerge = true) ∧ x.first = false ∧ ∃ l r, ts = l ++ x :: r ∧ r ≠ []

/-- Compaction is switched off. -/
def CompactionOff (e : Env) : Prop := e.readOnly = true ∨ e.allow = false ∨ e.logOnly = true

/-- The table is worth an in-place compaction. -/
def IsStale (e : Env) (x : CTab) : Prop :=
  x.wss ≠ 0 ∧ e.minFile ≤ x.total ∧ e.threshold * x.wss ≤ x.total * 100 ∧ x.wss ≤ x.total * 100

/-- The average active data of the tables of the level that are not locked and not small. -/
def levelAverage (e : Env) (ts : List CTab) : Nat :=
  let big := ts.filter (fun x => x.locked = false ∧ e.minFile < x.total)
  (big.map (·.wss)).sum / big.length

/-! ### Theorems -/

/-- C68: a read-only or log-only database, or one whose compaction is paused, starts no compaction on any level;
    nor does level 1 while level 0 is being compacted, nor a partition that is being compacted already. -/
theorem C68_off (e : Env) (lv1 : Bool) (ts : List CTab) (i : L0In) :
    (CompactionOff e → chkLP e lv1 ts = none ∧ chkL0 e i = false) ∧
    (e.l0Busy = true → chkLP e true ts = none) ∧
    (i.busy = true → chkL0 e i = false) ∧
    (e.ext = true → i.l1Busy = true → chkL0 e i = false) := by
  refine ⟨fun h => ?_, fun h => ?_, fun h => ?_, fun h h' => ?_⟩
  · rcases h with h | h | h <;> unfold chkLP chkL0 <;> simp [h]
  · unfold chkLP; simp [h]
  · unfold chkL0; simp [h]
  · unfold chkL0; simp [h, h']

theorem mem_of_lowest {p : CTab → Bool} {ts : List CTab} {x : CTab} (h : lowest (ts.filter p) = some x) :
    x ∈ ts ∧ p x = true := List.mem_filter.1 (lowest_some h).1

theorem stale_iff (e : Env) (x : CTab) : Stale e x ↔ x.locked = false ∧ IsStale e x := by
  unfold Stale IsStale Cond.ratio
  constructor
  · rintro ⟨h1, h2, h3, h4, h5⟩
    exact ⟨h1, h2, h3, (Nat.le_div_iff_mul_le (Nat.pos_of_ne_zero h2)).1 h4, by
      have := (Nat.le_div_iff_mul_le (Nat.pos_of_ne_zero h2)).1 h5; omega⟩
  · rintro ⟨h1, h2, h3, h4, h5⟩
    exact ⟨h1, h2, h3, (Nat.le_div_iff_mul_le (Nat.pos_of_ne_zero h2)).2 h4,
      (Nat.le_div_iff_mul_le (Nat.pos_of_ne_zero h2)).2 (by omega)⟩

/-- C68: a compaction starts only for a reason the user was told about, and only on a table of that level that no
    other compaction has locked.
    Missing: the table taken for a merge may be locked (`C68_merge_locked_violation`). -/
theorem C68_reason_partial (e : Env) (lv1 : Bool) (ts : List CTab) (j : Job) (h : chkLP e lv1 ts = some j) :
    JobFits e ts j := by
  unfold chkLP at h
  split at h
  · cases h
  split at h
  · cases h
  split at h
  · cases h
  split at h
  · cases h
  split at h
  · next hc =>
    cases h
    simp only [Bool.and_eq_true, Bool.not_eq_true', decide_eq_true_eq] at hc
    exact hc
  split at h
  · next x hx =>
    cases h
    split at hx
    · next hu =>
      obtain ⟨h1, h2⟩ := mem_of_lowest hx
      simp only [Bool.and_eq_true, Bool.not_eq_true', decide_eq_true_eq] at h2
      exact ⟨h1, h2.1, Or.inl ⟨hu, h2.2⟩⟩
    · cases hx
  split at h
  · next x hx =>
    cases h
    have h2 := List.find?_some hx
    simp only [Bool.and_eq_true, Bool.not_eq_true'] at h2
    exact ⟨List.mem_of_find?_eq_some hx, h2.1, h2.2⟩
  split at h
  · next x hx =>
    cases h
    obtain ⟨h1, h2⟩ := mem_of_lowest hx
    simp only [Bool.and_eq_true, Bool.not_eq_true', decide_eq_true_eq] at h2
    exact ⟨h1, h2.1, h2.2⟩
  split at h
  · next x hx =>
    cases h
    obtain ⟨h1, h2⟩ := (pickStale_spec e ts).1 x hx
    obtain ⟨h3, h4, h5, h6, _⟩ := (stale_iff e x).1 h1
    exact ⟨h2, h3, Or.inr ⟨h4, h5, h6⟩⟩
  · cases hm : pickMerge e ts with
    | none => rw [hm] at h; cases h
    | some x => rw [hm] at h; cases h; exact pickMerge_spec hm

/-- C68: so a table taken for a merge has a table before it to go to, if the first table of the level has the empty
    min key. -/
theorem C68_merge_has_target (e : Env) (lv1 : Bool) (ts : List CTab) (x : CTab)
    (hf : ∀ y, ts.head? = some y → y.first = true) (h : chkLP e lv1 ts = some (.merge x)) :
    ∃ l d r, ts = l ++ d :: x :: r ∧ r ≠ [] := by
  obtain ⟨_, h1, l, r, h2, h3⟩ := C68_reason_partial e lv1 ts _ h
  rcases List.eq_nil_or_concat l with rfl | ⟨l', d, rfl⟩
  · exact absurd (hf x (by rw [h2]; rfl)) (by rw [h1]; decide)
  · exact ⟨l', d, r, by rw [h2]; simp, h3⟩

theorem wssAvg_eq (e : Env) (ts : List CTab) : wssAvg e ts = levelAverage e ts := by
  unfold wssAvg levelAverage
  have hf : (fun x : CTab => !x.locked && decide (e.minFile < x.total)) =
      (fun x => decide (x.locked = false ∧ e.minFile < x.total)) := by
    funext x; cases h : x.locked <;> simp
  rw [hf]
  dsimp only
  split
  · next h => rw [h]; simp
  · rw [List.sum_eq_foldl]

theorem smallest_inner (ts : List CTab) : ∀ (best : Option CTab),
    (∀ b, best = some b → ∃ m, smallest best ts = some m ∧ m.wss ≤ b.wss) ∧
    (∀ l x r, ts = l ++ x :: r → r ≠ [] → x.locked = false → x.first = false →
      ∃ m, smallest best ts = some m ∧ m.wss ≤ x.wss) := by
  induction ts with
  | nil =>
    intro best
    exact ⟨fun b h => ⟨b, h, Nat.le_refl _⟩, fun l x r h => (by cases l <;> cases h)⟩
  | cons y ys ih =>
    intro best
    unfold smallest
    split
    · next hc =>
      simp only [Bool.and_eq_true] at hc
      obtain ⟨m, hm, hle⟩ := (ih (some y)).1 y rfl
      refine ⟨fun b hb => ⟨m, hm, Nat.le_trans hle ?_⟩, fun l x r h h1 h2 h3 => ?_⟩
      · have := hc.2; rw [hb] at this
        simp only [isBelow, decide_eq_true_eq] at this; omega
      · cases l with
        | nil => cases h; exact ⟨m, hm, hle⟩
        | cons z l => cases h; exact (ih (some y)).2 l x r rfl h1 h2 h3
    · next hc =>
      refine ⟨(ih best).1, fun l x r h h1 h2 h3 => ?_⟩
      cases l with
      | nil =>
        cases h
        cases best with
        | none => exact absurd (by simp [h2, h3, h1, isBelow]) hc
        | some b =>
          obtain ⟨m, hm, hle⟩ := (ih (some b)).1 b rfl
          refine ⟨m, hm, Nat.le_trans hle ?_⟩
          by_cases hlt : y.wss < b.wss
          · exact absurd (by simp [h2, h3, h1, isBelow, hlt]) hc
          · omega
      | cons z l => cases h; exact (ih best).2 l x r rfl h1 h2 h3

theorem smallAvg_why (e : Env) (avg : Nat) (ts : List CTab) : ∀ (prev : Option CTab) (x : CTab),
    smallAvg e avg prev ts = some x → ∃ l d r, (prev.toList ++ ts) = l ++ d :: x :: r ∧
      ((x.wss ≤ avg ∧ 5 * d.wss ≤ 8 * avg) ∨ (e.minWss ≠ 0 ∧ x.wss ≤ e.minWss)) := by
  induction ts with
  | nil => intro prev x h; cases prev <;> cases h
  | cons y ys ih =>
    intro prev x h
    unfold smallAvg at h
    cases prev with
    | none => exact ih (some y) x h
    | some d =>
      dsimp only at h
      split at h
      · next hc =>
        cases h
        simp only [Bool.and_eq_true, Bool.or_eq_true, Bool.not_eq_true', decide_eq_true_eq] at hc
        exact ⟨[], d, ys, rfl, hc.2⟩
      · obtain ⟨l, d', r, h1, h2⟩ := ih (some y) x h
        exact ⟨d :: l, d', r, by rw [← List.singleton_append, ← List.singleton_append] at *; simp at h1 ⊢; exact h1, h2⟩

theorem pickMerge_why {e : Env} {ts : List CTab} {x : CTab} (h : pickMerge e ts = some x) :
    (x.locked = false ∧ 5 * x.wss ≤ wssAvg e ts) ∨
    (5 * wssAvg e ts ≤ 2 * e.maxTable ∧ ∃ l d r, ts = l ++ d :: x :: r ∧
      ((x.wss ≤ wssAvg e ts ∧ 5 * d.wss ≤ 8 * wssAvg e ts) ∨ (e.minWss ≠ 0 ∧ x.wss ≤ e.minWss))) := by
  unfold pickMerge at h
  split at h
  · cases h
  split at h
  · cases h
  next m hm =>
    dsimp only at h
    split at h
    · next y hy =>
      cases h
      split at hy
      · next hc => exact Or.inr ⟨hc, smallAvg_why e _ ts none x hy⟩
      · cases hy
    · split at h
      · next hc =>
        cases h
        rcases smallest_spec ts none x hm with h1 | ⟨h1, _⟩
        · cases h1
        · exact Or.inl ⟨h1, hc⟩
      · cases h

/-- C68: a table is merged into the one before it only if it holds at most a fifth of the average, or if the tables
    of the level are at most 40% full on average and it holds at most the average and the one before it at most 1.6
    times the average, or it is below `minWssToMerge`. -/
theorem C68_merge_small (e : Env) (lv1 : Bool) (ts : List CTab) (x : CTab) (h : chkLP e lv1 ts = some (.merge x)) :
    (x.locked = false ∧ 5 * x.wss ≤ levelAverage e ts) ∨
    (5 * levelAverage e ts ≤ 2 * e.maxTable ∧ ∃ l d r, ts = l ++ d :: x :: r ∧
      ((x.wss ≤ levelAverage e ts ∧ 5 * d.wss ≤ 8 * levelAverage e ts) ∨ (e.minWss ≠ 0 ∧ x.wss ≤ e.minWss))) := by
  rw [← wssAvg_eq]
  apply pickMerge_why
  unfold chkLP at h
  repeat' (split at h)
  all_goals first
    | cases h
    | (cases hm : pickMerge e ts with
       | none => rw [hm] at h; cases h
       | some y => rw [hm] at h; cases h; rfl)

theorem lowest_filter_some {p : CTab → Bool} {ts : List CTab} {x : CTab} (hx : x ∈ ts) (hp : p x = true) :
    ∃ y, lowest (ts.filter p) = some y := by
  cases h : lowest (ts.filter p) with
  | none => have := lowest_none h; rw [List.filter_eq_nil_iff] at this; exact absurd hp (this x hx)
  | some y => exact ⟨y, rfl⟩

/-- The decision once the guards are passed and the level is within its limit. -/
theorem chkLP_within {e : Env} {lv1 : Bool} {ts : List CTab} (hon : ¬ CompactionOff e)
    (hb : lv1 = true → e.l0Busy = false) (hl : e.levelLocked = true ∨ (ts.map (·.wss)).foldl (· + ·) 0 ≤ e.limit) :
    chkLP e lv1 ts = match (if e.urgentIdx ≠ 0 then pickUrgent e ts else none) with
      | some x => some (.inplace x)
      | none => match pickFix ts with
        | some x => some (.fix x)
        | none => match pickSplit e ts with
          | some x => some (.split x)
          | none => match pickStale e ts with
            | some x => some (.inplace x)
            | none => (pickMerge e ts).map .merge := by
  unfold CompactionOff at hon
  have h1 : e.readOnly = false := by cases h : e.readOnly <;> simp_all
  have h2 : e.allow = true := by cases h : e.allow <;> simp_all
  have h3 : e.logOnly = false := by cases h : e.logOnly <;> simp_all
  have h4 : (lv1 && e.l0Busy) = false := by cases lv1 <;> simp_all
  have h5 : (!e.levelLocked && decide (e.limit < (ts.map (·.wss)).foldl (· + ·) 0)) = false := by
    rcases hl with hl | hl
    · rw [hl]; rfl
    · rw [decide_eq_false (Nat.not_lt.2 hl)]; simp
  conv => lhs; unfold chkLP
  rw [h1, h2, h3, h4, h5]
  rfl

/-- C68: a level over its limit is always relieved first. -/
theorem C68_over_limit (e : Env) (lv1 : Bool) (ts : List CTab) (hon : ¬ CompactionOff e)
    (hb : lv1 = true → e.l0Busy = false) (hl : e.levelLocked = false)
    (ho : e.limit < (ts.map (·.wss)).foldl (· + ·) 0) : chkLP e lv1 ts = some .interlevel := by
  unfold CompactionOff at hon
  have h1 : e.readOnly = false := by cases h : e.readOnly <;> simp_all
  have h2 : e.allow = true := by cases h : e.allow <;> simp_all
  have h3 : e.logOnly = false := by cases h : e.logOnly <;> simp_all
  have h4 : (lv1 && e.l0Busy) = false := by cases lv1 <;> simp_all
  unfold chkLP
  rw [h1, h2, h3, h4, hl, decide_eq_true ho]
  rfl

/-- C68: on a level within its limit, and with no request of the user pending for its tables, the repair of a table
    comes before a split, a split before an in-place compaction, that before a merge; the oldest table is split, the
    one with the highest share of stale data compacted in place; no table that needs it is left out. -/
theorem C68_priority (e : Env) (lv1 : Bool) (ts : List CTab) (hon : ¬ CompactionOff e)
    (hb : lv1 = true → e.l0Busy = false)
    (hl : e.levelLocked = true ∨ (ts.map (·.wss)).foldl (· + ·) 0 ≤ e.limit)
    (hu : ∀ x ∈ ts, e.urgentIdx = 0 ∨ x.locked = true ∨ e.urgentIdx < x.number) :
    ((∃ x ∈ ts, x.locked = false ∧ x.prevReq = true) →
      ∃ x, chkLP e lv1 ts = some (.fix x)) ∧
    ((∀ x ∈ ts, x.locked = true ∨ x.prevReq = false) →
      ((∃ x ∈ ts, x.locked = false ∧ 3 * e.maxTable < 2 * x.wss) →
        ∃ x, chkLP e lv1 ts = some (.split x) ∧
          ∀ y ∈ ts, y.locked = false → 3 * e.maxTable < 2 * y.wss → x.number ≤ y.number) ∧
      ((∀ x ∈ ts, x.locked = true ∨ 2 * x.wss ≤ 3 * e.maxTable) →
        ((∃ x ∈ ts, x.locked = false ∧ IsStale e x) →
          ∃ x, chkLP e lv1 ts = some (.inplace x) ∧
            ∀ y ∈ ts, y.locked = false → IsStale e y → y.total * 100 / y.wss ≤ x.total * 100 / x.wss) ∧
        ((∀ x ∈ ts, x.locked = true ∨ ¬ IsStale e x) →
          chkLP e lv1 ts = none ∨ ∃ x, chkLP e lv1 ts = some (.merge x)))) := by
  have hur : (if e.urgentIdx ≠ 0 then pickUrgent e ts else none) = none := by
    split
    · next h0 =>
      cases h : pickUrgent e ts with
      | none => rfl
      | some x =>
        obtain ⟨h1, h2⟩ := mem_of_lowest h
        simp only [Bool.and_eq_true, Bool.not_eq_true', decide_eq_true_eq] at h2
        rcases hu x h1 with h3 | h3 | h3
        · exact absurd h3 h0
        · rw [h2.1] at h3; cases h3
        · omega
    · rfl
  rw [chkLP_within hon hb hl, hur]
  dsimp only
  refine ⟨fun ⟨x, hx, h1, h2⟩ => ?_, fun hf => ?_⟩
  · cases h : pickFix ts with
    | none =>
      have := List.find?_eq_none.1 h x hx
      rw [h1, h2] at this; exact absurd rfl this
    | some y => exact ⟨y, rfl⟩
  have hfix : pickFix ts = none := by
    refine List.find?_eq_none.2 fun x hx => ?_
    rcases hf x hx with h | h <;> rw [h] <;> simp
  rw [hfix]
  dsimp only
  refine ⟨fun ⟨x, hx, h1, h2⟩ => ?_, fun hs => ?_⟩
  · obtain ⟨y, hy⟩ := lowest_filter_some (p := fun x => !x.locked && decide (3 * e.maxTable < 2 * x.wss)) hx (by simp [h1, h2])
    have hy' : pickSplit e ts = some y := hy
    rw [hy']
    refine ⟨y, rfl, fun z hz h3 h4 => (lowest_some hy).2 z (List.mem_filter.2 ⟨hz, by simp [h3, h4]⟩)⟩
  have hsp : pickSplit e ts = none := by
    cases h : pickSplit e ts with
    | none => rfl
    | some x =>
      obtain ⟨h1, h2⟩ := mem_of_lowest h
      simp only [Bool.and_eq_true, Bool.not_eq_true', decide_eq_true_eq] at h2
      rcases hs x h1 with h3 | h3
      · rw [h2.1] at h3; cases h3
      · omega
  rw [hsp]
  dsimp only
  refine ⟨fun ⟨x, hx, h1, h2⟩ => ?_, fun hst => ?_⟩
  · obtain ⟨b, hb1, _⟩ := (pickStale_spec e ts).2 x hx ((stale_iff e x).2 ⟨h1, h2⟩)
    rw [hb1]
    refine ⟨b, rfl, fun y hy h3 h4 => ?_⟩
    obtain ⟨b', hb2, hb3⟩ := (pickStale_spec e ts).2 y hy ((stale_iff e y).2 ⟨h3, h4⟩)
    rw [hb1] at hb2; cases hb2; exact hb3
  · have : pickStale e ts = none := by
      cases h : pickStale e ts with
      | none => rfl
      | some x =>
        obtain ⟨h1, h2⟩ := (pickStale_spec e ts).1 x h
        obtain ⟨h3, h4⟩ := (stale_iff e x).1 h1
        rcases hst x h2 with h5 | h5
        · rw [h3] at h5; cases h5
        · exact absurd h4 h5
    rw [this]
    cases pickMerge e ts with
    | none => exact Or.inl rfl
    | some x => exact Or.inr ⟨x, rfl⟩

/-- C68: a request of the user to compact the tables up to a number takes the oldest such table first, and ends: once
    every table has a greater number, the request changes nothing. -/
theorem C68_urgent (e : Env) (lv1 : Bool) (ts : List CTab) (hon : ¬ CompactionOff e)
    (hb : lv1 = true → e.l0Busy = false)
    (hl : e.levelLocked = true ∨ (ts.map (·.wss)).foldl (· + ·) 0 ≤ e.limit) (h0 : e.urgentIdx ≠ 0) :
    ((∃ x ∈ ts, x.locked = false ∧ x.number ≤ e.urgentIdx) → ∃ x, chkLP e lv1 ts = some (.inplace x) ∧
      x.number ≤ e.urgentIdx ∧ ∀ y ∈ ts, y.locked = false → x.number ≤ y.number) ∧
    ((∀ x ∈ ts, e.urgentIdx < x.number) → chkLP e lv1 ts = chkLP { e with urgentIdx := 0 } lv1 ts) := by
  refine ⟨fun ⟨x, hx, h1, h2⟩ => ?_, fun h => ?_⟩
  · obtain ⟨y, hy⟩ := lowest_filter_some (p := fun x => !x.locked && decide (x.number ≤ e.urgentIdx)) hx (by simp [h1, h2])
    have hy' : pickUrgent e ts = some y := hy
    rw [chkLP_within hon hb hl, if_pos h0, hy']
    have hy2 := (mem_of_lowest hy).2
    simp only [Bool.and_eq_true, Bool.not_eq_true', decide_eq_true_eq] at hy2
    refine ⟨y, rfl, hy2.2, fun z hz h3 => ?_⟩
    by_cases h4 : z.number ≤ e.urgentIdx
    · exact (lowest_some hy).2 z (List.mem_filter.2 ⟨hz, by simp [h3, h4]⟩)
    · omega
  · have hn : pickUrgent e ts = none := by
      cases hp : pickUrgent e ts with
      | none => rfl
      | some x =>
        obtain ⟨h1, h2⟩ := mem_of_lowest hp
        simp only [Bool.and_eq_true, Bool.not_eq_true', decide_eq_true_eq] at h2
        have := h x h1; omega
    have hon' : ¬ CompactionOff { e with urgentIdx := 0 } := hon
    rw [chkLP_within hon hb hl, chkLP_within hon' hb hl, if_pos h0, hn, if_neg (by simp)]
    have h1 : pickStale { e with urgentIdx := 0 } ts = pickStale e ts := by
      have : staleStep { e with urgentIdx := 0 } = staleStep e := by funext o x; rfl
      unfold pickStale; rw [this]
    have h2 : pickMerge { e with urgentIdx := 0 } ts = pickMerge e ts := by
      have h3 : ∀ avg o (l : List CTab), smallAvg { e with urgentIdx := 0 } avg o l = smallAvg e avg o l := by
        intro avg o l
        induction l generalizing o with
        | nil => cases o <;> rfl
        | cons x l ih => unfold smallAvg; simp only [ih]
      have h4 : wssAvg { e with urgentIdx := 0 } ts = wssAvg e ts := rfl
      unfold pickMerge; simp only [h3, h4]
    rw [h1, h2]
    rfl

/-- C68: and a small table is found: if nothing more urgent is to be done, there are more tables than the minimum, and
    some table that is not locked, nor first nor last, holds at most a fifth of the average, then a merge starts. -/
theorem C68_merge_found (e : Env) (lv1 : Bool) (ts l r : List CTab) (x : CTab) (hon : ¬ CompactionOff e)
    (hb : lv1 = true → e.l0Busy = false)
    (hl : e.levelLocked = true ∨ (ts.map (·.wss)).foldl (· + ·) 0 ≤ e.limit)
    (hu : ∀ x ∈ ts, e.urgentIdx = 0 ∨ x.locked = true ∨ e.urgentIdx < x.number)
    (hn : ∀ x ∈ ts, x.locked = true ∨ (x.prevReq = false ∧ 2 * x.wss ≤ 3 * e.maxTable ∧ ¬ IsStale e x))
    (ht : e.minTables < ts.length ∨ e.forceMerge = true)
    (hx : ts = l ++ x :: r) (hr : r ≠ []) (h1 : x.locked = false) (h2 : x.first = false)
    (h3 : 5 * x.wss ≤ levelAverage e ts) : ∃ y, chkLP e lv1 ts = some (.merge y) := by
  obtain ⟨_, h⟩ := C68_priority e lv1 ts hon hb hl hu
  obtain ⟨_, h⟩ := h (fun x hx => (hn x hx).imp id (·.1))
  obtain ⟨_, h⟩ := h (fun x hx => (hn x hx).imp id (·.2.1))
  rcases h (fun x hx => (hn x hx).imp id (·.2.2)) with h | h
  · exfalso
    have hm : ∃ y, pickMerge e ts = some y := by
      obtain ⟨m, hm, hle⟩ := (smallest_inner ts none).2 l x r hx hr h1 h2
      unfold pickMerge
      have hc : ¬ ((decide (ts.length ≤ e.minTables) && !e.forceMerge) = true) := by
        rcases ht with ht | ht
        · rw [decide_eq_false (Nat.not_le.2 ht)]; simp
        · rw [ht]; simp
      rw [if_neg hc]
      rw [hm]
      dsimp only
      split
      · exact ⟨_, rfl⟩
      · rw [if_pos (by rw [wssAvg_eq]; omega)]; exact ⟨_, rfl⟩
    obtain ⟨y, hy⟩ := hm
    unfold chkLP at h
    rw [hy] at h
    unfold CompactionOff at hon
    have g1 : e.readOnly = false := by cases g : e.readOnly <;> simp_all
    have g2 : e.allow = true := by cases g : e.allow <;> simp_all
    have g3 : e.logOnly = false := by cases g : e.logOnly <;> simp_all
    have g4 : (lv1 && e.l0Busy) = false := by cases lv1 <;> simp_all
    rw [g1, g2, g3, g4] at h
    simp only [Bool.false_eq_true, if_false, Bool.not_true] at h
    repeat' (split at h)
    all_goals cases h
  · exact h

/-- C68: level 0 with level extension, no request of the user, no idle traffic, no sequential loading, one table in
    the partition: it is moved to level 1 exactly when it has outgrown its limit, or its file is big, mostly stale,
    and big in comparison with level 1; a table left by an interrupted compaction always. -/
theorem C68_level0 (e : Env) (i : L0In) (hon : ¬ CompactionOff e) (he : e.ext = true) (hb : i.busy = false)
    (hb1 : i.l1Busy = false) (hf : 0 < e.factor) (hf2 : e.factor < 0xffffffff) (hr : i.minReuse = 0) (hd : e.dbgEff = false)
    (hu : e.urgentIdx = 0) (hi : e.idle = false) (hs : i.seqLoading = false) (hsup : i.sup = none) :
    chkL0 e i = true ↔ i.left = true ∨ i.maxL0 < i.wss ∨
      (e.minFile < i.total ∧ i.wss ≠ 0 ∧ (e.factor + 1) * i.wss ≤ i.total * 100 ∧
        (i.l1 = none ∨ i.maxL0 < i.total ∨ ∃ n, i.l1 = some n ∧ n < i.total * i.parts)) := by
  unfold CompactionOff at hon
  have h1 : e.readOnly = false := by cases h : e.readOnly <;> simp_all
  have h2 : e.allow = true := by cases h : e.allow <;> simp_all
  have h3 : e.logOnly = false := by cases h : e.logOnly <;> simp_all
  have hf' : e.factor ≠ 0 := by omega
  have hrat : e.factor < i.ratio ↔ i.wss ≠ 0 ∧ (e.factor + 1) * i.wss ≤ i.total * 100 := by
    unfold L0In.ratio
    split
    · next hw =>
      rw [Nat.lt_iff_add_one_le, Nat.le_div_iff_mul_le (Nat.pos_of_ne_zero hw)]
      exact ⟨fun h => ⟨hw, h⟩, fun h => h.2⟩
    · next hw => exact ⟨fun h => by omega, fun h => absurd h.1 hw⟩
  have hsr : i.sRatio = 0xffffffff := by unfold L0In.sRatio; rw [hsup]
  have hsw : i.supWss = 0 := by unfold L0In.supWss; rw [hsup]
  have hl1 : (i.l1.isNone = true ∨ i.maxL0 < i.total ∨ i.l1.getD 0 < i.total * i.parts) ↔
      (i.l1 = none ∨ i.maxL0 < i.total ∨ ∃ n, i.l1 = some n ∧ n < i.total * i.parts) := by
    cases i.l1 <;> simp
  unfold chkL0
  simp only [h1, h2, h3, hb, he, hb1, hd, hi, hs, hsw, hsr, hr, hu, hf', hf2, hsup]
  simp
  rw [← hl1, hrat]
  constructor
  · rintro ((h | ⟨⟨h, h5⟩, h4⟩) | h)
    · exact Or.inr (Or.inl h)
    · refine Or.inr (Or.inr ⟨h, h5.1, h5.2, ?_⟩)
      rcases h4 with (h4 | h4) | h4
      · exact Or.inl (by simp [h4])
      · exact Or.inr (Or.inl h4)
      · exact Or.inr (Or.inr h4)
    · exact Or.inl h
  · rintro (h | h | ⟨h, h5, h6, h4⟩)
    · exact Or.inr h
    · exact Or.inl (Or.inl h)
    · refine Or.inl (Or.inr ⟨⟨h, h5, h6⟩, ?_⟩)
      rcases h4 with h4 | h4 | h4
      · exact Or.inl (Or.inl (by simpa using h4))
      · exact Or.inl (Or.inr h4)
      · exact Or.inr h4

/-! ### Where the code falls short -/

/-- A locked table is taken for a merge. -/
theorem C68_merge_locked_violation : ∃ (e : Env) (ts : List CTab) (x : CTab),
    ts.head?.map (·.first) = some true ∧ x.locked = true ∧ chkLP e false ts = some (.merge x) :=
  ⟨{ maxTable := 1000, limit := 100000, minTables := 3, minFile := 5 },
   [⟨1, true, 100, 200, false, false⟩, ⟨2, false, 100, 200, true, false⟩, ⟨3, false, 100, 200, false, false⟩,
    ⟨4, false, 100, 200, false, false⟩], ⟨2, false, 100, 200, true, false⟩, by decide +kernel⟩

/-- With a factor of 100 or less, 0 included (which level 0 takes for "do not compact"), or with such a debugging
    ratio (documented as effective only above 100), a table without any stale data is compacted in place; what comes
    out of that is such a table again, so the same work is done for ever. -/
theorem C68_endless_violation (e : Env) (x : CTab) (hon : ¬ CompactionOff e) (hu : e.urgentIdx = 0)
    (ht : e.threshold ≤ 100) (h0 : x.wss ≠ 0) (hx : x.total = x.wss) (hm : e.minFile ≤ x.total)
    (hl : x.wss ≤ e.limit) (hs : 2 * x.wss ≤ 3 * e.maxTable) (hk : x.locked = false) (hp : x.prevReq = false) :
    chkLP e false [x] = some (.inplace x) := by
  have hst : IsStale e x := ⟨h0, hm, by rw [hx, Nat.mul_comm x.wss]; exact Nat.mul_le_mul_right _ ht, by omega⟩
  obtain ⟨_, h⟩ := C68_priority e false [x] hon (fun h => (by cases h)) (Or.inr (by simpa using hl))
    (fun y hy => Or.inl hu)
  obtain ⟨_, h⟩ := h (fun y hy => Or.inr (by rw [List.mem_singleton.1 hy]; exact hp))
  obtain ⟨h, _⟩ := h (fun y hy => Or.inr (by rw [List.mem_singleton.1 hy]; exact hs))
  obtain ⟨y, hy, _⟩ := h ⟨x, List.mem_singleton_self x, hk, hst⟩
  have := C68_reason_partial e false [x] _ hy
  rw [hy, List.mem_singleton.1 this.1]

/-- Idle-traffic compaction never takes a partition that has a second table: without a debugging ratio the limit it
    compares with is the difference 0 - 100 of unsigned numbers. -/
theorem C68_idle_violation (e : Env) (i : L0In) (w t : Nat) (hs : i.sup = some (w, t)) (ht : 0 < t)
    (hsz : 100 * (t + i.total) ≤ 2^64) (hd : e.dbgRatio = 0) :
    chkL0 { e with idle := true } i = chkL0 { e with idle := false } i := by
  have hcmp : decide (mul64 t (sub64 e.dbgRatio 100) < mul64 i.total 100) = false := by
    rw [hd]
    refine decide_eq_false ?_
    have h1 : mul64 t (sub64 0 100) = 2^64 - 100 * t := by
      have hsub : sub64 0 100 = 2^64 - 100 := by decide
      unfold mul64
      rw [hsub]
      have : t * (2^64 - 100) = (2^64 - 100 * t) + 2^64 * (t - 1) := by omega
      rw [this, Nat.add_mul_mod_self_left, Nat.mod_eq_of_lt (by omega)]
    rw [h1]
    have : mul64 i.total 100 ≤ i.total * 100 := Nat.mod_le _ _
    omega
  unfold chkL0
  simp only [hs, hcmp, Bool.and_false]

/-- While a sequential load is going on, a table left by an interrupted compaction is not compacted. -/
theorem C68_leftover_violation : ∃ (e : Env) (i : L0In), ¬ CompactionOff e ∧ i.left = true ∧ i.busy = false ∧
    chkL0 e i = false :=
  ⟨{ maxTable := 1000, limit := 100000 }, { left := true, wss := 10, total := 10, seqLoading := true, maxL0 := 1000 },
   by unfold CompactionOff; decide, rfl, rfl, by decide +kernel⟩

/-- `minWssToMerge`, "if the size of active data of a table file is below this threshold, that file will be merged",
    has no effect when the tables of the level are more than 40% full. -/
theorem C68_min_wss_violation : ∃ (e : Env) (ts : List CTab), ¬ CompactionOff e ∧ e.minTables < ts.length ∧
    (∃ l d x r, ts = l ++ d :: x :: r ∧ r ≠ [] ∧ x.first = false ∧ x.locked = false ∧ x.wss ≤ e.minWss) ∧
    chkLP e false ts = none :=
  ⟨{ maxTable := 100000, limit := 10000000, minTables := 3, minFile := 5 },
   [⟨1, true, 60000, 60000, false, false⟩, ⟨2, false, 50000, 50000, false, false⟩,
    ⟨3, false, 60000, 60000, false, false⟩, ⟨4, false, 60000, 60000, false, false⟩],
   by unfold CompactionOff; decide, by decide,
   ⟨[], _, ⟨2, false, 50000, 50000, false, false⟩, _, rfl, by decide, rfl, rfl, by decide⟩, by decide +kernel⟩

/-! ### The hypotheses hold in concrete cases -/

namespace CondEx

def e : Env := { maxTable := 1000, limit := 10000, minTables := 3, minFile := 100 }
def a : CTab := ⟨1, true, 800, 900, false, false⟩
def b : CTab := ⟨2, false, 100, 450, false, false⟩
def c : CTab := ⟨3, false, 1600, 1700, false, false⟩
def d : CTab := ⟨4, false, 700, 800, false, true⟩

-- one table to repair, one to split, one stale: in that order, until nothing is left
example : chkLP e true [a, b, c, d] = some (.fix d) := by decide +kernel
example : chkLP e true [a, b, c, { d with prevReq := false }] = some (.split c) := by decide +kernel
example : chkLP e true [a, b, { c with wss := 800 }, { d with prevReq := false }] = some (.inplace b) := by decide +kernel
example : chkLP e true [a, { b with total := 100 }, { c with wss := 800 }, { d with prevReq := false }]
    = some (.merge { b with total := 100 }) := by decide +kernel
example : chkLP e true [a, { c with wss := 800 }, { d with prevReq := false }] = none := by decide +kernel
example : chkLP { e with limit := 3000 } true [a, b, c, d] = some .interlevel := by decide +kernel
example : chkLP { e with urgentIdx := 2 } true [a, b, c, d] = some (.inplace a) := by decide +kernel
example : ¬ CompactionOff e := by unfold CompactionOff; decide
example : CompactionOff { e with logOnly := true } := Or.inr (Or.inr rfl)
-- a table without stale data
example : chkLP { e with factor := 0 } false [{ a with total := 800 }] = some (.inplace { a with total := 800 }) := by
  decide +kernel
-- the average, and why `b` was merged
example : levelAverage e [a, { b with total := 100 }, { c with wss := 800 }, { d with prevReq := false }] = 766 := by
  decide +kernel
-- level 0
example : chkL0 e { wss := 100, total := 401, maxL0 := 1000 } = true := by decide +kernel
example : chkL0 e { wss := 100, total := 400, maxL0 := 1000 } = true := by decide +kernel
example : chkL0 e { wss := 100, total := 300, maxL0 := 1000 } = false := by decide +kernel
-- idle traffic: with one table yes, with two no
example : chkL0 { e with idle := true, itcFactor := 150 } { wss := 100, total := 200, maxL0 := 1000 } = true := by
  decide +kernel
example : chkL0 { e with idle := true, itcFactor := 150, ext := false }
    { wss := 100, total := 200, maxL0 := 1000, sup := some (100, 100) } = false := by decide +kernel

end CondEx

end Jungle
