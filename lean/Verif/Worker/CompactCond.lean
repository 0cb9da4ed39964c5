/-
  When background compaction starts and which table it takes (src/table_compact_condition.cc).
-/
import Mathlib.Order.Basic
import Mathlib.Data.Nat.Notation

namespace Jungle
namespace Cond

/-! ### Model -/

/-- What the conditions look at in a table of a level: its number, whether its min key is empty (the first table),
    the sizes of its active data and of its file, whether another compaction has locked it, whether it has to be
    repaired (`prevTableSearchRequired`).  Simplifications: statistics are always available; no stacks. -/
structure CTab where
  number : Nat
  first : Bool := false
  wss : Nat
  total : Nat
  locked : Bool := false
  prevReq : Bool := false
  deriving DecidableEq

/-- Configuration and global state that the conditions read (include/libjungle/db_config.h:129-180,297-337).
    `urgentIdx` is `urgentCompactionMaxTableIdx`; `dbgRatio`, `dbgSize` are debugging parameters, which count only if
    `dbgEff` (src/db_mgr.cc, `isDebugParamEffective`); `idle` is `isIdleTraffic` and `itcFactor` the factor for it.
    Simplification: twice a 32-bit factor does not overflow. -/
structure Env where
  readOnly : Bool := false
  allow : Bool := true
  logOnly : Bool := false
  ext : Bool := true
  factor : Nat := 300
  minTables : Nat := 8
  minFile : Nat := 16777216
  minWss : Nat := 65536
  maxTable : Nat
  limit : Nat
  levelLocked : Bool := false
  l0Busy : Bool := false
  urgentIdx : Nat := 0
  dbgEff : Bool := false
  dbgRatio : Nat := 0
  dbgSize : Nat := 0
  forceMerge : Bool := false
  idle : Bool := false
  itcFactor : Nat := 0

/-- File size in percent of the active data (src/table_compact_condition.cc:153).  Simplification: no
    overflow, which needs files above 2^57 bytes. -/
def ratio (x : CTab) : Nat := x.total * 100 / x.wss

/-- The ratio from which on a table is compacted in place (src/table_compact_condition.cc:154-167). -/
def Env.threshold (e : Env) : Nat :=
  if e.dbgEff = true ∧ e.dbgRatio ≠ 0 then e.dbgRatio else if e.idle then e.itcFactor else e.factor

/-- Among the candidates of the policies `WORKING_SET_SIZE` and `WORKING_SET_SIZE_SPLIT`: the lowest number
    (src/table_compact_condition.cc:263-275). -/
def lowest : List CTab → Option CTab
  | [] => none
  | x :: xs =>
    match lowest xs with
    | none => some x
    | some y => if x.number ≤ y.number then some x else some y

/-- `WORKING_SET_SIZE` with the limit: not above the index of the urgent compaction
    (src/table_compact_condition.cc:89,121-142). -/
def pickUrgent (e : Env) (ts : List CTab) : Option CTab :=
  lowest (ts.filter (fun x => !x.locked && decide (x.number ≤ e.urgentIdx)))

/-- `WORKING_SET_SIZE_SPLIT` with the limit: active data above 1.5 times the table size
    (src/table_compact_condition.cc:89,121-142). -/
def pickSplit (e : Env) (ts : List CTab) : Option CTab :=
  lowest (ts.filter (fun x => !x.locked && decide (3 * e.maxTable < 2 * x.wss)))

/-- `STALE_RATIO` with the limit (src/table_compact_condition.cc:89,148-173): the first of the tables with the
    greatest ratio. -/
def staleStep (e : Env) (best : Option CTab) (x : CTab) : Option CTab :=
  if x.locked then best
  else if x.wss = 0 then best
  else if x.total < e.minFile then best
  else if ratio x < e.threshold then best
  else match best with
    | none => if 0 < ratio x then some x else none
    | some b => if ratio b < ratio x then some x else best

/-- The loop of `STALE_RATIO` (src/table_compact_condition.cc:81,148-173) -/
def pickStale (e : Env) (ts : List CTab) : Option CTab := ts.foldl (staleStep e) none

/-- Average active data of the tables that are not small (src/table_compact_condition.cc:112-116,193-195). -/
def wssAvg (e : Env) (ts : List CTab) : Nat :=
  let big := ts.filter (fun x => !x.locked && decide (e.minFile < x.total))
  if big.length = 0 then 0 else (big.map (·.wss)).foldl (· + ·) 0 / big.length

/-- `w_size < min_wss` (src/table_compact_condition.cc:182).  Simplification: no table of 2^64-1 bytes. -/
def isBelow (best : Option CTab) (x : CTab) : Bool :=
  match best with | none => true | some b => decide (x.wss < b.wss)

/-- The first smallest table that is neither the first nor the last (src/table_compact_condition.cc:175-187). -/
def smallest : Option CTab → List CTab → Option CTab
  | best, [] => best
  | best, x :: xs =>
    if !x.locked && !x.first && !xs.isEmpty && isBelow best x
    then smallest (some x) xs
    else smallest best xs

/-- The loop of "merge by small level average" (src/table_compact_condition.cc:212-251).  `prev` is `dst_table`. -/
def smallAvg (e : Env) (avg : Nat) : Option CTab → List CTab → Option CTab
  | _, [] => none
  | prev, x :: xs =>
    match prev with
    | none => smallAvg e avg (some x) xs
    | some d =>
      if !x.first && !xs.isEmpty && decide (x.total ≠ 0) && decide (d.total ≠ 0) &&
          ((decide (x.wss ≤ avg) && decide (5 * d.wss ≤ 8 * avg)) ||
           (decide (e.minWss ≠ 0) && decide (x.wss ≤ e.minWss)))
      then some x
      else smallAvg e avg (some x) xs

/-- `SMALL_WORKING_SET` with the limit (src/table_compact_condition.cc:60-70,197-261).  Simplification: exact
    comparisons in place of floating point ones. -/
def pickMerge (e : Env) (ts : List CTab) : Option CTab :=
  if ts.length ≤ e.minTables && !e.forceMerge then none
  else match smallest none ts with
    | none => none
    | some m =>
      let avg := wssAvg e ts
      let byAvg := if 5 * avg ≤ 2 * e.maxTable then smallAvg e avg none ts else none
      match byAvg with
      | some x => some x
      | none => if 5 * m.wss ≤ avg then some m else none

/-- `pickTableToFix` (src/table_compact_condition.cc:326-347) -/
def pickFix (ts : List CTab) : Option CTab := ts.find? (fun x => !x.locked && x.prevReq)

/-- `MergeStrategy` with its victim (src/table_mgr.h) -/
inductive Job
  | interlevel
  | fix (x : CTab)
  | split (x : CTab)
  | inplace (x : CTab)
  | merge (x : CTab)
  deriving DecidableEq

/-- `TableMgr::chkLPCompactCond` (src/table_compact_condition.cc:650-760) for a level that exists; `none` is any
    status but OK.  `lv1` says that the level is 1. -/
def chkLP (e : Env) (lv1 : Bool) (ts : List CTab) : Option Job :=
  if e.readOnly then none
  else if !e.allow then none
  else if e.logOnly then none
  else if lv1 && e.l0Busy then none
  else if !e.levelLocked && decide (e.limit < (ts.map (·.wss)).foldl (· + ·) 0) then some .interlevel
  else match (if e.urgentIdx ≠ 0 then pickUrgent e ts else none) with
    | some x => some (.inplace x)
    | none =>
      match pickFix ts with
      | some x => some (.fix x)
      | none =>
        match pickSplit e ts with
        | some x => some (.split x)
        | none =>
          match pickStale e ts with
          | some x => some (.inplace x)
          | none => (pickMerge e ts).map .merge

/-! Level 0 -/

/-- Sizes of the table of a partition that would be compacted, and of the next one (only without level extension);
    `left` says that it is a source table that an earlier process left (src/table_compact_condition.cc:420-439). -/
structure L0In where
  left : Bool := false
  number : Nat := 0
  wss : Nat
  total : Nat
  reuse : Nat := 0
  sup : Option (Nat × Nat) := none
  /-- size of level 1, if it exists -/
  l1 : Option Nat := none
  busy : Bool := false
  l1Busy : Bool := false
  numLevels : Nat := 1
  seqLoading : Bool := false
  seqFactor : Nat := 0
  minReuse : Nat := 0
  maxL0 : Nat
  parts : Nat := 4

/-- Unsigned 64-bit arithmetic -/
def sub64 (a b : Nat) : Nat := (a + 2^64 - b) % 2^64
/-- Unsigned 64-bit arithmetic -/
def mul64 (a b : Nat) : Nat := a * b % 2^64

/-- `ratio` (src/table_compact_condition.cc:441-444) -/
def L0In.ratio (i : L0In) : Nat := if i.wss ≠ 0 then i.total * 100 / i.wss else 0

/-- `s_ratio` (src/table_compact_condition.cc:446-452) -/
def L0In.sRatio (i : L0In) : Nat :=
  match i.sup with
  | some (w, t) => if w ≠ 0 then (i.total + t) * 100 / w else 0xffffffff
  | none => 0xffffffff

/-- `s_stats.workingSetSizeByte` (src/table_compact_condition.cc:435-439) -/
def L0In.supWss (i : L0In) : Nat := match i.sup with | some (w, _) => w | none => 0

/-- `TableMgr::chkL0CompactCond` (src/table_compact_condition.cc:389-648), for a partition that exists. -/
def chkL0 (e : Env) (i : L0In) : Bool :=
  if e.readOnly then false
  else if !e.allow then false
  else if e.logOnly then false
  else if i.busy then false
  else if e.factor = 0 then false
  else if e.ext && i.l1Busy then false
  else
    -- 464-481: block reuse, stale blocks
    let d1 := (decide (i.minReuse ≠ 0) && decide (i.minReuse * 2 ≤ i.reuse)) ||
      (!e.ext && decide (64 * 1024 * 1024 < i.total) && decide (e.factor * 2 < i.ratio) && decide (e.factor * 2 < i.sRatio))
    -- 483-504: debugging parameters
    let u := (e.dbgEff && decide (e.dbgSize ≠ 0) && decide (e.dbgSize < i.total)) ||
      (decide (e.urgentIdx ≠ 0) && decide (i.number ≤ e.urgentIdx))
    -- 506-557: urgent ratio, idle traffic
    let ur := e.dbgEff && decide (e.dbgRatio ≠ 0) && decide (i.numLevels = 1) && decide (e.minFile < i.total) &&
      decide (e.dbgRatio < i.ratio)
    let it := e.idle && decide (e.itcFactor ≠ 0) && decide (e.minFile < i.total) && decide (e.itcFactor < i.ratio)
    let d2 := (ur || it) && (match i.sup with
      | some (_, t) => decide (mul64 t (sub64 e.dbgRatio 100) < mul64 i.total 100)
      | none => true)
    let d3 := d1 || u || d2
    let byUser := u || ur
    -- 559-579: sequential loading
    if !(d3 && byUser) && e.ext && i.seqLoading &&
        !(decide (i.seqFactor ≠ 0) && decide (i.maxL0 * i.seqFactor < i.total)) then false
    else
      let d4 := !(d3 && byUser) && e.ext && i.seqLoading
      -- 581-588: limit of level 0
      let d5 := e.ext && decide (i.maxL0 < i.wss + i.supWss)
      -- 590-612: normal condition
      let d6 := decide (e.minFile < i.total) && decide (i.minReuse ≤ i.reuse) && decide (e.factor < i.ratio) &&
        decide (e.factor < i.sRatio) &&
        (!e.ext || i.l1.isNone || decide (i.maxL0 < i.total) || decide (i.l1.getD 0 < i.total * i.parts))
      d3 || d4 || d5 || d6 || i.left

/-! ### Lemmas -/

theorem lowest_some {l : List CTab} {x : CTab} (h : lowest l = some x) : x ∈ l ∧ ∀ y ∈ l, x.number ≤ y.number := by
  induction l generalizing x with
  | nil => cases h
  | cons a l ih =>
    unfold lowest at h
    split at h
    · next hn =>
      cases h
      refine ⟨List.mem_cons_self, fun y hy => ?_⟩
      rcases List.mem_cons.1 hy with rfl | hy
      · exact Nat.le_refl _
      · cases l with
        | nil => cases hy
        | cons b l => unfold lowest at hn; split at hn <;> (try split at hn) <;> cases hn
    · next y hy =>
      obtain ⟨h1, h2⟩ := ih hy
      split at h
      · next hle =>
        cases h
        refine ⟨List.mem_cons_self, fun z hz => ?_⟩
        rcases List.mem_cons.1 hz with rfl | hz
        · exact Nat.le_refl _
        · exact Nat.le_trans hle (h2 z hz)
      · next hle =>
        cases h
        refine ⟨List.mem_cons_of_mem _ h1, fun z hz => ?_⟩
        rcases List.mem_cons.1 hz with rfl | hz
        · exact Nat.le_of_lt (Nat.lt_of_not_le hle)
        · exact h2 z hz

theorem lowest_none {l : List CTab} (h : lowest l = none) : l = [] := by
  cases l with
  | nil => rfl
  | cons a l => unfold lowest at h; split at h <;> (try split at h) <;> cases h

/-- Fit for an in-place compaction because of stale data. -/
def Stale (e : Env) (x : CTab) : Prop := x.locked = false ∧ x.wss ≠ 0 ∧ e.minFile ≤ x.total ∧ e.threshold ≤ ratio x ∧ 0 < ratio x

theorem staleStep_spec (e : Env) (best : Option CTab) (x : CTab)
    (hb : ∀ b, best = some b → Stale e b) :
    (∀ b, staleStep e best x = some b → Stale e b ∧ (b = x ∨ best = some b)) ∧
    (Stale e x → ∃ b, staleStep e best x = some b ∧ ratio x ≤ ratio b) ∧
    (∀ b, best = some b → ∃ b', staleStep e best x = some b' ∧ ratio b ≤ ratio b') := by
  unfold staleStep
  by_cases h1 : x.locked = true
  · rw [if_pos h1]
    exact ⟨fun b h => ⟨hb b h, Or.inr h⟩, fun h => absurd h.1 (by rw [h1]; decide), fun b h => ⟨b, h, Nat.le_refl _⟩⟩
  rw [if_neg h1]
  by_cases h2 : x.wss = 0
  · rw [if_pos h2]
    exact ⟨fun b h => ⟨hb b h, Or.inr h⟩, fun h => absurd h2 h.2.1, fun b h => ⟨b, h, Nat.le_refl _⟩⟩
  rw [if_neg h2]
  by_cases h3 : x.total < e.minFile
  · rw [if_pos h3]
    exact ⟨fun b h => ⟨hb b h, Or.inr h⟩, fun h => absurd h3 (Nat.not_lt.2 h.2.2.1), fun b h => ⟨b, h, Nat.le_refl _⟩⟩
  rw [if_neg h3]
  by_cases h4 : ratio x < e.threshold
  · rw [if_pos h4]
    exact ⟨fun b h => ⟨hb b h, Or.inr h⟩, fun h => absurd h4 (Nat.not_lt.2 h.2.2.2.1), fun b h => ⟨b, h, Nat.le_refl _⟩⟩
  rw [if_neg h4]
  have hx : 0 < ratio x → Stale e x := fun h0 => ⟨by simpa using h1, h2, Nat.le_of_not_lt h3, Nat.le_of_not_lt h4, h0⟩
  cases best with
  | none =>
    dsimp only
    by_cases h0 : 0 < ratio x
    · rw [if_pos h0]
      exact ⟨fun b h => (by cases h; exact ⟨hx h0, Or.inl rfl⟩), fun _ => ⟨x, rfl, Nat.le_refl _⟩, fun b h => (by cases h)⟩
    · rw [if_neg h0]
      exact ⟨fun b h => (by cases h), fun h => absurd h.2.2.2.2 h0, fun b h => (by cases h)⟩
  | some c =>
    dsimp only
    by_cases h0 : ratio c < ratio x
    · rw [if_pos h0]
      exact ⟨fun b h => (by cases h; exact ⟨hx (by omega), Or.inl rfl⟩), fun _ => ⟨x, rfl, Nat.le_refl _⟩,
        fun b h => (by cases h; exact ⟨x, rfl, Nat.le_of_lt h0⟩)⟩
    · rw [if_neg h0]
      exact ⟨fun b h => ⟨hb b h, Or.inr h⟩, fun _ => ⟨c, rfl, Nat.le_of_not_lt h0⟩, fun b h => ⟨b, h, Nat.le_refl _⟩⟩

theorem pickStale_spec (e : Env) (ts : List CTab) :
    (∀ b, pickStale e ts = some b → Stale e b ∧ b ∈ ts) ∧
    (∀ x ∈ ts, Stale e x → ∃ b, pickStale e ts = some b ∧ ratio x ≤ ratio b) := by
  have gen : ∀ (l : List CTab) (best : Option CTab), (∀ b, best = some b → Stale e b) →
      (∀ b, l.foldl (staleStep e) best = some b → Stale e b ∧ (b ∈ l ∨ best = some b)) ∧
      (∀ x ∈ l, Stale e x → ∃ b, l.foldl (staleStep e) best = some b ∧ ratio x ≤ ratio b) ∧
      (∀ b, best = some b → ∃ b', l.foldl (staleStep e) best = some b' ∧ ratio b ≤ ratio b') := by
    intro l
    induction l with
    | nil => intro best hb; exact ⟨fun b h => ⟨hb b h, Or.inr h⟩, fun x hx => (by cases hx), fun b h => ⟨b, h, Nat.le_refl _⟩⟩
    | cons x l ih =>
      intro best hb
      obtain ⟨s1, s2, s3⟩ := staleStep_spec e best x hb
      obtain ⟨i1, i2, i3⟩ := ih (staleStep e best x) (fun b h => (s1 b h).1)
      simp only [List.foldl_cons]
      refine ⟨fun b h => ?_, fun y hy hs => ?_, fun b h => ?_⟩
      · obtain ⟨h1, h2⟩ := i1 b h
        refine ⟨h1, ?_⟩
        rcases h2 with h2 | h2
        · exact Or.inl (List.mem_cons_of_mem _ h2)
        · rcases (s1 b h2).2 with rfl | h3
          · exact Or.inl List.mem_cons_self
          · exact Or.inr h3
      · rcases List.mem_cons.1 hy with rfl | hy
        · obtain ⟨b, hb1, hb2⟩ := s2 hs
          obtain ⟨b', hb3, hb4⟩ := i3 b hb1
          exact ⟨b', hb3, Nat.le_trans hb2 hb4⟩
        · exact i2 y hy hs
      · obtain ⟨b1, h1, h2⟩ := s3 b h
        obtain ⟨b2, h3, h4⟩ := i3 b1 h1
        exact ⟨b2, h3, Nat.le_trans h2 h4⟩
  obtain ⟨g1, g2, _⟩ := gen ts none (fun b h => by cases h)
  refine ⟨fun b h => ?_, g2⟩
  obtain ⟨h1, h2⟩ := g1 b h
  rcases h2 with h2 | h2
  · exact ⟨h1, h2⟩
  · cases h2

theorem smallest_spec (ts : List CTab) : ∀ (best : Option CTab) (m : CTab),
    smallest best ts = some m → best = some m ∨ (m.locked = false ∧ m.first = false ∧ ∃ l r, ts = l ++ m :: r ∧ r ≠ []) := by
  induction ts with
  | nil => intro best m h; exact Or.inl h
  | cons x xs ih =>
    intro best m h
    unfold smallest at h
    split at h
    · next hc =>
      simp only [Bool.and_eq_true, Bool.not_eq_true'] at hc
      rcases ih (some x) m h with h1 | ⟨h1, h2, l, r, h3, h4⟩
      · cases h1
        refine Or.inr ⟨hc.1.1.1, hc.1.1.2, [], xs, rfl, ?_⟩
        intro he; rw [he] at hc; exact absurd hc.1.2 (by decide)
      · exact Or.inr ⟨h1, h2, x :: l, r, by rw [h3]; rfl, h4⟩
    · rcases ih best m h with h1 | ⟨h1, h2, l, r, h3, h4⟩
      · exact Or.inl h1
      · exact Or.inr ⟨h1, h2, x :: l, r, by rw [h3]; rfl, h4⟩

theorem smallAvg_spec (e : Env) (avg : Nat) (ts : List CTab) : ∀ (prev : Option CTab) (x : CTab),
    smallAvg e avg prev ts = some x → x.first = false ∧ x.total ≠ 0 ∧
      ((∃ l d r, ts = l ++ d :: x :: r ∧ r ≠ []) ∨ ∃ d r, prev = some d ∧ ts = x :: r ∧ r ≠ []) := by
  induction ts with
  | nil => intro prev x h; cases prev <;> cases h
  | cons y ys ih =>
    intro prev x h
    unfold smallAvg at h
    have step : smallAvg e avg (some y) ys = some x → x.first = false ∧ x.total ≠ 0 ∧
        ((∃ l d r, y :: ys = l ++ d :: x :: r ∧ r ≠ []) ∨ ∃ d r, prev = some d ∧ y :: ys = x :: r ∧ r ≠ []) := by
      intro h
      obtain ⟨h1, h2, h3⟩ := ih _ x h
      refine ⟨h1, h2, Or.inl ?_⟩
      rcases h3 with ⟨l, d, r, h3, h4⟩ | ⟨d, r, h3, h4, h5⟩
      · exact ⟨y :: l, d, r, by rw [h3]; rfl, h4⟩
      · exact ⟨[], y, r, by rw [h4]; rfl, h5⟩
    cases prev with
    | none => exact step h
    | some d =>
      dsimp only at h
      split at h
      · next hc =>
        cases h
        simp only [Bool.and_eq_true, Bool.not_eq_true', decide_eq_true_eq] at hc
        refine ⟨hc.1.1.1.1, hc.1.1.2, Or.inr ⟨d, ys, rfl, rfl, ?_⟩⟩
        intro he; rw [he] at hc; exact absurd hc.1.1.1.2 (by decide)
      · exact step h

theorem pickMerge_spec {e : Env} {ts : List CTab} {x : CTab} (h : pickMerge e ts = some x) :
    (e.minTables < ts.length ∨ e.forceMerge = true) ∧ x.first = false ∧ ∃ l r, ts = l ++ x :: r ∧ r ≠ [] := by
  unfold pickMerge at h
  split at h
  · cases h
  · next hc =>
    have hc' : e.minTables < ts.length ∨ e.forceMerge = true := by
      simp only [Bool.and_eq_true, decide_eq_true_eq, Bool.not_eq_true', not_and, Bool.not_eq_false] at hc
      by_cases hl : ts.length ≤ e.minTables
      · exact Or.inr (hc hl)
      · exact Or.inl (Nat.lt_of_not_le hl)
    refine ⟨hc', ?_⟩
    split at h
    · cases h
    · next m hm =>
      dsimp only at h
      split at h
      · next y hy =>
        cases h
        split at hy
        · obtain ⟨h1, h2, h3⟩ := smallAvg_spec e _ ts none x hy
          rcases h3 with ⟨l, d, r, h3, h4⟩ | ⟨d, r, h3, _⟩
          · exact ⟨h1, l ++ [d], r, by rw [h3]; simp, h4⟩
          · cases h3
        · cases hy
      · split at h
        · cases h
          rcases smallest_spec ts none x hm with h1 | ⟨_, h2, h3⟩
          · cases h1
          · exact ⟨h2, h3⟩
        · cases h

end Cond
end Jungle
