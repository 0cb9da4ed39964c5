/-
  Idle traffic: how the process decides that there is little traffic, for which the compaction factor
  is replaced by that of the options.
-/
import Mathlib.Data.List.Basic
import Mathlib.Tactic.Common

namespace Jungle.Idle

/-- `IdleTimeCompactionOptions` (include/libjungle/db_config.h:736-773) without the factor. -/
structure IdleOpts where
  window : Nat
  startHour : Nat
  endHour : Nat
  threshold : Nat

/-- `MAX_OP_HISTORY` (src/db_mgr.h:80). -/
scoped notation "SLOTS" => (360 : Nat)

/-- The numbers of operations of the last hour, in slots of ten seconds; -1: not used
    (`opHistory`, src/db_mgr.cc:240-242). -/
abbrev Hist := Nat → Int

/-- A new process. -/
def Hist.init : Hist := fun _ => -1

/-- `DBMgr::updateOpHistory` at time `t` (src/db_mgr.cc:470-484).  Simplification: one call at a time,
    and the compare-and-swap fails only if the slot has changed. -/
def update (t amount : Nat) (h : Hist) : Hist :=
  let idx := (t / 10) % SLOTS
  if h idx = -1 then
    fun i => if i = (idx + 1) % SLOTS then -1 else if i = idx then (amount : Int) else h i
  else fun i => if i = idx then h i + amount else h i

/-- The hours of the options (src/db_mgr.cc:489-504). -/
def hourOk (o : IdleOpts) (hour : Nat) : Bool :=
  if o.startHour < o.endHour then !(decide (hour < o.startHour) || decide (hour ≥ o.endHour))
  else !(decide (hour > o.endHour) && decide (hour < o.startHour))

/-- The loop over the slots, the current one first (src/db_mgr.cc:508-517): `none` if one is busy,
    otherwise the number of slots that were looked at. -/
def scan (o : IdleOpts) : List Int → Nat → Option Nat
  | [], n => some n
  | e :: es, n =>
    if e < 0 then scan o es n
    else if e / 10 > (o.threshold : Int) then none
    else if n + 1 ≥ 3 ∧ n + 1 ≥ o.window / 10 then some (n + 1)
    else scan o es (n + 1)

/-- The slots as the loop visits them (src/db_mgr.cc:506-510). -/
def entries (t : Nat) (h : Hist) : List Int :=
  (List.range SLOTS).map (fun j => h ((SLOTS + (t / 10) % SLOTS - j) % SLOTS))

/-- `DBMgr::determineIdleStatus` at time `t` and hour `hour` (src/db_mgr.cc:486-524). -/
def idle (o : IdleOpts) (t hour : Nat) (h : Hist) : Bool :=
  if o.window = 0 then false
  else if !hourOk o hour then false
  else
    match scan o (entries t h) 0 with
    | none => false
    | some n => decide (n ≥ 3)

/-- The calls of `updateOpHistory` of a process, with their times. -/
def after (calls : List (Nat × Nat)) : Hist := calls.foldl (fun h c => update c.1 c.2 h) Hist.init

/-! ### Lemmas -/

/-- Operations in slot `s`. -/
def opsIn (calls : List (Nat × Nat)) (s : Nat) : Nat :=
  ((calls.filter (fun c => c.1 / 10 == s)).map (·.2)).sum

theorem opsIn_append (calls : List (Nat × Nat)) (t a s : Nat) :
    opsIn (calls ++ [(t, a)]) s = opsIn calls s + if t / 10 = s then a else 0 := by
  unfold opsIn
  rw [List.filter_append, List.map_append, List.sum_append]
  by_cases h : t / 10 = s <;> simp [h]

/-- The slots of the calls: never backwards and never more than one ahead. -/
inductive SteadyTo (s0 : Nat) : List (Nat × Nat) → Nat → Prop
  | first (t a : Nat) (ht : t / 10 = s0) : SteadyTo s0 [(t, a)] s0
  | next {calls c} (t a : Nat) (h : SteadyTo s0 calls c) (ht : t / 10 = c ∨ t / 10 = c + 1) :
      SteadyTo s0 (calls ++ [(t, a)]) (t / 10)

theorem after_append (calls : List (Nat × Nat)) (t a : Nat) :
    after (calls ++ [(t, a)]) = update t a (after calls) := by
  simp [after]

theorem SteadyTo.le {s0 c : Nat} {calls : List (Nat × Nat)} (h : SteadyTo s0 calls c) : s0 ≤ c := by
  induction h with
  | first => exact Nat.le_refl _
  | next t a _ ht ih => omega

theorem SteadyTo.none_after {s0 c : Nat} {calls : List (Nat × Nat)} (h : SteadyTo s0 calls c) :
    ∀ s, c < s → opsIn calls s = 0 := by
  induction h with
  | first t a ht =>
    intro s hs
    have : ¬ t / 10 = s := by omega
    simp [opsIn, this]
  | next t a _ ht ih =>
    intro s hs
    rw [opsIn_append, ih s (by omega), if_neg (by omega)]

theorem update_new {t a : Nat} {h : Hist} (hn : h ((t / 10) % SLOTS) = -1) (i : Nat) :
    update t a h i = if i = ((t / 10) % SLOTS + 1) % SLOTS then -1 else if i = (t / 10) % SLOTS then (a : Int) else h i := by
  unfold update
  rw [if_pos hn]

theorem update_old {t a : Nat} {h : Hist} (hn : h ((t / 10) % SLOTS) ≠ -1) (i : Nat) :
    update t a h i = if i = (t / 10) % SLOTS then h i + a else h i := by
  unfold update
  rw [if_neg hn]

/-- What the slots hold, seen from the current one. -/
theorem SteadyTo.slots {s0 c : Nat} {calls : List (Nat × Nat)} (h : SteadyTo s0 calls c) :
    ∀ j, j < SLOTS → after calls ((SLOTS + c % SLOTS - j) % SLOTS) =
      if j ≤ 358 ∧ s0 + j ≤ c then (opsIn calls (c - j) : Int) else -1 := by
  induction h with
  | first t a ht =>
    intro j hj
    have h0 : after [(t, a)] = update t a Hist.init := rfl
    rw [h0, update_new rfl, ht]
    by_cases hj0 : j = 0
    · subst hj0
      rw [if_neg (by omega), if_pos (by omega), if_pos (by omega)]
      simp [opsIn, ht]
    · rw [if_neg (c := j ≤ 358 ∧ s0 + j ≤ s0) (by omega)]
      split
      · rfl
      · rw [if_neg (by omega)]
        rfl
  | @next calls c t a hc ht ih =>
    intro j hj
    rw [after_append]
    have hle := hc.le
    have hna := hc.none_after
    rcases ht with ht | ht
    · -- the same slot
      have hcur := ih 0 (by omega)
      rw [if_pos (by omega)] at hcur
      have hidx : (360 + c % 360 - 0) % 360 = c % 360 := by omega
      rw [hidx] at hcur
      have hne : after calls (c % 360) ≠ -1 := by rw [hcur]; omega
      rw [update_old (by rw [ht]; exact hne), ht]
      rw [opsIn_append]
      by_cases hj0 : j = 0
      · subst hj0
        rw [if_pos (by omega), if_pos (by omega), hidx, hcur, if_pos (by omega)]
        simp
      · rw [if_neg (by omega), ih j hj]
        by_cases hjj : j ≤ 358 ∧ s0 + j ≤ c
        · rw [if_pos hjj, if_pos hjj, if_neg (by omega), Nat.add_zero]
        · rw [if_neg hjj, if_neg hjj]
    · -- the next slot
      have hnew := ih 359 (by omega)
      rw [if_neg (by omega)] at hnew
      have hidx : (360 + c % 360 - 359) % 360 = (c + 1) % 360 := by omega
      rw [hidx] at hnew
      rw [update_new (by rw [ht]; exact hnew), ht]
      rw [opsIn_append]
      by_cases hj0 : j = 0
      · subst hj0
        rw [if_neg (by omega), if_pos (by omega), if_pos (by omega), if_pos (by omega), hna (c + 1 - 0) (by omega)]
        simp
      · by_cases hjl : j = 359
        · rw [if_pos (by omega), if_neg (by omega)]
        · rw [if_neg (by omega), if_neg (by omega)]
          have h1 : (360 + (c + 1) % 360 - j) % 360 = (360 + c % 360 - (j - 1)) % 360 := by omega
          rw [h1, ih (j - 1) (by omega)]
          by_cases hjj : j ≤ 358 ∧ s0 + j ≤ c + 1
          · rw [if_pos (by omega), if_pos hjj, if_neg (by omega), Nat.add_zero]
            have h2 : c - (j - 1) = c + 1 - j := by omega
            rw [h2]
          · rw [if_neg (by omega), if_neg hjj]

/-- The number of slots that have been used and are still known. -/
def knownSlots (s0 c : Nat) : Nat := min 359 (c - s0 + 1)

theorem SteadyTo.entries_eq {s0 c : Nat} {calls : List (Nat × Nat)} (h : SteadyTo s0 calls c) {t : Nat} (ht : t / 10 = c) :
    entries t (after calls) =
      (List.range (knownSlots s0 c)).map (fun j => (opsIn calls (c - j) : Int)) ++
        List.replicate (SLOTS - knownSlots s0 c) (-1) := by
  have hle := h.le
  have hk : knownSlots s0 c ≤ 359 := by unfold knownSlots; omega
  apply List.ext_getElem
  · simp [entries]; omega
  · intro j h1 h2
    have hj : j < SLOTS := by simpa only [entries, List.length_map, List.length_range] using h1
    have he : (entries t (after calls))[j]'h1 = after calls ((SLOTS + t / 10 % SLOTS - j) % SLOTS) := by
      simp only [entries, List.getElem_map, List.getElem_range]
    rw [he, ht, h.slots j hj]
    by_cases hjk : j < knownSlots s0 c
    · rw [List.getElem_append_left (by simpa using hjk), List.getElem_map, List.getElem_range]
      rw [if_pos]
      unfold knownSlots at hjk
      omega
    · rw [List.getElem_append_right (by simpa using hjk), List.getElem_replicate, if_neg]
      unfold knownSlots at hjk
      omega

theorem scan_unused (o : IdleOpts) (m n : Nat) : scan o (List.replicate m (-1)) n = some n := by
  induction m with
  | zero => rfl
  | succ m ih => rw [List.replicate_succ, scan, if_pos (by omega), ih]

/-- The loop over used slots looks at `max 3 (window / 10)` of them, or all if there are fewer. -/
theorem scan_used (o : IdleOpts) (l : List Nat) (m : Nat) : ∀ n, n < max 3 (o.window / 10) →
    scan o (l.map (fun x : Nat => (x : Int)) ++ List.replicate m (-1)) n =
      if ∀ x ∈ l.take (max 3 (o.window / 10) - n), x / 10 ≤ o.threshold then
        some (min (max 3 (o.window / 10)) (n + l.length)) else none := by
  induction l with
  | nil =>
    intro n hn
    simp only [List.map_nil, List.nil_append, scan_unused, List.take_nil, List.not_mem_nil, false_implies, implies_true, if_true, List.length_nil]
    congr 1
    omega
  | cons x l ih =>
    intro n hn
    have htake : (x :: l).take (max 3 (o.window / 10) - n) = x :: l.take (max 3 (o.window / 10) - (n + 1)) := by
      have : max 3 (o.window / 10) - n = (max 3 (o.window / 10) - (n + 1)) + 1 := by omega
      rw [this, List.take_succ_cons]
    rw [htake, List.map_cons, List.cons_append, scan, if_neg (by omega)]
    by_cases hx : x / 10 ≤ o.threshold
    · rw [if_neg (by omega)]
      by_cases hend : n + 1 ≥ 3 ∧ n + 1 ≥ o.window / 10
      · rw [if_pos hend, if_pos]
        · congr 1; simp; omega
        · have h0 : max 3 (o.window / 10) - (n + 1) = 0 := by omega
          rw [h0]
          intro y hy
          simp at hy
          rw [hy]; exact hx
      · rw [if_neg hend, ih (n + 1) (by omega)]
        by_cases hall : ∀ y ∈ l.take (max 3 (o.window / 10) - (n + 1)), y / 10 ≤ o.threshold
        · rw [if_pos hall, if_pos]
          · congr 1; simp; omega
          · intro y hy
            rcases List.mem_cons.1 hy with h | h
            · rw [h]; exact hx
            · exact hall y h
        · rw [if_neg hall, if_neg]
          exact fun hh => hall (fun y hy => hh y (List.mem_cons_of_mem _ hy))
    · rw [if_pos (by omega), if_neg]
      exact fun hh => hx (hh x (by simp))

end Jungle.Idle
