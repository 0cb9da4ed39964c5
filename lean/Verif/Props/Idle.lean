/-
  C72: idle-time compaction is in force in the hours of the options, when there were few operations for
  the time window of the options.
-/
import Verif.Worker.Idle

namespace Jungle
open Idle

/-! ### Specification

`opsIn calls s` is the number of operations in the ten seconds number `s`, and `SteadyTo s0 calls c` says
that the calls began in slot `s0`, that the last one was in slot `c`, and that no slot was left out
(the command handler makes a call every second). -/

/-- The hours from `startHour` until `endHour`, over midnight if it is smaller; all if they are equal. -/
def InHours (o : IdleOpts) (hour : Nat) : Prop :=
  if o.startHour = o.endHour then True
  else if o.startHour < o.endHour then o.startHour ≤ hour ∧ hour < o.endHour
  else o.startHour ≤ hour ∨ hour < o.endHour

/-- At most `threshold` operations in a second, on average over the slot (rounded down). -/
def Quiet (o : IdleOpts) (calls : List (Nat × Nat)) (s : Nat) : Prop := opsIn calls s / 10 ≤ o.threshold

/-! ### Theorems -/

/-- C72: with a window of 0 it is never in force. -/
theorem C72_off (o : IdleOpts) (h : o.window = 0) (t hour : Nat) (hist : Hist) : idle o t hour hist = false := by
  simp [idle, h]

/-- C72: the hours are those of the options, except that a range over midnight includes the hour after
    its end. -/
theorem C72_hours_partial (o : IdleOpts) {hour : Nat} (h : o.endHour < o.startHour → hour ≠ o.endHour) :
    hourOk o hour = true ↔ InHours o hour := by
  unfold hourOk InHours
  by_cases h1 : o.startHour = o.endHour
  · simp [h1]
    omega
  · by_cases h2 : o.startHour < o.endHour
    · simp [h1, h2]
    · simp [h1, h2]
      omega

/-- C72: what the decision depends on. -/
theorem C72_idle_iff {o : IdleOpts} {s0 c : Nat} {calls : List (Nat × Nat)} (hs : SteadyTo s0 calls c) {t hour : Nat}
    (ht : t / 10 = c) :
    idle o t hour (after calls) = true ↔
      o.window ≠ 0 ∧ hourOk o hour = true ∧ s0 + 2 ≤ c ∧
        ∀ s, s0 ≤ s → s ≤ c → c < s + max 3 (o.window / 10) → c < s + 359 → Quiet o calls s := by
  have hle := hs.le
  unfold idle
  by_cases hw : o.window = 0
  · simp [hw]
  rw [if_neg hw]
  by_cases hh : hourOk o hour = true
  swap
  · simp [hh]
  simp only [hh, Bool.not_true, Bool.false_eq_true, if_false, ne_eq, hw, not_false_eq_true, true_and]
  have hmap : (List.range (knownSlots s0 c)).map (fun j => (opsIn calls (c - j) : Int)) =
      ((List.range (knownSlots s0 c)).map (fun j => opsIn calls (c - j))).map (fun x : Nat => (x : Int)) := by
    rw [List.map_map]; rfl
  rw [hs.entries_eq ht, hmap, scan_used o _ _ 0 (by omega)]
  have hk : knownSlots s0 c = min 359 (c - s0 + 1) := rfl
  have hall : (∀ x ∈ ((List.range (knownSlots s0 c)).map (fun j => opsIn calls (c - j))).take
      (max 3 (o.window / 10) - 0), x / 10 ≤ o.threshold) ↔
      ∀ s, s0 ≤ s → s ≤ c → c < s + max 3 (o.window / 10) → c < s + 359 → Quiet o calls s := by
    rw [← List.map_take, List.take_range]
    constructor
    · intro h s h1 h2 h3 h4
      refine h _ (List.mem_map.2 ⟨c - s, List.mem_range.2 (by omega), ?_⟩)
      have : c - (c - s) = s := by omega
      rw [this]
    · intro h x hx
      obtain ⟨j, hj, rfl⟩ := List.mem_map.1 hx
      have hj' := List.mem_range.1 hj
      exact h (c - j) (by omega) (by omega) (by omega) (by omega)
  by_cases hq : ∀ s, s0 ≤ s → s ≤ c → c < s + max 3 (o.window / 10) → c < s + 359 → Quiet o calls s
  · rw [if_pos (hall.2 hq)]
    simp only [List.length_map, List.length_range, ge_iff_le, decide_eq_true_eq]
    constructor
    · intro h
      exact ⟨by omega, hq⟩
    · rintro ⟨h, -⟩
      omega
  · rw [if_neg (fun hh => hq (hall.1 hh))]
    simp [hq]

/-- C72: it is in force when the whole window was quiet. -/
theorem C72_quiet_is_idle {o : IdleOpts} {s0 c : Nat} {calls : List (Nat × Nat)} (hs : SteadyTo s0 calls c) {t hour : Nat}
    (ht : t / 10 = c) (hw : o.window ≠ 0) (hh : InHours o hour) (h3 : s0 + 2 ≤ c)
    (hq : ∀ s, s ≤ c → c < s + max 3 (o.window / 10) → Quiet o calls s) : idle o t hour (after calls) = true := by
  refine (C72_idle_iff hs ht).2 ⟨hw, ?_, h3, fun s _ h1 h2 _ => hq s h1 h2⟩
  unfold InHours at hh
  unfold hourOk
  by_cases h1 : o.startHour = o.endHour
  · simp [h1]; omega
  · by_cases h2 : o.startHour < o.endHour
    · simp [h1, h2] at hh ⊢; exact hh
    · simp [h1, h2] at hh ⊢; omega

/-- C72: when it is in force, the whole window was quiet, if the process is as old as the window and the
    window is shorter than an hour. -/
theorem C72_idle_is_quiet_partial {o : IdleOpts} {s0 c : Nat} {calls : List (Nat × Nat)} (hs : SteadyTo s0 calls c)
    {t hour : Nat} (ht : t / 10 = c) (hi : idle o t hour (after calls) = true) (hw : o.window < 3600)
    (hold : s0 + o.window / 10 ≤ c + 1) (hhour : o.endHour < o.startHour → hour ≠ o.endHour) :
    InHours o hour ∧ ∀ s, s ≤ c → c < s + max 3 (o.window / 10) → Quiet o calls s := by
  obtain ⟨-, h2, h3, h4⟩ := (C72_idle_iff hs ht).1 hi
  exact ⟨(C72_hours_partial o hhour).1 h2, fun s h5 h6 => h4 s (by omega) h5 h6 (by omega)⟩

/-! ### Examples and counterexamples -/
namespace IdleEx

/-- One call in each of the slots `0 .. n-1`, with the given numbers of operations. -/
def every (ops : Nat → Nat) (n : Nat) : List (Nat × Nat) := (List.range n).map (fun i => (10 * i, ops i))

theorem every_steady (ops : Nat → Nat) (n : Nat) : SteadyTo 0 (every ops (n + 1)) n := by
  induction n with
  | zero => exact .first 0 _ rfl
  | succ n ih =>
    have h : every ops (n + 1 + 1) = every ops (n + 1) ++ [(10 * (n + 1), ops (n + 1))] := by
      simp [every, List.range_succ]
    rw [h]
    have h10 : 10 * (n + 1) / 10 = n + 1 := by omega
    have := SteadyTo.next (10 * (n + 1)) (ops (n + 1)) ih (Or.inr h10)
    rwa [h10] at this

theorem every_ops (ops : Nat → Nat) (n s : Nat) : opsIn (every ops n) s = if s < n then ops s else 0 := by
  induction n with
  | zero => simp [every, opsIn]
  | succ n ih =>
    have h : every ops (n + 1) = every ops n ++ [(10 * n, ops n)] := by simp [every, List.range_succ]
    rw [h, opsIn_append, ih]
    have h10 : 10 * n / 10 = n := by omega
    rw [h10]
    by_cases h1 : s < n
    · rw [if_pos h1, if_neg (by omega), if_pos (by omega)]; omega
    · by_cases h2 : n = s
      · rw [if_neg h1, if_pos h2, if_pos (by omega), h2]; omega
      · rw [if_neg h1, if_neg h2, if_neg (by omega)]

/-- Window of ten minutes, at most 1000 operations a second, from 23 to 1 o'clock. -/
def night : IdleOpts := ⟨600, 23, 1, 1000⟩

/-- Busy until slot 100, quiet from then on. -/
def calms : Nat → Nat := fun s => if s < 100 then 100000 else 50

example : idle night 1800 0 (after (every calms 181)) = true :=
  C72_quiet_is_idle (every_steady calms 180) (by decide) (by decide) (by unfold InHours night; decide) (by decide)
    (fun s h1 h2 => by
      unfold Quiet
      simp only [night] at h2
      have : ¬ s < 100 := by omega
      rw [every_ops, if_pos (by omega)]
      simp [calms, this, night])

example : idle night 1300 0 (after (every calms 131)) = false := by
  rw [Bool.eq_false_iff]
  intro h
  have := (C72_idle_is_quiet_partial (every_steady calms 130) (by decide) h (by decide) (by decide) (by decide)).2 90
    (by decide) (by decide)
  unfold Quiet at this
  rw [every_ops] at this
  revert this
  decide

/-- C72 is false of the last hour of a range over midnight: from 23 to 1 o'clock includes 1:59. -/
theorem C72_hour_violation : hourOk night 1 = true ∧ ¬ InHours night 1 := by
  constructor
  · decide
  · unfold InHours night; decide

/-- C72 is false of a young process: with a window of ten minutes, the traffic is idle after 20 seconds. -/
theorem C72_young_violation : idle night 20 0 (after (every (fun _ => 50) 3)) = true := by
  rw [C72_idle_iff (every_steady _ 2) (by decide)]
  refine ⟨by decide, by decide, by decide, fun s _ h _ _ => ?_⟩
  unfold Quiet
  rw [every_ops, if_pos (by omega)]
  decide

/-- C72 is false of windows longer than an hour: two hours are asked for, and the process was busy an
    hour ago. -/
theorem C72_window_violation :
    let o : IdleOpts := ⟨7200, 0, 0, 1000⟩
    idle o 4600 12 (after (every calms 461)) = true ∧ ¬ Quiet o (every calms 461) 99 := by
  intro o
  constructor
  · rw [C72_idle_iff (every_steady calms 460) (by decide)]
    refine ⟨by decide, by decide, by decide, fun s _ h1 _ h2 => ?_⟩
    have : ¬ s < 100 := by omega
    unfold Quiet
    rw [every_ops, if_pos (by omega)]
    simp [calms, this, o]
  · unfold Quiet
    rw [every_ops]
    decide

/-- C72 is false when the clock leaves slots out, for instance because the machine slept for an hour: the
    operations of an hour ago are counted as those of the current slot. -/
theorem C72_clock_violation :
    let o : IdleOpts := ⟨30, 0, 0, 1000⟩
    let calls := [(0, 100000), (3600, 0), (3610, 0), (3620, 0)]
    idle o 3620 12 (after calls) = false ∧
      (∀ s, s ≤ 362 → 362 < s + max 3 (o.window / 10) → Quiet o calls s) := by
  constructor
  · decide +kernel
  · intro s h1 h2
    have : s = 360 ∨ s = 361 ∨ s = 362 := by simp only at h2; omega
    unfold Quiet
    rcases this with rfl | rfl | rfl <;> decide

end IdleEx
end Jungle
