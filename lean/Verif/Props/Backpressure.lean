/-
  C62, the back pressure of one database: writers are slowed down to the chosen rate and no further,
  for a limited time, and only with more log files than the options allow.
-/
import Verif.Worker.Backpressure
import Mathlib.Tactic.Ring

namespace Jungle
open Throttle

/-- C62: no database with at most as many log files as both limits allow is slowed down. -/
theorem C62_back_off {o : BackOpts} {n flushed : Nat} {incoming slowest : ℚ} (hs : n ≤ o.soft) (hh : n ≤ o.hard)
    (interval age elapsed : Nat) :
    backPause o n interval age elapsed (newRate o n flushed incoming slowest) = 0 := by
  have : newRate o n flushed incoming slowest = 0 := by
    unfold newRate
    have h1 : decide (o.hard < n) = false := by simpa using hh
    have h2 : decide (o.soft < n) = false := by simpa using hs
    simp [h1, h2]
  rw [this]
  unfold backPause
  simp

/-- C62: a database that is over the soft limit and writes faster than it flushes is slowed down to the
    speed of its flushes. -/
theorem C62_back_soft {o : BackOpts} {n flushed : Nat} {incoming slowest : ℚ} (hs : o.soft < n) (hh : n ≤ o.hard)
    (hf : o.threshold < flushed) (h0 : 0 < slowest) (hi : slowest < incoming) :
    newRate o n flushed incoming slowest = slowest := by
  unfold newRate
  have h1 : decide (o.hard < n) = false := by simpa using hh
  simp [h1, hs, h0, hf, hi]

/-- C62: with more than 128 log files, if this is over the hard limit, the rate is at most 10000 records
    per second divided by the number of log files above 128, and throttling is on. -/
theorem C62_back_hard_partial {o : BackOpts} {n flushed : Nat} {incoming slowest : ℚ} (hl : o.logOnly = false)
    (hh : o.hard < n) (hn : 128 < n) (h0 : 0 ≤ slowest) :
    0 < newRate o n flushed incoming slowest ∧ newRate o n flushed incoming slowest * (n - 128 : Nat) ≤ 10000 := by
  have e : newRate o n flushed incoming slowest =
      if slowest = 0 then 10000 / ((n - 128 : Nat) : ℚ) else min (10000 / ((n - 128 : Nat) : ℚ)) slowest := by
    unfold newRate extreme
    have h1 : decide (o.hard < n) = true := by simpa using hh
    have h2 : ¬ n ≤ 128 := by omega
    simp [h1, hl, h2]
  have hk : (0 : ℚ) < ((n - 128 : Nat) : ℚ) := by exact_mod_cast (by omega : 0 < n - 128)
  rw [e]
  generalize ((n - 128 : Nat) : ℚ) = k at hk
  have ht : (0 : ℚ) < 10000 / k := div_pos (by norm_num) hk
  have hm : ∀ x : ℚ, x ≤ 10000 / k → x * k ≤ 10000 := fun x hx => (le_div_iff₀ hk).1 hx
  split
  · exact ⟨ht, hm _ (le_refl _)⟩
  · next hne =>
    exact ⟨lt_min ht (lt_of_le_of_ne h0 (Ne.symm hne)), hm _ (min_le_left _ _)⟩

/-- The share of the full pause that is left after `age` ms. -/
theorem share_le {eff age : Nat} (h : age < eff) : ((eff - age : Nat) : ℚ) / eff ≤ 1 := by
  have he : (0 : ℚ) < eff := by exact_mod_cast (by omega : 0 < eff)
  rw [div_le_one he]
  exact_mod_cast Nat.sub_le eff age

/-- C62: a pause is never negative, and a write with its pause takes no longer than the chosen rate
    asks for: `rate` writes with their pauses take at most a second. -/
theorem C62_back_bound {o : BackOpts} {n interval age elapsed : Nat} {rate : ℚ} (hr : 0 < rate) :
    0 ≤ backPause o n interval age elapsed rate ∧
    (backPause o n interval age elapsed rate ≠ 0 →
      rate * (elapsed + backPause o n interval age elapsed rate) ≤ 1000000) := by
  unfold backPause
  rw [if_neg (ne_of_gt hr)]
  dsimp only
  split
  · next h =>
    split
    · next h1 =>
      refine ⟨by linarith, fun _ => ?_⟩
      have hs := share_le h.2
      have he : (0 : ℚ) < (effective o n interval : ℚ) := by exact_mod_cast Nat.pos_of_ne_zero h.1
      have e : rate * ((elapsed : ℚ) + (1000000 / rate * (effective o n interval - age : Nat) / effective o n interval - elapsed))
          = 1000000 * (((effective o n interval - age : Nat) : ℚ) / effective o n interval) := by
        field_simp
        ring
      rw [e]
      nlinarith
    · exact ⟨le_refl _, fun h => absurd rfl h⟩
  · exact ⟨le_refl _, fun h => absurd rfl h⟩

/-- C62: while a rate is fresh, a write and its pause together take the time the rate asks for, less
    the microsecond that is not worth a sleep. -/
theorem C62_back_reached {o : BackOpts} {n interval elapsed : Nat} {rate : ℚ} (hr : 0 < rate)
    (hi : effective o n interval ≠ 0) :
    1000000 ≤ rate * (elapsed + backPause o n interval 0 elapsed rate + 1) := by
  unfold backPause
  rw [if_neg (ne_of_gt hr)]
  dsimp only
  rw [if_pos ⟨hi, Nat.pos_of_ne_zero hi⟩]
  have he : (effective o n interval : ℚ) ≠ 0 := by exact_mod_cast hi
  have e : 1000000 / rate * ((effective o n interval - 0 : Nat) : ℚ) / (effective o n interval : ℚ) = 1000000 / rate := by
    rw [Nat.sub_zero]; field_simp
  rw [e]
  have e2 : rate * (1000000 / rate) = 1000000 := by field_simp
  split
  · nlinarith
  · next h =>
    have : 1000000 / rate ≤ elapsed + 1 := by linarith
    nlinarith

/-- C62: the pauses get shorter with time. -/
theorem C62_back_fades {o : BackOpts} {n interval age age' elapsed : Nat} {rate : ℚ} (hr : 0 < rate) (ha : age ≤ age') :
    backPause o n interval age' elapsed rate ≤ backPause o n interval age elapsed rate := by
  by_cases h' : effective o n interval ≠ 0 ∧ age' < effective o n interval
  · have h : effective o n interval ≠ 0 ∧ age < effective o n interval := ⟨h'.1, by omega⟩
    unfold backPause
    rw [if_neg (ne_of_gt hr), if_neg (ne_of_gt hr)]
    dsimp only
    rw [if_pos h, if_pos h']
    have he : (0 : ℚ) < (effective o n interval : ℚ) := by exact_mod_cast Nat.pos_of_ne_zero h.1
    have hle : ((effective o n interval - age' : Nat) : ℚ) ≤ (effective o n interval - age : Nat) := by
      exact_mod_cast (by omega : effective o n interval - age' ≤ effective o n interval - age)
    have hx : (0 : ℚ) ≤ 1000000 / rate := by positivity
    have key : 1000000 / rate * ((effective o n interval - age' : Nat) : ℚ) / (effective o n interval : ℚ) ≤
        1000000 / rate * ((effective o n interval - age : Nat) : ℚ) / (effective o n interval : ℚ) :=
      div_le_div_of_nonneg_right (mul_le_mul_of_nonneg_left hle hx) (le_of_lt he)
    split <;> split <;> linarith
  · have : backPause o n interval age' elapsed rate = 0 := by
      unfold backPause
      rw [if_neg (ne_of_gt hr)]
      dsimp only
      rw [if_neg h']
    rw [this]
    exact (C62_back_bound hr).1

/-- C62: five seconds after the last flush the pauses are over, or, if there are more log files than
    twice `flusherMinLogFilesToTrigger`, five seconds for each of these. -/
theorem C62_back_ends {o : BackOpts} {n interval age elapsed : Nat} {rate : ℚ}
    (ha : 5000 * max 1 (n - o.trigger * 2) ≤ age) : backPause o n interval age elapsed rate = 0 := by
  have hle : effective o n interval ≤ 5000 * max 1 (n - o.trigger * 2) := by
    unfold effective
    dsimp only
    have hm : min interval 5000 ≤ 5000 := Nat.min_le_right _ _
    split
    · exact Nat.mul_le_mul hm (Nat.le_max_right _ _)
    · have := Nat.le_max_left 1 (n - o.trigger * 2)
      omega
  unfold backPause
  split
  · rfl
  · dsimp only
    rw [if_neg (by omega)]

/-- C62 violation: the hard limit is set to 32.  With 100 log files writers are not stopped: the extreme
    throttling looks at 128 log files, whatever the limit is, and if the last flush took no measurable
    time there is no throttling at all. -/
theorem C62_back_hard_violation : ∃ o : BackOpts, o.logOnly = false ∧ o.hard = 32 ∧
    (∀ interval age elapsed flushed incoming, backPause o 100 interval age elapsed (newRate o 100 flushed incoming 0) = 0) ∧
    newRate o 100 1 0 1000000 = 1000000 := by
  refine ⟨{ hard := 32 }, rfl, rfl, fun interval age elapsed flushed incoming => ?_, ?_⟩
  · have : newRate { hard := 32 } 100 flushed incoming 0 = 0 := by
      unfold newRate extreme; simp
    rw [this]; unfold backPause; simp
  · unfold newRate extreme; simp

/-- C62 violation: there are 100000 log files, over every limit, and two flushes in the same
    millisecond: the rate has no effect. -/
theorem C62_back_interval_violation : ∃ o : BackOpts, o = {} ∧ o.hard < 100000 ∧
    0 < newRate o 100000 20000 5000 1000 ∧
    ∀ age elapsed rate, backPause o 100000 0 age elapsed rate = 0 := by
  refine ⟨{}, rfl, by decide, (C62_back_hard_partial rfl (by decide) (by decide) (by norm_num)).1, fun age elapsed rate => ?_⟩
  have : effective {} 100000 0 = 0 := by decide
  unfold backPause
  rw [this]
  simp

/-- C62 violation: in log-section mode the hard limit does nothing but choose the speed of the last flush. -/
theorem C62_back_log_only_violation {n flushed : Nat} {incoming slowest : ℚ} (hn : 128 < n) :
    newRate { logOnly := true } n flushed incoming slowest = slowest := by
  unfold newRate extreme
  simp [hn]

/-- C62 violation: the limits are 64 and 32: with 40 log files, below the soft limit, writers are slowed down. -/
theorem C62_back_soft_violation : ∃ o : BackOpts, o.soft = 64 ∧ backPause o 40 1000 0 10 (newRate o 40 20000 5000 1000) = 990 := by
  refine ⟨{ soft := 64, hard := 32 }, rfl, ?_⟩
  norm_num [newRate, backPause, effective, extreme]

-- C62: 20 log files, 5000 records per second written and 1000 flushed: a write that took 10
-- microseconds pauses 990, and half a second after a flush, with one second between flushes, 490.
example : newRate {} 20 20000 5000 1000 = 1000 ∧ backPause {} 20 1000 0 10 1000 = 990 ∧
    backPause {} 20 1000 500 10 1000 = 490 ∧ backPause {} 20 1000 5000 10 1000 = 0 ∧ newRate {} 16 20000 5000 1000 = 0 ∧
    newRate {} 138 1 0 5000 = 1000 := by
  refine ⟨?_, ?_, ?_, ?_, ?_, ?_⟩ <;> norm_num [newRate, backPause, effective, extreme]

end Jungle
