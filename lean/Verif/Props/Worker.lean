/-
  C61: the background flusher and compactor serve every DB and partition that needs it.
  C62: the throttling pauses are those of the options.
-/
import Verif.Worker.Pick
import Verif.Worker.Throttle

namespace Jungle
open Pick

/-! ### C61 -/

/-- The flusher does nothing in a round only if no DB needs flushing, and what it flushes needs it. -/
theorem C61_work_conserving {need : Nat → Nat → Bool} {n t : Nat} :
    (pickedAt need n t = none ↔ ∀ d < n, need t d = false) ∧
    ∀ d, pickedAt need n t = some d → d < n ∧ need t d = true :=
  ⟨round_none, fun _ h => ⟨(round_some h).1, (round_some h).2.1⟩⟩

/-- While the set of open DBs stays the same, a DB that needs flushing in `n` rounds in a row is
    flushed in one of them, whatever the other DBs need. -/
theorem C61_flusher_fair {need : Nat → Nat → Bool} {n d : Nat} (hd : d < n) (t : Nat)
    (hn : ∀ j < n, need (t + j) d = true) : ∃ j < n, pickedAt need n (t + j) = some d := by
  have ha := ahead_lt (n := n) (last := lastAt need n t) (d := d) (by omega)
  obtain ⟨j, hj, h⟩ := picked_within (need := need) hd (n - 1) t (by omega) (fun j hj => hn j (by omega))
  exact ⟨j, by omega, h⟩

/-- The same for the compactor: a DB that has, in `n` rounds in a row, some level-0 partition to
    compact gets one compacted in one of them. -/
theorem C61_compactor_fair {need : Nat → Nat → Nat → Bool} {p : Nat → Nat} {n d : Nat} (hd : d < n) (t : Nat)
    (hn : ∀ j < n, ∃ i < p d, need (t + j) d i = true) :
    ∃ j < n, ∃ h < p d, need (t + j) d h = true ∧ compacted need p n (t + j) = some (d, h) := by
  have ha := ahead_lt (n := n) (last := (compAt need p n t).lastDb) (d := d) (by omega)
  obtain ⟨j, hj, h⟩ := compacted_db_within (need := need) (p := p) hd (n - 1) t (by omega) (fun j hj => hn j (by omega))
  exact ⟨j, by omega, h⟩

/-- Full claim: a partition that needs compaction in enough rounds in a row is compacted.  Proved
    for one DB; false for two (`C61_partition_starves_violation`). -/
theorem C61_partition_fair_partial {need : Nat → Nat → Nat → Bool} {p : Nat → Nat} {i : Nat} (hi : i < p 0) (t : Nat)
    (hn : ∀ j < p 0, need (t + j) 0 i = true) : ∃ j < p 0, compacted need p 1 (t + j) = some (0, i) := by
  have ha := ahead_lt (n := p 0) (last := (compAt need p 1 t).lastPart) (d := i) (by omega)
  obtain ⟨j, hj, h⟩ := compacted_within (need := need) (p := p) hi (p 0 - 1) t (by omega) (fun j hj => hn j (by omega))
  exact ⟨j, by omega, h⟩

namespace PickEx
/-- two DBs with two partitions each, all of them always to be compacted -/
def need : Nat → Nat → Nat → Bool := fun _ _ _ => true
def p : Nat → Nat := fun _ => 2

theorem states (t : Nat) : compAt need p 2 (2 * t + 1) = ⟨0, 1⟩ ∧ compAt need p 2 (2 * t + 2) = ⟨1, 0⟩ := by
  induction t with
  | zero => exact ⟨by decide, by decide⟩
  | succ t ih =>
    have h1 : compAt need p 2 (2 * (t + 1) + 1) = ⟨0, 1⟩ := by
      show (cround (need _) p 2 (compAt need p 2 (2 * t + 2))).2 = _
      rw [ih.2]; rfl
    refine ⟨h1, ?_⟩
    show (cround (need _) p 2 (compAt need p 2 (2 * (t + 1) + 1))).2 = _
    rw [h1]; rfl
end PickEx

/-- `lastCompactedHashNum` is one number for all DBs (src/compactor.h): with two DBs of two
    partitions that all need compaction all the time, the first DB's partition 0 never is. -/
theorem C61_partition_starves_violation : ∃ (need : Nat → Nat → Nat → Bool) (p : Nat → Nat),
    p 0 = 2 ∧ p 1 = 2 ∧ (∀ t, need t 0 0 = true) ∧ ∀ t, compacted need p 2 t ≠ some (0, 0) := by
  refine ⟨PickEx.need, PickEx.p, rfl, rfl, fun _ => rfl, fun t => ?_⟩
  cases t with
  | zero => decide +kernel
  | succ t =>
    obtain ⟨k, rfl | rfl⟩ : ∃ k, t = 2 * k ∨ t = 2 * k + 1 := ⟨t / 2, by omega⟩
    · show (cround (PickEx.need _) PickEx.p 2 (compAt PickEx.need PickEx.p 2 (2 * k + 1))).1 ≠ _
      rw [(PickEx.states k).1]; exact (by decide +kernel : some (1, 0) ≠ some (0, 0))
    · show (cround (PickEx.need _) PickEx.p 2 (compAt PickEx.need PickEx.p 2 (2 * k + 2))).1 ≠ _
      rw [(PickEx.states k).2]; exact (by decide +kernel : some (0, 1) ≠ some (0, 0))

/-- Three DBs, the first always in need, the third now and then. -/
example : (List.range 5).map (pickedAt (fun t d => d == 0 || (d == 2 && t % 3 == 1)) 3) =
    [some 0, some 2, some 0, some 0, some 2] := by decide +kernel

example : (List.range 4).map (compacted (fun _ _ i => i != 1) (fun _ => 3) 1) =
    [some (0, 2), some (0, 0), some (0, 2), some (0, 0)] := by decide +kernel

/-! ### C62 -/

open Throttle

/-- Writers never pause longer than the configured maximum, whatever the options. -/
theorem C62_pause_bounded {o : Opts} {total old v : Nat} (h : next o total old = some v) : pause o v ≤ o.maxMs := by
  unfold next at h; unfold pause
  split at h
  · next h0 => rw [if_pos h0]; omega
  · next h0 =>
    rw [if_neg h0]
    split at h
    · dsimp only at h
      split at h
      · exact absurd h (by simp)
      · injection h with h; subst h; split <;> omega
    · injection h with h; omega

/-- No pause while there are no more log files than `startNumLogs`, or when the maximum is 0. -/
theorem C62_no_pause {o : Opts} {total old v : Nat} (h : next o total old = some v)
    (hn : total ≤ o.start ∨ o.maxMs = 0) : pause o v = 0 := by
  unfold next at h; unfold pause
  split at h
  · next h0 => rw [if_pos h0]
  · next h0 =>
    rw [if_neg h0, if_neg (by omega)] at *
    injection h with h; exact h.symm

theorem Throttle.next_eq {o : Opts} {total old : Nat} (hs : o.start < o.limit) (hl : o.limit < 2 ^ 32) (hm : o.maxMs ≠ 0)
    (ht : o.start < total) (hsmall : (total - o.start) * o.maxMs < 2 ^ 32) :
    next o total old = some (min ((total - o.start) * o.maxMs / (o.limit - o.start)) o.maxMs) := by
  have hden : u32 (o.limit + (2 ^ 32 - o.start)) = o.limit - o.start := by
    unfold u32
    rw [show o.limit + (2 ^ 32 - o.start) = (o.limit - o.start) + 2 ^ 32 by omega, Nat.add_mod_right]
    exact Nat.mod_eq_of_lt (by omega)
  have hdiv : (total - o.start) * o.maxMs / (o.limit - o.start) ≤ (total - o.start) * o.maxMs := Nat.div_le_self _ _
  unfold next
  rw [if_neg hm, if_pos ht]
  dsimp only
  rw [hden, if_neg (by omega)]
  have h64 : u64 ((total - o.start) * o.maxMs) = (total - o.start) * o.maxMs := Nat.mod_eq_of_lt (by omega)
  rw [h64]
  have h32 : u32 ((total - o.start) * o.maxMs / (o.limit - o.start)) = (total - o.start) * o.maxMs / (o.limit - o.start) :=
    Nat.mod_eq_of_lt (by omega)
  rw [h32]
  congr 1
  by_cases h : (total - o.start) * o.maxMs / (o.limit - o.start) > o.maxMs
  · rw [if_pos h, Nat.min_eq_right (by omega)]
  · rw [if_neg h, Nat.min_eq_left (by omega)]

/-- From `limitNumLogs` on the pause is the maximum, and more log files never mean a shorter
    pause.  Full claim: for all options.  Proved for `startNumLogs < limitNumLogs` and products
    below 2^32; false otherwise, see the violations. -/
theorem C62_pause_partial {o : Opts} {a b old old' va vb : Nat} (hs : o.start < o.limit) (hl : o.limit < 2 ^ 32)
    (hm : o.maxMs ≠ 0) (hab : a ≤ b) (hsmall : (b - o.start) * o.maxMs < 2 ^ 32)
    (ha : next o a old = some va) (hb : next o b old' = some vb) :
    pause o va ≤ pause o vb ∧ (o.limit ≤ b → pause o vb = o.maxMs) := by
  have hp : ∀ v, pause o v = v := fun v => by unfold pause; rw [if_neg hm]
  rw [hp, hp]
  by_cases hb0 : o.start < b
  · rw [next_eq hs hl hm hb0 hsmall] at hb
    injection hb with hb; subst hb
    constructor
    · by_cases ha0 : o.start < a
      · have hle : (a - o.start) * o.maxMs ≤ (b - o.start) * o.maxMs := Nat.mul_le_mul_right _ (by omega)
        rw [next_eq hs hl hm ha0 (by omega)] at ha
        injection ha with ha; subst ha
        have := Nat.div_le_div_right (c := o.limit - o.start) hle
        exact Nat.le_min.2 ⟨Nat.le_trans (Nat.min_le_left _ _) this, Nat.min_le_right _ _⟩
      · have : pause o va = 0 := C62_no_pause ha (Or.inl (by omega))
        rw [hp] at this; rw [this]; exact Nat.zero_le _
    · intro hlim
      apply Nat.min_eq_right
      rw [Nat.le_div_iff_mul_le (by omega), Nat.mul_comm]
      exact Nat.mul_le_mul_right _ (by omega)
  · have h1 : pause o va = 0 := C62_no_pause ha (Or.inl (by omega))
    have h2 : pause o vb = 0 := C62_no_pause hb (Or.inl (by omega))
    rw [hp] at h1 h2
    exact ⟨by omega, fun h => by omega⟩

example : next ⟨256, 512, 100⟩ 384 0 = some 50 ∧ next ⟨256, 512, 100⟩ 1000 50 = some 100 := by decide +kernel

/-- Equal bounds, an on-off rule: the flusher divides by zero and the process dies. -/
theorem C62_equal_bounds_violation : ∃ o : Opts, o.start = o.limit ∧ o.maxMs = 100 ∧ next o 300 0 = none :=
  ⟨⟨256, 256, 100⟩, rfl, rfl, by decide +kernel⟩

/-- Bounds in the wrong order: writers never pause, however many log files there are. -/
theorem C62_swapped_bounds_violation : ∃ o : Opts, o.limit < o.start ∧ o.maxMs = 100 ∧ next o 1000000 0 = some 0 :=
  ⟨⟨512, 256, 100⟩, by decide, rfl, by decide +kernel⟩

/-- A compaction throttled by factor `f` works at most `100 - f` percent of the time (f at most 99)
    up to a millisecond of rounding, and is not slowed down further. -/
theorem C62_compaction_share {resolution factor elapsed : Nat} (hr : resolution ≠ 0) (hf : factor ≠ 0)
    (he : resolution ≤ elapsed) (hsmall : elapsed * 99 < 2 ^ 64) :
    elapsed * 100 ≤ (elapsed + (compactionSleep resolution factor elapsed + 1)) * (100 - min factor 99) ∧
    (elapsed + compactionSleep resolution factor elapsed) * (100 - min factor 99) ≤ elapsed * 100 := by
  have hmin : min factor 99 ≤ 99 := Nat.min_le_right _ _
  have hle : elapsed * min factor 99 ≤ elapsed * 99 := Nat.mul_le_mul_left _ hmin
  have e : compactionSleep resolution factor elapsed = elapsed * min factor 99 / (100 - min factor 99) := by
    unfold compactionSleep
    rw [if_pos ⟨hr, hf, he⟩]
    show u64 (elapsed * min factor 99) / _ = _
    rw [show u64 (elapsed * min factor 99) = elapsed * min factor 99 from Nat.mod_eq_of_lt (by omega)]
  rw [e]
  generalize min factor 99 = f at *
  have hg : 0 < 100 - f := by omega
  have h1 := Nat.lt_div_mul_add hg (a := elapsed * f)
  have h2 := Nat.div_mul_le_self (elapsed * f) (100 - f)
  have h3 : elapsed * (100 - f) + elapsed * f = elapsed * 100 := by
    rw [← Nat.mul_add, show 100 - f + f = 100 by omega]
  constructor
  · rw [Nat.add_mul, Nat.add_mul, Nat.one_mul]; omega
  · rw [Nat.add_mul]; omega

example : compactionSleep 200 80 200 = 800 := by decide +kernel

end Jungle
