/-
  C78: size limits and numbers of writers.
-/
import Verif.Table.Limits

namespace Jungle
namespace Limits

/-- C78: each level from 2 on has the limit of the one before it times the ratio given for it, or the last given
    ratio, or 10 if none is given; for tables and for levels. -/
theorem C78_ratio (parts l0 l1 : Nat) (rs : List Ratio) (levels n : Nat) (hn : n + 2 < levels) (w : Nat)
    (h : levelLimit parts l0 l1 rs levels (n + 2) = some w) :
    ∃ v r, levelLimit parts l0 l1 rs levels (n + 1) = some v ∧ maxTableSize l0 l1 rs (n + 1) = some v ∧
      maxTableSize l0 l1 rs (n + 2) = some w ∧ w = v * r.num / r.den ∧
      (∀ x, rs[n]? = some x → r = x) ∧ (rs.length ≤ n → ∀ x, rs.getLast? = some x → r = x) ∧
      (rs = [] → r.num = 10 ∧ r.den = 1) := by
  unfold levelLimit at h ⊢
  rw [if_neg (by omega)] at h ⊢
  dsimp only at h ⊢
  obtain ⟨v, hv, hw⟩ := upper_succ h
  refine ⟨v, ratioAt rs n, hv, hv, h, hw, fun x hx => ?_, fun hl x hx => ?_, fun e => ?_⟩
  · obtain ⟨hl, e⟩ := List.getElem?_eq_some_iff.1 hx
    unfold ratioAt
    rw [dif_pos hl, e]
  · unfold ratioAt
    rw [dif_neg (by omega), List.getLastD_eq_getLast?, hx]
    rfl
  · subst e
    exact ⟨rfl, rfl⟩

/-- C78: levels 0 and 1 have the configured limits, level 0 that of all its partitions; a level that is not there has
    the limit 0. -/
theorem C78_base (parts l0 l1 : Nat) (rs : List Ratio) (levels : Nat) :
    maxTableSize l0 l1 rs 0 = some l0 ∧ maxTableSize l0 l1 rs 1 = some l1 ∧
      (1 < levels → levelLimit parts l0 l1 rs levels 1 = some l1) ∧
      (0 < levels → parts * l0 < 2 ^ 64 → levelLimit parts l0 l1 rs levels 0 = some (parts * l0)) ∧
      ∀ level, levels ≤ level → levelLimit parts l0 l1 rs levels level = some 0 := by
  refine ⟨rfl, rfl, fun h => ?_, fun h hp => ?_, fun level h => ?_⟩
  · unfold levelLimit
    rw [if_neg (by omega)]
    rfl
  · unfold levelLimit
    rw [if_neg (by omega)]
    dsimp only
    rw [Nat.mod_eq_of_lt hp]
  · unfold levelLimit
    rw [if_pos h]

/-- C78: if no ratio is below 1, no level has a smaller limit than the one before it. -/
theorem C78_monotone (l0 l1 : Nat) (rs : List Ratio) (h1 : ∀ r ∈ rs, r.den ≤ r.num) (a b v w : Nat) (hab : a ≤ b) (ha : 1 ≤ a)
    (hv : maxTableSize l0 l1 rs a = some v) (hw : maxTableSize l0 l1 rs b = some w) : v ≤ w := by
  obtain ⟨a, rfl⟩ : ∃ k, a = k + 1 := ⟨a - 1, by omega⟩
  obtain ⟨d, rfl⟩ : ∃ d, b = a + d + 1 := ⟨b - a - 1, by omega⟩
  change upper l1 rs a = some v at hv
  change upper l1 rs (a + d) = some w at hw
  clear hab ha
  induction d generalizing w with
  | zero =>
    rw [Nat.add_zero, hv] at hw
    exact Nat.le_of_eq (Option.some.inj hw)
  | succ d ih =>
    obtain ⟨u, hu, e⟩ := upper_succ (n := a + d) hw
    have hr : (ratioAt rs (a + d)).den ≤ (ratioAt rs (a + d)).num :=
      ratioAt_all (P := fun r => r.den ≤ r.num) rs _ h1 (by decide)
    have := scale_ge (v := u) (c := 1) (r := ratioAt rs (a + d)) (by omega)
    have := ih u hu
    omega

/-- C78: if no ratio is below 2, the limit of level `n + 1` is at least `2 ^ n`: a fixed number of levels is enough
    for every amount of data. -/
theorem C78_enough (l1 : Nat) (rs : List Ratio) (h2 : ∀ r ∈ rs, 2 * r.den ≤ r.num) (hl : 0 < l1) (n v : Nat)
    (h : upper l1 rs n = some v) : 2 ^ n ≤ v := by
  induction n generalizing v with
  | zero =>
    have := Option.some.inj h
    omega
  | succ n ih =>
    obtain ⟨u, hu, e⟩ := upper_succ h
    have hr : 2 * (ratioAt rs n).den ≤ (ratioAt rs n).num :=
      ratioAt_all (P := fun r => 2 * r.den ≤ r.num) rs _ h2 (by decide)
    have := scale_ge (v := u) (c := 2) (r := ratioAt rs n) hr
    have := ih u hu
    rw [Nat.pow_succ]
    omega

/-- C78 violation: the ratios are not checked when a database is opened.  With a last ratio below 1 the limits
    become 0, and from there on every level that is not empty is over its limit: its tables are pushed down for ever. -/
theorem C78_vanishes_violation (l1 : Nat) (r : Ratio) (hr : r.num < r.den) (hl : l1 < 2 ^ 64) :
    ∃ n, ∀ m, n ≤ m → upper l1 [r] m = some 0 ∧ ∀ wss, 0 < wss → overLimit 0 wss = true := by
  have hat : ∀ i, ratioAt [r] i = r := fun i => by
    have := ratioAt_mem [r] i (by simp)
    simpa using this
  have hstep : ∀ i v, v < 2 ^ 64 → upper l1 [r] i = some v → ∃ u, upper l1 [r] (i + 1) = some u ∧ u ≤ v - 1 := by
    intro i v hv64 hv
    have hlt : v * r.num / r.den ≤ v - 1 := by
      rcases Nat.eq_zero_or_pos v with e | e
      · subst e; simp
      · have := scale_lt hr e
        omega
    refine ⟨v * r.num / r.den, ?_, hlt⟩
    rw [upper, hv, hat]
    show scale v r = _
    unfold scale
    rw [if_pos (Nat.lt_of_le_of_lt hlt (Nat.lt_of_le_of_lt (Nat.sub_le _ _) hv64))]
  have hall : ∀ i, ∃ v, upper l1 [r] i = some v ∧ v ≤ l1 - i := by
    intro i
    induction i with
    | zero => exact ⟨l1, rfl, Nat.le_refl _⟩
    | succ i ih =>
      obtain ⟨v, hv, hle⟩ := ih
      obtain ⟨u, hu, hle'⟩ := hstep i v (Nat.lt_of_le_of_lt hle (Nat.lt_of_le_of_lt (Nat.sub_le _ _) hl)) hv
      exact ⟨u, hu, by omega⟩
  refine ⟨l1, fun m hm => ⟨?_, fun wss hw => by simpa [overLimit] using hw⟩⟩
  obtain ⟨v, hv, hle⟩ := hall m
  have : v = 0 := by omega
  rw [hv, this]

/-- C78 violation: with the defaults (1 TiB, ratio 10) the limit of level 9 does not fit 64 bits. -/
theorem C78_overflow_violation : levelLimit 4 1073741824 (1024 * 1073741824) [⟨10, 1, by decide⟩] 10 8 = some (1024 * 1073741824 * 10 ^ 7) ∧
    levelLimit 4 1073741824 (1024 * 1073741824) [⟨10, 1, by decide⟩] 10 9 = none := by
  constructor <;> rfl

/-- C78: a job has at least one writer, and the given number if there is one. -/
theorem C78_writers (given jobs writers : Nat) (ro : Bool) : 1 ≤ maxParallelWriters given ro jobs writers ∧
    (given ≠ 0 → maxParallelWriters given ro jobs writers = given) := by
  unfold maxParallelWriters
  constructor
  · dsimp only
    split
    · omega
    · split
      · omega
      · split
        · omega
        · split
          · omega
          · next h => split <;> exact Nat.one_le_iff_ne_zero.2 (by first | exact h | decide)
  · intro h
    rw [if_pos h]

/-- C78: the number is one more than the rounded up share of the writers, so that all jobs together ask for more
    writers than there are. -/
theorem C78_share (jobs writers : Nat) (hj : 0 < jobs) (hw : 0 < writers) :
    writers + jobs ≤ jobs * maxParallelWriters 0 false jobs writers := by
  have h1 : (writers + jobs * 2 - 1) / jobs = (writers + jobs - 1) / jobs + 1 := by
    rw [show writers + jobs * 2 - 1 = writers + jobs - 1 + jobs by omega, Nat.add_div_right _ hj]
  have h2 : 1 ≤ (writers + jobs - 1) / jobs := by
    rw [Nat.le_div_iff_mul_le hj]
    omega
  have h3 := Nat.div_add_mod (writers + jobs - 1) jobs
  have h4 := Nat.mod_lt (writers + jobs - 1) hj
  unfold maxParallelWriters
  rw [if_neg (by simp), if_neg (by simp), if_neg (by omega)]
  dsimp only
  rw [if_neg (by omega), if_neg (by omega), h1, Nat.mul_add]
  omega

namespace LimEx

/-- Ratios 5/2 and 4. -/
example : (List.range 5).map (maxTableSize 1024 2560 [⟨5, 2, by decide⟩, ⟨4, 1, by decide⟩]) =
    [some 1024, some 2560, some 6400, some 25600, some 102400] := by decide +kernel
example : ∀ r ∈ ([⟨5, 2, by decide⟩, ⟨4, 1, by decide⟩] : List Ratio), 2 * r.den ≤ r.num := by decide
example : levelLimit 4 1024 2560 [⟨5, 2, by decide⟩] 4 2 = some 6400 := by decide +kernel
example : upper 100 [⟨1, 2, by decide⟩] 7 = some 0 := by decide +kernel
example : maxParallelWriters 0 false 5 8 = 3 := by decide

end LimEx

end Limits
end Jungle
