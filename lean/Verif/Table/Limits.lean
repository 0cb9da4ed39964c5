/-
  The size limits of tables and levels, and the number of writers of a job, as the configuration gives them.
-/
import Verif.Basic

namespace Jungle
namespace Limits

/-- A ratio of the configuration, `num / den`.  Simplified: ratios are exact fractions and the product is rounded
    down once; the code multiplies in `double`, which is the same while the numbers fit its 53 bits. -/
structure Ratio where
  num : Nat
  den : Nat
  pos : 0 < den

/-- `ret *= ratio` (src/db_config.cc:38-40, src/table_mgr.cc:926-928); `none`: the product does not fit 64 bits, and
    the conversion is undefined. -/
def scale (v : Nat) (r : Ratio) : Option Nat := if v * r.num / r.den < 2 ^ 64 then some (v * r.num / r.den) else none

/-- The ratio used in the step of the loop with this `vector_idx` (src/db_config.cc:31-41,
    src/table_mgr.cc:919-930). -/
def ratioAt (rs : List Ratio) (i : Nat) : Ratio :=
  if h : i < rs.length then rs[i] else rs.getLastD ⟨10, 1, by decide⟩

/-- The loop over the levels (src/db_config.cc:36-43, src/table_mgr.cc:924-931): the limit of level `n + 1`. -/
def upper (l1 : Nat) (rs : List Ratio) : Nat → Option Nat
  | 0 => some l1
  | n + 1 => (upper l1 rs n).bind fun v => scale v (ratioAt rs n)

/-- `DBConfig::getMaxTableSize` (src/db_config.cc:27-44). -/
def maxTableSize (l0 l1 : Nat) (rs : List Ratio) : Nat → Option Nat
  | 0 => some l0
  | n + 1 => upper l1 rs n

/-- `TableMgr::getLevelSizeLimit` (src/table_mgr.cc:910-933) with `levels` levels; the product for level 0 wraps. -/
def levelLimit (parts l0 l1 : Nat) (rs : List Ratio) (levels : Nat) (level : Nat) : Option Nat :=
  if levels ≤ level then some 0
  else match level with
    | 0 => some (parts * l0 % 2 ^ 64)
    | n + 1 => upper l1 rs n

/-- The check for an inter-level compaction of a level from 1 on with this working set size
    (`chkLPCompactCond`, src/table_compact_condition.cc:690-697), the level not being locked. -/
def overLimit (limit wss : Nat) : Bool := decide (limit < wss)

/-- `DBConfig::getMaxParallelWriters` (src/db_config.cc:46-68) when there is a `DBMgr`: `given` is
    `maxParallelWritesPerJob`, `jobs` the flusher and compactor threads, `writers` `numTableWriters`. -/
def maxParallelWriters (given : Nat) (readOnly : Bool) (jobs writers : Nat) : Nat :=
  if given ≠ 0 then given
  else if readOnly then 1
  else if jobs = 0 then 1
  else
    let ret := (writers + jobs * 2 - 1) / jobs
    if ret = 0 then 1
    else if ret = 1 ∧ writers ≠ 0 then 2
    else ret

/-! ### Lemmas -/

theorem scale_eq {v w : Nat} {r : Ratio} (h : scale v r = some w) : w = v * r.num / r.den ∧ w < 2 ^ 64 := by
  unfold scale at h
  split at h
  · next hl =>
    have e := Option.some.inj h
    exact ⟨e.symm, e ▸ hl⟩
  · cases h

theorem upper_succ {l1 : Nat} {rs : List Ratio} {n w : Nat} (h : upper l1 rs (n + 1) = some w) :
    ∃ v, upper l1 rs n = some v ∧ w = v * (ratioAt rs n).num / (ratioAt rs n).den := by
  unfold upper at h
  cases hv : upper l1 rs n with
  | none => rw [hv] at h; cases h
  | some v =>
    rw [hv] at h
    exact ⟨v, rfl, (scale_eq h).1⟩

theorem ratioAt_mem (rs : List Ratio) (i : Nat) (hne : rs ≠ []) : ratioAt rs i ∈ rs := by
  unfold ratioAt
  split
  · exact List.getElem_mem _
  · rw [List.getLastD_eq_getLast?, List.getLast?_eq_some_getLast hne]
    exact List.getLast_mem hne

theorem ratioAt_all {P : Ratio → Prop} (rs : List Ratio) (i : Nat) (h : ∀ r ∈ rs, P r) (h10 : P ⟨10, 1, by decide⟩) :
    P (ratioAt rs i) := by
  by_cases hne : rs = []
  · subst hne
    exact h10
  · exact h _ (ratioAt_mem rs i hne)

theorem scale_ge {v c : Nat} {r : Ratio} (h : c * r.den ≤ r.num) : c * v ≤ v * r.num / r.den := by
  rw [Nat.le_div_iff_mul_le r.pos]
  calc c * v * r.den = v * (c * r.den) := by rw [Nat.mul_comm c v, Nat.mul_assoc]
    _ ≤ v * r.num := Nat.mul_le_mul_left _ h

theorem scale_lt {v : Nat} {r : Ratio} (h : r.num < r.den) (hv : 0 < v) : v * r.num / r.den < v := by
  rw [Nat.div_lt_iff_lt_mul r.pos]
  exact Nat.mul_lt_mul_of_pos_left h hv

end Limits
end Jungle
