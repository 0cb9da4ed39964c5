/-
  C59: flushes and compactions that run at the same time share the threads that write table files; each
  of them returns, and only when each of its jobs has been done exactly once.

  `Writer.Reach g C s`: `s` is a state of some schedule of `C` calls, `g` gives the number of writer
  threads, of jobs of each call, and its limit.  `s.written c`: the jobs of call `c` written so far, in
  order.  A job of a flush is a partition of level 0, a job of a compaction is a target table.
-/
import Verif.Writer.Lemmas
import Verif.Writer.Tables
import Verif.Table.Lsm
import Verif.DB.Script

namespace Jungle.Writer

/-- The number of parallel writers of a call is never 0 (`request` subtracts 1 from it). -/
theorem C59_max_writers (perJob : Nat) (readOnly : Bool) (writers flushers compactors : Nat) :
    1 ≤ maxParallelWriters perJob readOnly writers flushers compactors := by
  unfold maxParallelWriters
  simp only
  repeat' split
  all_goals first | exact Nat.le_refl _ | omega | exact Nat.pos_of_ne_zero ‹_›

section
variable {g : Conf} {C : Nat} {s : Sys}

/-- **C59, exclusive.**  No writer works for two calls, and a writer that gets a job has no other
    one. -/
theorem C59_exclusive (h : Reach g C s) :
    (∀ c c' w, w ∈ (s.pc c).ws → w ∈ (s.pc c').ws → c = c') ∧
    (∀ c ii ws jj w, s.pc c = .put ii ws jj → ws[jj - ii]? = some w → s.slot w = none) :=
  ⟨h.inv.disj, fun _ _ _ _ _ h1 h2 => h.inv.empty h1 h2⟩

/-- **C59, limit.**  A call never uses more threads than its limit, its own included. -/
theorem C59_limit (h : Reach g C s) (c : Nat) (hc : 1 ≤ g.mx c) : (s.pc c).ws.length + 1 ≤ g.mx c :=
  h.limit c hc

theorem written_mem {c j : Nat} : j ∈ s.written c ↔ (c, j) ∈ s.done := by
  unfold Sys.written
  rw [List.mem_map]
  constructor
  · rintro ⟨⟨a, b⟩, h1, rfl⟩
    obtain ⟨h1, h2⟩ := List.mem_filter.1 h1
    have h3 : a = c := by simpa using h2
    rw [← h3]; exact h1
  · intro h
    exact ⟨(c, j), List.mem_filter.2 ⟨h, by simp⟩, rfl⟩

theorem written_nodup (h : Inv g C s) (c : Nat) : (s.written c).Nodup := by
  unfold Sys.written
  refine List.Nodup.map_on ?_ (h.nd.filter _)
  rintro ⟨a, b⟩ ha ⟨a', b'⟩ ha' he
  have h1 : a = c := by simpa using (List.mem_filter.1 ha).2
  have h2 : a' = c := by simpa using (List.mem_filter.1 ha').2
  subst h1; subst h2
  simp only at he; rw [he]

/-- **C59, exactly once.**  When a call returns, its jobs have been done, each once: what was written is
    a rearrangement of the list of its jobs.  At every moment no job has been done twice. -/
theorem C59_exactly_once (h : Reach g C s) {c : Nat} (hc : c < C) :
    (s.written c).Nodup ∧ (∀ j ∈ s.written c, j < g.n c ∧ g.skip c j = false) ∧
    (s.pc c = .fin → (s.written c).Perm ((List.range (g.n c)).filter (fun j => !g.skip c j))) := by
  have hi := h.inv
  refine ⟨written_nodup hi c, ?_, ?_⟩
  · intro j hj
    obtain ⟨h1, h2, -⟩ := (hi.done c hc j).1 (written_mem.1 hj)
    refine ⟨?_, h2⟩
    have hok := hi.ok c
    cases hpc : s.pc c with
    | start ii => rw [hpc] at hok h1; exact Nat.lt_of_lt_of_le h1 hok.1
    | put ii ws jj =>
      rw [hpc] at hok h1
      have h3 : j < jj := h1
      have := hok.2.1; have := hok.2.2.1; omega
    | wait ii ws i =>
      rw [hpc] at hok h1
      have h3 : j < ii + ws.length + 1 := h1
      have := hok.2.1; omega
    | fin => rw [hpc] at h1; exact h1
  · intro hf
    refine (List.perm_ext_iff_of_nodup (written_nodup hi c) (List.nodup_range.filter _)).2 ?_
    intro j
    rw [written_mem, hi.done c hc j, hf, List.mem_filter, List.mem_range]
    constructor
    · rintro ⟨h1, h2, -⟩; exact ⟨h1, by simp [h2]⟩
    · rintro ⟨h1, h2⟩
      refine ⟨h1, by simpa using h2, ?_⟩
      rintro ⟨w, hw⟩
      have := hi.pend w _ _ hw
      rw [hf] at this; exact this.elim

/-- **C59, every call returns.**  There is a bound on the number of steps of all schedules, and as long as
    a call has not returned some thread can make a step: no call waits for ever, with any number of
    writers, also 0. -/
theorem C59_returns (g : Conf) (C : Nat) :
    (∃ N, ∀ m s, Run g C m s → m ≤ N) ∧
    (∀ s c, Reach g C s → s.pc c ≠ .fin → ∃ s', Step g s s') := by
  refine ⟨⟨measure g C (init C), fun m s h => ?_⟩, fun s c _ hc => enabled hc⟩
  have := h.bound; omega

/-- So every schedule, from wherever it is, can be continued until all calls have returned. -/
theorem C59_all_return (h : Reach g C s) : ∃ s', Reach g C s' ∧ ∀ c, s'.pc c = .fin := by
  generalize hm : measure g C s = m
  induction m using Nat.strongRecOn generalizing s with
  | ind m ih =>
    by_cases hf : ∀ c, s.pc c = .fin
    · exact ⟨s, h, hf⟩
    · obtain ⟨c, hc⟩ := Classical.not_forall.1 hf
      obtain ⟨s', hs⟩ := enabled (g := g) hc
      exact ih _ (by rw [← hm]; exact h.inv.decreases hs) (h.step hs) rfl

section
variable {K : Type} [LinearOrder K] [OrderBot K]

/-- **C59, flush.**  Call `c` is the flush of a batch into tables `t`, one job for each partition.  When it
    returns, the tables are those of a flush that writes the partitions one after the other, whatever
    the schedule and whatever the other calls. -/
theorem C59_flush_sequential (h : Reach g C s) {c : Nat} (hc : c < C) (hf : s.pc c = .fin)
    {cfg : TCfg K} {t : TMgr K} (ht : TMgr.Inv cfg t) (R : List (Rec K))
    (hn : g.n c = t.parts) (hs : ∀ j, g.skip c j = false) :
    (s.written c).foldl (fun t p => TMgr.setBatchPart cfg t R p) t = TMgr.setBatch cfg t R := by
  obtain ⟨h1, h2, h3⟩ := C59_exactly_once h hc
  rw [TMgr.setBatch_perm R (h3 hf) ht h1 (fun p hp => by rw [← hn]; exact (h2 p hp).1)]
  unfold TMgr.setBatch
  rw [hn, List.filter_eq_self.2 (fun j _ => by simp [hs j])]

/-- **C59, flush that is interrupted.**  At every moment the tables are in a state that the model of crashes
    allows: some of the partitions have been written, the others not. -/
theorem C59_flush_torn (h : Reach g C s) {c : Nat} (hc : c < C) {cfg : TCfg K} {parts : Nat} {hp : 0 < parts}
    (t : TMgr K) (R : List (Rec K)) (cps : List Nat) (hn : g.n c = t.parts) :
    (Lsm cfg parts hp).torn t R cps ((s.written c).foldl (fun t p => TMgr.setBatchPart cfg t R p) t) := by
  obtain ⟨h1, h2, -⟩ := C59_exactly_once h hc
  exact ⟨s.written c, h1, fun p hp => by rw [← hn]; exact (h2 p hp).1, rfl⟩

end
end

/-! ### Examples -/

namespace WriterEx

/-- Two writers; a flush with three partitions and one with two. -/
def g : Conf where
  W := 2
  n c := if c = 0 then 3 else 2
  mx _ := 2
  skip _ _ := false

/-- Both calls have leased a writer; the second call has done its own job before the writer does the
    other one. -/
theorem both : ∃ s, Reach g 2 s ∧ (s.pc 0).ws = [0] ∧ (s.pc 1).ws = [1] ∧ s.written 1 = [1, 0] :=
  ⟨_, ((((Reach.init.step (.lease _ 0 0 rfl (by decide))).step (.lease _ 1 0 rfl (by decide))).step
    (.give _ 1 0 [1] 0 1 rfl rfl rfl)).step (.own _ 1 0 [1] 1 rfl rfl)).step (.run _ 1 (1, 0) rfl), rfl, rfl, rfl⟩

/-- A third call finds no writer and does its jobs itself. -/
example : ∃ s, Reach g 3 s ∧ s.pc 2 = .put 0 [] 0 :=
  ⟨_, ((Reach.init.step (.lease _ 0 0 rfl (by decide))).step (.lease _ 1 0 rfl (by decide))).step
    (.lease _ 2 0 rfl (by decide)), rfl⟩

/-- From there both calls return, and everything is written. -/
example : ∃ s, Reach g 2 s ∧ s.pc 0 = .fin ∧ (s.written 0).Perm [0, 1, 2] ∧ (s.written 1).Perm [0, 1] := by
  obtain ⟨s0, h0, -⟩ := both
  obtain ⟨s, h, hf⟩ := C59_all_return h0
  exact ⟨s, h, hf 0, (C59_exactly_once h (by decide)).2.2 (hf 0), (C59_exactly_once h (by decide)).2.2 (hf 1)⟩

/-- The tables of a database with two partitions, after the second call has written its partitions in the
    order 1, 0. -/
def cT : TCfg Nat := { hash := fun k => k }
def R : List (Rec Nat) := [{ seq := 1, type := .insertion, key := 4, val := [1] },
  { seq := 2, type := .insertion, key := 5, val := [2] }]
example : ∃ s, Reach g 2 s ∧ s.pc 1 = .fin ∧
    (((s.written 1).foldl (fun t p => TMgr.setBatchPart cT t R p) (TMgr.init 2)).get cT 5).map (·.val) = some [2] := by
  obtain ⟨s0, h0, -⟩ := both
  obtain ⟨s, h, hf⟩ := C59_all_return h0
  refine ⟨s, h, hf 1, ?_⟩
  rw [C59_flush_sequential h (by decide) (hf 1) (t := TMgr.init 2) (TMgr.inv_init cT (by decide)) R rfl (fun _ => rfl)]
  decide +kernel

end WriterEx
end Jungle.Writer
