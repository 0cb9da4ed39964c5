/-
  C46: writers never wait for each other for ever.
-/
import Verif.Conc.LockOrder

namespace Jungle
set_option linter.unusedSectionVars false
open LockOrder
variable {P : Type} [LinearOrder P] {B : Type}

theorem LockOrder.Reach.sorted {w : Nat → List P} (hw : ∀ i, (w i).Pairwise (· < ·)) {s : St P} {t : Nat}
    (h : Reach w s t) (i : Nat) : ((s i).held ++ (s i).todo).Pairwise (· < ·) := by
  induction h generalizing i with
  | init => exact hw i
  | step h st ih =>
    rename_i s s' j t
    cases st with
    | lock e _ =>
      unfold St.set
      split
      · have := ih j
        rw [e] at this
        simpa using this
      · exact ih i
    | unlock e1 e2 =>
      unfold St.set
      split
      · have := ih j
        rw [e1, e2] at this
        simp only [List.append_nil] at this ⊢
        exact (List.pairwise_cons.1 this).2
      · exact ih i

theorem LockOrder.Reach.outside {w : Nat → List P} {s : St P} {t : Nat} (h : Reach w s t) {i : Nat} (hi : w i = []) :
    (s i).Done := by
  induction h with
  | init => exact ⟨rfl, hi⟩
  | step h st ih =>
    rename_i s s' j t
    cases st with
    | lock e _ =>
      unfold St.set
      split
      · rename_i hij; subst hij; rw [ih.2] at e; cases e
      · exact ih
    | unlock e1 e2 =>
      unfold St.set
      split
      · rename_i hij; subst hij; rw [ih.1] at e2; cases e2
      · exact ih

/-- Steps a thread has still to do. -/
def LockOrder.Th.work (t : Th P) : Nat := t.held.length + 2 * t.todo.length

theorem LockOrder.Step.work {s s' : St P} {i : Nat} (h : Step s i s') :
    (s' i).work + 1 = (s i).work ∧ ∀ j, j ≠ i → s' j = s j := by
  cases h with
  | lock e _ =>
    refine ⟨?_, fun j hj => by simp [St.set, hj]⟩
    simp only [St.set, if_true, Th.work, e, List.length_append, List.length_cons, List.length_nil]; omega
  | unlock e1 e2 =>
    refine ⟨?_, fun j hj => by simp [St.set, hj]⟩
    simp only [St.set, if_true, Th.work, e1, e2, List.length_cons, List.length_nil]

theorem LockOrder.sum_step (f g : Nat → Nat) (i : Nat) (n : Nat) (hi : i < n) (h1 : g i + 1 = f i)
    (h2 : ∀ j, j ≠ i → g j = f j) : ((List.range n).map g).sum + 1 = ((List.range n).map f).sum := by
  induction n with
  | zero => omega
  | succ n ih =>
    rw [List.range_succ, List.map_append, List.map_append, List.sum_append, List.sum_append]
    simp only [List.map_cons, List.map_nil, List.sum_cons, List.sum_nil]
    by_cases hn : i = n
    · have : (List.range n).map g = (List.range n).map f :=
        List.map_congr_left fun j hj => h2 j (by have := List.mem_range.1 hj; omega)
      rw [this, ← hn]; omega
    · have := ih (by omega)
      rw [h2 n (Ne.symm hn)]; omega

/-- C46: `n` threads each execute a global batch, built from any list of DBs and batches in any order,
    or write to a single DB.  In every reachable state either all of them are done, or one of them can
    go on; and no execution has more steps than two for each mutex that is wanted. -/
theorem C46_no_deadlock (n : Nat) (xs : Nat → List (Bool × P × B)) {s : St P} {t : Nat}
    (h : Reach (fun i => if i < n then (PairList.ofList (xs i)).locks else []) s t) :
    ((∀ i, i < n → (s i).Done) ∨ ∃ i s', i < n ∧ Step s i s') ∧
    t ≤ 2 * ((List.range n).map (fun i => (PairList.ofList (xs i)).locks.length)).sum := by
  have hsort := fun i => h.sorted (fun i => by
    by_cases hi : i < n
    · simp only [hi, if_true]; exact PairList.locks_sorted _
    · simp only [hi, if_false]; exact List.Pairwise.nil) i
  constructor
  · by_contra hc
    push Not at hc
    obtain ⟨⟨i0, hi0, hd0⟩, hstuck⟩ := hc
    -- every thread that is not done waits for a mutex that another one holds
    have hwait : ∀ i, i < n → ¬ (s i).Done → ∃ l ls j, (s i).todo = l :: ls ∧ j < n ∧ ¬ (s j).Done ∧ l ∈ (s j).held := by
      intro i hi hd
      cases ht : (s i).todo with
      | nil =>
        cases hh : (s i).held with
        | nil => exact absurd ⟨hh, ht⟩ hd
        | cons l ls => exact absurd (Step.unlock ht hh) (hstuck i _ hi)
      | cons l ls =>
        by_cases hfree : ∀ j, l ∉ (s j).held
        · exact absurd (Step.lock ht hfree) (hstuck i _ hi)
        · push Not at hfree
          obtain ⟨j, hj⟩ := hfree
          have hnd : ¬ (s j).Done := fun hd' => by rw [hd'.1] at hj; cases hj
          refine ⟨l, ls, j, rfl, ?_, hnd, hj⟩
          by_contra hjn
          exact hnd (h.outside (by simp [hjn]))
    let W : Finset Nat := (Finset.range n).filter (fun i => (s i).todo ≠ [] )
    have hW : W.Nonempty := by
      obtain ⟨l, ls, j, e, _⟩ := hwait i0 hi0 hd0
      exact ⟨i0, Finset.mem_filter.2 ⟨Finset.mem_range.2 hi0, by rw [e]; simp⟩⟩
    obtain ⟨l0, _⟩ := hwait i0 hi0 hd0
    have : Inhabited P := ⟨l0⟩
    obtain ⟨i, hiW, hmax⟩ := Finset.exists_max_image W (fun i => ((s i).todo.head?).getD default) hW
    obtain ⟨hin, hit⟩ := Finset.mem_filter.1 hiW
    have hin := Finset.mem_range.1 hin
    obtain ⟨l, ls, j, e, hj, hjd, hl⟩ := hwait i hin (fun hd => hit hd.2)
    obtain ⟨l', ls', j', e', hj', _, _⟩ := hwait j hj hjd
    have hle := hmax j (Finset.mem_filter.2 ⟨Finset.mem_range.2 hj, by rw [e']; simp⟩)
    simp only [e, e', List.head?_cons, Option.getD_some] at hle
    have hlt := (List.pairwise_append.1 (hsort j)).2.2 l hl l' (by rw [e']; simp)
    exact absurd hlt (not_lt.2 hle)
  · have key : t + ((List.range n).map (fun i => (s i).work)).sum =
        2 * ((List.range n).map (fun i => (PairList.ofList (xs i)).locks.length)).sum := by
      clear hsort
      induction h with
      | init =>
        rw [Nat.zero_add]
        have : ∀ m, m ≤ n → ((List.range m).map (fun i => (({ todo := if i < n then (PairList.ofList (xs i)).locks else [] } : Th P)).work)).sum =
            2 * ((List.range m).map (fun i => (PairList.ofList (xs i)).locks.length)).sum := by
          intro m hm
          induction m with
          | zero => rfl
          | succ m ih =>
            rw [List.range_succ, List.map_append, List.map_append, List.sum_append, List.sum_append, ih (by omega)]
            have : m < n := by omega
            simp only [List.map_cons, List.map_nil, List.sum_cons, List.sum_nil, this, if_true, Th.work, List.length_nil]
            omega
        exact this n (Nat.le_refl n)
      | step h st ih =>
        rename_i s s' i t
        by_cases hi : i < n
        · have := LockOrder.sum_step (fun j => (s j).work) (fun j => (s' j).work) i n hi st.work.1
            (fun j hj => by simp only [st.work.2 j hj])
          omega
        · have hd := h.outside (i := i) (by simp [hi])
          cases st with
          | lock e _ => rw [hd.2] at e; cases e
          | unlock e1 e2 => rw [hd.1] at e2; cases e2
    omega

/-- Three batches over the DBs 1, 2, 3, given in different orders; the second and the third have a
    read-only DB and a DB twice. -/
def LockOrder.exXs : Nat → List (Bool × Nat × Unit)
  | 0 => [(false, 1, ()), (false, 2, ()), (false, 3, ())]
  | 1 => [(false, 3, ()), (true, 2, ()), (false, 1, ())]
  | _ => [(false, 2, ()), (false, 1, ()), (false, 2, ())]

/-- They take the mutexes in the same order. -/
example : (PairList.ofList (exXs 0)).locks = [1, 2, 3] ∧ (PairList.ofList (exXs 1)).locks = [1, 3] ∧
    (PairList.ofList (exXs 2)).locks = [1, 2] := by decide

/-- A state in which one thread waits for another. -/
example : ∃ s : St Nat, Reach (fun i => if i < 3 then (PairList.ofList (exXs i)).locks else []) s 1 ∧
    ¬ (∃ s', Step s 1 s') ∧ (∃ s', Step s 0 s') := by
  have h0 : (PairList.ofList (exXs 0)).locks = [1, 2, 3] := by decide
  have h1 : (PairList.ofList (exXs 1)).locks = [1, 3] := by decide
  refine ⟨_, Reach.step Reach.init (Step.lock (i := 0) (l := 1) (ls := [2, 3]) (by simp [h0]) (by simp)), ?_, ?_⟩
  · rintro ⟨s', st⟩
    cases st with
    | lock e hf =>
      simp [St.set, h1] at e
      have := hf 0
      simp [St.set] at this
      omega
    | unlock e1 e2 => simp [St.set, h1] at e1
  · refine ⟨_, Step.lock (l := 2) (ls := [3]) (by simp [St.set]) (fun j => ?_)⟩
    unfold St.set
    split <;> simp

/-- Nothing tells the caller that a batch for a read-only DB, or a second batch for the same DB, is
    left out (src/global_batch.cc:45-58): the rest is executed and the call succeeds. -/
theorem C14_dropped_part_violation :
    PairList.ofList [(false, 1, "a"), (false, 2, "b"), (false, 1, "c"), (true, 3, "d")] = [(1, "a"), (2, "b")] := by
  decide

end Jungle
