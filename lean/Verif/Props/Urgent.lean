/-
  C76: a request to compact all tables up to a number compacts each of them once, ends when they are gone and
  when its time is over, and not before.
-/
import Verif.Worker.Urgent

namespace Jungle
namespace Urgent

theorem count_new (n m k : Nat) (h : n ≤ m) : (List.range' (m + 1) k).filter (fun t => decide (t ≤ n)) = [] := by
  apply List.filter_eq_nil_iff.2
  intro t ht
  have := List.mem_range'_1.1 ht
  simp
  omega

theorem run_bounded (n : Nat) {s u : St} (h : Run s u) : (s.req.idx = n ∨ s.req.idx = 0) → n ≤ s.maxNum →
    u.urgent ≤ s.urgent + (s.ts.filter (fun t => decide (t ≤ n))).length := by
  induction h with
  | refl s => intro _ _; omega
  | @step s t u hst _ ih =>
    intro hi hm
    cases hst with
    | pass now =>
      refine ih ?_ hm
      show (autoClear now s.ts s.req).idx = n ∨ (autoClear now s.ts s.req).idx = 0
      rcases autoClear_idx now s.ts s.req with h | h
      · rw [h]; exact hi
      · exact Or.inr h
    | urgent _ v k h0 hv hle hf =>
      have hidx : s.req.idx = n := by
        rcases hi with h | h
        · exact h
        · exact absurd h h0
      have := ih hi (by show n ≤ s.maxNum + k; omega)
      dsimp only at this
      rw [List.filter_append, count_new n s.maxNum k hm, List.append_nil] at this
      have hp := ((List.perm_cons_erase hv).filter (fun t => decide (t ≤ n))).length_eq
      rw [List.filter_cons_of_pos (by simp; omega), List.length_cons] at hp
      omega
    | other _ rest k hr hf =>
      have := ih hi (by show n ≤ s.maxNum + k; omega)
      dsimp only at this
      rw [List.filter_append, count_new n s.maxNum k hm, List.append_nil] at this
      have hl := (hr.filter (fun t => decide (t ≤ n))).length_le
      omega

/-- C76: for a request up to a number that was given to a table already, no more compactions are made than there are
    tables up to this number, whatever else happens to the tables. -/
theorem C76_bounded_partial {s u : St} (now n e : Nat) (hs : s.req = setReq now n e) (hn : n ≤ s.maxNum) (h : Run s u) :
    u.urgent ≤ s.urgent + (s.ts.filter (fun t => decide (t ≤ n))).length :=
  run_bounded n h (Or.inl (by rw [hs]; rfl)) hn

/-- C76: a request up to 0 makes no compaction. -/
theorem C76_zero {s u : St} (now e : Nat) (hs : s.req = setReq now 0 e) (h : Run s u) : u.urgent = s.urgent := by
  have h0 : s.req.idx = 0 := by rw [hs]; rfl
  clear hs
  induction h with
  | refl s => rfl
  | @step s t u hst _ ih =>
    cases hst with
    | pass now' =>
      refine ih ?_
      show (autoClear now' s.ts s.req).idx = 0
      unfold autoClear
      rw [if_pos h0]
      exact h0
    | urgent _ v k hne => exact absurd h0 hne
    | other _ rest k hr hf => exact ih h0

/-- C76: when every table has a number above that of the request, the next pass ends it. -/
theorem C76_ends (now : Nat) (ts : List Nat) (r : Req) (hr : r.idx < NIL) (h : ∀ t ∈ ts, r.idx < t) :
    (autoClear now ts r).idx = 0 := by
  have hs : r.idx < smallest ts := by
    rcases smallest_mem ts with h1 | h1
    · omega
    · exact h _ h1
  have h0 : smallest ts ≠ 0 := by omega
  unfold autoClear
  split
  · assumption
  · dsimp only
    split <;> rfl

theorem setReq_dur (t0 n e : Nat) (he : e * 1000000 < 2 ^ 64) : (setReq t0 n e).durUs = e * 1000000 := by
  unfold setReq
  dsimp only
  omega

/-- C76: while there is a table up to the number and the time is not over, the request stays. -/
theorem C76_stays (t0 now n e : Nat) (ts : List Nat) (ht : ∃ t ∈ ts, t ≤ n) (he : e * 1000000 < 2 ^ 64)
    (hnow : e = 0 ∨ now ≤ t0 + e * 1000000) : autoClear now ts (setReq t0 n e) = setReq t0 n e := by
  obtain ⟨t, ht, hle⟩ := ht
  have hs := smallest_le ht
  have hd := setReq_dur t0 n e he
  have hi : (setReq t0 n e).idx = n := rfl
  have hsn : (setReq t0 n e).since = t0 := rfl
  unfold autoClear
  split
  · rfl
  · split
    · rfl
    · dsimp only
      have hlt : ¬ (setReq t0 n e).idx < smallest ts := by rw [hi]; omega
      rw [if_neg hlt, if_neg]
      intro hc
      obtain ⟨h1, h2⟩ := hc
      unfold timeout at h2
      rw [hd] at h1 h2
      rw [hsn] at h2
      have := of_decide_eq_true h2
      rcases hnow with h | h
      · rw [h] at h1; simp at h1
      · omega

/-- C76: when the time is over the next pass ends the request, if there is no table with the number 0. -/
theorem C76_expires_partial (t0 now n e : Nat) (ts : List Nat) (h0 : 0 ∉ ts) (hpos : 0 < e) (he : e * 1000000 < 2 ^ 64)
    (hnow : t0 + e * 1000000 < now) : (autoClear now ts (setReq t0 n e)).idx = 0 := by
  have hs : smallest ts ≠ 0 := by
    rcases smallest_mem ts with h | h
    · rw [h]; decide
    · intro hc; rw [hc] at h; exact h0 h
  have hd := setReq_dur t0 n e he
  have hsn : (setReq t0 n e).since = t0 := rfl
  unfold autoClear
  split
  · assumption
  · dsimp only
    by_cases hlt : (setReq t0 n e).idx < smallest ts
    · rw [if_pos hlt]
      split <;> rfl
    · rw [if_neg hlt, if_pos]
      · rfl
      · refine ⟨by rw [hd]; omega, ?_⟩
        unfold timeout
        rw [hd, hsn]
        exact decide_eq_true (by omega)

/-! ### Cases -/

/-- Three tables; the request is up to number 2. -/
def ex0 : St := { ts := [1, 2, 3], maxNum := 3, req := setReq 100 2 60 }

/-- Both tables up to 2 are compacted, and the next pass ends the request. -/
theorem ex_run : Run ex0 { ts := [3, 4, 5], maxNum := 5, req := setReq 300 0 0, urgent := 2 } :=
  .step (.urgent ex0 1 1 (by decide) (by decide) (by decide) (by decide))
    (.step (.pass 200 _) (.step (.urgent _ 2 1 (by decide) (by decide) (by decide) (by decide)) (.step (.pass 300 _) (.refl _))))

example : (autoClear (100 + 60000001) [2, 3, 4] (setReq 100 2 60)).idx = 0 ∧
    autoClear 60000100 [2, 3, 4] (setReq 100 2 60) = setReq 100 2 60 := by decide

/-- C76 violation: while the table with the number 0 is there the request does not end, however long ago its time was
    over, and tables are compacted for it. -/
theorem C76_expiry_violation (ts : List Nat) (h0 : 0 ∈ ts) (t0 now n e : Nat) :
    autoClear now ts (setReq t0 n e) = setReq t0 n e := by
  have hs : smallest ts = 0 := Nat.le_zero.1 (smallest_le h0)
  unfold autoClear
  split
  · rfl
  · rfl

/-- C76 violation: a request up to a number that no table has yet goes on with the tables its own compactions
    create: one table is compacted any number of times. -/
theorem C76_endless_violation (n : Nat) (hn : n < NIL) : ∀ (N m : Nat) (s : St), s.ts = [m] → s.maxNum = m → s.req.idx = n → n ≠ 0 →
    m + N ≤ n → ∃ u, Run s u ∧ u.urgent = s.urgent + N ∧ u.ts.length = 1 ∧ u.req = s.req := by
  intro N
  induction N with
  | zero => intro m s h _ _ _ _; exact ⟨s, .refl s, rfl, by rw [h]; rfl, rfl⟩
  | succ N ih =>
    intro m s h1 h2 h3 h4 h5
    have hst := Step.urgent s m 1 (by rw [h3]; exact h4) (by rw [h1]; exact List.mem_singleton_self m) (by omega) (by omega)
    obtain ⟨u, r1, r2, r3, r4⟩ := ih (m + 1)
      { s with ts := s.ts.erase m ++ List.range' (s.maxNum + 1) 1, maxNum := s.maxNum + 1, urgent := s.urgent + 1 }
      (by dsimp only; rw [h1, h2]; simp) (by dsimp only; omega) h3 h4 (by omega)
    exact ⟨u, .step hst r1, by rw [r2]; dsimp only; omega, r3, r4⟩

/-- C76 violation: an expiry of 2^58 seconds is none, and one of 18446744073711 seconds is over after two, since the
    product wraps. -/
theorem C76_wrap_violation : setReq 0 5 (2 ^ 58) = setReq 0 5 0 ∧
    ∃ e, 300000000000 < e ∧ (autoClear 3000000 [1] (setReq 0 5 e)).idx = 0 := by
  refine ⟨by decide, 18446744073711, by decide, by decide⟩

end Urgent
end Jungle
