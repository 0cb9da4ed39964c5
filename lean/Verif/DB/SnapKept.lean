/-
  A checkpoint that was taken stays listed when it moves from the log to the tables.
-/
import Verif.Table.KeepMarks

set_option linter.unusedSectionVars false

namespace Jungle
open Spec
variable {K : Type} [LinearOrder K] [OrderBot K] {c : TCfg K} {parts : Nat} {hp : 0 < parts} {keep : Nat}

theorem flatMap_sublist {α β : Type} {a b : List α} (h : a.Sublist b) (f : α → List β) : (a.flatMap f).Sublist (b.flatMap f) := by
  induction h with
  | slnil => exact List.Sublist.refl _
  | cons x _ ih => rw [List.flatMap_cons]; exact ih.trans (List.sublist_append_right _ _)
  | cons_cons x _ ih => rw [List.flatMap_cons, List.flatMap_cons]; exact (List.Sublist.refl _).append ih

theorem chk_pending {f : LogFile K} (hf : ChkOk f) {s n : Nat} (h : n ∈ f.mem.getCheckpoints s) :
    ∃ r ∈ f.pending, r.seq = n := by
  obtain ⟨n1, n2, -⟩ := mem_getCheckpoints.1 h
  obtain ⟨r, hr, hre⟩ := hf.recs n n1
  exact ⟨r, mem_pending.2 ⟨hr, by rw [hre]; exact n2⟩, hre⟩

theorem gathered_sorted {s : Nat} {fs : List (LogFile K)} (hi : Increasing (fs.flatMap LogFile.pending))
    (hc : ∀ f ∈ fs, ChkOk f) : (fs.flatMap (fun f => f.mem.getCheckpoints s)).Pairwise (· < ·) := by
  induction fs with
  | nil => exact List.Pairwise.nil
  | cons f fs ih =>
    rw [List.flatMap_cons] at hi ⊢
    obtain ⟨h1, h2, h3⟩ := List.pairwise_append.1 hi
    refine List.pairwise_append.2 ⟨?_, ih h2 (fun g hg => hc g (by simp [hg])), ?_⟩
    · exact (hc f (by simp)).asc.sublist List.filter_sublist
    · intro a ha b hb
      obtain ⟨r, hr, rfl⟩ := chk_pending (hc f (by simp)) ha
      obtain ⟨g, hg, hb⟩ := List.mem_flatMap.1 hb
      obtain ⟨r', hr', rfl⟩ := chk_pending (hc g (by simp [hg])) hb
      exact h3 r hr r' (List.mem_flatMap.2 ⟨g, hg, hr'⟩)

theorem LogInv.avail_sorted {db : DB K (LsmC c parts hp keep)} {A B : List (Rec K)} (hl : LogInv db.log A B) (hd : DInv db A B) :
    db.log.getAvailCheckpoints.Pairwise (· < ·) := by
  unfold LogMgr.getAvailCheckpoints
  have hs : (db.log.files.filter (fun f => decide (db.log.getLastFlushedLog ≤ f.num) && decide (f.num ≤ db.log.maxNum))).Sublist
      db.log.files := List.filter_sublist
  refine gathered_sorted ?_ (fun f hf => hd.chk f (List.mem_filter.1 hf).1)
  have hinc := (List.pairwise_append.1 hl.inc).2.1
  rw [hl.pend] at hinc
  refine List.Pairwise.sublist ?_ hinc
  exact flatMap_sublist List.filter_sublist _

/-- The checkpoint `m` is in the log and not flushed, or the tables of all partitions keep it, or
    enough newer ones. -/
structure Kept (m : Nat) (L : List Nat) (db : DB K (LsmC c parts hp keep)) (A : List (Rec K)) : Prop where
  sorted : L.Pairwise (· < ·)
  le : ∀ n ∈ L, m ≤ n
  keeps : CMgr.Keeps keep m L (db.table : CMgr K)
  where_ : (m ∈ L ∧ ∃ a ∈ A, m ≤ a.seq) ∨ (db.log.Has m ∧ ∀ a ∈ A, a.seq < m)

theorem Kept.start {db : DB K (LsmC c parts hp keep)} {A B : List (Rec K)} (hd : DInv db A B) {m : Nat}
    (hm : db.log.Has m) (ha : ∀ a ∈ A, a.seq < m) : Kept m [] db A := by
  refine ⟨List.Pairwise.nil, by simp, ?_, Or.inr ⟨hm, ha⟩⟩
  intro x hx _ _
  rw [show newest keep [] = [] from by simp [newest], List.filter_eq_nil_iff]
  intro n hn
  obtain ⟨e, he, rfl⟩ := List.mem_map.1 hn
  obtain ⟨r, hr, hre⟩ := (hd.marks.entry x hx e he).chk
  have := ha r hr
  simp; omega

theorem Kept.step {db db' : DB K (LsmC c parts hp keep)} {cs cs' : List PMani} {n n' : Nat} {A B N : List (Rec K)}
    (hi : PInv ⟨db, cs⟩ n A B) {A' B' : List (Rec K)} (hi' : PInv ⟨db', cs'⟩ n' A' B') (he : A' ++ B' = A ++ B ++ N)
    (hf : EffC db A B db' N) (hd : DInv db A B) {m : Nat} {L : List Nat} (h : Kept m L db A) :
    ∃ L', Kept m L' db' A' := by
  have hl : LogInv db.log A B := hi.inv.log
  have hl' : LogInv db'.log A' B' := hi'.inv.log
  have hstep := DInv.has_step hi hi' he hf.effP.1 hd (m := m)
  cases hf with
  | write hw ht =>
    have hB' : B' = B ++ N := by rw [hl'.pend, hl.pend]; exact hw.pend
    have hA' : A' = A := by
      rw [hB', ← List.append_assoc] at he
      exact List.append_cancel_right (List.append_cancel_right he)
    subst hA'
    refine ⟨L, h.sorted, h.le, by rw [ht]; exact h.keeps, ?_⟩
    rcases h.where_ with h1 | ⟨h1, h2⟩
    · exact Or.inl h1
    · rcases hstep (Or.inl h1) with h3 | ⟨a, ha, h3⟩
      · exact Or.inr ⟨h3, h2⟩
      · have := h2 a ha; omega
  | touch ht htab =>
    obtain ⟨-, -, φ, h1, h2⟩ := ht
    have hB' : B' = B := by
      rw [hl'.pend, hl.pend, h1, List.flatMap_map]
      apply flatMap_congr_mem
      intro f hf
      obtain ⟨-, a, -, b, -⟩ := h2 f hf
      unfold LogFile.pending; rw [a, b]
    have hA' : A' = A := by
      rw [hB', List.append_nil] at he; exact List.append_cancel_right he
    subst hA'
    refine ⟨L, h.sorted, h.le, by rw [htab]; exact h.keeps, ?_⟩
    rcases h.where_ with h1 | ⟨h1, h2⟩
    · exact Or.inl h1
    · rcases hstep (Or.inl h1) with h3 | ⟨a, ha, h3⟩
      · exact Or.inr ⟨h3, h2⟩
      · have := h2 a ha; omega
  | @flush o P g Q s hF hlog htab =>
    obtain ⟨g', e, hrel, hfl, hsN, hga, hB⟩ := hF.exact hl
    have hfiles' : db'.log.files = g' :: Q := by rw [hlog, e]; rfl
    have hB' : B' = g'.pending ++ Q.flatMap LogFile.pending := by
      rw [hl'.pend, hfiles', List.flatMap_cons]
    have hA' : A' = A ++ LogMgr.gather s o.beyondLastSync (P ++ [g]) := by
      have h1 : A' ++ B' = (A ++ LogMgr.gather s o.beyondLastSync (P ++ [g])) ++ B' := by
        rw [he, List.append_nil, List.append_assoc, hB', ← hB]
      exact List.append_cancel_right h1
    have hsub : (P ++ [g]).Sublist db.log.files := by
      rw [hF.files, List.append_cons P g Q]; exact List.sublist_append_left _ _
    have hPg : ∀ f ∈ P ++ [g], f ∈ db.log.files := fun f hf => hsub.subset hf
    have hinc := (List.pairwise_append.1 hl.inc).2.1
    rw [hl.pend] at hinc
    have hcps : (LogMgr.gatherCheckpoints s (P ++ [g])).Pairwise (· < ·) := by
      unfold LogMgr.gatherCheckpoints
      exact gathered_sorted (List.Pairwise.sublist (flatMap_sublist hsub _) hinc) (fun f hf => hd.chk f (hPg f hf))
    -- a checkpoint of the log that is not handed over is still in the log and not flushed
    have hw : db.log.Has m → (∀ a ∈ A, a.seq < m) → m ∈ LogMgr.gatherCheckpoints s (P ++ [g]) ∨
        (db'.log.Has m ∧ ∀ a ∈ A', a.seq < m) := by
      intro hm hA
      by_cases hall : ∀ a ∈ A', a.seq < m
      · rcases hstep (Or.inl hm) with h3 | ⟨a, ha, h3⟩
        · exact Or.inr ⟨h3, hall⟩
        · have := hall a ha; omega
      · left
        push Not at hall
        obtain ⟨a, ha, hma⟩ := hall
        obtain ⟨f, hf, hmf⟩ := hm
        obtain ⟨r, hr, hre⟩ := (hd.chk f hf).recs m hmf
        obtain ⟨D, hD⟩ := hd.flat
        have hAB : r ∈ A' ++ B' := by
          rw [he, List.append_nil, hD]; exact List.mem_append_right _ (List.mem_flatMap.2 ⟨f, hf, hr⟩)
        have hrA' : r ∈ A' := by
          rcases List.mem_append.1 hAB with h1 | h1
          · exact h1
          · have := (List.pairwise_append.1 hl'.inc).2.2 a ha r h1; omega
        have hrg : r ∈ LogMgr.gather s o.beyondLastSync (P ++ [g]) := by
          rw [hA'] at hrA'
          rcases List.mem_append.1 hrA' with h1 | h1
          · have := hA r h1; omega
          · exact h1
        have hms : m ≤ s := by
          have := (hl'.mark g' Q hfiles' r hrA').2
          rw [hfl] at this; omega
        have hrf : ∃ f' ∈ P ++ [g], r ∈ f'.pending := by
          rw [hga] at hrg
          rcases List.mem_append.1 hrg with h1 | h1
          · obtain ⟨q, hq, h2⟩ := List.mem_flatMap.1 h1
            exact ⟨q, List.mem_append_left _ hq, h2⟩
          · unfold LogFile.moved at h1
            exact ⟨g, by simp, (List.mem_filter.1 h1).1⟩
        obtain ⟨f', hf', hrp⟩ := hrf
        have hff : f = f' := hl.one_file hf (hPg f' hf') hr (mem_pending.1 hrp).1 rfl
        subst hff
        unfold LogMgr.gatherCheckpoints
        refine List.mem_flatMap.2 ⟨f, hf', mem_getCheckpoints.2 ⟨hmf, ?_, Or.inl hms⟩⟩
        have := (mem_pending.1 hrp).2
        rwa [hre] at this
    have hgm : ∀ q ∈ LogMgr.gatherCheckpoints s (P ++ [g]), ∃ r ∈ LogMgr.gather s o.beyondLastSync (P ++ [g]), r.seq = q := by
      intro q h3
      unfold LogMgr.gatherCheckpoints at h3
      obtain ⟨f, hf, h4⟩ := List.mem_flatMap.1 h3
      obtain ⟨r, hr, hre⟩ := chk_pending (hd.chk f (hPg f hf)) h4
      refine ⟨r, ?_, hre⟩
      rw [hga]
      rcases List.mem_append.1 hf with h5 | h5
      · exact List.mem_append_left _ (List.mem_flatMap.2 ⟨f, h5, hr⟩)
      · have := List.mem_singleton.1 h5
        subst this
        apply List.mem_append_right
        unfold LogFile.moved
        rw [List.mem_filter]
        refine ⟨hr, ?_⟩
        rw [hfl, hre]
        have : q ≤ s := by
          rcases (mem_getCheckpoints.1 h4).2.2 with h | h
          · exact h
          · exact absurd h hsN
        simp [valid, hsN, this]
    by_cases hg0 : LogMgr.gather s o.beyondLastSync (P ++ [g]) = []
    · rw [if_pos hg0] at htab
      refine ⟨L, h.sorted, h.le, by rw [htab]; exact h.keeps, ?_⟩
      rcases h.where_ with ⟨h1, a, ha, hma⟩ | ⟨h1, h2⟩
      · exact Or.inl ⟨h1, a, by rw [hA']; exact List.mem_append_left _ ha, hma⟩
      · rcases hw h1 h2 with h3 | h3
        · exfalso
          obtain ⟨r, this, -⟩ := hgm m h3
          rw [hg0] at this; cases this
        · exact Or.inr h3
    · rw [if_neg hg0] at htab
      have hL := foldl_setInsert ((LogMgr.gatherCheckpoints s (P ++ [g])).filter (fun n => decide (m ≤ n))) L h.sorted
      refine ⟨_, hL.1, ?_, ?_, ?_⟩
      · intro n hn
        rcases (hL.2 n).1 hn with h1 | h1
        · simpa using (List.mem_filter.1 h1).2
        · exact h.le n h1
      · rw [htab]
        exact h.keeps.batch hd.marks h.sorted _ _ (hcps.imp Nat.le_of_lt)
      · rcases h.where_ with h1 | ⟨h1, h2⟩
        · obtain ⟨h1, a, ha, hma⟩ := h1
          exact Or.inl ⟨(hL.2 m).2 (Or.inr h1), a, by rw [hA']; exact List.mem_append_left _ ha, hma⟩
        · rcases hw h1 h2 with h3 | h3
          · refine Or.inl ⟨(hL.2 m).2 (Or.inl (List.mem_filter.2 ⟨h3, by simp⟩)), ?_⟩
            obtain ⟨r, hr, hre⟩ := hgm m h3
            exact ⟨r, by rw [hA']; exact List.mem_append_right _ hr, by omega⟩
          · exact Or.inr h3

/-- Calls, no table maintenance. -/
inductive Calls : DB K (LsmC c parts hp keep) → List (Rec K) → DB K (LsmC c parts hp keep) → List (Rec K) → Prop
  | refl {db h} : Calls db h db h
  | call {db h db1 h1 db2 h2} : Calls db h db1 h1 → Act db1 h1 db2 h2 → Calls db h db2 h2

theorem Calls.kept {db db' : DB K (LsmC c parts hp keep)} {h h' : List (Rec K)} (hl : Calls db h db' h')
    {cs : List PMani} {n : Nat} (hr : PReach ⟨db, cs⟩ h n) {m : Nat} (hm : db.log.Has m)
    (hf : ∀ A B, h = A ++ B → LogInv db.log A B → ∀ a ∈ A, a.seq < m) :
    ∃ cs' n' A B L, PReach ⟨db', cs'⟩ h' n' ∧ h' = A ++ B ∧ PInv ⟨db', cs'⟩ n' A B ∧ DInv db' A B ∧ Kept m L db' A := by
  induction hl with
  | refl =>
    obtain ⟨A, B, e, hi, hd⟩ := hr.dinv
    exact ⟨cs, n, A, B, [], hr, e, hi, hd, Kept.start hd hm (hf A B e hi.inv.log)⟩
  | @call db1 h1 db2 h2 _ ha ih =>
    obtain ⟨cs1, n1, A, B, L, hr1, e, hi, hd, hk⟩ := ih
    obtain ⟨cs2, n2, hr2⟩ := ha.preach hr1
    obtain ⟨A2, B2, e2, hi2, hd2⟩ := hr2.dinv
    obtain ⟨M, hfx, e3⟩ := ha.effC hi e
    obtain ⟨L', hk'⟩ := hk.step hi hi2 (by rw [← e2, e3, e]) hfx hd
    exact ⟨cs2, n2, A2, B2, L', hr2, e2, hi2, hd2, hk'⟩

/-- What the tables keep is listed, as far as the limit allows. -/
theorem Kept.listed {db : DB K (LsmC c parts hp keep)} {cs : List PMani} {n : Nat} {A B : List (Rec K)}
    (hi : PInv ⟨db, cs⟩ n A B) (hd : DInv db A B) {m : Nat} {L : List Nat} (h : Kept m L db A) (h0 : 0 < m)
    (hc : db.check .read = .ok) :
    m ∈ db.getCheckpoints.2 ∨ (db.getCheckpoints.2.length = keep ∧ ∀ m' ∈ db.getCheckpoints.2, m < m') := by
  have hl : LogInv db.log A B := hi.inv.log
  -- it is enough that the collected list has `m`, or `keep` numbers above it
  have key : ∀ all : List Nat, all.Pairwise (· < ·) → db.getCheckpoints = (.ok, all.drop (all.length - keep)) →
      (m ∈ all ∨ ∃ l : List Nat, l.Pairwise (· < ·) ∧ keep ≤ l.length ∧ (∀ z ∈ l, z ∈ all ∧ m < z)) →
      m ∈ db.getCheckpoints.2 ∨ (db.getCheckpoints.2.length = keep ∧ ∀ m' ∈ db.getCheckpoints.2, m < m') := by
    intro all h1 h2 h3
    rw [h2]
    have hsp := List.take_append_drop (all.length - keep) all
    have h1' := h1
    rw [← hsp] at h1'
    have hdrop : (∃ z, z ∈ all.take (all.length - keep) ∧ m ≤ z) →
        ((all.drop (all.length - keep)).length = keep ∧ ∀ m' ∈ all.drop (all.length - keep), m < m') := by
      rintro ⟨z, hz, hzm⟩
      have : 0 < (all.take (all.length - keep)).length := List.length_pos_of_mem hz
      rw [List.length_take] at this
      refine ⟨by rw [List.length_drop]; omega, fun m' hm' => ?_⟩
      have := (List.pairwise_append.1 h1').2.2 z hz m' hm'
      omega
    rcases h3 with h3 | ⟨l, g1, g2, g3⟩
    · rw [← hsp] at h3
      rcases List.mem_append.1 h3 with h4 | h4
      · exact Or.inr (hdrop ⟨m, h4, Nat.le_refl _⟩)
      · exact Or.inl h4
    · right
      by_cases hex : ∃ z, z ∈ all.take (all.length - keep) ∧ m ≤ z
      · exact hdrop hex
      · -- all of `l` is in the listed part, which is no longer than `keep`
        have hsub : ∀ z ∈ l, z ∈ all.drop (all.length - keep) := by
          intro z hz
          have h5 := (g3 z hz).1
          rw [← hsp] at h5
          rcases List.mem_append.1 h5 with h6 | h6
          · exact absurd ⟨z, h6, Nat.le_of_lt (g3 z hz).2⟩ hex
          · exact h6
        have hdl : (all.drop (all.length - keep)).length ≤ keep := by rw [List.length_drop]; omega
        have hnd : l.Nodup := g1.imp (fun h => Nat.ne_of_lt h)
        have hsp2 : l.Subperm (all.drop (all.length - keep)) := List.subperm_of_subset hnd hsub
        have hlen := hsp2.length_le
        have hperm : l.Perm (all.drop (all.length - keep)) := hsp2.perm_of_length_le (by omega)
        exact ⟨by show (all.drop _).length = keep; omega, fun m' hm' => (g3 m' (hperm.mem_iff.2 hm')).2⟩
  rcases h.where_ with h1 | ⟨h1, h2⟩
  · -- in the tables
    have hav : ∀ q ∈ newest keep L, q ∈ CMgr.availCheckpoints (db.table : CMgr K) := by
      intro q hq
      have hmq : m ≤ q := h.le q (List.mem_of_mem_drop hq)
      have hin : ∀ p, p < (CMgr.tab (db.table : CMgr K)).parts →
          q ∈ (((CMgr.tab (db.table : CMgr K)).l0.filter (fun x => decide (x.hashNum = p))).flatMap
            (fun x => ((CMgr.marks (db.table : CMgr K) x.number).map (·.chk)).filter (fun n => decide (n ≠ 0)))) := by
        intro p hpp
        obtain ⟨x, hx, hxp, hxn⟩ := hd.marks.inv.normEx p hpp
        refine List.mem_flatMap.2 ⟨x, List.mem_filter.2 ⟨hx, by simpa using hxp⟩, List.mem_filter.2 ⟨?_, by simp; omega⟩⟩
        have := h.keeps x hx (by rw [hxp]; exact hpp) hxn
        rw [← this] at hq
        exact (List.mem_filter.1 hq).1
      unfold CMgr.availCheckpoints
      simp only []
      refine List.mem_filter.2 ⟨hin 0 hd.marks.inv.pos, ?_⟩
      rw [List.all_eq_true]
      intro p hpp
      simp only [List.contains_iff_mem]
      exact hin p (List.mem_range.1 hpp)
    obtain ⟨h1, a, ha, hma⟩ := h1
    have hspec : ∃ all : List Nat, all.Pairwise (· < ·) ∧ db.getCheckpoints = (.ok, all.drop (all.length - keep)) ∧
        (∀ n ∈ db.log.getAvailCheckpoints, n ∈ all) ∧ (db.log.getAvailCheckpoints.length < keep →
          ∀ n ∈ CMgr.availCheckpoints (db.table : CMgr K), n ∈ all) := by
      unfold DB.getCheckpoints
      rw [if_neg (by simp [hc])]
      simp only []
      refine ⟨_, (foldl_setInsert _ [] List.Pairwise.nil).1, rfl, ?_, ?_⟩
      · intro n hn
        rw [(foldl_setInsert _ [] List.Pairwise.nil).2]
        left; split
        · exact List.mem_append_left _ hn
        · exact hn
      · intro hlt n hn
        rw [(foldl_setInsert _ [] List.Pairwise.nil).2, if_pos hlt]
        exact Or.inl (List.mem_append_right _ hn)
    obtain ⟨all, k1, k2, k3, k4⟩ := hspec
    refine key all k1 k2 ?_
    by_cases hlt : db.log.getAvailCheckpoints.length < keep
    · by_cases hmn : m ∈ newest keep L
      · exact Or.inl (k4 hlt m (hav m hmn))
      · right
        refine ⟨newest keep L, newest_sorted h.sorted, ?_, ?_⟩
        · unfold newest
          rw [List.length_drop]
          have : ¬ L.length ≤ keep := by
            intro hle
            apply hmn
            unfold newest
            rw [Nat.sub_eq_zero_of_le hle]; exact h1
          omega
        · intro z hz
          refine ⟨k4 hlt z (hav z hz), ?_⟩
          have := h.le z (List.mem_of_mem_drop hz)
          refine Nat.lt_of_le_of_ne this ?_
          intro e; subst e; exact hmn hz
    · right
      refine ⟨db.log.getAvailCheckpoints, hl.avail_sorted hd, by omega, ?_⟩
      intro z hz
      have := (hd.availLog hl hz).2 a ha
      exact ⟨k3 z hz, by omega⟩
  · have hav : m ∈ db.log.getAvailCheckpoints := hd.has_avail hl h1 h2
    obtain ⟨all, k1, k2, k3, -⟩ := getCheckpoints_spec db hc
    exact key all k1 k2 (Or.inl (k3 m hav))

end Jungle
