/-
  C79: which memtables are kept in log section mode.
-/
import Verif.Log.Reclaim

namespace Jungle
namespace Reclaim

/-- C79: a pass changes nothing but that it purges memtables, never that of the first file, and only of files before
    the last synced one that are in memory, immutable and not removed; at all times and options. -/
theorem C79_only (now1 now2 ttl limit ls : Nat) (fs : List File) :
    (reclaim now1 now2 ttl limit ls fs).head? = fs.head? ∧
      List.Forall₂ (fun f g => g = f ∨ g = { f with evicted := true } ∧ f.num < ls ∧ ls ≠ NIL ∧ f.evicted = false ∧
        f.removed = false ∧ f.immutable = true ∧ f.purged = false) fs (reclaim now1 now2 ttl limit ls fs) := by
  have conv : ∀ {a b : List File}, ls ≠ NIL → List.Forall₂ (Ok ls) a b →
      List.Forall₂ (fun f g => g = f ∨ g = { f with evicted := true } ∧ f.num < ls ∧ ls ≠ NIL ∧ f.evicted = false ∧
        f.removed = false ∧ f.immutable = true ∧ f.purged = false) a b := by
    intro a b hls h
    refine h.imp ?_
    intro f g h
    rcases h with h | ⟨h1, h2, h3⟩
    · exact Or.inl h
    · simp only [File.live, Bool.and_eq_true, Bool.not_eq_true'] at h3
      exact Or.inr ⟨h1, h2, hls, h3.1.1.1, h3.1.1.2, h3.1.2, h3.2⟩
  unfold reclaim
  by_cases hls : ls = NIL
  · rw [if_pos hls]
    refine ⟨rfl, ?_⟩
    exact List.forall₂_same.2 fun _ _ => Or.inl rfl
  · rw [if_neg hls]
    dsimp only
    cases fs with
    | nil =>
      have e : ¬ (limit ≠ 0 ∧ limit < (ages now1 (pass1 now1 ttl ls [])).length) := by
        simp [pass1, ages]
      rw [if_neg e]
      exact ⟨rfl, .nil⟩
    | cons a r =>
      have h1 := pass1_tail now1 ttl ls r
      split
      · exact ⟨rfl, conv hls (.cons (Or.inl rfl) (ok_trans h1 (urgent_ok _ _ _ _ _)))⟩
      · exact ⟨rfl, conv hls (.cons (Or.inl rfl) h1)⟩

/-- C79: if no file has expired, a pass leaves as many memtables as are to be kept, or all of them if there are
    fewer, and all of them without a limit. -/
theorem C79_kept (now1 now2 ttl limit ls : Nat) (fs : List File) (he : ∀ f ∈ fs, f.expired now1 ttl = false) :
    min limit (fs.filter File.live).length ≤ ((reclaim now1 now2 ttl limit ls fs).filter File.live).length ∧
      (limit = 0 → reclaim now1 now2 ttl limit ls fs = fs) ∧
      ((fs.filter File.live).length ≤ limit → reclaim now1 now2 ttl limit ls fs = fs) := by
  have hlen : (ages now1 fs).length = (fs.filter File.live).length := by simp [ages]
  unfold reclaim
  by_cases hls : ls = NIL
  · rw [if_pos hls]
    exact ⟨Nat.min_le_right _ _, fun _ => rfl, fun _ => rfl⟩
  rw [if_neg hls]
  dsimp only
  rw [pass1_none he, hlen]
  split
  · next h =>
    refine ⟨?_, fun e => absurd e h.1, fun e => absurd e (by omega)⟩
    cases fs with
    | nil => exact Nat.min_le_right _ _
    | cons a r =>
      have hc := urgent_count now2 ls (kth limit (ages now1 (a :: r))) r (((a :: r).filter File.live).length - limit)
      revert hc h
      generalize kth limit (ages now1 (a :: r)) = x
      intro h hc
      unfold pass2
      have h2 := h.2
      rw [List.filter_cons] at h2 hc ⊢
      rw [List.filter_cons]
      split
      · next ha =>
        rw [if_pos ha] at h2 hc
        simp only [List.length_cons] at h2 hc ⊢
        omega
      · next ha =>
        rw [if_neg ha] at h2 hc
        omega
  · exact ⟨Nat.min_le_right _ _, fun _ => rfl, fun _ => rfl⟩

/-- C79 (part): if no file has expired and the clock does not move during the pass, at least as many memtables as are
    to be kept were accessed after each one that is purged.  Missing: the clock. -/
theorem C79_oldest_partial (now ttl limit ls : Nat) (fs : List File) (he : ∀ f ∈ fs, f.expired now ttl = false)
    (g : File) (hg : g ∈ reclaim now now ttl limit ls fs) (hn : g ∉ fs) :
    ∃ f ∈ fs, g = { f with evicted := true } ∧ limit ≤ (fs.filter fun k => k.live && decide (f.acc < k.acc)).length := by
  unfold reclaim at hg
  by_cases hls : ls = NIL
  · rw [if_pos hls] at hg
    exact absurd hg hn
  rw [if_neg hls] at hg
  dsimp only at hg
  rw [pass1_none he] at hg
  split at hg
  · next h =>
    have hk := kth_count limit (ages now fs) h.2
    revert hk hg
    generalize kth limit (ages now fs) = x
    intro hg hk
    cases fs with
    | nil => cases hg
    | cons a r =>
      rcases List.mem_cons.1 hg with e | hg
      · exact absurd (e ▸ List.mem_cons_self) hn
      rcases urgent_old _ _ _ _ _ g hg with h1 | ⟨f, h1, h2, h3⟩
      · exact absurd (List.mem_cons_of_mem _ h1) hn
      refine ⟨f, List.mem_cons_of_mem _ h1, h2, Nat.le_trans hk ?_⟩
      unfold ages
      rw [List.countP_map, List.countP_eq_length_filter, List.filter_filter]
      apply List.Sublist.length_le
      apply List.monotone_filter_right
      intro k hk'
      simp only [Function.comp, Bool.and_eq_true, decide_eq_true_eq, File.age] at hk' h3 ⊢
      obtain ⟨u, v⟩ := hk'
      have u := of_decide_eq_true u
      exact ⟨v, by omega⟩
  · exact absurd hg hn

/-- C79 (part): if no file has expired, the clock does not move during the pass and no two memtables have the same age, no
    more memtables than are to be kept stay, besides that of the first file and those of files that are not synced. -/
theorem C79_bound_partial (now ttl limit ls : Nat) (fs : List File) (he : ∀ f ∈ fs, f.expired now ttl = false) (h0 : limit ≠ 0)
    (hls : ls ≠ NIL) (hn : ((fs.filter File.live).map (File.age now)).Nodup) :
    ((reclaim now now ttl limit ls fs).filter File.live).length ≤
      limit + 1 + (fs.filter fun f => f.live && decide (ls ≤ f.num)).length := by
  have hlen : (ages now fs).length = (fs.filter File.live).length := by simp [ages]
  unfold reclaim
  rw [if_neg hls]
  dsimp only
  rw [pass1_none he]
  split
  · next h =>
    have hk := kth_count_le limit (ages now fs) h0 h.2 hn
    rw [hlen] at h ⊢
    cases fs with
    | nil => exact Nat.zero_le _
    | cons a r =>
      revert hk
      generalize kth limit (ages now (a :: r)) = x
      intro hk
      have hb : ((a :: r).filter File.live).length ≤ (r.filter File.live).length + 1 := by
        rw [List.filter_cons]; split <;> simp
      have hu : ((pass2 now ls x (((a :: r).filter File.live).length - limit) (a :: r)).filter File.live).length ≤
          ((urgent now ls x (((a :: r).filter File.live).length - limit) r).filter File.live).length + 1 := by
        unfold pass2
        rw [List.filter_cons]; split <;> simp
      have h2 := h.2
      rcases urgent_bound now ls x r (((a :: r).filter File.live).length - limit) with h3 | h3
      · have : (r.filter File.live).length ≤ ((a :: r).filter File.live).length := by
          rw [List.filter_cons]; split <;> simp
        omega
      · refine Nat.le_trans hu ?_
        have h4 := urgent_sub now ls x r (((a :: r).filter File.live).length - limit)
        have h5 := (h4.filter fun g => (!g.cand ls) || decide (g.age now ≤ x)).length_le
        rw [List.filter_eq_self.2 (fun g hg => by
          rw [List.mem_filter] at hg
          rcases h3 g hg.1 hg.2 with e | e
          · rw [e]; rfl
          · rw [decide_eq_true e, Bool.or_true])] at h5
        have h9 := List.countP_eq_length_filter (p := fun g : File => (!g.cand ls) || decide (g.age now ≤ x)) (l := r.filter File.live)
        have h6 := countP_or (fun g => !g.cand ls) (fun g => decide (g.age now ≤ x)) (r.filter File.live)
        have h7 : (r.filter File.live).countP (fun g => decide (g.age now ≤ x)) ≤ limit := by
          refine Nat.le_trans ?_ hk
          unfold ages
          rw [List.countP_map]
          exact List.Sublist.countP_le ((List.sublist_cons_self a r).filter File.live)
        have h8 : (r.filter File.live).countP (fun g => !g.cand ls) ≤
            ((a :: r).filter fun f => f.live && decide (ls ≤ f.num)).length := by
          rw [List.countP_eq_length_filter, List.filter_filter]
          refine Nat.le_trans (List.Sublist.length_le (List.monotone_filter_right r ?_))
            ((List.sublist_cons_self a r).filter _).length_le
          intro g hg
          rw [Bool.and_eq_true] at hg ⊢
          refine ⟨hg.2, ?_⟩
          have hc := hg.1
          unfold File.cand at hc
          rw [hg.2, Bool.and_true] at hc
          simpa using hc
        omega
  · next h =>
    rw [hlen] at h
    have : ¬ limit < (fs.filter File.live).length := fun c => h ⟨h0, c⟩
    omega

/-- C79: while no database in the process has an expiry time, nothing is purged at all, whatever number is to be
    kept; in a database with an expiry time every file can be read. -/
theorem C79_reads (now1 now2 : Nat) (opened : List Db) :
    ((∀ d ∈ opened, d.logOnly = true → d.ttl = 0) → work now1 now2 opened = opened) ∧
      ∀ d : Db, d.logOnly = true → d.ttl ≠ 0 → ∀ f, read d f = .ok := by
  constructor
  · intro h
    unfold work
    rw [if_neg]
    intro hs
    obtain ⟨d, hd, hm⟩ := List.any_eq_true.1 hs
    rw [Db.storeMode, Bool.and_eq_true, decide_eq_true_eq] at hm
    exact hm.2 (h d hd hm.1)
  · intro d h1 h2 f
    have hm : d.storeMode = true := by
      rw [Db.storeMode, Bool.and_eq_true, decide_eq_true_eq]
      exact ⟨h1, h2⟩
    unfold read
    rw [hm]
    split <;> rfl

/-- C79 violation: with the option 0, which stands for no expiry, every memtable that may be purged is purged in each
    pass, unless it was accessed in the same microsecond, whatever number is to be kept.  Passes are made if another
    database of the process has an expiry time (`C79_crash_violation`). -/
theorem C79_ttl_violation (now1 now2 limit ls : Nat) (a : File) (r : List File) (hls : ls ≠ NIL) (f : File) (hf : f ∈ r)
    (h1 : f.num < ls) (h2 : f.live = true) (h3 : f.acc < now1) :
    { f with evicted := true } ∈ reclaim now1 now2 0 limit ls (a :: r) := by
  have hp : f.evict ∈ r.map fun f => if f.cand ls && f.expired now1 0 then f.evict else f := by
    refine List.mem_map.2 ⟨f, hf, ?_⟩
    have : (f.cand ls && f.expired now1 0) = true := by
      rw [Bool.and_eq_true]
      exact ⟨cand_iff.2 ⟨h1, h2⟩, expired_zero.2 h3⟩
    rw [if_pos this]
  unfold reclaim
  rw [if_neg hls]
  dsimp only
  split
  · exact List.mem_cons_of_mem _ (urgent_keeps _ _ _ (evict_live f) _ _ hp)
  · exact List.mem_cons_of_mem _ hp

/-- C79 violation: if any database of the process has an expiry time, the memtables of those without one are purged
    as well and never loaded again: the next read of such a file goes through a null pointer. -/
theorem C79_crash_violation (now1 now2 : Nat) (opened : List Db) (da db : Db) (hda : da ∈ opened) (hdb : db ∈ opened)
    (ha : da.logOnly = true ∧ da.ttl ≠ 0) (hb : db.logOnly = true ∧ db.ttl = 0) (hls : db.ls ≠ NIL) (a : File) (r : List File)
    (hfs : db.files = a :: r) (f : File) (hf : f ∈ r) (h1 : f.num < db.ls) (h2 : f.live = true) (h3 : f.acc < now1) :
    ∃ d ∈ work now1 now2 opened, ∃ g ∈ d.files, d.ttl = db.ttl ∧ g.num = f.num ∧ read d g = .undefinedBehaviour := by
  have hs : started opened = true := by
    refine List.any_eq_true.2 ⟨da, hda, ?_⟩
    rw [Db.storeMode, Bool.and_eq_true, decide_eq_true_eq]
    exact ha
  have hm := C79_ttl_violation now1 now2 db.limit db.ls a r hls f hf h1 h2 h3
  refine ⟨{ db with files := (reclaim now1 now2 db.ttl db.limit db.ls db.files).map File.settle }, ?_,
    File.settle { f with evicted := true }, ?_, rfl, rfl, ?_⟩
  · unfold work
    rw [if_pos hs]
    refine List.mem_map.2 ⟨db, hdb, ?_⟩
    rw [if_pos hb.1]
  · refine List.mem_map.2 ⟨_, ?_, rfl⟩
    rw [hb.2, hfs]
    exact hm
  · unfold read
    have e1 : (File.settle { f with evicted := true }).purged = true := rfl
    have e2 : Db.storeMode { db with files := (reclaim now1 now2 db.ttl db.limit db.ls db.files).map File.settle } = false := by
      rw [Db.storeMode, Bool.and_eq_false_iff]
      right
      simpa using hb.2
    rw [e1, e2]
    rfl

namespace RecEx

/-- Four files, the last one being written; two memtables are to be kept. -/
def fs : List File := [⟨0, 95, false, false, true, false⟩, ⟨1, 10, false, false, true, false⟩,
  ⟨2, 90, false, false, true, false⟩, ⟨3, 99, false, false, false, false⟩]

example : (∀ f ∈ fs, f.expired 100 1 = false) ∧ (reclaim 100 100 1 2 3 fs).map File.live = [true, false, true, false] := by
  decide +kernel
example : { (⟨1, 10, false, false, true, false⟩ : File) with evicted := true } ∈ reclaim 100 100 1 2 3 fs := by decide +kernel
example : ((fs.filter File.live).map (File.age 100)).Nodup := by decide +kernel
example : (reclaim 100 100 0 2 3 fs).map File.live = [true, false, false, false] := by decide +kernel

/-- Two databases, one with an expiry time of a minute and one without. -/
def two : List Db := [{ ttl := 60, ls := 3, files := fs }, { ls := 3, files := fs }]

example : (work 100 100 two).map (fun d => d.files.map (read d)) =
    [[.ok, .ok, .ok, .ok], [.ok, .undefinedBehaviour, .undefinedBehaviour, .ok]] := by decide +kernel

end RecEx

/-- C79 violation: the ages are compared with those of the first loop, and the clock moves on.  File 1 was accessed
    after file 2 and is purged, file 2 is kept. -/
theorem C79_clock_violation : ∃ fs : List File, (∀ f ∈ fs, f.expired 101 1 = false) ∧
    fs.map File.acc = [95, 90, 10] ∧ (reclaim 100 101 1 2 3 fs).map File.live = [true, false, true] ∧
    (reclaim 100 100 1 2 3 fs).map File.live = [true, true, false] :=
  ⟨[⟨0, 95, false, false, true, false⟩, ⟨1, 90, false, false, true, false⟩, ⟨2, 10, false, false, true, false⟩], by decide +kernel⟩

/-- C79 violation: more memtables than are to be kept can stay: the first file is counted and never purged. -/
theorem C79_exceeds_violation : ∃ fs : List File, (reclaim 100 100 1 1 3 fs).map File.live = [true, true] ∧
    fs.map File.acc = [10, 99] :=
  ⟨[⟨0, 10, false, false, true, false⟩, ⟨1, 99, false, false, true, false⟩], by decide +kernel⟩

end Reclaim
end Jungle
