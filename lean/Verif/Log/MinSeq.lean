/-
  The smallest sequence number in the log section.
-/
import Verif.DB.ReachInv

namespace Jungle
variable {K : Type} [LinearOrder K]

/-- The loop over the later files (src/log_mgr.cc:1914-1923). -/
def LogMgr.scanMin (l : LogMgr K) (num : Nat) : Nat → Option Nat
  | 0 => none
  | n + 1 =>
    match l.file? num with
    | none => l.scanMin (num + 1) n
    | some g =>
      if valid g.mem.flushedSeqNum then some g.mem.flushedSeqNum
      else if valid g.mem.minSeqNum then some g.mem.minSeqNum
      else l.scanMin (num + 1) n

/-- `LogMgr::getMinSeqNum` (src/log_mgr.cc:1873-1932); `none` is LOG_NOT_EXIST.  (Without a file of the
    number `getLastFlushedLog` the loop does not end; this does not happen, see C37.) -/
def LogMgr.getMinSeqNum (l : LogMgr K) : Option Nat :=
  match l.file? l.getLastFlushedLog with
  | none => none
  | some f =>
    if valid f.mem.flushedSeqNum then
      if f.mem.flushedSeqNum = f.mem.maxSeqNum ∧ l.file? (l.getLastFlushedLog + 1) = none then none
      else some (inc64 f.mem.flushedSeqNum)
    else if valid f.mem.minSeqNum then some f.mem.minSeqNum
    else if l.maxNum ≤ l.getLastFlushedLog then none
    else l.scanMin (l.getLastFlushedLog + 1) (l.maxNum - l.getLastFlushedLog)

/-- `DB::getMinSeqNum` (src/jungle.cc:395-399). -/
def DB.getMinSeqNum {S : TableSys K} (db : DB K S) : Option Nat := db.log.getMinSeqNum

/-! ### Lemmas -/

/-- A file without a smallest number has no records. -/
theorem MemTable.WF.no_min {m : MemTable K} (h : m.WF) (hn : m.minSeqNum = NIL) : m.bySeq = [] := by
  apply List.eq_nil_iff_forall_not_mem.2
  intro r hr
  have := h.bound r hr
  omega

/-- The scan finds a bound of all records of the files from `num` on. -/
theorem LogInv.scanMin_spec {l : LogMgr K} {A B} (h : LogInv l A B) : ∀ (n i : Nat), 0 < i → i + n = l.files.length →
    (l.scanMin (l.minNum + i) n = none → ∀ g ∈ l.files.drop i, g.mem.bySeq = []) ∧
    ∀ m, l.scanMin (l.minNum + i) n = some m → ∀ g ∈ l.files.drop i, ∀ r ∈ g.mem.bySeq, m ≤ r.seq := by
  intro n
  induction n with
  | zero =>
    intro i _ hi
    rw [List.drop_eq_nil_of_le (by omega)]
    exact ⟨fun _ g hg => (by cases hg), fun m hm => (by cases hm)⟩
  | succ n ih =>
    intro i hpos hi
    have hlt : i < l.files.length := by omega
    have hg : l.files[i] ∈ l.files := List.getElem_mem hlt
    have hfile : l.file? (l.minNum + i) = some l.files[i] := by
      rw [← h.num_eq i hlt]; exact h.file?_mem hg
    have hfl : l.files[i].mem.flushedSeqNum = NIL :=
      (List.pairwise_iff_getElem.1 h.order 0 i (by omega) hlt hpos).flushed
    have hwf := h.wf _ hg
    obtain ⟨ih1, ih2⟩ := ih (i + 1) (by omega) (by omega)
    rw [List.drop_eq_getElem_cons hlt]
    unfold LogMgr.scanMin
    rw [hfile]
    dsimp only
    rw [if_neg (by rw [valid_iff]; simpa using hfl)]
    by_cases hmin : l.files[i].mem.minSeqNum = NIL
    · rw [if_neg (by rw [valid_iff]; simpa using hmin)]
      have he := hwf.no_min hmin
      constructor
      · intro hn g hgm
        rcases List.mem_cons.1 hgm with rfl | hgm
        · exact he
        · exact ih1 hn g hgm
      · intro m hm g hgm r hr
        rcases List.mem_cons.1 hgm with rfl | hgm
        · rw [he] at hr; cases hr
        · exact ih2 m hm g hgm r hr
    · rw [if_pos (valid_iff.2 hmin)]
      refine ⟨fun hn => (by cases hn), fun m hm g hgm r hr => ?_⟩
      have hm := Option.some.inj hm
      rcases List.mem_cons.1 hgm with rfl | hgm
      · have := (hwf.bound r hr).1; omega
      · obtain ⟨j, hj, rfl⟩ := List.getElem_of_mem hgm
        rw [List.length_drop] at hj
        rw [List.getElem_drop] at hr
        have hb := List.pairwise_iff_getElem.1 h.order i (i + 1 + j) hlt (by omega) (by omega)
        have h1 := hb.recs hb.ne r hr
        have h2 := hwf.minle hb.ne
        omega

theorem LogInv.getMin_spec {l : LogMgr K} {A B} (h : LogInv l A B) {f : LogFile K} {fs : List (LogFile K)}
    (hf : l.files = f :: fs) :
    (l.getMinSeqNum = none → B = []) ∧
    (∀ m, l.getMinSeqNum = some m → ∀ r ∈ B, m ≤ r.seq) ∧
    (∀ m, l.getMinSeqNum = some m → f.mem.flushedSeqNum ≠ NIL → m = f.mem.flushedSeqNum + 1) := by
  have hfm : f ∈ l.files := by rw [hf]; exact List.mem_cons_self
  have hfn : l.minNum = f.num := by unfold LogMgr.minNum; rw [hf]
  have hfile : l.file? l.getLastFlushedLog = some f := by
    rw [h.getLastFlushedLog_eq, hfn]; exact h.file?_mem hfm
  have hwf := h.wf f hfm
  have hord : ∀ g ∈ fs, Before f g := by
    have := h.order
    rw [hf] at this
    exact (List.pairwise_cons.1 this).1
  have hB : B = f.pending ++ fs.flatMap LogFile.pending := by rw [h.pend, hf, List.flatMap_cons]
  have hrec : ∀ r ∈ fs.flatMap LogFile.pending, ∃ g ∈ fs, r ∈ g.mem.bySeq := by
    intro r hr
    obtain ⟨g, hg, hr⟩ := List.mem_flatMap.1 hr
    exact ⟨g, hg, (List.mem_filter.1 hr).1⟩
  have hlen := h.minNum_eq
  have hlf : l.files.length = fs.length + 1 := by rw [hf, List.length_cons]
  unfold LogMgr.getMinSeqNum
  rw [hfile]
  dsimp only
  rw [h.getLastFlushedLog_eq]
  by_cases hfl : f.mem.flushedSeqNum = NIL
  · rw [if_neg (by rw [valid_iff]; simpa using hfl)]
    by_cases hmin : f.mem.minSeqNum = NIL
    · rw [if_neg (by rw [valid_iff]; simpa using hmin)]
      have he := hwf.no_min hmin
      have hp : f.pending = [] := by unfold LogFile.pending; rw [he]; rfl
      rw [hp, List.nil_append] at hB
      obtain ⟨s1, s2⟩ := h.scanMin_spec fs.length 1 (by omega) (by omega)
      have hd : l.files.drop 1 = fs := by rw [hf]; rfl
      rw [hd] at s1 s2
      have hn : l.maxNum - l.minNum = fs.length := by omega
      rw [hn]
      split
      · next hle =>
        have : fs = [] := List.length_eq_zero_iff.1 (by omega)
        rw [hB, this]
        exact ⟨fun _ => rfl, fun m hm => (by cases hm), fun m hm => (by cases hm)⟩
      · refine ⟨fun hn => ?_, fun m hm r hr => ?_, fun m _ hc => absurd hfl hc⟩
        · rw [hB]
          apply List.eq_nil_iff_forall_not_mem.2
          intro r hr
          obtain ⟨g, hg, hr⟩ := hrec r hr
          rw [s1 hn g hg] at hr
          cases hr
        · rw [hB] at hr
          obtain ⟨g, hg, hr⟩ := hrec r hr
          exact s2 m hm g hg r hr
    · rw [if_pos (valid_iff.2 hmin)]
      refine ⟨fun hn => (by cases hn), fun m hm r hr => ?_, fun m _ hc => absurd hfl hc⟩
      have hm := Option.some.inj hm
      rw [hB] at hr
      rcases List.mem_append.1 hr with hr | hr
      · have := (hwf.bound r (List.mem_filter.1 hr).1).1; omega
      · obtain ⟨g, hg, hr⟩ := hrec r hr
        have hb := hord g hg
        have h1 := hb.recs hb.ne r hr
        have h2 := hwf.minle hb.ne
        omega
  · rw [if_pos (valid_iff.2 hfl)]
    have hmx : f.mem.flushedSeqNum ≤ f.mem.maxSeqNum ∧ f.mem.maxSeqNum < NIL := by
      rcases hwf.flushed with h1 | h1
      · exact absurd h1 hfl
      · exact h1
    have hpf : ∀ r ∈ f.pending, f.mem.flushedSeqNum < r.seq := by
      intro r hr
      have := (List.mem_filter.1 hr).2
      simp only [valid_iff.2 hfl, Bool.true_and, Bool.not_eq_true', decide_eq_false_iff_not] at this
      omega
    have hall : ∀ r ∈ B, f.mem.flushedSeqNum < r.seq := by
      intro r hr
      rw [hB] at hr
      rcases List.mem_append.1 hr with hr | hr
      · exact hpf r hr
      · obtain ⟨g, hg, hr⟩ := hrec r hr
        have hb := hord g hg
        have h1 := hb.recs hb.ne r hr
        omega
    have hinc : inc64 f.mem.flushedSeqNum = f.mem.flushedSeqNum + 1 := inc64_of_lt (by omega)
    split
    · next hc =>
      refine ⟨fun _ => ?_, fun m hm => (by cases hm), fun m hm => (by cases hm)⟩
      have hfs : fs = [] := by
        cases fs with
        | nil => rfl
        | cons g gs =>
          exfalso
          have hgm : g ∈ l.files := by rw [hf]; simp
          have hlt : 1 < l.files.length := by rw [hf]; simp
          have hnum := h.num_eq 1 hlt
          have hg1 : l.files[1] = g := by simp [hf]
          rw [hg1] at hnum
          have := h.file?_mem hgm
          rw [hnum, hc.2] at this
          cases this
      rw [hB, hfs]
      simp only [List.flatMap_nil, List.append_nil]
      apply List.eq_nil_iff_forall_not_mem.2
      intro r hr
      have h1 := hpf r hr
      have h2 := (hwf.bound r (List.mem_filter.1 hr).1).2.1
      omega
    · refine ⟨fun hn => (by cases hn), fun m hm r hr => ?_, fun m hm _ => ?_⟩
      · have hm := Option.some.inj hm
        have := hall r hr
        omega
      · have hm := Option.some.inj hm
        omega

end Jungle
