/-
  Loading the log section from disk: what the memtables and the file list look like afterwards.
-/
import Verif.Log.Crash
import Verif.Log.MgrLemmas

namespace Jungle
open Spec
set_option linter.unusedSectionVars false

variable {K : Type} [LinearOrder K]

theorem dataOf_append (a b : List (DItem K)) : dataOf (a ++ b) = dataOf a ++ dataOf b := by
  induction a with
  | nil => rfl
  | cons x a ih => cases x <;> simp [dataOf, ih]

/-- The part of a memtable that loading builds. -/
structure MemTable.Idx (m : MemTable K) : Prop where
  keys : SMap.Sorted m.byKey
  idx : ∀ k, m.byKey.find? k =
    (if keyRecs m.bySeq k = [] then none else some (keyRecs m.bySeq k))

theorem MemTable.Idx.weak {m : MemTable K} (h : m.Idx) (k : K) : (m.byKey.find? k).getD [] = keyRecs m.bySeq k := by
  rw [h.idx]
  split
  · next e => rw [e]; rfl
  · rfl

/-- Fields that loading items does not touch. -/
structure MemTable.SameNums (m m' : MemTable K) : Prop where
  start : m'.startSeqNum = m.startSeqNum
  min : m'.minSeqNum = m.minSeqNum
  flushed : m'.flushedSeqNum = m.flushedSeqNum
  synced : m'.syncedSeqNum = m.syncedSeqNum
  max : m'.maxSeqNum = m.maxSeqNum
  alloc : m'.seqNumAlloc = m.seqNumAlloc

theorem loadRec_ok {m : MemTable K} (h : m.Idx) (r : Rec K) (hlt : ∀ x ∈ m.bySeq, x.seq < r.seq) :
    (m.loadItem (.data r)).Idx ∧ (m.loadItem (.data r)).bySeq = m.bySeq ++ [r] ∧
    MemTable.SameNums m (m.loadItem (.data r)) := by
  have e1 : m.addToBySeqIndex r = { m with bySeq := m.bySeq ++ [r] } := by
    unfold MemTable.addToBySeqIndex
    rw [if_neg]
    · rw [MemTable.insertBySeq_last hlt]
    · rintro ⟨-, -, h3⟩
      simp only [List.any_eq_true, beq_iff_eq] at h3
      obtain ⟨x, hx, hxe⟩ := h3
      have := hlt x hx; omega
  unfold MemTable.loadItem
  simp only [e1]
  by_cases hc : r.isCmd = true
  · rw [if_pos hc]
    refine ⟨⟨h.keys, fun k => ?_⟩, rfl, ⟨rfl, rfl, rfl, rfl, rfl, rfl⟩⟩
    have hk : keyRecs [r] k = [] := by simp [keyRecs, hc]
    simp only [keyRecs_append, hk, List.append_nil]; exact h.idx k
  · rw [if_neg hc]
    have hc' : r.isCmd = false := by simpa using hc
    unfold MemTable.addToByKeyIndex
    refine ⟨⟨h.keys.upsert _ _, fun k => ?_⟩, rfl, ⟨rfl, rfl, rfl, rfl, rfl, rfl⟩⟩
    simp only [keyRecs_append]
    rw [SMap.find?_upsert h.keys]
    by_cases hk : k = r.key
    · have hk2 : keyRecs [r] k = [r] := by simp [keyRecs, hc', hk]
      rw [if_pos hk, hk2, if_neg (by simp), h.idx, hk]
      by_cases hn : keyRecs m.bySeq r.key = []
      · simp [hn]
      · simp [hn]
    · have hk2 : keyRecs [r] k = [] := by simp [keyRecs, Ne.symm hk]
      rw [if_neg hk, hk2, List.append_nil]; exact h.idx k

theorem loadItems_ok (items : List (DItem K)) (m : MemTable K) (h : m.Idx)
    (hinc : Increasing (m.bySeq ++ dataOf items)) :
    (items.foldl MemTable.loadItem m).Idx ∧
    (items.foldl MemTable.loadItem m).bySeq = m.bySeq ++ dataOf items ∧
    MemTable.SameNums m (items.foldl MemTable.loadItem m) := by
  induction items generalizing m with
  | nil => exact ⟨h, by simp [dataOf], ⟨rfl, rfl, rfl, rfl, rfl, rfl⟩⟩
  | cons x items ih =>
    rw [List.foldl_cons]
    have step : ∀ y : MemTable K, y.Idx → y.bySeq = m.bySeq → MemTable.SameNums m y →
        dataOf (x :: items) = dataOf items → m.loadItem x = y →
        (items.foldl MemTable.loadItem (m.loadItem x)).Idx ∧
        (items.foldl MemTable.loadItem (m.loadItem x)).bySeq = m.bySeq ++ dataOf (x :: items) ∧
        MemTable.SameNums m (items.foldl MemTable.loadItem (m.loadItem x)) := by
      intro y hy hb hs hd he
      rw [he, hd, ← hb]
      obtain ⟨i1, i2, i3⟩ := ih y hy (by rw [hb, ← hd]; exact hinc)
      exact ⟨i1, i2, ⟨i3.start.trans hs.start, i3.min.trans hs.min, i3.flushed.trans hs.flushed,
        i3.synced.trans hs.synced, i3.max.trans hs.max, i3.alloc.trans hs.alloc⟩⟩
    cases x with
    | data r =>
      simp only [dataOf] at hinc
      have hlt : ∀ x ∈ m.bySeq, x.seq < r.seq := by
        have := List.pairwise_append.1 hinc
        exact fun x hx => this.2.2 x hx r (by simp)
      obtain ⟨j1, j2, j3⟩ := loadRec_ok h r hlt
      obtain ⟨i1, i2, i3⟩ := ih _ j1 (by rw [j2]; simpa [dataOf] using hinc)
      refine ⟨i1, by rw [i2, j2]; simp [dataOf], ⟨i3.start.trans j3.start, i3.min.trans j3.min,
        i3.flushed.trans j3.flushed, i3.synced.trans j3.synced, i3.max.trans j3.max, i3.alloc.trans j3.alloc⟩⟩
    | flushMarker s => exact step m h rfl ⟨rfl, rfl, rfl, rfl, rfl, rfl⟩ rfl rfl
    | checkpoint c =>
      by_cases hc : m.checkpoints.getLast? = some c
      · exact step m h rfl ⟨rfl, rfl, rfl, rfl, rfl, rfl⟩ rfl (by
          unfold MemTable.loadItem; simp only []; rw [if_pos hc])
      · exact step { m with checkpoints := m.checkpoints ++ [c] } ⟨h.keys, h.idx⟩ rfl
          ⟨rfl, rfl, rfl, rfl, rfl, rfl⟩ rfl (by
          unfold MemTable.loadItem; simp only []; rw [if_neg hc])

/-- A loaded memtable holds exactly the records of the file, under the numbers of the manifest. -/
structure Loaded (items : List (DItem K)) (minSeq flushedSeq syncedSeq : Nat) (m : MemTable K) : Prop where
  bySeq : m.bySeq = dataOf items
  idx : m.Idx
  start : m.startSeqNum = minSeq
  min : m.minSeqNum = minSeq
  flushed : m.flushedSeqNum = flushedSeq
  some : ∀ r, (dataOf items).getLast? = some r →
    m.maxSeqNum = r.seq ∧ m.seqNumAlloc = r.seq ∧ m.syncedSeqNum = r.seq
  none : dataOf items = [] → m.maxSeqNum = syncedSeq ∧ m.seqNumAlloc = syncedSeq ∧ m.syncedSeqNum = NIL

theorem load_ok (items : List (DItem K)) (minSeq flushedSeq syncedSeq : Nat)
    (hinc : Increasing (dataOf items)) :
    Loaded items minSeq flushedSeq syncedSeq (MemTable.load items minSeq flushedSeq syncedSeq) := by
  unfold MemTable.load
  simp only []
  obtain ⟨h1, h2, h3⟩ := loadItems_ok items
    ({ startSeqNum := minSeq, minSeqNum := minSeq, flushedSeqNum := flushedSeq,
       maxSeqNum := syncedSeq, seqNumAlloc := syncedSeq } : MemTable K)
    ⟨List.Pairwise.nil, fun k => by simp [SMap.find?, keyRecs]⟩ (by simpa using hinc)
  generalize items.foldl MemTable.loadItem _ = m at h1 h2 h3
  simp only [List.nil_append] at h2
  cases hl : (dataOf items).getLast? with
  | none =>
    rw [List.getLast?_eq_none_iff] at hl
    exact ⟨h2, h1, h3.start, h3.min, h3.flushed, (by rw [hl]; intro r hr; cases hr), fun _ => ⟨h3.max, h3.alloc, h3.synced⟩⟩
  | some r =>
    refine ⟨h2, ⟨h1.keys, h1.idx⟩, h3.start, h3.min, h3.flushed, ?_, ?_⟩
    · intro r' hr'; rw [hl] at hr'; cases hr'; exact ⟨rfl, rfl, rfl⟩
    · intro hn; rw [hn] at hl; cases hl

theorem Loaded.look {items : List (DItem K)} {a b c : Nat} {m : MemTable K} (h : Loaded items a b c m)
    (hinc : Increasing (dataOf items)) : m.Look := by
  refine ⟨by rw [h.bySeq]; exact hinc, h.idx.weak, ?_⟩
  rw [h.bySeq]
  intro r hr
  rcases List.eq_nil_or_concat (dataOf items) with he | ⟨L, x, he⟩
  · rw [he] at hr; cases hr
  · rw [List.concat_eq_append] at he
    have := (h.some x (by rw [he]; simp)).1
    rw [this]
    rw [he] at hr hinc
    rcases List.mem_append.1 hr with hr | hr
    · exact Nat.le_of_lt ((List.pairwise_append.1 hinc).2.2 r hr x (by simp))
    · simp only [List.mem_singleton] at hr; rw [hr]; exact Nat.le_refl _

/-- Records above a flush mark. -/
def above (mark : Nat) (L : List (Rec K)) : List (Rec K) :=
  L.filter (fun r => !(valid mark && decide (r.seq ≤ mark)))

theorem above_sub {mark : Nat} {L : List (Rec K)} {r : Rec K} (h : r ∈ above mark L) : r ∈ L :=
  (List.mem_filter.1 h).1

/-- What a file on disk contributes to the recovered log section. -/
def contrib? (mark : Nat) : Option (DFile K) → List (Rec K)
  | some d => above mark (dataOf d.items)
  | none => []

theorem LogFile.load_some {disk : List (DFile K)} {num a b c : Nat} {d : DFile K}
    (hd : disk.find? (fun d => d.num == num) = some d) (ht : d.tail ≠ .bad)
    (hinc : Increasing (dataOf d.items)) :
    ∃ f, LogFile.load disk num a b c = some f ∧ f.num = num ∧ f.mem.Look ∧
      f.pending = above b (dataOf d.items) := by
  unfold LogFile.load
  rw [hd]
  simp only [if_neg ht]
  have hl := load_ok d.items a b c hinc
  refine ⟨_, rfl, ?_, ?_, ?_⟩
  · split
    · unfold LogFile.maybeClose; split <;> rfl
    · rfl
  · have : ∀ f : LogFile K, f.maybeClose.mem = f.mem := by
      intro f; unfold LogFile.maybeClose; split <;> rfl
    split
    · rw [this]; exact hl.look hinc
    · exact hl.look hinc
  · have : ∀ f : LogFile K, f.maybeClose.pending = f.pending := by
      intro f; unfold LogFile.maybeClose; split <;> rfl
    split
    · rw [this]; unfold LogFile.pending above; simp only [hl.bySeq, hl.flushed]
    · unfold LogFile.pending above; simp only [hl.bySeq, hl.flushed]

/-- State of the loading loop, as far as lookups need it. -/
structure LoadOk (s : LoadSt K) (entries : List PEntry) : Prop where
  sorted : (s.files.map (·.num)).Pairwise (· < ·)
  lt : ∀ f ∈ s.files, ∀ e ∈ entries, f.num < e.num
  le : ∀ f ∈ s.files, f.num ≤ s.maxNum
  maxN : s.maxNum < NIL
  eMax : ∀ e ∈ entries, e.num ≤ s.maxNum
  look : ∀ f ∈ s.files, f.mem.Look
  flag : s.firstRead = true ↔ s.files ≠ []
  lastF : s.lastFlushed = NIL ∨ (∃ f fs, s.files = f :: fs ∧ s.lastFlushed = f.num) ∨
    (s.files = [] ∧ ∀ e ∈ entries, s.lastFlushed ≤ e.num)
  /-- before anything is loaded, the mark of the manifest is its first entry or unset -/
  lastF0 : s.files = [] → s.lastFlushed = NIL ∨ ∃ e es, entries = e :: es ∧ s.lastFlushed = e.num

theorem LoadOk.noskip {s : LoadSt K} {e : PEntry} {es : List PEntry} (h : LoadOk s (e :: es)) :
    (valid s.lastFlushed && decide (e.num < s.lastFlushed)) = false := by
  rcases h.lastF with h1 | ⟨f, fs, h1, h2⟩ | ⟨h1, h2⟩
  · simp [h1, valid]
  · have := h.lt f (by rw [h1]; simp) e (by simp)
    have : ¬ e.num < s.lastFlushed := by omega
    simp [this]
  · have := h2 e (by simp)
    have : ¬ e.num < s.lastFlushed := by omega
    simp [this]

/-- Recovered log section, as far as lookups need it. -/
structure Recovered (s : LoadSt K) (B : List (Rec K)) : Prop where
  sorted : (s.files.map (·.num)).Pairwise (· < ·)
  le : ∀ f ∈ s.files, f.num ≤ s.maxNum
  maxN : s.maxNum < NIL
  look : ∀ f ∈ s.files, f.mem.Look
  lastF : s.lastFlushed = NIL ∨ (∃ f fs, s.files = f :: fs ∧ s.lastFlushed = f.num) ∨ s.files = []
  ne : s.files ≠ []
  pend : s.files.flatMap LogFile.pending = B

theorem look_empty (n : Nat) : (MemTable.init n : MemTable K).Look := (MemTable.WF.init n).look

theorem LoadOk.skip {s : LoadSt K} {e : PEntry} {es : List PEntry} (h : LoadOk s (e :: es))
    (q : Nat) :
    LoadOk { s with lastSeq := q, lastFlushed := NIL, lastSynced := NIL } es :=
  ⟨h.sorted, fun f hf' e he => h.lt f hf' e (by simp [he]), h.le, h.maxN,
    fun e he => h.eMax e (by simp [he]), h.look, h.flag, Or.inl rfl, fun _ => Or.inl rfl⟩

theorem LoadOk.add {s : LoadSt K} {e : PEntry} {es : List PEntry} (h : LoadOk s (e :: es))
    (hs : ((e :: es).map (·.num)).Pairwise (· < ·)) (q q' : Nat) {f : LogFile K} (hn : f.num = e.num)
    (hl : f.mem.Look) :
    LoadOk { s with files := s.files ++ [f], lastSeq := q, firstRead := true, lastSynced := q' } es := by
  refine ⟨?_, ?_, ?_, h.maxN, fun e he => h.eMax e (by simp [he]), ?_, ?_, ?_, ?_⟩
  · rw [List.map_append]
    refine List.pairwise_append.2 ⟨h.sorted, List.pairwise_singleton _ _, ?_⟩
    intro a ha b hb
    obtain ⟨g, hg, rfl⟩ := List.mem_map.1 ha
    simp only [List.map_cons, List.map_nil, List.mem_singleton] at hb
    subst hb
    rw [hn]; exact h.lt g hg e (by simp)
  · intro g hg e' he'
    rcases List.mem_append.1 hg with hg | hg
    · exact h.lt g hg e' (by simp [he'])
    · simp only [List.mem_singleton] at hg; subst hg
      rw [hn]
      exact (List.pairwise_cons.1 hs).1 e'.num (List.mem_map.2 ⟨e', he', rfl⟩)
  · intro g hg
    rcases List.mem_append.1 hg with hg | hg
    · exact h.le g hg
    · simp only [List.mem_singleton] at hg; subst hg
      rw [hn]; exact h.eMax e (by simp)
  · intro g hg
    rcases List.mem_append.1 hg with hg | hg
    · exact h.look g hg
    · simp only [List.mem_singleton] at hg; subst hg; exact hl
  · simp
  · rcases h.lastF with h1 | ⟨g, gs, h1, h2⟩ | ⟨h1, h2⟩
    · exact Or.inl h1
    · exact Or.inr (Or.inl ⟨g, gs ++ [f], by simp [h1], h2⟩)
    · rcases h.lastF0 h1 with h3 | ⟨e', es', h3, h4⟩
      · exact Or.inl h3
      · simp only [List.cons.injEq] at h3
        obtain ⟨rfl, rfl⟩ := h3
        exact Or.inr (Or.inl ⟨f, [], by simp [h1], by rw [h4, hn]⟩)
  · intro hne; simp at hne

theorem LoadOk.done {s : LoadSt K} (h : LoadOk s []) (hne : s.files ≠ []) :
    Recovered s (s.files.flatMap LogFile.pending) :=
  ⟨h.sorted, h.le, h.maxN, h.look, by
    rcases h.lastF with h1 | h1 | ⟨h1, -⟩
    · exact Or.inl h1
    · exact Or.inr (Or.inl h1)
    · exact absurd h1 hne, hne, rfl⟩

section loop
variable (disk : List (DFile K))

/-- The file an entry stands for. -/
def viewOf (e : PEntry) : Option (DFile K) := disk.find? (fun d => d.num == e.num)

/-- Every file that is there can be loaded. -/
def Readable (entries : List PEntry) : Prop :=
  ∀ e ∈ entries, ∀ d, viewOf disk e = some d → d.tail ≠ .bad ∧ Increasing (dataOf d.items)

theorem load_none {e : PEntry} (hv : viewOf disk e = none) (a b c : Nat) :
    LogFile.load disk e.num a b c = none := by
  unfold LogFile.load
  unfold viewOf at hv
  rw [hv]

/-- The end of the loop: files that contribute nothing, some of them missing. -/
theorem loadLoop_rest (Y : List PEntry) (s : LoadSt K) (h : LoadOk s Y)
    (hs : (Y.map (·.num)).Pairwise (· < ·)) (hr : Readable disk Y)
    (hY : ∀ e ∈ Y, contrib? e.flushed (viewOf disk e) = []) (hne : s.files ≠ [] ∨ Y ≠ []) :
    Recovered (LogMgr.loadLoop disk Y s) (s.files.flatMap LogFile.pending) := by
  induction Y generalizing s with
  | nil =>
    simp only [LogMgr.loadLoop]
    exact h.done (hne.resolve_right (fun h => h rfl))
  | cons e es ih =>
    have hs' : (es.map (·.num)).Pairwise (· < ·) := (List.pairwise_cons.1 hs).2
    have hr' : Readable disk es := fun e he => hr e (by simp [he])
    have hY' := fun e he => hY e (List.mem_cons_of_mem _ he)
    unfold LogMgr.loadLoop
    simp only [h.noskip, Bool.false_eq_true, if_false]
    cases hv : viewOf disk e with
    | some d =>
      have hd := hr e (by simp) d hv
      obtain ⟨f, hf, h1, h2, h3⟩ := LogFile.load_some (a := (if (!valid e.min &&
          valid (if valid e.synced = true then e.synced else s.lastSeq)) = true
          then (if valid e.synced = true then e.synced else s.lastSeq) + 1 else e.min))
        (b := e.flushed) (c := (if (!valid e.synced &&
          valid (if valid e.synced = true then e.synced else s.lastSeq)) = true
          then (if valid e.synced = true then e.synced else s.lastSeq) else e.synced)) hv hd.1 hd.2
      rw [hf]
      simp only []
      have hc := hY e (by simp)
      rw [hv] at hc
      have hp : f.pending = [] := by rw [h3]; exact hc
      have hB : s.files.flatMap LogFile.pending = (s.files ++ [f]).flatMap LogFile.pending := by
        simp [List.flatMap_append, hp]
      rw [hB]
      exact ih _ (h.add hs _ _ h1 h2) hs' hr' hY' (Or.inl (by simp))
    | none =>
      rw [load_none disk hv]
      simp only []
      by_cases hc : s.firstRead = false ∧ es ≠ []
      · rw [if_pos hc]
        have hf : s.files = [] := by
          by_contra hf
          have := h.flag.2 hf
          rw [hc.1] at this; cases this
        exact ih _ (h.skip _) hs' hr' hY' (Or.inr hc.2)
      · rw [if_neg hc]
        by_cases hf : s.files ≠ []
        · rw [if_pos hf]
          have hlast : s.lastFlushed = NIL ∨ (∃ f fs, s.files = f :: fs ∧ s.lastFlushed = f.num) ∨ s.files = [] := by
            rcases h.lastF with h1 | h1 | ⟨h1, -⟩
            · exact Or.inl h1
            · exact Or.inr (Or.inl h1)
            · exact Or.inr (Or.inr h1)
          by_cases h0 : e.num ≠ 0
          · rw [if_pos h0]
            refine ⟨h.sorted, ?_, ?_, h.look, hlast, hf, rfl⟩
            · intro g hg
              have := h.lt g hg e (by simp)
              simp only []; omega
            · have := h.eMax e (by simp); have := h.maxN; simp only []; omega
          · rw [if_neg h0]
            exact ⟨h.sorted, h.le, h.maxN, h.look, hlast, hf, rfl⟩
        · rw [if_neg hf]
          simp only [ne_eq, Decidable.not_not] at hf
          refine ⟨by simp, ?_, h.maxN, ?_, Or.inl rfl, by simp, ?_⟩
          · intro g hg; simp only [List.mem_singleton] at hg; subst hg; exact Nat.le_refl _
          · intro g hg; simp only [List.mem_singleton] at hg; subst hg
            exact look_empty 0
          · rw [hf]; rfl

/-- The middle of the loop: files that are all there. -/
theorem loadLoop_present (X Y : List PEntry) (s : LoadSt K) (h : LoadOk s (X ++ Y))
    (hs : ((X ++ Y).map (·.num)).Pairwise (· < ·)) (hr : Readable disk (X ++ Y))
    (hX : ∀ e ∈ X, viewOf disk e ≠ none)
    (hY : ∀ e ∈ Y, contrib? e.flushed (viewOf disk e) = []) (hne : s.files ≠ [] ∨ X ++ Y ≠ []) :
    Recovered (LogMgr.loadLoop disk (X ++ Y) s)
      (s.files.flatMap LogFile.pending ++ X.flatMap (fun e => contrib? e.flushed (viewOf disk e))) := by
  induction X generalizing s with
  | nil =>
    simpa using loadLoop_rest disk Y s h hs hr hY hne
  | cons e es ih =>
    rw [List.cons_append] at h hs hr hne ⊢
    have hs' : ((es ++ Y).map (·.num)).Pairwise (· < ·) := (List.pairwise_cons.1 hs).2
    have hr' : Readable disk (es ++ Y) := fun e he => hr e (by simp only [List.mem_cons]; exact Or.inr he)
    unfold LogMgr.loadLoop
    simp only [h.noskip, Bool.false_eq_true, if_false]
    cases hv : viewOf disk e with
    | none => exact absurd hv (hX e (by simp))
    | some d =>
      have hd := hr e (by simp) d hv
      obtain ⟨f, hf, h1, h2, h3⟩ := LogFile.load_some (a := (if (!valid e.min &&
          valid (if valid e.synced = true then e.synced else s.lastSeq)) = true
          then (if valid e.synced = true then e.synced else s.lastSeq) + 1 else e.min))
        (b := e.flushed) (c := (if (!valid e.synced &&
          valid (if valid e.synced = true then e.synced else s.lastSeq)) = true
          then (if valid e.synced = true then e.synced else s.lastSeq) else e.synced)) hv hd.1 hd.2
      rw [hf]
      simp only []
      have hB : s.files.flatMap LogFile.pending ++ (e :: es).flatMap (fun e => contrib? e.flushed (viewOf disk e)) =
          (s.files ++ [f]).flatMap LogFile.pending ++ es.flatMap (fun e => contrib? e.flushed (viewOf disk e)) := by
        rw [List.flatMap_cons, hv]
        simp only [contrib?]
        rw [← h3]
        simp [List.flatMap_append, List.append_assoc]
      rw [hB]
      exact ih _ (h.add hs _ _ h1 h2) hs' hr' (fun e he => hX e (by simp [he])) (Or.inl (by simp))

/-- The whole loop: missing files, then files that are there, then files that contribute nothing. -/
theorem loadLoop_ok (Z X Y : List PEntry) (s : LoadSt K) (h : LoadOk s (Z ++ (X ++ Y)))
    (h0 : s.files = [])
    (hs : ((Z ++ (X ++ Y)).map (·.num)).Pairwise (· < ·)) (hr : Readable disk (Z ++ (X ++ Y)))
    (hZ : ∀ e ∈ Z, viewOf disk e = none)
    (hX : ∀ e ∈ X, viewOf disk e ≠ none)
    (hY : ∀ e ∈ Y, contrib? e.flushed (viewOf disk e) = []) (hne : Z ++ (X ++ Y) ≠ []) :
    Recovered (LogMgr.loadLoop disk (Z ++ (X ++ Y)) s)
      (X.flatMap (fun e => contrib? e.flushed (viewOf disk e))) := by
  induction Z generalizing s with
  | nil =>
    have := loadLoop_present disk X Y s h hs hr hX hY (Or.inr hne)
    rw [h0] at this
    simpa using this
  | cons e es ih =>
    rw [List.cons_append] at h hs hr hne ⊢
    by_cases hl : es ++ (X ++ Y) = []
    · have h1 : es = [] ∧ X = [] ∧ Y = [] := by simpa using hl
      obtain ⟨rfl, rfl, rfl⟩ := h1
      have := loadLoop_rest disk [e] s h hs hr (by
        intro e' he'; simp only [List.mem_singleton] at he'; subst he'
        rw [hZ e' (by simp)]; rfl) (Or.inr (by simp))
      rw [h0] at this
      simpa using this
    · have hs' : ((es ++ (X ++ Y)).map (·.num)).Pairwise (· < ·) := (List.pairwise_cons.1 hs).2
      have hr' : Readable disk (es ++ (X ++ Y)) := fun e he => hr e (List.mem_cons_of_mem _ he)
      have hfr : s.firstRead = false := by
        cases hc : s.firstRead with
        | false => rfl
        | true => exact absurd h0 (h.flag.1 hc)
      unfold LogMgr.loadLoop
      simp only [h.noskip, Bool.false_eq_true, if_false]
      rw [load_none disk (hZ e (by simp))]
      simp only []
      rw [if_pos ⟨hfr, hl⟩]
      exact ih _ (h.skip _) h0 hs' hr' (fun e he => hZ e (by simp [he])) hl

end loop

theorem getFrom_rec {l : LogMgr K} {s : LoadSt K} {B : List (Rec K)} (h : Recovered s B)
    (hf : l.files = s.files) (hm : l.maxNum = s.maxNum) (hlf : l.lastFlushed = s.lastFlushed)
    (hb : l.barrier = 0) (hc : l.cfg.logSectionOnly = false) (k : K) :
    l.get k = match lastWrite B k with
      | some r => (.ok, some r)
      | none => (.keyNotFound, none) := by
  obtain ⟨f, fs, hfs⟩ := List.exists_cons_of_ne_nil h.ne
  have hmin : l.minNum = f.num := by unfold LogMgr.minNum; rw [hf, hfs]
  have hfle := h.le f (by rw [hfs]; simp)
  have hN := h.maxN
  have hlast : l.getLastFlushedLog = f.num := by
    unfold LogMgr.getLastFlushedLog
    rw [hlf]
    rcases h.lastF with h1 | ⟨g, gs, h1, h2⟩ | h1
    · rw [if_pos h1, hmin]
    · rw [hfs] at h1
      simp only [List.cons.injEq] at h1
      rw [h2, ← h1.1, if_neg (by omega)]
    · exact absurd h1 h.ne
  unfold LogMgr.get
  simp only [hlast, hm, hc, hb, Bool.false_eq_true, if_false]
  rw [if_neg (by omega)]
  have hall : l.fileRange f.num s.maxNum = s.files := by
    unfold LogMgr.fileRange
    rw [hf]
    have hd : s.files.dropWhile (fun g => decide (g.num < f.num)) = s.files := by
      rw [hfs, List.dropWhile_cons, if_neg (by simp)]
    rw [hd]
    rcases List.eq_nil_or_concat s.files with he | ⟨L, x, he⟩
    · exact absurd he h.ne
    · rw [List.concat_eq_append] at he
      rw [he]
      apply rangeUpto_all
      intro g hg
      have hs := h.sorted
      rw [he, List.map_append] at hs
      have := (List.pairwise_append.1 hs).2.2 g.num (List.mem_map.2 ⟨g, hg, rfl⟩) x.num (by simp)
      have := h.le x (by rw [he]; simp)
      omega
  rw [hall, getFrom_live k _ h.look, h.pend]
  cases lastWrite B k <;> rfl

end Jungle
