/-
  What a snapshot shows, when it is opened and while the database goes on.
-/
import Verif.DB.SnapInv

set_option linter.unusedSectionVars false

namespace Jungle
open Spec
variable {K : Type} [LinearOrder K] [OrderBot K] {c : TCfg K} {parts : Nat} {hp : 0 < parts} {keep : Nat}

/-- The records of a history with a number up to `n`. -/
theorem snapUpto_append (X Y : List (Rec K)) (n : Nat) : MemTable.upto (X ++ Y) n = MemTable.upto X n ++ MemTable.upto Y n := by
  unfold MemTable.upto; rw [List.filter_append]

theorem upto_new {X : List (Rec K)} {n : Nat} (h : ∀ r ∈ X, n < r.seq) : MemTable.upto X n = [] := by
  unfold MemTable.upto
  rw [List.filter_eq_nil_iff]
  intro r hr
  have := h r hr
  simp; omega

theorem upto_flatMap {α : Type} (l : List α) (f : α → List (Rec K)) (n : Nat) :
    MemTable.upto (l.flatMap f) n = l.flatMap (fun a => MemTable.upto (f a) n) := by
  induction l with
  | nil => rfl
  | cons a l ih => rw [List.flatMap_cons, snapUpto_append, ih]; rfl

/-- The search of a snapshot through its log files. -/
theorem getSnap_eq (chk : Nat) (hN : chk ≠ NIL) (fs : List (LogFile K)) (h : ∀ f ∈ fs, f.mem.Look) (k : K) :
    LogMgr.getSnap chk fs k = match lastWrite (fs.flatMap (fun f => MemTable.upto f.mem.bySeq chk)) k with
      | some r => (.ok, some r)
      | none => (.keyNotFound, none) := by
  suffices H : ∀ gs : List (LogFile K), (∀ f ∈ gs, f.mem.Look) →
      LogMgr.getFrom 0 chk false true k gs =
        lastWrite (gs.reverse.flatMap (fun f => MemTable.upto f.mem.bySeq chk)) k by
    have := H fs.reverse (fun f hf => h f (List.mem_reverse.1 hf))
    rw [List.reverse_reverse] at this
    unfold LogMgr.getSnap
    rw [this]
    cases lastWrite (fs.flatMap (fun f => MemTable.upto f.mem.bySeq chk)) k <;> rfl
  intro gs hg
  induction gs with
  | nil => rfl
  | cons f gs ih =>
    have ih := ih (fun g hg' => hg g (List.mem_cons_of_mem _ hg'))
    simp only [LogMgr.getFrom]
    rw [List.reverse_cons, List.flatMap_append, lastWrite_append]
    simp only [List.flatMap_cons, List.flatMap_nil, List.append_nil]
    rw [if_neg (by simp), MemTable.get_equal (hg f List.mem_cons_self), if_neg hN, ← ih]
    cases lastWrite (MemTable.upto f.mem.bySeq chk) k with
    | none => simp
    | some r => simp

/-- How the log files of one state are found in a later one. -/
structure Follows (l l' : LogMgr K) : Prop where
  num : l.maxNum ≤ l'.maxNum
  max : l.getMaxSeqNum.getD 0 ≤ l'.getMaxSeqNum.getD 0
  kept : ∀ f ∈ l.files, l'.file? f.num = none ∨ ∃ f' ∈ l'.files, l'.file? f.num = some f' ∧ f'.num = f.num ∧
    ∃ X, f'.mem.bySeq = f.mem.bySeq ++ X ∧ ∀ r ∈ X, l.getMaxSeqNum.getD 0 < r.seq
  gone : ∀ n, n ≤ l.maxNum → l.file? n = none → l'.file? n = none

theorem file?_none {l : LogMgr K} {n : Nat} : l.file? n = none ↔ ∀ f ∈ l.files, f.num ≠ n := by
  unfold LogMgr.file?
  rw [List.find?_eq_none]
  simp

theorem file?_some {l : LogMgr K} {n : Nat} {f : LogFile K} (h : l.file? n = some f) : f ∈ l.files ∧ f.num = n := by
  unfold LogMgr.file? at h
  exact ⟨List.mem_of_find?_eq_some h, by simpa using List.find?_some h⟩

theorem LogInv.num_inj {l : LogMgr K} {A B} (h : LogInv l A B) {f g : LogFile K} (hf : f ∈ l.files) (hg : g ∈ l.files)
    (e : f.num = g.num) : f = g := by
  have h1 := h.file?_mem hf
  rw [e, h.file?_mem hg] at h1
  exact (Option.some.inj h1).symm

theorem LogInv.num_le {l : LogMgr K} {A B} (h : LogInv l A B) {f : LogFile K} (hf : f ∈ l.files) : f.num ≤ l.maxNum := by
  obtain ⟨i, hi, rfl⟩ := List.getElem_of_mem hf
  have := h.num_eq i hi
  have := h.minNum_eq
  omega

theorem DBInv.max_mono {S : TableSys K} {db db' : DB K S} {A B A' B' N : List (Rec K)} (h : DBInv db A B)
    (h' : DBInv db' A' B') (he : A' ++ B' = A ++ B ++ N) :
    db.log.getMaxSeqNum.getD 0 ≤ db'.log.getMaxSeqNum.getD 0 ∧
    ∀ r ∈ N, db.log.getMaxSeqNum.getD 0 < r.seq := by
  by_cases h0 : A ++ B = []
  · rw [h.max0 h0]
    refine ⟨by simp, fun r hr => ?_⟩
    exact (h'.pos r (by rw [he]; simp [hr])).1
  · have hm := h.maxS h0
    have h0' : A' ++ B' ≠ [] := by rw [he]; exact fun e => h0 (List.append_eq_nil_iff.1 e).1
    have hm' := h'.maxS h0'
    obtain ⟨l, z, hz⟩ : ∃ l z, A ++ B = l ++ [z] := ⟨_, _, (List.dropLast_concat_getLast h0).symm⟩
    have hi := h'.log.inc
    rw [he, hz] at hi
    rw [hz] at hm
    simp at hm
    rw [hm]
    have hN : ∀ r ∈ N, z.seq < r.seq := fun r hr => (List.pairwise_append.1 hi).2.2 z (by simp) r hr
    refine ⟨?_, hN⟩
    rw [hm', he, hz]
    rcases List.eq_nil_or_concat N with e | ⟨N', w, e⟩
    · subst e; simp
    · subst e
      rw [List.concat_eq_append, ← List.append_assoc, List.getLast?_concat]
      exact Nat.le_of_lt (hN w (by simp))

theorem Eff.follows {S : TableSys K} {db db' : DB K S} {cs cs' : List PMani} {n n' : Nat} {A B N : List (Rec K)}
    (hi : PInv ⟨db, cs⟩ n A B) {A' B' : List (Rec K)} (hi' : PInv ⟨db', cs'⟩ n' A' B') (he : A' ++ B' = A ++ B ++ N)
    (hf : Eff db A B db' N) : Follows db.log db'.log := by
  have hl := hi.inv.log
  have hl' := hi'.inv.log
  obtain ⟨hmax, hnew⟩ := hi.inv.max_mono hi'.inv he
  cases hf with
  | write hw ht =>
    refine ⟨hw.num, hmax, ?_, ?_⟩
    · intro f hf
      right
      obtain ⟨f', h1, h2⟩ := hw.old f hf
      have h3 : db'.log.file? f'.num = some f' := hl'.file?_mem h1
      refine ⟨f', h1, by rw [← h2]; exact h3, h2, ?_⟩
      rcases hw.files f' h1 with ⟨h4, -⟩ | ⟨f0, h4, h5, ⟨X, h6, h7⟩, -⟩
      · have : f.num ≤ db.log.maxNum := hl.num_le hf
        omega
      · have : f0 = f := hl.num_inj h4 hf (by rw [← h5, h2])
        subst this
        refine ⟨X, h6, fun r hr => ?_⟩
        cases hm : db.log.getMaxSeqNum with
        | some m => exact h7 r hr m hm
        | none =>
          exact ((hl'.wf f' h1).bound r (by rw [h6]; simp [hr])).2.2.1
    · intro m hm hn
      rw [file?_none] at hn ⊢
      intro f' hf' e
      rcases hw.files f' hf' with ⟨h4, -⟩ | ⟨f0, h4, h5, -⟩
      · omega
      · exact hn f0 h4 (by rw [← h5, e])
  | touch ht _ =>
    obtain ⟨h1, -, φ, h2, h3⟩ := ht
    refine ⟨Nat.le_of_eq h1.symm, hmax, ?_, ?_⟩
    · intro f hf
      right
      have hm : φ f ∈ db'.log.files := by rw [h2]; exact List.mem_map.2 ⟨f, hf, rfl⟩
      obtain ⟨a1, a2, -⟩ := h3 f hf
      refine ⟨φ f, hm, by rw [← a1]; exact hl'.file?_mem hm, a1, [], by rw [a2]; simp, fun _ h => by cases h⟩
    · intro m _ hn
      rw [file?_none] at hn ⊢
      intro f' hf' e
      rw [h2] at hf'
      obtain ⟨f, hf, rfl⟩ := List.mem_map.1 hf'
      exact hn f hf (by rw [← (h3 f hf).1, e])
  | @flush o P g Q s hF hlog htab =>
    have hfiles' : db'.log.files = ((if o.beyondLastSync = true then g.setSyncedSeqNum s else g).setFlushedSeqNum s) :: Q := by
      rw [hlog]; rfl
    have hrel := hF.rel
    generalize ((if o.beyondLastSync = true then g.setSyncedSeqNum s else g).setFlushedSeqNum s) = g' at hfiles' hrel
    have hsub : ∀ f' ∈ db'.log.files, ∃ f ∈ db.log.files, f'.num = f.num ∧ f'.mem.bySeq = f.mem.bySeq := by
      intro f' hf'
      rw [hfiles'] at hf'
      rcases List.mem_cons.1 hf' with h1 | h1
      · subst h1; exact ⟨g, by rw [hF.files]; simp, hrel.num, hrel.bySeq⟩
      · exact ⟨f', by rw [hF.files]; simp [h1], rfl, rfl⟩
    refine ⟨by rw [hlog]; exact Nat.le_refl _, hmax, ?_, ?_⟩
    · intro f hf
      cases hq : db'.log.file? f.num with
      | none => exact Or.inl rfl
      | some f' =>
        right
        obtain ⟨h1, h2⟩ := file?_some hq
        obtain ⟨f0, h3, h4, h5⟩ := hsub f' h1
        have : f0 = f := hl.num_inj h3 hf (by rw [← h4, h2])
        subst this
        exact ⟨f', h1, rfl, h2, [], by rw [h5]; simp, fun _ h => by cases h⟩
    · intro m _ hn
      rw [file?_none] at hn ⊢
      intro f' hf' e
      obtain ⟨f0, h3, h4, -⟩ := hsub f' hf'
      exact hn f0 h3 (by rw [← h4, e])
  | maint hlog _ =>
    refine ⟨by rw [hlog]; exact Nat.le_refl _, hmax, ?_, ?_⟩
    · intro f hf
      right
      have hf' : f ∈ db'.log.files := by rw [hlog]; exact hf
      exact ⟨f, hf', hl'.file?_mem hf', rfl, [], by simp, fun _ h => by cases h⟩
    · intro m _ hn; rw [hlog]; exact hn

/-- The part of a snapshot in the log: `L` is what it shows. -/
structure LView (l : LogMgr K) (chk : Nat) (fs : List (LogFile K)) (L : List (Rec K)) : Prop where
  le : chk ≤ l.getMaxSeqNum.getD 0
  show_ : fs.flatMap (fun f => MemTable.upto f.mem.bySeq chk) = L
  look : ∀ f ∈ fs, f.mem.Look
  num : ∀ f ∈ fs, f.num ≤ l.maxNum
  file : ∀ f ∈ fs, f ∈ l.files ∨ l.file? f.num = none

theorem LView.follow {l l' : LogMgr K} {chk : Nat} {fs : List (LogFile K)} {L : List (Rec K)} (v : LView l chk fs L)
    (h : Follows l l') {A B} (hl' : LogInv l' A B) : LView l' chk (fs.map (fun f => (l'.file? f.num).getD f)) L := by
  have key : ∀ f ∈ fs, (l'.file? f.num = none ∧ (l'.file? f.num).getD f = f) ∨
      ∃ f' ∈ l'.files, (l'.file? f.num).getD f = f' ∧ f'.num = f.num ∧
        MemTable.upto f'.mem.bySeq chk = MemTable.upto f.mem.bySeq chk := by
    intro f hf
    rcases v.file f hf with h1 | h1
    · rcases h.kept f h1 with h2 | ⟨f', h2, h3, h4, X, h5, h6⟩
      · left; rw [h2]; exact ⟨rfl, rfl⟩
      · right
        refine ⟨f', h2, by rw [h3]; rfl, h4, ?_⟩
        rw [h5, snapUpto_append, upto_new (X := X), List.append_nil]
        intro r hr
        have := h6 r hr
        have := v.le
        omega
    · left
      have := h.gone _ (v.num f hf) h1
      rw [this]; exact ⟨rfl, rfl⟩
  refine ⟨Nat.le_trans v.le h.max, ?_, ?_, ?_, ?_⟩
  · rw [List.flatMap_map, ← v.show_]
    apply flatMap_congr_mem
    intro f hf
    rcases key f hf with ⟨-, h2⟩ | ⟨f', -, h2, -, h3⟩
    · rw [h2]
    · rw [h2, h3]
  · intro g hg
    obtain ⟨f, hf, rfl⟩ := List.mem_map.1 hg
    rcases key f hf with ⟨-, h2⟩ | ⟨f', h1, h2, -⟩
    · rw [h2]; exact v.look f hf
    · rw [h2]; exact (hl'.wf f' h1).look
  · intro g hg
    obtain ⟨f, hf, rfl⟩ := List.mem_map.1 hg
    have := v.num f hf
    have := h.num
    rcases key f hf with ⟨-, h2⟩ | ⟨f', h1, h2, h3, -⟩
    · rw [h2]; omega
    · rw [h2, h3]; omega
  · intro g hg
    obtain ⟨f, hf, rfl⟩ := List.mem_map.1 hg
    rcases key f hf with ⟨h1, h2⟩ | ⟨f', h1, h2, -⟩
    · right; rw [h2]; exact h1
    · left; rw [h2]; exact h1

/-- What a snapshot shows: `L` in its log files, `T` in the tables. -/
structure SView (db : DB K (LsmC c parts hp keep)) (sn : Snap K) (chk : Nat) (L : List (Rec K))
    (T : K → Except Status (Option (Rec K))) : Prop where
  num : sn.chk = chk
  log : ∃ fs, sn.logs = some fs ∧ LView db.log chk fs L
  lv : sn.tabs.lv = (db.table : CMgr K).tab.lv.map (fun l => l.map (fun x => (x.number, x.recs)))
  tab : ∀ k, CMgr.snapGet c (db.table : CMgr K) sn.tabs k = T k

theorem SView.step {db db' : DB K (LsmC c parts hp keep)} {h h' : List (Rec K)} {sn : Snap K} {chk : Nat} {L T}
    (v : SView db sn chk L T) {cs : List PMani} {n : Nat} (hr : PReach ⟨db, cs⟩ h n) (ha : Act db h db' h') :
    SView db' (sn.follow db'.log) chk L T := by
  obtain ⟨A, B, e, hi⟩ := hr.inv
  obtain ⟨N, hf, e2⟩ := ha.eff hi e
  obtain ⟨cs', n', hr'⟩ := ha.preach hr
  obtain ⟨A', B', e', hi'⟩ := hr'.inv
  have he : A' ++ B' = A ++ B ++ N := by rw [← e', e2, e]
  have hfo := hf.follows hi hi' he
  obtain ⟨fs, h1, h2⟩ := v.log
  have htab : db'.table = db.table ∨ ∃ R cps, db'.table = CMgr.setBatch c keep (db.table : CMgr K) R cps :=
    ha.table hi e
  refine ⟨v.num, ⟨_, ?_, h2.follow hfo hi'.inv.log⟩, ?_, ?_⟩
  · unfold Snap.follow; rw [h1]; rfl
  · rcases htab with h3 | ⟨R, cps, h3⟩
    · rw [h3]; exact v.lv
    · have b := CMgr.setBatch_batched keep R cps (db.table : CMgr K) hi.inv.table
      rw [h3, b.lv]; exact v.lv
  · intro k
    rcases htab with h3 | ⟨R, cps, h3⟩
    · rw [h3]; exact v.tab k
    · have b := CMgr.setBatch_batched keep R cps (db.table : CMgr K) hi.inv.table
      rw [h3, ← v.tab k]
      exact b.snapGet hi.inv.table v.lv k

theorem Acts.view {db db' : DB K (LsmC c parts hp keep)} {h h' : List (Rec K)} {sn sn' : Snap K} {chk : Nat} {L T}
    (ha : Acts db h sn db' h' sn') (v : SView db sn chk L T) {cs : List PMani} {n : Nat} (hr : PReach ⟨db, cs⟩ h n) :
    SView db' sn' chk L T ∧ ∃ cs' n', PReach ⟨db', cs'⟩ h' n' := by
  induction ha with
  | refl => exact ⟨v, cs, n, hr⟩
  | step _ ha ih =>
    obtain ⟨v1, cs1, n1, hr1⟩ := ih
    exact ⟨v1.step hr1 ha, ha.preach hr1⟩

/-- The files a snapshot takes hold of when its number belongs to a record in the log. -/
theorem DInv.open_log {db : DB K (LsmC c parts hp keep)} {A B : List (Rec K)} (hl : LogInv db.log A B)
    {f : LogFile K} (hf : f ∈ db.log.files) {r : Rec K} (hr : r ∈ f.mem.bySeq) (hle : r.seq ≤ db.log.getMaxSeqNum.getD 0)
    (lf : Nat) : ∃ fs, db.log.snapFiles r.seq lf = some fs ∧
      LView db.log r.seq fs (MemTable.upto (db.log.files.flatMap (·.mem.bySeq)) r.seq) := by
  have h0 := ((hl.wf f hf).bound r hr)
  have hmin : db.log.minNum ≠ NIL := by
    have h1 := hl.minNum_eq
    have h2 := hl.numN
    have h3 : 0 < db.log.files.length := List.length_pos_of_mem hf
    omega
  refine ⟨db.log.files.filter (fun g => decide (g.num ≤ f.num)), ?_, hle, ?_, ?_, ?_, ?_⟩
  · unfold LogMgr.snapFiles LogMgr.openSnapshot
    rw [if_neg (by omega), if_neg hmin, hl.fileBySeq_rec hf hr]
    simp only [Option.map_some, Option.some.injEq]
    apply List.filter_congr
    intro g hg
    simp only [List.mem_map, List.mem_filter, decide_eq_true_eq, decide_eq_decide]
    constructor
    · rintro ⟨g', ⟨h1, h2⟩, h3⟩; rw [← h3]; exact h2
    · intro h1; exact ⟨g, ⟨hg, h1⟩, rfl⟩
  · obtain ⟨P, Q, e⟩ := List.append_of_mem hf
    have ho := hl.order
    rw [e] at ho ⊢
    have ho1 := List.pairwise_append.1 ho
    have ho2 := List.pairwise_cons.1 ho1.2.1
    rw [upto_flatMap, List.filter_append, List.filter_cons, if_pos (by simp), List.filter_eq_self.2, List.filter_eq_nil_iff.2,
      List.flatMap_append, List.flatMap_append, List.flatMap_cons, List.flatMap_cons]
    · congr 2
      symm
      rw [List.flatMap_nil, List.flatMap_eq_nil_iff]
      intro g hg
      apply upto_new
      intro r' hr'
      have hmx : f.mem.maxSeqNum ≠ NIL := (ho2.1 g hg).ne
      exact Nat.lt_of_le_of_lt h0.2.1 ((ho2.1 g hg).recs hmx r' hr')
    · intro g hg
      have := (ho2.1 g hg).num
      simp; omega
    · intro g hg
      have := (ho1.2.2 g hg f (by simp)).num
      simp; omega
  · intro g hg; exact (hl.wf g (List.mem_filter.1 hg).1).look
  · intro g hg; exact hl.num_le (List.mem_filter.1 hg).1
  · intro g hg; exact Or.inl (List.mem_filter.1 hg).1

theorem DInv.newest {db : DB K (LsmC c parts hp keep)} {cs : List PMani} {n : Nat} {A B : List (Rec K)}
    (hi : PInv ⟨db, cs⟩ n A B) (hd : DInv db A B) {m : Nat} (hm : db.log.getMaxSeqNum = some m) :
    ∃ f ∈ db.log.files, ∃ r ∈ f.mem.bySeq, r.seq = m := by
  obtain ⟨fs, f, hf⟩ := hi.inv.log.split_last
  have hff : f ∈ db.log.files := by rw [hf]; simp
  have h1 : db.log.getMaxSeqNum = _ := hi.inv.log.getMax_eq hf
  rw [hm] at h1
  split at h1
  · next h2 =>
    obtain ⟨r, hr, hre⟩ := (hd.chk f hff).top h2
    exact ⟨f, hff, r, hr, by rw [hre]; exact (Option.some.inj h1).symm⟩
  · cases h1

theorem SView.open {db : DB K (LsmC c parts hp keep)} {A B : List (Rec K)} (hl : LogInv db.log A B)
    {f : LogFile K} (hf : f ∈ db.log.files) {r : Rec K} (hr : r ∈ f.mem.bySeq) (hle : r.seq ≤ db.log.getMaxSeqNum.getD 0) :
    SView db (db.snapAt r.seq) r.seq (MemTable.upto (db.log.files.flatMap (·.mem.bySeq)) r.seq)
      (fun k => CMgr.snapGet c (db.table : CMgr K) (CMgr.openSnapshot (db.table : CMgr K) r.seq) k) := by
  refine ⟨rfl, ?_, rfl, fun k => rfl⟩
  exact DInv.open_log hl hf hr hle _

theorem SView.get {db : DB K (LsmC c parts hp keep)} {sn : Snap K} {chk : Nat} {L T} (v : SView db sn chk L T)
    (hN : chk ≠ NIL) (hc : db.check .read = .ok) (hm : db.log.cfg.logSectionOnly = false) (k : K) :
    db.snapGet sn k = match lastWrite L k with
      | some r => if r.isIns then (.ok, some r.val) else (.keyNotFound, none)
      | none => match T k with
        | .ok (some r) => if r.isIns then (.ok, some r.val) else (.keyNotFound, none)
        | .ok none => (.keyNotFound, none)
        | .error .ok => (.ok, some [])
        | .error s => (s, none) := by
  obtain ⟨fs, h1, h2⟩ := v.log
  unfold DB.snapGet
  rw [if_neg (by simp [hc]), h1]
  simp only []
  rw [v.num, getSnap_eq chk hN fs h2.look k, h2.show_]
  cases lastWrite L k with
  | some r => rfl
  | none =>
    simp only [hm, v.tab k]
    rfl

/-- The history as the files of the log and the tables have it. -/
theorem DInv.lastWrite {db : DB K (LsmC c parts hp keep)} {A B : List (Rec K)} (hd : DInv db A B) (hl : LogInv db.log A B)
    (chk : Nat) (k : K) :
    Spec.lastWrite (MemTable.upto (A ++ B) chk) k =
      match Spec.lastWrite (MemTable.upto (db.log.files.flatMap (·.mem.bySeq)) chk) k with
      | some r => some r
      | none => Spec.lastWrite (MemTable.upto A chk) k := by
  cases h : Spec.lastWrite (MemTable.upto (db.log.files.flatMap (·.mem.bySeq)) chk) k with
  | some r =>
    obtain ⟨D, hD⟩ := hd.flat
    rw [hD, snapUpto_append, lastWrite_append, h]; rfl
  | none =>
    rw [snapUpto_append, lastWrite_append]
    have : Spec.lastWrite (MemTable.upto B chk) k = none := by
      rw [lastWrite_none] at h ⊢
      intro r hr
      apply h
      unfold MemTable.upto at hr ⊢
      rw [List.mem_filter] at hr ⊢
      refine ⟨?_, hr.2⟩
      have := hr.1
      rw [hl.pend] at this
      obtain ⟨f, hf, h2⟩ := List.mem_flatMap.1 this
      exact List.mem_flatMap.2 ⟨f, hf, (mem_pending.1 h2).1⟩
    rw [this]; rfl

end Jungle
