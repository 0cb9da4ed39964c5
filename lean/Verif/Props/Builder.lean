/-
  C55: a database made by the bulk builder holds exactly the records given to it, and goes on from there.

  The full property: whatever records are given to `Builder::set`, in whatever order, `commit` leaves a
  database that reads as if they had been written one after the other, each record with its own number;
  and whatever table files with right min keys and maxima are given to
  `buildFromTableFiles`, every record in them can be read.  It does not hold: see the counterexamples.
  Proved is the case of ascending keys (for table files: no overlap, number 0 the lowest).
-/
import Verif.Builder.DBLemmas
import Mathlib.Order.Nat

set_option linter.unusedSectionVars false

namespace Jungle
open Spec
variable {K : Type} [LinearOrder K] [OrderBot K]

/-- The records as given, with the numbers of the builder filled in: `c`, `c + 1`, … for those without. -/
def filledIn : Nat → List (Rec K) → List (Rec K)
  | _, [] => []
  | c, r :: rs => if r.seq = NIL then { r with seq := c } :: filledIn (c + 1) rs else r :: filledIn c rs

/-- What a reader must get for a key after history `h`. -/
def readOf (h : List (Rec K)) (k : K) : Status × Option (Rec K) :=
  match valueOf h k with
  | some r => (.ok, some r)
  | none => (.keyNotFound, none)

theorem docs_eq {c : Nat} {rs : List (Rec K)} (h : ∀ r ∈ rs, r.type = .insertion) :
    Bld.docs c rs = filledIn c rs := by
  induction rs generalizing c with
  | nil => rfl
  | cons r rs ih =>
    have hr := h r List.mem_cons_self
    have ih' := fun c => ih (c := c) (fun x hx => h x (List.mem_cons_of_mem _ hx))
    unfold Bld.docs filledIn
    by_cases hn : r.seq = NIL
    · simp only [if_pos hn, ih', Bld.docOf, ← hr]
    · simp only [if_neg hn, ih', Bld.docOf, ← hr]

theorem docs_facts (c : Nat) (rs : List (Rec K)) :
    (Bld.docs c rs).map (·.key) = rs.map (·.key) ∧ ∀ d ∈ Bld.docs c rs, d.type = .insertion := by
  induction rs generalizing c with
  | nil => exact ⟨rfl, by simp [Bld.docs]⟩
  | cons r rs ih =>
    unfold Bld.docs
    obtain ⟨h1, h2⟩ := ih (if r.seq = NIL then c + 1 else c)
    refine ⟨by rw [List.map_cons, List.map_cons, h1]; rfl, ?_⟩
    intro d hd
    rcases List.mem_cons.1 hd with rfl | hd
    · rfl
    · exact h2 d hd

theorem foldl_max (l : List Nat) (a : Nat) : a ≤ l.foldl Nat.max a ∧ (∀ x ∈ l, x ≤ l.foldl Nat.max a) ∧
    (l.foldl Nat.max a = a ∨ l.foldl Nat.max a ∈ l) := by
  induction l generalizing a with
  | nil => exact ⟨Nat.le_refl _, by simp, Or.inl rfl⟩
  | cons y ys ih =>
    rw [List.foldl_cons]
    obtain ⟨h1, h2, h3⟩ := ih (Nat.max a y)
    refine ⟨Nat.le_trans (Nat.le_max_left _ _) h1, ?_, ?_⟩
    · intro x hx
      rcases List.mem_cons.1 hx with rfl | hx
      · exact Nat.le_trans (Nat.le_max_right _ _) h1
      · exact h2 x hx
    · rcases h3 with h3 | h3
      · rw [h3]
        rcases Nat.le_total a y with hle | hle
        · right; rw [show Nat.max a y = y from Nat.max_eq_right hle]; exact List.mem_cons_self
        · left; exact Nat.max_eq_left hle
      · right; exact List.mem_cons_of_mem _ h3

theorem valueOf_ins {h : List (Rec K)} {k : K} {r : Rec K} (hv : valueOf h k = some r)
    : r.isIns = true := by
  unfold valueOf at hv
  cases hl : lastWrite h k with
  | none => rw [hl] at hv; cases hv
  | some x =>
    rw [hl] at hv
    simp only [vis] at hv
    split at hv
    · cases hv
    · next hd =>
      cases hv
      have := (lastWrite_mem hl).2.2
      unfold Rec.isDel at hd; unfold Rec.isCmd at this; unfold Rec.isIns
      cases ht : r.type <;> simp_all

theorem OnTop.read {S : TableSys K} {P : List (Rec K)} {n : Nat} {db : DB K S} {A B} (h : OnTop P n db A B)
    (hc : db.check .read = .ok) (k : K) : db.getRecordByKey k = readOf (P ++ (A ++ B)) k := by
  rw [h.get_eq hc, ← List.append_assoc]
  unfold readOf
  cases hv : valueOf (P ++ A ++ B) k with
  | none => rfl
  | some r => simp [valueOf_ins hv]

/-- C55, ascending keys.  `w` are the calls of `Builder::set`, each with a flag that says whether the
    open table file is full.  After `commit` the database is opened and any calls follow that get
    the records `h` accepted.  Then a read gives what it would give if the records of the builder had
    been written before `h`, the numbers go on above those of the builder, and the
    largest number is the one reported.  Missing: other orders of the keys, deletions, and different numbers for
    all records; they are false, see below. -/
theorem C55_built_partial (c : TCfg K) {parts : Nat} (hp : 0 < parts) (cfg : Cfg) (hc : cfg.Plain)
    (w : List (Bool × Rec K)) (hne : w ≠ [])
    (hk : (w.map (·.2.key)).Pairwise (· < ·))
    (hins : ∀ p ∈ w, p.2.type = .insertion)
    (hnum : ∀ d ∈ filledIn 1 (w.map (·.2)), 0 < d.seq ∧ d.seq < NIL)
    {db : DB K (Lsm c parts hp)} {h : List (Rec K)} (ha : After (DB.built c hp cfg w) db h) :
    (db.check .read = .ok → ∀ k, db.getRecordByKey k = readOf (filledIn 1 (w.map (·.2)) ++ h) k) ∧
    (∀ d ∈ filledIn 1 (w.map (·.2)), ∀ r ∈ h, d.seq < r.seq) ∧
    (∃ m, db.getMaxSeqNum = some m ∧ (∃ r ∈ filledIn 1 (w.map (·.2)) ++ h, r.seq = m) ∧
      ∀ r ∈ filledIn 1 (w.map (·.2)) ++ h, r.seq ≤ m) := by
  have hde : Bld.docs 1 (w.map (·.2)) = filledIn 1 (w.map (·.2)) :=
    docs_eq (by intro r hr; obtain ⟨p, hp', rfl⟩ := List.mem_map.1 hr; exact hins p hp')
  obtain ⟨f1, f2⟩ := docs_facts 1 (w.map (·.2))
  rw [hde] at f1 f2
  have hok := Bld.run_ok hk
  rw [hde] at hok
  generalize hD : filledIn 1 (w.map (·.2)) = D at *
  have hkD : D.Pairwise (fun a b => a.key < b.key) := by
    have : (D.map (·.key)).Pairwise (· < ·) := by
      rw [f1, List.map_map]; exact hk
    rwa [List.pairwise_map] at this
  have hcD : ∀ d ∈ D, d.isCmd = false := by
    intro d hd; unfold Rec.isCmd; rw [f2 d hd]; rfl
  obtain ⟨hg, hcont, hmax⟩ := hok.good hkD hcD
  have hneD : D ≠ [] := by
    intro he; rw [he] at f1
    have := List.map_eq_nil_iff.1 f1.symm
    exact hne (List.map_eq_nil_iff.1 this)
  obtain ⟨g1, g2, g3⟩ := foldl_max (D.map (·.seq)) 0
  rw [← hmax] at g1 g2 g3
  obtain ⟨d0, ds, hd0⟩ := List.exists_cons_of_ne_nil hneD
  have hpos : 0 < Builder.maxSeq (Bld.run w).tables := by
    have h1 := g2 d0.seq (List.mem_map_of_mem (by rw [hd0]; exact List.mem_cons_self))
    have h2 := (hnum d0 (by rw [hd0]; exact List.mem_cons_self)).1
    omega
  have hmem : Builder.maxSeq (Bld.run w).tables ∈ D.map (·.seq) := by
    rcases g3 with g3 | g3
    · omega
    · exact g3
  obtain ⟨dm, hdm, hdme⟩ := List.mem_map.1 hmem
  have hN : Builder.maxSeq (Bld.run w).tables < NIL := by rw [← hdme]; exact (hnum dm hdm).2
  have h0 := hg.onTop c hp cfg hc hpos hN
  rw [hcont] at h0
  have ha' : After (DB.fromTables c hp cfg (Bld.run w).tables) db h := ha
  generalize Builder.maxSeq (Bld.run w).tables = n at *
  obtain ⟨A, B, e, hi⟩ := ha'.inv h0
  have hle : ∀ d ∈ D, d.seq ≤ n := fun d hd => g2 d.seq (List.mem_map_of_mem hd)
  refine ⟨fun hck k => ?_, ?_, ?_⟩
  · rw [hi.read hck, e]
  · intro d hd r hr
    rw [e] at hr
    exact Nat.lt_of_le_of_lt (hle d hd) (hi.pos r hr).1
  · by_cases he : A ++ B = []
    · refine ⟨n, hi.max0 he, ⟨dm, List.mem_append_left _ hdm, hdme⟩, ?_⟩
      intro r hr
      rw [e, he, List.append_nil] at hr
      exact hle r hr
    · have h1 := hi.maxS he
      cases hgl : (A ++ B).getLast? with
      | none => exact absurd (List.getLast?_eq_none_iff.1 hgl) he
      | some x =>
        rw [hgl] at h1
        have hx := List.mem_of_getLast? hgl
        refine ⟨x.seq, h1, ⟨x, List.mem_append_right _ (by rw [e]; exact hx), rfl⟩, ?_⟩
        intro r hr
        rcases List.mem_append.1 hr with hr | hr
        · exact Nat.le_trans (hle r hr) (Nat.le_of_lt (hi.pos x hx).1)
        · rw [e] at hr
          obtain ⟨L, hL⟩ := List.getLast?_eq_some_iff.1 hgl
          have hinc := hi.log.inc
          rw [hL] at hr hinc
          rcases List.mem_append.1 hr with hr | hr
          · exact Nat.le_of_lt ((List.pairwise_append.1 hinc).2.2 r hr x (by simp))
          · simp only [List.mem_singleton] at hr; rw [hr]

/-- C55, numbers: if no record brings a number, the builder gives 1, 2, 3, … in the order of the calls. -/
theorem C55_numbers (rs : List (Rec K)) (h : ∀ r ∈ rs, r.seq = NIL) :
    (filledIn 1 rs).map (·.seq) = List.range' 1 rs.length := by
  have key : ∀ (rs : List (Rec K)) c, (∀ r ∈ rs, r.seq = NIL) →
      (filledIn c rs).map (·.seq) = List.range' c rs.length := by
    intro rs
    induction rs with
    | nil => intro c _; rfl
    | cons r rs ih =>
      intro c h
      unfold filledIn
      rw [if_pos (h r List.mem_cons_self), List.map_cons, ih _ (fun x hx => h x (List.mem_cons_of_mem _ hx))]
      rfl
  exact key rs 1 h

/-- C55, table files: no two overlap, each comes with its first key, and the one with number
    0, if there is one, has the lowest keys.  Every document in them is read, and nothing
    else, until later calls change it. -/
theorem C55_files_partial (c : TCfg K) {parts : Nat} (hp : 0 < parts) (cfg : Cfg) (hc : cfg.Plain)
    (tds : List (TData K)) (hg : Builder.Good tds) (h0 : 0 < Builder.maxSeq tds) (hN : Builder.maxSeq tds < NIL)
    {db : DB K (Lsm c parts hp)} {h : List (Rec K)} (ha : After (DB.fromTables c hp cfg tds) db h)
    (hck : db.check .read = .ok) (k : K) :
    db.getRecordByKey k = readOf (tds.flatMap (fun t => t.recs.map (·.2)) ++ h) k := by
  obtain ⟨A, B, e, hi⟩ := ha.inv (hg.onTop c hp cfg hc h0 hN)
  rw [hi.read hck, e]; rfl

/-- C55, flush mark: whatever was built, the opened database reports no flushed number, although all
    records are in tables (`LogMgr::init` sets the flush mark before the sync mark, and
    `setFlushedSeqNum` does nothing then, src/log_mgr.cc:147-153, src/log_file.cc:656-659). -/
theorem C55_flushed_violation (c : TCfg K) {parts : Nat} (hp : 0 < parts) (cfg : Cfg) (hc : cfg.Plain)
    (tds : List (TData K)) (h0 : 0 < Builder.maxSeq tds) (hN : Builder.maxSeq tds < NIL) :
    (DB.fromTables c hp cfg tds).getLastFlushedSeqNum = none := by
  show (LogMgr.built cfg (Builder.maxSeq tds) : LogMgr K).getLastFlushedSeqNum = none
  rw [LogMgr.built_eq cfg h0 hN hc.rw]
  rfl

/-! ### Concrete cases and counterexamples -/

namespace BuilderEx

def rec1 (k v : Nat) : Rec Nat := { seq := NIL, type := .insertion, key := k, val := [UInt8.ofNat v] }
def cfg : Cfg := {}
def tc : TCfg Nat := { hash := fun k => k }

/-- Five records in three table files. -/
def asc : List (Bool × Rec Nat) :=
  [(false, rec1 1 10), (false, rec1 2 20), (true, rec1 3 30), (false, rec1 4 40), (true, rec1 5 50)]

example : ∀ k, (DB.built tc (parts := 2) (by decide) cfg asc).getRecordByKey k =
    readOf (filledIn 1 (asc.map (·.2))) k := by
  intro k
  have := (C55_built_partial tc (parts := 2) (by decide) cfg (by constructor <;> decide) asc (by decide)
    (by decide) (by decide) (by decide) After.start).1 rfl k
  rwa [List.append_nil] at this

example : (DB.built tc (parts := 2) (by decide) cfg asc).table.lv.map (·.length) = [3] := by decide +kernel

example : (DB.built tc (parts := 2) (by decide) cfg asc).getRecordByKey 4 =
    (.ok, some { rec1 4 40 with seq := 4 }) := by decide +kernel

/-- Three table files with right min keys that do not overlap; the one with number 0 has the highest keys. -/
def files : List (TData Nat) :=
  [{ number := 0, minKey := 5, maxSeq := 2, recs := [(5, { rec1 5 50 with seq := 1 }), (6, { rec1 6 60 with seq := 2 })] },
   { number := 1, minKey := 1, maxSeq := 3, recs := [(1, { rec1 1 10 with seq := 3 })] },
   { number := 2, minKey := 3, maxSeq := 4, recs := [(3, { rec1 3 30 with seq := 4 })] }]

/-- The same with numbers 1, 2, 3. -/
def files1 : List (TData Nat) := files.map (fun t => { t with number := t.number + 1 })

theorem files1_good : Builder.Good files1 := by
  refine ⟨by decide, ?_, by decide, ?_, ?_, ?_⟩
  · intro t ht
    simp only [files1, files, List.map_cons, List.map_nil, List.mem_cons, List.not_mem_nil, or_false] at ht
    rcases ht with rfl | rfl | rfl <;> (unfold SMap.Sorted; decide)
  · intro t ht
    simp only [files1, files, List.map_cons, List.map_nil, List.mem_cons, List.not_mem_nil, or_false] at ht
    rcases ht with rfl | rfl | rfl <;> exact ⟨_, _, rfl, fun _ => rfl⟩
  · unfold TData.Under; decide
  · intro a ha h0
    simp only [files1, files, List.map_cons, List.map_nil, List.mem_cons, List.not_mem_nil, or_false] at ha
    rcases ha with rfl | rfl | rfl <;> cases h0

example (k : Nat) : (DB.fromTables tc (parts := 2) (by decide) cfg files1).getRecordByKey k =
    readOf (files1.flatMap (fun t => t.recs.map (·.2))) k := by
  have := C55_files_partial tc (parts := 2) (by decide) cfg (by constructor <;> decide) files1 files1_good
    (by decide) (by decide) After.start rfl k
  rwa [List.append_nil] at this

/-- C55 is false for table files: the search for the table with the smallest key never finds any
    (src/jungle_builder.cc:57-64), so that number 0 becomes the lowest table; its record with key 6 is lost. -/
theorem C55_files_violation :
    (files.map (·.number)).Nodup ∧ (∀ t ∈ files, t.recs.head?.map (·.1) = some t.minKey) ∧
    files.Pairwise (fun a b => a.Under b ∨ b.Under a) ∧
    readOf (files.flatMap (fun t => t.recs.map (·.2))) 6 = (.ok, some { rec1 6 60 with seq := 2 }) ∧
    (DB.fromTables tc (parts := 2) (by decide) cfg files).getRecordByKey 6 = (.keyNotFound, none) := by
  refine ⟨by decide, by decide, ?_, by decide +kernel, by decide +kernel⟩
  unfold TData.Under; decide

/-- Six records in three table files, not in the order of their keys. -/
def mixed : List (Bool × Rec Nat) :=
  [(false, rec1 1 10), (false, rec1 9 90), (true, rec1 2 20), (false, rec1 8 80), (true, rec1 3 30),
   (false, rec1 7 70)]

/-- C55 is false for keys in another order: a record given to the builder is not found. -/
theorem C55_order_violation :
    readOf (filledIn 1 (mixed.map (·.2))) 9 = (.ok, some { rec1 9 90 with seq := 2 }) ∧
    (DB.built tc (parts := 2) (by decide) cfg mixed).getRecordByKey 9 = (.keyNotFound, none) := by
  refine ⟨by decide +kernel, by decide +kernel⟩

/-- C55 is false for deletions: a deletion given to the builder is read as a live record with an
    empty value (src/jungle_builder.cc:173-241). -/
theorem C55_delete_violation :
    let r : Rec Nat := { seq := NIL, type := .deletion, key := 1 }
    readOf (filledIn 1 [r]) 1 = (.keyNotFound, none) ∧
    (DB.built tc (parts := 2) (by decide) cfg [(false, r)]).getRecordByKey 1 =
      (.ok, some { seq := 1, type := .insertion, key := 1 }) := by
  refine ⟨by decide +kernel, by decide +kernel⟩

/-- C55 is false for numbers: a record with number 1 and then one without get the same number
    (src/jungle_builder.cc:233). -/
theorem C55_number_violation :
    let w : List (Bool × Rec Nat) := [(false, { rec1 1 10 with seq := 1 }), (false, rec1 2 20)]
    (DB.built tc (parts := 2) (by decide) cfg w).getRecordByKey 1 = (.ok, some { rec1 1 10 with seq := 1 }) ∧
    (DB.built tc (parts := 2) (by decide) cfg w).getRecordByKey 2 = (.ok, some { rec1 2 20 with seq := 1 }) := by
  refine ⟨by decide +kernel, by decide +kernel⟩

/-- After a build and one more write, a read sees both. -/
example : ∃ (db : DB Nat (Lsm tc 2 (by decide))) (h : List (Rec Nat)),
    After (DB.built tc (parts := 2) (by decide) cfg asc) db h ∧ h.map (·.seq) = [6] ∧
    db.getRecordByKey 3 = (.ok, some { rec1 3 33 with seq := 6 }) ∧
    db.getRecordByKey 4 = (.ok, some { rec1 4 40 with seq := 4 }) := by
  refine ⟨((DB.built tc (parts := 2) (by decide) cfg asc).setRecord (rec1 3 33) false).2, _,
    After.set (rec1 3 33) false After.start ?_ (Or.inl rfl) (fun _ => rfl) ?_, ?_, ?_, ?_⟩
  · unfold DB.Fits; decide +kernel
  · refine Prod.ext ?_ rfl; decide +kernel
  · decide +kernel
  · decide +kernel
  · decide +kernel

end BuilderEx
end Jungle
