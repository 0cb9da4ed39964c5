/-
  User comparators (`DBConfig::cmpFunc`, include/libjungle/db_config.h:255-263).  The records of a
  memtable and of a table file are kept in the order of the comparator (src/memtable.cc:308-336,
  src/table_file.cc:326-331), while the tables of a level are ordered by the bytes of their min keys
  (src/table_manifest.h:82-87), and compactions and memtable iterators compare bytes.

  `ord : K → O` gives the order of the comparator; the order of `K` is that of the bytes.
-/
import Verif.Table.Lsm

set_option linter.unusedSectionVars false

namespace Jungle
namespace TMgr
variable {K : Type} [LinearOrder K] [OrderBot K] {O : Type} [LinearOrder O] {V : Type}

/-! ### Model -/

/-- Insertion in the order of the comparator (src/memtable.cc:308-326). -/
def insBy (ord : K → O) (e : K × V) : List (K × V) → List (K × V)
  | [] => [e]
  | x :: xs => if ord e.1 ≤ ord x.1 then e :: x :: xs else x :: insBy ord e xs

/-- The records in the order in which an iterator over the file or the memtable gives them. -/
def inOrder (ord : K → O) (l : List (K × V)) : List (K × V) := l.foldr (insBy ord) []

/-- `TableFile::getMaxKey` (src/table_file.cc:1520-1555): the last key of the iterator. -/
def lastBy (ord : K → O) (l : List (K × V)) : Option K := (inOrder ord l).getLast?.map (·.1)

/-- src/table_compaction.cc:117-128 -/
def maxKeyOfBy (ord : K → O) (tables : List (Tab K)) : K :=
  match tables.getLast? with
  | none => ⊥
  | some x => (lastBy ord x.recs).getD x.minKey

/-- `compactLevelItr` (src/table_compaction.cc:83-497) with a comparator: the victim is read in the order
    of the comparator, everything else is as in `mergeInto`. -/
def mergeIntoBy (ord : K → O) (l : List (Tab K)) (num : Nat) (vmin : K) (rs : SMap K (Rec K)) (purge : Bool)
    (full : Nat → Bool) : List (Tab K) × Nat :=
  let tables := tablesRange l vmin (lastBy ord rs)
  let fg := firstGroup tables vmin
  let asg := assign (maxKeyOfBy ord tables) full 0 fg.1 fg.2 (inOrder ord rs)
  let ms := freshKeys fg.1 asg
  ((freshTables num ms asg).reverse.foldl addTable (writeOld l asg purge), num + ms.length)

/-- The second half of `TableMgr::compactL0` (src/table_compaction.cc:940-960) with a comparator. -/
def compactL0EndBy (ord : K → O) (c : TCfg K) (t : TMgr K) (p : Nat) (full : Nat → Bool) : TMgr K :=
  match t.srcOf p with
  | none => t
  | some v =>
    let lv := if t.lv.isEmpty then [[]] else t.lv
    match lv with
    | [] => t
    | l :: ls =>
      let m := mergeIntoBy ord l t.nextNum v.minKey v.recs (c.purge && ls.isEmpty) full
      { t with nextNum := m.2, lv := m.1 :: ls, l0 := removeTable t.l0 v.number }

/-- `skiplist_find_greater_or_equal` passes this key: it is before the start key in the order of the
    comparator.  `none` is an empty key: without data it is before all others (`CMP_NULL_CHK`,
    src/memtable.cc:313). -/
def beforeStart (ord : K → O) (lo : Option K) (k : K) : Bool :=
  match lo with
  | none => false
  | some a => decide (ord k < ord a)

/-- The end key is checked by the bytes (src/memtable_iterator.cc:48,62,209); an empty one is no bound. -/
def notPastEnd (hi : Option K) (k : K) : Bool :=
  match hi with
  | none => true
  | some b => decide (k ≤ b)

/-- The loop of `MemTable::Iterator::init` and `next` over all records from the start key on
    (src/memtable_iterator.cc:36-75, 196-226).  Simplification: every key has a record in the
    range of sequence numbers. -/
def memScan (ord : K → O) (l : List (K × V)) (lo hi : Option K) : List (K × V) :=
  ((inOrder ord l).dropWhile (fun e => beforeStart ord lo e.1)).takeWhile (fun e => notPastEnd hi e.1)

/-! ### Lemmas -/

theorem insBy_perm (ord : K → O) (e : K × V) (l : List (K × V)) : (insBy ord e l).Perm (e :: l) := by
  induction l with
  | nil => exact List.Perm.refl _
  | cons x xs ih =>
    simp only [insBy]
    split
    · exact List.Perm.refl _
    · exact (List.Perm.cons x ih).trans (List.Perm.swap e x xs)

theorem inOrder_perm (ord : K → O) (l : List (K × V)) : (inOrder ord l).Perm l := by
  induction l with
  | nil => exact List.Perm.refl _
  | cons x xs ih => exact (insBy_perm ord x _).trans (List.Perm.cons x ih)

theorem insBy_sorted {ord : K → O} {e : K × V} {l : List (K × V)}
    (h : l.Pairwise (fun a b => ord a.1 ≤ ord b.1)) : (insBy ord e l).Pairwise (fun a b => ord a.1 ≤ ord b.1) := by
  induction l with
  | nil => simp [insBy]
  | cons x xs ih =>
    have hp := List.pairwise_cons.1 h
    simp only [insBy]
    split
    · next hle =>
      refine List.pairwise_cons.2 ⟨fun y hy => ?_, h⟩
      rcases List.mem_cons.1 hy with rfl | hy
      · exact hle
      · exact le_trans hle (hp.1 y hy)
    · next hle =>
      refine List.pairwise_cons.2 ⟨fun y hy => ?_, ih hp.2⟩
      rcases List.mem_cons.1 ((insBy_perm ord e xs).mem_iff.1 hy) with rfl | hy
      · exact le_of_lt (not_le.1 hle)
      · exact hp.1 y hy

theorem inOrder_sorted (ord : K → O) (l : List (K × V)) :
    (inOrder ord l).Pairwise (fun a b => ord a.1 ≤ ord b.1) := by
  induction l with
  | nil => exact List.Pairwise.nil
  | cons x xs ih => exact insBy_sorted ih

/-- A comparator that orders the keys like their bytes changes nothing. -/
theorem inOrder_id {ord : K → O} (ho : ∀ a b, a < b → ord a < ord b) {l : List (K × V)}
    (h : l.Pairwise (fun a b => a.1 < b.1)) : inOrder ord l = l := by
  induction l with
  | nil => rfl
  | cons x xs ih =>
    have hp := List.pairwise_cons.1 h
    show insBy ord x (inOrder ord xs) = _
    rw [ih hp.2]
    cases xs with
    | nil => rfl
    | cons y ys => simp only [insBy]; rw [if_pos (le_of_lt (ho _ _ (hp.1 y (by simp))))]

theorem mergeIntoBy_id {ord : K → O} (ho : ∀ a b, a < b → ord a < ord b) {l : List (Tab K)}
    (hl : ∀ x ∈ l, x.recs.Sorted) {rs : SMap K (Rec K)} (hrs : rs.Sorted) (num : Nat) (vmin : K) (p : Bool)
    (full : Nat → Bool) : mergeIntoBy ord l num vmin rs p full = mergeInto l num vmin rs p full := by
  have h1 : inOrder ord rs = rs := inOrder_id ho hrs
  have h2 : lastBy ord rs = rs.getLast?.map (·.1) := by unfold lastBy; rw [h1]
  have hsub : ∀ hi, ∀ x ∈ tablesRange l vmin hi, x ∈ l := by
    intro hi x hx
    have gen : ∀ (ys : List (Tab K)) (prev : Option (Tab K)), (∀ y ∈ (fromFloor prev ys vmin).2, y ∈ ys) ∧
        (∀ y ∈ (fromFloor prev ys vmin).1, y ∈ ys ∨ prev = some y) := by
      intro ys
      induction ys with
      | nil => intro prev; exact ⟨fun y hy => hy, fun y hy => Or.inr hy⟩
      | cons a ys ih =>
        intro prev
        cases ys with
        | nil => exact ⟨fun y hy => hy, fun y hy => Or.inr hy⟩
        | cons b ys =>
          simp only [fromFloor]
          split
          · refine ⟨fun y hy => List.mem_cons_of_mem _ ((ih (some a)).1 y hy), fun y hy => ?_⟩
            rcases (ih (some a)).2 y hy with h | h
            · exact Or.inl (List.mem_cons_of_mem _ h)
            · left; rw [← Option.some.inj h]; exact List.mem_cons_self
          · exact ⟨fun y hy => hy, fun y hy => Or.inr hy⟩
    unfold tablesRange at hx
    dsimp only at hx
    rcases List.mem_append.1 hx with h | h
    · split at h
      · split at h
        · rcases (gen l none).2 x (Option.mem_toList.1 h) with h | h
          · exact h
          · cases h
        · cases h
      · cases h
    · exact (gen l none).1 x (List.mem_of_mem_filter h)
  have h3 : ∀ hi, maxKeyOfBy ord (tablesRange l vmin hi) = maxKeyOf (tablesRange l vmin hi) := by
    intro hi
    unfold maxKeyOfBy maxKeyOf
    cases hx : (tablesRange l vmin hi).getLast? with
    | none => rfl
    | some x =>
      have := hl x (hsub hi x (List.mem_of_getLast? hx))
      dsimp only
      unfold lastBy Tab.maxKey
      rw [inOrder_id ho this]
  unfold mergeIntoBy mergeInto
  dsimp only
  rw [h1, h2, h3]

theorem compactL0EndBy_id {ord : K → O} (ho : ∀ a b, a < b → ord a < ord b) {c : TCfg K} {t : TMgr K} (h : Inv c t)
    {p : Nat} (hp : p < t.parts) (full : Nat → Bool) : t.compactL0EndBy ord c p full = t.compactL0End c p full := by
  unfold compactL0EndBy compactL0End
  cases hs : t.srcOf p with
  | none => rfl
  | some v =>
    have hv := (srcOf_iff h hp v).1 hs
    dsimp only
    generalize hlv : (if t.lv.isEmpty = true then [[]] else t.lv) = lv
    cases lv with
    | nil => rfl
    | cons l ls =>
      dsimp only
      rw [mergeIntoBy_id ho _ (h.l0Recs v hv.1).1]
      intro x hx
      split at hlv
      · cases hlv; cases hx
      · have : l ∈ t.lv := by rw [hlv]; simp
        exact ((h.lv l this).tab x hx).1

/-! ### A level that consists of one table -/

theorem assign_never (top : K) (cur : Tgt K) (rs : List (K × Rec K)) :
    ∀ i, assign top (fun _ => false) i cur [] rs = rs.map (fun e => (cur, e.2)) := by
  induction rs with
  | nil => intro i; rfl
  | cons e rs ih =>
    intro i
    obtain ⟨k, r⟩ := e
    simp only [assign, Bool.false_and, Bool.false_eq_true, if_false, List.map_cons]
    rw [ih]

/-- The destination level for any grouping that respects the ranges. -/
theorem asg_look {l : List (Tab K)} (hl : LevelOk l) {num : Nat} (hn : ∀ t ∈ l, t.number < num)
    {rs : SMap K (Rec K)} (hkey : ∀ e ∈ rs, e.2.key = e.1) {news : List K}
    {asg : List (Tgt K × Rec K)} (h1 : AsgOk l news asg) (h2 : (asg.map (·.2)).Perm (rs.map (·.2))) (p : Bool) :
    LevelOk ((freshTables num news asg).reverse.foldl addTable (writeOld l asg p)) ∧
    (∀ t ∈ (freshTables num news asg).reverse.foldl addTable (writeOld l asg p), t.number < num + news.length) ∧
    (∀ k r, rs.find? k = some r →
      look ((freshTables num news asg).reverse.foldl addTable (writeOld l asg p)) k = some r ∨
      (look ((freshTables num news asg).reverse.foldl addTable (writeOld l asg p)) k = none ∧ p = true ∧ r.isDel = true)) ∧
    (∀ k, rs.find? k = none →
      look ((freshTables num news asg).reverse.foldl addTable (writeOld l asg p)) k = look l k) := by
  obtain ⟨m1, m2, m3, m4⟩ := merged_ok hl hn h1 p
  refine ⟨m1, m2, ?_, ?_⟩
  · intro k r hf
    have hm := SMap.find?_some_mem hf
    have : r ∈ rs.map (·.2) := List.mem_map.2 ⟨(k, r), hm, rfl⟩
    obtain ⟨a, ha, har⟩ := List.mem_map.1 (h2.mem_iff.2 this)
    have hak : a.2.key = k := by rw [har]; exact hkey _ hm
    have := m3 a ha
    rw [hak] at this
    rw [this, har]
    by_cases hc : (p && r.isDel && !a.1.fresh) = true
    · right
      rw [if_pos hc]
      simp only [Bool.and_eq_true] at hc
      exact ⟨rfl, hc.1.1, hc.1.2⟩
    · left; rw [if_neg hc]
  · intro k hf
    apply m4
    intro a ha hak
    obtain ⟨e, he, hea⟩ := List.mem_map.1 (h2.mem_iff.1 (List.mem_map_of_mem ha))
    have hek := hkey e he
    rw [hea, hak] at hek
    exact SMap.find?_none_iff.1 hf e he hek.symm

theorem one_keys (ord : K → O) {rs : SMap K (Rec K)} (hrs : rs.Sorted) (hkey : ∀ e ∈ rs, e.2.key = e.1) (cur : Tgt K) :
    ((inOrder ord rs).map (fun e => (cur, e.2))).Pairwise (fun a b => a.2.key ≠ b.2.key) := by
  rw [List.pairwise_map]
  have h1 : (inOrder ord rs).Pairwise (fun a b => a.2.key ≠ b.2.key) := by
    refine ((inOrder_perm ord rs).pairwise_iff (fun h => Ne.symm h)).2 ?_
    have h0 : List.Pairwise (fun a b : K × Rec K => a.1 < b.1) rs := hrs
    refine List.Pairwise.imp_of_mem ?_ h0
    intro a b ha hb h
    rw [hkey a ha, hkey b hb]; exact ne_of_lt h
  exact h1

theorem one_perm (ord : K → O) (rs : SMap K (Rec K)) (cur : Tgt K) :
    ((((inOrder ord rs).map (fun e => (cur, e.2))) : List (Tgt K × Rec K)).map (·.2)).Perm (rs.map (·.2)) := by
  rw [List.map_map]
  exact (inOrder_perm ord rs).map _

theorem freshKeys_one (rs : List (K × Rec K)) (b : Bool) :
    freshKeys ⟨(⊥ : K), b⟩ (rs.map (fun e => ((⟨⊥, b⟩ : Tgt K), e.2))) = if b then [⊥] else [] := by
  unfold freshKeys
  cases b with
  | false =>
    have : (rs.map (fun e => ((⟨⊥, false⟩ : Tgt K), e.2))).filter
        (fun a => a.1.fresh && decide (a.1.minKey = a.2.key)) = [] := by
      rw [List.filter_eq_nil_iff]
      intro a ha
      obtain ⟨e, _, rfl⟩ := List.mem_map.1 ha
      simp
    rw [this]; rfl
  | true =>
    have : (((rs.map (fun e => ((⟨⊥, true⟩ : Tgt K), e.2))).filter
        (fun a => a.1.fresh && decide (a.1.minKey = a.2.key))).map (·.1.minKey)).filter
        (fun m => decide (m ≠ (⟨(⊥ : K), true⟩ : Tgt K).minKey ∨ (⟨(⊥ : K), true⟩ : Tgt K).fresh = false)) = [] := by
      rw [List.filter_eq_nil_iff]
      intro a ha
      obtain ⟨x, hx, rfl⟩ := List.mem_map.1 ha
      obtain ⟨e, _, rfl⟩ := List.mem_map.1 (List.mem_of_mem_filter hx)
      simp
    rw [this]; rfl

/-- A level with no table, or with one table for all keys. -/
def One (l : List (Tab K)) : Prop := l = [] ∨ ∃ x, l = [x] ∧ x.minKey = ⊥

theorem mergeIntoBy_one (ord : K → O) {l : List (Tab K)} (hl : LevelOk l) (ho : One l) {num : Nat}
    (hn : ∀ t ∈ l, t.number < num) {rs : SMap K (Rec K)} (hrs : rs.Sorted) (hkey : ∀ e ∈ rs, e.2.key = e.1) (p : Bool) :
    LevelOk (mergeIntoBy ord l num ⊥ rs p (fun _ => false)).1 ∧
    (∀ t ∈ (mergeIntoBy ord l num ⊥ rs p (fun _ => false)).1, t.number < (mergeIntoBy ord l num ⊥ rs p (fun _ => false)).2) ∧
    num ≤ (mergeIntoBy ord l num ⊥ rs p (fun _ => false)).2 ∧
    (∀ k r, rs.find? k = some r → look (mergeIntoBy ord l num ⊥ rs p (fun _ => false)).1 k = some r ∨
      (look (mergeIntoBy ord l num ⊥ rs p (fun _ => false)).1 k = none ∧ p = true ∧ r.isDel = true)) ∧
    (∀ k, rs.find? k = none → look (mergeIntoBy ord l num ⊥ rs p (fun _ => false)).1 k = look l k) ∧
    One (mergeIntoBy ord l num ⊥ rs p (fun _ => false)).1 := by
  rcases ho with rfl | ⟨x, rfl, hx⟩
  · have e : mergeIntoBy ord [] num ⊥ rs p (fun _ => false) =
        (((freshTables num [⊥] ((inOrder ord rs).map (fun e => ((⟨⊥, true⟩ : Tgt K), e.2)))).reverse.foldl addTable
          (writeOld [] ((inOrder ord rs).map (fun e => ((⟨⊥, true⟩ : Tgt K), e.2))) p)), num + 1) := by
      unfold mergeIntoBy
      simp only [tablesRange, fromFloor, List.filter_nil, List.append_nil, firstGroup]
      rw [assign_never, freshKeys_one]
      rfl
    have hasg : AsgOk ([] : List (Tab K)) [⊥] ((inOrder ord rs).map (fun e => ((⟨⊥, true⟩ : Tgt K), e.2))) := by
      refine ⟨one_keys ord hrs hkey _, ?_, by simp, ?_, ?_, ?_, by simp, by simp, by simp⟩
      · intro a ha; obtain ⟨e, _, rfl⟩ := List.mem_map.1 ha; exact bot_le
      · intro a ha m hm _; obtain ⟨e, _, rfl⟩ := List.mem_map.1 ha
        rw [List.mem_singleton.1 hm]
      · intro a ha hf; obtain ⟨e, _, rfl⟩ := List.mem_map.1 ha; cases hf
      · intro a ha _; obtain ⟨e, _, rfl⟩ := List.mem_map.1 ha; exact List.mem_singleton.2 rfl
    obtain ⟨m1, m2, m3, m4⟩ := asg_look hl hn hkey hasg (one_perm ord rs _) p
    rw [e]
    refine ⟨m1, m2, Nat.le_add_right _ _, m3, m4, Or.inr ⟨_, rfl, ?_⟩⟩
    exact (writeGroup_fields _ _ _).1
  · have htr : ∀ hi, tablesRange [x] ⊥ hi = [x] := by
      intro hi
      simp only [tablesRange, fromFloor, (hl.tab x (by simp)).2.2, Bool.false_eq_true, if_false, List.nil_append]
      cases hi with
      | none => rfl
      | some b => simp [hx]
    have e : mergeIntoBy ord [x] num ⊥ rs p (fun _ => false) =
        ((freshTables num [] ((inOrder ord rs).map (fun e => ((⟨⊥, false⟩ : Tgt K), e.2)))).reverse.foldl addTable
          (writeOld [x] ((inOrder ord rs).map (fun e => ((⟨⊥, false⟩ : Tgt K), e.2))) p), num + 0) := by
      unfold mergeIntoBy
      dsimp only
      rw [htr]
      have hf : firstGroup [x] (⊥ : K) = (⟨⊥, false⟩, []) := by
        simp [firstGroup, advance, hx]
      rw [hf]
      dsimp only
      rw [assign_never, freshKeys_one]
      rfl
    have hasg : AsgOk [x] [] ((inOrder ord rs).map (fun e => ((⟨⊥, false⟩ : Tgt K), e.2))) := by
      refine ⟨one_keys ord hrs hkey _, ?_, ?_, by simp, ?_, ?_, by simp, by simp, by simp⟩
      · intro a ha; obtain ⟨e, _, rfl⟩ := List.mem_map.1 ha; exact bot_le
      · intro a ha t ht _; obtain ⟨e, _, rfl⟩ := List.mem_map.1 ha
        rw [List.mem_singleton.1 ht, hx]
      · intro a ha _; obtain ⟨e, _, rfl⟩ := List.mem_map.1 ha; exact ⟨x, by simp, hx⟩
      · intro a ha hf; obtain ⟨e, _, rfl⟩ := List.mem_map.1 ha; cases hf
    obtain ⟨m1, m2, m3, m4⟩ := asg_look hl hn hkey hasg (one_perm ord rs _) p
    rw [e]
    refine ⟨m1, m2, Nat.le_refl _, m3, m4, Or.inr ⟨_, rfl, ?_⟩⟩
    exact ((writeGroup_fields _ _ x).1).trans hx

theorem compactL0EndBy_one (ord : K → O) {c : TCfg K} {t : TMgr K} (h : Inv c t) (ho : ∀ l ∈ t.lv, One l)
    {p : Nat} (hp : p < t.parts) :
    Same c t (t.compactL0EndBy ord c p (fun _ => false)) ∧
      ∀ l ∈ (t.compactL0EndBy ord c p (fun _ => false)).lv, One l := by
  unfold compactL0EndBy
  cases hs : t.srcOf p with
  | none => exact ⟨Same.refl h, ho⟩
  | some v =>
    have hv := (srcOf_iff h hp v).1 hs
    have hvr := h.l0Recs v hv.1
    dsimp only
    generalize hlv : (if t.lv.isEmpty = true then [[]] else t.lv) = lv
    cases lv with
    | nil => exact ⟨Same.refl h, ho⟩
    | cons l ls =>
      have hl : (LevelOk l ∧ ∀ x ∈ l, x.number < t.nextNum) ∧ One l ∧ ∀ y ∈ ls, One y := by
        split at hlv
        · cases hlv; exact ⟨⟨LevelOk.nil, by simp⟩, Or.inl rfl, by simp⟩
        · have hm : l ∈ t.lv := by rw [hlv]; simp
          exact ⟨⟨h.lv l hm, h.lvNum l hm⟩, ho l hm, fun y hy => ho y (by rw [hlv]; simp [hy])⟩
      obtain ⟨m1, m2, m3, m4, m5, m6⟩ := mergeIntoBy_one ord hl.1.1 hl.2.1 hl.1.2 hvr.1 (fun e he => (hvr.2 e he).1)
        (c.purge && ls.isEmpty)
      dsimp only
      rw [h.l0Min v hv.1]
      refine ⟨l0End_of h hp hs hlv _ m1 m2 m3 m4 m5, ?_⟩
      intro y hy
      rcases List.mem_cons.1 hy with rfl | hy
      · exact m6
      · exact hl.2.2 y hy

end TMgr
end Jungle
