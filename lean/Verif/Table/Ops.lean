/-
  Lemmas about the other operations on one level above 0: interrupted compaction, merge of two
  neighbours, in-place compaction, split, loading.
-/
import Verif.Table.Merge

set_option linter.unusedSectionVars false

namespace Jungle
namespace TMgr
variable {K : Type} [LinearOrder K] [OrderBot K]

/-! ### Writing records into the tables they belong to -/

theorem write_ok {l : List (Tab K)} (hl : LevelOk l) (g : Tab K → List (Rec K)) (p : Bool) {m : Bool}
    (hd : ∀ x ∈ l, (g x).Pairwise (fun a b => a.key ≠ b.key))
    (hr : ∀ x ∈ l, ∀ r ∈ g x, x.minKey ≤ r.key ∧ ∀ t ∈ l, t.minKey ≤ r.key → t.minKey ≤ x.minKey) :
    LevelOk (l.map (fun x => writeGroup x (g x) p m)) ∧
    (∀ x ∈ l, ∀ r ∈ g x, look (l.map (fun x => writeGroup x (g x) p m)) r.key =
      if p && r.isDel then none else some r) ∧
    (∀ k, (∀ x ∈ l, ∀ r ∈ g x, r.key ≠ k) →
      look (l.map (fun x => writeGroup x (g x) p m)) k = look l k) := by
  have hmem : ∀ t, t ∈ l.map (fun x => writeGroup x (g x) p m) ↔ ∃ x ∈ l, t = writeGroup x (g x) p m := by
    intro t; rw [List.mem_map]
    constructor <;> rintro ⟨x, h1, h2⟩ <;> exact ⟨x, h1, h2.symm⟩
  have hm : (l.map (fun x => writeGroup x (g x) p m)).map (·.minKey) = l.map (·.minKey) := by
    rw [List.map_map]; exact List.map_congr_left (fun x _ => (writeGroup_fields _ _ x).1)
  have hn : (l.map (fun x => writeGroup x (g x) p m)).map (·.number) = l.map (·.number) := by
    rw [List.map_map]; exact List.map_congr_left (fun x _ => (writeGroup_fields _ _ x).2.1)
  have hok : LevelOk (l.map (fun x => writeGroup x (g x) p m)) := by
    refine ⟨?_, ?_, ?_, ?_⟩
    · have h1 : ((l.map (fun x => writeGroup x (g x) p m)).map (·.minKey)).Pairwise (· < ·) := by
        rw [hm, List.pairwise_map]; exact hl.sorted
      rw [List.pairwise_map] at h1; exact h1
    · intro a ha b hb hlt e he
      obtain ⟨x, hx, rfl⟩ := (hmem a).1 ha
      obtain ⟨y, hy, rfl⟩ := (hmem b).1 hb
      rw [(writeGroup_fields _ _ x).1, (writeGroup_fields _ _ y).1] at hlt
      rw [(writeGroup_fields _ _ y).1]
      rcases writeGroup_mem _ _ (hl.tab x hx).1 he with h1 | ⟨r, h1, h2⟩
      · exact hl.range x hx y hy hlt e h1
      · rw [h2]
        by_contra hcon
        exact absurd hlt (not_lt.2 ((hr x hx r h1).2 y hy (not_lt.1 hcon)))
    · intro t ht
      obtain ⟨x, hx, rfl⟩ := (hmem t).1 ht
      refine ⟨writeGroup_sorted _ _ (hl.tab x hx).1, ?_, ?_⟩
      · intro e he
        rw [(writeGroup_fields _ _ x).1]
        rcases writeGroup_mem _ _ (hl.tab x hx).1 he with h1 | ⟨r, h1, h2⟩
        · exact (hl.tab x hx).2.1 e h1
        · rw [h2]; exact ⟨rfl, (hr x hx r h1).1⟩
      · rw [(writeGroup_fields _ _ x).2.2.1]; exact (hl.tab x hx).2.2
    · rw [hn]; exact hl.nums
  refine ⟨hok, ?_, ?_⟩
  · intro x hx r hrx
    have hfind : (g x).find? (fun a => decide (a.key = r.key)) = some r := by
      cases hg : (g x).find? (fun a => decide (a.key = r.key)) with
      | none => have := List.find?_eq_none.1 hg _ hrx; simp at this
      | some a =>
        have h1 := List.mem_of_find?_eq_some hg
        have h2 := List.find?_some hg
        simp only [decide_eq_true_eq] at h2
        have := List.Pairwise.forall_of_forall_of_flip (R := fun a b : Rec K => a.key = b.key → a = b)
          (l := g x) (fun _ _ _ => rfl) ((hd x hx).imp (fun h h' => absurd h' h))
          ((hd x hx).imp (fun h h' => absurd h'.symm h))
        rw [this h1 hrx h2]
    rw [look_floor hok ((hmem _).2 ⟨x, hx, rfl⟩)]
    · rw [writeGroup_get _ _ (hl.tab x hx).1 (hd x hx), hfind]
    · rw [(writeGroup_fields _ _ x).1]; exact (hr x hx r hrx).1
    · intro t ht hle
      obtain ⟨y, hy, rfl⟩ := (hmem t).1 ht
      rw [(writeGroup_fields _ _ y).1] at hle ⊢
      rw [(writeGroup_fields _ _ x).1]
      exact (hr x hx r hrx).2 y hy hle
  · intro k hk
    have hnone : ∀ x ∈ l, (g x).find? (fun r => decide (r.key = k)) = none := by
      intro x hx
      rw [List.find?_eq_none]
      intro r hr'
      simpa using hk x hx r hr'
    apply Option.ext
    intro r
    rw [look_some_iff hok, look_some_iff hl]
    constructor
    · rintro ⟨t, ht, hg⟩
      obtain ⟨x, hx, rfl⟩ := (hmem t).1 ht
      rw [writeGroup_get _ _ (hl.tab x hx).1 (hd x hx), hnone x hx] at hg
      exact ⟨x, hx, hg⟩
    · rintro ⟨x, hx, hg⟩
      refine ⟨_, (hmem _).2 ⟨x, hx, rfl⟩, ?_⟩
      rw [writeGroup_get _ _ (hl.tab x hx).1 (hd x hx), hnone x hx]
      exact hg

/-- An interrupted compaction only touches keys of the victim. -/
theorem mergePart_ok {l : List (Tab K)} (hl : LevelOk l)
    {vmin : K} {rs : SMap K (Rec K)} (hrs : rs.Sorted) (hkey : ∀ e ∈ rs, e.2.key = e.1)
    (hv : ∀ e ∈ rs, vmin ≤ e.1) (p : Bool) (full : Nat → Bool) (done : K → Nat) :
    LevelOk (mergePart l vmin rs p full done) ∧
    (mergePart l vmin rs p full done).map (·.number) = l.map (·.number) ∧
    (∀ k, rs.find? k = none → look (mergePart l vmin rs p full done) k = look l k) ∧
    (∀ k r, rs.find? k = some r → look (mergePart l vmin rs p full done) k = look l k ∨
      look (mergePart l vmin rs p full done) k = some r ∨ look (mergePart l vmin rs p full done) k = none) := by
  obtain ⟨h1, h2⟩ := merge_asg hl hrs hkey hv full
  unfold mergePart
  simp only at h1 h2 ⊢
  generalize hasg : assign (maxKeyOf (tablesRange l vmin (Option.map (fun x => x.1) (List.getLast? rs))))
    full 0 (firstGroup (tablesRange l vmin (Option.map (fun x => x.1) (List.getLast? rs))) vmin).1
    (firstGroup (tablesRange l vmin (Option.map (fun x => x.1) (List.getLast? rs))) vmin).2 rs = asg at *
  have hw := write_ok (m := true) hl (fun x => (groupOf asg x.minKey false).take (done x.minKey)) p
    (fun x _ => (groupOf_distinct h1.keys x.minKey false).sublist (List.take_sublist _ _))
    (by
      intro x hx r hr
      obtain ⟨a, ha, ha2, _, ha4⟩ := groupOf_mem.1 (List.mem_of_mem_take hr)
      rw [← ha2, ← ha4]
      exact ⟨h1.lek a ha, h1.cover a ha⟩)
  refine ⟨hw.1, ?_, ?_, ?_⟩
  rotate_left 2
  · intro k r hk
    by_cases hex : ∃ x ∈ l, ∃ r' ∈ (groupOf asg x.minKey false).take (done x.minKey), r'.key = k
    · right
      obtain ⟨x, hx, r', hr', hrk⟩ := hex
      have hlk := hw.2.1 x hx r' hr'
      rw [hrk] at hlk
      obtain ⟨a, ha, _, _, ha4⟩ := groupOf_mem.1 (List.mem_of_mem_take hr')
      have : a.2 ∈ rs.map (·.2) := by rw [← h2]; exact List.mem_map_of_mem ha
      obtain ⟨e, he, hea⟩ := List.mem_map.1 this
      have hek := hkey e he
      rw [hea, ha4, hrk] at hek
      have hf := SMap.find?_of_mem hrs (k := e.1) (v := e.2) he
      rw [← hek, hk, hea, ha4] at hf
      cases hf
      rw [hlk]
      split
      · exact Or.inr rfl
      · exact Or.inl rfl
    · left
      apply hw.2.2 k
      intro x hx r' hr' hrk
      exact hex ⟨x, hx, r', hr', hrk⟩
  · rw [List.map_map]; exact List.map_congr_left (fun x _ => (writeGroup_fields _ _ x).2.1)
  · intro k hk
    apply hw.2.2 k
    intro x hx r hr hrk
    obtain ⟨a, ha, _, _, ha4⟩ := groupOf_mem.1 (List.mem_of_mem_take hr)
    have : a.2 ∈ rs.map (·.2) := by rw [← h2]; exact List.mem_map_of_mem ha
    obtain ⟨e, he, hea⟩ := List.mem_map.1 this
    have hek := hkey e he
    rw [hea, ha4, hrk] at hek
    exact SMap.find?_none_iff.1 hk e he hek.symm

/-! ### Removing and replacing a table -/

theorem eq_of_number {l : List (Tab K)} (h : (l.map (·.number)).Nodup) {a b : Tab K} (ha : a ∈ l)
    (hb : b ∈ l) (hn : a.number = b.number) : a = b :=
  List.inj_on_of_nodup_map h ha hb hn

theorem look_remove {l : List (Tab K)} (hl : LevelOk l) {v : Tab K} (hv : v ∈ l) (k : K) :
    (v.get k = none → look (removeTable l v.number) k = look l k) ∧
    (∀ r, v.get k = some r → look (removeTable l v.number) k = none ∧ look l k = some r) := by
  have hok := hl.removeTable v.number
  constructor
  · intro hn
    apply Option.ext; intro r
    rw [look_some_iff hok, look_some_iff hl]
    constructor
    · rintro ⟨t, ht, hg⟩; exact ⟨t, (mem_removeTable.1 ht).1, hg⟩
    · rintro ⟨t, ht, hg⟩
      refine ⟨t, mem_removeTable.2 ⟨ht, ?_⟩, hg⟩
      intro he
      rw [eq_of_number hl.nums ht hv he, hn] at hg; cases hg
  · intro r hr
    have hlk := (look_some_iff hl k r).2 ⟨v, hv, hr⟩
    refine ⟨?_, hlk⟩
    cases hx : look (removeTable l v.number) k with
    | none => rfl
    | some r' =>
      exfalso
      obtain ⟨t, ht, hg⟩ := (look_some_iff hok k r').1 hx
      have ht' := mem_removeTable.1 ht
      -- two tables with the same key
      have h1 := SMap.find?_some_mem hg
      have h2 := SMap.find?_some_mem hr
      rcases lt_trichotomy t.minKey v.minKey with h | h | h
      · have h3 : k < v.minKey := hl.range t ht'.1 v hv h (k, r') h1
        exact absurd ((hl.tab v hv).2.1 _ h2).2 (not_le.2 h3)
      · exact ht'.2 (by rw [eq_of_minKey hl.sorted ht'.1 hv h])
      · have h3 : k < t.minKey := hl.range v hv t ht'.1 h (k, r) h2
        exact absurd ((hl.tab t ht'.1).2.1 _ h1).2 (not_le.2 h3)

/-- Min keys in ascending order, repetitions allowed. -/
abbrev WeakSorted (l : List (Tab K)) : Prop := l.Pairwise (fun a b => a.minKey ≤ b.minKey)

theorem addTable_weak {l : List (Tab K)} (h : WeakSorted l) (x : Tab K) : WeakSorted (addTable l x) := by
  induction l with
  | nil => simp [addTable, WeakSorted]
  | cons y ys ih =>
    have hc := List.pairwise_cons.1 h
    simp only [addTable]
    split
    · next hle =>
      refine List.pairwise_cons.2 ⟨?_, h⟩
      intro t ht
      rcases List.mem_cons.1 ht with rfl | ht'
      · exact hle
      · exact le_trans hle (hc.1 t ht')
    · next hgt =>
      refine List.pairwise_cons.2 ⟨?_, ih hc.2⟩
      intro t ht
      rcases mem_addTable.1 ht with rfl | ht'
      · exact le_of_lt (not_le.1 hgt)
      · exact hc.1 t ht'

theorem addTable_front {l : List (Tab K)} {x : Tab K} (h : ∀ t ∈ l, x.minKey ≤ t.minKey) :
    addTable l x = x :: l := by
  cases l with
  | nil => rfl
  | cons y ys => simp only [addTable, if_pos (h y List.mem_cons_self)]

theorem remove_addTable {l : List (Tab K)} (h : WeakSorted l) {x : Tab K} {n : Nat} (hx : x.number ≠ n) :
    removeTable (addTable l x) n = addTable (removeTable l n) x := by
  induction l with
  | nil => simp [addTable, removeTable, hx]
  | cons y ys ih =>
    have hc := List.pairwise_cons.1 h
    by_cases hxy : x.minKey ≤ y.minKey
    · rw [addTable_front (l := removeTable (y :: ys) n)]
      · simp only [addTable, if_pos hxy, removeTable]
        rw [List.filter_cons_of_pos (by simpa using hx)]
      · intro t ht
        rcases List.mem_cons.1 (mem_removeTable.1 ht).1 with rfl | h'
        · exact hxy
        · exact le_trans hxy (hc.1 t h')
    · simp only [addTable, if_neg hxy]
      by_cases hy : y.number = n
      · have e1 : removeTable (y :: addTable ys x) n = removeTable (addTable ys x) n := by
          simp [removeTable, hy]
        have e2 : removeTable (y :: ys) n = removeTable ys n := by simp [removeTable, hy]
        rw [e1, e2, ih hc.2]
      · have e1 : removeTable (y :: addTable ys x) n = y :: removeTable (addTable ys x) n := by
          simp [removeTable, hy]
        have e2 : removeTable (y :: ys) n = y :: removeTable ys n := by simp [removeTable, hy]
        rw [e1, e2, ih hc.2]
        simp only [addTable, if_neg hxy]

theorem remove_foldl {xs : List (Tab K)} {l : List (Tab K)} (h : WeakSorted l) {n : Nat}
    (hx : ∀ x ∈ xs, x.number ≠ n) :
    removeTable (xs.foldl addTable l) n = xs.foldl addTable (removeTable l n) := by
  induction xs generalizing l with
  | nil => rfl
  | cons x xs ih =>
    simp only [List.foldl_cons]
    rw [ih (addTable_weak h x) (fun y hy => hx y (List.mem_cons_of_mem _ hy)),
      remove_addTable h (hx x List.mem_cons_self)]

/-- Replacing a table by tables that divide its range. -/
theorem replace_ok {l : List (Tab K)} (hl : LevelOk l) {v : Tab K} (hv : v ∈ l)
    (news : List (Tab K)) (keep : Rec K → Prop)
    (hs : news.Pairwise (fun a b => a.minKey ≠ b.minKey))
    (hm : ∀ x ∈ news, x.minKey = v.minKey ∨ ∃ e ∈ v.recs, e.1 = x.minKey)
    (hrange : ∀ a ∈ news, ∀ b ∈ news, a.minKey < b.minKey → ∀ e ∈ a.recs, e.1 < b.minKey)
    (htab : ∀ x ∈ news, x.recs.Sorted ∧ (∀ e ∈ x.recs, x.minKey ≤ e.1) ∧ x.prevReq = false)
    (hnums : (news.map (·.number)).Nodup) (hnew : ∀ x ∈ news, ∀ t ∈ l, t.number ≠ x.number)
    (hget : ∀ k r, (∃ x ∈ news, x.get k = some r) ↔ (v.get k = some r ∧ keep r)) :
    LevelOk (removeTable (news.foldl addTable l) v.number) ∧
    (∀ t, t ∈ removeTable (news.foldl addTable l) v.number ↔ t ∈ news ∨ (t ∈ l ∧ t.number ≠ v.number)) ∧
    (∀ k r, v.get k = some r → (keep r →
        look (removeTable (news.foldl addTable l) v.number) k = some r) ∧
      (¬ keep r → look (removeTable (news.foldl addTable l) v.number) k = none)) ∧
    (∀ k, v.get k = none → look (removeTable (news.foldl addTable l) v.number) k = look l k) := by
  have hvn : ∀ x ∈ news, x.number ≠ v.number := fun x hx => (hnew x hx v hv).symm
  have hweak : WeakSorted l := hl.sorted.imp (fun h => le_of_lt h)
  have heq := remove_foldl (n := v.number) hweak hvn
  rw [heq]
  have hrem := hl.removeTable v.number
  have hmem : ∀ t, t ∈ news.foldl addTable (removeTable l v.number) ↔
      t ∈ news ∨ (t ∈ l ∧ t.number ≠ v.number) := by
    intro t; rw [mem_foldl_addTable, mem_removeTable]
  have hvt := hl.tab v hv
  have hvle : ∀ x ∈ news, v.minKey ≤ x.minKey := by
    intro x hx
    rcases hm x hx with h | ⟨e, he, h⟩
    · rw [h]
    · rw [← h]; exact (hvt.2.1 e he).2
  have hfromv : ∀ x ∈ news, ∀ e ∈ x.recs, e ∈ v.recs := by
    intro x hx e he
    obtain ⟨k, r⟩ := e
    have h1 := SMap.find?_of_mem (htab x hx).1 he
    have h2 := (hget k r).1 ⟨x, hx, h1⟩
    exact SMap.find?_some_mem h2.1
  have hother : ∀ t ∈ l, t.number ≠ v.number → t.minKey < v.minKey ∨ v.minKey < t.minKey := by
    intro t ht hn
    rcases lt_trichotomy t.minKey v.minKey with h | h | h
    · exact Or.inl h
    · exact absurd (by rw [eq_of_minKey hl.sorted ht hv h]) hn
    · exact Or.inr h
  have hnewlt : ∀ x ∈ news, ∀ t ∈ l, v.minKey < t.minKey → x.minKey < t.minKey := by
    intro x hx t ht hlt
    rcases hm x hx with h | ⟨e, he, h⟩
    · rw [h]; exact hlt
    · rw [← h]; exact hl.range v hv t ht hlt e he
  have hok : LevelOk (news.foldl addTable (removeTable l v.number)) := by
    refine ⟨?_, ?_, ?_, ?_⟩
    · apply foldl_addTable_sorted hrem.sorted hs
      intro x hx t ht he
      have ht' := mem_removeTable.1 ht
      rcases hother t ht'.1 ht'.2 with h | h
      · exact absurd (lt_of_lt_of_le h (hvle x hx)) (by rw [he]; exact lt_irrefl _)
      · exact absurd (hnewlt x hx t ht'.1 h) (by rw [he]; exact lt_irrefl _)
    · intro a ha b hb hlt e he
      rcases (hmem a).1 ha with h1 | ⟨h1, h1'⟩ <;> rcases (hmem b).1 hb with h2 | ⟨h2, h2'⟩
      · exact hrange a h1 b h2 hlt e he
      · exact hl.range v hv b h2 (lt_of_le_of_lt (hvle a h1) hlt) e (hfromv a h1 e he)
      · rcases hother a h1 h1' with h | h
        · exact lt_of_lt_of_le (hl.range a h1 v hv h e he) (hvle b h2)
        · exact absurd hlt (not_lt.2 (le_of_lt (hnewlt b h2 a h1 h)))
      · exact hl.range a h1 b h2 hlt e he
    · intro t ht
      rcases (hmem t).1 ht with h1 | ⟨h1, _⟩
      · refine ⟨(htab t h1).1, ?_, (htab t h1).2.2⟩
        intro e he
        exact ⟨(hvt.2.1 e (hfromv t h1 e he)).1, (htab t h1).2.1 e he⟩
      · exact hl.tab t h1
    · have hperm := (foldl_addTable_perm news (removeTable l v.number)).map (·.number)
      rw [hperm.nodup_iff, List.map_append, List.nodup_append]
      refine ⟨hnums, hrem.nums, ?_⟩
      intro n hn1 n2 hn2 he
      obtain ⟨x, hx, rfl⟩ := List.mem_map.1 hn1
      obtain ⟨y, hy, rfl⟩ := List.mem_map.1 hn2
      exact hnew x hx y (mem_removeTable.1 hy).1 he.symm
  refine ⟨hok, hmem, ?_, ?_⟩
  · intro k r hr
    constructor
    · intro hk
      obtain ⟨x, hx, hg⟩ := (hget k r).2 ⟨hr, hk⟩
      exact (look_some_iff hok k r).2 ⟨x, (hmem x).2 (Or.inl hx), hg⟩
    · intro hk
      cases hx : look (news.foldl addTable (removeTable l v.number)) k with
      | none => rfl
      | some r' =>
        exfalso
        obtain ⟨t, ht, hg⟩ := (look_some_iff hok k r').1 hx
        rcases (hmem t).1 ht with h1 | h1
        · have := (hget k r').1 ⟨t, h1, hg⟩
          rw [hr] at this
          exact hk (by have h2 := this.1; cases h2; exact this.2)
        · have := ((look_remove hl hv k).2 r hr).1
          have h3 := (look_some_iff hrem k r').2 ⟨t, mem_removeTable.2 h1, hg⟩
          rw [this] at h3; cases h3
  · intro k hk
    rw [← (look_remove hl hv k).1 hk]
    apply Option.ext; intro r
    rw [look_some_iff hok, look_some_iff hrem]
    constructor
    · rintro ⟨t, ht, hg⟩
      rcases (hmem t).1 ht with h1 | h1
      · have := (hget k r).1 ⟨t, h1, hg⟩
        rw [hk] at this; cases this.1
      · exact ⟨t, mem_removeTable.2 h1, hg⟩
    · rintro ⟨t, ht, hg⟩
      exact ⟨t, (hmem t).2 (Or.inr (mem_removeTable.1 ht)), hg⟩

/-- In-place compaction. -/
theorem compactInPlace_ok {l : List (Tab K)} (hl : LevelOk l) {num : Nat} (hn : ∀ t ∈ l, t.number < num)
    {v : Tab K} (hv : v ∈ l) (d : Bool) :
    LevelOk (compactInPlace l num v d) ∧
    (∀ t ∈ compactInPlace l num v d, t.number < num + 1) ∧
    (∀ k, look (compactInPlace l num v d) k = look l k ∨
      (look (compactInPlace l num v d) k = none ∧ d = true ∧ ∃ r, look l k = some r ∧ r.isDel = true)) := by
  have hvt := hl.tab v hv
  have hs : (if d then v.recs.filter (fun e => !e.2.isDel) else v.recs).Sublist v.recs := by
    split
    · exact List.filter_sublist
    · exact List.Sublist.refl _
  have hsorted : SMap.Sorted (if d then v.recs.filter (fun e => !e.2.isDel) else v.recs) :=
    List.Pairwise.sublist hs hvt.1
  have hget : ∀ k r, SMap.find? (if d then v.recs.filter (fun e => !e.2.isDel) else v.recs) k = some r ↔
      (v.get k = some r ∧ ¬ (d = true ∧ r.isDel = true)) := by
    intro k r
    rw [← SMap.mem_iff_find? hsorted]
    unfold Tab.get
    rw [← SMap.mem_iff_find? hvt.1]
    cases d with
    | false => simp
    | true => simp [List.mem_filter]
  have hr := replace_ok hl hv
    [{ number := num, minKey := v.minKey,
       recs := if d then v.recs.filter (fun e => !e.2.isDel) else v.recs
       added := (if d then v.recs.filter (fun e => !e.2.isDel) else v.recs).map (·.1) }]
    (fun r => ¬ (d = true ∧ r.isDel = true)) (by simp) (by simp) (by simp)
    (by
      intro x hx
      simp only [List.mem_singleton] at hx
      subst hx
      exact ⟨hsorted, fun e he => (hvt.2.1 e (hs.subset he)).2, rfl⟩)
    (by simp) (by
      intro x hx t ht
      simp only [List.mem_singleton] at hx
      subst hx
      have := hn t ht
      simp only; omega)
    (by
      intro k r
      simp only [List.mem_singleton, exists_eq_left]
      exact hget k r)
  obtain ⟨r1, r2, r3, r4⟩ := hr
  refine ⟨r1, ?_, ?_⟩
  · intro t ht
    rcases (r2 t).1 ht with h | ⟨h, _⟩
    · simp only [List.mem_singleton] at h; rw [h]; simp
    · have := hn t h; omega
  · intro k
    cases hg : v.get k with
    | none => exact Or.inl (r4 k hg)
    | some r =>
      have hlk := ((look_remove hl hv k).2 r hg).2
      by_cases hk : d = true ∧ r.isDel = true
      · right
        exact ⟨(r3 k r hg).2 (fun h => h hk), hk.1, r, hlk, hk.2⟩
      · left; rw [hlk]; exact (r3 k r hg).1 hk

/-! ### Split -/

theorem splitGroups_spec (cut : Nat → Bool) (rs : List (K × Rec K)) : ∀ (i : Nat) (m : K)
    (acc : SMap K (Rec K)), (acc ++ rs).Pairwise (fun a b => a.1 < b.1) → (∀ e ∈ acc ++ rs, m ≤ e.1) →
    (splitGroups cut i m acc rs).flatMap (·.2) = acc ++ rs ∧
    (∀ g ∈ splitGroups cut i m acc rs, g.1 = m ∨ ∃ e ∈ rs, e.1 = g.1) ∧
    (∀ g ∈ splitGroups cut i m acc rs, ∀ e ∈ g.2, g.1 ≤ e.1) ∧
    (splitGroups cut i m acc rs).Pairwise (fun a b => a.1 < b.1 ∧ ∀ e ∈ a.2, e.1 < b.1) := by
  induction rs with
  | nil => intro i m acc hs hm; simp only [splitGroups]; simpa using hm
  | cons e rs ih =>
    intro i m acc hs hm
    obtain ⟨k, r⟩ := e
    cases rs with
    | nil =>
      simp only [splitGroups]
      refine ⟨by simp, by simp, ?_, by simp⟩
      intro g hg
      simp only [List.mem_singleton] at hg
      subst hg
      exact hm
    | cons e2 rs2 =>
      obtain ⟨k2, r2⟩ := e2
      have hunf : splitGroups cut i m acc ((k, r) :: (k2, r2) :: rs2) =
          if cut i then (m, acc ++ [(k, r)]) :: splitGroups cut (i + 1) k2 [] ((k2, r2) :: rs2)
          else splitGroups cut (i + 1) m (acc ++ [(k, r)]) ((k2, r2) :: rs2) := by
        rw [splitGroups]
      rw [hunf]
      have hs' : ((acc ++ [(k, r)]) ++ (k2, r2) :: rs2).Pairwise (fun a b => a.1 < b.1) := by
        simpa using hs
      have hm' : ∀ e ∈ (acc ++ [(k, r)]) ++ (k2, r2) :: rs2, m ≤ e.1 := by simpa using hm
      split
      · have hp := List.pairwise_append.1 hs'
        have hk2 : ∀ e ∈ (k2, r2) :: rs2, k2 ≤ e.1 := by
          intro e he
          rcases List.mem_cons.1 he with rfl | h
          · exact le_refl _
          · exact le_of_lt ((List.pairwise_cons.1 hp.2.1).1 e h)
        obtain ⟨i1, i2, i3, i4⟩ := ih (i + 1) k2 [] (by simpa using hp.2.1) (by simpa using hk2)
        have hge : ∀ g ∈ splitGroups cut (i + 1) k2 [] ((k2, r2) :: rs2),
            ∃ e ∈ (k2, r2) :: rs2, e.1 = g.1 := by
          intro g hg
          rcases i2 g hg with h | h
          · exact ⟨(k2, r2), List.mem_cons_self, h.symm⟩
          · exact h
        refine ⟨?_, ?_, ?_, ?_⟩
        · rw [List.flatMap_cons, i1]; simp
        · intro g hg
          rcases List.mem_cons.1 hg with rfl | h
          · exact Or.inl rfl
          · obtain ⟨e, he, h'⟩ := hge g h
            exact Or.inr ⟨e, List.mem_cons_of_mem _ he, h'⟩
        · intro g hg e he
          rcases List.mem_cons.1 hg with rfl | h
          · exact hm' e (List.mem_append_left _ he)
          · exact i3 g h e he
        · refine List.pairwise_cons.2 ⟨?_, i4⟩
          intro g hg
          obtain ⟨e, he, h'⟩ := hge g hg
          rw [← h']
          refine ⟨?_, fun x hx => hp.2.2 x hx e he⟩
          exact lt_of_le_of_lt (hm' (k, r) (by simp)) (hp.2.2 (k, r) (by simp) e he)
      · obtain ⟨i1, i2, i3, i4⟩ := ih (i + 1) m (acc ++ [(k, r)]) hs' hm'
        refine ⟨by rw [i1]; simp, ?_, i3, i4⟩
        intro g hg
        rcases i2 g hg with h | ⟨e, he, h⟩
        · exact Or.inl h
        · exact Or.inr ⟨e, List.mem_cons_of_mem _ he, h⟩

theorem splitTables_map (gs : List (K × SMap K (Rec K))) (num : Nat) :
    (splitTables num gs).map (·.minKey) = gs.map (·.1) ∧
    (splitTables num gs).map (·.number) = List.range' num gs.length := by
  induction gs generalizing num with
  | nil => exact ⟨rfl, rfl⟩
  | cons g gs ih =>
    obtain ⟨m, rs⟩ := g
    obtain ⟨h1, h2⟩ := ih (num + 1)
    have hf := writeGroup_fields (rs.map (·.2)) false ({ number := num, minKey := m } : Tab K) (m := true)
    simp only [splitTables, List.map_cons, h1, h2, List.length_cons, List.range'_succ]
    exact ⟨by rw [hf.1], by rw [hf.2.1]⟩

theorem mem_splitTables {gs : List (K × SMap K (Rec K))} {num : Nat} {t : Tab K} :
    t ∈ splitTables num gs → ∃ n, num ≤ n ∧ n < num + gs.length ∧ ∃ g ∈ gs,
      t = writeGroup { number := n, minKey := g.1 } (g.2.map (·.2)) false := by
  induction gs generalizing num with
  | nil => intro h; cases h
  | cons g gs ih =>
    obtain ⟨m, rs⟩ := g
    intro h
    simp only [splitTables, List.mem_cons] at h
    rcases h with h | h
    · exact ⟨num, Nat.le_refl _, by simp, _, List.mem_cons_self, h⟩
    · obtain ⟨n, h1, h2, g, hg, h3⟩ := ih h
      exact ⟨n, by omega, by simp only [List.length_cons]; omega, g, List.mem_cons_of_mem _ hg, h3⟩

theorem exists_splitTables {gs : List (K × SMap K (Rec K))} (num : Nat) {g : K × SMap K (Rec K)}
    (hg : g ∈ gs) : ∃ n, writeGroup { number := n, minKey := g.1 } (g.2.map (·.2)) false ∈
      splitTables num gs := by
  induction gs generalizing num with
  | nil => cases hg
  | cons g' gs ih =>
    rcases List.mem_cons.1 hg with rfl | h
    · exact ⟨num, by obtain ⟨m, rs⟩ := g; simp [splitTables]⟩
    · obtain ⟨n, hn⟩ := ih (num + 1) h
      exact ⟨n, by obtain ⟨m, rs⟩ := g'; simp only [splitTables]; exact List.mem_cons_of_mem _ hn⟩

/-- A table built by writing sorted records one by one holds exactly these records. -/
theorem build_get (n : Nat) (m : K) {rs : SMap K (Rec K)} (hs : rs.Sorted)
    (hk : ∀ e ∈ rs, e.2.key = e.1) (k : K) :
    (writeGroup ({ number := n, minKey := m } : Tab K) (rs.map (·.2)) false).get k = rs.find? k := by
  have hd : (rs.map (·.2)).Pairwise (fun a b => a.key ≠ b.key) := by
    rw [List.pairwise_map]
    have h0 : List.Pairwise (fun a b : K × Rec K => a.1 < b.1) rs := hs
    refine List.Pairwise.imp_of_mem ?_ h0
    intro a b ha hb h; rw [hk a ha, hk b hb]; exact ne_of_lt h
  have hb : ({ number := n, minKey := m } : Tab K).recs.Sorted := List.Pairwise.nil
  rw [writeGroup_get _ _ hb hd]
  have : (rs.map (·.2)).find? (fun r => decide (r.key = k)) = rs.find? k := by
    clear hd hs
    induction rs with
    | nil => rfl
    | cons e es ih =>
      obtain ⟨k', r⟩ := e
      have h1 : r.key = k' := hk (k', r) List.mem_cons_self
      simp only [List.map_cons, List.find?_cons, SMap.find?, h1]
      by_cases h : k' = k
      · simp [h]
      · simp only [h, decide_false, if_false]
        exact ih (fun e he => hk e (List.mem_cons_of_mem _ he))
  rw [this]
  cases rs.find? k <;> rfl

/-- Split of a table. -/
theorem splitTable_ok {l : List (Tab K)} (hl : LevelOk l) {num : Nat} (hn : ∀ t ∈ l, t.number < num)
    {v : Tab K} (hv : v ∈ l) (cut : Nat → Bool) :
    LevelOk (splitTable l num v cut).1 ∧
    (∀ t ∈ (splitTable l num v cut).1, t.number < (splitTable l num v cut).2) ∧
    num ≤ (splitTable l num v cut).2 ∧
    (∀ k, look (splitTable l num v cut).1 k = look l k) := by
  have hvt := hl.tab v hv
  obtain ⟨g1, g2, g3, g4⟩ := splitGroups_spec cut v.recs 0 v.minKey [] (by rw [List.nil_append]; exact hvt.1)
    (by simpa using fun a b h => (hvt.2.1 (a, b) h).2)
  simp only [List.nil_append] at g1
  unfold splitTable
  simp only
  generalize splitGroups cut 0 v.minKey [] v.recs = gs at *
  split
  · exact ⟨hl, hn, Nat.le_refl _, fun _ => rfl⟩
  · have hgsub : ∀ g ∈ gs, g.2.Sublist v.recs := by
      intro g hg
      rw [← g1]
      obtain ⟨s, t, rfl⟩ := List.append_of_mem hg
      simp only [List.flatMap_append, List.flatMap_cons]
      exact List.Sublist.trans (List.sublist_append_left _ _) (List.sublist_append_right _ _)
    have hgs : ∀ g ∈ gs, SMap.Sorted g.2 := fun g hg => List.Pairwise.sublist (hgsub g hg) hvt.1
    have hgk : ∀ g ∈ gs, ∀ e ∈ g.2, e.2.key = e.1 := fun g hg e he => (hvt.2.1 e ((hgsub g hg).subset he)).1
    have hmap := splitTables_map gs num
    have hrec : ∀ t ∈ splitTables num gs, ∃ g ∈ gs, t.minKey = g.1 ∧ t.recs.Sorted ∧
        (∀ e, e ∈ t.recs ↔ e ∈ g.2) ∧ t.prevReq = false := by
      intro t ht
      obtain ⟨n, _, _, g, hg, rfl⟩ := mem_splitTables ht
      have hf := writeGroup_fields (g.2.map (·.2)) false ({ number := n, minKey := g.1 } : Tab K) (m := true)
      have hsrt : (writeGroup ({ number := n, minKey := g.1 } : Tab K) (g.2.map (·.2)) false).recs.Sorted :=
        writeGroup_sorted (t := ({ number := n, minKey := g.1 } : Tab K)) _ _ List.Pairwise.nil
      refine ⟨g, hg, hf.1, hsrt, ?_, hf.2.2.1⟩
      intro e
      obtain ⟨k, r⟩ := e
      rw [SMap.mem_iff_find? hsrt, SMap.mem_iff_find? (hgs g hg)]
      have := build_get n g.1 (hgs g hg) (hgk g hg) k
      unfold Tab.get at this
      rw [this]
    have hpw : (splitTables num gs).Pairwise (fun a b => a.minKey < b.minKey) := by
      have h1 : ((splitTables num gs).map (·.minKey)).Pairwise (· < ·) := by
        rw [hmap.1, List.pairwise_map]; exact g4.imp (fun h => h.1)
      rw [List.pairwise_map] at h1; exact h1
    have hgr : ∀ a ∈ gs, ∀ b ∈ gs, a.1 < b.1 → ∀ e ∈ a.2, e.1 < b.1 := by
      intro a ha b hb hlt
      have hp' := List.pairwise_iff_getElem.1 g4
      obtain ⟨i, hi, rfl⟩ := List.mem_iff_getElem.1 ha
      obtain ⟨j, hj, rfl⟩ := List.mem_iff_getElem.1 hb
      rcases Nat.lt_trichotomy i j with hij | hij | hij
      · exact (hp' i j hi hj hij).2
      · subst hij; exact absurd hlt (lt_irrefl _)
      · exact absurd hlt (not_lt.2 (le_of_lt (hp' j i hj hi hij).1))
    have hr := replace_ok hl hv (splitTables num gs).reverse (fun _ => True)
      (by rw [List.pairwise_reverse]; exact hpw.imp (fun h => (ne_of_lt h).symm))
      (by
        intro x hx
        obtain ⟨g, hg, h1, _⟩ := hrec x (List.mem_reverse.1 hx)
        rw [h1]; exact g2 g hg)
      (by
        intro a ha b hb hlt e he
        obtain ⟨g, hg, h1, _, h3, _⟩ := hrec a (List.mem_reverse.1 ha)
        obtain ⟨g', hg', h1', _⟩ := hrec b (List.mem_reverse.1 hb)
        rw [h1'] at hlt ⊢
        rw [h1] at hlt
        exact hgr g hg g' hg' hlt e ((h3 e).1 he))
      (by
        intro x hx
        obtain ⟨g, hg, h1, h2, h3, h4⟩ := hrec x (List.mem_reverse.1 hx)
        refine ⟨h2, ?_, h4⟩
        intro e he; rw [h1]; exact g3 g hg e ((h3 e).1 he))
      (by rw [List.map_reverse, hmap.2, List.nodup_reverse]; exact List.nodup_range')
      (by
        intro x hx t ht
        obtain ⟨n, h1, _, g, _, rfl⟩ := mem_splitTables (List.mem_reverse.1 hx)
        rw [(writeGroup_fields _ _ _).2.1]
        have := hn t ht
        simp only; omega)
      (by
        intro k r
        simp only [and_true, List.mem_reverse]
        constructor
        · rintro ⟨x, hx, hg⟩
          obtain ⟨g, hg', _, _, h3, _⟩ := hrec x hx
          have := (hgsub g hg').subset ((h3 _).1 (SMap.find?_some_mem hg))
          exact SMap.find?_of_mem hvt.1 this
        · intro hg
          have := SMap.find?_some_mem hg
          rw [← g1] at this
          obtain ⟨g, hg', hge⟩ := List.mem_flatMap.1 this
          obtain ⟨n, hn'⟩ := exists_splitTables num hg'
          refine ⟨_, hn', ?_⟩
          rw [build_get n g.1 (hgs g hg') (hgk g hg')]
          exact SMap.find?_of_mem (hgs g hg') hge)
    obtain ⟨r1, r2, r3, r4⟩ := hr
    refine ⟨r1, ?_, Nat.le_add_right _ _, ?_⟩
    · intro t ht
      rcases (r2 t).1 ht with h | ⟨h, _⟩
      · obtain ⟨n, _, h2, g, _, rfl⟩ := mem_splitTables (List.mem_reverse.1 h)
        rw [(writeGroup_fields _ _ _).2.1]; exact h2
      · have := hn t h; simp only; omega
    · intro k
      cases hg : v.get k with
      | none => exact r4 k hg
      | some r => rw [((look_remove hl hv k).2 r hg).2]; exact (r3 k r hg).1 trivial

/-! ### Merge of two neighbours -/

theorem tableBefore_spec {l : List (Tab K)} (hs : MinSorted l) {v : Tab K} (hv : v ∈ l)
    (hnum : (l.map (·.number)).Nodup) (prev d : Option (Tab K))
    (h : tableBefore prev l v.number = d) :
    (∀ t ∈ l, t.minKey < v.minKey → ∃ d', d = some d' ∧ d' ∈ l ∧ t.minKey ≤ d'.minKey ∧ d'.minKey < v.minKey) ∧
    (d = prev ∨ ∃ d', d = some d' ∧ d' ∈ l ∧ d'.minKey < v.minKey) := by
  induction l generalizing prev with
  | nil => cases hv
  | cons x xs ih =>
    have hp := List.pairwise_cons.1 hs
    simp only [List.map_cons, List.nodup_cons] at hnum
    simp only [tableBefore] at h
    split at h
    · next hxn =>
      have hxv : x = v := by
        rcases List.mem_cons.1 hv with h' | h'
        · exact h'.symm
        · exact absurd (List.mem_map.2 ⟨v, h', hxn.symm⟩) hnum.1
      refine ⟨?_, Or.inl h.symm⟩
      intro t ht hlt
      rcases List.mem_cons.1 ht with rfl | ht'
      · rw [hxv] at hlt; exact absurd hlt (lt_irrefl _)
      · have := hp.1 t ht'; rw [hxv] at this
        exact absurd hlt (not_lt.2 (le_of_lt this))
    · next hxn =>
      have hv' : v ∈ xs := by
        rcases List.mem_cons.1 hv with h' | h'
        · exact absurd (by rw [h']) hxn
        · exact h'
      obtain ⟨i1, i2⟩ := ih hp.2 hv' hnum.2 (some x) h
      have hxv := hp.1 v hv'
      constructor
      · intro t ht hlt
        rcases List.mem_cons.1 ht with rfl | ht'
        · rcases i2 with h2 | ⟨d', h2, h3, h4⟩
          · exact ⟨t, h2, List.mem_cons_self, le_refl _, hlt⟩
          · exact ⟨d', h2, List.mem_cons_of_mem _ h3, le_of_lt (hp.1 d' h3), h4⟩
        · obtain ⟨d', h2, h3, h4, h5⟩ := i1 t ht' hlt
          exact ⟨d', h2, List.mem_cons_of_mem _ h3, h4, h5⟩
      · right
        rcases i2 with h2 | ⟨d', h2, h3, h4⟩
        · exact ⟨x, h2, List.mem_cons_self, hxv⟩
        · exact ⟨d', h2, List.mem_cons_of_mem _ h3, h4⟩

theorem mergeTable_ok {l : List (Tab K)} (hl : LevelOk l) {v : Tab K} (hv : v ∈ l) (p : Bool) :
    LevelOk (mergeTable l v p) ∧
    (∀ n, (∀ t ∈ l, t.number < n) → ∀ t ∈ mergeTable l v p, t.number < n) ∧
    (∀ k, look (mergeTable l v p) k = look l k ∨
      (look (mergeTable l v p) k = none ∧ p = true ∧ ∃ r, look l k = some r ∧ r.isDel = true)) := by
  have hvt := hl.tab v hv
  unfold mergeTable
  cases hd : tableBefore none l v.number with
  | none => exact ⟨hl, fun n h => h, fun k => Or.inl rfl⟩
  | some d =>
    simp only
    obtain ⟨b1, b2⟩ := tableBefore_spec hl.sorted hv hl.nums none (some d) hd
    have hdl : d ∈ l ∧ d.minKey < v.minKey := by
      rcases b2 with h | ⟨d', h, h1, h2⟩
      · cases h
      · cases h; exact ⟨h1, h2⟩
    have hdn : d.number ≠ v.number := by
      intro h
      have := eq_of_number hl.nums hdl.1 hv h
      rw [this] at hdl; exact absurd hdl.2 (lt_irrefl _)
    have hrem := hl.removeTable v.number
    let g : Tab K → List (Rec K) := fun x => if x.number = d.number then v.recs.map (·.2) else []
    have hcomm : removeTable (modify l d.number (fun x => writeGroup x (v.recs.map (·.2)) p false)) v.number =
        (removeTable l v.number).map (fun x => writeGroup x (g x) p false) := by
      unfold removeTable modify
      rw [List.filter_map]
      have e1 : (fun x : Tab K => decide (x.number ≠ v.number)) ∘
          (fun x => if x.number = d.number then writeGroup x (v.recs.map (·.2)) p false else x) =
          (fun x => decide (x.number ≠ v.number)) := by
        funext x
        simp only [Function.comp]
        split
        · rw [(writeGroup_fields _ _ x).2.1]
        · rfl
      rw [e1]
      apply List.map_congr_left
      intro x _
      show (if x.number = d.number then _ else x) = writeGroup x (if x.number = d.number then _ else []) p false
      split <;> rfl
    rw [hcomm]
    have hdist : (v.recs.map (·.2)).Pairwise (fun a b => a.key ≠ b.key) := by
      rw [List.pairwise_map]
      have h0 : List.Pairwise (fun a b : K × Rec K => a.1 < b.1) v.recs := hvt.1
      refine List.Pairwise.imp_of_mem ?_ h0
      intro a b ha hb h; rw [(hvt.2.1 a ha).1, (hvt.2.1 b hb).1]; exact ne_of_lt h
    have hw := write_ok hrem g p (m := false)
      (by
        intro x hx
        show (if x.number = d.number then v.recs.map (·.2) else []).Pairwise _
        split
        · exact hdist
        · exact List.Pairwise.nil)
      (by
        intro x hx r hr
        have hr' : r ∈ (if x.number = d.number then v.recs.map (·.2) else []) := hr
        split at hr'
        · next hxn =>
          have hxd : x = d := eq_of_number hl.nums (mem_removeTable.1 hx).1 hdl.1 hxn
          obtain ⟨e, he, rfl⟩ := List.mem_map.1 hr'
          rw [(hvt.2.1 e he).1, hxd]
          refine ⟨le_trans (le_of_lt hdl.2) (hvt.2.1 e he).2, ?_⟩
          intro t ht hle
          have ht' := mem_removeTable.1 ht
          rcases lt_trichotomy t.minKey v.minKey with h | h | h
          · obtain ⟨d', h1, _, h2, _⟩ := b1 t ht'.1 h
            cases h1; exact h2
          · exact absurd (by rw [eq_of_minKey hl.sorted ht'.1 hv h]) ht'.2
          · exact absurd hle (not_le.2 (hl.range v hv t ht'.1 h e he))
        · cases hr')
    obtain ⟨w1, w2, w3⟩ := hw
    refine ⟨w1, ?_, ?_⟩
    · intro n hn t ht
      obtain ⟨x, hx, rfl⟩ := List.mem_map.1 ht
      rw [(writeGroup_fields _ _ x).2.1]
      exact hn x (mem_removeTable.1 hx).1
    · intro k
      have hdr : d ∈ removeTable l v.number := mem_removeTable.2 ⟨hdl.1, hdn⟩
      have hgd : g d = v.recs.map (·.2) := by show (if d.number = d.number then _ else _) = _; rw [if_pos rfl]
      cases hg : v.get k with
      | none =>
        left
        rw [w3 k, (look_remove hl hv k).1 hg]
        intro x hx r hr hrk
        have hr' : r ∈ (if x.number = d.number then v.recs.map (·.2) else []) := hr
        split at hr'
        · obtain ⟨e, he, rfl⟩ := List.mem_map.1 hr'
          rw [(hvt.2.1 e he).1] at hrk
          exact SMap.find?_none_iff.1 hg e he hrk
        · cases hr'
      | some r =>
        have hm := SMap.find?_some_mem hg
        have hrk : r.key = k := (hvt.2.1 _ hm).1
        have hin : r ∈ g d := by rw [hgd]; exact List.mem_map.2 ⟨_, hm, rfl⟩
        have h1 := w2 d hdr r hin
        rw [hrk] at h1
        have h2 := ((look_remove hl hv k).2 r hg).2
        rw [h1, h2]
        by_cases hc : (p && r.isDel) = true
        · right
          rw [if_pos hc]
          simp only [Bool.and_eq_true] at hc
          exact ⟨rfl, hc.1, r, rfl, hc.2⟩
        · left; rw [if_neg hc]

/-! ### Migration and loading -/

theorem migrate_eq {l : List (Tab K)} (hl : LevelOk l) : migrate l = l := by
  unfold migrate
  conv => rhs; rw [← List.map_id l]
  apply List.map_congr_left
  intro x hx
  have := (hl.tab x hx).2.2
  cases x
  simp only at this
  simp [this]

theorem addTable_back {l : List (Tab K)} {x : Tab K} (h : ∀ t ∈ l, t.minKey < x.minKey) :
    addTable l x = l ++ [x] := by
  induction l with
  | nil => rfl
  | cons y ys ih =>
    simp only [addTable, if_neg (not_le.2 (h y List.mem_cons_self)), List.cons_append]
    rw [ih (fun t ht => h t (List.mem_cons_of_mem _ ht))]

theorem loadLevel_eq : ∀ (xs acc : List (Tab K)) (lm : Option K), LevelOk (acc ++ xs) →
    (∀ m, lm = some m → ∃ z ∈ acc, (∃ e ∈ z.recs, e.1 = m)) → loadLevel lm xs acc = acc ++ xs := by
  intro xs
  induction xs with
  | nil => intro acc lm _ _; simp [loadLevel]
  | cons x xs ih =>
    intro acc lm h hlm
    have hx := h.tab x (by simp)
    have hlt : ∀ t ∈ acc, t.minKey < x.minKey :=
      fun t ht => (List.pairwise_append.1 h.sorted).2.2 t ht x (by simp)
    have hmk : loadMin x = x.minKey := by
      unfold loadMin
      cases hh : x.recs.head? with
      | none => rfl
      | some e =>
        simp only
        rw [if_neg]
        rintro ⟨_, h2⟩
        exact absurd (hx.2.1 e (List.mem_of_head? hh)).2 (not_le.2 h2)
    have hpr : loadPrev lm x.minKey = false := by
      unfold loadPrev
      cases lm with
      | none => rfl
      | some m =>
        obtain ⟨z, hz, e, he, rfl⟩ := hlm m rfl
        have := h.range z (by simp [hz]) x (by simp) (hlt z hz) e he
        simp only [decide_eq_false_iff_not]
        rintro ⟨_, h2⟩
        exact absurd h2 (not_le.2 this)
    have hxe : { x with minKey := x.minKey, prevReq := false } = x := by
      have := hx.2.2
      cases x; simp only at this; simp [this]
    simp only [loadLevel]
    rw [hmk, hpr, hxe, addTable_back hlt]
    rw [ih (acc ++ [x]) x.maxKey (by simpa using h)]
    · simp
    · intro m hm
      refine ⟨x, by simp, ?_⟩
      unfold Tab.maxKey at hm
      cases hl : x.recs.getLast? with
      | none => rw [hl] at hm; cases hm
      | some e =>
        rw [hl] at hm; cases hm
        exact ⟨e, List.mem_of_getLast? hl, rfl⟩

theorem loadLevel_id {l : List (Tab K)} (h : LevelOk l) : loadLevel none l [] = l := by
  rw [loadLevel_eq l [] none (by simpa using h) (by simp)]; rfl

end TMgr
end Jungle
