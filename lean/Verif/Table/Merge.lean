/-
  Lemmas about inter-level compaction: where records go and what the destination level holds.
-/
import Verif.Table.Lemmas

set_option linter.unusedSectionVars false

namespace Jungle
namespace TMgr
variable {K : Type} [LinearOrder K] [OrderBot K]

abbrev MinSorted (l : List (Tab K)) : Prop := l.Pairwise (fun a b => a.minKey < b.minKey)

theorem advance_spec (rest : List (Tab K)) (cur : Tgt K) (k : K) (hs : MinSorted rest)
    (hc : ∀ t ∈ rest, cur.minKey ≤ t.minKey) :
    MinSorted (advance cur rest k).2 ∧
    (∀ t ∈ (advance cur rest k).2, t ∈ rest ∧ k < t.minKey) ∧
    (∀ t ∈ rest, t ∈ (advance cur rest k).2 ∨ t.minKey ≤ (advance cur rest k).1.minKey) ∧
    ((advance cur rest k).1 = cur ∨
      ∃ t ∈ rest, (advance cur rest k).1 = ⟨t.minKey, false⟩ ∧ t.minKey ≤ k) ∧
    cur.minKey ≤ (advance cur rest k).1.minKey ∧
    (∀ t ∈ (advance cur rest k).2, (advance cur rest k).1.minKey ≤ t.minKey) := by
  induction rest generalizing cur with
  | nil => exact ⟨List.Pairwise.nil, by simp [advance], by simp, Or.inl (by simp [advance]), le_refl _, by simp [advance]⟩
  | cons x xs ih =>
    have hp := List.pairwise_cons.1 hs
    simp only [advance]
    by_cases hx : x.minKey ≤ k
    · simp only [if_pos hx]
      obtain ⟨i1, i2, i3, i4, i5, i6⟩ := ih ⟨x.minKey, false⟩ hp.2 (fun t ht => le_of_lt (hp.1 t ht))
      refine ⟨i1, fun t ht => ⟨List.mem_cons_of_mem _ (i2 t ht).1, (i2 t ht).2⟩, ?_, ?_, ?_, i6⟩
      · intro t ht
        rcases List.mem_cons.1 ht with rfl | ht'
        · exact Or.inr i5
        · exact i3 t ht'
      · right
        rcases i4 with h | ⟨t, ht, h1, h2⟩
        · exact ⟨x, List.mem_cons_self, h, hx⟩
        · exact ⟨t, List.mem_cons_of_mem _ ht, h1, h2⟩
      · exact le_trans (hc x List.mem_cons_self) i5
    · simp only [if_neg hx]
      refine ⟨hs, ?_, fun t ht => Or.inl ht, Or.inl trivial, le_refl _, hc⟩
      intro t ht
      refine ⟨ht, ?_⟩
      rcases List.mem_cons.1 ht with rfl | ht'
      · exact not_le.1 hx
      · exact lt_trans (not_le.1 hx) (hp.1 t ht')

theorem assign_spec (l : List (Tab K)) (top : K) (full : Nat → Bool) :
    ∀ (rs : List (K × Rec K)) (i : Nat) (cur : Tgt K) (rest : List (Tab K)),
    rs.Pairwise (fun a b => a.1 < b.1) → (∀ e ∈ rs, e.2.key = e.1) →
    MinSorted rest → (∀ t ∈ rest, t ∈ l ∧ t.minKey ≤ top) →
    (∀ e ∈ rs, cur.minKey ≤ e.1) →
    (∀ e ∈ rs, ∀ t ∈ l, t.minKey ≤ e.1 → t.minKey ≤ cur.minKey ∨ t ∈ rest) →
    (∀ t ∈ rest, cur.minKey ≤ t.minKey) →
    (cur.fresh = false → ∃ t ∈ l, t.minKey = cur.minKey) →
    let asg := assign top full i cur rest rs
    asg.map (·.2) = rs.map (·.2) ∧
    (∀ a ∈ asg, cur.minKey ≤ a.1.minKey ∧ a.1.minKey ≤ a.2.key) ∧
    (∀ a ∈ asg, ∀ t ∈ l, t.minKey ≤ a.2.key → t.minKey ≤ a.1.minKey) ∧
    (∀ a ∈ asg, a.1.fresh = false → ∃ t ∈ l, t.minKey = a.1.minKey) ∧
    (∀ a ∈ asg, a.1.fresh = true → a.1 = cur ∨
      (top < a.1.minKey ∧ ∃ b ∈ asg, b.1 = a.1 ∧ b.2.key = a.1.minKey)) ∧
    (∀ a ∈ asg, ∀ b ∈ asg, b.1.fresh = true → b.1.minKey ≤ a.2.key → b.1.minKey ≤ a.1.minKey) := by
  intro rs
  induction rs with
  | nil => intro i cur rest _ _ _ _ _ _ _ _; simp [assign]
  | cons e rs ih =>
    intro i cur rest hrs hkey hsr hsub h1 h2 h6 hold
    obtain ⟨k, r⟩ := e
    have hp := List.pairwise_cons.1 hrs
    have hrk : r.key = k := hkey (k, r) List.mem_cons_self
    have hck : cur.minKey ≤ k := h1 (k, r) List.mem_cons_self
    -- the record goes to some group
    have step : ∃ c' rest', assign top full i cur rest ((k, r) :: rs) =
          (c', r) :: assign top full (i + 1) c' rest' rs ∧
        MinSorted rest' ∧ (∀ t ∈ rest', t ∈ rest) ∧
        (∀ t ∈ rest', k < t.minKey) ∧ (∀ t ∈ rest, t ∈ rest' ∨ t.minKey ≤ c'.minKey) ∧
        cur.minKey ≤ c'.minKey ∧ c'.minKey ≤ k ∧
        (c'.fresh = false → ∃ t ∈ l, t.minKey = c'.minKey) ∧
        (c'.fresh = true → c' = cur ∨ (top < c'.minKey ∧ c'.minKey = k)) := by
      cases rest with
      | nil =>
        simp only [assign]
        by_cases hf : (full i && decide (top < k)) = true
        · rw [if_pos hf]
          refine ⟨_, _, rfl, List.Pairwise.nil, by simp, by simp, by simp, hck, le_refl _, by simp, ?_⟩
          intro _; right
          simp only [Bool.and_eq_true, decide_eq_true_eq] at hf
          exact ⟨hf.2, rfl⟩
        · rw [if_neg hf]
          exact ⟨_, _, rfl, List.Pairwise.nil, by simp, by simp, by simp, le_refl _, hck, hold,
            fun _ => Or.inl rfl⟩
      | cons x xs =>
        simp only [assign]
        by_cases hx : x.minKey ≤ k
        · rw [if_pos hx]
          obtain ⟨a1, a2, a3, a4, a5, a6⟩ := advance_spec (x :: xs) cur k hsr h6
          refine ⟨_, _, rfl, a1, fun t ht => (a2 t ht).1, fun t ht => (a2 t ht).2, a3, a5, ?_, ?_, ?_⟩
          · rcases a4 with h | ⟨t, _, h, hk⟩
            · rw [h]; exact hck
            · rw [h]; exact hk
          · rcases a4 with h | ⟨t, ht, h, _⟩
            · rw [h]; exact hold
            · intro _; exact ⟨t, (hsub t ht).1, by rw [h]⟩
          · rcases a4 with h | ⟨t, ht, h, _⟩
            · rw [h]; exact fun _ => Or.inl rfl
            · rw [h]; simp
        · rw [if_neg hx]
          have hall : ∀ t ∈ x :: xs, k < t.minKey := by
            intro t ht
            rcases List.mem_cons.1 ht with rfl | ht'
            · exact not_le.1 hx
            · exact lt_trans (not_le.1 hx) ((List.pairwise_cons.1 hsr).1 t ht')
          by_cases hf : (full i && decide (top < k)) = true
          · exfalso
            simp only [Bool.and_eq_true, decide_eq_true_eq] at hf
            exact absurd (lt_trans hf.2 (not_le.1 hx)) (not_lt.2 (hsub x List.mem_cons_self).2)
          · rw [if_neg hf]
            exact ⟨_, _, rfl, hsr, fun t ht => ht, hall, fun t ht => Or.inl ht, le_refl _, hck, hold,
              fun _ => Or.inl rfl⟩
    obtain ⟨c', rest', heq, s1, s2, s3, s4, s5, s6, s7, s8⟩ := step
    rw [heq]
    have s9 : ∀ t ∈ rest', c'.minKey ≤ t.minKey := fun t ht => le_of_lt (lt_of_le_of_lt s6 (s3 t ht))
    obtain ⟨c1, c2, c3, c4, c5, c6⟩ := ih (i + 1) c' rest' hp.2
      (fun e he => hkey e (List.mem_cons_of_mem _ he)) s1 (fun t ht => hsub t (s2 t ht))
      (fun e he => le_trans s6 (le_of_lt (hp.1 e he)))
      (by
        intro e he t ht hle
        rcases h2 e (List.mem_cons_of_mem _ he) t ht hle with h | h
        · exact Or.inl (le_trans h s5)
        · rcases s4 t h with h' | h'
          · exact Or.inr h'
          · exact Or.inl h')
      s9 s7
    have hcov : ∀ t ∈ l, t.minKey ≤ k → t.minKey ≤ c'.minKey := by
      intro t ht hle
      rcases h2 (k, r) List.mem_cons_self t ht hle with h | h
      · exact le_trans h s5
      · rcases s4 t h with h' | h'
        · exact absurd hle (not_le.2 (s3 t h'))
        · exact h'
    -- records further on are above `k`
    have hlater : ∀ a ∈ assign top full (i + 1) c' rest' rs, k < a.2.key := by
      intro a ha
      have : a.2 ∈ (assign top full (i + 1) c' rest' rs).map (·.2) := List.mem_map_of_mem ha
      rw [c1] at this
      obtain ⟨e, he, hea⟩ := List.mem_map.1 this
      rw [← hea, hkey e (List.mem_cons_of_mem _ he)]
      exact hp.1 e he
    refine ⟨?_, ?_, ?_, ?_, ?_, ?_⟩
    · simp only [List.map_cons, c1]
    · intro a ha
      rcases List.mem_cons.1 ha with rfl | ha'
      · exact ⟨s5, by rw [hrk]; exact s6⟩
      · exact ⟨le_trans s5 (c2 a ha').1, (c2 a ha').2⟩
    · intro a ha
      rcases List.mem_cons.1 ha with rfl | ha'
      · simp only [hrk]; exact hcov
      · exact c3 a ha'
    · intro a ha
      rcases List.mem_cons.1 ha with rfl | ha'
      · exact s7
      · exact c4 a ha'
    · have hhead : c'.fresh = true → c' = cur ∨ (top < c'.minKey ∧
          ∃ b ∈ (c', r) :: assign top full (i + 1) c' rest' rs, b.1 = c' ∧ b.2.key = c'.minKey) := by
        intro hf
        rcases s8 hf with h | ⟨h, h'⟩
        · exact Or.inl h
        · exact Or.inr ⟨h, (c', r), List.mem_cons_self, rfl, by rw [hrk, h']⟩
      intro a ha hf
      rcases List.mem_cons.1 ha with rfl | ha'
      · exact hhead hf
      · rcases c5 a ha' hf with h | ⟨h, b, hb, hb1, hb2⟩
        · rw [h]; exact hhead (h ▸ hf)
        · exact Or.inr ⟨h, b, List.mem_cons_of_mem _ hb, hb1, hb2⟩
    · intro a ha b hb hf hle
      rcases List.mem_cons.1 ha with rfl | ha'
      · rcases List.mem_cons.1 hb with rfl | hb'
        · exact le_refl _
        · rcases c5 b hb' hf with h | ⟨_, x, hx, hx1, hx2⟩
          · rw [h]
          · exfalso
            rw [← hx2] at hle
            have := hlater x hx
            simp only [hrk] at hle
            exact absurd this (not_lt.2 hle)
      · rcases List.mem_cons.1 hb with rfl | hb'
        · exact (c2 a ha').1
        · exact c6 a ha' b hb' hf hle

/-- The table a key belongs to answers for the whole level. -/
theorem look_floor {l : List (Tab K)} (h : LevelOk l) {T : Tab K} (hT : T ∈ l) {k : K}
    (hle : T.minKey ≤ k) (hmax : ∀ t ∈ l, t.minKey ≤ k → t.minKey ≤ T.minKey) :
    look l k = T.get k := by
  cases hg : T.get k with
  | some r => exact (look_some_iff h k r).2 ⟨T, hT, hg⟩
  | none =>
    apply look_none_of
    intro t ht
    cases htg : t.get k with
    | none => rfl
    | some r =>
      exfalso
      have hm := SMap.find?_some_mem htg
      have hmin := ((h.tab t ht).2.1 _ hm).2
      have hle' := hmax t ht hmin
      rcases lt_or_eq_of_le hle' with hlt | heq
      · have := h.range t ht T hT hlt _ hm
        exact absurd hle (not_le.2 this)
      · have : t = T := by
          by_contra hne
          have hp := h.sorted
          rcases List.pairwise_iff_getElem.1 hp with hp'
          obtain ⟨i, hi, rfl⟩ := List.mem_iff_getElem.1 ht
          obtain ⟨j, hj, rfl⟩ := List.mem_iff_getElem.1 hT
          rcases Nat.lt_trichotomy i j with hij | hij | hij
          · exact absurd heq (ne_of_lt (hp' i j hi hj hij))
          · subst hij; exact hne rfl
          · exact absurd heq.symm (ne_of_lt (hp' j i hj hi hij))
        rw [this, hg] at htg; cases htg

/-- An assignment of records to tables that respects the ranges. -/
structure AsgOk (l : List (Tab K)) (news : List K) (asg : List (Tgt K × Rec K)) : Prop where
  keys : asg.Pairwise (fun a b => a.2.key ≠ b.2.key)
  lek : ∀ a ∈ asg, a.1.minKey ≤ a.2.key
  cover : ∀ a ∈ asg, ∀ t ∈ l, t.minKey ≤ a.2.key → t.minKey ≤ a.1.minKey
  coverNew : ∀ a ∈ asg, ∀ m ∈ news, m ≤ a.2.key → m ≤ a.1.minKey
  old : ∀ a ∈ asg, a.1.fresh = false → ∃ t ∈ l, t.minKey = a.1.minKey
  new : ∀ a ∈ asg, a.1.fresh = true → a.1.minKey ∈ news
  newsSorted : news.Pairwise (· < ·)
  newsNe : ∀ m ∈ news, ∀ t ∈ l, t.minKey ≠ m
  newsGap : ∀ m ∈ news, ∀ t ∈ l, t.minKey < m → ∀ e ∈ t.recs, e.1 < m

theorem groupOf_mem {asg : List (Tgt K × Rec K)} {m : K} {f : Bool} {r : Rec K} :
    r ∈ groupOf asg m f ↔ ∃ a ∈ asg, a.1.minKey = m ∧ a.1.fresh = f ∧ a.2 = r := by
  simp only [groupOf, List.mem_map, List.mem_filter, Bool.and_eq_true, decide_eq_true_eq, beq_iff_eq]
  constructor
  · rintro ⟨a, ⟨h1, h2, h3⟩, h4⟩; exact ⟨a, h1, h2, h3, h4⟩
  · rintro ⟨a, h1, h2, h3, h4⟩; exact ⟨a, ⟨h1, h2, h3⟩, h4⟩

theorem groupOf_distinct {asg : List (Tgt K × Rec K)}
    (h : asg.Pairwise (fun a b => a.2.key ≠ b.2.key)) (m : K) (f : Bool) :
    (groupOf asg m f).Pairwise (fun a b => a.key ≠ b.key) := by
  unfold groupOf
  rw [List.pairwise_map]
  exact List.Pairwise.sublist List.filter_sublist h

theorem freshTables_map (ms : List K) (num : Nat) (asg : List (Tgt K × Rec K)) :
    (freshTables num ms asg).map (·.minKey) = ms ∧
    (freshTables num ms asg).map (·.number) = List.range' num ms.length := by
  induction ms generalizing num with
  | nil => exact ⟨rfl, rfl⟩
  | cons m ms ih =>
    obtain ⟨h1, h2⟩ := ih (num + 1)
    have hf := writeGroup_fields (groupOf asg m true) false
      ({ number := num, minKey := m } : Tab K) (m := true)
    simp only [freshTables, List.map_cons, h1, h2, List.length_cons, List.range'_succ]
    exact ⟨by rw [hf.1], by rw [hf.2.1]⟩

theorem mem_freshTables {ms : List K} {num : Nat} {asg : List (Tgt K × Rec K)} {t : Tab K}
    (h : t ∈ freshTables num ms asg) :
    ∃ n, num ≤ n ∧ n < num + ms.length ∧ t.minKey ∈ ms ∧
      t = writeGroup { number := n, minKey := t.minKey } (groupOf asg t.minKey true) false := by
  induction ms generalizing num with
  | nil => simp [freshTables] at h
  | cons m ms ih =>
    simp only [freshTables, List.mem_cons] at h
    rcases h with h | h
    · have hf := writeGroup_fields (groupOf asg m true) false
        ({ number := num, minKey := m } : Tab K) (m := true)
      have hm : t.minKey = m := by rw [h]; exact hf.1
      refine ⟨num, Nat.le_refl _, by simp, by rw [hm]; simp, ?_⟩
      rw [hm]; exact h
    · obtain ⟨n, h1, h2, h3, h4⟩ := ih h
      exact ⟨n, by omega, by simp only [List.length_cons]; omega, List.mem_cons_of_mem _ h3, h4⟩

theorem exists_freshTables {ms : List K} (num : Nat) (asg : List (Tgt K × Rec K)) {m : K}
    (h : m ∈ ms) : ∃ t ∈ freshTables num ms asg, t.minKey = m := by
  rw [← (freshTables_map ms num asg).1] at h
  exact List.mem_map.1 h

theorem mem_writeOld {l : List (Tab K)} {asg : List (Tgt K × Rec K)} {p : Bool} {t : Tab K} :
    t ∈ writeOld l asg p ↔ ∃ x ∈ l, t = writeGroup x (groupOf asg x.minKey false) p := by
  simp only [writeOld, List.mem_map]
  constructor <;> rintro ⟨x, h1, h2⟩ <;> exact ⟨x, h1, h2.symm⟩

/-- Destination level of a compaction (main lemma). -/
theorem merged_ok {l : List (Tab K)} {num : Nat} {asg : List (Tgt K × Rec K)} {news : List K}
    (hl : LevelOk l) (hn : ∀ t ∈ l, t.number < num) (ha : AsgOk l news asg) (p : Bool) :
    LevelOk ((freshTables num news asg).reverse.foldl addTable (writeOld l asg p)) ∧
    (∀ t ∈ (freshTables num news asg).reverse.foldl addTable (writeOld l asg p),
      t.number < num + news.length) ∧
    (∀ a ∈ asg,
      look ((freshTables num news asg).reverse.foldl addTable (writeOld l asg p)) a.2.key =
        if p && a.2.isDel && !a.1.fresh then none else some a.2) ∧
    (∀ k, (∀ a ∈ asg, a.2.key ≠ k) →
      look ((freshTables num news asg).reverse.foldl addTable (writeOld l asg p)) k = look l k) := by
  generalize hl' : (freshTables num news asg).reverse.foldl addTable (writeOld l asg p) = l'
  have hmem : ∀ t, t ∈ l' ↔ (t ∈ freshTables num news asg ∨ t ∈ writeOld l asg p) := by
    intro t; rw [← hl', mem_foldl_addTable, List.mem_reverse]
  have hfm := freshTables_map news num asg
  have hwm : (writeOld l asg p).map (·.minKey) = l.map (·.minKey) := by
    simp only [writeOld, List.map_map]
    exact List.map_congr_left (fun x _ => (writeGroup_fields _ _ x).1)
  have hwn : (writeOld l asg p).map (·.number) = l.map (·.number) := by
    simp only [writeOld, List.map_map]
    exact List.map_congr_left (fun x _ => (writeGroup_fields _ _ x).2.1)
  have hblank : ∀ n m, ({ number := n, minKey := m } : Tab K).recs.Sorted := fun _ _ => List.Pairwise.nil
  have hgd := fun m f => groupOf_distinct ha.keys m f
  -- every table of the result, uniformly
  have hcase : ∀ t ∈ l', (∃ x ∈ l, t = writeGroup x (groupOf asg x.minKey false) p) ∨
      (∃ n, num ≤ n ∧ n < num + news.length ∧ t.minKey ∈ news ∧
        t = writeGroup { number := n, minKey := t.minKey } (groupOf asg t.minKey true) false) := by
    intro t ht
    rcases (hmem t).1 ht with h | h
    · exact Or.inr (mem_freshTables h)
    · exact Or.inl (mem_writeOld.1 h)
  have hmin : ∀ t ∈ l', (∃ x ∈ l, x.minKey = t.minKey) ∨ t.minKey ∈ news := by
    intro t ht
    rcases hcase t ht with ⟨x, hx, h⟩ | ⟨n, _, _, h, _⟩
    · left; exact ⟨x, hx, by rw [h]; exact (writeGroup_fields _ _ x).1.symm⟩
    · exact Or.inr h
  -- records of the tables
  have hrec : ∀ t ∈ l', ∀ e ∈ t.recs,
      (∃ x ∈ l, x.minKey = t.minKey ∧ e ∈ x.recs) ∨
      (∃ a ∈ asg, a.1.minKey = t.minKey ∧ e = (a.2.key, a.2)) := by
    intro t ht e he
    rcases hcase t ht with ⟨x, hx, h⟩ | ⟨n, _, _, _, h⟩
    · have hm : t.minKey = x.minKey := by rw [h]; exact (writeGroup_fields _ _ x).1
      rw [h] at he
      rcases writeGroup_mem _ _ (hl.tab x hx).1 he with h1 | ⟨r, hr, h1⟩
      · exact Or.inl ⟨x, hx, hm.symm, h1⟩
      · obtain ⟨a, ha1, ha2, _, ha4⟩ := groupOf_mem.1 hr
        exact Or.inr ⟨a, ha1, by rw [ha2, hm], by rw [ha4]; exact h1⟩
    · rw [h] at he
      rcases writeGroup_mem _ _ (hblank _ _) he with h1 | ⟨r, hr, h1⟩
      · cases h1
      · obtain ⟨a, ha1, ha2, _, ha4⟩ := groupOf_mem.1 hr
        exact Or.inr ⟨a, ha1, ha2, by rw [ha4]; exact h1⟩
  have hsorted : ∀ t ∈ l', t.recs.Sorted := by
    intro t ht
    rcases hcase t ht with ⟨x, hx, h⟩ | ⟨n, _, _, _, h⟩
    · rw [h]; exact writeGroup_sorted _ _ (hl.tab x hx).1
    · rw [h]; exact writeGroup_sorted _ _ (hblank _ _)
  have hok : LevelOk l' := by
    refine ⟨?_, ?_, ?_, ?_⟩
    · rw [← hl']
      apply foldl_addTable_sorted
      · have h1 : ((writeOld l asg p).map (·.minKey)).Pairwise (· < ·) := by
          rw [hwm, List.pairwise_map]; exact hl.sorted
        exact (List.pairwise_map.1 h1)
      · have h1 : ((freshTables num news asg).map (·.minKey)).Pairwise (· ≠ ·) := by
          rw [hfm.1]; exact ha.newsSorted.imp (fun h => ne_of_lt h)
        rw [List.pairwise_reverse]
        exact (List.pairwise_map.1 h1).imp (fun h => h.symm)
      · intro x hx t ht
        obtain ⟨n, _, _, hx', _⟩ := mem_freshTables (List.mem_reverse.1 hx)
        obtain ⟨y, hy, h⟩ := mem_writeOld.1 ht
        rw [h, (writeGroup_fields _ _ y).1]
        exact ha.newsNe _ hx' y hy
    · intro a hA b hB hlt e he
      rcases hrec a hA e he with ⟨x, hx, hxm, hxe⟩ | ⟨g, hg, hgm, hge⟩
      · rcases hmin b hB with ⟨y, hy, hyb⟩ | hb
        · rw [← hyb]; exact hl.range x hx y hy (by rw [hxm, hyb]; exact hlt) e hxe
        · exact ha.newsGap _ hb x hx (by rw [hxm]; exact hlt) e hxe
      · by_contra hcon
        have hle : b.minKey ≤ g.2.key := by rw [hge] at hcon; exact not_lt.1 hcon
        have : b.minKey ≤ g.1.minKey := by
          rcases hmin b hB with ⟨y, hy, hyb⟩ | hb
          · rw [← hyb] at hle ⊢; exact ha.cover g hg y hy hle
          · exact ha.coverNew g hg _ hb hle
        rw [hgm] at this
        exact absurd hlt (not_lt.2 this)
    · intro t ht
      refine ⟨hsorted t ht, ?_, ?_⟩
      · intro e he
        rcases hrec t ht e he with ⟨x, hx, hxm, hxe⟩ | ⟨g, hg, hgm, hge⟩
        · rw [← hxm]; exact (hl.tab x hx).2.1 e hxe
        · rw [hge, ← hgm]; exact ⟨rfl, ha.lek g hg⟩
      · rcases hcase t ht with ⟨x, hx, h⟩ | ⟨n, _, _, _, h⟩
        · rw [h, (writeGroup_fields _ _ x).2.2.1]; exact (hl.tab x hx).2.2
        · rw [h, (writeGroup_fields _ _ _).2.2.1]
    · rw [← hl']
      have hperm := (foldl_addTable_perm (freshTables num news asg).reverse (writeOld l asg p)).map
        (·.number)
      rw [hperm.nodup_iff, List.map_append, List.map_reverse, hfm.2, hwn]
      rw [List.nodup_append]
      refine ⟨?_, hl.nums, ?_⟩
      · rw [List.nodup_reverse]; exact List.nodup_range'
      · intro n hn1 n2 hn2
        rw [List.mem_reverse, List.mem_range'_1] at hn1
        obtain ⟨x, hx, hxn⟩ := List.mem_map.1 hn2
        have := hn x hx
        intro h; omega
  refine ⟨hok, ?_, ?_, ?_⟩
  · intro t ht
    rcases hcase t ht with ⟨x, hx, h⟩ | ⟨n, _, h2, _, h⟩
    · rw [h, (writeGroup_fields _ _ x).2.1]; have := hn x hx; omega
    · rw [h, (writeGroup_fields _ _ _).2.1]; exact h2
  · intro a haa
    -- the table of the group
    have hT : ∃ T ∈ l', T.minKey = a.1.minKey ∧
        T.get a.2.key = if p && a.2.isDel && !a.1.fresh then none else some a.2 := by
      have hfind : ∀ f, a.1.fresh = f →
          (groupOf asg a.1.minKey f).find? (fun r => decide (r.key = a.2.key)) = some a.2 := by
        intro f hf
        have hin : a.2 ∈ groupOf asg a.1.minKey f := groupOf_mem.2 ⟨a, haa, rfl, hf, rfl⟩
        cases hg : (groupOf asg a.1.minKey f).find? (fun r => decide (r.key = a.2.key)) with
        | none => have := List.find?_eq_none.1 hg _ hin; simp at this
        | some r =>
          have h1 := List.mem_of_find?_eq_some hg
          have h2 := List.find?_some hg
          simp only [decide_eq_true_eq] at h2
          by_contra hne
          have hne' : r ≠ a.2 := fun h => hne (by rw [h])
          have := List.Pairwise.forall_of_forall_of_flip (R := fun a b : Rec K => a.key = b.key → a = b)
            (l := groupOf asg a.1.minKey f) (fun _ _ _ => rfl)
            ((hgd _ _).imp (fun h h' => absurd h' h))
            ((hgd _ _).imp (fun h h' => absurd h'.symm h))
          exact hne' (this h1 hin h2)
      cases hf : a.1.fresh with
      | false =>
        obtain ⟨x, hx, hxm⟩ := ha.old a haa hf
        refine ⟨writeGroup x (groupOf asg x.minKey false) p,
          (hmem _).2 (Or.inr (mem_writeOld.2 ⟨x, hx, rfl⟩)), ?_, ?_⟩
        · rw [(writeGroup_fields _ _ x).1, hxm]
        · rw [writeGroup_get _ _ (hl.tab x hx).1 (hgd _ _), hxm, hfind false hf]
          simp
      | true =>
        obtain ⟨T, hT, hTm⟩ := exists_freshTables num asg (ha.new a haa hf)
        obtain ⟨n, _, _, _, h4⟩ := mem_freshTables hT
        refine ⟨T, (hmem _).2 (Or.inl hT), hTm, ?_⟩
        rw [h4, hTm, writeGroup_get _ _ (hblank _ _) (hgd _ _), hfind true hf]
        simp
    obtain ⟨T, hTl, hTm, hTg⟩ := hT
    rw [← hTg]
    apply look_floor hok hTl
    · rw [hTm]; exact ha.lek a haa
    · intro t ht hle
      rw [hTm]
      rcases hmin t ht with ⟨y, hy, hyb⟩ | hb
      · rw [← hyb] at hle ⊢; exact ha.cover a haa y hy hle
      · exact ha.coverNew a haa _ hb hle
  · intro k hk
    have hnone : ∀ m f, (groupOf asg m f).find? (fun r => decide (r.key = k)) = none := by
      intro m f
      rw [List.find?_eq_none]
      intro r hr
      obtain ⟨a, h1, _, _, h4⟩ := groupOf_mem.1 hr
      have := hk a h1
      rw [h4] at this
      simpa using this
    apply Option.ext
    intro r
    rw [look_some_iff hok, look_some_iff hl]
    constructor
    · rintro ⟨t, ht, hg⟩
      rcases hcase t ht with ⟨x, hx, h⟩ | ⟨n, _, _, _, h⟩
      · refine ⟨x, hx, ?_⟩
        rw [h, writeGroup_get _ _ (hl.tab x hx).1 (hgd _ _), hnone] at hg
        exact hg
      · rw [h, writeGroup_get _ _ (hblank _ _) (hgd _ _), hnone] at hg
        cases hg
    · rintro ⟨x, hx, hg⟩
      refine ⟨writeGroup x (groupOf asg x.minKey false) p,
        (hmem _).2 (Or.inr (mem_writeOld.2 ⟨x, hx, rfl⟩)), ?_⟩
      rw [writeGroup_get _ _ (hl.tab x hx).1 (hgd _ _), hnone]
      exact hg

theorem le_getLast {m : SMap K (Rec K)} (h : m.Sorted) {z : K × Rec K} (hz : m.getLast? = some z) :
    ∀ e ∈ m, e.1 ≤ z.1 := by
  intro e he
  obtain ⟨ys, rfl⟩ := List.getLast?_eq_some_iff.1 hz
  rcases List.mem_append.1 he with h1 | h1
  · exact le_of_lt ((List.pairwise_append.1 h).2.2 e h1 z (by simp))
  · simp only [List.mem_singleton] at h1; rw [h1]

theorem minKey_le_last {l : List (Tab K)} (h : MinSorted l) {z : Tab K} (hz : l.getLast? = some z) :
    ∀ t ∈ l, t.minKey ≤ z.minKey := by
  intro t ht
  obtain ⟨ys, rfl⟩ := List.getLast?_eq_some_iff.1 hz
  rcases List.mem_append.1 ht with h1 | h1
  · exact le_of_lt ((List.pairwise_append.1 h).2.2 t h1 z (by simp))
  · simp only [List.mem_singleton] at h1; rw [h1]

theorem eq_of_minKey {l : List (Tab K)} (hp : MinSorted l) {t T : Tab K} (ht : t ∈ l) (hT : T ∈ l)
    (heq : t.minKey = T.minKey) : t = T := by
  by_contra hne
  have hp' := List.pairwise_iff_getElem.1 hp
  obtain ⟨i, hi, rfl⟩ := List.mem_iff_getElem.1 ht
  obtain ⟨j, hj, rfl⟩ := List.mem_iff_getElem.1 hT
  rcases Nat.lt_trichotomy i j with hij | hij | hij
  · exact absurd heq (ne_of_lt (hp' i j hi hj hij))
  · subst hij; exact hne rfl
  · exact absurd heq.symm (ne_of_lt (hp' j i hj hi hij))

theorem maxKeyOf_ge {l tables : List (Tab K)} (hl : LevelOk l) (hs : MinSorted tables)
    (hsub : ∀ t ∈ tables, t ∈ l) {t : Tab K} (ht : t ∈ l) {u : Tab K} (hu : u ∈ tables)
    (hle : t.minKey ≤ u.minKey) :
    t.minKey ≤ maxKeyOf tables ∧ ∀ e ∈ t.recs, e.1 ≤ maxKeyOf tables := by
  unfold maxKeyOf
  cases hz : tables.getLast? with
  | none => rw [List.getLast?_eq_none_iff] at hz; rw [hz] at hu; cases hu
  | some z =>
    have hzt : z ∈ tables := List.mem_of_getLast? hz
    have hzl := hsub z hzt
    have htz : t.minKey ≤ z.minKey := le_trans hle (minKey_le_last hs hz u hu)
    simp only
    have hmaxz : z.minKey ≤ z.maxKey.getD z.minKey ∧ ∀ e ∈ z.recs, e.1 ≤ z.maxKey.getD z.minKey := by
      unfold Tab.maxKey
      cases hr : z.recs.getLast? with
      | none =>
        refine ⟨le_refl _, ?_⟩
        rw [List.getLast?_eq_none_iff] at hr; rw [hr]; simp
      | some w =>
        simp only [Option.map_some, Option.getD_some]
        exact ⟨((hl.tab z hzl).2.1 w (List.mem_of_getLast? hr)).2, le_getLast (hl.tab z hzl).1 hr⟩
    rcases lt_or_eq_of_le htz with hlt | heq
    · exact ⟨le_trans htz hmaxz.1, fun e he =>
        le_trans (le_of_lt (hl.range t ht z hzl hlt e he)) hmaxz.1⟩
    · have := eq_of_minKey hl.sorted ht hzl heq
      rw [this]; exact hmaxz

/-- The grouping of a compaction respects the ranges. -/
theorem merge_asg {l : List (Tab K)} (hl : LevelOk l) {vmin : K} {rs : SMap K (Rec K)}
    (hrs : rs.Sorted) (hkey : ∀ e ∈ rs, e.2.key = e.1) (hv : ∀ e ∈ rs, vmin ≤ e.1)
    (full : Nat → Bool) :
    let tables := tablesRange l vmin (rs.getLast?.map (·.1))
    let fg := firstGroup tables vmin
    let asg := assign (maxKeyOf tables) full 0 fg.1 fg.2 rs
    AsgOk l (freshKeys fg.1 asg) asg ∧ asg.map (·.2) = rs.map (·.2) := by
  intro tables fg asg
  obtain ⟨pre, s, hps, hpre, hsnil, htab⟩ := tablesRange_spec hl vmin (rs.getLast?.map (·.1))
  -- tables not above the last key of the victim are in the list
  have hin : ∀ t ∈ s, (∀ z, rs.getLast? = some z → t.minKey ≤ z.1) → t ∈ tables := by
    intro t ht hz
    show t ∈ tablesRange l vmin (rs.getLast?.map (·.1))
    rw [htab, List.mem_filter]
    refine ⟨ht, ?_⟩
    cases hr : rs.getLast? with
    | none => rfl
    | some z => simpa [inRange] using hz z hr
  have hsubs : tables.Sublist s := by
    show (tablesRange l vmin (rs.getLast?.map (·.1))).Sublist s
    rw [htab]; exact List.filter_sublist
  have hsubl : ∀ t ∈ tables, t ∈ l := fun t ht => by rw [hps]; exact List.mem_append_right _ (hsubs.subset ht)
  have hls : MinSorted (pre ++ s) := by rw [← hps]; exact hl.sorted
  have hss : MinSorted s := (List.pairwise_append.1 hls).2.1
  have hts : MinSorted tables := hss.sublist hsubs
  have hlast : ∀ e ∈ rs, ∀ z, rs.getLast? = some z → e.1 ≤ z.1 := fun e he z hz => le_getLast hrs hz e he
  have hvz : ∀ z, rs.getLast? = some z → vmin ≤ z.1 := fun z hz => hv z (List.mem_of_getLast? hz)
  -- when there are tables before the list, the list starts at or below the victim
  have hprehead : pre ≠ [] → ∃ a ts, tables = a :: ts ∧ a.minKey ≤ vmin := by
    intro hne
    obtain ⟨a, t', hs', ha⟩ := hpre hne
    have : tables = (a :: t').filter (inRange (rs.getLast?.map (·.1))) := by
      show tablesRange l vmin (rs.getLast?.map (·.1)) = _
      rw [htab, hs']
    rw [this]
    have hpa : inRange (rs.getLast?.map (·.1)) a = true := by
      cases hr : rs.getLast? with
      | none => rfl
      | some z => simpa [inRange] using le_trans ha (hvz z hr)
    rw [List.filter_cons_of_pos hpa]
    exact ⟨a, _, rfl, ha⟩
  -- every table at or below a record is in the list, or before a table of the list
  have hcover : ∀ e ∈ rs, ∀ t ∈ l, t.minKey ≤ e.1 →
      t ∈ tables ∨ ∃ a ts, tables = a :: ts ∧ a.minKey ≤ vmin ∧ t.minKey < a.minKey := by
    intro e he t ht hle
    rw [hps] at ht
    rcases List.mem_append.1 ht with h1 | h1
    · right
      obtain ⟨a, ts, h2, h3⟩ := hprehead (List.ne_nil_of_mem h1)
      refine ⟨a, ts, h2, h3, ?_⟩
      exact (List.pairwise_append.1 hls).2.2 t h1 a (hsubs.subset (by rw [h2]; simp))
    · left; exact hin t h1 (fun z hz => le_trans hle (hlast e he z hz))
  -- the first group
  have hfg : (fg.1 = ⟨⊥, true⟩ ∧ fg.2 = tables ∧ ∀ t ∈ l, vmin < t.minKey) ∨
      (∃ x xs, tables = x :: xs ∧ x.minKey ≤ vmin ∧ fg = advance ⟨x.minKey, false⟩ tables vmin) := by
    have hfresh : (∀ a ts, tables = a :: ts → vmin < a.minKey) → ∀ t ∈ l, vmin < t.minKey := by
      intro hh
      have hpn : pre = [] := by
        by_contra hne
        obtain ⟨a, ts, h2, h3⟩ := hprehead hne
        exact absurd h3 (not_le.2 (hh a ts h2))
      intro t ht
      rw [hps, hpn, List.nil_append] at ht
      by_contra hcon
      have hle := not_lt.1 hcon
      have hmem := hin t ht (fun z hz => le_trans hle (hvz z hz))
      cases htb : tables with
      | nil => rw [htb] at hmem; cases hmem
      | cons a ts =>
        have h1 := hh a ts htb
        rw [htb] at hmem hts
        rcases List.mem_cons.1 hmem with rfl | h2
        · exact absurd hle (not_le.2 h1)
        · exact absurd hle (not_le.2 (lt_trans h1 ((List.pairwise_cons.1 hts).1 t h2)))
    show ((firstGroup tables vmin).1 = ⟨⊥, true⟩ ∧ _) ∨ (∃ x xs, _ ∧ _ ∧ firstGroup tables vmin = _)
    cases htb : tables with
    | nil =>
      left
      refine ⟨rfl, ?_, hfresh (by rw [htb]; simp)⟩
      show (firstGroup tables vmin).2 = _
      rw [htb]; rfl
    | cons x xs =>
      by_cases hx : vmin < x.minKey
      · left
        have e1 : firstGroup (x :: xs) vmin = (⟨⊥, true⟩, x :: xs) := by
          simp only [firstGroup, if_pos hx]
        refine ⟨by rw [e1], ?_, hfresh ?_⟩
        · show (firstGroup tables vmin).2 = _
          rw [htb, e1]
        · intro a ts h; rw [htb] at h; cases h; exact hx
      · right
        refine ⟨x, xs, rfl, not_lt.1 hx, ?_⟩
        simp only [firstGroup, if_neg hx]
  -- what `assign` needs
  have hpre' : MinSorted fg.2 ∧ (∀ t ∈ fg.2, t ∈ l ∧ t.minKey ≤ maxKeyOf tables) ∧
      (∀ e ∈ rs, fg.1.minKey ≤ e.1) ∧
      (∀ e ∈ rs, ∀ t ∈ l, t.minKey ≤ e.1 → t.minKey ≤ fg.1.minKey ∨ t ∈ fg.2) ∧
      (∀ t ∈ fg.2, fg.1.minKey ≤ t.minKey) ∧
      (fg.1.fresh = false → ∃ t ∈ l, t.minKey = fg.1.minKey) := by
    rcases hfg with ⟨h1, h2, h3⟩ | ⟨x, xs, h1, h2, h3⟩
    · rw [h1, h2]
      refine ⟨hts, ?_, fun _ _ => bot_le, ?_, fun _ _ => bot_le, by simp⟩
      · intro t ht
        exact ⟨hsubl t ht, (maxKeyOf_ge hl hts hsubl (hsubl t ht) ht (le_refl _)).1⟩
      · intro e he t ht hle
        rcases hcover e he t ht hle with h | ⟨a, ts, h4, h5, _⟩
        · exact Or.inr h
        · exact absurd h5 (not_le.2 (h3 a (hsubl a (by rw [h4]; simp))))
    · have hxs : ∀ t ∈ tables, x.minKey ≤ t.minKey := by
        intro t ht
        rw [h1] at ht hts
        rcases List.mem_cons.1 ht with rfl | h
        · exact le_refl _
        · exact le_of_lt ((List.pairwise_cons.1 hts).1 t h)
      obtain ⟨a1, a2, a3, a4, a5, a6⟩ := advance_spec tables ⟨x.minKey, false⟩ vmin hts hxs
      rw [h3]
      refine ⟨a1, ?_, ?_, ?_, a6, ?_⟩
      · intro t ht
        have := (a2 t ht).1
        exact ⟨hsubl t this, (maxKeyOf_ge hl hts hsubl (hsubl t this) this (le_refl _)).1⟩
      · intro e he
        refine le_trans ?_ (hv e he)
        rcases a4 with h | ⟨t, _, h, h'⟩
        · rw [h]; exact h2
        · rw [h]; exact h'
      · intro e he t ht hle
        rcases hcover e he t ht hle with h | ⟨a, ts, h4, _, h6⟩
        · rcases a3 t h with h' | h'
          · exact Or.inr h'
          · exact Or.inl h'
        · left
          rw [h1] at h4; cases h4
          exact le_trans (le_of_lt h6) a5
      · intro _
        rcases a4 with h | ⟨t, ht, h, _⟩
        · exact ⟨x, hsubl x (by rw [h1]; simp), by rw [h]⟩
        · exact ⟨t, hsubl t ht, by rw [h]⟩
  obtain ⟨q1, q2, q3, q4, q5, q6⟩ := hpre'
  obtain ⟨c1, c2, c3, c4, c5, c6⟩ :=
    assign_spec l (maxKeyOf tables) full rs 0 fg.1 fg.2 hrs hkey q1 q2 q3 q4 q5 q6
  change asg.map (·.2) = rs.map (·.2) at c1
  have hkeys : asg.Pairwise (fun a b => a.2.key < b.2.key) := by
    have h1 : (asg.map (·.2)).Pairwise (fun a b => a.key < b.key) := by
      rw [c1, List.pairwise_map]
      have h0 : List.Pairwise (fun a b : K × Rec K => a.1 < b.1) rs := hrs
      refine List.Pairwise.imp_of_mem ?_ h0
      intro a b ha hb h; rw [hkey a ha, hkey b hb]; exact h
    rw [List.pairwise_map] at h1
    exact h1
  have hasgrs : ∀ a ∈ asg, ∃ e ∈ rs, e.2 = a.2 ∧ e.1 = a.2.key := by
    intro a ha
    have : a.2 ∈ asg.map (·.2) := List.mem_map_of_mem ha
    rw [c1] at this
    obtain ⟨e, he, h⟩ := List.mem_map.1 this
    exact ⟨e, he, h, by rw [← h, hkey e he]⟩
  -- the new min keys
  have hnew : ∀ m, m ∈ freshKeys fg.1 asg →
      (m = ⊥ ∧ fg.1 = ⟨⊥, true⟩) ∨ (maxKeyOf tables < m ∧ ∃ a ∈ asg, a.2.key = m) := by
    intro m hm
    have hfgf : fg.1.fresh = true → fg.1 = ⟨⊥, true⟩ := by
      intro hf
      rcases hfg with ⟨h1, _⟩ | ⟨x, xs, h1, h2, h3⟩
      · exact h1
      · exfalso
        have gen : ∀ (ts : List (Tab K)) (c : Tgt K), c.fresh = false →
            (advance c ts vmin).1.fresh = false := by
          intro ts
          induction ts with
          | nil => intro c hc; exact hc
          | cons y ys ihy =>
            intro c hc; simp only [advance]; split
            · exact ihy _ rfl
            · exact hc
        rw [h3] at hf
        rw [gen tables ⟨x.minKey, false⟩ rfl] at hf
        cases hf
    simp only [freshKeys, List.mem_append, List.mem_filter, List.mem_map, Bool.and_eq_true,
      decide_eq_true_eq] at hm
    rcases hm with hm | ⟨⟨a, ⟨ha1, ha2, ha3⟩, ha4⟩, hne⟩
    · left
      split at hm
      · next hf => simp only [List.mem_singleton] at hm; rw [hm, hfgf hf]; exact ⟨rfl, rfl⟩
      · cases hm
    · rcases c5 a ha1 ha2 with h | ⟨h, _⟩
      · exfalso
        rcases hne with h' | h'
        · exact h' (by rw [← ha4, h])
        · rw [← h, ha2] at h'; cases h'
      · right; rw [← ha4]; exact ⟨h, a, ha1, ha3.symm⟩
  have hbot : fg.1 = ⟨⊥, true⟩ → ∀ t ∈ l, vmin < t.minKey := by
    intro h
    rcases hfg with ⟨_, _, h3⟩ | ⟨x, xs, h1, h2, h3⟩
    · exact h3
    · exfalso
      have gen : ∀ (ts : List (Tab K)) (c : Tgt K), c.fresh = false →
          (advance c ts vmin).1.fresh = false := by
        intro ts
        induction ts with
        | nil => intro c hc; exact hc
        | cons y ys ihy =>
          intro c hc; simp only [advance]; split
          · exact ihy _ rfl
          · exact hc
      have := gen tables ⟨x.minKey, false⟩ rfl
      rw [← h3, h] at this; cases this
  -- tables below a new min key end below it
  have hgap : ∀ m, maxKeyOf tables < m → (∃ a ∈ asg, a.2.key = m) → ∀ t ∈ l, t.minKey ≤ m →
      t.minKey ≤ maxKeyOf tables ∧ ∀ e ∈ t.recs, e.1 ≤ maxKeyOf tables := by
    rintro m _ ⟨a, ha, rfl⟩ t ht hle
    obtain ⟨e, he, _, hea⟩ := hasgrs a ha
    rcases hcover e he t ht (by rw [hea]; exact hle) with h | ⟨b, ts, h4, _, h6⟩
    · exact maxKeyOf_ge hl hts hsubl ht h (le_refl _)
    · exact maxKeyOf_ge hl hts hsubl ht (by rw [h4]; simp) (le_of_lt h6)
  refine ⟨⟨hkeys.imp (fun h => ne_of_lt h), fun a ha => (c2 a ha).2, c3, ?_, c4, ?_, ?_, ?_, ?_⟩, c1⟩
  · -- coverNew
    intro a ha m hm hle
    simp only [freshKeys, List.mem_append, List.mem_filter, List.mem_map, Bool.and_eq_true,
      decide_eq_true_eq] at hm
    rcases hm with hm | ⟨⟨b, ⟨hb1, hb2, hb3⟩, hb4⟩, _⟩
    · split at hm
      · simp only [List.mem_singleton] at hm; rw [hm]; exact (c2 a ha).1
      · cases hm
    · rw [← hb4] at hle ⊢; exact c6 a ha b hb1 hb2 hle
  · -- new
    intro a ha hf
    simp only [freshKeys, List.mem_append, List.mem_filter, List.mem_map, Bool.and_eq_true,
      decide_eq_true_eq]
    rcases c5 a ha hf with h | ⟨_, b, hb, hb1, hb2⟩
    · left; rw [h] at hf; rw [if_pos hf, h]; simp
    · by_cases hc : a.1.minKey ≠ fg.1.minKey ∨ fg.1.fresh = false
      · right
        exact ⟨⟨b, ⟨hb, by rw [hb1]; exact hf, by rw [hb1, hb2]⟩, by rw [hb1]⟩, hc⟩
      · rw [not_or, not_not, Bool.not_eq_false] at hc
        left; rw [if_pos hc.2, hc.1]; simp
  · -- newsSorted
    unfold freshKeys
    rw [List.pairwise_append]
    refine ⟨?_, ?_, ?_⟩
    · split <;> simp
    · apply List.Pairwise.sublist List.filter_sublist
      rw [List.pairwise_map]
      have h1 := hkeys.sublist
        (List.filter_sublist (p := fun a => a.1.fresh && decide (a.1.minKey = a.2.key)))
      refine List.Pairwise.imp_of_mem ?_ h1
      intro a b ha hb h
      have ha' := (List.mem_filter.1 ha).2
      have hb' := (List.mem_filter.1 hb).2
      simp only [Bool.and_eq_true, decide_eq_true_eq] at ha' hb'
      rw [ha'.2, hb'.2]; exact h
    · intro m hm m' hm'
      have h1 := hnew m (by unfold freshKeys; exact List.mem_append_left _ hm)
      have h2 := hnew m' (by unfold freshKeys; exact List.mem_append_right _ hm')
      split at hm
      · next hf =>
        simp only [List.mem_singleton] at hm
        simp only [List.mem_filter, decide_eq_true_eq] at hm'
        have hne : m' ≠ fg.1.minKey := by
          rcases hm'.2 with h | h
          · exact h
          · rw [hf] at h; cases h
        have hfb : fg.1 = ⟨⊥, true⟩ := by
          rcases h1 with ⟨_, h⟩ | ⟨h, h'⟩
          · exact h
          · rcases hfg with ⟨h3, _⟩ | ⟨x, xs, _, h4, h5⟩
            · exact h3
            · exfalso
              obtain ⟨_, _, _, a4, _, _⟩ := advance_spec tables ⟨x.minKey, false⟩ vmin hts (by
                intro t ht
                rename_i hxx
                rw [hxx] at ht hts
                rcases List.mem_cons.1 ht with rfl | hh
                · exact le_refl _
                · exact le_of_lt ((List.pairwise_cons.1 hts).1 t hh))
              rw [h5] at hf
              rcases a4 with hh | ⟨t, _, hh, _⟩
              · rw [hh] at hf; cases hf
              · rw [hh] at hf; cases hf
        rw [hm, hfb]
        rw [hfb] at hne
        exact lt_of_le_of_ne bot_le (Ne.symm hne)
      · cases hm
  · -- newsNe
    intro m hm t ht heq
    rcases hnew m hm with ⟨h1, h2⟩ | ⟨h1, h2⟩
    · have := hbot h2 t ht
      rw [heq, h1] at this
      exact absurd this not_lt_bot
    · have := (hgap m h1 h2 t ht (le_of_eq heq)).1
      rw [heq] at this
      exact absurd h1 (not_lt.2 this)
  · -- newsGap
    intro m hm t ht hlt e he
    rcases hnew m hm with ⟨h1, h2⟩ | ⟨h1, h2⟩
    · rw [h1] at hlt; exact absurd hlt not_lt_bot
    · exact lt_of_le_of_lt ((hgap m h1 h2 t ht (le_of_lt hlt)).2 e he) h1

/-- Result of a complete compaction of a victim into level `l`. -/
theorem mergeInto_ok {l : List (Tab K)} (hl : LevelOk l) {num : Nat} (hn : ∀ t ∈ l, t.number < num)
    {vmin : K} {rs : SMap K (Rec K)} (hrs : rs.Sorted) (hkey : ∀ e ∈ rs, e.2.key = e.1)
    (hv : ∀ e ∈ rs, vmin ≤ e.1) (p : Bool) (full : Nat → Bool) :
    LevelOk (mergeInto l num vmin rs p full).1 ∧
    (∀ t ∈ (mergeInto l num vmin rs p full).1, t.number < (mergeInto l num vmin rs p full).2) ∧
    num ≤ (mergeInto l num vmin rs p full).2 ∧
    (∀ k r, rs.find? k = some r → look (mergeInto l num vmin rs p full).1 k = some r ∨
      (look (mergeInto l num vmin rs p full).1 k = none ∧ p = true ∧ r.isDel = true)) ∧
    (∀ k, rs.find? k = none → look (mergeInto l num vmin rs p full).1 k = look l k) := by
  obtain ⟨h1, h2⟩ := merge_asg hl hrs hkey hv full
  obtain ⟨m1, m2, m3, m4⟩ := merged_ok hl hn h1 p
  refine ⟨m1, m2, Nat.le_add_right _ _, ?_, ?_⟩
  · intro k r hf
    have hm := SMap.find?_some_mem hf
    have : r ∈ rs.map (·.2) := List.mem_map.2 ⟨(k, r), hm, rfl⟩
    rw [← h2] at this
    obtain ⟨a, ha, har⟩ := List.mem_map.1 this
    have hak : a.2.key = k := by rw [har]; exact hkey _ hm
    have := m3 a ha
    rw [hak] at this
    unfold mergeInto
    simp only
    rw [this, har]
    by_cases hc : (p && r.isDel && !a.1.fresh) = true
    · right
      simp only [Bool.and_eq_true] at hc
      refine ⟨?_, hc.1.1, hc.1.2⟩
      simp [hc.1.1, hc.1.2]
      simpa using hc.2
    · left; rw [if_neg hc]
  · intro k hf
    apply m4
    intro a ha hak
    have : a.2 ∈ rs.map (·.2) := by rw [← h2]; exact List.mem_map_of_mem ha
    obtain ⟨e, he, hea⟩ := List.mem_map.1 this
    have hek := hkey e he
    rw [hea, hak] at hek
    exact SMap.find?_none_iff.1 hf e he hek.symm

end TMgr
end Jungle
