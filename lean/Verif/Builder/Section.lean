/-
  The table section made from table files, and what a reader finds in it.
-/
import Verif.Builder.TableLemmas

set_option linter.unusedSectionVars false

namespace Jungle
open Spec
variable {K : Type} [LinearOrder K] [OrderBot K]

/-- A symmetric relation between the elements of a list. -/
theorem pairwise_sym {α : Type} {R : α → α → Prop} (hs : ∀ x y, R x y → R y x) {l : List α}
    (h : l.Pairwise R) {a b : α} (ha : a ∈ l) (hb : b ∈ l) (hne : a ≠ b) : R a b := by
  induction l with
  | nil => cases ha
  | cons x xs ih =>
    have hc := List.pairwise_cons.1 h
    rcases List.mem_cons.1 ha with h1 | h1
    · rcases List.mem_cons.1 hb with h2 | h2
      · exact absurd (h1.trans h2.symm) hne
      · rw [h1]; exact hc.1 b h2
    · rcases List.mem_cons.1 hb with h2 | h2
      · rw [h2]; exact hs _ _ (hc.1 a h1)
      · exact ih hc.2 h1 h2

/-- All keys of `a` are below all keys of `b`. -/
def TData.Under (a b : TData K) : Prop := ∀ x ∈ a.recs, ∀ y ∈ b.recs, x.1 < y.1

/-- What a bulk build needs of the table files: different numbers, none empty, no two overlap, the
    min key given is the first key of the file, and a file with number 0 is the lowest. -/
structure Builder.Good (tds : List (TData K)) : Prop where
  nums : (tds.map (·.number)).Nodup
  sorted : ∀ t ∈ tds, t.recs.Sorted
  keys : ∀ t ∈ tds, ∀ e ∈ t.recs, e.2.key = e.1 ∧ e.2.isCmd = false
  first : ∀ t ∈ tds, ∃ e m, t.recs = e :: m ∧ (t.number ≠ 0 → t.minKey = e.1)
  disj : tds.Pairwise (fun a b => a.Under b ∨ b.Under a)
  zero : ∀ a ∈ tds, a.number = 0 → ∀ b ∈ tds, b.number ≠ 0 → a.Under b

/-- The documents in the table files. -/
def Builder.contents (tds : List (TData K)) : List (Rec K) := tds.flatMap (fun t => t.recs.map (·.2))

namespace Builder

theorem minTable_eq (tds : List (TData K)) : minTable tds = (0, ⊥) := by
  unfold minTable
  induction tds with
  | nil => rfl
  | cons t ts ih => rw [List.foldl_cons, if_neg not_lt_bot]; exact ih

theorem emptyL0_eq (n i num : Nat) (acc : List (Tab K)) :
    emptyL0 n i num acc = ((List.range n).map
      (fun j => ({ number := num + j + 1, hashNum := i + j, minKey := ⊥ } : Tab K))).reverse ++ acc := by
  induction n generalizing i num acc with
  | zero => rfl
  | succ n ih =>
    rw [emptyL0, TMgr.addTable_front (fun t _ => bot_le), ih, List.range_succ_eq_map, List.map_cons,
      List.map_map, List.reverse_cons, List.append_assoc]
    congr 3
    · funext j; simp only [Function.comp, Tab.mk.injEq, and_true]; omega

theorem mem_emptyL0 {n num : Nat} {x : Tab K} :
    x ∈ emptyL0 n 0 num [] ↔ ∃ j, j < n ∧ x = { number := num + j + 1, hashNum := j, minKey := ⊥ } := by
  rw [emptyL0_eq]
  simp only [List.append_nil, List.mem_reverse, List.mem_map, List.mem_range, Nat.zero_add]
  exact ⟨fun ⟨j, h1, h2⟩ => ⟨j, h1, h2.symm⟩, fun ⟨j, h1, h2⟩ => ⟨j, h1, h2.symm⟩⟩

theorem le_maxNum {tds : List (TData K)} {t : TData K} (h : t ∈ tds) : t.number ≤ maxNum tds := by
  have key : ∀ (ts : List (TData K)) (a : Nat), a ≤ ts.foldl (fun a td => Nat.max td.number a) a ∧
      ∀ t ∈ ts, t.number ≤ ts.foldl (fun a td => Nat.max td.number a) a := by
    intro ts
    induction ts with
    | nil => intro a; exact ⟨Nat.le_refl _, by simp⟩
    | cons y ys ih =>
      intro a
      rw [List.foldl_cons]
      obtain ⟨h1, h2⟩ := ih (Nat.max y.number a)
      refine ⟨Nat.le_trans (Nat.le_max_right _ _) h1, fun t ht => ?_⟩
      rcases List.mem_cons.1 ht with rfl | ht
      · exact Nat.le_trans (Nat.le_max_left _ _) h1
      · exact h2 t ht
  exact (key tds 0).2 t h

theorem l1_eq (tds : List (TData K)) (l : List (Tab K)) (n : Nat) :
    tds.foldl (fun l td => TMgr.addTable l (entry n td)) l = (tds.map (entry n)).foldl TMgr.addTable l := by
  rw [List.foldl_map]

/-- Level 1 of the result is in good order. -/
theorem Good.level {tds : List (TData K)} (h : Good tds) :
    TMgr.LevelOk ((tds.map (entry 0)).foldl TMgr.addTable []) := by
  have hmin : ∀ t ∈ tds, ∀ e ∈ t.recs, (entry 0 t).minKey ≤ e.1 := by
    intro t ht e he
    unfold entry
    by_cases h0 : t.number = 0
    · simp [h0]
    · obtain ⟨e0, m, h1, h2⟩ := h.first t ht
      have hs := h.sorted t ht
      rw [h1] at he hs
      simp only [ne_eq, Ne.symm h0, not_false_eq_true, if_true, h2 h0]
      rcases List.mem_cons.1 he with rfl | he
      · exact le_refl _
      · exact le_of_lt (SMap.Sorted.head_lt hs e he)
  -- below another file: below its min key
  have hlt : ∀ a ∈ tds, ∀ b ∈ tds, a.Under b → (entry 0 a).minKey < (entry 0 b).minKey ∧
      ∀ e ∈ a.recs, e.1 < (entry 0 b).minKey := by
    intro a ha b hb hu
    obtain ⟨ea, ma, ha1, ha2⟩ := h.first a ha
    obtain ⟨eb, mb, hb1, hb2⟩ := h.first b hb
    have hb0 : b.number ≠ 0 := by
      intro h0
      have h3 : ea.1 < eb.1 := hu ea (by rw [ha1]; exact List.mem_cons_self) eb (by rw [hb1]; exact List.mem_cons_self)
      have ha0 : a.number ≠ 0 := by
        intro h4
        have : a = b := by
          by_contra hne
          have hn := h.nums
          rw [List.nodup_iff_pairwise_ne, List.pairwise_map] at hn
          have hsym := pairwise_sym (fun _ _ hxy => Ne.symm hxy) hn ha hb hne
          exact hsym (by rw [h4, h0])
        subst this
        rw [ha1] at hb1; cases hb1
        exact absurd h3 (lt_irrefl _)
      have := h.zero b hb h0 a ha ha0 eb (by rw [hb1]; exact List.mem_cons_self) ea (by rw [ha1]; exact List.mem_cons_self)
      exact absurd this (not_lt.2 (le_of_lt h3))
    have hbm : (entry 0 b).minKey = eb.1 := by
      unfold entry
      simp only [ne_eq, Ne.symm hb0, not_false_eq_true, if_true, hb2 hb0]
    have h3 : ∀ e ∈ a.recs, e.1 < (entry 0 b).minKey := by
      intro e he; rw [hbm]; exact hu e he eb (by rw [hb1]; exact List.mem_cons_self)
    have hea : ea ∈ a.recs := by rw [ha1]; exact List.mem_cons_self
    exact ⟨lt_of_le_of_lt (hmin a ha ea hea) (h3 ea hea), h3⟩
  have hmem : ∀ x, x ∈ (tds.map (entry 0)).foldl TMgr.addTable [] ↔ ∃ t ∈ tds, entry 0 t = x := by
    intro x
    rw [TMgr.mem_foldl_addTable, List.mem_map]
    simp
  refine ⟨?_, ?_, ?_, ?_⟩
  · apply TMgr.foldl_addTable_sorted List.Pairwise.nil _ (by simp)
    rw [List.pairwise_map]
    refine List.Pairwise.imp_of_mem ?_ h.disj
    intro a b ha hb hab
    rcases hab with h1 | h1
    · exact ne_of_lt (hlt a ha b hb h1).1
    · exact ne_of_gt (hlt b hb a ha h1).1
  · intro x hx y hy hxy e he
    obtain ⟨a, ha, rfl⟩ := (hmem x).1 hx
    obtain ⟨b, hb, rfl⟩ := (hmem y).1 hy
    have hne : a ≠ b := by rintro rfl; exact absurd hxy (lt_irrefl _)
    have hd := pairwise_sym (fun _ _ hxy => Or.symm hxy) h.disj ha hb hne
    rcases hd with h1 | h1
    · exact (hlt a ha b hb h1).2 e he
    · exact absurd (hlt b hb a ha h1).1 (not_lt.2 (le_of_lt hxy))
  · intro x hx
    obtain ⟨a, ha, rfl⟩ := (hmem x).1 hx
    exact ⟨h.sorted a ha, fun e he => ⟨(h.keys a ha e he).1, hmin a ha e he⟩, rfl⟩
  · have hp := (TMgr.foldl_addTable_perm (tds.map (entry 0)) []).map (fun x : Tab K => x.number)
    rw [hp.nodup_iff, List.append_nil, List.map_map]
    exact h.nums

theorem Good.inv {tds : List (TData K)} (h : Good tds) (c : TCfg K) {parts : Nat} (hp : 0 < parts) :
    TMgr.Inv c (tableSection parts tds) := by
  have hlv : ∀ l ∈ (tableSection parts tds).lv, l = (tds.map (entry 0)).foldl TMgr.addTable [] := by
    intro l hl
    simp only [tableSection, minTable_eq, l1_eq] at hl
    split at hl
    · cases hl
    · simpa using hl
  refine ⟨hp, ?_, ?_, ?_, ?_, ?_, ?_, ?_, ?_⟩
  · intro l hl; rw [hlv l hl]; exact h.level
  · intro l hl x hx
    rw [hlv l hl, TMgr.mem_foldl_addTable] at hx
    rcases hx with hx | hx
    · obtain ⟨t, ht, rfl⟩ := List.mem_map.1 hx
      have := le_maxNum ht
      show t.number < maxNum tds + parts + 1
      omega
    · cases hx
  · show ((emptyL0 parts 0 (maxNum tds) []).map (fun x : Tab K => x.number)).Nodup
    rw [emptyL0_eq, List.append_nil, List.map_reverse, List.nodup_reverse, List.map_map]
    refine List.Nodup.map ?_ List.nodup_range
    intro i j hij; simp only [Function.comp] at hij; omega
  · intro x hx
    obtain ⟨j, hj, rfl⟩ := mem_emptyL0.1 hx
    show maxNum tds + j + 1 < maxNum tds + parts + 1
    omega
  · intro x hx; obtain ⟨j, hj, rfl⟩ := mem_emptyL0.1 hx; rfl
  · intro x hx; obtain ⟨j, hj, rfl⟩ := mem_emptyL0.1 hx
    exact ⟨List.Pairwise.nil, by intro e he; cases he⟩
  · intro p hp'
    exact ⟨{ number := maxNum tds + p + 1, hashNum := p, minKey := ⊥ }, mem_emptyL0.2 ⟨p, hp', rfl⟩, rfl, rfl⟩
  · intro x hx y hy hh _
    obtain ⟨j, hj, rfl⟩ := mem_emptyL0.1 hx
    obtain ⟨j', hj', rfl⟩ := mem_emptyL0.1 hy
    simp only at hh
    rw [hh]

/-- A key is in at most one document. -/
theorem Good.unique {tds : List (TData K)} (h : Good tds) {x y : Rec K} (hx : x ∈ contents tds)
    (hy : y ∈ contents tds) (hk : x.key = y.key) : x = y := by
  simp only [contents, List.mem_flatMap, List.mem_map] at hx hy
  obtain ⟨a, ha, ea, hea, rfl⟩ := hx
  obtain ⟨b, hb, eb, heb, rfl⟩ := hy
  rw [(h.keys a ha ea hea).1, (h.keys b hb eb heb).1] at hk
  by_cases hab : a = b
  · subst hab
    have h1 := SMap.find?_of_mem (h.sorted a ha) hea
    have h2 := SMap.find?_of_mem (h.sorted a ha) heb
    rw [hk, h2] at h1
    exact (Option.some.inj h1).symm
  · rcases pairwise_sym (fun _ _ hxy => Or.symm hxy) h.disj ha hb hab with h1 | h1
    · exact absurd hk (ne_of_lt (h1 ea hea eb heb))
    · exact absurd hk (ne_of_gt (h1 eb heb ea hea))

theorem Good.get {tds : List (TData K)} (h : Good tds) (c : TCfg K) {parts : Nat} (hp : 0 < parts) (k : K) :
    (tableSection parts tds).get c k = lastWrite (contents tds) k := by
  have hi := h.inv c hp
  rw [TMgr.get_eq hi]
  have hn : ∀ p, ((tableSection parts tds).normOf p).bind (·.get k) = none := by
    intro p
    cases hx : (tableSection parts tds).normOf p with
    | none => rfl
    | some x =>
      obtain ⟨j, _, rfl⟩ := mem_emptyL0.1 ((TMgr.normOf_iff hi p x).1 hx).1
      rfl
  have hs : ((tableSection parts tds).srcOf (c.hash k % (tableSection parts tds).parts)).bind (·.get k) = none := by
    cases hx : (tableSection parts tds).srcOf (c.hash k % (tableSection parts tds).parts) with
    | none => rfl
    | some x =>
      obtain ⟨j, _, rfl⟩ := mem_emptyL0.1 ((TMgr.srcOf_iff hi (Nat.mod_lt _ hp) x).1 hx).1
      rfl
  rw [hn, hs, Option.none_or, Option.none_or]
  have hlook : (tableSection parts tds).lvLook k =
      TMgr.look ((tds.map (entry 0)).foldl TMgr.addTable []) k := by
    simp only [TMgr.lvLook, tableSection, minTable_eq, l1_eq]
    by_cases he : tds = []
    · subst he; rfl
    · rw [if_neg he]
      simp only [List.findSome?_cons, List.findSome?_nil]
      cases TMgr.look ((tds.map (entry 0)).foldl TMgr.addTable []) k <;> rfl
  rw [hlook]
  have hiff : ∀ r, TMgr.look ((tds.map (entry 0)).foldl TMgr.addTable []) k = some r ↔
      r ∈ contents tds ∧ r.key = k := by
    intro r
    rw [TMgr.look_some_iff h.level]
    constructor
    · rintro ⟨t, ht, hg⟩
      rw [TMgr.mem_foldl_addTable] at ht
      rcases ht with ht | ht
      · obtain ⟨td, htd, rfl⟩ := List.mem_map.1 ht
        have := SMap.find?_some_mem hg
        refine ⟨?_, (h.keys td htd _ this).1⟩
        simp only [contents, List.mem_flatMap, List.mem_map]
        exact ⟨td, htd, (k, r), this, rfl⟩
      · cases ht
    · rintro ⟨hr, hk⟩
      simp only [contents, List.mem_flatMap, List.mem_map] at hr
      obtain ⟨td, htd, e, he, rfl⟩ := hr
      refine ⟨entry 0 td, ?_, ?_⟩
      · rw [TMgr.mem_foldl_addTable]; exact Or.inl (List.mem_map_of_mem htd)
      · rw [(h.keys td htd e he).1] at hk
        subst hk
        exact SMap.find?_of_mem (h.sorted td htd) he
  cases hl : lastWrite (contents tds) k with
  | none =>
    cases hg : TMgr.look ((tds.map (entry 0)).foldl TMgr.addTable []) k with
    | none => rfl
    | some r =>
      obtain ⟨h1, h2⟩ := (hiff r).1 hg
      have h3 := lastWrite_none.1 hl r h1 h2
      simp only [contents, List.mem_flatMap, List.mem_map] at h1
      obtain ⟨td, htd, e, he, rfl⟩ := h1
      rw [(h.keys td htd e he).2] at h3; cases h3
  | some r =>
    obtain ⟨h1, h2, -⟩ := lastWrite_mem hl
    exact (hiff r).2 ⟨h1, h2⟩

end Builder

/-- The table files of a bulk build with ascending keys. -/
theorem Bld.Ok.good {b : Bld K} {ds : List (Rec K)} (h : Bld.Ok b ds) (hk : ds.Pairwise (fun a b => a.key < b.key))
    (hc : ∀ d ∈ ds, d.isCmd = false) : Builder.Good b.tables ∧ Builder.contents b.tables = ds ∧
      Builder.maxSeq b.tables = (ds.map (·.seq)).foldl Nat.max 0 := by
  have hp : ((b.tables.map (·.recs)).flatten).Pairwise (fun x y => x.1 < y.1) := by
    rw [h.recs, List.pairwise_map]; exact hk
  rw [List.pairwise_flatten] at hp
  obtain ⟨hp1, hp2⟩ := hp
  rw [List.pairwise_map] at hp2
  have hmem : ∀ t ∈ b.tables, ∀ e ∈ t.recs, ∃ d ∈ ds, e = (d.key, d) := by
    intro t ht e he
    have : e ∈ (b.tables.map (·.recs)).flatten := List.mem_flatten.2 ⟨t.recs, List.mem_map_of_mem ht, he⟩
    rw [h.recs] at this
    obtain ⟨d, hd, rfl⟩ := List.mem_map.1 this
    exact ⟨d, hd, rfl⟩
  refine ⟨⟨?_, ?_, ?_, ?_, ?_, ?_⟩, ?_, ?_⟩
  · rw [h.nums]; exact List.nodup_range
  · intro t ht; exact hp1 _ (List.mem_map_of_mem ht)
  · intro t ht e he
    obtain ⟨d, hd, rfl⟩ := hmem t ht e he
    exact ⟨rfl, hc d hd⟩
  · intro t ht
    by_cases h0 : t.number = 0
    · obtain ⟨e, m, em⟩ := List.exists_cons_of_ne_nil (h.ne t ht)
      exact ⟨e, m, em, fun hn => absurd h0 hn⟩
    · obtain ⟨-, e, m, em, e1⟩ := h.min t ht h0
      exact ⟨e, m, em, fun _ => e1.symm⟩
  · exact hp2.imp (fun hab => Or.inl (fun x hx y hy => hab x hx y hy))
  · intro a ha h0 x hx hx0
    -- number 0 is the first file
    cases ht : b.tables with
    | nil => rw [ht] at ha; cases ha
    | cons t0 ts =>
      have hn := h.nums
      rw [ht] at hn ha hx hp2
      rw [List.length_cons, List.range_succ_eq_map, List.map_cons] at hn
      obtain ⟨hn1, hn2⟩ := List.cons.inj hn
      have hts : ∀ y ∈ ts, y.number ≠ 0 := by
        intro y hy hy0
        have : y.number ∈ ts.map (·.number) := List.mem_map_of_mem hy
        rw [hn2] at this
        obtain ⟨j, _, hj⟩ := List.mem_map.1 this
        omega
      have ha' : a = t0 := by
        rcases List.mem_cons.1 ha with h1 | h1
        · exact h1
        · exact absurd h0 (hts a h1)
      have hx' : x ∈ ts := by
        rcases List.mem_cons.1 hx with h1 | h1
        · rw [h1] at hx0; exact absurd hn1 hx0
        · exact h1
      rw [ha']
      intro p hp q hq
      exact (List.pairwise_cons.1 hp2).1 x hx' p hp q hq
  · have : Builder.contents b.tables = ((b.tables.map (·.recs)).flatten).map (·.2) := by
      unfold Builder.contents
      rw [List.map_flatten, List.map_map, List.flatMap_def]; rfl
    rw [this, h.recs, List.map_map]
    conv => rhs; rw [← List.map_id ds]
    rfl
  · rw [← h.top]
    have key : ∀ (ts : List (TData K)) (a : Nat), (∀ t ∈ ts, t.maxSeq ≤ b.maxSeq) → a ≤ b.maxSeq →
        (∀ t, ts.getLast? = some t → t.maxSeq = b.maxSeq) → (ts = [] → a = b.maxSeq) →
        ts.foldl (fun a td => Nat.max td.maxSeq a) a = b.maxSeq := by
      intro ts
      induction ts with
      | nil => intro a _ _ _ h4; exact h4 rfl
      | cons t ts ih =>
        intro a h1 h2 h3 _
        rw [List.foldl_cons]
        refine ih _ (fun t' ht' => h1 t' (List.mem_cons_of_mem _ ht'))
          (Nat.max_le.2 ⟨h1 t List.mem_cons_self, h2⟩) ?_ ?_
        · intro t' ht'
          refine h3 t' ?_
          rw [List.getLast?_cons, ht']; rfl
        · intro he
          have := h3 t (by rw [he]; rfl)
          rw [this]; exact Nat.max_eq_left h2
    refine key b.tables 0 h.le (Nat.zero_le _) h.last ?_
    intro he
    have h1 := h.recs
    rw [he] at h1
    have : ds = [] := by
      simp only [List.map_nil, List.flatten_nil] at h1
      exact List.map_eq_nil_iff.1 h1.symm
    rw [h.top, this]; rfl

end Jungle
