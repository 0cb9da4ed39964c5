/-
  Lemmas about the table section: one level above 0.
-/
import Verif.Table.Model
import Mathlib.Data.List.Perm.Basic
import Mathlib.Data.List.Nodup

set_option linter.unusedSectionVars false

namespace Jungle
namespace TMgr
variable {K : Type} [LinearOrder K] [OrderBot K]

/-- A level above 0 in good order: min keys ascend, every key lies in the range of its table. -/
structure LevelOk (l : List (Tab K)) : Prop where
  sorted : l.Pairwise (fun a b => a.minKey < b.minKey)
  range : ∀ a ∈ l, ∀ b ∈ l, a.minKey < b.minKey → ∀ e ∈ a.recs, e.1 < b.minKey
  tab : ∀ t ∈ l, t.recs.Sorted ∧ (∀ e ∈ t.recs, e.2.key = e.1 ∧ t.minKey ≤ e.1) ∧ t.prevReq = false
  nums : (l.map (·.number)).Nodup

/-- What the tables of a level hold for a key. -/
def look (l : List (Tab K)) (k : K) : Option (Rec K) := l.findSome? (fun t => t.get k)

theorem LevelOk.nil : LevelOk ([] : List (Tab K)) :=
  ⟨List.Pairwise.nil, by simp, by simp, by simp⟩

theorem LevelOk.tail {x : Tab K} {l : List (Tab K)} (h : LevelOk (x :: l)) : LevelOk l :=
  ⟨(List.pairwise_cons.1 h.sorted).2,
   fun a ha b hb => h.range a (List.mem_cons_of_mem _ ha) b (List.mem_cons_of_mem _ hb),
   fun t ht => h.tab t (List.mem_cons_of_mem _ ht), (List.nodup_cons.1 h.nums).2⟩

theorem look_cons (x : Tab K) (l : List (Tab K)) (k : K) :
    look (x :: l) k = (x.get k).or (look l k) := by
  simp only [look, List.findSome?_cons]
  cases x.get k <;> rfl

theorem look_none_of {l : List (Tab K)} {k : K} (h : ∀ t ∈ l, t.get k = none) : look l k = none := by
  simp only [look, List.findSome?_eq_none_iff]; exact h

theorem get_none_of_lt {t : Tab K} {k : K} (h : ∀ e ∈ t.recs, t.minKey ≤ e.1) (hk : k < t.minKey) :
    t.get k = none := by
  apply SMap.find?_none_iff.2
  intro e he heq
  exact absurd (h e he) (not_le.2 (heq ▸ hk))

/-- Point lookup through the floor table finds what the level holds. -/
theorem scan_point {l : List (Tab K)} (h : LevelOk l) (k : K) :
    scan k (tablesPoint l k) none = some (look l k) := by
  have key : ∀ prev, match floor prev l k with
      | none => look l k = none
      | some (x, _) => x ∈ l ∧ look l k = x.get k := by
    induction l with
    | nil => intro prev; simp [floor, look]
    | cons x xs ih =>
      intro prev
      have hx := h.tab x List.mem_cons_self
      simp only [floor]
      by_cases hk : x.minKey ≤ k
      · rw [if_pos hk]
        have hi := ih h.tail (some x)
        cases hf : floor (some x) xs k with
        | none =>
          rw [hf] at hi
          simp only at hi ⊢
          refine ⟨List.mem_cons_self, ?_⟩
          rw [look_cons, hi]; simp
        | some r =>
          obtain ⟨y, p⟩ := r
          rw [hf] at hi
          simp only at hi ⊢
          refine ⟨List.mem_cons_of_mem _ hi.1, ?_⟩
          rw [look_cons, hi.2]
          -- `x` cannot hold `k`: `y` starts at or below it
          have hyk : y.minKey ≤ k := by
            clear hi ih
            have gen : ∀ (ys : List (Tab K)) (q : Option (Tab K)) (z : Tab K) (p' : Option (Tab K)),
                floor q ys k = some (z, p') → z.minKey ≤ k := by
              intro ys
              induction ys with
              | nil => intro q z p' hh; simp [floor] at hh
              | cons w ws ihw =>
                intro q z p' hh
                simp only [floor] at hh
                split at hh
                · next hw =>
                  split at hh
                  · next r hr => obtain ⟨a, b⟩ := r; cases hh; exact ihw _ _ _ hr
                  · cases hh; exact hw
                · cases hh
            exact gen _ _ _ _ hf
          have hlt := (List.pairwise_cons.1 h.sorted).1 y hi.1
          have hnone : x.get k = none := by
            apply SMap.find?_none_iff.2
            intro e he heq
            have := h.range x List.mem_cons_self y (List.mem_cons_of_mem _ hi.1) hlt e he
            rw [heq] at this
            exact absurd hyk (not_le.2 this)
          rw [hnone]; rfl
      · rw [if_neg hk]
        simp only
        apply look_none_of
        intro t ht
        have htt := h.tab t ht
        apply get_none_of_lt (fun e he => (htt.2.1 e he).2)
        rcases List.mem_cons.1 ht with rfl | ht'
        · exact not_le.1 hk
        · exact lt_trans (not_le.1 hk) ((List.pairwise_cons.1 h.sorted).1 t ht')
  have hk := key none
  unfold tablesPoint
  cases hf : floor none l k with
  | none => rw [hf] at hk; simp only at hk; rw [hk]; rfl
  | some r =>
    obtain ⟨x, p⟩ := r
    rw [hf] at hk
    simp only at hk
    have := (h.tab x hk.1).2.2
    simp only [this, Bool.false_eq_true, if_false, hk.2]
    simp only [scan]
    cases x.get k <;> rfl

theorem getLevels_eq {ls : List (List (Tab K))} (h : ∀ l ∈ ls, LevelOk l) (k : K) :
    getLevels k ls = ls.findSome? (fun l => look l k) := by
  induction ls with
  | nil => rfl
  | cons l ls ih =>
    simp only [getLevels, scan_point (h l List.mem_cons_self), List.findSome?_cons]
    cases look l k with
    | none => exact ih (fun l' hl => h l' (List.mem_cons_of_mem _ hl))
    | some r => rfl

theorem look_some_iff {l : List (Tab K)} (h : LevelOk l) (k : K) (r : Rec K) :
    look l k = some r ↔ ∃ t ∈ l, t.get k = some r := by
  constructor
  · intro hh; exact List.exists_of_findSome?_eq_some hh
  · rintro ⟨t, ht, hg⟩
    induction l with
    | nil => cases ht
    | cons x xs ih =>
      rw [look_cons]
      rcases List.mem_cons.1 ht with rfl | ht'
      · rw [hg]; rfl
      · have hlt := (List.pairwise_cons.1 h.sorted).1 t ht'
        have : x.get k = none := by
          apply SMap.find?_none_iff.2
          intro e he heq
          have h1 := h.range x List.mem_cons_self t ht hlt e he
          have h2 := SMap.find?_some_mem hg
          have h3 := ((h.tab t ht).2.1 _ h2).2
          rw [heq] at h1
          exact absurd h3 (not_le.2 h1)
        rw [this, ih h.tail ht']; rfl

/-! ### Writing into one table -/

theorem setSingle_minKey (t : Tab K) (r : Rec K) (p : Bool) (m : Bool := false) : (t.setSingle r p m).minKey = t.minKey := rfl
theorem setSingle_number (t : Tab K) (r : Rec K) (p : Bool) (m : Bool := false) : (t.setSingle r p m).number = t.number := rfl
theorem setSingle_prevReq (t : Tab K) (r : Rec K) (p : Bool) (m : Bool := false) : (t.setSingle r p m).prevReq = t.prevReq := rfl

theorem setSingle_sorted {t : Tab K} (h : t.recs.Sorted) (r : Rec K) (p : Bool) (m : Bool := false) :
    (t.setSingle r p m).recs.Sorted := by
  simp only [Tab.setSingle]
  split
  · exact h.erase _
  · exact h.insert _ _

theorem setSingle_get {t : Tab K} (h : t.recs.Sorted) (r : Rec K) (p m : Bool) (k : K) :
    (t.setSingle r p m).get k =
      if k = r.key then (if p && r.isDel then none else some r) else t.get k := by
  simp only [Tab.get, Tab.setSingle]
  by_cases hp : (p && r.isDel) = true
  · rw [if_pos hp, if_pos hp, SMap.find?_erase]
  · rw [if_neg hp, if_neg hp, SMap.find?_insert h]

theorem writeGroup_fields (rs : List (Rec K)) (p : Bool) (t : Tab K) {m : Bool} :
    (writeGroup t rs p m).minKey = t.minKey ∧ (writeGroup t rs p m).number = t.number ∧
    (writeGroup t rs p m).prevReq = t.prevReq ∧ (writeGroup t rs p m).hashNum = t.hashNum ∧
    (writeGroup t rs p m).status = t.status := by
  induction rs generalizing t with
  | nil => exact ⟨rfl, rfl, rfl, rfl, rfl⟩
  | cons r rs ih => exact ih (t.setSingle r p m)

theorem writeGroup_sorted (rs : List (Rec K)) (p : Bool) {t : Tab K} (h : t.recs.Sorted) {m : Bool} :
    (writeGroup t rs p m).recs.Sorted := by
  induction rs generalizing t with
  | nil => exact h
  | cons r rs ih => exact ih (setSingle_sorted h r p m)

/-- What a table holds after a group was written: the records of the group win. -/
theorem writeGroup_get (rs : List (Rec K)) (p : Bool) {t : Tab K} (h : t.recs.Sorted) {m : Bool}
    (hd : rs.Pairwise (fun a b => a.key ≠ b.key)) (k : K) :
    (writeGroup t rs p m).get k = match rs.find? (fun r => decide (r.key = k)) with
      | some r => if p && r.isDel then none else some r
      | none => t.get k := by
  induction rs generalizing t with
  | nil => rfl
  | cons r rs ih =>
    have hd' := List.pairwise_cons.1 hd
    have step : writeGroup t (r :: rs) p m = writeGroup (t.setSingle r p m) rs p m := rfl
    rw [step, ih (setSingle_sorted h r p m) hd'.2, List.find?_cons]
    by_cases hk : r.key = k
    · have : rs.find? (fun r => decide (r.key = k)) = none := by
        rw [List.find?_eq_none]
        intro x hx; have := hd'.1 x hx; simp only [decide_eq_true_eq]
        intro hxk; exact this (hk.trans hxk.symm)
      rw [this]
      simp only [hk, decide_true]
      rw [setSingle_get h, if_pos hk.symm]
    · simp only [hk, decide_false]
      cases rs.find? (fun r => decide (r.key = k)) with
      | some x => rfl
      | none => simp only; rw [setSingle_get h, if_neg (Ne.symm hk)]

theorem writeGroup_mem (rs : List (Rec K)) (p : Bool) {t : Tab K} (h : t.recs.Sorted) {m : Bool}
    {e : K × Rec K} (he : e ∈ (writeGroup t rs p m).recs) :
    e ∈ t.recs ∨ ∃ r ∈ rs, e = (r.key, r) := by
  induction rs generalizing t with
  | nil => exact Or.inl he
  | cons r rs ih =>
    rcases ih (setSingle_sorted h r p m) he with h1 | ⟨x, hx, hxe⟩
    · simp only [Tab.setSingle] at h1
      split at h1
      · exact Or.inl (List.mem_of_mem_filter h1)
      · obtain ⟨k, v⟩ := e
        have h2 := SMap.find?_of_mem (h.insert r.key r) h1
        rw [SMap.find?_insert h] at h2
        split at h2
        · next hk => cases h2; exact Or.inr ⟨_, List.mem_cons_self, by rw [hk]⟩
        · exact Or.inl (SMap.find?_some_mem h2)
    · exact Or.inr ⟨x, List.mem_cons_of_mem _ hx, hxe⟩

/-! ### Adding and removing tables -/

theorem addTable_perm (l : List (Tab K)) (x : Tab K) : (addTable l x).Perm (x :: l) := by
  induction l with
  | nil => exact List.Perm.refl _
  | cons y ys ih =>
    simp only [addTable]
    split
    · exact List.Perm.refl _
    · exact (ih.cons y).trans (List.Perm.swap x y ys)

theorem mem_addTable {l : List (Tab K)} {x t : Tab K} : t ∈ addTable l x ↔ t = x ∨ t ∈ l := by
  rw [(addTable_perm l x).mem_iff, List.mem_cons]

theorem addTable_sorted {l : List (Tab K)} {x : Tab K}
    (h : l.Pairwise (fun a b => a.minKey < b.minKey)) (hx : ∀ t ∈ l, t.minKey ≠ x.minKey) :
    (addTable l x).Pairwise (fun a b => a.minKey < b.minKey) := by
  induction l with
  | nil => simp [addTable]
  | cons y ys ih =>
    have hc := List.pairwise_cons.1 h
    simp only [addTable]
    split
    · next hle =>
      have hlt : x.minKey < y.minKey := lt_of_le_of_ne hle (hx y List.mem_cons_self).symm
      refine List.pairwise_cons.2 ⟨?_, h⟩
      intro t ht
      rcases List.mem_cons.1 ht with rfl | ht'
      · exact hlt
      · exact lt_trans hlt (hc.1 t ht')
    · next hgt =>
      refine List.pairwise_cons.2 ⟨?_, ih hc.2 (fun t ht => hx t (List.mem_cons_of_mem _ ht))⟩
      intro t ht
      rcases mem_addTable.1 ht with rfl | ht'
      · exact not_le.1 hgt
      · exact hc.1 t ht'

theorem foldl_addTable_perm (xs l : List (Tab K)) : (xs.foldl addTable l).Perm (xs ++ l) := by
  induction xs generalizing l with
  | nil => exact List.Perm.refl _
  | cons x xs ih =>
    refine (ih (addTable l x)).trans ?_
    exact ((addTable_perm l x).append_left xs).trans (List.perm_middle)

theorem mem_foldl_addTable {xs l : List (Tab K)} {t : Tab K} :
    t ∈ xs.foldl addTable l ↔ t ∈ xs ∨ t ∈ l := by
  rw [(foldl_addTable_perm xs l).mem_iff, List.mem_append]

theorem foldl_addTable_sorted {xs l : List (Tab K)}
    (h : l.Pairwise (fun a b => a.minKey < b.minKey))
    (hd : xs.Pairwise (fun a b => a.minKey ≠ b.minKey))
    (hx : ∀ x ∈ xs, ∀ t ∈ l, t.minKey ≠ x.minKey) :
    (xs.foldl addTable l).Pairwise (fun a b => a.minKey < b.minKey) := by
  induction xs generalizing l with
  | nil => exact h
  | cons x xs ih =>
    have hc := List.pairwise_cons.1 hd
    apply ih (addTable_sorted h (hx x List.mem_cons_self)) hc.2
    intro y hy t ht
    rcases mem_addTable.1 ht with rfl | ht'
    · exact hc.1 y hy
    · exact hx y (List.mem_cons_of_mem _ hy) t ht'

theorem LevelOk.removeTable {l : List (Tab K)} (h : LevelOk l) (n : Nat) : LevelOk (removeTable l n) :=
  ⟨List.Pairwise.sublist List.filter_sublist h.sorted,
   fun a ha b hb => h.range a (List.mem_of_mem_filter ha) b (List.mem_of_mem_filter hb),
   fun t ht => h.tab t (List.mem_of_mem_filter ht),
   List.Nodup.sublist (List.Sublist.map _ List.filter_sublist) h.nums⟩

theorem mem_removeTable {l : List (Tab K)} {n : Nat} {t : Tab K} :
    t ∈ TMgr.removeTable l n ↔ t ∈ l ∧ t.number ≠ n := by
  simp [TMgr.removeTable, List.mem_filter]

/-! ### Ranges -/

theorem fromFloor_spec (l : List (Tab K)) (k : K) (prev : Option (Tab K)) :
    ∃ pre, l = pre ++ (fromFloor prev l k).2 ∧
      (pre ≠ [] → ∃ h t, (fromFloor prev l k).2 = h :: t ∧ h.minKey ≤ k) ∧
      ((fromFloor prev l k).2 = [] → l = []) := by
  induction l generalizing prev with
  | nil => exact ⟨[], rfl, fun h => absurd rfl h, fun _ => rfl⟩
  | cons x xs ih =>
    cases xs with
    | nil => exact ⟨[], rfl, fun h => absurd rfl h, fun h => by simp [fromFloor] at h⟩
    | cons y ys =>
      simp only [fromFloor]
      split
      · next hk =>
        obtain ⟨pre, h1, h2, h3⟩ := ih (some x)
        refine ⟨x :: pre, by rw [List.cons_append, ← h1], ?_, ?_⟩
        · intro _
          by_cases hp : pre = []
          · subst hp
            refine ⟨y, ys, ?_, hk⟩
            exact h1.symm
          · exact h2 hp
        · intro h; have := h3 h; simp at this
      · exact ⟨[], rfl, fun h => absurd rfl h, fun h => by simp at h⟩

/-- A table that does not start above the upper bound. -/
def inRange (hi : Option K) (x : Tab K) : Bool :=
  match hi with
  | none => true
  | some b => decide (x.minKey ≤ b)

/-- The tables the compaction looks at: a suffix of the level cut at the highest key of the
    victim. -/
theorem tablesRange_spec {l : List (Tab K)} (h : LevelOk l) (lo : K) (hi : Option K) :
    ∃ pre s, l = pre ++ s ∧
      (pre ≠ [] → ∃ a t, s = a :: t ∧ a.minKey ≤ lo) ∧ (s = [] → l = []) ∧
      tablesRange l lo hi = s.filter (inRange hi) := by
  obtain ⟨pre, h1, h2, h3⟩ := fromFloor_spec l lo none
  refine ⟨pre, _, h1, h2, h3, ?_⟩
  unfold tablesRange
  simp only
  cases hs : (fromFloor none l lo).2 with
  | nil => rfl
  | cons x xs =>
    have hx : x ∈ l := by rw [h1, hs]; simp
    simp only [(h.tab x hx).2.2, Bool.false_eq_true, if_false, List.nil_append]
    cases hi <;> rfl

end TMgr
end Jungle
