/-
  Sorted association lists: the abstract view of the ordered index that
  src/skiplist.cc implements (`Verif/SkipList` refines the pointer structure to it).
-/
import Verif.Basic

namespace Jungle

/-- Entries of an ordered index in traversal order (skiplist_begin … skiplist_next,
    src/skiplist.cc:920-980). -/
abbrev SMap (K V : Type) := List (K × V)

namespace SMap
variable {K V : Type} [LinearOrder K]

/-- Keys strictly ascending along the list. -/
def Sorted (m : SMap K V) : Prop := m.Pairwise (fun a b => a.1 < b.1)

/-- `skiplist_find` (src/skiplist.cc:672-676, mode EQ of `_sl_find` 599-670). -/
def find? : SMap K V → K → Option V
  | [], _ => none
  | (k', v) :: m, k => if k' = k then some v else find? m k

/-- `skiplist_insert_nodup` followed by an update of the existing node when the key
    is already there (the pattern of MemTable::addToByKeyIndex, src/memtable.cc:412-442). -/
def upsert (m : SMap K V) (k : K) (f : Option V → V) : SMap K V :=
  match m with
  | [] => [(k, f none)]
  | (k', v) :: m' =>
    if k < k' then (k, f none) :: (k', v) :: m'
    else if k = k' then (k, f (some v)) :: m'
    else (k', v) :: upsert m' k f

/-- Set `k` to `v` whatever was there. -/
def insert (m : SMap K V) (k : K) (v : V) : SMap K V := upsert m k (fun _ => v)

/-- `skiplist_find_greater_or_equal` (src/skiplist.cc:678-682). -/
def findGE (m : SMap K V) (k : K) : Option (K × V) := List.find? (fun e => decide (k ≤ e.1)) m

/-- First entry strictly above `k`: `skiplist_next` of an equal node, or GT mode. -/
def findGT (m : SMap K V) (k : K) : Option (K × V) := List.find? (fun e => decide (k < e.1)) m

/-- `skiplist_find_smaller_or_equal` (src/skiplist.cc:684-688). -/
def findLE (m : SMap K V) (k : K) : Option (K × V) := List.find? (fun e => decide (e.1 ≤ k)) m.reverse

/-- Last entry strictly below `k`: `skiplist_prev` of an equal node, or SM mode. -/
def findLT (m : SMap K V) (k : K) : Option (K × V) := List.find? (fun e => decide (e.1 < k)) m.reverse

/-- Removal of the node with key `k` (`skiplist_erase_node`, src/skiplist.cc:690-883). -/
def erase (m : SMap K V) (k : K) : SMap K V := m.filter (fun e => decide (e.1 ≠ k))

theorem sorted_nil : Sorted ([] : SMap K V) := List.Pairwise.nil

theorem Sorted.tail {a : K × V} {m : SMap K V} (h : Sorted (a :: m)) : Sorted m :=
  (List.pairwise_cons.1 h).2

theorem Sorted.head_lt {a : K × V} {m : SMap K V} (h : Sorted (a :: m)) :
    ∀ b ∈ m, a.1 < b.1 := (List.pairwise_cons.1 h).1

theorem mem_upsert_key {m : SMap K V} {k : K} {f : Option V → V} {e : K × V}
    (h : e ∈ upsert m k f) : e.1 = k ∨ ∃ e' ∈ m, e'.1 = e.1 := by
  induction m with
  | nil => simp only [upsert, List.mem_singleton] at h; subst h; exact Or.inl rfl
  | cons a m ih =>
    obtain ⟨k', v⟩ := a
    simp only [upsert] at h
    split at h
    · rcases List.mem_cons.1 h with h | h
      · subst h; exact Or.inl rfl
      · exact Or.inr ⟨e, h, rfl⟩
    · split at h
      · rcases List.mem_cons.1 h with h | h
        · subst h; exact Or.inl rfl
        · exact Or.inr ⟨e, List.mem_cons_of_mem _ h, rfl⟩
      · rcases List.mem_cons.1 h with h | h
        · subst h; exact Or.inr ⟨_, List.mem_cons_self, rfl⟩
        · rcases ih h with h | ⟨e', h1, h2⟩
          · exact Or.inl h
          · exact Or.inr ⟨e', List.mem_cons_of_mem _ h1, h2⟩

theorem Sorted.upsert {m : SMap K V} (h : Sorted m) (k : K) (f : Option V → V) :
    Sorted (m.upsert k f) := by
  induction m with
  | nil => simp [SMap.upsert, Sorted]
  | cons a m ih =>
    obtain ⟨k', v⟩ := a
    simp only [SMap.upsert]
    have hl := h.head_lt
    split
    · next hk =>
      refine List.pairwise_cons.2 ⟨?_, h⟩
      intro b hb
      rcases List.mem_cons.1 hb with hb | hb
      · subst hb; exact hk
      · exact lt_trans hk (hl b hb)
    · split
      · next hk =>
        refine List.pairwise_cons.2 ⟨?_, h.tail⟩
        intro b hb; subst hk; exact hl b hb
      · next hk1 hk2 =>
        refine List.pairwise_cons.2 ⟨?_, ih h.tail⟩
        intro b hb
        rcases mem_upsert_key hb with hb | ⟨e', he', heq⟩
        · simp only [hb]; exact lt_of_le_of_ne (not_lt.1 hk1) (Ne.symm hk2)
        · rw [← heq]; exact hl e' he'

theorem Sorted.insert {m : SMap K V} (h : Sorted m) (k : K) (v : V) : Sorted (m.insert k v) :=
  h.upsert k _

theorem find?_none_of_lt {m : SMap K V} {k : K} (h : ∀ e ∈ m, k < e.1) : find? m k = none := by
  induction m with
  | nil => rfl
  | cons a m ih =>
    obtain ⟨k', v⟩ := a
    have := h (k', v) List.mem_cons_self
    simp only [find?]
    rw [if_neg (ne_of_gt this)]
    exact ih (fun e he => h e (List.mem_cons_of_mem _ he))

theorem find?_upsert {m : SMap K V} (h : Sorted m) (k k2 : K) (f : Option V → V) :
    find? (m.upsert k f) k2 = if k2 = k then some (f (find? m k)) else find? m k2 := by
  induction m with
  | nil =>
    simp only [upsert, find?]
    by_cases hk : k = k2
    · rw [if_pos hk, if_pos hk.symm]
    · rw [if_neg hk, if_neg (Ne.symm hk)]
  | cons a m ih =>
    obtain ⟨k', v⟩ := a
    have hl := h.head_lt
    simp only [upsert]
    split
    · next hk =>
      have hn : find? ((k', v) :: m) k = none := by
        apply find?_none_of_lt
        intro e he
        rcases List.mem_cons.1 he with he | he
        · subst he; exact hk
        · exact lt_trans hk (hl e he)
      by_cases hk2 : k = k2
      · subst hk2; simp only [find?, if_true] at hn ⊢; rw [hn]
      · conv => lhs; unfold find?
        rw [if_neg hk2, if_neg (Ne.symm hk2)]
    · split
      · next hk =>
        subst hk
        by_cases hk2 : k = k2
        · subst hk2; simp [find?]
        · simp only [find?]; rw [if_neg hk2, if_neg (Ne.symm hk2), if_neg hk2]
      · next hk1 hk2 =>
        simp only [find?]
        rw [ih h.tail]
        by_cases hk3 : k' = k2
        · subst hk3; rw [if_pos rfl, if_neg (Ne.symm hk2), if_pos rfl]
        · rw [if_neg hk3, if_neg (Ne.symm hk2), if_neg hk3]

theorem find?_insert {m : SMap K V} (h : Sorted m) (k k2 : K) (v : V) :
    find? (m.insert k v) k2 = if k2 = k then some v else find? m k2 :=
  find?_upsert h k k2 _

theorem find?_some_mem {m : SMap K V} {k : K} {v : V} (h : find? m k = some v) : (k, v) ∈ m := by
  induction m with
  | nil => simp [find?] at h
  | cons a m ih =>
    obtain ⟨k', v'⟩ := a
    simp only [find?] at h
    split at h
    · next hk => cases h; subst hk; exact List.mem_cons_self
    · exact List.mem_cons_of_mem _ (ih h)

theorem find?_of_mem {m : SMap K V} (hs : Sorted m) {k : K} {v : V} (h : (k, v) ∈ m) :
    find? m k = some v := by
  induction m with
  | nil => cases h
  | cons a m ih =>
    obtain ⟨k', v'⟩ := a
    rcases List.mem_cons.1 h with h | h
    · cases h; simp [find?]
    · have := hs.head_lt _ h
      simp only [find?]
      rw [if_neg (ne_of_lt this)]
      exact ih hs.tail h

theorem mem_iff_find? {m : SMap K V} (hs : Sorted m) {k : K} {v : V} :
    (k, v) ∈ m ↔ find? m k = some v := ⟨find?_of_mem hs, find?_some_mem⟩

theorem find?_none_iff {m : SMap K V} {k : K} : find? m k = none ↔ ∀ e ∈ m, e.1 ≠ k := by
  induction m with
  | nil => simp [find?]
  | cons a m ih =>
    obtain ⟨k', v⟩ := a
    simp only [find?, List.mem_cons, forall_eq_or_imp]
    by_cases hk : k' = k
    · simp [hk]
    · simp [hk, ih]

theorem Sorted.erase {m : SMap K V} (h : Sorted m) (k : K) : Sorted (m.erase k) :=
  List.Pairwise.sublist List.filter_sublist h

theorem find?_erase (m : SMap K V) (k k2 : K) :
    find? (m.erase k) k2 = if k2 = k then none else find? m k2 := by
  induction m with
  | nil => simp [SMap.erase, find?]
  | cons a m ih =>
    obtain ⟨k', v⟩ := a
    simp only [SMap.erase] at ih ⊢
    by_cases h1 : k' = k
    · subst h1
      simp only [List.filter_cons, ne_eq, not_true_eq_false, decide_false, Bool.false_eq_true,
        if_false, find?, ih]
      by_cases h2 : k2 = k'
      · simp [h2]
      · rw [if_neg h2, if_neg h2, if_neg (Ne.symm h2)]
    · simp only [List.filter_cons, ne_eq, h1, not_false_eq_true, decide_true, if_true, find?, ih]
      by_cases h2 : k' = k2
      · subst h2; rw [if_pos rfl, if_neg h1, if_pos rfl]
      · rw [if_neg h2, if_neg h2]

/-- A sorted map is determined by its lookups. -/
theorem ext_find? {m m' : SMap K V} (hs : Sorted m) (hs' : Sorted m')
    (h : ∀ k, find? m k = find? m' k) : m = m' := by
  induction m generalizing m' with
  | nil =>
    cases m' with
    | nil => rfl
    | cons b m' => have := h b.1; simp [find?] at this
  | cons a m ih =>
    cases m' with
    | nil => have := h a.1; simp [find?] at this
    | cons b m' =>
      obtain ⟨ka, va⟩ := a
      obtain ⟨kb, vb⟩ := b
      have hab : ka = kb := by
        rcases lt_trichotomy ka kb with hlt | heq | hgt
        · have h1 := h ka
          have h2 : find? ((kb, vb) :: m') ka = none := by
            apply find?_none_of_lt
            intro e he
            rcases List.mem_cons.1 he with he | he
            · subst he; exact hlt
            · exact lt_trans hlt (hs'.head_lt _ he)
          rw [h2] at h1; simp [find?] at h1
        · exact heq
        · have h1 := h kb
          have h2 : find? ((ka, va) :: m) kb = none := by
            apply find?_none_of_lt
            intro e he
            rcases List.mem_cons.1 he with he | he
            · subst he; exact hgt
            · exact lt_trans hgt (hs.head_lt _ he)
          rw [h2] at h1; simp [find?] at h1
      subst hab
      have hv : va = vb := by have := h ka; simpa [find?] using this
      subst hv
      congr 1
      apply ih hs.tail hs'.tail
      intro k
      by_cases hk : ka = k
      · subst hk
        rw [find?_none_of_lt hs.head_lt, find?_none_of_lt hs'.head_lt]
      · have := h k
        simpa [find?, hk] using this

end SMap
end Jungle
