/-
  A compaction by index traversal puts every record where the normal one does, as long as no record
  passes the start of a table only with the bytes the index does not hold.
-/
import Verif.FastScan.Model
import Verif.Table.Lsm

set_option linter.unusedSectionVars false

namespace Jungle.FastScan
open TMgr

theorem dropNul (l : Bytes) (z : Nat) :
    (l ++ List.replicate z 0).reverse.dropWhile (fun c => c == 0) = l.reverse.dropWhile (fun c => c == 0) := by
  rw [List.reverse_append, List.reverse_replicate]
  induction z with
  | zero => rfl
  | succ z ih => rw [List.replicate_succ, List.cons_append, List.dropWhile_cons]; simp [ih]

theorem reverse_dropWhile (l : Bytes) (f : UInt8 → Bool) : ∃ s, l = (l.reverse.dropWhile f).reverse ++ s := by
  refine ⟨(l.reverse.takeWhile f).reverse, ?_⟩
  rw [← List.reverse_append, List.takeWhile_append_dropWhile, List.reverse_reverse]

/-- What is left of the index bytes is a prefix of the key. -/
theorem strip_prefix {idx : ByteKey → Bytes} {k : ByteKey} (h : IdxOk idx k) :
    ∃ s, k.bytes = stripNul (idx k) ++ s := by
  obtain ⟨n, z, h0, h1, he⟩ := h
  cases hk : k.bytes with
  | nil => rw [hk] at h1; simp at h1; omega
  | cons b bs =>
    obtain ⟨m, rfl⟩ : ∃ m, n = m + 1 := ⟨n - 1, by omega⟩
    rw [he, hk, List.take_succ_cons, List.cons_append, stripNul, dropNul]
    obtain ⟨s, hs⟩ := reverse_dropWhile (bs.take m) (fun c => c == 0)
    refine ⟨s ++ bs.drop m, ?_⟩
    rw [List.cons_append, ← List.append_assoc, ← hs, List.take_append_drop]

/-- The bytes the index holds, without the padding. -/
def idxKey (idx : ByteKey → Bytes) (k : ByteKey) : ByteKey := ⟨stripNul (idx k)⟩

theorem idxKey_le {idx : ByteKey → Bytes} {k : ByteKey} (h : IdxOk idx k) : idxKey idx k ≤ k := by
  obtain ⟨s, hs⟩ := strip_prefix h
  rw [ByteKey.le_iff, hs]
  exact ByteKey.dict_append _ s

theorem cmp_self (a : Bytes) : SizedBuf.cmp a a = 0 := by
  unfold SizedBuf.cmp
  rw [if_pos rfl]
  split
  · rfl
  · exact (ByteKey.memcmp_eq_zero a a rfl).2 rfl

/-- A table starts in between only if the index bytes are a proper prefix of its min key. -/
theorem between {idx : ByteKey → Bytes} {k m : ByteKey} (h : IdxOk idx k) (h1 : ¬ m ≤ idxKey idx k) (h2 : m ≤ k) :
    (stripNul (idx k)).length < m.bytes.length ∧
    SizedBuf.cmp (stripNul (idx k)) (m.bytes.take (stripNul (idx k)).length) = 0 := by
  obtain ⟨s, hs⟩ := strip_prefix h
  have hlt := not_le.1 h1
  obtain ⟨s', hs'⟩ := ByteKey.prefix_between (p := stripNul (idx k)) (a := m.bytes) (b := k.bytes)
    ((ByteKey.le_iff _ _).1 hlt.le) ((ByteKey.le_iff _ _).1 h2) ⟨s, hs⟩
  have hne : s' ≠ [] := by
    rintro rfl
    rw [List.append_nil] at hs'
    exact h1 (le_of_eq (ByteKey.ext' hs'))
  constructor
  · rw [hs', List.length_append]
    have : 0 < s'.length := List.length_pos_iff.2 hne
    omega
  · rw [hs', List.take_left]; exact cmp_self _

theorem scanKey_cases (idx : ByteKey → Bytes) (next : List (Tab ByteKey)) (k : ByteKey) :
    scanKey idx next k = k ∨ scanKey idx next k = idxKey idx k := by
  unfold scanKey idxKey
  split
  · exact Or.inr rfl
  · split
    · split
      · exact Or.inl rfl
      · exact Or.inr rfl
    · exact Or.inr rfl

theorem scanKey_le {idx : ByteKey → Bytes} {k : ByteKey} (h : IdxOk idx k) (next : List (Tab ByteKey)) :
    scanKey idx next k ≤ k := by
  rcases scanKey_cases idx next k with e | e <;> rw [e]
  exact idxKey_le h

/-- The comparison with the next table is exact. -/
theorem scanKey_next {idx : ByteKey → Bytes} {k : ByteKey} (h : IdxOk idx k) (x : Tab ByteKey) (xs : List (Tab ByteKey)) :
    x.minKey ≤ scanKey idx (x :: xs) k ↔ x.minKey ≤ k := by
  constructor
  · exact fun hx => le_trans hx (scanKey_le h _)
  · intro hx
    by_cases hp : x.minKey ≤ idxKey idx k
    · rcases scanKey_cases idx (x :: xs) k with e | e <;> rw [e]
      · exact hx
      · exact hp
    · obtain ⟨h1, h2⟩ := between h hp hx
      have : scanKey idx (x :: xs) k = k := by unfold scanKey; simp only; rw [if_pos h1, if_pos h2]
      rw [this]; exact hx

/-- No record of the victim passes the start of one table with the bytes in the index and the start
    of another one only with the rest of its key.  `lo` is the key of the record before, for the
    first one the min key of the victim. -/
def Clear (idx : ByteKey → Bytes) (tables : List (Tab ByteKey)) : ByteKey → List (ByteKey × Rec ByteKey) → Prop
  | _, [] => True
  | lo, (k, _) :: rs =>
    (∀ x ∈ tables, ∀ y ∈ tables, lo < x.minKey → x.minKey ≤ idxKey idx k →
      idxKey idx k < y.minKey → k < y.minKey) ∧ Clear idx tables k rs

theorem assign_congr {K : Type} [LinearOrder K] [OrderBot K] {top : K} {f g : Nat → Bool} : ∀ (rs : List (K × Rec K)) (i : Nat)
    (cur : Tgt K) (rest : List (Tab K)), (∀ j, i ≤ j → f j = g j) →
    assign top f i cur rest rs = assign top g i cur rest rs := by
  intro rs
  induction rs with
  | nil => intros; simp [assign]
  | cons e rs ih =>
    obtain ⟨k, r⟩ := e
    intro i cur rest h
    have h' : ∀ j, i + 1 ≤ j → f j = g j := fun j hj => h j (by omega)
    have hi := h i (Nat.le_refl _)
    cases rest with
    | nil => simp only [assign, hi, ih _ _ _ h']
    | cons x xs => simp only [assign, hi, ih _ _ _ h']

theorem advance_same (cur : Tgt ByteKey) {p k : ByteKey} (hpk : p ≤ k) : ∀ rest : List (Tab ByteKey),
    (∀ y ∈ rest, p < y.minKey → k < y.minKey) → advance cur rest p = advance cur rest k := by
  intro rest
  induction rest generalizing cur with
  | nil => intro _; rfl
  | cons x xs ih =>
    intro h
    simp only [advance]
    by_cases hx : x.minKey ≤ p
    · rw [if_pos hx, if_pos (le_trans hx hpk)]
      exact ih _ (fun y hy => h y (List.mem_cons_of_mem _ hy))
    · rw [if_neg hx, if_neg (not_le.2 (h x List.mem_cons_self (not_le.1 hx)))]

theorem advance_rest (cur : Tgt ByteKey) (k : ByteKey) : ∀ rest : List (Tab ByteKey), MinSorted rest →
    MinSorted (advance cur rest k).2 ∧ ∀ t ∈ (advance cur rest k).2, t ∈ rest ∧ k < t.minKey := by
  intro rest
  induction rest generalizing cur with
  | nil => intro _; exact ⟨List.Pairwise.nil, by simp [advance]⟩
  | cons x xs ih =>
    intro hs
    have hp := List.pairwise_cons.1 hs
    simp only [advance]
    by_cases hx : x.minKey ≤ k
    · rw [if_pos hx]
      obtain ⟨h1, h2⟩ := ih ⟨x.minKey, false⟩ hp.2
      exact ⟨h1, fun t ht => ⟨List.mem_cons_of_mem _ (h2 t ht).1, (h2 t ht).2⟩⟩
    · rw [if_neg hx]
      refine ⟨hs, fun t ht => ⟨ht, ?_⟩⟩
      rcases List.mem_cons.1 ht with rfl | ht
      · exact not_le.1 hx
      · exact lt_trans (not_le.1 hx) (hp.1 t ht)

/-- The groups of the traversal are the groups of a normal scan. -/
theorem assignFast_eq {idx : ByteKey → Bytes} {tables : List (Tab ByteKey)} (top : ByteKey) (full : Nat → Bool) :
    ∀ (rs : List (ByteKey × Rec ByteKey)) (i : Nat) (cur : Tgt ByteKey) (rest : List (Tab ByteKey)) (lo : ByteKey),
    (∀ e ∈ rs, IdxOk idx e.1) → MinSorted rest → (∀ x ∈ rest, x ∈ tables ∧ lo < x.minKey) →
    Clear idx tables lo rs →
    ∃ full', assignFast idx top full i cur rest rs = assign top full' i cur rest rs := by
  intro rs
  induction rs with
  | nil => intros; exact ⟨full, by simp [assignFast, assign]⟩
  | cons e rs ih =>
    obtain ⟨k, r⟩ := e
    intro i cur rest lo hok hs hr hc
    have hk : IdxOk idx k := hok (k, r) List.mem_cons_self
    have hok' : ∀ e ∈ rs, IdxOk idx e.1 := fun e he => hok e (List.mem_cons_of_mem _ he)
    obtain ⟨hc1, hc2⟩ := hc
    -- the flag for this record, the flags of the induction for the others
    have mk : ∀ (b : Bool) (g : Nat → Bool), ∃ f : Nat → Bool, f i = b ∧ ∀ j, i + 1 ≤ j → g j = f j := by
      intro b g
      exact ⟨fun j => if j = i then b else g j, by simp, fun j hj => by
        show g j = if j = i then b else g j
        rw [if_neg (by omega)]⟩
    cases rest with
    | nil =>
      obtain ⟨g, hg⟩ := ih (i + 1) (if full i && decide (top < scanKey idx [] k) then ⟨k, true⟩ else cur) [] k
        hok' List.Pairwise.nil (by simp) hc2
      obtain ⟨f, hf, hfg⟩ := mk (full i && decide (top < scanKey idx [] k)) g
      refine ⟨f, ?_⟩
      simp only [assignFast, assign, hf]
      by_cases hb : (full i && decide (top < scanKey idx [] k)) = true
      · have htop : top < k := by
          simp only [Bool.and_eq_true, decide_eq_true_eq] at hb
          exact lt_of_lt_of_le hb.2 (scanKey_le hk _)
        rw [if_pos hb] at hg ⊢
        rw [if_pos (by rw [hb]; simpa using htop), hg, assign_congr rs _ _ _ hfg]
      · rw [if_neg hb] at hg ⊢
        rw [if_neg (by intro h; exact hb (Bool.and_eq_true_iff.1 h).1), hg, assign_congr rs _ _ _ hfg]
    | cons x xs =>
      by_cases hx : x.minKey ≤ k
      · have hx' := (scanKey_next hk x xs).2 hx
        have hadv : advance cur (x :: xs) (scanKey idx (x :: xs) k) = advance cur (x :: xs) k := by
          rcases scanKey_cases idx (x :: xs) k with e | e
          · rw [e]
          · rw [e] at hx' ⊢
            refine advance_same cur (idxKey_le hk) _ (fun y hy hlt => ?_)
            exact hc1 x (hr x List.mem_cons_self).1 y (hr y hy).1 (hr x List.mem_cons_self).2 hx' hlt
        obtain ⟨a1, a2⟩ := advance_rest cur k (x :: xs) hs
        obtain ⟨g, hg⟩ := ih (i + 1) (advance cur (x :: xs) k).1 (advance cur (x :: xs) k).2 k hok' a1
          (fun t ht => ⟨(hr t (a2 t ht).1).1, (a2 t ht).2⟩) hc2
        obtain ⟨f, -, hfg⟩ := mk false g
        refine ⟨f, ?_⟩
        simp only [assignFast, assign]
        rw [if_pos hx', if_pos hx, hadv, hg, assign_congr rs _ _ _ hfg]
      · have hx' : ¬ x.minKey ≤ scanKey idx (x :: xs) k := fun h => hx ((scanKey_next hk x xs).1 h)
        have hrest : ∀ t ∈ x :: xs, t ∈ tables ∧ k < t.minKey := by
          intro t ht
          refine ⟨(hr t ht).1, ?_⟩
          rcases List.mem_cons.1 ht with rfl | ht
          · exact not_le.1 hx
          · exact lt_trans (not_le.1 hx) ((List.pairwise_cons.1 hs).1 t ht)
        obtain ⟨g, hg⟩ := ih (i + 1) (if full i && decide (top < scanKey idx (x :: xs) k) then ⟨k, true⟩ else cur) (x :: xs) k
          hok' hs hrest hc2
        obtain ⟨f, hf, hfg⟩ := mk (full i && decide (top < scanKey idx (x :: xs) k)) g
        refine ⟨f, ?_⟩
        simp only [assignFast, assign, hf]
        rw [if_neg hx', if_neg hx]
        by_cases hb : (full i && decide (top < scanKey idx (x :: xs) k)) = true
        · have htop : top < k := by
            simp only [Bool.and_eq_true, decide_eq_true_eq] at hb
            exact lt_of_lt_of_le hb.2 (scanKey_le hk _)
          rw [if_pos hb] at hg ⊢
          rw [if_pos (by rw [hb]; simpa using htop), hg, assign_congr rs _ _ _ hfg]
        · rw [if_neg hb] at hg ⊢
          rw [if_neg (by intro h; exact hb (Bool.and_eq_true_iff.1 h).1), hg, assign_congr rs _ _ _ hfg]

theorem firstGroup_rest {tables : List (Tab ByteKey)} (hs : MinSorted tables) (vmin : ByteKey) :
    MinSorted (firstGroup tables vmin).2 ∧ ∀ t ∈ (firstGroup tables vmin).2, t ∈ tables ∧ vmin < t.minKey := by
  cases tables with
  | nil => exact ⟨List.Pairwise.nil, by simp [firstGroup]⟩
  | cons x xs =>
    simp only [firstGroup]
    by_cases hx : vmin < x.minKey
    · rw [if_pos hx]
      refine ⟨hs, fun t ht => ⟨ht, ?_⟩⟩
      rcases List.mem_cons.1 ht with rfl | ht
      · exact hx
      · exact lt_trans hx ((List.pairwise_cons.1 hs).1 t ht)
    · rw [if_neg hx]; exact advance_rest _ _ _ hs

theorem mergeFast_eq {idx : ByteKey → Bytes} {l : List (Tab ByteKey)} (hl : LevelOk l) (num : Nat) (vmin : ByteKey)
    (rs : SMap ByteKey (Rec ByteKey)) (purge : Bool) (full : Nat → Bool) (hok : ∀ e ∈ rs, IdxOk idx e.1)
    (hc : Clear idx l vmin rs) :
    ∃ full', mergeFast idx l num vmin rs purge full = mergeInto l num vmin rs purge full' := by
  obtain ⟨pre, s, hps, -, -, htab⟩ := tablesRange_spec hl vmin (rs.getLast?.map (·.1))
  have hss : MinSorted s := by
    have h := hl.sorted; rw [hps] at h; exact (List.pairwise_append.1 h).2.1
  have hts : MinSorted (tablesRange l vmin (rs.getLast?.map (·.1))) := by
    rw [htab]; exact hss.sublist List.filter_sublist
  have hsub : ∀ t ∈ tablesRange l vmin (rs.getLast?.map (·.1)), t ∈ l := by
    intro t ht; rw [htab] at ht; rw [hps]; exact List.mem_append_right _ (List.mem_filter.1 ht).1
  obtain ⟨f1, f2⟩ := firstGroup_rest hts vmin
  obtain ⟨full', he⟩ := assignFast_eq (tables := l) (maxKeyOf (tablesRange l vmin (rs.getLast?.map (·.1)))) full rs 0
    (firstGroup (tablesRange l vmin (rs.getLast?.map (·.1))) vmin).1 _ vmin hok f1
    (fun t ht => ⟨hsub t (f2 t ht).1, (f2 t ht).2⟩) hc
  exact ⟨full', by simp only [mergeFast, mergeInto, he]⟩

/-- The source of partition `p` and level 1 do not clash. -/
def L0Clear (idx : ByteKey → Bytes) (t : TMgr ByteKey) (p : Nat) : Prop :=
  ∀ v, t.srcOf p = some v → (∀ e ∈ v.recs, IdxOk idx e.1) ∧ ∀ l ls, t.lv = l :: ls → Clear idx l v.minKey v.recs

/-- Table `n` of level `i + 1` and the level below do not clash. -/
def LevelClear (idx : ByteKey → Bytes) (t : TMgr ByteKey) (i n : Nat) : Prop :=
  ∀ up down b v, t.lv.drop i = up :: down :: b → up.find? (fun x => decide (x.number = n)) = some v →
    (∀ e ∈ v.recs, IdxOk idx e.1) ∧ Clear idx down v.minKey v.recs

theorem Clear.nil (idx : ByteKey → Bytes) : ∀ (rs : List (ByteKey × Rec ByteKey)) lo, Clear idx [] lo rs := by
  intro rs
  induction rs with
  | nil => intro _; trivial
  | cons e rs ih => obtain ⟨k, r⟩ := e; intro lo; exact ⟨by simp, ih k⟩

theorem compactL0End_eq {idx : ByteKey → Bytes} {c : TCfg ByteKey} {t : TMgr ByteKey} (h : Inv c t) {p : Nat}
    (full : Nat → Bool) (hc : L0Clear idx t p) : ∃ full', compactL0End idx c t p full = t.compactL0End c p full' := by
  unfold compactL0End TMgr.compactL0End
  cases hv : t.srcOf p with
  | none => exact ⟨full, rfl⟩
  | some v =>
    obtain ⟨h1, h2⟩ := hc v hv
    cases hl : t.lv with
    | nil =>
      obtain ⟨f, hf⟩ := mergeFast_eq (idx := idx) LevelOk.nil t.nextNum v.minKey v.recs (c.purge && ([] : List (List (Tab ByteKey))).isEmpty) full h1
        (Clear.nil idx _ _)
      exact ⟨f, by simp only [List.isEmpty_nil, if_true] at hf ⊢; rw [hf]⟩
    | cons l ls =>
      obtain ⟨f, hf⟩ := mergeFast_eq (idx := idx) (h.lv l (by rw [hl]; exact List.mem_cons_self)) t.nextNum v.minKey v.recs
        (c.purge && ls.isEmpty) full h1 (h2 l ls hl)
      exact ⟨f, by simp only [List.isEmpty_cons, Bool.false_eq_true, if_false]; rw [hf]⟩

theorem compactLevel_eq {idx : ByteKey → Bytes} {c : TCfg ByteKey} {t : TMgr ByteKey} (h : Inv c t) {i n : Nat}
    (full : Nat → Bool) (refill : Bool) (hc : LevelClear idx t i n) :
    ∃ full', compactLevel idx c t i n full refill = t.compactLevel c i n full' refill := by
  unfold compactLevel TMgr.compactLevel
  cases hd : t.lv.drop i with
  | nil => exact ⟨full, rfl⟩
  | cons up b =>
    cases b with
    | nil => exact ⟨full, rfl⟩
    | cons down b =>
      simp only
      cases hf : up.find? (fun x => decide (x.number = n)) with
      | none => exact ⟨full, rfl⟩
      | some v =>
        obtain ⟨h1, h2⟩ := hc up down b v hd hf
        have hm : down ∈ t.lv := List.mem_of_mem_drop (i := i) (by rw [hd]; simp)
        obtain ⟨f, hf'⟩ := mergeFast_eq (idx := idx) (h.lv down hm) t.nextNum v.minKey v.recs (c.purge && b.isEmpty) full h1 h2
        exact ⟨f, by simp only [compactPair, hf']⟩

end Jungle.FastScan
