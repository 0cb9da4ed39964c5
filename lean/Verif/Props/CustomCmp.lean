/-
  C66: a database with a user comparator (`DBConfig::cmpFunc`).
-/
import Verif.Table.CustomCmp
import Verif.Table.Fix
import Verif.Props.Table
import Mathlib.Order.OrderDual

set_option linter.unusedSectionVars false

namespace Jungle
open TMgr Spec
variable {K : Type} [LinearOrder K] [OrderBot K] {O : Type} [LinearOrder O] {V : Type}

/-- What can happen to the tables of a database whose comparator orders the keys by `ord`: flushes,
    level-0 compactions, compactions of one table, closing and opening.  `ok` says after which records a
    compaction may begin a new table.  `h` lists all flushed records, oldest first. -/
inductive TReachCmp (ord : K → O) (ok : (Nat → Bool) → Prop) (c : TCfg K) (parts : Nat) :
    TMgr K → List (Rec K) → Prop
  | init : TReachCmp ord ok c parts (TMgr.init parts) []
  | flush {t h} (R : List (Rec K)) : TReachCmp ord ok c parts t h →
      TReachCmp ord ok c parts (t.setBatch c R) (h ++ R)
  | l0Begin {t h} (p : Nat) (hp : p < t.parts) : TReachCmp ord ok c parts t h →
      TReachCmp ord ok c parts (t.compactL0Begin p) h
  | l0End {t h} (p : Nat) (full : Nat → Bool) (hp : p < t.parts) (hf : ok full) : TReachCmp ord ok c parts t h →
      TReachCmp ord ok c parts (t.compactL0EndBy ord c p full) h
  | inPlace {t h} (i n : Nat) (pres : Bool) : TReachCmp ord ok c parts t h →
      TReachCmp ord ok c parts (t.compactInPlaceOp i n pres) h
  | reopen {t h} : TReachCmp ord ok c parts t h → TReachCmp ord ok c parts t.reopen h

/-- The answer after a flush is the newest record. -/
theorem flush_vis {c : TCfg K} {t : TMgr K} {h : List (Rec K)} (hi : Inv c t)
    (hv : ∀ k, vis (t.get c k) = vis (lastWrite h k)) (R : List (Rec K)) :
    Inv c (t.setBatch c R) ∧ ∀ k, vis ((t.setBatch c R).get c k) = vis (lastWrite (h ++ R) k) := by
  obtain ⟨h1, h2, h3⟩ := setBatch_ok hi R
  refine ⟨h1, fun k => ?_⟩
  rw [h3 k, lastWrite_append]
  cases lastWrite R k with
  | none => exact hv k
  | some r => rfl

theorem TReachCmp.inv {ord : K → O} (ho : ∀ a b, a < b → ord a < ord b) {ok : (Nat → Bool) → Prop} {c : TCfg K}
    {parts : Nat} (hp : 0 < parts) {t : TMgr K} {h : List (Rec K)} (hr : TReachCmp ord ok c parts t h) :
    Inv c t ∧ ∀ k, vis (t.get c k) = vis (lastWrite h k) := by
  induction hr with
  | init => exact TReach.init.inv hp
  | flush R _ ih => exact flush_vis ih.1 ih.2 R
  | l0Begin p hpp _ ih =>
    have := compactL0Begin_same ih.1 hpp
    exact ⟨this.inv, fun k => (this.vis k).trans (ih.2 k)⟩
  | l0End p full hpp hf _ ih =>
    rw [compactL0EndBy_id ho ih.1 hpp full]
    have := compactL0End_same ih.1 hpp full
    exact ⟨this.inv, fun k => (this.vis k).trans (ih.2 k)⟩
  | inPlace i n pres _ ih =>
    have := compactInPlaceOp_same ih.1 i n pres
    exact ⟨this.inv, fun k => (this.vis k).trans (ih.2 k)⟩
  | reopen _ ih =>
    have := reopen_same ih.1
    exact ⟨this.inv, fun k => (this.vis k).trans (ih.2 k)⟩

theorem add_remove_one (v z : Tab K) (hne : z.number ≠ v.number) : removeTable (addTable [v] z) v.number = [z] := by
  simp only [addTable]
  split <;> simp [removeTable, hne]

theorem inPlace_one {c : TCfg K} {t : TMgr K} (h : Inv c t) (ho : ∀ l ∈ t.lv, One l) (i n : Nat) (pres : Bool) :
    ∀ l ∈ (t.compactInPlaceOp i n pres).lv, One l := by
  unfold compactInPlaceOp
  split
  · exact ho
  · next l b hd =>
    have hlv : t.lv = t.lv.take i ++ l :: b := by rw [← hd, List.take_append_drop]
    split
    · exact ho
    · next v hv =>
      intro y hy
      rcases List.mem_append.1 hy with hy | hy
      · exact ho y (List.mem_of_mem_take hy)
      · rcases List.mem_cons.1 hy with rfl | hy
        · have hl := ho l (by rw [hlv]; simp)
          have hm := List.mem_of_find?_eq_some hv
          rcases hl with rfl | ⟨x, rfl, hx⟩
          · cases hm
          · have := List.mem_singleton.1 hm
            subst this
            have hlt : v.number < t.nextNum := h.lvNum [v] (by rw [hlv]; simp) v (by simp)
            exact Or.inr ⟨_, add_remove_one v _ (ne_of_gt hlt), hx⟩
        · exact ho y (by rw [hlv]; simp [hy])

theorem TReachCmp.one {ord : K → O} {c : TCfg K} {parts : Nat} (hp : 0 < parts) {t : TMgr K} {h : List (Rec K)}
    (hr : TReachCmp ord (fun f => f = fun _ => false) c parts t h) :
    (Inv c t ∧ ∀ l ∈ t.lv, One l) ∧ ∀ k, vis (t.get c k) = vis (lastWrite h k) := by
  induction hr with
  | init => exact ⟨⟨(TReach.init.inv hp).1, fun l hl => by cases hl⟩, (TReach.init.inv hp).2⟩
  | flush R _ ih =>
    have := flush_vis ih.1.1 ih.2 R
    exact ⟨⟨this.1, by rw [setBatch_same_lv]; exact ih.1.2⟩, this.2⟩
  | l0Begin p hpp _ ih =>
    have := compactL0Begin_same ih.1.1 hpp
    exact ⟨⟨this.inv, by rw [l0Begin_same_lv]; exact ih.1.2⟩, fun k => (this.vis k).trans (ih.2 k)⟩
  | l0End p full hpp hf _ ih =>
    subst hf
    have := compactL0EndBy_one ord ih.1.1 ih.1.2 hpp
    exact ⟨⟨this.1.inv, this.2⟩, fun k => (this.1.vis k).trans (ih.2 k)⟩
  | inPlace i n pres _ ih =>
    have := compactInPlaceOp_same ih.1.1 i n pres
    exact ⟨⟨this.inv, inPlace_one ih.1.1 ih.1.2 i n pres⟩, fun k => (this.vis k).trans (ih.2 k)⟩
  | @reopen t h _ ih =>
    have := reopen_same ih.1.1
    refine ⟨⟨this.inv, ?_⟩, fun k => (this.vis k).trans (ih.2 k)⟩
    intro l hl
    obtain ⟨y, hy, rfl⟩ := List.mem_map.1 hl
    rw [loadLevel_id (ih.1.1.lv y hy)]
    exact ih.1.2 y hy

/-! ### Point lookups -/

/-- **C66, a comparator that orders the keys like their bytes.**  Whatever the compactions do, a lookup
    answers with the last flushed record of the key. -/
theorem C66_byte_like {ord : K → O} (ho : ∀ a b, a < b → ord a < ord b) {c : TCfg K} {parts : Nat} (hp : 0 < parts)
    {t : TMgr K} {h : List (Rec K)} (hr : TReachCmp ord (fun _ => True) c parts t h) (k : K) :
    vis (t.get c k) = vis (lastWrite h k) := (hr.inv ho hp).2 k

/-- **C66, any comparator, as long as no compaction begins a second table.**  A lookup answers with the
    last flushed record of the key.  Missing from the full property: compactions that divide a level into
    several tables (`C66_lost_violation`). -/
theorem C66_one_table_partial (ord : K → O) {c : TCfg K} {parts : Nat} (hp : 0 < parts) {t : TMgr K}
    {h : List (Rec K)} (hr : TReachCmp ord (fun f => f = fun _ => false) c parts t h) (k : K) :
    vis (t.get c k) = vis (lastWrite h k) := (hr.one hp).2 k

/-! ### Scans of records that are not flushed -/

theorem mem_dropWhile_sorted {ord : K → O} {l : List (K × V)} (h : l.Pairwise (fun a b => ord a.1 ≤ ord b.1)) (x : O)
    (e : K × V) : e ∈ l.dropWhile (fun e => decide (ord e.1 < x)) ↔ e ∈ l ∧ x ≤ ord e.1 := by
  induction l with
  | nil => simp
  | cons y ys ih =>
    have hp := List.pairwise_cons.1 h
    by_cases hy : ord y.1 < x
    · rw [List.dropWhile_cons_of_pos (by simpa using hy), ih hp.2]
      constructor
      · rintro ⟨h1, h2⟩; exact ⟨List.mem_cons_of_mem _ h1, h2⟩
      · rintro ⟨h1, h2⟩
        rcases List.mem_cons.1 h1 with rfl | h1
        · exact absurd hy (not_lt.2 h2)
        · exact ⟨h1, h2⟩
    · rw [List.dropWhile_cons_of_neg (by simpa using hy)]
      refine ⟨fun he => ⟨he, ?_⟩, fun he => he.1⟩
      rcases List.mem_cons.1 he with rfl | he
      · exact not_lt.1 hy
      · exact le_trans (not_lt.1 hy) (hp.1 e he)

theorem mem_takeWhile_sorted {l : List (K × V)} (h : l.Pairwise (fun a b => a.1 ≤ b.1)) (x : K) (e : K × V) :
    e ∈ l.takeWhile (fun e => decide (e.1 ≤ x)) ↔ e ∈ l ∧ e.1 ≤ x := by
  induction l with
  | nil => simp
  | cons y ys ih =>
    have hp := List.pairwise_cons.1 h
    by_cases hy : y.1 ≤ x
    · rw [List.takeWhile_cons_of_pos (by simpa using hy), List.mem_cons, ih hp.2, List.mem_cons]
      constructor
      · rintro (rfl | ⟨h1, h2⟩)
        · exact ⟨Or.inl rfl, hy⟩
        · exact ⟨Or.inr h1, h2⟩
      · rintro ⟨rfl | h1, h2⟩
        · exact Or.inl rfl
        · exact Or.inr ⟨h1, h2⟩
    · rw [List.takeWhile_cons_of_neg (by simpa using hy)]
      refine ⟨fun he => (by cases he), fun he => ?_⟩
      exfalso
      rcases List.mem_cons.1 he.1 with rfl | h1
      · exact hy he.2
      · exact hy (le_trans (hp.1 e h1) he.2)

theorem takeWhile_none (l : List (K × V)) : l.takeWhile (fun e => notPastEnd (none : Option K) e.1) = l := by
  induction l with
  | nil => rfl
  | cons x xs ih => rw [List.takeWhile_cons_of_pos rfl, ih]

theorem scan_from (ord : K → O) (l : List (K × V)) (lo : Option K) (e : K × V) :
    e ∈ (inOrder ord l).dropWhile (fun e => beforeStart ord lo e.1) ↔
      e ∈ l ∧ ∀ a, lo = some a → ord a ≤ ord e.1 := by
  cases lo with
  | none =>
    have : (inOrder ord l).dropWhile (fun _ => false) = inOrder ord l := by
      cases inOrder ord l <;> rfl
    show e ∈ (inOrder ord l).dropWhile (fun _ => false) ↔ _
    rw [this, (inOrder_perm ord l).mem_iff]
    exact ⟨fun h => ⟨h, fun a ha => by cases ha⟩, fun h => h.1⟩
  | some a =>
    show e ∈ (inOrder ord l).dropWhile (fun e => decide (ord e.1 < ord a)) ↔ _
    rw [mem_dropWhile_sorted (inOrder_sorted ord l), (inOrder_perm ord l).mem_iff]
    refine and_congr_right (fun _ => ⟨fun h b hb => ?_, fun h => h a rfl⟩)
    cases hb; exact h

/-- **C66, scans without an end key.**  For any comparator a scan of records that are not flushed gives
    exactly the records from the start key on, each once, in the order of the comparator. -/
theorem C66_scan_open (ord : K → O) (hinj : ∀ a b, ord a = ord b → a = b) (l : List (K × V))
    (hl : l.Pairwise (fun a b => a.1 ≠ b.1)) (lo : Option K) :
    (∀ e, e ∈ memScan ord l lo none ↔ e ∈ l ∧ ∀ a, lo = some a → ord a ≤ ord e.1) ∧
    (memScan ord l lo none).Pairwise (fun a b => ord a.1 < ord b.1) := by
  have hs : memScan ord l lo none =
      (inOrder ord l).dropWhile (fun e => beforeStart ord lo e.1) := by
    unfold memScan
    exact takeWhile_none _
  refine ⟨fun e => by rw [hs]; exact scan_from ord l lo e, ?_⟩
  rw [hs]
  have hk : (inOrder ord l).Pairwise (fun a b => a.1 ≠ b.1) :=
    ((inOrder_perm ord l).pairwise_iff (fun h => Ne.symm h)).2 hl
  refine List.Pairwise.sublist (List.dropWhile_sublist _) ?_
  refine ((inOrder_sorted ord l).and hk).imp ?_
  rintro a b ⟨h1, h2⟩
  exact lt_of_le_of_ne h1 (fun h => h2 (hinj _ _ h))

/-- **C66, scans with an end key: nothing wrong.**  For any comparator every returned record is stored, is
    not before the start key in the order of the comparator, and they come in that order.  That nothing
    of the range is left out is `C66_scan_byte_like`; `C66_scan_violation` shows it fails otherwise. -/
theorem C66_scan_partial (ord : K → O) (hinj : ∀ a b, ord a = ord b → a = b) (l : List (K × V))
    (hl : l.Pairwise (fun a b => a.1 ≠ b.1)) (lo hi : Option K) :
    (∀ e ∈ memScan ord l lo hi, e ∈ l ∧ ∀ a, lo = some a → ord a ≤ ord e.1) ∧
    (memScan ord l lo hi).Pairwise (fun a b => ord a.1 < ord b.1) := by
  have hsub : (memScan ord l lo hi).Sublist (memScan ord l lo none) := by
    unfold memScan
    rw [takeWhile_none]
    exact List.takeWhile_sublist _
  obtain ⟨h1, h2⟩ := C66_scan_open ord hinj l hl lo
  exact ⟨fun e he => (h1 e).1 (hsub.subset he), h2.sublist hsub⟩

/-- **C66, scans with an end key, a comparator that orders the keys like their bytes.**  The scan gives
    exactly the records of the range. -/
theorem C66_scan_byte_like {ord : K → O} (ho : ∀ a b, a < b → ord a < ord b) (l : List (K × V)) (lo hi : Option K)
    (e : K × V) :
    e ∈ memScan ord l lo hi ↔ e ∈ l ∧ (∀ a, lo = some a → ord a ≤ ord e.1) ∧ ∀ b, hi = some b → ord e.1 ≤ ord b := by
  have hle : ∀ a b, ord a ≤ ord b ↔ a ≤ b := by
    intro a b
    constructor
    · intro h; exact not_lt.1 (fun h' => absurd (ho b a h') (not_lt.2 h))
    · intro h; rcases lt_or_eq_of_le h with h | rfl
      · exact le_of_lt (ho a b h)
      · exact le_refl _
  unfold memScan
  cases hi with
  | none =>
    rw [takeWhile_none, scan_from]
    exact ⟨fun h => ⟨h.1, h.2, fun b hb => by cases hb⟩, fun h => ⟨h.1, h.2.1⟩⟩
  | some b =>
    show e ∈ List.takeWhile (fun e => decide (e.1 ≤ b)) _ ↔ _
    rw [mem_takeWhile_sorted, scan_from]
    · constructor
      · rintro ⟨⟨h1, h2⟩, h3⟩
        exact ⟨h1, h2, fun b' hb => by cases hb; exact (hle _ _).2 h3⟩
      · rintro ⟨h1, h2, h3⟩
        exact ⟨⟨h1, h2⟩, (hle _ _).1 (h3 b rfl)⟩
    · exact ((inOrder_sorted ord l).imp (fun h => (hle _ _).1 h)).sublist (List.dropWhile_sublist _)

/-! ### Witnesses -/

namespace CmpEx
open TableEx

/-- The comparator that turns the order of the bytes around. -/
def desc : Nat → Natᵒᵈ := OrderDual.toDual

/-- One partition; a compaction into an empty level 1 that begins a new table at the third record. -/
def d1 : TMgr Nat := (TMgr.init 1 : TMgr Nat).setBatch c [ins 1 1 10, ins 2 4 20, ins 3 5 30, ins 4 7 40]
def d2 : TMgr Nat := d1.compactL0Begin 0
def d3 : TMgr Nat := d2.compactL0EndBy desc c 0 (fun i => i == 2)
def d4 : TMgr Nat := d2.compactL0EndBy desc c 0 (fun _ => false)

def shape (t : TMgr Nat) : List (List (Nat × Nat × List Nat)) :=
  t.lv.map (fun l => l.map (fun x => (x.number, x.minKey, x.recs.map (·.1))))

example : shape d3 = [[(2, 0, [5, 7]), (3, 4, [1, 4])]] := by decide
example : shape d4 = [[(2, 0, [1, 4, 5, 7])]] := by decide

theorem d3_reach : TReachCmp desc (fun _ => True) c 1 d3
    ([] ++ [ins 1 1 10, ins 2 4 20, ins 3 5 30, ins 4 7 40]) :=
  .l0End 0 _ (by decide) trivial (.l0Begin 0 (by decide) (.flush _ .init))

theorem d4_reach : TReachCmp desc (fun f => f = fun _ => false) c 1 d4
    ([] ++ [ins 1 1 10, ins 2 4 20, ins 3 5 30, ins 4 7 40]) :=
  .l0End 0 _ (by decide) rfl (.l0Begin 0 (by decide) (.flush _ .init))

/-- With the one table all keys are there, also after more writes and a second compaction. -/
example (k : Nat) : vis (((((d4.setBatch c [del 5 5, ins 6 9 50]).compactL0Begin 0).compactL0EndBy desc c 0
    (fun _ => false)).reopen).get c k) =
    vis (lastWrite ([] ++ [ins 1 1 10, ins 2 4 20, ins 3 5 30, ins 4 7 40] ++ [del 5 5, ins 6 9 50]) k) :=
  C66_one_table_partial desc (by decide)
    (.reopen (.l0End 0 _ (by decide) rfl (.l0Begin 0 (by decide) (.flush [del 5 5, ins 6 9 50] d4_reach)))) k

/-- A comparator on numbers that orders them like their bytes. -/
example (k : Nat) : vis ((d2.compactL0EndBy (fun n : Nat => 2 * n) c 0 (fun i => i == 2)).get c k) =
    vis (lastWrite ([] ++ [ins 1 1 10, ins 2 4 20, ins 3 5 30, ins 4 7 40]) k) :=
  C66_byte_like (ord := fun n : Nat => 2 * n) (fun a b h => Nat.mul_lt_mul_of_pos_left h (by decide)) (by decide)
    (.l0End 0 _ (by decide) trivial (.l0Begin 0 (by decide) (.flush _ .init))) k

example : memScan desc [(1, 10), (2, 20), (3, 30)] (some 2) none = [(2, 20), (1, 10)] := by decide

end CmpEx

/-- **C66 fails: lost records.**  With the comparator that turns the order around, the first level-0
    compaction that makes two tables puts the records of the greater keys into the table with the smaller
    min key; lookups of those keys then find nothing, although nobody deleted them. -/
theorem C66_lost_violation : ∃ (t : TMgr Nat) (h : List (Rec Nat)),
    TReachCmp CmpEx.desc (fun _ => True) TableEx.c 1 t h ∧
    vis (lastWrite h 7) = some (TableEx.ins 4 7 40) ∧ vis (t.get TableEx.c 7) = none ∧
    vis (lastWrite h 1) = some (TableEx.ins 1 1 10) ∧ vis (t.get TableEx.c 1) = none :=
  ⟨CmpEx.d3, _, CmpEx.d3_reach, by decide, by decide, by decide, by decide⟩

/-- **C66 fails: range scans.**  With the same comparator and the keys 1, 2, 3 the range from 3 to 1 holds
    all three, and the scan gives none. -/
theorem C66_scan_violation :
    (∀ k ∈ [1, 2, 3], CmpEx.desc 3 ≤ CmpEx.desc k ∧ CmpEx.desc k ≤ CmpEx.desc 1) ∧
    memScan CmpEx.desc [(1, 10), (2, 20), (3, 30)] (some 3) (some 1) = [] := by decide

end Jungle
