/-
  `TableMgr::fixTable` (src/table_split.cc:520-692), the repair of a level after a crash inside
  `TableMgr::mergeLevel`, and the crashes themselves.
-/
import Verif.Table.Lsm

set_option linter.unusedSectionVars false

namespace Jungle
namespace TMgr
variable {K : Type} [LinearOrder K] [OrderBot K]

/-! ### Model -/

/-- `TableMgr::mergeLevel` that stops after `j` records were written (src/table_split.cc:432-457): a
    crash, or a cancellation at line 442. -/
def mergeTableCut (l : List (Tab K)) (v : Tab K) (purge : Bool) (j : Nat) : List (Tab K) :=
  match tableBefore none l v.number with
  | none => l
  | some d => modify l d.number (fun x => writeGroup x ((v.recs.map (·.2)).take j) purge false)

/-- `TableFile::setSingle` with `force_delete` (src/table_file.cc:893-929). -/
def forceDel (t : Tab K) (r : Rec K) : Tab K :=
  { t with recs := t.recs.erase r.key, added := if r.isDel then t.added else r.key :: t.added }

/-- Whether a record of the target is not moved: the victim has one that is not older
    (src/table_split.cc:617-632). -/
def skipFix (v : Tab K) (r : Rec K) : Bool :=
  match v.get r.key with
  | some w => decide (r.seq ≤ w.seq)
  | none => false

/-- The writes of the loop to the victim (src/table_split.cc:634-641). -/
def fixVictim (purge : Bool) (v : Tab K) (rs : List (Rec K)) : Tab K :=
  rs.foldl (fun v r => if skipFix v r then v else v.setSingle r purge false) v

/-- The writes of the loop to the target (src/table_split.cc:643-645). -/
def fixTarget (d : Tab K) (rs : List (Rec K)) : Tab K := rs.foldl forceDel d

/-- The records of the target from the min key of the victim on (src/table_split.cc:591-593). -/
def toFix (d v : Tab K) : List (Rec K) :=
  (d.recs.filter (fun e => decide (v.minKey ≤ e.1))).map (·.2)

/-- `TableMgr::fixTable` (src/table_split.cc:520-692).  Simplification: the two files are written
    one after the other; no call reads what the other one wrote. -/
def fixTable (l : List (Tab K)) (v : Tab K) (purge : Bool) : List (Tab K) :=
  if v.prevReq then
    match tableBefore none l v.number with
    | none => modify l v.number (fun x => { x with prevReq := false })
    | some d =>
      modify (modify l d.number (fun x => fixTarget x (toFix d v))) v.number
        (fun x => { fixVictim purge x (toFix d v) with prevReq := false })
  else l

/-- The same, cut off by a crash: the file of the target has the first `j` deletions, the file of the
    victim the first `m` moves (they are committed one after the other, src/table_split.cc:651-657). -/
def fixTableCut (l : List (Tab K)) (v : Tab K) (purge : Bool) (j m : Nat) : List (Tab K) :=
  if v.prevReq then
    match tableBefore none l v.number with
    | none => l
    | some d =>
      modify (modify l d.number (fun x => fixTarget x ((toFix d v).take j))) v.number
        (fun x => fixVictim purge x ((toFix d v).take m))
  else l

/-- An operation on table `n` of level `i + 1`. -/
def onTable (t : TMgr K) (i n : Nat) (f : List (Tab K) → Tab K → Bool → List (Tab K)) : TMgr K :=
  match t.lv.drop i with
  | [] => t
  | l :: b =>
    match l.find? (fun x => decide (x.number = n)) with
    | none => t
    | some v => { t with lv := t.lv.take i ++ f l v b.isEmpty :: b }

def mergeOpCut (c : TCfg K) (t : TMgr K) (i n j : Nat) : TMgr K :=
  t.onTable i n (fun l v last => mergeTableCut l v (c.purge && last) j)

def fixOp (c : TCfg K) (t : TMgr K) (i n : Nat) : TMgr K :=
  t.onTable i n (fun l v last => fixTable l v (c.purge && last))

def fixOpCut (c : TCfg K) (t : TMgr K) (i n j m : Nat) : TMgr K :=
  t.onTable i n (fun l v last => fixTableCut l v (c.purge && last) j m)

/-- The states between a crash inside the merge of table `n` of level `i + 1`, in the state `t`, and its
    repair: the process may start and crash inside the repair any number of times; once started it
    may flush records (`R`, oldest first) and begin level-0 compactions.  The `Bool` is whether the
    process is running. -/
inductive Broken (c : TCfg K) (i n : Nat) (t : TMgr K) : Bool → List (Rec K) → TMgr K → Prop
  | crash (j) : Broken c i n t false [] (t.mergeOpCut c i n j)
  | start {u R t'} : Broken c i n t u R t' → Broken c i n t true R t'.reopen
  | flush {R t'} (R' : List (Rec K)) : Broken c i n t true R t' → Broken c i n t true (R ++ R') (t'.setBatch c R')
  | l0Begin {R t'} (p) (hp : p < t'.parts) : Broken c i n t true R t' → Broken c i n t true R (t'.compactL0Begin p)
  | fixCrash {R t'} (j m) : Broken c i n t true R t' → Broken c i n t false R (t'.fixOpCut c i n j m)

/-! ### Lemmas: one level -/

/-- `d'` is `d` with copies of records of `v`. -/
structure Copies (d v d' : Tab K) : Prop where
  num : d'.number = d.number
  minKey : d'.minKey = d.minKey
  prev : d'.prevReq = false
  sorted : d'.recs.Sorted
  keys : ∀ e ∈ d'.recs, e.2.key = e.1
  below : ∀ k < v.minKey, d'.get k = d.get k
  above : ∀ k, v.minKey ≤ k → d'.get k = none ∨ d'.get k = v.get k

/-- The level `l'` is `l` with copies of records of table `n` in the table before it. -/
def Copied (n : Nat) (l l' : List (Tab K)) : Prop :=
  ∃ A d v B d' b, l = A ++ d :: v :: B ∧ l' = A ++ d' :: { v with prevReq := b } :: B ∧ v.number = n ∧ Copies d v d'

theorem tableBefore_split {l : List (Tab K)} {n : Nat} {d : Tab K} : ∀ {prev : Option (Tab K)},
    (∃ v ∈ l, v.number = n) → tableBefore prev l n = some d →
    (∃ v B, l = v :: B ∧ v.number = n ∧ prev = some d) ∨
    ∃ A v B, l = A ++ d :: v :: B ∧ v.number = n := by
  induction l with
  | nil => rintro prev ⟨v, hv, _⟩; cases hv
  | cons x xs ih =>
    rintro prev ⟨v, hv, hvn⟩ h
    simp only [tableBefore] at h
    split at h
    · next hx => exact Or.inl ⟨x, xs, rfl, hx, h⟩
    · next hx =>
      have hv' : v ∈ xs := by
        rcases List.mem_cons.1 hv with rfl | h'
        · exact absurd hvn hx
        · exact h'
      right
      rcases ih ⟨v, hv', hvn⟩ h with ⟨w, B, rfl, hw, e⟩ | ⟨A, w, B, rfl, hw⟩
      · cases e; exact ⟨[], w, B, rfl, hw⟩
      · exact ⟨x :: A, w, B, rfl, hw⟩

theorem tableBefore_at {A : List (Tab K)} {d v : Tab K} {B : List (Tab K)} (h : ∀ x ∈ A ++ [d], x.number ≠ v.number) :
    ∀ prev, tableBefore prev (A ++ d :: v :: B) v.number = some d := by
  induction A with
  | nil =>
    intro prev
    simp only [List.nil_append, tableBefore]
    rw [if_neg (h d (by simp)), if_pos trivial]
  | cons x xs ih =>
    intro prev
    simp only [List.cons_append, tableBefore]
    rw [if_neg (h x (by simp))]
    exact ih (fun y hy => h y (by simp only [List.cons_append, List.mem_cons]; exact Or.inr hy)) _

theorem modify_at {A : List (Tab K)} {d : Tab K} {B : List (Tab K)} {f : Tab K → Tab K}
    (h : ∀ x ∈ A ++ B, x.number ≠ d.number) : modify (A ++ d :: B) d.number f = A ++ f d :: B := by
  unfold modify
  rw [List.map_append, List.map_cons, if_pos rfl]
  congr 1
  · refine (List.map_congr_left fun x hx => if_neg (h x (by simp [hx]))).trans (List.map_id' _)
  · congr 1
    refine (List.map_congr_left fun x hx => if_neg (h x (by simp [hx]))).trans (List.map_id' _)

/-- numbers of a level split at two neighbours -/
theorem nums_at {A : List (Tab K)} {d v : Tab K} {B : List (Tab K)} (h : ((A ++ d :: v :: B).map (·.number)).Nodup) :
    (∀ x ∈ A ++ v :: B, x.number ≠ d.number) ∧ (∀ x ∈ (A ++ [d]) ++ B, x.number ≠ v.number) := by
  simp only [List.map_append, List.map_cons, List.nodup_append, List.nodup_cons, List.mem_cons, List.mem_map] at h
  obtain ⟨h1, ⟨h2, h3, h4⟩, h5⟩ := h
  constructor
  · intro x hx e
    rcases List.mem_append.1 hx with hx | hx
    · exact h5 x.number ⟨x, hx, rfl⟩ d.number (Or.inl rfl) e
    · rcases List.mem_cons.1 hx with rfl | hx
      · exact h2 (Or.inl e.symm)
      · exact h2 (Or.inr ⟨x, hx, e⟩)
  · intro x hx e
    simp only [List.append_assoc, List.mem_append, List.mem_singleton] at hx
    rcases hx with hx | rfl | hx
    · exact h5 x.number ⟨x, hx, rfl⟩ v.number (Or.inr (Or.inl rfl)) e
    · exact h2 (Or.inl e)
    · exact h3 ⟨x, hx, e⟩

theorem level_at {A : List (Tab K)} {d v : Tab K} {B : List (Tab K)} (h : LevelOk (A ++ d :: v :: B)) :
    d.minKey < v.minKey ∧ (∀ k, v.minKey ≤ k → d.get k = none) := by
  have hlt : d.minKey < v.minKey := by
    have := (List.pairwise_append.1 h.sorted).2.1
    exact (List.pairwise_cons.1 this).1 v (by simp)
  refine ⟨hlt, fun k hk => SMap.find?_none_iff.2 fun e he heq => ?_⟩
  have := h.range d (by simp) v (by simp) hlt e he
  exact absurd hk (not_le.2 (heq ▸ this))

theorem Copies.refl {A : List (Tab K)} {d v : Tab K} {B : List (Tab K)} (h : LevelOk (A ++ d :: v :: B)) : Copies d v d :=
  have hd := h.tab d (by simp)
  ⟨rfl, rfl, hd.2.2, hd.1, fun e he => (hd.2.1 e he).1, fun _ _ => rfl, fun k hk => Or.inl ((level_at h).2 k hk)⟩

theorem Copies.set {d v d' : Tab K} (h : Copies d v d') {r : Rec K} (hr : v.minKey ≤ r.key) (hv : v.get r.key = some r) (p : Bool) :
    Copies d v (d'.setSingle r p false) := by
  have hg := setSingle_get h.sorted r p false
  refine ⟨h.num, h.minKey, h.prev, setSingle_sorted h.sorted r p, ?_, ?_, ?_⟩
  · intro e he
    have hs := setSingle_sorted h.sorted r p (m := false)
    have := SMap.find?_of_mem hs (k := e.1) (v := e.2) he
    have h1 := hg e.1
    rw [show (d'.setSingle r p false).get e.1 = some e.2 from this] at h1
    by_cases hk : e.1 = r.key
    · rw [if_pos hk] at h1
      split at h1
      · cases h1
      · cases h1; exact hk.symm
    · rw [if_neg hk] at h1
      exact h.keys e (SMap.find?_some_mem h1.symm)
  · intro k hk
    rw [hg k, if_neg (fun (e : k = r.key) => absurd hr (not_le.2 (e ▸ hk)))]
    exact h.below k hk
  · intro k hk
    rw [hg k]
    by_cases hkr : k = r.key
    · rw [if_pos hkr, hkr, hv]
      split
      · exact Or.inl rfl
      · exact Or.inr rfl
    · rw [if_neg hkr]; exact h.above k hk

theorem Copies.group {d v : Tab K} (hv : v.recs.Sorted ∧ (∀ e ∈ v.recs, e.2.key = e.1 ∧ v.minKey ≤ e.1)) (p : Bool) (rs : List (Rec K)) :
    ∀ {d' : Tab K}, Copies d v d' → (∀ r ∈ rs, ∃ e ∈ v.recs, e.2 = r) → Copies d v (writeGroup d' rs p false) := by
  induction rs with
  | nil => intro d' h _; exact h
  | cons r rs ih =>
    intro d' h hm
    obtain ⟨e, he, rfl⟩ := hm r (by simp)
    refine ih (h.set (by rw [(hv.2 e he).1]; exact (hv.2 e he).2) ?_ p) (fun x hx => hm x (by simp [hx]))
    rw [(hv.2 e he).1]; exact SMap.find?_of_mem hv.1 he

theorem Copies.del {d v d' : Tab K} (h : Copies d v d') {r : Rec K} (hr : v.minKey ≤ r.key) : Copies d v (forceDel d' r) := by
  refine ⟨h.num, h.minKey, h.prev, h.sorted.erase _, fun e he => h.keys e (List.mem_of_mem_filter he), ?_, ?_⟩
  · intro k hk
    show SMap.find? (SMap.erase d'.recs r.key) k = _
    rw [SMap.find?_erase, if_neg (fun (e : k = r.key) => absurd hr (not_le.2 (e ▸ hk)))]
    exact h.below k hk
  · intro k hk
    show SMap.find? (SMap.erase d'.recs r.key) k = none ∨ SMap.find? (SMap.erase d'.recs r.key) k = _
    rw [SMap.find?_erase]
    split
    · exact Or.inl rfl
    · exact h.above k hk

theorem Copies.dels {d v : Tab K} (rs : List (Rec K)) : ∀ {d' : Tab K}, Copies d v d' → (∀ r ∈ rs, v.minKey ≤ r.key) →
    Copies d v (fixTarget d' rs) := by
  induction rs with
  | nil => intro d' h _; exact h
  | cons r rs ih => intro d' h hm; exact ih (h.del (hm r (by simp))) (fun x hx => hm x (by simp [hx]))

theorem mem_toFix {d v d' : Tab K} {b : Bool} (h : Copies d v d') {r : Rec K} (hr : r ∈ toFix d' { v with prevReq := b }) :
    v.minKey ≤ r.key ∧ d'.get r.key = some r ∧ v.get r.key = some r := by
  simp only [toFix, List.mem_map, List.mem_filter, decide_eq_true_eq] at hr
  obtain ⟨e, ⟨he, hle⟩, rfl⟩ := hr
  have hk := h.keys e he
  rw [hk]
  have hg : d'.get e.1 = some e.2 := SMap.find?_of_mem h.sorted he
  rcases h.above e.1 hle with h1 | h1
  · rw [h1] at hg; cases hg
  · exact ⟨hle, hg, h1 ▸ hg⟩

/-- The victim is not changed: it has every record of the copies. -/
theorem fixVictim_id {v : Tab K} (p : Bool) (rs : List (Rec K)) (h : ∀ r ∈ rs, v.get r.key = some r) : fixVictim p v rs = v := by
  induction rs with
  | nil => rfl
  | cons r rs ih =>
    have hs : skipFix v r = true := by unfold skipFix; rw [h r (by simp)]; simp
    show List.foldl _ _ _ = _
    rw [List.foldl_cons, if_pos hs]
    exact ih (fun x hx => h x (by simp [hx]))

theorem fixTarget_get (rs : List (Rec K)) : ∀ (d : Tab K) (k : K),
    (fixTarget d rs).get k = if k ∈ rs.map (·.key) then none else d.get k := by
  induction rs with
  | nil => intro d k; simp [fixTarget]
  | cons r rs ih =>
    intro d k
    show (fixTarget (forceDel d r) rs).get k = _
    rw [ih]
    have : (forceDel d r).get k = if k = r.key then none else d.get k := SMap.find?_erase _ _ _
    simp only [List.map_cons, List.mem_cons]
    by_cases h1 : k ∈ rs.map (·.key)
    · rw [if_pos h1, if_pos (Or.inr h1)]
    · rw [if_neg h1, this]
      by_cases h2 : k = r.key
      · rw [if_pos h2, if_pos (Or.inl h2)]
      · rw [if_neg h2, if_neg (by rintro (h | h); exacts [h2 h, h1 h])]

/-- After all deletions the target is what it was. -/
theorem fixTarget_recs {A : List (Tab K)} {d v : Tab K} {B : List (Tab K)} (hl : LevelOk (A ++ d :: v :: B)) {d' : Tab K} {b : Bool}
    (h : Copies d v d') : (fixTarget d' (toFix d' { v with prevReq := b })).recs = d.recs := by
  have hc : Copies d v (fixTarget d' (toFix d' { v with prevReq := b })) := h.dels _ (fun r hr => (mem_toFix h hr).1)
  refine SMap.ext_find? hc.sorted (hl.tab d (by simp)).1 fun k => ?_
  show (fixTarget d' (toFix d' { v with prevReq := b })).get k = d.get k
  by_cases hk : v.minKey ≤ k
  · rw [(level_at hl).2 k hk, fixTarget_get]
    split
    · rfl
    · next hn =>
      cases hg : d'.get k with
      | none => rfl
      | some r =>
        have hm : (k, r) ∈ d'.recs := SMap.find?_some_mem hg
        refine absurd (List.mem_map.2 ⟨r, ?_, h.keys _ hm⟩) hn
        simp only [toFix, List.mem_map, List.mem_filter, decide_eq_true_eq]
        exact ⟨(k, r), ⟨hm, hk⟩, rfl⟩
  · exact hc.below k (not_le.1 hk)

/-! ### The level after a crash, a start and the repair -/

theorem Copied.self {l : List (Tab K)} (hl : LevelOk l) {v d : Tab K} (hv : v ∈ l) (hd : tableBefore none l v.number = some d) :
    Copied v.number l l := by
  rcases tableBefore_split ⟨v, hv, rfl⟩ hd with ⟨_, _, _, _, h⟩ | ⟨A, w, B, rfl, hw⟩
  · cases h
  · refine ⟨A, d, w, B, d, false, rfl, ?_, hw, Copies.refl hl⟩
    have := (hl.tab w (by simp)).2.2
    cases w; simp only at this; simp [this]

theorem mergeTableCut_copied {l : List (Tab K)} (hl : LevelOk l) {v : Tab K} (hv : v ∈ l) (p : Bool) (j : Nat) :
    mergeTableCut l v p j = l ∨ Copied v.number l (mergeTableCut l v p j) := by
  unfold mergeTableCut
  cases hd : tableBefore none l v.number with
  | none => exact Or.inl rfl
  | some d =>
    right
    rcases tableBefore_split ⟨v, hv, rfl⟩ hd with ⟨_, _, _, _, h⟩ | ⟨A, w, B, rfl, hw⟩
    · cases h
    · have hwv : w = v := eq_of_number hl.nums (by simp) hv hw
      subst hwv
      have hn := nums_at hl.nums
      dsimp only
      rw [modify_at hn.1]
      have hvt := hl.tab w (by simp)
      have hvp := hvt.2.2
      refine ⟨A, d, w, B, _, false, rfl, ?_, rfl,
        (Copies.refl hl).group ⟨hvt.1, hvt.2.1⟩ p ((w.recs.map (·.2)).take j) (fun r hr => ?_)⟩
      · cases w; simp only at hvp; simp [hvp]
      · obtain ⟨e, he, h⟩ := List.mem_map.1 (List.mem_of_mem_take hr)
        exact ⟨e, he, h⟩

theorem find_at {A : List (Tab K)} {d v : Tab K} {B : List (Tab K)} (h : ∀ x ∈ (A ++ [d]) ++ B, x.number ≠ v.number) :
    (A ++ d :: v :: B).find? (fun x => decide (x.number = v.number)) = some v := by
  rw [show A ++ d :: v :: B = (A ++ [d]) ++ v :: B by simp, List.find?_append]
  have : (A ++ [d]).find? (fun x => decide (x.number = v.number)) = none := by
    rw [List.find?_eq_none]
    intro x hx
    simp only [decide_eq_true_eq]
    exact h x (by rw [List.mem_append]; exact Or.inl hx)
  rw [this, List.find?_cons]; simp

/-- loading a level whose min keys are right -/
def flagged : Option K → List (Tab K) → List (Tab K)
  | _, [] => []
  | lm, x :: xs => { x with prevReq := loadPrev lm x.minKey } :: flagged x.maxKey xs

theorem loadLevel_flagged : ∀ (xs acc : List (Tab K)) (lm : Option K), MinSorted (acc ++ xs) →
    (∀ x ∈ xs, ∀ e ∈ x.recs, x.minKey ≤ e.1) → loadLevel lm xs acc = acc ++ flagged lm xs := by
  intro xs
  induction xs with
  | nil => intro acc lm _ _; simp [loadLevel, flagged]
  | cons x xs ih =>
    intro acc lm h hx
    have hlt : ∀ t ∈ acc, t.minKey < x.minKey :=
      fun t ht => (List.pairwise_append.1 h).2.2 t ht x (by simp)
    have hmk : loadMin x = x.minKey := by
      unfold loadMin
      cases hh : x.recs.head? with
      | none => rfl
      | some e =>
        simp only
        rw [if_neg]
        rintro ⟨_, h2⟩
        exact absurd (hx x (by simp) e (List.mem_of_head? hh)) (not_le.2 h2)
    simp only [loadLevel, flagged]
    rw [hmk]
    have hb : addTable acc { x with minKey := x.minKey, prevReq := loadPrev lm x.minKey } =
        acc ++ [{ x with prevReq := loadPrev lm x.minKey }] := addTable_back hlt
    rw [hb, ih _ x.maxKey]
    · simp
    · rw [List.append_assoc]
      unfold MinSorted at h ⊢
      rw [List.pairwise_append] at h ⊢
      refine ⟨h.1, ?_, ?_⟩
      · have := List.pairwise_cons.1 h.2.1
        exact List.pairwise_cons.2 ⟨this.1, this.2⟩
      · intro a ha b hb
        rcases List.mem_cons.1 hb with rfl | hb
        · exact h.2.2 a ha x (by simp)
        · exact h.2.2 a ha b (List.mem_cons_of_mem _ hb)
    · exact fun y hy => hx y (by simp [hy])

theorem maxKey_mem {x : Tab K} {m : K} (h : x.maxKey = some m) : ∃ e ∈ x.recs, e.1 = m := by
  unfold Tab.maxKey at h
  cases hl : x.recs.getLast? with
  | none => rw [hl] at h; cases h
  | some e => rw [hl] at h; cases h; exact ⟨e, List.mem_of_getLast? hl, rfl⟩

theorem loadPrev_false {lm : Option K} {mk : K} (h : ∀ m, lm = some m → m < mk) : loadPrev lm mk = false := by
  cases lm with
  | none => rfl
  | some m =>
    simp only [loadPrev, decide_eq_false_iff_not]
    rintro ⟨_, h2⟩
    exact absurd h2 (not_le.2 (h m rfl))

/-- no flag is set in a list whose keys are in order -/
theorem flagged_id : ∀ (xs : List (Tab K)) (lm : Option K), LevelOk xs → (∀ m, lm = some m → ∀ x ∈ xs, m < x.minKey) →
    flagged lm xs = xs := by
  intro xs
  induction xs with
  | nil => intro _ _ _; rfl
  | cons x xs ih =>
    intro lm h hlm
    simp only [flagged]
    rw [loadPrev_false (fun m hm => hlm m hm x (by simp)), ih _ h.tail]
    · have := (h.tab x (by simp)).2.2
      cases x; simp only at this; simp [this]
    · intro m hm y hy
      obtain ⟨e, he, rfl⟩ := maxKey_mem hm
      exact h.range x (by simp) y (by simp [hy]) ((List.pairwise_cons.1 h.sorted).1 y hy) e he

theorem flagged_append : ∀ (xs ys : List (Tab K)) (lm : Option K), LevelOk (xs ++ ys) → (∀ m, lm = some m → ∀ x ∈ xs, m < x.minKey) →
    (∀ m, lm = some m → ∀ y ∈ ys, m < y.minKey) → ∀ zs, ∃ lm', flagged lm (xs ++ zs) = xs ++ flagged lm' zs ∧
      (∀ m, lm' = some m → ∀ y ∈ ys, m < y.minKey) := by
  intro xs
  induction xs with
  | nil => intro ys lm _ _ h zs; exact ⟨lm, rfl, h⟩
  | cons x xs ih =>
    intro ys lm h h1 h2 zs
    have hx : ∀ m, x.maxKey = some m → ∀ y ∈ xs ++ ys, m < y.minKey := by
      intro m hm y hy
      obtain ⟨e, he, rfl⟩ := maxKey_mem hm
      exact h.range x (by simp) y (by simp only [List.cons_append, List.mem_cons]; exact Or.inr hy)
        ((List.pairwise_cons.1 h.sorted).1 y hy) e he
    obtain ⟨lm', h3, h4⟩ := ih ys x.maxKey h.tail (fun m hm y hy => hx m hm y (by simp [hy]))
      (fun m hm y hy => hx m hm y (by simp [hy])) zs
    refine ⟨lm', ?_, h4⟩
    simp only [List.cons_append, flagged]
    rw [loadPrev_false (fun m hm => h1 m hm x (by simp)), h3]
    have := (h.tab x (by simp)).2.2
    cases x; simp only at this; simp [this]

theorem LevelOk.drop {A B : List (Tab K)} (h : LevelOk (A ++ B)) : LevelOk B := by
  induction A with
  | nil => exact h
  | cons a A ih => exact ih h.tail

/-- Loading a level with copies: the flag of the table is set if and only if there are copies. -/
theorem load_copied {n : Nat} {l l' : List (Tab K)} (hl : LevelOk l) (h : Copied n l l') :
    ∃ A d v B d' b, l = A ++ d :: v :: B ∧ loadLevel none l' [] = A ++ d' :: { v with prevReq := b } :: B ∧
      v.number = n ∧ Copies d v d' ∧ (b = false → d'.recs = d.recs) := by
  obtain ⟨A, d, v, B, d', b, rfl, rfl, hn, hc⟩ := h
  have hlt := level_at hl
  have hv := hl.tab v (by simp)
  have hd := hl.tab d (by simp)
  have hmin : ∀ e ∈ d'.recs, d.minKey ≤ e.1 := by
    intro e he
    by_cases hk : v.minKey ≤ e.1
    · exact le_trans (le_of_lt hlt.1) hk
    · have := hc.below e.1 (not_le.1 hk)
      rw [show d'.get e.1 = some e.2 from SMap.find?_of_mem hc.sorted he] at this
      exact (hd.2.1 _ (SMap.find?_some_mem this.symm)).2
  rw [loadLevel_flagged _ [] none]
  · obtain ⟨lm, h1, h2⟩ := flagged_append A (d :: v :: B) none hl (fun _ h => nomatch h) (fun _ h => nomatch h)
      (d' :: { v with prevReq := b } :: B)
    rw [List.nil_append, h1]
    have hd' : { d' with prevReq := loadPrev lm d'.minKey } = d' := by
      rw [show loadPrev lm d'.minKey = false by rw [hc.minKey]; exact loadPrev_false (fun m hm => h2 m hm d (by simp))]
      have := hc.prev
      cases d'; simp only at this; simp [this]
    have hB : flagged ({ v with prevReq := b } : Tab K).maxKey B = B := by
      have hvB : LevelOk (v :: B) := by
        have : LevelOk ((A ++ [d]) ++ v :: B) := by simpa using hl
        exact this.drop
      refine flagged_id B _ hvB.tail ?_
      intro m hm y hy
      obtain ⟨e, he, rfl⟩ := maxKey_mem hm
      exact hvB.range v (by simp) y (by simp [hy]) ((List.pairwise_cons.1 hvB.sorted).1 y hy) e he
    simp only [flagged]
    rw [hd', hB]
    refine ⟨A, d, v, B, d', loadPrev d'.maxKey v.minKey, rfl, rfl, hn, hc, ?_⟩
    intro hf
    refine SMap.ext_find? hc.sorted hd.1 fun k => ?_
    by_cases hk : v.minKey ≤ k
    · show d'.get k = d.get k
      rw [hlt.2 k hk]
      cases hg : d'.get k with
      | none => rfl
      | some r =>
        have hm : (k, r) ∈ d'.recs := SMap.find?_some_mem hg
        cases hmx : d'.recs.getLast? with
        | none => rw [List.getLast?_eq_none_iff.1 hmx] at hm; cases hm
        | some z =>
          have hz := le_getLast hc.sorted hmx _ hm
          have : d'.maxKey = some z.1 := by unfold Tab.maxKey; rw [hmx]; rfl
          rw [this] at hf
          simp only [loadPrev, decide_eq_false_iff_not, not_and] at hf
          exact absurd (le_trans hk hz) (hf (ne_of_gt (lt_of_le_of_lt bot_le hlt.1)))
    · exact hc.below k (not_le.1 hk)
  · rw [List.nil_append]
    have hs := hl.sorted
    unfold MinSorted
    rw [List.pairwise_append] at hs ⊢
    refine ⟨hs.1, ?_, ?_⟩
    · have h1 := List.pairwise_cons.1 hs.2.1
      have h2 := List.pairwise_cons.1 h1.2
      refine List.pairwise_cons.2 ⟨?_, List.pairwise_cons.2 ⟨h2.1, h2.2⟩⟩
      intro y hy
      rw [hc.minKey]
      rcases List.mem_cons.1 hy with rfl | hy
      · exact h1.1 v (by simp)
      · exact h1.1 y (by simp [hy])
    · intro a ha y hy
      rcases List.mem_cons.1 hy with rfl | hy
      · rw [hc.minKey]; exact hs.2.2 a ha d (by simp)
      · rcases List.mem_cons.1 hy with rfl | hy
        · exact hs.2.2 a ha v (by simp)
        · exact hs.2.2 a ha y (by simp [hy])
  · intro x hx e he
    rcases List.mem_append.1 hx with hx | hx
    · exact ((hl.tab x (by simp [hx])).2.1 e he).2
    · rcases List.mem_cons.1 hx with rfl | hx
      · rw [hc.minKey]; exact hmin e he
      · rcases List.mem_cons.1 hx with rfl | hx
        · exact (hv.2.1 e he).2
        · exact ((hl.tab x (by simp [hx])).2.1 e he).2

/-- Replacing a table by one with the same records. -/
theorem same_recs {A : List (Tab K)} {d d2 : Tab K} {B : List (Tab K)} (hl : LevelOk (A ++ d :: B)) (hn : d2.number = d.number)
    (hm : d2.minKey = d.minKey) (hp : d2.prevReq = false) (hr : d2.recs = d.recs) :
    LevelOk (A ++ d2 :: B) ∧ (∀ k, look (A ++ d2 :: B) k = look (A ++ d :: B) k) ∧
    (A ++ d2 :: B).map (·.number) = (A ++ d :: B).map (·.number) := by
  have hnum : (A ++ d2 :: B).map (·.number) = (A ++ d :: B).map (·.number) := by simp [hn]
  have mem : ∀ {x}, x ∈ A ++ d2 :: B → ∃ y ∈ A ++ d :: B, y.minKey = x.minKey ∧ y.recs = x.recs ∧ x.prevReq = false := by
    intro x hx
    rcases List.mem_append.1 hx with h | h
    · exact ⟨x, by simp [h], rfl, rfl, (hl.tab x (by simp [h])).2.2⟩
    · rcases List.mem_cons.1 h with rfl | h
      · exact ⟨d, by simp, hm.symm, hr.symm, hp⟩
      · exact ⟨x, by simp [h], rfl, rfl, (hl.tab x (by simp [h])).2.2⟩
  refine ⟨⟨?_, ?_, ?_, hnum ▸ hl.nums⟩, ?_, hnum⟩
  · have hs := hl.sorted
    rw [List.pairwise_append, List.pairwise_cons] at hs ⊢
    refine ⟨hs.1, ⟨fun b hb => hm ▸ hs.2.1.1 b hb, hs.2.1.2⟩, ?_⟩
    intro a ha b hb
    rcases List.mem_cons.1 hb with rfl | hb
    · rw [hm]; exact hs.2.2 a ha d (by simp)
    · exact hs.2.2 a ha b (by simp [hb])
  · intro a ha b hb hlt e he
    obtain ⟨a', ha', e1, e2, _⟩ := mem ha
    obtain ⟨b', hb', e3, _, _⟩ := mem hb
    rw [← e3]
    exact hl.range a' ha' b' hb' (by rw [e1, e3]; exact hlt) e (e2 ▸ he)
  · intro x hx
    obtain ⟨y, hy, e1, e2, e3⟩ := mem hx
    have := hl.tab y hy
    rw [e1, e2] at this
    exact ⟨this.1, this.2.1, e3⟩
  · intro k
    have hg : d2.get k = d.get k := by unfold Tab.get; rw [hr]
    simp only [look, List.findSome?_append, List.findSome?_cons, hg]

theorem copied_nums {A : List (Tab K)} {d v : Tab K} {B : List (Tab K)} {d' : Tab K} {b : Bool} (hl : LevelOk (A ++ d :: v :: B))
    (h : Copies d v d') : ((A ++ d' :: { v with prevReq := b } :: B).map (·.number)).Nodup := by
  have := hl.nums
  simpa [h.num] using this

theorem fixTableCut_copied {n : Nat} {l l' : List (Tab K)} (hl : LevelOk l) (h : Copied n l l') {w : Tab K}
    (hw : l'.find? (fun x => decide (x.number = n)) = some w) (p : Bool) (j m : Nat) :
    Copied n l (fixTableCut l' w p j m) := by
  have h0 := h
  obtain ⟨A, d, v, B, d', b, rfl, rfl, rfl, hc⟩ := h
  have hn := nums_at (copied_nums (b := b) hl hc)
  have hf := find_at hn.2
  have hww : { v with prevReq := b } = w := Option.some.inj (hf.symm.trans hw)
  unfold fixTableCut
  rw [← hww]
  dsimp only
  split
  · rw [tableBefore_at (v := { v with prevReq := b }) (fun x hx => hn.2 x (List.mem_append_left _ hx))]
    dsimp only
    rw [modify_at hn.1]
    have hn2 : ∀ x ∈ (A ++ [fixTarget d' (List.take j (toFix d' { v with prevReq := b }))]) ++ B, x.number ≠ v.number := by
      intro x hx
      simp only [List.append_assoc, List.mem_append, List.mem_singleton] at hx
      rcases hx with hx | rfl | hx
      · exact hn.2 x (by simp [hx])
      · have hdn : (fixTarget d' (List.take j (toFix d' { v with prevReq := b }))).number = d'.number :=
          (hc.dels _ (fun r hr => (mem_toFix hc (List.mem_of_mem_take hr)).1)).num.trans hc.num.symm
        rw [hdn]; exact hn.2 d' (by simp)
      · exact hn.2 x (by simp [hx])
    have := modify_at (A := A ++ [fixTarget d' (List.take j (toFix d' { v with prevReq := b }))]) (B := B) (d := { v with prevReq := b })
      (f := fun x => fixVictim p x (List.take m (toFix d' { v with prevReq := b }))) hn2
    simp only [List.append_assoc, List.singleton_append] at this
    rw [this, fixVictim_id (v := { v with prevReq := b }) p _ (fun r hr => (mem_toFix hc (List.mem_of_mem_take hr)).2.2)]
    exact ⟨A, d, v, B, _, b, rfl, rfl, rfl, hc.dels _ (fun r hr => (mem_toFix hc (List.mem_of_mem_take hr)).1)⟩
  · exact ⟨A, d, v, B, d', b, rfl, rfl, rfl, hc⟩

/-- The repair of a level with copies that has been loaded. -/
theorem fix_loaded {n : Nat} {l l' : List (Tab K)} (hl : LevelOk l) (h : Copied n l l') (p : Bool) :
    ∃ w l2, (loadLevel none l' []).find? (fun x => decide (x.number = n)) = some w ∧ fixTable (loadLevel none l' []) w p = l2 ∧
      LevelOk l2 ∧ (∀ k, look l2 k = look l k) ∧ l2.map (·.number) = l.map (·.number) := by
  obtain ⟨A, d, v, B, d', b, rfl, hld, rfl, hc, hb⟩ := load_copied hl h
  have hn := nums_at (copied_nums (b := b) hl hc)
  rw [hld]
  refine ⟨{ v with prevReq := b }, _, find_at hn.2, rfl, ?_⟩
  have hvp := (hl.tab v (by simp)).2.2
  have hv0 : ({ v with prevReq := false } : Tab K) = v := by cases v; simp only at hvp; simp [hvp]
  unfold fixTable
  dsimp only
  cases b with
  | false =>
    rw [if_neg (by simp), hv0]
    exact same_recs hl hc.num hc.minKey hc.prev (hb rfl)
  | true =>
    rw [if_pos rfl, tableBefore_at (v := { v with prevReq := true }) (fun x hx => hn.2 x (List.mem_append_left _ hx))]
    dsimp only
    rw [modify_at hn.1]
    have hcd := hc.dels (toFix d' { v with prevReq := true }) (fun r hr => (mem_toFix hc hr).1)
    have hn2 : ∀ x ∈ (A ++ [fixTarget d' (toFix d' { v with prevReq := true })]) ++ B, x.number ≠ v.number := by
      intro x hx
      simp only [List.append_assoc, List.mem_append, List.mem_singleton] at hx
      rcases hx with hx | rfl | hx
      · exact hn.2 x (by simp [hx])
      · rw [hcd.num.trans hc.num.symm]; exact hn.2 d' (by simp)
      · exact hn.2 x (by simp [hx])
    have := modify_at (A := A ++ [fixTarget d' (toFix d' { v with prevReq := true })]) (B := B) (d := { v with prevReq := true })
      (f := fun x => { fixVictim p x (toFix d' { v with prevReq := true }) with prevReq := false }) hn2
    simp only [List.append_assoc, List.singleton_append] at this
    rw [this, fixVictim_id (v := { v with prevReq := true }) p _ (fun r hr => (mem_toFix hc hr).2.2)]
    rw [show ({ ({ v with prevReq := true } : Tab K) with prevReq := false } : Tab K) = v from hv0]
    exact same_recs hl hcd.num hcd.minKey hcd.prev (fixTarget_recs hl hc)

/-! ### The table section -/

/-- `t'` is a sound state with the answers of `t` and the records `R`, but for copies in level `i + 1`;
    `u`: the level has been loaded since it was written. -/
def Brk (c : TCfg K) (i n : Nat) (t : TMgr K) (u : Bool) (R : List (Rec K)) (t' : TMgr K) : Prop :=
  ∃ s, Inv c s ∧ (∀ k, Spec.vis (s.get c k) = Spec.vis ((Spec.lastWrite R k).or (t.get c k))) ∧ s.lv = t.lv ∧
    (t' = s ∨ ∃ l b l', t.lv.drop i = l :: b ∧ Copied n l l' ∧
      t' = { s with lv := t.lv.take i ++ (if u then loadLevel none l' [] else l') :: b })

theorem setBatch_lv (c : TCfg K) (s : TMgr K) (X : List (List (Tab K))) (R : List (Rec K)) :
    setBatch c { s with lv := X } R = { setBatch c s R with lv := X } := by
  unfold setBatch
  show (List.range s.parts).foldl _ _ = _
  generalize List.range s.parts = ps
  induction ps generalizing s with
  | nil => rfl
  | cons p ps ih =>
    rw [List.foldl_cons, List.foldl_cons]
    have : setBatchPart c { s with lv := X } R p = { setBatchPart c s R p with lv := X } := by
      unfold setBatchPart
      have ht : ({ s with lv := X } : TMgr K).tablesByHash p = s.tablesByHash p := rfl
      rw [ht]
      cases smallestNormal (s.tablesByHash p) none <;> rfl
    rw [this, ih]

theorem setBatch_same_lv (c : TCfg K) (s : TMgr K) (R : List (Rec K)) : (setBatch c s R).lv = s.lv := by
  have := congrArg TMgr.lv (setBatch_lv c s s.lv R)
  exact this

theorem l0Begin_lv (s : TMgr K) (X : List (List (Tab K))) (p : Nat) :
    compactL0Begin { s with lv := X } p = { compactL0Begin s p with lv := X } := by
  unfold compactL0Begin
  have ht : ({ s with lv := X } : TMgr K).tablesByHash p = s.tablesByHash p := rfl
  dsimp only
  rw [ht]
  split
  · rfl
  · cases smallestNormal (s.tablesByHash p) none <;> rfl

theorem l0Begin_same_lv (s : TMgr K) (p : Nat) : (compactL0Begin s p).lv = s.lv := by
  have := congrArg TMgr.lv (l0Begin_lv s s.lv p)
  exact this

theorem drop_take {α : Type} {xs : List α} {i : Nat} {l : α} {b : List α} (h : xs.drop i = l :: b) (ys : List α) :
    (xs.take i ++ ys).drop i = ys ∧ (xs.take i ++ ys).take i = xs.take i := by
  have hi : i ≤ xs.length := by
    rcases Nat.lt_or_ge xs.length i with h' | h'
    · rw [List.drop_eq_nil_of_le (Nat.le_of_lt h')] at h; cases h
    · exact h'
  have hlen : (xs.take i).length = i := by rw [List.length_take]; exact Nat.min_eq_left hi
  exact ⟨by rw [List.drop_left' hlen], by rw [List.take_left' hlen]⟩

theorem Inv.load_id {c : TCfg K} {s : TMgr K} (h : Inv c s) : s.lv.map (fun l => loadLevel none l []) = s.lv := by
  refine (List.map_congr_left fun l hl => loadLevel_id (h.lv l hl)).trans (List.map_id' _)

theorem Copied.load {n : Nat} {l l' : List (Tab K)} (hl : LevelOk l) (h : Copied n l l') :
    Copied n l (loadLevel none l' []) := by
  obtain ⟨A, d, v, B, d', f, e1, e2, e3, e4, _⟩ := load_copied hl h
  exact ⟨A, d, v, B, d', f, e1, e2, e3, e4⟩

theorem Copied.cond {n : Nat} {l l' : List (Tab K)} (hl : LevelOk l) (h : Copied n l l') (u : Bool) :
    Copied n l (if u then loadLevel none l' [] else l') := by
  cases u
  · exact h
  · exact h.load hl

theorem Broken.brk {c : TCfg K} {i n : Nat} {t t' : TMgr K} {u : Bool} {R : List (Rec K)} (h : Inv c t)
    (hb : Broken c i n t u R t') : Brk c i n t u R t' := by
  induction hb with
  | crash j =>
    refine ⟨t, h, fun k => by rw [Spec.lastWrite_nil]; rfl, rfl, ?_⟩
    unfold mergeOpCut onTable
    split
    · exact Or.inl rfl
    · next l b hd =>
      split
      · exact Or.inl rfl
      · next v hv =>
        have hl : l ∈ t.lv := by rw [drop_split hd]; simp
        obtain ⟨hm, hn⟩ := find_mem hv
        rcases mergeTableCut_copied (h.lv l hl) hm (c.purge && b.isEmpty) j with h1 | h1
        · left
          dsimp only; rw [h1, ← hd, List.take_append_drop]
        · right; exact ⟨l, b, _, hd, hn ▸ h1, rfl⟩
  | @start u R t' _ ih =>
    obtain ⟨s, hs, hv, hlv, h'⟩ := ih
    have hr := reopen_same hs
    refine ⟨s.reopen, hr.inv, fun k => (hr.vis k).trans (hv k), ?_, ?_⟩
    · show s.lv.map _ = t.lv
      rw [hs.load_id, hlv]
    · rcases h' with rfl | ⟨l, b, l', hd, hc, rfl⟩
      · exact Or.inl rfl
      · right
        have hl : l ∈ t.lv := by rw [drop_split hd]; simp
        refine ⟨l, b, (if u then loadLevel none l' [] else l'), hd, hc.cond (h.lv l hl) u, ?_⟩
        generalize (if u = true then loadLevel none l' [] else l') = l2
        show TMgr.mk _ _ _ _ = TMgr.mk _ _ _ _
        congr 1
        show (t.lv.take i ++ l2 :: b).map _ = _
        rw [List.map_append, List.map_cons, if_pos rfl]
        congr 1
        · exact (List.map_congr_left fun x hx => loadLevel_id (h.lv x (mem_take_of hx))).trans (List.map_id' _)
        · congr 1
          exact (List.map_congr_left fun x hx => loadLevel_id (h.lv x (by rw [drop_split hd]; simp [hx]))).trans (List.map_id' _)
  | @flush R t' R' _ ih =>
    obtain ⟨s, hs, hv, hlv, h'⟩ := ih
    obtain ⟨h1, -, h3⟩ := setBatch_ok hs R'
    refine ⟨setBatch c s R', h1, fun k => ?_, (setBatch_same_lv c s R').trans hlv, ?_⟩
    · rw [h3 k, Spec.lastWrite_append, Option.or_assoc]
      exact vis_or (hv k)
    · rcases h' with rfl | ⟨l, b, l', hd, hc, rfl⟩
      · exact Or.inl rfl
      · exact Or.inr ⟨l, b, l', hd, hc, setBatch_lv c s _ R'⟩
  | @l0Begin R t' p hp _ ih =>
    obtain ⟨s, hs, hv, hlv, h'⟩ := ih
    have hps : p < s.parts := by
      rcases h' with rfl | ⟨l, b, l', hd, hc, rfl⟩
      · exact hp
      · exact hp
    have hr := compactL0Begin_same hs hps
    refine ⟨s.compactL0Begin p, hr.inv, fun k => (hr.vis k).trans (hv k), (l0Begin_same_lv s p).trans hlv, ?_⟩
    rcases h' with rfl | ⟨l, b, l', hd, hc, rfl⟩
    · exact Or.inl rfl
    · exact Or.inr ⟨l, b, l', hd, hc, l0Begin_lv s _ p⟩
  | @fixCrash R t' j m _ ih =>
    obtain ⟨s, hs, hv, hlv, h'⟩ := ih
    refine ⟨s, hs, hv, hlv, ?_⟩
    unfold fixOpCut onTable
    rcases h' with rfl | ⟨l, b, l', hd, hc, rfl⟩
    · left
      split
      · rfl
      · next l b hd =>
        split
        · rfl
        · next v hv =>
          have hl : l ∈ t'.lv := by rw [drop_split hd]; simp
          have : fixTableCut l v (c.purge && b.isEmpty) j m = l := by
            unfold fixTableCut
            rw [((hs.lv l hl).tab v (find_mem hv).1).2.2, if_neg (by simp)]
          dsimp only; rw [this, ← hd, List.take_append_drop]
    · right
      have hl : l ∈ t.lv := by rw [drop_split hd]; simp
      dsimp only
      rw [(drop_take hd _).1, (drop_take hd _).2]
      have hc2 := hc.load (h.lv l hl)
      rw [if_pos rfl]
      generalize loadLevel none l' [] = l2 at hc2 ⊢
      dsimp only
      cases hw : l2.find? (fun x => decide (x.number = n)) with
      | none => exact ⟨l, b, l2, hd, hc2, rfl⟩
      | some w => exact ⟨l, b, _, hd, fixTableCut_copied (h.lv l hl) hc2 hw _ j m, rfl⟩

/-- After the repair the section is sound and gives the old answers and the records flushed since. -/
theorem Broken.fixed {c : TCfg K} {i n : Nat} {t t' : TMgr K} {R : List (Rec K)} (h : Inv c t)
    (hb : Broken c i n t true R t') :
    Inv c (t'.fixOp c i n) ∧
      ∀ k, Spec.vis ((t'.fixOp c i n).get c k) = Spec.vis ((Spec.lastWrite R k).or (t.get c k)) := by
  obtain ⟨s, hs, hv, hlv, h'⟩ := hb.brk h
  rcases h' with rfl | ⟨l, b, l', hd, hc, rfl⟩
  · have hsame : t'.fixOp c i n = t' := by
      unfold fixOp onTable
      split
      · rfl
      · next l b hd =>
        split
        · rfl
        · next v hv =>
          have hl : l ∈ t'.lv := by rw [drop_split hd]; simp
          have : fixTable l v (c.purge && b.isEmpty) = l := by
            unfold fixTable
            rw [((hs.lv l hl).tab v (find_mem hv).1).2.2, if_neg (by simp)]
          dsimp only; rw [this, ← hd, List.take_append_drop]
    rw [hsame]
    exact ⟨hs, hv⟩
  · have hl : l ∈ t.lv := by rw [drop_split hd]; simp
    obtain ⟨w, l2, hw, hf, h1, h2, h3⟩ := fix_loaded (h.lv l hl) hc (c.purge && b.isEmpty)
    have he : ({ s with lv := t.lv.take i ++ (if true then loadLevel none l' [] else l') :: b } : TMgr K).fixOp c i n =
        { s with lv := s.lv.take i ++ l2 :: b, nextNum := s.nextNum } := by
      unfold fixOp onTable
      dsimp only
      rw [if_pos rfl, (drop_take hd _).1, (drop_take hd _).2]
      dsimp only
      rw [hw, hlv]
      dsimp only
      rw [hf]
    rw [he]
    have hd' : s.lv.drop i = l :: b := by rw [hlv]; exact hd
    have hS := same_one hs hd' s.nextNum (Nat.le_refl _) h1 (fun x hx => by
      have hm : x.number ∈ l2.map (·.number) := List.mem_map.2 ⟨x, hx, rfl⟩
      rw [h3] at hm
      obtain ⟨y, hy, e⟩ := List.mem_map.1 hm
      rw [← e]; exact hs.lvNum l (by rw [hlv]; exact hl) y hy) (fun k => Or.inl (h2 k))
    exact ⟨hS.inv, fun k => (hS.vis k).trans (hv k)⟩

/-! ### Reads before the repair -/

theorem floor_map {g : Tab K → Tab K} {k : K} : ∀ (l : List (Tab K)) (prev : Option (Tab K)), (∀ x ∈ l, (g x).minKey = x.minKey) →
    floor (prev.map g) (l.map g) k = (floor prev l k).map (fun r => (g r.1, r.2.map g)) := by
  intro l
  induction l with
  | nil => intro _ _; rfl
  | cons x xs ih =>
    intro prev h
    simp only [List.map_cons, floor, h x (by simp)]
    split
    · have := ih (some x) (fun y hy => h y (by simp [hy]))
      rw [Option.map_some] at this
      rw [this]
      cases floor (some x) xs k <;> rfl
    · rfl

theorem floor_adj {k : K} {x : Tab K} {p : Option (Tab K)} : ∀ (l : List (Tab K)) (prev : Option (Tab K)), MinSorted l →
    floor prev l k = some (x, p) → (x.minKey ≤ k ∧ ∀ y ∈ l, y.minKey ≤ k → y.minKey ≤ x.minKey) ∧
      ((∃ B, l = x :: B ∧ p = prev) ∨ ∃ A q B, l = A ++ q :: x :: B ∧ p = some q) := by
  intro l
  induction l with
  | nil => intro _ _ h; cases h
  | cons y ys ih =>
    intro prev hs h
    have hp := List.pairwise_cons.1 hs
    simp only [floor] at h
    split at h
    · next hk =>
      cases hf : floor (some y) ys k with
      | none =>
        rw [hf] at h; cases h
        refine ⟨⟨hk, ?_⟩, Or.inl ⟨ys, rfl, rfl⟩⟩
        intro z hz hzk
        rcases List.mem_cons.1 hz with rfl | hz
        · exact le_refl _
        · exfalso
          cases ys with
          | nil => cases hz
          | cons w ws =>
            simp only [floor] at hf
            split at hf
            · split at hf <;> cases hf
            · next hw =>
              have hp2 := List.pairwise_cons.1 hp.2
              rcases List.mem_cons.1 hz with rfl | hz
              · exact hw hzk
              · exact hw (le_trans (le_of_lt (hp2.1 z hz)) hzk)
      | some r =>
        rw [hf] at h; cases h
        obtain ⟨⟨h1, h2⟩, h3⟩ := ih (some y) hp.2 hf
        refine ⟨⟨h1, ?_⟩, ?_⟩
        · intro z hz hzk
          rcases List.mem_cons.1 hz with rfl | hz
          · rcases h3 with ⟨B, rfl, _⟩ | ⟨A, q, B, rfl, _⟩
            · exact le_of_lt (hp.1 x (by simp))
            · exact le_of_lt (hp.1 x (by simp))
          · exact h2 z hz hzk
        · right
          rcases h3 with ⟨B, rfl, e⟩ | ⟨A, q, B, rfl, e⟩
          · exact ⟨[], y, B, rfl, e⟩
          · exact ⟨y :: A, q, B, rfl, e⟩
    · cases h

/-- A lookup in a level with copies gives what the level held, or the error of two tables that have
    the key. -/
theorem scan_copied {n : Nat} {l l' : List (Tab K)} (hl : LevelOk l) (h : Copied n l l') (k : K) :
    scan k (tablesPoint l' k) none = some (look l k) ∨
      (scan k (tablesPoint l' k) none = none ∧ ∃ v ∈ l, v.number = n ∧ (v.get k).isSome) := by
  obtain ⟨A, d, v, B, d', b, rfl, rfl, rfl, hc⟩ := h
  have hn := nums_at hl.nums
  let g : Tab K → Tab K := fun x => if x.number = d.number then d' else if x.number = v.number then { v with prevReq := b } else x
  have gd : g d = d' := if_pos rfl
  have gv : g v = { v with prevReq := b } := by
    show (if _ then _ else _) = _
    rw [if_neg (hn.1 v (by simp)), if_pos rfl]
  have go : ∀ x, x ∈ A ∨ x ∈ B → g x = x := by
    intro x hx
    show (if _ then _ else _) = _
    rw [if_neg (hn.1 x (by rcases hx with h | h <;> simp [h])), if_neg (hn.2 x (by rcases hx with h | h <;> simp [h]))]
  have hmap : (A ++ d :: v :: B).map g = A ++ d' :: { v with prevReq := b } :: B := by
    rw [List.map_append, List.map_cons, List.map_cons, gd, gv]
    congr 1
    · exact (List.map_congr_left fun x hx => go x (Or.inl hx)).trans (List.map_id' _)
    · congr 2
      exact (List.map_congr_left fun x hx => go x (Or.inr hx)).trans (List.map_id' _)
  have hmin : ∀ x ∈ A ++ d :: v :: B, (g x).minKey = x.minKey := by
    intro x hx
    rcases List.mem_append.1 hx with h | h
    · rw [go x (Or.inl h)]
    · rcases List.mem_cons.1 h with rfl | h
      · rw [gd]; exact hc.minKey
      · rcases List.mem_cons.1 h with rfl | h
        · rw [gv]
        · rw [go x (Or.inr h)]
  have hfl := floor_map (g := g) (k := k) _ none hmin
  rw [hmap] at hfl
  unfold tablesPoint
  rw [show floor none (A ++ d' :: { v with prevReq := b } :: B) k = _ from hfl]
  cases hf : floor none (A ++ d :: v :: B) k with
  | none =>
    left
    have := scan_point hl k
    unfold tablesPoint at this
    rw [hf] at this
    exact this
  | some r =>
    obtain ⟨x, p⟩ := r
    obtain ⟨⟨h1, h2⟩, h3⟩ := floor_adj _ none hl.sorted hf
    have hx : x ∈ A ++ d :: v :: B := by
      rcases h3 with ⟨_, e, _⟩ | ⟨_, _, _, e, _⟩ <;> rw [e] <;> simp
    have hlook := look_floor hl hx h1 h2
    simp only [Option.map_some]
    rw [hlook]
    by_cases hxv : x = v
    · subst hxv
      rw [gv]
      have hlt := level_at hl
      have hp : p = some d := by
        rcases h3 with ⟨B', e, _⟩ | ⟨A', q, B', e, hq⟩
        · exfalso
          cases A with
          | nil => simp only [List.nil_append, List.cons.injEq] at e; rw [e.1] at hlt; exact absurd hlt.1 (lt_irrefl _)
          | cons a A =>
            simp only [List.cons_append, List.cons.injEq] at e
            exact hn.2 a (by simp) (by rw [e.1])
        · rw [hq]
          have e1 := tableBefore_at (A := A) (d := d) (v := x) (B := B) (fun z hz => hn.2 z (List.mem_append_left _ hz)) none
          have e2 := tableBefore_at (A := A') (d := q) (v := x) (B := B') (fun z hz => (nums_at (e ▸ hl.nums)).2 z (List.mem_append_left _ hz)) none
          rw [← e] at e2
          exact (e2.symm.trans e1)
      rw [hp]
      simp only [Option.map_some, gd, Option.toList_some]
      have hgv : ({ x with prevReq := b } : Tab K).get k = x.get k := rfl
      cases b with
      | false =>
        left
        simp only [Bool.false_eq_true, if_false, scan, hgv]
        cases x.get k <;> rfl
      | true =>
        simp only [if_true, scan, hgv]
        rcases hc.above k h1 with h0 | h0
        · left; rw [h0]; cases x.get k <;> rfl
        · rw [h0]
          cases hg : x.get k with
          | none => exact Or.inl rfl
          | some r =>
            right
            refine ⟨?_, x, by simp, rfl, by rw [hg]; rfl⟩
            simp only [Nat.lt_irrefl, if_false]
    · left
      by_cases hxd : x = d
      · subst hxd
        rw [gd, hc.prev]
        have hkv : k < v.minKey := by
          by_contra hk
          exact absurd (level_at hl).1 (not_lt.2 (h2 v (by simp) (not_lt.1 hk)))
        simp only [Bool.false_eq_true, if_false, scan, hc.below k hkv]
        cases x.get k <;> rfl
      · have hxo : x ∈ A ∨ x ∈ B := by
          simp only [List.mem_append, List.mem_cons] at hx
          rcases hx with h | h | h | h
          exacts [Or.inl h, absurd h hxd, absurd h hxv, Or.inr h]
        rw [go x hxo, (hl.tab x hx).2.2]
        simp only [Bool.false_eq_true, if_false, scan]
        cases x.get k <;> rfl

theorem getLevels_copied {n : Nat} {l l' : List (Tab K)} (hl : LevelOk l) (h : Copied n l l') (k : K) (b : List (List (Tab K))) :
    ∀ X, getLevels k (X ++ l' :: b) = getLevels k (X ++ l :: b) ∨
      (getLevels k (X ++ l' :: b) = some (blank k) ∧ ∃ v ∈ l, v.number = n ∧ (v.get k).isSome) := by
  intro X
  induction X with
  | nil =>
    simp only [List.nil_append, getLevels, scan_point hl]
    rcases scan_copied hl h k with h1 | ⟨h1, h2⟩
    · left; rw [h1]
    · right; rw [h1]; exact ⟨rfl, h2⟩
  | cons x X ih =>
    simp only [List.cons_append, getLevels]
    cases scan k (tablesPoint x k) none with
    | none => exact Or.inl rfl
    | some r =>
      cases r with
      | none => exact ih
      | some r => exact Or.inl rfl

theorem get_lv {c : TCfg K} {s : TMgr K} {lv : List (List (Tab K))} {k : K}
    (h : getLevels k lv = getLevels k s.lv ∨ getLevels k lv = some (blank k)) :
    get c { s with lv := lv } k = s.get c k ∨ get c { s with lv := lv } k = some (blank k) := by
  unfold get
  have ht : ({ s with lv := lv } : TMgr K).tablesByHash (c.hash k % s.parts) = s.tablesByHash (c.hash k % s.parts) := rfl
  dsimp only
  rw [ht]
  split
  · exact Or.inl rfl
  · split
    · exact Or.inl rfl
    · exact Or.inl rfl
    · exact h

/-- Before the repair a read gives the old answer, or OK with an empty value for a key of the table
    whose merge was cut off. -/
theorem Broken.reads {c : TCfg K} {i n : Nat} {t t' : TMgr K} {u : Bool} {R : List (Rec K)} (h : Inv c t)
    (hb : Broken c i n t u R t') (k : K) :
    Spec.vis (t'.get c k) = Spec.vis ((Spec.lastWrite R k).or (t.get c k)) ∨
      (t'.get c k = some (blank k) ∧ ∃ l ∈ t.lv, ∃ v ∈ l, v.number = n ∧ (v.get k).isSome) := by
  obtain ⟨s, hs, hv, hlv, h'⟩ := hb.brk h
  rcases h' with rfl | ⟨l, b, l', hd, hc, rfl⟩
  · exact Or.inl (hv k)
  · have hl : l ∈ t.lv := by rw [drop_split hd]; simp
    have hs' : s.lv = t.lv.take i ++ l :: b := by rw [hlv]; exact drop_split hd
    have hc2 := hc.cond (h.lv l hl) u
    generalize (if u = true then loadLevel none l' [] else l') = l2 at hc2 ⊢
    rcases getLevels_copied (h.lv l hl) hc2 k b (t.lv.take i) with h1 | ⟨h1, h2⟩
    · rw [← hs'] at h1
      left
      have : get c { s with lv := t.lv.take i ++ l2 :: b } k = s.get c k := by
        unfold get
        have ht : ({ s with lv := t.lv.take i ++ l2 :: b } : TMgr K).tablesByHash (c.hash k % s.parts) = s.tablesByHash (c.hash k % s.parts) := rfl
        dsimp only
        rw [ht, h1]
      rw [this]; exact hv k
    · rcases get_lv (c := c) (s := s) (Or.inr h1) with h3 | h3
      · left; rw [h3]; exact hv k
      · exact Or.inr ⟨h3, l, hl, h2⟩

/-! ### The repair of any two neighbours -/

theorem fixVictim_get (p : Bool) (rs : List (Rec K)) : ∀ (v : Tab K), v.recs.Sorted → (rs.map (·.key)).Nodup → ∀ k,
    (∀ r ∈ rs, r.key ≠ k) → (fixVictim p v rs).get k = v.get k := by
  induction rs with
  | nil => intro v _ _ k _; rfl
  | cons r rs ih =>
    intro v hs hn k hk
    rw [List.map_cons, List.nodup_cons] at hn
    show (fixVictim p (if skipFix v r then v else v.setSingle r p false) rs).get k = _
    split
    · exact ih v hs hn.2 k (fun x hx => hk x (by simp [hx]))
    · rw [ih _ (setSingle_sorted hs r p false) hn.2 k (fun x hx => hk x (by simp [hx])), setSingle_get hs,
        if_neg (fun e => hk r (by simp) e.symm)]

/-- What the victim holds for a key of the list: the newer record. -/
theorem fixVictim_mem (p : Bool) (rs : List (Rec K)) : ∀ (v : Tab K), v.recs.Sorted → (rs.map (·.key)).Nodup → ∀ r ∈ rs,
    (fixVictim p v rs).get r.key =
      if skipFix v r then v.get r.key else if p && r.isDel then none else some r := by
  induction rs with
  | nil => intro v _ _ r hr; cases hr
  | cons x rs ih =>
    intro v hs hn r hr
    rw [List.map_cons, List.nodup_cons] at hn
    show (fixVictim p (if skipFix v x then v else v.setSingle x p false) rs).get r.key = _
    rcases List.mem_cons.1 hr with rfl | hr
    · have hne : ∀ y ∈ rs, y.key ≠ r.key := fun y hy e => hn.1 (List.mem_map.2 ⟨y, hy, e⟩)
      split
      · rw [fixVictim_get p rs v hs hn.2 _ hne]
      · rw [fixVictim_get p rs _ (setSingle_sorted hs r p false) hn.2 _ hne, setSingle_get hs, if_pos rfl]
    · have hne : r.key ≠ x.key := fun e => hn.1 (List.mem_map.2 ⟨r, hr, e⟩)
      split
      · exact ih v hs hn.2 r hr
      · rw [ih _ (setSingle_sorted hs x p false) hn.2 r hr]
        have h1 : (v.setSingle x p false).get r.key = v.get r.key := by rw [setSingle_get hs, if_neg hne]
        have h2 : skipFix (v.setSingle x p false) r = skipFix v r := by unfold skipFix; rw [h1]
        rw [h1, h2]

theorem toFix_keys {d v : Tab K} (hs : d.recs.Sorted) (hk : ∀ e ∈ d.recs, e.2.key = e.1) :
    ((toFix d v).map (·.key)).Nodup := by
  have h1 : (toFix d v).map (·.key) = (d.recs.filter (fun e => decide (v.minKey ≤ e.1))).map (·.1) := by
    unfold toFix
    rw [List.map_map]
    exact List.map_congr_left (fun e he => hk e (List.mem_of_mem_filter he))
  rw [h1, List.Nodup, List.pairwise_map]
  exact (hs.filter _).imp (fun h => ne_of_lt h)

theorem mem_toFix_iff {d v : Tab K} (hs : d.recs.Sorted) (hk : ∀ e ∈ d.recs, e.2.key = e.1) (r : Rec K) :
    r ∈ toFix d v ↔ d.get r.key = some r ∧ v.minKey ≤ r.key := by
  simp only [toFix, List.mem_map, List.mem_filter, decide_eq_true_eq]
  constructor
  · rintro ⟨e, ⟨he, hle⟩, rfl⟩
    rw [hk e he]; exact ⟨SMap.find?_of_mem hs he, hle⟩
  · rintro ⟨h1, h2⟩
    exact ⟨(r.key, r), ⟨SMap.find?_some_mem h1, h2⟩, rfl⟩

theorem fixTable_at {A : List (Tab K)} {d v : Tab K} {B : List (Tab K)}
    (hn : ((A ++ d :: v :: B).map (·.number)).Nodup) (hf : v.prevReq = true) (p : Bool) :
    fixTable (A ++ d :: v :: B) v p =
      A ++ fixTarget d (toFix d v) :: { fixVictim p v (toFix d v) with prevReq := false } :: B := by
  have h := nums_at hn
  have hnum : ∀ (rs : List (Rec K)) (x : Tab K), (fixTarget x rs).number = x.number := by
    intro rs
    induction rs with
    | nil => intro x; rfl
    | cons r rs ih => intro x; exact (ih (forceDel x r)).trans rfl
  unfold fixTable
  rw [if_pos hf, tableBefore_at (fun x hx => h.2 x (List.mem_append_left _ hx))]
  dsimp only
  rw [modify_at h.1]
  have hn2 : ∀ x ∈ (A ++ [fixTarget d (toFix d v)]) ++ B, x.number ≠ v.number := by
    intro x hx
    simp only [List.append_assoc, List.mem_append, List.mem_singleton] at hx
    rcases hx with hx | rfl | hx
    · exact h.2 x (by simp [hx])
    · rw [hnum]; exact h.2 d (by simp)
    · exact h.2 x (by simp [hx])
  have := modify_at (A := A ++ [fixTarget d (toFix d v)]) (B := B) (d := v)
      (f := fun x => { fixVictim p x (toFix d v) with prevReq := false }) hn2
  simpa only [List.append_assoc, List.singleton_append] using this

theorem tableBefore_first {v : Tab K} {B : List (Tab K)} : tableBefore none (v :: B) v.number = none := by
  simp [tableBefore]

end TMgr
end Jungle
