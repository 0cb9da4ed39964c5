/-
  What the entries of `TableFile::chkMap` say: the table as it was at a checkpoint.
-/
import Verif.Table.Marks

set_option linter.unusedSectionVars false

namespace Jungle
open Spec
variable {K : Type} [LinearOrder K] [OrderBot K]

/-! ### one table -/

theorem mem_insertMark {chk : Nat} {recs : SMap K (Rec K)} {m : List (Mark K)} {e : Mark K}
    (h : e ∈ insertMark chk recs m) : e ∈ m ∨ (e.chk = chk ∧ e.recs = recs) := by
  induction m with
  | nil =>
    simp only [insertMark, List.mem_singleton] at h
    right; rw [h]; exact ⟨rfl, rfl⟩
  | cons a m ih =>
    unfold insertMark at h
    split at h
    · rcases List.mem_cons.1 h with h | h
      · right; rw [h]; exact ⟨rfl, rfl⟩
      · exact Or.inl h
    · split at h
      · exact Or.inl h
      · rcases List.mem_cons.1 h with h | h
        · left; rw [h]; exact List.mem_cons_self
        · rcases ih h with h | h
          · exact Or.inl (List.mem_cons_of_mem _ h)
          · exact Or.inr h

theorem insertMark_sorted {chk : Nat} {recs : SMap K (Rec K)} {m : List (Mark K)}
    (h : m.Pairwise (fun a b => a.chk < b.chk)) :
    (insertMark chk recs m).Pairwise (fun a b => a.chk < b.chk) := by
  induction m with
  | nil => exact List.pairwise_singleton _ _
  | cons a m ih =>
    have h' := List.pairwise_cons.1 h
    unfold insertMark
    split
    · next hc =>
      rw [List.pairwise_cons]
      refine ⟨?_, h⟩
      intro b hb
      rcases List.mem_cons.1 hb with rfl | hb
      · exact hc
      · exact Nat.lt_trans hc (h'.1 b hb)
    · next hc =>
      split
      · exact h
      · next hne =>
        rw [List.pairwise_cons]
        refine ⟨?_, ih h'.2⟩
        intro b hb
        rcases mem_insertMark hb with hb | ⟨hb, -⟩
        · exact h'.1 b hb
        · omega

theorem addCheckpoint_sorted {keep chk : Nat} {recs : SMap K (Rec K)} {m : List (Mark K)}
    (h : m.Pairwise (fun a b => a.chk < b.chk)) :
    (addCheckpoint keep m chk recs).Pairwise (fun a b => a.chk < b.chk) :=
  (insertMark_sorted h).sublist (List.drop_sublist _ _)

theorem mem_addCheckpoint {keep chk : Nat} {recs : SMap K (Rec K)} {m : List (Mark K)} {e : Mark K}
    (h : e ∈ addCheckpoint keep m chk recs) : e ∈ m ∨ (e.chk = chk ∧ e.recs = recs) :=
  mem_insertMark (List.mem_of_mem_drop h)

theorem setCheckpoint_ok {keep : Nat} {recs : SMap K (Rec K)} {next : Option Nat} {prev : Nat} {all : Bool}
    (cps : List Nat) (m : List (Mark K)) (hs : m.Pairwise (fun a b => a.chk < b.chk)) :
    (setCheckpoint keep recs next prev all cps m).Pairwise (fun a b => a.chk < b.chk) ∧
    ∀ e ∈ setCheckpoint keep recs next prev all cps m, e ∈ m ∨ (e.chk ∈ cps ∧ e.recs = recs ∧
      (prev = e.chk ∨ (prev < e.chk ∧ ∃ n, next = some n ∧ e.chk < n) ∨ (prev ≤ e.chk ∧ all = true))) := by
  induction cps generalizing m with
  | nil => exact ⟨hs, fun e he => Or.inl he⟩
  | cons chk cps ih =>
    unfold setCheckpoint
    simp only []
    have hm : (if prev = chk ∨ (prev < chk ∧ next.any (fun n => decide (chk < n)) = true) ∨
        (prev ≤ chk ∧ all = true) then addCheckpoint keep m chk recs else m).Pairwise (fun a b => a.chk < b.chk) ∧
      ∀ e ∈ (if prev = chk ∨ (prev < chk ∧ next.any (fun n => decide (chk < n)) = true) ∨
        (prev ≤ chk ∧ all = true) then addCheckpoint keep m chk recs else m), e ∈ m ∨ (e.chk ∈ chk :: cps ∧ e.recs = recs ∧
          (prev = e.chk ∨ (prev < e.chk ∧ ∃ n, next = some n ∧ e.chk < n) ∨ (prev ≤ e.chk ∧ all = true))) := by
      split
      · next hc =>
        refine ⟨addCheckpoint_sorted hs, fun e he => ?_⟩
        rcases mem_addCheckpoint he with h | ⟨h1, h2⟩
        · exact Or.inl h
        · refine Or.inr ⟨by rw [h1]; exact List.mem_cons_self, h2, ?_⟩
          rw [h1]
          rcases hc with h | ⟨h, hn⟩ | h
          · exact Or.inl h
          · refine Or.inr (Or.inl ⟨h, ?_⟩)
            cases next with
            | none => simp at hn
            | some n => exact ⟨n, rfl, by simpa using hn⟩
          · exact Or.inr (Or.inr h)
      · exact ⟨hs, fun e he => Or.inl he⟩
    generalize (if prev = chk ∨ (prev < chk ∧ next.any (fun n => decide (chk < n)) = true) ∨
        (prev ≤ chk ∧ all = true) then addCheckpoint keep m chk recs else m) = m' at hm
    split
    · exact hm
    · obtain ⟨i1, i2⟩ := ih m' hm.1
      refine ⟨i1, fun e he => ?_⟩
      rcases i2 e he with h | ⟨h1, h2⟩
      · exact hm.2 e h
      · exact Or.inr ⟨List.mem_cons_of_mem _ h1, h2⟩

/-- Records of partition `p` that are written to its table. -/
def inPart (c : TCfg K) (parts p : Nat) (r : Rec K) : Prop := c.hash r.key % parts = p ∧ r.isCmd = false

/-- The entry `e` made while the batch `R` is written to table `x`: the records of the partition up to
    the checkpoint are in, the later ones are not. -/
def MadeIn (c : TCfg K) (parts p : Nat) (x : Tab K) (cps : List Nat) (R : List (Rec K)) (e : Mark K) : Prop :=
  e.chk ∈ cps ∧ ∃ R1 R2, R = R1 ++ R2 ∧ e.recs = (x.setBatch c parts p R1).recs ∧
    (∀ r ∈ R1, inPart c parts p r → r.seq ≤ e.chk) ∧ (∀ r ∈ R2, inPart c parts p r → e.chk < r.seq)

theorem markBatch_ok (c : TCfg K) (parts p keep : Nat) (cps : List Nat) (x : Tab K) (m : List (Mark K))
    (R : List (Rec K)) (hR : Increasing R) (hpos : ∀ r ∈ R, 0 < r.seq) (hs : m.Pairwise (fun a b => a.chk < b.chk)) :
    let st := markBatch c parts p keep cps x m R
    st.tab = x.setBatch c parts p R ∧ st.marks.Pairwise (fun a b => a.chk < b.chk) ∧
    ∀ e ∈ st.marks, e ∈ m ∨ MadeIn c parts p x cps R e := by
  have key : ∀ (R2 R1 : List (Rec K)) (st : MarkSt K), Increasing (R1 ++ R2) → (∀ r ∈ R1 ++ R2, 0 < r.seq) →
      st.tab = x.setBatch c parts p R1 → st.marks.Pairwise (fun a b => a.chk < b.chk) →
      (∀ r ∈ R1, inPart c parts p r → r.seq ≤ st.prev) → (st.prev = 0 ∨ ∃ r ∈ R1, r.seq = st.prev) →
      (∀ e ∈ st.marks, e ∈ m ∨ MadeIn c parts p x cps (R1 ++ R2) e) →
      let st' := R2.foldl (markStep c parts p keep cps) st
      st'.tab = x.setBatch c parts p (R1 ++ R2) ∧ st'.marks.Pairwise (fun a b => a.chk < b.chk) ∧
      (∀ r ∈ R1 ++ R2, inPart c parts p r → r.seq ≤ st'.prev) ∧
      ∀ e ∈ st'.marks, e ∈ m ∨ MadeIn c parts p x cps (R1 ++ R2) e := by
    intro R2
    induction R2 with
    | nil =>
      intro R1 st _ _ h1 h2 h3 _ h4
      simp only [List.foldl_nil, List.append_nil] at h4 ⊢
      exact ⟨h1, h2, h3, h4⟩
    | cons r R2 ih =>
      intro R1 st hi h0 h1 h2 h3 h5 h4
      have happ : R1 ++ r :: R2 = (R1 ++ [r]) ++ R2 := by simp
      have hsn : ∀ t : Tab K, t.setBatch c parts p (R1 ++ [r]) =
          if c.hash r.key % parts ≠ p then t.setBatch c parts p R1 else if r.isCmd then t.setBatch c parts p R1
            else (t.setBatch c parts p R1).setSingle r false := by
        intro t; unfold Tab.setBatch; rw [List.foldl_append]; rfl
      simp only [List.foldl_cons]
      rw [happ] at hi h0 h4 ⊢
      have hgt : ∀ a ∈ R1, a.seq < r.seq := by
        intro a ha
        have hp := (List.pairwise_append.1 ((List.pairwise_append.1 hi).1)).2.2 a ha r (by simp)
        exact hp
      have hlt : ∀ b ∈ R2, r.seq < b.seq := by
        intro b hb
        exact (List.pairwise_append.1 hi).2.2 r (by simp) b hb
      by_cases hh : c.hash r.key % parts ≠ p
      · have e : markStep c parts p keep cps st r = st := if_pos hh
        rw [e]
        apply ih (R1 ++ [r]) st hi h0 (by rw [h1, hsn, if_pos hh]) h2 _ _ h4
        · intro a ha hp
          rcases List.mem_append.1 ha with ha | ha
          · exact h3 a ha hp
          · simp only [List.mem_singleton] at ha; subst ha; exact absurd hp.1 hh
        · rcases h5 with h5 | ⟨a, ha, e⟩
          · exact Or.inl h5
          · exact Or.inr ⟨a, by simp [ha], e⟩
      · have hm := setCheckpoint_ok (keep := keep) (recs := st.tab.recs) (next := some r.seq) (prev := st.prev)
          (all := false) cps st.marks h2
        have hnew : ∀ e ∈ setCheckpoint keep st.tab.recs (some r.seq) st.prev false cps st.marks,
            e ∈ m ∨ MadeIn c parts p x cps (R1 ++ [r] ++ R2) e := by
          intro e he
          rcases hm.2 e he with h | ⟨g1, g2, g3⟩
          · exact h4 e h
          · right
            have hle : st.prev ≤ e.chk ∧ (e.chk < r.seq ∨ e.chk = 0) := by
              rcases g3 with g | ⟨g, n, hn, hn'⟩ | ⟨-, g⟩
              · refine ⟨by omega, ?_⟩
                rcases h5 with h5 | ⟨a, ha, e⟩
                · right; omega
                · left; have := hgt a ha; omega
              · cases hn; exact ⟨by omega, Or.inl hn'⟩
              · cases g
            refine ⟨g1, R1, r :: R2, by simp, by rw [g2, h1], ?_, ?_⟩
            · intro a ha hp; have := h3 a ha hp; omega
            · intro a ha _
              have hr0 : e.chk < r.seq ∨ e.chk = 0 := hle.2
              rcases List.mem_cons.1 ha with rfl | ha
              · rcases hr0 with h | h
                · exact h
                · rw [h]; exact h0 a (by simp)
              · have := hlt a ha
                rcases hr0 with h | h
                · omega
                · omega
        by_cases hcmd : r.isCmd = true
        · have e : markStep c parts p keep cps st r =
              { st with marks := setCheckpoint keep st.tab.recs (some r.seq) st.prev false cps st.marks } := by
            unfold markStep; rw [if_neg hh]; simp only [hcmd, if_true]
          rw [e]
          apply ih (R1 ++ [r]) _ hi h0 _ hm.1 _ _ hnew
          · simp only; rw [h1, hsn, if_neg hh, if_pos hcmd]
          · intro a ha hp
            rcases List.mem_append.1 ha with ha | ha
            · exact h3 a ha hp
            · simp only [List.mem_singleton] at ha; subst ha
              rw [hp.2] at hcmd; cases hcmd
          · rcases h5 with h5 | ⟨a, ha, e⟩
            · exact Or.inl h5
            · exact Or.inr ⟨a, by simp [ha], e⟩
        · have e : markStep c parts p keep cps st r =
              ⟨st.tab.setSingle r false, r.seq, setCheckpoint keep st.tab.recs (some r.seq) st.prev false cps st.marks⟩ := by
            unfold markStep; rw [if_neg hh]; simp only [hcmd]; rfl
          rw [e]
          apply ih (R1 ++ [r]) _ hi h0 _ hm.1 _ _ hnew
          · simp only; rw [h1, hsn, if_neg hh, if_neg hcmd]
          · intro a ha hp
            rcases List.mem_append.1 ha with ha | ha
            · exact Nat.le_of_lt (hgt a ha)
            · simp only [List.mem_singleton] at ha; subst ha; exact Nat.le_refl _
          · exact Or.inr ⟨r, by simp, rfl⟩
  intro st
  obtain ⟨k1, k2, k3, k4⟩ := key R [] ⟨x, 0, m⟩ hR hpos rfl hs (by simp) (Or.inl rfl) (fun e he => Or.inl he)
  simp only [List.nil_append] at k1 k2 k3 k4
  have hm := setCheckpoint_ok (keep := keep) (recs := (R.foldl (markStep c parts p keep cps) ⟨x, 0, m⟩).tab.recs) (next := none)
    (prev := (R.foldl (markStep c parts p keep cps) ⟨x, 0, m⟩).prev) (all := true) cps _ k2
  refine ⟨k1, hm.1, ?_⟩
  intro e he
  rcases hm.2 e he with h | ⟨g1, g2, g3⟩
  · exact k4 e h
  · right
    refine ⟨g1, R, [], by simp, by rw [g2, k1], ?_, by simp⟩
    intro a ha hp
    have := k3 a ha hp
    rcases g3 with g | ⟨g, n, hn, -⟩ | ⟨g, -⟩
    · omega
    · cases hn
    · omega

/-! ### all tables -/

namespace TMgr

/-- What a reader finds below the writable table of partition `p`. -/
def rest (t : TMgr K) (p : Nat) (k : K) : Option (Rec K) := ((t.srcOf p).bind (·.get k)).or (t.lvLook k)

/-- The state with other contents in one level-0 table. -/
def withRecs (t : TMgr K) (n : Nat) (m : SMap K (Rec K)) : TMgr K :=
  { t with l0 := modify t.l0 n (fun y => { y with recs := m }) }

theorem withRecs_inv {c : TCfg K} {t : TMgr K} (h : Inv c t) {x : Tab K} (hx : x ∈ t.l0) {m : SMap K (Rec K)}
    (hm : m.Sorted ∧ ∀ e ∈ m, e.2.key = e.1 ∧ c.hash e.1 % t.parts = x.hashNum) : Inv c (t.withRecs x.number m) := by
  have hmem : ∀ y, y ∈ (t.withRecs x.number m).l0 → y = { x with recs := m } ∨ y ∈ t.l0 := by
    intro y hy
    obtain ⟨z, hz, rfl⟩ := mem_modify.1 hy
    split
    · next e => rw [eq_of_number h.nums hz hx e]; exact Or.inl rfl
    · exact Or.inr hz
  have hback : ∀ y ∈ (t.withRecs x.number m).l0, ∃ z ∈ t.l0, y.number = z.number ∧ y.hashNum = z.hashNum ∧ y.status = z.status ∧
      y = (if z.number = x.number then { z with recs := m } else z) := by
    intro y hy
    obtain ⟨z, hz, e⟩ := mem_modify.1 hy
    refine ⟨z, hz, ?_, ?_, ?_, e⟩ <;> rw [e] <;> split <;> rfl
  refine ⟨h.pos, h.lv, h.lvNum, ?_, ?_, ?_, ?_, ?_, ?_⟩
  · have : (t.withRecs x.number m).l0.map (·.number) = t.l0.map (·.number) := by
      unfold withRecs modify
      rw [List.map_map]
      apply List.map_congr_left
      intro y _
      simp only [Function.comp]
      split <;> rfl
    rw [this]; exact h.nums
  · intro y hy
    rcases hmem y hy with rfl | hy
    · exact h.l0Num x hx
    · exact h.l0Num y hy
  · intro y hy
    rcases hmem y hy with rfl | hy
    · exact h.l0Min x hx
    · exact h.l0Min y hy
  · intro y hy
    rcases hmem y hy with rfl | hy
    · exact hm
    · exact h.l0Recs y hy
  · intro p hp
    obtain ⟨y, h1, h2, h3⟩ := h.normEx p hp
    refine ⟨if y.number = x.number then { y with recs := m } else y, mem_modify.2 ⟨y, h1, rfl⟩, ?_, ?_⟩ <;> split <;> assumption
  · intro y hy z hz hh hs
    obtain ⟨y', h1, h2, h3, h4, h5⟩ := hback y hy
    obtain ⟨z', g1, g2, g3, g4, g5⟩ := hback z hz
    have := h.uniq y' h1 z' g1 (by rw [← h3, ← g3, hh]) (by rw [← h4, ← g4, hs])
    rw [h5, g5, this]

theorem withRecs_get {c : TCfg K} {t : TMgr K} (h : Inv c t) {x : Tab K} (hx : x ∈ t.l0) (hn : x.status = .normal)
    {m : SMap K (Rec K)} (hm : m.Sorted ∧ ∀ e ∈ m, e.2.key = e.1 ∧ c.hash e.1 % t.parts = x.hashNum) {k : K}
    (hk : c.hash k % t.parts = x.hashNum) :
    (t.withRecs x.number m).get c k = (SMap.find? m k).or (t.rest x.hashNum k) := by
  have hi := withRecs_inv h hx hm
  have hp : x.hashNum < t.parts := by rw [← hk]; exact Nat.mod_lt _ h.pos
  rw [get_eq hi]
  show (((((t.withRecs x.number m).normOf (c.hash k % t.parts)).bind (·.get k)).or
    (((t.withRecs x.number m).srcOf (c.hash k % t.parts)).bind (·.get k))).or (t.lvLook k)) = _
  rw [hk]
  have h1 : (t.withRecs x.number m).normOf x.hashNum = some { x with recs := m } := by
    rw [normOf_iff hi]
    exact ⟨mem_modify.2 ⟨x, hx, by rw [if_pos rfl]⟩, rfl, hn⟩
  have h2 : (t.withRecs x.number m).srcOf x.hashNum = t.srcOf x.hashNum := by
    apply Option.ext; intro y
    rw [srcOf_iff hi hp, srcOf_iff h hp]
    constructor
    · rintro ⟨h1, h2, h3⟩
      obtain ⟨z, hz, rfl⟩ := mem_modify.1 h1
      split at h2
      · next e =>
        rw [if_pos e] at h3
        rw [eq_of_number h.nums hz hx e] at h3
        simp only at h3; rw [hn] at h3; cases h3
      · next e => rw [if_neg e] at h3 ⊢; exact ⟨hz, h2, h3⟩
    · rintro ⟨h1, h2, h3⟩
      refine ⟨mem_modify.2 ⟨y, h1, ?_⟩, h2, h3⟩
      rw [if_neg]
      intro e
      rw [eq_of_number h.nums h1 hx e, hn] at h3; cases h3
  rw [h1, h2, Option.or_assoc]; rfl

theorem get_rest {c : TCfg K} {t : TMgr K} (h : Inv c t) {x : Tab K} (hx : x ∈ t.l0) (hn : x.status = .normal) {k : K}
    (hk : c.hash k % t.parts = x.hashNum) : t.get c k = (x.get k).or (t.rest x.hashNum k) := by
  rw [get_eq h, hk, (normOf_iff h _ x).2 ⟨hx, rfl, hn⟩, Option.or_assoc]; rfl

/-- Maintenance of the levels does not look at level 0. -/
theorem compactLevel_l0 (c : TCfg K) (t : TMgr K) (L : List (Tab K)) (i n full refill) :
    ({ t with l0 := L } : TMgr K).compactLevel c i n full refill = { t.compactLevel c i n full refill with l0 := L } := by
  unfold compactLevel
  simp only
  split
  · rfl
  · split <;> rfl
  · split <;> rfl

theorem compactLevelCancel_l0 (c : TCfg K) (t : TMgr K) (L : List (Tab K)) (i n full done) :
    ({ t with l0 := L } : TMgr K).compactLevelCancel c i n full done = { t.compactLevelCancel c i n full done with l0 := L } := by
  unfold compactLevelCancel
  simp only
  split
  · split <;> rfl
  · rfl

theorem splitOp_l0 (t : TMgr K) (L : List (Tab K)) (i n cut) :
    ({ t with l0 := L } : TMgr K).splitOp i n cut = { t.splitOp i n cut with l0 := L } := by
  unfold splitOp
  simp only
  split
  · rfl
  · split <;> rfl

theorem mergeOp_l0 (c : TCfg K) (t : TMgr K) (L : List (Tab K)) (i n) :
    ({ t with l0 := L } : TMgr K).mergeOp c i n = { t.mergeOp c i n with l0 := L } := by
  unfold mergeOp
  simp only
  split
  · rfl
  · split <;> rfl

theorem withRecs_srcOf {c : TCfg K} {t : TMgr K} (h : Inv c t) {x : Tab K} (hx : x ∈ t.l0) (hn : x.status = .normal)
    {m : SMap K (Rec K)} (hm : m.Sorted ∧ ∀ e ∈ m, e.2.key = e.1 ∧ c.hash e.1 % t.parts = x.hashNum) {p : Nat}
    (hp : p < t.parts) : (t.withRecs x.number m).srcOf p = t.srcOf p := by
  have hi := withRecs_inv h hx hm
  apply Option.ext; intro y
  rw [srcOf_iff hi hp, srcOf_iff h hp]
  constructor
  · rintro ⟨h1, h2, h3⟩
    obtain ⟨z, hz, rfl⟩ := mem_modify.1 h1
    split at h2
    · next e =>
      rw [if_pos e] at h3
      rw [eq_of_number h.nums hz hx e] at h3
      simp only at h3; rw [hn] at h3; cases h3
    · next e => rw [if_neg e] at h3 ⊢; exact ⟨hz, h2, h3⟩
  · rintro ⟨h1, h2, h3⟩
    refine ⟨mem_modify.2 ⟨y, h1, ?_⟩, h2, h3⟩
    rw [if_neg]
    intro e
    rw [eq_of_number h.nums h1 hx e, hn] at h3; cases h3

theorem removeTable_modify (l : List (Tab K)) (n v : Nat) (m : SMap K (Rec K)) :
    removeTable (modify l n (fun y => { y with recs := m })) v = modify (removeTable l v) n (fun y => { y with recs := m }) := by
  unfold removeTable modify
  rw [List.filter_map]
  congr 1
  apply List.filter_congr
  intro y _
  simp only [Function.comp]
  split <;> rfl

theorem compactL0End_withRecs {c : TCfg K} {t : TMgr K} (h : Inv c t) {x : Tab K} (hx : x ∈ t.l0) (hn : x.status = .normal)
    {m : SMap K (Rec K)} (hm : m.Sorted ∧ ∀ e ∈ m, e.2.key = e.1 ∧ c.hash e.1 % t.parts = x.hashNum) {p : Nat}
    (hp : p < t.parts) (full) :
    (t.withRecs x.number m).compactL0End c p full = (t.compactL0End c p full).withRecs x.number m := by
  unfold compactL0End
  rw [withRecs_srcOf h hx hn hm hp]
  cases t.srcOf p with
  | none => rfl
  | some v =>
    show (match (if t.lv.isEmpty = true then [[]] else t.lv) with
      | [] => t.withRecs x.number m
      | l :: ls => ({ t.withRecs x.number m with
          nextNum := (mergeInto l t.nextNum v.minKey v.recs (c.purge && ls.isEmpty) full).2
          lv := (mergeInto l t.nextNum v.minKey v.recs (c.purge && ls.isEmpty) full).1 :: ls
          l0 := removeTable (t.withRecs x.number m).l0 v.number } : TMgr K)) = _
    cases hl : (if t.lv.isEmpty = true then [[]] else t.lv) with
    | nil => rfl
    | cons l ls => simp only [withRecs, removeTable_modify]

theorem compactL0Cancel_withRecs {c : TCfg K} {t : TMgr K} (h : Inv c t) {x : Tab K} (hx : x ∈ t.l0) (hn : x.status = .normal)
    {m : SMap K (Rec K)} (hm : m.Sorted ∧ ∀ e ∈ m, e.2.key = e.1 ∧ c.hash e.1 % t.parts = x.hashNum) {p : Nat}
    (hp : p < t.parts) (full done) :
    (t.withRecs x.number m).compactL0Cancel c p full done = (t.compactL0Cancel c p full done).withRecs x.number m := by
  unfold compactL0Cancel
  rw [withRecs_srcOf h hx hn hm hp]
  cases t.srcOf p with
  | none => rfl
  | some v => simp only [withRecs]; split <;> simp_all

/-- The table section after the start of a level-0 compaction. -/
theorem compactL0Begin_shape {c : TCfg K} {t : TMgr K} (h : Inv c t) {p : Nat} (hp : p < t.parts) :
    t.compactL0Begin p = t ∨ ∃ x, x ∈ t.l0 ∧ x.hashNum = p ∧ x.status = .normal ∧
      (∀ y ∈ t.l0, y.hashNum = p → y.status ≠ .compactSrc) ∧
      (t.compactL0Begin p).parts = t.parts ∧ (t.compactL0Begin p).lv = t.lv ∧
      (t.compactL0Begin p).nextNum = t.nextNum + 1 ∧
      ∀ y, y ∈ (t.compactL0Begin p).l0 ↔ y = { number := t.nextNum, hashNum := p, minKey := ⊥ } ∨
        y = { x with status := .compactSrc } ∨ (y ∈ t.l0 ∧ y ≠ x) := by
  unfold compactL0Begin
  simp only
  split
  · exact Or.inl rfl
  · next hany =>
    right
    obtain ⟨x, hx⟩ := normOf_some h hp
    have hx' := (normOf_iff h p x).1 hx
    rw [smallestNormal_part h hp hx]
    simp only
    have hnosrc : ∀ y ∈ t.l0, y.hashNum = p → y.status ≠ .compactSrc := by
      intro y hy hyp hys
      apply hany
      rw [List.any_eq_true]
      refine ⟨y, ?_, by simp [hys]⟩
      rw [tablesByHash_eq t hp, List.mem_filter]
      exact ⟨hy, by simp [hyp]⟩
    refine ⟨x, hx'.1, hx'.2.1, hx'.2.2, hnosrc, trivial, trivial, trivial, ?_⟩
    intro y
    rw [mem_modify]
    have hxn := h.l0Num x hx'.1
    constructor
    · rintro ⟨z, hz, rfl⟩
      rcases List.mem_cons.1 hz with rfl | hz
      · left
        rw [if_neg]; simp only; omega
      · right
        by_cases hzn : z.number = x.number
        · rw [if_pos hzn, eq_of_number h.nums hz hx'.1 hzn]; exact Or.inl rfl
        · rw [if_neg hzn]; exact Or.inr ⟨hz, fun he => hzn (by rw [he])⟩
    · rintro (rfl | rfl | ⟨h1, h2⟩)
      · refine ⟨_, List.mem_cons_self, ?_⟩
        rw [if_neg]; simp only; omega
      · exact ⟨x, List.mem_cons_of_mem _ hx'.1, by rw [if_pos rfl]⟩
      · refine ⟨y, List.mem_cons_of_mem _ h1, ?_⟩
        rw [if_neg]
        intro hn; exact h2 (eq_of_number h.nums h1 hx'.1 hn)

theorem compactL0End_num {c : TCfg K} {t : TMgr K} (h : Inv c t) {p : Nat} (hp : p < t.parts) (full) :
    t.nextNum ≤ (t.compactL0End c p full).nextNum := by
  unfold compactL0End
  split
  · exact Nat.le_refl _
  · next v hv =>
    have hv' := (srcOf_iff h hp v).1 hv
    have hr := h.l0Recs v hv'.1
    simp only
    split
    · exact Nat.le_refl _
    · next l ls hl =>
      have hlk : LevelOk l ∧ ∀ x ∈ l, x.number < t.nextNum := by
        split at hl
        · cases hl; exact ⟨LevelOk.nil, by simp⟩
        · exact ⟨h.lv l (by rw [hl]; simp), h.lvNum l (by rw [hl]; simp)⟩
      exact (mergeInto_ok hlk.1 hlk.2 hr.1 (fun e he => (hr.2 e he).1)
        (fun e _ => by rw [h.l0Min v hv'.1]; exact bot_le) (c.purge && ls.isEmpty) full).2.2.1

theorem compactLevel_num {c : TCfg K} {t : TMgr K} (h : Inv c t) (i n full refill) :
    t.nextNum ≤ (t.compactLevel c i n full refill).nextNum := by
  unfold compactLevel
  split
  · exact Nat.le_refl _
  · split <;> exact Nat.le_refl _
  · next up down b hd =>
    have hlv := drop_split hd
    split
    · exact Nat.le_refl _
    · next v hv =>
      exact (compactPair_ok (c := c) (h.lv up (by rw [hlv]; simp)) (h.lv down (by rw [hlv]; simp))
        (h.lvNum up (by rw [hlv]; simp)) (h.lvNum down (by rw [hlv]; simp)) (find_mem hv).1 b.isEmpty full refill).2.2.1

theorem splitOp_num {c : TCfg K} {t : TMgr K} (h : Inv c t) (i n cut) :
    t.nextNum ≤ (t.splitOp i n cut).nextNum := by
  unfold splitOp
  split
  · exact Nat.le_refl _
  · next l b hd =>
    have hlv := drop_split hd
    split
    · exact Nat.le_refl _
    · next v hv =>
      exact (splitTable_ok (h.lv l (by rw [hlv]; simp)) (h.lvNum l (by rw [hlv]; simp)) (find_mem hv).1 cut).2.2.1

end TMgr

namespace CMgr
open TMgr

/-- What maintenance does to level 0. -/
structure L0Step (c : TCfg K) (t t' : CMgr K) : Prop where
  parts : t'.tab.parts = t.tab.parts
  num : t.tab.nextNum ≤ t'.tab.nextNum
  marks : ∀ n, ∃ j, t'.marks n = (t.marks n).drop j
  l0 : ∀ y ∈ t'.tab.l0, y ∈ t.tab.l0 ∨
    (∃ x ∈ t.tab.l0, x.status = .normal ∧ y = { x with status := .compactSrc } ∧
      ∀ z ∈ t'.tab.l0, z.hashNum = x.hashNum → z.status = .normal → t.tab.nextNum ≤ z.number) ∨
    (t.tab.nextNum ≤ y.number ∧ y.recs = [])
  rest : ∀ x ∈ t.tab.l0, x.status = .normal → x ∈ t'.tab.l0 → ∀ k, c.hash k % t.tab.parts = x.hashNum →
    vis (t'.tab.rest x.hashNum k) = vis (t.tab.rest x.hashNum k)

theorem rest_of_commute {c : TCfg K} {t t' : TMgr K} (h : TMgr.Inv c t) (h' : TMgr.Inv c t') {x : Tab K}
    (hx : x ∈ t.l0) (hn : x.status = .normal) (hx' : x ∈ t'.l0) (hp : t'.parts = t.parts)
    (hs : TMgr.Same c (t.withRecs x.number []) (t'.withRecs x.number [])) {k : K}
    (hk : c.hash k % t.parts = x.hashNum) : vis (t'.rest x.hashNum k) = vis (t.rest x.hashNum k) := by
  have hm : ∀ q : Nat, (SMap.Sorted ([] : SMap K (Rec K))) ∧ ∀ e ∈ ([] : SMap K (Rec K)), e.2.key = e.1 ∧ c.hash e.1 % q = x.hashNum :=
    fun q => ⟨List.Pairwise.nil, by intro e he; cases he⟩
  have h1 := withRecs_get h hx hn (hm _) hk
  have h2 := withRecs_get h' hx' hn (hm _) (by rw [hp]; exact hk)
  have := hs.vis k
  rw [h1, h2] at this
  simpa [SMap.find?] using this

theorem Maint.l0Step {c : TCfg K} {t t' : CMgr K} (hm : Maint c t t') (h : TMgr.Inv c t.tab) : L0Step c t t' := by
  have h' := (hm.same h).inv
  have hnil : ∀ x : Tab K, (SMap.Sorted ([] : SMap K (Rec K))) ∧ ∀ e ∈ ([] : SMap K (Rec K)), e.2.key = e.1 ∧ c.hash e.1 % t.tab.parts = x.hashNum :=
    fun q => ⟨List.Pairwise.nil, by intro e he; cases he⟩
  have hwi : ∀ x ∈ t.tab.l0, TMgr.Inv c (t.tab.withRecs x.number []) := fun x hx => withRecs_inv h hx (hnil x)
  have hlv : ∀ T' : TMgr K, T'.parts = t.tab.parts → t.tab.nextNum ≤ T'.nextNum → T'.l0 = t.tab.l0 → TMgr.Inv c T' →
      (∀ x ∈ t.tab.l0, TMgr.Same c (t.tab.withRecs x.number []) (T'.withRecs x.number [])) →
      L0Step c t ⟨T', t.marks⟩ := by
    intro T' h1 h2 h3 h4 h5
    refine ⟨h1, h2, fun n => ⟨0, rfl⟩, fun y hy => Or.inl (by rw [← h3]; exact hy), ?_⟩
    intro x hx hn hx' k hk
    exact rest_of_commute h h4 hx hn hx' h1 (h5 x hx) hk
  cases hm with
  | l0Begin p hp =>
    rcases compactL0Begin_shape h hp with e | ⟨x, h1, h2, h3, h4, h5, h6, h7, h8⟩
    · simp only at h'
      rw [e] at h' ⊢
      exact hlv _ rfl (Nat.le_refl _) rfl h (fun x hx => TMgr.Same.refl (hwi x hx))
    · refine ⟨h5, by simp only; omega, fun n => ⟨0, rfl⟩, ?_, ?_⟩
      · intro y hy
        rcases (h8 y).1 hy with rfl | rfl | ⟨hy, -⟩
        · exact Or.inr (Or.inr ⟨Nat.le_refl _, rfl⟩)
        · refine Or.inr (Or.inl ⟨x, h1, h3, rfl, ?_⟩)
          intro z hz hzh hzn
          rcases (h8 z).1 hz with rfl | rfl | ⟨hz, hzx⟩
          · exact Nat.le_refl _
          · cases hzn
          · exact absurd (h.uniq z hz x h1 hzh (by rw [hzn, h3])) hzx
        · exact Or.inl hy
      · intro y hy hyn hy' k hk
        have hyx : y ≠ x := by
          rintro rfl
          rcases (h8 y).1 hy' with e | e | ⟨-, e⟩
          · have := h.l0Num y hy; rw [e] at this; simp at this
          · rw [e] at hyn; cases hyn
          · exact e rfl
        have hq : y.hashNum ≠ p := by
          intro e
          exact hyx (h.uniq y hy x h1 (by rw [e, h2]) (by rw [hyn, h3]))
        have hqp : y.hashNum < t.tab.parts := by rw [← hk]; exact Nat.mod_lt _ h.pos
        have : (t.tab.compactL0Begin p).srcOf y.hashNum = t.tab.srcOf y.hashNum := by
          apply Option.ext; intro z
          rw [srcOf_iff h' (by simp only; rw [h5]; exact hqp), srcOf_iff h hqp]
          simp only
          rw [h8]
          constructor
          · rintro ⟨rfl | rfl | ⟨g1, g2⟩, g3, g4⟩
            · cases g4
            · exact absurd (g3.symm.trans h2) hq
            · exact ⟨g1, g3, g4⟩
          · rintro ⟨g1, g3, g4⟩
            refine ⟨Or.inr (Or.inr ⟨g1, ?_⟩), g3, g4⟩
            rintro rfl; rw [h3] at g4; cases g4
        show vis ((((t.tab.compactL0Begin p).srcOf y.hashNum).bind _).or ((t.tab.compactL0Begin p).lvLook k)) = _
        rw [this]
        unfold TMgr.rest lvLook
        rw [h6]
  | l0End p full hp =>
    have hpr : (t.tab.compactL0End c p full).parts = t.tab.parts := by
      unfold compactL0End; split
      · rfl
      · simp only; split <;> rfl
    refine ⟨hpr, compactL0End_num h hp full, fun n => ⟨0, rfl⟩, ?_, ?_⟩
    · intro y hy
      left
      simp only at hy
      unfold compactL0End at hy
      split at hy
      · exact hy
      · simp only at hy
        split at hy
        · exact hy
        · exact (List.mem_filter.1 hy).1
    · intro x hx hn hx' k hk
      apply rest_of_commute h h' hx hn hx' hpr _ hk
      simp only
      rw [← compactL0End_withRecs h hx hn (hnil x) hp]
      exact compactL0End_same (hwi x hx) hp full
  | l0Cancel p full done hp =>
    have hpr : (t.tab.compactL0Cancel c p full done).parts = t.tab.parts ∧
        (t.tab.compactL0Cancel c p full done).l0 = t.tab.l0 ∧ (t.tab.compactL0Cancel c p full done).nextNum = t.tab.nextNum := by
      unfold compactL0Cancel; split <;> exact ⟨rfl, rfl, rfl⟩
    refine ⟨hpr.1, Nat.le_of_eq hpr.2.2.symm, fun n => ⟨0, rfl⟩, fun y hy => Or.inl (by simp only at hy; rw [hpr.2.1] at hy; exact hy), ?_⟩
    intro x hx hn hx' k hk
    apply rest_of_commute h h' hx hn hx' hpr.1 _ hk
    simp only
    rw [← compactL0Cancel_withRecs h hx hn (hnil x) hp]
    exact compactL0Cancel_same (hwi x hx) hp full done
  | level i n full refill =>
    have e := compactLevel_l0 c t.tab t.tab.l0 i n full refill
    have e0 : (t.tab.compactLevel c i n full refill).l0 = t.tab.l0 := by have := congrArg TMgr.l0 e; exact this
    refine hlv _ ?_ ?_ ?_ h' ?_
    · unfold compactLevel; split
      · rfl
      · split <;> rfl
      · split <;> rfl
    · exact compactLevel_num h i n full refill
    · exact e0
    · intro x hx
      have e2 := compactLevel_l0 c t.tab (modify t.tab.l0 x.number (fun y => { y with recs := [] })) i n full refill
      have e3 : (t.tab.compactLevel c i n full refill).withRecs x.number [] =
          (t.tab.withRecs x.number []).compactLevel c i n full refill := by
        unfold withRecs; rw [e2]
        rw [show (t.tab.compactLevel c i n full refill).l0 = t.tab.l0 from e0]
      rw [e3]
      exact compactLevel_same (hwi x hx) _ _ _ _
  | levelCancel i n full done =>
    have e := compactLevelCancel_l0 c t.tab t.tab.l0 i n full done
    have e0 : (t.tab.compactLevelCancel c i n full done).l0 = t.tab.l0 := by have := congrArg TMgr.l0 e; exact this
    refine hlv _ ?_ ?_ ?_ h' ?_
    · unfold compactLevelCancel; split
      · split <;> rfl
      · rfl
    · unfold compactLevelCancel; split
      · split <;> exact Nat.le_refl _
      · exact Nat.le_refl _
    · exact e0
    · intro x hx
      have e2 := compactLevelCancel_l0 c t.tab (modify t.tab.l0 x.number (fun y => { y with recs := [] })) i n full done
      have e3 : (t.tab.compactLevelCancel c i n full done).withRecs x.number [] =
          (t.tab.withRecs x.number []).compactLevelCancel c i n full done := by
        unfold withRecs; rw [e2]
        rw [show (t.tab.compactLevelCancel c i n full done).l0 = t.tab.l0 from e0]
      rw [e3]
      exact compactLevelCancel_same (hwi x hx) _ _ _ _
  | split i n cut =>
    have e := splitOp_l0 t.tab t.tab.l0 i n cut
    have e0 : (t.tab.splitOp i n cut).l0 = t.tab.l0 := by have := congrArg TMgr.l0 e; exact this
    refine hlv _ ?_ ?_ ?_ h' ?_
    · unfold splitOp; split
      · rfl
      · split <;> rfl
    · exact splitOp_num h i n cut
    · exact e0
    · intro x hx
      have e2 := splitOp_l0 t.tab (modify t.tab.l0 x.number (fun y => { y with recs := [] })) i n cut
      have e3 : (t.tab.splitOp i n cut).withRecs x.number [] =
          (t.tab.withRecs x.number []).splitOp i n cut := by
        unfold withRecs; rw [e2]
        rw [show (t.tab.splitOp i n cut).l0 = t.tab.l0 from e0]
      rw [e3]
      exact splitOp_same (hwi x hx) _ _ _
  | merge i n =>
    have e := mergeOp_l0 c t.tab t.tab.l0 i n
    have e0 : (t.tab.mergeOp c i n).l0 = t.tab.l0 := by have := congrArg TMgr.l0 e; exact this
    refine hlv _ ?_ ?_ ?_ h' ?_
    · unfold mergeOp; split
      · rfl
      · split <;> rfl
    · unfold mergeOp; split
      · exact Nat.le_refl _
      · split <;> exact Nat.le_refl _
    · exact e0
    · intro x hx
      have e2 := mergeOp_l0 c t.tab (modify t.tab.l0 x.number (fun y => { y with recs := [] })) i n
      have e3 : (t.tab.mergeOp c i n).withRecs x.number [] =
          (t.tab.withRecs x.number []).mergeOp c i n := by
        unfold withRecs; rw [e2]
        rw [show (t.tab.mergeOp c i n).l0 = t.tab.l0 from e0]
      rw [e3]
      exact mergeOp_same (hwi x hx) _ _
  | forget n j =>
    refine ⟨rfl, Nat.le_refl _, ?_, fun y hy => Or.inl hy, fun _ _ _ _ _ _ => rfl⟩
    intro i
    by_cases hi : i = n
    · subst hi; exact ⟨j, if_pos rfl⟩
    · exact ⟨0, if_neg hi⟩

end CMgr

end Jungle
