/-
  What a snapshot of the table section reads.
-/
import Verif.Table.MarkInv

set_option linter.unusedSectionVars false

namespace Jungle
open Spec
variable {K : Type} [LinearOrder K] [OrderBot K]

namespace CMgr
open TMgr

theorem tablesPoint_mem {l : List (Tab K)} (h : LevelOk l) {k : K} {x : Tab K} (hx : x ∈ tablesPoint l k) : x ∈ l := by
  have key : ∀ (l : List (Tab K)) (pv : Option (Tab K)) {y z}, TMgr.floor pv l k = some (y, z) → y ∈ l := by
    intro l
    induction l with
    | nil => intro pv y z h; simp [TMgr.floor] at h
    | cons a l ih =>
      intro pv y z h
      unfold TMgr.floor at h
      split at h
      · cases h2 : TMgr.floor (some a) l k with
        | none => rw [h2] at h; simp at h; rw [h.1]; simp
        | some w =>
          rw [h2] at h
          simp at h
          subst h
          exact List.mem_cons_of_mem _ (ih _ h2)
      · cases h
  unfold tablesPoint at hx
  cases hf : TMgr.floor none l k with
  | none => rw [hf] at hx; cases hx
  | some w =>
    rw [hf] at hx
    obtain ⟨y, z⟩ := w
    have hy := key l none hf
    simp only [(h.tab y hy).2.2] at hx
    simp at hx
    rw [hx]; exact hy

theorem snapRead_level {l : List (Tab K)} (h : (l.map (·.number)).Nodup) {x : Tab K} (hx : x ∈ l) (k : K) :
    snapRead (l.map (fun x => (x.number, x.recs))) x k = .ok (x.get k) := by
  unfold snapRead
  have : (l.map (fun x => (x.number, x.recs))).find? (fun e => decide (e.1 = x.number)) = some (x.number, x.recs) := by
    induction l with
    | nil => cases hx
    | cons y l ih =>
      have h' := List.nodup_cons.1 (by rw [List.map_cons] at h; exact h)
      simp only [List.map_cons, List.find?_cons]
      rcases List.mem_cons.1 hx with h1 | h1
      · subst h1; simp
      · have : y.number ≠ x.number := by
          intro e
          exact h'.1 (by rw [e]; exact List.mem_map.2 ⟨x, h1, rfl⟩)
        simp only [this, decide_false]
        exact ih h'.2 h1
  rw [this]; rfl

theorem snapScan_eq {hs : List (Nat × SMap K (Rec K))} {k : K} (ts : List (Tab K)) (latest : Option (Rec K))
    (h : ∀ x ∈ ts, snapRead hs x k = .ok (x.get k)) {o : Option (Rec K)} (ho : scan k ts latest = some o) :
    snapScan hs k ts latest = .ok o := by
  induction ts generalizing latest with
  | nil => simp only [scan] at ho; cases ho; rfl
  | cons x ts ih =>
    have ih := fun l => ih l (fun y hy => h y (List.mem_cons_of_mem _ hy))
    simp only [snapScan, h x List.mem_cons_self]
    simp only [scan] at ho
    cases hg : x.get k with
    | none => rw [hg] at ho; exact ih _ ho
    | some r =>
      rw [hg] at ho
      cases latest with
      | none => simp only [Option.all_none, if_true]; exact ih _ ho
      | some l =>
        simp only [Option.all_some, decide_eq_true_eq] at ho ⊢
        split at ho
        · next hc => rw [if_pos hc]; exact ih _ ho
        · cases ho

theorem snapLevels_eq {lv : List (List (Tab K))} (h : ∀ l ∈ lv, LevelOk l) (k : K) :
    snapLevels k (lv.map (fun l => l.map (fun x => (x.number, x.recs)))) lv = .ok (lv.findSome? (fun l => look l k)) := by
  induction lv with
  | nil => rfl
  | cons l ls ih =>
    have ih := ih (fun m hm => h m (List.mem_cons_of_mem _ hm))
    have hl := h l List.mem_cons_self
    simp only [snapLevels, List.map_cons, List.headD_cons, List.tail_cons]
    rw [snapScan_eq (o := look l k) _ _ (fun x hx => snapRead_level hl.nums (tablesPoint_mem hl hx) k) (scan_point hl k),
      List.findSome?_cons]
    cases look l k with
    | some r => rfl
    | none => exact ih

/-- Then the next table of the search order. -/
def orElseE (a : Except Status (Option (Rec K))) (b : Except Status (Option (Rec K))) : Except Status (Option (Rec K)) :=
  match a with
  | .error s => .error s
  | .ok (some r) => .ok (some r)
  | .ok none => b

theorem snapGet_eq {c : TCfg K} {t : CMgr K} (h : TMgr.Inv c t.tab) {sn : TSnap K} {k : K} {x : Tab K}
    (hx : t.tab.normOf (c.hash k % t.tab.parts) = some x)
    (hlv : sn.lv = t.tab.lv.map (fun l => l.map (fun x => (x.number, x.recs)))) :
    t.snapGet c sn k = orElseE (snapRead sn.l0 x k)
      (orElseE (match t.tab.srcOf (c.hash k % t.tab.parts) with | none => .ok none | some y => snapRead sn.l0 y k)
        (.ok (t.tab.lvLook k))) := by
  have hp : c.hash k % t.tab.parts < t.tab.parts := Nat.mod_lt _ h.pos
  unfold snapGet
  generalize c.hash k % t.tab.parts = p at *
  have hx' := (normOf_iff h p x).1 hx
  simp only []
  rw [smallestNormal_part h hp hx, hlv, snapLevels_eq h.lv]
  simp only [Option.map_some]
  unfold orElseE
  cases snapRead sn.l0 x k with
  | error s => rfl
  | ok o =>
    cases o with
    | some r => rfl
    | none =>
      simp only []
      have hoth : ∀ y ∈ (t.tab.tablesByHash p).filter (fun y => decide (some y.number ≠ some x.number)),
          y ∈ t.tab.l0 ∧ y.hashNum = p ∧ y.status = .compactSrc := by
        intro y hy
        rw [tablesByHash_eq _ hp] at hy
        have h1 := List.mem_filter.1 hy
        have h2 := List.mem_filter.1 h1.1
        simp only [decide_eq_true_eq] at h1 h2
        refine ⟨h2.1, h2.2, ?_⟩
        rcases status_cases y.status with hs | hs
        · exact absurd (congrArg some (congrArg Tab.number (h.uniq y h2.1 x hx'.1 (by rw [h2.2, hx'.2.1]) (by rw [hs, hx'.2.2])))) h1.2
        · exact hs
      have hnd : ((t.tab.tablesByHash p).filter (fun y => decide (some y.number ≠ some x.number))).Nodup := by
        have h0 : t.tab.l0.Nodup := List.Nodup.of_map _ h.nums
        rw [tablesByHash_eq _ hp]
        exact (h0.filter _).filter _
      rcases list_single hnd (fun a ha b hb => h.uniq a (hoth a ha).1 b (hoth b hb).1
        (by rw [(hoth a ha).2.1, (hoth b hb).2.1]) (by rw [(hoth a ha).2.2, (hoth b hb).2.2])) with he | ⟨y, he⟩
      · rw [he]
        have : t.tab.srcOf p = none := by
          cases hs : t.tab.srcOf p with
          | none => rfl
          | some y =>
            exfalso
            have hy := (srcOf_iff h hp y).1 hs
            have : y ∈ (t.tab.tablesByHash p).filter (fun y => decide (some y.number ≠ some x.number)) := by
              rw [tablesByHash_eq _ hp, List.mem_filter, List.mem_filter]
              refine ⟨⟨hy.1, by simp [hy.2.1]⟩, ?_⟩
              simp only [decide_eq_true_eq]
              intro hn
              have := eq_of_number h.nums hy.1 hx'.1 (Option.some.inj hn)
              rw [this, hx'.2.2] at hy
              simp at hy
            rw [he] at this; cases this
        rw [this]; rfl
      · rw [he]
        have hy := hoth y (by rw [he]; simp)
        rw [(srcOf_iff h hp y).2 hy]
        simp only [snapScan]
        cases snapRead sn.l0 y k with
        | error s => rfl
        | ok o => cases o <;> simp [lvLook]

/-- The handle of a table of level 0. -/
theorem snapRead_open {c : TCfg K} {t : CMgr K} (h : TMgr.Inv c t.tab) {x : Tab K} (hx : x ∈ t.tab.l0) (chk : Nat) (k : K) :
    snapRead (t.openSnapshot chk).l0 x k = match openTable x.recs (t.marks x.number) chk with
      | none => .error .snapshotNotFound
      | some m => .ok (m.find? k) := by
  unfold snapRead openSnapshot
  simp only []
  have key : ∀ l : List (Tab K), (l.map (·.number)).Nodup → x ∈ l →
      (l.filterMap (fun x => (openTable x.recs (t.marks x.number) chk).map (fun m => (x.number, m)))).find?
        (fun e => decide (e.1 = x.number)) = (openTable x.recs (t.marks x.number) chk).map (fun m => (x.number, m)) := by
    intro l
    induction l with
    | nil => intro _ h; cases h
    | cons y l ih =>
      intro hnd hm
      have h' := List.nodup_cons.1 (by rw [List.map_cons] at hnd; exact hnd)
      rw [List.filterMap_cons]
      rcases List.mem_cons.1 hm with h1 | h1
      · subst h1
        cases ho : openTable x.recs (t.marks x.number) chk with
        | some m => simp
        | none =>
          simp only [Option.map_none]
          rw [List.find?_eq_none]
          rintro ⟨n, m⟩ he
          obtain ⟨z, hz, hz'⟩ := List.mem_filterMap.1 he
          simp only [decide_eq_true_eq]
          intro hn
          cases hzo : openTable z.recs (t.marks z.number) chk with
          | none => rw [hzo] at hz'; cases hz'
          | some w =>
            rw [hzo] at hz'
            simp at hz'
            exact h'.1 (by rw [← hn, ← hz'.1]; exact List.mem_map.2 ⟨z, hz, rfl⟩)
      · have hne : y.number ≠ x.number := by
          intro e
          exact h'.1 (by rw [e]; exact List.mem_map.2 ⟨x, h1, rfl⟩)
        cases ho : openTable y.recs (t.marks y.number) chk with
        | none => simp only [Option.map_none]; exact ih h'.2 h1
        | some m =>
          simp only [Option.map_some, List.find?_cons, hne, decide_false]
          exact ih h'.2 h1
  rw [key _ h.nums hx]
  cases openTable x.recs (t.marks x.number) chk <;> rfl

theorem Mark.seq_le {e : Mark K} {n : Nat} (h : ∀ a ∈ e.recs, a.2.seq ≤ n) : e.seq ≤ n := by
  unfold Mark.seq
  have : ∀ (l : List (K × Rec K)) (m : Nat), m ≤ n → (∀ a ∈ l, a.2.seq ≤ n) → l.foldl (fun m x => max m x.2.seq) m ≤ n := by
    intro l
    induction l with
    | nil => intro m hm _; exact hm
    | cons a l ih =>
      intro m hm h
      exact ih _ (Nat.max_le.2 ⟨hm, h a List.mem_cons_self⟩) (fun b hb => h b (List.mem_cons_of_mem _ hb))
  exact this _ 0 (Nat.zero_le _) h

/-- The entry is empty exactly when its commit has number 0. -/
theorem Mark.seq_pos {e : Mark K} (h : ∀ a ∈ e.recs, 0 < a.2.seq) : e.seq = 0 ↔ e.recs = [] := by
  unfold Mark.seq
  have : ∀ (l : List (K × Rec K)) (m : Nat), m ≤ l.foldl (fun m x => max m x.2.seq) m := by
    intro l
    induction l with
    | nil => intro m; exact Nat.le_refl _
    | cons a l ih => intro m; exact Nat.le_trans (Nat.le_max_left _ _) (ih _)
  constructor
  · intro hz
    cases he : e.recs with
    | nil => rfl
    | cons a l =>
      rw [he] at hz h
      have h1 := this l (max 0 a.2.seq)
      rw [List.foldl_cons] at hz
      have := h a List.mem_cons_self
      omega
  · intro hz; rw [hz]; rfl

theorem openTable_cur {cur : SMap K (Rec K)} {m : List (Mark K)} {chk : Nat} (h : ∀ e ∈ m, e.chk < chk)
    (hs : ∀ e ∈ m, e.seq ≤ e.chk) : openTable cur m chk = some cur := by
  unfold openTable
  have : m.find? (fun e => decide (e.chk = chk)) = none := by
    rw [List.find?_eq_none]
    intro e he
    have := h e he
    simp; omega
  rw [this]
  simp only []
  cases hl : m.getLast? with
  | none => rfl
  | some e =>
    have := List.mem_of_getLast? hl
    have h1 := h e this
    have h2 := hs e this
    simp only []
    rw [if_pos (by omega)]

theorem openTable_entry {cur : SMap K (Rec K)} {m : List (Mark K)} {e : Mark K}
    (hs : m.Pairwise (fun a b => a.chk < b.chk)) (he : e ∈ m) :
    openTable cur m e.chk = if e.seq = 0 then none else some e.recs := by
  unfold openTable
  have : m.find? (fun e' => decide (e'.chk = e.chk)) = some e := by
    induction m with
    | nil => cases he
    | cons a m ih =>
      have h' := List.pairwise_cons.1 hs
      rw [List.find?_cons]
      rcases List.mem_cons.1 he with h1 | h1
      · subst h1; simp
      · have := h'.1 e h1
        have : a.chk ≠ e.chk := by omega
        simp only [this, decide_false]
        exact ih h'.2 h1
  rw [this]

theorem MInv.seq_le {c : TCfg K} {t : CMgr K} {A} (h : MInv c t A) {x : Tab K} (hx : x ∈ t.tab.l0) :
    ∀ e ∈ t.marks x.number, e.seq ≤ e.chk := fun e he => Mark.seq_le (h.entry x hx e he).le

theorem openSnapshot_lv (t : CMgr K) (chk : Nat) :
    (t.openSnapshot chk).lv = t.tab.lv.map (fun l => l.map (fun x => (x.number, x.recs))) := rfl

/-- A checkpoint newer than every entry of every table: the snapshot shows the tables as they are. -/
theorem MInv.snap_new {c : TCfg K} {t : CMgr K} {A} (h : MInv c t A) {chk : Nat} (hn : ∀ r ∈ A, r.seq < chk) (k : K) :
    t.snapGet c (t.openSnapshot chk) k = .ok (t.tab.get c k) := by
  have hp : c.hash k % t.tab.parts < t.tab.parts := Nat.mod_lt _ h.inv.pos
  obtain ⟨x, hx⟩ := normOf_some h.inv hp
  have hx' := (normOf_iff h.inv _ x).1 hx
  have hcur : ∀ y ∈ t.tab.l0, snapRead (t.openSnapshot chk).l0 y k = .ok (y.get k) := by
    intro y hy
    rw [snapRead_open h.inv hy, openTable_cur _ (h.seq_le hy)]
    · rfl
    · intro e he
      obtain ⟨r, hr, hre⟩ := (h.entry y hy e he).chk
      rw [← hre]; exact hn r hr
  rw [snapGet_eq h.inv hx (openSnapshot_lv _ _), get_rest h.inv hx'.1 hx'.2.2 hx'.2.1.symm, hcur x hx'.1]
  unfold TMgr.rest
  rw [hx'.2.1]
  unfold orElseE
  cases x.get k with
  | some r => rfl
  | none =>
    cases hs : t.tab.srcOf (c.hash k % t.tab.parts) with
    | none => simp
    | some y =>
      have hy := (srcOf_iff h.inv hp y).1 hs
      simp only [hcur y hy.1, Option.bind_some]
      cases y.get k <;> simp

/-- The newest state: either what the tables hold, or the error of a table whose entry is empty. -/
theorem MInv.snap_top {c : TCfg K} {t : CMgr K} {A} (h : MInv c t A) {chk : Nat} (hn : ∀ r ∈ A, r.seq ≤ chk) (k : K) :
    t.snapGet c (t.openSnapshot chk) k = .ok (t.tab.get c k) ∨
      (t.snapGet c (t.openSnapshot chk) k = .error .snapshotNotFound ∧
        ∃ x ∈ t.tab.l0, ∃ e ∈ t.marks x.number, e.chk = chk ∧ e.seq = 0) := by
  have hp : c.hash k % t.tab.parts < t.tab.parts := Nat.mod_lt _ h.inv.pos
  obtain ⟨x, hx⟩ := normOf_some h.inv hp
  have hx' := (normOf_iff h.inv _ x).1 hx
  have hcur : ∀ y ∈ t.tab.l0, snapRead (t.openSnapshot chk).l0 y k = .ok (y.get k) ∨
      (snapRead (t.openSnapshot chk).l0 y k = .error .snapshotNotFound ∧ ∃ e ∈ t.marks y.number, e.chk = chk ∧ e.seq = 0) := by
    intro y hy
    rw [snapRead_open h.inv hy]
    by_cases hc : ∃ e ∈ t.marks y.number, e.chk = chk
    · obtain ⟨e, he, hec⟩ := hc
      rw [← hec, openTable_entry (h.sorted y hy) he]
      by_cases hz : e.seq = 0
      · right; rw [if_pos hz]; exact ⟨rfl, e, he, rfl, hz⟩
      · left
        rw [if_neg hz]
        simp only [Tab.get]
        rcases (h.entry y hy e he).cur k with h1 | ⟨r, h1, h2⟩
        · rw [h1]
        · have h3 := h.recs y hy _ (SMap.find?_some_mem h1)
          have := hn _ h3
          simp only [] at this
          omega
    · left
      rw [openTable_cur _ (h.seq_le hy)]
      · rfl
      · intro e he
        obtain ⟨r, hr, hre⟩ := (h.entry y hy e he).chk
        have := hn r hr
        have h2 : e.chk ≠ chk := fun h' => hc ⟨e, he, h'⟩
        omega
  rw [snapGet_eq h.inv hx (openSnapshot_lv _ _), get_rest h.inv hx'.1 hx'.2.2 hx'.2.1.symm]
  unfold TMgr.rest
  rw [hx'.2.1]
  rcases hcur x hx'.1 with h1 | ⟨h1, e, h2, h3⟩
  · rw [h1]
    unfold orElseE
    cases x.get k with
    | some r => left; rfl
    | none =>
      cases hs : t.tab.srcOf (c.hash k % t.tab.parts) with
      | none => left; simp
      | some y =>
        have hy := (srcOf_iff h.inv hp y).1 hs
        simp only [Option.bind_some]
        rcases hcur y hy.1 with g1 | ⟨g1, e, g2, g3⟩
        · left; rw [g1]; cases y.get k <;> simp
        · right; rw [g1]; exact ⟨rfl, y, hy.1, e, g2, g3⟩
  · right; rw [h1]; exact ⟨rfl, x, hx'.1, e, h2, h3⟩

/-- A flushed checkpoint: the table of the key's partition has a non-empty entry for it. -/
theorem MInv.snap_old {c : TCfg K} {t : CMgr K} {A} (h : MInv c t A) {k : K} {x : Tab K} {e : Mark K}
    (hx : x ∈ t.tab.l0) (hxn : x.status = .normal) (hk : c.hash k % t.tab.parts = x.hashNum)
    (he : e ∈ t.marks x.number) (hz : e.seq ≠ 0) :
    ∃ o, t.snapGet c (t.openSnapshot e.chk) k = .ok o ∧
      vis o = valueOf (A.filter (fun r => decide (r.seq ≤ e.chk))) k := by
  have hp : c.hash k % t.tab.parts < t.tab.parts := Nat.mod_lt _ h.inv.pos
  have hxn' := (normOf_iff h.inv _ x).2 ⟨hx, hk.symm, hxn⟩
  refine ⟨(e.recs.find? k).or (t.tab.rest x.hashNum k), ?_, h.read x hx hxn e he k hk⟩
  rw [snapGet_eq h.inv hxn' (openSnapshot_lv _ _), snapRead_open h.inv hx, openTable_entry (h.sorted x hx) he, if_neg hz]
  unfold TMgr.rest
  rw [← hk]
  simp only []
  unfold orElseE
  cases e.recs.find? k with
  | some r => rfl
  | none =>
    cases hs : t.tab.srcOf (c.hash k % t.tab.parts) with
    | none => simp
    | some y =>
      have hy := (srcOf_iff h.inv hp y).1 hs
      have hsrc := h.src x hx y hy.1 (by rw [← hk, hy.2.1]) hxn hy.2.2 e he
      simp only [Option.bind_some]
      rw [snapRead_open h.inv hy.1, openTable_cur hsrc.2 (h.seq_le hy.1)]
      simp only [Tab.get]
      cases y.recs.find? k <;> simp

/-- Later flushes do not change what a snapshot reads. -/
theorem Batched.snapGet {c : TCfg K} {keep : Nat} {R : List (Rec K)} {cps ps : List Nat} {t t' : CMgr K}
    (b : Batched c keep R cps ps t t') (h : TMgr.Inv c t.tab) {sn : TSnap K}
    (hlv : sn.lv = t.tab.lv.map (fun l => l.map (fun x => (x.number, x.recs)))) (k : K) :
    t'.snapGet c sn k = t.snapGet c sn k := by
  have hp : c.hash k % t.tab.parts < t.tab.parts := Nat.mod_lt _ h.pos
  obtain ⟨x, hx⟩ := normOf_some h hp
  have hx' := (normOf_iff h _ x).1 hx
  have f := after_fields c t.tab.parts R ps x
  have hx2 : t'.tab.normOf (c.hash k % t'.tab.parts) = some (after c t.tab.parts R ps x) := by
    rw [normOf_iff b.inv, b.parts, b.l0]
    exact ⟨List.mem_map.2 ⟨x, hx'.1, rfl⟩, by rw [f.2.1]; exact hx'.2.1, by rw [f.2.2]; exact hx'.2.2⟩
  have hsrc : t'.tab.srcOf (c.hash k % t'.tab.parts) = t.tab.srcOf (c.hash k % t.tab.parts) := by
    rw [b.parts]
    exact b.srcOf h hp
  rw [snapGet_eq h hx hlv, snapGet_eq b.inv hx2 (by rw [b.lv]; exact hlv), hsrc]
  unfold lvLook
  rw [b.lv]
  have : snapRead sn.l0 (after c t.tab.parts R ps x) k = snapRead sn.l0 x k := by unfold snapRead; rw [f.1]
  rw [this]

end CMgr
end Jungle
