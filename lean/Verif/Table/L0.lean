/-
  Level 0 of the table section: invariant and point lookup.
-/
import Verif.Table.Ops

set_option linter.unusedSectionVars false

namespace Jungle
namespace TMgr
variable {K : Type} [LinearOrder K] [OrderBot K]

/-- States of the table section that occur. -/
structure Inv (c : TCfg K) (t : TMgr K) : Prop where
  pos : 0 < t.parts
  lv : ∀ l ∈ t.lv, LevelOk l
  lvNum : ∀ l ∈ t.lv, ∀ x ∈ l, x.number < t.nextNum
  nums : (t.l0.map (·.number)).Nodup
  l0Num : ∀ x ∈ t.l0, x.number < t.nextNum
  l0Min : ∀ x ∈ t.l0, x.minKey = ⊥
  l0Recs : ∀ x ∈ t.l0, x.recs.Sorted ∧ ∀ e ∈ x.recs, e.2.key = e.1 ∧ c.hash e.1 % t.parts = x.hashNum
  normEx : ∀ p, p < t.parts → ∃ x ∈ t.l0, x.hashNum = p ∧ x.status = .normal
  uniq : ∀ x ∈ t.l0, ∀ y ∈ t.l0, x.hashNum = y.hashNum → x.status = y.status → x = y

/-- The table of partition `p` that takes new records. -/
def normOf (t : TMgr K) (p : Nat) : Option (Tab K) :=
  t.l0.find? (fun x => decide (x.hashNum = p ∧ x.status = .normal))

/-- What levels 1, 2, … hold for a key. -/
def lvLook (t : TMgr K) (k : K) : Option (Rec K) := t.lv.findSome? (fun l => look l k)

theorem tablesByHash_eq (t : TMgr K) {p : Nat} (hp : p < t.parts) :
    t.tablesByHash p = t.l0.filter (fun x => decide (x.hashNum = p)) := by
  unfold tablesByHash
  apply List.filter_congr
  intro x _
  have : ¬ p ≥ t.parts := by omega
  simp [this]

theorem status_cases (s : TStatus) : s = .normal ∨ s = .compactSrc := by cases s <;> simp

theorem normOf_iff {c : TCfg K} {t : TMgr K} (h : Inv c t) (p : Nat) (x : Tab K) :
    t.normOf p = some x ↔ x ∈ t.l0 ∧ x.hashNum = p ∧ x.status = .normal := by
  unfold normOf
  constructor
  · intro hf
    have h1 := List.mem_of_find?_eq_some hf
    have h2 := List.find?_some hf
    simp only [decide_eq_true_eq] at h2
    exact ⟨h1, h2⟩
  · rintro ⟨h1, h2, h3⟩
    cases hf : t.l0.find? (fun x => decide (x.hashNum = p ∧ x.status = .normal)) with
    | none => have := List.find?_eq_none.1 hf x h1; simp [h2, h3] at this
    | some y =>
      have h4 := List.mem_of_find?_eq_some hf
      have h5 := List.find?_some hf
      simp only [decide_eq_true_eq] at h5
      rw [h.uniq y h4 x h1 (by rw [h5.1, h2]) (by rw [h5.2, h3])]

theorem srcOf_iff {c : TCfg K} {t : TMgr K} (h : Inv c t) {p : Nat} (hp : p < t.parts) (x : Tab K) :
    t.srcOf p = some x ↔ x ∈ t.l0 ∧ x.hashNum = p ∧ x.status = .compactSrc := by
  unfold srcOf
  rw [tablesByHash_eq t hp]
  constructor
  · intro hf
    have h1 := List.mem_of_find?_eq_some hf
    have h2 := List.find?_some hf
    simp only [decide_eq_true_eq] at h2
    have h3 := List.mem_filter.1 h1
    simp only [decide_eq_true_eq] at h3
    exact ⟨h3.1, h3.2, h2⟩
  · rintro ⟨h1, h2, h3⟩
    have hm : x ∈ t.l0.filter (fun x => decide (x.hashNum = p)) := by
      rw [List.mem_filter]; exact ⟨h1, by simp [h2]⟩
    cases hf : (t.l0.filter (fun x => decide (x.hashNum = p))).find?
        (fun x => decide (x.status = .compactSrc)) with
    | none => have := List.find?_eq_none.1 hf x hm; simp [h3] at this
    | some y =>
      have h4 := List.mem_filter.1 (List.mem_of_find?_eq_some hf)
      have h5 := List.find?_some hf
      simp only [decide_eq_true_eq] at h4 h5
      rw [h.uniq y h4.1 x h1 (by rw [h4.2, h2]) (by rw [h5, h3])]

theorem normOf_some {c : TCfg K} {t : TMgr K} (h : Inv c t) {p : Nat} (hp : p < t.parts) :
    ∃ x, t.normOf p = some x := by
  obtain ⟨x, h1, h2, h3⟩ := h.normEx p hp
  exact ⟨x, (normOf_iff h p x).2 ⟨h1, h2, h3⟩⟩

theorem smallestNormal_eq (ts : List (Tab K)) (x : Tab K)
    (hu : ∀ y ∈ ts, y.status = .normal → y = x) :
    ∀ acc, (acc = none ∨ acc = some x) → (acc = some x ∨ (x ∈ ts ∧ x.status = .normal)) →
      smallestNormal ts acc = some x := by
  induction ts with
  | nil =>
    intro acc _ h
    rcases h with rfl | ⟨h, _⟩
    · rfl
    · cases h
  | cons y ys ih =>
    intro acc hacc h
    have ih' := ih (fun z hz => hu z (List.mem_cons_of_mem _ hz))
    simp only [smallestNormal]
    by_cases hy : y.status = .normal
    · have hyx := hu y List.mem_cons_self hy
      subst hyx
      rw [if_pos hy]
      apply ih' _ (Or.inr _) (Or.inl _) <;> rcases hacc with rfl | rfl <;> simp
    · rw [if_neg hy]
      apply ih' acc hacc
      rcases h with h | ⟨h1, h2⟩
      · exact Or.inl h
      · rcases List.mem_cons.1 h1 with h | h
        · rw [h] at h2; exact absurd h2 hy
        · exact Or.inr ⟨h, h2⟩

theorem smallestNormal_part {c : TCfg K} {t : TMgr K} (h : Inv c t) {p : Nat} (hp : p < t.parts)
    {x : Tab K} (hx : t.normOf p = some x) : smallestNormal (t.tablesByHash p) none = some x := by
  obtain ⟨h1, h2, h3⟩ := (normOf_iff h p x).1 hx
  rw [tablesByHash_eq t hp]
  apply smallestNormal_eq _ x _ none (Or.inl rfl)
  · right; rw [List.mem_filter]; exact ⟨⟨h1, by simp [h2]⟩, h3⟩
  · intro y hy hys
    have := List.mem_filter.1 hy
    simp only [decide_eq_true_eq] at this
    exact h.uniq y this.1 x h1 (by rw [this.2, h2]) (by rw [hys, h3])

theorem list_single {α : Type} {l : List α} (hn : l.Nodup) (hu : ∀ a ∈ l, ∀ b ∈ l, a = b) :
    l = [] ∨ ∃ a, l = [a] := by
  cases l with
  | nil => exact Or.inl rfl
  | cons a l =>
    right
    cases l with
    | nil => exact ⟨a, rfl⟩
    | cons b l =>
      exfalso
      have := hu a List.mem_cons_self b (by simp)
      simp [this] at hn

/-- Point lookup: the writable table of the partition, then its source table, then the levels. -/
theorem get_eq {c : TCfg K} {t : TMgr K} (h : Inv c t) (k : K) :
    t.get c k = ((((t.normOf (c.hash k % t.parts)).bind (·.get k)).or
      ((t.srcOf (c.hash k % t.parts)).bind (·.get k))).or (t.lvLook k)) := by
  have hp : c.hash k % t.parts < t.parts := Nat.mod_lt _ h.pos
  generalize hpe : c.hash k % t.parts = p at *
  obtain ⟨x, hx⟩ := normOf_some h hp
  have hx' := (normOf_iff h p x).1 hx
  unfold get
  simp only [hpe]
  rw [smallestNormal_part h hp hx, hx]
  simp only [Option.bind_some]
  cases hg : x.get k with
  | some r => simp
  | none =>
    simp only [Option.none_or]
    have hoth : ∀ y ∈ (t.tablesByHash p).filter (fun y => decide (y.number ≠ x.number)),
        y ∈ t.l0 ∧ y.hashNum = p ∧ y.status = .compactSrc := by
      intro y hy
      rw [tablesByHash_eq t hp] at hy
      have h1 := List.mem_filter.1 hy
      have h2 := List.mem_filter.1 h1.1
      simp only [decide_eq_true_eq] at h1 h2
      refine ⟨h2.1, h2.2, ?_⟩
      rcases status_cases y.status with hs | hs
      · exact absurd (congrArg Tab.number (h.uniq y h2.1 x hx'.1 (by rw [h2.2, hx'.2.1]) (by rw [hs, hx'.2.2]))) h1.2
      · exact hs
    have hnd : ((t.tablesByHash p).filter (fun y => decide (y.number ≠ x.number))).Nodup := by
      have h0 : t.l0.Nodup := List.Nodup.of_map _ h.nums
      rw [tablesByHash_eq t hp]
      exact (h0.filter _).filter _
    have hsrc : scan k ((t.tablesByHash p).filter (fun y => decide (y.number ≠ x.number))) none =
        some ((t.srcOf p).bind (·.get k)) := by
      rcases list_single hnd (fun a ha b hb => h.uniq a (hoth a ha).1 b (hoth b hb).1
        (by rw [(hoth a ha).2.1, (hoth b hb).2.1]) (by rw [(hoth a ha).2.2, (hoth b hb).2.2])) with he | ⟨y, he⟩
      · rw [he]
        have : t.srcOf p = none := by
          cases hs : t.srcOf p with
          | none => rfl
          | some y =>
            exfalso
            have hy := (srcOf_iff h hp y).1 hs
            have : y ∈ (t.tablesByHash p).filter (fun y => decide (y.number ≠ x.number)) := by
              rw [tablesByHash_eq t hp, List.mem_filter, List.mem_filter]
              refine ⟨⟨hy.1, by simp [hy.2.1]⟩, ?_⟩
              simp only [decide_eq_true_eq]
              intro hn
              have := eq_of_number h.nums hy.1 hx'.1 hn
              rw [this, hx'.2.2] at hy
              simp at hy
            rw [he] at this; cases this
        rw [this]; rfl
      · rw [he]
        have hy := hoth y (by rw [he]; simp)
        rw [(srcOf_iff h hp y).2 hy]
        simp only [scan, Option.bind_some]
        cases y.get k <;> rfl
    simp only [hsrc]
    cases (t.srcOf p).bind (·.get k) with
    | some r => rfl
    | none => simp only [Option.none_or]; exact getLevels_eq h.lv k

theorem get_hash_none {c : TCfg K} {t : TMgr K} (h : Inv c t) {x : Tab K} (hx : x ∈ t.l0) {k : K}
    (hk : c.hash k % t.parts ≠ x.hashNum) : x.get k = none := by
  apply SMap.find?_none_iff.2
  intro e he heq
  have := ((h.l0Recs x hx).2 e he).2
  rw [heq] at this
  exact hk this

/-! ### New database -/

theorem initL0_eq (n i : Nat) (acc : List (Tab K)) :
    initL0 n i acc = ((List.range' i n).map
      (fun j => ({ number := j, hashNum := j, minKey := ⊥ } : Tab K))).reverse ++ acc := by
  induction n generalizing i acc with
  | zero => rfl
  | succ n ih => simp only [initL0, ih, List.range'_succ, List.map_cons, List.reverse_cons]; simp

theorem mem_initL0 {n : Nat} {x : Tab K} :
    x ∈ initL0 n 0 [] ↔ ∃ j, j < n ∧ x = { number := j, hashNum := j, minKey := ⊥ } := by
  rw [initL0_eq]
  simp only [List.append_nil, List.mem_reverse, List.mem_map, List.mem_range'_1]
  constructor
  · rintro ⟨j, h1, h2⟩; exact ⟨j, by omega, h2.symm⟩
  · rintro ⟨j, h1, h2⟩; exact ⟨j, by omega, h2.symm⟩

theorem inv_init (c : TCfg K) {parts : Nat} (hp : 0 < parts) : Inv c (init parts : TMgr K) := by
  refine ⟨hp, by simp [init], by simp [init], ?_, ?_, ?_, ?_, ?_, ?_⟩
  · show ((initL0 parts 0 []).map (fun x : Tab K => x.number)).Nodup
    rw [initL0_eq, List.append_nil, List.map_reverse, List.nodup_reverse, List.map_map]
    have : ((fun x : Tab K => x.number) ∘ fun j => ({ number := j, hashNum := j, minKey := ⊥ } : Tab K)) = id := rfl
    rw [this, List.map_id]; exact List.nodup_range'
  · intro x hx
    obtain ⟨j, hj, rfl⟩ := mem_initL0.1 hx
    exact hj
  · intro x hx
    obtain ⟨j, hj, rfl⟩ := mem_initL0.1 hx
    rfl
  · intro x hx
    obtain ⟨j, hj, rfl⟩ := mem_initL0.1 hx
    exact ⟨List.Pairwise.nil, by intro e he; cases he⟩
  · intro p hp'
    exact ⟨{ number := p, hashNum := p, minKey := ⊥ }, mem_initL0.2 ⟨p, hp', rfl⟩, rfl, rfl⟩
  · intro x hx y hy hh _
    obtain ⟨j, hj, rfl⟩ := mem_initL0.1 hx
    obtain ⟨j', hj', rfl⟩ := mem_initL0.1 hy
    simp only at hh
    rw [hh]

theorem get_init (c : TCfg K) {parts : Nat} (hp : 0 < parts) (k : K) :
    (init parts : TMgr K).get c k = none := by
  have h := inv_init (K := K) c hp
  rw [get_eq h]
  have hn : ∀ p, ((init parts : TMgr K).normOf p).bind (·.get k) = none := by
    intro p
    cases hx : (init parts : TMgr K).normOf p with
    | none => rfl
    | some x =>
      obtain ⟨j, _, rfl⟩ := mem_initL0.1 ((normOf_iff h p x).1 hx).1
      rfl
  have hs : ((init parts : TMgr K).srcOf (c.hash k % (init parts : TMgr K).parts)).bind (·.get k) = none := by
    cases hx : (init parts : TMgr K).srcOf (c.hash k % (init parts : TMgr K).parts) with
    | none => rfl
    | some x =>
      obtain ⟨j, _, rfl⟩ := mem_initL0.1 ((srcOf_iff h (Nat.mod_lt _ hp) x).1 hx).1
      rfl
  rw [hn, hs]; rfl

/-! ### Flush -/

theorem tabSetBatch_fields (c : TCfg K) (parts p : Nat) (R : List (Rec K)) (t : Tab K) :
    (t.setBatch c parts p R).number = t.number ∧ (t.setBatch c parts p R).hashNum = t.hashNum ∧
    (t.setBatch c parts p R).minKey = t.minKey ∧ (t.setBatch c parts p R).status = t.status := by
  induction R generalizing t with
  | nil => exact ⟨rfl, rfl, rfl, rfl⟩
  | cons r R ih =>
    simp only [Tab.setBatch, List.foldl_cons] at ih ⊢
    obtain ⟨h1, h2, h3, h4⟩ := ih (if c.hash r.key % parts ≠ p then t else if r.isCmd then t
      else t.setSingle r false)
    rw [h1, h2, h3, h4]
    refine ⟨?_, ?_, ?_, ?_⟩ <;> (split; · rfl) <;> (split <;> rfl)

theorem tabSetBatch_ok (c : TCfg K) (parts p : Nat) (R : List (Rec K)) (t : Tab K)
    (hs : t.recs.Sorted) (hk : ∀ e ∈ t.recs, e.2.key = e.1 ∧ c.hash e.1 % parts = p) :
    (t.setBatch c parts p R).recs.Sorted ∧
    (∀ e ∈ (t.setBatch c parts p R).recs, e.2.key = e.1 ∧ c.hash e.1 % parts = p) ∧
    (∀ k, c.hash k % parts = p →
      (t.setBatch c parts p R).get k = (Spec.lastWrite R k).or (t.get k)) := by
  induction R generalizing t with
  | nil => exact ⟨hs, hk, fun k _ => rfl⟩
  | cons r R ih =>
    have hun : t.setBatch c parts p (r :: R) =
      (if c.hash r.key % parts ≠ p then t else if r.isCmd then t else t.setSingle r false).setBatch
        c parts p R := rfl
    have hlw : ∀ k, Spec.lastWrite (r :: R) k = (Spec.lastWrite R k).or
        (if r.isCmd = false ∧ r.key = k then some r else none) := by
      intro k
      have h1 : r :: R = [r] ++ R := rfl
      rw [h1, Spec.lastWrite_append]
      have h2 := Spec.lastWrite_snoc ([] : List (Rec K)) r k
      rw [List.nil_append] at h2
      rw [h2, Spec.lastWrite_nil]
    rw [hun]
    by_cases h1 : c.hash r.key % parts ≠ p
    · rw [if_pos h1]
      obtain ⟨i1, i2, i3⟩ := ih t hs hk
      refine ⟨i1, i2, ?_⟩
      intro k hkp
      rw [i3 k hkp, hlw]
      have : ¬ (r.isCmd = false ∧ r.key = k) := by rintro ⟨_, rfl⟩; exact h1 hkp
      rw [if_neg this, Option.or_none]
    · rw [if_neg h1]
      by_cases h2 : r.isCmd = true
      · rw [if_pos h2]
        obtain ⟨i1, i2, i3⟩ := ih t hs hk
        refine ⟨i1, i2, ?_⟩
        intro k hkp
        rw [i3 k hkp, hlw]
        have : ¬ (r.isCmd = false ∧ r.key = k) := by rintro ⟨h, _⟩; rw [h2] at h; cases h
        rw [if_neg this, Option.or_none]
      · rw [if_neg h2]
        obtain ⟨i1, i2, i3⟩ := ih (t.setSingle r false) (setSingle_sorted hs r false) (by
          intro e he
          have : (t.setSingle r false).recs = t.recs.insert r.key r := rfl
          rw [this] at he
          obtain ⟨k', v'⟩ := e
          have hf := SMap.find?_of_mem (hs.insert r.key r) he
          rw [SMap.find?_insert hs] at hf
          split at hf
          · next hkk => cases hf; rw [hkk]; exact ⟨rfl, not_not.1 h1⟩
          · exact hk _ (SMap.find?_some_mem hf))
        refine ⟨i1, i2, ?_⟩
        intro k hkp
        rw [i3 k hkp, hlw, setSingle_get hs]
        have h3 : r.isCmd = false := by simpa using h2
        by_cases h4 : k = r.key
        · subst h4
          simp only [h3, true_and, if_true, Bool.false_and, Bool.false_eq_true, if_false]
          cases Spec.lastWrite R r.key <;> simp
        · rw [if_neg h4, if_neg (by rintro ⟨_, h⟩; exact h4 h.symm), Option.or_none]

theorem mem_modify {l : List (Tab K)} {n : Nat} {f : Tab K → Tab K} {y : Tab K} :
    y ∈ modify l n f ↔ ∃ x ∈ l, y = if x.number = n then f x else x := by
  unfold modify
  rw [List.mem_map]
  constructor <;> rintro ⟨x, h1, h2⟩ <;> exact ⟨x, h1, h2.symm⟩

theorem setBatchPart_ok {c : TCfg K} {t : TMgr K} (h : Inv c t) (R : List (Rec K)) {p : Nat}
    (hp : p < t.parts) :
    Inv c (setBatchPart c t R p) ∧ (setBatchPart c t R p).parts = t.parts ∧
    (setBatchPart c t R p).lv = t.lv ∧ (setBatchPart c t R p).nextNum = t.nextNum ∧
    (∀ q, q < t.parts → (setBatchPart c t R p).srcOf q = t.srcOf q) ∧
    (∀ q, (setBatchPart c t R p).normOf q =
      if q = p then (t.normOf p).map (fun x => x.setBatch c t.parts p R) else t.normOf q) := by
  obtain ⟨x, hx⟩ := normOf_some h hp
  have hx' := (normOf_iff h p x).1 hx
  have hun : setBatchPart c t R p =
      { t with l0 := modify t.l0 x.number (fun y => y.setBatch c t.parts p R) } := by
    unfold setBatchPart; rw [smallestNormal_part h hp hx]
  rw [hun]
  have hmem : ∀ y, y ∈ modify t.l0 x.number (fun y => y.setBatch c t.parts p R) ↔
      (y = x.setBatch c t.parts p R) ∨ (y ∈ t.l0 ∧ y ≠ x) := by
    intro y
    rw [mem_modify]
    constructor
    · rintro ⟨z, hz, rfl⟩
      by_cases hzn : z.number = x.number
      · rw [if_pos hzn, eq_of_number h.nums hz hx'.1 hzn]; exact Or.inl rfl
      · rw [if_neg hzn]; exact Or.inr ⟨hz, fun he => hzn (by rw [he])⟩
    · rintro (rfl | ⟨h1, h2⟩)
      · exact ⟨x, hx'.1, by rw [if_pos rfl]⟩
      · refine ⟨y, h1, ?_⟩
        rw [if_neg]
        intro hn; exact h2 (eq_of_number h.nums h1 hx'.1 hn)
  have hf := tabSetBatch_fields c t.parts p R x
  have hrec := h.l0Recs x hx'.1
  have hok := tabSetBatch_ok c t.parts p R x hrec.1 (by
    intro e he; rw [← hx'.2.1]; exact hrec.2 e he)
  have hinv : Inv c { t with l0 := modify t.l0 x.number (fun y => y.setBatch c t.parts p R) } := by
    refine ⟨h.pos, h.lv, h.lvNum, ?_, ?_, ?_, ?_, ?_, ?_⟩
    · have : (modify t.l0 x.number (fun y => y.setBatch c t.parts p R)).map (·.number) =
          t.l0.map (·.number) := by
        unfold modify
        rw [List.map_map]
        apply List.map_congr_left
        intro y _
        simp only [Function.comp]
        split
        · exact (tabSetBatch_fields c t.parts p R y).1
        · rfl
      simp only; rw [this]; exact h.nums
    · intro y hy
      rcases (hmem y).1 hy with rfl | hy
      · rw [hf.1]; exact h.l0Num x hx'.1
      · exact h.l0Num y hy.1
    · intro y hy
      rcases (hmem y).1 hy with rfl | hy
      · rw [hf.2.2.1]; exact h.l0Min x hx'.1
      · exact h.l0Min y hy.1
    · intro y hy
      rcases (hmem y).1 hy with rfl | hy
      · rw [hf.2.1, hx'.2.1]; exact ⟨hok.1, hok.2.1⟩
      · exact h.l0Recs y hy.1
    · intro q hq
      obtain ⟨y, h1, h2, h3⟩ := h.normEx q hq
      by_cases hyx : y = x
      · refine ⟨_, (hmem _).2 (Or.inl rfl), ?_, ?_⟩
        · rw [hf.2.1, ← hyx]; exact h2
        · rw [hf.2.2.2, ← hyx]; exact h3
      · exact ⟨y, (hmem y).2 (Or.inr ⟨h1, hyx⟩), h2, h3⟩
    · intro y hy z hz hh hs
      rcases (hmem y).1 hy with rfl | hy <;> rcases (hmem z).1 hz with rfl | hz
      · rfl
      · rw [hf.2.1] at hh; rw [hf.2.2.2] at hs
        exact absurd (h.uniq x hx'.1 z hz.1 hh hs).symm hz.2
      · rw [hf.2.1] at hh; rw [hf.2.2.2] at hs
        exact absurd (h.uniq y hy.1 x hx'.1 hh hs) hy.2
      · exact h.uniq y hy.1 z hz.1 hh hs
  refine ⟨hinv, rfl, rfl, rfl, ?_, ?_⟩
  · intro q hq
    apply Option.ext; intro y
    rw [srcOf_iff hinv hq, srcOf_iff h hq]
    simp only
    constructor
    · rintro ⟨h1, h2, h3⟩
      rcases (hmem y).1 h1 with rfl | hy
      · rw [hf.2.2.2, hx'.2.2] at h3; cases h3
      · exact ⟨hy.1, h2, h3⟩
    · rintro ⟨h1, h2, h3⟩
      refine ⟨(hmem y).2 (Or.inr ⟨h1, ?_⟩), h2, h3⟩
      rintro rfl
      rw [hx'.2.2] at h3; cases h3
  · intro q
    split
    · next hq =>
      subst hq
      rw [hx, Option.map_some]
      rw [normOf_iff hinv]
      exact ⟨(hmem _).2 (Or.inl rfl), by rw [hf.2.1]; exact hx'.2.1, by rw [hf.2.2.2]; exact hx'.2.2⟩
    · next hq =>
      apply Option.ext; intro y
      rw [normOf_iff hinv, normOf_iff h]
      simp only
      constructor
      · rintro ⟨h1, h2, h3⟩
        rcases (hmem y).1 h1 with rfl | hy
        · rw [hf.2.1, hx'.2.1] at h2; exact absurd h2.symm hq
        · exact ⟨hy.1, h2, h3⟩
      · rintro ⟨h1, h2, h3⟩
        refine ⟨(hmem y).2 (Or.inr ⟨h1, ?_⟩), h2, h3⟩
        rintro rfl
        exact hq (h2.symm.trans hx'.2.1)

/-- Writing a batch to some of the partitions only (an interrupted `setBatchHash`): the keys of
    those partitions have their new values, the others the old ones. -/
theorem setBatchSome_ok {c : TCfg K} {t : TMgr K} (h : Inv c t) (R : List (Rec K)) (ps : List Nat)
    (hnd : ps.Nodup) (hps : ∀ p ∈ ps, p < t.parts) :
    let t' := ps.foldl (fun t p => setBatchPart c t R p) t
    Inv c t' ∧ t'.parts = t.parts ∧
    ∀ k, t'.get c k = if c.hash k % t.parts ∈ ps then (Spec.lastWrite R k).or (t.get c k) else t.get c k := by
  have key : ∀ (ps : List Nat) (t : TMgr K), Inv c t → ps.Nodup → (∀ p ∈ ps, p < t.parts) →
      let t' := ps.foldl (fun t p => setBatchPart c t R p) t
      Inv c t' ∧ t'.parts = t.parts ∧ t'.lv = t.lv ∧
      (∀ q, q < t.parts → t'.srcOf q = t.srcOf q) ∧
      (∀ q, t'.normOf q =
        if q ∈ ps then (t.normOf q).map (fun x => x.setBatch c t.parts q R) else t.normOf q) := by
    intro ps
    induction ps with
    | nil => intro t h _ _; exact ⟨h, rfl, rfl, fun _ _ => rfl, fun q => by simp⟩
    | cons p ps ih =>
      intro t h hnd hps
      obtain ⟨j1, j2, j3, -, j5, j6⟩ := setBatchPart_ok h R (p := p) (hps p (by simp))
      have hnd' := List.nodup_cons.1 hnd
      obtain ⟨i1, i2, i3, i5, i6⟩ := ih (setBatchPart c t R p) j1 hnd'.2
        (fun q hq => by rw [j2]; exact hps q (by simp [hq]))
      simp only [List.foldl_cons]
      refine ⟨i1, i2.trans j2, i3.trans j3, ?_, ?_⟩
      · intro q hq; rw [i5 q (by rw [j2]; exact hq), j5 q hq]
      · intro q
        rw [i6 q, j6 q]
        by_cases hqp : q = p
        · subst hqp
          rw [if_neg hnd'.1]; simp
        · rw [if_neg hqp, j2]; simp [hqp]
  obtain ⟨k1, k2, k3, k5, k6⟩ := key ps t h hnd hps
  refine ⟨k1, k2, ?_⟩
  intro k
  have hp : c.hash k % t.parts < t.parts := Nat.mod_lt _ h.pos
  rw [get_eq k1, get_eq h, k2]
  have hlv : ∀ t' : TMgr K, t'.lv = t.lv → t'.lvLook k = t.lvLook k := by
    intro t' e; unfold lvLook; rw [e]
  rw [k5 _ hp, k6, hlv _ k3]
  by_cases hin : c.hash k % t.parts ∈ ps
  · rw [if_pos hin, if_pos hin]
    obtain ⟨x, hx⟩ := normOf_some h hp
    have hx' := (normOf_iff h _ x).1 hx
    have hrec := h.l0Recs x hx'.1
    have hok := tabSetBatch_ok c t.parts (c.hash k % t.parts) R x hrec.1 (by
      intro e he; rw [← hx'.2.1]; exact hrec.2 e he)
    rw [hx]
    simp only [Option.map_some, Option.bind_some]
    rw [hok.2.2 k rfl]
    cases Spec.lastWrite R k <;> simp
  · rw [if_neg hin, if_neg hin]

theorem setBatch_ok {c : TCfg K} {t : TMgr K} (h : Inv c t) (R : List (Rec K)) :
    Inv c (setBatch c t R) ∧ (setBatch c t R).parts = t.parts ∧
    ∀ k, (setBatch c t R).get c k = (Spec.lastWrite R k).or (t.get c k) := by
  obtain ⟨h1, h2, h3⟩ := setBatchSome_ok h R (List.range t.parts) List.nodup_range
    (fun p hp => List.mem_range.1 hp)
  refine ⟨h1, h2, fun k => ?_⟩
  have := h3 k
  rw [if_pos (List.mem_range.2 (Nat.mod_lt _ h.pos))] at this
  exact this

end TMgr
end Jungle
