/-
  Invariant of the table section with checkpoints: what the entry for a checkpoint shows.
-/
import Verif.Table.MarkLemmas

set_option linter.unusedSectionVars false

namespace Jungle
open Spec
variable {K : Type} [LinearOrder K] [OrderBot K]

namespace CMgr
open TMgr

/-- The table `x` after the batch was written to the partitions `ps`. -/
def after (c : TCfg K) (parts : Nat) (R : List (Rec K)) (ps : List Nat) (x : Tab K) : Tab K :=
  if x.status = .normal ∧ x.hashNum ∈ ps then x.setBatch c parts x.hashNum R else x

theorem after_fields (c : TCfg K) (parts : Nat) (R : List (Rec K)) (ps : List Nat) (x : Tab K) :
    (after c parts R ps x).number = x.number ∧ (after c parts R ps x).hashNum = x.hashNum ∧
    (after c parts R ps x).status = x.status := by
  unfold after
  split
  · have := tabSetBatch_fields c parts x.hashNum R x
    exact ⟨this.1, this.2.1, this.2.2.2⟩
  · exact ⟨rfl, rfl, rfl⟩

structure Batched (c : TCfg K) (keep : Nat) (R : List (Rec K)) (cps ps : List Nat) (t t' : CMgr K) : Prop where
  inv : TMgr.Inv c t'.tab
  parts : t'.tab.parts = t.tab.parts
  num : t'.tab.nextNum = t.tab.nextNum
  lv : t'.tab.lv = t.tab.lv
  l0 : t'.tab.l0 = t.tab.l0.map (after c t.tab.parts R ps)
  marks : ∀ x ∈ t.tab.l0, t'.marks x.number =
    if x.status = .normal ∧ x.hashNum ∈ ps then
      (markBatch c t.tab.parts x.hashNum keep cps x (t.marks x.number) R).marks else t.marks x.number
  other : ∀ n, (∀ x ∈ t.tab.l0, x.number ≠ n) → t'.marks n = t.marks n

theorem batched_fold {c : TCfg K} (keep : Nat) (R : List (Rec K)) (cps : List Nat) (ps : List Nat) (hnd : ps.Nodup)
    (t : CMgr K) (h : TMgr.Inv c t.tab) (hps : ∀ p ∈ ps, p < t.tab.parts) :
    Batched c keep R cps ps t (ps.reverse.foldl (fun t p => setBatchPart c keep t R cps p) t) := by
  induction ps with
  | nil =>
    refine ⟨h, rfl, rfl, rfl, ?_, ?_, fun _ _ => rfl⟩
    · simp only [List.reverse_nil, List.foldl_nil]
      rw [eq_comm, List.map_congr_left (g := id), List.map_id]
      intro x _; unfold after; simp
    · intro x _; simp
  | cons p ps ih =>
    have hnd' := List.nodup_cons.1 hnd
    have i := ih hnd'.2 (fun q hq => hps q (List.mem_cons_of_mem _ hq))
    rw [List.reverse_cons, List.foldl_append]
    simp only [List.foldl_cons, List.foldl_nil]
    generalize ps.reverse.foldl (fun t p => setBatchPart c keep t R cps p) t = t1 at i
    have hp1 : p < t1.tab.parts := by rw [i.parts]; exact hps p List.mem_cons_self
    obtain ⟨x, hx⟩ := normOf_some i.inv hp1
    have hx' := (normOf_iff i.inv p x).1 hx
    have hsm := smallestNormal_part i.inv hp1 hx
    have ht : (setBatchPart c keep t1 R cps p).tab =
        { t1.tab with l0 := modify t1.tab.l0 x.number (fun y => y.setBatch c t1.tab.parts p R) } := by
      rw [setBatchPart_tab]; unfold TMgr.setBatchPart; rw [hsm]
    have hm : (setBatchPart c keep t1 R cps p).marks = fun n => if n = x.number then
        (markBatch c t1.tab.parts p keep cps x (t1.marks x.number) R).marks else t1.marks n := by
      unfold setBatchPart; rw [hsm]
    have hk := (TMgr.setBatchPart_ok i.inv R hp1).1
    rw [← setBatchPart_tab c keep t1 R cps p] at hk
    -- the table of the partition before
    have hx0 : x ∈ t.tab.l0 := by
      have := hx'.1
      rw [i.l0] at this
      obtain ⟨y, hy, e⟩ := List.mem_map.1 this
      have hf := after_fields c t.tab.parts R ps y
      rw [e] at hf
      unfold after at e
      rw [if_neg] at e
      · rw [← e]; exact hy
      · rintro ⟨-, hh⟩
        rw [← hf.2.1, hx'.2.1] at hh
        exact hnd'.1 hh
    refine ⟨hk, ?_, ?_, ?_, ?_, ?_, ?_⟩
    · rw [ht]; exact i.parts
    · rw [ht]; exact i.num
    · rw [ht]; exact i.lv
    · rw [ht]
      show TMgr.modify t1.tab.l0 x.number _ = _
      unfold TMgr.modify
      rw [i.l0, List.map_map]
      apply List.map_congr_left
      intro y hy
      simp only [Function.comp]
      have hf := after_fields c t.tab.parts R ps y
      rw [hf.1]
      by_cases hyx : y.number = x.number
      · have : y = x := eq_of_number h.nums hy hx0 hyx
        subst this
        rw [if_pos rfl]
        unfold after
        rw [if_neg (by rintro ⟨-, hh⟩; rw [hx'.2.1] at hh; exact hnd'.1 hh), if_pos ⟨hx'.2.2, by rw [hx'.2.1]; simp⟩,
          i.parts, hx'.2.1]
      · rw [if_neg hyx]
        unfold after
        have : ¬ (y.status = .normal ∧ y.hashNum = p) := by
          rintro ⟨h1, h2⟩
          exact hyx (congrArg Tab.number (h.uniq y hy x hx0 (by rw [h2, hx'.2.1]) (by rw [h1, hx'.2.2])))
        by_cases hc : y.status = .normal ∧ y.hashNum ∈ ps
        · rw [if_pos hc, if_pos ⟨hc.1, List.mem_cons_of_mem _ hc.2⟩]
        · rw [if_neg hc, if_neg]
          rintro ⟨h1, h2⟩
          rcases List.mem_cons.1 h2 with h2 | h2
          · exact this ⟨h1, h2⟩
          · exact hc ⟨h1, h2⟩
    · intro y hy
      rw [hm]
      simp only
      by_cases hyx : y.number = x.number
      · have : y = x := eq_of_number h.nums hy hx0 hyx
        subst this
        rw [if_pos rfl, if_pos ⟨hx'.2.2, by rw [hx'.2.1]; simp⟩, i.marks y hy,
          if_neg (by rintro ⟨-, hh⟩; rw [hx'.2.1] at hh; exact hnd'.1 hh), i.parts, hx'.2.1]
      · rw [if_neg hyx, i.marks y hy]
        have : ¬ (y.status = .normal ∧ y.hashNum = p) := by
          rintro ⟨h1, h2⟩
          exact hyx (congrArg Tab.number (h.uniq y hy x hx0 (by rw [h2, hx'.2.1]) (by rw [h1, hx'.2.2])))
        by_cases hc : y.status = .normal ∧ y.hashNum ∈ ps
        · rw [if_pos hc, if_pos ⟨hc.1, List.mem_cons_of_mem _ hc.2⟩]
        · rw [if_neg hc, if_neg]
          rintro ⟨h1, h2⟩
          rcases List.mem_cons.1 h2 with h2 | h2
          · exact this ⟨h1, h2⟩
          · exact hc ⟨h1, h2⟩
    · intro n hn
      rw [hm]
      simp only
      rw [if_neg (fun e => hn x hx0 e.symm)]
      exact i.other n hn

theorem setBatch_batched {c : TCfg K} (keep : Nat) (R : List (Rec K)) (cps : List Nat) (t : CMgr K)
    (h : TMgr.Inv c t.tab) : Batched c keep R cps (List.range t.tab.parts).reverse t (t.setBatch c keep R cps) := by
  have := batched_fold (c := c) keep R cps (List.range t.tab.parts).reverse (List.nodup_reverse.2 List.nodup_range) t h
    (by intro p hp; simpa using hp)
  rwa [List.reverse_reverse] at this

theorem Batched.srcOf {c : TCfg K} {keep : Nat} {R : List (Rec K)} {cps ps : List Nat} {t t' : CMgr K}
    (b : Batched c keep R cps ps t t') (h : TMgr.Inv c t.tab) {p : Nat} (hp : p < t.tab.parts) :
    t'.tab.srcOf p = t.tab.srcOf p := by
  apply Option.ext; intro z
  rw [srcOf_iff b.inv (by rw [b.parts]; exact hp), srcOf_iff h hp, b.l0]
  constructor
  · rintro ⟨h1, h2, h3⟩
    obtain ⟨y, hy, rfl⟩ := List.mem_map.1 h1
    have hf := after_fields c t.tab.parts R ps y
    rw [hf.2.2] at h3
    have : after c t.tab.parts R ps y = y := by
      unfold after; rw [if_neg]; rintro ⟨h, -⟩; rw [h3] at h; cases h
    rw [this] at h2 ⊢
    exact ⟨hy, h2, h3⟩
  · rintro ⟨h1, h2, h3⟩
    refine ⟨List.mem_map.2 ⟨z, h1, ?_⟩, h2, h3⟩
    unfold after; rw [if_neg]; rintro ⟨h, -⟩; rw [h3] at h; cases h

theorem Batched.rest {c : TCfg K} {keep : Nat} {R : List (Rec K)} {cps ps : List Nat} {t t' : CMgr K}
    (b : Batched c keep R cps ps t t') (h : TMgr.Inv c t.tab) {p : Nat} (hp : p < t.tab.parts) (k : K) :
    t'.tab.rest p k = t.tab.rest p k := by
  unfold TMgr.rest lvLook
  rw [b.srcOf h hp, b.lv]

/-- The entry `e` of table `x` says what the table held at the checkpoint. -/
structure EntryOk (c : TCfg K) (parts : Nat) (A : List (Rec K)) (x : Tab K) (e : Mark K) : Prop where
  wf : e.recs.Sorted ∧ ∀ a ∈ e.recs, a.2.key = a.1 ∧ c.hash a.1 % parts = x.hashNum
  le : ∀ a ∈ e.recs, a.2.seq ≤ e.chk
  chk : ∃ r ∈ A, r.seq = e.chk
  cur : ∀ k, x.recs.find? k = e.recs.find? k ∨ ∃ r, x.recs.find? k = some r ∧ e.chk < r.seq

/-- `A` are the records handed to the table section. -/
structure MInv (c : TCfg K) (t : CMgr K) (A : List (Rec K)) : Prop where
  inv : TMgr.Inv c t.tab
  fresh : ∀ n, t.tab.nextNum ≤ n → t.marks n = []
  recs : ∀ x ∈ t.tab.l0, ∀ a ∈ x.recs, a.2 ∈ A
  sorted : ∀ x ∈ t.tab.l0, (t.marks x.number).Pairwise (fun a b => a.chk < b.chk)
  entry : ∀ x ∈ t.tab.l0, ∀ e ∈ t.marks x.number, EntryOk c t.tab.parts A x e
  src : ∀ x ∈ t.tab.l0, ∀ y ∈ t.tab.l0, x.hashNum = y.hashNum → x.status = .normal → y.status = .compactSrc →
    ∀ e ∈ t.marks x.number, (∀ a ∈ y.recs, a.2.seq < e.chk) ∧ ∀ e' ∈ t.marks y.number, e'.chk < e.chk
  read : ∀ x ∈ t.tab.l0, x.status = .normal → ∀ e ∈ t.marks x.number, ∀ k, c.hash k % t.tab.parts = x.hashNum →
    vis ((e.recs.find? k).or (t.tab.rest x.hashNum k)) = valueOf (A.filter (fun r => decide (r.seq ≤ e.chk))) k

theorem MInv.init (c : TCfg K) {parts : Nat} (hp : 0 < parts) : MInv c (⟨TMgr.init parts, fun _ => []⟩ : CMgr K) [] := by
  refine ⟨inv_init c hp, fun _ _ => rfl, ?_, fun _ _ => List.Pairwise.nil, fun _ _ e he => (by cases he), ?_, ?_⟩
  · intro x hx a ha
    obtain ⟨j, _, rfl⟩ := mem_initL0.1 hx
    cases ha
  · intro x _ y _ _ _ _ e he; cases he
  · intro x _ _ e he; cases he

theorem MInv.step {c : TCfg K} {t t' : CMgr K} {A : List (Rec K)} (h : MInv c t A) (s : L0Step c t t')
    (hi : TMgr.Inv c t'.tab) : MInv c t' A := by
  have hmem : ∀ n, ∀ e ∈ t'.marks n, e ∈ t.marks n := by
    intro n e he
    obtain ⟨j, hj⟩ := s.marks n
    rw [hj] at he; exact List.mem_of_mem_drop he
  have hfresh : ∀ n, t.tab.nextNum ≤ n → t'.marks n = [] := by
    intro n hn
    obtain ⟨j, hj⟩ := s.marks n
    rw [hj, h.fresh n hn]; simp
  -- tables with entries
  have hold : ∀ y ∈ t'.tab.l0, ∀ e ∈ t'.marks y.number, ∃ x ∈ t.tab.l0, e ∈ t.marks x.number ∧ y.number = x.number ∧
      y.hashNum = x.hashNum ∧ y.recs = x.recs ∧ (y.status = .normal → y = x) := by
    intro y hy e he
    rcases s.l0 y hy with h1 | ⟨x, h1, h2, h3, h4⟩ | ⟨h1, -⟩
    · exact ⟨y, h1, hmem _ e he, rfl, rfl, rfl, fun _ => rfl⟩
    · subst h3; exact ⟨x, h1, hmem _ e he, rfl, rfl, rfl, fun h => (by cases h)⟩
    · rw [hfresh _ h1] at he; cases he
  refine ⟨hi, fun n hn => hfresh n (Nat.le_trans s.num hn), ?_, ?_, ?_, ?_, ?_⟩
  · intro y hy a ha
    rcases s.l0 y hy with h1 | ⟨x, h1, h2, h3, h4⟩ | ⟨-, h1⟩
    · exact h.recs y h1 a ha
    · subst h3; exact h.recs x h1 a ha
    · rw [h1] at ha; cases ha
  · intro y hy
    rcases s.l0 y hy with h1 | ⟨x, h1, h2, h3, h4⟩ | ⟨h1, -⟩
    · obtain ⟨j, hj⟩ := s.marks y.number
      rw [hj]; exact (h.sorted y h1).sublist (List.drop_sublist _ _)
    · subst h3
      obtain ⟨j, hj⟩ := s.marks x.number
      rw [show t'.marks ({ x with status := .compactSrc } : Tab K).number = _ from hj]
      exact (h.sorted x h1).sublist (List.drop_sublist _ _)
    · rw [hfresh _ h1]; exact List.Pairwise.nil
  · intro y hy e he
    obtain ⟨x, h1, h2, h3, h4, h5, -⟩ := hold y hy e he
    have := h.entry x h1 e h2
    refine ⟨?_, this.le, this.chk, ?_⟩
    · rw [s.parts, h4]; exact this.wf
    · rw [h5]; exact this.cur
  · intro x hx y hy hxy hxn hys e he
    obtain ⟨x0, h1, h2, -, -, -, h3⟩ := hold x hx e he
    have := h3 hxn
    subst this
    rcases s.l0 y hy with g1 | ⟨z, g1, g2, g3, g4⟩ | ⟨g1, g2⟩
    · obtain ⟨a1, a2⟩ := h.src x h1 y g1 hxy hxn hys e h2
      exact ⟨a1, fun e' he' => a2 e' (hmem _ e' he')⟩
    · have : t.tab.nextNum ≤ x.number := g4 x hx (by rw [hxy, g3]) hxn
      rw [h.fresh _ this] at h2; cases h2
    · refine ⟨by rw [g2]; exact fun a ha => (List.not_mem_nil ha).elim, ?_⟩
      rw [hfresh _ g1]; intro e' he'; cases he'
  · intro x hx hxn e he k hk
    obtain ⟨x0, h1, h2, -, -, -, h3⟩ := hold x hx e he
    have := h3 hxn
    subst this
    have hr := s.rest x h1 hxn hx k (by rw [← s.parts]; exact hk)
    rw [← h.read x h1 hxn e h2 k (by rw [← s.parts]; exact hk)]
    exact vis_or hr

theorem MInv.maint {c : TCfg K} {t t' : CMgr K} {A : List (Rec K)} (h : MInv c t A) (hm : Maint c t t') : MInv c t' A :=
  h.step (hm.l0Step h.inv) (hm.same h.inv).inv

/-- Opening again loads the tables with their checkpoints. -/
theorem MInv.reopen {c : TCfg K} {t : CMgr K} {A : List (Rec K)} (h : MInv c t A) :
    MInv c ⟨t.tab.reopen, t.marks⟩ A := by
  have hi := (TMgr.reopen_same h.inv).inv
  have hl0 : t.tab.reopen.l0 = t.tab.l0.reverse := by
    unfold TMgr.reopen; simp only; rw [foldl_addTable_rev h.inv.l0Min, List.append_nil]
  have hlv : t.tab.reopen.lv = t.tab.lv := by
    unfold TMgr.reopen; simp only
    conv => rhs; rw [← List.map_id t.tab.lv]
    exact List.map_congr_left (fun l hl => loadLevel_id (h.inv.lv l hl))
  refine h.step ⟨rfl, Nat.le_refl _, fun n => ⟨0, rfl⟩, fun y hy => Or.inl ?_, ?_⟩ hi
  · rw [hl0] at hy; exact List.mem_reverse.1 hy
  · intro x hx _ _ k hk
    have hp : x.hashNum < t.tab.parts := by rw [← hk]; exact Nat.mod_lt _ h.inv.pos
    have : t.tab.reopen.rest x.hashNum k = t.tab.rest x.hashNum k := by
      unfold TMgr.rest lvLook
      have e : t.tab.reopen.srcOf x.hashNum = t.tab.srcOf x.hashNum := by
        apply Option.ext; intro y
        rw [srcOf_iff hi hp, srcOf_iff h.inv hp, hl0, List.mem_reverse]
      rw [e, hlv]
    rw [this]

theorem lastWrite_congr {X Y : List (Rec K)} {k : K}
    (h : X.filter (fun r => !r.isCmd && decide (r.key = k)) = Y.filter (fun r => !r.isCmd && decide (r.key = k))) :
    lastWrite X k = lastWrite Y k := by unfold lastWrite; rw [h]

theorem filter_filter_le {X : List (Rec K)} {k : K} {n : Nat}
    (h : ∀ r ∈ X, r.isCmd = false → r.key = k → r.seq ≤ n) :
    lastWrite (X.filter (fun r => decide (r.seq ≤ n))) k = lastWrite X k := by
  apply lastWrite_congr
  rw [List.filter_filter]
  apply List.filter_congr
  intro r hr
  by_cases h1 : r.isCmd = false ∧ r.key = k
  · simp [h1, h r hr h1.1 h1.2]
  · by_cases h2 : r.isCmd <;> simp_all

theorem filter_gt {X : List (Rec K)} {k : K} {n : Nat}
    (h : ∀ r ∈ X, r.isCmd = false → r.key = k → n < r.seq) :
    lastWrite (X.filter (fun r => decide (r.seq ≤ n))) k = none := by
  rw [lastWrite_none]
  intro r hr hk
  rw [List.mem_filter] at hr
  by_contra hc
  have := h r hr.1 (by simpa using hc) hk
  have h2 := of_decide_eq_true hr.2
  omega

theorem tabSetBatch_mem (c : TCfg K) (parts p : Nat) (R : List (Rec K)) (t : Tab K) (hs : t.recs.Sorted)
    {a : K × Rec K} (ha : a ∈ (t.setBatch c parts p R).recs) :
    a ∈ t.recs ∨ (a.2 ∈ R ∧ inPart c parts p a.2) := by
  induction R generalizing t with
  | nil => exact Or.inl ha
  | cons r R ih =>
    have hun : t.setBatch c parts p (r :: R) =
      (if c.hash r.key % parts ≠ p then t else if r.isCmd then t else t.setSingle r false).setBatch c parts p R := rfl
    rw [hun] at ha
    by_cases h1 : c.hash r.key % parts ≠ p
    · rw [if_pos h1] at ha
      rcases ih t hs ha with h | ⟨h, h'⟩
      · exact Or.inl h
      · exact Or.inr ⟨List.mem_cons_of_mem _ h, h'⟩
    · rw [if_neg h1] at ha
      by_cases h2 : r.isCmd = true
      · rw [if_pos h2] at ha
        rcases ih t hs ha with h | ⟨h, h'⟩
        · exact Or.inl h
        · exact Or.inr ⟨List.mem_cons_of_mem _ h, h'⟩
      · rw [if_neg h2] at ha
        rcases ih (t.setSingle r false) (setSingle_sorted hs r false) ha with h | ⟨h, h'⟩
        · have : (t.setSingle r false).recs = t.recs.insert r.key r := rfl
          rw [this] at h
          obtain ⟨k', v'⟩ := a
          have hf := SMap.find?_of_mem (hs.insert r.key r) h
          rw [SMap.find?_insert hs] at hf
          split at hf
          · cases hf; exact Or.inr ⟨by simp, not_not.1 h1, by simpa using h2⟩
          · exact Or.inl (SMap.find?_some_mem hf)
        · exact Or.inr ⟨List.mem_cons_of_mem _ h, h'⟩

theorem MInv.batch {c : TCfg K} {t : CMgr K} {A R : List (Rec K)} (h : MInv c t A) (keep : Nat) (cps : List Nat)
    (hA : ∀ k, vis (t.tab.get c k) = valueOf A k)
    (hi : Increasing (A ++ R)) (hpos : ∀ r ∈ R, 0 < r.seq) (hcps : ∀ n ∈ cps, (∃ r ∈ R, r.seq = n)) :
    MInv c (t.setBatch c keep R cps) (A ++ R) := by
  have b := setBatch_batched keep R cps t h.inv
  generalize t.setBatch c keep R cps = t' at b
  have hiR : Increasing R := (List.pairwise_append.1 hi).2.1
  have hAR : ∀ a ∈ A, ∀ r ∈ R, a.seq < r.seq := (List.pairwise_append.1 hi).2.2
  have hcA : ∀ n ∈ cps, ∀ a ∈ A, a.seq < n := by
    intro n hn a ha
    obtain ⟨r, hr, rfl⟩ := hcps n hn
    exact hAR a ha r hr
  have hps : ∀ p, p ∈ (List.range t.tab.parts).reverse ↔ p < t.tab.parts := by simp
  -- each table now, its entries
  have hmb : ∀ x ∈ t.tab.l0, x.status = .normal → x.hashNum < t.tab.parts →
      after c t.tab.parts R (List.range t.tab.parts).reverse x = x.setBatch c t.tab.parts x.hashNum R := by
    intro x _ h1 h2; unfold after; rw [if_pos ⟨h1, (hps _).2 h2⟩]
  have hcase : ∀ x ∈ t.tab.l0, (x.status = .normal ∧ x.hashNum < t.tab.parts) ∨
      (after c t.tab.parts R (List.range t.tab.parts).reverse x = x ∧ t'.marks x.number = t.marks x.number ∧
        ¬ (x.status = .normal ∧ x.hashNum < t.tab.parts)) := by
    intro x hx
    by_cases hc : x.status = .normal ∧ x.hashNum < t.tab.parts
    · exact Or.inl hc
    · right
      have : ¬ (x.status = .normal ∧ x.hashNum ∈ (List.range t.tab.parts).reverse) := by rw [hps]; exact hc
      refine ⟨?_, ?_, hc⟩
      · unfold after; rw [if_neg this]
      · rw [b.marks x hx, if_neg this]
  have hmade : ∀ x ∈ t.tab.l0, x.status = .normal → x.hashNum < t.tab.parts →
      (t'.marks x.number).Pairwise (fun a b => a.chk < b.chk) ∧
      ∀ e ∈ t'.marks x.number, e ∈ t.marks x.number ∨ MadeIn c t.tab.parts x.hashNum x cps R e := by
    intro x hx h1 h2
    rw [b.marks x hx, if_pos ⟨h1, (hps _).2 h2⟩]
    exact (markBatch_ok c t.tab.parts x.hashNum keep cps x (t.marks x.number) R hiR hpos (h.sorted x hx)).2
  have hsb : ∀ x ∈ t.tab.l0, ∀ R', (x.setBatch c t.tab.parts x.hashNum R').recs.Sorted ∧
      (∀ e ∈ (x.setBatch c t.tab.parts x.hashNum R').recs, e.2.key = e.1 ∧ c.hash e.1 % t.tab.parts = x.hashNum) ∧
      (∀ k, c.hash k % t.tab.parts = x.hashNum →
        (x.setBatch c t.tab.parts x.hashNum R').get k = (Spec.lastWrite R' k).or (x.get k)) := by
    intro x hx R'
    have hr := h.inv.l0Recs x hx
    exact tabSetBatch_ok c t.tab.parts x.hashNum R' x hr.1 hr.2
  have hnone : ∀ x : Tab K, (∀ e ∈ x.recs, e.2.key = e.1 ∧ c.hash e.1 % t.tab.parts = x.hashNum) → ∀ k,
      c.hash k % t.tab.parts ≠ x.hashNum → x.recs.find? k = none := by
    intro x hx k hk
    rw [SMap.find?_none_iff]
    intro e he hek
    rw [← hek] at hk
    exact hk (hx e he).2
  -- an old entry against the new contents
  have hcur : ∀ x ∈ t.tab.l0, ∀ e ∈ t.marks x.number, ∀ k,
      (x.setBatch c t.tab.parts x.hashNum R).recs.find? k = e.recs.find? k ∨
        ∃ r, (x.setBatch c t.tab.parts x.hashNum R).recs.find? k = some r ∧ e.chk < r.seq := by
    intro x hx e he k
    obtain ⟨s1, s2, s3⟩ := hsb x hx R
    have ho := (h.entry x hx e he)
    by_cases hk : c.hash k % t.tab.parts = x.hashNum
    · have := s3 k hk
      unfold Tab.get at this
      rw [this]
      cases hl : lastWrite R k with
      | none => simp only [Option.none_or]; exact ho.cur k
      | some r =>
        right
        refine ⟨r, rfl, ?_⟩
        obtain ⟨a, ha, hae⟩ := ho.chk
        rw [← hae]; exact hAR a ha r (lastWrite_mem hl).1
    · left
      rw [SMap.find?_none_iff.2, SMap.find?_none_iff.2]
      · intro a ha hak; rw [← hak] at hk; exact hk (ho.wf.2 a ha).2
      · intro a ha hak; rw [← hak] at hk; exact hk (s2 a ha).2
  have hnew : ∀ x ∈ t.tab.l0, ∀ e, MadeIn c t.tab.parts x.hashNum x cps R e →
      EntryOk c t.tab.parts (A ++ R) (x.setBatch c t.tab.parts x.hashNum R) e := by
    intro x hx e ⟨m1, R1, R2, m2, m3, m4, m5⟩
    obtain ⟨s1, s2, s3⟩ := hsb x hx R
    obtain ⟨q1, q2, q3⟩ := hsb x hx R1
    have hh : (x.setBatch c t.tab.parts x.hashNum R).hashNum = x.hashNum := (tabSetBatch_fields _ _ _ _ _).2.1
    refine ⟨?_, ?_, ?_, ?_⟩
    · rw [hh, m3]; exact ⟨q1, q2⟩
    · intro a ha
      rw [m3] at ha
      rcases tabSetBatch_mem c _ _ R1 x (h.inv.l0Recs x hx).1 ha with h1 | ⟨h1, h2⟩
      · exact Nat.le_of_lt (hcA _ m1 _ (h.recs x hx a h1))
      · exact m4 _ h1 h2
    · obtain ⟨r, hr, hre⟩ := hcps _ m1
      exact ⟨r, List.mem_append_right _ hr, hre⟩
    · intro k
      by_cases hk : c.hash k % t.tab.parts = x.hashNum
      · have e1 := s3 k hk
        have e2 := q3 k hk
        unfold Tab.get at e1 e2
        rw [m3, e1, e2, m2, lastWrite_append]
        cases hl : lastWrite R2 k with
        | none => left; simp
        | some r =>
          right
          refine ⟨r, by simp, ?_⟩
          obtain ⟨l1, l2, l3⟩ := lastWrite_mem hl
          exact m5 r l1 ⟨by rw [l2]; exact hk, l3⟩
      · left
        rw [m3, SMap.find?_none_iff.2, SMap.find?_none_iff.2]
        · intro a ha hak; rw [← hak] at hk; exact hk (q2 a ha).2
        · intro a ha hak; rw [← hak] at hk; exact hk (s2 a ha).2
  refine ⟨b.inv, ?_, ?_, ?_, ?_, ?_, ?_⟩
  · intro n hn
    rw [b.num] at hn
    rw [b.other n (fun x hx e => by have := h.inv.l0Num x hx; omega)]
    exact h.fresh n hn
  · intro y hy a ha
    rw [b.l0] at hy
    obtain ⟨x, hx, rfl⟩ := List.mem_map.1 hy
    rcases hcase x hx with ⟨h1, h2⟩ | ⟨h1, -, -⟩
    · rw [hmb x hx h1 h2] at ha
      rcases tabSetBatch_mem c _ _ R x (h.inv.l0Recs x hx).1 ha with h3 | ⟨h3, -⟩
      · exact List.mem_append_left _ (h.recs x hx a h3)
      · exact List.mem_append_right _ h3
    · rw [h1] at ha; exact List.mem_append_left _ (h.recs x hx a ha)
  · intro y hy
    rw [b.l0] at hy
    obtain ⟨x, hx, rfl⟩ := List.mem_map.1 hy
    rw [(after_fields _ _ _ _ x).1]
    rcases hcase x hx with ⟨h1, h2⟩ | ⟨-, h1, -⟩
    · exact (hmade x hx h1 h2).1
    · rw [h1]; exact h.sorted x hx
  · intro y hy e he
    rw [b.l0] at hy
    obtain ⟨x, hx, rfl⟩ := List.mem_map.1 hy
    rw [(after_fields _ _ _ _ x).1] at he
    rw [b.parts]
    rcases hcase x hx with ⟨h1, h2⟩ | ⟨h1, h2, -⟩
    · rw [hmb x hx h1 h2]
      rcases (hmade x hx h1 h2).2 e he with h3 | h3
      · have ho := h.entry x hx e h3
        refine ⟨?_, ho.le, ?_, hcur x hx e h3⟩
        · rw [(tabSetBatch_fields _ _ _ _ _).2.1]; exact ho.wf
        · obtain ⟨r, hr, hre⟩ := ho.chk; exact ⟨r, List.mem_append_left _ hr, hre⟩
      · exact hnew x hx e h3
    · rw [h1]
      rw [h2] at he
      have ho := h.entry x hx e he
      refine ⟨ho.wf, ho.le, ?_, ho.cur⟩
      obtain ⟨r, hr, hre⟩ := ho.chk; exact ⟨r, List.mem_append_left _ hr, hre⟩
  · intro x' hx y' hy hxy hxn hys e he
    rw [b.l0] at hx hy
    obtain ⟨x, hx0, rfl⟩ := List.mem_map.1 hx
    obtain ⟨y, hy0, rfl⟩ := List.mem_map.1 hy
    clear hx hy
    have hx := hx0
    have hy := hy0
    have fx := after_fields c t.tab.parts R (List.range t.tab.parts).reverse x
    have fy := after_fields c t.tab.parts R (List.range t.tab.parts).reverse y
    rw [fx.2.2] at hxn
    rw [fy.2.2] at hys
    rw [fx.2.1, fy.2.1] at hxy
    rw [fx.1] at he
    have hyc : after c t.tab.parts R (List.range t.tab.parts).reverse y = y ∧ t'.marks y.number = t.marks y.number := by
      rcases hcase y hy with ⟨h1, -⟩ | ⟨h1, h2, -⟩
      · rw [h1] at hys; cases hys
      · exact ⟨h1, h2⟩
    rw [hyc.1, hyc.2]
    rcases hcase x hx with ⟨h1, h2⟩ | ⟨-, h2, -⟩
    · rcases (hmade x hx h1 h2).2 e he with h3 | ⟨h3, -⟩
      · exact h.src x hx y hy hxy hxn hys e h3
      · refine ⟨fun a ha => hcA _ h3 _ (h.recs y hy a ha), fun e' he' => ?_⟩
        obtain ⟨r, hr, hre⟩ := (h.entry y hy e' he').chk
        rw [← hre]; exact hcA _ h3 _ hr
    · rw [h2] at he; exact h.src x hx y hy hxy hxn hys e he
  · intro x' hx hxn e he k hk
    rw [b.l0] at hx
    obtain ⟨x, hx0, rfl⟩ := List.mem_map.1 hx
    clear hx
    have hx := hx0
    have fx := after_fields c t.tab.parts R (List.range t.tab.parts).reverse x
    rw [fx.2.2] at hxn
    rw [fx.1] at he
    rw [fx.2.1, b.parts] at hk
    have hlt : x.hashNum < t.tab.parts := by rw [← hk]; exact Nat.mod_lt _ h.inv.pos
    rw [fx.2.1, b.rest h.inv hlt k, List.filter_append]
    rcases (hmade x hx hxn hlt).2 e he with h3 | h3
    · have ho := h.entry x hx e h3
      have : R.filter (fun r => decide (r.seq ≤ e.chk)) = [] := by
        rw [List.filter_eq_nil_iff]
        intro r hr
        obtain ⟨a, ha, hae⟩ := ho.chk
        have := hAR a ha r hr
        simp; omega
      rw [this, List.append_nil]
      exact h.read x hx hxn e h3 k hk
    · obtain ⟨m1, R1, R2, m2, m3, m4, m5⟩ := h3
      obtain ⟨q1, q2, q3⟩ := hsb x hx R1
      have e2 := q3 k hk
      unfold Tab.get at e2
      rw [m3, e2, Option.or_assoc]
      have hg := get_rest h.inv hx hxn hk
      unfold Tab.get at hg
      rw [← hg]
      unfold valueOf
      rw [lastWrite_append, filter_filter_le (fun r hr _ _ => Nat.le_of_lt (hcA _ m1 r hr)), m2, List.filter_append,
        lastWrite_append, filter_filter_le (X := R1) (fun r hr h1 h2 => m4 r hr ⟨by rw [h2]; exact hk, h1⟩),
        filter_gt (X := R2) (fun r hr h1 h2 => m5 r hr ⟨by rw [h2]; exact hk, h1⟩), Option.none_or]
      exact vis_or (hA k)

end CMgr
end Jungle
