/-
  Tables without level extension: every operation keeps the invariant and the answers.
-/
import Verif.Table.L0OnlyInv

set_option linter.unusedSectionVars false

namespace Jungle
open Spec
namespace L0S
variable {K : Type} [LinearOrder K] [OrderBot K]

/-! ### New database -/

theorem ginv_init (c : TCfg K) {parts : Nat} (hp : 0 < parts) :
    GInv c [] (init parts : L0S K) (fun _ => true) := by
  have hi := TMgr.inv_init c hp
  refine ⟨hp, List.Pairwise.nil, rfl, hi.nums, hi.l0Num, hi.l0Min, fun p d h => (nomatch h), fun p q d h => (nomatch h), ?_⟩
  intro p hpp
  change p < parts at hpp
  have hmem : ∀ x ∈ (TMgr.init parts : TMgr K).l0, x.status = .normal ∧ x.recs = [] := by
    intro x hx
    obtain ⟨i, -, rfl⟩ := TMgr.mem_initL0.1 hx
    exact ⟨rfl, rfl⟩
  obtain ⟨w, hw, hwh, hws⟩ := hi.normEx p hpp
  have hmt : ∀ x ∈ tabs (TMgr.init parts : TMgr K) p, x = w := by
    intro x hx
    have h1 := List.mem_filter.1 hx
    simp only [decide_eq_true_eq] at h1
    exact hi.uniq x h1.1 w hw (by rw [h1.2, hwh]) (by rw [(hmem x h1.1).1, hws])
  have hwm : w ∈ tabs (TMgr.init parts : TMgr K) p := by
    unfold tabs; rw [List.mem_filter]; exact ⟨hw, by simp [hwh]⟩
  have hL : tabs (TMgr.init parts : TMgr K) p = [w] := by
    rcases TMgr.list_single (List.Nodup.of_map _ (tabs_nodup hi.nums p))
      (fun a ha b hb => (hmt a ha).trans (hmt b hb).symm) with h0 | ⟨a, h0⟩
    · rw [h0] at hwm; cases hwm
    · rw [h0] at hwm ⊢
      rw [List.mem_singleton.1 hwm]
  refine ⟨.one w, hws, ?_, ?_, ?_, List.pairwise_singleton _ _, ?_, fun h => absurd rfl h, fun d h => (nomatch h)⟩
  · change (tabs (TMgr.init parts) p).Perm _
    rw [hL]; exact List.Perm.refl _
  · intro _; exact hL
  · intro x hx
    rw [hmt x hx, (hmem w hw).2]
    exact ⟨SMap.sorted_nil, fun e he => by cases he⟩
  · intro k _
    have : w.get k = none := by unfold Tab.get; rw [(hmem w hw).2]; rfl
    simp [Part.chain, chainGet, this, lastWrite_nil]

/-! ### Flush -/

theorem setBatchPart_tabs (c : TCfg K) (t : TMgr K) (R : List (Rec K)) {q : Nat} (hq : q < t.parts)
    (hn : (t.l0.map (·.number)).Nodup) {x : Tab K}
    (hx : TMgr.smallestNormal (tabs t q) none = some x) (hxm : x ∈ tabs t q) :
    (TMgr.setBatchPart c t R q).parts = t.parts ∧ (TMgr.setBatchPart c t R q).lv = t.lv ∧
    (TMgr.setBatchPart c t R q).nextNum = t.nextNum ∧
    (TMgr.setBatchPart c t R q).l0.map (·.number) = t.l0.map (·.number) ∧
    (TMgr.setBatchPart c t R q).l0.map (·.minKey) = t.l0.map (·.minKey) ∧
    ∀ p, tabs (TMgr.setBatchPart c t R q) p =
      if p = q then TMgr.modify (tabs t p) x.number (fun y => y.setBatch c t.parts p R) else tabs t p := by
  have hun : TMgr.setBatchPart c t R q =
      { t with l0 := TMgr.modify t.l0 x.number (fun y => y.setBatch c t.parts q R) } := by
    unfold TMgr.setBatchPart
    rw [TMgr.tablesByHash_eq t hq]
    have : TMgr.smallestNormal (List.filter (fun x => decide (x.hashNum = q)) t.l0) none = some x := hx
    rw [this]
  rw [hun]
  refine ⟨rfl, rfl, rfl, ?_, ?_, ?_⟩
  · simp only [TMgr.modify, List.map_map]
    apply List.map_congr_left
    intro y _
    simp only [Function.comp]
    split
    · exact (TMgr.tabSetBatch_fields c t.parts q R y).1
    · rfl
  · simp only [TMgr.modify, List.map_map]
    apply List.map_congr_left
    intro y _
    simp only [Function.comp]
    split
    · exact (TMgr.tabSetBatch_fields c t.parts q R y).2.2.1
    · rfl
  · intro p
    have hf : ∀ y : Tab K, (if y.number = x.number then y.setBatch c t.parts q R else y).hashNum = y.hashNum := by
      intro y; split
      · exact (TMgr.tabSetBatch_fields c t.parts q R y).2.1
      · rfl
    have h1 : tabs { t with l0 := TMgr.modify t.l0 x.number (fun y => y.setBatch c t.parts q R) } p =
        TMgr.modify (tabs t p) x.number (fun y => y.setBatch c t.parts q R) := by
      unfold tabs TMgr.modify
      simp only
      rw [List.filter_map]
      congr 1
      apply List.filter_congr
      intro y _
      simp only [Function.comp, hf]
    rw [h1]
    split
    · next he => subst he; rfl
    · next he =>
      unfold TMgr.modify
      conv_rhs => rw [← List.map_id (tabs t p)]
      apply List.map_congr_left
      intro y hy
      have hy' := List.mem_filter.1 hy
      have hx' := List.mem_filter.1 hxm
      simp only [decide_eq_true_eq] at hy' hx'
      split
      · next hyx =>
        have := TMgr.eq_of_number hn hy'.1 hx'.1 hyx
        subst this
        exact absurd (hy'.2.symm.trans hx'.2) he
      · rfl

/-- A whole flush, partition by partition. -/
theorem setBatchSome_tabs (c : TCfg K) (R : List (Rec K)) : ∀ (ps : List Nat) (t : TMgr K), ps.Nodup →
    (∀ p ∈ ps, p < t.parts) → (t.l0.map (·.number)).Nodup →
    (∀ p ∈ ps, ∃ x, TMgr.smallestNormal (tabs t p) none = some x ∧ x ∈ tabs t p) →
    let t' := ps.foldl (fun t p => TMgr.setBatchPart c t R p) t
    t'.parts = t.parts ∧ t'.lv = t.lv ∧ t'.nextNum = t.nextNum ∧
    t'.l0.map (·.number) = t.l0.map (·.number) ∧ t'.l0.map (·.minKey) = t.l0.map (·.minKey) ∧
    ∀ p x, TMgr.smallestNormal (tabs t p) none = some x → tabs t' p =
      if p ∈ ps then TMgr.modify (tabs t p) x.number (fun y => y.setBatch c t.parts p R) else tabs t p
  | [], t, _, _, _, _ => ⟨rfl, rfl, rfl, rfl, rfl, fun p x _ => by simp⟩
  | q :: ps, t, hnd, hps, hn, hsm => by
    obtain ⟨x, hx, hxm⟩ := hsm q (by simp)
    have hnd' := List.nodup_cons.1 hnd
    obtain ⟨j1, j2, j3, j4, j5, j6⟩ := setBatchPart_tabs c t R (hps q (by simp)) hn hx hxm
    have hne : ∀ p ∈ ps, tabs (TMgr.setBatchPart c t R q) p = tabs t p := by
      intro p hp
      rw [j6 p, if_neg]
      rintro rfl; exact hnd'.1 hp
    obtain ⟨i1, i2, i3, i4, i5, i6⟩ := setBatchSome_tabs c R ps (TMgr.setBatchPart c t R q) hnd'.2
      (fun p hp => by rw [j1]; exact hps p (by simp [hp])) (by rw [j4]; exact hn)
      (fun p hp => by rw [hne p hp]; exact hsm p (by simp [hp]))
    simp only [List.foldl_cons]
    refine ⟨i1.trans j1, i2.trans j2, i3.trans j3, i4.trans j4, i5.trans j5, ?_⟩
    intro p y hy
    by_cases hpq : p = q
    · subst hpq
      rw [hx] at hy; cases hy
      -- later partitions leave it alone
      have hfin : ∀ (l : List Nat) (u : TMgr K), p ∉ l → (∀ r ∈ l, r < u.parts) → (u.l0.map (·.number)).Nodup →
          l.Nodup → (∀ r ∈ l, ∃ x, TMgr.smallestNormal (tabs u r) none = some x ∧ x ∈ tabs u r) →
          tabs (l.foldl (fun t p => TMgr.setBatchPart c t R p) u) p = tabs u p := by
        intro l
        induction l with
        | nil => intro u _ _ _ _ _; rfl
        | cons r l ih =>
          intro u hpl hlt hun hln hls
          obtain ⟨z, hz, hzm⟩ := hls r (by simp)
          have hln' := List.nodup_cons.1 hln
          obtain ⟨m1, _, _, m4, _, m6⟩ := setBatchPart_tabs c u R (hlt r (by simp)) hun hz hzm
          rw [List.foldl_cons, ih (TMgr.setBatchPart c u R r) (fun hm => hpl (by simp [hm]))
            (fun w hw => by rw [m1]; exact hlt w (by simp [hw])) (by rw [m4]; exact hun) hln'.2
            (fun w hw => by
              rw [m6 w, if_neg (by rintro rfl; exact hln'.1 hw)]
              exact hls w (by simp [hw])), m6 p, if_neg (by rintro rfl; exact hpl (by simp))]
      rw [hfin ps (TMgr.setBatchPart c t R p) hnd'.1 (fun r hr => by rw [j1]; exact hps r (by simp [hr]))
        (by rw [j4]; exact hn) hnd'.2 (fun r hr => by rw [hne r hr]; exact hsm r (by simp [hr])),
        j6 p, if_pos rfl, if_pos (by simp)]
    · have h1 : tabs (TMgr.setBatchPart c t R q) p = tabs t p := by rw [j6 p, if_neg hpq]
      rw [i6 p y (by rw [h1]; exact hy), h1, j1]
      simp [hpq]

/-- The partition with its writable table changed. -/
def Part.setTop : Part K → Tab K → Part K
  | .one _, x => .one x
  | .src _ s, x => .src x s
  | .two _ d, x => .two x d
  | .merging _ a b, x => .merging x a b

theorem PInv.flush {c : TCfg K} {parts : Nat} {h : List (Rec K)} {p : Nat} {L : List (Tab K)}
    {run : Option Nat} {o : Bool} {q : Part K} (hi : PInv c parts h p L run o q)
    (hn : (L.map (·.number)).Nodup) {R : List (Rec K)} (hinc : Increasing (h ++ R)) :
    PInv c parts (h ++ R) p (TMgr.modify L q.top.number (fun y => y.setBatch c parts p R)) run o
      (q.setTop (q.top.setBatch c parts p R)) := by
  obtain ⟨f1, f2, f3, f4⟩ := TMgr.tabSetBatch_fields c parts p R q.top
  have htop : q.top ∈ L := by apply hi.perm.mem_iff.2; rw [Part.chain_eq]; simp
  have hrt := hi.recs q.top htop
  obtain ⟨b1, b2, b3⟩ := TMgr.tabSetBatch_ok c parts p R q.top hrt.1
    (fun e he => ⟨(hrt.2 e he).1, (hrt.2 e he).2.1⟩)
  have hndc : (q.chain.map (·.number)).Nodup := (hi.perm.map _).nodup_iff.1 hn
  rw [Part.chain_eq] at hndc
  have hrest : ∀ x ∈ q.rest, x.number ≠ q.top.number := by
    intro x hx he
    rw [List.map_cons, List.nodup_cons] at hndc
    exact hndc.1 (he ▸ List.mem_map_of_mem hx)
  have hset : (q.setTop (q.top.setBatch c parts p R)).chain = q.top.setBatch c parts p R :: q.rest := by
    cases q <;> rfl
  have hmod : TMgr.modify q.chain q.top.number (fun y => y.setBatch c parts p R) =
      q.top.setBatch c parts p R :: q.rest := by
    rw [Part.chain_eq]
    unfold TMgr.modify
    rw [List.map_cons, if_pos rfl]
    congr 1
    conv_rhs => rw [← List.map_id q.rest]
    apply List.map_congr_left
    intro x hx
    rw [if_neg (hrest x hx)]; rfl
  have hmodArr : TMgr.modify q.arr q.top.number (fun y => y.setBatch c parts p R) =
      (q.setTop (q.top.setBatch c parts p R)).arr := by
    cases q with
    | one w => simp [TMgr.modify, Part.arr, Part.top, Part.setTop]
    | src w s =>
      have := hrest s (by simp [Part.rest])
      simp only [Part.top] at this
      simp [TMgr.modify, Part.arr, Part.top, Part.setTop, this]
    | two w d =>
      have := hrest d (by simp [Part.rest])
      simp only [Part.top] at this
      simp [TMgr.modify, Part.arr, Part.top, Part.setTop, this]
    | merging w a b =>
      have h1 := hrest a (by simp [Part.rest])
      have h2 := hrest b (by simp [Part.rest])
      simp only [Part.top] at h1 h2
      simp [TMgr.modify, Part.arr, Part.top, Part.setTop, h1, h2]
  have hget : ∀ k, c.hash k % parts ≠ p → ∀ x ∈ L, x.get k = none := by
    intro k hk x hx
    apply SMap.find?_none_iff.2
    intro e he heq
    exact hk (heq ▸ ((hi.recs x hx).2 e he).2.1)
  have hnew : ∀ k r, (q.top.setBatch c parts p R).get k = some r → r ∈ R ∨ q.top.get k = some r := by
    intro k r hr
    by_cases hk : c.hash k % parts = p
    · rw [b3 k hk] at hr
      cases hl : lastWrite R k with
      | none => rw [hl] at hr; exact Or.inr (by simpa using hr)
      | some r' =>
        rw [hl] at hr
        simp only [Option.some_or, Option.some.injEq] at hr
        subst hr
        exact Or.inl (lastWrite_mem hl).1
    · exfalso
      have := SMap.find?_some_mem hr
      exact hk (b2 _ this).2
  have hlt : ∀ r ∈ R, ∀ r' ∈ h, r'.seq < r.seq := fun r hr r' hr' =>
    (List.pairwise_append.1 hinc).2.2 r' hr' r hr
  refine ⟨?_, ?_, ?_, ?_, ?_, ?_, ?_, ?_⟩
  · have := hi.ok
    cases q <;> simp only [Part.setTop, Part.Ok, Part.top] at this ⊢
    · exact f4.trans this
    · exact ⟨f4.trans this.1, this.2⟩
    · refine ⟨f4.trans this.1, this.2.1, ?_⟩
      simp only [Part.top] at f1
      rw [f1]; exact this.2.2
    · exact ⟨f4.trans this.1, this.2⟩
  · rw [hset, ← hmod]; exact hi.perm.map _
  · intro ho
    rw [hi.ord ho]; exact hmodArr
  · intro x hx
    obtain ⟨y, hy, rfl⟩ := TMgr.mem_modify.1 hx
    split
    · next he =>
      have : y = q.top := TMgr.eq_of_number hn hy htop he
      subst this
      refine ⟨b1, fun e he => ⟨(b2 e he).1, (b2 e he).2, ?_⟩⟩
      rcases hnew e.1 e.2 (SMap.find?_of_mem b1 he) with h1 | h1
      · exact List.mem_append_right _ h1
      · exact List.mem_append_left _ (hrt.2 _ (SMap.find?_some_mem h1)).2.2
    · obtain ⟨g1, g2⟩ := hi.recs y hy
      exact ⟨g1, fun e he => ⟨(g2 e he).1, (g2 e he).2.1, List.mem_append_left _ (g2 e he).2.2⟩⟩
  · rw [hset]
    have hd := hi.desc
    rw [Part.chain_eq, List.pairwise_cons] at hd
    refine List.pairwise_cons.2 ⟨?_, hd.2⟩
    intro b hb k ra rb hra hrb
    have hbL : b ∈ L := by apply hi.perm.mem_iff.2; rw [Part.chain_eq]; simp [hb]
    rcases hnew k ra hra with h1 | h1
    · exact hlt ra h1 rb ((hi.recs b hbL).2 _ (SMap.find?_some_mem hrb)).2.2
    · exact hd.1 b hb k ra rb h1 hrb
  · intro k hk
    rw [hset, lastWrite_append]
    have h1 : chainGet (q.top.setBatch c parts p R :: q.rest) k =
        (lastWrite R k).or (chainGet q.chain k) := by
      rw [Part.chain_eq]
      unfold chainGet
      rw [List.findSome?_cons, List.findSome?_cons, b3 k hk]
      cases lastWrite R k <;> simp
    rw [h1]
    have := hi.right k hk
    cases lastWrite R k with
    | none => simpa using this
    | some r => rfl
  · intro hr
    have := hi.idle hr
    cases q <;> exact this
  · intro d hd x hx
    obtain ⟨y, hy, rfl⟩ := TMgr.mem_modify.1 hx
    have := hi.dst d hd y hy
    split
    · rw [(TMgr.tabSetBatch_fields c parts p R y).1]; exact this
    · exact this

theorem ginv_flush {c : TCfg K} {h : List (Rec K)} {s : L0S K} {o : Nat → Bool} (hg : GInv c h s o)
    {R : List (Rec K)} (hinc : Increasing (h ++ R)) : GInv c (h ++ R) (s.setBatch c R) o := by
  have hsm : ∀ p ∈ List.range s.t.parts, ∃ x, TMgr.smallestNormal (tabs s.t p) none = some x ∧ x ∈ tabs s.t p := by
    intro p hp
    obtain ⟨q, hq⟩ := hg.part p (List.mem_range.1 hp)
    exact ⟨q.top, hq.smallest, hq.perm.mem_iff.2 (by rw [Part.chain_eq]; simp)⟩
  obtain ⟨i1, i2, i3, i4, i5, i6⟩ := setBatchSome_tabs c R (List.range s.t.parts) s.t List.nodup_range
    (fun p hp => List.mem_range.1 hp) hg.nums hsm
  have hun : (s.setBatch c R).t = (List.range s.t.parts).foldl (fun t p => TMgr.setBatchPart c t R p) s.t := rfl
  have hrun : (s.setBatch c R).run = s.run := rfl
  have hnum : ∀ x ∈ (s.setBatch c R).t.l0, ∃ y ∈ s.t.l0, y.number = x.number := by
    intro x hx
    have : x.number ∈ (s.setBatch c R).t.l0.map (·.number) := List.mem_map_of_mem hx
    rw [hun, i4] at this
    obtain ⟨y, hy, he⟩ := List.mem_map.1 this
    exact ⟨y, hy, he⟩
  refine ⟨?_, hinc, ?_, ?_, ?_, ?_, ?_, ?_, ?_⟩
  · rw [hun, i1]; exact hg.pos
  · rw [hun, i2]; exact hg.lv
  · rw [hun, i4]; exact hg.nums
  · intro x hx
    obtain ⟨y, hy, he⟩ := hnum x hx
    rw [hun, i3, ← he]; exact hg.l0Num y hy
  · intro x hx
    have : x.minKey ∈ (s.setBatch c R).t.l0.map (·.minKey) := List.mem_map_of_mem hx
    rw [hun, i5] at this
    obtain ⟨y, hy, he⟩ := List.mem_map.1 this
    rw [← he]; exact hg.l0Min y hy
  · intro p d hd
    rw [hrun] at hd
    obtain ⟨g1, g2, g3⟩ := hg.runP p d hd
    refine ⟨by rw [hun, i1]; exact g1, by rw [hun, i3]; exact g2, ?_⟩
    intro x hx
    obtain ⟨y, hy, he⟩ := hnum x hx
    rw [← he]; exact g3 y hy
  · exact hg.runInj
  · intro p hp
    rw [hun, i1] at hp
    obtain ⟨q, hq⟩ := hg.part p hp
    refine ⟨q.setTop (q.top.setBatch c s.t.parts p R), ?_⟩
    have h1 := hq.flush (tabs_nodup hg.nums p) hinc
    rw [hrun, hun, i1, i6 p q.top hq.smallest, if_pos (List.mem_range.2 hp)]
    exact h1

/-! ### Which tables a compaction takes -/

theorem byNumber_eq {L : List (Tab K)} {q : Part K} (hp : L.Perm q.chain) (ho : q.Ok) :
    byNumber L .compactSrc = (if q.busy then q.rest else []) ∧
    (q.busy = false → byNumber L .normal = q.chain) := by
  have f1 := hp.filter (fun x => decide (x.status = .compactSrc))
  have f2 := hp.filter (fun x => decide (x.status = .normal))
  unfold byNumber
  cases q with
  | one w =>
    simp only [Part.Ok] at ho
    simp only [Part.chain, List.filter_cons, ho, List.filter_nil, reduceCtorEq, decide_false, decide_true,
      if_true, Bool.false_eq_true, if_false] at f1 f2
    rw [List.perm_nil.1 f1, List.perm_singleton.1 f2]
    exact ⟨rfl, fun _ => rfl⟩
  | src w s =>
    obtain ⟨o1, o2⟩ := ho
    simp only [Part.chain, List.filter_cons, o1, o2, List.filter_nil, reduceCtorEq, decide_false, decide_true,
      if_true, Bool.false_eq_true, if_false] at f1 f2
    rw [List.perm_singleton.1 f1]
    exact ⟨rfl, fun h => by cases h⟩
  | two w d =>
    obtain ⟨o1, o2, o3⟩ := ho
    simp only [Part.chain, List.filter_cons, o1, o2, List.filter_nil, reduceCtorEq, decide_false, decide_true,
      if_true, Bool.false_eq_true, if_false] at f1 f2
    rw [List.perm_nil.1 f1]
    refine ⟨rfl, fun _ => ?_⟩
    rcases perm_pair f2 with h | h <;> rw [h]
    · simp [insNum, o3, Part.chain]
    · have : ¬ d.number < w.number := by omega
      simp [insNum, this, Part.chain]
  | merging w a b =>
    obtain ⟨o1, o2, o3, o4⟩ := ho
    simp only [Part.chain, List.filter_cons, o1, o2, o3, List.filter_nil, reduceCtorEq, decide_false, decide_true,
      if_true, Bool.false_eq_true, if_false] at f1 f2
    refine ⟨?_, fun h => by cases h⟩
    rcases perm_pair f1 with h | h <;> rw [h]
    · simp [insNum, o4, Part.busy, Part.rest]
    · have : ¬ b.number < a.number := by omega
      simp [insNum, this, Part.busy, Part.rest]

theorem pick_eq {t : TMgr K} {p : Nat} (hp : p < t.parts) {q : Part K} (hperm : (tabs t p).Perm q.chain)
    (ho : q.Ok) : pick t p = if q.busy then q.rest else q.chain := by
  obtain ⟨h1, h2⟩ := byNumber_eq hperm ho
  have hun : pick t p = match byNumber (tabs t p) .compactSrc with
      | [] => (byNumber (tabs t p) .normal).take 2
      | l => l.take 2 := by
    unfold pick
    rw [TMgr.tablesByHash_eq t hp]
    rfl
  rw [hun, h1]
  cases q with
  | one w => rw [h2 rfl]; rfl
  | src w s => rfl
  | two w d => rw [h2 rfl]; rfl
  | merging w a b => rfl

/-! ### Start of a compaction -/

theorem addTable_front (l : List (Tab K)) {x : Tab K} (hx : x.minKey = ⊥) : TMgr.addTable l x = x :: l := by
  cases l with
  | nil => rfl
  | cons y ys => unfold TMgr.addTable; rw [if_pos (by rw [hx]; exact bot_le)]

/-- The table marked as source. -/
def toSrc (x : Tab K) : Tab K := { x with status := .compactSrc }

theorem toSrc_get (x : Tab K) (k : K) : (toSrc x).get k = x.get k := rfl

theorem toSrc_eq {x : Tab K} (h : x.status = .compactSrc) : toSrc x = x := by
  cases x; simp only at h; subst h; rfl

theorem chainGet_toSrc (l : List (Tab K)) (k : K) : chainGet (l.map toSrc) k = chainGet l k := by
  unfold chainGet
  rw [List.findSome?_map]
  rfl

theorem mem_tabs {t : TMgr K} {p : Nat} {x : Tab K} : x ∈ tabs t p ↔ x ∈ t.l0 ∧ x.hashNum = p := by
  unfold tabs; rw [List.mem_filter]; simp

theorem ginv_begin {c : TCfg K} {h : List (Rec K)} {s : L0S K} {o : Nat → Bool} (hg : GInv c h s o)
    {p : Nat} (hp : p < s.t.parts) : GInv c h (s.begin p) o := by
  cases hr : s.run p with
  | some d =>
    have : s.begin p = s := by unfold begin; rw [hr]
    rw [this]; exact hg
  | none =>
  obtain ⟨q, hq⟩ := hg.part p hp
  have hpk := pick_eq hp hq.perm hq.ok
  have hchain : ∀ x, x ∈ tabs s.t p ↔ x ∈ q.chain := fun x => hq.perm.mem_iff
  cases hb : q.busy with
  | true =>
    -- the marks of an interrupted compaction are still there
    have hsrc : ∀ x ∈ q.rest, x.status = .compactSrc := by
      have := hq.ok
      cases q with
      | one | two => cases hb
      | src w z => intro x hx; rw [List.mem_singleton.1 hx]; exact this.2
      | merging w a b =>
        intro x hx
        simp only [Part.rest, List.mem_cons, List.not_mem_nil, or_false] at hx
        rcases hx with rfl | rfl
        · exact this.2.1
        · exact this.2.2.1
    rw [hb, if_pos rfl] at hpk
    obtain ⟨a, l, hal⟩ : ∃ a l, q.rest = a :: l := by
      cases q with
      | one | two => cases hb
      | src w z => exact ⟨z, [], rfl⟩
      | merging w a b => exact ⟨a, [b], rfl⟩
    have hrl : ∀ x ∈ q.rest, x ∈ s.t.l0 := fun x hx =>
      (mem_tabs.1 ((hchain x).2 (by rw [Part.chain_eq]; simp [hx]))).1
    have hun : s.begin p = { t := { s.t with nextNum := s.t.nextNum + 1 }
                             run := fun r => if r = p then some s.t.nextNum else s.run r } := by
      unfold begin
      rw [hr, hpk, hal]
      simp only
      rw [if_neg (by rw [hsrc a (by rw [hal]; simp)]; simp)]
      congr 2
      conv_rhs => rw [← List.map_id s.t.l0]
      apply List.map_congr_left
      intro x hx
      split
      · next hm =>
        obtain ⟨y, hy, he⟩ := List.mem_map.1 hm
        have hyr : y ∈ q.rest := by rw [hal]; exact hy
        have : y = x := TMgr.eq_of_number hg.nums (hrl y hyr) hx he
        subst this
        exact toSrc_eq (hsrc y hyr)
      · rfl
    rw [hun]
    refine ⟨hg.pos, hg.inc, hg.lv, hg.nums, ?_, hg.l0Min, ?_, ?_, ?_⟩
    · intro x hx; have := hg.l0Num x hx; simp only; omega
    · intro p' d hd
      simp only at hd ⊢
      split at hd
      · next he =>
        cases hd
        refine ⟨he ▸ hp, by omega, ?_⟩
        intro x hx; have := hg.l0Num x hx; omega
      · obtain ⟨g1, g2, g3⟩ := hg.runP p' d hd
        exact ⟨g1, by omega, g3⟩
    · intro p1 p2 d h1 h2
      simp only at h1 h2
      split at h1 <;> split at h2
      · next e1 e2 => exact e1.trans e2.symm
      · cases h1; have := (hg.runP p2 _ h2).2.1; omega
      · cases h2; have := (hg.runP p1 _ h1).2.1; omega
      · exact hg.runInj p1 p2 d h1 h2
    · intro p' hp'
      by_cases he : p' = p
      · subst he
        refine ⟨q, hq.ok, hq.perm, hq.ord, hq.recs, hq.desc, hq.right, fun _ => hb, ?_⟩
        intro d hd x hx
        simp only [if_true] at hd
        cases hd
        exact hg.l0Num x (mem_tabs.1 hx).1
      · obtain ⟨q', hq'⟩ := hg.part p' hp'
        refine ⟨q', ?_⟩
        simp only [if_neg he]
        exact hq'
  | false =>
    rw [hb] at hpk
    simp only [Bool.false_eq_true, if_false] at hpk
    obtain ⟨a, l, hal⟩ : ∃ a l, q.chain = a :: l := ⟨_, _, Part.chain_eq q⟩
    have hnorm : ∀ x ∈ q.chain, x.status = .normal := by
      have := hq.ok
      cases q with
      | one w => intro x hx; rw [List.mem_singleton.1 hx]; exact this
      | two w d =>
        intro x hx
        simp only [Part.chain, List.mem_cons, List.not_mem_nil, or_false] at hx
        rcases hx with rfl | rfl
        · exact this.1
        · exact this.2.1
      | src | merging => cases hb
    generalize hN : ({ number := s.t.nextNum, hashNum := p, minKey := ⊥ } : Tab K) = N
    have hNn : N.number = s.t.nextNum := by rw [← hN]
    have hNh : N.hashNum = p := by rw [← hN]
    have hNm : N.minKey = ⊥ := by rw [← hN]
    have hNs : N.status = .normal := by rw [← hN]
    have hNr : N.recs = [] := by rw [← hN]
    have hNg : ∀ k, N.get k = none := by intro k; unfold Tab.get; rw [hNr]; rfl
    generalize hmk : (fun x : Tab K => if x.number ∈ q.chain.map (·.number) then
      { x with status := TStatus.compactSrc } else x) = mark
    have hun : s.begin p = { t := { s.t with nextNum := s.t.nextNum + 2, l0 := N :: s.t.l0.map mark }
                             run := fun r => if r = p then some (s.t.nextNum + 1) else s.run r } := by
      unfold begin
      rw [hr, hpk, hal]
      simp only
      rw [if_pos (hnorm a (by rw [hal]; simp))]
      simp only
      rw [hN, addTable_front _ hNm, ← hal, hmk, List.map_cons]
      congr 2
      · rw [← hmk]
        simp only
        rw [if_neg]
        rw [hNn]
        intro hm
        obtain ⟨y, hy, he⟩ := List.mem_map.1 hm
        have := hg.l0Num y (mem_tabs.1 ((hchain y).2 hy)).1
        omega
    have m1 : ∀ x, (mark x).number = x.number := by intro x; rw [← hmk]; simp only; split <;> rfl
    have m2 : ∀ x, (mark x).hashNum = x.hashNum := by intro x; rw [← hmk]; simp only; split <;> rfl
    have m3 : ∀ x, (mark x).minKey = x.minKey := by intro x; rw [← hmk]; simp only; split <;> rfl
    have m4 : ∀ x ∈ tabs s.t p, mark x = toSrc x := by
      intro x hx; rw [← hmk]; simp only
      rw [if_pos (List.mem_map_of_mem ((hchain x).1 hx))]; rfl
    have m5 : ∀ p', p' ≠ p → ∀ x ∈ tabs s.t p', mark x = x := by
      intro p' hne x hx; rw [← hmk]; simp only
      rw [if_neg]
      intro hm
      obtain ⟨y, hy, he⟩ := List.mem_map.1 hm
      have hx' := mem_tabs.1 hx
      have hy' := mem_tabs.1 ((hchain y).2 hy)
      have := TMgr.eq_of_number hg.nums hy'.1 hx'.1 he
      subst this
      exact hne (hx'.2.symm.trans hy'.2)
    have htabs : ∀ p', tabs ({ s.t with nextNum := s.t.nextNum + 2, l0 := N :: s.t.l0.map mark } : TMgr K) p' =
        if p' = p then N :: (tabs s.t p).map toSrc else tabs s.t p' := by
      intro p'
      have hfm : (s.t.l0.map mark).filter (fun x => decide (x.hashNum = p')) = (tabs s.t p').map mark := by
        unfold tabs
        rw [List.filter_map]
        congr 1
        apply List.filter_congr
        intro x _
        simp only [Function.comp, m2]
      unfold tabs
      simp only
      rw [List.filter_cons, hNh]
      by_cases he : p' = p
      · subst he
        simp only [decide_true, if_true]
        rw [hfm]
        congr 1
        exact List.map_congr_left m4
      · have : ¬ p = p' := fun e => he e.symm
        simp only [this, decide_false, Bool.false_eq_true, if_false, if_neg he]
        rw [hfm]
        conv_rhs => rw [← List.map_id (List.filter (fun x => decide (x.hashNum = p')) s.t.l0)]
        exact List.map_congr_left (m5 p' he)
    rw [hun]
    have hnm : ((N :: s.t.l0.map mark).map (·.number)) = s.t.nextNum :: s.t.l0.map (·.number) := by
      rw [List.map_cons, hNn, List.map_map]
      congr 1
      apply List.map_congr_left
      intro x _; exact m1 x
    have hmem : ∀ x ∈ N :: s.t.l0.map mark, x = N ∨ ∃ y ∈ s.t.l0, x = mark y := by
      intro x hx
      rcases List.mem_cons.1 hx with rfl | hx
      · exact Or.inl rfl
      · obtain ⟨y, hy, rfl⟩ := List.mem_map.1 hx; exact Or.inr ⟨y, hy, rfl⟩
    refine ⟨hg.pos, hg.inc, hg.lv, ?_, ?_, ?_, ?_, ?_, ?_⟩
    · simp only
      rw [hnm, List.nodup_cons]
      refine ⟨?_, hg.nums⟩
      intro hm
      obtain ⟨y, hy, he⟩ := List.mem_map.1 hm
      have := hg.l0Num y hy
      omega
    · intro x hx
      rcases hmem x hx with rfl | ⟨y, hy, rfl⟩
      · simp only; omega
      · rw [m1]; have := hg.l0Num y hy; simp only; omega
    · intro x hx
      rcases hmem x hx with rfl | ⟨y, hy, rfl⟩
      · exact hNm
      · rw [m3]; exact hg.l0Min y hy
    · intro p' d hd
      simp only at hd ⊢
      split at hd
      · next he =>
        cases hd
        refine ⟨he ▸ hp, by omega, ?_⟩
        intro x hx
        rcases hmem x hx with rfl | ⟨y, hy, rfl⟩
        · omega
        · rw [m1]; have := hg.l0Num y hy; omega
      · obtain ⟨g1, g2, g3⟩ := hg.runP p' d hd
        refine ⟨g1, by omega, ?_⟩
        intro x hx
        rcases hmem x hx with rfl | ⟨y, hy, rfl⟩
        · omega
        · rw [m1]; exact g3 y hy
    · intro p1 p2 d h1 h2
      simp only at h1 h2
      split at h1 <;> split at h2
      · next e1 e2 => exact e1.trans e2.symm
      · cases h1; have := (hg.runP p2 _ h2).2.1; omega
      · cases h2; have := (hg.runP p1 _ h1).2.1; omega
      · exact hg.runInj p1 p2 d h1 h2
    · intro p' hp'
      simp only
      rw [htabs p']
      by_cases he : p' = p
      · subst he
        rw [if_pos rfl]
        simp only [if_true]
        have hrecs : ∀ x ∈ N :: (tabs s.t p').map toSrc, x.recs.Sorted ∧
            ∀ e ∈ x.recs, e.2.key = e.1 ∧ c.hash e.1 % s.t.parts = p' ∧ e.2 ∈ h := by
          intro x hx
          rcases List.mem_cons.1 hx with rfl | hx
          · rw [hNr]; exact ⟨SMap.sorted_nil, fun e he => by cases he⟩
          · obtain ⟨y, hy, rfl⟩ := List.mem_map.1 hx
            exact hq.recs y hy
        have hdst : ∀ d, some (s.t.nextNum + 1) = some d → ∀ x ∈ N :: (tabs s.t p').map toSrc, x.number < d := by
          intro d hd x hx
          cases hd
          rcases List.mem_cons.1 hx with rfl | hx
          · omega
          · obtain ⟨y, hy, rfl⟩ := List.mem_map.1 hx
            have := hg.l0Num y (mem_tabs.1 hy).1
            change y.number < _
            omega
        have hdesc : (N :: q.chain.map toSrc).Pairwise Above := by
          refine List.pairwise_cons.2 ⟨?_, ?_⟩
          · intro b _ k ra rb hra; rw [hNg] at hra; cases hra
          · rw [List.pairwise_map]; exact hq.desc
        have hright : ∀ k, c.hash k % s.t.parts = p' →
            vis (chainGet (N :: q.chain.map toSrc) k) = vis (lastWrite h k) := by
          intro k hk
          have : chainGet (N :: q.chain.map toSrc) k = chainGet q.chain k := by
            unfold chainGet
            rw [List.findSome?_cons, hNg]
            exact chainGet_toSrc q.chain k
          rw [this]; exact hq.right k hk
        have hperm : (N :: (tabs s.t p').map toSrc).Perm (N :: q.chain.map toSrc) :=
          (hq.perm.map _).cons _
        have hord := hq.ord
        have hok := hq.ok
        cases q with
        | one w =>
          refine ⟨.src N (toSrc w), ⟨hNs, rfl⟩, hperm, ?_, hrecs, hdesc, hright, fun _ => rfl, hdst⟩
          intro ho; rw [hord ho]; rfl
        | two w d =>
          refine ⟨.merging N (toSrc w) (toSrc d), ⟨hNs, rfl, rfl, hok.2.2⟩, hperm, ?_, hrecs, hdesc, hright,
            fun _ => rfl, hdst⟩
          intro ho; rw [hord ho]; rfl
        | src | merging => cases hb
      · rw [if_neg he]
        simp only [if_neg he]
        exact hg.part p' hp'

/-! ### End of a compaction -/

theorem ginv_cancel {c : TCfg K} {h : List (Rec K)} {s : L0S K} {o : Nat → Bool} (hg : GInv c h s o)
    (p : Nat) : GInv c h (s.cancel p) o := by
  refine ⟨hg.pos, hg.inc, hg.lv, hg.nums, hg.l0Num, hg.l0Min, ?_, ?_, ?_⟩
  · intro p' d hd
    simp only [cancel] at hd
    split at hd
    · cases hd
    · exact hg.runP p' d hd
  · intro p1 p2 d h1 h2
    simp only [cancel] at h1 h2
    split at h1
    · cases h1
    · split at h2
      · cases h2
      · exact hg.runInj p1 p2 d h1 h2
  · intro p' hp'
    obtain ⟨q, hq⟩ := hg.part p' hp'
    refine ⟨q, hq.ok, hq.perm, hq.ord, hq.recs, hq.desc, hq.right, ?_, ?_⟩
    · intro hr
      apply hq.idle
      intro h0
      apply hr
      simp only [cancel]
      split
      · rfl
      · exact h0
    · intro d hd
      simp only [cancel] at hd
      split at hd
      · cases hd
      · exact hq.dst d hd

theorem ginv_reopen {c : TCfg K} {h : List (Rec K)} {s : L0S K} {o : Nat → Bool} (hg : GInv c h s o) :
    GInv c h s.reopen (fun _ => false) := by
  have hl0 : s.reopen.t.l0 = s.t.l0.reverse := by
    have : ∀ (l acc : List (Tab K)), (∀ x ∈ l, x.minKey = ⊥) → l.foldl TMgr.addTable acc = l.reverse ++ acc := by
      intro l
      induction l with
      | nil => intro acc _; rfl
      | cons x l ih =>
        intro acc hm
        rw [List.foldl_cons, addTable_front _ (hm x (by simp)), ih _ (fun y hy => hm y (by simp [hy]))]
        simp
    have := this s.t.l0 [] hg.l0Min
    rw [List.append_nil] at this
    exact this
  have hmem : ∀ x, x ∈ s.reopen.t.l0 ↔ x ∈ s.t.l0 := by intro x; rw [hl0]; exact List.mem_reverse
  refine ⟨hg.pos, hg.inc, ?_, ?_, ?_, ?_, fun p d hd => (nomatch hd), fun p q d hd => (nomatch hd), ?_⟩
  · change s.t.lv.map _ = []
    rw [hg.lv]; rfl
  · rw [hl0, List.map_reverse]; exact List.nodup_reverse.2 hg.nums
  · intro x hx; exact hg.l0Num x ((hmem x).1 hx)
  · intro x hx; exact hg.l0Min x ((hmem x).1 hx)
  · intro p hp
    obtain ⟨q, hq⟩ := hg.part p hp
    have htabs : tabs s.reopen.t p = (tabs s.t p).reverse := by
      unfold tabs; rw [hl0, List.filter_reverse]
    refine ⟨q, hq.ok, ?_, fun hf => (nomatch hf), ?_, hq.desc, hq.right, fun hf => absurd rfl hf, fun d hd => (nomatch hd)⟩
    · rw [htabs]; exact (List.reverse_perm _).trans hq.perm
    · intro x hx
      rw [htabs] at hx
      exact hq.recs x (List.mem_reverse.1 hx)

/-- The destination holds what the sources hold, without their deletions. -/
theorem dstRecs_ok {c : TCfg K} {parts : Nat} {h : List (Rec K)} {p : Nat} {L : List (Tab K)}
    {run : Option Nat} {o : Bool} {q : Part K} (hi : PInv c parts h p L run o q) (hb : q.busy = true)
    (pres : Bool) :
    (dstRecs q.rest pres).Sorted ∧
    (∀ e ∈ dstRecs q.rest pres, e.2.key = e.1 ∧ c.hash e.1 % parts = p ∧ e.2 ∈ h) ∧
    (∀ k r, SMap.find? (dstRecs q.rest pres) k = some r → ∃ x ∈ q.rest, x.get k = some r) ∧
    (∀ k, vis (SMap.find? (dstRecs q.rest pres) k) = vis (chainGet q.rest k)) := by
  have hrl : ∀ x ∈ q.rest, x ∈ L := fun x hx =>
    hi.perm.mem_iff.2 (by rw [Part.chain_eq]; simp [hx])
  -- a filtered map
  have hfil : ∀ (m : SMap K (Rec K)), m.Sorted →
      SMap.Sorted (m.filter (fun e => pres || !e.2.isDel)) ∧
      ∀ k, SMap.find? (m.filter (fun e => pres || !e.2.isDel)) k =
        (SMap.find? m k).bind (fun r => if pres || !r.isDel then some r else none) := by
    intro m hm
    have hs : SMap.Sorted (m.filter (fun e => pres || !e.2.isDel)) := List.Pairwise.sublist List.filter_sublist hm
    refine ⟨hs, fun k => ?_⟩
    apply Option.ext
    intro r
    rw [← SMap.mem_iff_find? hs, List.mem_filter, SMap.mem_iff_find? hm]
    cases hf : SMap.find? m k with
    | none => simp
    | some r' =>
      simp only [Option.bind_some, Option.some.injEq]
      constructor
      · rintro ⟨rfl, h2⟩; rw [if_pos h2]
      · intro h2
        split at h2
        · next h3 => cases h2; exact ⟨rfl, h3⟩
        · cases h2
  have hvis : ∀ o : Option (Rec K), vis (o.bind (fun r => if pres || !r.isDel then some r else none)) = vis o := by
    intro o
    cases o with
    | none => rfl
    | some r =>
      simp only [Option.bind_some]
      cases hd : r.isDel <;> cases pres <;> simp [vis, hd]
  have hdesc := hi.desc
  have main : ∀ (m : SMap K (Rec K)), m.Sorted → (∀ e ∈ m, ∃ x ∈ q.rest, e ∈ x.recs) →
      (∀ k, SMap.find? m k = chainGet q.rest k) → dstRecs q.rest pres = m.filter (fun e => pres || !e.2.isDel) →
      (dstRecs q.rest pres).Sorted ∧
      (∀ e ∈ dstRecs q.rest pres, e.2.key = e.1 ∧ c.hash e.1 % parts = p ∧ e.2 ∈ h) ∧
      (∀ k r, SMap.find? (dstRecs q.rest pres) k = some r → ∃ x ∈ q.rest, x.get k = some r) ∧
      (∀ k, vis (SMap.find? (dstRecs q.rest pres) k) = vis (chainGet q.rest k)) := by
    intro m hm hmm hmf he
    obtain ⟨g1, g2⟩ := hfil m hm
    rw [he]
    refine ⟨g1, ?_, ?_, ?_⟩
    · intro e hee
      obtain ⟨x, hx, hex⟩ := hmm e (List.mem_filter.1 hee).1
      exact (hi.recs x (hrl x hx)).2 e hex
    · intro k r hr
      have h1 := (List.mem_filter.1 (SMap.find?_some_mem hr)).1
      obtain ⟨x, hx, hex⟩ := hmm _ h1
      exact ⟨x, hx, SMap.find?_of_mem (hi.recs x (hrl x hx)).1 hex⟩
    · intro k; rw [g2 k, hvis, hmf k]
  cases q with
  | one | two => cases hb
  | src w z =>
    have hz := hi.recs z (hrl z (by simp [Part.rest]))
    refine main z.recs hz.1 (fun e he => ⟨z, by simp [Part.rest], he⟩) ?_ rfl
    intro k
    simp only [Part.rest, chainGet, List.findSome?_cons, List.findSome?_nil, Tab.get]
    cases SMap.find? z.recs k <;> rfl
  | merging w a b =>
    have ha := hi.recs a (hrl a (by simp [Part.rest]))
    have hbr := hi.recs b (hrl b (by simp [Part.rest]))
    have hab : Above a b := by
      simp only [Part.chain, List.pairwise_cons] at hdesc
      exact hdesc.2.1 b (by simp)
    refine main (mergeDocs (a.recs.length + b.recs.length) a.recs b.recs) (mergeDocs_sorted _ _ _ ha.1 hbr.1) ?_ ?_ rfl
    · intro e he
      rcases mergeDocs_mem _ _ _ e he with h1 | h1
      · exact ⟨a, by simp [Part.rest], h1⟩
      · exact ⟨b, by simp [Part.rest], h1⟩
    · intro k
      rw [mergeDocs_find _ _ _ (Nat.le_refl _) ha.1 hbr.1 k (fun ra rb h1 h2 => hab k ra rb h1 h2)]
      simp only [Part.rest, chainGet, List.findSome?_cons, List.findSome?_nil, Tab.get]
      cases SMap.find? a.recs k <;> cases SMap.find? b.recs k <;> rfl

theorem ginv_finish {c : TCfg K} {h : List (Rec K)} {s : L0S K} {o : Nat → Bool} (hg : GInv c h s o)
    (p : Nat) (pres : Bool) :
    GInv c h (s.finish p pres) (if s.run p = none then o else fun r => if r = p then true else o r) := by
  cases hr : s.run p with
  | none =>
    have : s.finish p pres = s := by
      have h1 : s.addDst p pres = s := by unfold addDst; rw [hr]
      unfold finish
      rw [h1]; unfold removeSrc; rw [hr]
    rw [this, if_pos rfl]; exact hg
  | some d =>
    rw [if_neg (by simp)]
    obtain ⟨hp, hdn, hdf⟩ := hg.runP p d hr
    obtain ⟨q, hq⟩ := hg.part p hp
    have hb : q.busy = true := hq.idle (by rw [hr]; simp)
    have hpk : pick s.t p = q.rest := by rw [pick_eq hp hq.perm hq.ok, hb, if_pos rfl]
    obtain ⟨e1, e2, e3, e4⟩ := dstRecs_ok hq hb pres
    generalize hD : ({ number := d
                       hashNum := p
                       minKey := ⊥
                       recs := dstRecs q.rest pres
                       added := (dstRecs q.rest pres).map (·.1) } : Tab K) = D
    have hDn : D.number = d := by rw [← hD]
    have hDh : D.hashNum = p := by rw [← hD]
    have hDm : D.minKey = ⊥ := by rw [← hD]
    have hDs : D.status = .normal := by rw [← hD]
    have hDr : D.recs = dstRecs q.rest pres := by rw [← hD]
    have hadd : s.addDst p pres = { s with t := { s.t with l0 := D :: s.t.l0 } } := by
      unfold addDst
      rw [hr]
      simp only
      rw [hpk, hD, addTable_front _ hDm]
    have hpk2 : pick ({ s.t with l0 := D :: s.t.l0 } : TMgr K) p = q.rest := by
      have hun : ∀ t : TMgr K, p < t.parts → pick t p = match byNumber (tabs t p) .compactSrc with
          | [] => (byNumber (tabs t p) .normal).take 2
          | l => l.take 2 := by
        intro t ht
        unfold pick
        rw [TMgr.tablesByHash_eq t ht]
        rfl
      refine (hun ({ s.t with l0 := D :: s.t.l0 } : TMgr K) hp).trans ?_
      have hbn : byNumber (tabs ({ s.t with l0 := D :: s.t.l0 } : TMgr K) p) .compactSrc =
          byNumber (tabs s.t p) .compactSrc := by
        unfold byNumber tabs
        simp only
        rw [List.filter_cons, hDh]
        simp only [decide_true, if_true]
        rw [List.filter_cons, hDs]
        simp
      have hne : byNumber (tabs s.t p) .compactSrc = q.rest := by
        rw [(byNumber_eq hq.perm hq.ok).1, hb, if_pos rfl]
      rw [hbn, hne]
      cases q with
      | one | two => cases hb
      | src | merging => rfl
    have hchain : ∀ x, x ∈ tabs s.t p ↔ x ∈ q.chain := fun x => hq.perm.mem_iff
    have hrl : ∀ x ∈ q.rest, x ∈ tabs s.t p := fun x hx =>
      (hchain x).2 (by rw [Part.chain_eq]; simp [hx])
    have htop : q.top ∈ tabs s.t p := (hchain _).2 (by rw [Part.chain_eq]; simp)
    generalize hkeep : (fun x : Tab K => decide (x.number ∉ q.rest.map (·.number))) = keep
    have hkD : keep D = true := by
      rw [← hkeep]
      simp only [decide_eq_true_eq]
      intro hm
      obtain ⟨y, hy, he⟩ := List.mem_map.1 hm
      exact hdf y (mem_tabs.1 (hrl y hy)).1 (he.trans hDn)
    have hun : s.finish p pres = { t := { s.t with l0 := D :: s.t.l0.filter keep }
                                   run := fun r => if r = p then none else s.run r } := by
      unfold finish
      rw [hadd]
      unfold removeSrc
      simp only [hr]
      rw [hpk2, hkeep, List.filter_cons, hkD, if_pos rfl]
    rw [hun]
    have htabs : ∀ p', tabs ({ s.t with l0 := D :: s.t.l0.filter keep } : TMgr K) p' =
        if p' = p then [D, q.top] else tabs s.t p' := by
      intro p'
      have hf : (s.t.l0.filter keep).filter (fun x => decide (x.hashNum = p')) = (tabs s.t p').filter keep := by
        unfold tabs; rw [List.filter_filter, List.filter_filter]
        apply List.filter_congr; intro x _; exact Bool.and_comm _ _
      unfold tabs
      simp only
      rw [List.filter_cons, hDh]
      by_cases he : p' = p
      · subst he
        simp only [decide_true, if_true]
        rw [hf]
        congr 1
        have h1 := hq.perm.filter keep
        have hnd : (q.chain.map (·.number)).Nodup := (hq.perm.map _).nodup_iff.1 (tabs_nodup hg.nums p')
        have h2 : q.chain.filter keep = [q.top] := by
          rw [Part.chain_eq] at hnd ⊢
          rw [List.map_cons, List.nodup_cons] at hnd
          rw [List.filter_cons]
          have hk1 : keep q.top = true := by rw [← hkeep]; simp only [decide_eq_true_eq]; exact hnd.1
          rw [hk1, if_pos rfl]
          congr 1
          rw [List.filter_eq_nil_iff]
          intro x hx
          rw [← hkeep]
          simp only [decide_eq_true_eq, not_not]
          exact List.mem_map_of_mem hx
        rw [h2] at h1
        exact List.perm_singleton.1 h1
      · have : ¬ p = p' := fun e => he e.symm
        simp only [this, decide_false, Bool.false_eq_true, if_false, if_neg he]
        rw [hf]
        rw [show List.filter (fun x => decide (x.hashNum = p')) s.t.l0 = tabs s.t p' from rfl]
        rw [List.filter_eq_self]
        intro x hx
        rw [← hkeep]
        simp only [decide_eq_true_eq]
        intro hm
        obtain ⟨y, hy, hey⟩ := List.mem_map.1 hm
        have hx' := mem_tabs.1 hx
        have hy' := mem_tabs.1 (hrl y hy)
        have := TMgr.eq_of_number hg.nums hy'.1 hx'.1 hey
        subst this
        exact he (hx'.2.symm.trans hy'.2)
    have hmem : ∀ x ∈ D :: s.t.l0.filter keep, x = D ∨ x ∈ s.t.l0 := by
      intro x hx
      rcases List.mem_cons.1 hx with rfl | hx
      · exact Or.inl rfl
      · exact Or.inr (List.mem_filter.1 hx).1
    refine ⟨hg.pos, hg.inc, hg.lv, ?_, ?_, ?_, ?_, ?_, ?_⟩
    · simp only [List.map_cons, List.nodup_cons]
      refine ⟨?_, List.Nodup.sublist (List.filter_sublist.map _) hg.nums⟩
      intro hm
      obtain ⟨y, hy, he⟩ := List.mem_map.1 hm
      exact hdf y (List.mem_filter.1 hy).1 (he.trans hDn)
    · intro x hx
      rcases hmem x hx with rfl | hx
      · rw [hDn]; exact hdn
      · exact hg.l0Num x hx
    · intro x hx
      rcases hmem x hx with rfl | hx
      · exact hDm
      · exact hg.l0Min x hx
    · intro p' d' hd'
      simp only at hd' ⊢
      split at hd'
      · cases hd'
      · next hne =>
        obtain ⟨g1, g2, g3⟩ := hg.runP p' d' hd'
        refine ⟨g1, g2, ?_⟩
        intro x hx
        rcases hmem x hx with rfl | hx
        · rw [hDn]
          rintro rfl
          exact hne (hg.runInj p' p _ hd' hr)
        · exact g3 x hx
    · intro p1 p2 d' h1 h2
      simp only at h1 h2
      split at h1
      · cases h1
      · split at h2
        · cases h2
        · exact hg.runInj p1 p2 d' h1 h2
    · intro p' hp'
      simp only
      rw [htabs p']
      by_cases he : p' = p
      · subst he
        rw [if_pos rfl]
        simp only [if_true]
        have hgr : ∀ k, D.get k = SMap.find? (dstRecs q.rest pres) k := by intro k; unfold Tab.get; rw [hDr]
        have hdesc := hq.desc
        rw [Part.chain_eq, List.pairwise_cons] at hdesc
        have hts : q.top.status = .normal := by
          have := hq.ok
          cases q with
          | one w => exact this
          | src w z => exact this.1
          | two w z => exact this.1
          | merging w a b => exact this.1
        refine ⟨.two q.top D, ⟨hts, hDs, ?_⟩, List.Perm.swap _ _ _, fun _ => rfl, ?_, ?_, ?_, fun hf => absurd rfl hf,
          fun d' hd' => (nomatch hd')⟩
        · rw [hDn]; exact hq.dst d hr q.top htop
        · intro x hx
          simp only [List.mem_cons, List.not_mem_nil, or_false] at hx
          rcases hx with rfl | rfl
          · rw [hDr]; exact ⟨e1, e2⟩
          · exact hq.recs _ htop
        · refine List.pairwise_cons.2 ⟨?_, List.pairwise_singleton _ _⟩
          intro b hb' k ra rb hra hrb
          rw [List.mem_singleton.1 hb', hgr] at hrb
          obtain ⟨x, hx, hxr⟩ := e3 k rb hrb
          exact hdesc.1 x hx k ra rb hra hxr
        · intro k hk
          rw [← hq.right k hk, Part.chain_eq q]
          simp only [Part.chain, chainGet, List.findSome?_cons, List.findSome?_nil]
          cases ht : q.top.get k with
          | some r => rfl
          | none =>
            simp only
            have := e4 k
            rw [← hgr] at this
            unfold chainGet at this
            rw [← this]
            cases D.get k <;> rfl
      · rw [if_neg he]
        simp only [if_neg he]
        exact hg.part p' hp'

end L0S
end Jungle
