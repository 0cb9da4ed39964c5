/-
  What the iterator of the table section shows: for every key the record with the highest number in
  any table.
-/
import Verif.Iter.LogItrLemmas
import Verif.Table.Stack

set_option linter.unusedSectionVars false

namespace Jungle.Iter
open Spec
variable {K : Type} [LinearOrder K] [OrderBot K]

theorem tabLeaf_in {x : Tab K} (hs : x.recs.Sorted) (hk : ∀ e ∈ x.recs, e.2.key = e.1)
    (lo hi : Option K) (e : Rec K) :
    leafIn (tabLeaf lo hi x) e ↔ x.get e.key = some e ∧ InRange lo hi e.key := by
  unfold leafIn Tab.get
  constructor
  · rintro ⟨⟨k, r⟩, hn, hb, ha, hv⟩
    have hn' : (k, r) ∈ x.recs := hn
    have hv' : r = e := by
      have : some r = some e := hv
      cases this; rfl
    subst hv'
    have := hk _ hn'
    simp only at this
    subst this
    exact ⟨(SMap.mem_iff_find? hs).1 hn', Leaf.below_false.1 hb, Leaf.above_false.1 ha⟩
  · rintro ⟨hg, hr⟩
    exact ⟨(e.key, e), SMap.find?_some_mem hg, Leaf.below_false.2 hr.1, Leaf.above_false.2 hr.2, rfl⟩

/-- What all tables hold, key by key. -/
def InTables (c : TCfg K) (t : TMgr K) (lo hi : Option K) (e : Rec K) : Prop :=
  e ∈ TMgr.stack c t e.key ∧ InRange lo hi e.key

/-- The tables that are opened hold everything of the range. -/
theorem itrTables_spec {c : TCfg K} {t : TMgr K} (h : TMgr.Inv c t) (lo hi : Option K) (e : Rec K) :
    (∃ x ∈ itrTables t lo hi, x.get e.key = some e ∧ InRange lo hi e.key) ↔ InTables c t lo hi e := by
  have hp : c.hash e.key % t.parts < t.parts := Nat.mod_lt _ h.pos
  unfold InTables TMgr.stack itrTables
  simp only [List.mem_append, Option.mem_toList, List.mem_flatMap, List.mem_filterMap]
  constructor
  · rintro ⟨x, hx, hg, hr⟩
    refine ⟨?_, hr⟩
    rcases hx with hx | ⟨l, hl, hx⟩
    · left
      have hh := (h.l0Recs x hx).2 _ (SMap.find?_some_mem hg)
      rcases TMgr.status_cases x.status with hs | hs
      · left
        rw [Option.bind_eq_some_iff]
        exact ⟨x, (TMgr.normOf_iff h _ x).2 ⟨hx, hh.2.symm, hs⟩, hg⟩
      · right
        rw [Option.bind_eq_some_iff]
        exact ⟨x, (TMgr.srcOf_iff h hp x).2 ⟨hx, hh.2.symm, hs⟩, hg⟩
    · right
      refine ⟨l, hl, (TMgr.look_some_iff (h.lv l hl) _ _).2 ⟨x, ?_, hg⟩⟩
      obtain ⟨pre, s, h1, _, _, h4⟩ := TMgr.tablesRange_spec (h.lv l hl) (lo.getD ⊥) hi
      rw [h4] at hx
      rw [h1]
      exact List.mem_append_right _ (List.mem_filter.1 hx).1
  · rintro ⟨(hx | hx) | ⟨l, hl, hx⟩, hr⟩
    · obtain ⟨x, h1, h2⟩ := Option.bind_eq_some_iff.1 hx
      exact ⟨x, Or.inl ((TMgr.normOf_iff h _ x).1 h1).1, h2, hr⟩
    · obtain ⟨x, h1, h2⟩ := Option.bind_eq_some_iff.1 hx
      exact ⟨x, Or.inl ((TMgr.srcOf_iff h hp x).1 h1).1, h2, hr⟩
    · obtain ⟨x, hxl, hg⟩ := (TMgr.look_some_iff (h.lv l hl) _ _).1 hx
      refine ⟨x, Or.inr ⟨l, hl, ?_⟩, hg, hr⟩
      have hok := h.lv l hl
      have hm := SMap.find?_some_mem hg
      obtain ⟨pre, s, h1, h2, _, h4⟩ := TMgr.tablesRange_spec hok (lo.getD ⊥) hi
      rw [h4, List.mem_filter]
      constructor
      · rw [h1] at hxl
        rcases List.mem_append.1 hxl with h5 | h5
        · exfalso
          obtain ⟨a, s', hs, ha⟩ := h2 (List.ne_nil_of_mem h5)
          have hal : a ∈ l := by rw [h1, hs]; simp
          have hsrt := hok.sorted
          rw [h1, hs] at hsrt
          have hlt := (List.pairwise_append.1 hsrt).2.2 x h5 a List.mem_cons_self
          have hkl := hok.range x (by rw [h1]; exact List.mem_append_left _ h5) a hal hlt _ hm
          have : lo.getD ⊥ ≤ e.key := by
            cases hlo : lo with
            | none => exact bot_le
            | some b => exact hr.1 b hlo
          exact absurd (lt_of_lt_of_le hkl (le_trans ha this)) (lt_irrefl _)
        · exact h5
      · unfold TMgr.inRange
        cases hhi : hi with
        | none => rfl
        | some b =>
          simp only [decide_eq_true_eq]
          exact le_trans ((hok.tab x hxl).2.1 _ hm).2 (hr.2 b hhi)

theorem itrTables_ok {c : TCfg K} {t : TMgr K} (h : TMgr.Inv c t) (lo hi : Option K) :
    ∀ x ∈ itrTables t lo hi, x.recs.Sorted ∧ ∀ e ∈ x.recs, e.2.key = e.1 := by
  intro x hx
  unfold itrTables at hx
  rcases List.mem_append.1 hx with hx | hx
  · exact ⟨(h.l0Recs x hx).1, fun e he => ((h.l0Recs x hx).2 e he).1⟩
  · obtain ⟨l, hl, hx⟩ := List.mem_flatMap.1 hx
    obtain ⟨pre, s, h1, _, _, h4⟩ := TMgr.tablesRange_spec (h.lv l hl) (lo.getD ⊥) hi
    rw [h4] at hx
    have hxl : x ∈ l := by rw [h1]; exact List.mem_append_right _ (List.mem_filter.1 hx).1
    have := (h.lv l hl).tab x hxl
    exact ⟨this.1, fun e he => (this.2.1 e he).1⟩

abbrev tabSpec (X : (Rec K → Prop) → Prop) (lo hi : Option K) : CSpec (TabIt K) (Rec K) K :=
  mergeSpec keyPar (withX (leafSpec keyPar .table lo hi) X)

omit [OrderBot K] in
theorem tab_laws (X : (Rec K → Prop) → Prop) (lo hi : Option K) :
    Laws keyPar (tabOps (K := K)) (tabSpec X lo hi) :=
  merge_laws (withX_laws (leaf_laws _ _ _ _) X) keyPar_rank

/-- What one table holds in the range. -/
def TabQ (x : Tab K) (lo hi : Option K) (e : Rec K) : Prop := x.get e.key = some e ∧ InRange lo hi e.key

theorem tab_opened {c : TCfg K} {t : TMgr K} (h : TMgr.Inv c t) {H : List (Rec K)} (hi' : Increasing H)
    (hH : ∀ k, ∀ r ∈ TMgr.stack c t k, r ∈ H) (lo hi : Option K) {fr : Bool}
    (hfr : fr = true → ∀ x ∈ itrTables t lo hi,
      TwoKeys (TabQ x lo hi)) {X : (Rec K → Prop) → Prop}
    (hX : ∀ x ∈ itrTables t lo hi, (∃ y, TabQ x lo hi y) → X (TabQ x lo hi)) :
    Opened keyPar (tabOps (K := K)) (tabSpec X lo hi) fr (Best keyPar (InTables c t lo hi)) (tabItr t lo hi) := by
  have hok := itrTables_ok h lo hi
  have hleaf := fun x hx => tabLeaf_in (hok x hx).1 (hok x hx).2 lo hi
  have hall : ∀ e, (∃ s ∈ (itrTables t lo hi).map (tabLeaf lo hi), leafIn s e) ↔ InTables c t lo hi e := by
    intro e
    rw [← itrTables_spec h]
    constructor
    · rintro ⟨s, hs, he⟩
      obtain ⟨x, hx, rfl⟩ := List.mem_map.1 hs
      exact ⟨x, hx, (hleaf x hx e).1 he⟩
    · rintro ⟨x, hx, he⟩
      exact ⟨_, List.mem_map_of_mem hx, (hleaf x hx e).2 he⟩
  unfold tabItr
  refine open_idx (P := fun s e => leafIn s e) (withX_laws (leaf_laws _ _ _ _) X) keyPar_rank ?_ ?_ ?_
  · intro s hs
    obtain ⟨x, hx, rfl⟩ := List.mem_map.1 hs
    have hP : leafIn (tabLeaf lo hi x) = TabQ x lo hi := funext fun e => propext (hleaf x hx e)
    suffices ho : Opened keyPar (Leaf.ops .table) (leafSpec keyPar .table lo hi) fr
        (leafIn (tabLeaf lo hi x)) (tabLeaf lo hi x) by
      refine withX_opened ho ?_
      rintro ⟨e, he⟩
      rw [hP]
      exact hX x hx ⟨e, (hleaf x hx e).1 ((leaf_laws _ _ _ _).mem (ho.some e he).1)⟩
    refine leaf_opened (hok x hx).1 ?_ (fun hk => (by cases hk)) ?_
    · intro n hn e he
      cases he
      exact (hok x hx).2 n hn
    · intro hfr' y hy
      obtain ⟨a, b, ha, hb, hab⟩ := hfr hfr' x hx y ((hleaf x hx y).1 hy)
      exact ⟨a, b, (hleaf x hx a).2 ha, (hleaf x hx b).2 hb, hab⟩
  · intro s hs s' hs' x y hx hy _ hrank
    exact seq_inj hi' (hH _ x ((hall x).1 ⟨s, hs, hx⟩).1) (hH _ y ((hall y).1 ⟨s', hs', hy⟩).1) hrank
  · intro e
    unfold Best
    simp only [hall]

end Jungle.Iter
