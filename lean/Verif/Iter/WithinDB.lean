/-
  The iterators of a reachable handle only ever show accepted records.
-/
import Verif.DB.Kept
import Verif.DB.ReachInv
import Verif.Iter.Handle
import Verif.Iter.SeqItrLemmas
import Verif.Iter.Within
import Verif.Table.Order

set_option linter.unusedSectionVars false

namespace Jungle.Iter
open Spec
variable {K : Type} [LinearOrder K] [OrderBot K]

theorem itrTables_sub {c : TCfg K} {t : TMgr K} (h : TMgr.Inv c t) {lo hi : Option K} {x : Tab K}
    (hx : x ∈ itrTables t lo hi) : x ∈ itrTables t none none := by
  unfold itrTables at hx ⊢
  rcases List.mem_append.1 hx with hx | hx
  · exact List.mem_append_left _ hx
  · apply List.mem_append_right
    obtain ⟨l, hl, hx⟩ := List.mem_flatMap.1 hx
    refine List.mem_flatMap.2 ⟨l, hl, ?_⟩
    have hok := h.lv l hl
    have hxl : x ∈ l := by
      obtain ⟨pre, s, h1, _, _, h4⟩ := TMgr.tablesRange_spec hok (lo.getD ⊥) hi
      rw [h4] at hx
      rw [h1]
      exact List.mem_append_right _ (List.mem_filter.1 hx).1
    obtain ⟨pre, s, h1, h2, _, h4⟩ := TMgr.tablesRange_spec hok ((none : Option K).getD ⊥) none
    rw [h4, List.mem_filter]
    refine ⟨?_, rfl⟩
    cases pre with
    | nil => rw [h1] at hxl; exact hxl
    | cons y pre =>
      obtain ⟨a, s', rfl, ha⟩ := h2 (by simp)
      have hlt : y.minKey < a.minKey := by
        have hs := hok.sorted
        rw [h1] at hs
        exact (List.pairwise_cons.1 hs).1 a (by simp)
      exact absurd (lt_of_lt_of_le hlt ha) not_lt_bot

theorem tables_written {c : TCfg K} {t : TMgr K} (h : TMgr.Inv c t) {H : Rec K → Prop}
    (hH : ∀ k, ∀ r ∈ TMgr.stack c t k, H r) {lo hi : Option K} {x : Tab K} (hx : x ∈ itrTables t lo hi) :
    ∀ e ∈ x.recs, H e.2 := by
  intro e he
  have hx' := itrTables_sub h hx
  have hok := itrTables_ok h none none x hx'
  refine hH _ _ ((itrTables_spec h none none e.2).1 ⟨x, hx', ?_, ?_⟩).1
  · unfold Tab.get; rw [hok.2 e he]; exact SMap.find?_of_mem hok.1 he
  · exact ⟨fun a ha => (by cases ha), fun a ha => (by cases ha)⟩

theorem smap_mem_insert {V : Type} {k : Nat} {v : V} : ∀ {m : SMap Nat V} {e : Nat × V},
    e ∈ m.insert k v → e = (k, v) ∨ e ∈ m := by
  intro m e he
  induction m with
  | nil => left; simpa [SMap.insert, SMap.upsert] using he
  | cons a m ih =>
    unfold SMap.insert SMap.upsert at he
    split at he
    · rcases List.mem_cons.1 he with he | he
      · exact Or.inl he
      · exact Or.inr he
    · split at he
      · rcases List.mem_cons.1 he with he | he
        · exact Or.inl he
        · exact Or.inr (List.mem_cons_of_mem _ he)
      · rcases List.mem_cons.1 he with he | he
        · exact Or.inr (he ▸ List.mem_cons_self)
        · rcases ih he with h | h
          · exact Or.inl h
          · exact Or.inr (List.mem_cons_of_mem _ h)

theorem seqIndex_written {H : Rec K → Prop} {x : Tab K} (h : ∀ e ∈ x.recs, H e.2) :
    ∀ n ∈ seqIndex x, H n.2 := by
  have key : ∀ (L : List (K × Rec K)) (m : SMap Nat (Rec K)), (∀ e ∈ L, H e.2) → (∀ e ∈ m, H e.2) →
      ∀ n ∈ L.foldl (fun m e => m.insert e.2.seq e.2) m, H n.2 := by
    intro L
    induction L with
    | nil => intro m _ h; exact h
    | cons a L ih =>
      intro m hL hm
      refine ih _ (fun e he => hL e (List.mem_cons_of_mem _ he)) ?_
      intro e he
      rcases smap_mem_insert he with rfl | he
      · exact hL a List.mem_cons_self
      · exact hm e he
  exact key x.recs [] h (fun e he => by cases he)

theorem nodeRec_mem {mn mx : Nat} {rs : List (Rec K)} {e : Rec K} (h : nodeRec mn mx rs = some e) : e ∈ rs := by
  unfold nodeRec at h
  split at h
  · cases h
  · split at h
    · cases h
    · unfold getLatestRecord at h
      split at h
      · cases h
      · next r hr =>
        split at h
        · cases h; exact List.mem_reverse.1 (List.mem_of_find?_eq_some hr)
        · cases h

theorem seqInit_in {c : TCfg K} {l : LogMgr K} {t : TMgr K} {H : Rec K → Prop} (ht : TMgr.Inv c t)
    (hk : ∀ f ∈ l.files, ∀ r ∈ f.mem.bySeq, H r) (hs : ∀ k, ∀ r ∈ TMgr.stack c t k, H r) (lo hi : Nat) :
    SeqOnly H (seqInit l t lo hi) := by
  unfold seqInit SeqOnly
  refine open_within (sum_within (merge_within (leaf_within _)) (merge_within (leaf_within _))) ?_
  intro s hs'
  simp only [List.mem_cons, List.not_mem_nil, or_false] at hs'
  rcases hs' with rfl | rfl
  · show ItrIn (AllIn H) H (slogItr l lo hi)
    unfold slogItr
    split
    · exact ⟨fun x hx => (by cases hx), fun e he => (by cases he)⟩
    · next mn mx _ =>
      refine open_within (leaf_within _) ?_
      intro s hs
      obtain ⟨f, hf, rfl⟩ := List.mem_map.1 hs
      have hf' : f ∈ l.files := (List.mem_filter.1 hf).1
      have hall : ∀ n ∈ f.mem.bySeq.map (fun r => (r.seq, r)), ∀ e, some n.2 = some e → H e := by
        intro n hn e he
        obtain ⟨r, hr, rfl⟩ := List.mem_map.1 hn
        cases he
        exact hk f hf' r hr
      unfold seqLeaf
      simp only
      split
      · exact hall
      · split <;> exact hall
  · show ItrIn (AllIn H) H (stabItr t lo hi)
    unfold stabItr
    refine open_within (leaf_within _) ?_
    intro s hs2
    obtain ⟨x, hx, rfl⟩ := List.mem_map.1 hs2
    refine allIn_init ?_
    intro n hn e he
    cases he
    exact seqIndex_written (tables_written ht hs hx) n hn

theorem keyInit_in {c : TCfg K} {l : LogMgr K} {t : TMgr K} {H : Rec K → Prop} (ht : TMgr.Inv c t)
    (hw : ∀ f ∈ l.files, f.mem.WF)
    (hk : ∀ f ∈ l.files, ∀ r ∈ f.mem.bySeq, H r) (hs : ∀ k, ∀ r ∈ TMgr.stack c t k, H r) (lo hi : Option K) :
    KeyOnly H (keyInit l t lo hi) := by
  unfold keyInit
  refine KeyOnly.skip ?_ _
  unfold KeyOnly
  refine open_within (sum_within (merge_within (leaf_within _)) (merge_within (leaf_within _))) ?_
  intro s hs'
  simp only [List.mem_cons, List.not_mem_nil, or_false] at hs'
  rcases hs' with rfl | rfl
  · show ItrIn (AllIn H) H (logItr l lo hi)
    unfold logItr
    split
    · exact ⟨fun x hx => (by cases hx), fun e he => (by cases he)⟩
    · next mn mx _ =>
      refine open_within (leaf_within _) ?_
      intro s hs
      obtain ⟨f, hf, rfl⟩ := List.mem_map.1 hs
      have hf' : f ∈ l.files := (List.mem_filter.1 hf).1
      refine allIn_init ?_
      intro n hn e he
      have hm := nodeRec_mem he
      have hidx := (hw f hf').idx n.1
      rw [SMap.find?_of_mem (hw f hf').keys hn] at hidx
      simp only [Option.getD_some] at hidx
      rw [hidx] at hm
      exact hk f hf' e (List.mem_filter.1 hm).1
  · show ItrIn (AllIn H) H (tabItr t lo hi)
    unfold tabItr
    refine open_within (leaf_within _) ?_
    intro s hs2
    obtain ⟨x, hx, rfl⟩ := List.mem_map.1 hs2
    refine allIn_init ?_
    intro n hn e he
    cases he
    exact tables_written ht hs hx n hn

end Jungle.Iter

namespace Jungle
open Spec Iter
variable {K : Type} [LinearOrder K] [OrderBot K] {c : TCfg K} {parts : Nat} {hp : 0 < parts}

theorem Reach.seqIn {db : DB K (Lsm c parts hp)} {h : List (Rec K)} (hr : Reach db h) (lo hi : Nat) :
    SeqOnly (· ∈ h) (seqInit db.log (db.table : TMgr K) lo hi) := by
  have hkept := hr.kept
  obtain ⟨A, B, rfl, hinv, hn⟩ := hr.inv_with (TMgr.newest_pred c parts hp)
  exact seqInit_in (c := c) hinv.table hkept (fun k r hr => (hn.mem k r hr).1) lo hi

theorem Reach.keyIn {db : DB K (Lsm c parts hp)} {h : List (Rec K)} (hr : Reach db h) (lo hi : Option K) :
    KeyOnly (· ∈ h) (keyInit db.log (db.table : TMgr K) lo hi) := by
  have hkept := hr.kept
  obtain ⟨A, B, rfl, hinv, hn⟩ := hr.inv_with (TMgr.newest_pred c parts hp)
  exact keyInit_in (c := c) hinv.table hinv.log.wf hkept (fun k r hr => (hn.mem k r hr).1) lo hi

end Jungle
