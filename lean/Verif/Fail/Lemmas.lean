/- Lemmas about table writes that fail. -/
import Verif.Fail.Model
import Verif.DB.ReachInv

set_option linter.unusedSectionVars false
namespace Jungle
open Spec

namespace TMgr
variable {K : Type} [LinearOrder K] [OrderBot K]

/-- What partition `p` gets of a batch. -/
def part (fail : Nat → Option Nat) (R : List (Rec K)) (p : Nat) : List (Rec K) :=
  match fail p with
  | none => R
  | some n => R.take n

theorem setBatchF_ok {c : TCfg K} {t : TMgr K} (h : Inv c t) (fail : Nat → Option Nat)
    (R : List (Rec K)) :
    Inv c (setBatchF c fail t R) ∧ (setBatchF c fail t R).parts = t.parts ∧
    ∀ k, (setBatchF c fail t R).get c k =
      (lastWrite (part fail R (c.hash k % t.parts)) k).or (t.get c k) := by
  have key : ∀ (ps : List Nat) (t : TMgr K), Inv c t → ps.Nodup → (∀ p ∈ ps, p < t.parts) →
      let t' := ps.foldl (fun t p => setBatchPart c t (part fail R p) p) t
      Inv c t' ∧ t'.parts = t.parts ∧ t'.lv = t.lv ∧
      (∀ q, q < t.parts → t'.srcOf q = t.srcOf q) ∧
      (∀ q, t'.normOf q =
        if q ∈ ps then (t.normOf q).map (fun x => x.setBatch c t.parts q (part fail R q)) else t.normOf q) := by
    intro ps
    induction ps with
    | nil => intro t h _ _; exact ⟨h, rfl, rfl, fun _ _ => rfl, fun q => by simp⟩
    | cons p ps ih =>
      intro t h hnd hps
      obtain ⟨j1, j2, j3, -, j5, j6⟩ := setBatchPart_ok h (part fail R p) (p := p) (hps p (by simp))
      have hnd' := List.nodup_cons.1 hnd
      obtain ⟨i1, i2, i3, i5, i6⟩ := ih (setBatchPart c t (part fail R p) p) j1 hnd'.2
        (fun q hq => by rw [j2]; exact hps q (by simp [hq]))
      simp only [List.foldl_cons]
      refine ⟨i1, i2.trans j2, i3.trans j3, ?_, ?_⟩
      · intro q hq; rw [i5 q (by rw [j2]; exact hq), j5 q hq]
      · intro q
        rw [i6 q, j6 q]
        by_cases hqp : q = p
        · subst hqp
          rw [if_neg hnd'.1]; simp
        · rw [if_neg hqp, j2]; simp [hqp]
  obtain ⟨k1, k2, k3, k5, k6⟩ := key (List.range t.parts) t h List.nodup_range
    (fun p hp => List.mem_range.1 hp)
  refine ⟨k1, k2, ?_⟩
  intro k
  have hp : c.hash k % t.parts < t.parts := Nat.mod_lt _ h.pos
  show TMgr.get c ((List.range t.parts).foldl (fun t p => setBatchPart c t (part fail R p) p) t) k = _
  rw [get_eq k1, get_eq h, k2]
  have hlv : ∀ t' : TMgr K, t'.lv = t.lv → t'.lvLook k = t.lvLook k := by
    intro t' e; unfold lvLook; rw [e]
  rw [k5 _ hp, k6, hlv _ k3]
  rw [if_pos (List.mem_range.2 hp)]
  obtain ⟨x, hx⟩ := normOf_some h hp
  have hx' := (normOf_iff h _ x).1 hx
  have hrec := h.l0Recs x hx'.1
  have hok := tabSetBatch_ok c t.parts (c.hash k % t.parts) (part fail R (c.hash k % t.parts)) x hrec.1 (by
    intro e he; rw [← hx'.2.1]; exact hrec.2 e he)
  rw [hx]
  simp only [Option.map_some, Option.bind_some]
  rw [hok.2.2 k rfl]
  cases lastWrite (part fail R (c.hash k % t.parts)) k <;> simp

/-! ### compaction -/

theorem AsgOk.filter {l : List (Tab K)} {news : List K} {asg : List (Tgt K × Rec K)}
    (h : AsgOk l news asg) (bad lost : K → Bool) :
    AsgOk l (news.filter (fun m => !bad m)) (asg.filter (written bad lost)) := by
  refine ⟨h.keys.filter _, ?_, ?_, ?_, ?_, ?_, h.newsSorted.filter _, ?_, ?_⟩
  · intro a ha; exact h.lek a (List.mem_filter.1 ha).1
  · intro a ha; exact h.cover a (List.mem_filter.1 ha).1
  · intro a ha m hm; exact h.coverNew a (List.mem_filter.1 ha).1 m (List.mem_filter.1 hm).1
  · intro a ha; exact h.old a (List.mem_filter.1 ha).1
  · intro a ha hf
    obtain ⟨h1, h2⟩ := List.mem_filter.1 ha
    refine List.mem_filter.2 ⟨h.new a h1 hf, ?_⟩
    simp only [written, hf, Bool.true_and, Bool.and_eq_true] at h2
    exact h2.1
  · intro m hm; exact h.newsNe m (List.mem_filter.1 hm).1
  · intro m hm; exact h.newsGap m (List.mem_filter.1 hm).1

theorem mergeIntoF_ok {l : List (Tab K)} (hl : LevelOk l) {num : Nat} (hn : ∀ t ∈ l, t.number < num)
    {vmin : K} {rs : SMap K (Rec K)} (hrs : rs.Sorted) (hkey : ∀ e ∈ rs, e.2.key = e.1)
    (hv : ∀ e ∈ rs, vmin ≤ e.1) (p : Bool) (full : Nat → Bool) (bad lost : K → Bool) :
    LevelOk (mergeIntoF l num vmin rs p full bad lost).1 ∧
    (∀ t ∈ (mergeIntoF l num vmin rs p full bad lost).1,
      t.number < (mergeIntoF l num vmin rs p full bad lost).2) ∧
    num ≤ (mergeIntoF l num vmin rs p full bad lost).2 ∧
    (∀ k r, rs.find? k = some r → k ∉ unwritten l vmin rs full bad lost →
      look (mergeIntoF l num vmin rs p full bad lost).1 k = some r ∨
      (look (mergeIntoF l num vmin rs p full bad lost).1 k = none ∧ p = true ∧ r.isDel = true)) ∧
    (∀ k, rs.find? k = none ∨ k ∈ unwritten l vmin rs full bad lost →
      look (mergeIntoF l num vmin rs p full bad lost).1 k = look l k) := by
  obtain ⟨h1, h2⟩ := merge_asg hl hrs hkey hv full
  obtain ⟨m1, m2, m3, m4⟩ := merged_ok hl hn (h1.filter bad lost) p
  change AsgOk l (freshKeys _ (asgOf l vmin rs full)) (asgOf l vmin rs full) at h1
  change (asgOf l vmin rs full).map (·.2) = _ at h2
  refine ⟨m1, m2, Nat.le_add_right _ _, ?_, ?_⟩
  · intro k r hf hu
    have hm := SMap.find?_some_mem hf
    have : r ∈ rs.map (·.2) := List.mem_map.2 ⟨(k, r), hm, rfl⟩
    rw [← h2] at this
    obtain ⟨a, ha, har⟩ := List.mem_map.1 this
    have hak : a.2.key = k := by rw [har]; exact hkey _ hm
    have hw : written bad lost a = true := by
      by_contra hw
      exact hu (List.mem_map.2 ⟨a, List.mem_filter.2 ⟨ha, by simpa using hw⟩, hak⟩)
    have := m3 a (List.mem_filter.2 ⟨ha, hw⟩)
    rw [hak] at this
    show look (_ : List (Tab K)) k = some r ∨ (look (_ : List (Tab K)) k = none ∧ _)
    unfold mergeIntoF
    simp only
    unfold asgOf at *
    simp only at *
    rw [this, har]
    by_cases hc : (p && r.isDel && !a.1.fresh) = true
    · right
      simp only [Bool.and_eq_true] at hc
      refine ⟨?_, hc.1.1, hc.1.2⟩
      simp [hc.1.1, hc.1.2]
      simpa using hc.2
    · left; rw [if_neg hc]
  · intro k hf
    apply m4
    intro a ha hak
    obtain ⟨ha, hw⟩ := List.mem_filter.1 ha
    rcases hf with hf | hf
    · have : a.2 ∈ rs.map (·.2) := by rw [← h2]; exact List.mem_map_of_mem ha
      obtain ⟨e, he, hea⟩ := List.mem_map.1 this
      have hek := hkey e he
      rw [hea, hak] at hek
      exact SMap.find?_none_iff.1 hf e he hek.symm
    · obtain ⟨b, hb, hbk⟩ := List.mem_map.1 hf
      obtain ⟨hb, hbw⟩ := List.mem_filter.1 hb
      have : a = b := by
        obtain ⟨i, hi, rfl⟩ := List.mem_iff_getElem.1 ha
        obtain ⟨j, hj, rfl⟩ := List.mem_iff_getElem.1 hb
        have hp' := List.pairwise_iff_getElem.1 h1.keys
        rcases Nat.lt_trichotomy i j with hij | hij | hij
        · exact absurd (hak.trans hbk.symm) ((hp' i j hi hj hij))
        · subst hij; rfl
        · exact absurd (hak.trans hbk.symm).symm ((hp' j i hj hi hij))
      subst this
      have hw' : written bad lost a = true := hw
      rw [hw'] at hbw; cases hbw

/-- Reads after a compaction with failures: the keys that were written read as before, the others
    as if the victim had been deleted. -/
theorem compactL0EndF_ok {c : TCfg K} {t : TMgr K} (h : Inv c t) {p : Nat} (hp : p < t.parts)
    (full : Nat → Bool) (bad lost : K → Bool) :
    Inv c (t.compactL0EndF c p full bad lost) ∧
    (∀ k, k ∉ t.unwrittenL0 p full bad lost →
      Top ((t.compactL0EndF c p full bad lost).get c k) (t.get c k)) ∧
    (∀ k, k ∈ t.unwrittenL0 p full bad lost →
      (t.compactL0EndF c p full bad lost).get c k = (t.withoutSrc p).get c k) := by
  unfold compactL0EndF unwrittenL0 withoutSrc
  cases hsv : t.srcOf p with
  | none => exact ⟨h, fun k _ => Top.refl _, fun k hk => by cases hk⟩
  | some v =>
    have hv := (srcOf_iff h hp v).1 hsv
    have hvr := h.l0Recs v hv.1
    simp only
    generalize hlv : (if t.lv.isEmpty = true then [[]] else t.lv) = lv
    have hlvok : ∀ l ∈ lv, LevelOk l ∧ ∀ x ∈ l, x.number < t.nextNum := by
      rw [← hlv]
      intro l hl
      split at hl
      · simp only [List.mem_singleton] at hl; subst hl
        exact ⟨LevelOk.nil, by simp⟩
      · exact ⟨h.lv l hl, h.lvNum l hl⟩
    have hlook : ∀ k, lv.findSome? (fun l => look l k) = t.lvLook k := by
      intro k
      rw [← hlv]
      split
      · next he => rw [List.isEmpty_iff] at he; unfold lvLook; rw [he]; rfl
      · rfl
    have hne : lv ≠ [] := by
      rw [← hlv]; split
      · simp
      · next he => simpa using he
    clear hlv
    cases lv with
    | nil => exact absurd rfl hne
    | cons l ls =>
      simp only [List.headD_cons]
      have hl := hlvok l List.mem_cons_self
      obtain ⟨m1, m2, m3, m4, m5⟩ := mergeIntoF_ok hl.1 hl.2 hvr.1 (fun e he => (hvr.2 e he).1)
        (vmin := v.minKey) (by intro e _; rw [h.l0Min v hv.1]; exact bot_le) (c.purge && ls.isEmpty) full
        bad lost
      generalize mergeIntoF l t.nextNum v.minKey v.recs (c.purge && ls.isEmpty) full bad lost = m at *
      have hinv := inv_removeSrc h hv.1 hv.2.2 (m.1 :: ls) m.2 m3
        (by
          intro x hx
          rcases List.mem_cons.1 hx with rfl | hx
          · exact m1
          · exact (hlvok x (List.mem_cons_of_mem _ hx)).1)
        (by
          intro x hx y hy
          rcases List.mem_cons.1 hx with rfl | hx
          · exact m2 y hy
          · exact Nat.lt_of_lt_of_le ((hlvok x (List.mem_cons_of_mem _ hx)).2 y hy) m3)
      have hinv0 := inv_removeSrc h hv.1 hv.2.2 t.lv t.nextNum (Nat.le_refl _) h.lv h.lvNum
      have base : ∀ (lv' : List (List (Tab K))) (n : Nat),
          Inv c { t with nextNum := n, lv := lv', l0 := removeTable t.l0 v.number } → ∀ k,
          TMgr.get c { t with nextNum := n, lv := lv', l0 := removeTable t.l0 v.number } k =
            (((t.normOf (c.hash k % t.parts)).bind (·.get k)).or
              (if c.hash k % t.parts = p then none
               else (t.srcOf (c.hash k % t.parts)).bind (·.get k))).or
              (lv'.findSome? (fun l => look l k)) := by
        intro lv' n hi k
        have hk := Nat.mod_lt (c.hash k) h.pos
        rw [get_eq hi]
        have e1 : TMgr.normOf { t with nextNum := n, lv := lv', l0 := removeTable t.l0 v.number }
            (c.hash k % t.parts) = t.normOf (c.hash k % t.parts) := by
          apply Option.ext; intro y
          rw [normOf_iff hi, normOf_iff h]
          simp only [mem_removeTable]
          constructor
          · rintro ⟨⟨h1, _⟩, h2⟩; exact ⟨h1, h2⟩
          · rintro ⟨h1, h2, h3⟩
            refine ⟨⟨h1, ?_⟩, h2, h3⟩
            intro he
            rw [eq_of_number h.nums h1 hv.1 he, hv.2.2] at h3; cases h3
        have e2 : TMgr.srcOf { t with nextNum := n, lv := lv', l0 := removeTable t.l0 v.number }
            (c.hash k % t.parts) = if c.hash k % t.parts = p then none else t.srcOf (c.hash k % t.parts) := by
          by_cases hkp : c.hash k % t.parts = p
          · rw [if_pos hkp, hkp]
            cases hs : TMgr.srcOf { t with nextNum := n, lv := lv', l0 := removeTable t.l0 v.number } p with
            | none => rfl
            | some y =>
              exfalso
              have hy := (srcOf_iff hi hp y).1 hs
              have hy1 := mem_removeTable.1 hy.1
              exact hy1.2 (by rw [h.uniq y hy1.1 v hv.1 (by rw [hy.2.1, hv.2.1]) (by rw [hy.2.2, hv.2.2])])
          · rw [if_neg hkp]
            apply Option.ext; intro y
            rw [srcOf_iff hi hk, srcOf_iff h hk]
            simp only [mem_removeTable]
            constructor
            · rintro ⟨⟨h1, _⟩, h2⟩; exact ⟨h1, h2⟩
            · rintro ⟨h1, h2, h3⟩
              refine ⟨⟨h1, ?_⟩, h2, h3⟩
              intro he
              rw [eq_of_number h.nums h1 hv.1 he] at h2
              exact hkp (h2.symm.trans hv.2.1)
        show ((((TMgr.normOf _ _).bind _).or ((TMgr.srcOf _ (c.hash k % t.parts)).bind _)).or (lvLook _ _)) = _
        rw [e1, e2]
        split <;> rfl
      refine ⟨hinv, ?_, ?_⟩
      · intro k hku
        rw [base _ _ hinv k, get_eq h, ← hlook k, findSome_cons, findSome_cons, Option.or_assoc, Option.or_assoc]
        apply top_or
        by_cases hkp : c.hash k % t.parts = p
        · rw [if_pos hkp, hkp, hsv, Option.none_or, Option.bind_some]
          cases hg : v.get k with
          | none => rw [m5 k (Or.inl hg), Option.none_or]; exact Top.refl _
          | some r =>
            rcases m4 k r hg hku with h1 | ⟨h1, h2, h3⟩
            · rw [h1]; exact Or.inl rfl
            · rw [h1]
              simp only [Bool.and_eq_true, List.isEmpty_iff] at h2
              rw [h2.2]
              exact Top.del h3
        · rw [if_neg hkp]
          have hg : v.get k = none := get_hash_none h hv.1 (by rw [hv.2.1]; exact hkp)
          rw [m5 k (Or.inl hg)]
          exact Top.refl _
      · intro k hku
        rw [base _ _ hinv k, base _ _ hinv0 k, show t.lv.findSome? (fun l => look l k) = t.lvLook k from rfl,
          ← hlook k, findSome_cons, findSome_cons, m5 k (Or.inr hku)]

end TMgr
end Jungle
