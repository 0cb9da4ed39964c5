/- The partitions of a batch may be written in any order. -/
import Verif.Table.L0

set_option linter.unusedSectionVars false
namespace Jungle.TMgr
variable {K : Type} [LinearOrder K] [OrderBot K]

theorem modify_comm (l : List (Tab K)) {a b : Nat} (hab : a ≠ b) {f g : Tab K → Tab K}
    (hf : ∀ x, (f x).number = x.number) (hg : ∀ x, (g x).number = x.number) :
    modify (modify l a f) b g = modify (modify l b g) a f := by
  unfold modify
  rw [List.map_map, List.map_map]
  apply List.map_congr_left
  intro x _
  simp only [Function.comp]
  by_cases h1 : x.number = a
  · have h2 : x.number ≠ b := fun h => hab (h1.symm.trans h)
    rw [if_pos h1, if_neg h2, hf, if_neg h2, if_pos h1]
  · by_cases h2 : x.number = b
    · rw [if_neg h1, if_pos h2, hg, if_neg h1]
    · simp [h1, h2]

theorem setBatchPart_comm {c : TCfg K} {t : TMgr K} (h : Inv c t) (R : List (Rec K)) {p q : Nat}
    (hp : p < t.parts) (hq : q < t.parts) (hpq : p ≠ q) :
    setBatchPart c (setBatchPart c t R p) R q = setBatchPart c (setBatchPart c t R q) R p := by
  have one : ∀ {t : TMgr K} (_ : Inv c t) {p : Nat} (_ : p < t.parts) {x : Tab K}, t.normOf p = some x →
      setBatchPart c t R p = { t with l0 := modify t.l0 x.number (fun y => y.setBatch c t.parts p R) } := by
    intro t h p hp x hx
    unfold setBatchPart; rw [smallestNormal_part h hp hx]
  obtain ⟨x, hx⟩ := normOf_some h hp
  obtain ⟨y, hy⟩ := normOf_some h hq
  have hx' := (normOf_iff h p x).1 hx
  have hy' := (normOf_iff h q y).1 hy
  have hne : x.number ≠ y.number := by
    intro he
    have := eq_of_number h.nums hx'.1 hy'.1 he
    exact hpq (hx'.2.1.symm.trans (by rw [this]; exact hy'.2.1))
  obtain ⟨i1, i2, -, -, -, i6⟩ := setBatchPart_ok h R hp
  obtain ⟨j1, j2, -, -, -, j6⟩ := setBatchPart_ok h R hq
  rw [one i1 (by rw [i2]; exact hq) (x := y) (by rw [i6, if_neg hpq.symm]; exact hy)]
  rw [one j1 (by rw [j2]; exact hp) (x := x) (by rw [j6, if_neg hpq]; exact hx)]
  rw [one h hp hx, one h hq hy]
  simp only
  rw [modify_comm _ hne (fun z => (tabSetBatch_fields c t.parts p R z).1)
    (fun z => (tabSetBatch_fields c t.parts q R z).1)]

theorem setBatch_perm {c : TCfg K} (R : List (Rec K)) {ps qs : List Nat} (hperm : ps.Perm qs) :
    ∀ {t : TMgr K}, Inv c t → ps.Nodup → (∀ p ∈ ps, p < t.parts) →
    ps.foldl (fun t p => setBatchPart c t R p) t = qs.foldl (fun t p => setBatchPart c t R p) t := by
  induction hperm with
  | nil => intros; rfl
  | cons a _ ih =>
    intro t h hnd hlt
    obtain ⟨i1, i2, -⟩ := setBatchPart_ok h R (hlt a List.mem_cons_self)
    exact ih i1 (List.nodup_cons.1 hnd).2 (fun p hp => by rw [i2]; exact hlt p (List.mem_cons_of_mem _ hp))
  | swap a b l =>
    intro t h hnd hlt
    simp only [List.foldl_cons]
    rw [setBatchPart_comm h R (hlt b (by simp)) (hlt a (by simp))
      (by rintro rfl; exact (List.nodup_cons.1 hnd).1 List.mem_cons_self)]
  | trans h1 _ ih1 ih2 =>
    intro t h hnd hlt
    rw [ih1 h hnd hlt, ih2 h (h1.nodup_iff.1 hnd) (fun p hp => hlt p (h1.mem_iff.2 hp))]

end Jungle.TMgr
