/-
  Within the tables the topmost record of a key is the newest one, unless the log holds a newer
  one.
-/
import Verif.Table.Lsm
import Verif.DB.ReachInv

set_option linter.unusedSectionVars false

namespace Jungle
open Spec
namespace TMgr
variable {K : Type} [LinearOrder K] [OrderBot K]

/-- The tables hold accepted writes of the right key, and for a key without a record in the log the
    topmost one is the newest. -/
structure Newest (c : TCfg K) (t : TMgr K) (A B : List (Rec K)) : Prop where
  mem : ∀ k, ∀ r ∈ stack c t k, r ∈ A ++ B ∧ r.key = k ∧ r.isCmd = false
  top : ∀ k, lastWrite B k = none → ∀ x, (stack c t k).head? = some x → ∀ r ∈ stack c t k, r.seq ≤ x.seq

theorem Newest.same {c : TCfg K} {t t' : TMgr K} {A B : List (Rec K)} (h : Newest c t A B) (hinv : Inv c t)
    (hs : Same c t t') : Newest c t' A B := by
  refine ⟨fun k r hr => h.mem k r ((hs.img k).mem hr), ?_⟩
  intro k hk x hx r hr
  have ht := hs.top k
  rw [get_eq_head hs.inv, get_eq_head hinv, hx] at ht
  rcases ht with ht | ⟨ht, _⟩
  · exact h.top k hk x ht.symm r ((hs.img k).mem hr)
  · cases ht

theorem newest_pred (c : TCfg K) (parts : Nat) (hp : 0 < parts) :
    TablePred (Lsm c parts hp) (Newest c) where
  init := by
    have : ∀ k, stack c (TMgr.init parts) k = [] := fun k => stack_init c hp k
    refine ⟨?_, ?_⟩
    · intro k r hr; rw [show stack c (Lsm c parts hp).empty k = [] from this k] at hr; cases hr
    · intro k _ x _ r hr; rw [show stack c (Lsm c parts hp).empty k = [] from this k] at hr; cases hr
  write := by
    intro t A B X h
    refine ⟨?_, ?_⟩
    · intro k r hr
      have := h.mem k r hr
      refine ⟨?_, this.2⟩
      rw [← List.append_assoc]; exact List.mem_append_left _ this.1
    · intro k hk
      rw [lastWrite_append] at hk
      exact h.top k (by cases hx : lastWrite X k <;> simp_all)
  flush := by
    intro t A D B' R t' cps hinv h hinc hincR hsub ht hlast
    have hAB : A ++ D ++ B' = A ++ (D ++ B') := List.append_assoc _ _ _
    have himg : ∀ k, Img (stack c t' k) ((lastWrite R k).toList ++ stack c t k) := by
      intro k
      rw [ht]
      split
      · next hR => rw [hR]; exact Img.refl _
      · exact setBatch_stack hinv R k
    have hget : ∀ k, (stack c t' k).head? = (lastWrite R k).or (stack c t k).head? := by
      intro k
      rw [ht]
      split
      · next hR => rw [hR]; rfl
      · have := (setBatch_ok hinv R).2.2 k
        rw [get_eq_head (setBatch_ok hinv R).1, get_eq_head hinv] at this
        exact this
    have hmem : ∀ k, ∀ r ∈ stack c t' k, r ∈ A ++ (D ++ B') ∧ r.key = k ∧ r.isCmd = false := by
      intro k r hr
      rcases List.mem_append.1 ((himg k).mem hr) with h1 | h1
      · rw [Option.mem_toList] at h1
        have := lastWrite_mem h1
        exact ⟨List.mem_append_right _ (hsub r this.1), this.2⟩
      · exact h.mem k r h1
    refine ⟨?_, ?_⟩
    · intro k r hr; rw [hAB]; exact hmem k r hr
    · intro k hk x hx r hr
      have hRD := hlast k hk
      rw [hget k] at hx
      cases hD : lastWrite D k with
      | some d =>
        rw [hRD, hD] at hx
        have hdx : d = x := Option.some.inj hx
        subst hdx
        have hm := hmem k r hr
        have hl : lastWrite (A ++ (D ++ B')) k = some d := by
          rw [lastWrite_append, lastWrite_append, hk, hD]; rfl
        exact lastWrite_max hinc hl hm.1 hm.2.1 hm.2.2
      | none =>
        rw [hRD, hD] at hx
        have hB : lastWrite (D ++ B') k = none := by rw [lastWrite_append, hk, hD]; rfl
        have hrm := (himg k).mem hr
        rw [hRD, hD] at hrm
        exact h.top k hB x hx r hrm
  reopen := by
    intro t A B hinv h
    exact h.same hinv (reopen_same hinv)
  maint := by
    intro t t' A B hinv h hm
    exact h.same hinv (Maint.same hm hinv)

end TMgr
end Jungle
