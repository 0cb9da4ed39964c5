/-
  The smallest table section: a list of everything that was flushed.  Used only to run the
  handle model on concrete cases.
-/
import Verif.DB.Model

namespace Jungle
variable {K : Type} [LinearOrder K]

/-- A stand-in for the table manager without levels (simplification: no hash partitions, no
    files); the tables of src/table_mgr.cc are modelled in `Verif/Table`. -/
def Flat (K : Type) [LinearOrder K] : TableSys K where
  T := List (Rec K)
  empty := []
  Inv := fun _ => True
  get := Spec.lastWrite
  setBatch := fun t R _ => t ++ R
  torn := fun t R _ t' => ∃ p : K → Bool, t' = t ++ R.filter (fun r => p r.key)
  reopen := id
  maint := fun t t' => ∀ k, Spec.lastWrite t' k = Spec.lastWrite t k
  inv_empty := trivial
  get_empty := fun _ => rfl
  inv_setBatch := fun _ _ _ _ _ => trivial
  get_setBatch := by
    intro t R c k _ _
    rw [Spec.lastWrite_append]
    cases Spec.lastWrite R k <;> rfl
  torn_ok := by
    rintro t R c t' _ _ ⟨p, rfl⟩
    refine ⟨trivial, fun k => ?_⟩
    simp only [Spec.lastWrite_append]
    cases hp : p k with
    | true =>
      right
      have : Spec.lastWrite (R.filter (fun r => p r.key)) k = Spec.lastWrite R k := by
        unfold Spec.lastWrite
        rw [List.filter_filter]
        congr 1
        apply List.filter_congr
        intro r _
        by_cases hk : r.key = k
        · simp [hk, hp]
        · simp [hk]
      rw [this]
    | false =>
      left
      have : Spec.lastWrite (R.filter (fun r => p r.key)) k = none := by
        unfold Spec.lastWrite
        rw [List.filter_filter, List.getLast?_eq_none_iff, List.filter_eq_nil_iff]
        intro r _
        by_cases hk : r.key = k
        · simp [hk, hp]
        · simp [hk]
      rw [this]; rfl
  reopen_ok := fun t _ => ⟨trivial, fun _ => rfl⟩
  maint_ok := fun t t' _ h => ⟨trivial, fun k => by rw [h k]⟩

end Jungle
