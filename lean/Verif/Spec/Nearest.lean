/-
  Specification of the nearest-record search.
-/
import Verif.Log.MemTable

namespace Jungle.Spec
variable {K : Type} [LinearOrder K]

/-- Key `x` is on the side of `k` the option asks for. -/
def Side (opt : SOpt) (k x : K) : Prop :=
  match opt with
  | .greaterOrEqual => k ≤ x
  | .greater => k < x
  | .smallerOrEqual => x ≤ k
  | .smaller => x < k
  | .equal => x = k

/-- On that side, key `a` is closer than key `b`. -/
def Closer (opt : SOpt) (a b : K) : Prop :=
  match opt with
  | .greaterOrEqual => a < b
  | .greater => a < b
  | .smallerOrEqual => b < a
  | .smaller => b < a
  | .equal => False

instance (opt : SOpt) (k x : K) : Decidable (Side opt k x) := by unfold Side; cases opt <;> infer_instance
instance (opt : SOpt) (a b : K) : Decidable (Closer opt a b) := by unfold Closer; cases opt <;> infer_instance

end Jungle.Spec
