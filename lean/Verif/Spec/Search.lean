/-
  Specification of a search that hands its results to a callback.
-/
import Verif.Spec.KV

namespace Jungle.Spec

/-- The records of the list are handed to the callback in order, after those in `out`, until it
    answers STOP (`cb out r` is true): whether it did, and everything it has been given. -/
def told {K : Type} (cb : List (Rec K) → Rec K → Bool) : List (Rec K) → List (Rec K) → Bool × List (Rec K)
  | [], out => (false, out)
  | r :: rs, out => if cb out r then (true, out ++ [r]) else told cb rs (out ++ [r])

end Jungle.Spec
