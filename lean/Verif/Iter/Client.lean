/-
  Programs of a client of an iterator: a list of moves, and the usual loop over all records.
-/
import Verif.Iter.DBItr

namespace Jungle.Iter
variable {K : Type} [LinearOrder K]

/-- `true`: `next`, `false`: `prev`. -/
def dirOf : Bool → Dir
  | true => .fwd
  | false => .bwd

/-- Call `next` / `prev` one after the other, `get` after each, and stop at the first that fails. -/
def keyRun : KeyIt K → List Bool → List (Status × Option (Rec K))
  | _, [] => []
  | it, b :: bs =>
    match keyStep (dirOf b) it with
    | (.ok, it') => (.ok, (keyGet it').2) :: keyRun it' bs
    | (s, _) => [(s, none)]

/-- `do { get } while (next)` (or `prev`), for at most `n` records. -/
def keyAll (d : Dir) : Nat → KeyIt K → List (Rec K)
  | 0, _ => []
  | n + 1, it =>
    match keyGet it with
    | (.ok, some e) =>
      match keyStep d it with
      | (.ok, it') => e :: keyAll d n it'
      | _ => [e]
    | _ => []

end Jungle.Iter
