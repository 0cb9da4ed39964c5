/-
  Model of `DB::getSampleKeys` (src/sampler.cc).
-/
import Verif.DB.Model
import Verif.Iter.SeqItr

namespace Jungle.Sampler
open Iter
variable {K : Type} [LinearOrder K]

/-- The inner loop (src/sampler.cc:49-82): from where the iterator stands, the first record that is
    acceptable.  `some (none, _)`: `stop_sampling`.  The number is fuel; `none`: it ran out, or the
    iterator does something undefined. -/
def scan (good : Rec K → Bool) : Nat → SeqIt K → Option (Option (Rec K) × SeqIt K)
  | 0, _ => none
  | n + 1, it =>
    match sqGet it with
    | (.ok, some r) =>
      if good r then some (some r, it)
      else match sqStep .fwd it with
        | (.ok, it') => scan good n it'
        | (.undefinedBehaviour, _) => none
        | (_, it') => some (none, it')
    | _ => some (none, it)

/-- May the record be taken (src/sampler.cc:60-75)?  `out` are the keys found so far
    (`found_keys`, which has the same keys as `keys_out`); `lives` is whether `DB::get` of the key
    succeeds. -/
def accept (live : Bool) (lives : K → Bool) (out : List K) (r : Rec K) : Bool :=
  decide (r.key ∉ out) && (!live || lives r.key)

/-- The outer loop (src/sampler.cc:43-105).  The first number is `num_remaining`, then `seq_step`,
    `exp_cur_seq`, `exp_next_seq`.  Simplification: the numbers do not wrap around; only an
    `exp_next_seq` that is not used any more can be beyond `max_seq` (`next_le`). -/
def loop (live : Bool) (lives : K → Bool) (mx : Nat) : Nat → Nat → Nat → Nat → List K → SeqIt K →
    Option (List K)
  | 0, _, _, _, out, _ => some out
  | rem + 1, step, cur, nxt, out, it =>
    match sqSeek (.ge cur) it with
    | (.ok, it1) =>
      match scan (accept live lives out) (seqOps.left .fwd it1 + 1) it1 with
      | none => none
      | some (none, _) => some out
      | some (some r, it2) =>
        if rem = 0 ∨ mx ≤ r.seq then some (out ++ [r.key])
        else
          -- "No sample within the range, adjust the step."
          let step' := if r.seq < nxt then step else (mx - r.seq) / rem
          let nxt' := if r.seq < nxt then nxt else r.seq + step'
          loop live lives mx rem step' nxt' (nxt' + step') (out ++ [r.key]) it2
    | (.undefinedBehaviour, _) => none
    | _ => some out

end Jungle.Sampler

namespace Jungle
open Iter
variable {K : Type} [LinearOrder K] [OrderBot K] {c : TCfg K} {parts : Nat} {hp : 0 < parts}

/-- `DB::getSampleKeys` (src/jungle.cc:960-962, src/sampler.cc:9-109) with `numSamples` and
    `liveKeysOnly`.  The status of `initSN` is not looked at; an iterator that is not initialised has
    no record (src/iterator.cc:444-445, 160).  Keys: `none` if the call does something undefined or
    does not return. -/
def DB.getSampleKeys (db : DB K (Lsm c parts hp)) (n : Nat) (live : Bool) : Status × Option (List K) :=
  if n = 0 then (.invalidParameters, some [])
  else
    let mx := if db.check .read ≠ .ok then 0 else db.getMaxSeqNum.getD 0
    if 1 > mx then (.ok, some [])
    else
      match db.seqItr NIL NIL with
      | (_, none) => (.ok, some [])
      | (_, some it) =>
        let step := (mx - 1) / n
        (.ok, Sampler.loop live (fun k => decide ((db.get k).1 = .ok)) mx n step (1 + step) (1 + step + step)
          [] it)

end Jungle
