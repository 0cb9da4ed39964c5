/-
  Specification vocabulary for iterators: the sorted list of live records and a position in it.
  Nothing here mentions the implementation.
-/
import Mathlib.Order.Defs.LinearOrder
import Verif.Spec.KV

namespace Jungle.Spec

/-- `e` is what a reader of key `e.key` must see after history `h`, and the key is in the closed
    range from `lo` to `hi` (`none`: no bound). -/
def Live {K : Type} [LinearOrder K] (h : List (Rec K)) (lo hi : Option K) (e : Rec K) : Prop :=
  answerRec h e.key = (.ok, some e) ∧ (∀ a, lo = some a → a ≤ e.key) ∧ ∀ b, hi = some b → e.key ≤ b

/-- `L` lists the live records of the range in ascending order of their keys. -/
def LiveList {K : Type} [LinearOrder K] (h : List (Rec K)) (lo hi : Option K) (L : List (Rec K)) : Prop :=
  L.Pairwise (fun a b => a.key < b.key) ∧ ∀ e, e ∈ L ↔ Live h lo hi e

/-- The answers of a list of moves (`true`: forward, `false`: backward) that starts at position `i`
    of `L`, up to the first one that fails. -/
def moves {α : Type} (L : List α) : Nat → List Bool → List (Status × Option α)
  | _, [] => []
  | i, true :: ds =>
    if i + 1 < L.length then (.ok, L[i + 1]?) :: moves L (i + 1) ds else [(.outOfRange, none)]
  | i, false :: ds =>
    if 0 < i then (.ok, L[i - 1]?) :: moves L (i - 1) ds else [(.outOfRange, none)]

/-- `n` is not outside the numbers `lo` to `hi` (`NIL`: no bound). -/
def NumIn (lo hi n : Nat) : Prop := (lo ≠ NIL → lo ≤ n) ∧ (hi ≠ NIL → n ≤ hi)

/-- `L` is an acceptable answer to "list the records with numbers from `lo` to `hi`" after history
    `h`, when everything up to `flushed` has been moved to the tables: ascending, each record once;
    nothing but written records of the range; every record that is not flushed; every record that is
    the current value of its key.  (Records that were flushed and superseded may or may not be
    kept.) -/
structure SeqScan {K : Type} [LinearOrder K] (h : List (Rec K)) (flushed : Option Nat) (lo hi : Nat)
    (L : List (Rec K)) : Prop where
  sorted : L.Pairwise (fun a b => a.seq < b.seq)
  sound : ∀ e ∈ L, e ∈ h ∧ NumIn lo hi e.seq
  recent : ∀ r ∈ h, (∀ m, flushed = some m → m < r.seq) → NumIn lo hi r.seq → r ∈ L
  live : ∀ r, answerRec h r.key = (.ok, some r) → NumIn lo hi r.seq → r ∈ L

end Jungle.Spec
