/-
  Fixed-width big-endian numbers and the cursor of `RwSerializer`
  (src/endian_encode.h, src/internal_helper.cc:38-260).
-/
import Mathlib.Data.List.Induction
import Verif.Basic

namespace Jungle

/-- `putU64/putU32/putU16/putU8` (src/internal_helper.cc:92-155): `w` bytes, most significant
    first; higher bits are cut off, as by the conversion to the argument type. -/
def be : Nat → Nat → Bytes
  | 0, _ => []
  | w + 1, n => be w (n / 256) ++ [UInt8.ofNat (n % 256)]

/-- `getU64/getU32/…` (src/internal_helper.cc:186-252) on the bytes read. -/
def unbe (bs : Bytes) : Nat := bs.foldl (fun a b => a * 256 + b.toNat) 0

@[simp] theorem be_length (w n : Nat) : (be w n).length = w := by
  induction w generalizing n with
  | zero => rfl
  | succ w ih => simp [be, ih]

theorem be_drop {w m : Nat} (n : Nat) (h : w ≤ m) : (be w n).drop m = [] :=
  List.drop_eq_nil_of_le (by simpa using h)

theorem be_take {w m : Nat} (n : Nat) (h : w ≤ m) : (be w n).take m = be w n :=
  List.take_of_length_le (by simpa using h)

theorem unbe_append_one (xs : Bytes) (b : UInt8) : unbe (xs ++ [b]) = unbe xs * 256 + b.toNat := by
  simp [unbe]

theorem unbe_be_mod (w n : Nat) : unbe (be w n) = n % 256 ^ w := by
  induction w generalizing n with
  | zero => simp [be, unbe, Nat.mod_one]
  | succ w ih =>
    rw [be, unbe_append_one, ih, Nat.pow_succ, Nat.mul_comm (256 ^ w) 256, Nat.mod_mul]
    have : (UInt8.ofNat (n % 256)).toNat = n % 256 := by simp
    rw [this]; omega

theorem unbe_be {w n : Nat} (h : n < 256 ^ w) : unbe (be w n) = n := by
  rw [unbe_be_mod, Nat.mod_eq_of_lt h]

theorem unbe_lt (bs : Bytes) : unbe bs < 256 ^ bs.length := by
  induction bs using List.reverseRecOn with
  | nil => simp [unbe]
  | append_singleton xs b ih =>
    rw [unbe_append_one, List.length_append, List.length_singleton, Nat.pow_succ]
    have := b.toNat_lt
    omega

theorem be_unbe (bs : Bytes) : be bs.length (unbe bs) = bs := by
  induction bs using List.reverseRecOn with
  | nil => rfl
  | append_singleton xs b ih =>
    rw [unbe_append_one, List.length_append, List.length_singleton, be]
    have h := b.toNat_lt
    have h1 : (unbe xs * 256 + b.toNat) / 256 = unbe xs := by omega
    have h2 : (unbe xs * 256 + b.toNat) % 256 = b.toNat := by omega
    rw [h1, h2, ih]; simp

theorem unbe_inj {a b : Bytes} (hl : a.length = b.length) (h : unbe a = unbe b) : a = b := by
  rw [← be_unbe a, ← be_unbe b, hl, h]

theorem be_inj {w m n : Nat} (hm : m < 256 ^ w) (hn : n < 256 ^ w) (h : be w m = be w n) : m = n := by
  rw [← unbe_be hm, h, unbe_be hn]

/-- `RwSerializer::get` in memory mode (src/internal_helper.cc:157-171): the next `n` bytes and
    the rest, or READ_VIOLATION. -/
def takeN (n : Nat) (bs : Bytes) : Option (Bytes × Bytes) :=
  if n ≤ bs.length then some (bs.take n, bs.drop n) else none

theorem takeN_append {n : Nat} {a b : Bytes} (h : a.length = n) : takeN n (a ++ b) = some (a, b) := by
  subst h; simp [takeN]

theorem takeN_short {n : Nat} {a : Bytes} (h : a.length < n) : takeN n a = none := by
  simp [takeN]; omega

theorem takeN_some {n : Nat} {bs a b : Bytes} (h : takeN n bs = some (a, b)) : bs = a ++ b ∧ a.length = n := by
  unfold takeN at h
  split at h
  · next hn =>
    cases h
    exact ⟨(List.take_append_drop n bs).symm, by simp; omega⟩
  · cases h

/-- read a number of `w` bytes -/
def getU (w : Nat) (bs : Bytes) : Option (Nat × Bytes) :=
  match takeN w bs with
  | some (a, b) => some (unbe a, b)
  | none => none

theorem getU_be {w n : Nat} {b : Bytes} (h : n < 256 ^ w) : getU w (be w n ++ b) = some (n, b) := by
  unfold getU; rw [takeN_append (be_length w n)]; simp [unbe_be h]

theorem getU_short {w : Nat} {a : Bytes} (h : a.length < w) : getU w a = none := by
  unfold getU; rw [takeN_short h]

end Jungle
