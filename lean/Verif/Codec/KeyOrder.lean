/-
  Comparison of keys: include/libjungle/sized_buf.h.
-/
import Verif.Basic

namespace Jungle

/-- C `memcmp` on the first `n` bytes.  The standard fixes only the sign. -/
def memcmp : Nat → Bytes → Bytes → Int
  | n + 1, a :: as, b :: bs => if a = b then memcmp n as bs else (a.toNat : Int) - b.toNat
  | _, _, _ => 0

/-- Conversion of a `uint32_t` to `int` (two's complement). -/
def toInt32 (n : Nat) : Int := if n < 2 ^ 31 then n else (n : Int) - 2 ^ 32

namespace SizedBuf

/-- `SizedBuf::cmp` (include/libjungle/sized_buf.h:171-183). -/
def cmp (l r : Bytes) : Int :=
  if l.length = r.length then
    if l.length = 0 then 0 else memcmp l.length l r
  else
    let c := memcmp (min l.length r.length) l r
    if c ≠ 0 then c else toInt32 l.length - toInt32 r.length

/-- `operator==` (include/libjungle/sized_buf.h:185-194). -/
def eq (l r : Bytes) : Bool :=
  if l.length ≠ r.length then false
  else if l.length ≠ 0 then memcmp l.length l r == 0
  else r.length == 0

/-- `operator<` (include/libjungle/sized_buf.h:200-213). -/
def lt (l r : Bytes) : Bool :=
  if l.length = r.length then
    if l.length = 0 then false else decide (memcmp l.length l r < 0)
  else if l.length < r.length then
    if l.length = 0 then true else decide (memcmp l.length l r ≤ 0)
  else
    if r.length = 0 then false else decide (memcmp r.length l r < 0)

/-- `operator<=` (include/libjungle/sized_buf.h:215-228). -/
def le (l r : Bytes) : Bool :=
  if l.length = r.length then
    if l.length = 0 then true else decide (memcmp l.length l r ≤ 0)
  else if l.length < r.length then
    if l.length = 0 then true else decide (memcmp l.length l r ≤ 0)
  else
    if r.length = 0 then false else decide (memcmp r.length l r < 0)

/-- `operator!=`, `operator>`, `operator>=` (include/libjungle/sized_buf.h:196-198,230-236). -/
def ne (l r : Bytes) : Bool := !eq l r
def gt (l r : Bytes) : Bool := !le l r
def ge (l r : Bytes) : Bool := !lt l r

end SizedBuf

/-! Specification: the dictionary order. -/

/-- `l` comes before `r` in the dictionary. -/
inductive Dict : Bytes → Bytes → Prop
  | nil (b : UInt8) (bs : Bytes) : Dict [] (b :: bs)
  | head {a b : UInt8} (as bs : Bytes) : a.toNat < b.toNat → Dict (a :: as) (b :: bs)
  | tail (a : UInt8) {as bs : Bytes} : Dict as bs → Dict (a :: as) (a :: bs)

namespace Dict

theorem irrefl (l : Bytes) : ¬ Dict l l := by
  induction l with
  | nil => intro h; cases h
  | cons a as ih => intro h; cases h with
    | head _ _ h => exact Nat.lt_irrefl _ h
    | tail _ h => exact ih h

theorem trans {a b c : Bytes} (h1 : Dict a b) (h2 : Dict b c) : Dict a c := by
  induction h1 generalizing c with
  | nil b bs => cases h2 <;> exact .nil _ _
  | head as bs h => cases h2 with
    | head _ cs h' => exact .head _ _ (Nat.lt_trans h h')
    | tail _ _ => exact .head _ _ h
  | tail a h ih => cases h2 with
    | head _ cs h' => exact .head _ _ h'
    | tail _ h' => exact .tail _ (ih h')

theorem total (a b : Bytes) : Dict a b ∨ a = b ∨ Dict b a := by
  induction a generalizing b with
  | nil => cases b with
    | nil => right; left; rfl
    | cons b bs => left; exact .nil _ _
  | cons a as ih => cases b with
    | nil => right; right; exact .nil _ _
    | cons b bs =>
      rcases Nat.lt_trichotomy a.toNat b.toNat with h | h | h
      · left; exact .head _ _ h
      · have := UInt8.toNat_inj.1 h
        subst this
        rcases ih bs with h | h | h
        · left; exact .tail _ h
        · right; left; rw [h]
        · right; right; exact .tail _ h
      · right; right; exact .head _ _ h

end Dict

/-- `memcmp` on the shorter length, by cases. -/
theorem memcmp_cases (l r : Bytes) :
    (memcmp (min l.length r.length) l r < 0 ∧ Dict l r) ∨
    (memcmp (min l.length r.length) l r > 0 ∧ Dict r l) ∨
    (memcmp (min l.length r.length) l r = 0 ∧ (l <+: r ∨ r <+: l)) := by
  induction l generalizing r with
  | nil => right; right; simp [memcmp]
  | cons a as ih =>
    cases r with
    | nil => right; right; simp [memcmp]
    | cons b bs =>
      have e : min (a :: as).length (b :: bs).length = min as.length bs.length + 1 := by
        simp only [List.length_cons]; omega
      rw [e]
      by_cases hab : a = b
      · subst hab
        simp only [memcmp, if_true]
        rcases ih bs with ⟨h, d⟩ | ⟨h, d⟩ | ⟨h, d⟩
        · left; exact ⟨h, .tail _ d⟩
        · right; left; exact ⟨h, .tail _ d⟩
        · right; right
          refine ⟨h, ?_⟩
          rcases d with d | d
          · left; exact (List.prefix_cons_inj a).2 d
          · right; exact (List.prefix_cons_inj a).2 d
      · simp only [memcmp, hab, if_false]
        have hn : a.toNat ≠ b.toNat := fun h => hab (UInt8.toNat_inj.1 h)
        rcases Nat.lt_or_ge a.toNat b.toNat with h | h
        · left; exact ⟨by omega, .head _ _ h⟩
        · right; left; exact ⟨by omega, .head _ _ (by omega)⟩

theorem Dict.of_prefix {l r : Bytes} (h : l <+: r) (hne : l.length ≠ r.length) : Dict l r := by
  obtain ⟨t, rfl⟩ := h
  induction l with
  | nil => cases t with
    | nil => simp at hne
    | cons b bs => exact .nil _ _
  | cons a as ih => exact .tail _ (ih (by simpa using hne))

theorem eq_of_prefix {l r : Bytes} (h : l <+: r) (hl : l.length = r.length) : l = r :=
  h.eq_of_length hl

/-- what the shared part says together with the lengths -/
theorem key_cases (l r : Bytes) :
    (memcmp (min l.length r.length) l r < 0 ∧ Dict l r) ∨
    (memcmp (min l.length r.length) l r > 0 ∧ Dict r l) ∨
    (memcmp (min l.length r.length) l r = 0 ∧
      ((l.length < r.length ∧ Dict l r) ∨ (l.length = r.length ∧ l = r) ∨ (r.length < l.length ∧ Dict r l))) := by
  rcases memcmp_cases l r with h | h | ⟨h, hp⟩
  · exact Or.inl h
  · exact Or.inr (Or.inl h)
  · refine Or.inr (Or.inr ⟨h, ?_⟩)
    rcases Nat.lt_trichotomy l.length r.length with hl | hl | hl
    · left
      refine ⟨hl, ?_⟩
      rcases hp with hp | hp
      · exact .of_prefix hp (by omega)
      · have := hp.length_le; omega
    · right; left
      refine ⟨hl, ?_⟩
      rcases hp with hp | hp
      · exact eq_of_prefix hp hl
      · exact (eq_of_prefix hp hl.symm).symm
    · right; right
      refine ⟨hl, ?_⟩
      rcases hp with hp | hp
      · have := hp.length_le; omega
      · exact .of_prefix hp (by omega)

theorem Dict.asymm {a b : Bytes} (h : Dict a b) (h' : Dict b a) : False := irrefl a (h.trans h')

theorem memcmp_zero (l r : Bytes) : memcmp 0 l r = 0 := by cases l <;> cases r <;> rfl

theorem cmp_neg (l r : Bytes) (hl : l.length < 2 ^ 31) (hr : r.length < 2 ^ 31) :
    (SizedBuf.cmp l r < 0 ↔ Dict l r) ∧ (SizedBuf.cmp l r = 0 ↔ l = r) ∧ (SizedBuf.cmp l r > 0 ↔ Dict r l) := by
  have key := key_cases l r
  have hc : SizedBuf.cmp l r =
      if memcmp (min l.length r.length) l r ≠ 0 then memcmp (min l.length r.length) l r
      else (l.length : Int) - r.length := by
    unfold SizedBuf.cmp
    by_cases e : l.length = r.length
    · rw [if_pos e]
      have em : min l.length r.length = l.length := by omega
      rw [em]
      by_cases h0 : l.length = 0
      · rw [if_pos h0, h0, memcmp_zero]; simp; omega
      · rw [if_neg h0]; split
        · rfl
        · next hz => simp at hz; rw [hz]; omega
    · rw [if_neg e]
      simp only [toInt32, hl, hr, if_true]
  have irr : ∀ x, ¬ Dict x x := Dict.irrefl
  have asym : ∀ {x y}, Dict x y → ¬ Dict y x := fun h h' => h.asymm h'
  have neq : ∀ {x y}, Dict x y → x ≠ y := fun h e => irr _ (e ▸ h)
  rw [hc]
  rcases key with ⟨h, d⟩ | ⟨h, d⟩ | ⟨h, hx⟩
  · rw [if_pos (by omega)]
    exact ⟨⟨fun _ => d, fun _ => h⟩, ⟨fun h' => by omega, fun e => absurd e (neq d)⟩,
      ⟨fun h' => by omega, fun d' => absurd d' (asym d)⟩⟩
  · rw [if_pos (by omega)]
    exact ⟨⟨fun h' => by omega, fun d' => absurd d' (asym d)⟩,
      ⟨fun h' => by omega, fun e => absurd e.symm (neq d)⟩, ⟨fun _ => d, fun _ => h⟩⟩
  · rw [if_neg (by omega)]
    rcases hx with ⟨hlen, d⟩ | ⟨hlen, e⟩ | ⟨hlen, d⟩
    · exact ⟨⟨fun _ => d, fun _ => by omega⟩, ⟨fun h' => by omega, fun e => absurd e (neq d)⟩,
        ⟨fun h' => by omega, fun d' => absurd d' (asym d)⟩⟩
    · subst e
      exact ⟨⟨fun h' => by omega, fun d => absurd d (irr _)⟩, ⟨fun _ => rfl, fun _ => by omega⟩,
        ⟨fun h' => by omega, fun d => absurd d (irr _)⟩⟩
    · exact ⟨⟨fun h' => by omega, fun d' => absurd d' (asym d)⟩,
        ⟨fun h' => by omega, fun e => absurd e.symm (neq d)⟩, ⟨fun _ => d, fun _ => by omega⟩⟩

theorem ops_iff (l r : Bytes) :
    (SizedBuf.lt l r = true ↔ Dict l r) ∧ (SizedBuf.le l r = true ↔ Dict l r ∨ l = r) ∧
    (SizedBuf.eq l r = true ↔ l = r) := by
  have key := key_cases l r
  have irr : ∀ x, ¬ Dict x x := Dict.irrefl
  have asym : ∀ {x y}, Dict x y → ¬ Dict y x := fun h h' => h.asymm h'
  have neq : ∀ {x y}, Dict x y → x ≠ y := fun h e => irr _ (e ▸ h)
  unfold SizedBuf.lt SizedBuf.le SizedBuf.eq
  rcases Nat.lt_trichotomy l.length r.length with hl | hl | hl
  · have em : min l.length r.length = l.length := by omega
    have hne : l ≠ r := fun e => by rw [e] at hl; omega
    rw [em] at key
    simp only [Nat.ne_of_lt hl, hl, if_false, if_true, ne_eq, not_false_eq_true]
    have : (l.length = 0 ∨ memcmp l.length l r ≤ 0) ↔ Dict l r := by
      rcases key with ⟨h, d⟩ | ⟨h, d⟩ | ⟨h, hx⟩
      · exact ⟨fun _ => d, fun _ => Or.inr (by omega)⟩
      · refine ⟨fun h' => ?_, fun d' => absurd d' (asym d)⟩
        rcases h' with h' | h'
        · rw [h', memcmp_zero] at h; omega
        · omega
      · rcases hx with ⟨_, d⟩ | ⟨h', _⟩ | ⟨h', _⟩
        · exact ⟨fun _ => d, fun _ => Or.inr (by omega)⟩
        · omega
        · omega
    by_cases h0 : l.length = 0
    · simp only [h0, if_true, true_or, true_iff] at this ⊢
      exact ⟨by simpa using this, by simp [this], by simpa using hne⟩
    · simp only [h0, if_false, false_or] at this ⊢
      exact ⟨by simp [this], by simp [this, hne], by simpa using hne⟩
  · have em : min l.length r.length = l.length := by omega
    rw [em] at key
    simp only [hl, if_true, ne_eq, not_true_eq_false, if_false]
    rw [hl] at key
    by_cases h0 : r.length = 0
    · have e1 : r = [] := List.length_eq_zero_iff.1 h0
      have e2 : l = [] := List.length_eq_zero_iff.1 (hl.trans h0)
      subst e1; subst e2
      simp [irr]
    · simp only [h0, if_false, not_false_eq_true, if_true]
      rcases key with ⟨h, d⟩ | ⟨h, d⟩ | ⟨h, hx⟩
      · have h1 : ¬ memcmp r.length l r = 0 := by omega
        have h2 : memcmp r.length l r ≤ 0 := by omega
        simp [h, h1, h2, d, neq d]
      · have h1 : ¬ memcmp r.length l r = 0 := by omega
        have h2 : ¬ memcmp r.length l r ≤ 0 := by omega
        have h3 : ¬ memcmp r.length l r < 0 := by omega
        simp [h1, h2, h3, asym d, Ne.symm (neq d)]
      · rcases hx with ⟨h', _⟩ | ⟨_, e⟩ | ⟨h', _⟩
        · omega
        · subst e; simp [h, irr]
        · omega
  · have em : min l.length r.length = r.length := by omega
    have hne : l ≠ r := fun e => by rw [e] at hl; omega
    rw [em] at key
    have hln : ¬ l.length = r.length := by omega
    have hlt : ¬ l.length < r.length := by omega
    simp only [hln, hlt, if_false, ne_eq, not_false_eq_true, if_true]
    have : (r.length ≠ 0 ∧ memcmp r.length l r < 0) ↔ Dict l r := by
      rcases key with ⟨h, d⟩ | ⟨h, d⟩ | ⟨h, hx⟩
      · refine ⟨fun _ => d, fun _ => ⟨?_, h⟩⟩
        intro h0; rw [h0, memcmp_zero] at h; omega
      · exact ⟨fun h' => by omega, fun d' => absurd d' (asym d)⟩
      · rcases hx with ⟨h', _⟩ | ⟨h', _⟩ | ⟨_, d⟩
        · omega
        · omega
        · exact ⟨fun h' => by omega, fun d' => absurd d' (asym d)⟩
    by_cases h0 : r.length = 0
    · simp only [h0, ne_eq, not_true_eq_false, false_and, false_iff, if_true] at this ⊢
      exact ⟨by simpa using this, by simp [this, hne], by simpa using hne⟩
    · simp only [h0, ne_eq, not_false_eq_true, true_and, if_false] at this ⊢
      exact ⟨by simp [this], by simp [this, hne], by simpa using hne⟩

end Jungle
