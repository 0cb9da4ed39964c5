/-
  Key order (C34).  The specification is `Dict`, the dictionary order on byte
  strings, defined inductively in Verif/Codec/KeyOrder.lean.
-/
import Verif.Codec.KeyOrder

namespace Jungle

/-- **C34.**  The comparison operators on keys are the dictionary order, for
all keys of all sizes: `==` is equality of bytes and the other five agree. -/
theorem C34_operators (l r : Bytes) :
    (SizedBuf.lt l r = true ↔ Dict l r) ∧ (SizedBuf.le l r = true ↔ Dict l r ∨ l = r) ∧
    (SizedBuf.eq l r = true ↔ l = r) ∧ (SizedBuf.ne l r = true ↔ l ≠ r) ∧
    (SizedBuf.gt l r = true ↔ Dict r l) ∧ (SizedBuf.ge l r = true ↔ Dict r l ∨ l = r) := by
  obtain ⟨h1, h2, h3⟩ := ops_iff l r
  refine ⟨h1, h2, h3, ?_, ?_, ?_⟩
  · simp only [SizedBuf.ne, Bool.not_eq_true', ← Bool.not_eq_true, h3, ne_eq]
  · simp only [SizedBuf.gt, Bool.not_eq_true', ← Bool.not_eq_true, h2]
    constructor
    · intro h
      rcases Dict.total l r with h' | h' | h'
      · exact absurd (Or.inl h') h
      · exact absurd (Or.inr h') h
      · exact h'
    · rintro h (h' | h')
      · exact h.asymm h'
      · exact Dict.irrefl _ (h' ▸ h)
  · simp only [SizedBuf.ge, Bool.not_eq_true', ← Bool.not_eq_true, h1]
    constructor
    · intro h
      rcases Dict.total l r with h' | h' | h'
      · exact absurd h' h
      · exact Or.inr h'
      · exact Or.inl h'
    · rintro (h | h) h'
      · exact h.asymm h'
      · exact Dict.irrefl _ (h ▸ h')

/-- **C34.**  `operator<` on keys is a strict total order. -/
theorem C34_total_order :
    (∀ a, SizedBuf.lt a a = false) ∧
    (∀ a b c, SizedBuf.lt a b = true → SizedBuf.lt b c = true → SizedBuf.lt a c = true) ∧
    (∀ a b, SizedBuf.lt a b = true ∨ a = b ∨ SizedBuf.lt b a = true) := by
  refine ⟨fun a => ?_, fun a b c h1 h2 => ?_, fun a b => ?_⟩
  · rw [← Bool.not_eq_true, (ops_iff a a).1]; exact Dict.irrefl a
  · rw [(ops_iff _ _).1] at *; exact h1.trans h2
  · rw [(ops_iff a b).1, (ops_iff b a).1]; exact Dict.total a b

/-- **C34 (part).**  The three-way comparison used by the in-memory index and
the tables is the dictionary order and so agrees with the operators, for keys
shorter than 2 GiB.  Missing: keys of 2 GiB and more, where it is false
(`C34_huge_key_violation`). -/
theorem C34_cmp_partial (l r : Bytes) (hl : l.length < 2 ^ 31) (hr : r.length < 2 ^ 31) :
    (SizedBuf.cmp l r < 0 ↔ SizedBuf.lt l r = true) ∧ (SizedBuf.cmp l r = 0 ↔ l = r) ∧
    (SizedBuf.cmp l r > 0 ↔ SizedBuf.gt l r = true) := by
  obtain ⟨h1, h2, h3⟩ := cmp_neg l r hl hr
  obtain ⟨o1, _, _, _, o5, _⟩ := C34_operators l r
  exact ⟨h1.trans o1.symm, h2, h3.trans o5.symm⟩

/-- the three-way comparison is antisymmetric, transitive and total on keys
shorter than 2 GiB -/
theorem C34_cmp_order_partial (a b c : Bytes)
    (ha : a.length < 2 ^ 31) (hb : b.length < 2 ^ 31) (hc : c.length < 2 ^ 31) :
    (SizedBuf.cmp a b > 0 ↔ SizedBuf.cmp b a < 0) ∧ (SizedBuf.cmp a b ≤ 0 → SizedBuf.cmp b c ≤ 0 → SizedBuf.cmp a c ≤ 0) ∧
    (SizedBuf.cmp a b ≤ 0 → SizedBuf.cmp b a ≤ 0 → a = b) := by
  have hab := cmp_neg a b ha hb
  have hba := cmp_neg b a hb ha
  have hbc := cmp_neg b c hb hc
  have hac := cmp_neg a c ha hc
  have nle : ∀ {x y : Bytes} {i : Int}, (i < 0 ↔ Dict x y) ∧ (i = 0 ↔ x = y) ∧ (i > 0 ↔ Dict y x) →
      (i ≤ 0 ↔ (Dict x y ∨ x = y)) := by
    rintro x y i ⟨p, q, r⟩
    rw [← p, ← q]; omega
  refine ⟨hab.2.2.trans hba.1.symm, ?_, ?_⟩
  · rw [nle hab, nle hbc, nle hac]
    rintro (h | rfl) (h' | rfl)
    · exact Or.inl (h.trans h')
    · exact Or.inl h
    · exact Or.inl h'
    · exact Or.inr rfl
  · rw [nle hab, nle hba]
    rintro (h | h) (h' | h')
    · exact absurd (h.trans h') (Dict.irrefl _)
    · exact h'.symm
    · exact h
    · exact h

theorem exists_length (n : Nat) : ∃ r : Bytes, r.length = n := ⟨List.replicate n 0, List.length_replicate⟩

/-- **C34 fails for huge keys.**  The empty key is smaller than a key of
2^31 + 1 bytes, and `operator<` says so, but the three-way comparison returns a
positive number: the difference of the sizes is taken after both have been
converted to `int`. -/
theorem C34_huge_key_violation :
    ∃ l r : Bytes, r.length < 2 ^ 32 ∧ SizedBuf.lt l r = true ∧ SizedBuf.cmp l r > 0 ∧ SizedBuf.cmp l r < 2 ^ 31 := by
  obtain ⟨r, hr⟩ := exists_length 2147483649
  have hd : Dict [] r := by
    cases r with
    | nil => cases hr
    | cons b bs => exact .nil _ _
  have hm : memcmp (min ([] : Bytes).length r.length) [] r = 0 := by
    rw [show min ([] : Bytes).length r.length = 0 from Nat.zero_min _]; exact memcmp_zero _ _
  have hc : SizedBuf.cmp [] r = 2147483647 := by
    unfold SizedBuf.cmp
    rw [hm, hr, if_neg (by simp)]
    decide
  exact ⟨[], r, by omega, ((ops_iff _ _).1).2 hd, by omega, by omega⟩

/-! concrete keys -/

example : SizedBuf.cmp [1, 2] [1, 2, 0] < 0 ∧ SizedBuf.lt [1, 2] [1, 2, 0] = true := by decide
example : SizedBuf.cmp [200] [3, 4, 5] > 0 ∧ SizedBuf.gt [200] [3, 4, 5] = true := by decide
example : ([1, 2] : Bytes).length < 2 ^ 31 := by decide

end Jungle
