/-
  Byte strings ordered as `SizedBuf` orders them: the key type of a DB without custom comparator.
-/
import Verif.Codec.KeyOrder
import Mathlib.Order.Defs.LinearOrder
import Mathlib.Order.BoundedOrder.Basic

namespace Jungle

/-- A key (include/libjungle/sized_buf.h).  A structure of its own so that its order is not mixed
    up with another order of lists. -/
structure ByteKey where
  bytes : Bytes
  deriving DecidableEq

namespace ByteKey

/-- `operator<` and `operator<=` (include/libjungle/sized_buf.h:200-228). -/
instance : LT ByteKey := ⟨fun a b => SizedBuf.lt a.bytes b.bytes = true⟩
instance : LE ByteKey := ⟨fun a b => SizedBuf.le a.bytes b.bytes = true⟩

theorem lt_iff (a b : ByteKey) : a < b ↔ Dict a.bytes b.bytes := (ops_iff a.bytes b.bytes).1
theorem le_iff (a b : ByteKey) : a ≤ b ↔ Dict a.bytes b.bytes ∨ a.bytes = b.bytes := (ops_iff a.bytes b.bytes).2.1

instance (a b : ByteKey) : Decidable (a < b) := inferInstanceAs (Decidable (SizedBuf.lt a.bytes b.bytes = true))
instance (a b : ByteKey) : Decidable (a ≤ b) := inferInstanceAs (Decidable (SizedBuf.le a.bytes b.bytes = true))

theorem ext' {a b : ByteKey} (h : a.bytes = b.bytes) : a = b := by cases a; cases b; cases h; rfl

instance : LinearOrder ByteKey where
  le_refl a := (le_iff a a).2 (Or.inr rfl)
  le_trans a b c h1 h2 := by
    rw [le_iff] at *
    rcases h1 with h1 | h1
    · rcases h2 with h2 | h2
      · exact Or.inl (h1.trans h2)
      · exact Or.inl (h2 ▸ h1)
    · rw [h1]; exact h2
  le_antisymm a b h1 h2 := by
    rw [le_iff] at *
    rcases h1 with h1 | h1
    · rcases h2 with h2 | h2
      · exact absurd h2 h1.asymm
      · exact ext' h2.symm
    · exact ext' h1
  le_total a b := by
    rw [le_iff, le_iff]
    rcases Dict.total a.bytes b.bytes with h | h | h
    · exact Or.inl (Or.inl h)
    · exact Or.inl (Or.inr h)
    · exact Or.inr (Or.inl h)
  lt_iff_le_not_ge a b := by
    rw [lt_iff, le_iff, le_iff]
    constructor
    · intro h
      refine ⟨Or.inl h, ?_⟩
      rintro (h' | h')
      · exact h.asymm h'
      · exact Dict.irrefl _ (h' ▸ h)
    · rintro ⟨h | h, h'⟩
      · exact h
      · exact absurd (Or.inr h.symm) h'
  toDecidableLE := inferInstance
  toDecidableLT := inferInstance
  toDecidableEq := inferInstance

instance : OrderBot ByteKey where
  bot := ⟨[]⟩
  bot_le a := by
    rw [le_iff]
    cases h : a.bytes with
    | nil => exact Or.inr rfl
    | cons b bs => exact Or.inl (.nil _ _)

/-- `is_prefix_match` (src/memtable.cc:715-719; the same in src/log_mgr.cc:1168-1172,
    src/table_file.cc:1364-1368 and src/table_manifest.cc:824-832). -/
def prefixMatch (p k : Bytes) : Bool :=
  if k.length < p.length then false else decide (SizedBuf.cmp (k.take p.length) p = 0)

theorem memcmp_eq_zero (a b : Bytes) (h : a.length = b.length) : memcmp a.length a b = 0 ↔ a = b := by
  induction a generalizing b with
  | nil => cases b with
    | nil => simp [memcmp]
    | cons => cases h
  | cons x as ih => cases b with
    | nil => cases h
    | cons y bs =>
      simp only [List.length_cons, memcmp]
      by_cases hxy : x = y
      · subst hxy
        simp only [if_true, List.cons.injEq, true_and]
        exact ih bs (by simpa using h)
      · rw [if_neg hxy]
        simp only [List.cons.injEq, hxy, false_and, iff_false]
        intro h0
        exact hxy (UInt8.toNat_inj.1 (by omega))

theorem prefixMatch_iff (p k : Bytes) : prefixMatch p k = true ↔ ∃ s, k = p ++ s := by
  unfold prefixMatch
  by_cases hl : k.length < p.length
  · rw [if_pos hl]
    constructor
    · intro h; cases h
    · rintro ⟨s, rfl⟩; rw [List.length_append] at hl; omega
  · rw [if_neg hl, decide_eq_true_eq]
    have hlen : (k.take p.length).length = p.length := by rw [List.length_take]; omega
    have hc : SizedBuf.cmp (k.take p.length) p = 0 ↔ k.take p.length = p := by
      unfold SizedBuf.cmp
      rw [if_pos hlen]
      by_cases h0 : (k.take p.length).length = 0
      · rw [if_pos h0]
        have h1 := List.length_eq_zero_iff.1 h0
        have h2 := List.length_eq_zero_iff.1 (hlen ▸ h0)
        rw [h2]
        simp
      · rw [if_neg h0]
        exact memcmp_eq_zero _ _ hlen
    rw [hc]
    constructor
    · intro h; exact ⟨k.drop p.length, by rw [← h, List.length_take, Nat.min_eq_left (by omega)]; exact (List.take_append_drop _ _).symm⟩
    · rintro ⟨s, rfl⟩; exact List.take_left

theorem dict_append (p s : Bytes) : Dict p (p ++ s) ∨ p = p ++ s := by
  induction p with
  | nil => cases s with
    | nil => exact Or.inr rfl
    | cons b bs => exact Or.inl (.nil _ _)
  | cons a as ih =>
    rcases ih with h | h
    · exact Or.inl (.tail _ h)
    · right; rw [List.cons_append, ← h]

/-- Everything between a prefix and a key that has it has the prefix, too. -/
theorem prefix_between {p a b : Bytes} (h1 : Dict p a ∨ p = a) (h2 : Dict a b ∨ a = b) (h : ∃ s, b = p ++ s) :
    ∃ s, a = p ++ s := by
  obtain ⟨s, rfl⟩ := h
  induction p generalizing a with
  | nil => exact ⟨a, rfl⟩
  | cons x p ih =>
    cases a with
    | nil => rcases h1 with h | h <;> cases h
    | cons y a =>
      have hxy : x = y ∧ (Dict p a ∨ p = a) ∧ (Dict a (p ++ s) ∨ a = p ++ s) := by
        rw [List.cons_append] at h2
        rcases h1 with h1 | h1
        · cases h1 with
          | head _ _ hlt =>
            rcases h2 with h2 | h2
            · cases h2 with
              | head _ _ hlt' => omega
              | tail _ _ => omega
            · cases h2; omega
          | tail _ h1 =>
            rcases h2 with h2 | h2
            · cases h2 with
              | head _ _ hlt' => omega
              | tail _ h2 => exact ⟨rfl, Or.inl h1, Or.inl h2⟩
            · cases h2; exact ⟨rfl, Or.inl h1, Or.inr rfl⟩
        · cases h1
          rcases h2 with h2 | h2
          · cases h2 with
            | head _ _ hlt' => omega
            | tail _ h2 => exact ⟨rfl, Or.inr rfl, Or.inl h2⟩
          · have := (List.cons.inj h2).2
            exact ⟨rfl, Or.inr rfl, Or.inr this⟩
      obtain ⟨s', hs'⟩ := ih hxy.2.1 hxy.2.2
      exact ⟨s', by rw [hs', hxy.1, List.cons_append]⟩

end ByteKey
end Jungle
