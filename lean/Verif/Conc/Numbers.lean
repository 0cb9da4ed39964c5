/-
  Model of `LogManifest::issueLogFileNumber` (src/log_manifest.cc:646-660) and
  `TableManifest::issueTableNumber` (src/table_manifest.cc:444-458), which are the same code:
  any number of threads, every interleaving of the loads and compare-and-swaps.
-/
import Mathlib.Order.Nat
import Mathlib.Data.List.Nodup
import Verif.Basic

namespace Jungle.Numbers

/-- Where a thread is. -/
inductive PC
  | idle
  /-- the first compare-and-swap (NOT_INITIALIZED → 0) did not succeed -/
  | loop
  /-- `expected = max` was done -/
  | loaded (expected : Nat)
  /-- `val = max + 1` was done -/
  | ready (expected val : Nat)
  deriving DecidableEq, Repr

structure St where
  /-- the atomic counter -/
  max : Nat
  /-- the numbers handed out, newest first -/
  issued : List Nat := []
  pc : Nat → PC := fun _ => .idle

def St.setPC (s : St) (i : Nat) (p : PC) : Nat → PC := fun j => if j = i then p else s.pc j

/-- One atomic step of thread `i`.  `compare_exchange_weak` may fail for no reason, so the
    failing steps do not look at the counter. -/
inductive Step : St → Nat → St → Prop
  | firstOk {s i} : s.pc i = .idle → s.max = NIL →
      Step s i { s with max := 0, issued := 0 :: s.issued }
  | firstFail {s i} : s.pc i = .idle → Step s i { s with pc := s.setPC i .loop }
  | load {s i} : s.pc i = .loop → Step s i { s with pc := s.setPC i (.loaded s.max) }
  /-- the addition is on 64-bit unsigned numbers -/
  | add {s i e} : s.pc i = .loaded e →
      Step s i { s with pc := s.setPC i (.ready e ((s.max + 1) % 2 ^ 64)) }
  | casOk {s i e v} : s.pc i = .ready e v → s.max = e →
      Step s i { max := v, issued := v :: s.issued, pc := s.setPC i .idle }
  | casFail {s i e v} : s.pc i = .ready e v → Step s i { s with pc := s.setPC i .loop }

/-- Executions from a counter read from the manifest (or NOT_INITIALIZED for a new one). -/
inductive Reach (m0 : Nat) : St → Prop
  | init : Reach m0 { max := m0 }
  | step {s i s'} : Reach m0 s → Step s i s' → Reach m0 s'

/-- the value of the counter after `k` numbers were handed out since it was new -/
def val (k : Nat) : Nat := if k = 0 then NIL else k - 1

/-- how many numbers were handed out when the counter is `m` -/
def ord (m : Nat) : Nat := if m = NIL then 0 else m + 1

theorem val_inj {a b : Nat} (ha : a ≤ NIL) (hb : b ≤ NIL) (h : val a = val b) : a = b := by
  unfold val at h; split at h <;> split at h <;> omega

theorem val_ord (m : Nat) : val (ord m) = m := by
  unfold val ord; split
  · simp_all
  · simp

theorem ord_val {k : Nat} (h : k ≤ NIL) : ord (val k) = k := by
  unfold ord val
  by_cases h0 : k = 0
  · simp [h0]
  · rw [if_neg h0, if_neg (by omega)]; omega

theorem val_succ {k : Nat} (h : k < NIL) : (val k + 1) % 2 ^ 64 = val (k + 1) := by
  unfold val; unfold NIL at h ⊢
  split
  · next h0 => subst h0; decide
  · rw [if_neg (by omega)]; rw [Nat.mod_eq_of_lt] <;> omega

/-- While fewer than 2^64 - 1 numbers were handed out. -/
structure Inv (b : Nat) (s : St) : Prop where
  max : s.max = val (b + s.issued.length)
  issued : s.issued = ((List.range s.issued.length).map (fun j => val (b + j + 1))).reverse
  ld : ∀ i e, s.pc i = .loaded e → ∃ k, k ≤ b + s.issued.length ∧ e = val k
  rd : ∀ i e v, s.pc i = .ready e v → ∃ k k2, k ≤ k2 ∧ k2 ≤ b + s.issued.length ∧ e = val k ∧
    (k2 < NIL → v = val (k2 + 1))

theorem Inv.step {b s i s'} (h : Inv b s) (st : Step s i s') (hb : b + s'.issued.length ≤ NIL) :
    Inv b s' := by
  obtain ⟨h1, h2, h3, h4⟩ := h
  cases st with
  | firstOk hp hm =>
    simp only [List.length_cons] at hb
    have hz : b + s.issued.length = 0 := by
      rw [hm] at h1; exact (val_inj (b := 0) (by omega) (by omega) (by rw [← h1]; rfl))
    have hn : s.issued = [] := List.length_eq_zero_iff.1 (by omega)
    have hb0 : b = 0 := by omega
    subst hb0
    refine ⟨?_, ?_, ?_, ?_⟩
    · simp [hn, val]
    · simp [hn, val]
    · intro j e hj; obtain ⟨k, hk, e⟩ := h3 j e hj; exact ⟨k, by simp only [List.length_cons]; omega, e⟩
    · intro j e v hj; obtain ⟨k, k2, a, c, d, f⟩ := h4 j e v hj
      exact ⟨k, k2, a, by simp only [List.length_cons]; omega, d, f⟩
  | firstFail hp =>
    refine ⟨h1, h2, ?_, ?_⟩
    · intro j e hj; simp only [St.setPC] at hj; split at hj; cases hj; exact h3 j e hj
    · intro j e v hj; simp only [St.setPC] at hj; split at hj; cases hj; exact h4 j e v hj
  | load hp =>
    refine ⟨h1, h2, ?_, ?_⟩
    · intro j e hj; simp only [St.setPC] at hj; split at hj
      · cases hj; exact ⟨_, le_refl _, h1⟩
      · exact h3 j e hj
    · intro j e v hj; simp only [St.setPC] at hj; split at hj; cases hj; exact h4 j e v hj
  | add hp =>
    rename_i e0
    refine ⟨h1, h2, ?_, ?_⟩
    · intro j e hj; simp only [St.setPC] at hj; split at hj; cases hj; exact h3 j e hj
    · intro j e v hj; simp only [St.setPC] at hj; split at hj
      · cases hj
        obtain ⟨k, hk, he⟩ := h3 i e0 hp
        refine ⟨k, _, hk, le_refl _, he, fun hlt => ?_⟩
        rw [h1, val_succ hlt]
      · exact h4 j e v hj
  | casOk hp hm =>
    rename_i e v
    simp only [List.length_cons] at hb
    obtain ⟨k, k2, a, c, d, f⟩ := h4 i e v hp
    have hk : k = b + s.issued.length := val_inj (by omega) (by omega) (by rw [← d, ← hm, h1])
    have hk2 : k2 = b + s.issued.length := by omega
    have hv := f (by omega)
    rw [hk2] at hv
    refine ⟨?_, ?_, ?_, ?_⟩
    · simp only [List.length_cons, hv]; rfl
    · simp only [List.length_cons]
      rw [List.range_succ, List.map_append, List.reverse_append, ← h2, hv]; rfl
    · intro j e' hj; simp only [St.setPC] at hj; split at hj; cases hj
      obtain ⟨k, hk, e⟩ := h3 j e' hj; exact ⟨k, by simp only [List.length_cons]; omega, e⟩
    · intro j e' v' hj; simp only [St.setPC] at hj; split at hj; cases hj
      obtain ⟨k, k2, a, c, d, f⟩ := h4 j e' v' hj
      exact ⟨k, k2, a, by simp only [List.length_cons]; omega, d, f⟩
  | casFail hp =>
    refine ⟨h1, h2, ?_, ?_⟩
    · intro j e hj; simp only [St.setPC] at hj; split at hj; cases hj; exact h3 j e hj
    · intro j e v hj; simp only [St.setPC] at hj; split at hj; cases hj; exact h4 j e v hj

theorem Step.length {s i s'} (st : Step s i s') : s.issued.length ≤ s'.issued.length := by
  cases st <;> simp

theorem Reach.inv {m0 s} (h : Reach m0 s) (hb : ord m0 + s.issued.length ≤ NIL) :
    Inv (ord m0) s := by
  induction h with
  | init =>
    refine ⟨?_, rfl, ?_, ?_⟩
    · simp [val_ord]
    · intro i e hi; cases hi
    · intro i e v hi; cases hi
  | step _ st ih => exact (ih (by have := st.length; omega)).step st hb

end Jungle.Numbers
