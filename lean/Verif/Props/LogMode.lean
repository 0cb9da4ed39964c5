/-
  C75: whether a directory is recognised as one in log section mode.
-/
import Verif.DB.LogMode

namespace Jungle
namespace LogMode
open TabMani

/-- C75: without a directory or a manifest, and with one that ends before the two numbers, the answer is no. -/
theorem C75_no_manifest : isLogSectionMode none = false ∧
    ∀ file : Bytes, file.length < 12 → isLogSectionMode (some file) = false := by
  refine ⟨rfl, fun file h => ?_⟩
  unfold isLogSectionMode
  dsimp only
  cases h1 : getU 8 file with
  | none => rfl
  | some x =>
    obtain ⟨last, r⟩ := x
    dsimp only
    have hr : r.length < 4 := by
      unfold getU takeN at h1
      by_cases h8 : 8 ≤ file.length
      · rw [if_pos h8] at h1
        simp only [Option.some.injEq, Prod.mk.injEq] at h1
        rw [← h1.2, List.length_drop]
        omega
      · rw [if_neg h8] at h1
        cases h1
    rw [getU_short hr]

theorem History.logOnly {m : Option TabMani} {os : List OpenOpt} (h : History m os)
    (hl : ∀ o ∈ os, o.tables = false ∨ o.parts = 0) : ∀ x, m = some x → x = fresh := by
  induction h with
  | nothing => intro x hx; cases hx
  | first o _ =>
    intro x hx
    rw [← Option.some.inj hx]
    unfold firstOpen
    rcases hl o (by simp) with h | h
    · rw [h]; rfl
    · rw [h]; split <;> rfl
  | dies o => intro x hx; exact (Option.some.inj hx).symm
  | keeps o _ _ ih => exact ih fun o' ho => hl o' (List.mem_append_left _ ho)
  | adjusted o _ ha _ _ _ _ ih =>
    have hm := ih (fun o' ho => hl o' (List.mem_append_left _ ho)) _ rfl
    exfalso
    unfold adjusts at ha
    rcases hl o (by simp) with h | h
    · rw [h] at ha; cases ha
    · rw [h, hm] at ha
      have e : numParts fresh = 0 := rfl
      rw [e] at ha
      simp at ha
  | moves _ hm ih =>
    intro x hx
    rw [← Option.some.inj hx]
    exact hm.fresh (ih hl _ rfl)

theorem History.some_tables {m : Option TabMani} {os : List OpenOpt} (h : History m os)
    (ht : ∃ o ∈ os, o.tables = true ∧ 0 < o.parts) : ∀ x, m = some x → x.maxTable < NIL := by
  induction h with
  | nothing => obtain ⟨o, ho, _⟩ := ht; cases ho
  | first o hp =>
    intro x hx
    obtain ⟨o', ho, h1, h2⟩ := ht
    rw [List.mem_singleton] at ho
    subst ho
    rw [← Option.some.inj hx]
    unfold firstOpen
    rw [if_pos h1]
    exact addParts_lt _ _ (fun h => absurd rfl h) hp h2
  | dies o => obtain ⟨o, ho, _⟩ := ht; cases ho
  | @keeps m os o hh ha ih =>
    intro x hx
    cases Option.some.inj hx
    obtain ⟨o', ho, h1, h2⟩ := ht
    rcases List.mem_append.1 ho with ho | ho
    · exact ih ⟨o', ho, h1, h2⟩ _ rfl
    · rw [List.mem_singleton] at ho
      subst ho
      -- the partitions are there, so some table has a number
      by_cases hos : ∃ o ∈ os, o.tables = true ∧ 0 < o.parts
      · exact ih hos _ rfl
      · have hm := hh.logOnly (by
          intro p hp
          by_cases hpt : p.tables = true
          · right
            by_contra hc
            exact hos ⟨p, hp, hpt, Nat.pos_of_ne_zero hc⟩
          · left; simpa using hpt) _ rfl
        exfalso
        have e : numParts fresh = 0 := rfl
        unfold adjusts at ha
        rw [h1, hm, e] at ha
        simp at ha
        omega
  | @adjusted m m1 os o hh ha hr hm hf hp ih =>
    intro x hx
    rw [← Option.some.inj hx]
    show (addParts m1 o.parts).maxTable < NIL
    have hot : o.tables = true := by
      unfold adjusts at ha
      exact (Bool.and_eq_true_iff.1 ha).1
    by_cases h0 : 0 < o.parts
    · exact addParts_lt _ _ hf hp h0
    · have e : o.parts = 0 := by omega
      rw [e]
      show m1.maxTable < NIL
      obtain ⟨o', ho, h1, h2⟩ := ht
      rcases List.mem_append.1 ho with ho | ho
      · exact hm.num (ih ⟨o', ho, h1, h2⟩ _ rfl)
      · rw [List.mem_singleton] at ho
        subst ho
        omega
  | moves _ hm ih =>
    intro x hx
    rw [← Option.some.inj hx]
    exact hm.num (ih ht _ rfl)

/-- C75: a directory that was only ever opened in log section mode (or read-only) is recognised. -/
theorem C75_log_mode {m : TabMani} {os : List OpenOpt} (h : History (some m) os)
    (hl : ∀ o ∈ os, o.logOnly = true ∨ o.readOnly = true) : isLogSectionMode (some m.enc) = true := by
  have hm := h.logOnly (fun o ho => by
    left
    unfold OpenOpt.tables
    rcases hl o ho with h | h <;> simp [h]) m rfl
  subst hm
  rw [enc_mode _ (by decide) (by decide)]
  decide

/-- C75: a directory that was once opened, with success, with a table section is never taken for one in log
    section mode again, whatever is flushed, compacted or opened in any mode later. -/
theorem C75_tables_partial {m : TabMani} {os : List OpenOpt} (h : History (some m) os) (hl : m.levels.length < 2 ^ 32)
    (ht : ∃ o ∈ os, o.logOnly = false ∧ o.readOnly = false ∧ 0 < o.parts) : isLogSectionMode (some m.enc) = false := by
  obtain ⟨o, ho, h1, h2, h3⟩ := ht
  have hm := h.some_tables ⟨o, ho, by simp [OpenOpt.tables, h1, h2], h3⟩ m rfl
  have hn : NIL = 2 ^ 64 - 1 := rfl
  rw [enc_mode _ (by omega) hl]
  simp
  omega

/-- C75: with levels above level 0 every table manifest opens for every number of partitions. -/
theorem C75_reopens_partial (o : OpenOpt) (m : TabMani) (h : o.nextLevel = true ∨ o.logOnly = true ∨ o.readOnly = true ∨
    numParts m = o.parts) : refused o m = false := by
  unfold refused adjusts OpenOpt.tables
  rcases h with h | h | h | h <;> simp [h]

namespace Ex

/-- First in log section mode, then with two partitions, some flushes, and in log section mode again. -/
theorem hist : ∃ m, History (some m) [{ logOnly := true }, { parts := 2 }, { logOnly := true }] ∧ m.maxTable = 1 ∧
    isLogSectionMode (some m.enc) = false :=
  ⟨_, .keeps _ (.adjusted (o := { parts := 2 }) (.first { logOnly := true } (by decide)) (by decide) (by decide) (.refl _)
      (by decide) (by decide)) (by decide), by decide, by decide +kernel⟩

example : History (some fresh) [{ logOnly := true }, { logOnly := true }] :=
  .keeps _ (.first { logOnly := true } (by decide)) (by decide)

end Ex

/-- C75 violation: the first opening of a directory with four partitions dies behind the first store; the
    directory is taken for one in log section mode. -/
theorem C75_dies_violation : ∃ (o : OpenOpt) (m : TabMani), o.logOnly = false ∧ o.parts = 4 ∧ History (some m) [] ∧
    isLogSectionMode (some m.enc) = true :=
  ⟨{}, fresh, rfl, rfl, .dies {}, by decide +kernel⟩

/-- C75 violation: the same with level 0 only; it can not be opened with these options again. -/
theorem C75_unopenable_violation : ∃ (o : OpenOpt) (m : TabMani), History (some m) [] ∧ refused o m = true ∧
    History (some (firstOpen o)) [o] ∧ refused o (firstOpen o) = false :=
  ⟨{ nextLevel := false }, fresh, .dies { nextLevel := false }, by decide, .first _ (by decide), by decide⟩

/-- C75 violation: dying before the first byte is written leaves an empty manifest without a backup, with which
    no opening succeeds, and the directory is not taken for one in log section mode even if it was to be one. -/
theorem C75_empty_violation : (∀ m, TabMani.recover [] none ≠ .ok m) ∧ isLogSectionMode (some []) = false := by
  refine ⟨fun m h => ?_, by decide⟩
  have e : TabMani.recover [] none = .error .fileNotExist := by decide +kernel
  rw [e] at h
  cases h

/-- C75 violation: a directory with tables that is opened in log section mode is not recognised. -/
theorem C75_converted_violation : ∃ m os, History (some m) os ∧ os.getLast? = some ({ logOnly := true } : OpenOpt) ∧
    isLogSectionMode (some m.enc) = false := by
  obtain ⟨m, h, _, h2⟩ := Ex.hist
  exact ⟨m, _, h, rfl, h2⟩

end LogMode
end Jungle
