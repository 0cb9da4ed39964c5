/-
  C77: an interrupted first opening.
-/
import Verif.DB.FirstOpen

namespace Jungle
namespace FirstOpen
open LogMani

/-- C77 (part): if the first opening ended, or died before it created the manifest of the log section, the directory can
    be opened again, and in all sessions from then on, however they end, every write is accepted.  Missing: dying
    in between. -/
theorem C77_writable_partial (p : Point) (hp : p = .before ∨ p = .ended true ∨ p = .ended false)
    {cs : List (Op × Option Status)} {d : Dir} (h : Sessions (dirAt p) cs d) :
    (∀ r, (Op.write, r) ∈ cs → r = some .ok) ∧ ∃ m d1, Opens d m d1 := by
  have hd : GoodDir (dirAt p) := by
    rcases hp with e | e | e <;> subst e
    · exact Or.inl rfl
    · exact Or.inr ⟨started, rfl, started_fits, by decide, by decide⟩
    · exact Or.inr ⟨started, rfl, started_fits, by decide, by decide⟩
  obtain ⟨a, b⟩ := sessions_good h hd
  exact ⟨b, good_opens a⟩

/-- C77 violation: if it died between the two stores of the manifest, or at any byte of the second one, the directory
    can be opened, but whatever is called in whatever number of sessions, no write is ever accepted, every sync
    returns OK without writing anything, and the directory stays as it is or as it was behind the first store. -/
theorem C77_unwritable_violation (p : Point) (hp : (∃ b, p = .created b) ∨ ∃ k < started.enc.length, p = .torn2 k)
    {cs : List (Op × Option Status)} {d : Dir} (h : Sessions (dirAt p) cs d) :
    (∀ r, (Op.write, r) ∈ cs → r = some .notInitialized) ∧ (∀ r, (Op.sync, r) ∈ cs → r = some .ok) ∧
      (d = dirAt p ∨ d = dirAt (.created true)) ∧ ∃ m d1, Opens d m d1 := by
  have hd : OnlyInitial (dirAt p) := by
    rcases hp with ⟨b, e⟩ | ⟨k, hk, e⟩ <;> subst e
    · exact created_only b
    · have hl : started.enc.length = 76 := by rw [enc_length]; rfl
      exact ⟨⟨_, rfl, torn2_recover k (hl ▸ hk)⟩, Or.inr rfl⟩
  obtain ⟨a, c, e, _⟩ := sessions_stuck h hd
  refine ⟨c, e, a, ?_⟩
  rcases a with a | a <;> subst a
  · exact only_opens hd
  · exact only_opens (created_only true)

/-- C77 violation: if it died at any byte of the first store, no opening ever succeeds. -/
theorem C77_unopenable_violation (k : Nat) (hk : k < initial.enc.length) (m : LogMani) (d : Dir) :
    ¬ Opens (dirAt (.torn k)) m d := by
  have hl : initial.enc.length = 44 := by rw [enc_length]; rfl
  have hs := torn_load k (hl ▸ hk)
  intro h
  cases h with
  | loads h1 =>
    rw [hs] at h1
    cases h1
  | stale h1 =>
    unfold recover at h1
    rw [hs] at h1
    cases h1

namespace FOEx

theorem same (m : LogMani) : Loads m m := ⟨rfl, List.Sublist.refl _, fun _ h _ => h, Or.inl rfl, Or.inl rfl⟩

/-- A first opening that ended, a write that adds a file, a death, and a session with a sync and a write. -/
theorem good : ∃ d, Sessions (dirAt (.ended false)) [(.write, some .ok), (.sync, some .ok), (.write, some .ok)] d :=
  ⟨_, .cons (cs := [(.write, some .ok)]) (.loads (load_enc started_fits) (same _))
      (.cons (.rotated (by decide) ⟨emptyFile 0, by decide, rfl⟩ (by decide) (by decide) started_fits (Or.inl rfl)) .nil)
      (.cons (cs := [(.sync, some .ok), (.write, some .ok)]) (.loads (load_enc started_fits) (same _))
        (.cons (.synced (m' := started) (b := none) (by decide) rfl rfl started_fits)
          (.cons (.written (m' := started) (by decide) ⟨emptyFile 0, by decide, rfl⟩ rfl rfl rfl rfl started_fits) .nil))
        .nil)⟩

/-- One that died between the stores, with two sessions behind it, the first of which removes the stale log file. -/
theorem stuck : ∃ d, Sessions (dirAt (.created false))
    [(.write, some .notInitialized), (.sync, some .ok), (.flush, some .logNotSynced), (.write, some .notInitialized)] d :=
  ⟨_, .cons (cs := [(.write, some .notInitialized), (.sync, some .ok), (.flush, some .logNotSynced)])
      (.stale (recover_ok (load_enc initial_fits)) (same _))
      (.cons (.refused rfl) (.cons (.nosync rfl) (.cons (.noflush rfl) .nil)))
      (.cons (cs := [(.write, some .notInitialized)]) (.loads (load_enc initial_fits) (same _))
        (.cons (.refused rfl) .nil) .nil)⟩

example : dirAt (.torn 0) = ⟨some [], none⟩ := rfl
example : (0 : Nat) < initial.enc.length := by decide +kernel
example : (50 : Nat) < started.enc.length := by decide +kernel

/-- The second store writes all of its bytes. -/
example : firstDiff 44 initial.enc started.enc = some 0 := by decide +kernel

end FOEx

end FirstOpen
end Jungle
