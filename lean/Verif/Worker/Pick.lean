/-
  Model of how the background workers choose what to do next: the round over the open DBs of the
  flusher (src/flusher.cc:197-211) and of the compactor (src/compactor.cc:130-215), and the round
  over the level-0 partitions of a DB (src/compactor.cc:64-77).

  The conditions themselves (`checkTimeToFlush`, `chkL0CompactCond`) are parameters that may change
  from round to round.  The compactor is modelled for DBs without level extension: one level, so
  `start_level` is 0 and the branch for many writes (lines 190-206) is not taken.
-/
import Verif.Basic

namespace Jungle.Pick

/-- The loop `for (ii = s_idx; ii < e_idx; ++ii)` with `e_idx - ii` rounds left: the first DB that
    needs work, and `lastCheckedFileIndex` after the loop (src/flusher.cc:202-211,
    src/compactor.cc:133-135). -/
def loop (need : Nat → Bool) (n : Nat) : Nat → Nat → Nat → Option Nat × Nat
  | _, 0, last => (none, last)
  | ii, k + 1, _ =>
    if need (ii % n) then (some (ii % n), ii % n) else loop need n (ii + 1) k (ii % n)

/-- One round over `n` DBs (src/flusher.cc:197-211): `if (++last >= n) last = 0`, then the loop. -/
def round (need : Nat → Bool) (n last : Nat) : Option Nat × Nat :=
  let s := if last + 1 ≥ n then 0 else last + 1
  loop need n s n s

/-- `lastCheckedFileIndex` at first (src/flusher.cc:89, src/compactor.cc:34). -/
def START : Nat := 0xffff

/-- The index after `t` rounds, with the conditions `need 0`, `need 1`, … -/
def lastAt (need : Nat → Nat → Bool) (n : Nat) : Nat → Nat
  | 0 => START
  | t + 1 => (round (need t) n (lastAt need n t)).2

/-- The DB chosen in round `t`. -/
def pickedAt (need : Nat → Nat → Bool) (n t : Nat) : Option Nat :=
  (round (need t) n (lastAt need n t)).1

/-- `Compactor::chkLevel` at level 0 (src/compactor.cc:64-77): the partitions from the one after
    the last compacted, `k` of them left. -/
def parts (need : Nat → Bool) (p last : Nat) : Nat → Nat → Option Nat
  | _, 0 => none
  | ii, k + 1 =>
    if need ((last + 1 + ii) % p) then some ((last + 1 + ii) % p) else parts need p last (ii + 1) k

/-- The compactor's state: `lastCheckedFileIndex` and `lastCompactedHashNum`, the latter for all
    DBs together (src/compactor.h). -/
structure Comp where
  lastDb : Nat
  lastPart : Nat
  deriving DecidableEq, Repr

/-- src/compactor.cc:34-35 -/
def Comp.init : Comp := ⟨START, 0⟩

/-- One round of `Compactor::work` over `n` DBs with `p d` partitions each: the DB and the
    partition it compacts (src/compactor.cc:130-178, 228-229). -/
def cround (need : Nat → Nat → Bool) (p : Nat → Nat) (n : Nat) (c : Comp) : Option (Nat × Nat) × Comp :=
  let hit := fun d => (parts (need d) (p d) c.lastPart 0 (p d)).isSome
  let r := round hit n c.lastDb
  match r.1 with
  | none => (none, ⟨r.2, c.lastPart⟩)
  | some d =>
    match parts (need d) (p d) c.lastPart 0 (p d) with
    | none => (none, ⟨r.2, c.lastPart⟩)
    | some h => (some (d, h), ⟨r.2, h⟩)

/-- The state after `t` rounds. -/
def compAt (need : Nat → Nat → Nat → Bool) (p : Nat → Nat) (n : Nat) : Nat → Comp
  | 0 => .init
  | t + 1 => (cround (need t) p n (compAt need p n t)).2

/-- What is compacted in round `t`. -/
def compacted (need : Nat → Nat → Nat → Bool) (p : Nat → Nat) (n t : Nat) : Option (Nat × Nat) :=
  (cround (need t) p n (compAt need p n t)).1

/-! ### lemmas -/

theorem loop_none {need : Nat → Bool} {n : Nat} (k : Nat) : ∀ {ii last : Nat},
    (loop need n ii k last).1 = none ↔ ∀ j < k, need ((ii + j) % n) = false := by
  induction k with
  | zero => intro ii last; simp [loop]
  | succ k ih =>
    intro ii last
    unfold loop
    by_cases h : need (ii % n)
    · rw [if_pos h]
      simp only [reduceCtorEq, false_iff]
      intro hc
      have := hc 0 (by omega)
      rw [Nat.add_zero, h] at this; exact absurd this (by simp)
    · rw [if_neg h, ih]
      constructor
      · intro hc j hj
        cases j with
        | zero => rw [Nat.add_zero]; simpa using h
        | succ j => rw [show ii + (j + 1) = ii + 1 + j by omega]; exact hc j (by omega)
      · intro hc j hj
        rw [show ii + 1 + j = ii + (j + 1) by omega]; exact hc (j + 1) (by omega)

theorem loop_some {need : Nat → Bool} {n : Nat} (k : Nat) : ∀ {ii last d : Nat},
    (loop need n ii k last).1 = some d → need d = true ∧ (loop need n ii k last).2 = d ∧
      ∃ j < k, d = (ii + j) % n ∧ ∀ i < j, need ((ii + i) % n) = false := by
  induction k with
  | zero => intro ii last d h; simp [loop] at h
  | succ k ih =>
    intro ii last d h
    unfold loop at h ⊢
    by_cases hn : need (ii % n)
    · rw [if_pos hn] at h ⊢
      injection h with h; subst h
      exact ⟨hn, rfl, 0, by omega, rfl, fun i hi => absurd hi (by omega)⟩
    · rw [if_neg hn] at h ⊢
      obtain ⟨h1, h2, j, h3, h4, h5⟩ := ih h
      refine ⟨h1, h2, j + 1, by omega, by rw [h4]; congr 1; omega, fun i hi => ?_⟩
      cases i with
      | zero => rw [Nat.add_zero]; simpa using hn
      | succ i => rw [show ii + (i + 1) = ii + 1 + i by omega]; exact h5 i (by omega)

/-- every index is met once in a round over `n` -/
theorem mod_cover {n s d : Nat} (hd : d < n) (hs : s < n) : ∃ j < n, (s + j) % n = d := by
  by_cases h : s ≤ d
  · exact ⟨d - s, by omega, by rw [show s + (d - s) = d by omega]; exact Nat.mod_eq_of_lt hd⟩
  · refine ⟨d + n - s, by omega, ?_⟩
    rw [show s + (d + n - s) = d + n by omega, Nat.add_mod_right]; exact Nat.mod_eq_of_lt hd

/-- start of a round -/
def first (n last : Nat) : Nat := if last + 1 ≥ n then 0 else last + 1

theorem first_lt {n last : Nat} (h : 0 < n) : first n last < n := by
  unfold first; split <;> omega

theorem round_none {need : Nat → Bool} {n last : Nat} :
    (round need n last).1 = none ↔ ∀ d < n, need d = false := by
  show (loop need n (first n last) n (first n last)).1 = none ↔ _
  rw [loop_none]
  constructor
  · intro h d hd
    obtain ⟨j, hj, e⟩ := mod_cover hd (first_lt (by omega) (last := last))
    rw [← e]; exact h j hj
  · intro h j hj; exact h _ (Nat.mod_lt _ (by omega))

theorem round_some {need : Nat → Bool} {n last d : Nat} (h : (round need n last).1 = some d) :
    d < n ∧ need d = true ∧ (round need n last).2 = d ∧
      ∃ j < n, d = (first n last + j) % n ∧ ∀ i < j, need ((first n last + i) % n) = false := by
  have h0 : (loop need n (first n last) n (first n last)).1 = some d := h
  obtain ⟨h1, h2, j, h3, h4, h5⟩ := loop_some n h0
  exact ⟨h4 ▸ Nat.mod_lt _ (by omega), h1, h2, j, h3, h4, h5⟩

/-- how many steps ahead of the start of the next round index `d` is -/
def ahead (n last d : Nat) : Nat := (d + n - first n last) % n

theorem ahead_lt {n last d : Nat} (h : 0 < n) : ahead n last d < n := Nat.mod_lt _ h

theorem ahead_eq {n last d : Nat} (hd : d < n) : (first n last + ahead n last d) % n = d := by
  have hf := first_lt (n := n) (last := last) (by omega)
  unfold ahead
  rw [Nat.add_mod_mod, show first n last + (d + n - first n last) = d + n by omega, Nat.add_mod_right]
  exact Nat.mod_eq_of_lt hd

theorem ahead_unique {n last d j : Nat} (hd : d < n) (hj : j < n) (e : (first n last + j) % n = d) :
    j = ahead n last d := by
  have hf := first_lt (n := n) (last := last) (by omega)
  have ha := ahead_lt (n := n) (last := last) (d := d) (by omega)
  have he := ahead_eq (n := n) (last := last) hd
  rcases Nat.lt_or_ge (first n last + j) n with h1 | h1 <;>
    rcases Nat.lt_or_ge (first n last + ahead n last d) n with h2 | h2
  · rw [Nat.mod_eq_of_lt h1] at e; rw [Nat.mod_eq_of_lt h2] at he; omega
  · rw [Nat.mod_eq_of_lt h1] at e
    rw [Nat.mod_eq_sub_mod h2, Nat.mod_eq_of_lt (by omega)] at he; omega
  · rw [Nat.mod_eq_sub_mod h1, Nat.mod_eq_of_lt (by omega)] at e
    rw [Nat.mod_eq_of_lt h2] at he; omega
  · rw [Nat.mod_eq_sub_mod h1, Nat.mod_eq_of_lt (by omega)] at e
    rw [Nat.mod_eq_sub_mod h2, Nat.mod_eq_of_lt (by omega)] at he; omega

/-- A round either chooses `i` or brings it nearer. -/
theorem round_nearer {need : Nat → Bool} {n last i : Nat} (hi : i < n) (hneed : need i = true) :
    (round need n last).1 = some i ∨
      ahead n (round need n last).2 i < ahead n last i := by
  cases h : (round need n last).1 with
  | none => rw [round_none] at h; rw [h i hi] at hneed; exact absurd hneed (by simp)
  | some d =>
    by_cases hdi : d = i
    · subst hdi; exact Or.inl rfl
    · right
      obtain ⟨hd, h1, h2, j, hj, e, hno⟩ := round_some h
      rw [h2]
      have hn : 0 < n := by omega
      have ej : j = ahead n last d := ahead_unique hd hj e.symm
      have ha := ahead_lt (n := n) (last := last) (d := i) hn
      have ei := ahead_eq (n := n) (last := last) hi
      have hlt : j < ahead n last i := by
        rcases Nat.lt_trichotomy j (ahead n last i) with h' | h' | h'
        · exact h'
        · rw [← h', ← e] at ei; exact absurd ei hdi
        · have := hno _ h'; rw [ei, hneed] at this; exact absurd this (by simp)
      -- the next round starts right after `d`
      have hstep : (first n d + (ahead n last i - j - 1)) % n = i := by
        have hf : first n d = (first n last + j + 1) % n := by
          have e' : (d + 1) % n = (first n last + j + 1) % n := by rw [e, Nat.mod_add_mod]
          rw [← e']
          show (if d + 1 ≥ n then 0 else d + 1) = _
          split
          · next hge => rw [show d + 1 = n by omega, Nat.mod_self]
          · next hlt' => exact (Nat.mod_eq_of_lt (by omega)).symm
        rw [hf, Nat.mod_add_mod, show first n last + j + 1 + (ahead n last i - j - 1) = first n last + ahead n last i by omega]
        exact ei
      have := ahead_unique hi (by omega) hstep
      omega

theorem picked_within {need : Nat → Nat → Bool} {n i : Nat} (hi : i < n) (k : Nat) : ∀ (t : Nat),
    ahead n (lastAt need n t) i ≤ k → (∀ j ≤ k, need (t + j) i = true) →
    ∃ j ≤ k, pickedAt need n (t + j) = some i := by
  induction k with
  | zero =>
    intro t ha hn
    rcases round_nearer (last := lastAt need n t) hi (hn 0 (by omega)) with h | h
    · exact ⟨0, by omega, h⟩
    · rw [Nat.add_zero] at h; omega
  | succ k ih =>
    intro t ha hn
    have h0 := hn 0 (by omega)
    rw [Nat.add_zero] at h0
    rcases round_nearer (last := lastAt need n t) hi h0 with h | h
    · exact ⟨0, by omega, h⟩
    · obtain ⟨j, hj, h'⟩ := ih (t + 1) (by show ahead n (round (need t) n (lastAt need n t)).2 i ≤ k; omega)
        (fun j hj => by rw [show t + 1 + j = t + (j + 1) by omega]; exact hn (j + 1) (by omega))
      exact ⟨j + 1, by omega, by rw [show t + (j + 1) = t + 1 + j by omega]; exact h'⟩

theorem loop_mod {need : Nat → Bool} {n : Nat} (k : Nat) : ∀ {a b x y : Nat}, a % n = b % n →
    (loop need n a k x).1 = (loop need n b k y).1 := by
  induction k with
  | zero => intros; rfl
  | succ k ih =>
    intro a b x y h
    unfold loop; rw [h]
    split
    · rfl
    · exact ih (by rw [Nat.add_mod, h, ← Nat.add_mod])

theorem parts_loop {need : Nat → Bool} {p last : Nat} (k : Nat) : ∀ {ii x : Nat},
    parts need p last ii k = (loop need p (last + 1 + ii) k x).1 := by
  induction k with
  | zero => intros; rfl
  | succ k ih =>
    intro ii x
    unfold parts loop
    split
    · rfl
    · exact ih

theorem parts_round {need : Nat → Bool} {p last : Nat} (h : last < p) :
    parts need p last 0 p = (round need p last).1 := by
  rw [parts_loop p (x := first p last)]
  show _ = (loop need p (first p last) p (first p last)).1
  apply loop_mod
  unfold first; split
  · rw [show last + 1 + 0 = p by omega, Nat.mod_self, Nat.zero_mod]
  · rfl

/-- A round over one DB is a round over its partitions. -/
theorem cround_one {need : Nat → Nat → Bool} {p : Nat → Nat} {c : Comp} {i : Nat} (hl : c.lastPart < p 0)
    (hi : i < p 0) (hn : need 0 i = true) :
    ∃ h < p 0, (cround need p 1 c).1 = some (0, h) ∧ (cround need p 1 c).2.lastPart = h ∧
      (round (need 0) (p 0) c.lastPart) = (some h, h) := by
  cases hr : (round (need 0) (p 0) c.lastPart).1 with
  | none => rw [round_none] at hr; rw [hr i hi] at hn; exact absurd hn (by simp)
  | some h =>
    obtain ⟨h1, h2, h3, _⟩ := round_some hr
    have hp : parts (need 0) (p 0) c.lastPart 0 (p 0) = some h := by rw [parts_round hl, hr]
    have hit : (round (fun d => (parts (need d) (p d) c.lastPart 0 (p d)).isSome) 1 c.lastDb).1 = some 0 := by
      cases hx : (round (fun d => (parts (need d) (p d) c.lastPart 0 (p d)).isSome) 1 c.lastDb).1 with
      | none => rw [round_none] at hx; have := hx 0 (by omega); rw [hp] at this; exact absurd this (by simp)
      | some d => rw [show d = 0 by have := (round_some hx).1; omega]
    refine ⟨h, h1, ?_, ?_, Prod.ext hr h3⟩
    · unfold cround; dsimp only; rw [hit]; dsimp only; rw [hp]
    · unfold cround; dsimp only; rw [hit]; dsimp only; rw [hp]

theorem cround_lt {need : Nat → Nat → Bool} {p : Nat → Nat} {c : Comp} (hl : c.lastPart < p 0) :
    (cround need p 1 c).2.lastPart < p 0 := by
  unfold cround; dsimp only
  split
  · exact hl
  · next d hd =>
    have hd0 : d = 0 := by have := (round_some hd).1; omega
    subst hd0
    split
    · exact hl
    · next h hh => rw [parts_round hl] at hh; exact (round_some hh).1

theorem compAt_lt {need : Nat → Nat → Nat → Bool} {p : Nat → Nat} (hp : 0 < p 0) (t : Nat) :
    (compAt need p 1 t).lastPart < p 0 := by
  induction t with
  | zero => exact hp
  | succ t ih => exact cround_lt ih

theorem compacted_within {need : Nat → Nat → Nat → Bool} {p : Nat → Nat} {i : Nat} (hi : i < p 0) (k : Nat) :
    ∀ (t : Nat), ahead (p 0) (compAt need p 1 t).lastPart i ≤ k → (∀ j ≤ k, need (t + j) 0 i = true) →
    ∃ j ≤ k, compacted need p 1 (t + j) = some (0, i) := by
  induction k with
  | zero =>
    intro t ha hn
    have h0 := hn 0 (by omega)
    rw [Nat.add_zero] at h0
    obtain ⟨h, _, h2, h3, h4⟩ := cround_one (need := need t) (c := compAt need p 1 t) (compAt_lt (by omega) t) hi h0
    rcases round_nearer (last := (compAt need p 1 t).lastPart) hi h0 with e | e
    · rw [h4] at e; injection e with e; subst e; exact ⟨0, by omega, h2⟩
    · omega
  | succ k ih =>
    intro t ha hn
    have h0 := hn 0 (by omega)
    rw [Nat.add_zero] at h0
    obtain ⟨h, _, h2, h3, h4⟩ := cround_one (need := need t) (c := compAt need p 1 t) (compAt_lt (by omega) t) hi h0
    rcases round_nearer (last := (compAt need p 1 t).lastPart) hi h0 with e | e
    · rw [h4] at e; injection e with e; subst e; exact ⟨0, by omega, h2⟩
    · rw [h4] at e
      obtain ⟨j, hj, h'⟩ := ih (t + 1) (by
          show ahead (p 0) (cround (need t) p 1 (compAt need p 1 t)).2.lastPart i ≤ k
          rw [h3]; dsimp only at e; omega)
        (fun j hj => by rw [show t + 1 + j = t + (j + 1) by omega]; exact hn (j + 1) (by omega))
      exact ⟨j + 1, by omega, by rw [show t + (j + 1) = t + 1 + j by omega]; exact h'⟩

/-- Whatever partition was compacted last, one that needs it is found. -/
theorem parts_isSome {need : Nat → Bool} {p last i : Nat} (hi : i < p) (hn : need i = true) :
    (parts need p last 0 p).isSome = true := by
  cases h : parts need p last 0 p with
  | some _ => rfl
  | none =>
    rw [parts_loop p (x := 0), loop_none] at h
    obtain ⟨j, hj, e⟩ := mod_cover hi (Nat.mod_lt (last + 1 + 0) (by omega : 0 < p))
    have := h j hj
    rw [← Nat.mod_add_mod, e, hn] at this
    exact absurd this (by simp)

theorem parts_some {need : Nat → Bool} {p last : Nat} (k : Nat) : ∀ {ii h : Nat}, 0 < p → parts need p last ii k = some h →
    h < p ∧ need h = true := by
  induction k with
  | zero => intro ii h _ e; exact absurd e (by simp [parts])
  | succ k ih =>
    intro ii h hp e
    unfold parts at e
    split at e
    · next hn => injection e with e; subst e; exact ⟨Nat.mod_lt _ hp, hn⟩
    · exact ih hp e

theorem cround_nearer {need : Nat → Nat → Bool} {p : Nat → Nat} {n d i : Nat} {c : Comp} (hd : d < n) (hi : i < p d)
    (hn : need d i = true) :
    (∃ h < p d, need d h = true ∧ (cround need p n c).1 = some (d, h)) ∨
      ahead n (cround need p n c).2.lastDb d < ahead n c.lastDb d := by
  have hit : (fun d => (parts (need d) (p d) c.lastPart 0 (p d)).isSome) d = true := parts_isSome hi hn
  rcases round_nearer (need := fun d => (parts (need d) (p d) c.lastPart 0 (p d)).isSome) (last := c.lastDb) hd hit with h | h
  · left
    cases hp : parts (need d) (p d) c.lastPart 0 (p d) with
    | none => dsimp only at hit; rw [hp] at hit; exact absurd hit (by simp)
    | some x =>
      obtain ⟨h1, h2⟩ := parts_some (p d) (by omega) hp
      refine ⟨x, h1, h2, ?_⟩
      unfold cround; dsimp only; rw [h]; dsimp only; rw [hp]
  · right
    have : (cround need p n c).2.lastDb = (round (fun d => (parts (need d) (p d) c.lastPart 0 (p d)).isSome) n c.lastDb).2 := by
      unfold cround; dsimp only
      split
      · rfl
      · split <;> rfl
    rw [this]; exact h

theorem compacted_db_within {need : Nat → Nat → Nat → Bool} {p : Nat → Nat} {n d : Nat} (hd : d < n) (k : Nat) :
    ∀ (t : Nat), ahead n (compAt need p n t).lastDb d ≤ k →
    (∀ j ≤ k, ∃ i < p d, need (t + j) d i = true) →
    ∃ j ≤ k, ∃ h < p d, need (t + j) d h = true ∧ compacted need p n (t + j) = some (d, h) := by
  induction k with
  | zero =>
    intro t ha hn
    obtain ⟨i, hi, h0⟩ := hn 0 (by omega)
    rcases cround_nearer (c := compAt need p n t) hd hi h0 with h | h
    · exact ⟨0, by omega, h⟩
    · rw [Nat.add_zero] at h; omega
  | succ k ih =>
    intro t ha hn
    obtain ⟨i, hi, h0⟩ := hn 0 (by omega)
    rw [Nat.add_zero] at h0
    rcases cround_nearer (c := compAt need p n t) hd hi h0 with h | h
    · exact ⟨0, by omega, h⟩
    · obtain ⟨j, hj, h'⟩ := ih (t + 1) (by
          show ahead n (cround (need t) p n (compAt need p n t)).2.lastDb d ≤ k
          omega)
        (fun j hj => by rw [show t + 1 + j = t + (j + 1) by omega]; exact hn (j + 1) (by omega))
      exact ⟨j + 1, by omega, by rw [show t + (j + 1) = t + 1 + j by omega]; exact h'⟩

end Jungle.Pick
