/- Invariant and measure of the table writers. -/
import Verif.Writer.Model
import Mathlib.Data.List.Nodup

namespace Jungle.Writer

/-- Writers a call holds. -/
def PC.ws : PC → List Nat
  | .put _ ws _ => ws
  | .wait _ ws _ => ws
  | _ => []

/-- Jobs a call has dealt with. -/
def PC.upto (n : Nat) : PC → Nat
  | .start ii => ii
  | .put _ _ jj => jj
  | .wait ii ws _ => ii + ws.length + 1
  | .fin => n

def PC.Ok (n : Nat) (here : Prop) : PC → Prop
  | .start ii => ii ≤ n ∧ here
  | .put ii ws jj => ii ≤ jj ∧ jj ≤ ii + ws.length ∧ ii + ws.length < n ∧ here
  | .wait ii ws i => i ≤ ws.length ∧ ii + ws.length < n ∧ here
  | .fin => True

/-- Writer `w` may hold job `j` of the call. -/
def PC.Pend (w j : Nat) : PC → Prop
  | .put ii ws jj => ws[j - ii]? = some w ∧ ii ≤ j ∧ j < jj
  | .wait ii ws i => ws[j - ii]? = some w ∧ ii + i ≤ j
  | _ => False

theorem PC.Pend.mem {w j : Nat} {p : PC} (h : p.Pend w j) : w ∈ p.ws := by
  cases p with
  | start ii => exact h.elim
  | fin => exact h.elim
  | put ii ws jj => exact List.mem_of_getElem? h.1
  | wait ii ws i => exact List.mem_of_getElem? h.1

structure Inv (g : Conf) (C : Nat) (s : Sys) : Prop where
  ok : ∀ c, (s.pc c).Ok (g.n c) (c < C)
  nodup : ∀ c, (s.pc c).ws.Nodup
  rng : ∀ c, ∀ w ∈ (s.pc c).ws, w < g.W
  use : ∀ c, ∀ w ∈ (s.pc c).ws, s.inUse w = true
  free : ∀ w, s.inUse w = true → ∃ c, w ∈ (s.pc c).ws
  disj : ∀ c c' w, w ∈ (s.pc c).ws → w ∈ (s.pc c').ws → c = c'
  pend : ∀ w j b, s.slot w = some (j, b) → (s.pc j.1).Pend w j.2
  done : ∀ c, c < C → ∀ j, (c, j) ∈ s.done ↔
    j < (s.pc c).upto (g.n c) ∧ g.skip c j = false ∧ ¬ ∃ w, s.slot w = some ((c, j), false)
  calls : ∀ j ∈ s.done, j.1 < C
  nd : s.done.Nodup
  sk : ∀ w j b, s.slot w = some (j, b) → g.skip j.1 j.2 = false

theorem upd_same {α : Type} (f : Nat → α) (i : Nat) (a : α) : upd f i a i = a := if_pos rfl
theorem upd_ne {α : Type} (f : Nat → α) {i j : Nat} (a : α) (h : j ≠ i) : upd f i a j = f j := if_neg h

theorem get_inj {ws : List Nat} (h : ws.Nodup) {a b w : Nat} (ha : ws[a]? = some w) (hb : ws[b]? = some w) :
    a = b := by
  obtain ⟨h1, h2⟩ := List.getElem?_eq_some_iff.1 ha
  obtain ⟨h3, h4⟩ := List.getElem?_eq_some_iff.1 hb
  exact (List.Nodup.getElem_inj_iff h).1 (h2.trans h4.symm)

theorem lease_nodup (W : Nat) (u : Nat → Bool) (n : Nat) : (lease W u n).Nodup :=
  List.Nodup.sublist ((List.take_sublist _ _).trans List.filter_sublist) List.nodup_range

theorem mem_lease {W : Nat} {u : Nat → Bool} {n w : Nat} (h : w ∈ lease W u n) : w < W ∧ u w = false := by
  have := List.mem_filter.1 (List.mem_of_mem_take h)
  exact ⟨List.mem_range.1 this.1, by simpa using this.2⟩

theorem lease_length (W : Nat) (u : Nat → Bool) (n : Nat) : (lease W u n).length ≤ n :=
  List.length_take_le _ _

theorem Inv.init (g : Conf) (C : Nat) : Inv g C (init C) := by
  have hws : ∀ c, ((Writer.init C).pc c).ws = [] := by
    intro c; unfold Writer.init; simp only; split <;> rfl
  refine ⟨?_, ?_, ?_, ?_, ?_, ?_, ?_, ?_, ?_, List.nodup_nil, fun w j b h => (by cases h)⟩
  · intro c; unfold Writer.init; simp only
    split
    · next h => exact ⟨Nat.zero_le _, h⟩
    · trivial
  · intro c; rw [hws]; exact List.nodup_nil
  · intro c w h; rw [hws] at h; cases h
  · intro c w h; rw [hws] at h; cases h
  · intro w h; cases h
  · intro c c' w h; rw [hws] at h; cases h
  · intro w j b h; cases h
  · intro c hc j
    constructor
    · intro h; cases h
    · rintro ⟨h, -⟩
      unfold Writer.init at h; simp only [hc, if_true] at h
      exact absurd h (Nat.not_lt_zero _)
  · intro j h; cases h

/-- A writer of a call that has not got its job yet has no payload. -/
theorem Inv.empty {g : Conf} {C : Nat} {s : Sys} (h : Inv g C s) {c ii jj w : Nat} {ws : List Nat}
    (hpc : s.pc c = .put ii ws jj) (hw : ws[jj - ii]? = some w) : s.slot w = none := by
  cases hs : s.slot w with
  | none => rfl
  | some x =>
    obtain ⟨j, b⟩ := x
    have hp := h.pend w j b hs
    have he := h.disj _ c w hp.mem (by rw [hpc]; exact List.mem_of_getElem? hw)
    have hok := h.ok c
    have hnd := h.nodup c
    rw [he, hpc] at hp
    rw [hpc] at hok hnd
    obtain ⟨h1, h2, h3⟩ := hp
    have := get_inj hnd h1 hw
    have hok1 := hok.1
    omega

/-- Changing the place of one call. -/
theorem Inv.move {g : Conf} {C : Nat} {s : Sys} (h : Inv g C s) {c : Nat} {p : PC}
    (hok : p.Ok (g.n c) (c < C)) (hws : p.ws = (s.pc c).ws) (hup : p.upto (g.n c) = (s.pc c).upto (g.n c))
    (hpend : ∀ w j b, s.slot w = some ((c, j), b) → (s.pc c).Pend w j → p.Pend w j) :
    Inv g C { s with pc := upd s.pc c p } := by
  have hws' : ∀ c', (upd s.pc c p c').ws = (s.pc c').ws := by
    intro c'; unfold upd; split
    · next e => rw [e]; exact hws
    · rfl
  refine ⟨?_, ?_, ?_, ?_, ?_, ?_, ?_, ?_, h.calls, h.nd, h.sk⟩
  · intro c'; show (upd s.pc c p c').Ok _ _; unfold upd; split
    · next e => rw [e]; exact hok
    · exact h.ok c'
  · intro c'; show (upd s.pc c p c').ws.Nodup; rw [hws']; exact h.nodup c'
  · intro c' w hw; exact h.rng c' w ((hws' c') ▸ hw)
  · intro c' w hw; exact h.use c' w ((hws' c') ▸ hw)
  · intro w hw; obtain ⟨c', hc'⟩ := h.free w hw; exact ⟨c', (hws' c').symm ▸ hc'⟩
  · intro c1 c2 w h1 h2; exact h.disj c1 c2 w ((hws' c1) ▸ h1) ((hws' c2) ▸ h2)
  · intro w j b hs
    show (upd s.pc c p j.1).Pend w j.2
    by_cases e : j.1 = c
    · rw [e, upd_same]
      refine hpend w j.2 b (by rw [← e]; exact hs) ?_
      rw [← e]; exact h.pend w j b hs
    · rw [upd_ne _ _ e]; exact h.pend w j b hs
  · intro c' hc' j
    show _ ↔ j < (upd s.pc c p c').upto _ ∧ _
    by_cases e : c' = c
    · subst e; rw [upd_same, hup]; exact h.done c' hc' j
    · rw [upd_ne _ _ e]; exact h.done c' hc' j

theorem Inv.step {g : Conf} {C : Nat} {s s' : Sys} (h : Inv g C s) (hs : Step g s s') : Inv g C s' := by
  cases hs with
  | lease c ii hpc hn =>
    have hok := h.ok c; rw [hpc] at hok
    have hl := lease_length g.W s.inUse (request g c ii)
    have hfr : ∀ w ∈ lease g.W s.inUse (request g c ii), ∀ c', w ∉ (s.pc c').ws := by
      intro w hw c' hc'
      have := h.use c' w hc'
      rw [(mem_lease hw).2] at this; cases this
    generalize hL : lease g.W s.inUse (request g c ii) = L at *
    have hws : ∀ c', (upd s.pc c (.put ii L ii) c').ws = if c' = c then L else (s.pc c').ws := by
      intro c'; unfold upd; split <;> rfl
    refine ⟨?_, ?_, ?_, ?_, ?_, ?_, ?_, ?_, h.calls, h.nd, h.sk⟩
    · intro c'; show (upd s.pc c _ c').Ok _ _; unfold upd; split
      · next e =>
        subst e
        refine ⟨Nat.le_refl _, Nat.le_add_right _ _, ?_, hok.2⟩
        unfold request at hl; omega
      · exact h.ok c'
    · intro c'; show (upd s.pc c _ c').ws.Nodup; rw [hws]; split
      · rw [← hL]; exact lease_nodup _ _ _
      · exact h.nodup c'
    · intro c' w hw
      change w ∈ (upd s.pc c _ c').ws at hw
      rw [hws] at hw; split at hw
      · rw [← hL] at hw; exact (mem_lease hw).1
      · exact h.rng c' w hw
    · intro c' w hw
      change w ∈ (upd s.pc c _ c').ws at hw
      show (s.inUse w || decide (w ∈ L)) = true
      rw [hws] at hw; split at hw
      · simp [hw]
      · simp [h.use c' w hw]
    · intro w hw
      change (s.inUse w || decide (w ∈ L)) = true at hw
      rw [Bool.or_eq_true, decide_eq_true_eq] at hw
      rcases hw with hw | hw
      · obtain ⟨c', hc'⟩ := h.free w hw
        refine ⟨c', ?_⟩
        show w ∈ (upd s.pc c _ c').ws
        rw [hws]; split
        · next e => rw [e, hpc] at hc'; cases hc'
        · exact hc'
      · exact ⟨c, by show w ∈ (upd s.pc c _ c).ws; rw [hws, if_pos rfl]; exact hw⟩
    · intro c1 c2 w h1 h2
      change w ∈ (upd s.pc c _ c1).ws at h1
      change w ∈ (upd s.pc c _ c2).ws at h2
      rw [hws] at h1 h2
      split at h1 <;> split at h2
      · next e1 e2 => rw [e1, e2]
      · exact absurd h2 (hfr w h1 c2)
      · exact absurd h1 (hfr w h2 c1)
      · exact h.disj c1 c2 w h1 h2
    · intro w j b hsl
      have hp := h.pend w j b hsl
      show (upd s.pc c _ j.1).Pend w j.2
      by_cases e : j.1 = c
      · rw [e, hpc] at hp; exact hp.elim
      · rw [upd_ne _ _ e]; exact hp
    · intro c' hc' j
      show _ ↔ j < (upd s.pc c _ c').upto _ ∧ _
      have := h.done c' hc' j
      by_cases e : c' = c
      · subst e; rw [upd_same]; rw [hpc] at this; exact this
      · rw [upd_ne _ _ e]; exact this
  | finish c ii hpc hn =>
    have hok := h.ok c; rw [hpc] at hok
    refine h.move trivial (by rw [hpc]; rfl) ?_ ?_
    · rw [hpc]; show g.n c = ii; have := hok.1; omega
    · intro w j b _ hp; rw [hpc] at hp; exact hp.elim
  | give c ii ws jj w hpc hw hsk =>
    have hok := h.ok c
    have hnd := h.nodup c
    have he := h.empty hpc hw
    rw [hpc] at hok hnd
    obtain ⟨o1, o2, o3, o4⟩ := hok
    obtain ⟨hlt, -⟩ := List.getElem?_eq_some_iff.1 hw
    have hws : ∀ c', (upd s.pc c (.put ii ws (jj + 1)) c').ws = (s.pc c').ws := by
      intro c'; unfold upd; split
      · next e => rw [e, hpc]; rfl
      · rfl
    have hslot : ∀ v x, upd s.slot w (some ((c, jj), false)) v = some x →
        (v = w ∧ x = ((c, jj), false)) ∨ (v ≠ w ∧ s.slot v = some x) := by
      intro v x hv
      by_cases e : v = w
      · subst e; rw [upd_same] at hv; exact Or.inl ⟨rfl, (Option.some.inj hv).symm⟩
      · rw [upd_ne _ _ e] at hv; exact Or.inr ⟨e, hv⟩
    refine ⟨?_, ?_, ?_, ?_, ?_, ?_, ?_, ?_, h.calls, h.nd, ?_⟩
    · intro c'; show (upd s.pc c _ c').Ok _ _; unfold upd; split
      · next e => subst e; exact ⟨by omega, by omega, o3, o4⟩
      · exact h.ok c'
    · intro c'; show (upd s.pc c _ c').ws.Nodup; rw [hws]; exact h.nodup c'
    · intro c' v hv; exact h.rng c' v ((hws c') ▸ hv)
    · intro c' v hv; exact h.use c' v ((hws c') ▸ hv)
    · intro v hv; obtain ⟨c', hc'⟩ := h.free v hv; exact ⟨c', (hws c').symm ▸ hc'⟩
    · intro c1 c2 v h1 h2; exact h.disj c1 c2 v ((hws c1) ▸ h1) ((hws c2) ▸ h2)
    · intro v j b hv
      show (upd s.pc c _ j.1).Pend v j.2
      rcases hslot v (j, b) hv with ⟨rfl, hx⟩ | ⟨hne, hv⟩
      · cases hx
        show (upd s.pc c _ c).Pend v jj
        rw [upd_same]; exact ⟨hw, o1, Nat.lt_succ_self _⟩
      · have hp := h.pend v j b hv
        by_cases e : j.1 = c
        · rw [e, upd_same]; rw [e, hpc] at hp
          exact ⟨hp.1, hp.2.1, Nat.lt_succ_of_lt hp.2.2⟩
        · rw [upd_ne _ _ e]; exact hp
    · intro c' hc' j
      show _ ↔ j < (upd s.pc c _ c').upto _ ∧ _ ∧ ¬ ∃ v, upd s.slot w (some ((c, jj), false)) v = some ((c', j), false)
      have hd := h.done c' hc' j
      have hex : (∃ v, upd s.slot w (some ((c, jj), false)) v = some ((c', j), false)) ↔
          (c' = c ∧ j = jj) ∨ ∃ v, s.slot v = some ((c', j), false) := by
        constructor
        · rintro ⟨v, hv⟩
          rcases hslot v _ hv with ⟨rfl, hx⟩ | ⟨hne, hv⟩
          · cases hx; exact Or.inl ⟨rfl, rfl⟩
          · exact Or.inr ⟨v, hv⟩
        · rintro (⟨rfl, rfl⟩ | ⟨v, hv⟩)
          · exact ⟨w, upd_same _ _ _⟩
          · refine ⟨v, ?_⟩
            rw [upd_ne _ _ (by rintro rfl; rw [he] at hv; cases hv)]; exact hv
      rw [hex]
      show (c', j) ∈ s.done ↔ _
      rw [hd]
      by_cases e : c' = c
      · subst e; rw [upd_same, hpc]
        show j < jj ∧ _ ↔ j < jj + 1 ∧ _
        constructor
        · rintro ⟨h1, h2, h3⟩
          refine ⟨by omega, h2, ?_⟩
          rintro (⟨-, rfl⟩ | h4)
          · omega
          · exact h3 h4
        · rintro ⟨h1, h2, h3⟩
          have : j ≠ jj := fun e => h3 (Or.inl ⟨rfl, e⟩)
          exact ⟨by omega, h2, fun h4 => h3 (Or.inr h4)⟩
      · rw [upd_ne _ _ e]
        constructor
        · rintro ⟨h1, h2, h3⟩
          refine ⟨h1, h2, ?_⟩
          rintro (⟨e', -⟩ | h4)
          · exact e e'
          · exact h3 h4
        · rintro ⟨h1, h2, h3⟩
          exact ⟨h1, h2, fun h4 => h3 (Or.inr h4)⟩
    · intro v j b hv
      rcases hslot v (j, b) hv with ⟨rfl, hx⟩ | ⟨hne, hv⟩
      · cases hx; exact hsk
      · exact h.sk v j b hv
  | giveNone c ii ws jj w hpc hw hsk =>
    have hok := h.ok c
    rw [hpc] at hok
    obtain ⟨o1, o2, o3, o4⟩ := hok
    obtain ⟨hlt, -⟩ := List.getElem?_eq_some_iff.1 hw
    have hws : ∀ c', (upd s.pc c (.put ii ws (jj + 1)) c').ws = (s.pc c').ws := by
      intro c'; unfold upd; split
      · next e => rw [e, hpc]; rfl
      · rfl
    refine ⟨?_, ?_, ?_, ?_, ?_, ?_, ?_, ?_, h.calls, h.nd, h.sk⟩
    · intro c'; show (upd s.pc c _ c').Ok _ _; unfold upd; split
      · next e => subst e; exact ⟨by omega, by omega, o3, o4⟩
      · exact h.ok c'
    · intro c'; show (upd s.pc c _ c').ws.Nodup; rw [hws]; exact h.nodup c'
    · intro c' v hv; exact h.rng c' v ((hws c') ▸ hv)
    · intro c' v hv; exact h.use c' v ((hws c') ▸ hv)
    · intro v hv; obtain ⟨c', hc'⟩ := h.free v hv; exact ⟨c', (hws c').symm ▸ hc'⟩
    · intro c1 c2 v h1 h2; exact h.disj c1 c2 v ((hws c1) ▸ h1) ((hws c2) ▸ h2)
    · intro v j b hv
      show (upd s.pc c _ j.1).Pend v j.2
      have hp := h.pend v j b hv
      by_cases e : j.1 = c
      · rw [e, upd_same]; rw [e, hpc] at hp
        exact ⟨hp.1, hp.2.1, Nat.lt_succ_of_lt hp.2.2⟩
      · rw [upd_ne _ _ e]; exact hp
    · intro c' hc' j
      show _ ↔ j < (upd s.pc c _ c').upto _ ∧ _
      have hd := h.done c' hc' j
      by_cases e : c' = c
      · subst e; rw [upd_same]; rw [hpc] at hd
        show (c', j) ∈ s.done ↔ j < jj + 1 ∧ _
        change (c', j) ∈ s.done ↔ j < jj ∧ _ at hd
        rw [hd]
        constructor
        · rintro ⟨h1, h2⟩; exact ⟨by omega, h2⟩
        · rintro ⟨h1, h2, h3⟩
          have : j ≠ jj := by rintro rfl; rw [hsk] at h2; cases h2
          exact ⟨by omega, h2, h3⟩
      · rw [upd_ne _ _ e]; exact hd
  | own c ii ws jj hpc hw =>
    have hok := h.ok c
    rw [hpc] at hok
    obtain ⟨o1, o2, o3, o4⟩ := hok
    have hlen := List.getElem?_eq_none_iff.1 hw
    have hjj : jj = ii + ws.length := by omega
    have hnp : ∀ v b, s.slot v ≠ some ((c, jj), b) := by
      intro v b hv
      have hp := h.pend v _ _ hv
      rw [hpc] at hp
      exact absurd hp.2.2 (Nat.lt_irrefl _)
    have hws : ∀ c', (upd s.pc c (.wait ii ws 0) c').ws = (s.pc c').ws := by
      intro c'; unfold upd; split
      · next e => rw [e, hpc]; rfl
      · rfl
    have hnd : (c, jj) ∉ s.done := by
      intro hd
      have := ((h.done c o4 jj).1 hd).1
      rw [hpc] at this
      exact absurd this (Nat.lt_irrefl _)
    refine ⟨?_, ?_, ?_, ?_, ?_, ?_, ?_, ?_, ?_, ?_, h.sk⟩
    · intro c'; show (upd s.pc c _ c').Ok _ _; unfold upd; split
      · next e => subst e; exact ⟨Nat.zero_le _, o3, o4⟩
      · exact h.ok c'
    · intro c'; show (upd s.pc c _ c').ws.Nodup; rw [hws]; exact h.nodup c'
    · intro c' v hv; exact h.rng c' v ((hws c') ▸ hv)
    · intro c' v hv; exact h.use c' v ((hws c') ▸ hv)
    · intro v hv; obtain ⟨c', hc'⟩ := h.free v hv; exact ⟨c', (hws c').symm ▸ hc'⟩
    · intro c1 c2 v h1 h2; exact h.disj c1 c2 v ((hws c1) ▸ h1) ((hws c2) ▸ h2)
    · intro v j b hv
      show (upd s.pc c _ j.1).Pend v j.2
      have hp := h.pend v j b hv
      by_cases e : j.1 = c
      · rw [e, upd_same]; rw [e, hpc] at hp
        exact ⟨hp.1, hp.2.1⟩
      · rw [upd_ne _ _ e]; exact hp
    · intro c' hc' j
      show (c', j) ∈ (if g.skip c jj = true then s.done else s.done ++ [(c, jj)]) ↔
        j < (upd s.pc c _ c').upto _ ∧ _
      have hd := h.done c' hc' j
      by_cases e : c' = c
      · subst e; rw [upd_same]; rw [hpc] at hd
        change (c', j) ∈ s.done ↔ j < jj ∧ _ at hd
        show _ ↔ j < ii + ws.length + 1 ∧ _
        rw [← hjj]
        by_cases hsk : g.skip c' jj = true
        · rw [if_pos hsk, hd]
          constructor
          · rintro ⟨h1, h2⟩; exact ⟨by omega, h2⟩
          · rintro ⟨h1, h2, h3⟩
            have : j ≠ jj := by rintro rfl; rw [hsk] at h2; cases h2
            exact ⟨by omega, h2, h3⟩
        · rw [if_neg hsk, List.mem_append, hd]
          have hsk' : g.skip c' jj = false := by simpa using hsk
          constructor
          · rintro (⟨h1, h2⟩ | h1)
            · exact ⟨by omega, h2⟩
            · have : j = jj := by simpa using h1
              subst this
              exact ⟨by omega, hsk', fun ⟨v, hv⟩ => hnp v _ hv⟩
          · rintro ⟨h1, h2, h3⟩
            by_cases hj : j = jj
            · right; rw [hj]; exact List.mem_singleton.2 rfl
            · left; exact ⟨by omega, h2, h3⟩
      · rw [upd_ne _ _ e]
        have : (c', j) ∈ (if g.skip c jj = true then s.done else s.done ++ [(c, jj)]) ↔ (c', j) ∈ s.done := by
          split
          · rfl
          · rw [List.mem_append]
            constructor
            · rintro (h1 | h1)
              · exact h1
              · rw [List.mem_singleton] at h1; cases h1; exact absurd rfl e
            · exact Or.inl
        rw [this]; exact hd
    · intro j hj
      change j ∈ (if g.skip c jj = true then s.done else s.done ++ [(c, jj)]) at hj
      split at hj
      · exact h.calls j hj
      · rcases List.mem_append.1 hj with hj | hj
        · exact h.calls j hj
        · rw [List.mem_singleton] at hj; rw [hj]; exact o4
    · show (if g.skip c jj = true then s.done else s.done ++ [(c, jj)]).Nodup
      split
      · exact h.nd
      · exact List.nodup_append.2 ⟨h.nd, List.nodup_singleton _, by
          intro a ha b hb he
          rw [List.mem_singleton] at hb
          rw [he, hb] at ha; exact hnd ha⟩
  | next c ii ws i w hpc hw hsl =>
    have hok := h.ok c
    have hnd := h.nodup c
    rw [hpc] at hok hnd
    obtain ⟨hlt, -⟩ := List.getElem?_eq_some_iff.1 hw
    refine h.move (p := .wait ii ws (i + 1)) ⟨hlt, hok.2⟩ (by rw [hpc]; rfl) (by rw [hpc]; rfl) ?_
    intro v j b hv hp
    rw [hpc] at hp
    refine ⟨hp.1, ?_⟩
    have h2 := hp.2
    by_cases e : j = ii + i
    · subst e
      have h1 := hp.1
      rw [Nat.add_sub_cancel_left, hw] at h1
      cases h1
      rw [hsl] at hv; cases hv
    · omega
  | back c ii ws i hpc hw =>
    have hok := h.ok c
    rw [hpc] at hok
    obtain ⟨o1, o2, o3⟩ := hok
    have hlen := List.getElem?_eq_none_iff.1 hw
    have hnp : ∀ v j b, s.slot v = some ((c, j), b) → False := by
      intro v j b hv
      have hp := h.pend v _ _ hv
      rw [hpc] at hp
      obtain ⟨h1, -⟩ := List.getElem?_eq_some_iff.1 hp.1
      have h2 : ii + i ≤ j := hp.2
      have h3 : j - ii < ws.length := h1
      omega
    have hws : ∀ c', (upd s.pc c (.start (ii + ws.length + 1)) c').ws = if c' = c then [] else (s.pc c').ws := by
      intro c'; unfold upd; split <;> rfl
    have hmw : ∀ w, w ∈ ws → ∀ c', w ∈ (s.pc c').ws → c' = c := by
      intro w hw c' hc'
      exact h.disj c' c w hc' (by rw [hpc]; exact hw)
    refine ⟨?_, ?_, ?_, ?_, ?_, ?_, ?_, ?_, h.calls, h.nd, h.sk⟩
    · intro c'; show (upd s.pc c _ c').Ok _ _; unfold upd; split
      · next e => subst e; exact ⟨o2, o3⟩
      · exact h.ok c'
    · intro c'; show (upd s.pc c _ c').ws.Nodup; rw [hws]; split
      · exact List.nodup_nil
      · exact h.nodup c'
    · intro c' w hw
      change w ∈ (upd s.pc c _ c').ws at hw
      rw [hws] at hw; split at hw
      · cases hw
      · exact h.rng c' w hw
    · intro c' w hw
      change w ∈ (upd s.pc c _ c').ws at hw
      show (s.inUse w && !decide (w ∈ ws)) = true
      rw [hws] at hw; split at hw
      · cases hw
      · next e =>
        have : w ∉ ws := fun hm => e (hmw w hm c' hw)
        simp [h.use c' w hw, this]
    · intro w hw
      change (s.inUse w && !decide (w ∈ ws)) = true at hw
      simp only [Bool.and_eq_true, Bool.not_eq_true', decide_eq_false_iff_not] at hw
      obtain ⟨c', hc'⟩ := h.free w hw.1
      refine ⟨c', ?_⟩
      show w ∈ (upd s.pc c _ c').ws
      rw [hws]; split
      · next e => rw [e, hpc] at hc'; exact absurd hc' hw.2
      · exact hc'
    · intro c1 c2 w h1 h2
      change w ∈ (upd s.pc c _ c1).ws at h1
      change w ∈ (upd s.pc c _ c2).ws at h2
      rw [hws] at h1 h2
      split at h1
      · cases h1
      · split at h2
        · cases h2
        · exact h.disj c1 c2 w h1 h2
    · intro w j b hsl
      have hp := h.pend w j b hsl
      show (upd s.pc c _ j.1).Pend w j.2
      by_cases e : j.1 = c
      · exact (hnp w j.2 b (by rw [← e]; exact hsl)).elim
      · rw [upd_ne _ _ e]; exact hp
    · intro c' hc' j
      show _ ↔ j < (upd s.pc c _ c').upto _ ∧ _
      have := h.done c' hc' j
      by_cases e : c' = c
      · subst e; rw [upd_same]; rw [hpc] at this; exact this
      · rw [upd_ne _ _ e]; exact this
  | run w j hsl =>
    have hp := h.pend w j false hsl
    have hslot : ∀ v x, upd s.slot w (some (j, true)) v = some x →
        (v = w ∧ x = (j, true)) ∨ (v ≠ w ∧ s.slot v = some x) := by
      intro v x hv
      by_cases e : v = w
      · subst e; rw [upd_same] at hv; exact Or.inl ⟨rfl, (Option.some.inj hv).symm⟩
      · rw [upd_ne _ _ e] at hv; exact Or.inr ⟨e, hv⟩
    -- a job is with one writer only
    have huniq : ∀ v b, s.slot v = some (j, b) → v = w := by
      intro v b hv
      have hp' := h.pend v j b hv
      cases hc : s.pc j.1 with
      | start ii => rw [hc] at hp; exact hp.elim
      | fin => rw [hc] at hp; exact hp.elim
      | put ii ws jj =>
        rw [hc] at hp hp'
        exact Option.some.inj (hp'.1.symm.trans hp.1)
      | wait ii ws i =>
        rw [hc] at hp hp'
        exact Option.some.inj (hp'.1.symm.trans hp.1)
    have hok := h.ok j.1
    have hjC : j.1 < C := by
      cases hc : s.pc j.1 with
      | start ii => rw [hc] at hp; exact hp.elim
      | fin => rw [hc] at hp; exact hp.elim
      | put ii ws jj => rw [hc] at hok; exact hok.2.2.2
      | wait ii ws i => rw [hc] at hok; exact hok.2.2
    have hup : j.2 < (s.pc j.1).upto (g.n j.1) := by
      cases hc : s.pc j.1 with
      | start ii => rw [hc] at hp; exact hp.elim
      | fin => rw [hc] at hp; exact hp.elim
      | put ii ws jj => rw [hc] at hp; exact hp.2.2
      | wait ii ws i =>
        rw [hc] at hp
        obtain ⟨h1, -⟩ := List.getElem?_eq_some_iff.1 hp.1
        show j.2 < ii + ws.length + 1
        omega
    have hnd : j ∉ s.done := by
      intro hd
      exact ((h.done j.1 hjC j.2).1 hd).2.2 ⟨w, hsl⟩
    refine ⟨h.ok, h.nodup, h.rng, h.use, h.free, h.disj, ?_, ?_, ?_, ?_, ?_⟩
    · intro v i b hv
      rcases hslot v (i, b) hv with ⟨rfl, hx⟩ | ⟨hne, hv⟩
      · cases hx; exact hp
      · exact h.pend v i b hv
    · intro c hc i
      show (c, i) ∈ s.done ++ [j] ↔ _ ∧ _ ∧ ¬ ∃ v, upd s.slot w (some (j, true)) v = some ((c, i), false)
      have hd := h.done c hc i
      by_cases e : (c, i) = j
      · subst e
        constructor
        · intro _
          refine ⟨hup, h.sk w _ _ hsl, ?_⟩
          rintro ⟨v, hv⟩
          rcases hslot v _ hv with ⟨rfl, hx⟩ | ⟨hne, hv⟩
          · cases hx
          · exact hne (huniq v _ hv)
        · intro _; simp
      · have hex : (∃ v, upd s.slot w (some (j, true)) v = some ((c, i), false)) ↔
            ∃ v, s.slot v = some ((c, i), false) := by
          constructor
          · rintro ⟨v, hv⟩
            rcases hslot v _ hv with ⟨rfl, hx⟩ | ⟨hne, hv⟩
            · cases hx
            · exact ⟨v, hv⟩
          · rintro ⟨v, hv⟩
            refine ⟨v, ?_⟩
            rw [upd_ne _ _ ?_]
            · exact hv
            · rintro rfl; rw [hsl] at hv; cases hv; exact e rfl
        rw [hex, List.mem_append, hd]
        constructor
        · rintro (h1 | h1)
          · exact h1
          · exact absurd (List.mem_singleton.1 h1) e
        · exact Or.inl
    · intro i hi
      rcases List.mem_append.1 hi with hi | hi
      · exact h.calls i hi
      · rw [List.mem_singleton] at hi; rw [hi]; exact hjC
    · exact List.nodup_append.2 ⟨h.nd, List.nodup_singleton _, by
        intro a ha b hb he
        rw [List.mem_singleton] at hb
        rw [he, hb] at ha; exact hnd ha⟩
    · intro v i b hv
      rcases hslot v (i, b) hv with ⟨rfl, hx⟩ | ⟨hne, hv⟩
      · cases hx; exact h.sk v _ _ hsl
      · exact h.sk v i b hv
  | clear w j hsl =>
    have hslot : ∀ v x, upd s.slot w none v = some x → (v ≠ w ∧ s.slot v = some x) := by
      intro v x hv
      by_cases e : v = w
      · subst e; rw [upd_same] at hv; cases hv
      · rw [upd_ne _ _ e] at hv; exact ⟨e, hv⟩
    refine ⟨h.ok, h.nodup, h.rng, h.use, h.free, h.disj, ?_, ?_, h.calls, h.nd,
      fun v j b hv => h.sk v j b (hslot v _ hv).2⟩
    · intro v j b hv; exact h.pend v j b (hslot v _ hv).2
    · intro c hc i
      show _ ↔ _ ∧ _ ∧ ¬ ∃ v, upd s.slot w none v = some ((c, i), false)
      have hex : (∃ v, upd s.slot w none v = some ((c, i), false)) ↔ ∃ v, s.slot v = some ((c, i), false) := by
        constructor
        · rintro ⟨v, hv⟩; exact ⟨v, (hslot v _ hv).2⟩
        · rintro ⟨v, hv⟩
          refine ⟨v, ?_⟩
          rw [upd_ne _ _ (by rintro rfl; rw [hsl] at hv; cases hv)]; exact hv
      rw [hex]; exact h.done c hc i

theorem Reach.inv {g : Conf} {C : Nat} {s : Sys} (h : Reach g C s) : Inv g C s := by
  induction h with
  | init => exact Inv.init g C
  | step _ hs ih => exact ih.step hs

theorem Run.reach {g : Conf} {C m : Nat} {s : Sys} (h : Run g C m s) : Reach g C s := by
  induction h with
  | init => exact .init
  | step _ hs ih => exact .step ih hs

theorem Reach.limit {g : Conf} {C : Nat} {s : Sys} (h : Reach g C s) :
    ∀ c, 1 ≤ g.mx c → (s.pc c).ws.length < g.mx c := by
  induction h with
  | init =>
    intro c hc
    unfold Writer.init; simp only; split <;> exact hc
  | @step s s' _ hs ih =>
    intro c' hc'
    have hi := ih c' hc'
    have key : ∀ c p, (p : PC).ws = (s.pc c).ws → (upd s.pc c p c').ws.length < g.mx c' := by
      intro c p hp; unfold upd; split
      · next e => rw [hp, ← e]; exact hi
      · exact hi
    cases hs with
    | lease c ii hpc hn =>
      show (upd s.pc c _ c').ws.length < _
      unfold upd; split
      · next e =>
        subst e
        have := lease_length g.W s.inUse (request g c' ii)
        show (Writer.lease g.W s.inUse (request g c' ii)).length < _
        unfold request at *; omega
      · exact hi
    | finish c ii hpc _ => exact key c _ (by rw [hpc]; rfl)
    | give c ii ws jj w hpc _ _ => exact key c _ (by rw [hpc]; rfl)
    | giveNone c ii ws jj w hpc _ _ => exact key c _ (by rw [hpc]; rfl)
    | own c ii ws jj hpc _ => exact key c _ (by rw [hpc]; rfl)
    | next c ii ws i w hpc _ _ => exact key c _ (by rw [hpc]; rfl)
    | back c ii ws i hpc _ =>
      show (upd s.pc c _ c').ws.length < _
      unfold upd; split
      · exact hc'
      · exact hi
    | run w j _ => exact hi
    | clear w j _ => exact hi

/-! ### measure -/

def sumTo (f : Nat → Nat) : Nat → Nat
  | 0 => 0
  | n + 1 => sumTo f n + f n

theorem sumTo_congr {f f' : Nat → Nat} : ∀ n, (∀ i, i < n → f i = f' i) → sumTo f n = sumTo f' n
  | 0, _ => rfl
  | n + 1, h => by
    rw [sumTo, sumTo, sumTo_congr n (fun i hi => h i (by omega)), h n (by omega)]

/-- Changing one summand. -/
theorem sumTo_change {f f' : Nat → Nat} {i : Nat} : ∀ n, i < n → (∀ j, j ≠ i → f' j = f j) →
    sumTo f' n + f i = sumTo f n + f' i
  | 0, h, _ => absurd h (Nat.not_lt_zero _)
  | n + 1, h, hj => by
    rw [sumTo, sumTo]
    by_cases e : i = n
    · subst e
      rw [sumTo_congr (f := f') (f' := f) i (fun j hj' => hj j (by omega))]; omega
    · have := sumTo_change n (by omega) hj
      have := hj n (fun e' => e e'.symm)
      omega

def PC.weight (n : Nat) : PC → Nat
  | .start ii => 10 * (n - ii) + 1
  | .put ii ws jj => 10 * (n - (ii + ws.length + 1)) + 2 + ws.length + 4 * (ii + ws.length + 1 - jj)
  | .wait ii ws i => 10 * (n - (ii + ws.length + 1)) + 2 + (ws.length - i)
  | .fin => 0

def slotWeight : Option (Job × Bool) → Nat
  | none => 0
  | some (_, false) => 2
  | some (_, true) => 1

def measure (g : Conf) (C : Nat) (s : Sys) : Nat :=
  sumTo (fun c => (s.pc c).weight (g.n c)) C + sumTo (fun w => slotWeight (s.slot w)) g.W

theorem measure_pc {g : Conf} {s : Sys} {C c : Nat} (hc : c < C) (p : PC) :
    sumTo (fun c' => (upd s.pc c p c').weight (g.n c')) C + (s.pc c).weight (g.n c)
      = sumTo (fun c' => (s.pc c').weight (g.n c')) C + p.weight (g.n c) := by
  have := sumTo_change (f := fun c' => (s.pc c').weight (g.n c')) (f' := fun c' => (upd s.pc c p c').weight (g.n c'))
    C hc (fun j hj => by simp only [upd_ne _ _ hj])
  simp only [upd_same] at this
  exact this

theorem measure_slot {g : Conf} {s : Sys} {w : Nat} (hw : w < g.W) (x : Option (Job × Bool)) :
    sumTo (fun v => slotWeight (upd s.slot w x v)) g.W + slotWeight (s.slot w)
      = sumTo (fun v => slotWeight (s.slot v)) g.W + slotWeight x := by
  have := sumTo_change (f := fun v => slotWeight (s.slot v)) (f' := fun v => slotWeight (upd s.slot w x v))
    g.W hw (fun j hj => by simp only [upd_ne _ _ hj])
  simp only [upd_same] at this
  exact this

theorem Inv.decreases {g : Conf} {C : Nat} {s s' : Sys} (h : Inv g C s) (hs : Step g s s') :
    measure g C s' < measure g C s := by
  unfold measure
  cases hs with
  | lease c ii hpc hn =>
    have hok := h.ok c; rw [hpc] at hok
    have hl := lease_length g.W s.inUse (request g c ii)
    have := measure_pc (g := g) (s := s) hok.2 (.put ii (lease g.W s.inUse (request g c ii)) ii)
    rw [hpc] at this
    simp only [PC.weight] at this ⊢
    unfold request at *
    omega
  | finish c ii hpc hn =>
    have hok := h.ok c; rw [hpc] at hok
    have := measure_pc (g := g) (s := s) hok.2 .fin
    rw [hpc] at this
    simp only [PC.weight] at this ⊢
    omega
  | give c ii ws jj w hpc hw hsk =>
    have he := h.empty hpc hw
    have hok := h.ok c
    have hr := h.rng c w (by rw [hpc]; exact List.mem_of_getElem? hw)
    rw [hpc] at hok
    obtain ⟨o1, o2, o3, o4⟩ := hok
    obtain ⟨hlt, -⟩ := List.getElem?_eq_some_iff.1 hw
    have h1 := measure_pc (g := g) (s := s) o4 (.put ii ws (jj + 1))
    have h2 := measure_slot (g := g) (s := s) hr (some ((c, jj), false))
    rw [hpc] at h1
    rw [he] at h2
    simp only [PC.weight, slotWeight] at h1 h2 ⊢
    omega
  | giveNone c ii ws jj w hpc hw hsk =>
    have hok := h.ok c
    rw [hpc] at hok
    obtain ⟨o1, o2, o3, o4⟩ := hok
    obtain ⟨hlt, -⟩ := List.getElem?_eq_some_iff.1 hw
    have h1 := measure_pc (g := g) (s := s) o4 (.put ii ws (jj + 1))
    rw [hpc] at h1
    simp only [PC.weight] at h1 ⊢
    omega
  | own c ii ws jj hpc hw =>
    have hok := h.ok c
    rw [hpc] at hok
    obtain ⟨o1, o2, o3, o4⟩ := hok
    have h1 := measure_pc (g := g) (s := s) o4 (.wait ii ws 0)
    rw [hpc] at h1
    simp only [PC.weight] at h1 ⊢
    omega
  | next c ii ws i w hpc hw hsl =>
    have hok := h.ok c
    rw [hpc] at hok
    obtain ⟨hlt, -⟩ := List.getElem?_eq_some_iff.1 hw
    have h1 := measure_pc (g := g) (s := s) hok.2.2 (.wait ii ws (i + 1))
    rw [hpc] at h1
    simp only [PC.weight] at h1 ⊢
    omega
  | back c ii ws i hpc hw =>
    have hok := h.ok c
    rw [hpc] at hok
    have h1 := measure_pc (g := g) (s := s) hok.2.2 (.start (ii + ws.length + 1))
    rw [hpc] at h1
    simp only [PC.weight] at h1 ⊢
    omega
  | run w j hsl =>
    have h2 := measure_slot (g := g) (s := s) (h.rng _ w (h.pend w _ _ hsl).mem) (some (j, true))
    rw [hsl] at h2
    simp only [slotWeight] at h2 ⊢
    omega
  | clear w j hsl =>
    have h2 := measure_slot (g := g) (s := s) (h.rng _ w (h.pend w _ _ hsl).mem) none
    rw [hsl] at h2
    simp only [slotWeight] at h2 ⊢
    omega

theorem Run.bound {g : Conf} {C m : Nat} {s : Sys} (h : Run g C m s) :
    m + measure g C s ≤ measure g C (Writer.init C) := by
  induction h with
  | init => omega
  | step hr hs ih => have := hr.reach.inv.decreases hs; omega

/-- A call that has not returned can be helped on. -/
theorem enabled {g : Conf} {s : Sys} {c : Nat} (hc : s.pc c ≠ .fin) :
    ∃ s', Step g s s' := by
  cases hpc : s.pc c with
  | fin => exact absurd hpc hc
  | start ii =>
    by_cases hn : ii < g.n c
    · exact ⟨_, .lease s c ii hpc hn⟩
    · exact ⟨_, .finish s c ii hpc hn⟩
  | put ii ws jj =>
    cases hw : ws[jj - ii]? with
    | none => exact ⟨_, .own s c ii ws jj hpc hw⟩
    | some w =>
      cases hsk : g.skip c jj with
      | false => exact ⟨_, .give s c ii ws jj w hpc hw hsk⟩
      | true => exact ⟨_, .giveNone s c ii ws jj w hpc hw hsk⟩
  | wait ii ws i =>
    cases hw : ws[i]? with
    | none => exact ⟨_, .back s c ii ws i hpc hw⟩
    | some w =>
      cases hsl : s.slot w with
      | none => exact ⟨_, .next s c ii ws i w hpc hw hsl⟩
      | some x =>
        obtain ⟨j, b⟩ := x
        cases b with
        | false => exact ⟨_, .run s w j hsl⟩
        | true => exact ⟨_, .clear s w j hsl⟩

end Jungle.Writer
