/-
  The memory-table iterator by sequence number as a cursor whose bounds differ from file to file,
  and its `seekSN`.
-/
import Verif.Iter.Compose

set_option linter.unusedSectionVars false

namespace Jungle.Iter
variable {O N E : Type} [LinearOrder O]

theorem Leaf.goto_keep (s : Leaf O N E) (k : Option O) :
    (s.goto k).2.nodes = s.nodes ∧ (s.goto k).2.hi = s.hi := by
  cases k <;> exact ⟨rfl, rfl⟩

theorem Leaf.step_keep (d : Dir) (s : Leaf O N E) :
    (s.step d).2.nodes = s.nodes ∧ (s.step d).2.hi = s.hi := by
  unfold Leaf.step
  split
  · exact ⟨rfl, rfl⟩
  · split <;> exact Leaf.goto_keep _ _

theorem Leaf.seek_keep (q : Seek O) (s : Leaf O N E) :
    (s.seek .memSeq q).2.nodes = s.nodes ∧ (s.seek .memSeq q).2.hi = s.hi := by
  unfold Leaf.seek
  split
  · exact ⟨rfl, rfl⟩
  · have hge : ∀ l : List (O × N), (s.seqGE l).2.nodes = s.nodes ∧ (s.seqGE l).2.hi = s.hi := by
      intro l; unfold Leaf.seqGE; split <;> exact Leaf.goto_keep _ _
    have hle : ∀ k : O, (s.seqLE k).2.nodes = s.nodes ∧ (s.seqLE k).2.hi = s.hi := by
      intro k
      unfold Leaf.seqLE
      generalize (match s.hi with | none => k | some b => if k < b then b else k) = q'
      simp only []
      split <;> exact Leaf.goto_keep _ _
    cases q with
    | first => exact hge _
    | ge k => exact hge _
    | le k => exact hle _
    | last =>
      simp only []
      cases hh : s.hi with
      | none => simp only []; have := Leaf.goto_keep s (s.fromEnd.head?.map (·.1)); rw [hh] at this; exact this
      | some b => simp only []; have := hle b; rw [hh] at this; exact this

/-- The upper bound excludes nothing, or it is the common one and the number of a node. -/
def SeqCl (top : Option O) (s : Leaf O N E) : Prop :=
  (∀ n ∈ s.nodes, s.above n.1 = false) ∨ (s.hi = top ∧ ∃ n ∈ s.nodes, s.hi = some n.1)

theorem SeqCl.congr {top : Option O} {s s' : Leaf O N E} (h : SeqCl top s) (hn : s'.nodes = s.nodes)
    (hh : s'.hi = s.hi) : SeqCl top s' := by
  unfold SeqCl Leaf.above at *
  rw [hn, hh]; exact h

/-- A leaf by sequence number, with bounds of its own. -/
def memSeqSpec (p : Par E O) (top : Option O) : CSpec (Leaf O N E) E O where
  Rep := fun s P e m => (∃ lo hi, (leafSpec p .memSeq lo hi).Rep s P e m) ∧ SeqCl top s
  Own := fun s P fr => (∃ lo hi, (leafSpec p .memSeq lo hi).Own s P fr) ∧ SeqCl top s
  Low := fun _ _ _ => False
  KOk := fun k => ∀ b, top = some b → k ≤ b

theorem memSeq_laws (p : Par E O) (top : Option O) :
    Laws p (Leaf.ops (N := N) .memSeq) (memSeqSpec p top) where
  mem := by rintro s P e m ⟨⟨lo, hi, h⟩, _⟩; exact (leaf_laws p .memSeq lo hi).mem h
  get := by rintro s P e m ⟨⟨lo, hi, h⟩, _⟩; exact (leaf_laws p .memSeq lo hi).get h
  weaken := by rintro s P e m d ⟨⟨lo, hi, h⟩, hc⟩ hm; exact ⟨⟨lo, hi, (leaf_laws p .memSeq lo hi).weaken h hm⟩, hc⟩
  own := by rintro s P e m ⟨⟨lo, hi, h⟩, hc⟩; exact ⟨⟨lo, hi, (leaf_laws p .memSeq lo hi).own h⟩, hc⟩
  own_false := by rintro s P fr ⟨⟨lo, hi, h⟩, hc⟩; exact ⟨⟨lo, hi, (leaf_laws p .memSeq lo hi).own_false h⟩, hc⟩
  own_ne := by rintro s P fr ⟨⟨lo, hi, h⟩, _⟩; exact (leaf_laws p .memSeq lo hi).own_ne h
  own_inj := by rintro s P fr ⟨⟨lo, hi, h⟩, _⟩; exact (leaf_laws p .memSeq lo hi).own_inj h
  own_two := by rintro s P ⟨⟨lo, hi, h⟩, _⟩; exact (leaf_laws p .memSeq lo hi).own_two h
  low := by rintro s P k h; exact absurd h id
  step := by
    rintro s P e m d ⟨⟨lo, hi, h⟩, hc⟩ hm
    have hk : ∀ {st s'}, (Leaf.ops (N := N) .memSeq).step d s = (st, s') → SeqCl top s' := by
      intro st s' he
      have := Leaf.step_keep d s
      rw [show s.step d = (st, s') from he] at this
      exact hc.congr this.1 this.2
    rcases (leaf_laws p .memSeq lo hi).step h hm with ⟨s', e', h1, h2, h3, h4⟩ | ⟨s', h1, h2, h3, h4⟩
    · exact Or.inl ⟨s', e', h1, h2, ⟨⟨lo, hi, h3⟩, hk h1⟩, h4⟩
    · exact Or.inr ⟨s', h1, h2, ⟨⟨lo, hi, h3⟩, hk h1⟩, h4⟩
  seek_first := by
    rintro s P fr ⟨⟨lo, hi, h⟩, hc⟩
    obtain ⟨s', e, h1, h2, h3⟩ := (leaf_laws p .memSeq lo hi).seek_first h
    have := Leaf.seek_keep .first s
    rw [show s.seek .memSeq .first = (.ok, s') from h1] at this
    exact ⟨s', e, h1, ⟨⟨lo, hi, h2⟩, hc.congr this.1 this.2⟩, h3⟩
  seek_last := by
    rintro s P fr ⟨⟨lo, hi, h⟩, hc⟩
    obtain ⟨s', e, h1, h2, h3⟩ := (leaf_laws p .memSeq lo hi).seek_last h
    have := Leaf.seek_keep .last s
    rw [show s.seek .memSeq .last = (.ok, s') from h1] at this
    exact ⟨s', e, h1, ⟨⟨lo, hi, h2⟩, hc.congr this.1 this.2⟩, h3⟩
  seek_ge := by
    rintro s P fr k ⟨⟨lo, hi, h⟩, hc⟩ hk
    obtain ⟨h1, h2, h3, h4, h5⟩ := h
    have hcl : ∀ x : Option O, SeqCl top { s with pos := x } := fun x => hc.congr rfl rfl
    obtain ⟨el, l1, l2, l3⟩ := leaf_last h1 h2 h4 (m := .fresh .bwd) (fun h => by cases h)
    have hlast := seq_last h1 l1
    have hff : s.fromStart.filter (fun n => decide (k ≤ n.1)) =
        s.nodes.filter (fun n => !s.below n.1 && decide (k ≤ n.1)) := by
      unfold Leaf.fromStart
      rw [List.filter_filter]
      apply List.filter_congr
      intro n _
      rw [Bool.and_comm]
    have hseek : (Leaf.ops (N := N) .memSeq).seek (.ge k) s =
        s.seqGE (s.nodes.filter (fun n => !s.below n.1 && decide (k ≤ n.1))) := by
      simp only [Leaf.ops, Leaf.seek, h3, Bool.false_eq_true, if_false, hff]
    have hfy : ∀ y, P y → k ≤ p.ord y → ∀ n' ∈ s.nodes, n'.1 = p.ord y →
        (!s.below n'.1 && decide (k ≤ n'.1)) = true := by
      intro y hy hky n' _ hn'
      rw [hn', (leaf_nb h1 h2 hy).1]; simpa using hky
    rcases leaf_fwd h1 h2 (f := fun n => !s.below n.1 && decide (k ≤ n.1))
      (fun n _ h => by simp only [Bool.and_eq_true, Bool.not_eq_true'] at h; exact h.1) (m := .only .fwd)
      (fun h => by cases h) with ⟨e, n, hn, hf, g1, g2, g3, g4⟩ | ⟨g1, g2⟩
    · left
      refine ⟨_, e, ?_, ⟨⟨lo, hi, g3⟩, hcl _⟩, ?_, ?_, ⟨lo, hi, rep_own g3 h5⟩, hcl _⟩
      · rw [hseek]
        cases hl : s.nodes.filter (fun n => !s.below n.1 && decide (k ≤ n.1)) with
        | nil => rw [hl] at g1; cases g1
        | cons a l =>
          rw [hl] at g1
          have ha : a ∈ s.nodes := (List.mem_filter.1 (show a ∈ s.nodes.filter _ by rw [hl]; exact List.mem_cons_self)).1
          simp only [Leaf.scanFwd] at g1
          split at g1
          · cases g1
          · rw [if_pos (h1.all rfl a ha)] at g1
            simp only [Leaf.seqGE, Option.some.inj g1, leaf_goto]
      · rw [g2]
        simp only [Bool.and_eq_true, decide_eq_true_eq] at hf
        exact hf.2
      · intro y hy hky
        exact g4 y hy (hfy y hy hky)
    · right
      have hall : ∀ y, P y → p.ord y < k := by
        intro y hy
        by_contra hc'
        exact g2 y hy (hfy y hy (not_lt.1 hc'))
      refine ⟨hall, Or.inl ?_⟩
      have hPl : P el := (h2 el).2 l2.2.2.2.1
      have hgot : Leaf.get ({ s with pos := some (p.ord el) } : Leaf O N E) = some el := by
        obtain ⟨n, hn, _, _, hv⟩ := (h2 el).1 hPl
        exact leaf_get h1.sorted rfl hn (h1.ord n hn el hv).symm hv
      refine ⟨{ s with pos := some (p.ord el) }, el, ?_, hgot, ⟨el, hPl, rfl⟩, ⟨lo, hi, rep_own l2 h5⟩, hcl _⟩
      rw [hseek]
      cases hl : s.nodes.filter (fun n => !s.below n.1 && decide (k ≤ n.1)) with
      | nil => simp only [Leaf.seqGE, hlast, leaf_goto]
      | cons a l =>
        exfalso
        have ha := List.mem_filter.1 (show a ∈ s.nodes.filter _ by rw [hl]; exact List.mem_cons_self)
        simp only [Bool.and_eq_true, Bool.not_eq_true', decide_eq_true_eq] at ha
        -- a node at or beyond `k` within the bounds would be an entry
        have hin : ∀ n ∈ s.nodes, s.below n.1 = false → s.above n.1 = false → k ≤ n.1 → False := by
          intro n hn hb hab hkn
          obtain ⟨e, he⟩ := Option.isSome_iff_exists.1 (h1.all rfl n hn)
          have := hall e ((h2 e).2 ⟨n, hn, hb, hab, he⟩)
          rw [h1.ord n hn e he] at this
          exact absurd hkn (not_le.2 this)
        rcases hc with hc | ⟨hc1, n, hn, hc2⟩
        · exact hin a ha.1 ha.2.1 (hc a ha.1) ha.2.2
        · have hkn : k ≤ n.1 := hk n.1 (by rw [← hc1]; exact hc2)
          have hab : s.above n.1 = false := Leaf.above_false.2 (fun b hb => by
            rw [hc2] at hb; cases hb; exact le_refl _)
          have hb : s.below n.1 = false := by
            have := (leaf_nb h1 h2 hPl).1
            have h6 := (leaf_nb h1 h2 hPl).2
            exact Leaf.below_mono this (Leaf.above_false.1 h6 n.1 hc2)
          exact hin n hn hb hab hkn
  seek_le := by rintro s P k h; exact absurd h id

end Jungle.Iter
