/-
  Correctness of the merging iterator: it is a cursor over the merged contents of its children.
-/
import Verif.Iter.Merge
import Mathlib.Order.Basic
import Mathlib.Data.List.Perm.Basic

set_option linter.unusedSectionVars false

namespace Jungle.Iter
variable {σ E O : Type} [LinearOrder O]

theorem Dir.opp_ne (d : Dir) : d.opp ≠ d := by cases d <;> decide
theorem Dir.opp_opp (d : Dir) : d.opp.opp = d := by cases d <;> rfl
theorem Dir.eq_or_opp (d e : Dir) : d = e ∨ d = e.opp := by cases d <;> cases e <;> simp [Dir.opp]

theorem dlt_irrefl (d : Dir) (a : O) : ¬ dlt d a a := by
  cases d <;> simp [dlt]
theorem dlt_trans {d : Dir} {a b c : O} (h : dlt d a b) (h' : dlt d b c) : dlt d a c := by
  cases d
  · exact lt_trans h h'
  · exact lt_trans h' h
theorem dlt_asymm {d : Dir} {a b : O} (h : dlt d a b) : ¬ dlt d b a := fun h' =>
  dlt_irrefl d a (dlt_trans h h')
theorem dlt_tri (d : Dir) (a b : O) : dlt d a b ∨ a = b ∨ dlt d b a := by
  cases d
  · exact lt_trichotomy a b
  · rcases lt_trichotomy a b with h | h | h
    · exact Or.inr (Or.inr h)
    · exact Or.inr (Or.inl h)
    · exact Or.inl h
theorem dlt_opp {d : Dir} {a b : O} : dlt d.opp a b ↔ dlt d b a := by cases d <;> exact Iff.rfl
theorem dlt_of_not {d : Dir} {a b : O} (h : ¬ dlt d a b) (hne : a ≠ b) : dlt d b a := by
  rcases dlt_tri d a b with h1 | h1 | h1
  · exact absurd h1 h
  · exact absurd h1 hne
  · exact h1
/-- `¬ dlt` is "not further": transitivity with it. -/
theorem dlt_of_le_lt {d : Dir} {a b c : O} (h : ¬ dlt d b a) (h' : dlt d b c) : dlt d a c := by
  by_cases hab : a = b
  · rw [hab]; exact h'
  · exact dlt_trans (dlt_of_not h (fun e => hab e.symm)) h'
theorem dlt_of_lt_le {d : Dir} {a b c : O} (h : dlt d a b) (h' : ¬ dlt d c b) : dlt d a c := by
  by_cases hbc : b = c
  · rw [← hbc]; exact h
  · exact dlt_trans h (dlt_of_not h' (fun e => hbc e.symm))
theorem eq_of_not_dlt {d : Dir} {a b : O} (h : ¬ dlt d a b) (h' : ¬ dlt d b a) : a = b := by
  rcases dlt_tri d a b with h1 | h1 | h1
  · exact absurd h1 h
  · exact h1
  · exact absurd h1 h'
theorem not_dlt_trans {d : Dir} {a b c : O} (h : ¬ dlt d b a) (h' : ¬ dlt d c b) : ¬ dlt d c a :=
  fun hc => h (dlt_of_le_lt h' hc)

/-- How far the position of a cursor can be trusted: after a fresh positioning in one direction
    both directions work; after a turn only the direction it turned to; `free`: always. -/
inductive Mode
  | fresh (d : Dir)
  | only (d : Dir)
  | free
  deriving DecidableEq

/-- Stepping in direction `d` is allowed. -/
def Mode.can (m : Mode) (d : Dir) : Prop := match m with
  | .fresh _ => True
  | .only d' => d = d'
  | .free => True

def Mode.after (m : Mode) (d : Dir) : Mode := match m with
  | .fresh d' => if d = d' then .fresh d' else .only d
  | .only d' => .only d'
  | .free => .free

theorem Mode.after_after (m : Mode) (d : Dir) : (m.after d).after d = m.after d := by
  cases m with
  | fresh d' =>
    by_cases h : d = d'
    · simp only [Mode.after, if_pos h]
    · simp only [Mode.after, if_neg h]
  | only d' => rfl
  | free => rfl

theorem Mode.after_can (m : Mode) {d : Dir} (h : m.can d) : (m.after d).can d := by
  cases m with
  | fresh d' =>
    by_cases h : d = d'
    · simp only [Mode.after, if_pos h]; exact trivial
    · simp only [Mode.after, if_neg h]; exact rfl
  | only d' => exact h
  | free => trivial

theorem Mode.after_eq (m : Mode) {d : Dir} (h : m.can d) : m.after d = m ∨ m.after d = .only d := by
  cases m with
  | fresh d' =>
    by_cases h : d = d'
    · left; simp only [Mode.after, if_pos h]
    · right; simp only [Mode.after, if_neg h]
  | only d' => left; rfl
  | free => left; rfl

/-- `e'` is the entry of `P` next to `e` in direction `d`. -/
def NextIn (p : Par E O) (d : Dir) (P : E → Prop) (e e' : E) : Prop :=
  P e' ∧ dlt d (p.ord e) (p.ord e') ∧
    ∀ y, P y → dlt d (p.ord e) (p.ord y) → ¬ dlt d (p.ord y) (p.ord e')

/-- `e` is the last entry of `P` in direction `d`. -/
def AtEnd (p : Par E O) (d : Dir) (P : E → Prop) (e : E) : Prop :=
  ∀ y, P y → ¬ dlt d (p.ord e) (p.ord y)

/-- What it means for a cursor to stand for some contents. -/
structure CSpec (σ E O : Type) where
  /-- `s` is a cursor over the contents `P`, at the entry `e`. -/
  Rep : σ → (E → Prop) → E → Mode → Prop
  /-- `s` is a cursor over the contents `P`, wherever it stands.  `true`: every leaf below it has
      two entries or more. -/
  Own : σ → (E → Prop) → Bool → Prop
  /-- As `Own`, and every leaf below it has an entry that is not beyond `k`. -/
  Low : σ → (E → Prop) → O → Prop
  /-- The targets `seek` may be called with. -/
  KOk : O → Prop

/-- The mode after a fresh positioning. -/
def freshMode (fr : Bool) (d : Dir) : Mode := if fr then .free else .fresh d

/-- The laws a cursor has to satisfy to be a child of a merging iterator. -/
structure Laws (p : Par E O) (ops : Ops σ E O) (C : CSpec σ E O) : Prop where
  mem : ∀ {s P e m}, C.Rep s P e m → P e
  get : ∀ {s P e m}, C.Rep s P e m → ops.get s = some e
  weaken : ∀ {s P e m d}, C.Rep s P e m → m.can d → C.Rep s P e (.only d)
  own : ∀ {s P e m}, C.Rep s P e m → C.Own s P (decide (m = .free))
  own_false : ∀ {s P fr}, C.Own s P fr → C.Own s P false
  own_ne : ∀ {s P fr}, C.Own s P fr → ∃ y, P y
  own_inj : ∀ {s P fr}, C.Own s P fr → ∀ a b, P a → P b → p.ord a = p.ord b → a = b
  own_two : ∀ {s P}, C.Own s P true → ∃ a b, P a ∧ P b ∧ p.ord a ≠ p.ord b
  low : ∀ {s P k}, C.Low s P k → C.Own s P false
  step : ∀ {s P e m d}, C.Rep s P e m → m.can d →
    (∃ s' e', ops.step d s = (.ok, s') ∧ NextIn p d P e e' ∧ C.Rep s' P e' (m.after d) ∧
      ops.left d s' < ops.left d s) ∨
    (∃ s', ops.step d s = (.outOfRange, s') ∧ AtEnd p d P e ∧ C.Rep s' P e (m.after d) ∧
      ops.left d s' ≤ ops.left d s)
  seek_first : ∀ {s P fr}, C.Own s P fr → ∃ s' e, ops.seek .first s = (.ok, s') ∧
    C.Rep s' P e (freshMode fr .fwd) ∧ AtEnd p .bwd P e
  seek_last : ∀ {s P fr}, C.Own s P fr → ∃ s' e, ops.seek .last s = (.ok, s') ∧
    C.Rep s' P e (freshMode fr .bwd) ∧ AtEnd p .fwd P e
  seek_ge : ∀ {s P fr k}, C.Own s P fr → C.KOk k →
    (∃ s' e, ops.seek (.ge k) s = (.ok, s') ∧ C.Rep s' P e (.only .fwd) ∧ k ≤ p.ord e ∧
      (∀ y, P y → k ≤ p.ord y → p.ord e ≤ p.ord y) ∧ C.Own s' P fr) ∨
    ((∀ y, P y → p.ord y < k) ∧
      ((∃ s' e, ops.seek (.ge k) s = (.ok, s') ∧ ops.get s' = some e ∧ (∃ y, P y ∧ p.ord y = p.ord e) ∧
        C.Own s' P fr) ∨
       ops.seek (.ge k) s = (.outOfRange, s)))
  seek_le : ∀ {s P k}, C.Low s P k → C.KOk k → ∃ s' e, ops.seek (.le k) s = (.ok, s') ∧
    C.Rep s' P e (.fresh .bwd) ∧ p.ord e ≤ k ∧ ∀ y, P y → p.ord y ≤ k → p.ord y ≤ p.ord e

theorem Laws.inj {p : Par E O} {ops : Ops σ E O} {C : CSpec σ E O} (hl : Laws p ops C) {s P e m}
    (h : C.Rep s P e m) : ∀ a b, P a → P b → p.ord a = p.ord b → a = b := hl.own_inj (hl.own h)

section Order
variable (p : Par E O)

theorem before_ord {a b : Item σ E} (h : before p a b = true) : ¬ p.ord b.last < p.ord a.last := by
  unfold before at h
  intro hlt
  cases hb : p.byKey
  · rw [hb] at h
    simp only [Bool.false_eq_true, if_false, Bool.or_eq_true, decide_eq_true_eq, Bool.and_eq_true] at h
    rcases h with h | ⟨h, _⟩
    · exact lt_asymm h hlt
    · rw [h] at hlt; exact lt_irrefl _ hlt
  · rw [hb] at h
    simp only [if_true, Bool.or_eq_true, decide_eq_true_eq, Bool.and_eq_true] at h
    rcases h with h | ⟨h, _⟩
    · exact lt_asymm h hlt
    · rw [h] at hlt; exact lt_irrefl _ hlt

theorem before_rank {a b : Item σ E} (h : before p a b = true) (hk : p.byKey = true)
    (he : p.ord a.last = p.ord b.last) : p.rank b.last ≤ p.rank a.last := by
  unfold before at h
  rw [hk] at h
  simp only [if_true, Bool.or_eq_true, decide_eq_true_eq, Bool.and_eq_true, he, true_and] at h
  rcases h with h | h | ⟨h, _⟩
  · exact absurd h (lt_irrefl _)
  · omega
  · omega

theorem before_trans {a b c : Item σ E} (h : before p a b = true) (h' : before p b c = true) :
    before p a c = true := by
  unfold before at *
  cases hb : p.byKey
  · rw [hb] at h h'
    simp only [Bool.false_eq_true, if_false, Bool.or_eq_true, decide_eq_true_eq, Bool.and_eq_true] at *
    rcases h with h | ⟨h, h1⟩ <;> rcases h' with h' | ⟨h', h1'⟩
    · exact Or.inl (lt_trans h h')
    · exact Or.inl (h' ▸ h)
    · exact Or.inl (h.symm ▸ h')
    · exact Or.inr ⟨h.trans h', by omega⟩
  · rw [hb] at h h'
    simp only [if_true, Bool.or_eq_true, decide_eq_true_eq, Bool.and_eq_true] at *
    rcases h with h | ⟨h, h1⟩ <;> rcases h' with h' | ⟨h', h1'⟩
    · exact Or.inl (lt_trans h h')
    · exact Or.inl (h' ▸ h)
    · exact Or.inl (h.symm ▸ h')
    · exact Or.inr ⟨h.trans h', by omega⟩

theorem before_total {a b : Item σ E} (h : before p a b = false) (hne : a.id ≠ b.id) :
    before p b a = true := by
  unfold before at *
  cases hb : p.byKey
  · rw [hb] at h
    simp only [Bool.false_eq_true, if_false, Bool.or_eq_false_iff, decide_eq_false_iff_not,
      Bool.and_eq_false_iff, Bool.or_eq_true, decide_eq_true_eq, Bool.and_eq_true] at *
    rcases lt_trichotomy (p.ord b.last) (p.ord a.last) with h1 | h1 | h1
    · exact Or.inl h1
    · refine Or.inr ⟨h1, ?_⟩
      rcases h.2 with h2 | h2
      · exact absurd h1.symm h2
      · omega
    · exact absurd h1 h.1
  · rw [hb] at h
    simp only [if_true, Bool.or_eq_false_iff, decide_eq_false_iff_not,
      Bool.and_eq_false_iff, Bool.or_eq_true, decide_eq_true_eq, Bool.and_eq_true] at *
    rcases lt_trichotomy (p.ord b.last) (p.ord a.last) with h1 | h1 | h1
    · exact Or.inl h1
    · refine Or.inr ⟨h1, ?_⟩
      rcases h.2 with h2 | h2
      · exact absurd h1.symm h2
      · omega
    · exact absurd h1 h.1

/-- `before` looks only at the record and the address. -/
theorem before_congr {a a' b b' : Item σ E} (h1 : a.last = a'.last) (h2 : a.id = a'.id)
    (h3 : b.last = b'.last) (h4 : b.id = b'.id) : before p a b = before p a' b' := by
  unfold before; rw [h1, h2, h3, h4]

theorem perm_ins (x : Item σ E) (l : List (Item σ E)) : (ins p x l).Perm (x :: l) := by
  induction l with
  | nil => exact List.Perm.refl _
  | cons y l ih =>
    simp only [ins]
    split
    · exact List.Perm.refl _
    · exact (List.Perm.cons y ih).trans (List.Perm.swap x y l)

theorem mem_ins {x y : Item σ E} {l : List (Item σ E)} : y ∈ ins p x l ↔ y = x ∨ y ∈ l := by
  rw [(perm_ins p x l).mem_iff, List.mem_cons]

theorem sorted_ins {x : Item σ E} {l : List (Item σ E)}
    (hs : l.Pairwise (fun a b => before p a b = true)) (hx : ∀ y ∈ l, y.id ≠ x.id) :
    (ins p x l).Pairwise (fun a b => before p a b = true) := by
  induction l with
  | nil => simp [ins]
  | cons y l ih =>
    obtain ⟨hy, hl⟩ := List.pairwise_cons.1 hs
    simp only [ins]
    split
    · next hb =>
      refine List.pairwise_cons.2 ⟨?_, hs⟩
      intro z hz
      rcases List.mem_cons.1 hz with hz | hz
      · subst hz; exact hb
      · exact before_trans p hb (hy z hz)
    · next hb =>
      refine List.pairwise_cons.2 ⟨?_, ih hl (fun z hz => hx z (List.mem_cons_of_mem _ hz))⟩
      intro z hz
      rcases (mem_ins p).1 hz with hz | hz
      · subst hz
        exact before_total p (by simpa using hb) (fun e => hx y List.mem_cons_self e.symm)
      · exact hy z hz

end Order

theorem walk_walk (d : Dir) (l : List (Item σ E)) : walk d (walk d l) = l := by
  cases d <;> simp [walk]
theorem mem_walk {d : Dir} {l : List (Item σ E)} {x : Item σ E} : x ∈ walk d l ↔ x ∈ l := by
  cases d <;> simp [walk]
theorem walk_perm (d : Dir) (l : List (Item σ E)) : (walk d l).Perm l := by
  cases d
  · exact List.Perm.refl _
  · exact List.reverse_perm l

theorem setFlag_flag (d : Dir) (x : Item σ E) : (x.setFlag d).flag d = true := by
  cases d <;> rfl
theorem setFlag_flag_opp (d : Dir) (x : Item σ E) : (x.setFlag d).flag d.opp = x.flag d.opp := by
  cases d <;> rfl
theorem setFlag_last (d : Dir) (x : Item σ E) : (x.setFlag d).last = x.last := by cases d <;> rfl
theorem setFlag_id (d : Dir) (x : Item σ E) : (x.setFlag d).id = x.id := by cases d <;> rfl
theorem setFlag_cur (d : Dir) (x : Item σ E) : (x.setFlag d).cur = x.cur := by cases d <;> rfl

/-- What the flags of an item may be in a mode. -/
def FlagsOk (p : Par E O) (m : Mode) (P : E → Prop) (x : Item σ E) : Prop := match m with
  | .fresh d => x.flag d.opp = false
  | .only _ => True
  | .free => (∀ d, x.flag d = true → AtEnd p d P x.last) ∧ ∃ a b, P a ∧ P b ∧ p.ord a ≠ p.ord b

/-- A flagged item: its contents do not go beyond `k`. -/
structure Done (p : Par E O) (C : CSpec σ E O) (m : Mode) (d : Dir) (k : O)
    (P : E → Prop) (x : Item σ E) : Prop where
  all : ∀ y, P y → ¬ dlt d k (p.ord y)
  le : ¬ dlt d k (p.ord x.last)
  own : P x.last ∨ dlt d (p.ord x.last) k
  rep : m ≠ .only d → C.Rep x.cur P x.last m ∧ AtEnd p d P x.last

/-- An item between two calls, after a move in direction `d` to `k`. -/
structure ItemOk (p : Par E O) (C : CSpec σ E O) (m : Mode) (d : Dir) (k : O)
    (P : E → Prop) (x : Item σ E) : Prop where
  own : C.Own x.cur P (decide (m = .free))
  lastIn : ∃ y, P y ∧ p.ord y = p.ord x.last
  un : x.flag d = false → C.Rep x.cur P x.last m ∧ ¬ dlt d (p.ord x.last) k ∧
    ∀ y, P y → ¬ dlt d (p.ord y) k → ¬ dlt d (p.ord y) (p.ord x.last)
  fl : x.flag d = true → Done p C m d k P x
  flags : FlagsOk p m P x

/-- An item inside the loop of a move from `k` in direction `d`. -/
structure Pre (p : Par E O) (C : CSpec σ E O) (m : Mode) (d : Dir) (k : O)
    (P : E → Prop) (x : Item σ E) : Prop where
  own : C.Own x.cur P (decide (m = .free))
  lastIn : ∃ y, P y ∧ p.ord y = p.ord x.last
  un : x.flag d = false → C.Rep x.cur P x.last m ∧
    (dlt d k (p.ord x.last) → ∀ y, P y → dlt d k (p.ord y) → ¬ dlt d (p.ord y) (p.ord x.last))
  fl : x.flag d = true → Done p C m d k P x
  flags : FlagsOk p m P x

section Steps
variable {p : Par E O} {ops : Ops σ E O} {C : CSpec σ E O}

theorem Laws.toAfter (hl : Laws p ops C) {s P e m d} (h : C.Rep s P e m) (hc : m.can d) :
    C.Rep s P e (m.after d) := by
  rcases m.after_eq hc with h1 | h1
  · rw [h1]; exact h
  · rw [h1]; exact hl.weaken h hc

theorem Laws.own_after (hl : Laws p ops C) {s : σ} {P : E → Prop} {m : Mode} {d : Dir} (h : C.Own s P (decide (m = .free)))
    (hc : m.can d) : C.Own s P (decide (m.after d = .free)) := by
  rcases m.after_eq hc with h1 | h1
  · rw [h1]; exact h
  · rw [h1]; exact hl.own_false h

theorem flagsOk_after {m : Mode} {d : Dir} {P : E → Prop} {x : Item σ E} (h : FlagsOk p m P x)
    (hc : m.can d) : FlagsOk p (m.after d) P x := by
  rcases m.after_eq hc with h1 | h1
  · rw [h1]; exact h
  · rw [h1]; exact trivial

/-- Entering the loop. -/
theorem ItemOk.pre (hl : Laws p ops C) {m : Mode} {d d0 : Dir} {k : O} {P : E → Prop} {x : Item σ E}
    (h : ItemOk p C m d0 k P x) (hm : m = .fresh d0 ∨ m = .only d0 ∨ m = .free) (hc : m.can d) :
    Pre p C (m.after d) d k P x := by
  refine ⟨hl.own_after h.own hc, h.lastIn, ?_, ?_, flagsOk_after h.flags hc⟩
  · intro hf
    rcases d.eq_or_opp d0 with hd | hd
    · subst hd
      obtain ⟨h1, h2, h3⟩ := h.un hf
      refine ⟨hl.toAfter h1 hc, fun _ y hy hky => h3 y hy (dlt_asymm hky)⟩
    · -- the direction has changed
      subst hd
      have hno : m ≠ .only d0 := by
        rintro rfl; exact Dir.opp_ne d0 hc
      cases hf0 : x.flag d0
      · obtain ⟨h1, h2, h3⟩ := h.un hf0
        refine ⟨hl.toAfter h1 hc, fun hk => absurd (dlt_opp.1 hk) h2⟩
      · have hd := h.fl hf0
        obtain ⟨h1, h2⟩ := hd.rep hno
        refine ⟨hl.toAfter h1 hc, fun _ y hy _ hlt => h2 y hy (dlt_opp.1 hlt)⟩
  · intro hf
    rcases d.eq_or_opp d0 with hd | hd
    · subst hd
      have hd := h.fl hf
      refine ⟨hd.all, hd.le, hd.own, ?_⟩
      intro hne
      have hme : m.after d = m := (m.after_eq hc).resolve_right hne
      rw [hme] at hne ⊢
      exact hd.rep hne
    · subst hd
      -- only possible in mode `free`
      rcases hm with hm | hm | hm
      · subst hm; exact absurd hf (by rw [h.flags]; decide)
      · subst hm; exact absurd hc (Dir.opp_ne d0)
      · subst hm
        obtain ⟨hends, a, b, ha, hb, hab⟩ := h.flags
        have hend := hends _ hf
        cases hf0 : x.flag d0
        · obtain ⟨h1, h2, h3⟩ := h.un hf0
          have hle : ¬ dlt d0.opp k (p.ord x.last) := fun hh => h2 (dlt_opp.1 hh)
          refine ⟨fun y hy => not_dlt_trans (hend y hy) hle, hle, Or.inl (hl.mem h1),
            fun _ => ⟨h1, hend⟩⟩
        · have hend0 := hends _ hf0
          exfalso
          have ha0 := eq_of_not_dlt (hend0 a ha) (fun hh => hend a ha (dlt_opp.2 hh))
          have hb0 := eq_of_not_dlt (hend0 b hb) (fun hh => hend b hb (dlt_opp.2 hh))
          exact hab (ha0.symm.trans hb0)

theorem weight_flagged {d : Dir} {x : Item σ E} (h : x.flag d = true) :
    weight ops d x = ops.left d x.cur := by simp [weight, h]
theorem weight_unflagged {d : Dir} {x : Item σ E} (h : x.flag d = false) :
    weight ops d x = ops.left d x.cur + 1 := by simp [weight, h]

theorem total_perm {d : Dir} {l l' : List (Item σ E)} (h : l.Perm l') :
    total ops d l = total ops d l' := by
  unfold total; exact List.Perm.sum_nat (h.map _)

theorem total_append (d : Dir) (l l' : List (Item σ E)) :
    total ops d (l ++ l') = total ops d l + total ops d l' := by
  simp [total]

theorem total_cons (d : Dir) (x : Item σ E) (l : List (Item σ E)) :
    total ops d (x :: l) = weight ops d x + total ops d l := by
  simp [total]

/-- The loop ends, and afterwards every item that is not flagged stands at its first entry
    beyond `k`. -/
theorem loop_spec (hl : Laws p ops C) {m : Mode} {d : Dir} (hc : m.can d) (hm : m.after d = m)
    {k : O} {P : Nat → E → Prop} {e : E} (he : p.ord e = k) :
    ∀ (n : Nat) (passed rest : List (Item σ E)),
      (∀ x ∈ passed ++ rest, Pre p C m d k (P x.id) x) →
      (∀ x ∈ passed, x.flag d = true) →
      (walk d (passed ++ rest)).Pairwise (fun a b => before p a b = true) →
      ((passed ++ rest).map (·.id)).Nodup →
      ((∃ x ∈ passed ++ rest, x.last = e) ∨
        ∃ x ∈ passed ++ rest, x.flag d = false ∧ dlt d k (p.ord x.last)) →
      total ops d (passed ++ rest) * ((passed ++ rest).length + 1) + rest.length + 1 ≤ n →
      ∃ w, loop p ops d k n passed rest = some w ∧
        (w.map (·.id)).Perm ((passed ++ rest).map (·.id)) ∧
        (walk d w).Pairwise (fun a b => before p a b = true) ∧
        (∀ x ∈ w, Pre p C m d k (P x.id) x) ∧
        (∀ x ∈ w, x.flag d = false → dlt d k (p.ord x.last)) ∧
        ((∃ x ∈ w, x.last = e) ∨ ∃ x ∈ w, x.flag d = false ∧ dlt d k (p.ord x.last)) ∧
        total ops d w ≤ total ops d (passed ++ rest) ∧
        ((∃ x ∈ passed ++ rest, x.flag d = false ∧ ¬ dlt d k (p.ord x.last)) →
          total ops d w < total ops d (passed ++ rest)) := by
  intro n
  induction n with
  | zero => intro passed rest _ _ _ _ _ hn; omega
  | succ n ih =>
    intro passed rest hpre hpf hs hnd hJ hn
    cases rest with
    | nil =>
      refine ⟨passed, rfl, ?_, ?_, ?_, ?_, ?_, ?_, ?_⟩
      · simp
      · simpa using hs
      · simpa using hpre
      · intro x hx hf; rw [hpf x hx] at hf; cases hf
      · simpa using hJ
      · simp
      · rintro ⟨x, hx, hf, _⟩
        rw [List.append_nil] at hx
        rw [hpf x hx] at hf; cases hf
    | cons x rest =>
      have hx := hpre x (by simp)
      simp only [loop]
      cases hf : x.flag d
      · -- not flagged
        simp only [Bool.false_eq_true, if_false]
        by_cases hk : dlt d k (p.ord x.last)
        · -- everything from here on is beyond `k`
          rw [if_pos hk]
          refine ⟨_, rfl, List.Perm.refl _, hs, hpre, ?_, hJ, Nat.le_refl _, ?_⟩
          · intro y hy hyf
            rcases List.mem_append.1 hy with hy | hy
            · rw [hpf y hy] at hyf; cases hyf
            · rcases List.mem_cons.1 hy with hy | hy
              · subst hy; exact hk
              · -- sorted
                have hxy : ¬ dlt d (p.ord y.last) (p.ord x.last) := by
                  cases d
                  · simp only [walk] at hs
                    have := (List.pairwise_cons.1 (List.pairwise_append.1 hs).2.1).1 y hy
                    exact before_ord p this
                  · simp only [walk, List.reverse_append, List.reverse_cons] at hs
                    have h1 := (List.pairwise_append.1 hs).1
                    have h2 := (List.pairwise_append.1 h1).2.2 y (by simpa using hy) x (by simp)
                    exact before_ord p h2
                exact dlt_of_lt_le hk hxy
          · rintro ⟨y, hy, hyf, hyk⟩
            exfalso
            rcases List.mem_append.1 hy with hy | hy
            · rw [hpf y hy] at hyf; cases hyf
            · rcases List.mem_cons.1 hy with hy | hy
              · subst hy; exact hyk hk
              · have hxy : ¬ dlt d (p.ord y.last) (p.ord x.last) := by
                  cases d
                  · simp only [walk] at hs
                    have := (List.pairwise_cons.1 (List.pairwise_append.1 hs).2.1).1 y hy
                    exact before_ord p this
                  · simp only [walk, List.reverse_append, List.reverse_cons] at hs
                    have h1 := (List.pairwise_append.1 hs).1
                    have h2 := (List.pairwise_append.1 h1).2.2 y (by simpa using hy) x (by simp)
                    exact before_ord p h2
                exact hyk (dlt_of_lt_le hk hxy)
        · rw [if_neg hk]
          obtain ⟨hrep, hfirst⟩ := hx.un hf
          rcases hl.step hrep hc with ⟨s', e', hst, hnext, hrep', hleft⟩ | ⟨s', hst, hend, hrep', hleft⟩
          · -- the child moved
            rw [hst]
            simp only [hl.get hrep']
            rw [hm] at hrep'
            generalize hx' : ({ x with cur := s', last := e', noPrev := false, noNext := false } :
              Item σ E) = x'
            have hx'c : x'.cur = s' := by rw [← hx']
            have hx'l : x'.last = e' := by rw [← hx']
            have hx'i : x'.id = x.id := by rw [← hx']
            have hx'f : ∀ d, x'.flag d = false := by intro d; rw [← hx']; cases d <;> rfl
            have hperm : (walk d (ins p x' (walk d (passed ++ rest)))).Perm (x' :: (passed ++ rest)) :=
              (walk_perm d _).trans ((perm_ins p x' _).trans (List.Perm.cons x' (walk_perm d _)))
            have hmid : (passed ++ x :: rest).Perm (x :: (passed ++ rest)) := List.perm_middle
            have hids : ((walk d (ins p x' (walk d (passed ++ rest)))).map (·.id)).Perm
                ((passed ++ x :: rest).map (·.id)) := by
              refine (hperm.map _).trans ?_
              simp only [List.map_cons, hx'i]
              exact (hmid.map (·.id)).symm
            have htot : total ops d (walk d (ins p x' (walk d (passed ++ rest)))) <
                total ops d (passed ++ x :: rest) := by
              rw [total_perm hperm, total_perm hmid, total_cons, total_cons,
                weight_unflagged (hx'f d), weight_unflagged hf, hx'c]
              omega
            have hlen : (walk d (ins p x' (walk d (passed ++ rest)))).length =
                (passed ++ x :: rest).length := by
              rw [hperm.length_eq, hmid.length_eq]; simp
            have hnd' : ((x :: (passed ++ rest)).map (·.id)).Nodup := (hmid.map _).nodup hnd
            have hlb : ¬ dlt d (p.ord x.last) k → dlt d k (p.ord e') := by
              intro _; exact dlt_of_le_lt (by assumption) hnext.2.1
            obtain ⟨w, h1, h2, h3, h4, h5, h6, h7, h8⟩ := ih []
              (walk d (ins p x' (walk d (passed ++ rest)))) (by
                intro y hy
                rw [List.nil_append] at hy
                rcases List.mem_cons.1 (hperm.mem_iff.1 hy) with hy | hy
                · subst hy
                  rw [hx'i]
                  refine ⟨hx'c ▸ hl.own hrep', ⟨e', hl.mem hrep', by rw [hx'l]⟩, ?_, ?_, ?_⟩
                  · intro _
                    rw [hx'c, hx'l]
                    refine ⟨hrep', fun _ y hy hky => ?_⟩
                    exact hnext.2.2 y hy (dlt_of_le_lt hk hky)
                  · intro hh; rw [hx'f] at hh; cases hh
                  · have hfl := hx.flags
                    revert hfl
                    cases m with
                    | fresh d' => intro _; exact hx'f _
                    | only d' => intro _; trivial
                    | free =>
                      rintro ⟨_, hab⟩
                      exact ⟨fun d' hh => absurd hh (by rw [hx'f]; decide), hab⟩
                · exact hpre y (by
                    rcases List.mem_append.1 hy with hy | hy <;> simp [hy]))
              (by intro y hy; cases hy)
              (by
                rw [List.nil_append, walk_walk]
                apply sorted_ins
                · refine List.Pairwise.sublist ?_ hs
                  cases d
                  · exact (List.Sublist.append_left (List.sublist_cons_self x rest) passed)
                  · simp only [walk]
                    exact (List.Sublist.append_left (List.sublist_cons_self x rest) passed).reverse
                · intro y hy
                  rw [mem_walk] at hy
                  rw [hx'i]
                  simp only [List.map_cons, List.nodup_cons, List.mem_map, not_exists, not_and] at hnd'
                  exact hnd'.1 y hy)
              (by rw [List.nil_append]; exact hids.symm.nodup hnd)
              (by
                rw [List.nil_append]
                by_cases hxe : x.last = e
                · right
                  refine ⟨x', hperm.mem_iff.2 List.mem_cons_self, hx'f d, ?_⟩
                  rw [hx'l]
                  have := hnext.2.1
                  rw [hxe, he] at this
                  exact this
                · rcases hJ with ⟨y, hy, hye⟩ | ⟨y, hy, hyf, hyk⟩
                  · left
                    have hyx : y ≠ x := fun hh => hxe (hh ▸ hye)
                    have : y ∈ passed ++ rest := by
                      rcases List.mem_append.1 hy with hy | hy
                      · simp [hy]
                      · rcases List.mem_cons.1 hy with hy | hy
                        · exact absurd hy hyx
                        · simp [hy]
                    exact ⟨y, hperm.mem_iff.2 (List.mem_cons_of_mem _ this), hye⟩
                  · right
                    have hyx : y ≠ x := fun hh => hk (hh ▸ hyk)
                    have : y ∈ passed ++ rest := by
                      rcases List.mem_append.1 hy with hy | hy
                      · simp [hy]
                      · rcases List.mem_cons.1 hy with hy | hy
                        · exact absurd hy hyx
                        · simp [hy]
                    exact ⟨y, hperm.mem_iff.2 (List.mem_cons_of_mem _ this), hyf, hyk⟩)
              (by
                rw [List.nil_append, hlen]
                have h1 : total ops d (walk d (ins p x' (walk d (passed ++ rest)))) + 1 ≤
                  total ops d (passed ++ x :: rest) := htot
                have h2 := Nat.mul_le_mul_right ((passed ++ x :: rest).length + 1) h1
                rw [Nat.add_mul, Nat.one_mul] at h2
                simp only [List.length_cons] at hn
                omega)
            rw [List.nil_append] at h2 h7
            exact ⟨w, h1, h2.trans hids, h3, h4, h5, h6, by omega, fun _ => by omega⟩
          · -- the child is at its end
            rw [hst]
            simp only
            rw [hm] at hrep'
            generalize hx' : (({ x with cur := s' } : Item σ E).setFlag d) = x'
            have hx'c : x'.cur = s' := by rw [← hx', setFlag_cur]
            have hx'l : x'.last = x.last := by rw [← hx', setFlag_last]
            have hx'i : x'.id = x.id := by rw [← hx', setFlag_id]
            have hx'f : x'.flag d = true := by rw [← hx', setFlag_flag]
            have hx'o : x'.flag d.opp = x.flag d.opp := by
              rw [← hx', setFlag_flag_opp]; cases d <;> rfl
            have hsame : (passed ++ [x']) ++ rest = passed ++ x' :: rest := by simp
            have hids : (((passed ++ [x']) ++ rest).map (·.id)) = ((passed ++ x :: rest).map (·.id)) := by
              rw [hsame]; simp [hx'i]
            have htot : total ops d ((passed ++ [x']) ++ rest) < total ops d (passed ++ x :: rest) := by
              rw [hsame, total_append, total_append, total_cons, total_cons, weight_flagged hx'f,
                weight_unflagged hf, hx'c]
              omega
            obtain ⟨w, h1, h2, h3, h4, h5, h6, h7, h8⟩ := ih (passed ++ [x']) rest (by
                intro y hy
                rw [hsame] at hy
                rcases List.mem_append.1 hy with hy | hy
                · exact hpre y (by simp [hy])
                · rcases List.mem_cons.1 hy with hy | hy
                  · subst hy
                    rw [hx'i]
                    refine ⟨hx'c ▸ hl.own hrep', ⟨x.last, hl.mem hrep', by rw [hx'l]⟩, ?_, ?_, ?_⟩
                    · intro hh; rw [hx'f] at hh; cases hh
                    · intro _
                      refine ⟨?_, ?_, ?_, ?_⟩
                      · intro z hz hkz
                        exact hend z hz (dlt_of_le_lt hk hkz)
                      · rw [hx'l]; exact hk
                      · rw [hx'l]; exact Or.inl (hl.mem hrep)
                      · intro _; rw [hx'c, hx'l]; exact ⟨hrep', hend⟩
                    · have hfl := hx.flags
                      revert hfl hm hc
                      cases m with
                      | fresh d' =>
                        intro hc hm hfl
                        have hdd : d = d' := by
                          by_contra hne
                          simp only [Mode.after, if_neg hne] at hm
                          cases hm
                        subst hdd
                        show y.flag d.opp = false
                        rw [hx'o]; exact hfl
                      | only d' => intro _ _ _; trivial
                      | free =>
                        rintro _ _ ⟨hends, hab⟩
                        refine ⟨fun d' hh => ?_, hab⟩
                        rw [hx'l]
                        rcases d'.eq_or_opp d with hd | hd
                        · subst hd; exact hend
                        · subst hd
                          rw [hx'o] at hh
                          exact hends _ hh
                  · exact hpre y (by simp [hy]))
              (by
                intro y hy
                rcases List.mem_append.1 hy with hy | hy
                · exact hpf y hy
                · rw [List.mem_singleton] at hy; subst hy; exact hx'f)
              (by
                rw [hsame]
                have hcong : ∀ l : List (Item σ E), (∀ y ∈ l, before p y x = before p y x') ∧
                    (∀ y ∈ l, before p x y = before p x' y) := fun l =>
                  ⟨fun y _ => before_congr p rfl rfl hx'l.symm hx'i.symm,
                   fun y _ => before_congr p hx'l.symm hx'i.symm rfl rfl⟩
                cases d
                · simp only [walk] at hs ⊢
                  obtain ⟨a1, a2, a3⟩ := List.pairwise_append.1 hs
                  obtain ⟨b1, b2⟩ := List.pairwise_cons.1 a2
                  refine List.pairwise_append.2 ⟨a1, List.pairwise_cons.2 ⟨?_, b2⟩, ?_⟩
                  · intro y hy; rw [← (hcong rest).2 y hy]; exact b1 y hy
                  · intro y hy z hz
                    rcases List.mem_cons.1 hz with hz | hz
                    · subst hz; rw [← (hcong passed).1 y hy]; exact a3 y hy x List.mem_cons_self
                    · exact a3 y hy z (List.mem_cons_of_mem _ hz)
                · simp only [walk, List.reverse_append, List.reverse_cons] at hs ⊢
                  obtain ⟨a1, a2, a3⟩ := List.pairwise_append.1 hs
                  obtain ⟨b1, _, b3⟩ := List.pairwise_append.1 a1
                  refine List.pairwise_append.2 ⟨List.pairwise_append.2 ⟨b1, by simp, ?_⟩, a2, ?_⟩
                  · intro y hy z hz
                    rw [List.mem_singleton] at hz; subst hz
                    rw [← (hcong rest.reverse).1 y hy]
                    exact b3 y hy x (by simp)
                  · intro y hy z hz
                    rcases List.mem_append.1 hy with hy | hy
                    · exact a3 y (by simp [List.mem_reverse.1 hy]) z hz
                    · rw [List.mem_singleton] at hy; subst hy
                      rw [← (hcong passed.reverse).2 z hz]
                      exact a3 x (by simp) z hz)
              (by rw [hids]; exact hnd)
              (by
                rw [hsame]
                rcases hJ with ⟨y, hy, hye⟩ | ⟨y, hy, hyf, hyk⟩
                · left
                  by_cases hyx : y = x
                  · exact ⟨x', by simp, by rw [hx'l, ← hyx]; exact hye⟩
                  · refine ⟨y, ?_, hye⟩
                    rcases List.mem_append.1 hy with hy | hy
                    · simp [hy]
                    · rcases List.mem_cons.1 hy with hy | hy
                      · exact absurd hy hyx
                      · simp [hy]
                · right
                  have hyx : y ≠ x := fun hh => hk (hh ▸ hyk)
                  refine ⟨y, ?_, hyf, hyk⟩
                  rcases List.mem_append.1 hy with hy | hy
                  · simp [hy]
                  · rcases List.mem_cons.1 hy with hy | hy
                    · exact absurd hy hyx
                    · simp [hy])
              (by
                have hlen : ((passed ++ [x']) ++ rest).length = (passed ++ x :: rest).length := by simp
                rw [hlen]
                have h2 := Nat.mul_le_mul_right ((passed ++ x :: rest).length + 1) (Nat.le_of_lt htot)
                simp only [List.length_cons] at hn
                omega)
            rw [hids] at h2
            exact ⟨w, h1, h2, h3, h4, h5, h6, by omega, fun _ => by omega⟩
      · -- flagged
        simp only [if_true]
        have hsame : (passed ++ [x]) ++ rest = passed ++ x :: rest := by simp
        have := ih (passed ++ [x]) rest (by rw [hsame]; exact hpre)
          (by
            intro y hy
            rcases List.mem_append.1 hy with hy | hy
            · exact hpf y hy
            · rw [List.mem_singleton] at hy; subst hy; exact hf)
          (by rw [hsame]; exact hs) (by rw [hsame]; exact hnd) (by rw [hsame]; exact hJ)
          (by rw [hsame]; simp only [List.length_cons] at hn; omega)
        rw [hsame] at this
        exact this

end Steps
end Jungle.Iter
