/-
  The merging iterator satisfies the laws of a cursor over the merged contents of its children.
-/
import Verif.Iter.MergeLemmas

set_option linter.unusedSectionVars false

namespace Jungle.Iter
variable {σ E O : Type} [LinearOrder O]

/-- The merged contents: for every position the entry of the highest rank. -/
def Merged (p : Par E O) (ids : List Nat) (P : Nat → E → Prop) (e : E) : Prop :=
  (∃ i ∈ ids, P i e) ∧ ∀ i ∈ ids, ∀ e', P i e' → p.ord e' = p.ord e → p.rank e' ≤ p.rank e

structure Shape (p : Par E O) (P : Nat → E → Prop) (w : List (Item σ E)) (Q : E → Prop) : Prop where
  nodup : (w.map (·.id)).Nodup
  ne : w ≠ []
  sorted : w.Pairwise (fun a b => before p a b = true)
  q : ∀ x, Q x ↔ Merged p (w.map (·.id)) P x
  coh : ∀ i ∈ w.map (·.id), ∀ j ∈ w.map (·.id), ∀ x y, P i x → P j y → p.ord x = p.ord y →
    p.rank x = p.rank y → x = y

/-- The merging iterator as a cursor. -/
def mergeSpec (p : Par E O) (C : CSpec σ E O) : CSpec (Itr σ E) E O where
  Rep := fun it Q e m => ∃ P : Nat → E → Prop, Shape p P it.win Q ∧ it.cur = some e ∧ Q e ∧
    (∃ x ∈ it.win, x.last = e) ∧
    ∀ d, m.can d → ∀ x ∈ it.win, Pre p C (m.after d) d (p.ord e) (P x.id) x
  Own := fun it Q fr => ∃ P : Nat → E → Prop, Shape p P it.win Q ∧
    ∀ x ∈ it.win, C.Own x.cur (P x.id) fr ∧ ∃ y, P x.id y ∧ p.ord y = p.ord x.last
  Low := fun it Q k => ∃ P : Nat → E → Prop, Shape p P it.win Q ∧
    ∀ x ∈ it.win, C.Low x.cur (P x.id) k ∧ ∃ y, P x.id y ∧ p.ord y = p.ord x.last
  KOk := C.KOk

section
variable {p : Par E O} {ops : Ops σ E O} {C : CSpec σ E O}

theorem exists_top (P : Nat → E → Prop) (o : O) (ids : List Nat)
    (hinj : ∀ i ∈ ids, ∀ a b, P i a → P i b → p.ord a = p.ord b → a = b)
    (h : ∃ i ∈ ids, ∃ e, P i e ∧ p.ord e = o) :
    ∃ i ∈ ids, ∃ e, P i e ∧ p.ord e = o ∧
      ∀ j ∈ ids, ∀ e', P j e' → p.ord e' = o → p.rank e' ≤ p.rank e := by
  induction ids with
  | nil => obtain ⟨i, hi, _⟩ := h; cases hi
  | cons i ids ih =>
    by_cases hr : ∃ i ∈ ids, ∃ e, P i e ∧ p.ord e = o
    · obtain ⟨j, hj, e, he, heo, hmax⟩ := ih (fun i hi => hinj i (List.mem_cons_of_mem _ hi)) hr
      by_cases hi : ∃ e', P i e' ∧ p.ord e' = o ∧ p.rank e < p.rank e'
      · obtain ⟨e', he', heo', hlt⟩ := hi
        refine ⟨i, List.mem_cons_self, e', he', heo', ?_⟩
        intro j' hj' e'' he'' heo''
        rcases List.mem_cons.1 hj' with hj' | hj'
        · subst hj'
          rw [hinj j' List.mem_cons_self e'' e' he'' he' (heo''.trans heo'.symm)]; exact Nat.le_refl _
        · have := hmax j' hj' e'' he'' heo''; omega
      · refine ⟨j, List.mem_cons_of_mem _ hj, e, he, heo, ?_⟩
        intro j' hj' e'' he'' heo''
        rcases List.mem_cons.1 hj' with hj' | hj'
        · subst hj'
          by_contra hlt
          exact hi ⟨e'', he'', heo'', by omega⟩
        · exact hmax j' hj' e'' he'' heo''
    · obtain ⟨j, hj, e, he, heo⟩ := h
      rcases List.mem_cons.1 hj with hj | hj
      · subst hj
        refine ⟨j, List.mem_cons_self, e, he, heo, ?_⟩
        intro j' hj' e'' he'' heo''
        rcases List.mem_cons.1 hj' with hj' | hj'
        · subst hj'
          rw [hinj j' List.mem_cons_self e'' e he'' he (heo''.trans heo.symm)]; exact Nat.le_refl _
        · exact absurd ⟨j', hj', e'', he'', heo''⟩ hr
      · exact absurd ⟨j, hj, e, he, heo⟩ hr

theorem Shape.exists_q {P : Nat → E → Prop} {w : List (Item σ E)} {Q : E → Prop} (h : Shape p P w Q)
    (hinj : ∀ x ∈ w, ∀ a b, P x.id a → P x.id b → p.ord a = p.ord b → a = b)
    {x : Item σ E} (hx : x ∈ w) {y : E} (hy : P x.id y) : ∃ e, Q e ∧ p.ord e = p.ord y := by
  obtain ⟨i, hi, e, he, heo, hmax⟩ := exists_top (p := p) P (p.ord y) (w.map (·.id)) (by
      intro i hi
      obtain ⟨z, hz, rfl⟩ := List.mem_map.1 hi
      exact hinj z hz)
    ⟨x.id, List.mem_map_of_mem hx, y, hy, rfl⟩
  exact ⟨e, (h.q e).2 ⟨⟨i, hi, he⟩, fun j hj e' he' heo' => hmax j hj e' he' (heo'.trans heo)⟩, heo⟩

theorem Shape.inj {P : Nat → E → Prop} {w : List (Item σ E)} {Q : E → Prop} (h : Shape p P w Q) :
    ∀ a b, Q a → Q b → p.ord a = p.ord b → a = b := by
  intro a b ha hb hab
  obtain ⟨⟨i, hi, hia⟩, hma⟩ := (h.q a).1 ha
  obtain ⟨⟨j, hj, hjb⟩, hmb⟩ := (h.q b).1 hb
  have h1 := hma j hj b hjb hab.symm
  have h2 := hmb i hi a hia hab
  exact h.coh i hi j hj a b hia hjb hab (by omega)

/-- Only the set of children matters. -/
theorem Shape.perm {P : Nat → E → Prop} {w w' : List (Item σ E)} {Q : E → Prop} (h : Shape p P w Q)
    (hp : (w'.map (·.id)).Perm (w.map (·.id))) (hs : w'.Pairwise (fun a b => before p a b = true)) :
    Shape p P w' Q := by
  refine ⟨hp.symm.nodup h.nodup, ?_, hs, ?_, ?_⟩
  · intro hw
    subst hw
    have := hp.length_eq
    simp only [List.map_nil, List.length_nil, List.length_map] at this
    exact h.ne (List.length_eq_zero_iff.1 this.symm)
  · intro x
    rw [h.q x]
    unfold Merged
    simp only [hp.mem_iff]
  · intro i hi j hj
    exact h.coh i (hp.mem_iff.1 hi) j (hp.mem_iff.1 hj)

theorem Merged.iff_of_item {P : Nat → E → Prop} {w : List (Item σ E)} {e : E} :
    Merged p (w.map (·.id)) P e ↔ (∃ x ∈ w, P x.id e) ∧
      ∀ x ∈ w, ∀ e', P x.id e' → p.ord e' = p.ord e → p.rank e' ≤ p.rank e := by
  unfold Merged
  simp only [List.mem_map]
  constructor
  · rintro ⟨⟨i, ⟨x, hx, rfl⟩, he⟩, h2⟩
    exact ⟨⟨x, hx, he⟩, fun y hy => h2 _ ⟨y, hy, rfl⟩⟩
  · rintro ⟨⟨x, hx, he⟩, h2⟩
    refine ⟨⟨x.id, ⟨x, hx, rfl⟩, he⟩, ?_⟩
    rintro i ⟨y, hy, rfl⟩
    exact h2 y hy

/-- A state described by `ItemOk`. -/
theorem rep_ofItemOk (hl : Laws p ops C) {P : Nat → E → Prop} {it : Itr σ E} {Q : E → Prop} {e : E}
    {m : Mode} {d : Dir} (hs : Shape p P it.win Q) (hc : it.cur = some e) (hq : Q e)
    (hat : ∃ x ∈ it.win, x.last = e) (hm : m = .fresh d ∨ m = .only d ∨ m = .free)
    (hi : ∀ x ∈ it.win, ItemOk p C m d (p.ord e) (P x.id) x) : (mergeSpec p C).Rep it Q e m :=
  ⟨P, hs, hc, hq, hat, fun _ hc' x hx => (hi x hx).pre hl hm hc'⟩

/-- The item that a move chooses: the first in the direction, of the highest rank. -/
structure Chosen (p : Par E O) (d : Dir) (w : List (Item σ E)) (x : Item σ E) : Prop where
  mem : x ∈ w
  un : x.flag d = false
  first : ∀ y ∈ w, y.flag d = false → ¬ dlt d (p.ord y.last) (p.ord x.last)
  rank : ∀ y ∈ w, y.flag d = false → p.ord y.last = p.ord x.last → p.rank y.last ≤ p.rank x.last

theorem chosen_find {d : Dir} {R : Item σ E → Item σ E → Prop} {f : Item σ E → Bool}
    {w : List (Item σ E)} {x : Item σ E} (hs : w.Pairwise R)
    (hR : ∀ a b, R a b → ¬ dlt d (p.ord b.last) (p.ord a.last) ∧
      (p.ord a.last = p.ord b.last → p.rank b.last ≤ p.rank a.last))
    (hf : ∀ y ∈ w, f y = !y.flag d) (h : w.find? f = some x) : Chosen p d w x := by
  induction w with
  | nil => simp at h
  | cons y w ih =>
    obtain ⟨hy, hw⟩ := List.pairwise_cons.1 hs
    have hfy := hf y List.mem_cons_self
    rw [List.find?_cons] at h
    cases hb : f y
    · rw [hb] at h
      simp only at h
      have := ih hw (fun z hz => hf z (List.mem_cons_of_mem _ hz)) h
      have hyf : y.flag d = true := by rw [hb] at hfy; simpa using hfy.symm
      refine ⟨List.mem_cons_of_mem _ this.mem, this.un, ?_, ?_⟩
      · intro z hz hzf
        rcases List.mem_cons.1 hz with hz | hz
        · subst hz; rw [hyf] at hzf; cases hzf
        · exact this.first z hz hzf
      · intro z hz hzf
        rcases List.mem_cons.1 hz with hz | hz
        · subst hz; rw [hyf] at hzf; cases hzf
        · exact this.rank z hz hzf
    · rw [hb] at h
      simp only [Option.some.injEq] at h
      subst h
      refine ⟨List.mem_cons_self, by rw [hb] at hfy; simpa using hfy.symm, ?_, ?_⟩
      · intro z hz _
        rcases List.mem_cons.1 hz with hz | hz
        · subst hz; exact dlt_irrefl _ _
        · exact (hR _ _ (hy z hz)).1
      · intro z hz _ he
        rcases List.mem_cons.1 hz with hz | hz
        · subst hz; exact Nat.le_refl _
        · exact (hR _ _ (hy z hz)).2 he.symm

theorem before_R (hr : p.byKey = false → ∀ a b, p.rank a = p.rank b) (a b : Item σ E)
    (h : before p a b = true) : ¬ dlt .fwd (p.ord b.last) (p.ord a.last) ∧
      (p.ord a.last = p.ord b.last → p.rank b.last ≤ p.rank a.last) := by
  refine ⟨before_ord p h, fun he => ?_⟩
  cases hk : p.byKey
  · exact Nat.le_of_eq (hr hk _ _)
  · exact before_rank p h hk he

/-- The result of the search of `prev` BY_KEY. -/
theorem scanPrev_some (hk : p.byKey = true) {k : O} :
    ∀ (l : List (Item σ E)) (x : Item σ E), x.flag .bwd = false → p.ord x.last < k →
      (x :: l).Pairwise (fun a b => before p b a = true) →
      (∀ y ∈ l, y.flag .bwd = false → p.ord y.last < k) →
      (∀ y ∈ l, y.flag .bwd = true → ¬ p.ord y.last < k) →
      ∃ z, scanPrev p k (some x.last) l = some z.last ∧ Chosen p .bwd (x :: l) z := by
  intro l
  induction l with
  | nil =>
    intro x hx hxk _ _ _
    refine ⟨x, rfl, by simp, hx, ?_, ?_⟩
    · intro y hy _; rw [List.mem_singleton] at hy; subst hy; exact dlt_irrefl _ _
    · intro y hy _ _; rw [List.mem_singleton] at hy; subst hy; exact Nat.le_refl _
  | cons y l ih =>
    intro x hx hxk hs h1 h2
    obtain ⟨hx1, hs'⟩ := List.pairwise_cons.1 hs
    obtain ⟨hy1, _⟩ := List.pairwise_cons.1 hs'
    have hyx := before_ord p (hx1 y List.mem_cons_self)
    simp only [scanPrev]
    by_cases hlt : p.ord y.last < p.ord x.last
    · rw [if_pos hlt]
      refine ⟨x, rfl, List.mem_cons_self, hx, ?_, ?_⟩
      · intro z hz _ hd
        rcases List.mem_cons.1 hz with hz | hz
        · subst hz; exact dlt_irrefl _ _ hd
        · exact before_ord p (hx1 z hz) hd
      · intro z hz _ he
        rcases List.mem_cons.1 hz with hz | hz
        · subst hz; exact Nat.le_refl _
        · exfalso
          rcases List.mem_cons.1 hz with hz | hz
          · subst hz; exact absurd he (ne_of_lt hlt)
          · have := before_ord p (hy1 z hz)
            rw [he] at this
            exact this hlt
    · rw [if_neg hlt]
      have heq : p.ord y.last = p.ord x.last := le_antisymm (not_lt.1 hyx) (not_lt.1 hlt)
      have hyk : p.ord y.last < k := by rw [heq]; exact hxk
      have hyf : y.flag .bwd = false := by
        cases hyf : y.flag .bwd
        · rfl
        · exact absurd hyk (h2 y List.mem_cons_self hyf)
      have hv : validItem p .bwd k y = true := by
        simp [validItem, hyf, ne_of_lt hyk]
      rw [if_pos hv]
      obtain ⟨z, hz, hc⟩ := ih y hyf hyk hs' (fun z hz => h1 z (List.mem_cons_of_mem _ hz))
        (fun z hz => h2 z (List.mem_cons_of_mem _ hz))
      refine ⟨z, hz, List.mem_cons_of_mem _ hc.mem, hc.un, ?_, ?_⟩
      · intro u hu huf
        rcases List.mem_cons.1 hu with hu | hu
        · subst hu; rw [← heq]; exact hc.first y List.mem_cons_self hyf
        · exact hc.first u hu huf
      · intro u hu huf he
        rcases List.mem_cons.1 hu with hu | hu
        · subst hu
          have h3 := hc.rank y List.mem_cons_self hyf (heq.trans he)
          have h4 := before_rank p (hx1 y List.mem_cons_self) hk heq
          omega
        · exact hc.rank u hu huf he

theorem scanPrev_none (hk : p.byKey = true) {k : O} :
    ∀ (l : List (Item σ E)), l.Pairwise (fun a b => before p b a = true) →
      (∀ y ∈ l, y.flag .bwd = false → p.ord y.last < k) →
      (∀ y ∈ l, y.flag .bwd = true → ¬ p.ord y.last < k) →
      (∃ z, scanPrev p k none l = some z.last ∧ Chosen p .bwd l z) ∨
      (scanPrev p k none l = none ∧ ∀ y ∈ l, y.flag .bwd = true) := by
  intro l
  induction l with
  | nil => intro _ _ _; right; exact ⟨rfl, by simp⟩
  | cons x l ih =>
    intro hs h1 h2
    obtain ⟨hx1, hs'⟩ := List.pairwise_cons.1 hs
    have h1' : ∀ y ∈ l, y.flag .bwd = false → p.ord y.last < k :=
      fun z hz => h1 z (List.mem_cons_of_mem _ hz)
    have h2' : ∀ y ∈ l, y.flag .bwd = true → ¬ p.ord y.last < k :=
      fun z hz => h2 z (List.mem_cons_of_mem _ hz)
    simp only [scanPrev]
    cases hf : x.flag .bwd
    · have hxk := h1 x List.mem_cons_self hf
      have hv : validItem p .bwd k x = true := by simp [validItem, hf, ne_of_lt hxk]
      rw [if_pos hv]
      obtain ⟨z, hz, hc⟩ := scanPrev_some hk l x hf hxk hs h1' h2'
      exact Or.inl ⟨z, hz, hc⟩
    · have hv : validItem p .bwd k x = false := by simp [validItem, hf]
      rw [if_neg (by rw [hv]; decide)]
      rcases ih hs' h1' h2' with ⟨z, hz, hc⟩ | ⟨hz, hall⟩
      · left
        refine ⟨z, hz, List.mem_cons_of_mem _ hc.mem, hc.un, ?_, ?_⟩
        · intro u hu huf
          rcases List.mem_cons.1 hu with hu | hu
          · subst hu; rw [hf] at huf; cases huf
          · exact hc.first u hu huf
        · intro u hu huf he
          rcases List.mem_cons.1 hu with hu | hu
          · subst hu; rw [hf] at huf; cases huf
          · exact hc.rank u hu huf he
      · right
        refine ⟨hz, ?_⟩
        intro y hy
        rcases List.mem_cons.1 hy with hy | hy
        · subst hy; exact hf
        · exact hall y hy

/-- Where `moveToLastValid` ends. -/
theorem lastValid_spec (hr : p.byKey = false → ∀ a b, p.rank a = p.rank b) :
    ∀ (l : List (Item σ E)), l ≠ [] → l.Pairwise (fun a b => before p b a = true) →
      ∃ x ∈ l, lastValid p l = some x.last ∧ (∀ y ∈ l, ¬ p.ord x.last < p.ord y.last) ∧
        ∀ y ∈ l, p.ord y.last = p.ord x.last → p.rank y.last ≤ p.rank x.last := by
  intro l
  induction l with
  | nil => intro h; exact absurd rfl h
  | cons x l ih =>
    intro _ hs
    obtain ⟨hx1, hs'⟩ := List.pairwise_cons.1 hs
    cases l with
    | nil =>
      refine ⟨x, by simp, rfl, ?_, ?_⟩
      · intro y hy; rw [List.mem_singleton] at hy; subst hy; exact lt_irrefl _
      · intro y hy _; rw [List.mem_singleton] at hy; subst hy; exact Nat.le_refl _
    | cons y l =>
      obtain ⟨hy1, _⟩ := List.pairwise_cons.1 hs'
      simp only [lastValid]
      by_cases hc : (p.byKey && decide (p.ord x.last = p.ord y.last)) = true
      · rw [if_pos hc]
        rw [Bool.and_eq_true, decide_eq_true_eq] at hc
        obtain ⟨z, hz, h1, h2, h3⟩ := ih (by simp) hs'
        refine ⟨z, List.mem_cons_of_mem _ hz, h1, ?_, ?_⟩
        · intro u hu
          rcases List.mem_cons.1 hu with hu | hu
          · subst hu; rw [hc.2]; exact h2 y List.mem_cons_self
          · exact h2 u hu
        · intro u hu he
          rcases List.mem_cons.1 hu with hu | hu
          · subst hu
            have h4 := h3 y List.mem_cons_self (hc.2.symm.trans he)
            have h5 := before_rank p (hx1 y List.mem_cons_self) hc.1 hc.2.symm
            omega
          · exact h3 u hu he
      · rw [if_neg hc]
        refine ⟨x, List.mem_cons_self, rfl, ?_, ?_⟩
        · intro u hu
          rcases List.mem_cons.1 hu with hu | hu
          · subst hu; exact lt_irrefl _
          · exact before_ord p (hx1 u hu)
        · intro u hu he
          rcases List.mem_cons.1 hu with hu | hu
          · subst hu; exact Nat.le_refl _
          · cases hk : p.byKey
            · exact Nat.le_of_eq (hr hk _ _)
            · exfalso
              rw [hk, Bool.true_and, decide_eq_true_eq] at hc
              apply hc
              rcases List.mem_cons.1 hu with hu | hu
              · subst hu; exact he.symm
              · have h6 := before_ord p (hy1 u hu)
                rw [he] at h6
                have h7 := before_ord p (hx1 y List.mem_cons_self)
                exact le_antisymm (not_lt.1 h6) (not_lt.1 h7)

/-- The move succeeded. -/
theorem finish_ok (hl : Laws p ops C) {P : Nat → E → Prop} {w : List (Item σ E)} {Q : E → Prop} {e : E}
    {m : Mode} {d : Dir} {x : Item σ E} (hs : Shape p P w Q)
    (hm : m = .fresh d ∨ m = .only d ∨ m = .free)
    (hpre : ∀ y ∈ w, Pre p C m d (p.ord e) (P y.id) y)
    (hpost : ∀ y ∈ w, y.flag d = false → dlt d (p.ord e) (p.ord y.last)) (hx : Chosen p d w x) :
    (mergeSpec p C).Rep { win := w, cur := some x.last } Q x.last m ∧ NextIn p d Q e x.last := by
  have hxk := hpost x hx.mem hx.un
  have hxP : P x.id x.last := hl.mem ((hpre x hx.mem).un hx.un).1
  have hxQ : Q x.last := by
    rw [hs.q, Merged.iff_of_item]
    refine ⟨⟨x, hx.mem, hxP⟩, ?_⟩
    intro y hy e' he' heo
    cases hf : y.flag d
    · have h1 := (hpre y hy).un hf
      have h2 := h1.2 (hpost y hy hf) e' he' (by rw [heo]; exact hxk)
      have h3 := hx.first y hy hf
      rw [← heo] at h3
      have h4 := eq_of_not_dlt h2 h3
      have h5 := hl.own_inj (hpre y hy).own e' y.last he' (hl.mem h1.1) h4
      rw [h5]
      exact hx.rank y hy hf (h4 ▸ heo)
    · exact absurd (heo ▸ hxk) (((hpre y hy).fl hf).all e' he')
  refine ⟨rep_ofItemOk hl hs rfl hxQ ⟨x, hx.mem, rfl⟩ hm ?_, hxQ, hxk, ?_⟩
  · intro y hy
    have h := hpre y hy
    refine ⟨h.own, h.lastIn, ?_, ?_, h.flags⟩
    · intro hf
      refine ⟨(h.un hf).1, hx.first y hy hf, ?_⟩
      intro z hz hzx
      exact (h.un hf).2 (hpost y hy hf) z hz (dlt_of_lt_le hxk hzx)
    · intro hf
      have hd := h.fl hf
      refine ⟨?_, ?_, Or.inr (dlt_of_le_lt hd.le hxk), hd.rep⟩
      · intro z hz hh; exact hd.all z hz (dlt_trans hxk hh)
      · intro hh; exact hd.le (dlt_trans hxk hh)
  · intro z hz hzk hzx
    obtain ⟨⟨y, hy, hyz⟩, _⟩ := Merged.iff_of_item.1 ((hs.q z).1 hz)
    cases hf : y.flag d
    · have h1 := ((hpre y hy).un hf).2 (hpost y hy hf) z hyz hzk
      exact hx.first y hy hf (dlt_of_le_lt h1 hzx)
    · exact ((hpre y hy).fl hf).all z hyz hzk

/-- The move failed: nothing is left in the direction. -/
theorem finish_oor (hl : Laws p ops C) {P : Nat → E → Prop} {it : Itr σ E} {Q : E → Prop} {e : E}
    {m : Mode} {d : Dir} (hs : Shape p P it.win Q) (hc : it.cur = some e) (hq : Q e)
    (hat : ∃ x ∈ it.win, x.last = e)
    (hm : m = .fresh d ∨ m = .only d ∨ m = .free)
    (hpre : ∀ y ∈ it.win, Pre p C m d (p.ord e) (P y.id) y)
    (hall : ∀ y ∈ it.win, y.flag d = true) :
    (mergeSpec p C).Rep it Q e m ∧ AtEnd p d Q e := by
  refine ⟨rep_ofItemOk hl hs hc hq hat hm ?_, ?_⟩
  · intro y hy
    have h := hpre y hy
    exact ⟨h.own, h.lastIn, fun hf => absurd hf (by rw [hall y hy]; decide), h.fl, h.flags⟩
  · intro z hz
    obtain ⟨⟨y, hy, hyz⟩, _⟩ := Merged.iff_of_item.1 ((hs.q z).1 hz)
    exact ((hpre y hy).fl (hall y hy)).all z hyz

/-- An item at the position of the cursor and of the highest rank holds the entry under the
    cursor. -/
theorem cur_unique {P : Nat → E → Prop} {w : List (Item σ E)} {Q : E → Prop} {e : E}
    (hs : Shape p P w Q) (hq : Q e) (hat : ∃ x ∈ w, x.last = e) {x : Item σ E} (hx : x ∈ w)
    (hxP : P x.id x.last) (hxo : p.ord x.last = p.ord e)
    (hrank : ∀ y ∈ w, p.ord y.last = p.ord x.last → p.rank y.last ≤ p.rank x.last) : x.last = e := by
  obtain ⟨⟨i, hi, hie⟩, hmax⟩ := (hs.q e).1 hq
  obtain ⟨y, hy, hye⟩ := hat
  have h1 := hrank y hy (by rw [hye, hxo])
  rw [hye] at h1
  have h2 := hmax x.id (List.mem_map_of_mem hx) x.last hxP hxo
  exact hs.coh x.id (List.mem_map_of_mem hx) i hi _ _ hxP hie hxo (by omega)

theorem bonus_le (d : Dir) (it : Itr σ E) : bonus p d it ≤ 1 := by
  unfold bonus
  split
  · exact Nat.zero_le _
  · split <;> omega

theorem bonus_one {d : Dir} {it : Itr σ E} {e : E} (hc : it.cur = some e)
    (h : ∀ x ∈ it.win, x.flag d = false → dlt d (p.ord e) (p.ord x.last)) : bonus p d it = 1 := by
  unfold bonus
  rw [hc]
  simp only
  rw [if_pos]
  rw [List.all_eq_true]
  intro x hx
  cases hf : x.flag d
  · simp [h x hx hf]
  · rfl

theorem bonus_zero {d : Dir} {it : Itr σ E} {e : E} (hc : it.cur = some e)
    (h : ∃ x ∈ it.win, x.flag d = false ∧ ¬ dlt d (p.ord e) (p.ord x.last)) : bonus p d it = 0 := by
  unfold bonus
  rw [hc]
  simp only
  rw [if_neg]
  rw [List.all_eq_true]
  intro hh
  obtain ⟨x, hx, hf, hn⟩ := h
  have := hh x hx
  rw [hf] at this
  simp [hn] at this

/-- One step of the merging iterator. -/
theorem merge_step (hl : Laws p ops C) (hr : p.byKey = false → ∀ a b, p.rank a = p.rank b)
    {it : Itr σ E} {Q : E → Prop} {e : E} {m : Mode} {d : Dir}
    (h : (mergeSpec p C).Rep it Q e m) (hcan : m.can d) :
    (∃ s' e', (mergeOps p ops).step d it = (.ok, s') ∧ NextIn p d Q e e' ∧
      (mergeSpec p C).Rep s' Q e' (m.after d) ∧ (mergeOps p ops).left d s' < (mergeOps p ops).left d it) ∨
    (∃ s', (mergeOps p ops).step d it = (.outOfRange, s') ∧ AtEnd p d Q e ∧
      (mergeSpec p C).Rep s' Q e (m.after d) ∧ (mergeOps p ops).left d s' ≤ (mergeOps p ops).left d it) := by
  obtain ⟨P, hs, hcur, hq, hat, hpre⟩ := h
  have hm : m.after d = .fresh d ∨ m.after d = .only d ∨ m.after d = .free := by
    cases m with
    | fresh d' =>
      by_cases hd : d = d'
      · subst hd; left; simp [Mode.after]
      · right; left; simp only [Mode.after, if_neg hd]
    | only d' => right; left; simp only [Mode.after]; rw [show d = d' from hcan]
    | free => right; right; rfl
  have hperm := walk_perm d it.win
  obtain ⟨w, hloop, hids, hsw, hpw, hpost, hJ, htot, hstrict⟩ :=
    loop_spec hl (m.after_can hcan) (m.after_after d) (k := p.ord e) (P := P) (e := e) rfl
      (fuel ops d it.win) [] (walk d it.win)
      (by intro x hx; rw [List.nil_append, mem_walk] at hx; exact hpre d hcan x hx)
      (by intro x hx; cases hx)
      (by rw [List.nil_append, walk_walk]; exact hs.sorted)
      (by rw [List.nil_append]; exact (hperm.map _).symm.nodup hs.nodup)
      (by
        left
        obtain ⟨x, hx, hxe⟩ := hat
        exact ⟨x, by rw [List.nil_append, mem_walk]; exact hx, hxe⟩)
      (by
        rw [List.nil_append, total_perm hperm, hperm.length_eq]
        unfold fuel
        rw [Nat.add_mul]
        omega)
  rw [List.nil_append] at hids htot hstrict
  rw [total_perm hperm] at htot hstrict
  have hsw' : Shape p P (walk d w) Q :=
    hs.perm (((walk_perm d w).map _).trans (hids.trans (hperm.map _))) hsw
  have hpw' : ∀ x ∈ walk d w, Pre p C (m.after d) d (p.ord e) (P x.id) x := fun x hx => hpw x (mem_walk.1 hx)
  have hpost' : ∀ x ∈ walk d w, x.flag d = false → dlt d (p.ord e) (p.ord x.last) :=
    fun x hx => hpost x (mem_walk.1 hx)
  -- the measure
  have hmeas : ∀ it' : Itr σ E, it'.win = walk d w →
      ((∃ x ∈ walk d w, x.flag d = false ∧ it'.cur = some x.last) →
        (mergeOps p ops).left d it' < (mergeOps p ops).left d it) ∧
      (it'.cur = some e → (mergeOps p ops).left d it' ≤ (mergeOps p ops).left d it) := by
    intro it' hw'
    show (_ → 2 * total ops d it'.win + bonus p d it' < 2 * total ops d it.win + bonus p d it) ∧ _
    have ht' : total ops d it'.win = total ops d w := by rw [hw', total_perm (walk_perm d w)]
    have hb1 := bonus_le (p := p) d it'
    by_cases hex : ∃ x ∈ it.win, x.flag d = false ∧ ¬ dlt d (p.ord e) (p.ord x.last)
    · have hlt := hstrict (by
        obtain ⟨x, hx, hh⟩ := hex
        exact ⟨x, mem_walk.2 hx, hh⟩)
      refine ⟨fun _ => by omega, fun _ => ?_⟩
      show 2 * total ops d it'.win + bonus p d it' ≤ 2 * total ops d it.win + bonus p d it
      omega
    · have hb : bonus p d it = 1 := bonus_one hcur (by
        intro x hx hf
        by_contra hn
        exact hex ⟨x, hx, hf, hn⟩)
      refine ⟨?_, fun _ => ?_⟩
      · rintro ⟨x, hx, hf, hxc⟩
        have := bonus_zero (p := p) (d := d) hxc ⟨x, by rw [hw']; exact hx, hf, dlt_irrefl _ _⟩
        omega
      · show 2 * total ops d it'.win + bonus p d it' ≤ 2 * total ops d it.win + bonus p d it
        omega
  cases d with
  | fwd =>
    simp only [walk] at hloop hsw' hpw' hpost' hmeas hsw
    show (∃ s' e', next p ops it = (.ok, s') ∧ _) ∨ ∃ s', next p ops it = (.outOfRange, s') ∧ _
    unfold next
    rw [hcur]
    simp only [hloop]
    cases hfind : w.find? (validItem p .fwd (p.ord e)) with
    | some x =>
      left
      have hch : Chosen p .fwd w x := chosen_find hsw (before_R hr) (by
        intro y hy
        cases hf : y.flag .fwd
        · have := hpost y hy hf
          simp [validItem, hf, (ne_of_lt this).symm]
        · simp [validItem, hf]) hfind
      obtain ⟨h1, h2⟩ := finish_ok hl hsw' hm hpw' hpost' hch
      exact ⟨_, _, rfl, h2, h1, (hmeas _ rfl).1 ⟨x, hch.mem, hch.un, rfl⟩⟩
    | none =>
      right
      have hall : ∀ y ∈ w, y.flag .fwd = true := by
        intro y hy
        cases hf : y.flag .fwd
        · have h1 := hpost y hy hf
          have h2 := List.find?_eq_none.1 hfind y hy
          exact absurd (by simp [validItem, hf, (ne_of_lt h1).symm]) h2
        · rfl
      have hat' : ∃ x ∈ w, x.last = e := by
        rcases hJ with h | ⟨x, hx, hf, _⟩
        · exact h
        · rw [hall x hx] at hf; cases hf
      obtain ⟨x, hx, hlv, hmax, hrank⟩ := lastValid_spec hr w.reverse
        (by simpa using hsw'.ne) (List.pairwise_reverse.2 hsw)
      rw [List.mem_reverse] at hx
      have hxo : p.ord x.last = p.ord e := by
        have h1 := (((hpw x hx).fl (hall x hx)).le)
        obtain ⟨z, hz, hze⟩ := hat'
        have h2 := hmax z (List.mem_reverse.2 hz)
        rw [hze] at h2
        exact le_antisymm (not_lt.1 h1) (not_lt.1 h2)
      have hxP : P x.id x.last := by
        rcases ((hpw x hx).fl (hall x hx)).own with h | h
        · exact h
        · rw [hxo] at h; exact absurd h (dlt_irrefl _ _)
      have hxe := cur_unique hsw' hq hat' hx hxP hxo
        (fun y hy => hrank y (List.mem_reverse.2 hy))
      rw [hlv, hxe]
      obtain ⟨h1, h2⟩ := finish_oor (it := { win := w, cur := some e }) hl hsw' rfl hq hat' hm hpw' hall
      exact ⟨_, rfl, h2, h1, (hmeas _ rfl).2 rfl⟩
  | bwd =>
    simp only [walk] at hloop hsw' hpw' hpost' hmeas hsw
    have hswr : w.Pairwise (fun a b => before p b a = true) := by
      have := List.pairwise_reverse.1 hsw
      exact this
    show (∃ s' e', prev p ops it = (.ok, s') ∧ _) ∨ ∃ s', prev p ops it = (.outOfRange, s') ∧ _
    unfold prev
    rw [hcur]
    simp only [hloop]
    have hres : (∃ x, (if p.byKey then scanPrev p (p.ord e) none w
             else (w.find? (validItem p .bwd (p.ord e))).map (·.last)) = some x.last ∧
             Chosen p .bwd w x) ∨
        ((if p.byKey then scanPrev p (p.ord e) none w
             else (w.find? (validItem p .bwd (p.ord e))).map (·.last)) = none ∧
          ∀ y ∈ w, y.flag .bwd = true) := by
      cases hk : p.byKey
      · rw [if_neg (by decide)]
        have hfv : ∀ y ∈ w, validItem p .bwd (p.ord e) y = !y.flag .bwd := by
          intro y hy
          cases hf : y.flag .bwd
          · have : p.ord y.last < p.ord e := hpost y hy hf
            simp [validItem, hf, ne_of_lt this]
          · simp [validItem, hf]
        cases hfind : w.find? (validItem p .bwd (p.ord e)) with
        | some x =>
          left
          refine ⟨x, rfl, chosen_find hswr ?_ hfv hfind⟩
          intro a b hab
          refine ⟨before_ord p hab, fun _ => Nat.le_of_eq (hr hk _ _)⟩
        | none =>
          right
          refine ⟨rfl, ?_⟩
          intro y hy
          have h2 := List.find?_eq_none.1 hfind y hy
          rw [hfv y hy] at h2
          simpa using h2
      · rw [if_pos rfl]
        exact scanPrev_none hk w hswr (fun y hy hf => hpost y hy hf)
          (fun y hy hf => ((hpw y hy).fl hf).le)
    rcases hres with ⟨x, hx, hch⟩ | ⟨hx, hall⟩
    · rw [hx]
      left
      have hch' : Chosen p .bwd w.reverse x :=
        ⟨List.mem_reverse.2 hch.mem, hch.un, fun y hy => hch.first y (List.mem_reverse.1 hy),
          fun y hy => hch.rank y (List.mem_reverse.1 hy)⟩
      obtain ⟨h1, h2⟩ := finish_ok hl hsw' hm hpw' hpost' hch'
      exact ⟨_, _, rfl, h2, h1, (hmeas _ rfl).1 ⟨x, hch'.mem, hch'.un, rfl⟩⟩
    · rw [hx]
      right
      have hat' : ∃ x ∈ w.reverse, x.last = e := by
        rcases hJ with ⟨x, hx, h⟩ | ⟨x, hx, hf, _⟩
        · exact ⟨x, List.mem_reverse.2 hx, h⟩
        · rw [hall x hx] at hf; cases hf
      have hall' : ∀ y ∈ w.reverse, y.flag .bwd = true := fun y hy => hall y (List.mem_reverse.1 hy)
      cases hwr : w.reverse with
      | nil => exact absurd hwr hsw'.ne
      | cons x l =>
        have hxm : x ∈ w.reverse := by rw [hwr]; exact List.mem_cons_self
        have hord : ∀ y ∈ w.reverse, ¬ p.ord y.last < p.ord x.last ∧
            (p.ord y.last = p.ord x.last → p.rank y.last ≤ p.rank x.last) := by
          intro y hy
          rw [hwr] at hy
          rcases List.mem_cons.1 hy with hy | hy
          · subst hy; exact ⟨lt_irrefl _, fun _ => Nat.le_refl _⟩
          · have h3 := hsw
            rw [hwr] at h3
            have h4 := before_R hr _ _ ((List.pairwise_cons.1 h3).1 y hy)
            exact ⟨h4.1, fun he => h4.2 he.symm⟩
        have hxo : p.ord x.last = p.ord e := by
          have h1 : ¬ p.ord x.last < p.ord e := (((hpw' x hxm).fl (hall' x hxm)).le)
          obtain ⟨z, hz, hze⟩ := hat'
          have h2 := (hord z hz).1
          rw [hze] at h2
          exact le_antisymm (not_lt.1 h2) (not_lt.1 h1)
        have hxP : P x.id x.last := by
          rcases ((hpw' x hxm).fl (hall' x hxm)).own with h | h
          · exact h
          · rw [hxo] at h; exact absurd h (dlt_irrefl _ _)
        have hxe := cur_unique hsw' hq hat' hxm hxP hxo (fun y hy => (hord y hy).2)
        obtain ⟨h1, h2⟩ := finish_oor (it := { win := w.reverse, cur := some e }) hl hsw' rfl hq hat' hm
          hpw' hall'
        refine ⟨{ win := w.reverse, cur := some e }, ?_, h2, h1, (hmeas _ rfl).2 rfl⟩
        simp only [hwr, List.head?_cons, Option.map_some, hxe]

/-! ### Seeking -/

theorem fold_ins : ∀ (xs w : List (Item σ E)), w.Pairwise (fun a b => before p a b = true) →
    ((xs ++ w).map (·.id)).Nodup →
    (xs.foldl (fun w x => ins p x w) w).Pairwise (fun a b => before p a b = true) ∧
    (xs.foldl (fun w x => ins p x w) w).Perm (xs ++ w) := by
  intro xs
  induction xs with
  | nil => intro w hw _; exact ⟨hw, List.Perm.refl _⟩
  | cons x xs ih =>
    intro w hw hnd
    rw [List.foldl_cons]
    have hnd' := hnd
    rw [List.cons_append, List.map_cons, List.nodup_cons] at hnd'
    have hperm : (xs ++ ins p x w).Perm (x :: (xs ++ w)) :=
      (List.Perm.append_left xs (perm_ins p x w)).trans List.perm_middle
    obtain ⟨h1, h2⟩ := ih (ins p x w)
      (sorted_ins p hw (by
        intro y hy he
        apply hnd'.1
        rw [← he]
        exact List.mem_map_of_mem (List.mem_append_right _ hy)))
      ((hperm.map (·.id)).symm.nodup (by simpa using hnd))
    exact ⟨h1, h2.trans hperm⟩

theorem seekAll_spec {q : Seek O} {G : Item σ E → Prop} : ∀ (l : List (Item σ E)),
    (∀ x ∈ l, ∃ y, seekItem p ops q x = some y ∧ y.id = x.id ∧ G y) →
    ∃ xs, seekAll p ops q l = some xs ∧ xs.map (·.id) = l.map (·.id) ∧ ∀ y ∈ xs, G y := by
  intro l
  induction l with
  | nil => intro _; exact ⟨[], rfl, rfl, by simp⟩
  | cons x l ih =>
    intro h
    obtain ⟨y, hy, hyi, hyG⟩ := h x List.mem_cons_self
    obtain ⟨xs, h1, h2, h3⟩ := ih (fun z hz => h z (List.mem_cons_of_mem _ hz))
    refine ⟨y :: xs, ?_, ?_, ?_⟩
    · simp only [seekAll, hy, h1]
    · simp [hyi, h2]
    · intro z hz
      rcases List.mem_cons.1 hz with hz | hz
      · subst hz; exact hyG
      · exact h3 z hz

/-- All children have been moved. -/
theorem seek_common {q : Seek O} {G : Item σ E → Prop} {P : Nat → E → Prop} {it : Itr σ E}
    {Q : E → Prop} (hs : Shape p P it.win Q)
    (h : ∀ x ∈ it.win, ∃ y, seekItem p ops q x = some y ∧ y.id = x.id ∧ G y) :
    ∃ w, seek p ops q it = (.ok, { win := w, cur := seekCur p q w }) ∧ Shape p P w Q ∧ ∀ y ∈ w, G y := by
  obtain ⟨xs, h1, h2, h3⟩ := seekAll_spec it.win h
  obtain ⟨h4, h5⟩ := fold_ins (p := p) xs [] List.Pairwise.nil (by rw [List.append_nil, h2]; exact hs.nodup)
  rw [List.append_nil] at h5
  refine ⟨xs.foldl (fun w x => ins p x w) [], ?_, hs.perm ?_ h4, ?_⟩
  · simp only [seek, h1]
  · rw [← h2]; exact h5.map _
  · intro y hy; exact h3 y (h5.mem_iff.1 hy)

theorem freshMode_cases (fr : Bool) (d : Dir) :
    freshMode fr d = .fresh d ∨ freshMode fr d = .only d ∨ freshMode fr d = .free := by
  cases fr
  · exact Or.inl rfl
  · exact Or.inr (Or.inr rfl)

theorem flagsOk_fresh (hl : Laws p ops C) {fr : Bool} {d : Dir} {P : E → Prop} {x : Item σ E}
    (ho : C.Own x.cur P fr) (h1 : x.noPrev = false) (h2 : x.noNext = false) :
    FlagsOk p (freshMode fr d) P x := by
  have hf : ∀ d, x.flag d = false := by intro d; cases d; exact h2; exact h1
  cases fr
  · exact hf _
  · exact ⟨fun d h => absurd h (by rw [hf]; decide), hl.own_two ho⟩

theorem own_fresh (hl : Laws p ops C) {fr : Bool} {d : Dir} {s : σ} {P : E → Prop} {e : E}
    (h : C.Rep s P e (freshMode fr d)) : C.Own s P fr := by
  have := hl.own h
  cases fr
  · exact hl.own_false this
  · exact this

/-- The position after a seek when every child found an entry. -/
theorem seek_ok (hl : Laws p ops C) {P : Nat → E → Prop} {w : List (Item σ E)}
    {Q : E → Prop} {m : Mode} {d : Dir} {x : Item σ E} {In : E → Prop} (hs : Shape p P w Q)
    (hm : m = .fresh d ∨ m = .only d ∨ m = .free) (hx : x ∈ w)
    (hin : ∀ y z, In y → ¬ dlt d (p.ord z) (p.ord y) → In z)
    (hrep : ∀ y ∈ w, C.Rep y.cur (P y.id) y.last m ∧ In y.last ∧
      (∀ z, P y.id z → In z → ¬ dlt d (p.ord z) (p.ord y.last)) ∧
      y.noPrev = false ∧ y.noNext = false ∧ FlagsOk p m (P y.id) y)
    (hfirst : ∀ y ∈ w, ¬ dlt d (p.ord y.last) (p.ord x.last))
    (hrank : ∀ y ∈ w, p.ord y.last = p.ord x.last → p.rank y.last ≤ p.rank x.last) :
    (mergeSpec p C).Rep { win := w, cur := some x.last } Q x.last m ∧ In x.last ∧
      ∀ z, Q z → In z → ¬ dlt d (p.ord z) (p.ord x.last) := by
  have hxin := (hrep x hx).2.1
  have hxQ : Q x.last := by
    rw [hs.q, Merged.iff_of_item]
    refine ⟨⟨x, hx, hl.mem (hrep x hx).1⟩, ?_⟩
    intro y hy e' he' heo
    obtain ⟨h1, h2, h3, _⟩ := hrep y hy
    have h4 := h3 e' he' (hin _ _ hxin (by rw [heo]; exact dlt_irrefl _ _))
    have h5 := hfirst y hy
    rw [← heo] at h5
    have h6 := eq_of_not_dlt h4 h5
    have h7 := hl.inj h1 e' y.last he' (hl.mem h1) h6
    rw [h7]
    exact hrank y hy (h6 ▸ heo)
  refine ⟨rep_ofItemOk hl hs rfl hxQ ⟨x, hx, rfl⟩ hm ?_, hxin, ?_⟩
  · intro y hy
    obtain ⟨h1, h2, h3, h4, h5, h6⟩ := hrep y hy
    have hf : y.flag d = false := by cases d; exact h5; exact h4
    refine ⟨hl.own h1, ⟨y.last, hl.mem h1, rfl⟩, ?_, fun h => absurd h (by rw [hf]; decide), h6⟩
    intro _
    exact ⟨h1, hfirst y hy, fun z hz hzx => h3 z hz (hin _ _ hxin hzx)⟩
  · intro z hz hzin hlt
    obtain ⟨⟨y, hy, hyz⟩, _⟩ := Merged.iff_of_item.1 ((hs.q z).1 hz)
    exact hfirst y hy (dlt_of_le_lt ((hrep y hy).2.2.1 z hyz hzin) hlt)

theorem head_first (hr : p.byKey = false → ∀ a b, p.rank a = p.rank b) {w : List (Item σ E)}
    (hs : w.Pairwise (fun a b => before p a b = true)) {f : Item σ E → Bool} {x : Item σ E}
    (h : w.find? f = some x) : ∀ y ∈ w, f y = true → ¬ dlt .fwd (p.ord y.last) (p.ord x.last) ∧
      (p.ord y.last = p.ord x.last → p.rank y.last ≤ p.rank x.last) := by
  induction w with
  | nil => simp at h
  | cons z w ih =>
    obtain ⟨hz, hw⟩ := List.pairwise_cons.1 hs
    rw [List.find?_cons] at h
    intro y hy hfy
    cases hb : f z
    · rw [hb] at h
      simp only at h
      rcases List.mem_cons.1 hy with hy | hy
      · subst hy; rw [hb] at hfy; cases hfy
      · exact ih hw h y hy hfy
    · rw [hb] at h
      simp only [Option.some.injEq] at h
      subst h
      rcases List.mem_cons.1 hy with hy | hy
      · subst hy; exact ⟨dlt_irrefl _ _, fun _ => Nat.le_refl _⟩
      · have := before_R hr _ _ (hz y hy)
        exact ⟨this.1, fun he => this.2 he.symm⟩

theorem merge_seek_first (hl : Laws p ops C) (hr : p.byKey = false → ∀ a b, p.rank a = p.rank b)
    {it : Itr σ E} {Q : E → Prop} {fr : Bool} (h : (mergeSpec p C).Own it Q fr) :
    ∃ s' e, (mergeOps p ops).seek .first it = (.ok, s') ∧
      (mergeSpec p C).Rep s' Q e (freshMode fr .fwd) ∧ AtEnd p .bwd Q e := by
  obtain ⟨P, hs, hown⟩ := h
  obtain ⟨w, h1, h2, h3⟩ := seek_common (p := p) (ops := ops) (q := .first)
    (G := fun y => C.Rep y.cur (P y.id) y.last (freshMode fr .fwd) ∧ AtEnd p .bwd (P y.id) y.last ∧
      y.noPrev = false ∧ y.noNext = false) hs (by
    intro x hx
    obtain ⟨s', e, a1, a2, a3⟩ := hl.seek_first (hown x hx).1
    refine ⟨{ x with
      cur := s', last := e, noPrev := false, noNext := false }, ?_, rfl, a2, a3, rfl, rfl⟩
    simp only [seekItem, a1, hl.get a2, seekFlag])
  cases hw : w with
  | nil => exact absurd hw h2.ne
  | cons x l =>
    have hxm : x ∈ w := by rw [hw]; exact List.mem_cons_self
    have hcur : seekCur p .first w = some x.last := by
      have hf : w.find? (fun x => !x.noPrev && !x.noNext) = some x := by
        rw [hw, List.find?_cons_of_pos]
        obtain ⟨_, _, a3, a4⟩ := h3 x hxm
        simp [a3, a4]
      simp only [seekCur, hf]
    have hff : w.find? (fun _ => true) = some x := by rw [hw]; rfl
    have hfst := head_first hr h2.sorted hff
    obtain ⟨b1, _, b3⟩ := seek_ok (d := .fwd) (In := fun _ => True) hl h2 (freshMode_cases fr .fwd) hxm
      (fun _ _ _ _ => trivial) (by
        intro y hy
        obtain ⟨a1, a2, a3, a4⟩ := h3 y hy
        exact ⟨a1, trivial, fun z hz _ hd => a2 z hz (dlt_opp.2 hd), a3, a4,
          flagsOk_fresh hl (own_fresh hl a1) a3 a4⟩)
      (fun y hy => (hfst y hy rfl).1) (fun y hy => (hfst y hy rfl).2)
    refine ⟨_, x.last, h1, ?_, fun y hy hd => b3 y hy trivial (dlt_opp.1 hd)⟩
    rw [hcur]
    exact b1

theorem merge_seek_last (hl : Laws p ops C) (hr : p.byKey = false → ∀ a b, p.rank a = p.rank b)
    {it : Itr σ E} {Q : E → Prop} {fr : Bool} (h : (mergeSpec p C).Own it Q fr) :
    ∃ s' e, (mergeOps p ops).seek .last it = (.ok, s') ∧
      (mergeSpec p C).Rep s' Q e (freshMode fr .bwd) ∧ AtEnd p .fwd Q e := by
  obtain ⟨P, hs, hown⟩ := h
  obtain ⟨w, h1, h2, h3⟩ := seek_common (p := p) (ops := ops) (q := .last)
    (G := fun y => C.Rep y.cur (P y.id) y.last (freshMode fr .bwd) ∧ AtEnd p .fwd (P y.id) y.last ∧
      y.noPrev = false ∧ y.noNext = false) hs (by
    intro x hx
    obtain ⟨s', e, a1, a2, a3⟩ := hl.seek_last (hown x hx).1
    refine ⟨{ x with
      cur := s', last := e, noPrev := false, noNext := false }, ?_, rfl, a2, a3, rfl, rfl⟩
    simp only [seekItem, a1, hl.get a2, seekFlag])
  obtain ⟨x, hx, hlv, hmax, hrank⟩ := lastValid_spec hr w.reverse (by simpa using h2.ne)
    (List.pairwise_reverse.2 h2.sorted)
  rw [List.mem_reverse] at hx
  obtain ⟨b1, _, b3⟩ := seek_ok (d := .bwd) (In := fun _ => True) hl h2 (freshMode_cases fr .bwd) hx
    (fun _ _ _ _ => trivial) (by
      intro y hy
      obtain ⟨a1, a2, a3, a4⟩ := h3 y hy
      exact ⟨a1, trivial, fun z hz _ hd => a2 z hz (dlt_opp.1 hd), a3, a4,
        flagsOk_fresh hl (own_fresh hl a1) a3 a4⟩)
    (fun y hy => hmax y (List.mem_reverse.2 hy)) (fun y hy => hrank y (List.mem_reverse.2 hy))
  refine ⟨_, x.last, h1, ?_, fun y hy hd => b3 y hy trivial hd⟩
  rw [show seekCur p .last w = some x.last from hlv]
  exact b1

theorem merge_seek_le (hl : Laws p ops C) (hr : p.byKey = false → ∀ a b, p.rank a = p.rank b)
    {it : Itr σ E} {Q : E → Prop} {k : O} (h : (mergeSpec p C).Low it Q k) (hk : C.KOk k) :
    ∃ s' e, (mergeOps p ops).seek (.le k) it = (.ok, s') ∧
      (mergeSpec p C).Rep s' Q e (.fresh .bwd) ∧ p.ord e ≤ k ∧
      ∀ y, Q y → p.ord y ≤ k → p.ord y ≤ p.ord e := by
  obtain ⟨P, hs, hown⟩ := h
  obtain ⟨w, h1, h2, h3⟩ := seek_common (p := p) (ops := ops) (q := .le k)
    (G := fun y => C.Rep y.cur (P y.id) y.last (.fresh .bwd) ∧ p.ord y.last ≤ k ∧
      (∀ z, P y.id z → p.ord z ≤ k → p.ord z ≤ p.ord y.last) ∧
      y.noPrev = false ∧ y.noNext = false) hs (by
    intro x hx
    obtain ⟨s', e, a1, a2, a3, a4⟩ := hl.seek_le (hown x hx).1 hk
    refine ⟨{ x with
      cur := s', last := e, noPrev := false, noNext := false }, ?_, rfl, a2, a3, a4, rfl, rfl⟩
    simp only [seekItem, a1, hl.get a2, seekFlag]
    rw [decide_eq_false (not_lt.2 a3)])
  obtain ⟨x, hx, hlv, hmax, hrank⟩ := lastValid_spec hr w.reverse (by simpa using h2.ne)
    (List.pairwise_reverse.2 h2.sorted)
  rw [List.mem_reverse] at hx
  obtain ⟨b1, b2, b3⟩ := seek_ok (d := .bwd) (In := fun y => p.ord y ≤ k) hl h2 (Or.inl rfl) hx
    (fun y z hy hz => le_trans (not_lt.1 hz) hy) (by
      intro y hy
      obtain ⟨a1, a2, a3, a4, a5⟩ := h3 y hy
      exact ⟨a1, a2, fun z hz hzk hd => not_lt.2 (a3 z hz hzk) hd, a4, a5, a5⟩)
    (fun y hy => hmax y (List.mem_reverse.2 hy)) (fun y hy => hrank y (List.mem_reverse.2 hy))
  refine ⟨_, x.last, h1, ?_, b2, fun y hy hyk => not_lt.1 (b3 y hy hyk)⟩
  rw [show seekCur p (.le k) w = some x.last from hlv]
  exact b1

theorem merge_seek_ge (hl : Laws p ops C) (hr : p.byKey = false → ∀ a b, p.rank a = p.rank b)
    {it : Itr σ E} {Q : E → Prop} {fr : Bool} {k : O} (h : (mergeSpec p C).Own it Q fr)
    (hk : C.KOk k) :
    (∃ s' e, (mergeOps p ops).seek (.ge k) it = (.ok, s') ∧ (mergeSpec p C).Rep s' Q e (.only .fwd) ∧
      k ≤ p.ord e ∧ (∀ y, Q y → k ≤ p.ord y → p.ord e ≤ p.ord y) ∧ (mergeSpec p C).Own s' Q fr) ∨
    ((∀ y, Q y → p.ord y < k) ∧
      ((∃ s' e, (mergeOps p ops).seek (.ge k) it = (.ok, s') ∧ (mergeOps p ops).get s' = some e ∧
        (∃ y, Q y ∧ p.ord y = p.ord e) ∧ (mergeSpec p C).Own s' Q fr) ∨
       (mergeOps p ops).seek (.ge k) it = (.outOfRange, it))) := by
  obtain ⟨P, hs, hown⟩ := h
  obtain ⟨w, h1, h2, h3⟩ := seek_common (p := p) (ops := ops) (q := .ge k)
    (G := fun y => C.Own y.cur (P y.id) fr ∧ (∃ z, P y.id z ∧ p.ord z = p.ord y.last) ∧
      ((C.Rep y.cur (P y.id) y.last (.only .fwd) ∧ k ≤ p.ord y.last ∧
        (∀ z, P y.id z → k ≤ p.ord z → p.ord y.last ≤ p.ord z) ∧
        y.noPrev = false ∧ y.noNext = false) ∨
       ((∀ z, P y.id z → p.ord z < k) ∧ y.noNext = true))) hs (by
    intro x hx
    obtain ⟨ho, hin⟩ := hown x hx
    rcases hl.seek_ge ho hk with ⟨s', e, a1, a2, a3, a4, a5⟩ | ⟨a0, ⟨s', e, a1, a2, a3, a4⟩ | a1⟩
    · refine ⟨{ x with
        cur := s', last := e, noPrev := false, noNext := false }, ?_, rfl, a5,
        ⟨e, hl.mem a2, rfl⟩, Or.inl ⟨a2, a3, a4, rfl, rfl⟩⟩
      simp only [seekItem, a1, hl.get a2, seekFlag]
      rw [decide_eq_false (not_lt.2 a3)]
    · refine ⟨{ x with
        cur := s', last := e, noPrev := false, noNext := true }, ?_, rfl, a4, a3, Or.inr ⟨a0, rfl⟩⟩
      simp only [seekItem, a1, a2, seekFlag]
      obtain ⟨y, hy, hye⟩ := a3
      rw [decide_eq_true (hye ▸ a0 y hy)]
    · exact ⟨{ x with noPrev := true, noNext := true }, by simp only [seekItem, a1], rfl, ho, hin,
        Or.inr ⟨a0, rfl⟩⟩)
  have hown' : ∀ c, (mergeSpec p C).Own { win := w, cur := c } Q fr := fun c =>
    ⟨P, h2, fun x hx => ⟨(h3 x hx).1, (h3 x hx).2.1⟩⟩
  cases hf : w.find? (fun x => !x.noPrev && !x.noNext) with
  | some x =>
    left
    have hxm := List.mem_of_find?_eq_some hf
    have hxf := List.find?_some hf
    have hfst := head_first hr h2.sorted hf
    have hcur : seekCur p (.ge k) w = some x.last := by simp only [seekCur, hf]
    simp only [Bool.and_eq_true, Bool.not_eq_true'] at hxf
    obtain ⟨_, _, ⟨x1, x2, x3, _⟩ | ⟨_, x2⟩⟩ := h3 x hxm
    · -- the chosen item
      have key : ∀ y ∈ w, ∀ z, P y.id z → k ≤ p.ord z → p.ord x.last ≤ p.ord z := by
        intro y hy z hz hzk
        obtain ⟨_, _, ⟨y1, y2, y3, y4, y5⟩ | ⟨y1, _⟩⟩ := h3 y hy
        · exact le_trans (not_lt.1 (hfst y hy (by simp [y4, y5])).1) (y3 z hz hzk)
        · exact absurd (y1 z hz) (not_lt.2 hzk)
      have hxQ : Q x.last := by
        rw [h2.q, Merged.iff_of_item]
        refine ⟨⟨x, hxm, hl.mem x1⟩, ?_⟩
        intro y hy e' he' heo
        have hke : k ≤ p.ord e' := heo ▸ x2
        obtain ⟨_, _, ⟨y1, y2, y3, y4, y5⟩ | ⟨y1, _⟩⟩ := h3 y hy
        · have h5 := y3 e' he' hke
          have h6 := not_lt.1 (hfst y hy (by simp [y4, y5])).1
          have h7 : p.ord e' = p.ord y.last := le_antisymm (heo ▸ h6) h5
          have h8 := hl.inj y1 e' y.last he' (hl.mem y1) h7
          rw [h8]
          exact (hfst y hy (by simp [y4, y5])).2 (h7 ▸ heo)
        · exact absurd (y1 e' he') (not_lt.2 hke)
      refine ⟨_, x.last, h1, ?_, x2, ?_, hown' _⟩
      · rw [hcur]
        refine rep_ofItemOk (d := .fwd) hl h2 rfl hxQ ⟨x, hxm, rfl⟩ (Or.inr (Or.inl rfl)) ?_
        intro y hy
        obtain ⟨y0, yin, ⟨y1, y2, y3, y4, y5⟩ | ⟨y1, y2⟩⟩ := h3 y hy
        · refine ⟨hl.own_false y0, yin, ?_, fun h => absurd h (by show ¬ y.noNext = true; rw [y5]; decide),
            trivial⟩
          intro _
          exact ⟨y1, (hfst y hy (by simp [y4, y5])).1,
            fun z hz hzx => not_lt.2 (y3 z hz (le_trans x2 (not_lt.1 hzx)))⟩
        · refine ⟨hl.own_false y0, yin, fun h => absurd (show y.noNext = false from h) (by rw [y2]; decide),
            ?_, trivial⟩
          intro _
          obtain ⟨z, hz, hzl⟩ := yin
          have hlt : p.ord y.last < p.ord x.last := lt_of_lt_of_le (hzl ▸ y1 z hz) x2
          refine ⟨?_, ?_, Or.inr hlt, fun h => absurd rfl h⟩
          · intro u hu hd
            exact lt_asymm (lt_of_lt_of_le (y1 u hu) x2) hd
          · exact lt_asymm hlt
      · intro z hz hzk
        obtain ⟨⟨y, hy, hyz⟩, _⟩ := Merged.iff_of_item.1 ((h2.q z).1 hz)
        exact key y hy z hyz hzk
    · exact absurd hxf.2 (by rw [x2]; decide)
  | none =>
    right
    have hnone : ∀ y ∈ w, ∀ z, P y.id z → p.ord z < k := by
      intro y hy
      obtain ⟨_, _, ⟨_, _, _, y4, y5⟩ | ⟨y1, _⟩⟩ := h3 y hy
      · exact absurd (by simp [y4, y5]) (List.find?_eq_none.1 hf y hy)
      · exact y1
    refine ⟨?_, Or.inl ?_⟩
    · intro z hz
      obtain ⟨⟨y, hy, hyz⟩, _⟩ := Merged.iff_of_item.1 ((h2.q z).1 hz)
      exact hnone y hy z hyz
    · cases hw : w.reverse with
      | nil => exact absurd (by simpa using hw) h2.ne
      | cons x l =>
        have hxm : x ∈ w := List.mem_reverse.1 (by rw [hw]; exact List.mem_cons_self)
        refine ⟨_, x.last, h1, ?_, ?_, hown' _⟩
        · show seekCur p (.ge k) w = some x.last
          simp only [seekCur, hf, hw, List.head?_cons, Option.map_some]
        · obtain ⟨z, hz, hzl⟩ := (h3 x hxm).2.1
          obtain ⟨y, hy, hyz⟩ := h2.exists_q (fun u hu => hl.own_inj (h3 u hu).1) hxm hz
          exact ⟨y, hy, hyz.trans hzl⟩

/-- The merging iterator is a cursor over the merged contents. -/
theorem merge_laws (hl : Laws p ops C) (hr : p.byKey = false → ∀ a b, p.rank a = p.rank b) :
    Laws p (mergeOps p ops) (mergeSpec p C) where
  mem := by rintro s Q e m ⟨P, _, _, h, _⟩; exact h
  get := by rintro s Q e m ⟨P, _, h, _⟩; exact h
  weaken := by
    rintro s Q e m d ⟨P, h1, h2, h3, h4, h5⟩ hc
    refine ⟨P, h1, h2, h3, h4, ?_⟩
    intro d' hd x hx
    have hd' : d' = d := hd
    subst hd'
    have h := h5 d' hc x hx
    refine ⟨hl.own_false h.own, h.lastIn, ?_, ?_, trivial⟩
    · intro hf
      exact ⟨hl.weaken (h.un hf).1 (m.after_can hc), (h.un hf).2⟩
    · intro hf
      have hd := h.fl hf
      exact ⟨hd.all, hd.le, hd.own, fun hn => absurd rfl hn⟩
  own := by
    rintro s Q e m ⟨P, h1, h2, h3, h4, h5⟩
    refine ⟨P, h1, ?_⟩
    intro x hx
    obtain ⟨d, hd⟩ : ∃ d, m.can d := by
      cases m with
      | fresh d => exact ⟨d, trivial⟩
      | only d => exact ⟨d, rfl⟩
      | free => exact ⟨.fwd, trivial⟩
    have h := h5 d hd x hx
    refine ⟨?_, h.lastIn⟩
    cases m with
    | fresh d' => exact hl.own_false h.own
    | only d' => exact hl.own_false h.own
    | free => exact h.own
  own_false := by
    rintro s Q fr ⟨P, h1, h2⟩
    exact ⟨P, h1, fun x hx => ⟨hl.own_false (h2 x hx).1, (h2 x hx).2⟩⟩
  own_ne := by
    rintro s Q fr ⟨P, h1, h2⟩
    cases hw : s.win with
    | nil => exact absurd hw h1.ne
    | cons x l =>
      have hx : x ∈ s.win := by rw [hw]; exact List.mem_cons_self
      obtain ⟨y, hy, _⟩ := (h2 x hx).2
      obtain ⟨e, he, _⟩ := h1.exists_q (fun u hu => hl.own_inj (h2 u hu).1) hx hy
      exact ⟨e, he⟩
  own_inj := by
    rintro s Q fr ⟨P, h1, _⟩
    exact h1.inj
  own_two := by
    rintro s Q ⟨P, h1, h2⟩
    cases hw : s.win with
    | nil => exact absurd hw h1.ne
    | cons x l =>
      have hx : x ∈ s.win := by rw [hw]; exact List.mem_cons_self
      obtain ⟨a, b, ha, hb, hab⟩ := hl.own_two (h2 x hx).1
      obtain ⟨e, he, hea⟩ := h1.exists_q (fun u hu => hl.own_inj (h2 u hu).1) hx ha
      obtain ⟨e', he', heb⟩ := h1.exists_q (fun u hu => hl.own_inj (h2 u hu).1) hx hb
      exact ⟨e, e', he, he', by rw [hea, heb]; exact hab⟩
  low := by
    rintro s Q k ⟨P, h1, h2⟩
    exact ⟨P, h1, fun x hx => ⟨hl.low (h2 x hx).1, (h2 x hx).2⟩⟩
  step := fun h hc => merge_step hl hr h hc
  seek_first := fun h => merge_seek_first hl hr h
  seek_last := fun h => merge_seek_last hl hr h
  seek_ge := fun h hk => merge_seek_ge hl hr h hk
  seek_le := fun h hk => merge_seek_le hl hr h hk

/-! ### Opening -/

theorem openAll_fold (ops : Ops σ E O) : ∀ (cs : List (Nat × σ)) (w : List (Item σ E)),
    w.Pairwise (fun a b => before p a b = true) → (cs.map (·.1) ++ w.map (·.id)).Nodup →
    ∃ w', cs.foldl (fun w c =>
      match ops.get c.2 with
      | some e => ins p { id := c.1, cur := c.2, last := e } w
      | none => w) w = w' ∧ w'.Pairwise (fun a b => before p a b = true) ∧ (w'.map (·.id)).Nodup ∧
      ∀ x, x ∈ w' ↔ x ∈ w ∨ ∃ c ∈ cs, ∃ e, ops.get c.2 = some e ∧
        x = { id := c.1, cur := c.2, last := e } := by
  intro cs
  induction cs with
  | nil =>
    intro w hw hnd
    exact ⟨w, rfl, hw, by simpa using hnd, fun x => by simp⟩
  | cons c cs ih =>
    intro w hw hnd
    rw [List.foldl_cons]
    rw [List.map_cons, List.cons_append, List.nodup_cons] at hnd
    cases hg : ops.get c.2 with
    | none =>
      simp only
      obtain ⟨w', h1, h2, h3, h4⟩ := ih w hw hnd.2
      refine ⟨w', h1, h2, h3, fun x => ?_⟩
      rw [h4 x]
      constructor
      · rintro (h | ⟨c', hc', h⟩)
        · exact Or.inl h
        · exact Or.inr ⟨c', List.mem_cons_of_mem _ hc', h⟩
      · rintro (h | ⟨c', hc', e, he, h⟩)
        · exact Or.inl h
        · rcases List.mem_cons.1 hc' with hc' | hc'
          · subst hc'; rw [hg] at he; cases he
          · exact Or.inr ⟨c', hc', e, he, h⟩
    | some e =>
      simp only
      have hperm := perm_ins p ({ id := c.1, cur := c.2, last := e } : Item σ E) w
      obtain ⟨w', h1, h2, h3, h4⟩ := ih (ins p { id := c.1, cur := c.2, last := e } w)
        (sorted_ins p hw (by
          intro y hy he
          apply hnd.1
          rw [show c.1 = y.id from he.symm]
          exact List.mem_append_right _ (List.mem_map_of_mem hy)))
        (by
          have h5 : (cs.map (·.1) ++ (ins p ({ id := c.1, cur := c.2, last := e } : Item σ E) w).map (·.id)).Perm
              (c.1 :: (cs.map (·.1) ++ w.map (·.id))) :=
            (List.Perm.append_left _ (hperm.map (·.id))).trans (by
              rw [List.map_cons]; exact List.perm_middle)
          exact h5.symm.nodup (List.nodup_cons.2 hnd))
      refine ⟨w', h1, h2, h3, fun x => ?_⟩
      rw [h4 x, mem_ins]
      constructor
      · rintro ((h | h) | ⟨c', hc', h⟩)
        · exact Or.inr ⟨c, List.mem_cons_self, e, hg, h⟩
        · exact Or.inl h
        · exact Or.inr ⟨c', List.mem_cons_of_mem _ hc', h⟩
      · rintro (h | ⟨c', hc', e', he', h⟩)
        · exact Or.inl (Or.inr h)
        · rcases List.mem_cons.1 hc' with hc' | hc'
          · subst hc'
            rw [hg] at he'
            cases he'
            exact Or.inl (Or.inl h)
          · exact Or.inr ⟨c', hc', e', he', h⟩

/-- A child that has just been opened: at its first entry, or empty. -/
structure Opened (p : Par E O) (ops : Ops σ E O) (C : CSpec σ E O) (fr : Bool) (P : E → Prop) (s : σ) :
    Prop where
  some : ∀ e, ops.get s = some e → C.Rep s P e (freshMode fr .fwd) ∧ AtEnd p .bwd P e
  none : ops.get s = none → ∀ y, ¬ P y

/-- Opening the merging iterator. -/
theorem open_spec (hl : Laws p ops C) (hr : p.byKey = false → ∀ a b, p.rank a = p.rank b)
    {fr : Bool} {P : Nat → E → Prop} {cs : List (Nat × σ)} (hnd : (cs.map (·.1)).Nodup)
    (ho : ∀ c ∈ cs, Opened p ops C fr (P c.1) c.2)
    (hcoh : ∀ i ∈ cs.map (·.1), ∀ j ∈ cs.map (·.1), ∀ x y, P i x → P j y → p.ord x = p.ord y →
      p.rank x = p.rank y → x = y) :
    Opened p (mergeOps p ops) (mergeSpec p C) fr (Merged p (cs.map (·.1)) P) (openAll p ops cs) := by
  obtain ⟨w, h1, h2, h3, h4⟩ := openAll_fold (p := p) ops cs [] List.Pairwise.nil (by simpa using hnd)
  have hopen : openAll p ops cs = { win := w, cur := w.head?.map (·.last) } := by
    rw [← h1]; rfl
  have hmem : ∀ x ∈ w, ∃ c ∈ cs, ∃ e, ops.get c.2 = some e ∧ x = { id := c.1, cur := c.2, last := e } := by
    intro x hx
    rcases (h4 x).1 hx with h | h
    · cases h
    · exact h
  have hsub : ∀ i ∈ w.map (·.id), i ∈ cs.map (·.1) := by
    intro i hi
    obtain ⟨x, hx, rfl⟩ := List.mem_map.1 hi
    obtain ⟨c, hc, e, _, rfl⟩ := hmem x hx
    exact List.mem_map_of_mem hc
  have hrest : ∀ i ∈ cs.map (·.1), (∃ y, P i y) → i ∈ w.map (·.id) := by
    intro i hi hy
    obtain ⟨c, hc, rfl⟩ := List.mem_map.1 hi
    cases hg : ops.get c.2 with
    | none =>
      obtain ⟨y, hy⟩ := hy
      exact absurd hy ((ho c hc).none hg y)
    | some e =>
      exact List.mem_map.2 ⟨_, (h4 _).2 (Or.inr ⟨c, hc, e, hg, rfl⟩), rfl⟩
  have hq : ∀ x, Merged p (cs.map (·.1)) P x ↔ Merged p (w.map (·.id)) P x := by
    intro x
    constructor
    · rintro ⟨⟨i, hi, hx⟩, hm⟩
      exact ⟨⟨i, hrest i hi ⟨x, hx⟩, hx⟩, fun j hj => hm j (hsub j hj)⟩
    · rintro ⟨⟨i, hi, hx⟩, hm⟩
      exact ⟨⟨i, hsub i hi, hx⟩, fun j hj e' he' => hm j (hrest j hj ⟨e', he'⟩) e' he'⟩
  constructor
  · intro e he
    rw [hopen] at he ⊢
    cases hw : w with
    | nil => rw [hw] at he; cases he
    | cons x l =>
      have hxm : x ∈ w := by rw [hw]; exact List.mem_cons_self
      have hxe : x.last = e := by
        rw [hw] at he
        simpa [mergeOps] using he
      have hs : Shape p P w (Merged p (cs.map (·.1)) P) :=
        ⟨h3, by rw [hw]; simp, h2, hq, fun i hi j hj => hcoh i (hsub i hi) j (hsub j hj)⟩
      have hff : w.find? (fun _ => true) = some x := by rw [hw]; rfl
      have hfst := head_first hr h2 hff
      obtain ⟨b1, _, b3⟩ := seek_ok (d := .fwd) (In := fun _ => True) hl hs (freshMode_cases fr .fwd) hxm
        (fun _ _ _ _ => trivial) (by
          intro y hy
          obtain ⟨c, hc, e', he', rfl⟩ := hmem y hy
          obtain ⟨a1, a2⟩ := (ho c hc).some e' he'
          exact ⟨a1, trivial, fun z hz _ hd => a2 z hz (dlt_opp.2 hd), rfl, rfl,
            flagsOk_fresh hl (own_fresh hl a1) rfl rfl⟩)
        (fun y hy => (hfst y hy rfl).1) (fun y hy => (hfst y hy rfl).2)
      rw [hxe] at b1 b3
      rw [← hw]
      refine ⟨?_, fun y hy hd => b3 y hy trivial (dlt_opp.1 hd)⟩
      have : w.head?.map (·.last) = some e := by rw [hw]; simp [hxe]
      rw [this]
      exact b1
  · intro he y hy
    rw [hopen] at he
    cases hw : w with
    | nil =>
      obtain ⟨⟨i, hi, _⟩, _⟩ := (hq y).1 hy
      rw [hw] at hi
      cases hi
    | cons x l => rw [hw] at he; cases he

end
end Jungle.Iter
