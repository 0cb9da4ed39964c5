/-
  Putting cursors together: two kinds of children, children opened in a list, and cursors with the
  same contents.
-/
import Verif.Iter.DBItr
import Verif.Iter.MergeLaws
import Verif.Iter.LeafLaws

set_option linter.unusedSectionVars false

namespace Jungle.Iter
variable {σ τ E O : Type} [LinearOrder O]

def sumSpec (C1 : CSpec σ E O) (C2 : CSpec τ E O) : CSpec (σ ⊕ τ) E O where
  Rep := fun s P e m => match s with
    | .inl a => C1.Rep a P e m
    | .inr b => C2.Rep b P e m
  Own := fun s P fr => match s with
    | .inl a => C1.Own a P fr
    | .inr b => C2.Own b P fr
  Low := fun s P k => match s with
    | .inl a => C1.Low a P k
    | .inr b => C2.Low b P k
  KOk := fun k => C1.KOk k ∧ C2.KOk k

theorem sum_laws {p : Par E O} {o1 : Ops σ E O} {o2 : Ops τ E O} {C1 : CSpec σ E O}
    {C2 : CSpec τ E O} (h1 : Laws p o1 C1) (h2 : Laws p o2 C2) :
    Laws p (sumOps o1 o2) (sumSpec C1 C2) where
  mem := by
    rintro (s | s) P e m h
    · exact h1.mem h
    · exact h2.mem h
  get := by
    rintro (s | s) P e m h
    · exact h1.get h
    · exact h2.get h
  weaken := by
    rintro (s | s) P e m d h hc
    · exact h1.weaken h hc
    · exact h2.weaken h hc
  own := by
    rintro (s | s) P e m h
    · exact h1.own h
    · exact h2.own h
  own_false := by
    rintro (s | s) P fr h
    · exact h1.own_false h
    · exact h2.own_false h
  own_ne := by
    rintro (s | s) P fr h
    · exact h1.own_ne h
    · exact h2.own_ne h
  own_inj := by
    rintro (s | s) P fr h
    · exact h1.own_inj h
    · exact h2.own_inj h
  own_two := by
    rintro (s | s) P h
    · exact h1.own_two h
    · exact h2.own_two h
  low := by
    rintro (s | s) P k h
    · exact h1.low h
    · exact h2.low h
  step := by
    rintro (s | s) P e m d h hc
    · rcases h1.step h hc with ⟨s', e', a1, a2, a3, a4⟩ | ⟨s', a1, a2, a3, a4⟩
      · exact Or.inl ⟨.inl s', e', by simp only [sumOps, a1], a2, a3, a4⟩
      · exact Or.inr ⟨.inl s', by simp only [sumOps, a1], a2, a3, a4⟩
    · rcases h2.step h hc with ⟨s', e', a1, a2, a3, a4⟩ | ⟨s', a1, a2, a3, a4⟩
      · exact Or.inl ⟨.inr s', e', by simp only [sumOps, a1], a2, a3, a4⟩
      · exact Or.inr ⟨.inr s', by simp only [sumOps, a1], a2, a3, a4⟩
  seek_first := by
    rintro (s | s) P fr h
    · obtain ⟨s', e, a1, a2, a3⟩ := h1.seek_first h
      exact ⟨.inl s', e, by simp only [sumOps, a1], a2, a3⟩
    · obtain ⟨s', e, a1, a2, a3⟩ := h2.seek_first h
      exact ⟨.inr s', e, by simp only [sumOps, a1], a2, a3⟩
  seek_last := by
    rintro (s | s) P fr h
    · obtain ⟨s', e, a1, a2, a3⟩ := h1.seek_last h
      exact ⟨.inl s', e, by simp only [sumOps, a1], a2, a3⟩
    · obtain ⟨s', e, a1, a2, a3⟩ := h2.seek_last h
      exact ⟨.inr s', e, by simp only [sumOps, a1], a2, a3⟩
  seek_ge := by
    rintro (s | s) P fr k h hk
    · rcases h1.seek_ge h hk.1 with ⟨s', e, a1, a2⟩ | ⟨a0, ⟨s', e, a1, a2⟩ | a1⟩
      · exact Or.inl ⟨.inl s', e, by simp only [sumOps, a1], a2⟩
      · exact Or.inr ⟨a0, Or.inl ⟨.inl s', e, by simp only [sumOps, a1], a2⟩⟩
      · exact Or.inr ⟨a0, Or.inr (by simp only [sumOps, a1])⟩
    · rcases h2.seek_ge h hk.2 with ⟨s', e, a1, a2⟩ | ⟨a0, ⟨s', e, a1, a2⟩ | a1⟩
      · exact Or.inl ⟨.inr s', e, by simp only [sumOps, a1], a2⟩
      · exact Or.inr ⟨a0, Or.inl ⟨.inr s', e, by simp only [sumOps, a1], a2⟩⟩
      · exact Or.inr ⟨a0, Or.inr (by simp only [sumOps, a1])⟩
  seek_le := by
    rintro (s | s) P k h hk
    · obtain ⟨s', e, a1, a2⟩ := h1.seek_le h hk.1
      exact ⟨.inl s', e, by simp only [sumOps, a1], a2⟩
    · obtain ⟨s', e, a1, a2⟩ := h2.seek_le h hk.2
      exact ⟨.inr s', e, by simp only [sumOps, a1], a2⟩

/-- What a merging iterator shows: the entries of its children, for each position only the one of
    the highest rank. -/
def Best (p : Par E O) (P : E → Prop) (e : E) : Prop :=
  P e ∧ ∀ e', P e' → p.ord e' = p.ord e → p.rank e' ≤ p.rank e

/-- Opening a list of children. -/
theorem open_idx {p : Par E O} {ops : Ops σ E O} {C : CSpec σ E O} (hl : Laws p ops C)
    (hr : p.byKey = false → ∀ a b, p.rank a = p.rank b) {fr : Bool} {P : σ → E → Prop} {cs : List σ}
    (ho : ∀ s ∈ cs, Opened p ops C fr (P s) s)
    (hcoh : ∀ s ∈ cs, ∀ s' ∈ cs, ∀ x y, P s x → P s' y → p.ord x = p.ord y → p.rank x = p.rank y →
      x = y) {Q : E → Prop} (hQ : ∀ e, Q e ↔ Best p (fun x => ∃ s ∈ cs, P s x) e) :
    Opened p (mergeOps p ops) (mergeSpec p C) fr Q (openIdx p ops cs) := by
  have hids : (cs.zipIdx.map (fun x => (x.2, x.1))).map (·.1) = List.range' 0 cs.length := by
    rw [List.map_map]; exact List.zipIdx_map_snd 0 cs
  have hpos : ∀ c ∈ cs.zipIdx.map (fun x => (x.2, x.1)), cs[c.1]? = some c.2 := by
    intro c hc
    obtain ⟨x, hx, rfl⟩ := List.mem_map.1 hc
    exact List.mem_zipIdx_iff_getElem?.1 hx
  have hP : ∀ (i : Nat) s, cs[i]? = some s →
      (fun e => ∃ s, cs[i]? = some s ∧ P s e) = P s := by
    intro i s hs
    funext e
    apply propext
    constructor
    · rintro ⟨s', h1, h2⟩
      rw [hs] at h1
      cases h1
      exact h2
    · intro h; exact ⟨s, hs, h⟩
  have h := open_spec (P := fun i e => ∃ s, cs[i]? = some s ∧ P s e) (fr := fr) hl hr
    (cs := cs.zipIdx.map (fun x => (x.2, x.1)))
    (by rw [hids]; exact List.nodup_range')
    (by
      intro c hc
      have := hpos c hc
      show Opened p ops C fr (fun e => ∃ s, cs[c.1]? = some s ∧ P s e) c.2
      rw [hP c.1 c.2 this]
      exact ho c.2 (List.mem_of_getElem? this))
    (by
      rintro i _ j _ x y ⟨s, hs, hx⟩ ⟨s', hs', hy⟩
      exact hcoh s (List.mem_of_getElem? hs) s' (List.mem_of_getElem? hs') x y hx hy)
  have hq : Q = Merged p ((cs.zipIdx.map (fun x => (x.2, x.1))).map (·.1))
      (fun i e => ∃ s, cs[i]? = some s ∧ P s e) := by
    funext e
    apply propext
    rw [hQ e, hids]
    have hmem : ∀ s ∈ cs, ∃ i ∈ List.range' 0 cs.length, cs[i]? = some s := by
      intro s hs
      obtain ⟨i, hi, rfl⟩ := List.mem_iff_getElem.1 hs
      exact ⟨i, by simpa [List.mem_range'] using hi, by simp [hi]⟩
    constructor
    · rintro ⟨⟨s, hs, he⟩, hm⟩
      obtain ⟨i, hi, his⟩ := hmem s hs
      exact ⟨⟨i, hi, s, his, he⟩,
        fun j hj e' ⟨s', hs', he'⟩ => hm e' ⟨s', List.mem_of_getElem? hs', he'⟩⟩
    · rintro ⟨⟨i, hi, s, his, he⟩, hm⟩
      refine ⟨⟨s, List.mem_of_getElem? his, he⟩, ?_⟩
      rintro e' ⟨s', hs', he'⟩
      obtain ⟨j, hj, hjs⟩ := hmem s' hs'
      exact hm j hj e' ⟨s', hjs, he'⟩
  rw [hq]
  exact h

theorem Opened.sum_inl {p : Par E O} {o1 : Ops σ E O} {o2 : Ops τ E O} {C1 : CSpec σ E O}
    {C2 : CSpec τ E O} {fr : Bool} {P : E → Prop} {s : σ} (h : Opened p o1 C1 fr P s) :
    Opened p (sumOps o1 o2) (sumSpec C1 C2) fr P (.inl s) := ⟨h.some, h.none⟩

theorem Opened.sum_inr {p : Par E O} {o1 : Ops σ E O} {o2 : Ops τ E O} {C1 : CSpec σ E O}
    {C2 : CSpec τ E O} {fr : Bool} {P : E → Prop} {s : τ} (h : Opened p o2 C2 fr P s) :
    Opened p (sumOps o1 o2) (sumSpec C1 C2) fr P (.inr s) := ⟨h.some, h.none⟩

/-- A cursor whose contents have the property `X`. -/
def withX (C : CSpec σ E O) (X : (E → Prop) → Prop) : CSpec σ E O where
  Rep := fun s P e m => C.Rep s P e m ∧ X P
  Own := fun s P fr => C.Own s P fr ∧ X P
  Low := fun s P k => C.Low s P k ∧ X P
  KOk := C.KOk

theorem withX_laws {p : Par E O} {ops : Ops σ E O} {C : CSpec σ E O} (hl : Laws p ops C)
    (X : (E → Prop) → Prop) : Laws p ops (withX C X) where
  mem := fun h => hl.mem h.1
  get := fun h => hl.get h.1
  weaken := fun h hc => ⟨hl.weaken h.1 hc, h.2⟩
  own := fun h => ⟨hl.own h.1, h.2⟩
  own_false := fun h => ⟨hl.own_false h.1, h.2⟩
  own_ne := fun h => hl.own_ne h.1
  own_inj := fun h => hl.own_inj h.1
  own_two := fun h => hl.own_two h.1
  low := fun h => ⟨hl.low h.1, h.2⟩
  step := by
    intro s P e m d h hc
    rcases hl.step h.1 hc with ⟨s', e', a1, a2, a3, a4⟩ | ⟨s', a1, a2, a3, a4⟩
    · exact Or.inl ⟨s', e', a1, a2, ⟨a3, h.2⟩, a4⟩
    · exact Or.inr ⟨s', a1, a2, ⟨a3, h.2⟩, a4⟩
  seek_first := by
    intro s P fr h
    obtain ⟨s', e, a1, a2, a3⟩ := hl.seek_first h.1
    exact ⟨s', e, a1, ⟨a2, h.2⟩, a3⟩
  seek_last := by
    intro s P fr h
    obtain ⟨s', e, a1, a2, a3⟩ := hl.seek_last h.1
    exact ⟨s', e, a1, ⟨a2, h.2⟩, a3⟩
  seek_ge := by
    intro s P fr k h hk
    rcases hl.seek_ge h.1 hk with ⟨s', e, a1, a2, a3, a4, a5⟩ | ⟨a0, ⟨s', e, a1, a2, a3, a4⟩ | a1⟩
    · exact Or.inl ⟨s', e, a1, ⟨a2, h.2⟩, a3, a4, a5, h.2⟩
    · exact Or.inr ⟨a0, Or.inl ⟨s', e, a1, a2, a3, a4, h.2⟩⟩
    · exact Or.inr ⟨a0, Or.inr a1⟩
  seek_le := by
    intro s P k h hk
    obtain ⟨s', e, a1, a2, a3⟩ := hl.seek_le h.1 hk
    exact ⟨s', e, a1, ⟨a2, h.2⟩, a3⟩

theorem withX_opened {p : Par E O} {ops : Ops σ E O} {C : CSpec σ E O} {fr : Bool} {P : E → Prop}
    {s : σ} (h : Opened p ops C fr P s) {X : (E → Prop) → Prop} (hX : (∃ e, ops.get s = some e) → X P) :
    Opened p ops (withX C X) fr P s :=
  ⟨fun e he => ⟨⟨(h.some e he).1, hX ⟨e, he⟩⟩, (h.some e he).2⟩, h.none⟩

/-- Every leaf has an entry that is not beyond `k`. -/
def OwnLow (C : CSpec σ E O) (k : O) : Prop := ∀ {s P fr}, C.Own s P fr → C.Low s P k

theorem ownLow_merge {p : Par E O} {C : CSpec σ E O} {k : O} (h : OwnLow C k) :
    OwnLow (mergeSpec p C) k := by
  rintro s P fr ⟨Q, h1, h2⟩
  exact ⟨Q, h1, fun x hx => ⟨h (h2 x hx).1, (h2 x hx).2⟩⟩

theorem ownLow_sum {C1 : CSpec σ E O} {C2 : CSpec τ E O} {k : O} (h1 : OwnLow C1 k) (h2 : OwnLow C2 k) :
    OwnLow (sumSpec C1 C2) k := by
  rintro (s | s) P fr h
  · exact h1 h
  · exact h2 h

theorem ownLow_leaf {N : Type} {p : Par E O} {kind : Kind} (hk : kind ≠ .memSeq) (lo hi : Option O) {k : O} :
    OwnLow (withX (leafSpec (N := N) p kind lo hi) (fun P => ∃ e, P e ∧ p.ord e ≤ k)) k := by
  rintro s P fr ⟨⟨h1, h2, h3, _, _⟩, h6⟩
  exact ⟨⟨hk, h1, h2, h3, h6⟩, h6⟩

end Jungle.Iter
