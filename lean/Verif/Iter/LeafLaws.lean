/-
  The leaf iterators are cursors.
-/
import Verif.Iter.Leaf
import Verif.Iter.MergeLaws

set_option linter.unusedSectionVars false

namespace Jungle.Iter
variable {O N E : Type} [LinearOrder O]

theorem filter_length_lt {α : Type} {f g : α → Bool} {l : List α} (h : ∀ x ∈ l, f x = true → g x = true)
    (hex : ∃ x ∈ l, g x = true ∧ f x = false) : (l.filter f).length < (l.filter g).length := by
  induction l with
  | nil => obtain ⟨x, hx, _⟩ := hex; cases hx
  | cons a l ih =>
    have hle : ∀ l' : List α, (∀ x ∈ l', f x = true → g x = true) →
        (l'.filter f).length ≤ (l'.filter g).length := by
      intro l'
      induction l' with
      | nil => intro _; exact Nat.le_refl _
      | cons b l' ih' =>
        intro hh
        have := ih' (fun x hx => hh x (List.mem_cons_of_mem _ hx))
        cases hfb : f b
        · cases hgb : g b
          · simpa [List.filter, hfb, hgb] using this
          · simp only [List.filter, hfb, hgb, List.length_cons]; omega
        · have hgb := hh b List.mem_cons_self hfb
          simp only [List.filter, hfb, hgb, List.length_cons]; omega
    obtain ⟨x, hx, hgx, hfx⟩ := hex
    rcases List.mem_cons.1 hx with hx | hx
    · subst hx
      have := hle l (fun y hy => h y (List.mem_cons_of_mem _ hy))
      simp only [List.filter, hfx, hgx, List.length_cons]
      omega
    · have := ih (fun y hy => h y (List.mem_cons_of_mem _ hy)) ⟨x, hx, hgx, hfx⟩
      cases hfa : f a
      · cases hga : g a
        · simpa [List.filter, hfa, hga] using this
        · simp only [List.filter, hfa, hga, List.length_cons]; omega
      · have hga := h a List.mem_cons_self hfa
        simp only [List.filter, hfa, hga, List.length_cons]; omega

/-- Structural facts about a leaf. -/
structure LeafOk (p : Par E O) (kind : Kind) (lo hi : Option O) (s : Leaf O N E) : Prop where
  sorted : s.nodes.Pairwise (fun a b => a.1 < b.1)
  ord : ∀ n ∈ s.nodes, ∀ e, s.val n.2 = some e → p.ord e = n.1
  lo : s.lo = lo
  hi : s.hi = hi
  all : kind = .memSeq → ∀ n ∈ s.nodes, (s.val n.2).isSome = true

/-- What a leaf shows. -/
def leafIn (s : Leaf O N E) (e : E) : Prop :=
  ∃ n ∈ s.nodes, s.below n.1 = false ∧ s.above n.1 = false ∧ s.val n.2 = some e

def leafSpec (p : Par E O) (kind : Kind) (lo hi : Option O) : CSpec (Leaf O N E) E O where
  Rep := fun s P e m => LeafOk p kind lo hi s ∧ (∀ x, P x ↔ leafIn s x) ∧ s.pos = some (p.ord e) ∧
    leafIn s e ∧ (m = .free → ∃ a b, P a ∧ P b ∧ p.ord a ≠ p.ord b)
  Own := fun s P fr => LeafOk p kind lo hi s ∧ (∀ x, P x ↔ leafIn s x) ∧ s.pos.isNone = false ∧
    (∃ e, P e) ∧ (fr = true → ∃ a b, P a ∧ P b ∧ p.ord a ≠ p.ord b)
  Low := fun s P k => kind ≠ .memSeq ∧ LeafOk p kind lo hi s ∧ (∀ x, P x ↔ leafIn s x) ∧
    s.pos.isNone = false ∧ ∃ e, P e ∧ p.ord e ≤ k
  KOk := fun k => kind ≠ .memSeq ∧ (∀ a, lo = some a → a ≤ k) ∧ ∀ b, hi = some b → k ≤ b

section
variable {p : Par E O} {kind : Kind} {lo hi : Option O} {s : Leaf O N E}

theorem Leaf.below_false {k : O} : s.below k = false ↔ ∀ a, s.lo = some a → a ≤ k := by
  unfold Leaf.below
  cases h : s.lo with
  | none => simp
  | some a => simp

theorem Leaf.above_false {k : O} : s.above k = false ↔ ∀ b, s.hi = some b → k ≤ b := by
  unfold Leaf.above
  cases h : s.hi with
  | none => simp
  | some a => simp

theorem Leaf.below_mono {k k' : O} (h : s.below k = false) (hk : k ≤ k') : s.below k' = false := by
  rw [Leaf.below_false] at h ⊢
  intro a ha; exact le_trans (h a ha) hk

theorem Leaf.above_mono {k k' : O} (h : s.above k = false) (hk : k' ≤ k) : s.above k' = false := by
  rw [Leaf.above_false] at h ⊢
  intro a ha; exact le_trans hk (h a ha)

theorem scanFwd_spec (s : Leaf O N E) : ∀ (l : List (O × N)), l.Pairwise (fun a b => a.1 < b.1) →
    (∃ n ∈ l, s.scanFwd l = some n.1 ∧ s.above n.1 = false ∧ (s.val n.2).isSome = true ∧
      ∀ n' ∈ l, (s.val n'.2).isSome = true → n.1 ≤ n'.1) ∨
    (s.scanFwd l = none ∧ ∀ n ∈ l, (s.val n.2).isSome = true → s.above n.1 = true) := by
  intro l
  induction l with
  | nil => intro _; right; exact ⟨rfl, by simp⟩
  | cons n l ih =>
    intro hs
    obtain ⟨hn, hl⟩ := List.pairwise_cons.1 hs
    simp only [Leaf.scanFwd]
    cases ha : s.above n.1
    · simp only [Bool.false_eq_true, if_false]
      cases hv : (s.val n.2).isSome
      · simp only [Bool.false_eq_true, if_false]
        rcases ih hl with ⟨m, hm, h1, h2, h3, h4⟩ | ⟨h1, h2⟩
        · left
          refine ⟨m, List.mem_cons_of_mem _ hm, h1, h2, h3, ?_⟩
          intro n' hn' hv'
          rcases List.mem_cons.1 hn' with h | h
          · subst h; rw [hv] at hv'; cases hv'
          · exact h4 n' h hv'
        · right
          refine ⟨h1, ?_⟩
          intro n' hn' hv'
          rcases List.mem_cons.1 hn' with h | h
          · subst h; rw [hv] at hv'; cases hv'
          · exact h2 n' h hv'
      · simp only [if_true]
        left
        refine ⟨n, List.mem_cons_self, rfl, ha, hv, ?_⟩
        intro n' hn' _
        rcases List.mem_cons.1 hn' with h | h
        · subst h; exact le_refl _
        · exact le_of_lt (hn n' h)
    · simp only [if_true]
      right
      refine ⟨trivial, ?_⟩
      intro n' hn' _
      rcases List.mem_cons.1 hn' with h | h
      · subst h; exact ha
      · cases hc : s.above n'.1
        · rw [Leaf.above_mono hc (le_of_lt (hn n' h))] at ha; cases ha
        · rfl

theorem scanBwd_spec (s : Leaf O N E) : ∀ (l : List (O × N)), l.Pairwise (fun a b => b.1 < a.1) →
    (∃ n ∈ l, s.scanBwd l = some n.1 ∧ s.below n.1 = false ∧ (s.val n.2).isSome = true ∧
      ∀ n' ∈ l, (s.val n'.2).isSome = true → n'.1 ≤ n.1) ∨
    (s.scanBwd l = none ∧ ∀ n ∈ l, (s.val n.2).isSome = true → s.below n.1 = true) := by
  intro l
  induction l with
  | nil => intro _; right; exact ⟨rfl, by simp⟩
  | cons n l ih =>
    intro hs
    obtain ⟨hn, hl⟩ := List.pairwise_cons.1 hs
    simp only [Leaf.scanBwd]
    cases ha : s.below n.1
    · simp only [Bool.false_eq_true, if_false]
      cases hv : (s.val n.2).isSome
      · simp only [Bool.false_eq_true, if_false]
        rcases ih hl with ⟨m, hm, h1, h2, h3, h4⟩ | ⟨h1, h2⟩
        · left
          refine ⟨m, List.mem_cons_of_mem _ hm, h1, h2, h3, ?_⟩
          intro n' hn' hv'
          rcases List.mem_cons.1 hn' with h | h
          · subst h; rw [hv] at hv'; cases hv'
          · exact h4 n' h hv'
        · right
          refine ⟨h1, ?_⟩
          intro n' hn' hv'
          rcases List.mem_cons.1 hn' with h | h
          · subst h; rw [hv] at hv'; cases hv'
          · exact h2 n' h hv'
      · simp only [if_true]
        left
        refine ⟨n, List.mem_cons_self, rfl, ha, hv, ?_⟩
        intro n' hn' _
        rcases List.mem_cons.1 hn' with h | h
        · subst h; exact le_refl _
        · exact le_of_lt (hn n' h)
    · simp only [if_true]
      right
      refine ⟨trivial, ?_⟩
      intro n' hn' _
      rcases List.mem_cons.1 hn' with h | h
      · subst h; exact ha
      · cases hc : s.below n'.1
        · rw [Leaf.below_mono hc (le_of_lt (hn n' h))] at ha; cases ha
        · rfl

theorem leaf_get {k : O} {n : O × N} {e : E} (hs : s.nodes.Pairwise (fun a b => a.1 < b.1))
    (hp : s.pos = some k) (hn : n ∈ s.nodes) (hk : n.1 = k) (hv : s.val n.2 = some e) :
    s.get = some e := by
  unfold Leaf.get
  rw [hp]
  simp only
  have : s.nodes.find? (fun n => decide (n.1 = k)) = some n := by
    generalize hl : s.nodes = l at hs hn
    clear hl
    induction l with
    | nil => cases hn
    | cons m l ih =>
      obtain ⟨hm, hl'⟩ := List.pairwise_cons.1 hs
      rcases List.mem_cons.1 hn with h | h
      · subst h; simp [hk]
      · rw [List.find?_cons_of_neg, ih hl' h]
        have := hm n h
        rw [hk] at this
        simp [ne_of_lt this]
  rw [this]
  exact hv

/-- Placing the cursor on a node that is shown. -/
theorem leaf_rep (hok : LeafOk p kind lo hi s) {P : E → Prop} (hP : ∀ x, P x ↔ leafIn s x)
    {n : O × N} (hn : n ∈ s.nodes) (hb : s.below n.1 = false) (ha : s.above n.1 = false)
    (hv : (s.val n.2).isSome = true) {m : Mode}
    (hm : m = .free → ∃ a b, P a ∧ P b ∧ p.ord a ≠ p.ord b) :
    ∃ e, p.ord e = n.1 ∧ (leafSpec p kind lo hi).Rep { s with pos := some n.1 } P e m := by
  obtain ⟨e, he⟩ := Option.isSome_iff_exists.1 hv
  have heo := hok.ord n hn e he
  exact ⟨e, heo, ⟨hok.sorted, hok.ord, hok.lo, hok.hi, hok.all⟩, hP, by rw [heo], ⟨n, hn, hb, ha, he⟩, hm⟩

theorem leaf_inj (hok : LeafOk p kind lo hi s) {a b : E} (ha : leafIn s a) (hb : leafIn s b)
    (h : p.ord a = p.ord b) : a = b := by
  obtain ⟨n, hn, _, _, hv⟩ := ha
  obtain ⟨m, hm, _, _, hw⟩ := hb
  have h1 := hok.ord n hn a hv
  have h2 := hok.ord m hm b hw
  have : n = m := by
    have hne : n.1 = m.1 := by rw [← h1, ← h2, h]
    by_contra hnm
    rcases List.pairwise_iff_getElem.1 hok.sorted with hh
    obtain ⟨i, hi, rfl⟩ := List.mem_iff_getElem.1 hn
    obtain ⟨j, hj, rfl⟩ := List.mem_iff_getElem.1 hm
    rcases Nat.lt_trichotomy i j with hij | hij | hij
    · exact absurd hne (ne_of_lt (hh i j hi hj hij))
    · subst hij; exact hnm rfl
    · exact absurd hne.symm (ne_of_lt (hh j i hj hi hij))
  subst this
  rw [hv] at hw
  exact Option.some.inj hw

/-- Walking forward from the nodes that satisfy an upward closed condition. -/
theorem leaf_fwd (hok : LeafOk p kind lo hi s) {P : E → Prop} (hP : ∀ x, P x ↔ leafIn s x)
    {f : O × N → Bool} (hfb : ∀ n ∈ s.nodes, f n = true → s.below n.1 = false) {m : Mode}
    (hm : m = .free → ∃ a b, P a ∧ P b ∧ p.ord a ≠ p.ord b) :
    (∃ e n, n ∈ s.nodes ∧ f n = true ∧ s.scanFwd (s.nodes.filter f) = some n.1 ∧ p.ord e = n.1 ∧
      (leafSpec p kind lo hi).Rep { s with pos := some n.1 } P e m ∧
      ∀ y, P y → (∀ n' ∈ s.nodes, n'.1 = p.ord y → f n' = true) → p.ord e ≤ p.ord y) ∨
    (s.scanFwd (s.nodes.filter f) = none ∧ ∀ y, P y → ¬ ∀ n' ∈ s.nodes, n'.1 = p.ord y → f n' = true) := by
  rcases scanFwd_spec s (s.nodes.filter f) (hok.sorted.filter f) with ⟨n, hn, h1, h2, h3, h4⟩ | ⟨h1, h2⟩
  · left
    obtain ⟨hn1, hn2⟩ := List.mem_filter.1 hn
    obtain ⟨e, he, hrep⟩ := leaf_rep hok hP hn1 (hfb n hn1 hn2) h2 h3 hm
    refine ⟨e, n, hn1, hn2, h1, he, hrep, ?_⟩
    intro y hy hfy
    obtain ⟨n', hn', _, _, hv⟩ := (hP y).1 hy
    have heo := hok.ord n' hn' y hv
    rw [he, heo]
    exact h4 n' (List.mem_filter.2 ⟨hn', hfy n' hn' heo.symm⟩) (by rw [hv]; rfl)
  · right
    refine ⟨h1, ?_⟩
    intro y hy hfy
    obtain ⟨n', hn', _, ha, hv⟩ := (hP y).1 hy
    have heo := hok.ord n' hn' y hv
    have := h2 n' (List.mem_filter.2 ⟨hn', hfy n' hn' heo.symm⟩) (by rw [hv]; rfl)
    rw [ha] at this; cases this

theorem leaf_bwd (hok : LeafOk p kind lo hi s) {P : E → Prop} (hP : ∀ x, P x ↔ leafIn s x)
    {f : O × N → Bool} (hfb : ∀ n ∈ s.nodes, f n = true → s.above n.1 = false) {m : Mode}
    (hm : m = .free → ∃ a b, P a ∧ P b ∧ p.ord a ≠ p.ord b) :
    (∃ e n, n ∈ s.nodes ∧ f n = true ∧ s.scanBwd (s.nodes.filter f).reverse = some n.1 ∧ p.ord e = n.1 ∧
      (leafSpec p kind lo hi).Rep { s with pos := some n.1 } P e m ∧
      ∀ y, P y → (∀ n' ∈ s.nodes, n'.1 = p.ord y → f n' = true) → p.ord y ≤ p.ord e) ∨
    (s.scanBwd (s.nodes.filter f).reverse = none ∧
      ∀ y, P y → ¬ ∀ n' ∈ s.nodes, n'.1 = p.ord y → f n' = true) := by
  rcases scanBwd_spec s (s.nodes.filter f).reverse (List.pairwise_reverse.2 (hok.sorted.filter f)) with
    ⟨n, hn, h1, h2, h3, h4⟩ | ⟨h1, h2⟩
  · left
    obtain ⟨hn1, hn2⟩ := List.mem_filter.1 (List.mem_reverse.1 hn)
    obtain ⟨e, he, hrep⟩ := leaf_rep hok hP hn1 h2 (hfb n hn1 hn2) h3 hm
    refine ⟨e, n, hn1, hn2, h1, he, hrep, ?_⟩
    intro y hy hfy
    obtain ⟨n', hn', _, _, hv⟩ := (hP y).1 hy
    have heo := hok.ord n' hn' y hv
    rw [he, heo]
    exact h4 n' (List.mem_reverse.2 (List.mem_filter.2 ⟨hn', hfy n' hn' heo.symm⟩)) (by rw [hv]; rfl)
  · right
    refine ⟨h1, ?_⟩
    intro y hy hfy
    obtain ⟨n', hn', hb, _, hv⟩ := (hP y).1 hy
    have heo := hok.ord n' hn' y hv
    have := h2 n' (List.mem_reverse.2 (List.mem_filter.2 ⟨hn', hfy n' hn' heo.symm⟩)) (by rw [hv]; rfl)
    rw [hb] at this; cases this

theorem leaf_nb {P : E → Prop} (hok : LeafOk p kind lo hi s) (hP : ∀ x, P x ↔ leafIn s x) {y : E}
    (hy : P y) : s.below (p.ord y) = false ∧ s.above (p.ord y) = false := by
  obtain ⟨n', hn', hb, ha, hv⟩ := (hP y).1 hy
  rw [hok.ord n' hn' y hv]; exact ⟨hb, ha⟩

/-- The first entry. -/
theorem leaf_first (hok : LeafOk p kind lo hi s) {P : E → Prop} (hP : ∀ x, P x ↔ leafIn s x)
    (hne : ∃ e, P e) {m : Mode} (hm : m = .free → ∃ a b, P a ∧ P b ∧ p.ord a ≠ p.ord b) :
    ∃ e, s.scanFwd s.fromStart = some (p.ord e) ∧
      (leafSpec p kind lo hi).Rep { s with pos := some (p.ord e) } P e m ∧ AtEnd p .bwd P e := by
  rcases leaf_fwd hok hP (f := fun n => !s.below n.1) (fun n _ h => by simpa using h) hm with
    ⟨e, n, _, _, h1, h2, h3, h4⟩ | ⟨_, h2⟩
  · refine ⟨e, by rw [h2]; exact h1, by rw [h2]; exact h3, ?_⟩
    intro y hy
    refine not_lt.2 (h4 y hy ?_)
    intro n' _ hn'
    rw [hn', (leaf_nb hok hP hy).1]; rfl
  · obtain ⟨y, hy⟩ := hne
    refine absurd ?_ (h2 y hy)
    intro n' _ hn'
    rw [hn', (leaf_nb hok hP hy).1]; rfl

/-- The last entry. -/
theorem leaf_last (hok : LeafOk p kind lo hi s) {P : E → Prop} (hP : ∀ x, P x ↔ leafIn s x)
    (hne : ∃ e, P e) {m : Mode} (hm : m = .free → ∃ a b, P a ∧ P b ∧ p.ord a ≠ p.ord b) :
    ∃ e, s.scanBwd s.fromEnd = some (p.ord e) ∧
      (leafSpec p kind lo hi).Rep { s with pos := some (p.ord e) } P e m ∧ AtEnd p .fwd P e := by
  rcases leaf_bwd hok hP (f := fun n => !s.above n.1) (fun n _ h => by simpa using h) hm with
    ⟨e, n, _, _, h1, h2, h3, h4⟩ | ⟨_, h2⟩
  · refine ⟨e, by rw [h2]; exact h1, by rw [h2]; exact h3, ?_⟩
    intro y hy
    refine not_lt.2 (h4 y hy ?_)
    intro n' _ hn'
    rw [hn', (leaf_nb hok hP hy).2]; rfl
  · obtain ⟨y, hy⟩ := hne
    refine absurd ?_ (h2 y hy)
    intro n' _ hn'
    rw [hn', (leaf_nb hok hP hy).2]; rfl

theorem leaf_goto (s : Leaf O N E) (k : O) : s.goto (some k) = (.ok, { s with pos := some k }) := rfl

theorem rep_own {P : E → Prop} {e : E} {m : Mode} (h : (leafSpec (N := N) p kind lo hi).Rep s P e m)
    {fr : Bool} (hfr : fr = true → ∃ a b, P a ∧ P b ∧ p.ord a ≠ p.ord b) :
    (leafSpec p kind lo hi).Own s P fr := by
  obtain ⟨h1, h2, h3, h4, h5⟩ := h
  exact ⟨h1, h2, by rw [h3]; rfl, ⟨e, (h2 e).2 h4⟩, hfr⟩

theorem freshMode_free {fr : Bool} {d : Dir} (h : freshMode fr d = .free) : fr = true := by
  cases fr
  · cases h
  · rfl

/-- The nodes of a leaf of kind `memSeq` all show a record: its searches are the plain ones. -/
theorem seq_first (hok : LeafOk p .memSeq lo hi s) {k : O} (h : s.scanFwd s.fromStart = some k) :
    s.fromStart.head?.map (·.1) = some k := by
  cases hl : s.fromStart with
  | nil => rw [hl] at h; cases h
  | cons n l =>
    rw [hl] at h
    have hn : n ∈ s.nodes := (List.mem_filter.1 (show n ∈ s.fromStart by rw [hl]; exact List.mem_cons_self)).1
    simp only [Leaf.scanFwd] at h
    split at h
    · cases h
    · rw [if_pos (hok.all rfl n hn)] at h
      simpa using h

theorem seq_last (hok : LeafOk p .memSeq lo hi s) {k : O} (h : s.scanBwd s.fromEnd = some k) :
    s.fromEnd.head?.map (·.1) = some k := by
  cases hl : s.fromEnd with
  | nil => rw [hl] at h; cases h
  | cons n l =>
    rw [hl] at h
    have hn : n ∈ s.nodes := (List.mem_filter.1
      (List.mem_reverse.1 (show n ∈ s.fromEnd by rw [hl]; exact List.mem_cons_self))).1
    simp only [Leaf.scanBwd] at h
    split at h
    · cases h
    · rw [if_pos (hok.all rfl n hn)] at h
      simpa using h

theorem leaf_laws (p : Par E O) (kind : Kind) (lo hi : Option O) :
    Laws p (Leaf.ops (N := N) kind) (leafSpec p kind lo hi) where
  mem := by rintro s P e m ⟨_, h2, _, h4, _⟩; exact (h2 e).2 h4
  get := by
    rintro s P e m ⟨h1, h2, h3, ⟨n, hn, _, _, hv⟩, _⟩
    exact leaf_get h1.sorted h3 hn (h1.ord n hn e hv).symm hv
  weaken := by
    rintro s P e m d ⟨h1, h2, h3, h4, _⟩ _
    exact ⟨h1, h2, h3, h4, fun h => by cases h⟩
  own := by
    rintro s P e m h
    exact rep_own h (fun hh => h.2.2.2.2 (by simpa using hh))
  own_false := by
    rintro s P fr ⟨h1, h2, h3, h4, _⟩
    exact ⟨h1, h2, h3, h4, fun h => by cases h⟩
  own_ne := by rintro s P fr ⟨_, _, _, h, _⟩; exact h
  own_inj := by
    rintro s P fr ⟨h1, h2, _, _, _⟩ a b ha hb hab
    exact leaf_inj h1 ((h2 a).1 ha) ((h2 b).1 hb) hab
  own_two := by rintro s P ⟨_, _, _, _, h⟩; exact h rfl
  low := by
    rintro s P k ⟨_, h1, h2, h3, e, he, _⟩
    exact ⟨h1, h2, h3, ⟨e, he⟩, fun h => by cases h⟩
  step := by
    rintro s P e m d ⟨h1, h2, h3, h4, h5⟩ _
    have hmode : m.after d = .free → ∃ a b, P a ∧ P b ∧ p.ord a ≠ p.ord b := by
      intro h
      apply h5
      cases m with
      | fresh d' =>
        exfalso
        by_cases hd : d = d'
        · simp only [Mode.after, if_pos hd] at h; cases h
        · simp only [Mode.after, if_neg hd] at h; cases h
      | only d' => cases h
      | free => rfl
    have hstay : (leafSpec p kind lo hi).Rep s P e (m.after d) := ⟨h1, h2, h3, h4, hmode⟩
    have hnb := leaf_nb h1 h2 ((h2 e).2 h4)
    cases d with
    | fwd =>
      rcases leaf_fwd h1 h2 (f := fun n => decide (p.ord e < n.1))
        (fun n _ h => Leaf.below_mono hnb.1 (le_of_lt (by simpa using h))) hmode with
        ⟨e', n, hn, hf, g1, g2, g3, g4⟩ | ⟨g1, g2⟩
      · left
        refine ⟨_, e', ?_, ⟨(h2 e').2 g3.2.2.2.1, ?_, ?_⟩, g3, ?_⟩
        · simp only [Leaf.ops, Leaf.step, h3, g1, leaf_goto]
        · show p.ord e < p.ord e'
          rw [g2]; simpa using hf
        · intro y hy hlt
          refine not_lt.2 (g4 y hy ?_)
          intro n' _ hn'
          rw [hn']; simpa using (show p.ord e < p.ord y from hlt)
        · simp only [Leaf.ops, Leaf.left, h3]
          apply filter_length_lt
          · intro x _ hx
            simp only [decide_eq_true_eq] at hx hf ⊢
            exact lt_trans hf hx
          · exact ⟨n, hn, hf, by simp⟩
      · right
        refine ⟨s, ?_, ?_, hstay, Nat.le_refl _⟩
        · simp only [Leaf.ops, Leaf.step, h3, g1, Leaf.goto]
        · intro y hy hlt
          refine g2 y hy ?_
          intro n' _ hn'
          rw [hn']; simpa using (show p.ord e < p.ord y from hlt)
    | bwd =>
      rcases leaf_bwd h1 h2 (f := fun n => decide (n.1 < p.ord e))
        (fun n _ h => Leaf.above_mono hnb.2 (le_of_lt (by simpa using h))) hmode with
        ⟨e', n, hn, hf, g1, g2, g3, g4⟩ | ⟨g1, g2⟩
      · left
        refine ⟨_, e', ?_, ⟨(h2 e').2 g3.2.2.2.1, ?_, ?_⟩, g3, ?_⟩
        · simp only [Leaf.ops, Leaf.step, h3, g1, leaf_goto]
        · show p.ord e' < p.ord e
          rw [g2]; simpa using hf
        · intro y hy hlt
          refine not_lt.2 (g4 y hy ?_)
          intro n' _ hn'
          rw [hn']; simpa using (show p.ord y < p.ord e from hlt)
        · simp only [Leaf.ops, Leaf.left, h3]
          apply filter_length_lt
          · intro x _ hx
            simp only [decide_eq_true_eq] at hx hf ⊢
            exact lt_trans hx hf
          · exact ⟨n, hn, hf, by simp⟩
      · right
        refine ⟨s, ?_, ?_, hstay, Nat.le_refl _⟩
        · simp only [Leaf.ops, Leaf.step, h3, g1, Leaf.goto]
        · intro y hy hlt
          refine g2 y hy ?_
          intro n' _ hn'
          rw [hn']; simpa using (show p.ord y < p.ord e from hlt)
  seek_first := by
    rintro s P fr ⟨h1, h2, h3, h4, h5⟩
    obtain ⟨e, g1, g2, g3⟩ := leaf_first h1 h2 h4 (m := freshMode fr .fwd) (fun h => h5 (freshMode_free h))
    refine ⟨_, e, ?_, g2, g3⟩
    have hne : s.fromStart.isEmpty = false := by
      cases hl : s.fromStart with
      | nil => rw [hl] at g1; cases g1
      | cons _ _ => rfl
    cases kind with
    | memKey =>
      simp only [Leaf.ops, Leaf.seek, h3, Bool.false_eq_true, if_false, Leaf.memGE, hne, g1, leaf_goto]
    | memSeq =>
      have g4 := seq_first h1 g1
      simp only [Leaf.ops, Leaf.seek, h3, Bool.false_eq_true, if_false]
      cases hl : s.fromStart with
      | nil => rw [hl] at hne; cases hne
      | cons n l =>
        rw [hl] at g4
        simp only [List.head?_cons, Option.map_some] at g4
        simp only [Leaf.seqGE, g4, leaf_goto]
    | table =>
      simp only [Leaf.ops, Leaf.seek, h3, Bool.false_eq_true, if_false, g1, leaf_goto]
  seek_last := by
    rintro s P fr ⟨h1, h2, h3, h4, h5⟩
    obtain ⟨e, g1, g2, g3⟩ := leaf_last h1 h2 h4 (m := freshMode fr .bwd) (fun h => h5 (freshMode_free h))
    refine ⟨_, e, ?_, g2, g3⟩
    cases kind with
    | memKey =>
      simp only [Leaf.ops, Leaf.seek, h3, Bool.false_eq_true, if_false, g1, leaf_goto]
    | memSeq =>
      have g4 := seq_last h1 g1
      simp only [Leaf.ops, Leaf.seek, h3, Bool.false_eq_true, if_false]
      cases hh : s.hi with
      | none => simp only [g4, leaf_goto, ← hh]
      | some b =>
        simp only [Leaf.seqLE, hh, lt_irrefl, if_false]
        have hfe : (s.nodes.filter (fun n => decide (n.1 ≤ b))).reverse = s.fromEnd := by
          unfold Leaf.fromEnd
          congr 1
          apply List.filter_congr
          intro n _
          simp only [Leaf.above, hh]
          by_cases hc : n.1 ≤ b
          · simp [hc]
          · simp [hc, not_le.1 hc]
        rw [hfe]
        cases hl : s.fromEnd with
        | nil => rw [hl] at g4; cases g4
        | cons n l =>
          rw [hl] at g4
          simp only [List.head?_cons, Option.map_some] at g4
          simp only [g4, leaf_goto, ← hh]
    | table =>
      simp only [Leaf.ops, Leaf.seek, h3, Bool.false_eq_true, if_false, g1, leaf_goto]
  seek_ge := by
    rintro s P fr k ⟨h1, h2, h3, h4, h5⟩ ⟨hk0, hk1, hk2⟩
    have hkb : s.below k = false := Leaf.below_false.2 (fun a ha => hk1 a (h1.lo ▸ ha))
    obtain ⟨el, l1, l2, l3⟩ := leaf_last h1 h2 h4 (m := .fresh .bwd) (fun h => by cases h)
    have hlastOwn : (leafSpec p kind lo hi).Own { s with pos := some (p.ord el) } P fr := rep_own l2 h5
    rcases leaf_fwd h1 h2 (f := fun n => decide (k ≤ n.1))
      (fun n _ h => Leaf.below_mono hkb (by simpa using h)) (m := .only .fwd) (fun h => by cases h) with
      ⟨e, n, hn, hf, g1, g2, g3, g4⟩ | ⟨g1, g2⟩
    · left
      refine ⟨_, e, ?_, g3, ?_, ?_, rep_own g3 h5⟩
      · cases kind with
        | memKey =>
          have hne : (s.nodes.filter (fun n => decide (k ≤ n.1))).isEmpty = false := by
            cases hl : s.nodes.filter (fun n => decide (k ≤ n.1)) with
            | nil => rw [hl] at g1; cases g1
            | cons _ _ => rfl
          simp only [Leaf.ops, Leaf.seek, h3, Bool.false_eq_true, if_false, Leaf.memGE, hne, g1, leaf_goto]
        | memSeq => exact absurd rfl hk0
        | table => simp only [Leaf.ops, Leaf.seek, h3, Bool.false_eq_true, if_false, g1, leaf_goto]
      · rw [g2]; simpa using hf
      · intro y hy hky
        refine g4 y hy ?_
        intro n' _ hn'
        rw [hn']; simpa using hky
    · right
      have hall : ∀ y, P y → p.ord y < k := by
        intro y hy
        by_contra hc
        refine g2 y hy ?_
        intro n' _ hn'
        rw [hn']; simpa using not_lt.1 hc
      refine ⟨hall, ?_⟩
      have hPl : P el := (h2 el).2 l2.2.2.2.1
      have hgot : Leaf.get ({ s with pos := some (p.ord el) } : Leaf O N E) = some el := by
        obtain ⟨n, hn, _, _, hv⟩ := (h2 el).1 hPl
        exact leaf_get h1.sorted rfl hn (h1.ord n hn el hv).symm hv
      cases kind with
      | memKey =>
        cases hl : s.nodes.filter (fun n => decide (k ≤ n.1)) with
        | nil =>
          left
          refine ⟨{ s with pos := some (p.ord el) }, el, ?_, hgot, ⟨el, hPl, rfl⟩, hlastOwn⟩
          simp only [Leaf.ops, Leaf.seek, h3, Bool.false_eq_true, if_false, Leaf.memGE, hl,
            List.isEmpty_nil, if_true, l1, leaf_goto]
        | cons a l =>
          right
          rw [hl] at g1
          simp only [Leaf.ops, Leaf.seek, h3, Bool.false_eq_true, if_false, Leaf.memGE, hl,
            List.isEmpty_cons, g1, Leaf.goto]
      | memSeq => exact absurd rfl hk0
      | table =>
        left
        refine ⟨{ s with pos := some (p.ord el) }, el, ?_, hgot, ⟨el, hPl, rfl⟩, hlastOwn⟩
        simp only [Leaf.ops, Leaf.seek, h3, Bool.false_eq_true, if_false, g1, l1, leaf_goto]
  seek_le := by
    rintro s P k ⟨hkind, h1, h2, h3, ⟨y0, hy0, hy0k⟩⟩ ⟨hk0, hk1, hk2⟩
    have hka : s.above k = false := Leaf.above_false.2 (fun a ha => hk2 a (h1.hi ▸ ha))
    rcases leaf_bwd h1 h2 (f := fun n => decide (n.1 ≤ k))
      (fun n _ h => Leaf.above_mono hka (by simpa using h)) (m := .fresh .bwd) (fun h => by cases h) with
      ⟨e, n, hn, hf, g1, g2, g3, g4⟩ | ⟨g1, g2⟩
    · refine ⟨_, e, ?_, g3, ?_, ?_⟩
      · cases kind with
        | memKey =>
          have hne : ((s.nodes.filter (fun n => decide (n.1 ≤ k))).reverse).isEmpty = false := by
            cases hl : (s.nodes.filter (fun n => decide (n.1 ≤ k))).reverse with
            | nil => rw [hl] at g1; cases g1
            | cons _ _ => rfl
          simp only [Leaf.ops, Leaf.seek, h3, Bool.false_eq_true, if_false, Leaf.memLE, hne, g1, leaf_goto]
        | memSeq => exact absurd rfl hk0
        | table => simp only [Leaf.ops, Leaf.seek, h3, Bool.false_eq_true, if_false, g1, leaf_goto]
      · rw [g2]; simpa using hf
      · intro y hy hky
        refine g4 y hy ?_
        intro n' _ hn'
        rw [hn']; simpa using hky
    · refine absurd ?_ (g2 y0 hy0)
      intro n' _ hn'
      rw [hn']; simpa using hy0k

/-- A leaf that has just been opened. -/
theorem leaf_opened {nodes : List (O × N)} {val : N → Option E}
    (hs : nodes.Pairwise (fun a b => a.1 < b.1))
    (ho : ∀ n ∈ nodes, ∀ e, val n.2 = some e → p.ord e = n.1)
    (ha : kind = .memSeq → ∀ n ∈ nodes, (val n.2).isSome = true) {fr : Bool}
    (hfr : fr = true → ∀ x, leafIn (Leaf.init nodes val lo hi) x →
      ∃ a b, leafIn (Leaf.init nodes val lo hi) a ∧ leafIn (Leaf.init nodes val lo hi) b ∧
        p.ord a ≠ p.ord b) :
    Opened p (Leaf.ops kind) (leafSpec p kind lo hi) fr (leafIn (Leaf.init nodes val lo hi))
      (Leaf.init nodes val lo hi) := by
  generalize hs0 : ({ nodes := nodes, val := val, lo := lo, hi := hi, pos := none } : Leaf O N E) = s0
  have hok : LeafOk p kind lo hi s0 := by subst hs0; exact ⟨hs, ho, rfl, rfl, ha⟩
  have hP : ∀ x, leafIn (Leaf.init nodes val lo hi) x ↔ leafIn s0 x := by
    intro x; subst hs0; exact Iff.rfl
  have hinit : Leaf.init nodes val lo hi = { s0 with pos := s0.scanFwd s0.fromStart } := by
    subst hs0; rfl
  constructor
  · intro e he
    have hex : ∃ x, leafIn (Leaf.init nodes val lo hi) x := by
      by_contra hno
      have hnone : s0.scanFwd s0.fromStart = none := by
        rcases leaf_fwd hok hP (f := fun n => !s0.below n.1) (fun n _ h => by simpa using h)
          (m := .fresh .fwd) (fun h => by cases h) with ⟨e', n, _, _, _, _, h3, _⟩ | ⟨h1, _⟩
        · exact absurd ⟨e', (hP e').2 h3.2.2.2.1⟩ hno
        · exact h1
      rw [hinit, hnone] at he
      cases he
    obtain ⟨e', g1, g2, g3⟩ := leaf_first hok hP hex (m := freshMode fr .fwd) (fun h => by
      obtain ⟨x, hx⟩ := hex
      exact hfr (freshMode_free h) x hx)
    have heq : Leaf.init nodes val lo hi = { s0 with pos := some (p.ord e') } := by rw [hinit, g1]
    have hg := (show Leaf.get (Leaf.init nodes val lo hi) = some e from he)
    have hg' : Leaf.get ({ s0 with pos := some (p.ord e') } : Leaf O N E) = some e' := by
      obtain ⟨n, hn, _, _, hv⟩ := g2.2.2.2.1
      exact leaf_get hok.sorted rfl hn (hok.ord n hn e' hv).symm hv
    rw [heq, hg'] at hg
    cases hg
    refine ⟨?_, g3⟩
    have : ∀ s, s = Leaf.init nodes val lo hi →
        (leafSpec p kind lo hi).Rep s (leafIn (Leaf.init nodes val lo hi)) e (freshMode fr .fwd) := by
      intro s hs'
      rw [hs', heq] 
      rw [heq] at g2
      exact g2
    exact this _ rfl
  · intro he y hy
    obtain ⟨e', g1, g2, g3⟩ := leaf_first hok hP ⟨y, hy⟩ (m := .fresh .fwd) (fun h => by cases h)
    have heq : Leaf.init nodes val lo hi = { s0 with pos := some (p.ord e') } := by rw [hinit, g1]
    have hg := (show Leaf.get (Leaf.init nodes val lo hi) = none from he)
    have hg' : Leaf.get ({ s0 with pos := some (p.ord e') } : Leaf O N E) = some e' := by
      obtain ⟨n, hn, _, _, hv⟩ := g2.2.2.2.1
      exact leaf_get hok.sorted rfl hn (hok.ord n hn e' hv).symm hv
    rw [heq, hg'] at hg
    cases hg

end
end Jungle.Iter
