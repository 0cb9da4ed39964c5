/- Insertion into the skiplist. -/
import Verif.Index.SkipLemmas

set_option linter.unusedSectionVars false

namespace Jungle
namespace Skip
variable {K : Type} [LinearOrder K]

/-! ### the nodes before, layer by layer -/

/-- A layer of a list. -/
def lay (tp : Nat → Nat) (L : Nat) (A : List Nat) : List Nat := A.filter (fun c => decide (L ≤ tp c))

theorem lay_append (tp : Nat → Nat) (L : Nat) (A B : List Nat) : lay tp L (A ++ B) = lay tp L A ++ lay tp L B := List.filter_append ..

theorem mem_lay {tp : Nat → Nat} {L : Nat} {A : List Nat} {c : Nat} : c ∈ lay tp L A ↔ c ∈ A ∧ L ≤ tp c := by
  unfold lay; rw [List.mem_filter, decide_eq_true_iff]

theorem lay_concat_pos {tp : Nat → Nat} {L : Nat} {A : List Nat} {c : Nat} (h : L ≤ tp c) : lay tp L (A ++ [c]) = lay tp L A ++ [c] := by
  rw [lay_append]; unfold lay; rw [List.filter_cons_of_pos (by simpa using h), List.filter_nil]

theorem lay_concat_neg {tp : Nat → Nat} {L : Nat} {A : List Nat} {c : Nat} (h : ¬ L ≤ tp c) : lay tp L (A ++ [c]) = lay tp L A := by
  rw [lay_append]; unfold lay; rw [List.filter_cons_of_neg (by simpa using h), List.filter_nil, List.append_nil]

theorem lastOr_node {X : List Nat} {c : Nat} (h : lastOr X = .node c) : c ∈ X := by
  rcases list_last X with rfl | ⟨X', d, rfl⟩
  · cases h
  · rw [lastOr_concat] at h
    cases h
    simp

theorem headOr_node {X : List Nat} {c : Nat} (h : headOr X = .node c) : c ∈ X := by
  cases X with
  | nil => cases h
  | cons a X => cases h; simp

/-- The nodes before in two layers are the same only if they are in all layers between. -/
theorem lastOr_mid {tp : Nat → Nat} : ∀ {A : List Nat}, A.Nodup → ∀ {L m l : Nat}, L ≤ m → m ≤ l →
    lastOr (lay tp L A) = lastOr (lay tp l A) → lastOr (lay tp m A) = lastOr (lay tp L A) := by
  intro A
  generalize hn : A.length = n
  induction n generalizing A with
  | zero =>
    intro _ L m l _ _ _
    rw [List.length_eq_zero_iff.1 hn]; rfl
  | succ n ih =>
    intro hnd L m l h1 h2 he
    rcases list_last A with rfl | ⟨A', c, rfl⟩
    · rfl
    · have hnd' := List.nodup_append.1 hnd
      have hlen : A'.length = n := by simpa using hn
      by_cases hl : l ≤ tp c
      · rw [lay_concat_pos (by omega), lay_concat_pos (by omega)]; simp
      · rw [lay_concat_neg hl] at he
        by_cases hL : L ≤ tp c
        · exfalso
          rw [lay_concat_pos hL, lastOr_concat] at he
          have := (mem_lay.1 (lastOr_node he.symm)).1
          exact hnd'.2.2 c this c (List.mem_singleton_self c) rfl
        · rw [lay_concat_neg hL] at he
          rw [lay_concat_neg hL, lay_concat_neg (by omega)]
          exact ih hlen hnd'.1 h1 h2 he

/-- Where a search of layer `L` stops. -/
theorem stop {s : Skip K} {L : Nat} {A0 B0 A B : List Nat} {Pd : Nat → Prop} (h0 : A0 ++ B0 = A ++ B)
    (hA0 : ∀ a ∈ A0, Pd a) (hA : ∀ a ∈ A, Pd a) (hB : ∀ b ∈ B, ¬ Pd b) (hat : At s L A0)
    (hst : ∀ c, headOr (lay s.top L B0) = .node c → ¬ Pd c) :
    lastOr A0 = lastOr (lay s.top L A) ∧ headOr (lay s.top L B0) = headOr (lay s.top L B) := by
  obtain ⟨M, hM1, hM2⟩ : ∃ M, A = A0 ++ M ∧ B0 = M ++ B := by
    rcases List.append_eq_append_iff.1 h0 with ⟨M, h1, h2⟩ | ⟨M, h1, h2⟩
    · exact ⟨M, h1, h2⟩
    · cases M with
      | nil => exact ⟨[], by simpa using h1.symm, by simpa using h2.symm⟩
      | cons m M =>
        exfalso
        exact hB m (by rw [h2]; simp) (hA0 m (by rw [h1]; simp))
  have hMl : lay s.top L M = [] := by
    cases hm : lay s.top L M with
    | nil => rfl
    | cons m M' =>
      exfalso
      refine hst m ?_ (hA m ?_)
      · rw [hM2, lay_append, hm]; rfl
      · rw [hM1]
        exact List.mem_append_right _ (mem_lay.1 (by rw [hm]; simp)).1
  constructor
  · rw [hM1, lay_append, hMl, List.append_nil]
    exact hat.lastOr.symm
  · rw [hM2, lay_append, hMl, List.nil_append]

/-! ### flags -/

theorem clrFlags_eq (prevs : Nat → SPtr) (top : Nat) : ∀ n start (s : Skip K), start + n = top + 1 →
    ∃ b, clrFlags s prevs top start n = { s with busy := b } ∧ ∀ p, ((∃ l, start ≤ l ∧ l ≤ top ∧ prevs l = p) → b p = false) ∧
      ((¬ ∃ l, start ≤ l ∧ l ≤ top ∧ prevs l = p) → b p = s.busy p) := by
  intro n
  induction n with
  | zero =>
    intro start s hst
    refine ⟨s.busy, rfl, fun p => ⟨?_, fun _ => rfl⟩⟩
    rintro ⟨l, h1, h2, -⟩
    omega
  | succ n ih =>
    intro start s hst
    unfold clrFlags
    simp only
    by_cases hc : start = top ∨ prevs start ≠ prevs (start + 1)
    · rw [if_pos hc]
      obtain ⟨b, hb, hp⟩ := ih (start + 1) (s.setBusy (prevs start) false) (by omega)
      refine ⟨b, by rw [hb]; rfl, fun p => ⟨?_, ?_⟩⟩
      · rintro ⟨l, h1, h2, h3⟩
        by_cases hx : ∃ l, start + 1 ≤ l ∧ l ≤ top ∧ prevs l = p
        · exact (hp p).1 hx
        · rw [(hp p).2 hx]
          have : l = start := by
            by_contra hne
            exact hx ⟨l, by omega, h2, h3⟩
          rw [this] at h3
          show (if p = prevs start then false else s.busy p) = false
          rw [if_pos h3.symm]
      · intro hx
        rw [(hp p).2 (by rintro ⟨l, h1, h2, h3⟩; exact hx ⟨l, by omega, h2, h3⟩)]
        show (if p = prevs start then false else s.busy p) = _
        rw [if_neg]
        intro h3
        exact hx ⟨start, Nat.le_refl _, by omega, h3.symm⟩
    · rw [if_neg hc]
      obtain ⟨b, hb, hp⟩ := ih (start + 1) s (by omega)
      refine ⟨b, hb, fun p => ⟨?_, ?_⟩⟩
      · rintro ⟨l, h1, h2, h3⟩
        refine (hp p).1 ?_
        by_cases hl : l = start
        · refine ⟨start + 1, Nat.le_refl _, ?_, ?_⟩
          · by_contra hgt
            exact hc (Or.inl (by omega))
          · rw [hl] at h3
            rw [← h3]
            by_contra hne
            exact hc (Or.inr (fun he => hne he.symm))
        · exact ⟨l, by omega, h2, h3⟩
      · intro hx
        exact (hp p).2 (by rintro ⟨l, h1, h2, h3⟩; exact hx ⟨l, by omega, h2, h3⟩)

/-- The flags of the nodes before, from layer `D` on. -/
def BusyFrom (s : Skip K) (D top : Nat) (P : Nat → SPtr) (extra : SPtr → Prop) : Prop :=
  ∀ p, s.busy p = true ↔ (∃ l, D ≤ l ∧ l ≤ top ∧ P l = p) ∨ extra p

theorem lockPrev_ok {s : Skip K} {tp : Nat → Nat} {A : List Nat} (hnd : A.Nodup) {L top : Nat} (hL : L ≤ top)
    {prevs : Nat → SPtr} {extra : SPtr → Prop} {nx : SPtr}
    (hp : ∀ l, L ≤ l → l ≤ top → prevs l = lastOr (lay tp l A))
    (hb : BusyFrom s (L + 1) top (fun l => lastOr (lay tp l A)) extra)
    (hex : ∀ l, ¬ extra (lastOr (lay tp l A)))
    (hv : s.valid (prevs L) = true) (hv2 : s.valid nx = true) :
    ∃ b, lockPrev s L top prevs nx = some { s with busy := b } ∧
      BusyFrom { s with busy := b } L top (fun l => lastOr (lay tp l A)) extra := by
  have hPL := hp L (Nat.le_refl _) hL
  unfold lockPrev
  simp only
  by_cases hd : L < top ∧ prevs L = prevs (L + 1)
  · rw [if_neg (by rintro ⟨h, -⟩; exact h hd), if_neg (by rw [hv, hv2]; simp), if_pos hd]
    refine ⟨s.busy, rfl, fun p => ?_⟩
    show s.busy p = true ↔ _
    rw [hb p]
    constructor
    · rintro (⟨l, h1, h2⟩ | h)
      · exact Or.inl ⟨l, by omega, h2⟩
      · exact Or.inr h
    · rintro (⟨l, h1, h2, h3⟩ | h)
      · by_cases hl : l = L
        · refine Or.inl ⟨L + 1, Nat.le_refl _, by omega, ?_⟩
          rw [hl] at h3
          show lastOr (lay tp (L + 1) A) = p
          rw [← h3, ← hp (L + 1) (by omega) (by omega), ← hd.2, hPL]
        · exact Or.inl ⟨l, by omega, h2, h3⟩
      · exact Or.inr h
  · have hnb : s.busy (prevs L) = false := by
      cases hbb : s.busy (prevs L) with
      | false => rfl
      | true =>
        exfalso
        rcases (hb _).1 hbb with ⟨l, h1, h2, h3⟩ | h
        · apply hd
          refine ⟨by omega, ?_⟩
          have h3' : lastOr (lay tp l A) = prevs L := h3
          rw [hPL] at h3'
          rw [hp (L + 1) (by omega) (by omega), hPL]
          exact (lastOr_mid hnd (by omega) h1 h3'.symm).symm
        · rw [hPL] at h
          exact hex L h
    rw [if_neg (by rw [hnb]; simp), if_neg (by rw [hv, hv2]; simp), if_neg hd]
    refine ⟨_, rfl, fun p => ?_⟩
    show (if p = prevs L then true else s.busy p) = true ↔ _
    by_cases hpp : p = prevs L
    · rw [if_pos hpp]
      refine ⟨fun _ => Or.inl ⟨L, Nat.le_refl _, hL, ?_⟩, fun _ => rfl⟩
      rw [hpp, hPL]
    · rw [if_neg hpp, hb p]
      constructor
      · rintro (⟨l, h1, h2⟩ | h)
        · exact Or.inl ⟨l, by omega, h2⟩
        · exact Or.inr h
      · rintro (⟨l, h1, h2, h3⟩ | h)
        · refine Or.inl ⟨l, ?_, h2, h3⟩
          by_contra hlt
          have hl : l = L := by omega
          rw [hl] at h3
          exact hpp (by rw [← h3, hPL])
        · exact Or.inr h

/-! ### linking -/

theorem linkAll_eq (i : Nat) (prevs nexts : Nat → SPtr) (s : Skip K) : ∀ n, (∀ l, l < n → s.next (prevs l) l = nexts l) →
    linkAll i prevs nexts n s = { s with next := fun x l => if l < n ∧ x = prevs l then .node i else s.next x l } := by
  intro n
  induction n with
  | zero =>
    intro _
    unfold linkAll
    obtain ⟨a, b, c, d, e, f, refs, g, h, j⟩ := s
    simp
  | succ n ih =>
    intro h
    unfold linkAll
    simp only
    rw [ih (fun l hl => h l (by omega))]
    have hn : (if n < n ∧ prevs n = prevs n then SPtr.node i else s.next (prevs n) n) = nexts n := by
      rw [if_neg (by omega)]; exact h n (by omega)
    rw [if_pos hn]
    unfold setNext
    simp only [Skip.mk.injEq, true_and, and_true]
    funext x l
    by_cases hl : l = n
    · subst hl
      by_cases hx : x = prevs l
      · rw [if_pos ⟨hx, rfl⟩, if_pos ⟨by omega, hx⟩]
      · rw [if_neg (by rintro ⟨h1, -⟩; exact hx h1), if_neg (by omega), if_neg (by rintro ⟨-, h1⟩; exact hx h1)]
    · rw [if_neg (by rintro ⟨-, h1⟩; exact hl h1)]
      by_cases hc : l < n ∧ x = prevs l
      · rw [if_pos hc, if_pos ⟨by omega, hc.2⟩]
      · rw [if_neg hc, if_neg]
        rintro ⟨h1, h2⟩
        exact hc ⟨by omega, h2⟩

/-- The chain of a layer after a node was linked. -/
theorem chain_insert {next next' : SPtr → SPtr} {A B : List Nat} {i : Nat} (hnd : (A ++ B).Nodup) (hi : i ∉ A ++ B)
    (hc : ∀ X Y, A ++ B = X ++ Y → next (lastOr X) = headOr Y) (hni : next (.node i) = headOr B)
    (hn : ∀ x, next' x = if x = lastOr A then .node i else next x) :
    ∀ X Y, A ++ i :: B = X ++ Y → next' (lastOr X) = headOr Y := by
  have hnd' := List.nodup_append.1 hnd
  intro X Y h
  rcases List.append_eq_append_iff.1 h with ⟨Z, h1, h2⟩ | ⟨Z, h1, h2⟩
  · cases Z with
    | nil =>
      rw [List.nil_append] at h2
      rw [List.append_nil] at h1
      rw [h1, hn, if_pos rfl, ← h2]; rfl
    | cons z Z =>
      rw [List.cons_append, List.cons.injEq] at h2
      obtain ⟨rfl, h2⟩ := h2
      have hiA : SPtr.node i ≠ lastOr A := by
        intro he
        exact hi (List.mem_append_left _ (lastOr_node he.symm))
      rcases list_last Z with rfl | ⟨Z', c, rfl⟩
      · rw [h1, lastOr_concat, hn, if_neg hiA, hni, h2]; rfl
      · have hlx : lastOr X = .node c := by
          rw [h1, ← List.cons_append, ← List.append_assoc, lastOr_concat]
        have hcB : c ∈ B := by rw [h2]; simp
        rw [hlx, hn, if_neg]
        · have := hc (A ++ (Z' ++ [c])) Y (by rw [h2]; simp)
          rw [← List.append_assoc, lastOr_concat] at this
          exact this
        · intro he
          exact hnd'.2.2 c (lastOr_node he.symm) c hcB rfl
  · cases Z with
    | nil =>
      rw [List.append_nil] at h1
      rw [List.nil_append] at h2
      rw [h2, hn, if_pos (by rw [h1])]; rfl
    | cons z Z =>
      rw [hn, if_neg]
      · rw [hc X (z :: Z ++ B) (by rw [h1, List.append_assoc]), h2]; rfl
      · intro he
        rcases list_last X with rfl | ⟨X', c, rfl⟩
        · rw [h1] at he
          rcases list_last (z :: Z) with h0 | ⟨Z', d, h0⟩
          · cases h0
          · rw [h0, List.nil_append, lastOr_concat] at he; cases he
        · rw [lastOr_concat] at he
          rcases list_last (z :: Z) with h0 | ⟨Z', d, h0⟩
          · cases h0
          · rw [h1, h0, ← List.append_assoc, lastOr_concat] at he
            cases he
            have hA := hnd'.1
            rw [h1, h0] at hA
            exact (List.nodup_append.1 hA).2.2 c (by simp) c (by simp) rfl

theorem retop_ge {mx : Nat} {le : Nat → Nat} {old l : Nat} (hl : l < mx) (h : 0 < le l) : l ≤ retop mx le old ∧ retop mx le old < mx := by
  unfold retop
  have hp : ∀ n, l < n → ∃ m, (List.range n).reverse.find? (fun l => decide (0 < le l)) = some m ∧ l ≤ m ∧ m < n := by
    intro n
    induction n with
    | zero => intro h; omega
    | succ n ih =>
      intro hln
      rw [List.range_succ, List.reverse_append, List.reverse_singleton, List.singleton_append]
      by_cases hn : 0 < le n
      · exact ⟨n, by rw [List.find?_cons_of_pos (by simpa using hn)], by omega, by omega⟩
      · have hne : l ≠ n := by intro he; rw [he] at h; exact hn h
        obtain ⟨m, h1, h2, h3⟩ := ih (by omega)
        exact ⟨m, by rw [List.find?_cons_of_neg (by simpa using hn)]; exact h1, h2, by omega⟩
  obtain ⟨m, h1, h2, h3⟩ := hp mx hl
  rw [h1]
  exact ⟨h2, h3⟩

theorem retop_lt {mx : Nat} {le : Nat → Nat} {old : Nat} (h : old < mx) : retop mx le old < mx := by
  unfold retop
  cases hf : (List.range mx).reverse.find? (fun l => decide (0 < le l)) with
  | none => exact h
  | some m =>
    have := List.mem_of_find?_eq_some hf
    rw [List.mem_reverse, List.mem_range] at this
    exact this

theorem Core.pos_layer {mx : Nat} {s : Skip K} {ns : List Nat} (h : Core mx s ns) {c : Nat} (hc : c ∈ ns) : 0 < s.layerEntries (s.top c) := by
  rw [h.layers]
  refine List.length_pos_iff.mpr ?_
  intro h0
  have : c ∈ ns.filter (fun x => decide (s.top x = s.top c)) := List.mem_filter.2 ⟨hc, by simp⟩
  rw [h0] at this
  cases this

/-! ### the loops of an insertion -/

/-- Changing flags, counts and the pointers of a node that is not in the list keeps the list. -/
theorem Core.other {mx : Nat} {s s' : Skip K} {ns : List Nat} (h : Core mx s ns) (hk : s'.key = s.key) (ht : s'.top = s.top)
    (hl : s'.linked = s.linked) (he : s'.entries = s.entries) (hle : s'.layerEntries = s.layerEntries)
    (htl : s'.topLayer = s.topLayer) {i : Nat} (hi : i ∉ ns) (hn : ∀ p l, p ≠ .node i → s'.next p l = s.next p l) : Core mx s' ns := by
  refine ⟨by rw [hk]; exact h.sorted, h.nodup, ?_, by rw [hl]; exact h.linked,
    by rw [ht, htl]; exact h.tops, by rw [htl]; exact h.topLt, by rw [he]; exact h.entries, by rw [hle, ht]; exact h.layers⟩
  intro L hL X Y hXY
  rw [ht] at hXY
  rw [hn, h.chain L hL X Y hXY]
  intro hx
  have : i ∈ ns.filter (fun c => decide (L ≤ s.top c)) := by rw [hXY]; exact List.mem_append_left _ (lastOr_node hx)
  exact hi (List.mem_filter.1 this).1

structure InsInv (mx i : Nat) (k : K) (top : Nat) (A B : List Nat) (r0 : SPtr → Nat) (D : Nat) (cur : SPtr)
    (prevs nexts : Nat → SPtr) (s : Skip K) : Prop where
  core : Core mx s (A ++ B)
  ni : i ∉ A ++ B
  topLt : top < mx
  ki : s.key i = k
  ti : s.top i = top
  ri : s.removed i = false
  kept : ∀ j ∈ A ++ B, s.removed j = false
  refs : s.refs = fun x => if x = cur then r0 x + 1 else r0 x
  busy : BusyFrom s D top (fun l => lastOr (lay s.top l A)) (fun _ => False)
  hA : ∀ a ∈ A, s.key a < k
  hB : ∀ b ∈ B, ¬ s.key b < k
  pv : ∀ l, D ≤ l → l ≤ top → prevs l = lastOr (lay s.top l A)
  nx : ∀ l, D ≤ l → l ≤ top → nexts l = headOr (lay s.top l B)
  ln : ∀ l, D ≤ l → l ≤ top → s.next (.node i) l = headOr (lay s.top l B)

/-- The search goes on in the same layer or in the one below. -/
theorem InsInv.move {mx i : Nat} {k : K} {top : Nat} {A B : List Nat} {r0 : SPtr → Nat} {D : Nat} {cur : SPtr} {prevs nexts : Nat → SPtr}
    {s : Skip K} (h : InsInv mx i k top A B r0 D cur prevs nexts s) (nx : SPtr) :
    InsInv mx i k top A B r0 D nx prevs nexts ((s.grab nx).release cur) := by
  refine ⟨h.core.other rfl rfl rfl rfl rfl rfl h.ni (fun _ _ _ => rfl), h.ni, h.topLt, h.ki, h.ti, h.ri, h.kept, ?_, h.busy, h.hA, h.hB,
    h.pv, h.nx, h.ln⟩
  show (fun x => if x = cur then (if x = nx then s.refs x + 1 else s.refs x) - 1 else (if x = nx then s.refs x + 1 else s.refs x)) = _
  funext x
  rw [h.refs]
  by_cases h1 : x = cur <;> by_cases h2 : x = nx <;> simp only [h1, h2, if_true, if_false] <;> split <;> rfl

theorem insFinish_ok {mx i : Nat} {k : K} {top : Nat} {A B : List Nat} {r0 : SPtr → Nat} {cur : SPtr} {prevs nexts : Nat → SPtr}
    {s : Skip K} (h : InsInv mx i k top A B r0 0 cur prevs nexts s) :
    Ok mx (insFinish mx i top cur prevs nexts s) (A ++ i :: B) ∧ (insFinish mx i top cur prevs nexts s).refs = r0 ∧
      (insFinish mx i top cur prevs nexts s).key = s.key ∧ (insFinish mx i top cur prevs nexts s).top = s.top := by
  have hnd := List.nodup_append.1 h.core.nodup
  have hlink := linkAll_eq i prevs nexts s (top + 1) (by
    intro l hl
    rw [h.pv l (Nat.zero_le _) (by omega), h.nx l (Nat.zero_le _) (by omega)]
    exact h.core.chain l (by have := h.topLt; omega) _ _ (lay_append s.top l A B))
  unfold insFinish
  simp only
  rw [hlink]
  simp only
  obtain ⟨b, hb, hbp⟩ := clrFlags_eq prevs top (top + 1) 0 ({
    key := s.key, next := fun x l => if l < top + 1 ∧ x = prevs l then SPtr.node i else s.next x l, top := s.top,
    linked := fun j => if j = i then true else s.linked j, removed := s.removed, busy := s.busy, refs := s.refs,
    entries := s.entries + 1, layerEntries := fun l => if l = top then s.layerEntries l + 1 else s.layerEntries l,
    topLayer := retop mx (fun l => if l = top then s.layerEntries l + 1 else s.layerEntries l) s.topLayer } : Skip K) (by omega)
  rw [hb]
  have hretop := fun (l : Nat) (hl : l < mx) (hp : 0 < (if l = top then s.layerEntries l + 1 else s.layerEntries l)) =>
    retop_ge (mx := mx) (le := fun l => if l = top then s.layerEntries l + 1 else s.layerEntries l) (old := s.topLayer) hl hp
  refine ⟨⟨⟨?_, ?_, ?_, ?_, ?_, ?_, ?_, ?_⟩, ?_, ?_⟩, ?_, rfl, rfl⟩
  · -- sorted
    have hs := List.pairwise_append.1 h.core.sorted
    refine List.pairwise_append.2 ⟨hs.1, List.pairwise_cons.2 ⟨?_, hs.2.1⟩, ?_⟩
    · intro b hb
      show s.key i ≤ s.key b
      rw [h.ki]; exact not_lt.1 (h.hB b hb)
    · intro a ha b hb
      show s.key a ≤ s.key b
      rcases List.mem_cons.1 hb with rfl | hb
      · rw [h.ki]; exact le_of_lt (h.hA a ha)
      · exact hs.2.2 a ha b hb
  · -- nodup
    refine List.nodup_append.2 ⟨hnd.1, List.nodup_cons.2 ⟨fun hi => h.ni (List.mem_append_right _ hi), hnd.2.1⟩, ?_⟩
    intro a ha b hb
    rcases List.mem_cons.1 hb with rfl | hb
    · intro he; rw [he] at ha; exact h.ni (List.mem_append_left _ ha)
    · exact hnd.2.2 a ha b hb
  · -- chains
    intro L hL X Y hXY
    show (if L < top + 1 ∧ lastOr X = prevs L then SPtr.node i else s.next (lastOr X) L) = headOr Y
    have hXY' : lay s.top L (A ++ i :: B) = X ++ Y := hXY
    by_cases hLt : L ≤ top
    · have hcons : lay s.top L (i :: B) = i :: lay s.top L B := List.filter_cons_of_pos (by rw [h.ti]; simpa using hLt)
      rw [lay_append, hcons] at hXY'
      refine chain_insert (next := fun x => s.next x L) (next' := fun x => if L < top + 1 ∧ x = prevs L then SPtr.node i else s.next x L)
        (A := lay s.top L A) (B := lay s.top L B) (i := i) ?_ ?_ ?_ ?_ ?_ X Y hXY'
      · rw [← lay_append]; exact h.core.nodup.filter _
      · rw [← lay_append]
        intro hi
        exact h.ni (mem_lay.1 hi).1
      · intro X Y hh
        rw [← lay_append] at hh
        exact h.core.chain L hL X Y hh
      · exact h.ln L (Nat.zero_le _) hLt
      · intro x
        rw [h.pv L (Nat.zero_le _) hLt]
        by_cases hx : x = lastOr (lay s.top L A)
        · rw [if_pos ⟨by omega, hx⟩, if_pos hx]
        · rw [if_neg (fun hh => hx hh.2), if_neg hx]
    · have hcons : lay s.top L (i :: B) = lay s.top L B := List.filter_cons_of_neg (by rw [h.ti]; simpa using hLt)
      rw [lay_append, hcons, ← lay_append] at hXY'
      rw [if_neg (by omega)]
      exact h.core.chain L hL X Y hXY'
  · intro j
    show (if j = i then true else s.linked j) = true ↔ _
    by_cases hj : j = i
    · rw [if_pos hj, hj]; simp
    · rw [if_neg hj, h.core.linked]
      simp only [List.mem_append, List.mem_cons, hj, false_or]
  · intro j hj
    show s.top j ≤ retop mx _ s.topLayer
    by_cases hji : j = i
    · rw [hji, h.ti]
      exact (hretop top h.topLt (by rw [if_pos rfl]; omega)).1
    · have hj' : j ∈ A ++ B := by
        simp only [List.mem_append, List.mem_cons, hji, false_or] at hj
        exact List.mem_append.2 hj
      have := h.core.pos_layer hj'
      exact (hretop (s.top j) (Nat.lt_of_le_of_lt (h.core.tops j hj') h.core.topLt) (by split <;> omega)).1
  · show retop mx _ s.topLayer < mx
    exact retop_lt h.core.topLt
  · show s.entries + 1 = _
    rw [h.core.entries]
    simp only [List.length_append, List.length_cons]; omega
  · intro l
    show (if l = top then s.layerEntries l + 1 else s.layerEntries l) = ((A ++ i :: B).filter (fun c => decide (s.top c = l))).length
    rw [h.core.layers, List.filter_append, List.filter_append, List.length_append, List.length_append]
    by_cases hl : l = top
    · rw [if_pos hl, List.filter_cons_of_pos (by rw [h.ti, hl]; simp), List.length_cons]; omega
    · rw [if_neg hl, List.filter_cons_of_neg (by rw [h.ti]; simp; exact fun he => hl he.symm)]
  · intro j hj
    show s.removed j = false
    by_cases hji : j = i
    · rw [hji]; exact h.ri
    · refine h.kept j ?_
      simp only [List.mem_append, List.mem_cons, hji, false_or] at hj
      exact List.mem_append.2 hj
  · intro p
    show b p = false
    by_cases hc : ∃ l, 0 ≤ l ∧ l ≤ top ∧ prevs l = p
    · exact (hbp p).1 hc
    · rw [(hbp p).2 hc]
      show s.busy p = false
      cases hbb : s.busy p with
      | false => rfl
      | true =>
        exfalso
        rcases (h.busy p).1 hbb with ⟨l, h1, h2, h3⟩ | hf
        · exact hc ⟨l, h1, h2, by rw [h.pv l h1 h2]; exact h3⟩
        · exact hf
  · show (fun x => if x = cur then s.refs x - 1 else s.refs x) = r0
    funext x
    rw [h.refs]
    by_cases hx : x = cur <;> simp [hx]

/-- What an insertion does. -/
def Inserted (mx i : Nat) (k : K) (noDup : Bool) (A B : List Nat) (r0 : SPtr → Nat) (ky : Nat → K) (tp : Nat → Nat) (res : Int × Skip K) : Prop :=
  (res.1 = 0 ∧ Ok mx res.2 (A ++ i :: B) ∧ res.2.refs = r0 ∧ res.2.key = ky ∧ res.2.top = tp ∧ (noDup = true → ∀ b ∈ B, ky b ≠ k)) ∨
  (res.1 = -1 ∧ noDup = true ∧ (∃ b ∈ B, ky b = k) ∧ Ok mx res.2 (A ++ B) ∧ res.2.refs = r0 ∧ res.2.key = ky ∧ res.2.top = tp)

/-- What the search of an insertion gives. -/
def Prepared (mx i : Nat) (k : K) (top : Nat) (noDup : Bool) (A B : List Nat) (r0 : SPtr → Nat) (ky : Nat → K) (tp : Nat → Nat) (res : Prep K) : Prop :=
  (∃ cur prevs nexts s', res = .ready cur prevs nexts s' ∧ InsInv mx i k top A B r0 0 cur prevs nexts s' ∧ s'.key = ky ∧ s'.top = tp ∧
    (noDup = true → ∀ b ∈ B, ky b ≠ k)) ∨
  (∃ s', res = .dup s' ∧ noDup = true ∧ (∃ b ∈ B, ky b = k) ∧ Ok mx s' (A ++ B) ∧ s'.refs = r0 ∧ s'.key = ky ∧ s'.top = tp)

theorem insLoop_ok {mx i : Nat} {k : K} {top : Nat} {A B : List Nat} {r0 : SPtr → Nat} (noDup : Bool) :
    ∀ f L A0 B0 prevs nexts s, InsInv mx i k top A B r0 (L + 1) (lastOr A0) prevs nexts s → L < mx → A ++ B = A0 ++ B0 → At s L A0 →
      (∀ a ∈ A0, s.key a < k) → B0.length + L + 1 ≤ f →
      ∃ res, insLoop i k top noDup f L (lastOr A0) prevs nexts s = some res ∧ Prepared mx i k top noDup A B r0 s.key s.top res := by
  intro f
  induction f with
  | zero => intro L A0 B0 prevs nexts s _ _ _ _ _ hf; omega
  | succ f ih =>
    intro L A0 B0 prevs nexts s h hL hn hat hA0 hf
    have hnx := h.core.slNext_at hL hn hat
    unfold insLoop
    rw [hnx]
    simp only
    by_cases hg : s.cmpQ (some k) (headOr (B0.filter (fun c => decide (L ≤ s.top c)))) = .gt
    · -- forward
      rw [if_pos hg]
      rcases headOr_filter (s := s) (L := L) (B := B0) with ⟨hh, hB⟩ | ⟨B1, c, B2, hB, hh, hc, hB1⟩
      · rw [hh] at hg; cases hg
      · rw [hh] at hg ⊢
        have hn' : A ++ B = A0 ++ (B1 ++ c :: B2) := by rw [hn, hB]
        have hb := h.core.bef_upto hn' (cmp_gt.1 hg)
        have := ih L (A0 ++ (B1 ++ [c])) B2 prevs nexts ((s.grab (.node c)).release (lastOr A0)) (by
            rw [← List.append_assoc, lastOr_concat]; exact h.move _) hL (by rw [hn']; simp) ⟨by
            intro d hd
            rw [← List.append_assoc, List.getLast?_concat] at hd
            cases hd
            exact hc⟩ (fun a ha => hb a ha k rfl) (by rw [hB] at hf; simp at hf; omega)
        rw [← List.append_assoc, lastOr_concat] at this
        exact this
    · rw [if_neg hg]
      rw [release_grab]
      -- where it stopped
      have hst : ∀ c, headOr (lay s.top L B0) = .node c → ¬ s.key c < k := by
        intro c hc hlt
        apply hg
        have : headOr (B0.filter (fun c => decide (L ≤ s.top c))) = .node c := hc
        rw [this]
        exact cmp_gt.2 (fun k' hk' => by cases hk'; exact hlt)
      obtain ⟨hP, hN⟩ := stop (Pd := fun c => s.key c < k) hn.symm hA0 h.hA h.hB hat hst
      have hN' : headOr (B0.filter (fun c => decide (L ≤ s.top c))) = headOr (lay s.top L B) := hN
      rw [hN'] at hnx ⊢
      by_cases hdup : noDup = true ∧ s.cmpQ (some k) (headOr (lay s.top L B)) = .eq
      · -- the key is there
        rw [if_pos hdup]
        have hnx2 : ∃ c, headOr (lay s.top L B) = .node c ∧ c ∈ B := by
          cases hl : lay s.top L B with
          | nil => rw [hl] at hdup; cases hdup.2
          | cons c C => exact ⟨c, rfl, (mem_lay.1 (by rw [hl]; simp)).1⟩
        obtain ⟨c, hc1, hc2⟩ := hnx2
        have hck : s.key c = k := by
          have := hdup.2
          rw [hc1] at this
          exact (Option.some.inj (cmp_eq.1 this)).symm
        by_cases hLt : L ≤ top
        · obtain ⟨b, hb, hbp⟩ := clrFlags_eq prevs top (top - L) (L + 1) s (by omega)
          rw [hb]
          refine ⟨_, rfl, Or.inr ⟨_, rfl, hdup.1, ⟨c, hc2, hck⟩, ⟨h.core.other rfl rfl rfl rfl rfl rfl h.ni (fun _ _ _ => rfl), h.kept, ?_⟩, ?_, rfl, rfl⟩⟩
          · intro p
            show b p = false
            by_cases hcc : ∃ l, L + 1 ≤ l ∧ l ≤ top ∧ prevs l = p
            · exact (hbp p).1 hcc
            · rw [(hbp p).2 hcc]
              cases hbb : s.busy p with
              | false => rfl
              | true =>
                exfalso
                rcases (h.busy p).1 hbb with ⟨l, h1, h2, h3⟩ | hf
                · exact hcc ⟨l, h1, h2, by rw [h.pv l h1 h2]; exact h3⟩
                · exact hf
          · show (fun x => if x = lastOr A0 then s.refs x - 1 else s.refs x) = r0
            funext x
            rw [h.refs]
            by_cases hx : x = lastOr A0 <;> simp [hx]
        · have h0 : top - L = 0 := by omega
          rw [h0]
          refine ⟨_, rfl, Or.inr ⟨_, rfl, hdup.1, ⟨c, hc2, hck⟩, ⟨h.core.other rfl rfl rfl rfl rfl rfl h.ni (fun _ _ _ => rfl), h.kept, ?_⟩, ?_, rfl, rfl⟩⟩
          · intro p
            show s.busy p = false
            cases hbb : s.busy p with
            | false => rfl
            | true =>
              exfalso
              rcases (h.busy p).1 hbb with ⟨l, h1, h2, h3⟩ | hf
              · omega
              · exact hf
          · show (fun x => if x = lastOr A0 then s.refs x - 1 else s.refs x) = r0
            funext x
            rw [h.refs]
            by_cases hx : x = lastOr A0 <;> simp [hx]
      · rw [if_neg hdup]
        by_cases hLt : L ≤ top
        · rw [if_pos hLt]
          have hpv : ∀ l, L ≤ l → l ≤ top → put prevs L (lastOr A0) l = lastOr (lay s.top l A) := by
            intro l h1 h2
            unfold put
            by_cases hl : l = L
            · rw [if_pos hl, hl]; exact hP
            · rw [if_neg hl]; exact h.pv l (by omega) h2
          have hnv : ∀ l, L ≤ l → l ≤ top → put nexts L (headOr (lay s.top L B)) l = headOr (lay s.top l B) := by
            intro l h1 h2
            unfold put
            by_cases hl : l = L
            · rw [if_pos hl, hl]
            · rw [if_neg hl]; exact h.nx l (by omega) h2
          obtain ⟨b, hb, hbusy⟩ := lockPrev_ok (List.nodup_append.1 h.core.nodup).1 hLt hpv h.busy (fun _ h => h)
            (by unfold put; rw [if_pos rfl]; exact h.core.valid_last hn)
            (h.core.valid_head (B := lay s.top L B) (fun b hb => List.mem_append_right _ (mem_lay.1 hb).1))
          rw [hb]
          simp only
          have hiA0 : SPtr.node i ≠ lastOr A0 := by
            intro he
            exact h.ni (by rw [hn]; exact List.mem_append_left _ (lastOr_node he.symm))
          have hinv : InsInv mx i k top A B r0 L (lastOr A0) (put prevs L (lastOr A0)) (put nexts L (headOr (lay s.top L B)))
              (({ s with busy := b } : Skip K).setNext (.node i) L (headOr (lay s.top L B))) := by
            refine ⟨h.core.other rfl rfl rfl rfl rfl rfl h.ni ?_, h.ni, h.topLt, h.ki, h.ti, h.ri, h.kept, h.refs, hbusy, h.hA, h.hB, hpv, hnv, ?_⟩
            · intro p l hp
              show (if p = .node i ∧ l = L then _ else s.next p l) = _
              rw [if_neg (fun hh => hp hh.1)]
            · intro l h1 h2
              show (if SPtr.node i = .node i ∧ l = L then headOr (lay s.top L B) else s.next (.node i) l) = _
              by_cases hl : l = L
              · rw [if_pos ⟨rfl, hl⟩, hl]; rfl
              · rw [if_neg (fun hh => hl hh.2)]; exact h.ln l (by omega) h2
          have hagain := hinv.core.slNext_at hL hn (A := A0) (B := B0) ⟨hat.top⟩
          rw [hagain]
          rw [if_neg (by
            have h9 : headOr (B0.filter (fun c => decide (L ≤ s.top c))) = headOr (lay s.top L B) := hN
            simp only [Option.map_some]
            intro h8
            exact h8 (congrArg some h9))]
          by_cases hl : L ≠ 0
          · rw [if_pos hl]
            have h1 : L - 1 + 1 = L := by omega
            have := ih (L - 1) A0 B0 (put prevs L (lastOr A0)) (put nexts L (headOr (lay s.top L B)))
              (({ s with busy := b } : Skip K).setNext (.node i) L (headOr (lay s.top L B))) (by rw [h1]; exact hinv) (by omega) hn ⟨(hat.down (by omega)).top⟩ hA0 (by omega)
            exact this
          · rw [if_neg hl]
            have hL0 : L = 0 := by omega
            subst hL0
            refine ⟨_, rfl, Or.inl ⟨_, _, _, _, rfl, hinv, rfl, rfl, ?_⟩⟩
            intro hnd b hb hbk
            have hlay : lay s.top 0 B = B := by unfold lay; rw [List.filter_eq_self]; intro a _; simp
            cases B with
            | nil => cases hb
            | cons c C =>
              apply hdup
              refine ⟨hnd, ?_⟩
              rw [hlay]
              refine cmp_eq.2 ?_
              have hs := (List.pairwise_append.1 h.core.sorted).2.1
              have hle : s.key c ≤ s.key b := by
                rcases List.mem_cons.1 hb with rfl | hb'
                · exact le_refl _
                · exact (List.pairwise_cons.1 hs).1 b hb'
              have : s.key c = k := le_antisymm (by rw [← hbk]; exact hle) (not_lt.1 (h.hB c (List.mem_cons_self ..)))
              rw [this]
        · rw [if_neg hLt]
          have h1 : L - 1 + 1 = L := by omega
          refine ih (L - 1) A0 B0 _ _ _ ?_ (by omega) hn (hat.down (by omega)) hA0 (by omega)
          rw [h1]
          refine ⟨h.core, h.ni, h.topLt, h.ki, h.ti, h.ri, h.kept, h.refs, ?_, h.hA, h.hB, fun l h1 h2 => by omega, fun l h1 h2 => by omega, fun l h1 h2 => by omega⟩
          intro p
          rw [h.busy p]
          constructor
          · rintro (⟨l, h1, h2, -⟩ | h)
            · omega
            · exact h.elim
          · rintro (⟨l, h1, h2, -⟩ | h)
            · omega
            · exact h.elim

/-- A sorted list has the smaller keys first. -/
theorem split_sorted {ky : Nat → K} {ns : List Nat} (h : ns.Pairwise (fun a b => ky a ≤ ky b)) (k : K) :
    ∃ A B, ns = A ++ B ∧ (∀ a ∈ A, ky a < k) ∧ (∀ b ∈ B, ¬ ky b < k) := by
  induction ns with
  | nil => exact ⟨[], [], rfl, (fun a ha => by cases ha), (fun a ha => by cases ha)⟩
  | cons a ns ih =>
    have h' := List.pairwise_cons.1 h
    by_cases ha : ky a < k
    · obtain ⟨A, B, h1, h2, h3⟩ := ih h'.2
      refine ⟨a :: A, B, by rw [h1]; rfl, ?_, h3⟩
      intro x hx
      rcases List.mem_cons.1 hx with rfl | hx
      · exact ha
      · exact h2 x hx
    · refine ⟨[], a :: ns, rfl, (fun a ha => by cases ha), ?_⟩
      intro x hx hlt
      rcases List.mem_cons.1 hx with rfl | hx
      · exact ha hlt
      · exact ha (lt_of_le_of_lt (h'.1 x hx) hlt)

/-- The node of the caller is not in the list, initialising it does not change the list. -/
theorem initNode_ok {mx : Nat} {s : Skip K} {ns : List Nat} (h : Ok mx s ns) {i : Nat} (hi : i ∉ ns) (k : K) (top : Nat) :
    Ok mx (s.initNode i k top) ns := by
  have hk : ∀ c ∈ ns, (s.initNode i k top).key c = s.key c := by
    intro c hc
    show (if c = i then k else s.key c) = _
    rw [if_neg (fun (he : c = i) => hi (he ▸ hc))]
  have ht : ∀ c ∈ ns, (s.initNode i k top).top c = s.top c := by
    intro c hc
    show (if c = i then top else s.top c) = _
    rw [if_neg (fun (he : c = i) => hi (he ▸ hc))]
  refine ⟨⟨?_, h.nodup, ?_, ?_, ?_, h.topLt, h.entries, ?_⟩, ?_, ?_⟩
  · refine h.sorted.imp_of_mem ?_
    intro a b ha hb hab
    rw [hk a ha, hk b hb]; exact hab
  · intro L hL X Y hXY
    refine h.chain L hL X Y ?_
    rw [← hXY]
    refine List.filter_congr ?_
    intro c hc
    rw [ht c hc]
  · intro j
    show (if j = i then false else s.linked j) = true ↔ _
    by_cases hj : j = i
    · rw [if_pos hj, hj]; simp [hi]
    · rw [if_neg hj]; exact h.linked j
  · intro j hj
    rw [ht j hj]; exact h.tops j hj
  · intro l
    show s.layerEntries l = _
    rw [h.layers]
    congr 1
    refine List.filter_congr ?_
    intro c hc
    rw [ht c hc]
  · intro j hj
    show (if j = i then false else s.removed j) = false
    rw [if_neg (fun (he : j = i) => hi (he ▸ hj))]; exact h.kept j hj
  · intro p
    show (if p = .node i then false else s.busy p) = false
    split
    · rfl
    · exact h.busy p

/-- The search of an insertion. -/
theorem insSearch_ok {mx : Nat} {s : Skip K} {ns : List Nat} (h : Ok mx s ns) {i : Nat} (hi : i ∉ ns) (k : K) {top : Nat} (ht : top < mx)
    (noDup : Bool) :
    ∃ A B res, ns = A ++ B ∧ (∀ a ∈ A, s.key a < k) ∧ (∀ b ∈ B, ¬ s.key b < k) ∧ s.insSearch i k top noDup = some res ∧
      Prepared mx i k top noDup A B s.refs (fun j => if j = i then k else s.key j) (fun j => if j = i then top else s.top j) res := by
  have h1 := initNode_ok h hi k top
  obtain ⟨A, B, hn, hA, hB⟩ := split_sorted h1.sorted k
  have hkey : ∀ c ∈ ns, (s.initNode i k top).key c = s.key c := by
    intro c hc
    show (if c = i then k else s.key c) = _
    rw [if_neg (fun (he : c = i) => hi (he ▸ hc))]
  have hinv : InsInv mx i k top A B s.refs (max s.topLayer top + 1) (lastOr []) (fun _ => .head) (fun _ => .tail) ((s.initNode i k top).grab .head) := by
    refine ⟨?_, by rw [← hn]; exact hi, ht, ?_, ?_, ?_, by rw [← hn]; exact h1.kept, rfl, ?_, hA, hB, ?_, ?_, ?_⟩
    · rw [← hn]
      exact h1.toCore.other rfl rfl rfl rfl rfl rfl hi (fun _ _ _ => rfl)
    · show (if i = i then k else s.key i) = k
      rw [if_pos rfl]
    · show (if i = i then top else s.top i) = top
      rw [if_pos rfl]
    · show (if i = i then false else s.removed i) = false
      rw [if_pos rfl]
    · intro p
      constructor
      · intro hp
        have := h1.busy p
        rw [show ((s.initNode i k top).grab .head).busy p = (s.initNode i k top).busy p from rfl, this] at hp
        cases hp
      · rintro (⟨l, h2, h3, -⟩ | hf)
        · omega
        · exact hf.elim
    · intro l h2 h3; omega
    · intro l h2 h3; omega
    · intro l h2 h3; omega
  obtain ⟨res, hr, hres⟩ := insLoop_ok noDup (s.entries + max s.topLayer top + 1) (max s.topLayer top) [] ns (fun _ => .head) (fun _ => .tail)
    ((s.initNode i k top).grab .head) hinv (by have := h.topLt; omega) (by rw [← hn]; rfl) (At.nil _ _) (by intro a ha; cases ha)
    (by rw [h.entries])
  refine ⟨A, B, res, hn, ?_, ?_, hr, hres⟩
  · intro a ha
    rw [← hkey a (by rw [hn]; exact List.mem_append_left _ ha)]; exact hA a ha
  · intro b hb
    rw [← hkey b (by rw [hn]; exact List.mem_append_right _ hb)]; exact hB b hb

/-- Insertion. -/
theorem insert_ok {mx : Nat} {s : Skip K} {ns : List Nat} (h : Ok mx s ns) {i : Nat} (hi : i ∉ ns) (k : K) {top : Nat} (ht : top < mx)
    (noDup : Bool) :
    ∃ A B res, ns = A ++ B ∧ (∀ a ∈ A, s.key a < k) ∧ (∀ b ∈ B, ¬ s.key b < k) ∧ s.insert mx i k top noDup = some res ∧
      Inserted mx i k noDup A B s.refs (fun j => if j = i then k else s.key j) (fun j => if j = i then top else s.top j) res := by
  obtain ⟨A, B, res, hn, hA, hB, h1, h2⟩ := insSearch_ok h hi k ht noDup
  refine ⟨A, B, res.finish mx i top, hn, hA, hB, by unfold insert; rw [h1]; rfl, ?_⟩
  rcases h2 with ⟨cur, prevs, nexts, s', rfl, hinv, hk, htp, hnd⟩ | ⟨s', rfl, h3, h4, h5, h6, h7, h8⟩
  · have hfin := insFinish_ok hinv
    exact Or.inl ⟨rfl, hfin.1, hfin.2.1, hfin.2.2.1.trans hk, hfin.2.2.2.trans htp, hnd⟩
  · exact Or.inr ⟨rfl, h3, h4, h5, h6, h7, h8⟩

end Skip
end Jungle
