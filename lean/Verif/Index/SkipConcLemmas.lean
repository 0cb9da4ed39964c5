/- Readers and one writer of the skiplist: the invariants. -/
import Verif.Index.SkipConc

set_option linter.unusedSectionVars false

namespace Jungle
namespace Skip
variable {K : Type} [LinearOrder K]

/-! ### the list while a node is being linked -/

/-- The nodes in order, `on L` are those linked in layer `L`. -/
structure Lay (mx : Nat) (s : Skip K) (full : List Nat) (on : Nat → Nat → Bool) : Prop where
  sorted : full.Pairwise (fun a b => s.key a ≤ s.key b)
  nodup : full.Nodup
  chain : ∀ L, L < mx → ∀ X Y, full.filter (on L) = X ++ Y → s.next (lastOr X) L = headOr Y
  mem : ∀ j, s.linked j = true → j ∈ full
  on_of : ∀ j, s.linked j = true → ∀ L, L ≤ s.top j → on L j = true
  of_on : ∀ L j, on L j = true → L ≤ s.top j
  topLt : s.topLayer < mx

/-- What the writer's state means. -/
inductive WInv (mx : Nat) : Skip K → SWr → List Nat → Prop
  | idle {s ns} : Ok mx s ns → WInv mx s .idle ns
  | link {s0 i k top A B r0 cur prevs nexts l} : InsInv mx i k top A B r0 0 cur prevs nexts s0 → l ≤ top + 1 →
      WInv mx (linkAll i prevs nexts l s0) (.link i top l cur prevs nexts) (A ++ i :: B)
  | count {s0 i k top A B r0 cur prevs nexts} : InsInv mx i k top A B r0 0 cur prevs nexts s0 →
      WInv mx { linkAll i prevs nexts (top + 1) s0 with linked := fun j => if j = i then true else (linkAll i prevs nexts (top + 1) s0).linked j }
        (.count i top cur prevs) (A ++ i :: B)

theorem InsInv.linkAll {mx i : Nat} {k : K} {top : Nat} {A B : List Nat} {r0 : SPtr → Nat} {cur : SPtr} {prevs nexts : Nat → SPtr}
    {s : Skip K} (h : InsInv mx i k top A B r0 0 cur prevs nexts s) {l : Nat} (hl : l ≤ top + 1) :
    Skip.linkAll i prevs nexts l s = { s with next := fun x L => if L < l ∧ x = prevs L then .node i else s.next x L } := by
  refine linkAll_eq i prevs nexts s l ?_
  intro L hL
  rw [h.pv L (Nat.zero_le _) (by omega), h.nx L (Nat.zero_le _) (by omega)]
  exact h.core.chain L (by have := h.topLt; omega) _ _ (lay_append s.top L A B)

theorem InsInv.sorted {mx i : Nat} {k : K} {top : Nat} {A B : List Nat} {r0 : SPtr → Nat} {cur : SPtr} {prevs nexts : Nat → SPtr}
    {s : Skip K} (h : InsInv mx i k top A B r0 0 cur prevs nexts s) : (A ++ i :: B).Pairwise (fun a b => s.key a ≤ s.key b) := by
  have hs := List.pairwise_append.1 h.core.sorted
  refine List.pairwise_append.2 ⟨hs.1, List.pairwise_cons.2 ⟨?_, hs.2.1⟩, ?_⟩
  · intro b hb
    rw [h.ki]; exact not_lt.1 (h.hB b hb)
  · intro a ha b hb
    rcases List.mem_cons.1 hb with rfl | hb
    · rw [h.ki]; exact le_of_lt (h.hA a ha)
    · exact hs.2.2 a ha b hb

theorem InsInv.nodup {mx i : Nat} {k : K} {top : Nat} {A B : List Nat} {r0 : SPtr → Nat} {cur : SPtr} {prevs nexts : Nat → SPtr}
    {s : Skip K} (h : InsInv mx i k top A B r0 0 cur prevs nexts s) : (A ++ i :: B).Nodup := by
  have hnd := List.nodup_append.1 h.core.nodup
  refine List.nodup_append.2 ⟨hnd.1, List.nodup_cons.2 ⟨fun hi => h.ni (List.mem_append_right _ hi), hnd.2.1⟩, ?_⟩
  intro a ha b hb
  rcases List.mem_cons.1 hb with rfl | hb
  · intro he; rw [he] at ha; exact h.ni (List.mem_append_left _ ha)
  · exact hnd.2.2 a ha b hb

/-- The chains while `l` layers are linked. -/
theorem InsInv.chain {mx i : Nat} {k : K} {top : Nat} {A B : List Nat} {r0 : SPtr → Nat} {cur : SPtr} {prevs nexts : Nat → SPtr}
    {s : Skip K} (h : InsInv mx i k top A B r0 0 cur prevs nexts s) {l : Nat} (hl : l ≤ top + 1) :
    ∀ L, L < mx → ∀ X Y, (A ++ i :: B).filter (fun j => if j = i then decide (L < l) else decide (L ≤ s.top j)) = X ++ Y →
      (if L < l ∧ lastOr X = prevs L then .node i else s.next (lastOr X) L) = headOr Y := by
  intro L hL X Y hXY
  have hf : ∀ C : List Nat, i ∉ C → C.filter (fun j => if j = i then decide (L < l) else decide (L ≤ s.top j)) = lay s.top L C := by
    intro C hC
    unfold lay
    refine List.filter_congr ?_
    intro j hj
    rw [if_neg (fun (he : j = i) => hC (he ▸ hj))]
  have hiA : i ∉ A := fun hh => h.ni (List.mem_append_left _ hh)
  have hiB : i ∉ B := fun hh => h.ni (List.mem_append_right _ hh)
  rw [List.filter_append, hf A hiA] at hXY
  by_cases hLl : L < l
  · rw [List.filter_cons_of_pos (by simpa using hLl), hf B hiB] at hXY
    refine chain_insert (next := fun x => s.next x L) (next' := fun x => if L < l ∧ x = prevs L then .node i else s.next x L)
      (A := lay s.top L A) (B := lay s.top L B) (i := i) ?_ ?_ ?_ ?_ ?_ X Y hXY
    · rw [← lay_append]; exact h.core.nodup.filter _
    · rw [← lay_append]
      intro hi
      exact h.ni (mem_lay.1 hi).1
    · intro X Y hh
      rw [← lay_append] at hh
      exact h.core.chain L hL X Y hh
    · exact h.ln L (Nat.zero_le _) (by omega)
    · intro x
      rw [h.pv L (Nat.zero_le _) (by omega)]
      by_cases hx : x = lastOr (lay s.top L A)
      · rw [if_pos ⟨hLl, hx⟩, if_pos hx]
      · rw [if_neg (fun hh => hx hh.2), if_neg hx]
  · rw [List.filter_cons_of_neg (by simpa using hLl), hf B hiB, ← lay_append] at hXY
    rw [if_neg (fun hh => hLl hh.1)]
    exact h.core.chain L hL X Y hXY

theorem WInv.lay {mx : Nat} {s : Skip K} {w : SWr} {full : List Nat} (h : WInv mx s w full) : ∃ on, Lay mx s full on := by
  cases h with
  | idle h =>
    exact ⟨fun L j => decide (L ≤ s.top j), h.sorted, h.nodup, h.chain, fun j hj => (h.linked j).1 hj,
      fun j _ L hL => by simpa using hL, fun L j hh => by simpa using hh, h.topLt⟩
  | @link s0 i k top A B r0 cur prevs nexts l h hl =>
    refine ⟨fun L j => if j = i then decide (L < l) else decide (L ≤ s0.top j), ?_⟩
    rw [h.linkAll hl]
    refine ⟨h.sorted, h.nodup, h.chain hl, ?_, ?_, ?_, h.core.topLt⟩
    · intro j hj
      have := (h.core.linked j).1 hj
      simp only [List.mem_append, List.mem_cons] at this ⊢
      rcases this with h1 | h1
      · exact Or.inl h1
      · exact Or.inr (Or.inr h1)
    · intro j hj L hL
      have hji : j ≠ i := fun he => h.ni (he ▸ (h.core.linked j).1 hj)
      rw [if_neg hji]; simpa using hL
    · intro L j hj
      show L ≤ s0.top j
      by_cases hji : j = i
      · rw [if_pos hji] at hj
        rw [hji, h.ti]
        have : L < l := by simpa using hj
        omega
      · rw [if_neg hji] at hj; simpa using hj
  | @count s0 i k top A B r0 cur prevs nexts h =>
    refine ⟨fun L j => if j = i then decide (L < top + 1) else decide (L ≤ s0.top j), ?_⟩
    rw [h.linkAll (Nat.le_refl _)]
    refine ⟨h.sorted, h.nodup, h.chain (Nat.le_refl _), ?_, ?_, ?_, h.core.topLt⟩
    · intro j hj
      have hj' : (if j = i then true else s0.linked j) = true := hj
      by_cases hji : j = i
      · rw [hji]; simp
      · rw [if_neg hji] at hj'
        have := (h.core.linked j).1 hj'
        simp only [List.mem_append, List.mem_cons] at this ⊢
        rcases this with h1 | h1
        · exact Or.inl h1
        · exact Or.inr (Or.inr h1)
    · intro j hj L hL
      by_cases hji : j = i
      · rw [if_pos hji]
        rw [hji] at hL
        have hL' : L ≤ s0.top i := hL
        rw [h.ti] at hL'
        simp; omega
      · rw [if_neg hji]; simpa using hL
    · intro L j hj
      show L ≤ s0.top j
      by_cases hji : j = i
      · rw [if_pos hji] at hj
        rw [hji, h.ti]
        have : L < top + 1 := by simpa using hj
        omega
      · rw [if_neg hji] at hj; simpa using hj

/-- A node that is in the order but not fully linked is the writer's, and locked. -/
theorem WInv.locked {mx : Nat} {s : Skip K} {w : SWr} {full : List Nat} (h : WInv mx s w full) {j : Nat} (hj : j ∈ full)
    (hw : w.locked (.node j) = false) : s.linked j = true := by
  cases h with
  | idle h => exact (h.linked j).2 hj
  | @link s0 i k top A B r0 cur prevs nexts l h hl =>
    have hji : j ≠ i := by
      intro he
      have : (SPtr.node j == SPtr.node i) = false := hw
      rw [he] at this
      simp at this
    rw [h.linkAll hl]
    refine (h.core.linked j).2 ?_
    simp only [List.mem_append, List.mem_cons] at hj ⊢
    rcases hj with h1 | h1 | h1
    · exact Or.inl h1
    · exact absurd h1 hji
    · exact Or.inr h1
  | @count s0 i k top A B r0 cur prevs nexts h =>
    rw [h.linkAll (Nat.le_refl _)]
    show (if j = i then true else s0.linked j) = true
    by_cases hji : j = i
    · rw [if_pos hji]
    · rw [if_neg hji]
      refine (h.core.linked j).2 ?_
      simp only [List.mem_append, List.mem_cons] at hj ⊢
      rcases hj with h1 | h1 | h1
      · exact Or.inl h1
      · exact absurd h1 hji
      · exact Or.inr h1

/-! ### steps of the writer -/

/-- What a reader may rely on while the writer goes on. -/
structure Ext (s : Skip K) (full : List Nat) (s' : Skip K) (full' : List Nat) : Prop where
  sub : full.Sublist full'
  key : ∀ j ∈ full, s'.key j = s.key j
  top : ∀ j ∈ full, s'.top j = s.top j
  linked : ∀ j, s.linked j = true → s'.linked j = true

theorem insert_sublist (A B : List Nat) (i : Nat) : (A ++ B).Sublist (A ++ i :: B) :=
  List.Sublist.append (List.Sublist.refl _) (List.sublist_cons_self _ _)

theorem WInv.step {mx : Nat} {s s' : Skip K} {w w' : SWr} {full : List Nat} {ev : Option (Nat × K)} (h : WInv mx s w full)
    (hs : WStep mx s w s' w' ev) :
    ∃ full', WInv mx s' w' full' ∧ Ext s full s' full' ∧
      (∀ j, s'.linked j = true ↔ s.linked j = true ∨ ∃ e, ev = some e ∧ e.1 = j) ∧
      (∀ e, ev = some e → s.linked e.1 = false ∧ s'.key e.1 = e.2) := by
  cases hs with
  | @search i k top noDup cur prevs nexts _ hi ht hr =>
    cases h with
    | idle h =>
      have hi' : i ∉ full := fun hh => by have := (h.linked i).2 hh; rw [hi] at this; cases this
      obtain ⟨A, B, res, hn, hA, hB, h1, h2⟩ := insSearch_ok h hi' k ht noDup
      rw [hr] at h1
      cases h1
      rcases h2 with ⟨cur', prevs', nexts', s1, he, hinv, hk, htp, -⟩ | ⟨s1, he, -⟩
      · cases he
        refine ⟨A ++ i :: B, ?_, ⟨by rw [hn]; exact insert_sublist A B i, ?_, ?_, ?_⟩, ?_, fun e he => by cases he⟩
        · have := WInv.link hinv (Nat.zero_le (top + 1))
          exact this
        · intro j hj
          rw [hk]
          exact if_neg (fun (he : j = i) => hi' (he ▸ hj))
        · intro j hj
          rw [htp]
          exact if_neg (fun (he : j = i) => hi' (he ▸ hj))
        · intro j hj
          rw [hinv.core.linked, ← hn]; exact (h.linked j).1 hj
        · intro j
          rw [hinv.core.linked, ← hn, h.linked]
          constructor
          · exact Or.inl
          · rintro (h1 | ⟨e, he, -⟩)
            · exact h1
            · cases he
      · cases he
  | @refuse i k top noDup _ hi ht hr =>
    cases h with
    | idle h =>
      have hi' : i ∉ full := fun hh => by have := (h.linked i).2 hh; rw [hi] at this; cases this
      obtain ⟨A, B, res, hn, hA, hB, h1, h2⟩ := insSearch_ok h hi' k ht noDup
      rw [hr] at h1
      cases h1
      rcases h2 with ⟨cur', prevs', nexts', s1, he, hinv, hk, htp, -⟩ | ⟨s1, he, -, -, hok, -, hk, htp⟩
      · cases he
      · cases he
        rw [← hn] at hok
        refine ⟨full, .idle hok, ⟨List.Sublist.refl _, ?_, ?_, ?_⟩, ?_, fun e he => by cases he⟩
        · intro j hj
          rw [hk]
          exact if_neg (fun (he : j = i) => hi' (he ▸ hj))
        · intro j hj
          rw [htp]
          exact if_neg (fun (he : j = i) => hi' (he ▸ hj))
        · intro j hj
          rw [hok.linked]; exact (h.linked j).1 hj
        · intro j
          rw [hok.linked, h.linked]
          constructor
          · exact Or.inl
          · rintro (h1 | ⟨e, he, -⟩)
            · exact h1
            · cases he
  | @link i top l cur prevs nexts hl =>
    cases h with
    | @link s0 _ k _ A B r0 _ _ _ _ h hl' =>
      have hn := WInv.link h (l := l + 1) (by omega)
      have e1 := h.linkAll (l := l) (by omega)
      have e2 := h.linkAll (l := l + 1) (by omega)
      refine ⟨A ++ i :: B, hn, ?_, ?_, fun e he => by cases he⟩
      · show Ext (Skip.linkAll i prevs nexts l s0) _ (Skip.linkAll i prevs nexts (l + 1) s0) _
        rw [e1, e2]
        exact ⟨List.Sublist.refl _, fun _ _ => rfl, fun _ _ => rfl, fun _ hj => hj⟩
      · intro j
        show (Skip.linkAll i prevs nexts (l + 1) s0).linked j = true ↔ _
        rw [e1, e2]
        constructor
        · exact Or.inl
        · rintro (h1 | ⟨e, he, -⟩)
          · exact h1
          · cases he
  | @publish i top cur prevs nexts =>
    cases h with
    | @link s0 _ k _ A B r0 _ _ _ _ h hl' =>
      refine ⟨A ++ i :: B, .count h, ⟨List.Sublist.refl _, fun _ _ => rfl, fun _ _ => rfl, ?_⟩, ?_, ?_⟩
      · intro j hj
        show (if j = i then true else _) = true
        by_cases hji : j = i
        · rw [if_pos hji]
        · rw [if_neg hji]; exact hj
      · intro j
        show (if j = i then true else (Skip.linkAll i prevs nexts (top + 1) s0).linked j) = true ↔ _
        by_cases hji : j = i
        · rw [if_pos hji]
          exact ⟨fun _ => Or.inr ⟨_, rfl, hji.symm⟩, fun _ => rfl⟩
        · rw [if_neg hji]
          constructor
          · exact Or.inl
          · rintro (h1 | ⟨e, he, h1⟩)
            · exact h1
            · cases he
              exact absurd h1.symm hji
      · intro e he
        cases he
        refine ⟨?_, rfl⟩
        rw [h.linkAll (Nat.le_refl _)]
        show s0.linked i = false
        cases hh : s0.linked i with
        | false => rfl
        | true => exact absurd ((h.core.linked i).1 hh) h.ni
  | @count i top cur prevs =>
    cases h with
    | @count s0 _ k _ A B r0 _ _ nexts h =>
      have hf := insFinish_ok h
      have hi : ∀ j, (insFinish mx i top cur prevs nexts s0).linked j = (if j = i then true else (Skip.linkAll i prevs nexts (top + 1) s0).linked j) := by
        intro j
        unfold insFinish
        simp only
        obtain ⟨b, hb, -⟩ := clrFlags_eq prevs top (top + 1) 0 ({ Skip.linkAll i prevs nexts (top + 1) s0 with
          linked := fun j => if j = i then true else (Skip.linkAll i prevs nexts (top + 1) s0).linked j
          entries := (Skip.linkAll i prevs nexts (top + 1) s0).entries + 1
          layerEntries := fun l => if l = top then (Skip.linkAll i prevs nexts (top + 1) s0).layerEntries l + 1 else (Skip.linkAll i prevs nexts (top + 1) s0).layerEntries l
          topLayer := retop mx (fun l => if l = top then (Skip.linkAll i prevs nexts (top + 1) s0).layerEntries l + 1 else (Skip.linkAll i prevs nexts (top + 1) s0).layerEntries l) (Skip.linkAll i prevs nexts (top + 1) s0).topLayer } : Skip K) (by omega)
        rw [hb]
        rfl
      refine ⟨A ++ i :: B, .idle hf.1, ⟨List.Sublist.refl _, ?_, ?_, ?_⟩, ?_, fun e he => by cases he⟩
      · intro j _
        show (insFinish mx i top cur prevs nexts s0).key j = (Skip.linkAll i prevs nexts (top + 1) s0).key j
        rw [hf.2.2.1, h.linkAll (Nat.le_refl _)]
      · intro j _
        show (insFinish mx i top cur prevs nexts s0).top j = (Skip.linkAll i prevs nexts (top + 1) s0).top j
        rw [hf.2.2.2, h.linkAll (Nat.le_refl _)]
      · intro j hj
        show (insFinish mx i top cur prevs nexts s0).linked j = true
        rw [hi]; exact hj
      · intro j
        show (insFinish mx i top cur prevs nexts s0).linked j = true ↔ _
        rw [hi]
        constructor
        · exact Or.inl
        · rintro (h1 | ⟨e, he, -⟩)
          · exact h1
          · cases he

end Skip
end Jungle
