/- Lemmas about the skiplist: chains, searches. -/
import Verif.Index.Skip

set_option linter.unusedSectionVars false

namespace Jungle
namespace Skip
variable {K : Type} [LinearOrder K]

/-! ### reference counts -/

theorem release_grab (s : Skip K) (p : SPtr) : (s.grab p).release p = s := by
  unfold grab release
  obtain ⟨a, b, c, d, e, f, refs, g, h, i⟩ := s
  simp only [Skip.mk.injEq, true_and, and_true]
  funext x
  by_cases hx : x = p
  · simp [hx]
  · simp [hx]

theorem grab_comm (s : Skip K) (p q : SPtr) : (s.grab p).grab q = (s.grab q).grab p := by
  unfold grab
  obtain ⟨a, b, c, d, e, f, refs, g, h, i⟩ := s
  simp only [Skip.mk.injEq, true_and, and_true]
  funext x
  by_cases hx : x = p <;> by_cases hy : x = q <;> simp only [hx, hy, if_true, if_false] <;> split <;> rfl

/-- A reference is moved on. -/
theorem move (s : Skip K) (p q : SPtr) : ((s.grab p).grab q).release p = s.grab q := by
  rw [grab_comm, release_grab]

theorem valid_congr {s s' : Skip K} (h : s'.linked = s.linked) (p : SPtr) : s'.valid p = s.valid p := by
  cases p <;> simp [valid, h]

theorem skipOver_congr {s s' : Skip K} (hl : s'.linked = s.linked) (hn : s'.next = s.next) (L : Nat) (av : Option SPtr) :
    ∀ f p b, s'.skipOver L av f p b = s.skipOver L av f p b := by
  intro f
  induction f with
  | zero => intro p b; rfl
  | succ f ih =>
    intro p b
    unfold skipOver
    rw [valid_congr hl, hn, ih]

theorem slNext_congr {s s' : Skip K} (hl : s'.linked = s.linked) (hn : s'.next = s.next) (he : s'.entries = s.entries)
    (p : SPtr) (L : Nat) (av : Option SPtr) : s'.slNext p L av = s.slNext p L av := by
  unfold slNext
  rw [valid_congr hl, hn, he, skipOver_congr hl hn]

theorem slNext_grab (s : Skip K) (x p : SPtr) (L : Nat) (av : Option SPtr) : (s.grab x).slNext p L av = s.slNext p L av :=
  @slNext_congr K _ s (s.grab x) rfl rfl rfl p L av

/-! ### lists of nodes as chains -/

def lastOr (X : List Nat) : SPtr := match X.getLast? with | none => .head | some c => .node c
def headOr (Y : List Nat) : SPtr := match Y.head? with | none => .tail | some c => .node c

@[simp] theorem lastOr_nil : lastOr [] = .head := rfl
@[simp] theorem headOr_nil : headOr [] = .tail := rfl
@[simp] theorem headOr_cons (a : Nat) (Y : List Nat) : headOr (a :: Y) = .node a := rfl
@[simp] theorem lastOr_concat (X : List Nat) (a : Nat) : lastOr (X ++ [a]) = .node a := by
  unfold lastOr; rw [List.getLast?_concat]

theorem lastOr_ne_tail (X : List Nat) : lastOr X ≠ .tail := by unfold lastOr; split <;> intro h <;> cases h
theorem headOr_ne_head (Y : List Nat) : headOr Y ≠ .head := by unfold headOr; split <;> intro h <;> cases h

theorem list_last (X : List Nat) : X = [] ∨ ∃ X' c, X = X' ++ [c] := by
  cases h : X.reverse with
  | nil => left; exact List.reverse_eq_nil_iff.1 h
  | cons a as =>
    right
    refine ⟨as.reverse, a, ?_⟩
    rw [← List.reverse_reverse X, h, List.reverse_cons]

/-- The state of the skiplist: the nodes `ns` in the order of layer 0. -/
structure Core (mx : Nat) (s : Skip K) (ns : List Nat) : Prop where
  sorted : ns.Pairwise (fun a b => s.key a ≤ s.key b)
  nodup : ns.Nodup
  chain : ∀ L, L < mx → ∀ X Y, ns.filter (fun c => decide (L ≤ s.top c)) = X ++ Y → s.next (lastOr X) L = headOr Y
  linked : ∀ i, s.linked i = true ↔ i ∈ ns
  tops : ∀ i ∈ ns, s.top i ≤ s.topLayer
  topLt : s.topLayer < mx
  entries : s.entries = ns.length
  layers : ∀ l, s.layerEntries l = (ns.filter (fun c => decide (s.top c = l))).length

/-- Between two calls no node of the list is marked and no flag is set. -/
structure Ok (mx : Nat) (s : Skip K) (ns : List Nat) : Prop extends Core mx s ns where
  kept : ∀ i ∈ ns, s.removed i = false
  busy : ∀ p, s.busy p = false

/-- Where a search is: `A` are the nodes up to it, the last one is as high as the layer. -/
structure At (s : Skip K) (L : Nat) (A : List Nat) : Prop where
  top : ∀ c, A.getLast? = some c → L ≤ s.top c

theorem At.nil (s : Skip K) (L : Nat) : At s L [] := ⟨fun _ h => by cases h⟩

theorem At.down {s : Skip K} {L : Nat} {A : List Nat} (h : At s L A) {L' : Nat} (hl : L' ≤ L) : At s L' A :=
  ⟨fun c hc => Nat.le_trans hl (h.top c hc)⟩

theorem At.lastOr {s : Skip K} {L : Nat} {A : List Nat} (h : At s L A) :
    lastOr (A.filter (fun c => decide (L ≤ s.top c))) = lastOr A := by
  rcases list_last A with rfl | ⟨A', c, rfl⟩
  · rfl
  · have := h.top c List.getLast?_concat
    rw [List.filter_append, List.filter_cons_of_pos (by simpa using this), List.filter_nil]
    simp

/-- The chain of a layer from where the search is. -/
theorem Core.next_at {mx : Nat} {s : Skip K} {ns : List Nat} (h : Core mx s ns) {L : Nat} (hL : L < mx) {A B : List Nat}
    (hn : ns = A ++ B) (ha : At s L A) : s.next (Skip.lastOr A) L = headOr (B.filter (fun c => decide (L ≤ s.top c))) := by
  have := h.chain L hL (A.filter (fun c => decide (L ≤ s.top c))) (B.filter (fun c => decide (L ≤ s.top c)))
    (by rw [hn, List.filter_append])
  rw [ha.lastOr] at this
  exact this

theorem headOr_filter {s : Skip K} {L : Nat} {B : List Nat} :
    (headOr (B.filter (fun c => decide (L ≤ s.top c))) = .tail ∧ ∀ c ∈ B, ¬ L ≤ s.top c) ∨
    ∃ B1 c B2, B = B1 ++ c :: B2 ∧ headOr (B.filter (fun c => decide (L ≤ s.top c))) = .node c ∧ L ≤ s.top c ∧
      ∀ b ∈ B1, ¬ L ≤ s.top b := by
  induction B with
  | nil => left; exact ⟨rfl, by intro c hc; cases hc⟩
  | cons a B ih =>
    by_cases ha : L ≤ s.top a
    · right
      refine ⟨[], a, B, rfl, ?_, ha, by intro b hb; cases hb⟩
      rw [List.filter_cons_of_pos (by simpa using ha)]; rfl
    · rw [List.filter_cons_of_neg (by simpa using ha)]
      rcases ih with ⟨h1, h2⟩ | ⟨B1, c, B2, h1, h2, h3, h4⟩
      · left
        refine ⟨h1, ?_⟩
        intro c hc
        rcases List.mem_cons.1 hc with rfl | hc
        · exact ha
        · exact h2 c hc
      · right
        refine ⟨a :: B1, c, B2, by rw [h1]; rfl, h2, h3, ?_⟩
        intro b hb
        rcases List.mem_cons.1 hb with rfl | hb
        · exact ha
        · exact h4 b hb

theorem Core.valid_last {mx : Nat} {s : Skip K} {ns : List Nat} (h : Core mx s ns) {A B : List Nat} (hn : ns = A ++ B) :
    s.valid (Skip.lastOr A) = true := by
  rcases list_last A with rfl | ⟨A', c, rfl⟩
  · rfl
  · rw [lastOr_concat]
    exact (h.linked c).2 (by rw [hn]; simp)

theorem Core.valid_head {mx : Nat} {s : Skip K} {ns : List Nat} (h : Core mx s ns) {B : List Nat} (hn : ∀ b ∈ B, b ∈ ns) :
    s.valid (headOr B) = true := by
  cases B with
  | nil => rfl
  | cons b B => exact (h.linked b).2 (hn b (List.mem_cons_self ..))

theorem slNext_valid {s : Skip K} {cur nx : SPtr} {L : Nat} (h1 : s.valid cur = true) (h2 : s.next cur L = nx)
    (h3 : s.valid nx = true) : s.slNext cur L none = some (nx, false) := by
  unfold slNext
  rw [if_pos h1, h2]
  unfold skipOver
  rw [if_neg (by rw [h3]; simp)]

/-- `_sl_next` of a position. -/
theorem Core.slNext_at {mx : Nat} {s : Skip K} {ns : List Nat} (h : Core mx s ns) {L : Nat} (hL : L < mx) {A B : List Nat}
    (hn : ns = A ++ B) (ha : At s L A) :
    s.slNext (Skip.lastOr A) L none = some (headOr (B.filter (fun c => decide (L ≤ s.top c))), false) := by
  refine slNext_valid (h.valid_last hn) (h.next_at hL hn ha) (h.valid_head ?_)
  intro b hb
  rw [hn]
  exact List.mem_append_right _ ((List.mem_filter.1 hb).1)

/-! ### comparisons -/

/-- The node is before the query. -/
def Bef (s : Skip K) (q : Option K) (c : Nat) : Prop := ∀ k, q = some k → s.key c < k

theorem cmp_gt {s : Skip K} {q : Option K} {c : Nat} : s.cmpQ q (.node c) = .gt ↔ Bef s q c := by
  unfold cmpQ Bef
  cases q with
  | none => simp
  | some k =>
    simp only [Option.some.injEq, forall_eq']
    split
    · next h => simp; exact Std.le_of_lt h
    · split
      · next h => simp [h]
      · next h => simp; exact not_lt.1 h

theorem cmp_eq {s : Skip K} {q : Option K} {c : Nat} : s.cmpQ q (.node c) = .eq ↔ q = some (s.key c) := by
  unfold cmpQ
  cases q with
  | none => simp
  | some k =>
    simp only [Option.some.injEq]
    split
    · next h => simp; exact fun he => absurd (he ▸ h) (lt_irrefl _)
    · next h1 =>
      split
      · next h => simp; exact fun he => absurd (he ▸ h) (lt_irrefl _)
      · next h => simp; exact le_antisymm (not_lt.1 h) (not_lt.1 h1)

theorem Bef.mono {s : Skip K} {q : Option K} {a b : Nat} (h : Bef s q b) (hab : s.key a ≤ s.key b) : Bef s q a :=
  fun k hk => lt_of_le_of_lt hab (h k hk)

/-- The nodes before the first one that is not before the query, in a layer, are before the query. -/
theorem Core.bef_upto {mx : Nat} {s : Skip K} {ns : List Nat} (h : Core mx s ns) {q : Option K} {A B1 B2 : List Nat} {c : Nat}
    (hn : ns = A ++ (B1 ++ c :: B2)) (hc : Bef s q c) : ∀ b ∈ A ++ (B1 ++ [c]), Bef s q b := by
  intro b hb
  have hs := h.sorted
  have hn' : ns = (A ++ B1) ++ c :: B2 := by rw [hn, List.append_assoc]
  rw [hn', List.pairwise_append] at hs
  have hb' : b ∈ A ++ B1 ∨ b = c := by
    simp only [List.mem_append, List.mem_singleton] at hb
    simp only [List.mem_append]
    rcases hb with hb | hb | hb
    · exact Or.inl (Or.inl hb)
    · exact Or.inl (Or.inr hb)
    · exact Or.inr hb
  rcases hb' with hb' | rfl
  · exact hc.mono (hs.2.2 b hb' c (List.mem_cons_self ..))
  · exact hc

theorem Core.after {mx : Nat} {s : Skip K} {ns : List Nat} (h : Core mx s ns) {q : Option K} {A B : List Nat} {c : Nat}
    (hn : ns = A ++ c :: B) (hc : ¬ Bef s q c) : ∀ b ∈ c :: B, ¬ Bef s q b := by
  intro b hb hq
  have hs := h.sorted
  rw [hn, List.pairwise_append] at hs
  rcases List.mem_cons.1 hb with rfl | hb
  · exact hc hq
  · exact hc (hq.mono ((List.pairwise_cons.1 hs.2.1).1 b hb))

/-! ### the search -/

/-- What a search finds. -/
def Found (s : Skip K) (ns : List Nat) (q : Option K) (mode : Int) (r : Option SPtr) : Prop :=
  (-1 ≤ mode ∧ mode ≤ 1 ∧ ((∃ c ∈ ns, q = some (s.key c) ∧ r = some (.node c)) ∨ (q = none ∧ r = some .tail))) ∨
  ∃ A B, ns = A ++ B ∧ (∀ a ∈ A, Bef s q a) ∧ (∀ b ∈ B, ¬ Bef s q b) ∧
    (-1 ≤ mode ∧ mode ≤ 1 → ∀ b ∈ B, q ≠ some (s.key b)) ∧
    r = if mode < 0 ∧ lastOr A ≠ .head then some (lastOr A)
        else if 0 < mode ∧ headOr B ≠ .tail then some (headOr B) else none

theorem findLoop_ok {mx : Nat} {s : Skip K} {ns : List Nat} (h : Core mx s ns) (q : Option K) (mode : Int) :
    ∀ f L A B, L < mx → ns = A ++ B → At s L A → (∀ a ∈ A, Bef s q a) → B.length + L + 1 ≤ f →
      ∃ r, findLoop q mode f L (lastOr A) (s.grab (lastOr A)) = some (r, r.elim s s.grab) ∧ Found s ns q mode r := by
  intro f
  induction f with
  | zero => intro L A B _ _ _ _ hf; omega
  | succ f ih =>
    intro L A B hL hn hat hA hf
    have hnx := h.slNext_at hL hn hat
    unfold findLoop
    rw [slNext_grab, hnx]
    simp only
    have hcmp : ∀ p, (s.grab (lastOr A)).cmpQ q p = s.cmpQ q p := fun p => by cases p <;> rfl
    simp only [hcmp, move, release_grab]
    rcases headOr_filter (s := s) (L := L) (B := B) with ⟨hh, hB⟩ | ⟨B1, c, B2, hB, hh, hc, hB1⟩
    · -- the end of the layer
      rw [hh]
      have htl : s.cmpQ q .tail = if q.isNone then .eq else .lt := rfl
      have hng : s.cmpQ q .tail ≠ .gt := by rw [htl]; split <;> intro h <;> cases h
      rw [if_neg hng]
      by_cases he : -1 ≤ mode ∧ mode ≤ 1 ∧ s.cmpQ q .tail = .eq
      · rw [if_pos he]
        refine ⟨some .tail, rfl, Or.inl ⟨he.1, he.2.1, Or.inr ⟨?_, rfl⟩⟩⟩
        have := he.2.2
        rw [htl] at this
        split at this
        · next hq => exact Option.isNone_iff_eq_none.1 hq
        · cases this
      · rw [if_neg he]
        by_cases hl : L ≠ 0
        · rw [if_pos hl]
          exact ih (L - 1) A B (by omega) hn (hat.down (by omega)) hA (by omega)
        · rw [if_neg hl]
          have hL0 : L = 0 := by omega
          have hBn : B = [] := by
            cases B with
            | nil => rfl
            | cons b B => exact absurd (by omega) (hB b (List.mem_cons_self ..))
          by_cases hm : mode < 0 ∧ lastOr A ≠ .head
          · rw [if_pos hm]
            refine ⟨_, rfl, Or.inr ⟨A, B, hn, hA, ?_, ?_, by rw [if_pos hm]⟩⟩
            · intro b hb; rw [hBn] at hb; cases hb
            · intro _ b hb; rw [hBn] at hb; cases hb
          · rw [if_neg hm, if_neg (by simp)]
            refine ⟨none, ?_, Or.inr ⟨A, B, hn, hA, ?_, ?_, ?_⟩⟩
            · rfl
            · intro b hb; rw [hBn] at hb; cases hb
            · intro _ b hb; rw [hBn] at hb; cases hb
            · rw [if_neg hm, hBn, if_neg (by simp)]
    · rw [hh]
      have hn' : ns = A ++ (B1 ++ c :: B2) := by rw [hn, hB]
      by_cases hg : s.cmpQ q (.node c) = .gt
      · rw [if_pos hg]
        have := ih L (A ++ (B1 ++ [c])) B2 hL (by rw [hn']; simp) ⟨by
          intro d hd
          rw [← List.append_assoc, List.getLast?_concat] at hd
          cases hd
          exact hc⟩ (h.bef_upto hn' (cmp_gt.1 hg)) (by rw [hB] at hf; simp at hf; omega)
        rw [← List.append_assoc, lastOr_concat] at this
        exact this
      · rw [if_neg hg]
        have hnb : ¬ Bef s q c := fun hb => hg (cmp_gt.2 hb)
        by_cases he : -1 ≤ mode ∧ mode ≤ 1 ∧ s.cmpQ q (.node c) = .eq
        · rw [if_pos he]
          exact ⟨_, rfl, Or.inl ⟨he.1, he.2.1, Or.inl ⟨c, by rw [hn']; simp, cmp_eq.1 he.2.2, rfl⟩⟩⟩
        · rw [if_neg he]
          by_cases hl : L ≠ 0
          · rw [if_pos hl]
            exact ih (L - 1) A B (by omega) hn (hat.down (by omega)) hA (by omega)
          · rw [if_neg hl]
            have hL0 : L = 0 := by omega
            have hB1n : B1 = [] := by
              cases B1 with
              | nil => rfl
              | cons b B => exact absurd (by omega) (hB1 b (List.mem_cons_self ..))
            rw [hB1n, List.nil_append] at hB
            subst hB
            have haft := h.after hn hnb
            have hne : -1 ≤ mode ∧ mode ≤ 1 → ∀ b ∈ c :: B2, q ≠ some (s.key b) := by
              intro hm b hb hq
              have hsn := h.sorted
              rw [hn, List.pairwise_append] at hsn
              have hcb : s.key c ≤ s.key b := by
                rcases List.mem_cons.1 hb with rfl | hb'
                · exact le_refl _
                · exact (List.pairwise_cons.1 hsn.2.1).1 b hb'
              apply he
              refine ⟨hm.1, hm.2, cmp_eq.2 ?_⟩
              rw [hq]
              congr 1
              refine le_antisymm ?_ hcb
              by_contra hlt
              apply hnb
              intro k hk
              rw [hq] at hk
              cases hk
              exact not_le.1 hlt
            by_cases hm : mode < 0 ∧ lastOr A ≠ .head
            · rw [if_pos hm]
              exact ⟨_, rfl, Or.inr ⟨A, c :: B2, hn, hA, haft, hne, by rw [if_pos hm]⟩⟩
            · rw [if_neg hm]
              by_cases hm2 : 0 < mode ∧ SPtr.node c ≠ .tail
              · rw [if_pos hm2]
                refine ⟨_, rfl, Or.inr ⟨A, c :: B2, hn, hA, haft, hne, ?_⟩⟩
                rw [if_neg hm, headOr_cons, if_pos hm2]
              · rw [if_neg hm2]
                refine ⟨none, ?_, Or.inr ⟨A, c :: B2, hn, hA, haft, hne, ?_⟩⟩
                · rfl
                · rw [if_neg hm, headOr_cons, if_neg hm2]

theorem slFind_ok {mx : Nat} {s : Skip K} {ns : List Nat} (h : Core mx s ns) (q : Option K) (mode : Int) :
    ∃ r, s.slFind q mode = some (r, r.elim s s.grab) ∧ Found s ns q mode r := by
  have := findLoop_ok h q mode (s.entries + s.topLayer + 1) s.topLayer [] ns h.topLt rfl (At.nil _ _) (by intro a ha; cases ha)
    (by rw [h.entries])
  exact this

end Skip
end Jungle
