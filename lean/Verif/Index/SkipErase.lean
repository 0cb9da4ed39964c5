/- Removal from the skiplist. -/
import Verif.Index.SkipInsert

set_option linter.unusedSectionVars false

namespace Jungle
namespace Skip
variable {K : Type} [LinearOrder K]

theorem unlinkAll_eq (i : Nat) (prevs nexts : Nat → SPtr) (s : Skip K) : ∀ n, (∀ l, l < n → s.next (prevs l) l = .node i) →
    unlinkAll i prevs nexts n s = { s with next := fun x l => if l < n ∧ x = prevs l then nexts l else s.next x l } := by
  intro n
  induction n with
  | zero =>
    intro _
    unfold unlinkAll
    obtain ⟨a, b, c, d, e, f, refs, g, h, j⟩ := s
    simp
  | succ n ih =>
    intro h
    unfold unlinkAll
    simp only
    rw [ih (fun l hl => h l (by omega))]
    have hn : (if n < n ∧ prevs n = prevs n then nexts n else s.next (prevs n) n) = .node i := by
      rw [if_neg (by omega)]; exact h n (by omega)
    rw [if_pos hn]
    unfold setNext
    simp only [Skip.mk.injEq, true_and, and_true]
    funext x l
    by_cases hl : l = n
    · subst hl
      by_cases hx : x = prevs l
      · rw [if_pos ⟨hx, rfl⟩, if_pos ⟨by omega, hx⟩]
      · rw [if_neg (by rintro ⟨h1, -⟩; exact hx h1), if_neg (by omega), if_neg (by rintro ⟨-, h1⟩; exact hx h1)]
    · rw [if_neg (by rintro ⟨-, h1⟩; exact hl h1)]
      by_cases hc : l < n ∧ x = prevs l
      · rw [if_pos hc, if_pos ⟨by omega, hc.2⟩]
      · rw [if_neg hc, if_neg]
        rintro ⟨h1, h2⟩
        exact hc ⟨by omega, h2⟩

/-- The last node of a proper prefix is not the last node. -/
theorem lastOr_prefix {X Z : List Nat} (hnd : (X ++ Z).Nodup) (hz : Z ≠ []) : lastOr X ≠ lastOr (X ++ Z) := by
  intro he
  rcases list_last Z with rfl | ⟨Z', d, rfl⟩
  · exact hz rfl
  · rw [← List.append_assoc, lastOr_concat] at he
    have := lastOr_node he
    exact (List.nodup_append.1 hnd).2.2 d this d (by simp) rfl

theorem chain_erase {next next' : SPtr → SPtr} {A B : List Nat} {i : Nat} (hnd : (A ++ i :: B).Nodup)
    (hc : ∀ X Y, A ++ i :: B = X ++ Y → next (lastOr X) = headOr Y)
    (hn : ∀ x, next' x = if x = lastOr A then headOr B else next x) :
    ∀ X Y, A ++ B = X ++ Y → next' (lastOr X) = headOr Y := by
  have hnd' := List.nodup_append.1 hnd
  intro X Y h
  rcases List.append_eq_append_iff.1 h with ⟨Z, h1, h2⟩ | ⟨Z, h1, h2⟩
  · rcases list_last Z with rfl | ⟨Z', c, rfl⟩
    · rw [List.append_nil] at h1
      rw [List.nil_append] at h2
      rw [h1, hn, if_pos rfl, h2]
    · have hlx : lastOr X = .node c := by rw [h1, ← List.append_assoc, lastOr_concat]
      have hcB : c ∈ B := by rw [h2]; simp
      rw [hlx, hn, if_neg]
      · have := hc (A ++ i :: (Z' ++ [c])) Y (by rw [h2]; simp)
        rw [← List.cons_append, ← List.append_assoc, lastOr_concat] at this
        exact this
      · intro he
        exact hnd'.2.2 c (lastOr_node he.symm) c (List.mem_cons_of_mem _ hcB) rfl
  · cases Z with
    | nil =>
      rw [List.append_nil] at h1
      rw [List.nil_append] at h2
      rw [h2, hn, if_pos (by rw [h1])]
    | cons z Z =>
      rw [hn, if_neg]
      · rw [hc X (z :: Z ++ i :: B) (by rw [h1]; simp), h2]; rfl
      · rw [h1]
        exact lastOr_prefix (by rw [← h1]; exact hnd'.1) (by simp)

structure ErInv (mx i : Nat) (top : Nat) (A B : List Nat) (r0 : SPtr → Nat) (D : Nat) (cur : SPtr)
    (prevs nexts : Nat → SPtr) (s : Skip K) : Prop where
  core : Core mx s (A ++ i :: B)
  kept : ∀ j ∈ A ++ B, s.removed j = false
  ti : s.top i = top
  refs : s.refs = fun x => if x = cur then r0 x + 1 else r0 x
  busy : BusyFrom s D top (fun l => lastOr (lay s.top l A)) (fun p => p = .node i)
  pv : ∀ l, D ≤ l → l ≤ top → prevs l = lastOr (lay s.top l A)
  nx : ∀ l, D ≤ l → l ≤ top → nexts l = headOr (lay s.top l B)

/-- Changing flags and counts keeps the list. -/
theorem Core.flags {mx : Nat} {s s' : Skip K} {ns : List Nat} (h : Core mx s ns) (hk : s'.key = s.key) (ht : s'.top = s.top)
    (hl : s'.linked = s.linked) (he : s'.entries = s.entries) (hle : s'.layerEntries = s.layerEntries)
    (htl : s'.topLayer = s.topLayer) (hn : s'.next = s.next) : Core mx s' ns := by
  refine ⟨by rw [hk]; exact h.sorted, h.nodup, ?_, by rw [hl]; exact h.linked,
    by rw [ht, htl]; exact h.tops, by rw [htl]; exact h.topLt, by rw [he]; exact h.entries, by rw [hle, ht]; exact h.layers⟩
  rw [ht, hn]
  exact h.chain

theorem ErInv.move {mx i : Nat} {top : Nat} {A B : List Nat} {r0 : SPtr → Nat} {D : Nat} {cur : SPtr} {prevs nexts : Nat → SPtr}
    {s : Skip K} (h : ErInv mx i top A B r0 D cur prevs nexts s) (nx : SPtr) :
    ErInv mx i top A B r0 D nx prevs nexts ((s.grab nx).release cur) := by
  refine ⟨h.core.flags rfl rfl rfl rfl rfl rfl rfl, h.kept, h.ti, ?_, h.busy, h.pv, h.nx⟩
  show (fun x => if x = cur then (if x = nx then s.refs x + 1 else s.refs x) - 1 else (if x = nx then s.refs x + 1 else s.refs x)) = _
  funext x
  rw [h.refs]
  by_cases h1 : x = cur <;> by_cases h2 : x = nx <;> simp only [h1, h2, if_true, if_false] <;> split <;> rfl

theorem eraseFinish_ok {mx i : Nat} {top : Nat} {A B : List Nat} {r0 : SPtr → Nat} {cur : SPtr} {prevs nexts : Nat → SPtr}
    {s : Skip K} (h : ErInv mx i top A B r0 0 cur prevs nexts s) :
    Ok mx (eraseFinish mx i top cur prevs nexts s) (A ++ B) ∧ (eraseFinish mx i top cur prevs nexts s).refs = r0 ∧
      (eraseFinish mx i top cur prevs nexts s).key = s.key ∧ (eraseFinish mx i top cur prevs nexts s).removed = s.removed := by
  have hnd := List.nodup_append.1 h.core.nodup
  have hiB : i ∉ B := (List.nodup_cons.1 hnd.2.1).1
  have hiA : i ∉ A := fun hi => hnd.2.2 i hi i (List.mem_cons_self ..) rfl
  have htl : top < mx := by
    rw [← h.ti]
    exact Nat.lt_of_le_of_lt (h.core.tops i (by simp)) h.core.topLt
  have hlayi : ∀ l, l ≤ top → lay s.top l (i :: B) = i :: lay s.top l B := by
    intro l hl
    exact List.filter_cons_of_pos (by rw [h.ti]; simpa using hl)
  have hlink := unlinkAll_eq i prevs nexts ({ s with linked := fun j => if j = i then false else s.linked j } : Skip K) (top + 1) (by
    intro l hl
    show s.next (prevs l) l = _
    rw [h.pv l (Nat.zero_le _) (by omega)]
    have := h.core.chain l (by omega) _ _ (lay_append s.top l A (i :: B))
    rw [hlayi l (by omega)] at this
    exact this)
  unfold eraseFinish
  simp only
  rw [hlink]
  simp only
  obtain ⟨b, hb, hbp⟩ := clrFlags_eq prevs top (top + 1) 0 ({
    key := s.key, next := fun x l => if l < top + 1 ∧ x = prevs l then nexts l else s.next x l, top := s.top,
    linked := fun j => if j = i then false else s.linked j, removed := s.removed, busy := s.busy, refs := s.refs,
    entries := s.entries - 1, layerEntries := fun l => if l = top then s.layerEntries l - 1 else s.layerEntries l,
    topLayer := retop mx (fun l => if l = top then s.layerEntries l - 1 else s.layerEntries l) s.topLayer } : Skip K) (by omega)
  rw [hb]
  have hlen : ∀ l, (if l = top then s.layerEntries l - 1 else s.layerEntries l) = ((A ++ B).filter (fun c => decide (s.top c = l))).length := by
    intro l
    rw [h.core.layers, List.filter_append, List.filter_append, List.length_append, List.length_append]
    by_cases hl : l = top
    · rw [if_pos hl, List.filter_cons_of_pos (by rw [h.ti, hl]; simp), List.length_cons]; omega
    · rw [if_neg hl, List.filter_cons_of_neg (by rw [h.ti]; simp; exact fun he => hl he.symm)]
  have hmem : ∀ j, j ∈ A ++ B → j ∈ A ++ i :: B ∧ j ≠ i := by
    intro j hj
    refine ⟨?_, fun he => ?_⟩
    · simp only [List.mem_append, List.mem_cons] at hj ⊢
      rcases hj with hj | hj
      · exact Or.inl hj
      · exact Or.inr (Or.inr hj)
    · rw [he] at hj
      rcases List.mem_append.1 hj with hj | hj
      · exact hiA hj
      · exact hiB hj
  refine ⟨⟨⟨?_, ?_, ?_, ?_, ?_, ?_, ?_, ?_⟩, ?_, ?_⟩, ?_, rfl, rfl⟩
  · have hs := List.pairwise_append.1 h.core.sorted
    exact List.pairwise_append.2 ⟨hs.1, (List.pairwise_cons.1 hs.2.1).2, fun a ha b hb => hs.2.2 a ha b (List.mem_cons_of_mem _ hb)⟩
  · exact List.nodup_append.2 ⟨hnd.1, (List.nodup_cons.1 hnd.2.1).2, fun a ha b hb => hnd.2.2 a ha b (List.mem_cons_of_mem _ hb)⟩
  · intro L hL X Y hXY
    show (if L < top + 1 ∧ lastOr X = prevs L then nexts L else s.next (lastOr X) L) = headOr Y
    have hXY' : lay s.top L (A ++ B) = X ++ Y := hXY
    rw [lay_append] at hXY'
    by_cases hLt : L ≤ top
    · refine chain_erase (next := fun x => s.next x L) (next' := fun x => if L < top + 1 ∧ x = prevs L then nexts L else s.next x L)
        (A := lay s.top L A) (B := lay s.top L B) (i := i) ?_ ?_ ?_ X Y hXY'
      · rw [← hlayi L hLt, ← lay_append]; exact h.core.nodup.filter _
      · intro X Y hh
        rw [← hlayi L hLt, ← lay_append] at hh
        exact h.core.chain L hL X Y hh
      · intro x
        rw [h.pv L (Nat.zero_le _) hLt, h.nx L (Nat.zero_le _) hLt]
        by_cases hx : x = lastOr (lay s.top L A)
        · rw [if_pos ⟨by omega, hx⟩, if_pos hx]
        · rw [if_neg (fun hh => hx hh.2), if_neg hx]
    · have hcons : lay s.top L (i :: B) = lay s.top L B := List.filter_cons_of_neg (by rw [h.ti]; simpa using hLt)
      rw [← hcons, ← lay_append] at hXY'
      rw [if_neg (by omega)]
      exact h.core.chain L hL X Y hXY'
  · intro j
    show (if j = i then false else s.linked j) = true ↔ _
    by_cases hj : j = i
    · rw [if_pos hj, hj]
      exact ⟨(fun h => by cases h), (fun hh => absurd rfl (hmem i hh).2)⟩
    · rw [if_neg hj, h.core.linked]
      simp only [List.mem_append, List.mem_cons, hj, false_or]
  · intro j hj
    show s.top j ≤ retop mx _ s.topLayer
    have hj1 := (hmem j hj).1
    refine (retop_ge (Nat.lt_of_le_of_lt (h.core.tops j hj1) h.core.topLt) ?_).1
    show 0 < (if s.top j = top then s.layerEntries (s.top j) - 1 else s.layerEntries (s.top j))
    rw [hlen]
    refine List.length_pos_iff.mpr ?_
    intro h0
    have : j ∈ (A ++ B).filter (fun x => decide (s.top x = s.top j)) := List.mem_filter.2 ⟨hj, by simp⟩
    rw [h0] at this
    cases this
  · show retop mx _ s.topLayer < mx
    exact retop_lt h.core.topLt
  · show s.entries - 1 = _
    rw [h.core.entries]
    simp only [List.length_append, List.length_cons]; omega
  · exact hlen
  · exact h.kept
  · intro p
    show (if p = .node i then false else b p) = false
    by_cases hpi : p = .node i
    · rw [if_pos hpi]
    · rw [if_neg hpi]
      by_cases hc : ∃ l, 0 ≤ l ∧ l ≤ top ∧ prevs l = p
      · exact (hbp p).1 hc
      · rw [(hbp p).2 hc]
        show s.busy p = false
        cases hbb : s.busy p with
        | false => rfl
        | true =>
          exfalso
          rcases (h.busy p).1 hbb with ⟨l, h1, h2, h3⟩ | hf
          · exact hc ⟨l, h1, h2, by rw [h.pv l h1 h2]; exact h3⟩
          · exact hpi hf
  · show (fun x => if x = cur then s.refs x - 1 else s.refs x) = r0
    funext x
    rw [h.refs]
    by_cases hx : x = cur <;> simp [hx]

/-- `_sl_next` that does not meet the node to erase. -/
theorem slNext_other {s : Skip K} {cur nx : SPtr} {L i : Nat} (h1 : s.valid cur = true) (h2 : s.next cur L = nx)
    (h3 : s.valid nx = true) (h4 : nx ≠ .node i) : s.slNext cur L (some (.node i)) = some (nx, false) := by
  unfold slNext
  rw [if_pos h1, h2]
  unfold skipOver
  rw [if_neg]
  rintro (h | h)
  · rw [h3] at h; cases h
  · exact h4 (Option.some.inj h)

/-- `_sl_next` that meets the node to erase. -/
theorem slNext_skip {s : Skip K} {cur nx : SPtr} {L i : Nat} (h1 : s.valid cur = true) (h2 : s.next cur L = .node i)
    (hi : s.valid (.node i) = true) (h3 : s.next (.node i) L = nx) (h4 : s.valid nx = true) (h5 : nx ≠ .node i) :
    s.slNext cur L (some (.node i)) = some (nx, true) := by
  unfold slNext
  rw [if_pos h1, h2]
  unfold skipOver
  rw [if_pos (Or.inr rfl), if_neg (by rw [hi]; simp), h3]
  unfold skipOver
  rw [if_neg]
  rintro (h | h)
  · rw [h4] at h; cases h
  · exact h5 (Option.some.inj h)

theorem eraseLoop_ok {mx i : Nat} {top : Nat} {A B : List Nat} {r0 : SPtr → Nat} :
    ∀ (f L : Nat) (A0 M : List Nat) (prevs nexts : Nat → SPtr) (s : Skip K), ErInv mx i top A B r0 (L + 1) (lastOr A0) prevs nexts s → L < mx → A = A0 ++ M → At s L A0 →
      M.length + L + 1 ≤ f →
      ∃ s', eraseLoop mx i top f L (lastOr A0) prevs nexts s = some s' ∧ Ok mx s' (A ++ B) ∧ s'.refs = r0 ∧ s'.key = s.key ∧ s'.removed = s.removed := by
  intro f
  induction f with
  | zero => intro L A0 M prevs nexts s _ _ _ _ hf; omega
  | succ f ih =>
    intro L A0 M prevs nexts s h hL hA hat hf
    have hnd := List.nodup_append.1 h.core.nodup
    have hiB : i ∉ B := (List.nodup_cons.1 hnd.2.1).1
    have hiA : i ∉ A := fun hi => hnd.2.2 i hi i (List.mem_cons_self ..) rfl
    have hn : A ++ i :: B = A0 ++ (M ++ i :: B) := by rw [hA]; simp
    have hvc := h.core.valid_last hn
    have hnx := h.core.next_at hL hn hat
    have hvi : s.valid (.node i) = true := (h.core.linked i).2 (by simp)
    have hsort := List.pairwise_append.1 h.core.sorted
    -- forward to a node of M
    have hfwd : ∀ M1 c M2, M = M1 ++ c :: M2 → L ≤ s.top c →
        ∃ s', eraseLoop mx i top f L (.node c) prevs nexts ((s.grab (.node c)).release (lastOr A0)) = some s' ∧ Ok mx s' (A ++ B) ∧ s'.refs = r0 ∧
          s'.key = s.key ∧ s'.removed = s.removed := by
      intro M1 c M2 hM hc
      have := ih L (A0 ++ (M1 ++ [c])) M2 prevs nexts ((s.grab (.node c)).release (lastOr A0)) (by
          rw [← List.append_assoc, lastOr_concat]; exact h.move _) hL (by rw [hA, hM]; simp) ⟨by
          intro d hd
          rw [← List.append_assoc, List.getLast?_concat] at hd
          cases hd
          exact hc⟩ (by rw [hM] at hf; simp at hf; omega)
      rw [← List.append_assoc, lastOr_concat] at this
      exact this
    unfold eraseLoop
    have hge : ∀ b ∈ B, s.cmpQ (some (s.key i)) (.node b) ≠ .gt := by
      intro b hb hg
      have h1 := cmp_gt.1 hg (s.key i) rfl
      exact absurd h1 (not_lt.2 ((List.pairwise_cons.1 hsort.2.1).1 b hb))
    by_cases hLt : L ≤ top
    · have hlayi : lay s.top L (i :: B) = i :: lay s.top L B := List.filter_cons_of_pos (by rw [h.ti]; simpa using hLt)
      have hnx' : s.next (lastOr A0) L = headOr (lay s.top L M ++ i :: lay s.top L B) := by
        rw [← hlayi, ← lay_append]; exact hnx
      rcases headOr_filter (s := s) (L := L) (B := M) with ⟨hh, hM⟩ | ⟨M1, c, M2, hM, hh, hc, hM1⟩
      · -- the node is next
        have hMl : lay s.top L M = [] := by
          unfold lay
          rw [List.filter_eq_nil_iff]
          intro a ha
          simpa using hM a ha
        rw [hMl, List.nil_append] at hnx'
        have hPL : lastOr (lay s.top L A) = lastOr A0 := by
          rw [hA, lay_append, hMl, List.append_nil]; exact hat.lastOr
        have hni : s.next (.node i) L = headOr (lay s.top L B) := by
          have := h.core.chain L hL (lay s.top L A ++ [i]) (lay s.top L B) (by
            show lay s.top L (A ++ i :: B) = _
            rw [lay_append, hlayi]; simp)
          rw [lastOr_concat] at this
          exact this
        have hvB : s.valid (headOr (lay s.top L B)) = true :=
          h.core.valid_head (fun b hb => List.mem_append_right _ (List.mem_cons_of_mem _ (mem_lay.1 hb).1))
        have hneB : headOr (lay s.top L B) ≠ .node i := fun he => hiB (mem_lay.1 (headOr_node he)).1
        rw [slNext_skip hvc hnx' hvi hni hvB hneB]
        simp only
        rw [if_neg (by
          rintro (hg | hg)
          · cases hl : lay s.top L B with
            | nil => rw [hl] at hg; cases hg
            | cons b C =>
              rw [hl] at hg
              exact hge b (mem_lay.1 (by rw [hl]; simp)).1 hg
          · cases hg.2)]
        rw [release_grab, if_pos hLt]
        have hpv : ∀ l, L ≤ l → l ≤ top → put prevs L (lastOr A0) l = lastOr (lay s.top l A) := by
          intro l h1 h2
          unfold put
          by_cases hl : l = L
          · rw [if_pos hl, hl]; exact hPL.symm
          · rw [if_neg hl]; exact h.pv l (by omega) h2
        have hnv : ∀ l, L ≤ l → l ≤ top → put nexts L (headOr (lay s.top L B)) l = headOr (lay s.top l B) := by
          intro l h1 h2
          unfold put
          by_cases hl : l = L
          · rw [if_pos hl, hl]
          · rw [if_neg hl]; exact h.nx l (by omega) h2
        obtain ⟨b, hb, hbusy⟩ := lockPrev_ok hnd.1 hLt hpv h.busy
          (fun l he => hiA (mem_lay.1 (lastOr_node he)).1)
          (by unfold put; rw [if_pos rfl]; exact hvc) hvB
        rw [hb]
        simp only
        have hinv : ErInv mx i top A B r0 L (lastOr A0) (put prevs L (lastOr A0)) (put nexts L (headOr (lay s.top L B)))
            ({ s with busy := b } : Skip K) :=
          ⟨h.core.flags rfl rfl rfl rfl rfl rfl rfl, h.kept, h.ti, h.refs, hbusy, hpv, hnv⟩
        have hagain : ({ s with busy := b } : Skip K).slNext (lastOr A0) L (some (.node i)) = some (headOr (lay s.top L B), true) :=
          (@slNext_congr K _ s ({ s with busy := b } : Skip K) rfl rfl rfl _ _ _).trans (slNext_skip hvc hnx' hvi hni hvB hneB)
        rw [hagain, if_neg (by simp)]
        by_cases hl : L ≠ 0
        · rw [if_pos hl]
          have h1 : L - 1 + 1 = L := by omega
          exact ih (L - 1) A0 M (put prevs L (lastOr A0)) (put nexts L (headOr (lay s.top L B))) ({ s with busy := b } : Skip K)
            (by rw [h1]; exact hinv) (by omega) hA ⟨(hat.down (by omega)).top⟩ (by omega)
        · rw [if_neg hl]
          have hL0 : L = 0 := by omega
          subst hL0
          exact ⟨_, rfl, eraseFinish_ok hinv⟩
      · -- a node before it
        have hhc : lay s.top L M = c :: lay s.top L M2 := by
          rw [hM, lay_append]
          have h1 : lay s.top L M1 = [] := by
            unfold lay
            rw [List.filter_eq_nil_iff]
            intro a ha
            simpa using hM1 a ha
          rw [h1, List.nil_append]
          exact List.filter_cons_of_pos (by simpa using hc)
        rw [hhc, List.cons_append] at hnx'
        have hcA : c ∈ A := by rw [hA, hM]; simp
        rw [slNext_other hvc hnx' ((h.core.linked c).2 (List.mem_append_left _ hcA)) (by
          intro he; cases he; exact hiA hcA)]
        simp only
        rw [if_pos (Or.inr ⟨hLt, trivial⟩)]
        exact hfwd M1 c M2 hM hc
    · have hlayi : lay s.top L (i :: B) = lay s.top L B := List.filter_cons_of_neg (by rw [h.ti]; simpa using hLt)
      have hnx' : s.next (lastOr A0) L = headOr (lay s.top L M ++ lay s.top L B) := by
        rw [← hlayi, ← lay_append]; exact hnx
      have hdown : ∃ s', eraseLoop mx i top f (L - 1) (lastOr A0) prevs nexts s = some s' ∧ Ok mx s' (A ++ B) ∧ s'.refs = r0 ∧
          s'.key = s.key ∧ s'.removed = s.removed := by
        have h1 : L - 1 + 1 = L := by omega
        refine ih (L - 1) A0 M _ _ _ ?_ (by omega) hA (hat.down (by omega)) (by omega)
        rw [h1]
        refine ⟨h.core, h.kept, h.ti, h.refs, ?_, fun l h1 h2 => by omega, fun l h1 h2 => by omega⟩
        intro p
        rw [h.busy p]
        constructor
        · rintro (⟨l, h1, h2, -⟩ | h)
          · omega
          · exact Or.inr h
        · rintro (⟨l, h1, h2, -⟩ | h)
          · omega
          · exact Or.inr h
      have hmem : ∀ c ∈ lay s.top L M ++ lay s.top L B, c ∈ A ++ i :: B ∧ c ≠ i := by
        intro c hc
        rcases List.mem_append.1 hc with hc | hc
        · have := (mem_lay.1 hc).1
          have hcA : c ∈ A := by rw [hA]; exact List.mem_append_right _ this
          exact ⟨List.mem_append_left _ hcA, fun he => hiA (he ▸ hcA)⟩
        · have := (mem_lay.1 hc).1
          exact ⟨List.mem_append_right _ (List.mem_cons_of_mem _ this), fun he => hiB (he ▸ this)⟩
      rw [slNext_other hvc hnx' (h.core.valid_head (fun b hb => (hmem b hb).1)) (fun he => (hmem i (headOr_node he)).2 rfl)]
      simp only
      by_cases hg : s.cmpQ (some (s.key i)) (headOr (lay s.top L M ++ lay s.top L B)) = .gt
      · rw [if_pos (Or.inl hg)]
        rcases headOr_filter (s := s) (L := L) (B := M) with ⟨hh, hM⟩ | ⟨M1, c, M2, hM, hh, hc, hM1⟩
        · exfalso
          have hMl : lay s.top L M = [] := by
            unfold lay
            rw [List.filter_eq_nil_iff]
            intro a ha
            simpa using hM a ha
          rw [hMl, List.nil_append] at hg
          cases hl : lay s.top L B with
          | nil => rw [hl] at hg; cases hg
          | cons b C =>
            rw [hl] at hg
            exact hge b (mem_lay.1 (by rw [hl]; simp)).1 hg
        · have hhc : headOr (lay s.top L M ++ lay s.top L B) = .node c := by
            rw [hM, lay_append]
            have h1 : lay s.top L M1 = [] := by
              unfold lay
              rw [List.filter_eq_nil_iff]
              intro a ha
              simpa using hM1 a ha
            rw [h1, List.nil_append]
            have : lay s.top L (c :: M2) = c :: lay s.top L M2 := List.filter_cons_of_pos (by simpa using hc)
            rw [this]; rfl
          rw [hhc]
          exact hfwd M1 c M2 hM hc
      · rw [if_neg (by rintro (h1 | h1); exacts [hg h1, hLt h1.1])]
        rw [release_grab, if_neg hLt]
        exact hdown

/-- Removal. -/
theorem erase_ok {mx : Nat} {s : Skip K} {ns : List Nat} (h : Ok mx s ns) {i : Nat} (hi : i ∈ ns) :
    ∃ A B s', ns = A ++ i :: B ∧ s.erase mx i = some (0, s') ∧ Ok mx s' (A ++ B) ∧ s'.refs = s.refs ∧ s'.key = s.key ∧ s'.removed i = true := by
  obtain ⟨A, B, hn⟩ := List.append_of_mem hi
  subst hn
  have hnd := List.nodup_append.1 h.nodup
  have hiB : i ∉ B := (List.nodup_cons.1 hnd.2.1).1
  have hiA : i ∉ A := fun hi => hnd.2.2 i hi i (List.mem_cons_self ..) rfl
  unfold erase
  rw [if_neg (by rw [h.kept i hi]; simp), if_neg (by rw [h.busy]; simp)]
  simp only
  have hlk : s.linked i = true := (h.linked i).2 hi
  rw [if_neg (by show ¬ s.linked i = false; rw [hlk]; simp)]
  have hinv : ErInv mx i (s.top i) A B s.refs (s.topLayer + 1) (lastOr []) (fun _ => .head) (fun _ => .tail)
      (({ s.setBusy (.node i) true with removed := fun j => if j = i then true else s.removed j } : Skip K).grab .head) := by
    refine ⟨h.toCore.flags rfl rfl rfl rfl rfl rfl rfl, ?_, rfl, rfl, ?_, ?_, ?_⟩
    · intro j hj
      show (if j = i then true else s.removed j) = false
      rw [if_neg]
      · refine h.kept j ?_
        simp only [List.mem_append, List.mem_cons] at hj ⊢
        rcases hj with hj | hj
        · exact Or.inl hj
        · exact Or.inr (Or.inr hj)
      · intro he
        rw [he] at hj
        rcases List.mem_append.1 hj with hj | hj
        · exact hiA hj
        · exact hiB hj
    · intro p
      show (if p = .node i then true else s.busy p) = true ↔ _
      by_cases hp : p = .node i
      · rw [if_pos hp]
        exact ⟨fun _ => Or.inr hp, fun _ => rfl⟩
      · rw [if_neg hp, h.busy]
        constructor
        · intro h; cases h
        · rintro (⟨l, h1, h2, -⟩ | hf)
          · have := h.tops i hi; omega
          · exact absurd hf hp
    · intro l h1 h2
      have := h.tops i hi; omega
    · intro l h1 h2
      have := h.tops i hi; omega
  obtain ⟨s', h1, h2, h3, h4, h5⟩ := eraseLoop_ok (s.entries + s.topLayer + 1) s.topLayer [] A (fun _ => .head) (fun _ => .tail) _ hinv h.topLt rfl
    (At.nil _ _) (by rw [h.entries]; simp)
  refine ⟨A, B, s', rfl, ?_, h2, h3, h4, ?_⟩
  · have h1' : eraseLoop mx i (s.top i) (s.entries + s.topLayer + 1) s.topLayer .head (fun _ => .head) (fun _ => .tail)
      (({ s.setBusy (.node i) true with removed := fun j => if j = i then true else s.removed j } : Skip K).grab .head) = some s' := h1
    show Option.map _ (eraseLoop mx i (s.top i) (s.entries + s.topLayer + 1) s.topLayer .head (fun _ => .head) (fun _ => .tail)
      (({ s.setBusy (.node i) true with removed := fun j => if j = i then true else s.removed j } : Skip K).grab .head)) = _
    rw [h1']; rfl
  · rw [h5]
    show (if i = i then true else s.removed i) = true
    rw [if_pos rfl]

/-- Removal of a node that is not in the list changes nothing. -/
theorem erase_absent {mx : Nat} {s : Skip K} {ns : List Nat} (h : Ok mx s ns) {i : Nat} (hi : i ∉ ns) :
    ∃ e, e ≠ 0 ∧ s.erase mx i = some (e, s) := by
  have hl : s.linked i = false := by
    cases hh : s.linked i with
    | false => rfl
    | true => exact absurd ((h.linked i).1 hh) hi
  unfold erase
  by_cases hr : s.removed i = true
  · rw [if_pos hr]
    exact ⟨-1, by decide, rfl⟩
  · rw [if_neg hr, if_neg (by rw [h.busy]; simp)]
    simp only
    rw [if_pos (by show s.linked i = false; exact hl)]
    refine ⟨-3, by decide, ?_⟩
    have hr' : s.removed i = false := by simpa using hr
    have hb := h.busy (.node i)
    obtain ⟨a, b, c, d, rm, bz, refs, g, h', j⟩ := s
    simp only [setBusy, Option.some.injEq, Prod.mk.injEq, Skip.mk.injEq, true_and, and_true]
    simp only at hr' hb
    constructor
    · funext x
      by_cases hx : x = i
      · simp [hx, hr']
      · simp [hx]
    · funext x
      by_cases hx : x = .node i
      · simp [hx, hb]
      · simp [hx]

end Skip
end Jungle
