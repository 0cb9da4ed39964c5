/- Readers and one writer of the skiplist: the reader. -/
import Verif.Index.SkipConcLemmas

set_option linter.unusedSectionVars false

namespace Jungle
namespace Skip
variable {K : Type} [LinearOrder K]

/-- Two nodes are not each before the other. -/
theorem pair_asymm {l : List Nat} (hn : l.Nodup) {a b : Nat} (h1 : [a, b].Sublist l) (h2 : [b, a].Sublist l) : False := by
  induction l with
  | nil => cases h1
  | cons x l ih =>
    have hx := List.nodup_cons.1 hn
    cases h1 with
    | cons _ h1 =>
      cases h2 with
      | cons _ h2 => exact ih hx.2 h1 h2
      | cons_cons _ h2 =>
        exact hx.1 (h1.subset (by simp))
    | cons_cons _ h1 =>
      cases h2 with
      | cons _ h2 => exact hx.1 (h2.subset (by simp))
      | cons_cons _ h2 => exact hx.1 (h2.subset (by simp))

theorem pair_trans {l : List Nat} (hn : l.Nodup) {a b c : Nat} (h1 : [a, b].Sublist l) (h2 : [b, c].Sublist l) : [a, c].Sublist l := by
  induction l with
  | nil => cases h1
  | cons x l ih =>
    have hx := List.nodup_cons.1 hn
    cases h1 with
    | cons _ h1 =>
      cases h2 with
      | cons _ h2 => exact (ih hx.2 h1 h2).cons _
      | cons_cons _ h2 => exact absurd (h1.subset (by simp)) hx.1
    | cons_cons _ h1 =>
      cases h2 with
      | cons _ h2 => exact List.Sublist.cons_cons _ (List.singleton_sublist.2 (h2.subset (by simp)))
      | cons_cons _ h2 => exact absurd (h1.subset (by simp)) hx.1

/-- How many nodes are after a node. -/
def after (l : List Nat) (a : Nat) : Nat := l.length - l.idxOf a

theorem pair_after {l : List Nat} (hn : l.Nodup) {a b : Nat} (h : [a, b].Sublist l) : after l b < after l a := by
  induction l with
  | nil => cases h
  | cons x l ih =>
    have hx := List.nodup_cons.1 hn
    unfold after
    rw [List.idxOf_cons, List.idxOf_cons, List.length_cons]
    cases h with
    | cons _ h =>
      have := ih hx.2 h
      have ha : a ∈ l := h.subset (by simp)
      have hb : b ∈ l := h.subset (by simp)
      have h1 : (x == a) = false := by simp; intro he; exact hx.1 (he ▸ ha)
      have h2 : (x == b) = false := by simp; intro he; exact hx.1 (he ▸ hb)
      rw [h1, h2]
      unfold after at this
      simp only [cond_false]
      omega
    | cons_cons _ h =>
      have hb : b ∈ l := h.subset (by simp)
      have h2 : (a == b) = false := by simp; intro he; exact hx.1 (he ▸ hb)
      rw [h2]
      simp only [BEq.rfl, cond_true, cond_false]
      omega

/-- The node is `cur` or before it. -/
def UpTo (full : List Nat) (a : Nat) (cur : SPtr) : Prop := ∃ c, cur = .node c ∧ (a = c ∨ [a, c].Sublist full)
/-- The node is `p` or after it. -/
def From (full : List Nat) (p : SPtr) (a : Nat) : Prop := ∃ j, p = .node j ∧ (j = a ∨ [j, a].Sublist full)

def CurOk (s : Skip K) (q : Option K) (layer : Nat) (cur : SPtr) : Prop :=
  cur = .head ∨ ∃ c, cur = .node c ∧ s.linked c = true ∧ Bef s q c ∧ layer ≤ s.top c

def PtOk (s : Skip K) (full : List Nat) (layer : Nat) (cur p : SPtr) : Prop :=
  p = .tail ∨ ∃ j, p = .node j ∧ j ∈ full ∧ layer ≤ s.top j ∧ ∀ c, cur = .node c → [c, j].Sublist full

/-- A content the index had since the call began, in which nothing of the layer is between `cur` and `p`. -/
def Gap (s : Skip K) (full : List Nat) (layer : Nat) (cur p : SPtr) (m : List (Nat × K)) : Prop :=
  (∀ c, cur = .node c → (c, s.key c) ∈ m) ∧
  ∀ e ∈ m, layer ≤ s.top e.1 → UpTo full e.1 cur ∨ From full p e.1

/-- What the reader gives. -/
def Answer (s : Skip K) (a : SAsk K) (seen : List (List (Nat × K))) (r : Option SPtr) : Prop :=
  match a.start with
  | some i => (r = none ∨ ∃ j, r = some (.node j) ∧ s.linked j = true ∧ s.key i ≤ s.key j) ∧
      ∃ m ∈ seen, ∀ e ∈ m, s.key i < e.2 → ∃ j, r = some (.node j) ∧ s.key j ≤ e.2
  | none =>
    (-1 ≤ a.mode ∧ a.mode ≤ 1 ∧ ((∃ j, s.linked j = true ∧ a.q = some (s.key j) ∧ r = some (.node j)) ∨ (a.q = none ∧ r = some .tail))) ∨
    ∃ cur p, (cur = .head ∨ ∃ c, cur = .node c ∧ s.linked c = true ∧ Bef s a.q c) ∧
      (p = .tail ∨ ∃ j, p = .node j ∧ s.linked j = true ∧ ¬ Bef s a.q j ∧ (-1 ≤ a.mode ∧ a.mode ≤ 1 → a.q ≠ some (s.key j))) ∧
      (∃ m ∈ seen, (∀ c, cur = .node c → (c, s.key c) ∈ m) ∧
        ∀ e ∈ m, (∃ c, cur = .node c ∧ e.2 ≤ s.key c) ∨ ∃ j, p = .node j ∧ s.key j ≤ e.2) ∧
      r = if a.mode < 0 ∧ cur ≠ .head then some cur else if 0 < a.mode ∧ p ≠ .tail then some p else none

/-- The reader's invariant. -/
def RInv (mx : Nat) (s : Skip K) (full : List Nat) (a : SAsk K) (seen : List (List (Nat × K))) : SRd → Prop
  | .idle => True
  | .load layer cur => layer < mx ∧ CurOk s a.q layer cur ∧ (∀ i, a.start = some i → cur = .node i ∧ layer = 0)
  | .check layer cur p => layer < mx ∧ CurOk s a.q layer cur ∧ (∀ i, a.start = some i → cur = .node i ∧ layer = 0) ∧
      PtOk s full layer cur p ∧ ∃ m ∈ seen, Gap s full layer cur p m
  | .wait layer cur p => layer < mx ∧ CurOk s a.q layer cur ∧ (∀ i, a.start = some i → cur = .node i ∧ layer = 0) ∧
      PtOk s full layer cur p ∧ ∃ m ∈ seen, Gap s full layer cur p m ∧ p ≠ .tail ∧ ∀ e ∈ m, p ≠ .node e.1
  | .done r => Answer s a seen r ∧ ∀ i, a.start = some i → s.linked i = true

/-- What is known about the contents. -/
structure SeenOk (s : Skip K) (full : List Nat) (m : List (Nat × K)) (seen : List (List (Nat × K))) : Prop where
  old : ∀ m' ∈ seen, ∀ e ∈ m', s.linked e.1 = true ∧ s.key e.1 = e.2
  now : m ∈ seen
  all : ∀ j, s.linked j = true → (j, s.key j) ∈ m
  mem : ∀ j, s.linked j = true → j ∈ full

/-! ### the reader while the writer goes on -/

theorem UpTo.ext {full full' : List Nat} {a : Nat} {cur : SPtr} (h : UpTo full a cur) (hs : full.Sublist full') : UpTo full' a cur := by
  obtain ⟨c, h1, h2⟩ := h
  exact ⟨c, h1, h2.imp id (fun h => h.trans hs)⟩

theorem From.ext {full full' : List Nat} {a : Nat} {p : SPtr} (h : From full p a) (hs : full.Sublist full') : From full' p a := by
  obtain ⟨c, h1, h2⟩ := h
  exact ⟨c, h1, h2.imp id (fun h => h.trans hs)⟩

theorem CurOk.ext {s s' : Skip K} {full full' : List Nat} {q : Option K} {layer : Nat} {cur : SPtr} (h : CurOk s q layer cur)
    (he : Ext s full s' full') (hm : ∀ j, s.linked j = true → j ∈ full) : CurOk s' q layer cur := by
  rcases h with h | ⟨c, h1, h2, h3, h4⟩
  · exact Or.inl h
  · refine Or.inr ⟨c, h1, he.linked c h2, ?_, by rw [he.top c (hm c h2)]; exact h4⟩
    intro k hk
    rw [he.key c (hm c h2)]; exact h3 k hk

theorem PtOk.ext {s s' : Skip K} {full full' : List Nat} {layer : Nat} {cur p : SPtr} (h : PtOk s full layer cur p)
    (he : Ext s full s' full') : PtOk s' full' layer cur p := by
  rcases h with h | ⟨j, h1, h2, h3, h4⟩
  · exact Or.inl h
  · refine Or.inr ⟨j, h1, he.sub.subset h2, by rw [he.top j h2]; exact h3, ?_⟩
    intro c hcc
    exact (h4 c hcc).trans he.sub

theorem Gap.ext {s s' : Skip K} {full full' : List Nat} {layer : Nat} {cur p : SPtr} {m : List (Nat × K)} (h : Gap s full layer cur p m)
    (he : Ext s full s' full') (hm : ∀ e ∈ m, e.1 ∈ full) : Gap s' full' layer cur p m := by
  refine ⟨?_, ?_⟩
  · intro c hc
    have := h.1 c hc
    rw [he.key c (hm _ this)]; exact this
  · intro e hme hl
    rw [he.top _ (hm e hme)] at hl
    exact (h.2 e hme hl).imp (fun h => h.ext he.sub) (fun h => h.ext he.sub)

theorem Answer.ext {s s' : Skip K} {full full' : List Nat} {a : SAsk K} {seen seen' : List (List (Nat × K))} {r : Option SPtr}
    (h : Answer s a seen r) (he : Ext s full s' full') (hm : ∀ j, s.linked j = true → j ∈ full)
    (hst : ∀ i, a.start = some i → s.linked i = true) (hsub : ∀ m ∈ seen, m ∈ seen') : Answer s' a seen' r := by
  have hk : ∀ j, s.linked j = true → s'.key j = s.key j := fun j hj => he.key j (hm j hj)
  unfold Answer at h ⊢
  cases hs : a.start with
  | some i =>
    rw [hs] at h
    simp only at h ⊢
    obtain ⟨h1, m, hmm, h2⟩ := h
    refine ⟨?_, m, hsub m hmm, ?_⟩
    · rcases h1 with h1 | ⟨j, h3, h4, h5⟩
      · exact Or.inl h1
      · exact Or.inr ⟨j, h3, he.linked j h4, by rw [hk j h4, hk i (hst i hs)]; exact h5⟩
    · intro e hme hlt
      rw [hk i (hst i hs)] at hlt
      obtain ⟨j, h3, h4⟩ := h2 e hme hlt
      refine ⟨j, h3, ?_⟩
      rcases h1 with h1 | ⟨j', h5, h6, -⟩
      · rw [h1] at h3; cases h3
      · rw [h3] at h5; cases h5
        rw [hk j h6]; exact h4
  | none =>
    rw [hs] at h
    simp only at h ⊢
    rcases h with ⟨h1, h2, ⟨j, h3, h4, h5⟩ | h3⟩ | ⟨cur, p, h1, h2, ⟨m, hmm, h3, h4⟩, h5⟩
    · exact Or.inl ⟨h1, h2, Or.inl ⟨j, he.linked j h3, by rw [hk j h3]; exact h4, h5⟩⟩
    · exact Or.inl ⟨h1, h2, Or.inr h3⟩
    · have hkc : ∀ c, cur = .node c → s'.key c = s.key c := by
        intro c hc
        rcases h1 with h1 | ⟨d, h6, h7, -⟩
        · rw [h1] at hc; cases hc
        · rw [h6] at hc; cases hc; exact hk c h7
      have hkp : ∀ c, p = .node c → s'.key c = s.key c := by
        intro c hc
        rcases h2 with h1 | ⟨d, h6, h7, -⟩
        · rw [h1] at hc; cases hc
        · rw [h6] at hc; cases hc; exact hk c h7
      refine Or.inr ⟨cur, p, ?_, ?_, ⟨m, hsub m hmm, ?_, ?_⟩, h5⟩
      · rcases h1 with h1 | ⟨d, h6, h7, h8⟩
        · exact Or.inl h1
        · exact Or.inr ⟨d, h6, he.linked d h7, fun k hk' => by rw [hk d h7]; exact h8 k hk'⟩
      · rcases h2 with h1 | ⟨d, h6, h7, h8, h9⟩
        · exact Or.inl h1
        · refine Or.inr ⟨d, h6, he.linked d h7, fun hb => h8 (fun k hk' => by rw [← hk d h7]; exact hb k hk'), ?_⟩
          rw [hk d h7]; exact h9
      · intro c hc
        rw [hkc c hc]; exact h3 c hc
      · intro e hme
        rcases h4 e hme with ⟨c, h6, h7⟩ | ⟨j, h6, h7⟩
        · exact Or.inl ⟨c, h6, by rw [hkc c h6]; exact h7⟩
        · exact Or.inr ⟨j, h6, by rw [hkp j h6]; exact h7⟩

theorem RInv.ext {mx : Nat} {s s' : Skip K} {full full' : List Nat} {a : SAsk K} {seen seen' : List (List (Nat × K))} {m : List (Nat × K)} {rd : SRd}
    (h : RInv mx s full a seen rd) (he : Ext s full s' full') (hs : SeenOk s full m seen) (hsub : ∀ m ∈ seen, m ∈ seen') :
    RInv mx s' full' a seen' rd := by
  have hm := hs.mem
  have hem : ∀ m' ∈ seen, ∀ e ∈ m', e.1 ∈ full := fun m' h1 e h2 => hm _ (hs.old m' h1 e h2).1
  cases rd with
  | idle => trivial
  | load layer cur =>
    obtain ⟨h1, h2, h3⟩ := h
    exact ⟨h1, h2.ext he hm, h3⟩
  | check layer cur p =>
    obtain ⟨h1, h2, h3, h4, m', h5, h6⟩ := h
    exact ⟨h1, h2.ext he hm, h3, h4.ext he, m', hsub m' h5, h6.ext he (hem m' h5)⟩
  | wait layer cur p =>
    obtain ⟨h1, h2, h3, h4, m', h5, h6, hp, h7⟩ := h
    exact ⟨h1, h2.ext he hm, h3, h4.ext he, m', hsub m' h5, h6.ext he (hem m' h5), hp, h7⟩
  | done r =>
    obtain ⟨h1, h2⟩ := h
    exact ⟨h1.ext he hm h2 hsub, fun i hi => he.linked i (h2 i hi)⟩

/-! ### steps of the reader -/

/-- The load of a pointer. -/
theorem load_next {mx : Nat} {s : Skip K} {full : List Nat} {on : Nat → Nat → Bool} (hl : Lay mx s full on) {layer : Nat} (hL : layer < mx)
    {cur : SPtr} (hc : cur = .head ∨ ∃ c, cur = .node c ∧ s.linked c = true ∧ layer ≤ s.top c) :
    ∃ Y, s.next cur layer = headOr Y ∧ (∀ y ∈ Y, y ∈ full ∧ layer ≤ s.top y) ∧
      (∀ c, cur = .node c → ∀ y ∈ Y, [c, y].Sublist full) ∧ Y.Sublist full ∧
      ∀ j, s.linked j = true → layer ≤ s.top j → UpTo full j cur ∨ j ∈ Y := by
  have hF : (full.filter (on layer)).Sublist full := List.filter_sublist
  have hon : ∀ j, s.linked j = true → layer ≤ s.top j → j ∈ full.filter (on layer) :=
    fun j h1 h2 => List.mem_filter.2 ⟨hl.mem j h1, hl.on_of j h1 layer h2⟩
  rcases hc with rfl | ⟨c, rfl, h1, h2⟩
  · refine ⟨full.filter (on layer), hl.chain layer hL [] _ rfl, ?_, ?_, hF, fun j h1 h2 => Or.inr (hon j h1 h2)⟩
    · intro y hy
      have := List.mem_filter.1 hy
      exact ⟨this.1, hl.of_on _ _ this.2⟩
    · intro c hc; cases hc
  · obtain ⟨X, Y, hXY⟩ := List.append_of_mem (hon c h1 h2)
    have hn := hl.chain layer hL (X ++ [c]) Y (by rw [hXY]; simp)
    rw [lastOr_concat] at hn
    have hYF : (c :: Y).Sublist full := by
      refine List.Sublist.trans ?_ hF
      rw [hXY]; exact List.sublist_append_right X _
    refine ⟨Y, hn, ?_, ?_, (List.sublist_cons_self c Y).trans hYF, ?_⟩
    · intro y hy
      have : y ∈ full.filter (on layer) := by rw [hXY]; simp [hy]
      have := List.mem_filter.1 this
      exact ⟨this.1, hl.of_on _ _ this.2⟩
    · intro d hd y hy
      cases hd
      exact (List.Sublist.cons_cons c (List.singleton_sublist.2 hy)).trans hYF
    · intro j h3 h4
      have := hon j h3 h4
      rw [hXY] at this
      rcases List.mem_append.1 this with hx | hx
      · left
        refine ⟨c, rfl, Or.inr ?_⟩
        refine List.Sublist.trans ?_ hF
        rw [hXY]
        exact List.Sublist.append (List.singleton_sublist.2 hx) (List.Sublist.cons_cons c (List.nil_sublist _))
      · rcases List.mem_cons.1 hx with rfl | hx
        · exact Or.inl ⟨j, rfl, Or.inl rfl⟩
        · exact Or.inr hx

theorem from_head {full Y : List Nat} (hY : Y.Sublist full) {j : Nat} (hj : j ∈ Y) : From full (headOr Y) j := by
  cases Y with
  | nil => cases hj
  | cons y Y =>
    refine ⟨y, rfl, ?_⟩
    rcases List.mem_cons.1 hj with rfl | hj
    · exact Or.inl rfl
    · exact Or.inr ((List.Sublist.cons_cons y (List.singleton_sublist.2 hj)).trans hY)

theorem pair_le {s : Skip K} {full : List Nat} (hs : full.Pairwise (fun a b => s.key a ≤ s.key b)) {a b : Nat} (h : [a, b].Sublist full) :
    s.key a ≤ s.key b := by
  have := hs.sublist h
  exact (List.pairwise_cons.1 this).1 b (by simp)

theorem first_inv {mx : Nat} {s : Skip K} {full : List Nat} {a : SAsk K} {seen : List (List (Nat × K))} (ht : s.topLayer < mx)
    (hq : ∀ i, a.start = some i → a.q = none ∧ s.linked i = true) : RInv mx s full a seen (a.first s) := by
  unfold SAsk.first
  cases hs : a.start with
  | none =>
    exact ⟨ht, Or.inl rfl, fun i hi => by rw [hs] at hi; cases hi⟩
  | some i =>
    obtain ⟨h1, h2⟩ := hq i hs
    refine ⟨by omega, Or.inr ⟨i, rfl, h2, ?_, Nat.zero_le _⟩, fun j hj => by rw [hs] at hj; cases hj; exact ⟨rfl, rfl⟩⟩
    intro k hk
    rw [h1] at hk; cases hk

theorem RInv.step {mx : Nat} {s : Skip K} {w : SWr} {full : List Nat} {a : SAsk K} {seen : List (List (Nat × K))} {m : List (Nat × K)}
    (hw : WInv mx s w full) (hs : SeenOk s full m seen) {rd rd' : SRd} (h : RInv mx s full a seen rd) (hst : a.step s w rd = some rd') :
    RInv mx s full a seen rd' := by
  obtain ⟨on, hl⟩ := hw.lay
  cases rd with
  | idle => cases hst
  | load layer cur =>
    obtain ⟨h1, h2, h3⟩ := h
    change (if w.locked cur = true then none
      else if s.valid cur = false then (if a.start.isSome = true then none else some (a.first s))
      else some (SRd.check layer cur (s.next cur layer))) = some rd' at hst
    split at hst
    · cases hst
    · have hv : s.valid cur = true := by
        rcases h2 with rfl | ⟨c, rfl, h4, -⟩
        · rfl
        · exact h4
      rw [if_neg (by rw [hv]; simp)] at hst
      cases hst
      obtain ⟨Y, hn, hY, hc, hsub, hall⟩ := load_next hl h1 (h2.imp id (fun ⟨c, h4, h5, _, h7⟩ => ⟨c, h4, h5, h7⟩))
      rw [hn]
      refine ⟨h1, h2, h3, ?_, m, hs.now, ?_, ?_⟩
      · cases Y with
        | nil => exact Or.inl rfl
        | cons y Y =>
          obtain ⟨h4, h5⟩ := hY y (by simp)
          exact Or.inr ⟨y, rfl, h4, h5, fun c hcc => hc c hcc y (by simp)⟩
      · intro c hcc
        rcases h2 with rfl | ⟨d, rfl, h4, -⟩
        · cases hcc
        · cases hcc; exact hs.all c h4
      · intro e he hle
        have := (hs.old m hs.now e he).1
        exact (hall e.1 this hle).imp id (fun hj => from_head hsub hj)
  | check layer cur p =>
    obtain ⟨h1, h2, h3, h4, m', h5, h6⟩ := h
    change (if s.valid p = true then some (a.decide s layer cur p) else some (SRd.wait layer cur p)) = some rd' at hst
    split at hst
    · next hv =>
      cases hst
      unfold SAsk.decide
      by_cases hss : a.start.isSome
      · -- one step of a traversal
        rw [if_pos hss]
        obtain ⟨i, hi⟩ := Option.isSome_iff_exists.1 hss
        obtain ⟨hci, hl0⟩ := h3 i hi
        have hli : s.linked i = true := by
          rcases h2 with h7 | ⟨c, h7, h8, -⟩
          · rw [h7] at hci; cases hci
          · rw [h7] at hci; cases hci; exact h8
        refine ⟨?_, fun j hj => by rw [hi] at hj; cases hj; exact hli⟩
        unfold Answer
        rw [hi]
        simp only
        refine ⟨?_, m', h5, ?_⟩
        · rcases h4 with h7 | ⟨j, h7, h8, -, h9⟩
          · rw [h7]; exact Or.inl rfl
          · rw [h7]
            rw [h7] at hv
            exact Or.inr ⟨j, by rw [if_neg (by intro hh; cases hh)], hv, pair_le hl.sorted (h9 i hci)⟩
        · intro e he hlt
          obtain ⟨-, hek⟩ := hs.old m' h5 e he
          rcases h6.2 e he (by rw [hl0]; exact Nat.zero_le _) with ⟨c, h7, h8⟩ | ⟨j, h7, h8⟩
          · exfalso
            rw [hci] at h7
            cases h7
            rw [← hek] at hlt
            rcases h8 with h8 | h8
            · rw [h8] at hlt; exact lt_irrefl _ hlt
            · exact absurd hlt (not_lt.2 (pair_le hl.sorted h8))
          · refine ⟨j, by rw [h7, if_neg (by intro hh; cases hh)], ?_⟩
            rw [← hek]
            rcases h8 with h8 | h8
            · rw [h8]
            · exact pair_le hl.sorted h8
      · rw [if_neg hss]
        have hns : a.start = none := by
          cases hh : a.start with
          | none => rfl
          | some i => rw [hh] at hss; exact absurd rfl hss
        have h3' : ∀ (cur : SPtr) (L : Nat), ∀ i, a.start = some i → cur = .node i ∧ L = 0 := fun _ _ i hi => by rw [hns] at hi; cases hi
        have hst0 : ∀ i, a.start = some i → s.linked i = true := fun i hi => by rw [hns] at hi; cases hi
        by_cases hg : s.cmpQ a.q p = .gt
        · rw [if_pos hg]
          rcases h4 with h7 | ⟨j, h7, h8, h9, -⟩
          · exfalso
            rw [h7] at hg
            have : s.cmpQ a.q .tail = if a.q.isNone then .eq else .lt := rfl
            rw [this] at hg
            split at hg <;> cases hg
          · rw [h7] at hg hv ⊢
            exact ⟨h1, Or.inr ⟨j, rfl, hv, cmp_gt.1 hg, h9⟩, h3' _ _⟩
        · rw [if_neg hg]
          by_cases he : -1 ≤ a.mode ∧ a.mode ≤ 1 ∧ s.cmpQ a.q p = .eq
          · rw [if_pos he]
            refine ⟨?_, hst0⟩
            unfold Answer
            rw [hns]
            refine Or.inl ⟨he.1, he.2.1, ?_⟩
            rcases h4 with h7 | ⟨j, h7, h8, h9, -⟩
            · right
              have heq := he.2.2
              rw [h7] at heq ⊢
              refine ⟨?_, rfl⟩
              have : s.cmpQ a.q .tail = if a.q.isNone then .eq else .lt := rfl
              rw [this] at heq
              split at heq
              · next hh => exact Option.isNone_iff_eq_none.1 hh
              · cases heq
            · left
              have heq := he.2.2
              rw [h7] at heq hv ⊢
              exact ⟨j, hv, cmp_eq.1 heq, rfl⟩
          · rw [if_neg he]
            by_cases hl0 : layer ≠ 0
            · rw [if_pos hl0]
              refine ⟨by omega, ?_, h3' _ _⟩
              rcases h2 with h7 | ⟨c, h7, h8, h9, h10⟩
              · exact Or.inl h7
              · exact Or.inr ⟨c, h7, h8, h9, by omega⟩
            · rw [if_neg hl0]
              have hz : layer = 0 := by omega
              have hfin : ∀ r, r = (if a.mode < 0 ∧ cur ≠ .head then some cur else if 0 < a.mode ∧ p ≠ .tail then some p else none) →
                  RInv mx s full a seen (.done r) := by
                intro r hr
                refine ⟨?_, hst0⟩
                unfold Answer
                rw [hns]
                refine Or.inr ⟨cur, p, ?_, ?_, ⟨m', h5, h6.1, ?_⟩, hr⟩
                · rcases h2 with h7 | ⟨c, h7, h8, h9, -⟩
                  · exact Or.inl h7
                  · exact Or.inr ⟨c, h7, h8, h9⟩
                · rcases h4 with h7 | ⟨j, h7, h8, h9, -⟩
                  · exact Or.inl h7
                  · rw [h7] at hg he hv
                    exact Or.inr ⟨j, h7, hv, fun hb => hg (cmp_gt.2 hb), fun hm hq => he ⟨hm.1, hm.2, cmp_eq.2 hq⟩⟩
                · intro e hme
                  obtain ⟨-, hek⟩ := hs.old m' h5 e hme
                  rw [← hek]
                  rcases h6.2 e hme (by rw [hz]; exact Nat.zero_le _) with ⟨c, h7, h8⟩ | ⟨j, h7, h8⟩
                  · refine Or.inl ⟨c, h7, ?_⟩
                    rcases h8 with h8 | h8
                    · rw [h8]
                    · exact pair_le hl.sorted h8
                  · refine Or.inr ⟨j, h7, ?_⟩
                    rcases h8 with h8 | h8
                    · rw [h8]
                    · exact pair_le hl.sorted h8
              by_cases hm : a.mode < 0 ∧ cur ≠ .head
              · rw [if_pos hm]
                exact hfin _ (by rw [if_pos hm])
              · rw [if_neg hm]
                by_cases hm2 : 0 < a.mode ∧ p ≠ .tail
                · rw [if_pos hm2]
                  exact hfin _ (by rw [if_neg hm, if_pos hm2])
                · rw [if_neg hm2]
                  exact hfin _ (by rw [if_neg hm, if_neg hm2])
    · next hv =>
      cases hst
      refine ⟨h1, h2, h3, h4, m', h5, h6, (fun hp => hv (by rw [hp]; rfl)), ?_⟩
      intro e he hp
      rw [hp] at hv
      exact hv (hs.old m' h5 e he).1
  | wait layer cur p =>
    obtain ⟨h1, h2, h3, h4, m', h5, h6, hp, h7⟩ := h
    change (if w.locked p = true then none
      else if s.valid p = false then (if a.start.isSome = true then none else some (a.first s))
      else some (SRd.check layer cur (s.next p layer))) = some rd' at hst
    split at hst
    · cases hst
    · next hlk =>
      rcases h4 with h8 | ⟨j, h8, h9, h10, h11⟩
      · exact absurd h8 hp
      · subst h8
        have hv : s.linked j = true := hw.locked h9 (by simpa using hlk)
        rw [if_neg (by show ¬ s.linked j = false; rw [hv]; simp)] at hst
        cases hst
        obtain ⟨Y, hn, hY, hc, hsub, hall⟩ := load_next hl h1 (cur := .node j) (Or.inr ⟨j, rfl, hv, h10⟩)
        rw [hn]
        refine ⟨h1, h2, h3, ?_, m', h5, h6.1, ?_⟩
        · cases Y with
          | nil => exact Or.inl rfl
          | cons y Y =>
            obtain ⟨h12, h13⟩ := hY y (by simp)
            exact Or.inr ⟨y, rfl, h12, h13, fun c hcc => pair_trans hl.nodup (h11 c hcc) (hc j rfl y (by simp))⟩
        · intro e he hle
          have hne : e.1 ≠ j := fun hh => h7 e he (by rw [hh])
          rcases h6.2 e he hle with h12 | ⟨j', h12, h13⟩
          · exact Or.inl h12
          · cases h12
            right
            rcases h13 with h13 | h13
            · exact absurd h13.symm hne
            · rcases hall e.1 (hs.old m' h5 e he).1 hle with ⟨c, h14, h15⟩ | h14
              · cases h14
                rcases h15 with h15 | h15
                · exact absurd h15 hne
                · exact (pair_asymm hl.nodup h13 h15).elim
              · exact from_head hsub h14
  | done r => cases hst

/-! ### the reader ends -/

def rank (full : List Nat) : SPtr → Nat
  | .head => full.length + 1
  | .node a => after full a
  | .tail => 0

/-- What is left to do. -/
def left (full : List Nat) : SRd → Nat
  | .load L cur => (L * (full.length + 2) + rank full cur) * (2 * full.length + 6) + (2 * full.length + 5)
  | .check L cur p => (L * (full.length + 2) + rank full cur) * (2 * full.length + 6) + (2 * rank full p + 1)
  | .wait L cur p => (L * (full.length + 2) + rank full cur) * (2 * full.length + 6) + 2 * rank full p
  | _ => 0

theorem rank_le (full : List Nat) (p : SPtr) : rank full p ≤ full.length + 1 := by
  cases p with
  | head => exact Nat.le_refl _
  | node a => show full.length - full.idxOf a ≤ _; omega
  | tail => exact Nat.zero_le _

theorem left_lt {a b S x y : Nat} (h : a < b) (hx : x < S) : a * S + x < b * S + y := by
  have h1 : a * S + S ≤ b * S := by
    have := Nat.mul_le_mul_right S (Nat.succ_le_of_lt h)
    rw [Nat.succ_mul] at this
    exact this
  omega

theorem layer_lt {L N x y : Nat} (hL : L ≠ 0) (hx : x < N) : (L - 1) * N + x < L * N + y := by
  obtain ⟨l, rfl⟩ := Nat.exists_eq_succ_of_ne_zero hL
  show l * N + x < (l + 1) * N + y
  rw [Nat.succ_mul]
  omega

theorem RInv.less {mx : Nat} {s : Skip K} {w : SWr} {full : List Nat} {a : SAsk K} {seen : List (List (Nat × K))}
    (hw : WInv mx s w full) {rd rd' : SRd} (h : RInv mx s full a seen rd) (hst : a.step s w rd = some rd') :
    (∃ r, rd' = .done r) ∨ left full rd' < left full rd := by
  obtain ⟨on, hl⟩ := hw.lay
  cases rd with
  | idle => cases hst
  | load layer cur =>
    obtain ⟨h1, h2, h3⟩ := h
    change (if w.locked cur = true then none
      else if s.valid cur = false then (if a.start.isSome = true then none else some (a.first s))
      else some (SRd.check layer cur (s.next cur layer))) = some rd' at hst
    split at hst
    · cases hst
    · have hv : s.valid cur = true := by
        rcases h2 with rfl | ⟨c, rfl, h4, -⟩
        · rfl
        · exact h4
      rw [if_neg (by rw [hv]; simp)] at hst
      cases hst
      right
      have := rank_le full (s.next cur layer)
      show _ + _ < _ + _
      omega
  | check layer cur p =>
    obtain ⟨h1, h2, h3, h4, m', h5, h6⟩ := h
    change (if s.valid p = true then some (a.decide s layer cur p) else some (SRd.wait layer cur p)) = some rd' at hst
    split at hst
    · next hv =>
      cases hst
      unfold SAsk.decide
      split
      · exact Or.inl ⟨_, rfl⟩
      · split
        · next hg =>
          right
          rcases h4 with h7 | ⟨j, h7, h8, h9, h10⟩
          · exfalso
            rw [h7] at hg
            have : s.cmpQ a.q .tail = if a.q.isNone then .eq else .lt := rfl
            rw [this] at hg
            split at hg <;> cases hg
          · subst h7
            apply left_lt _ (by omega)
            have : rank full (.node j) < rank full cur := by
              rcases h2 with rfl | ⟨c, rfl, h11, -⟩
              · show full.length - full.idxOf j < full.length + 1
                omega
              · exact pair_after hl.nodup (h10 c rfl)
            omega
        · split
          · exact Or.inl ⟨_, rfl⟩
          · split
            · next hl0 =>
              right
              apply left_lt _ (by omega)
              exact layer_lt hl0 (by have := rank_le full cur; omega)
            · split
              · exact Or.inl ⟨_, rfl⟩
              · split
                · exact Or.inl ⟨_, rfl⟩
                · exact Or.inl ⟨_, rfl⟩
    · cases hst
      right
      show _ + _ < _ + _
      omega
  | wait layer cur p =>
    obtain ⟨h1, h2, h3, h4, m', h5, h6, hp, h7⟩ := h
    change (if w.locked p = true then none
      else if s.valid p = false then (if a.start.isSome = true then none else some (a.first s))
      else some (SRd.check layer cur (s.next p layer))) = some rd' at hst
    split at hst
    · cases hst
    · next hlk =>
      rcases h4 with h8 | ⟨j, h8, h9, h10, h11⟩
      · exact absurd h8 hp
      · subst h8
        have hv : s.linked j = true := hw.locked h9 (by simpa using hlk)
        rw [if_neg (by show ¬ s.linked j = false; rw [hv]; simp)] at hst
        cases hst
        right
        obtain ⟨Y, hn, hY, hc, hsub, hall⟩ := load_next hl h1 (cur := .node j) (Or.inr ⟨j, rfl, hv, h10⟩)
        have : rank full (s.next (.node j) layer) < rank full (.node j) := by
          rw [hn]
          cases Y with
          | nil =>
            show 0 < full.length - full.idxOf j
            have := List.idxOf_lt_length_iff.2 h9
            omega
          | cons y Y => exact pair_after hl.nodup (hc j rfl y (by simp))
        show _ + _ < _ + _
        omega
  | done r => cases hst

end Skip
end Jungle
