/-
  Which checkpoints a level-0 table keeps: the newest of those it has been given.
-/
import Mathlib.Order.Nat
import Verif.DB.SnapOpen

set_option linter.unusedSectionVars false

namespace Jungle
open Spec
variable {K : Type} [LinearOrder K] [OrderBot K]

/-- The last `keep` entries. -/
def newest (keep : Nat) (l : List Nat) : List Nat := l.drop (l.length - keep)

theorem newest_sorted {keep : Nat} {l : List Nat} (h : l.Pairwise (· < ·)) : (newest keep l).Pairwise (· < ·) :=
  h.sublist (List.drop_sublist _ _)

theorem sorted_ext {a b : List Nat} (ha : a.Pairwise (· < ·)) (hb : b.Pairwise (· < ·)) (h : ∀ n, n ∈ a ↔ n ∈ b) : a = b := by
  induction a generalizing b with
  | nil =>
    cases b with
    | nil => rfl
    | cons y b => exact absurd ((h y).2 (by simp)) (by simp)
  | cons x a ih =>
    cases b with
    | nil => exact absurd ((h x).1 (by simp)) (by simp)
    | cons y b =>
      have ha' := List.pairwise_cons.1 ha
      have hb' := List.pairwise_cons.1 hb
      have hxy : x = y := by
        rcases List.mem_cons.1 ((h x).1 (by simp)) with e | e
        · exact e
        · rcases List.mem_cons.1 ((h y).2 (by simp)) with e' | e'
          · exact e'.symm
          · have := hb'.1 x e; have := ha'.1 y e'; omega
      subst hxy
      congr 1
      apply ih ha'.2 hb'.2
      intro n
      constructor
      · intro hn
        rcases List.mem_cons.1 ((h n).1 (by simp [hn])) with e | e
        · have := ha'.1 n hn; omega
        · exact e
      · intro hn
        rcases List.mem_cons.1 ((h n).2 (by simp [hn])) with e | e
        · have := hb'.1 n hn; omega
        · exact e

theorem setInsert_above {n : Nat} {a b : List Nat} (h : ∀ x ∈ a, x < n) : setInsert n (a ++ b) = a ++ setInsert n b := by
  induction a with
  | nil => rfl
  | cons x a ih =>
    have hx := h x (by simp)
    rw [List.cons_append]
    conv => lhs; unfold setInsert
    rw [if_neg (by omega), if_neg (by omega), ih (fun y hy => h y (by simp [hy]))]
    rfl

theorem setInsert_below {n : Nat} {b : List Nat} (h : ∀ x ∈ b, n < x) : setInsert n b = n :: b := by
  cases b with
  | nil => rfl
  | cons x b => unfold setInsert; rw [if_pos (h x (by simp))]

theorem setInsert_mem {n : Nat} {b : List Nat} (hb : b.Pairwise (· < ·)) (h : n ∈ b) : setInsert n b = b := by
  apply sorted_ext (setInsert_sorted hb) hb
  intro m; rw [mem_setInsert]
  constructor
  · rintro (rfl | h')
    · exact h
    · exact h'
  · exact Or.inr

theorem setInsert_length (n : Nat) (l : List Nat) : l.length ≤ (setInsert n l).length := by
  induction l with
  | nil => simp
  | cons x l ih =>
    unfold setInsert
    split
    · simp
    · split
      · simp
      · simp only [List.length_cons]; omega

theorem newest_append {keep : Nat} {a b : List Nat} (h : keep ≤ b.length) : newest keep (a ++ b) = newest keep b := by
  unfold newest
  rw [List.drop_append, List.drop_eq_nil_of_le, List.nil_append]
  · congr 1; rw [List.length_append]; omega
  · rw [List.length_append]; omega

theorem newest_setInsert {keep : Nat} {l : List Nat} (hl : l.Pairwise (· < ·)) (n : Nat) :
    newest keep (setInsert n (newest keep l)) = newest keep (setInsert n l) := by
  by_cases hk : l.length ≤ keep
  · have : newest keep l = l := by unfold newest; rw [Nat.sub_eq_zero_of_le hk]; rfl
    rw [this]
  · have hsplit := List.take_append_drop (l.length - keep) l
    have hlen : (newest keep l).length = keep := by unfold newest; rw [List.length_drop]; omega
    have hab := hl
    rw [← hsplit] at hab
    obtain ⟨ha, hb, hcross⟩ := List.pairwise_append.1 hab
    have hn : newest keep l = l.drop (l.length - keep) := rfl
    by_cases hin : n ∈ l.take (l.length - keep) ∨ ∃ x ∈ l.take (l.length - keep), n ≤ x
    · have hle : ∃ x ∈ l.take (l.length - keep), n ≤ x := by
        rcases hin with h | h
        · exact ⟨n, h, Nat.le_refl _⟩
        · exact h
      obtain ⟨x, hx, hnx⟩ := hle
      have hbel : ∀ y ∈ newest keep l, n < y := fun y hy => Nat.lt_of_le_of_lt hnx (hcross x hx y hy)
      rw [setInsert_below hbel]
      have e1 : newest keep (n :: newest keep l) = newest keep l := by
        have := newest_append (keep := keep) (a := [n]) (b := newest keep l) (by omega)
        rw [List.singleton_append] at this
        rw [this]
        conv => lhs; unfold newest
        rw [show (List.drop (l.length - keep) l).length - keep = 0 by rw [← hn, hlen]; omega]; rfl
      rw [e1]
      -- the insertion into the whole list ends with the kept part
      have e2 : setInsert n l = setInsert n (l.take (l.length - keep)) ++ newest keep l := by
        apply sorted_ext (setInsert_sorted hl)
        · refine List.pairwise_append.2 ⟨setInsert_sorted ha, hb, ?_⟩
          intro a ha' b hb'
          rcases mem_setInsert.1 ha' with e | e
          · rw [e]; exact hbel b hb'
          · exact hcross a e b hb'
        · intro q
          rw [mem_setInsert, List.mem_append, mem_setInsert]
          conv => lhs; rw [← hsplit]
          rw [List.mem_append, hn]; tauto
      rw [e2, newest_append (by omega)]
      conv => rhs; unfold newest
      rw [show (List.drop (l.length - keep) l).length - keep = 0 by rw [← hn, hlen]; omega]; rfl
    · have habv : ∀ x ∈ l.take (l.length - keep), x < n := by
        intro x hx
        by_contra hc
        exact hin (Or.inr ⟨x, hx, by omega⟩)
      have e2 : setInsert n l = l.take (l.length - keep) ++ setInsert n (newest keep l) := by
        rw [hn, ← setInsert_above habv, hsplit]
      rw [e2, newest_append]
      exact Nat.le_trans (Nat.le_of_eq hlen.symm) (setInsert_length _ _)

theorem newest_filter {keep m : Nat} {l : List Nat} (hl : l.Pairwise (· < ·)) :
    (newest keep l).filter (fun n => decide (m ≤ n)) = newest keep (l.filter (fun n => decide (m ≤ n))) := by
  have hsp : ∃ a b, l = a ++ b ∧ (∀ x ∈ a, x < m) ∧ ∀ x ∈ b, m ≤ x := by
    clear keep
    induction l with
    | nil => exact ⟨[], [], rfl, by simp, by simp⟩
    | cons x l ih =>
      have h' := List.pairwise_cons.1 hl
      by_cases hx : m ≤ x
      · refine ⟨[], x :: l, rfl, by simp, ?_⟩
        intro y hy
        rcases List.mem_cons.1 hy with e | e
        · omega
        · have := h'.1 y e; omega
      · obtain ⟨a, b, e, h1, h2⟩ := ih h'.2
        refine ⟨x :: a, b, by rw [e]; rfl, ?_, h2⟩
        intro y hy
        rcases List.mem_cons.1 hy with e' | e'
        · omega
        · exact h1 y e'
  obtain ⟨a, b, rfl, h1, h2⟩ := hsp
  have ea : ∀ z : List Nat, (∀ x ∈ z, x < m) → z.filter (fun n => decide (m ≤ n)) = [] := by
    intro z hz; rw [List.filter_eq_nil_iff]; intro x hx; have := hz x hx; simpa using this
  have eb : ∀ z : List Nat, (∀ x ∈ z, m ≤ x) → z.filter (fun n => decide (m ≤ n)) = z := by
    intro z hz; rw [List.filter_eq_self]; intro x hx; simpa using hz x hx
  have ef : (a ++ b).filter (fun n => decide (m ≤ n)) = b := by rw [List.filter_append, ea a h1, eb b h2]; rfl
  rw [ef]
  unfold newest
  rw [List.drop_append, List.filter_append, ea _ (fun x hx => h1 x (List.mem_of_mem_drop hx)),
    eb _ (fun x hx => h2 x (List.mem_of_mem_drop hx)), List.nil_append]
  congr 1
  rw [List.length_append]; omega

theorem setInsert_filter {m n : Nat} {l : List Nat} (hl : l.Pairwise (· < ·)) :
    (setInsert n l).filter (fun n => decide (m ≤ n)) =
      if m ≤ n then setInsert n (l.filter (fun n => decide (m ≤ n))) else l.filter (fun n => decide (m ≤ n)) := by
  have hf : (l.filter (fun n => decide (m ≤ n))).Pairwise (· < ·) := hl.sublist List.filter_sublist
  split
  · next h =>
    apply sorted_ext ((setInsert_sorted hl).sublist List.filter_sublist) (setInsert_sorted hf)
    intro q
    simp only [List.mem_filter, mem_setInsert, decide_eq_true_eq]
    constructor
    · rintro ⟨h1 | h1, h2⟩
      · exact Or.inl h1
      · exact Or.inr ⟨h1, h2⟩
    · rintro (h1 | ⟨h1, h2⟩)
      · exact ⟨Or.inl h1, by omega⟩
      · exact ⟨Or.inr h1, h2⟩
  · next h =>
    apply sorted_ext ((setInsert_sorted hl).sublist List.filter_sublist) hf
    intro q
    simp only [List.mem_filter, mem_setInsert, decide_eq_true_eq]
    constructor
    · rintro ⟨h1 | h1, h2⟩
      · omega
      · exact ⟨h1, h2⟩
    · rintro ⟨h1, h2⟩; exact ⟨Or.inr h1, h2⟩

/-- The numbers of the entries. -/
def chks (m : List (Mark K)) : List Nat := m.map (·.chk)

theorem chks_insertMark (chk : Nat) (recs : SMap K (Rec K)) (m : List (Mark K)) :
    chks (insertMark chk recs m) = setInsert chk (chks m) := by
  induction m with
  | nil => rfl
  | cons e m ih =>
    unfold insertMark
    rw [show chks (e :: m) = e.chk :: chks m from rfl]
    unfold setInsert
    split
    · rfl
    · split
      · rfl
      · rw [← ih]; rfl

theorem chks_add (keep chk : Nat) (recs : SMap K (Rec K)) (m : List (Mark K)) :
    chks (addCheckpoint keep m chk recs) = newest keep (setInsert chk (chks m)) := by
  unfold addCheckpoint newest
  rw [← chks_insertMark chk recs m]
  unfold chks
  rw [List.map_drop, List.length_map]

/-- Checkpoints `s` are added one by one. -/
def addAll (keep : Nat) (s l : List Nat) : List Nat := s.foldl (fun l n => newest keep (setInsert n l)) l

theorem addAll_sorted {keep : Nat} {s l : List Nat} (h : l.Pairwise (· < ·)) : (addAll keep s l).Pairwise (· < ·) := by
  induction s generalizing l with
  | nil => exact h
  | cons n s ih => exact ih (newest_sorted (setInsert_sorted h))

/-- What is kept of the entries from `m` on: the newest of those given. -/
theorem addAll_filter {keep m : Nat} (s : List Nat) {l L : List Nat} (hl : l.Pairwise (· < ·)) (hL : L.Pairwise (· < ·))
    (h : l.filter (fun n => decide (m ≤ n)) = newest keep L) :
    (addAll keep s l).filter (fun n => decide (m ≤ n)) =
      newest keep ((s.filter (fun n => decide (m ≤ n))).foldl (fun s n => setInsert n s) L) := by
  induction s generalizing l L with
  | nil => exact h
  | cons n s ih =>
    have hs := setInsert_sorted (n := n) hl
    have e : (newest keep (setInsert n l)).filter (fun n => decide (m ≤ n)) =
        newest keep (if m ≤ n then setInsert n L else L) := by
      rw [newest_filter hs, setInsert_filter hl]
      split
      · rw [h]; exact newest_setInsert hL n
      · rw [h]
        unfold newest
        rw [List.length_drop, Nat.sub_eq_zero_of_le (by omega)]; rfl
    have hL' : (if m ≤ n then setInsert n L else L).Pairwise (· < ·) := by
      split
      · exact setInsert_sorted hL
      · exact hL
    have := ih (newest_sorted (keep := keep) hs) hL' e
    rw [show addAll keep (n :: s) l = addAll keep s (newest keep (setInsert n l)) from rfl, this]
    by_cases hn : m ≤ n
    · simp [hn]
    · simp [hn]

/-- The checkpoints a call of `setCheckpoint` marks. -/
theorem setCheckpoint_adds {keep : Nat} {recs : SMap K (Rec K)} {next : Option Nat} {prev : Nat} {all : Bool}
    (ha : all = true → next = none) (cps : List Nat) (hc : cps.Pairwise (· ≤ ·)) (m : List (Mark K)) :
    ∃ s, chks (setCheckpoint keep recs next prev all cps m) = addAll keep s (chks m) ∧ (∀ n ∈ s, n ∈ cps) ∧
      ∀ n ∈ cps, prev ≤ n → (all = true ∨ ∃ q, next = some q ∧ n < q) → n ∈ s := by
  induction cps generalizing m with
  | nil => exact ⟨[], rfl, by simp, by simp⟩
  | cons chk cps ih =>
    have hc' := List.pairwise_cons.1 hc
    unfold setCheckpoint
    simp only []
    have hm : ∃ s0, chks (if prev = chk ∨ (prev < chk ∧ next.any (fun n => decide (chk < n)) = true) ∨
        (prev ≤ chk ∧ all = true) then addCheckpoint keep m chk recs else m) = addAll keep s0 (chks m) ∧
        (∀ n ∈ s0, n = chk) ∧ (prev ≤ chk → (all = true ∨ ∃ q, next = some q ∧ chk < q) → chk ∈ s0) := by
      split
      · exact ⟨[chk], chks_add _ _ _ _, by simp, by simp⟩
      · next hn =>
        refine ⟨[], rfl, by simp, ?_⟩
        intro h1 h2
        exfalso
        apply hn
        rcases h2 with h2 | ⟨q, h2, h3⟩
        · exact Or.inr (Or.inr ⟨h1, h2⟩)
        · by_cases e : prev = chk
          · exact Or.inl e
          · refine Or.inr (Or.inl ⟨by omega, ?_⟩)
            rw [h2]; simpa using h3
    obtain ⟨s0, g1, g2, g3⟩ := hm
    generalize (if prev = chk ∨ (prev < chk ∧ next.any (fun n => decide (chk < n)) = true) ∨
        (prev ≤ chk ∧ all = true) then addCheckpoint keep m chk recs else m) = m' at g1
    split
    · next hb =>
      refine ⟨s0, g1, fun n hn => by rw [g2 n hn]; simp, ?_⟩
      intro n hn hp h
      rcases List.mem_cons.1 hn with e | e
      · subst e; exact g3 hp h
      · exfalso
        have hle := hc'.1 n e
        cases next with
        | none => simp at hb
        | some q =>
          have hq : q < chk := by simpa using hb.2
          rcases h with h | ⟨q', h, h'⟩
          · cases ha h
          · cases h; omega
    · obtain ⟨s1, k1, k2, k3⟩ := ih hc'.2 m'
      refine ⟨s0 ++ s1, ?_, ?_, ?_⟩
      · rw [k1, g1]; unfold addAll; rw [List.foldl_append]
      · intro n hn
        rcases List.mem_append.1 hn with e | e
        · rw [g2 n e]; simp
        · simp [k2 n e]
      · intro n hn hp h
        rcases List.mem_cons.1 hn with e | e
        · subst e; exact List.mem_append_left _ (g3 hp h)
        · exact List.mem_append_right _ (k3 n e hp h)

/-- Writing a batch to a table marks every checkpoint of the batch. -/
theorem markBatch_adds (c : TCfg K) (parts p keep : Nat) (cps : List Nat) (hc : cps.Pairwise (· ≤ ·)) (x : Tab K)
    (m : List (Mark K)) (R : List (Rec K)) :
    ∃ s, chks (markBatch c parts p keep cps x m R).marks = addAll keep s (chks m) ∧ ∀ n, n ∈ s ↔ n ∈ cps := by
  have key : ∀ (R : List (Rec K)) (st : MarkSt K), ∃ s,
      chks (R.foldl (markStep c parts p keep cps) st).marks = addAll keep s (chks st.marks) ∧ (∀ n ∈ s, n ∈ cps) ∧
      ∀ n ∈ cps, st.prev ≤ n → n < (R.foldl (markStep c parts p keep cps) st).prev → n ∈ s := by
    intro R
    induction R with
    | nil => intro st; exact ⟨[], rfl, by simp, fun n _ h1 h2 => absurd h2 (by simp only [List.foldl_nil]; omega)⟩
    | cons r R ih =>
      intro st
      rw [List.foldl_cons]
      by_cases hh : c.hash r.key % parts ≠ p
      · rw [show markStep c parts p keep cps st r = st from if_pos hh]; exact ih st
      · obtain ⟨s0, g1, g2, g3⟩ := setCheckpoint_adds (keep := keep) (recs := st.tab.recs) (next := some r.seq)
          (prev := st.prev) (all := false) (by simp) cps hc st.marks
        have e : markStep c parts p keep cps st r =
            if r.isCmd then { st with marks := setCheckpoint keep st.tab.recs (some r.seq) st.prev false cps st.marks }
            else ⟨st.tab.setSingle r false, r.seq, setCheckpoint keep st.tab.recs (some r.seq) st.prev false cps st.marks⟩ :=
          if_neg hh
        have em : (markStep c parts p keep cps st r).marks = setCheckpoint keep st.tab.recs (some r.seq) st.prev false cps st.marks := by
          rw [e]; split <;> rfl
        obtain ⟨s1, k1, k2, k3⟩ := ih (markStep c parts p keep cps st r)
        refine ⟨s0 ++ s1, ?_, ?_, ?_⟩
        · rw [k1, em, g1]; unfold addAll; rw [List.foldl_append]
        · intro n hn
          rcases List.mem_append.1 hn with h | h
          · exact g2 n h
          · exact k2 n h
        · intro n hn h1 h2
          by_cases hlt : n < r.seq
          · exact List.mem_append_left _ (g3 n hn h1 (Or.inr ⟨_, rfl, hlt⟩))
          · refine List.mem_append_right _ (k3 n hn ?_ h2)
            rw [e]; split
            · exact h1
            · simp only []; omega
  obtain ⟨s0, g1, g2, g3⟩ := key R ⟨x, 0, m⟩
  obtain ⟨s1, k1, k2, k3⟩ := setCheckpoint_adds (keep := keep)
    (recs := (R.foldl (markStep c parts p keep cps) ⟨x, 0, m⟩).tab.recs) (next := none)
    (prev := (R.foldl (markStep c parts p keep cps) ⟨x, 0, m⟩).prev) (all := true) (fun _ => rfl) cps hc
    (R.foldl (markStep c parts p keep cps) ⟨x, 0, m⟩).marks
  refine ⟨s0 ++ s1, ?_, ?_⟩
  · unfold markBatch
    simp only []
    rw [k1, g1]; unfold addAll; rw [List.foldl_append]
  · intro n
    constructor
    · intro hn
      rcases List.mem_append.1 hn with h | h
      · exact g2 n h
      · exact k2 n h
    · intro hn
      by_cases hlt : n < (R.foldl (markStep c parts p keep cps) ⟨x, 0, m⟩).prev
      · exact List.mem_append_left _ (g3 n hn (Nat.zero_le _) hlt)
      · exact List.mem_append_right _ (k3 n hn (by omega) (Or.inl rfl))

/-- Every partition's table keeps, of the checkpoints from `m` on, the newest of the list `L`. -/
def CMgr.Keeps (keep m : Nat) (L : List Nat) (t : CMgr K) : Prop :=
  ∀ x ∈ t.tab.l0, x.hashNum < t.tab.parts → x.status = .normal → (chks (t.marks x.number)).filter (fun n => decide (m ≤ n)) = newest keep L

theorem CMgr.Keeps.batch {c : TCfg K} {keep m : Nat} {L : List Nat} {t : CMgr K} {A : List (Rec K)} (hk : t.Keeps keep m L)
    (h : CMgr.MInv c t A) (hL : L.Pairwise (· < ·)) (R : List (Rec K)) (cps : List Nat) (hc : cps.Pairwise (· ≤ ·)) :
    (t.setBatch c keep R cps).Keeps keep m
      ((cps.filter (fun n => decide (m ≤ n))).foldl (fun s n => setInsert n s) L) := by
  have b := CMgr.setBatch_batched (c := c) keep R cps t h.inv
  intro x hx hxp hxn
  rw [b.l0] at hx
  rw [b.parts] at hxp
  obtain ⟨y, hy, rfl⟩ := List.mem_map.1 hx
  have hf := CMgr.after_fields c t.tab.parts R (List.range t.tab.parts).reverse y
  rw [hf.2.2] at hxn
  rw [hf.2.1] at hxp
  rw [hf.1, b.marks y hy, if_pos ⟨hxn, by
    rw [List.mem_reverse, List.mem_range]; exact hxp⟩]
  obtain ⟨s, e, hs⟩ := markBatch_adds c t.tab.parts y.hashNum keep cps hc y (t.marks y.number) R
  have hsort : (chks (t.marks y.number)).Pairwise (· < ·) := by
    unfold chks; rw [List.pairwise_map]; exact h.sorted y hy
  rw [e, addAll_filter s hsort hL (hk y hy hxp hxn)]
  congr 1
  apply sorted_ext (foldl_setInsert _ _ hL).1 (foldl_setInsert _ _ hL).1
  intro n
  rw [(foldl_setInsert _ _ hL).2, (foldl_setInsert _ _ hL).2]
  simp only [List.mem_filter, hs]

end Jungle
