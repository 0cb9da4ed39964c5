/-
  What the iterator of a handle shows, and where opening and seeking put it.
-/
import Verif.Iter.KeyItrLemmas

set_option linter.unusedSectionVars false

namespace Jungle.Iter
open Spec
variable {K : Type} [LinearOrder K] [OrderBot K]

/-- The records (deletions included) the iterator of a handle goes through. -/
def KeyQ (c : TCfg K) (t : TMgr K) (B : List (Rec K)) (lo hi : Option K) : Rec K → Prop :=
  Best keyPar (fun e => LogQ B lo hi e ∨ Best keyPar (InTables c t lo hi) e)

theorem key_opened {c : TCfg K} {l : LogMgr K} {t : TMgr K} {A B : List (Rec K)} (hl : LogInv l A B)
    (ht : TMgr.Inv c t) (hn : TMgr.Newest c t A B) (lo hi : Option K) {fr : Bool}
    (hfl : fr = true → ∀ f ∈ l.files, TwoKeys (LogQ f.pending lo hi))
    (hft : fr = true → ∀ x ∈ itrTables t lo hi, TwoKeys (TabQ x lo hi)) {X : (Rec K → Prop) → Prop}
    (hXl : ∀ f ∈ l.files, (∃ y, LogQ f.pending lo hi y) → X (LogQ f.pending lo hi))
    (hXt : ∀ x ∈ itrTables t lo hi, (∃ y, TabQ x lo hi y) → X (TabQ x lo hi)) :
    Opened keyPar (keyOps (K := K)) (keySpec X lo hi) fr (KeyQ c t B lo hi)
      (openIdx keyPar (sumOps logOps tabOps) [.inl (logItr l lo hi), .inr (tabItr t lo hi)]) := by
  have hH : ∀ k, ∀ r ∈ TMgr.stack c t k, r ∈ A ++ B := fun k r hr => (hn.mem k r hr).1
  have o1 := log_opened hl lo hi hfl hXl
  have o2 := tab_opened ht hl.inc hH lo hi hft hXt
  have hin : ∀ x, (LogQ B lo hi x ∨ Best keyPar (InTables c t lo hi) x) → x ∈ A ++ B := by
    rintro x (hx | hx)
    · exact List.mem_append_right _ (lastWrite_mem hx.1).1
    · exact hH _ x hx.1.1
  refine open_idx (P := Sum.elim (fun _ => LogQ B lo hi) (fun _ => Best keyPar (InTables c t lo hi)))
    (sum_laws (log_laws X lo hi) (tab_laws X lo hi)) keyPar_rank ?_ ?_ ?_
  · intro s hs
    simp only [List.mem_cons, List.not_mem_nil, or_false] at hs
    rcases hs with rfl | rfl
    · exact o1.sum_inl
    · exact o2.sum_inr
  · intro s hs s' hs' x y hx hy _ hrank
    have key : ∀ s ∈ [Sum.inl (logItr l lo hi), Sum.inr (tabItr t lo hi)], ∀ x,
        Sum.elim (fun _ => LogQ B lo hi) (fun _ => Best keyPar (InTables c t lo hi)) s x → x ∈ A ++ B := by
      intro s hs x hx
      simp only [List.mem_cons, List.not_mem_nil, or_false] at hs
      rcases hs with rfl | rfl
      · exact hin x (Or.inl hx)
      · exact hin x (Or.inr hx)
    exact seq_inj hl.inc (key s hs x hx) (key s' hs' y hy) hrank
  · intro e
    have : (fun x => ∃ s ∈ [Sum.inl (logItr l lo hi), Sum.inr (tabItr t lo hi)],
        Sum.elim (fun _ => LogQ B lo hi) (fun _ => Best keyPar (InTables c t lo hi)) s x) =
        fun x => LogQ B lo hi x ∨ Best keyPar (InTables c t lo hi) x := by
      funext x
      apply propext
      simp
    rw [this]
    exact Iff.rfl

theorem answerRec_ok {h : List (Rec K)} {e : Rec K} :
    answerRec h e.key = (.ok, some e) ↔ lastWrite h e.key = some e ∧ e.isIns = true := by
  unfold answerRec
  cases hw : lastWrite h e.key with
  | none => simp
  | some r =>
    simp only [Option.some.injEq]
    by_cases hi : r.isIns = true
    · rw [if_pos hi]
      constructor
      · intro h1
        have : r = e := by simpa using h1
        subst this; exact ⟨rfl, hi⟩
      · rintro ⟨rfl, _⟩; rfl
    · rw [if_neg hi]
      constructor
      · intro h1; simp at h1
      · rintro ⟨rfl, h2⟩; exact absurd h2 hi

theorem vis_ins {o : Option (Rec K)} {e : Rec K} (h : vis o = some e) : o = some e := by
  cases o with
  | none => cases h
  | some r =>
    unfold vis at h
    simp only at h
    split at h
    · cases h
    · exact h

theorem vis_of_ins {e : Rec K} (h : e.isIns = true) : vis (some e) = some e := by
  unfold vis
  have : e.isDel = false := by
    revert h; unfold Rec.isIns Rec.isDel; cases e.type <;> decide
  simp [this]

/-- The insertions the iterator goes through are the live records. -/
theorem keyQ_live {c : TCfg K} {l : LogMgr K} {t : TMgr K} {A B : List (Rec K)} (hl : LogInv l A B)
    (ht : TMgr.Inv c t) (hn : TMgr.Newest c t A B)
    (hold : ∀ k, lastWrite B k = none → vis (t.get c k) = valueOf A k) (lo hi : Option K) (e : Rec K) :
    (KeyQ c t B lo hi e ∧ e.isIns = true) ↔ Live (A ++ B) lo hi e := by
  have hH : ∀ k, ∀ r ∈ TMgr.stack c t k, r ∈ A ++ B := fun k r hr => (hn.mem k r hr).1
  have hinB : Increasing B := (List.pairwise_append.1 hl.inc).2.1
  unfold Live
  rw [answerRec_ok, lastWrite_append]
  constructor
  · rintro ⟨⟨hq, hmax⟩, hins⟩
    rcases hq with hq | hq
    · exact ⟨⟨by rw [hq.1]; rfl, hins⟩, hq.2⟩
    · refine ⟨⟨?_, hins⟩, hq.1.2⟩
      cases hw : lastWrite B e.key with
      | some r =>
        have hrm := lastWrite_mem hw
        have h1 := hmax r (Or.inl ⟨by rw [hrm.2.1]; exact hw, by rw [hrm.2.1]; exact hq.1.2⟩) hrm.2.1
        have h1' : r.seq ≤ e.seq := h1
        have hem := hn.mem _ e hq.1.1
        have heq : lastWrite (A ++ B) e.key = some r := by rw [lastWrite_append, hw]; rfl
        have h2 := lastWrite_max hl.inc heq hem.1 hem.2.1 hem.2.2
        rw [seq_inj hl.inc hem.1 (List.mem_append_right _ hrm.1) (by omega)]
        rfl
      | none =>
        have hst := hq.1.1
        cases hh : (TMgr.stack c t e.key).head? with
        | none =>
          rw [List.head?_eq_none_iff] at hh
          rw [hh] at hst; cases hst
        | some x =>
          have hxm := List.mem_of_head? hh
          have h1 := hn.top e.key hw x hh e hst
          have hxk := (hn.mem _ x hxm).2.1
          have h2 := hq.2 x ⟨by rw [hxk]; exact hxm, by rw [hxk]; exact hq.1.2⟩ hxk
          have h2' : x.seq ≤ e.seq := h2
          have hxe : x = e := seq_inj hl.inc (hH _ x hxm) (hH _ e hst) (by omega)
          have h3 := hold e.key hw
          rw [TMgr.get_eq_head ht, hh, hxe, vis_of_ins hins] at h3
          have := vis_ins h3.symm
          rw [this]; rfl
  · rintro ⟨⟨hw, hins⟩, hr⟩
    refine ⟨?_, hins⟩
    have hwh : lastWrite (A ++ B) e.key = some e := by rw [lastWrite_append]; exact hw
    have hem := lastWrite_mem hwh
    have hall : ∀ y, (LogQ B lo hi y ∨ Best keyPar (InTables c t lo hi) y) → y.key = e.key → y.seq ≤ e.seq := by
      rintro y (hy | hy) hk
      · have := lastWrite_mem hy.1
        exact lastWrite_max hl.inc hwh (List.mem_append_right _ this.1) hk this.2.2
      · have := hn.mem _ y hy.1.1
        exact lastWrite_max hl.inc hwh this.1 hk this.2.2
    refine ⟨?_, fun y hy hk => hall y hy hk⟩
    cases hb : lastWrite B e.key with
    | some r =>
      rw [hb] at hw
      have : r = e := by simpa using hw
      subst this
      exact Or.inl ⟨hb, hr⟩
    | none =>
      rw [hb] at hw
      have hwA : lastWrite A e.key = some e := by simpa using hw
      right
      have h3 := hold e.key hb
      rw [TMgr.get_eq_head ht] at h3
      unfold valueOf at h3
      rw [hwA, vis_of_ins hins] at h3
      have h4 := vis_ins h3
      refine ⟨⟨List.mem_of_head? h4, hr⟩, ?_⟩
      intro y hy hk
      have hk' : y.key = e.key := hk
      have hy1 := hy.1
      rw [hk'] at hy1
      exact hn.top e.key hb e h4 y hy1

/-- A list of the live records exists. -/
theorem exists_list (h : List (Rec K)) (lo hi : Option K) : ∃ L, LiveList h lo hi L := by
  classical
  have key : ∀ (S : List K), ∃ L : List (Rec K), L.Pairwise (fun a b => a.key < b.key) ∧
      ∀ e, e ∈ L ↔ (Live h lo hi e ∧ e.key ∈ S) := by
    intro S
    induction S with
    | nil => exact ⟨[], List.Pairwise.nil, fun e => by simp⟩
    | cons k S ih =>
      obtain ⟨L, h1, h2⟩ := ih
      by_cases hk : k ∈ S
      · refine ⟨L, h1, fun e => ?_⟩
        rw [h2]
        constructor
        · rintro ⟨a, b⟩; exact ⟨a, List.mem_cons_of_mem _ b⟩
        · rintro ⟨a, b⟩
          refine ⟨a, ?_⟩
          rcases List.mem_cons.1 b with b | b
          · rw [b]; exact hk
          · exact b
      · by_cases hx : ∃ x, Live h lo hi x ∧ x.key = k
        · obtain ⟨x, hx, hxk⟩ := hx
          refine ⟨L.filter (fun y => decide (y.key < k)) ++ x :: L.filter (fun y => decide (k < y.key)), ?_, ?_⟩
          · rw [List.pairwise_append]
            refine ⟨List.Pairwise.sublist List.filter_sublist h1, ?_, ?_⟩
            · rw [List.pairwise_cons]
              refine ⟨?_, List.Pairwise.sublist List.filter_sublist h1⟩
              intro y hy
              rw [hxk]
              exact of_decide_eq_true (List.mem_filter.1 hy).2
            · intro a ha b hb
              have ha' : a.key < k := of_decide_eq_true (List.mem_filter.1 ha).2
              rcases List.mem_cons.1 hb with hb | hb
              · rw [hb, hxk]; exact ha'
              · exact lt_trans ha' (of_decide_eq_true (List.mem_filter.1 hb).2)
          · intro e
            simp only [List.mem_append, List.mem_cons, List.mem_filter, h2, decide_eq_true_eq]
            constructor
            · rintro (⟨⟨a, b⟩, _⟩ | rfl | ⟨⟨a, b⟩, _⟩)
              · exact ⟨a, Or.inr b⟩
              · exact ⟨hx, Or.inl hxk⟩
              · exact ⟨a, Or.inr b⟩
            · rintro ⟨a, b | b⟩
              · right; left
                have h3 := (answerRec_ok.1 a.1).1
                have h4 := (answerRec_ok.1 hx.1).1
                rw [hxk, ← b, h3] at h4
                exact Option.some.inj h4
              · rcases lt_trichotomy e.key k with hlt | heq | hgt
                · exact Or.inl ⟨⟨a, b⟩, hlt⟩
                · rw [heq] at b; exact absurd b hk
                · exact Or.inr (Or.inr ⟨⟨a, b⟩, hgt⟩)
        · refine ⟨L, h1, fun e => ?_⟩
          rw [h2]
          constructor
          · rintro ⟨a, b⟩; exact ⟨a, List.mem_cons_of_mem _ b⟩
          · rintro ⟨a, b⟩
            refine ⟨a, ?_⟩
            rcases List.mem_cons.1 b with b | b
            · exact absurd ⟨e, a, b⟩ hx
            · exact b
  obtain ⟨L, h1, h2⟩ := key (h.map (·.key))
  refine ⟨L, h1, fun e => ?_⟩
  rw [h2]
  constructor
  · exact fun h => h.1
  · intro he
    refine ⟨he, ?_⟩
    have := lastWrite_mem (answerRec_ok.1 he.1).1
    exact List.mem_map_of_mem this.1

/-! ### Opening and seeking -/

section Seeks
variable {X : (Rec K → Prop) → Prop} {lo hi : Option K} {Q : Rec K → Prop} {L : List (Rec K)}

/-- The iterator is empty, or stands somewhere in `Q`. -/
def KeyOpen (X : (Rec K → Prop) → Prop) (lo hi : Option K) (Q : Rec K → Prop) (fr : Bool) (it : KeyIt K) :
    Prop :=
  (it.cur = none ∧ ∀ y, ¬ Q y) ∨ (it.cur.isNone = false ∧ (keySpec X lo hi).Own it Q fr)

theorem freshMode_after (fr : Bool) (d : Dir) : (freshMode fr d).after d = freshMode fr d := by
  cases fr
  · cases d <;> rfl
  · cases d <;> rfl

theorem freshMode_can (fr : Bool) (d d' : Dir) : (freshMode fr d).can d' := by
  cases fr <;> trivial

theorem freshMode_isFree (fr : Bool) (d : Dir) : decide (freshMode fr d = Mode.free) = fr := by
  cases fr <;> rfl

theorem keyOpen_of_rep {it : KeyIt K} {e : Rec K} {m : Mode} (h : (keySpec X lo hi).Rep it Q e m) :
    KeyOpen X lo hi Q (decide (m = .free)) it := by
  have hl := key_laws (K := K) X lo hi
  have hcur : it.cur = some e := hl.get h
  exact Or.inr ⟨by rw [hcur]; rfl, hl.own h⟩

theorem KeyOpen.weak {it : KeyIt K} {fr : Bool} (h : KeyOpen X lo hi Q fr it) : KeyOpen X lo hi Q false it := by
  rcases h with h | h
  · exact Or.inl h
  · exact Or.inr ⟨h.1, (key_laws (K := K) X lo hi).own_false h.2⟩

theorem Lists.first (h : Lists Q L) {e : Rec K} (hq : Q e) (hi' : e.isIns = true)
    (hn : ∀ y, Q y → y.isIns = true → ¬ y.key < e.key) : L[0]? = some e := by
  obtain ⟨j, hj⟩ := List.getElem?_of_mem ((h.mem e).2 ⟨hq, hi'⟩)
  by_cases h0 : j = 0
  · rw [← h0]; exact hj
  · have hjl := (List.getElem?_eq_some_iff.1 hj).1
    obtain ⟨y, hy, hyq, hyi⟩ := h.get (i := 0) (by omega)
    exact absurd (h.key_lt hy hj (by omega)) (hn y hyq hyi)

theorem Lists.last (h : Lists Q L) {e : Rec K} (hq : Q e) (hi' : e.isIns = true)
    (hn : ∀ y, Q y → y.isIns = true → ¬ e.key < y.key) : L[L.length - 1]? = some e := by
  obtain ⟨j, hj⟩ := List.getElem?_of_mem ((h.mem e).2 ⟨hq, hi'⟩)
  have hjl := (List.getElem?_eq_some_iff.1 hj).1
  by_cases h0 : j = L.length - 1
  · rw [← h0]; exact hj
  · obtain ⟨y, hy, hyq, hyi⟩ := h.get (i := L.length - 1) (by omega)
    exact absurd (h.key_lt hj hy (by omega)) (hn y hyq hyi)

/-- After a fresh positioning at the end of `Q` opposite to `d`, and skipping deleted keys. -/
theorem skip_end {d : Dir} {it : KeyIt K} {e : Rec K} {fr : Bool}
    (hr : (keySpec X lo hi).Rep it Q e (freshMode fr d)) (hend : AtEnd keyPar d.opp Q e) :
    ∃ e', (keySpec X lo hi).Rep (skipDel d it) Q e' (freshMode fr d) ∧
      ((e'.isIns = true ∧ ∀ y, Q y → y.isIns = true → ¬ dlt d y.key e'.key) ∨
       (e'.isIns = false ∧ ∀ y, Q y → y.isIns = true → False)) := by
  obtain ⟨e', h1, h2⟩ := skipDel_spec hr (freshMode_can fr d d)
  have hm : (if e.isIns = true then freshMode fr d else (freshMode fr d).after d) = freshMode fr d := by
    rw [freshMode_after]; simp
  rw [hm] at h1
  have hl := key_laws (K := K) X lo hi
  have hbeyond : ∀ y, Q y → y.key ≠ e.key → dlt d e.key y.key := by
    intro y hy hne
    rcases dlt_tri d e.key y.key with h | h | h
    · exact h
    · exact absurd h.symm hne
    · exact absurd (dlt_opp.2 h) (hend y hy)
  refine ⟨e', h1, ?_⟩
  rcases h2 with ⟨rfl, h3⟩ | ⟨h3, h4⟩ | ⟨h3, h4, h5⟩
  · left
    refine ⟨h3, fun y hy hyi hd => ?_⟩
    exact hend y hy (dlt_opp.2 hd)
  · left
    refine ⟨h4.2.1, fun y hy hyi hd => ?_⟩
    by_cases hk : y.key = e.key
    · have := hl.inj hr y e hy (hl.mem hr) hk
      rw [this, h3] at hyi; cases hyi
    · exact h4.2.2.2 y hy hyi (hbeyond y hy hk) hd
  · right
    refine ⟨h5, fun y hy hyi => ?_⟩
    by_cases hk : y.key = e.key
    · have := hl.inj hr y e hy (hl.mem hr) hk
      rw [this, h3] at hyi; cases hyi
    · exact h4 y hy hyi (hbeyond y hy hk)

/-- What the iterator shows after it was put at the beginning. -/
structure AtFirst (X : (Rec K → Prop) → Prop) (lo hi : Option K) (Q : Rec K → Prop) (L : List (Rec K))
    (fr : Bool) (it : KeyIt K) : Prop where
  rep : ∀ e, L[0]? = some e → (keySpec X lo hi).Rep it Q e (freshMode fr .fwd)
  empty : L = [] → keyGet it = (.keyNotFound, none)
  opn : KeyOpen X lo hi Q fr it

/-- … at the end. -/
structure AtLast (X : (Rec K → Prop) → Prop) (lo hi : Option K) (Q : Rec K → Prop) (L : List (Rec K))
    (fr : Bool) (it : KeyIt K) : Prop where
  rep : ∀ e, L[L.length - 1]? = some e → (keySpec X lo hi).Rep it Q e (freshMode fr .bwd)
  empty : L = [] → keyGet it = (.keyNotFound, none)
  opn : KeyOpen X lo hi Q fr it

theorem keyGet_empty {it : KeyIt K} (h : it.cur = none) : keyGet it = (.keyNotFound, none) := by
  unfold keyGet; rw [h]

theorem atFirst_skip (hL : Lists Q L) {it : KeyIt K} {e : Rec K} {fr : Bool}
    (hr : (keySpec X lo hi).Rep it Q e (freshMode fr .fwd)) (hend : AtEnd keyPar .bwd Q e) :
    AtFirst X lo hi Q L fr (skipDel .fwd it) := by
  obtain ⟨e', h1, h2⟩ := skip_end (d := .fwd) hr hend
  have hl := key_laws (K := K) X lo hi
  have ho := keyOpen_of_rep h1
  rw [freshMode_isFree] at ho
  rcases h2 with ⟨h3, h4⟩ | ⟨h3, h4⟩
  · have h0 := hL.first (hl.mem h1) h3 h4
    refine ⟨?_, ?_, ho⟩
    · intro x hx
      rw [h0] at hx; cases hx; exact h1
    · intro he; rw [he] at h0; cases h0
  · refine ⟨?_, fun _ => keyGet_del h1 h3, ho⟩
    intro x hx
    have := (hL.mem x).1 (List.mem_of_getElem? hx)
    exact absurd this.2 (fun hh => h4 x this.1 hh)

theorem atLast_skip (hL : Lists Q L) {it : KeyIt K} {e : Rec K} {fr : Bool}
    (hr : (keySpec X lo hi).Rep it Q e (freshMode fr .bwd)) (hend : AtEnd keyPar .fwd Q e) :
    AtLast X lo hi Q L fr (skipDel .bwd it) := by
  obtain ⟨e', h1, h2⟩ := skip_end (d := .bwd) hr hend
  have hl := key_laws (K := K) X lo hi
  have ho := keyOpen_of_rep h1
  rw [freshMode_isFree] at ho
  rcases h2 with ⟨h3, h4⟩ | ⟨h3, h4⟩
  · have h0 := hL.last (hl.mem h1) h3 h4
    refine ⟨?_, ?_, ho⟩
    · intro x hx
      rw [h0] at hx; cases hx; exact h1
    · intro he; rw [he] at h0; cases h0
  · refine ⟨?_, fun _ => keyGet_del h1 h3, ho⟩
    intro x hx
    have := (hL.mem x).1 (List.mem_of_getElem? hx)
    exact absurd this.2 (fun hh => h4 x this.1 hh)

theorem lists_empty (hL : Lists Q L) (h : ∀ y, ¬ Q y) : L = [] := by
  cases hc : L with
  | nil => rfl
  | cons a l => exact absurd ((hL.mem a).1 (by rw [hc]; exact List.mem_cons_self)).1 (h a)

/-- `init`. -/
theorem keyInit_first {s : KeyIt K} {fr : Bool} (ho : Opened keyPar (keyOps (K := K)) (keySpec X lo hi) fr Q s)
    (hL : Lists Q L) : AtFirst X lo hi Q L fr (skipDel .fwd s) := by
  cases hg : s.cur with
  | none =>
    have hq := ho.none hg
    have h0 := lists_empty hL hq
    have : skipDel .fwd s = s := by unfold skipDel; rw [hg]
    rw [this]
    refine ⟨?_, fun _ => keyGet_empty hg, Or.inl ⟨hg, hq⟩⟩
    intro e he; rw [h0] at he; cases he
  | some e =>
    obtain ⟨h1, h2⟩ := ho.some e hg
    exact atFirst_skip hL h1 h2

/-- `gotoBegin`. -/
theorem keySeek_first {it : KeyIt K} {fr : Bool} (ho : KeyOpen X lo hi Q fr it) (hL : Lists Q L) :
    ∃ it', keySeek .first it = (.ok, it') ∧ AtFirst X lo hi Q L fr it' := by
  rcases ho with ⟨hc, hq⟩ | ⟨hc, hown⟩
  · refine ⟨it, by unfold keySeek; rw [hc]; rfl, ?_, fun _ => keyGet_empty hc, Or.inl ⟨hc, hq⟩⟩
    intro e he; rw [lists_empty hL hq] at he; cases he
  · obtain ⟨s', e, h1, h2, h3⟩ := (key_laws (K := K) X lo hi).seek_first hown
    refine ⟨skipDel .fwd s', ?_, atFirst_skip hL h2 h3⟩
    unfold keySeek
    rw [hc, h1]; rfl

/-- `gotoEnd`. -/
theorem keySeek_last {it : KeyIt K} {fr : Bool} (ho : KeyOpen X lo hi Q fr it) (hL : Lists Q L) :
    ∃ it', keySeek .last it = (.ok, it') ∧ AtLast X lo hi Q L fr it' := by
  rcases ho with ⟨hc, hq⟩ | ⟨hc, hown⟩
  · refine ⟨it, by unfold keySeek; rw [hc]; rfl, ?_, fun _ => keyGet_empty hc, Or.inl ⟨hc, hq⟩⟩
    intro e he; rw [lists_empty hL hq] at he; cases he
  · obtain ⟨s', e, h1, h2, h3⟩ := (key_laws (K := K) X lo hi).seek_last hown
    refine ⟨skipDel .bwd s', ?_, atLast_skip hL h2 h3⟩
    unfold keySeek
    rw [hc, h1]; rfl

/-- `seek(k, GREATER)`, if a live key is not below `k`. -/
theorem keySeek_ge {it : KeyIt K} {fr : Bool} (ho : KeyOpen X lo hi Q fr it) (hL : Lists Q L) {k : K}
    (hk : InRange lo hi k) {i : Nat} {e : Rec K} (hi' : L[i]? = some e) (hke : k ≤ e.key)
    (hmin : ∀ y ∈ L, k ≤ y.key → e.key ≤ y.key) :
    ∃ it', keySeek (.ge k) it = (.ok, it') ∧ (keySpec X lo hi).Rep it' Q e (.only .fwd) ∧
      KeyOpen X lo hi Q false it' := by
  have hl := key_laws (K := K) X lo hi
  have heq := (hL.mem e).1 (List.mem_of_getElem? hi')
  have hkok : (keySpec X lo hi).KOk k :=
    ⟨⟨by decide, hk.1, hk.2⟩, ⟨by decide, hk.1, hk.2⟩⟩
  rcases ho with ⟨hc, hq⟩ | ⟨hc, hown⟩
  · exact absurd heq.1 (hq e)
  · rcases hl.seek_ge hown hkok with ⟨s', a, h1, h2, h3, h4, _⟩ | ⟨h0, _⟩
    · refine ⟨skipDel .fwd s', by unfold keySeek; rw [hc, h1]; rfl, ?_⟩
      obtain ⟨e', g1, g2⟩ := skipDel_spec (d := .fwd) h2 rfl
      have hm : (if a.isIns = true then Mode.only .fwd else (Mode.only .fwd).after .fwd) = .only .fwd := by
        simp [Mode.after]
      rw [hm] at g1
      have hae : a.key ≤ e.key := h4 e heq.1 hke
      have key : e' = e := by
        rcases g2 with ⟨rfl, g3⟩ | ⟨g3, g4⟩ | ⟨g3, g4, g5⟩
        · have : e.key ≤ e'.key := hmin e' ((hL.mem e').2 ⟨hl.mem h2, g3⟩) h3
          exact hl.inj h2 e' e (hl.mem h2) heq.1 (le_antisymm hae this)
        · have hlt : dlt .fwd a.key e.key := by
            rcases lt_or_eq_of_le hae with h | h
            · exact h
            · have := hl.inj h2 a e (hl.mem h2) heq.1 h
              rw [this, heq.2] at g3; cases g3
          have h5 : ¬ e.key < e'.key := g4.2.2.2 e heq.1 heq.2 hlt
          have h6 : e.key ≤ e'.key := hmin e' ((hL.mem e').2 ⟨g4.1, g4.2.1⟩) (le_trans h3 (le_of_lt g4.2.2.1))
          exact hl.inj h2 e' e g4.1 heq.1 (le_antisymm (not_lt.1 h5) h6)
        · exfalso
          rcases lt_or_eq_of_le hae with h | h
          · exact g4 e heq.1 heq.2 h
          · have := hl.inj h2 a e (hl.mem h2) heq.1 h
            rw [this, heq.2] at g3; cases g3
      rw [key] at g1
      exact ⟨g1, keyOpen_of_rep g1⟩
    · exact absurd (lt_of_lt_of_le (h0 e heq.1) hke) (lt_irrefl _)

/-- `seek(k, SMALLER)`, if every source has an entry that is not above `k`, and a live one exists. -/
theorem keySeek_le {it : KeyIt K} {fr : Bool} {k : K}
    (ho : KeyOpen (fun P => ∃ e, P e ∧ e.key ≤ k) lo hi Q fr it) (hL : Lists Q L)
    (hk : InRange lo hi k) {i : Nat} {e : Rec K} (hi' : L[i]? = some e) (hke : e.key ≤ k)
    (hmax : ∀ y ∈ L, y.key ≤ k → y.key ≤ e.key) :
    ∃ it', keySeek (.le k) it = (.ok, it') ∧
      (keySpec (fun P => ∃ e, P e ∧ e.key ≤ k) lo hi).Rep it' Q e (.fresh .bwd) := by
  generalize hX : (fun P : Rec K → Prop => ∃ e, P e ∧ e.key ≤ k) = X at ho ⊢
  have hl := key_laws (K := K) X lo hi
  have heq := (hL.mem e).1 (List.mem_of_getElem? hi')
  have hkok : (keySpec X lo hi).KOk k :=
    ⟨⟨by decide, hk.1, hk.2⟩, ⟨by decide, hk.1, hk.2⟩⟩
  have hlow : OwnLow (keySpec X lo hi) k := by
    rw [← hX]
    exact ownLow_merge (ownLow_sum (ownLow_merge (ownLow_leaf (by decide) lo hi))
      (ownLow_merge (ownLow_leaf (by decide) lo hi)))
  rcases ho with ⟨hc, hq⟩ | ⟨hc, hown⟩
  · exact absurd heq.1 (hq e)
  · obtain ⟨s', a, h1, h2, h3, h4⟩ := hl.seek_le (hlow hown) hkok
    refine ⟨skipDel .bwd s', by unfold keySeek; rw [hc, h1]; rfl, ?_⟩
    obtain ⟨e', g1, g2⟩ := skipDel_spec (d := .bwd) h2 trivial
    have hm : (if a.isIns = true then Mode.fresh .bwd else (Mode.fresh .bwd).after .bwd) = .fresh .bwd := by
      simp [Mode.after]
    rw [hm] at g1
    have hae : e.key ≤ a.key := h4 e heq.1 hke
    have key : e' = e := by
      rcases g2 with ⟨rfl, g3⟩ | ⟨g3, g4⟩ | ⟨g3, g4, g5⟩
      · have : e'.key ≤ e.key := hmax e' ((hL.mem e').2 ⟨hl.mem h2, g3⟩) h3
        exact hl.inj h2 e' e (hl.mem h2) heq.1 (le_antisymm this hae)
      · have hlt : dlt .bwd a.key e.key := by
          rcases lt_or_eq_of_le hae with h | h
          · exact h
          · have := hl.inj h2 a e (hl.mem h2) heq.1 h.symm
            rw [this, heq.2] at g3; cases g3
        have h5 : ¬ e'.key < e.key := g4.2.2.2 e heq.1 heq.2 hlt
        have h6 : e'.key ≤ e.key := hmax e' ((hL.mem e').2 ⟨g4.1, g4.2.1⟩) (le_trans (le_of_lt g4.2.2.1) h3)
        exact hl.inj h2 e' e g4.1 heq.1 (le_antisymm h6 (not_lt.1 h5))
      · exfalso
        rcases lt_or_eq_of_le hae with h | h
        · exact g4 e heq.1 heq.2 h
        · have := hl.inj h2 a e (hl.mem h2) heq.1 h.symm
          rw [this, heq.2] at g3; cases g3
    rw [key] at g1
    exact g1

end Seeks
end Jungle.Iter
