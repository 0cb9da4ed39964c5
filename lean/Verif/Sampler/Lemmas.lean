/-
  Sampling: where a seek and the scan after it end.
-/
import Verif.Iter.WithinDB
import Verif.Sampler.Model

set_option linter.unusedSectionVars false

namespace Jungle.Iter
section
variable {σ E O : Type} [LinearOrder O] {p : Par E O} {ops : Ops σ E O} {C : CSpec σ E O}

/-- The loop passes over items that have nothing more. -/
theorem loop_flagged {d : Dir} {k : O} : ∀ (n : Nat) (passed l : List (Item σ E)), (∀ x ∈ l, x.flag d = true) →
    l.length < n → loop p ops d k n passed l = some (passed ++ l) := by
  intro n
  induction n with
  | zero => intro _ _ _ h; omega
  | succ n ih =>
    intro passed l hl hn
    cases l with
    | nil => simp [loop]
    | cons x l =>
      unfold loop
      rw [if_pos (hl x (by simp)), ih _ _ (fun y hy => hl y (List.mem_cons_of_mem _ hy)) (by
        simp only [List.length_cons] at hn; omega)]
      simp

/-- A seek beyond everything succeeds, and then `next` fails. -/
theorem merge_seek_past (hl : Laws p ops C) {it : Itr σ E} {Q : E → Prop} {fr : Bool} {k : O}
    (h : (mergeSpec p C).Own it Q fr) (hk : C.KOk k) (hpast : ∀ y, Q y → p.ord y < k) :
    ∃ s' e s'', (mergeOps p ops).seek (.ge k) it = (.ok, s') ∧ s'.cur = some e ∧
      (∃ y, Q y ∧ p.ord y = p.ord e) ∧ (mergeSpec p C).Own s' Q fr ∧
      (mergeOps p ops).step .fwd s' = (.outOfRange, s'') := by
  obtain ⟨P, hs, hown⟩ := h
  have hQ : ∀ x ∈ it.win, ∀ z, P x.id z → p.ord z < k := by
    intro x hx z hz
    obtain ⟨y, hy, hyz⟩ := hs.exists_q (fun u hu => hl.own_inj (hown u hu).1) hx hz
    exact hyz ▸ hpast y hy
  obtain ⟨w, h1, h2, h3⟩ := seek_common (p := p) (ops := ops) (q := .ge k)
    (G := fun y => C.Own y.cur (P y.id) fr ∧ (∃ z, P y.id z ∧ p.ord z = p.ord y.last) ∧ y.noNext = true) hs (by
    intro x hx
    obtain ⟨ho, hin⟩ := hown x hx
    rcases hl.seek_ge ho hk with ⟨s', e, a1, a2, a3, a4, a5⟩ | ⟨a0, ⟨s', e, a1, a2, a3, a4⟩ | a1⟩
    · exact absurd (hQ x hx e (hl.mem a2)) (not_lt.2 a3)
    · refine ⟨{ x with
        cur := s', last := e, noPrev := false, noNext := true }, ?_, rfl, a4, a3, rfl⟩
      simp only [seekItem, a1, a2, seekFlag]
      obtain ⟨y, hy, hye⟩ := a3
      rw [decide_eq_true (hye ▸ a0 y hy)]
    · exact ⟨{ x with noPrev := true, noNext := true }, by simp only [seekItem, a1], rfl, ho, hin, rfl⟩)
  have hf : w.find? (fun x => !x.noPrev && !x.noNext) = none := by
    rw [List.find?_eq_none]
    intro x hx
    simp [(h3 x hx).2.2]
  cases hw : w.reverse with
  | nil => exact absurd (by simpa using hw) h2.ne
  | cons x l =>
    have hxm : x ∈ w := List.mem_reverse.1 (by rw [hw]; exact List.mem_cons_self)
    have hcur : seekCur p (.ge k) w = some x.last := by
      simp only [seekCur, hf, hw, List.head?_cons, Option.map_some]
    have hloop : loop p ops .fwd (p.ord x.last) (fuel ops .fwd w) [] w = some w := by
      rw [loop_flagged (d := .fwd) (fuel ops .fwd w) [] w (fun y hy => (h3 y hy).2.2) (by
        unfold fuel
        have : 1 * (w.length + 1) ≤ (total ops .fwd w + 1) * (w.length + 1) :=
          Nat.mul_le_mul_right _ (by omega)
        omega)]
      simp
    have hnone : w.find? (validItem p .fwd (p.ord x.last)) = none := by
      rw [List.find?_eq_none]
      intro y hy
      have : y.flag .fwd = true := (h3 y hy).2.2
      simp [validItem, this]
    refine ⟨_, x.last, { win := w, cur := lastValid p w.reverse }, h1, hcur, ?_, ⟨P, h2, fun y hy => ⟨(h3 y hy).1, (h3 y hy).2.1⟩⟩, ?_⟩
    · obtain ⟨z, hz, hzl⟩ := (h3 x hxm).2.1
      obtain ⟨y, hy, hyz⟩ := h2.exists_q (fun u hu => hl.own_inj (h3 u hu).1) hxm hz
      exact ⟨y, hy, hyz.trans hzl⟩
    · show next p ops { win := w, cur := seekCur p (.ge k) w } = _
      unfold next
      simp only [hcur, hloop, hnone]

end

section
variable {K : Type} [LinearOrder K] {minArg maxArg : Nat} {Q : Rec K → Prop} {L : List (Rec K)}

/-- The targets of a seek in an iterator without bounds. -/
theorem seq_kok (k : Nat) : (seqSpec (K := K) NIL NIL).KOk k := by
  refine ⟨?_, by decide, ?_, ?_⟩
  · intro b hb
    cases hb
  · intro a ha
    unfold stabLo at ha
    cases ha
    exact Nat.zero_le _
  · intro b hb
    cases hb

end
end Jungle.Iter

namespace Jungle.Sampler
open Iter Spec
variable {K : Type} [LinearOrder K] {Q : Rec K → Prop} {L H : List (Rec K)}

/-- What is kept about the iterator. -/
structure Opn (Q : Rec K → Prop) (H : List (Rec K)) (it : SeqIt K) : Prop where
  opn : SeqOpen NIL NIL Q it
  only : SeqOnly (· ∈ H) it

/-- The scan from a record of the list. -/
theorem scan_from {good : Rec K → Bool} (hL : SLists Q L) : ∀ (n i : Nat) {it : SeqIt K} {e : Rec K} {m : Mode},
    L[i]? = some e → (seqSpec NIL NIL).Rep it Q e m → m.can .fwd → seqOps.left .fwd it < n →
    (∃ j r it', scan good n it = some (some r, it') ∧ L[j]? = some r ∧ i ≤ j ∧ good r = true ∧
      (∀ x y, i ≤ x → x < j → L[x]? = some y → good y = false) ∧ SeqOpen NIL NIL Q it') ∨
    (∃ it', scan good n it = some (none, it') ∧ ∀ x y, i ≤ x → L[x]? = some y → good y = false) := by
  intro n
  induction n with
  | zero => intro i it e m _ _ _ h; omega
  | succ n ih =>
    intro i it e m hi hr hm hn
    unfold scan
    rw [sqGet_rep hr]
    simp only
    cases hg : good e with
    | true =>
      left
      rw [if_pos rfl]
      exact ⟨i, e, it, rfl, hi, Nat.le_refl _, hg, fun x y h1 h2 => absurd h1 (by omega), seqOpen_of_rep hr⟩
    | false =>
      rw [if_neg (by simp), sqStep_eq hr]
      rcases (seq_laws (K := K) NIL NIL).step hr hm with ⟨it', e', h1, h2, h3, h4⟩ | ⟨it', h1, h2, h3, h4⟩
      · rw [h1]
        simp only
        rcases ih (i + 1) (hL.next_fwd hi h2) h3 (m.after_can hm) (by omega) with
          ⟨j, r, it2, g1, g2, g3, g4, g5, g6⟩ | ⟨it2, g1, g2⟩
        · refine Or.inl ⟨j, r, it2, g1, g2, by omega, g4, ?_, g6⟩
          intro x y hx hxj hy
          by_cases hc : x = i
          · subst hc; rw [hi] at hy; cases hy; exact hg
          · exact g5 x y (by omega) hxj hy
        · refine Or.inr ⟨it2, g1, ?_⟩
          intro x y hx hy
          by_cases hc : x = i
          · subst hc; rw [hi] at hy; cases hy; exact hg
          · exact g2 x y (by omega) hy
      · rw [h1]
        refine Or.inr ⟨it', rfl, ?_⟩
        intro x y hx hy
        have hend := hL.end_fwd hi h2
        have hxl := (List.getElem?_eq_some_iff.1 hy).1
        have : x = i := by omega
        subst this; rw [hi] at hy; cases hy; exact hg

theorem scan_only {good : Rec K → Bool} {P : Rec K → Prop} : ∀ (n : Nat) {it it' : SeqIt K} {o : Option (Rec K)},
    SeqOnly P it → scan good n it = some (o, it') → SeqOnly P it' := by
  intro n
  induction n with
  | zero => intro it it' o _ h; cases h
  | succ n ih =>
    intro it it' o h hs
    unfold scan at hs
    split at hs
    · split at hs
      · cases hs; exact h
      · have hst := h.step .fwd
        split at hs
        · next it2 he => rw [he] at hst; exact ih hst hs
        · cases hs
        · next it2 _ he => rw [he] at hst; cases hs; exact hst
    · cases hs; exact h

/-- One round: seek and scan. -/
theorem round {good : Rec K → Bool} (hL : SLists Q L) (hQ : ∀ e ∈ L, e ∈ H) (hH : Increasing H) {it : SeqIt K}
    (ho : Opn Q H it) (k : Nat) :
    ∃ it1, sqSeek (.ge k) it = (.ok, it1) ∧
      ((∃ r it2, scan good (seqOps.left .fwd it1 + 1) it1 = some (some r, it2) ∧ r ∈ L ∧ good r = true ∧
          (∀ y ∈ L, k ≤ y.seq → y.seq < r.seq → good y = false) ∧ (k ≤ r.seq ∨ ∀ y ∈ L, y.seq < k) ∧
          Opn Q H it2) ∨
       (∃ it2, scan good (seqOps.left .fwd it1 + 1) it1 = some (none, it2) ∧
          (∀ y ∈ L, k ≤ y.seq → good y = false) ∧ (L ≠ [] → ∃ y ∈ L, good y = false))) := by
  have honly1 := ho.only.seek (.ge k)
  have hl := seq_laws (K := K) NIL NIL
  rcases ho.opn with ⟨hc, hq⟩ | ⟨hc, hown⟩
  · refine ⟨it, by unfold sqSeek; rw [hc]; rfl, Or.inr ⟨it, ?_, ?_, ?_⟩⟩
    · unfold scan sqGet; rw [hc]
    · intro y hy; exact absurd ((hL.mem y).1 hy) (hq y)
    · intro hne; exact absurd (slists_empty hL hq) hne
  · have hsk : sqSeek (.ge k) it = seqOps.seek (.ge k) it := by
      unfold sqSeek; rw [hc]; rfl
    rcases hl.seek_ge hown (seq_kok k) with ⟨s', e, h1, h2, h3, h4, _⟩ | ⟨h1, _⟩
    · obtain ⟨i, hi⟩ := List.getElem?_of_mem ((hL.mem e).2 (hl.mem h2))
      rw [hsk, h1] at honly1
      refine ⟨s', by rw [hsk, h1], ?_⟩
      have hidx : ∀ y ∈ L, k ≤ y.seq → ∃ x, L[x]? = some y ∧ i ≤ x := by
        intro y hy hky
        obtain ⟨x, hx⟩ := List.getElem?_of_mem hy
        refine ⟨x, hx, ?_⟩
        have hle : e.seq ≤ y.seq := h4 y ((hL.mem y).1 hy) hky
        by_contra hc
        have := hL.seq_lt hx hi (by omega)
        omega
      rcases scan_from (good := good) hL (seqOps.left .fwd s' + 1) i hi h2 rfl (by omega) with
        ⟨j, r, it2, g1, g2, g3, g4, g5, g6⟩ | ⟨it2, g1, g2⟩
      · left
        refine ⟨r, it2, g1, List.mem_of_getElem? g2, g4, ?_, Or.inl ?_, g6, scan_only _ honly1 g1⟩
        · intro y hy hky hyr
          obtain ⟨x, hx, hix⟩ := hidx y hy hky
          exact g5 x y hix (hL.lt hx g2 hyr) hx
        · have h3' : k ≤ e.seq := h3
          rcases Nat.lt_or_ge i j with hij | hij
          · have := hL.seq_lt hi g2 hij
            omega
          · have : i = j := by omega
            subst this; rw [hi] at g2; cases g2; exact h3'
      · right
        refine ⟨it2, g1, ?_, fun _ => ⟨e, List.mem_of_getElem? hi, g2 i e (Nat.le_refl _) hi⟩⟩
        intro y hy hky
        obtain ⟨x, hx, hix⟩ := hidx y hy hky
        exact g2 x y hix hx
    · have h1' : ∀ y, Q y → (seqPar (K := K)).ord y < k := h1
      obtain ⟨s', e, s'', a1, a2, ⟨y, hy, hye⟩, a4, a5⟩ :=
        merge_seek_past (p := seqPar (K := K)) (sum_laws (slog_laws _) (stab_laws _ _)) hown (seq_kok k) h1'
      have a1' : seqOps.seek (.ge k) it = (.ok, s') := a1
      rw [hsk, a1'] at honly1
      have heH : e ∈ H := honly1.cur e a2
      have hey : y = e := by
        have hyL := (hL.mem y).2 hy
        exact seq_inj hH (hQ y hyL) heH hye
      subst hey
      have hyL := (hL.mem y).2 hy
      refine ⟨s', by rw [hsk, a1'], ?_⟩
      have hg : sqGet s' = (.ok, some y) := by unfold sqGet; rw [a2]
      have hst : sqStep .fwd s' = (.outOfRange, s'') := by
        unfold sqStep; rw [a2]; exact a5
      unfold scan
      rw [hg]
      simp only
      cases hgy : good y with
      | true =>
        left
        rw [if_pos rfl]
        refine ⟨y, s', rfl, hyL, hgy, ?_, Or.inr (fun z hz => h1 z ((hL.mem z).1 hz)), ?_, honly1⟩
        · intro z hz hkz
          exact absurd (h1 z ((hL.mem z).1 hz)) (Nat.not_lt.2 hkz)
        · exact Or.inr ⟨by rw [a2]; rfl, hl.own_false a4⟩
      | false =>
        right
        rw [if_neg (by simp), hst]
        refine ⟨s'', rfl, ?_, fun _ => ⟨y, hyL, hgy⟩⟩
        intro z hz hkz
        exact absurd (h1 z ((hL.mem z).1 hz)) (Nat.not_lt.2 hkz)


/-- What every run of the loop does. -/
theorem loop_spec {live : Bool} {lives : K → Bool} {mx : Nat} (hL : SLists Q L) (hQ : ∀ e ∈ L, e ∈ H)
    (hH : Increasing H) : ∀ (rem step cur nxt : Nat) (out : List K) (it : SeqIt K), Opn Q H it →
    ∃ ks, loop live lives mx rem step cur nxt out it = some (out ++ ks) ∧ ks.length ≤ rem ∧
      (out.Nodup → (out ++ ks).Nodup) ∧ (∀ k ∈ ks, ∃ r ∈ L, r.key = k) ∧
      (live = true → ∀ k ∈ ks, lives k = true) ∧
      (0 < rem → out = [] → L ≠ [] → live = false → ks ≠ []) := by
  intro rem
  induction rem with
  | zero =>
    intro step cur nxt out it _
    exact ⟨[], by simp [loop], Nat.le_refl _, fun h => by simpa using h, fun k hk => (by cases hk),
      fun _ k hk => (by cases hk), fun h => absurd h (by omega)⟩
  | succ rem ih =>
    intro step cur nxt out it ho
    obtain ⟨it1, h1, ⟨r, it2, h2, h3, h4, _, _, h6⟩ | ⟨it2, h2, _, h4⟩⟩ :=
      round (good := accept live lives out) hL hQ hH ho cur
    · have hacc : r.key ∉ out ∧ (live = true → lives r.key = true) := by
        unfold accept at h4
        simp only [Bool.and_eq_true, decide_eq_true_eq, Bool.or_eq_true, Bool.not_eq_true'] at h4
        refine ⟨h4.1, fun hl => ?_⟩
        rcases h4.2 with h | h
        · rw [hl] at h; cases h
        · exact h
      have hnd : out.Nodup → (out ++ [r.key]).Nodup := by
        intro hn
        rw [List.nodup_append]
        exact ⟨hn, by simp, fun a ha b hb => by rw [List.mem_singleton.1 hb]; rintro rfl; exact hacc.1 ha⟩
      unfold loop
      rw [h1]
      simp only [h2]
      split
      · exact ⟨[r.key], rfl, by simp, hnd, fun k hk => ⟨r, h3, (List.mem_singleton.1 hk).symm⟩,
          fun hl k hk => by rw [List.mem_singleton.1 hk]; exact hacc.2 hl, fun _ _ _ _ => by simp⟩
      · obtain ⟨ks, g1, g2, g3, g4, g5, _⟩ := ih _ _ _ (out ++ [r.key]) it2 h6
        refine ⟨r.key :: ks, by rw [g1]; simp, by simp only [List.length_cons]; omega, ?_, ?_, ?_,
          fun _ _ _ _ => by simp⟩
        · intro hn
          have := g3 (hnd hn)
          simpa using this
        · intro k hk
          rcases List.mem_cons.1 hk with rfl | hk
          · exact ⟨r, h3, rfl⟩
          · exact g4 k hk
        · intro hl k hk
          rcases List.mem_cons.1 hk with rfl | hk
          · exact hacc.2 hl
          · exact g5 hl k hk
    · refine ⟨[], ?_, Nat.zero_le _, fun h => by simpa using h, fun k hk => (by cases hk),
        fun _ k hk => (by cases hk), ?_⟩
      · unfold loop
        rw [h1]
        simp only [h2]
        simp
      · intro _ hout hne hlive
        obtain ⟨y, _, hy⟩ := h4 hne
        subst hout; subst hlive
        simp [accept] at hy

/-- The record needs no more attention. -/
def Handled (live : Bool) (lives : K → Bool) (out : List K) (y : Rec K) : Prop :=
  y.key ∈ out ∨ (live = true ∧ lives y.key = false)

theorem accept_false {live : Bool} {lives : K → Bool} {out : List K} {y : Rec K}
    (h : accept live lives out y = false) : Handled live lives out y := by
  unfold accept at h
  unfold Handled
  by_cases hk : y.key ∈ out
  · exact Or.inl hk
  · cases live <;> cases hl : lives y.key <;> simp_all

theorem accept_true {live : Bool} {lives : K → Bool} {out : List K} {y : Rec K}
    (h : accept live lives out y = true) : ¬ Handled live lives out y := by
  unfold accept at h
  rintro (hk | ⟨h1, h2⟩)
  · simp [hk] at h
  · simp [h1, h2] at h

theorem Handled.mono {live : Bool} {lives : K → Bool} {out : List K} {y : Rec K}
    (h : Handled live lives out y) (ks : List K) : Handled live lives (out ++ ks) y :=
  h.imp (fun h => List.mem_append_left _ h) id

/-- With at least as many samples as there are numbers nothing is skipped.  Everything up to `q` is
    handled; `q` is at least the number of keys found, and the next seek is not beyond `q + 1`. -/
theorem loop_all {live : Bool} {lives : K → Bool} {mx n : Nat} (hL : SLists Q L) (hQ : ∀ e ∈ L, e ∈ H)
    (hH : Increasing H) (hmx : ∀ e ∈ L, e.seq ≤ mx) (hn : mx ≤ n) :
    ∀ (rem step cur nxt q : Nat) (out : List K) (it : SeqIt K), Opn Q H it →
    out.length + rem = n → 0 < rem → out.length ≤ q → (∀ y ∈ L, y.seq ≤ q → Handled live lives out y) →
    cur ≤ q + 1 → nxt ≤ cur + 1 → step ≤ 1 →
    ∃ ks, loop live lives mx rem step cur nxt out it = some (out ++ ks) ∧
      ∀ y ∈ L, Handled live lives (out ++ ks) y := by
  intro rem
  induction rem with
  | zero => intro step cur nxt q out it _ _ h; omega
  | succ rem ih =>
    intro step cur nxt q out it ho hlen _ hq hdone hcur hnxt hstep
    obtain ⟨it1, h1, ⟨r, it2, h2, h3, h4, h5, h6, h7⟩ | ⟨it2, h2, h3, _⟩⟩ :=
      round (good := accept live lives out) hL hQ hH ho cur
    · have hrq : q < r.seq := by
        by_contra hc
        exact accept_true h4 (hdone r h3 (by omega))
      have hrc : cur ≤ r.seq := by omega
      have hdone' : ∀ y ∈ L, y.seq ≤ r.seq → Handled live lives (out ++ [r.key]) y := by
        intro y hy hyr
        rcases Nat.lt_or_ge q y.seq with hqy | hqy
        · rcases Nat.lt_or_ge y.seq r.seq with hlt | hge
          · exact (accept_false (h5 y hy (by omega) hlt)).mono _
          · have : y = r := seq_inj hH (hQ y hy) (hQ r h3) (by omega)
            subst this
            exact Or.inl (by simp)
        · exact (hdone y hy hqy).mono _
      unfold loop
      rw [h1]
      simp only [h2]
      by_cases hend : rem = 0 ∨ mx ≤ r.seq
      · rw [if_pos hend]
        refine ⟨[r.key], rfl, fun y hy => hdone' y hy ?_⟩
        have := hmx y hy
        rcases hend with h | h <;> omega
      · rw [if_neg hend]
        have hrem : 0 < rem := by omega
        have hst : (mx - r.seq) / rem ≤ 1 := by
          refine Nat.le_of_lt_succ (Nat.div_lt_of_lt_mul ?_)
          omega
        obtain ⟨ks, g1, g2⟩ := ih (if r.seq < nxt then step else (mx - r.seq) / rem)
          (if r.seq < nxt then nxt else r.seq + if r.seq < nxt then step else (mx - r.seq) / rem)
          ((if r.seq < nxt then nxt else r.seq + if r.seq < nxt then step else (mx - r.seq) / rem) +
            if r.seq < nxt then step else (mx - r.seq) / rem)
          r.seq (out ++ [r.key]) it2 h7
          (by simp only [List.length_append, List.length_cons, List.length_nil]; omega) hrem
          (by simp only [List.length_append, List.length_cons, List.length_nil]; omega) hdone'
          (by split <;> omega) (by split <;> omega) (by split <;> omega)
        exact ⟨r.key :: ks, by rw [g1]; simp, fun y hy => by simpa using g2 y hy⟩
    · refine ⟨[], ?_, ?_⟩
      · unfold loop
        rw [h1]
        simp only [h2]
        simp
      · intro y hy
        rw [List.append_nil]
        rcases Nat.lt_or_ge q y.seq with hqy | hqy
        · exact accept_false (h3 y hy (by omega))
        · exact hdone y hy hqy

/-- `exp_cur_seq` never passes `max_seq`: the sums in `loop` do not wrap around as long as they are
    used. -/
theorem next_le {mx s rem : Nat} (hs : s ≤ mx) : ∀ j, j ≤ rem → s + j * ((mx - s) / rem) ≤ mx := by
  intro j hj
  have h1 : j * ((mx - s) / rem) ≤ rem * ((mx - s) / rem) := Nat.mul_le_mul_right _ hj
  have h2 := Nat.mul_div_le (mx - s) rem
  omega

end Jungle.Sampler
