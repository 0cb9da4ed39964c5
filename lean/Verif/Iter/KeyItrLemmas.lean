/-
  The iterator of a handle as a cursor, and moves that skip deleted keys.
-/
import Verif.Iter.TabItrLemmas
import Verif.Table.Order
import Verif.Iter.Client
import Verif.Spec.Iter

set_option linter.unusedSectionVars false

namespace Jungle.Iter
open Spec
variable {K : Type} [LinearOrder K]

abbrev keySpec (X : (Rec K → Prop) → Prop) (lo hi : Option K) : CSpec (KeyIt K) (Rec K) K :=
  mergeSpec keyPar (sumSpec (logSpec X lo hi) (tabSpec X lo hi))

theorem key_laws (X : (Rec K → Prop) → Prop) (lo hi : Option K) :
    Laws keyPar (keyOps (K := K)) (keySpec X lo hi) :=
  merge_laws (sum_laws (log_laws X lo hi) (tab_laws X lo hi)) keyPar_rank

section Moves
variable {X : (Rec K → Prop) → Prop} {lo hi : Option K} {Q : Rec K → Prop}

/-- `e'` is the first insertion of `Q` beyond `e` in direction `d`. -/
def NextLive (d : Dir) (Q : Rec K → Prop) (e e' : Rec K) : Prop :=
  Q e' ∧ e'.isIns = true ∧ dlt d e.key e'.key ∧
    ∀ y, Q y → y.isIns = true → dlt d e.key y.key → ¬ dlt d y.key e'.key

/-- There is no insertion of `Q` beyond `e` in direction `d`. -/
def EndLive (d : Dir) (Q : Rec K → Prop) (e : Rec K) : Prop :=
  ∀ y, Q y → y.isIns = true → ¬ dlt d e.key y.key

theorem keyRounds_spec {d : Dir} : ∀ (n : Nat) {it : KeyIt K} {e : Rec K} {m : Mode},
    (keySpec X lo hi).Rep it Q e m → m.can d → keyOps.left d it < n →
    (∃ it' e', keyRounds d n it = (.ok, it') ∧ (keySpec X lo hi).Rep it' Q e' (m.after d) ∧
      NextLive d Q e e') ∨
    (∃ it' e', keyRounds d n it = (.outOfRange, it') ∧ (keySpec X lo hi).Rep it' Q e' (m.after d) ∧
      EndLive d Q e ∧ (e' = e ∨ e'.isIns = false)) := by
  intro n
  induction n with
  | zero => intro it e m _ _ hn; exact absurd hn (by omega)
  | succ n ih =>
    intro it e m hr hc hn
    have hl := key_laws (K := K) X lo hi
    rcases hl.step hr hc with ⟨s', e', h1, h2, h3, h4⟩ | ⟨s', h1, h2, h3, h4⟩
    · have hcur : s'.cur = some e' := hl.get h3
      by_cases hins : e'.isIns = true
      · left
        refine ⟨s', e', ?_, h3, h2.1, hins, h2.2.1, fun y hy _ hd => h2.2.2 y hy hd⟩
        unfold keyRounds
        rw [h1]; simp only; rw [hcur]; simp only; rw [if_pos hins]
      · have hrun : keyRounds d (n + 1) it = keyRounds d n s' := by
          conv => lhs; unfold keyRounds
          rw [h1]; simp only; rw [hcur]; simp only; rw [if_neg hins]
        have key : ∀ y, Q y → y.isIns = true → dlt d e.key y.key → dlt d e'.key y.key := by
          intro y hy hyi hd
          rcases dlt_tri d e'.key y.key with h | h | h
          · exact h
          · have := hl.inj hr e' y h2.1 hy h
            rw [this] at hins; exact absurd hyi hins
          · exact absurd h (h2.2.2 y hy hd)
        rw [hrun]
        rcases ih h3 (m.after_can hc) (by omega) with ⟨it', e'', g1, g2, g3⟩ | ⟨it', e'', g1, g2, g3, g4⟩
        · left
          refine ⟨it', e'', g1, by rw [Mode.after_after] at g2; exact g2, g3.1, g3.2.1,
            dlt_trans h2.2.1 g3.2.2.1, ?_⟩
          intro y hy hyi hd
          exact g3.2.2.2 y hy hyi (key y hy hyi hd)
        · right
          refine ⟨it', e'', g1, by rw [Mode.after_after] at g2; exact g2, ?_, ?_⟩
          · intro y hy hyi hd
            exact g3 y hy hyi (key y hy hyi hd)
          · right
            rcases g4 with g4 | g4
            · rw [g4]; simpa using hins
            · exact g4
    · right
      refine ⟨s', e, ?_, h3, fun y hy _ => h2 y hy, Or.inl rfl⟩
      unfold keyRounds
      rw [h1]

/-- A move of a handle's iterator. -/
theorem keyStep_spec {d : Dir} {it : KeyIt K} {e : Rec K} {m : Mode}
    (hr : (keySpec X lo hi).Rep it Q e m) (hc : m.can d) :
    (∃ it' e', keyStep d it = (.ok, it') ∧ (keySpec X lo hi).Rep it' Q e' (m.after d) ∧
      NextLive d Q e e') ∨
    (∃ it' e', keyStep d it = (.outOfRange, it') ∧ (keySpec X lo hi).Rep it' Q e' (m.after d) ∧
      EndLive d Q e ∧ (e' = e ∨ e'.isIns = false)) := by
  have hcur : it.cur = some e := (key_laws (K := K) X lo hi).get hr
  unfold keyStep
  rw [hcur]
  simp only [Option.isNone_some, Bool.false_eq_true, if_false]
  exact keyRounds_spec _ hr hc (Nat.lt_succ_self _)

/-- Skipping deleted keys. -/
theorem skipDel_spec {d : Dir} {it : KeyIt K} {e : Rec K} {m : Mode}
    (hr : (keySpec X lo hi).Rep it Q e m) (hc : m.can d) :
    ∃ e', (keySpec X lo hi).Rep (skipDel d it) Q e' (if e.isIns then m else m.after d) ∧
      ((e' = e ∧ e.isIns = true) ∨ (e.isIns = false ∧ NextLive d Q e e') ∨
       (e.isIns = false ∧ EndLive d Q e ∧ e'.isIns = false)) := by
  have hcur : it.cur = some e := (key_laws (K := K) X lo hi).get hr
  unfold skipDel
  rw [hcur]
  simp only
  by_cases hi' : e.isIns = true
  · simp only [hi', if_true]
    exact ⟨e, hr, Or.inl ⟨rfl, trivial⟩⟩
  · simp only [hi', Bool.false_eq_true, if_false]
    rcases keyStep_spec hr hc with ⟨it', e', h1, h2, h3⟩ | ⟨it', e', h1, h2, h3, h4⟩
    · rw [h1]; exact ⟨e', h2, Or.inr (Or.inl ⟨trivial, h3⟩)⟩
    · rw [h1]
      refine ⟨e', h2, Or.inr (Or.inr ⟨trivial, h3, ?_⟩)⟩
      rcases h4 with h4 | h4
      · rw [h4]; simpa using hi'
      · exact h4

theorem keyGet_ins {it : KeyIt K} {e : Rec K} {m : Mode} (hr : (keySpec X lo hi).Rep it Q e m)
    (hi' : e.isIns = true) : keyGet it = (.ok, some e) := by
  have hcur : it.cur = some e := (key_laws (K := K) X lo hi).get hr
  unfold keyGet; rw [hcur]; simp [hi']

theorem keyGet_del {it : KeyIt K} {e : Rec K} {m : Mode} (hr : (keySpec X lo hi).Rep it Q e m)
    (hi' : e.isIns = false) : keyGet it = (.keyNotFound, none) := by
  have hcur : it.cur = some e := (key_laws (K := K) X lo hi).get hr
  unfold keyGet; rw [hcur]; simp [hi']

end Moves

/-! ### Positions in the list of live records -/

section Pos
variable {X : (Rec K → Prop) → Prop} {lo hi : Option K} {Q : Rec K → Prop} {L : List (Rec K)}

/-- `L` lists the insertions of `Q` in order. -/
structure Lists (Q : Rec K → Prop) (L : List (Rec K)) : Prop where
  sorted : L.Pairwise (fun a b => a.key < b.key)
  mem : ∀ e, e ∈ L ↔ Q e ∧ e.isIns = true

theorem Lists.lt (h : Lists Q L) {i j : Nat} {a b : Rec K} (ha : L[i]? = some a) (hb : L[j]? = some b)
    (hk : a.key < b.key) : i < j := by
  obtain ⟨hi, rfl⟩ := List.getElem?_eq_some_iff.1 ha
  obtain ⟨hj, rfl⟩ := List.getElem?_eq_some_iff.1 hb
  by_contra hc
  rcases Nat.lt_or_ge j i with h1 | h1
  · exact lt_asymm hk (List.pairwise_iff_getElem.1 h.sorted j i hj hi h1)
  · have : i = j := by omega
    subst this; exact lt_irrefl _ hk

theorem Lists.key_lt (h : Lists Q L) {i j : Nat} {a b : Rec K} (ha : L[i]? = some a) (hb : L[j]? = some b)
    (hij : i < j) : a.key < b.key := by
  obtain ⟨hi, rfl⟩ := List.getElem?_eq_some_iff.1 ha
  obtain ⟨hj, rfl⟩ := List.getElem?_eq_some_iff.1 hb
  exact List.pairwise_iff_getElem.1 h.sorted i j hi hj hij

theorem Lists.get (h : Lists Q L) {i : Nat} (hi : i < L.length) :
    ∃ e, L[i]? = some e ∧ Q e ∧ e.isIns = true := by
  refine ⟨L[i], by simp [hi], (h.mem _).1 (List.getElem_mem hi)⟩

theorem Lists.next_fwd (h : Lists Q L) {i : Nat} {e e' : Rec K} (hi : L[i]? = some e)
    (hn : NextLive .fwd Q e e') : L[i + 1]? = some e' := by
  obtain ⟨j, hj⟩ := List.getElem?_of_mem ((h.mem e').2 ⟨hn.1, hn.2.1⟩)
  have hij := h.lt hi hj hn.2.2.1
  by_cases he : j = i + 1
  · rw [← he]; exact hj
  · exfalso
    have hjl : j < L.length := (List.getElem?_eq_some_iff.1 hj).1
    obtain ⟨y, hy, hq, hyi⟩ := h.get (i := i + 1) (by omega)
    exact hn.2.2.2 y hq hyi (h.key_lt hi hy (by omega)) (h.key_lt hy hj (by omega))

theorem Lists.next_bwd (h : Lists Q L) {i : Nat} {e e' : Rec K} (hi : L[i]? = some e)
    (hn : NextLive .bwd Q e e') : 0 < i ∧ L[i - 1]? = some e' := by
  obtain ⟨j, hj⟩ := List.getElem?_of_mem ((h.mem e').2 ⟨hn.1, hn.2.1⟩)
  have hij := h.lt hj hi hn.2.2.1
  refine ⟨by omega, ?_⟩
  by_cases he : j = i - 1
  · rw [← he]; exact hj
  · exfalso
    have hil : i < L.length := (List.getElem?_eq_some_iff.1 hi).1
    obtain ⟨y, hy, hq, hyi⟩ := h.get (i := i - 1) (by omega)
    exact hn.2.2.2 y hq hyi (h.key_lt hy hi (by omega)) (h.key_lt hj hy (by omega))

theorem Lists.end_fwd (h : Lists Q L) {i : Nat} {e : Rec K} (hi : L[i]? = some e)
    (hn : EndLive .fwd Q e) : ¬ i + 1 < L.length := by
  intro hlt
  obtain ⟨y, hy, hq, hyi⟩ := h.get hlt
  exact hn y hq hyi (h.key_lt hi hy (by omega))

theorem Lists.end_bwd (h : Lists Q L) {i : Nat} {e : Rec K} (hi : L[i]? = some e)
    (hn : EndLive .bwd Q e) : ¬ 0 < i := by
  intro hlt
  have hil : i < L.length := (List.getElem?_eq_some_iff.1 hi).1
  obtain ⟨y, hy, hq, hyi⟩ := h.get (i := i - 1) (by omega)
  exact hn y hq hyi (h.key_lt hy hi (by omega))

/-- The moves a mode allows. -/
def Mode.allows : Mode → List Bool → Prop
  | _, [] => True
  | m, b :: bs => m.can (dirOf b) ∧ (m.after (dirOf b)).allows bs

theorem Mode.allows_free (bs : List Bool) : Mode.free.allows bs := by
  induction bs with
  | nil => trivial
  | cons b bs ih => exact ⟨trivial, ih⟩

theorem Mode.allows_only (b : Bool) (n : Nat) : (Mode.only (dirOf b)).allows (List.replicate n b) := by
  induction n with
  | zero => trivial
  | succ n ih => exact ⟨rfl, ih⟩

theorem Mode.allows_fresh (b : Bool) (n n' : Nat) :
    (Mode.fresh (dirOf b)).allows (List.replicate n b ++ List.replicate n' (!b)) := by
  induction n with
  | zero =>
    cases n' with
    | zero => trivial
    | succ n' =>
      refine ⟨trivial, ?_⟩
      have : (Mode.fresh (dirOf b)).after (dirOf (!b)) = .only (dirOf (!b)) := by cases b <;> rfl
      rw [this]; exact Mode.allows_only _ _
  | succ n ih =>
    refine ⟨trivial, ?_⟩
    have : (Mode.fresh (dirOf b)).after (dirOf b) = .fresh (dirOf b) := by cases b <;> rfl
    rw [this]; exact ih

/-- Moves from a position of the list. -/
theorem keyRun_spec (h : Lists Q L) : ∀ (bs : List Bool) {i : Nat} {it : KeyIt K} {e : Rec K} {m : Mode},
    L[i]? = some e → (keySpec X lo hi).Rep it Q e m → m.allows bs → keyRun it bs = moves L i bs := by
  intro bs
  induction bs with
  | nil => intro i it e m _ _ _; cases it; rfl
  | cons b bs ih =>
    intro i it e m hi' hr hm
    have hlast : ∀ {it' : KeyIt K} {e' : Rec K} {m' : Mode}, (keySpec X lo hi).Rep it' Q e' m' →
        e'.isIns = true → (keyGet it').2 = some e' := by
      intro it' e' m' hr' hins
      rw [keyGet_ins hr' hins]
    cases b with
    | true =>
      unfold keyRun moves
      rcases keyStep_spec hr hm.1 with ⟨it', e', h1, h2, h3⟩ | ⟨it', e', h1, h2, h3, _⟩
      · have hn := h.next_fwd hi' h3
        have hlt : i + 1 < L.length := (List.getElem?_eq_some_iff.1 hn).1
        have h1' : keyStep (dirOf true) it = (.ok, it') := h1
        rw [h1', if_pos hlt]
        simp only
        rw [hlast h2 h3.2.1, hn, ih hn h2 hm.2]
      · have h1' : keyStep (dirOf true) it = (.outOfRange, it') := h1
        rw [h1', if_neg (h.end_fwd hi' h3)]
    | false =>
      unfold keyRun moves
      rcases keyStep_spec hr hm.1 with ⟨it', e', h1, h2, h3⟩ | ⟨it', e', h1, h2, h3, _⟩
      · have hn := h.next_bwd hi' h3
        have h1' : keyStep (dirOf false) it = (.ok, it') := h1
        rw [h1', if_pos hn.1]
        simp only
        rw [hlast h2 h3.2.1, hn.2, ih hn.2 h2 hm.2]
      · have h1' : keyStep (dirOf false) it = (.outOfRange, it') := h1
        rw [h1', if_neg (h.end_bwd hi' h3)]

/-- Reading everything from a position on. -/
theorem keyAll_fwd (h : Lists Q L) : ∀ (n i : Nat) {it : KeyIt K} {e : Rec K} {m : Mode},
    L[i]? = some e → (keySpec X lo hi).Rep it Q e m → m.can .fwd → L.length ≤ i + n →
    keyAll .fwd n it = L.drop i := by
  intro n
  induction n with
  | zero =>
    intro i it e m hi' _ _ hn
    have := (List.getElem?_eq_some_iff.1 hi').1
    omega
  | succ n ih =>
    intro i it e m hi' hr hm hn
    have hil := (List.getElem?_eq_some_iff.1 hi').1
    have hins := ((h.mem e).1 (List.mem_of_getElem? hi')).2
    have hd : L.drop i = e :: L.drop (i + 1) := by
      rw [List.drop_eq_getElem_cons hil, (List.getElem?_eq_some_iff.1 hi').2]
    unfold keyAll
    rw [keyGet_ins hr hins, hd]
    simp only
    rcases keyStep_spec hr hm with ⟨it', e', h1, h2, h3⟩ | ⟨it', e', h1, h2, h3, _⟩
    · rw [h1]
      simp only
      rw [ih (i + 1) (h.next_fwd hi' h3) h2 (m.after_can hm) (by omega)]
    · rw [h1]
      simp only
      rw [List.drop_eq_nil_of_le]
      have := h.end_fwd hi' h3
      omega

theorem keyAll_bwd (h : Lists Q L) : ∀ (n i : Nat) {it : KeyIt K} {e : Rec K} {m : Mode},
    L[i]? = some e → (keySpec X lo hi).Rep it Q e m → m.can .bwd → i < n →
    keyAll .bwd n it = (L.take (i + 1)).reverse := by
  intro n
  induction n with
  | zero => intro i it e m _ _ _ hn; omega
  | succ n ih =>
    intro i it e m hi' hr hm hn
    have hil := (List.getElem?_eq_some_iff.1 hi').1
    have hins := ((h.mem e).1 (List.mem_of_getElem? hi')).2
    have hd : (L.take (i + 1)).reverse = e :: (L.take i).reverse := by
      rw [List.take_succ_eq_append_getElem hil, (List.getElem?_eq_some_iff.1 hi').2]; simp
    unfold keyAll
    rw [keyGet_ins hr hins, hd]
    simp only
    rcases keyStep_spec hr hm with ⟨it', e', h1, h2, h3⟩ | ⟨it', e', h1, h2, h3, _⟩
    · have hn' := h.next_bwd hi' h3
      rw [h1]
      simp only
      rw [ih (i - 1) hn'.2 h2 (m.after_can hm) (by omega)]
      have : i - 1 + 1 = i := by omega
      rw [this]
    · rw [h1]
      simp only
      have := h.end_bwd hi' h3
      have h0 : i = 0 := by omega
      subst h0; rfl

end Pos
end Jungle.Iter
