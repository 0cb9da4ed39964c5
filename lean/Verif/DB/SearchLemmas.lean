/-
  What the prefix search reports.
-/
import Verif.DB.Search
import Verif.Iter.KeyDBLemmas
import Verif.Spec.Search

set_option linter.unusedSectionVars false

namespace Jungle
open Iter Spec
variable {K : Type} [LinearOrder K]

theorem told_append (cb : Cb K) (xs ys out : List (Rec K)) :
    told cb (xs ++ ys) out = if (told cb xs out).1 then told cb xs out else told cb ys (told cb xs out).2 := by
  induction xs generalizing out with
  | nil => simp [told]
  | cons r rs ih =>
    have hc : ∀ zs, told cb (r :: zs) out = if cb out r then (true, out ++ [r]) else told cb zs (out ++ [r]) := fun _ => rfl
    rw [List.cons_append, hc, hc]
    by_cases h : cb out r = true
    · simp [h]
    · simp only [h, Bool.false_eq_true, if_false]
      rw [ih]

/-! ### one table -/

theorem find_head (recs : SMap K (Rec K)) (strict : Bool) (k : K) :
    nearestUp recs strict k =
      ((recs.filter (fun e => if strict then decide (k < e.1) else decide (k ≤ e.1))).head?).map (·.2) := by
  unfold nearestUp
  rw [← List.head?_filter]

theorem rest_tail {recs : SMap K (Rec K)} (hs : recs.Sorted) {strict : Bool} {k : K} {e : K × Rec K} {tl : List (K × Rec K)}
    (h : recs.filter (fun e => if strict then decide (k < e.1) else decide (k ≤ e.1)) = e :: tl) :
    recs.filter (fun x => decide (e.1 < x.1)) = tl := by
  have hk : k ≤ e.1 := by
    have : e ∈ recs.filter (fun e => if strict then decide (k < e.1) else decide (k ≤ e.1)) := by rw [h]; simp
    have := (List.mem_filter.1 this).2
    cases strict
    · simpa using this
    · have : k < e.1 := by simpa using this
      exact le_of_lt this
  have h1 : recs.filter (fun x => decide (e.1 < x.1)) =
      (recs.filter (fun e => if strict then decide (k < e.1) else decide (k ≤ e.1))).filter (fun x => decide (e.1 < x.1)) := by
    rw [List.filter_filter]
    apply List.filter_congr
    intro x _
    by_cases hx : e.1 < x.1
    · have : k < x.1 := lt_of_le_of_lt hk hx
      cases strict <;> simp [hx, this, le_of_lt this]
    · simp [hx]
  have hsub : (e :: tl).Sublist recs := h ▸ List.filter_sublist
  have hp : List.Pairwise (fun a b : K × Rec K => a.1 < b.1) (e :: tl) := List.Pairwise.sublist hsub hs
  rw [h1, h]
  rw [List.filter_cons_of_neg (by simp)]
  apply List.filter_eq_self.2
  intro x hx
  simpa using (List.pairwise_cons.1 hp).1 x hx

/-- The records of a table the search reports. -/
def Tab.hits (x : Tab K) (P : Pfx K) : List (Rec K) :=
  ((x.recs.filter (fun e => decide (P.key ≤ e.1))).takeWhile (fun e => P.hit e.1)).map (·.2)

theorem tabLoop_spec (P : Pfx K) (cb : Cb K) {recs : SMap K (Rec K)} (hs : recs.Sorted)
    (hk : ∀ e ∈ recs, e.2.key = e.1) : ∀ (n : Nat) (strict : Bool) (last : K) (out : List (Rec K)) (R : List (K × Rec K)),
    recs.filter (fun e => if strict then decide (last < e.1) else decide (last ≤ e.1)) = R → R.length < n →
    ∃ s, (s = .ok ∨ s = .keyNotFound) ∧
    tabPrefixLoop P cb recs n strict last out =
      (let t := told cb ((R.takeWhile (fun e => P.hit e.1)).map (·.2)) out
       (if t.1 then .operationStopped else s, t.2)) := by
  intro n
  induction n with
  | zero => intro _ _ _ _ _ h; exact absurd h (by omega)
  | succ n ih =>
    intro strict last out R hR hn
    unfold tabPrefixLoop
    rw [find_head, hR]
    cases R with
    | nil => exact ⟨.keyNotFound, Or.inr rfl, rfl⟩
    | cons e tl =>
      have hmem : e ∈ recs := by
        have : e ∈ recs.filter (fun e => if strict then decide (last < e.1) else decide (last ≤ e.1)) := by rw [hR]; simp
        exact (List.mem_filter.1 this).1
      have he := hk e hmem
      simp only [List.head?_cons, Option.map_some]
      rw [he]
      by_cases hh : P.hit e.1 = true
      · simp only [hh, Bool.true_eq_false, if_false]
        have htw : ((e :: tl).takeWhile (fun e => P.hit e.1)).map (·.2) = e.2 :: (tl.takeWhile (fun e => P.hit e.1)).map (·.2) := by
          rw [List.takeWhile_cons, if_pos hh]; rfl
        rw [htw]
        by_cases hc : cb out e.2 = true
        · refine ⟨.ok, Or.inl rfl, ?_⟩
          unfold told
          simp [hc]
        · simp only [hc, Bool.false_eq_true, if_false]
          obtain ⟨s, h1, h2⟩ := ih true e.1 (out ++ [e.2]) tl (by
            have := rest_tail hs hR
            simpa using this) (by simp at hn; omega)
          refine ⟨s, h1, ?_⟩
          rw [h2]
          conv => rhs; unfold told
          simp only [hc, Bool.false_eq_true, if_false]
      · refine ⟨.ok, Or.inl rfl, ?_⟩
        have htw : (e :: tl).takeWhile (fun e => P.hit e.1) = [] := by
          rw [List.takeWhile_cons, if_neg hh]
        simp only [hh]
        rw [htw]
        rfl

theorem Tab.getPrefix_spec (x : Tab K) (P : Pfx K) (cb : Cb K) (hs : x.recs.Sorted)
    (hk : ∀ e ∈ x.recs, e.2.key = e.1) (out : List (Rec K)) : ∃ s, (s = .ok ∨ s = .keyNotFound) ∧
    x.getPrefix P cb out = (if (told cb (x.hits P) out).1 then .operationStopped else s, (told cb (x.hits P) out).2) := by
  unfold Tab.getPrefix
  exact tabLoop_spec P cb hs hk (x.recs.length + 1) false P.key out _ rfl
    (Nat.lt_succ_of_le (List.length_filter_le _ _))

theorem of_mem_takeWhile {α : Type} {p : α → Bool} : ∀ {l : List α} {x : α}, x ∈ l.takeWhile p → p x = true := by
  intro l
  induction l with
  | nil => intro x hx; cases hx
  | cons a l ih =>
    intro x hx
    rw [List.takeWhile_cons] at hx
    split at hx
    · next h =>
      rcases List.mem_cons.1 hx with rfl | hx
      · exact h
      · exact ih hx
    · cases hx

theorem mem_takeWhile_of {α : Type} {p : α → Bool} : ∀ {l : List α} {x : α}, x ∈ l → p x = true →
    l.Pairwise (fun a b => p b = true → p a = true) → x ∈ l.takeWhile p := by
  intro l
  induction l with
  | nil => intro x hx; cases hx
  | cons a l ih =>
    intro x hx hp hpw
    have hpa : p a = true := by
      rcases List.mem_cons.1 hx with rfl | hx
      · exact hp
      · exact (List.pairwise_cons.1 hpw).1 x hx hp
    rw [List.takeWhile_cons, if_pos hpa]
    rcases List.mem_cons.1 hx with rfl | hx
    · simp
    · exact List.mem_cons_of_mem _ (ih hx hp (List.pairwise_cons.1 hpw).2)

theorem Tab.mem_hits {x : Tab K} {P : Pfx K} (hs : x.recs.Sorted) (hk : ∀ e ∈ x.recs, e.2.key = e.1) (r : Rec K) :
    r ∈ x.hits P ↔ x.get r.key = some r ∧ P.hit r.key = true := by
  unfold Tab.hits
  rw [List.mem_map]
  constructor
  · rintro ⟨e, he, rfl⟩
    have h1 := of_mem_takeWhile he
    have h2 := (List.mem_filter.1 (List.takeWhile_subset _ he)).1
    have h3 := hk e h2
    rw [h3]
    exact ⟨(SMap.mem_iff_find? hs).1 h2, h1⟩
  · rintro ⟨h1, h2⟩
    have hm := SMap.find?_some_mem h1
    refine ⟨(r.key, r), ?_, rfl⟩
    apply mem_takeWhile_of
    · exact List.mem_filter.2 ⟨hm, by simpa using P.ge _ h2⟩
    · exact h2
    · have : (x.recs.filter (fun e => decide (P.key ≤ e.1))).Pairwise (fun a b => a.1 < b.1) :=
        List.Pairwise.sublist List.filter_sublist hs
      apply List.Pairwise.imp_of_mem _ this
      intro a b ha _ hab hb
      have := (List.mem_filter.1 ha).2
      exact P.conv _ _ (by simpa using this) (le_of_lt hab) hb

/-! ### all tables -/

/-- A table whose records can be searched. -/
def Tab.Ok (x : Tab K) : Prop := x.recs.Sorted ∧ ∀ e ∈ x.recs, e.2.key = e.1

theorem scanPrefix_spec (P : Pfx K) (cb : Cb K) : ∀ (l : List (Tab K)) (s : Status) (out : List (Rec K)),
    (s = .ok ∨ s = .keyNotFound) → (∀ x ∈ l, x.Ok) →
    ∃ s', ((told cb (l.flatMap (·.hits P)) out).1 = false → s' = .ok ∨ s' = .keyNotFound) ∧
      ((told cb (l.flatMap (·.hits P)) out).1 = true → s' = .operationStopped) ∧
      scanPrefix P cb l s out = ((told cb (l.flatMap (·.hits P)) out).1, s', (told cb (l.flatMap (·.hits P)) out).2) := by
  intro l
  induction l with
  | nil => intro s out hs _; exact ⟨s, fun _ => hs, fun h => by simp [told] at h, rfl⟩
  | cons x xs ih =>
    intro s out hs hok
    obtain ⟨s1, h1, h2⟩ := x.getPrefix_spec P cb (hok x List.mem_cons_self).1 (hok x List.mem_cons_self).2 out
    rw [List.flatMap_cons, told_append]
    unfold scanPrefix
    rw [h2]
    by_cases hst : (told cb (x.hits P) out).1 = true
    · simp only [hst, if_true]
      exact ⟨.operationStopped, fun h => by simp at h, fun _ => rfl, rfl⟩
    · simp only [hst, Bool.false_eq_true, if_false]
      obtain ⟨s', g1, g2, g3⟩ := ih s1 (told cb (x.hits P) out).2 h1 (fun y hy => hok y (List.mem_cons_of_mem _ hy))
      refine ⟨s', g1, g2, ?_⟩
      rcases h1 with rfl | rfl
      · exact g3
      · exact g3

theorem levelsPrefix_spec (P : Pfx K) (cb : Cb K) : ∀ (ls : List (List (Tab K))) (s : Status) (out : List (Rec K)),
    (s = .ok ∨ s = .keyNotFound) → (∀ l ∈ ls, ∀ x ∈ l, x.Ok) →
    ∃ s', ((told cb (ls.flatten.flatMap (·.hits P)) out).1 = false → s' = .ok ∨ s' = .keyNotFound) ∧
      ((told cb (ls.flatten.flatMap (·.hits P)) out).1 = true → s' = .operationStopped) ∧
      levelsPrefix P cb ls s out = (s', (told cb (ls.flatten.flatMap (·.hits P)) out).2) := by
  intro ls
  induction ls with
  | nil => intro s out hs _; exact ⟨s, fun _ => hs, fun h => by simp [told] at h, rfl⟩
  | cons l ls ih =>
    intro s out hs hok
    obtain ⟨s1, h1, h2, h3⟩ := scanPrefix_spec P cb l .ok out (Or.inl rfl) (hok l List.mem_cons_self)
    rw [List.flatten_cons, List.flatMap_append, told_append]
    unfold levelsPrefix
    rw [h3]
    by_cases hst : (told cb (l.flatMap (·.hits P)) out).1 = true
    · simp only [hst, if_true]
      exact ⟨s1, fun h => by simp at h, fun _ => h2 hst, rfl⟩
    · simp only [hst, Bool.false_eq_true, if_false]
      obtain ⟨s', g1, g2, g3⟩ := ih s1 (told cb (l.flatMap (·.hits P)) out).2 (h1 (by simpa using hst))
        (fun y hy => hok y (List.mem_cons_of_mem _ hy))
      exact ⟨s', g1, g2, g3⟩

/-- At most one table begins inside the prefix range. -/
def Spans2 (l : List (Tab K)) (P : Pfx K) : Prop :=
  (l.filter (fun x => decide (P.key < x.minKey) && P.hit x.minKey)).length ≤ 1

theorem fromCursor_spec : ∀ (l : List (Tab K)) (k : K), l.Pairwise (fun a b => a.minKey < b.minKey) →
    ∃ pre, l = pre ++ fromCursor l k ∧
      (pre ≠ [] → ∃ a s, fromCursor l k = a :: s ∧ a.minKey ≤ k) ∧
      ∀ a s, fromCursor l k = a :: s → ∀ y ∈ s, k < y.minKey
  | [], k, _ => ⟨[], rfl, fun h => absurd rfl h, fun a s h => by simp [fromCursor] at h⟩
  | [x], k, _ => ⟨[], rfl, fun h => absurd rfl h, fun a s h => by
      simp only [fromCursor, List.cons.injEq] at h
      rw [← h.2]; simp⟩
  | x :: y :: xs, k, hs => by
    by_cases hy : y.minKey ≤ k
    · obtain ⟨pre, h1, h2, h3⟩ := fromCursor_spec (y :: xs) k (List.pairwise_cons.1 hs).2
      have he : fromCursor (x :: y :: xs) k = fromCursor (y :: xs) k := by
        conv => lhs; unfold fromCursor
        rw [if_pos hy]
      refine ⟨x :: pre, by rw [he, List.cons_append, ← h1], fun _ => ?_, by rw [he]; exact h3⟩
      rw [he]
      by_cases hp : pre = []
      · subst hp
        exact ⟨y, xs, by simpa using h1.symm, hy⟩
      · exact h2 hp
    · have he : fromCursor (x :: y :: xs) k = x :: y :: xs := by
        conv => lhs; unfold fromCursor
        rw [if_neg hy]
      refine ⟨[], by rw [he]; rfl, fun h => absurd rfl h, ?_⟩
      intro a s h
      rw [he] at h
      obtain ⟨rfl, rfl⟩ := List.cons.inj h
      intro z hz
      have hlt : k < y.minKey := lt_of_not_ge hy
      rcases List.mem_cons.1 hz with rfl | hz
      · exact hlt
      · exact lt_trans hlt ((List.pairwise_cons.1 (List.pairwise_cons.1 hs).2).1 z hz)

theorem tablesPrefix_sub {l : List (Tab K)} {P : Pfx K} {x : Tab K}
    (hs : l.Pairwise (fun a b => a.minKey < b.minKey)) (h : x ∈ tablesPrefix l P) : x ∈ l := by
  obtain ⟨pre, h1, -, -⟩ := fromCursor_spec l P.key hs
  rw [h1]
  apply List.mem_append_right
  unfold tablesPrefix at h
  split at h
  · cases h
  · next y he => rw [he]; exact h
  · next y z zs he =>
    rw [he]
    split at h
    · simp only [List.mem_cons, List.not_mem_nil, or_false] at h
      rcases h with rfl | rfl <;> simp
    · simp only [List.mem_cons, List.not_mem_nil, or_false] at h
      subst h; simp

theorem tablesPrefix_complete [OrderBot K] {l : List (Tab K)} {P : Pfx K} (hl : TMgr.LevelOk l) (hsp : Spans2 l P) {x : Tab K}
    {r : Rec K} (hx : x ∈ l) (hg : x.get r.key = some r) (hh : P.hit r.key = true) : x ∈ tablesPrefix l P := by
  have hm := SMap.find?_some_mem hg
  have hle : x.minKey ≤ r.key := ((hl.tab x hx).2.1 _ hm).2
  have hge := P.ge _ hh
  obtain ⟨pre, h1, h2, h3⟩ := fromCursor_spec l P.key hl.sorted
  have hxs : x ∈ fromCursor l P.key := by
    have hx' := hx
    rw [h1] at hx'
    rcases List.mem_append.1 hx' with hp | hp
    · exfalso
      obtain ⟨a, s, ha, hak⟩ := h2 (List.ne_nil_of_mem hp)
      have hal : a ∈ l := by rw [h1, ha]; simp
      have hsrt := hl.sorted
      rw [h1, ha] at hsrt
      have hlt := (List.pairwise_append.1 hsrt).2.2 x hp a List.mem_cons_self
      have := hl.range x hx a hal hlt _ hm
      exact absurd (lt_of_lt_of_le this (le_trans hak hge)) (lt_irrefl _)
    · exact hp
  have hin : ∀ y : Tab K, P.key < y.minKey → y.minKey ≤ r.key → P.hit y.minKey = true :=
    fun y a b => P.conv _ _ (le_of_lt a) b hh
  unfold tablesPrefix
  cases hc : fromCursor l P.key with
  | nil => rw [hc] at hxs; cases hxs
  | cons a s =>
    rw [hc] at hxs
    cases s with
    | nil => exact hxs
    | cons b s =>
      simp only
      have hb : P.key < b.minKey := h3 a (b :: s) hc b List.mem_cons_self
      rcases List.mem_cons.1 hxs with rfl | hxs
      · split <;> simp
      · rcases List.mem_cons.1 hxs with rfl | hxs
        · rw [if_pos (hin x hb hle)]; simp
        · exfalso
          have hsrt := hl.sorted
          rw [h1, hc] at hsrt
          have hsrt2 := (List.pairwise_append.1 hsrt).2.1
          have hbx : b.minKey < x.minKey :=
            (List.pairwise_cons.1 (List.pairwise_cons.1 hsrt2).2).1 x hxs
          have hbh := hin b hb (le_of_lt (lt_of_lt_of_le hbx hle))
          have hxh := hin x (lt_trans hb hbx) hle
          unfold Spans2 at hsp
          rw [h1, hc, List.filter_append, List.length_append] at hsp
          have h4 : 2 ≤ ((a :: b :: s).filter (fun x => decide (P.key < x.minKey) && P.hit x.minKey)).length := by
            have hsub : [b, x].Sublist (a :: b :: s) := by
              refine List.Sublist.cons _ (List.Sublist.cons_cons _ ?_)
              exact List.singleton_sublist.2 hxs
            have := (hsub.filter (fun x => decide (P.key < x.minKey) && P.hit x.minKey)).length_le
            have h5 : [b, x].filter (fun x => decide (P.key < x.minKey) && P.hit x.minKey) = [b, x] := by
              simp [hb, hbh, hxh, lt_trans hb hbx]
            rw [h5] at this
            simpa using this
          omega

/-! ### the log section -/

theorem logLoop_spec (P : Pfx K) {X : (Rec K → Prop) → Prop} {lo hi : Option K} {Q : Rec K → Prop}
    (hQ : ∀ x, Q x → P.key ≤ x.key) : ∀ (n : Nat) {it : LogIt K} {e : Rec K} {m : Mode},
    (logSpec X lo hi).Rep it Q e m → m.can .fwd → logOps.left .fwd it < n →
    ∃ L : List (Rec K), (∀ x, x ∈ L ↔ Q x ∧ P.hit x.key = true ∧ e.key ≤ x.key) ∧
      L.Pairwise (fun a b => a.key < b.key) ∧ ∀ cb out, logPrefixLoop P cb n it out =
        (if (told cb L out).1 then .operationStopped else .ok, (told cb L out).2) := by
  intro n
  induction n with
  | zero => intro it e m _ _ hn; exact absurd hn (by omega)
  | succ n ih =>
    intro it e m hr hc hn
    have hl := log_laws (K := K) X lo hi
    have hget := hl.get hr
    have hQe := hl.mem hr
    by_cases hh : P.hit e.key = true
    · rcases hl.step hr hc with ⟨s', e', h1, h2, h3, h4⟩ | ⟨s', h1, h2, h3, h4⟩
      · obtain ⟨L, g1, g2, g3⟩ := ih h3 (m.after_can hc) (by omega)
        have hlt : e.key < e'.key := h2.2.1
        refine ⟨e :: L, ?_, ?_, ?_⟩
        · intro x
          rw [List.mem_cons, g1]
          constructor
          · rintro (rfl | ⟨a, b, c⟩)
            · exact ⟨hQe, hh, le_refl _⟩
            · exact ⟨a, b, le_trans (le_of_lt hlt) c⟩
          · rintro ⟨a, b, c⟩
            rcases lt_or_eq_of_le c with c | c
            · right
              refine ⟨a, b, ?_⟩
              have := h2.2.2 x a c
              exact le_of_not_gt this
            · left
              exact hl.inj hr x e a hQe c.symm
        · rw [List.pairwise_cons]
          exact ⟨fun x hx => lt_of_lt_of_le hlt ((g1 x).1 hx).2.2, g2⟩
        · intro cb out
          unfold logPrefixLoop
          rw [hget]
          simp only [hh, Bool.true_eq_false, if_false]
          have hc' : told cb (e :: L) out = if cb out e then (true, out ++ [e]) else told cb L (out ++ [e]) := rfl
          rw [hc']
          by_cases hcb : cb out e = true
          · simp [hcb]
          · simp only [hcb, Bool.false_eq_true, if_false]
            rw [h1]
            exact g3 cb (out ++ [e])
      · refine ⟨[e], ?_, by simp, ?_⟩
        · intro x
          rw [List.mem_singleton]
          constructor
          · rintro rfl
            exact ⟨hQe, hh, le_refl _⟩
          · rintro ⟨a, b, c⟩
            rcases lt_or_eq_of_le c with c | c
            · exact absurd c (h2 x a)
            · exact hl.inj hr x e a hQe c.symm
        · intro cb out
          unfold logPrefixLoop
          rw [hget]
          simp only [hh, Bool.true_eq_false, if_false]
          have hc' : told cb [e] out = if cb out e then (true, out ++ [e]) else (false, out ++ [e]) := rfl
          rw [hc']
          by_cases hcb : cb out e = true
          · simp [hcb]
          · simp only [hcb, Bool.false_eq_true, if_false]
            rw [h1]
    · refine ⟨[], ?_, List.Pairwise.nil, ?_⟩
      · intro x
        constructor
        · intro h; cases h
        · rintro ⟨a, b, c⟩
          exact absurd (P.conv _ _ (hQ e hQe) c b) hh
      · intro cb out
        unfold logPrefixLoop
        rw [hget]
        have hh' : P.hit e.key = false := by simpa using hh
        simp [hh', told]

/-- What the log section reports: the newest unflushed record of every matching key, by key. -/
theorem LogInv.getPrefix {l : LogMgr K} {A B : List (Rec K)} (h : LogInv l A B) (P : Pfx K) :
    ∃ L : List (Rec K), (∀ x, x ∈ L ↔ lastWrite B x.key = some x ∧ P.hit x.key = true) ∧
      L.Pairwise (fun a b => a.key < b.key) ∧ ∀ cb, l.getPrefix P cb =
        (if (told cb L []).1 then .operationStopped else .ok, (told cb L []).2) := by
  have ho := log_opened h (some P.key) none (fr := false) (fun h => by cases h) (X := fun _ => True)
    (fun _ _ _ => trivial)
  have hQ : ∀ x, LogQ B (some P.key) none x → P.key ≤ x.key := fun x hx => hx.2.1 _ rfl
  unfold LogMgr.getPrefix
  cases hg : (logOps (K := K)).get (logItr l (some P.key) none) with
  | none =>
    have hno := ho.none hg
    refine ⟨[], ?_, List.Pairwise.nil, ?_⟩
    · intro x
      constructor
      · intro h; cases h
      · rintro ⟨a, b⟩
        exact absurd ⟨a, ⟨fun _ h => by cases h; exact P.ge _ b, fun _ h => by cases h⟩⟩ (hno x)
    · intro cb
      simp only
      unfold logPrefixLoop
      rw [hg]
      rfl
  | some e =>
    obtain ⟨hr, hend⟩ := ho.some e hg
    obtain ⟨L, h1, h2, h3⟩ := logLoop_spec P hQ _ hr (freshMode_can _ _ _) (Nat.lt_succ_self _)
    refine ⟨L, ?_, h2, fun cb => h3 cb []⟩
    intro x
    rw [h1]
    constructor
    · rintro ⟨a, b, -⟩; exact ⟨a.1, b⟩
    · rintro ⟨a, b⟩
      have hq : LogQ B (some P.key) none x := ⟨a, ⟨fun _ h => by cases h; exact P.ge _ b, fun _ h => by cases h⟩⟩
      refine ⟨hq, b, ?_⟩
      have := hend x hq
      exact le_of_not_gt this

/-! ### the table section -/
variable [OrderBot K] {c : TCfg K}

theorem prefixTables_ok {t : TMgr K} (h : TMgr.Inv c t) (P : Pfx K) (ph : Option Nat) :
    ∀ l ∈ t.prefixTables P ph, ∀ x ∈ l, x.Ok := by
  intro l hl x hx
  unfold TMgr.prefixTables at hl
  rcases List.mem_cons.1 hl with rfl | hl
  · have hx0 : x ∈ t.l0 := (List.mem_filter.1 hx).1
    exact ⟨(h.l0Recs x hx0).1, fun e he => ((h.l0Recs x hx0).2 e he).1⟩
  · obtain ⟨l', hl', rfl⟩ := List.mem_map.1 hl
    have hxl := tablesPrefix_sub (h.lv l' hl').sorted hx
    have := (h.lv l' hl').tab x hxl
    exact ⟨this.1, fun e he => (this.2.1 e he).1⟩

/-- The records of a key in the tables. -/
theorem mem_stack_iff {t : TMgr K} (h : TMgr.Inv c t) (r : Rec K) :
    (∃ x, (x ∈ t.l0 ∨ ∃ l ∈ t.lv, x ∈ l) ∧ x.get r.key = some r) ↔ r ∈ TMgr.stack c t r.key := by
  have hsum := itrTables_spec h none none r
  have hra : InRange (none : Option K) none r.key := ⟨fun _ h => (by cases h), fun _ h => (by cases h)⟩
  constructor
  · rintro ⟨x, hx, hg⟩
    rcases hx with hx | ⟨l, hl, hx⟩
    · exact (hsum.1 ⟨x, List.mem_append_left _ hx, hg, hra⟩).1
    · unfold TMgr.stack
      apply List.mem_append_right
      rw [List.mem_filterMap]
      exact ⟨l, hl, (TMgr.look_some_iff (h.lv l hl) _ _).2 ⟨x, hx, hg⟩⟩
  · intro hr
    obtain ⟨x, hx, hg, -⟩ := hsum.2 ⟨hr, hra⟩
    refine ⟨x, ?_, hg⟩
    rcases List.mem_append.1 hx with hx | hx
    · exact Or.inl hx
    · obtain ⟨l, hl, hx⟩ := List.mem_flatMap.1 hx
      refine Or.inr ⟨l, hl, ?_⟩
      obtain ⟨pre, s, h1, _, _, h4⟩ := TMgr.tablesRange_spec (h.lv l hl) ((none : Option K).getD ⊥) none
      rw [h4] at hx
      rw [h1]; exact List.mem_append_right _ (List.mem_filter.1 hx).1

/-- What the tables report. -/
theorem mem_tableHits {t : TMgr K} (h : TMgr.Inv c t) (P : Pfx K) {ph : Option Nat}
    (hph : ∀ n, ph = some n → ∀ k, P.hit k = true → c.hash k = n) (hsp : ∀ l ∈ t.lv, Spans2 l P) (r : Rec K) :
    r ∈ (t.prefixTables P ph).flatten.flatMap (·.hits P) ↔ r ∈ TMgr.stack c t r.key ∧ P.hit r.key = true := by
  have hok := prefixTables_ok h P ph
  have hstack := mem_stack_iff (c := c) h r
  rw [← hstack, List.mem_flatMap]
  constructor
  · rintro ⟨x, hx, hr⟩
    obtain ⟨l, hl, hxl⟩ := List.mem_flatten.1 hx
    have hxo := hok l hl x hxl
    obtain ⟨hg, hh⟩ := (Tab.mem_hits hxo.1 hxo.2 r).1 hr
    refine ⟨⟨x, ?_, hg⟩, hh⟩
    unfold TMgr.prefixTables at hl
    rcases List.mem_cons.1 hl with rfl | hl
    · exact Or.inl (List.mem_filter.1 hxl).1
    · obtain ⟨l', hl', rfl⟩ := List.mem_map.1 hl
      exact Or.inr ⟨l', hl', tablesPrefix_sub (h.lv l' hl').sorted hxl⟩
  · rintro ⟨⟨x, hx, hg⟩, hh⟩
    have hin : ∃ l ∈ t.prefixTables P ph, x ∈ l := by
      unfold TMgr.prefixTables
      rcases hx with hx | ⟨l, hl, hx⟩
      · refine ⟨_, List.mem_cons_self, ?_⟩
        unfold TMgr.tablesByHash
        refine List.mem_filter.2 ⟨hx, ?_⟩
        cases hp : ph with
        | none => simp
        | some n =>
          have hhash := hph n hp r.key hh
          have := ((h.l0Recs x hx).2 _ (SMap.find?_some_mem hg)).2
          simp only [Bool.or_eq_true, decide_eq_true_eq]
          right
          rw [← this]
          simp only
          rw [hhash]
      · exact ⟨_, List.mem_cons_of_mem _ (List.mem_map_of_mem hl), tablesPrefix_complete (h.lv l hl) (hsp l hl) hx hg hh⟩
    obtain ⟨l, hl, hxl⟩ := hin
    have hxo := hok l hl x hxl
    exact ⟨x, List.mem_flatten.2 ⟨l, hl, hxl⟩, (Tab.mem_hits hxo.1 hxo.2 r).2 ⟨hg, hh⟩⟩

end Jungle
