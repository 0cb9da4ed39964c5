/-
  What the nearest-record search of each section finds.
-/
import Verif.DB.Nearest
import Verif.DB.SearchLemmas
import Verif.Spec.Nearest
import Verif.Iter.KeyDBLemmas

set_option linter.unusedSectionVars false

namespace Jungle
open Spec Iter
section
variable {K : Type} [LinearOrder K]

/-! ### order -/
section
variable {opt : SOpt} {a b c k : K}

theorem closer_irrefl : ¬ Closer opt a a := by cases opt <;> simp [Closer]

theorem closer_trans (h : Closer opt a b) (h' : Closer opt b c) : Closer opt a c := by
  cases opt <;> simp only [Closer] at *
  · exact lt_trans h h'
  · exact lt_trans h h'
  · exact lt_trans h' h
  · exact lt_trans h' h

theorem closer_of_not (h : Closer opt a b) (h' : ¬ Closer opt c b) : Closer opt a c := by
  cases opt <;> simp only [Closer, not_lt] at *
  · exact lt_of_lt_of_le h h'
  · exact lt_of_lt_of_le h h'
  · exact lt_of_le_of_lt h' h
  · exact lt_of_le_of_lt h' h

theorem closer_tri (ho : opt ≠ .equal) (h : ¬ Closer opt a b) (h' : ¬ Closer opt b a) : a = b := by
  cases opt <;> simp only [Closer, not_lt] at *
  · exact absurd rfl ho
  · exact le_antisymm h' h
  · exact le_antisymm h' h
  · exact le_antisymm h h'
  · exact le_antisymm h h'

theorem not_closer_exact (h : Side opt k a) : ¬ Closer opt a k := by
  cases opt <;> simp only [Closer, Side, not_lt, not_false_eq_true] at *
  · exact le_of_lt h
  · exact h
  · exact le_of_lt h
  · exact h
end

theorem nearUpd_some {opt : SOpt} (ho : opt ≠ .equal) (x r : Rec K) :
    nearUpd opt (some x) r = if Closer opt r.key x.key then some r else some x := by
  cases opt <;> simp [nearUpd, Closer, SOpt.isGreater, SOpt.isSmaller] at *

theorem nearUpdT_some {opt : SOpt} (ho : opt ≠ .equal) (x r : Rec K) :
    nearUpdT opt (some x) r =
      if Closer opt r.key x.key ∨ (r.key = x.key ∧ x.seq < r.seq) then some r else some x := by
  have hc : ((opt.isGreater = true ∧ r.key < x.key) ∨ (opt.isSmaller = true ∧ x.key < r.key)) ↔
      Closer opt r.key x.key := by
    cases opt <;> simp [Closer, SOpt.isGreater, SOpt.isSmaller] at *
  have hn : ¬ (opt.isGreater = false ∧ opt.isSmaller = false) := by
    cases opt <;> simp [SOpt.isGreater, SOpt.isSmaller] at *
  unfold nearUpdT
  simp only
  by_cases h : Closer opt r.key x.key
  · rw [if_pos (Or.inl h), if_pos (hc.2 h)]
  · rw [if_neg (fun h' => h (hc.1 h'))]
    by_cases h' : r.key = x.key
    · rw [if_pos (Or.inr h')]
      by_cases hs : x.seq < r.seq
      · rw [if_pos hs, if_pos (Or.inr ⟨h', hs⟩)]
      · rw [if_neg hs, if_neg (by rintro (h1 | h1); exacts [h h1, hs h1.2])]
    · rw [if_neg (by rintro (h1 | h1); exacts [hn h1, h' h1]), if_neg (by rintro (h1 | h1); exacts [h h1, h' h1.1])]

theorem chooseLog_iff {opt : SOpt} (ho : opt ≠ .equal) (a b : Rec K) :
    chooseLog opt a b = true ↔ (a.key = b.key ∧ b.seq ≤ a.seq) ∨ Closer opt a.key b.key := by
  unfold chooseLog
  by_cases h : a.key = b.key
  · rw [if_pos h, h]
    simp [closer_irrefl]
  · rw [if_neg h]
    cases opt <;> simp [h, Closer, SOpt.isGreater, SOpt.isSmaller] at *

/-! ### the first element with a property -/

theorem find_first {α : Type} {p : α → Bool} {R : α → α → Prop} : ∀ {l : List α} {a : α}, l.Pairwise R →
    List.find? p l = some a → a ∈ l ∧ p a = true ∧ ∀ b ∈ l, p b = true → b = a ∨ R a b
  | [], a, _, h => by cases h
  | x :: l, a, hp, h => by
    rw [List.find?_cons] at h
    obtain ⟨h1, h2⟩ := List.pairwise_cons.1 hp
    cases hx : p x with
    | true =>
      rw [hx] at h
      cases h
      refine ⟨List.mem_cons_self, hx, fun b hb _ => ?_⟩
      rcases List.mem_cons.1 hb with rfl | hb
      · exact Or.inl rfl
      · exact Or.inr (h1 b hb)
    | false =>
      rw [hx] at h
      obtain ⟨h3, h4, h5⟩ := find_first h2 h
      refine ⟨List.mem_cons_of_mem _ h3, h4, fun b hb hpb => ?_⟩
      rcases List.mem_cons.1 hb with rfl | hb
      · rw [hx] at hpb; cases hpb
      · exact h5 b hb hpb

/-- The nearest node of a sorted map. -/
theorem near_some {V : Type} {m : SMap K V} (hs : m.Sorted) {opt : SOpt} {k : K} {p : K × V → Bool}
    (hp : ∀ e, p e = true ↔ Side opt k e.1) (hup : opt.isGreater = true) {a : K × V}
    (h : List.find? p m = some a) : a ∈ m ∧ Side opt k a.1 ∧ ∀ e ∈ m, Side opt k e.1 → ¬ Closer opt e.1 a.1 := by
  obtain ⟨h1, h2, h3⟩ := find_first hs h
  refine ⟨h1, (hp a).1 h2, fun e he hse => ?_⟩
  rcases h3 e he ((hp e).2 hse) with rfl | h4
  · exact closer_irrefl
  · cases opt <;> simp only [SOpt.isGreater, Bool.false_eq_true] at hup <;> simp only [Closer, not_lt] <;> exact le_of_lt h4

theorem near_some_rev {V : Type} {m : SMap K V} (hs : m.Sorted) {opt : SOpt} {k : K} {p : K × V → Bool}
    (hp : ∀ e, p e = true ↔ Side opt k e.1) (hup : opt.isSmaller = true) {a : K × V}
    (h : List.find? p m.reverse = some a) : a ∈ m ∧ Side opt k a.1 ∧ ∀ e ∈ m, Side opt k e.1 → ¬ Closer opt e.1 a.1 := by
  obtain ⟨h1, h2, h3⟩ := find_first (List.pairwise_reverse.2 hs) h
  refine ⟨List.mem_reverse.1 h1, (hp a).1 h2, fun e he hse => ?_⟩
  rcases h3 e (List.mem_reverse.2 he) ((hp e).2 hse) with rfl | h4
  · exact closer_irrefl
  · cases opt <;> simp only [SOpt.isSmaller, Bool.false_eq_true] at hup <;> simp only [Closer, not_lt] <;> exact le_of_lt h4

theorem near_none {V : Type} {m : List (K × V)} {opt : SOpt} {k : K} {p : K × V → Bool}
    (hp : ∀ e, p e = true ↔ Side opt k e.1) (h : List.find? p m = none) : ∀ e ∈ m, ¬ Side opt k e.1 := by
  intro e he hs
  rw [List.find?_eq_none] at h
  exact h e he ((hp e).2 hs)

/-- The cursor of the memtable. -/
theorem cursor_spec {m : MemTable K} (hs : m.byKey.Sorted) {opt : SOpt} (ho : opt ≠ .equal) (k : K) :
    (∀ a, MemTable.cursorFor m k opt = some a →
      a ∈ m.byKey ∧ Side opt k a.1 ∧ ∀ e ∈ m.byKey, Side opt k e.1 → ¬ Closer opt e.1 a.1) ∧
    (MemTable.cursorFor m k opt = none → ∀ e ∈ m.byKey, ¬ Side opt k e.1) := by
  cases opt with
  | equal => exact absurd rfl ho
  | greater =>
    exact ⟨fun a h => near_some hs (fun e => by simp [Side]) rfl h, fun h => near_none (fun e => by simp [Side]) h⟩
  | greaterOrEqual =>
    exact ⟨fun a h => near_some hs (fun e => by simp [Side]) rfl h, fun h => near_none (fun e => by simp [Side]) h⟩
  | smaller =>
    exact ⟨fun a h => near_some_rev hs (fun e => by simp [Side]) rfl h,
      fun h e he => near_none (m := List.reverse m.byKey) (fun e => by simp [Side]) h e (List.mem_reverse.2 he)⟩
  | smallerOrEqual =>
    exact ⟨fun a h => near_some_rev hs (fun e => by simp [Side]) rfl h,
      fun h e he => near_none (m := List.reverse m.byKey) (fun e => by simp [Side]) h e (List.mem_reverse.2 he)⟩

/-- The nearest record of a table. -/
theorem Tab.near_spec {x : Tab K} (hx : x.Ok) {opt : SOpt} (ho : opt ≠ .equal) (k : K) :
    (∀ r, x.getNearest k opt = some r →
      x.get r.key = some r ∧ Side opt k r.key ∧ ∀ e ∈ x.recs, Side opt k e.1 → ¬ Closer opt e.1 r.key) ∧
    (x.getNearest k opt = none → ∀ e ∈ x.recs, ¬ Side opt k e.1) := by
  have fin : ∀ (o : Option (K × Rec K)),
      (∀ a, o = some a → a ∈ x.recs ∧ Side opt k a.1 ∧ ∀ e ∈ x.recs, Side opt k e.1 → ¬ Closer opt e.1 a.1) →
      ∀ r, o.map (·.2) = some r → x.get r.key = some r ∧ Side opt k r.key ∧
        ∀ e ∈ x.recs, Side opt k e.1 → ¬ Closer opt e.1 r.key := by
    intro o h r hr
    cases o with
    | none => cases hr
    | some a =>
      obtain ⟨h1, h2, h3⟩ := h a rfl
      have hr' : a.2 = r := by simpa using hr
      have hk : r.key = a.1 := by rw [← hr']; exact hx.2 a h1
      rw [hk]
      refine ⟨?_, h2, h3⟩
      have := SMap.find?_of_mem hx.1 (k := a.1) (v := a.2) h1
      rw [hr'] at this
      exact this
  cases opt with
  | equal => exact absurd rfl ho
  | greater =>
    exact ⟨fin _ (fun a h => near_some hx.1 (fun e => by simp [Side]) rfl h),
      fun h => near_none (fun e => by simp [Side]) (Option.map_eq_none_iff.1 h)⟩
  | greaterOrEqual =>
    exact ⟨fin _ (fun a h => near_some hx.1 (fun e => by simp [Side]) rfl h),
      fun h => near_none (fun e => by simp [Side]) (Option.map_eq_none_iff.1 h)⟩
  | smaller =>
    exact ⟨fin _ (fun a h => near_some_rev hx.1 (fun e => by simp [Side]) rfl h),
      fun h e he => near_none (m := List.reverse x.recs) (fun e => by simp [Side]) (Option.map_eq_none_iff.1 h) e (List.mem_reverse.2 he)⟩
  | smallerOrEqual =>
    exact ⟨fin _ (fun a h => near_some_rev hx.1 (fun e => by simp [Side]) rfl h),
      fun h e he => near_none (m := List.reverse x.recs) (fun e => by simp [Side]) (Option.map_eq_none_iff.1 h) e (List.mem_reverse.2 he)⟩

/-! ### the log section -/

/-- What one log file answers: the newest pending record of the key at the cursor. -/
def fileNear (k : K) (opt : SOpt) (f : LogFile K) : Option (Rec K) :=
  match MemTable.cursorFor f.mem k opt with
  | none => none
  | some a => lastWrite f.pending a.1

theorem fileNear_eq {f : LogFile K} (hw : f.mem.WF) {opt : SOpt} (ho : opt ≠ .equal) (k : K) :
    f.mem.getRecordByKey f.mem.maxSeqNum k false true opt =
      match fileNear k opt f with
      | some r => (.ok, some r)
      | none => (.keyNotFound, none) := by
  unfold fileNear
  have hget : ∀ n, LogMgr.getFrom 0 NIL true false n [f] = lastWrite f.pending n := by
    intro n
    have := getFrom_live n [f] (fun g hg => by rw [List.mem_singleton.1 hg]; exact hw.look)
    simpa using this
  cases hc : MemTable.cursorFor f.mem k opt with
  | none => unfold MemTable.getRecordByKey; rw [hc]
  | some a =>
    have ha := ((cursor_spec hw.keys ho k).1 a hc).1
    have hf : f.mem.byKey.find? a.1 = some a.2 := SMap.find?_of_mem hw.keys (k := a.1) (v := a.2) ha
    have heq : f.mem.getRecordByKey f.mem.maxSeqNum k false true opt =
        f.mem.getRecordByKey f.mem.maxSeqNum a.1 false true .equal := by
      unfold MemTable.getRecordByKey
      rw [hc]
      simp only [MemTable.cursorFor, hf, Option.map_some]
    rw [heq]
    have := hget a.1
    simp only [LogMgr.getFrom, ne_eq, not_true, if_false, if_true] at this
    simp only
    rw [← this]
    generalize hg : f.mem.getRecordByKey f.mem.maxSeqNum a.1 false true .equal = z
    rw [MemTable.get_live hw.look] at hg
    rw [← hg]
    cases lastWrite f.mem.bySeq a.1 with
    | none => rfl
    | some r =>
      simp only
      split <;> rfl

theorem nearLoop_spec {opt : SOpt} (ho : opt ≠ .equal) (k : K) : ∀ (fs : List (LogFile K)) (cur : Option (Rec K)),
    (∀ f ∈ fs, f.mem.WF) → (∀ y ∈ fs.filterMap (fileNear k opt), Side opt k y.key) →
    (∀ x, cur = some x → Side opt k x.key ∧ (opt.exactAllowed = true → x.key ≠ k)) →
    ∃ res, (nearLoop false 0 k opt fs cur).2.or (nearLoop false 0 k opt fs cur).1 = res ∧
      (res = none ↔ cur = none ∧ fs.filterMap (fileNear k opt) = []) ∧
      ∀ r, res = some r → ∃ pre post, cur.toList ++ fs.filterMap (fileNear k opt) = pre ++ r :: post ∧
        (∀ y ∈ pre, Closer opt r.key y.key) ∧ ∀ y ∈ post, ¬ Closer opt y.key r.key := by
  intro fs
  induction fs with
  | nil =>
    intro cur _ _ _
    refine ⟨cur, rfl, by simp, ?_⟩
    intro r hr
    subst hr
    exact ⟨[], [], rfl, by simp, by simp⟩
  | cons f fs ih =>
    intro cur hw hs hcur
    have hwf := hw f List.mem_cons_self
    have hw' := fun g hg => hw g (List.mem_cons_of_mem _ hg)
    have hnear := fileNear_eq hwf ho k
    cases hc : fileNear k opt f with
    | none =>
      rw [hc] at hnear
      have hl : nearLoop false 0 k opt (f :: fs) cur = nearLoop false 0 k opt fs cur := by
        conv => lhs; unfold nearLoop
        simp only [Bool.false_eq_true, if_false, ne_eq, not_true]
        rw [hnear]
      have hfm : (f :: fs).filterMap (fileNear k opt) = fs.filterMap (fileNear k opt) := List.filterMap_cons_none hc
      rw [hl, hfm]
      rw [hfm] at hs
      exact ih cur hw' hs hcur
    | some r =>
      rw [hc] at hnear
      have hfm : (f :: fs).filterMap (fileNear k opt) = r :: fs.filterMap (fileNear k opt) := List.filterMap_cons_some hc
      rw [hfm] at hs ⊢
      have hsr := hs r List.mem_cons_self
      have hs' := fun y hy => hs y (List.mem_cons_of_mem _ hy)
      have hl : nearLoop false 0 k opt (f :: fs) cur =
          if opt.exactAllowed = true ∧ (nearUpd opt cur r).map (·.key) = some k then (nearUpd opt cur r, some r)
          else nearLoop false 0 k opt fs (nearUpd opt cur r) := by
        conv => lhs; unfold nearLoop
        simp only [Bool.false_eq_true, if_false, ne_eq, not_true]
        rw [hnear]
        simp only [Bool.false_or]
      rw [hl]
      have hupd : (nearUpd opt cur r = some r ∧ ∀ x, cur = some x → Closer opt r.key x.key) ∨
          ∃ x, cur = some x ∧ nearUpd opt cur r = some x ∧ ¬ Closer opt r.key x.key := by
        cases cur with
        | none => exact Or.inl ⟨rfl, fun x h => (by cases h)⟩
        | some x =>
          by_cases h : Closer opt r.key x.key
          · left
            exact ⟨by rw [nearUpd_some ho, if_pos h], fun y hy => by cases hy; exact h⟩
          · right
            exact ⟨x, rfl, by rw [nearUpd_some ho, if_neg h], h⟩
      rcases hupd with ⟨h1, h2⟩ | ⟨x, hx, h1, h2⟩
      · rw [h1]
        have hpre : ∀ y ∈ cur.toList, Closer opt r.key y.key := by
          intro y hy
          exact h2 y (Option.mem_toList.1 hy)
        by_cases hex : opt.exactAllowed = true ∧ (some r).map (·.key) = some k
        · rw [if_pos hex]
          have hk : r.key = k := by simpa using hex.2
          refine ⟨some r, rfl, by simp, ?_⟩
          intro r' hr'
          cases hr'
          exact ⟨cur.toList, fs.filterMap (fileNear k opt), rfl, hpre, fun y hy => by
            rw [hk]; exact not_closer_exact (hs' y hy)⟩
        · rw [if_neg hex]
          obtain ⟨res, e1, e2, e3⟩ := ih (some r) hw' hs' (fun x hx => by
            cases hx
            exact ⟨hsr, fun h h' => hex ⟨h, by simp [h']⟩⟩)
          refine ⟨res, e1, ?_, ?_⟩
          · rw [e2]; simp
          · intro r' hr'
            obtain ⟨pre, post, q1, q2, q3⟩ := e3 r' hr'
            refine ⟨cur.toList ++ pre, post, ?_, ?_, q3⟩
            · rw [List.append_assoc, ← q1]; rfl
            · intro y hy
              rcases List.mem_append.1 hy with hy | hy
              · have hy0 := hpre y hy
                clear hy
                cases pre with
                | nil =>
                  have : r = r' := by simpa using congrArg List.head? q1
                  rw [← this]; exact hy0
                | cons p pre =>
                  have hp : r = p := by simpa using congrArg List.head? q1
                  have := q2 p List.mem_cons_self
                  rw [← hp] at this
                  exact closer_trans this hy0
              · exact q2 y hy
      · subst hx
        rw [h1]
        have hxx := hcur x rfl
        rw [if_neg (by
          rintro ⟨h, h'⟩
          exact hxx.2 h (by simpa using h'))]
        obtain ⟨res, e1, e2, e3⟩ := ih (some x) hw' hs' hcur
        refine ⟨res, e1, ?_, ?_⟩
        · rw [e2]; simp
        · intro r' hr'
          obtain ⟨pre, post, q1, q2, q3⟩ := e3 r' hr'
          cases pre with
          | nil =>
            obtain ⟨rfl, q⟩ : x = r' ∧ fs.filterMap (fileNear k opt) = post := by simpa using q1
            refine ⟨[], r :: post, by rw [q]; rfl, by simp, ?_⟩
            intro y hy
            rcases List.mem_cons.1 hy with rfl | hy
            · exact h2
            · exact q3 y hy
          | cons p pre =>
            obtain ⟨rfl, q⟩ : x = p ∧ fs.filterMap (fileNear k opt) = pre ++ r' :: post := by simpa using q1
            refine ⟨x :: r :: pre, post, by rw [q]; rfl, ?_, q3⟩
            intro y hy
            have hxr := q2 x List.mem_cons_self
            rcases List.mem_cons.1 hy with rfl | hy
            · exact hxr
            · rcases List.mem_cons.1 hy with rfl | hy
              · exact closer_of_not hxr h2
              · exact q2 y (List.mem_cons_of_mem _ hy)

/-- The candidates come from newer and newer files. -/
theorem filterMap_increasing {g : LogFile K → Option (Rec K)} (hg : ∀ f r, g f = some r → r ∈ f.pending) :
    ∀ {fs : List (LogFile K)}, Increasing (fs.flatMap LogFile.pending) → Increasing (fs.filterMap g)
  | [], _ => List.Pairwise.nil
  | f :: fs, h => by
    rw [List.flatMap_cons] at h
    obtain ⟨h1, h2, h3⟩ := List.pairwise_append.1 h
    have ih := filterMap_increasing hg h2
    cases hf : g f with
    | none => rw [List.filterMap_cons_none hf]; exact ih
    | some r =>
      rw [List.filterMap_cons_some hf]
      refine List.pairwise_cons.2 ⟨fun y hy => ?_, ih⟩
      obtain ⟨f', hf', hy'⟩ := List.mem_filterMap.1 hy
      exact h3 r (hg f r hf) y (List.mem_flatMap.2 ⟨f', hf', hg f' y hy'⟩)

theorem fileNear_some {f : LogFile K} (hw : f.mem.WF) {opt : SOpt} (ho : opt ≠ .equal) {k : K} {r : Rec K}
    (h : fileNear k opt f = some r) : lastWrite f.pending r.key = some r ∧ Side opt k r.key := by
  unfold fileNear at h
  cases hc : MemTable.cursorFor f.mem k opt with
  | none => rw [hc] at h; cases h
  | some a =>
    rw [hc] at h
    have hk := (lastWrite_mem h).2.1
    rw [hk]
    exact ⟨h, ((cursor_spec hw.keys ho k).1 a hc).2.1⟩

/-- What the log section finds: the nearest of the answers of the files, of the newest file that has
    that key. -/
theorem LogInv.getNearest {l : LogMgr K} {A B : List (Rec K)} (h : LogInv l A B) (hm : l.cfg.logSectionOnly = false)
    {opt : SOpt} (ho : opt ≠ .equal) (k : K) :
    ((l.files.reverse.filterMap (fileNear k opt) = [] ∧ l.getNearest k opt = (.keyNotFound, none)) ∨
      ∃ r pre post, l.getNearest k opt = (.ok, some r) ∧ l.files.reverse.filterMap (fileNear k opt) = pre ++ r :: post ∧
        (∀ y ∈ pre, Closer opt r.key y.key) ∧ ∀ y ∈ post, ¬ Closer opt y.key r.key) := by
  have hside : ∀ y ∈ l.files.reverse.filterMap (fileNear k opt), Side opt k y.key := by
    intro y hy
    obtain ⟨f, hf, hy⟩ := List.mem_filterMap.1 hy
    exact (fileNear_some (h.wf f (List.mem_reverse.1 hf)) ho hy).2
  obtain ⟨res, e1, e2, e3⟩ := nearLoop_spec ho k l.files.reverse none
    (fun f hf => h.wf f (List.mem_reverse.1 hf)) hside (fun x hx => by cases hx)
  have hget : l.getNearest k opt = res.elim (.keyNotFound, none) (fun r => (.ok, some r)) := by
    have hs : ∀ r, res = some r → Side opt k r.key := by
      intro r hr
      obtain ⟨pre, post, q1, -, -⟩ := e3 r hr
      refine hside r ?_
      have q1' : l.files.reverse.filterMap (fileNear k opt) = pre ++ r :: post := q1
      rw [q1']
      simp
    unfold LogMgr.getNearest
    simp only [h.getLastFlushedLog_eq]
    rw [if_neg (by have := h.minNum_lt; have := h.numN; omega), h.fileRange_all, h.bar, hm]
    simp only [Bool.false_eq_true, if_false]
    generalize hz : nearLoop false 0 k opt l.files.reverse none = z at e1 ⊢
    obtain ⟨z1, z2⟩ := z
    cases z2 with
    | some r =>
      have : res = some r := by rw [← e1]; rfl
      rw [this]; rfl
    | none =>
      have hres : res = z1 := by rw [← e1]; rfl
      cases z1 with
      | none => rw [hres]; rfl
      | some x =>
        have hsx := hs x hres
        rw [hres]
        show (if opt.isGreater = true ∧ x.key < k then (Status.keyNotFound, none)
          else if opt.isSmaller = true ∧ k < x.key then (Status.keyNotFound, none) else (Status.ok, some x)) = (.ok, some x)
        have h1 : ¬ (opt.isGreater = true ∧ x.key < k) := by
          rintro ⟨a, b⟩
          cases opt <;> simp only [SOpt.isGreater, Bool.false_eq_true] at a <;> simp only [Side] at hsx
          · exact absurd b (not_lt_of_gt hsx)
          · exact absurd b (not_lt_of_ge hsx)
        have h2 : ¬ (opt.isSmaller = true ∧ k < x.key) := by
          rintro ⟨a, b⟩
          cases opt <;> simp only [SOpt.isSmaller, Bool.false_eq_true] at a <;> simp only [Side] at hsx
          · exact absurd b (not_lt_of_gt hsx)
          · exact absurd b (not_lt_of_ge hsx)
        rw [if_neg h1, if_neg h2]
  cases res with
  | none => exact Or.inl ⟨(e2.1 rfl).2, hget⟩
  | some r =>
    obtain ⟨pre, post, q1, q2, q3⟩ := e3 r rfl
    exact Or.inr ⟨r, pre, post, hget, q1, q2, q3⟩

/-! ### the table section -/

theorem foldT_spec {opt : SOpt} (ho : opt ≠ .equal) : ∀ (cs : List (Rec K)) (cur : Option (Rec K)),
    (cs.foldl (nearUpdT opt) cur = none ↔ cur = none ∧ cs = []) ∧
    ∀ r, cs.foldl (nearUpdT opt) cur = some r → r ∈ cur.toList ++ cs ∧
      ∀ y ∈ cur.toList ++ cs, ¬ Closer opt y.key r.key ∧ (y.key = r.key → y.seq ≤ r.seq) := by
  intro cs
  induction cs with
  | nil =>
    intro cur
    refine ⟨by simp, fun r hr => ?_⟩
    have hr' : cur = some r := hr
    subst hr'
    refine ⟨by simp, fun y hy => ?_⟩
    have : y = r := by simpa using hy
    rw [this]
    exact ⟨closer_irrefl, fun _ => Nat.le_refl _⟩
  | cons a cs ih =>
    intro cur
    rw [List.foldl_cons]
    obtain ⟨h1, h2⟩ := ih (nearUpdT opt cur a)
    cases cur with
    | none =>
      refine ⟨by rw [h1]; simp [nearUpdT], fun r hr => ?_⟩
      have := h2 r hr
      simpa [nearUpdT] using this
    | some x =>
      by_cases hc : Closer opt a.key x.key ∨ (a.key = x.key ∧ x.seq < a.seq)
      · rw [nearUpdT_some ho, if_pos hc] at h1 h2 ⊢
        refine ⟨by rw [h1]; simp, fun r hr => ?_⟩
        obtain ⟨g1, g2⟩ := h2 r hr
        have ga := g2 a (by simp)
        refine ⟨?_, fun y hy => ?_⟩
        · rcases List.mem_append.1 g1 with g | g
          · have : r = a := by simpa using g
            rw [this]; simp
          · simp [g]
        · have hy' : y = x ∨ y ∈ a :: cs := by simpa using hy
          rcases hy' with rfl | hy'
          · rcases hc with hc | ⟨hc, hc'⟩
            · refine ⟨fun h' => ga.1 (closer_trans hc h'), fun h' => ?_⟩
              rw [h'] at hc; exact absurd hc ga.1
            · refine ⟨by rw [← hc]; exact ga.1, fun h' => ?_⟩
              have := ga.2 (hc.trans h')
              omega
          · exact g2 y (by simpa using hy')
      · rw [nearUpdT_some ho, if_neg hc] at h1 h2 ⊢
        refine ⟨by rw [h1]; simp, fun r hr => ?_⟩
        obtain ⟨g1, g2⟩ := h2 r hr
        have gx := g2 x (by simp)
        refine ⟨?_, fun y hy => ?_⟩
        · rcases List.mem_append.1 g1 with g | g
          · have : r = x := by simpa using g
            rw [this]; simp
          · simp [g]
        · have hy' : y = a ∨ y ∈ x :: cs := by
            simp only [Option.toList_some, List.singleton_append, List.mem_cons] at hy ⊢
            rcases hy with h | h | h
            · exact Or.inr (Or.inl h)
            · exact Or.inl h
            · exact Or.inr (Or.inr h)
          rcases hy' with rfl | hy'
          · refine ⟨fun h' => ?_, fun h' => ?_⟩
            · have := closer_of_not h' gx.1
              exact hc (Or.inl this)
            · by_cases hxr : x.key = r.key
              · have := gx.2 hxr
                have hyx : y.key = x.key := h'.trans hxr.symm
                have : ¬ x.seq < y.seq := fun h => hc (Or.inr ⟨hyx, h⟩)
                omega
              · exfalso
                have h3 : ¬ Closer opt y.key x.key := fun h => hc (Or.inl h)
                rw [h'] at h3
                exact hxr (closer_tri ho gx.1 h3)
          · exact g2 y (by simpa using hy')

/-- Of a level whose tables all hold records, the table with a record is read, or one with a closer
    record. -/
theorem tablesNearest_covers {l : List (Tab K)} (hl : TMgr.LevelOk l) (hne : ∀ x ∈ l, x.recs ≠ []) {opt : SOpt}
    (ho : opt ≠ .equal) {k : K} {x : Tab K} {e : K × Rec K} (hx : x ∈ l) (he : e ∈ x.recs) (hs : Side opt k e.1) :
    ∃ x' ∈ tablesNearest l k opt, x' = x ∨ ∃ e' ∈ x'.recs, Side opt k e'.1 ∧ Closer opt e'.1 e.1 := by
  obtain ⟨pre, h1, h2, h3⟩ := fromCursor_spec l k hl.sorted
  have hsx : x.minKey ≤ e.1 := ((hl.tab x hx).2.1 e he).2
  cases hf : fromCursor l k with
  | nil =>
    rw [hf] at h1 h2
    by_cases hp : pre = []
    · rw [h1, hp] at hx; cases hx
    · obtain ⟨a, s, h, -⟩ := h2 hp; cases h
  | cons x0 s =>
    have h3 := h3 x0 s hf
    rw [hf] at h1
    have hlen : l.length - (s.length + 1) = pre.length := by rw [h1]; simp
    have htake : l.take (l.length - (s.length + 1)) = pre := by rw [hlen]; conv => lhs; rw [h1]; exact List.take_left
    have hT : tablesNearest l k opt = (if opt.isSmaller then pre.getLast?.toList else []) ++ [x0] ++
        (if opt.isGreater then s.head?.toList else []) := by
      unfold tablesNearest
      rw [hf]
      simp only [htake]
    have hsort := hl.sorted
    rw [h1] at hsort
    obtain ⟨so1, so2, so3⟩ := List.pairwise_append.1 hsort
    have hx' := hx
    rw [h1] at hx'
    rcases List.mem_append.1 hx' with hx' | hx'
    · -- before the cursor
      have hp : pre ≠ [] := List.ne_nil_of_mem hx'
      obtain ⟨a, s', ha, hle⟩ := h2 hp
      rw [hf] at ha
      cases ha
      have hx0 : x0 ∈ l := by rw [h1]; simp
      have hlt := hl.range x hx x0 hx0 (so3 x hx' x0 List.mem_cons_self) e he
      have hek : e.1 < k := lt_of_lt_of_le hlt hle
      have hsm : opt.isSmaller = true := by
        cases opt <;> simp only [Side, SOpt.isSmaller] at *
        · exact absurd rfl ho
        · exact absurd hek (not_lt_of_gt hs)
        · exact absurd hek (not_lt_of_ge hs)
      obtain ⟨p0, q, hq⟩ : ∃ p0 q, pre = p0 ++ [q] := ⟨pre.dropLast, pre.getLast hp, (List.dropLast_concat_getLast hp).symm⟩
      have hql : q ∈ l := by rw [h1, hq]; simp
      refine ⟨q, by rw [hT, hsm, hq]; simp, ?_⟩
      rw [hq] at hx' so1
      rcases List.mem_append.1 hx' with hx' | hx'
      · right
        obtain ⟨e', he'⟩ := List.exists_mem_of_ne_nil _ (hne q hql)
        have hlt' := hl.range q hql x0 hx0 (so3 q (by rw [hq]; simp) x0 List.mem_cons_self) e' he'
        have hxq := (List.pairwise_append.1 so1).2.2 x hx' q (by simp)
        have h5 := hl.range x hx q hql hxq e he
        have h6 : q.minKey ≤ e'.1 := ((hl.tab q hql).2.1 e' he').2
        have hk' : e'.1 < k := lt_of_lt_of_le hlt' hle
        refine ⟨e', he', ?_, ?_⟩
        · cases opt <;> simp only [Side, SOpt.isSmaller, Bool.false_eq_true] at hsm ⊢
          · exact hk'
          · exact le_of_lt hk'
        · cases opt <;> simp only [Closer, SOpt.isSmaller, Bool.false_eq_true] at hsm ⊢
          · exact lt_of_lt_of_le h5 h6
          · exact lt_of_lt_of_le h5 h6
      · exact Or.inl (List.mem_singleton.1 hx').symm
    · rcases List.mem_cons.1 hx' with rfl | hx'
      · exact ⟨x, by rw [hT]; simp, Or.inl rfl⟩
      · -- after the cursor
        have hek : k < e.1 := lt_of_lt_of_le (h3 x hx') hsx
        have hgr : opt.isGreater = true := by
          cases opt <;> simp only [Side, SOpt.isGreater] at *
          · exact absurd rfl ho
          · exact absurd hek (not_lt_of_gt hs)
          · exact absurd hek (not_lt_of_ge hs)
        cases s with
        | nil => cases hx'
        | cons x1 s =>
          have hx1 : x1 ∈ l := by rw [h1]; simp
          refine ⟨x1, by rw [hT, hgr]; simp, ?_⟩
          rcases List.mem_cons.1 hx' with rfl | hx'
          · exact Or.inl rfl
          · right
            obtain ⟨e', he'⟩ := List.exists_mem_of_ne_nil _ (hne x1 hx1)
            have hxx := (List.pairwise_cons.1 (List.pairwise_cons.1 so2).2).1 x hx'
            have h5 := hl.range x1 hx1 x hx hxx e' he'
            have h6 : x1.minKey ≤ e'.1 := ((hl.tab x1 hx1).2.1 e' he').2
            have hk' : k < e'.1 := lt_of_lt_of_le (h3 x1 List.mem_cons_self) h6
            refine ⟨e', he', ?_, ?_⟩
            · cases opt <;> simp only [Side, SOpt.isGreater, Bool.false_eq_true] at hgr ⊢
              · exact hk'
              · exact le_of_lt hk'
            · cases opt <;> simp only [Closer, SOpt.isGreater, Bool.false_eq_true] at hgr ⊢
              · exact lt_of_lt_of_le h5 hsx
              · exact lt_of_lt_of_le h5 hsx

theorem tablesNearest_sub {l : List (Tab K)} (hs : l.Pairwise (fun a b => a.minKey < b.minKey)) {k : K} {opt : SOpt}
    {x : Tab K} (h : x ∈ tablesNearest l k opt) : x ∈ l := by
  obtain ⟨pre, h1, -, -⟩ := fromCursor_spec l k hs
  unfold tablesNearest at h
  cases hf : fromCursor l k with
  | nil => rw [hf] at h; cases h
  | cons x0 s =>
    rw [hf] at h h1
    simp only at h
    rcases List.mem_append.1 h with h | h
    · rcases List.mem_append.1 h with h | h
      · split at h
        · exact List.mem_of_mem_take (List.mem_of_getLast? (Option.mem_toList.1 h))
        · cases h
      · rw [List.mem_singleton.1 h, h1]; simp
    · split at h
      · rw [h1]
        have := List.mem_of_head? (Option.mem_toList.1 h)
        simp [this]
      · cases h

variable [OrderBot K] {c : TCfg K}

/-- The answers of the tables that are read. -/
def TMgr.nearAns (t : TMgr K) (k : K) (opt : SOpt) : List (Rec K) :=
  (t.nearTables k opt).filterMap (fun x => x.getNearest k opt)

/-- Each is in a table. -/
theorem nearAns_in {t : TMgr K} (h : TMgr.Inv c t) {opt : SOpt} (ho : opt ≠ .equal) (k : K) :
    ∀ y ∈ t.nearAns k opt, y ∈ TMgr.stack c t y.key ∧ Side opt k y.key := by
  have hok0 : ∀ x ∈ t.l0, x.Ok := fun x hx => ⟨(h.l0Recs x hx).1, fun e he => ((h.l0Recs x hx).2 e he).1⟩
  have hok : ∀ l ∈ t.lv, ∀ x ∈ l, x.Ok := fun l hl x hx =>
    ⟨((h.lv l hl).tab x hx).1, fun e he => (((h.lv l hl).tab x hx).2.1 e he).1⟩
  have hall : ∀ x, x ∈ t.tablesByHash t.parts ↔ x ∈ t.l0 := by
    intro x; unfold TMgr.tablesByHash; rw [List.mem_filter]; simp
  intro y hy
  obtain ⟨x, hx, hg⟩ := List.mem_filterMap.1 hy
  unfold TMgr.nearTables at hx
  rcases List.mem_append.1 hx with hx | hx
  · rw [hall] at hx
    obtain ⟨h1, h2, -⟩ := (Tab.near_spec (hok0 x hx) ho k).1 y hg
    exact ⟨(mem_stack_iff h y).1 ⟨x, Or.inl hx, h1⟩, h2⟩
  · obtain ⟨l, hl, hx⟩ := List.mem_flatMap.1 hx
    have hxl := tablesNearest_sub (h.lv l hl).sorted hx
    obtain ⟨h1, h2, -⟩ := (Tab.near_spec (hok l hl x hxl) ho k).1 y hg
    exact ⟨(mem_stack_iff h y).1 ⟨x, Or.inr ⟨l, hl, hxl⟩, h1⟩, h2⟩
/-- For each record in a table on the side asked for there is the same or a closer one. -/
theorem nearAns_covers {t : TMgr K} (h : TMgr.Inv c t) (hne : ∀ l ∈ t.lv, ∀ x ∈ l, x.recs ≠ []) {opt : SOpt}
    (ho : opt ≠ .equal) (k : K) :
    ∀ y, y ∈ TMgr.stack c t y.key → Side opt k y.key →
      ∃ z ∈ t.nearAns k opt, Closer opt z.key y.key ∨ z = y := by
  unfold TMgr.nearAns
  have hok0 : ∀ x ∈ t.l0, x.Ok := fun x hx => ⟨(h.l0Recs x hx).1, fun e he => ((h.l0Recs x hx).2 e he).1⟩
  have hok : ∀ l ∈ t.lv, ∀ x ∈ l, x.Ok := fun l hl x hx =>
    ⟨((h.lv l hl).tab x hx).1, fun e he => (((h.lv l hl).tab x hx).2.1 e he).1⟩
  have hall : ∀ x, x ∈ t.tablesByHash t.parts ↔ x ∈ t.l0 := by
    intro x; unfold TMgr.tablesByHash; rw [List.mem_filter]; simp
  intro y hy hs
  obtain ⟨x, hx, hg⟩ := (mem_stack_iff h y).2 hy
  have hm := SMap.find?_some_mem hg
  -- the answer of a table that has a record on the side
  have ans : ∀ x' ∈ t.nearTables k opt, x'.Ok → ∀ e ∈ x'.recs, Side opt k e.1 →
      ∃ z ∈ (t.nearTables k opt).filterMap (fun x => x.getNearest k opt), x'.get z.key = some z ∧ ¬ Closer opt e.1 z.key := by
    intro x' hx' hok' e he hse
    cases hz : x'.getNearest k opt with
    | none => exact absurd hse ((Tab.near_spec hok' ho k).2 hz e he)
    | some z =>
      obtain ⟨g1, g2, g3⟩ := (Tab.near_spec hok' ho k).1 z hz
      exact ⟨z, List.mem_filterMap.2 ⟨x', hx', hz⟩, g1, g3 e he hse⟩
  have same : ∀ z : Rec K, x.get z.key = some z → ¬ Closer opt y.key z.key → Closer opt z.key y.key ∨ z = y := by
    intro z hz hc
    by_cases hc' : Closer opt z.key y.key
    · exact Or.inl hc'
    · right
      have := closer_tri ho hc' hc
      rw [this, hg] at hz
      exact (Option.some.inj hz).symm
  rcases hx with hx | ⟨l, hl, hx⟩
  · obtain ⟨z, z1, z2, z3⟩ := ans x (List.mem_append_left _ ((hall x).2 hx)) (hok0 x hx) _ hm hs
    exact ⟨z, z1, same z z2 z3⟩
  · obtain ⟨x', hx', hor⟩ := tablesNearest_covers (h.lv l hl) (hne l hl) ho hx hm hs
    have hin : x' ∈ t.nearTables k opt := List.mem_append_right _ (List.mem_flatMap.2 ⟨l, hl, hx'⟩)
    have hxl := tablesNearest_sub (h.lv l hl).sorted hx'
    rcases hor with rfl | ⟨e', he', s1, s2⟩
    · obtain ⟨z, z1, z2, z3⟩ := ans x' hin (hok l hl x' hxl) _ hm hs
      exact ⟨z, z1, same z z2 z3⟩
    · obtain ⟨z, z1, z2, z3⟩ := ans x' hin (hok l hl x' hxl) e' he' s1
      refine ⟨z, z1, Or.inl ?_⟩
      -- `z` is not farther than `e'`
      by_cases hc : Closer opt z.key e'.1
      · exact closer_trans hc s2
      · rw [closer_tri ho hc z3]; exact s2


/-! ### the choice between the candidates -/

/-- `r` is the answer `cs` gives: no candidate is closer, and none of the same key is newer. -/
def Top (opt : SOpt) (cs : List (Rec K)) (r : Rec K) : Prop :=
  r ∈ cs ∧ ∀ y ∈ cs, ¬ Closer opt y.key r.key ∧ (y.key = r.key → y.seq ≤ r.seq)

theorem Top.choose {opt : SOpt} (ho : opt ≠ .equal) {cs ts : List (Rec K)} {a b : Rec K} (ha : Top opt cs a)
    (hb : Top opt ts b) : Top opt (cs ++ ts) (if chooseLog opt a b then a else b) := by
  have hiff := (chooseLog_iff ho a b).trans Or.comm
  -- `x` wins over `z`
  have key : ∀ {X Z : List (Rec K)} {x z : Rec K}, Top opt X x → Top opt Z z →
      (Closer opt x.key z.key ∨ x.key = z.key ∧ z.seq ≤ x.seq) → ∀ y ∈ Z, ¬ Closer opt y.key x.key ∧ (y.key = x.key → y.seq ≤ x.seq) := by
    intro X Z x z hx hz hw y hy
    have hyz := hz.2 y hy
    rcases hw with hw | ⟨hw, hw'⟩
    · refine ⟨fun h' => hyz.1 (closer_trans h' hw), fun h' => ?_⟩
      rw [h'] at hyz; exact absurd hw hyz.1
    · rw [hw]
      exact ⟨hyz.1, fun h' => Nat.le_trans (hyz.2 h') hw'⟩
  by_cases h : chooseLog opt a b = true
  · rw [if_pos h]
    have hw := hiff.1 h
    refine ⟨List.mem_append_left _ ha.1, fun y hy => ?_⟩
    rcases List.mem_append.1 hy with hy | hy
    · exact ha.2 y hy
    · exact key ha hb hw y hy
  · rw [if_neg h]
    have hw : Closer opt b.key a.key ∨ b.key = a.key ∧ a.seq ≤ b.seq := by
      by_cases h1 : Closer opt b.key a.key
      · exact Or.inl h1
      · have h2 : ¬ Closer opt a.key b.key := fun h' => h (hiff.2 (Or.inl h'))
        have h3 := closer_tri ho h1 h2
        refine Or.inr ⟨h3, ?_⟩
        have : ¬ b.seq ≤ a.seq := fun h' => h (hiff.2 (Or.inr ⟨h3.symm, h'⟩))
        omega
    refine ⟨List.mem_append_right _ hb.1, fun y hy => ?_⟩
    rcases List.mem_append.1 hy with hy | hy
    · exact key hb ha hw y hy
    · exact hb.2 y hy

end
end Jungle
