/-
  Model of the table and level locks of compactions, splits and merges
  (src/table_helper.cc:82-213): any number of holders, each constructor and each `unlock` is one
  atomic step (the body runs under `lockedTablesLock` / `lockedLevelsLock`).
-/
import Mathlib.Order.Nat
import Mathlib.Data.List.Nodup

namespace Jungle.Locks

/-- `lockedTables` (an `unordered_set`) or `lockedLevels`, and what each holder object holds:
    `none` is `fOwnsLock = false`. -/
structure St where
  locked : List Nat := []
  held : Nat → Option (List Nat) := fun _ => none

def St.setHeld (s : St) (i : Nat) (h : Option (List Nat)) : Nat → Option (List Nat) :=
  fun j => if j = i then h else s.held j

/-- `unordered_set::insert`. -/
def insert (x : Nat) (l : List Nat) : List Nat := if x ∈ l then l else x :: l

/-- `TableLockHolder::TableLockHolder` (src/table_helper.cc:103-134): nothing to lock succeeds;
    if one of the tables is locked nothing is done; otherwise all are inserted.
    `LevelLockHolder` (166-187) is the case of one element (a level beyond the last one fails
    without looking at the set). -/
def acquire (s : St) (i : Nat) (tables : List Nat) : Bool × St :=
  if tables = [] then (true, { s with held := s.setHeld i (some []) })
  else if tables.any (fun t => decide (t ∈ s.locked)) then (false, s)
  else (true, { locked := tables.foldl (fun l t => insert t l) s.locked,
                held := s.setHeld i (some tables) })

/-- Erase one by one; `none` is `erase(end())`, undefined behaviour (src/table_helper.cc:153-158). -/
def eraseAll : List Nat → List Nat → Option (List Nat)
  | [], l => some l
  | t :: ts, l => if t ∈ l then eraseAll ts (l.erase t) else none

/-- `TableLockHolder::unlock` and the destructor (src/table_helper.cc:136-161),
    `LevelLockHolder::unlock` (197-209). -/
def release (s : St) (i : Nat) : Option St :=
  match s.held i with
  | none => some s
  | some [] => some { s with held := s.setHeld i none }
  | some ts => match eraseAll ts s.locked with
    | none => none
    | some l => some { locked := l, held := s.setHeld i none }

/-- `isTableLocked` / `isLevelLocked` (src/table_helper.cc:86-97). -/
def isLocked (s : St) (t : Nat) : Bool := decide (t ∈ s.locked)

/-- The operation as the callers write it (src/table_compaction.cc:72-106, 607-614, 685-688,
    src/table_split.cc:78-81, 438-443): take the locks one after the other with holder objects
    `i, i+1, …`; when one fails an exception leaves the scope and the destructors run.
    `none` is undefined behaviour. -/
def lockAll (s : St) (i : Nat) : List (List Nat) → Option (Bool × St)
  | [] => some (true, s)
  | r :: rs =>
    match acquire s i r with
    | (false, s1) => some (false, s1)
    | (true, s1) =>
      match lockAll s1 (i + 1) rs with
      | none => none
      | some (true, s2) => some (true, s2)
      | some (false, s2) => (release s2 i).map (fun s3 => (false, s3))

/-- Executions with any number of holders; the lists given to one constructor have no
    duplicates (they are lists of the numbers of distinct tables). -/
inductive Reach : St → Prop
  | init : Reach {}
  | acquire {s} (i : Nat) (ts : List Nat) : Reach s → s.held i = none → ts.Nodup →
      Reach (acquire s i ts).2
  | release {s s'} (i : Nat) : Reach s → release s i = some s' → Reach s'

structure Inv (s : St) : Prop where
  nodup : s.locked.Nodup
  mem : ∀ t, t ∈ s.locked ↔ ∃ i ts, s.held i = some ts ∧ t ∈ ts
  nd : ∀ i ts, s.held i = some ts → ts.Nodup
  excl : ∀ i j ts us t, s.held i = some ts → s.held j = some us → t ∈ ts → t ∈ us → i = j

theorem foldl_insert (ts l : List Nat) (hd : ∀ t ∈ ts, t ∉ l) (hn : ts.Nodup) :
    ts.foldl (fun l t => insert t l) l = ts.reverse ++ l := by
  induction ts generalizing l with
  | nil => rfl
  | cons t ts ih =>
    have h1 := List.nodup_cons.1 hn
    rw [List.foldl_cons, show insert t l = t :: l from by
      unfold insert; rw [if_neg (hd t List.mem_cons_self)]]
    rw [ih _ _ h1.2]
    · simp
    · intro x hx hm
      rcases List.mem_cons.1 hm with rfl | hm
      · exact h1.1 hx
      · exact hd x (List.mem_cons_of_mem _ hx) hm

theorem eraseAll_some (ts l : List Nat) (hs : ∀ t ∈ ts, t ∈ l) (hn : ts.Nodup) (hl : l.Nodup) :
    ∃ l', eraseAll ts l = some l' ∧ l'.Nodup ∧ ∀ t, t ∈ l' ↔ t ∈ l ∧ t ∉ ts := by
  induction ts generalizing l with
  | nil => exact ⟨l, rfl, hl, by simp⟩
  | cons t ts ih =>
    have h1 := List.nodup_cons.1 hn
    unfold eraseAll; rw [if_pos (hs t List.mem_cons_self)]
    obtain ⟨l', e, hn', hm⟩ := ih (l.erase t)
      (fun x hx => by
        refine (List.mem_erase_of_ne ?_).2 (hs x (List.mem_cons_of_mem _ hx))
        rintro rfl; exact h1.1 hx) h1.2 (hl.erase t)
    refine ⟨l', e, hn', fun x => ?_⟩
    rw [hm, List.mem_cons]
    constructor
    · rintro ⟨ha, hb⟩
      have := (hl.mem_erase_iff).1 ha
      exact ⟨this.2, fun h => h.elim this.1 hb⟩
    · rintro ⟨ha, hb⟩
      exact ⟨(hl.mem_erase_iff).2 ⟨fun h => hb (Or.inl h), ha⟩, fun h => hb (Or.inr h)⟩

theorem Inv.init : Inv {} := ⟨List.nodup_nil, by simp, by simp, by simp⟩

theorem Inv.acquire {s} (h : Inv s) (i : Nat) (ts : List Nat) (hi : s.held i = none)
    (hn : ts.Nodup) : Inv (acquire s i ts).2 := by
  unfold Locks.acquire
  split
  · next h0 =>
    refine ⟨h.nodup, ?_, ?_, ?_⟩
    · intro t; rw [h.mem]; constructor
      · rintro ⟨j, us, hj, ht⟩
        refine ⟨j, us, ?_, ht⟩
        simp only [St.setHeld]; rw [if_neg]; exact hj
        rintro rfl; rw [hi] at hj; cases hj
      · rintro ⟨j, us, hj, ht⟩
        simp only [St.setHeld] at hj; split at hj
        · cases hj; cases ht
        · exact ⟨j, us, hj, ht⟩
    · intro j us hj
      simp only [St.setHeld] at hj; split at hj
      · cases hj; exact List.nodup_nil
      · exact h.nd j us hj
    · intro a b us vs t ha hb hu hv
      simp only [St.setHeld] at ha hb
      split at ha
      · cases ha; cases hu
      · split at hb
        · cases hb; cases hv
        · exact h.excl a b us vs t ha hb hu hv
  · split
    · exact h
    · next h1 h2 =>
      have hd : ∀ t ∈ ts, t ∉ s.locked := by
        intro t ht hm; apply h2; rw [List.any_eq_true]; exact ⟨t, ht, by simp [hm]⟩
      have hfree : ∀ j us, s.held j = some us → ∀ t ∈ ts, t ∉ us := by
        intro j us hj t ht hu; exact hd t ht ((h.mem t).2 ⟨j, us, hj, hu⟩)
      simp only [foldl_insert ts s.locked hd hn]
      refine ⟨?_, ?_, ?_, ?_⟩
      · refine List.nodup_append.2 ⟨List.nodup_reverse.2 hn, h.nodup, ?_⟩
        intro a ha b hb e; subst e; exact hd a (List.mem_reverse.1 ha) hb
      · intro t; simp only [List.mem_append, List.mem_reverse, h.mem]; constructor
        · rintro (ht | ⟨j, us, hj, ht⟩)
          · exact ⟨i, ts, by simp [St.setHeld], ht⟩
          · refine ⟨j, us, ?_, ht⟩
            simp only [St.setHeld]; rw [if_neg]; exact hj
            rintro rfl; rw [hi] at hj; cases hj
        · rintro ⟨j, us, hj, ht⟩
          simp only [St.setHeld] at hj; split at hj
          · cases hj; exact Or.inl ht
          · exact Or.inr ⟨j, us, hj, ht⟩
      · intro j us hj
        simp only [St.setHeld] at hj; split at hj
        · cases hj; exact hn
        · exact h.nd j us hj
      · intro a b us vs t ha hb hu hv
        simp only [St.setHeld] at ha hb
        split at ha
        · next ea =>
          split at hb
          · next eb => rw [ea, eb]
          · cases ha; exact absurd hv (hfree b vs hb t hu)
        · split at hb
          · cases hb; exact absurd hu (hfree a us ha t hv)
          · exact h.excl a b us vs t ha hb hu hv

theorem Inv.release {s} (h : Inv s) (i : Nat) :
    ∃ s', release s i = some s' ∧ Inv s' ∧ s'.held i = none ∧
      (∀ j, j ≠ i → s'.held j = s.held j) := by
  unfold Locks.release
  split
  · next hi => exact ⟨s, rfl, h, hi, fun _ _ => rfl⟩
  · next hi =>
    refine ⟨_, rfl, ⟨h.nodup, ?_, ?_, ?_⟩, by simp [St.setHeld], fun j hj => by simp [St.setHeld, hj]⟩
    · intro t; rw [h.mem]; constructor
      · rintro ⟨j, us, hj, ht⟩
        refine ⟨j, us, ?_, ht⟩
        simp only [St.setHeld]; rw [if_neg]; exact hj
        rintro rfl; rw [hi] at hj; cases hj; cases ht
      · rintro ⟨j, us, hj, ht⟩
        simp only [St.setHeld] at hj; split at hj
        · cases hj
        · exact ⟨j, us, hj, ht⟩
    · intro j us hj
      simp only [St.setHeld] at hj; split at hj
      · cases hj
      · exact h.nd j us hj
    · intro a b us vs t ha hb hu hv
      simp only [St.setHeld] at ha hb
      split at ha
      · cases ha
      · split at hb
        · cases hb
        · exact h.excl a b us vs t ha hb hu hv
  · next ts _ hi =>
    obtain ⟨l', e, hn', hm⟩ := eraseAll_some ts s.locked
      (fun t ht => (h.mem t).2 ⟨i, ts, hi, ht⟩) (h.nd i ts hi) h.nodup
    rw [e]
    refine ⟨_, rfl, ⟨hn', ?_, ?_, ?_⟩, by simp [St.setHeld], fun j hj => by simp [St.setHeld, hj]⟩
    · intro t; simp only [hm, h.mem]; constructor
      · rintro ⟨⟨j, us, hj, ht⟩, hnt⟩
        refine ⟨j, us, ?_, ht⟩
        simp only [St.setHeld]; rw [if_neg]; exact hj
        rintro rfl; rw [hi] at hj; cases hj; exact hnt ht
      · rintro ⟨j, us, hj, ht⟩
        simp only [St.setHeld] at hj; split at hj
        · cases hj
        · next hne => exact ⟨⟨j, us, hj, ht⟩, fun hc => hne (h.excl j i us ts t hj hi ht hc)⟩
    · intro j us hj
      simp only [St.setHeld] at hj; split at hj
      · cases hj
      · exact h.nd j us hj
    · intro a b us vs t ha hb hu hv
      simp only [St.setHeld] at ha hb
      split at ha
      · cases ha
      · split at hb
        · cases hb
        · exact h.excl a b us vs t ha hb hu hv

theorem Reach.inv {s} (h : Reach s) : Inv s := by
  induction h with
  | init => exact Inv.init
  | acquire i ts _ hi hn ih => exact ih.acquire i ts hi hn
  | release i _ e ih =>
    obtain ⟨s', e', hi, -⟩ := ih.release i
    rw [e] at e'; cases e'; exact hi

/-- A whole locking attempt from a state in which its holder objects hold nothing: never
    undefined, and after a failure the same tables are locked and the same holders hold them. -/
theorem lockAll_spec (rs : List (List Nat)) {s : St} (h : Inv s) (i : Nat)
    (hf : ∀ j, i ≤ j → s.held j = none) (hn : ∀ r ∈ rs, r.Nodup) :
    ∃ b s', lockAll s i rs = some (b, s') ∧ Inv s' ∧ (∀ j, j < i → s'.held j = s.held j) ∧
      (b = false → s'.held = s.held) ∧
      (b = true → ∀ n (hn : n < rs.length), s'.held (i + n) = some rs[n]) := by
  induction rs generalizing s i with
  | nil => exact ⟨true, s, rfl, h, fun _ _ => rfl, fun e => (by cases e), fun _ n hn => by simp at hn⟩
  | cons r rs ih =>
    unfold lockAll
    have ha := h.acquire i r (hf i (le_refl _)) (hn r List.mem_cons_self)
    have hot : ∀ j, j ≠ i → (acquire s i r).2.held j = s.held j := by
      intro j hj; unfold acquire; split
      · simp [St.setHeld, hj]
      · split
        · rfl
        · simp [St.setHeld, hj]
    have hok : (acquire s i r).1 = true → (acquire s i r).2.held i = some r := by
      unfold acquire; split
      · next h0 => intro _; simp [St.setHeld, h0]
      · split
        · intro e; cases e
        · intro _; simp [St.setHeld]
    have hfail : (acquire s i r).1 = false → (acquire s i r).2 = s := by
      unfold acquire; split
      · intro e; cases e
      · split
        · intro _; rfl
        · intro e; cases e
    generalize hq : acquire s i r = q at ha hot hok hfail
    obtain ⟨b, s1⟩ := q
    cases b with
    | false =>
      have := hfail rfl; simp only at this; subst this
      exact ⟨false, _, rfl, h, fun _ _ => rfl, fun _ => rfl, fun e => by cases e⟩
    | true =>
      simp only at ha hot hok ⊢
      obtain ⟨b2, s2, e2, hi2, hlt, hff, htt⟩ := ih ha (i + 1)
        (fun j hj => by rw [hot j (by omega)]; exact hf j (by omega))
        (fun r hr => hn r (List.mem_cons_of_mem _ hr))
      rw [e2]
      cases b2 with
      | true =>
        refine ⟨true, s2, rfl, hi2, ?_, fun e => (by cases e), ?_⟩
        · intro j hj; rw [hlt j (by omega), hot j (by omega)]
        · intro _ n hlen
          cases n with
          | zero => simp only [Nat.add_zero, List.getElem_cons_zero]; rw [hlt i (by omega)]; exact hok trivial
          | succ n =>
            have := htt rfl n (by simpa using hlen)
            simp only [List.getElem_cons_succ]; rw [← this]; congr 1; omega
      | false =>
        obtain ⟨s3, e3, hi3, h0, hoth⟩ := hi2.release i
        simp only [e3, Option.map_some]
        have hheld : s3.held = s.held := by
          funext j
          by_cases hj : j = i
          · subst hj; rw [h0, hf j (le_refl _)]
          · rw [hoth j hj, hff rfl, hot j hj]
        exact ⟨false, s3, rfl, hi3, fun j _ => by rw [hheld], fun _ => hheld, fun e => by cases e⟩

end Jungle.Locks
