/-
  C22: the prefix search.  The specification is `Spec.answerRec` (Verif/Spec/KV.lean) and
  `Spec.told` (Verif/Spec/Search.lean).
-/
import Verif.DB.SearchLemmas
import Verif.Codec.ByteKey
import Verif.Iter.KeyDBLemmas
import Verif.Props.Iter

set_option linter.unusedSectionVars false

namespace Jungle
open Spec Iter

/-- The prefixes of byte strings.  Matching is having the prefix, see `bytePfx_hit`. -/
def bytePfx (p : ByteKey) : Pfx ByteKey where
  key := p
  hit := fun k => ByteKey.prefixMatch p.bytes k.bytes
  ge := by
    intro k h
    obtain ⟨s, hs⟩ := (ByteKey.prefixMatch_iff _ _).1 h
    rw [ByteKey.le_iff, hs]
    exact ByteKey.dict_append _ _
  conv := by
    intro a b h1 h2 h
    rw [ByteKey.prefixMatch_iff] at *
    exact ByteKey.prefix_between ((ByteKey.le_iff _ _).1 h1) ((ByteKey.le_iff _ _).1 h2) h

theorem bytePfx_hit (p k : ByteKey) : (bytePfx p).hit k = true ↔ ∃ s, k.bytes = p.bytes ++ s :=
  ByteKey.prefixMatch_iff _ _

section
variable {K : Type} [LinearOrder K] [OrderBot K] {c : TCfg K} {parts : Nat} {hp : 0 < parts}

theorem exists_max : ∀ (l : List (Rec K)) (y : Rec K), y ∈ l → ∃ z ∈ l, ∀ w ∈ l, w.seq ≤ z.seq
  | [], _, h => by cases h
  | [x], _, _ => ⟨x, List.mem_singleton.2 rfl, fun w hw => by rw [List.mem_singleton.1 hw]⟩
  | x :: y :: l, _, _ => by
    obtain ⟨z, hz, hm⟩ := exists_max (y :: l) y List.mem_cons_self
    by_cases h : z.seq ≤ x.seq
    · refine ⟨x, List.mem_cons_self, fun w hw => ?_⟩
      rcases List.mem_cons.1 hw with rfl | hw
      · exact Nat.le_refl _
      · exact Nat.le_trans (hm w hw) h
    · refine ⟨z, List.mem_cons_of_mem _ hz, fun w hw => ?_⟩
      rcases List.mem_cons.1 hw with rfl | hw
      · omega
      · exact hm w hw

/-- C22 (part): there is one list `L` of records, the same for every callback, and the callback is
    handed the records of `L` until it answers STOP; the status says whether there was any.  All
    records of `L` were written and match.  Of each key, the report with the highest number is the
    live record of the key or a deletion: so every live key with the prefix is reported with its
    newest value, and a caller who keeps, per key, the record with the highest number gets exactly
    the live keys with the prefix.

    `ph` is the partition hash of the prefix if the configuration derives one; matching keys must
    have that hash.  Missing: prefixes that span three or more tables of a level (`Spans2`), where
    it is false (`C22_three_tables_violation`); that each key is reported once, which is false
    (`C22_old_version_violation`). -/
theorem C22_complete_partial {db : DB K (Lsm c parts hp)} {h : List (Rec K)} (hr : Reach db h)
    (hc : db.closing = false) (P : Pfx K) (ph : Option Nat)
    (hph : ∀ n, ph = some n → ∀ k, P.hit k = true → c.hash k = n)
    (hsp : ∀ l ∈ (db.table : TMgr K).lv, Spans2 l P) :
    ∃ L : List (Rec K),
      (∀ cb, db.getRecordsByPrefix P ph cb =
        (if L = [] then .keyNotFound else .ok, (told cb L []).2)) ∧
      (∀ x ∈ L, x ∈ h ∧ P.hit x.key = true) ∧
      ∀ e, (e ∈ L ∧ e.isIns = true ∧ ∀ y ∈ L, y.key = e.key → y.seq ≤ e.seq) ↔
        (answerRec h e.key = (.ok, some e) ∧ P.hit e.key = true) := by
  obtain ⟨A, B, rfl, hinv, hn⟩ := hr.inv_with (TMgr.newest_pred c parts hp)
  have ht : TMgr.Inv c (db.table : TMgr K) := hinv.table
  obtain ⟨L1, a1, -, a3⟩ := hinv.log.getPrefix P
  have htab := mem_tableHits ht P hph hsp
  have hok := prefixTables_ok ht P ph
  generalize hL2 : ((db.table : TMgr K).prefixTables P ph).flatten.flatMap (·.hits P) = L2 at htab
  have hchk : db.check .read = .ok := by unfold DB.check; simp [hc]
  have hra : ∀ k, InRange (none : Option K) none k := fun k => ⟨fun _ h => (by cases h), fun _ h => (by cases h)⟩
  have hmem : ∀ x, x ∈ L1 ++ L2 ↔
      (LogQ B none none x ∨ InTables c (db.table : TMgr K) none none x) ∧ P.hit x.key = true := by
    intro x
    rw [List.mem_append, a1, htab]
    unfold LogQ InTables
    have := hra x.key
    constructor
    · rintro (⟨u, v⟩ | ⟨u, v⟩)
      · exact ⟨Or.inl ⟨u, this⟩, v⟩
      · exact ⟨Or.inr ⟨u, this⟩, v⟩
    · rintro ⟨⟨u, -⟩ | ⟨u, -⟩, v⟩
      · exact Or.inl ⟨u, v⟩
      · exact Or.inr ⟨u, v⟩
  have hempty : ∀ cb : Cb K, ∀ L : List (Rec K), ∀ out, ((told cb L out).2 = [] ↔ L = [] ∧ out = []) := by
    intro cb L
    induction L with
    | nil => intro out; simp [told]
    | cons r rs ih =>
      intro out
      have : told cb (r :: rs) out = if cb out r then (true, out ++ [r]) else told cb rs (out ++ [r]) := rfl
      rw [this]
      by_cases hcb : cb out r = true
      · simp [hcb]
      · simp only [hcb, Bool.false_eq_true, if_false, ih]
        simp
  refine ⟨L1 ++ L2, ?_, ?_, ?_⟩
  · intro cb
    have happ := told_append cb L1 L2 []
    have hfin : ∀ out : List (Rec K), out = (told cb (L1 ++ L2) []).2 →
        (if out = [] then Status.keyNotFound else Status.ok) = if L1 ++ L2 = [] then .keyNotFound else .ok := by
      intro out ho
      have := hempty cb (L1 ++ L2) []
      rw [← ho] at this
      by_cases h0 : L1 ++ L2 = []
      · rw [if_pos h0, if_pos (this.2 ⟨h0, rfl⟩)]
      · rw [if_neg h0, if_neg (fun h' => h0 (this.1 h').1)]
    unfold DB.getRecordsByPrefix
    rw [if_neg (by rw [hchk]; simp)]
    simp only [a3 cb, hinv.mode, Bool.false_eq_true, if_false]
    cases ht1 : (told cb L1 []).1 with
    | true =>
      simp only [ht1, if_true] at happ ⊢
      have hne : L1 ++ L2 ≠ [] := by
        intro h0
        rw [(List.append_eq_nil_iff.1 h0).1] at ht1
        cases ht1
      rw [if_neg hne, happ]
    | false =>
      simp only [ht1, Bool.false_eq_true, if_false] at happ ⊢
      obtain ⟨s', b1, b2, b3⟩ := levelsPrefix_spec P cb _ .ok (told cb L1 []).2 (Or.inl rfl) hok
      rw [hL2] at b1 b2 b3
      rw [← happ] at b1 b2 b3
      have b3' : TMgr.getPrefix (db.table : TMgr K) P ph cb (told cb L1 []).2 = (s', (told cb (L1 ++ L2) []).2) := b3
      rw [b3']
      have hs' : s' = .ok ∨ s' = .keyNotFound ∨ s' = .operationStopped := by
        cases hq : (told cb (L1 ++ L2) []).1 with
        | true => exact Or.inr (Or.inr (b2 hq))
        | false => rcases b1 hq with h | h
                   · exact Or.inl h
                   · exact Or.inr (Or.inl h)
      rcases hs' with rfl | rfl | rfl <;> simp only [hfin _ rfl]
  · intro x hx
    obtain ⟨hx, hh⟩ := (hmem x).1 hx
    refine ⟨?_, hh⟩
    rcases hx with hx | hx
    · exact List.mem_append_right _ (lastWrite_mem hx.1).1
    · exact (hn.mem _ x hx.1).1
  · intro e
    have hlive := keyQ_live hinv.log ht hn hinv.old none none e
    unfold Live at hlive
    have hbest : (e ∈ L1 ++ L2 ∧ ∀ y ∈ L1 ++ L2, y.key = e.key → y.seq ≤ e.seq) ↔
        KeyQ c (db.table : TMgr K) B none none e ∧ P.hit e.key = true := by
      constructor
      · rintro ⟨h1, h2⟩
        obtain ⟨h1, h3⟩ := (hmem e).1 h1
        have hall : ∀ y, (LogQ B none none y ∨ InTables c (db.table : TMgr K) none none y) → y.key = e.key →
            y.seq ≤ e.seq := fun y hy hk => h2 y ((hmem y).2 ⟨hy, by rw [hk]; exact h3⟩) hk
        refine ⟨⟨?_, ?_⟩, h3⟩
        · rcases h1 with h1 | h1
          · exact Or.inl h1
          · exact Or.inr ⟨h1, fun y hy hk => hall y (Or.inr hy) hk⟩
        · rintro y (hy | hy) hk
          · exact hall y (Or.inl hy) hk
          · exact hall y (Or.inr hy.1) hk
      · rintro ⟨⟨h1, h2⟩, h3⟩
        refine ⟨(hmem e).2 ⟨?_, h3⟩, ?_⟩
        · rcases h1 with h1 | h1
          · exact Or.inl h1
          · exact Or.inr h1.1
        · intro y hy hk
          obtain ⟨hy, -⟩ := (hmem y).1 hy
          rcases hy with hy | hy
          · exact h2 y (Or.inl hy) hk
          · -- the best of the tables is not below `y` and not above `e`
            have hst : y ∈ TMgr.stack c (db.table : TMgr K) e.key := hk ▸ hy.1
            obtain ⟨z, hz, hzm⟩ := exists_max (TMgr.stack c (db.table : TMgr K) e.key) y hst
            have hzk := (hn.mem _ z hz).2.1
            have := h2 z (Or.inr ⟨⟨by rw [hzk]; exact hz, hra _⟩, fun w hw hwk => ?_⟩) hzk
            · exact Nat.le_trans (hzm y hst) this
            · refine hzm w ?_
              have hwk' : w.key = e.key := by
                have : w.key = z.key := hwk
                rw [this, hzk]
              rw [← hwk']; exact hw.1
    constructor
    · rintro ⟨h1, h2, h3⟩
      obtain ⟨h4, h5⟩ := hbest.1 ⟨h1, h3⟩
      exact ⟨(hlive.1 ⟨h4, h2⟩).1, h5⟩
    · rintro ⟨h1, h2⟩
      obtain ⟨h3, h4⟩ := hlive.2 ⟨h1, hra _⟩
      obtain ⟨h5, h6⟩ := hbest.2 ⟨h3, h2⟩
      exact ⟨h5, h4, h6⟩

end

/-! ### examples and counterexamples -/
namespace SearchEx
open IterEx

/-- The keys 10 to 19 play the part of the keys with a prefix. -/
def tens : Pfx Nat where
  key := 10
  hit := fun k => decide (10 ≤ k ∧ k < 20)
  ge := by intro k h; simp only [decide_eq_true_eq] at h; exact h.1
  conv := by intro a b h1 h2 h; simp only [decide_eq_true_eq] at h ⊢; omega

/-- A callback that never answers STOP, and one that does after two records. -/
def all : Cb Nat := fun _ _ => false
def two : Cb Nat := fun out _ => decide (1 ≤ out.length)

/-- Two tables in level 1, one record in level 0, two log files; 12 is deleted, 10 overwritten. -/
def p1 : List (Cmd Nat) := [.put 1 1, .put 10 2, .put 12 3, .put 15 4, .put 21 5, .sync, .flush, .l0Begin 0, .l0End 0]
def q1 : List (Cmd Nat) := [.put 10 6, .sync, .flush, .rm 12, .put 11 7 true]
def s1a := (start p1).get (by decide +kernel)
theorem r1a : Reach s1a.1 s1a.2 := Cmd.start_reach plain (Option.some_get _).symm
def t1 : TMgr Nat := TMgr.splitOp (s1a.1.table : TMgr Nat) 0 2 (fun i => decide (i = 2))
def s1b : DB Nat (Lsm c 1 (by decide)) := { s1a.1 with table := t1 }
theorem r1b : Reach s1b s1a.2 := Reach.maint r1a (TMgr.Maint.split _ 0 2 _)
def s1 := (Cmd.run (s1b, s1a.2) q1).get (by decide +kernel)
theorem r1 : Reach s1.1 s1.2 := Cmd.run_reach (s := (s1b, s1a.2)) r1b (Option.some_get _).symm

theorem spans1 : ∀ l ∈ (s1.1.table : TMgr Nat).lv, Spans2 l tens := by
  unfold Spans2; decide +kernel

/-- What the callback gets: the log first, then level 0, then level 1. -/
theorem out1 : s1.1.getRecordsByPrefix tens none all = (.ok, [insr 8 11 7, { seq := 7, type := .deletion, key := 12 },
    insr 6 10 6, insr 2 10 2, insr 3 12 3, insr 4 15 4]) := by decide +kernel

example : s1.1.getRecordsByPrefix tens none two = (.ok, [insr 8 11 7, { seq := 7, type := .deletion, key := 12 }]) := by
  decide +kernel

/-- The hypotheses of `C22_complete_partial` hold here and its conclusion says that 10, 11 and 15 are
    live: what remains of `out1` if one keeps the newest report of each key. -/
example : answerRec s1.2 15 = (.ok, some (insr 4 15 4)) ∧ answerRec s1.2 10 = (.ok, some (insr 6 10 6)) := by
  obtain ⟨L, h1, h2, h3⟩ := C22_complete_partial r1 rfl tens none (fun _ h => by cases h) spans1
  have hL : (told all L []).2 = L := by
    have : ∀ (L out : List (Rec Nat)), (told all L out).2 = out ++ L := by
      intro L
      induction L with
      | nil => intro out; simp [told]
      | cons r rs ih => intro out; simp [told, all] at ih ⊢; rw [ih]; simp
    simpa using this L []
  have h4 := h1 all
  rw [out1, hL] at h4
  have h5 := (congrArg Prod.snd h4).symm
  simp only at h5
  subst h5
  exact ⟨((h3 (insr 4 15 4)).1 (by decide)).1, ((h3 (insr 6 10 6)).1 (by decide)).1⟩

/-- Three tables of one level hold matching keys. -/
def s2a := (start [.put 11 1, .put 12 2, .put 13 3, .sync, .flush, .l0Begin 0, .l0End 0]).get (by decide +kernel)
theorem r2a : Reach s2a.1 s2a.2 := Cmd.start_reach plain (Option.some_get _).symm
def s2 : DB Nat (Lsm c 1 (by decide)) :=
  { s2a.1 with table := TMgr.splitOp (s2a.1.table : TMgr Nat) 0 2 (fun _ => true) }
theorem r2 : Reach s2 s2a.2 := Reach.maint r2a (TMgr.Maint.split _ 0 2 _)

/-- 10 is flushed, then deleted. -/
def s4 := (start [.put 10 1, .sync, .flush, .rm 10]).get (by decide +kernel)
theorem r4 : Reach s4.1 s4.2 := Cmd.start_reach plain (Option.some_get _).symm
/-- 10 is flushed, then overwritten and flushed while a level-0 compaction runs; then a restart. -/
def s5a := (start [.put 10 1, .sync, .flush, .l0Begin 0, .put 10 2, .sync, .flush]).get (by decide +kernel)
theorem r5a : Reach s5a.1 s5a.2 := Cmd.start_reach plain (Option.some_get _).symm
def s5 : DB Nat (Lsm c 1 (by decide)) := { s5a.1 with table := TMgr.reopen (s5a.1.table : TMgr Nat) }
theorem r5 : Reach s5 s5a.2 := Reach.maint r5a (TMgr.Maint.reopen _)
end SearchEx

open SearchEx in
/-- C22 is false if the keys with the prefix are in three tables of a level: the third is not read. -/
theorem C22_three_tables_violation : ∃ (db : DB Nat (Lsm IterEx.c 1 (by decide))) (h : List (Rec Nat)) (P : Pfx Nat),
    Reach db h ∧ db.closing = false ∧ P.hit 13 = true ∧ answer h 13 = (.ok, some [3]) ∧ db.get 13 = (.ok, some [3]) ∧
    ∃ out, db.getRecordsByPrefix P none (fun _ _ => false) = (.ok, out) ∧ ∀ r ∈ out, r.key ≠ 13 :=
  ⟨s2, s2a.2, tens, r2, rfl, by decide, by decide +kernel, by decide +kernel, _,
    Prod.ext (by decide +kernel) rfl, by decide +kernel⟩

open SearchEx in
/-- C22: a deleted key is reported with its last value, if that is still in a table. -/
theorem C22_old_version_violation : ∃ (db : DB Nat (Lsm IterEx.c 1 (by decide))) (h : List (Rec Nat)) (P : Pfx Nat),
    Reach db h ∧ db.closing = false ∧ answer h 10 = (.keyNotFound, none) ∧ db.get 10 = (.keyNotFound, none) ∧
    ∃ out, db.getRecordsByPrefix P none (fun _ _ => false) = (.ok, out) ∧ ∃ r ∈ out, r.key = 10 ∧ r.isIns = true :=
  ⟨s4.1, s4.2, tens, r4, rfl, by decide +kernel, by decide +kernel, _,
    Prod.ext (by decide +kernel) rfl, by decide +kernel⟩

open SearchEx in
/-- C22: the first report of a key can be an old value: after a restart in the middle of a level-0
    compaction, a callback that stops at the first record gets the value before the last write. -/
theorem C22_stale_first_violation : ∃ (db : DB Nat (Lsm IterEx.c 1 (by decide))) (h : List (Rec Nat)) (P : Pfx Nat),
    Reach db h ∧ db.closing = false ∧ answer h 10 = (.ok, some [2]) ∧ db.get 10 = (.ok, some [2]) ∧
    db.getRecordsByPrefix P none (fun _ _ => true) = (.ok, [IterEx.insr 1 10 1]) :=
  ⟨s5, s5a.2, tens, r5, rfl, by decide +kernel, by decide +kernel, by decide +kernel⟩

namespace SearchEx

/-- The same with byte strings as keys: "ab" finds "ab" and "abc", not "b" nor "a". -/
def sb := (Cmd.start (K := ByteKey) { hash := fun k => k.bytes.length } 2 (by decide) {} [.put ⟨[97]⟩ 1, .put ⟨[97, 98]⟩ 2,
  .put ⟨[97, 98, 99]⟩ 3, .sync, .flush, .put ⟨[98]⟩ 4]).get (by decide +kernel)
theorem rb : Reach sb.1 sb.2 := Cmd.start_reach IterEx.plain (Option.some_get _).symm

example : (sb.1.getRecordsByPrefix (bytePfx ⟨[97, 98]⟩) none (fun _ _ => false)).2.map (·.key.bytes) =
    [[97, 98, 99], [97, 98]] := by decide +kernel

end SearchEx
end Jungle
