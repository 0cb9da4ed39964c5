/-
  Sample keys: C56.  And what any use of an iterator returns was written (C18, C19, C20).
-/
import Verif.DB.Script
import Verif.Props.KV
import Verif.Props.SeqIter
import Verif.Sampler.Lemmas

set_option linter.unusedSectionVars false

namespace Jungle
open Spec Iter

/-! ### Any use of an iterator -/

/-- A call on an iterator. -/
inductive ItrCall (O : Type)
  | next
  | prev
  /-- `seek` / `seekSN` with an option, `gotoBegin`, `gotoEnd` -/
  | seek (q : Seek O)

namespace Iter
variable {K : Type} [LinearOrder K]

/-- The calls one after the other, whatever they return, with a `get` after each. -/
def keyCalls : KeyIt K → List (ItrCall K) → List (Option (Rec K))
  | it, [] => [(keyGet it).2]
  | it, .next :: cs => (keyGet it).2 :: keyCalls (keyStep .fwd it).2 cs
  | it, .prev :: cs => (keyGet it).2 :: keyCalls (keyStep .bwd it).2 cs
  | it, .seek q :: cs => (keyGet it).2 :: keyCalls (keySeek q it).2 cs

def seqCalls : SeqIt K → List (ItrCall Nat) → List (Option (Rec K))
  | it, [] => [(sqGet it).2]
  | it, .next :: cs => (sqGet it).2 :: seqCalls (sqStep .fwd it).2 cs
  | it, .prev :: cs => (sqGet it).2 :: seqCalls (sqStep .bwd it).2 cs
  | it, .seek q :: cs => (sqGet it).2 :: seqCalls (sqSeek q it).2 cs

theorem keyCalls_in {H : Rec K → Prop} : ∀ (cs : List (ItrCall K)) {it : KeyIt K}, KeyOnly H it →
    ∀ e, some e ∈ keyCalls it cs → H e ∧ e.isIns = true := by
  intro cs
  induction cs with
  | nil => intro it h e he; exact h.get (List.mem_singleton.1 he).symm
  | cons c cs ih =>
    intro it h e he
    cases c <;> rcases List.mem_cons.1 he with he | he
    · exact h.get he.symm
    · exact ih (h.step _) e he
    · exact h.get he.symm
    · exact ih (h.step _) e he
    · exact h.get he.symm
    · exact ih (h.seek _) e he

theorem seqCalls_in {H : Rec K → Prop} : ∀ (cs : List (ItrCall Nat)) {it : SeqIt K}, SeqOnly H it →
    ∀ e, some e ∈ seqCalls it cs → H e := by
  intro cs
  induction cs with
  | nil => intro it h e he; exact h.get (List.mem_singleton.1 he).symm
  | cons c cs ih =>
    intro it h e he
    cases c <;> rcases List.mem_cons.1 he with he | he
    · exact h.get he.symm
    · exact ih (h.step _) e he
    · exact h.get he.symm
    · exact ih (h.step _) e he
    · exact h.get he.symm
    · exact ih (h.seek _) e he

end Iter

section
variable {K : Type} [LinearOrder K] [OrderBot K] {c : TCfg K} {parts : Nat} {hp : 0 < parts}

/-- C18, C19: any calls on an iterator by key, with any bounds, in any order, also after one that
    failed: every record it returns is an insertion that was accepted, with its key, number and
    value.  (Which of them, and when, is what the other theorems of C17-C19 and their counterexamples
    are about.) -/
theorem C18_only_written {db : DB K (Lsm c parts hp)} {h : List (Rec K)} (hr : Reach db h)
    {lo hi : Option K} {it : KeyIt K} (ho : db.keyItr lo hi = (.ok, some it)) (cs : List (ItrCall K)) :
    ∀ e, some e ∈ keyCalls it cs → e ∈ h ∧ e.isIns = true := by
  have hit : it = keyInit db.log (db.table : TMgr K) lo hi := by
    unfold DB.keyItr at ho
    split at ho
    · exact nomatch (congrArg Prod.snd ho)
    · cases ho; rfl
  subst hit
  exact keyCalls_in cs (hr.keyIn lo hi)

/-- C20: any calls on an iterator by sequence number, with any bounds: every record it returns was
    accepted. -/
theorem C20_only_written {db : DB K (Lsm c parts hp)} {h : List (Rec K)} (hr : Reach db h)
    {lo hi : Nat} {it : SeqIt K} (ho : db.seqItr lo hi = (.ok, some it)) (cs : List (ItrCall Nat)) :
    ∀ e, some e ∈ seqCalls it cs → e ∈ h := by
  have hit : it = seqInit db.log (db.table : TMgr K) lo hi := by
    unfold DB.seqItr at ho
    split at ho
    · exact nomatch (congrArg Prod.snd ho)
    · split at ho
      · cases ho
      · cases ho; rfl
  subst hit
  exact seqCalls_in cs (hr.seqIn lo hi)

/-! ### Sample keys -/

theorem sample_open {db : DB K (Lsm c parts hp)} {h : List (Rec K)} (hr : Reach db h)
    (hc : db.closing = false) (hu : db.log.cfg.useSequenceIndex = true) :
    ∃ it Q L, db.seqItr NIL NIL = (.ok, some it) ∧ SeqScan h db.getLastFlushedSeqNum NIL NIL L ∧
      SLists Q L ∧ Sampler.Opn Q h it := by
  obtain ⟨it, Q, L, h1, h2, h3, h4⟩ := seqItr_open hr hc hu (Or.inl rfl) (Or.inl rfl)
  refine ⟨it, Q, L, h1, h2, h3, h4.opn, ?_⟩
  have hit : it = seqInit db.log (db.table : TMgr K) NIL NIL := by
    unfold DB.seqItr at h1
    split at h1
    · exact nomatch (congrArg Prod.snd h1)
    · split at h1
      · cases h1
      · cases h1; rfl
  subst hit
  exact hr.seqIn NIL NIL

theorem reach_numbers {db : DB K (Lsm c parts hp)} {h : List (Rec K)} (hr : Reach db h) :
    Increasing h ∧ (∀ r ∈ h, 0 < r.seq ∧ r.seq ≤ db.getMaxSeqNum.getD 0) ∧
      (h = [] → db.getMaxSeqNum.getD 0 = 0) := by
  obtain ⟨A, B, rfl, hi⟩ := hr.inv
  refine ⟨hi.log.inc, fun r hrm => ⟨(hi.pos r hrm).1, ?_⟩, fun h0 => by
    have := hi.max0 h0
    unfold DB.getMaxSeqNum; rw [this]; rfl⟩
  have hne : A ++ B ≠ [] := List.ne_nil_of_mem hrm
  have hm := hi.maxS hne
  unfold DB.getMaxSeqNum
  rw [hm, List.getLast?_eq_some_getLast hne]
  show r.seq ≤ ((A ++ B).getLast hne).seq
  have hinc := hi.log.inc
  have hd := List.dropLast_append_getLast hne
  rw [← hd] at hinc hrm
  rcases List.mem_append.1 hrm with h1 | h1
  · exact Nat.le_of_lt ((List.pairwise_append.1 hinc).2.2 r h1 _ (by simp))
  · rw [List.mem_singleton.1 h1]

theorem sample_eq {db : DB K (Lsm c parts hp)} (hc : db.closing = false) {n : Nat} (hn : 0 < n) (live : Bool) :
    db.getSampleKeys n live = if 1 > db.getMaxSeqNum.getD 0 then (.ok, some []) else
      match db.seqItr NIL NIL with
      | (_, none) => (.ok, some [])
      | (_, some it) =>
        (.ok, Sampler.loop live (fun k => decide ((db.get k).1 = .ok)) (db.getMaxSeqNum.getD 0) n
          ((db.getMaxSeqNum.getD 0 - 1) / n) (1 + (db.getMaxSeqNum.getD 0 - 1) / n)
          (1 + (db.getMaxSeqNum.getD 0 - 1) / n + (db.getMaxSeqNum.getD 0 - 1) / n) [] it) := by
  have hchk : db.check .read = .ok := by unfold DB.check; simp [hc]
  unfold DB.getSampleKeys
  rw [if_neg (by omega)]
  simp only [hchk, ne_eq, not_true, if_false]
  rfl

/-- C56: a request for `n` samples succeeds and returns at most `n` different keys, each of them the
    key of an accepted record; with `liveKeysOnly` each of them exists now. -/
theorem C56_sample {db : DB K (Lsm c parts hp)} {h : List (Rec K)} (hr : Reach db h)
    (hc : db.closing = false) {n : Nat} (hn : 0 < n) (live : Bool) :
    ∃ ks, db.getSampleKeys n live = (.ok, some ks) ∧ ks.length ≤ n ∧ ks.Nodup ∧
      (∀ k ∈ ks, ∃ r ∈ h, r.key = k) ∧
      (live = true → ∀ k ∈ ks, ∃ v, answer h k = (.ok, some v)) := by
  have hchk : db.check .read = .ok := by unfold DB.check; simp [hc]
  have hempty : ∃ ks, ((Status.ok, some ([] : List K)) : Status × Option (List K)) = (.ok, some ks) ∧
      ks.length ≤ n ∧ ks.Nodup ∧ (∀ k ∈ ks, ∃ r ∈ h, r.key = k) ∧
      (live = true → ∀ k ∈ ks, ∃ v, answer h k = (.ok, some v)) :=
    ⟨[], rfl, by simp, by simp, by simp, by simp⟩
  rw [sample_eq hc hn]
  split
  · exact hempty
  · cases hu : db.log.cfg.useSequenceIndex with
    | false =>
      have : db.seqItr NIL NIL = (.seqIndexUnavailable, none) := by
        unfold DB.seqItr; rw [if_neg (by simp [hchk]), if_pos hu]
      rw [this]
      exact hempty
    | true =>
      obtain ⟨it, Q, L, h1, h2, h3, h4⟩ := sample_open hr hc hu
      rw [h1]
      simp only
      obtain ⟨ks, g1, g2, g3, g4, g5, _⟩ := Sampler.loop_spec (live := live)
        (lives := fun k => decide ((db.get k).1 = .ok)) (mx := db.getMaxSeqNum.getD 0) h3
        (fun e he => (h2.sound e he).1) (reach_numbers hr).1 n ((db.getMaxSeqNum.getD 0 - 1) / n)
        (1 + (db.getMaxSeqNum.getD 0 - 1) / n)
        (1 + (db.getMaxSeqNum.getD 0 - 1) / n + (db.getMaxSeqNum.getD 0 - 1) / n) [] it h4
      rw [g1]
      refine ⟨ks, rfl, g2, by simpa using g3 List.nodup_nil, ?_, ?_⟩
      · intro k hk
        obtain ⟨r, hrL, hrk⟩ := g4 k hk
        exact ⟨r, (h2.sound r hrL).1, hrk⟩
      · intro hl k hk
        have := g5 hl k hk
        rw [decide_eq_true_eq, C01_get_returns_latest_write hr hc k] at this
        unfold answer at this ⊢
        cases hlw : lastWrite h k with
        | none => rw [hlw] at this; cases this
        | some r =>
          rw [hlw] at this
          simp only at this ⊢
          split at this
          · next hi => exact ⟨r.val, by rw [if_pos hi]⟩
          · cases this

/-- C56: asking for at least as many samples as the largest number in use returns every existing
    key; with `liveKeysOnly` exactly those. -/
theorem C56_all {db : DB K (Lsm c parts hp)} {h : List (Rec K)} (hr : Reach db h)
    (hc : db.closing = false) (hu : db.log.cfg.useSequenceIndex = true) {n : Nat} (hn : 0 < n)
    (hmax : db.getMaxSeqNum.getD 0 ≤ n) (live : Bool) :
    ∃ ks, db.getSampleKeys n live = (.ok, some ks) ∧
      (∀ k v, answer h k = (.ok, some v) → k ∈ ks) ∧
      (live = true → ∀ k, k ∈ ks ↔ ∃ v, answer h k = (.ok, some v)) := by
  obtain ⟨ks, hks, _, _, _, hlv⟩ := C56_sample hr hc hn live
  suffices key : ∀ k v, answer h k = (.ok, some v) → k ∈ ks from
    ⟨ks, hks, key, fun hl k => ⟨hlv hl k, fun ⟨v, hv⟩ => key k v hv⟩⟩
  intro k v hv
  obtain ⟨hinc, hnum, _⟩ := reach_numbers hr
  obtain ⟨r, hlw, hins⟩ : ∃ r, lastWrite h k = some r ∧ r.isIns = true := by
    unfold answer at hv
    cases hlw : lastWrite h k with
    | none => rw [hlw] at hv; cases hv
    | some r =>
      rw [hlw] at hv
      simp only at hv
      split at hv
      · next hi => exact ⟨r, rfl, hi⟩
      · cases hv
  obtain ⟨hrm, hrk, _⟩ := lastWrite_mem hlw
  have hpos := hnum r hrm
  obtain ⟨it, Q, L, h1, h2, h3, h4⟩ := sample_open hr hc hu
  have hrL : r ∈ L := by
    refine h2.live r ?_ ⟨fun h => absurd rfl h, fun h => absurd rfl h⟩
    unfold answerRec
    rw [hrk, hlw]
    simp [hins]
  have hst : (db.getMaxSeqNum.getD 0 - 1) / n = 0 := Nat.div_eq_of_lt (by omega)
  obtain ⟨ks', g1, g2⟩ := Sampler.loop_all (live := live)
    (lives := fun k => decide ((db.get k).1 = .ok)) (mx := db.getMaxSeqNum.getD 0) (n := n) h3
    (fun e he => (h2.sound e he).1) hinc (fun e he => (hnum e (h2.sound e he).1).2) hmax n
    ((db.getMaxSeqNum.getD 0 - 1) / n) (1 + (db.getMaxSeqNum.getD 0 - 1) / n)
    (1 + (db.getMaxSeqNum.getD 0 - 1) / n + (db.getMaxSeqNum.getD 0 - 1) / n) 0 [] it h4
    (by simp) hn (by simp) (fun y hy h0 => by
      have := (hnum y (h2.sound y hy).1).1
      omega) (by omega) (by omega) (by omega)
  rw [sample_eq hc hn, if_neg (by omega), h1] at hks
  simp only at hks
  rw [g1] at hks
  have hkk : ks' = ks := by
    have := congrArg Prod.snd hks
    simpa using this
  subst hkk
  rcases g2 r hrL with hh | ⟨_, hh⟩
  · rw [← hrk]; simpa using hh
  · exfalso
    have hh' : decide ((db.get r.key).1 = .ok) = false := hh
    rw [hrk, C01_get_returns_latest_write hr hc k, hv] at hh'
    simp at hh'

/-- C56: without `liveKeysOnly`, a database that has a key returns at least one. -/
theorem C56_some {db : DB K (Lsm c parts hp)} {h : List (Rec K)} (hr : Reach db h)
    (hc : db.closing = false) (hu : db.log.cfg.useSequenceIndex = true) {n : Nat} (hn : 0 < n)
    {k : K} {v : Bytes} (hv : answer h k = (.ok, some v)) :
    ∃ ks, db.getSampleKeys n false = (.ok, some ks) ∧ ks ≠ [] := by
  obtain ⟨hinc, hnum, _⟩ := reach_numbers hr
  obtain ⟨r, hlw, hins⟩ : ∃ r, lastWrite h k = some r ∧ r.isIns = true := by
    unfold answer at hv
    cases hlw : lastWrite h k with
    | none => rw [hlw] at hv; cases hv
    | some r =>
      rw [hlw] at hv
      simp only at hv
      split at hv
      · next hi => exact ⟨r, rfl, hi⟩
      · cases hv
  obtain ⟨hrm, hrk, _⟩ := lastWrite_mem hlw
  have hpos := hnum r hrm
  obtain ⟨it, Q, L, h1, h2, h3, h4⟩ := sample_open hr hc hu
  have hrL : r ∈ L := by
    refine h2.live r ?_ ⟨fun h => absurd rfl h, fun h => absurd rfl h⟩
    unfold answerRec
    rw [hrk, hlw]
    simp [hins]
  obtain ⟨ks, g1, _, _, _, _, g6⟩ := Sampler.loop_spec (live := false)
    (lives := fun k => decide ((db.get k).1 = .ok)) (mx := db.getMaxSeqNum.getD 0) h3
    (fun e he => (h2.sound e he).1) hinc n ((db.getMaxSeqNum.getD 0 - 1) / n)
    (1 + (db.getMaxSeqNum.getD 0 - 1) / n)
    (1 + (db.getMaxSeqNum.getD 0 - 1) / n + (db.getMaxSeqNum.getD 0 - 1) / n) [] it h4
  refine ⟨ks, ?_, g6 hn rfl (List.ne_nil_of_mem hrL) rfl⟩
  rw [sample_eq hc hn, if_neg (by omega), h1]
  simp only
  rw [g1]
  rfl

end

/-! ### Examples and counterexamples -/

namespace SampleEx

def c : TCfg Nat := { hash := fun k => k }
def start (cfg : Cfg) (xs : List (Cmd Nat)) := Cmd.start c 1 (by decide) cfg xs
theorem plain : Cfg.Plain {} := ⟨rfl, rfl, rfl, by decide⟩

/-- Two log files over a table: an overwritten key, a deleted key, a key only in the table. -/
def p1 : List (Cmd Nat) := [.put 1 10, .put 4 40, .put 7 70, .sync, .flush, .l0Begin 0, .l0End 0,
  .put 4 41, .rm 7, .put 2 20 true, .put 9 90]
def s1 := (start {} p1).get (by decide +kernel)
theorem r1 : Reach s1.1 s1.2 := Cmd.start_reach plain (Option.some_get _).symm

example : ∃ ks, s1.1.getSampleKeys 3 true = (.ok, some ks) ∧ ks.length ≤ 3 ∧ ks.Nodup ∧
    (∀ k ∈ ks, ∃ r ∈ s1.2, r.key = k) ∧ (true = true → ∀ k ∈ ks, ∃ v, answer s1.2 k = (.ok, some v)) :=
  C56_sample r1 rfl (by decide) true

/-- What the model computes, for 3 and for 100 samples, without and with `liveKeysOnly`. -/
example : s1.1.getSampleKeys 3 false = (.ok, some [7, 2, 9]) := by decide +kernel
example : s1.1.getSampleKeys 100 false = (.ok, some [1, 4, 7, 2, 9]) := by decide +kernel
example : s1.1.getSampleKeys 100 true = (.ok, some [1, 4, 2, 9]) := by decide +kernel
example : s1.1.getSampleKeys 0 true = (.invalidParameters, some []) := by decide +kernel

example : ∃ ks, s1.1.getSampleKeys 7 true = (.ok, some ks) ∧
    (∀ k v, answer s1.2 k = (.ok, some v) → k ∈ ks) ∧
    (true = true → ∀ k, k ∈ ks ↔ ∃ v, answer s1.2 k = (.ok, some v)) :=
  C56_all r1 rfl rfl (by decide) (by decide +kernel) true

example : ∃ ks, s1.1.getSampleKeys 2 false = (.ok, some ks) ∧ ks ≠ [] :=
  C56_some r1 rfl rfl (by decide) (k := 9) (v := [90]) (by decide +kernel)

/-- Any calls on an iterator of that handle. -/
example : ∃ it, s1.1.keyItr (some 2) none = (.ok, some it) ∧ ∀ e,
    some e ∈ keyCalls it [.prev, .seek (.le 5), .next, .next, .seek .last, .prev] → e ∈ s1.2 ∧ e.isIns = true := by
  have ho : s1.1.keyItr (some 2) none = (.ok, some (keyInit s1.1.log (s1.1.table : TMgr Nat) (some 2) none)) := by
    unfold DB.keyItr; rw [if_neg (by decide +kernel)]
  exact ⟨_, ho, C18_only_written r1 ho _⟩

example : ∃ it, s1.1.seqItr 3 100 = (.ok, some it) ∧ ∀ e,
    some e ∈ seqCalls it [.prev, .seek (.le 5), .next, .next, .seek .last, .prev] → e ∈ s1.2 :=
  ⟨seqInit s1.1.log (s1.1.table : TMgr Nat) 3 100, rfl, C20_only_written r1 rfl _⟩

def s2 := (start {} [.put 1 10, .put 2 20, .put 3 30, .rm 3]).get (by decide +kernel)
theorem r2 : Reach s2.1 s2.2 := Cmd.start_reach plain (Option.some_get _).symm

/-- C56 is false: there are existing keys, and a request for one sample of them returns none.  The
    search for the only sample begins at the largest number, the deletion of 3, and does not go
    back. -/
theorem C56_live_violation : ∃ (db : DB Nat (Lsm c 1 (by decide))) (h : List (Rec Nat)),
    Reach db h ∧ db.closing = false ∧ db.log.cfg.useSequenceIndex = true ∧
      db.get 1 = (.ok, some [10]) ∧ db.get 2 = (.ok, some [20]) ∧ db.getSampleKeys 1 true = (.ok, some []) :=
  ⟨s2.1, s2.2, r2, rfl, rfl, by decide +kernel, by decide +kernel, by decide +kernel⟩

def plain0 : Cfg := { useSequenceIndex := false }
def s3 := (start plain0 [.put 1 10, .put 2 20]).get (by decide +kernel)
theorem r3 : Reach s3.1 s3.2 := Cmd.start_reach ⟨rfl, rfl, rfl, by decide⟩ (Option.some_get _).symm

/-- Without the sequence index the call reports success and returns nothing. -/
theorem C56_no_index_violation : ∃ (db : DB Nat (Lsm c 1 (by decide))) (h : List (Rec Nat)),
    Reach db h ∧ db.closing = false ∧ db.get 1 = (.ok, some [10]) ∧ db.get 2 = (.ok, some [20]) ∧
      db.getSampleKeys 100 false = (.ok, some []) :=
  ⟨s3.1, s3.2, r3, rfl, by decide +kernel, by decide +kernel, by decide +kernel⟩

def d4 : DB Nat (Lsm c 1 (by decide)) := DB.init (Lsm c 1 (by decide)) {}
def cmd4 : Rec Nat := { seq := NIL, type := .command, key := 5 }
theorem r4 : Reach (d4.setRecord cmd4 false).2 ([] ++ number (d4.getMaxSeqNum.getD 0) [cmd4]) :=
  Reach.set cmd4 false (Reach.init {} plain) ⟨by decide +kernel, by decide +kernel⟩ (Or.inl rfl) (fun _ => rfl)
    (Prod.ext (by decide +kernel) rfl)

/-- Records that are commands are sampled as well: key 5 was never inserted, and it is returned. -/
theorem C56_command_violation : ∃ (db : DB Nat (Lsm c 1 (by decide))) (h : List (Rec Nat)),
    Reach db h ∧ db.closing = false ∧ (∀ r ∈ h, r.isCmd = true) ∧ db.get 5 = (.keyNotFound, none) ∧
      db.getSampleKeys 10 false = (.ok, some [5]) :=
  ⟨_, _, r4, rfl, by decide +kernel, by decide +kernel, by decide +kernel⟩

end SampleEx
end Jungle
