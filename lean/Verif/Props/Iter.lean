/-
  Iterators of a handle by key: C17 (a loop over the iterator returns the live records in order),
  C18 (changes of direction), C19 (seek).

  `Spec.LiveList h lo hi L` says what the list of live records is; `Spec.moves` says what moving in
  a list means.  `keyAll` and `keyRun` (`Verif/Iter/Client.lean`) are the loops of a client.
-/
import Mathlib.Order.Nat
import Verif.DB.Script
import Verif.Iter.Handle
import Verif.Iter.KeyDBLemmas

set_option linter.unusedSectionVars false

namespace Jungle
open Spec Iter

section
variable {K : Type} [LinearOrder K] [OrderBot K] {c : TCfg K} {parts : Nat} {hp : 0 < parts}

/-- Every history has a list of live records. -/
theorem C17_live_list_exists (h : List (Rec K)) (lo hi : Option K) : ∃ L, LiveList h lo hi L :=
  exists_list h lo hi

/-- What is known about a new iterator of a reachable handle. -/
theorem keyItr_open {db : DB K (Lsm c parts hp)} {h : List (Rec K)} (hr : Reach db h)
    (hc : db.closing = false) (lo hi : Option K) {L : List (Rec K)} (hL : LiveList h lo hi L) :
    ∃ it, db.keyItr lo hi = (.ok, some it) ∧
      ∀ (fr : Bool) (X : (Rec K → Prop) → Prop),
        (fr = true → ∀ f ∈ db.log.files, TwoKeys (LogQ f.pending lo hi)) →
        (fr = true → ∀ x ∈ itrTables (db.table : TMgr K) lo hi, TwoKeys (TabQ x lo hi)) →
        (∀ f ∈ db.log.files, (∃ y, LogQ f.pending lo hi y) → X (LogQ f.pending lo hi)) →
        (∀ x ∈ itrTables (db.table : TMgr K) lo hi, (∃ y, TabQ x lo hi y) → X (TabQ x lo hi)) →
        ∃ Q, Lists Q L ∧ AtFirst X lo hi Q L fr it := by
  obtain ⟨A, B, rfl, hinv, hn⟩ := hr.inv_with (TMgr.newest_pred c parts hp)
  refine ⟨keyInit db.log (db.table : TMgr K) lo hi, ?_, ?_⟩
  · unfold DB.keyItr DB.check
    simp [hc]
  · intro fr X h1 h2 h3 h4
    have ht : TMgr.Inv c (db.table : TMgr K) := hinv.table
    have ho := key_opened hinv.log ht hn lo hi h1 h2 h3 h4
    have hlive := keyQ_live hinv.log ht hn hinv.old lo hi
    have hl : Lists (KeyQ c (db.table : TMgr K) B lo hi) L :=
      ⟨hL.1, fun e => (hL.2 e).trans (hlive e).symm⟩
    exact ⟨_, hl, keyInit_first ho hl⟩

/-- The same without any knowledge about the sources. -/
theorem keyItr_plain {db : DB K (Lsm c parts hp)} {h : List (Rec K)} (hr : Reach db h)
    (hc : db.closing = false) (lo hi : Option K) {L : List (Rec K)} (hL : LiveList h lo hi L) :
    ∃ it, db.keyItr lo hi = (.ok, some it) ∧
      ∃ Q, Lists Q L ∧ AtFirst (fun _ => True) lo hi Q L false it := by
  obtain ⟨it, h1, h2⟩ := keyItr_open hr hc lo hi hL
  exact ⟨it, h1, h2 false _ (fun h => by cases h) (fun h => by cases h) (fun _ _ _ => trivial)
    (fun _ _ _ => trivial)⟩

/-- C17: iterating forward from the beginning returns every live key of the range once, in
    ascending order, with its newest value, and no deleted key; iterating backward from the end
    returns the same list reversed. -/
theorem C17_iteration {db : DB K (Lsm c parts hp)} {h : List (Rec K)} (hr : Reach db h)
    (hc : db.closing = false) (lo hi : Option K) {L : List (Rec K)} (hL : LiveList h lo hi L) :
    ∃ it, db.keyItr lo hi = (.ok, some it) ∧
      (∀ n, L.length ≤ n → keyAll .fwd n it = L) ∧
      ∃ it', keySeek .last it = (.ok, it') ∧
        (∀ n, L.length ≤ n → keyAll .bwd n it' = L.reverse) ∧
        ∃ it'', keySeek .first it' = (.ok, it'') ∧ ∀ n, L.length ≤ n → keyAll .fwd n it'' = L := by
  obtain ⟨it, h1, Q, hl, hf⟩ := keyItr_plain hr hc lo hi hL
  have fwd : ∀ {it : KeyIt K}, AtFirst (fun _ => True) lo hi Q L false it → ∀ n, L.length ≤ n →
      keyAll .fwd n it = L := by
    intro it hf n hn
    cases hL0 : L with
    | nil =>
      cases n with
      | zero => rfl
      | succ n => unfold keyAll; rw [hf.empty hL0]
    | cons a l =>
      have h0 : L[0]? = some a := by rw [hL0]; rfl
      rw [keyAll_fwd hl n 0 h0 (hf.rep a h0) (freshMode_can _ _ _) (by omega), List.drop_zero, hL0]
  obtain ⟨it', g1, g2⟩ := keySeek_last hf.opn hl
  obtain ⟨it'', g3, g4⟩ := keySeek_first g2.opn hl
  refine ⟨it, h1, fwd hf, it', g1, ?_, it'', g3, fwd g4⟩
  intro n hn
  by_cases hL0 : L = []
  · subst hL0
    cases n with
    | zero => rfl
    | succ n => unfold keyAll; rw [g2.empty rfl]; rfl
  · have hpos := List.length_pos_iff.2 hL0
    obtain ⟨e, he⟩ : ∃ e, L[L.length - 1]? = some e := ⟨L[L.length - 1], by simp⟩
    rw [keyAll_bwd hl n _ he (g2.rep e he) (freshMode_can _ _ _) (by omega)]
    congr 1
    rw [List.take_of_length_le (by omega)]

/-- C18, one change of direction: any number of `next` and then any number of `prev` behaves like
    moving in the list of live records; the same from the end with `prev` and then `next`. -/
theorem C18_one_turn_partial {db : DB K (Lsm c parts hp)} {h : List (Rec K)} (hr : Reach db h)
    (hc : db.closing = false) (lo hi : Option K) {L : List (Rec K)} (hL : LiveList h lo hi L)
    (hne : L ≠ []) (n m : Nat) :
    ∃ it, db.keyItr lo hi = (.ok, some it) ∧ keyGet it = (.ok, L[0]?) ∧
      keyRun it (List.replicate n true ++ List.replicate m false) =
        moves L 0 (List.replicate n true ++ List.replicate m false) ∧
      ∃ it', keySeek .last it = (.ok, it') ∧ keyGet it' = (.ok, L[L.length - 1]?) ∧
        keyRun it' (List.replicate n false ++ List.replicate m true) =
          moves L (L.length - 1) (List.replicate n false ++ List.replicate m true) := by
  obtain ⟨it, h1, Q, hl, hf⟩ := keyItr_plain hr hc lo hi hL
  obtain ⟨it', g1, g2⟩ := keySeek_last hf.opn hl
  have hpos := List.length_pos_iff.2 hne
  obtain ⟨a, ha⟩ : ∃ e, L[0]? = some e := ⟨L[0], by simp [hpos]⟩
  obtain ⟨e, he⟩ : ∃ e, L[L.length - 1]? = some e := ⟨L[L.length - 1], by simp⟩
  have hai := ((hl.mem a).1 (List.mem_of_getElem? ha)).2
  have hei := ((hl.mem e).1 (List.mem_of_getElem? he)).2
  exact ⟨it, h1, by rw [ha]; exact keyGet_ins (hf.rep a ha) hai,
    keyRun_spec hl _ ha (hf.rep a ha) (Mode.allows_fresh true n m),
    it', g1, by rw [he]; exact keyGet_ins (g2.rep e he) hei,
    keyRun_spec hl _ he (g2.rep e he) (Mode.allows_fresh false n m)⟩

/-- C18 for every list of moves, if no log file and no table has exactly one key to show: each
    holds none or at least two keys of the range.  `C18_violation` shows that this is needed. -/
theorem C18_all_moves_partial {db : DB K (Lsm c parts hp)} {h : List (Rec K)} (hr : Reach db h)
    (hc : db.closing = false) (lo hi : Option K) {L : List (Rec K)} (hL : LiveList h lo hi L)
    (hne : L ≠ []) (hlog : ∀ f ∈ db.log.files, TwoKeys (LogQ f.pending lo hi))
    (htab : ∀ x ∈ itrTables (db.table : TMgr K) lo hi, TwoKeys (TabQ x lo hi)) (bs : List Bool) :
    ∃ it, db.keyItr lo hi = (.ok, some it) ∧ keyGet it = (.ok, L[0]?) ∧
      keyRun it bs = moves L 0 bs := by
  obtain ⟨it, h1, h2⟩ := keyItr_open hr hc lo hi hL
  obtain ⟨Q, hl, hf⟩ := h2 true (fun _ => True) (fun _ => hlog) (fun _ => htab) (fun _ _ _ => trivial)
    (fun _ _ _ => trivial)
  have hpos := List.length_pos_iff.2 hne
  obtain ⟨a, ha⟩ : ∃ e, L[0]? = some e := ⟨L[0], by simp [hpos]⟩
  have hai := ((hl.mem a).1 (List.mem_of_getElem? ha)).2
  exact ⟨it, h1, by rw [ha]; exact keyGet_ins (hf.rep a ha) hai,
    keyRun_spec hl _ ha (hf.rep a ha) (Mode.allows_free bs)⟩

/-- In the list of live records a successful `next` followed by a successful `prev` leads back. -/
theorem C18_moves_return (L : List (Rec K)) (i : Nat) (e : Rec K) (hi : L[i]? = some e) :
    (i + 1 < L.length → (moves L i [true, false])[1]? = some (.ok, some e)) ∧
    (0 < i → (moves L i [false, true])[1]? = some (.ok, some e)) := by
  have hil := (List.getElem?_eq_some_iff.1 hi).1
  constructor
  · intro h
    simp only [moves, h, if_true, Nat.zero_lt_succ, List.getElem?_cons_succ, List.getElem?_cons_zero,
      Nat.add_sub_cancel, hi]
  · intro h
    have h1 : i - 1 + 1 = i := by omega
    simp only [moves, h, if_true, h1, hil, List.getElem?_cons_succ, List.getElem?_cons_zero, hi]

/-- C19, GREATER: if some live key is not below `k`, `seek(k)` goes to the smallest such key, and
    reading on returns the live records from there. -/
theorem C19_seek_greater_partial {db : DB K (Lsm c parts hp)} {h : List (Rec K)} (hr : Reach db h)
    (hc : db.closing = false) (lo hi : Option K) {L : List (Rec K)} (hL : LiveList h lo hi L)
    {k : K} (hlo : ∀ a, lo = some a → a ≤ k) (hhi : ∀ b, hi = some b → k ≤ b)
    {i : Nat} {e : Rec K} (he : L[i]? = some e) (hke : k ≤ e.key)
    (hmin : ∀ y ∈ L, k ≤ y.key → e.key ≤ y.key) :
    ∃ it it', db.keyItr lo hi = (.ok, some it) ∧ keySeek (.ge k) it = (.ok, it') ∧
      keyGet it' = (.ok, some e) ∧
      (∀ n, keyRun it' (List.replicate n true) = moves L i (List.replicate n true)) ∧
      ∀ n, L.length ≤ i + n → keyAll .fwd n it' = L.drop i := by
  obtain ⟨it, h1, Q, hl, hf⟩ := keyItr_plain hr hc lo hi hL
  obtain ⟨it', g1, g2, _⟩ := keySeek_ge hf.opn hl ⟨hlo, hhi⟩ he hke hmin
  have hei := ((hl.mem e).1 (List.mem_of_getElem? he)).2
  exact ⟨it, it', h1, g1, keyGet_ins g2 hei,
    fun n => keyRun_spec hl _ he g2 (Mode.allows_only true n),
    fun n hn => keyAll_fwd hl n i he g2 rfl hn⟩

/-- C19, SMALLER, if every log file and every table that shows a key of the range shows one that is
    not above `k`: `seek(k)` goes to the greatest live key that is not above `k`, and reading
    backward returns the live records down from there.  `C19_violation_smaller` shows that the
    condition is needed. -/
theorem C19_seek_smaller_partial {db : DB K (Lsm c parts hp)} {h : List (Rec K)} (hr : Reach db h)
    (hc : db.closing = false) (lo hi : Option K) {L : List (Rec K)} (hL : LiveList h lo hi L)
    {k : K} (hlo : ∀ a, lo = some a → a ≤ k) (hhi : ∀ b, hi = some b → k ≤ b)
    (hlog : ∀ f ∈ db.log.files, (∃ y, LogQ f.pending lo hi y) → ∃ y, LogQ f.pending lo hi y ∧ y.key ≤ k)
    (htab : ∀ x ∈ itrTables (db.table : TMgr K) lo hi, (∃ y, TabQ x lo hi y) →
      ∃ y, TabQ x lo hi y ∧ y.key ≤ k)
    {i : Nat} {e : Rec K} (he : L[i]? = some e) (hke : e.key ≤ k)
    (hmax : ∀ y ∈ L, y.key ≤ k → y.key ≤ e.key) :
    ∃ it it', db.keyItr lo hi = (.ok, some it) ∧ keySeek (.le k) it = (.ok, it') ∧
      keyGet it' = (.ok, some e) ∧
      (∀ n m, keyRun it' (List.replicate n false ++ List.replicate m true) =
        moves L i (List.replicate n false ++ List.replicate m true)) ∧
      ∀ n, i < n → keyAll .bwd n it' = (L.take (i + 1)).reverse := by
  obtain ⟨it, h1, h2⟩ := keyItr_open hr hc lo hi hL
  obtain ⟨Q, hl, hf⟩ := h2 false (fun P => ∃ y, P y ∧ y.key ≤ k) (fun h => by cases h)
    (fun h => by cases h) hlog htab
  obtain ⟨it', g1, g2⟩ := keySeek_le hf.opn hl ⟨hlo, hhi⟩ he hke hmax
  have hei := ((hl.mem e).1 (List.mem_of_getElem? he)).2
  exact ⟨it, it', h1, g1, keyGet_ins g2 hei,
    fun n m => keyRun_spec hl _ he g2 (Mode.allows_fresh false n m),
    fun n hn => keyAll_bwd hl n i he g2 trivial hn⟩

end

/-! ### Examples and counterexamples -/

namespace IterEx

def c : TCfg Nat := { hash := fun k => k }
def start (xs : List (Cmd Nat)) := Cmd.start c 1 (by decide) {} xs
theorem plain : Cfg.Plain {} := ⟨rfl, rfl, rfl, by decide⟩

def insr (s k : Nat) (v : UInt8) : Rec Nat := { seq := s, type := .insertion, key := k, val := [v] }

/-- Two log files over a table: an overwritten key, a deleted key, a key only in the table. -/
def p1 : List (Cmd Nat) := [.put 1 10, .put 4 40, .put 7 70, .sync, .flush, .l0Begin 0, .l0End 0,
  .put 4 41, .rm 7, .put 2 20 true, .put 9 90]
def s1 := (start p1).get (by decide +kernel)
theorem r1 : Reach s1.1 s1.2 := Cmd.start_reach plain (Option.some_get _).symm
def l1 : List (Rec Nat) := [insr 1 1 10, insr 6 2 20, insr 4 4 41, insr 7 9 90]

theorem hist1 : s1.2 = [insr 1 1 10, insr 2 4 40, insr 3 7 70, insr 4 4 41,
    { seq := 5, type := .deletion, key := 7 }, insr 6 2 20, insr 7 9 90] := by decide +kernel

theorem live_iff {h : List (Rec Nat)} {L : List (Rec Nat)}
    (h1 : L.Pairwise (fun a b => a.key < b.key))
    (h2 : ∀ r ∈ h, answerRec h r.key = (.ok, some r) → r ∈ L)
    (h3 : ∀ r ∈ L, answerRec h r.key = (.ok, some r)) : LiveList h none none L := by
  refine ⟨h1, fun e => ⟨fun he => ⟨h3 e he, by simp, by simp⟩, fun he => ?_⟩⟩
  exact h2 e (lastWrite_mem (answerRec_ok.1 he.1).1).1 he.1

theorem live1 : LiveList s1.2 none none l1 :=
  live_iff (by decide) (by rw [hist1]; decide) (by rw [hist1]; decide)

example : ∃ it, s1.1.keyItr none none = (.ok, some it) ∧ keyAll .fwd 10 it = l1 := by
  obtain ⟨it, h1, h2, _⟩ := C17_iteration r1 rfl none none live1
  exact ⟨it, h1, h2 10 (by decide)⟩

example : ∃ it, s1.1.keyItr none none = (.ok, some it) ∧
    (keyRun it [true, true, true, false]).map (fun x => x.2.map (·.key)) = [some 2, some 4, some 9, some 4] := by
  obtain ⟨it, h1, _, h2, _⟩ := C18_one_turn_partial r1 rfl none none live1 (by decide) 3 1
  refine ⟨it, h1, ?_⟩
  have h2' : keyRun it [true, true, true, false] = _ := h2
  rw [h2']; decide

example : ∃ it it', s1.1.keyItr none none = (.ok, some it) ∧ keySeek (.ge 5) it = (.ok, it') ∧
    keyGet it' = (.ok, some (insr 7 9 90)) := by
  obtain ⟨it, it', h1, h2, h3, _⟩ := C19_seek_greater_partial r1 rfl none none live1 (k := 5)
    (by simp) (by simp) (i := 3) rfl (by decide) (by decide)
  exact ⟨it, it', h1, h2, h3⟩

/-- Two keys in the table, two in the log. -/
def p2 : List (Cmd Nat) := [.put 1 10, .put 9 90, .sync, .flush, .put 2 20, .put 5 50]
def s2 := (start p2).get (by decide +kernel)
theorem r2 : Reach s2.1 s2.2 := Cmd.start_reach plain (Option.some_get _).symm
def l2 : List (Rec Nat) := [insr 1 1 10, insr 3 2 20, insr 4 5 50, insr 2 9 90]
theorem hist2 : s2.2 = [insr 1 1 10, insr 2 9 90, insr 3 2 20, insr 4 5 50] := by decide +kernel
theorem live2 : LiveList s2.2 none none l2 :=
  live_iff (by decide) (by rw [hist2]; decide) (by rw [hist2]; decide)

theorem inAll (k : Nat) : InRange none none k := by constructor <;> intro a ha <;> cases ha

/-- The files and tables of `s2` show two keys or none. -/
theorem two2 : (∀ f ∈ s2.1.log.files, TwoKeys (LogQ f.pending none none)) ∧
    ∀ x ∈ itrTables (s2.1.table : TMgr Nat) none none, TwoKeys (TabQ x none none) := by
  constructor
  · have h : ∀ f ∈ s2.1.log.files, lastWrite f.pending 2 = some (insr 3 2 20) ∧
        lastWrite f.pending 5 = some (insr 4 5 50) := by decide +kernel
    intro f hf x _
    exact ⟨insr 3 2 20, insr 4 5 50, ⟨(h f hf).1, inAll _⟩, ⟨(h f hf).2, inAll _⟩, by decide⟩
  · have h : ∀ x ∈ itrTables (s2.1.table : TMgr Nat) none none, x.get 1 = some (insr 1 1 10) ∧
        x.get 9 = some (insr 2 9 90) := by decide +kernel
    intro x hx y _
    exact ⟨insr 1 1 10, insr 2 9 90, ⟨(h x hx).1, inAll _⟩, ⟨(h x hx).2, inAll _⟩, by decide⟩

example : ∃ it, s2.1.keyItr none none = (.ok, some it) ∧
    (keyRun it [true, true, true, false, false, false, true]).map (fun x => x.2.map (·.key)) =
      [some 2, some 5, some 9, some 5, some 2, some 1, some 2] := by
  obtain ⟨it, h1, _, h2⟩ := C18_all_moves_partial r2 rfl none none live2 (by decide) two2.1 two2.2
    [true, true, true, false, false, false, true]
  exact ⟨it, h1, by rw [h2]; decide⟩

example : ∃ it it', s2.1.keyItr none none = (.ok, some it) ∧ keySeek (.le 4) it = (.ok, it') ∧
    keyGet it' = (.ok, some (insr 3 2 20)) := by
  obtain ⟨it, it', h1, h2, h3, _⟩ := C19_seek_smaller_partial r2 rfl none none live2 (k := 4)
    (by simp) (by simp) (by
      have h : ∀ f ∈ s2.1.log.files, lastWrite f.pending 2 = some (insr 3 2 20) := by decide +kernel
      intro f hf _
      exact ⟨insr 3 2 20, ⟨h f hf, inAll _⟩, by decide⟩)
    (by
      have h : ∀ x ∈ itrTables (s2.1.table : TMgr Nat) none none, x.get 1 = some (insr 1 1 10) := by
        decide +kernel
      intro x hx _
      exact ⟨insr 1 1 10, ⟨h x hx, inAll _⟩, by decide⟩)
    (i := 1) rfl (by decide) (by decide)
  exact ⟨it, it', h1, h2, h3⟩

/-- One key in the log between two in the table. -/
def p3 : List (Cmd Nat) := [.put 1 10, .put 9 90, .sync, .flush, .put 5 50]
def s3 := (start p3).get (by decide +kernel)
theorem r3 : Reach s3.1 s3.2 := Cmd.start_reach plain (Option.some_get _).symm

end IterEx

/-- C18 is false in general.  Keys 1 and 9 are in a table, 5 is the only key in the log.  To the
    end and back to 5; from there `prev` goes to 1, and the `next` that follows does not lead back to
    5 but goes on to 9. -/
theorem C18_violation : ∃ (db : DB Nat (Lsm IterEx.c 1 (by decide))) (h : List (Rec Nat)) (it : KeyIt Nat),
    Reach db h ∧ db.closing = false ∧ db.keyItr none none = (.ok, some it) ∧
    (keyRun it [true, true, false, false, true]).map (fun x => x.2.map (·.key)) =
      [some 5, some 9, some 5, some 1, some 9] :=
  ⟨IterEx.s3.1, IterEx.s3.2, keyInit IterEx.s3.1.log (IterEx.s3.1.table : TMgr Nat) none none,
    IterEx.r3, rfl, by unfold DB.keyItr; rw [if_neg (by decide +kernel)], by decide +kernel⟩

namespace IterEx
def s4 := (start [.put 1 10, .sync, .flush, .put 9 90]).get (by decide +kernel)
theorem r4 : Reach s4.1 s4.2 := Cmd.start_reach plain (Option.some_get _).symm
def s5 := (start [.put 9 90, .sync, .flush, .put 5 1, .put 5 2 true]).get (by decide +kernel)
theorem r5 : Reach s5.1 s5.2 := Cmd.start_reach plain (Option.some_get _).symm
def s6 := (start [.put 5 1, .put 5 2 true]).get (by decide +kernel)
theorem r6 : Reach s6.1 s6.2 := Cmd.start_reach plain (Option.some_get _).symm
end IterEx

/-- C19 is false for SMALLER: key 1 is in the table, 9 in the log; `seek(5, SMALLER)` goes to 9. -/
theorem C19_violation_smaller :
    ∃ (db : DB Nat (Lsm IterEx.c 1 (by decide))) (h : List (Rec Nat)) (it it' : KeyIt Nat),
      Reach db h ∧ db.closing = false ∧ db.keyItr none none = (.ok, some it) ∧
      keySeek (.le 5) it = (.ok, it') ∧ (keyGet it').2.map (·.key) = some 9 ∧
      db.get 1 = (.ok, some [10]) :=
  ⟨IterEx.s4.1, IterEx.s4.2, keyInit IterEx.s4.1.log (IterEx.s4.1.table : TMgr Nat) none none,
    (keySeek (.le 5) (keyInit IterEx.s4.1.log (IterEx.s4.1.table : TMgr Nat) none none)).2,
    IterEx.r4, rfl, by unfold DB.keyItr; rw [if_neg (by decide +kernel)], Prod.ext (by decide +kernel) rfl,
    by decide +kernel, by decide +kernel⟩

/-- After `seek(k, GREATER)`, `prev` can return an old value.  5 was written twice, in two log
    files; 9 is in the table.  `seek(7)` goes to 9, and `prev` returns the first value of 5. -/
theorem C19_violation_stale_prev :
    ∃ (db : DB Nat (Lsm IterEx.c 1 (by decide))) (h : List (Rec Nat)) (it it' : KeyIt Nat),
      Reach db h ∧ db.closing = false ∧ db.keyItr none none = (.ok, some it) ∧
      keySeek (.ge 7) it = (.ok, it') ∧ (keyGet it').2.map (·.key) = some 9 ∧
      keyRun it' [false] = [(.ok, some (IterEx.insr 2 5 1))] ∧ db.get 5 = (.ok, some [2]) :=
  ⟨IterEx.s5.1, IterEx.s5.2, keyInit IterEx.s5.1.log (IterEx.s5.1.table : TMgr Nat) none none,
    (keySeek (.ge 7) (keyInit IterEx.s5.1.log (IterEx.s5.1.table : TMgr Nat) none none)).2,
    IterEx.r5, rfl, by unfold DB.keyItr; rw [if_neg (by decide +kernel)], Prod.ext (by decide +kernel) rfl,
    by decide +kernel, by decide +kernel, by decide +kernel⟩

/-- `seek(k, GREATER)` with `k` above every key succeeds and shows an old value of the last key. -/
theorem C19_violation_beyond :
    ∃ (db : DB Nat (Lsm IterEx.c 1 (by decide))) (h : List (Rec Nat)) (it it' : KeyIt Nat),
      Reach db h ∧ db.closing = false ∧ db.keyItr none none = (.ok, some it) ∧
      keySeek (.ge 7) it = (.ok, it') ∧ keyGet it' = (.ok, some (IterEx.insr 1 5 1)) ∧
      db.get 5 = (.ok, some [2]) :=
  ⟨IterEx.s6.1, IterEx.s6.2, keyInit IterEx.s6.1.log (IterEx.s6.1.table : TMgr Nat) none none,
    (keySeek (.ge 7) (keyInit IterEx.s6.1.log (IterEx.s6.1.table : TMgr Nat) none none)).2,
    IterEx.r6, rfl, by unfold DB.keyItr; rw [if_neg (by decide +kernel)], Prod.ext (by decide +kernel) rfl,
    by decide +kernel, by decide +kernel⟩

end Jungle
