/-
  Model of the table of open databases: `DB::open` and `DB::close` (src/jungle.cc:50-183, 236-265)
  with `DBMgr::openExisting`, `assignNew` and `close` (src/db_mgr.cc:288-372), and of `DBGroup`
  (src/db_group.cc:30-88).  One path and one name (entries of other names are not touched); any number
  of threads, every interleaving of their atomic steps.  The bodies of `openExisting`, `assignNew` and
  of the branch of `close` that destroys run under `dbMapLock` and are one step each.
-/
import Mathlib.Data.List.Count
import Verif.Basic

set_option linter.unusedSimpArgs false

namespace Jungle.Handles

/-- Where a thread is.  A thread that keeps several handles counts as several threads. -/
inductive PC
  /-- no handle -/
  | out
  /-- `DB::open`: `openExisting` found nothing, the database was loaded into a new object,
      `assignNew` comes next (jungle.cc:59-157) -/
  | made (n : Nat)
  /-- `DB::open`: `assignNew` failed, the object was destroyed, `openExisting` comes again (158-164) -/
  | again
  /-- `open` returned OK with a handle -/
  | has (n : Nat)
  /-- `open` returned OK with a null pointer (163-167) -/
  | null
  /-- `close`: the load of `refCount` comes next (db_mgr.cc:345) -/
  | c0 (n : Nat)
  /-- `close`: the compare-exchange comes next (350) -/
  | c1 (n : Nat)
  /-- `close`: the compare-exchange failed, `fetch_sub` comes next (367) -/
  | c2 (n : Nat)
  /-- `close`: the compare-exchange succeeded; erase from the map and destroy come next (353-365) -/
  | c3 (n : Nat)
  deriving DecidableEq, Repr

/-- the thread has a counted reference to object `n` -/
def PC.uses (n : Nat) : PC → Bool
  | .has m | .c0 m | .c1 m | .c2 m => m == n
  | _ => false

def PC.isHas (n : Nat) : PC → Bool
  | .has m => m == n
  | _ => false

def PC.isMade (n : Nat) : PC → Bool
  | .made m => m == n
  | _ => false

def PC.isC3 (n : Nat) : PC → Bool
  | .c3 m => m == n
  | _ => false

/-- between the two halves of a `close` that destroys -/
def PC.erasing : PC → Bool
  | .c3 _ => true
  | _ => false

/-- in `close` -/
def PC.closing : PC → Bool
  | .c0 _ | .c1 _ | .c2 _ | .c3 _ => true
  | _ => false

structure St where
  /-- the entry of `dbMap` -/
  map : Option Nat := none
  /-- `DBWrap::refCount` -/
  ref : Nat → Nat := fun _ => 0
  /-- the object exists -/
  alive : Nat → Bool := fun _ => false
  /-- objects made so far -/
  next : Nat := 0
  pcs : List PC

def St.at (s : St) (i : Nat) (p : PC) : Prop := s.pcs[i]? = some p

def St.goto (s : St) (i : Nat) (p : PC) : St := { s with pcs := s.pcs.set i p }

def upd {α : Type} (f : Nat → α) (n : Nat) (v : α) : Nat → α := fun m => if m = n then v else f m

/-- One atomic step of thread `i`.  `w`: `compare_exchange_weak` may fail although the value is the
    expected one. -/
inductive Step (w : Bool) : St → Nat → St → Prop
  /-- `openExisting` (db_mgr.cc:288-304), called by jungle.cc:62 -/
  | find {s i n} : s.at i .out → s.map = some n →
      Step w s i ({ s with ref := upd s.ref n (s.ref n + 1) }.goto i (.has n))
  | miss {s i} : s.at i .out → s.map = none →
      Step w s i ({ s with alive := upd s.alive s.next true, ref := upd s.ref s.next 0
                           next := s.next + 1 }.goto i (.made s.next))
  /-- `assignNew` (db_mgr.cc:306-331) -/
  | assign {s i n} : s.at i (.made n) → s.map = none →
      Step w s i ({ s with map := some n, ref := upd s.ref n (s.ref n + 1) }.goto i (.has n))
  | dup {s i n m} : s.at i (.made n) → s.map = some m →
      Step w s i ({ s with alive := upd s.alive n false }.goto i .again)
  | refind {s i n} : s.at i .again → s.map = some n →
      Step w s i ({ s with ref := upd s.ref n (s.ref n + 1) }.goto i (.has n))
  | remiss {s i} : s.at i .again → s.map = none → Step w s i (s.goto i .null)
  /-- the caller closes its handle -/
  | close {s i n} : s.at i (.has n) → Step w s i (s.goto i (.c0 n))
  | load {s i n} : s.at i (.c0 n) → Step w s i (s.goto i (if s.ref n = 0 then .out else .c1 n))
  | casYes {s i n} : s.at i (.c1 n) → s.ref n = 1 →
      Step w s i ({ s with ref := upd s.ref n 0 }.goto i (.c3 n))
  | casNo {s i n} : s.at i (.c1 n) → (s.ref n ≠ 1 ∨ w = true) → Step w s i (s.goto i (.c2 n))
  | dec {s i n} : s.at i (.c2 n) →
      Step w s i ({ s with ref := upd s.ref n (s.ref n - 1) }.goto i .out)
  | erase {s i n} : s.at i (.c3 n) →
      Step w s i ({ s with map := if s.map = some n then none else s.map
                           alive := upd s.alive n false }.goto i .out)

/-- All executions of `k` threads. -/
inductive Reach (w : Bool) (k : Nat) : St → Prop
  | init : Reach w k { pcs := List.replicate k .out }
  | step {s i s'} : Reach w k s → Step w s i s' → Reach w k s'

/-- No `close` is between its decision to destroy and the destruction. -/
def St.Calm (s : St) : Prop := ∀ p ∈ s.pcs, p.erasing = false

/-- The step looks the name up in the map. -/
def St.Looks (s : St) (i : Nat) : Prop := s.at i .out ∨ s.at i .again

/-- Executions in which no `open` looks the name up while a `close` has decided to destroy and has not
    yet removed the entry. -/
inductive CalmReach (w : Bool) (k : Nat) : St → Prop
  | init : CalmReach w k { pcs := List.replicate k .out }
  | step {s i s'} : CalmReach w k s → (s.Looks i → s.Calm) → Step w s i s' → CalmReach w k s'

/-- Executions in which, besides, no two `close` calls overlap, and the compare-exchange fails only if
    the value is another one. -/
inductive OneClose (k : Nat) : St → Prop
  | init : OneClose k { pcs := List.replicate k .out }
  | step {s i s'} : OneClose k s → (s.Looks i → s.Calm) →
      ((∃ n, s.at i (.has n)) → ∀ p ∈ s.pcs, p.closing = false) → Step false s i s' → OneClose k s'

theorem OneClose.calm {k : Nat} {s : St} (h : OneClose k s) : CalmReach false k s := by
  induction h with
  | init => exact CalmReach.init
  | step _ h1 _ h2 ih => exact CalmReach.step ih h1 h2

theorem CalmReach.reach {w : Bool} {k : Nat} {s : St} (h : CalmReach w k s) : Reach w k s := by
  induction h with
  | init => exact Reach.init
  | step _ _ h2 ih => exact Reach.step ih h2

/-! ### invariants -/

theorem countP_set' (p : PC → Bool) {l : List PC} {i : Nat} {a b : PC} (h : l[i]? = some a) :
    (l.set i b).countP p + (if p a then 1 else 0) = l.countP p + (if p b then 1 else 0) := by
  obtain ⟨hi, e⟩ := List.getElem?_eq_some_iff.1 h
  rw [List.countP_set hi, e]
  have : (if p a = true then 1 else 0) ≤ l.countP p := by
    split
    · next hp => exact List.countP_pos_iff.2 ⟨a, List.mem_of_getElem? h, hp⟩
    · omega
  omega

structure Inv (s : St) : Prop where
  ref : ∀ n, s.pcs.countP (PC.uses n) = s.ref n
  use : ∀ n, 0 < s.pcs.countP (PC.uses n) → s.map = some n
  made : ∀ n, 0 < s.pcs.countP (PC.isMade n) → n < s.next ∧ s.map ≠ some n ∧ s.alive n = true
  made1 : ∀ n, s.pcs.countP (PC.isMade n) ≤ 1
  c3 : ∀ n, 0 < s.pcs.countP (PC.isC3 n) → s.map = some n ∧ s.ref n = 0
  c31 : ∀ n, s.pcs.countP (PC.isC3 n) ≤ 1
  map : ∀ n, s.map = some n → n < s.next ∧ s.alive n = true

theorem Inv.init (k : Nat) : Inv { pcs := List.replicate k .out } := by
  refine ⟨?_, ?_, ?_, ?_, ?_, ?_, fun n h => nomatch h⟩ <;> intro n <;>
    simp [List.countP_replicate, PC.uses, PC.isMade, PC.isC3]

theorem St.Calm.c3 {s : St} (h : s.Calm) (n : Nat) : s.pcs.countP (PC.isC3 n) = 0 := by
  rw [List.countP_eq_zero]
  intro p hp hc
  have := h p hp
  cases p <;> simp_all [PC.isC3, PC.erasing]

theorem Inv.step {w : Bool} {s s' : St} {i : Nat} (h : Inv s) (hc : s.Looks i → s.Calm) (hs : Step w s i s') : Inv s' := by
  obtain ⟨hr, hu, hm, hm1, hc3, hc31, hmap⟩ := h
  have hcal : s.Looks i → ∀ n, s.pcs.countP (PC.isC3 n) = 0 := fun e => (hc e).c3
  have key : ∀ {a : PC} (b : PC), s.at i a → ∃ U M C : Nat → Nat,
      (∀ n, (s.pcs.set i b).countP (PC.uses n) = U n) ∧ (∀ n, (s.pcs.set i b).countP (PC.isMade n) = M n) ∧
      (∀ n, (s.pcs.set i b).countP (PC.isC3 n) = C n) ∧
      (∀ n, U n + (if a.uses n then 1 else 0) = s.pcs.countP (PC.uses n) + (if b.uses n then 1 else 0)) ∧
      (∀ n, M n + (if a.isMade n then 1 else 0) = s.pcs.countP (PC.isMade n) + (if b.isMade n then 1 else 0)) ∧
      (∀ n, C n + (if a.isC3 n then 1 else 0) = s.pcs.countP (PC.isC3 n) + (if b.isC3 n then 1 else 0)) :=
    fun b ha => ⟨_, _, _, fun _ => rfl, fun _ => rfl, fun _ => rfl, fun n => countP_set' _ ha, fun n => countP_set' _ ha,
      fun n => countP_set' _ ha⟩
  obtain ⟨U, hU⟩ : ∃ U : Nat → Nat, ∀ n, s.pcs.countP (PC.uses n) = U n := ⟨_, fun _ => rfl⟩
  obtain ⟨M, hM⟩ : ∃ U : Nat → Nat, ∀ n, s.pcs.countP (PC.isMade n) = U n := ⟨_, fun _ => rfl⟩
  obtain ⟨C, hC⟩ : ∃ U : Nat → Nat, ∀ n, s.pcs.countP (PC.isC3 n) = U n := ⟨_, fun _ => rfl⟩
  simp only [hU, hM, hC] at hr hu hm hm1 hc3 hc31 hcal key
  clear hU hM hC hc
  cases hs with
  | @find n ha hn =>
    have hcal := hcal (Or.inl ha)
    obtain ⟨U', M', C', eU, eM, eC, kU, kM, kC⟩ := key (.has n) ha
    simp only [PC.uses, PC.isMade, PC.isC3, beq_iff_eq] at kU kM kC
    refine ⟨?_, ?_, ?_, ?_, ?_, ?_, ?_⟩ <;> simp only [St.goto, upd, eU, eM, eC] <;> intro m <;>
      clear key eU eM eC <;> grind
  | miss ha hn =>
    obtain ⟨U', M', C', eU, eM, eC, kU, kM, kC⟩ := key (.made s.next) ha
    simp only [PC.uses, PC.isMade, PC.isC3, beq_iff_eq] at kU kM kC
    refine ⟨?_, ?_, ?_, ?_, ?_, ?_, ?_⟩ <;> simp only [St.goto, upd, eU, eM, eC] <;> intro m <;>
      clear key eU eM eC <;> grind
  | @assign n ha hn =>
    obtain ⟨U', M', C', eU, eM, eC, kU, kM, kC⟩ := key (.has n) ha
    simp only [PC.uses, PC.isMade, PC.isC3, beq_iff_eq] at kU kM kC
    refine ⟨?_, ?_, ?_, ?_, ?_, ?_, ?_⟩ <;> simp only [St.goto, upd, eU, eM, eC] <;> intro m <;>
      clear key eU eM eC <;> grind
  | @dup n m0 ha hn =>
    obtain ⟨U', M', C', eU, eM, eC, kU, kM, kC⟩ := key .again ha
    simp only [PC.uses, PC.isMade, PC.isC3, beq_iff_eq] at kU kM kC
    refine ⟨?_, ?_, ?_, ?_, ?_, ?_, ?_⟩ <;> simp only [St.goto, upd, eU, eM, eC] <;> intro m <;>
      clear key eU eM eC <;> grind
  | @refind n ha hn =>
    have hcal := hcal (Or.inr ha)
    obtain ⟨U', M', C', eU, eM, eC, kU, kM, kC⟩ := key (.has n) ha
    simp only [PC.uses, PC.isMade, PC.isC3, beq_iff_eq] at kU kM kC
    refine ⟨?_, ?_, ?_, ?_, ?_, ?_, ?_⟩ <;> simp only [St.goto, upd, eU, eM, eC] <;> intro m <;>
      clear key eU eM eC <;> grind
  | remiss ha hn =>
    obtain ⟨U', M', C', eU, eM, eC, kU, kM, kC⟩ := key .null ha
    simp only [PC.uses, PC.isMade, PC.isC3, beq_iff_eq] at kU kM kC
    refine ⟨?_, ?_, ?_, ?_, ?_, ?_, ?_⟩ <;> simp only [St.goto, upd, eU, eM, eC] <;> intro m <;>
      clear key eU eM eC <;> grind
  | @close n ha =>
    obtain ⟨U', M', C', eU, eM, eC, kU, kM, kC⟩ := key (.c0 n) ha
    simp only [PC.uses, PC.isMade, PC.isC3, beq_iff_eq] at kU kM kC
    refine ⟨?_, ?_, ?_, ?_, ?_, ?_, ?_⟩ <;> simp only [St.goto, upd, eU, eM, eC] <;> intro m <;>
      clear key eU eM eC <;> grind
  | @load n ha =>
    obtain ⟨U', M', C', eU, eM, eC, kU, kM, kC⟩ := key (if s.ref n = 0 then .out else .c1 n) ha
    simp only [PC.uses, PC.isMade, PC.isC3, beq_iff_eq] at kU kM kC
    refine ⟨?_, ?_, ?_, ?_, ?_, ?_, ?_⟩ <;> simp only [St.goto, upd, eU, eM, eC] <;> intro m <;>
      clear key eU eM eC <;> grind
  | @casYes n ha h1 =>
    obtain ⟨U', M', C', eU, eM, eC, kU, kM, kC⟩ := key (.c3 n) ha
    simp only [PC.uses, PC.isMade, PC.isC3, beq_iff_eq] at kU kM kC
    refine ⟨?_, ?_, ?_, ?_, ?_, ?_, ?_⟩ <;> simp only [St.goto, upd, eU, eM, eC] <;> intro m <;>
      clear key eU eM eC <;> grind
  | @casNo n ha h1 =>
    obtain ⟨U', M', C', eU, eM, eC, kU, kM, kC⟩ := key (.c2 n) ha
    simp only [PC.uses, PC.isMade, PC.isC3, beq_iff_eq] at kU kM kC
    refine ⟨?_, ?_, ?_, ?_, ?_, ?_, ?_⟩ <;> simp only [St.goto, upd, eU, eM, eC] <;> intro m <;>
      clear key eU eM eC <;> grind
  | @dec n ha =>
    obtain ⟨U', M', C', eU, eM, eC, kU, kM, kC⟩ := key .out ha
    simp only [PC.uses, PC.isMade, PC.isC3, beq_iff_eq] at kU kM kC
    refine ⟨?_, ?_, ?_, ?_, ?_, ?_, ?_⟩ <;> simp only [St.goto, upd, eU, eM, eC] <;> intro m <;>
      clear key eU eM eC <;> grind
  | @erase n ha =>
    obtain ⟨U', M', C', eU, eM, eC, kU, kM, kC⟩ := key .out ha
    simp only [PC.uses, PC.isMade, PC.isC3, beq_iff_eq] at kU kM kC
    refine ⟨?_, ?_, ?_, ?_, ?_, ?_, ?_⟩ <;> simp only [St.goto, upd, eU, eM, eC] <;> intro m <;>
      clear key eU eM eC <;> grind

theorem CalmReach.inv {w : Bool} {k : Nat} {s : St} (h : CalmReach w k s) : Inv s := by
  induction h with
  | init => exact Inv.init k
  | step _ h1 h2 ih => exact ih.step h1 h2

def PC.isC2 (n : Nat) : PC → Bool
  | .c2 m => m == n
  | _ => false

/-- What holds, besides, if closes do not overlap. -/
structure Inv1 (s : St) : Prop where
  one : s.pcs.countP PC.closing ≤ 1
  map : ∀ n, s.map = some n → 0 < s.pcs.countP (PC.uses n) ∨ 0 < s.pcs.countP (PC.isC3 n)
  alive : ∀ n, s.alive n = true → s.map = some n ∨ 0 < s.pcs.countP (PC.isMade n)
  c2 : ∀ n, 0 < s.pcs.countP (PC.isC2 n) → 2 ≤ s.ref n

theorem Inv1.init (k : Nat) : Inv1 { pcs := List.replicate k .out } := by
  refine ⟨by simp [List.countP_replicate, PC.closing], (fun n h => nomatch h), (fun n h => nomatch h), ?_⟩
  intro n
  simp [List.countP_replicate, PC.isC2]

theorem Inv1.step {s s' : St} {i : Nat} (h1 : Inv1 s) (h : Inv s) (hc : s.Looks i → s.Calm)
    (hcl : (∃ n, s.at i (.has n)) → ∀ p ∈ s.pcs, p.closing = false) (hs : Step false s i s') : Inv1 s' := by
  obtain ⟨hr, hu, hm, hm1, hc3, hc31, hmap⟩ := h
  obtain ⟨g1, g2, g3, g4⟩ := h1
  have g5 : ∀ n, s.pcs.countP (PC.isC2 n) ≤ s.pcs.countP PC.closing := by
    intro n
    apply List.countP_mono_left
    intro x _ hx
    cases x <;> simp_all [PC.isC2, PC.closing]
  have hcal : s.Looks i → ∀ n, s.pcs.countP (PC.isC3 n) = 0 := fun e => (hc e).c3
  have hzero : (∃ n, s.at i (.has n)) → s.pcs.countP PC.closing = 0 := by
    intro e
    rw [List.countP_eq_zero]
    intro p hp
    simp [hcl e p hp]
  have pos : ∀ {a : PC} {n : Nat}, s.at i a → a.uses n = true → 0 < s.pcs.countP (PC.uses n) :=
    fun ha hn => List.countP_pos_iff.2 ⟨_, List.mem_of_getElem? ha, hn⟩
  have key : ∀ {a : PC} (b : PC), s.at i a → ∃ (U M C D : Nat → Nat) (E : Nat),
      (∀ n, (s.pcs.set i b).countP (PC.uses n) = U n) ∧ (∀ n, (s.pcs.set i b).countP (PC.isMade n) = M n) ∧
      (∀ n, (s.pcs.set i b).countP (PC.isC3 n) = C n) ∧ (∀ n, (s.pcs.set i b).countP (PC.isC2 n) = D n) ∧
      (s.pcs.set i b).countP PC.closing = E ∧
      (∀ n, U n + (if a.uses n then 1 else 0) = s.pcs.countP (PC.uses n) + (if b.uses n then 1 else 0)) ∧
      (∀ n, M n + (if a.isMade n then 1 else 0) = s.pcs.countP (PC.isMade n) + (if b.isMade n then 1 else 0)) ∧
      (∀ n, C n + (if a.isC3 n then 1 else 0) = s.pcs.countP (PC.isC3 n) + (if b.isC3 n then 1 else 0)) ∧
      (∀ n, D n + (if a.isC2 n then 1 else 0) = s.pcs.countP (PC.isC2 n) + (if b.isC2 n then 1 else 0)) ∧
      E + (if a.closing then 1 else 0) = s.pcs.countP PC.closing + (if b.closing then 1 else 0) :=
    fun b ha => ⟨_, _, _, _, _, fun _ => rfl, fun _ => rfl, fun _ => rfl, fun _ => rfl, rfl, fun n => countP_set' _ ha,
      fun n => countP_set' _ ha, fun n => countP_set' _ ha, fun n => countP_set' _ ha, countP_set' _ ha⟩
  obtain ⟨U, hU⟩ : ∃ U : Nat → Nat, ∀ n, s.pcs.countP (PC.uses n) = U n := ⟨_, fun _ => rfl⟩
  obtain ⟨M, hM⟩ : ∃ U : Nat → Nat, ∀ n, s.pcs.countP (PC.isMade n) = U n := ⟨_, fun _ => rfl⟩
  obtain ⟨C, hC⟩ : ∃ U : Nat → Nat, ∀ n, s.pcs.countP (PC.isC3 n) = U n := ⟨_, fun _ => rfl⟩
  obtain ⟨D, hD⟩ : ∃ U : Nat → Nat, ∀ n, s.pcs.countP (PC.isC2 n) = U n := ⟨_, fun _ => rfl⟩
  obtain ⟨E, hE⟩ : ∃ U : Nat, s.pcs.countP PC.closing = U := ⟨_, rfl⟩
  simp only [hU, hM, hC, hD, hE] at hr hu hm hm1 hc3 hc31 hcal pos key g1 g2 g3 g4 g5 hzero
  clear hU hM hC hD hE hc hcl
  cases hs with
  | @find n ha hn =>
    have hcal := hcal (Or.inl ha)
    obtain ⟨U', M', C', D', E', eU, eM, eC, eD, eE, kU, kM, kC, kD, kE⟩ := key (.has n) ha
    simp only [PC.uses, PC.isMade, PC.isC3, PC.isC2, PC.closing, beq_iff_eq] at kU kM kC kD kE
    refine ⟨?_, ?_, ?_, ?_⟩ <;> simp only [St.goto, upd, eU, eM, eC, eD, eE] <;> (try intro m) <;>
      clear key pos eU eM eC eD eE <;> grind
  | miss ha hn =>
    obtain ⟨U', M', C', D', E', eU, eM, eC, eD, eE, kU, kM, kC, kD, kE⟩ := key (.made s.next) ha
    simp only [PC.uses, PC.isMade, PC.isC3, PC.isC2, PC.closing, beq_iff_eq] at kU kM kC kD kE
    refine ⟨?_, ?_, ?_, ?_⟩ <;> simp only [St.goto, upd, eU, eM, eC, eD, eE] <;> (try intro m) <;>
      clear key pos eU eM eC eD eE <;> grind
  | @assign n ha hn =>
    obtain ⟨U', M', C', D', E', eU, eM, eC, eD, eE, kU, kM, kC, kD, kE⟩ := key (.has n) ha
    simp only [PC.uses, PC.isMade, PC.isC3, PC.isC2, PC.closing, beq_iff_eq] at kU kM kC kD kE
    refine ⟨?_, ?_, ?_, ?_⟩ <;> simp only [St.goto, upd, eU, eM, eC, eD, eE] <;> (try intro m) <;>
      clear key pos eU eM eC eD eE <;> grind
  | @dup n m0 ha hn =>
    obtain ⟨U', M', C', D', E', eU, eM, eC, eD, eE, kU, kM, kC, kD, kE⟩ := key .again ha
    simp only [PC.uses, PC.isMade, PC.isC3, PC.isC2, PC.closing, beq_iff_eq] at kU kM kC kD kE
    refine ⟨?_, ?_, ?_, ?_⟩ <;> simp only [St.goto, upd, eU, eM, eC, eD, eE] <;> (try intro m) <;>
      clear key pos eU eM eC eD eE <;> grind
  | @refind n ha hn =>
    have hcal := hcal (Or.inr ha)
    obtain ⟨U', M', C', D', E', eU, eM, eC, eD, eE, kU, kM, kC, kD, kE⟩ := key (.has n) ha
    simp only [PC.uses, PC.isMade, PC.isC3, PC.isC2, PC.closing, beq_iff_eq] at kU kM kC kD kE
    refine ⟨?_, ?_, ?_, ?_⟩ <;> simp only [St.goto, upd, eU, eM, eC, eD, eE] <;> (try intro m) <;>
      clear key pos eU eM eC eD eE <;> grind
  | remiss ha hn =>
    obtain ⟨U', M', C', D', E', eU, eM, eC, eD, eE, kU, kM, kC, kD, kE⟩ := key .null ha
    simp only [PC.uses, PC.isMade, PC.isC3, PC.isC2, PC.closing, beq_iff_eq] at kU kM kC kD kE
    refine ⟨?_, ?_, ?_, ?_⟩ <;> simp only [St.goto, upd, eU, eM, eC, eD, eE] <;> (try intro m) <;>
      clear key pos eU eM eC eD eE <;> grind
  | @close n ha =>
    have hzero := hzero ⟨n, ha⟩
    obtain ⟨U', M', C', D', E', eU, eM, eC, eD, eE, kU, kM, kC, kD, kE⟩ := key (.c0 n) ha
    simp only [PC.uses, PC.isMade, PC.isC3, PC.isC2, PC.closing, beq_iff_eq] at kU kM kC kD kE
    refine ⟨?_, ?_, ?_, ?_⟩ <;> simp only [St.goto, upd, eU, eM, eC, eD, eE] <;> (try intro m) <;>
      clear key pos eU eM eC eD eE <;> grind
  | @load n ha =>
    have hpos := pos ha (n := n) (by simp [PC.uses])
    obtain ⟨U', M', C', D', E', eU, eM, eC, eD, eE, kU, kM, kC, kD, kE⟩ := key (if s.ref n = 0 then .out else .c1 n) ha
    simp only [PC.uses, PC.isMade, PC.isC3, PC.isC2, PC.closing, beq_iff_eq] at kU kM kC kD kE
    refine ⟨?_, ?_, ?_, ?_⟩ <;> simp only [St.goto, upd, eU, eM, eC, eD, eE] <;> (try intro m) <;>
      clear key pos eU eM eC eD eE <;> grind
  | @casYes n ha h1 =>
    obtain ⟨U', M', C', D', E', eU, eM, eC, eD, eE, kU, kM, kC, kD, kE⟩ := key (.c3 n) ha
    simp only [PC.uses, PC.isMade, PC.isC3, PC.isC2, PC.closing, beq_iff_eq] at kU kM kC kD kE
    refine ⟨?_, ?_, ?_, ?_⟩ <;> simp only [St.goto, upd, eU, eM, eC, eD, eE] <;> (try intro m) <;>
      clear key pos eU eM eC eD eE <;> grind
  | @casNo n ha h1 =>
    have hpos := pos ha (n := n) (by simp [PC.uses])
    obtain ⟨U', M', C', D', E', eU, eM, eC, eD, eE, kU, kM, kC, kD, kE⟩ := key (.c2 n) ha
    simp only [PC.uses, PC.isMade, PC.isC3, PC.isC2, PC.closing, beq_iff_eq] at kU kM kC kD kE
    refine ⟨?_, ?_, ?_, ?_⟩ <;> simp only [St.goto, upd, eU, eM, eC, eD, eE] <;> (try intro m) <;>
      clear key pos eU eM eC eD eE <;> grind
  | @dec n ha =>
    obtain ⟨U', M', C', D', E', eU, eM, eC, eD, eE, kU, kM, kC, kD, kE⟩ := key .out ha
    simp only [PC.uses, PC.isMade, PC.isC3, PC.isC2, PC.closing, beq_iff_eq] at kU kM kC kD kE
    refine ⟨?_, ?_, ?_, ?_⟩ <;> simp only [St.goto, upd, eU, eM, eC, eD, eE] <;> (try intro m) <;>
      clear key pos eU eM eC eD eE <;> grind
  | @erase n ha =>
    obtain ⟨U', M', C', D', E', eU, eM, eC, eD, eE, kU, kM, kC, kD, kE⟩ := key .out ha
    simp only [PC.uses, PC.isMade, PC.isC3, PC.isC2, PC.closing, beq_iff_eq] at kU kM kC kD kE
    refine ⟨?_, ?_, ?_, ?_⟩ <;> simp only [St.goto, upd, eU, eM, eC, eD, eE] <;> (try intro m) <;>
      clear key pos eU eM eC eD eE <;> grind

theorem OneClose.inv1 {k : Nat} {s : St} (h : OneClose k s) : Inv1 s := by
  induction h with
  | init => exact Inv1.init k
  | step h0 h1 h2 h3 ih => exact ih.step h0.calm.inv h1 h2 h3

end Jungle.Handles

namespace Jungle.Groups

/-- The entry of one path: whether it is in `dbMap`, its count, and whether `dbGroup` is set
    (src/db_internal.h:125).  Calls one after the other. -/
structure G where
  isOpen : Bool := false
  ref : Nat := 0
  group : Bool := false
  deriving DecidableEq, Repr

inductive Res
  | ok | alreadyClosed | invalidHandleUsage
  deriving DecidableEq, Repr

/-- `DB::open` (src/jungle.cc:50-183). -/
def dbOpen (g : G) : Res × G :=
  if g.isOpen then (.ok, { g with ref := g.ref + 1 }) else (.ok, { isOpen := true, ref := 1, group := false })

/-- `DBMgr::close` (src/db_mgr.cc:340-372). -/
def mgrClose (g : G) : Res × G :=
  if g.ref = 0 then (.alreadyClosed, g)
  else if g.ref = 1 then (.ok, {})
  else (.ok, { g with ref := g.ref - 1 })

/-- `DB::close` (src/jungle.cc:236-265): the handle of a group is left open. -/
def dbClose (g : G) : Res × G := if g.group then (.ok, g) else mgrClose g

/-- `DBGroup::open` (src/db_group.cc:30-66). -/
def grpOpen (g : G) : Res × G :=
  if g.isOpen then
    if g.group then (.ok, { g with ref := g.ref + 1 })
    else (.invalidHandleUsage, (mgrClose { g with ref := g.ref + 1 }).2)
  else (.ok, { (dbOpen g).2 with group := true })

/-- `DBGroup::close` (src/db_group.cc:69-79). -/
def grpClose (g : G) : Res × G := mgrClose g

/-- `GReach mix g d n`: a sequence of calls leads to `g`; `d` handles of `DB::open` and `n` of
    `DBGroup::open` were returned and not closed yet.  Without `mix`, `DB::open` is not called on the
    path of an open group. -/
inductive GReach (mix : Bool) : G → Nat → Nat → Prop
  | init : GReach mix {} 0 0
  | dbOpen {g d n} : GReach mix g d n → (mix = true ∨ n = 0) → GReach mix (dbOpen g).2 (d + 1) n
  | dbClose {g d n} : GReach mix g (d + 1) n → GReach mix (dbClose g).2 d n
  | grpOpen {g d n g'} : GReach mix g d n → grpOpen g = (.ok, g') → GReach mix g' d (n + 1)
  | grpRefused {g d n g' st} : GReach mix g d n → grpOpen g = (st, g') → st ≠ .ok → GReach mix g' d n
  | grpClose {g d n} : GReach mix g d (n + 1) → GReach mix (grpClose g).2 d n

theorem GReach.inv {g : G} {d n : Nat} (h : GReach false g d n) :
    g.ref = d + n ∧ g.isOpen = decide (0 < d + n) ∧ (g.group = decide (0 < n)) ∧ (d = 0 ∨ n = 0) := by
  induction h with
  | init => simp
  | dbOpen _ h1 ih =>
    obtain ⟨a, b, c, e⟩ := ih
    unfold Groups.dbOpen
    grind
  | dbClose _ ih =>
    obtain ⟨a, b, c, e⟩ := ih
    unfold Groups.dbClose mgrClose
    grind
  | grpOpen _ h1 ih =>
    obtain ⟨a, b, c, e⟩ := ih
    unfold Groups.grpOpen Groups.dbOpen at h1
    grind
  | grpRefused _ h1 h2 ih =>
    obtain ⟨a, b, c, e⟩ := ih
    unfold Groups.grpOpen mgrClose at h1
    grind
  | grpClose _ ih =>
    obtain ⟨a, b, c, e⟩ := ih
    unfold Groups.grpClose mgrClose
    grind

end Jungle.Groups
