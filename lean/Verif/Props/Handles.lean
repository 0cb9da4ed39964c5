/-
  C51: handles of one database are shared and counted.
-/
import Mathlib.Order.Nat
import Verif.Conc.Handles
import Verif.Props.Session

namespace Jungle
open Handles

/-- C51, partial: in every interleaving of calls of `DB::open` and `DB::close` on one path by any number
    of threads, a handle that was returned and not closed is a database that exists, and all threads
    have the same one; its count is the number of its users; a `close` that is running works on a
    database that exists, and no two of them destroy it.  Missing: an `open` that looks the path up while
    a `close` has decided to destroy the database and not yet removed it from the map
    (`C51_open_close_violation`). -/
theorem C51_safe_partial {w : Bool} {k : Nat} {s : St} (h : CalmReach w k s) :
    (∀ i n, s.at i (.has n) → s.alive n = true ∧ s.ref n = s.pcs.countP (PC.uses n) ∧
      ∀ j m, s.at j (.has m) → m = n) ∧
    (∀ i n, s.at i (.c0 n) ∨ s.at i (.c1 n) ∨ s.at i (.c2 n) ∨ s.at i (.c3 n) → s.alive n = true) ∧
    (∀ i j n, s.at i (.c3 n) → s.at j (.c3 n) → i = j) := by
  have hi := h.inv
  have use : ∀ {i : Nat} {p : PC} {n : Nat}, s.at i p → p.uses n = true → s.map = some n :=
    fun ha hn => hi.use _ (List.countP_pos_iff.2 ⟨_, List.mem_of_getElem? ha, hn⟩)
  have use3 : ∀ {i : Nat} {n : Nat}, s.at i (.c3 n) → s.map = some n := fun {i n} ha =>
    (hi.c3 n (List.countP_pos_iff.2 ⟨_, List.mem_of_getElem? ha, by simp [PC.isC3]⟩)).1
  refine ⟨?_, ?_, ?_⟩
  · intro i n ha
    have hn := use ha (n := n) (by simp [PC.uses])
    refine ⟨(hi.map n hn).2, (hi.ref n).symm, fun j m hb => ?_⟩
    have hm := use hb (n := m) (by simp [PC.uses])
    rw [hn] at hm; exact (Option.some.inj hm).symm
  · rintro i n (ha | ha | ha | ha)
    · exact (hi.map n (use ha (by simp [PC.uses]))).2
    · exact (hi.map n (use ha (by simp [PC.uses]))).2
    · exact (hi.map n (use ha (by simp [PC.uses]))).2
    · exact (hi.map n (use3 ha)).2
  · intro i j n ha hb
    by_contra hne
    have h1 := countP_set' (PC.isC3 n) (b := .out) ha
    have h2 : 0 < (s.pcs.set i .out).countP (PC.isC3 n) := by
      refine List.countP_pos_iff.2 ⟨.c3 n, List.mem_of_getElem? (i := j) ?_, by simp [PC.isC3]⟩
      rw [List.getElem?_set_ne hne]; exact hb
    have h3 := hi.c31 n
    simp [PC.isC3] at h1
    omega

/-- C51, partial: if closes of the database do not overlap, the last one destroys it (which syncs the
    log, src/jungle.cc:1009-1045 and src/log_mgr.cc:2076-2130): when no thread has a handle or is in a
    call, nothing is left in the map and no database object is left.  Missing: closes at the same time
    (`C51_two_closes_violation`), a `compare_exchange_weak` that fails spuriously
    (`C51_spurious_violation`). -/
theorem C51_last_close_partial {k : Nat} {s : St} (h : OneClose k s) (hout : ∀ p ∈ s.pcs, p = .out ∨ p = .null) :
    s.map = none ∧ ∀ n, s.alive n = false := by
  have h1 := h.inv1
  have z : ∀ f : PC → Bool, f .out = false → f .null = false → s.pcs.countP f = 0 := by
    intro f e1 e2
    rw [List.countP_eq_zero]
    intro p hp
    rcases hout p hp with rfl | rfl <;> simp [e1, e2]
  have hm : s.map = none := by
    cases hm : s.map with
    | none => rfl
    | some n =>
      rcases h1.map n hm with h2 | h2
      · rw [z _ rfl rfl] at h2; omega
      · rw [z _ rfl rfl] at h2; omega
  refine ⟨hm, fun n => ?_⟩
  cases ha : s.alive n with
  | false => rfl
  | true =>
    rcases h1.alive n ha with h2 | h2
    · rw [hm] at h2; cases h2
    · rw [z _ rfl rfl] at h2; omega

/-- C51: with calls one after the other and groups not mixed with `DB::open` on the same path, the
    database is open exactly as long as some handle of it is, and `DBGroup::open` on the path of an open
    database is refused without an effect. -/
theorem C51_groups_partial {g : Groups.G} {d n : Nat} (h : Groups.GReach false g d n) :
    (g.isOpen = true ↔ 0 < d + n) ∧ g.ref = d + n ∧
    (0 < d → Groups.grpOpen g = (.invalidHandleUsage, g)) := by
  obtain ⟨h1, h2, h3, h4⟩ := h.inv
  refine ⟨by simp [h2], h1, fun hd => ?_⟩
  have hn : n = 0 := by omega
  subst hn
  have e1 : g.isOpen = true := by rw [h2]; simp; omega
  have e2 : g.group = false := by rw [h3]; simp
  unfold Groups.grpOpen Groups.mgrClose
  rw [if_pos e1, if_neg (by simp [e2])]
  simp only []
  rw [if_neg (by omega), if_neg (by omega)]
  simp

namespace HandlesEx

/-- A thread opens the database, a second one finds it, both close it. -/
theorem run2 : ∃ s, OneClose 2 s ∧ s.at 0 (.has 0) ∧ s.at 1 (.has 0) ∧ s.ref 0 = 2 := by
  have a := OneClose.init (k := 2)
  have a := OneClose.step (i := 0) a (fun _ p hp => by simp at hp; subst hp; rfl)
    (by rintro ⟨n, hn⟩; simp [St.at] at hn) (Step.miss rfl rfl)
  have a := OneClose.step (i := 0) a (by rintro (h | h) <;> simp [St.at, St.goto] at h)
    (by rintro ⟨n, hn⟩; simp [St.at, St.goto] at hn) (Step.assign (n := 0) rfl rfl)
  have a := OneClose.step (i := 1) a (fun _ p hp => by simp [St.goto, List.replicate] at hp; rcases hp with rfl | rfl <;> rfl)
    (by rintro ⟨n, hn⟩; simp [St.at, St.goto] at hn) (Step.find (n := 0) rfl rfl)
  exact ⟨_, a, rfl, rfl, rfl⟩

example : ∃ s, CalmReach false 2 s ∧ s.at 0 (.has 0) ∧ s.at 1 (.has 0) := by
  obtain ⟨s, h, h1, h2, -⟩ := run2
  exact ⟨s, h.calm, h1, h2⟩

end HandlesEx

/-- C51, violation: `close` decides to destroy the database outside the lock of the map
    (src/db_mgr.cc:350-353); an `open` in between finds it, returns OK and has a handle of a database that
    is destroyed afterwards. -/
theorem C51_open_close_violation :
    ∃ s, Handles.Reach false 2 s ∧ s.at 1 (.has 0) ∧ s.alive 0 = false := by
  have a := Handles.Reach.init (w := false) (k := 2)
  have a := Handles.Reach.step (i := 0) a (Step.miss rfl rfl)
  have a := Handles.Reach.step (i := 0) a (Step.assign (n := 0) rfl rfl)
  have a := Handles.Reach.step (i := 0) a (Step.close (n := 0) rfl)
  have a := Handles.Reach.step (i := 0) a (Step.load (n := 0) rfl)
  have a := Handles.Reach.step (i := 0) a (Step.casYes (n := 0) rfl rfl)
  have a := Handles.Reach.step (i := 1) a (Step.find (n := 0) rfl rfl)
  have a := Handles.Reach.step (i := 0) a (Step.erase (n := 0) rfl)
  exact ⟨_, a, rfl, rfl⟩

/-- C51, violation: in the same window the second thread may close its handle again; both destroy the
    database. -/
theorem C51_double_destroy_violation :
    ∃ s, Handles.Reach false 2 s ∧ s.at 0 (.c3 0) ∧ s.at 1 (.c3 0) := by
  have a := Handles.Reach.init (w := false) (k := 2)
  have a := Handles.Reach.step (i := 0) a (Step.miss rfl rfl)
  have a := Handles.Reach.step (i := 0) a (Step.assign (n := 0) rfl rfl)
  have a := Handles.Reach.step (i := 0) a (Step.close (n := 0) rfl)
  have a := Handles.Reach.step (i := 0) a (Step.load (n := 0) rfl)
  have a := Handles.Reach.step (i := 0) a (Step.casYes (n := 0) rfl rfl)
  have a := Handles.Reach.step (i := 1) a (Step.find (n := 0) rfl rfl)
  have a := Handles.Reach.step (i := 1) a (Step.close (n := 0) rfl)
  have a := Handles.Reach.step (i := 1) a (Step.load (n := 0) rfl)
  have a := Handles.Reach.step (i := 1) a (Step.casYes (n := 0) rfl rfl)
  exact ⟨_, a, rfl, rfl⟩

/-- C51, violation: two handles are closed at the same time; both `close` calls return OK, no handle is
    left, and the database was not closed: it is still in the map, and its log was not synced
    (src/db_mgr.cc:350-370: both see a count of two and lower it). -/
theorem C51_two_closes_violation :
    ∃ s, CalmReach false 2 s ∧ (∀ p ∈ s.pcs, p = .out) ∧ s.map = some 0 ∧ s.alive 0 = true ∧ s.ref 0 = 0 := by
  obtain ⟨s, h, h0, h1⟩ : ∃ s, CalmReach false 2 s ∧ s.pcs = [.has 0, .has 0] ∧ s.map = some 0 ∧ s.alive 0 = true ∧
      s.ref 0 = 2 := by
    have a := CalmReach.init (w := false) (k := 2)
    have a := CalmReach.step (i := 0) a (fun _ p hp => by simp at hp; subst hp; rfl) (Step.miss rfl rfl)
    have a := CalmReach.step (i := 0) a (by rintro (h | h) <;> simp [St.at, St.goto] at h) (Step.assign (n := 0) rfl rfl)
    have a := CalmReach.step (i := 1) a
      (fun _ p hp => by simp [St.goto, List.replicate] at hp; rcases hp with rfl | rfl <;> rfl) (Step.find (n := 0) rfl rfl)
    exact ⟨_, a, rfl, rfl, rfl, rfl⟩
  obtain ⟨map, ref, alive, next, pcs⟩ := s
  simp only at h0 h1
  obtain ⟨h1, h2, h3⟩ := h1
  subst h0; subst h1
  have a := CalmReach.step (i := 0) h (by rintro (h | h) <;> simp [St.at] at h) (Step.close (n := 0) rfl)
  have a := CalmReach.step (i := 1) a (by rintro (h | h) <;> simp [St.at, St.goto] at h) (Step.close (n := 0) rfl)
  have a := CalmReach.step (i := 0) a (by rintro (h | h) <;> simp [St.at, St.goto] at h) (Step.load (n := 0) rfl)
  simp only [St.goto, h3] at a
  have a := CalmReach.step (i := 1) a (by rintro (h | h) <;> simp [St.at] at h) (Step.load (n := 0) rfl)
  simp only [St.goto, h3] at a
  have a := CalmReach.step (i := 0) a (by rintro (h | h) <;> simp [St.at] at h) (Step.casNo (n := 0) rfl (Or.inl (by simp [h3])))
  have a := CalmReach.step (i := 1) a (by rintro (h | h) <;> simp [St.at, St.goto] at h) (Step.casNo (n := 0) rfl (Or.inl (by simp [h3, St.goto])))
  have a := CalmReach.step (i := 0) a (by rintro (h | h) <;> simp [St.at, St.goto] at h) (Step.dec (n := 0) rfl)
  have a := CalmReach.step (i := 1) a (by rintro (h | h) <;> simp [St.at, St.goto] at h) (Step.dec (n := 0) rfl)
  refine ⟨_, a, ?_, rfl, h2, ?_⟩
  · intro p hp; simp [St.goto] at hp; exact hp
  · simp [St.goto, upd, h3]

/-- C51, violation: a spurious failure of `compare_exchange_weak` (src/db_mgr.cc:350) has the same
    effect with a single handle: `close` returns OK and the database is not closed. -/
theorem C51_spurious_violation :
    ∃ s, CalmReach true 1 s ∧ (∀ p ∈ s.pcs, p = .out) ∧ s.map = some 0 ∧ s.alive 0 = true := by
  have a := CalmReach.init (w := true) (k := 1)
  have a := CalmReach.step (i := 0) a (fun _ p hp => by simp at hp; subst hp; rfl) (Step.miss rfl rfl)
  have a := CalmReach.step (i := 0) a (by rintro (h | h) <;> simp [St.at, St.goto] at h) (Step.assign (n := 0) rfl rfl)
  have a := CalmReach.step (i := 0) a (by rintro (h | h) <;> simp [St.at, St.goto] at h) (Step.close (n := 0) rfl)
  have a := CalmReach.step (i := 0) a (by rintro (h | h) <;> simp [St.at, St.goto] at h) (Step.load (n := 0) rfl)
  have a := CalmReach.step (i := 0) a (by rintro (h | h) <;> simp [St.at, St.goto, upd] at h) (Step.casNo (n := 0) rfl (Or.inr rfl))
  have a := CalmReach.step (i := 0) a (by rintro (h | h) <;> simp [St.at, St.goto, upd] at h) (Step.dec (n := 0) rfl)
  refine ⟨_, a, ?_, rfl, rfl⟩
  intro p hp; simp [St.goto] at hp; exact hp

/-- C51, violation: `open` returns OK and a null pointer, if another thread opens the same path at the
    same time and closes it before the second look-up (src/jungle.cc:157-167). -/
theorem C51_null_handle_violation : ∃ s, CalmReach false 2 s ∧ s.at 0 .null := by
  have a := CalmReach.init (w := false) (k := 2)
  have a := CalmReach.step (i := 0) a (fun _ p hp => by simp at hp; subst hp; rfl) (Step.miss rfl rfl)
  have a := CalmReach.step (i := 1) a
    (fun _ p hp => by simp [St.goto, List.replicate] at hp; rcases hp with rfl | rfl <;> rfl) (Step.miss rfl rfl)
  have a := CalmReach.step (i := 1) a (by rintro (h | h) <;> simp [St.at, St.goto] at h) (Step.assign (n := 1) rfl rfl)
  have a := CalmReach.step (i := 0) a (by rintro (h | h) <;> simp [St.at, St.goto] at h) (Step.dup (n := 0) (m := 1) rfl rfl)
  have a := CalmReach.step (i := 1) a (by rintro (h | h) <;> simp [St.at, St.goto] at h) (Step.close (n := 1) rfl)
  have a := CalmReach.step (i := 1) a (by rintro (h | h) <;> simp [St.at, St.goto] at h) (Step.load (n := 1) rfl)
  have a := CalmReach.step (i := 1) a (by rintro (h | h) <;> simp [St.at, St.goto, upd] at h) (Step.casYes (n := 1) rfl rfl)
  have a := CalmReach.step (i := 1) a (by rintro (h | h) <;> simp [St.at, St.goto, upd] at h) (Step.erase (n := 1) rfl)
  have a := CalmReach.step (i := 0) a
    (fun _ p hp => by simp [St.goto, upd, List.replicate] at hp; rcases hp with rfl | rfl <;> rfl) (Step.remiss rfl rfl)
  exact ⟨_, a, rfl⟩

/-- C51, violation: a path is opened with `DBGroup::open` and with `DB::open`; both handles are closed
    with status OK, and the database stays open (src/jungle.cc:250-258 ignores the close and its count). -/
theorem C51_group_violation :
    ∃ g, Groups.GReach true g 0 0 ∧ g.isOpen = true := by
  have a := Groups.GReach.init (mix := true)
  have a := Groups.GReach.grpOpen a rfl
  have a := Groups.GReach.dbOpen a (Or.inl rfl)
  have a := Groups.GReach.dbClose a
  have a := Groups.GReach.grpClose a
  exact ⟨_, a, rfl⟩

/-- groups: two group handles, one of them closed -/
example : ∃ g, Groups.GReach false g 0 1 ∧ g.isOpen = true := by
  have a := Groups.GReach.init (mix := false)
  have a := Groups.GReach.grpOpen a rfl
  have a := Groups.GReach.grpOpen a rfl
  have a := Groups.GReach.grpClose a
  exact ⟨_, a, rfl⟩

namespace HandlesEx
open Sessions

/-- the database on disk that both threads load -/
def disk : Disk Nat (Flat Nat) := a4.diskOf
/-- the object of the thread that wins -/
def win := DB.reopen c2 disk
def win1 := (win.set 9 [7]).2
def win2 := win1.sync.2
/-- the object of the thread that loses; `destroy` syncs it -/
def lose := (DB.reopen c2 disk).log.sync.2
/-- a crash afterwards -/
def after : Disk Nat (Flat Nat) := { win2.diskOf with mani := lose.persist }

end HandlesEx

/-- C51, violation: two threads open the same path at the same time; both load it, one of them is the
    database from then on, and accepts and syncs a write.  The other object is destroyed, and its `close`
    writes the log manifest as it was loaded (src/jungle.cc:158-163, src/log_mgr.cc:2100-2113): after a
    crash the synced write is lost.  What the winner wrote in between is on disk (`HandlesEx.after` keeps its log
    files). -/
theorem C51_duplicate_open_violation :
    ∃ (d : Disk Nat (Flat Nat)) (cfg : Cfg) (db1 db2 : DB Nat (Flat Nat)) (other : LogMgr Nat),
      (∃ (db0 db0' : DB Nat (Flat Nat)) (cs : List PMani) (h : List (Rec Nat)) (n : Nat),
        Session ⟨db0, cs⟩ h n ∧ db0.sync = (.ok, db0') ∧ d = db0'.diskOf) ∧
      (DB.reopen cfg d).set 9 [7] = (.ok, db1) ∧ db1.sync = (.ok, db2) ∧
      (DB.reopen cfg d).log.sync = (.ok, other) ∧
      (DB.reopen cfg db2.diskOf).get 9 = (.ok, some [7]) ∧
      (DB.reopen cfg { db2.diskOf with mani := other.persist }).get 9 = (.keyNotFound, none) :=
  ⟨HandlesEx.disk, Sessions.c2, HandlesEx.win1, HandlesEx.win2, HandlesEx.lose,
    ⟨_, _, _, _, _, Sessions.s3, rfl, rfl⟩, rfl, rfl, rfl, rfl, rfl⟩

end Jungle
