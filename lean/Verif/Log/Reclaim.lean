/-
  Which memtables a pass of the log reclaimer purges: `LogManifest::reclaimExpiredLogFiles`,
  src/log_manifest.cc:36-148.
-/
import Mathlib.Data.List.Forall2
import Verif.Basic

namespace Jungle
namespace Reclaim

/-- What the pass looks at in a log file; `acc`: the time of its last access, in microseconds. -/
structure File where
  num : Nat
  acc : Nat
  evicted : Bool := false
  removed : Bool := false
  immutable : Bool := true
  purged : Bool := false
  deriving DecidableEq

/-- Its memtable is in memory and counts (src/log_manifest.cc:77-82). -/
def File.live (f : File) : Bool := !f.evicted && !f.removed && f.immutable && !f.purged

/-- `LogFile::getLastAcc` (src/log_file.cc:125-127). -/
def File.age (now : Nat) (f : File) : Nat := now - f.acc

/-- `LogFile::isExpired` (src/log_file.cc:117-123). -/
def File.expired (now ttl : Nat) (f : File) : Bool := decide (ttl * 1000000 < f.age now)

/-- The conditions both loops share, besides not being the first file (62-67, 125-130). -/
def File.cand (ls : Nat) (f : File) : Bool := decide (f.num < ls) && f.live

def File.evict (f : File) : File := { f with evicted := true }

/-- The first loop (44-90); all ages are taken at `now`. -/
def pass1 (now ttl ls : Nat) : List File → List File
  | [] => []
  | a :: r => a :: r.map fun f => if f.cand ls && f.expired now ttl then f.evict else f

/-- `live_file_acc` (77-82), taken in the first loop. -/
def ages (now : Nat) (fs : List File) : List Nat := (fs.filter File.live).map (File.age now)

/-- `std::sort` (112), by insertion. -/
def insert (a : Nat) : List Nat → List Nat
  | [] => [a]
  | b :: l => if a ≤ b then a :: b :: l else b :: insert a l

def sort (l : List Nat) : List Nat := l.foldr insert []

/-- `live_file_acc[limit - 1]` after the sort (112). -/
def kth (limit : Nat) (l : List Nat) : Nat := ((sort l)[limit - 1]?).getD 0

/-- The second loop behind the first file (120-147), with the number of files still to purge. -/
def urgent (now ls x : Nat) : Nat → List File → List File
  | 0, fs => fs
  | _ + 1, [] => []
  | b + 1, f :: r =>
    if f.cand ls && decide (x < f.age now) then f.evict :: urgent now ls x b r else f :: urgent now ls x (b + 1) r

/-- `urgent` over all files: the first one is left (124). -/
def pass2 (now ls x b : Nat) : List File → List File
  | [] => []
  | a :: r => a :: urgent now ls x b r

/-- `LogManifest::reclaimExpiredLogFiles`: the first loop runs at `now1`, the second at `now2`.  `ls` is the last
    synced log file.  The limit is `maxKeepingMemtables`, the other option `logFileTtl_sec`. -/
def reclaim (now1 now2 ttl limit ls : Nat) (fs : List File) : List File :=
  if ls = NIL then fs
  else
    let p := pass1 now1 ttl ls fs
    if limit ≠ 0 ∧ limit < (ages now1 p).length then
      pass2 now2 ls (kth limit (ages now1 p)) ((ages now1 p).length - limit) p
    else p

/-- A database as the reclaimer sees it. -/
structure Db where
  logOnly : Bool := true
  ttl : Nat := 0
  limit : Nat := 0
  ls : Nat
  files : List File
  deriving DecidableEq

/-- `LogMgr::isLogStoreMode` (src/log_mgr.cc:377-383): also what `LogManifest::isLogReclaimerActive` says
    (src/log_manifest.cc:201-203). -/
def Db.storeMode (d : Db) : Bool := d.logOnly && decide (d.ttl ≠ 0)

/-- The reclaimer is started when a database in this mode is opened (src/log_manifest.cc:205-216), and serves the
    whole process (src/db_mgr.cc:280-295). -/
def started (opened : List Db) : Bool := opened.any Db.storeMode

/-- The end of the use of an evicted file (src/log_manifest.h:179-192) that nobody else uses. -/
def File.settle (f : File) : File := if f.evicted then { f with purged := true } else f

/-- `LogReclaimer::work` (src/log_reclaimer.cc:50-79): a pass over every database with `logSectionOnly`. -/
def work (now1 now2 : Nat) (opened : List Db) : List Db :=
  if started opened then
    opened.map fun d =>
      if d.logOnly then { d with files := (reclaim now1 now2 d.ttl d.limit d.ls d.files).map File.settle } else d
  else opened

/-- A read that needs the file: the memtable is loaded first if it was purged and the mode says so
    (`grab`, src/log_manifest.h:77-109, src/log_manifest.cc:686-691); without one the read goes through a null pointer
    (src/log_file.cc:358-402, 532-553). -/
def read (d : Db) (f : File) : Status :=
  if f.purged then if d.storeMode then .ok else .undefinedBehaviour else .ok

/-! ### Lemmas -/

/-- `g` is `f`, or `f` purged with good reason. -/
def Ok (ls : Nat) (f g : File) : Prop := g = f ∨ g = f.evict ∧ f.num < ls ∧ f.live = true

theorem cand_iff {ls : Nat} {f : File} : f.cand ls = true ↔ f.num < ls ∧ f.live = true := by
  simp [File.cand]

theorem expired_zero {now : Nat} {f : File} : f.expired now 0 = true ↔ f.acc < now := by
  unfold File.expired File.age
  rw [decide_eq_true_eq, Nat.zero_mul]
  omega

theorem evict_live (f : File) : f.evict.live = false := by simp [File.evict, File.live]

theorem pass1_tail (now ttl ls : Nat) (r : List File) :
    List.Forall₂ (Ok ls) r (r.map fun f => if f.cand ls && f.expired now ttl then f.evict else f) := by
  induction r with
  | nil => exact .nil
  | cons f r ih =>
    refine .cons ?_ ih
    dsimp only
    split
    · next h =>
      rw [Bool.and_eq_true] at h
      exact Or.inr ⟨rfl, cand_iff.1 h.1⟩
    · exact Or.inl rfl

theorem urgent_ok (now ls x : Nat) (r : List File) : ∀ b, List.Forall₂ (Ok ls) r (urgent now ls x b r) := by
  induction r with
  | nil =>
    intro b
    cases b <;> exact .nil
  | cons f r ih =>
    intro b
    cases b with
    | zero =>
      clear ih
      show List.Forall₂ _ (f :: r) (f :: r)
      induction (f :: r) with
      | nil => exact .nil
      | cons a l ih => exact .cons (Or.inl rfl) ih
    | succ b =>
      unfold urgent
      split
      · next h =>
        rw [Bool.and_eq_true] at h
        exact .cons (Or.inr ⟨rfl, cand_iff.1 h.1⟩) (ih b)
      · exact .cons (Or.inl rfl) (ih (b + 1))

theorem Ok.trans {ls : Nat} {f g h : File} (a : Ok ls f g) (b : Ok ls g h) : Ok ls f h := by
  rcases a with rfl | ⟨rfl, a1, a2⟩
  · exact b
  · rcases b with rfl | ⟨rfl, b1, b2⟩
    · exact Or.inr ⟨rfl, a1, a2⟩
    · rw [evict_live] at b2
      cases b2

theorem ok_trans {ls : Nat} {a b c : List File} (h1 : List.Forall₂ (Ok ls) a b) (h2 : List.Forall₂ (Ok ls) b c) :
    List.Forall₂ (Ok ls) a c := by
  induction h1 generalizing c with
  | nil =>
    cases h2
    exact .nil
  | cons h _ ih =>
    cases h2 with
    | cons h' t => exact .cons (h.trans h') (ih t)

theorem ok_refl (ls : Nat) (a : List File) : List.Forall₂ (Ok ls) a a := by
  induction a with
  | nil => exact .nil
  | cons _ _ ih => exact .cons (Or.inl rfl) ih

/-- The second loop purges no more than it is to. -/
theorem urgent_count (now ls x : Nat) (r : List File) : ∀ b,
    (r.filter File.live).length ≤ ((urgent now ls x b r).filter File.live).length + b := by
  induction r with
  | nil => intro b; simp
  | cons f r ih =>
    intro b
    cases b with
    | zero => exact Nat.le_refl _
    | succ b =>
      unfold urgent
      split
      · have := ih b
        have e : (f.evict :: urgent now ls x b r).filter File.live = (urgent now ls x b r).filter File.live :=
          List.filter_cons_of_neg (by rw [evict_live]; simp)
        rw [e, List.filter_cons]
        split
        · rw [List.length_cons]; omega
        · omega
      · have := ih (b + 1)
        rw [List.filter_cons, List.filter_cons]
        split
        · rw [List.length_cons, List.length_cons]; omega
        · omega

/-- What the second loop purges is older than the bound. -/
theorem urgent_old (now ls x : Nat) (r : List File) : ∀ b, ∀ g ∈ urgent now ls x b r,
    g ∈ r ∨ ∃ f ∈ r, g = f.evict ∧ x < f.age now := by
  induction r with
  | nil =>
    intro b g hg
    cases b <;> cases hg
  | cons f r ih =>
    intro b g hg
    cases b with
    | zero => exact Or.inl hg
    | succ b =>
      unfold urgent at hg
      split at hg
      · next h =>
        rw [Bool.and_eq_true] at h
        rcases List.mem_cons.1 hg with e | hg
        · exact Or.inr ⟨f, List.mem_cons_self, e, by simpa using h.2⟩
        · rcases ih b g hg with h1 | ⟨f', h1, h2⟩
          · exact Or.inl (List.mem_cons_of_mem _ h1)
          · exact Or.inr ⟨f', List.mem_cons_of_mem _ h1, h2⟩
      · rcases List.mem_cons.1 hg with e | hg
        · exact Or.inl (e ▸ List.mem_cons_self)
        · rcases ih (b + 1) g hg with h1 | ⟨f', h1, h2⟩
          · exact Or.inl (List.mem_cons_of_mem _ h1)
          · exact Or.inr ⟨f', List.mem_cons_of_mem _ h1, h2⟩

/-- A memtable that is not in memory stays as it is. -/
theorem urgent_keeps (now ls x : Nat) {g : File} (hg : g.live = false) (r : List File) : ∀ b, g ∈ r →
    g ∈ urgent now ls x b r := by
  induction r with
  | nil => intro b h; cases h
  | cons f r ih =>
    intro b h
    cases b with
    | zero => exact h
    | succ b =>
      unfold urgent
      split
      · next hc =>
        rw [Bool.and_eq_true, cand_iff] at hc
        rcases List.mem_cons.1 h with e | h
        · rw [← e, hg] at hc
          exact absurd hc.1.2 (by simp)
        · exact List.mem_cons_of_mem _ (ih b h)
      · rcases List.mem_cons.1 h with e | h
        · exact e ▸ List.mem_cons_self
        · exact List.mem_cons_of_mem _ (ih (b + 1) h)

theorem insert_perm (a : Nat) (l : List Nat) : (insert a l).Perm (a :: l) := by
  induction l with
  | nil => exact .refl _
  | cons b l ih =>
    unfold insert
    split
    · exact .refl _
    · exact (ih.cons b).trans (.swap a b l)

theorem sort_perm (l : List Nat) : (sort l).Perm l := by
  induction l with
  | nil => exact .refl _
  | cons a l ih => exact (insert_perm a (sort l)).trans (ih.cons a)

theorem insert_sorted (a : Nat) (l : List Nat) (h : l.Pairwise (· ≤ ·)) : (insert a l).Pairwise (· ≤ ·) := by
  induction l with
  | nil => exact List.pairwise_singleton _ _
  | cons b l ih =>
    rw [List.pairwise_cons] at h
    unfold insert
    split
    · next hab =>
      rw [List.pairwise_cons, List.pairwise_cons]
      refine ⟨fun c hc => ?_, h⟩
      rcases List.mem_cons.1 hc with rfl | hc
      · exact hab
      · exact Nat.le_trans hab (h.1 c hc)
    · next hab =>
      rw [List.pairwise_cons]
      refine ⟨fun c hc => ?_, ih h.2⟩
      rcases List.mem_cons.1 ((insert_perm a l).mem_iff.1 hc) with rfl | hc
      · omega
      · exact h.1 c hc

theorem sort_sorted (l : List Nat) : (sort l).Pairwise (· ≤ ·) := by
  induction l with
  | nil => exact .nil
  | cons a l ih => exact insert_sorted a _ ih

/-- At least `limit` of the ages are up to the bound. -/
theorem kth_count (limit : Nat) (l : List Nat) (h : limit < l.length) :
    limit ≤ l.countP (fun a => decide (a ≤ kth limit l)) := by
  have hp := sort_perm l
  have hs := sort_sorted l
  have hk : kth limit l = ((sort l)[limit - 1]?).getD 0 := rfl
  rw [hk]
  have hlen := hp.length_eq
  rw [← hp.countP_eq]
  revert hs hlen
  generalize sort l = s
  intro hs hlen
  have hlt : limit - 1 < s.length := by omega
  rw [List.getElem?_eq_getElem hlt, Option.getD_some]
  have hall : ∀ a ∈ s.take limit, a ≤ s[limit - 1] := by
    intro a ha
    obtain ⟨i, hi, rfl⟩ := List.mem_iff_getElem.1 ha
    rw [List.getElem_take]
    rw [List.length_take] at hi
    rcases Nat.lt_or_ge i (limit - 1) with hc | hc
    · have := List.pairwise_iff_getElem.1 hs i (limit - 1) (by omega) hlt hc
      simpa using this
    · have : i = limit - 1 := by omega
      subst this
      exact Nat.le_refl _
  have h1 : (s.take limit).countP (fun a => decide (a ≤ s[limit - 1])) = (s.take limit).length :=
    List.countP_eq_length.2 (fun a ha => by simpa using hall a ha)
  have h2 := (List.take_sublist limit s).countP_le (p := fun a => decide (a ≤ s[limit - 1]))
  rw [h1, List.length_take] at h2
  omega

/-- If no two ages are the same, no more than `limit` of them are up to the bound. -/
theorem kth_count_le (limit : Nat) (l : List Nat) (h0 : limit ≠ 0) (h : limit < l.length) (hn : l.Nodup) :
    l.countP (fun a => decide (a ≤ kth limit l)) ≤ limit := by
  have hp := sort_perm l
  have hs := sort_sorted l
  have hn' := hp.nodup_iff.2 hn
  have hk : kth limit l = ((sort l)[limit - 1]?).getD 0 := rfl
  rw [hk]
  have hlen := hp.length_eq
  rw [← hp.countP_eq]
  revert hs hn' hlen
  generalize sort l = s
  intro hs hn' hlen
  have hlt : limit - 1 < s.length := by omega
  rw [List.getElem?_eq_getElem hlt, Option.getD_some]
  have hall : ∀ a ∈ s.drop limit, ¬ (decide (a ≤ s[limit - 1]) = true) := by
    intro a ha
    obtain ⟨i, hi, rfl⟩ := List.mem_iff_getElem.1 ha
    rw [List.getElem_drop, decide_eq_true_eq]
    rw [List.length_drop] at hi
    have h1 := List.pairwise_iff_getElem.1 hs (limit - 1) (limit + i) hlt (by omega) (by omega)
    have h2 : s[limit - 1] ≠ s[limit + i] := List.pairwise_iff_getElem.1 hn' (limit - 1) (limit + i) hlt (by omega) (by omega)
    omega
  have h1 : (s.drop limit).countP (fun a => decide (a ≤ s[limit - 1])) = 0 := List.countP_eq_zero.2 hall
  have h2 : (s.take limit).countP (fun a => decide (a ≤ s[limit - 1])) ≤ (s.take limit).length := List.countP_le_length
  have h3 : s.countP (fun a => decide (a ≤ s[limit - 1])) =
      (s.take limit).countP (fun a => decide (a ≤ s[limit - 1])) + (s.drop limit).countP (fun a => decide (a ≤ s[limit - 1])) := by
    rw [← List.countP_append, List.take_append_drop]
  rw [List.length_take] at h2
  omega

/-- The second loop purges as many as it is to, or all that may be purged and are older than the bound. -/
theorem urgent_bound (now ls x : Nat) (r : List File) : ∀ b,
    ((urgent now ls x b r).filter File.live).length + b ≤ (r.filter File.live).length ∨
      ∀ g ∈ urgent now ls x b r, g.live = true → g.cand ls = false ∨ g.age now ≤ x := by
  induction r with
  | nil =>
    intro b
    right
    intro g hg
    cases b <;> cases hg
  | cons f r ih =>
    intro b
    cases b with
    | zero => exact Or.inl (Nat.le_refl _)
    | succ b =>
      unfold urgent
      split
      · next hc =>
        rw [Bool.and_eq_true] at hc
        have e : (f.evict :: urgent now ls x b r).filter File.live = (urgent now ls x b r).filter File.live :=
          List.filter_cons_of_neg (by rw [evict_live]; simp)
        rw [e, List.filter_cons_of_pos (cand_iff.1 hc.1).2, List.length_cons]
        rcases ih b with h | h
        · left; omega
        · right
          intro g hg hl
          rcases List.mem_cons.1 hg with e | hg
          · rw [e, evict_live] at hl
            cases hl
          · exact h g hg hl
      · next hc =>
        rcases ih (b + 1) with h | h
        · left
          rw [List.filter_cons, List.filter_cons]
          split
          · rw [List.length_cons, List.length_cons]; omega
          · omega
        · right
          intro g hg hl
          rcases List.mem_cons.1 hg with e | hg
          · subst e
            by_cases c : g.cand ls = true
            · right
              rw [c, Bool.true_and, decide_eq_true_eq] at hc
              omega
            · left
              simpa using c
          · exact h g hg hl

theorem urgent_sub (now ls x : Nat) (r : List File) : ∀ b,
    ((urgent now ls x b r).filter File.live).Sublist (r.filter File.live) := by
  induction r with
  | nil => intro b; cases b <;> exact .slnil
  | cons f r ih =>
    intro b
    cases b with
    | zero => exact .refl _
    | succ b =>
      unfold urgent
      split
      · have e : (f.evict :: urgent now ls x b r).filter File.live = (urgent now ls x b r).filter File.live :=
          List.filter_cons_of_neg (by rw [evict_live]; simp)
        rw [e, List.filter_cons]
        split
        · exact (ih b).cons _
        · exact ih b
      · rw [List.filter_cons, List.filter_cons]
        split
        · exact (ih (b + 1)).cons_cons _
        · exact ih (b + 1)

theorem countP_or (p q : File → Bool) (l : List File) :
    l.countP (fun f => p f || q f) ≤ l.countP p + l.countP q := by
  induction l with
  | nil => exact Nat.le_refl _
  | cons a l ih =>
    rw [List.countP_cons, List.countP_cons, List.countP_cons]
    cases p a <;> cases q a <;> simp <;> omega

theorem pass1_none {now ttl ls : Nat} {fs : List File} (h : ∀ f ∈ fs, f.expired now ttl = false) :
    pass1 now ttl ls fs = fs := by
  cases fs with
  | nil => rfl
  | cons a r =>
    have e : (r.map fun f => if f.cand ls && f.expired now ttl then f.evict else f) = r.map id := by
      apply List.map_congr_left
      intro f hf
      rw [h f (List.mem_cons_of_mem _ hf), Bool.and_false]
      rfl
    rw [List.map_id] at e
    show a :: _ = a :: r
    rw [e]

end Reclaim
end Jungle
