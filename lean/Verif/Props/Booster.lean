/-
  C29: the lookup booster never changes an answer.

  With one call at a time it never does, whatever the hash function and the size of the booster.  With readers and
  a writer at the same time it does: a reader that found an old version can put it back into the booster after a
  newer version was evicted by another key, and all later reads of the key get the old version
  (`C29_race_violation`).  That needs two hash values that share an element; without any the booster only gives
  versions that are at least as new as the newest one at the beginning of the read (`C29_concurrent_partial`).
-/
import Verif.Table.BoosterLemmas
import Mathlib.Data.List.Induction

set_option linter.unusedSectionVars false

namespace Jungle
open BTab
variable {K : Type} [DecidableEq K]

/-- What the caller sees of a record found in a table file: a tombstone means there is no value. -/
def Spec.seen (x : Option (Rec K)) : Option (Rec K) := x.filter (fun r => !r.isDel)

/-- What was last written for a key: a record, or nothing if that was a removal of the document. -/
def Spec.lastPut (ws : List (Rec K × Bool)) (k : K) : Option (Rec K) :=
  ((ws.filter (fun w => w.1.key = k)).getLast?.filter (fun w => !w.2)).map (·.1)

/-- Histories of one file: writes, each newer than what the file has of its key, and reads.  `ws` are the writes so
    far. -/
inductive BHist (hash : K → Nat) (n : Nat) : BTab K → List (Rec K × Bool) → Prop
  | fresh : BHist hash n (BTab.fresh n) []
  | set {t ws} (r : Rec K) (purge : Bool) : BHist hash n t ws → (∀ w ∈ ws, w.1.key = r.key → w.1.seq < r.seq) →
      BHist hash n (t.set hash r purge) (ws ++ [(r, purge)])
  | get {t ws} (k : K) : BHist hash n t ws → BHist hash n (t.get hash k).2 ws

theorem BHist.docs {hash : K → Nat} {n : Nat} {t : BTab K} {ws : List (Rec K × Bool)} (h : BHist hash n t ws) :
    t.docs = ws.map (fun w => ⟨w.1, w.2⟩) := by
  induction h with
  | fresh => rfl
  | set r p h hn ih =>
    rw [List.map_append, ← ih]; rfl
  | @get t ws k h ih =>
    rw [← ih]
    unfold BTab.get slow
    split
    · rfl
    · split <;> rfl

theorem BHist.inv {hash : K → Nat} {n : Nat} {t : BTab K} {ws : List (Rec K × Bool)} (h : BHist hash n t ws) :
    SeqInv hash t := by
  induction h with
  | fresh => exact SeqInv.fresh hash n
  | @set t ws r p h hn ih =>
    refine ih.set ?_
    intro d hd hk
    rw [h.docs] at hd
    obtain ⟨w, hw, rfl⟩ := List.mem_map.1 hd
    exact hn w hw hk
  | get k h ih => exact ih.get k

theorem lastPut_newest_aux (ws : List (Rec K × Bool)) (k : K) :
    (ws.filter (fun w => w.1.key = k)).getLast? =
      (newest (ws.map (fun w => (⟨w.1, w.2⟩ : BDoc K))) k).map (fun x => (x.2.r, x.2.purged)) := by
  induction ws using List.reverseRecOn with
  | nil => rfl
  | append_singleton ws w ih =>
    rw [List.map_append, List.map_singleton, newest_append, List.filter_append]
    by_cases h : w.1.key = k
    · rw [if_pos h, List.filter_cons_of_pos (by simpa using h)]
      simp
    · rw [if_neg h, List.filter_cons_of_neg (by simpa using h)]
      simpa using ih

theorem lastPut_newest (ws : List (Rec K × Bool)) (k : K) :
    Spec.lastPut ws k = (search (ws.map (fun w => (⟨w.1, w.2⟩ : BDoc K))) k).map (fun x => x.2.r) := by
  unfold Spec.lastPut search
  rw [lastPut_newest_aux]
  cases newest (ws.map (fun w => (⟨w.1, w.2⟩ : BDoc K))) k with
  | none => rfl
  | some x => cases hx : x.2.purged <;> simp [hx, Option.filter_some]

/-- Readers: what a finished read got is a document of its key. -/
def OwnRd (docs : List (BDoc K)) : RPc K → Prop
  | .fill k _ _ d => d ∈ docs ∧ d.r.key = k
  | .done k _ res => ∀ r, res = some r → r.key = k ∧ ∃ d ∈ docs, r = toRec d
  | _ => True

theorem OwnRd.mono {docs docs' : List (BDoc K)} {p : RPc K} (h : OwnRd docs p) (hs : ∀ d ∈ docs, d ∈ docs') : OwnRd docs' p := by
  cases p with
  | fill k fl off d => exact ⟨hs d h.1, h.2⟩
  | done k fl res => intro r hr; obtain ⟨h1, d, hd, h2⟩ := h r hr; exact ⟨h1, d, hs d hd, h2⟩
  | idle => trivial
  | started k fl => trivial
  | hit k fl off => trivial
  | miss k fl => trivial

theorem toRec_key (d : BDoc K) : (toRec d).key = d.r.key := by unfold toRec; split <;> rfl

theorem ownAll {hash : K → Nat} {n : Nat} {s : BSt K} (h : BReach hash n s) : ∀ i, OwnRd s.t.docs (s.rd i) := by
  have hu : ∀ (docs : List (BDoc K)) (f : Nat → RPc K) (i : Nat) (p : RPc K), (∀ j, OwnRd docs (f j)) → OwnRd docs p →
      ∀ j, OwnRd docs (upd f i p j) := by
    intro docs f i p hf hp j
    unfold upd
    split
    · exact hp
    · exact hf j
  induction h with
  | init => exact fun _ => trivial
  | @step s s' _ hst ih =>
    cases hst with
    | write r purge hp hnew => exact fun i => (ih i).mono (fun d hd => List.mem_append_left _ hd)
    | publish r off hp => exact ih
    | start i k h => exact hu _ _ _ _ ih trivial
    | look i k fl h =>
      refine hu _ _ _ _ ih ?_
      split <;> trivial
    | read i k fl off h =>
      refine hu _ _ _ _ ih ?_
      split
      · next d hd =>
        rw [Option.filter_eq_some_iff] at hd
        intro r hr
        cases hr
        exact ⟨by rw [toRec_key]; simpa using hd.2, d, docAt_mem hd.1, rfl⟩
      · trivial
    | search i k fl h =>
      refine hu _ _ _ _ ih ?_
      split
      · next x hx =>
        obtain ⟨h1, h2⟩ := newest_some (search_some hx).1
        exact ⟨docAt_mem h1, h2⟩
      · intro r hr; cases hr
    | fill i k fl off d h =>
      refine hu _ _ _ _ ih ?_
      have := ih i
      rw [h] at this
      intro r hr
      cases hr
      exact ⟨by rw [toRec_key]; exact this.2, d, this.1, rfl⟩
    | leave i k fl res h => exact hu _ _ _ _ ih trivial

theorem ownKey {hash : K → Nat} {n : Nat} {s : BSt K} (h : BReach hash n s) {i : Nat} {k : K} {fl : Option (BDoc K)}
    {res : Option (Rec K)} (hd : s.rd i = .done k fl res) : ∀ r, res = some r → r.key = k ∧ ∃ d ∈ s.t.docs, r = toRec d := by
  have := ownAll h i
  rw [hd] at this
  exact this

/-- C29 (one call at a time): for every hash function, every size of the booster and every history of writes and
    reads of a file, the caller of a read sees what was last written for the key, exactly as without the booster. -/
theorem C29_sequential {hash : K → Nat} {n : Nat} {t : BTab K} {ws : List (Rec K × Bool)} (h : BHist hash n t ws) (k : K) :
    Spec.seen (t.get hash k).1 = Spec.seen (Spec.lastPut ws k) ∧ Spec.seen (t.getPlain k) = Spec.seen (Spec.lastPut ws k) := by
  rw [lastPut_newest, ← h.docs]
  have hplain : t.getPlain k = (search t.docs k).map (fun x => x.2.r) := by
    unfold getPlain
    cases hs : search t.docs k with
    | none => rfl
    | some x =>
      simp only [Option.map_some, Option.some.injEq]
      unfold toRec
      rw [if_neg (by rw [(search_some hs).2]; intro h; cases h)]
  refine ⟨?_, by rw [hplain]⟩
  unfold BTab.get
  cases hq : quick hash t k with
  | some d =>
    obtain ⟨off, hn⟩ := h.inv.quick hq
    show Spec.seen (some (toRec d)) = _
    unfold search
    rw [hn]
    cases hp : d.purged with
    | true =>
      rw [Option.filter_some, if_neg (by simp [hp])]
      unfold toRec
      rw [if_pos hp]; rfl
    | false =>
      rw [Option.filter_some, if_pos (by simp [hp])]
      unfold toRec
      rw [if_neg (by rw [hp]; intro h; cases h)]; rfl
  | none =>
    show Spec.seen (slow hash t k).1 = _
    unfold slow
    rw [← hplain]
    unfold getPlain
    cases search t.docs k <;> rfl

/-- C29 (one call at a time): only a removed document is answered in another way, a tombstone instead of nothing;
    for all other keys the records are equal. -/
theorem C29_sequential_same {hash : K → Nat} {n : Nat} {t : BTab K} {ws : List (Rec K × Bool)} (h : BHist hash n t ws) (k : K)
    (hk : ∀ w, (ws.filter (fun w => w.1.key = k)).getLast? = some w → w.2 = false) :
    (t.get hash k).1 = t.getPlain k := by
  unfold BTab.get
  cases hq : quick hash t k with
  | none =>
    show (slow hash t k).1 = _
    unfold slow getPlain
    cases search t.docs k <;> rfl
  | some d =>
    obtain ⟨off, hn⟩ := h.inv.quick hq
    show some (toRec d) = _
    have hp : d.purged = false := by
      have hl : (ws.filter (fun w => w.1.key = k)).getLast? = some (d.r, d.purged) := by
        have := lastPut_newest_aux ws k
        rw [this, ← h.docs, hn]; rfl
      exact hk _ hl
    unfold getPlain search
    rw [hn, Option.filter_some, if_pos (by simp [hp])]; rfl

/-- C29 (own key): whatever the collisions and the interleaving, a read never gets a record of another key. -/
theorem C29_own_key {hash : K → Nat} {n : Nat} {s : BSt K} (h : BReach hash n s) {i : Nat} {k : K} {fl : Option (BDoc K)}
    {res : Option (Rec K)} (hd : s.rd i = .done k fl res) : ∀ r, res = some r → r.key = k ∧ ∃ d ∈ s.t.docs, r = toRec d :=
  ownKey h hd

/-- C29 (readers and a writer at the same time, partial): if keys that share an element of the booster have the
    same hash value, every read that has finished saw a version of the key that is not older than the newest one
    written before the read began (`fl`), or nothing if there was none.  Missing: hash values that share an
    element, for which it is false. -/
theorem C29_concurrent_partial {hash : K → Nat} {n : Nat} (hn : 0 < n) (hs : ∀ k k', hash k % n = hash k' % n → hash k = hash k')
    {s : BSt K} (h : BReach hash n s) {i : Nat} {k : K} {fl : Option (BDoc K)} {res : Option (Rec K)}
    (hd : s.rd i = .done k fl res) :
    (fl = none ∧ res = none) ∨ ∃ d ∈ s.t.docs, d.r.key = k ∧ (∀ f, fl = some f → f.r.seq ≤ d.r.seq) ∧
      Spec.seen res = Spec.seen (some (toRec d)) := by
  have := (ConcInv.reach hn hs h).rd i
  rw [hd] at this
  exact this

/-! ### the race -/

namespace BoosterEx

def rc (seq k : Nat) (v : UInt8) : Rec Nat := ⟨seq, .insertion, k, [], [v]⟩

/-- Keys 1 and 3 share element 1 of a booster of two elements. -/
abbrev hash : Nat → Nat := fun k => k

abbrev docs : List (BDoc Nat) := [⟨rc 1 1 10, false⟩, ⟨rc 2 3 30, false⟩, ⟨rc 3 1 11, false⟩, ⟨rc 4 3 31, false⟩]

/-- Reader 0 finds the first version of key 1 and is delayed; the second version of key 1 and one of key 3 are
    written; reader 0 goes on. -/
theorem race : ∃ s : BSt Nat, BReach hash 2 s ∧ s.pend = none ∧ s.t.docs = docs ∧ s.rd 1 = .idle ∧
    look s.t.slots 1 = some 1 := by
  have h := BReach.init (hash := hash) (n := 2)
  have h := h.step (.write _ (rc 1 1 10) false rfl (by simp [BTab.fresh]))
  have h := h.step (.publish _ _ _ rfl)
  have h := h.step (.write _ (rc 2 3 30) false rfl (by simp [BTab.fresh, rc]))
  have h := h.step (.publish _ _ _ rfl)
  have h := h.step (.start _ 0 1 rfl)
  have h := h.step (.look _ 0 1 _ rfl)
  have h := h.step (.search _ 0 1 _ rfl)
  have h := h.step (.write _ (rc 3 1 11) false rfl (by simp [BTab.fresh, rc]))
  have h := h.step (.publish _ _ _ rfl)
  have h := h.step (.write _ (rc 4 3 31) false rfl (by simp [BTab.fresh, rc]))
  have h := h.step (.publish _ _ _ rfl)
  have h := h.step (.fill _ 0 1 _ _ _ rfl)
  have h := h.step (.leave _ 0 1 _ _ rfl)
  exact ⟨_, h, rfl, rfl, rfl, rfl⟩

end BoosterEx

/-- C29 fails: with two hash values on one element of the booster there is an interleaving of a reader with the
    writer after which, with all calls finished, a read of key 1 gets the first version of it, though the second
    was written long before, and without the booster it would get the second. -/
theorem C29_race_violation :
    ∃ s : BSt Nat, BReach (fun k => k) 2 s ∧ s.pend = none ∧
      (s.t.get (fun k => k) 1).1 = some ⟨1, .insertion, 1, [], [10]⟩ ∧
      s.t.getPlain 1 = some ⟨3, .insertion, 1, [], [11]⟩ ∧
      ∃ s', BReach (fun k => k) 2 s' ∧
        s'.rd 1 = .done 1 (some ⟨⟨3, .insertion, 1, [], [11]⟩, false⟩) (some ⟨1, .insertion, 1, [], [10]⟩) := by
  obtain ⟨s, h, hp, hd, hr, hl⟩ := BoosterEx.race
  refine ⟨s, h, hp, ?_, ?_, ?_⟩
  · have hq : quick (fun k => k) s.t 1 = some ⟨⟨1, .insertion, 1, [], [10]⟩, false⟩ := by
      unfold quick
      rw [hl, hd]; rfl
    unfold BTab.get
    rw [hq]; rfl
  · unfold getPlain
    rw [hd]; rfl
  · obtain ⟨⟨ds, sl⟩, pend, rd⟩ := s
    simp only at hp hd hr
    subst hp hd
    have h1 := h.step (.start _ 1 1 hr)
    have h2 := h1.step (.look _ 1 1 _ rfl)
    have h3 := h2.step (.read _ 1 1 _ 1 (by
      show (match look sl 1 with | some off => RPc.hit 1 _ off | none => RPc.miss 1 _) = _
      rw [hl]))
    exact ⟨_, h3, rfl⟩

/-! ### the hypotheses are met -/

/-- One call at a time: two versions of a key, a removed key, and a read in between. -/
example : ∃ t ws, BHist (fun k : Nat => k) 2 t ws ∧ Spec.lastPut ws 1 = some ⟨3, .insertion, 1, [], [11]⟩ ∧
    Spec.lastPut ws 3 = none ∧ ws.length = 3 := by
  have h := BHist.fresh (hash := fun k : Nat => k) (n := 2)
  have h := h.set (BoosterEx.rc 1 1 10) false (by simp)
  have h := h.get 1
  have h := h.set (BoosterEx.rc 2 3 30) true (by simp [BoosterEx.rc])
  have h := h.get 1
  have h := h.set (BoosterEx.rc 3 1 11) false (by simp [BoosterEx.rc])
  exact ⟨_, _, h, rfl, rfl, rfl⟩

/-- Interleaved: no two hash values of the keys share an element of a booster of 5 elements, and a read that
    overlaps a write finishes with the version written before it began. -/
example : (∀ k k' : Fin 5, k.val % 5 = k'.val % 5 → k.val = k'.val) ∧
    ∃ s : BSt (Fin 5), BReach (fun k => k.val) 5 s ∧ s.t.docs.length = 2 ∧
      s.rd 0 = .done 1 (some ⟨⟨1, .insertion, 1, [], [10]⟩, false⟩) (some ⟨1, .insertion, 1, [], [10]⟩) := by
  refine ⟨by decide, ?_⟩
  have h := BReach.init (hash := fun k : Fin 5 => k.val) (n := 5)
  have h := h.step (.write _ ⟨1, .insertion, 1, [], [10]⟩ false rfl (by simp [BTab.fresh]))
  have h := h.step (.publish _ _ _ rfl)
  have h := h.step (.start _ 0 1 rfl)
  have h := h.step (.look _ 0 1 _ rfl)
  have h := h.step (.write _ ⟨2, .insertion, 1, [], [11]⟩ false rfl (by simp [BTab.fresh]))
  have h := h.step (.publish _ _ _ rfl)
  have h := h.step (.read _ 0 1 _ _ rfl)
  exact ⟨_, h, rfl, rfl⟩

end Jungle
