/-
  What the iterators by sequence number of the log section and of the table section show.
-/
import Verif.Iter.SeqItr
import Verif.Iter.SeqLeafLaws
import Verif.Iter.TabItrLemmas
import Verif.Iter.KeyDBLemmas

set_option linter.unusedSectionVars false

namespace Jungle.Iter
open Spec
variable {K : Type} [LinearOrder K]

theorem seqPar_rank : (seqPar (K := K)).byKey = false → ∀ a b, (seqPar (K := K)).rank a = (seqPar (K := K)).rank b :=
  fun _ _ _ => rfl

theorem best_seq {P : Rec K → Prop} {e : Rec K} : Best seqPar P e ↔ P e :=
  ⟨fun h => h.1, fun h => ⟨h, fun _ _ _ => Nat.le_refl _⟩⟩

/-! ### One log file -/

/-- What the iterator over one log file shows. -/
def SeqIn (mn mx : Nat) (f : LogFile K) (e : Rec K) : Prop :=
  f.mem.maxSeqNum ≠ NIL ∧ seqMin mn f.mem ≤ mx ∧ e ∈ f.mem.bySeq ∧ seqMin mn f.mem ≤ e.seq ∧
    e.seq ≤ seqMax mx f.mem

/-- The upper bound `mx` excludes nothing of the file, or is the number of one of its records, or
    the file starts beyond it. -/
def TopOk (top : Option Nat) (mx : Nat) (f : LogFile K) : Prop :=
  (∀ r ∈ f.mem.bySeq, r.seq ≤ mx) ∨ (top = some mx ∧ ∃ r ∈ f.mem.bySeq, r.seq = mx) ∨
    (mx < f.mem.minSeqNum ∧ f.mem.minSeqNum ≠ NIL ∧ mx < f.mem.maxSeqNum)

theorem seqMin_gt {mn mx : Nat} {m : MemTable K} (h1 : mx < m.minSeqNum) (h2 : m.minSeqNum ≠ NIL)
    (h3 : mx < m.maxSeqNum) : mx < seqMin mn m := by
  unfold seqMin
  simp only
  split <;> split <;> split <;> omega

theorem seqMax_att {mx : Nat} {m : MemTable K} (hw : m.WF) {r : Rec K} (hr : r ∈ m.bySeq)
    (he : r.seq = mx) : seqMax mx m = mx := by
  have := hw.bound r hr
  unfold seqMax
  simp only
  split <;> split <;> omega

theorem seqMax_le {mx : Nat} {m : MemTable K} (hw : m.WF) {r : Rec K} (hr : r ∈ m.bySeq)
    (he : r.seq ≤ mx) : r.seq ≤ seqMax mx m := by
  have := hw.bound r hr
  unfold seqMax
  simp only
  split <;> split <;> omega

theorem seqLeaf_opened {f : LogFile K} (hw : f.mem.WF) {mn mx : Nat} {top : Option Nat}
    (ht : TopOk top mx f) :
    Opened seqPar (Leaf.ops .memSeq) (memSeqSpec seqPar top) false (SeqIn mn mx f) (seqLeaf mn mx f) := by
  have hnone : ∀ s : SLeaf K, s.pos = none → (∀ e, ¬ SeqIn mn mx f e) →
      Opened seqPar (Leaf.ops .memSeq) (memSeqSpec seqPar top) false (SeqIn mn mx f) s := by
    intro s hs hP
    have hg : s.get = none := by unfold Leaf.get; rw [hs]
    refine ⟨fun e he => ?_, fun _ y hy => hP y hy⟩
    have : s.get = some e := he
    rw [hg] at this; cases this
  generalize hs0 : (⟨f.mem.bySeq.map (fun r => (r.seq, r)), some, some (seqMin mn f.mem),
    some (seqMax mx f.mem), none⟩ : SLeaf K) = s0
  have heq : seqLeaf mn mx f = if f.mem.maxSeqNum = NIL then s0 else if seqMin mn f.mem > mx then s0
      else { s0 with pos := s0.fromStart.head?.map (·.1) } := by rw [← hs0]; rfl
  have hsorted : (f.mem.bySeq.map (fun r => (r.seq, r))).Pairwise (fun a b => a.1 < b.1) :=
    List.pairwise_map.2 hw.sorted
  by_cases h1 : f.mem.maxSeqNum = NIL
  · rw [heq, if_pos h1]
    exact hnone _ (by rw [← hs0]) (fun e he => he.1 h1)
  by_cases h2 : seqMin mn f.mem > mx
  · rw [heq, if_neg h1, if_pos h2]
    exact hnone _ (by rw [← hs0]) (fun e he => by have := he.2.1; omega)
  have hcl : SeqCl top s0 := by
    rcases ht with h | ⟨h, r, hr, hre⟩ | h
    · left
      intro n hn
      rw [← hs0] at hn ⊢
      obtain ⟨r, hr, rfl⟩ := List.mem_map.1 hn
      rw [Leaf.above_false]
      intro b hb
      cases hb
      exact seqMax_le hw hr (h r hr)
    · right
      have hm := seqMax_att hw hr hre
      rw [← hs0]
      refine ⟨?_, (r.seq, r), List.mem_map_of_mem hr, ?_⟩
      · show some (seqMax mx f.mem) = top
        rw [hm, h]
      · show some (seqMax mx f.mem) = some r.seq
        rw [hm, hre]
    · exact absurd (seqMin_gt (mn := mn) h.1 h.2.1 h.2.2) (by omega)
  have hpos : s0.fromStart.head?.map (·.1) = s0.scanFwd s0.fromStart := by
    cases hfs : s0.fromStart with
    | nil => rfl
    | cons n l =>
      have hn : n ∈ s0.nodes :=
        (List.mem_filter.1 (show n ∈ s0.fromStart by rw [hfs]; exact List.mem_cons_self)).1
      have hab : s0.above n.1 = false := by
        rw [Leaf.above_false]
        intro b hb
        have hb' : b = seqMax mx f.mem := by rw [← hs0] at hb; exact (Option.some.inj hb).symm
        rw [hb']
        have hn' := hn
        rw [← hs0] at hn'
        obtain ⟨r', hr', rfl⟩ := List.mem_map.1 hn'
        rcases ht with h | ⟨_, r, hr, hre⟩ | h
        · exact seqMax_le hw hr' (h r' hr')
        · rw [seqMax_att hw hr hre, ← hre]
          have hmem : (r.seq, r) ∈ s0.fromStart := by
            rw [← hs0]
            refine List.mem_filter.2 ⟨List.mem_map_of_mem hr, ?_⟩
            show (!decide (r.seq < seqMin mn f.mem)) = true
            have : ¬ r.seq < seqMin mn f.mem := by omega
            simp [this]
          have hsf : s0.fromStart.Pairwise (fun a b => a.1 < b.1) := by
            rw [← hs0]; exact hsorted.filter _
          rw [hfs] at hmem hsf
          rcases List.mem_cons.1 hmem with h3 | h3
          · exact le_of_eq (congrArg Prod.fst h3).symm
          · exact le_of_lt ((List.pairwise_cons.1 hsf).1 _ h3)
        · exact absurd (seqMin_gt (mn := mn) h.1 h.2.1 h.2.2) (by omega)
      unfold Leaf.scanFwd
      rw [if_neg (by rw [hab]; decide)]
      have : s0.val = some := by rw [← hs0]
      rw [this]; rfl
  have hinit : seqLeaf mn mx f = Leaf.init (f.mem.bySeq.map (fun r => (r.seq, r))) some
      (some (seqMin mn f.mem)) (some (seqMax mx f.mem)) := by
    rw [heq, if_neg h1, if_neg h2, hpos, ← hs0]; rfl
  have hP : leafIn (seqLeaf mn mx f) = SeqIn mn mx f := by
    funext e
    apply propext
    rw [hinit]
    unfold leafIn SeqIn
    constructor
    · rintro ⟨n, hn, hb, ha, hv⟩
      obtain ⟨r, hr, rfl⟩ := List.mem_map.1 hn
      have hv' : some r = some e := hv
      cases hv'
      exact ⟨h1, by omega, hr, Leaf.below_false.1 hb _ rfl, Leaf.above_false.1 ha _ rfl⟩
    · rintro ⟨_, _, hr, hb, ha⟩
      refine ⟨(e.seq, e), List.mem_map_of_mem hr, Leaf.below_false.2 ?_, Leaf.above_false.2 ?_, rfl⟩
      · intro a h; cases h; exact hb
      · intro a h; cases h; exact ha
  have ho : Opened seqPar (Leaf.ops .memSeq)
      (leafSpec seqPar .memSeq (some (seqMin mn f.mem)) (some (seqMax mx f.mem))) false
      (leafIn (seqLeaf mn mx f)) (seqLeaf mn mx f) := by
    rw [hinit]
    refine leaf_opened hsorted ?_ (fun _ _ _ => rfl) (fun h => by cases h)
    intro n hn e he
    obtain ⟨r, hr, rfl⟩ := List.mem_map.1 hn
    have he' : some r = some e := he
    cases he'; rfl
  rw [hP] at ho
  have hcl' : SeqCl top (seqLeaf mn mx f) := hcl.congr (by rw [hinit, ← hs0]; rfl) (by rw [hinit, ← hs0]; rfl)
  exact ⟨fun e he => ⟨⟨⟨_, _, (ho.some e he).1⟩, hcl'⟩, (ho.some e he).2⟩, ho.none⟩

/-- The contents can be read off the leaf. -/
theorem seqLeaf_in (f : LogFile K) (mn mx : Nat) (e : Rec K) :
    SeqIn mn mx f e ↔ (seqLeaf mn mx f).pos.isSome = true ∧ leafIn (seqLeaf mn mx f) e := by
  have hin : leafIn (seqLeaf mn mx f) e ↔ e ∈ f.mem.bySeq ∧ seqMin mn f.mem ≤ e.seq ∧ e.seq ≤ seqMax mx f.mem := by
    generalize hs : seqLeaf mn mx f = s
    have hf : s.nodes = f.mem.bySeq.map (fun r => (r.seq, r)) ∧ s.val = some ∧
        s.lo = some (seqMin mn f.mem) ∧ s.hi = some (seqMax mx f.mem) := by
      rw [← hs]
      unfold seqLeaf
      simp only
      split
      · exact ⟨rfl, rfl, rfl, rfl⟩
      · split <;> exact ⟨rfl, rfl, rfl, rfl⟩
    unfold leafIn
    rw [hf.1, hf.2.1]
    constructor
    · rintro ⟨n, hn, hb, ha, hv⟩
      obtain ⟨r, hr, rfl⟩ := List.mem_map.1 hn
      have hv' : some r = some e := hv
      cases hv'
      exact ⟨hr, Leaf.below_false.1 hb _ hf.2.2.1, Leaf.above_false.1 ha _ hf.2.2.2⟩
    · rintro ⟨hr, hb, ha⟩
      refine ⟨(e.seq, e), List.mem_map_of_mem hr, Leaf.below_false.2 ?_, Leaf.above_false.2 ?_, rfl⟩
      · intro a h; rw [hf.2.2.1] at h; cases h; exact hb
      · intro a h; rw [hf.2.2.2] at h; cases h; exact ha
  rw [hin]
  unfold SeqIn
  constructor
  · rintro ⟨h1, h2, h3, h4, h5⟩
    refine ⟨?_, h3, h4, h5⟩
    unfold seqLeaf
    simp only
    rw [if_neg h1, if_neg (by omega)]
    rw [Option.isSome_map]
    cases hh : (Leaf.fromStart (⟨f.mem.bySeq.map (fun r => (r.seq, r)), some, some (seqMin mn f.mem),
      some (seqMax mx f.mem), none⟩ : SLeaf K)) with
    | cons n l => rfl
    | nil =>
      exfalso
      have hm : (e.seq, e) ∈ (Leaf.fromStart (⟨f.mem.bySeq.map (fun r => (r.seq, r)), some,
          some (seqMin mn f.mem), some (seqMax mx f.mem), none⟩ : SLeaf K)) := by
        refine List.mem_filter.2 ⟨List.mem_map_of_mem h3, ?_⟩
        show (!decide (e.seq < seqMin mn f.mem)) = true
        have : ¬ e.seq < seqMin mn f.mem := by omega
        simp [this]
      rw [hh] at hm; cases hm
  · rintro ⟨h1, h2⟩
    unfold seqLeaf at h1
    simp only at h1
    split at h1
    · cases h1
    · split at h1
      · cases h1
      · exact ⟨by assumption, by omega, h2⟩

/-! ### The log section -/

/-- No bound, or the number of a record of the list. -/
def BoundOk (B : List (Rec K)) (n : Nat) : Prop := n = NIL ∨ ∃ r ∈ B, r.seq = n

/-- What the iterator of the log section shows. -/
def SLogQ (l : LogMgr K) (minArg maxArg : Nat) (e : Rec K) : Prop :=
  match itrRange l minArg maxArg with
  | none => False
  | some (mn, mx) => ∃ f ∈ itrFiles l mn mx, SeqIn mn mx f e

/-- The bound `seekSN` has to respect. -/
def seqTop (maxArg : Nat) : Option Nat := if maxArg = NIL then none else some maxArg

theorem LogInv.mem_B {l : LogMgr K} {A B} (h : LogInv l A B) {r : Rec K} (hr : r ∈ B) :
    ∃ f ∈ l.files, r ∈ f.mem.bySeq ∧ ¬ (f.mem.flushedSeqNum ≠ NIL ∧ r.seq ≤ f.mem.flushedSeqNum) := by
  rw [h.pend, List.mem_flatMap] at hr
  obtain ⟨f, hf, h1⟩ := hr
  exact ⟨f, hf, mem_pending.1 h1⟩

theorem slogQ_pend {l : LogMgr K} {A B} (h : LogInv l A B) {minArg maxArg : Nat}
    (hmin : BoundOk B minArg) (hmax : BoundOk B maxArg) :
    (∀ mn mx, itrRange l minArg maxArg = some (mn, mx) → ∀ f ∈ l.files, TopOk (seqTop maxArg) mx f) ∧
    (∀ e, SLogQ l minArg maxArg e → (∃ f ∈ l.files, e ∈ f.mem.bySeq) ∧ NumIn minArg maxArg e.seq ∧
      ∀ f fs, l.files = f :: fs → f.mem.flushedSeqNum ≠ NIL → f.mem.flushedSeqNum ≤ e.seq) ∧
    (∀ r ∈ B, NumIn minArg maxArg r.seq → SLogQ l minArg maxArg r) := by
  obtain ⟨f0, fs, g, gs, hf0, hg, ha⟩ := availSeqRange_eq h
  have hf0m : f0 ∈ l.files := by rw [hf0]; exact List.mem_cons_self
  have hgm : g ∈ l.files := by rw [hg]; simp
  have hord := h.order
  have hle : ∀ f ∈ l.files, ∀ r ∈ f.mem.bySeq, r.seq ≤ g.mem.maxSeqNum := by
    intro f hf r hr
    have hb := (h.wf f hf).bound r hr
    rw [hg] at hf hord
    rcases List.mem_append.1 hf with h1 | h1
    · have hB := (List.pairwise_append.1 hord).2.2 f h1 g (by simp)
      have := hB.max hB.ne
      omega
    · simp only [List.mem_singleton] at h1; subst h1; exact hb.2.1
  generalize hav : (if f0.mem.flushedSeqNum = NIL then 0 else f0.mem.flushedSeqNum + 1) = av at ha
  have hpend : ∀ r ∈ B, av ≤ r.seq := by
    intro r hr
    obtain ⟨f, hf, h1, h2⟩ := LogInv.mem_B h hr
    rw [← hav]
    by_cases hn : f0.mem.flushedSeqNum = NIL
    · rw [if_pos hn]; omega
    · rw [if_neg hn]
      rw [hf0] at hf hord
      rcases List.mem_cons.1 hf with h3 | h3
      · rw [h3] at h2
        by_contra hc
        exact h2 ⟨hn, by omega⟩
      · have hB := (List.pairwise_cons.1 hord).1 f h3
        have h4 := hB.recs hB.ne r h1
        rcases (h.wf f0 hf0m).flushed with h5 | h5
        · exact absurd h5 hn
        · omega
  have hrec : ∀ r ∈ B, r.seq < NIL ∧ r.seq ≤ g.mem.maxSeqNum := by
    intro r hr
    obtain ⟨f, hf, h1, _⟩ := LogInv.mem_B h hr
    exact ⟨((h.wf f hf).bound r h1).2.2.2, hle f hf r h1⟩
  have hrange : itrRange l minArg maxArg =
      if (if maxArg = NIL then g.mem.maxSeqNum else maxArg) < (if minArg = NIL then av else minArg) then none
      else some (if minArg = NIL then av else minArg, if maxArg = NIL then g.mem.maxSeqNum else maxArg) := by
    unfold itrRange
    rw [ha]
    have e1 : (if valid minArg && decide (av < minArg) then minArg else av) =
        if minArg = NIL then av else minArg := by
      by_cases hm : minArg = NIL
      · simp [hm, valid]
      · rw [if_neg hm]
        rcases hmin with h1 | ⟨r, hr, hre⟩
        · exact absurd h1 hm
        · have := hpend r hr
          split
          · rfl
          · next hc =>
            simp only [valid_iff.2 hm, Bool.true_and, decide_eq_true_eq] at hc
            omega
    have e2 : (if valid maxArg && decide (maxArg < g.mem.maxSeqNum) then maxArg else g.mem.maxSeqNum) =
        if maxArg = NIL then g.mem.maxSeqNum else maxArg := by
      by_cases hm : maxArg = NIL
      · simp [hm, valid]
      · rw [if_neg hm]
        rcases hmax with h1 | ⟨r, hr, hre⟩
        · exact absurd h1 hm
        · have := hrec r hr
          split
          · rfl
          · next hc =>
            simp only [valid_iff.2 hm, Bool.true_and, decide_eq_true_eq] at hc
            omega
    simp only [e1, e2, h.bar, ne_eq, not_true, false_and, if_false]
  have htop : ∀ f ∈ l.files, TopOk (seqTop maxArg) (if maxArg = NIL then g.mem.maxSeqNum else maxArg) f := by
    intro f hf
    by_cases hm : maxArg = NIL
    · rw [if_pos hm]; exact Or.inl (hle f hf)
    · rw [if_neg hm]
      rcases hmax with h1 | ⟨r, hr, hre⟩
      · exact absurd h1 hm
      · obtain ⟨x, hx, hrx, _⟩ := LogInv.mem_B h hr
        have hxb := (h.wf x hx).bound r hrx
        rcases Nat.lt_trichotomy f.num x.num with hlt | heq | hgt
        · left
          intro r' hr'
          have hB := before_of_num h hf hx hlt
          have h2 := hB.recs hB.ne r hrx
          have h3 := (h.wf f hf).bound r' hr'
          omega
        · right; left
          have h2 := h.file?_mem hf
          have h3 := h.file?_mem hx
          rw [heq, h3] at h2
          cases h2
          exact ⟨by unfold seqTop; rw [if_neg hm], r, hrx, hre⟩
        · have hB := before_of_num h hx hf hgt
          by_cases he : f.mem.bySeq = []
          · left; intro r' hr'; rw [he] at hr'; cases hr'
          · right; right
            obtain ⟨r', hr'⟩ := List.exists_mem_of_ne_nil _ he
            have h3 := (h.wf f hf).bound r' hr'
            have h4 := hB.recs hB.ne r' hr'
            have h5 := hB.min hB.ne (by omega)
            exact ⟨by omega, by omega, by omega⟩
  generalize hmx : (if maxArg = NIL then g.mem.maxSeqNum else maxArg) = mx at hrange htop
  generalize hmn : (if minArg = NIL then av else minArg) = mn at hrange
  refine ⟨?_, ?_, ?_⟩
  · intro mn' mx' he f hf
    rw [hrange] at he
    split at he
    · cases he
    · cases he; exact htop f hf
  · intro e he
    unfold SLogQ at he
    rw [hrange] at he
    split at he
    · cases he
    · next mn' mx' hh =>
      split at hh
      · cases hh
      · cases hh
        obtain ⟨f, hf, h1, h2, h3, h4, h5⟩ := he
        have hff := List.mem_filter.1 hf
        refine ⟨⟨f, hff.1, h3⟩, ⟨?_, ?_⟩, ?_⟩
        rotate_left 2
        · intro f1 fs1 hf1 hfl
          have hff1 : f ∈ f1 :: fs1 := hf1 ▸ hff.1
          rcases (h.wf f1 (by rw [hf1]; exact List.mem_cons_self)).flushed with h6 | h6
          · exact absurd h6 hfl
          · rcases List.mem_cons.1 hff1 with h7 | h7
            · subst h7
              refine Nat.le_trans ?_ h4
              unfold seqMin
              simp only
              split <;> split <;> split <;> omega
            · rw [hf1] at hord
              have hB := (List.pairwise_cons.1 hord).1 f h7
              have := hB.recs hB.ne e h3
              omega
        · intro hm
          rw [if_neg hm] at hmn
          subst hmn
          rcases hmin with h6 | ⟨r, hr, hre⟩
          · exact absurd h6 hm
          · obtain ⟨x, hx, hrx, hrp⟩ := LogInv.mem_B h hr
            have hxb := (h.wf x hx).bound r hrx
            have hfrom : x.num ≤ f.num := by
              have hfr := (Bool.and_eq_true_iff.1 hff.2).1
              rw [decide_eq_true_eq] at hfr
              unfold itrFrom at hfr
              rw [if_pos (valid_iff.2 hm), ← hre, h.fileBySeq_rec hx hrx] at hfr
              exact hfr
            rcases Nat.lt_or_eq_of_le hfrom with hlt | heq
            · have hB := before_of_num h hx hff.1 hlt
              have := hB.recs hB.ne e h3
              omega
            · have h7 := h.file?_mem hff.1
              have h8 := h.file?_mem hx
              rw [← heq, h8] at h7
              cases h7
              refine Nat.le_trans ?_ h4
              unfold seqMin
              simp only
              split <;> split <;> split <;> omega
        · intro hm
          rw [if_neg hm] at hmx
          subst hmx
          rcases htop f hff.1 with h6 | ⟨_, r, hr, hre⟩ | h6
          · exact h6 e h3
          · rw [seqMax_att (h.wf f hff.1) hr hre] at h5; exact h5
          · exact absurd (seqMin_gt (mn := mn) h6.1 h6.2.1 h6.2.2) (by omega)
  · intro r hr hin
    obtain ⟨f, hf, hrf, hrp⟩ := LogInv.mem_B h hr
    have hb := (h.wf f hf).bound r hrf
    have hmnr : mn ≤ r.seq := by
      rw [← hmn]
      split
      · exact hpend r hr
      · next hm => exact hin.1 hm
    have hmxr : r.seq ≤ mx := by
      rw [← hmx]
      split
      · exact (hrec r hr).2
      · next hm => exact hin.2 hm
    have hmnN : mn ≠ NIL := by omega
    unfold SLogQ
    rw [hrange, if_neg (by omega)]
    refine ⟨f, ?_, ?_⟩
    · have hfrom : itrFrom l mn ≤ f.num := by
        unfold itrFrom
        rw [if_pos (valid_iff.2 hmnN)]
        cases hbb : l.fileBySeq mn with
        | none => simp only; rw [h.getLastFlushedLog_eq]; exact (h.num_range hf).1
        | some x =>
          simp only
          obtain ⟨hx, hxs, _⟩ := fileBySeq_mem hbb
          by_contra hc
          have hB := before_of_num h hf hx (by omega)
          have := hB.start hB.ne
          omega
      unfold itrFiles
      rw [List.mem_filter]
      refine ⟨hf, ?_⟩
      rw [decide_eq_true hfrom, Bool.true_and, decide_eq_true_eq]
      unfold itrTo
      by_cases hv : mx = NIL
      · simp only [hv, valid, bne_self_eq_false, Bool.false_eq_true, if_false]
        exact (h.num_range hf).2
      · rw [if_pos (valid_iff.2 hv)]
        cases hbb : l.fileBySeq mx with
        | none => simp only; exact (h.num_range hf).2
        | some x =>
          simp only
          obtain ⟨hx, _, hxm⟩ := fileBySeq_mem hbb
          by_contra hc
          have hB := before_of_num h hx hf (by omega)
          have h5 := hB.recs hB.ne r hrf
          omega
    · have hsm : seqMin mn f.mem ≤ r.seq := by
        unfold seqMin
        simp only
        split <;> split <;> split <;> omega
      have hne : f.mem.maxSeqNum ≠ NIL := by
        intro hN
        have := ((h.wf f hf).nil hN).1
        rw [this] at hrf; cases hrf
      exact ⟨hne, by omega, hrf, hsm, seqMax_le (h.wf f hf) hrf hmxr⟩

/-- What opening the iterator of the log section needs, and what it shows. -/
theorem slogQ_spec {l : LogMgr K} {A B} (h : LogInv l A B) {minArg maxArg : Nat}
    (hmin : BoundOk (A ++ B) minArg) (hmax : BoundOk (A ++ B) maxArg) :
    (∀ mn mx, itrRange l minArg maxArg = some (mn, mx) → ∀ f ∈ l.files, TopOk (seqTop maxArg) mx f) ∧
    (∀ e, SLogQ l minArg maxArg e → (∃ f ∈ l.files, e ∈ f.mem.bySeq) ∧ NumIn minArg maxArg e.seq) ∧
    (∀ r ∈ B, NumIn minArg maxArg r.seq → SLogQ l minArg maxArg r) := by
  obtain ⟨f0, fs, g, gs, hf0, hg, ha⟩ := availSeqRange_eq h
  have hmark : ∀ r ∈ A, f0.mem.flushedSeqNum ≠ NIL ∧ r.seq ≤ f0.mem.flushedSeqNum := h.mark f0 fs hf0
  have hf0m : f0 ∈ l.files := by rw [hf0]; exact List.mem_cons_self
  have hBle : f0.mem.flushedSeqNum ≠ NIL → ∀ r ∈ B, f0.mem.flushedSeqNum < r.seq := by
    intro hn r hr
    obtain ⟨f, hf, h1, h2⟩ := LogInv.mem_B h hr
    have hord := h.order
    rw [hf0] at hf hord
    rcases List.mem_cons.1 hf with h3 | h3
    · rw [h3] at h2
      by_contra hc
      exact h2 ⟨hn, by omega⟩
    · have hB := (List.pairwise_cons.1 hord).1 f h3
      have h4 := hB.recs hB.ne r h1
      rcases (h.wf f0 hf0m).flushed with h5 | h5
      · exact absurd h5 hn
      · omega
  by_cases hmA : ∃ r ∈ A, r.seq = maxArg
  · obtain ⟨r, hr, hre⟩ := hmA
    obtain ⟨h1, h2⟩ := hmark r hr
    have hnone : itrRange l minArg maxArg = none := by
      have hl : (if l.barrier ≠ 0 ∧ l.barrier < maxArg then l.barrier else maxArg) = maxArg := by
        rw [h.bar]; simp
      have hfl : f0.mem.flushedSeqNum < NIL := by
        rcases (h.wf f0 hf0m).flushed with h5 | h5
        · exact absurd h5 h1
        · omega
      have hgm : f0.mem.maxSeqNum ≤ g.mem.maxSeqNum := by
        have hord := h.order
        rw [hg] at hf0m hord
        rcases List.mem_append.1 hf0m with h5 | h5
        · have hB := (List.pairwise_append.1 hord).2.2 f0 h5 g (by simp)
          exact (hB.max hB.ne).2
        · simp only [List.mem_singleton] at h5; rw [h5]
      have hfm : f0.mem.flushedSeqNum ≤ f0.mem.maxSeqNum := by
        rcases (h.wf f0 hf0m).flushed with h5 | h5
        · exact absurd h5 h1
        · omega
      have e2 : (if valid maxArg && decide (maxArg < g.mem.maxSeqNum) then maxArg else g.mem.maxSeqNum) = maxArg := by
        have hv : valid maxArg = true := valid_iff.2 (by omega)
        split
        · rfl
        · next hc => simp only [hv, Bool.true_and, decide_eq_true_eq] at hc; omega
      unfold itrRange
      rw [ha, if_neg h1]
      simp only
      rw [e2, hl, if_pos]
      split
      · next hc => simp only [Bool.and_eq_true, decide_eq_true_eq] at hc; omega
      · omega
    refine ⟨fun mn mx he => ?_, fun e he => ?_, fun r' hr' hin => ?_⟩
    · rw [hnone] at he; cases he
    · unfold SLogQ at he; rw [hnone] at he; exact absurd he id
    · have h3 := hBle h1 r' hr'
      have h4 := hin.2 (by
        rcases (h.wf f0 hf0m).flushed with h5 | h5
        · exact absurd h5 h1
        · omega)
      omega
  · have hmaxB : BoundOk B maxArg := by
      rcases hmax with h1 | ⟨r, hr, hre⟩
      · exact Or.inl h1
      · rcases List.mem_append.1 hr with h2 | h2
        · exact absurd ⟨r, h2, hre⟩ hmA
        · exact Or.inr ⟨r, h2, hre⟩
    by_cases hmiA : ∃ r ∈ A, r.seq = minArg
    · obtain ⟨r, hr, hre⟩ := hmiA
      obtain ⟨h1, h2⟩ := hmark r hr
      have heq : itrRange l minArg maxArg = itrRange l NIL maxArg := by
        unfold itrRange
        rw [ha, if_neg h1]
        simp only
        have e1 : (if valid minArg && decide (f0.mem.flushedSeqNum + 1 < minArg) then minArg
            else f0.mem.flushedSeqNum + 1) = f0.mem.flushedSeqNum + 1 := by
          rw [if_neg]
          simp only [Bool.and_eq_true, decide_eq_true_eq, not_and]
          intro _; omega
        have e2 : (if valid NIL && decide (f0.mem.flushedSeqNum + 1 < NIL) then NIL
            else f0.mem.flushedSeqNum + 1) = f0.mem.flushedSeqNum + 1 := by
          rw [if_neg]
          simp [valid]
        rw [e1, e2]
      have hQ : SLogQ l minArg maxArg = SLogQ l NIL maxArg := by
        funext e; unfold SLogQ; rw [heq]
      obtain ⟨p1, p2, p3⟩ := slogQ_pend h (Or.inl rfl) hmaxB
      rw [heq, hQ]
      refine ⟨p1, fun e he => ?_, fun r' hr' hin => p3 r' hr' ⟨fun h => absurd rfl h, hin.2⟩⟩
      obtain ⟨q1, q2, q3⟩ := p2 e he
      have := q3 f0 fs hf0 h1
      exact ⟨q1, fun _ => by omega, q2.2⟩
    · have hminB : BoundOk B minArg := by
        rcases hmin with h1 | ⟨r, hr, hre⟩
        · exact Or.inl h1
        · rcases List.mem_append.1 hr with h2 | h2
          · exact absurd ⟨r, h2, hre⟩ hmiA
          · exact Or.inr ⟨r, h2, hre⟩
      obtain ⟨p1, p2, p3⟩ := slogQ_pend h hminB hmaxB
      exact ⟨p1, fun e he => ⟨(p2 e he).1, (p2 e he).2.1⟩, p3⟩

abbrev slogSpec (top : Option Nat) : CSpec (SeqSrc K) (Rec K) Nat := mergeSpec seqPar (memSeqSpec seqPar top)

theorem slog_laws (top : Option Nat) : Laws seqPar (slogOps (K := K)) (slogSpec top) :=
  merge_laws (memSeq_laws _ _) seqPar_rank

theorem slog_opened {l : LogMgr K} {A B H} (h : LogInv l A B) (hH : Increasing H)
    (hk : ∀ f ∈ l.files, ∀ r ∈ f.mem.bySeq, r ∈ H) {minArg maxArg : Nat}
    (hmin : BoundOk (A ++ B) minArg) (hmax : BoundOk (A ++ B) maxArg) :
    Opened seqPar (slogOps (K := K)) (slogSpec (seqTop maxArg)) false (SLogQ l minArg maxArg)
      (slogItr l minArg maxArg) := by
  obtain ⟨h1, h2, _⟩ := slogQ_spec h hmin hmax
  unfold slogItr SLogQ
  cases hr : itrRange l minArg maxArg with
  | none => exact ⟨fun e he => (by cases he), fun _ y hy => hy⟩
  | some q =>
    obtain ⟨mn, mx⟩ := q
    simp only
    have hsub : ∀ f ∈ itrFiles l mn mx, f ∈ l.files := fun f hf => (List.mem_filter.1 hf).1
    refine open_idx (P := fun s e => s.pos.isSome = true ∧ leafIn s e)
      (memSeq_laws _ _) seqPar_rank ?_ ?_ ?_
    · intro s hs
      obtain ⟨f, hf, rfl⟩ := List.mem_map.1 hs
      have hP : (fun e => (seqLeaf mn mx f).pos.isSome = true ∧ leafIn (seqLeaf mn mx f) e) = SeqIn mn mx f :=
        funext fun e => propext (seqLeaf_in f mn mx e).symm
      rw [hP]
      exact seqLeaf_opened (h.wf f (hsub f hf)) (h1 mn mx hr f (hsub f hf))
    · intro s hs s' hs' x y hx hy ho _
      obtain ⟨f, hf, rfl⟩ := List.mem_map.1 hs
      obtain ⟨f', hf', rfl⟩ := List.mem_map.1 hs'
      rw [← seqLeaf_in] at hx hy
      exact seq_inj hH (hk f (hsub f hf) x hx.2.2.1) (hk f' (hsub f' hf') y hy.2.2.1) ho
    · intro e
      rw [best_seq]
      constructor
      · rintro ⟨f, hf, he⟩
        exact ⟨_, List.mem_map_of_mem hf, (seqLeaf_in f mn mx e).1 he⟩
      · rintro ⟨s, hs, he⟩
        obtain ⟨f, hf, rfl⟩ := List.mem_map.1 hs
        exact ⟨f, hf, (seqLeaf_in f mn mx e).2 he⟩

/-! ### The table section -/

section Tables
variable [OrderBot K]

theorem seqIndex_spec {H : List (Rec K)} (hH : Increasing H) : ∀ (L : List (K × Rec K)) (m : SMap Nat (Rec K)),
    (∀ e ∈ L, e.2 ∈ H) → m.Sorted → (∀ e ∈ m, e.2 ∈ H ∧ e.2.seq = e.1) →
    (L.foldl (fun m e => m.insert e.2.seq e.2) m).Sorted ∧
    ∀ s r, (s, r) ∈ L.foldl (fun m e => m.insert e.2.seq e.2) m ↔
      (s, r) ∈ m ∨ (r.seq = s ∧ ∃ k, (k, r) ∈ L) := by
  intro L
  induction L with
  | nil => intro m _ hs _; exact ⟨hs, fun s r => by simp⟩
  | cons a L ih =>
    intro m hL hs hm
    have haH := hL a List.mem_cons_self
    have hmem : ∀ s r, (s, r) ∈ m.insert a.2.seq a.2 ↔ (s, r) ∈ m ∨ (r.seq = s ∧ r = a.2) := by
      intro s r
      rw [SMap.mem_iff_find? (hs.insert _ _), SMap.find?_insert hs, SMap.mem_iff_find? hs]
      by_cases hc : s = a.2.seq
      · rw [if_pos hc]
        constructor
        · intro h; cases h; exact Or.inr ⟨hc.symm, rfl⟩
        · rintro (h | ⟨_, h⟩)
          · have := hm _ (SMap.find?_some_mem h)
            rw [show r = a.2 from seq_inj hH this.1 haH (this.2.trans hc)]
          · rw [h]
      · rw [if_neg hc]
        constructor
        · exact Or.inl
        · rintro (h | ⟨h, rfl⟩)
          · exact h
          · exact absurd h.symm hc
    obtain ⟨h1, h2⟩ := ih (m.insert a.2.seq a.2) (fun e he => hL e (List.mem_cons_of_mem _ he)) (hs.insert _ _) (by
      rintro ⟨s, r⟩ he
      rcases (hmem s r).1 he with h | ⟨h, h'⟩
      · exact hm _ h
      · exact ⟨h' ▸ haH, h⟩)
    refine ⟨h1, fun s r => ?_⟩
    rw [List.foldl_cons, h2, hmem]
    constructor
    · rintro ((h | ⟨h, h'⟩) | ⟨h, k, h'⟩)
      · exact Or.inl h
      · exact Or.inr ⟨h, a.1, by rw [h']; exact List.mem_cons_self⟩
      · exact Or.inr ⟨h, k, List.mem_cons_of_mem _ h'⟩
    · rintro (h | ⟨h, k, h'⟩)
      · exact Or.inl (Or.inl h)
      · rcases List.mem_cons.1 h' with h' | h'
        · exact Or.inl (Or.inr ⟨h, by rw [← h']⟩)
        · exact Or.inr ⟨h, k, h'⟩

/-- The bounds of the table iterators. -/
def stabLo (minArg : Nat) : Option Nat := some (if valid minArg then minArg else 0)
def stabHi (maxArg : Nat) : Option Nat := if valid maxArg ∧ maxArg ≠ 0 then some maxArg else none

abbrev stabSpec (lo hi : Option Nat) : CSpec (SeqSrc K) (Rec K) Nat :=
  mergeSpec seqPar (leafSpec seqPar .table lo hi)

omit [OrderBot K] in
theorem stab_laws (lo hi : Option Nat) : Laws seqPar (stabOps (K := K)) (stabSpec lo hi) :=
  merge_laws (leaf_laws _ _ _ _) seqPar_rank

/-- What the iterator of the table section shows. -/
def STabQ (c : TCfg K) (t : TMgr K) (minArg maxArg : Nat) (e : Rec K) : Prop :=
  e ∈ TMgr.stack c t e.key ∧ NumIn minArg maxArg e.seq

theorem stab_opened {c : TCfg K} {t : TMgr K} (h : TMgr.Inv c t) {H : List (Rec K)} (hi' : Increasing H)
    (hH : ∀ k, ∀ r ∈ TMgr.stack c t k, r ∈ H) {minArg maxArg : Nat} (hmax : maxArg ≠ 0) :
    Opened seqPar (stabOps (K := K)) (stabSpec (stabLo minArg) (stabHi maxArg)) false
      (STabQ c t minArg maxArg) (stabItr t minArg maxArg) := by
  have hok := itrTables_ok h none none
  have hst : ∀ x ∈ itrTables t none none, ∀ e ∈ x.recs, e.2 ∈ TMgr.stack c t e.2.key := by
    intro x hx e he
    have hk := (hok x hx).2 e he
    refine ((itrTables_spec h none none e.2).1 ⟨x, hx, ?_, ?_⟩).1
    · unfold Tab.get; rw [hk]; exact SMap.find?_of_mem (hok x hx).1 he
    · exact ⟨fun a ha => (by cases ha), fun a ha => (by cases ha)⟩
  have hidx : ∀ x ∈ itrTables t none none, (seqIndex x).Sorted ∧
      ∀ s r, (s, r) ∈ seqIndex x ↔ r.seq = s ∧ ∃ k, (k, r) ∈ x.recs := by
    intro x hx
    have := seqIndex_spec hi' x.recs [] (fun e he => hH _ _ (hst x hx e he)) SMap.sorted_nil (by simp)
    refine ⟨this.1, fun s r => ?_⟩
    have h2 := this.2 s r
    simpa [seqIndex] using h2
  have hleaf : ∀ x ∈ itrTables t none none, ∀ e, leafIn (stabLeaf minArg maxArg x) e ↔
      x.get e.key = some e ∧ NumIn minArg maxArg e.seq := by
    intro x hx e
    have hb : (∀ a, stabLo minArg = some a → a ≤ e.seq) ↔ (minArg ≠ NIL → minArg ≤ e.seq) := by
      unfold stabLo
      by_cases hm : minArg = NIL
      · simp [hm, valid]
      · simp [hm, valid_iff.2 hm]
    have ha : (∀ a, stabHi maxArg = some a → e.seq ≤ a) ↔ (maxArg ≠ NIL → e.seq ≤ maxArg) := by
      unfold stabHi
      by_cases hm : maxArg = NIL
      · simp [hm, valid]
      · simp [hm, valid_iff.2 hm, hmax]
    unfold leafIn NumIn Tab.get
    constructor
    · rintro ⟨⟨s, r⟩, hn, h1, h2, hv⟩
      have hv' : some r = some e := hv
      cases hv'
      obtain ⟨h3, k, h4⟩ := ((hidx x hx).2 s e).1 hn
      have h5 := (hok x hx).2 _ h4
      simp only at h5
      subst h5
      subst h3
      exact ⟨SMap.find?_of_mem (hok x hx).1 h4, hb.1 (Leaf.below_false.1 h1), ha.1 (Leaf.above_false.1 h2)⟩
    · rintro ⟨h1, h2, h3⟩
      exact ⟨(e.seq, e), ((hidx x hx).2 _ _).2 ⟨rfl, _, SMap.find?_some_mem h1⟩,
        Leaf.below_false.2 (hb.2 h2), Leaf.above_false.2 (ha.2 h3), rfl⟩
  have hall : ∀ e, (∃ s ∈ (itrTables t none none).map (stabLeaf minArg maxArg), leafIn s e) ↔
      STabQ c t minArg maxArg e := by
    intro e
    have hsp := itrTables_spec h none none e
    have hr : InRange none none e.key := ⟨fun a ha => (by cases ha), fun a ha => (by cases ha)⟩
    constructor
    · rintro ⟨s, hs, he⟩
      obtain ⟨x, hx, rfl⟩ := List.mem_map.1 hs
      have := (hleaf x hx e).1 he
      exact ⟨(hsp.1 ⟨x, hx, this.1, hr⟩).1, this.2⟩
    · rintro ⟨h1, h2⟩
      obtain ⟨x, hx, hg, _⟩ := hsp.2 ⟨h1, hr⟩
      exact ⟨_, List.mem_map_of_mem hx, (hleaf x hx e).2 ⟨hg, h2⟩⟩
  unfold stabItr
  refine open_idx (P := fun s e => leafIn s e) (leaf_laws _ _ _ _) seqPar_rank ?_ ?_ ?_
  · intro s hs
    obtain ⟨x, hx, rfl⟩ := List.mem_map.1 hs
    refine leaf_opened (hidx x hx).1 ?_ (fun hk => (by cases hk)) (fun h => by cases h)
    rintro ⟨s, r⟩ hn e he
    have he' : some r = some e := he
    cases he'
    exact (((hidx x hx).2 s r).1 hn).1
  · intro s hs s' hs' x y hx hy ho _
    exact seq_inj hi' (hH _ x ((hall x).1 ⟨s, hs, hx⟩).1) (hH _ y ((hall y).1 ⟨s', hs', hy⟩).1) ho
  · intro e
    rw [best_seq]
    exact (hall e).symm

/-! ### The handle -/

abbrev seqSpec (minArg maxArg : Nat) : CSpec (SeqIt K) (Rec K) Nat :=
  mergeSpec seqPar (sumSpec (slogSpec (seqTop maxArg)) (stabSpec (stabLo minArg) (stabHi maxArg)))

omit [OrderBot K] in
theorem seq_laws (minArg maxArg : Nat) : Laws seqPar (seqOps (K := K)) (seqSpec minArg maxArg) :=
  merge_laws (sum_laws (slog_laws _) (stab_laws _ _)) seqPar_rank

/-- What the iterator of the handle shows. -/
def SeqQ (c : TCfg K) (l : LogMgr K) (t : TMgr K) (minArg maxArg : Nat) (e : Rec K) : Prop :=
  SLogQ l minArg maxArg e ∨ STabQ c t minArg maxArg e

theorem seq_opened {c : TCfg K} {l : LogMgr K} {t : TMgr K} {A B H : List (Rec K)} (hl : LogInv l A B)
    (ht : TMgr.Inv c t) (hH : Increasing H) (hk : ∀ f ∈ l.files, ∀ r ∈ f.mem.bySeq, r ∈ H)
    (hs : ∀ k, ∀ r ∈ TMgr.stack c t k, r ∈ H) {minArg maxArg : Nat}
    (hmin : BoundOk (A ++ B) minArg) (hmax : BoundOk (A ++ B) maxArg) (h0 : maxArg ≠ 0) :
    Opened seqPar (seqOps (K := K)) (seqSpec minArg maxArg) false (SeqQ c l t minArg maxArg)
      (seqInit l t minArg maxArg) := by
  have o1 := slog_opened hl hH hk hmin hmax
  have o2 := stab_opened ht hH hs (minArg := minArg) h0
  have hin : ∀ x, SeqQ c l t minArg maxArg x → x ∈ H := by
    rintro x (hx | hx)
    · obtain ⟨f, hf, h1⟩ := ((slogQ_spec hl hmin hmax).2.1 x hx).1
      exact hk f hf x h1
    · exact hs _ x hx.1
  have hel : ∀ x, (∃ s ∈ [Sum.inl (slogItr l minArg maxArg), Sum.inr (stabItr t minArg maxArg)],
      Sum.elim (fun _ => SLogQ l minArg maxArg) (fun _ => STabQ c t minArg maxArg) s x) ↔
      SeqQ c l t minArg maxArg x := by
    intro x; simp [SeqQ]
  unfold seqInit
  refine open_idx (P := Sum.elim (fun _ => SLogQ l minArg maxArg) (fun _ => STabQ c t minArg maxArg))
    (sum_laws (slog_laws _) (stab_laws _ _)) seqPar_rank ?_ ?_ ?_
  · intro s hs
    simp only [List.mem_cons, List.not_mem_nil, or_false] at hs
    rcases hs with rfl | rfl
    · exact o1.sum_inl
    · exact o2.sum_inr
  · intro s hs s' hs' x y hx hy ho _
    exact seq_inj hH (hin x ((hel x).1 ⟨s, hs, hx⟩)) (hin y ((hel y).1 ⟨s', hs', hy⟩)) ho
  · intro e
    rw [best_seq]
    exact (hel e).symm

end Tables

/-! ### Walking over a list -/

section Walk
variable {minArg maxArg : Nat} {Q : Rec K → Prop} {L : List (Rec K)}

/-- `L` lists `Q` in the order of the numbers. -/
structure SLists (Q : Rec K → Prop) (L : List (Rec K)) : Prop where
  sorted : Increasing L
  mem : ∀ e, e ∈ L ↔ Q e

theorem slists_exists {H : List (Rec K)} (hH : Increasing H) (hQ : ∀ e, Q e → e ∈ H) : ∃ L, SLists Q L := by
  classical
  refine ⟨H.filter (fun e => decide (Q e)), hH.filter _, fun e => ?_⟩
  rw [List.mem_filter, decide_eq_true_eq]
  exact ⟨fun h => h.2, fun h => ⟨hQ e h, h⟩⟩

theorem SLists.lt (h : SLists Q L) {i j : Nat} {a b : Rec K} (ha : L[i]? = some a) (hb : L[j]? = some b)
    (hk : a.seq < b.seq) : i < j := by
  obtain ⟨hi, rfl⟩ := List.getElem?_eq_some_iff.1 ha
  obtain ⟨hj, rfl⟩ := List.getElem?_eq_some_iff.1 hb
  by_contra hc
  rcases Nat.lt_or_ge j i with h1 | h1
  · exact lt_asymm hk (List.pairwise_iff_getElem.1 h.sorted j i hj hi h1)
  · have : i = j := by omega
    subst this; exact lt_irrefl _ hk

theorem SLists.seq_lt (h : SLists Q L) {i j : Nat} {a b : Rec K} (ha : L[i]? = some a) (hb : L[j]? = some b)
    (hij : i < j) : a.seq < b.seq := by
  obtain ⟨hi, rfl⟩ := List.getElem?_eq_some_iff.1 ha
  obtain ⟨hj, rfl⟩ := List.getElem?_eq_some_iff.1 hb
  exact List.pairwise_iff_getElem.1 h.sorted i j hi hj hij

theorem SLists.get (h : SLists Q L) {i : Nat} (hi : i < L.length) : ∃ e, L[i]? = some e ∧ Q e :=
  ⟨L[i], by simp [hi], (h.mem _).1 (List.getElem_mem hi)⟩

theorem SLists.next_fwd (h : SLists Q L) {i : Nat} {e e' : Rec K} (hi : L[i]? = some e)
    (hn : NextIn seqPar .fwd Q e e') : L[i + 1]? = some e' := by
  obtain ⟨j, hj⟩ := List.getElem?_of_mem ((h.mem e').2 hn.1)
  have hij := h.lt hi hj hn.2.1
  by_cases he : j = i + 1
  · rw [← he]; exact hj
  · exfalso
    have hjl : j < L.length := (List.getElem?_eq_some_iff.1 hj).1
    obtain ⟨y, hy, hq⟩ := h.get (i := i + 1) (by omega)
    exact hn.2.2 y hq (h.seq_lt hi hy (by omega)) (h.seq_lt hy hj (by omega))

theorem SLists.next_bwd (h : SLists Q L) {i : Nat} {e e' : Rec K} (hi : L[i]? = some e)
    (hn : NextIn seqPar .bwd Q e e') : 0 < i ∧ L[i - 1]? = some e' := by
  obtain ⟨j, hj⟩ := List.getElem?_of_mem ((h.mem e').2 hn.1)
  have hij := h.lt hj hi hn.2.1
  refine ⟨by omega, ?_⟩
  by_cases he : j = i - 1
  · rw [← he]; exact hj
  · exfalso
    have hil : i < L.length := (List.getElem?_eq_some_iff.1 hi).1
    obtain ⟨y, hy, hq⟩ := h.get (i := i - 1) (by omega)
    exact hn.2.2 y hq (h.seq_lt hy hi (by omega)) (h.seq_lt hj hy (by omega))

theorem SLists.end_fwd (h : SLists Q L) {i : Nat} {e : Rec K} (hi : L[i]? = some e)
    (hn : AtEnd seqPar .fwd Q e) : ¬ i + 1 < L.length := by
  intro hlt
  obtain ⟨y, hy, hq⟩ := h.get hlt
  exact hn y hq (h.seq_lt hi hy (by omega))

theorem SLists.end_bwd (h : SLists Q L) {i : Nat} {e : Rec K} (hi : L[i]? = some e)
    (hn : AtEnd seqPar .bwd Q e) : ¬ 0 < i := by
  intro hlt
  have hil : i < L.length := (List.getElem?_eq_some_iff.1 hi).1
  obtain ⟨y, hy, hq⟩ := h.get (i := i - 1) (by omega)
  exact hn y hq (h.seq_lt hy hi (by omega))

theorem SLists.first (h : SLists Q L) {e : Rec K} (hq : Q e) (hn : AtEnd seqPar .bwd Q e) : L[0]? = some e := by
  obtain ⟨j, hj⟩ := List.getElem?_of_mem ((h.mem e).2 hq)
  have := h.end_bwd hj hn
  have h0 : j = 0 := by omega
  rw [← h0]; exact hj

theorem SLists.last (h : SLists Q L) {e : Rec K} (hq : Q e) (hn : AtEnd seqPar .fwd Q e) :
    L[L.length - 1]? = some e := by
  obtain ⟨j, hj⟩ := List.getElem?_of_mem ((h.mem e).2 hq)
  have := h.end_fwd hj hn
  have hjl := (List.getElem?_eq_some_iff.1 hj).1
  have h0 : j = L.length - 1 := by omega
  rw [← h0]; exact hj

theorem sqGet_rep {it : SeqIt K} {e : Rec K} {m : Mode} (hr : (seqSpec minArg maxArg).Rep it Q e m) :
    sqGet it = (.ok, some e) := by
  have hcur : it.cur = some e := (seq_laws (K := K) minArg maxArg).get hr
  unfold sqGet; rw [hcur]

theorem sqStep_eq {it : SeqIt K} {e : Rec K} {m : Mode} (hr : (seqSpec minArg maxArg).Rep it Q e m) (d : Dir) :
    sqStep d it = seqOps.step d it := by
  have hcur : it.cur = some e := (seq_laws (K := K) minArg maxArg).get hr
  unfold sqStep; rw [hcur]; rfl

/-- Moves from a position of the list. -/
theorem sqRun_spec (h : SLists Q L) : ∀ (bs : List Bool) {i : Nat} {it : SeqIt K} {e : Rec K} {m : Mode},
    L[i]? = some e → (seqSpec minArg maxArg).Rep it Q e m → m.allows bs → sqRun it bs = moves L i bs := by
  intro bs
  induction bs with
  | nil => intro i it e m _ _ _; cases it; rfl
  | cons b bs ih =>
    intro i it e m hi' hr hm
    have hl := seq_laws (K := K) minArg maxArg
    cases b with
    | true =>
      unfold sqRun moves
      rw [sqStep_eq hr]
      rcases hl.step hr hm.1 with ⟨it', e', h1, h2, h3, _⟩ | ⟨it', h1, h2, h3, _⟩
      · have hn := h.next_fwd hi' h2
        have hlt : i + 1 < L.length := (List.getElem?_eq_some_iff.1 hn).1
        rw [h1, if_pos hlt]
        simp only
        rw [sqGet_rep h3, hn, ih hn h3 hm.2]
      · rw [h1, if_neg (h.end_fwd hi' h2)]
    | false =>
      unfold sqRun moves
      rw [sqStep_eq hr]
      rcases hl.step hr hm.1 with ⟨it', e', h1, h2, h3, _⟩ | ⟨it', h1, h2, h3, _⟩
      · have hn := h.next_bwd hi' h2
        rw [h1, if_pos hn.1]
        simp only
        rw [sqGet_rep h3, hn.2, ih hn.2 h3 hm.2]
      · rw [h1, if_neg (h.end_bwd hi' h2)]

theorem sqAll_fwd (h : SLists Q L) : ∀ (n i : Nat) {it : SeqIt K} {e : Rec K} {m : Mode},
    L[i]? = some e → (seqSpec minArg maxArg).Rep it Q e m → m.can .fwd → L.length ≤ i + n →
    sqAll .fwd n it = L.drop i := by
  intro n
  induction n with
  | zero =>
    intro i it e m hi' _ _ hn
    have := (List.getElem?_eq_some_iff.1 hi').1
    omega
  | succ n ih =>
    intro i it e m hi' hr hm hn
    have hil := (List.getElem?_eq_some_iff.1 hi').1
    have hd : L.drop i = e :: L.drop (i + 1) := by
      rw [List.drop_eq_getElem_cons hil, (List.getElem?_eq_some_iff.1 hi').2]
    unfold sqAll
    rw [sqGet_rep hr, hd, sqStep_eq hr]
    simp only
    rcases (seq_laws (K := K) minArg maxArg).step hr hm with ⟨it', e', h1, h2, h3, _⟩ | ⟨it', h1, h2, h3, _⟩
    · rw [h1]
      simp only
      rw [ih (i + 1) (h.next_fwd hi' h2) h3 (m.after_can hm) (by omega)]
    · rw [h1]
      simp only
      rw [List.drop_eq_nil_of_le]
      have := h.end_fwd hi' h2
      omega

theorem sqAll_bwd (h : SLists Q L) : ∀ (n i : Nat) {it : SeqIt K} {e : Rec K} {m : Mode},
    L[i]? = some e → (seqSpec minArg maxArg).Rep it Q e m → m.can .bwd → i < n →
    sqAll .bwd n it = (L.take (i + 1)).reverse := by
  intro n
  induction n with
  | zero => intro i it e m _ _ _ hn; omega
  | succ n ih =>
    intro i it e m hi' hr hm hn
    have hil := (List.getElem?_eq_some_iff.1 hi').1
    have hd : (L.take (i + 1)).reverse = e :: (L.take i).reverse := by
      rw [List.take_succ_eq_append_getElem hil, (List.getElem?_eq_some_iff.1 hi').2]; simp
    unfold sqAll
    rw [sqGet_rep hr, hd, sqStep_eq hr]
    simp only
    rcases (seq_laws (K := K) minArg maxArg).step hr hm with ⟨it', e', h1, h2, h3, _⟩ | ⟨it', h1, h2, h3, _⟩
    · have hn' := h.next_bwd hi' h2
      rw [h1]
      simp only
      rw [ih (i - 1) hn'.2 h3 (m.after_can hm) (by omega)]
      have : i - 1 + 1 = i := by omega
      rw [this]
    · rw [h1]
      simp only
      have := h.end_bwd hi' h2
      have h0 : i = 0 := by omega
      subst h0; rfl

/-- The iterator is empty, or stands somewhere in `Q`. -/
def SeqOpen (minArg maxArg : Nat) (Q : Rec K → Prop) (it : SeqIt K) : Prop :=
  (it.cur = none ∧ ∀ y, ¬ Q y) ∨ (it.cur.isNone = false ∧ (seqSpec minArg maxArg).Own it Q false)

theorem seqOpen_of_rep {it : SeqIt K} {e : Rec K} {m : Mode} (h : (seqSpec minArg maxArg).Rep it Q e m) :
    SeqOpen minArg maxArg Q it := by
  have hl := seq_laws (K := K) minArg maxArg
  have hcur : it.cur = some e := hl.get h
  exact Or.inr ⟨by rw [hcur]; rfl, hl.own_false (hl.own h)⟩

/-- The iterator is at the first record (`b = true`) or at the last one. -/
structure SeqAt (minArg maxArg : Nat) (Q : Rec K → Prop) (L : List (Rec K)) (i : Nat) (d : Dir) (it : SeqIt K) :
    Prop where
  rep : ∀ e, L[i]? = some e → (seqSpec minArg maxArg).Rep it Q e (.fresh d)
  empty : L = [] → sqGet it = (.keyNotFound, none)
  opn : SeqOpen minArg maxArg Q it

theorem slists_empty (hL : SLists Q L) (h : ∀ y, ¬ Q y) : L = [] := by
  cases hc : L with
  | nil => rfl
  | cons a l => exact absurd ((hL.mem a).1 (by rw [hc]; exact List.mem_cons_self)) (h a)

theorem seqAt_empty (hL : SLists Q L) (h : ∀ y, ¬ Q y) {it : SeqIt K} (hc : it.cur = none) (i : Nat) (d : Dir) :
    SeqAt minArg maxArg Q L i d it := by
  refine ⟨?_, fun _ => by unfold sqGet; rw [hc], Or.inl ⟨hc, h⟩⟩
  intro e he; rw [slists_empty hL h] at he; cases he

theorem seqAt_rep {it : SeqIt K} {e : Rec K} {i : Nat} {d : Dir} (hi : L[i]? = some e)
    (hr : (seqSpec minArg maxArg).Rep it Q e (.fresh d)) : SeqAt minArg maxArg Q L i d it := by
  refine ⟨?_, ?_, seqOpen_of_rep hr⟩
  · intro x hx; rw [hi] at hx; cases hx; exact hr
  · intro h0; rw [h0] at hi; cases hi

theorem seqInit_at {it : SeqIt K} (ho : Opened seqPar (seqOps (K := K)) (seqSpec minArg maxArg) false Q it)
    (hL : SLists Q L) : SeqAt minArg maxArg Q L 0 .fwd it := by
  cases hg : it.cur with
  | none => exact seqAt_empty hL (ho.none hg) hg _ _
  | some e =>
    obtain ⟨h1, h2⟩ := ho.some e hg
    exact seqAt_rep (hL.first ((seq_laws minArg maxArg).mem h1) h2) h1

/-- `gotoBegin`. -/
theorem sqSeek_first {it : SeqIt K} (ho : SeqOpen minArg maxArg Q it) (hL : SLists Q L) :
    ∃ it', sqSeek .first it = (.ok, it') ∧ SeqAt minArg maxArg Q L 0 .fwd it' := by
  rcases ho with ⟨hc, hq⟩ | ⟨hc, hown⟩
  · exact ⟨it, by unfold sqSeek; rw [hc]; rfl, seqAt_empty hL hq hc _ _⟩
  · obtain ⟨s', e, h1, h2, h3⟩ := (seq_laws (K := K) minArg maxArg).seek_first hown
    refine ⟨s', by unfold sqSeek; rw [hc, h1]; rfl, seqAt_rep (hL.first ?_ h3) h2⟩
    exact (seq_laws minArg maxArg).mem h2

/-- `gotoEnd`. -/
theorem sqSeek_last {it : SeqIt K} (ho : SeqOpen minArg maxArg Q it) (hL : SLists Q L) :
    ∃ it', sqSeek .last it = (.ok, it') ∧ SeqAt minArg maxArg Q L (L.length - 1) .bwd it' := by
  rcases ho with ⟨hc, hq⟩ | ⟨hc, hown⟩
  · exact ⟨it, by unfold sqSeek; rw [hc]; rfl, seqAt_empty hL hq hc _ _⟩
  · obtain ⟨s', e, h1, h2, h3⟩ := (seq_laws (K := K) minArg maxArg).seek_last hown
    refine ⟨s', by unfold sqSeek; rw [hc, h1]; rfl, seqAt_rep (hL.last ?_ h3) h2⟩
    exact (seq_laws minArg maxArg).mem h2

/-- `seekSN(k, GREATER)`, if a record is not below `k`. -/
theorem sqSeek_ge {it : SeqIt K} (ho : SeqOpen minArg maxArg Q it) (hL : SLists Q L) {k : Nat}
    (hk : NumIn minArg maxArg k) {i : Nat} {e : Rec K} (hi' : L[i]? = some e)
    (hke : k ≤ e.seq) (hmin : ∀ y ∈ L, k ≤ y.seq → e.seq ≤ y.seq) :
    ∃ it', sqSeek (.ge k) it = (.ok, it') ∧ (seqSpec minArg maxArg).Rep it' Q e (.only .fwd) ∧
      SeqOpen minArg maxArg Q it' := by
  have hqe := (hL.mem e).1 (List.mem_of_getElem? hi')
  rcases ho with ⟨hc, hq⟩ | ⟨hc, hown⟩
  · exact absurd hqe (hq e)
  · have hkok : (seqSpec (K := K) minArg maxArg).KOk k := by
      refine ⟨?_, by decide, ?_, ?_⟩
      · intro b hb
        unfold seqTop at hb
        split at hb
        · cases hb
        · next hn => cases hb; exact hk.2 hn
      · intro a ha
        unfold stabLo at ha
        cases ha
        split
        · next hv => exact hk.1 (valid_iff.1 hv)
        · exact Nat.zero_le _
      · intro b hb
        unfold stabHi at hb
        split at hb
        · next hv => cases hb; exact hk.2 (valid_iff.1 hv.1)
        · cases hb
    have hl := seq_laws (K := K) minArg maxArg
    rcases hl.seek_ge hown hkok with ⟨s', e', h1, h2, h3, h4, _⟩ | ⟨h1, _⟩
    · have he' : e' = e := by
        have hq' := hl.mem h2
        refine hl.own_inj hown e' e hq' hqe (Nat.le_antisymm (h4 e hqe hke) (hmin e' ((hL.mem e').2 hq') h3))
      subst he'
      exact ⟨s', by unfold sqSeek; rw [hc, h1]; rfl, h2, seqOpen_of_rep h2⟩
    · exact absurd hke (Nat.not_le.2 (h1 e hqe))

end Walk
end Jungle.Iter
