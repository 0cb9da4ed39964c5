/-
  Tables without level extension: which tables a partition has, and what they hold.
-/
import Verif.Table.L0Only

set_option linter.unusedSectionVars false

namespace Jungle
open Spec

section merge
variable {K : Type} [LinearOrder K]

theorem mergeDocs_mem : ∀ (n : Nat) (xs ys : SMap K (Rec K)) (e : K × Rec K),
    e ∈ mergeDocs n xs ys → e ∈ xs ∨ e ∈ ys
  | 0, _, _, e, h => by cases h
  | _ + 1, [], ys, e, h => Or.inr h
  | _ + 1, x :: xs, [], e, h => Or.inl h
  | n + 1, x :: xs, y :: ys, e, h => by
    unfold mergeDocs at h
    split at h
    · rcases List.mem_cons.1 h with rfl | h
      · exact Or.inl (by simp)
      · rcases mergeDocs_mem n _ _ e h with h | h
        · exact Or.inl (List.mem_cons_of_mem _ h)
        · exact Or.inr h
    · split at h
      · rcases List.mem_cons.1 h with rfl | h
        · exact Or.inr (by simp)
        · rcases mergeDocs_mem n _ _ e h with h | h
          · exact Or.inl h
          · exact Or.inr (List.mem_cons_of_mem _ h)
      · rcases List.mem_cons.1 h with h | h
        · split at h
          · exact Or.inl (by simp [h])
          · exact Or.inr (by simp [h])
        · rcases mergeDocs_mem n _ _ e h with h | h
          · exact Or.inl (List.mem_cons_of_mem _ h)
          · exact Or.inr (List.mem_cons_of_mem _ h)

theorem mergeDocs_sorted : ∀ (n : Nat) (xs ys : SMap K (Rec K)), SMap.Sorted xs → SMap.Sorted ys →
    SMap.Sorted (mergeDocs n xs ys)
  | 0, _, _, _, _ => SMap.sorted_nil
  | _ + 1, [], ys, _, h => h
  | _ + 1, x :: xs, [], h, _ => h
  | n + 1, x :: xs, y :: ys, hx, hy => by
    have hx1 := hx.head_lt
    have hy1 := hy.head_lt
    unfold mergeDocs
    split
    · next hlt =>
      refine List.pairwise_cons.2 ⟨?_, mergeDocs_sorted n _ _ hx.tail hy⟩
      intro e he
      rcases mergeDocs_mem n _ _ e he with he | he
      · exact hx1 e he
      · rcases List.mem_cons.1 he with rfl | he
        · exact hlt
        · exact lt_trans hlt (hy1 e he)
    · split
      · next hlt =>
        refine List.pairwise_cons.2 ⟨?_, mergeDocs_sorted n _ _ hx hy.tail⟩
        intro e he
        rcases mergeDocs_mem n _ _ e he with he | he
        · rcases List.mem_cons.1 he with rfl | he
          · exact hlt
          · exact lt_trans hlt (hx1 e he)
        · exact hy1 e he
      · next h1 h2 =>
        have hxy : x.1 = y.1 := le_antisymm (not_lt.1 h2) (not_lt.1 h1)
        refine List.pairwise_cons.2 ⟨?_, mergeDocs_sorted n _ _ hx.tail hy.tail⟩
        intro e he
        have : (if y.2.seq < x.2.seq then x else y).1 = x.1 := by split <;> simp [hxy]
        rw [this]
        rcases mergeDocs_mem n _ _ e he with he | he
        · exact hx1 e he
        · rw [hxy]; exact hy1 e he

/-- When the first file is the newer one, its record wins. -/
theorem mergeDocs_find : ∀ (n : Nat) (xs ys : SMap K (Rec K)), xs.length + ys.length ≤ n →
    SMap.Sorted xs → SMap.Sorted ys → ∀ k,
    (∀ a b, SMap.find? xs k = some a → SMap.find? ys k = some b → b.seq < a.seq) →
    SMap.find? (mergeDocs n xs ys) k = (SMap.find? xs k).or (SMap.find? ys k)
  | 0, xs, ys, hn, _, _, k, _ => by
    have h1 : xs = [] := List.length_eq_zero_iff.1 (by omega)
    have h2 : ys = [] := List.length_eq_zero_iff.1 (by omega)
    subst h1; subst h2; rfl
  | n + 1, [], ys, _, _, _, k, _ => by simp [mergeDocs, SMap.find?]
  | n + 1, x :: xs, [], _, _, _, k, _ => by simp [mergeDocs, SMap.find?]
  | n + 1, (xk, xr) :: xs, (yk, yr) :: ys, hn, hx, hy, k, hab => by
    have hx1 := hx.head_lt
    have hy1 := hy.head_lt
    simp only [List.length_cons] at hn
    have fx : ∀ z : K, z ≤ xk → SMap.find? xs z = none := fun z hz =>
      SMap.find?_none_of_lt (fun e he => lt_of_le_of_lt hz (hx1 e he))
    have fy : ∀ z : K, z ≤ yk → SMap.find? ys z = none := fun z hz =>
      SMap.find?_none_of_lt (fun e he => lt_of_le_of_lt hz (hy1 e he))
    have cons : ∀ (a : K) (r : Rec K) (m : SMap K (Rec K)),
        SMap.find? ((a, r) :: m) k = if a = k then some r else SMap.find? m k := by
      intro a r m; rfl
    unfold mergeDocs
    simp only
    split
    · next hlt =>
      rw [cons, cons xk]
      by_cases hk : xk = k
      · simp [hk]
      · rw [if_neg hk, if_neg hk]
        refine mergeDocs_find n xs ((yk, yr) :: ys) (by simp only [List.length_cons]; omega) hx.tail hy k ?_
        intro a b ha hb
        exact hab a b (by rw [cons, if_neg hk]; exact ha) hb
    · split
      · next hlt =>
        rw [cons, cons yk]
        by_cases hk : yk = k
        · subst hk
          rw [if_pos rfl, if_pos rfl, cons, if_neg (ne_of_gt hlt), fx yk (le_of_lt hlt)]
          rfl
        · rw [if_neg hk, if_neg hk]
          refine mergeDocs_find n ((xk, xr) :: xs) ys (by simp only [List.length_cons]; omega) hx hy.tail k ?_
          intro a b ha hb
          exact hab a b ha (by rw [cons, if_neg hk]; exact hb)
      · next h1 h2 =>
        have hxy : xk = yk := le_antisymm (not_lt.1 h2) (not_lt.1 h1)
        subst hxy
        rw [cons xk, cons xk]
        by_cases hk : xk = k
        · have h3 := hab xr yr (by rw [cons, if_pos hk]) (by rw [cons, if_pos hk])
          rw [if_pos h3, cons, if_pos hk, if_pos hk]
          rfl
        · rw [if_neg hk, if_neg hk]
          have : ∀ (b : Bool), (if b then (xk, xr) else (xk, yr)).1 = xk := by intro b; cases b <;> rfl
          have hd : SMap.find? ((if yr.seq < xr.seq then (xk, xr) else (xk, yr)) :: mergeDocs n xs ys) k =
              SMap.find? (mergeDocs n xs ys) k := by
            split <;> rw [cons, if_neg hk]
          rw [hd]
          refine mergeDocs_find n xs ys (by omega) hx.tail hy.tail k ?_
          intro a b ha hb
          exact hab a b (by rw [cons, if_neg hk]; exact ha) (by rw [cons, if_neg hk]; exact hb)

end merge

namespace L0S
variable {K : Type} [LinearOrder K] [OrderBot K]

/-- The tables of a partition, newest data first: one writable table; with one source table; with
    the table an earlier compaction made; with two source tables. -/
inductive Part (K : Type)
  | one (w : Tab K)
  | src (w s : Tab K)
  | two (w d : Tab K)
  | merging (w a b : Tab K)

namespace Part

/-- Newest data first. -/
def chain : Part K → List (Tab K)
  | one w => [w]
  | src w s => [w, s]
  | two w d => [w, d]
  | merging w a b => [w, a, b]

/-- The order of the skiplist as long as the database is not reopened. -/
def arr : Part K → List (Tab K)
  | one w => [w]
  | src w s => [w, s]
  | two w d => [d, w]
  | merging w a b => [w, b, a]

def top : Part K → Tab K
  | one w | src w _ | two w _ | merging w _ _ => w

def rest : Part K → List (Tab K)
  | one _ => []
  | src _ s => [s]
  | two _ d => [d]
  | merging _ a b => [a, b]

/-- Source tables are there. -/
def busy : Part K → Bool
  | one _ | two _ _ => false
  | src _ _ | merging _ _ _ => true

def Ok : Part K → Prop
  | one w => w.status = .normal
  | src w s => w.status = .normal ∧ s.status = .compactSrc
  | two w d => w.status = .normal ∧ d.status = .normal ∧ w.number < d.number
  | merging w a b => w.status = .normal ∧ a.status = .compactSrc ∧ b.status = .compactSrc ∧
      a.number < b.number

theorem chain_eq (q : Part K) : q.chain = q.top :: q.rest := by cases q <;> rfl

theorem arr_perm (q : Part K) : q.arr.Perm q.chain := by
  cases q with
  | one | src => exact List.Perm.refl _
  | two w d => exact List.Perm.swap _ _ _
  | merging w a b => exact (List.Perm.swap a b []).cons w

end Part

/-- `a` is newer than `b` wherever both have a record. -/
def Above (a b : Tab K) : Prop :=
  ∀ k ra rb, a.get k = some ra → b.get k = some rb → rb.seq < ra.seq

def chainGet (l : List (Tab K)) (k : K) : Option (Rec K) := l.findSome? (·.get k)

/-- What a partition looks like. -/
structure PInv (c : TCfg K) (parts : Nat) (h : List (Rec K)) (p : Nat) (L : List (Tab K))
    (run : Option Nat) (o : Bool) (q : Part K) : Prop where
  ok : q.Ok
  perm : L.Perm q.chain
  ord : o = true → L = q.arr
  recs : ∀ x ∈ L, x.recs.Sorted ∧
    ∀ e ∈ x.recs, e.2.key = e.1 ∧ c.hash e.1 % parts = p ∧ e.2 ∈ h
  desc : q.chain.Pairwise Above
  right : ∀ k, c.hash k % parts = p → vis (chainGet q.chain k) = vis (lastWrite h k)
  idle : run ≠ none → q.busy = true
  dst : ∀ d, run = some d → ∀ x ∈ L, x.number < d

/-- The tables of partition `p`. -/
def tabs (t : TMgr K) (p : Nat) : List (Tab K) := t.l0.filter (fun x => decide (x.hashNum = p))

/-- States that occur; `o p` says that the database was not reopened since partition `p` was last
    compacted. -/
structure GInv (c : TCfg K) (h : List (Rec K)) (s : L0S K) (o : Nat → Bool) : Prop where
  pos : 0 < s.t.parts
  inc : Increasing h
  lv : s.t.lv = []
  nums : (s.t.l0.map (·.number)).Nodup
  l0Num : ∀ x ∈ s.t.l0, x.number < s.t.nextNum
  l0Min : ∀ x ∈ s.t.l0, x.minKey = ⊥
  runP : ∀ p d, s.run p = some d → p < s.t.parts ∧ d < s.t.nextNum ∧ ∀ x ∈ s.t.l0, x.number ≠ d
  runInj : ∀ p q d, s.run p = some d → s.run q = some d → p = q
  part : ∀ p < s.t.parts, ∃ q, PInv c s.t.parts h p (tabs s.t p) (s.run p) (o p) q

theorem smallestNormal_min (x : Tab K) : ∀ (ts : List (Tab K)),
    (∀ y ∈ ts, y.status = .normal → y = x ∨ x.number < y.number) →
    ∀ acc : Option (Tab K), (∀ a, acc = some a → a = x ∨ x.number < a.number) →
    (acc = some x ∨ (x ∈ ts ∧ x.status = .normal)) → TMgr.smallestNormal ts acc = some x
  | [], _, acc, _, h => by
    rcases h with rfl | ⟨h, _⟩
    · rfl
    · cases h
  | y :: ys, hu, acc, ha, h => by
    unfold TMgr.smallestNormal
    by_cases hy : y.status = .normal
    · rw [if_pos hy]
      have hyx := hu y (by simp) hy
      refine smallestNormal_min x ys (fun z hz => hu z (List.mem_cons_of_mem _ hz)) _ ?_ ?_
      · intro a
        cases acc with
        | none => intro e; cases e; exact hyx
        | some b =>
          simp only
          split
          · intro e; cases e; exact hyx
          · intro e; cases e; exact ha _ rfl
      · rcases h with rfl | ⟨h1, h2⟩
        · left
          simp only
          rcases hyx with rfl | hlt
          · split <;> rfl
          · rw [if_neg (by omega)]
        · rcases List.mem_cons.1 h1 with rfl | h1
          · left
            cases acc with
            | none => rfl
            | some b =>
              simp only
              rcases ha b rfl with rfl | hlt
              · split <;> rfl
              · rw [if_pos hlt]
          · right; exact ⟨h1, h2⟩
    · rw [if_neg hy]
      refine smallestNormal_min x ys (fun z hz => hu z (List.mem_cons_of_mem _ hz)) acc ha ?_
      rcases h with h | ⟨h1, h2⟩
      · exact Or.inl h
      · rcases List.mem_cons.1 h1 with rfl | h1
        · exact absurd h2 hy
        · exact Or.inr ⟨h1, h2⟩

theorem PInv.smallest {c : TCfg K} {parts : Nat} {h : List (Rec K)} {p : Nat} {L : List (Tab K)}
    {run : Option Nat} {o : Bool} {q : Part K} (hi : PInv c parts h p L run o q) :
    TMgr.smallestNormal L none = some q.top := by
  have hok := hi.ok
  refine smallestNormal_min q.top L ?_ none (fun a e => by cases e) (Or.inr ⟨?_, ?_⟩)
  · intro y hy hs
    have hy' := hi.perm.mem_iff.1 hy
    cases q with
    | one w => simp only [Part.chain, List.mem_singleton] at hy'; exact Or.inl hy'
    | src w s =>
      simp only [Part.chain, List.mem_cons, List.not_mem_nil, or_false] at hy'
      rcases hy' with rfl | rfl
      · exact Or.inl rfl
      · rw [hok.2] at hs; cases hs
    | two w d =>
      simp only [Part.chain, List.mem_cons, List.not_mem_nil, or_false] at hy'
      rcases hy' with rfl | rfl
      · exact Or.inl rfl
      · exact Or.inr hok.2.2
    | merging w a b =>
      simp only [Part.chain, List.mem_cons, List.not_mem_nil, or_false] at hy'
      rcases hy' with rfl | rfl | rfl
      · exact Or.inl rfl
      · rw [hok.2.1] at hs; cases hs
      · rw [hok.2.2.1] at hs; cases hs
  · apply hi.perm.mem_iff.2; rw [Part.chain_eq]; simp
  · cases q with
    | one w => exact hok
    | src w s => exact hok.1
    | two w d => exact hok.1
    | merging w a b => exact hok.1

theorem perm_pair {α : Type} {l : List α} {a b : α} (h : l.Perm [a, b]) : l = [a, b] ∨ l = [b, a] := by
  have hl := h.length_eq
  match l, hl with
  | [x, y], _ =>
    have hx : x ∈ [a, b] := h.mem_iff.1 (by simp)
    simp only [List.mem_cons, List.not_mem_nil, or_false] at hx
    rcases hx with rfl | rfl
    · have := List.Perm.cons_inv h
      rw [List.perm_singleton.1 this]; exact Or.inl rfl
    · have h2 : [x, y].Perm [x, a] := h.trans (List.Perm.swap _ _ _)
      have := List.Perm.cons_inv h2
      rw [List.perm_singleton.1 this]; exact Or.inr rfl

/-- The other tables of the partition. -/
theorem others_perm {L : List (Tab K)} {w : Tab K} {rest : List (Tab K)} (hp : L.Perm (w :: rest))
    (hn : ((w :: rest).map (·.number)).Nodup) :
    (L.filter (fun y => decide (y.number ≠ w.number))).Perm rest := by
  have h1 := hp.filter (fun y => decide (y.number ≠ w.number))
  have h2 : (w :: rest).filter (fun y => decide (y.number ≠ w.number)) = rest := by
    rw [List.filter_cons]
    simp only [ne_eq, not_true_eq_false, decide_false, Bool.false_eq_true, if_false]
    rw [List.filter_eq_self]
    intro y hy
    simp only [List.map_cons, List.nodup_cons] at hn
    simp only [decide_eq_true_eq]
    intro he
    exact hn.1 (List.mem_map.2 ⟨y, hy, he⟩)
  rw [h2] at h1; exact h1

theorem scan_one (k : K) (x : Tab K) : TMgr.scan k [x] none = some (x.get k) := by
  unfold TMgr.scan
  cases x.get k <;> rfl

/-- Two tables, the older one first. -/
theorem scan_old_new {a b : Tab K} (hab : Above a b) (k : K) :
    TMgr.scan k [b, a] none = some ((a.get k).or (b.get k)) := by
  cases hb : b.get k with
  | none => unfold TMgr.scan; simp only [hb]; rw [scan_one]; simp
  | some rb =>
    cases ha : a.get k with
    | none => simp [TMgr.scan, hb, ha]
    | some ra => simp [TMgr.scan, hb, ha, hab k ra rb ha hb]

/-- Two tables, the newer one first: an error if both have the key. -/
theorem scan_new_old {a b : Tab K} (hab : Above a b) (k : K) :
    TMgr.scan k [a, b] none = some ((a.get k).or (b.get k)) ∨ TMgr.scan k [a, b] none = none := by
  cases ha : a.get k with
  | none => left; unfold TMgr.scan; simp only [ha]; rw [scan_one]; simp
  | some ra =>
    cases hb : b.get k with
    | none => left; simp [TMgr.scan, hb, ha]
    | some rb =>
      right
      have := hab k ra rb ha hb
      have h2 : ¬ ra.seq < rb.seq := by omega
      simp [TMgr.scan, hb, ha, h2]

theorem tabs_nodup {t : TMgr K} (h : (t.l0.map (·.number)).Nodup) (p : Nat) :
    ((tabs t p).map (·.number)).Nodup :=
  List.Nodup.sublist (List.filter_sublist.map _) h

/-- Point lookup: the newest record, or the blank record when the search meets two source tables in
    the wrong order. -/
theorem get_chain {c : TCfg K} {h : List (Rec K)} {s : L0S K} {o : Nat → Bool} (hg : GInv c h s o)
    (k : K) {q : Part K}
    (hq : PInv c s.t.parts h (c.hash k % s.t.parts) (tabs s.t (c.hash k % s.t.parts))
      (s.run (c.hash k % s.t.parts)) (o (c.hash k % s.t.parts)) q) :
    (s.t.get c k = chainGet q.chain k ∨ s.t.get c k = some (TMgr.blank k)) ∧
    (o (c.hash k % s.t.parts) = true ∨ (tabs s.t (c.hash k % s.t.parts)).length ≤ 2 →
      s.t.get c k = chainGet q.chain k) := by
  have hp : c.hash k % s.t.parts < s.t.parts := Nat.mod_lt _ hg.pos
  have hnd := tabs_nodup hg.nums (c.hash k % s.t.parts)
  generalize hpe : c.hash k % s.t.parts = p at *
  have hnd' : (q.chain.map (·.number)).Nodup := (hq.perm.map _).nodup_iff.1 hnd
  rw [Part.chain_eq] at hnd'
  have hperm := hq.perm
  rw [Part.chain_eq] at hperm
  have hoth := others_perm hperm hnd'
  have hun : s.t.get c k = match q.top.get k with
      | some r => some r
      | none => match TMgr.scan k ((tabs s.t p).filter (fun y => decide (y.number ≠ q.top.number))) none with
        | none => some (TMgr.blank k)
        | some (some r) => some r
        | some none => none := by
    unfold TMgr.get
    simp only [hpe, hg.lv]
    rw [TMgr.tablesByHash_eq s.t hp]
    have hsm : TMgr.smallestNormal (List.filter (fun x => decide (x.hashNum = p)) s.t.l0) none = some q.top :=
      hq.smallest
    rw [hsm]
    simp only [Option.bind_some]
    cases q.top.get k with
    | some r => rfl
    | none =>
      simp only
      unfold tabs
      rcases TMgr.scan k _ none with _ | _ | _ <;> rfl
  have hcg : chainGet q.chain k = (q.top.get k).or (chainGet q.rest k) := by
    rw [Part.chain_eq]; unfold chainGet; rw [List.findSome?_cons]; cases q.top.get k <;> rfl
  -- the loop
  have hscan : (TMgr.scan k ((tabs s.t p).filter (fun y => decide (y.number ≠ q.top.number))) none =
        some (chainGet q.rest k) ∨
      TMgr.scan k ((tabs s.t p).filter (fun y => decide (y.number ≠ q.top.number))) none = none) ∧
      (o p = true ∨ (tabs s.t p).length ≤ 2 →
        TMgr.scan k ((tabs s.t p).filter (fun y => decide (y.number ≠ q.top.number))) none =
        some (chainGet q.rest k)) := by
    have hdesc := hq.desc
    cases q with
    | one w =>
      rw [List.perm_nil.1 hoth]
      exact ⟨Or.inl rfl, fun _ => rfl⟩
    | src w s' =>
      rw [List.perm_singleton.1 hoth, scan_one]
      have : chainGet (Part.src w s').rest k = s'.get k := by
        simp only [Part.rest, chainGet, List.findSome?_cons, List.findSome?_nil]
        cases s'.get k <;> rfl
      rw [this]
      exact ⟨Or.inl rfl, fun _ => rfl⟩
    | two w d =>
      rw [List.perm_singleton.1 hoth, scan_one]
      have : chainGet (Part.two w d).rest k = d.get k := by
        simp only [Part.rest, chainGet, List.findSome?_cons, List.findSome?_nil]
        cases d.get k <;> rfl
      rw [this]
      exact ⟨Or.inl rfl, fun _ => rfl⟩
    | merging w a b =>
      have hab : Above a b := by
        simp only [Part.chain, List.pairwise_cons] at hdesc
        exact hdesc.2.1 b (by simp)
      have hr : chainGet (Part.merging w a b).rest k = (a.get k).or (b.get k) := by
        simp only [Part.rest, chainGet, List.findSome?_cons, List.findSome?_nil]
        cases a.get k <;> cases b.get k <;> rfl
      rw [hr]
      refine ⟨?_, ?_⟩
      · rcases perm_pair hoth with he | he
        · rw [he]; exact scan_new_old hab k
        · rw [he]; exact Or.inl (scan_old_new hab k)
      · rintro (ho | hlen)
        · have hL := hq.ord ho
          have : (tabs s.t p).filter (fun y => decide (y.number ≠ (Part.merging w a b).top.number)) = [b, a] := by
            rw [hL]
            simp only [Part.top, Part.rest, List.map_cons, List.nodup_cons, List.mem_cons, List.map_nil,
              List.not_mem_nil, or_false, not_or] at hnd'
            simp only [Part.arr, Part.top]
            have h1 : ¬ b.number = w.number := fun e => hnd'.1.2 e.symm
            have h2 : ¬ a.number = w.number := fun e => hnd'.1.1 e.symm
            simp [h1, h2]
          rw [this]; exact scan_old_new hab k
        · have := hperm.length_eq
          simp only [Part.top, Part.rest, List.length_cons, List.length_nil] at this
          omega
  rw [hun, hcg]
  cases q.top.get k with
  | some r => exact ⟨Or.inl rfl, fun _ => rfl⟩
  | none =>
    simp only [Option.none_or]
    refine ⟨?_, ?_⟩
    · rcases hscan.1 with h1 | h1 <;> rw [h1]
      · left; cases chainGet q.rest k <;> rfl
      · right; rfl
    · intro ho
      rw [hscan.2 ho]
      cases chainGet q.rest k <;> rfl

end L0S
end Jungle
