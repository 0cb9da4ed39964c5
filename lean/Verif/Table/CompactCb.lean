/-
  In-place compaction with the user's compaction callback: `TableMgr::compactInPlace`
  (src/table_compaction.cc:660-757), `TableFile::compactToManually` and `isFdbDocTombstone`
  (src/table_file_compaction.cc:52-345), `CompactionCbFunc` (include/libjungle/db_config.h:38-70).
  With level extension; the callback is any function of what it is given.
-/
import Verif.Table.Lsm

set_option linter.unusedSectionVars false

namespace Jungle
namespace TMgr
variable {K : Type} [LinearOrder K] [OrderBot K]

/-! ### Model -/

/-- `CompactionCbParams` (include/libjungle/db_config.h:50-67); a key is `none` if the table has no
    record (src/table_file_compaction.cc:146-172). -/
structure CbParams (K : Type) where
  record : Rec K
  minKey : Option K
  maxKey : Option K

/-- `isFdbDocTombstone` (src/table_file_compaction.cc:52-87).  `drop`: the callback says DROP. -/
def isTomb (drop : CbParams K → Bool) (mn mx : Option K) (r : Rec K) : Bool :=
  r.isDel || drop ⟨r, mn, mx⟩

/-- The loop over the records of the table (src/table_file_compaction.cc:187-218, 296-329): what is
    written to the new file, and the calls of the callback. -/
def cbLoop (drop : CbParams K → Bool) (chk : Bool) (mn mx : Option K) :
    List (K × Rec K) → List (K × Rec K) × List (CbParams K)
  | [] => ([], [])
  | e :: es =>
    let rest := cbLoop drop chk mn mx es
    if chk then
      (if isTomb drop mn mx e.2 then rest.1 else e :: rest.1, ⟨e.2, mn, mx⟩ :: rest.2)
    else (e :: rest.1, rest.2)

/-- `compactToManually`: `chk` is `check_tombstone` (src/table_file_compaction.cc:192-204). -/
def compactTo (drop : CbParams K → Bool) (chk : Bool) (v : Tab K) :
    List (K × Rec K) × List (CbParams K) :=
  cbLoop drop chk (v.recs.head?.map (·.1)) (v.recs.getLast?.map (·.1)) v.recs

/-- `TableMgr::compactInPlace` (src/table_compaction.cc:660-757): the level afterwards, and the calls
    of the callback. -/
def compactInPlaceCb (l : List (Tab K)) (num : Nat) (v : Tab K) (drop : CbParams K → Bool) (chk : Bool) :
    List (Tab K) × List (CbParams K) :=
  let r := compactTo drop chk v
  (removeTable (addTable l { number := num, minKey := v.minKey, recs := r.1, added := r.1.map (·.1) })
    v.number, r.2)

/-- `DB::compactInplace` (src/jungle.cc:593-601) of table `n` of level `i + 1`. -/
def compactInPlaceCbOp (t : TMgr K) (i n : Nat) (preserve : Bool) (drop : CbParams K → Bool) :
    TMgr K × List (CbParams K) :=
  match t.lv.drop i with
  | [] => (t, [])
  | l :: b =>
    match l.find? (fun x => decide (x.number = n)) with
    | none => (t, [])
    | some v =>
      let r := compactInPlaceCb l t.nextNum v drop (b.isEmpty && !preserve)
      ({ t with nextNum := t.nextNum + 1, lv := t.lv.take i ++ r.1 :: b }, r.2)

/-! ### Lemmas -/

theorem cbLoop_recs (drop : CbParams K → Bool) (chk : Bool) (mn mx : Option K) (l : List (K × Rec K)) :
    (cbLoop drop chk mn mx l).1 = l.filter (fun e => !(chk && isTomb drop mn mx e.2)) := by
  induction l with
  | nil => rfl
  | cons e es ih =>
    unfold cbLoop
    cases chk with
    | false => simp at ih ⊢; exact ih
    | true =>
      simp only [if_true, Bool.true_and] at ih ⊢
      rw [List.filter_cons]
      cases isTomb drop mn mx e.2 <;> simp [ih]

theorem cbLoop_calls (drop : CbParams K → Bool) (chk : Bool) (mn mx : Option K) (l : List (K × Rec K)) :
    (cbLoop drop chk mn mx l).2 = if chk then l.map (fun e => ⟨e.2, mn, mx⟩) else [] := by
  induction l with
  | nil => cases chk <;> rfl
  | cons e es ih =>
    unfold cbLoop
    cases chk with
    | false => simpa using ih
    | true => simp at ih ⊢; exact ih

/-- A table of a level is replaced by one with those of its records that pass `keep`. -/
theorem filterTable_ok {l : List (Tab K)} (hl : LevelOk l) {num : Nat} (hn : ∀ t ∈ l, t.number < num)
    {v : Tab K} (hv : v ∈ l) (keep : Rec K → Bool) :
    let l' := removeTable (addTable l
      { number := num, minKey := v.minKey, recs := v.recs.filter (fun e => keep e.2)
        added := (v.recs.filter (fun e => keep e.2)).map (·.1) }) v.number
    LevelOk l' ∧ (∀ t ∈ l', t.number < num + 1) ∧
    (∀ k, v.get k = none → look l' k = look l k) ∧
    (∀ k r, v.get k = some r → look l k = some r ∧ look l' k = if keep r then some r else none) := by
  intro l'
  have hvt := hl.tab v hv
  have hs : (v.recs.filter (fun e => keep e.2)).Sublist v.recs := List.filter_sublist
  have hsorted : SMap.Sorted (v.recs.filter (fun e => keep e.2)) := List.Pairwise.sublist hs hvt.1
  have hget : ∀ k r, SMap.find? (v.recs.filter (fun e => keep e.2)) k = some r ↔
      (v.get k = some r ∧ keep r = true) := by
    intro k r
    rw [← SMap.mem_iff_find? hsorted]
    unfold Tab.get
    rw [← SMap.mem_iff_find? hvt.1]
    simp [List.mem_filter]
  have hr := replace_ok hl hv
    [{ number := num, minKey := v.minKey, recs := v.recs.filter (fun e => keep e.2)
       added := (v.recs.filter (fun e => keep e.2)).map (·.1) }]
    (fun r => keep r = true) (by simp) (by simp) (by simp)
    (by
      intro x hx
      simp only [List.mem_singleton] at hx
      subst hx
      exact ⟨hsorted, fun e he => (hvt.2.1 e (hs.subset he)).2, rfl⟩)
    (by simp) (by
      intro x hx t ht
      simp only [List.mem_singleton] at hx
      subst hx
      have := hn t ht
      simp only; omega)
    (by
      intro k r
      simp only [List.mem_singleton, exists_eq_left]
      exact hget k r)
  obtain ⟨r1, r2, r3, r4⟩ := hr
  refine ⟨r1, ?_, r4, ?_⟩
  · intro t ht
    rcases (r2 t).1 ht with h | ⟨h, _⟩
    · simp only [List.mem_singleton] at h; rw [h]; simp
    · have := hn t h; omega
  · intro k r hg
    have hlk := ((look_remove hl hv k).2 r hg).2
    refine ⟨hlk, ?_⟩
    by_cases hk : keep r = true
    · rw [if_pos hk]; exact (r3 k r hg).1 hk
    · rw [if_neg hk]; exact (r3 k r hg).2 hk

/-- What the operation does to the lookup of a key. -/
theorem compactInPlaceCbOp_ok {c : TCfg K} {t : TMgr K} (h : Inv c t) (i n : Nat) (pres : Bool)
    (drop : CbParams K → Bool) :
    Inv c (t.compactInPlaceCbOp i n pres drop).1 ∧
    ∀ k, (t.compactInPlaceCbOp i n pres drop).1.get c k = t.get c k ∨
      ((t.compactInPlaceCbOp i n pres drop).1.get c k = none ∧ ∃ r, t.get c k = some r ∧
        (r.isDel = true ∨ ∃ p ∈ (t.compactInPlaceCbOp i n pres drop).2, p.record = r ∧ drop p = true)) := by
  unfold compactInPlaceCbOp
  split
  · exact ⟨h, fun k => Or.inl rfl⟩
  · next l b hd =>
    have hlv := drop_split hd
    have hl : l ∈ t.lv := by rw [hlv]; simp
    split
    · exact ⟨h, fun k => Or.inl rfl⟩
    · next v hv =>
      have hvm := (find_mem hv).1
      generalize hchk : (b.isEmpty && !pres) = chk
      dsimp only
      unfold compactInPlaceCb
      dsimp only
      generalize hmn : v.recs.head?.map (·.1) = mn
      generalize hmx : v.recs.getLast?.map (·.1) = mx
      have hrec : (compactTo drop chk v).1 =
          v.recs.filter (fun e => (fun r => !(chk && isTomb drop mn mx r)) e.2) := by
        unfold compactTo; rw [hmn, hmx]; exact cbLoop_recs _ _ _ _ _
      have hcalls : (compactTo drop chk v).2 = if chk then v.recs.map (fun e => ⟨e.2, mn, mx⟩) else [] := by
        unfold compactTo; rw [hmn, hmx]; exact cbLoop_calls _ _ _ _ _
      rw [hrec, hcalls]
      obtain ⟨h1, h2, h3, h4⟩ := filterTable_ok (h.lv l hl) (h.lvNum l hl) hvm
        (fun r => !(chk && isTomb drop mn mx r))
      generalize removeTable (addTable l _) v.number = l' at h1 h2 h3 h4 ⊢
      have hinv : Inv c { t with nextNum := t.nextNum + 1, lv := t.lv.take i ++ l' :: b } := by
        refine ⟨h.pos, ?_, ?_, h.nums, fun x hx => Nat.lt_succ_of_lt (h.l0Num x hx), h.l0Min, h.l0Recs,
          h.normEx, h.uniq⟩
        · intro x hx
          rcases List.mem_append.1 hx with h5 | h5
          · exact h.lv x (mem_take_of h5)
          · rcases List.mem_cons.1 h5 with rfl | h6
            · exact h1
            · exact h.lv x (by rw [hlv]; simp [h6])
        · intro x hx y hy
          rcases List.mem_append.1 hx with h5 | h5
          · exact Nat.lt_succ_of_lt (h.lvNum x (mem_take_of h5) y hy)
          · rcases List.mem_cons.1 h5 with rfl | h6
            · exact h2 y hy
            · exact Nat.lt_succ_of_lt (h.lvNum x (by rw [hlv]; simp [h6]) y hy)
      refine ⟨hinv, fun k => ?_⟩
      obtain ⟨up, e1, e2⟩ : ∃ up : Option (Rec K), t.get c k = up.or (t.lvLook k) ∧
          TMgr.get c { t with nextNum := t.nextNum + 1, lv := t.lv.take i ++ l' :: b } k =
            up.or ((t.lv.take i ++ l' :: b).findSome? (fun l => look l k)) :=
        ⟨_, get_eq h k, get_eq hinv k⟩
      rw [e1, e2]
      unfold lvLook
      have e : t.lv.findSome? (fun l => look l k) =
          ((t.lv.take i).findSome? (fun l => look l k)).or ((look l k).or (b.findSome? (fun l => look l k))) := by
        conv => lhs; rw [hlv]
        rw [findSome_append, findSome_cons]
      rw [e, findSome_append, findSome_cons]
      cases up with
      | some r => exact Or.inl rfl
      | none =>
        cases (t.lv.take i).findSome? (fun l => look l k) with
        | some r => exact Or.inl rfl
        | none =>
          simp only [Option.none_or]
          cases hg : v.get k with
          | none => rw [h3 k hg]; exact Or.inl rfl
          | some r =>
            obtain ⟨h5, h6⟩ := h4 k r hg
            rw [h6]
            by_cases hk : (chk && isTomb drop mn mx r) = true
            · rw [hk]
              simp only [Bool.not_true, Bool.false_eq_true, if_false, Option.none_or]
              have hk' := hk
              rw [Bool.and_eq_true] at hk'
              have hb : b = [] := by
                have := hk'.1; rw [← hchk, Bool.and_eq_true, List.isEmpty_iff] at this; exact this.1
              rw [hb, h5]
              refine Or.inr ⟨rfl, r, rfl, ?_⟩
              have ht := hk'.2
              unfold isTomb at ht
              rw [Bool.or_eq_true] at ht
              rcases ht with ht | ht
              · exact Or.inl ht
              · right
                refine ⟨⟨r, mn, mx⟩, ?_, rfl, ht⟩
                rw [if_pos hk'.1, List.mem_map]
                exact ⟨(k, r), (SMap.mem_iff_find? ((h.lv l hl).tab v hvm).1).2 hg, rfl⟩
            · left
              have hk2 : (!(chk && isTomb drop mn mx r)) = true := by
                cases hx : (chk && isTomb drop mn mx r) with
                | false => rfl
                | true => exact absurd hx hk
              rw [hk2, if_pos rfl, h5]

/-- The record to which the callback says DROP was the lowest of its key and is removed. -/
theorem compactInPlaceCbOp_drops {c : TCfg K} {t : TMgr K} (h : Inv c t) (i n : Nat) (pres : Bool)
    (drop : CbParams K → Bool) {p : CbParams K} (hp : p ∈ (t.compactInPlaceCbOp i n pres drop).2)
    (hd : drop p = true) :
    stack c t p.record.key = stack c (t.compactInPlaceCbOp i n pres drop).1 p.record.key ++ [p.record] := by
  unfold compactInPlaceCbOp at hp ⊢
  split at hp
  · cases hp
  · next l b hdr =>
    have hlv := drop_split hdr
    have hl : l ∈ t.lv := by rw [hlv]; simp
    split at hp
    · cases hp
    · next v hv =>
      have hvm := (find_mem hv).1
      have hvt := (h.lv l hl).tab v hvm
      generalize hchk : (b.isEmpty && !pres) = chk at hp ⊢
      dsimp only at hp ⊢
      unfold compactInPlaceCb at hp ⊢
      dsimp only at hp ⊢
      generalize hmn : v.recs.head?.map (·.1) = mn at *
      generalize hmx : v.recs.getLast?.map (·.1) = mx at *
      have hrec : (compactTo drop chk v).1 =
          v.recs.filter (fun e => (fun r => !(chk && isTomb drop mn mx r)) e.2) := by
        unfold compactTo; rw [hmn, hmx]; exact cbLoop_recs _ _ _ _ _
      have hcalls : (compactTo drop chk v).2 = if chk then v.recs.map (fun e => ⟨e.2, mn, mx⟩) else [] := by
        unfold compactTo; rw [hmn, hmx]; exact cbLoop_calls _ _ _ _ _
      rw [hcalls] at hp
      rw [hrec]
      obtain ⟨-, -, -, h4⟩ := filterTable_ok (h.lv l hl) (h.lvNum l hl) hvm
        (fun r => !(chk && isTomb drop mn mx r))
      generalize removeTable (addTable l _) v.number = l' at h4 ⊢
      cases chk with
      | false => cases hp
      | true =>
        rw [Bool.and_eq_true, List.isEmpty_iff] at hchk
        simp only [if_true, List.mem_map] at hp
        obtain ⟨e, he, rfl⟩ := hp
        dsimp only at hd ⊢
        have hkey : e.2.key = e.1 := (hvt.2.1 e he).1
        have hg : v.get e.1 = some e.2 := (SMap.mem_iff_find? hvt.1).1 he
        rw [hkey]
        obtain ⟨h5, h6⟩ := h4 e.1 e.2 hg
        have h7 : isTomb drop mn mx e.2 = true := by unfold isTomb; rw [hd]; simp
        rw [h7] at h6
        simp only [Bool.and_self, Bool.not_true, Bool.false_eq_true, if_false] at h6
        rw [hchk.1]
        have e1 : stack c t e.1 = (((t.normOf (c.hash e.1 % t.parts)).bind (·.get e.1)).toList ++
            ((t.srcOf (c.hash e.1 % t.parts)).bind (·.get e.1)).toList) ++ lvStack (t.lv.take i ++ [l]) e.1 := by
          unfold stack; rw [← hchk.1, ← hlv]
        have e2 : stack c { t with nextNum := t.nextNum + 1, lv := t.lv.take i ++ [l'] } e.1 =
            (((t.normOf (c.hash e.1 % t.parts)).bind (·.get e.1)).toList ++
            ((t.srcOf (c.hash e.1 % t.parts)).bind (·.get e.1)).toList) ++ lvStack (t.lv.take i ++ [l']) e.1 := rfl
        rw [e1, e2, lvStack_append, lvStack_append, lvStack_cons, lvStack_cons, h5, h6]
        simp [lvStack]

end TMgr
end Jungle
