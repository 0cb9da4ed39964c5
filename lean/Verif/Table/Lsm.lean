/-
  Maintenance of the table section keeps the invariant and what a reader sees; instance of
  `TableSys`.
-/
import Verif.Table.Stack
import Verif.DB.Model

set_option linter.unusedSectionVars false

namespace Jungle
namespace TMgr
variable {K : Type} [LinearOrder K] [OrderBot K]

/-- The new topmost record `a` of a key against the old one `b`: the same, or a deletion is gone. -/
def Top (a b : Option (Rec K)) : Prop := a = b ∨ (a = none ∧ ∃ r, b = some r ∧ r.isDel = true)

theorem Top.vis {a b : Option (Rec K)} (h : Top a b) : Spec.vis a = Spec.vis b := by
  rcases h with h | ⟨h1, r, h2, h3⟩
  · rw [h]
  · rw [h1, h2]; simp [Spec.vis, h3]

theorem Top.refl (a : Option (Rec K)) : Top a a := Or.inl rfl

theorem Top.del {r : Rec K} (h : r.isDel = true) : Top none (some r) := Or.inr ⟨rfl, r, rfl, h⟩

theorem top_or {a b b' : Option (Rec K)} (h : Top b b') : Top (a.or b) (a.or b') := by
  cases a with
  | none => simpa using h
  | some r => exact Or.inl rfl

theorem vis_or {a b b' : Option (Rec K)} (h : Spec.vis b = Spec.vis b') :
    Spec.vis (a.or b) = Spec.vis (a.or b') := by
  cases a with
  | none => simpa using h
  | some r => rfl

/-- `t'` is in good order, shows every reader what `t` shows, and the records of a key are those of
    `t` in the same order, some perhaps missing or repeated. -/
structure Same (c : TCfg K) (t t' : TMgr K) : Prop where
  inv : Inv c t'
  top : ∀ k, Top (t'.get c k) (t.get c k)
  img : ∀ k, Img (stack c t' k) (stack c t k)

theorem Same.vis {c : TCfg K} {t t' : TMgr K} (h : Same c t t') (k : K) :
    Spec.vis (t'.get c k) = Spec.vis (t.get c k) := (h.top k).vis

theorem Same.refl {c : TCfg K} {t : TMgr K} (h : Inv c t) : Same c t t :=
  ⟨h, fun _ => Or.inl rfl, fun _ => Img.refl _⟩

theorem Same.of_stack {c : TCfg K} {t t' : TMgr K} (h : Inv c t) (h' : Inv c t')
    (hs : ∀ k, stack c t' k = stack c t k) : Same c t t' :=
  ⟨h', fun k => by rw [get_eq_head h', get_eq_head h, hs k]; exact Top.refl _, fun k => by rw [hs k]; exact Img.refl _⟩

/-- Replacing the levels. -/
theorem same_lv {c : TCfg K} {t : TMgr K} (h : Inv c t) (lv : List (List (Tab K))) (n : Nat)
    (hn : t.nextNum ≤ n) (hok : ∀ l ∈ lv, LevelOk l) (hnum : ∀ l ∈ lv, ∀ x ∈ l, x.number < n)
    (hlook : ∀ k, Top (lv.findSome? (fun l => look l k)) (t.lvLook k))
    (himg : ∀ k, Img (lvStack lv k) (lvStack t.lv k)) :
    Same c t { t with lv := lv, nextNum := n } := by
  have hinv : Inv c { t with lv := lv, nextNum := n } :=
    ⟨h.pos, hok, hnum, h.nums, fun x hx => Nat.lt_of_lt_of_le (h.l0Num x hx) hn, h.l0Min, h.l0Recs,
      h.normEx, h.uniq⟩
  refine ⟨hinv, ?_, fun k => Img.append (Img.refl _) (himg k)⟩
  intro k
  rw [get_eq hinv, get_eq h]
  exact top_or (hlook k)

theorem findSome_append (a b : List (List (Tab K))) (k : K) :
    (a ++ b).findSome? (fun l => look l k) =
      (a.findSome? (fun l => look l k)).or (b.findSome? (fun l => look l k)) := by
  rw [List.findSome?_append]

theorem findSome_cons (l : List (Tab K)) (b : List (List (Tab K))) (k : K) :
    (l :: b).findSome? (fun l => look l k) = (look l k).or (b.findSome? (fun l => look l k)) := by
  rw [List.findSome?_cons]; cases look l k <;> rfl

theorem drop_split {α : Type} {l b : List α} {i : Nat} (h : l.drop i = b) : l = l.take i ++ b := by
  rw [← h, List.take_append_drop]

theorem mem_take_of {α : Type} {l : List α} {i : Nat} {x : α} (h : x ∈ l.take i) : x ∈ l :=
  List.mem_of_mem_take h

/-- One level changes, the levels above and below stay. -/
theorem same_one {c : TCfg K} {t : TMgr K} (h : Inv c t) {i : Nat} {l l' : List (Tab K)}
    {b : List (List (Tab K))} (hd : t.lv.drop i = l :: b) (n : Nat) (hn : t.nextNum ≤ n)
    (hok : LevelOk l') (hnum : ∀ x ∈ l', x.number < n)
    (hlook : ∀ k, look l' k = look l k ∨
      (look l' k = none ∧ b = [] ∧ ∃ r, look l k = some r ∧ r.isDel = true)) :
    Same c t { t with lv := t.lv.take i ++ l' :: b, nextNum := n } := by
  have hlv := drop_split hd
  apply same_lv h _ n hn
  · intro x hx
    rcases List.mem_append.1 hx with h1 | h1
    · exact h.lv x (mem_take_of h1)
    · rcases List.mem_cons.1 h1 with rfl | h2
      · exact hok
      · exact h.lv x (by rw [hlv]; simp [h2])
  · intro x hx y hy
    rcases List.mem_append.1 hx with h1 | h1
    · exact Nat.lt_of_lt_of_le (h.lvNum x (mem_take_of h1) y hy) hn
    · rcases List.mem_cons.1 h1 with rfl | h2
      · exact hnum y hy
      · exact Nat.lt_of_lt_of_le (h.lvNum x (by rw [hlv]; simp [h2]) y hy) hn
  · intro k
    unfold lvLook
    conv => rhs; rw [hlv]
    rw [findSome_append, findSome_append, findSome_cons, findSome_cons]
    apply top_or
    rcases hlook k with h1 | ⟨h1, h2, r, h3, h4⟩
    · rw [h1]; exact Top.refl _
    · rw [h1, h3, h2]; exact Top.del h4
  · intro k
    conv => rhs; rw [hlv]
    rw [lvStack_append, lvStack_append, lvStack_cons, lvStack_cons]
    refine Img.append (Img.refl _) (Img.append (Img.ofOption ?_) (Img.refl _))
    rcases hlook k with h1 | ⟨h1, _⟩
    · exact Or.inl h1
    · exact Or.inr h1

theorem find_mem {l : List (Tab K)} {n : Nat} {v : Tab K}
    (h : l.find? (fun x => decide (x.number = n)) = some v) : v ∈ l ∧ v.number = n := by
  refine ⟨List.mem_of_find?_eq_some h, ?_⟩
  have := List.find?_some h
  simpa using this

theorem compactInPlaceOp_same {c : TCfg K} {t : TMgr K} (h : Inv c t) (i n : Nat) (pres : Bool) :
    Same c t (t.compactInPlaceOp i n pres) := by
  unfold compactInPlaceOp
  split
  · exact Same.refl h
  · next l b hd =>
    have hlv := drop_split hd
    have hl : l ∈ t.lv := by rw [hlv]; simp
    split
    · exact Same.refl h
    · next v hv =>
      obtain ⟨h1, h2, h3⟩ := compactInPlace_ok (h.lv l hl) (h.lvNum l hl) (find_mem hv).1
        (b.isEmpty && !pres)
      refine same_one h hd (t.nextNum + 1) (Nat.le_succ _) h1 h2 ?_
      intro k
      rcases h3 k with h4 | ⟨h4, h5, h6⟩
      · exact Or.inl h4
      · right
        simp only [Bool.and_eq_true, List.isEmpty_iff] at h5
        exact ⟨h4, h5.1, h6⟩

theorem splitOp_same {c : TCfg K} {t : TMgr K} (h : Inv c t) (i n : Nat) (cut : Nat → Bool) :
    Same c t (t.splitOp i n cut) := by
  unfold splitOp
  split
  · exact Same.refl h
  · next l b hd =>
    have hlv := drop_split hd
    have hl : l ∈ t.lv := by rw [hlv]; simp
    split
    · exact Same.refl h
    · next v hv =>
      obtain ⟨h1, h2, h3, h4⟩ := splitTable_ok (h.lv l hl) (h.lvNum l hl) (find_mem hv).1 cut
      exact same_one h hd _ h3 h1 h2 (fun k => Or.inl (h4 k))

theorem mergeOp_same {c : TCfg K} {t : TMgr K} (h : Inv c t) (i n : Nat) :
    Same c t (t.mergeOp c i n) := by
  unfold mergeOp
  split
  · exact Same.refl h
  · next l b hd =>
    have hlv := drop_split hd
    have hl : l ∈ t.lv := by rw [hlv]; simp
    split
    · exact Same.refl h
    · next v hv =>
      obtain ⟨h1, h2, h3⟩ := mergeTable_ok (h.lv l hl) (find_mem hv).1 (c.purge && b.isEmpty)
      refine same_one h hd t.nextNum (Nat.le_refl _) h1 (h2 _ (h.lvNum l hl)) ?_
      intro k
      rcases h3 k with h4 | ⟨h4, h5, h6⟩
      · exact Or.inl h4
      · right
        simp only [Bool.and_eq_true, List.isEmpty_iff] at h5
        exact ⟨h4, h5.2, h6⟩

theorem compactPair_ok {c : TCfg K} {num : Nat} {up down : List (Tab K)} (hu : LevelOk up)
    (hd : LevelOk down) (hun : ∀ x ∈ up, x.number < num) (hdn : ∀ x ∈ down, x.number < num)
    {v : Tab K} (hv : v ∈ up) (last : Bool) (full : Nat → Bool) (refill : Bool) :
    let r := compactPair c num up down last v full refill
    LevelOk r.1 ∧ LevelOk r.2.1 ∧ num ≤ r.2.2 ∧ (∀ x ∈ r.1, x.number < r.2.2) ∧
    (∀ x ∈ r.2.1, x.number < r.2.2) ∧
    (∀ k, (look r.1 k).or (look r.2.1 k) = (look up k).or (look down k) ∨
      ((look r.1 k).or (look r.2.1 k) = none ∧ last = true ∧ ∃ x, look up k = some x ∧ x.isDel = true)) ∧
    (∀ k, Img ((look r.1 k).toList ++ (look r.2.1 k).toList) ((look up k).toList ++ (look down k).toList)) := by
  intro r
  have hvt := hu.tab v hv
  obtain ⟨m1, m2, m3, m4, m5⟩ := mergeInto_ok hd hdn hvt.1 (fun e he => (hvt.2.1 e he).1)
    (fun e he => (hvt.2.1 e he).2) (c.purge && last) full
  have hval : ∀ (a : Option (Rec K)) (k : K), (v.get k = none → a = look up k) → (∀ x, v.get k = some x → a = none) →
      (a.or (look (mergeInto down num v.minKey v.recs (c.purge && last) full).1 k) =
        (look up k).or (look down k) ∨
      (a.or (look (mergeInto down num v.minKey v.recs (c.purge && last) full).1 k) = none ∧ last = true ∧
        ∃ x, look up k = some x ∧ x.isDel = true)) := by
    intro a k h1 h2
    cases hg : v.get k with
    | none => left; rw [h1 hg, m5 k hg]
    | some x =>
      have hlu := ((look_remove hu hv k).2 x hg).2
      rw [h2 x hg, hlu]
      rcases m4 k x hg with h3 | ⟨h3, h4, h5⟩
      · left; rw [h3]; rfl
      · right
        simp only [Bool.and_eq_true] at h4
        exact ⟨by rw [h3]; rfl, h4.2, x, rfl, h5⟩
  have himg : ∀ (a : Option (Rec K)) (k : K), (v.get k = none → a = look up k) → (∀ x, v.get k = some x → a = none) →
      Img (a.toList ++ (look (mergeInto down num v.minKey v.recs (c.purge && last) full).1 k).toList)
        ((look up k).toList ++ (look down k).toList) := by
    intro a k h1 h2
    cases hg : v.get k with
    | none => rw [h1 hg, m5 k hg]; exact Img.refl _
    | some x =>
      have hlu := ((look_remove hu hv k).2 x hg).2
      rw [h2 x hg, hlu]
      rcases m4 k x hg with h3 | ⟨h3, _⟩
      · rw [h3]; exact Img.keep (Img.nil_left _)
      · rw [h3]; exact Img.nil_left _
  show LevelOk (compactPair c num up down last v full refill).1 ∧ _
  unfold r compactPair
  simp only
  cases refill with
  | false =>
    simp only [Bool.false_eq_true, if_false]
    refine ⟨hu.removeTable _, m1, m3, ?_, m2, ?_, ?_⟩
    · intro x hx; exact Nat.lt_of_lt_of_le (hun x (mem_removeTable.1 hx).1) m3
    · intro k
      exact hval _ k (look_remove hu hv k).1 (fun x hx => ((look_remove hu hv k).2 x hx).1)
    · intro k
      exact himg _ k (look_remove hu hv k).1 (fun x hx => ((look_remove hu hv k).2 x hx).1)
  | true =>
    simp only [if_true]
    generalize mergeInto down num v.minKey v.recs (c.purge && last) full = m at *
    have hrep := replace_ok hu hv [({ number := m.2, minKey := v.minKey } : Tab K)] (fun _ => False)
      (by simp) (by simp) (by simp)
      (by
        intro x hx
        simp only [List.mem_singleton] at hx
        subst hx
        exact ⟨List.Pairwise.nil, ⟨(by intro e he; cases he), rfl⟩⟩)
      (by simp)
      (by
        intro x hx t ht
        simp only [List.mem_singleton] at hx
        subst hx
        have := hun t ht
        simp only; omega)
      (by
        intro k r
        simp only [List.mem_singleton, exists_eq_left, and_false, iff_false]
        intro h; cases h)
    obtain ⟨r1, r2, r3, r4⟩ := hrep
    have heq : removeTable ([({ number := m.2, minKey := v.minKey } : Tab K)].foldl addTable up) v.number =
        addTable (removeTable up v.number) { number := m.2, minKey := v.minKey } := by
      simp only [List.foldl_cons, List.foldl_nil]
      apply remove_addTable (hu.sorted.imp (fun h => le_of_lt h))
      have := hun v hv
      simp only; omega
    rw [heq] at r1 r2 r3 r4
    refine ⟨r1, m1, by omega, ?_, ?_, ?_, ?_⟩
    · intro x hx
      rcases (r2 x).1 hx with h1 | ⟨h1, _⟩
      · simp only [List.mem_singleton] at h1; subst h1; simp
      · have := hun x h1; omega
    · intro x hx; have := m2 x hx; omega
    · intro k
      exact hval _ k (fun hg => by rw [r4 k hg]) (fun x hx => (r3 k x hx).2 (fun h => h))
    · intro k
      exact himg _ k (fun hg => by rw [r4 k hg]) (fun x hx => (r3 k x hx).2 (fun h => h))

theorem compactLevel_same {c : TCfg K} {t : TMgr K} (h : Inv c t) (i n : Nat) (full : Nat → Bool)
    (refill : Bool) : Same c t (t.compactLevel c i n full refill) := by
  unfold compactLevel
  split
  · exact Same.refl h
  · next l hd =>
    have hlv := drop_split hd
    have hl : l ∈ t.lv := by rw [hlv]; simp
    split
    · exact Same.refl h
    · rw [migrate_eq (h.lv l hl)]
      have := same_lv h (t.lv.take i ++ [[], l]) t.nextNum (Nat.le_refl _)
        (by
          intro x hx
          rcases List.mem_append.1 hx with h1 | h1
          · exact h.lv x (mem_take_of h1)
          · simp only [List.mem_cons, List.not_mem_nil, or_false] at h1
            rcases h1 with rfl | rfl
            · exact LevelOk.nil
            · exact h.lv _ hl)
        (by
          intro x hx y hy
          rcases List.mem_append.1 hx with h1 | h1
          · exact h.lvNum x (mem_take_of h1) y hy
          · simp only [List.mem_cons, List.not_mem_nil, or_false] at h1
            rcases h1 with rfl | rfl
            · cases hy
            · exact h.lvNum _ hl y hy)
        (by
          intro k
          unfold lvLook
          conv => rhs; rw [hlv]
          rw [findSome_append, findSome_append, findSome_cons, findSome_cons]
          have : look ([] : List (Tab K)) k = none := rfl
          rw [this]; exact Top.refl _)
        (by
          intro k
          conv => rhs; rw [hlv]
          rw [lvStack_append, lvStack_append, lvStack_cons]
          exact Img.refl _)
      exact this
  · next up down b hd =>
    have hlv := drop_split hd
    have hu : up ∈ t.lv := by rw [hlv]; simp
    have hdn : down ∈ t.lv := by rw [hlv]; simp
    split
    · exact Same.refl h
    · next v hv =>
      obtain ⟨p1, p2, p3, p4, p5, p6, p7⟩ := compactPair_ok (c := c) (h.lv up hu) (h.lv down hdn)
        (h.lvNum up hu) (h.lvNum down hdn) (find_mem hv).1 b.isEmpty full refill
      simp only
      generalize compactPair c t.nextNum up down b.isEmpty v full refill = r at *
      apply same_lv h _ r.2.2 p3
      · intro x hx
        simp only [List.mem_append, List.mem_cons] at hx
        rcases hx with h1 | rfl | rfl | h1
        · exact h.lv x (mem_take_of h1)
        · exact p1
        · exact p2
        · exact h.lv x (by rw [hlv]; simp [h1])
      · intro x hx y hy
        simp only [List.mem_append, List.mem_cons] at hx
        rcases hx with h1 | rfl | rfl | h1
        · exact Nat.lt_of_lt_of_le (h.lvNum x (mem_take_of h1) y hy) p3
        · exact p4 y hy
        · exact p5 y hy
        · exact Nat.lt_of_lt_of_le (h.lvNum x (by rw [hlv]; simp [h1]) y hy) p3
      · intro k
        unfold lvLook
        conv => rhs; rw [hlv]
        rw [findSome_append, findSome_append, findSome_cons, findSome_cons, findSome_cons,
          findSome_cons]
        apply top_or
        rw [← Option.or_assoc, ← Option.or_assoc]
        rcases p6 k with h1 | ⟨h1, h2, x, h3, h4⟩
        · rw [h1]; exact Top.refl _
        · rw [h1, h3]
          rw [List.isEmpty_iff] at h2
          rw [h2]; exact Top.del h4
      · intro k
        conv => rhs; rw [hlv]
        rw [lvStack_append, lvStack_append, lvStack_cons, lvStack_cons, lvStack_cons, lvStack_cons]
        refine Img.append (Img.refl _) ?_
        rw [← List.append_assoc, ← List.append_assoc (look up k).toList]
        exact Img.append (p7 k) (Img.refl _)

theorem compactLevelCancel_same {c : TCfg K} {t : TMgr K} (h : Inv c t) (i n : Nat)
    (full : Nat → Bool) (done : K → Nat) : Same c t (t.compactLevelCancel c i n full done) := by
  unfold compactLevelCancel
  split
  · next up down b hd =>
    have hlv := drop_split hd
    have hu : up ∈ t.lv := by rw [hlv]; simp
    have hdn : down ∈ t.lv := by rw [hlv]; simp
    split
    · exact Same.refl h
    · next v hv =>
      have hvu := (find_mem hv).1
      have hvt := (h.lv up hu).tab v hvu
      obtain ⟨p1, p2, p3, p4⟩ := mergePart_ok (h.lv down hdn) hvt.1 (fun e he => (hvt.2.1 e he).1)
        (fun e he => (hvt.2.1 e he).2) (c.purge && b.isEmpty) full done
      have := same_lv h (t.lv.take i ++ up ::
          mergePart down v.minKey v.recs (c.purge && b.isEmpty) full done :: b) t.nextNum
        (Nat.le_refl _)
        (by
          intro x hx
          simp only [List.mem_append, List.mem_cons] at hx
          rcases hx with h1 | rfl | rfl | h1
          · exact h.lv x (mem_take_of h1)
          · exact h.lv _ hu
          · exact p1
          · exact h.lv x (by rw [hlv]; simp [h1]))
        (by
          intro x hx y hy
          simp only [List.mem_append, List.mem_cons] at hx
          rcases hx with h1 | rfl | rfl | h1
          · exact h.lvNum x (mem_take_of h1) y hy
          · exact h.lvNum _ hu y hy
          · have : y.number ∈ down.map (·.number) := by rw [← p2]; exact List.mem_map_of_mem hy
            obtain ⟨z, hz, hzn⟩ := List.mem_map.1 this
            rw [← hzn]; exact h.lvNum down hdn z hz
          · exact h.lvNum x (by rw [hlv]; simp [h1]) y hy)
        (by
          intro k
          unfold lvLook
          conv => rhs; rw [hlv]
          rw [findSome_append, findSome_append, findSome_cons, findSome_cons, findSome_cons,
            findSome_cons]
          cases hg : v.get k with
          | none => rw [p3 k hg]; exact Top.refl _
          | some x => rw [((look_remove (h.lv up hu) hvu k).2 x hg).2]; exact top_or (Top.refl _))
        (by
          intro k
          conv => rhs; rw [hlv]
          rw [lvStack_append, lvStack_append, lvStack_cons, lvStack_cons, lvStack_cons, lvStack_cons]
          refine Img.append (Img.refl _) ?_
          cases hg : v.get k with
          | none => rw [p3 k hg]; exact Img.refl _
          | some x =>
            rw [((look_remove (h.lv up hu) hvu k).2 x hg).2]
            rcases p4 k x hg with h1 | h1 | h1
            · rw [h1]; exact Img.refl _
            · rw [h1]; exact Img.dup (Img.keep (Img.skips (look down k).toList (Img.refl _)))
            · rw [h1]; exact Img.keep (Img.skips (look down k).toList (Img.refl _)))
      exact this
  · exact Same.refl h

/-! ### Level 0 -/

/-- New lookup functions for level 0 give the same answers. -/
theorem compactL0Begin_same {c : TCfg K} {t : TMgr K} (h : Inv c t) {p : Nat} (hp : p < t.parts) :
    Same c t (t.compactL0Begin p) := by
  unfold compactL0Begin
  simp only
  split
  · exact Same.refl h
  · next hany =>
    obtain ⟨x, hx⟩ := normOf_some h hp
    have hx' := (normOf_iff h p x).1 hx
    rw [smallestNormal_part h hp hx]
    simp only
    have hnosrc : ∀ y ∈ t.l0, y.hashNum = p → y.status ≠ .compactSrc := by
      intro y hy hyp hys
      apply hany
      rw [List.any_eq_true]
      refine ⟨y, ?_, by simp [hys]⟩
      rw [tablesByHash_eq t hp, List.mem_filter]
      exact ⟨hy, by simp [hyp]⟩
    have hmem : ∀ y, y ∈ modify (({ number := t.nextNum, hashNum := p, minKey := ⊥ } : Tab K) :: t.l0)
        x.number (fun y => { y with status := .compactSrc }) ↔
        y = { number := t.nextNum, hashNum := p, minKey := ⊥ } ∨
        y = { x with status := .compactSrc } ∨ (y ∈ t.l0 ∧ y ≠ x) := by
      intro y
      rw [mem_modify]
      have hxn := h.l0Num x hx'.1
      constructor
      · rintro ⟨z, hz, rfl⟩
        rcases List.mem_cons.1 hz with rfl | hz
        · left
          rw [if_neg]; simp only; omega
        · right
          by_cases hzn : z.number = x.number
          · rw [if_pos hzn, eq_of_number h.nums hz hx'.1 hzn]; exact Or.inl rfl
          · rw [if_neg hzn]; exact Or.inr ⟨hz, fun he => hzn (by rw [he])⟩
      · rintro (rfl | rfl | ⟨h1, h2⟩)
        · refine ⟨_, List.mem_cons_self, ?_⟩
          rw [if_neg]; simp only; omega
        · exact ⟨x, List.mem_cons_of_mem _ hx'.1, by rw [if_pos rfl]⟩
        · refine ⟨y, List.mem_cons_of_mem _ h1, ?_⟩
          rw [if_neg]
          intro hn; exact h2 (eq_of_number h.nums h1 hx'.1 hn)
    generalize hl0 : modify (({ number := t.nextNum, hashNum := p, minKey := ⊥ } : Tab K) :: t.l0)
        x.number (fun y => { y with status := .compactSrc }) = l0' at *
    have hnums : (l0'.map (·.number)).Nodup := by
      rw [← hl0]
      have : (modify (({ number := t.nextNum, hashNum := p, minKey := ⊥ } : Tab K) :: t.l0) x.number
          (fun y => { y with status := .compactSrc })).map (·.number) = t.nextNum :: t.l0.map (·.number) := by
        unfold modify
        rw [List.map_map, ← List.map_cons (f := fun x : Tab K => x.number)
          (a := ({ number := t.nextNum, hashNum := p, minKey := ⊥ } : Tab K))]
        apply List.map_congr_left
        intro y _
        simp only [Function.comp]
        split <;> rfl
      rw [this, List.nodup_cons]
      refine ⟨?_, h.nums⟩
      intro hc
      obtain ⟨z, hz, hzn⟩ := List.mem_map.1 hc
      have := h.l0Num z hz; omega
    have hinv : Inv c { t with nextNum := t.nextNum + 1, l0 := l0' } := by
      refine ⟨h.pos, h.lv, fun l hl y hy => Nat.lt_succ_of_lt (h.lvNum l hl y hy), hnums, ?_, ?_, ?_, ?_, ?_⟩
      · intro y hy
        rcases (hmem y).1 hy with rfl | rfl | hy
        · simp
        · have := h.l0Num x hx'.1; simp only; omega
        · have := h.l0Num y hy.1; simp only; omega
      · intro y hy
        rcases (hmem y).1 hy with rfl | rfl | hy
        · rfl
        · exact h.l0Min x hx'.1
        · exact h.l0Min y hy.1
      · intro y hy
        rcases (hmem y).1 hy with rfl | rfl | hy
        · exact ⟨List.Pairwise.nil, by intro e he; cases he⟩
        · exact h.l0Recs x hx'.1
        · exact h.l0Recs y hy.1
      · intro q hq
        by_cases hqp : q = p
        · exact ⟨_, (hmem _).2 (Or.inl rfl), hqp.symm, rfl⟩
        · obtain ⟨y, h1, h2, h3⟩ := h.normEx q hq
          refine ⟨y, (hmem y).2 (Or.inr (Or.inr ⟨h1, ?_⟩)), h2, h3⟩
          rintro rfl
          exact hqp (h2.symm.trans hx'.2.1)
      · intro y hy z hz hh hs
        rcases (hmem y).1 hy with rfl | rfl | hy <;> rcases (hmem z).1 hz with rfl | rfl | hz
        · rfl
        · simp at hs
        · exact absurd (h.uniq z hz.1 x hx'.1 (by rw [← hh, hx'.2.1]) (by rw [← hs, hx'.2.2])) hz.2
        · simp at hs
        · rfl
        · exact absurd hs.symm (hnosrc z hz.1 (by rw [← hh]; exact hx'.2.1))
        · exact absurd (h.uniq y hy.1 x hx'.1 (by rw [hh, hx'.2.1]) (by rw [hs, hx'.2.2])) hy.2
        · exact absurd hs (hnosrc y hy.1 (by rw [hh]; exact hx'.2.1))
        · exact h.uniq y hy.1 z hz.1 hh hs
    refine Same.of_stack h hinv ?_
    intro k
    have hk := Nat.mod_lt (c.hash k) h.pos
    unfold stack
    show (((TMgr.normOf { t with nextNum := t.nextNum + 1, l0 := l0' } (c.hash k % t.parts)).bind _).toList ++
      ((TMgr.srcOf { t with nextNum := t.nextNum + 1, l0 := l0' } (c.hash k % t.parts)).bind _).toList) ++
      lvStack t.lv k = _
    by_cases hkp : c.hash k % t.parts = p
    · rw [hkp, hx]
      rw [(normOf_iff hinv p _).2 ⟨(hmem _).2 (Or.inl rfl), rfl, rfl⟩]
      rw [(srcOf_iff hinv hp _).2 ⟨(hmem _).2 (Or.inr (Or.inl rfl)), hx'.2.1, rfl⟩]
      have : t.srcOf p = none := by
        cases hs : t.srcOf p with
        | none => rfl
        | some y =>
          have hy := (srcOf_iff h hp y).1 hs
          exact absurd hy.2.2 (hnosrc y hy.1 hy.2.1)
      rw [this]
      simp only [Option.bind_some, Option.bind_none, Option.toList_none, List.append_nil]
      rfl
    · have e1 : TMgr.normOf { t with nextNum := t.nextNum + 1, l0 := l0' } (c.hash k % t.parts) =
          t.normOf (c.hash k % t.parts) := by
        apply Option.ext; intro y
        rw [normOf_iff hinv, normOf_iff h]
        simp only
        constructor
        · rintro ⟨h1, h2, h3⟩
          rcases (hmem y).1 h1 with rfl | rfl | hy
          · exact absurd h2.symm hkp
          · cases h3
          · exact ⟨hy.1, h2, h3⟩
        · rintro ⟨h1, h2, h3⟩
          refine ⟨(hmem y).2 (Or.inr (Or.inr ⟨h1, ?_⟩)), h2, h3⟩
          rintro rfl
          exact hkp (h2.symm.trans hx'.2.1)
      have e2 : TMgr.srcOf { t with nextNum := t.nextNum + 1, l0 := l0' } (c.hash k % t.parts) =
          t.srcOf (c.hash k % t.parts) := by
        apply Option.ext; intro y
        rw [srcOf_iff hinv hk, srcOf_iff h hk]
        simp only
        constructor
        · rintro ⟨h1, h2, h3⟩
          rcases (hmem y).1 h1 with rfl | rfl | hy
          · cases h3
          · exact absurd (h2.symm.trans hx'.2.1) hkp
          · exact ⟨hy.1, h2, h3⟩
        · rintro ⟨h1, h2, h3⟩
          refine ⟨(hmem y).2 (Or.inr (Or.inr ⟨h1, ?_⟩)), h2, h3⟩
          rintro rfl
          exact hkp (h2.symm.trans hx'.2.1)
      rw [e1, e2]

/-- Level 0 gets smaller by its source table. -/
theorem inv_removeSrc {c : TCfg K} {t : TMgr K} (h : Inv c t) {v : Tab K} (hv : v ∈ t.l0)
    (hs : v.status = .compactSrc) (lv : List (List (Tab K))) (n : Nat) (hn : t.nextNum ≤ n)
    (hok : ∀ l ∈ lv, LevelOk l) (hnum : ∀ l ∈ lv, ∀ x ∈ l, x.number < n) :
    Inv c { t with nextNum := n, lv := lv, l0 := removeTable t.l0 v.number } := by
  have hmem : ∀ y, y ∈ removeTable t.l0 v.number ↔ y ∈ t.l0 ∧ y.number ≠ v.number :=
    fun y => mem_removeTable
  refine ⟨h.pos, hok, hnum, ?_, ?_, ?_, ?_, ?_, ?_⟩
  · exact List.Nodup.sublist (List.Sublist.map _ List.filter_sublist) h.nums
  · intro y hy; exact Nat.lt_of_lt_of_le (h.l0Num y ((hmem y).1 hy).1) hn
  · intro y hy; exact h.l0Min y ((hmem y).1 hy).1
  · intro y hy; exact h.l0Recs y ((hmem y).1 hy).1
  · intro q hq
    obtain ⟨y, h1, h2, h3⟩ := h.normEx q hq
    refine ⟨y, (hmem y).2 ⟨h1, ?_⟩, h2, h3⟩
    intro he
    rw [eq_of_number h.nums h1 hv he, hs] at h3; cases h3
  · intro y hy z hz; exact h.uniq y ((hmem y).1 hy).1 z ((hmem z).1 hz).1

/-- The second half of a level-0 compaction, whatever way the records were put into level 1. -/
theorem l0End_of {c : TCfg K} {t : TMgr K} (h : Inv c t) {p : Nat} (hp : p < t.parts) {v : Tab K}
    (hsv : t.srcOf p = some v) {l : List (Tab K)} {ls : List (List (Tab K))}
    (hlv : (if t.lv.isEmpty = true then [[]] else t.lv) = l :: ls) (m : List (Tab K) × Nat)
    (m1 : LevelOk m.1) (m2 : ∀ x ∈ m.1, x.number < m.2) (m3 : t.nextNum ≤ m.2)
    (m4 : ∀ k r, v.recs.find? k = some r → look m.1 k = some r ∨
      (look m.1 k = none ∧ (c.purge && ls.isEmpty) = true ∧ r.isDel = true))
    (m5 : ∀ k, v.recs.find? k = none → look m.1 k = look l k) :
    Same c t { t with nextNum := m.2, lv := m.1 :: ls, l0 := removeTable t.l0 v.number } := by
  have hv := (srcOf_iff h hp v).1 hsv
  have hvr := h.l0Recs v hv.1
  have hlvok : ∀ y ∈ l :: ls, LevelOk y ∧ ∀ x ∈ y, x.number < t.nextNum := by
    rw [← hlv]
    intro l hl
    split at hl
    · simp only [List.mem_singleton] at hl; subst hl
      exact ⟨LevelOk.nil, by simp⟩
    · exact ⟨h.lv l hl, h.lvNum l hl⟩
  have hlook : ∀ k, (l :: ls).findSome? (fun l => look l k) = t.lvLook k := by
    intro k
    rw [← hlv]
    split
    · next he => rw [List.isEmpty_iff] at he; unfold lvLook; rw [he]; rfl
    · rfl
  have hstk : ∀ k, lvStack (l :: ls) k = lvStack t.lv k := by
    intro k
    rw [← hlv]
    split
    · next he => rw [List.isEmpty_iff] at he; rw [he]; rfl
    · rfl
  have hinv := inv_removeSrc h hv.1 hv.2.2 (m.1 :: ls) m.2 m3
    (by
      intro x hx
      rcases List.mem_cons.1 hx with rfl | hx
      · exact m1
      · exact (hlvok x (List.mem_cons_of_mem _ hx)).1)
    (by
      intro x hx y hy
      rcases List.mem_cons.1 hx with rfl | hx
      · exact m2 y hy
      · exact Nat.lt_of_lt_of_le ((hlvok x (List.mem_cons_of_mem _ hx)).2 y hy) m3)
  suffices key : ∀ k, Top (TMgr.get c { t with nextNum := m.2, lv := m.1 :: ls, l0 := removeTable t.l0 v.number } k)
      (t.get c k) ∧
      Img (stack c { t with nextNum := m.2, lv := m.1 :: ls, l0 := removeTable t.l0 v.number } k) (stack c t k) from
    ⟨hinv, fun k => (key k).1, fun k => (key k).2⟩
  intro k
  have hk := Nat.mod_lt (c.hash k) h.pos
  rw [get_eq hinv, get_eq h, ← hlook k]
  have e1 : TMgr.normOf { t with nextNum := m.2, lv := m.1 :: ls, l0 := removeTable t.l0 v.number }
      (c.hash k % t.parts) = t.normOf (c.hash k % t.parts) := by
    apply Option.ext; intro y
    rw [normOf_iff hinv, normOf_iff h]
    simp only [mem_removeTable]
    constructor
    · rintro ⟨⟨h1, _⟩, h2⟩; exact ⟨h1, h2⟩
    · rintro ⟨h1, h2, h3⟩
      refine ⟨⟨h1, ?_⟩, h2, h3⟩
      intro he
      rw [eq_of_number h.nums h1 hv.1 he, hv.2.2] at h3; cases h3
  have e3 : TMgr.lvLook { t with nextNum := m.2, lv := m.1 :: ls, l0 := removeTable t.l0 v.number } k =
      (look m.1 k).or (ls.findSome? (fun l => look l k)) := findSome_cons _ _ _
  show Top ((((TMgr.normOf { t with nextNum := m.2, lv := m.1 :: ls, l0 := removeTable t.l0 v.number }
      (c.hash k % t.parts)).bind _).or ((TMgr.srcOf { t with nextNum := m.2, lv := m.1 :: ls, l0 := removeTable t.l0 v.number }
      (c.hash k % t.parts)).bind _)).or _) _ ∧
    Img ((((TMgr.normOf { t with nextNum := m.2, lv := m.1 :: ls, l0 := removeTable t.l0 v.number }
      (c.hash k % t.parts)).bind _).toList ++ ((TMgr.srcOf { t with nextNum := m.2, lv := m.1 :: ls, l0 := removeTable t.l0 v.number }
      (c.hash k % t.parts)).bind _).toList) ++ lvStack (m.1 :: ls) k) _
  unfold stack
  rw [e1, e3, findSome_cons, Option.or_assoc, Option.or_assoc, ← hstk k, lvStack_cons, lvStack_cons,
    List.append_assoc, List.append_assoc]
  suffices hsuf : Top (((TMgr.srcOf { t with nextNum := m.2, lv := m.1 :: ls, l0 := removeTable t.l0 v.number }
      (c.hash k % t.parts)).bind (·.get k)).or ((look m.1 k).or (ls.findSome? (fun l => look l k))))
      (((t.srcOf (c.hash k % t.parts)).bind (·.get k)).or ((look l k).or (ls.findSome? (fun l => look l k)))) ∧
      Img (((TMgr.srcOf { t with nextNum := m.2, lv := m.1 :: ls, l0 := removeTable t.l0 v.number }
      (c.hash k % t.parts)).bind (·.get k)).toList ++ ((look m.1 k).toList ++ lvStack ls k))
      (((t.srcOf (c.hash k % t.parts)).bind (·.get k)).toList ++ ((look l k).toList ++ lvStack ls k)) from
    ⟨top_or hsuf.1, Img.append (Img.refl _) hsuf.2⟩
  by_cases hkp : c.hash k % t.parts = p
  · rw [hkp, hsv]
    have : TMgr.srcOf { t with nextNum := m.2, lv := m.1 :: ls, l0 := removeTable t.l0 v.number } p = none := by
      cases hs : TMgr.srcOf { t with nextNum := m.2, lv := m.1 :: ls, l0 := removeTable t.l0 v.number } p with
      | none => rfl
      | some y =>
        exfalso
        have hy := (srcOf_iff hinv hp y).1 hs
        have hy1 := mem_removeTable.1 hy.1
        exact hy1.2 (by rw [h.uniq y hy1.1 v hv.1 (by rw [hy.2.1, hv.2.1]) (by rw [hy.2.2, hv.2.2])])
    rw [this]
    simp only [Option.bind_none, Option.none_or, Option.bind_some]
    cases hg : v.get k with
    | none => rw [m5 k hg]; exact ⟨Top.refl _, Img.refl _⟩
    | some r =>
      rcases m4 k r hg with h1 | ⟨h1, h2, h3⟩
      · rw [h1]; exact ⟨Or.inl rfl, Img.keep (Img.skips (look l k).toList (Img.refl _))⟩
      · rw [h1]
        simp only [Bool.and_eq_true, List.isEmpty_iff] at h2
        rw [h2.2]
        exact ⟨Top.del h3, Img.nil_left _⟩
  · have e2 : TMgr.srcOf { t with nextNum := m.2, lv := m.1 :: ls, l0 := removeTable t.l0 v.number }
        (c.hash k % t.parts) = t.srcOf (c.hash k % t.parts) := by
      apply Option.ext; intro y
      rw [srcOf_iff hinv hk, srcOf_iff h hk]
      simp only [mem_removeTable]
      constructor
      · rintro ⟨⟨h1, _⟩, h2⟩; exact ⟨h1, h2⟩
      · rintro ⟨h1, h2, h3⟩
        refine ⟨⟨h1, ?_⟩, h2, h3⟩
        intro he
        rw [eq_of_number h.nums h1 hv.1 he] at h2
        exact hkp (h2.symm.trans hv.2.1)
    rw [e2]
    have hg : v.get k = none := get_hash_none h hv.1 (by rw [hv.2.1]; exact hkp)
    rw [m5 k hg]
    exact ⟨Top.refl _, Img.refl _⟩

theorem compactL0End_same {c : TCfg K} {t : TMgr K} (h : Inv c t) {p : Nat} (hp : p < t.parts)
    (full : Nat → Bool) : Same c t (t.compactL0End c p full) := by
  unfold compactL0End
  split
  · exact Same.refl h
  · next v hsv =>
    have hv := (srcOf_iff h hp v).1 hsv
    have hvr := h.l0Recs v hv.1
    simp only
    generalize hlv : (if t.lv.isEmpty = true then [[]] else t.lv) = lv
    cases lv with
    | nil => exact Same.refl h
    | cons l ls =>
      have hl : LevelOk l ∧ ∀ x ∈ l, x.number < t.nextNum := by
        split at hlv
        · cases hlv; exact ⟨LevelOk.nil, by simp⟩
        · have hm : l ∈ t.lv := by rw [hlv]; simp
          exact ⟨h.lv l hm, h.lvNum l hm⟩
      obtain ⟨m1, m2, m3, m4, m5⟩ := mergeInto_ok hl.1 hl.2 hvr.1 (fun e he => (hvr.2 e he).1)
        (vmin := v.minKey) (by intro e _; rw [h.l0Min v hv.1]; exact bot_le) (c.purge && ls.isEmpty) full
      exact l0End_of h hp hsv hlv _ m1 m2 m3 m4 m5

theorem compactL0Cancel_same {c : TCfg K} {t : TMgr K} (h : Inv c t) {p : Nat} (hp : p < t.parts)
    (full : Nat → Bool) (done : K → Nat) : Same c t (t.compactL0Cancel c p full done) := by
  unfold compactL0Cancel
  split
  · next v l ls hsv hlv =>
    have hv := (srcOf_iff h hp v).1 hsv
    have hvr := h.l0Recs v hv.1
    have hl : l ∈ t.lv := by rw [hlv]; simp
    obtain ⟨m1, m2, m3, m4⟩ := mergePart_ok (h.lv l hl) hvr.1 (fun e he => (hvr.2 e he).1)
        (vmin := v.minKey) (by intro e _; rw [h.l0Min v hv.1]; exact bot_le) (c.purge && ls.isEmpty) full done
    generalize mergePart l v.minKey v.recs (c.purge && ls.isEmpty) full done = l' at *
    have hinv : Inv c { t with lv := l' :: ls } := by
      refine ⟨h.pos, ?_, ?_, h.nums, h.l0Num, h.l0Min, h.l0Recs, h.normEx, h.uniq⟩
      · intro x hx
        rcases List.mem_cons.1 hx with rfl | hx
        · exact m1
        · exact h.lv x (by rw [hlv]; simp [hx])
      · intro x hx y hy
        rcases List.mem_cons.1 hx with rfl | hx
        · have : y.number ∈ l.map (·.number) := by rw [← m2]; exact List.mem_map_of_mem hy
          obtain ⟨z, hz, hzn⟩ := List.mem_map.1 this
          rw [← hzn]; exact h.lvNum l hl z hz
        · exact h.lvNum x (by rw [hlv]; simp [hx]) y hy
    refine ⟨hinv, ?_, ?_⟩
    rotate_left
    · intro k
      show Img ((((t.normOf (c.hash k % t.parts)).bind (·.get k)).toList ++
        ((t.srcOf (c.hash k % t.parts)).bind (·.get k)).toList) ++ lvStack (l' :: ls) k) _
      unfold stack
      rw [hlv, lvStack_cons, lvStack_cons, List.append_assoc, List.append_assoc]
      refine Img.append (Img.refl _) ?_
      cases hg : v.get k with
      | none => rw [m3 k hg]; exact Img.refl _
      | some r =>
        have hkp : c.hash k % t.parts = p := by
          by_contra hne
          rw [get_hash_none h hv.1 (by rw [hv.2.1]; exact hne)] at hg; cases hg
        rw [hkp, hsv]
        simp only [Option.bind_some, hg]
        rcases m4 k r hg with h1 | h1 | h1
        · rw [h1]; exact Img.refl _
        · rw [h1]; exact Img.dup (Img.keep (Img.skips (look l k).toList (Img.refl _)))
        · rw [h1]; exact Img.keep (Img.skips (look l k).toList (Img.refl _))
    intro k
    left
    rw [get_eq hinv, get_eq h]
    have e1 : TMgr.normOf { t with lv := l' :: ls } = t.normOf := rfl
    have e2 : TMgr.srcOf { t with lv := l' :: ls } = t.srcOf := rfl
    have e3 : TMgr.lvLook { t with lv := l' :: ls } k = (look l' k).or (ls.findSome? (fun l => look l k)) :=
      findSome_cons _ _ _
    have e4 : t.lvLook k = (look l k).or (ls.findSome? (fun l => look l k)) := by
      unfold lvLook; rw [hlv]; exact findSome_cons _ _ _
    show (((TMgr.normOf { t with lv := l' :: ls } (c.hash k % t.parts)).bind _).or
      ((TMgr.srcOf { t with lv := l' :: ls } (c.hash k % t.parts)).bind _)).or _ = _
    rw [e1, e2, e3, e4]
    cases hg : v.get k with
    | none => rw [m3 k hg]
    | some r =>
      have hkp : c.hash k % t.parts = p := by
        by_contra hne
        rw [get_hash_none h hv.1 (by rw [hv.2.1]; exact hne)] at hg; cases hg
      rw [hkp, hsv]
      simp only [Option.bind_some, hg]
      cases (t.normOf p).bind (·.get k) <;> rfl
  · exact Same.refl h

theorem foldl_addTable_rev {xs acc : List (Tab K)} (hx : ∀ x ∈ xs, x.minKey = ⊥) :
    xs.foldl addTable acc = xs.reverse ++ acc := by
  induction xs generalizing acc with
  | nil => rfl
  | cons x xs ih =>
    simp only [List.foldl_cons]
    rw [addTable_front (by intro t _; rw [hx x List.mem_cons_self]; exact bot_le),
      ih (fun y hy => hx y (List.mem_cons_of_mem _ hy))]
    simp

theorem reopen_same {c : TCfg K} {t : TMgr K} (h : Inv c t) : Same c t t.reopen := by
  have hlv : t.lv.map (fun l => loadLevel none l []) = t.lv := by
    conv => rhs; rw [← List.map_id t.lv]
    exact List.map_congr_left (fun l hl => loadLevel_id (h.lv l hl))
  unfold reopen
  rw [hlv, foldl_addTable_rev h.l0Min, List.append_nil]
  have hmem : ∀ y, y ∈ t.l0.reverse ↔ y ∈ t.l0 := fun y => List.mem_reverse
  have hinv : Inv c { t with l0 := t.l0.reverse, lv := t.lv } := by
    refine ⟨h.pos, h.lv, h.lvNum, ?_, ?_, ?_, ?_, ?_, ?_⟩
    · simp only; rw [List.map_reverse, List.nodup_reverse]; exact h.nums
    · intro y hy; exact h.l0Num y ((hmem y).1 hy)
    · intro y hy; exact h.l0Min y ((hmem y).1 hy)
    · intro y hy; exact h.l0Recs y ((hmem y).1 hy)
    · intro q hq
      obtain ⟨y, h1, h2⟩ := h.normEx q hq
      exact ⟨y, (hmem y).2 h1, h2⟩
    · intro y hy z hz; exact h.uniq y ((hmem y).1 hy) z ((hmem z).1 hz)
  refine Same.of_stack h hinv ?_
  intro k
  have hk := Nat.mod_lt (c.hash k) h.pos
  unfold stack
  have e1 : TMgr.normOf { t with l0 := t.l0.reverse, lv := t.lv } (c.hash k % t.parts) =
      t.normOf (c.hash k % t.parts) := by
    apply Option.ext; intro y
    rw [normOf_iff hinv, normOf_iff h]; simp only [hmem]
  have e2 : TMgr.srcOf { t with l0 := t.l0.reverse, lv := t.lv } (c.hash k % t.parts) =
      t.srcOf (c.hash k % t.parts) := by
    apply Option.ext; intro y
    rw [srcOf_iff hinv hk, srcOf_iff h hk]; simp only [hmem]
  show (((TMgr.normOf { t with l0 := t.l0.reverse, lv := t.lv } (c.hash k % t.parts)).bind _).toList ++
      ((TMgr.srcOf { t with l0 := t.l0.reverse, lv := t.lv } (c.hash k % t.parts)).bind _).toList) ++ _ = _
  rw [e1, e2]

/-! ### Changing the number of partitions -/

/-- The levels are in good order and their table numbers were issued before. -/
def LvInv (t : TMgr K) : Prop :=
  (∀ l ∈ t.lv, LevelOk l) ∧ ∀ l ∈ t.lv, ∀ x ∈ l, x.number < t.nextNum

theorem pushDown_ok {c : TCfg K} {t : TMgr K} (h : LvInv t) {v : Tab K} (hs : v.recs.Sorted)
    (hk : ∀ e ∈ v.recs, e.2.key = e.1) (hm : v.minKey = ⊥) (full : Nat → Bool) :
    LvInv (t.pushDown c v full) ∧ t.nextNum ≤ (t.pushDown c v full).nextNum ∧
    (∀ k, v.get k = none → (t.pushDown c v full).lvLook k = t.lvLook k) ∧
    (∀ k r, v.get k = some r → Top ((t.pushDown c v full).lvLook k) (some r)) ∧
    (∀ k, Img (lvStack (t.pushDown c v full).lv k) ((v.get k).toList ++ lvStack t.lv k)) := by
  unfold pushDown
  simp only
  generalize hlv : (if t.lv.isEmpty = true then [[]] else t.lv) = lv
  have hlvok : ∀ l ∈ lv, LevelOk l ∧ ∀ x ∈ l, x.number < t.nextNum := by
    rw [← hlv]
    intro l hl
    split at hl
    · simp only [List.mem_singleton] at hl; subst hl
      exact ⟨LevelOk.nil, by simp⟩
    · exact ⟨h.1 l hl, h.2 l hl⟩
  have hlook : ∀ k, lv.findSome? (fun l => look l k) = t.lvLook k := by
    intro k
    rw [← hlv]
    split
    · next he => rw [List.isEmpty_iff] at he; unfold lvLook; rw [he]; rfl
    · rfl
  have hstk : ∀ k, lvStack lv k = lvStack t.lv k := by
    intro k
    rw [← hlv]
    split
    · next he => rw [List.isEmpty_iff] at he; rw [he]; rfl
    · rfl
  have hne : lv ≠ [] := by
    rw [← hlv]; split
    · simp
    · next he => intro h0; apply he; rw [h0]; rfl
  clear hlv
  cases lv with
  | nil => exact absurd rfl hne
  | cons l ls =>
    simp only
    have hl := hlvok l List.mem_cons_self
    obtain ⟨m1, m2, m3, m4, m5⟩ := mergeInto_ok hl.1 hl.2 hs hk
      (vmin := v.minKey) (by intro e _; rw [hm]; exact bot_le) (c.purge && ls.isEmpty) full
    generalize mergeInto l t.nextNum v.minKey v.recs (c.purge && ls.isEmpty) full = m at *
    have e3 : ∀ k, TMgr.lvLook { t with nextNum := m.2, lv := m.1 :: ls } k =
        (look m.1 k).or (ls.findSome? (fun l => look l k)) := fun k => findSome_cons _ _ _
    refine ⟨⟨?_, ?_⟩, m3, ?_, ?_, ?_⟩
    rotate_left 4
    · intro k
      rw [← hstk k, lvStack_cons, lvStack_cons]
      cases hg : v.get k with
      | none => rw [m5 k hg]; exact Img.refl _
      | some r =>
        rcases m4 k r hg with h1 | ⟨h1, _⟩
        · rw [h1]; exact Img.keep (Img.skips (look l k).toList (Img.refl _))
        · rw [h1]; exact Img.skip (Img.skips (look l k).toList (Img.refl _))
    · intro x hx
      rcases List.mem_cons.1 hx with rfl | hx
      · exact m1
      · exact (hlvok x (List.mem_cons_of_mem _ hx)).1
    · intro x hx y hy
      rcases List.mem_cons.1 hx with rfl | hx
      · exact m2 y hy
      · exact Nat.lt_of_lt_of_le ((hlvok x (List.mem_cons_of_mem _ hx)).2 y hy) m3
    · intro k hk
      rw [e3, ← hlook, findSome_cons, m5 k hk]
    · intro k r hg
      rw [e3]
      rcases m4 k r hg with h1 | ⟨h1, h2, h3⟩
      · rw [h1]; exact Or.inl rfl
      · rw [h1]
        simp only [Bool.and_eq_true, List.isEmpty_iff] at h2
        rw [h2.2]; exact Top.del h3

theorem pushDown_all {c : TCfg K} (full : Nat → Bool) (vs : List (Tab K)) {t : TMgr K} (h : LvInv t)
    (hs : ∀ v ∈ vs, v.recs.Sorted ∧ (∀ e ∈ v.recs, e.2.key = e.1) ∧ v.minKey = ⊥)
    (hc : ∀ a ∈ vs, ∀ b ∈ vs, ∀ k x y, a.get k = some x → b.get k = some y → x = y) :
    let t' := vs.foldl (fun t v => pushDown c t v full) t
    LvInv t' ∧ t.nextNum ≤ t'.nextNum ∧
    (∀ k, (∀ v ∈ vs, v.get k = none) → t'.lvLook k = t.lvLook k) ∧
    (∀ k r, (∃ v ∈ vs, v.get k = some r) → Top (t'.lvLook k) (some r)) ∧
    (∀ k, Img (lvStack t'.lv k) ((vs.filterMap (·.get k)).reverse ++ lvStack t.lv k)) := by
  induction vs generalizing t with
  | nil => exact ⟨h, Nat.le_refl _, fun _ _ => rfl, (by rintro k r ⟨v, hv, _⟩; cases hv), fun k => Img.refl _⟩
  | cons v vs ih =>
    have hv := hs v List.mem_cons_self
    obtain ⟨p1, p2, p3, p4, p5⟩ := pushDown_ok (c := c) h hv.1 hv.2.1 hv.2.2 full
    obtain ⟨i1, i2, i3, i4, i5⟩ := ih p1 (fun w hw => hs w (List.mem_cons_of_mem _ hw))
      (fun a ha b hb => hc a (List.mem_cons_of_mem _ ha) b (List.mem_cons_of_mem _ hb))
    simp only [List.foldl_cons]
    refine ⟨i1, Nat.le_trans p2 i2, ?_, ?_, ?_⟩
    rotate_left 2
    · intro k
      have h1 := Img.trans (i5 k) (Img.append (Img.refl _) (p5 k))
      rw [← List.append_assoc] at h1
      have h2 : ((v :: vs).filterMap (·.get k)).reverse = (vs.filterMap (·.get k)).reverse ++ (v.get k).toList := by
        rw [List.filterMap_cons]
        cases v.get k <;> simp
      rw [h2]; exact h1
    · intro k hk
      rw [i3 k (fun w hw => hk w (List.mem_cons_of_mem _ hw)), p3 k (hk v List.mem_cons_self)]
    · rintro k r ⟨w, hw, hg⟩
      by_cases hex : ∃ u ∈ vs, u.get k = some r
      · exact i4 k r hex
      · have hnone : ∀ u ∈ vs, u.get k = none := by
          intro u hu
          cases hg' : u.get k with
          | none => rfl
          | some y =>
            exfalso
            have := hc w hw u (List.mem_cons_of_mem _ hu) k r y hg hg'
            exact hex ⟨u, hu, by rw [hg', this]⟩
        rw [i3 k hnone]
        rcases List.mem_cons.1 hw with rfl | hw
        · exact p4 k r hg
        · rw [hnone w hw] at hg; cases hg

theorem adjustL0_same {c : TCfg K} {t : TMgr K} (h : Inv c t) {n : Nat} (hn : 0 < n)
    (hno : ∀ x ∈ t.l0, x.status = .normal) (full : Nat → Bool) : Same c t (t.adjustL0 c n full) := by
  have hvs : ∀ v, v ∈ (List.range t.parts).flatMap (fun p => t.tablesByHash p) ↔
      v ∈ t.l0 ∧ v.hashNum < t.parts := by
    intro v
    rw [List.mem_flatMap]
    constructor
    · rintro ⟨p, hp, hv⟩
      rw [List.mem_range] at hp
      rw [tablesByHash_eq t hp, List.mem_filter] at hv
      have := hv.2
      simp only [decide_eq_true_eq] at this
      exact ⟨hv.1, by omega⟩
    · rintro ⟨h1, h2⟩
      refine ⟨v.hashNum, List.mem_range.2 h2, ?_⟩
      rw [tablesByHash_eq t h2, List.mem_filter]
      exact ⟨h1, by simp⟩
  have hpart : ∀ v ∈ t.l0, ∀ k r, v.get k = some r → v.hashNum = c.hash k % t.parts := by
    intro v hv k r hg
    by_contra hne
    rw [get_hash_none h hv (fun e => hne e.symm)] at hg; cases hg
  have hall := pushDown_all (c := c) full ((List.range t.parts).flatMap (fun p => t.tablesByHash p))
    ⟨h.lv, h.lvNum⟩
    (by
      intro v hv
      have hv1 := ((hvs v).1 hv).1
      exact ⟨(h.l0Recs v hv1).1, fun e he => ((h.l0Recs v hv1).2 e he).1, h.l0Min v hv1⟩)
    (by
      intro a ha b hb k x y hx hy
      have ha1 := ((hvs a).1 ha).1
      have hb1 := ((hvs b).1 hb).1
      have : a = b := h.uniq a ha1 b hb1 (by rw [hpart a ha1 k x hx, hpart b hb1 k y hy])
        (by rw [hno a ha1, hno b hb1])
      subst this
      rw [hx] at hy; exact Option.some.inj hy)
  unfold adjustL0
  simp only at hall ⊢
  generalize ((List.range t.parts).flatMap (fun p => t.tablesByHash p)) = vs at *
  generalize vs.foldl (fun t v => pushDown c t v full) t = t' at *
  obtain ⟨a1, a2, a3, a4, a5⟩ := hall
  have hl0 : (List.range n).foldl (fun l i => addTable l ({ number := t'.nextNum + i, hashNum := i, minKey := ⊥ } : Tab K)) [] =
      ((List.range n).map (fun i => ({ number := t'.nextNum + i, hashNum := i, minKey := ⊥ } : Tab K))).reverse := by
    rw [← List.append_nil (List.reverse _), ← foldl_addTable_rev (by
      intro x hx
      obtain ⟨i, _, rfl⟩ := List.mem_map.1 hx
      rfl), List.foldl_map]
  rw [hl0]
  generalize hl : ((List.range n).map (fun i => ({ number := t'.nextNum + i, hashNum := i, minKey := ⊥ } : Tab K))).reverse = l0'
  have hmem : ∀ x, x ∈ l0' ↔ ∃ i, i < n ∧ x = { number := t'.nextNum + i, hashNum := i, minKey := ⊥ } := by
    intro x
    rw [← hl, List.mem_reverse, List.mem_map]
    constructor
    · rintro ⟨i, h1, h2⟩; exact ⟨i, List.mem_range.1 h1, h2.symm⟩
    · rintro ⟨i, h1, h2⟩; exact ⟨i, List.mem_range.2 h1, h2.symm⟩
  have hinv : Inv c { t' with parts := n, nextNum := t'.nextNum + n, l0 := l0' } := by
    refine ⟨hn, a1.1, fun l hl x hx => Nat.lt_of_lt_of_le (a1.2 l hl x hx) (Nat.le_add_right _ _), ?_, ?_, ?_, ?_, ?_, ?_⟩
    · simp only
      rw [← hl, List.map_reverse, List.nodup_reverse, List.map_map]
      apply List.Nodup.map_on _ List.nodup_range
      intro a _ b _ hab
      simp only [Function.comp] at hab; omega
    · intro x hx
      obtain ⟨i, hi, rfl⟩ := (hmem x).1 hx
      simp only; omega
    · intro x hx
      obtain ⟨i, hi, rfl⟩ := (hmem x).1 hx
      rfl
    · intro x hx
      obtain ⟨i, hi, rfl⟩ := (hmem x).1 hx
      exact ⟨List.Pairwise.nil, by intro e he; cases he⟩
    · intro p hp
      exact ⟨_, (hmem _).2 ⟨p, hp, rfl⟩, rfl, rfl⟩
    · intro x hx y hy hh _
      obtain ⟨i, hi, rfl⟩ := (hmem x).1 hx
      obtain ⟨j, hj, rfl⟩ := (hmem y).1 hy
      simp only at hh
      rw [hh]
  suffices key : ∀ k, Top (TMgr.get c { t' with parts := n, nextNum := t'.nextNum + n, l0 := l0' } k)
      (t.get c k) ∧
      Img (stack c { t' with parts := n, nextNum := t'.nextNum + n, l0 := l0' } k) (stack c t k) from
    ⟨hinv, fun k => (key k).1, fun k => (key k).2⟩
  intro k
  rw [get_eq hinv, get_eq h]
  have hemp : ∀ x ∈ l0', x.get k = none := by
    intro x hx
    obtain ⟨i, hi, rfl⟩ := (hmem x).1 hx
    rfl
  have e1 : (TMgr.normOf { t' with parts := n, nextNum := t'.nextNum + n, l0 := l0' } (c.hash k % n)).bind (·.get k) = none := by
    cases hx : TMgr.normOf { t' with parts := n, nextNum := t'.nextNum + n, l0 := l0' } (c.hash k % n) with
    | none => rfl
    | some x => exact hemp x ((normOf_iff hinv _ x).1 hx).1
  have e2 : (TMgr.srcOf { t' with parts := n, nextNum := t'.nextNum + n, l0 := l0' } (c.hash k % n)).bind (·.get k) = none := by
    cases hx : TMgr.srcOf { t' with parts := n, nextNum := t'.nextNum + n, l0 := l0' } (c.hash k % n) with
    | none => rfl
    | some x => exact hemp x ((srcOf_iff hinv (Nat.mod_lt _ hn) x).1 hx).1
  show Top ((((TMgr.normOf { t' with parts := n, nextNum := t'.nextNum + n, l0 := l0' } (c.hash k % n)).bind _).or
    ((TMgr.srcOf { t' with parts := n, nextNum := t'.nextNum + n, l0 := l0' } (c.hash k % n)).bind _)).or (t'.lvLook k)) _ ∧
    Img ((((TMgr.normOf { t' with parts := n, nextNum := t'.nextNum + n, l0 := l0' } (c.hash k % n)).bind _).toList ++
    ((TMgr.srcOf { t' with parts := n, nextNum := t'.nextNum + n, l0 := l0' } (c.hash k % n)).bind _).toList) ++ lvStack t'.lv k) _
  unfold stack
  rw [e1, e2]
  have hk := Nat.mod_lt (c.hash k) h.pos
  have es : t.srcOf (c.hash k % t.parts) = none := by
    cases hx : t.srcOf (c.hash k % t.parts) with
    | none => rfl
    | some x =>
      have hx' := (srcOf_iff h hk x).1 hx
      have := hno x hx'.1
      rw [hx'.2.2] at this; cases this
  obtain ⟨x, hx⟩ := normOf_some h hk
  have hx' := (normOf_iff h _ x).1 hx
  rw [es, hx]
  simp only [Option.bind_none, Option.or_none, Option.none_or, Option.bind_some, Option.toList_none,
    List.nil_append, List.append_nil]
  have hone : ∀ v ∈ vs, ∀ y, v.get k = some y → v = x := by
    intro v hv y hg'
    have hv1 := ((hvs v).1 hv).1
    exact h.uniq v hv1 x hx'.1 (by rw [hpart v hv1 k y hg', hx'.2.1]) (by rw [hno v hv1, hx'.2.2])
  cases hg : x.get k with
  | some r =>
    refine ⟨a4 k r ⟨x, (hvs x).2 ⟨hx'.1, by rw [hx'.2.1]; exact hk⟩, hg⟩, (a5 k).trans (Img.append (Img.const ?_) (Img.refl _))⟩
    intro y hy
    rw [List.mem_reverse, List.mem_filterMap] at hy
    obtain ⟨v, hv, hvy⟩ := hy
    rw [hone v hv y hvy, hg] at hvy
    exact (Option.some.inj hvy).symm
  | none =>
    have hnone : ∀ v ∈ vs, v.get k = none := by
      intro v hv
      cases hg' : v.get k with
      | none => rfl
      | some y => rw [hone v hv y hg', hg] at hg'; cases hg'
    rw [a3 k hnone]
    refine ⟨Or.inl rfl, (a5 k).trans ?_⟩
    have : vs.filterMap (·.get k) = [] := List.filterMap_eq_nil_iff.2 hnone
    rw [this]; exact Img.refl _

/-! ### The instance -/

/-- One maintenance operation of the table section, as a relation on its states. -/
inductive Maint (c : TCfg K) : TMgr K → TMgr K → Prop
  /-- first half of a level-0 compaction: the partition gets a new table to write to -/
  | l0Begin (t p) (hp : p < t.parts) : Maint c t (t.compactL0Begin p)
  /-- second half: the old table of the partition has been merged into level 1 -/
  | l0End (t p full) (hp : p < t.parts) : Maint c t (t.compactL0End c p full)
  /-- the second half was cancelled after part of the work -/
  | l0Cancel (t p full done) (hp : p < t.parts) : Maint c t (t.compactL0Cancel c p full done)
  | level (t i n full refill) : Maint c t (t.compactLevel c i n full refill)
  | levelCancel (t i n full done) : Maint c t (t.compactLevelCancel c i n full done)
  | inPlace (t i n pres) : Maint c t (t.compactInPlaceOp i n pres)
  | split (t i n cut) : Maint c t (t.splitOp i n cut)
  | merge (t i n) : Maint c t (t.mergeOp c i n)
  /-- the manifest is stored and loaded again -/
  | reopen (t) : Maint c t t.reopen
  /-- the number of partitions is changed on open while no compaction is left unfinished -/
  | adjust (t n full) (hn : 0 < n) (hno : ∀ x ∈ t.l0, x.status = .normal) :
      Maint c t (t.adjustL0 c n full)

theorem Maint.same {c : TCfg K} {t t' : TMgr K} (hm : Maint c t t') (h : Inv c t) : Same c t t' := by
  cases hm with
  | l0Begin _ hp => exact compactL0Begin_same h hp
  | l0End _ _ hp => exact compactL0End_same h hp _
  | l0Cancel _ _ _ hp => exact compactL0Cancel_same h hp _ _
  | level => exact compactLevel_same h _ _ _ _
  | levelCancel => exact compactLevelCancel_same h _ _ _ _
  | inPlace => exact compactInPlaceOp_same h _ _ _
  | split => exact splitOp_same h _ _ _
  | merge => exact mergeOp_same h _ _
  | reopen => exact reopen_same h
  | adjust _ _ hn hno => exact adjustL0_same h hn hno _

end TMgr

/-- The table section as the log and the handle see it: hash-partitioned level 0 and
    range-partitioned levels below. -/
def Lsm {K : Type} [LinearOrder K] [OrderBot K] (c : TCfg K) (parts : Nat) (h : 0 < parts) : TableSys K where
  T := TMgr K
  empty := TMgr.init parts
  Inv := TMgr.Inv c
  get t k := t.get c k
  setBatch t R _ := t.setBatch c R
  torn t R _ t' := ∃ ps : List Nat, ps.Nodup ∧ (∀ p ∈ ps, p < t.parts) ∧
    t' = ps.foldl (fun t p => TMgr.setBatchPart c t R p) t
  reopen t := t.reopen
  maint := TMgr.Maint c
  inv_empty := TMgr.inv_init c h
  get_empty := TMgr.get_init c h
  inv_setBatch t R _ hi _ := (TMgr.setBatch_ok hi R).1
  get_setBatch t R _ k hi _ := by
    rw [(TMgr.setBatch_ok hi R).2.2 k]
    cases Spec.lastWrite R k <;> rfl
  torn_ok := by
    rintro t R _ t' hi _ ⟨ps, h1, h2, rfl⟩
    obtain ⟨k1, -, k3⟩ := TMgr.setBatchSome_ok hi R ps h1 h2
    refine ⟨k1, fun k => ?_⟩
    rw [k3 k, (TMgr.setBatch_ok hi R).2.2 k]
    split
    · exact Or.inr rfl
    · exact Or.inl rfl
  reopen_ok t hi := ⟨(TMgr.reopen_same hi).inv, (TMgr.reopen_same hi).vis⟩
  maint_ok t t' hi hm := ⟨(hm.same hi).inv, (hm.same hi).vis⟩

end Jungle
