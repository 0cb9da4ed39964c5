/-
  Every operation of the table section keeps the filters of its tables covered: the key of every value stored in
  a table was added to the table's Bloom filter.
-/
import Verif.Table.BloomGet

set_option linter.unusedSectionVars false

namespace Jungle
open Spec
namespace TMgr
variable {K : Type} [LinearOrder K] [OrderBot K]

theorem mem_insert_or {m : SMap K (Rec K)} {k : K} {v : Rec K} {e : K × Rec K} (h : e ∈ m.insert k v) :
    e = (k, v) ∨ e ∈ m := by
  induction m with
  | nil => left; simpa [SMap.insert, SMap.upsert] using h
  | cons a m ih =>
    obtain ⟨a, w⟩ := a
    unfold SMap.insert SMap.upsert at h
    split at h
    · rcases List.mem_cons.1 h with h | h
      · exact Or.inl h
      · exact Or.inr h
    · split at h
      · rcases List.mem_cons.1 h with h | h
        · exact Or.inl h
        · exact Or.inr (List.mem_cons_of_mem _ h)
      · rcases List.mem_cons.1 h with h | h
        · exact Or.inr (h ▸ List.mem_cons_self)
        · rcases ih h with h | h
          · exact Or.inl h
          · exact Or.inr (List.mem_cons_of_mem _ h)

theorem setSingle_covered {x : Tab K} (h : x.Covered) (r : Rec K) (p m : Bool) : (x.setSingle r p m).Covered := by
  intro e he hd
  have hold : e ∈ x.recs → e.1 ∈ (x.setSingle r p m).added := by
    intro h1
    have := h e h1 hd
    simp only [Tab.setSingle]
    split
    · exact List.mem_cons_of_mem _ this
    · exact this
  simp only [Tab.setSingle] at he
  split at he
  · exact hold (List.mem_of_mem_filter he)
  · rcases mem_insert_or he with rfl | h1
    · simp only [Tab.setSingle]
      have : (m || !r.isDel) = true := by simp only at hd; rw [hd]; simp
      rw [if_pos this]; exact List.mem_cons_self
    · exact hold h1

theorem writeGroup_covered (rs : List (Rec K)) (p m : Bool) {x : Tab K} (h : x.Covered) :
    (writeGroup x rs p m).Covered := by
  induction rs generalizing x with
  | nil => exact h
  | cons r rs ih => exact ih (setSingle_covered h r p m)

theorem setBatch_covered (c : TCfg K) (parts p : Nat) (R : List (Rec K)) {x : Tab K} (h : x.Covered) :
    (x.setBatch c parts p R).Covered := by
  induction R generalizing x with
  | nil => exact h
  | cons r R ih =>
    have e : x.setBatch c parts p (r :: R) = (if c.hash r.key % parts ≠ p then x else if r.isCmd then x
      else x.setSingle r false).setBatch c parts p R := rfl
    rw [e]
    apply ih
    split
    · exact h
    · split
      · exact h
      · exact setSingle_covered h r false false

theorem blank_covered {n : Nat} {q : Nat} {m : K} {st : TStatus} {b : Bool} {ad : List K} :
    (Tab.mk n q m st b [] ad : Tab K).Covered := by intro e he; cases he

/-- All tables of a list are covered. -/
abbrev AllCov (l : List (Tab K)) : Prop := ∀ x ∈ l, x.Covered

theorem AllCov.modify {l : List (Tab K)} (h : AllCov l) {n : Nat} {f : Tab K → Tab K}
    (hf : ∀ x, x.Covered → (f x).Covered) : AllCov (modify l n f) := by
  intro y hy
  obtain ⟨x, hx, rfl⟩ := mem_modify.1 hy
  split
  · exact hf x (h x hx)
  · exact h x hx

theorem AllCov.add {l xs : List (Tab K)} (h : AllCov l) (hx : AllCov xs) : AllCov (xs.foldl addTable l) := by
  intro y hy
  rcases mem_foldl_addTable.1 hy with h1 | h1
  · exact hx y h1
  · exact h y h1

theorem AllCov.addOne {l : List (Tab K)} (h : AllCov l) {x : Tab K} (hx : x.Covered) : AllCov (addTable l x) :=
  AllCov.add (xs := [x]) h (fun y hy => by rw [List.mem_singleton.1 hy]; exact hx)

theorem AllCov.remove {l : List (Tab K)} (h : AllCov l) (n : Nat) : AllCov (removeTable l n) :=
  fun x hx => h x (mem_removeTable.1 hx).1

theorem freshTables_covered (num : Nat) (ms : List K) (asg : List (Tgt K × Rec K)) :
    AllCov (freshTables num ms asg) := by
  induction ms generalizing num with
  | nil => intro x hx; cases hx
  | cons m ms ih =>
    intro x hx
    rcases List.mem_cons.1 hx with rfl | h
    · exact writeGroup_covered _ _ _ blank_covered
    · exact ih _ x h

theorem mergeInto_covered {l : List (Tab K)} (h : AllCov l) (num : Nat) (vmin : K) (rs : SMap K (Rec K))
    (purge : Bool) (full : Nat → Bool) : AllCov (mergeInto l num vmin rs purge full).1 := by
  unfold mergeInto
  refine AllCov.add ?_ ?_
  · intro y hy
    obtain ⟨x, hx, rfl⟩ := List.mem_map.1 hy
    exact writeGroup_covered _ _ _ (h x hx)
  · intro y hy
    exact freshTables_covered _ _ _ y (List.mem_reverse.1 hy)

theorem mergePart_covered {l : List (Tab K)} (h : AllCov l) (vmin : K) (rs : SMap K (Rec K))
    (purge : Bool) (full : Nat → Bool) (done : K → Nat) : AllCov (mergePart l vmin rs purge full done) := by
  intro y hy
  obtain ⟨x, hx, rfl⟩ := List.mem_map.1 hy
  exact writeGroup_covered _ _ _ (h x hx)

theorem splitTables_covered (gs : List (K × SMap K (Rec K))) (num : Nat) : AllCov (splitTables num gs) := by
  induction gs generalizing num with
  | nil => intro x hx; cases hx
  | cons g gs ih =>
    intro x hx
    rcases List.mem_cons.1 hx with rfl | h
    · exact writeGroup_covered _ _ _ blank_covered
    · exact ih _ x h

theorem loadLevel_covered (xs : List (Tab K)) : ∀ (o : Option K) (acc : List (Tab K)), AllCov xs → AllCov acc →
    AllCov (loadLevel o xs acc) := by
  induction xs with
  | nil => intro o acc _ ha; exact ha
  | cons x xs ih =>
    intro o acc hx ha
    exact ih _ _ (fun y hy => hx y (List.mem_cons_of_mem _ hy))
      (AllCov.addOne ha (hx x List.mem_cons_self : x.Covered))

theorem setBatchPart_covered {c : TCfg K} {t : TMgr K} (h : t.Covered) (R : List (Rec K)) (p : Nat) :
    (setBatchPart c t R p).Covered := by
  unfold setBatchPart
  split
  · exact h
  · exact ⟨AllCov.modify h.l0 (fun x hx => setBatch_covered c _ _ R hx), h.lv⟩

theorem setBatchSome_covered {c : TCfg K} (R : List (Rec K)) (ps : List Nat) : ∀ {t : TMgr K}, t.Covered →
    (ps.foldl (fun t p => setBatchPart c t R p) t).Covered := by
  induction ps with
  | nil => intro t h; exact h
  | cons p ps ih => intro t h; exact ih (setBatchPart_covered h R p)

theorem lv_repl {t : TMgr K} (h : t.Covered) {i : Nat} {a b : List (List (Tab K))} (hd : t.lv.drop i = a ++ b)
    {mid : List (List (Tab K))} (hm : ∀ l ∈ mid, AllCov l) : ∀ l ∈ t.lv.take i ++ (mid ++ b), AllCov l := by
  intro l hl
  rcases List.mem_append.1 hl with h1 | h1
  · exact h.lv l (List.mem_of_mem_take h1)
  · rcases List.mem_append.1 h1 with h2 | h2
    · exact hm l h2
    · exact h.lv l (List.mem_of_mem_drop (hd ▸ List.mem_append_right _ h2 : l ∈ t.lv.drop i))

theorem drop_cov {t : TMgr K} (h : t.Covered) {i : Nat} {l : List (Tab K)} (hl : l ∈ t.lv.drop i) : AllCov l :=
  h.lv l (List.mem_of_mem_drop hl)

theorem head_cov {ls : List (List (Tab K))} (h : ∀ l ∈ ls, AllCov l) :
    ∀ l ∈ (if ls.isEmpty then [[]] else ls), AllCov l := by
  split
  · intro l hl; rw [List.mem_singleton.1 hl]; intro x hx; cases hx
  · exact h

theorem pushDown_covered {c : TCfg K} {t : TMgr K} (h : t.Covered) (v : Tab K) (full : Nat → Bool) :
    (pushDown c t v full).Covered := by
  unfold pushDown
  have hh := head_cov h.lv
  generalize (if t.lv.isEmpty then [[]] else t.lv) = ls at hh ⊢
  cases ls with
  | nil => exact h
  | cons l ls =>
    refine ⟨h.l0, ?_⟩
    intro a ha
    rcases List.mem_cons.1 ha with rfl | ha
    · exact mergeInto_covered (hh l List.mem_cons_self) _ _ _ _ _
    · exact hh a (List.mem_cons_of_mem _ ha)

theorem initL0_covered (n : Nat) : ∀ (i : Nat) (acc : List (Tab K)), AllCov acc → AllCov (initL0 n i acc) := by
  induction n with
  | zero => intro i acc h; exact h
  | succ n ih =>
    intro i acc h
    refine ih _ _ ?_
    intro x hx
    rcases List.mem_cons.1 hx with rfl | hx
    · exact blank_covered
    · exact h x hx

theorem Maint.covered {c : TCfg K} {t t' : TMgr K} (hm : Maint c t t') (h : t.Covered) : t'.Covered := by
  cases hm with
  | l0Begin p hp =>
    unfold compactL0Begin
    simp only
    split
    · exact h
    · split
      · exact h
      · refine ⟨AllCov.modify ?_ (fun x hx => hx), h.lv⟩
        intro x hx
        rcases List.mem_cons.1 hx with rfl | hx
        · exact blank_covered
        · exact h.l0 x hx
  | l0End p full hp =>
    unfold compactL0End
    split
    · exact h
    · have hh := head_cov h.lv
      simp only
      generalize (if t.lv.isEmpty then [[]] else t.lv) = ls at hh ⊢
      cases ls with
      | nil => exact h
      | cons l ls =>
        refine ⟨AllCov.remove h.l0 _, ?_⟩
        intro a ha
        rcases List.mem_cons.1 ha with rfl | ha
        · exact mergeInto_covered (hh l List.mem_cons_self) _ _ _ _ _
        · exact hh a (List.mem_cons_of_mem _ ha)
  | l0Cancel p full done hp =>
    unfold compactL0Cancel
    split
    · next v l ls _ hlv =>
      refine ⟨h.l0, ?_⟩
      intro a ha
      rcases List.mem_cons.1 ha with rfl | ha
      · exact mergePart_covered (h.lv l (hlv ▸ List.mem_cons_self)) _ _ _ _ _
      · exact h.lv a (hlv ▸ List.mem_cons_of_mem _ ha)
    · exact h
  | level i n full refill =>
    unfold compactLevel
    split
    · exact h
    · next l hd =>
      split
      · exact h
      · refine ⟨h.l0, ?_⟩
        have := lv_repl (a := [l]) (b := []) h (by rw [hd]; rfl) (mid := [[], migrate l]) (by
          intro a ha
          simp only [List.mem_cons, List.not_mem_nil, or_false] at ha
          rcases ha with rfl | rfl
          · intro x hx; cases hx
          · intro x hx
            obtain ⟨y, hy, rfl⟩ := List.mem_map.1 hx
            exact (drop_cov h (hd ▸ List.mem_cons_self) y hy : y.Covered))
        simpa using this
    · next up down b hd =>
      split
      · exact h
      · next v hv =>
        refine ⟨h.l0, ?_⟩
        have hup : AllCov up := drop_cov h (hd ▸ List.mem_cons_self)
        have hdn : AllCov down := drop_cov h (hd ▸ List.mem_cons_of_mem _ List.mem_cons_self)
        have := lv_repl (a := [up, down]) (b := b) h (by rw [hd]; rfl)
          (mid := [(compactPair c t.nextNum up down b.isEmpty v full refill).1,
            (compactPair c t.nextNum up down b.isEmpty v full refill).2.1]) (by
          intro a ha
          simp only [List.mem_cons, List.not_mem_nil, or_false] at ha
          unfold compactPair at ha
          simp only at ha
          split at ha
          · rcases ha with rfl | rfl
            · exact AllCov.addOne (AllCov.remove hup _) blank_covered
            · exact mergeInto_covered hdn _ _ _ _ _
          · rcases ha with rfl | rfl
            · exact AllCov.remove hup _
            · exact mergeInto_covered hdn _ _ _ _ _)
        simpa using this
  | levelCancel i n full done =>
    unfold compactLevelCancel
    split
    · next up down b hd =>
      split
      · exact h
      · next v hv =>
        refine ⟨h.l0, ?_⟩
        have hup : AllCov up := drop_cov h (hd ▸ List.mem_cons_self)
        have hdn : AllCov down := drop_cov h (hd ▸ List.mem_cons_of_mem _ List.mem_cons_self)
        have := lv_repl (a := [up, down]) (b := b) h (by rw [hd]; rfl)
          (mid := [up, mergePart down v.minKey v.recs (c.purge && b.isEmpty) full done]) (by
          intro a ha
          simp only [List.mem_cons, List.not_mem_nil, or_false] at ha
          rcases ha with rfl | rfl
          · exact hup
          · exact mergePart_covered hdn _ _ _ _ _)
        simpa using this
    · exact h
  | inPlace i n pres =>
    unfold compactInPlaceOp
    split
    · exact h
    · next l b hd =>
      split
      · exact h
      · next v hv =>
        refine ⟨h.l0, ?_⟩
        have := lv_repl (a := [l]) (b := b) h (by rw [hd]; rfl)
          (mid := [compactInPlace l t.nextNum v (b.isEmpty && !pres)]) (by
          intro a ha
          rw [List.mem_singleton.1 ha]
          refine AllCov.remove (AllCov.addOne (drop_cov h (hd ▸ List.mem_cons_self)) ?_) _
          intro e he _
          exact List.mem_map_of_mem he)
        simpa using this
  | split i n cut =>
    unfold splitOp
    split
    · exact h
    · next l b hd =>
      split
      · exact h
      · next v hv =>
        refine ⟨h.l0, ?_⟩
        have hl : AllCov l := drop_cov h (hd ▸ List.mem_cons_self)
        have := lv_repl (a := [l]) (b := b) h (by rw [hd]; rfl)
          (mid := [(splitTable l t.nextNum v cut).1]) (by
          intro a ha
          rw [List.mem_singleton.1 ha]
          unfold splitTable
          simp only
          split
          · exact hl
          · exact AllCov.remove (AllCov.add hl (fun x hx => splitTables_covered _ _ x (List.mem_reverse.1 hx))) _)
        simpa using this
  | merge i n =>
    unfold mergeOp
    split
    · exact h
    · next l b hd =>
      split
      · exact h
      · next v hv =>
        refine ⟨h.l0, ?_⟩
        have hl : AllCov l := drop_cov h (hd ▸ List.mem_cons_self)
        have := lv_repl (a := [l]) (b := b) h (by rw [hd]; rfl)
          (mid := [mergeTable l v (c.purge && b.isEmpty)]) (by
          intro a ha
          rw [List.mem_singleton.1 ha]
          unfold mergeTable
          split
          · exact hl
          · exact AllCov.remove (AllCov.modify hl (fun x hx => writeGroup_covered _ _ _ hx)) _)
        simpa using this
  | reopen =>
    refine ⟨AllCov.add (fun x hx => by cases hx) h.l0, ?_⟩
    intro l hl
    obtain ⟨a, ha, rfl⟩ := List.mem_map.1 hl
    exact loadLevel_covered a none [] (h.lv a ha) (fun x hx => by cases hx)
  | adjust n full hn hno =>
    unfold adjustL0
    have key : ∀ (vs : List (Tab K)) (t : TMgr K), t.Covered →
        (vs.foldl (fun t v => pushDown c t v full) t).Covered := by
      intro vs
      induction vs with
      | nil => intro t h; exact h
      | cons v vs ih => intro t h; exact ih _ (pushDown_covered h v full)
    have hk := key ((List.range t.parts).flatMap (fun p => t.tablesByHash p)) t h
    refine ⟨?_, hk.lv⟩
    simp only
    generalize (((List.range t.parts).flatMap (fun p => t.tablesByHash p)).foldl
      (fun t v => pushDown c t v full) t).nextNum = num
    have key2 : ∀ (is : List Nat) (acc : List (Tab K)), AllCov acc →
        AllCov (is.foldl (fun l i => addTable l { number := num + i, hashNum := i, minKey := ⊥ }) acc) := by
      intro is
      induction is with
      | nil => intro acc h; exact h
      | cons i is ih => intro acc h; exact ih _ (AllCov.addOne h blank_covered)
    exact key2 _ _ (fun x hx => by cases hx)

theorem covered_pred (c : TCfg K) (parts : Nat) (hp : 0 < parts) :
    TablePred (Lsm c parts hp) (fun t A B => Newest c t A B ∧ Covered t) where
  init := ⟨(newest_pred c parts hp).init,
    ⟨initL0_covered parts 0 [] (fun x hx => by cases hx), fun l hl => by cases hl⟩⟩
  write X h := ⟨(newest_pred c parts hp).write X h.1, h.2⟩
  flush := by
    intro t A D B' R t' cps hinv h hinc hincR hsub ht hlast
    refine ⟨(newest_pred c parts hp).flush cps hinv h.1 hinc hincR hsub ht hlast, ?_⟩
    rw [ht]
    split
    · exact h.2
    · exact setBatchSome_covered R _ h.2
  maint hinv h hm := ⟨(newest_pred c parts hp).maint hinv h.1 hm, Maint.covered hm h.2⟩
  reopen hinv h := ⟨(newest_pred c parts hp).reopen hinv h.1, Maint.covered (c := c) (Maint.reopen _) h.2⟩

end TMgr
end Jungle
