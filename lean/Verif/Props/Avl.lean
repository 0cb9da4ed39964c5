/-
  C54: the ordered tree in which an iterator keeps its children.
-/
import Verif.Index.AvlOrder
import Verif.Iter.Merge
import Mathlib.Order.Nat

namespace Jungle.Avl
variable {α : Type}
open Tree

/-! ### specification -/

/-- What a sequence of calls leaves, as a plain list: an insertion puts the new element between the smaller and the
    greater ones, and does nothing when an equal element is there; a removal drops the equal element. -/
def Left (lt : α → α → Bool) : List (Op α) → List α → List α
  | [], l => l
  | .ins x :: o, l =>
    Left lt o (if l.any (fun y => !lt x y && !lt y x) then l else l.filter (lt · x) ++ x :: l.filter (lt x ·))
  | .rem x :: o, l => Left lt o (l.filter (fun y => lt x y || lt y x))

/-- Everywhere the heights of the two subtrees differ by at most one. -/
def Balanced : Tree α → Prop
  | .nil => True
  | .node l _ _ r => Balanced l ∧ Balanced r ∧ l.height ≤ r.height + 1 ∧ r.height ≤ l.height + 1

theorem Ok.balanced {t : Tree α} (h : Ok t) : Balanced t := by
  induction t with
  | nil => trivial
  | node l y b r ihl ihr =>
    obtain ⟨h1, h2, h3, h4, h5⟩ := h
    exact ⟨ihl h1, ihr h2, by omega, by omega⟩

theorem Left_run {lt : α → α → Bool} (W : Weak lt) (o : List (Op α)) (t : Tree α) (hs : Sorted lt t.toList) :
    (run lt o t).toList = Left lt o t.toList := by
  induction o generalizing t with
  | nil => rfl
  | cons a o ih =>
    cases a with
    | ins x =>
      have e : (t.insert lt x).toList = insSpec lt x t.toList := insGo_list W x t hs
      simp only [run, Left]
      rw [ih _ (by rw [e]; exact insSpec_sorted W x hs), e]
      rfl
    | rem x =>
      have e : (t.remove lt x).toList = remSpec lt x t.toList := remGo_list W x t hs
      simp only [run, Left]
      rw [ih _ (by rw [e]; exact remSpec_sorted x hs), e]
      congr 1
      unfold remSpec eqv
      congr 1
      funext y
      cases lt x y <;> cases lt y x <;> rfl

/-! ### C54 -/

/-- Any sequence of insertions and removals leaves in the tree exactly the elements that it leaves in a list, in the
    order of the comparison function, and a balanced tree, whose height is at most about 1.44 times, and certainly
    twice, the logarithm of the number of elements. -/
theorem C54_contents {lt : α → α → Bool} (W : Weak lt) (o : List (Op α)) :
    (run lt o .nil).toList = Left lt o [] ∧
    (run lt o .nil).toList.Pairwise (fun a b => lt a b = true) ∧
    Balanced (run lt o .nil) ∧
    Nat.fib ((run lt o .nil).height + 2) ≤ (Left lt o []).length + 1 ∧
    2 ^ ((run lt o .nil).height / 2) ≤ (Left lt o []).length + 1 := by
  obtain ⟨h1, h2⟩ := run_ok W o .nil trivial List.Pairwise.nil
  have e : (run lt o .nil).toList = Left lt o [] := Left_run W o .nil List.Pairwise.nil
  refine ⟨e, h2, h1.balanced, ?_, ?_⟩
  · rw [← e]; exact h1.fib
  · rw [← e]; exact h1.log

/-- The first and the last node; and from every node the next and the previous one: they are the ones that come next
    in the order, none skipped, and there is none only at the end. -/
theorem C54_walk (t : Tree α) :
    t.first = t.toList.head? ∧ t.last = t.toList.getLast? ∧
    ∀ (l : Tree α) (x : α) (b : Int) (r : Tree α) (p : List (Step α)), t = plug (.node l x b r) p →
      ∃ before after : List α, t.toList = before ++ x :: after ∧
        next r p = after.head? ∧ prev l p = before.getLast? := by
  refine ⟨first_eq t, last_eq t, fun l x b r p e => ⟨bef p ++ l.toList, r.toList ++ aft p, ?_, next_eq r p, prev_eq l p⟩⟩
  rw [e, plug_list]; simp [Tree.toList]

/-- Searching after any sequence of calls: the equal element; the first that is not smaller; the last that is not
    greater.  An insertion gives back the equal element that was there, or the new one. -/
theorem C54_search {lt : α → α → Bool} (W : Weak lt) (o : List (Op α)) (x : α) :
    (run lt o .nil).search lt x = (Left lt o []).find? (fun y => !lt x y && !lt y x) ∧
    searchGreater lt x (run lt o .nil) [] = (Left lt o []).find? (fun y => !lt y x) ∧
    searchSmaller lt x (run lt o .nil) [] = (Left lt o []).reverse.find? (fun y => !lt x y) ∧
    insRet lt x (run lt o .nil) = ((Left lt o []).find? (fun y => !lt x y && !lt y x)).getD x := by
  obtain ⟨-, h2⟩ := run_ok W o .nil trivial List.Pairwise.nil
  have e : (run lt o .nil).toList = Left lt o [] := Left_run W o .nil List.Pairwise.nil
  have s := search_eq W x _ h2
  rw [e] at s
  refine ⟨s, ?_, ?_, ?_⟩
  · cases ht : run lt o .nil with
    | nil => rw [ht] at e; rw [← e]; rfl
    | node l y b r =>
      rw [← ht, searchGreater_eq W x _ [] (by rw [ht]; exact fun h => (nomatch h)) h2 (by simp [aft]), e]
      simp [aft]
  · cases ht : run lt o .nil with
    | nil => rw [ht] at e; rw [← e]; rfl
    | node l y b r =>
      rw [← ht, searchSmaller_eq W x _ [] (by rw [ht]; exact fun h => (nomatch h)) h2 (by simp [bef]), e]
      simp [bef]
  · rw [insRet_eq, s]; rfl

/-! ### the window of the merging iterator -/

section
variable {σ E O : Type} [LinearOrder O] (p : Iter.Par E O)

/-- The comparison functions of the iterators are orders. -/
theorem before_weak : Weak (Iter.before (σ := σ) p) := by
  constructor
  · intro a
    unfold Iter.before
    split <;> simp
  · intro a b c
    unfold Iter.before
    split
    · simp only [Bool.or_eq_true, Bool.and_eq_true, decide_eq_true_eq]
      rintro (h | ⟨h, h' | ⟨h', h''⟩⟩) (k | ⟨k, k' | ⟨k', k''⟩⟩)
      all_goals first
        | exact Or.inl (lt_trans h k)
        | exact Or.inl (h.trans_eq k)
        | exact Or.inl (h.trans_lt k)
        | exact Or.inr ⟨h.trans k, by omega⟩
    · simp only [Bool.or_eq_true, Bool.and_eq_true, decide_eq_true_eq]
      rintro (h | ⟨h, h'⟩) (k | ⟨k, k'⟩)
      all_goals first
        | exact Or.inl (lt_trans h k)
        | exact Or.inl (h.trans_eq k)
        | exact Or.inl (h.trans_lt k)
        | exact Or.inr ⟨h.trans k, by omega⟩
  · intro a b c
    unfold Iter.before
    split <;> simp only [Bool.or_eq_true, Bool.and_eq_true, decide_eq_true_eq] <;> intro hac
    · rcases lt_trichotomy (p.ord a.last) (p.ord b.last) with h | h | h
      · exact Or.inl (Or.inl h)
      · rcases hac with k | ⟨k, k'⟩
        · exact Or.inr (Or.inl (h ▸ k))
        · have e : p.ord b.last = p.ord c.last := h.symm.trans k
          by_cases q : p.rank b.last < p.rank a.last ∨ p.rank a.last = p.rank b.last ∧ b.id < a.id
          · exact Or.inl (Or.inr ⟨h, q⟩)
          · exact Or.inr (Or.inr ⟨e, by omega⟩)
      · rcases hac with k | ⟨k, -⟩
        · exact Or.inr (Or.inl (lt_trans h k))
        · exact Or.inr (Or.inl (h.trans_eq k))
    · rcases lt_trichotomy (p.ord a.last) (p.ord b.last) with h | h | h
      · exact Or.inl (Or.inl h)
      · rcases hac with k | ⟨k, k'⟩
        · exact Or.inr (Or.inl (h ▸ k))
        · have e : p.ord b.last = p.ord c.last := h.symm.trans k
          by_cases q : a.id < b.id
          · exact Or.inl (Or.inr ⟨h, q⟩)
          · exact Or.inr (Or.inr ⟨e, by omega⟩)
      · rcases hac with k | ⟨k, -⟩
        · exact Or.inr (Or.inl (lt_trans h k))
        · exact Or.inr (Or.inl (h.trans_eq k))

/-- The list the model of the iterators keeps is what is in the tree of the code: an insertion of an item that ties
    with no other one. -/
theorem C54_window (o : List (Op (Iter.Item σ E))) (x : Iter.Item σ E)
    (hx : ∀ y ∈ (run (Iter.before p) o .nil).toList, Iter.before p x y = true ∨ Iter.before p y x = true) :
    (Tree.insert (Iter.before p) x (run (Iter.before p) o .nil)).toList =
      Iter.ins p x (run (Iter.before p) o .nil).toList := by
  have W := before_weak (σ := σ) p
  obtain ⟨-, h2⟩ := run_ok W o .nil trivial List.Pairwise.nil
  have e := insGo_list W x _ h2
  change (insGo (Iter.before p) x _).1.toList = _
  rw [e]
  clear e
  generalize (run (Iter.before p) o .nil).toList = l at h2 hx
  induction l with
  | nil => rfl
  | cons y l ih =>
    rw [Sorted, List.pairwise_cons] at h2
    have ih := ih h2.2 (fun z hz => hx z (List.mem_cons_of_mem _ hz))
    unfold Iter.ins
    have none : ∀ z ∈ y :: l, eqv (Iter.before p) x z = false := by
      intro z hz
      rcases hx z hz with h | h <;> simp [eqv, h]
    split
    · next h =>
      obtain ⟨q1, q2, q3, -⟩ := above W (x := x) (l := y :: l) (by
        intro z hz
        rcases List.mem_cons.1 hz with rfl | hz
        · exact h
        · exact W.tr _ _ _ h (h2.1 z hz))
      simp only [insSpec, q1, q2, q3]
      rfl
    · next h =>
      simp only [Bool.not_eq_true] at h
      have hy : Iter.before p y x = true := by
        rcases hx y (List.mem_cons_self ..) with k | k
        · rw [h] at k; cases k
        · exact k
      rw [← ih]
      have a : (y :: l).any (eqv (Iter.before p) x) = false := by
        rw [List.any_eq_false]; intro z hz; rw [none z hz]; simp
      have a' : l.any (eqv (Iter.before p) x) = false := by
        rw [List.any_eq_false]; intro z hz; rw [none z (List.mem_cons_of_mem _ hz)]; simp
      simp [insSpec, a, a', h, hy]
end

/-! ### a case -/

/-- Numbers in their order. -/
theorem nat_weak : Weak (fun a b : Nat => decide (a < b)) :=
  ⟨fun a => by simp, fun a b c => by simp only [decide_eq_true_eq]; omega, fun a b c => by simp only [decide_eq_true_eq]; omega⟩

/-- Insertions with single and double rotations, a duplicate, and removals. -/
def calls : List (Op Nat) :=
  [.ins 50, .ins 20, .ins 40, .ins 10, .ins 30, .ins 60, .ins 35, .ins 40, .rem 20, .rem 10, .rem 40, .ins 5]

example : Left (fun a b : Nat => decide (a < b)) calls [] = [5, 30, 35, 50, 60] ∧
    (run (fun a b : Nat => decide (a < b)) calls .nil).toList = [5, 30, 35, 50, 60] ∧
    (run (fun a b : Nat => decide (a < b)) calls .nil).height = 3 ∧
    searchGreater (fun a b : Nat => decide (a < b)) 40 (run (fun a b : Nat => decide (a < b)) calls .nil) [] = some 50 ∧
    searchSmaller (fun a b : Nat => decide (a < b)) 29 (run (fun a b : Nat => decide (a < b)) calls .nil) [] = some 5 := by
  decide +kernel

example := C54_contents nat_weak calls

end Jungle.Avl
