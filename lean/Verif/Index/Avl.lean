/-
  The AVL tree under the iterators (src/avltree.cc).
-/
import Mathlib.Data.Nat.Fib.Basic

set_option linter.unusedSectionVars false

namespace Jungle.Avl
variable {α : Type}

/-- `avl_node` (src/avltree.h:31-41) with its element and the stored balance factor.  Parent pointers
    are not kept: the way from a node to the root is given by `Step`s.  -/
inductive Tree (α : Type)
  | nil
  | node (l : Tree α) (x : α) (b : Int) (r : Tree α)
  deriving DecidableEq, Repr

namespace Tree

/-- The elements in order. -/
def toList : Tree α → List α
  | nil => []
  | node l x _ r => l.toList ++ x :: r.toList

/-- Number of levels. -/
def height : Tree α → Nat
  | nil => 0
  | node l _ _ r => max l.height r.height + 1

/-- `avl_bf`, 0 for a null pointer (`_get_balance`, src/avltree.cc:189; the macro src/avltree.h:55-59). -/
def bf : Tree α → Int
  | nil => 0
  | node _ _ b _ => b

/-- Is there a node? -/
def one : Tree α → Int
  | nil => 0
  | node .. => 1

/-- No child (src/avltree.cc:513 and 645). -/
def isLeaf : Tree α → Bool
  | node nil _ _ nil => true
  | _ => false

/-- `_rotate_LL` (src/avltree.cc:72-110): the parent with balance factor `pbf`, its left child with `cbf`.
    Gives the new subtree, whose root has the balance factor returned in `child_bf`, and `height_delta`.
    No left child: null dereference in the code, not reached. -/
def rotLL (t : Tree α) (pbf cbf : Int) : Tree α × Int :=
  match t with
  | node (node ll y _ lr) x _ r =>
    if cbf < 0 then
      let cr := lr.one
      let cl := cr - cbf
      let pr := cl + 1 + pbf
      (node ll y (max cr pr + 1 - cl) (node lr x (pr - cr) r), max cl (max cr pr + 1) - (cl + 1))
    else
      let cl := ll.one
      let cr := cl + cbf
      let pr := cr + 1 + pbf
      (node ll y (max cr pr + 1 - cl) (node lr x (pr - cr) r), max cl (max cr pr + 1) - (cr + 1))
  | t => (t, 0)

/-- `_rotate_RR` (src/avltree.cc:112-151). -/
def rotRR (t : Tree α) (pbf cbf : Int) : Tree α × Int :=
  match t with
  | node l x _ (node rl y _ rr) =>
    if cbf < 0 then
      let cr := rr.one
      let cl := cr - cbf
      let pl := cl + 1 - pbf
      (node (node l x (cl - pl) rl) y (cr - (max cl pl + 1)) rr, max cr (max cl pl + 1) - (cl + 1))
    else
      let cl := rl.one
      let cr := cl + cbf
      let pl := cr + 1 - pbf
      (node (node l x (cl - pl) rl) y (cr - (max cl pl + 1)) rr, max cr (max cl pl + 1) - (cr + 1))
  | t => (t, 0)

/-- `_rotate_LR` (src/avltree.cc:153-169). -/
def rotLR (t : Tree α) (pbf : Int) : Tree α :=
  match t with
  | node (node ll y yb (node a z zb c)) x b r =>
    let (l', hd) := rotRR (node ll y yb (node a z zb c)) yb zb
    (rotLL (node l' x b r) (pbf - hd) l'.bf).1
  | node (node ll y yb nil) x b r => (rotLL (node (node ll y yb nil) x b r) pbf yb).1
  | t => t

/-- `_rotate_RL` (src/avltree.cc:171-187). -/
def rotRL (t : Tree α) (pbf : Int) : Tree α :=
  match t with
  | node l x b (node (node a z zb c) y yb rr) =>
    let (r', hd) := rotLL (node (node a z zb c) y yb rr) yb zb
    (rotRR (node l x b r') (pbf + hd) r'.bf).1
  | node l x b (node nil y yb rr) => (rotRR (node l x b (node nil y yb rr)) pbf yb).1
  | t => t

/-- `_balance_tree` (src/avltree.cc:191-225). -/
def balance (t : Tree α) (d : Int) : Tree α :=
  match t with
  | nil => nil
  | node l x b r =>
    if b + d < -1 ∧ l.one = 1 then
      if l.bf ≤ 0 then (rotLL (node l x b r) (b + d) l.bf).1 else rotLR (node l x b r) (b + d)
    else if b + d > 1 ∧ r.one = 1 then
      if r.bf ≥ 0 then (rotRR (node l x b r) (b + d) r.bf).1 else rotRL (node l x b r) (b + d)
    else node l x (b + d) r

/-- `avl_insert` (src/avltree.cc:436-540) below one node: the way down, and the loop on the way up.  The
    flag: the loop goes on to the parent.  `lt a b` is `func(a, b) < 0`. -/
def insGo (lt : α → α → Bool) (x : α) : Tree α → Tree α × Bool
  | nil => (node nil x 0 nil, true)
  | node l y b r =>
    if lt x y then
      match insGo lt x l with
      | (l', true) =>
        let t' := balance (node l' y b r) (-1)
        (t', t'.isLeaf || decide (b.natAbs < t'.bf.natAbs))
      | (l', false) => (node l' y b r, false)
    else if lt y x then
      match insGo lt x r with
      | (r', true) =>
        let t' := balance (node l y b r') 1
        (t', t'.isLeaf || decide (b.natAbs < t'.bf.natAbs))
      | (r', false) => (node l y b r', false)
    else (node l y b r, false)

/-- `avl_insert`: the tree. -/
def insert (lt : α → α → Bool) (x : α) (t : Tree α) : Tree α := (insGo lt x t).1

/-- `avl_insert`: the node that is given back, the new one or the one that was there (src/avltree.cc:446-458
    and 539). -/
def insRet (lt : α → α → Bool) (x : α) : Tree α → α
  | nil => x
  | node l y _ r => if lt x y then insRet lt x l else if lt y x then insRet lt x r else y

/-- The leftmost node of a subtree leaves it (src/avltree.cc:560-586 and 628-669): its element, the
    subtree without it, and whether the loop goes on to the parent. -/
def takeFirst : Tree α → Option (α × Tree α × Bool)
  | nil => none
  | node l y b r =>
    match takeFirst l with
    | none => some (y, r, true)
    | some (m, l', true) =>
      let t' := balance (node l' y b r) 1
      some (m, t', t'.isLeaf || decide (t'.bf.natAbs < b.natAbs))
    | some (m, l', false) => some (m, node l' y b r, false)

/-- `avl_remove` (src/avltree.cc:542-670) of the node with element `x`, below one node.  The code gets the
    address of the node; elements of a tree are different. -/
def remGo (lt : α → α → Bool) (x : α) : Tree α → Tree α × Bool
  | nil => (nil, false)
  | node l y b r =>
    if lt x y then
      match remGo lt x l with
      | (l', true) =>
        let t' := balance (node l' y b r) 1
        (t', t'.isLeaf || decide (t'.bf.natAbs < b.natAbs))
      | (l', false) => (node l' y b r, false)
    else if lt y x then
      match remGo lt x r with
      | (r', true) =>
        let t' := balance (node l y b r') (-1)
        (t', t'.isLeaf || decide (t'.bf.natAbs < b.natAbs))
      | (r', false) => (node l y b r', false)
    else
      match takeFirst r with
      | none => (l, true)
      | some (m, r', true) =>
        let t' := balance (node l m b r') (-1)
        (t', t'.isLeaf || decide (t'.bf.natAbs < b.natAbs))
      | some (m, r', false) => (node l m b r', false)

/-- `avl_remove`: the tree. -/
def remove (lt : α → α → Bool) (x : α) (t : Tree α) : Tree α := (remGo lt x t).1

/-- `avl_first` (src/avltree.cc:227-237). -/
def first : Tree α → Option α
  | nil => none
  | node nil x _ _ => some x
  | node l _ _ _ => first l

/-- `avl_last` (src/avltree.cc:239-249). -/
def last : Tree α → Option α
  | nil => none
  | node _ x _ nil => some x
  | node _ _ _ r => last r

/-- `avl_search` (src/avltree.cc:327-349). -/
def search (lt : α → α → Bool) (x : α) : Tree α → Option α
  | nil => none
  | node l y _ r => if lt x y then search lt x l else if lt y x then search lt x r else some y

end Tree

/-- One step from a node to its parent: the node is the left, or the right, child. -/
inductive Step (α : Type)
  | left (x : α) (b : Int) (r : Tree α)
  | right (l : Tree α) (x : α) (b : Int)

open Tree

/-- The tree around a subtree. -/
def plug : Tree α → List (Step α) → Tree α
  | t, [] => t
  | t, .left x b r :: p => plug (node t x b r) p
  | t, .right l x b :: p => plug (node l x b t) p

/-- The first ancestor of which we come from the left (src/avltree.cc:271-283). -/
def upNext : List (Step α) → Option α
  | [] => none
  | .left x _ _ :: _ => some x
  | .right .. :: p => upNext p

/-- The first ancestor of which we come from the right (src/avltree.cc:309-320). -/
def upPrev : List (Step α) → Option α
  | [] => none
  | .right _ x _ :: _ => some x
  | .left .. :: p => upPrev p

/-- `avl_next` (src/avltree.cc:251-287) of a node with right subtree `r`. -/
def next (r : Tree α) (p : List (Step α)) : Option α :=
  match r with
  | .nil => upNext p
  | r => r.first

/-- `avl_prev` (src/avltree.cc:289-325) of a node with left subtree `l`. -/
def prev (l : Tree α) (p : List (Step α)) : Option α :=
  match l with
  | .nil => upPrev p
  | l => l.last

/-- `avl_search_greater` (src/avltree.cc:351-386), from a node on; `p`: the way to it. -/
def searchGreater (lt : α → α → Bool) (x : α) : Tree α → List (Step α) → Option α
  | .nil, _ => none
  | .node l y b r, p =>
    if lt x y then
      match l with
      | .nil => some y
      | l => searchGreater lt x l (.left y b r :: p)
    else if lt y x then
      match r with
      | .nil => next .nil p
      | r => searchGreater lt x r (.right l y b :: p)
    else some y

/-- `avl_search_smaller` (src/avltree.cc:388-423). -/
def searchSmaller (lt : α → α → Bool) (x : α) : Tree α → List (Step α) → Option α
  | .nil, _ => none
  | .node l y b r, p =>
    if lt x y then
      match l with
      | .nil => prev .nil p
      | l => searchSmaller lt x l (.left y b r :: p)
    else if lt y x then
      match r with
      | .nil => some y
      | r => searchSmaller lt x r (.right l y b :: p)
    else some y

/-! ### balance -/

/-- Every stored balance factor is the difference of the heights, which is at most one. -/
def Ok : Tree α → Prop
  | .nil => True
  | .node l _ b r => Ok l ∧ Ok r ∧ b = (r.height : Int) - l.height ∧ -1 ≤ b ∧ b ≤ 1

theorem one_eq (t : Tree α) : (t = .nil ∧ t.one = 0 ∧ t.height = 0) ∨ (t ≠ .nil ∧ t.one = 1 ∧ 1 ≤ t.height) := by
  cases t with
  | nil => exact Or.inl ⟨rfl, rfl, rfl⟩
  | node l x b r => exact Or.inr ⟨by simp, rfl, by simp [Tree.height]⟩

theorem rotLL_list (t : Tree α) (a b : Int) : (rotLL t a b).1.toList = t.toList := by
  unfold rotLL
  split
  · split <;> simp [Tree.toList]
  · rfl

theorem rotRR_list (t : Tree α) (a b : Int) : (rotRR t a b).1.toList = t.toList := by
  unfold rotRR
  split
  · split <;> simp [Tree.toList]
  · rfl

theorem rotLR_list (t : Tree α) (a : Int) : (rotLR t a).toList = t.toList := by
  unfold rotLR
  split
  · next ll y yb p z zb c x b r =>
    have h := rotRR_list (node ll y yb (node p z zb c)) yb zb
    generalize rotRR (node ll y yb (node p z zb c)) yb zb = q at h ⊢
    obtain ⟨l', hd⟩ := q
    simp only [] at h ⊢
    rw [rotLL_list]
    simp only [Tree.toList] at h ⊢
    rw [h]
  · rw [rotLL_list]
  · rfl

theorem rotRL_list (t : Tree α) (a : Int) : (rotRL t a).toList = t.toList := by
  unfold rotRL
  split
  · next l x b p z zb c y yb rr =>
    have h := rotLL_list (node (node p z zb c) y yb rr) yb zb
    generalize rotLL (node (node p z zb c) y yb rr) yb zb = q at h ⊢
    obtain ⟨r', hd⟩ := q
    simp only [] at h ⊢
    rw [rotRR_list]
    simp only [Tree.toList] at h ⊢
    rw [h]
  · rw [rotRR_list]
  · rfl

theorem balance_list (t : Tree α) (d : Int) : (balance t d).toList = t.toList := by
  unfold balance
  split
  · rfl
  · split
    · split
      · rw [rotLL_list]
      · rw [rotLR_list]
    · split
      · split
        · rw [rotRR_list]
        · rw [rotRL_list]
      · rfl

theorem bf_node (l : Tree α) (x : α) (b : Int) (r : Tree α) : (node l x b r).bf = b := rfl

theorem rotLR_eq (p c ll r : Tree α) (x y z : α) (b zb : Int) (hz : -1 ≤ zb ∧ zb ≤ 1) :
    rotLR (node (node ll y 1 (node p z zb c)) x b r) (-2) =
      node (node ll y (if zb ≤ 0 then 0 else -1) p) z 0 (node c x (if zb < 0 then 1 else 0) r) := by
  have : zb = -1 ∨ zb = 0 ∨ zb = 1 := by omega
  unfold rotLR rotRR
  rcases this with rfl | rfl | rfl
  · simp only [show ((-1 : Int) < 0) by decide, show ((-1 : Int) ≤ 0) by decide, if_true, bf_node]
    unfold rotLL
    simp only []
    rw [if_pos (by omega)]
    simp only [Tree.node.injEq, true_and, and_true]; omega
  · simp only [show ¬ ((0 : Int) < 0) by decide, show ((0 : Int) ≤ 0) by decide, if_true, if_false, bf_node]
    unfold rotLL
    simp only []
    rw [if_pos (by omega)]
    simp only [Tree.node.injEq, true_and, and_true]; omega
  · simp only [show ¬ ((1 : Int) < 0) by decide, show ¬ ((1 : Int) ≤ 0) by decide, if_false, bf_node]
    unfold rotLL
    simp only []
    rw [if_pos (by omega)]
    simp only [Tree.node.injEq, true_and, and_true]; omega

theorem rotRL_eq (p c rr l : Tree α) (x y z : α) (b zb : Int) (hz : -1 ≤ zb ∧ zb ≤ 1) :
    rotRL (node l x b (node (node p z zb c) y (-1) rr)) 2 =
      node (node l x (if 0 < zb then -1 else 0) p) z 0 (node c y (if zb < 0 then 1 else 0) rr) := by
  have : zb = -1 ∨ zb = 0 ∨ zb = 1 := by omega
  unfold rotRL rotLL
  rcases this with rfl | rfl | rfl
  · simp only [show ((-1 : Int) < 0) by decide, show ¬ (0 < (-1 : Int)) by decide, if_true, if_false, bf_node]
    unfold rotRR
    simp only []
    rw [if_neg (by omega)]
    simp only [Tree.node.injEq, true_and, and_true]; omega
  · simp only [show ¬ ((0 : Int) < 0) by decide, if_false, bf_node]
    unfold rotRR
    simp only []
    rw [if_neg (by omega)]
    simp only [Tree.node.injEq, true_and, and_true]; omega
  · simp only [show ¬ ((1 : Int) < 0) by decide, show (0 < (1 : Int)) by decide, if_true, if_false, bf_node]
    unfold rotRR
    simp only []
    rw [if_neg (by omega)]
    simp only [Tree.node.injEq, true_and, and_true]; omega

/-- What balancing does: `d` is the change of the difference of the heights. -/
theorem balance_ok {l r : Tree α} {x : α} {b d : Int} (hl : Ok l) (hr : Ok r)
    (hd : b + d = (r.height : Int) - l.height) (h2 : -2 ≤ b + d ∧ b + d ≤ 2) :
    Ok (balance (node l x b r) d) ∧
    (-1 ≤ b + d ∧ b + d ≤ 1 → (balance (node l x b r) d).bf = b + d ∧
      (balance (node l x b r) d).height = max l.height r.height + 1) ∧
    (b + d = -2 ∨ b + d = 2 →
      ((balance (node l x b r) d).bf = 0 ∧ (balance (node l x b r) d).height = max l.height r.height ∧
        (b + d = -2 → l.bf ≠ 0) ∧ (b + d = 2 → r.bf ≠ 0)) ∨
      ((balance (node l x b r) d).bf ≠ 0 ∧ (balance (node l x b r) d).height = max l.height r.height + 1 ∧
        (b + d = -2 → l.bf = 0) ∧ (b + d = 2 → r.bf = 0))) := by
  unfold balance
  simp only []
  split
  · next hc =>
    have he : b + d = -2 := by omega
    cases l with
    | nil => simp [Tree.one] at hc
    | node ll y yb lr =>
      obtain ⟨k1, k2, k3, k4, k5⟩ := hl
      by_cases hy : (node ll y yb lr).bf ≤ 0
      · rw [if_pos hy]; simp only [bf_node] at hy ⊢
        simp only [Tree.height] at hd
        unfold rotLL
        simp only []
        rcases one_eq ll with ⟨-, o1, o2⟩ | ⟨-, o1, o2⟩ <;> rcases one_eq lr with ⟨-, o3, o4⟩ | ⟨-, o3, o4⟩ <;>
          (split <;> simp only [Ok, bf_node, Tree.height, o1, o3, he, k1, k2, hr, true_and] <;> omega)
      · rw [if_neg hy]; simp only [bf_node] at hy ⊢
        cases lr with
        | nil => simp only [Tree.height] at k3; omega
        | node p z zb c =>
          obtain ⟨m1, m2, m3, m4, m5⟩ := k2
          simp only [Tree.height] at hd k3
          have hyb : yb = 1 := by omega
          subst hyb
          rw [he, rotLR_eq _ _ _ _ _ _ _ _ _ ⟨m4, m5⟩]
          simp only [Ok, bf_node, Tree.height, k1, m1, m2, hr, true_and]
          split <;> split <;> omega
  · next hc1 =>
    split
    · next hc =>
      have he : b + d = 2 := by omega
      cases r with
      | nil => simp [Tree.one] at hc
      | node rl y yb rr =>
        obtain ⟨k1, k2, k3, k4, k5⟩ := hr
        by_cases hy : (node rl y yb rr).bf ≥ 0
        · rw [if_pos hy]; simp only [bf_node] at hy ⊢
          simp only [Tree.height] at hd
          unfold rotRR
          simp only []
          rcases one_eq rl with ⟨-, o1, o2⟩ | ⟨-, o1, o2⟩ <;> rcases one_eq rr with ⟨-, o3, o4⟩ | ⟨-, o3, o4⟩ <;>
            (split <;> simp only [Ok, bf_node, Tree.height, o1, o3, he, k1, k2, hl, true_and] <;> omega)
        · rw [if_neg hy]; simp only [bf_node] at hy ⊢
          cases rl with
          | nil => simp only [Tree.height] at k3; omega
          | node p z zb c =>
            obtain ⟨m1, m2, m3, m4, m5⟩ := k1
            simp only [Tree.height] at hd k3
            have hyb : yb = -1 := by omega
            subst hyb
            rw [he, rotRL_eq _ _ _ _ _ _ _ _ _ ⟨m4, m5⟩]
            simp only [Ok, bf_node, Tree.height, k2, m1, m2, hl, true_and]
            split <;> split <;> omega
    · next hc =>
      have h3 : -1 ≤ b + d ∧ b + d ≤ 1 := by
        rcases one_eq l with ⟨-, o1, o2⟩ | ⟨-, o1, o2⟩ <;> rcases one_eq r with ⟨-, o3, o4⟩ | ⟨-, o3, o4⟩ <;> omega
      refine ⟨⟨hl, hr, hd, h3.1, h3.2⟩, fun _ => ⟨rfl, rfl⟩, fun h => by omega⟩

theorem isLeaf_height {t : Tree α} (h : t.isLeaf = true) : t.height = 1 := by
  unfold isLeaf at h
  split at h
  · rfl
  · cases h

theorem insGo_ok (lt : α → α → Bool) (x : α) (t : Tree α) (h : Ok t) :
    Ok (insGo lt x t).1 ∧
    ((insGo lt x t).2 = true → (insGo lt x t).1.height = t.height + 1 ∧
      ((insGo lt x t).1.height = 1 ∨ (insGo lt x t).1.bf ≠ 0)) ∧
    ((insGo lt x t).2 = false → (insGo lt x t).1.height = t.height) := by
  induction t with
  | nil => simp [insGo, Ok, Tree.height]
  | node l y b r ihl ihr =>
    obtain ⟨h1, h2, h3, h4, h5⟩ := h
    obtain ⟨a1, a2, a3⟩ := ihl h1
    obtain ⟨b1, b2, b3⟩ := ihr h2
    unfold insGo
    split
    · generalize insGo lt x l = q at a1 a2 a3 ⊢
      obtain ⟨l', f⟩ := q
      cases f with
      | true =>
        simp only [] at a1 a2 a3 ⊢
        obtain ⟨e1, e2⟩ := a2 trivial
        obtain ⟨c1, c2, c3⟩ := balance_ok (x := y) (b := b) (d := -1) a1 h2 (by omega) (by omega)
        generalize balance (node l' y b r) (-1) = t' at c1 c2 c3 ⊢
        have hl : t'.isLeaf = true → t'.height = 1 := isLeaf_height
        refine ⟨c1, fun hf => ?_, fun hf => ?_⟩
        · simp only [Bool.or_eq_true, decide_eq_true_eq] at hf
          simp only [Tree.height]
          rcases Decidable.em (b + -1 = -2) with he | he
          · have hb : l'.bf ≠ 0 := by rcases e2 with e2 | e2 <;> omega
            rcases c3 (Or.inl he) with c3 | c3
            · rcases hf with hf | hf
              · have := hl hf; omega
              · omega
            · exact absurd (c3.2.2.1 he) hb
          · have := c2 (by omega)
            rcases hf with hf | hf
            · have := hl hf; omega
            · omega
        · simp only [Bool.or_eq_false_iff, decide_eq_false_iff_not] at hf
          simp only [Tree.height]
          rcases Decidable.em (b + -1 = -2) with he | he
          · have hb : l'.bf ≠ 0 := by rcases e2 with e2 | e2 <;> omega
            rcases c3 (Or.inl he) with c3 | c3
            · omega
            · exact absurd (c3.2.2.1 he) hb
          · have := c2 (by omega)
            omega
      | false =>
        simp only [] at a1 a2 a3 ⊢
        have := a3 trivial
        refine ⟨⟨a1, h2, by omega, h4, h5⟩, fun hf => (nomatch hf), fun _ => by simp only [Tree.height, this]⟩
    · split
      · generalize insGo lt x r = q at b1 b2 b3 ⊢
        obtain ⟨r', f⟩ := q
        cases f with
        | true =>
          simp only [] at b1 b2 b3 ⊢
          obtain ⟨e1, e2⟩ := b2 trivial
          obtain ⟨c1, c2, c3⟩ := balance_ok (x := y) (b := b) (d := 1) h1 b1 (by omega) (by omega)
          generalize balance (node l y b r') 1 = t' at c1 c2 c3 ⊢
          have hl : t'.isLeaf = true → t'.height = 1 := isLeaf_height
          refine ⟨c1, fun hf => ?_, fun hf => ?_⟩
          · simp only [Bool.or_eq_true, decide_eq_true_eq] at hf
            simp only [Tree.height]
            rcases Decidable.em (b + 1 = 2) with he | he
            · have hb : r'.bf ≠ 0 := by rcases e2 with e2 | e2 <;> omega
              rcases c3 (Or.inr he) with c3 | c3
              · rcases hf with hf | hf
                · have := hl hf; omega
                · omega
              · exact absurd (c3.2.2.2 he) hb
            · have := c2 (by omega)
              rcases hf with hf | hf
              · have := hl hf; omega
              · omega
          · simp only [Bool.or_eq_false_iff, decide_eq_false_iff_not] at hf
            simp only [Tree.height]
            rcases Decidable.em (b + 1 = 2) with he | he
            · have hb : r'.bf ≠ 0 := by rcases e2 with e2 | e2 <;> omega
              rcases c3 (Or.inr he) with c3 | c3
              · omega
              · exact absurd (c3.2.2.2 he) hb
            · have := c2 (by omega)
              omega
        | false =>
          simp only [] at b1 b2 b3 ⊢
          have := b3 trivial
          refine ⟨⟨h1, b1, by omega, h4, h5⟩, fun hf => (nomatch hf), fun _ => by simp only [Tree.height, this]⟩
      · exact ⟨⟨h1, h2, h3, h4, h5⟩, fun hf => (nomatch hf), fun _ => rfl⟩

/-- One step up of the removal: the left subtree shrank. -/
theorem shrink_left {l l' r : Tree α} {y : α} {b : Int} (h1 : Ok l') (h2 : Ok r)
    (h3 : b = (r.height : Int) - l.height) (h4 : -1 ≤ b) (h5 : b ≤ 1) (e : l'.height + 1 = l.height) :
    Ok (balance (node l' y b r) 1) ∧
    (((balance (node l' y b r) 1).isLeaf || decide ((balance (node l' y b r) 1).bf.natAbs < b.natAbs)) = true →
      (balance (node l' y b r) 1).height + 1 = max l.height r.height + 1) ∧
    (((balance (node l' y b r) 1).isLeaf || decide ((balance (node l' y b r) 1).bf.natAbs < b.natAbs)) = false →
      (balance (node l' y b r) 1).height = max l.height r.height + 1) := by
  obtain ⟨c1, c2, c3⟩ := balance_ok (x := y) (b := b) (d := 1) h1 h2 (by omega) (by omega)
  generalize balance (node l' y b r) 1 = t' at c1 c2 c3 ⊢
  have hl : t'.isLeaf = true → t'.height = 1 := isLeaf_height
  refine ⟨c1, fun hf => ?_, fun hf => ?_⟩
  · simp only [Bool.or_eq_true, decide_eq_true_eq] at hf
    rcases Decidable.em (b + 1 = 2) with he | he
    · rcases c3 (Or.inr he) with c3 | c3 <;>
      · rcases hf with hf | hf
        · have := hl hf; omega
        · omega
    · have := c2 (by omega)
      rcases hf with hf | hf
      · have := hl hf; omega
      · omega
  · simp only [Bool.or_eq_false_iff, decide_eq_false_iff_not] at hf
    rcases Decidable.em (b + 1 = 2) with he | he
    · rcases c3 (Or.inr he) with c3 | c3 <;> omega
    · have := c2 (by omega)
      omega

/-- One step up of the removal: the right subtree shrank. -/
theorem shrink_right {l r r' : Tree α} {y : α} {b : Int} (h1 : Ok l) (h2 : Ok r')
    (h3 : b = (r.height : Int) - l.height) (h4 : -1 ≤ b) (h5 : b ≤ 1) (e : r'.height + 1 = r.height) :
    Ok (balance (node l y b r') (-1)) ∧
    (((balance (node l y b r') (-1)).isLeaf || decide ((balance (node l y b r') (-1)).bf.natAbs < b.natAbs)) = true →
      (balance (node l y b r') (-1)).height + 1 = max l.height r.height + 1) ∧
    (((balance (node l y b r') (-1)).isLeaf || decide ((balance (node l y b r') (-1)).bf.natAbs < b.natAbs)) = false →
      (balance (node l y b r') (-1)).height = max l.height r.height + 1) := by
  obtain ⟨c1, c2, c3⟩ := balance_ok (x := y) (b := b) (d := -1) h1 h2 (by omega) (by omega)
  generalize balance (node l y b r') (-1) = t' at c1 c2 c3 ⊢
  have hl : t'.isLeaf = true → t'.height = 1 := isLeaf_height
  refine ⟨c1, fun hf => ?_, fun hf => ?_⟩
  · simp only [Bool.or_eq_true, decide_eq_true_eq] at hf
    rcases Decidable.em (b + -1 = -2) with he | he
    · rcases c3 (Or.inl he) with c3 | c3 <;>
      · rcases hf with hf | hf
        · have := hl hf; omega
        · omega
    · have := c2 (by omega)
      rcases hf with hf | hf
      · have := hl hf; omega
      · omega
  · simp only [Bool.or_eq_false_iff, decide_eq_false_iff_not] at hf
    rcases Decidable.em (b + -1 = -2) with he | he
    · rcases c3 (Or.inl he) with c3 | c3 <;> omega
    · have := c2 (by omega)
      omega

theorem takeFirst_ok : ∀ (t : Tree α) (m : α) (t' : Tree α) (f : Bool), Ok t → takeFirst t = some (m, t', f) →
    Ok t' ∧ (f = true → t'.height + 1 = t.height) ∧ (f = false → t'.height = t.height)
  | .nil, m, t', f, _, e => by simp [takeFirst] at e
  | .node l y b r, m, t', f, h, e => by
    obtain ⟨h1, h2, h3, h4, h5⟩ := h
    unfold takeFirst at e
    split at e
    · next hn =>
      have : l = .nil := by
        cases l with
        | nil => rfl
        | node a z c d => unfold takeFirst at hn; split at hn <;> cases hn
      subst this
      simp only [Option.some.injEq, Prod.mk.injEq] at e
      obtain ⟨rfl, rfl, rfl⟩ := e
      exact ⟨h2, fun _ => by simp [Tree.height], fun hf => (nomatch hf)⟩
    · next m1 l' hn =>
      obtain ⟨a1, a2, -⟩ := takeFirst_ok l m1 l' true h1 hn
      simp only [Option.some.injEq, Prod.mk.injEq] at e
      obtain ⟨rfl, rfl, rfl⟩ := e
      exact shrink_left a1 h2 h3 h4 h5 (a2 rfl)
    · next m1 l' hn =>
      obtain ⟨a1, -, a2⟩ := takeFirst_ok l m1 l' false h1 hn
      simp only [Option.some.injEq, Prod.mk.injEq] at e
      obtain ⟨rfl, rfl, rfl⟩ := e
      have := a2 rfl
      exact ⟨⟨a1, h2, by omega, h4, h5⟩, fun hf => (nomatch hf), fun _ => by simp only [Tree.height, this]⟩

theorem takeFirst_list : ∀ (t : Tree α), (takeFirst t = none → t = .nil) ∧
    ∀ (m : α) (t' : Tree α) (f : Bool), takeFirst t = some (m, t', f) → t.toList = m :: t'.toList
  | .nil => ⟨fun _ => rfl, fun m t' f e => by simp [takeFirst] at e⟩
  | .node l y b r => by
    obtain ⟨i1, i2⟩ := takeFirst_list l
    unfold takeFirst
    split
    · next hn => 
      rw [i1 hn]
      refine ⟨fun h => (nomatch h), fun m t' f e => ?_⟩
      simp only [Option.some.injEq, Prod.mk.injEq] at e
      obtain ⟨rfl, rfl, rfl⟩ := e
      simp [Tree.toList]
    · next m1 l' hn =>
      refine ⟨fun h => (nomatch h), fun m t' f e => ?_⟩
      simp only [Option.some.injEq, Prod.mk.injEq] at e
      obtain ⟨rfl, rfl, rfl⟩ := e
      rw [balance_list]
      simp [Tree.toList, i2 _ _ _ hn]
    · next m1 l' hn =>
      refine ⟨fun h => (nomatch h), fun m t' f e => ?_⟩
      simp only [Option.some.injEq, Prod.mk.injEq] at e
      obtain ⟨rfl, rfl, rfl⟩ := e
      simp [Tree.toList, i2 _ _ _ hn]

theorem remGo_ok (lt : α → α → Bool) (x : α) (t : Tree α) (h : Ok t) :
    Ok (remGo lt x t).1 ∧
    ((remGo lt x t).2 = true → (remGo lt x t).1.height + 1 = t.height) ∧
    ((remGo lt x t).2 = false → (remGo lt x t).1.height = t.height) := by
  induction t with
  | nil => simp [remGo, Ok]
  | node l y b r ihl ihr =>
    obtain ⟨h1, h2, h3, h4, h5⟩ := h
    obtain ⟨a1, a2, a3⟩ := ihl h1
    obtain ⟨b1, b2, b3⟩ := ihr h2
    unfold remGo
    split
    · generalize remGo lt x l = q at a1 a2 a3 ⊢
      obtain ⟨l', f⟩ := q
      cases f with
      | true => exact shrink_left a1 h2 h3 h4 h5 (a2 rfl)
      | false =>
        have := a3 rfl
        simp only [] at this
        exact ⟨⟨a1, h2, by omega, h4, h5⟩, fun hf => (nomatch hf), fun _ => by simp only [Tree.height, this]⟩
    · split
      · generalize remGo lt x r = q at b1 b2 b3 ⊢
        obtain ⟨r', f⟩ := q
        cases f with
        | true => exact shrink_right h1 b1 h3 h4 h5 (b2 rfl)
        | false =>
          have := b3 rfl
          simp only [] at this
          exact ⟨⟨h1, b1, by omega, h4, h5⟩, fun hf => (nomatch hf), fun _ => by simp only [Tree.height, this]⟩
      · split
        · next hn =>
          rw [(takeFirst_list r).1 hn]
          exact ⟨h1, fun _ => by simp [Tree.height], fun hf => (nomatch hf)⟩
        · next m r' hn =>
          obtain ⟨k1, k2, -⟩ := takeFirst_ok r m r' true h2 hn
          exact shrink_right h1 k1 h3 h4 h5 (k2 rfl)
        · next m r' hn =>
          obtain ⟨k1, -, k2⟩ := takeFirst_ok r m r' false h2 hn
          have := k2 rfl
          exact ⟨⟨h1, k1, by omega, h4, h5⟩, fun hf => (nomatch hf), fun _ => by simp only [Tree.height, this]⟩

theorem Ok.fib {t : Tree α} (h : Ok t) : Nat.fib (t.height + 2) ≤ t.toList.length + 1 := by
  induction t with
  | nil => simp [Tree.height, Tree.toList]
  | node l y b r ihl ihr =>
    obtain ⟨h1, h2, h3, h4, h5⟩ := h
    have i1 := ihl h1
    have i2 := ihr h2
    have m1 : Nat.fib (min l.height r.height + 2) ≤ Nat.fib (l.height + 2) := Nat.fib_mono (by omega)
    simp only [Tree.height, Tree.toList, List.length_append, List.length_cons]
    rcases Nat.le_total l.height r.height with hh | hh
    · have e := Nat.fib_add_two (n := r.height + 1)
      have m : Nat.fib (r.height + 1) ≤ Nat.fib (l.height + 2) := Nat.fib_mono (by omega)
      rw [Nat.max_eq_right hh, e]
      have : r.height + 1 + 1 = r.height + 2 := rfl
      rw [this]; omega
    · have e := Nat.fib_add_two (n := l.height + 1)
      have m : Nat.fib (l.height + 1) ≤ Nat.fib (r.height + 2) := Nat.fib_mono (by omega)
      rw [Nat.max_eq_left hh, e]
      have : l.height + 1 + 1 = l.height + 2 := rfl
      rw [this]; omega

theorem Ok.log {t : Tree α} (h : Ok t) : 2 ^ (t.height / 2) ≤ t.toList.length + 1 := by
  induction t with
  | nil => simp [Tree.height, Tree.toList]
  | node l y b r ihl ihr =>
    obtain ⟨h1, h2, h3, h4, h5⟩ := h
    have i1 := ihl h1
    have i2 := ihr h2
    simp only [Tree.height, Tree.toList, List.length_append, List.length_cons]
    have e1 : (max l.height r.height + 1) / 2 ≤ l.height / 2 + 1 := by omega
    have e2 : (max l.height r.height + 1) / 2 ≤ r.height / 2 + 1 := by omega
    have f1 : 2 ^ ((max l.height r.height + 1) / 2) ≤ 2 ^ (l.height / 2 + 1) := Nat.pow_le_pow_right (by omega) e1
    have f2 : 2 ^ ((max l.height r.height + 1) / 2) ≤ 2 ^ (r.height / 2 + 1) := Nat.pow_le_pow_right (by omega) e2
    rw [Nat.pow_succ] at f1 f2
    omega

end Jungle.Avl
