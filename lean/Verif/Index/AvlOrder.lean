/-
  The AVL tree under the iterators: what is in it, in which order, and how it is searched.
-/
import Verif.Index.Avl

set_option linter.unusedSectionVars false

namespace Jungle.Avl
variable {α : Type}
open Tree

/-- What is asked of a comparison function: a strict weak order. -/
structure Weak (lt : α → α → Bool) : Prop where
  irr : ∀ a, lt a a = false
  tr : ∀ a b c, lt a b = true → lt b c = true → lt a c = true
  co : ∀ a b c, lt a c = true → lt a b = true ∨ lt b c = true

namespace Weak
variable {lt : α → α → Bool} (W : Weak lt)
include W

theorem asymm {a b : α} (h : lt a b = true) : lt b a = false := by
  cases e : lt b a with
  | false => rfl
  | true => rw [← W.irr a]; exact (W.tr a b a h e).symm

theorem ne {a b : α} (h : lt a b = true) : a ≠ b := by
  intro e; rw [e, W.irr] at h; cases h

/-- `a` equal to `b` in the order. -/
theorem eqv_left {a b c : α} (h1 : lt a b = false) (_h2 : lt b a = false) (h : lt c b = true) : lt c a = true := by
  rcases W.co c a b h with h | h
  · exact h
  · rw [h1] at h; cases h

theorem eqv_right {a b c : α} (_h1 : lt a b = false) (h2 : lt b a = false) (h : lt b c = true) : lt a c = true := by
  rcases W.co b a c h with h | h
  · rw [h2] at h; cases h
  · exact h
end Weak

/-- Equal in the order. -/
def eqv (lt : α → α → Bool) (a b : α) : Bool := !lt a b && !lt b a

/-- The list with `x` at its place; the list as it is when there is an element equal to `x`. -/
def insSpec (lt : α → α → Bool) (x : α) (l : List α) : List α :=
  if l.any (eqv lt x) then l else l.filter (lt · x) ++ x :: l.filter (lt x ·)

/-- The list without the element equal to `x`. -/
def remSpec (lt : α → α → Bool) (x : α) (l : List α) : List α := l.filter (fun y => !eqv lt x y)

section
variable {lt : α → α → Bool} (W : Weak lt) {x : α} {l : List α}
include W

theorem above (h : ∀ z ∈ l, lt x z = true) :
    l.filter (lt x ·) = l ∧ l.filter (lt · x) = [] ∧ l.any (eqv lt x) = false ∧
    l.filter (fun y => !eqv lt x y) = l := by
  refine ⟨List.filter_eq_self.2 h, List.filter_eq_nil_iff.2 fun z hz => ?_, ?_, List.filter_eq_self.2 fun z hz => ?_⟩
  · rw [W.asymm (h z hz)]; simp
  · rw [List.any_eq_false]
    intro z hz
    simp [eqv, h z hz]
  · simp [eqv, h z hz]

theorem under (h : ∀ z ∈ l, lt z x = true) :
    l.filter (lt · x) = l ∧ l.filter (lt x ·) = [] ∧ l.any (eqv lt x) = false ∧
    l.filter (fun y => !eqv lt x y) = l := by
  refine ⟨List.filter_eq_self.2 h, List.filter_eq_nil_iff.2 fun z hz => ?_, ?_, List.filter_eq_self.2 fun z hz => ?_⟩
  · rw [W.asymm (h z hz)]; simp
  · rw [List.any_eq_false]
    intro z hz
    simp [eqv, h z hz]
  · simp [eqv, h z hz]
end

/-- In order. -/
def Sorted (lt : α → α → Bool) (l : List α) : Prop := l.Pairwise (fun a b => lt a b = true)

theorem sorted_mid {lt : α → α → Bool} {l r : List α} {y : α} (h : Sorted lt (l ++ y :: r)) :
    Sorted lt l ∧ Sorted lt r ∧ (∀ z ∈ l, lt z y = true) ∧ (∀ z ∈ r, lt y z = true) := by
  unfold Sorted at h
  rw [List.pairwise_append, List.pairwise_cons] at h
  exact ⟨h.1, h.2.1.2, fun z hz => h.2.2 z hz y (List.mem_cons_self ..), h.2.1.1⟩

theorem insGo_list {lt : α → α → Bool} (W : Weak lt) (x : α) (t : Tree α) (h : Sorted lt t.toList) :
    (insGo lt x t).1.toList = insSpec lt x t.toList := by
  induction t with
  | nil => simp [insGo, insSpec, Tree.toList]
  | node l y b r ihl ihr =>
    simp only [Tree.toList] at h
    obtain ⟨h1, h2, h3, h4⟩ := sorted_mid h
    have il := ihl h1
    have ir := ihr h2
    unfold insGo
    split
    · next hx =>
      obtain ⟨q1, q2, q3, -⟩ := above W (x := x) (l := r.toList) (fun z hz => W.tr _ _ _ hx (h4 z hz))
      have hy := W.asymm hx
      have : insSpec lt x (node l y b r).toList = insSpec lt x l.toList ++ y :: r.toList := by
        simp only [insSpec, Tree.toList, List.any_append, List.any_cons, q3, List.filter_append, List.filter_cons, q1,
          q2, hx, hy, eqv, Bool.not_true, Bool.false_and, Bool.or_false]
        split <;> simp
      rw [this, ← il]
      generalize insGo lt x l = q
      obtain ⟨l', f⟩ := q
      cases f
      · simp [Tree.toList]
      · simp [balance_list, Tree.toList]
    · next hx =>
      simp only [Bool.not_eq_true] at hx
      split
      · next hy =>
        obtain ⟨q1, q2, q3, -⟩ := under W (x := x) (l := l.toList) (fun z hz => W.tr _ _ _ (h3 z hz) hy)
        have : insSpec lt x (node l y b r).toList = l.toList ++ y :: insSpec lt x r.toList := by
          simp only [insSpec, Tree.toList, List.any_append, List.any_cons, q3, List.filter_append, List.filter_cons, q1,
            q2, hx, hy, eqv, Bool.not_true, Bool.and_false, Bool.false_or]
          split <;> simp
        rw [this, ← ir]
        generalize insGo lt x r = q
        obtain ⟨r', f⟩ := q
        cases f
        · simp [Tree.toList]
        · simp [balance_list, Tree.toList]
      · next hy =>
        simp only [Bool.not_eq_true] at hy
        simp [insSpec, Tree.toList, eqv, hx, hy]

theorem remGo_list {lt : α → α → Bool} (W : Weak lt) (x : α) (t : Tree α) (h : Sorted lt t.toList) :
    (remGo lt x t).1.toList = remSpec lt x t.toList := by
  induction t with
  | nil => simp [remGo, remSpec, Tree.toList]
  | node l y b r ihl ihr =>
    simp only [Tree.toList] at h
    obtain ⟨h1, h2, h3, h4⟩ := sorted_mid h
    have il := ihl h1
    have ir := ihr h2
    unfold remGo
    split
    · next hx =>
      obtain ⟨-, -, -, q⟩ := above W (x := x) (l := r.toList) (fun z hz => W.tr _ _ _ hx (h4 z hz))
      have : remSpec lt x (node l y b r).toList = remSpec lt x l.toList ++ y :: r.toList := by
        simp only [remSpec, Tree.toList, List.filter_append, List.filter_cons, q]
        simp [eqv, hx]
      rw [this, ← il]
      generalize remGo lt x l = q
      obtain ⟨l', f⟩ := q
      cases f
      · simp [Tree.toList]
      · simp [balance_list, Tree.toList]
    · next hx =>
      simp only [Bool.not_eq_true] at hx
      split
      · next hy =>
        obtain ⟨-, -, -, q⟩ := under W (x := x) (l := l.toList) (fun z hz => W.tr _ _ _ (h3 z hz) hy)
        have : remSpec lt x (node l y b r).toList = l.toList ++ y :: remSpec lt x r.toList := by
          simp only [remSpec, Tree.toList, List.filter_append, List.filter_cons, q]
          simp [eqv, hy]
        rw [this, ← ir]
        generalize remGo lt x r = q
        obtain ⟨r', f⟩ := q
        cases f
        · simp [Tree.toList]
        · simp [balance_list, Tree.toList]
      · next hy =>
        simp only [Bool.not_eq_true] at hy
        obtain ⟨-, -, -, q1⟩ := under W (x := x) (l := l.toList) (fun z hz => W.eqv_left hx hy (h3 z hz))
        obtain ⟨-, -, -, q2⟩ := above W (x := x) (l := r.toList) (fun z hz => W.eqv_right hx hy (h4 z hz))
        have : remSpec lt x (node l y b r).toList = l.toList ++ r.toList := by
          simp only [remSpec, Tree.toList, List.filter_append, List.filter_cons, q1, q2]
          simp [eqv, hx, hy]
        rw [this]
        obtain ⟨i1, i2⟩ := takeFirst_list r
        split
        · next hn => rw [i1 hn]; simp [Tree.toList]
        · next m r' hn =>
          simp only []
          rw [balance_list, i2 _ _ _ hn]; simp [Tree.toList]
        · next m r' hn => rw [i2 _ _ _ hn]; simp [Tree.toList]

theorem insSpec_sorted {lt : α → α → Bool} (W : Weak lt) (x : α) {l : List α} (h : Sorted lt l) :
    Sorted lt (insSpec lt x l) := by
  unfold insSpec
  split
  · exact h
  · unfold Sorted at *
    rw [List.pairwise_append, List.pairwise_cons]
    refine ⟨h.filter _, ⟨fun z hz => (List.mem_filter.1 hz).2, h.filter _⟩, fun a ha b hb => ?_⟩
    have ha := (List.mem_filter.1 ha).2
    rcases List.mem_cons.1 hb with rfl | hb
    · exact ha
    · exact W.tr _ _ _ ha (List.mem_filter.1 hb).2

theorem remSpec_sorted {lt : α → α → Bool} (x : α) {l : List α} (h : Sorted lt l) : Sorted lt (remSpec lt x l) :=
  List.Pairwise.filter _ h

theorem first_eq : ∀ t : Tree α, t.first = t.toList.head?
  | .nil => rfl
  | .node .nil x b r => by simp [first, Tree.toList]
  | .node (.node a y c d) x b r => by
    rw [first, first_eq (.node a y c d)]
    · simp [Tree.toList]
    · simp

theorem last_eq : ∀ t : Tree α, t.last = t.toList.getLast?
  | .nil => rfl
  | .node l x b .nil => by simp [last, Tree.toList]
  | .node l x b (.node a y c d) => by
    rw [last, last_eq (.node a y c d)]
    · simp [Tree.toList, List.getLast?_cons]
    · simp

/-- The elements after, and before, the subtree at the end of the way. -/
def aft : List (Step α) → List α
  | [] => []
  | .left x _ r :: p => x :: r.toList ++ aft p
  | .right .. :: p => aft p

def bef : List (Step α) → List α
  | [] => []
  | .left .. :: p => bef p
  | .right l x _ :: p => bef p ++ (l.toList ++ [x])

theorem plug_list (t : Tree α) (p : List (Step α)) : (plug t p).toList = bef p ++ (t.toList ++ aft p) := by
  induction p generalizing t with
  | nil => simp [plug, bef, aft]
  | cons s p ih =>
    cases s with
    | left x b r => simp [plug, bef, aft, ih, Tree.toList]
    | right l x b => simp [plug, bef, aft, ih, Tree.toList]

theorem upNext_eq (p : List (Step α)) : upNext p = (aft p).head? := by
  induction p with
  | nil => rfl
  | cons s p ih => cases s <;> simp [upNext, aft, ih]

theorem upPrev_eq (p : List (Step α)) : upPrev p = (bef p).getLast? := by
  induction p with
  | nil => rfl
  | cons s p ih => cases s <;> simp [upPrev, bef, ih]

theorem next_eq (r : Tree α) (p : List (Step α)) : next r p = (r.toList ++ aft p).head? := by
  unfold next
  split
  · simp [upNext_eq, Tree.toList]
  · next hn =>
    rw [first_eq]
    cases r with
    | nil => exact absurd rfl hn
    | node a x b c => simp [Tree.toList]

theorem prev_eq (l : Tree α) (p : List (Step α)) : prev l p = (bef p ++ l.toList).getLast? := by
  unfold prev
  split
  · simp [upPrev_eq, Tree.toList]
  · next hn =>
    rw [last_eq]
    cases l with
    | nil => exact absurd rfl hn
    | node a x b c => simp [Tree.toList, List.getLast?_cons]

theorem search_eq {lt : α → α → Bool} (W : Weak lt) (x : α) (t : Tree α) (h : Sorted lt t.toList) :
    t.search lt x = t.toList.find? (eqv lt x) := by
  induction t with
  | nil => rfl
  | node l y b r ihl ihr =>
    simp only [Tree.toList] at h
    obtain ⟨h1, h2, h3, h4⟩ := sorted_mid h
    unfold search
    simp only [Tree.toList, List.find?_append, List.find?_cons]
    split
    · next hx =>
      obtain ⟨-, -, q, -⟩ := above W (x := x) (l := r.toList) (fun z hz => W.tr _ _ _ hx (h4 z hz))
      have : r.toList.find? (eqv lt x) = none := by
        rw [List.find?_eq_none]; intro z hz; exact (List.any_eq_false.1 q) z hz
      rw [ihl h1, this]
      simp [eqv, hx]
    · next hx =>
      simp only [Bool.not_eq_true] at hx
      split
      · next hy =>
        obtain ⟨-, -, q, -⟩ := under W (x := x) (l := l.toList) (fun z hz => W.tr _ _ _ (h3 z hz) hy)
        have : l.toList.find? (eqv lt x) = none := by
          rw [List.find?_eq_none]; intro z hz; exact (List.any_eq_false.1 q) z hz
        rw [ihr h2, this]
        simp [eqv, hy]
      · next hy =>
        simp only [Bool.not_eq_true] at hy
        obtain ⟨-, -, q, -⟩ := under W (x := x) (l := l.toList) (fun z hz => W.eqv_left hx hy (h3 z hz))
        have : l.toList.find? (eqv lt x) = none := by
          rw [List.find?_eq_none]; intro z hz; exact (List.any_eq_false.1 q) z hz
        simp [this, eqv, hx, hy]

theorem insRet_eq (lt : α → α → Bool) (x : α) (t : Tree α) : insRet lt x t = (t.search lt x).getD x := by
  induction t with
  | nil => rfl
  | node l y b r ihl ihr =>
    unfold insRet search
    split
    · exact ihl
    · split
      · exact ihr
      · rfl

/-- One call. -/
inductive Op (α : Type)
  | ins (x : α)
  | rem (x : α)

/-- The tree after a sequence of calls, from `avl_init` (src/avltree.cc:425-429) on. -/
def run (lt : α → α → Bool) : List (Op α) → Tree α → Tree α
  | [], t => t
  | .ins x :: o, t => run lt o (t.insert lt x)
  | .rem x :: o, t => run lt o (t.remove lt x)

theorem run_ok {lt : α → α → Bool} (W : Weak lt) (o : List (Op α)) (t : Tree α) (h : Ok t)
    (hs : Sorted lt t.toList) : Ok (run lt o t) ∧ Sorted lt (run lt o t).toList := by
  induction o generalizing t with
  | nil => exact ⟨h, hs⟩
  | cons a o ih =>
    cases a with
    | ins x =>
      refine ih _ (insGo_ok lt x t h).1 ?_
      have e : (t.insert lt x).toList = insSpec lt x t.toList := insGo_list W x t hs
      rw [e]; exact insSpec_sorted W x hs
    | rem x =>
      refine ih _ (remGo_ok lt x t h).1 ?_
      have e : (t.remove lt x).toList = remSpec lt x t.toList := remGo_list W x t hs
      rw [e]; exact remSpec_sorted x hs

theorem searchGreater_eq {lt : α → α → Bool} (W : Weak lt) (x : α) : ∀ (t : Tree α) (p : List (Step α)),
    t ≠ .nil → Sorted lt t.toList → (∀ z ∈ aft p, lt x z = true) →
    searchGreater lt x t p = (t.toList ++ aft p).find? (fun y => !lt y x)
  | .nil, p, h, _, _ => absurd rfl h
  | .node l y b r, p, _, hs, hp => by
    simp only [Tree.toList] at hs
    obtain ⟨h1, h2, h3, h4⟩ := sorted_mid hs
    have tail : ∀ q : List α, (∀ z ∈ q, lt x z = true) → q.find? (fun y => !lt y x) = q.head? := by
      intro q hq
      cases q with
      | nil => rfl
      | cons a q => rw [List.find?_cons, W.asymm (hq a (List.mem_cons_self ..))]; rfl
    unfold searchGreater
    split
    · next hx =>
      split
      · simp [Tree.toList, W.asymm hx]
      · next hn =>
        rw [searchGreater_eq W x l _ hn h1]
        · simp [aft, Tree.toList]
        · intro z hz
          simp only [aft, List.cons_append, List.mem_cons, List.mem_append] at hz
          rcases hz with rfl | hz | hz
          · exact hx
          · exact W.tr _ _ _ hx (h4 z hz)
          · exact hp z hz
    · next hx =>
      simp only [Bool.not_eq_true] at hx
      split
      · next hy =>
        have hl : l.toList.find? (fun y => !lt y x) = none := by
          rw [List.find?_eq_none]
          intro z hz
          simp [W.tr _ _ _ (h3 z hz) hy]
        split
        · rw [next_eq]
          simp only [Tree.toList, List.nil_append, List.append_assoc, List.cons_append, List.find?_append, hl,
            List.find?_cons, hy, tail _ hp]
          simp
        · next hn =>
          rw [searchGreater_eq W x r _ hn h2 (by exact hp)]
          simp only [aft, Tree.toList, List.append_assoc, List.cons_append, List.find?_append, hl, List.find?_cons, hy]
          simp
      · next hy =>
        simp only [Bool.not_eq_true] at hy
        have hl : l.toList.find? (fun y => !lt y x) = none := by
          rw [List.find?_eq_none]
          intro z hz
          simp [W.eqv_left hx hy (h3 z hz)]
        simp [Tree.toList, hl, hy]

theorem searchSmaller_eq {lt : α → α → Bool} (W : Weak lt) (x : α) : ∀ (t : Tree α) (p : List (Step α)),
    t ≠ .nil → Sorted lt t.toList → (∀ z ∈ bef p, lt z x = true) →
    searchSmaller lt x t p = (bef p ++ t.toList).reverse.find? (fun y => !lt x y)
  | .nil, p, h, _, _ => absurd rfl h
  | .node l y b r, p, _, hs, hp => by
    simp only [Tree.toList] at hs
    obtain ⟨h1, h2, h3, h4⟩ := sorted_mid hs
    have tail : ∀ q : List α, (∀ z ∈ q, lt z x = true) → q.reverse.find? (fun y => !lt x y) = q.getLast? := by
      intro q hq
      rw [← List.head?_reverse]
      have hq : ∀ z ∈ q.reverse, lt z x = true := fun z hz => hq z (List.mem_reverse.1 hz)
      generalize q.reverse = q at hq
      cases q with
      | nil => rfl
      | cons a q => rw [List.find?_cons, W.asymm (hq a (List.mem_cons_self ..))]; rfl
    unfold searchSmaller
    split
    · next hx =>
      have hr : r.toList.reverse.find? (fun y => !lt x y) = none := by
        rw [List.find?_eq_none]
        intro z hz
        simp [W.tr _ _ _ hx (h4 z (List.mem_reverse.1 hz))]
      split
      · rw [prev_eq]
        simp only [Tree.toList, List.nil_append, List.append_nil, List.reverse_append, List.reverse_cons,
          List.append_assoc, List.find?_append, hr, List.find?_cons, hx, tail _ hp]
        simp
      · next hn =>
        rw [searchSmaller_eq W x l _ hn h1 (by exact hp)]
        simp only [bef, Tree.toList, List.reverse_append, List.reverse_cons, List.append_assoc, List.find?_append, hr,
          List.find?_cons, hx]
        simp
    · next hx =>
      simp only [Bool.not_eq_true] at hx
      split
      · next hy =>
        split
        · simp [Tree.toList, hx]
        · next hn =>
          rw [searchSmaller_eq W x r _ hn h2]
          · simp [bef, Tree.toList]
          · intro z hz
            simp only [bef, List.mem_append, List.mem_singleton] at hz
            rcases hz with hz | hz | rfl
            · exact hp z hz
            · exact W.tr _ _ _ (h3 z hz) hy
            · exact hy
      · next hy =>
        simp only [Bool.not_eq_true] at hy
        have hr : r.toList.reverse.find? (fun y => !lt x y) = none := by
          rw [List.find?_eq_none]
          intro z hz
          simp [W.eqv_right hx hy (h4 z (List.mem_reverse.1 hz))]
        simp [Tree.toList, hr, hx]

end Jungle.Avl
