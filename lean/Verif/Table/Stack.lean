/-
  The records of a key in the table section from the top down, and lists that repeat or skip
  elements of another list but never change their order.
-/
import Verif.Table.L0

set_option linter.unusedSectionVars false

namespace Jungle

/-- `Img l' l`: `l'` lists elements of `l` in the same order; elements may be left out or repeated. -/
inductive Img {α : Type} : List α → List α → Prop
  | nil : Img [] []
  | skip {l' l a} : Img l' l → Img l' (a :: l)
  | dup {l' l a} : Img l' (a :: l) → Img (a :: l') (a :: l)

namespace Img
variable {α : Type}

theorem keep {l' l : List α} {a : α} (h : Img l' l) : Img (a :: l') (a :: l) := dup (skip h)

theorem refl : ∀ l : List α, Img l l
  | [] => nil
  | _ :: l => keep (refl l)

theorem nil_left : ∀ l : List α, Img [] l
  | [] => nil
  | _ :: l => skip (nil_left l)

theorem append {a' a b' b : List α} (h1 : Img a' a) (h2 : Img b' b) : Img (a' ++ b') (a ++ b) := by
  induction h1 with
  | nil => exact h2
  | skip _ ih => exact skip ih
  | dup _ ih => exact dup ih

theorem mem {l' l : List α} (h : Img l' l) {x : α} (hx : x ∈ l') : x ∈ l := by
  induction h with
  | nil => exact hx
  | skip _ ih => exact List.mem_cons_of_mem _ (ih hx)
  | dup _ ih =>
    rcases List.mem_cons.1 hx with rfl | hx
    · exact List.mem_cons_self
    · exact ih hx

theorem trans {a b c : List α} (h1 : Img a b) (h2 : Img b c) : Img a c := by
  induction h2 generalizing a with
  | nil => exact h1
  | skip _ ih => exact skip (ih h1)
  | @dup b' c' x _ ih =>
    clear * - h1 ih
    induction a with
    | nil => exact nil_left _
    | cons y a iha =>
      cases h1 with
      | skip h => exact ih h
      | dup h => exact dup (iha h)

theorem skips (a : List α) {l' l : List α} (h : Img l' l) : Img l' (a ++ l) := by
  induction a with
  | nil => exact h
  | cons x a ih => exact skip ih

theorem const {l' : List α} {a : α} (h : ∀ x ∈ l', x = a) : Img l' [a] := by
  induction l' with
  | nil => exact nil_left _
  | cons x l ih =>
    rw [h x List.mem_cons_self]
    exact dup (ih (fun y hy => h y (List.mem_cons_of_mem _ hy)))

theorem pairwise {R : α → α → Prop} {l' l : List α} (h : Img l' l)
    (hp : l.Pairwise (fun a b => R a b ∨ a = b)) : l'.Pairwise (fun a b => R a b ∨ a = b) := by
  induction h with
  | nil => exact hp
  | skip _ ih => exact ih (List.pairwise_cons.1 hp).2
  | @dup l'' l a h ih =>
    refine List.pairwise_cons.2 ⟨?_, ih hp⟩
    intro x hx
    rcases List.mem_cons.1 (h.mem hx) with rfl | h1
    · exact Or.inr rfl
    · exact (List.pairwise_cons.1 hp).1 x h1

theorem ofOption {o' o : Option α} (h : o' = o ∨ o' = none) : Img o'.toList o.toList := by
  rcases h with rfl | rfl
  · exact refl _
  · exact nil_left _

end Img

namespace TMgr
variable {K : Type} [LinearOrder K] [OrderBot K]

/-- What the levels hold for `k`, from level 1 down. -/
abbrev lvStack (lv : List (List (Tab K))) (k : K) : List (Rec K) := lv.filterMap (fun l => look l k)

/-- All records of `k` in the table section from the top down. -/
def stack (c : TCfg K) (t : TMgr K) (k : K) : List (Rec K) :=
  (((t.normOf (c.hash k % t.parts)).bind (·.get k)).toList ++
    ((t.srcOf (c.hash k % t.parts)).bind (·.get k)).toList) ++ lvStack t.lv k

theorem lvStack_cons (l : List (Tab K)) (b : List (List (Tab K))) (k : K) :
    lvStack (l :: b) k = (look l k).toList ++ lvStack b k := by
  unfold lvStack
  rw [List.filterMap_cons]
  cases look l k <;> rfl

theorem lvStack_append (a b : List (List (Tab K))) (k : K) :
    lvStack (a ++ b) k = lvStack a k ++ lvStack b k := List.filterMap_append

theorem lvStack_head (lv : List (List (Tab K))) (k : K) :
    (lvStack lv k).head? = lv.findSome? (fun l => look l k) := by
  unfold lvStack
  induction lv with
  | nil => rfl
  | cons l b ih =>
    rw [List.filterMap_cons, List.findSome?_cons]
    cases look l k with
    | none => exact ih
    | some r => rfl

/-- The point lookup returns the topmost record. -/
theorem get_eq_head {c : TCfg K} {t : TMgr K} (h : Inv c t) (k : K) :
    t.get c k = (stack c t k).head? := by
  rw [get_eq h]
  unfold stack lvLook
  rw [List.head?_append, List.head?_append, lvStack_head]
  cases (t.normOf (c.hash k % t.parts)).bind (·.get k) <;>
    cases (t.srcOf (c.hash k % t.parts)).bind (·.get k) <;> rfl

/-- Writing a batch puts its last record of the key on top. -/
theorem setBatchSome_stack {c : TCfg K} {t : TMgr K} (h : Inv c t) (R : List (Rec K)) (ps : List Nat)
    (hnd : ps.Nodup) (hps : ∀ p ∈ ps, p < t.parts) (k : K) :
    Img (stack c (ps.foldl (fun t p => setBatchPart c t R p) t) k)
      ((Spec.lastWrite R k).toList ++ stack c t k) := by
  have key : ∀ (ps : List Nat) (t : TMgr K), Inv c t → (∀ p ∈ ps, p < t.parts) → ps.Nodup →
      let t' := ps.foldl (fun t p => setBatchPart c t R p) t
      t'.parts = t.parts ∧ t'.lv = t.lv ∧
      (∀ q, q < t.parts → t'.srcOf q = t.srcOf q) ∧
      (∀ q, t'.normOf q =
        if q ∈ ps then (t.normOf q).map (fun x => x.setBatch c t.parts q R) else t.normOf q) := by
    intro ps
    induction ps with
    | nil => intro t h _ _; exact ⟨rfl, rfl, fun _ _ => rfl, fun q => by simp⟩
    | cons p ps ih =>
      intro t h hps hnd
      have hnd' := List.nodup_cons.1 hnd
      obtain ⟨j1, j2, j3, -, j5, j6⟩ := setBatchPart_ok h R (p := p) (hps p (by simp))
      obtain ⟨i2, i3, i5, i6⟩ := ih (setBatchPart c t R p) j1
        (fun q hq => by rw [j2]; exact hps q (by simp [hq])) hnd'.2
      simp only [List.foldl_cons]
      refine ⟨i2.trans j2, i3.trans j3, ?_, ?_⟩
      · intro q hq; rw [i5 q (by rw [j2]; exact hq), j5 q hq]
      · intro q
        rw [i6 q, j6 q]
        by_cases hqp : q = p
        · subst hqp
          rw [if_neg hnd'.1]; simp
        · rw [if_neg hqp, j2]; simp [hqp]
  obtain ⟨k2, k3, k5, k6⟩ := key ps t h hps hnd
  have hp : c.hash k % t.parts < t.parts := Nat.mod_lt _ h.pos
  unfold stack
  rw [k2, k3, k5 _ hp, k6]
  split
  · obtain ⟨x, hx⟩ := normOf_some h hp
    have hx' := (normOf_iff h _ x).1 hx
    have hrec := h.l0Recs x hx'.1
    have hok := tabSetBatch_ok c t.parts (c.hash k % t.parts) R x hrec.1 (by
      intro e he; rw [← hx'.2.1]; exact hrec.2 e he)
    rw [hx]
    simp only [Option.map_some, Option.bind_some]
    rw [hok.2.2 k rfl]
    cases Spec.lastWrite R k with
    | none => exact Img.refl _
    | some r =>
      rw [List.append_assoc, List.append_assoc]
      exact Img.keep (Img.skips (x.get k).toList (Img.refl _))
  · exact Img.skips _ (Img.refl _)

theorem setBatch_stack {c : TCfg K} {t : TMgr K} (h : Inv c t) (R : List (Rec K)) (k : K) :
    Img (stack c (setBatch c t R) k) ((Spec.lastWrite R k).toList ++ stack c t k) :=
  setBatchSome_stack h R (List.range t.parts) List.nodup_range (fun _ hp => List.mem_range.1 hp) k

theorem stack_init (c : TCfg K) {parts : Nat} (hp : 0 < parts) (k : K) :
    stack c (init parts : TMgr K) k = [] := by
  have h := inv_init (K := K) c hp
  have := get_init (K := K) c hp k
  rw [get_eq_head h] at this
  exact List.head?_eq_none_iff.1 this

end TMgr
end Jungle
