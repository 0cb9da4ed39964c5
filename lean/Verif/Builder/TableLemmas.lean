/-
  The table files of a bulk build with ascending keys, and the table section made from them.
-/
import Verif.Builder.Model

set_option linter.unusedSectionVars false

namespace Jungle
open Spec
variable {K : Type} [LinearOrder K] [OrderBot K]

namespace Bld

/-- The documents the calls store, in call order, with their numbers: given ones, or `c`, `c + 1`, … -/
def docs : Nat → List (Rec K) → List (Rec K)
  | _, [] => []
  | c, r :: rs => docOf r (if r.seq = NIL then c else r.seq) ::
      docs (if r.seq = NIL then c + 1 else c) rs

/-- Key and document. -/
def pair (r : Rec K) : K × Rec K := (r.key, r)

/-- A table file in the making, after ascending documents `ds`. -/
structure Ok (b : Bld K) (ds : List (Rec K)) : Prop where
  recs : (b.tables.map (·.recs)).flatten = ds.map pair
  ne : ∀ t ∈ b.tables, t.recs ≠ []
  nums : b.tables.map (·.number) = List.range b.tables.length
  next : b.next = b.tables.length
  min : ∀ t ∈ b.tables, t.number ≠ 0 → t.minKey ≠ ⊥ ∧ ∃ e m, t.recs = e :: m ∧ e.1 = t.minKey
  le : ∀ t ∈ b.tables, t.maxSeq ≤ b.maxSeq
  last : ∀ t, b.tables.getLast? = some t → t.maxSeq = b.maxSeq
  top : b.maxSeq = (ds.map (·.seq)).foldl Nat.max 0
  cur : b.cur = none → b.done = []

theorem finalize_finalize (b : Bld K) : b.finalize.finalize = b.finalize := by
  unfold finalize
  cases hc : b.cur with
  | none => simp [hc]
  | some p => rfl

theorem tables_none {b : Bld K} (h : b.cur = none) : b.tables = b.done := by
  unfold tables finalize; rw [h]

theorem tables_some {b : Bld K} {i m} (h : b.cur = some (i, m)) :
    b.tables = b.done ++ [{ number := i, minKey := b.curMin, maxSeq := b.maxSeq, recs := m }] := by
  unfold tables finalize; rw [h]

theorem Ok.init : Ok ({} : Bld K) [] := by
  refine ⟨rfl, ?_, rfl, rfl, ?_, ?_, ?_, rfl, fun _ => rfl⟩ <;> intro t ht <;> simp [tables, finalize] at ht

/-- Inserting above all keys. -/
theorem insert_back {m : SMap K (Rec K)} {k : K} {r : Rec K} (h : ∀ e ∈ m, e.1 < k) :
    m.insert k r = m ++ [(k, r)] := by
  induction m with
  | nil => rfl
  | cons a m ih =>
    have ha := h a List.mem_cons_self
    have e := ih (fun e he => h e (List.mem_cons_of_mem _ he))
    have : (SMap.insert (a :: m) k r) = a :: SMap.insert m k r := by
      obtain ⟨a1, a2⟩ := a
      simp only [SMap.insert, SMap.upsert]
      rw [if_neg (not_lt.2 (le_of_lt ha)), if_neg (ne_of_gt ha)]
    rw [this, e]; rfl

/-- One more document above all keys so far. -/
theorem Ok.set {b : Bld K} {ds : List (Rec K)} (h : Ok b ds) (full : Bool) (r : Rec K)
    (hk : ∀ d ∈ ds, d.key < r.key) :
    Ok (b.set full r) (ds ++ [docOf r (if r.seq = NIL then b.counter else r.seq)]) ∧
    (b.set full r).counter = if r.seq = NIL then b.counter + 1 else b.counter := by
  have hroomc : (b.room full).counter = b.counter := by
    unfold room finalize; split
    · cases b.cur <;> rfl
    · rfl
  refine ⟨?_, by simp only [Bld.set, hroomc]⟩
  generalize hs : (if r.seq = NIL then b.counter else r.seq) = s
  have hall : ∀ t ∈ b.tables, ∀ e ∈ t.recs, e.1 < r.key := by
    intro t ht e he
    have : e ∈ (b.tables.map (·.recs)).flatten := List.mem_flatten.2 ⟨t.recs, List.mem_map_of_mem ht, he⟩
    rw [h.recs] at this
    obtain ⟨d, hd, rfl⟩ := List.mem_map.1 this
    exact hk d hd
  have hmax : Nat.max b.maxSeq s = ((ds ++ [docOf r s]).map (·.seq)).foldl Nat.max 0 := by
    rw [List.map_append, List.foldl_append, ← h.top]; rfl
  by_cases hc : (b.cur.isNone || full) = true
  · -- a new table
    have hroom : b.room full = { b.finalize with cur := some (b.finalize.next, []), next := b.finalize.next + 1 } := by
      unfold room; rw [if_pos hc]
    have hfn : b.finalize.next = b.next := by unfold finalize; cases b.cur <;> rfl
    have hfm : b.finalize.maxSeq = b.maxSeq := by unfold finalize; cases b.cur <;> rfl
    have hfc : b.finalize.counter = b.counter := by unfold finalize; cases b.cur <;> rfl
    have hmin : b.finalize.curMin = ⊥ ∨ b.cur = none := by
      unfold finalize; cases b.cur with
      | none => exact Or.inr rfl
      | some p => exact Or.inl rfl
    generalize hmk : (if b.finalize.curMin = ⊥ then r.key else b.finalize.curMin) = mk
    have ht : (b.set full r).tables = b.tables ++
        [{ number := b.next, minKey := mk, maxSeq := Nat.max b.maxSeq s, recs := [(r.key, docOf r s)] }] := by
      rw [tables_some (i := b.next) (m := [(r.key, docOf r s)])
        (by simp only [Bld.set, hroom, hfn, hfc, hs]; rfl)]
      simp only [Bld.set, hroom, hfc, hfm, hs, hmk]
      rfl
    have hn : (b.set full r).next = b.next + 1 := by simp only [Bld.set, hroom, hfn]
    have hm : (b.set full r).maxSeq = Nat.max b.maxSeq s := by simp only [Bld.set, hroom, hfm, hfc, hs]
    refine ⟨?_, ?_, ?_, ?_, ?_, ?_, ?_, ?_, ?_⟩
    · rw [ht, List.map_append, List.flatten_append, h.recs]; simp [pair, docOf]
    · intro t htm; rw [ht] at htm
      rcases List.mem_append.1 htm with h1 | h1
      · exact h.ne t h1
      · simp only [List.mem_singleton] at h1; subst h1; simp
    · rw [ht, List.map_append, h.nums, List.length_append, List.length_singleton, List.range_succ, ← h.next]; rfl
    · rw [ht, hn, h.next]; simp
    · intro t htm hnz; rw [ht] at htm
      rcases List.mem_append.1 htm with h1 | h1
      · exact h.min t h1 hnz
      · simp only [List.mem_singleton] at h1; subst h1
        simp only at hnz
        have hne : b.tables ≠ [] := by
          intro he; rw [h.next, he] at hnz; exact hnz rfl
        have hcur : b.finalize.curMin = ⊥ := by
          rcases hmin with h1 | h1
          · exact h1
          · exfalso; apply hne; rw [tables_none h1]; exact h.cur h1
        rw [if_pos hcur] at hmk
        subst hmk
        refine ⟨?_, (r.key, docOf r s), [], rfl, rfl⟩
        obtain ⟨t0, ts, e0⟩ := List.exists_cons_of_ne_nil hne
        have ht0 : t0 ∈ b.tables := by rw [e0]; exact List.mem_cons_self
        obtain ⟨e, m, em⟩ := List.exists_cons_of_ne_nil (h.ne t0 ht0)
        have := hall t0 ht0 e (by rw [em]; exact List.mem_cons_self)
        exact ne_of_gt (lt_of_le_of_lt bot_le this)
    · intro t htm; rw [ht] at htm; rw [hm]
      rcases List.mem_append.1 htm with h1 | h1
      · exact Nat.le_trans (h.le t h1) (Nat.le_max_left _ _)
      · simp only [List.mem_singleton] at h1; subst h1; exact Nat.le_refl _
    · intro t htl; rw [ht, List.getLast?_concat] at htl; cases htl; rw [hm]
    · rw [hm]; exact hmax
    · intro hcur
      simp only [Bld.set, hroom] at hcur
      cases hcur
  · -- the open table
    have hroom : b.room full = b := by unfold room; rw [if_neg hc]
    obtain ⟨⟨i, m⟩, hcur⟩ : ∃ p, b.cur = some p := by
      cases hb : b.cur with
      | none => rw [hb] at hc; simp at hc
      | some p => exact ⟨p, rfl⟩
    have htb := tables_some hcur
    have hins : m.insert r.key (docOf r s) = m ++ [(r.key, docOf r s)] := by
      apply insert_back
      intro e he
      exact hall { number := i, minKey := b.curMin, maxSeq := b.maxSeq, recs := m } (by rw [htb]; simp) e he
    have ht : (b.set full r).tables = b.done ++
        [{ number := i, minKey := if b.curMin = ⊥ then r.key else b.curMin, maxSeq := Nat.max b.maxSeq s,
           recs := m ++ [(r.key, docOf r s)] }] := by
      rw [tables_some (i := i) (m := m ++ [(r.key, docOf r s)])
        (by simp only [Bld.set, hroom, hs, hcur, ← hins]; rfl)]
      simp only [Bld.set, hroom, hs]
    have hn : (b.set full r).next = b.next := by simp only [Bld.set, hroom]
    have hm : (b.set full r).maxSeq = Nat.max b.maxSeq s := by simp only [Bld.set, hroom, hs]
    have hrecs := h.recs
    have hnums := h.nums
    have hnext := h.next
    rw [htb] at hrecs hnums hnext
    refine ⟨?_, ?_, ?_, ?_, ?_, ?_, ?_, ?_, ?_⟩
    · rw [ht, List.map_append (f := pair), ← hrecs]; simp [pair, docOf]
    · intro t htm; rw [ht] at htm
      rcases List.mem_append.1 htm with h1 | h1
      · exact h.ne t (by rw [htb]; exact List.mem_append_left _ h1)
      · simp only [List.mem_singleton] at h1; subst h1; simp
    · rw [ht]; simpa using hnums
    · rw [ht, hn]; simpa using hnext
    · intro t htm hnz; rw [ht] at htm
      rcases List.mem_append.1 htm with h1 | h1
      · exact h.min t (by rw [htb]; exact List.mem_append_left _ h1) hnz
      · simp only [List.mem_singleton] at h1; subst h1
        obtain ⟨h1, e, m', h2, h3⟩ := h.min { number := i, minKey := b.curMin, maxSeq := b.maxSeq, recs := m }
          (by rw [htb]; simp) hnz
        simp only at h1 h2 h3
        simp only [if_neg h1]
        exact ⟨h1, e, m' ++ [(r.key, docOf r s)], by rw [h2]; rfl, h3⟩
    · intro t htm; rw [ht] at htm; rw [hm]
      rcases List.mem_append.1 htm with h1 | h1
      · exact Nat.le_trans (h.le t (by rw [htb]; exact List.mem_append_left _ h1)) (Nat.le_max_left _ _)
      · simp only [List.mem_singleton] at h1; subst h1; exact Nat.le_refl _
    · intro t htl; rw [ht, List.getLast?_concat] at htl; cases htl; rw [hm]
    · rw [hm]; exact hmax
    · intro hcn
      simp only [Bld.set, hroom, hcur] at hcn
      cases hcn

theorem run_ok {w : List (Bool × Rec K)} (h : (w.map (·.2.key)).Pairwise (· < ·)) :
    Ok (run w) (docs 1 (w.map (·.2))) := by
  have key : ∀ (w : List (Bool × Rec K)) (b : Bld K) (ds : List (Rec K)), Ok b ds →
      (w.map (·.2.key)).Pairwise (· < ·) → (∀ d ∈ ds, ∀ p ∈ w, d.key < p.2.key) →
      Ok (w.foldl (fun b p => b.set p.1 p.2) b) (ds ++ docs b.counter (w.map (·.2))) := by
    intro w
    induction w with
    | nil => intro b ds h1 _ _; simpa [docs] using h1
    | cons p w ih =>
      intro b ds h1 h2 h3
      obtain ⟨h4, h5⟩ := h1.set p.1 p.2 (fun d hd => h3 d hd p List.mem_cons_self)
      rw [List.map_cons, List.pairwise_cons] at h2
      have := ih _ _ h4 h2.2 (by
        intro d hd q hq
        rcases List.mem_append.1 hd with h6 | h6
        · exact h3 d h6 q (List.mem_cons_of_mem _ hq)
        · simp only [List.mem_singleton] at h6; subst h6
          exact h2.1 _ (List.mem_map_of_mem (f := fun x : Bool × Rec K => x.2.key) hq))
      rw [h5, List.append_assoc] at this
      exact this
  exact key w {} [] Ok.init h (by simp)

end Bld
end Jungle
