import Mathlib.Data.List.Nodup
import Verif.Codec.TabMani

namespace Jungle
namespace DbMani

theorem footer_length : footer.length = 8 := rfl

/-- the two maps mirror each other; identifiers ascend from 1 -/
structure Inv (m : DbMani) : Prop where
  sorted : m.ids.Pairwise (fun p q => p.1 < q.1)
  bound : ∀ p ∈ m.ids, 1 ≤ p.1 ∧ p.1 < m.maxId
  mirror : m.names = m.ids.map fun p => (p.2, p.1)
  nodup : (m.ids.map (·.2)).Nodup
  count : m.maxId = m.ids.length + 1

theorem inv_empty : Inv empty :=
  ⟨List.Pairwise.nil, (by simp [empty]), rfl, (by simp [empty]), rfl⟩

theorem insertId_last : ∀ (l : List (Nat × Bytes)) (i : Nat) (n : Bytes), (∀ p ∈ l, p.1 < i) →
    insertId l i n = l ++ [(i, n)] := by
  intro l
  induction l with
  | nil => intro i n _; rfl
  | cons p ps ih =>
    intro i n h
    have h0 := h p (by simp)
    rw [insertId, if_neg (by omega), if_neg (by omega), ih i n fun q hq => h q (by simp [hq])]
    rfl

theorem getId_none {m : DbMani} (h : Inv m) {n : Bytes} : m.getId n = none ↔ n ∉ m.ids.map (·.2) := by
  unfold getId
  rw [h.mirror]
  simp only [Option.map_eq_none_iff, List.find?_eq_none, List.mem_map]
  constructor
  · rintro h' ⟨p, hp, rfl⟩
    exact h' (p.2, p.1) ⟨p, hp, rfl⟩ (by simp)
  · rintro h' x ⟨p, hp, rfl⟩ hx
    simp at hx
    exact h' ⟨p, hp, hx⟩

theorem getId_some {m : DbMani} (h : Inv m) {n : Bytes} {i : Nat} : m.getId n = some i ↔ (i, n) ∈ m.ids := by
  unfold getId
  rw [h.mirror]
  constructor
  · intro h'
    obtain ⟨x, hx, rfl⟩ := Option.map_eq_some_iff.1 h'
    have h1 := List.mem_of_find?_eq_some hx
    have h2 := List.find?_some hx
    obtain ⟨p, hp, rfl⟩ := List.mem_map.1 h1
    simp at h2
    rw [← h2]; exact hp
  · intro h'
    have hm : (n, i) ∈ m.ids.map fun p => (p.2, p.1) := List.mem_map.2 ⟨(i, n), h', rfl⟩
    cases hf : (m.ids.map fun p => (p.2, p.1)).find? fun p => p.1 == n with
    | none =>
      rw [List.find?_eq_none] at hf
      exact absurd (by simp) (hf _ hm)
    | some x =>
      have h1 := List.mem_of_find?_eq_some hf
      have h2 := List.find?_some hf
      obtain ⟨p, hp, rfl⟩ := List.mem_map.1 h1
      simp at h2
      have : p = (i, n) := List.inj_on_of_nodup_map h.nodup hp h' h2
      rw [this]; rfl

theorem add_inv {m m' : DbMani} (h : Inv m) {n : Bytes} (ha : m.add n = some m') :
    Inv m' ∧ m'.ids = m.ids ++ [(m.maxId, n)] := by
  unfold add at ha
  split at ha
  · cases ha
  next hn =>
  cases ha
  have hids : insertId m.ids m.maxId n = m.ids ++ [(m.maxId, n)] :=
    insertId_last _ _ _ fun p hp => (h.bound p hp).2
  have hn' := (getId_none h).1 hn
  refine ⟨⟨?_, ?_, ?_, ?_, ?_⟩, hids⟩
  · simp only [hids]
    refine List.pairwise_append.2 ⟨h.sorted, by simp, ?_⟩
    intro p hp q hq
    simp at hq; subst hq
    exact (h.bound p hp).2
  · simp only [hids]
    intro p hp
    have hc := h.count
    rcases List.mem_append.1 hp with hp | hp
    · have := h.bound p hp; omega
    · simp at hp; subst hp; simp only []; omega
  · simp only [hids, insertName]
    have : (m.names.any fun p => p.1 == n) = false := by
      rw [← Bool.not_eq_true, List.any_eq_true, h.mirror]
      rintro ⟨x, hx, hxn⟩
      obtain ⟨p, hp, rfl⟩ := List.mem_map.1 hx
      simp at hxn
      exact hn' (List.mem_map.2 ⟨p, hp, hxn⟩)
    rw [this, h.mirror]; simp
  · simp only [hids, List.map_append, List.map_cons, List.map_nil]
    rw [List.nodup_append]
    refine ⟨h.nodup, by simp, ?_⟩
    intro a ha b hb
    simp at hb; subst hb
    intro he; subst he; exact hn' ha
  · simp only [hids, List.length_append, List.length_singleton]
    rw [h.count]

theorem insertAll_eq : ∀ (ps : List (Nat × Bytes)) (m : DbMani), (∀ p ∈ ps, ∀ q ∈ m.ids, q.1 < p.1) →
    ps.Pairwise (fun p q => p.1 < q.1) → (∀ p ∈ ps, p.2 ∉ m.names.map (·.1)) → (ps.map (·.2)).Nodup →
    insertAll m ps = ⟨m.maxId, m.ids ++ ps, m.names ++ ps.map fun p => (p.2, p.1)⟩ := by
  intro ps
  induction ps with
  | nil => intro m _ _ _ _; simp [insertAll]
  | cons p ps ih =>
    intro m h1 h2 h3 h4
    rw [insertAll]
    have e1 : insertId m.ids p.1 p.2 = m.ids ++ [p] := insertId_last _ _ _ (h1 p (by simp))
    have e2 : insertName m.names p.2 p.1 = m.names ++ [(p.2, p.1)] := by
      unfold insertName
      have : (m.names.any fun q => q.1 == p.2) = false := by
        rw [← Bool.not_eq_true, List.any_eq_true]
        rintro ⟨x, hx, hxn⟩
        simp at hxn
        exact h3 p (by simp) (List.mem_map.2 ⟨x, hx, hxn⟩)
      rw [this]; rfl
    rw [e1, e2]
    rw [List.pairwise_cons] at h2
    rw [List.map_cons, List.nodup_cons] at h4
    rw [ih]
    · simp
    · intro q hq x hx
      rcases List.mem_append.1 hx with hx | hx
      · exact h1 q (by simp [hq]) x hx
      · simp at hx; subst hx; exact h2.1 q hq
    · exact h2.2
    · intro q hq hmem
      simp only [List.map_append, List.map_cons, List.map_nil, List.mem_append, List.mem_singleton] at hmem
      rcases hmem with hm | hm
      · exact h3 q (by simp [hq]) hm
      · exact h4.1 (List.mem_map.2 ⟨q, hq, hm⟩)
    · exact h4.2

/-- names that survive the C-string buffer of 256 bytes -/
def GoodName (n : Bytes) : Prop := n.length < 256 ∧ 0 ∉ n

theorem takeWhile_good {n : Bytes} (h : 0 ∉ n) : n.takeWhile (· != 0) = n := by
  induction n with
  | nil => rfl
  | cons x xs ih =>
    simp only [List.mem_cons, not_or] at h
    rw [List.takeWhile_cons, if_pos (by simpa using Ne.symm h.1), ih h.2]

theorem getEnt_enc (p : Nat × Bytes) (hi : p.1 < 2 ^ 64) (hn : GoodName p.2) (r : Bytes) :
    getEnt ((be 8 p.1 ++ be 4 p.2.length ++ p.2) ++ r) = some (p, r) := by
  unfold getEnt
  simp only [List.append_assoc]
  rw [getU_be (by simpa using hi)]
  simp only []
  rw [getU_be (by have := hn.1; omega)]
  simp only []
  rw [if_neg (by have := hn.1; omega), takeN_append rfl]
  simp only [takeWhile_good hn.2]

theorem load_enc {m : DbMani} (h : Inv m) (hlen : m.ids.length < 2 ^ 32) (hn : ∀ p ∈ m.ids, GoodName p.2) :
    load m.enc = .ok m := by
  unfold load
  rw [show checkFrame footer m.enc = .ok from checkFrame_frame _ _ _ footer_length]
  simp only []
  unfold enc frame
  have hc := h.count
  simp only [List.append_assoc]
  rw [getU_be (by omega)]
  simp only []
  rw [getU_be (by omega)]
  simp only []
  have hp : ∀ r, parseN getEnt m.ids.length
      (m.ids.flatMap (fun p => be 8 p.1 ++ (be 4 p.2.length ++ p.2)) ++ r) = some (m.ids, r) := by
    intro r
    refine parseN_enc m.ids (fun p hp r => ?_) r
    have := getEnt_enc p (by have := h.bound p hp; omega) (hn p hp) r
    simpa only [List.append_assoc] using this
  rw [hp]
  simp only [Except.ok.injEq]
  rw [insertAll_eq m.ids _ (by simp) h.sorted (by simp) h.nodup]
  cases m with
  | mk a b c => have := h.mirror; simp at this; simp [this]

theorem openDB_spec {m : DbMani} (h : Inv m) (n : Bytes) :
    ∃ i, (m.openDB n).2 = some i ∧ Inv (m.openDB n).1 ∧ (i, n) ∈ (m.openDB n).1.ids ∧
      (∀ p ∈ m.ids, p ∈ (m.openDB n).1.ids) ∧ (∀ p ∈ (m.openDB n).1.ids, p ∈ m.ids ∨ p.2 = n) := by
  unfold openDB
  cases hg : m.getId n with
  | some i => exact ⟨i, rfl, h, (getId_some h).1 hg, fun _ hp => hp, fun _ hp => Or.inl hp⟩
  | none =>
    have : ∃ m', m.add n = some m' := by unfold add; rw [hg]; exact ⟨_, rfl⟩
    obtain ⟨m', hm'⟩ := this
    obtain ⟨hi, hids⟩ := add_inv h hm'
    rw [hm']
    have hmem : (m.maxId, n) ∈ m'.ids := by rw [hids]; simp
    refine ⟨m.maxId, (getId_some hi).2 hmem, hi, hmem, ?_, ?_⟩
    · intro p hp; show p ∈ m'.ids; rw [hids]; simp [hp]
    · intro p hp
      have hp : p ∈ m'.ids := hp
      rw [hids] at hp
      rcases List.mem_append.1 hp with hp | hp
      · exact Or.inl hp
      · simp at hp; subst hp; exact Or.inr rfl

end DbMani

namespace InternalMeta

theorem fromRaw_toRaw (umeta : Bytes) (i : InternalMeta) (hl : i.originalValueLen < 2 ^ 32) :
    fromRaw (toRaw umeta i) =
      (⟨i.isTombstone, i.isCompressed, if i.isCompressed then i.originalValueLen else 0⟩, umeta) := by
  have hne : toRaw umeta i ≠ [] := by
    intro h
    have := congrArg List.length h
    simp [toRaw] at this
  unfold fromRaw
  rw [if_neg hne]
  unfold toRaw
  simp only [List.append_assoc]
  have hf : i.flags < 256 ^ 4 := by unfold flags; split <;> split <;> omega
  rw [getU_be (by omega)]
  simp only [Option.getD_some, ne_eq, not_true_eq_false, if_false]
  rw [getU_be (by omega)]
  simp only [Option.getD_some]
  rw [getU_be hf]
  simp only [Option.getD_some]
  obtain ⟨t, c, l⟩ := i
  cases t <;> cases c <;> simp [flags, Nat.testBit] at * <;> rw [getU_be (by simpa using hl)] <;> simp

theorem readInternal_toRaw (umeta : Bytes) (i : InternalMeta) (hl : i.originalValueLen < 2 ^ 32) :
    readInternal (toRaw umeta i) =
      ⟨i.isTombstone, i.isCompressed, if i.isCompressed then i.originalValueLen else 0⟩ := by
  have : ∀ raw, readInternal raw = (fromRaw raw).1 := by
    intro raw
    unfold readInternal fromRaw
    split
    · rfl
    · simp only []
      split
      · rfl
      · split <;> rfl
  rw [this, fromRaw_toRaw _ _ hl]

theorem extractFlags_toRaw (umeta : Bytes) (i : InternalMeta) : extractFlags (toRaw umeta i) = i.flags := by
  unfold extractFlags toRaw
  simp only [List.append_assoc]
  have hf : i.flags < 256 ^ 4 := by unfold flags; split <;> split <;> omega
  rw [getU_be (by omega)]
  simp only [Option.getD_some]
  rw [getU_be (by omega)]
  simp only [Option.getD_some]
  rw [getU_be hf]
  simp only [Option.getD_some]

end InternalMeta
end Jungle
