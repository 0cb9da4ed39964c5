/-
  C40: the ordered index behaves as a sorted map.

  This is the index the memory tables and the manifests use (src/skiplist.cc), with explicit nodes, pointers, flags
  and counts.  The theorems are about every history of insertions, removals, searches and steps of a traversal, one
  call at a time, and every choice of the heights of the nodes.  Calls at the same time are in Props/SkipRace.
-/
import Verif.Index.SkipErase

set_option linter.unusedSectionVars false

namespace Jungle
open Skip
variable {K : Type} [LinearOrder K]

/-! ### what is in the index, without the index -/

/-- The content after an insertion: a node with a key that is there already is refused if duplicates are not wanted. -/
def Spec.put (m : List (Nat × K)) (i : Nat) (k : K) (noDup : Bool) : List (Nat × K) :=
  if noDup = true ∧ ∃ e ∈ m, e.2 = k then m else (i, k) :: m

/-- The content after a removal. -/
def Spec.drop (m : List (Nat × K)) (i : Nat) : List (Nat × K) := m.filter (fun e => decide (e.1 ≠ i))

/-- A greatest key among those that satisfy `p`. -/
def Spec.Greatest (m : List (Nat × K)) (p : K → Prop) (r : Option SPtr) : Prop :=
  (r = none ∧ ∀ e ∈ m, ¬ p e.2) ∨ ∃ i k, r = some (.node i) ∧ (i, k) ∈ m ∧ p k ∧ ∀ e ∈ m, p e.2 → e.2 ≤ k

/-- A least key among those that satisfy `p`. -/
def Spec.Least (m : List (Nat × K)) (p : K → Prop) (r : Option SPtr) : Prop :=
  (r = none ∧ ∀ e ∈ m, ¬ p e.2) ∨ ∃ i k, r = some (.node i) ∧ (i, k) ∈ m ∧ p k ∧ ∀ e ∈ m, p e.2 → k ≤ e.2

/-- The calls that give a node to the caller. -/
inductive SCall (K : Type)
  | find (k : K) | le (k : K) | ge (k : K) | next (i : Nat) | prev (i : Nat) | first | last

def SCall.run (s : Skip K) : SCall K → Option (Option SPtr × Skip K)
  | .find k => s.find k
  | .le k => s.findLe k
  | .ge k => s.findGe k
  | .next i => s.nextOf i
  | .prev i => s.prevOf i
  | .first => s.begin'
  | .last => s.last

/-- The references callers hold. -/
def Spec.held (g : Nat → Nat) (r : Option SPtr) : Nat → Nat := fun i => if r = some (.node i) then g i + 1 else g i

/-- Histories.  `m` is the content as the specification has it, `g` how many references to a node callers hold. -/
inductive SkipReach (mx : Nat) : Skip K → List (Nat × K) → (Nat → Nat) → Prop
  | init (mem : Skip K) : SkipReach mx (Skip.init mem) [] (fun _ => 0)
  | insert {s m g i k top noDup e s'} : SkipReach mx s m g → (∀ x ∈ m, x.1 ≠ i) → top < mx →
      s.insert mx i k top noDup = some (e, s') → SkipReach mx s' (Spec.put m i k noDup) g
  | erase {s m g i e s'} : SkipReach mx s m g → s.erase mx i = some (e, s') → SkipReach mx s' (Spec.drop m i) g
  | read {s m g r s'} (c : SCall K) : SkipReach mx s m g → c.run s = some (r, s') → SkipReach mx s' m (Spec.held g r)
  | release {s m g} (i : Nat) : SkipReach mx s m g → 0 < g i → SkipReach mx (s.release (.node i)) m (fun j => if j = i then g j - 1 else g j)

/-! ### the invariant -/

/-- The entries of the nodes. -/
def Skip.ents (s : Skip K) (ns : List Nat) : List (Nat × K) := ns.map (fun i => (i, s.key i))

structure SkipInv (mx : Nat) (s : Skip K) (m : List (Nat × K)) (g : Nat → Nat) (ns : List Nat) : Prop where
  ok : Ok mx s ns
  perm : (s.ents ns).Perm m
  refs : ∀ i, s.refs (.node i) = g i

theorem SkipInv.mem {mx : Nat} {s : Skip K} {m : List (Nat × K)} {g : Nat → Nat} {ns : List Nat} (h : SkipInv mx s m g ns)
    {i : Nat} {k : K} : (i, k) ∈ m ↔ i ∈ ns ∧ s.key i = k := by
  rw [← h.perm.mem_iff]
  unfold ents
  rw [List.mem_map]
  constructor
  · rintro ⟨j, hj, he⟩
    cases he
    exact ⟨hj, rfl⟩
  · rintro ⟨hi, hk⟩
    exact ⟨i, hi, by rw [hk]⟩

theorem SkipInv.node {mx : Nat} {s : Skip K} {m : List (Nat × K)} {g : Nat → Nat} {ns : List Nat} (h : SkipInv mx s m g ns)
    {i : Nat} (hi : i ∈ ns) : (i, s.key i) ∈ m := h.mem.2 ⟨hi, rfl⟩

theorem SkipInv.key {mx : Nat} {s : Skip K} {m : List (Nat × K)} {g : Nat → Nat} {ns : List Nat} (h : SkipInv mx s m g ns)
    {e : Nat × K} (he : e ∈ m) : e.1 ∈ ns ∧ s.key e.1 = e.2 := h.mem.1 he

theorem Ok.grab {mx : Nat} {s : Skip K} {ns : List Nat} (h : Ok mx s ns) (p : SPtr) : Ok mx (s.grab p) ns :=
  ⟨h.toCore.flags rfl rfl rfl rfl rfl rfl rfl, h.kept, h.busy⟩
theorem Ok.release {mx : Nat} {s : Skip K} {ns : List Nat} (h : Ok mx s ns) (p : SPtr) : Ok mx (s.release p) ns :=
  ⟨h.toCore.flags rfl rfl rfl rfl rfl rfl rfl, h.kept, h.busy⟩

/-- The next node. -/
theorem nextOf_in {mx : Nat} {s : Skip K} {A B : List Nat} {c : Nat} (h : Ok mx s (A ++ c :: B)) :
    s.nextOf c = some (B.head?.map .node, s.grab (headOr B)) := by
  have hn : A ++ c :: B = (A ++ [c]) ++ B := by simp
  have := h.toCore.slNext_at (L := 0) (Nat.lt_of_le_of_lt (Nat.zero_le _) h.topLt) hn ⟨fun d _ => Nat.zero_le _⟩
  rw [lastOr_concat] at this
  have hB : B.filter (fun c => decide (0 ≤ s.top c)) = B := List.filter_eq_self.2 (fun a _ => by simp)
  rw [hB] at this
  unfold nextOf
  rw [this]
  cases B with
  | nil => rfl
  | cons b B => rfl

theorem begin_in {mx : Nat} {s : Skip K} {ns : List Nat} (h : Ok mx s ns) :
    s.begin' = some (ns.head?.map .node, s.grab (headOr ns)) := by
  have := h.toCore.slNext_at (L := 0) (Nat.lt_of_le_of_lt (Nat.zero_le _) h.topLt) (A := []) (B := ns) rfl (At.nil _ _)
  have hB : ns.filter (fun c => decide (0 ≤ s.top c)) = ns := List.filter_eq_self.2 (fun a _ => by simp)
  rw [hB, lastOr_nil] at this
  unfold begin'
  rw [this]
  cases ns with
  | nil => rfl
  | cons b B => rfl

/-- The next node of one that is not in the list. -/
theorem nextOf_out {mx : Nat} {s : Skip K} {ns : List Nat} {c : Nat} (h : Ok mx s ns) (hc : c ∉ ns) :
    ∃ r, s.nextOf c = some (r, r.elim s s.grab) ∧ r ≠ some .tail ∧ Found s ns (some (s.key c)) 2 r := by
  obtain ⟨r, h1, h2⟩ := slFind_ok h.toCore (some (s.key c)) 2
  have hl : s.linked c = false := by
    cases hh : s.linked c with
    | false => rfl
    | true => exact absurd ((h.linked c).1 hh) hc
  have hs : s.slNext (.node c) 0 none = none := by
    unfold slNext
    rw [if_neg (by show ¬ s.linked c = true; rw [hl]; simp)]
  unfold nextOf
  rw [hs, h1]
  have hr : r ≠ some .tail := by
    rcases h2 with ⟨-, hm, -⟩ | ⟨A, B, -, -, -, -, hr⟩
    · omega
    · rw [if_neg (by omega)] at hr
      split at hr
      · next hh => rw [hr]; intro he; exact hh.2 (Option.some.inj he)
      · rw [hr]; intro he; cases he
  exact ⟨r, by show some (if r = some SPtr.tail then none else r, _) = _; rw [if_neg hr], hr, h2⟩

/-- The node before, for a key or for the end. -/
theorem before_ok {mx : Nat} {s : Skip K} {ns : List Nat} (h : Ok mx s ns) (q : Option K) :
    ∃ A B r, ns = A ++ B ∧ (∀ a ∈ A, Bef s q a) ∧ (∀ b ∈ B, ¬ Bef s q b) ∧
      s.slFind q (-2) = some (r, r.elim s s.grab) ∧ r = A.getLast?.map .node ∧ r ≠ some .head := by
  obtain ⟨r, h1, h2⟩ := slFind_ok h.toCore q (-2)
  rcases h2 with ⟨hm, -⟩ | ⟨A, B, hn, hA, hB, -, hr⟩
  · omega
  · refine ⟨A, B, r, hn, hA, hB, h1, ?_, ?_⟩
    · rcases list_last A with rfl | ⟨A', c, rfl⟩
      · rw [hr]; rfl
      · rw [hr, lastOr_concat, if_pos ⟨by decide, by simp⟩, List.getLast?_concat]; rfl
    · rw [hr]
      split
      · next hh => intro he; exact hh.2 (Option.some.inj he)
      · rw [if_neg (by omega)]; intro he; cases he

theorem last_in {mx : Nat} {s : Skip K} {ns : List Nat} (h : Ok mx s ns) :
    s.last = some (ns.getLast?.map .node, (ns.getLast?.map SPtr.node).elim s s.grab) := by
  obtain ⟨A, B, r, hn, hA, hB, h1, h2, h3⟩ := before_ok h none
  have : B = [] := by
    cases B with
    | nil => rfl
    | cons b B => exact absurd (fun k hk => by cases hk) (hB b (by simp))
  subst this
  rw [List.append_nil] at hn
  subst hn
  unfold last
  rw [h1]
  show some (if r = some SPtr.head then none else r, _) = _
  rw [if_neg h3, h2]

theorem prev_in {mx : Nat} {s : Skip K} {ns : List Nat} (h : Ok mx s ns) (c : Nat) :
    ∃ A B, ns = A ++ B ∧ (∀ a ∈ A, s.key a < s.key c) ∧ (∀ b ∈ B, ¬ s.key b < s.key c) ∧
      s.prevOf c = some (A.getLast?.map .node, (A.getLast?.map SPtr.node).elim s s.grab) := by
  obtain ⟨A, B, r, hn, hA, hB, h1, h2, h3⟩ := before_ok h (some (s.key c))
  refine ⟨A, B, hn, fun a ha => hA a ha _ rfl, fun b hb hh => hB b hb (fun k hk => by cases hk; exact hh), ?_⟩
  unfold prevOf
  rw [h1]
  show some (if r = some SPtr.head then none else r, _) = _
  rw [if_neg h3, h2]

/-- A call that reads ends and changes only counts: it takes one reference to what it gives. -/
theorem read_ok {mx : Nat} {s : Skip K} {ns : List Nat} (h : Ok mx s ns) (c : SCall K) :
    ∃ r s', c.run s = some (r, s') ∧ Ok mx s' ns ∧ s'.key = s.key ∧ ∀ i, s'.refs (.node i) = Spec.held (fun i => s.refs (.node i)) r i := by
  have key : ∀ (r : Option SPtr), Ok mx (r.elim s s.grab) ns ∧ (r.elim s s.grab).key = s.key ∧
      ∀ i, (r.elim s s.grab).refs (.node i) = Spec.held (fun i => s.refs (.node i)) r i := by
    intro r
    cases r with
    | none => exact ⟨h, rfl, fun i => rfl⟩
    | some p =>
      refine ⟨Ok.grab h p, rfl, fun i => ?_⟩
      show (if SPtr.node i = p then s.refs (.node i) + 1 else s.refs (.node i)) = (if some p = some (SPtr.node i) then _ else _)
      by_cases hp : SPtr.node i = p
      · rw [if_pos hp, if_pos (by rw [hp])]
      · rw [if_neg hp, if_neg (by intro he; exact hp (Option.some.inj he).symm)]
  have fnd : ∀ q mode, ∃ r s', s.slFind q mode = some (r, s') ∧ Ok mx s' ns ∧ s'.key = s.key ∧
      ∀ i, s'.refs (.node i) = Spec.held (fun i => s.refs (.node i)) r i := by
    intro q mode
    obtain ⟨r, h1, -⟩ := slFind_ok h.toCore q mode
    exact ⟨r, _, h1, key r⟩
  have key2 : ∀ (B : List Nat), Ok mx (s.grab (headOr B)) ns ∧ (s.grab (headOr B)).key = s.key ∧
      ∀ i, (s.grab (headOr B)).refs (.node i) = Spec.held (fun i => s.refs (.node i)) (B.head?.map .node) i := by
    intro B
    cases B with
    | nil =>
      refine ⟨Ok.grab h _, rfl, fun i => ?_⟩
      show (if SPtr.node i = .tail then s.refs (.node i) + 1 else s.refs (.node i)) =
        (if none = some (SPtr.node i) then s.refs (.node i) + 1 else s.refs (.node i))
      rw [if_neg (by intro h; cases h), if_neg (by intro h; cases h)]
    | cons b B =>
      exact key (some (.node b))
  cases c with
  | find k => exact fnd _ _
  | le k => exact fnd _ _
  | ge k => exact fnd _ _
  | next i =>
    by_cases hi : i ∈ ns
    · obtain ⟨A, B, hn⟩ := List.append_of_mem hi
      exact ⟨_, _, nextOf_in (by rw [← hn]; exact h), key2 B⟩
    · obtain ⟨r, h1, -⟩ := nextOf_out h hi
      exact ⟨r, _, h1, key r⟩
  | prev i =>
    obtain ⟨A, B, -, -, -, h1⟩ := prev_in h i
    exact ⟨_, _, h1, key _⟩
  | first => exact ⟨_, _, begin_in h, key2 ns⟩
  | last => exact ⟨_, _, last_in h, key _⟩

theorem init_ok {mx : Nat} (hmx : 0 < mx) (mem : Skip K) : Ok mx (Skip.init mem) [] := by
  refine ⟨⟨List.Pairwise.nil, List.nodup_nil, ?_, ?_, ?_, hmx, rfl, fun l => rfl⟩, ?_, fun p => rfl⟩
  · intro L _ X Y h
    have h' := List.append_eq_nil_iff.1 h.symm
    rw [h'.1, h'.2]; rfl
  · intro i
    exact ⟨(fun h => by cases h), (fun h => by cases h)⟩
  · intro i hi; cases hi
  · intro i hi; cases hi

theorem ents_congr {s s' : Skip K} {ns : List Nat} (h : ∀ i ∈ ns, s'.key i = s.key i) : s'.ents ns = s.ents ns := by
  unfold ents
  exact List.map_congr_left (fun a ha => by rw [h a ha])

/-- Insertion, and what it answers. -/
theorem insert_inv {mx : Nat} {s : Skip K} {m : List (Nat × K)} {g : Nat → Nat} {ns : List Nat} (hv : SkipInv mx s m g ns)
    {i : Nat} (k : K) {top : Nat} (ht : top < mx) (noDup : Bool) (hi : ∀ x ∈ m, x.1 ≠ i) :
    ∃ e s' ns', s.insert mx i k top noDup = some (e, s') ∧ SkipInv mx s' (Spec.put m i k noDup) g ns' ∧
      e = if noDup = true ∧ ∃ e ∈ m, e.2 = k then -1 else 0 := by
  have hi' : i ∉ ns := fun hh => hi _ (hv.node hh) rfl
  obtain ⟨A, B, ⟨e, s'⟩, hn, hA, hB, h1, h2⟩ := insert_ok hv.ok hi' k ht noDup
  subst hn
  have hne : ∀ c ∈ A ++ B, c ≠ i := fun c hc he => hi' (he ▸ hc)
  rcases h2 with ⟨h3, h4, h5, h6, h7, h8⟩ | ⟨h3, h4, h5, h6, h7, h8, h9⟩
  · simp only at h3 h4 h5 h6 h7 h8
    have hno : ¬ (noDup = true ∧ ∃ e ∈ m, e.2 = k) := by
      rintro ⟨hd, x, hx, hxk⟩
      obtain ⟨hx1, hx2⟩ := hv.key hx
      rcases List.mem_append.1 hx1 with ha | hb
      · exact absurd (hA _ ha) (by rw [hx2, hxk]; exact lt_irrefl _)
      · refine h8 hd _ hb ?_
        rw [if_neg (hne _ hx1), hx2, hxk]
    refine ⟨e, s', _, h1, ⟨h4, ?_, ?_⟩, by rw [if_neg hno]; exact h3⟩
    · unfold Spec.put
      rw [if_neg hno]
      have hk : s'.key i = k := by rw [h6]; exact if_pos rfl
      have he : s'.ents (A ++ B) = s.ents (A ++ B) := ents_congr (fun c hc => by rw [h6]; exact if_neg (hne c hc))
      have hp : (s'.ents (A ++ i :: B)).Perm ((i, s'.key i) :: s'.ents (A ++ B)) :=
        (List.perm_middle (a := i) (l₁ := A) (l₂ := B)).map _
      rw [hk, he] at hp
      exact hp.trans (hv.perm.cons _)
    · intro j; rw [h5]; exact hv.refs j
  · simp only at h3 h4 h5 h6 h7 h8 h9
    have hyes : noDup = true ∧ ∃ e ∈ m, e.2 = k := by
      obtain ⟨b, hb, hbk⟩ := h5
      have hb' : b ∈ A ++ B := List.mem_append_right _ hb
      rw [if_neg (hne b hb')] at hbk
      exact ⟨h4, _, hv.node hb', hbk⟩
    refine ⟨e, s', _, h1, ⟨h6, ?_, ?_⟩, by rw [if_pos hyes]; exact h3⟩
    · unfold Spec.put
      rw [if_pos hyes, ents_congr (s := s) (fun c hc => by rw [h8]; exact if_neg (hne c hc))]
      exact hv.perm
    · intro j; rw [h7]; exact hv.refs j

/-- Removal, and what it answers. -/
theorem erase_inv {mx : Nat} {s : Skip K} {m : List (Nat × K)} {g : Nat → Nat} {ns : List Nat} (hv : SkipInv mx s m g ns) (i : Nat) :
    ∃ e s' ns', s.erase mx i = some (e, s') ∧ SkipInv mx s' (Spec.drop m i) g ns' ∧
      (e = 0 ↔ ∃ k, (i, k) ∈ m) ∧ (e = 0 → s'.removed i = true) := by
  by_cases hi : i ∈ ns
  · obtain ⟨A, B, s', hn, h1, h2, h3, h4, h5⟩ := erase_ok hv.ok hi
    subst hn
    have hnd := List.nodup_append.1 hv.ok.nodup
    have hiB : i ∉ B := (List.nodup_cons.1 hnd.2.1).1
    have hiA : i ∉ A := fun hi => hnd.2.2 i hi i (List.mem_cons_self ..) rfl
    refine ⟨0, s', A ++ B, h1, ⟨h2, ?_, fun j => by rw [h3]; exact hv.refs j⟩, ⟨fun _ => ⟨_, hv.node hi⟩, fun _ => rfl⟩, fun _ => h5⟩
    have hp := hv.perm.filter (fun e => decide (e.1 ≠ i))
    refine List.Perm.trans ?_ hp
    have : (s.ents (A ++ i :: B)).filter (fun e => decide (e.1 ≠ i)) = s'.ents (A ++ B) := by
      unfold ents
      rw [List.map_append, List.map_cons, List.filter_append, List.filter_cons_of_neg (by simp), ← List.filter_append, ← List.map_append, h4]
      refine List.filter_eq_self.2 ?_
      intro x hx
      obtain ⟨c, hc, rfl⟩ := List.mem_map.1 hx
      have : c ≠ i := by
        rintro rfl
        rcases List.mem_append.1 hc with hc | hc
        · exact hiA hc
        · exact hiB hc
      simpa using this
    rw [this]
  · obtain ⟨e, h1, h2⟩ := erase_absent hv.ok hi
    refine ⟨e, s, ns, h2, ⟨hv.ok, ?_, hv.refs⟩, ⟨fun h => absurd h h1, fun ⟨k, hk⟩ => absurd (hv.mem.1 hk).1 hi⟩, fun h => absurd h h1⟩
    have : Spec.drop m i = m := by
      refine List.filter_eq_self.2 ?_
      intro x hx
      have : x.1 ≠ i := fun he => hi (he ▸ (hv.key hx).1)
      simpa using this
    rw [this]; exact hv.perm

theorem SkipReach.inv {mx : Nat} (hmx : 0 < mx) {s : Skip K} {m : List (Nat × K)} {g : Nat → Nat} (h : SkipReach mx s m g) :
    ∃ ns, SkipInv mx s m g ns := by
  induction h with
  | init mem => exact ⟨[], init_ok hmx mem, List.Perm.refl _, fun i => rfl⟩
  | @insert s m g i k top noDup e s' h hi ht hs ih =>
    obtain ⟨ns, hv⟩ := ih
    obtain ⟨e', s'', ns', h1, h2, -⟩ := insert_inv hv k ht noDup hi
    rw [hs] at h1
    cases h1
    exact ⟨ns', h2⟩
  | @erase s m g i e s' h hs ih =>
    obtain ⟨ns, hv⟩ := ih
    obtain ⟨e', s'', ns', h1, h2, -⟩ := erase_inv hv i
    rw [hs] at h1
    cases h1
    exact ⟨ns', h2⟩
  | @read s m g r s' c h hs ih =>
    obtain ⟨ns, hv⟩ := ih
    obtain ⟨r', s'', h1, h2, h3, h4⟩ := read_ok hv.ok c
    rw [hs] at h1
    cases h1
    refine ⟨ns, h2, ?_, ?_⟩
    · rw [@ents_congr K _ s s' ns (fun i _ => by rw [h3])]; exact hv.perm
    · intro i
      rw [h4]
      have : (fun i => s.refs (SPtr.node i)) = g := funext hv.refs
      rw [this]
  | @release s m g i h hg ih =>
    obtain ⟨ns, hv⟩ := ih
    refine ⟨ns, Ok.release hv.ok _, hv.perm, ?_⟩
    intro j
    show (if SPtr.node j = .node i then s.refs (.node j) - 1 else s.refs (.node j)) = _
    rw [hv.refs]
    by_cases hj : j = i
    · rw [if_pos (by rw [hj]), if_pos hj]
    · rw [if_neg (by intro he; cases he; exact hj rfl), if_neg hj]

/-! ### the theorems -/

/-- C40, lookup of a key: a node with that key, or nothing if there is none. -/
theorem C40_find {mx : Nat} (hmx : 0 < mx) {s : Skip K} {m : List (Nat × K)} {g : Nat → Nat} (h : SkipReach mx s m g) (k : K) :
    ∃ r s', s.find k = some (r, s') ∧
      ((r = none ∧ ∀ e ∈ m, e.2 ≠ k) ∨ ∃ i, r = some (.node i) ∧ (i, k) ∈ m) := by
  obtain ⟨ns, hv⟩ := h.inv hmx
  obtain ⟨r, h1, h2⟩ := slFind_ok hv.ok.toCore (some k) 0
  refine ⟨r, _, h1, ?_⟩
  rcases h2 with ⟨-, -, ⟨c, hc, hk, hr⟩ | ⟨hq, -⟩⟩ | ⟨A, B, hn, hA, hB, he, hr⟩
  · cases hk
    exact Or.inr ⟨c, hr, hv.node hc⟩
  · cases hq
  · left
    refine ⟨by rw [hr, if_neg (by omega), if_neg (by omega)], ?_⟩
    rintro x hx hk
    obtain ⟨h3, h4⟩ := hv.key hx
    rw [hn] at h3
    rcases List.mem_append.1 h3 with ha | hb
    · have := hA _ ha k rfl
      rw [h4, hk] at this
      exact lt_irrefl _ this
    · exact he ⟨by omega, by omega⟩ _ hb (by rw [h4, hk])

/-- C40, the nearest key that is not greater. -/
theorem C40_le {mx : Nat} (hmx : 0 < mx) {s : Skip K} {m : List (Nat × K)} {g : Nat → Nat} (h : SkipReach mx s m g) (k : K) :
    ∃ r s', s.findLe k = some (r, s') ∧ Spec.Greatest m (· ≤ k) r := by
  obtain ⟨ns, hv⟩ := h.inv hmx
  obtain ⟨r, h1, h2⟩ := slFind_ok hv.ok.toCore (some k) (-1)
  refine ⟨r, _, h1, ?_⟩
  rcases h2 with ⟨-, -, ⟨c, hc, hk, hr⟩ | ⟨hq, -⟩⟩ | ⟨A, B, hn, hA, hB, he, hr⟩
  · cases hk
    exact Or.inr ⟨c, _, hr, hv.node hc, le_refl _, fun e _ he => he⟩
  · cases hq
  · have hB' : ∀ b ∈ B, k < s.key b := by
      intro b hb
      have h1 : ¬ s.key b < k := fun hh => hB b hb (fun k' hk => by cases hk; exact hh)
      have h2 : s.key b ≠ k := fun hh => he ⟨by omega, by omega⟩ b hb (by rw [hh])
      exact lt_of_le_of_ne (not_lt.1 h1) (Ne.symm h2)
    have hmem : ∀ e ∈ m, e.2 ≤ k → e.1 ∈ A ∧ s.key e.1 = e.2 := by
      intro x hx hxk
      obtain ⟨h3, h4⟩ := hv.key hx
      rw [hn] at h3
      rcases List.mem_append.1 h3 with ha | hb
      · exact ⟨ha, h4⟩
      · exact absurd (lt_of_lt_of_le (hB' _ hb) (h4 ▸ hxk)) (lt_irrefl _)
    rcases list_last A with rfl | ⟨A', c, rfl⟩
    · left
      rw [if_neg (by rintro ⟨-, h⟩; exact h rfl), if_neg (by omega)] at hr
      exact ⟨hr, fun x hx hxk => by have := (hmem x hx hxk).1; cases this⟩
    · right
      rw [lastOr_concat, if_pos ⟨by omega, by simp⟩] at hr
      refine ⟨c, s.key c, hr, hv.node (by rw [hn]; simp), le_of_lt (hA c (by simp) k rfl), ?_⟩
      intro x hx hxk
      obtain ⟨h3, h4⟩ := hmem x hx hxk
      rw [← h4]
      have hs := hv.ok.sorted
      rw [hn] at hs
      rcases List.mem_append.1 h3 with ha | ha
      · exact (List.pairwise_append.1 (List.pairwise_append.1 hs).1).2.2 _ ha c (by simp)
      · rw [List.mem_singleton.1 ha]

/-- What a forward search with a split gives. -/
theorem least_of_split {mx : Nat} {s : Skip K} {m : List (Nat × K)} {g : Nat → Nat} {ns : List Nat} (hv : SkipInv mx s m g ns)
    {A B : List Nat} {k : K} {r : Option SPtr} (hn : ns = A ++ B) (hA : ∀ a ∈ A, s.key a < k) (hB : ∀ b ∈ B, ¬ s.key b < k)
    (hr : r = if headOr B ≠ .tail then some (headOr B) else none) : Spec.Least m (k ≤ ·) r := by
  have hmem : ∀ e ∈ m, k ≤ e.2 → e.1 ∈ B ∧ s.key e.1 = e.2 := by
    intro x hx hxk
    obtain ⟨h3, h4⟩ := hv.key hx
    rw [hn] at h3
    rcases List.mem_append.1 h3 with ha | hb
    · exact absurd (hA _ ha) (not_lt.2 (h4 ▸ hxk))
    · exact ⟨hb, h4⟩
  cases B with
  | nil =>
    left
    rw [if_neg (by intro h; exact h rfl)] at hr
    exact ⟨hr, fun x hx hxk => by have := (hmem x hx hxk).1; cases this⟩
  | cons c B =>
    right
    rw [headOr_cons, if_pos (by simp)] at hr
    refine ⟨c, s.key c, hr, hv.node (by rw [hn]; simp), not_lt.1 (hB c (by simp)), ?_⟩
    intro x hx hxk
    obtain ⟨h3, h4⟩ := hmem x hx hxk
    rw [← h4]
    have hs := hv.ok.sorted
    rw [hn] at hs
    rcases List.mem_cons.1 h3 with ha | ha
    · rw [ha]
    · exact (List.pairwise_cons.1 (List.pairwise_append.1 hs).2.1).1 _ ha

/-- C40, the nearest key that is not smaller. -/
theorem C40_ge {mx : Nat} (hmx : 0 < mx) {s : Skip K} {m : List (Nat × K)} {g : Nat → Nat} (h : SkipReach mx s m g) (k : K) :
    ∃ r s', s.findGe k = some (r, s') ∧ Spec.Least m (k ≤ ·) r := by
  obtain ⟨ns, hv⟩ := h.inv hmx
  obtain ⟨r, h1, h2⟩ := slFind_ok hv.ok.toCore (some k) 1
  refine ⟨r, _, h1, ?_⟩
  rcases h2 with ⟨-, -, ⟨c, hc, hk, hr⟩ | ⟨hq, -⟩⟩ | ⟨A, B, hn, hA, hB, he, hr⟩
  · cases hk
    exact Or.inr ⟨c, _, hr, hv.node hc, le_refl _, fun e _ he => he⟩
  · cases hq
  · refine least_of_split hv hn (fun a ha => hA a ha k rfl) (fun b hb hh => hB b hb (fun k' hk => by cases hk; exact hh)) ?_
    rw [hr, if_neg (by omega)]
    by_cases hB : headOr B ≠ .tail
    · rw [if_pos hB, if_pos ⟨by omega, hB⟩]
    · rw [if_neg hB, if_neg (fun h => hB h.2)]

/-- C40, a step backward: the nearest smaller key. -/
theorem C40_prev {mx : Nat} (hmx : 0 < mx) {s : Skip K} {m : List (Nat × K)} {g : Nat → Nat} (h : SkipReach mx s m g)
    {i : Nat} {k : K} (hk : (i, k) ∈ m) :
    ∃ r s', s.prevOf i = some (r, s') ∧ Spec.Greatest m (· < k) r := by
  obtain ⟨ns, hv⟩ := h.inv hmx
  obtain ⟨A, B, hn, hA, hB, h1⟩ := prev_in hv.ok i
  have hki := (hv.mem.1 hk).2
  rw [hki] at hA hB
  refine ⟨_, _, h1, ?_⟩
  have hmem : ∀ e ∈ m, e.2 < k → e.1 ∈ A ∧ s.key e.1 = e.2 := by
    intro x hx hxk
    obtain ⟨h3, h4⟩ := hv.key hx
    rw [hn] at h3
    rcases List.mem_append.1 h3 with ha | hb
    · exact ⟨ha, h4⟩
    · exact absurd (h4 ▸ hxk) (hB _ hb)
  rcases list_last A with rfl | ⟨A', c, rfl⟩
  · exact Or.inl ⟨rfl, fun x hx hxk => by have := (hmem x hx hxk).1; cases this⟩
  · right
    rw [List.getLast?_concat]
    refine ⟨c, s.key c, rfl, hv.node (by rw [hn]; simp), hA c (by simp), ?_⟩
    intro x hx hxk
    obtain ⟨h3, h4⟩ := hmem x hx hxk
    rw [← h4]
    have hs := hv.ok.sorted
    rw [hn] at hs
    rcases List.mem_append.1 h3 with ha | ha
    · exact (List.pairwise_append.1 (List.pairwise_append.1 hs).1).2.2 _ ha c (by simp)
    · rw [List.mem_singleton.1 ha]

/-- C40, a step forward from a node that has been removed meanwhile: the traversal continues with the nearest key that
    is not smaller than the one in the removed node. -/
theorem C40_next_removed {mx : Nat} (hmx : 0 < mx) {s : Skip K} {m : List (Nat × K)} {g : Nat → Nat} (h : SkipReach mx s m g)
    {i : Nat} (hi : ∀ e ∈ m, e.1 ≠ i) :
    ∃ r s', s.nextOf i = some (r, s') ∧ Spec.Least m (s.key i ≤ ·) r := by
  obtain ⟨ns, hv⟩ := h.inv hmx
  obtain ⟨r, h1, -, h2⟩ := nextOf_out hv.ok (fun hh => hi _ (hv.node hh) rfl)
  refine ⟨r, _, h1, ?_⟩
  rcases h2 with ⟨-, hm, -⟩ | ⟨A, B, hn, hA, hB, -, hr⟩
  · omega
  · refine least_of_split hv hn (fun a ha => hA a ha _ rfl) (fun b hb hh => hB b hb (fun k' hk => by cases hk; exact hh)) ?_
    rw [hr, if_neg (by omega)]
    by_cases hB : headOr B ≠ .tail
    · rw [if_pos hB, if_pos ⟨by omega, hB⟩]
    · rw [if_neg hB, if_neg (fun h => hB h.2)]

/-- A traversal: the nodes a first call and the following steps give, each released after the step to the next one
    (src/memtable_iterator.cc:34-81). -/
def Skip.collect (step : Skip K → Nat → Option (Option SPtr × Skip K)) : Nat → Option (Option SPtr × Skip K) → Option (List Nat)
  | 0, _ => none
  | _ + 1, none => none
  | _ + 1, some (none, _) => some []
  | f + 1, some (some (.node i), s) =>
    (collect step f ((step s i).map (fun r => (r.1, r.2.release (.node i))))).map (i :: ·)
  | _ + 1, some (some _, _) => none

theorem collect_forward {mx : Nat} {ns : List Nat} : ∀ (B A : List Nat) (s : Skip K) (f : Nat), Ok mx s ns → ns = A ++ B → B.length < f →
    collect nextOf f (some (B.head?.map .node, s)) = some B := by
  intro B
  induction B with
  | nil =>
    intro A s f _ _ hf
    obtain ⟨f, rfl⟩ : ∃ f', f = f' + 1 := ⟨f - 1, by omega⟩
    rfl
  | cons b B ih =>
    intro A s f h hn hf
    obtain ⟨f, rfl⟩ : ∃ f', f = f' + 1 := ⟨f - 1, by omega⟩
    have h1 := nextOf_in (A := A) (c := b) (B := B) (by rw [← hn]; exact h)
    have h2 := ih (A ++ [b]) ((s.grab (headOr B)).release (.node b)) f (Ok.release (Ok.grab h _) _) (by rw [hn]; simp) (by simp at hf; omega)
    show Option.map _ (collect nextOf f ((s.nextOf b).map (fun r => (r.1, r.2.release (.node b))))) = _
    rw [h1]
    show Option.map _ (collect nextOf f (some (B.head?.map .node, (s.grab (headOr B)).release (.node b)))) = _
    rw [h2]; rfl

theorem collect_backward {mx : Nat} {ns : List Nat} : ∀ (n : Nat) (A B : List Nat) (s : Skip K) (f : Nat), A.length = n → Ok mx s ns →
    ns.Pairwise (fun a b => s.key a < s.key b) → ns = A ++ B → A.length < f →
    collect prevOf f (some (A.getLast?.map .node, s)) = some A.reverse := by
  intro n
  induction n with
  | zero =>
    intro A B s f hA _ _ _ hf
    obtain ⟨f, rfl⟩ : ∃ f', f = f' + 1 := ⟨f - 1, by omega⟩
    rw [List.length_eq_zero_iff.1 hA]; rfl
  | succ n ih =>
    intro A B s f hA h hd hn hf
    obtain ⟨f, rfl⟩ : ∃ f', f = f' + 1 := ⟨f - 1, by omega⟩
    rcases list_last A with rfl | ⟨A', c, rfl⟩
    · cases hA
    · obtain ⟨A1, B1, hn1, hA1, hB1, h1⟩ := prev_in h c
      have hAe : A1 = A' := by
        have hd' := hd
        rw [hn, List.append_assoc] at hd'
        have hp := List.pairwise_append.1 hd'
        have he : A1 ++ B1 = A' ++ ([c] ++ B) := by rw [← hn1, hn]; simp
        rcases List.append_eq_append_iff.1 he with ⟨Z, h3, h4⟩ | ⟨Z, h3, h4⟩
        · cases Z with
          | nil => rw [h3]; simp
          | cons z Z =>
            exfalso
            refine hB1 z (by rw [h4]; simp) (hp.2.2 z (by rw [h3]; simp) c (by simp))
        · cases Z with
          | nil => rw [h3]; simp
          | cons z Z =>
            exfalso
            have hz : z = c := by
              rw [List.singleton_append] at h4
              exact (List.cons.inj h4).1.symm
            have := hA1 z (by rw [h3]; simp)
            rw [hz] at this
            exact lt_irrefl _ this
      subst hAe
      rw [List.getLast?_concat, List.reverse_concat]
      show Option.map _ (collect prevOf f ((s.prevOf c).map (fun r => (r.1, r.2.release (.node c))))) = _
      rw [h1]
      show Option.map _ (collect prevOf f (some (A1.getLast?.map .node, Skip.release ((A1.getLast?.map SPtr.node).elim s s.grab) (.node c)))) = _
      have hok : Ok mx ((A1.getLast?.map SPtr.node).elim s s.grab) ns := by
        cases A1.getLast? with
        | none => exact h
        | some a => exact Ok.grab h _
      have hkey : (Skip.release ((A1.getLast?.map SPtr.node).elim s s.grab) (.node c)).key = s.key := by
        cases A1.getLast? <;> rfl
      rw [ih A1 ([c] ++ B) _ f (by simp at hA; exact hA) (Ok.release hok _) (by rw [hkey]; exact hd) (by rw [hn]; simp) (by simp at hf; omega)]
      rfl

/-- C40, traversal: forward from the first node gives every node of the index once, in the order of the keys; if no two
    have the same key then backward from the last gives the same nodes in the opposite order. -/
theorem C40_traverse {mx : Nat} (hmx : 0 < mx) {s : Skip K} {m : List (Nat × K)} {g : Nat → Nat} (h : SkipReach mx s m g) :
    ∃ l : List (Nat × K), l.Perm m ∧ l.Pairwise (fun a b => a.2 ≤ b.2) ∧
      collect nextOf (m.length + 1) s.begin' = some (l.map (·.1)) ∧
      (m.Pairwise (fun a b => a.2 ≠ b.2) → collect prevOf (m.length + 1) s.last = some (l.reverse.map (·.1))) := by
  obtain ⟨ns, hv⟩ := h.inv hmx
  have hlen : ns.length = m.length := by
    have := hv.perm.length_eq
    unfold ents at this
    rw [List.length_map] at this
    exact this
  have hfst : (s.ents ns).map (·.1) = ns := by
    unfold ents
    rw [List.map_map]
    exact List.map_id' ns
  refine ⟨s.ents ns, hv.perm, ?_, ?_, ?_⟩
  · unfold ents
    rw [List.pairwise_map]
    exact hv.ok.sorted
  · rw [begin_in hv.ok, hfst]
    exact collect_forward ns [] _ _ (Ok.grab hv.ok _) rfl (by omega)
  · intro hd
    have hd' : ns.Pairwise (fun a b => s.key a < s.key b) := by
      have h1 : (s.ents ns).Pairwise (fun a b => a.2 ≠ b.2) := (hv.perm.pairwise_iff (fun h => Ne.symm h)).2 hd
      unfold ents at h1
      rw [List.pairwise_map] at h1
      exact (hv.ok.sorted.and h1).imp (fun h => lt_of_le_of_ne h.1 h.2)
    rw [last_in hv.ok, List.map_reverse, hfst]
    have hok : Ok mx ((ns.getLast?.map SPtr.node).elim s s.grab) ns := by
      cases ns.getLast? with
      | none => exact hv.ok
      | some a => exact Ok.grab hv.ok _
    have hkey : ((ns.getLast?.map SPtr.node).elim s s.grab).key = s.key := by
      cases ns.getLast? <;> rfl
    exact collect_backward ns.length ns [] _ _ rfl hok (by rw [hkey]; exact hd') (by simp) (by omega)

/-- C40, insertion: it ends, whatever the height of the node is, and is refused exactly if duplicates are not wanted
    and the key is there. -/
theorem C40_insert {mx : Nat} (hmx : 0 < mx) {s : Skip K} {m : List (Nat × K)} {g : Nat → Nat} (h : SkipReach mx s m g)
    {i : Nat} (hi : ∀ x ∈ m, x.1 ≠ i) (k : K) {top : Nat} (ht : top < mx) (noDup : Bool) :
    ∃ e s', s.insert mx i k top noDup = some (e, s') ∧ SkipReach mx s' (Spec.put m i k noDup) g ∧
      (e = if noDup = true ∧ ∃ e ∈ m, e.2 = k then -1 else 0) := by
  obtain ⟨ns, hv⟩ := h.inv hmx
  obtain ⟨e, s', ns', h1, -, h3⟩ := insert_inv hv k ht noDup hi
  exact ⟨e, s', h1, .insert h hi ht h1, h3⟩

/-- C40, removal: it ends, and reports whether the node was there. -/
theorem C40_erase {mx : Nat} (hmx : 0 < mx) {s : Skip K} {m : List (Nat × K)} {g : Nat → Nat} (h : SkipReach mx s m g) (i : Nat) :
    ∃ e s', s.erase mx i = some (e, s') ∧ SkipReach mx s' (Spec.drop m i) g ∧ (e = 0 ↔ ∃ k, (i, k) ∈ m) := by
  obtain ⟨ns, hv⟩ := h.inv hmx
  obtain ⟨e, s', ns', h1, -, h3, -⟩ := erase_inv hv i
  exact ⟨e, s', h1, .erase h h1, h3⟩

/-- C40, the number of entries. -/
theorem C40_size {mx : Nat} (hmx : 0 < mx) {s : Skip K} {m : List (Nat × K)} {g : Nat → Nat} (h : SkipReach mx s m g) :
    s.entries = m.length := by
  obtain ⟨ns, hv⟩ := h.inv hmx
  rw [hv.ok.entries]
  have := hv.perm.length_eq
  unfold ents at this
  rw [List.length_map] at this
  exact this

/-- C40, memory: the count of a node is the number of references callers hold, so a removed node may be freed as soon as,
    and not before, they have given them all back; and no call ever gives a removed node. -/
theorem C40_free {mx : Nat} (hmx : 0 < mx) {s : Skip K} {m : List (Nat × K)} {g : Nat → Nat} (h : SkipReach mx s m g)
    {i : Nat} {k : K} (hi : (i, k) ∈ m) {s' : Skip K} {e : Int} (he : s.erase mx i = some (e, s')) :
    (s'.safeToFree i = true ↔ g i = 0) ∧ ∀ (c : SCall K) s'', c.run s' ≠ some (some (.node i), s'') := by
  obtain ⟨ns, hv⟩ := h.inv hmx
  obtain ⟨e', s1, ns', h1, h2, h3, h4⟩ := erase_inv hv i
  rw [he] at h1
  cases h1
  have hr : s'.removed i = true := h4 (h3.2 ⟨k, hi⟩)
  have hni : i ∉ ns' := by
    intro hh
    have := h2.node hh
    have := (List.mem_filter.1 this).2
    simp at this
  constructor
  · unfold safeToFree
    rw [h2.ok.busy, hr, h2.refs]
    simp
  · have hfnd : ∀ q mode r, Found s' ns' q mode r → r ≠ some (.node i) := by
      intro q mode r hf he
      rcases hf with ⟨-, -, ⟨c, hc, -, hr⟩ | ⟨-, hr⟩⟩ | ⟨A, B, hn, -, -, -, hr⟩
      · rw [he] at hr; cases hr; exact hni hc
      · rw [he] at hr; cases hr
      · rw [he] at hr
        split at hr
        · exact hni (by rw [hn]; exact List.mem_append_left _ (lastOr_node (Option.some.inj hr).symm))
        · split at hr
          · exact hni (by rw [hn]; exact List.mem_append_right _ (headOr_node (Option.some.inj hr).symm))
          · cases hr
    have hlast : ∀ A B : List Nat, ns' = A ++ B → A.getLast?.map SPtr.node ≠ some (.node i) := by
      intro A B hn he
      cases hl : A.getLast? with
      | none => rw [hl] at he; cases he
      | some a =>
        rw [hl] at he
        cases he
        exact hni (by rw [hn]; exact List.mem_append_left _ (List.mem_of_getLast? hl))
    have hhead : ∀ A B : List Nat, ns' = A ++ B → B.head?.map SPtr.node ≠ some (.node i) := by
      intro A B hn he
      cases hl : B.head? with
      | none => rw [hl] at he; cases he
      | some a =>
        rw [hl] at he
        cases he
        exact hni (by rw [hn]; exact List.mem_append_right _ (List.mem_of_head? hl))
    have hsl : ∀ q mode s'', s'.slFind q mode ≠ some (some (.node i), s'') := by
      intro q mode s'' he
      obtain ⟨r, h5, h6⟩ := slFind_ok h2.ok.toCore q mode
      rw [he] at h5
      have := congrArg Prod.fst (Option.some.inj h5)
      exact hfnd _ _ _ h6 this.symm
    intro c s'' hc
    cases c with
    | find k => exact hsl _ _ _ hc
    | le k => exact hsl _ _ _ hc
    | ge k => exact hsl _ _ _ hc
    | next j =>
      by_cases hj : j ∈ ns'
      · obtain ⟨A, B, hn⟩ := List.append_of_mem hj
        have h5 := nextOf_in (A := A) (c := j) (B := B) (by rw [← hn]; exact h2.ok)
        have h6 : s'.nextOf j = some (some (.node i), s'') := hc
        rw [h5] at h6
        exact hhead (A ++ [j]) B (by rw [hn]; simp) (congrArg Prod.fst (Option.some.inj h6))
      · obtain ⟨r, h5, -, h7⟩ := nextOf_out h2.ok hj
        have h6 : s'.nextOf j = some (some (.node i), s'') := hc
        rw [h5] at h6
        exact hfnd _ _ _ h7 (congrArg Prod.fst (Option.some.inj h6))
    | prev j =>
      obtain ⟨A, B, hn, -, -, h5⟩ := prev_in h2.ok j
      have h6 : s'.prevOf j = some (some (.node i), s'') := hc
      rw [h5] at h6
      exact hlast A B hn (congrArg Prod.fst (Option.some.inj h6))
    | first =>
      have h6 : s'.begin' = some (some (.node i), s'') := hc
      rw [begin_in h2.ok] at h6
      exact hhead [] ns' rfl (congrArg Prod.fst (Option.some.inj h6))
    | last =>
      have h6 : s'.last = some (some (.node i), s'') := hc
      rw [last_in h2.ok] at h6
      exact hlast ns' [] (by simp) (congrArg Prod.fst (Option.some.inj h6))

/-! ### a history: nodes of different heights, a refused duplicate and a removal -/

namespace SkipEx

def mem : Skip Nat := ⟨fun _ => 7, fun _ _ => .head, fun _ => 9, fun _ => true, fun _ => false, fun _ => true, fun _ => 5, 3, fun _ => 2, 1⟩

inductive Cmd
  | ins (i k top : Nat) (noDup : Bool)
  | del (i : Nat)

def run : List Cmd → Skip Nat → Option (List Int × Skip Nat)
  | [], s => some ([], s)
  | .ins i k top d :: cs, s => (s.insert 12 i k top d).bind (fun r => (run cs r.2).map (fun x => (r.1 :: x.1, x.2)))
  | .del i :: cs, s => (s.erase 12 i).bind (fun r => (run cs r.2).map (fun x => (r.1 :: x.1, x.2)))

def cmds : List Cmd := [.ins 0 30 0 true, .ins 1 10 2 true, .ins 2 20 1 true, .ins 3 20 5 true, .ins 4 40 1 false, .del 2, .ins 3 20 5 true, .ins 5 20 0 false]

/-- What the commands answer, and what the index has then. -/
example : (run cmds (Skip.init mem)).map (fun x => (x.1, collect nextOf 20 x.2.begin', collect prevOf 20 x.2.last, x.2.entries)) =
    some ([0, 0, 0, -1, 0, 0, 0, 0], some [1, 5, 3, 0, 4], some [4, 0, 3, 1], 5) := by decide +kernel

example : (run cmds (Skip.init mem)).map (fun x => ((x.2.find 20).map (·.1), (x.2.findLe 25).map (·.1), (x.2.findGe 35).map (·.1), (x.2.find 25).map (·.1))) =
    some (some (some (.node 3)), some (some (.node 3)), some (some (.node 4)), some none) := by decide +kernel

/-- The hypotheses of the theorems are met: a history with four entries. -/
example : ∃ s g, SkipReach 12 s [(4, 40), (2, 20), (1, 10), (0, 30)] g := by
  have h0 : SkipReach 12 (Skip.init mem) [] (fun _ => 0) := .init mem
  obtain ⟨_, s1, -, h1, -⟩ := C40_insert (by decide) h0 (i := 0) (by intro x hx; cases hx) 30 (top := 0) (by decide) true
  have e1 : Spec.put ([] : List (Nat × Nat)) 0 30 true = [(0, 30)] := by decide
  rw [e1] at h1
  obtain ⟨_, s2, -, h2, -⟩ := C40_insert (by decide) h1 (i := 1) (by decide) 10 (top := 2) (by decide) true
  have e2 : Spec.put [(0, 30)] 1 10 true = [(1, 10), (0, 30)] := by decide
  rw [e2] at h2
  obtain ⟨_, s3, -, h3, -⟩ := C40_insert (by decide) h2 (i := 2) (by decide) 20 (top := 1) (by decide) true
  have e3 : Spec.put [(1, 10), (0, 30)] 2 20 true = [(2, 20), (1, 10), (0, 30)] := by decide
  rw [e3] at h3
  obtain ⟨_, s4, -, h4, -⟩ := C40_insert (by decide) h3 (i := 4) (by decide) 40 (top := 1) (by decide) false
  have e4 : Spec.put [(2, 20), (1, 10), (0, 30)] 4 40 false = [(4, 40), (2, 20), (1, 10), (0, 30)] := by decide
  rw [e4] at h4
  exact ⟨s4, _, h4⟩

end SkipEx

end Jungle
