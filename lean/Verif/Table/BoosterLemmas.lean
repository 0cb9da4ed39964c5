/- Lemmas about the lookup booster. -/
import Verif.Table.Booster

set_option linter.unusedSectionVars false

namespace Jungle
namespace BTab
variable {K : Type} [DecidableEq K] {hash : K → Nat}

/-! ### the file -/

theorem newest_append (ds : List (BDoc K)) (d : BDoc K) (k : K) :
    newest (ds ++ [d]) k = if d.r.key = k then some (ds.length + 1, d) else newest ds k := by
  induction ds with
  | nil => rfl
  | cons a ds ih =>
    show (match newest (ds ++ [d]) k with | some x => some (x.1 + 1, x.2) | none => if a.r.key = k then some (1, a) else none) = _
    rw [ih]
    by_cases h : d.r.key = k
    · rw [if_pos h, if_pos h]; rfl
    · rw [if_neg h, if_neg h]; rfl

theorem newest_some {ds : List (BDoc K)} {k : K} {x : Nat × BDoc K} (h : newest ds k = some x) :
    docAt ds x.1 = some x.2 ∧ x.2.r.key = k := by
  induction ds generalizing x with
  | nil => cases h
  | cons a ds ih =>
    unfold newest at h
    cases hn : newest ds k with
    | some y =>
      rw [hn] at h
      simp only [Option.some.injEq] at h
      obtain ⟨h1, h2⟩ := ih hn
      rw [← h]
      refine ⟨?_, h2⟩
      unfold docAt at h1 ⊢
      simp only at h1 ⊢
      rw [if_neg (by omega)]
      split at h1
      · cases h1
      · next h0 =>
        obtain ⟨m, hm⟩ : ∃ m, y.1 = m + 1 := ⟨y.1 - 1, by omega⟩
        rw [hm] at h1 ⊢
        exact h1
    | none =>
      rw [hn] at h
      simp only at h
      split at h
      · next hk =>
        cases h
        exact ⟨rfl, hk⟩
      · cases h

theorem newest_none {ds : List (BDoc K)} {k : K} (h : newest ds k = none) : ∀ d ∈ ds, d.r.key ≠ k := by
  induction ds with
  | nil => intro d hd; cases hd
  | cons a ds ih =>
    unfold newest at h
    cases hn : newest ds k with
    | some y => rw [hn] at h; cases h
    | none =>
      rw [hn] at h
      simp only at h
      split at h
      · cases h
      · next hk =>
        intro d hd
        rcases List.mem_cons.1 hd with rfl | hd
        · exact hk
        · exact ih hn d hd

theorem docAt_mem {ds : List (BDoc K)} {off : Nat} {d : BDoc K} (h : docAt ds off = some d) : d ∈ ds := by
  unfold docAt at h
  split at h
  · cases h
  · exact List.mem_of_getElem? h

theorem docAt_append {ds : List (BDoc K)} {off : Nat} {d : BDoc K} (h : docAt ds off = some d) (es : List (BDoc K)) :
    docAt (ds ++ es) off = some d := by
  unfold docAt at h ⊢
  split at h
  · cases h
  · next h0 =>
    rw [if_neg h0]
    rw [List.getElem?_append_left]
    · exact h
    · by_contra hl
      rw [List.getElem?_eq_none (Nat.le_of_not_lt hl)] at h
      cases h

theorem docAt_last (ds : List (BDoc K)) (d : BDoc K) : docAt (ds ++ [d]) (ds.length + 1) = some d := by
  unfold docAt
  rw [if_neg (by omega)]
  simp

/-- Later documents of a key are newer. -/
def Ordered (ds : List (BDoc K)) : Prop := ds.Pairwise (fun a b => a.r.key = b.r.key → a.r.seq < b.r.seq)

theorem Ordered.append {ds : List (BDoc K)} (h : Ordered ds) {d : BDoc K}
    (hn : ∀ a ∈ ds, a.r.key = d.r.key → a.r.seq < d.r.seq) : Ordered (ds ++ [d]) := by
  refine List.pairwise_append.2 ⟨h, List.pairwise_singleton _ _, ?_⟩
  intro a ha b hb
  rw [List.mem_singleton] at hb
  subst hb
  exact hn a ha

theorem newest_top {ds : List (BDoc K)} (ho : Ordered ds) {k : K} {x : Nat × BDoc K} (h : newest ds k = some x) :
    ∀ d ∈ ds, d.r.key = k → d.r.seq ≤ x.2.r.seq := by
  induction ds generalizing x with
  | nil => cases h
  | cons a ds ih =>
    have ho' := List.pairwise_cons.1 ho
    unfold newest at h
    cases hn : newest ds k with
    | some y =>
      rw [hn] at h
      simp only [Option.some.injEq] at h
      rw [← h]
      intro d hd hk
      rcases List.mem_cons.1 hd with rfl | hd
      · obtain ⟨h1, h2⟩ := newest_some hn
        exact Nat.le_of_lt (ho'.1 y.2 (docAt_mem h1) (by rw [hk, h2]))
      · exact ih ho'.2 hn d hd hk
    | none =>
      rw [hn] at h
      simp only at h
      split at h
      · cases h
        intro d hd hk
        rcases List.mem_cons.1 hd with rfl | hd
        · exact Nat.le_refl _
        · exact absurd hk (newest_none hn d hd)
      · cases h

/-! ### the booster -/

theorem setIfNew_length (slots : List BElem) (e : BElem) : (setIfNew slots e).length = slots.length := by
  unfold setIfNew
  split
  · rfl
  · split
    · rfl
    · rw [List.length_set]

theorem setIfNew_get {slots : List BElem} {e : BElem} {j : Nat} {y : BElem} (h : (setIfNew slots e)[j]? = some y) :
    (slots[j]? = some y) ∨ (y = e ∧ j = e.h % slots.length) := by
  unfold setIfNew at h
  split at h
  · exact Or.inl h
  · split at h
    · exact Or.inl h
    · by_cases hj : e.h % slots.length = j
      · right
        rw [hj, List.getElem?_set_self'] at h
        cases hs : slots[j]? with
        | none => rw [hs] at h; cases h
        | some z =>
          rw [hs] at h
          simp only [Option.map_eq_map, Option.map_some, Option.some.injEq, Function.const] at h
          exact ⟨h.symm, hj.symm⟩
      · left
        rw [List.getElem?_set_ne hj] at h
        exact h

/-- After `setIfNew` the slot has an element at least as new. -/
theorem setIfNew_has {slots : List BElem} (hn : 0 < slots.length) (e : BElem) :
    ∃ y, (setIfNew slots e)[e.h % slots.length]? = some y ∧ y.h = e.h ∧ e.seq ≤ y.seq := by
  have hlt := Nat.mod_lt e.h hn
  unfold setIfNew
  rw [List.getElem?_eq_getElem hlt]
  simp only
  split
  · next h => exact ⟨_, List.getElem?_eq_getElem hlt, h.1, h.2⟩
  · refine ⟨e, ?_, rfl, Nat.le_refl _⟩
    rw [List.getElem?_set_self hlt]

/-- An element for the same hash is not replaced by an older one. -/
theorem setIfNew_mono {slots : List BElem} {e x : BElem} {j : Nat} (hx : slots[j]? = some x)
    (hs : j = e.h % slots.length → x.h = e.h) :
    ∃ y, (setIfNew slots e)[j]? = some y ∧ y.h = x.h ∧ x.seq ≤ y.seq := by
  by_cases hj : j = e.h % slots.length
  · have hh := hs hj
    unfold setIfNew
    rw [← hj, hx]
    simp only
    split
    · exact ⟨x, hx, rfl, Nat.le_refl _⟩
    · next hc =>
      have hlt : j < slots.length := by
        by_contra hl
        rw [List.getElem?_eq_none (Nat.le_of_not_lt hl)] at hx
        cases hx
      refine ⟨e, by rw [List.getElem?_set_self hlt], hh.symm, ?_⟩
      by_contra hlt'
      exact hc ⟨hh, by omega⟩
  · refine ⟨x, ?_, rfl, Nat.le_refl _⟩
    unfold setIfNew
    split
    · exact hx
    · split
      · exact hx
      · rw [List.getElem?_set_ne (fun h => hj h.symm)]; exact hx

theorem look_some {slots : List BElem} {h off : Nat} (hl : look slots h = some off) :
    ∃ e, slots[h % slots.length]? = some e ∧ e.h = h ∧ e.off = off := by
  unfold look at hl
  split at hl
  · cases hl
  · next e he =>
    split at hl
    · next hh =>
      cases hl
      exact ⟨e, he, hh, rfl⟩
    · cases hl

/-- An element is fresh or belongs to a document. -/
def Valid (hash : K → Nat) (docs : List (BDoc K)) (n j : Nat) (e : BElem) : Prop :=
  e.off = 0 ∨ ∃ d, docAt docs e.off = some d ∧ hash d.r.key = e.h ∧ d.r.seq = e.seq ∧ e.h % n = j

/-! ### one call at a time -/

structure SeqInv (hash : K → Nat) (t : BTab K) : Prop where
  ord : Ordered t.docs
  valid : ∀ j e, t.slots[j]? = some e → Valid hash t.docs t.slots.length j e
  new : ∀ (j : Nat) (e : BElem), t.slots[j]? = some e → ∀ d, docAt t.docs e.off = some d → newest t.docs d.r.key = some (e.off, d)

theorem SeqInv.fresh (hash : K → Nat) (n : Nat) : SeqInv hash (fresh n : BTab K) := by
  have h0 : ∀ (j : Nat) (e : BElem), (List.replicate n ({} : BElem))[j]? = some e → e = {} :=
    fun j e h => List.eq_of_mem_replicate (List.mem_of_getElem? h)
  refine ⟨List.Pairwise.nil, fun j e h => Or.inl ?_, fun j e h d hd => ?_⟩
  · rw [h0 j e h]
  · rw [h0 j e h] at hd; cases hd

theorem SeqInv.set {t : BTab K} (h : SeqInv hash t) {r : Rec K} {purge : Bool}
    (hn : ∀ d ∈ t.docs, d.r.key = r.key → d.r.seq < r.seq) : SeqInv hash (t.set hash r purge) := by
  have hlen := setIfNew_length t.slots ⟨hash r.key, r.seq, t.docs.length + 1⟩
  refine ⟨h.ord.append hn, ?_, ?_⟩
  · intro j e he
    have he' : (setIfNew t.slots ⟨hash r.key, r.seq, t.docs.length + 1⟩)[j]? = some e := he
    show Valid hash (t.docs ++ [⟨r, purge⟩]) (setIfNew _ _).length j e
    rw [hlen]
    rcases setIfNew_get he' with h1 | ⟨rfl, hj⟩
    · rcases h.valid j e h1 with h2 | ⟨d, h2, h3⟩
      · exact Or.inl h2
      · exact Or.inr ⟨d, docAt_append h2 _, h3⟩
    · exact Or.inr ⟨⟨r, purge⟩, docAt_last _ _, rfl, rfl, hj.symm⟩
  · intro j e he d hd
    have he' : (setIfNew t.slots ⟨hash r.key, r.seq, t.docs.length + 1⟩)[j]? = some e := he
    have hd' : docAt (t.docs ++ [⟨r, purge⟩]) e.off = some d := hd
    show newest (t.docs ++ [⟨r, purge⟩]) d.r.key = _
    rw [newest_append]
    by_cases hnew : e.off = t.docs.length + 1
    · rw [hnew, docAt_last] at hd'
      cases hd'
      rw [if_pos rfl, hnew]
    · rcases setIfNew_get he' with h1 | ⟨rfl, -⟩
      · rcases h.valid j e h1 with h0 | ⟨d0, hd0, hh, hs, hm⟩
        · rw [h0] at hd'; cases hd'
        · rw [docAt_append hd0] at hd'
          cases hd'
          have hnw := h.new j e h1 d hd0
          by_cases hk : r.key = d.r.key
          · exfalso
            have hjj : j = hash r.key % t.slots.length := by rw [hk, hh]; exact hm.symm
            have hlt := hn d (docAt_mem hd0) hk.symm
            have hy := setIfNew_has (slots := t.slots) (by
              by_contra h0
              have : t.slots = [] := List.length_eq_zero_iff.mp (by omega)
              rw [this] at h1; cases h1) ⟨hash r.key, r.seq, t.docs.length + 1⟩
            obtain ⟨y, hy1, -, hy3⟩ := hy
            rw [← hjj, he'] at hy1
            cases hy1
            have : r.seq ≤ d.r.seq := by rw [hs]; exact hy3
            omega
          · rw [if_neg hk]; exact hnw
      · exact absurd rfl hnew

theorem SeqInv.fill {t : BTab K} (h : SeqInv hash t) {k : K} {x : Nat × BDoc K} (hx : newest t.docs k = some x) :
    SeqInv hash { t with slots := setIfNew t.slots ⟨hash k, x.2.r.seq, x.1⟩ } := by
  obtain ⟨h1, h2⟩ := newest_some hx
  have hlen := setIfNew_length t.slots ⟨hash k, x.2.r.seq, x.1⟩
  refine ⟨h.ord, ?_, ?_⟩
  · intro j e he
    show Valid hash t.docs (setIfNew _ _).length j e
    rw [hlen]
    rcases setIfNew_get he with h3 | ⟨rfl, hj⟩
    · exact h.valid j e h3
    · exact Or.inr ⟨x.2, h1, by rw [h2], rfl, hj.symm⟩
  · intro j e he d hd
    rcases setIfNew_get he with h3 | ⟨rfl, hj⟩
    · exact h.new j e h3 d hd
    · have hd' : docAt t.docs x.1 = some d := hd
      rw [h1] at hd'
      cases hd'
      show newest t.docs x.2.r.key = some (x.1, x.2)
      rw [h2, hx]

theorem search_some {ds : List (BDoc K)} {k : K} {x : Nat × BDoc K} (h : search ds k = some x) :
    newest ds k = some x ∧ x.2.purged = false := by
  unfold search at h
  rw [Option.filter_eq_some_iff] at h
  exact ⟨h.1, by simpa using h.2⟩

theorem SeqInv.get {t : BTab K} (h : SeqInv hash t) (k : K) : SeqInv hash (t.get hash k).2 := by
  unfold BTab.get
  split
  · exact h
  · unfold slow
    split
    · exact h
    · next x hx => exact h.fill (search_some hx).1

theorem SeqInv.quick {t : BTab K} (h : SeqInv hash t) {k : K} {d : BDoc K} (hq : quick hash t k = some d) :
    ∃ off, newest t.docs k = some (off, d) := by
  unfold BTab.quick at hq
  rw [Option.filter_eq_some_iff] at hq
  obtain ⟨h1, h2⟩ := hq
  have hk : d.r.key = k := by simpa using h2
  rw [Option.bind_eq_some_iff] at h1
  obtain ⟨off, ho, hd⟩ := h1
  obtain ⟨e, he, -, hoff⟩ := look_some ho
  rw [← hoff] at hd
  have := h.new _ e he d hd
  rw [hk] at this
  exact ⟨_, this⟩

/-! ### readers and a writer -/

/-- Keys that share an element of the booster have the same hash value. -/
def NoShare (hash : K → Nat) (n : Nat) : Prop := ∀ k k', hash k % n = hash k' % n → hash k = hash k'

/-- The answer to a read of `k`: nothing, if no version was there when it began, or that of a version of `k`
    at least as new as `fl`. -/
def Good (docs : List (BDoc K)) (k : K) (fl : Option (BDoc K)) (res : Option (Rec K)) : Prop :=
  (fl = none ∧ res = none) ∨ ∃ d ∈ docs, d.r.key = k ∧ (∀ f, fl = some f → f.r.seq ≤ d.r.seq) ∧
    res.filter (fun r => !r.isDel) = (some (toRec d)).filter (fun r => !r.isDel)

theorem Good.append {docs : List (BDoc K)} {k : K} {fl : Option (BDoc K)} {res : Option (Rec K)} (h : Good docs k fl res)
    (es : List (BDoc K)) : Good (docs ++ es) k fl res := by
  rcases h with h | ⟨d, hd, h⟩
  · exact Or.inl h
  · exact Or.inr ⟨d, List.mem_append_left _ hd, h⟩

def FloorOk (cs : List (BDoc K)) (k : K) (fl : Option (BDoc K)) : Prop := ∀ f, fl = some f → f ∈ cs ∧ f.r.key = k

def RdOk (docs cs : List (BDoc K)) : RPc K → Prop
  | .idle => True
  | .started k fl => FloorOk cs k fl
  | .hit k fl off => FloorOk cs k fl ∧ ∀ d, docAt docs off = some d → d.r.key = k → ∀ f, fl = some f → f.r.seq ≤ d.r.seq
  | .miss k fl => FloorOk cs k fl
  | .fill k fl off d => docAt docs off = some d ∧ d.r.key = k ∧ ∀ f, fl = some f → f.r.seq ≤ d.r.seq
  | .done k fl res => Good docs k fl res

structure ConcInv (hash : K → Nat) (n : Nat) (s : BSt K) : Prop where
  len : s.t.slots.length = n
  ord : Ordered s.t.docs
  pend : ∀ r off, s.pend = some (r, off) → ∃ ds p, s.t.docs = ds ++ [⟨r, p⟩] ∧ off = ds.length + 1
  valid : ∀ j e, s.t.slots[j]? = some e → Valid hash s.t.docs n j e
  cover : ∀ d ∈ s.completed, ∃ e, s.t.slots[hash d.r.key % n]? = some e ∧ e.h = hash d.r.key ∧ d.r.seq ≤ e.seq
  rd : ∀ i, RdOk s.t.docs s.completed (s.rd i)

theorem completed_sub (s : BSt K) : ∀ d ∈ s.completed, d ∈ s.t.docs := by
  intro d hd
  unfold BSt.completed at hd
  split at hd
  · exact hd
  · exact List.dropLast_subset _ hd

theorem FloorOk.mono {cs cs' : List (BDoc K)} {k : K} {fl : Option (BDoc K)} (h : FloorOk cs k fl) (hs : ∀ d ∈ cs, d ∈ cs') :
    FloorOk cs' k fl := fun f hf => ⟨hs f (h f hf).1, (h f hf).2⟩

theorem RdOk.mono {docs cs cs' : List (BDoc K)} {p : RPc K} (h : RdOk docs cs p) (hs : ∀ d ∈ cs, d ∈ cs') : RdOk docs cs' p := by
  cases p with
  | idle => trivial
  | started k fl => exact FloorOk.mono h hs
  | hit k fl off => exact ⟨FloorOk.mono h.1 hs, h.2⟩
  | miss k fl => exact FloorOk.mono h hs
  | fill k fl off d => exact h
  | done k fl res => exact h

/-- The writer appends a newer document. -/
theorem RdOk.append {docs cs : List (BDoc K)} {p : RPc K} (h : RdOk docs cs p) (hcs : ∀ d ∈ cs, d ∈ docs) {d : BDoc K}
    (hn : ∀ a ∈ docs, a.r.key = d.r.key → a.r.seq < d.r.seq) : RdOk (docs ++ [d]) cs p := by
  cases p with
  | idle => trivial
  | started k fl => exact h
  | hit k fl off =>
    refine ⟨h.1, fun a ha hk f hf => ?_⟩
    by_cases hl : off = docs.length + 1
    · rw [hl, docAt_last] at ha
      cases ha
      have := h.1 f hf
      exact Nat.le_of_lt (hn f (hcs f this.1) (by rw [this.2, hk]))
    · refine h.2 a ?_ hk f hf
      unfold docAt at ha ⊢
      split at ha
      · cases ha
      · next h0 =>
        rw [if_neg h0]
        have hlt : off - 1 < (docs ++ [d]).length := by
          by_contra hc
          rw [List.getElem?_eq_none (Nat.le_of_not_lt hc)] at ha
          cases ha
        rw [List.length_append, List.length_singleton] at hlt
        rw [List.getElem?_append_left (by omega)] at ha
        exact ha
  | miss k fl => exact h
  | fill k fl off a => exact ⟨docAt_append h.1 _, h.2⟩
  | done k fl res => exact Good.append h _

theorem upd_ok {docs cs : List (BDoc K)} {f : Nat → RPc K} {i : Nat} {p : RPc K} (h : ∀ j, RdOk docs cs (f j))
    (hp : RdOk docs cs p) : ∀ j, RdOk docs cs (upd f i p j) := by
  intro j
  unfold upd
  split
  · exact hp
  · exact h j

/-- An element for a document keeps the booster valid and complete. -/
theorem ConcInv.setSlot {n : Nat} (hs : NoShare hash n) {docs cs : List (BDoc K)} {slots : List BElem} (hlen : slots.length = n)
    (hv : ∀ j e, slots[j]? = some e → Valid hash docs n j e)
    (hc : ∀ d ∈ cs, ∃ e, slots[hash d.r.key % n]? = some e ∧ e.h = hash d.r.key ∧ d.r.seq ≤ e.seq) {off : Nat} {d : BDoc K}
    (hd : docAt docs off = some d) :
    (∀ j e, (setIfNew slots ⟨hash d.r.key, d.r.seq, off⟩)[j]? = some e → Valid hash docs n j e) ∧
    (∀ a ∈ cs, ∃ e, (setIfNew slots ⟨hash d.r.key, d.r.seq, off⟩)[hash a.r.key % n]? = some e ∧ e.h = hash a.r.key ∧ a.r.seq ≤ e.seq) := by
  constructor
  · intro j e he
    rcases setIfNew_get he with h1 | ⟨rfl, hj⟩
    · exact hv j e h1
    · rw [hlen] at hj
      exact Or.inr ⟨d, hd, rfl, rfl, hj.symm⟩
  · intro a ha
    obtain ⟨x, h1, h2, h3⟩ := hc a ha
    obtain ⟨y, g1, g2, g3⟩ := setIfNew_mono (e := ⟨hash d.r.key, d.r.seq, off⟩) h1 (by
      intro hj
      rw [hlen] at hj
      rw [h2]
      exact hs _ _ hj)
    exact ⟨y, g1, by rw [g2, h2], Nat.le_trans h3 g3⟩

theorem ConcInv.reach {n : Nat} (hn : 0 < n) (hs : NoShare hash n) {s : BSt K} (h : BReach hash n s) : ConcInv hash n s := by
  induction h with
  | init =>
    refine ⟨List.length_replicate, List.Pairwise.nil, ?_, ?_, ?_, fun _ => trivial⟩
    · intro r off h; cases h
    · intro j e he
      left
      have : (List.replicate n ({} : BElem))[j]? = some e := he
      rw [List.eq_of_mem_replicate (List.mem_of_getElem? this)]
    · intro d hd; cases completed_sub _ d hd
  | @step s s' _ hst ih =>
    cases hst with
    | write r purge hp hnew =>
      have hcomp : BSt.completed { s with t := { s.t with docs := s.t.docs ++ [⟨r, purge⟩] }, pend := some (r, s.t.docs.length + 1) } = s.completed := by
        unfold BSt.completed
        rw [if_neg (by intro h; cases h), if_pos hp]
        exact List.dropLast_concat
      refine ⟨ih.len, ih.ord.append hnew, ?_, ?_, ?_, ?_⟩
      · intro r' off he
        cases he
        exact ⟨_, _, rfl, rfl⟩
      · intro j e he
        rcases ih.valid j e he with h1 | ⟨d, h1, h2⟩
        · exact Or.inl h1
        · exact Or.inr ⟨d, docAt_append h1 _, h2⟩
      · rw [hcomp]; exact ih.cover
      · rw [hcomp]
        exact fun i => (ih.rd i).append (completed_sub s) hnew
    | publish r off hp =>
      obtain ⟨ds, p, hds, hoff⟩ := ih.pend r off hp
      have hd : docAt s.t.docs off = some ⟨r, p⟩ := by rw [hds, hoff]; exact docAt_last _ _
      have hc0 : s.completed = ds := by
        unfold BSt.completed
        rw [if_neg (by rw [hp]; intro h; cases h), hds]
        exact List.dropLast_concat
      have hset := ConcInv.setSlot (d := ⟨r, p⟩) hs ih.len ih.valid ih.cover hd
      have hc1 : BSt.completed { s with t := { s.t with slots := setIfNew s.t.slots ⟨hash r.key, r.seq, off⟩ }, pend := none } = s.t.docs := rfl
      refine ⟨by rw [setIfNew_length]; exact ih.len, ih.ord, (fun _ _ h => by cases h), hset.1, ?_, ?_⟩
      · rw [hc1]
        intro a ha
        rw [hds] at ha
        rcases List.mem_append.1 ha with ha | ha
        · exact hset.2 a (by rw [hc0]; exact ha)
        · rw [List.mem_singleton] at ha
          subst ha
          obtain ⟨y, h1, h2, h3⟩ := setIfNew_has (slots := s.t.slots) (by rw [ih.len]; exact hn) ⟨hash r.key, r.seq, off⟩
          rw [ih.len] at h1
          exact ⟨y, h1, h2, h3⟩
      · rw [hc1]
        exact fun i => (ih.rd i).mono (completed_sub s)
    | start i k h =>
      refine ⟨ih.len, ih.ord, ih.pend, ih.valid, ih.cover, upd_ok ih.rd ?_⟩
      intro f hf
      cases hx : newest s.completed k with
      | none => rw [hx] at hf; cases hf
      | some x =>
        rw [hx] at hf
        cases hf
        obtain ⟨h1, h2⟩ := newest_some hx
        exact ⟨docAt_mem h1, h2⟩
    | look i k fl h =>
      have hr := ih.rd i
      rw [h] at hr
      refine ⟨ih.len, ih.ord, ih.pend, ih.valid, ih.cover, upd_ok ih.rd ?_⟩
      cases hl : BTab.look s.t.slots (hash k) with
      | none => exact hr
      | some off =>
        refine ⟨hr, fun d hd hk f hf => ?_⟩
        obtain ⟨e, he, hh, hoff⟩ := look_some hl
        obtain ⟨hf1, hf2⟩ := hr f hf
        obtain ⟨e', g1, -, g3⟩ := ih.cover f hf1
        rw [hf2] at g1
        rw [ih.len, g1] at he
        cases he
        rcases ih.valid _ _ g1 with h0 | ⟨d', hd', -, hseq, -⟩
        · rw [← hoff, h0] at hd; cases hd
        · rw [hoff, hd] at hd'
          cases hd'
          rw [hseq]; exact g3
    | read i k fl off h =>
      have hr := ih.rd i
      rw [h] at hr
      refine ⟨ih.len, ih.ord, ih.pend, ih.valid, ih.cover, upd_ok ih.rd ?_⟩
      cases hl : (docAt s.t.docs off).filter (fun d => decide (d.r.key = k)) with
      | none => exact hr.1
      | some d =>
        rw [Option.filter_eq_some_iff] at hl
        have hk : d.r.key = k := by simpa using hl.2
        exact Or.inr ⟨d, docAt_mem hl.1, hk, hr.2 d hl.1 hk, rfl⟩
    | search i k fl h =>
      have hr := ih.rd i
      rw [h] at hr
      refine ⟨ih.len, ih.ord, ih.pend, ih.valid, ih.cover, upd_ok ih.rd ?_⟩
      cases hl : BTab.search s.t.docs k with
      | none =>
        unfold BTab.search at hl
        cases hx : newest s.t.docs k with
        | none =>
          left
          refine ⟨?_, rfl⟩
          cases fl with
          | none => rfl
          | some f =>
            obtain ⟨hf1, hf2⟩ := hr f rfl
            exact absurd hf2 (newest_none hx f (completed_sub s f hf1))
        | some x =>
          rw [hx] at hl
          have hp : x.2.purged = true := by
            by_contra hp
            rw [Option.filter_some, if_pos (by simpa using hp)] at hl
            cases hl
          obtain ⟨h1, h2⟩ := newest_some hx
          refine Or.inr ⟨x.2, docAt_mem h1, h2, ?_, ?_⟩
          · intro f hf
            obtain ⟨hf1, hf2⟩ := hr f hf
            exact newest_top ih.ord hx f (completed_sub s f hf1) hf2
          · unfold toRec
            rw [if_pos hp]; rfl
      | some x =>
        obtain ⟨hx, -⟩ := search_some hl
        obtain ⟨h1, h2⟩ := newest_some hx
        refine ⟨h1, h2, ?_⟩
        intro f hf
        obtain ⟨hf1, hf2⟩ := hr f hf
        exact newest_top ih.ord hx f (completed_sub s f hf1) hf2
    | fill i k fl off d h =>
      have hr := ih.rd i
      rw [h] at hr
      obtain ⟨h1, h2, h3⟩ := hr
      have hset := ConcInv.setSlot (d := d) hs ih.len ih.valid ih.cover h1
      rw [h2] at hset
      refine ⟨by rw [setIfNew_length]; exact ih.len, ih.ord, ih.pend, hset.1, hset.2, upd_ok ih.rd ?_⟩
      exact Or.inr ⟨d, docAt_mem h1, h2, h3, rfl⟩
    | leave i k fl res h =>
      exact ⟨ih.len, ih.ord, ih.pend, ih.valid, ih.cover, upd_ok ih.rd trivial⟩

end BTab
end Jungle
