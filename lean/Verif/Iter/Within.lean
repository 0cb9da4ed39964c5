/-
  Whatever is done with an iterator, what it shows comes from its sources: an invariant of all
  calls, without any condition on bounds, directions or positions.
-/
import Verif.Iter.SeqItr

set_option linter.unusedSectionVars false

namespace Jungle.Iter
variable {σ τ E O : Type} [LinearOrder O]

/-- Every state of `I` shows nothing outside `H`, and no call leaves `I`. -/
structure Within (ops : Ops σ E O) (I : σ → Prop) (H : E → Prop) : Prop where
  get : ∀ {s e}, I s → ops.get s = some e → H e
  step : ∀ {s} (d : Dir), I s → I (ops.step d s).2
  seek : ∀ {s} (q : Seek O), I s → I (ops.seek q s).2

/-! ### Leaves -/

/-- All nodes of a leaf show records in `H`. -/
def AllIn {N : Type} (H : E → Prop) (s : Leaf O N E) : Prop :=
  ∀ n ∈ s.nodes, ∀ e, s.val n.2 = some e → H e

section
variable {N : Type} {H : E → Prop}

theorem AllIn.goto {s : Leaf O N E} (h : AllIn H s) (k : Option O) : AllIn H (s.goto k).2 := by
  cases k <;> exact h

theorem AllIn.seqGE {s : Leaf O N E} (h : AllIn H s) (l : List (O × N)) : AllIn H (s.seqGE l).2 := by
  cases l <;> exact h.goto _

theorem AllIn.seqLE {s : Leaf O N E} (h : AllIn H s) (k : O) : AllIn H (s.seqLE k).2 := by
  unfold Leaf.seqLE
  simp only
  split <;> exact h.goto _

theorem AllIn.memGE {s : Leaf O N E} (h : AllIn H s) (l : List (O × N)) : AllIn H (s.memGE l).2 := by
  unfold Leaf.memGE
  split <;> exact h.goto _

theorem AllIn.memLE {s : Leaf O N E} (h : AllIn H s) (l : List (O × N)) : AllIn H (s.memLE l).2 := by
  unfold Leaf.memLE
  split <;> exact h.goto _

theorem leaf_within (kind : Kind) : Within (Leaf.ops (N := N) kind) (AllIn (O := O) H) H where
  get := by
    intro s e h hg
    have hg' : s.get = some e := hg
    unfold Leaf.get at hg'
    split at hg'
    · cases hg'
    · split at hg'
      · cases hg'
      · next n hn => exact h n (List.mem_of_find?_eq_some hn) e hg'
  step := by
    intro s d h
    show AllIn H (s.step d).2
    unfold Leaf.step
    split
    · exact h
    · cases d <;> exact h.goto _
  seek := by
    intro s q h
    show AllIn H (Leaf.seek kind q s).2
    unfold Leaf.seek
    split
    · exact h
    · split
      · exact h.memGE _
      · exact h.memGE _
      · exact h.memLE _
      · exact h.goto _
      · exact h.seqGE _
      · exact h.seqGE _
      · exact h.seqLE _
      · split
        · exact h.goto _
        · exact h.seqLE _
      · exact h.goto _
      · split <;> exact h.goto _
      · split <;> exact h.goto _
      · exact h.goto _

theorem allIn_init {nodes : List (O × N)} {val : N → Option E} {lo hi : Option O}
    (h : ∀ n ∈ nodes, ∀ e, val n.2 = some e → H e) : AllIn H (Leaf.init nodes val lo hi) := h

end

/-! ### A child of one of two kinds -/

theorem sum_within {o1 : Ops σ E O} {o2 : Ops τ E O} {I : σ → Prop} {J : τ → Prop} {H : E → Prop}
    (h1 : Within o1 I H) (h2 : Within o2 J H) : Within (sumOps o1 o2) (Sum.elim I J) H where
  get := by rintro (s | s) e h hg; exacts [h1.get h hg, h2.get h hg]
  step := by rintro (s | s) d h; exacts [h1.step d h, h2.step d h]
  seek := by rintro (s | s) d h; exacts [h1.seek d h, h2.seek d h]

/-! ### The merging iterator -/

section
variable {p : Par E O} {ops : Ops σ E O} {I : σ → Prop} {H : E → Prop}

/-- The child and the last record of an item. -/
def ItemIn (I : σ → Prop) (H : E → Prop) (x : Item σ E) : Prop := I x.cur ∧ H x.last

/-- All items, and the record under the cursor. -/
structure ItrIn (I : σ → Prop) (H : E → Prop) (it : Itr σ E) : Prop where
  win : ∀ x ∈ it.win, ItemIn I H x
  cur : ∀ e, it.cur = some e → H e

theorem in_ins {x y : Item σ E} : ∀ {l : List (Item σ E)}, y ∈ ins p x l → y = x ∨ y ∈ l
  | [], h => by simpa [ins] using h
  | z :: l, h => by
    unfold ins at h
    split at h
    · rcases List.mem_cons.1 h with h | h
      · exact Or.inl h
      · exact Or.inr h
    · rcases List.mem_cons.1 h with h | h
      · exact Or.inr (h ▸ List.mem_cons_self)
      · rcases in_ins h with h | h
        · exact Or.inl h
        · exact Or.inr (List.mem_cons_of_mem _ h)

theorem in_walk {d : Dir} {y : Item σ E} {l : List (Item σ E)} : y ∈ walk d l ↔ y ∈ l := by
  cases d <;> simp [walk]

theorem itemIn_setFlag {d : Dir} {x : Item σ E} (h : ItemIn I H x) : ItemIn I H (x.setFlag d) := by
  cases d <;> exact h

theorem loop_in (hw : Within ops I H) {d : Dir} {k : O} : ∀ (n : Nat) (passed l w : List (Item σ E)),
    (∀ x ∈ passed, ItemIn I H x) → (∀ x ∈ l, ItemIn I H x) → loop p ops d k n passed l = some w →
    ∀ x ∈ w, ItemIn I H x := by
  intro n
  induction n with
  | zero => intro passed l w _ _ h; cases h
  | succ n ih =>
    intro passed l w hp hl h
    cases l with
    | nil => cases h; exact hp
    | cons x rest =>
      have hx := hl x List.mem_cons_self
      have hr : ∀ y ∈ rest, ItemIn I H y := fun y hy => hl y (List.mem_cons_of_mem _ hy)
      have happ : ∀ z, ItemIn I H z → ∀ y ∈ passed ++ [z], ItemIn I H y := by
        intro z hz y hy
        rcases List.mem_append.1 hy with hy | hy
        · exact hp y hy
        · rw [List.mem_singleton.1 hy]; exact hz
      unfold loop at h
      split at h
      · exact ih _ _ _ (happ x hx) hr h
      · split at h
        · cases h
          intro y hy
          rcases List.mem_append.1 hy with hy | hy
          · exact hp y hy
          · exact hl y hy
        · have hst := hw.step d hx.1
          split at h
          · next c hc =>
            rw [hc] at hst
            split at h
            · cases h
            · next e he =>
              refine ih _ _ _ (fun y hy => by cases hy) ?_ h
              intro y hy
              rcases in_ins (in_walk.1 hy) with rfl | hy
              · exact ⟨hst, hw.get hst he⟩
              · rcases List.mem_append.1 (in_walk.1 hy) with hy | hy
                · exact hp y hy
                · exact hr y hy
          · next c _ hc =>
            rw [hc] at hst
            refine ih _ _ _ ?_ hr h
            exact happ _ (itemIn_setFlag (x := { x with cur := c }) ⟨hst, hx.2⟩)

theorem lastValid_in : ∀ (l : List (Item σ E)) {e : E}, (∀ x ∈ l, ItemIn I H x) → lastValid p l = some e → H e
  | [], e, _, h => by cases h
  | [x], e, hl, h => by cases h; exact (hl x (by simp)).2
  | x :: y :: l, e, hl, h => by
    unfold lastValid at h
    split at h
    · exact lastValid_in (y :: l) (fun z hz => hl z (List.mem_cons_of_mem _ hz)) h
    · cases h; exact (hl x (by simp)).2

theorem scanPrev_in {k : O} : ∀ (l : List (Item σ E)) {lv : Option E} {e : E}, (∀ x ∈ l, ItemIn I H x) →
    (∀ v, lv = some v → H v) → scanPrev p k lv l = some e → H e
  | [], lv, e, _, hv, h => by
    cases lv with
    | none => cases h
    | some v => cases h; exact hv _ rfl
  | x :: l, none, e, hl, hv, h => by
    unfold scanPrev at h
    refine scanPrev_in l (fun z hz => hl z (List.mem_cons_of_mem _ hz)) ?_ h
    intro v hv
    split at hv
    · cases hv; exact (hl x (by simp)).2
    · cases hv
  | x :: l, some v, e, hl, hv, h => by
    unfold scanPrev at h
    split at h
    · cases h; exact hv _ rfl
    · refine scanPrev_in l (fun z hz => hl z (List.mem_cons_of_mem _ hz)) ?_ h
      intro v' hv'
      split at hv'
      · cases hv'; exact (hl x (by simp)).2
      · cases hv'; exact hv _ rfl

theorem find_in {f : Item σ E → Bool} {l : List (Item σ E)} (hl : ∀ x ∈ l, ItemIn I H x) {x : Item σ E}
    (h : l.find? f = some x) : H x.last := (hl x (List.mem_of_find?_eq_some h)).2

theorem head_in {l : List (Item σ E)} (hl : ∀ x ∈ l, ItemIn I H x) {e : E}
    (h : l.head?.map (·.last) = some e) : H e := by
  cases l with
  | nil => cases h
  | cons x l => cases h; exact (hl x (by simp)).2

theorem rev_in {l : List (Item σ E)} (hl : ∀ x ∈ l, ItemIn I H x) : ∀ x ∈ l.reverse, ItemIn I H x :=
  fun x hx => hl x (List.mem_reverse.1 hx)

theorem foldIns_in : ∀ (xs w : List (Item σ E)), (∀ x ∈ xs, ItemIn I H x) → (∀ x ∈ w, ItemIn I H x) →
    ∀ x ∈ xs.foldl (fun w x => ins p x w) w, ItemIn I H x
  | [], w, _, h => h
  | y :: xs, w, hx, h => foldIns_in xs _ (fun z hz => hx z (List.mem_cons_of_mem _ hz)) (by
      intro z hz
      rcases in_ins hz with rfl | hz
      · exact hx z (by simp)
      · exact h z hz)

theorem seekFlag_in {q : Seek O} {x : Item σ E} (h : ItemIn I H x) : ItemIn I H (seekFlag p q x) := by
  cases q <;> exact h

theorem seekAll_in (hw : Within ops I H) {q : Seek O} : ∀ (l r : List (Item σ E)), (∀ x ∈ l, ItemIn I H x) →
    seekAll p ops q l = some r → ∀ x ∈ r, ItemIn I H x
  | [], r, _, h => by cases h; intro x hx; cases hx
  | x :: l, r, hl, h => by
    unfold seekAll at h
    have hx := hl x (by simp)
    have hsk := hw.seek q hx.1
    split at h
    · next y r' hy hr =>
      cases h
      have hyin : ItemIn I H y := by
        unfold seekItem at hy
        split at hy
        · next c hc =>
          rw [hc] at hsk
          split at hy
          · cases hy
          · next e he =>
            cases hy
            exact seekFlag_in ⟨hsk, hw.get hsk he⟩
        · next c _ hc =>
          rw [hc] at hsk
          cases hy
          exact ⟨hsk, hx.2⟩
      intro z hz
      rcases List.mem_cons.1 hz with rfl | hz
      · exact hyin
      · exact seekAll_in hw l r' (fun z hz => hl z (List.mem_cons_of_mem _ hz)) hr z hz
    · cases h

theorem merge_within (hw : Within ops I H) : Within (mergeOps p ops) (ItrIn I H) H where
  get := fun h hg => h.cur _ hg
  step := by
    intro it d h
    cases d with
    | fwd =>
      show ItrIn I H (next p ops it).2
      unfold next
      split
      · exact h
      · split
        · exact h
        · next w hloop =>
          have hin := loop_in hw _ _ _ _ (fun x hx => by cases hx) h.win hloop
          split
          · next x hx => exact ⟨hin, fun e he => by cases he; exact find_in hin hx⟩
          · exact ⟨hin, fun e he => lastValid_in _ (rev_in hin) he⟩
    | bwd =>
      show ItrIn I H (prev p ops it).2
      unfold prev
      split
      · exact h
      · next e0 _ =>
        split
        · exact h
        · next w hloop =>
          have hin := loop_in hw _ _ _ _ (fun x hx => by cases hx) (rev_in h.win) hloop
          split
          · next v hv =>
            refine ⟨rev_in hin, fun e he => ?_⟩
            cases he
            split at hv
            · exact scanPrev_in _ hin (fun v hv => by cases hv) hv
            · cases hf : w.find? (validItem p .bwd (p.ord e0)) with
              | none => rw [hf] at hv; cases hv
              | some x => rw [hf] at hv; cases hv; exact find_in hin hf
          · exact ⟨rev_in hin, fun e he => head_in (rev_in hin) he⟩
  seek := by
    intro it q h
    show ItrIn I H (seek p ops q it).2
    unfold seek
    split
    · exact h
    · next xs hxs =>
      have hin := foldIns_in (p := p) xs [] (seekAll_in hw _ _ h.win hxs) (fun x hx => by cases hx)
      refine ⟨hin, fun e he => ?_⟩
      have he' : seekCur p q (xs.foldl (fun w x => ins p x w) []) = some e := he
      generalize xs.foldl (fun w x => ins p x w) [] = w at hin he'
      unfold seekCur at he'
      split at he'
      · split at he'
        · next x hx => cases he'; exact find_in hin hx
        · exact head_in (rev_in hin) he'
      · split at he'
        · next x hx => cases he'; exact find_in hin hx
        · exact head_in (rev_in hin) he'
      · exact lastValid_in _ (rev_in hin) he'
      · exact lastValid_in _ (rev_in hin) he'

theorem open_within (hw : Within ops I H) {cs : List σ} (h : ∀ s ∈ cs, I s) : ItrIn I H (openIdx p ops cs) := by
  have key : ∀ (cs : List (Nat × σ)) (w : List (Item σ E)), (∀ c ∈ cs, I c.2) → (∀ x ∈ w, ItemIn I H x) →
      ∀ x ∈ cs.foldl (fun w c =>
        match ops.get c.2 with
        | some e => ins p { id := c.1, cur := c.2, last := e } w
        | none => w) w, ItemIn I H x := by
    intro cs
    induction cs with
    | nil => intro w _ h; exact h
    | cons c cs ih =>
      intro w hc h
      rw [List.foldl_cons]
      refine ih _ (fun x hx => hc x (List.mem_cons_of_mem _ hx)) ?_
      split
      · next e he =>
        intro z hz
        rcases in_ins hz with rfl | hz
        · exact ⟨hc c (by simp), hw.get (hc c (by simp)) he⟩
        · exact h z hz
      · exact h
  have hin := key (cs.zipIdx.map (fun x => (x.2, x.1))) [] (by
    intro c hc
    obtain ⟨x, hx, rfl⟩ := List.mem_map.1 hc
    exact h x.1 (List.fst_mem_of_mem_zipIdx hx)) (fun x hx => by cases hx)
  exact ⟨hin, fun e he => head_in hin he⟩

end

/-! ### Handles -/

section
variable {K : Type} [LinearOrder K]

/-- What an iterator by number of a handle keeps. -/
def SeqOnly (H : Rec K → Prop) : SeqIt K → Prop :=
  ItrIn (Sum.elim (ItrIn (AllIn H) H) (ItrIn (AllIn H) H)) H

theorem seq_within (H : Rec K → Prop) : Within (seqOps (K := K)) (SeqOnly H) H :=
  merge_within (sum_within (merge_within (leaf_within _)) (merge_within (leaf_within _)))

/-- What an iterator by key of a handle keeps. -/
def KeyOnly (H : Rec K → Prop) : KeyIt K → Prop :=
  ItrIn (Sum.elim (ItrIn (AllIn H) H) (ItrIn (AllIn H) H)) H

theorem key_within (H : Rec K → Prop) : Within (keyOps (K := K)) (KeyOnly H) H :=
  merge_within (sum_within (merge_within (leaf_within _)) (merge_within (leaf_within _)))

theorem SeqOnly.step {H : Rec K → Prop} {it : SeqIt K} (h : SeqOnly H it) (d : Dir) : SeqOnly H (sqStep d it).2 := by
  unfold sqStep
  split
  · exact h
  · exact (seq_within H).step d h

theorem SeqOnly.seek {H : Rec K → Prop} {it : SeqIt K} (h : SeqOnly H it) (q : Seek Nat) : SeqOnly H (sqSeek q it).2 := by
  unfold sqSeek
  split
  · exact h
  · exact (seq_within H).seek q h

theorem SeqOnly.get {H : Rec K → Prop} {it : SeqIt K} (h : SeqOnly H it) {e : Rec K} (hg : (sqGet it).2 = some e) :
    H e := by
  unfold sqGet at hg
  split at hg
  · next e' he => cases hg; exact h.cur _ he
  · cases hg

theorem KeyOnly.rounds {H : Rec K → Prop} (d : Dir) : ∀ (n : Nat) {it : KeyIt K}, KeyOnly H it →
    KeyOnly H (keyRounds d n it).2
  | 0, _, h => h
  | n + 1, it, h => by
    have hs := (key_within H).step d h
    unfold keyRounds
    split
    · next it' he =>
      rw [he] at hs
      split
      · split
        · exact hs
        · exact KeyOnly.rounds d n hs
      · exact hs
    · exact hs

theorem KeyOnly.step {H : Rec K → Prop} {it : KeyIt K} (h : KeyOnly H it) (d : Dir) : KeyOnly H (keyStep d it).2 := by
  unfold keyStep
  split
  · exact h
  · exact KeyOnly.rounds d _ h

theorem KeyOnly.skip {H : Rec K → Prop} {it : KeyIt K} (h : KeyOnly H it) (d : Dir) : KeyOnly H (skipDel d it) := by
  unfold skipDel
  split
  · split
    · exact h
    · exact h.step d
  · exact h

theorem KeyOnly.seek {H : Rec K → Prop} {it : KeyIt K} (h : KeyOnly H it) (q : Seek K) : KeyOnly H (keySeek q it).2 := by
  have hs := (key_within H).seek q h
  unfold keySeek
  split
  · exact h
  · split
    · next it' he => rw [he] at hs; exact KeyOnly.skip hs _
    · exact hs

theorem KeyOnly.get {H : Rec K → Prop} {it : KeyIt K} (h : KeyOnly H it) {e : Rec K} (hg : (keyGet it).2 = some e) :
    H e ∧ e.isIns = true := by
  unfold keyGet at hg
  split at hg
  · next e' he =>
    split at hg
    · next hi => cases hg; exact ⟨h.cur _ he, hi⟩
    · cases hg
  · cases hg

end
end Jungle.Iter
