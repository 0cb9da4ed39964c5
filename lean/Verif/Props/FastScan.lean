/-
  C57: turning on `fastIndexScan` does not change what a read returns after a compaction.

  `IdxOk idx k` says what the index of the storage engine may hold for key `k`: some bytes of the key
  and padding.  `idxKey idx k` is what the code is left with after it has removed the padding.
-/
import Verif.FastScan.Lemmas
import Verif.Props.KV
import Verif.DB.Script
import Verif.Iter.WithinDB

namespace Jungle.FastScan
open TMgr

section
variable {c : TCfg ByteKey} {parts : Nat} {hp : 0 < parts} {idx : ByteKey → Bytes}

/-- **C57 (part), level 0.**  After a compaction of a partition into level 1 by index traversal every
    read returns the last accepted write of the key, and the handle is in a state that calls with a
    normal compaction reach.  Missing: victims with a record that passes the start of one table of
    level 1 with the bytes in the index and the start of another one with its remaining bytes; there
    it is false (`C57_clash`). -/
theorem C57_l0_partial {db : DB ByteKey (Lsm c parts hp)} {h : List (Rec ByteKey)} (hr : Reach db h)
    (hc : db.closing = false) {p : Nat} (hpp : p < (db.table : TMgr ByteKey).parts) (full : Nat → Bool)
    (hcl : L0Clear idx (db.table : TMgr ByteKey) p) :
    let db' : DB ByteKey (Lsm c parts hp) := { db with table := compactL0End idx c db.table p full }
    Reach db' h ∧ ∀ k, db'.get k = Spec.answer h k := by
  intro db'
  obtain ⟨A, B, -, hi⟩ := hr.inv
  obtain ⟨f, hf⟩ := compactL0End_eq (idx := idx) (c := c) (t := db.table) hi.table full hcl
  have hr' : Reach db' h := by
    show Reach (S := Lsm c parts hp) { db with table := (compactL0End idx c db.table p full : TMgr ByteKey) } h
    rw [hf]
    exact Reach.maint hr (TMgr.Maint.l0End _ p f hpp)
  exact ⟨hr', fun k => C01_get_returns_latest_write hr' hc k⟩

/-- **C57 (part), levels above 0.** -/
theorem C57_level_partial {db : DB ByteKey (Lsm c parts hp)} {h : List (Rec ByteKey)} (hr : Reach db h)
    (hc : db.closing = false) (i n : Nat) (full : Nat → Bool) (refill : Bool)
    (hcl : LevelClear idx (db.table : TMgr ByteKey) i n) :
    let db' : DB ByteKey (Lsm c parts hp) := { db with table := compactLevel idx c db.table i n full refill }
    Reach db' h ∧ ∀ k, db'.get k = Spec.answer h k := by
  intro db'
  obtain ⟨A, B, -, hi⟩ := hr.inv
  obtain ⟨f, hf⟩ := compactLevel_eq (idx := idx) (c := c) (t := db.table) hi.table full refill hcl
  have hr' : Reach db' h := by
    show Reach (S := Lsm c parts hp) { db with table := (compactLevel idx c db.table i n full refill : TMgr ByteKey) } h
    rw [hf]
    exact Reach.maint hr (TMgr.Maint.level _ i n f refill)
  exact ⟨hr', fun k => C01_get_returns_latest_write hr' hc k⟩

theorem Clear.whole {tables : List (Tab ByteKey)} : ∀ (rs : List (ByteKey × Rec ByteKey)) (lo : ByteKey),
    (∀ e ∈ rs, idxKey idx e.1 = e.1) → Clear idx tables lo rs := by
  intro rs
  induction rs with
  | nil => intros; trivial
  | cons e rs ih =>
    obtain ⟨k, r⟩ := e
    intro lo h
    refine ⟨fun x _ y _ _ _ hy => ?_, ih k (fun e he => h e (List.mem_cons_of_mem _ he))⟩
    have := h (k, r) List.mem_cons_self
    rwa [this] at hy

/-- The index of an engine that keeps the first `n` bytes of a key and fills them up to `n`. -/
def chunk (n : Nat) (k : ByteKey) : Bytes := k.bytes.take n ++ List.replicate (n - k.bytes.length) 0

theorem chunk_ok {n : Nat} (hn : 0 < n) {k : ByteKey} (hk : k.bytes ≠ []) : IdxOk (chunk n) k := by
  have : 0 < k.bytes.length := List.length_pos_iff.2 hk
  refine ⟨min n k.bytes.length, n - k.bytes.length, by omega, by omega, ?_⟩
  unfold chunk
  rw [List.take_eq_take_min]

theorem chunk_whole {n : Nat} {k : ByteKey} (hk : k.bytes ≠ []) (hl : k.bytes.length ≤ n)
    (hlast : k.bytes.length = 1 ∨ k.bytes.getLast? ≠ some 0) : idxKey (chunk n) k = k := by
  apply ByteKey.ext'
  show stripNul (chunk n k) = k.bytes
  unfold chunk
  rw [List.take_of_length_le hl]
  cases hb : k.bytes with
  | nil => exact absurd hb hk
  | cons b bs =>
    rw [List.cons_append, stripNul, dropNul]
    congr 1
    rw [hb] at hlast
    rcases List.eq_nil_or_concat bs with rfl | ⟨bs, x, rfl⟩
    · rfl
    · have hx : x ≠ 0 := by
        rcases hlast with h | h
        · simp at h
        · intro hx; apply h; rw [List.concat_eq_append, ← List.cons_append, List.getLast?_concat, hx]
      rw [List.concat_eq_append, List.reverse_append, List.reverse_singleton, List.singleton_append, List.dropWhile_cons,
        if_neg (by simpa using hx), List.reverse_cons, List.reverse_reverse]

/-- **C57 (part), short keys.**  If the index keeps the first `n` bytes of a key, then databases whose
    keys have at most `n` bytes and no NUL at the end are not affected. -/
theorem C57_short_keys_partial {db : DB ByteKey (Lsm c parts hp)} {h : List (Rec ByteKey)} (hr : Reach db h)
    (hc : db.closing = false) {p : Nat} (hpp : p < (db.table : TMgr ByteKey).parts) (full : Nat → Bool) {n : Nat}
    (hn : 0 < n)
    (hkeys : ∀ r ∈ h, r.key.bytes ≠ [] ∧ r.key.bytes.length ≤ n ∧ r.key.bytes.getLast? ≠ some 0) :
    let db' : DB ByteKey (Lsm c parts hp) := { db with table := compactL0End (chunk n) c db.table p full }
    ∀ k, db'.get k = Spec.answer h k := by
  have hsrc : ∀ v, (db.table : TMgr ByteKey).srcOf p = some v → ∀ e ∈ v.recs, ∃ r ∈ h, r.key = e.1 := by
    obtain ⟨A, B, rfl, hi, hnw⟩ := hr.inv_with (TMgr.newest_pred c parts hp)
    intro v hv e he
    have hv0 := ((srcOf_iff hi.table hpp v).1 hv).1
    have := Iter.tables_written (H := (· ∈ A ++ B)) hi.table (fun k r hr => (hnw.mem k r hr).1) (lo := none) (hi := none) (x := v)
      (List.mem_append_left _ hv0) e he
    exact ⟨e.2, this, ((hi.table.l0Recs v hv0).2 e he).1⟩
  refine (C57_l0_partial (idx := chunk n) hr hc hpp full ?_).2
  intro v hv
  refine ⟨fun e he => ?_, fun l ls _ => Clear.whole _ _ (fun e he => ?_)⟩
  · obtain ⟨r, h1, h2⟩ := hsrc v hv e he
    rw [← h2]; exact chunk_ok hn (hkeys r h1).1
  · obtain ⟨r, h1, h2⟩ := hsrc v hv e he
    rw [← h2]; exact chunk_whole (hkeys r h1).1 (hkeys r h1).2.1 (Or.inr (hkeys r h1).2.2)

end

/-! ### Where it is false -/

theorem floor_top {k : ByteKey} : ∀ (l : List (Tab ByteKey)) (prev : Option (Tab ByteKey)) {x pr}, MinSorted l →
    floor prev l k = some (x, pr) → x ∈ l ∧ ∀ t ∈ l, t.minKey ≤ k → t.minKey ≤ x.minKey := by
  intro l
  induction l with
  | nil => intro prev x pr _ h; cases h
  | cons a as ih =>
    intro prev x pr hs h
    have hp := List.pairwise_cons.1 hs
    simp only [floor] at h
    split at h
    · split at h
      · next r hr =>
        cases h
        obtain ⟨h1, h2⟩ := ih (some a) hp.2 hr
        refine ⟨List.mem_cons_of_mem _ h1, fun t ht hk => ?_⟩
        rcases List.mem_cons.1 ht with rfl | ht
        · exact (hp.1 x h1).le
        · exact h2 t ht hk
      · next hr =>
        cases h
        refine ⟨List.mem_cons_self, fun t ht hk => ?_⟩
        rcases List.mem_cons.1 ht with rfl | ht
        · exact le_refl _
        · exfalso
          cases as with
          | nil => cases ht
          | cons b bs =>
            have hb : b.minKey ≤ k := by
              rcases List.mem_cons.1 ht with rfl | ht'
              · exact hk
              · exact le_trans ((List.pairwise_cons.1 hp.2).1 t ht').le hk
            simp only [floor, if_pos hb] at hr
            split at hr <;> cases hr
    · cases h

theorem advance_tgt {p : ByteKey} : ∀ (rest : List (Tab ByteKey)) (cur : Tgt ByteKey) (x : Tab ByteKey) (xs : List (Tab ByteKey)),
    rest = x :: xs → x.minKey ≤ p →
    ∃ t ∈ rest, (advance cur rest p).1 = ⟨t.minKey, false⟩ ∧ t.minKey ≤ p := by
  intro rest
  induction rest with
  | nil => intro cur x xs h; cases h
  | cons a as ih =>
    intro cur x xs h hx
    cases h
    simp only [advance, if_pos hx]
    cases as with
    | nil => exact ⟨a, List.mem_cons_self, rfl, hx⟩
    | cons b bs =>
      by_cases hb : b.minKey ≤ p
      · obtain ⟨t, h1, h2, h3⟩ := ih ⟨a.minKey, false⟩ b bs rfl hb
        exact ⟨t, List.mem_cons_of_mem _ h1, h2, h3⟩
      · simp only [advance, if_neg hb]
        exact ⟨a, List.mem_cons_self, rfl, hx⟩

/-- **C57 is false whenever there is a clash.**  Take any level, any victim with one record whose key
    `k` the level does not hold yet, and two tables `x` and `y` of the level such that the bytes of
    `k` in the index are at or above the start of `x` and below the start of `y`, but `k` is not
    below the start of `y`.  After the compaction the level does not find `k`. -/
theorem C57_clash {idx : ByteKey → Bytes} {l : List (Tab ByteKey)} (hl : LevelOk l)
    {k vmin : ByteKey} {r : Rec ByteKey}
    {x y : Tab ByteKey} (hx : x ∈ l) (hy : y ∈ l) (hvx : vmin < x.minKey)
    (hxi : x.minKey ≤ idxKey idx k) (hiy : idxKey idx k < y.minKey) (hyk : y.minKey ≤ k)
    (hxk : x.minKey ≤ k) (hnone : ∀ t ∈ l, t.get k = none) (hbot : ∃ t ∈ l, t.minKey ≤ vmin)
    (num : Nat) (purge : Bool) (full : Nat → Bool) :
    getLevels k [(mergeFast idx l num vmin [(k, r)] purge full).1] = none := by
  obtain ⟨pre, s, hps, hpre, -, htab⟩ := tablesRange_spec hl vmin (some k)
  have hls : MinSorted (pre ++ s) := by rw [← hps]; exact hl.sorted
  have hss : MinSorted s := (List.pairwise_append.1 hls).2.1
  have hts : MinSorted (tablesRange l vmin (some k)) := by rw [htab]; exact hss.sublist List.filter_sublist
  have hsub : ∀ t ∈ tablesRange l vmin (some k), t ∈ l := by
    intro t ht; rw [htab] at ht; rw [hps]; exact List.mem_append_right _ (List.mem_filter.1 ht).1
  have hxs : x ∈ s := by
    rw [hps] at hx
    rcases List.mem_append.1 hx with h | h
    · obtain ⟨a, t, h1, h2⟩ := hpre (List.ne_nil_of_mem h)
      have := (List.pairwise_append.1 hls).2.2 x h a (by rw [h1]; exact List.mem_cons_self)
      exact absurd (lt_of_lt_of_le this h2) (not_lt.2 hvx.le)
    · exact h
  have hxt : x ∈ tablesRange l vmin (some k) := by
    rw [htab]; exact List.mem_filter.2 ⟨hxs, by simpa [inRange] using hxk⟩
  have hfirst : ∃ a as, tablesRange l vmin (some k) = a :: as ∧ a.minKey ≤ vmin := by
    obtain ⟨t, ht, htv⟩ := hbot
    obtain ⟨a, as, has, hav⟩ : ∃ a as, s = a :: as ∧ a.minKey ≤ vmin := by
      by_cases hpn : pre = []
      · rw [hps, hpn, List.nil_append] at ht
        cases hs : s with
        | nil => rw [hs] at ht; cases ht
        | cons a as =>
          refine ⟨a, as, rfl, ?_⟩
          rw [hs] at ht hss
          rcases List.mem_cons.1 ht with rfl | ht
          · exact htv
          · exact le_trans ((List.pairwise_cons.1 hss).1 t ht).le htv
      · obtain ⟨a, as, h1, h2⟩ := hpre hpn
        exact ⟨a, as, h1, h2⟩
    refine ⟨a, as.filter (inRange (some k)), ?_, hav⟩
    rw [htab, has, List.filter_cons_of_pos]
    simpa [inRange] using le_trans hav (le_trans hvx.le hxk)
  obtain ⟨a, as, htl, hav⟩ := hfirst
  obtain ⟨f1, f2⟩ := firstGroup_rest hts vmin
  -- the cursor stands at or before `x`
  have hfg : firstGroup (tablesRange l vmin (some k)) vmin
      = advance ⟨a.minKey, false⟩ (tablesRange l vmin (some k)) vmin := by
    rw [htl]; simp only [firstGroup, if_neg (not_lt.2 hav)]
  have hfresh : (firstGroup (tablesRange l vmin (some k)) vmin).1.fresh = false := by
    rw [hfg]
    obtain ⟨t, -, h2, -⟩ := advance_tgt _ ⟨a.minKey, false⟩ a as htl hav
    rw [h2]
  have hin : ∀ (rest : List (Tab ByteKey)) cur, x ∈ rest → x ∈ (advance cur rest vmin).2 := by
    intro rest
    induction rest with
    | nil => intro _ h; cases h
    | cons b bs ih =>
      intro cur h
      simp only [advance]
      split
      · next hb =>
        rcases List.mem_cons.1 h with rfl | h
        · exact absurd hb (not_le.2 hvx)
        · exact ih _ h
      · exact h
  have hxr : x ∈ (firstGroup (tablesRange l vmin (some k)) vmin).2 := by rw [hfg]; exact hin _ _ hxt
  generalize hG : firstGroup (tablesRange l vmin (some k)) vmin = G at *
  cases hg2 : G.2 with
  | nil => rw [hg2] at hxr; cases hxr
  | cons z zs =>
    have hzp : z.minKey ≤ idxKey idx k := by
      rw [hg2] at hxr f1
      rcases List.mem_cons.1 hxr with rfl | h
      · exact hxi
      · exact le_trans ((List.pairwise_cons.1 f1).1 x h).le hxi
    -- the next table does not make the code read the whole key
    have hscan : scanKey idx (z :: zs) k = idxKey idx k := by
      unfold scanKey idxKey
      simp only
      split
      · next hlen =>
        split
        · next hcmp =>
          exfalso
          have hpm : ByteKey.prefixMatch (stripNul (idx k)) z.minKey.bytes = true := by
            unfold ByteKey.prefixMatch
            rw [if_neg (by omega), decide_eq_true_eq]
            have hlen' : (z.minKey.bytes.take (stripNul (idx k)).length).length = (stripNul (idx k)).length := by
              rw [List.length_take]; omega
            have : stripNul (idx k) = z.minKey.bytes.take (stripNul (idx k)).length := by
              unfold SizedBuf.cmp at hcmp
              rw [if_pos hlen'.symm] at hcmp
              split at hcmp
              · next h0 =>
                rw [List.length_eq_zero_iff.1 h0]; simp
              · exact (ByteKey.memcmp_eq_zero _ _ hlen'.symm).1 hcmp
            rw [← this]; exact cmp_self _
          obtain ⟨s', hs'⟩ := (ByteKey.prefixMatch_iff _ _).1 hpm
          have hle : idxKey idx k ≤ z.minKey := by
            rw [ByteKey.le_iff, hs']; exact ByteKey.dict_append _ s'
          have he := le_antisymm hle hzp
          have : (stripNul (idx k)).length = z.minKey.bytes.length := by rw [← he]; rfl
          omega
        · rfl
      · rfl
    obtain ⟨t, ht1, ht2, ht3⟩ := advance_tgt (p := idxKey idx k) (z :: zs) G.1 z zs rfl hzp
    have hasg : assignFast idx (maxKeyOf (tablesRange l vmin (some k))) full 0 G.1 G.2 [(k, r)] = [(⟨t.minKey, false⟩, r)] := by
      rw [hg2]
      simp only [assignFast, hscan, if_pos hzp, ht2]
    have hres : (mergeFast idx l num vmin [(k, r)] purge full).1 = writeOld l [(⟨t.minKey, false⟩, r)] purge := by
      simp only [mergeFast, List.getLast?_singleton, Option.map_some, hG, hasg]
      simp [freshKeys, hfresh, freshTables]
    rw [hres]
    have hws : MinSorted (writeOld l [(⟨t.minKey, false⟩, r)] purge) := by
      unfold MinSorted writeOld
      rw [List.pairwise_map]
      refine hl.sorted.imp (fun {u v} h => ?_)
      rw [(writeGroup_fields _ _ _).1, (writeGroup_fields _ _ _).1]; exact h
    have hty : t.minKey < y.minKey := lt_of_le_of_lt ht3 hiy
    suffices hp : ∀ u ∈ tablesPoint (writeOld l [(⟨t.minKey, false⟩, r)] purge) k, u.get k = none by
      have hsc : ∀ (L : List (Tab ByteKey)), (∀ u ∈ L, u.get k = none) → scan k L none = some none := by
        intro L
        induction L with
        | nil => intro _; rfl
        | cons u us ih =>
          intro h
          simp only [scan, h u List.mem_cons_self]
          exact ih (fun v hv => h v (List.mem_cons_of_mem _ hv))
      simp only [getLevels, hsc _ hp]
    intro u hu
    unfold tablesPoint at hu
    split at hu
    · cases hu
    · next w pr hfl =>
      obtain ⟨hw, htop⟩ := floor_top _ none hws hfl
      obtain ⟨w0, hw0, rfl⟩ := List.mem_map.1 hw
      rw [(writeGroup_fields _ _ _).2.2.1, (hl.tab w0 hw0).2.2] at hu
      simp only [Bool.false_eq_true, if_false, List.mem_singleton] at hu
      subst hu
      have hyw := htop _ (List.mem_map_of_mem (f := fun x => writeGroup x (groupOf [(⟨t.minKey, false⟩, r)] x.minKey false) purge) hy)
        (by rw [(writeGroup_fields _ _ _).1]; exact hyk)
      rw [(writeGroup_fields _ _ _).1, (writeGroup_fields _ _ _).1] at hyw
      have hg : groupOf [((⟨t.minKey, false⟩ : Tgt ByteKey), r)] w0.minKey false = [] := by
        simp [groupOf, ne_of_lt (lt_of_lt_of_le hty hyw)]
      rw [hg]
      exact hnone w0 hw0

/-! ### Examples -/

namespace FastEx

def c : TCfg ByteKey := { hash := fun _ => 0 }
theorem plain : ({} : Cfg).Plain := ⟨rfl, rfl, rfl, by decide⟩

def b (l : List UInt8) : ByteKey := ⟨l⟩
def ka := b [97]
def kb := b [98]
/-- eight bytes, then one more -/
def kc := b [98, 98, 98, 98, 98, 98, 98, 98, 99]
def kz := b [98, 98, 98, 98, 98, 98, 98, 98, 122]

abbrev D := DB ByteKey (Lsm c 1 (by decide))

/-- `ka`, `kb`, `kc` and, in the second case, `kz` are written and compacted into level 1, each in a table
    of its own; then `kz` is written and flushed and its compaction begins. -/
def base (xs : List (Cmd ByteKey)) : Option (D × List (Rec ByteKey)) :=
  Cmd.start c 1 (by decide) {} ([.put ka 1, .put kb 2, .put kc 3] ++ xs ++ [.sync, .flush, .l0Begin 0])

def lvl1 (s : D × List (Rec ByteKey)) : D × List (Rec ByteKey) :=
  ({ s.1 with table := TMgr.compactL0End c s.1.table 0 (fun i => decide (i < 3)) }, s.2)

theorem lvl1_reach {s : D × List (Rec ByteKey)} (h : Reach s.1 s.2) (hp : 0 < (s.1.table : TMgr ByteKey).parts) :
    Reach (lvl1 s).1 (lvl1 s).2 := Reach.maint h (TMgr.Maint.l0End _ 0 _ hp)

def a1 := (base []).get (by decide +kernel)
theorem ra1 : Reach a1.1 a1.2 := Cmd.start_reach plain (Option.some_get _).symm
def a2 := (Cmd.run (lvl1 a1) [.put kz 9, .sync, .flush, .l0Begin 0]).get (by decide +kernel)
theorem ra2 : Reach a2.1 a2.2 := Cmd.run_reach (lvl1_reach ra1 (by decide +kernel)) (Option.some_get _).symm

/-- The handle after the compaction by index traversal. -/
def a3 : D := { a2.1 with table := compactL0End (chunk 8) c a2.1.table 0 (fun _ => false) }

/-- C57 is false: a value that was written, synced, flushed and read back is gone after the
    compaction. -/
theorem C57_lost_violation : ∃ (db : D) (h : List (Rec ByteKey)), Reach db h ∧ db.closing = false ∧
    db.get kz = (.ok, some [9]) ∧ (∀ r ∈ h, IdxOk (chunk 8) r.key) ∧
    DB.get (S := Lsm c 1 (by decide)) { db with table := (compactL0End (chunk 8) c db.table 0 (fun _ => false) : TMgr ByteKey) } kz
      = (.keyNotFound, none) := by
  refine ⟨a2.1, a2.2, ra2, rfl, by decide +kernel, ?_, by decide +kernel⟩
  intro r hr
  have : ∀ r ∈ a2.2, r.key.bytes ≠ [] := by decide +kernel
  exact chunk_ok (by decide) (this r hr)

def b1 := (base [.put kz 4]).get (by decide +kernel)
theorem rb1 : Reach b1.1 b1.2 := Cmd.start_reach plain (Option.some_get _).symm
def b2 := (Cmd.run (lvl1 b1) [.put kz 9, .sync, .flush, .l0Begin 0]).get (by decide +kernel)
theorem rb2 : Reach b2.1 b2.2 := Cmd.run_reach (lvl1_reach rb1 (by decide +kernel)) (Option.some_get _).symm

/-- The overwritten value comes back. -/
theorem C57_stale_violation : ∃ (db : D) (h : List (Rec ByteKey)), Reach db h ∧ db.closing = false ∧
    db.get kz = (.ok, some [9]) ∧
    DB.get (S := Lsm c 1 (by decide)) { db with table := (compactL0End (chunk 8) c db.table 0 (fun _ => false) : TMgr ByteKey) } kz
      = (.ok, some [4]) :=
  ⟨b2.1, b2.2, rb2, rfl, by decide +kernel, by decide +kernel⟩

/-! A compaction to which `C57_l0_partial` applies, although the index does not hold the whole key and
    a table starts in between: tables for `ka` and `kc`, records `kb` and `kz`. -/

instance clearDec (idx : ByteKey → Bytes) (tables : List (Tab ByteKey)) :
    ∀ (lo : ByteKey) (rs : List (ByteKey × Rec ByteKey)), Decidable (Clear idx tables lo rs)
  | _, [] => isTrue trivial
  | lo, (k, _) :: rs =>
    have := clearDec idx tables k rs
    inferInstanceAs (Decidable ((∀ x ∈ tables, ∀ y ∈ tables, lo < x.minKey → x.minKey ≤ idxKey idx k →
      idxKey idx k < y.minKey → k < y.minKey) ∧ Clear idx tables k rs))

def d1 := (Cmd.start c 1 (by decide) {} [.put ka 1, .put kc 3, .sync, .flush, .l0Begin 0]).get (by decide +kernel)
theorem rd1 : Reach d1.1 d1.2 := Cmd.start_reach plain (Option.some_get _).symm
def d2 := (Cmd.run (lvl1 d1) [.put kb 2, .put kz 9, .sync, .flush, .l0Begin 0]).get (by decide +kernel)
theorem rd2 : Reach d2.1 d2.2 := Cmd.run_reach (lvl1_reach rd1 (by decide +kernel)) (Option.some_get _).symm

theorem d2_clear : L0Clear (chunk 8) (d2.1.table : TMgr ByteKey) 0 := by
  intro v hv
  have h0 : ∃ v0, (d2.1.table : TMgr ByteKey).srcOf 0 = some v0 ∧ (∀ e ∈ v0.recs, e.1.bytes ≠ []) ∧
      ∀ l ∈ (d2.1.table : TMgr ByteKey).lv, Clear (chunk 8) l v0.minKey v0.recs :=
    ⟨((d2.1.table : TMgr ByteKey).srcOf 0).get (by decide +kernel), (Option.some_get _).symm, by decide +kernel,
      by decide +kernel⟩
  obtain ⟨v0, h1, h2, h3⟩ := h0
  obtain rfl := Option.some.inj (h1.symm.trans hv)
  exact ⟨fun e he => chunk_ok (by decide) (h2 e he), fun l ls hl => h3 l (by rw [hl]; exact List.mem_cons_self)⟩

/-- `kz` goes to the table of `kc`, and is found there. -/
example : (∃ t ∈ (d2.1.table : TMgr ByteKey).lv.flatten, idxKey (chunk 8) kz < t.minKey ∧ t.minKey ≤ kz) ∧
    DB.get (S := Lsm c 1 (by decide)) { d2.1 with table := (compactL0End (chunk 8) c d2.1.table 0 (fun _ => false) : TMgr ByteKey) } kz
      = (.ok, some [9]) := by
  refine ⟨by decide +kernel, ?_⟩
  rw [(C57_l0_partial (idx := chunk 8) rd2 rfl (by decide +kernel) (fun _ => false) d2_clear).2 kz]
  decide +kernel

/-- Short keys. -/
def e1 := (Cmd.start c 1 (by decide) {} [.put ka 1, .put kb 3, .sync, .flush, .l0Begin 0]).get (by decide +kernel)
theorem re1 : Reach e1.1 e1.2 := Cmd.start_reach plain (Option.some_get _).symm
example : ∀ k, DB.get (S := Lsm c 1 (by decide)) { e1.1 with table := (compactL0End (chunk 8) c e1.1.table 0 (fun _ => true) : TMgr ByteKey) } k
    = Spec.answer e1.2 k :=
  C57_short_keys_partial re1 rfl (by decide +kernel) (fun _ => true) (by decide) (by decide +kernel)

/-- The level of the counterexample meets the hypotheses of `C57_clash`. -/
example : ∃ l ∈ (a2.1.table : TMgr ByteKey).lv, ∃ x ∈ l, ∃ y ∈ l, ⊥ < x.minKey ∧ x.minKey ≤ idxKey (chunk 8) kz ∧
    idxKey (chunk 8) kz < y.minKey ∧ y.minKey ≤ kz ∧ (∀ t ∈ l, (t.get kz).isNone = true) ∧ ∃ t ∈ l, t.minKey ≤ ⊥ := by
  decide +kernel

end FastEx

end Jungle.FastScan
