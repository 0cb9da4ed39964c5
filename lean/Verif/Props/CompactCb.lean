/-
  C65.  The compaction callback.

  Reading guide.  `TReachCb c parts t h D`: `t` is a state of the tables after flushes of the records `h`
  (oldest first), any maintenance, and in-place compactions with any callbacks; `D` are the records to
  which a callback answered DROP.  `Spec.lastWrite h k`: the last record of `h` for the key; `Spec.vis`:
  what a reader sees (nothing if it is a deletion).
-/
import Verif.Table.CompactCb
import Verif.Props.FailedWrites
import Verif.Props.Table

set_option linter.unusedSectionVars false

namespace Jungle
open Spec TMgr
variable {K : Type} [LinearOrder K] [OrderBot K]

/-- The records to which the callback says DROP. -/
def dropped (drop : CbParams K → Bool) (calls : List (CbParams K)) : List (Rec K) :=
  (calls.filter drop).map (·.record)

inductive TReachCb (c : TCfg K) (parts : Nat) : TMgr K → List (Rec K) → List (Rec K) → Prop
  | init : TReachCb c parts (TMgr.init parts) [] []
  | flush {t h D} (R : List (Rec K)) : TReachCb c parts t h D → TReachCb c parts (t.setBatch c R) (h ++ R) D
  | maint {t t' h D} : TReachCb c parts t h D → TMgr.Maint c t t' → TReachCb c parts t' h D
  | compact {t h D} (i n : Nat) (pres : Bool) (drop : CbParams K → Bool) : TReachCb c parts t h D →
      TReachCb c parts (t.compactInPlaceCbOp i n pres drop).1 h
        (D ++ dropped drop (t.compactInPlaceCbOp i n pres drop).2)

theorem vis_some {a : Option (Rec K)} {r : Rec K} (h : vis a = some r) : a = some r ∧ r.isDel = false := by
  cases a with
  | none => cases h
  | some x =>
    unfold vis at h
    cases hd : x.isDel with
    | true => simp [hd] at h
    | false => simp [hd] at h; subst h; exact ⟨rfl, hd⟩

theorem TReachCb.inv {c : TCfg K} {parts : Nat} (hp : 0 < parts) {t : TMgr K} {h D : List (Rec K)}
    (hr : TReachCb c parts t h D) : Inv c t ∧ ∀ k, vis (t.get c k) = vis (lastWrite h k) ∨
      (vis (t.get c k) = none ∧ ∃ r ∈ D, lastWrite h k = some r) := by
  induction hr with
  | init =>
    refine ⟨inv_init c hp, fun k => Or.inl ?_⟩
    rw [get_init c hp, lastWrite_nil]
  | @flush t h D R _ ih =>
    obtain ⟨h1, h2, h3⟩ := setBatch_ok ih.1 R
    refine ⟨h1, fun k => ?_⟩
    rw [h3 k, lastWrite_append]
    cases hR : lastWrite R k with
    | some r => exact Or.inl rfl
    | none => simpa using ih.2 k
  | maint _ hm ih =>
    have h1 := hm.same ih.1
    refine ⟨h1.inv, fun k => ?_⟩
    rw [h1.vis k]; exact ih.2 k
  | @compact t h D i n pres drop _ ih =>
    obtain ⟨h1, h2⟩ := compactInPlaceCbOp_ok ih.1 i n pres drop
    refine ⟨h1, fun k => ?_⟩
    have keep : ∀ X : List (Rec K), vis (t.get c k) = vis (lastWrite h k) ∨
        (vis (t.get c k) = none ∧ ∃ r ∈ D ++ X, lastWrite h k = some r) := by
      intro X
      rcases ih.2 k with h3 | ⟨h3, r, h4, h5⟩
      · exact Or.inl h3
      · exact Or.inr ⟨h3, r, List.mem_append_left _ h4, h5⟩
    rcases h2 k with h3 | ⟨h3, r, h4, h5⟩
    · rw [h3]; exact keep _
    · cases hdel : r.isDel with
      | true =>
        have : vis ((t.compactInPlaceCbOp i n pres drop).1.get c k) = vis (t.get c k) := by
          rw [h3, h4]; simp [vis, hdel]
        rw [this]; exact keep _
      | false =>
        have hv : vis (t.get c k) = some r := by rw [h4]; simp [vis, hdel]
        rcases ih.2 k with h6 | ⟨h6, _⟩
        · rw [hv] at h6
          refine Or.inr ⟨by rw [h3]; rfl, r, ?_, (vis_some h6.symm).1⟩
          rcases h5 with h5 | ⟨p, hp1, hp2, hp3⟩
          · rw [hdel] at h5; cases h5
          · refine List.mem_append_right _ (List.mem_map.2 ⟨p, List.mem_filter.2 ⟨hp1, hp3⟩, hp2⟩)
        · rw [hv] at h6; cases h6

/-- **C65** Whatever was flushed, compacted, split, merged and dropped: for every key the tables answer
    with its last record, or with nothing, the latter only if that last record is a deletion or a
    callback answered DROP to this very record. -/
theorem C65_last_record_or_dropped {c : TCfg K} {parts : Nat} (hp : 0 < parts) {t : TMgr K}
    {h D : List (Rec K)} (hr : TReachCb c parts t h D) (k : K) :
    vis (t.get c k) = vis (lastWrite h k) ∨
      (vis (t.get c k) = none ∧ ∃ r ∈ D, lastWrite h k = some r) := (hr.inv hp).2 k

/-- **C65** In particular dropping a record never uncovers an older one. -/
theorem C65_no_older_version {c : TCfg K} {parts : Nat} (hp : 0 < parts) {t : TMgr K}
    {h D : List (Rec K)} (hr : TReachCb c parts t h D) {k : K} {r : Rec K} (hk : vis (t.get c k) = some r) :
    lastWrite h k = some r := by
  rcases (hr.inv hp).2 k with h1 | ⟨h1, _⟩
  · rw [hk] at h1; exact (vis_some h1.symm).1
  · rw [hk] at h1; cases h1

/-- **C65** With a callback that keeps everything nothing is lost. -/
theorem C65_keep_all {c : TCfg K} {parts : Nat} (hp : 0 < parts) {t : TMgr K}
    {h : List (Rec K)} (hr : TReachCb c parts t h []) (k : K) : vis (t.get c k) = vis (lastWrite h k) := by
  rcases (hr.inv hp).2 k with h1 | ⟨_, r, h2, _⟩
  · exact h1
  · cases h2

/-- **C65** Seen through the handle: a compaction with a callback changes the answer of `get` for a key
    only to KEY_NOT_FOUND, and only if the callback said DROP to the record last written for it. -/
theorem C65_get {c : TCfg K} {parts : Nat} {hp : 0 < parts} {db : DB K (Lsm c parts hp)}
    {h : List (Rec K)} (hr : Reach db h) (hc : db.closing = false) (i n : Nat) (pres : Bool)
    (drop : CbParams K → Bool) (k : K) :
    let s := TMgr.compactInPlaceCbOp db.table i n pres drop
    DB.get (S := Lsm c parts hp) { db with table := s.1 } k = db.get k ∨
      (DB.get (S := Lsm c parts hp) { db with table := s.1 } k = (.keyNotFound, none) ∧
        ∃ p ∈ s.2, drop p = true ∧ lastWrite h k = some p.record) := by
  intro s
  have hrec := C01_getRecordByKey hr hc k
  obtain ⟨A, B, -, hi⟩ := hr.inv
  obtain ⟨-, h2⟩ := compactInPlaceCbOp_ok (c := c) hi.table i n pres drop
  have hck : DB.check (S := Lsm c parts hp) { db with table := s.1 } .read = db.check .read := rfl
  have hck0 : db.check .read = .ok := by unfold DB.check; rw [hc]; simp
  unfold DB.getRecordByKey at hrec
  unfold DB.get
  rw [hck, hck0]
  rw [hck0] at hrec
  simp only [ne_eq, not_true_eq_false, if_false] at hrec ⊢
  split
  · exact Or.inl rfl
  · next hlog =>
    have htg : ∀ t' : TMgr K, DB.tableGet (S := Lsm c parts hp) { db with table := t' } k = TMgr.get c t' k := by
      intro t'
      unfold DB.tableGet
      rw [show ({ db with table := t' } : DB K (Lsm c parts hp)).log.cfg.logSectionOnly = false from hi.mode]
      rfl
    have htg0 : db.tableGet k = TMgr.get c db.table k := htg db.table
    rw [htg, htg0]
    rw [htg0] at hrec
    rcases h2 k with h3 | ⟨h3, r, h4, h5⟩
    · rw [h3]; exact Or.inl rfl
    · rw [h3, h4]
      rw [h4] at hrec
      cases hins : r.isIns with
      | false => simp [hins]
      | true =>
        refine Or.inr ⟨rfl, ?_⟩
        have hnd : r.isDel = false := by
          unfold Rec.isIns at hins; unfold Rec.isDel
          cases ht : r.type <;> simp_all
        rcases h5 with h5 | ⟨p, hp1, hp2, hp3⟩
        · rw [hnd] at h5; cases h5
        · refine ⟨p, hp1, hp3, ?_⟩
          rw [hp2]
          simp only [hins, if_true] at hrec
          have hans : (Status.ok, some r) = answerRec h k := by
            rw [← hrec]
          unfold answerRec at hans
          cases hl : lastWrite h k with
          | none => rw [hl] at hans; cases hans
          | some x =>
            rw [hl] at hans
            by_cases hx : x.isIns = true
            · simp only [hx, if_true, Prod.mk.injEq, Option.some.injEq, true_and] at hans
              rw [hans]
            · simp [hx] at hans

/-- **C65** What the callback is asked.  In an in-place compaction of a table of the last level, without
    `preserveTombstone`: every record of the table, once, in key order, each time with the smallest and
    the largest key of the table; in all other cases nothing, and then no answer changes. -/
theorem C65_calls {c : TCfg K} {parts : Nat} (hp : 0 < parts) {t : TMgr K} {h D : List (Rec K)}
    (hr : TReachCb c parts t h D) (i n : Nat) (pres : Bool) (drop : CbParams K → Bool) :
    ((t.compactInPlaceCbOp i n pres drop).2 = [] ∧
      ∀ k, vis ((t.compactInPlaceCbOp i n pres drop).1.get c k) = vis (t.get c k)) ∨
    (pres = false ∧ i + 1 = t.lv.length ∧ ∃ l v, t.lv[i]? = some l ∧ v ∈ l ∧ v.number = n ∧
      (t.compactInPlaceCbOp i n pres drop).2.map (·.record) = v.recs.map (·.2) ∧
      (v.recs.map (·.1)).Pairwise (· < ·) ∧
      ∀ p ∈ (t.compactInPlaceCbOp i n pres drop).2, ∀ k, v.get k ≠ none →
        (∃ a, p.minKey = some a ∧ v.get a ≠ none ∧ a ≤ k) ∧ (∃ b, p.maxKey = some b ∧ v.get b ≠ none ∧ k ≤ b)) := by
  have hi := (hr.inv hp).1
  by_cases hcalls : (t.compactInPlaceCbOp i n pres drop).2 = []
  · refine Or.inl ⟨hcalls, fun k => ?_⟩
    rcases (compactInPlaceCbOp_ok hi i n pres drop).2 k with h3 | ⟨h3, r, h4, h5⟩
    · rw [h3]
    · rcases h5 with h5 | ⟨p, h6, _⟩
      · rw [h3, h4]; simp [vis, h5]
      · rw [hcalls] at h6; cases h6
  · right
    unfold compactInPlaceCbOp at hcalls ⊢
    split at hcalls
    · exact absurd rfl hcalls
    · next l b hd =>
      split at hcalls
      · exact absurd rfl hcalls
      · next v hv =>
        obtain ⟨hvm, hvn⟩ := find_mem hv
        have hlv := drop_split hd
        have hlen : i < t.lv.length := by
          by_cases hx : i < t.lv.length
          · exact hx
          · rw [List.drop_of_length_le (by omega)] at hd; cases hd
        have hget : t.lv[i]? = some l := by
          have := List.getElem?_drop (xs := t.lv) (i := i) (j := 0)
          rw [hd] at this; simpa using this.symm
        have hl : l ∈ t.lv := List.mem_of_getElem? hget
        unfold compactInPlaceCb compactTo at hcalls ⊢
        dsimp only at hcalls ⊢
        rw [cbLoop_calls] at hcalls ⊢
        cases hchk : (b.isEmpty && !pres) with
        | false => rw [hchk] at hcalls; exact absurd rfl hcalls
        | true =>
          rw [Bool.and_eq_true, List.isEmpty_iff] at hchk
          have hb := hchk.1
          have hsorted := ((hi.lv l hl).tab v hvm).1
          refine ⟨by simpa using hchk.2, ?_, l, v, hget, hvm, hvn, by simp [List.map_map, Function.comp_def], ?_, ?_⟩
          · have := congrArg List.length hd
            rw [hb, List.length_drop, List.length_cons, List.length_nil] at this
            omega
          · rw [List.pairwise_map]; exact hsorted
          · intro p hp k hk
            simp only [if_true, List.mem_map] at hp
            obtain ⟨e, -, rfl⟩ := hp
            dsimp only
            have hk' : ∃ r, (k, r) ∈ v.recs := by
              cases hg : v.get k with
              | none => exact absurd hg hk
              | some r => exact ⟨r, (SMap.mem_iff_find? hsorted).2 hg⟩
            obtain ⟨r, hkr⟩ := hk'
            have hin : ∀ e ∈ v.recs, v.get e.1 ≠ none := by
              intro e he
              have : v.get e.1 = some e.2 := (SMap.mem_iff_find? hsorted).1 he
              rw [this]; simp
            constructor
            · cases hrs : v.recs with
              | nil => rw [hrs] at hkr; cases hkr
              | cons x xs =>
                refine ⟨x.1, rfl, hin x (by rw [hrs]; simp), ?_⟩
                rw [hrs] at hkr
                rcases List.mem_cons.1 hkr with h1 | h1
                · rw [← h1]
                · rw [hrs] at hsorted
                  exact le_of_lt ((List.pairwise_cons.1 hsorted).1 _ h1)
            · have hne : v.recs ≠ [] := fun h0 => by rw [h0] at hkr; cases hkr
              refine ⟨(v.recs.getLast hne).1, by rw [List.getLast?_eq_some_getLast hne]; rfl,
                hin _ (List.getLast_mem hne), ?_⟩
              have hsp := List.dropLast_append_getLast hne
              rw [← hsp] at hkr hsorted
              rcases List.mem_append.1 hkr with h1 | h1
              · exact le_of_lt ((List.pairwise_append.1 hsorted).2.2 _ h1 _ (by simp))
              · rw [List.mem_singleton] at h1; rw [← h1]

/-- **C65** Every record of a table of the last level is put before the callback when the table is
    compacted on its own. -/
theorem C65_asked {c : TCfg K} {parts : Nat} (hp : 0 < parts) {t : TMgr K} {h D : List (Rec K)}
    (hr : TReachCb c parts t h D) {i : Nat} (drop : CbParams K → Bool) {l : List (Tab K)} {v : Tab K}
    (hlast : i + 1 = t.lv.length) (hl : t.lv[i]? = some l) (hv : v ∈ l) :
    (t.compactInPlaceCbOp i v.number false drop).2.map (·.record) = v.recs.map (·.2) := by
  have hi := (hr.inv hp).1
  have hlm : l ∈ t.lv := List.mem_of_getElem? hl
  have hf : l.find? (fun x => decide (x.number = v.number)) = some v := by
    have hn := (hi.lv l hlm).nums
    clear hl hlm
    induction l with
    | nil => cases hv
    | cons y ys ih =>
      rw [List.map_cons, List.nodup_cons] at hn
      rw [List.find?_cons]
      rcases List.mem_cons.1 hv with rfl | h1
      · simp
      · have hne : y.number ≠ v.number := fun h2 => hn.1 (h2 ▸ List.mem_map_of_mem h1)
        simp only [hne, decide_false]
        exact ih h1 hn.2
  have hd : t.lv.drop i = [l] := by
    have hlt : i < t.lv.length := by omega
    rw [List.drop_eq_getElem_cons hlt, List.drop_eq_nil_of_le (by omega)]
    rw [List.getElem?_eq_getElem hlt] at hl
    rw [Option.some.inj hl]
  unfold compactInPlaceCbOp
  rw [hd]
  dsimp only
  rw [hf]
  dsimp only
  unfold compactInPlaceCb compactTo
  dsimp only
  rw [cbLoop_calls]
  simp

/-- **C65** (partial) A record to which the callback says DROP is gone after the compaction, if the
    tables hold no second record for its key.
    Missing: keys with a copy of the record in a level above (see the violation). -/
theorem C65_dropped_is_gone_partial {c : TCfg K} {parts : Nat} (hp : 0 < parts) {t : TMgr K}
    {h D : List (Rec K)} (hr : TReachCb c parts t h D) (i n : Nat) (pres : Bool) (drop : CbParams K → Bool)
    {p : CbParams K} (hpc : p ∈ (t.compactInPlaceCbOp i n pres drop).2) (hd : drop p = true)
    (hone : stack c t p.record.key = [p.record]) :
    (t.compactInPlaceCbOp i n pres drop).1.get c p.record.key = none := by
  have hi := (hr.inv hp).1
  have h1 := compactInPlaceCbOp_drops hi i n pres drop hpc hd
  rw [get_eq_head (compactInPlaceCbOp_ok hi i n pres drop).1]
  rw [hone] at h1
  have : stack c (t.compactInPlaceCbOp i n pres drop).1 p.record.key = [] := by
    have h2 := congrArg List.length h1
    rw [List.length_append, List.length_singleton] at h2
    exact List.eq_nil_of_length_eq_zero (by omega)
  rw [this]; rfl

namespace CbEx

open TableEx

/-- the callback drops records with the value 40 -/
def drop40 : CbParams Nat → Bool := fun p => p.record.val == [40]

/-- `t2` of `Verif/Props/Table.lean`, table 4 of the last level compacted with it -/
def t3 : TMgr Nat := (t2.compactInPlaceCbOp 1 4 false drop40).1

theorem reach_cb {t : TMgr Nat} {h : List (Rec Nat)} (hr : TReach c 2 t h) : TReachCb c 2 t h [] := by
  induction hr with
  | init => exact TReachCb.init
  | flush R _ ih => exact TReachCb.flush R ih
  | maint _ hm ih => exact TReachCb.maint ih hm

theorem t3_reach : TReachCb c 2 t3
    ([ins 1 1 10, ins 2 4 20, ins 3 5 30, ins 4 7 40] ++ [del 5 5]) [ins 4 7 40] := by
  have := TReachCb.compact 1 4 false drop40 (reach_cb t2_reach)
  exact this

example : t2.get c 7 = some (ins 4 7 40) ∧ t3.get c 7 = none ∧ t3.get c 4 = some (ins 2 4 20) ∧
    stack c t2 7 = [ins 4 7 40] ∧
    ((t2.compactInPlaceCbOp 1 4 false drop40).2.map (fun p => (p.record.key, p.minKey, p.maxKey))) =
      [(7, some 7, some 7)] := by decide

/-- A record is flushed to a level with a table; its compaction into level 1 is cancelled after it has
    been written there, so that level 0 still has it as well. -/
def u0 : TMgr Nat := (TMgr.init 1 : TMgr Nat).setBatch c [ins 1 1 10]
def u1 : TMgr Nat := u0.compactL0Begin 0
def u2 : TMgr Nat := u1.compactL0End c 0 (fun _ => false)
def u3 : TMgr Nat := u2.setBatch c [ins 2 7 40]
def u4 : TMgr Nat := u3.compactL0Begin 0
def u5 : TMgr Nat := u4.compactL0Cancel c 0 (fun _ => false) (fun _ => 1)

theorem u5_reach : TReachCb c 1 u5 ([] ++ [ins 1 1 10] ++ [ins 2 7 40]) [] :=
  TReachCb.maint (TReachCb.maint (TReachCb.flush _ (TReachCb.maint (TReachCb.maint
    (TReachCb.flush (h := []) _ TReachCb.init) (.l0Begin u0 0 (by decide))) (.l0End u1 0 _ (by decide))))
    (.l0Begin u3 0 (by decide))) (.l0Cancel u4 0 _ _ (by decide))

/-- **C65** fails for records of which a second copy is left: the callback is asked about the record, is
    told nothing of the copy, answers DROP, and every later read still returns the record. -/
theorem C65_dropped_stays_violation :
    ∃ (t : TMgr Nat) (h : List (Rec Nat)) (i n : Nat) (drop : CbParams Nat → Bool) (p : CbParams Nat),
      TReachCb c 1 t h [] ∧ p ∈ (t.compactInPlaceCbOp i n false drop).2 ∧ drop p = true ∧
      lastWrite h p.record.key = some p.record ∧
      (t.compactInPlaceCbOp i n false drop).1.get c p.record.key = some p.record :=
  ⟨u5, _, 0, 2, drop40, ⟨ins 2 7 40, some 1, some 7⟩, u5_reach,
    List.mem_cons_of_mem _ (List.mem_singleton.2 rfl), by decide, by decide, by decide⟩

end CbEx

end Jungle
