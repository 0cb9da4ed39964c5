/-
  C73: what `sync` writes to a log file.
-/
import Verif.Codec.FlushBuf

namespace Jungle
open LogCodec FlushBuf

/-- C73: an append succeeds exactly if one of at most 100 attempts transfers the whole buffer; -/
theorem C73_append_iff (sys : Sys) (buf : Bytes) (o : Out) :
    (append sys buf o).1 = true ↔ buf = [] ∨ ∃ i, i < 100 ∧ buf.length ≤ sys (o.calls + i) := by
  unfold append
  split
  · next h => simp [h]
  · next h => rw [tries_iff]; simp [h]

/-- C73: whatever the system calls transfer before: if it succeeds the file has grown by exactly these bytes,
    and if it fails by some first part of them. -/
theorem C73_append (sys : Sys) (buf : Bytes) (o : Out) :
    ((append sys buf o).1 = true → (append sys buf o).2.file = o.file ++ buf) ∧
      ∃ j, (append sys buf o).2.file = o.file ++ buf.take j :=
  append_spec (o' := (append sys buf o).2) (ok := (append sys buf o).1) rfl

/-- C73: a sync that succeeds appends every record, each followed by its checkpoint markers, and the flush marker,
    in order and nothing else: whatever the size of the buffer and the lengths of the records are, and
    however often system calls transfer less than they were asked to. -/
theorem C73_sync_bytes_partial (sys : Sys) (page : Nat) (co : Option CompOpt) (chks : List Nat) (synced : Nat)
    (rs : List (Rec Bytes)) (o o' : Out) (h : flush sys page co chks none synced rs o = .ok o') :
    o'.file = o.file ++ encAll co (entries chks synced rs) :=
  (flush_adds sys page co chks synced rs o).1 o' h

/-- C73: a sync that fails leaves the file with what it had and a first part of these bytes. -/
theorem C73_failed_sync_bytes_partial (sys : Sys) (page : Nat) (co : Option CompOpt) (chks : List Nat) (synced : Nat)
    (rs : List (Rec Bytes)) (o o' : Out) (h : flush sys page co chks none synced rs o = .error (.failed o')) :
    ∃ p, p <+: encAll co (entries chks synced rs) ∧ o'.file = o.file ++ p := by
  obtain ⟨h1, p, h2⟩ := (flush_adds sys page co chks synced rs o).2 o' h
  refine ⟨p, ?_, h2.symm⟩
  rw [← h2] at h1
  exact (List.prefix_append_right_inj _).1 h1

/-- C73: so a load after a sync finds what was there before and everything that was synced, -/
theorem C73_sync_load_partial (sys : Sys) (page : Nat) (co : Option CompOpt) (chks : List Nat) (synced : Nat)
    (rs : List (Rec Bytes)) (o o' : Out) (es : List Entry) (ho : o.file = encAll co es)
    (hf : ∀ e ∈ es ++ entries chks synced rs, e.Fits co)
    (h : flush sys page co chks none synced rs o = .ok o') :
    load co o'.file = (es.map Entry.item ++ (entries chks synced rs).map Entry.item, .ok) := by
  rw [C73_sync_bytes_partial _ _ _ _ _ _ _ _ h, ho]
  have := load_encAll hf
  rw [List.map_append] at this
  rw [← this]
  unfold encAll
  rw [List.flatMap_append]

/-- C73: and a load after a failed sync finds what was there before, and of the new records a first part. -/
theorem C73_failed_sync_load_partial (sys : Sys) (page : Nat) (co : Option CompOpt) (chks : List Nat) (synced : Nat)
    (rs : List (Rec Bytes)) (o o' : Out) (es : List Entry) (ho : o.file = encAll co es)
    (hf : ∀ e ∈ es ++ entries chks synced rs, e.Fits co)
    (h : flush sys page co chks none synced rs o = .error (.failed o')) :
    ∃ k, (load co o'.file).1 = es.map Entry.item ++ ((entries chks synced rs).take k).map Entry.item := by
  obtain ⟨p, hp, he⟩ := C73_failed_sync_bytes_partial _ _ _ _ _ _ _ _ h
  have happ : ∀ a b : List Entry, encAll co (a ++ b) = encAll co a ++ encAll co b := by
    intro a b; unfold encAll; rw [List.flatMap_append]
  have hpre : o'.file <+: encAll co (es ++ entries chks synced rs) := by
    rw [he, ho, happ]
    exact (List.prefix_append_right_inj _).2 hp
  obtain ⟨k, hk, h1, h2, h3⟩ := load_prefix hf hpre
  have hold : es <+: (es ++ entries chks synced rs).take k := by
    have := h2 es.length (by rw [List.take_left, he, ho]; exact List.prefix_append _ _)
    rwa [List.take_left] at this
  refine ⟨k - es.length, ?_⟩
  have hl : (load co o'.file).1 = ((es ++ entries chks synced rs).take k).map Entry.item := by
    rcases h3 with ⟨h, -⟩ | ⟨h, -⟩ <;> rw [h]
  have hkl : es.length ≤ k := by
    have := hold.length_le
    rw [List.length_take] at this
    omega
  rw [hl, List.take_append, List.take_of_length_le hkl, List.map_append]

theorem chks_once {chks : List Nat} (hc : chks.Nodup) (n : Nat) : (chks.filter (· = n)).length ≤ 1 := by
  have h1 : (chks.filter (· = n)).Nodup := hc.filter _
  have h2 : ∀ a ∈ chks.filter (· = n), a = n := fun a ha => by simpa using (List.mem_filter.1 ha).2
  match hl : chks.filter (· = n), h1, h2 with
  | [], _, _ => simp
  | [_], _, _ => simp
  | a :: b :: l, h1, h2 =>
    have ha := h2 a (by simp)
    have hb := h2 b (by simp)
    rw [ha, hb] at h1
    simp at h1

/-- C73: nothing is written outside the buffer if it is set to at least 20 bytes, no compressed value is longer than
    the value by more than the buffer less 16 bytes, and no number has two checkpoints.
    Missing: other sizes and compressions, `C73_expansion_violation` and `C73_tiny_buffer_violation`. -/
theorem C73_no_overflow_partial (sys : Sys) (page : Nat) (co : Option CompOpt) (chks : List Nat) (dirty : Option Nat)
    (synced : Nat) (rs : List (Rec Bytes)) (o : Out) (h20 : 20 ≤ page) (hc : chks.Nodup)
    (hx : ∀ r ∈ rs, (storedVal co r).length + 16 ≤ r.val.length + page) :
    flush sys page co chks dirty synced rs o ≠ .error .overflow :=
  flush_safe sys dirty synced o (Safe.writeRecs sys (by omega) rs
    (fun r _ => by have := (hdr_length co r).1; omega) hx (fun r _ => chks_once hc _) [] o (by simp))

/-- C73: without compression nothing is written outside a buffer of at least 18 bytes; this is exact, see
    `C73_tiny_buffer_violation`. -/
theorem C73_no_overflow_plain (sys : Sys) (page : Nat) (chks : List Nat) (dirty : Option Nat)
    (synced : Nat) (rs : List (Rec Bytes)) (o : Out) (h18 : 18 ≤ page) (hc : chks.Nodup) :
    flush sys page none chks dirty synced rs o ≠ .error .overflow := by
  refine flush_safe sys dirty synced o (Safe.writeRecs sys (by omega) rs (fun r _ => ?_) (fun r _ => ?_)
    (fun r _ => chks_once hc _) [] o (by simp))
  · have : (hdr none r).length = 36 := by
      unfold hdr lenMeta
      simp only [List.length_append, be_length, compressed, List.length_nil]
    omega
  · have : storedVal none r = r.val := rfl
    rw [this]; omega

/-- C73: a checkpoint at a number that is already synced: its marker is appended in front of the new records, if these
    fit into the buffer.  Missing: more records, see `C73_marker_violation`. -/
theorem C73_marker_partial (sys : Sys) (page : Nat) (co : Option CompOpt) (chks : List Nat) (n synced : Nat)
    (rs : List (Rec Bytes)) (hfit : (rs.map (fun r => 40 + (r.key.length + r.val.length + r.umeta.length) +
      (storedVal co r).length + 16 * (chks.filter (· = r.seq)).length)).sum ≤ page)
    (o o' : Out) (h : flush sys page co chks (some n) synced rs o = .ok o') :
    o'.file = o.file ++ encAll co (.chkMark n :: entries chks synced rs) := by
  have hw := writeRecs_fits sys (page := page) (co := co) (chks := chks) o rs [] (by rw [List.length_nil, Nat.zero_add]; exact hfit)
  rw [flush_dirty hw h]
  have : encAll co (.chkMark n :: entries chks synced rs) = encChk n ++ encAll co (entries chks synced rs) := by
    unfold encAll; rw [List.flatMap_cons]; rfl
  rw [this, encAll_entries]
  simp

/-- C73: a sync that failed does no harm to the next one, if the file can be loaded in between: then the next one, of
    the same and maybe more records, leaves what was there, a first part of the records, and all of them.
    Missing: a failure inside a record, `FlushEx.C73_retry_violation`. -/
theorem C73_retry_partial (sys : Sys) (page : Nat) (co : Option CompOpt) (chks chks' : List Nat) (synced synced' : Nat)
    (rs rs' : List (Rec Bytes)) (o o1 o2 : Out) (es : List Entry) (ho : o.file = encAll co es)
    (hf : ∀ e ∈ es ++ entries chks synced rs, e.Fits co) (hf' : ∀ e ∈ entries chks' synced' rs', e.Fits co)
    (h1 : flush sys page co chks none synced rs o = .error (.failed o1)) (hl : (load co o1.file).2 = .ok)
    (h2 : flush sys page co chks' none synced' rs' o1 = .ok o2) :
    ∃ k, load co o2.file = (es.map Entry.item ++ ((entries chks synced rs).take k).map Entry.item ++
      (entries chks' synced' rs').map Entry.item, .ok) := by
  obtain ⟨p, hp, he⟩ := C73_failed_sync_bytes_partial _ _ _ _ _ _ _ _ h1
  have happ : ∀ a b : List Entry, encAll co (a ++ b) = encAll co a ++ encAll co b := by
    intro a b; unfold encAll; rw [List.flatMap_append]
  have hpre : o1.file <+: encAll co (es ++ entries chks synced rs) := by
    rw [he, ho, happ]
    exact (List.prefix_append_right_inj _).2 hp
  obtain ⟨k, hk, h3, h4, h5⟩ := load_prefix hf hpre
  have hold : es <+: (es ++ entries chks synced rs).take k := by
    have := h4 es.length (by rw [List.take_left, he, ho]; exact List.prefix_append _ _)
    rwa [List.take_left] at this
  have hkl : es.length ≤ k := by
    have := hold.length_le
    rw [List.length_take] at this
    omega
  have hfile : o1.file = encAll co ((es ++ entries chks synced rs).take k) := by
    rcases h5 with ⟨h, e⟩ | ⟨h, e⟩
    · exact e
    · rw [h] at hl; cases hl
  refine ⟨k - es.length, ?_⟩
  rw [C73_sync_load_partial _ _ _ _ _ _ _ _ _ hfile ?_ h2]
  · rw [List.take_append, List.take_of_length_le hkl, List.map_append]
  · intro e hm
    rcases List.mem_append.1 hm with hm | hm
    · exact hf e (List.mem_of_mem_take hm)
    · exact hf' e hm

/-! ### Where the claim fails -/

/-- The code breaks C73 with new records besides such a checkpoint: for every size of the buffer, if the header of the
    last record has been written and its data are still in the buffer, the marker comes between them
    (src/memtable.cc:1403-1404, 1437, 1443-1446). -/
theorem C73_marker_violation (page n synced : Nat) (hp : 40 ≤ page) (r : Rec Bytes)
    (h1 : dataLen r < page) (h2 : page < 36 + dataLen r) (o : Out) :
    ∃ o', flush (fun _ => 2 ^ 32 + page) page none [] (some n) synced [r] o = .ok o' ∧
      o'.file = o.file ++ (hdr none r ++ encChk n ++ (r.key ++ (r.umeta ++ r.val)) ++ encFlush synced) := by
  have hh : (hdr none r).length = 36 := by
    unfold hdr lenMeta
    simp only [List.length_append, be_length, compressed, List.length_nil]
  have hd : dataLen r = r.key.length + r.val.length + r.umeta.length := rfl
  have app : ∀ (b : Bytes) (o : Out), b.length ≤ 2 ^ 32 + page →
      ∃ c, spill (fun _ => 2 ^ 32 + page) b o = .ok ([], ⟨o.file ++ b, c⟩) := by
    intro b o hb
    have ht : (append (fun _ => 2 ^ 32 + page) b o).1 = true :=
      (C73_append_iff _ _ _).2 (Or.inr ⟨0, by omega, hb⟩)
    have hfile := (C73_append (fun _ => 2 ^ 32 + page) b o).1 ht
    refine ⟨(append (fun _ => 2 ^ 32 + page) b o).2.calls, ?_⟩
    unfold spill
    cases ha : append (fun _ => 2 ^ 32 + page) b o with
    | mk ok o' =>
      rw [ha] at ht hfile
      dsimp only at ht hfile
      subst ht
      dsimp only
      rw [← hfile]
  obtain ⟨c1, e1⟩ := app (hdr none r) o (by omega)
  have hrec : writeRecs (fun _ => 2 ^ 32 + page) page none [] [r] [] o =
      .ok (r.key ++ (r.umeta ++ r.val), ⟨o.file ++ hdr none r, c1⟩) := by
    have k1 : keepBuf page (hdr none r) [] o = .ok (hdr none r, o) := by
      unfold keepBuf
      rw [if_pos (by simp only [List.nil_append]; omega)]
      rfl
    have kk : ∀ (x b : Bytes) (o : Out), b.length + x.length ≤ page * 2 → keepBuf page x b o = .ok (b ++ x, o) := by
      intro x b o hx
      unfold keepBuf
      rw [if_pos (by rw [List.length_append]; exact hx)]
    have hsv : storedVal none r = r.val := rfl
    have kd : writeData (fun _ => 2 ^ 32 + page) page none r (hdr none r) o =
        .ok (r.key ++ (r.umeta ++ r.val), ⟨o.file ++ hdr none r, c1⟩) := by
      unfold writeData
      rw [if_neg (by omega), if_pos (by omega), e1, hsv]
      simp only [Except.bind]
      rw [kk _ _ _ (by simp only [List.length_nil]; omega)]
      dsimp only
      rw [kk _ _ _ (by simp only [List.nil_append]; omega)]
      dsimp only
      rw [kk _ _ _ (by simp only [List.nil_append, List.length_append]; omega)]
      simp
    unfold writeRecs writeRec
    rw [if_neg (by simp only [List.length_nil]; omega)]
    simp only [Except.bind]
    rw [k1]
    dsimp only
    rw [kd]
    rfl
  unfold flush
  rw [hrec]
  simp only [Except.bind]
  obtain ⟨c2, e2⟩ := app (be 8 (2 * 2 ^ 56)) ⟨o.file ++ hdr none r, c1⟩ (by rw [be_length]; omega)
  rw [e2]; dsimp only
  obtain ⟨c3, e3⟩ := app (be 8 n) ⟨o.file ++ hdr none r ++ be 8 (2 * 2 ^ 56), c2⟩ (by rw [be_length]; omega)
  rw [e3]; dsimp only
  obtain ⟨c4, e4⟩ := app (r.key ++ (r.umeta ++ r.val)) ⟨o.file ++ hdr none r ++ be 8 (2 * 2 ^ 56) ++ be 8 n, c3⟩
    (by simp only [List.length_append]; omega)
  rw [e4]; dsimp only
  obtain ⟨c5, e5⟩ := app (be 8 (1 * 2 ^ 56))
    ⟨o.file ++ hdr none r ++ be 8 (2 * 2 ^ 56) ++ be 8 n ++ (r.key ++ (r.umeta ++ r.val)), c4⟩ (by rw [be_length]; omega)
  rw [e5]; dsimp only
  obtain ⟨c6, e6⟩ := app (be 8 synced)
    ⟨o.file ++ hdr none r ++ be 8 (2 * 2 ^ 56) ++ be 8 n ++ (r.key ++ (r.umeta ++ r.val)) ++ be 8 (1 * 2 ^ 56), c5⟩
    (by rw [be_length]; omega)
  rw [e6]; dsimp only
  refine ⟨_, rfl, ?_⟩
  simp [encChk, encFlush]

/-- The code breaks C73 for long values: Linux transfers at most 2147479552 bytes in a call, and every attempt
    begins at the first byte, so that a longer value can not be written although no call fails
    (src/fileops_posix.cc:145-157). -/
theorem C73_long_value_violation (sys : Sys) (hs : ∀ i, sys i ≤ 2147479552) (buf : Bytes)
    (hb : 2147479552 < buf.length) (o : Out) : (append sys buf o).1 = false := by
  cases h : (append sys buf o).1 with
  | false => rfl
  | true =>
    rcases (C73_append_iff sys buf o).1 h with h | ⟨i, -, h⟩
    · rw [h] at hb; simp at hb
    · have := hs (o.calls + i); omega

/-- The code breaks C73 for a buffer of less than 18 bytes: the header of the first record is written past its end
    (src/memtable.cc:1287, 1350-1382). -/
theorem C73_tiny_buffer_violation (sys : Sys) (page : Nat) (hp : page < 18) (co : Option CompOpt) (chks : List Nat)
    (dirty : Option Nat) (synced : Nat) (r : Rec Bytes) (rs : List (Rec Bytes)) (o : Out) :
    flush sys page co chks dirty synced (r :: rs) o = .error .overflow := by
  have hh := (hdr_length co r).2
  unfold flush writeRecs writeRec
  rw [if_pos (by simp only [List.length_nil]; omega)]
  have h1 : spill sys [] o = .ok ([], o) := rfl
  have h2 : keepBuf page (hdr co r) [] o = .error .overflow := by
    unfold keepBuf
    rw [if_neg (by simp only [List.nil_append]; omega)]
  rw [h1]
  simp only [Except.bind, h2]

namespace FlushEx

/-- All bytes are transferred. -/
def good : Sys := fun _ => 1000
def r7 : Rec Bytes := { seq := 7, type := .insertion, key := [1], val := [2] }
def r8 : Rec Bytes := { seq := 8, type := .insertion, key := [1, 2], umeta := [3], val := List.replicate 27 4 }
def start : Out := ⟨encAll none [.record r7, .flushMark 7], 0⟩

/-- a buffer of 64 bytes, calls that transfer five bytes first, a checkpoint at 8: the sync succeeds -/
example : flush (fun i => if i % 3 = 2 then 1000 else 5) 64 none [8] none 7 [r8, { r7 with seq := 9 }] start =
    .ok ⟨start.file ++ encAll none [.record r8, .chkMark 8, .record { r7 with seq := 9 }, .flushMark 7], 15⟩ := by
  decide +kernel

/-- The code breaks C73: record 8 is written, a checkpoint at the synced number 7 is made before; the sync returns OK
    and the next load stops before record 8. -/
theorem C73_marker_load_violation :
    ∃ o', flush good 64 none [] (some 7) 7 [r8] start = .ok o' ∧
      load none o'.file = ([.record 0 7 [1] [] [2], .flushMark 7], .checksumError) := by
  refine ⟨_, rfl, ?_⟩
  decide +kernel

/-- The first call transfers 20 bytes, the others nothing for a while: no space left. -/
def full : Sys := fun i => if i = 0 then 20 else if i < 100 then 0 else 1000

/-- The code breaks C73: a sync fails in the middle of a record; the next sync of the same records returns OK, and the
    load stops in front of them (src/log_file.cc:516-529, src/memtable.cc:1247-1253). -/
theorem C73_retry_violation :
    ∃ o1 o2, flush full 64 none [] none 7 [r8] start = .error (.failed o1) ∧
      flush full 64 none [] none 7 [r8] o1 = .ok o2 ∧
      (load none o2.file).1 = [.record 0 7 [1] [] [2], .flushMark 7] ∧ (load none o2.file).2 ≠ .ok := by
  refine ⟨⟨start.file ++ (encRec none r8).take 20, 100⟩,
    ⟨start.file ++ (encRec none r8).take 20 ++ encAll none [.record r8, .flushMark 7], 104⟩, ?_, ?_, ?_, ?_⟩ <;> decide +kernel

/-- A compression that makes values longer. -/
def comp : CompOpt := { compress := fun r => List.replicate 200 1 ++ r.val, decompress := fun b => b.drop 200 }

/-- The code breaks C73: the length before compression decides whether the buffer is large enough
    (src/memtable.cc:1384-1410). -/
theorem C73_expansion_violation :
    (Entry.record r7).Fits (some comp) ∧ flush good 64 (some comp) [] none 7 [r7] start = .error .overflow := by
  refine ⟨⟨by decide, by decide, by decide, by decide, by decide +kernel, ?_⟩, by decide +kernel⟩
  intro c hc _ _
  cases hc
  decide +kernel

/-- a checkpoint at 7, which is synced, and a short record, with a buffer of 128 bytes -/
example : flush good 128 none [] (some 7) 7 [{ r7 with seq := 8 }] start =
    .ok ⟨start.file ++ encAll none [.chkMark 7, .record { r7 with seq := 8 }, .flushMark 7], 5⟩ := by
  decide +kernel

/-- the disk is full for the whole of the first sync: the case of `C73_retry_partial` -/
example : ∃ o1 o2, flush (fun i => if i < 100 then 0 else 1000) 64 none [] none 7 [r8] start = .error (.failed o1) ∧
    (load none o1.file).2 = .ok ∧ flush (fun i => if i < 100 then 0 else 1000) 64 none [] none 7 [r8] o1 = .ok o2 := by
  refine ⟨⟨start.file, 100⟩, ⟨start.file ++ encAll none [.record r8, .flushMark 7], 104⟩, ?_, ?_, ?_⟩ <;> decide +kernel

/-- a value that is compressed to more bytes, but not too many -/
example : flush good 64 (some { compress := fun r => 9 :: r.val, decompress := List.tail }) [7] none 7 [r7] start ≠
    .error .overflow :=
  C73_no_overflow_partial _ _ _ _ _ _ _ _ (by decide) (by decide) (by intro r hr; simp at hr; subst hr; decide)

/-- records for `C73_marker_violation` with the default buffer of 32 KiB -/
example (v : Bytes) (hv : v.length = 32750) : ∃ o', flush (fun _ => 2 ^ 32 + 32768) 32768 none [] (some 7) 7
      [{ r7 with seq := 8, val := v }] start = .ok o' ∧ o'.file = start.file ++ (hdr none
        { r7 with seq := 8, val := v } ++ encChk 7 ++ ([1] ++ ([] ++ v)) ++ encFlush 7) :=
  C73_marker_violation 32768 7 7 (by omega) _ (by unfold dataLen; dsimp only [r7]; rw [hv]; decide)
    (by unfold dataLen; dsimp only [r7]; rw [hv]; decide) start

end FlushEx
end Jungle
