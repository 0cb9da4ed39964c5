/- C33: the direct-I/O layer under the log files. -/
import Verif.IO.DirectLemmas

namespace Jungle
open LogCodec Dio

/-- Histories of calls on one open file, with all the bytes it has been given, in order: those it was opened
    with, then those appended; a truncation keeps the first `n`. -/
inductive DOps (c : DioCfg) : Dio → Bytes → Prop
  | opened {file d} : openFile c file = some d → DOps c d file
  | append {d L} (x : Bytes) : DOps c d L → DOps c (Dio.append c d x) (L ++ x)
  | flush {d L} : DOps c d L → DOps c (Dio.flush c d) L
  | truncate {d L n d'} : DOps c d L → n ≤ L.length → ftruncate c (Dio.flush c d) n = some d' → DOps c d' (L.take n)

theorem DOps.inv {c : DioCfg} (hc : Ok c) {d : Dio} {L : Bytes} (h : DOps c d L) : Inv c d L := by
  induction h with
  | opened h => exact (Inv.ofOpen hc h).1
  | append x _ ih => exact (ih.append hc x).inv
  | flush _ ih => exact ih.flush.1
  | truncate _ hn ht ih =>
    obtain ⟨d', he, hi, -⟩ := (ih.flush.1).truncate hc ih.flush.2.1 hn
    rw [ht] at he
    cases he
    exact hi

/-- C33: after any history of opening, appending, flushing and truncating, every byte given to the layer
    before a flush is read back unchanged from its offset, at any alignment and length, also while more bytes,
    `xs`, are being appended.  `cap`, the size of the thread's read buffer, is at least `bufferSize`. -/
theorem C33_flushed_read_partial {c : DioCfg} (hc : Ok c) {cap : Nat} (hcap : c.bufferSize ≤ cap) {d : Dio} {L : Bytes}
    (h : DOps c d L) (xs : List Bytes) (dst : Bytes) (offset : Nat) (hin : offset + dst.length ≤ L.length) :
    pread c cap (xs.foldl (Dio.append c) (Dio.flush c d)) dst offset = .ok ((L.drop offset).take dst.length) := by
  have hfl := (h.inv hc).flush
  have hst := hfl.1.chunks hc xs
  generalize xs.foldl (Dio.append c) (Dio.flush c d) = d2 at hst
  have hFL : L.length ≤ d2.file.length ∧ d2.file.take L.length = L := by
    have hk : (Dio.flush c d).file.take L.length = L := by
      have := hfl.1.kept
      rw [hfl.2.1, List.take_length] at this
      exact this
    have := apply_keeps hst.over hk
    rw [hst.writes] at this
    refine ⟨?_, this⟩
    have := congrArg List.length this
    rw [List.length_take] at this; omega
  rw [pread_ok hc hcap (by omega)]
  congr 1
  have : L.drop offset = (d2.file.drop offset).take (L.length - offset) := by
    conv_lhs => rw [← hFL.2]
    rw [List.drop_take]
  rw [this, List.take_take, Nat.min_eq_left (by omega)]

/-- Opening and truncating never fail. -/
theorem C33_open_truncate {c : DioCfg} (hc : Ok c) :
    (∀ file, ∃ d, openFile c file = some d) ∧
    ∀ {d L}, DOps c d L → ∀ n ≤ L.length, ∃ d', ftruncate c (Dio.flush c d) n = some d' := by
  refine ⟨fun file => openFile_some file, fun h n hn => ?_⟩
  obtain ⟨d', he, -⟩ := ((h.inv hc).flush.1).truncate hc (h.inv hc).flush.2.1 hn
  exact ⟨d', he⟩

/-- C33: what `flush` puts into the write buffer fits into the memory allocated for it. -/
theorem C33_flush_fits {c : DioCfg} (hc : Ok c) {d : Dio} {L : Bytes} (h : DOps c d L) :
    (d.buf ++ padding c d.buf.length).length ≤ capOf c := by
  have hroom := (h.inv hc).room
  have ha := hc.align
  unfold capOf
  rw [List.length_append]
  by_cases h0 : d.buf.length % c.alignSize = 0
  · rw [padding_nil h0, List.length_nil]; omega
  · have hlt := Nat.mod_lt d.buf.length (show 0 < c.alignSize by omega)
    have h1 := Nat.div_add_mod d.buf.length c.alignSize
    have hle : alignUp c d.buf.length ≤ c.bufferSize := alignUp_le hc (Nat.le_of_lt hroom) hc.whole
    unfold alignUp at hle
    rw [if_pos (by omega)] at hle
    obtain ⟨p, h8, hp, he⟩ := padding_eq hc h0
    rw [hp]
    simp only [List.length_append, be_length, List.length_replicate]
    split at he <;> omega

/-- C33: the lengths written and their offsets are multiples of the block size. -/
theorem C33_aligned {c : DioCfg} (hc : Ok c) {d : Dio} {L : Bytes} (h : DOps c d L) (src : Bytes) :
    (∀ w ∈ flushWrites c d, w.1 % c.alignSize = 0 ∧ w.2.length % c.alignSize = 0) ∧
    (∀ w ∈ roundWrites c d src, w.1 % c.alignSize = 0 ∧ w.2.length % c.alignSize = 0) := by
  have hi := h.inv hc
  have ha := hc.align
  constructor
  · intro w hw
    unfold flushWrites at hw
    split at hw
    · rw [List.mem_singleton] at hw
      rw [hw]
      refine ⟨hi.pos, ?_⟩
      show (d.buf ++ padding c d.buf.length).length % _ = 0
      have := padEnd_eq hc d.buf.length
      unfold padEnd at this
      rw [List.length_append, this]
      split
      · next h0 => exact h0
      · split
        · rw [Nat.add_mod_right, Nat.mul_mod_right]
        · rw [Nat.add_zero, Nat.mul_mod_right]
    · cases hw
  · intro w hw
    unfold roundWrites at hw
    simp only at hw
    split at hw
    · next hle =>
      rw [List.mem_singleton] at hw
      rw [hw]
      refine ⟨hi.pos, ?_⟩
      show (List.take _ _).length % _ = 0
      rw [List.length_take, Nat.min_eq_left hle]
      exact hc.whole
    · cases hw

/-! ### log files -/

/-- The lives of a log file written through the layer, with the records and markers synced to it: it is
    created, each sync appends the encoding of some entries in chunks of any sizes and ends with a flush
    marker, and between syncs the file can be closed and opened again. -/
inductive DioReach (c : DioCfg) (cap : Nat) (co : Option CompOpt) : Dio → List Entry → Prop
  | create {d} : Dio.create c = some d → DioReach c cap co d []
  | sync {d es} (chunks : List Bytes) (new : List Entry) (n : Nat) : DioReach c cap co d es →
      (∀ e ∈ new ++ [.flushMark n], e.Fits co) → chunks.flatten = encAll co (new ++ [.flushMark n]) →
      DioReach c cap co (syncChunks c d chunks) (es ++ (new ++ [.flushMark n]))
  | reopen {d es d'} : DioReach c cap co d es → Dio.reopen c cap d = some d' → DioReach c cap co d' es

theorem DioReach.clean {c : DioCfg} (hc : Ok c) {cap : Nat} (hcap : c.bufferSize ≤ cap) {co : Option CompOpt} {d : Dio}
    {es : List Entry} (h : DioReach c cap co d es) :
    Clean c d (header ++ encAll co es) ∧ ∀ e ∈ es, e.Fits co := by
  induction h with
  | create h =>
    obtain ⟨d', he, hcl⟩ := Clean.created hc co
    rw [h] at he
    cases he
    exact ⟨hcl, fun _ h => by cases h⟩
  | @sync d es chunks new n _ hf hch ih =>
    refine ⟨?_, ?_⟩
    · have := ih.1.sync hc chunks (by
        rw [hch]
        have := enc_length_pos co (.flushMark n)
        simp only [encAll, List.flatMap_append, List.flatMap_cons, List.flatMap_nil, List.append_nil, List.length_append]
        omega)
      rw [hch, List.append_assoc] at this
      have e : encAll co es ++ encAll co (new ++ [.flushMark n]) = encAll co (es ++ (new ++ [.flushMark n])) := by
        simp [encAll]
      rw [e] at this
      exact this
    · intro e he
      rcases List.mem_append.mp he with he | he
      · exact ih.2 e he
      · exact hf e he
  | reopen _ hr ih =>
    obtain ⟨d', he, hcl⟩ := ih.1.reopen hc hcap ih.2
    rw [hr] at he
    cases he
    exact ⟨hcl, ih.2⟩

/-- C33: a log file written through the layer is loaded exactly: all the records and markers synced to it, in
    order, nothing else, and the padding is recognised, so the status is OK. -/
theorem C33_load {c : DioCfg} (hc : Ok c) {cap : Nat} (hcap : c.bufferSize ≤ cap) {co : Option CompOpt} {d : Dio}
    {es : List Entry} (h : DioReach c cap co d es) :
    loadFile c cap co d.file = some (es.map Entry.item, .ok) :=
  (h.clean hc hcap).1.load hc hcap (h.clean hc hcap).2

/-- C33: closing the file and opening it again always succeeds. -/
theorem C33_reopen {c : DioCfg} (hc : Ok c) {cap : Nat} (hcap : c.bufferSize ≤ cap) {co : Option CompOpt} {d : Dio}
    {es : List Entry} (h : DioReach c cap co d es) : ∃ d', Dio.reopen c cap d = some d' ∧ DioReach c cap co d' es := by
  obtain ⟨d', he, -⟩ := (h.clean hc hcap).1.reopen hc hcap (h.clean hc hcap).2
  exact ⟨d', he, .reopen h he⟩

/-- C33: a crash at any point of a sync, with the writes reordered and torn in any way, keeps every record and
    marker of the earlier syncs. -/
theorem C33_crash {c : DioCfg} (hc : Ok c) {cap : Nat} (hcap : c.bufferSize ≤ cap) {co : Option CompOpt} {d : Dio}
    {es : List Entry} (h : DioReach c cap co d es) (chunks : List Bytes) {file : Bytes}
    (ht : Torn d.file (syncWrites c d chunks) file) :
    ∃ items s, loadFile c cap co file = some (es.map Entry.item ++ items, s) := by
  obtain ⟨hcl, hf⟩ := h.clean hc hcap
  refine load_start hc hcap hf (torn_keeps ht (Clean.syncWrites hc hcl.inv chunks).1 ?_)
  rcases hcl.file with hx | hx
  · rw [hx, List.take_length]
  · rw [hx, List.take_left' rfl]

/-- The writes of a sync are the ones `C33_crash` speaks of. -/
theorem C33_writes {c : DioCfg} (hc : Ok c) {cap : Nat} (hcap : c.bufferSize ≤ cap) {co : Option CompOpt} {d : Dio}
    {es : List Entry} (h : DioReach c cap co d es) (chunks : List Bytes) :
    applyWrites d.file (syncWrites c d chunks) = (syncChunks c d chunks).file :=
  (Clean.syncWrites hc (h.clean hc hcap).1.inv chunks).2

/-! ### counterexamples -/

namespace DioEx

/-- Small sizes in the proportion of the defaults (src/db_config.h:431-464): buffer and block are equal. -/
def c : DioCfg := ⟨16, 16⟩
theorem ok : Ok c := ⟨by decide, by decide, by decide⟩

def d0 : Dio := ⟨[], 0, 0, []⟩
theorem d0_ops : DOps c d0 [] := .opened (by decide +kernel)

def six : Bytes := [1, 2, 3, 4, 5, 6]

/-- A history with a full buffer, a flush with padding and a truncation. -/
def d1 : Dio := append c (flush c (append c d0 (six ++ six ++ six))) [7, 8, 9]
theorem d1_ops : DOps c d1 ([] ++ (six ++ six ++ six) ++ [7, 8, 9]) := .append _ (.flush (.append _ d0_ops))

example : pread c (capOf c) (flush c d1) [0, 0, 0, 0, 0] 15 = .ok [4, 5, 6, 7, 8] := by decide +kernel
example : pread c (capOf c) (flush c d1) [0, 0, 0, 0, 0] 15 =
    .ok ((([] ++ (six ++ six ++ six) ++ [7, 8, 9] : Bytes).drop 15).take 5) :=
  C33_flushed_read_partial ok (by decide) d1_ops [] _ _ (by decide)

def e1 : Entry := .chkMark 5
def s0 : Dio := (create c).get (by decide +kernel)
def s1 : Dio := syncChunks c s0 [e1.enc none, (Entry.flushMark 1).enc none]
def s2 : Dio := (reopen c 16 s1).get (by decide +kernel)
def s3 : Dio := syncChunks c s2 [(Entry.flushMark 2).enc none]

theorem s0_reach : DioReach c 16 none s0 [] := .create (Option.some_get _).symm
theorem s1_reach : DioReach c 16 none s1 [e1, .flushMark 1] :=
  .sync _ [e1] 1 s0_reach (by intro e he; simp at he; rcases he with rfl | rfl <;> (show _ < _; decide)) rfl
theorem s2_reach : DioReach c 16 none s2 [e1, .flushMark 1] := .reopen s1_reach (Option.some_get _).symm
theorem s3_reach : DioReach c 16 none s3 [e1, .flushMark 1, .flushMark 2] :=
  .sync _ [] 2 s2_reach (by intro e he; simp at he; rcases he with rfl; (show _ < _; decide)) rfl

example : loadFile c 16 none s3.file = some ([.chkMark 5, .flushMark 1, .flushMark 2], .ok) := C33_load ok (by decide) s3_reach

def r : Rec Bytes := { key := [9], val := [8], umeta := [], seq := 2, type := .insertion }

/-- The flags of the record have reached the disk, the rest is still what the padding was, or zero. -/
def torn : Bytes := (header ++ encAll none [e1, .flushMark 1]) ++ be 8 0 ++ List.replicate 28 0

end DioEx

/-- C33 does not hold for bytes not flushed yet: where an earlier flush has put padding, a read gives the
    padding, with status OK. -/
theorem C33_unflushed_violation :
    ∃ (d : Dio) (L : Bytes), DOps DioEx.c d L ∧
      pread DioEx.c (capOf DioEx.c) d [0xff] 6 = .ok [0xfe] ∧ L.drop 6 = [7] := by
  refine ⟨_, _, .append [7] (.flush (.append DioEx.six DioEx.d0_ops)), ?_, ?_⟩
  · decide +kernel
  · rfl

/-- C33: the read buffer of a thread has the size the first file layer used by the thread gave it; with a
    database configured with a larger `bufferSize`, a read writes past its end. -/
theorem C33_thread_buffer_violation :
    ∃ (c1 c2 : DioCfg), Ok c1 ∧ Ok c2 ∧ ∃ (d : Dio) (L : Bytes), DOps c2 d L ∧
      pread c2 (capOf c1) d (List.replicate 64 0) 0 = .overflow ∧
      pread c2 (capOf c2) d (List.replicate 64 0) 0 = .ok L := by
  refine ⟨⟨16, 16⟩, ⟨64, 16⟩, ⟨by decide, by decide, by decide⟩, ⟨by decide, by decide, by decide⟩,
    ⟨List.replicate 64 3, 64, 64, []⟩, List.replicate 64 3, .opened (by decide +kernel), by decide +kernel, by decide +kernel⟩

/-- C33: `flush` asserts that the padded length is at most `bufferSize` (src/fileops_directio.cc:467); with fewer
    than eight bytes left in the buffer it is not, and a build with assertions stops. -/
theorem C33_assert_violation :
    ∃ (d : Dio) (L : Bytes), DOps DioEx.c d L ∧ d.dirty = true ∧
      DioEx.c.bufferSize < (d.buf ++ padding DioEx.c d.buf.length).length := by
  exact ⟨_, _, .append (DioEx.six ++ DioEx.six) DioEx.d0_ops, by decide +kernel, by decide +kernel⟩

/-- C33: a crash during a flush can leave the file with the start of a record and old bytes after it; the load
    then ends with CHECKSUM_ERROR, not with INCOMPLETE_LOG, and the file counts as corrupted although all
    that is missing is what was never synced. -/
theorem C33_torn_status :
    ∃ (r : Rec Bytes) (file : Bytes), Fits none r ∧
      Torn DioEx.s1.file (syncWrites DioEx.c DioEx.s1 [encAll none [.record r, .flushMark 2]]) file ∧
      loadFile DioEx.c 16 none file = some ([.chkMark 5, .flushMark 1], .checksumError) := by
  refine ⟨DioEx.r, DioEx.torn, ?_, ⟨by decide +kernel, ?_⟩, by decide +kernel⟩
  · refine ⟨by decide, by decide, by decide, by decide, ?_, ?_⟩
    · decide
    · intro c hc; cases hc
  · intro i hi
    have : ∀ i < DioEx.s1.file.length, DioEx.torn[i]? = (applyWrites DioEx.s1.file
        ((syncWrites DioEx.c DioEx.s1 [encAll none [.record DioEx.r, .flushMark 2]]).take (if i < 52 then 10 else 0)))[i]? := by
      decide +kernel
    exact ⟨_, this i hi⟩

end Jungle
