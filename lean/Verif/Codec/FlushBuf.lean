/-
  How `MemTable::flush` brings the records into the file: the buffer of `memTableFlushBufferSize`, the
  appends of the POSIX file layer, and system calls that transfer less than they were asked to.
-/
import Verif.Codec.LogCodecLemmas
import Verif.Codec.Frame

namespace Jungle
namespace FlushBuf
open LogCodec Crc

/-- A file, and the number of calls of `::pwrite` so far. -/
structure Out where
  file : Bytes
  calls : Nat
  deriving DecidableEq

/-- The operating system: how many bytes the `i`-th call of `::pwrite` would transfer (0 if it fails). -/
abbrev Sys := Nat → Nat

/-- The loop of `FileOpsPosix::append` (src/fileops_posix.cc:145-157): the whole buffer is written again
    at the same offset until one call transfers all of it, at most `MAX_TRIES` = 100 times. -/
def tries (sys : Sys) (off : Nat) (buf : Bytes) : Nat → Out → Bool × Out
  | 0, o => (false, o)
  | n + 1, o =>
    let o' : Out := ⟨pwrite o.file off (buf.take (sys o.calls)), o.calls + 1⟩
    if buf.length ≤ sys o.calls then (true, o') else tries sys off buf n o'

/-- `FileOpsPosix::append` (src/fileops_posix.cc:136-160) of an open file. -/
def append (sys : Sys) (buf : Bytes) (o : Out) : Bool × Out :=
  if buf = [] then (true, o) else tries sys o.file.length buf 100 o

/-- How a flush ends early. -/
inductive Stop
  /-- An append failed; what the file has become. -/
  | failed (o : Out)
  /-- More was copied into `tmp_buf` than it holds. -/
  | overflow
  deriving DecidableEq

/-- `rws.put(tmp_buf.data, ss_tmp_buf.pos())`, or a direct `rws.put` (src/memtable.cc:1315-1316, 1387-1393,
    1403-1404, `RwSerializer::put`, src/internal_helper.cc:73-86). -/
def spill (sys : Sys) (b : Bytes) (o : Out) : Except Stop (Bytes × Out) :=
  match append sys b o with
  | (true, o') => .ok ([], o')
  | (false, o') => .error (.failed o')

/-- `ss_tmp_buf.put` (src/memtable.cc:1352-1410): `tmp_buf` has `PAGE_LIMIT * 2` bytes
    (src/memtable.cc:1287), and `append_mem` does not check (src/internal_helper.h:398-404). -/
def keepBuf (page : Nat) (x b : Bytes) (o : Out) : Except Stop (Bytes × Out) :=
  if (b ++ x).length ≤ page * 2 then .ok (b ++ x, o) else .error .overflow

/-- What comes before the data of a record. -/
def hdr (co : Option CompOpt) (r : Rec Bytes) : Bytes :=
  be 8 (recFlags co r) ++ be 4 (crc32_8 (lenMeta co r) 0#32).toNat ++ lenMeta co r ++
    be 4 (dataCrc r.key r.umeta (storedVal co r)).toNat

/-- `data_len` (src/memtable.cc:1384): with the length of the value before compression. -/
def dataLen (r : Rec Bytes) : Nat := r.key.length + r.val.length + r.umeta.length

/-- The data of a record (src/memtable.cc:1384-1411). -/
def writeData (sys : Sys) (page : Nat) (co : Option CompOpt) (r : Rec Bytes) (b : Bytes) (o : Out) :
    Except Stop (Bytes × Out) :=
  if dataLen r ≥ page then
    (spill sys b o).bind fun s =>
    (spill sys r.key s.2).bind fun s =>
    (spill sys r.umeta s.2).bind fun s =>
    spill sys (storedVal co r) s.2
  else
    (if b.length + dataLen r > page then spill sys b o else .ok (b, o)).bind fun s =>
    (keepBuf page r.key s.1 s.2).bind fun s =>
    (keepBuf page r.umeta s.1 s.2).bind fun s =>
    keepBuf page (storedVal co r) s.1 s.2

/-- The checkpoint markers behind a record (src/memtable.cc:1416-1424). -/
def writeMarks (page seq : Nat) : List Nat → Bytes → Out → Except Stop (Bytes × Out)
  | [], b, o => .ok (b, o)
  | c :: cs, b, o =>
    if c = seq then (keepBuf page (encChk c) b o).bind fun s => writeMarks page seq cs s.1 s.2
    else writeMarks page seq cs b o

/-- One round of the loop (src/memtable.cc:1294-1428). -/
def writeRec (sys : Sys) (page : Nat) (co : Option CompOpt) (chks : List Nat) (r : Rec Bytes) (b : Bytes) (o : Out) :
    Except Stop (Bytes × Out) :=
  (if b.length + 40 > page then spill sys b o else .ok (b, o)).bind fun s =>
  (keepBuf page (hdr co r) s.1 s.2).bind fun s =>
  (writeData sys page co r s.1 s.2).bind fun s =>
  writeMarks page r.seq chks s.1 s.2

/-- The loop (src/memtable.cc:1294-1428). -/
def writeRecs (sys : Sys) (page : Nat) (co : Option CompOpt) (chks : List Nat) :
    List (Rec Bytes) → Bytes → Out → Except Stop (Bytes × Out)
  | [], b, o => .ok (b, o)
  | r :: rs, b, o => (writeRec sys page co chks r b o).bind fun s => writeRecs sys page co chks rs s.1 s.2

/-- `MemTable::flush` and `appendFlushMarker` (src/memtable.cc:1236-1471, src/log_file.cc:511-512) of the
    records `rs`: `dirty` is the number of the last checkpoint if it is dirty and the last synced number
    (src/memtable.cc:1431-1441); `synced` is the number in the flush marker. -/
def flush (sys : Sys) (page : Nat) (co : Option CompOpt) (chks : List Nat) (dirty : Option Nat) (synced : Nat)
    (rs : List (Rec Bytes)) (o : Out) : Except Stop Out :=
  (writeRecs sys page co chks rs [] o).bind fun s =>
  (match dirty with
    | some n => (spill sys (be 8 (2 * 2 ^ 56)) s.2).bind fun t => (spill sys (be 8 n) t.2).bind fun t => .ok (s.1, t.2)
    | none => .ok s).bind fun s =>
  (spill sys s.1 s.2).bind fun s =>
  (spill sys (be 8 (1 * 2 ^ 56)) s.2).bind fun s =>
  (spill sys (be 8 synced) s.2).bind fun s =>
  .ok s.2

/-- The entries a flush is to write: every record with its checkpoint markers, and the flush marker. -/
def entries (chks : List Nat) (synced : Nat) (rs : List (Rec Bytes)) : List Entry :=
  rs.flatMap (fun r => .record r :: (chks.filter (· = r.seq)).map .chkMark) ++ [.flushMark synced]

/-! ### Lemmas -/

theorem pwrite_again (old buf : Bytes) (k r : Nat) :
    pwrite (old ++ buf.take k) old.length (buf.take r) = old ++ buf.take (max k r) := by
  unfold pwrite
  have h0 : old.length - (old ++ buf.take k).length = 0 := by simp
  rw [h0, List.replicate_zero, List.append_nil, List.take_left, List.append_assoc]
  congr 1
  rw [List.drop_append, List.drop_eq_nil_of_le (by omega), List.nil_append]
  have h1 : old.length + (buf.take r).length - old.length = (buf.take r).length := by omega
  rw [h1]
  rcases Nat.le_total k r with h | h
  · rw [Nat.max_eq_right h, List.drop_eq_nil_of_le, List.append_nil]
    simp; omega
  · rw [Nat.max_eq_left h]
    apply List.ext_getElem
    · simp; omega
    · intro i h2 h3
      by_cases hi : i < (buf.take r).length
      · rw [List.getElem_append_left hi]
        simp
      · rw [List.getElem_append_right (by omega)]
        simp only [List.getElem_drop, List.getElem_take]
        congr 1
        omega

theorem tries_spec (sys : Sys) (old buf : Bytes) : ∀ (n k : Nat) (o o' : Out) (ok : Bool),
    o.file = old ++ buf.take k → tries sys old.length buf n o = (ok, o') →
    (ok = true → o'.file = old ++ buf) ∧ ∃ j, o'.file = old ++ buf.take j := by
  intro n
  induction n with
  | zero =>
    intro k o o' ok hf h
    simp only [tries, Prod.mk.injEq] at h
    obtain ⟨rfl, rfl⟩ := h
    exact ⟨fun h => (by cases h), k, hf⟩
  | succ n ih =>
    intro k o o' ok hf h
    have hp : pwrite o.file old.length (buf.take (sys o.calls)) = old ++ buf.take (max k (sys o.calls)) := by
      rw [hf, pwrite_again]
    unfold tries at h
    dsimp only at h
    split at h
    · next hle =>
      simp only [Prod.mk.injEq] at h
      obtain ⟨rfl, rfl⟩ := h
      have he : buf.take (max k (sys o.calls)) = buf := List.take_of_length_le (by omega)
      exact ⟨fun _ => by rw [hp, he], _, hp⟩
    · exact ih _ _ _ _ hp h

theorem append_spec {sys : Sys} {buf : Bytes} {o o' : Out} {ok : Bool} (h : append sys buf o = (ok, o')) :
    (ok = true → o'.file = o.file ++ buf) ∧ ∃ j, o'.file = o.file ++ buf.take j := by
  unfold append at h
  split at h
  · next he =>
    simp only [Prod.mk.injEq] at h
    obtain ⟨rfl, rfl⟩ := h
    rw [he]
    exact ⟨fun _ => by simp, 0, by simp⟩
  · exact tries_spec sys o.file buf 100 0 o o' ok (by simp) h

/-- A step that adds the bytes `x` to what is in the file and the buffer. -/
def Adds (x : Bytes) (b : Bytes) (o : Out) (e : Except Stop (Bytes × Out)) : Prop :=
  (∀ s, e = .ok s → s.2.file ++ s.1 = o.file ++ b ++ x ∧ o.file <+: s.2.file) ∧
    ∀ o', e = .error (.failed o') → o'.file <+: o.file ++ b ++ x ∧ o.file <+: o'.file

theorem Adds.ret (b : Bytes) (o : Out) : Adds [] b o (.ok (b, o)) := by
  constructor
  · intro s hs; cases hs; exact ⟨by simp, List.prefix_rfl⟩
  · intro o' h; cases h

theorem Adds.bind {x y b : Bytes} {o : Out} {e : Except Stop (Bytes × Out)} {f : Bytes × Out → Except Stop (Bytes × Out)}
    (h1 : Adds x b o e) (h2 : ∀ s, e = .ok s → Adds y s.1 s.2 (f s)) : Adds (x ++ y) b o (e.bind f) := by
  cases e with
  | error st =>
    constructor
    · intro s hs; cases hs
    · intro o' ho
      have := h1.2 o' ho
      exact ⟨this.1.trans (by rw [← List.append_assoc]; exact List.prefix_append _ _), this.2⟩
  | ok s =>
    obtain ⟨ha, hp⟩ := h1.1 s rfl
    have h3 := h2 s rfl
    constructor
    · intro t ht
      obtain ⟨hb, hq⟩ := h3.1 t ht
      exact ⟨by rw [hb, ha]; simp, hp.trans hq⟩
    · intro o' ho
      obtain ⟨hb, hq⟩ := h3.2 o' ho
      exact ⟨by rw [ha] at hb; simpa using hb, hp.trans hq⟩

theorem Adds.keepBuf (page : Nat) (x b : Bytes) (o : Out) : Adds x b o (keepBuf page x b o) := by
  unfold FlushBuf.keepBuf
  split
  · constructor
    · intro s hs; cases hs; exact ⟨by simp, List.prefix_rfl⟩
    · intro o' h; cases h
  · constructor
    · intro s hs; cases hs
    · intro o' h; cases h

/-- The buffer is written. -/
theorem Adds.spill (sys : Sys) (b : Bytes) (o : Out) : Adds [] b o (spill sys b o) := by
  unfold FlushBuf.spill
  cases h : append sys b o with
  | mk ok o' =>
    obtain ⟨h1, j, h2⟩ := append_spec h
    cases ok with
    | true =>
      constructor
      · intro s hs; cases hs
        have := h1 rfl
        exact ⟨by simp [this], by rw [this]; exact List.prefix_append _ _⟩
      · intro o' h; cases h
    | false =>
      constructor
      · intro s hs; cases hs
      · intro o'' h; cases h
        rw [h2]
        refine ⟨?_, List.prefix_append _ _⟩
        rw [List.append_nil]
        exact (List.prefix_append_right_inj _).2 (List.take_prefix _ _)

/-- Bytes are written past the empty buffer. -/
theorem Adds.direct (sys : Sys) (x : Bytes) (o : Out) : Adds x [] o (FlushBuf.spill sys x o) := by
  have h := Adds.spill sys x o
  constructor
  · intro s hs
    have := h.1 s hs
    exact ⟨by simpa using this.1, this.2⟩
  · intro o' ho
    have := h.2 o' ho
    exact ⟨by simpa using this.1, this.2⟩

theorem spill_empty {sys : Sys} {b : Bytes} {o : Out} {s : Bytes × Out} (h : spill sys b o = .ok s) : s.1 = [] := by
  unfold spill at h
  split at h
  · cases h; rfl
  · cases h

theorem Adds.cast {x y b : Bytes} {o : Out} {e : Except Stop (Bytes × Out)} (h : Adds x b o e) (hxy : x = y) :
    Adds y b o e := hxy ▸ h

theorem Adds.maybe (sys : Sys) (c : Prop) [Decidable c] (b : Bytes) (o : Out) :
    Adds [] b o (if c then FlushBuf.spill sys b o else .ok (b, o)) := by
  split
  · exact Adds.spill sys b o
  · exact Adds.ret b o

theorem Adds.writeData (sys : Sys) (page : Nat) (co : Option CompOpt) (r : Rec Bytes) (b : Bytes) (o : Out) :
    Adds (r.key ++ (r.umeta ++ storedVal co r)) b o (writeData sys page co r b o) := by
  unfold FlushBuf.writeData
  split
  · refine (Adds.bind (x := []) (y := r.key ++ (r.umeta ++ storedVal co r)) (Adds.spill sys b o) fun s hs => ?_).cast (by simp)
    rw [spill_empty hs]
    refine Adds.bind (Adds.direct sys _ _) fun t ht => ?_
    rw [spill_empty ht]
    refine Adds.bind (Adds.direct sys _ _) fun u hu => ?_
    rw [spill_empty hu]
    exact Adds.direct sys _ _
  · refine (Adds.bind (x := []) (y := r.key ++ (r.umeta ++ storedVal co r)) (Adds.maybe sys _ b o) fun s hs => ?_).cast (by simp)
    refine Adds.bind (Adds.keepBuf page _ _ _) fun t ht => ?_
    refine Adds.bind (Adds.keepBuf page _ _ _) fun u hu => ?_
    exact Adds.keepBuf page _ _ _

theorem Adds.writeMarks (page seq : Nat) (cs : List Nat) : ∀ (b : Bytes) (o : Out),
    Adds ((cs.filter (· = seq)).flatMap encChk) b o (writeMarks page seq cs b o) := by
  induction cs with
  | nil => intro b o; exact Adds.ret b o
  | cons c cs ih =>
    intro b o
    unfold FlushBuf.writeMarks
    split
    · next h =>
      rw [List.filter_cons, if_pos (by simpa using h), List.flatMap_cons]
      exact Adds.bind (Adds.keepBuf page _ _ _) fun s _ => ih _ _
    · next h =>
      rw [List.filter_cons, if_neg (by simpa using h)]
      exact ih _ _

theorem encRec_hdr (co : Option CompOpt) (r : Rec Bytes) :
    encRec co r = hdr co r ++ (r.key ++ (r.umeta ++ storedVal co r)) := by
  simp [encRec, hdr]

/-- One record and its markers, as bytes. -/
def recOut (co : Option CompOpt) (chks : List Nat) (r : Rec Bytes) : Bytes :=
  encRec co r ++ (chks.filter (· = r.seq)).flatMap encChk

theorem Adds.writeRec (sys : Sys) (page : Nat) (co : Option CompOpt) (chks : List Nat) (r : Rec Bytes) (b : Bytes)
    (o : Out) : Adds (recOut co chks r) b o (writeRec sys page co chks r b o) := by
  unfold FlushBuf.writeRec
  refine (Adds.bind (x := []) (y := hdr co r ++ ((r.key ++ (r.umeta ++ storedVal co r)) ++
    (chks.filter (· = r.seq)).flatMap encChk)) (Adds.maybe sys _ b o) fun s hs => ?_).cast ?_
  · refine Adds.bind (Adds.keepBuf page _ _ _) fun t ht => ?_
    refine Adds.bind (Adds.writeData sys page co r _ _) fun u hu => ?_
    exact Adds.writeMarks page r.seq chks _ _
  · simp [recOut, encRec_hdr]

theorem Adds.writeRecs (sys : Sys) (page : Nat) (co : Option CompOpt) (chks : List Nat) (rs : List (Rec Bytes)) :
    ∀ (b : Bytes) (o : Out), Adds (rs.flatMap (recOut co chks)) b o (writeRecs sys page co chks rs b o) := by
  induction rs with
  | nil => intro b o; exact Adds.ret b o
  | cons r rs ih =>
    intro b o
    unfold FlushBuf.writeRecs
    rw [List.flatMap_cons]
    exact Adds.bind (Adds.writeRec sys page co chks r b o) fun s _ => ih _ _

theorem encAll_entries (co : Option CompOpt) (chks : List Nat) (synced : Nat) (rs : List (Rec Bytes)) :
    encAll co (entries chks synced rs) = rs.flatMap (recOut co chks) ++ encFlush synced := by
  have h1 : ∀ r : Rec Bytes, encAll co (.record r :: (chks.filter (· = r.seq)).map .chkMark) = recOut co chks r := by
    intro r
    unfold encAll recOut
    rw [List.flatMap_cons, List.flatMap_map]
    simp only [Entry.enc]
  have h2 : ∀ l : List (Rec Bytes), encAll co (l.flatMap (fun r => .record r :: (chks.filter (· = r.seq)).map .chkMark)) =
      l.flatMap (recOut co chks) := by
    intro l
    induction l with
    | nil => rfl
    | cons r l ih =>
      rw [List.flatMap_cons, List.flatMap_cons, ← ih, ← h1]
      unfold encAll
      rw [List.flatMap_append]
  have h3 : encAll co [.flushMark synced] = encFlush synced := by
    unfold encAll
    simp only [List.flatMap_cons, List.flatMap_nil, List.append_nil, Entry.enc]
  rw [← h2, ← h3]
  unfold entries encAll
  rw [List.flatMap_append]

/-- Everything but the bytes in the file is forgotten. -/
theorem flush_adds (sys : Sys) (page : Nat) (co : Option CompOpt) (chks : List Nat) (synced : Nat)
    (rs : List (Rec Bytes)) (o : Out) :
    (∀ o', flush sys page co chks none synced rs o = .ok o' →
      o'.file = o.file ++ encAll co (entries chks synced rs)) ∧
    ∀ o', flush sys page co chks none synced rs o = .error (.failed o') →
      o'.file <+: o.file ++ encAll co (entries chks synced rs) ∧ o.file <+: o'.file := by
  have key : Adds (rs.flatMap (recOut co chks) ++ ([] ++ (be 8 (1 * 2 ^ 56) ++ be 8 synced))) [] o
      ((writeRecs sys page co chks rs [] o).bind fun s =>
        (spill sys s.1 s.2).bind fun s =>
        (spill sys (be 8 (1 * 2 ^ 56)) s.2).bind fun s => spill sys (be 8 synced) s.2) := by
    refine Adds.bind (Adds.writeRecs sys page co chks rs [] o) fun s _ => ?_
    refine Adds.bind (Adds.spill sys _ _) fun t ht => ?_
    rw [spill_empty ht]
    refine Adds.bind (Adds.direct sys _ _) fun u hu => ?_
    rw [spill_empty hu]
    exact Adds.direct sys _ _
  have hfl : flush sys page co chks none synced rs o =
      (((writeRecs sys page co chks rs [] o).bind fun s =>
        (spill sys s.1 s.2).bind fun s =>
        (spill sys (be 8 (1 * 2 ^ 56)) s.2).bind fun s => spill sys (be 8 synced) s.2)).bind fun s => .ok s.2 := by
    unfold flush
    cases writeRecs sys page co chks rs [] o with
    | error e => rfl
    | ok s =>
      simp only [Except.bind]
      cases spill sys s.1 s.2 with
      | error e => rfl
      | ok t =>
        simp only []
        cases spill sys (be 8 (1 * 2 ^ 56)) t.2 with
        | error e => rfl
        | ok u => rfl
  have hx : rs.flatMap (recOut co chks) ++ ([] ++ (be 8 (1 * 2 ^ 56) ++ be 8 synced)) =
      encAll co (entries chks synced rs) := by rw [encAll_entries]; simp [encFlush]
  rw [hx] at key
  have hemp : ∀ s, ((writeRecs sys page co chks rs [] o).bind fun s =>
        (spill sys s.1 s.2).bind fun s =>
        (spill sys (be 8 (1 * 2 ^ 56)) s.2).bind fun s => spill sys (be 8 synced) s.2) = .ok s → s.1 = [] := by
    intro s h
    cases h1 : writeRecs sys page co chks rs [] o with
    | error e => rw [h1] at h; cases h
    | ok a =>
      rw [h1] at h
      simp only [Except.bind] at h
      cases h2 : spill sys a.1 a.2 with
      | error e => rw [h2] at h; cases h
      | ok t =>
        rw [h2] at h
        simp only [] at h
        cases h3 : spill sys (be 8 (1 * 2 ^ 56)) t.2 with
        | error e => rw [h3] at h; cases h
        | ok u => rw [h3] at h; exact spill_empty h
  rw [hfl]
  generalize ((writeRecs sys page co chks rs [] o).bind fun s =>
        (spill sys s.1 s.2).bind fun s =>
        (spill sys (be 8 (1 * 2 ^ 56)) s.2).bind fun s => spill sys (be 8 synced) s.2) = e at key hemp ⊢
  cases e with
  | error st =>
    constructor
    · intro o' h; cases h
    · intro o' h
      have := key.2 o' (by injection h with h; rw [h])
      simpa using this
  | ok s =>
    constructor
    · intro o' h
      cases h
      have := (key.1 s rfl).1
      rw [hemp s rfl] at this
      simpa using this
    · intro o' h; cases h

theorem tries_iff (sys : Sys) (off : Nat) (buf : Bytes) : ∀ (n : Nat) (o : Out),
    (tries sys off buf n o).1 = true ↔ ∃ i, i < n ∧ buf.length ≤ sys (o.calls + i) := by
  intro n
  induction n with
  | zero => intro o; simp [tries]
  | succ n ih =>
    intro o
    unfold tries
    dsimp only
    split
    · next h => exact ⟨fun _ => ⟨0, by omega, h⟩, fun _ => rfl⟩
    · next h =>
      rw [ih]
      constructor
      · rintro ⟨i, hi, hl⟩
        refine ⟨i + 1, by omega, ?_⟩
        have : o.calls + (i + 1) = o.calls + 1 + i := by omega
        rw [this]; exact hl
      · rintro ⟨i, hi, hl⟩
        cases i with
        | zero => exact absurd hl h
        | succ i =>
          refine ⟨i, by omega, ?_⟩
          have : o.calls + 1 + i = o.calls + (i + 1) := by omega
          dsimp only
          rw [this]; exact hl

/-- A step that stays inside the buffer and leaves at most `n` bytes there. -/
def Safe (n : Nat) (e : Except Stop (Bytes × Out)) : Prop :=
  e ≠ .error .overflow ∧ ∀ s, e = .ok s → s.1.length ≤ n

theorem Safe.bind {m n : Nat} {e : Except Stop (Bytes × Out)} {f : Bytes × Out → Except Stop (Bytes × Out)}
    (h1 : Safe m e) (h2 : ∀ s, s.1.length ≤ m → Safe n (f s)) : Safe n (e.bind f) := by
  cases e with
  | error st =>
    refine ⟨fun h => h1.1 ?_, fun s h => by cases h⟩
    have : (Except.error st : Except Stop (Bytes × Out)) = .error .overflow := h
    exact this
  | ok s => exact h2 s (h1.2 s rfl)

theorem Safe.spill (sys : Sys) (b : Bytes) (o : Out) : Safe 0 (spill sys b o) := by
  constructor
  · intro h
    unfold FlushBuf.spill at h
    split at h <;> simp at h
  · intro s h
    rw [spill_empty h]; simp

theorem Safe.keepBuf {page n : Nat} {x b : Bytes} (o : Out) (hn : b.length + x.length ≤ n) (h2 : n ≤ page * 2) :
    Safe n (keepBuf page x b o) := by
  unfold FlushBuf.keepBuf
  rw [if_pos (by rw [List.length_append]; omega)]
  refine ⟨fun h => (by cases h), fun s h => ?_⟩
  cases h
  simpa using hn

theorem Safe.mono {m n : Nat} {e : Except Stop (Bytes × Out)} (h : Safe m e) (hmn : m ≤ n) : Safe n e :=
  ⟨h.1, fun s hs => Nat.le_trans (h.2 s hs) hmn⟩

theorem hdr_length (co : Option CompOpt) (r : Rec Bytes) : (hdr co r).length ≤ 40 ∧ 36 ≤ (hdr co r).length := by
  unfold hdr lenMeta
  simp only [List.length_append, be_length]
  cases compressed co r <;> simp

theorem encChk_length (n : Nat) : (encChk n).length = 16 := by
  unfold encChk
  rw [List.length_append, be_length, be_length]

theorem Safe.writeMarks (page seq : Nat) : ∀ (cs : List Nat) (b : Bytes) (o : Out),
    b.length + 16 * (cs.filter (· = seq)).length ≤ page * 2 → Safe (page * 2) (writeMarks page seq cs b o) := by
  intro cs
  induction cs with
  | nil =>
    intro b o h
    refine ⟨fun h => (by cases h), fun s hs => ?_⟩
    cases hs
    simpa using h
  | cons c cs ih =>
    intro b o h
    unfold FlushBuf.writeMarks
    split
    · next hc =>
      rw [List.filter_cons, if_pos (by simpa using hc), List.length_cons] at h
      refine Safe.bind (m := b.length + 16) (Safe.keepBuf o (by have := encChk_length c; omega) (by omega)) fun s hs => ?_
      exact ih _ _ (by omega)
    · next hc =>
      rw [List.filter_cons, if_neg (by simpa using hc)] at h
      exact ih _ _ h

theorem Safe.writeData (sys : Sys) {page : Nat} {co : Option CompOpt} {r : Rec Bytes} (h16 : 16 ≤ page)
    (hx : (storedVal co r).length + 16 ≤ r.val.length + page) (b : Bytes) (o : Out) :
    Safe (page * 2 - 16) (writeData sys page co r b o) := by
  unfold FlushBuf.writeData
  have hd : dataLen r = r.key.length + r.val.length + r.umeta.length := rfl
  split
  · refine Safe.bind (Safe.spill sys _ _) fun s _ => ?_
    refine Safe.bind (Safe.spill sys _ _) fun s _ => ?_
    refine Safe.bind (Safe.spill sys _ _) fun s _ => ?_
    exact (Safe.spill sys _ _).mono (by omega)
  · next hlt =>
    refine Safe.bind (m := page - dataLen r) ?_ fun s hs => ?_
    · split
      · exact (Safe.spill sys _ _).mono (by omega)
      · next hle =>
        refine ⟨fun h => (by cases h), fun s h => ?_⟩
        cases h
        dsimp only
        omega
    refine Safe.bind (m := page - r.val.length - r.umeta.length) (Safe.keepBuf _ (by omega) (by omega)) fun t ht => ?_
    refine Safe.bind (m := page - r.val.length) (Safe.keepBuf _ (by omega) (by omega)) fun u hu => ?_
    exact Safe.keepBuf _ (by omega) (by omega)

theorem Safe.writeRec (sys : Sys) {page : Nat} {co : Option CompOpt} {chks : List Nat} {r : Rec Bytes} (h20 : 16 ≤ page)
    (hh : (hdr co r).length ≤ page * 2) (hx : (storedVal co r).length + 16 ≤ r.val.length + page) (hc : (chks.filter (· = r.seq)).length ≤ 1) (b : Bytes)
    (o : Out) : Safe (page * 2) (writeRec sys page co chks r b o) := by
  unfold FlushBuf.writeRec
  have hh' := (hdr_length co r).1
  refine Safe.bind (m := page - 40) ?_ fun s hs => ?_
  · split
    · exact (Safe.spill sys _ _).mono (by omega)
    · refine ⟨fun h => (by cases h), fun s h => ?_⟩
      cases h
      dsimp only
      omega
  refine Safe.bind (m := page * 2) (Safe.keepBuf _ (by omega) (by omega)) fun t _ => ?_
  refine Safe.bind (Safe.writeData sys (by omega) hx _ _) fun u hu => ?_
  exact Safe.writeMarks _ _ _ _ _ (by omega)

theorem Safe.writeRecs (sys : Sys) {page : Nat} {co : Option CompOpt} {chks : List Nat} (h20 : 16 ≤ page) :
    ∀ (rs : List (Rec Bytes)), (∀ r ∈ rs, (hdr co r).length ≤ page * 2) → (∀ r ∈ rs, (storedVal co r).length + 16 ≤ r.val.length + page) →
    (∀ r ∈ rs, (chks.filter (· = r.seq)).length ≤ 1) → ∀ (b : Bytes) (o : Out), b.length ≤ page * 2 →
    Safe (page * 2) (writeRecs sys page co chks rs b o) := by
  intro rs
  induction rs with
  | nil =>
    intro _ _ _ b o hb
    refine ⟨fun h => (by cases h), fun s h => ?_⟩
    cases h
    exact hb
  | cons r rs ih =>
    intro hh hx hc b o _
    unfold FlushBuf.writeRecs
    refine Safe.bind (Safe.writeRec sys h20 (hh r (by simp)) (hx r (by simp)) (hc r (by simp)) b o) fun s hs => ?_
    exact ih (fun r hr => hh r (by simp [hr])) (fun r hr => hx r (by simp [hr])) (fun r hr => hc r (by simp [hr])) _ _ hs

theorem flush_safe (sys : Sys) {page : Nat} {co : Option CompOpt} {chks : List Nat} (dirty : Option Nat) (synced : Nat)
    {rs : List (Rec Bytes)} (o : Out) (h : Safe (page * 2) (writeRecs sys page co chks rs [] o)) :
    flush sys page co chks dirty synced rs o ≠ .error .overflow := by
  have sp : ∀ b o, spill sys b o ≠ .error .overflow := fun b o => (Safe.spill sys b o).1
  unfold flush
  have bnd : ∀ {α β : Type} (e : Except Stop α) (f : α → Except Stop β), e ≠ .error .overflow →
      (∀ a, f a ≠ .error .overflow) → e.bind f ≠ .error .overflow := by
    intro α β e f h1 h2
    cases e with
    | error st =>
      intro h
      apply h1
      have h : (Except.error st : Except Stop β) = .error .overflow := h
      injection h with h
      rw [h]
    | ok a => exact h2 a
  refine bnd _ _ h.1 fun s => bnd _ _ ?_ fun s => bnd _ _ (sp _ _) fun s => bnd _ _ (sp _ _) fun s =>
    bnd _ _ (sp _ _) fun s => (by intro h; cases h)
  cases dirty with
  | none => intro h; cases h
  | some n => exact bnd _ _ (sp _ _) fun t => bnd _ _ (sp _ _) fun t => (by intro h; cases h)

/-- An upper bound of the bytes of a record in the buffer. -/
def room (co : Option CompOpt) (chks : List Nat) (r : Rec Bytes) : Nat :=
  40 + dataLen r + (storedVal co r).length + 16 * (chks.filter (· = r.seq)).length

theorem keepBuf_ok {page : Nat} {x b : Bytes} (o : Out) (h : b.length + x.length ≤ page * 2) :
    keepBuf page x b o = .ok (b ++ x, o) := by
  unfold keepBuf
  rw [if_pos (by rw [List.length_append]; exact h)]

theorem writeMarks_fits (page seq : Nat) (o : Out) : ∀ (cs : List Nat) (b : Bytes),
    b.length + 16 * (cs.filter (· = seq)).length ≤ page * 2 →
    writeMarks page seq cs b o = .ok (b ++ (cs.filter (· = seq)).flatMap encChk, o) := by
  intro cs
  induction cs with
  | nil => intro b _; simp [writeMarks]
  | cons c cs ih =>
    intro b h
    unfold writeMarks
    split
    · next hc =>
      rw [List.filter_cons, if_pos (by simpa using hc)] at h ⊢
      rw [List.length_cons] at h
      have h16 := encChk_length c
      rw [keepBuf_ok o (by omega)]
      simp only [Except.bind]
      rw [ih _ (by rw [List.length_append]; omega), List.flatMap_cons, List.append_assoc]
    · next hc =>
      rw [List.filter_cons, if_neg (by simpa using hc)] at h ⊢
      exact ih _ h

theorem writeRec_fits (sys : Sys) {page : Nat} {co : Option CompOpt} {chks : List Nat} {r : Rec Bytes} {b : Bytes} (o : Out)
    (h : b.length + room co chks r ≤ page) :
    writeRec sys page co chks r b o = .ok (b ++ recOut co chks r, o) ∧
      (b ++ recOut co chks r).length ≤ b.length + room co chks r := by
  have hd : dataLen r = r.key.length + r.val.length + r.umeta.length := rfl
  have hh := hdr_length co r
  unfold room at h ⊢
  constructor
  · unfold writeRec writeData
    rw [if_neg (by omega)]
    simp only [Except.bind]
    rw [keepBuf_ok o (by omega)]
    dsimp only
    rw [if_neg (by omega), if_neg (by rw [List.length_append]; omega)]
    dsimp only
    rw [keepBuf_ok o (by rw [List.length_append]; omega)]
    dsimp only
    rw [keepBuf_ok o (by rw [List.length_append, List.length_append]; omega)]
    dsimp only
    rw [keepBuf_ok o (by rw [List.length_append, List.length_append, List.length_append]; omega)]
    dsimp only
    rw [writeMarks_fits page r.seq o chks _ (by
      rw [List.length_append, List.length_append, List.length_append, List.length_append]; omega)]
    unfold recOut
    rw [encRec_hdr]
    simp only [List.append_assoc]
  · unfold recOut
    rw [encRec_hdr]
    have hm : ((chks.filter (· = r.seq)).flatMap encChk).length = 16 * (chks.filter (· = r.seq)).length := by
      induction chks.filter (· = r.seq) with
      | nil => rfl
      | cons a l ih => rw [List.flatMap_cons, List.length_append, encChk_length, ih, List.length_cons]; omega
    simp only [List.length_append, hm]
    omega

theorem writeRecs_fits (sys : Sys) {page : Nat} {co : Option CompOpt} {chks : List Nat} (o : Out) :
    ∀ (rs : List (Rec Bytes)) (b : Bytes), b.length + (rs.map (room co chks)).sum ≤ page →
    writeRecs sys page co chks rs b o = .ok (b ++ rs.flatMap (recOut co chks), o) := by
  intro rs
  induction rs with
  | nil => intro b _; simp [writeRecs]
  | cons r rs ih =>
    intro b h
    rw [List.map_cons, List.sum_cons] at h
    have hpos : 40 ≤ room co chks r := by unfold room; omega
    obtain ⟨h1, h2⟩ := writeRec_fits sys (b := b) (co := co) (chks := chks) (r := r) (page := page) o (by omega)
    unfold writeRecs
    rw [h1]
    simp only [Except.bind]
    rw [ih _ (by omega), List.flatMap_cons, List.append_assoc]

/-- A pending marker is written before what is left in the buffer. -/
theorem flush_dirty {sys : Sys} {page : Nat} {co : Option CompOpt} {chks : List Nat} {n synced : Nat} {rs : List (Rec Bytes)}
    {o o' o1 : Out} {b : Bytes} (hw : writeRecs sys page co chks rs [] o = .ok (b, o1))
    (h : flush sys page co chks (some n) synced rs o = .ok o') :
    o'.file = o1.file ++ encChk n ++ b ++ encFlush synced := by
  unfold flush at h
  rw [hw] at h
  simp only [Except.bind] at h
  cases h1 : spill sys (be 8 (2 * 2 ^ 56)) o1 with
  | error e => rw [h1] at h; cases h
  | ok s1 =>
    rw [h1] at h; dsimp only at h
    cases h2 : spill sys (be 8 n) s1.2 with
    | error e => rw [h2] at h; cases h
    | ok s2 =>
      rw [h2] at h; dsimp only at h
      cases h3 : spill sys b s2.2 with
      | error e => rw [h3] at h; cases h
      | ok s3 =>
        rw [h3] at h; dsimp only at h
        cases h4 : spill sys (be 8 (1 * 2 ^ 56)) s3.2 with
        | error e => rw [h4] at h; cases h
        | ok s4 =>
          rw [h4] at h; dsimp only at h
          cases h5 : spill sys (be 8 synced) s4.2 with
          | error e => rw [h5] at h; cases h
          | ok s5 =>
            rw [h5] at h
            cases h
            have e1 := ((Adds.direct sys _ _).1 s1 h1).1
            have e2 := ((Adds.direct sys _ _).1 s2 h2).1
            have e3 := ((Adds.direct sys _ _).1 s3 h3).1
            have e4 := ((Adds.direct sys _ _).1 s4 h4).1
            have e5 := ((Adds.direct sys _ _).1 s5 h5).1
            rw [spill_empty h1] at e1
            rw [spill_empty h2] at e2
            rw [spill_empty h3] at e3
            rw [spill_empty h4] at e4
            rw [spill_empty h5] at e5
            simp only [List.append_nil] at e1 e2 e3 e4 e5
            rw [e5, e4, e3, e2, e1]
            simp [encChk, encFlush]

end FlushBuf
end Jungle
