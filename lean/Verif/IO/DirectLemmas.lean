/- Lemmas about the direct-I/O layer. -/
import Verif.IO.Direct
import Verif.Codec.LogCodecLemmas

namespace Jungle
open LogCodec

theorem splice_eq {dst : Bytes} {pos : Nat} (src : Bytes) (h : pos ≤ dst.length) :
    splice dst pos src = dst.take pos ++ src ++ dst.drop (pos + src.length) := by
  unfold splice
  rw [Nat.sub_eq_zero_of_le h]; simp

theorem splice_length {dst : Bytes} {pos : Nat} {src : Bytes} (h : pos ≤ dst.length) :
    (splice dst pos src).length = max dst.length (pos + src.length) := by
  rw [splice_eq src h]
  simp only [List.length_append, List.length_take, List.length_drop]
  omega

theorem splice_take {dst : Bytes} {pos : Nat} {src : Bytes} (h : pos ≤ dst.length) :
    (splice dst pos src).take (pos + src.length) = dst.take pos ++ src := by
  rw [splice_eq src h]
  rw [List.take_append_of_le_length (by simp only [List.length_append, List.length_take]; omega)]
  exact List.take_of_length_le (by simp only [List.length_append, List.length_take]; omega)

namespace Dio

/-- The sizes make sense: the buffer holds whole blocks, a block holds a padding flag. -/
structure Ok (c : DioCfg) : Prop where
  align : 8 ≤ c.alignSize
  pos : 0 < c.bufferSize
  whole : c.bufferSize % c.alignSize = 0

variable {c : DioCfg}

theorem alignUp_le (hc : Ok c) {n m : Nat} (h : n ≤ m) (hm : m % c.alignSize = 0) : alignUp c n ≤ m := by
  have ha := hc.align
  unfold alignUp
  split
  · next hr =>
    have h1 := Nat.div_add_mod n c.alignSize
    have h2 := Nat.div_add_mod m c.alignSize
    rw [hm] at h2
    have hlt := Nat.mod_lt n (show 0 < c.alignSize by omega)
    have hq : n / c.alignSize < m / c.alignSize := by
      by_contra hq
      have := Nat.mul_le_mul_left c.alignSize (Nat.le_of_not_lt hq)
      omega
    have h3 := Nat.mul_le_mul_left c.alignSize hq
    rw [Nat.succ_eq_add_one, Nat.mul_add, Nat.mul_one] at h3
    omega
  · exact h

theorem le_alignUp (n : Nat) : n ≤ alignUp c n := by
  unfold alignUp; split <;> omega

theorem alignUp_mod (hc : Ok c) (n : Nat) : alignUp c n % c.alignSize = 0 := by
  have ha := hc.align
  unfold alignUp
  split
  · next hr =>
    have h1 := Nat.div_add_mod n c.alignSize
    have hlt := Nat.mod_lt n (show 0 < c.alignSize by omega)
    have : n + (c.alignSize - n % c.alignSize) = c.alignSize * (n / c.alignSize + 1) := by
      rw [Nat.mul_add, Nat.mul_one]; omega
    rw [this, Nat.mul_mod_right]
  · next hr => omega

theorem readInternal_tail {file : Bytes} {n off : Nat} (h : off + n = file.length) :
    readInternal c file n off = some (file.drop off) := by
  unfold readInternal
  have hl : (file.drop off).length = n := by rw [List.length_drop]; omega
  have : (file.drop off).take (alignUp c n) = file.drop off :=
    List.take_of_length_le (by rw [hl]; exact le_alignUp n)
  simp only [this]
  rw [if_pos hl]

theorem readInternal_whole {file : Bytes} {n off : Nat} (hn : n % c.alignSize = 0) (h : off + n ≤ file.length) :
    readInternal c file n off = some ((file.drop off).take n) := by
  unfold readInternal alignUp
  rw [hn]
  simp only [gt_iff_lt, Nat.lt_irrefl, if_false]
  rw [if_pos]
  rw [List.length_take, List.length_drop]; omega

/-! ### padding -/

theorem flag_be : be 8 (0xfe * 2 ^ 56) = [0xfe, 0, 0, 0, 0, 0, 0, 0] := by decide

theorem padding_nil {n : Nat} (h : n % c.alignSize = 0) : padding c n = [] := by
  unfold padding; rw [h]; rfl

theorem padding_eq (hc : Ok c) {n : Nat} (h : n % c.alignSize ≠ 0) :
    ∃ p, 8 ≤ p ∧ padding c n = be 8 (0xfe * 2 ^ 56) ++ List.replicate (p - 8) 0 ∧
      p = c.alignSize - n % c.alignSize + (if c.alignSize - n % c.alignSize < 8 then c.alignSize else 0) := by
  have ha := hc.align
  have hlt := Nat.mod_lt n (show 0 < c.alignSize by omega)
  unfold padding
  rw [if_pos (by omega)]
  simp only
  generalize hp : (if c.alignSize - n % c.alignSize < 8 then c.alignSize - n % c.alignSize + c.alignSize
    else c.alignSize - n % c.alignSize) = p
  have hp' : p = c.alignSize - n % c.alignSize + (if c.alignSize - n % c.alignSize < 8 then c.alignSize else 0) := by
    rw [← hp]; split <;> rfl
  have h8 : 8 ≤ p := by rw [hp']; split <;> omega
  refine ⟨p, h8, ?_, hp'⟩
  rw [splice_eq _ (Nat.zero_le _)]
  simp

/-- Where a flush of `n` bytes ends. -/
def padEnd (c : DioCfg) (n : Nat) : Nat := n + (padding c n).length

theorem padEnd_eq (hc : Ok c) (n : Nat) :
    padEnd c n = if n % c.alignSize = 0 then n
      else c.alignSize * (n / c.alignSize + 1) + (if c.alignSize - n % c.alignSize < 8 then c.alignSize else 0) := by
  have h1 := Nat.div_add_mod n c.alignSize
  have ha := hc.align
  have hlt := Nat.mod_lt n (show 0 < c.alignSize by omega)
  unfold padEnd
  by_cases h : n % c.alignSize = 0
  · rw [if_pos h, padding_nil h]; rfl
  · obtain ⟨p, h8, hp, he⟩ := padding_eq hc h
    rw [if_neg h, hp]
    simp only [List.length_append, be_length, List.length_replicate]
    rw [Nat.mul_add, Nat.mul_one]
    omega

theorem padEnd_mono (hc : Ok c) {n m : Nat} (h : n + 8 ≤ m) : padEnd c n ≤ padEnd c m := by
  have ha := hc.align
  have hmle : m ≤ padEnd c m := Nat.le_add_right _ _
  have h1 := Nat.div_add_mod n c.alignSize
  have h2 := Nat.div_add_mod m c.alignSize
  have hltn := Nat.mod_lt n (show 0 < c.alignSize by omega)
  have hltm := Nat.mod_lt m (show 0 < c.alignSize by omega)
  rw [padEnd_eq hc n]
  by_cases hr : n % c.alignSize = 0
  · rw [if_pos hr]; omega
  · rw [if_neg hr]
    have key : ∀ k, c.alignSize * k < m → c.alignSize * (k + 1) ≤ padEnd c m := by
      intro k hk
      by_cases hq : k < m / c.alignSize
      · have := Nat.mul_le_mul_left c.alignSize hq
        rw [Nat.succ_eq_add_one] at this
        omega
      · have hk' : m / c.alignSize ≤ k := Nat.le_of_not_lt hq
        have := Nat.mul_le_mul_left c.alignSize hk'
        have hm0 : m % c.alignSize ≠ 0 := by omega
        have hkq : k = m / c.alignSize := by
          by_contra hne
          have hlt : m / c.alignSize < k := by omega
          have := Nat.mul_le_mul_left c.alignSize hlt
          rw [Nat.succ_eq_add_one, Nat.mul_add, Nat.mul_one] at this
          omega
        rw [padEnd_eq hc m, if_neg hm0, hkq]
        omega
    by_cases hp : c.alignSize - n % c.alignSize < 8
    · rw [if_pos hp]
      have h3 : c.alignSize * (n / c.alignSize + 1) < m := by rw [Nat.mul_add, Nat.mul_one]; omega
      have := key _ h3
      rw [Nat.mul_add _ (n / c.alignSize + 1), Nat.mul_one] at this
      exact this
    · rw [if_neg hp, Nat.add_zero]
      exact key _ (by omega)

/-! ### what holds between the calls -/

/-- `L` is what has been appended so far. -/
structure Inv (c : DioCfg) (d : Dio) (L : Bytes) : Prop where
  pos : d.filePos % c.alignSize = 0
  room : d.buf.length < c.bufferSize
  inFile : d.filePos ≤ d.file.length
  all : d.file.take d.filePos ++ d.buf = L
  done : d.filePos ≤ d.flushedPos
  le : d.flushedPos ≤ L.length
  fle : d.flushedPos ≤ d.file.length
  kept : d.file.take d.flushedPos = L.take d.flushedPos

theorem Inv.len {d : Dio} {L : Bytes} (h : Inv c d L) : L.length = d.filePos + d.buf.length := by
  have := congrArg List.length h.all
  have := h.inFile
  simp only [List.length_append, List.length_take] at *
  omega

theorem Inv.ofOpen (hc : Ok c) {file : Bytes} {d : Dio} (h : openFile c file = some d) :
    Inv c d file ∧ d.file = file ∧ d.flushedPos = file.length := by
  have ha := hc.align
  unfold openFile at h
  simp only at h
  by_cases hn : file.length % c.alignSize = 0
  · rw [if_pos hn] at h
    cases h
    exact ⟨⟨hn, hc.pos, Nat.le_refl _, by simp, Nat.le_refl _, Nat.le_refl _, Nat.le_refl _, rfl⟩, rfl, rfl⟩
  · rw [if_neg hn] at h
    have hlt := Nat.mod_lt file.length (show 0 < c.alignSize by omega)
    have hle := Nat.mod_le file.length c.alignSize
    rw [readInternal_tail (by omega)] at h
    cases h
    refine ⟨⟨?_, ?_, ?_, ?_, ?_, ?_, ?_, ?_⟩, rfl, rfl⟩
    · show (file.length - file.length % c.alignSize) % c.alignSize = 0
      have h1 := Nat.div_add_mod file.length c.alignSize
      have : file.length - file.length % c.alignSize = c.alignSize * (file.length / c.alignSize) := by omega
      rw [this, Nat.mul_mod_right]
    · show (file.drop _).length < _
      rw [List.length_drop]
      have : c.alignSize ≤ c.bufferSize := by
        by_contra hlt'
        have := Nat.mod_eq_of_lt (Nat.lt_of_not_le hlt')
        have := hc.whole
        have := hc.pos
        omega
      omega
    · exact Nat.sub_le _ _
    · exact List.take_append_drop _ _
    · exact Nat.sub_le _ _
    · exact Nat.le_refl _
    · exact Nat.le_refl _
    · rfl

theorem openFile_some (file : Bytes) : ∃ d, openFile c file = some d := by
  unfold openFile
  simp only
  split
  · exact ⟨_, rfl⟩
  · have hle := Nat.mod_le file.length c.alignSize
    rw [readInternal_tail (by omega)]
    exact ⟨_, rfl⟩

/-- The write repeats what is already in `L` where it overlaps it. -/
def Over (L : Bytes) (w : Nat × Bytes) : Prop := ∃ A tail, A.length = w.1 ∧ A ++ w.2 = L ++ tail

/-- From `d`, holding `L`, to `d'`, holding `L ++ N`, with the writes `ws` and no flush. -/
structure Step (c : DioCfg) (d : Dio) (L : Bytes) (d' : Dio) (N : Bytes) (ws : List (Nat × Bytes)) : Prop where
  inv : Inv c d' (L ++ N)
  flushed : d'.flushedPos ≤ max d.flushedPos d'.filePos
  mono : d.filePos ≤ d'.filePos
  len : d'.file.length ≤ max d.file.length d'.filePos
  writes : applyWrites d.file ws = d'.file
  over : ∀ w ∈ ws, Over L w

theorem Step.refl {d : Dio} {L : Bytes} (h : Inv c d L) : Step c d L d [] [] :=
  ⟨by rw [List.append_nil]; exact h, Nat.le_max_left _ _, Nat.le_refl _, Nat.le_max_left _ _, rfl, fun _ h => by cases h⟩

theorem Step.trans {d d1 d2 : Dio} {L N M : Bytes} {ws vs : List (Nat × Bytes)} (h : Step c d L d1 N ws)
    (h' : Step c d1 (L ++ N) d2 M vs) : Step c d L d2 (N ++ M) (ws ++ vs) := by
  have h1 := h.flushed; have h2 := h'.flushed; have h3 := h.mono; have h4 := h'.mono
  have h5 := h.len; have h6 := h'.len
  refine ⟨?_, by omega, by omega, by omega, ?_, ?_⟩
  · rw [← List.append_assoc]; exact h'.inv
  · unfold applyWrites
    rw [List.foldl_append]
    have := h.writes
    unfold applyWrites at this
    rw [this]; exact h'.writes
  · intro w hw
    rcases List.mem_append.mp hw with hw | hw
    · exact h.over w hw
    · obtain ⟨A, tail, ha, he⟩ := h'.over w hw
      exact ⟨A, N ++ tail, ha, by rw [he, List.append_assoc]⟩

theorem Inv.round (hc : Ok c) {d : Dio} {L src : Bytes} (h : Inv c d L) (hs : src ≠ []) :
    ∃ N rest, src = N ++ rest ∧ (appendRound c d src).2 = rest ∧ N ≠ [] ∧
      Step c d L (appendRound c d src).1 N (roundWrites c d src) := by
  have hroom := h.room
  have hpos : 0 < src.length := List.length_pos_iff.mpr hs
  have hlen := h.len
  have hle := h.le
  have hdone := h.done
  generalize hsl : min src.length (c.bufferSize - d.buf.length) = slice
  have hslice : 0 < slice ∧ slice ≤ src.length ∧ slice ≤ c.bufferSize - d.buf.length := by omega
  refine ⟨src.take slice, src.drop slice, (List.take_append_drop _ _).symm, ?_, ?_, ?_⟩
  · unfold appendRound; simp only [hsl]; split <;> rfl
  · intro h0
    rcases List.take_eq_nil_iff.mp h0 with h0 | h0
    · omega
    · exact hs h0
  have hbl : (d.buf ++ src.take slice).length = d.buf.length + slice := by
    rw [List.length_append, List.length_take]; omega
  by_cases hfull : c.bufferSize ≤ (d.buf ++ src.take slice).length
  · have hbe : (d.buf ++ src.take slice).length = c.bufferSize := by omega
    have htk : (d.buf ++ src.take slice).take c.bufferSize = d.buf ++ src.take slice :=
      List.take_of_length_le (by omega)
    have he : (appendRound c d src).1 = ⟨splice d.file d.filePos (d.buf ++ src.take slice),
        d.filePos + c.bufferSize, max d.flushedPos (d.filePos + c.bufferSize), []⟩ := by
      unfold appendRound; simp only [hsl]; rw [if_pos hfull, htk]
    have hw : roundWrites c d src = [(d.filePos, d.buf ++ src.take slice)] := by
      unfold roundWrites; simp only [hsl]; rw [if_pos hfull, htk]
    rw [he, hw]
    have hLl : (L ++ src.take slice).length = d.filePos + c.bufferSize := by
      rw [List.length_append, List.length_take]; omega
    have htake : (splice d.file d.filePos (d.buf ++ src.take slice)).take (d.filePos + c.bufferSize) = L ++ src.take slice := by
      rw [← hbe, splice_take h.inFile, ← h.all, List.append_assoc]
    have hfl : d.flushedPos ≤ d.filePos + c.bufferSize := by omega
    have hlen' := splice_length (src := d.buf ++ src.take slice) h.inFile
    refine ⟨⟨?_, hc.pos, ?_, ?_, ?_, ?_, ?_, ?_⟩, ?_, ?_, ?_, rfl, ?_⟩
    · show (d.filePos + c.bufferSize) % c.alignSize = 0
      rw [Nat.add_mod, h.pos, hc.whole]; simp
    · show d.filePos + c.bufferSize ≤ (splice _ _ _).length
      rw [hlen', hbe]; omega
    · show (splice _ _ _).take _ ++ [] = _
      rw [List.append_nil]; exact htake
    · show d.filePos + c.bufferSize ≤ max _ _
      omega
    · show max d.flushedPos (d.filePos + c.bufferSize) ≤ _
      omega
    · show max d.flushedPos (d.filePos + c.bufferSize) ≤ (splice _ _ _).length
      rw [hlen', hbe]; omega
    · show (splice _ _ _).take (max d.flushedPos (d.filePos + c.bufferSize)) = (L ++ src.take slice).take _
      rw [Nat.max_eq_right hfl, htake]
      exact (List.take_of_length_le (Nat.le_of_eq hLl)).symm
    · show max d.flushedPos (d.filePos + c.bufferSize) ≤ max d.flushedPos (d.filePos + c.bufferSize)
      omega
    · show d.filePos ≤ d.filePos + c.bufferSize
      omega
    · show (splice _ _ _).length ≤ max d.file.length (d.filePos + c.bufferSize)
      rw [hlen', hbe]; omega
    · intro w hw'
      rw [List.mem_singleton] at hw'
      rw [hw']
      refine ⟨d.file.take d.filePos, src.take slice, ?_, ?_⟩
      · rw [List.length_take]; exact Nat.min_eq_left h.inFile
      · rw [← h.all, List.append_assoc]
  · have he : (appendRound c d src).1 = { d with buf := d.buf ++ src.take slice } := by
      unfold appendRound; simp only [hsl]; rw [if_neg hfull]
    have hw : roundWrites c d src = [] := by
      unfold roundWrites; simp only [hsl]; rw [if_neg hfull]
    rw [he, hw]
    refine ⟨⟨h.pos, Nat.lt_of_not_le hfull, h.inFile, ?_, h.done, ?_, h.fle, ?_⟩, Nat.le_max_left _ _, Nat.le_refl _, Nat.le_max_left _ _, rfl,
      fun w hw => by cases hw⟩
    · show d.file.take d.filePos ++ (d.buf ++ src.take slice) = _
      rw [← List.append_assoc, h.all]
    · show d.flushedPos ≤ _
      rw [List.length_append]; omega
    · show d.file.take d.flushedPos = _
      rw [List.take_append_of_le_length h.le]; exact h.kept

theorem Inv.loop (hc : Ok c) : ∀ (n : Nat) {d : Dio} {L src : Bytes}, Inv c d L → src.length ≤ n →
    Step c d L (appendLoop c n d src) src (loopWrites c n d src)
  | 0, d, L, src, h, hn => by
    have : src = [] := List.length_eq_zero_iff.mp (Nat.le_zero.mp hn)
    subst this
    exact Step.refl h
  | n + 1, d, L, src, h, hn => by
    have e1 : appendLoop c (n + 1) d src = if src = [] then d
      else appendLoop c n (appendRound c d src).1 (appendRound c d src).2 := rfl
    have e2 : loopWrites c (n + 1) d src = if src = [] then []
      else roundWrites c d src ++ loopWrites c n (appendRound c d src).1 (appendRound c d src).2 := rfl
    rw [e1, e2]
    by_cases hs : src = []
    · rw [if_pos hs, if_pos hs, hs]; exact Step.refl h
    · rw [if_neg hs, if_neg hs]
      obtain ⟨N, rest, hNr, hr, hN, hst⟩ := h.round hc hs
      have hlen : rest.length ≤ n := by
        have := congrArg List.length hNr
        have := List.length_pos_iff.mpr hN
        rw [List.length_append] at *
        omega
      have := hst.trans (Inv.loop hc n hst.inv (hr ▸ hlen : (appendRound c d src).2.length ≤ n))
      rw [hr] at this
      rw [hr]
      rw [← hNr] at this
      exact this

theorem Inv.append (hc : Ok c) {d : Dio} {L : Bytes} (h : Inv c d L) (src : Bytes) :
    Step c d L (append c d src) src (appendWrites c d src) := Inv.loop hc _ h (Nat.le_refl _)

/-- The writes of the appends. -/
def chunkWrites (c : DioCfg) : Dio → List Bytes → List (Nat × Bytes)
  | _, [] => []
  | d, x :: xs => appendWrites c d x ++ chunkWrites c (Dio.append c d x) xs

theorem syncWrites_eq (c : DioCfg) : ∀ (xs : List Bytes) (d : Dio),
    syncWrites c d xs = chunkWrites c d xs ++ flushWrites c (xs.foldl (Dio.append c) d)
  | [], d => rfl
  | x :: xs, d => by
    show appendWrites c d x ++ syncWrites c (Dio.append c d x) xs = (appendWrites c d x ++ chunkWrites c (Dio.append c d x) xs) ++ _
    rw [syncWrites_eq c xs, List.append_assoc]; rfl

theorem Inv.chunks (hc : Ok c) : ∀ (xs : List Bytes) {d : Dio} {L : Bytes}, Inv c d L →
    Step c d L (xs.foldl (Dio.append c) d) xs.flatten (chunkWrites c d xs)
  | [], d, L, h => Step.refl h
  | x :: xs, d, L, h => by
    have h1 := h.append hc x
    exact h1.trans (Inv.chunks hc xs h1.inv)

/-! ### flush -/

theorem dirty_iff (d : Dio) : d.dirty = true ↔ d.buf ≠ [] ∧ d.flushedPos < d.filePos + d.buf.length := by
  unfold dirty
  rcases hb : d.buf with _ | ⟨x, xs⟩
  · simp
  · simp

theorem flush_dirty {d : Dio} (h : d.dirty = true) :
    flush c d = ⟨splice d.file d.filePos (d.buf ++ padding c d.buf.length), d.filePos, d.filePos + d.buf.length, d.buf⟩ := by
  unfold flush; rw [if_pos h]

theorem flush_clean {d : Dio} (h : ¬ d.dirty = true) : flush c d = d := by
  unfold flush; rw [if_neg h]

theorem flushed_of_clean {d : Dio} {L : Bytes} (hi : Inv c d L) (h : ¬ d.dirty = true) : d.flushedPos = L.length := by
  rw [dirty_iff] at h
  have hl := hi.len
  have h1 := hi.le
  have h2 := hi.done
  by_cases hb : d.buf = []
  · rw [hb] at hl; simp at hl; omega
  · have : ¬ d.flushedPos < d.filePos + d.buf.length := fun hh => h ⟨hb, hh⟩
    omega

theorem Inv.flush {d : Dio} {L : Bytes} (h : Inv c d L) :
    Inv c (flush c d) L ∧ (Dio.flush c d).flushedPos = L.length ∧ (∀ w ∈ flushWrites c d, Over L w) ∧
      applyWrites d.file (flushWrites c d) = (Dio.flush c d).file := by
  by_cases hd : d.dirty = true
  · have hw : flushWrites c d = [(d.filePos, d.buf ++ padding c d.buf.length)] := by
      unfold flushWrites; rw [if_pos hd]
    rw [flush_dirty hd, hw]
    have hlen := h.len
    have hsl := splice_length (src := d.buf ++ padding c d.buf.length) h.inFile
    rw [List.length_append] at hsl
    have hfp : (d.file.take d.filePos).length = d.filePos := by
      rw [List.length_take]; exact Nat.min_eq_left h.inFile
    have hsp : splice d.file d.filePos (d.buf ++ padding c d.buf.length) =
        L ++ (padding c d.buf.length ++ d.file.drop (d.filePos + (d.buf ++ padding c d.buf.length).length)) := by
      rw [splice_eq _ h.inFile, ← h.all]; simp only [List.append_assoc]
    refine ⟨⟨h.pos, h.room, ?_, ?_, ?_, ?_, ?_, ?_⟩, hlen.symm, ?_, rfl⟩
    · show d.filePos ≤ (splice _ _ _).length
      omega
    · show (splice _ _ _).take d.filePos ++ d.buf = L
      rw [splice_eq _ h.inFile, List.append_assoc, List.take_left' hfp]
      exact h.all
    · exact Nat.le_add_right _ _
    · exact Nat.le_of_eq hlen.symm
    · show d.filePos + d.buf.length ≤ (splice _ _ _).length
      omega
    · show (splice _ _ _).take (d.filePos + d.buf.length) = L.take (d.filePos + d.buf.length)
      rw [hsp, ← hlen, List.take_left', List.take_length]
      rfl
    · intro w hw'
      rw [List.mem_singleton] at hw'
      rw [hw']
      exact ⟨d.file.take d.filePos, padding c d.buf.length, hfp, by rw [← h.all, List.append_assoc]⟩
  · have hw : flushWrites c d = [] := by unfold flushWrites; rw [if_neg hd]
    rw [flush_clean hd, hw]
    exact ⟨h, flushed_of_clean h hd, (fun _ h => by cases h), rfl⟩

/-! ### a file that ends with the padding of the last flush -/

/-- The file holds `L`, and the padding after it unless it has been cut off, and all of `L` is flushed. -/
structure Clean (c : DioCfg) (d : Dio) (L : Bytes) : Prop where
  inv : Inv c d L
  flushed : d.flushedPos = L.length
  file : d.file = L ∨ d.file = L ++ padding c L.length

theorem padding_mod {n m : Nat} (h : n % c.alignSize = 0) : padding c (n + m) = padding c m := by
  unfold padding
  have : (n + m) % c.alignSize = m % c.alignSize := by
    rw [Nat.add_mod, h, Nat.zero_add, Nat.mod_mod]
  rw [this]

/-- A flush after at least eight new bytes ends the file with the new padding. -/
theorem Clean.sync (hc : Ok c) {d : Dio} {L : Bytes} (h : Clean c d L) (xs : List Bytes) (h8 : 8 ≤ xs.flatten.length) :
    Clean c (syncChunks c d xs) (L ++ xs.flatten) := by
  have hst := h.inv.chunks hc xs
  unfold syncChunks
  generalize hd1 : xs.foldl (Dio.append c) d = d1 at hst
  have hfl := hst.inv.flush
  refine ⟨hfl.1, hfl.2.1, Or.inr ?_⟩
  have hlen := hst.inv.len
  have hLl : (L ++ xs.flatten).length = L.length + xs.flatten.length := List.length_append
  have h1 := hst.flushed; have h2 := hst.len
  have hfile : d.file.length ≤ L.length + (padding c L.length).length := by
    rcases h.file with hf | hf
    · rw [hf]; omega
    · rw [hf, List.length_append]; exact Nat.le_refl _
  have hmono := padEnd_mono hc (n := L.length) (m := (L ++ xs.flatten).length) (by omega)
  rw [h.flushed] at h1
  have hpad : padding c (L ++ xs.flatten).length = padding c d1.buf.length := by
    rw [hlen, padding_mod hst.inv.pos]
  by_cases hdty : d1.dirty = true
  · rw [flush_dirty hdty]
    show splice _ _ _ = _
    rw [splice_eq _ hst.inv.inFile, List.drop_eq_nil_of_le, List.append_nil, hpad, ← List.append_assoc, hst.inv.all]
    rw [List.length_append]
    unfold padEnd at hmono
    rw [hpad] at hmono
    omega
  · rw [flush_clean hdty]
    have hf := flushed_of_clean hst.inv hdty
    have hb : d1.buf.length = 0 := by omega
    have hb' : d1.buf = [] := List.length_eq_zero_iff.mp hb
    have hp0 : padding c 0 = [] := padding_nil (Nat.zero_mod _)
    have hall := hst.inv.all
    rw [hpad, hb, hp0, List.append_nil, ← hall, hb', List.append_nil]
    refine (List.take_of_length_le ?_).symm
    unfold padEnd at hmono
    rw [hpad, hb, hp0, List.length_nil] at hmono
    omega

theorem Clean.syncWrites (hc : Ok c) {d : Dio} {L : Bytes} (h : Inv c d L) (xs : List Bytes) :
    (∀ w ∈ syncWrites c d xs, Over L w) ∧ applyWrites d.file (syncWrites c d xs) = (syncChunks c d xs).file := by
  have hst := h.chunks hc xs
  have hfl := hst.inv.flush
  rw [syncWrites_eq]
  refine ⟨?_, ?_⟩
  · intro w hw
    rcases List.mem_append.mp hw with hw | hw
    · exact hst.over w hw
    · obtain ⟨A, tail, ha, he⟩ := hfl.2.2.1 w hw
      exact ⟨A, xs.flatten ++ tail, ha, by rw [he, List.append_assoc]⟩
  · have h1 := hst.writes; have h2 := hfl.2.2.2
    unfold applyWrites at *
    rw [List.foldl_append, h1, h2]; rfl

theorem over_take {f L : Bytes} {w : Nat × Bytes} (hw : Over L w) (hf : f.take L.length = L) (k : Nat) :
    (splice f w.1 (w.2.take k)).take L.length = L := by
  obtain ⟨A, tail, ha, he⟩ := hw
  have hl : L.length ≤ f.length := by
    have := congrArg List.length hf
    rw [List.length_take] at this; omega
  apply List.ext_getElem?
  intro i
  by_cases hi : i < L.length
  · rw [List.getElem?_take_of_lt hi]
    have hfi : f[i]? = L[i]? := by
      have := congrArg (fun l => l[i]?) hf
      simp only [List.getElem?_take_of_lt hi] at this
      exact this
    unfold splice
    by_cases h1 : i < w.1
    · rw [List.append_assoc, List.append_assoc, List.getElem?_append_left (by rw [List.length_take]; omega),
        List.getElem?_take_of_lt h1, hfi]
    · have h0 : w.1 - f.length = 0 := by omega
      rw [h0, List.replicate_zero, List.append_nil, List.append_assoc]
      have htl : (f.take w.1).length = w.1 := by rw [List.length_take]; omega
      rw [List.getElem?_append_right (by omega), htl]
      by_cases h2 : i - w.1 < (w.2.take k).length
      · rw [List.getElem?_append_left h2]
        rw [List.length_take] at h2
        rw [List.getElem?_take_of_lt (by omega)]
        have h3 : (A ++ w.2)[i]? = (L ++ tail)[i]? := by rw [he]
        rw [List.getElem?_append_right (by omega), List.getElem?_append_left hi, ha] at h3
        exact h3
      · rw [List.getElem?_append_right (by omega), List.getElem?_drop, ← hfi]
        congr 1; omega
  · rw [List.getElem?_eq_none (by rw [List.length_take]; omega), List.getElem?_eq_none (by omega)]

theorem apply_keeps {L : Bytes} : ∀ {ws : List (Nat × Bytes)} {f : Bytes}, (∀ w ∈ ws, Over L w) → f.take L.length = L →
    (applyWrites f ws).take L.length = L
  | [], _, _, hf => hf
  | w :: ws, f, hw, hf => by
    have := over_take (hw w (List.mem_cons_self ..)) hf w.2.length
    rw [List.take_length] at this
    exact apply_keeps (f := splice f w.1 w.2) (fun x hx => hw x (List.mem_cons_of_mem _ hx)) this

/-- A crash during writes that repeat `L` leaves `L` in place. -/
theorem torn_keeps {L : Bytes} {ws : List (Nat × Bytes)} {f f' : Bytes} (h : Torn f ws f') (hw : ∀ w ∈ ws, Over L w)
    (hf : f.take L.length = L) : f'.take L.length = L := by
  have hl : L.length ≤ f.length := by
    have := congrArg List.length hf
    rw [List.length_take] at this; omega
  apply List.ext_getElem?
  intro i
  by_cases hi : i < L.length
  · rw [List.getElem?_take_of_lt hi]
    obtain ⟨k, hk⟩ := h.2 i (by omega)
    rw [hk]
    have := apply_keeps (ws := ws.take k) (fun w hx => hw w (List.mem_of_mem_take hx)) hf
    have := congrArg (fun l => l[i]?) this
    simp only [List.getElem?_take_of_lt hi] at this
    exact this
  · have := h.1
    rw [List.getElem?_eq_none (by rw [List.length_take]; omega), List.getElem?_eq_none (by omega)]

/-! ### reading -/

theorem preadLoop_ok (hc : Ok c) {cap : Nat} (hcap : c.bufferSize ≤ cap) {file : Bytes} {offset count : Nat}
    (hin : offset + count ≤ file.length) : ∀ (n afo : Nat) (dst : Bytes), dst.length = count →
      (afo % c.alignSize = 0 ∨ offset + count ≤ afo) → afo ≤ file.length → offset < afo + c.alignSize →
      dst.take (min (offset + count) afo - offset) = ((file.drop offset).take count).take (min (offset + count) afo - offset) →
      offset + count - afo < n →
      preadLoop c cap file offset count n afo dst = .ok ((file.drop offset).take count)
  | 0, afo, dst, _, _, _, _, _, hn => by omega
  | n + 1, afo, dst, hd, hal, hfl, hoff, hpre, hn => by
    have ha := hc.align
    unfold preadLoop
    by_cases hlt : afo < offset + count
    · rw [if_pos hlt]
      have hmod : afo % c.alignSize = 0 := by rcases hal with h | h <;> omega
      simp only
      generalize hs0 : alignUp c (min (offset + count - afo) c.bufferSize) = slice0
      have hbp := hc.pos
      have hs0m : slice0 % c.alignSize = 0 := by rw [← hs0]; exact alignUp_mod hc _
      have hs0g : 0 < slice0 := by
        have := le_alignUp (c := c) (min (offset + count - afo) c.bufferSize)
        rw [hs0] at this; omega
      have hs0a : c.alignSize ≤ slice0 := by
        by_contra hl
        have := Nat.mod_eq_of_lt (Nat.lt_of_not_le hl)
        omega
      have hs0b : slice0 ≤ c.bufferSize := by
        rw [← hs0]; exact alignUp_le hc (Nat.min_le_right _ _) hc.whole
      generalize hs : (if file.length < afo + slice0 then file.length - afo else slice0) = slice
      have hcase : (slice = slice0 ∧ afo + slice0 ≤ file.length) ∨ (afo + slice = file.length ∧ slice ≤ slice0) := by
        rw [← hs]; split
        · right; omega
        · left; exact ⟨rfl, by omega⟩
      have hsg : 0 < slice := by rcases hcase with h | h <;> omega
      have hsb : slice ≤ c.bufferSize := by rcases hcase with h | h <;> omega
      have hb : readInternal c file slice afo = some ((file.drop afo).take slice) := by
        rcases hcase with h | h
        · rw [h.1]; exact readInternal_whole hs0m h.2
        · rw [readInternal_tail h.1, List.take_of_length_le (by rw [List.length_drop]; omega)]
      have hov : ¬ cap < alignUp c slice := by
        have := alignUp_le hc hsb hc.whole
        omega
      rw [if_neg hov, hb]
      simp only
      have hp : (if offset < afo then afo - offset else 0) = afo - offset := by split <;> omega
      have hq : (if afo < offset then offset - afo else 0) = offset - afo := by split <;> omega
      rw [hp, hq]
      generalize hlen : min (offset + count) (afo + slice) - max offset afo = len
      have hmin : min (offset + count) afo = afo := Nat.min_eq_right (by omega)
      rw [hmin] at hpre
      have hge : offset ≤ afo + slice := by rcases hcase with h | h <;> omega
      have hfin : afo + slice ≤ file.length := by rcases hcase with h | h <;> omega
      have hpl : min (offset + count) (afo + slice) - offset = afo - offset + len := by omega
      have hsl : (((file.drop afo).take slice).drop (offset - afo)).take len =
          (((file.drop offset).take count).drop (afo - offset)).take len := by
        rw [List.drop_take, List.drop_take, List.take_take, List.take_take, List.drop_drop, List.drop_drop]
        have e1 : min len (slice - (offset - afo)) = len := by omega
        have e2 : min len (count - (afo - offset)) = len := by omega
        have e3 : afo + (offset - afo) = offset + (afo - offset) := by omega
        rw [e1, e2, e3]
      have hll : ((((file.drop afo).take slice).drop (offset - afo)).take len).length = len := by
        simp only [List.length_take, List.length_drop]; omega
      have hpd : afo - offset ≤ dst.length := by omega
      refine preadLoop_ok hc hcap hin n (afo + slice) _ ?_ ?_ hfin (by omega) ?_ (by omega)
      · rw [splice_length hpd, hll]; omega
      · rcases hcase with h | h
        · left; rw [h.1, Nat.add_mod, hmod, hs0m]; simp
        · right; omega
      · rw [hpl]
        have h1 := splice_take (src := ((((file.drop afo).take slice).drop (offset - afo)).take len)) hpd
        rw [hll] at h1
        rw [h1, List.take_add, hpre, hsl]
    · rw [if_neg hlt]
      have hmin : min (offset + count) afo - offset = count := by omega
      rw [hmin, List.take_of_length_le (by omega), List.take_take, Nat.min_self] at hpre
      rw [hpre]

theorem pread_ok (hc : Ok c) {cap : Nat} (hcap : c.bufferSize ≤ cap) {d : Dio} {dst : Bytes} {offset : Nat}
    (hin : offset + dst.length ≤ d.file.length) :
    pread c cap d dst offset = .ok ((d.file.drop offset).take dst.length) := by
  have ha := hc.align
  unfold pread
  simp only
  by_cases h0 : dst.length = 0
  · rw [if_pos h0]
    have : dst = [] := List.length_eq_zero_iff.mp h0
    rw [this]; simp
  · rw [if_neg h0, if_neg (by omega)]
    have hlt := Nat.mod_lt offset (show 0 < c.alignSize by omega)
    have h1 := Nat.div_add_mod offset c.alignSize
    have hle := Nat.mod_le offset c.alignSize
    refine preadLoop_ok hc hcap hin _ _ _ rfl (Or.inl ?_) (by omega) (by omega) ?_ (by omega)
    · have : offset - offset % c.alignSize = c.alignSize * (offset / c.alignSize) := by omega
      rw [this, Nat.mul_mod_right]
    · have : min (offset + dst.length) (offset - offset % c.alignSize) - offset = 0 := by omega
      rw [this]; rfl

/-! ### loading -/

theorem padding_piece (hc : Ok c) {n : Nat} (h : padding c n ≠ []) (co : Option CompOpt) :
    loadPiece co (padding c n) = .padding ∧ skipPiece (padding c n) = .padding := by
  have hn : n % c.alignSize ≠ 0 := fun h0 => h (padding_nil h0)
  obtain ⟨p, -, he, -⟩ := padding_eq hc hn
  rw [he]
  constructor
  · unfold loadPiece
    rw [getU_be (by decide)]
    rfl
  · unfold skipPiece
    rw [getU_be (by decide)]
    rfl

theorem skipPiece_enc {co : Option CompOpt} {e : Entry} (hf : e.Fits co) (rest : Bytes) :
    skipPiece (e.enc co ++ rest) = .next rest := by
  cases e with
  | record r =>
    show skipPiece (encRec co r ++ rest) = _
    have hfl := flags_lt co r
    unfold skipPiece
    rw [encRec_eq, List.append_assoc, getU_be (by omega)]
    have h0 : recFlags co r / 2 ^ 56 = 0 := by omega
    simp only [h0]
    have hl := lenMeta_length co r
    rw [if_neg (by simp [recBytes, bodyBytes, hl]; omega)]
    unfold recBytes
    simp only [List.append_assoc]
    rw [getU_be (crc_lt _)]
    simp only []
    rw [takeN_append hl]
    simp only [ne_eq, not_true_eq_false, if_false]
    unfold bodyBytes
    simp only [List.append_assoc]
    rw [getU_be (crc_lt _)]
    simp only [parseLen_lenMeta hf]
    have hlen : (r.key ++ (r.umeta ++ (storedVal co r ++ rest))).length =
        r.key.length + r.umeta.length + (storedVal co r).length + rest.length := by
      simp only [List.length_append]; omega
    have hmod := Nat.mod_le (r.key.length + r.umeta.length + (storedVal co r).length) (2 ^ 32)
    rw [if_neg (by omega)]
    congr 1
    rw [show r.key ++ (r.umeta ++ (storedVal co r ++ rest)) = (r.key ++ r.umeta ++ storedVal co r) ++ rest by
      simp only [List.append_assoc]]
    exact List.drop_left' (by simp only [List.length_append])
  | flushMark n =>
    show skipPiece (encFlush n ++ rest) = _
    unfold skipPiece encFlush
    rw [List.append_assoc, getU_be (by decide)]
    simp only []
    rw [getU_be (w := 8) hf]
  | chkMark n =>
    show skipPiece (encChk n ++ rest) = _
    unfold skipPiece encChk
    rw [List.append_assoc, getU_be (by decide)]
    simp only []
    rw [getU_be (w := 8) hf]

theorem findPad_next {bs rest : Bytes} (h : skipPiece bs = .next rest) (hne : bs ≠ []) (n pos : Nat) :
    findPad (n + 1) pos bs = findPad n (pos + (bs.length - rest.length)) rest := by
  cases bs with
  | nil => exact absurd rfl hne
  | cons b bs => simp only [findPad, h]

theorem findPad_append {co : Option CompOpt} : ∀ (es : List Entry), (∀ e ∈ es, e.Fits co) → ∀ (rest : Bytes) (fuel pos : Nat),
    (encAll co es ++ rest).length ≤ fuel → ∃ fuel', rest.length ≤ fuel' ∧
      findPad fuel pos (encAll co es ++ rest) = findPad fuel' (pos + (encAll co es).length) rest
  | [], _, rest, fuel, pos, hfu => ⟨fuel, hfu, rfl⟩
  | e :: es, hf, rest, fuel, pos, hfu => by
    have e1 : encAll co (e :: es) ++ rest = e.enc co ++ (encAll co es ++ rest) := by simp [encAll]
    have e2 : (encAll co (e :: es)).length = (e.enc co).length + (encAll co es).length := by simp [encAll]
    have hp := enc_length_pos co e
    rw [e1] at hfu ⊢
    rw [List.length_append] at hfu
    obtain ⟨f, rfl⟩ : ∃ f, fuel = f + 1 := ⟨fuel - 1, by omega⟩
    rw [findPad_next (skipPiece_enc (hf e (List.mem_cons_self ..)) _)
      (by intro h; rw [List.append_eq_nil_iff] at h; rw [h.1] at hp; simp at hp)]
    obtain ⟨f', hl, he⟩ := findPad_append es (fun x hx => hf x (List.mem_cons_of_mem _ hx)) rest f
      (pos + ((e.enc co ++ (encAll co es ++ rest)).length - (encAll co es ++ rest).length)) (by omega)
    refine ⟨f', hl, ?_⟩
    rw [he, e2]
    congr 1
    rw [List.length_append]; omega

/-- Padding ends the load without an error. -/
theorem load_padding (hc : Ok c) {co : Option CompOpt} {es : List Entry} (hf : ∀ e ∈ es, e.Fits co) (n : Nat) :
    load co (encAll co es ++ padding c n) = (es.map Entry.item, .ok) := by
  unfold load
  obtain ⟨f, hl, h⟩ := loadLoop_append es hf (padding c n) _ (Nat.le_refl _)
  rw [h]
  have : loadLoop co f (padding c n) = ([], .ok) := by
    by_cases hp : padding c n = []
    · rw [hp, loadLoop_nil]
    · have := (padding_piece hc hp co).1
      cases hx : padding c n with
      | nil => exact absurd hx hp
      | cons b bs =>
        rw [hx] at this hl
        obtain ⟨f', rfl⟩ : ∃ g, f = g + 1 := ⟨f - 1, by simp at hl; omega⟩
        simp only [loadLoop, this]
  rw [this]; simp

/-- The padding is found. -/
theorem findPad_padding (hc : Ok c) {co : Option CompOpt} {es : List Entry} (hf : ∀ e ∈ es, e.Fits co) (n pos : Nat)
    {fuel : Nat} (hfu : (encAll co es ++ padding c n).length ≤ fuel) :
    findPad fuel pos (encAll co es ++ padding c n) =
      (.ok, if padding c n = [] then none else some (pos + (encAll co es).length)) := by
  obtain ⟨f, hl, h⟩ := findPad_append es hf (padding c n) fuel pos hfu
  rw [h]
  by_cases hp : padding c n = []
  · rw [if_pos hp, hp]; cases f <;> rfl
  · rw [if_neg hp]
    have := (padding_piece hc hp co).2
    cases hx : padding c n with
    | nil => exact absurd hx hp
    | cons b bs =>
      rw [hx] at this hl
      obtain ⟨f', rfl⟩ : ∃ g, f = g + 1 := ⟨f - 1, by simp at hl; omega⟩
      simp only [findPad, this]

/-- Cutting a flushed file. -/
theorem Inv.truncate (hc : Ok c) {d : Dio} {L : Bytes} (h : Inv c d L) (hf : d.flushedPos = L.length) {n : Nat} (hn : n ≤ L.length) :
    ∃ d', ftruncate c d n = some d' ∧ Inv c d' (L.take n) ∧ d'.flushedPos = n ∧ (d'.file = L.take n ∨ (d' = d ∧ n = L.length)) := by
  have ha := hc.align
  have hfle := h.fle
  have hk := h.kept
  rw [hf, List.take_length] at hk
  unfold ftruncate
  by_cases hle : d.file.length ≤ n
  · rw [if_pos hle]
    have hnl : n = L.length := by omega
    exact ⟨d, rfl, by rw [hnl, List.take_length]; exact h, by omega, Or.inr ⟨rfl, hnl⟩⟩
  · rw [if_neg hle]
    simp only
    have ht : d.file.take n = L.take n := by
      rw [← hk, List.take_take, Nat.min_eq_left hn]
    have htl : (L.take n).length = n := by rw [List.length_take]; exact Nat.min_eq_left hn
    by_cases h0 : n % c.alignSize = 0
    · rw [if_pos h0]
      refine ⟨_, rfl, ⟨h0, hc.pos, ?_, ?_, Nat.le_refl _, ?_, ?_, ?_⟩, rfl, Or.inl ht⟩
      · show n ≤ (d.file.take n).length
        rw [ht, htl]; exact Nat.le_refl _
      · show (d.file.take n).take n ++ [] = _
        rw [ht, List.append_nil, List.take_take, Nat.min_self]
      · show n ≤ _
        rw [htl]; exact Nat.le_refl _
      · show n ≤ (d.file.take n).length
        rw [ht, htl]; exact Nat.le_refl _
      · show (d.file.take n).take n = (L.take n).take n
        rw [ht]
    · rw [if_neg h0]
      have hlt := Nat.mod_lt n (show 0 < c.alignSize by omega)
      have hmle := Nat.mod_le n c.alignSize
      rw [readInternal_tail (file := d.file.take n) (by rw [ht, htl]; omega)]
      have hbuf : c.alignSize ≤ c.bufferSize := by
        by_contra hlt'
        have := Nat.mod_eq_of_lt (Nat.lt_of_not_le hlt')
        have := hc.whole
        have := hc.pos
        omega
      refine ⟨_, rfl, ⟨?_, ?_, ?_, ?_, ?_, ?_, ?_, ?_⟩, rfl, Or.inl ht⟩
      · show (n - n % c.alignSize) % c.alignSize = 0
        have h1 := Nat.div_add_mod n c.alignSize
        have : n - n % c.alignSize = c.alignSize * (n / c.alignSize) := by omega
        rw [this, Nat.mul_mod_right]
      · show ((d.file.take n).drop _).length < _
        rw [List.length_drop, ht, htl]; omega
      · show n - n % c.alignSize ≤ (d.file.take n).length
        rw [ht, htl]; omega
      · show (d.file.take n).take (n - n % c.alignSize) ++ (d.file.take n).drop (n - n % c.alignSize) = _
        rw [List.take_append_drop]; exact ht
      · exact Nat.sub_le _ _
      · show n ≤ _
        rw [htl]; exact Nat.le_refl _
      · show n ≤ (d.file.take n).length
        rw [ht, htl]; exact Nat.le_refl _
      · show (d.file.take n).take n = (L.take n).take n
        rw [ht]

/-- Closing, opening and cutting off the padding. -/
theorem Clean.reopen (hc : Ok c) {cap : Nat} (hcap : c.bufferSize ≤ cap) {co : Option CompOpt} {d : Dio} {es : List Entry}
    (hf : ∀ e ∈ es, e.Fits co) (h : Clean c d (header ++ encAll co es)) :
    ∃ d', reopen c cap d = some d' ∧ Clean c d' (header ++ encAll co es) := by
  generalize hL : header ++ encAll co es = L at h
  have hL12 : 12 ≤ L.length := by rw [← hL, List.length_append]; exact Nat.le_add_right 12 _
  have hd : ¬ d.dirty = true := by
    rw [dirty_iff, h.flushed, h.inv.len]
    intro hh; omega
  unfold Dio.reopen
  rw [flush_clean hd]
  obtain ⟨d1, h1⟩ := openFile_some (c := c) d.file
  obtain ⟨hi, hfile, hfl⟩ := Inv.ofOpen hc h1
  rw [h1]
  simp only
  rw [pread_ok hc hcap (by rw [List.length_replicate]; omega)]
  simp only [List.drop_zero, List.length_replicate]
  have hdl : L.length ≤ d.file.length := by
    rcases h.file with hx | hx
    · rw [hx]; exact Nat.le_refl _
    · rw [hx, List.length_append]; omega
  rw [hfile, List.take_length, if_neg (by omega)]
  have hdrop : ∃ q, (q = [] ∨ q = padding c L.length) ∧ d.file = L ++ q ∧ d.file.drop 12 = encAll co es ++ q := by
    have h12 : ∀ q, (L ++ q).drop 12 = encAll co es ++ q := by
      intro q
      rw [← hL, List.append_assoc]
      exact List.drop_left' rfl
    rcases h.file with hx | hx
    · exact ⟨[], Or.inl rfl, by rw [hx, List.append_nil], by rw [hx]; have := h12 []; rwa [List.append_nil] at this⟩
    · exact ⟨_, Or.inr rfl, hx, by rw [hx]; exact h12 _⟩
  obtain ⟨q, hq, hfq, hdq⟩ := hdrop
  have hpad : ∃ n, q = padding c n := by
    rcases hq with hq | hq
    · exact ⟨0, by rw [hq]; exact (padding_nil (Nat.zero_mod _)).symm⟩
    · exact ⟨_, hq⟩
  obtain ⟨n, hn⟩ := hpad
  have hlen12 : 12 + (encAll co es).length = L.length := by rw [← hL, List.length_append]; rfl
  have hfp := findPad_padding hc hf n 12 (fuel := d.file.length) (by
    rw [← hn, ← hdq, List.length_drop]; omega)
  rw [hdq, hn, hfp]
  by_cases hp : padding c n = []
  · rw [if_pos hp]
    refine ⟨d1, rfl, ?_, ?_, Or.inl ?_⟩
    · rw [hfq, hn, hp, List.append_nil] at hi; exact hi
    · rw [hfl, hfq, hn, hp, List.append_nil]
    · rw [hfile, hfq, hn, hp, List.append_nil]
  · rw [if_neg hp, hlen12]
    obtain ⟨d2, h2, hi2, hfl2, hfile2⟩ := hi.truncate hc hfl hdl
    have hLt : d.file.take L.length = L := by rw [hfq]; exact List.take_left' rfl
    rw [hLt] at hi2 hfile2
    refine ⟨d2, h2, hi2, hfl2, Or.inl ?_⟩
    rcases hfile2 with hx | ⟨-, hx⟩
    · exact hx
    · exfalso
      apply hp
      have := congrArg List.length hfq
      rw [List.length_append, ← hn] at *
      exact List.length_eq_zero_iff.mp (by omega)

theorem Clean.load (hc : Ok c) {cap : Nat} (hcap : c.bufferSize ≤ cap) {co : Option CompOpt} {d : Dio} {es : List Entry}
    (hf : ∀ e ∈ es, e.Fits co) (h : Clean c d (header ++ encAll co es)) :
    loadFile c cap co d.file = some (es.map Entry.item, .ok) := by
  unfold loadFile
  obtain ⟨d1, h1⟩ := openFile_some (c := c) d.file
  obtain ⟨hi, hfile, hfl⟩ := Inv.ofOpen hc h1
  rw [h1]
  simp only
  rw [pread_ok hc hcap (by rw [List.length_replicate, hfile]; omega)]
  simp only [List.drop_zero, List.length_replicate]
  rw [hfile, List.take_length]
  have hld : ∀ n, (12 ≤ ((header ++ encAll co es) ++ padding c n).length) ∧
      LogCodec.load co (((header ++ encAll co es) ++ padding c n).drop 12) = (es.map Entry.item, .ok) := by
    intro n
    constructor
    · rw [List.append_assoc, List.length_append]; exact Nat.le_add_right 12 _
    · rw [List.append_assoc, List.drop_left' (show header.length = 12 from rfl)]
      exact load_padding hc hf n
  rcases h.file with hx | hx
  · have := hld 0
    rw [padding_nil (Nat.zero_mod _), List.append_nil] at this
    rw [hx, if_neg (by omega), this.2]
  · have := hld (header ++ encAll co es).length
    rw [hx, if_neg (by omega), this.2]

/-- Whatever follows, the entries at the start of the file are loaded. -/
theorem load_start (hc : Ok c) {cap : Nat} (hcap : c.bufferSize ≤ cap) {co : Option CompOpt} {file : Bytes} {es : List Entry}
    (hf : ∀ e ∈ es, e.Fits co) (h : file.take (header ++ encAll co es).length = header ++ encAll co es) :
    ∃ items s, loadFile c cap co file = some (es.map Entry.item ++ items, s) := by
  unfold loadFile
  obtain ⟨d1, h1⟩ := openFile_some (c := c) file
  obtain ⟨hi, hfile, hfl⟩ := Inv.ofOpen hc h1
  rw [h1]
  simp only
  rw [pread_ok hc hcap (by rw [List.length_replicate, hfile]; omega)]
  simp only [List.drop_zero, List.length_replicate]
  rw [hfile, List.take_length]
  have hsplit : file = header ++ (encAll co es ++ file.drop (header ++ encAll co es).length) := by
    rw [← List.append_assoc]
    conv_lhs => rw [← List.take_append_drop (header ++ encAll co es).length file, h]
  have hdrop : file.drop 12 = encAll co es ++ file.drop (header ++ encAll co es).length := by
    conv_lhs => rw [hsplit]
    exact List.drop_left' rfl
  have h12 : 12 ≤ file.length := by
    rw [hsplit, List.length_append]; exact Nat.le_add_right 12 _
  rw [if_neg (by omega), hdrop]
  unfold LogCodec.load
  obtain ⟨f, -, he⟩ := loadLoop_append es hf (file.drop (header ++ encAll co es).length) _ (Nat.le_refl _)
  rw [he]
  exact ⟨_, _, rfl⟩

theorem Clean.created (hc : Ok c) (co : Option CompOpt) : ∃ d, create c = some d ∧ Clean c d (header ++ encAll co []) := by
  obtain ⟨d0, h0⟩ := openFile_some (c := c) []
  obtain ⟨hi, hfile, hfl⟩ := Inv.ofOpen hc h0
  refine ⟨flush c (Dio.append c d0 header), by unfold create; rw [h0], ?_⟩
  have hcl : Clean c d0 [] := ⟨hi, hfl, Or.inl hfile⟩
  have := hcl.sync hc [header] (by decide)
  have e : header ++ encAll co [] = [] ++ [header].flatten := by simp [encAll]
  rw [e]
  exact this

end Dio
end Jungle
