/-
  Checksums and log files: C35, C10, C09, C11.
-/
import Verif.Codec.CorruptLemmas

namespace Jungle
open Crc LogCodec

/-! ### C35 -/

/-- C35: the eight-bytes-at-a-time CRC, the byte-at-a-time CRC and the CRC-32 shift register
    agree on every input and starting value. -/
theorem C35_crc_correct (data : Bytes) (prev : W) :
    crc32_8 data prev = crc32_1 data prev ∧ crc32_8 data prev = Crc.spec data prev := by
  rw [crc32_8_eq_spec, crc32_1_eq_spec]; exact ⟨rfl, rfl⟩

/-- C35: checksumming in pieces. -/
theorem C35_crc_chains (a b : Bytes) (prev : W) :
    crc32_8 (a ++ b) prev = crc32_8 b (crc32_8 a prev) := by
  simp only [crc32_8_eq_spec, spec_append]

/-- the CRC-32 check value of "123456789" -/
example : crc32_8 [0x31, 0x32, 0x33, 0x34, 0x35, 0x36, 0x37, 0x38, 0x39] 0#32 = 0xCBF43926#32 := by
  decide +kernel

/-! ### C10 -/

/-- C10: whatever is written to a log file, loading it gives back exactly that, in order:
    records with type, number, key, metadata and (decompressed) value, and the markers. -/
theorem C10_log_round_trip (co : Option CompOpt) (es : List Entry) (hf : ∀ e ∈ es, e.Fits co) :
    load co (encAll co es) = (es.map Entry.item, .ok) := load_encAll hf

/-- Different records are loaded as different items, so the item determines the record. -/
theorem C10_item_faithful (r r' : Rec Bytes) (h : (Entry.record r).item = (Entry.record r').item) : r = r' := by
  unfold Entry.item at h
  injection h with h1 h2 h3 h4 h5
  have ht : r.type = r'.type := by revert h1; cases r.type <;> cases r'.type <;> decide
  cases r; cases r'; simp_all

/-! ### C09 -/

/-- C09: if only a prefix `p` of the bytes of a log file survives, loading recovers exactly the
    entries that are completely contained in `p`: a prefix of what was written, unchanged and in
    order; the status tells whether something was cut off. -/
theorem C09_recovers_prefix (co : Option CompOpt) (es : List Entry) (hf : ∀ e ∈ es, e.Fits co) (p : Bytes)
    (hp : p <+: encAll co es) :
    ∃ k, k ≤ es.length ∧ (load co p).1 = (es.take k).map Entry.item ∧
      encAll co (es.take k) <+: p ∧ (∀ j, encAll co (es.take j) <+: p → es.take j <+: es.take k) ∧
      ((load co p).2 = .ok ↔ p = encAll co (es.take k)) ∧
      ((load co p).2 ≠ .ok → (load co p).2 = .incompleteLog) := by
  obtain ⟨k, hk, h1, h2, h3⟩ := load_prefix hf hp
  refine ⟨k, hk, ?_, h1, h2, ?_, ?_⟩
  · rcases h3 with ⟨h, -⟩ | ⟨h, -⟩ <;> rw [h]
  · rcases h3 with ⟨h, e⟩ | ⟨h, e⟩
    · rw [h]; exact ⟨fun _ => e, fun _ => rfl⟩
    · rw [h]; exact ⟨fun hh => by simp at hh, fun hh => absurd hh e⟩
  · rcases h3 with ⟨h, -⟩ | ⟨h, -⟩ <;> rw [h] <;> simp

/-! ### C11 -/

/-- C11, partial: if one byte of a stored record behind its eight flag bytes is altered, then
    loading returns the entries before that record and an error, and nothing of the altered record
    or after it; the error is CHECKSUM_ERROR unless the value is compressed (in which case the
    decompression may fail first).  Missing: the flag bytes, for which the claim is false of the
    code (`C11_flags_violation`). -/
theorem C11_corruption_detected_partial (co : Option CompOpt) (es : List Entry) (hf : ∀ e ∈ es, e.Fits co)
    (r : Rec Bytes) (hr : LogCodec.Fits co r) (i : Nat) (h8 : 8 ≤ i) (hi : i < (encRec co r).length) (b : UInt8)
    (hb : (encRec co r)[i] ≠ b) (post : Bytes) :
    ∃ s, s ≠ .ok ∧ load co (encAll co es ++ ((encRec co r).set i b ++ post)) = (es.map Entry.item, s) ∧
      (compressed co r = none → s = .checksumError) := by
  have hlen := encRec_eq co r
  have hj : i - 8 < (recBytes co r).length := by rw [hlen] at hi; simp at hi; omega
  have hset : (encRec co r).set i b = be 8 (recFlags co r) ++ (recBytes co r).set (i - 8) b := by
    rw [hlen, List.set_append, if_neg (by simp; omega)]; simp
  have hb' : (recBytes co r)[i - 8] ≠ b := by
    have : (encRec co r)[i] = (recBytes co r)[i - 8] := by
      simp only [hlen]; rw [List.getElem_append_right (by simp; omega)]; simp
    rw [← this]; exact hb
  obtain ⟨⟨s, hs, h1⟩, h2⟩ := loadRec_altered hr hj hb' post
  obtain ⟨fuel, hfu, hl⟩ := loadLoop_append es hf ((encRec co r).set i b ++ post)
    (encAll co es ++ ((encRec co r).set i b ++ post)).length (Nat.le_refl _)
  have hpiece : loadPiece co ((encRec co r).set i b ++ post) = .stop s := by
    have hfl := flags_lt co r
    unfold loadPiece
    rw [hset, List.append_assoc, getU_be (by omega)]
    have h0 : recFlags co r / 2 ^ 56 = 0 := by omega
    simp only [h0, h1]
  have hloop : loadLoop co fuel ((encRec co r).set i b ++ post) = ([], s) := by
    cases hx : (encRec co r).set i b ++ post with
    | nil => have := congrArg List.length hx; simp only [List.length_append, List.length_set, List.length_nil] at this; omega
    | cons c cs =>
      have hlx : cs.length + 1 ≤ fuel := by
        have := congrArg List.length hx
        rw [List.length_cons] at this
        omega
      obtain ⟨f', rfl⟩ : ∃ f, fuel = f + 1 := ⟨fuel - 1, by omega⟩
      simp only [loadLoop, ← hx, hpiece]
  refine ⟨s, hs, ?_, ?_⟩
  · unfold load; rw [hl, hloop]; simp
  · intro hc
    have := h2 hc
    rw [h1] at this
    exact Except.error.inj this

namespace Example
def wr : Rec Bytes := { seq := 7, type := .insertion, key := [1, 2], umeta := [3], val := [4, 5, 6] }
def wd : Rec Bytes := { seq := 8, type := .deletion, key := [1, 2] }
def wfile : List Entry := [.record wr, .chkMark 7, .record wd, .flushMark 8]
theorem wfits : ∀ e ∈ wfile, e.Fits none := by
  intro e he
  simp only [wfile, List.mem_cons, List.not_mem_nil, or_false] at he
  rcases he with rfl | rfl | rfl | rfl
  · exact ⟨by decide, by decide, by decide, by decide, by decide, by intro c hc; cases hc⟩
  · exact (by decide : 7 < 2 ^ 64)
  · exact ⟨by decide, by decide, by decide, by decide, by decide, by intro c hc; cases hc⟩
  · exact (by decide : 8 < 2 ^ 64)

/-- a compressing configuration: a value is stored without its first byte, which is always 9 -/
def comp : CompOpt := { compress := fun r => if r.val.length = 3 ∧ r.val.head? = some 9 then r.val.drop 1 else [],
                        decompress := fun b => 9 :: b }
def wc : Rec Bytes := { seq := 9, type := .insertion, key := [1], val := [9, 5, 6] }
theorem cfits : (Entry.record wc).Fits (some comp) :=
  ⟨by decide, by decide, by decide, by decide, by decide, by intro c hc _ _; cases hc; decide⟩
end Example

/-- C10 on a file with a compressed record -/
example : load (some Example.comp) (encAll (some Example.comp) [.record Example.wc]) =
    ([.record 0 9 [1] [] [9, 5, 6]], .ok) :=
  C10_log_round_trip _ _ (by intro e he; simp at he; subst he; exact Example.cfits)
example : compressed (some Example.comp) Example.wc = some [5, 6] := by decide

/-- C09 on a file cut in its second record -/
example : load none ((encAll none Example.wfile).take 70) =
    ([.record 0 7 [1, 2] [3] [4, 5, 6], .chkMark 7], .incompleteLog) := by decide +kernel

/-- C11 on an altered value byte -/
example : ∃ s, s ≠ .ok ∧
    load none (encAll none [.chkMark 3] ++ ((encRec none Example.wr).set 40 77 ++ [])) = ([.chkMark 3], s) ∧
    (compressed none Example.wr = none → s = .checksumError) :=
  C11_corruption_detected_partial none [.chkMark 3]
    (by intro e he; simp at he; subst he; exact (by decide : 3 < 2 ^ 64)) Example.wr
    (Example.wfits (.record Example.wr) (by simp [Example.wfile])) 40 (by decide) (by decide) 77 (by decide) []

/-- The code breaks C11 for the flag bytes, which no checksum covers: altering the eighth byte
    of a record turns an insertion into a deletion, and the load succeeds
    (src/memtable.cc:182-184,793-929). -/
theorem C11_flags_violation :
    ∃ (r : Rec Bytes) (b : UInt8), r.type = .insertion ∧ (encRec none r)[7]! ≠ b ∧
      load none ((encRec none r).set 7 b) =
        ([.record (typeFlag .deletion) r.seq r.key r.umeta r.val], .ok) :=
  ⟨Example.wr, 1, rfl, by decide, by decide +kernel⟩

end Jungle
