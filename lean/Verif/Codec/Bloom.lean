/-
  Bloom filter: src/generic_bitmap.h, src/bloomfilter.cc, and saving and
  loading it in src/table_file.cc.
-/
import Verif.Codec.Endian

namespace Jungle

/-- `GenericBitmap` (src/generic_bitmap.h:30-210).  `bytes` is `myBitmap`,
`numBits` the number of bits.  The single mutex makes `get` and `set` atomic. -/
structure Bitmap where
  numBits : Nat
  bytes : Bytes
deriving DecidableEq

namespace Bitmap

/-- `masks8` (src/generic_bitmap.h:129-137) -/
def masks8 : List UInt8 := [0x80, 0x40, 0x20, 0x10, 0x08, 0x04, 0x02, 0x01]
def mask (offset : Nat) : UInt8 := masks8.getD offset 0

/-- constructor (src/generic_bitmap.h:35-49): zeroes -/
def create (numBits : Nat) : Bitmap := ⟨numBits, List.replicate ((numBits + 7) / 8) 0⟩

/-- `parse`, `getInternal`, `get` (src/generic_bitmap.h:106-112,160-175).
Reading beyond the allocated bytes is undefined: `none`. -/
def get (b : Bitmap) (idx : Nat) : Option Bool :=
  match b.bytes[idx / 8]? with
  | none => none
  | some v => some ((v &&& mask (idx % 8)) != 0)

/-- `setInternal` through `calcTable[prev][offset][1] = prev | mask`
(src/generic_bitmap.h:117-125,151-157,177-185); only `val = true` is used. -/
def set (b : Bitmap) (idx : Nat) : Option Bitmap :=
  match b.bytes[idx / 8]? with
  | none => none
  | some v => some { b with bytes := b.bytes.set (idx / 8) (v ||| mask (idx % 8)) }

end Bitmap

/-- `BloomFilter` (src/bloomfilter.h:27-62). -/
structure Bloom where
  hashCount : Nat
  bitmap : Bitmap
deriving DecidableEq

namespace Bloom

/-- `BloomFilter::BloomFilter(bitmap_size, hash_count)`
(src/bloomfilter.cc:37-40): the size is rounded up to a multiple of 8. -/
def create (size hashCount : Nat) : Bloom := ⟨hashCount, Bitmap.create ((size + 7) / 8 * 8)⟩

/-- `gen_hash` (src/bloomfilter.cc:31-35) in `uint64_t` arithmetic -/
def genHash (idx : Nat) (pair : Nat × Nat) : Nat := (pair.1 + idx * pair.2) % 2 ^ 64

/-- The loop of `set` (src/bloomfilter.cc:51-64), positions `ii ..`.  `% 0` is
undefined behaviour: `none`. -/
def setLoop (pair : Nat × Nat) (bm : Bitmap) : List Nat → Option Bitmap
  | [] => some bm
  | i :: is =>
    if bm.numBits = 0 then none
    else match bm.set (genHash i pair % bm.numBits) with
      | none => none
      | some bm' => setLoop pair bm' is

/-- `BloomFilter::set(hash_pair)` (src/bloomfilter.cc:60-64); `set(data, len)`
(51-58) is the same on the pair the hash function gives. -/
def set (b : Bloom) (pair : Nat × Nat) : Option Bloom :=
  match setLoop pair b.bitmap (List.range b.hashCount) with
  | none => none
  | some bm => some { b with bitmap := bm }

def checkLoop (pair : Nat × Nat) (bm : Bitmap) : List Nat → Option Bool
  | [] => some true
  | i :: is =>
    if bm.numBits = 0 then none
    else match bm.get (genHash i pair % bm.numBits) with
      | none => none
      | some false => some false
      | some true => checkLoop pair bm is

/-- `BloomFilter::check` (src/bloomfilter.cc:66-85) -/
def check (b : Bloom) (pair : Nat × Nat) : Option Bool :=
  checkLoop pair b.bitmap (List.range b.hashCount)

/-- `TableFile::saveBloomFilter` (src/table_file.cc:496-529): the file's bytes,
`none` if nothing is written.  `old` is the previous content of the file
(written over from offset 0). -/
def save (b : Bloom) (old : Bytes) : Option Bytes :=
  if b.bitmap.numBits = 0 then none
  else
    let out := be 4 0 ++ be 4 (b.bitmap.numBits / 8) ++ b.bitmap.bytes.take (b.bitmap.numBits / 8)
    some (out ++ old.drop out.length)

/-- `TableFile::loadBloomFilter` (src/table_file.cc:446-494).  `none`: no
filter is used.  A file shorter than its header or than the recorded length
makes `pread` fail. -/
def load (file : Bytes) : Option Bloom :=
  if file.length = 0 then none
  else match getU 4 file with
    | none => none
    | some (_, r) => match getU 4 r with
      | none => none
      | some (n, r') =>
        if r'.length < n then none
        else some ⟨3, ⟨8 * r'.length, r'.take n ++ List.replicate (r'.length - n) 0⟩⟩

/-- A history of additions; hash pairs stand for keys. -/
def addAll (b : Bloom) : List (Nat × Nat) → Option Bloom
  | [] => some b
  | p :: ps => match b.set p with
    | none => none
    | some b' => addAll b' ps

end Bloom

/-! ## Lemmas -/

namespace Bitmap

/-- bitmap whose bits are all backed by memory -/
def Ok (b : Bitmap) : Prop := b.numBits ≤ 8 * b.bytes.length

theorem create_ok (n : Nat) : (create n).Ok := by
  simp only [Ok, create, List.length_replicate]; omega

theorem mask_self (o : Nat) (h : o < 8) (v : UInt8) : (v ||| mask o) &&& mask o ≠ 0 := by
  have : ∀ o : Fin 8, mask o.val ≠ 0 := by decide
  have h2 := this ⟨o, h⟩
  intro hz
  apply h2
  have : (v ||| mask o) &&& mask o = mask o := by
    generalize mask o = m
    apply UInt8.toBitVec_inj.1
    ext i hi
    simp
    intro h; exact Or.inr h
  rw [← this, hz]

theorem mask_keep (o o' : Nat) (v : UInt8) (h : v &&& mask o ≠ 0) : (v ||| mask o') &&& mask o ≠ 0 := by
  intro hz
  apply h
  have : (v ||| mask o') &&& mask o = (v &&& mask o) ||| (mask o' &&& mask o) := by
    apply UInt8.toBitVec_inj.1
    ext i hi
    simp only [UInt8.toBitVec_and, UInt8.toBitVec_or, BitVec.getElem_and, BitVec.getElem_or]
    cases (v.toBitVec[i]) <;> cases ((mask o').toBitVec[i]) <;> cases ((mask o).toBitVec[i]) <;> rfl
  rw [this] at hz
  apply UInt8.toBitVec_inj.1
  ext i hi
  have h2 := congrArg (fun x : UInt8 => x.toBitVec[i]) hz
  simp only [UInt8.toBitVec_or, BitVec.getElem_or] at h2
  have h3 : (0 : UInt8).toBitVec[i] = false := by simp
  rw [h3] at h2
  rw [h3]
  exact (Bool.or_eq_false_iff.1 h2).1

theorem set_some {b : Bitmap} (hb : b.Ok) {i : Nat} (hi : i < b.numBits) :
    ∃ b', b.set i = some b' ∧ b'.Ok ∧ b'.numBits = b.numBits ∧ b'.get i = some true ∧
      b'.bytes.length = b.bytes.length ∧ ∀ j, b.get j = some true → b'.get j = some true := by
  have hlt : i / 8 < b.bytes.length := by unfold Ok at hb; omega
  unfold set
  rw [List.getElem?_eq_getElem hlt]
  refine ⟨_, rfl, ?_, rfl, ?_, by simp, ?_⟩
  · simpa [Ok] using hb
  · simp only [get, List.getElem?_set_self hlt]
    have := mask_self (i % 8) (by omega) b.bytes[i / 8]
    simpa using this
  · intro j hj
    simp only [get] at hj ⊢
    by_cases he : i / 8 = j / 8
    · rw [← he] at hj ⊢
      rw [List.getElem?_eq_getElem hlt] at hj
      rw [List.getElem?_set_self hlt]
      simp only [Option.some.injEq, bne_iff_ne] at hj ⊢
      exact mask_keep _ _ _ hj
    · rw [List.getElem?_set_ne he]; exact hj

end Bitmap

namespace Bloom

def Ok (b : Bloom) : Prop := b.bitmap.Ok ∧ 0 < b.bitmap.numBits

theorem setLoop_some (pair : Nat × Nat) : ∀ (is : List Nat) (bm : Bitmap), bm.Ok → 0 < bm.numBits →
    ∃ bm', setLoop pair bm is = some bm' ∧ bm'.Ok ∧ bm'.numBits = bm.numBits ∧ bm'.bytes.length = bm.bytes.length ∧
      (∀ i ∈ is, bm'.get (genHash i pair % bm.numBits) = some true) ∧
      ∀ j, bm.get j = some true → bm'.get j = some true := by
  intro is
  induction is with
  | nil => intro bm h _; exact ⟨bm, rfl, h, rfl, rfl, by simp, fun _ h => h⟩
  | cons i is ih =>
    intro bm hok hpos
    obtain ⟨b1, e1, ok1, n1, g1, l1, k1⟩ := Bitmap.set_some hok (Nat.mod_lt (genHash i pair) hpos)
    obtain ⟨b2, e2, ok2, n2, l2, g2, k2⟩ := ih b1 ok1 (by omega)
    refine ⟨b2, ?_, ok2, by omega, by omega, ?_, fun j h => k2 j (k1 j h)⟩
    · rw [setLoop, if_neg (by omega), e1]; exact e2
    · intro x hx
      rcases List.mem_cons.1 hx with rfl | hx
      · exact k2 _ g1
      · have := g2 x hx
        rwa [n1] at this

theorem checkLoop_true (pair : Nat × Nat) (bm : Bitmap) (hpos : 0 < bm.numBits) : ∀ is : List Nat,
    (∀ i ∈ is, bm.get (genHash i pair % bm.numBits) = some true) → checkLoop pair bm is = some true := by
  intro is
  induction is with
  | nil => intro _; rfl
  | cons i is ih =>
    intro h
    rw [checkLoop, if_neg (by omega), h i (by simp)]
    exact ih fun j hj => h j (List.mem_cons_of_mem _ hj)

theorem checkLoop_mono (pair : Nat × Nat) (bm bm' : Bitmap) (hn : bm'.numBits = bm.numBits)
    (hk : ∀ j, bm.get j = some true → bm'.get j = some true) : ∀ is : List Nat,
    checkLoop pair bm is = some true → checkLoop pair bm' is = some true := by
  intro is
  induction is with
  | nil => intro _; rfl
  | cons i is ih =>
    intro h
    rw [checkLoop] at h ⊢
    rw [hn]
    split at h
    · cases h
    · next hz =>
      rw [if_neg hz]
      cases hg : bm.get (genHash i pair % bm.numBits) with
      | none => rw [hg] at h; cases h
      | some v =>
        rw [hg] at h
        cases v with
        | false => cases h
        | true => rw [hk _ hg]; exact ih h

theorem set_spec {b : Bloom} (hb : b.Ok) (p : Nat × Nat) :
    ∃ b', b.set p = some b' ∧ b'.Ok ∧ b'.hashCount = b.hashCount ∧ b'.bitmap.numBits = b.bitmap.numBits ∧
      b'.bitmap.bytes.length = b.bitmap.bytes.length ∧
      b'.check p = some true ∧ ∀ q, b.check q = some true → b'.check q = some true := by
  obtain ⟨bm, e, ok, n, ln, g, k⟩ := setLoop_some p (List.range b.hashCount) b.bitmap hb.1 hb.2
  refine ⟨{ b with bitmap := bm }, ?_, ⟨ok, by simpa only [n] using hb.2⟩, rfl, n, ln, ?_, ?_⟩
  · rw [set, e]
  · refine checkLoop_true p bm (by rw [n]; exact hb.2) _ ?_
    rw [n]; exact g
  · intro q hq
    exact checkLoop_mono q b.bitmap bm n k _ hq

theorem addAll_spec : ∀ (ps : List (Nat × Nat)) (b : Bloom), b.Ok →
    ∃ b', b.addAll ps = some b' ∧ b'.Ok ∧ b'.hashCount = b.hashCount ∧
      b'.bitmap.numBits = b.bitmap.numBits ∧ b'.bitmap.bytes.length = b.bitmap.bytes.length ∧
      (∀ p ∈ ps, b'.check p = some true) ∧ ∀ q, b.check q = some true → b'.check q = some true := by
  intro ps
  induction ps with
  | nil => intro b hb; exact ⟨b, rfl, hb, rfl, rfl, rfl, by simp, fun _ h => h⟩
  | cons p ps ih =>
    intro b hb
    obtain ⟨b1, e1, ok1, c1, n1, l1, g1, k1⟩ := set_spec hb p
    obtain ⟨b2, e2, ok2, c2, n2, l2, g2, k2⟩ := ih b1 ok1
    refine ⟨b2, ?_, ok2, by omega, by omega, by omega, ?_, fun q h => k2 q (k1 q h)⟩
    · rw [addAll, e1]; exact e2
    · intro q hq
      rcases List.mem_cons.1 hq with rfl | hq
      · exact k2 _ g1
      · exact g2 q hq

theorem create_spec (size hc : Nat) : (create size hc).bitmap.numBits = (size + 7) / 8 * 8 ∧
    (create size hc).bitmap.numBits = 8 * (create size hc).bitmap.bytes.length ∧
    (create size hc).bitmap.Ok ∧ (create size hc).hashCount = hc := by
  refine ⟨rfl, ?_, Bitmap.create_ok _, rfl⟩
  simp only [create, Bitmap.create, List.length_replicate]; omega

theorem load_save {b : Bloom} (hc : b.hashCount = 3) (hex : b.bitmap.numBits = 8 * b.bitmap.bytes.length)
    (hpos : 0 < b.bitmap.numBits) (hsz : b.bitmap.bytes.length < 2 ^ 32) {old : Bytes}
    (hold : old.length = 0 ∨ old.length = 8 + b.bitmap.bytes.length) :
    ∃ f, b.save old = some f ∧ load f = some b := by
  have e8 : b.bitmap.numBits / 8 = b.bitmap.bytes.length := by omega
  have hout : (be 4 0 ++ be 4 b.bitmap.bytes.length ++ b.bitmap.bytes).length = 8 + b.bitmap.bytes.length := by
    simp; omega
  refine ⟨be 4 0 ++ be 4 b.bitmap.bytes.length ++ b.bitmap.bytes, ?_, ?_⟩
  · unfold save
    rw [if_neg (by omega), e8, List.take_length]
    simp only [hout]
    rw [List.drop_eq_nil_of_le (by omega), List.append_nil]
  · unfold load
    rw [hout, if_neg (by omega), List.append_assoc, getU_be (by omega)]
    simp only []
    rw [getU_be (by simpa using hsz)]
    simp only [Nat.lt_irrefl, if_false, List.take_length, Nat.sub_self, List.replicate_zero, List.append_nil]
    rw [← hex, ← hc]

end Bloom

end Jungle
