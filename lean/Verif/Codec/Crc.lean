/-
  Model of src/crc32.cc, and CRC-32 as a bit-serial register (the specification).
-/
import Verif.Basic
import Verif.Codec.CrcTable

namespace Jungle.Crc

/-- A 32-bit word. -/
abbrev W := BitVec 32

/-- `crc_lookup[k]` as words. -/
def tab : Nat → List W
  | 0 => lookup0.map (BitVec.ofNat 32)
  | 1 => lookup1.map (BitVec.ofNat 32)
  | 2 => lookup2.map (BitVec.ofNat 32)
  | 3 => lookup3.map (BitVec.ofNat 32)
  | 4 => lookup4.map (BitVec.ofNat 32)
  | 5 => lookup5.map (BitVec.ofNat 32)
  | 6 => lookup6.map (BitVec.ofNat 32)
  | _ => lookup7.map (BitVec.ofNat 32)

/-- `crc_lookup[k][i]`. -/
def look (k : Nat) (i : W) : W := (tab k).getD i.toNat 0

/-- A byte as a word. -/
def w8 (b : UInt8) : W := BitVec.ofNat 32 b.toNat

/-- Loop body of `crc32_1` (src/crc32.cc:325) and of the tail loop of `crc32_8` (367-369). -/
def step1 (crc : W) (b : UInt8) : W := (crc >>> 8) ^^^ look 0 ((crc &&& 0xff#32) ^^^ w8 b)

/-- `crc32_1` (src/crc32.cc:320-329). -/
def crc32_1 (data : Bytes) (prev : W) : W := ~~~ (data.foldl step1 (~~~ prev))

/-- Four bytes read as a little-endian `uint32_t` (`*cur++`, src/crc32.cc:352-353). -/
def le32 (a b c d : UInt8) : W := w8 a ^^^ (w8 b <<< 8) ^^^ (w8 c <<< 16) ^^^ (w8 d <<< 24)

/-- One round of the loop of `crc32_8` (src/crc32.cc:352-363). -/
def round8 (crc : W) (b0 b1 b2 b3 b4 b5 b6 b7 : UInt8) : W :=
  let one := le32 b0 b1 b2 b3 ^^^ crc
  let two := le32 b4 b5 b6 b7
  look 7 (one &&& 0xff#32) ^^^ look 6 ((one >>> 8) &&& 0xff#32) ^^^
  look 5 ((one >>> 16) &&& 0xff#32) ^^^ look 4 ((one >>> 24) &&& 0xff#32) ^^^
  look 3 (two &&& 0xff#32) ^^^ look 2 ((two >>> 8) &&& 0xff#32) ^^^
  look 1 ((two >>> 16) &&& 0xff#32) ^^^ look 0 ((two >>> 24) &&& 0xff#32)

/-- The two loops of `crc32_8` (src/crc32.cc:335-369), little-endian build. -/
def loop8 (crc : W) : Bytes → W
  | b0 :: b1 :: b2 :: b3 :: b4 :: b5 :: b6 :: b7 :: rest =>
      loop8 (round8 crc b0 b1 b2 b3 b4 b5 b6 b7) rest
  | rest => rest.foldl step1 crc

/-- `crc32_8` (src/crc32.cc:331-372). -/
def crc32_8 (data : Bytes) (prev : W) : W := ~~~ (loop8 (~~~ prev) data)

/-! Specification: the CRC-32 shift register (polynomial 0x04C11DB7, bits reversed). -/

/-- one bit -/
def bit (c : W) : W := if c.getLsbD 0 then (c >>> 1) ^^^ 0xEDB88320#32 else c >>> 1

/-- eight bits -/
def oct (c : W) : W := bit (bit (bit (bit (bit (bit (bit (bit c)))))))

/-- the register after one byte -/
def feed (c : W) (b : UInt8) : W := oct (c ^^^ w8 b)

/-- CRC-32 of a byte string, continuing from `prev`. -/
def spec (data : Bytes) (prev : W) : W := ~~~ (data.foldl feed (~~~ prev))

end Jungle.Crc
