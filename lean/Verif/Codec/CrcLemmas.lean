/-
  The table-driven CRC equals the bit-serial one; the register step is injective.
-/
import Verif.Codec.Crc

namespace Jungle.Crc

set_option maxRecDepth 100000

/-! The table, entry by entry. -/

theorem tab0 : tab 0 = (List.range 256).map (fun i => oct (BitVec.ofNat 32 i)) := by decide +kernel
theorem tab1 : tab 1 = (tab 0).map oct := by decide +kernel
theorem tab2 : tab 2 = (tab 1).map oct := by decide +kernel
theorem tab3 : tab 3 = (tab 2).map oct := by decide +kernel
theorem tab4 : tab 4 = (tab 3).map oct := by decide +kernel
theorem tab5 : tab 5 = (tab 4).map oct := by decide +kernel
theorem tab6 : tab 6 = (tab 5).map oct := by decide +kernel
theorem tab7 : tab 7 = (tab 6).map oct := by decide +kernel

/-! Linearity. -/

theorem bit_xor (a b : W) : bit (a ^^^ b) = bit a ^^^ bit b := by
  unfold bit
  rw [BitVec.getLsbD_xor, BitVec.ushiftRight_xor_distrib]
  cases ha : a.getLsbD 0 <;> cases hb : b.getLsbD 0 <;> simp
  · rw [BitVec.xor_assoc]
  · ac_rfl
  · calc a >>> 1 ^^^ b >>> 1 = a >>> 1 ^^^ b >>> 1 ^^^ (0xEDB88320#32 ^^^ 0xEDB88320#32) := by simp
      _ = _ := by ac_rfl

theorem oct_xor (a b : W) : oct (a ^^^ b) = oct a ^^^ oct b := by
  unfold oct; simp only [bit_xor]

theorem bit_zero : bit 0#32 = 0#32 := by decide
theorem oct_zero : oct 0#32 = 0#32 := by decide

/-- eight steps on a word whose low byte is zero are a shift -/
theorem bit_shl (x : W) (n : Nat) (h : x <<< (n + 1) >>> (n + 1) = x) :
    bit (x <<< (n + 1)) = x <<< n := by
  unfold bit
  have h0 : (x <<< (n + 1)).getLsbD 0 = false := by simp
  rw [h0]
  simp only [Bool.false_eq_true, if_false]
  apply BitVec.eq_of_getLsbD_eq
  intro i hi
  simp only [BitVec.getLsbD_ushiftRight, BitVec.getLsbD_shiftLeft]
  by_cases h1 : 1 + i < 32
  · by_cases h2 : i < n
    · simp [h2]; omega
    · have e : 1 + i - (n + 1) = i - n := by omega
      rw [e]
      have h3 : ¬ (1 + i < n + 1) := by omega
      simp [h1, hi, h2, h3]
  · have : i = 31 := by omega
    subst this
    have h4 := congrArg (fun y : W => y.getLsbD (31 - n)) h
    simp only [BitVec.getLsbD_ushiftRight, BitVec.getLsbD_shiftLeft] at h4
    by_cases h5 : n ≤ 31
    · have : ¬ (n + 1 + (31 - n) < 32) := by omega
      simp [this] at h4
      simp [h4]
    · simp; omega

theorem w8_toNat (b : UInt8) : (w8 b).toNat = b.toNat := by
  unfold w8
  simp

theorem oct_shl8 (x : W) (h : x.toNat < 2 ^ 24) : oct (x <<< 8) = x := by
  have key : ∀ n, n ≤ 7 → x <<< (n + 1) >>> (n + 1) = x := by
    intro n hn
    apply BitVec.eq_of_toNat_eq
    have hp : (2:Nat) ^ (n+1) ≤ 2 ^ 8 := Nat.pow_le_pow_right (by decide) (by omega)
    have : x.toNat * 2 ^ (n + 1) < 2 ^ 32 := by
      calc x.toNat * 2 ^ (n+1) ≤ x.toNat * 2 ^ 8 := Nat.mul_le_mul_left _ hp
        _ < 2 ^ 32 := by omega
    simp only [BitVec.toNat_ushiftRight, BitVec.toNat_shiftLeft, Nat.shiftLeft_eq, Nat.shiftRight_eq_div_pow]
    rw [Nat.mod_eq_of_lt this, Nat.mul_div_cancel _ (Nat.two_pow_pos _)]
  unfold oct
  rw [bit_shl x 7 (key 7 (by omega)), bit_shl x 6 (key 6 (by omega)), bit_shl x 5 (key 5 (by omega)),
    bit_shl x 4 (key 4 (by omega)), bit_shl x 3 (key 3 (by omega)), bit_shl x 2 (key 2 (by omega)),
    bit_shl x 1 (key 1 (by omega)), bit_shl x 0 (key 0 (by omega))]
  simp

/-- a word is its low byte and the rest -/
theorem split_low (c : W) : c = (c &&& 0xff#32) ^^^ ((c >>> 8) <<< 8) := by
  apply BitVec.eq_of_getLsbD_eq
  intro i hi
  have hff : (255#32).getLsbD i = decide (i < 8) := by
    have : ∀ j, j < 32 → (255#32).getLsbD j = decide (j < 8) := by decide
    exact this i hi
  simp only [BitVec.getLsbD_xor, BitVec.getLsbD_and, BitVec.getLsbD_shiftLeft, BitVec.getLsbD_ushiftRight, hff]
  by_cases h : i < 8
  · simp [h]
  · have : 8 + (i - 8) = i := by omega
    simp [h, hi, this]

theorem shr8_lt (c : W) : (c >>> 8).toNat < 2 ^ 24 := by
  have := c.isLt
  simp only [BitVec.toNat_ushiftRight, Nat.shiftRight_eq_div_pow]
  omega

theorem oct_split (c : W) : oct c = oct (c &&& 0xff#32) ^^^ (c >>> 8) := by
  conv => lhs; rw [split_low c]
  rw [oct_xor, oct_shl8 _ (shr8_lt c)]

theorem and255_toNat (c : W) : (c &&& 0xff#32).toNat = c.toNat % 256 := by
  rw [BitVec.toNat_and]
  exact Nat.and_two_pow_sub_one_eq_mod c.toNat 8

theorem and255_lt (c : W) : (c &&& 0xff#32).toNat < 256 := by
  rw [and255_toNat]; exact Nat.mod_lt _ (by decide)

/-- reading an entry of the first table -/
theorem look0 {i : W} (h : i.toNat < 256) : look 0 i = oct i := by
  unfold look
  rw [tab0, List.getD_eq_getElem?_getD, List.getElem?_map, List.getElem?_range h]
  simp

theorem look_map {j k : Nat} (ht : tab k = (tab j).map oct) (i : W) : look k i = oct (look j i) := by
  unfold look
  rw [ht, List.getD_eq_getElem?_getD, List.getD_eq_getElem?_getD, List.getElem?_map]
  cases (tab j)[i.toNat]? with
  | none => simp [oct_zero]
  | some x => rfl

theorem xor_lt {a b : W} (ha : a.toNat < 256) (hb : b.toNat < 256) : (a ^^^ b).toNat < 256 := by
  rw [BitVec.toNat_xor]; exact Nat.xor_lt_two_pow (n := 8) ha hb

theorem w8_lt (b : UInt8) : (w8 b).toNat < 256 := by rw [w8_toNat]; exact b.toNat_lt

theorem step1_eq (c : W) (b : UInt8) : step1 c b = feed c b := by
  unfold step1 feed
  rw [look0 (xor_lt (and255_lt c) (w8_lt b)), oct_xor, oct_xor, oct_split c]
  ac_rfl

theorem crc32_1_eq_spec (data : Bytes) (prev : W) : crc32_1 data prev = spec data prev := by
  unfold crc32_1 spec
  congr 1
  generalize ~~~ prev = c
  induction data generalizing c with
  | nil => rfl
  | cons b bs ih => rw [List.foldl_cons, List.foldl_cons, step1_eq, ih]

/-- `n` rounds of eight bits -/
def octN : Nat → W → W
  | 0, c => c
  | n + 1, c => oct (octN n c)

theorem octN_xor (n : Nat) (a b : W) : octN n (a ^^^ b) = octN n a ^^^ octN n b := by
  induction n with
  | zero => rfl
  | succ n ih => show oct _ = _; rw [ih, oct_xor]; rfl

theorem octN_oct (n : Nat) (a : W) : octN n (oct a) = oct (octN n a) := by
  induction n with
  | zero => rfl
  | succ n ih => show oct _ = _; rw [ih]; rfl

theorem look_octN (k : Nat) (hk : k ≤ 7) {i : W} (h : i.toNat < 256) : look k i = octN (k + 1) i := by
  have h0 : look 0 i = octN 1 i := look0 h
  have h1 : look 1 i = octN 2 i := by rw [look_map tab1, h0]; rfl
  have h2 : look 2 i = octN 3 i := by rw [look_map tab2, h1]; rfl
  have h3 : look 3 i = octN 4 i := by rw [look_map tab3, h2]; rfl
  have h4 : look 4 i = octN 5 i := by rw [look_map tab4, h3]; rfl
  have h5 : look 5 i = octN 6 i := by rw [look_map tab5, h4]; rfl
  have h6 : look 6 i = octN 7 i := by rw [look_map tab6, h5]; rfl
  have h7 : look 7 i = octN 8 i := by rw [look_map tab7, h6]; rfl
  match k, hk with
  | 0, _ => exact h0
  | 1, _ => exact h1
  | 2, _ => exact h2
  | 3, _ => exact h3
  | 4, _ => exact h4
  | 5, _ => exact h5
  | 6, _ => exact h6
  | 7, _ => exact h7

/-- Four rounds on a word are given by its four bytes. -/
theorem octN_bytes (n : Nat) (x : W) : octN (n + 4) x =
    octN (n + 4) (x &&& 0xff#32) ^^^ octN (n + 3) ((x >>> 8) &&& 0xff#32) ^^^
    octN (n + 2) ((x >>> 16) &&& 0xff#32) ^^^ octN (n + 1) ((x >>> 24) &&& 0xff#32) := by
  have e : ∀ (m : Nat) (y : W), octN (m + 1) y = octN (m + 1) (y &&& 0xff#32) ^^^ octN m (y >>> 8) := by
    intro m y
    show oct _ = oct _ ^^^ _
    rw [← octN_oct, ← octN_oct, oct_split y, octN_xor]
  have s1 : x >>> 8 >>> 8 = x >>> 16 := by rw [← BitVec.shiftRight_add]
  have s2 : x >>> 16 >>> 8 = x >>> 24 := by rw [← BitVec.shiftRight_add]
  have s3 : x >>> 24 >>> 8 = 0#32 := by
    rw [← BitVec.shiftRight_add]
    apply BitVec.eq_of_toNat_eq
    have := x.isLt
    simp only [BitVec.toNat_ushiftRight, Nat.shiftRight_eq_div_pow, BitVec.toNat_ofNat]
    omega
  have z : ∀ m, octN m 0#32 = 0#32 := by
    intro m
    induction m with
    | zero => rfl
    | succ m ih => show oct _ = _; rw [ih, oct_zero]
  rw [e (n + 3) x, e (n + 2) (x >>> 8), s1, e (n + 1) (x >>> 16), s2, e n (x >>> 24), s3, z, BitVec.xor_zero]
  ac_rfl

theorem w8_shl (b : UInt8) : oct (w8 b <<< 8) = w8 b := by
  apply oct_shl8
  have := w8_lt b
  omega

theorem shl_lt (b : UInt8) (n : Nat) (h : n ≤ 16) : (w8 b <<< n).toNat < 2 ^ 24 := by
  have := w8_lt b
  rw [BitVec.toNat_shiftLeft, Nat.shiftLeft_eq]
  have hp : (2:Nat) ^ n ≤ 2 ^ 16 := Nat.pow_le_pow_right (by decide) h
  have : (w8 b).toNat * 2 ^ n < 2 ^ 24 := by
    calc (w8 b).toNat * 2 ^ n ≤ (w8 b).toNat * 2 ^ 16 := Nat.mul_le_mul_left _ hp
      _ < 2 ^ 24 := by omega
  exact Nat.lt_of_le_of_lt (Nat.mod_le _ _) this

/-- Feeding four bytes is four rounds on the register xor the little-endian word. -/
theorem feed4 (c : W) (a b d e : UInt8) :
    feed (feed (feed (feed c a) b) d) e = octN 4 (c ^^^ le32 a b d e) := by
  have h2 : ∀ (x : UInt8), oct (oct (w8 x <<< 16)) = w8 x := by
    intro x
    have : w8 x <<< 16 = (w8 x <<< 8) <<< 8 := by rw [← BitVec.shiftLeft_add]
    rw [this, oct_shl8 _ (shl_lt x 8 (by omega)), w8_shl]
  have h3 : ∀ (x : UInt8), oct (oct (oct (w8 x <<< 24))) = w8 x := by
    intro x
    have : w8 x <<< 24 = (w8 x <<< 16) <<< 8 := by rw [← BitVec.shiftLeft_add]
    rw [this, oct_shl8 _ (shl_lt x 16 (by omega)), h2]
  unfold feed le32
  simp only [octN, oct_xor, w8_shl, h2, h3]
  ac_rfl

theorem round8_eq (c : W) (b0 b1 b2 b3 b4 b5 b6 b7 : UInt8) :
    round8 c b0 b1 b2 b3 b4 b5 b6 b7 =
      feed (feed (feed (feed (feed (feed (feed (feed c b0) b1) b2) b3) b4) b5) b6) b7 := by
  rw [feed4 c, feed4]
  have e8 : ∀ x, octN 4 (octN 4 x) = octN 8 x := by intro x; rfl
  rw [octN_xor, e8, octN_bytes 4, octN_bytes 0]
  unfold round8
  simp only []
  rw [look_octN 7 (by omega) (and255_lt _), look_octN 6 (by omega) (and255_lt _),
    look_octN 5 (by omega) (and255_lt _), look_octN 4 (by omega) (and255_lt _),
    look_octN 3 (by omega) (and255_lt _), look_octN 2 (by omega) (and255_lt _),
    look_octN 1 (by omega) (and255_lt _), look_octN 0 (by omega) (and255_lt _),
    BitVec.xor_comm c]
  ac_rfl

theorem loop8_eq (c : W) (data : Bytes) : loop8 c data = data.foldl feed c := by
  induction c, data using loop8.induct with
  | case1 c b0 b1 b2 b3 b4 b5 b6 b7 rest ih =>
    rw [loop8, ih, round8_eq]; rfl
  | case2 c data h =>
    rw [loop8.eq_2 _ _ h]
    clear h
    induction data generalizing c with
    | nil => rfl
    | cons b bs ih => rw [List.foldl_cons, List.foldl_cons, step1_eq, ih]

theorem crc32_8_eq_spec (data : Bytes) (prev : W) : crc32_8 data prev = spec data prev := by
  unfold crc32_8 spec; rw [loop8_eq]

/-! The register step loses nothing: a changed register or a changed byte shows. -/

theorem oct_inj_zero (c : W) (h : oct c = 0#32) : c = 0#32 := by
  have htop : ∀ i, i < 256 → (oct (BitVec.ofNat 32 i)).toNat / 2 ^ 24 = 0 → i = 0 := by
    decide +kernel
  rw [oct_split] at h
  have hx : oct (c &&& 0xff#32) = c >>> 8 := by
    have := congrArg (fun y => y ^^^ (c >>> 8)) h
    simpa [BitVec.xor_assoc] using this
  have hl : (oct (c &&& 0xff#32)).toNat < 2 ^ 24 := by rw [hx]; exact shr8_lt c
  have hlow : (c &&& 0xff#32).toNat = 0 := by
    apply htop _ (and255_lt c)
    have e : BitVec.ofNat 32 (c &&& 0xff#32).toNat = c &&& 0xff#32 := by simp
    rw [e]; omega
  have hlow' : c &&& 0xff#32 = 0#32 := BitVec.eq_of_toNat_eq (by simpa using hlow)
  rw [hlow', oct_zero, BitVec.zero_xor] at h
  have hs := split_low c
  rw [hlow', h] at hs
  rw [hs]; decide

theorem xor_eq_zero {a b : W} (h : a ^^^ b = 0#32) : a = b := by
  have := congrArg (fun y => y ^^^ b) h
  simpa [BitVec.xor_assoc] using this

theorem oct_inj {a b : W} (h : oct a = oct b) : a = b := by
  apply xor_eq_zero
  apply oct_inj_zero
  rw [oct_xor, h, BitVec.xor_self]

theorem xor_right_inj {a b c : W} (h : a ^^^ c = b ^^^ c) : a = b := by
  have := congrArg (fun y => y ^^^ c) h
  simpa [BitVec.xor_assoc] using this

theorem feed_inj_left {c d : W} {b : UInt8} (h : feed c b = feed d b) : c = d :=
  xor_right_inj (oct_inj h)

theorem w8_inj {a b : UInt8} (h : w8 a = w8 b) : a = b := by
  apply UInt8.toNat_inj.1
  rw [← w8_toNat, ← w8_toNat, h]

theorem feed_inj_right {c : W} {a b : UInt8} (h : feed c a = feed c b) : a = b := by
  apply w8_inj
  have := oct_inj h
  rw [BitVec.xor_comm c, BitVec.xor_comm c] at this
  exact xor_right_inj this

theorem foldl_feed_inj {data : Bytes} {c d : W} (h : data.foldl feed c = data.foldl feed d) : c = d := by
  induction data generalizing c d with
  | nil => exact h
  | cons b bs ih => exact feed_inj_left (ih h)

theorem spec_append (a b : Bytes) (prev : W) : spec (a ++ b) prev = spec b (spec a prev) := by
  unfold spec; rw [List.foldl_append, BitVec.not_not]

theorem not_inj {a b : W} (h : ~~~ a = ~~~ b) : a = b := by
  rw [← BitVec.not_not (b := a), h, BitVec.not_not]

theorem spec_prev_inj {data : Bytes} {p q : W} (h : spec data p = spec data q) : p = q :=
  not_inj (foldl_feed_inj (not_inj h))

/-- one changed byte changes the checksum -/
theorem spec_byte {x y : Bytes} {a b : UInt8} {prev : W} (hab : a ≠ b) :
    spec (x ++ a :: y) prev ≠ spec (x ++ b :: y) prev := by
  intro h
  rw [spec_append, spec_append] at h
  unfold spec at h
  have h1 := not_inj h
  rw [List.foldl_cons, List.foldl_cons] at h1
  exact hab (feed_inj_right (foldl_feed_inj h1))

end Jungle.Crc
