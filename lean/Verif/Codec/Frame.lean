/-
  What the three manifest files share: positioned writes, the trailing footer,
  version and checksum, counted lists, and backup files.
-/
import Verif.Codec.Endian
import Verif.Codec.CrcLemmas

namespace Jungle

/-- `FileOps::pwrite` (src/fileops_posix.cc:110-140): bytes between the old end
and the offset read as zero. -/
def pwrite (file : Bytes) (off : Nat) (data : Bytes) : Bytes :=
  file.take off ++ List.replicate (off - file.length) 0 ++ data ++ file.drop (off + data.length)

/-- `FileOps::ftruncate` to a length: cut, or extend with zeroes. -/
def ftruncate (file : Bytes) (len : Nat) : Bytes :=
  file.take len ++ List.replicate (len - file.length) 0

/-- body, footer (8 bytes), version (4 bytes), CRC-32 of all that (4 bytes):
src/log_manifest.cc:562-572, src/table_manifest.cc:370-388,
src/db_manifest.cc:167-176. -/
def frame (footer : Bytes) (ver : Nat) (body : Bytes) : Bytes :=
  let c := body ++ footer ++ be 4 ver
  c ++ be 4 (Crc.crc32_8 c 0#32).toNat

/-- The checks made before a manifest is read: size, footer, checksum
(src/log_manifest.cc:260-287, src/table_manifest.cc:131-158,
src/db_manifest.cc:82-111).  The version is read and ignored. -/
def checkFrame (footer file : Bytes) : Status :=
  if file.length < 16 then .fileCorruption
  else if (file.drop (file.length - 16)).take 8 ≠ footer then .fileCorruption
  else if (Crc.crc32_8 (file.take (file.length - 4)) 0#32).toNat ≠ unbe (file.drop (file.length - 4)) then
    .checksumError
  else .ok

/-- read `n` items with `p` -/
def parseN {α : Type} (p : Bytes → Option (α × Bytes)) : Nat → Bytes → Option (List α × Bytes)
  | 0, bs => some ([], bs)
  | n + 1, bs => match p bs with
    | none => none
    | some (a, r) => match parseN p n r with
      | none => none
      | some (as, r') => some (a :: as, r')

theorem parseN_enc {α : Type} {p : Bytes → Option (α × Bytes)} {e : α → Bytes} (l : List α)
    (h : ∀ a ∈ l, ∀ r, p (e a ++ r) = some (a, r)) (r : Bytes) :
    parseN p l.length (l.flatMap e ++ r) = some (l, r) := by
  induction l with
  | nil => rfl
  | cons a as ih =>
    rw [List.flatMap_cons, List.append_assoc, List.length_cons, parseN, h a (by simp)]
    simp only []
    rw [ih fun b hb => h b (List.mem_cons_of_mem _ hb)]

theorem frame_length (footer : Bytes) (ver : Nat) (body : Bytes) (hf : footer.length = 8) :
    (frame footer ver body).length = body.length + 16 := by
  simp [frame, hf]

theorem checkFrame_frame (footer : Bytes) (ver : Nat) (body : Bytes) (hf : footer.length = 8) :
    checkFrame footer (frame footer ver body) = .ok := by
  unfold checkFrame
  rw [frame_length _ _ _ hf, if_neg (by omega)]
  have e1 : ((frame footer ver body).drop (body.length + 16 - 16)).take 8 = footer := by
    rw [Nat.add_sub_cancel]
    simp only [frame, List.append_assoc]
    rw [List.drop_left, ← hf, List.take_left]
  have hc : (body ++ footer ++ be 4 ver).length = body.length + 16 - 4 := by simp [hf]
  have e2 : (frame footer ver body).take (body.length + 16 - 4) = body ++ footer ++ be 4 ver := by
    rw [← hc]; simp only [frame]; rw [List.take_left]
  have e3 : (frame footer ver body).drop (body.length + 16 - 4) =
      be 4 (Crc.crc32_8 (body ++ footer ++ be 4 ver) 0#32).toNat := by
    rw [← hc]; simp only [frame]; rw [List.drop_left]
  rw [e1, e2, e3, unbe_be (BitVec.isLt _)]
  simp

/-- a file written with another footer is rejected -/
theorem checkFrame_other (footer footer' : Bytes) (ver : Nat) (body : Bytes) (hf : footer.length = 8)
    (hne : footer ≠ footer') : checkFrame footer' (frame footer ver body) = .fileCorruption := by
  unfold checkFrame
  rw [frame_length _ _ _ hf, if_neg (by omega)]
  have e1 : ((frame footer ver body).drop (body.length + 16 - 16)).take 8 = footer := by
    rw [Nat.add_sub_cancel]
    simp only [frame, List.append_assoc]
    rw [List.drop_left, ← hf, List.take_left]
  rw [e1, if_pos hne]

/-- one changed byte changes the checksum -/
theorem crc_set {l : Bytes} {j : Nat} {b : UInt8} (hj : j < l.length) (hb : l[j] ≠ b) (p : Crc.W) :
    Crc.crc32_8 (l.set j b) p ≠ Crc.crc32_8 l p := by
  rw [Crc.crc32_8_eq_spec, Crc.crc32_8_eq_spec]
  have e1 : l = l.take j ++ l[j] :: l.drop (j + 1) := by simp
  have e2 : l.set j b = l.take j ++ b :: l.drop (j + 1) := by
    rw [List.set_eq_take_append_cons_drop, if_pos hj]
  rw [e2]
  conv => rhs; rw [e1]
  exact fun h => Crc.spec_byte (Ne.symm hb) h

/-- A file that passes the checks does not pass them with one byte changed. -/
theorem checkFrame_altered {footer file : Bytes} (h : checkFrame footer file = .ok) {i : Nat} {v : UInt8}
    (hi : i < file.length) (hv : file[i] ≠ v) : checkFrame footer (file.set i v) ≠ .ok := by
  have dec : ∀ f, checkFrame footer f = .ok → 16 ≤ f.length ∧
      (Crc.crc32_8 (f.take (f.length - 4)) 0#32).toNat = unbe (f.drop (f.length - 4)) := by
    intro f hf
    unfold checkFrame at hf
    split at hf
    · cases hf
    split at hf
    · cases hf
    split at hf
    · cases hf
    next h1 h2 h3 => exact ⟨by omega, by simpa using h3⟩
  obtain ⟨hl, hc⟩ := dec _ h
  intro h'
  obtain ⟨_, hc'⟩ := dec _ h'
  rw [List.length_set] at hc'
  by_cases hi4 : i < file.length - 4
  · rw [List.take_set, List.drop_set_of_lt hi4] at hc'
    have hlt : i < (file.take (file.length - 4)).length := by simp; omega
    refine crc_set (l := file.take (file.length - 4)) (p := 0#32) hlt (b := v) ?_ ?_
    · simpa using hv
    · exact BitVec.eq_of_toNat_eq (hc'.trans hc.symm)
  · rw [List.take_set, List.set_eq_of_length_le (by simp; omega), List.drop_set, if_neg hi4] at hc'
    have : (file.drop (file.length - 4)).set (i - (file.length - 4)) v = file.drop (file.length - 4) :=
      unbe_inj (by simp) (hc'.symm.trans hc)
    have h2 := congrArg (fun l => l[i - (file.length - 4)]?) this
    rw [List.getElem?_set_self (by simp; omega), List.getElem?_drop] at h2
    rw [show file.length - 4 + (i - (file.length - 4)) = i by omega, List.getElem?_eq_getElem hi] at h2
    exact hv (Option.some.inj h2).symm

theorem pwrite_zero (file data : Bytes) : pwrite file 0 data = data ++ file.drop data.length := by
  simp [pwrite]

/-- writing the tail of `new` over a file that already agrees up to `d` -/
theorem pwrite_tail {file new : Bytes} {d : Nat} (hd : d ≤ file.length) (hd2 : d ≤ new.length)
    (h : file.take d = new.take d) :
    pwrite file d (new.drop d) = new ++ file.drop new.length := by
  unfold pwrite
  rw [h, Nat.sub_eq_zero_of_le hd, List.replicate_zero, List.append_nil, List.take_append_drop,
    List.length_drop]
  congr 2
  omega

theorem ftruncate_append (a b : Bytes) : ftruncate (a ++ b) a.length = a := by
  simp [ftruncate]

end Jungle
