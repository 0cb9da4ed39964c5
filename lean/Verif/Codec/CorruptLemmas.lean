/-
  Altered bytes: the loader stops at the altered record.
-/
import Verif.Codec.LogCodecLemmas

namespace Jungle
namespace LogCodec
open Crc

theorem spec_nil (p : W) : spec [] p = p := by simp [spec]

theorem dataCrc_eq (k m v : Bytes) : dataCrc k m v = spec (k ++ (m ++ v)) 0#32 := by
  unfold dataCrc
  simp only [crc32_8_eq_spec, spec_append]

/-- changing one byte of a string changes its CRC -/
theorem spec_set {l : Bytes} {j : Nat} {b : UInt8} (hj : j < l.length) (hb : l[j] ≠ b) (p : W) :
    spec (l.set j b) p ≠ spec l p := by
  have e1 : l = l.take j ++ l[j] :: l.drop (j + 1) := by simp
  have e2 : l.set j b = l.take j ++ b :: l.drop (j + 1) := by
    rw [List.set_eq_take_append_cons_drop, if_pos hj]
  rw [e2]
  conv => rhs; rw [e1]
  exact fun h => spec_byte (Ne.symm hb) h

theorem set_ne {l : Bytes} {j : Nat} {b : UInt8} (hj : j < l.length) (hb : l[j] ≠ b) : l.set j b ≠ l := by
  intro h
  apply hb
  have : (l.set j b)[j]'(by simpa using hj) = b := by simp
  simp only [h] at this
  exact this

/-- `loadBody` on any four bytes and any payload of the right length. -/
theorem loadBody_gen {co : Option CompOpt} {r : Rec Bytes} (hf : Fits co r) {D P : Bytes} (rest : Bytes)
    (hD : D.length = 4) (hP : P.length = r.key.length + (r.umeta.length + (storedVal co r).length))
    (hne : unbe D ≠ (spec P 0#32).toNat) :
    (∃ s, s ≠ .ok ∧ loadBody co (recFlags co r) (lenMeta co r) (D ++ (P ++ rest)) = .error s) ∧
    (compressed co r = none →
      loadBody co (recFlags co r) (lenMeta co r) (D ++ (P ++ rest)) = .error .checksumError) := by
  obtain ⟨k, P1, hPk, hk⟩ : ∃ k P1, P = k ++ P1 ∧ k.length = r.key.length :=
    ⟨P.take r.key.length, P.drop r.key.length, (List.take_append_drop _ _).symm, by simp; omega⟩
  subst hPk
  obtain ⟨m, v, hPm, hm⟩ : ∃ m v, P1 = m ++ v ∧ m.length = r.umeta.length :=
    ⟨P1.take r.umeta.length, P1.drop r.umeta.length, (List.take_append_drop _ _).symm, by
      simp at hP; simp; omega⟩
  subst hPm
  have hv : v.length = (storedVal co r).length := by simp at hP; omega
  have key : loadBody co (recFlags co r) (lenMeta co r) (D ++ (k ++ (m ++ v) ++ rest)) =
      match restore co (recFlags co r) v r.val.length with
      | .error s => .error s
      | .ok val => .error .checksumError := by
    unfold loadBody
    simp only [parseLen_lenMeta hf, List.append_assoc]
    have hg : getU 4 (D ++ (k ++ (m ++ (v ++ rest)))) = some (unbe D, k ++ (m ++ (v ++ rest))) := by
      unfold getU; rw [takeN_append hD]
    rw [hg]
    simp only []
    rw [takeN_append hk]
    simp only []
    rw [takeN_append hm]
    simp only []
    rw [takeN_append hv]
    simp only []
    rw [dataCrc_eq]
    cases restore co (recFlags co r) v r.val.length with
    | error s => rfl
    | ok val => simp only []; rw [if_pos hne]
  rw [key]
  refine ⟨?_, ?_⟩
  · cases hr : restore co (recFlags co r) v r.val.length with
    | ok val => exact ⟨.checksumError, by decide, rfl⟩
    | error s =>
      refine ⟨s, ?_, rfl⟩
      unfold restore at hr
      split at hr
      · cases hr
      · split at hr
        · split at hr
          · cases hr; decide
          · split at hr
            · cases hr
            · cases hr; decide
        · cases hr
  · intro hc
    have hcf := flags_comp co r
    rw [hc] at hcf
    have hcf' : ¬ (recFlags co r / 16 % 2 = 1) := by rw [hcf]; simp
    unfold restore
    rw [if_neg hcf']
    by_cases hv0 : v = []
    · rw [if_pos hv0]
    · rw [if_neg hv0]

/-- A record with one byte altered behind the flags is not loaded. -/
theorem loadRec_altered {co : Option CompOpt} {r : Rec Bytes} (hf : Fits co r) {j : Nat} {b : UInt8}
    (hj : j < (recBytes co r).length) (hb : (recBytes co r)[j] ≠ b) (rest : Bytes) :
    (∃ s, s ≠ .ok ∧ loadRec co (recFlags co r) ((recBytes co r).set j b ++ rest) = .error s) ∧
    (compressed co r = none →
      loadRec co (recFlags co r) ((recBytes co r).set j b ++ rest) = .error .checksumError) := by
  have hlm := lenMeta_length co r
  have hlen : ¬ (((recBytes co r).set j b ++ rest).length < 4 + lenMetaSize (recFlags co r) + 4) := by
    simp [recBytes, bodyBytes, hlm]; omega
  -- a wrong CRC of the length block
  have headA : ∀ (A L R : Bytes), A.length = 4 → L.length = lenMetaSize (recFlags co r) →
      (recBytes co r).set j b = A ++ (L ++ R) →
      loadRec co (recFlags co r) ((recBytes co r).set j b ++ rest) =
        if unbe A ≠ (crc32_8 L 0#32).toNat then .error .checksumError
        else loadBody co (recFlags co r) L (R ++ rest) := by
    intro A L R hA hL he
    unfold loadRec
    rw [if_neg hlen, he]
    simp only [List.append_assoc]
    have hg : getU 4 (A ++ (L ++ (R ++ rest))) = some (unbe A, L ++ (R ++ rest)) := by
      unfold getU; rw [takeN_append hA]
    rw [hg]
    simp only []
    rw [takeN_append hL]
  have crcok : unbe (be 4 (crc32_8 (lenMeta co r) 0#32).toNat) = (crc32_8 (lenMeta co r) 0#32).toNat :=
    unbe_be (crc_lt _)
  have bad : loadRec co (recFlags co r) ((recBytes co r).set j b ++ rest) = .error .checksumError →
      (∃ s, s ≠ Status.ok ∧ loadRec co (recFlags co r) ((recBytes co r).set j b ++ rest) = .error s) ∧
      (compressed co r = none →
        loadRec co (recFlags co r) ((recBytes co r).set j b ++ rest) = .error .checksumError) :=
    fun h => ⟨⟨.checksumError, by decide, h⟩, fun _ => h⟩
  have hsplit : recBytes co r = be 4 (crc32_8 (lenMeta co r) 0#32).toNat ++ (lenMeta co r ++ bodyBytes co r) := rfl
  by_cases h1 : j < 4
  · -- the CRC of the lengths is altered
    have he : (recBytes co r).set j b =
        (be 4 (crc32_8 (lenMeta co r) 0#32).toNat).set j b ++ (lenMeta co r ++ bodyBytes co r) := by
      rw [hsplit, List.set_append, if_pos (by simpa using h1)]
    have hb' : (be 4 (crc32_8 (lenMeta co r) 0#32).toNat)[j]'(by simpa using h1) ≠ b := by
      have : (recBytes co r)[j] = (be 4 (crc32_8 (lenMeta co r) 0#32).toNat)[j]'(by simpa using h1) := by
        simp only [hsplit]; rw [List.getElem_append_left]
      rw [← this]; exact hb
    apply bad
    rw [headA _ _ _ (by simp) hlm he, if_pos]
    intro h
    exact set_ne (by simpa using h1) hb' (unbe_inj (by simp) (h.trans crcok.symm))
  · by_cases h2 : j < 4 + (lenMeta co r).length
    · -- a length is altered
      have he : (recBytes co r).set j b =
          be 4 (crc32_8 (lenMeta co r) 0#32).toNat ++ ((lenMeta co r).set (j - 4) b ++ bodyBytes co r) := by
        rw [hsplit, List.set_append, if_neg (by simpa using h1), List.set_append,
          if_pos (by simp; omega)]
        simp
      have hb' : (lenMeta co r)[j - 4]'(by omega) ≠ b := by
        have : (recBytes co r)[j] = (lenMeta co r)[j - 4]'(by omega) := by
          simp only [hsplit]
          rw [List.getElem_append_right (by simp; omega), List.getElem_append_left (by simp; omega)]
          simp
        rw [← this]; exact hb
      apply bad
      rw [headA _ _ _ (by simp) (by simpa using hlm) he, if_pos]
      rw [crcok]
      intro h
      rw [crc32_8_eq_spec, crc32_8_eq_spec] at h
      exact spec_set (by omega) hb' 0#32 (BitVec.eq_of_toNat_eq h.symm)
    · -- the body is altered
      have hjb : j - 4 - (lenMeta co r).length < (bodyBytes co r).length := by
        rw [hsplit] at hj; simp at hj; omega
      have he : (recBytes co r).set j b =
          be 4 (crc32_8 (lenMeta co r) 0#32).toNat ++
            (lenMeta co r ++ (bodyBytes co r).set (j - 4 - (lenMeta co r).length) b) := by
        rw [hsplit, List.set_append, if_neg (by simpa using h1), List.set_append,
          if_neg (by simp; omega)]
        simp
      have hb' : (bodyBytes co r)[j - 4 - (lenMeta co r).length] ≠ b := by
        have : (recBytes co r)[j] = (bodyBytes co r)[j - 4 - (lenMeta co r).length] := by
          simp only [hsplit]
          rw [List.getElem_append_right (by simp; omega), List.getElem_append_right (by simp; omega)]
          simp
        rw [← this]; exact hb
      have hgo := headA _ _ _ (by simp) hlm he
      rw [crcok, if_neg (by simp)] at hgo
      rw [hgo]
      generalize hi : j - 4 - (lenMeta co r).length = i at *
      have hbs : bodyBytes co r = be 4 (dataCrc r.key r.umeta (storedVal co r)).toNat ++
          (r.key ++ (r.umeta ++ storedVal co r)) := rfl
      have dcrc : unbe (be 4 (dataCrc r.key r.umeta (storedVal co r)).toNat) =
          (dataCrc r.key r.umeta (storedVal co r)).toNat := unbe_be (crc_lt _)
      by_cases h3 : i < 4
      · have he2 : (bodyBytes co r).set i b = (be 4 (dataCrc r.key r.umeta (storedVal co r)).toNat).set i b ++
            (r.key ++ (r.umeta ++ storedVal co r)) := by
          rw [hbs, List.set_append, if_pos (by simpa using h3)]
        have hb2 : (be 4 (dataCrc r.key r.umeta (storedVal co r)).toNat)[i]'(by simpa using h3) ≠ b := by
          have : (bodyBytes co r)[i] = (be 4 (dataCrc r.key r.umeta (storedVal co r)).toNat)[i]'(by simpa using h3) := by
            simp only [hbs]; rw [List.getElem_append_left]
          rw [← this]; exact hb'
        have hfin := loadBody_gen (D := (be 4 (dataCrc r.key r.umeta (storedVal co r)).toNat).set i b)
          (P := r.key ++ (r.umeta ++ storedVal co r)) hf rest (by simp) (by simp) (by
            rw [← dataCrc_eq]
            intro h
            exact set_ne (by simpa using h3) hb2 (unbe_inj (by simp) (h.trans dcrc.symm)))
        rw [he2, List.append_assoc]
        exact hfin
      · have hP : i - 4 < (r.key ++ (r.umeta ++ storedVal co r)).length := by
          rw [hbs] at hjb; simp at hjb; simp; omega
        have he2 : (bodyBytes co r).set i b = be 4 (dataCrc r.key r.umeta (storedVal co r)).toNat ++
            (r.key ++ (r.umeta ++ storedVal co r)).set (i - 4) b := by
          rw [hbs, List.set_append, if_neg (by simpa using h3)]; simp
        have hb2 : (r.key ++ (r.umeta ++ storedVal co r))[i - 4] ≠ b := by
          have : (bodyBytes co r)[i] = (r.key ++ (r.umeta ++ storedVal co r))[i - 4] := by
            simp only [hbs]
            rw [List.getElem_append_right (by simp; omega)]
            simp
          rw [← this]; exact hb'
        have hfin := loadBody_gen (D := be 4 (dataCrc r.key r.umeta (storedVal co r)).toNat)
          (P := (r.key ++ (r.umeta ++ storedVal co r)).set (i - 4) b) hf rest (by simp) (by simp) (by
            rw [dcrc, dataCrc_eq]
            intro h
            exact spec_set hP hb2 0#32 (BitVec.eq_of_toNat_eq h.symm))
        rw [he2, List.append_assoc]
        exact hfin

end LogCodec
end Jungle
