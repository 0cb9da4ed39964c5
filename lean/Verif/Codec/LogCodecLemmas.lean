/-
  Reading back what was written: whole files, cut files, altered files.
-/
import Verif.Codec.LogCodec
import Verif.Codec.CrcLemmas

namespace Jungle
namespace LogCodec
open Crc

/-- The sizes fit the fields of the format, and decompression undoes compression. -/
structure Fits (co : Option CompOpt) (r : Rec Bytes) : Prop where
  seq : r.seq < 2 ^ 64
  key : r.key.length < 2 ^ 32
  umeta : r.umeta.length < 2 ^ 32
  val : r.val.length < 2 ^ 32
  stored : (storedVal co r).length < 2 ^ 32
  comp : ∀ c, co = some c → r.type = .insertion → c.compress r ≠ [] →
    c.decompress (c.compress r) = r.val

def Entry.Fits (co : Option CompOpt) : Entry → Prop
  | .record r => LogCodec.Fits co r
  | .flushMark n => n < 2 ^ 64
  | .chkMark n => n < 2 ^ 64

theorem typeFlag_lt (t : RType) : typeFlag t < 16 := by cases t <;> decide

theorem flags_comp (co : Option CompOpt) (r : Rec Bytes) :
    (recFlags co r / 16 % 2 = 1) ↔ (compressed co r).isSome := by
  unfold recFlags
  have := typeFlag_lt r.type
  cases h : (compressed co r).isSome <;> simp <;> omega

theorem flags_type (co : Option CompOpt) (r : Rec Bytes) : recFlags co r % 16 = typeFlag r.type := by
  unfold recFlags
  have := typeFlag_lt r.type
  split <;> omega

theorem flags_lt (co : Option CompOpt) (r : Rec Bytes) : recFlags co r < 32 := by
  unfold recFlags
  have := typeFlag_lt r.type
  split <;> omega

theorem lenMeta_length (co : Option CompOpt) (r : Rec Bytes) :
    (lenMeta co r).length = lenMetaSize (recFlags co r) := by
  unfold lenMetaSize lenMeta
  have := flags_comp co r
  cases h : compressed co r with
  | none => rw [h] at this; rw [if_neg (by simp [this])]; simp
  | some c => rw [h] at this; rw [if_pos (by simp [this])]; simp

theorem parseLen_lenMeta {co : Option CompOpt} {r : Rec Bytes} (hf : Fits co r) :
    parseLen (recFlags co r) (lenMeta co r) =
      (r.seq, r.key.length, r.umeta.length, (storedVal co r).length, r.val.length) := by
  have hs := unbe_be (w := 8) (n := r.seq) hf.seq
  have hk := unbe_be (w := 4) hf.key
  have hm := unbe_be (w := 4) hf.umeta
  have hv := unbe_be (w := 4) hf.val
  have hst := hf.stored
  have hc := flags_comp co r
  unfold parseLen lenMeta
  cases h : compressed co r with
  | none =>
    have hst' : storedVal co r = r.val := by unfold storedVal; rw [h]; rfl
    rw [h] at hc
    have hc' : ¬ (recFlags co r / 16 % 2 = 1) := by rw [hc]; simp
    simp only [hc', if_false, hst']
    simp [List.drop_append, be_drop, be_take, hs, hk, hm, hv]
  | some c =>
    have hst' : storedVal co r = c := by unfold storedVal; rw [h]; rfl
    rw [h] at hc
    have hc' : recFlags co r / 16 % 2 = 1 := by rw [hc]; simp
    rw [hst'] at hst
    have hcl := unbe_be (w := 4) hst
    simp only [hc', if_true, hst']
    simp [List.drop_append, be_drop, be_take, hs, hk, hm, hv, hcl]

theorem restore_stored {co : Option CompOpt} {r : Rec Bytes} (hf : Fits co r) :
    restore co (recFlags co r) (storedVal co r) r.val.length = .ok r.val := by
  have hc := flags_comp co r
  unfold restore
  cases h : compressed co r with
  | none =>
    have hst' : storedVal co r = r.val := by unfold storedVal; rw [h]; rfl
    rw [h] at hc
    have hc' : ¬ (recFlags co r / 16 % 2 = 1) := by rw [hc]; simp
    rw [hst']
    by_cases he : r.val = []
    · simp [he]
    · simp only [he, hc', if_false]
  | some c =>
    have hst' : storedVal co r = c := by unfold storedVal; rw [h]; rfl
    rw [h] at hc
    have hc' : recFlags co r / 16 % 2 = 1 := by rw [hc]; simp
    unfold compressed at h
    cases hco : co with
    | none => rw [hco] at h; cases h
    | some k =>
      rw [hco] at h
      simp only at h
      split at h
      · next hcond =>
        cases h
        have hd := hf.comp k hco hcond.1 hcond.2
        rw [← hco, hst', if_neg hcond.2, if_pos hc', hco]
        simp only [hd, if_true]
      · cases h

/-- the part of a record after the length block -/
def bodyBytes (co : Option CompOpt) (r : Rec Bytes) : Bytes :=
  be 4 (dataCrc r.key r.umeta (storedVal co r)).toNat ++ (r.key ++ (r.umeta ++ storedVal co r))

/-- the part of a record after the flags -/
def recBytes (co : Option CompOpt) (r : Rec Bytes) : Bytes :=
  be 4 (crc32_8 (lenMeta co r) 0#32).toNat ++ (lenMeta co r ++ bodyBytes co r)

theorem encRec_eq (co : Option CompOpt) (r : Rec Bytes) : encRec co r = be 8 (recFlags co r) ++ recBytes co r := by
  unfold encRec recBytes bodyBytes; simp only [List.append_assoc]

theorem crc_lt (w : W) : w.toNat < 256 ^ 4 := w.isLt

theorem loadBody_ok {co : Option CompOpt} {r : Rec Bytes} (hf : Fits co r) (rest : Bytes) :
    loadBody co (recFlags co r) (lenMeta co r) (bodyBytes co r ++ rest) =
      .ok (.record (typeFlag r.type) r.seq r.key r.umeta r.val, rest) := by
  unfold loadBody bodyBytes
  simp only [parseLen_lenMeta hf, List.append_assoc]
  rw [getU_be (crc_lt _)]
  simp only []
  rw [takeN_append rfl]
  simp only []
  rw [takeN_append rfl]
  simp only []
  rw [takeN_append rfl]
  simp only [restore_stored hf, flags_type]
  simp

theorem loadRec_ok {co : Option CompOpt} {r : Rec Bytes} (hf : Fits co r) (rest : Bytes) :
    loadRec co (recFlags co r) (recBytes co r ++ rest) =
      .ok (.record (typeFlag r.type) r.seq r.key r.umeta r.val, rest) := by
  unfold loadRec
  have hl := lenMeta_length co r
  rw [if_neg (by simp [recBytes, bodyBytes, hl]; omega)]
  unfold recBytes
  simp only [List.append_assoc]
  rw [getU_be (crc_lt _)]
  simp only []
  rw [takeN_append hl]
  simp only [ne_eq, not_true_eq_false, if_false]
  exact loadBody_ok hf rest

/-- An entry is read back. -/
theorem loadPiece_enc {co : Option CompOpt} {e : Entry} (hf : e.Fits co) (rest : Bytes) :
    loadPiece co (e.enc co ++ rest) = .item e.item rest := by
  cases e with
  | record r =>
    show loadPiece co (encRec co r ++ rest) = _
    have hfl := flags_lt co r
    unfold loadPiece
    rw [encRec_eq, List.append_assoc, getU_be (by omega)]
    have h0 : recFlags co r / 2 ^ 56 = 0 := by omega
    simp only [h0, loadRec_ok hf]
    rfl
  | flushMark n =>
    show loadPiece co (encFlush n ++ rest) = _
    unfold loadPiece encFlush
    rw [List.append_assoc, getU_be (by decide)]
    simp only []
    rw [getU_be (w := 8) hf]
    rfl
  | chkMark n =>
    show loadPiece co (encChk n ++ rest) = _
    unfold loadPiece encChk
    rw [List.append_assoc, getU_be (by decide)]
    simp only []
    rw [getU_be (w := 8) hf]
    rfl

theorem enc_length_pos (co : Option CompOpt) (e : Entry) : 8 ≤ (e.enc co).length := by
  cases e with
  | record r => show 8 ≤ (encRec co r).length; rw [encRec_eq]; simp
  | flushMark n => show 8 ≤ (encFlush n).length; simp [encFlush]
  | chkMark n => show 8 ≤ (encChk n).length; simp [encChk]

/-- Prefixes of concatenations. -/
theorem prefix_cases {p a b : Bytes} (h : p <+: a ++ b) :
    (p.length < a.length ∧ p <+: a) ∨ ∃ q, p = a ++ q ∧ q <+: b := by
  rcases Nat.lt_or_ge p.length a.length with hl | hl
  · left
    exact ⟨hl, List.prefix_of_prefix_length_le h (List.prefix_append a b) (by omega)⟩
  · right
    obtain ⟨q, hq⟩ := List.prefix_of_prefix_length_le (List.prefix_append a b) h hl
    refine ⟨q, hq.symm, ?_⟩
    rw [← hq] at h
    exact (List.prefix_append_right_inj a).1 h

theorem loadBody_short {co : Option CompOpt} {r : Rec Bytes} (hf : Fits co r) {p : Bytes}
    (hp : p <+: bodyBytes co r) (hl : p.length < (bodyBytes co r).length) :
    loadBody co (recFlags co r) (lenMeta co r) p = .error .incompleteLog := by
  unfold loadBody
  simp only [parseLen_lenMeta hf]
  unfold bodyBytes at hp hl
  rcases prefix_cases hp with ⟨h1, -⟩ | ⟨q, rfl, hq⟩
  · rw [getU_short (by simpa using h1)]
  · rw [getU_be (crc_lt _)]
    simp only []
    rcases prefix_cases hq with ⟨h1, -⟩ | ⟨q2, rfl, hq2⟩
    · rw [takeN_short h1]
    · rw [takeN_append rfl]
      simp only []
      rcases prefix_cases hq2 with ⟨h1, -⟩ | ⟨q3, rfl, hq3⟩
      · rw [takeN_short h1]
      · rw [takeN_append rfl]
        simp only []
        rw [takeN_short (by simp at hl; omega)]

theorem loadRec_short {co : Option CompOpt} {r : Rec Bytes} (hf : Fits co r) {p : Bytes}
    (hp : p <+: recBytes co r) (hl : p.length < (recBytes co r).length) :
    loadRec co (recFlags co r) p = .error .incompleteLog := by
  unfold loadRec
  have hlm := lenMeta_length co r
  split
  · rfl
  · next hlen =>
    unfold recBytes at hp hl
    rcases prefix_cases hp with ⟨h1, -⟩ | ⟨q, rfl, hq⟩
    · simp at h1; omega
    · rw [getU_be (crc_lt _)]
      simp only []
      rcases prefix_cases hq with ⟨h1, -⟩ | ⟨q2, rfl, hq2⟩
      · simp at hlen; omega
      · rw [takeN_append hlm]
        simp only [ne_eq, not_true_eq_false, if_false]
        exact loadBody_short hf hq2 (by simp at hl; omega)

/-- A cut entry is noticed. -/
theorem loadPiece_short {co : Option CompOpt} {e : Entry} (hf : e.Fits co) {p : Bytes}
    (hp : p <+: e.enc co) (hl : p.length < (e.enc co).length) :
    loadPiece co p = .stop .incompleteLog := by
  have mark : ∀ f n, (f = 1 ∨ f = 2) → p <+: be 8 (f * 2 ^ 56) ++ be 8 n →
      p.length < (be 8 (f * 2 ^ 56) ++ be 8 n).length → loadPiece co p = .stop .incompleteLog := by
    intro f n hfl hp hl
    unfold loadPiece
    rcases prefix_cases hp with ⟨h1, -⟩ | ⟨q, rfl, hq⟩
    · rw [getU_short (by simpa using h1)]
    · have hs : getU 8 q = none := getU_short (by simp at hl; omega)
      rcases hfl with rfl | rfl
      · rw [getU_be (by decide)]; simp only [hs]
      · rw [getU_be (by decide)]; simp only [hs]
  cases e with
  | record r =>
    replace hp : p <+: encRec co r := hp
    replace hl : p.length < (encRec co r).length := hl
    rw [encRec_eq] at hp hl
    have hfl := flags_lt co r
    unfold loadPiece
    rcases prefix_cases hp with ⟨h1, -⟩ | ⟨q, rfl, hq⟩
    · rw [getU_short (by simpa using h1)]
    · rw [getU_be (by omega)]
      have h0 : recFlags co r / 2 ^ 56 = 0 := by omega
      simp only [h0]
      rw [loadRec_short hf hq (by simp at hl; omega)]
  | flushMark n => exact mark 1 n (Or.inl rfl) hp hl
  | chkMark n => exact mark 2 n (Or.inr rfl) hp hl

/-! ### whole files -/

theorem loadLoop_item {co : Option CompOpt} {bs rest : Bytes} {i : Item} {fuel : Nat}
    (h : loadPiece co bs = .item i rest) (hf : bs.length ≤ fuel + 1) (hne : bs ≠ []) :
    loadLoop co (fuel + 1) bs = (i :: (loadLoop co fuel rest).1, (loadLoop co fuel rest).2) := by
  cases bs with
  | nil => exact absurd rfl hne
  | cons b bs => simp only [loadLoop, h]

theorem loadLoop_fuel {co : Option CompOpt} {e : Entry} (hf : e.Fits co) (rest : Bytes) (fuel : Nat)
    (hfu : (e.enc co ++ rest).length ≤ fuel) :
    ∃ fuel', fuel = fuel' + 1 ∧ rest.length ≤ fuel' ∧
      loadLoop co fuel (e.enc co ++ rest) =
        (e.item :: (loadLoop co fuel' rest).1, (loadLoop co fuel' rest).2) := by
  have hp := enc_length_pos co e
  rw [List.length_append] at hfu
  obtain ⟨fuel', rfl⟩ : ∃ f, fuel = f + 1 := ⟨fuel - 1, by omega⟩
  refine ⟨fuel', rfl, by omega, ?_⟩
  exact loadLoop_item (loadPiece_enc hf rest) (by rw [List.length_append]; omega)
    (by intro h; rw [List.append_eq_nil_iff] at h; rw [h.1] at hp; simp at hp)

/-- Reading `es`, then whatever follows. -/
theorem loadLoop_append {co : Option CompOpt} (es : List Entry) (hf : ∀ e ∈ es, e.Fits co)
    (rest : Bytes) (fuel : Nat) (hfu : (encAll co es ++ rest).length ≤ fuel) :
    ∃ fuel', rest.length ≤ fuel' ∧
      loadLoop co fuel (encAll co es ++ rest) =
        (es.map Entry.item ++ (loadLoop co fuel' rest).1, (loadLoop co fuel' rest).2) := by
  induction es generalizing fuel with
  | nil => exact ⟨fuel, by simpa [encAll] using hfu, by simp [encAll]⟩
  | cons e es ih =>
    have e1 : encAll co (e :: es) ++ rest = e.enc co ++ (encAll co es ++ rest) := by
      simp [encAll]
    rw [e1] at hfu ⊢
    obtain ⟨f1, -, hl, heq⟩ := loadLoop_fuel (hf e (by simp)) _ fuel hfu
    obtain ⟨f2, hl2, heq2⟩ := ih (fun x hx => hf x (by simp [hx])) f1 hl
    exact ⟨f2, hl2, by rw [heq, heq2]; rfl⟩

theorem loadLoop_nil (co : Option CompOpt) (fuel : Nat) : loadLoop co fuel [] = ([], .ok) := by
  cases fuel <;> rfl

theorem load_encAll {co : Option CompOpt} {es : List Entry} (hf : ∀ e ∈ es, e.Fits co) :
    load co (encAll co es) = (es.map Entry.item, .ok) := by
  unfold load
  obtain ⟨f, -, h⟩ := loadLoop_append es hf [] (encAll co es).length (by simp)
  rw [List.append_nil] at h
  rw [h, loadLoop_nil]; simp

/-- Loading a cut file. -/
theorem load_prefix {co : Option CompOpt} {es : List Entry} (hf : ∀ e ∈ es, e.Fits co) {p : Bytes}
    (hp : p <+: encAll co es) :
    ∃ k, k ≤ es.length ∧ encAll co (es.take k) <+: p ∧
      (∀ j, encAll co (es.take j) <+: p → es.take j <+: es.take k) ∧
      ((load co p = ((es.take k).map Entry.item, .ok) ∧ p = encAll co (es.take k)) ∨
       (load co p = ((es.take k).map Entry.item, .incompleteLog) ∧ p ≠ encAll co (es.take k))) := by
  suffices H : ∀ fuel, p.length ≤ fuel → ∃ k, k ≤ es.length ∧ encAll co (es.take k) <+: p ∧
      (∀ j, encAll co (es.take j) <+: p → es.take j <+: es.take k) ∧
      ((loadLoop co fuel p = ((es.take k).map Entry.item, .ok) ∧ p = encAll co (es.take k)) ∨
       (loadLoop co fuel p = ((es.take k).map Entry.item, .incompleteLog) ∧ p ≠ encAll co (es.take k))) from
    H p.length (Nat.le_refl _)
  induction es generalizing p with
  | nil =>
    intro fuel hfu
    have : p = [] := by simpa [encAll] using hp
    subst this
    exact ⟨0, by simp, by simp [encAll], by simp, Or.inl ⟨by rw [loadLoop_nil]; rfl, by simp [encAll]⟩⟩
  | cons e es ih =>
    intro fuel hfu
    have e1 : encAll co (e :: es) = e.enc co ++ encAll co es := by simp [encAll]
    rw [e1] at hp
    have hpos := enc_length_pos co e
    rcases prefix_cases hp with ⟨h1, h2⟩ | ⟨q, rfl, hq⟩
    · refine ⟨0, by simp, by simp [encAll], ?_, ?_⟩
      · intro j hj
        cases j with
        | zero => simp
        | succ j =>
          exfalso
          have e2 : encAll co ((e :: es).take (j + 1)) = e.enc co ++ encAll co (es.take j) := by
            simp [encAll]
          rw [e2] at hj
          have := hj.length_le
          rw [List.length_append] at this
          omega
      · cases p with
        | nil => left; exact ⟨by rw [loadLoop_nil]; rfl, by simp [encAll]⟩
        | cons b bs =>
          right
          refine ⟨?_, by simp [encAll]⟩
          obtain ⟨f', rfl⟩ : ∃ f, fuel = f + 1 := ⟨fuel - 1, by simp at hfu; omega⟩
          simp only [loadLoop, loadPiece_short (hf e (by simp)) h2 h1]
          rfl
    · obtain ⟨f1, -, hl, heq⟩ := loadLoop_fuel (hf e (by simp)) q fuel hfu
      obtain ⟨k, hk, hpre, hmax, hres⟩ := ih (fun x hx => hf x (by simp [hx])) hq f1 hl
      have e3 : ∀ j, encAll co ((e :: es).take (j + 1)) = e.enc co ++ encAll co (es.take j) := by
        intro j; simp [encAll]
      refine ⟨k + 1, by simpa using hk, ?_, ?_, ?_⟩
      · rw [e3]; exact (List.prefix_append_right_inj _).2 hpre
      · intro j hj
        cases j with
        | zero => simp
        | succ j =>
          rw [e3] at hj
          have := hmax j ((List.prefix_append_right_inj _).1 hj)
          rw [List.take_succ_cons, List.take_succ_cons]
          exact (List.prefix_cons_inj e).2 this
      · rcases hres with ⟨h1, h2⟩ | ⟨h1, h2⟩
        · left
          refine ⟨by rw [heq, h1]; rfl, ?_⟩
          rw [e3]; conv => lhs; rw [h2]
        · right
          refine ⟨by rw [heq, h1]; rfl, ?_⟩
          rw [e3]; intro h; exact h2 (List.append_cancel_left h)

end LogCodec
end Jungle
