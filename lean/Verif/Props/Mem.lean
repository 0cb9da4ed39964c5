/-
  C67: who frees the memory of keys, values and records.
-/
import Verif.Mem.Buf

namespace Jungle
open Mem

/-! ### Lemmas -/

namespace Mem

/-- Freeing several buffers, one after the other. -/
def freeAll (s : St) : List Nat → St
  | [] => s
  | i :: is => freeAll (s.free i).2 is

theorem free_buf {s : St} (h : Inv s) (i j : Nat) :
    ((s.free i).2.buf j) = if j = i ∧ (s.buf i).owns = true then {} else s.buf j := by
  by_cases ho : (s.buf i).owns = true
  · obtain ⟨p, b, _, _, e⟩ := free_owned h ho
    rw [e]
    show upd s.buf i {} j = _
    by_cases hj : j = i
    · subst hj; rw [upd_self, if_pos ⟨rfl, ho⟩]
    · rw [upd_ne _ _ hj, if_neg (fun h => hj h.1)]
  · rw [free_unowned (by simpa using ho), if_neg (fun h => ho h.2)]

theorem freeAll_run {is : List Nat} : ∀ {s : St}, Run s → Run (freeAll s is) := by
  induction is with
  | nil => exact fun h => h
  | cons i is ih => exact fun h => ih (.step h (.free i))

theorem freeAll_owns {is : List Nat} : ∀ {s : St}, Run s → ∀ j, ((freeAll s is).buf j).owns = true →
    (s.buf j).owns = true ∧ j ∉ is := by
  induction is with
  | nil => exact fun _ j hj => ⟨hj, by simp⟩
  | cons i is ih =>
    intro s h j hj
    obtain ⟨h1, h2⟩ := ih (.step h (.free i)) j hj
    rw [free_buf h.inv] at h1
    by_cases hc : j = i ∧ (s.buf i).owns = true
    · rw [if_pos hc] at h1; cases h1
    · rw [if_neg hc] at h1
      refine ⟨h1, fun hm => ?_⟩
      rcases List.mem_cons.1 hm with rfl | hm
      · exact hc ⟨rfl, h1⟩
      · exact h2 hm

theorem content_owned {s : St} (h : Inv s) {i : Nat} (hi : (s.buf i).owns = true) : ∃ p b, (s.buf i).data = some p ∧
    s.heap p = some b ∧ s.content i = some b.bytes := by
  obtain ⟨p, b, h1, h2, h3, _⟩ := h.own i hi
  refine ⟨p, b, h1, h2, ?_⟩
  unfold St.content
  split
  · next h0 => rw [h0] at h3; rw [List.length_eq_zero_iff.1 h3]
  · rw [h1]
    simp only [St.read, h2]
    rw [if_pos (by omega), ← h3, List.take_length]

theorem content_congr {s t : St} {i : Nat} (hb : t.buf i = s.buf i)
    (hh : ∀ p, (s.buf i).data = some p → t.heap p = s.heap p) : t.content i = s.content i := by
  unfold St.content
  rw [hb]
  split
  · rfl
  · cases hd : (s.buf i).data with
    | none => rfl
    | some p => dsimp only; unfold St.read; rw [hh p hd]

/-- The block of a buffer that owns it is left alone by steps on other buffers. -/
theorem alloc_heap (s : St) (i n : Nat) (d : Option Nat) (a q : Nat) (h : q ≠ a) : (s.alloc i n d a).heap q = s.heap q := by
  unfold St.alloc
  split
  · rfl
  · split <;> exact upd_ne _ _ h

theorem alloc_buf (s : St) (i n : Nat) (d : Option Nat) (a j : Nat) (h : j ≠ i) : (s.alloc i n d a).buf j = s.buf j := by
  unfold St.alloc
  split
  · exact upd_ne _ _ h
  · split <;> exact upd_ne _ _ h

theorem content_zero {t : St} {i : Nat} (h : (t.buf i).size = 0) : t.content i = some [] := by
  unfold St.content; rw [if_pos h]

theorem content_at {t : St} {i n p : Nat} (hs : (t.buf i).size = n) (hn : n ≠ 0) (hd : (t.buf i).data = some p) :
    t.content i = t.read p n := by
  subst hs
  unfold St.content; rw [if_neg hn, hd]

theorem read_all {t : St} {p n : Nat} {x : Bytes} {k : Kind} (h : t.heap p = some ⟨x, k⟩) (hn : x.length = n) :
    t.read p n = some x := by
  subst hn
  unfold St.read; rw [h]; dsimp only; rw [if_pos (Nat.le_refl _), List.take_length]

theorem copy_content {s : St} (hs : ∀ i, (s.buf i).size < 2^32) {src dst a : Nat} (hr : (s.content src).isSome) :
    (s.copy src dst a).content dst = s.content src ∨ ((s.buf src).size ≠ 0 ∧ (s.buf src).data = none) := by
  by_cases h0 : (s.buf src).size = 0
  · left
    unfold St.copy St.alloc
    rw [if_pos h0]
    have h2 : s.content src = some [] := by unfold St.content; rw [if_pos h0]
    rw [h2]
    refine content_zero ?_
    show (upd s.buf dst {} dst).size = 0
    rw [upd_self]
  · cases hd : (s.buf src).data with
    | none => exact Or.inr ⟨h0, rfl⟩
    | some p =>
      left
      have hm : (s.buf src).size % 2^32 = (s.buf src).size := Nat.mod_eq_of_lt (hs src)
      have h2 : s.content src = s.read p (s.buf src).size := by unfold St.content; rw [if_neg h0, hd]
      rw [h2] at hr ⊢
      obtain ⟨x, hx⟩ := Option.isSome_iff_exists.1 hr
      have hl := read_length hx
      unfold St.copy St.alloc
      rw [if_neg h0, hd]
      dsimp only
      rw [hm, hx]
      rw [content_at (p := a) (by show Buf.size (upd s.buf dst _ dst) = _; rw [upd_self]) h0
        (by show Buf.data (upd s.buf dst _ dst) = _; rw [upd_self])]
      exact read_all (upd_self _ _ _) hl

theorem copy_content' {s : St} (hs : ∀ i, (s.buf i).size < 2^32) {src dst a : Nat} (hr : (s.content src).isSome) :
    (s.copy src dst a).content dst = s.content src := by
  rcases copy_content hs (dst := dst) (a := a) hr with h | ⟨h0, hd⟩
  · exact h
  · unfold St.content at hr
    rw [if_neg h0, hd] at hr; cases hr

/-- What a copy leaves alone: every other buffer that can be read. -/
theorem copy_other {s : St} {src dst a j : Nat} (ha : s.heap a = none) (hj : j ≠ dst) (hr : (s.content j).isSome) :
    (s.copy src dst a).content j = s.content j := by
  have hb : (s.copy src dst a).buf j = s.buf j := alloc_buf s dst _ _ a j hj
  by_cases h0 : (s.buf j).size = 0
  · unfold St.content; rw [hb, if_pos h0, if_pos h0]
  · refine content_congr hb (fun p hp => alloc_heap s dst _ _ a p ?_)
    rintro rfl
    unfold St.content at hr
    rw [if_neg h0, hp] at hr
    dsimp only at hr
    unfold St.read at hr
    rw [ha] at hr; cases hr

end Mem

/-! ### Buffers -/

/-- **C67, nothing undefined.**  In a program that keeps the rules nothing is freed twice, freed in the wrong way
    or read after it was freed; two buffers never own the same memory, and what a buffer owns can be read. -/
theorem C67_safe {s : St} (h : Run s) :
    s.bad = false ∧
    (∀ i j, (s.buf i).owns = true → (s.buf j).owns = true → (s.buf i).data = (s.buf j).data → i = j) ∧
    (∀ i, (s.buf i).owns = true → (s.content i).isSome) := by
  refine ⟨h.inv.ok, h.inv.uniq, fun i hi => ?_⟩
  obtain ⟨_, _, _, _, e⟩ := content_owned h.inv hi
  rw [e]; rfl

/-- **C67, nothing is left over.**  If at the end of a program that keeps the rules every buffer that owns memory is
    freed, or its `Holder` ends, in any order, all memory that buffers allocated or took over has been given
    back, each block once. -/
theorem C67_no_leak {s : St} (h : Run s) (is : List Nat) (his : ∀ i, (s.buf i).owns = true → i ∈ is) :
    (freeAll s is).bad = false ∧ ∀ p b, (freeAll s is).heap p = some b → b.kind = .user := by
  have hr : Run (freeAll s is) := freeAll_run h
  refine ⟨hr.inv.ok, fun p b hp => ?_⟩
  refine Decidable.byContradiction (fun hk => ?_)
  obtain ⟨j, hj, _⟩ := hr.inv.live p b hp hk
  obtain ⟨h1, h2⟩ := freeAll_owns h j hj
  exact h2 (his j h1)

/-- **C67, free.**  It says whether the buffer owned memory, leaves it empty, and a second call does nothing. -/
theorem C67_free {s : St} (h : Run s) (i : Nat) :
    (s.free i).1 = (s.buf i).owns ∧ ((s.buf i).owns = true → (s.free i).2.buf i = {}) ∧
    (s.free i).2.free i = (false, (s.free i).2) := by
  by_cases ho : (s.buf i).owns = true
  · obtain ⟨p, b, _, _, e⟩ := free_owned h.inv ho
    refine ⟨by rw [e, ho], fun _ => by rw [e]; exact upd_self _ _ _, free_unowned ?_⟩
    rw [e]
    show (upd s.buf i {} i).owns = false
    rw [upd_self]; rfl
  · have ho' : (s.buf i).owns = false := by simpa using ho
    rw [free_unowned ho']
    exact ⟨ho'.symm, fun h => absurd h ho, free_unowned ho'⟩

/-- **C67, a copy.**  The destination has the bytes of the source, owns them in memory of its own, and the source
    is as before. -/
theorem C67_copy {s : St} (h : Run s) {src dst a : Nat} (hi : (s.buf dst).owns = false) (ha : s.heap a = none)
    (hr : (s.content src).isSome) :
    Run (s.copy src dst a) ∧ (s.copy src dst a).content dst = s.content src ∧
    (src ≠ dst → (s.copy src dst a).content src = s.content src ∧ (s.copy src dst a).buf src = s.buf src) :=
  ⟨.step h (.copy src dst a hi ha hr), copy_content' h.inv.small hr,
    fun hne => ⟨copy_other ha hne hr, alloc_buf s dst _ _ a src hne⟩⟩

/-- **C67, a move.**  The destination has what the source had, with the same memory; the source is empty. -/
theorem C67_move {s : St} (h : Run s) {src dst : Nat} (hne : src ≠ dst) (hi : (s.buf dst).owns = false) :
    Run (s.move src dst) ∧ (s.move src dst).buf dst = s.buf src ∧ (s.move src dst).buf src = {} ∧
    (s.move src dst).heap = s.heap ∧ (s.move src dst).content dst = s.content src := by
  have hb : (s.move src dst).buf dst = s.buf src := by
    show upd (upd s.buf dst (s.buf src)) src {} dst = _
    rw [upd_ne _ _ (Ne.symm hne), upd_self]
  refine ⟨.step h (.move src dst hne hi), hb, upd_self _ _ _, rfl, ?_⟩
  unfold St.content
  rw [hb]; rfl

/-- **C67, owners are independent.**  Whatever a program does next, a buffer that owns memory keeps its bytes until
    a call on this very buffer changes it. -/
theorem C67_independent {s t : St} (h : Run s) (hst : Step s t) {i : Nat} (hi : (s.buf i).owns = true)
    (hb : t.buf i = s.buf i) : t.content i = s.content i := by
  obtain ⟨p, b, h1, h2, h3⟩ := content_owned h.inv hi
  have hfresh : ∀ a, s.heap a = none → p ≠ a := by
    rintro a ha rfl; rw [ha] at h2; cases h2
  have hp : ∀ q, (s.buf i).data = some q → q = p := by
    intro q hq; rw [h1] at hq; exact (Option.some.inj hq).symm
  cases hst with
  | user a b ha => exact content_congr hb (fun q hq => by rw [hp q hq]; exact upd_ne _ _ (hfresh a ha))
  | userFree a b ha =>
    refine content_congr hb (fun q hq => ?_)
    rw [hp q hq]
    refine upd_ne _ _ ?_
    rintro rfl
    obtain ⟨q', b', k1, k2, _, k4⟩ := h.inv.own i hi
    rw [hp q' k1, ha] at k2
    rw [← Option.some.inj k2] at k4
    split at k4 <;> cases k4
  | ref => exact content_congr hb (fun _ _ => rfl)
  | adoptMalloc j a b hj ha => exact content_congr hb (fun q hq => by rw [hp q hq]; exact upd_ne _ _ (hfresh a ha))
  | adoptNew j a b hj ha => exact content_congr hb (fun q hq => by rw [hp q hq]; exact upd_ne _ _ (hfresh a ha))
  | alloc j n a d hj ha => exact content_congr hb (fun q hq => by rw [hp q hq]; exact alloc_heap s j n d a p (hfresh a ha))
  | copy src dst a hj ha => exact content_congr hb (fun q hq => by rw [hp q hq]; exact alloc_heap s dst _ _ a p (hfresh a ha))
  | refer => exact content_congr hb (fun _ _ => rfl)
  | move => exact content_congr hb (fun _ _ => rfl)
  | clear => exact content_congr hb (fun _ _ => rfl)
  | free j =>
    refine content_congr hb (fun q hq => ?_)
    by_cases ho : (s.buf j).owns = true
    · obtain ⟨q', b', k1, k2, e⟩ := free_owned h.inv ho
      rw [e]
      refine upd_ne _ _ ?_
      rintro rfl
      have hij := h.inv.uniq i j hi ho (hq.trans k1.symm)
      subst hij
      rw [free_buf h.inv, if_pos ⟨rfl, hi⟩] at hb
      rw [← hb] at hi; cases hi
    · rw [free_unowned (by simpa using ho)]
  | resize j n a fill hn hn2 hf ha =>
    by_cases hto : (s.buf j).toFree = true
    · have hown : (s.buf j).owns = true := by unfold Buf.owns; rw [hto]; rfl
      obtain ⟨q', b', k1, k2, k3, k4⟩ := h.inv.own j hown
      rw [if_pos hto] at k4
      by_cases hij : i = j
      · -- the same size at the same address
        subst hij
        have e : (s.resize i n a fill).buf i = { s.buf i with data := some a, size := n % 2^32 } := by
          unfold St.resize
          rw [if_pos hto, if_neg (by omega)]
          exact upd_self _ _ _
        rw [hb] at e
        have e1 : (s.buf i).data = some a := by rw [e]
        have e2 : (s.buf i).size = n := by rw [e]; exact Nat.mod_eq_of_lt hn2
        have hpa : a = p := hp a e1
        have hqp : q' = p := hp q' k1
        subst hpa; subst hqp
        rw [k2] at h2; cases h2
        have hh : (s.resize i n q' fill).heap q' = some ⟨b.bytes, .malloc⟩ := by
          unfold St.resize
          rw [if_pos hto, if_neg (by omega), k1, dealloc_some k2 k4]
          dsimp only
          rw [upd_self]
          simp only [k2, Option.map_some, Option.getD_some]
          have : b.bytes.take n = b.bytes := by rw [← e2, ← k3, List.take_length]
          rw [this, List.take_append_of_le_length (by omega), this]
        have hinv := (Step.resize (s := s) i n q' fill hn hn2 hf ha).inv h.inv
        have hi' : ((s.resize i n q' fill).buf i).owns = true := by rw [hb]; exact hi
        obtain ⟨q2, b2, l1, l2, l3⟩ := content_owned hinv hi'
        rw [hb, k1] at l1
        cases l1
        rw [hh] at l2; cases l2
        rw [l3, h3]
      · refine content_congr hb (fun q hq => ?_)
        have hq1 := hp q hq
        have hne : p ≠ q' := by
          rintro rfl
          exact hij (h.inv.uniq i j hi hown (h1.trans k1.symm))
        have hna : p ≠ a := by
          rcases ha with ha | ha
          · exact hfresh a ha
          · rw [k1] at ha; cases ha; exact hne
        rw [hq1]
        unfold St.resize
        rw [if_pos hto, if_neg (by omega), k1, dealloc_some k2 k4]
        dsimp only
        rw [upd_ne _ _ hna, upd_ne _ _ hne]
    · have : s.resize j n a fill = s := by unfold St.resize; rw [if_neg hto]
      rw [this]

/-! ### Records -/

/-- **C67, the copy of a record**, also `clone` into a record without key and value: key, value and meta are copied
    to memory that the new record owns; the old record is as before. -/
theorem C67_record_copy {s : St} (h : Run s) {src dst a b c : Nat} (hne : src ≠ dst)
    (hk : (s.buf (key dst)).owns = false) (hv : (s.buf (val dst)).owns = false)
    (hm : (s.buf (meta_ dst)).owns = false) (ha : s.heap a = none) (hb : s.heap b = none) (hc : s.heap c = none)
    (hab : b ≠ a) (hac : c ≠ a) (hbc : c ≠ b)
    (rk : (s.content (key src)).isSome) (rv : (s.content (val src)).isSome) (rm : (s.content (meta_ src)).isSome) :
    Run (s.recCopy src dst a b c) ∧
    (s.recCopy src dst a b c).content (key dst) = s.content (key src) ∧
    (s.recCopy src dst a b c).content (val dst) = s.content (val src) ∧
    (s.recCopy src dst a b c).content (meta_ dst) = s.content (meta_ src) ∧
    (s.recCopy src dst a b c).content (key src) = s.content (key src) ∧
    (s.recCopy src dst a b c).content (val src) = s.content (val src) ∧
    (s.recCopy src dst a b c).content (meta_ src) = s.content (meta_ src) := by
  have n1 : key src ≠ key dst := by unfold key; omega
  have n2 : val src ≠ key dst := by unfold key val; omega
  have n3 : meta_ src ≠ key dst := by unfold key meta_; omega
  have n4 : key dst ≠ val dst := by unfold key val; omega
  have n5 : key src ≠ val dst := by unfold key val; omega
  have n6 : val src ≠ val dst := by unfold val; omega
  have n7 : meta_ src ≠ val dst := by unfold val meta_; omega
  have n8 : key dst ≠ meta_ dst := by unfold key meta_; omega
  have n9 : val dst ≠ meta_ dst := by unfold val meta_; omega
  have n10 : key src ≠ meta_ dst := by unfold key meta_; omega
  have n11 : val src ≠ meta_ dst := by unfold val meta_; omega
  have n12 : meta_ src ≠ meta_ dst := by unfold meta_; omega
  unfold St.recCopy
  -- the key
  have r1 : Run (s.copy (key src) (key dst) a) := .step h (.copy _ _ _ hk ha rk)
  have c1 := copy_content' h.inv.small (dst := key dst) (a := a) rk
  have o1k := copy_other (src := key src) (dst := key dst) ha n1 rk
  have o1v := copy_other (src := key src) (dst := key dst) ha n2 rv
  have o1m := copy_other (src := key src) (dst := key dst) ha n3 rm
  have hb1 : (s.copy (key src) (key dst) a).heap b = none := (alloc_heap s _ _ _ a b hab).trans hb
  have hc1 : (s.copy (key src) (key dst) a).heap c = none := (alloc_heap s _ _ _ a c hac).trans hc
  have hv1 : ((s.copy (key src) (key dst) a).buf (val dst)).owns = false := by
    rw [show (s.copy (key src) (key dst) a).buf (val dst) = s.buf (val dst) from alloc_buf s _ _ _ a _ n4.symm]; exact hv
  have hm1 : ((s.copy (key src) (key dst) a).buf (meta_ dst)).owns = false := by
    rw [show (s.copy (key src) (key dst) a).buf (meta_ dst) = s.buf (meta_ dst) from alloc_buf s _ _ _ a _ n8.symm]; exact hm
  generalize s.copy (key src) (key dst) a = s1 at *
  -- the value
  have rv1 : (s1.content (val src)).isSome := by rw [o1v]; exact rv
  have r2 : Run (s1.copy (val src) (val dst) b) := .step r1 (.copy _ _ _ hv1 hb1 rv1)
  have c2 := copy_content' r1.inv.small (dst := val dst) (a := b) rv1
  have o2d := copy_other (src := val src) (dst := val dst) hb1 n4 (by rw [c1]; exact rk)
  have o2k := copy_other (src := val src) (dst := val dst) hb1 n5 (by rw [o1k]; exact rk)
  have o2v := copy_other (src := val src) (dst := val dst) hb1 n6 rv1
  have o2m := copy_other (src := val src) (dst := val dst) hb1 n7 (by rw [o1m]; exact rm)
  have hc2 : (s1.copy (val src) (val dst) b).heap c = none := (alloc_heap s1 _ _ _ b c hbc).trans hc1
  have hm2 : ((s1.copy (val src) (val dst) b).buf (meta_ dst)).owns = false := by
    rw [show (s1.copy (val src) (val dst) b).buf (meta_ dst) = s1.buf (meta_ dst) from alloc_buf s1 _ _ _ b _ n9.symm]
    exact hm1
  generalize s1.copy (val src) (val dst) b = s2 at *
  -- the meta
  have e2m : s2.content (meta_ src) = s.content (meta_ src) := o2m.trans o1m
  have rm2 : (s2.content (meta_ src)).isSome := by rw [e2m]; exact rm
  have e2d : s2.content (key dst) = s.content (key src) := o2d.trans c1
  have e2v : s2.content (val dst) = s.content (val src) := c2.trans o1v
  refine ⟨.step r2 (.copy _ _ _ hm2 hc2 rm2), ?_, ?_, ?_, ?_, ?_, ?_⟩
  · rw [copy_other hc2 n8 (by rw [e2d]; exact rk), e2d]
  · rw [copy_other hc2 n9 (by rw [e2v]; exact rv), e2v]
  · rw [copy_content' r2.inv.small rm2, e2m]
  · rw [copy_other hc2 n10 (by rw [o2k, o1k]; exact rk), o2k, o1k]
  · rw [copy_other hc2 n11 (by rw [o2v, o1v]; exact rv), o2v, o1v]
  · rw [copy_other hc2 n12 rm2, e2m]

/-- **C67, clone** refuses a record that has a key or a value and then changes nothing; otherwise it is a copy. -/
theorem C67_clone (s : St) (src dst a b c : Nat) :
    (((s.buf (key dst)).data ≠ none ∨ (s.buf (val dst)).data ≠ none) → s.recClone src dst a b c = (false, s)) ∧
    (((s.buf (key dst)).data = none ∧ (s.buf (val dst)).data = none) →
      s.recClone src dst a b c = (true, s.recCopy src dst a b c)) := by
  unfold St.recClone
  constructor
  · rintro (h | h)
    · rw [if_pos]; rw [Option.isSome_iff_ne_none.2 h]; rfl
    · rw [if_pos]; rw [Option.isSome_iff_ne_none.2 h, Bool.or_true]
  · rintro ⟨h1, h2⟩
    rw [h1, h2]; rfl

/-- **C67, the move of a record.**  The destination has the key, the value and the meta of the source, with the same
    memory; the source is empty and owns nothing. -/
theorem C67_record_move {s : St} (h : Run s) {src dst : Nat} (hne : src ≠ dst)
    (hk : (s.buf (key dst)).owns = false) (hv : (s.buf (val dst)).owns = false)
    (hm : (s.buf (meta_ dst)).owns = false) :
    Run (s.recMove src dst) ∧ (s.recMove src dst).heap = s.heap ∧
    (s.recMove src dst).buf (key dst) = s.buf (key src) ∧ (s.recMove src dst).buf (val dst) = s.buf (val src) ∧
    (s.recMove src dst).buf (meta_ dst) = s.buf (meta_ src) ∧
    (s.recMove src dst).buf (key src) = {} ∧ (s.recMove src dst).buf (val src) = {} ∧
    (s.recMove src dst).buf (meta_ src) = {} := by
  have n1 : key src ≠ key dst := by unfold key; omega
  have n2 : val src ≠ val dst := by unfold val; omega
  have n3 : meta_ src ≠ meta_ dst := by unfold meta_; omega
  have b1 : ∀ (t : St) (x y j : Nat), j ≠ x → j ≠ y → (t.move x y).buf j = t.buf j := by
    intro t x y j hx hy
    show upd (upd t.buf y (t.buf x)) x {} j = _
    rw [upd_ne _ _ hx, upd_ne _ _ hy]
  have b2 : ∀ (t : St) (x y : Nat), (t.move x y).buf x = {} := fun t x y => upd_self _ _ _
  have b3 : ∀ (t : St) (x y : Nat), x ≠ y → (t.move x y).buf y = t.buf x := by
    intro t x y hxy
    show upd (upd t.buf y (t.buf x)) x {} y = _
    rw [upd_ne _ _ (Ne.symm hxy), upd_self]
  have b4 : ∀ (t : St) (x j : Nat), j ≠ x → (t.clear x).buf j = t.buf j := fun t x j hj => upd_ne _ _ hj
  have b5 : ∀ (t : St) (x : Nat), (t.clear x).buf x = {} := fun t x => upd_self _ _ _
  have d : ∀ x y z : Nat, 3 * x ≠ 3 * y + 1 ∧ 3 * x ≠ 3 * y + 2 ∧ 3 * x + 1 ≠ 3 * y + 2 := by intros; omega
  have e1 : key src ≠ val src := (d src src 0).1
  have e2 : key src ≠ meta_ src := (d src src 0).2.1
  have e3 : val src ≠ meta_ src := (d src src 0).2.2
  have e4 : key dst ≠ val src := (d dst src 0).1
  have e5 : key dst ≠ meta_ src := (d dst src 0).2.1
  have e6 : val dst ≠ meta_ src := (d dst src 0).2.2
  have e7 : key src ≠ val dst := (d src dst 0).1
  have e8 : key src ≠ meta_ dst := (d src dst 0).2.1
  have e9 : val src ≠ meta_ dst := (d src dst 0).2.2
  have e10 : key dst ≠ val dst := (d dst dst 0).1
  have e11 : key dst ≠ meta_ dst := (d dst dst 0).2.1
  have e12 : val dst ≠ meta_ dst := (d dst dst 0).2.2
  refine ⟨?_, rfl, ?_, ?_, ?_, ?_, ?_, ?_⟩
  · have r1 : Run (s.move (key src) (key dst)) := .step h (.move _ _ n1 hk)
    have r2 : Run ((s.move (key src) (key dst)).move (val src) (val dst)) :=
      .step r1 (.move _ _ n2 (by rw [b1 _ _ _ _ e7.symm e10.symm]; exact hv))
    have r3 : Run (((s.move (key src) (key dst)).move (val src) (val dst)).move (meta_ src) (meta_ dst)) :=
      .step r2 (.move _ _ n3 (by rw [b1 _ _ _ _ e9.symm e12.symm, b1 _ _ _ _ e8.symm e11.symm]; exact hm))
    have r4 := Run.step r3 (.clear (key src) (by
      rw [b1 _ _ _ _ e2 e8, b1 _ _ _ _ e1 e7, b2]; rfl))
    have r5 := Run.step r4 (.clear (val src) (by
      rw [b4 _ _ _ e1.symm, b1 _ _ _ _ e3 e9, b2]; rfl))
    exact Run.step r5 (.clear (meta_ src) (by
      rw [b4 _ _ _ e3.symm, b4 _ _ _ e2.symm, b2]; rfl))
  · unfold St.recMove
    rw [b4 _ _ _ e5, b4 _ _ _ e4, b4 _ _ _ n1.symm, b1 _ _ _ _ e5 e11, b1 _ _ _ _ e4 e10, b3 _ _ _ n1]
  · unfold St.recMove
    rw [b4 _ _ _ e6, b4 _ _ _ n2.symm, b4 _ _ _ e7.symm, b1 _ _ _ _ e6 e12, b3 _ _ _ n2, b1 _ _ _ _ e1.symm e4.symm]
  · unfold St.recMove
    rw [b4 _ _ _ n3.symm, b4 _ _ _ e9.symm, b4 _ _ _ e8.symm, b3 _ _ _ n3, b1 _ _ _ _ e3.symm e6.symm,
      b1 _ _ _ _ e2.symm e5.symm]
  · unfold St.recMove
    rw [b4 _ _ _ e2, b4 _ _ _ e1, b5]
  · unfold St.recMove
    rw [b4 _ _ _ e3, b5]
  · unfold St.recMove
    rw [b5]

/-- **C67, the free of a record** gives back what its key, value and meta own; nothing else changes owner. -/
theorem C67_record_free {s : St} (h : Run s) (r : Nat) :
    Run (s.recFree r) ∧ ∀ j, ((s.recFree r).buf j).owns = true →
      (s.buf j).owns = true ∧ j ≠ key r ∧ j ≠ val r ∧ j ≠ meta_ r := by
  have e : s.recFree r = freeAll s [key r, val r, meta_ r] := rfl
  rw [e]
  refine ⟨freeAll_run h, fun j hj => ?_⟩
  obtain ⟨h1, h2⟩ := freeAll_owns h j hj
  simp only [List.mem_cons, List.not_mem_nil, or_false, not_or] at h2
  exact ⟨h1, h2⟩

/-! ### Witnesses -/

namespace MemEx

/-- A user string at address 1, copied into buffer 0; buffer 0 moved to buffer 2; the string is gone. -/
def m1 : St := St.init.userAlloc 1 [104, 105] .user
def m2 : St := m1.alloc 0 2 (some 1) 7
def m3 : St := m2.userFree 1
def m4 : St := m3.move 0 2

theorem m2_run : Run m2 := .step (.step .init (.user 1 _ rfl)) (.alloc 0 2 7 (some 1) rfl rfl (by decide)
  (by intro p hp; cases hp; decide))
theorem m4_run : Run m4 := .step (.step m2_run (.userFree 1 [104, 105] rfl)) (.move 0 2 (by decide) rfl)

example : m4.content 2 = some [104, 105] ∧ (m4.buf 0) = {} ∧ (m4.buf 2).owns = true := by decide
example : (m4.free 2).1 = true ∧ (m4.free 2).2.heap 7 = none ∧ ((m4.free 2).2.free 2).1 = false := by decide
/-- A copy in buffer 5 keeps its bytes when the source is freed. -/
example : ((m4.copy 2 5 9).free 2).2.content 5 = some [104, 105] := by decide
example : Run (m4.copy 2 5 9) := (C67_copy m4_run rfl rfl rfl).1
/-- Buffer 2 grows in place. -/
example : (m4.resize 2 3 7 [33]).content 2 = some [104, 105, 33] ∧
    Run (m4.resize 2 3 7 [33]) := ⟨by decide, .step m4_run (.resize 2 3 7 [33] (by decide) (by decide) (by decide) (Or.inr rfl))⟩

/-- Freeing all buffers up to 9 leaves nothing. -/
example : (freeAll m4 [0, 1, 2, 3, 4, 5, 6, 7, 8, 9]).heap 7 = none := by decide

/-- Record 0 has the key `hi` (buffer 0); it is copied to record 1. -/
example : (m3.recCopy 0 1 20 21 22).content (key 1) = some [104, 105] ∧ (m3.recMove 0 1).content (key 1) = some [104, 105] := by
  decide

end MemEx
open MemEx

/-- **C67 fails: `resize(0)`** frees the memory but the buffer goes on owning it; the free that follows, or the end
    of its `Holder`, frees it again. -/
theorem C67_resize_zero_violation : ∃ s, Run s ∧ (s.resize 2 0 0 []).bad = false ∧
    ((s.resize 2 0 0 []).buf 2).owns = true ∧ (s.resize 2 0 0 []).content 2 = none ∧
    ((s.resize 2 0 0 []).free 2).2.bad = true :=
  ⟨m4, m4_run, by decide, by decide, by decide, by decide⟩

/-- **C67 fails: a buffer moved to itself** is empty, and its memory is never freed. -/
theorem C67_self_move_violation : ∃ s, Run s ∧ s.content 2 = some [104, 105] ∧ (s.move 2 2).buf 2 = {} ∧
    (∀ i, ((s.move 2 2).buf i).owns = false) ∧ ∃ b, (s.move 2 2).heap 7 = some b ∧ b.kind = .malloc := by
  refine ⟨m4, m4_run, by decide, by decide, fun i => ?_, _, rfl, rfl⟩
  by_cases h2 : i = 2
  · subst h2; rfl
  · show (upd (upd m4.buf 2 (m4.buf 2)) 2 {} i).owns = false
    rw [upd_ne _ _ h2, upd_ne _ _ h2]
    show (upd (upd m3.buf 2 (m3.buf 0)) 0 {} i).owns = false
    by_cases h0 : i = 0
    · subst h0; rfl
    · rw [upd_ne _ _ h0, upd_ne _ _ h2]
      show (upd m1.buf 0 _ i).owns = false
      rw [upd_ne _ _ h0]; rfl

/-- **The rule on `operator=` is needed**: after an assignment both buffers own the memory, and freeing both frees it
    twice. -/
theorem C67_assign_violation : ∃ s, Run s ∧ (((s.assign 4 2).free 2).2.free 4).2.bad = true :=
  ⟨m4, m4_run, by decide⟩

/-- **The rule on overwriting is needed**: allocating into a buffer that owns memory loses the old memory; `clone` has
    the same effect on the meta of a record that has neither key nor value, and returns OK. -/
theorem C67_overwrite_violation : ∃ s, Run s ∧
    (((s.alloc 2 1 none 9).free 2).2.heap 7).isSome = true ∧
    (s.recClone 1 0 20 21 22).1 = true ∧ ((s.recClone 1 0 20 21 22).2.recFree 0).heap 7 ≠ none :=
  ⟨m4, m4_run, by decide, by decide, by decide⟩

/-- **C67 fails: sizes of 4 GiB and more** are cut to 32 bits: a buffer set on, or allocated from, `2^32 + n` bytes holds
    the first `n` of them. -/
theorem C67_huge_violation (n : Nat) (hn : 0 < n) (hn2 : n < 2^32) (x : Bytes) (hx : x.length = 2^32 + n) :
    ((St.init.userAlloc 1 x .user).set 0 x.length (some 1)).content 0 = some (x.take n) ∧
    ((St.init.userAlloc 1 x .user).alloc 0 x.length (some 1) 2).content 0 = some (x.take n) ∧
    x.take n ≠ x := by
  have hm : x.length % 2^32 = n := by omega
  have hread : (St.init.userAlloc 1 x .user).read 1 n = some (x.take n) := by
    unfold St.read St.userAlloc
    dsimp only
    rw [upd_self]
    dsimp only
    rw [if_pos (by omega)]
  have hl : (x.take n).length = n := by rw [List.length_take]; omega
  refine ⟨?_, ?_, ?_⟩
  · have e : ((St.init.userAlloc 1 x .user).set 0 x.length (some 1)).buf 0 = { size := n, data := some 1 } := by
      show upd (St.init.userAlloc 1 x .user).buf 0 { size := x.length % 2^32, data := some 1 } 0 = _
      rw [upd_self, hm]
    rw [content_at (n := n) (p := 1) (by rw [e]) (by omega) (by rw [e])]
    exact hread
  · unfold St.alloc
    rw [if_neg (by omega)]
    dsimp only
    rw [hm, hread]
    rw [content_at (n := n) (p := 2) (by show Buf.size (upd _ _ _ 0) = _; rw [upd_self]) (by omega)
        (by show Buf.data (upd _ _ _ 0) = _; rw [upd_self])]
    exact read_all (k := .malloc) (upd_self (St.init.userAlloc 1 x .user).heap 2 _) hl
  · intro h
    have := congrArg List.length h
    omega

end Jungle
