import Verif.Timer.Model
import Mathlib.Data.List.Nodup
import Mathlib.Order.Nat

namespace Jungle.Timer

/-- the task the coordinator has taken from the list -/
def Co.hand : Co → Option Nat
  | .fire id .. | .exec id _ | .called id _ | .calling id _ | .ending id _ => some id
  | _ => none

/-- taken, not started -/
def Co.toRun : Co → Option Nat
  | .fire id .. | .exec id _ => some id
  | _ => none

/-- in its handler -/
def Co.runs : Co → Option Nat
  | .called id _ | .calling id _ | .ending id _ => some id
  | _ => none

/-- past its handler -/
def Co.over : Co → Option Nat
  | .ending id _ => some id
  | _ => none

/-- the timer of a wake-up -/
def Ev.wokenId : Ev → Option Nat
  | .woken id _ => some id
  | _ => none

structure Inv (s : St) : Prop where
  lt : ∀ id ∈ s.timed, id < s.tasks.length
  nd : s.timed.Nodup
  hand : ∀ id, s.co.hand = some id → id < s.tasks.length ∧ id ∉ s.timed ∧
    ∀ t, s.tasks[id]? = some t → t.reg + t.interval < s.now
  wait : s.co ≠ .undefined → ∀ id, statOf s id = some .waiting → id ∈ s.timed ∨ s.co.toRun = some id
  run : s.co ≠ .undefined → ∀ id, statOf s id = some .running ↔ s.co.runs = some id
  reg : ∀ (id : Nat) t, s.tasks[id]? = some t → t.reg ≤ s.now
  set : ∀ id db d t0, Ev.set id db d t0 ∈ s.log ↔ ∃ st, s.tasks[id]? = some ⟨db, t0, d, st⟩
  wok : ∀ id t, Ev.woken id t ∈ s.log → t ≤ s.now ∧ ∃ tk, s.tasks[id]? = some tk ∧
    tk.reg + tk.interval < t ∧ (tk.st = .done ∨ s.co.over = some id)
  once : (s.log.filterMap Ev.wokenId).Nodup
  can : ∀ id, Ev.cancelled id ∈ s.log → statOf s id = some .done ∧ ∀ t, Ev.woken id t ∉ s.log
  fin : ∀ id, statOf s id = some .done → Ev.cancelled id ∈ s.log ∨ ∃ t, Ev.woken id t ∈ s.log
  endg : ∀ id, s.co.over = some id → ∃ t, Ev.woken id t ∈ s.log

theorem getElem?_setStat (s : St) (id j : Nat) (v : TStat) :
    (setStat s id v)[j]? = (s.tasks[j]?).map (fun t => if j = id then { t with st := v } else t) := by
  unfold setStat
  rw [List.getElem?_modify]
  cases s.tasks[j]? with
  | none => rfl
  | some t => by_cases h : id = j <;> simp [h, eq_comm]

theorem length_setStat (s : St) (id : Nat) (v : TStat) : (setStat s id v).length = s.tasks.length := by
  simp [setStat]

theorem Inv.init : Inv .init := by
  constructor <;> simp [St.init, Co.hand, Co.over, statOf, Co.runs]

theorem rest_hand (a b : Nat) : (rest a b).hand = none ∧ (rest a b).toRun = none ∧
    (rest a b).runs = none ∧ (rest a b).over = none ∧ rest a b ≠ .undefined := by
  unfold rest; split <;> simp [Co.hand, Co.toRun, Co.runs, Co.over]

/-- Steps that change neither the tasks nor the list nor the log. -/
theorem Inv.frame {s s' : St} (h : Inv s) (ht : s'.tasks = s.tasks) (hl : s'.timed = s.timed)
    (hg : s'.log = s.log) (hn : s.now ≤ s'.now)
    (hh : ∀ id, s'.co.hand = some id → s.co.hand = some id)
    (hw : ∀ id, s.co.toRun = some id → statOf s id = some .waiting → s'.co.toRun = some id)
    (hr : s'.co ≠ .undefined → s.co ≠ .undefined ∧ s'.co.runs = s.co.runs)
    (ho : s'.co.over = s.co.over) : Inv s' := by
  have e : ∀ id, statOf s' id = statOf s id := fun id => by unfold statOf; rw [ht]
  obtain ⟨a1, a2, a3, a4, a5, a6, a7, a8, a9, a10, a11, a12⟩ := h
  constructor
  · rw [ht, hl]; exact a1
  · rw [hl]; exact a2
  · intro id hd
    obtain ⟨b1, b2, b3⟩ := a3 id (hh id hd)
    rw [ht, hl]; exact ⟨b1, b2, fun t h => Nat.lt_of_lt_of_le (b3 t h) hn⟩
  · intro hu id hs
    rw [e] at hs; rw [hl]
    exact (a4 (hr hu).1 id hs).imp (fun h => h) (fun h => hw id h hs)
  · intro hu id; rw [e, (hr hu).2]; exact a5 (hr hu).1 id
  · intro id t h; rw [ht] at h; exact Nat.le_trans (a6 id t h) hn
  · intro id db d t0; rw [hg, ht]; exact a7 id db d t0
  · intro id t h
    rw [hg] at h; rw [ht, ho]
    obtain ⟨b1, b2⟩ := a8 id t h
    exact ⟨Nat.le_trans b1 hn, b2⟩
  · rw [hg]; exact a9
  · intro id h; rw [hg] at h ⊢; rw [e]; exact a10 id h
  · intro id h; rw [hg]; rw [e] at h; exact a11 id h
  · intro id h; rw [hg]; rw [ho] at h; exact a12 id h

theorem rest_frame {s : St} (h : Inv s) (hr : s.co.runs = none) (hu : s.co ≠ .undefined)
    (hw : ∀ id, s.co.toRun = some id → statOf s id ≠ some .waiting) (n : Nat) (b : Bool) :
    Inv (s.rest n b) := by
  obtain ⟨r1, r2, r3, r4, r5⟩ := rest_hand s.now n
  refine h.frame rfl rfl rfl (Nat.le_refl _) ?_ (fun id h1 h2 => absurd h2 (hw id h1)) (fun _ => ⟨hu, ?_⟩) ?_
  · intro id hd; simp [St.rest, r1] at hd
  · show (rest s.now n).runs = _; rw [r3, hr]
  · show (rest s.now n).over = _; rw [r4]
    cases hc : s.co <;> simp_all [Co.runs, Co.over]

theorem Inv.take {s : St} (h : Inv s) {pos sleep id : Nat} {t : Task} (hc : s.co = .scan pos sleep)
    (hi : s.timed[pos]? = some id) (ht : s.tasks[id]? = some t) (hf : t.interval < s.now - t.reg) :
    Inv { s with timed := s.timed.eraseIdx pos, co := .fire id pos sleep } := by
  obtain ⟨a1, a2, a3, a4, a5, a6, a7, a8, a9, a10, a11, a12⟩ := h
  have hu : s.co ≠ .undefined := by rw [hc]; exact fun h => nomatch h
  obtain ⟨hp, hpe⟩ := List.getElem?_eq_some_iff.1 hi
  have hmem : id ∈ s.timed := hpe ▸ List.getElem_mem hp
  have hers : s.timed.eraseIdx pos = s.timed.erase id := by
    rw [← hpe]; exact (List.Nodup.erase_getElem a2 _ hp).symm
  refine ⟨?_, ?_, ?_, ?_, ?_, a6, a7, ?_, a9, a10, a11, ?_⟩
  · intro j hj; exact a1 j (List.mem_of_mem_eraseIdx hj)
  · exact a2.eraseIdx pos
  · intro j hj
    simp only [Co.hand, Option.some.injEq] at hj; subst hj
    refine ⟨a1 _ hmem, ?_, ?_⟩
    · show id ∉ s.timed.eraseIdx pos
      rw [hers]; exact a2.not_mem_erase
    · intro t' ht'
      have : t' = t := by simpa using ht'.symm.trans ht
      subst this; show _ < s.now; omega
  · intro _ j hj
    rcases a4 hu j hj with h1 | h1
    · by_cases e : j = id
      · subst e; exact Or.inr rfl
      · left
        show j ∈ s.timed.eraseIdx pos
        rw [hers]; exact (List.mem_erase_of_ne e).2 h1
    · rw [hc] at h1; exact absurd h1 (by simp [Co.toRun])
  · intro _ j
    refine (a5 hu j).trans ?_
    rw [hc]; simp [Co.runs]
  · intro j t' h'
    have := a8 j t' h'
    rw [hc] at this; exact this
  · intro j hj; exact absurd hj (by simp [Co.over])

theorem Inv.start {s : St} (h : Inv s) {sleep id : Nat} (hc : s.co = .exec id sleep)
    (hw : statOf s id = some .waiting) :
    Inv { s with tasks := setStat s id .running, co := .called id sleep } := by
  obtain ⟨a1, a2, a3, a4, a5, a6, a7, a8, a9, a10, a11, a12⟩ := h
  have hu : s.co ≠ .undefined := by rw [hc]; exact fun h => nomatch h
  have hst : ∀ j, statOf { s with tasks := setStat s id .running, co := .called id sleep } j
      = (statOf s j).map (fun v => if j = id then .running else v) := by
    intro j; unfold statOf; dsimp only; rw [getElem?_setStat]
    cases s.tasks[j]? with
    | none => rfl
    | some t => by_cases e : j = id <;> simp [e]
  refine ⟨?_, a2, ?_, ?_, ?_, ?_, ?_, ?_, a9, ?_, ?_, ?_⟩
  · intro j hj; rw [length_setStat]; exact a1 j hj
  · intro j hj
    simp only [Co.hand, Option.some.injEq] at hj; subst hj
    obtain ⟨b1, b2, b3⟩ := a3 id (by rw [hc]; rfl)
    refine ⟨by rw [length_setStat]; exact b1, b2, ?_⟩
    intro t ht
    rw [getElem?_setStat, Option.map_eq_some_iff] at ht
    obtain ⟨t0, h0, rfl⟩ := ht
    rw [if_pos rfl]; exact b3 t0 h0
  · intro _ j hj
    rw [hst] at hj
    cases hs : statOf s j with
    | none => rw [hs] at hj; exact absurd hj (by simp)
    | some v =>
      rw [hs] at hj
      by_cases e : j = id
      · simp [e] at hj
      · simp only [Option.map_some, e, if_false, Option.some.injEq] at hj
        subst hj
        rcases a4 hu j hs with h1 | h1
        · exact Or.inl h1
        · rw [hc] at h1; simp only [Co.toRun, Option.some.injEq] at h1; exact absurd h1.symm e
  · intro _ j
    rw [hst]
    show _ ↔ some id = some j
    rw [Option.some.injEq]
    by_cases e : j = id
    · subst e; rw [hw]; simp
    · have : statOf s j ≠ some .running := fun h' => by
        have := (a5 hu j).1 h'; rw [hc] at this; exact absurd this (by simp [Co.runs])
      have e' : id ≠ j := fun h => e h.symm
      cases hs : statOf s j with
      | none => simp [e']
      | some v =>
        rw [hs] at this
        have : v ≠ .running := fun h => this (by rw [h])
        simp [e, e', this]
  · intro j t ht
    rw [getElem?_setStat, Option.map_eq_some_iff] at ht
    obtain ⟨t0, h0, rfl⟩ := ht
    have := a6 j t0 h0
    split <;> exact this
  · intro j db d t0
    rw [a7]
    constructor
    · rintro ⟨st, h0⟩
      refine ⟨if j = id then .running else st, ?_⟩
      rw [getElem?_setStat, h0]; by_cases e : j = id <;> simp [e]
    · rintro ⟨st, h0⟩
      rw [getElem?_setStat, Option.map_eq_some_iff] at h0
      obtain ⟨t1, h1, h2⟩ := h0
      refine ⟨t1.st, ?_⟩
      rw [h1]; by_cases e : j = id <;> simp [e] at h2 <;> cases t1 <;> simp_all
  · intro j t h'
    obtain ⟨b1, tk, b2, b3, b4⟩ := a8 j t h'
    refine ⟨b1, ?_⟩
    have e : j ≠ id := by
      rintro rfl
      rcases b4 with b4 | b4
      · unfold statOf at hw; rw [b2] at hw; simp [b4] at hw
      · rw [hc] at b4; exact absurd b4 (by simp [Co.over])
    refine ⟨tk, by rw [getElem?_setStat, b2]; simp [e], b3, Or.inl ?_⟩
    rcases b4 with b4 | b4
    · exact b4
    · rw [hc] at b4; exact absurd b4 (by simp [Co.over])
  · intro j hj
    obtain ⟨b1, b2⟩ := a10 j hj
    refine ⟨?_, b2⟩
    rw [hst, b1]
    have e : j ≠ id := by rintro rfl; rw [b1] at hw; exact absurd hw (by simp)
    simp [e]
  · intro j hj
    rw [hst] at hj
    apply a11
    cases hs : statOf s j with
    | none => rw [hs] at hj; exact absurd hj (by simp)
    | some v => rw [hs] at hj; by_cases e : j = id <;> simp [e] at hj ⊢; exact hj
  · intro j hj; exact absurd hj (by simp [Co.over])

theorem Inv.wake {s : St} (h : Inv s) {sleep id : Nat} (hc : s.co = .calling id sleep) :
    Inv { s with log := s.log ++ [.woken id s.now], co := .ending id sleep } := by
  obtain ⟨a1, a2, a3, a4, a5, a6, a7, a8, a9, a10, a11, a12⟩ := h
  have hu : s.co ≠ .undefined := by rw [hc]; exact fun h => nomatch h
  have hrun : statOf s id = some .running := (a5 hu id).2 (by rw [hc]; rfl)
  have hnot : ∀ t, Ev.woken id t ∉ s.log := by
    intro t h'
    obtain ⟨_, tk, b2, _, b4⟩ := a8 id t h'
    rcases b4 with b4 | b4
    · unfold statOf at hrun; rw [b2] at hrun; simp [b4] at hrun
    · rw [hc] at b4; exact absurd b4 (by simp [Co.over])
  refine ⟨a1, a2, ?_, ?_, ?_, a6, ?_, ?_, ?_, ?_, ?_, ?_⟩
  · intro j hj
    exact a3 j (by rw [hc]; exact hj)
  · intro _ j hj
    rcases a4 hu j hj with h1 | h1
    · exact Or.inl h1
    · rw [hc] at h1; exact absurd h1 (by simp [Co.toRun])
  · intro _ j; exact (a5 hu j).trans (by rw [hc]; rfl)
  · intro j db d t0
    rw [← a7]; simp
  · intro j t h'
    simp only [List.mem_append, List.mem_singleton, Ev.woken.injEq] at h'
    rcases h' with h' | ⟨rfl, rfl⟩
    · obtain ⟨b1, tk, b2, b3, b4⟩ := a8 j t h'
      refine ⟨b1, tk, b2, b3, ?_⟩
      rcases b4 with b4 | b4
      · exact Or.inl b4
      · rw [hc] at b4; exact absurd b4 (by simp [Co.over])
    · obtain ⟨b1, b2, b3⟩ := a3 j (by rw [hc]; rfl)
      refine ⟨Nat.le_refl _, s.tasks[j], List.getElem?_eq_getElem b1, ?_, Or.inr rfl⟩
      exact b3 _ (List.getElem?_eq_getElem b1)
  · dsimp only
    rw [List.filterMap_append]
    refine List.nodup_append.2 ⟨a9, by simp [Ev.wokenId], ?_⟩
    intro x hx y hy
    simp only [Ev.wokenId, List.filterMap_cons, List.filterMap_nil, List.mem_singleton] at hy
    rintro rfl; subst hy
    obtain ⟨ev, he, h2⟩ := List.mem_filterMap.1 hx
    cases ev <;> simp [Ev.wokenId] at h2
    subst h2; exact hnot _ he
  · intro j hj
    simp only [List.mem_append, List.mem_singleton, reduceCtorEq, or_false] at hj
    obtain ⟨b1, b2⟩ := a10 j hj
    refine ⟨b1, fun t h' => ?_⟩
    simp only [List.mem_append, List.mem_singleton, Ev.woken.injEq] at h'
    rcases h' with h' | ⟨rfl, rfl⟩
    · exact b2 t h'
    · rw [b1] at hrun; exact absurd hrun (by simp)
  · intro j hj
    rcases a11 j hj with h1 | ⟨t, h1⟩
    · exact Or.inl (List.mem_append_left _ h1)
    · exact Or.inr ⟨t, List.mem_append_left _ h1⟩
  · intro j hj
    simp only [Co.over, Option.some.injEq] at hj; subst hj
    exact ⟨s.now, List.mem_append_right _ (List.mem_singleton_self _)⟩

theorem statOf_set (s s' : St) (id : Nat) (v : TStat) (h : s'.tasks = setStat s id v) (j : Nat) :
    statOf s' j = (statOf s j).map (fun w => if j = id then v else w) := by
  unfold statOf; rw [h, getElem?_setStat]
  cases s.tasks[j]? with
  | none => rfl
  | some t => by_cases e : j = id <;> simp [e]

/-- A task becomes done: its handler is over, or it was cancelled while waiting. -/
theorem Inv.toDone {s s' : St} (h : Inv s) {id : Nat} (ht : s'.tasks = setStat s id .done)
    (hl : s'.timed = s.timed) (hn : s'.now = s.now)
    (hsub : ∀ e ∈ s.log, e ∈ s'.log)
    (hset : ∀ j db d t0, Ev.set j db d t0 ∈ s'.log ↔ Ev.set j db d t0 ∈ s.log)
    (hwok : ∀ j t, Ev.woken j t ∈ s'.log ↔ Ev.woken j t ∈ s.log)
    (hwid : s'.log.filterMap Ev.wokenId = s.log.filterMap Ev.wokenId)
    (hcan : ∀ j, Ev.cancelled j ∈ s'.log → Ev.cancelled j ∈ s.log ∨
      (j = id ∧ statOf s id = some .waiting))
    (hu : s.co ≠ .undefined)
    (hin : (statOf s id).isSome)
    (hev : Ev.cancelled id ∈ s'.log ∨ ∃ t, Ev.woken id t ∈ s.log)
    (hh : ∀ j, s'.co.hand = some j → s.co.hand = some j)
    (hw : ∀ j, s.co.toRun = some j → j ≠ id → s'.co.toRun = some j)
    (hr : ∀ j, s'.co.runs = some j ↔ s.co.runs = some j ∧ j ≠ id)
    (ho : ∀ j, s'.co.over = some j ↔ s.co.over = some j ∧ j ≠ id) : Inv s' := by
  have hst := statOf_set s s' id .done ht
  obtain ⟨a1, a2, a3, a4, a5, a6, a7, a8, a9, a10, a11, a12⟩ := h
  refine ⟨?_, ?_, ?_, ?_, ?_, ?_, ?_, ?_, ?_, ?_, ?_, ?_⟩
  · rw [ht, hl, length_setStat]; exact a1
  · rw [hl]; exact a2
  · intro j hj
    obtain ⟨b1, b2, b3⟩ := a3 j (hh j hj)
    rw [ht, hl, length_setStat, hn]
    refine ⟨b1, b2, fun t h' => ?_⟩
    rw [getElem?_setStat, Option.map_eq_some_iff] at h'
    obtain ⟨t0, h0, rfl⟩ := h'
    have := b3 t0 h0
    split <;> exact this
  · intro _ j hj
    rw [hst] at hj
    by_cases e : j = id
    · cases hs : statOf s j <;> rw [hs] at hj <;> simp [e] at hj
    · have hj' : statOf s j = some .waiting := by
        cases hs : statOf s j <;> rw [hs] at hj <;> simp [e] at hj ⊢; exact hj
      rw [hl]
      exact (a4 hu j hj').imp (fun h => h) (fun h => hw j h e)
  · intro _ j
    rw [hst, hr, ← a5 hu j]
    by_cases e : j = id
    · cases hs : statOf s j <;> simp [e]
    · cases hs : statOf s j <;> simp [e]
  · intro j t h'
    rw [ht, getElem?_setStat, Option.map_eq_some_iff] at h'
    obtain ⟨t0, h0, rfl⟩ := h'
    have := a6 j t0 h0
    rw [hn]; split <;> exact this
  · intro j db d t0
    rw [hset, a7, ht]
    constructor
    · rintro ⟨st, h0⟩
      refine ⟨if j = id then .done else st, ?_⟩
      rw [getElem?_setStat, h0]; by_cases e : j = id <;> simp [e]
    · rintro ⟨st, h0⟩
      rw [getElem?_setStat, Option.map_eq_some_iff] at h0
      obtain ⟨t1, h1, h2⟩ := h0
      refine ⟨t1.st, ?_⟩
      rw [h1]; by_cases e : j = id <;> simp [e] at h2 <;> cases t1 <;> simp_all
  · intro j t h'
    rw [hwok] at h'
    obtain ⟨b1, tk, b2, b3, b4⟩ := a8 j t h'
    rw [hn]
    refine ⟨b1, (if j = id then { tk with st := .done } else tk), ?_, ?_, ?_⟩
    · rw [ht, getElem?_setStat, b2]; rfl
    · split <;> exact b3
    · by_cases e : j = id
      · left; rw [if_pos e]
      · rw [if_neg e]
        rcases b4 with b4 | b4
        · exact Or.inl b4
        · exact Or.inr ((ho j).2 ⟨b4, e⟩)
  · rw [hwid]; exact a9
  · intro j hj
    rcases hcan j hj with h1 | ⟨rfl, h1⟩
    · obtain ⟨b1, b2⟩ := a10 j h1
      refine ⟨by rw [hst, b1]; by_cases e : j = id <;> simp [e], fun t h' => b2 t ((hwok j t).1 h')⟩
    · refine ⟨by rw [hst, h1]; simp, fun t h' => ?_⟩
      obtain ⟨_, tk, b2, _, b4⟩ := a8 j t ((hwok j t).1 h')
      rcases b4 with b4 | b4
      · unfold statOf at h1; rw [b2] at h1; simp [b4] at h1
      · have : statOf s j = some .running := (a5 hu j).2 (by cases hc : s.co <;> simp_all [Co.over, Co.runs])
        rw [this] at h1; exact absurd h1 (by simp)
  · intro j hj
    rw [hst] at hj
    by_cases e : j = id
    · subst e; exact hev.imp (fun h => h) (fun ⟨t, h⟩ => ⟨t, (hwok j t).2 h⟩)
    · have hj' : statOf s j = some .done := by
        cases hs : statOf s j <;> rw [hs] at hj <;> simp [e] at hj ⊢; exact hj
      rcases a11 j hj' with h1 | ⟨t, h1⟩
      · exact Or.inl (hsub _ h1)
      · exact Or.inr ⟨t, hsub _ h1⟩
  · intro j hj
    obtain ⟨t, h1⟩ := a12 j ((ho j).1 hj).1
    exact ⟨t, hsub _ h1⟩

/-- More entries of the log that are neither timers nor wake-ups nor cancellations. -/
theorem Inv.logged {s s' : St} (h : Inv s) (ht : s'.tasks = s.tasks) (hl : s'.timed = s.timed)
    (hn : s'.now = s.now) (hc : s'.co = s.co) (e : Ev)
    (he : (∃ a b c d, e = .relied a b c d) ∨ ∃ a, e = .closed a) (hg : s'.log = s.log ++ [e]) : Inv s' := by
  have h0 : Inv { s' with log := s.log } := by
    refine h.frame ht hl rfl (by dsimp only; omega) ?_ ?_ ?_ ?_ <;> dsimp only <;> rw [hc]
    · exact fun _ h => h
    · exact fun _ h _ => h
    · exact fun h => ⟨h, rfl⟩
  obtain ⟨a1, a2, a3, a4, a5, a6, a7, a8, a9, a10, a11, a12⟩ := h0
  have m1 : ∀ j db d t0, Ev.set j db d t0 ∈ s'.log ↔ Ev.set j db d t0 ∈ s.log := by
    intros; rw [hg]; rcases he with ⟨_, _, _, _, rfl⟩ | ⟨_, rfl⟩ <;> simp
  have m2 : ∀ j t, Ev.woken j t ∈ s'.log ↔ Ev.woken j t ∈ s.log := by
    intros; rw [hg]; rcases he with ⟨_, _, _, _, rfl⟩ | ⟨_, rfl⟩ <;> simp
  have m3 : ∀ j, Ev.cancelled j ∈ s'.log ↔ Ev.cancelled j ∈ s.log := by
    intros; rw [hg]; rcases he with ⟨_, _, _, _, rfl⟩ | ⟨_, rfl⟩ <;> simp
  refine ⟨a1, a2, a3, a4, a5, a6, ?_, ?_, ?_, ?_, ?_, ?_⟩
  · intro j db d t0; rw [m1]; exact a7 j db d t0
  · intro j t h'; rw [m2] at h'; exact a8 j t h'
  · rw [hg, List.filterMap_append]
    rcases he with ⟨_, _, _, _, rfl⟩ | ⟨_, rfl⟩ <;> exact (List.append_nil _).symm ▸ a9
  · intro j h'; rw [m3] at h'
    obtain ⟨b1, b2⟩ := a10 j h'
    exact ⟨b1, fun t h'' => b2 t ((m2 j t).1 h'')⟩
  · intro j h'
    rcases a11 j h' with h1 | ⟨t, h1⟩
    · exact Or.inl ((m3 j).2 h1)
    · exact Or.inr ⟨t, (m2 j t).2 h1⟩
  · intro j h'
    obtain ⟨t, h1⟩ := a12 j h'
    exact ⟨t, (m2 j t).2 h1⟩

theorem Inv.add {s : St} (h : Inv s) (db delay : Nat) :
    Inv { s with
      tasks := s.tasks ++ [⟨db, s.now, delay, .waiting⟩]
      timed := s.timed ++ [s.tasks.length]
      job := (db, s.tasks.length) :: s.job
      signal := true
      log := s.log ++ [.set s.tasks.length db delay s.now] } := by
  obtain ⟨a1, a2, a3, a4, a5, a6, a7, a8, a9, a10, a11, a12⟩ := h
  have hget : ∀ j t, (s.tasks ++ [(⟨db, s.now, delay, .waiting⟩ : Task)])[j]? = some t ↔
      s.tasks[j]? = some t ∨ (j = s.tasks.length ∧ t = ⟨db, s.now, delay, .waiting⟩) := by
    intro j t
    rw [List.getElem?_append]
    split
    · next h => 
      constructor
      · exact Or.inl
      · rintro (h' | ⟨h', _⟩)
        · exact h'
        · omega
    · next h =>
      have : s.tasks[j]? = none := List.getElem?_eq_none (by omega)
      rw [this]
      by_cases e : j = s.tasks.length
      · subst e; simp [eq_comm]
      · have : j - s.tasks.length ≠ 0 := by omega
        obtain ⟨k, hk⟩ := Nat.exists_eq_succ_of_ne_zero this
        rw [hk]; simp [e]
  have hst : ∀ j v, statOf { s with tasks := s.tasks ++ [(⟨db, s.now, delay, .waiting⟩ : Task)], timed := s.timed ++ [s.tasks.length], job := (db, s.tasks.length) :: s.job, signal := true, log := s.log ++ [.set s.tasks.length db delay s.now] } j = some v ↔
      statOf s j = some v ∨ (j = s.tasks.length ∧ v = .waiting) := by
    intro j v
    unfold statOf; dsimp only
    simp only [Option.map_eq_some_iff, hget]
    constructor
    · rintro ⟨t, h1 | ⟨h1, h2⟩, h3⟩
      · exact Or.inl ⟨t, h1, h3⟩
      · subst h2; exact Or.inr ⟨h1, h3.symm⟩
    · rintro (⟨t, h1, h3⟩ | ⟨h1, h2⟩)
      · exact ⟨t, Or.inl h1, h3⟩
      · exact ⟨_, Or.inr ⟨h1, rfl⟩, h2.symm⟩
  have hfar : ∀ {j : Nat} {v : TStat}, statOf s j = some v → j < s.tasks.length := by
    intro j v hv
    unfold statOf at hv
    rw [Option.map_eq_some_iff] at hv
    obtain ⟨t, h1, _⟩ := hv
    exact (List.getElem?_eq_some_iff.1 h1).1
  refine ⟨?_, ?_, ?_, ?_, ?_, ?_, ?_, ?_, ?_, ?_, ?_, ?_⟩
  · intro j hj
    simp only [List.mem_append, List.mem_singleton] at hj
    dsimp only; rw [List.length_append]
    rcases hj with hj | rfl
    · have := a1 j hj; simp; omega
    · simp
  · refine List.nodup_append.2 ⟨a2, by simp, ?_⟩
    intro x hx y hy
    rw [List.mem_singleton] at hy
    have := a1 x hx; omega
  · intro j hj
    obtain ⟨b1, b2, b3⟩ := a3 j hj
    refine ⟨by dsimp only; rw [List.length_append]; omega, ?_, ?_⟩
    · dsimp only; rw [List.mem_append, List.mem_singleton]
      rintro (h' | h')
      · exact b2 h'
      · omega
    · intro t h'
      rcases (hget j t).1 h' with h1 | ⟨h1, _⟩
      · exact b3 t h1
      · omega
  · intro hu j hj
    rcases (hst j _).1 hj with h1 | ⟨h1, _⟩
    · exact (a4 hu j h1).imp (fun h => List.mem_append_left _ h) (fun h => h)
    · exact Or.inl (List.mem_append_right _ (by rw [h1]; exact List.mem_singleton_self _))
  · intro hu j
    rw [hst, ← a5 hu j]; simp
  · intro j t h'
    rcases (hget j t).1 h' with h1 | ⟨_, rfl⟩
    · exact a6 j t h1
    · exact Nat.le_refl _
  · intro j db' d t0
    simp only [List.mem_append, List.mem_singleton, a7, hget, Ev.set.injEq]
    constructor
    · rintro (⟨st, h1⟩ | ⟨rfl, rfl, rfl, rfl⟩)
      · exact ⟨st, Or.inl h1⟩
      · exact ⟨.waiting, Or.inr ⟨rfl, rfl⟩⟩
    · rintro ⟨st, h1 | ⟨h1, h2⟩⟩
      · exact Or.inl ⟨st, h1⟩
      · right; injection h2 with e1 e2 e3 e4; exact ⟨h1, e1, e3, e2⟩
  · intro j t h'
    simp only [List.mem_append, List.mem_singleton, reduceCtorEq, or_false] at h'
    obtain ⟨b1, tk, b2, b3⟩ := a8 j t h'
    exact ⟨b1, tk, (hget j tk).2 (Or.inl b2), b3⟩
  · dsimp only; rw [List.filterMap_append]; exact (List.append_nil _).symm ▸ a9
  · intro j h'
    simp only [List.mem_append, List.mem_singleton, reduceCtorEq, or_false] at h'
    obtain ⟨b1, b2⟩ := a10 j h'
    refine ⟨(hst j _).2 (Or.inl b1), fun t h'' => ?_⟩
    simp only [List.mem_append, List.mem_singleton, reduceCtorEq, or_false] at h''
    exact b2 t h''
  · intro j h'
    rcases (hst j _).1 h' with h1 | ⟨_, h1⟩
    · rcases a11 j h1 with h1 | ⟨t, h1⟩
      · exact Or.inl (List.mem_append_left _ h1)
      · exact Or.inr ⟨t, List.mem_append_left _ h1⟩
    · exact absurd h1 (by simp)
  · intro j h'
    obtain ⟨t, h1⟩ := a12 j h'
    exact ⟨t, List.mem_append_left _ h1⟩

theorem Inv.coStep {s s' : St} (h : Inv s) (e : coStep s = some s') : Inv s' := by
  unfold Timer.coStep at e
  split at e
  · next due hc =>
    split at e
    · injection e with e; subst e
      refine h.frame rfl rfl rfl (Nat.le_refl _) ?_ ?_ ?_ ?_ <;> rw [hc] <;> simp [Co.hand, Co.toRun, Co.runs, Co.over]
    · exact absurd e (by simp)
  · next hc =>
    injection e with e; subst e
    refine h.frame rfl rfl rfl (Nat.le_refl _) ?_ ?_ ?_ ?_ <;> rw [hc] <;> simp [Co.hand, Co.toRun, Co.runs, Co.over]
  · next pos sleep hc =>
    split at e
    · injection e with e; subst e
      exact rest_frame h (by rw [hc]; rfl) (by rw [hc]; exact fun h => nomatch h)
        (by rw [hc]; exact fun _ h => nomatch h) _ _
    · next id hi =>
      split at e
      · exact absurd e (by simp)
      · next t ht =>
        split at e
        · next hf => injection e with e; subst e; exact h.take hc hi ht hf
        · injection e with e; subst e
          refine h.frame rfl rfl rfl (Nat.le_refl _) ?_ ?_ ?_ ?_ <;> rw [hc] <;> simp [Co.hand, Co.toRun, Co.runs, Co.over]
  · next id pos sleep hc =>
    split at e
    · next hd =>
      have hw : ∀ j, s.co.toRun = some j → statOf s j ≠ some .waiting := by
        intro j hj; rw [hc] at hj; simp only [Co.toRun, Option.some.injEq] at hj; subst hj
        rw [hd]; simp
      split at e <;> (injection e with e; subst e)
      · refine h.frame rfl rfl rfl (Nat.le_refl _) ?_ (fun j h1 h2 => absurd h2 (hw j h1)) ?_ ?_ <;> rw [hc] <;> simp [Co.hand, Co.runs, Co.over]
      · refine h.frame rfl rfl rfl (Nat.le_refl _) ?_ (fun j h1 h2 => absurd h2 (hw j h1)) ?_ ?_ <;> rw [hc] <;> simp [Co.hand, Co.over]
    · injection e with e; subst e
      refine h.frame rfl rfl rfl (Nat.le_refl _) ?_ ?_ ?_ ?_ <;> rw [hc] <;> simp [Co.hand, Co.toRun, Co.runs, Co.over]
  · next id sleep hc =>
    split at e
    · next hw => injection e with e; subst e; exact h.start hc hw
    · next hw =>
      injection e with e; subst e
      refine rest_frame h (by rw [hc]; rfl) (by rw [hc]; exact fun h => nomatch h) ?_ _ _
      intro j hj; rw [hc] at hj; simp only [Co.toRun, Option.some.injEq] at hj; subst hj; exact hw
  · next id sleep hc =>
    split at e
    · exact absurd e (by simp)
    · split at e <;> (injection e with e; subst e) <;>
        (refine h.frame rfl rfl rfl (Nat.le_refl _) ?_ ?_ ?_ ?_ <;> rw [hc] <;> simp [Co.hand, Co.toRun, Co.runs, Co.over])
  · next id sleep hc => injection e with e; subst e; exact h.wake hc
  · next id sleep hc =>
    injection e with e; subst e
    obtain ⟨r1, r2, r3, r4, r5⟩ := rest_hand s.now sleep
    have hu : s.co ≠ .undefined := by rw [hc]; exact fun h => nomatch h
    refine h.toDone (id := id) rfl rfl rfl (fun _ h => h) (fun _ _ _ _ => Iff.rfl) (fun _ _ => Iff.rfl) rfl
      (fun _ h => Or.inl h) hu ?_ (Or.inr (h.endg id (by rw [hc]; rfl))) ?_ ?_ ?_ ?_
    · rw [(h.run hu id).2 (by rw [hc]; rfl)]; rfl
    · intro j hj; change (rest s.now sleep).hand = _ at hj; rw [r1] at hj; exact absurd hj (by simp)
    · intro j hj; rw [hc] at hj; exact absurd hj (by simp [Co.toRun])
    · intro j; change (rest s.now sleep).runs = _ ↔ _; rw [r3, hc]; simp [Co.runs, eq_comm]
    · intro j; change (rest s.now sleep).over = _ ↔ _; rw [r4, hc]; simp [Co.over, eq_comm]
  · exact absurd e (by simp)

theorem Inv.request {s s' : St} (h : Inv s) {db delay : Nat} (e : request s db delay = some s') : Inv s' := by
  unfold Timer.request at e
  split at e
  · exact absurd e (by simp)
  · dsimp only at e
    split at e
    · split at e
      · exact absurd e (by simp)
      · injection e with e; subst e; exact h.add db delay
    · next id _ =>
      split at e
      · split at e
        · exact absurd e (by simp)
        · injection e with e; subst e; exact h.add db delay
      · injection e with e; subst e
        exact h.logged rfl rfl rfl rfl _ (Or.inl ⟨_, _, _, _, rfl⟩) rfl

theorem Inv.close {s s' : St} (h : Inv s) (hu : s.co ≠ .undefined) {db : Nat} (e : close s db = some s') :
    Inv s' := by
  unfold Timer.close at e
  split at e
  · exact absurd e (by simp)
  · split at e
    · injection e with e; subst e
      exact h.logged rfl rfl rfl rfl _ (Or.inr ⟨_, rfl⟩) rfl
    · next id _ =>
      split at e
      · next hw =>
        injection e with e; subst e
        have hnr : s.co.runs ≠ some id := fun h' => by
          rw [(h.run hu id).2 h'] at hw; exact absurd hw (by simp)
        have hno : s.co.over ≠ some id := fun h' => hnr (by cases hc : s.co <;> simp_all [Co.over, Co.runs])
        refine h.toDone (id := id) rfl rfl rfl (fun _ h => List.mem_append_left _ h) (by simp) (by simp)
          (by dsimp only; rw [List.filterMap_append]; simp [Ev.wokenId]) ?_ hu (by rw [hw]; rfl) (Or.inl (by simp))
          (fun _ h => h) (fun _ h _ => h) ?_ ?_
        · intro j hj
          simp only [List.mem_append, List.mem_cons, List.not_mem_nil, or_false, Ev.cancelled.injEq, reduceCtorEq] at hj
          exact hj.imp (fun h => h) (fun h => ⟨h, hw⟩)
        · intro j; exact ⟨fun h => ⟨h, fun e => hnr (e ▸ h)⟩, fun h => h.1⟩
        · intro j; exact ⟨fun h => ⟨h, fun e => hno (e ▸ h)⟩, fun h => h.1⟩
      · injection e with e; subst e
        exact h.logged rfl rfl rfl rfl _ (Or.inr ⟨_, rfl⟩) rfl

theorem Inv.step {s s' : St} (h : Inv s) (a : Act) (e : step s a = some s') : Inv s' := by
  cases a with
  | tick n =>
    unfold Timer.step at e; dsimp only at e
    split at e
    · exact absurd e (by simp)
    · next hu =>
      injection e with e; subst e
      exact h.frame rfl rfl rfl (by dsimp only; omega) (fun _ h => h) (fun _ h _ => h) (fun _ => ⟨hu, rfl⟩) rfl
  | co => exact h.coStep e
  | spurious =>
    unfold Timer.step at e; dsimp only at e
    split at e
    · next hc =>
      injection e with e; subst e
      refine h.frame rfl rfl rfl (Nat.le_refl _) ?_ ?_ ?_ ?_ <;> rw [hc] <;> simp [Co.hand, Co.toRun, Co.runs, Co.over]
    · exact absurd e (by simp)
  | request db delay =>
    unfold Timer.step at e; dsimp only at e
    split at e
    · exact absurd e (by simp)
    · exact h.request e
  | close db =>
    unfold Timer.step at e; dsimp only at e
    split at e
    · exact absurd e (by simp)
    · next hu => exact h.close hu e

theorem Reach.inv {q : Bool} {s : St} (h : Reach q s) : Inv s := by
  induction h with
  | init => exact Inv.init
  | step a _ _ e ih => exact ih.step a e

/-- How long the coordinator sleeps. -/
structure Nap (s : St) : Prop where
  sleeping : ∀ due, s.co = .sleeping due → s.ended ≤ s.now ∧ due + BUSY ≤ s.ended + MAX_SLEEP ∧
    (s.took = false → s.signal = false → ∀ id ∈ s.timed, ∀ t, s.tasks[id]? = some t →
      due + BUSY ≤ t.reg + t.interval + (s.ended - s.began))
  scan : ∀ pos sleep, s.co = .scan pos sleep → s.began ≤ s.now ∧ sleep ≤ MAX_SLEEP ∧
    (sleep = 0 ∨ ∀ i id, i < pos → s.timed[i]? = some id → ∀ t, s.tasks[id]? = some t →
      sleep + s.began ≤ t.reg + t.interval)
  fire : ∀ f pos sleep, s.co = .fire f pos sleep → s.began ≤ s.now ∧ sleep ≤ MAX_SLEEP ∧
    (sleep = 0 ∨ ∀ i id, i < pos → s.timed[i]? = some id → ∀ t, s.tasks[id]? = some t →
      sleep + s.began ≤ t.reg + t.interval)
  other : ∀ id sleep, s.co = .exec id sleep ∨ s.co = .called id sleep ∨ s.co = .calling id sleep ∨
    s.co = .ending id sleep → sleep ≤ MAX_SLEEP

theorem Nap.init : Nap .init := by
  constructor
  · intro due h
    simp only [St.init, Co.sleeping.injEq] at h
    subst h
    simp [St.init, BUSY, MAX_SLEEP]
  all_goals intros; simp_all [St.init]

/-- statuses do not matter -/
theorem Nap.frame {s s' : St} (h : Nap s)
    (ht : ∀ (j : Nat) t, s'.tasks[j]? = some t → ∃ t0, s.tasks[j]? = some t0 ∧ t0.reg = t.reg ∧ t0.interval = t.interval)
    (hl : s'.timed = s.timed) (hc : s'.co = s.co) (hn : s.now ≤ s'.now) (hb : s'.began = s.began)
    (he : s'.ended = s.ended) (hk : s'.took = s.took) (hs : s'.signal = s.signal) : Nap s' := by
  obtain ⟨a1, a2, a3, a4⟩ := h
  constructor
  · intro due h
    rw [hc] at h
    obtain ⟨b1, b2, b3⟩ := a1 due h
    rw [he, hk, hs, hl, hb]
    refine ⟨Nat.le_trans b1 hn, b2, fun c1 c2 id hid t h' => ?_⟩
    obtain ⟨t0, d1, d2, d3⟩ := ht id t h'
    rw [← d2, ← d3]; exact b3 c1 c2 id hid t0 d1
  · intro pos sleep h
    rw [hc] at h
    obtain ⟨b1, b2, b3⟩ := a2 pos sleep h
    rw [hl, hb]
    refine ⟨Nat.le_trans b1 hn, b2, b3.imp (fun h => h) (fun b3 i id hi hid t h' => ?_)⟩
    obtain ⟨t0, d1, d2, d3⟩ := ht id t h'
    rw [← d2, ← d3]; exact b3 i id hi hid t0 d1
  · intro f pos sleep h
    rw [hc] at h
    obtain ⟨b1, b2, b3⟩ := a3 f pos sleep h
    rw [hl, hb]
    refine ⟨Nat.le_trans b1 hn, b2, b3.imp (fun h => h) (fun b3 i id hi hid t h' => ?_)⟩
    obtain ⟨t0, d1, d2, d3⟩ := ht id t h'
    rw [← d2, ← d3]; exact b3 i id hi hid t0 d1
  · intro id sleep h; rw [hc] at h; exact a4 id sleep h

theorem setStat_same (s : St) (id : Nat) (v : TStat) (j : Nat) (t : Task) (h : (setStat s id v)[j]? = some t) :
    ∃ t0, s.tasks[j]? = some t0 ∧ t0.reg = t.reg ∧ t0.interval = t.interval := by
  rw [getElem?_setStat, Option.map_eq_some_iff] at h
  obtain ⟨t0, h0, rfl⟩ := h
  exact ⟨t0, h0, by split <;> rfl, by split <;> rfl⟩

theorem rest_cases (now sleep : Nat) : (sleep ≤ BUSY ∧ rest now sleep = .woke) ∨
    (BUSY < sleep ∧ rest now sleep = .sleeping (now + (sleep - BUSY))) := by
  unfold rest; split
  · next h => exact Or.inr ⟨h, rfl⟩
  · next h => exact Or.inl ⟨Nat.le_of_not_lt h, rfl⟩

/-- the end of a pass that took a task -/
theorem Nap.rested {s : St} {sleep : Nat} (hs : sleep ≤ MAX_SLEEP) : Nap (s.rest sleep true) := by
  rcases rest_cases s.now sleep with ⟨h1, h2⟩ | ⟨h1, h2⟩
  · constructor <;> intros <;> simp_all [St.rest]
  · constructor
    · intro due h
      change rest s.now sleep = _ at h
      rw [h2] at h; injection h with h; subst h
      refine ⟨Nat.le_refl _, ?_, fun h => nomatch h⟩
      show s.now + (sleep - BUSY) + BUSY ≤ s.now + MAX_SLEEP
      omega
    all_goals intros; simp_all [St.rest]

theorem Nap.coStep {s s' : St} (h : Nap s) (hi : Inv s) (e : coStep s = some s') : Nap s' := by
  unfold Timer.coStep at e
  split at e
  · next due hc =>
    split at e
    · injection e with e; subst e; constructor <;> intros <;> simp_all
    · exact absurd e (by simp)
  · next hc =>
    injection e with e; subst e
    constructor
    · intros; simp_all
    · intro pos sleep h'
      simp only [Co.scan.injEq] at h'
      obtain ⟨rfl, rfl⟩ := h'
      exact ⟨Nat.le_refl _, Nat.le_refl _, Or.inr (fun i id h => absurd h (Nat.not_lt_zero _))⟩
    · intros; simp_all
    · intros; simp_all
  · next pos sleep hc =>
    obtain ⟨b1, b2, b3⟩ := h.scan pos sleep hc
    split at e
    · next hend =>
      injection e with e; subst e
      have hlen : s.timed.length ≤ pos := by
        rw [List.getElem?_eq_none_iff] at hend; exact hend
      rcases rest_cases s.now sleep with ⟨h1, h2⟩ | ⟨h1, h2⟩
      · constructor <;> intros <;> simp_all [St.rest]
      · constructor
        · intro due h'
          change rest s.now sleep = _ at h'
          rw [h2] at h'; injection h' with h'; subst h'
          refine ⟨Nat.le_refl _, ?_, ?_⟩
          · show s.now + (sleep - BUSY) + BUSY ≤ s.now + MAX_SLEEP
            omega
          · intro _ _ id hid t ht
            obtain ⟨i, hlt, hget⟩ := List.mem_iff_getElem.1 hid
            have hlt' : i < s.timed.length := hlt
            rcases b3 with b3 | b3
            · omega
            · have := b3 i id (by omega) (List.getElem?_eq_some_iff.2 ⟨hlt, hget⟩) t ht
              show s.now + (sleep - BUSY) + BUSY ≤ t.reg + t.interval + (s.now - s.began)
              omega
        all_goals intros; simp_all [St.rest]
    · next id hget =>
      split at e
      · exact absurd e (by simp)
      · next t ht =>
        split at e
        · next hf =>
          injection e with e; subst e
          constructor
          · intros; simp_all
          · intros; simp_all
          · intro f p sl h'
            simp only [Co.fire.injEq] at h'
            obtain ⟨rfl, rfl, rfl⟩ := h'
            refine ⟨b1, b2, b3.imp (fun h => h) (fun b3 i j hij hj t' ht' => ?_)⟩
            refine b3 i j hij ?_ t' ht'
            change (s.timed.eraseIdx pos)[i]? = some j at hj
            rw [List.getElem?_eraseIdx, if_pos hij] at hj
            exact hj
          · intros; simp_all
        · next hf =>
          injection e with e; subst e
          have hreg := hi.reg id t ht
          constructor
          · intros; simp_all
          · intro p sl h'
            simp only [Co.scan.injEq] at h'
            obtain ⟨rfl, rfl⟩ := h'
            refine ⟨b1, Nat.min_le_right _ _, ?_⟩
            rcases b3 with b3 | b3
            · left; rw [b3]; simp
            · right
              intro i j hij hj t' ht'
              by_cases hip : i = pos
              · subst hip
                have e1 : j = id := by simpa using hj.symm.trans hget
                subst e1
                have e2 : t' = t := by simpa using ht'.symm.trans ht
                subst e2
                have h1 : min (min sleep (t'.interval - (s.now - t'.reg))) MAX_SLEEP ≤ t'.interval - (s.now - t'.reg) :=
                  Nat.le_trans (Nat.min_le_left _ _) (Nat.min_le_right _ _)
                show min (min sleep (t'.interval - (s.now - t'.reg))) MAX_SLEEP + s.began ≤ _
                omega
              · have h1 : min (min sleep (t.interval - (s.now - t.reg))) MAX_SLEEP ≤ sleep :=
                  Nat.le_trans (Nat.min_le_left _ _) (Nat.min_le_left _ _)
                have h2 := b3 i j (by omega) hj t' ht'
                show min (min sleep (t.interval - (s.now - t.reg))) MAX_SLEEP + s.began ≤ _
                omega
          · intros; simp_all
          · intros; simp_all
  · next id pos sleep hc =>
    obtain ⟨b1, b2, b3⟩ := h.fire id pos sleep hc
    split at e
    · split at e <;> (injection e with e; subst e)
      · constructor
        · intros; simp_all
        · intro p sl h'
          simp only [Co.scan.injEq] at h'
          obtain ⟨rfl, rfl⟩ := h'
          exact ⟨b1, Nat.min_le_right _ _, Or.inl (by simp)⟩
        · intros; simp_all
        · intros; simp_all
      · constructor <;> intros <;> simp_all
    · injection e with e; subst e
      constructor
      · intros; simp_all
      · intros; simp_all
      · intros; simp_all
      · intro j sl h'
        simp only [Co.exec.injEq, reduceCtorEq, or_false] at h'
        rw [← h'.2]; exact b2
  · next id sleep hc =>
    have b := h.other id sleep (Or.inl hc)
    split at e
    · injection e with e; subst e
      constructor
      · intros; simp_all
      · intros; simp_all
      · intros; simp_all
      · intro j sl h'
        simp only [Co.called.injEq, reduceCtorEq, or_false, false_or] at h'
        rw [← h'.2]; exact b
    · injection e with e; subst e; exact Nap.rested b
  · next id sleep hc =>
    have b := h.other id sleep (Or.inr (Or.inl hc))
    split at e
    · exact absurd e (by simp)
    · split at e <;> (injection e with e; subst e)
      · constructor <;> intros <;> simp_all
      · constructor
        · intros; simp_all
        · intros; simp_all
        · intros; simp_all
        · intro j sl h'
          simp only [Co.calling.injEq, reduceCtorEq, or_false, false_or] at h'
          rw [← h'.2]; exact b
  · next id sleep hc =>
    have b := h.other id sleep (Or.inr (Or.inr (Or.inl hc)))
    injection e with e; subst e
    constructor
    · intros; simp_all
    · intros; simp_all
    · intros; simp_all
    · intro j sl h'
      simp only [Co.ending.injEq, reduceCtorEq, false_or] at h'
      rw [← h'.2]; exact b
  · next id sleep hc =>
    have b := h.other id sleep (Or.inr (Or.inr (Or.inr hc)))
    injection e with e; subst e; exact Nap.rested b
  · exact absurd e (by simp)

theorem Nap.add {s : St} (h : Nap s) (hl : s.co.locked = false) (db delay : Nat) :
    Nap { s with
      tasks := s.tasks ++ [⟨db, s.now, delay, .waiting⟩]
      timed := s.timed ++ [s.tasks.length]
      job := (db, s.tasks.length) :: s.job
      signal := true
      log := s.log ++ [.set s.tasks.length db delay s.now] } := by
  constructor
  · intro due h'
    obtain ⟨b1, b2, _⟩ := h.sleeping due h'
    exact ⟨b1, b2, fun _ h => nomatch h⟩
  · intro pos sleep h'; change s.co = _ at h'; rw [h'] at hl; exact absurd hl (by simp [Co.locked])
  · intro f pos sleep h'; change s.co = _ at h'; rw [h'] at hl; exact absurd hl (by simp [Co.locked])
  · intro id sleep h'; exact h.other id sleep h'

theorem Nap.same {s s' : St} (h : Nap s) (ht : s'.tasks = s.tasks) (hl : s'.timed = s.timed) (hc : s'.co = s.co)
    (hn : s.now ≤ s'.now) (hb : s'.began = s.began)
    (he : s'.ended = s.ended) (hk : s'.took = s.took) (hs : s'.signal = s.signal) : Nap s' :=
  h.frame (fun j t h' => ⟨t, by rw [ht] at h'; exact h', rfl, rfl⟩) hl hc hn hb he hk hs

theorem Reach.nap {q : Bool} {s : St} (h : Reach q s) : Nap s := by
  induction h with
  | init => exact Nap.init
  | @step s s' a hr _ e ih =>
    have hi := hr.inv
    cases a with
    | tick n =>
      unfold Timer.step at e; dsimp only at e
      split at e
      · exact absurd e (by simp)
      · injection e with e; subst e
        exact ih.same rfl rfl rfl (by dsimp only; omega) rfl rfl rfl rfl
    | co => exact ih.coStep hi e
    | spurious =>
      unfold Timer.step at e; dsimp only at e
      split at e
      · injection e with e; subst e; constructor <;> intros <;> simp_all
      · exact absurd e (by simp)
    | request db delay =>
      unfold Timer.step at e; dsimp only at e
      split at e
      · exact absurd e (by simp)
      · unfold Timer.request at e
        split at e
        · exact absurd e (by simp)
        · dsimp only at e
          split at e
          · split at e
            · exact absurd e (by simp)
            · next hl => injection e with e; subst e; exact ih.add (by simpa using hl) db delay
          · split at e
            · split at e
              · exact absurd e (by simp)
              · next hl => injection e with e; subst e; exact ih.add (by simpa using hl) db delay
            · injection e with e; subst e
              exact ih.same rfl rfl rfl (Nat.le_refl _) rfl rfl rfl rfl
    | close db =>
      unfold Timer.step at e; dsimp only at e
      split at e
      · exact absurd e (by simp)
      · unfold Timer.close at e
        split at e
        · exact absurd e (by simp)
        · split at e
          · injection e with e; subst e
            exact ih.same rfl rfl rfl (Nat.le_refl _) rfl rfl rfl rfl
          · split at e <;> (injection e with e; subst e)
            · exact ih.frame (setStat_same s _ _) rfl rfl (Nat.le_refl _) rfl rfl rfl rfl
            · exact ih.same rfl rfl rfl (Nat.le_refl _) rfl rfl rfl rfl

end Jungle.Timer
