import Verif.Timer.Lemmas

namespace Jungle.Timer

/-- While no DB is closed that has a timer left. -/
structure Calm (s : St) : Prop where
  defined : s.co ≠ .undefined
  timed : ∀ id ∈ s.timed, statOf s id = some .waiting
  toRun : ∀ id, s.co.toRun = some id → statOf s id = some .waiting
  kept : ∀ id, Ev.cancelled id ∉ s.log
  job : ∀ (id : Nat) t, s.tasks[id]? = some t → t.st ≠ .done → jobOf s t.db = some id
  dead : ∀ (id : Nat) t, s.tasks[id]? = some t → t.db ∈ s.dead → t.st = .done

theorem Calm.init : Calm .init := by
  constructor <;> simp [St.init, Co.toRun]

/-- steps that change neither tasks nor list nor jobs nor DBs -/
theorem Calm.frame {s s' : St} (h : Calm s) (ht : s'.tasks = s.tasks) (hl : ∀ id ∈ s'.timed, id ∈ s.timed)
    (hg : ∀ id, Ev.cancelled id ∈ s'.log → Ev.cancelled id ∈ s.log) (hj : s'.job = s.job) (hd : s'.dead = s.dead)
    (hu : s'.co ≠ .undefined)
    (hw : ∀ id, s'.co.toRun = some id → s.co.toRun = some id ∨ id ∈ s.timed) : Calm s' := by
  have e : ∀ id, statOf s' id = statOf s id := fun id => by unfold statOf; rw [ht]
  obtain ⟨a1, a2, a3, a4, a5, a6⟩ := h
  refine ⟨hu, ?_, ?_, ?_, ?_, ?_⟩
  · intro id h; rw [e]; exact a2 id (hl id h)
  · intro id h; rw [e]
    rcases hw id h with h | h
    · exact a3 id h
    · exact a2 id h
  · intro id h; exact a4 id (hg id h)
  · intro id t h1 h2
    rw [ht] at h1
    unfold jobOf; rw [hj]; exact a5 id t h1 h2
  · intro id t h1 h2
    rw [ht] at h1; rw [hd] at h2; exact a6 id t h1 h2

theorem rest_calm (a b : Nat) : rest a b ≠ .undefined ∧ (rest a b).toRun = none :=
  ⟨(rest_hand a b).2.2.2.2, (rest_hand a b).2.1⟩

theorem Calm.coStep {s s' : St} (h : Calm s) (hi : Inv s) (e : coStep s = some s') : Calm s' := by
  unfold Timer.coStep at e
  split at e
  · split at e
    · injection e with e; subst e
      exact h.frame rfl (fun _ h => h) (fun _ h => h) rfl rfl (by simp) (by simp [Co.toRun])
    · exact absurd e (by simp)
  · injection e with e; subst e
    exact h.frame rfl (fun _ h => h) (fun _ h => h) rfl rfl (by simp) (by simp [Co.toRun])
  · next pos sleep hc =>
    split at e
    · injection e with e; subst e
      refine h.frame rfl (fun _ h => h) (fun _ h => h) rfl rfl (rest_calm _ _).1 ?_
      intro j hj; change (rest _ _).toRun = _ at hj; rw [(rest_calm _ _).2] at hj; exact absurd hj (by simp)
    · next id hget =>
      split at e
      · exact absurd e (by simp)
      · split at e <;> (injection e with e; subst e)
        · refine h.frame rfl (fun _ h => List.mem_of_mem_eraseIdx h) (fun _ h => h) rfl rfl (by simp) ?_
          intro j hj; simp only [Co.toRun, Option.some.injEq] at hj; subst hj
          exact Or.inr (List.mem_of_getElem? hget)
        · exact h.frame rfl (fun _ h => h) (fun _ h => h) rfl rfl (by simp) (by simp [Co.toRun])
  · next id pos sleep hc =>
    have hw := h.toRun id (by rw [hc]; rfl)
    rw [if_neg (by rw [hw]; simp)] at e
    injection e with e; subst e
    refine h.frame rfl (fun _ h => h) (fun _ h => h) rfl rfl (by simp) ?_
    intro j hj; rw [hc]; exact Or.inl hj
  · next id sleep hc =>
    have hw := h.toRun id (by rw [hc]; rfl)
    rw [if_pos hw] at e
    injection e with e; subst e
    obtain ⟨a1, a2, a3, a4, a5, a6⟩ := h
    have hst := statOf_set s { s with tasks := setStat s id .running, co := .called id sleep } id .running rfl
    refine ⟨by simp, ?_, by simp [Co.toRun], a4, ?_, ?_⟩
    · intro j hj
      have hne : j ≠ id := by rintro rfl; exact (hi.hand j (by rw [hc]; rfl)).2.1 hj
      rw [hst, a2 j hj]; simp [hne]
    · intro j t h1 h2
      rw [getElem?_setStat, Option.map_eq_some_iff] at h1
      obtain ⟨t0, h0, rfl⟩ := h1
      by_cases hj : j = id
      · rw [if_pos hj]
        refine a5 j t0 h0 ?_
        subst hj; unfold statOf at hw; rw [h0] at hw
        intro h'; rw [Option.map_some, h'] at hw; exact absurd hw (by simp)
      · rw [if_neg hj] at h2 ⊢; exact a5 j t0 h0 h2
    · intro j t h1 h2
      rw [getElem?_setStat, Option.map_eq_some_iff] at h1
      obtain ⟨t0, h0, rfl⟩ := h1
      by_cases hj : j = id
      · rw [if_pos hj] at h2
        have := a6 j t0 h0 h2
        subst hj; unfold statOf at hw; rw [h0, Option.map_some, this] at hw; exact absurd hw (by simp)
      · rw [if_neg hj] at h2 ⊢; exact a6 j t0 h0 h2
  · next id sleep hc =>
    split at e
    · exact absurd e (by simp)
    · next t ht =>
      have hr := (hi.run h.defined id).2 (by rw [hc]; rfl)
      split at e
      · next hd =>
        have := h.dead id t ht hd
        unfold statOf at hr; rw [ht, Option.map_some, this] at hr; exact absurd hr (by simp)
      · injection e with e; subst e
        exact h.frame rfl (fun _ h => h) (fun _ h => h) rfl rfl (by simp) (by simp [Co.toRun])
  · injection e with e; subst e
    exact h.frame rfl (fun _ h => h) (by simp) rfl rfl (by simp) (by simp [Co.toRun])
  · next id sleep hc =>
    injection e with e; subst e
    obtain ⟨a1, a2, a3, a4, a5, a6⟩ := h
    have hst := statOf_set s ({ s with tasks := setStat s id .done }.rest sleep true) id .done rfl
    refine ⟨(rest_calm _ _).1, ?_, ?_, a4, ?_, ?_⟩
    · intro j hj
      have hne : j ≠ id := by rintro rfl; exact (hi.hand j (by rw [hc]; rfl)).2.1 hj
      rw [hst, a2 j hj]; simp [hne]
    · intro j hj; change (rest _ _).toRun = _ at hj; rw [(rest_calm _ _).2] at hj; exact absurd hj (by simp)
    · intro j t h1 h2
      change (setStat s id .done)[j]? = _ at h1
      rw [getElem?_setStat, Option.map_eq_some_iff] at h1
      obtain ⟨t0, h0, rfl⟩ := h1
      by_cases hj : j = id
      · rw [if_pos hj] at h2; exact absurd rfl h2
      · rw [if_neg hj] at h2 ⊢; exact a5 j t0 h0 h2
    · intro j t h1 h2
      change (setStat s id .done)[j]? = _ at h1
      rw [getElem?_setStat, Option.map_eq_some_iff] at h1
      obtain ⟨t0, h0, rfl⟩ := h1
      by_cases hj : j = id
      · rw [if_pos hj]
      · rw [if_neg hj] at h2 ⊢; exact a6 j t0 h0 h2
  · exact absurd e (by simp)

theorem Calm.add {s : St} (h : Calm s) {db delay : Nat} (hd : db ∉ s.dead)
    (hjob : ∀ id, jobOf s db = some id → statOf s id = some .done) :
    Calm { s with
      tasks := s.tasks ++ [⟨db, s.now, delay, .waiting⟩]
      timed := s.timed ++ [s.tasks.length]
      job := (db, s.tasks.length) :: s.job
      signal := true
      log := s.log ++ [.set s.tasks.length db delay s.now] } := by
  have old : ∀ (j : Nat) t, (s.tasks ++ [(⟨db, s.now, delay, .waiting⟩ : Task)])[j]? = some t →
      s.tasks[j]? = some t ∨ (j = s.tasks.length ∧ t = ⟨db, s.now, delay, .waiting⟩) := by
    intro j t hj
    rw [List.getElem?_append] at hj
    split at hj
    · exact Or.inl hj
    · next h =>
      by_cases e : j = s.tasks.length
      · subst e; simp at hj; exact Or.inr ⟨rfl, hj.symm⟩
      · obtain ⟨k, hk⟩ := Nat.exists_eq_succ_of_ne_zero (n := j - s.tasks.length) (by omega)
        rw [hk] at hj; simp at hj
  have keep : ∀ (j : Nat) t, s.tasks[j]? = some t → (s.tasks ++ [(⟨db, s.now, delay, .waiting⟩ : Task)])[j]? = some t := by
    intro j t hj
    rw [List.getElem?_append, if_pos (List.getElem?_eq_some_iff.1 hj).1]; exact hj
  have keepS : ∀ j v, statOf s j = some v → ((s.tasks ++ [(⟨db, s.now, delay, .waiting⟩ : Task)])[j]?).map (·.st) = some v := by
    intro j v hv
    unfold statOf at hv; rw [Option.map_eq_some_iff] at hv
    obtain ⟨t, h1, h2⟩ := hv
    rw [keep j t h1, Option.map_some, h2]
  obtain ⟨a1, a2, a3, a4, a5, a6⟩ := h
  refine ⟨a1, ?_, ?_, by simpa using a4, ?_, ?_⟩
  · intro j hj
    simp only [List.mem_append, List.mem_singleton] at hj
    rcases hj with hj | rfl
    · exact keepS j _ (a2 j hj)
    · show ((s.tasks ++ [(⟨db, s.now, delay, .waiting⟩ : Task)])[s.tasks.length]?).map (·.st) = _
      simp
  · intro j hj; exact keepS j _ (a3 j hj)
  · intro j t h1 h2
    unfold jobOf; dsimp only; rw [List.find?_cons]
    rcases old j t h1 with h1 | ⟨rfl, rfl⟩
    · have hdb : t.db ≠ db := by
        intro hdb
        have := a5 j t h1 h2
        rw [hdb] at this
        have := hjob j this
        unfold statOf at this; rw [h1, Option.map_some] at this
        exact h2 (by simpa using this)
      rw [show (decide (db = t.db)) = false from decide_eq_false (fun h => hdb h.symm)]
      exact a5 j t h1 h2
    · simp
  · intro j t h1 h2
    rcases old j t h1 with h1 | ⟨rfl, rfl⟩
    · exact a6 j t h1 h2
    · exact absurd h2 hd

theorem Reach.calm {s : St} (h : Reach true s) : Calm s := by
  induction h with
  | init => exact Calm.init
  | @step s s' a hr hq e ih =>
    have hi := hr.inv
    cases a with
    | tick n =>
      unfold Timer.step at e; dsimp only at e
      rw [if_neg ih.defined] at e
      injection e with e; subst e
      exact ih.frame rfl (fun _ h => h) (fun _ h => h) rfl rfl ih.defined (fun _ h => Or.inl h)
    | co => exact ih.coStep hi e
    | spurious =>
      unfold Timer.step at e; dsimp only at e
      split at e
      · injection e with e; subst e
        exact ih.frame rfl (fun _ h => h) (fun _ h => h) rfl rfl (by simp) (by simp [Co.toRun])
      · exact absurd e (by simp)
    | request db delay =>
      unfold Timer.step at e; dsimp only at e
      rw [if_neg ih.defined] at e
      unfold Timer.request at e
      split at e
      · exact absurd e (by simp)
      · next hd =>
        have hd' : db ∉ s.dead := fun h => hd (Or.inl h)
        dsimp only at e
        split at e
        · next hj =>
          split at e
          · exact absurd e (by simp)
          · injection e with e; subst e
            exact ih.add hd' (fun id h => by rw [hj] at h; exact absurd h (by simp))
        · next id hj =>
          split at e
          · next hdone =>
            split at e
            · exact absurd e (by simp)
            · injection e with e; subst e
              exact ih.add hd' (fun id' h => by
                rw [hj] at h; injection h with h; subst h; exact hdone)
          · injection e with e; subst e
            exact ih.frame rfl (fun _ h => h) (by simp) rfl rfl ih.defined (fun _ h => Or.inl h)
    | close db =>
      have hq' := hq rfl db rfl
      unfold Timer.step at e; dsimp only at e
      rw [if_neg ih.defined] at e
      have key : Calm { s with dead := db :: s.dead, log := s.log ++ [.closed db] } := by
        obtain ⟨a1, a2, a3, a4, a5, a6⟩ := ih
        refine ⟨a1, a2, a3, by simpa using a4, a5, ?_⟩
        intro j t h1 h2
        rcases List.mem_cons.1 h2 with h2 | h2
        · by_contra hne
          have hj := a5 j t h1 hne
          rw [h2] at hj
          have := hq' j hj
          unfold statOf at this; change s.tasks[j]? = _ at h1
          rw [h1, Option.map_some] at this
          exact hne (by simpa using this)
        · exact a6 j t h1 h2
      unfold Timer.close at e
      split at e
      · exact absurd e (by simp)
      · split at e
        · injection e with e; subst e; exact key
        · next id hj =>
          rw [if_neg (by rw [hq' id hj]; simp)] at e
          injection e with e; subst e; exact key

/-! ### every timer fires if the coordinator is let run -/

/-- `s'` is reached from `s` by time passing and the coordinator's own steps. -/
def Leads (s s' : St) : Prop :=
  ∃ as : List Act, (∀ a ∈ as, a = .co ∨ ∃ n, a = .tick n) ∧ run s as = some s'

theorem Leads.refl (s : St) : Leads s s := ⟨[], by simp, rfl⟩

theorem run_append (s : St) (as bs : List Act) : run s (as ++ bs) = (run s as).bind (run · bs) := by
  induction as generalizing s with
  | nil => rfl
  | cons a as ih =>
    show (step s a).bind _ = ((step s a).bind _).bind _
    cases step s a with
    | none => rfl
    | some s1 => exact ih s1

theorem Leads.trans {a b c : St} (h1 : Leads a b) (h2 : Leads b c) : Leads a c := by
  obtain ⟨as, p, q⟩ := h1
  obtain ⟨bs, p', q'⟩ := h2
  refine ⟨as ++ bs, ?_, by rw [run_append, q]; exact q'⟩
  intro x hx
  rcases List.mem_append.1 hx with h | h
  · exact p x h
  · exact p' x h

theorem Leads.one {s s' : St} (e : coStep s = some s') : Leads s s' :=
  ⟨[.co], by simp, by simp [run, step, e]⟩

theorem Leads.tick {s : St} (h : s.co ≠ .undefined) (n : Nat) : Leads s { s with now := s.now + n } :=
  ⟨[.tick n], by simp, by simp [run, step, h]⟩

theorem Reach.leads {q : Bool} {s s' : St} (h : Reach q s) (l : Leads s s') : Reach q s' := by
  obtain ⟨as, p, e⟩ := l
  induction as generalizing s with
  | nil => injection e with e; exact e ▸ h
  | cons a as ih =>
    unfold run at e
    cases hs : Timer.step s a with
    | none => rw [hs] at e; exact absurd e (by simp)
    | some s1 =>
      rw [hs] at e
      refine ih (.step a h ?_ hs) (fun x hx => p x (List.mem_cons_of_mem _ hx)) e
      intro _ db hdb
      rcases p a List.mem_cons_self with h' | ⟨n, h'⟩ <;> rw [h'] at hdb <;> exact absurd hdb (by simp)

theorem coStep_log {s s' : St} (e : coStep s = some s') : ∀ x ∈ s.log, x ∈ s'.log := by
  intro x hx
  unfold coStep at e
  split at e <;> (try split at e) <;> (try split at e) <;> (try split at e) <;>
    cases e <;> first | exact hx | exact List.mem_append_left _ hx

theorem Leads.log {s s' : St} (l : Leads s s') : ∀ x ∈ s.log, x ∈ s'.log := by
  obtain ⟨as, p, e⟩ := l
  induction as generalizing s with
  | nil => injection e with e; exact e ▸ fun _ h => h
  | cons a as ih =>
    unfold run at e
    cases hs : Timer.step s a with
    | none => rw [hs] at e; exact absurd e (by simp)
    | some s1 =>
      rw [hs] at e
      intro x hx
      refine ih (fun y hy => p y (List.mem_cons_of_mem _ hy)) e x ?_
      rcases p a List.mem_cons_self with h' | ⟨n, h'⟩ <;> subst h'
      · exact coStep_log hs x hx
      · unfold Timer.step at hs; dsimp only at hs
        split at hs
        · exact absurd hs (by simp)
        · injection hs with hs; subst hs; exact hx

/-- the coordinator can come to the top of its loop -/
def Wakes (s : St) : Prop := ∃ s', Leads s s' ∧ s'.co = .woke

theorem Wakes.of {s s1 : St} (l : Leads s s1) (h : Wakes s1) : Wakes s := by
  obtain ⟨s2, l2, e⟩ := h
  exact ⟨s2, l.trans l2, e⟩

theorem wakes_sleeping {s : St} {due : Nat} (hc : s.co = .sleeping due) : Wakes s := by
  refine Wakes.of (Leads.tick (by rw [hc]; simp) due) ⟨{ s with now := s.now + due, co := .woke }, Leads.one ?_, rfl⟩
  unfold coStep; dsimp only; rw [hc]; dsimp only
  rw [if_pos (Or.inr (by omega))]

theorem wakes_rest (s : St) (n : Nat) (b : Bool) : Wakes (s.rest n b) := by
  rcases rest_cases s.now n with ⟨_, h⟩ | ⟨_, h⟩
  · exact ⟨_, Leads.refl _, h⟩
  · exact wakes_sleeping (due := s.now + (n - BUSY)) h

theorem wakes_ending {s : St} {id n : Nat} (hc : s.co = .ending id n) : Wakes s :=
  Wakes.of (Leads.one (s' := { s with tasks := setStat s id .done }.rest n true) (by unfold coStep; rw [hc])) (wakes_rest _ _ _)

theorem wakes_calling {s : St} {id n : Nat} (hc : s.co = .calling id n) : Wakes s :=
  Wakes.of (Leads.one (s' := { s with log := s.log ++ [.woken id s.now], co := .ending id n }) (by unfold coStep; rw [hc]))
    (wakes_ending (id := id) (n := n) rfl)

/-- the handler of a running timer goes on to its wake-up -/
theorem called_step {s : St} (h : Reach true s) {id n : Nat} (hc : s.co = .called id n) :
    coStep s = some { s with co := .calling id n } := by
  have hi := h.inv
  have hm := h.calm
  have hlt := (hi.hand id (by rw [hc]; rfl)).1
  have ht : s.tasks[id]? = some s.tasks[id] := List.getElem?_eq_getElem hlt
  have hr := (hi.run hm.defined id).2 (by rw [hc]; rfl)
  unfold coStep; rw [hc]; dsimp only; rw [ht]; dsimp only
  rw [if_neg]
  intro hd
  have := hm.dead id _ ht hd
  unfold statOf at hr; rw [ht, Option.map_some, this] at hr; exact absurd hr (by simp)

theorem wakes_called {s : St} (h : Reach true s) {id n : Nat} (hc : s.co = .called id n) : Wakes s :=
  Wakes.of (Leads.one (called_step h hc)) (wakes_calling (id := id) (n := n) rfl)

theorem exec_step {s : St} (h : Reach true s) {id n : Nat} (hc : s.co = .exec id n) :
    coStep s = some { s with tasks := setStat s id .running, co := .called id n } := by
  unfold coStep; rw [hc]; dsimp only
  rw [if_pos (h.calm.toRun id (by rw [hc]; rfl))]

theorem wakes_exec {s : St} (h : Reach true s) {id n : Nat} (hc : s.co = .exec id n) : Wakes s := by
  have l := Leads.one (exec_step h hc)
  exact Wakes.of l (wakes_called (h.leads l) (id := id) (n := n) rfl)

theorem fire_step {s : St} (h : Reach true s) {id p n : Nat} (hc : s.co = .fire id p n) :
    coStep s = some { s with co := .exec id n } := by
  unfold coStep; rw [hc]; dsimp only
  rw [if_neg (by rw [h.calm.toRun id (by rw [hc]; rfl)]; simp)]

theorem wakes_fire {s : St} (h : Reach true s) {id p n : Nat} (hc : s.co = .fire id p n) : Wakes s := by
  have l := Leads.one (fire_step h hc)
  exact Wakes.of l (wakes_exec (h.leads l) (id := id) (n := n) rfl)

theorem wakes_scan (k : Nat) : ∀ {s : St}, Reach true s → ∀ {p n : Nat}, s.co = .scan p n →
    s.timed.length - p ≤ k → Wakes s := by
  induction k with
  | zero =>
    intro s h p n hc hk
    refine Wakes.of (Leads.one (s' := s.rest n false) ?_) (wakes_rest _ _ _)
    unfold coStep; rw [hc]; dsimp only
    rw [List.getElem?_eq_none (by omega)]
  | succ k ih =>
    intro s h p n hc hk
    cases hg : s.timed[p]? with
    | none =>
      refine Wakes.of (Leads.one (s' := s.rest n false) ?_) (wakes_rest _ _ _)
      unfold coStep; rw [hc]; dsimp only; rw [hg]
    | some id =>
      have hp := (List.getElem?_eq_some_iff.1 hg).1
      have hlt := h.inv.lt id (List.mem_of_getElem? hg)
      have ht : s.tasks[id]? = some s.tasks[id] := List.getElem?_eq_getElem hlt
      by_cases hf : s.tasks[id].interval < s.now - s.tasks[id].reg
      · have l : Leads s { s with timed := s.timed.eraseIdx p, co := .fire id p n } := by
          refine Leads.one ?_
          unfold coStep; rw [hc]; dsimp only; rw [hg]; dsimp only; rw [ht]; dsimp only; rw [if_pos hf]
        exact Wakes.of l (wakes_fire (h.leads l) (id := id) (p := p) (n := n) rfl)
      · have l : Leads s { s with co := (.scan (p + 1) <|
            min (min n (s.tasks[id].interval - (s.now - s.tasks[id].reg))) MAX_SLEEP) } := by
          refine Leads.one ?_
          unfold coStep; rw [hc]; dsimp only; rw [hg]; dsimp only; rw [ht]; dsimp only; rw [if_neg hf]
        refine Wakes.of l (ih (h.leads l) rfl ?_)
        show s.timed.length - (p + 1) ≤ k
        omega

theorem Reach.wakes {s : St} (h : Reach true s) : Wakes s := by
  cases hc : s.co with
  | sleeping due => exact wakes_sleeping hc
  | woke => exact ⟨s, Leads.refl s, hc⟩
  | scan p n => exact wakes_scan _ h hc (Nat.le_refl _)
  | fire id p n => exact wakes_fire h hc
  | exec id n => exact wakes_exec h hc
  | called id n => exact wakes_called h hc
  | calling id n => exact wakes_calling hc
  | ending id n => exact wakes_ending hc
  | undefined => exact absurd hc h.calm.defined

theorem drain (k : Nat) : ∀ {s : St}, Reach true s → s.co = .woke →
    (∀ (j : Nat) t, s.tasks[j]? = some t → t.interval < s.now - t.reg) → ∀ {id : Nat}, s.timed[k]? = some id →
    ∃ s', Leads s s' ∧ ∃ t, Ev.woken id t ∈ s'.log := by
  induction k with
  | zero =>
    intro s h hc hdue id hid
    have hlt := h.inv.lt id (List.mem_of_getElem? hid)
    have ht : s.tasks[id]? = some s.tasks[id] := List.getElem?_eq_getElem hlt
    have l1 : Leads s { s with signal := false, co := .scan 0 MAX_SLEEP, began := s.now } :=
      Leads.one (by unfold coStep; rw [hc])
    have r1 := h.leads l1
    have l2 := l1.trans (Leads.one (s' := { s with signal := false, began := s.now, timed := s.timed.eraseIdx 0, co := .fire id 0 MAX_SLEEP })
      (by unfold coStep; dsimp only; rw [hid]; dsimp only; rw [ht]; dsimp only; rw [if_pos (hdue id _ ht)]))
    have l3 := l2.trans (Leads.one (fire_step (h.leads l2) rfl))
    have l4 := l3.trans (Leads.one (exec_step (h.leads l3) rfl))
    have l5 := l4.trans (Leads.one (called_step (h.leads l4) rfl))
    refine ⟨_, l5.trans (Leads.one (by unfold coStep; dsimp only)), s.now, ?_⟩
    simp
  | succ k ih =>
    intro s h hc hdue id hid
    have hlen := (List.getElem?_eq_some_iff.1 hid).1
    obtain ⟨hd, hhd⟩ : ∃ hd, s.timed[0]? = some hd := ⟨s.timed[0], List.getElem?_eq_getElem (by omega)⟩
    have hlt := h.inv.lt hd (List.mem_of_getElem? hhd)
    have ht : s.tasks[hd]? = some s.tasks[hd] := List.getElem?_eq_getElem hlt
    have l1 : Leads s { s with signal := false, co := .scan 0 MAX_SLEEP, began := s.now } :=
      Leads.one (by unfold coStep; rw [hc])
    have l2 := l1.trans (Leads.one (s' := { s with signal := false, began := s.now, timed := s.timed.eraseIdx 0, co := .fire hd 0 MAX_SLEEP })
      (by unfold coStep; dsimp only; rw [hhd]; dsimp only; rw [ht]; dsimp only; rw [if_pos (hdue hd _ ht)]))
    have l3 := l2.trans (Leads.one (fire_step (h.leads l2) rfl))
    have l4 := l3.trans (Leads.one (exec_step (h.leads l3) rfl))
    have l5 := l4.trans (Leads.one (called_step (h.leads l4) rfl))
    have l6 := l5.trans (Leads.one (by unfold coStep; dsimp only))
    have l7 := l6.trans (Leads.one (by unfold coStep; dsimp only))
    have l8 := l7.trans (Leads.tick (h.leads l7).calm.defined MAX_SLEEP)
    have l9 := l8.trans (Leads.one (by
      unfold coStep St.rest rest; dsimp only
      rw [if_pos (show MAX_SLEEP > BUSY by decide)]; dsimp only
      rw [if_pos (Or.inr (by simp only [MAX_SLEEP, BUSY]; omega))]))
    obtain ⟨s', l', hw⟩ := ih (h.leads l9) rfl (by
      intro j t hj
      change (setStat _ hd .done)[j]? = some t at hj
      obtain ⟨t1, h1, e1, e2⟩ := setStat_same _ _ _ _ _ hj
      change (setStat _ hd .running)[j]? = some t1 at h1
      obtain ⟨t2, h2, e3, e4⟩ := setStat_same _ _ _ _ _ h1
      have := hdue j t2 h2
      show t.interval < s.now + MAX_SLEEP - t.reg
      omega) (id := id) (by
      show (s.timed.eraseIdx 0)[k]? = some id
      rw [List.getElem?_eraseIdx, if_neg (by omega)]; exact hid)
    exact ⟨s', l9.trans l', hw⟩

theorem exists_bound (l : List Task) : ∃ b, ∀ t ∈ l, t.interval < b := by
  induction l with
  | nil => exact ⟨0, by simp⟩
  | cons a l ih =>
    obtain ⟨b, hb⟩ := ih
    refine ⟨a.interval + b + 1, fun t ht => ?_⟩
    rcases List.mem_cons.1 ht with rfl | ht
    · omega
    · have := hb t ht; omega

theorem Reach.fires {s : St} (h : Reach true s) {id db d t0 : Nat} (hs : Ev.set id db d t0 ∈ s.log) :
    ∃ s', Leads s s' ∧ ∃ t, Ev.woken id t ∈ s'.log := by
  obtain ⟨s1, l1, hc⟩ := h.wakes
  have h1 := h.leads l1
  have hi := h1.inv
  obtain ⟨st, hget⟩ := (hi.set id db d t0).1 (l1.log _ hs)
  have hst : statOf s1 id = some st := by unfold statOf; rw [hget]; rfl
  cases st with
  | waiting =>
    rcases hi.wait (by rw [hc]; simp) id hst with hm | hm
    · obtain ⟨k, hk, hkk⟩ := List.mem_iff_getElem.1 hm
      obtain ⟨b, hb⟩ := exists_bound s1.tasks
      have l2 : Leads s1 { s1 with now := s1.now + b } := Leads.tick (by rw [hc]; simp) b
      obtain ⟨s', l3, hw⟩ := drain k (h1.leads l2) hc (by
        intro j t hj
        have e1 := hi.reg j t hj
        have e2 := hb t (List.mem_of_getElem? hj)
        show t.interval < s1.now + b - t.reg
        omega) (id := id) (List.getElem?_eq_some_iff.2 ⟨hk, hkk⟩)
      exact ⟨s', (l1.trans l2).trans l3, hw⟩
    · rw [hc] at hm; exact absurd hm (by simp [Co.toRun])
  | running =>
    have := (hi.run (by rw [hc]; simp) id).1 hst
    rw [hc] at this; exact absurd this (by simp [Co.runs])
  | done =>
    rcases hi.fin id hst with hf | hw
    · exact absurd hf (h1.calm.kept id)
    · exact ⟨s1, l1, hw⟩

end Jungle.Timer
