/-
  What a recovered log section answers, in terms of the files the manifest lists.
-/
import Verif.Log.StoreInv

namespace Jungle
open Spec
set_option linter.unusedSectionVars false

variable {K : Type} [LinearOrder K]

theorem LogInv.same_num {l : LogMgr K} {A B} (h : LogInv l A B) {f g : LogFile K} (hf : f ∈ l.files) (hg : g ∈ l.files)
    (e : f.num = g.num) : f = g := by
  have h1 := h.file?_mem hf
  have h2 := h.file?_mem hg
  rw [e] at h1
  exact Option.some.inj (h1.symm.trans h2)

/-- The manifest `M` lists the files `F`, with the flush marks they have; the files `G` were
    created after it was written. -/
structure ManiLists (l : LogMgr K) (M : PMani) (F G : List (LogFile K)) : Prop where
  files : l.files = F ++ G
  ne : F ≠ []
  ent : M.entries.map (fun e => (e.num, e.flushed)) = F.map (fun f => (f.num, f.mem.flushedSeqNum))
  lastF : M.lastFlushed = l.lastFlushed
  max : ∀ f ∈ F, f.num ≤ M.max
  maxN : M.max < NIL
  cov : l.lastSynced ≠ NIL → ∀ f ∈ G, l.lastSynced < f.num

theorem ManiLists.self {l : LogMgr K} {A B} (h : LogInv l A B) : ManiLists l l.persist l.files [] :=
  ⟨by simp, h.ne, by simp [LogMgr.persist, Function.comp_def], rfl, fun f hf => (h.num_range hf).2, h.numN,
    fun _ f hf => by cases hf⟩

theorem ManiLists.sub {l : LogMgr K} {M F G} (h : ManiLists l M F G) {f} (hf : f ∈ F) : f ∈ l.files := by
  rw [h.files]; exact List.mem_append_left _ hf

theorem mem_takeWhile_true {α : Type} {p : α → Bool} {L : List α} {a : α} (h : a ∈ L.takeWhile p) : p a = true := by
  induction L with
  | nil => cases h
  | cons b L ih =>
    rw [List.takeWhile_cons] at h
    split at h
    · next hb =>
      rcases List.mem_cons.1 h with rfl | h
      · exact hb
      · exact ih h
    · cases h

/-- Splitting the list of entries: missing ones, present ones, ones that contribute nothing. -/
theorem split_entries (E : List PEntry) (hs : (E.map (·.num)).Pairwise (· < ·))
    (view : Nat → Option (DFile K)) (q : Nat)
    (hlow : ∀ e ∈ E, e.num < q → view e.num = none)
    (hmid : ∀ e ∈ E, ∀ e' ∈ E, q < e.num → view e.num = none → e.num ≤ e'.num →
      contrib? e'.flushed (view e'.num) = []) :
    ∃ Z X Y, E = Z ++ (X ++ Y) ∧ (∀ e ∈ Z, view e.num = none) ∧ (∀ e ∈ X, view e.num ≠ none) ∧
      ∀ e ∈ Y, contrib? e.flushed (view e.num) = [] := by
  refine ⟨E.takeWhile (fun e => (view e.num).isNone), (E.dropWhile (fun e => (view e.num).isNone)).takeWhile (fun e => (view e.num).isSome),
    (E.dropWhile (fun e => (view e.num).isNone)).dropWhile (fun e => (view e.num).isSome), ?_, ?_, ?_, ?_⟩
  · rw [List.takeWhile_append_dropWhile, List.takeWhile_append_dropWhile]
  · intro e he
    have := mem_takeWhile_true he
    simpa using this
  · intro e he
    have := mem_takeWhile_true he
    intro hn; rw [hn] at this; cases this
  · generalize hR : E.dropWhile (fun e => (view e.num).isNone) = R
    have hsub : R.Sublist E := by rw [← hR]; exact List.dropWhile_sublist _
    have hRs : (R.map (·.num)).Pairwise (· < ·) := List.Pairwise.sublist (hsub.map _) hs
    generalize hY : R.dropWhile (fun e => (view e.num).isSome) = Y
    have hsubY : Y.Sublist R := by rw [← hY]; exact List.dropWhile_sublist _
    cases Y with
    | nil => intro e he; cases he
    | cons y Y =>
      have hy : view y.num = none := by
        have h1 : (R.dropWhile (fun e => (view e.num).isSome)) ≠ [] := by rw [hY]; simp
        have h2 := List.head_dropWhile_not (fun e : PEntry => (view e.num).isSome) h1
        have h3 : (R.dropWhile (fun e => (view e.num).isSome)).head h1 = y := by simp only [hY, List.head_cons]
        rw [h3] at h2
        simpa using h2
      have hYs : ((y :: Y).map (·.num)).Pairwise (· < ·) := List.Pairwise.sublist (hsubY.map _) hRs
      have hyR : y ∈ R := hsubY.subset (by simp)
      have hq : q < y.num := by
        cases R with
        | nil => cases hyR
        | cons r R =>
          have hr : view r.num ≠ none := by
            have h1 : (E.dropWhile (fun e => (view e.num).isNone)) ≠ [] := by rw [hR]; simp
            have h2 := List.head_dropWhile_not (fun e : PEntry => (view e.num).isNone) h1
            have h3 : (E.dropWhile (fun e => (view e.num).isNone)).head h1 = r := by simp only [hR, List.head_cons]
            rw [h3] at h2
            intro h4; rw [h4] at h2; cases h2
          have hrq : ¬ r.num < q := fun hlt => hr (hlow r (hsub.subset (by simp)) hlt)
          rcases List.mem_cons.1 hyR with rfl | hyR
          · exact absurd hy hr
          · have := (List.pairwise_cons.1 hRs).1 y.num (List.mem_map.2 ⟨y, hyR, rfl⟩)
            simp only [] at this
            omega
      intro e he
      have heE : e ∈ E := hsub.subset (hsubY.subset he)
      refine hmid y (hsub.subset hyR) e heE hq hy ?_
      rcases List.mem_cons.1 he with rfl | he
      · exact Nat.le_refl _
      · exact Nat.le_of_lt ((List.pairwise_cons.1 hYs).1 e.num (List.mem_map.2 ⟨e, he, rfl⟩))

theorem flatMap_nil_of {α β : Type} {f : α → List β} {L : List α} (h : ∀ a ∈ L, f a = []) : L.flatMap f = [] := by
  induction L with
  | nil => rfl
  | cons a L ih => rw [List.flatMap_cons, h a (by simp), ih (fun b hb => h b (by simp [hb]))]; rfl

/-- The contents of a file that is found after a crash. -/
def found (disk : List (DFile K)) (f : LogFile K) : List (Rec K) :=
  contrib? f.mem.flushedSeqNum (disk.find? (fun d => d.num == f.num))

/-- The state of the loading loop at the end. -/
def LogMgr.loaded (M : PMani) (disk : List (DFile K)) : LoadSt K :=
  loadLoop disk M.entries
    { files := [], maxNum := M.max, lastFlushed := M.lastFlushed, lastSynced := M.lastSynced
      lastSeq := NIL, firstRead := false }

theorem ManiLists.recovered {l : LogMgr K} {A B M F G} (hL : ManiLists l M F G) (h : LogInv l A B)
    (disk : List (DFile K)) (q : Nat)
    (hread : ∀ f ∈ F, ∀ d, disk.find? (fun d => d.num == f.num) = some d →
      d.tail ≠ .bad ∧ Increasing (dataOf d.items))
    (hlow : ∀ f ∈ F, f.num < q → disk.find? (fun d => d.num == f.num) = none)
    (hmid : ∀ f ∈ F, ∀ f' ∈ F, q < f.num → disk.find? (fun d => d.num == f.num) = none → f.num ≤ f'.num →
      found disk f' = []) :
    Recovered (LogMgr.loaded M disk) (F.flatMap (found disk)) := by
  have hmem : ∀ e ∈ M.entries, ∃ f ∈ F, f.num = e.num ∧ f.mem.flushedSeqNum = e.flushed := by
    intro e he
    have h1 : (e.num, e.flushed) ∈ M.entries.map (fun e => (e.num, e.flushed)) := List.mem_map.2 ⟨e, he, rfl⟩
    rw [hL.ent] at h1
    obtain ⟨f, hf, e1⟩ := List.mem_map.1 h1
    simp only [Prod.mk.injEq] at e1
    exact ⟨f, hf, e1⟩
  have hnums : M.entries.map (·.num) = F.map (·.num) := by
    have := congrArg (List.map Prod.fst) hL.ent
    simpa [Function.comp_def] using this
  have hsF : (F.map (·.num)).Pairwise (· < ·) := by
    rw [List.pairwise_map]
    have ho := h.order
    rw [hL.files] at ho
    exact (List.pairwise_append.1 ho).1.imp (fun hab => hab.num)
  have hs : (M.entries.map (·.num)).Pairwise (· < ·) := by rw [hnums]; exact hsF
  obtain ⟨Z, X, Y, hE, hZ, hX, hY⟩ := split_entries M.entries hs (fun n => disk.find? (fun d => d.num == n)) q
    (by
      intro e he hlt
      obtain ⟨f, hf, e1, e2⟩ := hmem e he
      rw [← e1] at hlt ⊢
      exact hlow f hf hlt)
    (by
      intro e he e' he' hlt hn hle
      obtain ⟨f, hf, e1, e2⟩ := hmem e he
      obtain ⟨f', hf', e1', e2'⟩ := hmem e' he'
      rw [← e1] at hlt hn hle
      rw [← e1'] at hle
      have := hmid f hf f' hf' hlt hn hle
      unfold found at this
      rw [e1', e2'] at this
      exact this)
  have hne : M.entries ≠ [] := by
    intro h0
    have := hL.ent
    rw [h0] at this
    simp at this
    exact hL.ne this
  have hB : X.flatMap (fun e => contrib? e.flushed (viewOf disk e)) = F.flatMap (found disk) := by
    have h1 : F.flatMap (found disk) =
        (F.map (fun f => (f.num, f.mem.flushedSeqNum))).flatMap (fun p => contrib? p.2 (disk.find? (fun d => d.num == p.1))) := by
      rw [List.flatMap_map]; rfl
    rw [h1, ← hL.ent, List.flatMap_map, hE, List.flatMap_append, List.flatMap_append]
    have z : Z.flatMap (fun e => contrib? e.flushed (disk.find? (fun d => d.num == e.num))) = [] :=
      flatMap_nil_of (fun e he => by rw [hZ e he]; rfl)
    have y : Y.flatMap (fun e => contrib? e.flushed (disk.find? (fun d => d.num == e.num))) = [] :=
      flatMap_nil_of hY
    rw [z, y]; simp [viewOf]
  rw [← hB]
  unfold LogMgr.loaded
  have hok : LoadOk (⟨[], M.max, M.lastFlushed, M.lastSynced, NIL, false⟩ : LoadSt K) M.entries := by
    have hlast : M.lastFlushed = NIL ∨ ∃ e es, M.entries = e :: es ∧ M.lastFlushed = e.num := by
      rw [hL.lastF]
      rcases h.lastF with h1 | h1
      · exact Or.inl h1
      · right
        obtain ⟨e, es, he⟩ := List.exists_cons_of_ne_nil hne
        obtain ⟨f, fs, hf⟩ := List.exists_cons_of_ne_nil hL.ne
        refine ⟨e, es, he, ?_⟩
        have h2 := hL.ent
        rw [he, hf] at h2
        simp only [List.map_cons, List.cons.injEq, Prod.mk.injEq] at h2
        rw [h1, h2.1.1]
        unfold LogMgr.minNum; rw [hL.files, hf]; rfl
    refine ⟨List.Pairwise.nil, by simp, by simp, hL.maxN, ?_, by simp, by simp, ?_, fun _ => hlast⟩
    · intro e he
      obtain ⟨f, hf, e1, -⟩ := hmem e he
      simp only []
      rw [← e1]; exact hL.max f hf
    · rcases hlast with h1 | ⟨e, es, h1, h2⟩
      · exact Or.inl h1
      · refine Or.inr (Or.inr ⟨rfl, ?_⟩)
        rw [h1] at hs ⊢
        intro e' he'
        simp only [h2]
        rcases List.mem_cons.1 he' with rfl | he'
        · exact Nat.le_refl _
        · exact Nat.le_of_lt ((List.pairwise_cons.1 hs).1 e'.num (List.mem_map.2 ⟨e', he', rfl⟩))
  have hr : Readable disk M.entries := by
    intro e he d hd
    obtain ⟨f, hf, e1, -⟩ := hmem e he
    refine hread f hf d ?_
    rw [e1]; exact hd
  rw [hE] at hok hr hs hne ⊢
  exact loadLoop_ok disk Z X Y _ hok rfl hs hr hZ hX hY hne

theorem recover_eq (cfg : Cfg) (M : PMani) (disk : List (DFile K)) (hne : (LogMgr.loaded M disk).files ≠ []) :
    LogMgr.recover cfg M disk = { cfg := cfg, files := (LogMgr.loaded M disk).files, maxNum := (LogMgr.loaded M disk).maxNum, lastFlushed := (LogMgr.loaded M disk).lastFlushed, lastSynced := (LogMgr.loaded M disk).lastSynced } := by
  unfold LogMgr.recover LogMgr.loaded at *
  simp only []
  rw [if_neg hne]

/-- What a recovered log section answers. -/
theorem Recovered.get {M : PMani} {disk : List (DFile K)} {B : List (Rec K)}
    (h : Recovered (LogMgr.loaded M disk) B) (cfg : Cfg) (hc : cfg.logSectionOnly = false) (k : K) :
    (LogMgr.recover cfg M disk).get k = match lastWrite B k with
      | some r => (.ok, some r)
      | none => (.keyNotFound, none) := by
  have e := recover_eq cfg M disk h.ne
  exact getFrom_rec h (by rw [e]) (by rw [e]) (by rw [e]) (by rw [e]) (by rw [e]; exact hc) k

/-- Full files, one cut file, empty files: together a prefix. -/
theorem flat_prefix (c : LogFile K → List (Rec K)) (p : Nat) (F : List (LogFile K))
    (hs : (F.map (·.num)).Pairwise (· < ·))
    (h1 : ∀ f ∈ F, f.num < p → c f = f.pending)
    (h2 : ∀ f ∈ F, f.num = p → c f <+: f.pending)
    (h3 : ∀ f ∈ F, p < f.num → c f = []) :
    F.flatMap c <+: F.flatMap LogFile.pending := by
  induction F with
  | nil => exact List.prefix_rfl
  | cons f F ih =>
    rw [List.map_cons, List.pairwise_cons] at hs
    rw [List.flatMap_cons, List.flatMap_cons]
    have ih' := ih hs.2 (fun g hg => h1 g (by simp [hg])) (fun g hg => h2 g (by simp [hg]))
      (fun g hg => h3 g (by simp [hg]))
    by_cases hlt : f.num < p
    · rw [h1 f (by simp) hlt]
      exact (List.prefix_append_right_inj _).2 ih'
    · have hnil : F.flatMap c = [] := flatMap_nil_of (fun g hg => h3 g (by simp [hg]) (by
        have := hs.1 g.num (List.mem_map.2 ⟨g, hg, rfl⟩); omega))
      rw [hnil, List.append_nil]
      have hf : c f <+: f.pending := by
        by_cases he : f.num = p
        · exact h2 f (by simp) he
        · rw [h3 f (by simp) (by omega)]; exact List.nil_prefix
      exact hf.trans (List.prefix_append _ _)

end Jungle
