import Verif.Engine.LemmasTrain
/-
Crash-safe training (C49).
-/
namespace Verif.Engine
open Verif.Py LearningRate

variable {M O : Type}

/-! ### The invariant -/

/-- Every model on disk belongs to an epoch whose training scores, and all earlier scores, are in `d`. -/
def Scored (J : Job M O) (dk : Disk M O) (d : Data) : Prop :=
  ∀ j, dk.model j ≠ none → isEvaluated d "train" j = true ∧ Upto J d j

/-- The files on disk. -/
structure DiskOk (J : Job M O) (dk : Disk M O) : Prop where
  model : ∀ j m, dk.model j = some m → (1 ≤ j ∧ j ≤ J.final) ∧ m = (idealW J j).1
  opt : ∀ j o, dk.opt j = some o → o = (idealW J j).2
  lr : Agree J dk.lr
  scored : Scored J dk dk.lr

/-- The epochs evaluated in the file and in memory are the same. -/
def EqEval (J : Job M O) (d d' : Data) : Prop := ∀ n ∈ J.names, ∀ j, isEvaluated d n j = isEvaluated d' n j

/-- In the middle of epoch `e`. -/
structure MidOk (J : Job M O) (p : Proc M O) (e : Int) : Prop where
  range : 1 ≤ e ∧ e ≤ J.final
  w : p.w = idealW J e
  upto : Upto J p.mem e
  train : isEvaluated p.mem "train" e = true

/-- After epoch `e`. -/
structure EndOk (J : Job M O) (dk : Disk M O) (p : Proc M O) (e : Int) : Prop where
  range : 1 ≤ e ∧ e ≤ J.final
  w : p.w = idealW J e
  upto : Upto J p.mem (e + 1)
  eq : EqEval J dk.lr p.mem
  last : e = J.final → dk.model e ≠ none

/-- The state of the process. -/
def PcOk (J : Job M O) (dk : Disk M O) (p : Proc M O) : Prop :=
  match p.pc with
  | .missing e todo => MidOk J p e ∧ EqEval J dk.lr p.mem ∧ (e = J.final → dk.model e ≠ none) ∧
      (∀ n ∈ todo, n ∈ J.names) ∧ ∀ n ∈ J.names, n ∉ todo → isEvaluated p.mem n e = true
  | .loop e => 1 ≤ e ∧ p.w = idealW J (e - 1) ∧ Upto J p.mem e ∧ EqEval J dk.lr p.mem ∧
      (1 ≤ J.final → J.final < e → dk.model J.final ≠ none)
  | .saveLr e => MidOk J p e
  | .saveModel e => MidOk J p e ∧ EqEval J dk.lr p.mem
  | .saveOpt e => MidOk J p e ∧ EqEval J dk.lr p.mem ∧ dk.model e ≠ none
  | .cleanOpt e => MidOk J p e ∧ EqEval J dk.lr p.mem ∧ dk.model e ≠ none
  | .eval e todo => MidOk J p e ∧ EqEval J dk.lr p.mem ∧ (e = J.final → dk.model e ≠ none) ∧
      (∀ n ∈ todo, n ∈ J.names) ∧ ∀ n ∈ J.names, n ∉ todo → isEvaluated p.mem n e = true
  | .cleanup e => EndOk J dk p e ∧ J.cleanupOpts.isSome
  | .delModel e todo => EndOk J dk p e ∧ todo.Nodup ∧ (∀ r ∈ todo, dk.model r ≠ none) ∧ (e = J.final → e ∉ todo)
  | .delOpt e r todo => EndOk J dk p e ∧ todo.Nodup ∧ (∀ r ∈ todo, dk.model r ≠ none) ∧ (e = J.final → e ∉ todo)
  | .finished => 1 ≤ J.final → dk.model J.final ≠ none
  | .failed _ => False

structure ProcOk (J : Job M O) (dk : Disk M O) (p : Proc M O) : Prop where
  agree : Agree J p.mem
  presets : Presets J p.mem
  scored : Scored J dk p.mem
  pc : PcOk J dk p

structure Inv (J : Job M O) (s : St M O) : Prop where
  disk : DiskOk J s.disk
  proc : ∀ p, s.proc = some p → ProcOk J s.disk p

/-! ### Small steps -/

theorem train_mem (J : Job M O) : "train" ∈ J.names := by simp [Job.names]

theorem upto_succ {J : Job M O} {d : Data} {e : Int} (h : Upto J d e) (he : ∀ n ∈ J.names, isEvaluated d n e = true) :
    Upto J d (e + 1) := by
  intro i h1 h2 n hn
  by_cases hi : i = e
  · subst hi; exact he n hn
  · exact h i h1 (by omega) n hn

theorem upto_mono {J : Job M O} {d d' : Data} {e : Int}
    (hm : ∀ n ∈ J.names, ∀ j, isEvaluated d n j = true → isEvaluated d' n j = true) (h : Upto J d e) : Upto J d' e :=
  fun i h1 h2 n hn => hm n hn i (h i h1 h2 n hn)

theorem scored_mono {J : Job M O} {dk : Disk M O} {d d' : Data}
    (hm : ∀ n ∈ J.names, ∀ j, isEvaluated d n j = true → isEvaluated d' n j = true) (h : Scored J dk d) : Scored J dk d' :=
  fun j hj => ⟨hm _ (train_mem J) j (h j hj).1, upto_mono hm (h j hj).2⟩

theorem presets_mono {J : Job M O} {d d' : Data} (hm : ∀ j, d.get? j ≠ none → d'.get? j ≠ none) (h : Presets J d) :
    Presets J d' := fun j hj => hm j (h j hj)

theorem setScores_keeps (d : Data) (e : Int) (s : Dict String ℚ) (j : Int) (h : d.get? j ≠ none) :
    (setScores d e s).get? j ≠ none := by
  rw [get?_setScores]
  split
  · rename_i hj; subst hj
    cases hx : d.get? j with
    | none => exact absurd hx h
    | some x => simp
  · exact h

theorem withLr_keeps (J : Job M O) (d : Data) (e j : Int) (h : d.get? j ≠ none) : (withLr J d e).get? j ≠ none := by
  rw [get?_withLr]
  split
  · simp
  · exact h

theorem withLr_has (J : Job M O) (d : Data) (e : Int) : (withLr J d e).get? e ≠ none := by
  rw [get?_withLr]
  split
  · simp
  · rename_i h; intro h0; exact h ⟨rfl, h0⟩

theorem scored_sub {J : Job M O} {dk dk' : Disk M O} {d : Data} (hm : ∀ j, dk'.model j ≠ none → dk.model j ≠ none)
    (h : Scored J dk d) : Scored J dk' d := fun j hj => h j (hm j hj)

theorem diskOk_lr {J : Job M O} {dk : Disk M O} (h : DiskOk J dk) {d : Data} (ha : Agree J d) (hs : Scored J dk d) :
    DiskOk J { dk with lr := d } := ⟨h.model, h.opt, ha, hs⟩

theorem upd_ne {α : Type} (f : Int → Option α) {k j : Int} (h : j ≠ k) (v : Option α) : upd f k v j = f j := by
  unfold upd; rw [if_neg h]

theorem upd_eq {α : Type} (f : Int → Option α) (k : Int) (v : Option α) : upd f k v k = v := by
  unfold upd; rw [if_pos rfl]

/-! ### Boot -/

theorem resume_spec (J : Job M O) (d : Disk M O) :
    ((∀ j, j ∉ resumable J d) ∧ resumeEpoch J d = 1) ∨
      (resumeEpoch J d - 1 ∈ resumable J d ∧ ∀ j ∈ resumable J d, j ≤ resumeEpoch J d - 1) := by
  unfold resumeEpoch
  have hs : (resumable J d).Pairwise (· < ·) := (epochRange_sorted J.final).sublist List.filter_sublist
  cases h : (resumable J d).getLast? with
  | none =>
    left
    rw [List.getLast?_eq_none_iff] at h
    rw [h]; simp
  | some e =>
    right
    simp only [add_sub_cancel_right]
    obtain ⟨l, hl⟩ := List.getLast?_eq_some_iff.1 h
    refine ⟨by rw [hl]; simp, fun j hj => ?_⟩
    rw [hl] at hj hs
    rcases List.mem_append.1 hj with hj | hj
    · exact ((List.pairwise_append.1 hs).2.2 j hj e (by simp)).le
    · simp at hj; omega

theorem mem_resumable (J : Job M O) (d : Disk M O) (e : Int) :
    e ∈ resumable J d ↔ (1 ≤ e ∧ e ≤ J.final) ∧ d.model e ≠ none ∧ d.opt e ≠ none := by
  unfold resumable
  rw [List.mem_filter, mem_epochRange, Bool.and_eq_true, Option.isSome_iff_ne_none, Option.isSome_iff_ne_none]

theorem mem_stored (J : Job M O) (d : Disk M O) (e : Int) :
    e ∈ stored J d ↔ (1 ≤ e ∧ e ≤ J.final) ∧ d.model e ≠ none := by
  unfold stored
  rw [List.mem_filter, mem_epochRange, Option.isSome_iff_ne_none]

theorem boot_ok {J : Job M O} (hJ : JobOk J) {dk : Disk M O} (h : DiskOk J dk) : ProcOk J dk (boot J dk) := by
  obtain ⟨hA, hP⟩ := agree_initData hJ h.lr
  have hev : ∀ n j, isEvaluated (initData dk.lr J.presets) n j = isEvaluated dk.lr n j :=
    fun n j => (evald_initData hJ h.lr n j).1
  have hE : EqEval J dk.lr (initData dk.lr J.presets) := fun n _ j => (hev n j).symm
  have hS : Scored J dk (initData dk.lr J.presets) := scored_mono (fun n _ j hj => by rw [hev]; exact hj) h.scored
  unfold boot
  simp only
  split
  · rename_i hs
    refine ⟨hA, hP, hS, ?_⟩
    refine ⟨le_rfl, rfl, fun i h1 h2 => by omega, hE, fun h1 h2 => by omega⟩
  · rename_i hs
    rcases resume_spec J dk with hr | hr
    · exact absurd hr.2 hs
    · obtain ⟨hrange, hm, ho⟩ := (mem_resumable J dk _).1 hr.1
      cases hmo : dk.model (resumeEpoch J dk - 1) with
      | none => exact absurd hmo hm
      | some m =>
        cases hop : dk.opt (resumeEpoch J dk - 1) with
        | none => exact absurd hop ho
        | some o =>
          obtain ⟨htr, hup⟩ := hS _ hm
          simp only
          have hall : (epochRange (resumeEpoch J dk - 2)).all (fun e =>
              ("train" :: J.evals).all (fun n => isEvaluated (initData dk.lr J.presets) n e)) = true := by
            rw [List.all_eq_true]
            intro e he
            rw [List.all_eq_true]
            intro n hn
            rw [mem_epochRange] at he
            exact hup e he.1 (by omega) n hn
          rw [if_pos hall, if_pos htr]
          refine ⟨hA, hP, hS, ⟨hrange, ?_, hup, htr⟩, hE, fun _ => hm, fun n hn => by simp [Job.names, hn], ?_⟩
          · rw [(h.model _ _ hmo).2, h.opt _ _ hop]
          · intro n hn hnot
            simp only [Job.names, List.mem_cons] at hn
            rcases hn with rfl | hn
            · exact htr
            · exact absurd hn hnot

/-! ### Steps -/

/-- Saving the scores of one dataset in the middle of epoch `e`. -/
theorem score_step {J : Job M O} (hJ : JobOk J) {p : Proc M O} {dk : Disk M O} (hd : DiskOk J dk) (hp : ProcOk J dk p)
    {e : Int} (hm : MidOk J p e) {n : String} (hn : n ∈ J.names) (pc : Pc)
    (hpc : ∀ q : Proc M O, q.w = p.w → q.mem = setScores p.mem e (J.score n e p.w) → q.pc = pc → MidOk J q e →
      EqEval J q.mem q.mem →
      (∀ n' ∈ J.names, ∀ j, isEvaluated q.mem n' j = true ↔ isEvaluated p.mem n' j = true ∨ (n' = n ∧ j = e)) →
      PcOk J { dk with lr := q.mem } q) :
    DiskOk J { dk with lr := setScores p.mem e (J.score n e p.w) } ∧
      ProcOk J { dk with lr := setScores p.mem e (J.score n e p.w) } ⟨pc, p.w, setScores p.mem e (J.score n e p.w)⟩ := by
  obtain ⟨x, hx⟩ := evald_some hm.train
  have hne : p.mem.get? e ≠ none := by rw [hx]; simp
  have hev := evald_setScores hJ (w := p.w) hn hne
  have hmono : ∀ n' ∈ J.names, ∀ j, isEvaluated p.mem n' j = true →
      isEvaluated (setScores p.mem e (J.score n e p.w)) n' j = true :=
    fun n' hn' j h => (hev n' hn' j).2 (Or.inl h)
  have hA := agree_setScores hJ hp.agree hn hne hm.w
  have hS : Scored J dk (setScores p.mem e (J.score n e p.w)) := scored_mono hmono hp.scored
  refine ⟨diskOk_lr hd hA hS, hA, presets_mono (setScores_keeps _ _ _) hp.presets, hS, ?_⟩
  exact hpc ⟨pc, p.w, setScores p.mem e (J.score n e p.w)⟩ rfl rfl rfl
    ⟨hm.range, hm.w, upto_mono hmono hm.upto, hmono _ (train_mem J) _ hm.train⟩ (fun _ _ _ => rfl) hev

theorem loop_step {J : Job M O} (hJ : JobOk J) {p : Proc M O} {dk : Disk M O} (hp : ProcOk J dk p)
    {e : Int} (hpc : p.pc = .loop e) (he : e ≤ J.final) :
    ProcOk J dk ⟨.saveLr e, J.train e (lrFor J p.mem e) p.w,
      setScores (withLr J p.mem e) e (J.score "train" e (J.train e (lrFor J p.mem e) p.w))⟩ := by
  have h := hp.pc
  unfold PcOk at h
  rw [hpc] at h
  obtain ⟨h1, hw, hup, _, _⟩ := h
  have hlr := lr_same hJ hp.agree hp.presets h1 hup
  have hw' : J.train e (lrFor J p.mem e) p.w = idealW J e := by rw [hw]; exact train_same h1 hlr
  have hA1 := agree_withLr hp.agree h1 hlr
  have hne := withLr_has J p.mem e
  have hev := evald_setScores hJ (w := J.train e (lrFor J p.mem e) p.w) (train_mem J) hne
  have hmono : ∀ n' ∈ J.names, ∀ j, isEvaluated p.mem n' j = true →
      isEvaluated (setScores (withLr J p.mem e) e (J.score "train" e (J.train e (lrFor J p.mem e) p.w))) n' j = true :=
    fun n' hn' j h => (hev n' hn' j).2 (Or.inl (by rw [evald_withLr]; exact h))
  refine ⟨agree_setScores hJ hA1 (train_mem J) hne hw', presets_mono (fun j h => setScores_keeps _ _ _ _
    (withLr_keeps J _ _ _ h)) hp.presets, scored_mono hmono hp.scored, ?_⟩
  exact ⟨⟨h1, he⟩, hw', upto_mono hmono hup, (hev _ (train_mem J) e).2 (Or.inr ⟨rfl, rfl⟩)⟩

/-- The cleanup in the middle of a training never fails. -/
theorem cleanup_never_fails {J : Job M O} (hJ : JobOk J) {p : Proc M O} {dk : Disk M O} (hp : ProcOk J dk p)
    {e : Int} (h : EndOk J dk p e) (hs : J.cleanupOpts.isSome) :
    ∃ rs, cleanup (J.cleanupOpts.getD {}) p.mem (stored J dk) = .ok rs := by
  obtain ⟨o, ho⟩ := Option.isSome_iff_exists.1 hs
  rw [ho]
  obtain ⟨h1, h2, h3⟩ := hJ.cleanup o ho
  refine cleanup_ok h1 h2 h3 (fun j hj => ?_) ?_
  · exact evald_some (hp.scored j ((mem_stored J dk j).1 hj).2).1
  · have := h.upto e h.range.1 (by omega) "train" (train_mem J)
    obtain ⟨x, hx, key, hk, _⟩ := (evald_iff _ _ _).1 this
    exact ⟨(e, x), Dict.mem_of_get? hx, fun h0 => by
      change x.error = [] at h0
      rw [h0] at hk; simp [Dict.keys] at hk⟩

theorem stored_sorted (J : Job M O) (dk : Disk M O) : (stored J dk).Pairwise (· < ·) :=
  (epochRange_sorted J.final).sublist List.filter_sublist

theorem cleanup_rs {J : Job M O} {p : Proc M O} {dk : Disk M O} {o : CleanupOpts} {rs : List Int}
    (h : cleanup o p.mem (stored J dk) = .ok rs) :
    rs.Nodup ∧ (∀ r ∈ rs, dk.model r ≠ none) ∧ J.final ∉ rs := by
  cases hl : (stored J dk).getLast? with
  | none =>
    unfold cleanup at h
    rw [hl] at h
    injection h with h
    subst h; simp
  | some last =>
    obtain ⟨h1, h2⟩ := cleanup_keeps_last (stored_sorted J dk) hl h
    refine ⟨?_, fun r hr => ((mem_stored J dk r).1 (h1 r hr)).2, fun hf => ?_⟩
    · cases hdry : o.dryRun with
      | true => rw [cleanup_dry hdry h]; exact List.nodup_nil
      | false =>
        have := cleanup_spec (stored_sorted J dk) hl hdry h
        split at this
        · rw [this]; exact List.nodup_nil
        · exact this.1.imp (fun hab => by omega)
    · have hfin := h1 _ hf
      obtain ⟨l, hll⟩ := List.getLast?_eq_some_iff.1 hl
      have hlm : last ∈ stored J dk := by rw [hll]; simp
      have hs := stored_sorted J dk
      rw [hll] at hs hfin
      rcases List.mem_append.1 hfin with hfin | hfin
      · have := (List.pairwise_append.1 hs).2.2 _ hfin last (by simp)
        have := ((mem_stored J dk last).1 hlm).1.2
        omega
      · simp at hfin; rw [hfin] at hf; exact h2 hf

theorem step_ok {J : Job M O} (hJ : JobOk J) {dk : Disk M O} {p : Proc M O} (hd : DiskOk J dk) (hp : ProcOk J dk p) :
    DiskOk J (stepProc J dk p).1 ∧ ProcOk J (stepProc J dk p).1 (stepProc J dk p).2 := by
  have h := hp.pc
  unfold PcOk at h
  cases hpc : p.pc with
  | missing e todo =>
    rw [hpc] at h
    obtain ⟨hm, hE, hlast, hsub, hdone⟩ := h
    cases todo with
    | nil =>
      have : stepProc J dk p = (dk, { p with pc := .loop (e + 1) }) := by unfold stepProc; rw [hpc]
      rw [this]
      refine ⟨hd, hp.agree, hp.presets, hp.scored, ?_⟩
      refine ⟨by have := hm.range.1; omega, by simp [hm.w], upto_succ hm.upto (fun n hn => hdone n hn (by simp)), hE, ?_⟩
      intro h1 h2
      have : e = J.final := by have := hm.range.2; omega
      rw [← this]; exact hlast this
    | cons n ns =>
      have hn := hsub n (by simp)
      by_cases hev : isEvaluated p.mem n e = true
      · have : stepProc J dk p = (dk, { p with pc := .missing e ns }) := by
          unfold stepProc; rw [hpc]; simp only; rw [if_pos hev]
        rw [this]
        refine ⟨hd, hp.agree, hp.presets, hp.scored, ?_⟩
        refine ⟨⟨hm.range, hm.w, hm.upto, hm.train⟩, hE, hlast, fun m hmm => hsub m (by simp [hmm]), fun m hmm hnot => ?_⟩
        by_cases hmn : m = n
        · subst hmn; exact hev
        · exact hdone m hmm (by simp [hmn, hnot])
      · have : stepProc J dk p = ({ dk with lr := setScores p.mem e (J.score n e p.w) },
            ⟨.missing e ns, p.w, setScores p.mem e (J.score n e p.w)⟩) := by
          unfold stepProc; rw [hpc]; simp only; rw [if_neg hev]
        rw [this]
        refine score_step hJ hd hp hm hn _ (fun q hqw hqm hqp hmid heq hqev => ?_)
        unfold PcOk
        rw [hqp]
        refine ⟨hmid, heq, hlast, fun m hmm => hsub m (by simp [hmm]), fun m hmm hnot => (hqev m hmm e).2 ?_⟩
        by_cases hmn : m = n
        · exact Or.inr ⟨hmn, rfl⟩
        · exact Or.inl (hdone m hmm (by simp [hmn, hnot]))
  | loop e =>
    by_cases he : e > J.final
    · have : stepProc J dk p = (dk, { p with pc := .finished }) := by
        unfold stepProc; rw [hpc]; simp only; rw [if_pos he]
      rw [this]
      rw [hpc] at h
      exact ⟨hd, hp.agree, hp.presets, hp.scored, fun h1 => h.2.2.2.2 h1 he⟩
    · have : stepProc J dk p = (dk, ⟨.saveLr e, J.train e (lrFor J p.mem e) p.w,
          setScores (withLr J p.mem e) e (J.score "train" e (J.train e (lrFor J p.mem e) p.w))⟩) := by
        unfold stepProc; rw [hpc]; simp only; rw [if_neg he]
      rw [this]
      exact ⟨hd, loop_step hJ hp hpc (by omega)⟩
  | saveLr e =>
    rw [hpc] at h
    have : stepProc J dk p = ({ dk with lr := p.mem },
        { p with pc := if e % J.interval = 0 ∨ e = J.final then .saveModel e else .eval e J.evals }) := by
      unfold stepProc; rw [hpc]
    rw [this]
    refine ⟨diskOk_lr hd hp.agree hp.scored, hp.agree, hp.presets, hp.scored, ?_⟩
    by_cases hc : e % J.interval = 0 ∨ e = J.final
    · simp only [if_pos hc]
      exact ⟨⟨h.range, h.w, h.upto, h.train⟩, fun _ _ _ => rfl⟩
    · simp only [if_neg hc]
      refine ⟨⟨h.range, h.w, h.upto, h.train⟩, fun _ _ _ => rfl, fun hf => absurd (Or.inr hf) hc,
        fun n hn => by simp [Job.names, hn], fun n hn hnot => ?_⟩
      simp only [Job.names, List.mem_cons] at hn
      rcases hn with rfl | hn
      · exact h.train
      · exact absurd hn hnot
  | saveModel e =>
    rw [hpc] at h
    obtain ⟨hm, hE⟩ := h
    have : stepProc J dk p = ({ dk with model := upd dk.model e (some p.w.1) }, { p with pc := .saveOpt e }) := by
      unfold stepProc; rw [hpc]
    rw [this]
    have hS : ∀ d, Scored J dk d → isEvaluated d "train" e = true → Upto J d e →
        Scored J { dk with model := upd dk.model e (some p.w.1) } d := by
      intro d hs h1 h2 j hj
      by_cases hje : j = e
      · subst hje; exact ⟨h1, h2⟩
      · exact hs j (by simpa [upd_ne _ hje] using hj)
    refine ⟨⟨fun j m hjm => ?_, hd.opt, hd.lr, hS _ hd.scored ?_ ?_⟩, hp.agree, hp.presets, hS _ hp.scored hm.train hm.upto, ?_⟩
    · by_cases hje : j = e
      · subst hje
        simp only [upd_eq] at hjm
        injection hjm with hjm
        exact ⟨hm.range, by rw [← hjm, hm.w]⟩
      · simp only [upd_ne _ hje] at hjm; exact hd.model j m hjm
    · rw [hE _ (train_mem J)]; exact hm.train
    · intro i h1 h2 n hn; rw [hE n hn]; exact hm.upto i h1 h2 n hn
    · exact ⟨⟨hm.range, hm.w, hm.upto, hm.train⟩, hE, by simp [upd_eq]⟩
  | saveOpt e =>
    rw [hpc] at h
    obtain ⟨hm, hE, hmod⟩ := h
    have : stepProc J dk p = ({ dk with opt := upd dk.opt e (some p.w.2) }, { p with pc := .cleanOpt e }) := by
      unfold stepProc; rw [hpc]
    rw [this]
    refine ⟨⟨hd.model, fun j o hjo => ?_, hd.lr, hd.scored⟩, hp.agree, hp.presets, hp.scored,
      ⟨hm.range, hm.w, hm.upto, hm.train⟩, hE, hmod⟩
    by_cases hje : j = e
    · subst hje
      simp only [upd_eq] at hjo
      injection hjo with hjo
      rw [← hjo, hm.w]
    · simp only [upd_ne _ hje] at hjo; exact hd.opt j o hjo
  | cleanOpt e =>
    rw [hpc] at h
    obtain ⟨hm, hE, hmod⟩ := h
    have hpcq : ∀ dk' : Disk M O, dk'.model = dk.model → dk'.lr = dk.lr →
        PcOk J dk' { p with pc := .eval e J.evals } := by
      intro dk' h1 h2
      unfold PcOk
      simp only [h1, h2]
      refine ⟨⟨hm.range, hm.w, hm.upto, hm.train⟩, hE, fun _ => hmod, fun n hn => by simp [Job.names, hn], fun n hn hnot => ?_⟩
      simp only [Job.names, List.mem_cons] at hn
      rcases hn with rfl | hn
      · exact hm.train
      · exact absurd hn hnot
    by_cases hc : e - 2 > 0 ∧ J.keepOpt = false
    · have : stepProc J dk p = ({ dk with opt := upd dk.opt (e - 2) none }, { p with pc := .eval e J.evals }) := by
        unfold stepProc; rw [hpc]; simp only; rw [if_pos hc]
      rw [this]
      refine ⟨⟨hd.model, fun j o hjo => ?_, hd.lr, hd.scored⟩, hp.agree, hp.presets, hp.scored, hpcq _ rfl rfl⟩
      by_cases hje : j = e - 2
      · subst hje; simp [upd_eq] at hjo
      · simp only [upd_ne _ hje] at hjo; exact hd.opt j o hjo
    · have : stepProc J dk p = (dk, { p with pc := .eval e J.evals }) := by
        unfold stepProc; rw [hpc]; simp only; rw [if_neg hc]
      rw [this]
      exact ⟨hd, hp.agree, hp.presets, hp.scored, hpcq _ rfl rfl⟩
  | eval e todo =>
    rw [hpc] at h
    obtain ⟨hm, hE, hlast, hsub, hdone⟩ := h
    cases todo with
    | nil =>
      have : stepProc J dk p = (dk, { p with pc := if J.cleanupOpts.isSome then .cleanup e else .loop (e + 1) }) := by
        unfold stepProc; rw [hpc]
      rw [this]
      refine ⟨hd, hp.agree, hp.presets, hp.scored, ?_⟩
      have hup := upto_succ hm.upto (fun n hn => hdone n hn (by simp))
      by_cases hc : J.cleanupOpts.isSome = true
      · simp only [if_pos hc]
        exact ⟨⟨hm.range, hm.w, hup, hE, hlast⟩, hc⟩
      · simp only [if_neg hc]
        refine ⟨by have := hm.range.1; omega, by simp [hm.w], hup, hE, ?_⟩
        intro h1 h2
        have : e = J.final := by have := hm.range.2; omega
        rw [← this]; exact hlast this
    | cons n ns =>
      have hn := hsub n (by simp)
      have : stepProc J dk p = ({ dk with lr := setScores p.mem e (J.score n e p.w) },
          ⟨.eval e ns, p.w, setScores p.mem e (J.score n e p.w)⟩) := by
        unfold stepProc; rw [hpc]
      rw [this]
      refine score_step hJ hd hp hm hn _ (fun q hqw hqm hqp hmid heq hqev => ?_)
      unfold PcOk
      rw [hqp]
      refine ⟨hmid, heq, hlast, fun m hmm => hsub m (by simp [hmm]), fun m hmm hnot => (hqev m hmm e).2 ?_⟩
      by_cases hmn : m = n
      · exact Or.inr ⟨hmn, rfl⟩
      · exact Or.inl (hdone m hmm (by simp [hmn, hnot]))
  | cleanup e =>
    rw [hpc] at h
    obtain ⟨hend, hsome⟩ := h
    obtain ⟨rs, hrs⟩ := cleanup_never_fails hJ hp hend hsome
    have : stepProc J dk p = (dk, { p with pc := .delModel e rs }) := by
      unfold stepProc; rw [hpc]; simp only; rw [hrs]
    rw [this]
    obtain ⟨h1, h2, h3⟩ := cleanup_rs hrs
    exact ⟨hd, hp.agree, hp.presets, hp.scored, ⟨hend.range, hend.w, hend.upto, hend.eq, hend.last⟩, h1, h2,
      fun hf => by rw [hf]; exact h3⟩
  | delModel e todo =>
    rw [hpc] at h
    obtain ⟨hend, hnd, hex, hfin⟩ := h
    cases todo with
    | nil =>
      have : stepProc J dk p = (dk, { p with pc := .loop (e + 1) }) := by unfold stepProc; rw [hpc]
      rw [this]
      refine ⟨hd, hp.agree, hp.presets, hp.scored, ?_⟩
      refine ⟨by have := hend.range.1; omega, by simp [hend.w], hend.upto, hend.eq, ?_⟩
      intro h1 h2
      have : e = J.final := by have := hend.range.2; omega
      rw [← this]; exact hend.last this
    | cons r rs =>
      have hr : (dk.model r).isSome = true := Option.isSome_iff_ne_none.2 (hex r (by simp))
      have : stepProc J dk p = ({ dk with model := upd dk.model r none }, { p with pc := .delOpt e r rs }) := by
        unfold stepProc; rw [hpc]; simp only; rw [if_pos hr]
      rw [this]
      have hsub : ∀ j, upd dk.model r none j ≠ none → dk.model j ≠ none := by
        intro j hj
        by_cases hjr : j = r
        · subst hjr; simp [upd_eq] at hj
        · simpa [upd_ne _ hjr] using hj
      obtain ⟨hnr, hnd'⟩ := List.nodup_cons.1 hnd
      refine ⟨⟨fun j m hjm => ?_, hd.opt, hd.lr, scored_sub hsub hd.scored⟩, hp.agree, hp.presets,
        scored_sub hsub hp.scored, ⟨hend.range, hend.w, hend.upto, hend.eq, fun hf => ?_⟩, hnd', fun r' hr' => ?_,
        fun hf hmem => hfin hf (by simp [hmem])⟩
      · by_cases hjr : j = r
        · subst hjr; simp [upd_eq] at hjm
        · simp only [upd_ne _ hjr] at hjm; exact hd.model j m hjm
      · have hne : e ≠ r := fun h => hfin hf (by simp [h])
        simp only [upd_ne _ hne]; exact hend.last hf
      · have hne : r' ≠ r := fun h => hnr (h ▸ hr')
        simp only [upd_ne _ hne]; exact hex r' (by simp [hr'])
  | delOpt e r todo =>
    rw [hpc] at h
    obtain ⟨hend, hnd, hex, hfin⟩ := h
    have : stepProc J dk p = ({ dk with opt := upd dk.opt r none }, { p with pc := .delModel e todo }) := by
      unfold stepProc; rw [hpc]
    rw [this]
    refine ⟨⟨hd.model, fun j o hjo => ?_, hd.lr, hd.scored⟩, hp.agree, hp.presets, hp.scored,
      ⟨hend.range, hend.w, hend.upto, hend.eq, hend.last⟩, hnd, hex, hfin⟩
    by_cases hje : j = r
    · subst hje; simp [upd_eq] at hjo
    · simp only [upd_ne _ hje] at hjo; exact hd.opt j o hjo
  | finished =>
    have : stepProc J dk p = (dk, p) := by unfold stepProc; rw [hpc]
    rw [this]; exact ⟨hd, hp⟩
  | failed err =>
    rw [hpc] at h; exact h.elim

theorem inv_empty (J : Job M O) : Inv J St.empty := by
  exact ⟨⟨fun j m h => (by cases h), fun j o h => (by cases h), agree_nil J, fun j h => absurd rfl h⟩, fun p h => (by cases h)⟩

theorem inv_next {J : Job M O} (hJ : JobOk J) {s s' : St M O} {ev : Ev} (h : Inv J s) (hn : s.next J ev = some s') :
    Inv J s' := by
  unfold St.next at hn
  cases ev with
  | start =>
    simp only at hn
    split at hn
    · injection hn with hn; subst hn
      exact ⟨h.disk, fun p hp => by injection hp with hp; subst hp; exact boot_ok hJ h.disk⟩
    · cases hn
  | step =>
    simp only at hn
    split at hn
    · cases hn
    · rename_i p hp
      injection hn with hn; subst hn
      obtain ⟨h1, h2⟩ := step_ok hJ h.disk (h.proc p hp)
      exact ⟨h1, fun q hq => by injection hq with hq; subst hq; exact h2⟩
  | crash =>
    simp only at hn
    split at hn
    · cases hn
    · injection hn with hn; subst hn
      exact ⟨h.disk, fun p hp => by cases hp⟩

theorem inv_reach {J : Job M O} (hJ : JobOk J) {s : St M O} (h : Reach J s) : Inv J s := by
  induction h with
  | empty => exact inv_empty J
  | next ev _ hn ih => exact inv_next hJ ih hn

/-! ### The results -/

/-- C49. However often and wherever the training was killed and restarted: every model file and every optimizer file is
the one which the training without any crash has after this epoch. -/
theorem checkpoints_as_without_crash {J : Job M O} (hJ : JobOk J) {s : St M O} (h : Reach J s) (e : Int) :
    (∀ m, s.disk.model e = some m → m = (ideal J e.toNat).1.1) ∧
      (∀ o, s.disk.opt e = some o → o = (ideal J e.toNat).1.2) :=
  ⟨fun m hm => ((inv_reach hJ h).disk.model e m hm).2, fun o ho => (inv_reach hJ h).disk.opt e o ho⟩

/-- C49. The learning rate file always has the learning rates of the training without crashes, and only scores
of the training without crashes. -/
theorem lr_file_as_without_crash {J : Job M O} (hJ : JobOk J) {s : St M O} (h : Reach J s) {e : Int} {x : EpochData}
    (hx : s.disk.lr.get? e = some x) :
    ∃ y, (ideal J e.toNat).2.get? e = some y ∧ x.lr = y.lr ∧
      ∀ key v, x.error.get? key = some v → y.error.get? key = some v := by
  have hA := (inv_reach hJ h).disk.lr
  obtain ⟨h1, h2, h3⟩ := hA.2 e x hx
  obtain ⟨i1, _, i3⟩ := ideal_agree hJ e.toNat
  have hev := i3 e h1 (by omega)
  obtain ⟨y, hy⟩ := evald_some (hev "train" (train_mem J))
  refine ⟨y, hy, by rw [h2, (i1.2 e y hy).2.1], fun key v hv => ?_⟩
  obtain ⟨n, hn, _, hs⟩ := (h3 key v).1 hv
  exact ((i1.2 e y hy).2.2 key v).2 ⟨n, hn, hev n hn, hs⟩

/-- C49. A restart never fails, neither on missing scores, nor on missing files, nor in the cleanup. -/
theorem training_never_fails {J : Job M O} (hJ : JobOk J) {s : St M O} (h : Reach J s) {p : Proc M O}
    (hp : s.proc = some p) (err : Err) : p.pc ≠ .failed err := by
  intro hf
  have := ((inv_reach hJ h).proc p hp).pc
  unfold PcOk at this
  rw [hf] at this
  exact this

/-- `n` steps without crash. -/
def steps (J : Job M O) : Nat → Disk M O × Proc M O → Disk M O × Proc M O
  | 0, x => x
  | n + 1, x => steps J n (stepProc J x.1 x.2)

theorem steps_reach {J : Job M O} (n : Nat) : ∀ {x : Disk M O × Proc M O}, Reach J ⟨x.1, some x.2⟩ →
    Reach J ⟨(steps J n x).1, some (steps J n x).2⟩ := by
  induction n with
  | zero => intro x h; exact h
  | succ n ih => intro x h; exact ih (Reach.next .step h rfl)

/-- What is still to do. -/
def todoOf (J : Job M O) : Pc → Nat × Nat × Nat
  | .missing e l => ((J.final + 1 - e).toNat, 9, l.length)
  | .loop e => ((J.final + 1 - e).toNat, 8, 0)
  | .saveLr e => ((J.final + 1 - e).toNat, 7, 0)
  | .saveModel e => ((J.final + 1 - e).toNat, 6, 0)
  | .saveOpt e => ((J.final + 1 - e).toNat, 5, 0)
  | .cleanOpt e => ((J.final + 1 - e).toNat, 4, 0)
  | .eval e l => ((J.final + 1 - e).toNat, 3, l.length)
  | .cleanup e => ((J.final + 1 - e).toNat, 2, 0)
  | .delModel e l => ((J.final + 1 - e).toNat, 1, 2 * l.length)
  | .delOpt e _ l => ((J.final + 1 - e).toNat, 1, 2 * l.length + 1)
  | .finished => (0, 0, 0)
  | .failed _ => (0, 0, 0)

def LexLt (a b : Nat × Nat × Nat) : Prop := a.1 < b.1 ∨ (a.1 = b.1 ∧ (a.2.1 < b.2.1 ∨ (a.2.1 = b.2.1 ∧ a.2.2 < b.2.2)))

theorem lexLt_wf : WellFounded LexLt := by
  have h : LexLt = Prod.Lex (· < ·) (Prod.Lex (· < ·) (· < ·)) := by
    funext a b
    obtain ⟨a1, a2, a3⟩ := a
    obtain ⟨b1, b2, b3⟩ := b
    simp only [LexLt, Prod.lex_def]
  rw [h]
  exact WellFounded.prod_lex Nat.lt_wfRel.wf (WellFounded.prod_lex Nat.lt_wfRel.wf Nat.lt_wfRel.wf)

theorem step_decreases {J : Job M O} (hJ : JobOk J) {dk : Disk M O} {p : Proc M O} (hp : ProcOk J dk p)
    (hf : p.pc ≠ .finished) : LexLt (todoOf J (stepProc J dk p).2.pc) (todoOf J p.pc) := by
  have h := hp.pc
  unfold PcOk at h
  cases hpc : p.pc with
  | missing e todo =>
    rw [hpc] at h
    obtain ⟨hm, _⟩ := h
    have := hm.range
    cases todo with
    | nil => simp only [stepProc, hpc, todoOf, LexLt]; left; omega
    | cons n ns =>
      simp only [stepProc, hpc]
      split <;> simp [todoOf, LexLt]
  | loop e =>
    simp only [stepProc, hpc]
    split
    · simp only [todoOf, LexLt]; omega
    · simp [todoOf, LexLt]
  | saveLr e =>
    simp only [stepProc, hpc]
    split <;> simp [todoOf, LexLt]
  | saveModel e => simp [stepProc, hpc, todoOf, LexLt]
  | saveOpt e => simp [stepProc, hpc, todoOf, LexLt]
  | cleanOpt e =>
    simp only [stepProc, hpc]
    split <;> simp [todoOf, LexLt]
  | eval e todo =>
    rw [hpc] at h
    have := h.1.range
    cases todo with
    | nil =>
      simp only [stepProc, hpc]
      split
      · simp [todoOf, LexLt]
      · simp only [todoOf, LexLt]; left; omega
    | cons n ns => simp [stepProc, hpc, todoOf, LexLt]
  | cleanup e =>
    rw [hpc] at h
    obtain ⟨rs, hrs⟩ := cleanup_never_fails hJ hp h.1 h.2
    simp only [stepProc, hpc, hrs]
    simp [todoOf, LexLt]
  | delModel e todo =>
    rw [hpc] at h
    have := h.1.range
    cases todo with
    | nil => simp only [stepProc, hpc, todoOf, LexLt]; left; omega
    | cons r rs =>
      have hr : (dk.model r).isSome = true := Option.isSome_iff_ne_none.2 (h.2.2.1 r (by simp))
      simp only [stepProc, hpc, if_pos hr, todoOf, LexLt, List.length_cons]
      right; exact ⟨trivial, Or.inr ⟨trivial, by omega⟩⟩
  | delOpt e r todo => simp [stepProc, hpc, todoOf, LexLt]
  | finished => exact absurd hpc hf
  | failed err => rw [hpc] at h; exact h.elim

/-- C49. From every state in which a process runs, whatever happened before, the process comes to an end if it is not killed
any more, and the final model is the one of the training without crashes. -/
theorem training_finishes {J : Job M O} (hJ : JobOk J) {s : St M O} (h : Reach J s) {p : Proc M O}
    (hp : s.proc = some p) (hfin : 1 ≤ J.final) :
    ∃ n, (steps J n (s.disk, p)).2.pc = .finished ∧
      (steps J n (s.disk, p)).1.model J.final = some (ideal J J.final.toNat).1.1 := by
  have hmain : ∀ (t : Nat × Nat × Nat) (x : Disk M O × Proc M O), todoOf J x.2.pc = t → Reach J ⟨x.1, some x.2⟩ →
      ∃ n, (steps J n x).2.pc = .finished := by
    intro t
    induction t using lexLt_wf.induction with
    | _ t ih =>
      intro x hx hr
      by_cases hf : x.2.pc = .finished
      · exact ⟨0, hf⟩
      · have hinv := (inv_reach hJ hr).proc x.2 rfl
        obtain ⟨n, hn⟩ := ih _ (hx ▸ step_decreases hJ hinv hf) (stepProc J x.1 x.2) rfl (Reach.next .step hr rfl)
        exact ⟨n + 1, hn⟩
  obtain ⟨dk, pr⟩ := s
  simp only at hp
  subst hp
  obtain ⟨n, hn⟩ := hmain _ (dk, p) rfl h
  refine ⟨n, hn, ?_⟩
  have hr := steps_reach (x := (dk, p)) n h
  have hpc := ((inv_reach hJ hr).proc _ rfl).pc
  unfold PcOk at hpc
  rw [hn] at hpc
  cases hm : (steps J n (dk, p)).1.model J.final with
  | none => exact absurd hm (hpc hfin)
  | some m => rw [(checkpoints_as_without_crash hJ hr J.final).1 m hm]

end Verif.Engine
