import Verif.Engine.PropsTrain
import Verif.Engine.Props
/-
How much work a crash can cost (C49).
-/
namespace Verif.Engine
open Verif.Py LearningRate

variable {M O : Type}

/-- A checkpoint is written after epoch `e`. -/
def SavePoint (J : Job M O) (e : Int) : Prop := e % J.interval = 0 ∨ e = J.final

/-- No checkpoint is due strictly between. -/
def Gap (J : Job M O) (a b : Int) : Prop := ∀ i, a < i → i < b → ¬ SavePoint J i

/-- `r` is the last complete checkpoint, 0 if there is none. -/
structure LastRes (J : Job M O) (dk : Disk M O) (r : Int) : Prop where
  pos : 0 ≤ r
  has : 1 ≤ r → dk.model r ≠ none ∧ dk.opt r ≠ none
  opt : ∀ j, dk.opt j ≠ none → j ≤ r
  gap : ∀ j, dk.model j ≠ none → r < j → Gap J r j
  save : ∀ j, dk.model j ≠ none → SavePoint J j

/-- After the end of epoch `e` with last complete checkpoint `r`. -/
structure After (J : Job M O) (dk : Disk M O) (r e : Int) : Prop where
  le : r ≤ e
  gap : Gap J r (e + 1)
  no : r = e → ∀ j, dk.model j ≠ none → j ≤ e

def PcProg (J : Job M O) (dk : Disk M O) (r : Int) : Pc → Prop
  | .missing e _ => e = r
  | .loop e => r < e ∧ Gap J r e
  | .saveLr e => r < e ∧ Gap J r e
  | .saveModel e => r < e ∧ Gap J r e ∧ SavePoint J e
  | .saveOpt e => r < e ∧ Gap J r e ∧ SavePoint J e
  | .cleanOpt e => e = r ∧ ∀ j, dk.model j ≠ none → j ≤ e
  | .eval e _ => After J dk r e
  | .cleanup e => After J dk r e
  | .delModel e rs => After J dk r e ∧ ∀ t ∈ rs, t < r
  | .delOpt e t rs => After J dk r e ∧ t < r ∧ ∀ t ∈ rs, t < r
  | .finished => True
  | .failed _ => True

/-- The cleanup keeps enough. -/
def KeepsEnough (J : Job M O) : Prop := ∀ o, J.cleanupOpts = some o → J.interval = 1 ∨ 2 ≤ o.keepLastN

structure Prog (J : Job M O) (s : St M O) (r : Int) : Prop where
  disk : LastRes J s.disk r
  proc : ∀ p, s.proc = some p → PcProg J s.disk r p.pc

theorem resume_eq {J : Job M O} {dk : Disk M O} (hd : DiskOk J dk) {r : Int} (h : LastRes J dk r) :
    resumeEpoch J dk = r + 1 := by
  rcases resume_spec J dk with ⟨h1, h2⟩ | ⟨h1, h2⟩
  · by_cases hr : 1 ≤ r
    · obtain ⟨hm, ho⟩ := h.has hr
      cases hx : dk.model r with
      | none => exact absurd hx hm
      | some m => exact absurd ((mem_resumable J dk r).2 ⟨(hd.model r m hx).1, hm, ho⟩) (h1 r)
    · have := h.pos; omega
  · obtain ⟨hr, hm, ho⟩ := (mem_resumable J dk _).1 h1
    have hle := h.opt _ ho
    have : 1 ≤ r := by omega
    obtain ⟨hm', ho'⟩ := h.has this
    cases hx : dk.model r with
    | none => exact absurd hx hm'
    | some m =>
      have := h2 r ((mem_resumable J dk r).2 ⟨(hd.model r m hx).1, hm', ho'⟩)
      omega

theorem gap_mono {J : Job M O} {a b b' : Int} (h : Gap J a b) (hb : b' ≤ b) : Gap J a b' :=
  fun i h1 h2 => h i h1 (by omega)

theorem gap_succ {J : Job M O} {a b : Int} (h : Gap J a b) (hb : ¬ SavePoint J b) : Gap J a (b + 1) := by
  intro i h1 h2
  by_cases hi : i = b
  · rw [hi]; exact hb
  · exact h i h1 (by omega)

theorem gap_nil {J : Job M O} (a : Int) : Gap J a (a + 1) := fun i h1 h2 => by omega

/-- The learning rate file does not matter. -/
theorem lastRes_lr {J : Job M O} {dk : Disk M O} {r : Int} (h : LastRes J dk r) (d : Data) :
    LastRes J { dk with lr := d } r := ⟨h.pos, h.has, h.opt, h.gap, h.save⟩

/-- The cleanup removes only epochs before the last complete checkpoint. -/
theorem cleanup_before {J : Job M O} (hJ : JobOk J) (hK : KeepsEnough J) {dk : Disk M O} (hd : DiskOk J dk)
    {d : Data} {r e : Int} (hl : LastRes J dk r) (ha : After J dk r e) (hs : J.cleanupOpts.isSome) {rs : List Int}
    (hrs : cleanup (J.cleanupOpts.getD {}) d (stored J dk) = .ok rs) : ∀ t ∈ rs, t < r := by
  obtain ⟨o, ho⟩ := Option.isSome_iff_exists.1 hs
  rw [ho] at hrs
  simp only [Option.getD_some] at hrs
  intro t ht
  cases hlast : (stored J dk).getLast? with
  | none =>
    unfold cleanup at hrs
    rw [hlast] at hrs
    injection hrs with hrs
    subst hrs; cases ht
  | some last =>
    cases hdry : o.dryRun with
    | true => rw [cleanup_dry hdry hrs] at ht; cases ht
    | false =>
      have hsp := cleanup_spec (stored_sorted J dk) hlast hdry hrs
      split at hsp
      · rw [hsp] at ht; cases ht
      · obtain ⟨hts, hnk⟩ := (hsp.2 t).1 ht
        by_contra hge
        apply hnk
        right; right; left
        refine ⟨hts, ?_⟩
        have hn1 := (hJ.cleanup o ho).1
        -- epochs after `r` on disk: at most one
        have huniq : ∀ a ∈ stored J dk, ∀ b ∈ stored J dk, r < a → r < b → a = b := by
          intro a ha b hb har hbr
          obtain ⟨_, hma⟩ := (mem_stored J dk a).1 ha
          obtain ⟨_, hmb⟩ := (mem_stored J dk b).1 hb
          rcases lt_trichotomy a b with h | h | h
          · exact absurd (hl.save a hma) (hl.gap b hmb hbr a har h)
          · exact h
          · exact absurd (hl.save b hmb) (hl.gap a hma har b hbr h)
        have hlen : ((stored J dk).filter (fun e' => decide (t < e'))).length ≤ 1 := by
          by_contra hc
          have hpw : ((stored J dk).filter (fun e' => decide (t < e'))).Pairwise (· < ·) :=
            (stored_sorted J dk).sublist List.filter_sublist
          match hz : (stored J dk).filter (fun e' => decide (t < e')) with
          | [] => rw [hz] at hc; simp at hc
          | [_] => rw [hz] at hc; simp at hc
          | a :: b :: l =>
            have hma : a ∈ (stored J dk).filter (fun e' => decide (t < e')) := by rw [hz]; simp
            have hmb : b ∈ (stored J dk).filter (fun e' => decide (t < e')) := by rw [hz]; simp
            rw [List.mem_filter, decide_eq_true_eq] at hma hmb
            have := huniq a hma.1 b hmb.1 (by omega) (by omega)
            rw [hz] at hpw
            have := (List.pairwise_cons.1 hpw).1 b (by simp)
            omega
        by_cases hzero : (stored J dk).filter (fun e' => decide (t < e')) = []
        · rw [hzero]; simp; omega
        · -- some epoch after `t`, so `t = r`
          obtain ⟨a, hma⟩ := List.exists_mem_of_ne_nil _ hzero
          rw [List.mem_filter, decide_eq_true_eq] at hma
          have htr : t = r := by
            by_contra hne
            have := huniq t hts a hma.1 (by omega) (by omega)
            omega
          rcases hK o ho with hi | h2
          · exfalso
            have hsave : SavePoint J e := Or.inl (by rw [hi]; exact Int.emod_one e)
            have hre : r = e := by
              by_contra hne
              exact ha.gap e (by have := ha.le; omega) (by omega) hsave
            have := ha.no hre a ((mem_stored J dk a).1 hma.1).2
            omega
          · omega

theorem prog_step {J : Job M O} (hJ : JobOk J) (hK : KeepsEnough J) {dk : Disk M O} {p : Proc M O} {r : Int}
    (hd : DiskOk J dk) (hp : ProcOk J dk p) (hl : LastRes J dk r) (hpr : PcProg J dk r p.pc) :
    ∃ r', r ≤ r' ∧ LastRes J (stepProc J dk p).1 r' ∧ PcProg J (stepProc J dk p).1 r' (stepProc J dk p).2.pc := by
  have h := hp.pc
  unfold PcOk at h
  cases hpc : p.pc with
  | missing e todo =>
    rw [hpc] at hpr
    simp only [PcProg] at hpr
    cases todo with
    | nil =>
      simp only [stepProc, hpc]
      exact ⟨r, le_rfl, hl, by simp only [PcProg]; exact ⟨by omega, by rw [hpr]; exact gap_nil r⟩⟩
    | cons n ns =>
      simp only [stepProc, hpc]
      split
      · exact ⟨r, le_rfl, hl, hpr⟩
      · exact ⟨r, le_rfl, lastRes_lr hl _, hpr⟩
  | loop e =>
    rw [hpc] at hpr
    simp only [PcProg] at hpr
    simp only [stepProc, hpc]
    split
    · exact ⟨r, le_rfl, hl, trivial⟩
    · exact ⟨r, le_rfl, hl, hpr⟩
  | saveLr e =>
    rw [hpc] at hpr
    simp only [PcProg] at hpr
    simp only [stepProc, hpc]
    refine ⟨r, le_rfl, lastRes_lr hl _, ?_⟩
    split
    · rename_i hs; exact ⟨hpr.1, hpr.2, hs⟩
    · rename_i hs; exact ⟨by omega, gap_succ hpr.2 hs, fun he => by omega⟩
  | saveModel e =>
    rw [hpc] at hpr
    obtain ⟨h1, h2, h3⟩ := hpr
    simp only [stepProc, hpc]
    refine ⟨r, le_rfl, ⟨hl.pos, fun hr => ?_, hl.opt, fun j hj hrj => ?_, fun j hj => ?_⟩, ⟨h1, h2, h3⟩⟩
    · have hne : r ≠ e := by omega
      simp only [upd_ne _ hne]; exact hl.has hr
    · by_cases hje : j = e
      · subst hje; exact h2
      · simp only [upd_ne _ hje] at hj; exact hl.gap j hj hrj
    · by_cases hje : j = e
      · subst hje; exact h3
      · simp only [upd_ne _ hje] at hj; exact hl.save j hj
  | saveOpt e =>
    rw [hpc] at hpr h
    obtain ⟨h1, h2, h3⟩ := hpr
    simp only [stepProc, hpc]
    have hno : ∀ j, dk.model j ≠ none → j ≤ e := by
      intro j hj
      by_contra hc
      exact hl.gap j hj (by omega) e h1 (by omega) h3
    refine ⟨e, h1.le, ⟨by have := hl.pos; omega, fun _ => ⟨h.2.2, by simp [upd_eq]⟩, fun j hj => ?_,
      fun j hj hje => ?_, hl.save⟩, rfl, hno⟩
    · by_cases hje : j = e
      · omega
      · simp only [upd_ne _ hje] at hj; have := hl.opt j hj; omega
    · have := hno j hj; omega
  | cleanOpt e =>
    rw [hpc] at hpr
    obtain ⟨h1, h2⟩ := hpr
    simp only [stepProc, hpc]
    split
    · refine ⟨r, le_rfl, ⟨hl.pos, fun hr => ?_, fun j hj => ?_, hl.gap, hl.save⟩, ⟨by omega, by rw [h1]; exact gap_nil r, fun _ => h2⟩⟩
      · have hne : r ≠ e - 2 := by omega
        simp only [upd_ne _ hne]; exact hl.has hr
      · by_cases hje : j = e - 2
        · omega
        · simp only [upd_ne _ hje] at hj; exact hl.opt j hj
    · exact ⟨r, le_rfl, hl, ⟨by omega, by rw [h1]; exact gap_nil r, fun _ => h2⟩⟩
  | eval e todo =>
    rw [hpc] at hpr
    simp only [PcProg] at hpr
    cases todo with
    | nil =>
      simp only [stepProc, hpc]
      refine ⟨r, le_rfl, hl, ?_⟩
      split
      · exact hpr
      · exact ⟨by have := hpr.le; omega, hpr.gap⟩
    | cons n ns =>
      simp only [stepProc, hpc]
      exact ⟨r, le_rfl, lastRes_lr hl _, ⟨hpr.le, hpr.gap, hpr.no⟩⟩
  | cleanup e =>
    rw [hpc] at hpr h
    simp only [PcProg] at hpr
    obtain ⟨rs, hrs⟩ := cleanup_never_fails hJ hp h.1 h.2
    simp only [stepProc, hpc, hrs]
    exact ⟨r, le_rfl, hl, hpr, cleanup_before hJ hK hd hl hpr h.2 hrs⟩
  | delModel e todo =>
    rw [hpc] at hpr h
    obtain ⟨ha, hrs⟩ := hpr
    cases todo with
    | nil =>
      simp only [stepProc, hpc]
      exact ⟨r, le_rfl, hl, by have := ha.le; omega, ha.gap⟩
    | cons t ts =>
      have ht : (dk.model t).isSome = true := Option.isSome_iff_ne_none.2 (h.2.2.1 t (by simp))
      have htr := hrs t (by simp)
      simp only [stepProc, hpc, if_pos ht]
      have hsub : ∀ j, upd dk.model t none j ≠ none → dk.model j ≠ none := by
        intro j hj
        by_cases hjr : j = t
        · subst hjr; simp [upd_eq] at hj
        · simpa [upd_ne _ hjr] using hj
      refine ⟨r, le_rfl, ⟨hl.pos, fun hr => ?_, hl.opt, fun j hj hrj => hl.gap j (hsub j hj) hrj,
        fun j hj => hl.save j (hsub j hj)⟩, ⟨ha.le, ha.gap, fun he j hj => ha.no he j (hsub j hj)⟩, htr,
        fun t' ht' => hrs t' (by simp [ht'])⟩
      have hne : r ≠ t := by omega
      simp only [upd_ne _ hne]; exact hl.has hr
  | delOpt e t todo =>
    rw [hpc] at hpr
    obtain ⟨ha, htr, hrs⟩ := hpr
    simp only [stepProc, hpc]
    refine ⟨r, le_rfl, ⟨hl.pos, fun hr => ?_, fun j hj => ?_, hl.gap, hl.save⟩, ⟨ha.le, ha.gap, ha.no⟩, hrs⟩
    · have hne : r ≠ t := by omega
      simp only [upd_ne _ hne]; exact hl.has hr
    · by_cases hje : j = t
      · omega
      · simp only [upd_ne _ hje] at hj; exact hl.opt j hj
  | finished => simp only [stepProc, hpc]; exact ⟨r, le_rfl, hl, trivial⟩
  | failed err => simp only [stepProc, hpc]; exact ⟨r, le_rfl, hl, trivial⟩

theorem prog_boot {J : Job M O} (hJ : JobOk J) {dk : Disk M O} {r : Int} (hd : DiskOk J dk) (hl : LastRes J dk r) :
    PcProg J dk r (boot J dk).pc := by
  have hr := resume_eq hd hl
  have hok := (boot_ok hJ hd).pc
  have hpc : ∀ q, boot J dk = q → PcOk J dk q → PcProg J dk r q.pc := by
    intro q hq hqok
    unfold boot at hq
    simp only [hr] at hq
    split at hq
    · subst hq
      exact ⟨by omega, by rw [show (1 : Int) = r + 1 by omega]; exact gap_nil r⟩
    · split at hq
      · split at hq
        · split at hq
          · subst hq; simp only [PcProg]; omega
          · subst hq; trivial
        · subst hq; trivial
      · subst hq; trivial
      · subst hq; trivial
  exact hpc _ rfl hok

theorem prog_next {J : Job M O} (hJ : JobOk J) (hK : KeepsEnough J) {s s' : St M O} {ev : Ev} {r : Int} (hi : Inv J s)
    (h : Prog J s r) (hn : s.next J ev = some s') : ∃ r', r ≤ r' ∧ Prog J s' r' := by
  unfold St.next at hn
  cases ev with
  | start =>
    simp only at hn
    split at hn
    · injection hn with hn; subst hn
      exact ⟨r, le_rfl, h.disk, fun p hp => by injection hp with hp; subst hp; exact prog_boot hJ hi.disk h.disk⟩
    · cases hn
  | step =>
    simp only at hn
    split at hn
    · cases hn
    · rename_i p hp
      injection hn with hn; subst hn
      obtain ⟨r', h1, h2, h3⟩ := prog_step hJ hK hi.disk (hi.proc p hp) h.disk (h.proc p hp)
      exact ⟨r', h1, h2, fun q hq => by injection hq with hq; subst hq; exact h3⟩
  | crash =>
    simp only at hn
    split at hn
    · cases hn
    · injection hn with hn; subst hn
      exact ⟨r, le_rfl, h.disk, fun p hp => by cases hp⟩

theorem prog_reach {J : Job M O} (hJ : JobOk J) (hK : KeepsEnough J) {s : St M O} (h : Reach J s) : ∃ r, Prog J s r := by
  induction h with
  | empty =>
    exact ⟨0, ⟨le_rfl, fun h => by omega, fun j hj => absurd rfl hj, fun j hj => absurd rfl hj, fun j hj => absurd rfl hj⟩,
      fun p hp => by cases hp⟩
  | next ev hr hn ih =>
    obtain ⟨r, hr'⟩ := ih
    obtain ⟨r', _, h'⟩ := prog_next hJ hK (inv_reach hJ hr) hr' hn
    exact ⟨r', h'⟩

/-! ### The results -/

/-- C49. If every epoch is saved or at least the last two checkpoints are kept: the epoch with which a restart would go on
never decreases, whatever happens. -/
theorem resume_never_goes_back_partial {J : Job M O} (hJ : JobOk J) (hK : KeepsEnough J) {s s' : St M O} {ev : Ev}
    (h : Reach J s) (hn : s.next J ev = some s') : resumeEpoch J s.disk ≤ resumeEpoch J s'.disk := by
  have hi := inv_reach hJ h
  obtain ⟨r, hr⟩ := prog_reach hJ hK h
  obtain ⟨r', hle, hr'⟩ := prog_next hJ hK hi hr hn
  rw [resume_eq hi.disk hr.disk, resume_eq (inv_next hJ hi hn).disk hr'.disk]
  omega

/-- C49. ... and a crash in the middle of epoch `e` costs less than `save_interval` complete epochs. -/
theorem lost_work_bound_partial {J : Job M O} (hJ : JobOk J) (hK : KeepsEnough J) {s : St M O} (h : Reach J s)
    {p : Proc M O} (hp : s.proc = some p) {e : Int} (hpc : p.pc = .loop e ∨ p.pc = .saveLr e) :
    resumeEpoch J s.disk ≤ e ∧ e - resumeEpoch J s.disk < J.interval := by
  have hi := inv_reach hJ h
  obtain ⟨r, hr⟩ := prog_reach hJ hK h
  rw [resume_eq hi.disk hr.disk]
  have hpr := hr.proc p hp
  have hgap : r < e ∧ Gap J r e := by
    rcases hpc with hpc | hpc <;> (rw [hpc] at hpr; exact hpr)
  refine ⟨by omega, ?_⟩
  by_contra hc
  have hpos := hJ.interval
  -- the next multiple of the interval
  have hm : ∃ i, r < i ∧ i ≤ r + J.interval ∧ i % J.interval = 0 := by
    refine ⟨(r / J.interval + 1) * J.interval, ?_, ?_, Int.mul_emod_left _ _⟩
    · have h1 := Int.emod_lt_of_pos r (show 0 < J.interval by omega)
      have h2 := Int.mul_ediv_add_emod r J.interval
      rw [Int.add_mul, Int.mul_comm (r / J.interval)]
      omega
    · have h1 := Int.emod_nonneg r (show J.interval ≠ 0 by omega)
      have h2 := Int.mul_ediv_add_emod r J.interval
      rw [Int.add_mul, Int.mul_comm (r / J.interval)]
      omega
  obtain ⟨i, h1, h2, h3⟩ := hm
  exact hgap.2 i h1 (by omega) (Or.inl h3)

/-- The epoch with which a process starts is the one which `get_train_start_epoch` finds on the file system
(automatic start epoch, `load_epoch` not set), so C33 and C49 speak about the same epoch. -/
theorem resumeEpoch_is_start_epoch {c : Cfg} {fs : Fs} {J : Job M O} {d : Disk M O} (ht : c.train = true)
    (hs : c.startEpoch = none) (hb : c.startBatchAuto = true) (hl : filepattern c.load = "")
    (hi : filepattern c.importEpoch1 = "") (hn : NoLoadEpoch c) (hbk : c.backend = .torch) (hm : c.model ≠ "")
    (hf : ∀ e, UpToFinal c e ↔ e ≤ J.final) (hplain : ∀ e, 1 ≤ e → fs.ex (epochFile c.model e false) = false)
    (hmod : ∀ e, 1 ≤ e → (fs.ex (epochFile c.model e false ++ ".pt") = true ↔ d.model e ≠ none))
    (hopt : ∀ e, 1 ≤ e → (fs.ex (epochFile c.model e false ++ ".opt.pt") = true ↔ d.opt e ≠ none)) :
    trainStartEpoch c fs = .ok (resumeEpoch J d) := by
  have hck : ∀ e fn, Ckpt c fs e fn ↔ e ∈ resumable J d ∧ fn = epochFile c.model e false := by
    intro e fn
    unfold Ckpt
    rw [hbk]
    simp only [TorchCkpt, mem_resumable]
    constructor
    · rintro ⟨_, h1, h2, rfl, h3⟩
      rcases h3 with h3 | h3
      · rw [hplain e h1] at h3; cases h3
      · exact ⟨⟨⟨h1, (hf e).1 h2⟩, (hmod e h1).1 h3.1, (hopt e h1).1 (h3.2 ht)⟩, rfl⟩
    · rintro ⟨⟨⟨h1, h2⟩, h3, h4⟩, rfl⟩
      exact ⟨hm, h1, (hf e).2 h2, rfl, Or.inr ⟨(hmod e h1).2 h3, fun _ => (hopt e h1).2 h4⟩⟩
  rcases resume_spec J d with ⟨h1, h2⟩ | ⟨h1, h2⟩
  · rw [h2]
    exact (start_fresh_partial (by rw [hs]; simp) hb hl hi hn (fun e fn h => h1 e ((hck e fn).1 h).1)).2
  · have := (resume_auto (e := resumeEpoch J d - 1) ht hs hb ⟨Or.inl hl, Or.inl hi⟩ (Or.inr hn)
      ⟨(hck _ _).2 ⟨h1, rfl⟩, fun e' fn' h => h2 e' ((hck e' fn').1 h).1⟩).2
    rw [this]; simp

/-! ### A concrete job -/

def exJob (interval keepLast : Int) : Job Nat Nat where
  final := 6
  interval := interval
  keepOpt := true
  evals := ["dev"]
  presets := [(1, 1), (2, 1 / 2)]
  sched := fun d e => match d.get? (e - 1) with | some x => x.lr / 2 | none => 1
  init := (0, 0)
  train := fun e _ w => (w.1 + e.toNat, w.2 + 1)
  score := fun n e w => [(n ++ "_loss", (w.1 : ℚ) / e)]
  cleanupOpts := some { keepLastN := keepLast, keepBestN := 0, keep := some [] }

theorem exJob_ok (i k : Int) (hi : 1 ≤ i) (hk : 1 ≤ k) : JobOk (exJob i k) where
  interval := hi
  presets := by intro p hp; simp only [exJob, List.mem_cons, List.not_mem_nil, or_false] at hp; rcases hp with rfl | rfl <;> simp
  nodup := by simp [Job.names, exJob]
  wf := by intro n e w; simp [exJob, Dict.Wf, Dict.keys]
  scores := by intro n _ e w; simp [exJob]
  own := by
    intro n hn e w key hk
    simp only [exJob, Dict.keys, List.map_cons, List.map_nil, List.mem_singleton] at hk
    subst hk
    right
    simp only [Job.names, exJob, List.mem_cons, List.not_mem_nil, or_false] at hn
    rcases hn with rfl | rfl <;> decide
  other := by
    intro n hn n' hn' hne e w key hk
    simp only [exJob, Dict.keys, List.map_cons, List.map_nil, List.mem_singleton] at hk
    subst hk
    simp only [Job.names, exJob, List.mem_cons, List.not_mem_nil, or_false] at hn hn'
    unfold ownKey
    rcases hn with rfl | rfl <;> rcases hn' with rfl | rfl
    · exact absurd rfl hne
    · decide
    · decide
    · exact absurd rfl hne
  past := by
    intro d d' e _ _ h
    simp only [exJob]
    rcases h (e - 1) (by omega) with ⟨h1, h2⟩ | ⟨x, y, h1, h2, h3, _⟩
    · rw [h1, h2]
    · rw [h1, h2]; simp only [h3]
  cleanup := by
    intro o ho
    simp only [exJob, Option.some.injEq] at ho
    subst ho
    exact ⟨hk, le_rfl, rfl⟩

/-- The job meets the assumptions, with a cleanup which keeps two checkpoints. -/
example : JobOk (exJob 2 2) ∧ KeepsEnough (exJob 2 2) := by
  refine ⟨exJob_ok 2 2 (by decide) (by decide), fun o ho => ?_⟩
  simp only [exJob, Option.some.injEq] at ho
  subst ho; right; decide

/-- Execute events. -/
def exec (J : Job M O) : List Ev → St M O → Option (St M O)
  | [], s => some s
  | ev :: evs, s => (s.next J ev).bind (exec J evs)

theorem exec_reach {J : Job M O} (evs : List Ev) : ∀ {s s' : St M O}, Reach J s → exec J evs s = some s' → Reach J s' := by
  induction evs with
  | nil => intro s s' h he; injection he with he; subst he; exact h
  | cons ev evs ih =>
    intro s s' h he
    simp only [exec] at he
    cases hn : s.next J ev with
    | none => rw [hn] at he; cases he
    | some t => rw [hn] at he; exact ih (Reach.next ev h hn) he

/-- Killed after the model of epoch 4 was written and before its optimizer state was written; restarted; at the cleanup. -/
def badRun : List Ev := .start :: List.replicate 24 .step ++ [.crash, .start] ++ List.replicate 7 .step

/-- What is left of the last resumable checkpoint. -/
def badStates : Option (Int × Int) :=
  (exec (exJob 2 1) badRun St.empty).bind (fun s => (s.next (exJob 2 1) .step).map (fun s' =>
    (resumeEpoch (exJob 2 1) s.disk, resumeEpoch (exJob 2 1) s'.disk)))

theorem badStates_eq : badStates = some (3, 1) := by decide +kernel

/-- C49 is violated with `save_interval = 2` and `keep_last_n = 1`: there is a reachable state in which a restart would go on
with epoch 3, and in the next step the cleanup removes this checkpoint, such that a restart begins again with epoch 1. -/
theorem resume_goes_back : ∃ J : Job Nat Nat, JobOk J ∧ ∃ s s', Reach J s ∧ s.next J .step = some s' ∧
    resumeEpoch J s.disk = 3 ∧ resumeEpoch J s'.disk = 1 := by
  refine ⟨exJob 2 1, exJob_ok 2 1 (by decide) (by decide), ?_⟩
  have h := badStates_eq
  unfold badStates at h
  obtain ⟨s, hs, h⟩ := Option.bind_eq_some_iff.1 h
  obtain ⟨s', hs', h⟩ := Option.map_eq_some_iff.1 h
  injection h with h1 h2
  exact ⟨s, s', exec_reach badRun Reach.empty hs, hs', h1, h2⟩

/-- A run with a crash comes to the same end (the weights are the sum of the epochs). -/
example : ((exec (exJob 2 2) (badRun ++ List.replicate 40 .step) St.empty).bind (fun s => s.disk.model 6)) = some 21 := by
  decide +kernel

end Verif.Engine
