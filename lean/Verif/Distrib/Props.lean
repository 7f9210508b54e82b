import Verif.Distrib.Lemmas
import Mathlib.Algebra.BigOperators.Group.List.Basic
/-
Distributed training (C94, C95).
-/
namespace Verif.Distrib

open Verif.Py

variable {V O E D S : Type} [AddCommGroup V] [Module ℚ V] {n : Nat}

/-! ### Common to both ways of reduction -/

theorem rows_exist (bs : Fin (n + 1) → List (Batch D)) : ∃ rows, Rows bs rows := by
  obtain ⟨r0, -, h0⟩ := Finset.exists_min_image Finset.univ (fun r => (bs r).length) ⟨0, Finset.mem_univ _⟩
  have hr0 : ∀ r, (bs r0).length ≤ (bs r).length := fun r => h0 r (Finset.mem_univ r)
  clear h0
  generalize hm : (bs r0).length = m at hr0
  induction m generalizing bs with
  | zero => exact ⟨[], fun r => List.nil_prefix, r0, hm.symm⟩
  | succ m ih =>
    have hne : ∀ r, ∃ b t, bs r = b :: t := by
      intro r
      have := hr0 r
      cases hb : bs r with
      | nil => rw [hb] at this; simp at this
      | cons b t => exact ⟨b, t, rfl⟩
    choose row tl hrow using hne
    obtain ⟨rows, h1, r1, h2⟩ := ih tl (by rw [hrow r0] at hm; simpa using hm) (fun r => by
      have := hr0 r
      rw [hrow r] at this
      simpa using this)
    refine ⟨row :: rows, fun r => ?_, r1, ?_⟩
    · rw [hrow r]
      simp only [List.map_cons]
      exact List.cons_prefix_cons.2 ⟨rfl, h1 r⟩
    · rw [hrow r1]
      simp [h2]

theorem foldl_used (c : Cfg V O E D) (epoch : Nat) (lr : ℚ) (rows : List (Fin (n + 1) → Batch D))
    (ls : Fin (n + 1) → Loc V O E D) (r : Fin (n + 1)) :
    (rows.foldl (fun ls row => stepV c epoch lr row ls) ls r).st.used = (ls r).st.used ++ rows.map (fun row => row r) ∧
    (rows.foldl (fun ls row => stepV c epoch lr row ls) ls r).st.gstep = (ls r).st.gstep + rows.length := by
  induction rows generalizing ls with
  | nil => simp
  | cons row rows ih =>
    simp only [List.foldl_cons]
    rw [(ih _).1, (ih _).2]
    simp only [stepV, after, List.map_cons, List.length_cons, List.append_assoc, List.singleton_append, true_and]
    omega

theorem trainEpochV_used (c : Cfg V O E D) (rows : Nat → List (Fin (n + 1) → Batch D)) (epoch : Nat)
    (st : Fin (n + 1) → St V O E D) (r : Fin (n + 1)) :
    (trainEpochV c rows epoch st r).used = (st r).used ++ (rows epoch).map (fun row => row r) ∧
    (trainEpochV c rows epoch st r).gstep = (st r).gstep + (rows epoch).length ∧
    (r ≠ 0 → (trainEpochV c rows epoch st r).saved = (st r).saved) := by
  simp only [trainEpochV, evalModelV]
  obtain ⟨-, h2, -, -, h5, h6⟩ := evalAllV_eps c epoch false (List.range c.numEval)
    (fun r => endEpoch c r epoch ((rows epoch).foldl (fun ls row => stepV c epoch (c.lrOf (st 0).eps epoch) row ls)
      (fun r => startLoc (initEpoch c r epoch (st r))) r)) r
  rw [h2, h5, h6]
  obtain ⟨h7, h8⟩ := foldl_used c epoch (c.lrOf (st 0).eps epoch) (rows epoch) (fun r => startLoc (initEpoch c r epoch (st r))) r
  have h9 := (eps_foldl c epoch (c.lrOf (st 0).eps epoch) (rows epoch) (fun r => startLoc (initEpoch c r epoch (st r))) r).2
  refine ⟨h7, h8, fun hr => ?_⟩
  have hr' : (r : Nat) ≠ 0 := fun hc => hr (Fin.ext hc)
  simp only [endEpoch, saveModel, hr', false_and, if_false]
  exact h9

theorem trainEpochsV_used (c : Cfg V O E D) (rows : Nat → List (Fin (n + 1) → Batch D)) (m epoch : Nat)
    (st : Fin (n + 1) → St V O E D) (r : Fin (n + 1)) :
    (trainEpochsV c rows m epoch st r).used = (st r).used ++ (List.range' epoch m).flatMap (fun e => (rows e).map (fun row => row r)) ∧
    (trainEpochsV c rows m epoch st r).gstep = (st r).gstep + ((List.range' epoch m).map (fun e => (rows e).length)).sum ∧
    (r ≠ 0 → (trainEpochsV c rows m epoch st r).saved = (st r).saved) := by
  induction m generalizing epoch st with
  | zero => simp [trainEpochsV]
  | succ m ih =>
    obtain ⟨h1, h2, h3⟩ := trainEpochV_used c rows epoch st r
    obtain ⟨h4, h5, h6⟩ := ih (epoch + 1) (trainEpochV c rows epoch st)
    refine ⟨?_, ?_, fun hr => ?_⟩
    · simp only [trainEpochsV, List.range'_succ, List.flatMap_cons]
      rw [h4, h1, List.append_assoc]
    · simp only [trainEpochsV, List.range'_succ, List.map_cons, List.sum_cons]
      rw [h5, h2]
      omega
    · simp only [trainEpochsV]
      rw [h6 hr, h3 hr]

theorem checkMissingV_same (c : Cfg V O E D) (start : Nat) (st : Fin (n + 1) → St V O E D) (r : Fin (n + 1)) :
    (checkMissingV c start st r).used = (st r).used ∧ (checkMissingV c start st r).gstep = (st r).gstep ∧
    (checkMissingV c start st r).saved = (st r).saved := by
  unfold checkMissingV
  split
  · exact ⟨rfl, rfl, rfl⟩
  · split
    · exact ⟨rfl, rfl, rfl⟩
    · obtain ⟨-, h2, -, -, h5, h6⟩ := evalAllV_eps c (start - 1) true (List.range c.numEval) st r
      exact ⟨h6, h2, h5⟩

theorem agree_trainEpochsV {c : Cfg V O E D} (hacc : c.reduceGrad = true → c.noSync = true → FracInd c)
    (rows : Nat → List (Fin (n + 1) → Batch D)) (m epoch : Nat) (st : Fin (n + 1) → St V O E D) (h : Agree st) :
    Agree (trainEpochsV c rows m epoch st) := by
  induction m generalizing epoch st with
  | zero => exact h
  | succ m ih => exact ih _ _ (agree_trainEpochV hacc rows epoch st h)

theorem agree_checkMissingV (c : Cfg V O E D) (start : Nat) (st : Fin (n + 1) → St V O E D) (h : Agree st) :
    Agree (checkMissingV c start st) := by
  unfold checkMissingV
  split
  · exact h
  · split
    · exact h
    · exact agree_evalModelV c _ true st (fun r => ⟨fun i _ => by rw [(h r).1], (h r).2⟩)

/-- **C94.** Distributed training ends on all ranks in every schedule, and nobody waits forever.  In every epoch each rank trains
on its own first batches, as many as the rank with the fewest has, so all do the same number of steps.  At the end the results
of all epochs, and so the learning rates, are the same on all ranks, and only rank 0 wrote models.
Missing for the full claim: with DDP the model must have no buffers if there are eval datasets (`buffers_deadlock`), the number of
accumulated steps must not depend on the part of the epoch if `no_sync` is in effect (`accum_deadlock`), and no eval dataset may
be empty (`empty_eval_deadlock`). -/
theorem training_ends_partial (c : Cfg V O E D) (hacc : c.reduceGrad = true → c.noSync = true → FracInd c)
    (hb : c.numEval = 0 ∨ c.reduceGrad = false ∨ c.buffers = false) (hne : ∀ epoch, ∀ d < c.numEval, c.evalData epoch d ≠ [])
    (hind : ∀ d d' acc e, d' ≠ d → c.evaluated (c.evalErr d acc e) d' = c.evaluated e d')
    (rows : Nat → List (Fin (n + 1) → Batch D)) (hrows : ∀ epoch, Rows (fun r : Fin (n + 1) => c.trainData r epoch) (rows epoch))
    (start : Nat) (st : Fin (n + 1) → St V O E D) (heps : ∀ r, (st r).eps = (st 0).eps) (hg : ∀ r, (st r).gstep = (st 0).gstep) :
    ∃ F, Ends (fun r => train c r start (st r)) F ∧ ∀ r,
      (F r).used = (st r).used ++
        (List.range' start (c.finalEpoch + 1 - start)).flatMap (fun e => (rows e).map (fun row => row r)) ∧
      (F r).gstep = (st r).gstep + ((List.range' start (c.finalEpoch + 1 - start)).map (fun e => (rows e).length)).sum ∧
      (F r).eps = (F 0).eps ∧ (r ≠ 0 → (F r).saved = (st r).saved) := by
  have hb' : c.numEval = 0 ∨ (c.reduceGrad && c.buffers) = false := by
    rcases hb with h | h | h
    · exact .inl h
    · exact .inr (by simp [h])
    · exact .inr (by simp [h])
  have hag : Agree st := fun r => ⟨heps r, hg r⟩
  refine ⟨trainV c rows start st, good_ends (good_train hacc hb' hne hind rows hrows start st hag (good_refl rfl)), fun r => ?_⟩
  obtain ⟨h1, h2, h3⟩ := trainEpochsV_used c rows (c.finalEpoch + 1 - start) start (checkMissingV c start st) r
  obtain ⟨h4, h5, h6⟩ := checkMissingV_same c start st r
  refine ⟨?_, ?_, ?_, fun hr => ?_⟩
  · rw [← h4]; exact h1
  · rw [← h5]; exact h2
  · exact (agree_trainEpochsV hacc rows _ _ _ (agree_checkMissingV c start st hag) r).1
  · rw [← h6]; exact h3 hr

/-! ### Averaging of gradients -/

theorem avg_add (x y : Fin (n + 1) → V) : avg (fun r => x r + y r) = avg x + avg y := by
  unfold avg
  rw [Finset.sum_add_distrib, smul_add]

theorem avg_const (v : V) : avg (fun _ : Fin (n + 1) => v) = v := by
  unfold avg
  rw [Finset.sum_const, Finset.card_univ, Fintype.card_fin, ← Nat.cast_smul_eq_nsmul ℚ, smul_smul]
  have : ((n : ℚ) + 1)⁻¹ * ((n + 1 : ℕ) : ℚ) = 1 := by
    rw [Nat.cast_add, Nat.cast_one]
    exact inv_mul_cancel₀ (Nat.cast_add_one_ne_zero n)
  rw [this, one_smul]

/-- The ranks and the training in one process. -/
structure Rel (ls : Fin (n + 1) → Loc V O E D) (l : Loc V O E D) : Prop where
  params : ∀ r, (ls r).st.params = l.st.params
  opt : ∀ r, (ls r).st.opt = l.st.opt
  gstep : ∀ r, (ls r).st.gstep = l.st.gstep
  zero : ∀ r, (ls r).zeroNext = l.zeroNext
  count : ∀ r, (ls r).count = l.count
  grad : avg (fun r => (ls r).st.grad) = l.st.grad
  losses : (ls 0).losses = l.losses
  eps : (ls 0).st.eps = l.st.eps
  saved : (ls 0).st.saved = l.st.saved
  used : (ls 0).st.used = l.st.used

theorem rel_step {c : Cfg V O E D} (hr : c.reduceGrad = true) (hf : FracInd c) (epoch : Nat) (lr : ℚ)
    (row : Fin (n + 1) → Batch D) {ls : Fin (n + 1) → Loc V O E D} {l : Loc V O E D} (h : Rel ls l) :
    Rel (stepV c epoch lr row ls) (refStep c epoch lr row l) := by
  have hcnt : ∀ r, count1 (ls r) = (if l.zeroNext then 0 else l.count) + 1 := by
    intro r; unfold count1; rw [h.zero r, h.count r]
  have hperf : ∀ r, perform c epoch (row r) (ls r) = decide (c.accum epoch (row 0).frac l.st.gstep ≤ (if l.zeroNext then 0 else l.count) + 1) := by
    intro r
    unfold perform
    rw [hcnt r, h.gstep r, hf epoch (row r).frac (row 0).frac]
  have hg0 : avg (fun r => grad0 (ls r)) = (if l.zeroNext then 0 else l.st.grad) := by
    unfold grad0
    simp only [h.zero]
    cases l.zeroNext with
    | true => simpa using avg_const (n := n) (0 : V)
    | false => simpa using h.grad
  have hsum : avg (fun r : Fin (n + 1) => grad0 (ls r) + c.gradOf r (ls r).st.gstep (ls r).st.params (row r)) =
      (if l.zeroNext then 0 else l.st.grad) + avg (fun r : Fin (n + 1) => c.gradOf r l.st.gstep l.st.params (row r)) := by
    rw [avg_add, hg0]
    simp only [h.gstep, h.params]
  have hgrad : (∀ r, gradV c epoch row ls r = (refStep c epoch lr row l).st.grad) ∨
      ((∀ r, perform c epoch (row r) (ls r) = false) ∧ avg (gradV c epoch row ls) = (refStep c epoch lr row l).st.grad) := by
    by_cases hc : (perform c epoch (row 0) (ls 0) || !c.noSync) = true
    · left
      intro r
      have : (perform c epoch (row r) (ls r) || !c.noSync) = true := by rw [hperf r, ← hperf 0]; exact hc
      simp only [gradV, hr, this, Bool.and_self, if_true]
      exact hsum
    · right
      have hp0 : perform c epoch (row 0) (ls 0) = false := by
        cases hp : perform c epoch (row 0) (ls 0) with
        | false => rfl
        | true => rw [hp] at hc; simp at hc
      have hp : ∀ r, perform c epoch (row r) (ls r) = false := fun r => by rw [hperf r, ← hperf 0]; exact hp0
      refine ⟨hp, ?_⟩
      have hn : (false || !c.noSync) = false := by rw [hp0] at hc; simpa using hc
      rw [show (refStep c epoch lr row l).st.grad = _ from hsum.symm]
      congr 1
      funext r
      simp only [gradV, hp r, hn, Bool.and_false, Bool.false_eq_true, if_false]
  have hupd : ∀ r, updV c epoch lr row ls r = ((refStep c epoch lr row l).st.params, (refStep c epoch lr row l).st.opt) := by
    intro r
    unfold updV update
    rcases hgrad with hg | ⟨hp, -⟩
    · rw [hg r, hperf r, h.gstep r, h.params r, h.opt r]
      rfl
    · have hp' := (hperf r).symm.trans (hp r)
      rw [hp r]
      simp only [Bool.false_eq_true, if_false, refStep, hp', h.params r, h.opt r]
  have hpar : ∀ r, parV c epoch lr row ls r = (refStep c epoch lr row l).st.params := by
    intro r
    simp only [parV, hr, Bool.not_true, Bool.false_and, Bool.false_eq_true, if_false]
    rw [hupd r]
  refine ⟨hpar, fun r => ?_, fun r => ?_, fun r => hperf r, fun r => hcnt r, ?_, ?_, h.eps, h.saved, ?_⟩
  · simp only [stepV, after]; rw [hupd r]
  · simp only [stepV, after, refStep]; rw [h.gstep r]
  · show avg (gradV c epoch row ls) = _
    rcases hgrad with hg | ⟨-, hg⟩
    · rw [show gradV c epoch row ls = fun _ => (refStep c epoch lr row l).st.grad from funext hg]
      exact avg_const _
    · exact hg
  · simp only [stepV, after, refStep]; rw [h.losses, h.gstep 0, h.params 0]; rfl
  · simp only [stepV, after, refStep]; rw [h.used]

theorem rel_foldl {c : Cfg V O E D} (hr : c.reduceGrad = true) (hf : FracInd c) (epoch : Nat) (lr : ℚ)
    (rows : List (Fin (n + 1) → Batch D)) {ls : Fin (n + 1) → Loc V O E D} {l : Loc V O E D} (h : Rel ls l) :
    Rel (rows.foldl (fun ls row => stepV c epoch lr row ls) ls) (rows.foldl (fun l row => refStep c epoch lr row l) l) := by
  induction rows generalizing ls l with
  | nil => exact h
  | cons row rows ih => exact ih (rel_step hr hf epoch lr row h)

theorem setEp_eq (eps : Nat → Option E) (epoch : Nat) (e : Option E) : setEp eps epoch e = putEp eps epoch e := rfl

theorem evalAllV_zero (c : Cfg V O E D) (epoch : Nat) (skip : Bool) (ds : List Nat) (st : Fin (n + 1) → St V O E D) :
    (evalAllV c epoch skip ds st 0).eps epoch = refEval c epoch skip ds (st 0).params ((st 0).eps epoch) := by
  induction ds generalizing st with
  | nil => rfl
  | cons d ds ih =>
    unfold evalAllV refEval
    simp only [List.foldl_cons]
    by_cases hc : (skip && isEvaluated c epoch d (st 0)) = true
    · have hc' : (skip && ((st 0).eps epoch).any (fun e => c.evaluated e d)) = true := hc
      simp only [hc, hc', if_true]
      exact ih st
    · have hc' : ¬ (skip && ((st 0).eps epoch).any (fun e => c.evaluated e d)) = true := hc
      simp only [hc, hc', if_false, Bool.false_eq_true]
      rw [ih]
      simp [evalV, setEp, refEval]

/-- What the ranks and the training in one process share between epochs. -/
structure RelSt (st : Fin (n + 1) → St V O E D) (s : St V O E D) : Prop where
  params : ∀ r, (st r).params = s.params
  opt : ∀ r, (st r).opt = s.opt
  gstep : ∀ r, (st r).gstep = s.gstep
  eps : ∀ r, (st r).eps = s.eps
  saved : (st 0).saved = s.saved
  used : (st 0).used = s.used

/-- Everything but the gradients. -/
def dropGrad (l : Loc V O E D) : Loc V O E D := { l with st := { l.st with grad := 0 } }

theorem relSt_epoch {c : Cfg V O E D} (hr : c.reduceGrad = true) (hf : FracInd c) (rows : Nat → List (Fin (n + 1) → Batch D))
    (epoch : Nat) {st : Fin (n + 1) → St V O E D} {s : St V O E D} (h : RelSt st s) :
    RelSt (trainEpochV c rows epoch st) (refEpoch c rows epoch s) := by
  have hlr : c.lrOf (st 0).eps epoch = c.lrOf s.eps epoch := by rw [h.eps 0]
  -- the gradients left from the last epoch are not used
  have hrel : ∃ ls l, Rel ls l ∧
      (rows epoch).foldl (fun ls row => stepV c epoch (c.lrOf (st 0).eps epoch) row ls) (fun r => startLoc (initEpoch c r epoch (st r))) = ls ∧
      l.st.params = ((rows epoch).foldl (fun l row => refStep c epoch (c.lrOf s.eps epoch) row l)
        ⟨{ s with eps := putEp s.eps epoch (some (c.newData 0 (c.lrOf s.eps epoch) (s.eps epoch))) }, 0, true, 0, []⟩).st.params ∧
      dropGrad l = dropGrad ((rows epoch).foldl (fun l row => refStep c epoch (c.lrOf s.eps epoch) row l)
        ⟨{ s with eps := putEp s.eps epoch (some (c.newData 0 (c.lrOf s.eps epoch) (s.eps epoch))) }, 0, true, 0, []⟩) := by
    have hbase : Rel (fun r : Fin (n + 1) => startLoc (initEpoch c r epoch (st r)))
        ⟨{ s with eps := putEp s.eps epoch (some (c.newData 0 (c.lrOf s.eps epoch) (s.eps epoch))), grad := avg (fun r => (st r).grad) }, 0, true, 0, []⟩ := by
      refine ⟨h.params, h.opt, h.gstep, fun _ => rfl, fun _ => rfl, rfl, rfl, ?_, h.saved, h.used⟩
      simp only [startLoc, initEpoch, h.eps 0]
      rfl
    rw [hlr]
    refine ⟨_, _, rel_foldl hr hf epoch _ (rows epoch) hbase, rfl, ?_⟩
    cases hrw : rows epoch with
    | nil => exact ⟨rfl, rfl⟩
    | cons row rest => exact ⟨rfl, rfl⟩
  obtain ⟨ls, l, hR, hls, hp, hl⟩ := hrel
  generalize hl' : ((rows epoch).foldl (fun l row => refStep c epoch (c.lrOf s.eps epoch) row l)
        ⟨{ s with eps := putEp s.eps epoch (some (c.newData 0 (c.lrOf s.eps epoch) (s.eps epoch))) }, 0, true, 0, []⟩) = l' at hp hl
  have e1 : l.st.opt = l'.st.opt := (show (dropGrad l).st.opt = (dropGrad l').st.opt by rw [hl])
  have e2 : l.st.gstep = l'.st.gstep := (show (dropGrad l).st.gstep = (dropGrad l').st.gstep by rw [hl])
  have e3 : l.st.eps = l'.st.eps := (show (dropGrad l).st.eps = (dropGrad l').st.eps by rw [hl])
  have e4 : l.st.saved = l'.st.saved := (show (dropGrad l).st.saved = (dropGrad l').st.saved by rw [hl])
  have e5 : l.st.used = l'.st.used := (show (dropGrad l).st.used = (dropGrad l').st.used by rw [hl])
  have e6 : l.losses = l'.losses := (show (dropGrad l).losses = (dropGrad l').losses by rw [hl])
  have hz := evalAllV_zero c epoch false (List.range c.numEval) (fun r : Fin (n + 1) => endEpoch c r epoch (ls r))
  have hepsl : ∀ r, ∀ i, i ≠ epoch → (ls r).st.eps i = l'.st.eps i := by
    intro r i hi
    rw [← e3, ← hR.eps, ← hls]
    rw [(eps_foldl c epoch _ (rows epoch) _ r).1, (eps_foldl c epoch _ (rows epoch) _ 0).1]
    simp only [startLoc, initEpoch, setEp, hi, if_false]
    rw [h.eps r, h.eps 0]
  unfold trainEpochV refEpoch
  dsimp only
  rw [hls, hl']
  refine ⟨fun r => ?_, fun r => ?_, fun r => ?_, fun r => ?_, ?_, ?_⟩
  all_goals simp only [evalModelV]
  · rw [(evalAllV_eps c epoch false _ _ r).2.2.1]
    simp only [endEpoch]; rw [hR.params r, hp]
  · rw [(evalAllV_eps c epoch false _ _ r).2.2.2.1]
    simp only [endEpoch]; rw [hR.opt r, e1]
  · rw [(evalAllV_eps c epoch false _ _ r).2.1]
    simp only [endEpoch]; rw [hR.gstep r, e2]
  · funext i
    simp only [setEp, putEp]
    by_cases hi : i = epoch
    · simp only [hi, if_true]
      rw [hz]
      simp only [endEpoch, setEp, if_true]
      rw [hR.params 0, hp, hR.losses, hR.eps, e6, e3]
    · simp only [hi, if_false]
      rw [(evalAllV_eps c epoch false _ _ r).1 i hi]
      simp only [endEpoch, setEp, hi, if_false]
      exact hepsl r i hi
  · rw [(evalAllV_eps c epoch false _ _ 0).2.2.2.2.1]
    simp only [endEpoch, saveModel, Fin.val_zero, true_and]
    rw [hR.params 0, hp, hR.saved, e4]
  · rw [(evalAllV_eps c epoch false _ _ 0).2.2.2.2.2]
    simp only [endEpoch]; rw [hR.used, e5]

theorem relSt_epochs {c : Cfg V O E D} (hr : c.reduceGrad = true) (hf : FracInd c) (rows : Nat → List (Fin (n + 1) → Batch D))
    (m epoch : Nat) {st : Fin (n + 1) → St V O E D} {s : St V O E D} (h : RelSt st s) :
    RelSt (trainEpochsV c rows m epoch st) (refEpochs c rows m epoch s) := by
  induction m generalizing epoch st s with
  | zero => exact h
  | succ m ih => exact ih (epoch + 1) (relSt_epoch hr hf rows epoch h)

theorem refEval_all (c : Cfg V O E D) (epoch : Nat) (ds : List Nat) (params : V) (e : Option E)
    (h : ∀ d ∈ ds, e.any (fun e => c.evaluated e d) = true) : refEval c epoch true ds params e = e := by
  induction ds with
  | nil => rfl
  | cons d ds ih =>
    unfold refEval
    simp only [List.foldl_cons, h d (by simp), Bool.and_self, if_true]
    exact ih (fun d hd => h d (by simp [hd]))

theorem putEp_self (eps : Nat → Option E) (epoch : Nat) : putEp eps epoch (eps epoch) = eps := by
  funext i
  unfold putEp
  split
  · rename_i h; rw [h]
  · rfl

theorem missing_eps (c : Cfg V O E D) (start : Nat) (st : Fin (n + 1) → St V O E D) (h : ∀ r, (st r).eps = (st 0).eps)
    (r : Fin (n + 1)) : checkMissingV c start st r = parMissing c start st r := by
  unfold checkMissingV parMissing
  split
  · rfl
  · split
    · rename_i ha
      rw [refEval_all, show (st 0).eps (start - 1) = (st r).eps (start - 1) by rw [h r], putEp_self]
      intro d hd
      have := List.all_eq_true.1 ha d hd
      exact this
    · have hgen : ∀ (ds : List Nat) (st : Fin (n + 1) → St V O E D),
          { evalAllV c (start - 1) true ds st r with eps := (st r).eps } = st r := by
        intro ds
        induction ds with
        | nil => intro st; rfl
        | cons d ds ih =>
          intro st
          unfold evalAllV
          split
          · exact ih st
          · have := ih (evalV c (start - 1) d st)
            by_cases hr : r = 0
            · subst hr
              have e2 : evalV c (start - 1) d st 0 = { st 0 with eps := (evalV c (start - 1) d st 0).eps } := by simp [evalV]
              calc { evalAllV c (start - 1) true ds (evalV c (start - 1) d st) 0 with eps := (st 0).eps }
                  = { ({ evalAllV c (start - 1) true ds (evalV c (start - 1) d st) 0 with
                    eps := (evalV c (start - 1) d st 0).eps } : St V O E D) with eps := (st 0).eps } := rfl
                _ = { evalV c (start - 1) d st 0 with eps := (st 0).eps } := by rw [this]
                _ = { ({ st 0 with eps := (evalV c (start - 1) d st 0).eps } : St V O E D) with eps := (st 0).eps } := by rw [← e2]
                _ = st 0 := rfl
            · have e2 : evalV c (start - 1) d st r = st r := by simp [evalV, hr]
              rw [e2] at this
              exact this
      simp only [evalModelV]
      have e := evalAllV_zero c (start - 1) true (List.range c.numEval) st
      rw [e]
      have e3 : setEp (evalAllV c (start - 1) true (List.range c.numEval) st r).eps (start - 1)
          (refEval c (start - 1) true (List.range c.numEval) (st 0).params ((st 0).eps (start - 1))) =
          putEp (st r).eps (start - 1) (refEval c (start - 1) true (List.range c.numEval) (st 0).params ((st 0).eps (start - 1))) := by
        funext i
        simp only [setEp, putEp]
        split
        · rfl
        · rename_i hi
          exact (evalAllV_eps c (start - 1) true _ st r).1 i hi
      rw [e3]
      conv_rhs => rw [← hgen (List.range c.numEval) st]

theorem relSt_missing {c : Cfg V O E D} (start : Nat) {st : Fin (n + 1) → St V O E D} {s : St V O E D} (h : RelSt st s) :
    RelSt (checkMissingV c start st) (refMissing c start s) := by
  have e : checkMissingV c start st = parMissing c start st := funext (missing_eps c start st (fun r => by rw [h.eps r, h.eps 0]))
  rw [e]
  unfold parMissing refMissing
  split
  · exact h
  · refine ⟨h.params, h.opt, h.gstep, fun r => ?_, h.saved, h.used⟩
    simp only [h.eps, h.params]

/-- **C95.** With `reduce_type="grad"` all ranks have the same parameters and optimizer states, and they are those of a training in
one process in which the gradient of a step is the mean of the gradients of the ranks; rank 0 saved the models of this training.
This holds whether or not `no_sync` keeps DDP from averaging in the steps between.
Missing for the full claim: see `training_ends_partial`; and `accum_grad_multiple_step` must not depend on the part of the epoch
which is done (`accum_diverges`). -/
theorem ddp_is_one_process_partial (c : Cfg V O E D) (hr : c.reduceGrad = true) (hacc : FracInd c)
    (hb : c.numEval = 0 ∨ c.buffers = false) (hne : ∀ epoch, ∀ d < c.numEval, c.evalData epoch d ≠ [])
    (hind : ∀ d d' acc e, d' ≠ d → c.evaluated (c.evalErr d acc e) d' = c.evaluated e d')
    (rows : Nat → List (Fin (n + 1) → Batch D)) (hrows : ∀ epoch, Rows (fun r : Fin (n + 1) => c.trainData r epoch) (rows epoch))
    (start : Nat) (s : St V O E D) :
    ∃ F, Ends (fun r : Fin (n + 1) => train c r start s) F ∧ ∀ r,
      (F r).params = (refTrain c rows start s).params ∧ (F r).opt = (refTrain c rows start s).opt ∧
      (F r).eps = (refTrain c rows start s).eps ∧ (F r).gstep = (refTrain c rows start s).gstep ∧
      (F 0).saved = (refTrain c rows start s).saved := by
  have hb' : c.numEval = 0 ∨ (c.reduceGrad && c.buffers) = false := by
    rcases hb with h | h
    · exact .inl h
    · exact .inr (by simp [h])
  refine ⟨trainV c rows start (fun _ => s), good_ends (good_train (fun _ _ => hacc) hb' hne hind rows hrows start (fun _ => s)
    (fun r => ⟨rfl, rfl⟩) (good_refl rfl)), fun r => ?_⟩
  have h0 : RelSt (fun _ : Fin (n + 1) => s) s := ⟨fun _ => rfl, fun _ => rfl, fun _ => rfl, fun _ => rfl, rfl, rfl⟩
  have h := relSt_epochs hr hacc rows (c.finalEpoch + 1 - start) start (relSt_missing (c := c) start h0)
  exact ⟨h.params r, h.opt r, h.eps r, h.gstep r, h.saved⟩

/-! ### Averaging of parameters -/

theorem sync_cond (i k : Nat) (hk : 0 < k) : i % k = k - 1 ↔ (i + 1) % k = 0 := by
  constructor
  · intro h
    rw [Nat.add_mod, h]
    by_cases h1 : k = 1
    · subst h1; rfl
    · rw [Nat.mod_eq_of_lt (show 1 < k by omega), show k - 1 + 1 = k by omega, Nat.mod_self]
  · intro h
    have h1 := Nat.div_add_mod i k
    have h2 := Nat.mod_lt i hk
    obtain ⟨q, hq⟩ := Nat.dvd_of_mod_eq_zero h
    by_contra hc
    have h3 : i % k + 1 < k := by omega
    have h4 : (k * (i / k) + (i % k + 1)) % k = i % k + 1 := by
      rw [Nat.mul_add_mod, Nat.mod_eq_of_lt h3]
    rw [show k * (i / k) + (i % k + 1) = i + 1 by omega, h] at h4
    omega

theorem stepV_par {c : Cfg V O E D} (hr : c.reduceGrad = false) (hk : 0 < c.syncStep) (epoch : Nat) (lr : ℚ)
    (row : Fin (n + 1) → Batch D) (ls : Fin (n + 1) → Loc V O E D) : stepV c epoch lr row ls = parStep c epoch lr row ls := by
  have hg : ∀ r, gradV c epoch row ls r = (ownStep c r epoch lr (row r) (ls r)).st.grad := by
    intro r
    simp only [gradV, hr, Bool.false_and, Bool.false_eq_true, if_false]
    rfl
  have hu : ∀ r, updV c epoch lr row ls r =
      ((ownStep c r epoch lr (row r) (ls r)).st.params, (ownStep c r epoch lr (row r) (ls r)).st.opt) := by
    intro r
    unfold updV
    rw [hg r]
    rfl
  funext r
  unfold parStep stepV parV
  dsimp only
  have hc : (!c.reduceGrad && decide ((ls r).stepIdx % c.syncStep = c.syncStep - 1)) =
      decide ((ownStep c r epoch lr (row r) (ls r)).stepIdx % c.syncStep = 0) := by
    rw [hr]
    simp only [Bool.not_false, Bool.true_and]
    rw [decide_eq_decide]
    exact sync_cond _ _ hk
  rw [hc, hg r]
  simp only [hu]
  by_cases h : (ownStep c r epoch lr (row r) (ls r)).stepIdx % c.syncStep = 0
  · simp only [h, decide_true, if_true]
    rfl
  · simp only [h, decide_false, Bool.false_eq_true, if_false]
    rfl

theorem epochV_par {c : Cfg V O E D} (hr : c.reduceGrad = false) (hk : 0 < c.syncStep) (rows : Nat → List (Fin (n + 1) → Batch D))
    (epoch : Nat) (st : Fin (n + 1) → St V O E D) (hag : ∀ r, (st r).eps = (st 0).eps) :
    trainEpochV c rows epoch st = parEpoch c rows epoch st := by
  have e1 : (fun r : Fin (n + 1) => startLoc (initEpoch c r epoch (st r))) = (fun r : Fin (n + 1) =>
      (⟨{ st r with eps := putEp (st r).eps epoch (some (c.newData r (c.lrOf (st 0).eps epoch) ((st r).eps epoch))) }, 0, true, 0, []⟩ : Loc V O E D)) := by
    funext r
    simp only [startLoc, initEpoch, hag r]
    rfl
  have e2 : (fun (ls : Fin (n + 1) → Loc V O E D) row => stepV c epoch (c.lrOf (st 0).eps epoch) row ls) =
      (fun ls row => parStep c epoch (c.lrOf (st 0).eps epoch) row ls) := by
    funext ls row
    exact stepV_par hr hk epoch _ row ls
  have hsaved : ∀ r, ((rows epoch).foldl (fun ls row => stepV c epoch (c.lrOf (st 0).eps epoch) row ls)
      (fun r => startLoc (initEpoch c r epoch (st r))) r).st.saved = (st r).saved := by
    intro r
    rw [(eps_foldl c epoch _ (rows epoch) _ r).2]
    rfl
  have heps : ∀ r i, i ≠ epoch → ((rows epoch).foldl (fun ls row => stepV c epoch (c.lrOf (st 0).eps epoch) row ls)
      (fun r => startLoc (initEpoch c r epoch (st r))) r).st.eps i = (st r).eps i := by
    intro r i hi
    rw [(eps_foldl c epoch _ (rows epoch) _ r).1]
    simp [startLoc, initEpoch, setEp, hi]
  unfold trainEpochV parEpoch
  dsimp only
  rw [← e1, ← e2]
  generalize ((rows epoch).foldl (fun ls row => stepV c epoch (c.lrOf (st 0).eps epoch) row ls)
      (fun r => startLoc (initEpoch c r epoch (st r)))) = ls at hsaved heps
  funext r
  have hz := evalAllV_zero c epoch false (List.range c.numEval) (fun r : Fin (n + 1) => endEpoch c r epoch (ls r))
  obtain ⟨h1, h2, h3, h4, h5, h6⟩ := evalAllV_eps c epoch false (List.range c.numEval) (fun r : Fin (n + 1) => endEpoch c r epoch (ls r)) r
  have hgr : ∀ (ds : List Nat) (st : Fin (n + 1) → St V O E D) (r : Fin (n + 1)), (evalAllV c epoch false ds st r).grad = (st r).grad := by
    intro ds
    induction ds with
    | nil => intro st r; rfl
    | cons d ds ih =>
      intro st r
      unfold evalAllV
      simp only [Bool.false_and, Bool.false_eq_true, if_false]
      rw [ih]
      by_cases hr : r = 0
      · subst hr; simp [evalV]
      · simp [evalV, hr]
  have key : ∀ a b : St V O E D, a.params = b.params → a.opt = b.opt → a.grad = b.grad → a.gstep = b.gstep → a.eps = b.eps →
      a.saved = b.saved → a.used = b.used → a = b := by
    rintro ⟨⟩ ⟨⟩ h1 h2 h3 h4 h5 h6 h7
    simp_all
  apply key
  · exact h3
  · exact h4
  · exact hgr _ _ r
  · exact h2
  · funext i
    simp only [evalModelV, setEp, putEp]
    by_cases hi : i = epoch
    · simp only [hi, if_true]
      rw [hz]
      simp [endEpoch, setEp]
    · simp only [hi, if_false]
      rw [h1 i hi]
      simp only [endEpoch, setEp, hi, if_false]
      exact heps r i hi
  · simp only [evalModelV]
    rw [h5]
    simp only [endEpoch, saveModel, hsaved r]
    have : ((r : Nat) = 0) = (r = 0) := propext ⟨fun h => Fin.ext h, fun h => by rw [h]; rfl⟩
    simp only [this]
  · exact h6

theorem epochsV_par {c : Cfg V O E D} (hr : c.reduceGrad = false) (hk : 0 < c.syncStep) (rows : Nat → List (Fin (n + 1) → Batch D))
    (m epoch : Nat) (st : Fin (n + 1) → St V O E D) (hag : Agree st) :
    trainEpochsV c rows m epoch st = parEpochs c rows m epoch st := by
  induction m generalizing epoch st with
  | zero => rfl
  | succ m ih =>
    unfold trainEpochsV parEpochs
    rw [ih _ _ (agree_trainEpochV (fun h => by rw [hr] at h; simp at h) rows epoch st hag),
      epochV_par hr hk rows epoch st (fun r => (hag r).1)]

/-- **C95.** With `reduce_type="param"` every rank trains on its own, and after every `param_sync_step` steps of an epoch all take the
mean of the parameters. -/
theorem param_right_partial (c : Cfg V O E D) (hr : c.reduceGrad = false) (hk : 0 < c.syncStep)
    (hne : ∀ epoch, ∀ d < c.numEval, c.evalData epoch d ≠ [])
    (hind : ∀ d d' acc e, d' ≠ d → c.evaluated (c.evalErr d acc e) d' = c.evaluated e d')
    (rows : Nat → List (Fin (n + 1) → Batch D)) (hrows : ∀ epoch, Rows (fun r : Fin (n + 1) => c.trainData r epoch) (rows epoch))
    (start : Nat) (st : Fin (n + 1) → St V O E D) (heps : ∀ r, (st r).eps = (st 0).eps) (hg : ∀ r, (st r).gstep = (st 0).gstep) :
    Ends (fun r => train c r start (st r)) (parTrain c rows start st) := by
  have hag : Agree st := fun r => ⟨heps r, hg r⟩
  have e : trainV c rows start st = parTrain c rows start st := by
    unfold trainV parTrain
    rw [epochsV_par hr hk rows _ _ _ (agree_checkMissingV c start st hag), funext (missing_eps c start st heps)]
  rw [← e]
  exact good_ends (good_train (fun h => by rw [hr] at h; simp at h) (.inr (by simp [hr])) hne hind rows hrows start st hag (good_refl rfl))

/-- **C95.** After an epoch whose number of steps is a multiple of `param_sync_step` all ranks have the same parameters (else not:
`param_not_synced`). -/
theorem param_equal (c : Cfg V O E D) (rows : Nat → List (Fin (n + 1) → Batch D)) (epoch : Nat) (st : Fin (n + 1) → St V O E D)
    (hpos : (rows epoch) ≠ []) (hdiv : c.syncStep ∣ (rows epoch).length) (r : Fin (n + 1)) :
    (parEpoch c rows epoch st r).params = (parEpoch c rows epoch st 0).params := by
  unfold parEpoch
  dsimp only
  have hidx : ∀ (rows : List (Fin (n + 1) → Batch D)) (lr : ℚ) (ls : Fin (n + 1) → Loc V O E D) (r : Fin (n + 1)),
      (rows.foldl (fun ls row => parStep c epoch lr row ls) ls r).stepIdx = (ls r).stepIdx + rows.length := by
    intro rows lr
    induction rows with
    | nil => intro ls r; rfl
    | cons row rows ih =>
      intro ls r
      simp only [List.foldl_cons, List.length_cons]
      rw [ih]
      have : (parStep c epoch lr row ls r).stepIdx = (ls r).stepIdx + 1 := by
        unfold parStep
        dsimp only
        split <;> rfl
      rw [this]
      omega
  rcases List.eq_nil_or_concat (rows epoch) with h | ⟨init, last, h⟩
  · exact absurd h hpos
  · rw [h] at hdiv ⊢
    simp only [List.concat_eq_append, List.foldl_append, List.foldl_cons, List.foldl_nil]
    have hmod : (init.length + 1) % c.syncStep = 0 := by
      have : (init.concat last).length = init.length + 1 := by simp
      rw [this] at hdiv
      exact Nat.mod_eq_zero_of_dvd hdiv
    generalize hls : init.foldl (fun ls row => parStep c epoch (c.lrOf (st 0).eps epoch) row ls) _ = ls
    have hi : ∀ r, (ls r).stepIdx = init.length := by
      intro r
      rw [← hls, hidx]
      simp
    have hown : ∀ r : Fin (n + 1), (ownStep c r epoch (c.lrOf (st 0).eps epoch) (last r) (ls r)).stepIdx % c.syncStep = 0 := by
      intro r
      have : (ownStep c r epoch (c.lrOf (st 0).eps epoch) (last r) (ls r)).stepIdx = (ls r).stepIdx + 1 := rfl
      rw [this, hi r]
      exact hmod
    unfold parStep
    dsimp only
    rw [if_pos (hown r), if_pos (hown 0)]

end Verif.Distrib
