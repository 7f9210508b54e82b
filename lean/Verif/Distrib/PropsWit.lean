import Verif.Distrib.Props
import Mathlib.Tactic.NormNum
/-
Where distributed training goes wrong, and examples.
-/
namespace Verif.Distrib

open Verif.Py

variable {V O E D S : Type} [AddCommGroup V] [Module ℚ V] {n : Nat}

/-- From the start to the evaluation on the first dataset after the first epoch. -/
theorem good_to_eval {Q} (c : Cfg V O E D) (hacc : c.reduceGrad = true → c.noSync = true → FracInd c) (hev : 0 < c.numEval)
    (hfin : 1 ≤ c.finalEpoch) (st : Fin (n + 1) → St V O E D) (heps : ∀ r, (st r).eps = (st 0).eps)
    (hg : ∀ r, (st r).gstep = (st 0).gstep)
    (h : ∀ (params : V) (st0 : St V O E D) (k0 : St V O E D → Proc V E (St V O E D)) (k : Fin (n + 1) → Proc V E (St V O E D)),
      Good (zeroDoes (evalZero c params (evalEnd c 1 0 st0 k0) (c.evalData 1 0) 0 []) k) Q) :
    Good (fun r => train c r 1 (st r)) Q := by
  obtain ⟨m, hm⟩ : ∃ m, c.numEval = m + 1 := ⟨c.numEval - 1, by omega⟩
  obtain ⟨f, hf⟩ : ∃ f, c.finalEpoch + 1 - 1 = f + 1 := ⟨c.finalEpoch - 1, by omega⟩
  obtain ⟨rows, hrows⟩ := rows_exist (fun r : Fin (n + 1) => c.trainData r 1)
  have hlr : ∀ r, c.lrOf (st r).eps 1 = c.lrOf (st 0).eps 1 := fun r => by rw [heps r]
  unfold train checkMissing
  simp only [Nat.le_refl, if_true, hf]
  unfold trainEpochs trainEpoch
  simp only [hlr]
  refine good_coll _ .seed (fun _ => ()) (fun r _ => trainLoop c r 1 (c.lrOf (st 0).eps 1)
    (fun l => evalModel c r 1 false (trainEpochs c r f (1 + 1)) (endEpoch c r 1 l)) (c.trainData r 1)
    (startLoc (initEpoch c r 1 (st r)))) (fun r => rfl) ?_
  apply good_trainLoop 1 _ _ hacc rows (fun r => c.trainData r 1) (fun r => startLoc (initEpoch c r 1 (st r)))
  · intro r
    exact ⟨rfl, hg r, fun _ _ => ⟨rfl, rfl⟩⟩
  · exact hrows
  · generalize rows.foldl (fun ls row => stepV c 1 (c.lrOf (st 0).eps 1) row ls) (fun r => startLoc (initEpoch c r 1 (st r))) = ls
    unfold evalModel
    rw [hm, List.range_succ_eq_map]
    unfold evalAll
    simp only [Bool.false_and, Bool.false_eq_true, if_false]
    unfold evalDataset
    generalize (List.range m).map Nat.succ = ds
    refine good_coll _ .seed (fun _ => ()) (fun r _ => if (r : Nat) = 0 then
      evalZero c (endEpoch c r 1 (ls r)).params (evalEnd c 1 0 (endEpoch c r 1 (ls r)) (fun st' => evalAll c r 1 false
        (fun st' => .coll .epochData (st'.eps 1) (fun e => trainEpochs c r f (1 + 1) { st' with eps := setEp st'.eps 1 e })) ds st'))
        (c.evalData 1 0) 0 []
      else .wait (evalAll c r 1 false
        (fun st' => .coll .epochData (st'.eps 1) (fun e => trainEpochs c r f (1 + 1) { st' with eps := setEp st'.eps 1 e })) ds
        (endEpoch c r 1 (ls r)))) (fun r => rfl) ?_
    have := h (endEpoch c 0 1 (ls 0)).params (endEpoch c 0 1 (ls 0)) (fun st' => evalAll c 0 1 false
        (fun st' => .coll .epochData (st'.eps 1) (fun e => trainEpochs c 0 f (1 + 1) { st' with eps := setEp st'.eps 1 e })) ds st')
      (fun r => evalAll c r 1 false
        (fun st' => .coll .epochData (st'.eps 1) (fun e => trainEpochs c r f (1 + 1) { st' with eps := setEp st'.eps 1 e })) ds
        (endEpoch c r 1 (ls r)))
    convert this using 2 with r
    by_cases hr : r = 0
    · subst hr; simp [zeroDoes]
    · have hr' : (r : Nat) ≠ 0 := fun hc => hr (Fin.ext hc)
      simp [zeroDoes, hr, hr']

/-- The other ranks wait for rank 0, which is in another collective operation, or failed. -/
theorem zeroDoes_deadlock (p : Proc V E S) (k : Fin (n + 2) → Proc V E S) (h1 : ∀ q, p ≠ .tau q)
    (h2 : ∀ o, offer p = some o → o.kind ≠ .flag) :
    Stuck (zeroDoes p k) ∧ ∃ r, (∀ s, zeroDoes p k r ≠ .done s) ∧ ∀ e, zeroDoes p k r ≠ .fail e := by
  refine ⟨?_, 1, fun s => by simp [zeroDoes], fun e => by simp [zeroDoes]⟩
  rintro ⟨b, hb⟩
  cases hb with
  | tau r q h =>
    by_cases hr : r = 0
    · subst hr
      simp only [zeroDoes, if_true] at h
      exact h1 q h
    · simp [zeroDoes, hr] at h
  | coll kk x next h =>
    have e0 := h 0
    have e1 := h 1
    simp only [zeroDoes, if_true] at e0
    have : (1 : Fin (n + 2)) ≠ 0 := by simp
    simp only [zeroDoes, this, if_false, offer, Option.some.injEq] at e1
    exact h2 _ e0 (congrArg Offer.kind e1).symm

/-- With DDP, a model with buffers and an eval dataset, the training deadlocks: `eval_model` calls the DDP module on rank 0 only,
and DDP broadcasts the buffers at the begin of `forward`, while the other ranks wait for `_has_data`.  So the assumption on the
buffers in `training_ends_partial` is needed. -/
theorem buffers_deadlock (c : Cfg V O E D) (hr : c.reduceGrad = true) (hb : c.buffers = true) (hacc : c.noSync = true → FracInd c)
    (hev : 0 < c.numEval) (hne : c.evalData 1 0 ≠ []) (hfin : 1 ≤ c.finalEpoch) (st : Fin (n + 2) → St V O E D)
    (heps : ∀ r, (st r).eps = (st 0).eps) (hg : ∀ r, (st r).gstep = (st 0).gstep) :
    Deadlocks (fun r => train c r 1 (st r)) := by
  apply good_to_eval c (fun _ => hacc) hev hfin st heps hg
  intro params st0 k0 k
  cases hd : c.evalData 1 0 with
  | nil => exact absurd hd hne
  | cons b bs =>
    unfold evalZero
    simp only [Nat.zero_mod, if_true]
    apply good_zero_true
    apply good_refl
    unfold forward
    simp only [hr, hb, Bool.and_self, if_true]
    apply zeroDoes_deadlock
    · intro q; simp
    · intro o ho
      simp only [offer, Option.some.injEq] at ho
      rw [← ho]
      simp

/-- An eval dataset without data: rank 0 raises, and the other ranks wait forever. -/
theorem empty_eval_deadlock (c : Cfg V O E D) (hacc : c.reduceGrad = true → c.noSync = true → FracInd c) (hev : 0 < c.numEval)
    (hne : c.evalData 1 0 = []) (hfin : 1 ≤ c.finalEpoch) (st : Fin (n + 2) → St V O E D)
    (heps : ∀ r, (st r).eps = (st 0).eps) (hg : ∀ r, (st r).gstep = (st 0).gstep) :
    Deadlocks (fun r => train c r 1 (st r)) := by
  apply good_to_eval c hacc hev hfin st heps hg
  intro params st0 k0 k
  rw [hne]
  unfold evalZero evalEnd
  simp only [List.isEmpty_nil, if_true]
  apply good_refl
  apply zeroDoes_deadlock
  · intro q; simp
  · intro o ho; simp [offer] at ho

/-- Two ranks which differ in whether they update now, as `accum_grad_multiple_step` depends on the part of the epoch which is
done: if `no_sync` keeps DDP from averaging then rank 0 waits in `backward`, and rank 1 in the next `all_reduce(_has_data)`. -/
theorem accum_deadlock (c : Cfg V O E D) (hr : c.reduceGrad = true) (hn : c.noSync = true) (hfin : 1 ≤ c.finalEpoch)
    (b : Fin 2 → Batch D) (bs : Fin 2 → List (Batch D)) (hbs : ∀ r : Fin 2, c.trainData r 1 = b r :: bs r)
    (st : Fin 2 → St V O E D) (hg : ∀ r, (st r).gstep = (st 0).gstep)
    (h0 : c.accum 1 (b 0).frac (st 0).gstep ≤ 1) (h1 : 1 < c.accum 1 (b 1).frac (st 0).gstep) :
    Deadlocks (fun r => train c r 1 (st r)) := by
  obtain ⟨f, hf⟩ : ∃ f, c.finalEpoch + 1 - 1 = f + 1 := ⟨c.finalEpoch - 1, by omega⟩
  unfold train checkMissing
  simp only [Nat.le_refl, if_true, hf]
  unfold trainEpochs trainEpoch
  refine good_coll _ .seed (fun _ => ()) (fun r _ => trainLoop c r 1 (c.lrOf (st r).eps 1)
    (fun l => evalModel c r 1 false (trainEpochs c r f (1 + 1)) (endEpoch c r 1 l)) (c.trainData r 1)
    (startLoc (initEpoch c r 1 (st r)))) (fun r => rfl) ?_
  simp only [hbs]
  refine good_coll _ .hasData (fun r => true) (fun r (ok : Bool) =>
    if ok then trainStep c r 1 (c.lrOf (st r).eps 1) (b r) (startLoc (initEpoch c r 1 (st r))) (fun l' =>
      trainLoop c r 1 (c.lrOf (st r).eps 1)
        (fun l => evalModel c r 1 false (trainEpochs c r f (1 + 1)) (endEpoch c r 1 l)) (bs r) l')
    else evalModel c r 1 false (trainEpochs c r f (1 + 1)) (endEpoch c r 1 (startLoc (initEpoch c r 1 (st r))))) (fun r => rfl) ?_
  have htrue : combine (V := V) (E := E) (n := 1) Kind.hasData (fun _ => true) = (true : Bool) := by
    show decide (∀ r : Fin 2, (true : Bool) = true) = true
    simp
  rw [htrue]
  simp only [if_true]
  unfold trainStep
  apply good_forward
  apply good_tau
  apply good_settle
  apply good_refl
  have p0 : perform c 1 (b 0) (startLoc (initEpoch c (0 : Fin 2) 1 (st 0))) = true := by
    simp only [perform, count1, startLoc, initEpoch, if_true]
    exact decide_eq_true h0
  have p1 : perform c 1 (b 1) (startLoc (initEpoch c (1 : Fin 2) 1 (st 1))) = false := by
    simp only [perform, count1, startLoc, initEpoch, if_true]
    rw [hg 1]
    exact decide_eq_false (by omega)
  generalize hA : (fun r : Fin 2 => settle (V := V) (E := E) (S := St V O E D) _) = A
  have a0 : ∃ x k, A 0 = .coll .grad x k := by
    rw [← hA]
    simp only [syncGrad, p0, hr, Bool.true_or, Bool.and_self, if_true, settle]
    exact ⟨_, _, rfl⟩
  have a1 : ∃ x k, A 1 = .coll .hasData x k := by
    rw [← hA]
    simp only [syncGrad, p1, hr, hn, Bool.not_true, Bool.or_self, Bool.and_false, Bool.false_eq_true, if_false, syncParam,
      Bool.false_and]
    cases bs 1 with
    | nil => simp only [trainLoop, settle]; exact ⟨_, _, rfl⟩
    | cons x xs => simp only [trainLoop, settle]; exact ⟨_, _, rfl⟩
  obtain ⟨x0, k0, a0⟩ := a0
  obtain ⟨x1, k1, a1⟩ := a1
  refine ⟨?_, 0, fun s => by rw [a0]; simp, fun e => by rw [a0]; simp⟩
  rintro ⟨B, hB⟩
  cases hB with
  | tau r q h =>
    match r, h with
    | 0, h => rw [a0] at h; simp at h
    | 1, h => rw [a1] at h; simp at h
  | coll kk x next h =>
    have e0 := h 0
    have e1 := h 1
    rw [a0] at e0
    rw [a1] at e1
    simp only [offer, Option.some.injEq, Offer.mk.injEq] at e0 e1
    have := e0.1.trans e1.1.symm
    simp at this

/-! ### Concrete trainings -/

/-- A training with one parameter; the gradient of a batch is its number. -/
def exCfg (reduceGrad noSync : Bool) (accum : Nat → ℚ → Nat → Nat) (numEval : Nat) (data : Nat → List (Batch ℚ)) :
    Cfg ℚ Unit (List ℚ) ℚ where
  reduceGrad := reduceGrad
  syncStep := 2
  buffers := false
  noSync := noSync
  accum := accum
  gradOf := fun _ _ _ b => b.data
  lossOf := fun _ _ p b => p + b.data
  evalLoss := fun p b => p + b.data
  optStep := fun lr _ p _ g => (p - lr * g, ())
  lrOf := fun eps epoch => if eps (epoch - 1) = none then 1 else 1 / 2
  newData := fun rank lr _ => [(rank : ℚ), lr]
  trainErr := fun ls e => e ++ ls
  evalErr := fun _ ls e => e ++ ls
  evaluated := fun _ _ => false
  numEval := numEval
  trainData := fun rank _ => data rank
  evalData := fun _ _ => [⟨0, 7⟩]
  saveInterval := 1
  finalEpoch := 2

/-- No step done yet. -/
def exSt : St ℚ Unit (List ℚ) ℚ := ⟨0, (), 0, 0, fun _ => none, [], []⟩

/-- Two batches for rank 0 and three for rank 1; the steps of an epoch. -/
def exData (rank : Nat) : List (Batch ℚ) := if rank = 0 then [⟨1 / 2, 1⟩, ⟨1, 2⟩] else [⟨1 / 3, 3⟩, ⟨2 / 3, 5⟩, ⟨1, 8⟩]

def exRows : List (Fin 2 → Batch ℚ) :=
  [fun r => if r = 0 then ⟨1 / 2, 1⟩ else ⟨1 / 3, 3⟩, fun r => if r = 0 then ⟨1, 2⟩ else ⟨2 / 3, 5⟩]

theorem exRows_ok : Rows (fun r : Fin 2 => exData r) exRows := by
  refine ⟨fun r => ?_, 0, rfl⟩
  match r with
  | 0 => exact ⟨[], rfl⟩
  | 1 => exact ⟨[⟨1, 8⟩], rfl⟩

/-- `ddp_is_one_process_partial` applies to a training of two epochs with an evaluation, with gradients accumulated over two
steps; the mean gradient of an epoch is (1 + 3) / 2 + (2 + 5) / 2, the learning rates are 1 and 1 / 2. -/
example (noSync : Bool) : ∃ F, Ends (fun r : Fin 2 => train (exCfg true noSync (fun _ _ _ => 2) 1 exData) r 1 exSt) F ∧ ∀ r,
    (F r).params = -(11 / 2) - 11 / 4 ∧ (F 0).saved = [(1, -(11 / 2)), (2, -(11 / 2) - 11 / 4)] := by
  obtain ⟨F, hF, h⟩ := ddp_is_one_process_partial (exCfg true noSync (fun _ _ _ => 2) 1 exData) rfl (fun _ _ _ _ => rfl)
    (.inr rfl) (fun _ _ _ => by simp [exCfg]) (fun _ _ _ _ _ => rfl) (fun _ => exRows) (fun _ => exRows_ok) 1 exSt
  refine ⟨F, hF, fun r => ?_⟩
  obtain ⟨h1, -, -, -, h5⟩ := h r
  rw [h1, h5]
  cases noSync <;> exact ⟨by decide +kernel, by decide +kernel⟩

/-- `training_ends_partial` applies to it: two steps in each epoch. -/
example (noSync : Bool) : ∃ F, Ends (fun r : Fin 2 => train (exCfg true noSync (fun _ _ _ => 2) 1 exData) r 1 exSt) F ∧
    (F 1).gstep = 4 ∧ (F 1).used.map Batch.data = [3, 5, 3, 5] ∧ (F 1).saved = [] := by
  obtain ⟨F, hF, h⟩ := training_ends_partial (exCfg true noSync (fun _ _ _ => 2) 1 exData) (fun _ _ _ _ _ _ => rfl)
    (.inr (.inr rfl)) (fun _ _ _ => by simp [exCfg]) (fun _ _ _ _ _ => rfl) (fun _ => exRows) (fun _ => exRows_ok) 1
    (fun _ => exSt) (fun _ => rfl) (fun _ => rfl)
  refine ⟨F, hF, ?_⟩
  obtain ⟨h1, h2, -, h4⟩ := h 1
  refine ⟨?_, ?_, h4 (by decide)⟩
  · rw [h2]; cases noSync <;> rfl
  · rw [h1]; cases noSync <;> decide +kernel

/-- The deadlock with buffers occurs in such a training. -/
example : Deadlocks (fun r : Fin 2 => train { exCfg true false (fun _ _ _ => 2) 1 exData with buffers := true } r 1 exSt) :=
  buffers_deadlock _ rfl rfl (fun h => by simp [exCfg] at h) (by decide) (by simp [exCfg]) (by decide) (fun _ => exSt)
    (fun _ => rfl) (fun _ => rfl)

/-- Accumulation over two steps in the first half of an epoch, and none later. -/
def exAccum (_ : Nat) (f : ℚ) (_ : Nat) : Nat := if f < 1 / 2 then 2 else 1

/-- The deadlock with such an accumulation, if `no_sync` is in effect. -/
example : Deadlocks (fun r : Fin 2 => train (exCfg true true exAccum 1 exData) r 1 exSt) :=
  accum_deadlock _ rfl rfl (by decide) (fun r => if r = 0 then ⟨1 / 2, 1⟩ else ⟨1 / 3, 3⟩)
    (fun r => if r = 0 then [⟨1, 2⟩] else [⟨2 / 3, 5⟩, ⟨1, 8⟩]) (fun r => by match r with | 0 => rfl | 1 => rfl) (fun _ => exSt)
    (fun _ => rfl) (by decide +kernel) (by decide +kernel)

/-- If `no_sync` is not in effect (as the documentation says) then the ranks end with different parameters: they update in
different steps.  So the assumption on `accum_grad_multiple_step` in `ddp_is_one_process_partial` is needed. -/
theorem accum_diverges : ∃ F, Ends (fun r : Fin 2 => train (exCfg true false exAccum 0 exData) r 1 exSt) F ∧
    (F 0).params ≠ (F 1).params := by
  refine ⟨_, good_ends (good_train (c := exCfg true false exAccum 0 exData) (fun _ h => by simp [exCfg] at h) (.inl rfl)
    (fun _ _ h => by simp [exCfg] at h) (fun _ _ _ _ _ => rfl) (fun _ => exRows) (fun _ => exRows_ok) 1 (fun _ => exSt)
    (fun _ => ⟨rfl, rfl⟩) (good_refl rfl)), ?_⟩
  decide +kernel

/-- With `reduce_type="param"` and an epoch whose number of steps is no multiple of `param_sync_step` the ranks have different
parameters after it, and rank 0 saves its own, which are not the mean.  (One batch on each rank, `param_sync_step` 2.) -/
theorem param_not_synced : ∃ F, Ends (fun r : Fin 2 => train (exCfg false false (fun _ _ _ => 1) 0
      (fun rank => if rank = 0 then [⟨1, 1⟩] else [⟨1, 3⟩])) r 1 exSt) F ∧
    (F 0).params = -(3 / 2) ∧ (F 1).params = -(9 / 2) ∧ (F 0).saved = [(1, -1), (2, -(3 / 2))] := by
  have h := param_right_partial (exCfg false false (fun _ _ _ => 1) 0 (fun rank => if rank = 0 then [⟨1, 1⟩] else [⟨1, 3⟩])) rfl
    (by decide) (fun _ _ h => by simp [exCfg] at h) (fun _ _ _ _ _ => rfl)
    (fun _ => [fun r : Fin 2 => if r = 0 then ⟨1, 1⟩ else ⟨1, 3⟩])
    (fun _ => ⟨fun r => by match r with | 0 => exact ⟨[], rfl⟩ | 1 => exact ⟨[], rfl⟩, 0, rfl⟩) 1 (fun _ => exSt) (fun _ => rfl)
    (fun _ => rfl)
  refine ⟨_, h, ?_⟩
  decide +kernel

/-- With two steps in each epoch they are equal again (`param_equal`). -/
example : (parEpoch (exCfg false false (fun _ _ _ => 1) 0 exData) (fun _ => exRows) 1 (fun _ => exSt) 1).params = -(11 / 2) ∧
    (parEpoch (exCfg false false (fun _ _ _ => 1) 0 exData) (fun _ => exRows) 1 (fun _ => exSt) 0).params = -(11 / 2) := by
  have h := param_equal (exCfg false false (fun _ _ _ => 1) 0 exData) (fun _ => exRows) 1 (fun _ => exSt) (by simp [exRows])
    (by exact ⟨1, rfl⟩) 1
  rw [h, and_self]
  decide +kernel

end Verif.Distrib
