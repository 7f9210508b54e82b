import Verif.Distrib.Sched
import Mathlib.Tactic.Common
/-
The ranks step by step: what all of them together do between two collective operations.
-/
namespace Verif.Distrib

open Verif.Py

variable {V O E D S : Type} [AddCommGroup V] [Module ℚ V] {n : Nat}

/-- One training step of all ranks. -/
def gradV (c : Cfg V O E D) (epoch : Nat) (row : Fin (n + 1) → Batch D) (ls : Fin (n + 1) → Loc V O E D) (r : Fin (n + 1)) : V :=
  let g0 := fun r : Fin (n + 1) => grad0 (ls r) + c.gradOf r (ls r).st.gstep (ls r).st.params (row r)
  if c.reduceGrad && (perform c epoch (row r) (ls r) || !c.noSync) then avg g0 else g0 r

def updV (c : Cfg V O E D) (epoch : Nat) (lr : ℚ) (row : Fin (n + 1) → Batch D) (ls : Fin (n + 1) → Loc V O E D)
    (r : Fin (n + 1)) : V × O :=
  update c lr (perform c epoch (row r) (ls r)) (ls r).st (gradV c epoch row ls r)

def parV (c : Cfg V O E D) (epoch : Nat) (lr : ℚ) (row : Fin (n + 1) → Batch D) (ls : Fin (n + 1) → Loc V O E D)
    (r : Fin (n + 1)) : V :=
  if !c.reduceGrad && decide ((ls r).stepIdx % c.syncStep = c.syncStep - 1) then avg (fun r => (updV c epoch lr row ls r).1)
  else (updV c epoch lr row ls r).1

def stepV (c : Cfg V O E D) (epoch : Nat) (lr : ℚ) (row : Fin (n + 1) → Batch D) (ls : Fin (n + 1) → Loc V O E D)
    (r : Fin (n + 1)) : Loc V O E D :=
  after c r (perform c epoch (row r) (ls r)) (row r) (ls r) (gradV c epoch row ls r) (updV c epoch lr row ls r).2
    (parV c epoch lr row ls r)

theorem good_forward {Q} (c : Cfg V O E D) (p : Fin (n + 1) → Proc V E S) (h : Good p Q) :
    Good (fun r => forward c (p r)) Q := by
  unfold forward
  split
  · exact good_coll _ .buffers (fun _ => ()) (fun r _ => p r) (fun r => rfl) h
  · exact h

/-- Everything on which the collective operations of a step depend is the same on all ranks. -/
def Same (c : Cfg V O E D) (ls : Fin (n + 1) → Loc V O E D) : Prop :=
  ∀ r, (ls r).stepIdx = (ls 0).stepIdx ∧ (ls r).st.gstep = (ls 0).st.gstep ∧
    (c.reduceGrad = true → c.noSync = true → (ls r).zeroNext = (ls 0).zeroNext ∧ (ls r).count = (ls 0).count)

/-- `accum_grad_multiple_step` does not depend on the part of the epoch which is done. -/
def FracInd (c : Cfg V O E D) : Prop := ∀ epoch f f' g, c.accum epoch f g = c.accum epoch f' g

theorem perform_same {c : Cfg V O E D} {ls : Fin (n + 1) → Loc V O E D} (hs : Same c ls) (hr : c.reduceGrad = true)
    (hn : c.noSync = true) (hf : FracInd c) (epoch : Nat) (row : Fin (n + 1) → Batch D) (r : Fin (n + 1)) :
    perform c epoch (row r) (ls r) = perform c epoch (row 0) (ls 0) := by
  obtain ⟨-, h2, h3⟩ := hs r
  obtain ⟨h3, h4⟩ := h3 hr hn
  unfold perform count1
  rw [h2, h3, h4, hf epoch (row r).frac (row 0).frac]

theorem good_syncGrad {Q} (c : Cfg V O E D) (perf : Fin (n + 1) → Bool) (g : Fin (n + 1) → V)
    (k : Fin (n + 1) → V → Proc V E S) (hp : c.reduceGrad = true → c.noSync = true → ∀ r, perf r = perf 0)
    (h : Good (fun r => k r (if c.reduceGrad && (perf r || !c.noSync) then avg g else g r)) Q) :
    Good (fun r => syncGrad c (perf r) (g r) (k r)) Q := by
  unfold syncGrad
  have hcond : ∀ r, (c.reduceGrad && (perf r || !c.noSync)) = (c.reduceGrad && (perf 0 || !c.noSync)) := by
    intro r
    cases h1 : c.reduceGrad with
    | false => rfl
    | true =>
      cases h2 : c.noSync with
      | false => simp
      | true => rw [hp h1 h2 r]
  simp only [hcond] at h ⊢
  by_cases hc : (c.reduceGrad && (perf 0 || !c.noSync)) = true
  · simp only [hc, if_true] at h ⊢
    exact good_coll _ .grad g k (fun r => rfl) h
  · simp only [hc, if_false, Bool.false_eq_true] at h ⊢
    exact h

theorem good_syncParam {Q} (c : Cfg V O E D) (idx : Fin (n + 1) → Nat) (p : Fin (n + 1) → V)
    (k : Fin (n + 1) → V → Proc V E S) (hi : ∀ r, idx r = idx 0)
    (h : Good (fun r => k r (if !c.reduceGrad && decide (idx r % c.syncStep = c.syncStep - 1) then avg p else p r)) Q) :
    Good (fun r => syncParam c (idx r) (p r) (k r)) Q := by
  unfold syncParam
  simp only [hi] at h ⊢
  by_cases hc : (!c.reduceGrad && decide (idx 0 % c.syncStep = c.syncStep - 1)) = true
  · simp only [hc, if_true] at h ⊢
    exact good_coll _ .param p k (fun r => rfl) h
  · simp only [hc, if_false, Bool.false_eq_true] at h ⊢
    exact h

theorem good_tau {Q} (p : Fin (n + 1) → Proc V E S) (h : Good p Q) : Good (fun r => .tau (p r)) Q := by
  have key : ∀ l : List (Fin (n + 1)), Good (fun r => if r ∈ l then p r else .tau (p r)) Q → Good (fun r => .tau (p r)) Q := by
    intro l
    induction l with
    | nil => intro h; simpa using h
    | cons r l ih =>
      intro h
      apply ih
      by_cases hr : r ∈ l
      · convert h using 2 with r'
        by_cases hr' : r' = r
        · subst hr'; simp [hr]
        · simp [hr']
      · have e1 : (fun r' => if r' ∈ r :: l then p r' else .tau (p r')) =
            Function.update (fun r' => if r' ∈ l then p r' else .tau (p r')) r (p r) := by
          funext r'
          by_cases hr' : r' = r
          · subst hr'; simp
          · simp [hr']
        rw [e1] at h
        exact good_step (.tau r (p r) (by simp [hr])) h
  apply key (List.finRange (n + 1))
  simpa using h

theorem good_trainStep {Q} {c : Cfg V O E D} (epoch : Nat) (lr : ℚ) (row : Fin (n + 1) → Batch D)
    (ls : Fin (n + 1) → Loc V O E D) (k : Fin (n + 1) → Loc V O E D → Proc V E S) (hs : Same c ls)
    (hacc : c.reduceGrad = true → c.noSync = true → FracInd c) (h : Good (fun r => k r (stepV c epoch lr row ls r)) Q) :
    Good (fun r => trainStep c r epoch lr (row r) (ls r) (k r)) Q := by
  unfold trainStep
  apply good_forward
  apply good_tau
  apply good_syncGrad c (fun r => perform c epoch (row r) (ls r))
  · intro h1 h2 r
    exact perform_same hs h1 h2 (hacc h1 h2) epoch row r
  · apply good_syncParam c (fun r => (ls r).stepIdx)
    · exact fun r => (hs r).1
    · exact h

theorem same_stepV {c : Cfg V O E D} {ls : Fin (n + 1) → Loc V O E D} (hs : Same c ls)
    (hacc : c.reduceGrad = true → c.noSync = true → FracInd c) (epoch : Nat) (lr : ℚ) (row : Fin (n + 1) → Batch D) :
    Same c (stepV c epoch lr row ls) := by
  intro r
  obtain ⟨h1, h2, h3⟩ := hs r
  refine ⟨?_, ?_, ?_⟩
  · simp only [stepV, after]; rw [h1]
  · simp only [stepV, after]; rw [h2]
  · intro hr hn
    obtain ⟨h4, h5⟩ := h3 hr hn
    refine ⟨?_, ?_⟩
    · simp only [stepV, after]; exact perform_same hs hr hn (hacc hr hn) epoch row r
    · simp only [stepV, after, count1]; rw [h4, h5]

theorem good_trainLoop {Q} {c : Cfg V O E D} (epoch : Nat) (lr : ℚ) (k : Fin (n + 1) → Loc V O E D → Proc V E S)
    (hacc : c.reduceGrad = true → c.noSync = true → FracInd c) (rows : List (Fin (n + 1) → Batch D))
    (bs : Fin (n + 1) → List (Batch D)) (ls : Fin (n + 1) → Loc V O E D) (hs : Same c ls) (hrows : Rows bs rows)
    (h : Good (fun r => k r (rows.foldl (fun ls row => stepV c epoch lr row ls) ls r)) Q) :
    Good (fun r => trainLoop c r epoch lr (k r) (bs r) (ls r)) Q := by
  induction rows generalizing bs ls with
  | nil =>
    obtain ⟨-, r0, hr0⟩ := hrows
    have hr0 : bs r0 = [] := List.eq_nil_of_length_eq_zero (by simpa using hr0.symm)
    refine good_coll _ .hasData (fun r => !(bs r).isEmpty) (fun r (ok : Bool) =>
      match bs r with
      | [] => if ok then .fail .typeError else k r (ls r)
      | b :: bs' => if ok then trainStep c r epoch lr b (ls r) (fun l' => trainLoop c r epoch lr (k r) bs' l') else k r (ls r)) ?_ ?_
    · intro r
      cases hb : bs r with
      | nil => simp [trainLoop, settle, offer]
      | cons b bs' => simp [trainLoop, settle, offer]
    · have hfalse : combine (V := V) (E := E) Kind.hasData (fun r => !(bs r).isEmpty) = (false : Bool) := by
        show decide (∀ r, (!(bs r).isEmpty) = true) = false
        rw [decide_eq_false_iff_not]
        intro hall
        have := hall r0
        rw [hr0] at this
        simp at this
      rw [hfalse]
      convert h using 2 with r
      cases bs r <;> rfl
  | cons row rows ih =>
    obtain ⟨hp, r0, hr0⟩ := hrows
    have hbs : ∀ r, ∃ bs', bs r = row r :: bs' ∧ rows.map (fun row => row r) <+: bs' := by
      intro r
      obtain ⟨t, ht⟩ := hp r
      exact ⟨rows.map (fun row => row r) ++ t, by rw [← ht]; rfl, List.prefix_append _ _⟩
    choose bs' hbs' hpre using hbs
    refine good_coll _ .hasData (fun r => true) (fun r (ok : Bool) =>
      if ok then trainStep c r epoch lr (row r) (ls r) (fun l' => trainLoop c r epoch lr (k r) (bs' r) l') else k r (ls r)) ?_ ?_
    · intro r
      rw [hbs' r]
      rfl
    · have htrue : combine (V := V) (E := E) (n := n) Kind.hasData (fun _ => true) = (true : Bool) := by
        show decide (∀ r : Fin (n + 1), (true : Bool) = true) = true
        simp
      rw [htrue]
      show Good (fun r => trainStep c r epoch lr (row r) (ls r) (fun l' => trainLoop c r epoch lr (k r) (bs' r) l')) Q
      apply good_trainStep epoch lr row ls _ hs hacc
      apply ih bs' (stepV c epoch lr row ls) (same_stepV hs hacc epoch lr row)
      · refine ⟨hpre, r0, ?_⟩
        rw [hbs' r0] at hr0
        simpa using hr0
      · exact h

/-! ### Evaluation -/

/-- The ranks after the evaluation of a dataset: only rank 0 has results. -/
def evalV (c : Cfg V O E D) (epoch d : Nat) (st : Fin (n + 1) → St V O E D) (r : Fin (n + 1)) : St V O E D :=
  if r = 0 then
    { st 0 with
      eps := setEp (st 0).eps epoch (((st 0).eps epoch).map (c.evalErr d ((c.evalData epoch d).map (c.evalLoss (st 0).params)))) }
  else st r

/-- Rank 0 does `p`, the others wait for it. -/
def zeroDoes (p : Proc V E S) (k : Fin (n + 1) → Proc V E S) (r : Fin (n + 1)) : Proc V E S := if r = 0 then p else .wait (k r)

theorem good_zero_tau {Q} (p : Proc V E S) (k : Fin (n + 1) → Proc V E S) (h : Good (zeroDoes p k) Q) :
    Good (zeroDoes (.tau p) k) Q := by
  apply good_step (b := zeroDoes p k) _ h
  have := Step.tau (a := zeroDoes (.tau p) k) 0 p (by simp [zeroDoes])
  convert this using 1
  funext r
  by_cases hr : r = 0
  · subst hr; simp [zeroDoes]
  · simp [zeroDoes, hr]

theorem good_zero_true {Q} (p : Proc V E S) (k : Fin (n + 1) → Proc V E S) (h : Good (zeroDoes p k) Q) :
    Good (zeroDoes (.coll .flag true (fun _ => p)) k) Q := by
  refine good_coll _ .flag (fun _ => true) (fun r (b : Bool) => if r = 0 then p else waitNext (k r) b) ?_ ?_
  · intro r
    by_cases hr : r = 0
    · subst hr; simp [zeroDoes, settle, offer]; rfl
    · simp [zeroDoes, hr, settle, offer]
  · convert h using 2 with r
    show (if r = 0 then p else waitNext (k r) true) = zeroDoes p k r
    by_cases hr : r = 0
    · subst hr; simp [zeroDoes]
    · simp [zeroDoes, hr, waitNext]

theorem good_zero_false {Q} (p : Proc V E S) (k : Fin (n + 1) → Proc V E S) (h : Good (fun r => if r = 0 then p else k r) Q) :
    Good (zeroDoes (.coll .flag false (fun _ => p)) k) Q := by
  refine good_coll _ .flag (fun r => !decide (r = 0)) (fun r (b : Bool) => if r = 0 then p else waitNext (k r) b) ?_ ?_
  · intro r
    by_cases hr : r = 0
    · subst hr; simp [zeroDoes, settle, offer]; rfl
    · simp [zeroDoes, hr, settle, offer]
  · convert h using 2 with r
    show (if r = 0 then p else waitNext (k r) (!decide ((0 : Fin (n + 1)) = 0))) = _
    by_cases hr : r = 0
    · subst hr; simp
    · simp [hr, waitNext]

theorem good_evalZero {Q} {c : Cfg V O E D} (hb : (c.reduceGrad && c.buffers) = false) (params : V) (k0 : List ℚ → Proc V E S)
    (k : Fin (n + 1) → Proc V E S) (bs : List (Batch D)) (i : Nat) (acc : List ℚ)
    (h : Good (zeroDoes (k0 (acc ++ bs.map (c.evalLoss params))) k) Q) : Good (zeroDoes (evalZero c params k0 bs i acc) k) Q := by
  induction bs generalizing i acc with
  | nil => simpa [evalZero] using h
  | cons b bs ih =>
    have h1 : Good (zeroDoes (evalZero c params k0 bs (i + 1) (acc ++ [c.evalLoss params b])) k) Q := by
      apply ih
      simpa using h
    have h2 : Good (zeroDoes (forward c (.tau (evalZero c params k0 bs (i + 1) (acc ++ [c.evalLoss params b])))) k) Q := by
      unfold forward
      rw [hb]
      simp only [Bool.false_eq_true, if_false]
      exact good_zero_tau _ _ h1
    unfold evalZero
    dsimp only
    split
    · exact good_zero_true _ _ h2
    · exact h2

theorem good_evalDataset {Q} {c : Cfg V O E D} (hb : (c.reduceGrad && c.buffers) = false) (epoch d : Nat)
    (hne : c.evalData epoch d ≠ []) (st : Fin (n + 1) → St V O E D) (k : Fin (n + 1) → St V O E D → Proc V E S)
    (h : Good (fun r => k r (evalV c epoch d st r)) Q) : Good (fun r => evalDataset c r epoch d (st r) (k r)) Q := by
  refine good_coll _ .seed (fun _ => ()) (fun r _ => if (r : Nat) = 0 then
    evalZero c (st r).params (evalEnd c epoch d (st r) (k r)) (c.evalData epoch d) 0 [] else .wait (k r (st r))) (fun r => rfl) ?_
  have e : (fun r : Fin (n + 1) => if (r : Nat) = 0 then
      evalZero c (st r).params (evalEnd c epoch d (st r) (k r)) (c.evalData epoch d) 0 [] else .wait (k r (st r))) =
      zeroDoes (evalZero c (st 0).params (evalEnd c epoch d (st 0) (k 0)) (c.evalData epoch d) 0 []) (fun r => k r (st r)) := by
    funext r
    by_cases hr : r = 0
    · subst hr; simp [zeroDoes]
    · have : (r : Nat) ≠ 0 := fun hc => hr (Fin.ext hc)
      simp [zeroDoes, hr, this]
  rw [e]
  apply good_evalZero hb
  have hacc : ([] ++ (c.evalData epoch d).map (c.evalLoss (st 0).params)).isEmpty = false := by
    cases hd : c.evalData epoch d with
    | nil => exact absurd hd hne
    | cons b bs => rfl
  unfold evalEnd
  rw [hacc]
  simp only [Bool.false_eq_true, if_false]
  apply good_zero_false
  convert h using 2 with r
  by_cases hr : r = 0
  · subst hr; simp [evalV]
  · simp [evalV, hr]

/-- The ranks after all datasets. -/
def evalAllV (c : Cfg V O E D) (epoch : Nat) (skip : Bool) : List Nat → (Fin (n + 1) → St V O E D) → Fin (n + 1) → St V O E D
  | [], st => st
  | d :: ds, st => if skip && isEvaluated c epoch d (st 0) then evalAllV c epoch skip ds st else evalAllV c epoch skip ds (evalV c epoch d st)

theorem good_evalAll {Q} {c : Cfg V O E D} (hb : (c.reduceGrad && c.buffers) = false) (epoch : Nat) (skip : Bool)
    (k : Fin (n + 1) → St V O E D → Proc V E S) (ds : List Nat) (hne : ∀ d ∈ ds, c.evalData epoch d ≠ []) (hnd : ds.Nodup)
    (hind : ∀ d d' acc e, d' ≠ d → c.evaluated (c.evalErr d acc e) d' = c.evaluated e d')
    (st : Fin (n + 1) → St V O E D) (hsame : ∀ r, ∀ d ∈ ds, isEvaluated c epoch d (st r) = isEvaluated c epoch d (st 0))
    (h : Good (fun r => k r (evalAllV c epoch skip ds st r)) Q) : Good (fun r => evalAll c r epoch skip (k r) ds (st r)) Q := by
  induction ds generalizing st with
  | nil => exact h
  | cons d ds ih =>
    rw [List.nodup_cons] at hnd
    unfold evalAll
    unfold evalAllV at h
    have hd := fun r => hsame r d (by simp)
    simp only [hd]
    by_cases hc : (skip && isEvaluated c epoch d (st 0)) = true
    · simp only [hc, if_true] at h ⊢
      exact ih (fun d hd => hne d (by simp [hd])) hnd.2 st (fun r d hd => hsame r d (by simp [hd])) h
    · simp only [hc, if_false, Bool.false_eq_true] at h ⊢
      apply good_evalDataset hb epoch d (hne d (by simp))
      apply ih (fun d hd => hne d (by simp [hd])) hnd.2 _ _ h
      have hev : ∀ r, ∀ d' ∈ ds, isEvaluated c epoch d' (evalV c epoch d st r) = isEvaluated c epoch d' (st r) := by
        intro r d' hd'
        by_cases hr : r = 0
        · subst hr
          have : d' ≠ d := fun hc => hnd.1 (hc ▸ hd')
          simp only [evalV, if_true, isEvaluated, setEp]
          cases he : (st 0).eps epoch with
          | none => rfl
          | some e => simp [hind d d' _ e this]
        · simp [evalV, hr]
      intro r d' hd'
      rw [hev r d' hd', hev 0 d' hd', hsame r d' (by simp [hd'])]

def evalModelV (c : Cfg V O E D) (epoch : Nat) (skip : Bool) (st : Fin (n + 1) → St V O E D) (r : Fin (n + 1)) : St V O E D :=
  let st' := evalAllV c epoch skip (List.range c.numEval) st
  { st' r with eps := setEp (st' r).eps epoch ((st' 0).eps epoch) }

theorem good_evalModel {Q} {c : Cfg V O E D} (hb : c.numEval = 0 ∨ (c.reduceGrad && c.buffers) = false) (epoch : Nat) (skip : Bool)
    (k : Fin (n + 1) → St V O E D → Proc V E S) (hne : ∀ d < c.numEval, c.evalData epoch d ≠ [])
    (hind : ∀ d d' acc e, d' ≠ d → c.evaluated (c.evalErr d acc e) d' = c.evaluated e d')
    (st : Fin (n + 1) → St V O E D)
    (hsame : skip = true → ∀ r, ∀ d < c.numEval, isEvaluated c epoch d (st r) = isEvaluated c epoch d (st 0))
    (h : Good (fun r => k r (evalModelV c epoch skip st r)) Q) : Good (fun r => evalModel c r epoch skip (k r) (st r)) Q := by
  have hfin : Good (fun r => (Proc.coll Kind.epochData ((evalAllV c epoch skip (List.range c.numEval) st r).eps epoch)
      (fun e => k r { evalAllV c epoch skip (List.range c.numEval) st r with
        eps := setEp (evalAllV c epoch skip (List.range c.numEval) st r).eps epoch e }) : Proc V E S)) Q :=
    good_coll _ .epochData _ _ (fun r => rfl) h
  unfold evalModel
  cases skip with
  | true =>
    rcases hb with hb | hb
    · rw [hb] at hfin ⊢
      exact hfin
    · exact good_evalAll hb epoch true _ _ (fun d hd => hne d (by simpa using hd)) List.nodup_range hind st
        (fun r d hd => hsame rfl r d (by simpa using hd)) hfin
  | false =>
    rcases hb with hb | hb
    · rw [hb] at hfin ⊢
      exact hfin
    · have key : ∀ (ds : List Nat) (st : Fin (n + 1) → St V O E D) (k : Fin (n + 1) → St V O E D → Proc V E S),
          (∀ d ∈ ds, c.evalData epoch d ≠ []) → Good (fun r => k r (evalAllV c epoch false ds st r)) Q →
          Good (fun r => evalAll c r epoch false (k r) ds (st r)) Q := by
        intro ds
        induction ds with
        | nil => intro st k _ h; exact h
        | cons d ds ih =>
          intro st k hne h
          exact good_evalDataset hb epoch d (hne d (by simp)) st _ (ih _ _ (fun d hd => hne d (by simp [hd])) h)
      exact key _ _ _ (fun d hd => hne d (by simpa using hd)) hfin

/-! ### The whole training -/

def trainEpochV (c : Cfg V O E D) (rows : Nat → List (Fin (n + 1) → Batch D)) (epoch : Nat) (st : Fin (n + 1) → St V O E D) :
    Fin (n + 1) → St V O E D :=
  let ls := (rows epoch).foldl (fun ls row => stepV c epoch (c.lrOf (st 0).eps epoch) row ls)
    (fun r => startLoc (initEpoch c r epoch (st r)))
  evalModelV c epoch false (fun r => endEpoch c r epoch (ls r))

def trainEpochsV (c : Cfg V O E D) (rows : Nat → List (Fin (n + 1) → Batch D)) :
    Nat → Nat → (Fin (n + 1) → St V O E D) → Fin (n + 1) → St V O E D
  | 0, _, st => st
  | k + 1, epoch, st => trainEpochsV c rows k (epoch + 1) (trainEpochV c rows epoch st)

def checkMissingV (c : Cfg V O E D) (start : Nat) (st : Fin (n + 1) → St V O E D) : Fin (n + 1) → St V O E D :=
  if start ≤ 1 then st
  else if (List.range c.numEval).all (fun d => isEvaluated c (start - 1) d (st 0)) then st
  else evalModelV c (start - 1) true st

def trainV (c : Cfg V O E D) (rows : Nat → List (Fin (n + 1) → Batch D)) (start : Nat) (st : Fin (n + 1) → St V O E D) :
    Fin (n + 1) → St V O E D :=
  trainEpochsV c rows (c.finalEpoch + 1 - start) start (checkMissingV c start st)

/-- Epoch data and global step are the same on all ranks. -/
def Agree (st : Fin (n + 1) → St V O E D) : Prop := ∀ r, (st r).eps = (st 0).eps ∧ (st r).gstep = (st 0).gstep

theorem same_foldl {c : Cfg V O E D} (hacc : c.reduceGrad = true → c.noSync = true → FracInd c) (epoch : Nat) (lr : ℚ)
    (rows : List (Fin (n + 1) → Batch D)) (ls : Fin (n + 1) → Loc V O E D) (hs : Same c ls) :
    Same c (rows.foldl (fun ls row => stepV c epoch lr row ls) ls) := by
  induction rows generalizing ls with
  | nil => exact hs
  | cons row rows ih => exact ih _ (same_stepV hs hacc epoch lr row)

theorem eps_foldl (c : Cfg V O E D) (epoch : Nat) (lr : ℚ) (rows : List (Fin (n + 1) → Batch D))
    (ls : Fin (n + 1) → Loc V O E D) (r : Fin (n + 1)) :
    (rows.foldl (fun ls row => stepV c epoch lr row ls) ls r).st.eps = (ls r).st.eps ∧
    (rows.foldl (fun ls row => stepV c epoch lr row ls) ls r).st.saved = (ls r).st.saved := by
  induction rows generalizing ls with
  | nil => exact ⟨rfl, rfl⟩
  | cons row rows ih => simp only [List.foldl_cons]; rw [(ih _).1, (ih _).2]; exact ⟨rfl, rfl⟩

theorem evalAllV_eps (c : Cfg V O E D) (epoch : Nat) (skip : Bool) (ds : List Nat) (st : Fin (n + 1) → St V O E D)
    (r : Fin (n + 1)) :
    (∀ i, i ≠ epoch → (evalAllV c epoch skip ds st r).eps i = (st r).eps i) ∧
    (evalAllV c epoch skip ds st r).gstep = (st r).gstep ∧ (evalAllV c epoch skip ds st r).params = (st r).params ∧
    (evalAllV c epoch skip ds st r).opt = (st r).opt ∧ (evalAllV c epoch skip ds st r).saved = (st r).saved ∧
    (evalAllV c epoch skip ds st r).used = (st r).used := by
  induction ds generalizing st with
  | nil => exact ⟨fun _ _ => rfl, rfl, rfl, rfl, rfl, rfl⟩
  | cons d ds ih =>
    unfold evalAllV
    split
    · exact ih st
    · obtain ⟨h1, h2, h3, h4, h5, h6⟩ := ih (evalV c epoch d st)
      rw [h2, h3, h4, h5, h6]
      by_cases hr : r = 0
      · subst hr
        refine ⟨fun i hi => ?_, ?_⟩
        · rw [h1 i hi]; simp [evalV, setEp, hi]
        · simp [evalV]
      · refine ⟨fun i hi => ?_, ?_⟩
        · rw [h1 i hi]; simp [evalV, hr]
        · simp [evalV, hr]

theorem agree_evalModelV (c : Cfg V O E D) (epoch : Nat) (skip : Bool) (st : Fin (n + 1) → St V O E D)
    (h : ∀ r, (∀ i, i ≠ epoch → (st r).eps i = (st 0).eps i) ∧ (st r).gstep = (st 0).gstep) :
    Agree (evalModelV c epoch skip st) := by
  intro r
  obtain ⟨h1, h2, -⟩ := evalAllV_eps c epoch skip (List.range c.numEval) st r
  obtain ⟨h1', h2', -⟩ := evalAllV_eps c epoch skip (List.range c.numEval) st 0
  refine ⟨?_, ?_⟩
  · funext i
    simp only [evalModelV, setEp]
    by_cases hi : i = epoch
    · simp [hi]
    · simp only [hi, if_false]
      rw [h1 i hi, h1' i hi, (h r).1 i hi]
  · simp only [evalModelV]
    rw [h2, h2', (h r).2]

theorem agree_trainEpochV {c : Cfg V O E D} (hacc : c.reduceGrad = true → c.noSync = true → FracInd c)
    (rows : Nat → List (Fin (n + 1) → Batch D)) (epoch : Nat) (st : Fin (n + 1) → St V O E D) (h : Agree st) :
    Agree (trainEpochV c rows epoch st) := by
  apply agree_evalModelV
  intro r
  have hs : Same c (fun r : Fin (n + 1) => startLoc (initEpoch c r epoch (st r))) := by
    intro r
    exact ⟨rfl, (h r).2, fun _ _ => ⟨rfl, rfl⟩⟩
  have hS := same_foldl hacc epoch (c.lrOf (st 0).eps epoch) (rows epoch) _ hs r
  refine ⟨?_, ?_⟩
  · intro i hi
    have e1 := (eps_foldl c epoch (c.lrOf (st 0).eps epoch) (rows epoch) (fun r => startLoc (initEpoch c r epoch (st r))) r).1
    have e0 := (eps_foldl c epoch (c.lrOf (st 0).eps epoch) (rows epoch) (fun r => startLoc (initEpoch c r epoch (st r))) 0).1
    simp only [endEpoch, setEp, hi, if_false]
    rw [e1, e0]
    simp only [startLoc, initEpoch, setEp, hi, if_false]
    rw [(h r).1]
  · exact hS.2.1

theorem good_trainEpoch {Q} {c : Cfg V O E D} (hacc : c.reduceGrad = true → c.noSync = true → FracInd c)
    (hb : c.numEval = 0 ∨ (c.reduceGrad && c.buffers) = false) (hne : ∀ epoch, ∀ d < c.numEval, c.evalData epoch d ≠ [])
    (hind : ∀ d d' acc e, d' ≠ d → c.evaluated (c.evalErr d acc e) d' = c.evaluated e d')
    (rows : Nat → List (Fin (n + 1) → Batch D)) (hrows : ∀ epoch, Rows (fun r : Fin (n + 1) => c.trainData r epoch) (rows epoch))
    (epoch : Nat) (st : Fin (n + 1) → St V O E D) (hag : Agree st) (k : Fin (n + 1) → St V O E D → Proc V E S)
    (h : Good (fun r => k r (trainEpochV c rows epoch st r)) Q) : Good (fun r => trainEpoch c r epoch (k r) (st r)) Q := by
  unfold trainEpoch
  have hlr : ∀ r, c.lrOf (st r).eps epoch = c.lrOf (st 0).eps epoch := fun r => by rw [(hag r).1]
  refine good_coll _ .seed (fun _ => ()) (fun r _ => trainLoop c r epoch (c.lrOf (st r).eps epoch)
    (fun l => evalModel c r epoch false (k r) (endEpoch c r epoch l)) (c.trainData r epoch)
    (startLoc (initEpoch c r epoch (st r)))) (fun r => rfl) ?_
  simp only [hlr]
  apply good_trainLoop epoch (c.lrOf (st 0).eps epoch) _ hacc (rows epoch) (fun r => c.trainData r epoch)
    (fun r => startLoc (initEpoch c r epoch (st r)))
  · intro r
    exact ⟨rfl, (hag r).2, fun _ _ => ⟨rfl, rfl⟩⟩
  · exact hrows epoch
  · apply good_evalModel hb epoch false _ (hne epoch) hind _ (fun hc => by simp at hc)
    exact h

theorem good_trainEpochs {Q} {c : Cfg V O E D} (hacc : c.reduceGrad = true → c.noSync = true → FracInd c)
    (hb : c.numEval = 0 ∨ (c.reduceGrad && c.buffers) = false) (hne : ∀ epoch, ∀ d < c.numEval, c.evalData epoch d ≠ [])
    (hind : ∀ d d' acc e, d' ≠ d → c.evaluated (c.evalErr d acc e) d' = c.evaluated e d')
    (rows : Nat → List (Fin (n + 1) → Batch D)) (hrows : ∀ epoch, Rows (fun r : Fin (n + 1) => c.trainData r epoch) (rows epoch))
    (m epoch : Nat) (st : Fin (n + 1) → St V O E D) (hag : Agree st)
    (h : Good (fun r => .done (trainEpochsV c rows m epoch st r)) Q) : Good (fun r => trainEpochs c r m epoch (st r)) Q := by
  induction m generalizing epoch st with
  | zero => exact h
  | succ m ih =>
    unfold trainEpochs
    apply good_trainEpoch hacc hb hne hind rows hrows epoch st hag
    exact ih (epoch + 1) _ (agree_trainEpochV hacc rows epoch st hag) h

theorem good_train {Q} {c : Cfg V O E D} (hacc : c.reduceGrad = true → c.noSync = true → FracInd c)
    (hb : c.numEval = 0 ∨ (c.reduceGrad && c.buffers) = false) (hne : ∀ epoch, ∀ d < c.numEval, c.evalData epoch d ≠ [])
    (hind : ∀ d d' acc e, d' ≠ d → c.evaluated (c.evalErr d acc e) d' = c.evaluated e d')
    (rows : Nat → List (Fin (n + 1) → Batch D)) (hrows : ∀ epoch, Rows (fun r : Fin (n + 1) => c.trainData r epoch) (rows epoch))
    (start : Nat) (st : Fin (n + 1) → St V O E D) (hag : Agree st)
    (h : Good (fun r => .done (trainV c rows start st r)) Q) : Good (fun r => train c r start (st r)) Q := by
  have hev : ∀ r, ∀ e d, isEvaluated c e d (st r) = isEvaluated c e d (st 0) := by
    intro r e d
    unfold isEvaluated
    rw [(hag r).1]
  unfold trainV checkMissingV at h
  unfold train checkMissing
  simp only [hev]
  split at h
  · rename_i hs
    simp only [hs, if_true]
    exact good_trainEpochs hacc hb hne hind rows hrows _ _ _ hag h
  · rename_i hs
    simp only [hs, if_false]
    split at h
    · rename_i ha
      simp only [ha, if_true]
      exact good_trainEpochs hacc hb hne hind rows hrows _ _ _ hag h
    · rename_i ha
      simp only [ha, if_false, Bool.false_eq_true]
      apply good_evalModel hb (start - 1) true _ (hne _) hind st (fun _ r d _ => hev r _ d)
      apply good_trainEpochs hacc hb hne hind rows hrows _ _ _ _ h
      exact agree_evalModelV c _ true st (fun r => ⟨fun i _ => by rw [(hag r).1], (hag r).2⟩)

end Verif.Distrib
