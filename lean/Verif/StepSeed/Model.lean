import Verif.Util.Py
import Mathlib.Analysis.SpecialFunctions.Log.Basic
/-
Model of the static seeds of a step and of sampling without replacement (`returnn/frontend/rand.py`).

Simplifications for the whole file:
* the generator of numpy is abstract: what a seed gives as state, and what the next number and state are;
* numbers are real numbers; the uniform random numbers of the sampling are given, strictly between zero and one;
* one axis; `rf.top_k` sorts by score, with the stable order for equal ones.
-/
namespace Verif.StepSeed
open Verif Verif.Py

/-- `numpy.random.RandomState`: `seed` and `randint(2**31)`. -/
structure Gen (S : Type) where
  seed : Int → S
  next : S → Int × S

/-- The module state `_step_rnd_seed`, `_step_rnd`, /repo/returnn/frontend/rand.py:113-114. -/
structure St (S : Type) where
  stepSeed : Int
  rnd : S

/-- The module state at import, /repo/returnn/frontend/rand.py:113-114. -/
def start {S : Type} (g : Gen S) : St S := ⟨42, g.seed 42⟩

/-- `reset_step_random_state`, /repo/returnn/frontend/rand.py:117-124. -/
def reset {S : Type} (g : Gen S) (s : St S) : St S := { s with rnd := g.seed s.stepSeed }

/-- The new seed, /repo/returnn/frontend/rand.py:86. -/
def newSeed (seed : Int) : Int := (seed * 5393 + 1187) % 2 ^ 31

/-- `set_random_seed` without the backend, /repo/returnn/frontend/rand.py:71-87. -/
def setSeed {S : Type} (g : Gen S) (s : St S) (seed : Int) : St S := reset g { s with stepSeed := newSeed seed }

/-- The arguments of `random` which matter here. -/
structure Call where
  explicitState : Bool
  static : Option Bool
  seed : Option Int

/-- `random`, /repo/returnn/frontend/rand.py:206-212: the seed which the backend gets. -/
def random {S : Type} (g : Gen S) (s : St S) (c : Call) : Option Int × St S :=
  if c.explicitState then (c.seed, s)
  else if c.static.getD false then
    match c.seed with
    | some x => (some x, s)
    | none => (some (g.next s.rnd).1, { s with rnd := (g.next s.rnd).2 })
  else (c.seed, s)

/-- The calls of one step. -/
def calls {S : Type} (g : Gen S) : St S → List Call → List (Option Int) × St S
  | s, [] => ([], s)
  | s, c :: cs => ((random g s c).1 :: (calls g (random g s c).2 cs).1, (calls g (random g s c).2 cs).2)

/-- What a program does. -/
inductive Op
  | set (seed : Int)
  | reset
  | call (c : Call)

def step {S : Type} (g : Gen S) (s : St S) : Op → St S
  | .set x => setSeed g s x
  | .reset => reset g s
  | .call c => (random g s c).2

def run {S : Type} (g : Gen S) (s : St S) (ops : List Op) : St S := ops.foldl (step g) s

/-- `-log(-log(u))`, /repo/returnn/frontend/rand.py:374-376. -/
noncomputable def noise (u : ℝ) : ℝ := -Real.log (-Real.log u)

open Classical in
/-- `scores_random_sample *= noise_scale`, /repo/returnn/frontend/rand.py:377-378. -/
noncomputable def scaled (scale x : ℝ) : ℝ := if scale ≠ 1 then x * scale else x

/-- `log_probs + scores_random_sample`, /repo/returnn/frontend/rand.py:379. -/
noncomputable def score {n : Nat} (lp u : Fin n → ℝ) (scale : ℝ) (i : Fin n) : ℝ := lp i + scaled scale (noise (u i))

open Classical in
/-- `rf.top_k`, the indices, for `k` at most the size; else the backend fails. -/
noncomputable def topK {n : Nat} (sc : Fin n → ℝ) (k : Nat) : Res (List (Fin n)) :=
  if k ≤ n then .ok (((List.finRange n).mergeSort fun a b => decide (sc b ≤ sc a)).take k) else .error (.other "k out of range")

/-- `random_choice_without_replacement`, /repo/returnn/frontend/rand.py:355-381. -/
noncomputable def choice {n : Nat} (lp u : Fin n → ℝ) (scale : ℝ) (k : Nat) : Res (List (Fin n)) := topK (score lp u scale) k

end Verif.StepSeed
