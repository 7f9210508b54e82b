import Verif.FastBw.Spec
/-
Model of `FastBaumWelchOp` (native_op.py 3089-3137, 3191-3610).

Scores: instead of floats in -log space, probabilities in any semifield: 0.0 is `1`, infinity is `0`, addition is `*`, subtraction is `/`,
`prob_add` is `+`, without rounding. NaN is `none`. Arrays are functions; indices are in range by the shapes.
Threads: a kernel's threads read what other kernels have written, and add to shared places by `atomic_prob_add` only, or write to their own;
so a run of a kernel is the threads one after the other in any order (`Sched`).
-/
namespace Verif.FastBw
open Verif.CtcFsa

variable {K : Type} [Semifield K] [DecidableEq K]

/-- Order of the threads in the calls of the kernels. -/
structure Sched where
  fwd : Nat → List Nat
  bwd : Nat → List Nat
  out : List Nat

/-- Each thread runs once. -/
def Sched.Ok (sc : Sched) (nEdges nFrames : Nat) : Prop :=
  (∀ t, (sc.fwd t).Perm (List.range nEdges)) ∧ (∀ t, (sc.bwd t).Perm (List.range nEdges)) ∧ sc.out.Perm (List.range (nFrames * nEdges))

/-- Assignment `array[i] = v`. -/
def upd {V : Type} (a : Nat → V) (i : Nat) (v : V) : Nat → V := fun j => if j = i then v else a j

/-- 3090-3096 `set_start_states`. -/
def setStart (starts : List Nat) (states : Nat → K) : Nat → K := starts.foldl (fun st s => upd st s 1) states

/-- 3237-3247 `init_bwd_state_buffer`. -/
def initBwd (index : Nat → Nat → Bool) (ends : List Nat) (t maxT : Nat) (states : Nat → K) : Nat → K :=
  (List.range ends.length).foldl (fun st b =>
    if index t b = true ∧ (t = maxT ∨ index (t + 1) b = false) then upd st (ends.getD b 0) 1 else st) states

/-- 3254-3280: one thread of `next_frame`; the buffers are `next_frame` and `edge_buffer`. -/
def nextThread (fwd : Bool) (edges : List (Edge Nat)) (w : Nat → K) (am : Nat → Nat → K) (prev : Nat → K) (st : (Nat → K) × (Nat → K)) (idx : Nat) :
    (Nat → K) × (Nat → K) :=
  (edges[idx]?).elim st (fun x =>
    let src := if fwd then x.src else x.dst
    let dst := if fwd then x.dst else x.src
    if prev src = 0 then (st.1, upd st.2 idx 0)
    else
      let val := prev src * w idx * am x.seq x.label
      (upd st.1 dst (st.1 dst + val), upd st.2 idx (st.2 idx * (if fwd then val else prev src))))

/-- 3248-3281 `next_frame`, with the new state buffer filled with infinity before. -/
def nextFrame (fwd : Bool) (edges : List (Edge Nat)) (w : Nat → K) (am : Nat → Nat → K) (order : List Nat) (prev eb : Nat → K) : (Nat → K) × (Nat → K) :=
  order.foldl (nextThread fwd edges w am prev) (fun _ => 0, eb)

/-- 3517-3533: forward pass, `k` more frames from frame `t`. -/
def fwdFrom (edges : List (Edge Nat)) (w : Nat → K) (am : Nat → Nat → Nat → K) (sc : Sched) : Nat → Nat → (Nat → K) → (Nat → Nat → K) → (Nat → Nat → K)
  | 0, _, _, eb => eb
  | k + 1, t, prev, eb =>
    let r := nextFrame true edges w (am t) (sc.fwd t) prev (eb t)
    fwdFrom edges w am sc k (t + 1) r.1 (upd eb t r.2)

/-- 3535-3560: backward pass, the first `t` frames are left. -/
def bwdFrom (edges : List (Edge Nat)) (w : Nat → K) (am : Nat → Nat → Nat → K) (sc : Sched) (index : Nat → Nat → Bool) (ends : List Nat) (maxT : Nat) :
    Nat → (Nat → K) → (Nat → Nat → K) → (Nat → Nat → K)
  | 0, _, eb => eb
  | t + 1, prev, eb =>
    let r := nextFrame false edges w (am t) (sc.bwd t) (initBwd index ends t maxT prev) (eb t)
    bwdFrom edges w am sc index ends maxT t r.1 (upd eb t r.2)

/-- 3289-3296: the sums in one frame. -/
def frameSums (edges : List (Edge Nat)) (buffer : Nat → K) : Nat → K :=
  (List.range edges.length).foldl (fun sum e => (edges[e]?).elim sum (fun x => upd sum x.seq (sum x.seq + buffer e))) (fun _ => 0)

/-- 3308-3311 `buffer[e] -= sum[s]`: infinity minus infinity is NaN. -/
def sub (a b : K) : Option K := if b = 0 then none else some (a / b)

/-- 3115-3126 `prob_add`: the result is infinity for NaN. -/
def probAdd (a : K) (b : Option K) : K := b.elim 0 (fun b => a + b)

/-- 3314-3332 `compute_result`: one thread. The output is by frame, sequence, label. -/
def outThread (edges : List (Edge Nat)) (eb : Nat → Nat → Option K) (out : Nat → Nat → Nat → K) (idx : Nat) : Nat → Nat → Nat → K :=
  let e := idx % edges.length
  let frame := idx / edges.length
  (edges[e]?).elim out (fun x =>
    upd out frame (upd (out frame) x.seq (upd (out frame x.seq) x.label (probAdd (out frame x.seq x.label) (eb frame e)))))

/-- The edge buffer after both passes (3492-3560). -/
def edgeBuffer (f : Fsa Nat) (w : Nat → K) (am : Nat → Nat → Nat → K) (index : Nat → Nat → Bool) (nFrames : Nat) (sc : Sched) : Nat → Nat → K :=
  let eb := fwdFrom f.edges w am sc nFrames 0 (setStart (f.startEnd.map Prod.fst) (fun _ => 0)) (fun _ _ => 1)
  bwdFrom f.edges w am sc index (f.startEnd.map Prod.snd) (nFrames - 1) nFrames (fun _ => 0) eb

/-- 3409-3610: the outputs `out` and `sum_output`. -/
def fastBw (f : Fsa Nat) (w : Nat → K) (am : Nat → Nat → Nat → K) (index : Nat → Nat → Bool) (nFrames : Nat) (sc : Sched) :
    (Nat → Nat → Nat → K) × (Nat → Nat → K) :=
  let eb := edgeBuffer f w am index nFrames sc
  let sums := fun t => frameSums f.edges (eb t)
  let norm : Nat → Nat → Option K := fun t e => (f.edges[e]?).elim none (fun x => sub (eb t e) (sums t x.seq))
  (sc.out.foldl (outThread f.edges norm) (fun _ _ _ => 0), fun t s => if sums t s = 0 then 1 else sums t s)

end Verif.FastBw
