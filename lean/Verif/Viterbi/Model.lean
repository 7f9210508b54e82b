import Verif.Viterbi.Spec
import Verif.FastBw.Model
/-
Model of `FastViterbiOp` (native_op.py 4486-4844). Scores as in the specification, arrays are functions. A kernel with `select_max` has one thread per edge;
threads take atomic steps in any interleaving (a thread which goes on with further edges has less interleavings). A read of an `IdxAndVal` is one
atomic read of 64 bits, the CAS compares both fields.
-/
namespace Verif.Viterbi
open Verif.CtcFsa Verif.FastBw

variable {V : Type} [LinearOrder V] [OrderBot V]

/-- 4550-4553 `IdxAndVal`. -/
structure Cell (V : Type) where
  idx : Int
  val : V
deriving DecidableEq

/-- Where a thread is in `select_max` (4557-4584): before the fast path, at the top of the loop, before the CAS (with `prev`), returned. -/
inductive Pc (V : Type) where
  | start
  | loop
  | cas (prev : Cell V)
  | done
deriving DecidableEq

/-- The shared frame and the threads. -/
structure St (V : Type) where
  frame : Nat → Cell V
  pc : Nat → Pc V

/-- 4570-4574: the loop before the CAS. -/
def afterRead (b prev : Cell V) : Pc V :=
  if b.val < prev.val then .done
  else if b.val = prev.val ∧ b.idx ≥ prev.idx then .done
  else .cas prev

/-- 4557-4584 `select_max`: one step of thread `i`, which has to put `b` to `frame[dst]`. -/
def stepJob (i dst : Nat) (b : Cell V) (st : St V) : St V :=
  match st.pc i with
  | .start => { st with pc := upd st.pc i (if b.val < (st.frame dst).val then .done else .loop) }
  | .loop => { st with pc := upd st.pc i (afterRead b (st.frame dst)) }
  | .cas prev => if st.frame dst = prev then { frame := upd st.frame dst b, pc := upd st.pc i .done } else { st with pc := upd st.pc i .loop }
  | .done => st

/-- One step of thread `i`; threads without a job return. -/
def step (job : Nat → Option (Nat × Cell V)) (st : St V) (i : Nat) : St V :=
  (job i).elim { st with pc := upd st.pc i .done } (fun j => stepJob i j.1 j.2 st)

/-- A run of a kernel: the threads which take a step, one after the other. -/
def run (job : Nat → Option (Nat × Cell V)) (tr : List Nat) (st : St V) : St V := tr.foldl (step job) st

/-- 4597-4598. -/
def emptyCell : Cell V := { idx := -1, val := ⊥ }

/-- 4603-4620 `init_first_frame`. -/
def firstFrame (zero : V) (starts : List Nat) : Nat → Cell V :=
  starts.foldl (fun fr s => upd fr s { idx := (fr s).idx, val := zero }) (fun _ => emptyCell)

/-- 4643-4658: what the thread for edge `idx` does in frame `t`. -/
def edgeJob (add : V → V → V) (edges : List (Edge Nat)) (w : Nat → V) (am : Nat → Nat → Nat → V) (lens : Nat → Nat) (t : Nat) (prev : Nat → Cell V) (idx : Nat) :
    Option (Nat × Cell V) :=
  (edges[idx]?).bind (fun x =>
    if t < lens x.seq then some (x.dst, { idx := idx, val := add (add (prev x.src).val (w idx)) (am t x.seq x.label) }) else none)

/-- Begin of the kernel `next_frame`. -/
def initSt : St V := { frame := fun _ => emptyCell, pc := fun _ => .start }

/-- 4785-4807: frame `t` of the buffer; `tr t` is the run of the kernel `next_frame` for `t`. -/
def frameAt (add : V → V → V) (zero : V) (f : Fsa Nat) (w : Nat → V) (am : Nat → Nat → Nat → V) (lens : Nat → Nat) (tr : Nat → List Nat) : Nat → Nat → Cell V
  | 0 => firstFrame zero (f.startEnd.map Prod.fst)
  | t + 1 => (run (edgeJob add f.edges w am lens t (frameAt add zero f w am lens tr t)) (tr t) initSt).frame

/-- All threads of the kernels have returned. -/
def Finished (add : V → V → V) (zero : V) (f : Fsa Nat) (w : Nat → V) (am : Nat → Nat → Nat → V) (lens : Nat → Nat) (nTime : Nat) (tr : Nat → List Nat) : Prop :=
  ∀ t, t < nTime → ∀ i, i < f.edges.length →
    (run (edgeJob add f.edges w am lens t (frameAt add zero f w am lens tr t)) (tr t) initSt).pc i = .done

/-- 4706-4721 `select_best_path`: new state and output of one sequence. -/
def backStep (edges : List (Edge Nat)) (len t : Nat) (frame : Nat → Cell V) (cur : Nat) : Nat × Nat :=
  if t < len then
    if 0 ≤ (frame cur).idx then (edges[(frame cur).idx.toNat]?).elim (cur, 0) (fun x => (x.src, x.label)) else (cur, 0)
  else (cur, 0)

/-- 4823-4837: the output of one sequence, frames `t - 1` to 0. -/
def backFrom (edges : List (Edge Nat)) (len : Nat) (frames : Nat → Nat → Cell V) : Nat → Nat → (Nat → Nat) → (Nat → Nat)
  | 0, _, out => out
  | t + 1, cur, out =>
    let r := backStep edges len t (frames (t + 1)) cur
    backFrom edges len frames t r.1 (upd out t r.2)

/-- 4728-4842: the outputs `output` and `scores`. -/
def viterbi (add : V → V → V) (zero : V) (f : Fsa Nat) (w : Nat → V) (am : Nat → Nat → Nat → V) (lens : Nat → Nat) (nTime : Nat) (tr : Nat → List Nat) :
    (Nat → Nat → Nat) × (Nat → V) :=
  let frames := frameAt add zero f w am lens tr
  let ends := f.startEnd.map Prod.snd
  (fun t b => backFrom f.edges (lens b) frames nTime (ends.getD b 0) (fun _ => 0) t, fun b => (frames (lens b) (ends.getD b 0)).val)

end Verif.Viterbi
