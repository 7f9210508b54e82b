import Verif.Scan.Spec
/-
Model of `rf.while_loop` and `rf.scan` (frontend/loop.py 28-221), eager execution, with `rf.nested.mask_nested`
(frontend/nested.py 20-130) and `TensorArray` (frontend/tensor_array.py).

Simplifications: the tensors with the batch dims are lists over the batch (all values of one batch entry together), so `body` and `cond`
work on each entry on its own; state tensors without the batch dims are the shared part `G`. State dims (`Dim` in the state) are left out.
`xs`, `ys` are single values. A loop has fuel: `none` means it runs longer than that.
-/
namespace Verif.Scan
open Verif.Py

variable {X G P Y S : Type}

/-- 28-67 `while_loop` (eager) -/
def whileLoop (cond : S → Bool) (body : S → S) : Nat → S → Option S
  | 0, _ => none
  | fuel + 1, s => if cond s then whileLoop cond body fuel (body s) else some s

/-- frontend/nested.py 113-120: `rf.where(mask, new, old)` for one batch entry; state without batch dims is not masked. -/
def mask (c : Bool) (new old : P) : P := if c then new else old

/-! ### Unknown spatial dim (141-187) -/

/-- One batch entry: state, `seq_len`, `prev_cond`, the frames of `ys`. -/
structure Ent (P Y : Type) where
  p : P
  len : Nat
  c : Bool
  ys : List Y

structure LoopSt (G P Y : Type) where
  i : Nat
  g : G
  ents : List (Ent P Y)

/-- 155-164 `_body` for one entry. -/
def entStep (pr : Prog Unit G P Y) (g : G) (e : Ent P Y) : Ent P Y :=
  let r := pr.step () g e.p
  let c := pr.cond (pr.stepG g) r.2 && e.c
  { p := mask c r.2 e.p, len := e.len + (if e.c then 1 else 0), c := c, ys := e.ys ++ [r.1] }

/-- 155-164 `_body` -/
def loopBody (pr : Prog Unit G P Y) (s : LoopSt G P Y) : LoopSt G P Y := ⟨s.i + 1, pr.stepG s.g, s.ents.map (entStep pr s.g)⟩

/-- 151-152 -/
def belowMax (max : Option Nat) (i : Nat) : Bool :=
  match max with
  | none => true
  | some m => decide (i < m)

/-- 148-153 `_cond` -/
def loopCond (max : Option Nat) (s : LoopSt G P Y) : Bool := s.ents.any (fun e => e.c) && belowMax max s.i

/-- 166-184: the initial loop vars. -/
def loopInit (pr : Prog Unit G P Y) (before : Bool) (g : G) (ps : List P) : LoopSt G P Y :=
  ⟨0, g, ps.map (fun p => { p := p, len := 0, c := if before then pr.cond g p else true, ys := [] })⟩

/-- 141-187 `scan` with `cond`; the result has `seq_len` and `ys` per entry. -/
def scanCond (pr : Prog Unit G P Y) (before : Bool) (max : Option Nat) (fuel : Nat) (g : G) (ps : List P) : Option (LoopSt G P Y) :=
  whileLoop (loopCond max) (loopBody pr) fuel (loopInit pr before g ps)

/-! ### Known spatial dim (189-217) -/

/-- One batch entry: size of the spatial dim, (padded) frames of `xs`, state, frames of `ys`. -/
structure EntX (X P Y : Type) where
  len : Nat
  xs : List X
  p : P
  ys : List Y

structure LoopStX (X G P Y : Type) where
  i : Nat
  g : G
  ents : List (EntX X P Y)

/-- 199-207 `_body` for one entry; `none`: no such frame (IndexError). -/
def entStepX (pr : Prog X G P Y) (i : Nat) (g : G) (e : EntX X P Y) : Option (EntX X P Y) :=
  (e.xs[i]?).map (fun x =>
    let r := pr.step x g e.p
    { e with p := mask (decide (i < e.len)) r.2 e.p, ys := e.ys ++ [r.1] })

/-- 199-207 `_body` -/
def loopBodyX (pr : Prog X G P Y) (s : LoopStX X G P Y) : Option (LoopStX X G P Y) :=
  (s.ents.mapM (entStepX pr s.i s.g)).map (fun ents => ⟨s.i + 1, pr.stepG s.g, ents⟩)

/-- `spatial_dim.get_dim_value_tensor()`: the max of the sizes. -/
def dimValue (lens : List Nat) : Nat := lens.foldl max 0

/-- 195-217: the loop `while i < dim_value`, with fuel; `none` also for an error in the body. -/
def loopX (pr : Prog X G P Y) (dim : Nat) : Nat → LoopStX X G P Y → Option (LoopStX X G P Y)
  | 0, _ => none
  | fuel + 1, s => if s.i < dim then (loopBodyX pr s).bind (loopX pr dim fuel) else some s

/-- 189-217 `scan` with `xs`; `batch` has for each entry its size, padded frames and initial state. -/
def scanXs (pr : Prog X G P Y) (fuel : Nat) (g : G) (batch : List (Nat × List X × P)) : Option (LoopStX X G P Y) :=
  loopX pr (dimValue (batch.map (·.1))) fuel ⟨0, g, batch.map (fun b => { len := b.1, xs := b.2.1, p := b.2.2, ys := [] })⟩

end Verif.Scan
