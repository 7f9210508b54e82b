import Verif.NumbersDict.Model
import Verif.Pipeline.Model
/-
Model of the legacy (non-torch) batching: `returnn/datasets/basic.py` `Dataset.iterate_seqs` (1132-1231),
`Dataset._generate_batches` (1255-1353, the recurrent case), `returnn/engine/batch.py` `Batch` and
`BatchSetGenerator`.
Not modelled: custom chunking functions, `chunking_variance > 0`, the non-recurrent case of `_generate_batches`.
In-place operators on a `NumbersDict` are modelled as the corresponding functional ones (see
`NumbersDict.iBinOp_eq_binOp`); aliasing with objects kept by a dataset is not modelled.
-/
namespace Verif.Legacy
open Verif.Py Verif.NumbersDict Verif.Pipeline

variable {K : Type} [DecidableEq K]

/-! ### Chunking -/

/-- `chunk_size`, `chunk_step`, `min_chunk_size` of the dataset (basic.py 1149-1156, 1210). -/
structure ChunkCfg where
  size : ND String Int
  step : ND String Int
  minSize : ND String Int

/-- basic.py 1168: `NumbersDict({k: length[k] for k in used_data_keys})`. -/
def restrict (lens : Dict String Nat) : List String → Res (Dict String Nat)
  | [] => .ok []
  | k :: ks => do
    let n ← lens.getItem k
    let r ← restrict lens ks
    .ok ((k, n) :: r)

/-- basic.py 1173: the first of the (sorted) keys with positive step. -/
def firstPositive (c : ChunkCfg) : List String → Res String
  | [] => .error .indexError
  | k :: ks => do
    let s ← ndItem c.step k
    if s > 0 then .ok k else firstPositive c ks

/-- basic.py 1166-1173: the default key. `used` are the sorted used data keys. (Python evaluates the whole list
comprehension; a missing step for a later key is not an error here.) -/
def defaultKey (c : ChunkCfg) : Option (List String) → Res String
  | none => .ok "data"
  | some used => do
    let dk ← if "data" ∈ used then .ok "data" else (match used with | [] => .error .indexError | k :: _ => .ok k)
    let s ← ndItem c.step dk
    if s = 0 then do
      let m ← maxValue c.step
      pyAssert (decide (m > 0))
      firstPositive c used
    else .ok dk

/-- basic.py 1212: number of chunks for a key, `(length[key] - limit) // step + 1` with `limit = min_chunk_size or 1`. -/
def nrChunks (len : Nat) (step minSize : Int) : Res Int :=
  if step = 0 then .error .zeroDivision
  else .ok (Int.fdiv ((len : Int) - (if minSize = 0 then 1 else minSize)) step + 1)

/-- basic.py 1199-1217: the loop over the keys: `keys_with_full_seqs`. -/
def fullKeys (c : ChunkCfg) (dk : String) (dkLen : Nat) (dkStep : Int) : Dict String Nat → Res (List String)
  | [] => .ok []
  | (k, n) :: rest => do
    let s ← ndItem c.step k
    if s = dkStep ∧ n = dkLen then fullKeys c dk dkLen dkStep rest
    else if n ≤ 1 then do
      let r ← fullKeys c dk dkLen dkStep rest
      .ok (k :: r)
    else if s = dkStep then .error (.other "Chunking with multiple data-keys of different length")
    else do
      let m ← ndItem c.minSize k
      let mdk ← ndItem c.minSize dk
      let a ← nrChunks n s m
      let b ← nrChunks dkLen dkStep mdk
      pyAssert (decide (a = b))
      fullKeys c dk dkLen dkStep rest

/-- basic.py 1221-1223: set the full range for the `keys_with_full_seqs`. -/
def setFull (lens : Dict String Nat) (start stop : ND String Int) : List String → ND String Int × ND String Int
  | [] => (start, stop)
  | k :: ks =>
    setFull lens { start with dict := start.dict.set k (some 0) }
      { stop with dict := stop.dict.set k ((lens.get? k).map (fun n : Nat => (n : Int))) } ks

/-- basic.py 1229: `any([length[key] - t[key] <= min_chunk_size[key] for key in length.keys()])`. -/
def tooShort (c : ChunkCfg) (t : ND String Int) : Dict String Nat → Res Bool
  | [] => .ok false
  | (k, n) :: rest => do
    let x ← ndItem t k
    let m ← ndItem c.minSize k
    let r ← tooShort c t rest
    .ok (decide ((n : Int) - x ≤ m) || r)

/-- basic.py 1218-1230: the loop over the chunks of a seq, `(chunk_start, chunk_end)`. `fuel` bounds the number of
chunks; `t[default_key]` grows by at least one in each step. `length.value` is `None` here. -/
def chunkLoop (c : ChunkCfg) (dk : String) (lens : Dict String Nat) (full : List String) :
    Nat → ND String Int → Res (List (ND String Int × ND String Int))
  | 0, _ => .error (.other "fuel")
  | fuel + 1, t => do
    let n ← lens.getItem dk
    let x ← ndItem t dk
    if (n : Int) > x then do
      let e ← minList [add t c.size, seqLengths lens]
      let (s, e) := setFull lens t e full
      let t' := add t c.step
      if ← tooShort c t' lens then .ok [({ s with value := none }, { e with value := none })]
      else do
        let r ← chunkLoop c dk lens full fuel t'
        .ok (({ s with value := none }, { e with value := none }) :: r)
    else .ok []

/-- basic.py 1166-1230: the chunks of one seq with the given lengths, for `chunk_size != 0`. -/
def chunkSeq (c : ChunkCfg) (used : Option (List String)) (lens : Dict String Nat) :
    Res (List (ND String Int × ND String Int)) := do
  let lens ← match used with | none => .ok lens | some u => restrict lens u
  let dk ← defaultKey c used
  let s ← ndItem c.step dk
  pyAssert (decide (s > 0))
  let n ← lens.getItem dk
  let full ← fullKeys c dk n s lens
  chunkLoop c dk lens full (n + 1) (constantLike 0 (seqLengths lens))

/-- basic.py 1160-1231: the loop over the seqs: `(seq index, start, end)`. -/
def iterateSeqs (c : ChunkCfg) (used : Option (List String)) : Nat → List (Dict String Nat) →
    Res (List (Nat × ND String Int × ND String Int))
  | _, [] => .ok []
  | i, lens :: rest => do
    let cs ← if eq c.size (constantLike 0 c.size) then .ok [(constantLike 0 (seqLengths lens), seqLengths lens)]
      else chunkSeq c used lens
    let r ← iterateSeqs c used (i + 1) rest
    .ok (cs.map (fun x => (i, x)) ++ r)

/-! ### Batches -/

/-- batch.py 11-38 `BatchSeqCopyPart` (`batch_frame_offset` is 0 in the recurrent case). -/
structure Part (K : Type) where
  seq : Nat
  start : ND K Int
  stop : ND K Int
  slice : Nat

/-- batch.py 58-63 `Batch`. -/
structure Batch (K : Type) where
  maxFrames : ND K Int := ofScalar 0
  numSlices : Nat := 0
  seqs : List (Part K) := []

/-- batch.py 68-74 `try_sequence_as_slice`. -/
def Batch.trySeq (b : Batch K) (len : ND K Int) : Res (ND K Int × Nat) := do
  let m ← maxList [b.maxFrames, len]
  .ok (m, b.numSlices + 1)

/-- batch.py 76-93 `add_sequence_as_slice`. -/
def Batch.addSeq (b : Batch K) (seq : Nat) (start len : ND K Int) : Res (Batch K) := do
  let (m, n) ← b.trySeq len
  .ok { maxFrames := m, numSlices := n, seqs := b.seqs ++ [⟨seq, start, add start len, n - 1⟩] }

/-- batch.py 130-138 `get_all_slices_num_frames`. -/
def Batch.allFrames (b : Batch K) : ND K Int := mulScalar b.maxFrames b.numSlices

/-- batch.py 140-144 `get_total_num_frames`: `sum([s.frame_length for s in self.seqs])`, for at least one seq. -/
def Batch.totalFrames (b : Batch K) : ND K Int :=
  match b.seqs with
  | [] => ofScalar 0
  | p :: ps => ps.foldl (fun t q => add t (sub q.stop q.start)) (addScalar (sub p.stop p.start) 0)

/-- The options of `_generate_batches` after parsing (basic.py 1278-1294). `none` is infinity. -/
structure GenOpts (K : Type) where
  batchSize : ND K Int
  maxSeqs : Option Nat
  maxLen : ND K Int
  minLen : ND K Int
  maxPad : ND K Int
  maxTotal : Option Nat
  ctxLeft : Int
  ctxRight : Int

/-- A chunk from `iterate_seqs`, with the outcomes of `self.sample(seq_idx)` and of
`self.rnd_seq_drop.random() < seq_drop`. -/
structure Chunk (K : Type) where
  seq : Nat
  start : ND K Int
  stop : ND K Int
  sampled : Bool
  dropped : Bool

/-- The variables of the loop (basic.py 1295-1297). -/
structure GenSt (K : Type) where
  batch : Batch K := {}
  total : Nat := 0
  last : Option Nat := none

/-- basic.py 1307: `t_start` with context. -/
def Chunk.startCtx (o : GenOpts K) (c : Chunk K) : ND K Int := addScalar c.start (-o.ctxLeft)

/-- basic.py 1308-1310: the length of the chunk with context. -/
def Chunk.len (o : GenOpts K) (c : Chunk K) : ND K Int := sub (addScalar c.stop o.ctxRight) (c.startCtx o)

/-- `n > limit`, where `none` is infinity. -/
def exceeds : Option Nat → Nat → Bool
  | some m, n => decide (n > m)
  | none, _ => false

/-- basic.py 1319-1331: must the current batch be closed before the chunk of length `len` is added? -/
def mustClose (o : GenOpts K) (b : Batch K) (len : ND K Int) : Res Bool := do
  let (dt, ds) ← b.trySeq len
  if b.numSlices ≥ 1 then do
    if ← anyCompare (mulScalar dt ds) o.batchSize (fun a b => decide (a > b)) then .ok true
    else if exceeds o.maxSeqs ds then .ok true
    else anyCompare (sub (sub (mulScalar dt ds) b.totalFrames) len) o.maxPad (fun a b => decide (a > b))
  else .ok false

/-- basic.py 1352-1353: the last batch. -/
def genFinish (b : Batch K) : Res (List (Batch K)) := do
  let m ← maxValue b.allFrames
  .ok (if m > 0 then [b] else [])

/-- basic.py 1309-1332, 1348-1350: the part of the loop body after the limit on the number of seqs; gives the yielded
batches. -/
def genStep (o : GenOpts K) (c : Chunk K) (s : GenSt K) : Res (List (Batch K) × GenSt K) := do
  let len := c.len o
  if ← anyCompare len o.maxLen (fun a b => decide (a > b)) then .ok ([], s)
  else if ← anyCompare len o.minLen (fun a b => decide (a < b)) then .ok ([], s)
  else if c.dropped then .ok ([], s)
  else do
    let close ← mustClose o s.batch len
    let b ← (if close then ({} : Batch K) else s.batch).addSeq c.seq (c.startCtx o) len
    let s' : GenSt K := { batch := b, total := if s.last = some c.seq then s.total else s.total + 1, last := some c.seq }
    .ok (if close then [s.batch] else [], s')

/-- basic.py 1302-1353: the loop (recurrent case). -/
def genLoop (o : GenOpts K) : List (Chunk K) → GenSt K → Res (List (Batch K))
  | [], s => genFinish s.batch
  | c :: cs, s =>
    if !c.sampled then genLoop o cs s
    else if exceeds o.maxTotal s.total then genFinish s.batch
    else do
      let (out, s') ← genStep o c s
      let r ← genLoop o cs s'
      .ok (out ++ r)

/-- basic.py 1255-1353 `_generate_batches(recurrent_net=True)`. -/
def generateBatches (o : GenOpts K) (cs : List (Chunk K)) : Res (List (Batch K)) := genLoop o cs {}

/-! ### BatchSetGenerator -/

/-- batch.py 182-208: the state of `BatchSetGenerator`; `gen` is the rest of the generator. -/
structure BSG (α : Type) where
  gen : List α
  cache : List α := []
  buffer : List α := []
  reachedEnd : Bool := false
  cacheActive : Bool := false
  idx : Nat := 0

/-- batch.py 182-199 `__init__`. -/
def BSG.new {α : Type} (gen : List α) : BSG α := { gen := gen }

/-- batch.py 201-208 `_reset` without shuffling. -/
def BSG.reset {α : Type} (s : BSG α) : BSG α :=
  { s with buffer := s.cache, cacheActive := s.reachedEnd, reachedEnd := false, idx := 0 }

/-- batch.py 217-229 `_read_next`. -/
def BSG.readNext {α : Type} (cacheWhole : Bool) (s : BSG α) : Bool × BSG α :=
  if s.reachedEnd then (false, s)
  else
    match s.gen with
    | [] => (false, { s with reachedEnd := true })
    | b :: gen =>
      (true, { s with gen := gen, buffer := s.buffer ++ [b],
                      cache := if cacheWhole && !s.cacheActive then s.cache ++ [b] else s.cache })

/-- batch.py 231-236 `_read_next_up_to_n`; the loop `for i in range(n)`, `i` iterations left. -/
def BSG.readLoop {α : Type} (cacheWhole : Bool) (n : Nat) : Nat → BSG α → BSG α
  | 0, s => s
  | i + 1, s =>
    if s.buffer.length ≥ n then s
    else
      let r := s.readNext cacheWhole
      if r.1 then BSG.readLoop cacheWhole n i r.2 else r.2

/-- The calls of the API. -/
inductive Call where
  | peek (n : Nat)
  | advance (n : Nat)
  | hasMore
  | reset
  | index

/-- The results. -/
inductive Ret (α : Type) where
  | batches (l : List α)
  | bool (b : Bool)
  | nat (n : Nat)
  | unit
  | error
deriving DecidableEq

/-- batch.py 210-287: one API call. A failed assertion leaves the state (with the read-ahead). -/
def BSG.call {α : Type} (cacheWhole : Bool) (s : BSG α) : Call → Ret α × BSG α
  | .peek n => let s := s.readLoop cacheWhole n n; (.batches (s.buffer.take n), s)
  | .advance n =>
    if n = 0 then (.error, s)
    else
      let s := s.readLoop cacheWhole n n
      if n ≤ s.buffer.length then (.unit, { s with buffer := s.buffer.drop n, idx := s.idx + n }) else (.error, s)
  | .hasMore => if s.buffer.length > 0 then (.bool true, s) else let r := s.readNext cacheWhole; (.bool r.1, r.2)
  | .reset => if cacheWhole then (.unit, s.reset) else (.error, s)
  | .index => (.nat s.idx, s)

end Verif.Legacy
