import Verif.Util.Py
/-
Model of `rf.edit_distance` (frontend/loss.py 96-181) and of the native op `EditDistanceOp` (native_op.py 5205-5400).

Simplifications: labels and distances are integers without overflow. The tensors have the batch dims as separate entries: all
operations work on each batch entry in the same way, so the functions below are for one entry, `editDistance` maps over the batch. The
work buffer of `rf.edit_distance` is a new `rf.Parameter`, which is filled with zeros (torch/frontend/_backend.py 737).
-/
namespace Verif.EditDist
open Verif.Py

/-- One batch entry: padded labels with their lengths. -/
structure Entry where
  a : List Int
  la : Nat
  b : List Int
  lb : Nat
deriving Repr

/-- `rf.slice(x, start=, size=)` -/
def sl (start size : Nat) (x : List Int) : List Int := (x.drop start).take size

/-- `x[start:start+len(v)] = v` -/
def assign (x : List Int) (start : Nat) (v : List Int) : List Int := x.take start ++ v ++ x.drop (start + v.length)

/-- `rf.gather(x, indices=i, clip_to_valid=True)` -/
def gatherClip (x : List Int) (i : Int) : Int := x.getD (min i.toNat (x.length - 1)) 0

/-- 154-158: the cost of substitutions. -/
def subCosts (prev2 aPart bFlip : List Int) : List Int :=
  List.zipWith (· + ·) prev2 (List.zipWith (fun x y => if x ≠ y then 1 else 0) aPart bFlip)

/-- 149-159: `min_cost` -/
def minCosts (nb u : Nat) (prev2 prev aExt bFlip : List Int) : List Int :=
  List.zipWith min (List.zipWith min ((prev.take nb).map (· + 1)) ((prev.drop 1).map (· + 1)))
    (subCosts (prev2.drop 1) (sl (u - 1) nb aExt) bFlip)

/-- 160, 166: entries with `t_a > 0` get `min_cost`, others `u`. -/
def curDist (nb u : Nat) (minCost : List Int) : List Int :=
  List.zipWith (fun (e : Nat) (m : Int) => if (e : Int) > nb - u then m else (u : Int)) (List.range nb) minCost

/-- 134: `buffer_offsets` -/
def off (nb : Nat) (i : Nat) : Nat := i * (nb + 1)

/-- 141-171: the buffer after one iteration. -/
def nextBuffer (nb u : Nat) (aExt bFlip buffer : List Int) : List Int :=
  let prev2 := sl (off nb (u % 3)) (nb + 1) buffer
  let prev := sl (off nb ((u + 1) % 3)) (nb + 1) buffer
  let cur := off nb ((u + 2) % 3)
  assign (assign buffer cur (curDist nb u (minCosts nb u prev2 prev aExt bFlip))) (cur + nb) [(u : Int)]

/-- 173-179 -/
def nextResult (nb u la lb : Nat) (buffer : List Int) (result : Int) : Int :=
  let endA : Int := nb + la - u
  let endB : Int := nb - lb
  if endA = endB then gatherClip buffer (off nb ((u + 2) % 3) + endA) else result

/-- 139-179: `n` iterations. -/
def loop (nb la lb : Nat) (aExt bFlip : List Int) : Nat → List Int × Int → List Int × Int
  | 0, s => s
  | u + 1, s =>
    let s := loop nb la lb aExt bFlip u s
    let buf := nextBuffer nb (u + 1) aExt bFlip s.1
    (buf, nextResult nb (u + 1) la lb buf s.2)

/-- 119-181 for one batch entry, after the swap; `maxErr` is the largest number of the dtype. -/
def editDistance1 (maxErr : Int) (na nb : Nat) (e : Entry) : Int :=
  let aExt := List.replicate nb 0 ++ e.a ++ List.replicate nb 0
  let bFlip := e.b.reverse
  let buffer := List.replicate (3 * (nb + 1)) 0
  let result := if e.la = 0 ∧ e.lb = 0 then 0 else maxErr
  (loop nb e.la e.lb aExt bFlip (na + nb) (buffer, result)).2

/-- 114-117: swap such that `a` is the longer one. -/
def swap (e : Entry) : Entry := ⟨e.b, e.lb, e.a, e.la⟩

/-- 96-181 `edit_distance`; `na`, `nb` are the sizes of the padded axes. -/
def editDistance (maxErr : Int) (na nb : Nat) (batch : List Entry) : List Int :=
  if na < nb then batch.map (fun e => editDistance1 maxErr nb na (swap e)) else batch.map (editDistance1 maxErr na nb)

/-! ### The native op (native_op.py 5205-5400)

The buffers are flat arrays over batch and entries. Reads and writes out of bounds are errors here. The threads of the kernel may run in
any order: the order of the indices is a parameter. -/

def readAt (l : List Int) (i : Int) : Res Int := if 0 ≤ i ∧ i < l.length then .ok (l.getD i.toNat 0) else .error (.other "out of bounds")

def writeAt (l : List Int) (i : Nat) (x : Int) : Res (List Int) := if i < l.length then .ok (l.set i x) else .error (.other "out of bounds")

/-- The inputs. -/
structure Inputs where
  nBatch : Nat
  na : Nat
  nb : Nat
  a : List Int
  b : List Int
  aLen : List Int
  bLen : List Int

/-- 5280-5289 `num_entries` -/
def numEntries (na nb d : Nat) : Nat :=
  if d ≤ na then (if d + 1 > nb + 1 then nb + 1 else d + 1)
  else (if nb + 1 - (d - na) > na + 1 then na + 1 else nb + 1 - (d - na))

/-- 5290-5292, 5373 `max_num_entries` -/
def maxEntries (na nb : Nat) : Nat := if na + 1 > nb + 1 then nb + 1 else na + 1

/-- 5298-5305 `t_a` -/
def tA (na d e : Nat) : Nat := if d ≤ na then d - e else na - e

/-- 5298-5305 `t_b` -/
def tB (na d e : Nat) : Nat := if d ≤ na then e else d - na + e

/-- 5307-5338: the new value; `di` is `dist_idx`, `bi` is `batch_idx` -/
def cost (i : Inputs) (d : Nat) (last1 last2 : List Int) (bi di ta tb : Nat) : Res Int :=
  if ta = 0 then .ok tb
  else if tb = 0 then .ok ta
  else
    let last1Idx : Int := if (d : Int) - 1 < i.na then di - 1 else if (d : Int) - 1 = i.na then di else di + 1
    let last2Idx : Int := if d ≤ i.na then di - 1 else di
    (readAt last2 last2Idx).bind (fun x => (readAt last2 (last2Idx + 1)).bind (fun y => (readAt last1 last1Idx).bind (fun z =>
      (readAt i.a (bi * i.na + ta - 1)).bind (fun sa => (readAt i.b (bi * i.nb + tb - 1)).bind (fun sb =>
        .ok (min (min (x + 1) (y + 1)) (if sa ≠ sb then z + 1 else z)))))))

/-- 5341-5342 -/
def writeResult (i : Inputs) (bi ta tb : Nat) (v : Int) (out : List Int) : Res (List Int) :=
  (readAt i.aLen bi).bind (fun la => (readAt i.bLen bi).bind (fun lb =>
    if (ta : Int) = la ∧ (tb : Int) = lb then writeAt out bi v else .ok out))

/-- 5293-5345: one thread iteration; the state is `cur_dist` and the result. -/
def kernel1 (i : Inputs) (d : Nat) (last1 last2 : List Int) (s : List Int × List Int) (idx : Nat) : Res (List Int × List Int) :=
  let num := numEntries i.na i.nb d
  let bi := idx / num
  let e := idx % num
  let di := bi * maxEntries i.na i.nb + e
  let ta := tA i.na d e
  let tb := tB i.na d e
  (cost i d last1 last2 bi di ta tb).bind (fun v => (writeAt s.1 di v).bind (fun cur =>
    (writeResult i bi ta tb v s.2).bind (fun out => .ok (cur, out))))

/-- The kernel with its threads in some order. -/
def kernel (i : Inputs) (d : Nat) (last1 last2 : List Int) : List Nat → List Int × List Int → Res (List Int × List Int)
  | [], s => .ok s
  | idx :: ord, s => (kernel1 i d last1 last2 s idx).bind (kernel i d last1 last2 ord)

/-- The three buffers (in their current roles) and the result. -/
structure St where
  last1 : List Int
  last2 : List Int
  cur : List Int
  out : List Int

/-- 5380-5393: `n` diagonals; `order d` is the order of the threads. -/
def native (i : Inputs) (order : Nat → List Nat) : Nat → St → Res St
  | 0, s => .ok s
  | d + 1, s => (native i order d s).bind (fun s =>
      (kernel i d s.last1 s.last2 (order d) (s.cur, s.out)).bind (fun r => .ok ⟨s.last2, r.1, s.last1, r.2⟩))

/-- 5370-5396: `buf1`, `buf2`, `buf3` are the uninitialised work buffers. -/
def editDistanceOp (i : Inputs) (order : Nat → List Nat) (buf1 buf2 buf3 : List Int) : Res (List Int) :=
  (native i order (i.na + i.nb + 1) ⟨buf1, buf2, buf3, List.replicate i.nBatch (-1)⟩).bind (fun s => .ok s.out)

end Verif.EditDist
