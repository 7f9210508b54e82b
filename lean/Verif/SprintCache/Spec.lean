import Verif.SprintCache.Model
/-
What the archive format is about.
-/
namespace Verif.SprintCache
open Verif Verif.Py

/-- An entry of an archive. -/
inductive Entry where
  | feat (features : List (List Nat)) (times : List (Nat × Nat))
  | text (data : Bytes)

/-- A call of `add_feature_cache`: name, features, times, and the text of the attributes. -/
structure Add where
  name : Bytes
  features : List (List Nat)
  times : List (Nat × Nat)
  attribs : Bytes

/-- The entries which the calls add, in order. -/
def entries (adds : List Add) : List (Bytes × Entry) :=
  adds.flatMap (fun a => [(a.name, .feat a.features a.times), (a.name ++ [46, 97, 116, 116, 114, 105, 98, 115], .text a.attribs)])

/-- The last entry with a name. -/
def lastEntry (es : List (Bytes × Entry)) (name : Bytes) : Option Entry := (es.reverse.find? (fun e => decide (e.1 = name))).map (fun e => e.2)

/-- Bit patterns of 32 and 64 bit floats. -/
def Add.valid (a : Add) : Prop := (∀ f ∈ a.features, ∀ x ∈ f, x < 2 ^ 32) ∧ ∀ t ∈ a.times, t.1 < 2 ^ 64 ∧ t.2 < 2 ^ 64

/-- All the calls. -/
def runAdds : List Add → Writer → Res Writer
  | [], w => .ok w
  | a :: t, w => do
    let w ← addFeatureCache a.name a.features a.times a.attribs w
    runAdds t w

/-- A number with seven bits per byte, lowest first, the highest bit says that there are more. -/
def packed (n : Nat) : Bytes := if n < 128 then [n] else (n % 128 + 128) :: packed (n / 128)
decreasing_by omega

/-- A part of an alignment in the RLE scheme. -/
inductive Seg where
  | lits (xs : List Nat)
  | run (x : Nat) (k : Nat)
  | time (t : Nat)

/-- The limits of the format. -/
def Seg.valid : Seg → Prop
  | .lits xs => 0 < xs.length ∧ xs.length < 128 ∧ ∀ x ∈ xs, x < 2 ^ 31
  | .run x k => 0 < k ∧ k ≤ 128 ∧ x < 2 ^ 31
  | .time t => t < 2 ^ 31

/-- Bytes of a part. -/
def Seg.bytes : Seg → Bytes
  | .lits xs => xs.length :: xs.flatMap (le 4)
  | .run x k => (256 - k) :: le 4 x
  | .time t => 0 :: le 4 t

/-- The alignment: successive times from `t` on. -/
def expand : Int → List Seg → List (Int × Int)
  | _, [] => []
  | t, .lits xs :: r => xs.mapIdx (fun (i x : Nat) => (t + (i : Int), (x : Int))) ++ expand (t + xs.length) r
  | t, .run x k :: r => (List.range k).map (fun i => (t + (i : Nat), (x : Int))) ++ expand (t + k) r
  | _, .time t :: r => expand t r

/-- A frame of a weighted alignment: maybe a new time, and the items with their weights. -/
structure Frame where
  time : Option Nat
  items : List (Nat × Nat)

/-- Bytes of a frame. -/
def Frame.bytes (f : Frame) : Bytes :=
  packed (2 * f.items.length + (if f.time.isSome then 1 else 0)) ++ (f.time.elim [] packed) ++ f.items.flatMap (fun p => packed p.1 ++ le 4 p.2)

/-- The weighted alignment from time `t` on. -/
def expandW : Nat → List Frame → List (Nat × Nat × Nat)
  | _, [] => []
  | t, f :: r => f.items.map (fun p => (f.time.getD t, p.1, p.2)) ++ expandW (f.time.getD t + 1) r

end Verif.SprintCache
