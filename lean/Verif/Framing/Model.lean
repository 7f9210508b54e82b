import Verif.Util.Py
/-
Model of the object framing over pipes: `returnn/util/basic.py` `read_bytes_to_new_buffer` (2637-2652),
`read_pickled_object` (2655-2668), `write_pickled_object` (2671-2683), `serialize_object` (2686-2692),
`deserialize_object` (2695-2700). Bytes are natural numbers. `Pickler.dump` and `Unpickler.load` are parameters.
-/
namespace Verif.Framing
open Verif.Py

/-- The reading end of a pipe: the bytes which will still come before the end of file, and how many bytes the operating
system gives for each `read` (at least one unless at the end of file; as many as requested if the list is exhausted). -/
structure Reader where
  rest : List Nat
  sched : List Nat

/-- `p.read(n)`. -/
def Reader.read (r : Reader) (n : Nat) : List Nat × Reader :=
  match r.sched with
  | [] => (r.rest.take n, { r with rest := r.rest.drop n })
  | k :: sched =>
    let m := min n (max 1 k)
    (r.rest.take m, { rest := r.rest.drop m, sched := sched })

/-- basic.py 2643-2652: the loop; `need = size - read_size`, `fuel` bounds the number of iterations. -/
def readLoop : Nat → Reader → Nat → List Nat → Res (List Nat × Reader)
  | 0, r, need, buf => if need > 0 then .error (.other "fuel") else .ok (buf, r)
  | fuel + 1, r, need, buf =>
    if need > 0 then
      let (data, r) := r.read need
      if data.length = 0 then .error .eof
      else readLoop fuel r (need - data.length) (buf ++ data)
    else .ok (buf, r)

/-- basic.py 2637-2652 `read_bytes_to_new_buffer`. -/
def readBytes (r : Reader) (size : Nat) : Res (List Nat × Reader) := readLoop size r size []

/-- `struct.pack("<i", n)` for `n >= 0`. -/
def pack (n : Nat) : Res (List Nat) :=
  if n < 2147483648 then .ok [n % 256, n / 256 % 256, n / 65536 % 256, n / 16777216 % 256]
  else .error (.other "struct.error")

/-- `struct.unpack("<i", b)`. -/
def unpack : List Nat → Res Int
  | [a, b, c, d] =>
    let u := a + 256 * b + 65536 * c + 16777216 * d
    .ok (if u ≥ 2147483648 then (u : Int) - 4294967296 else u)
  | _ => .error (.other "struct.error")

/-- basic.py 2655-2668 `read_pickled_object`. -/
def readObj {O : Type} (load : List Nat → Res O) (r : Reader) : Res (O × Reader) := do
  let (raw, r) ← readBytes r 4
  let size ← unpack raw
  pyAssert (decide (size > 0))
  let (buf, r) ← readBytes r size.toNat
  let o ← load buf
  .ok (o, r)

/-- basic.py 2671-2683 `write_pickled_object`: the bytes which are written. -/
def writeObj {O : Type} (dump : O → List Nat) (o : O) : Res (List Nat) := do
  let raw := dump o
  pyAssert (decide (raw.length > 0))
  let h ← pack raw.length
  .ok (h ++ raw)

/-- Several writes one after the other. -/
def writeAll {O : Type} (dump : O → List Nat) : List O → Res (List Nat)
  | [] => .ok []
  | o :: os => do
    let a ← writeObj dump o
    let b ← writeAll dump os
    .ok (a ++ b)

/-- Read objects until an exception comes (at most `n` reads): the objects, and the exception. -/
def readUntilError {O : Type} (load : List Nat → Res O) : Nat → Reader → List O × Option Err
  | 0, _ => ([], none)
  | n + 1, r =>
    match readObj load r with
    | .error e => ([], some e)
    | .ok (o, r) => let x := readUntilError load n r; (o :: x.1, x.2)

/-- basic.py 2695-2700 `deserialize_object`: a `BytesIO` gives all requested bytes. -/
def deserialize {O : Type} (load : List Nat → Res O) (b : List Nat) : Res O := do
  let (o, _) ← readObj load ⟨b, []⟩
  .ok o

end Verif.Framing
