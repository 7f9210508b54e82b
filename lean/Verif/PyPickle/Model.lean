import Verif.Util.Py
/-
Model of `returnn/util/py-to-pickle.cpp` (the parser which turns a Python literal into a pickle) in the
in-memory variant (`-DLIB`), and of its Python wrapper `returnn/util/literal_py_to_pickle.py`.

Bytes and characters are natural numbers below 256.  The C++ `int` with EOF is `Option Nat` (`none` = EOF).
C++ exceptions (`std::stol`, `std::stod` throw on malformed or out of range numbers; nothing catches them,
so the process is terminated) are the outcome `Stop.crash`.
-/
namespace Verif.PyPickle

open Verif.Py

/-- Why a run of the C++ code gives no result: a C++ exception, or the recursion bound of the model
(`fuel`; `Props.convert_total` shows that this never happens). -/
inductive Stop where
  | crash
  | fuel
deriving DecidableEq, Repr

abbrev Run (α : Type) := Except Stop α

/-- State of `Parser` with its `MemReader` and `MemWriter` (py-to-pickle.cpp 221-236, 276-307, 311-318).
`inp`: the input which is not yet read.  `out`: `data[0:p]`.  `err`: `Parser::got_error`.
`ovf`: `MemWriter::got_error`. -/
structure St where
  inp : List Nat
  out : List Nat
  err : Bool
  ovf : Bool
deriving DecidableEq, Repr

/-- `MemReader::read_next_char` (py-to-pickle.cpp 229-235). -/
def readChar (st : St) : Option Nat × St :=
  match st.inp with
  | [] => (none, st)
  | c :: r => (some c, { st with inp := r })

/-- `MemWriter::write_data`, `write_char` (py-to-pickle.cpp 286-302): nothing is written if it does not fit. -/
def write (cap : Nat) (st : St) (data : List Nat) : St :=
  if st.out.length + data.length > cap then { st with ovf := true }
  else { st with out := st.out ++ data }

/-- `Parser::parse_error` (py-to-pickle.cpp 320-323); the message is not modelled. -/
def parseError (st : St) : St := { st with err := true }

/-- C `isspace` in the C locale. -/
def isSpace (c : Nat) : Bool := (9 ≤ c && c ≤ 13) || c == 32

/-- `c >= '0' && c <= '9'`. -/
def isDigit (c : Nat) : Bool := 48 ≤ c && c ≤ 57

/-- The characters which `parse` and `parse_num` take as part of a number (py-to-pickle.cpp 495, 571). -/
def isNumChar (c : Nat) : Bool := isDigit c || c == 43 || c == 45 || c == 46

/-- `utf8_encode` (py-to-pickle.cpp 162-197); `none` is the return value 0.
`&` with a mask of ones and `|` on disjoint bits are written as remainder and sum. -/
def utf8Encode (u : Nat) : Option (List Nat) :=
  if u ≤ 0x7F then some [u]
  else if u ≤ 0x7FF then some [u / 64 % 32 + 0xC0, u % 64 + 0x80]
  else if u ≤ 0xFFFF then some [u / 4096 % 16 + 0xE0, u / 64 % 64 + 0x80, u % 64 + 0x80]
  else if u ≤ 0x10FFFF then
    some [u / 262144 % 8 + 0xF0, u / 4096 % 64 + 0x80, u / 64 % 64 + 0x80, u % 64 + 0x80]
  else none

/-- `escape_mode`, with `escape_hex_rem` and `escape_hex` (py-to-pickle.cpp 412-414). -/
inductive Mode where
  | direct
  | init
  | hex (rem acc : Nat)
deriving DecidableEq, Repr

/-- The number of hex digits after `\x`, `\u`, `\U` (py-to-pickle.cpp 424-432). -/
def hexLen (c : Nat) : Option Nat :=
  if c == 120 then some 2 else if c == 117 then some 4 else if c == 85 then some 8 else none

/-- The character of a one letter escape (py-to-pickle.cpp 435-440). -/
def escChar (c : Nat) : Option Nat :=
  if c == 114 then some 13
  else if c == 116 then some 9
  else if c == 110 then some 10
  else if c == 92 || c == 34 || c == 39 || c == 10 then some c
  else none

/-- The value of a hex digit (py-to-pickle.cpp 446-449): lower case only. -/
def hexVal (c : Nat) : Option Nat :=
  if isDigit c then some (c - 48)
  else if 97 ≤ c && c ≤ 102 then some (c - 97 + 10)
  else none

/-- The loop of `parse_str` (py-to-pickle.cpp 415-459): gives `buf` (`none` after a parse error)
and the input which is left. -/
def strLoop (quote : Nat) : List Nat → Mode → List Nat → Option (List Nat) × List Nat
  | [], _, _ => (none, [])
  | c :: r, .direct, buf =>
    if c == quote then (some buf, r)
    else if c == 92 then strLoop quote r .init buf
    else strLoop quote r .direct (buf ++ [c])
  | c :: r, .init, buf =>
    match hexLen c with
    | some n => strLoop quote r (.hex n 0) buf
    | none =>
      match escChar c with
      | some x => strLoop quote r .direct (buf ++ [x])
      | none => (none, r)
  | c :: r, .hex rem acc, buf =>
    match hexVal c with
    | none => (none, r)
    | some h =>
      if rem - 1 = 0 then
        match utf8Encode ((acc * 16 + h) % 2 ^ 32) with
        | none => (none, r)
        | some u => strLoop quote r .direct (buf ++ u)
      else strLoop quote r (.hex (rem - 1) ((acc * 16 + h) % 2 ^ 32)) buf

/-- The `n` low bytes of a number, lowest first (`(value >> (8 * i)) & 0xff`). -/
def leBytes : Nat → Nat → List Nat
  | 0, _ => []
  | n + 1, v => v % 256 :: leBytes n (v / 256)

/-- The header which `parse_str` writes (py-to-pickle.cpp 461-482). -/
def strHeader (size : Nat) : List Nat :=
  if size ≤ 0xff then 0x8c :: leBytes 1 size
  else if size ≤ 0xffffffff then 88 :: leBytes 4 size
  else 0x8d :: leBytes 8 size

/-- `parse_str` (py-to-pickle.cpp 405-484). -/
def parseStr (cap : Nat) (st : St) (quote : Nat) : St :=
  match strLoop quote st.inp .direct [] with
  | (none, r) => parseError { st with inp := r }
  | (some buf, r) => write cap (write cap { st with inp := r } (strHeader buf.length)) buf

/-- Decimal digits as a number. -/
def digitsVal (ds : List Nat) : Nat := ds.foldl (fun a d => a * 10 + (d - 48)) 0

/-- `strtol` on digits after the sign: the longest prefix of digits; `none` if there is none. -/
def strtolDigits (neg : Bool) (ds : List Nat) : Option Int :=
  match ds.takeWhile isDigit with
  | [] => none
  | l => some (if neg then -(digitsVal l : Int) else digitsVal l)

/-- `strtol` (on text without leading white space, without the range check): an optional sign and the longest
prefix of digits. -/
def strtol (buf : List Nat) : Option Int :=
  match buf with
  | [] => none
  | c :: r =>
    if c == 45 then strtolDigits true r
    else if c == 43 then strtolDigits false r
    else strtolDigits false buf

/-- `std::stol`: `none` if it throws (`std::invalid_argument`, or `std::out_of_range` for a 64 bit `long`). -/
def stol (buf : List Nat) : Option Int :=
  match strtol buf with
  | none => none
  | some v => if -(2 : Int) ^ 63 ≤ v ∧ v < (2 : Int) ^ 63 then some v else none

/-- What `parse_num` writes for an integer (py-to-pickle.cpp 513-533); the four bytes are those of the
two's complement representation of `val`. -/
def intCode (val : Int) : List Nat :=
  let u := (val % (2 : Int) ^ 32).toNat
  let b := leBytes 4 u
  if b.getD 3 0 ≠ 0 ∨ b.getD 2 0 ≠ 0 then 74 :: b
  else if b.getD 1 0 ≠ 0 then 77 :: b.take 2
  else 75 :: b.take 1

/-- What `parse_num` writes for a float (py-to-pickle.cpp 505-510, `_PyFloat_Pack8` with `le = 0`):
the eight bytes of the IEEE representation (as a number `bits`), highest first. -/
def floatCode (bits : Nat) : List Nat := 71 :: (leBytes 8 bits).reverse

/-- The loop of `parse_num` which collects the characters (py-to-pickle.cpp 492-502): the collected
characters, the character after them (already read), the input which is left.
`is_float` is set when the first of the collected characters after `first` is a `.`; a `first` of `.`
does not set it. -/
def numLoop : List Nat → List Nat × Option Nat × List Nat
  | [] => ([], none, [])
  | c :: r =>
    if isNumChar c then
      let x := numLoop r
      (c :: x.1, x.2)
    else ([], some c, r)

/-- What `parse_num` writes for `first` followed by the collected characters `buf`
(py-to-pickle.cpp 486-534): `is_float` depends on `buf` only.
`stod`: `std::stod` as IEEE bits, `none` if it throws. -/
def numCode (stod : List Nat → Option Nat) (first : Nat) (buf : List Nat) : Run (List Nat) :=
  if buf.any (fun c => c == 46) then
    match stod (first :: buf) with
    | none => .error .crash
    | some bits => .ok (floatCode bits)
  else
    match stol (first :: buf) with
    | none => .error .crash
    | some v => .ok (intCode v)

/-- `parse_num` (py-to-pickle.cpp 486-536): gives the character after the number. -/
def parseNum (stod : List Nat → Option Nat) (cap : Nat) (st : St) (first : Nat) : Run (Option Nat × St) :=
  match numLoop st.inp with
  | (buf, c, r) =>
    match numCode stod first buf with
    | .error e => .error e
    | .ok code => .ok (c, write cap { st with inp := r } code)

/-- `'o' == read_next_char() && 'n' == read_next_char() && ...`: reads until the first mismatch. -/
def expect : List Nat → St → Bool × St
  | [], st => (true, st)
  | c :: l, st =>
    match readChar st with
    | (none, st') => (false, st')
    | (some d, st') => if d == c then expect l st' else (false, st')

/-- `parse_none` (py-to-pickle.cpp 538-544). -/
def parseNone (cap : Nat) (st : St) : St :=
  match expect [111, 110, 101] st with
  | (true, st') => write cap st' [78]
  | (false, st') => parseError st'

/-- Local variables of `parse_dict_or_set` (py-to-pickle.cpp 362-366): `count`, `obj_type == Set`,
`cur == Key`, `start_out_pos`. -/
structure DSt where
  count : Nat
  isSet : Bool
  curKey : Bool
  start : Nat
deriving DecidableEq, Repr

/-- `writer->seek(start_out_pos); write_char(EMPTY_SET); writer->seek(cur_pos)`
(py-to-pickle.cpp 374-377). -/
def patch (cap : Nat) (st : St) (start : Nat) : St :=
  if start ≥ cap then { st with ovf := true }
  else { st with out := st.out.set start 0x8f }

/-- `make_set` (py-to-pickle.cpp 367-378). -/
def makeSet (cap : Nat) (st : St) (d : DSt) : St × DSt :=
  if d.count ≠ 1 then (parseError st, d)
  else (patch cap st d.start, { d with curKey := false, isSet := true })

/-- `if(count == 1) { make_set(); if(got_error) return; }` (py-to-pickle.cpp 386, 397): the flag says
whether to return. -/
def maybeSet (cap : Nat) (st : St) (d : DSt) : Bool × St × DSt :=
  if d.count = 1 then
    let x := makeSet cap st d
    (x.1.err, x)
  else (false, st, d)

/-- What `parse_dict_or_set` does next. -/
inductive Next where
  | cont (st : St) (d : DSt)
  | ret (st : St)

/-- The end of `parse_dict_or_set`, after the loop (py-to-pickle.cpp 402-403). -/
def dictEnd (cap : Nat) (st : St) (d : DSt) : St :=
  if !d.isSet && d.count % 2 != 0 then parseError st
  else write cap st [if d.isSet then 0x90 else 117]

/-- The loop body of `parse_dict_or_set` after the call of `parse` (py-to-pickle.cpp 384-400). -/
def dictStep (cap : Nat) (c : Option Nat) (st : St) (d : DSt) : Next :=
  match c with
  | some 44 =>
    match maybeSet cap st d with
    | (true, st, _) => .ret st
    | (false, st, d) =>
      if d.curKey then .ret (parseError st)
      else .cont st (if d.isSet then d else { d with curKey := true })
  | some 58 =>
    if !d.curKey then .ret (parseError st)
    else if d.isSet then .ret (parseError st)
    else .cont st { d with curKey := false }
  | some 125 =>
    match maybeSet cap st d with
    | (true, st, _) => .ret st
    | (false, st, d) => .ret (dictEnd cap st d)
  | _ => .ret (parseError st)

mutual

/-- `parse` (py-to-pickle.cpp 546-588); `had` is `had_one_item`, one step of the loop per recursive call.
Gives the next character, `had_one_item` and the state. -/
def parse (stod : List Nat → Option Nat) (cap : Nat) : Nat → Bool → St → Run (Option Nat × Bool × St)
  | 0, _, _ => .error .fuel
  | f + 1, had, st =>
    match st.inp with
    | [] => .ok (none, had, st)
    | c :: r =>
      let st := { st with inp := r }
      if isSpace c then parse stod cap f had st
      else if had then .ok (some c, had, st)
      else if c == 39 || c == 34 then parse stod cap f true (parseStr cap st c)
      else if c == 91 then
        match listLoop stod cap f (write cap (write cap st [93]) [40]) with
        | .error e => .error e
        | .ok st => parse stod cap f true st
      else if c == 123 then
        match dictLoop stod cap f (write cap (write cap st [125]) [40]) ⟨0, false, true, st.out.length⟩ with
        | .error e => .error e
        | .ok st => parse stod cap f true st
      else if isNumChar c then
        match parseNum stod cap st c with
        | .error e => .error e
        | .ok (none, st) => .ok (none, true, st)
        | .ok (some c, st) =>
          if isSpace c then parse stod cap f true st else .ok (some c, true, st)
      else if c == 78 then parse stod cap f true (parseNone cap st)
      else .ok (some c, false, st)

/-- The loop of `parse_list` and its end (py-to-pickle.cpp 351-359). -/
def listLoop (stod : List Nat → Option Nat) (cap : Nat) : Nat → St → Run St
  | 0, _ => .error .fuel
  | f + 1, st =>
    match parse stod cap f false st with
    | .error e => .error e
    | .ok (c, _, st) =>
      if c = some 44 then listLoop stod cap f st
      else if c = some 93 then .ok (write cap st [101])
      else .ok (parseError st)

/-- The loop of `parse_dict_or_set` (py-to-pickle.cpp 381-403). -/
def dictLoop (stod : List Nat → Option Nat) (cap : Nat) : Nat → St → DSt → Run St
  | 0, _, _ => .error .fuel
  | f + 1, st, d =>
    match parse stod cap f false st with
    | .error e => .error e
    | .ok (c, had, st) =>
      match dictStep cap c st { d with count := if had then d.count + 1 else d.count } with
      | .ret st => .ok st
      | .cont st d => dictLoop stod cap f st d

end

/-- The recursion bound of the model: every call of `parse` which does not end reads a character. -/
def fuel (inp : List Nat) : Nat := 2 * inp.length + 1

/-- `full_pass` (py-to-pickle.cpp 330-346). -/
def fullPass (stod : List Nat → Option Nat) (cap : Nat) (inp : List Nat) : Run St :=
  match parse stod cap (fuel inp) false (write cap (write cap ⟨inp, [], false, false⟩ [0x80]) [3]) with
  | .error e => .error e
  | .ok (_, had, st) => if !had then .ok (parseError st) else .ok (write cap st [46])

/-- `py_to_pickle` of the library (py-to-pickle.cpp 594-604): the return code and the written bytes. -/
def pyToPickleC (stod : List Nat → Option Nat) (inp : List Nat) (cap : Nat) : Run (Nat × List Nat) :=
  match fullPass stod cap inp with
  | .error e => .error e
  | .ok st => .ok (if st.err then 1 else if st.ovf then 2 else 0, st.out)

/-- `py_to_pickle` (literal_py_to_pickle.py 33-56): the whole output buffer (which is zero initialised).
A C++ exception terminates the process. -/
def pyToPickle (stod : List Nat → Option Nat) (inp : List Nat) : Res (List Nat) :=
  let outLen := inp.length + 1000
  match pyToPickleC stod inp outLen with
  | .error _ => .error (.other "terminated")
  | .ok (res, out) =>
    if res = 0 then .ok (out ++ List.replicate (outLen - out.length) 0) else .error .assertion

end Verif.PyPickle
