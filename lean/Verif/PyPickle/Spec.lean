import Verif.PyPickle.Model
/-
What the converter is measured against: Python values, Python's `pickle.loads` (for the opcodes which occur),
and the texts of Python literals with their values.  Nothing here depends on how the C++ code parses.
-/
namespace Verif.PyPickle

/-! ### Python values -/

/-- Python objects.  `float`: the 64 IEEE bits.  `str`: the code points.  `dict`: the assignments `d[k] = v`
which built it, in order.  `set`: the `add` calls, in order. -/
inductive Value where
  | none
  | int (i : Int)
  | float (bits : Nat)
  | str (cps : List Nat)
  | list (l : List Value)
  | dict (l : List (Value × Value))
  | set (l : List Value)

/-- Can be a key of a dict or a member of a set. -/
def Value.hashable : Value → Bool
  | .none | .int _ | .float _ | .str _ => true
  | .list _ | .dict _ | .set _ => false

/-! ### `pickle.loads` -/

/-- Exceptions of `pickle.loads`. -/
inductive PErr where
  | unicode     -- UnicodeDecodeError
  | unhashable  -- TypeError
  | malformed   -- EOFError, UnpicklingError, IndexError, KeyError, ...
deriving DecidableEq, Repr

/-- A continuation byte of UTF-8. -/
def isCont (b : Nat) : Bool := 0x80 ≤ b && b < 0xC0

/-- `bytes.decode("utf-8", "surrogatepass")`: shortest form only, code points up to `0x10FFFF`. -/
def utf8Decode : List Nat → Option (List Nat)
  | [] => some []
  | b0 :: r =>
    if b0 < 0x80 then (utf8Decode r).map (b0 :: ·)
    else
      match r with
      | [] => none
      | b1 :: r1 =>
        if 0xC0 ≤ b0 && b0 < 0xE0 then
          let u := (b0 - 0xC0) * 64 + (b1 - 0x80)
          if isCont b1 && 0x80 ≤ u then (utf8Decode r1).map (u :: ·) else none
        else
          match r1 with
          | [] => none
          | b2 :: r2 =>
            if 0xE0 ≤ b0 && b0 < 0xF0 then
              let u := (b0 - 0xE0) * 4096 + (b1 - 0x80) * 64 + (b2 - 0x80)
              if isCont b1 && isCont b2 && 0x800 ≤ u then (utf8Decode r2).map (u :: ·) else none
            else
              match r2 with
              | [] => none
              | b3 :: r3 =>
                let u := (b0 - 0xF0) * 262144 + (b1 - 0x80) * 4096 + (b2 - 0x80) * 64 + (b3 - 0x80)
                if 0xF0 ≤ b0 && b0 < 0xF8 && isCont b1 && isCont b2 && isCont b3
                    && 0x10000 ≤ u && u ≤ 0x10FFFF then (utf8Decode r3).map (u :: ·) else none

/-- Little endian number. -/
def leVal : List Nat → Nat
  | [] => 0
  | b :: l => b + 256 * leVal l

/-- `struct.unpack("<i")`. -/
def leInt32 (bs : List Nat) : Int := if leVal bs < 2 ^ 31 then leVal bs else (leVal bs : Int) - 2 ^ 32

/-- Read exactly `n` bytes. -/
def readN (n : Nat) (inp : List Nat) : Option (List Nat × List Nat) :=
  if inp.length < n then .none else some (inp.take n, inp.drop n)

/-- `for i in range(0, len(items), 2): items[i], items[i + 1]`. -/
def pairs : List Value → Option (List (Value × Value))
  | [] => some []
  | [_] => .none
  | k :: v :: r => (pairs r).map ((k, v) :: ·)

/-- State of the unpickler: the stack (top first) and the metastack. -/
structure PSt where
  inp : List Nat
  stack : List Value
  marks : List (List Value)

/-- Push the string whose length is given by the `n` bytes which follow. -/
def loadStr (n : Nat) (s : PSt) : Except PErr PSt :=
  match readN n s.inp with
  | .none => .error .malformed
  | some (h, r) =>
    match readN (leVal h) r with
    | .none => .error .malformed
    | some (b, r) =>
      match utf8Decode b with
      | .none => .error .unicode
      | some cps => .ok { s with inp := r, stack := .str cps :: s.stack }

/-- Push the value which `f` makes of the `n` bytes which follow. -/
def loadNum (n : Nat) (f : List Nat → Value) (s : PSt) : Except PErr PSt :=
  match readN n s.inp with
  | .none => .error .malformed
  | some (b, r) => .ok { s with inp := r, stack := f b :: s.stack }

/-- `APPENDS`, `SETITEMS`, `ADDITEMS`: the items since the mark are added to the object below. -/
def loadItems (op : Nat) (s : PSt) : Except PErr PSt :=
  match s.marks with
  | [] => .error .malformed
  | below :: m =>
    let items := s.stack.reverse
    match below with
    | .list l :: st => if op = 101 then .ok ⟨s.inp, .list (l ++ items) :: st, m⟩ else .error .malformed
    | .dict l :: st =>
      if op = 117 then
        match pairs items with
        | .none => .error .malformed
        | some ps =>
          if ps.all (fun p => p.1.hashable) then .ok ⟨s.inp, .dict (l ++ ps) :: st, m⟩
          else .error .unhashable
      else .error .malformed
    | .set l :: st =>
      if op = 0x90 then
        if items.all Value.hashable then .ok ⟨s.inp, .set (l ++ items) :: st, m⟩ else .error .unhashable
      else .error .malformed
    | _ => .error .malformed

/-- One opcode (`STOP` excluded). -/
def pickleOp (op : Nat) (s : PSt) : Except PErr PSt :=
  if op = 0x80 then loadProto s
  else if op = 40 then .ok { s with stack := [], marks := s.stack :: s.marks }
  else if op = 78 then .ok { s with stack := .none :: s.stack }
  else if op = 93 then .ok { s with stack := .list [] :: s.stack }
  else if op = 125 then .ok { s with stack := .dict [] :: s.stack }
  else if op = 0x8f then .ok { s with stack := .set [] :: s.stack }
  else if op = 75 then loadNum 1 (fun b => .int (leVal b)) s
  else if op = 77 then loadNum 2 (fun b => .int (leVal b)) s
  else if op = 74 then loadNum 4 (fun b => .int (leInt32 b)) s
  else if op = 71 then loadNum 8 (fun b => .float (leVal b.reverse)) s
  else if op = 0x8c then loadStr 1 s
  else if op = 88 then loadStr 4 s
  else if op = 0x8d then loadStr 8 s
  else if op = 101 ∨ op = 117 ∨ op = 0x90 then loadItems op s
  else .error .malformed
where
  /-- `PROTO`: protocols up to 5 are accepted. -/
  loadProto (s : PSt) : Except PErr PSt :=
    match s.inp with
    | [] => .error .malformed
    | p :: r => if p ≤ 5 then .ok { s with inp := r } else .error .malformed

/-- The loop of `pickle.loads`: one opcode per step; at most as many steps as there are bytes. -/
def pickleRun : Nat → PSt → Except PErr Value
  | 0, _ => .error .malformed
  | f + 1, s =>
    match s.inp with
    | [] => .error .malformed
    | op :: r =>
      if op = 46 then
        match s.stack with
        | [] => .error .malformed
        | v :: _ => .ok v
      else
        match pickleOp op { s with inp := r } with
        | .error e => .error e
        | .ok s => pickleRun f s

/-- `pickle.loads`. -/
def loads (b : List Nat) : Except PErr Value := pickleRun (b.length + 1) ⟨b, [], []⟩

/-! ### Texts of Python literals -/

/-- White space between the tokens of a Python expression in brackets. -/
def Ws (w : List Nat) : Prop := ∀ c ∈ w, c = 9 ∨ c = 10 ∨ c = 12 ∨ c = 13 ∨ c = 32

/-- One piece of a string literal: a character which stands for itself, or an escape sequence.
`hex k n cp`: the letter `x`, `u` or `U` with `n` hex digits. -/
inductive Piece where
  | raw (cp : Nat)
  | esc (letter : Nat)
  | hex (letter n cp : Nat)
deriving DecidableEq, Repr

/-- The lower case hex digit of `d < 16`. -/
def hexDigit (d : Nat) : Nat := if d < 10 then 48 + d else 87 + d

/-- `cp` with `n` hex digits. -/
def hexText : Nat → Nat → List Nat
  | 0, _ => []
  | n + 1, cp => hexText n (cp / 16) ++ [hexDigit (cp % 16)]

/-- UTF-8 of a code point. -/
def utf8 (cp : Nat) : List Nat :=
  if cp < 0x80 then [cp]
  else if cp < 0x800 then [0xC0 + cp / 64, 0x80 + cp % 64]
  else if cp < 0x10000 then [0xE0 + cp / 4096, 0x80 + cp / 64 % 64, 0x80 + cp % 64]
  else [0xF0 + cp / 262144, 0x80 + cp / 4096 % 64, 0x80 + cp / 64 % 64, 0x80 + cp % 64]

/-- The bytes of a piece in the UTF-8 source text. -/
def Piece.text : Piece → List Nat
  | .raw cp => utf8 cp
  | .esc l => [92, l]
  | .hex l n cp => 92 :: l :: hexText n cp

/-- The code point which a piece stands for in Python. -/
def Piece.cp : Piece → Nat
  | .raw cp => cp
  | .esc l => if l = 110 then 10 else if l = 114 then 13 else if l = 116 then 9 else l
  | .hex _ _ cp => cp

/-- The pieces of a string in quotes `q` which Python knows and the converter supports:
characters except the quote, the backslash and line ends; `\n \r \t \\ \' \"`;
`\xhh`, `\uhhhh` and `\Uhhhhhhhh` with lower case digits. -/
def Piece.ok (q : Nat) : Piece → Prop
  | .raw cp => cp ≤ 0x10FFFF ∧ cp ≠ q ∧ cp ≠ 92 ∧ cp ≠ 10 ∧ cp ≠ 13
  | .esc l => l = 110 ∨ l = 114 ∨ l = 116 ∨ l = 92 ∨ l = 39 ∨ l = 34
  | .hex l n cp => cp ≤ 0x10FFFF ∧ ((l = 120 ∧ n = 2 ∧ cp < 0x100) ∨ (l = 117 ∧ n = 4 ∧ cp < 0x10000)
      ∨ (l = 85 ∧ n = 8))

mutual

/-- Concrete syntax of a literal.  `int`/`float`: the sign character, if any, the digits before and after
the point. `str`: the quote character. -/
inductive Cst where
  | none
  | int (sign : Option Nat) (ds : List Nat)
  | float (sign : Option Nat) (ip fp : List Nat)
  | str (quote : Nat) (ps : List Piece)
  | list (items : Items)
  | set (items : Items)
  | dict (items : DItems)

/-- Between `[` and `]`, or `{` and `}` of a set: items separated by commas, white space around them, possibly
a comma after the last one. -/
inductive Items where
  | nil (w : List Nat)
  | last (w₁ : List Nat) (c : Cst) (w₂ : List Nat)
  | more (w₁ : List Nat) (c : Cst) (w₂ : List Nat) (rest : Items)

/-- Between `{` and `}` of a dict. -/
inductive DItems where
  | nil (w : List Nat)
  | last (w₁ : List Nat) (k : Cst) (w₂ w₃ : List Nat) (v : Cst) (w₄ : List Nat)
  | more (w₁ : List Nat) (k : Cst) (w₂ w₃ : List Nat) (v : Cst) (w₄ : List Nat) (rest : DItems)

end

mutual

/-- The text of a literal. -/
def Cst.text : Cst → List Nat
  | .none => [78, 111, 110, 101]
  | .int s ds => s.toList ++ ds
  | .float s ip fp => s.toList ++ ip ++ [46] ++ fp
  | .str q ps => [q] ++ ps.flatMap Piece.text ++ [q]
  | .list items => [91] ++ items.text ++ [93]
  | .set items => [123] ++ items.text ++ [125]
  | .dict items => [123] ++ items.text ++ [125]

def Items.text : Items → List Nat
  | .nil w => w
  | .last w₁ c w₂ => w₁ ++ c.text ++ w₂
  | .more w₁ c w₂ rest => w₁ ++ c.text ++ w₂ ++ [44] ++ rest.text

def DItems.text : DItems → List Nat
  | .nil w => w
  | .last w₁ k w₂ w₃ v w₄ => w₁ ++ k.text ++ w₂ ++ [58] ++ w₃ ++ v.text ++ w₄
  | .more w₁ k w₂ w₃ v w₄ rest => w₁ ++ k.text ++ w₂ ++ [58] ++ w₃ ++ v.text ++ w₄ ++ [44] ++ rest.text

end

/-- The number of the digits (most significant first) after a sign. -/
def intVal (s : Option Nat) (ds : List Nat) : Int :=
  if s = some 45 then -(digitsNum ds : Int) else digitsNum ds
where
  /-- Decimal number. -/
  digitsNum : List Nat → Nat
    | [] => 0
    | d :: r => (d - 48) * 10 ^ r.length + digitsNum r

mutual

/-- The value of a literal, where `num` is applied to every integer.  The value of a float literal is what the
C library's `strtod` gives. -/
def Cst.valueWith (stod : List Nat → Option Nat) (num : Int → Int) : Cst → Value
  | .none => .none
  | .int s ds => .int (num (intVal s ds))
  | .float s ip fp => .float ((stod (s.toList ++ ip ++ [46] ++ fp)).getD 0)
  | .str _ ps => .str (ps.map Piece.cp)
  | .list items => .list (items.valuesWith stod num)
  | .set items => .set (items.valuesWith stod num)
  | .dict items => .dict (items.pairsWith stod num)

def Items.valuesWith (stod : List Nat → Option Nat) (num : Int → Int) : Items → List Value
  | .nil _ => []
  | .last _ c _ => [c.valueWith stod num]
  | .more _ c _ rest => c.valueWith stod num :: rest.valuesWith stod num

def DItems.pairsWith (stod : List Nat → Option Nat) (num : Int → Int) : DItems → List (Value × Value)
  | .nil _ => []
  | .last _ k _ _ v _ => [(k.valueWith stod num, v.valueWith stod num)]
  | .more _ k _ _ v _ rest =>
    (k.valueWith stod num, v.valueWith stod num) :: rest.pairsWith stod num

end

/-- The Python value of a literal. -/
def Cst.value (stod : List Nat → Option Nat) (c : Cst) : Value := c.valueWith stod id

/-- Literals which can be keys of a dict or members of a set. -/
def Cst.hashable : Cst → Prop
  | .none | .int _ _ | .float _ _ _ | .str _ _ => True
  | .list _ | .set _ | .dict _ => False

/-- A sign character or none. -/
def SignOk (s : Option Nat) : Prop := s = .none ∨ s = some 43 ∨ s = some 45

/-- Decimal digits. -/
def Digits (ds : List Nat) : Prop := ∀ d ∈ ds, 48 ≤ d ∧ d ≤ 57

/-- Items with at least one member (a set without members has no literal). -/
def Items.nonempty : Items → Prop
  | .nil _ => False
  | _ => True

mutual

/-- Literals of the supported kind.  Integers fit into 64 bits.  A float has a digit, does not begin with the
point, has no exponent, and `strtod` does not report a range error.  Keys and members of sets are hashable. -/
def Cst.ok (stod : List Nat → Option Nat) : Cst → Prop
  | .none => True
  | .int s ds => SignOk s ∧ ds ≠ [] ∧ Digits ds ∧ -(2 : Int) ^ 63 ≤ intVal s ds ∧ intVal s ds < (2 : Int) ^ 63
  | .float s ip fp => SignOk s ∧ Digits ip ∧ Digits fp ∧ (ip ≠ [] ∨ (s ≠ .none ∧ fp ≠ []))
      ∧ (stod (s.toList ++ ip ++ [46] ++ fp)).isSome
  | .str q ps => (q = 39 ∨ q = 34) ∧ ∀ p ∈ ps, p.ok q
  | .list items => items.ok stod
  | .set items => items.ok stod ∧ items.nonempty ∧ items.hashable
  | .dict items => items.ok stod

def Items.ok (stod : List Nat → Option Nat) : Items → Prop
  | .nil w => Ws w
  | .last w₁ c w₂ => Ws w₁ ∧ c.ok stod ∧ Ws w₂
  | .more w₁ c w₂ rest => Ws w₁ ∧ c.ok stod ∧ Ws w₂ ∧ rest.ok stod

def Items.hashable : Items → Prop
  | .nil _ => True
  | .last _ c _ => c.hashable
  | .more _ c _ rest => c.hashable ∧ rest.hashable

def DItems.ok (stod : List Nat → Option Nat) : DItems → Prop
  | .nil w => Ws w
  | .last w₁ k w₂ w₃ v w₄ => Ws w₁ ∧ k.ok stod ∧ k.hashable ∧ Ws w₂ ∧ Ws w₃ ∧ v.ok stod ∧ Ws w₄
  | .more w₁ k w₂ w₃ v w₄ rest =>
    Ws w₁ ∧ k.ok stod ∧ k.hashable ∧ Ws w₂ ∧ Ws w₃ ∧ v.ok stod ∧ Ws w₄ ∧ rest.ok stod

end

mutual

/-- Every integer of the literal satisfies `P`. -/
def Cst.allInt (P : Int → Prop) : Cst → Prop
  | .none | .float _ _ _ | .str _ _ => True
  | .int s ds => P (intVal s ds)
  | .list items => items.allInt P
  | .set items => items.allInt P
  | .dict items => items.allInt P

def Items.allInt (P : Int → Prop) : Items → Prop
  | .nil _ => True
  | .last _ c _ => c.allInt P
  | .more _ c _ rest => c.allInt P ∧ rest.allInt P

def DItems.allInt (P : Int → Prop) : DItems → Prop
  | .nil _ => True
  | .last _ k _ _ v _ => k.allInt P ∧ v.allInt P
  | .more _ k _ _ v _ rest => k.allInt P ∧ v.allInt P ∧ rest.allInt P

end

/-- The integers which survive: 32 bits, signed. -/
def Int32 (i : Int) : Prop := -(2 : Int) ^ 31 ≤ i ∧ i < (2 : Int) ^ 31

/-- `i` reduced to 32 bits, signed. -/
def wrap32 (i : Int) : Int := (i + 2 ^ 31) % 2 ^ 32 - 2 ^ 31

/-- The size of the pickle of a value (without header and `STOP`), as bytes of the standard opcodes. -/
def strSize (n : Nat) : Nat := if n ≤ 0xff then 2 + n else if n ≤ 0xffffffff then 5 + n else 9 + n

def intSize (i : Int) : Nat := if 0 ≤ i ∧ i < 256 then 2 else if 0 ≤ i ∧ i < 65536 then 3 else 5

mutual

/-- The number of bytes which the value of a literal needs in the pickle. -/
def Cst.size : Cst → Nat
  | .none => 1
  | .int s ds => intSize (wrap32 (intVal s ds))
  | .float _ _ _ => 9
  | .str _ ps => strSize (ps.flatMap (fun p => utf8 p.cp)).length
  | .list items => 3 + items.size
  | .set items => 3 + items.size
  | .dict items => 3 + items.size

def Items.size : Items → Nat
  | .nil _ => 0
  | .last _ c _ => c.size
  | .more _ c _ rest => c.size + rest.size

def DItems.size : DItems → Nat
  | .nil _ => 0
  | .last _ k _ _ v _ => k.size + v.size
  | .more _ k _ _ v _ rest => k.size + v.size + rest.size

end

end Verif.PyPickle
