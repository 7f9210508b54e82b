import Verif.Util.Dict
/-
Model of the Sprint archive format: `returnn/sprint/cache.py` (`FileArchive`, `FileArchiveBundle`, the numbering of `AllophoneLabeling`).

Simplifications for the whole file:
* a file is the list of its bytes (natural numbers); native byte order is little endian;
* names are given by their encoded bytes (the encoding is injective, so names and bytes correspond);
* floating point values are their bit patterns;
* reading is a function of the rest of the file; `seek` gives the rest from there;
* compressed entries are not modelled (`array.tostring`, which the code calls for them, does not exist since Python 3.9);
* a failed write gives only the error, the file as it is then is not modelled.
-/
namespace Verif.SprintCache
open Verif Verif.Py

abbrev Bytes := List Nat

/-- `struct.error`. -/
def structError : Err := .other "struct.error"

/-- `k` bytes, little endian. -/
def le : Nat → Nat → Bytes
  | 0, _ => []
  | k + 1, n => n % 256 :: le k (n / 256)

/-- The number of little endian bytes. -/
def unle : Bytes → Nat
  | [] => 0
  | b :: t => b + 256 * unle t

/-! ## Reading -/

/-- A read: the value and the rest. -/
abbrev Rd (α : Type) := Bytes → Res (α × Bytes)

/-- `self.f.read(n)` followed by `unpack`, which needs all of them. -/
def readN (n : Nat) : Rd Bytes := fun f => if n ≤ f.length then .ok (f.take n, f.drop n) else .error structError

/-- `read_U32`. /repo/returnn/sprint/cache.py:55-59. -/
def readU32 : Rd Nat := fun f => do
  let (b, f) ← readN 4 f
  .ok (unle b, f)

/-- `read_u32`: signed. /repo/returnn/sprint/cache.py:49-53. -/
def readI32 : Rd Int := fun f => do
  let (b, f) ← readN 4 f
  .ok (if unle b < 2 ^ 31 then (unle b : Int) else (unle b : Int) - 2 ^ 32, f)

/-- `read_u64`: signed. /repo/returnn/sprint/cache.py:87-91. -/
def readI64 : Rd Int := fun f => do
  let (b, f) ← readN 8 f
  .ok (if unle b < 2 ^ 63 then (unle b : Int) else (unle b : Int) - 2 ^ 64, f)

/-- `read_U8`. /repo/returnn/sprint/cache.py:62-66. -/
def readU8 : Rd Nat := fun f => do
  let (b, f) ← readN 1 f
  .ok (unle b, f)

/-- `read_char`: signed. /repo/returnn/sprint/cache.py:93-97. -/
def readChar : Rd Int := fun f => do
  let (b, f) ← readN 1 f
  .ok (if unle b < 128 then (unle b : Int) else (unle b : Int) - 256, f)

/-- `read_str(length)`, `read_bytes(length)`; a negative length is a bad format. /repo/returnn/sprint/cache.py:99-113. -/
def readStr (n : Int) : Rd Bytes := fun f => if n < 0 then .error structError else readN n.toNat f

/-- `read_packed_U32`: seven bits per byte, with `fuel` for the recursion (more than there are bytes); `s` is the shift.
The `|=` is a sum, as the bits are disjoint. /repo/returnn/sprint/cache.py:69-85. -/
def readPackedLoop : Nat → Nat → Nat → Rd Nat
  | 0, _, _ => fun _ => .error structError
  | fuel + 1, s, result => fun f => do
    let (b, f) ← readU8 f
    if b / 128 % 2 = 0 then .ok (result + b * 2 ^ s, f)
    else readPackedLoop fuel (s + 7) (result + b % 128 * 2 ^ s) f

/-- `read_packed_U32`. /repo/returnn/sprint/cache.py:69-85. -/
def readPacked : Rd Nat := fun f => readPackedLoop (f.length + 1) 0 0 f

/-- `read_v(typ, size)` with `b` bytes per element. `numpy.fromfile` would give fewer elements at the end of the file instead of an error.
/repo/returnn/sprint/cache.py:131-153. -/
def readV (b : Nat) : Nat → Rd (List Nat)
  | 0 => fun f => .ok ([], f)
  | n + 1 => fun f => do
    let (x, f) ← readN b f
    let (xs, f) ← readV b n f
    .ok (unle x :: xs, f)

/-! ## Writing -/

/-- `write_u32`. /repo/returnn/sprint/cache.py:171-176. -/
def packI32 (n : Nat) : Res Bytes := if n < 2 ^ 31 then .ok (le 4 n) else .error structError

/-- `write_U32`. /repo/returnn/sprint/cache.py:179-184. -/
def packU32 (n : Nat) : Res Bytes := if n < 2 ^ 32 then .ok (le 4 n) else .error structError

/-- `write_u64`. /repo/returnn/sprint/cache.py:186-191. -/
def packI64 (n : Nat) : Res Bytes := if n < 2 ^ 63 then .ok (le 8 n) else .error structError

/-- `SprintCacheHeader`: `SP_ARC1\0`. /repo/returnn/sprint/cache.py:207. -/
def header : Bytes := [83, 80, 95, 65, 82, 67, 49, 0]

/-- /repo/returnn/sprint/cache.py:208. -/
def startTag : Nat := 0xAA55AA55

/-- /repo/returnn/sprint/cache.py:209. -/
def endTag : Nat := 0x55AA55AA

/-- `vector-f32`. -/
def vectorF32 : Bytes := [118, 101, 99, 116, 111, 114, 45, 102, 51, 50]

/-- `.attribs`. -/
def dotAttribs : Bytes := [46, 97, 116, 116, 114, 105, 98, 115]

/-- `FileInfo`. /repo/returnn/sprint/cache.py:21-42. -/
structure FileInfo where
  name : Bytes
  pos : Nat
  size : Nat
  compressed : Nat
  index : Nat
deriving DecidableEq, Repr

/-- A `FileArchive` which is written. -/
structure Writer where
  buf : Bytes
  ft : Dict Bytes FileInfo

/-- `FileArchive(filename, must_exists=False)` for a new file. /repo/returnn/sprint/cache.py:227-231. -/
def create : Writer := ⟨header ++ [1], []⟩

/-- One frame: the vector and the two times. /repo/returnn/sprint/cache.py:528-533. -/
def writeFrame (p : List Nat × Nat × Nat) : Res Bytes := do
  let l ← packI32 p.1.length
  .ok (l ++ p.1.flatMap (le 4) ++ le 8 p.2.1 ++ le 8 p.2.2)

/-- All frames. /repo/returnn/sprint/cache.py:528-533. -/
def writeFrames : List (List Nat × Nat × Nat) → Res Bytes
  | [] => .ok []
  | p :: t => do
    let a ← writeFrame p
    let b ← writeFrames t
    .ok (a ++ b)

/-- The size which is written for features. /repo/returnn/sprint/cache.py:513-519. -/
def featSize : List (List Nat) → Nat
  | [] => 4 + 10 + 4
  | f :: t => 4 + 10 + 4 + (t.length + 1) * (4 + f.length * 4 + 2 * 8)

/-- The lookup `times[-1]` for the duration. /repo/returnn/sprint/cache.py:516. -/
def lastTime (features : List (List Nat)) (times : List (Nat × Nat)) : Res Unit :=
  if features ≠ [] ∧ times = [] then .error .indexError else .ok ()

/-- `add_feature_cache` until the end tag. /repo/returnn/sprint/cache.py:501-536. -/
def addFeatures (name : Bytes) (features : List (List Nat)) (times : List (Nat × Nat)) (w : Writer) : Res Writer := do
  let s ← packU32 startTag
  let l ← packI32 name.length
  let pos := w.buf.length + (s ++ l ++ name).length
  let _ ← lastTime features times
  let size ← packI32 (featSize features)
  let ten ← packI32 10
  pyAssert (features.length == times.length)
  let n ← packI32 features.length
  let frames ← writeFrames (features.zip times)
  let e ← packU32 endTag
  .ok { buf := w.buf ++ (s ++ l ++ name) ++ (size ++ le 4 0 ++ le 4 0 ++ (ten ++ vectorF32 ++ n ++ frames)) ++ e,
        ft := w.ft.set name ⟨name, pos, featSize features, 0, w.ft.length⟩ }

/-- `add_attributes`, with the text of the attributes. /repo/returnn/sprint/cache.py:540-566. -/
def addAttributes (name : Bytes) (data : Bytes) (w : Writer) : Res Writer := do
  let s ← packU32 startTag
  let name := name ++ dotAttribs
  let l ← packI32 name.length
  let pos := w.buf.length + (s ++ l ++ name).length
  let size ← packI32 data.length
  let e ← packU32 endTag
  .ok { buf := w.buf ++ (s ++ l ++ name) ++ (size ++ le 4 0 ++ le 4 0 ++ data) ++ e,
        ft := w.ft.set name ⟨name, pos, data.length, 0, w.ft.length⟩ }

/-- `add_feature_cache`. The text of the attributes (dim and duration) is given. /repo/returnn/sprint/cache.py:501-538. -/
def addFeatureCache (name : Bytes) (features : List (List Nat)) (times : List (Nat × Nat)) (attribs : Bytes) (w : Writer) : Res Writer := do
  let w ← addFeatures name features times w
  addAttributes name attribs w

/-- One line of the table. /repo/returnn/sprint/cache.py:271-276. -/
def tableEntry (fi : FileInfo) : Res Bytes := do
  let l ← packI32 fi.name.length
  let p ← packI64 fi.pos
  let s ← packI32 fi.size
  let c ← packI32 fi.compressed
  .ok (l ++ fi.name ++ p ++ s ++ c)

/-- The lines of the table. -/
def tableEntries : List FileInfo → Res Bytes
  | [] => .ok []
  | fi :: t => do
    let a ← tableEntry fi
    let b ← tableEntries t
    .ok (a ++ b)

/-- `finalize`, `write_file_info_table`. /repo/returnn/sprint/cache.py:242-246, 264-279. -/
def finalize (w : Writer) : Res Bytes := do
  let n ← packI32 w.ft.length
  let t ← tableEntries w.ft.values
  let z ← packI64 0
  let p ← packI64 w.buf.length
  .ok (w.buf ++ (n ++ t ++ z ++ p))

/-! ## Opening -/

/-- A `FileArchive` which is read. -/
structure Archive where
  file : Bytes
  ft : Dict Bytes FileInfo
  short : Dict Bytes Bytes

/-- `seek(pos)`: a negative position is refused, one behind the end is fine. -/
def seek (file : Bytes) (pos : Int) : Res Bytes := if pos < 0 then .error (.other "OSError") else .ok (file.drop pos.toNat)

/-- The entries of the table. A negative size or position is kept as 0. /repo/returnn/sprint/cache.py:254-261. -/
def readTable : Nat → Nat → Dict Bytes FileInfo → Rd (Dict Bytes FileInfo)
  | 0, _, ft => fun f => .ok (ft, f)
  | n + 1, i, ft => fun f => do
    let (l, f) ← readI32 f
    let (name, f) ← readStr l f
    let (pos, f) ← readI64 f
    let (size, f) ← readI32 f
    let (comp, f) ← readI32 f
    readTable n (i + 1) (ft.set name ⟨name, pos.toNat, size.toNat, comp.toNat, i⟩) f

/-- `read_file_info_table`. /repo/returnn/sprint/cache.py:248-262. -/
def readFileInfoTable (file : Bytes) : Res (Dict Bytes FileInfo) := do
  if file.length < 8 then .error (.other "OSError")
  else do
    let (p, _) ← readI64 (file.drop (file.length - 8))
    let f ← seek file p
    let (n, f) ← readI32 f
    let (ft, _) ← readTable n.toNat 0 [] f
    .ok ft

/-- `scan_archive`; `fuel` for the recursion. Seeking over the content can go behind the end. /repo/returnn/sprint/cache.py:281-308. -/
def scanLoop (file : Bytes) : Nat → Nat → Nat → Dict Bytes FileInfo → Res (Dict Bytes FileInfo)
  | 0, _, _, ft => .ok ft
  | fuel + 1, pos, i, ft =>
    if file.length ≤ pos then .ok ft
    else do
      let (t, f) ← readU32 (file.drop pos)
      if t ≠ startTag then scanLoop file fuel (pos + 4) i ft
      else do
        let (l, f) ← readI32 f
        let (name, f) ← readStr l f
        let p := file.length - f.length
        let (size, f) ← readI32 f
        let (comp, f) ← readI32 f
        let (_, f) ← readI32 f
        let (_, f) ← readU32 (f.drop size.toNat)
        scanLoop file fuel (file.length - f.length) (i + 1) (ft.set name ⟨name, p, size.toNat, comp.toNat, i⟩)

/-- `scan_archive`. /repo/returnn/sprint/cache.py:281-308. -/
def scanArchive (file : Bytes) : Res (Dict Bytes FileInfo) := scanLoop file (file.length + 1) 0 0 []

/-- `os.path.basename`: what is behind the last `/`. -/
def basename (n : Bytes) : Bytes := (n.reverse.takeWhile (fun c => c ≠ 47)).reverse

/-- `_short_seg_names`. /repo/returnn/sprint/cache.py:233-236. -/
def shortNames (ft : Dict Bytes FileInfo) : Dict Bytes Bytes :=
  let d := ft.keys.foldl (fun d n => Dict.set d (basename n) n) []
  if d.length < ft.length then [] else d

/-- The table of contents. /repo/returnn/sprint/cache.py:221-225. -/
def loadFt (file : Bytes) (c : Int) : Res (Dict Bytes FileInfo) := if c ≠ 0 then readFileInfoTable file else scanArchive file

/-- `FileArchive(filename)` for an existing file. /repo/returnn/sprint/cache.py:211-236. -/
def openArchive (file : Bytes) : Res Archive := do
  let (h, f) ← readN 8 file
  pyAssert (h == header)
  let (c, _) ← readChar f
  let ft ← loadFt file c
  .ok ⟨file, ft, shortNames ft⟩

/-! ## Reading entries -/

/-- The frames of features. /repo/returnn/sprint/cache.py:340-345. -/
def readFrames : Nat → Rd (List (List Nat) × List (List Nat))
  | 0 => fun f => .ok (([], []), f)
  | n + 1 => fun f => do
    let (size, f) ← readU32 f
    let (x, f) ← readV 4 size f
    let (t, f) ← readV 8 2 f
    let ((ts, xs), f) ← readFrames n f
    .ok ((t :: ts, x :: xs), f)

/-- `_raw_read(typ="feat")`. /repo/returnn/sprint/cache.py:333-346. -/
def rawReadFeat : Rd (List (List Nat) × List (List Nat)) := fun f => do
  let (l, f) ← readU32 f
  let (ty, f) ← readStr l f
  pyAssert (ty == vectorF32)
  let (n, f) ← readU32 f
  readFrames n f

/-- The name of the entry. /repo/returnn/sprint/cache.py:432-434. -/
def Archive.resolve (a : Archive) (name : Bytes) : Bytes := if a.ft.contains name then name else (a.short.get? name).getD name

/-- `read` until the content: `None` for an empty entry. /repo/returnn/sprint/cache.py:432-442. -/
def Archive.content (a : Archive) (name : Bytes) : Res (Option (FileInfo × Bytes)) := do
  let fi ← a.ft.getItem (a.resolve name)
  let (size, f) ← readU32 (a.file.drop fi.pos)
  let (comp, f) ← readU32 f
  let (_, f) ← readU32 f
  if size = 0 then .ok none
  else if comp > 0 then .error (.other "AttributeError")
  else .ok (some (fi, f))

/-- The content as features. -/
def featOf : Option (FileInfo × Bytes) → Res (Option (List (List Nat) × List (List Nat)))
  | none => .ok none
  | some (_, f) => do
    let (r, _) ← rawReadFeat f
    .ok (some r)

/-- `read(filename, "feat")`. /repo/returnn/sprint/cache.py:418-462. -/
def Archive.readFeat (a : Archive) (name : Bytes) : Res (Option (List (List Nat) × List (List Nat))) := do
  let c ← a.content name
  featOf c

/-- The content as a string. -/
def strOf : Option (FileInfo × Bytes) → Res (Option Bytes)
  | none => .ok none
  | some (fi, f) => do
    let (r, _) ← readStr fi.size f
    .ok (some r)

/-- `read(filename, "str")`. /repo/returnn/sprint/cache.py:418-462. -/
def Archive.readStrEntry (a : Archive) (name : Bytes) : Res (Option Bytes) := do
  let c ← a.content name
  strOf c

/-! ## Alignments -/

/-- The loop of `get_state`: the remaining states and the current one. /repo/returnn/sprint/cache.py:472-479. -/
def stateLoop (n : Nat) : Nat → Nat → Int → Int × Nat
  | 0, s, mix => (mix, s - 1)
  | k + 1, s, mix => if mix ≥ n then stateLoop n k (s + 1) (mix - 2 ^ 26) else (mix, s)

/-- `get_state(mix)` with `n` allophones. /repo/returnn/sprint/cache.py:464-481. -/
def getState (n : Nat) (mix : Int) : Res (Int × Nat) := do
  pyAssert (n != 0)
  let r := stateLoop n 6 0 mix
  pyAssert (decide (r.1 ≥ 0))
  .ok r

/-- `n` different items of the RLE scheme. /repo/returnn/sprint/cache.py:366-375. -/
def readLits : Nat → Rd (List Int)
  | 0 => fun f => .ok ([], f)
  | n + 1 => fun f => do
    let (x, f) ← readI32 f
    let (xs, f) ← readLits n f
    .ok (x :: xs, f)

/-- Items at successive times. -/
def stamp (t : Int) (xs : List Int) : List (Int × Int) := xs.mapIdx (fun i x => (t + i, x))

/-- The RLE scheme of `_raw_read(typ="align_raw")`; `fuel` for the recursion. /repo/returnn/sprint/cache.py:357-389. -/
def rleLoop (size : Nat) : Nat → Int → List (Int × Int) → Rd (List (Int × Int))
  | 0, _, _ => fun _ => .error structError
  | fuel + 1, t, out => fun f =>
    if size ≤ out.length then .ok (out, f)
    else do
      let (n, f) ← readChar f
      if n > 0 then do
        let (xs, f) ← readLits n.toNat f
        rleLoop size fuel (t + n) (out ++ stamp t xs) f
      else if n < 0 then do
        let (x, f) ← readI32 f
        rleLoop size fuel (t - n) (out ++ stamp t (List.replicate (-n).toNat x)) f
      else do
        let (t, f) ← readI32 f
        rleLoop size fuel t out f

/-- The items of one frame of the weighted scheme. `num_items /= 2` is a true division; `m` is twice the number of remaining items.
Version 2: the weight is a float. /repo/returnn/sprint/cache.py:403-416. -/
def readItems : Nat → Rd (List (Nat × Nat))
  | 0 => fun f => .ok ([], f)
  | 1 => fun f => do
    let (e, f) ← readPacked f
    let (w, f) ← readU32 f
    .ok ([(e, w)], f)
  | m + 2 => fun f => do
    let (e, f) ← readPacked f
    let (w, f) ← readU32 f
    let (xs, f) ← readItems m f
    .ok ((e, w) :: xs, f)

/-- The time of a frame. /repo/returnn/sprint/cache.py:400-401. -/
def readTime (m : Nat) (t : Nat) : Rd Nat := fun f => if m % 2 = 1 then readPacked f else .ok (t, f)

/-- The weighted RLE scheme, without the split into allophone and state. /repo/returnn/sprint/cache.py:390-417. -/
def weightedLoop (size : Nat) : Nat → Nat → List (Nat × Nat × Nat) → Rd (List (Nat × Nat × Nat))
  | 0, _, _ => fun _ => .error structError
  | fuel + 1, t, out => fun f =>
    if size ≤ out.length then .ok (out, f)
    else do
      let (m, f) ← readPacked f
      let (t, f) ← readTime m t f
      let (xs, f) ← readItems m f
      weightedLoop size fuel (t + 1) (out ++ xs.map (fun x => (t, x.1, x.2))) f

/-- The alignment behind the header. `.inl`: RLE, `.inr`: weighted. /repo/returnn/sprint/cache.py:354-417. -/
def readAlign : Rd (List (Int × Int) ⊕ List (Nat × Nat × Nat)) := fun f => do
  let (size, f) ← readU32 f
  if size < 2 ^ 31 then do
    let (a, f) ← rleLoop size (f.length + 1) 0 [] f
    .ok (.inl a, f)
  else do
    pyAssert (decide (size - 2 ^ 31 ≤ 2))
    let (size, f) ← readPacked f
    let (a, f) ← weightedLoop size (f.length + 1) 0 [] f
    .ok (.inr a, f)

/-! ## Bundles and allophones -/

/-- `FileArchiveBundle`: content file to the number of its archive. -/
structure Bundle where
  archives : List Archive
  files : Dict Bytes Nat
  short : Dict Bytes Bytes

/-- `add_archive`, for an archive which was not there yet. /repo/returnn/sprint/cache.py:596-609. -/
def Bundle.add (b : Bundle) (a : Archive) : Bundle :=
  { archives := b.archives ++ [a],
    files := a.ft.keys.foldl (fun d n => Dict.set d n b.archives.length) b.files,
    short := a.short.foldl (fun d p => Dict.set d p.1 p.2) b.short }

/-- `FileArchiveBundle.read`: the archive and the name in it. /repo/returnn/sprint/cache.py:650-653. -/
def Bundle.find (b : Bundle) (name : Bytes) : Res (Nat × Bytes) := do
  let n := if b.files.contains name then name else (b.short.get? name).getD name
  let i ← b.files.getItem n
  .ok (i, n)

/-- `line.strip()` on spaces and tabs. -/
def strip (l : Bytes) : Bytes :=
  let p := fun c => c == 32 || c == 9
  (((l.dropWhile p).reverse).dropWhile p).reverse

/-- `FileArchive.set_allophones`. /repo/returnn/sprint/cache.py:483-493. -/
def archiveAllophones (lines : List Bytes) : List Bytes := (lines.map strip).filter (fun l => l.head? != some 35)

/-- `AllophoneLabeling.__init__`. /repo/returnn/sprint/cache.py:723. -/
def labelingAllophones (lines : List Bytes) : List Bytes := lines.filter (fun l => l != [] && l.head? != some 35)

/-- One label of the table. /repo/returnn/sprint/cache.py:753-757. -/
def tyingSet (tying : Bytes → Nat → Option Nat) (name : Bytes) (a : Nat) (d : Dict Nat Nat) (s : Nat) : Dict Nat Nat :=
  match tying name s with
  | some l => Dict.set d (a + s * 2 ^ 26) l
  | none => d

/-- `state_tying_by_allo_state_idx`; `tying` gives the label of an allophone and a state. /repo/returnn/sprint/cache.py:752-757. -/
def tyingDict (allophones : List Bytes) (tying : Bytes → Nat → Option Nat) (numStates : Nat) : Dict Nat Nat :=
  (allophones.mapIdx (fun a n => (a, n))).foldl (fun d p => (List.range numStates).foldl (tyingSet tying p.2 p.1) d) []

end Verif.SprintCache
