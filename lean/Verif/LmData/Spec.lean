import Verif.LmData.Model
/-
What `LmDataset` is about.
-/
namespace Verif.LmData
open Verif Verif.Py

/-- The lines of a text: everything up to each newline, and what comes behind the last one, if there is something. -/
inductive Lines : Text → List Text → Prop
  | nil : Lines [] []
  | last {l : Text} (h : 10 ∉ l) (hne : l ≠ []) : Lines l [l]
  | line {l r : Text} {ls : List Text} (h : 10 ∉ l) (hr : Lines r ls) : Lines (l ++ 10 :: r) (l :: ls)

/-- The finished lines of a text: without what comes behind the last newline. -/
inductive FinishedLines : Text → List Text → Prop
  | last {l : Text} (h : 10 ∉ l) : FinishedLines l []
  | line {l r : Text} {ls : List Text} (h : 10 ∉ l) (hr : FinishedLines r ls) : FinishedLines (l ++ 10 :: r) (l :: ls)

/-- The texts of a corpus file as it should be: the stripped lines, maybe without the blank ones. -/
inductive FileTexts (skip : Bool) : File → List Text → Prop
  | raw {c : Text} {ls : List Text} (h : Lines c ls) : FileTexts skip (.raw c) ((ls.map strip).filter (fun l => !(skip && l.isEmpty)))
  | gz {c : Text} {ls : List Text} (h : Lines c ls) : FileTexts skip (.gz c) ((ls.map strip).filter (fun l => !(skip && l.isEmpty)))
  | bliss {orths : List Text} : FileTexts skip (.bliss orths) (orths.map strip)

/-- The texts of a corpus file as it is: plain text files lose an unfinished last line, and only empty lines are skipped there, not blank ones. -/
inductive RealTexts (skip : Bool) : File → List Text → Prop
  | raw {c : Text} {ls : List Text} (h : FinishedLines c ls) : RealTexts skip (.raw c) ((ls.filter (fun l => !(skip && l.isEmpty))).map strip)
  | gz {c : Text} {ls : List Text} (h : Lines c ls) : RealTexts skip (.gz c) ((ls.map strip).filter (fun l => !(skip && l.isEmpty)))
  | bliss {orths : List Text} : RealTexts skip (.bliss orths) (orths.map strip)

/-- A blank line. -/
def blank (l : Text) : Prop := ∀ c ∈ l, isSpace c = true

/-- The symbols which stand for `l`: first the given replacements, then the unknown ones by `unk`. -/
def replaced (m0 : Dict Sym (List Sym)) (known : Sym → Bool) (unk : List Sym) (l : List Sym) : List Sym :=
  l.flatMap (fun s => ((m0.get? s).getD [s]).flatMap (fun r => if known r then [r] else unk))

/-- No two spaces next to each other. -/
def NoDouble (sp : Sym) : List Sym → Prop
  | a :: b :: t => ¬ (a = sp ∧ b = sp) ∧ NoDouble sp (b :: t)
  | _ => True

/-- `l'` is `l` with runs of spaces made shorter, and never empty. -/
inductive Collapsed (sp : Sym) : List Sym → List Sym → Prop
  | nil : Collapsed sp [] []
  | cons (a : Sym) {l l' : List Sym} (h : Collapsed sp l l') : Collapsed sp (a :: l) (a :: l')
  | drop {l l' : List Sym} (h : Collapsed sp (sp :: l) l') : Collapsed sp (sp :: sp :: l) l'

end Verif.LmData
