import Verif.MetaDs.Model
/-
Specification of `MetaDataset`: what it means that a loaded sequence is made of sequences which belong together.
-/
namespace Verif.MetaDs.Spec
open Verif.MetaDs

/-- There is one line `j` of the sequence lists such that the tag is the one of the default dataset in this line, and the
data of every sub-dataset is what this sub-dataset has at this index under the tag of its own list in this line. -/
def Aligned {T D : Type} (orig : List (List T)) (dflt : Nat) (subs : List (Sub T D)) (x : Seq T D) : Prop :=
  ∃ j : Nat, (orig.getD dflt [])[j]? = some x.tag ∧ x.data.length = subs.length ∧
    ∀ (d : Nat) (b : Sub T D), subs[d]? = some b → ∃ (t : T) (v : D), b.cur[x.idx]? = some (t, v) ∧ x.data[d]? = some v ∧ (orig.getD d [])[j]? = some t

/-- The sub-datasets do what they are asked for: they give the sequences of a list of tags in its order, and the order of
the control dataset is with respect to its list of tags. -/
def Obey {T D : Type} (c : Config T D) : Prop :=
  (∀ d e l, (c.react d e (some l)).map Prod.fst = l) ∧
  (∀ e, (c.react c.dflt e none).map (fun p => some p.1) = (c.ctrlOrder e).map (fun i => (c.orig.getD c.dflt [])[i]?))

end Verif.MetaDs.Spec
