import Verif.Util.Dict
/-
Model of `PrefixTree`, `CharSyncSearch`, `DepthFirstSearch`, `SamplingBytePairEncoder` in `returnn/util/bpe.py:231-516`.

Simplifications: strings are lists of characters; a node of the tree is its list of arcs from the root, and the
attributes of the nodes are sets of nodes; the position in the word is given by the rest of the word; the sampler is
any function of the number of calls; the sentence is given as list of words.
-/
namespace Verif.BpeTree
open Verif.Py

abbrev Str := List Char

/-- bpe.py:231-238 `BpeOpts`. -/
structure Opts where
  merge : Option Str := none
  wordPrefix : Option Str := none

/-- A node: its arcs from the root. -/
abbrev Path := List Str

/-- bpe.py:241-255 `PrefixTree`: all nodes but the root, the ones with `finished`, the ones with `bpe_finished`. -/
structure Tree where
  nodes : List Path := []
  finished : List Path := []
  bpeFinished : List Path := []

/-- bpe.py:265-270: the next arc. -/
def arcFor (opts : Opts) (root : Bool) (s : Str) : Str :=
  match opts.wordPrefix with
  | some wp => if root = true ∧ wp ≠ [] ∧ wp.isPrefixOf s = true then wp
    else if opts.merge = some s then s else s.take 1
  | none => if opts.merge = some s then s else s.take 1

/-- bpe.py:257-283 the loop of `add` (every round takes at least one character, or it is the last one). -/
def addLoop (opts : Opts) : Nat → Tree → Path → Str → Tree
  | 0, t, _, _ => t
  | fuel + 1, t, p, s =>
    let arc := arcFor opts p.isEmpty s
    let rest := s.drop arc.length
    let child := p ++ [arc]
    let t := if t.nodes.contains child then t else { t with nodes := child :: t.nodes }
    let t := if opts.merge = some arc ∧ rest = [] then { t with bpeFinished := p :: t.bpeFinished } else t
    if rest = [] then { t with finished := child :: t.finished } else addLoop opts fuel t child rest

/-- bpe.py:257-283 `add`. -/
def add (opts : Opts) (t : Tree) (label : Str) : Tree := addLoop opts (label.length + 1) t [] label

/-- bpe.py:484-488: the tree of all labels. -/
def build (opts : Opts) (labels : List Str) : Tree := labels.foldl (add opts) {}

/-- bpe.py:365-373 `HypInPos` (and 286-293 `Hyp`). -/
structure Hyp where
  history : List Str
  node : Path
  rest : Str

/-- bpe.py:393-398, 311-316: the node to start from. -/
def startNode (opts : Opts) (t : Tree) : Res Path :=
  match opts.wordPrefix with
  | none => .ok []
  | some wp => if t.nodes.contains [wp] then .ok [wp] else .error .keyError

/-- bpe.py:411-436 (and 332-351): the next hypotheses, in order. -/
def nextHyps (opts : Opts) (t : Tree) (h : Hyp) : List Hyp :=
  match h.rest with
  | [] => []
  | char :: rest =>
    (if t.bpeFinished.contains h.node ∧ t.nodes.contains [[char]] then
      [⟨h.history ++ [h.node.flatten ++ opts.merge.getD []], [[char]], rest⟩] else []) ++
    (if opts.wordPrefix ≠ none ∧ t.finished.contains h.node ∧ t.nodes.contains [[char]] then
      [⟨h.history ++ [h.node.flatten], [[char]], rest⟩] else []) ++
    (if t.nodes.contains (h.node ++ [[char]]) then [⟨h.history, h.node ++ [[char]], rest⟩] else [])

/-- bpe.py:376-392 the state of `DepthFirstSearch`; the first hypothesis here is the last one of the list. -/
structure Dfs where
  hyps : List Hyp := []
  final : Option (List Str) := none

/-- bpe.py:401-406 `_add_hyp`. -/
def addHyp (t : Tree) (d : Dfs) (h : Hyp) : Dfs :=
  match h.rest with
  | [] => if t.finished.contains h.node then { d with final := some (h.history ++ [h.node.flatten]) } else d
  | _ :: _ => { d with hyps := h :: d.hyps }

/-- bpe.py:440-443: the new hypotheses, reversed or not, are added. -/
def addNew (t : Tree) (d : Dfs) (sample : Bool) (new : List Hyp) : Dfs :=
  (if sample then new.reverse else new).foldl (addHyp t) d

/-- bpe.py:445-451 `search`: number of rounds left, number of calls of the sampler so far. -/
def dfsLoop (opts : Opts) (t : Tree) (sampler : Nat → Bool) : Nat → Nat → Dfs → Option (List Str)
  | 0, _, d => d.final
  | fuel + 1, n, d =>
    match d.final, d.hyps with
    | some out, _ => some out
    | none, [] => none
    | none, h :: hs => dfsLoop opts t sampler fuel (n + 1) (addNew t { d with hyps := hs } (sampler n) (nextHyps opts t h))

/-- Enough rounds for a word. -/
def dfsFuel (word : Str) : Nat := 4 ^ word.length + 1

/-- bpe.py:494-498 `get_bpe_split_for_word`, 381-399 `DepthFirstSearch.__init__`. -/
def getSplit (opts : Opts) (t : Tree) (sampler : Nat → Bool) (word : Str) : Res (Option (List Str)) := do
  let start ← startNode opts t
  .ok (dfsLoop opts t sampler (dfsFuel word) 0 (addHyp t {} ⟨[], start, word⟩))

/-- bpe.py:354-362 `CharSyncSearch.search`, 327-352 `_expand`: one round for every character. -/
def syncLoop (opts : Opts) (t : Tree) : Str → List Hyp → List Hyp
  | [], hyps => hyps
  | _ :: word, hyps => syncLoop opts t word (hyps.flatMap (nextHyps opts t))

/-- bpe.py:301-362 `CharSyncSearch`, 319-325 `_get_finished`. -/
def syncSearch (opts : Opts) (t : Tree) (word : Str) : Res (List (List Str)) := do
  let start ← startNode opts t
  .ok (((syncLoop opts t word [⟨[], start, word⟩]).filter (fun h => t.finished.contains h.node)).map
    (fun h => h.history ++ [h.node.flatten]))

/-- bpe.py:500-516 `segment_sentence`; `samplers`: the sampler of each word. -/
def segmentSentence (opts : Opts) (t : Tree) (unknown : Option Str) (samplers : Nat → Nat → Bool) : List Str → Res (List Str)
  | [] => .ok []
  | w :: ws => do
    match ← getSplit opts t (samplers ws.length) w with
    | none =>
      match unknown with
      | some (u :: us) => .ok ((u :: us) :: (← segmentSentence opts t unknown samplers ws))
      | _ => .error (.other "no BPE-split for word")
    | some seq => .ok (seq ++ (← segmentSentence opts t unknown samplers ws))

end Verif.BpeTree
