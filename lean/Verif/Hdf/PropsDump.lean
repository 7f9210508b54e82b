import Verif.Hdf.Props
import Mathlib.Order.Defs.LinearOrder
import Mathlib.Tactic.Tauto
import Mathlib.Algebra.Order.Group.Nat
/-
**C59**: what `HDFDatasetWriter.dump_from_dataset` wrote is what `HDFDataset` reads. Also what goes wrong, for C58 and C59.
-/
namespace Verif.Hdf
open Verif.Py

variable {K F T : Type} [LinearOrder K] [Inhabited F] [Inhabited T]

theorem writeAll_spec : ∀ (data : List (List F)) (off : Nat) (l : List F), l.length = off + (data.map List.length).sum →
    writeAll data off l = l.take off ++ data.flatten
  | [], off, l, h => by
    unfold writeAll
    simp at h
    rw [List.take_of_length_le (by omega)]; simp
  | d :: ds, off, l, h => by
    simp only [List.map_cons, List.sum_cons] at h
    unfold writeAll
    rw [writeAll_spec ds (off + d.length) _ (by
      simp only [List.length_append, List.length_take, List.length_drop]; omega)]
    have : (l.take off ++ d ++ l.drop (off + d.length)).take (off + d.length) = l.take off ++ d := by
      rw [List.take_append_of_le_length (by simp only [List.length_append, List.length_take]; omega)]
      rw [List.take_of_length_le (by simp only [List.length_append, List.length_take]; omega)]
    rw [this]; simp

theorem dumpArray_spec (data : List (List F)) : dumpArray data = data.flatten := by
  unfold dumpArray
  rw [writeAll_spec _ _ _ (by simp)]
  simp

/-- The data key used as input: the only one which is not in the target list, or "data" if there are several. -/
def InputKey (data : K) (s : Src K F T) : Option K → Prop
  | none => ∀ k ∈ s.keys, k ∈ s.targetList
  | some ik => ik ∈ s.keys ∧ ik ∉ s.targetList ∧ ((∀ k ∈ s.keys, k ∉ s.targetList → k = ik) ∨ ik = data)

theorem inputKey_spec {nm : Names K} {s : Src K F T} (hn : s.keys.Nodup) {ik : Option K} (h : InputKey nm.data s ik) :
    inputKey nm (s.keys.filter (fun k => decide (k ∉ s.targetList.filter (fun k => decide (k ∈ s.keys))))) = .ok ik := by
  have hmem : ∀ k, k ∈ s.keys.filter (fun k => decide (k ∉ s.targetList.filter (fun k => decide (k ∈ s.keys)))) ↔ k ∈ s.keys ∧ k ∉ s.targetList := by
    intro k
    simp only [List.mem_filter, decide_eq_true_eq]
    constructor
    · rintro ⟨h1, h2⟩; exact ⟨h1, fun h3 => h2 ⟨h3, h1⟩⟩
    · rintro ⟨h1, h2⟩; exact ⟨h1, fun h3 => h2 h3.1⟩
  generalize hl : s.keys.filter (fun k => decide (k ∉ s.targetList.filter (fun k => decide (k ∈ s.keys)))) = l at hmem
  have hnl : l.Nodup := by rw [← hl]; exact hn.filter _
  cases ik with
  | none =>
    have : l = [] := by
      rw [List.eq_nil_iff_forall_not_mem]
      intro k hk
      rw [hmem] at hk
      exact hk.2 (h k hk.1)
    rw [this]; rfl
  | some ik =>
    obtain ⟨h1, h2, h3⟩ := h
    have hin : ik ∈ l := (hmem ik).2 ⟨h1, h2⟩
    cases l with
    | nil => simp at hin
    | cons x l =>
      cases l with
      | nil =>
        simp at hin; subst hin; rfl
      | cons y l =>
        have hd : ik = nm.data := by
          rcases h3 with h3 | h3
          · have hx := (hmem x).1 (by simp)
            have hy := (hmem y).1 (by simp)
            have : x = y := by rw [h3 x hx.1 hx.2, h3 y hy.1 hy.2]
            subst this
            simp at hnl
          · exact h3
        unfold inputKey
        rw [if_pos (by rw [← hd]; exact hin), hd]

/-- Which sequences `end_seq` and `start_seq` select. -/
theorem selected_get (s : Src K F T) (start : Nat) (endSeq : Option Nat) (i : Nat) (h : ∀ e, endSeq = some e → start + i ≤ e) :
    (selected s start endSeq)[i]? = s.seqs[start + i]? := by
  unfold selected
  cases endSeq with
  | none => simp
  | some e =>
    simp only
    rw [List.getElem?_drop, List.getElem?_take]
    rw [if_pos (by have := h e rfl; omega)]

/-- A dumped file has the sequences. -/
theorem dump_rep {nm : Names K} {s : Src K F T} (hne : s.keys ≠ []) (hn : s.keys.Nodup) (htn : s.targetList.Nodup) {ik : Option K}
    (hik : InputKey nm.data s ik) (hd : nm.data ∈ s.keys → ik = some nm.data) {start : Nat} {endSeq : Option Nat} (hr : rangeOk s.seqs.length start endSeq = true) :
    ∃ f, dump nm s start endSeq = .ok f ∧ Rep nm f ((selected s start endSeq).map (fun q => ⟨q.1, ((ik.map q.2).getD []), q.2⟩)) ∧
      f.inputs.isSome = ik.isSome ∧ f.targets.isSome = true ∧ (∀ k, k ∈ targetKeys nm f ↔ k ∈ s.keys ∧ ik ≠ some k) := by
  have hdo : nm.data ∉ s.keys.filter (fun k => decide (ik ≠ some k)) := by
    intro h
    simp only [List.mem_filter, decide_eq_true_eq] at h
    exact h.2 (hd h.1)
  unfold dump
  rw [if_neg hne]
  simp only
  rw [inputKey_spec hn hik]
  simp only [Except.bind]
  rw [if_neg (fun h => hdo h.1), if_pos hr]
  have hmap : (s.keys.filter (fun k => decide (ik ≠ some k))).map (fun k => (keyMap nm k, dumpArray ((selected s start endSeq).map (fun q => q.2 k)))) =
      (s.keys.filter (fun k => decide (ik ≠ some k))).map (fun k => (k, dumpArray ((selected s start endSeq).map (fun q => q.2 k)))) := by
    apply List.map_congr_left
    intro k hk
    have : keyMap nm k = k := by
      unfold keyMap
      rw [if_neg (by rintro rfl; exact hdo hk)]
    rw [this]
  rw [hmap]
  have hdk : ∀ (l : List K) (g : K → List F), Dict.keys (l.map (fun k => (k, g k))) = l := by
    intro l g
    unfold Dict.keys
    rw [List.map_map]
    exact List.map_id' l
  have hdg : ∀ (l : List K) (g : K → List F) (k : K), k ∈ l → Dict.get? (l.map (fun k => (k, g k))) k = some (g k) := by
    intro l g k
    induction l with
    | nil => simp
    | cons x l ih =>
      intro hk
      simp only [List.map_cons, Dict.get?]
      split
      · rename_i h; rw [h]
      · rename_i h
        exact ih (by simpa [Ne.symm h] using hk)
  have hikin : ∀ k, ik = some k → k ∈ s.keys ∧ k ∉ s.targetList := by
    intro k hk
    subst hk
    exact ⟨hik.1, hik.2.1⟩
  have hperm : (s.targetList.filter (fun k => decide (k ∈ s.keys)) ++
      s.keys.filter (fun k => decide (k ∉ s.targetList.filter (fun k => decide (k ∈ s.keys))) && decide (ik ≠ some k))).Perm
      (s.keys.filter (fun k => decide (ik ≠ some k))) := by
    refine (List.perm_ext_iff_of_nodup ?_ (hn.filter _)).2 ?_
    · refine List.nodup_append.2 ⟨htn.filter _, hn.filter _, ?_⟩
      rintro a ha b hb rfl
      simp only [List.mem_filter, decide_eq_true_eq, Bool.and_eq_true] at ha hb
      exact hb.2.1 ha
    · intro k
      simp only [List.mem_append, List.mem_filter, decide_eq_true_eq, Bool.and_eq_true]
      constructor
      · rintro (⟨h1, h2⟩ | ⟨h1, h2, h3⟩)
        · exact ⟨h2, fun h => (hikin k h).2 h1⟩
        · exact ⟨h1, h3⟩
      · rintro ⟨h1, h2⟩
        by_cases h3 : k ∈ s.targetList
        · exact Or.inl ⟨h3, h1⟩
        · exact Or.inr ⟨h1, fun h => h3 h.1, h2⟩
  refine ⟨_, rfl, ⟨?_, ?_, ?_, ?_, ?_, ?_⟩, ?_, rfl, ?_⟩
  · simp
  · intro l hl
    simp only at hl
    cases ik with
    | none => cases hl
    | some k =>
      simp only [Option.map_some, Option.some.injEq] at hl
      rw [← hl, dumpArray_spec]
      simp only [List.flatMap_map, Option.map_some, Option.getD_some]
      rfl
  · intro t ht
    simp only [Option.some.injEq] at ht
    subst ht
    rw [hdk]
    refine ⟨hn.filter _, ?_⟩
    intro k hk
    rw [hdg _ _ k hk, dumpArray_spec, List.flatMap_map]
    rfl
  · simp only [numInputKeys, targetKeys]
    rw [length_sortKeys, hdk]
    cases ik with
    | none => simp
    | some k =>
      have h1 : (s.keys.filter (fun k' => decide (some k ≠ some k'))) = s.keys.erase k := by
        rw [hn.erase_eq_filter]
        apply List.filter_congr
        intro x _
        simp only [bne, ne_eq, Option.some.injEq]
        by_cases h : k = x
        · subst h; simp
        · simp [h, Ne.symm h]
      simp only [h1, Option.map_some, Option.isSome_some, if_true]
      have := List.length_pos_of_mem (hikin k rfl).1
      rw [List.length_erase_of_mem (hikin k rfl).1]
      omega
  · simp only [targetKeys]
    rw [List.map_map, hdk, sortKeys_congr hperm]
    apply List.map_congr_left
    intro q _
    cases ik with
    | none => simp [cols]
    | some k => simp [cols]
  · intro _
    simp only [targetKeys]
    rw [hdk, mem_sortKeys]
    exact hdo
  · cases ik <;> rfl
  · intro k
    simp only [targetKeys]
    rw [hdk, mem_sortKeys]
    simp [List.mem_filter]

/-- **C59** (partial: only when "data" is the input key or no key at all) A dumped dataset, read by `HDFDataset`: the same sequences in the
same order, with the same tags; the input data has key "data" and the other keys are kept. The sequences are `start_seq` to `end_seq`,
including `end_seq`. -/
theorem dump_roundtrip_partial (nm : Names K) (s : Src K F T) (hne : s.keys ≠ []) (hn : s.keys.Nodup) (htn : s.targetList.Nodup) (ik : Option K)
    (hik : InputKey nm.data s ik) (hd : nm.data ∈ s.keys → ik = some nm.data) (start : Nat) (endSeq : Option Nat)
    (hr : start < s.seqs.length ∧ ∀ e, endSeq = some e → start < e) :
    ∃ f ds, dump nm s start endSeq = .ok f ∧ openFiles nm [f] = .ok ds ∧
      totalNumSeqs ds = endSeq.elim s.seqs.length (fun e => min s.seqs.length (e + 1)) - start ∧
      ∀ (i : Nat) (tag : T) (get : K → List F), s.seqs[start + i]? = some (tag, get) → (∀ e, endSeq = some e → start + i ≤ e) →
        getTag ds i = .ok tag ∧ (∀ k, ik = some k → getData nm ds i nm.data = .ok (get k)) ∧
        ∀ k ∈ s.keys, ik ≠ some k → getData nm ds i k = .ok (get k) := by
  have hro : rangeOk s.seqs.length start endSeq = true := by
    unfold rangeOk
    cases endSeq with
    | none => simpa using hr.1
    | some e =>
      have := hr.2 e rfl
      simp; omega
  obtain ⟨f, h1, h2, h3, h4, h5⟩ := dump_rep hne hn htn hik hd hro
  have hsl : (selected s start endSeq).length = endSeq.elim s.seqs.length (fun e => min s.seqs.length (e + 1)) - start := by
    unfold selected
    cases endSeq with
    | none => simp
    | some e =>
      simp only [List.length_drop, List.length_take, Option.elim]
      rw [Nat.min_comm]
  have hsne : (selected s start endSeq).map (fun q => (⟨q.1, ((ik.map q.2).getD []), q.2⟩ : Seq K F T)) ≠ [] := by
    intro h
    have := congrArg List.length h
    rw [List.length_map, hsl] at this
    simp only [List.length_nil] at this
    cases endSeq with
    | none => simp only [Option.elim] at this; omega
    | some e =>
      have := hr.2 e rfl
      simp only [Option.elim] at *; omega
  obtain ⟨ds, h6, h7, h8⟩ := openFiles_spec (fs := []) (seqss := []) h2 hsne .nil (by simp) (by simp)
  simp only [List.flatten_nil, List.append_nil] at h7 h8
  refine ⟨f, ds, h1, h6, by rw [h7, List.length_map, hsl], ?_⟩
  intro i tag get hi hle
  obtain ⟨r1, r2, r3⟩ := h8 i ⟨tag, ((ik.map get).getD []), get⟩ (by
    rw [List.getElem?_map, selected_get s start endSeq i hle, hi]; rfl)
  refine ⟨r1, ?_, ?_⟩
  · intro k hk
    have := r2 (by rw [h3, hk]; rfl)
    rw [hk] at this
    exact this
  · intro k hk hkn
    exact r3 h4 k ((h5 k).2 ⟨hk, hkn⟩)

/-! ### Examples and counterexamples

Keys: 0 is "classes", 1 is "cow", 2 is "data", 3 is "inputs", 4 is "zebra" (in the order of the strings). Frames and tags are numbers. -/

def exNm : Names Nat := ⟨2, 0, 3⟩

/-- A file: one batch of two sequences, `extra_type` with "zebra", "classes" with the first sequence; then another batch; then extended. -/
def exHist : Hist Nat Nat Nat :=
  ⟨⟨[4], [(3, [⟨7, [1, 2, 3], 2, [(0, [5]), (4, [6, 7])]⟩, ⟨8, [4, 5, 6], 3, [(4, [8])]⟩]), (1, [⟨9, [7], 1, []⟩])]⟩,
   [⟨[4, 0], [(2, [⟨10, [8, 9], 2, [(0, [1, 2, 3])]⟩])]⟩]⟩

example : HistOk exNm.data exNm.inputs exHist := by
  have hk : exHist.keys = [4, 0, 4] := rfl
  refine ⟨by simp [exHist], ?_, ?_, ?_, ?_⟩
  · intro s hs b hb
    simp [exHist] at hs
    rcases hs with rfl | rfl
    · simp at hb
      rcases hb with rfl | rfl <;> simp [BatchOk]
    · simp at hb
      subst hb
      simp [BatchOk]
  · intro b hb
    rw [hk]
    simp [exHist, Hist.entries, Session.entries] at hb
    rcases hb with rfl | rfl | rfl | rfl <;> simp
  · rw [hk]; decide
  · intro s hs
    simp [exHist] at hs
    subst hs
    rw [hk]
    simp
    intro k; tauto

/-- All data which can be read from a file. -/
def readAll (f : File Nat Nat Nat) (keys : List Nat) : Res (List (Nat × List (List Nat))) :=
  (openFiles exNm [f]).bind (fun ds => (List.range (totalNumSeqs ds)).mapM (fun i =>
    (getTag ds i).bind (fun t => (keys.mapM (getData exNm ds i)).bind (fun l => .ok (t, l)))))

example : ((writeHist exNm exHist).bind (fun f => readAll f [2, 0, 4])) =
    .ok [(7, [[1, 2], [5], [6, 7]]), (8, [[4, 5, 6], [], [8]]), (9, [[7], [], []]), (10, [[8, 9], [1, 2, 3], []])] := by decide +kernel

/-- Extending a file with two extra keys, without `extra_type`. -/
def exBad : Hist Nat Nat Nat :=
  ⟨⟨[], [(1, [⟨7, [1], 1, [(0, [5]), (4, [6])]⟩]), (1, [⟨8, [2], 1, [(0, [7]), (4, [8])]⟩])]⟩,
   [⟨[], [(1, [⟨9, [3], 1, [(0, [9]), (4, [10])]⟩]), (1, [⟨10, [4], 1, [(0, [11]), (4, [12])]⟩])]⟩]⟩

/-- The written data, and what is read for some sequence and key (`none` on an error). -/
def readOne (r : Res (File Nat Nat Nat)) (i k : Nat) : Option (List Nat) :=
  (r.bind (fun f => (openFiles exNm [f]).bind (fun ds => getData exNm ds i k))).toOption

/-- C58 fails in general: when a file with two extra keys is extended without `extra_type`, the data is wrong. All keys of the file were
given with each sequence; the length stored for the first new sequence is the number of frames so far (3 instead of 1), so the next
sequence has no data for that key instead of `[11]`. -/
theorem extend_wrong : (∀ s ∈ exBad.first :: exBad.exts, s.extraType = [] ∧ ∀ b ∈ s.batches, BatchOk b.1 b.2) ∧
    (∀ b ∈ exBad.entries, b.extra.keys = exBad.keys) ∧ (exBad.entries[3]?).map (fun b => b.extra.get? 0) = some (some [11]) ∧
    readOne (writeHist exNm exBad) 3 0 = some [] := by
  refine ⟨?_, ?_, rfl, by decide +kernel⟩
  · intro s hs
    simp [exBad] at hs
    rcases hs with rfl | rfl
    all_goals
      refine ⟨rfl, ?_⟩
      intro b hb
      simp at hb
      rcases hb with rfl | rfl <;> simp [BatchOk]
  · intro b hb
    simp [exBad, Hist.entries, Session.entries] at hb
    rcases hb with rfl | rfl | rfl | rfl <;> rfl

/-- An extra key can only be added with the first sequence. -/
theorem late_key_error : (writeHist exNm (⟨⟨[], [(1, [⟨7, [1], 1, [(0, [5])]⟩, ⟨8, [1], 1, [(4, [5])]⟩])]⟩, []⟩ : Hist Nat Nat Nat)).toOption.isNone = true := by decide +kernel

/-- An empty batch is an error, and so is reading a file without sequences. -/
theorem empty_error : (writeHist exNm (⟨⟨[0], [(0, [])]⟩, []⟩ : Hist Nat Nat Nat)).toOption.isNone = true ∧
    ((writeHist exNm (⟨⟨[0], []⟩, []⟩ : Hist Nat Nat Nat)).bind (fun f => openFiles exNm [f])).toOption.isNone = true := by decide +kernel

/-- A source with input "cow" (1), targets "classes" (0), "zebra" (4), three sequences. -/
def exSrc : Src Nat Nat Nat := ⟨[0, 1, 4], [4, 0], [(7, fun k => [k, k + 1]), (8, fun k => List.replicate k 5), (9, fun k => [k])]⟩

example : InputKey exNm.data exSrc (some 1) ∧ (exNm.data ∈ exSrc.keys → (some 1 : Option Nat) = some exNm.data) ∧ exSrc.keys.Nodup ∧ exSrc.targetList.Nodup := by
  refine ⟨⟨by simp [exSrc], by simp [exSrc], Or.inl ?_⟩, by simp [exSrc, exNm], by simp [exSrc], by simp [exSrc]⟩
  simp [exSrc]

example : ((dump exNm exSrc 1 none).bind (fun f => readAll f [2, 0, 4])) = .ok [(8, [[5], [], [5, 5, 5, 5]]), (9, [[1], [0], [4]])] := by decide +kernel

/-- C59 fails in general: "data" (2) as a target together with "cow" (1). It is written as "classes" (0), but with the lengths
of "cow": one frame is missing. -/
theorem dump_swapped : ∃ (s : Src Nat Nat Nat), InputKey exNm.data s none ∧ s.keys = [1, 2] ∧ s.seqs = [(7, fun k => List.replicate k k)] ∧
    readOne (dump exNm s 0 none) 0 1 = some [1] ∧ readOne (dump exNm s 0 none) 0 0 = some [2] := by
  refine ⟨⟨[1, 2], [1, 2], [(7, fun k => List.replicate k k)]⟩, ?_, rfl, rfl, by decide +kernel, by decide +kernel⟩
  simp [InputKey]

/-- `end_seq` is inclusive for what is written, but exclusive for the check that there is something to write: one sequence cannot be
selected. -/
theorem dump_end_inclusive : ((dump exNm exSrc 0 (some 1)).bind (fun f => readAll f [])) = .ok [(7, []), (8, [])] ∧
    (dump exNm exSrc 1 (some 1)).toOption.isNone = true := by
  constructor <;> decide +kernel

end Verif.Hdf
