import Verif.Hdf.Model
import Verif.Util.ListLemmas
import Mathlib.Data.List.Forall2
import Mathlib.Data.List.Nodup
import Mathlib.Order.Basic
import Mathlib.Data.List.GetD
import Mathlib.Algebra.BigOperators.Group.List.Basic
/-
Reading HDF files: if the content of each file represents a list of sequences, the dataset has all of them in order.
-/
namespace Verif.Hdf
open Verif.Py Verif.ListLemmas

variable {K F T : Type} [LinearOrder K] [Inhabited F] [Inhabited T]

/-! ### Sorting of keys -/

theorem sortKeys_perm (l : List K) : (sortKeys l).Perm l := stableSort_perm l _

theorem mem_sortKeys {l : List K} {k : K} : k ∈ sortKeys l ↔ k ∈ l := (sortKeys_perm l).mem_iff

theorem length_sortKeys (l : List K) : (sortKeys l).length = l.length := (sortKeys_perm l).length_eq

theorem nodup_sortKeys {l : List K} (h : l.Nodup) : (sortKeys l).Nodup := (sortKeys_perm l).nodup_iff.2 h

theorem sortKeys_pairwise (l : List K) : (sortKeys l).Pairwise (fun a b => a ≤ b) := by
  have := stableSort_pairwise (le := fun (a b : K) => decide (a ≤ b)) (fun a b c h1 h2 => by
    simp only [decide_eq_true_eq] at *; exact le_trans h1 h2) (fun a b => by
    simp only [Bool.or_eq_true, decide_eq_true_eq]; exact le_total a b) l
  unfold sortKeys
  simpa using this

theorem eq_sortKeys {l m : List K} (hp : m.Perm l) (hs : m.Pairwise (fun a b => a ≤ b)) : m = sortKeys l :=
  (hp.trans (sortKeys_perm l).symm).eq_of_pairwise (le := fun a b => a ≤ b) (fun a b _ _ h1 h2 => le_antisymm h1 h2) hs (sortKeys_pairwise l)

theorem sortKeys_congr {l m : List K} (h : l.Perm m) : sortKeys l = sortKeys m := eq_sortKeys ((sortKeys_perm l).trans h) (sortKeys_pairwise l)

/-! ### Sums and slices -/

section Sums
variable {S : Type}

theorem sum_take_succ (c : S → Nat) (l : List S) (m : Nat) (s : S) (h : l[m]? = some s) :
    ((l.take (m + 1)).map c).sum = ((l.take m).map c).sum + c s := by
  rw [List.take_add_one, h]
  simp

theorem slice_flatMap (g : S → List F) : ∀ (l : List S) (m : Nat) (s : S), l[m]? = some s →
    slice (l.flatMap g) (((l.take m).map (fun x => (g x).length)).sum) (((l.take (m + 1)).map (fun x => (g x).length)).sum) = g s
  | [], m, s, h => by simp at h
  | x :: l, 0, s, h => by
    simp at h; subst h
    simp [slice]
  | x :: l, m + 1, s, h => by
    have ih := slice_flatMap g l m s (by simpa using h)
    unfold slice at ih ⊢
    simp only [List.flatMap_cons, List.take_succ_cons, List.map_cons, List.sum_cons]
    rw [List.take_length_add_append, List.drop_length_add_append]
    exact ih

theorem cumRows_length (acc : List Nat) (rows : List (List Nat)) : (cumRows acc rows).length = rows.length + 1 := by
  induction rows generalizing acc with
  | nil => rfl
  | cons r rs ih => simp [cumRows, ih]

theorem zipWith_map_add (cs : List (S → Nat)) (a b : (S → Nat) → Nat) :
    List.zipWith (· + ·) (cs.map a) (cs.map b) = cs.map (fun c => a c + b c) := by
  induction cs with
  | nil => rfl
  | cons c cs ih => simp [ih]

theorem cumRows_get (cs : List (S → Nat)) (base : (S → Nat) → Nat) : ∀ (l : List S) (m : Nat), m ≤ l.length →
    (cumRows (cs.map base) (l.map (fun s => cs.map (fun c => c s))))[m]? = some (cs.map (fun c => base c + ((l.take m).map c).sum))
  | [], 0, _ => by simp [cumRows]
  | [], m + 1, h => by simp at h
  | s :: l, 0, _ => by simp [cumRows]
  | s :: l, m + 1, h => by
    simp only [List.map_cons, cumRows, List.getElem?_cons_succ]
    rw [zipWith_map_add, cumRows_get cs (fun c => base c + c s) l m (by simpa using h)]
    simp [Nat.add_assoc]

theorem getItem_ok {α : Type} {l : List α} {i : Nat} {x : α} (h : l[i]? = some x) : getItem l i = .ok x := by
  unfold getItem
  rw [h]

end Sums

/-! ### Files with sequences -/

/-- The columns of `seqLengths`. -/
def cols (hasIn : Bool) (tk : List K) : List (Seq K F T → Nat) :=
  (if hasIn then [fun s => s.input.length] else []) ++ tk.map (fun k s => (s.get k).length)

/-- The content of a file represents the sequences. -/
structure Rep (nm : Names K) (f : File K F T) (seqs : List (Seq K F T)) : Prop where
  tags : f.tags = seqs.map (fun s => s.tag)
  inp : ∀ l, f.inputs = some l → l = seqs.flatMap (fun s => s.input)
  tgt : ∀ t, f.targets = some t → t.keys.Nodup ∧ ∀ k ∈ t.keys, t.get? k = some (seqs.flatMap (fun s => s.get k))
  width : f.width = numInputKeys f + (targetKeys nm f).length
  lens : f.lens = seqs.map (fun s => (cols f.inputs.isSome (targetKeys nm f)).map (fun c => c s))
  data : f.inputs.isSome = true → nm.data ∉ targetKeys nm f

/-- An opened file of a dataset with target keys `tk`. -/
structure OInv (nm : Names K) (hasIn hasTg : Bool) (tk : List K) (o : Opened K F T) (seqs : List (Seq K F T)) : Prop where
  rep : Rep nm o.file seqs
  hin : o.file.inputs.isSome = hasIn
  htg : o.file.targets.isSome = hasTg
  sub : ∀ k ∈ tk, k ∈ targetKeys nm o.file
  start : o.seqStart = cumRows ((cols hasIn tk).map (fun (_ : Seq K F T → Nat) => 0)) (seqs.map (fun s => (cols hasIn tk).map (fun c => c s)))
  ne : seqs ≠ []

/-- The keys of `num_outputs`. -/
def outs (nm : Names K) (hasIn hasTg : Bool) (tk : List K) : List K := (if hasTg then tk else []) ++ (if hasIn then [nm.data] else [])

/-- Start index of each file. -/
def starts (seqss : List (List (Seq K F T))) : List Nat := (List.range (seqss.length + 1)).map (fun j => ((seqss.take j).map List.length).sum)

structure DInv (nm : Names K) (hasIn hasTg : Bool) (tk : List K) (ds : Ds K F T) (seqss : List (List (Seq K F T))) : Prop where
  files : List.Forall₂ (OInv nm hasIn hasTg tk) ds.files seqss
  start : ds.fileStart = starts seqss
  emp : ds.files = [] → ds.numOutputs = []
  nemp : ds.files ≠ [] → ds.targetKeys = tk ∧ ds.numOutputs = outs nm hasIn hasTg tk

theorem starts_snoc (seqss : List (List (Seq K F T))) (seqs : List (Seq K F T)) :
    starts (seqss ++ [seqs]) = starts seqss ++ [(starts seqss).getLastD 0 + seqs.length] := by
  unfold starts
  simp only [List.length_append, List.length_singleton]
  rw [List.range_succ, List.map_append]
  congr 1
  · apply List.map_congr_left
    intro j hj
    rw [List.take_append_of_le_length (by simp at hj; omega)]
  · simp only [List.map_cons, List.map_nil]
    rw [List.range_succ, List.map_append]
    simp [List.take_of_length_le]

theorem cumRows_head (acc : List Nat) (rows : List (List Nat)) : (cumRows acc rows).head? = some acc := by
  cases rows <;> rfl

theorem cols_length (hasIn : Bool) (tk : List K) : (cols (F := F) (T := T) hasIn tk).length = (if hasIn then 1 else 0) + tk.length := by
  unfold cols
  cases hasIn <;> simp <;> omega

theorem addSelected_spec {nm : Names K} {hasIn hasTg : Bool} {tk : List K} {ds : Ds K F T} {seqss : List (List (Seq K F T))}
    (hd : DInv nm hasIn hasTg tk ds seqss) {f : File K F T} {seqs : List (Seq K F T)} (hr : Rep nm f seqs) (hin : f.inputs.isSome = hasIn)
    (htg : f.targets.isSome = hasTg) (hsub : ∀ k ∈ tk, k ∈ targetKeys nm f) (hne : seqs ≠ []) :
    ∃ ds', addSelected nm ds f (tk, seqs.map (fun s => (cols hasIn tk).map (fun c => c s))) = .ok ds' ∧
      DInv nm hasIn hasTg tk ds' (seqss ++ [seqs]) ∧ ds'.files ≠ [] := by
  obtain ⟨s0, rest, rfl⟩ := List.exists_cons_of_ne_nil hne
  unfold addSelected
  simp only [List.map_cons]
  rw [if_neg (by
    rintro ⟨h1, h2⟩
    exact hr.data h1 (hsub _ h2))]
  have hout : outputKeys nm f tk = outs nm hasIn hasTg tk := by unfold outputKeys outs; rw [hin, htg]
  have hold : (if ds.numOutputs = [] then outputKeys nm f tk else ds.numOutputs) = outputKeys nm f tk := by
    split
    · rfl
    · rename_i h
      by_cases hf : ds.files = []
      · exact (h (hd.emp hf)).elim
      · rw [(hd.nemp hf).2, hout]
  rw [if_pos hold]
  have hrep : List.replicate ((cols hasIn tk).map (fun (c : Seq K F T → Nat) => c s0)).length 0 =
      (cols hasIn tk).map (fun (_ : Seq K F T → Nat) => 0) := by
    rw [List.map_const', List.length_map]
  have hnew : OInv nm hasIn hasTg tk ⟨f, cumRows (List.replicate ((cols hasIn tk).map (fun (c : Seq K F T → Nat) => c s0)).length 0)
      ((cols hasIn tk).map (fun c => c s0) :: rest.map (fun s => (cols hasIn tk).map (fun c => c s)))⟩ (s0 :: rest) :=
    ⟨hr, hin, htg, hsub, by rw [hrep]; rfl, hne⟩
  have hnik : numInputKeys f = if hasIn then 1 else 0 := by unfold numInputKeys; rw [hin]
  have hhead : ∀ (o : Opened K F T) (q : List (Seq K F T)), OInv nm hasIn hasTg tk o q →
      o.seqStart.head?.map (fun r => r.length) = some (numInputKeys f + tk.length) := by
    intro o q ho
    rw [ho.start, cumRows_head]
    simp only [Option.map_some, List.length_map]
    rw [cols_length, hnik]
  have hchk : ((ds.files ++ [(⟨f, cumRows (List.replicate ((cols hasIn tk).map (fun (c : Seq K F T → Nat) => c s0)).length 0)
      ((cols hasIn tk).map (fun c => c s0) :: rest.map (fun s => (cols hasIn tk).map (fun c => c s)))⟩ : Opened K F T)]).head?.bind
        (fun o => o.seqStart.head?.map (fun r => r.length))) = some (numInputKeys f + tk.length) := by
    cases hfl : ds.files with
    | nil => exact hhead _ _ hnew
    | cons o os =>
      have hfs := hd.files
      rw [hfl] at hfs
      cases hfs with
      | cons h _ => exact hhead _ _ h
  rw [if_pos hchk]
  refine ⟨_, rfl, ⟨?_, ?_, ?_, ?_⟩, by simp⟩
  · exact List.rel_append hd.files (.cons hnew .nil)
  · rw [starts_snoc, hd.start]
    simp
  · intro h; simp at h
  · intro _
    exact ⟨rfl, by rw [hold, hout]⟩

theorem takeCols_spec {nm : Names K} {f : File K F T} {tk : List K} (hsub : ∀ k ∈ tk, k ∈ targetKeys nm f) (seqs : List (Seq K F T)) :
    takeCols (0 :: tk.map (fun k => (targetKeys nm f).idxOf k + 1)) (seqs.map (fun s => (cols true (targetKeys nm f)).map (fun c => c s))) =
      seqs.map (fun s => (cols true tk).map (fun c => c s)) := by
  unfold takeCols
  rw [List.map_map]
  apply List.map_congr_left
  intro s _
  simp only [Function.comp, cols, if_true, List.cons_append, List.nil_append, List.map_cons, List.map_map, List.getD_cons_zero]
  congr 1
  apply List.map_congr_left
  intro k hk
  simp only [Function.comp, List.getD_cons_succ]
  have hlt := List.idxOf_lt_length_of_mem (hsub k hk)
  rw [List.getD_eq_getElem _ _ (by simpa using hlt)]
  simp

theorem addFile_spec {nm : Names K} {hasIn hasTg : Bool} {tk : List K} {ds : Ds K F T} {seqss : List (List (Seq K F T))}
    (hd : DInv nm hasIn hasTg tk ds seqss) {f : File K F T} {seqs : List (Seq K F T)} (hr : Rep nm f seqs) (hin : f.inputs.isSome = hasIn)
    (htg : f.targets.isSome = hasTg) (hsub : targetKeys nm f = tk ∨ (ds.files ≠ [] ∧ hasIn = true ∧ ∀ k ∈ tk, k ∈ targetKeys nm f))
    (hne : seqs ≠ []) :
    ∃ ds', addFile nm ds f = .ok ds' ∧ DInv nm hasIn hasTg tk ds' (seqss ++ [seqs]) ∧ ds'.files ≠ [] := by
  have hsub' : ∀ k ∈ tk, k ∈ targetKeys nm f := by
    rcases hsub with h | h
    · intro k hk; rw [h]; exact hk
    · exact h.2.2
  unfold addFile
  simp only
  rw [if_pos hr.width]
  have hsel : selectKeys ds.files.isEmpty ds.targetKeys (targetKeys nm f) f.lens =
      .ok (tk, seqs.map (fun s => (cols hasIn tk).map (fun c => c s))) := by
    unfold selectKeys
    have hl := hr.lens
    rw [hin] at hl
    rcases hsub with h | ⟨h1, h2, h3⟩
    · rw [h] at hl ⊢
      split
      · rw [hl]
      · rename_i he
        rw [if_pos (hd.nemp (by intro h; rw [h] at he; simp at he)).1, hl]
    · rw [if_neg (by simp [h1]), (hd.nemp h1).1]
      split
      · rename_i h; rw [← h] at hl ⊢; rw [hl]
      · unfold filterKeys
        rw [if_pos (by simpa using h3)]
        subst h2
        rw [hl]
        simp only [Except.bind]
        rw [takeCols_spec h3]
  rw [hsel]
  exact addSelected_spec hd hr hin htg hsub' hne

theorem addFiles_spec {nm : Names K} {hasIn hasTg : Bool} {tk : List K} : ∀ {fs : List (File K F T)} {new : List (List (Seq K F T))}
    {ds : Ds K F T} {seqss : List (List (Seq K F T))}, DInv nm hasIn hasTg tk ds seqss → ds.files ≠ [] → List.Forall₂ (Rep nm) fs new →
    (∀ f ∈ fs, f.inputs.isSome = hasIn ∧ f.targets.isSome = hasTg ∧
      (targetKeys nm f = tk ∨ (hasIn = true ∧ ∀ k ∈ tk, k ∈ targetKeys nm f))) → (∀ q ∈ new, q ≠ []) →
    ∃ ds', addFiles nm fs ds = .ok ds' ∧ DInv nm hasIn hasTg tk ds' (seqss ++ new) ∧ ds'.files ≠ []
  | [], _, ds, seqss, hd, hf, .nil, _, _ => ⟨ds, rfl, by simpa using hd, hf⟩
  | f :: fs, q :: new, ds, seqss, hd, hf, .cons hr ht, hk, hn => by
    obtain ⟨a, b, c⟩ := hk f (by simp)
    obtain ⟨ds1, h1, h2, h3⟩ := addFile_spec hd hr a b (c.imp id (fun h => ⟨hf, h⟩)) (hn q (by simp))
    obtain ⟨ds2, h4, h5, h6⟩ := addFiles_spec h2 h3 ht (fun f hf => hk f (by simp [hf])) (fun q hq => hn q (by simp [hq]))
    exact ⟨ds2, by rw [addFiles, h1]; exact h4, by simpa using h5, h6⟩

/-! ### Finding a sequence -/

theorem starts_get (seqss : List (List (Seq K F T))) (j : Nat) (h : j ≤ seqss.length) :
    (starts seqss)[j]? = some ((seqss.take j).map List.length).sum := by
  unfold starts
  rw [List.getElem?_map, List.getElem?_range (by omega)]
  rfl

theorem find_seq {S : Type} : ∀ (ss : List (List S)) (i : Nat) (s : S), ss.flatten[i]? = some s →
    ∃ j q, ss[j]? = some q ∧ ((ss.take j).map List.length).sum ≤ i ∧ i < ((ss.take (j + 1)).map List.length).sum ∧
      q[i - ((ss.take j).map List.length).sum]? = some s
  | [], i, s, h => by simp at h
  | q :: ss, i, s, h => by
    rw [List.flatten_cons] at h
    by_cases hi : i < q.length
    · rw [List.getElem?_append_left hi] at h
      exact ⟨0, q, rfl, by simp, by simpa using hi, by simpa using h⟩
    · rw [List.getElem?_append_right (by omega)] at h
      obtain ⟨j, q', h1, h2, h3, h4⟩ := find_seq ss (i - q.length) s h
      refine ⟨j + 1, q', by simpa using h1, ?_, ?_, ?_⟩
      · simp only [List.take_succ_cons, List.map_cons, List.sum_cons]; omega
      · simp only [List.take_succ_cons, List.map_cons, List.sum_cons] at h3 ⊢; omega
      · simp only [List.take_succ_cons, List.map_cons, List.sum_cons]
        rw [Nat.sub_add_eq]; exact h4

theorem takeWhile_range_map (g : Nat → Nat) (i j n : Nat) (hj : j ≤ n) (h1 : ∀ x, x ≤ j → g x ≤ i) (h2 : ∀ x, x = j + 1 → x ≤ n → i < g x) :
    (((List.range (n + 1)).map g).takeWhile (fun s => decide (s ≤ i))).length = j + 1 := by
  have hsplit : List.range (n + 1) = List.range (j + 1) ++ (List.range' (j + 1) (n - j)) := by
    have := List.range'_append_1 (s := 0) (m := j + 1) (n := n - j)
    rw [List.range_eq_range', List.range_eq_range', show n + 1 = j + 1 + (n - j) by omega, ← this, Nat.zero_add]
  rw [hsplit, List.map_append, List.takeWhile_append_of_pos]
  · have : ((List.range' (j + 1) (n - j)).map g).takeWhile (fun s => decide (s ≤ i)) = [] := by
      rcases Nat.eq_zero_or_pos (n - j) with h | h
      · rw [h]; rfl
      · obtain ⟨m, hm⟩ : ∃ m, n - j = m + 1 := ⟨n - j - 1, by omega⟩
        rw [hm, List.range'_succ, List.map_cons, List.takeWhile_cons]
        have := h2 (j + 1) rfl (by omega)
        rw [if_neg (by simp; omega)]
    rw [this]
    simp
  · intro a ha
    simp only [List.mem_map, List.mem_range] at ha
    obtain ⟨x, hx, rfl⟩ := ha
    simpa using h1 x (by omega)

theorem sum_take_mono {S : Type} (ss : List (List S)) {a b : Nat} (h : a ≤ b) :
    ((ss.take a).map List.length).sum ≤ ((ss.take b).map List.length).sum := by
  obtain ⟨c, rfl⟩ := Nat.exists_eq_add_of_le h
  rw [List.take_add, List.map_append, List.sum_append]
  omega

theorem locate {nm : Names K} {hasIn hasTg : Bool} {tk : List K} {ds : Ds K F T} {seqss : List (List (Seq K F T))}
    (hd : DInv nm hasIn hasTg tk ds seqss) {i : Nat} {s : Seq K F T} (hi : seqss.flatten[i]? = some s) :
    ∃ (o : Opened K F T) (q : List (Seq K F T)) (st : Nat), ds.files[fileIndex ds i]? = some o ∧ ds.fileStart[fileIndex ds i]? = some st ∧
      OInv nm hasIn hasTg tk o q ∧ q[i - st]? = some s := by
  obtain ⟨j, q, h1, h2, h3, h4⟩ := find_seq _ _ _ hi
  have hj : j < seqss.length := by
    by_contra h
    rw [List.getElem?_eq_none (by omega)] at h1; cases h1
  have hfi : fileIndex ds i = j := by
    unfold fileIndex
    rw [hd.start, starts, takeWhile_range_map (fun j => ((seqss.take j).map List.length).sum) i j seqss.length (by omega)
      (fun x hx => Nat.le_trans (sum_take_mono seqss hx) h2) (fun x hx _ => by rw [hx]; exact h3)]
    rfl
  have hlen := hd.files.length_eq
  refine ⟨ds.files[j]'(by omega), q, ((seqss.take j).map List.length).sum, ?_, ?_, ?_, h4⟩
  · rw [hfi]; exact List.getElem?_eq_getElem (by omega)
  · rw [hfi, hd.start]; exact starts_get seqss j (by omega)
  · have := hd.files.get (i := j) (by omega) hj
    have hq : seqss[j] = q := by
      rw [List.getElem?_eq_getElem hj] at h1
      injection h1
    simp only [List.get_eq_getElem] at this
    rw [hq] at this
    exact this

theorem hasInputs_spec {nm : Names K} {hasIn hasTg : Bool} {tk : List K} {ds : Ds K F T} {seqss : List (List (Seq K F T))}
    (hd : DInv nm hasIn hasTg tk ds seqss) (hne : ds.files ≠ []) : hasInputs ds = hasIn := by
  unfold hasInputs
  have h : ∀ o ∈ ds.files, o.file.inputs.isSome = hasIn := by
    intro o ho
    obtain ⟨j, hj, rfl⟩ := List.mem_iff_getElem.1 ho
    have := hd.files.get (i := j) hj (by rw [← hd.files.length_eq]; exact hj)
    exact this.hin
  cases hasIn
  · rw [List.any_eq_false]
    intro o ho
    simp [h o ho]
  · rw [List.any_eq_true]
    obtain ⟨o, fs, hfs⟩ := List.exists_cons_of_ne_nil hne
    exact ⟨o, by rw [hfs]; simp, h o (by rw [hfs]; simp)⟩

theorem map_const_zero_cols (hasIn : Bool) (tk : List K) (q : List (Seq K F T)) (m : Nat) (hm : m ≤ q.length) :
    (cumRows ((cols hasIn tk).map (fun (_ : Seq K F T → Nat) => 0)) (q.map (fun s => (cols hasIn tk).map (fun c => c s))))[m]? =
      some ((cols hasIn tk).map (fun c => ((q.take m).map c).sum)) := by
  rw [cumRows_get _ _ _ _ hm]
  simp

/-- The dataset has the data of all sequences. -/
theorem read_spec {nm : Names K} {hasIn hasTg : Bool} {tk : List K} {ds : Ds K F T} {seqss : List (List (Seq K F T))}
    (hd : DInv nm hasIn hasTg tk ds seqss) (hne : ds.files ≠ []) {i : Nat} {s : Seq K F T} (hi : seqss.flatten[i]? = some s) :
    getTag ds i = .ok s.tag ∧ (hasIn = true → getData nm ds i nm.data = .ok s.input) ∧
      (hasTg = true → ∀ k ∈ tk, getData nm ds i k = .ok (s.get k)) := by
  obtain ⟨o, q, st, h1, h2, ho, h4⟩ := locate hd hi
  have hlt : i - st < q.length := by
    by_contra h
    rw [List.getElem?_eq_none (by omega)] at h4; cases h4
  have hs1 : o.seqStart[i - st]? = some ((cols hasIn tk).map (fun (c : Seq K F T → Nat) => ((q.take (i - st)).map c).sum)) := by rw [ho.start]; exact map_const_zero_cols hasIn tk q (i - st) (by omega)
  have hs2 : o.seqStart[i - st + 1]? = some ((cols hasIn tk).map (fun (c : Seq K F T → Nat) => ((q.take (i - st + 1)).map c).sum)) := by rw [ho.start]; exact map_const_zero_cols hasIn tk q (i - st + 1) (by omega)
  have hhi := hasInputs_spec hd hne
  refine ⟨?_, ?_, ?_⟩
  · unfold getTag
    simp only [getItem_ok h1, getItem_ok h2, Except.bind]
    apply getItem_ok
    rw [ho.rep.tags, List.getElem?_map, h4]
    rfl
  · intro hb
    unfold getData
    simp only [getItem_ok h1, getItem_ok h2, getItem_ok hs1, getItem_ok hs2, Except.bind]
    unfold column
    rw [if_pos ⟨rfl, by rw [hhi]; exact hb⟩]
    have hin := ho.hin
    rw [hb, Option.isSome_iff_exists] at hin
    obtain ⟨l, hl⟩ := hin
    rw [hl]
    simp only
    rw [ho.rep.inp l hl]
    have hc0 : ∀ m, ((cols hasIn tk).map (fun (c : Seq K F T → Nat) => ((q.take m).map c).sum)).getD 0 0 =
        ((q.take m).map (fun s => s.input.length)).sum := by
      intro m; subst hb; simp [cols]
    rw [hc0, hc0]
    rw [slice_flatMap (fun s => s.input) q (i - st) s h4]
  · intro hb k hk
    unfold getData
    simp only [getItem_ok h1, getItem_ok h2, getItem_ok hs1, getItem_ok hs2, Except.bind]
    unfold column
    have htg := ho.htg
    rw [hb, Option.isSome_iff_exists] at htg
    obtain ⟨t, ht⟩ := htg
    have hkt : k ∈ targetKeys nm o.file := ho.sub k hk
    rw [if_neg (by
      rintro ⟨h5, h6⟩
      rw [hhi] at h6
      exact ho.rep.data (by rw [ho.hin]; exact h6) (by rw [← h5]; exact hkt)), ht]
    simp only
    have hkt' : k ∈ t.keys := by
      unfold targetKeys at hkt
      rw [ht] at hkt
      exact mem_sortKeys.1 hkt
    have hget := (ho.rep.tgt t ht).2 k hkt'
    have hgi : Dict.getItem t k = .ok (q.flatMap (fun s => s.get k)) := by unfold Dict.getItem; rw [hget]
    have hki : keyIdx ds.targetKeys k = .ok (tk.idxOf k) := by
      unfold keyIdx
      rw [(hd.nemp hne).1, if_pos hk]
    rw [hgi, hki]
    simp only [Except.bind]
    have hcj : ∀ m, ((cols hasIn tk).map (fun (c : Seq K F T → Nat) => ((q.take m).map c).sum)).getD ((if hasInputs ds then 1 else 0) + tk.idxOf k) 0 =
        ((q.take m).map (fun s => (s.get k).length)).sum := by
      intro m
      have hlt := List.idxOf_lt_length_of_mem hk
      have hg : ((tk.map (fun k (s : Seq K F T) => (s.get k).length)).map (fun c => ((q.take m).map c).sum)).getD (tk.idxOf k) 0 =
          ((q.take m).map (fun s => (s.get k).length)).sum := by
        rw [List.getD_eq_getElem _ _ (by simpa using hlt)]
        simp
      rw [hhi]
      unfold cols
      cases hasIn
      · simpa using hg
      · rw [if_pos rfl, if_pos rfl, List.singleton_append, List.map_cons, Nat.add_comm 1, List.getD_cons_succ]
        exact hg
    rw [hcj, hcj, slice_flatMap (fun s => s.get k) q (i - st) s h4]

theorem total_spec {nm : Names K} {hasIn hasTg : Bool} {tk : List K} {ds : Ds K F T} {seqss : List (List (Seq K F T))}
    (hd : DInv nm hasIn hasTg tk ds seqss) : totalNumSeqs ds = seqss.flatten.length := by
  unfold totalNumSeqs
  rw [hd.start, starts, List.range_succ, List.map_append]
  simp [List.take_of_length_le]

/-- **C58** `HDFDataset` over several files: all sequences of all files in order, each with its tag, input and targets. The target keys
are those of the first file; the others have the same or (with inputs) more. -/
theorem openFiles_spec {nm : Names K} {f0 : File K F T} {fs : List (File K F T)} {seqs0 : List (Seq K F T)} {seqss : List (List (Seq K F T))}
    (h0 : Rep nm f0 seqs0) (hne0 : seqs0 ≠ []) (hr : List.Forall₂ (Rep nm) fs seqss) (hne : ∀ q ∈ seqss, q ≠ [])
    (hk : ∀ f ∈ fs, f.inputs.isSome = f0.inputs.isSome ∧ f.targets.isSome = f0.targets.isSome ∧
      (targetKeys nm f = targetKeys nm f0 ∨ (f0.inputs.isSome = true ∧ ∀ k ∈ targetKeys nm f0, k ∈ targetKeys nm f))) :
    ∃ ds, openFiles nm (f0 :: fs) = .ok ds ∧ totalNumSeqs ds = (seqs0 ++ seqss.flatten).length ∧
      ∀ (i : Nat) (s : Seq K F T), (seqs0 ++ seqss.flatten)[i]? = some s → getTag ds i = .ok s.tag ∧
        (f0.inputs.isSome = true → getData nm ds i nm.data = .ok s.input) ∧
        (f0.targets.isSome = true → ∀ k ∈ targetKeys nm f0, getData nm ds i k = .ok (s.get k)) := by
  have hi : DInv nm f0.inputs.isSome f0.targets.isSome (targetKeys nm f0) (⟨[], [0], [], []⟩ : Ds K F T) [] :=
    ⟨.nil, rfl, fun _ => rfl, fun h => (h rfl).elim⟩
  obtain ⟨ds1, h1, h2, h3⟩ := addFile_spec hi h0 rfl rfl (Or.inl rfl) hne0
  obtain ⟨ds, h4, h5, h6⟩ := addFiles_spec h2 h3 hr hk hne
  refine ⟨ds, by rw [openFiles, addFiles, h1]; exact h4, ?_, ?_⟩
  · rw [total_spec h5]; simp
  · intro i s hs
    exact read_spec h5 h6 (by simpa using hs)

end Verif.Hdf
