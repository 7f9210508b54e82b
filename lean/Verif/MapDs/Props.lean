import Verif.MapDs.Model
/-
C131: datasets from something with entries by index.
-/
namespace Verif.MapDs
open Verif Verif.Py

theorem tagToIdx_aux {α : Type} (d : Ds α) : ∀ (n : Nat) (t i : Nat), ((List.range n).foldl (fun (m : Dict Nat Nat) i => m.set (d.tag i) i) []).get? t = some i ↔
    (i < n ∧ d.tag i = t ∧ ∀ j, i < j → j < n → d.tag j ≠ t) := by
  intro n
  induction n with
  | zero => intro t i; simp [Dict.get?]
  | succ n ih =>
    intro t i
    rw [List.range_succ, List.foldl_append, List.foldl_cons, List.foldl_nil, Dict.get?_set]
    by_cases h : d.tag n = t
    · rw [if_pos h]
      constructor
      · intro e
        simp only [Option.some.injEq] at e
        subst e
        exact ⟨by omega, h, by intro j h1 h2; omega⟩
      · rintro ⟨h1, h2, h3⟩
        by_cases hin : i = n
        · rw [hin]
        · exact absurd h (h3 n (by omega) (by omega))
    · rw [if_neg h, ih]
      constructor
      · rintro ⟨h1, h2, h3⟩
        refine ⟨by omega, h2, ?_⟩
        intro j hj1 hj2
        by_cases hjn : j = n
        · rw [hjn]; exact h
        · exact h3 j hj1 (by omega)
      · rintro ⟨h1, h2, h3⟩
        have hin : i ≠ n := by intro e; rw [e] at h2; exact h h2
        exact ⟨by omega, h2, fun j hj1 hj2 => h3 j hj1 (by omega)⟩

theorem lookupAll_spec (m : Dict Nat Nat) : ∀ (ts o : List Nat), lookupAll m ts = .ok o ↔ ts.map m.get? = o.map some := by
  intro ts
  induction ts with
  | nil =>
    intro o
    simp only [lookupAll, Except.ok.injEq, List.map_nil]
    constructor
    · intro h; rw [← h]; rfl
    · intro h
      cases o with
      | nil => rfl
      | cons x t => cases h
  | cons t ts ih =>
    intro o
    unfold lookupAll
    cases hg : m.get? t with
    | none =>
      have : m.getItem t = .error .keyError := by unfold Dict.getItem; rw [hg]
      rw [this]
      simp only [bind, Except.bind, List.map_cons, hg]
      constructor
      · intro h; cases h
      · intro h
        cases o with
        | nil => cases h
        | cons x r => simp at h
    | some i =>
      have : m.getItem t = .ok i := by unfold Dict.getItem; rw [hg]
      rw [this]
      simp only [bind, Except.bind, List.map_cons, hg]
      cases o with
      | nil =>
        constructor
        · intro h
          cases hr : lookupAll m ts with
          | error e => rw [hr] at h; cases h
          | ok r => rw [hr] at h; simp at h
        · intro h; simp at h
      | cons x r =>
        rw [List.map_cons, List.cons.injEq, ← ih r]
        cases hr : lookupAll m ts with
        | error e => simp
        | ok r' => simp

/-- A list of tags: it works exactly when each tag is there; then each sequence has the tag which was asked for, and is the last entry with it. -/
theorem by_tags {α : Type} (c : Cfg) (d : Ds α) (epoch : Option Nat) (ts : List Nat) :
    ((∃ o, initSeqOrder c d epoch (some ts) none = .ok o) ↔ ∀ t ∈ ts, ∃ i, i < d.n ∧ d.tag i = t) ∧
    ∀ o, initSeqOrder c d epoch (some ts) none = .ok o → o.map d.tag = ts ∧ ∀ i ∈ o, i < d.n ∧ ∀ j, i < j → j < d.n → d.tag j ≠ d.tag i := by
  have hinit : initSeqOrder c d epoch (some ts) none = lookupAll (tagToIdx d) ts := rfl
  rw [hinit]
  have hsome : ∀ t, (∃ i, (tagToIdx d).get? t = some i) ↔ ∃ i, i < d.n ∧ d.tag i = t := by
    intro t
    constructor
    · rintro ⟨i, hi⟩
      obtain ⟨h1, h2, _⟩ := (tagToIdx_aux d d.n t i).1 hi
      exact ⟨i, h1, h2⟩
    · rintro ⟨i, h1, h2⟩
      -- the last one
      have hk : t ∈ (tagToIdx d).keys := by
        unfold tagToIdx
        have : ∀ n, i < n → t ∈ ((List.range n).foldl (fun (m : Dict Nat Nat) i => m.set (d.tag i) i) []).keys := by
          intro n
          induction n with
          | zero => intro h; omega
          | succ n ih =>
            intro h
            rw [List.range_succ, List.foldl_append, List.foldl_cons, List.foldl_nil, ← Dict.get?_isSome, Dict.get?_set]
            by_cases ht : d.tag n = t
            · rw [if_pos ht]; rfl
            · rw [if_neg ht]
              have hin : i ≠ n := by intro e; rw [e] at h2; exact ht h2
              exact (Dict.get?_isSome _ _).2 (ih (by omega))
        exact this d.n h1
      exact Option.isSome_iff_exists.1 ((Dict.get?_isSome _ _).2 hk)
  constructor
  · constructor
    · rintro ⟨o, ho⟩ t ht
      rw [lookupAll_spec] at ho
      have : (tagToIdx d).get? t ∈ o.map some := by
        rw [← ho]
        exact List.mem_map_of_mem ht
      obtain ⟨i, _, hi⟩ := List.mem_map.1 this
      exact (hsome t).1 ⟨i, hi.symm⟩
    · intro h
      induction ts with
      | nil => exact ⟨[], rfl⟩
      | cons t ts ih =>
        obtain ⟨o, ho⟩ := ih rfl (fun t' ht' => h t' (by simp [ht']))
        obtain ⟨i, hi⟩ := (hsome t).2 (h t (by simp))
        refine ⟨i :: o, ?_⟩
        rw [lookupAll_spec] at ho ⊢
        simp [hi, ho]
  · intro o ho
    rw [lookupAll_spec] at ho
    have hpt : ∀ (ts o : List Nat), ts.map (tagToIdx d).get? = o.map some → o.map d.tag = ts ∧ ∀ i ∈ o, i < d.n ∧ ∀ j, i < j → j < d.n → d.tag j ≠ d.tag i := by
      intro ts
      induction ts with
      | nil =>
        intro o h
        cases o with
        | nil => exact ⟨rfl, by intro i hi; cases hi⟩
        | cons x r => cases h
      | cons t ts ih =>
        intro o h
        cases o with
        | nil => cases h
        | cons x r =>
          rw [List.map_cons, List.map_cons, List.cons.injEq] at h
          obtain ⟨h1, h2, h3⟩ := (tagToIdx_aux d d.n t x).1 h.1
          obtain ⟨g1, g2⟩ := ih r h.2
          refine ⟨by rw [List.map_cons, h2, g1], ?_⟩
          intro i hi
          rcases List.mem_cons.1 hi with e | hi
          · rw [e]
            exact ⟨h1, by rw [h2]; exact h3⟩
          · exact g2 i hi
    exact hpt ts o ho

/-- A given order is taken as it is; both are refused. -/
theorem given_order {α : Type} (c : Cfg) (d : Ds α) (epoch : Option Nat) (o ts : List Nat) : initSeqOrder c d epoch none (some o) = .ok o ∧ initSeqOrder c d epoch (some ts) (some o) = .error .assertion := ⟨rfl, rfl⟩

/-- The user's own order comes first, whatever the options are. -/
theorem own_order {α : Type} (c : Cfg) (d : Ds α) (epoch : Option Nat) (o : List Nat) (h : d.seqOrder epoch = .ok o) : initSeqOrder c d epoch none none = .ok o := by
  simp only [initSeqOrder, epochOrder, h]

/-- Without an own order it is the one by the options, with the lengths; when there are none although they are asked for, only the orders without lengths are possible. -/
theorem option_order {α : Type} (c : Cfg) (d : Ds α) (epoch : Option Nat) (h : d.seqOrder epoch = .error optional) :
    (∀ o, c.order epoch d.n (some d.seqLen) = .ok o → initSeqOrder c d epoch none none = .ok o) ∧
    (c.order epoch d.n (some d.seqLen) = .error optional → initSeqOrder c d epoch none none = if c.plain then c.order epoch d.n none else .error .assertion) ∧
    (∀ e, e ≠ optional → c.order epoch d.n (some d.seqLen) = .error e → initSeqOrder c d epoch none none = .error e) := by
  refine ⟨?_, ?_, ?_⟩
  · intro o ho
    simp only [initSeqOrder, epochOrder, h, if_true, byLens, ho]
  · intro ho
    simp only [initSeqOrder, epochOrder, h, if_true, byLens, ho]
    rfl
  · intro e he ho
    simp only [initSeqOrder, epochOrder, h, if_true, byLens, ho, if_neg he]

/-- Reading: tag and data of the entry in the order; the number of sequences is the length of the order; out of it there is an index error, before it is set other errors. -/
theorem reading {α : Type} (d : Ds α) (o : List Nat) : numSeqs (some o) = .ok o.length ∧
    (∀ (i j : Nat) (x : α), o[i]? = some j → d.item j = .ok x → collect d (some o) i = .ok (d.tag j, x) ∧ getTag d (some o) i = .ok (d.tag j)) ∧
    (∀ (i j : Nat) (e : Err), o[i]? = some j → d.item j = .error e → collect d (some o) i = .error e) ∧
    (∀ i, o.length ≤ i → collect d (some o) i = .error .indexError ∧ getTag d (some o) i = .error .indexError) ∧ numSeqs none = .error .notImplemented ∧ ∀ i, collect d none i = .error .typeError := by
  refine ⟨rfl, ?_, ?_, ?_, rfl, fun _ => rfl⟩
  · intro i j x hi hx
    simp only [collect, getTag, corpusIdx, hi, hx, bind, Except.bind, and_self]
  · intro i j e hi hx
    simp only [collect, corpusIdx, hi, hx, bind, Except.bind]
  · intro i hi
    simp only [collect, getTag, corpusIdx, List.getElem?_eq_none hi, bind, Except.bind, and_self]

/-- A list of tags, read: sequence `i` has the tag at place `i`. -/
theorem tags_read {α : Type} (c : Cfg) (d : Ds α) (epoch : Option Nat) (ts o : List Nat) (h : initSeqOrder c d epoch (some ts) none = .ok o) : numSeqs (some o) = .ok ts.length ∧ ∀ i t, ts[i]? = some t → getTag d (some o) i = .ok t := by
  obtain ⟨h1, _⟩ := (by_tags c d epoch ts).2 o h
  have hl : o.length = ts.length := by
    have := congrArg List.length h1
    simpa using this
  refine ⟨by simp only [numSeqs, hl], ?_⟩
  intro i t hi
  rw [← h1, List.getElem?_map] at hi
  cases ho : o[i]? with
  | none => rw [ho] at hi; cases hi
  | some j =>
    rw [ho] at hi
    simp only [Option.map_some, Option.some.injEq] at hi
    simp only [getTag, corpusIdx, ho, bind, Except.bind, hi]

/-- All tags. -/
theorem all_tags {α : Type} (d : Ds α) (i : Nat) : (allTags d)[i]? = if i < d.n then some (d.tag i) else none := by
  unfold allTags
  rw [List.getElem?_map]
  by_cases h : i < d.n
  · rw [List.getElem?_range h, if_pos h]; rfl
  · rw [List.getElem?_eq_none (by simpa using h), if_neg h]; rfl

/-- Whether sorting is possible: for all objects where lengths are there, or said to be optional. -/
theorem sorting_known {α : Type} (d : Ds α) (h : (∃ n, d.seqLen 0 = .ok n) ∨ d.seqLen 0 = .error optional) : supportsSorting d = .ok true ∨ supportsSorting d = .ok false := by
  rcases h with ⟨n, h⟩ | h
  · left; simp only [supportsSorting, h]
  · right; simp only [supportsSorting, h, if_true]

/-! ## FromListDataset -/

/-- Lengths and entries of a list. -/
theorem list_entries {α : Type} (l : List (Entry α)) (k i : Nat) (e : Entry α) (h : l[i]? = some e) : (fromList l (some k)).item i = .ok e ∧ (fromList l (some k)).n = l.length ∧ ∀ n, e.lens.get? k = some n → (fromList l (some k)).seqLen i = .ok n := by
  refine ⟨by simp only [fromList, listItem, h], rfl, ?_⟩
  intro n hn
  simp only [fromList, listSeqLen, h, Dict.getItem, hn]

/-- Asking a list without `sort_data_key` whether it can be sorted is an error, instead of no; the same for an empty list. -/
theorem list_sorting_error {α : Type} (l : List (Entry α)) : supportsSorting (fromList l none) = .error .assertion ∧ ∀ k, supportsSorting (fromList ([] : List (Entry α)) (some k)) = .error .indexError := by
  constructor
  · simp [supportsSorting, fromList, listSeqLen, optional]
  · intro k
    simp [supportsSorting, fromList, listSeqLen, optional]

/-! ## Example -/

/-- Three entries, two with the same tag. -/
def exDs : Ds Nat := ⟨3, fun i => .ok (10 * i), fun i => if i = 1 then 8 else 7, fun _ => .error optional, fun _ => .error optional⟩
/-- Sorted by length, with the first length. -/
def exSorted : Option Nat → Nat → Option (Nat → Res Nat) → Res (List Nat)
  | _, n, some f => (f 0).map (fun _ => List.range n)
  | _, n, none => .ok (List.range n)
def exCfg : Cfg := ⟨false, exSorted⟩

example : initSeqOrder exCfg exDs (some 1) (some [7, 8, 7]) none = .ok [2, 1, 2] := by decide +kernel
example : initSeqOrder exCfg exDs (some 1) (some [9]) none = .error .keyError := by decide +kernel
example : collect exDs (some [2, 1, 2]) 0 = .ok (7, 20) := by decide +kernel
example : exDs.seqOrder (some 1) = .error optional ∧ exCfg.order (some 1) exDs.n (some exDs.seqLen) = .error optional := ⟨rfl, rfl⟩
example : initSeqOrder exCfg exDs (some 1) none none = .error .assertion := by decide +kernel

end Verif.MapDs
