import Verif.Pipeline.Spec
import Verif.Pipeline.Props
import Verif.SeqOrder.Lemmas
import Mathlib.Data.List.Nodup
/-
Theorems about the chunking pipe (C10), the length filter and the shuffling pipe (C11).
-/
namespace Verif.Pipeline
open Verif.Py Verif.NumbersDict Verif.ListLemmas

variable {K α : Type} [DecidableEq K]

/-! ### Chunking -/

theorem lt_ceil (n s i : Nat) (hs : 0 < s) : i < (n + s - 1) / s ↔ i * s < n := by
  rw [Nat.lt_iff_add_one_le, Nat.le_div_iff_mul_le hs, Nat.add_mul]
  omega

theorem filter_map_range_antitone {β : Type} (f : Nat → β) (p : β → Bool) (m : Nat)
    (h : ∀ i j, i ≤ j → j < m → p (f j) = true → p (f i) = true) (i : Nat) :
    (((List.range m).map f).filter p)[i]? = if i < m ∧ p (f i) = true then some (f i) else none := by
  induction m with
  | zero => simp
  | succ m ih =>
    have ih := ih (fun i j hij hj => h i j hij (by omega))
    rw [List.range_succ, List.map_append, List.filter_append]
    by_cases hm : p (f m) = true
    · have hall : ((List.range m).map f).filter p = (List.range m).map f := by
        rw [List.filter_eq_self]
        intro x hx
        obtain ⟨j, hj, rfl⟩ := List.mem_map.mp hx
        exact h j m (by simp at hj; omega) (by omega) hm
      rw [hall]
      simp only [List.map_cons, List.map_nil, List.filter_cons, hm, if_true, List.filter_nil]
      by_cases hi : i < m
      · rw [List.getElem?_append_left (by simpa using hi)]
        have : p (f i) = true := h i m (by omega) (by omega) hm
        simp [hi, this, Nat.lt_succ_of_lt hi]
      · by_cases him : i = m
        · subst him; simp [hm]
        · rw [List.getElem?_eq_none (by simp; omega)]
          simp [show ¬ i < m + 1 by omega]
    · simp only [List.map_cons, List.map_nil, List.filter_cons, hm, Bool.false_eq_true, if_false, List.filter_nil,
        List.append_nil]
      rw [ih]
      by_cases hi : i < m
      · simp [hi, Nat.lt_succ_of_lt hi]
      · by_cases him : i = m
        · subst him; simp [hm]
        · simp [hi, show ¬ i < m + 1 by omega]

theorem length_slice (l : List α) (s e : Nat) : (slice l s e).length = min e l.length - s := by
  simp [slice]

/-- C10: chunk `i` is exactly the frames `[i*step, i*step+size)`, cut at the end; chunks shorter than `min_chunk_size`
are left out (they can only be at the end), nothing else. -/
theorem chunks_getElem (data : List α) (size step : Nat) (hs : 0 < step) (minSize : Int) :
    ∃ cs, chunks data size step minSize = .ok cs ∧ ∀ i, cs[i]? =
      if i * step < data.length ∧ minSize ≤ ((min size (data.length - i * step) : Nat) : Int)
      then some (slice data (i * step) (i * step + size)) else none := by
  have h0 : ¬ ((step : Int) = 0) := by omega
  have h1 : ¬ ((step : Int) < 0) := by omega
  refine ⟨_, by simp only [chunks, pyRange0, h0, h1, if_false, bind, Except.bind]; rfl, ?_⟩
  intro i
  rw [List.map_map]
  have hlen : ∀ j, j * step < data.length →
      (slice data (j * step) (j * step + size)).length = min size (data.length - j * step) := by
    intro j hj; rw [length_slice]; omega
  rw [filter_map_range_antitone]
  · simp only [Function.comp_apply, Int.toNat_natCast, lt_ceil _ _ _ hs, decide_eq_true_eq]
    by_cases hi : i * step < data.length
    · simp [hi, hlen i hi]
    · simp [hi]
  · intro a b hab hb hp
    simp only [Function.comp_apply, Int.toNat_natCast, decide_eq_true_eq] at hp ⊢
    rw [Int.toNat_natCast, lt_ceil _ _ _ hs] at hb
    have hle : a * step ≤ b * step := Nat.mul_le_mul_right _ hab
    rw [hlen b hb] at hp
    rw [hlen a (by omega)]
    omega

/-- C10: with `step <= size` and no minimal chunk size, every frame is in some chunk at its place. -/
theorem chunks_cover (data : List α) (size step : Nat) (hs : 0 < step) (hle : step ≤ size) (minSize : Int)
    (hm : minSize ≤ 1) :
    ∃ cs, chunks data size step minSize = .ok cs ∧
      ∀ j < data.length, ∃ i c, cs[i]? = some c ∧ i * step ≤ j ∧ c[j - i * step]? = data[j]? := by
  obtain ⟨cs, h1, h2⟩ := chunks_getElem data size step hs minSize
  refine ⟨cs, h1, ?_⟩
  intro j hj
  have hdm := Nat.div_add_mod j step
  have hmod := Nat.mod_lt j hs
  have hmul : step * (j / step) = j / step * step := Nat.mul_comm _ _
  have hle2 : j / step * step ≤ j := by omega
  refine ⟨j / step, slice data (j / step * step) (j / step * step + size), ?_, hle2, ?_⟩
  · rw [h2, if_pos]
    constructor <;> omega
  · unfold slice
    rw [List.getElem?_drop, show j / step * step + (j - j / step * step) = j by omega, List.getElem?_take]
    rw [if_pos (by omega)]

/-- C10: with `step == size` and no minimal chunk size, the chunks concatenate to the seq. -/
theorem chunks_concat (data : List α) (size : Nat) (hs : 0 < size) (minSize : Int) (hm : minSize ≤ 1) :
    ∃ cs, chunks data size size minSize = .ok cs ∧ cs.flatten = data := by
  have h0 : ¬ ((size : Int) = 0) := by omega
  have h1 : ¬ ((size : Int) < 0) := by omega
  refine ⟨_, by simp only [chunks, pyRange0, h0, h1, if_false, bind, Except.bind]; rfl, ?_⟩
  rw [List.map_map, Int.toNat_natCast]
  have hall : ((List.range ((data.length + size - 1) / size)).map
      ((fun s => slice data s (s + size)) ∘ fun x => x * size)).filter (fun c => decide ((c.length : Int) ≥ minSize))
      = (List.range ((data.length + size - 1) / size)).map ((fun s => slice data s (s + size)) ∘ fun x => x * size) := by
    rw [List.filter_eq_self]
    intro x hx
    obtain ⟨j, hj, rfl⟩ := List.mem_map.mp hx
    rw [List.mem_range, lt_ceil _ _ _ hs] at hj
    simp only [Function.comp_apply, decide_eq_true_eq, length_slice]
    omega
  rw [hall, ← List.flatMap_def]
  have := flatMap_slices data (fun k => k * size) (by simp) (fun k => Nat.mul_le_mul_right _ (by omega))
    ((data.length + size - 1) / size)
  simp only [Nat.add_mul, Nat.one_mul] at this
  show (List.range _).flatMap (fun x => slice data (x * size) (x * size + size)) = _
  unfold slice
  rw [this, List.take_of_length_le]
  by_contra hc
  have := (lt_ceil data.length size ((data.length + size - 1) / size) hs).mpr (by omega)
  omega

/-- C10: a step of zero is an error; a negative step gives no chunk at all. -/
theorem chunks_bad_step (data : List α) (size : Nat) (minSize : Int) :
    chunks data size 0 minSize = .error .valueError ∧
    ∀ step : Int, step < 0 → chunks data size step minSize = .ok [] := by
  refine ⟨rfl, fun step h => ?_⟩
  simp [chunks, pyRange0, h, show step ≠ 0 by omega, bind, Except.bind]

example : chunks [0, 1, 2, 3, 4, 5, 6] 4 3 0 = .ok [[0, 1, 2, 3], [3, 4, 5, 6], [6]] := by decide
example : chunks [0, 1, 2, 3, 4, 5, 6] 4 3 2 = .ok [[0, 1, 2, 3], [3, 4, 5, 6]] := by decide

theorem get?_map_snd {V W : Type} (f : V → W) (d : Dict K V) (k : K) :
    Dict.get? (d.map (fun e => (e.1, f e.2))) k = (d.get? k).map f := get?_map_val f d k

theorem get?_append {V : Type} (d d' : Dict K V) (k : K) :
    Dict.get? (d ++ d') k = (d.get? k).or (Dict.get? d' k) := by
  induction d with
  | nil => rfl
  | cons e d ih =>
    obtain ⟨k0, v0⟩ := e
    simp only [List.cons_append, Dict.get?]
    split
    · rfl
    · exact ih

theorem get?_filter_key {V : Type} (d : Dict K V) (p : K → Bool) (k : K) :
    Dict.get? (d.filter (fun e => p e.1)) k = if p k then d.get? k else none := by
  induction d with
  | nil => simp [Dict.get?]
  | cons e d ih =>
    obtain ⟨k0, v0⟩ := e
    rw [List.filter_cons]
    by_cases h : p k0 = true
    · simp only [h, if_true, Dict.get?]
      by_cases hk : k0 = k
      · subst hk; simp [h]
      · simp [hk, ih]
    · simp only [h, Bool.false_eq_true, if_false, Dict.get?]
      by_cases hk : k0 = k
      · subst hk; rw [ih]; simp [h]
      · simp [hk, ih]

theorem chunkKeys_spec (o : ChunkOpts K) (d : Dict K (List α)) (keys : List K) (n : Option Nat)
    (dc : Dict K (List (List α))) (n' : Option Nat) (h : chunkKeys o d keys n = .ok (dc, n')) :
    dc.keys = keys ∧ (∀ m, n = some m → n' = some m) ∧ (keys ≠ [] → n' ≠ none) ∧
    ∀ e ∈ dc, n' = some e.2.length ∧ ∃ size step minSize data, ndItem o.size e.1 = .ok size ∧
      ndItem o.step e.1 = .ok step ∧ ndItem o.minSize e.1 = .ok minSize ∧ d.get? e.1 = some data ∧
      chunks data size step minSize = .ok e.2 := by
  induction keys generalizing n dc n' with
  | nil =>
    simp only [chunkKeys, Except.ok.injEq, Prod.mk.injEq] at h
    obtain ⟨rfl, rfl⟩ := h
    exact ⟨rfl, fun m h => h, fun h => absurd rfl h, by simp⟩
  | cons k ks ih =>
    unfold chunkKeys at h
    simp only [bind, Except.bind] at h
    cases h1 : ndItem o.size k with
    | error e => rw [h1] at h; cases h
    | ok size =>
    cases h2 : ndItem o.step k with
    | error e => rw [h1, h2] at h; cases h
    | ok step =>
    cases h3 : ndItem o.minSize k with
    | error e => rw [h1, h2, h3] at h; cases h
    | ok minSize =>
    cases h4 : d.getItem k with
    | error e => rw [h1, h2, h3, h4] at h; cases h
    | ok data =>
    cases h5 : chunks data size step minSize with
    | error e => rw [h1, h2, h3, h4] at h; simp only [h5] at h; cases h
    | ok cs =>
    rw [h1, h2, h3, h4] at h
    simp only [h5] at h
    have hd : d.get? k = some data := by
      unfold Dict.getItem at h4
      cases hg : d.get? k with
      | none => rw [hg] at h4; cases h4
      | some v => rw [hg] at h4; injection h4 with h4; rw [h4]
    have key : ∀ (hn : n = none ∨ n = some cs.length),
        (∃ rest, chunkKeys o d ks (some (n.getD cs.length)) = .ok (rest, n') ∧ dc = (k, cs) :: rest) →
        Dict.keys dc = k :: ks ∧ (∀ m, n = some m → n' = some m) ∧ (k :: ks ≠ [] → n' ≠ none) ∧
          ∀ e ∈ dc, n' = some e.2.length ∧ ∃ size step minSize data, ndItem o.size e.1 = .ok size ∧
            ndItem o.step e.1 = .ok step ∧ ndItem o.minSize e.1 = .ok minSize ∧ d.get? e.1 = some data ∧
            chunks data size step minSize = .ok e.2 := by
      intro hn hh
      have hnn : n.getD cs.length = cs.length := by rcases hn with rfl | rfl <;> rfl
      rw [hnn] at hh
      obtain ⟨rest, hc, rfl⟩ := hh
      obtain ⟨i1, i2, i3, i4⟩ := ih _ _ _ hc
      have hn' := i2 _ rfl
      exact ⟨by simp [Dict.keys] at i1 ⊢; exact i1, by
            intro m hm
            rcases hn with rfl | rfl
            · cases hm
            · injection hm with hm; rw [← hm]; exact hn', fun _ => by rw [hn']; simp, by
            intro e he
            rcases List.mem_cons.mp he with rfl | he
            · exact ⟨hn', size, step, minSize, data, h1, h2, h3, hd, h5⟩
            · exact i4 e he⟩
    cases n with
    | none =>
      refine key (.inl rfl) ?_
      simp only [Option.getD_none] at h ⊢
      cases hc : chunkKeys o d ks (some cs.length) with
      | error e => rw [hc] at h; cases h
      | ok r => rw [hc] at h; cases h; exact ⟨_, rfl, rfl⟩
    | some m =>
      by_cases hm : m = cs.length
      · subst hm
        refine key (.inr rfl) ?_
        simp only [pyAssert, decide_true, if_true, Option.getD_some] at h ⊢
        cases hc : chunkKeys o d ks (some cs.length) with
        | error e => rw [hc] at h; cases h
        | ok r => rw [hc] at h; cases h; exact ⟨_, rfl, rfl⟩
      · simp [pyAssert, hm] at h

/-- C10 for a seq with several data keys: if the pipe does not fail, all chunked keys have the same number of chunks,
which is the number of outputs; output `i` has chunk `i` of each chunked key and the unchanged data of the others. -/
theorem chunkSeq_spec (o : ChunkOpts K) (keys : List K) (hk : keys ≠ []) (hnd : keys.Nodup) (d : Dict K (List α))
    (outs : List (Dict K (List α))) (h : chunkSeq o keys d = .ok outs) :
    (∀ k ∈ keys, ∃ size step minSize data cs, ndItem o.size k = .ok size ∧ ndItem o.step k = .ok step ∧
      ndItem o.minSize k = .ok minSize ∧ d.get? k = some data ∧ chunks data size step minSize = .ok cs ∧
      cs.length = outs.length ∧ ∀ (i : Nat) (out : Dict K (List α)), outs[i]? = some out → out.get? k = cs[i]?) ∧
    (∀ k, k ∉ keys → ∀ out ∈ outs, out.get? k = d.get? k) := by
  unfold chunkSeq at h
  simp only [bind, Except.bind] at h
  cases hc : chunkKeys o d keys none with
  | error e => rw [hc] at h; cases h
  | ok r =>
    obtain ⟨dc, n⟩ := r
    rw [hc] at h
    simp only [Except.ok.injEq] at h
    obtain ⟨h1, _, h3, h4⟩ := chunkKeys_spec o d keys none dc n hc
    obtain ⟨m, hm⟩ : ∃ m, n = some m := Option.ne_none_iff_exists'.mp (h3 hk)
    subst hm
    simp only [Option.getD_some] at h
    have hwf : Dict.Wf dc := by unfold Dict.Wf; rw [h1]; exact hnd
    have hget : ∀ i k, (chunkOut d dc i).get? k
        = if k ∈ keys then (Dict.get? dc k).map (fun cs => cs.getD i []) else d.get? k := by
      intro i k
      unfold chunkOut
      rw [get?_append, show (List.map (fun e : K × List (List α) => (e.1, e.2.getD i [])) dc)
        = dc.map (fun e => (e.1, (fun cs : List (List α) => cs.getD i []) e.2)) from rfl,
        get?_map_snd (fun cs : List (List α) => cs.getD i []), get?_filter_key d (fun k => !decide (k ∈ dc.keys))]
      by_cases hkk : k ∈ keys
      · obtain ⟨cs, hcs⟩ := Option.isSome_iff_exists.mp ((Dict.get?_isSome dc k).mpr (by rw [h1]; exact hkk))
        rw [hcs]; simp [hkk]
      · have : Dict.get? dc k = none := by rw [Dict.get?_eq_none, h1]; exact hkk
        rw [this, h1]; simp [hkk]
    subst h
    constructor
    · intro k hkk
      obtain ⟨cs, hcs⟩ := Option.isSome_iff_exists.mp ((Dict.get?_isSome dc k).mpr (by rw [h1]; exact hkk))
      obtain ⟨e1, size, step, minSize, data, e2, e3, e4, e5, e6⟩ := h4 _ (Dict.mem_of_get? hcs)
      injection e1 with e1
      refine ⟨size, step, minSize, data, cs, e2, e3, e4, e5, e6, by simp [e1], ?_⟩
      intro i out hout
      rw [List.getElem?_map] at hout
      have hi : i < m := by
        by_contra hge
        rw [List.getElem?_eq_none (by simpa using hge)] at hout
        cases hout
      rw [List.getElem?_range hi] at hout
      simp only [Option.map_some, Option.some.injEq] at hout
      subst hout
      rw [hget, hcs]
      simp only [hkk, if_true, Option.map_some, List.getD]
      have hi' : i < cs.length := by simp only at e1; omega
      rw [List.getElem?_eq_getElem hi']; rfl
    · intro k hkk out hout
      obtain ⟨i, _, rfl⟩ := List.mem_map.mp hout
      rw [hget]; simp [hkk]

/-- C10: the pipe handles each seq on its own, in order. -/
theorem chunking_stream (o : ChunkOpts K) (bl : List K) (hk : o.size.dict.keys ≠ []) (ds : List (Dict K (List α)))
    (out : List (Dict K (List α))) (h : chunking o bl ds = .ok out) :
    ∃ outs : List (List (Dict K (List α))), out = outs.flatten ∧
      List.Forall₂ (fun d r => chunkSeq o o.size.dict.keys d = .ok r) ds outs := by
  have hne : o.size.dict.keys.isEmpty = false := by cases hh : o.size.dict.keys <;> simp_all
  unfold chunking at h
  induction ds generalizing out with
  | nil =>
    simp only [chunkLoop, Except.ok.injEq] at h
    exact ⟨[], by simp [← h], .nil⟩
  | cons d ds ih =>
    unfold chunkLoop at h
    simp only [hne, Bool.false_eq_true, if_false, bind, Except.bind] at h
    cases h1 : chunkSeq o o.size.dict.keys d with
    | error e => rw [h1] at h; cases h
    | ok r =>
      rw [h1] at h
      simp only at h
      cases h2 : chunkLoop o bl ds o.size.dict.keys with
      | error e => rw [h2] at h; cases h
      | ok r2 =>
        rw [h2] at h
        simp only [Except.ok.injEq] at h
        obtain ⟨outs, h3, h4⟩ := ih r2 h2
        exact ⟨r :: outs, by rw [← h, h3]; rfl, .cons h1 h4⟩

/-- C10: different numbers of chunks for different keys make the pipe fail. -/
theorem chunking_mismatch_fails :
    chunking (α := Nat) ⟨ofDict [("data", 2), ("classes", 2)], ofDict [("data", 2), ("classes", 1)],
        ofScalar 0⟩ [] [[("data", [1, 2, 3]), ("classes", [1, 2, 3])]] = .error .assertion := by decide

example : chunking (α := Nat) ⟨ofDict [("data", 2), ("classes", 1)], ofDict [("data", 2), ("classes", 1)],
        ofScalar 0⟩ [] [[("data", [1, 2, 3]), ("classes", [8, 9]), ("seq_tag", [7])]]
    = .ok [[("data", [1, 2]), ("classes", [8]), ("seq_tag", [7])],
           [("data", [3]), ("classes", [9]), ("seq_tag", [7])]] := by decide

/-! ### Length filter -/

theorem lenCompare_iff (lens : Dict K Nat) (lim : ND K Int) (hn : NoNone lim) (cmp : Int → Int → Bool) :
    ∃ r, anyCompare (seqLengths lens) lim cmp = .ok r ∧
      (r = true ↔ ∃ k n L, lens.get? k = some n ∧ HasNumber lim k L ∧ cmp n L = true) := by
  obtain ⟨r, h1, h2⟩ := anyCompare_iff (seqLengths lens) lim (noNone_seqLengths lens) hn cmp
  refine ⟨r, h1, h2.trans ?_⟩
  unfold AnyCompares
  constructor
  · rintro (⟨k, _, x, L, h3, h4, h5⟩ | ⟨x, _, h3, _⟩)
    · rw [get_seqLengths] at h3
      cases hg : lens.get? k with
      | none => rw [hg] at h3; cases h3
      | some n =>
        rw [hg] at h3
        simp only [Option.map_some, Option.some.injEq] at h3
        exact ⟨k, n, L, hg, (get_iff lim hn k L).mp h4, by rw [h3]; exact h5⟩
    · cases h3
  · rintro ⟨k, n, L, h3, h4, h5⟩
    left
    refine ⟨k, ?_, n, L, by rw [get_seqLengths, h3]; rfl, (get_iff lim hn k L).mpr h4, h5⟩
    rw [keys_seqLengths, ← Dict.get?_isSome, h3]; rfl

open Classical in
/-- C11: the length filter outputs exactly the seqs within the limits, in order. -/
theorem lenFilter_correct (lens : α → Dict K Nat) (minLen maxLen : ND K Int) (h1 : NoNone minLen) (h2 : NoNone maxLen)
    (stream : List α) :
    lenFilter lens minLen maxLen stream = .ok (stream.filter (fun x => decide (InRange (lens x) minLen maxLen))) := by
  induction stream with
  | nil => rfl
  | cons x xs ih =>
    obtain ⟨r, ha, hb⟩ := lenCompare_iff (lens x) minLen h1 (fun a b => decide (a < b))
    obtain ⟨r', ha', hb'⟩ := lenCompare_iff (lens x) maxLen h2 (fun a b => decide (a > b))
    have hin : InRange (lens x) minLen maxLen ↔ r = false ∧ r' = false := by
      rw [← Bool.not_eq_true, ← Bool.not_eq_true, hb, hb']
      constructor
      · intro h
        constructor
        · rintro ⟨k, n, L, h3, h4, h5⟩
          have := (h k n h3).1 L h4
          simp only [decide_eq_true_eq] at h5; omega
        · rintro ⟨k, n, L, h3, h4, h5⟩
          have := (h k n h3).2 L h4
          simp only [decide_eq_true_eq] at h5; omega
      · rintro ⟨h3, h4⟩ k n hk
        constructor
        · intro L hL
          by_contra hc
          exact h3 ⟨k, n, L, hk, hL, by simp; omega⟩
        · intro L hL
          by_contra hc
          exact h4 ⟨k, n, L, hk, hL, by simp; omega⟩
    unfold lenFilter
    simp only [bind, Except.bind, ha, ha', ih, List.filter_cons]
    cases r <;> cases r' <;> simp [hin]

example : lenFilter (fun x : Nat => [("data", x)]) (ofScalar 2) (ofDict [("data", 5), ("other", 1)]) [1, 2, 5, 6, 3]
    = .ok [2, 5, 3] := by decide

/-! ### Shuffling -/

theorem drain_spec {γ : Type} (buf next rest : List γ) :
    drain buf next rest false
      = if buf.length ≤ rest.length then (next ++ rest.take buf.length, rest.drop buf.length, false)
        else (next ++ rest, [], true) := by
  have hend : ∀ (buf next rest : List γ), drain buf next rest true = (next, rest, true) := by
    intro buf
    induction buf with
    | nil => intro next rest; rfl
    | cons a buf ih => intro next rest; simp only [drain, if_true]; exact ih next rest
  induction buf generalizing next rest with
  | nil => simp [drain]
  | cons a buf ih =>
    cases rest with
    | nil => simp [drain, hend]
    | cons y rest =>
      simp only [drain, Bool.false_eq_true, if_false]
      rw [ih]
      simp only [List.length_cons, Nat.add_le_add_iff_right, List.take_succ_cons, List.drop_succ_cons]
      split <;> simp

theorem drain_ended {γ : Type} (buf next rest : List γ) : drain buf next rest true = (next, rest, true) := by
  induction buf generalizing next rest with
  | nil => rfl
  | cons a buf ih => simp only [drain, if_true]; exact ih next rest

theorem putBatch_spec {β μ : Type} (b : SBatch β μ) (ms : List μ) (h : b.length ≤ ms.length) :
    (putBatch b ms).1.map Prod.fst = b.map Prod.fst ∧ (putBatch b ms).1.map Prod.snd = ms.take b.length ∧
    (putBatch b ms).2 = ms.drop b.length := by
  induction b generalizing ms with
  | nil => simp [putBatch]
  | cons e b ih =>
    obtain ⟨x, m⟩ := e
    cases ms with
    | nil => simp at h
    | cons m' ms =>
      obtain ⟨h1, h2, h3⟩ := ih ms (by simpa using h)
      simp [putBatch, h1, h2, h3]

theorem putMono_spec {β μ : Type} (bs : List (SBatch β μ)) (ms : List μ) (h : bs.flatten.length = ms.length) :
    (putMono bs ms).map strip = bs.map strip ∧ ((putMono bs ms).flatten).map Prod.snd = ms ∧
    (putMono bs ms).length = bs.length := by
  induction bs generalizing ms with
  | nil =>
    simp at h
    simp [putMono, List.eq_nil_of_length_eq_zero h.symm]
  | cons b bs ih =>
    rw [List.flatten_cons, List.length_append] at h
    obtain ⟨h1, h2, h3⟩ := putBatch_spec b ms (by omega)
    obtain ⟨i1, i2, i3⟩ := ih (ms.drop b.length) (by rw [List.length_drop]; omega)
    simp only [putMono, h3, List.map_cons, i1, List.flatten_cons, List.map_append, h2, i2, List.take_append_drop,
      List.length_cons, i3]
    exact ⟨by simp [strip, h1], trivial, trivial⟩

theorem perm_flatten_length {β : Type} {a b : List (List β)} (h : a.Perm b) : a.flatten.length = b.flatten.length :=
  h.flatten.length_eq

theorem shuffle_eq_map {γ : Type} (rng : SeqOrder.Rng) (seed : Int) (k : Nat) (l : List γ) (d : γ) :
    rng.shuffle seed k l = (rng.perm seed k l.length).map (fun i => l.getD i d) := by
  unfold SeqOrder.Rng.shuffle
  have hlt : ∀ i ∈ rng.perm seed k l.length, i < l.length := by
    intro i hi
    simpa using (rng.isPerm seed k l.length).mem_iff.mp hi
  generalize rng.perm seed k l.length = p at hlt
  induction p with
  | nil => rfl
  | cons a p ih =>
    have ha : a < l.length := hlt a (by simp)
    rw [List.filterMap_cons, List.getElem?_eq_getElem ha]
    simp only [List.map_cons, List.getD, List.getElem?_eq_getElem ha, Option.getD_some]
    rw [ih (fun i hi => hlt i (by simp [hi]))]
    rfl

/-- One shuffled buffer. -/
theorem block_spec {β μ : Type} (rng : SeqOrder.Rng) (seed : Int) (round : Nat) (buf : List (SBatch β μ)) :
    (putMono (rng.shuffle seed round buf) (monoValues buf)).map strip
      = (rng.perm seed round buf.length).map (fun i => strip (buf.getD i [])) ∧
    ((putMono (rng.shuffle seed round buf) (monoValues buf)).flatten).map Prod.snd = buf.flatten.map Prod.snd ∧
    (putMono (rng.shuffle seed round buf) (monoValues buf)).length = buf.length := by
  have hp : (rng.shuffle seed round buf).Perm buf := SeqOrder.shuffle_perm rng seed round buf
  obtain ⟨h1, h2, h3⟩ := putMono_spec (rng.shuffle seed round buf) (monoValues buf) (by
    rw [perm_flatten_length hp]; unfold monoValues; rw [List.length_map])
  refine ⟨?_, h2, by rw [h3, hp.length_eq]⟩
  rw [h1, shuffle_eq_map rng seed round buf []]
  simp [List.map_map, Function.comp_def]

theorem shuffleLoop_spec {β μ : Type} (rng : SeqOrder.Rng) (seed : Int) (size : Nat) (hs : 0 < size) :
    ∀ (fuel round : Nat) (buf rest : List (SBatch β μ)) (ended : Bool),
      rest.length + (if buf.length < size then 0 else 1) < fuel → buf.length ≤ size →
      (buf.length < size → rest = []) → (ended = true → rest = []) → (buf = [] → ended = true) →
      ∃ out, shuffleLoop rng seed size fuel round buf rest ended = .ok out ∧ GoodShuffle size (buf ++ rest) out := by
  intro fuel
  induction fuel with
  | zero => intro round buf rest ended h; omega
  | succ fuel ih =>
    intro round buf rest ended hfuel hle hfull hend hempty
    obtain ⟨b1, b2, b3⟩ := block_spec rng seed round buf
    have hperm := rng.isPerm seed round buf.length
    have hplen : (rng.perm seed round buf.length).length = buf.length := by simpa using hperm.length_eq
    unfold shuffleLoop
    simp only
    by_cases hlt : buf.length < size
    · have hrest := hfull hlt
      subst hrest
      have hdr : drain (putMono (rng.shuffle seed round buf) (monoValues buf)) [] [] ended = ([], [], true) := by
        cases ended with
        | true => exact drain_ended _ _ _
        | false =>
          rw [drain_spec, b3]
          have : buf ≠ [] := fun h => by have := hempty h; cases this
          have : 0 < buf.length := List.length_pos_iff.mpr this
          simp [show ¬ (buf.length ≤ 0) by omega]
      rw [hdr]
      refine ⟨_, by simp [hlt, pyAssert, bind, Except.bind]; rfl, ⟨⟨rng.perm seed round buf.length, ?_, ?_, ?_⟩, ?_⟩⟩
      · simpa using hperm
      · simpa using b1
      · intro i j hij
        have hj : j < buf.length := by simpa using hperm.mem_iff.mp (List.mem_of_getElem? hij)
        have hi : i < buf.length := by
          rw [← hplen]
          by_contra hge
          rw [List.getElem?_eq_none (by omega)] at hij; cases hij
        rw [Nat.div_eq_of_lt (by omega), Nat.div_eq_of_lt (by omega)]
      · simpa using b2
    · have hsz : buf.length = size := by omega
      -- the next buffer
      have hdr : drain (putMono (rng.shuffle seed round buf) (monoValues buf)) [] rest ended
          = (rest.take size, rest.drop size, ended || decide (rest.length < size)) := by
        cases ended with
        | true => rw [drain_ended, hend rfl]; simp
        | false =>
          rw [drain_spec, b3, hsz]
          by_cases hc : size ≤ rest.length
          · simp [hc]
          · have hlt' : rest.length ≤ size := by omega
            simp only [hc, if_false, List.nil_append, Bool.false_or]
            rw [List.take_of_length_le hlt', List.drop_of_length_le hlt']
            simp; omega
      rw [hdr]
      simp only [hlt, if_false, bind, Except.bind]
      have hd : (rest.drop size).length = rest.length - size := List.length_drop
      have ht : (rest.take size).length = min size rest.length := List.length_take
      obtain ⟨out, ho, hg⟩ := ih (round + 1) (rest.take size) (rest.drop size) (ended || decide (rest.length < size))
        (by rw [hd, ht]; simp only [hlt, if_false] at hfuel; split <;> omega)
        (by rw [ht]; omega)
        (by intro h; rw [ht] at h; exact List.drop_of_length_le (by omega))
        (by
          intro h
          rw [Bool.or_eq_true, decide_eq_true_eq] at h
          rcases h with h | h
          · rw [hend h]; simp
          · exact List.drop_of_length_le (by omega))
        (by
          intro h
          have : (rest.take size).length = 0 := by rw [h]; rfl
          rw [ht] at this
          simp; right; omega)
      rw [List.take_append_drop] at hg
      rw [ho]
      refine ⟨_, rfl, ?_⟩
      obtain ⟨⟨p, p1, p2, p3⟩, p4⟩ := hg
      refine ⟨⟨rng.perm seed round buf.length ++ p.map (· + size), ?_, ?_, ?_⟩, ?_⟩
      · rw [List.length_append, List.range_add]
        refine hperm.append ?_
        rw [hsz]
        have := p1.map (· + size)
        refine this.trans (List.Perm.of_eq ?_)
        apply List.map_congr_left
        intro a _; omega
      · rw [List.map_append, b1, p2, List.map_append, List.map_map]
        congr 1
        · apply List.map_congr_left
          intro i hi
          have hi' : i < buf.length := by simpa using hperm.mem_iff.mp hi
          simp [List.getD, List.getElem?_append_left hi']
        · apply List.map_congr_left
          intro i _
          simp only [Function.comp_apply, List.getD]
          rw [List.getElem?_append_right (by omega), show i + size - buf.length = i by omega]
      · intro i j hij
        by_cases hi : i < size
        · rw [List.getElem?_append_left (by omega)] at hij
          have hj : j < buf.length := by simpa using hperm.mem_iff.mp (List.mem_of_getElem? hij)
          rw [Nat.div_eq_of_lt hi, Nat.div_eq_of_lt (by omega)]
        · rw [List.getElem?_append_right (by omega), hplen, hsz, List.getElem?_map] at hij
          cases hp : p[i - size]? with
          | none => rw [hp] at hij; cases hij
          | some j' =>
            rw [hp] at hij
            simp only [Option.map_some, Option.some.injEq] at hij
            subst hij
            have := p3 _ _ hp
            rw [Nat.add_div_right _ hs, this]
            have hii : i = (i - size) + size := by omega
            conv_rhs => rw [hii]
            rw [Nat.add_div_right _ hs]
      · rw [List.flatten_append, List.map_append, b2, p4, List.flatten_append, List.map_append]

/-- C11 (partial: the claim for the empty stream is false, see `shuffling_empty_fails`): buffered shuffling of any
non-empty stream, for every random generator: each batch exactly once, no batch
leaves its window of `buffer_size` batches, the values of the monotonic keys keep their order. -/
theorem shuffling_correct_partial {β μ : Type} (rng : SeqOrder.Rng) (seed : Int) (size : Nat) (hs : 0 < size)
    (stream : List (SBatch β μ)) (hne : stream ≠ []) :
    ∃ out, shuffling rng seed size stream = .ok out ∧ GoodShuffle size stream out := by
  obtain ⟨out, h1, h2⟩ := shuffleLoop_spec rng seed size hs (stream.length + 2) 0 (stream.take size) (stream.drop size)
    false (by simp only [List.length_drop]; split <;> omega) (by simp; omega)
    (by intro h; rw [List.length_take] at h; exact List.drop_of_length_le (by omega))
    (by intro h; cases h)
    (by
      intro h
      exfalso
      have : (stream.take size).length = 0 := by rw [h]; rfl
      rw [List.length_take] at this
      have := List.length_pos_iff.mpr hne
      omega)
  exact ⟨out, h1, by simpa using h2⟩

/-- Disagreement with C11: an empty stream makes the shuffling pipe fail. -/
theorem shuffling_empty_fails {β μ : Type} (rng : SeqOrder.Rng) (seed : Int) (size : Nat) (hs : 0 < size) :
    shuffling (β := β) (μ := μ) rng seed size [] = .error .assertion := by
  have : rng.shuffle seed 0 ([] : List (SBatch β μ)) = [] := by
    have := SeqOrder.shuffle_perm rng seed 0 ([] : List (SBatch β μ))
    simpa using this
  simp [shuffling, shuffleLoop, this, putMono, drain, hs, pyAssert, bind, Except.bind]

/-- A generator which reverses. -/
def revRng : SeqOrder.Rng := ⟨fun _ _ n => (List.range n).reverse, fun _ _ _ => List.reverse_perm _⟩

example : shuffling revRng 0 2 [[("a", 0)], [("b", 1), ("c", 2)], [("d", 3)]]
    = .ok [[("b", 0), ("c", 1)], [("a", 2)], [("d", 3)]] := by decide

end Verif.Pipeline
