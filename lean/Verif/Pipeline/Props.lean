import Verif.Pipeline.Spec
import Verif.NumbersDict.Props
import Verif.SeqOrder.Lemmas
/-
Theorems about batching (C08).
-/
namespace Verif.Pipeline
open Verif.Py Verif.NumbersDict

variable {K α : Type} [DecidableEq K]

/-- `m` has exactly the maximal lengths of the seqs `cur`. -/
structure Rep (lens : α → Dict K Nat) (cur : List α) (m : ND K Int) : Prop where
  nn : NoNone m
  keys : ∀ k, k ∈ m.dict.keys ↔ ∃ x ∈ cur, k ∈ (lens x).keys
  val : m.value = none ∨ m.value = some 0
  ub : ∀ k, ∀ x ∈ cur, ∀ n, (lens x).get? k = some n → ∃ v, get m k = some v ∧ (n : Int) ≤ v
  att : ∀ k v, k ∈ m.dict.keys → get m k = some v → ∃ x ∈ cur, ∃ n, (lens x).get? k = some n ∧ v = n

theorem get?_map_val {V W : Type} (f : V → W) (d : Dict K V) (k : K) :
    Dict.get? (d.map (fun e => (e.1, f e.2))) k = (d.get? k).map f := by
  induction d with
  | nil => rfl
  | cons e d ih =>
    obtain ⟨k0, v0⟩ := e
    simp only [List.map_cons, Dict.get?]
    split
    · rfl
    · exact ih

theorem seqLengths_dict (d : Dict K Nat) (k : K) :
    (seqLengths d).dict.get? k = (d.get? k).map (fun n : Nat => some (n : Int)) := by
  unfold seqLengths ofDict
  simp only [List.map_map]
  exact get?_map_val (fun n : Nat => some (n : Int)) d k

theorem get_seqLengths (d : Dict K Nat) (k : K) : get (seqLengths d) k = (d.get? k).map (fun n : Nat => (n : Int)) := by
  rw [NumbersDict.get, seqLengths_dict]
  cases d.get? k <;> rfl

theorem keys_seqLengths (d : Dict K Nat) : (seqLengths d).dict.keys = d.keys := by
  simp [seqLengths, ofDict, Dict.keys, Function.comp_def]

theorem noNone_seqLengths (d : Dict K Nat) : NoNone (seqLengths d) := by
  intro e he
  simp only [seqLengths, ofDict, List.mem_map] at he
  obtain ⟨_, _, rfl⟩ := he
  simp

theorem noNone_of_get? {V : Type} (a : ND K V) (hw : a.dict.Wf) (h : ∀ k o, a.dict.get? k = some o → o ≠ none) :
    NoNone a := fun e he => h e.1 e.2 (Dict.get?_of_mem hw he)

theorem dict_get?_of_key {V : Type} (a : ND K V) (k : K) (hk : k ∈ a.dict.keys) :
    a.dict.get? k = some (get a k) := by
  obtain ⟨o, ho⟩ := Option.isSome_iff_exists.mp ((Dict.get?_isSome a.dict k).mpr hk)
  simp [NumbersDict.get, ho]

theorem rep_empty (lens : α → Dict K Nat) : Rep lens [] (ofScalar 0) where
  nn := by intro e he; simp [ofScalar] at he
  keys := by intro k; simp [ofScalar, Dict.keys]
  val := .inr rfl
  ub := by intro k x hx; simp at hx
  att := by intro k v hk; simp [ofScalar, Dict.keys] at hk

theorem rep_single (lens : α → Dict K Nat) (x : α) : Rep lens [x] (seqLengths (lens x)) where
  nn := noNone_seqLengths _
  keys := by intro k; simp [keys_seqLengths]
  val := .inl rfl
  ub := by
    intro k y hy n hn
    simp at hy; subst hy
    exact ⟨n, by rw [get_seqLengths, hn]; rfl, Int.le_refl _⟩
  att := by
    intro k v _ hv
    rw [get_seqLengths] at hv
    cases h : (lens x).get? k with
    | none => rw [h] at hv; cases hv
    | some n => rw [h] at hv; injection hv with hv; exact ⟨x, by simp, n, h, hv.symm⟩

/-- `sl` has exactly the lengths `d`. -/
structure LenRep (sl : ND K Int) (d : Dict K Nat) : Prop where
  get : ∀ k, get sl k = (d.get? k).map (fun n : Nat => (n : Int))
  keys : ∀ k, k ∈ sl.dict.keys ↔ k ∈ d.keys
  val : sl.value = none

theorem lenRep_seqLengths (d : Dict K Nat) : LenRep (seqLengths d) d :=
  ⟨get_seqLengths d, fun k => by rw [keys_seqLengths], rfl⟩

theorem rep_snoc' (lens : α → Dict K Nat) (cur : List α) (m : ND K Int) (x : α) (sl : ND K Int)
    (hsl : LenRep sl (lens x)) (h : Rep lens cur m) :
    Rep lens (cur ++ [x]) (binOp m sl maxOp none) := by
  have hk := binOp_keys m sl maxOp none
  have hkeys : ∀ k, k ∈ (binOp m sl maxOp none).dict.keys ↔ ∃ y ∈ cur ++ [x], k ∈ (lens y).keys := by
    intro k
    rw [hk.1, h.keys, hsl.keys]
    simp only [List.mem_append, List.mem_singleton]
    constructor
    · rintro (⟨y, hy, h1⟩ | h1)
      · exact ⟨y, .inl hy, h1⟩
      · exact ⟨x, .inr rfl, h1⟩
    · rintro ⟨y, hy | rfl, h1⟩
      · exact .inl ⟨y, hy, h1⟩
      · exact .inr h1
  have hget : ∀ k, get (binOp m sl maxOp none) k
      = maxOp (get m k) (((lens x).get? k).map (fun n : Nat => (n : Int))) := by
    intro k; rw [binOp_keywise, (maxOp_spec _ _).1, hsl.get]
  have hub : ∀ k, ∀ y ∈ cur ++ [x], ∀ n, (lens y).get? k = some n →
      ∃ v, get (binOp m sl maxOp none) k = some v ∧ (n : Int) ≤ v := by
    intro k y hy n hn
    rw [hget]
    rcases List.mem_append.mp hy with hy | hy
    · obtain ⟨v, hv, hle⟩ := h.ub k y hy n hn
      rw [hv]
      cases (lens x).get? k with
      | none => exact ⟨v, rfl, hle⟩
      | some n' => exact ⟨max v n', rfl, by omega⟩
    · simp at hy; subst hy
      rw [hn]
      cases get m k with
      | none => exact ⟨n, rfl, Int.le_refl _⟩
      | some v => exact ⟨max v n, rfl, by omega⟩
  refine ⟨?_, hkeys, ?_, hub, ?_⟩
  · refine noNone_of_get? _ hk.2 ?_
    intro k o ho hnone
    subst hnone
    have hmem : k ∈ (binOp m sl maxOp none).dict.keys := by
      rw [← Dict.get?_isSome, ho]; rfl
    obtain ⟨y, hy, hky⟩ := (hkeys k).mp hmem
    obtain ⟨n, hn⟩ := Option.isSome_iff_exists.mp ((Dict.get?_isSome _ k).mpr hky)
    obtain ⟨v, hv, _⟩ := hub k y hy n hn
    rw [dict_get?_of_key _ _ hmem, hv] at ho
    cases ho
  · have : (binOp m sl maxOp none).value = binOpScalarOptional m.value none none maxOp := by
      rw [← hsl.val]; rfl
    rw [this]
    rcases h.val with h | h <;> rw [h]
    · left; rfl
    · right; rfl
  · intro k v hmem hv
    rw [hget] at hv
    have key : ∀ w, get m k = some w → (k ∈ m.dict.keys → ∃ y ∈ cur, ∃ n, (lens y).get? k = some n ∧ w = n) ∧
        (k ∉ m.dict.keys → w = 0) := by
      intro w hw
      refine ⟨fun hkm => h.att k w hkm hw, fun hkm => ?_⟩
      rw [← Dict.get?_eq_none] at hkm
      simp only [NumbersDict.get, hkm, Option.getD_none] at hw
      rcases h.val with h | h <;> rw [h] at hw
      · cases hw
      · injection hw with hw; exact hw.symm
    cases hx : (lens x).get? k with
    | none =>
      rw [hx] at hv
      have hv' : get m k = some v := by cases hm : get m k <;> rw [hm] at hv <;> exact hv
      have hkm : k ∈ m.dict.keys := by
        rw [hk.1] at hmem
        rcases hmem with hmem | hmem
        · exact hmem
        · rw [hsl.keys, ← Dict.get?_isSome, hx] at hmem; simp at hmem
      obtain ⟨y, hy, n, hn, hvn⟩ := (key v hv').1 hkm
      exact ⟨y, by simp [hy], n, hn, hvn⟩
    | some n =>
      rw [hx] at hv
      cases hm : get m k with
      | none =>
        rw [hm] at hv
        simp only [Option.map_some, maxOp, Option.some.injEq] at hv
        exact ⟨x, by simp, n, hx, hv.symm⟩
      | some w =>
        rw [hm] at hv
        simp only [Option.map_some, maxOp, Option.some.injEq] at hv
        by_cases hkm : k ∈ m.dict.keys
        · obtain ⟨y, hy, n', hn', hw⟩ := (key w hm).1 hkm
          rcases Int.le_total w n with hle | hle
          · exact ⟨x, by simp, n, hx, by omega⟩
          · exact ⟨y, by simp [hy], n', hn', by omega⟩
        · have := (key w hm).2 hkm
          exact ⟨x, by simp, n, hx, by omega⟩

theorem rep_snoc (lens : α → Dict K Nat) (cur : List α) (m : ND K Int) (x : α) (h : Rep lens cur m) :
    Rep lens (cur ++ [x]) (binOp m (seqLengths (lens x)) maxOp none) :=
  rep_snoc' lens cur m x _ (lenRep_seqLengths _) h

theorem mulScalar_keys (m : ND K Int) (c : Int) (k : K) : k ∈ (mulScalar m c).dict.keys ↔ k ∈ m.dict.keys := by
  unfold mulScalar mul
  rw [(binOp_keys _ _ _ _).1]
  have : (constantLike c m).dict.keys = m.dict.keys := by simp [constantLike, Dict.keys, Function.comp_def]
  rw [this]; simp

/-- The comparison in the loop is exactly "does not fit". -/
theorem exceeds_iff (lens : α → Dict K Nat) (b : List α) (m lim : ND K Int) (h : Rep lens b m)
    (hnn : NoNone lim) (hpos : ∀ v, lim.value = some v → 0 < v) :
    ∃ r, anyCompare (mulScalar m (b.length : Int)) lim (fun a b => decide (a > b)) = .ok r ∧
      (r = true ↔ ¬ Fits lens lim b) := by
  have hget : ∀ k, get (mulScalar m (b.length : Int)) k = (get m k).map (· * (b.length : Int)) :=
    fun k => (scalar_arith m h.nn _ k).2.1
  have hnn2 : NoNone (mulScalar m (b.length : Int)) := by
    refine noNone_of_get? _ (binOp_keys _ _ _ _).2 ?_
    intro k o ho hnone
    subst hnone
    have hmem : k ∈ (mulScalar m (b.length : Int)).dict.keys := by rw [← Dict.get?_isSome, ho]; rfl
    rw [dict_get?_of_key _ _ hmem, hget] at ho
    rw [mulScalar_keys] at hmem
    obtain ⟨y, hy, hky⟩ := (h.keys k).mp hmem
    obtain ⟨n, hn⟩ := Option.isSome_iff_exists.mp ((Dict.get?_isSome _ k).mpr hky)
    obtain ⟨v, hv, _⟩ := h.ub k y hy n hn
    rw [hv] at ho; cases ho
  obtain ⟨r, hr, hiff⟩ := anyCompare_iff _ lim hnn2 hnn (fun a b : Int => decide (a > b))
  refine ⟨r, hr, hiff.trans ?_⟩
  unfold AnyCompares Fits
  constructor
  · rintro (⟨k, hk, x, L, h1, h2, h3⟩ | ⟨x, L, h1, h2, h3⟩) hfit
    · rw [mulScalar_keys] at hk
      rw [hget] at h1
      cases hm : get m k with
      | none => rw [hm] at h1; cases h1
      | some v =>
        rw [hm] at h1
        simp only [Option.map_some, Option.some.injEq] at h1
        obtain ⟨y, hy, n, hn, hvn⟩ := h.att k v hk hm
        have := hfit k L ((get_iff lim hnn k L).mp h2) y hy n hn
        rw [← hvn, h1] at this
        simp only [decide_eq_true_eq] at h3
        omega
    · have hv : (mulScalar m (b.length : Int)).value = some 0 := by
        have h0 : (mulScalar m (b.length : Int)).value = binOpScalarOptional m.value
            (if m.value.isSome then some (b.length : Int) else none) (some 1) (lift2 (· * ·)) := rfl
        rcases h.val with hm | hm
        · rw [h0, hm] at h1; cases h1
        · rw [h0, hm]; simp [binOpScalarOptional, lift2]
      rw [hv] at h1
      injection h1 with h1
      have := hpos L h2
      simp only [decide_eq_true_eq] at h3
      omega
  · intro hnf
    simp only [Classical.not_forall] at hnf
    obtain ⟨k, L, hL, x, hx, n, hn, hgt⟩ := hnf
    left
    obtain ⟨v, hv, hle⟩ := h.ub k x hx n hn
    have hkk : k ∈ m.dict.keys := (h.keys k).mpr ⟨x, hx, by rw [← Dict.get?_isSome, hn]; rfl⟩
    refine ⟨k, (mulScalar_keys _ _ _).mpr hkk, v * (b.length : Int), L, by rw [hget, hv]; rfl,
      (get_iff lim hnn k L).mpr hL, ?_⟩
    have := Int.mul_le_mul_of_nonneg_right hle (Int.natCast_nonneg b.length)
    simp only [decide_eq_true_eq]
    omega

theorem checkLimits_ok (o : BatchOpts K α) (x : α) (h : ValidLimits o x) : checkLimits o x = .ok () := by
  have hs := h.seqs
  have hne : ¬ ((o.maxBatch x).dict = [] ∧ (o.maxBatch x).value = none) := by
    rintro ⟨h1, h2⟩
    rcases h.ex with h | h
    · exact h h1
    · exact h h2
  obtain ⟨_, m, _, hmin, _, hm, _⟩ := (extremum_spec _ h.wf h.nn).2 hne
  have hpos : 0 < m := by
    rcases hm with ⟨k, hk⟩ | hv
    · exact h.pos k m hk
    · exact h.posB m hv
  unfold checkLimits
  simp [pyAssert, hs, hmin, bind, Except.bind, hpos]

theorem batchAdd_spec (o : BatchOpts K α) (s : BatchSt K α) (x : α) (hv : ValidLimits o x)
    (hr : Rep o.lens s.cur s.curMax) :
    ∃ out s', batchAdd o s x = .ok (out, s') ∧ Rep o.lens s'.cur s'.curMax ∧
      ((out = [] ∧ s'.cur = s.cur ++ [x] ∧ (s.cur ≠ [] → Fits o.lens (o.maxBatch x) (s.cur ++ [x]))) ∨
       (out = [s.cur] ∧ s'.cur = [x] ∧ s.cur ≠ [] ∧ ¬ Fits o.lens (o.maxBatch x) (s.cur ++ [x]))) := by
  have hrep := rep_snoc o.lens s.cur s.curMax x hr
  obtain ⟨r, hr1, hr2⟩ := exceeds_iff o.lens (s.cur ++ [x]) _ (o.maxBatch x) hrep hv.nn hv.posB
  have hl : ((s.cur ++ [x]).length : Int) = (s.cur.length : Int) + 1 := by simp
  rw [hl] at hr1
  unfold batchAdd
  simp only [maxList, bind, Except.bind, hr1]
  by_cases hc : s.cur = []
  · refine ⟨[], { cur := s.cur ++ [x], curMax := _ }, by simp [hc]; rfl, hrep, .inl ⟨rfl, rfl, fun h => absurd hc h⟩⟩
  · cases r with
    | true =>
      refine ⟨[s.cur], { cur := [x], curMax := seqLengths (o.lens x) }, by simp [hc], rep_single _ _, .inr ⟨rfl, rfl, hc, hr2.mp rfl⟩⟩
    | false =>
      refine ⟨[], { cur := s.cur ++ [x], curMax := _ }, by simp [hc]; rfl, hrep, .inl ⟨rfl, rfl, fun _ => ?_⟩⟩
      by_contra hcon
      exact absurd (hr2.mpr hcon) (by simp)

theorem batchStep_spec (o : BatchOpts K α) (s : BatchSt K α) (x : α) (hv : ValidLimits o x)
    (hr : Rep o.lens s.cur s.curMax) :
    ∃ out s', batchStep o s x = .ok (out, s') ∧ Rep o.lens s'.cur s'.curMax ∧
      ((out = [] ∧ s'.cur = s.cur ++ [x] ∧ (s.cur ≠ [] → MayAdd o s.cur x)) ∨
       (out = [s.cur] ∧ s'.cur = [x] ∧ s.cur ≠ [] ∧ ¬ MayAdd o s.cur x)) := by
  unfold batchStep
  simp only [bind, Except.bind, checkLimits_ok o x hv]
  by_cases hge : (s.cur.length : Int) ≥ o.maxSeqs x
  · obtain ⟨out, s', h1, h2, h3⟩ := batchAdd_spec o {} x hv (rep_empty o.lens)
    have hne : s.cur ≠ [] := by
      intro h; rw [h] at hge; have := hv.seqs; simp at hge; omega
    simp only [hge, if_true, h1]
    rcases h3 with ⟨rfl, h4, _⟩ | ⟨_, _, h5, _⟩
    · refine ⟨_, _, rfl, h2, .inr ⟨rfl, by simpa using h4, hne, ?_⟩⟩
      rintro ⟨h6, _⟩; omega
    · exact absurd rfl h5
  · obtain ⟨out, s', h1, h2, h3⟩ := batchAdd_spec o s x hv hr
    simp only [hge, if_false]
    refine ⟨out, s', h1, h2, ?_⟩
    rcases h3 with ⟨h4, h5, h6⟩ | ⟨h4, h5, h6, h7⟩
    · exact .inl ⟨h4, h5, fun h => ⟨by omega, h6 h⟩⟩
    · exact .inr ⟨h4, h5, h6, fun h => h7 h.2⟩

theorem batchLoop_spec (o : BatchOpts K α) (xs : List α) (hv : ∀ x ∈ xs, ValidLimits o x) (s : BatchSt K α)
    (hr : Rep o.lens s.cur s.curMax)
    (hl : ∀ pre x post, s.cur = pre ++ x :: post → pre ≠ [] → MayAdd o pre x) :
    ∃ bs, batchLoop o xs s = .ok bs ∧ GoodBatching o (s.cur ++ xs) bs ∧
      (s.cur ≠ [] → ∃ t r, bs = (s.cur ++ t) :: r) := by
  induction xs generalizing s with
  | nil =>
    unfold batchLoop
    by_cases hc : s.cur = []
    · refine ⟨[], by simp [hc], ⟨by simp [hc], by simp, by simp, by simp⟩, fun h => absurd hc h⟩
    · refine ⟨[s.cur], by simp [hc], ⟨by simp, by simpa using hc, ?_, ?_⟩, fun _ => ⟨[], [], by simp⟩⟩
      · intro b hb pre x post he hp
        simp at hb; subst hb
        exact hl pre x post he hp
      · intro l b x b' r he
        have := congrArg List.length he
        simp at this; omega
  | cons x xs ih =>
    obtain ⟨out, s', h1, h2, h3⟩ := batchStep_spec o s x (hv x (by simp)) hr
    unfold batchLoop
    simp only [bind, Except.bind, h1]
    rcases h3 with ⟨rfl, h4, h5⟩ | ⟨rfl, h4, h5, h6⟩
    · obtain ⟨bs, hb1, hb2, hb3⟩ := ih (fun y hy => hv y (by simp [hy])) s' h2 (by
        intro pre y post he hp
        rw [h4] at he
        rcases List.eq_nil_or_concat post with rfl | ⟨post', z, rfl⟩
        · obtain ⟨rfl, he'⟩ := List.append_inj' he rfl
          injection he' with he'; subst he'
          exact h5 hp
        · have he' : s.cur ++ [x] = (pre ++ y :: post') ++ [z] := by rw [he]; simp
          exact hl pre y post' (List.append_inj' he' rfl).1 hp)
      rw [h4] at hb2 hb3
      refine ⟨bs, by simp [hb1], by simpa using hb2, ?_⟩
      intro _
      obtain ⟨t, r, h⟩ := hb3 (by simp)
      exact ⟨x :: t, r, by simpa using h⟩
    · obtain ⟨bs, hb1, hb2, hb3⟩ := ih (fun y hy => hv y (by simp [hy])) s' h2 (by
        intro pre y post he hp
        rw [h4] at he
        cases pre with
        | nil => exact absurd rfl hp
        | cons a pre => simp at he)
      rw [h4] at hb2 hb3
      obtain ⟨t, r, hbs⟩ := hb3 (by simp)
      refine ⟨s.cur :: bs, by simp [hb1], ⟨?_, ?_, ?_, ?_⟩, fun _ => ⟨[], bs, by simp⟩⟩
      · simp [hb2.covers]
      · intro b hb
        rcases List.mem_cons.mp hb with rfl | hb
        · exact h5
        · exact hb2.nonempty b hb
      · intro b hb
        rcases List.mem_cons.mp hb with rfl | hb
        · exact hl
        · exact hb2.limits b hb
      · intro l b y b' r' he
        cases l with
        | nil =>
          simp only [List.nil_append, List.cons.injEq] at he
          obtain ⟨rfl, he⟩ := he
          rw [hbs] at he
          simp only [List.cons_append, List.nil_append, List.cons.injEq] at he
          obtain ⟨⟨rfl, _⟩, _⟩ := he
          exact h6
        | cons a l =>
          simp only [List.cons_append, List.cons.injEq] at he
          exact hb2.maximal l b y b' r' he.2

/-- C08. For every stream and all (also per-seq) limits, the batching pipe is correct: nothing lost or reordered, no
empty batch, limits respected for all batches of more than one seq, and no batch is closed too early. -/
theorem batching_correct (o : BatchOpts K α) (stream : List α) (hv : ∀ x ∈ stream, ValidLimits o x) :
    ∃ bs, batching o stream = .ok bs ∧ GoodBatching o stream bs := by
  obtain ⟨bs, h1, h2, _⟩ := batchLoop_spec o stream hv {} (rep_empty o.lens) (by
    intro pre x post he hp
    simp at he)
  exact ⟨bs, h1, by simpa using h2⟩

/-- C08 for fixed limits: every batch has at most `max_seqs` seqs, and every batch of at least two seqs is within
`batch_size` including padding. -/
theorem batching_limits (o : BatchOpts K α) (stream : List α) (hv : ∀ x ∈ stream, ValidLimits o x)
    (N : Int) (lim : ND K Int) (hN : ∀ x, o.maxSeqs x = N) (hlim : ∀ x, o.maxBatch x = lim) :
    ∃ bs, batching o stream = .ok bs ∧ ∀ b ∈ bs, (b.length : Int) ≤ N ∧ (2 ≤ b.length → Fits o.lens lim b) := by
  obtain ⟨bs, h1, h2⟩ := batching_correct o stream hv
  refine ⟨bs, h1, fun b hb => ?_⟩
  have hne := h2.nonempty b hb
  rcases List.eq_nil_or_concat b with rfl | ⟨pre, x, hb'⟩
  · exact absurd rfl hne
  · rw [List.concat_eq_append] at hb'
    subst hb'
    have hx : x ∈ stream := by rw [← h2.covers]; exact List.mem_flatten.mpr ⟨_, hb, by simp⟩
    have hN' := (hv x hx).seqs
    rw [hN] at hN'
    by_cases hp : pre = []
    · subst hp; simp; omega
    · obtain ⟨h3, h4⟩ := h2.limits _ hb pre x [] rfl hp
      rw [hN] at h3; rw [hlim] at h4
      exact ⟨by simp; omega, fun _ => h4⟩

/-- C08: non-positive limits are an error, not an endless or wrong batching. -/
theorem batching_bad_max_seqs (o : BatchOpts K α) (x : α) (xs : List α) (h : o.maxSeqs x ≤ 0) :
    batching o (x :: xs) = .error .assertion := by
  have : ¬ (0 < o.maxSeqs x) := by omega
  simp [batching, batchLoop, batchStep, checkLimits, pyAssert, this, bind, Except.bind]

/-- C08: how the configured limits are understood: `-1` and `None` are unlimited, other values are taken as they are, a
single batch size is for all data keys. -/
theorem parse_limits (n : Int) (k : K) :
    (n ≠ -1 → parseMaxSeqs (some n) = n) ∧ parseMaxSeqs (some (-1)) = maxsize ∧ parseMaxSeqs none = maxsize ∧
    HasNumber (parseBatchSize (some (.inl n)) : ND K Int) k n ∧ HasNumber (parseBatchSize none : ND K Int) k maxsize ∧
    (∀ d : Dict K Int, ∀ v, d.get? k = some v → HasNumber (parseBatchSize (some (.inr d))) k v) ∧
    (∀ d : Dict K Int, d.get? k = none → ∀ v, ¬ HasNumber (parseBatchSize (some (.inr d))) k v) := by
  refine ⟨fun h => by simp [parseMaxSeqs, h], rfl, rfl, .broadcast rfl rfl, .broadcast rfl rfl, ?_, ?_⟩
  · intro d v h
    refine .explicit ?_
    show Dict.get? (d.map (fun e => (e.1, some e.2))) k = _
    rw [get?_map_val some, h]; rfl
  · intro d h v hv
    rcases hv with h1 | ⟨_, h2⟩
    · have h1' : Dict.get? (d.map (fun e => (e.1, some e.2))) k = some (some v) := h1
      rw [get?_map_val some, h] at h1'; cases h1'
    · cases h2

/-- Example: two keys with different limits; the seqs are given by their lengths. -/
def exOpts : BatchOpts String (Nat × Nat) where
  lens x := [("data", x.1), ("classes", x.2)]
  maxSeqs _ := parseMaxSeqs (some 3)
  maxBatch _ := parseBatchSize (some (.inr [("data", 12), ("classes", 5)]))

example : batching exOpts [(3, 1), (4, 1), (4, 1), (2, 1), (7, 1), (2, 3), (20, 1), (1, 1)]
    = .ok [[(3, 1), (4, 1), (4, 1)], [(2, 1)], [(7, 1)], [(2, 3)], [(20, 1)], [(1, 1)]] := by decide

example : ∀ x, ValidLimits exOpts x := by
  intro x
  refine ⟨by show (0 : Int) < 3; decide, by simp [exOpts, parseBatchSize, ofDict, Dict.Wf, Dict.keys], ?_, .inl (by simp [exOpts, parseBatchSize, ofDict]), ?_, ?_⟩
  · intro e he
    simp [exOpts, parseBatchSize, ofDict] at he
    rcases he with rfl | rfl <;> simp
  · intro k v h
    have := Dict.mem_of_get? h
    simp [exOpts, parseBatchSize, ofDict] at this
    omega
  · intro v h; simp [exOpts, parseBatchSize, ofDict] at h

end Verif.Pipeline
