import Verif.Legacy.Spec
import Verif.Pipeline.Props
/-
Theorems about the legacy batch generator (C13).
-/
namespace Verif.Legacy
open Verif.Py Verif.NumbersDict Verif.Pipeline

variable {K : Type} [DecidableEq K]

/-! ### Greedy batching in general -/

/-- How the generator proceeds: `cur` is the current batch. -/
inductive Greedy {α : Type} (ok : List α → Prop) : List α → List α → List (List α) → List α → Prop where
  | done (cur : List α) : Greedy ok cur [] [] cur
  | add {cur xs gs last} (x : α) (h : cur = [] ∨ ok (cur ++ [x])) (t : Greedy ok (cur ++ [x]) xs gs last) :
      Greedy ok cur (x :: xs) gs last
  | close {cur xs gs last} (x : α) (hne : cur ≠ []) (h : ¬ ok (cur ++ [x])) (t : Greedy ok [x] xs gs last) :
      Greedy ok cur (x :: xs) (cur :: gs) last

theorem Greedy.prefix {α : Type} {ok : List α → Prop} {cur xs : List α} {gs last} (h : Greedy ok cur xs gs last) :
    ∃ t r, gs ++ [last] = (cur ++ t) :: r := by
  induction h with
  | done cur => exact ⟨[], [], by simp⟩
  | add x _ _ ih => obtain ⟨t, r, h⟩ := ih; exact ⟨x :: t, r, by simpa using h⟩
  | close x _ _ _ _ => exact ⟨[], _, by rw [List.append_nil]; rfl⟩

theorem Greedy.good {α : Type} {ok : List α → Prop} {cur xs : List α} {gs last} (h : Greedy ok cur xs gs last)
    (hcur : 2 ≤ cur.length → ok cur) : GoodGreedy ok (cur ++ xs) gs last := by
  induction h with
  | done cur =>
    refine ⟨by simp, by simp, by simp, by simpa using hcur, ?_⟩
    intro l g x g' r he
    have := congrArg List.length he
    simp at this; omega
  | add x h _ ih =>
    have := ih (by
      intro hl
      rcases h with rfl | h
      · simp at hl
      · exact h)
    simpa using this
  | @close cur xs gs last x hne h t ih =>
    obtain ⟨t', r', hpre⟩ := t.prefix
    obtain ⟨g1, g2, g3, g4, g5⟩ := ih (by simp)
    refine ⟨by simp [g1], ?_, fun _ => g3 (by simp), ?_, ?_⟩
    · intro g hg
      rcases List.mem_cons.mp hg with rfl | hg
      · exact hne
      · exact g2 g hg
    · intro g hg
      rcases List.mem_cons.mp hg with rfl | hg
      · exact hcur
      · exact g4 g hg
    · intro l g y g' r he
      cases l with
      | nil =>
        simp only [List.cons_append, List.nil_append, List.cons.injEq] at he
        obtain ⟨rfl, he⟩ := he
        rw [hpre] at he
        simp only [List.cons_append, List.nil_append, List.cons.injEq] at he
        obtain ⟨⟨rfl, _⟩, _⟩ := he
        exact h
      | cons a l =>
        simp only [List.cons_append, List.cons.injEq] at he
        exact g5 l g y g' r he.2

/-! ### The computed quantities -/

theorem lenRep_isSome {sl : ND K Int} {d : Dict K Nat} (h : LenRep sl d) (k : K) :
    k ∈ sl.dict.keys ↔ (get sl k).isSome = true := by
  rw [h.keys, h.get, ← Dict.get?_isSome]; simp

theorem noNone_of_get {V : Type} (a : ND K V) (hw : a.dict.Wf) (h : ∀ k ∈ a.dict.keys, get a k ≠ none) : NoNone a := by
  refine noNone_of_get? a hw ?_
  intro k o ho hn
  have hm : k ∈ a.dict.keys := by rw [← Dict.get?_isSome, ho]; rfl
  have := dict_get?_of_key a k hm
  rw [ho] at this
  injection this with this
  exact h k hm (by rw [← this, hn])

theorem lenRep_noNone {sl : ND K Int} {d : Dict K Nat} (h : LenRep sl d) (hw : sl.dict.Wf) : NoNone sl :=
  noNone_of_get sl hw (fun k hk hn => by
    have := (lenRep_isSome h k).mp hk
    rw [hn] at this; cases this)

theorem add_keys (a b : ND K Int) (k : K) :
    (k ∈ (add a b).dict.keys ↔ k ∈ a.dict.keys ∨ k ∈ b.dict.keys) ∧
    (k ∈ (sub a b).dict.keys ↔ k ∈ a.dict.keys ∨ k ∈ b.dict.keys) :=
  ⟨(binOp_keys _ _ _ _).1 k, (binOp_keys _ _ _ _).1 k⟩

theorem add_value (a b : ND K Int) :
    (add a b).value = Keywise (· + ·) 0 a.value b.value ∧ (sub a b).value = Keywise (· - ·) 0 a.value b.value := by
  constructor
  · show binOpScalarOptional a.value b.value (some 0) (lift2 (· + ·)) = _
    cases a.value <;> cases b.value <;> simp [binOpScalarOptional, lift2, Keywise]
  · show binOpScalarOptional a.value b.value (some 0) (lift2 (· - ·)) = _
    cases a.value <;> cases b.value <;> simp [binOpScalarOptional, lift2, Keywise]

theorem Keywise_none {f : Int → Int → Int} {z : Int} {x y : Option Int} :
    Keywise f z x y = none ↔ x = none ∧ y = none := by
  cases x <;> cases y <;> simp [Keywise]

/-- What the length of a chunk and the number of frames of its part have to do with each other. -/
theorem frames_rep (st stop : ND K Int) (d : Dict K Nat) (h : LenRep (sub stop st) d) :
    LenRep (sub (add st (sub stop st)) st) d := by
  have hv := (add_value stop st).2
  rw [h.val] at hv
  obtain ⟨hv1, hv2⟩ := Keywise_none.mp hv.symm
  refine ⟨?_, ?_, ?_⟩
  · intro k
    rw [(arith_keywise _ _ k).2.1, (arith_keywise _ _ k).1, h.get k]
    cases hd : d.get? k with
    | none =>
      have h2 := h.get k
      rw [(arith_keywise _ _ k).2.1, hd] at h2
      rw [(Keywise_none.mp h2).2]
      rfl
    | some n =>
      cases get st k with
      | none => simp [Keywise]
      | some s => simp [Keywise]; omega
  · intro k
    rw [(add_keys _ _ k).2, (add_keys _ _ k).1, ← h.keys, (add_keys _ _ k).2]
    constructor
    · rintro ((h | h) | h)
      · exact .inr h
      · exact h
      · exact .inr h
    · intro h; exact .inl (.inr h)
  · rw [(add_value _ _).2, (add_value _ _).1, hv2, h.val]; rfl

theorem addScalar_keys (m : ND K Int) (c : Int) (k : K) : k ∈ (addScalar m c).dict.keys ↔ k ∈ m.dict.keys := by
  unfold addScalar
  rw [(add_keys _ _ _).1]
  have : (constantLike c m).dict.keys = m.dict.keys := by simp [constantLike, Dict.keys, Function.comp_def]
  rw [this]; simp

theorem addScalar_value (m : ND K Int) (c : Int) (h : m.value = none) : (addScalar m c).value = none := by
  unfold addScalar
  rw [(add_value _ _).1]
  simp [constantLike, h, Keywise]

theorem lenRep_addZero (sl : ND K Int) (d : Dict K Nat) (hw : sl.dict.Wf) (h : LenRep sl d) : LenRep (addScalar sl 0) d := by
  refine ⟨fun k => ?_, fun k => by rw [addScalar_keys, h.keys], addScalar_value _ _ h.val⟩
  rw [(scalar_arith sl (lenRep_noNone h hw) 0 k).1, h.get]
  cases d.get? k <;> simp

/-- `t` has the sums of the lengths. -/
structure SumRep {α : Type} (lens : α → Dict K Nat) (cur : List α) (t : ND K Int) : Prop where
  keys : ∀ k, k ∈ t.dict.keys ↔ ∃ x ∈ cur, k ∈ (lens x).keys
  get : ∀ k, get t k = if k ∈ t.dict.keys then some (sumLens lens cur k) else none
  val : t.value = none

theorem sumLens_append {α : Type} (lens : α → Dict K Nat) (a b : List α) (k : K) :
    sumLens lens (a ++ b) k = sumLens lens a k + sumLens lens b k := by
  simp [sumLens]

theorem sumLens_zero {α : Type} (lens : α → Dict K Nat) (cur : List α) (k : K) (h : ∀ y ∈ cur, k ∉ (lens y).keys) :
    sumLens lens cur k = 0 := by
  unfold sumLens
  have hall : ∀ y ∈ cur, (((lens y).get? k).getD 0 : Int) = 0 := by
    intro y hy
    have : (lens y).get? k = none := by rw [Dict.get?_eq_none]; exact h y hy
    rw [this]; rfl
  rw [List.map_congr_left hall]
  simp

theorem sumRep_snoc {α : Type} (lens : α → Dict K Nat) (cur : List α) (t sl : ND K Int) (x : α)
    (h : SumRep lens cur t) (hs : LenRep sl (lens x)) : SumRep lens (cur ++ [x]) (add t sl) := by
  have hkeys : ∀ k, k ∈ (add t sl).dict.keys ↔ ∃ y ∈ cur ++ [x], k ∈ (lens y).keys := by
    intro k
    rw [(add_keys _ _ k).1, h.keys, hs.keys]
    simp only [List.mem_append, List.mem_singleton]
    constructor
    · rintro (⟨y, hy, h1⟩ | h1)
      · exact ⟨y, .inl hy, h1⟩
      · exact ⟨x, .inr rfl, h1⟩
    · rintro ⟨y, hy | rfl, h1⟩
      · exact .inl ⟨y, hy, h1⟩
      · exact .inr h1
  refine ⟨hkeys, ?_, by rw [(add_value _ _).1, h.val, hs.val]; rfl⟩
  intro k
  have hzero : k ∉ t.dict.keys → sumLens lens cur k = 0 := by
    intro hk
    rw [h.keys] at hk
    exact sumLens_zero lens cur k (fun y hy hc => hk ⟨y, hy, hc⟩)
  rw [(arith_keywise _ _ k).1, h.get, hs.get, sumLens_append]
  have hx : sumLens lens [x] k = (((lens x).get? k).getD 0 : Int) := by simp [sumLens]
  rw [hx]
  have hk2 := (add_keys t sl k).1
  rw [hs.keys, ← Dict.get?_isSome (lens x)] at hk2
  by_cases hk : k ∈ t.dict.keys
  · simp only [hk, true_or, iff_true] at hk2
    rw [if_pos hk, if_pos hk2]
    cases (lens x).get? k <;> simp [Keywise]
  · rw [hzero hk]
    simp only [hk, false_or] at hk2
    rw [if_neg hk]
    cases hd : (lens x).get? k with
    | none => rw [hd] at hk2; simp at hk2; simp [hk2, Keywise]
    | some n => rw [hd] at hk2; simp at hk2; simp [hk2, Keywise]

theorem sumRep_single {α : Type} (lens : α → Dict K Nat) (sl : ND K Int) (x : α) (hs : LenRep sl (lens x)) :
    SumRep lens [x] sl := by
  refine ⟨by intro k; rw [hs.keys]; simp, ?_, hs.val⟩
  intro k
  have hk := hs.keys k
  rw [← Dict.get?_isSome (lens x)] at hk
  rw [hs.get]
  cases hd : (lens x).get? k with
  | none => rw [hd] at hk; rw [if_neg (by rw [hk]; simp)]; rfl
  | some n => rw [hd] at hk; rw [if_pos (by rw [hk]; simp)]; simp [sumLens, hd]

/-- The comparison in the generator is exactly "does not fit". -/
theorem exceedsMinus_iff {α : Type} (lens : α → Dict K Nat) (b : List α) (m a lim : ND K Int) (S : K → Int)
    (h : Rep lens b m) (ha : NoNone a) (hk : ∀ k, k ∈ a.dict.keys ↔ k ∈ m.dict.keys)
    (hg : ∀ k ∈ m.dict.keys, ∀ v, get m k = some v → get a k = some (v * b.length - S k))
    (hval : a.value = none ∨ a.value = some 0)
    (hnn : NoNone lim) (hpos : ∀ v, lim.value = some v → 0 ≤ v) :
    ∃ r, anyCompare a lim (fun a b => decide (a > b)) = .ok r ∧ (r = true ↔ ¬ FitsMinus lens S lim b) := by
  obtain ⟨r, hr, hiff⟩ := anyCompare_iff a lim ha hnn (fun a b : Int => decide (a > b))
  refine ⟨r, hr, hiff.trans ?_⟩
  unfold AnyCompares FitsMinus
  constructor
  · rintro (⟨k, hkk, x, L, h1, h2, h3⟩ | ⟨x, L, h1, h2, h3⟩) hfit
    · rw [hk] at hkk
      obtain ⟨y, hy, hky⟩ := (h.keys k).mp hkk
      obtain ⟨n0, hn0⟩ := Option.isSome_iff_exists.mp ((Dict.get?_isSome _ k).mpr hky)
      obtain ⟨v, hv, _⟩ := h.ub k y hy n0 hn0
      rw [hg k hkk v hv] at h1
      injection h1 with h1
      obtain ⟨z, hz, n, hn, hvn⟩ := h.att k v hkk hv
      have := hfit k L ((get_iff lim hnn k L).mp h2) z hz n hn
      rw [← hvn, h1] at this
      simp only [decide_eq_true_eq] at h3
      omega
    · have hx : x = 0 := by
        rcases hval with hv | hv <;> rw [hv] at h1
        · cases h1
        · injection h1 with h1; exact h1.symm
      have := hpos L h2
      simp only [decide_eq_true_eq] at h3
      omega
  · intro hnf
    simp only [Classical.not_forall] at hnf
    obtain ⟨k, L, hL, x, hx, n, hn, hgt⟩ := hnf
    left
    obtain ⟨v, hv, hle⟩ := h.ub k x hx n hn
    have hkk : k ∈ m.dict.keys := (h.keys k).mpr ⟨x, hx, by rw [← Dict.get?_isSome, hn]; rfl⟩
    refine ⟨k, (hk k).mpr hkk, v * (b.length : Int) - S k, L, hg k hkk v hv, (get_iff lim hnn k L).mpr hL, ?_⟩
    have := Int.mul_le_mul_of_nonneg_right hle (Int.natCast_nonneg b.length)
    simp only [decide_eq_true_eq]
    omega

/-- Comparison of a length with a limit. -/
theorem lenCompare (sl : ND K Int) (d : Dict K Nat) (h : LenRep sl d) (hw : sl.dict.Wf) (lim : ND K Int)
    (hn : NoNone lim) (cmp : Int → Int → Bool) :
    ∃ r, anyCompare sl lim cmp = .ok r ∧
      (r = true ↔ ∃ k n L, d.get? k = some n ∧ HasNumber lim k L ∧ cmp n L = true) := by
  obtain ⟨r, h1, h2⟩ := anyCompare_iff sl lim (lenRep_noNone h hw) hn cmp
  refine ⟨r, h1, h2.trans ?_⟩
  unfold AnyCompares
  constructor
  · rintro (⟨k, _, x, L, h3, h4, h5⟩ | ⟨x, _, h3, _⟩)
    · rw [h.get] at h3
      cases hg : d.get? k with
      | none => rw [hg] at h3; cases h3
      | some n =>
        rw [hg] at h3
        simp only [Option.map_some, Option.some.injEq] at h3
        exact ⟨k, n, L, hg, (get_iff lim hn k L).mp h4, by rw [h3]; exact h5⟩
    · rw [h.val] at h3; cases h3
  · rintro ⟨k, n, L, h3, h4, h5⟩
    left
    refine ⟨k, ?_, n, L, by rw [h.get, h3]; rfl, (get_iff lim hn k L).mpr h4, h5⟩
    rw [h.keys, ← Dict.get?_isSome, h3]; rfl

/-! ### The generator -/

/-- Options which make sense: limits are numbers, not negative. -/
structure ValidGen (o : GenOpts K) : Prop where
  n1 : NoNone o.batchSize
  n2 : NoNone o.maxLen
  n3 : NoNone o.minLen
  n4 : NoNone o.maxPad
  p1 : ∀ v, o.batchSize.value = some v → 0 ≤ v
  p4 : ∀ v, o.maxPad.value = some v → 0 ≤ v
  seqs : ∀ m, o.maxSeqs = some m → 0 < m

/-- The state of the current batch. -/
structure BRep (o : GenOpts K) (lens : Chunk K → Dict K Nat) (b : Batch K) (cur : List (Chunk K)) : Prop where
  rep : Represents o b cur
  max : Rep lens cur b.maxFrames
  val : b.maxFrames.value = some 0

theorem brep_empty (o : GenOpts K) (lens : Chunk K → Dict K Nat) : BRep o lens {} [] :=
  ⟨⟨rfl, rfl⟩, rep_empty lens, rfl⟩

theorem len_wf (o : GenOpts K) (c : Chunk K) : (c.len o).dict.Wf := (binOp_keys _ _ _ _).2

theorem brep_snoc (o : GenOpts K) (lens : Chunk K → Dict K Nat) (b : Batch K) (cur : List (Chunk K)) (c : Chunk K)
    (hl : LenRep (c.len o) (lens c)) (h : BRep o lens b cur) :
    ∃ b', b.addSeq c.seq (c.startCtx o) (c.len o) = .ok b' ∧ BRep o lens b' (cur ++ [c]) := by
  refine ⟨_, by simp only [Batch.addSeq, Batch.trySeq, maxList, bind, Except.bind]; rfl, ⟨⟨?_, ?_⟩, ?_, ?_⟩⟩
  · simp [h.rep.num]
  · simp [h.rep.seqs, h.rep.num, List.zipIdx_append]
  · exact rep_snoc' lens cur b.maxFrames c (c.len o) hl h.max
  · show binOpScalarOptional b.maxFrames.value (c.len o).value none maxOp = some 0
    rw [h.val, hl.val]; rfl

theorem total_rep (o : GenOpts K) (lens : Chunk K → Dict K Nat) (b : Batch K) (cur : List (Chunk K)) (hne : cur ≠ [])
    (hl : ∀ c ∈ cur, LenRep (c.len o) (lens c)) (h : BRep o lens b cur) : SumRep lens cur b.totalFrames := by
  have hgen : ∀ (cs pre : List (Chunk K)) (t : ND K Int) (n : Nat), (∀ c ∈ cs, LenRep (c.len o) (lens c)) →
      SumRep lens pre t →
      SumRep lens (pre ++ cs) (((cs.zipIdx n).map (fun p => (⟨p.1.seq, p.1.startCtx o,
        add (p.1.startCtx o) (p.1.len o), p.2⟩ : Part K))).foldl (fun t q => add t (sub q.stop q.start)) t) := by
    intro cs
    induction cs with
    | nil => intro pre t n _ h; simpa using h
    | cons c cs ih =>
      intro pre t n hl h
      have := ih (pre ++ [c]) (add t (sub (add (c.startCtx o) (c.len o)) (c.startCtx o))) (n + 1)
        (fun c' hc' => hl c' (by simp [hc'])) (sumRep_snoc lens pre t _ c h (frames_rep _ _ _ (hl c (by simp))))
      simpa using this
  cases cur with
  | nil => exact absurd rfl hne
  | cons c cs =>
    unfold Batch.totalFrames
    rw [h.rep.seqs]
    simp only [List.zipIdx_cons, List.map_cons]
    have := hgen cs [c] (addScalar (sub (add (c.startCtx o) (c.len o)) (c.startCtx o)) 0) (0 + 1)
      (fun c' hc' => hl c' (by simp [hc'])) (sumRep_single lens _ c
        (lenRep_addZero _ _ (binOp_keys _ _ _ _).2 (frames_rep _ _ _ (hl c (by simp)))))
    simpa using this

theorem mustClose_spec (o : GenOpts K) (ho : ValidGen o) (lens : Chunk K → Dict K Nat) (b : Batch K)
    (cur : List (Chunk K)) (c : Chunk K) (hl : ∀ x ∈ cur ++ [c], LenRep (x.len o) (lens x)) (h : BRep o lens b cur) :
    ∃ r, mustClose o b (c.len o) = .ok r ∧ (cur = [] → r = false) ∧
      (cur ≠ [] → (r = true ↔ ¬ BatchOk o lens (cur ++ [c]))) := by
  have hlc := hl c (by simp)
  have hrep := rep_snoc' lens cur b.maxFrames c (c.len o) hlc h.max
  unfold mustClose
  simp only [Batch.trySeq, maxList, bind, Except.bind]
  by_cases hne : cur = []
  · have : ¬ (b.numSlices ≥ 1) := by rw [h.rep.num, hne]; simp
    refine ⟨false, by simp [this], fun _ => rfl, fun h => absurd hne h⟩
  · have hnum : b.numSlices ≥ 1 := by rw [h.rep.num]; exact List.length_pos_iff.mpr hne
    simp only [hnum, if_true]
    have hlen : ((b.numSlices + 1 : Nat) : Int) = ((cur ++ [c]).length : Int) := by simp [h.rep.num]
    -- the padded size
    generalize hdt : binOp b.maxFrames (c.len o) maxOp none = dt at hrep ⊢
    have hval : dt.value = some 0 := by
      rw [← hdt]
      show binOpScalarOptional b.maxFrames.value (c.len o).value none maxOp = some 0
      rw [h.val, hlc.val]; rfl
    rw [hlen]
    have hmget : ∀ k, get (mulScalar dt ((cur ++ [c]).length : Int)) k = (get dt k).map (· * ((cur ++ [c]).length : Int)) :=
      fun k => (scalar_arith dt hrep.nn _ k).2.1
    have hmval : (mulScalar dt ((cur ++ [c]).length : Int)).value = some 0 := by
      show binOpScalarOptional dt.value (if dt.value.isSome then some ((cur ++ [c]).length : Int) else none) (some 1)
        (lift2 (· * ·)) = some 0
      rw [hval]; simp [binOpScalarOptional, lift2]
    have hdtsome : ∀ k ∈ dt.dict.keys, ∃ v, get dt k = some v := by
      intro k hk
      obtain ⟨y, hy, hky⟩ := (hrep.keys k).mp hk
      obtain ⟨n, hn⟩ := Option.isSome_iff_exists.mp ((Dict.get?_isSome _ k).mpr hky)
      obtain ⟨v, hv, _⟩ := hrep.ub k y hy n hn
      exact ⟨v, hv⟩
    obtain ⟨r1, hr1, hi1⟩ := exceedsMinus_iff lens (cur ++ [c]) dt (mulScalar dt ((cur ++ [c]).length : Int)) o.batchSize
      (fun _ => 0) hrep
      (noNone_of_get _ (binOp_keys _ _ _ _).2 (by
        intro k hk hn
        rw [mulScalar_keys] at hk
        obtain ⟨v, hv⟩ := hdtsome k hk
        rw [hmget, hv] at hn; cases hn))
      (fun k => mulScalar_keys _ _ _)
      (by intro k _ v hv; rw [hmget, hv]; simp) (.inr hmval) ho.n1 ho.p1
    -- the padding
    have hsum := total_rep o lens b cur hne (fun x hx => hl x (by simp [hx])) h
    have hpget : ∀ k ∈ dt.dict.keys, ∀ v, get dt k = some v →
        get (sub (sub (mulScalar dt ((cur ++ [c]).length : Int)) b.totalFrames) (c.len o)) k
          = some (v * ((cur ++ [c]).length : Int) - sumLens lens (cur ++ [c]) k) := by
      intro k hk v hv
      rw [(arith_keywise _ _ k).2.1, (arith_keywise _ _ k).2.1, hmget, hv, hsum.get, hlc.get, sumLens_append]
      have hx : sumLens lens [c] k = (((lens c).get? k).getD 0 : Int) := by simp [sumLens]
      rw [hx]
      have hz : k ∉ b.totalFrames.dict.keys → sumLens lens cur k = 0 := by
        intro hk
        have h2 := (sumRep_snoc lens cur b.totalFrames _ c hsum (lenRep_seqLengths (lens c))).get k
        rw [(arith_keywise _ _ k).1, hsum.get, get_seqLengths, sumLens_append, hx] at h2
        simp only [hk, if_false, (add_keys _ _ k).1, false_or, keys_seqLengths, ← Dict.get?_isSome] at h2
        cases hd : (lens c).get? k with
        | none =>
          rw [hsum.keys] at hk
          exact sumLens_zero lens cur k (fun y hy hc => hk ⟨y, hy, hc⟩)
        | some n =>
          rw [hd] at h2
          simp [Keywise] at h2
          omega
      by_cases hkt : k ∈ b.totalFrames.dict.keys
      · simp only [hkt, if_true]
        cases (lens c).get? k <;> simp [Keywise]
        omega
      · rw [hz hkt]
        simp only [hkt, if_false]
        cases (lens c).get? k <;> simp [Keywise]
    have hpkeys : ∀ k, k ∈ (sub (sub (mulScalar dt ((cur ++ [c]).length : Int)) b.totalFrames) (c.len o)).dict.keys ↔
        k ∈ dt.dict.keys := by
      intro k
      rw [(add_keys _ _ k).2, (add_keys _ _ k).2, mulScalar_keys, hsum.keys, hlc.keys, hrep.keys]
      constructor
      · rintro ((h | ⟨y, hy, h1⟩) | h1)
        · exact h
        · exact ⟨y, by simp [hy], h1⟩
        · exact ⟨c, by simp, h1⟩
      · intro h; exact .inl (.inl h)
    obtain ⟨r2, hr2, hi2⟩ := exceedsMinus_iff lens (cur ++ [c]) dt
      (sub (sub (mulScalar dt ((cur ++ [c]).length : Int)) b.totalFrames) (c.len o)) o.maxPad
      (sumLens lens (cur ++ [c])) hrep
      (noNone_of_get _ (binOp_keys _ _ _ _).2 (by
        intro k hk hn
        rw [hpkeys] at hk
        obtain ⟨v, hv⟩ := hdtsome k hk
        rw [hpget k hk v hv] at hn; cases hn))
      hpkeys hpget (.inr (by rw [(add_value _ _).2, (add_value _ _).2, hmval, hsum.val, hlc.val]; rfl)) ho.n4 ho.p4
    rw [hr1]
    have hms : exceeds o.maxSeqs (b.numSlices + 1) = true ↔
        ¬ (∀ m, o.maxSeqs = some m → (cur ++ [c]).length ≤ m) := by
      cases hm : o.maxSeqs with
      | none => simp [exceeds]
      | some m =>
        simp only [exceeds, decide_eq_true_eq, Option.some.injEq, List.length_append, List.length_singleton, h.rep.num]
        constructor
        · intro h1 h2; have := h2 m rfl; omega
        · intro h1; by_contra hc; exact h1 (fun m' hm' => by omega)
    unfold BatchOk SizeOk PadOk
    cases r1 with
    | true => exact ⟨true, rfl, fun h => absurd h hne, fun _ => ⟨fun _ hb => hi1.mp rfl hb.1, fun _ => rfl⟩⟩
    | false =>
      simp only [Bool.false_eq_true, if_false]
      have hi1' : FitsMinus lens (fun _ => 0) o.batchSize (cur ++ [c]) := by
        by_contra hc; exact absurd (hi1.mpr hc) (by simp)
      by_cases hc : exceeds o.maxSeqs (b.numSlices + 1) = true
      · exact ⟨true, by rw [if_pos hc], fun h => absurd h hne, fun _ => ⟨fun _ hb => hms.mp hc hb.2.1, fun _ => rfl⟩⟩
      · refine ⟨r2, by rw [if_neg hc]; exact hr2, fun h => absurd h hne, fun _ => hi2.trans ?_⟩
        have : ∀ m, o.maxSeqs = some m → (cur ++ [c]).length ≤ m := by
          by_contra hcc; exact hc (hms.mpr hcc)
        constructor
        · intro h1 h2; exact h1 h2.2.2
        · intro h1 h2; exact h1 ⟨hi1', this, h2⟩

theorem genFinish_spec (o : GenOpts K) (lens : Chunk K → Dict K Nat) (b : Batch K) (cur : List (Chunk K))
    (h : BRep o lens b cur) :
    (HasFrames lens cur → genFinish b = .ok [b]) ∧ (¬ HasFrames lens cur → genFinish b = .ok []) := by
  have hget : ∀ k, get b.allFrames k = (get b.maxFrames k).map (· * (b.numSlices : Int)) :=
    fun k => (scalar_arith b.maxFrames h.max.nn _ k).2.1
  have hwf : b.allFrames.dict.Wf := (binOp_keys _ _ _ _).2
  have hval : b.allFrames.value = some 0 := by
    show binOpScalarOptional b.maxFrames.value (if b.maxFrames.value.isSome then some (b.numSlices : Int) else none)
      (some 1) (lift2 (· * ·)) = some 0
    rw [h.val]; simp [binOpScalarOptional, lift2]
  have hsome : ∀ k ∈ b.maxFrames.dict.keys, ∃ v, get b.maxFrames k = some v := by
    intro k hk
    obtain ⟨y, hy, hky⟩ := (h.max.keys k).mp hk
    obtain ⟨n, hn⟩ := Option.isSome_iff_exists.mp ((Dict.get?_isSome _ k).mpr hky)
    obtain ⟨v, hv, _⟩ := h.max.ub k y hy n hn
    exact ⟨v, hv⟩
  have hkeys : ∀ k, k ∈ b.allFrames.dict.keys ↔ k ∈ b.maxFrames.dict.keys := fun k => mulScalar_keys _ _ _
  have hnn : NoNone b.allFrames := noNone_of_get _ hwf (by
    intro k hk hn
    rw [hkeys] at hk
    obtain ⟨v, hv⟩ := hsome k hk
    rw [hget, hv] at hn; cases hn)
  obtain ⟨m, _, hm, _, hatt, _, hub⟩ := (extremum_spec b.allFrames hwf hnn).2 (by rw [hval]; simp)
  have hiff : 0 < m ↔ HasFrames lens cur := by
    constructor
    · intro hpos
      rcases hatt with ⟨k, hk⟩ | hk
      · have hkk : k ∈ b.allFrames.dict.keys := by rw [← Dict.get?_isSome, hk]; rfl
        rw [dict_get?_of_key _ _ hkk, hget] at hk
        rw [hkeys] at hkk
        obtain ⟨v, hv⟩ := hsome k hkk
        rw [hv] at hk
        simp only [Option.map_some, Option.some.injEq] at hk
        obtain ⟨x, hx, n, hn, hvn⟩ := h.max.att k v hkk hv
        refine ⟨x, hx, k, n, hn, ?_⟩
        by_contra hc
        have : v = 0 := by omega
        rw [this] at hk; omega
      · rw [hval] at hk; injection hk with hk; omega
    · rintro ⟨x, hx, k, n, hn, hpos⟩
      obtain ⟨v, hv, hle⟩ := h.max.ub k x hx n hn
      have hkk : k ∈ b.maxFrames.dict.keys := (h.max.keys k).mpr ⟨x, hx, by rw [← Dict.get?_isSome, hn]; rfl⟩
      have hnum : 0 < b.numSlices := by rw [h.rep.num]; exact List.length_pos_of_mem hx
      have := (hub (v * (b.numSlices : Int)) (.inl ⟨k, by
        rw [dict_get?_of_key _ _ ((hkeys k).mpr hkk), hget, hv]; rfl⟩)).2
      have h2 : 0 < v * (b.numSlices : Int) := Int.mul_pos (by omega) (by omega)
      omega
  unfold genFinish
  simp only [hm, bind, Except.bind]
  constructor
  · intro hh; rw [if_pos (hiff.mpr hh)]
  · intro hh; rw [if_neg (fun hc => hh (hiff.mp hc))]

theorem genStep_spec (o : GenOpts K) (ho : ValidGen o) (lens : Chunk K → Dict K Nat) (s : GenSt K)
    (cur : List (Chunk K)) (c : Chunk K) (hl : ∀ x ∈ cur ++ [c], LenRep (x.len o) (lens x))
    (h : BRep o lens s.batch cur) (hs : c.sampled = true) :
    (¬ Kept o lens c → genStep o c s = .ok ([], s)) ∧
    (Kept o lens c → ∃ out s', genStep o c s = .ok (out, s') ∧ s'.last = some c.seq ∧
      s'.total = s.total + (if s.last = some c.seq then 0 else 1) ∧
      ((out = [] ∧ BRep o lens s'.batch (cur ++ [c]) ∧ (cur = [] ∨ BatchOk o lens (cur ++ [c]))) ∨
       (out = [s.batch] ∧ BRep o lens s'.batch [c] ∧ cur ≠ [] ∧ ¬ BatchOk o lens (cur ++ [c])))) := by
  have hlc := hl c (by simp)
  obtain ⟨r1, h1, i1⟩ := lenCompare _ _ hlc (len_wf o c) o.maxLen ho.n2 (fun a b => decide (a > b))
  obtain ⟨r2, h2, i2⟩ := lenCompare _ _ hlc (len_wf o c) o.minLen ho.n3 (fun a b => decide (a < b))
  have hin : Kept o lens c ↔ r1 = false ∧ r2 = false ∧ c.dropped = false := by
    unfold Kept Kept.InLen
    rw [← Bool.not_eq_true r1, ← Bool.not_eq_true r2, i1, i2]
    constructor
    · rintro ⟨_, h, hd⟩
      refine ⟨?_, ?_, hd⟩
      · rintro ⟨k, n, L, h3, h4, h5⟩
        have := (h k n h3).2 L h4
        simp only [decide_eq_true_eq] at h5; omega
      · rintro ⟨k, n, L, h3, h4, h5⟩
        have := (h k n h3).1 L h4
        simp only [decide_eq_true_eq] at h5; omega
    · rintro ⟨h3, h4, hd⟩
      refine ⟨hs, fun k n hk => ⟨?_, ?_⟩, hd⟩
      · intro L hL
        by_contra hc
        exact h4 ⟨k, n, L, hk, hL, by simp; omega⟩
      · intro L hL
        by_contra hc
        exact h3 ⟨k, n, L, hk, hL, by simp; omega⟩
  unfold genStep
  simp only [bind, Except.bind, h1, h2]
  constructor
  · intro hk
    rw [hin] at hk
    cases r1 with
    | true => rfl
    | false =>
      cases r2 with
      | true => rfl
      | false =>
        cases hd : c.dropped with
        | true => rfl
        | false => exact absurd ⟨rfl, rfl, hd⟩ hk
  · intro hk
    obtain ⟨rfl, rfl, hd⟩ := hin.mp hk
    simp only [hd, Bool.false_eq_true, if_false]
    obtain ⟨r, hr, he1, he2⟩ := mustClose_spec o ho lens s.batch cur c hl h
    rw [hr]
    cases r with
    | false =>
      obtain ⟨b', hb, hrep⟩ := brep_snoc o lens s.batch cur c hlc h
      refine ⟨[], { batch := b', total := if s.last = some c.seq then s.total else s.total + 1, last := some c.seq },
        by simp [hb], rfl, by simp only; split <;> omega, .inl ⟨rfl, hrep, ?_⟩⟩
      by_cases hc : cur = []
      · exact .inl hc
      · right
        by_contra hcc
        exact absurd ((he2 hc).mpr hcc) (by simp)
    | true =>
      obtain ⟨b', hb, hrep⟩ := brep_snoc o lens {} [] c hlc (brep_empty o lens)
      have hc : cur ≠ [] := fun hc => by have := he1 hc; cases this
      refine ⟨[s.batch], { batch := b', total := if s.last = some c.seq then s.total else s.total + 1, last := some c.seq },
        by simp [hb], rfl, by simp only; split <;> omega, .inr ⟨rfl, hrep, hc, (he2 hc).mp rfl⟩⟩

theorem genLoop_spec (o : GenOpts K) (ho : ValidGen o) (lens : Chunk K → Dict K Nat) (cs : List (Chunk K))
    (s : GenSt K) (cur : List (Chunk K)) (hl : ∀ x ∈ cur ++ cs, LenRep (x.len o) (lens x))
    (h : BRep o lens s.batch cur) (ht : ∀ m, o.maxTotal = some m → s.total ≤ m + 1) :
    ∃ bs used rest gs last, genLoop o cs s = .ok bs ∧ used ++ rest = keptOf o lens cs ∧
      Greedy (BatchOk o lens) cur used gs last ∧
      ((HasFrames lens last ∧ List.Forall₂ (Represents o) bs (gs ++ [last])) ∨
        (¬ HasFrames lens last ∧ List.Forall₂ (Represents o) bs gs)) ∧
      (o.maxTotal = none → rest = []) ∧
      (∀ m, o.maxTotal = some m → s.total + numSeqs s.last used ≤ m + 1 ∧
        (rest ≠ [] → s.total + numSeqs s.last used = m + 1)) := by
  induction cs generalizing s cur with
  | nil =>
    obtain ⟨f1, f2⟩ := genFinish_spec o lens s.batch cur h
    unfold genLoop
    by_cases hf : HasFrames lens cur
    · exact ⟨[s.batch], [], [], [], cur, f1 hf, rfl, .done cur, .inl ⟨hf, .cons h.rep .nil⟩, fun _ => rfl,
        fun m hm => ⟨by simpa [numSeqs] using ht m hm, fun h => absurd rfl h⟩⟩
    · exact ⟨[], [], [], [], cur, f2 hf, rfl, .done cur, .inr ⟨hf, .nil⟩, fun _ => rfl,
        fun m hm => ⟨by simpa [numSeqs] using ht m hm, fun h => absurd rfl h⟩⟩
  | cons c cs ih =>
    unfold genLoop
    by_cases hs : c.sampled = true
    · simp only [hs, Bool.not_true, Bool.false_eq_true, if_false]
      by_cases hex : exceeds o.maxTotal s.total = true
      · simp only [hex, if_true]
        obtain ⟨m, hm, hgt⟩ : ∃ m, o.maxTotal = some m ∧ s.total > m := by
          cases hm : o.maxTotal with
          | none => rw [hm] at hex; cases hex
          | some m => rw [hm] at hex; exact ⟨m, rfl, by simpa [exceeds] using hex⟩
        have hle := ht m hm
        obtain ⟨f1, f2⟩ := genFinish_spec o lens s.batch cur h
        have hN : o.maxTotal = none → keptOf o lens (c :: cs) = [] := by intro hn; rw [hm] at hn; cases hn
        have hT : ∀ m', o.maxTotal = some m' → s.total + numSeqs s.last ([] : List (Chunk K)) ≤ m' + 1 ∧
            (keptOf o lens (c :: cs) ≠ [] → s.total + numSeqs s.last ([] : List (Chunk K)) = m' + 1) := by
          intro m' hm'
          rw [hm] at hm'
          injection hm' with hm'
          simp only [numSeqs]
          exact ⟨by omega, fun _ => by omega⟩
        by_cases hf : HasFrames lens cur
        · exact ⟨[s.batch], [], _, [], cur, f1 hf, rfl, .done cur, .inl ⟨hf, .cons h.rep .nil⟩, hN, hT⟩
        · exact ⟨[], [], _, [], cur, f2 hf, rfl, .done cur, .inr ⟨hf, .nil⟩, hN, hT⟩
      · simp only [hex, Bool.false_eq_true, if_false, bind, Except.bind]
        obtain ⟨g1, g2⟩ := genStep_spec o ho lens s cur c (fun x hx => hl x (by
          rcases List.mem_append.mp hx with h | h
          · simp [h]
          · simp at h; simp [h])) h hs
        by_cases hk : Kept o lens c
        · obtain ⟨out, s', e1, e2, e3, e4⟩ := g2 hk
          have hkept : keptOf o lens (c :: cs) = c :: keptOf o lens cs := by simp [keptOf, hk]
          have ht' : ∀ m, o.maxTotal = some m → s'.total ≤ m + 1 := by
            intro m hm
            rw [hm] at hex
            simp [exceeds] at hex
            rw [e3]; split <;> omega
          have hnum : ∀ u, s.total + numSeqs s.last (c :: u) = s'.total + numSeqs s'.last u := by
            intro u; simp only [numSeqs, e2, e3]; omega
          rw [e1, hkept]
          rcases e4 with ⟨rfl, e5, e6⟩ | ⟨rfl, e5, e6, e7⟩
          · obtain ⟨bs, used, rest, gs, last, i1, i2, i3, i4, i5, i6⟩ := ih s' (cur ++ [c]) (by simpa using hl) e5 ht'
            exact ⟨bs, c :: used, rest, gs, last, by simp [i1], by simp [i2], .add c e6 i3, i4, i5,
              fun m hm => by rw [hnum]; exact i6 m hm⟩
          · obtain ⟨bs, used, rest, gs, last, i1, i2, i3, i4, i5, i6⟩ := ih s' [c] (fun x hx => hl x (by
              simp only [List.mem_append, List.mem_cons] at hx ⊢
              rcases hx with (h | h) | h
              · exact .inr (.inl h)
              · simp at h
              · exact .inr (.inr h))) e5 ht'
            refine ⟨s.batch :: bs, c :: used, rest, cur :: gs, last, by simp [i1], by simp [i2], .close c e6 e7 i3, ?_, i5,
              fun m hm => by rw [hnum]; exact i6 m hm⟩
            rcases i4 with ⟨h1, h2⟩ | ⟨h1, h2⟩
            · exact .inl ⟨h1, .cons h.rep h2⟩
            · exact .inr ⟨h1, .cons h.rep h2⟩
        · have hkept : keptOf o lens (c :: cs) = keptOf o lens cs := by simp [keptOf, hk]
          rw [g1 hk, hkept]
          obtain ⟨bs, used, rest, gs, last, i1, i2, i3, i4, i5, i6⟩ := ih s cur (fun x hx => hl x (by
            rcases List.mem_append.mp hx with h | h
            · simp [h]
            · simp [h])) h ht
          exact ⟨bs, used, rest, gs, last, by simp [i1], i2, i3, i4, i5, i6⟩
    · have hkept : keptOf o lens (c :: cs) = keptOf o lens cs := by
        have : ¬ Kept o lens c := fun hk => hs hk.1
        simp [keptOf, this]
      have hs' : c.sampled = false := by simpa using hs
      simp only [hs', Bool.not_false, if_true, hkept]
      exact ih s cur (fun x hx => hl x (by
        rcases List.mem_append.mp hx with h | h
        · simp [h]
        · simp [h])) h ht

/-- C13 (partial, see below). For every stream of chunks and all limits: the generator takes the kept chunks `used` (all
of them without `max_total_num_seqs`) and batches them correctly (`GoodGreedy`); the yielded batch objects represent
these batches in order. Two deviations from the property, both shown as theorems below: the last batch is left out if it
has no frames at all, and with `max_total_num_seqs = m` up to `m + 1` seqs are used. -/
theorem generateBatches_partial (o : GenOpts K) (ho : ValidGen o) (lens : Chunk K → Dict K Nat) (cs : List (Chunk K))
    (hl : ∀ c ∈ cs, LenRep (c.len o) (lens c)) :
    ∃ bs used rest gs last, generateBatches o cs = .ok bs ∧ used ++ rest = keptOf o lens cs ∧
      GoodGreedy (BatchOk o lens) used gs last ∧
      ((HasFrames lens last ∧ List.Forall₂ (Represents o) bs (gs ++ [last])) ∨
        (¬ HasFrames lens last ∧ List.Forall₂ (Represents o) bs gs)) ∧
      (o.maxTotal = none → rest = []) ∧
      (∀ m, o.maxTotal = some m → numSeqs none used ≤ m + 1 ∧ (rest ≠ [] → numSeqs none used = m + 1)) := by
  obtain ⟨bs, used, rest, gs, last, h1, h2, h3, h4, h5, h6⟩ := genLoop_spec o ho lens cs {} [] (by simpa using hl)
    (brep_empty o lens) (by intro m _; simp)
  refine ⟨bs, used, rest, gs, last, h1, h2, by simpa using h3.good (by simp), h4, h5, ?_⟩
  intro m hm
  simpa using h6 m hm

/-- Example options. -/
def exGen (maxTotal : Option Nat) : GenOpts String where
  batchSize := ofScalar 10
  maxSeqs := some 2
  maxLen := ofScalar 8
  minLen := ofScalar 0
  maxPad := {}
  maxTotal := maxTotal
  ctxLeft := 0
  ctxRight := 0

/-- A full seq as chunk. -/
def exChunk (i n : Nat) : Chunk String :=
  ⟨i, constantLike 0 (seqLengths [("data", n)]), seqLengths [("data", n)], true, false⟩

/-- The seq indices of the batches. -/
def seqIdxs (r : Res (List (Batch String))) : Option (List (List Nat)) :=
  match r with
  | .ok bs => some (bs.map (fun b => b.seqs.map Part.seq))
  | .error _ => none

theorem exLenRep (m : Option Nat) (i n : Nat) : LenRep ((exChunk i n).len (exGen m)) [("data", n)] := by
  refine ⟨?_, ?_, rfl⟩
  · intro k
    by_cases hk : "data" = k
    · subst hk
      simp [exChunk, Chunk.len, Chunk.startCtx, exGen, sub, addScalar, add, binOp, binOpLoop, keysUnion, keysUnionLoop,
        constantLike, seqLengths, ofDict, Dict.keys, Dict.set, binOpScalarOptional, NumbersDict.get, Dict.get?, lift2]
    · simp [exChunk, Chunk.len, Chunk.startCtx, exGen, sub, addScalar, add, binOp, binOpLoop, keysUnion, keysUnionLoop,
        constantLike, seqLengths, ofDict, Dict.keys, Dict.set, binOpScalarOptional, NumbersDict.get, Dict.get?, lift2, hk]
  · intro k
    simp [exChunk, Chunk.len, Chunk.startCtx, exGen, sub, addScalar, add, binOp, binOpLoop, keysUnion, keysUnionLoop,
      constantLike, seqLengths, ofDict, Dict.keys, Dict.set, Dict.get?]

example : seqIdxs (generateBatches (exGen none) [exChunk 0 5, exChunk 1 5, exChunk 2 6, exChunk 3 9, exChunk 4 2])
    = some [[0, 1], [2], [4]] := by decide +kernel

/-- Disagreement with C13: `max_total_num_seqs = 1` gives two seqs. -/
theorem max_total_num_seqs_off_by_one :
    seqIdxs (generateBatches (exGen (some 1)) [exChunk 0 5, exChunk 1 5, exChunk 2 6]) = some [[0, 1]] := by decide +kernel

/-- Disagreement with C13: a last batch without frames is lost, although such seqs are not lost elsewhere. -/
theorem last_empty_seqs_lost :
    seqIdxs (generateBatches (exGen none) [exChunk 0 0, exChunk 1 0, exChunk 2 0]) = some [[0, 1]] := by decide +kernel

/-- C13: the frame range of a chunk in its batch is the chunk extended by the context window: `ctxLeft` frames before,
`ctxRight` frames after. -/
theorem chunk_context (o : GenOpts K) (c : Chunk K) (hs : NoNone c.start) (he : NoNone c.stop) (k : K) (a b : Int)
    (ha : get c.start k = some a) (hb : get c.stop k = some b) :
    get (c.startCtx o) k = some (a - o.ctxLeft) ∧ get (c.len o) k = some ((b + o.ctxRight) - (a - o.ctxLeft)) := by
  have h1 : get (c.startCtx o) k = some (a - o.ctxLeft) := by
    rw [Chunk.startCtx, (scalar_arith _ hs _ k).1, ha]; simp [Int.sub_eq_add_neg]
  refine ⟨h1, ?_⟩
  rw [Chunk.len, (arith_keywise _ _ k).2.1, h1, (scalar_arith _ he _ k).1, hb]
  rfl

end Verif.Legacy
