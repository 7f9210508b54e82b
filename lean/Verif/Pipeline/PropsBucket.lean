import Verif.Pipeline.Spec
import Verif.Util.ListLemmas
import Mathlib.Data.List.Nodup
/-
Theorems about bucket batching (C09).
-/
namespace Verif.Pipeline
open Verif.Py Verif.ListLemmas

variable {α : Type}

theorem filter_tag {β : Type} (f : Nat → β) (i : Nat) (L : List Nat) (h : L.Nodup) :
    (L.map (fun j => (j, f j))).filter (fun e => decide (e.1 = i)) = if i ∈ L then [(i, f i)] else [] := by
  induction L with
  | nil => rfl
  | cons a L ih =>
    rw [List.nodup_cons] at h
    rw [List.map_cons, List.filter_cons, ih h.2]
    by_cases ha : a = i
    · subst ha; simp [h.1]
    · have : ¬ (i = a) := fun e => ha e.symm
      simp [ha, this]

theorem perm_flatMap_filter {β : Type} (f : β → Nat) (n : Nat) (l : List β) (h : ∀ x ∈ l, f x < n) :
    ((List.range n).flatMap (fun i => l.filter (fun x => decide (f x = i)))).Perm l := by
  have key : ∀ m, ((List.range m).flatMap (fun i => l.filter (fun x => decide (f x = i)))).Perm
      (l.filter (fun x => decide (f x < m))) := by
    intro m
    induction m with
    | zero => simp
    | succ m ih =>
      rw [List.range_succ, List.flatMap_append]
      simp only [List.flatMap_cons, List.flatMap_nil, List.append_nil]
      have h1 := List.filter_append_perm (fun x => decide (f x < m)) (l.filter (fun x => decide (f x < m + 1)))
      rw [List.filter_filter, List.filter_filter] at h1
      refine List.Perm.trans (List.Perm.trans (ih.append (List.Perm.refl _)) (List.Perm.of_eq ?_)) h1
      congr 1 <;> apply List.filter_congr <;> intro x _
      · by_cases hx : f x < m
        · have : f x < m + 1 := by omega
          simp [hx, this]
        · simp [hx]
      · by_cases hx : f x = m
        · simp [hx]
        · by_cases hx2 : f x < m
          · simp [hx, hx2]
          · have : ¬ f x < m + 1 := by omega
            simp [hx, this]
  refine (key n).trans (List.Perm.of_eq ?_)
  rw [List.filter_eq_self]
  intro x hx; simpa using h x hx

theorem bucketOf_lt (lens : List Int) (size : Int) (r : Option Nat) (i : Nat) (h : bucketOf lens size r = some i) :
    i < lens.length := by
  unfold bucketOf at h
  simp only at h
  split at h
  · cases h
  · rename_i hb
    cases r with
    | none => injection h with h; omega
    | some r =>
      simp only at h
      split at h
      · injection h with h
        have := Nat.mod_lt r (show 0 < lens.length - bisectLeft lens size by omega)
        omega
      · injection h with h; omega

theorem map_range_getD {β : Type} (d : β) (bs : List β) : (List.range bs.length).map (fun i => bs.getD i d) = bs := by
  apply List.ext_getElem
  · simp
  · intro i h1 h2; simp at h1; simp [h1]

/-- The loop, with each batch labelled by its bucket. -/
theorem bucketLoop_spec (buckets : List (Int × Int)) (hpos : ∀ b ∈ buckets, 0 < b.2) (size : α → Int)
    (xs : List (α × Option Nat)) (bs : List (List α)) (hlen : bs.length = buckets.length)
    (hlt : ∀ i b, buckets[i]? = some b → ((bs.getD i []).length : Int) < b.2) :
    ∃ tg : List (Nat × List α), bucketLoop buckets size xs bs = tg.map Prod.snd ∧
      (∀ e ∈ tg, e.1 < buckets.length) ∧
      (∀ i, ((tg.filter (fun e => decide (e.1 = i))).map Prod.snd).flatten
        = bs.getD i [] ++ (xs.filter (fun e => decide (bucketOf (buckets.map Prod.fst) (size e.1) e.2 = some i))).map Prod.fst) ∧
      (∀ e ∈ tg, e.2 ≠ []) ∧
      (∀ e ∈ tg, ∀ b, buckets[e.1]? = some b → (e.2.length : Int) ≤ b.2) ∧
      (∀ l e r, tg = l ++ e :: r → (∃ e' ∈ r, e'.1 = e.1) → ∀ b, buckets[e.1]? = some b → (e.2.length : Int) = b.2) := by
  induction xs generalizing bs with
  | nil =>
    let L := (List.range bs.length).filter (fun i => !(bs.getD i []).isEmpty)
    have hnd : L.Nodup := List.Nodup.filter _ List.nodup_range
    have hL : ∀ i ∈ L, i < bs.length ∧ bs.getD i [] ≠ [] := by
      intro i hi
      rw [List.mem_filter] at hi
      refine ⟨by simpa using hi.1, ?_⟩
      intro h; rw [h] at hi; simp at hi
    refine ⟨L.map (fun i => (i, bs.getD i [])), ?_, ?_, ?_, ?_, ?_, ?_⟩
    · simp only [bucketLoop, List.map_map, Function.comp_def]
      have := List.filter_map (p := fun b : List α => !b.isEmpty) (f := fun i => bs.getD i []) (l := List.range bs.length)
      rw [map_range_getD] at this
      rw [this]; rfl
    · intro e he
      obtain ⟨i, hi, rfl⟩ := List.mem_map.mp he
      rw [← hlen]; exact (hL i hi).1
    · intro i
      rw [filter_tag _ _ _ hnd]
      by_cases hi : i ∈ L
      · simp [hi]
      · simp only [hi, if_false]
        have : bs.getD i [] = [] := by
          by_contra hc
          apply hi
          rw [List.mem_filter]
          refine ⟨?_, by simpa using hc⟩
          rw [List.mem_range]
          by_contra hge
          apply hc
          simp [List.getD, List.getElem?_eq_none (by omega : bs.length ≤ i)]
        rw [this]; rfl
    · intro e he
      obtain ⟨i, hi, rfl⟩ := List.mem_map.mp he
      exact (hL i hi).2
    · intro e he b hb
      obtain ⟨i, hi, rfl⟩ := List.mem_map.mp he
      exact Int.le_of_lt (hlt i b hb)
    · intro l e r he hex
      exfalso
      obtain ⟨e', he', htag⟩ := hex
      have hn : ((L.map (fun i => (i, bs.getD i []))).map Prod.fst).Nodup := by
        rw [List.map_map, show (Prod.fst ∘ fun i => (i, bs.getD i [])) = id from rfl, List.map_id]; exact hnd
      rw [he, List.map_append, List.map_cons, List.nodup_append] at hn
      exact (List.nodup_cons.mp hn.2.1).1 (List.mem_map.mpr ⟨e', he', htag⟩)
  | cons y xs ih =>
    obtain ⟨x, r⟩ := y
    unfold bucketLoop
    cases hb : bucketOf (buckets.map Prod.fst) (size x) r with
    | none =>
      obtain ⟨tg, h1, h2, h3, h4, h5, h6⟩ := ih bs hlen hlt
      refine ⟨tg, by simp [h1], h2, ?_, h4, h5, h6⟩
      intro i
      rw [h3 i]; simp [hb]
    | some j =>
      have hj : j < buckets.length := by simpa using bucketOf_lt _ _ _ _ hb
      have hj' : buckets[j]? = some buckets[j] := List.getElem?_eq_getElem hj
      have hsz : (buckets.map Prod.snd).getD j 0 = buckets[j].2 := by simp [List.getD, hj']
      have hcur := hlt j _ hj'
      have hset : ∀ (v : List α) i, (bs.set j v).getD i [] = if i = j then v else bs.getD i [] := by
        intro v i
        simp only [List.getD, List.getElem?_set]
        by_cases hij : j = i
        · subst hij; simp [show j < bs.length by omega]
        · have : ¬ (i = j) := fun e => hij e.symm
          simp [hij, this]
      simp only [bucketAdd, hsz]
      by_cases hfull : ((bs.getD j [] ++ [x]).length : Int) ≥ buckets[j].2
      · simp only [hfull, if_true]
        obtain ⟨tg, h1, h2, h3, h4, h5, h6⟩ := ih (bs.set j []) (by simp [hlen]) (by
          intro i b hib
          rw [hset]
          split
          · have := hpos b (List.mem_of_getElem? hib); simpa using this
          · exact hlt i b hib)
        have hex : ((bs.getD j [] ++ [x]).length : Int) = buckets[j].2 := by
          rw [List.length_append] at hfull ⊢
          simp at hfull hcur ⊢; omega
        refine ⟨(j, bs.getD j [] ++ [x]) :: tg, by simp [h1], ?_, ?_, ?_, ?_, ?_⟩
        · intro e he
          rcases List.mem_cons.mp he with rfl | he
          · exact hj
          · exact h2 e he
        · intro i
          by_cases hij : j = i
          · subst hij
            have := h3 j
            rw [hset] at this
            simp only [if_true, List.nil_append] at this
            simp [this, hb]
          · have hij' : ¬ (i = j) := fun e => hij e.symm
            have := h3 i
            rw [hset] at this
            simp only [hij', if_false] at this
            simp [hij, this, hb]
        · intro e he
          rcases List.mem_cons.mp he with rfl | he
          · simp
          · exact h4 e he
        · intro e he b hbb
          rcases List.mem_cons.mp he with rfl | he
          · simp only at hbb
            rw [hj'] at hbb; injection hbb with hbb; subst hbb
            simp only; omega
          · exact h5 e he b hbb
        · intro l e r' he hx b hbb
          cases l with
          | nil =>
            simp only [List.nil_append, List.cons.injEq] at he
            obtain ⟨rfl, _⟩ := he
            simp only at hbb
            rw [hj'] at hbb; injection hbb with hbb; subst hbb
            exact hex
          | cons a l =>
            simp only [List.cons_append, List.cons.injEq] at he
            exact h6 l e r' he.2 hx b hbb
      · simp only [hfull, if_false]
        obtain ⟨tg, h1, h2, h3, h4, h5, h6⟩ := ih (bs.set j (bs.getD j [] ++ [x])) (by simp [hlen]) (by
          intro i b hib
          rw [hset]
          split
          · rename_i hij; subst hij
            rw [hj'] at hib; injection hib with hib; subst hib
            omega
          · exact hlt i b hib)
        refine ⟨tg, by simp only [List.nil_append]; exact h1, h2, ?_, h4, h5, h6⟩
        intro i
        rw [h3 i, hset]
        by_cases hij : i = j
        · subst hij; simp [hb]
        · have hij' : ¬ (j = i) := fun e => hij e.symm
          simp [hij, hij', hb]

/-! ### the bucket of a seq -/

theorem takeWhile_spec (lens : List Int) (h : lens.Pairwise (· < ·)) (x : Int) :
    (∀ i v, lens[i]? = some v → (v < x ↔ i < bisectLeft lens x)) ∧ bisectLeft lens x ≤ lens.length := by
  induction lens with
  | nil => exact ⟨by simp, by simp [bisectLeft]⟩
  | cons a l ih =>
    rw [List.pairwise_cons] at h
    obtain ⟨h1, h2⟩ := ih h.2
    unfold bisectLeft at *
    rw [List.takeWhile_cons]
    by_cases ha : a < x
    · simp only [ha, decide_true, if_true, List.length_cons]
      refine ⟨?_, by omega⟩
      intro i v hv
      cases i with
      | zero => simp at hv; subst hv; simp [ha]
      | succ i => simp at hv; rw [h1 i v hv]; omega
    · simp only [ha, decide_false, Bool.false_eq_true, if_false, List.length_nil]
      refine ⟨?_, by omega⟩
      intro i v hv
      cases i with
      | zero => simp at hv; subst hv; simp [ha]
      | succ i =>
        simp at hv
        have := h.1 v (List.mem_of_getElem? hv)
        constructor
        · intro; omega
        · intro; omega

/-- C09: which bucket a seq goes to: it is dropped iff it is longer than every bucket; otherwise the bucket is one
where it fits, and without a random outcome the smallest one. -/
theorem bucketOf_spec (lens : List Int) (h : lens.Pairwise (· < ·)) (x : Int) (r : Option Nat) :
    (bucketOf lens x r = none ↔ ∀ v ∈ lens, v < x) ∧
    (∀ i, bucketOf lens x r = some i → ∃ v, lens[i]? = some v ∧ x ≤ v) ∧
    (∀ i, bucketOf lens x none = some i → ∀ j < i, ∀ v, lens[j]? = some v → v < x) := by
  obtain ⟨h1, h2⟩ := takeWhile_spec lens h x
  refine ⟨?_, ?_, ?_⟩
  · have hn : bucketOf lens x r = none ↔ lens.length ≤ bisectLeft lens x := by
      unfold bucketOf
      simp only [ge_iff_le]
      by_cases hc : lens.length ≤ bisectLeft lens x
      · simp [hc]
      · simp only [hc, if_false]
        cases r with
        | none => simp
        | some r => simp only; split <;> simp
    rw [hn]
    constructor
    · intro hle v hv
      obtain ⟨i, hi, rfl⟩ := List.mem_iff_getElem.mp hv
      exact (h1 i _ (List.getElem?_eq_getElem hi)).mpr (by omega)
    · intro hall
      by_contra hc
      have hlt : bisectLeft lens x < lens.length := by omega
      have := (h1 _ _ (List.getElem?_eq_getElem hlt)).mp (hall _ (List.getElem_mem hlt))
      omega
  · intro i hi
    have hlt := bucketOf_lt lens x r i hi
    refine ⟨lens[i], List.getElem?_eq_getElem hlt, ?_⟩
    by_contra hc
    have := (h1 i _ (List.getElem?_eq_getElem hlt)).mp (by omega)
    unfold bucketOf at hi
    simp only [ge_iff_le] at hi
    split at hi
    · cases hi
    · cases r with
      | none => injection hi with hi; omega
      | some r =>
        simp only at hi
        split at hi <;> (injection hi with hi; omega)
  · intro i hi j hj v hv
    refine (h1 j v hv).mpr ?_
    unfold bucketOf at hi
    simp only [ge_iff_le] at hi
    split at hi
    · cases hi
    · injection hi with hi; omega

theorem mkBuckets_spec (buckets : List (Int × Int)) (hne : buckets ≠ []) (hpos : ∀ b ∈ buckets, 0 < b.1 ∧ 0 < b.2)
    (hd : (buckets.map Prod.fst).Nodup) :
    ∃ bks, mkBuckets buckets = .ok bks ∧ bks.Perm buckets ∧ (bks.map Prod.fst).Pairwise (· < ·) := by
  let le : Int × Int → Int × Int → Bool := fun a b => decide (a.1 < b.1 ∨ (a.1 = b.1 ∧ a.2 ≤ b.2))
  have hperm : (stableSort le buckets).Perm buckets := stableSort_perm _ _
  have hsort : (stableSort le buckets).Pairwise (fun a b => le a b = true) := by
    apply stableSort_pairwise
    · intro a b c h1 h2
      simp only [le, decide_eq_true_eq] at h1 h2 ⊢; omega
    · intro a b
      simp only [le, Bool.or_eq_true, decide_eq_true_eq]; omega
  have hnd : ((stableSort le buckets).map Prod.fst).Nodup := (hperm.map Prod.fst).nodup_iff.mpr hd
  refine ⟨stableSort le buckets, ?_, hperm, ?_⟩
  · unfold mkBuckets
    have h1 : buckets.all (fun b => decide (b.1 > 0 ∧ b.2 > 0)) = true := by
      rw [List.all_eq_true]; intro b hb; simpa using hpos b hb
    have h2 : buckets.isEmpty = false := by cases buckets <;> simp_all
    have h3 : decide (((stableSort (fun a b : Int × Int => decide (a.1 < b.1 ∨ (a.1 = b.1 ∧ a.2 ≤ b.2))) buckets).map
        Prod.fst).Nodup) = true := by rw [decide_eq_true_eq]; exact hnd
    simp only [h1, h2, pyAssert, Bool.not_false, if_true, bind, Except.bind]
    rw [h3]; rfl
  · rw [List.pairwise_map]
    have h2 := List.pairwise_map.mp hnd
    refine (hsort.and h2).imp ?_
    rintro a b ⟨h3, h4⟩
    simp only [le, decide_eq_true_eq] at h3
    omega

/-- C09. For every bucket configuration with positive limits and distinct lengths, every stream and every random
outcome: the result is a correct bucket batching, with the (sorted) configured buckets. -/
theorem bucketing_correct (buckets : List (Int × Int)) (hne : buckets ≠ []) (hpos : ∀ b ∈ buckets, 0 < b.1 ∧ 0 < b.2)
    (hd : (buckets.map Prod.fst).Nodup) (size : α → Int) (stream : List (α × Option Nat)) :
    ∃ bks tagged, bks.Perm buckets ∧ (bks.map Prod.fst).Pairwise (· < ·) ∧
      bucketing buckets size stream = .ok (tagged.map Prod.snd) ∧
      GoodBucketing bks (fun x r => bucketOf (bks.map Prod.fst) (size x) r) stream tagged := by
  obtain ⟨bks, h1, h2, h3⟩ := mkBuckets_spec buckets hne hpos hd
  have hp : ∀ b ∈ bks, 0 < b.2 := fun b hb => (hpos b (h2.mem_iff.mp hb)).2
  have hz : ∀ i, (List.replicate bks.length ([] : List α)).getD i [] = [] := by
    intro i
    simp only [List.getD, List.getElem?_replicate]
    split <;> rfl
  obtain ⟨tg, t1, t2, t3, t4, t5, t6⟩ := bucketLoop_spec bks hp size stream (List.replicate bks.length []) (by simp) (by
    intro i b hb
    rw [hz]; exact hp b (List.mem_of_getElem? hb))
  refine ⟨bks, tg, h2, h3, ?_, ⟨t2, ?_, t4, t5, t6⟩⟩
  · simp only [bucketing, h1, bind, Except.bind, t1]
  · intro i; rw [t3 i, hz]; rfl

/-- C09: exactly the seqs which fit into the largest bucket are yielded, each once. -/
theorem bucketing_covers (buckets : List (Int × Int)) (hne : buckets ≠ []) (hpos : ∀ b ∈ buckets, 0 < b.1 ∧ 0 < b.2)
    (hd : (buckets.map Prod.fst).Nodup) (size : α → Int) (stream : List (α × Option Nat)) :
    ∃ out, bucketing buckets size stream = .ok out ∧
      out.flatten.Perm ((stream.map Prod.fst).filter (fun x => buckets.any (fun b => decide (size x ≤ b.1)))) ∧
      ∀ b ∈ out, b ≠ [] ∧ ∃ bk ∈ buckets, (b.length : Int) ≤ bk.2 ∧ ∀ x ∈ b, size x ≤ bk.1 := by
  obtain ⟨bks, tg, h1, h2, h3, h4⟩ := bucketing_correct buckets hne hpos hd size stream
  have hspec := fun (e : α × Option Nat) => bucketOf_spec (bks.map Prod.fst) h2 (size e.1) e.2
  refine ⟨_, h3, ?_, ?_⟩
  · have hp := (perm_flatMap_filter Prod.fst bks.length tg h4.tags).map Prod.snd
    have hp2 := hp.flatten
    rw [List.map_flatMap] at hp2
    have hfl : ((List.range bks.length).flatMap (fun i => (tg.filter (fun e => decide (e.1 = i))).map Prod.snd)).flatten
        = (List.range bks.length).flatMap (fun i =>
          (stream.filter (fun e => decide (bucketOf (bks.map Prod.fst) (size e.1) e.2 = some i))).map Prod.fst) := by
      rw [List.flatMap_def, List.flatten_flatten, List.map_map, List.flatMap_def]
      congr 1
      apply List.map_congr_left
      intro i _
      exact h4.covers i
    rw [hfl] at hp2
    refine hp2.symm.trans ?_
    let good := stream.filter (fun e => (bucketOf (bks.map Prod.fst) (size e.1) e.2).isSome)
    have hg := perm_flatMap_filter (fun e : α × Option Nat => (bucketOf (bks.map Prod.fst) (size e.1) e.2).getD 0)
      bks.length good (by
        intro e he
        obtain ⟨_, hs⟩ := List.mem_filter.mp he
        obtain ⟨i, hi⟩ := Option.isSome_iff_exists.mp hs
        simp only [hi, Option.getD_some]
        simpa using bucketOf_lt _ _ _ _ hi)
    have hg2 := hg.map Prod.fst
    rw [List.map_flatMap] at hg2
    refine (List.Perm.of_eq ?_).trans (hg2.trans (List.Perm.of_eq ?_))
    · apply flatMap_congr'
      intro i _
      congr 1
      rw [List.filter_filter]
      apply List.filter_congr
      intro e _
      cases bucketOf (bks.map Prod.fst) (size e.1) e.2 <;> simp
    · rw [List.filter_map]
      congr 1
      apply List.filter_congr
      intro e _
      have hn := (hspec e).1
      rw [Bool.eq_iff_iff]
      show _ ↔ (buckets.any fun b => decide (size e.1 ≤ b.1)) = true
      rw [List.any_eq_true]
      constructor
      · intro hs
        by_contra hc
        have : bucketOf (bks.map Prod.fst) (size e.1) e.2 = none := by
          rw [hn]
          intro v hv
          obtain ⟨b, hb, rfl⟩ := List.mem_map.mp hv
          by_contra hlt
          exact hc ⟨b, h1.mem_iff.mp hb, by simp; omega⟩
        rw [this] at hs; cases hs
      · rintro ⟨b, hb, hle⟩
        simp only [decide_eq_true_eq] at hle
        cases hbo : bucketOf (bks.map Prod.fst) (size e.1) e.2 with
        | some _ => rfl
        | none =>
          have := hn.mp hbo b.1 (List.mem_map.mpr ⟨b, h1.mem_iff.mpr hb, rfl⟩)
          omega
  · intro b hb
    obtain ⟨e, he, rfl⟩ := List.mem_map.mp hb
    refine ⟨h4.nonempty e he, ?_⟩
    have ht := h4.tags e he
    refine ⟨bks[e.1], h1.mem_iff.mp (List.getElem_mem ht), h4.size e he _ (List.getElem?_eq_getElem ht), ?_⟩
    intro x hx
    have hmem : x ∈ ((tg.filter (fun e' => decide (e'.1 = e.1))).map Prod.snd).flatten :=
      List.mem_flatten.mpr ⟨e.2, List.mem_map.mpr ⟨e, List.mem_filter.mpr ⟨he, by simp⟩, rfl⟩, hx⟩
    rw [h4.covers] at hmem
    obtain ⟨y, hy, rfl⟩ := List.mem_map.mp hmem
    have hy2 := (List.mem_filter.mp hy).2
    simp only [decide_eq_true_eq] at hy2
    obtain ⟨v, hv, hle⟩ := (hspec y).2.1 e.1 hy2
    rw [List.getElem?_map, List.getElem?_eq_getElem ht] at hv
    simp at hv; subst hv; exact hle

/-- C09: bad configurations fail in the constructor. -/
theorem bucketing_bad_config (buckets : List (Int × Int)) (size : α → Int) (stream : List (α × Option Nat)) :
    (buckets = [] → bucketing buckets size stream = .error .assertion) ∧
    (buckets ≠ [] → (∃ b ∈ buckets, b.1 ≤ 0 ∨ b.2 ≤ 0) → bucketing buckets size stream = .error .valueError) := by
  constructor
  · rintro rfl; rfl
  · intro hne hb
    have h1 : buckets.all (fun b => decide (b.1 > 0 ∧ b.2 > 0)) = false := by
      rw [List.all_eq_false]
      obtain ⟨b, hb, h⟩ := hb
      exact ⟨b, hb, by simp; omega⟩
    have h2 : buckets.isEmpty = false := by cases buckets <;> simp_all
    unfold bucketing mkBuckets
    simp only [pyAssert, h1, h2, bind, Except.bind, Bool.not_false, if_true, Bool.false_eq_true, if_false]

example : bucketing [(10, 2), (3, 2)] (fun x : Int => x)
    [(2, none), (7, none), (1, none), (11, none), (3, none), (10, none), (3, some 1), (4, none)]
    = .ok [[2, 1], [7, 10], [3, 4], [3]] := by decide

end Verif.Pipeline
