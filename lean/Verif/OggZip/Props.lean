import Verif.OggZip.Spec
import Mathlib.Data.List.Perm.Basic
/-
C123: zip files with audio and text as dataset.
-/
namespace Verif.OggZip
open Verif Verif.Py

/-! ## File names -/

theorem splitDot_spec (stem ext : S) (h : 46 ∉ ext) : splitDot (stem ++ 46 :: ext) = some (stem, 46 :: ext) := by
  unfold splitDot
  have h1 : (stem ++ 46 :: ext).reverse = ext.reverse ++ 46 :: stem.reverse := by simp
  have h2 : ∀ (e : S), 46 ∉ e → ∀ r, (e ++ 46 :: r).span (fun x => decide (x ≠ 46)) = (e, 46 :: r) := by
    intro e he r
    rw [List.span_eq_takeWhile_dropWhile]
    have hp : ∀ a ∈ e, (decide (a ≠ 46)) = true := by
      intro a ha
      have : a ≠ 46 := by rintro rfl; exact he ha
      simp [this]
    rw [List.takeWhile_append_of_pos hp, List.dropWhile_append_of_pos hp]
    simp
  rw [h1, h2 ext.reverse (by simpa using h)]
  simp

/-- A zip file has its name without ".zip", whatever dots there are in it. -/
theorem name_zip (stem : S) (h : ¬ stem.all (· == 46)) : nameExt (stem ++ extZip) = (stem, extZip) := by
  unfold nameExt splitext
  have : stem ++ extZip = stem ++ 46 :: [122, 105, 112] := rfl
  rw [this, splitDot_spec _ _ (by decide)]
  simp only [h]
  rfl

/-- A separate text document has its name without ".txt.gz". -/
theorem name_txt (stem : S) : nameExt (stem ++ extTxtGz) = (stem, extTxtGz) := by
  unfold nameExt splitext
  have : stem ++ extTxtGz = (stem ++ [46, 116, 120, 116]) ++ 46 :: [103, 122] := by simp [extTxtGz]
  rw [this, splitDot_spec _ _ (by decide)]
  have h2 : ((stem ++ [46, 116, 120, 116]).all (· == 46)) = false := by simp
  simp only [h2]
  have h3 : stem ++ [46, 116, 120, 116] = stem ++ 46 :: [116, 120, 116] := rfl
  simp only [Bool.false_eq_true, if_false, if_true, h3]
  rw [splitDot_spec _ _ (by decide)]
  rfl

/-- The kinds of paths. -/
inductive PathKind where
  | zip (stem : S) (content : Option S)
  | txt (stem : S) (content : Option S)

def PathKind.path : PathKind → S × Option S
  | .zip s c => (s ++ extZip, c)
  | .txt s c => (s ++ extTxtGz, c)

def PathKind.ok : PathKind → Prop
  | .zip s _ => ¬ s.all (· == 46)
  | .txt _ _ => True

/-- The names with positions of zip files, from position `i` on. -/
def zipNames : List PathKind → Nat → List (S × Nat)
  | [], _ => []
  | .zip s c :: t, i => (c.getD s, i) :: zipNames t (i + 1)
  | .txt _ _ :: t, i => zipNames t (i + 1)

theorem sortPaths_spec : ∀ (l : List PathKind) (i : Nat), (∀ k ∈ l, k.ok) → ∃ d : Dict S Nat, sortPaths (l.map PathKind.path) i = .ok (zipNames l i, d) ∧
    ∀ n : S, (∀ j, d.get? n = some j → ∃ s c, l[j - i]? = some (.txt s c) ∧ c.getD s = n ∧ i ≤ j) ∧
      ∀ (j : Nat) (s : S) (c : Option S), l[j]? = some (.txt s c) → c.getD s = n → ∃ j', d.get? n = some j' := by
  intro l
  induction l with
  | nil => intro i _; exact ⟨[], rfl, by intro n; simp [Dict.get?]⟩
  | cons k t ih =>
    intro i hl
    obtain ⟨d, hd, hspec⟩ := ih (i + 1) (fun k hk => hl k (by simp [hk]))
    cases k with
    | zip s c =>
      refine ⟨d, ?_, ?_⟩
      · rw [List.map_cons]
        show sortPaths ((s ++ extZip, c) :: _) i = _
        unfold sortPaths
        rw [name_zip s (hl (PathKind.zip s c) (by simp)), hd]
        simp [bind, Except.bind, pyAssert, zipNames, extZip, extTxtGz]
      · intro n
        constructor
        · intro j hj
          obtain ⟨s', c', h1, h2, h3⟩ := (hspec n).1 j hj
          refine ⟨s', c', ?_, h2, by omega⟩
          have : j - i = (j - (i + 1)) + 1 := by omega
          rw [this, List.getElem?_cons_succ]
          exact h1
        · intro j s' c' hj hn
          cases j with
          | zero => simp at hj
          | succ j => exact (hspec n).2 j s' c' (by simpa using hj) hn
    | txt s c =>
      refine ⟨if d.contains (c.getD s) then d else (c.getD s, i) :: d, ?_, ?_⟩
      · rw [List.map_cons]
        show sortPaths ((s ++ extTxtGz, c) :: _) i = _
        unfold sortPaths
        rw [name_txt s, hd]
        simp [bind, Except.bind, zipNames]
      · intro n
        have hrest : ∀ j, d.get? n = some j → ∃ s' c', (PathKind.txt s c :: t)[j - i]? = some (.txt s' c') ∧ c'.getD s' = n ∧ i ≤ j := by
          intro j hj
          obtain ⟨s', c', h1, h2, h3⟩ := (hspec n).1 j hj
          refine ⟨s', c', ?_, h2, by omega⟩
          have : j - i = (j - (i + 1)) + 1 := by omega
          rw [this, List.getElem?_cons_succ]
          exact h1
        by_cases hc : d.contains (c.getD s) = true
        · rw [if_pos hc]
          refine ⟨hrest, ?_⟩
          intro j s' c' hj hn
          cases j with
          | zero =>
            simp only [List.getElem?_cons_zero, Option.some.injEq, PathKind.txt.injEq] at hj
            rw [← hn, ← hj.1, ← hj.2]
            exact Option.isSome_iff_exists.1 hc
          | succ j => exact (hspec n).2 j s' c' (by simpa using hj) hn
        · rw [if_neg hc]
          constructor
          · intro j hj
            rw [Dict.get?] at hj
            split at hj
            · rename_i hn
              simp only [Option.some.injEq] at hj
              subst hj
              exact ⟨s, c, by simp, hn, by omega⟩
            · exact hrest j hj
          · intro j s' c' hj hn
            rw [Dict.get?]
            split
            · exact ⟨i, rfl⟩
            · cases j with
              | zero =>
                exfalso
                rename_i hne
                simp only [List.getElem?_cons_zero, Option.some.injEq, PathKind.txt.injEq] at hj
                exact hne (by rw [hj.1, hj.2, hn])
              | succ j => exact (hspec n).2 j s' c' (by simpa using hj) hn

/-- Zip files and separate documents are told apart by their extensions; names are as said. Without any zip file there is an error. -/
theorem paths_right (l : List PathKind) (hl : ∀ k ∈ l, k.ok) : (zipNames l 0 ≠ [] → ∃ d : Dict S Nat, sorted (l.map PathKind.path) = .ok (zipNames l 0, d) ∧
      ∀ n : S, (∀ j, d.get? n = some j → ∃ s c, l[j]? = some (.txt s c) ∧ c.getD s = n) ∧
        ∀ (j : Nat) (s : S) (c : Option S), l[j]? = some (.txt s c) → c.getD s = n → ∃ j', d.get? n = some j') ∧
    (zipNames l 0 = [] → sorted (l.map PathKind.path) = .error .indexError) := by
  obtain ⟨d, hd, hspec⟩ := sortPaths_spec l 0 hl
  constructor
  · intro hne
    refine ⟨d, by simp [sorted, hd, bind, Except.bind, hne], ?_⟩
    intro n
    refine ⟨fun j hj => ?_, (hspec n).2⟩
    obtain ⟨s, c, h1, h2, _⟩ := (hspec n).1 j hj
    exact ⟨s, c, by simpa using h1, h2⟩
  · intro he
    simp [sorted, hd, bind, Except.bind, he]

/-- Other extensions are refused. -/
theorem other_extension (base : S) (content : Option S) (t : List (S × Option S)) (h1 : (nameExt base).2 ≠ extZip) (h2 : (nameExt base).2 ≠ extTxtGz) :
    sorted ((base, content) :: t) = .error .assertion := by
  simp [sorted, sortPaths, h1, h2, pyAssert, bind, Except.bind]

example : nameExt [97, 46, 98, 46, 122, 105, 112] = ([97, 46, 98], extZip) := name_zip [97, 46, 98] (by decide)

/-! ## Loading -/

theorem tag_eq (r : Raw) : r.tag = tagOf r := by
  unfold Raw.tag tagOf
  cases r.seqName <;> cases r.file <;> rfl

/-- The first entry of a document can be used. -/
def FirstOk (hasAudio : Bool) (l : List Raw) : Prop := ∃ e t, l = e :: t ∧ (e.file.isSome ∨ (hasAudio = false ∧ e.seqName.isSome))

theorem checkFirst_iff (a : Bool) (l : List Raw) : checkFirst a l = .ok () ↔ FirstOk a l := by
  unfold checkFirst FirstOk
  cases l with
  | nil => simp
  | cons e t =>
    cases hf : e.file with
    | some f => simp [hf]
    | none =>
      cases a <;> cases hn : e.seqName <;> simp [hf, hn, pyAssert, bind, Except.bind]

theorem collectAll_spec (c : Cfg) : ∀ (zs : List Zip) (i : Nat), (∀ d, collectAll c i zs = .ok d → ∃ r, Entries c i zs r ∧ d = r.filter (inSegments c.segments)) ∧
    ((∃ d, collectAll c i zs = .ok d) ↔ ∀ z ∈ zs, ∃ l, Doc c z l ∧ FirstOk c.hasAudio l) := by
  intro zs
  induction zs with
  | nil =>
    intro i
    refine ⟨?_, by simp [collectAll]⟩
    intro d h
    simp only [collectAll, Except.ok.injEq] at h
    subst h
    exact ⟨[], .nil i, rfl⟩
  | cons z t ih =>
    intro i
    obtain ⟨ih1, ih2⟩ := ih (i + 1)
    have hpart : (∀ d, collectPart c i z = .ok d → ∃ l, Doc c z l ∧ d = (l.map (fun r => Entry.mk r i)).filter (inSegments c.segments)) ∧
        ((∃ d, collectPart c i z = .ok d) ↔ ∃ l, Doc c z l ∧ FirstOk c.hasAudio l) := by
      unfold collectPart
      have hall : ∀ l, Doc c z l → document c z = .ok l := by
        intro l hl
        unfold document
        rcases hl with h | ⟨h, h'⟩
        · rw [h]
        · rw [h, h']
      have hdoc : ∀ l, document c z = .ok l → Doc c z l := by
        intro l hl
        unfold Doc
        unfold document at hl
        cases h : c.txts.get? z.name with
        | some d =>
          rw [h] at hl
          simp only [Except.ok.injEq] at hl
          simp [hl]
        | none =>
          rw [h] at hl
          cases h' : z.txt with
          | none => rw [h'] at hl; simp at hl
          | some d =>
            rw [h'] at hl
            simp only [Except.ok.injEq] at hl
            simp [hl]
      generalize hm : document c z = m at *
      cases m with
      | error e =>
        simp only [bind, Except.bind, reduceCtorEq, false_imp_iff, implies_true, exists_false, false_iff, true_and]
        rintro ⟨l, hl, _⟩
        have := hall l hl
        cases this
      | ok l =>
        have hl := hdoc l rfl
        have huniq : ∀ l', Doc c z l' → l' = l := by
          intro l' hl'
          have := hall l' hl'
          simp only [Except.ok.injEq] at this
          exact this.symm
        simp only [bind, Except.bind]
        cases hf : checkFirst c.hasAudio l with
        | error e =>
          simp only [reduceCtorEq, false_imp_iff, implies_true, exists_false, false_iff, true_and]
          rintro ⟨l', h1, h2⟩
          rw [huniq l' h1, ← checkFirst_iff, hf] at h2
          cases h2
        | ok u =>
          refine ⟨?_, ⟨fun _ => ⟨l, hl, (checkFirst_iff _ _).1 hf⟩, fun _ => ⟨_, rfl⟩⟩⟩
          intro d hd
          simp only [Except.ok.injEq] at hd
          exact ⟨l, hl, hd.symm⟩
    unfold collectAll
    cases hp : collectPart c i z with
    | error e =>
      rw [hp] at hpart
      simp only [bind, Except.bind, reduceCtorEq, false_imp_iff, implies_true, exists_false, false_iff, true_and]
      intro hall
      have := hpart.2.2 (hall z (by simp))
      simp at this
    | ok d1 =>
      rw [hp] at hpart
      obtain ⟨l, hl, hd1⟩ := hpart.1 d1 rfl
      have hok := hpart.2.1 ⟨d1, rfl⟩
      simp only [bind, Except.bind]
      cases hr : collectAll c (i + 1) t with
      | error e =>
        rw [hr] at ih2
        simp only [reduceCtorEq, false_imp_iff, implies_true, exists_false, false_iff, true_and]
        intro hall
        have := ih2.2 (fun z hz => hall z (by simp [hz]))
        simp at this
      | ok r =>
        rw [hr] at ih1 ih2
        obtain ⟨r', h1, h2⟩ := ih1 r rfl
        refine ⟨?_, ⟨fun _ => ?_, fun _ => ⟨_, rfl⟩⟩⟩
        · intro d hd
          simp only [Except.ok.injEq] at hd
          refine ⟨_, .cons hl h1, ?_⟩
          rw [← hd, hd1, h2, List.filter_append]
        · intro z' hz'
          rcases List.mem_cons.1 hz' with rfl | hz'
          · exact hok
          · exact ih2.1 ⟨r, rfl⟩ z' hz'

/-- Without a subset: exactly the entries of all documents whose tags are in the list of segments, in order. Partial: not for an empty list. -/
theorem load_segments_partial (c : Cfg) (hs : c.subset = none) {segs : List S} (hseg : c.segments = some segs) (hne : segs ≠ []) {d : List Entry} (h : load c = .ok d) :
    ∃ r, Entries c 0 c.zips r ∧ d = r.filter (fun e => decide (tagOf e.raw ∈ segs)) := by
  unfold load at h
  cases h1 : collectAll c 0 c.zips with
  | error e => rw [h1] at h; cases h
  | ok data =>
    rw [h1] at h
    obtain ⟨r, hr, hd⟩ := (collectAll_spec c c.zips 0).1 data h1
    simp only [bind, Except.bind, pyAssert, hs, subsetCount] at h
    by_cases hp : 0 < data.length
    · simp only [hp, decide_true, if_true, Except.ok.injEq] at h
      refine ⟨r, hr, ?_⟩
      rw [← h, hd]
      congr 1
      funext e
      unfold inSegments
      rw [hseg, ← tag_eq]
      cases segs with
      | nil => exact absurd rfl hne
      | cons a b => simp only [List.contains_eq_mem]
    · simp [hp] at h

theorem load_all_aux (c : Cfg) (hs : c.subset = none) (hseg : c.segments = none ∨ c.segments = some []) {d : List Entry} (h : load c = .ok d) : Entries c 0 c.zips d := by
  unfold load at h
  cases h1 : collectAll c 0 c.zips with
  | error e => rw [h1] at h; cases h
  | ok data =>
    rw [h1] at h
    obtain ⟨r, hr, hd⟩ := (collectAll_spec c c.zips 0).1 data h1
    have hf : r.filter (inSegments c.segments) = r := by
      rw [List.filter_eq_self]
      intro e _
      rcases hseg with h | h <;> (rw [h]; rfl)
    simp only [bind, Except.bind, pyAssert, hs, subsetCount] at h
    by_cases hp : 0 < data.length
    · simp only [hp, decide_true, if_true, Except.ok.injEq] at h
      rw [← h, hd, hf]
      exact hr
    · simp [hp] at h

/-- Without segments: all entries. -/
theorem load_all (c : Cfg) (hs : c.subset = none) (hseg : c.segments = none) {d : List Entry} (h : load c = .ok d) : Entries c 0 c.zips d :=
  load_all_aux c hs (.inl hseg) h

/-- An empty list of segments: all entries as well. -/
theorem empty_segments_all (c : Cfg) (hs : c.subset = none) (hseg : c.segments = some []) {d : List Entry} (h : load c = .ok d) : Entries c 0 c.zips d :=
  load_all_aux c hs (.inr hseg) h

/-- Loading works exactly when every document is there, its first entry is complete, and something is left. -/
theorem load_ok_iff (c : Cfg) (hs : c.subset = none) : (∃ d, load c = .ok d) ↔ (∀ z ∈ c.zips, ∃ l, Doc c z l ∧ FirstOk c.hasAudio l) ∧
    ∃ d e, collectAll c 0 c.zips = .ok d ∧ e ∈ d := by
  rw [← (collectAll_spec c c.zips 0).2]
  unfold load
  cases h1 : collectAll c 0 c.zips with
  | error e => simp [bind, Except.bind]
  | ok d =>
    simp only [bind, Except.bind, pyAssert, hs, subsetCount]
    cases d with
    | nil => simp
    | cons a t => simp

theorem pick_length {α : Type} (l : List α) {idx : List Nat} (h : ∀ i ∈ idx, i < l.length) : (idx.filterMap (fun i => l[i]?)).map some = idx.map (fun i => l[i]?) := by
  induction idx with
  | nil => rfl
  | cons i t ih =>
    have hi := h i (by simp)
    rw [List.filterMap_cons, List.getElem?_eq_getElem hi]
    simp only [List.map_cons]
    rw [ih (fun j hj => h j (by simp [hj])), List.getElem?_eq_getElem hi]

/-- A subset with a number: so many different entries of the ones without the option, or all when there are not so many; the same at each loading. -/
theorem subset_num (c : Cfg) (hperm : ∀ n, (c.shuffle n).Perm (List.range n)) {n : Int} (hn : 0 < n) (hs : c.subset = some (.num n)) {d : List Entry} (h : load c = .ok d) :
    ∃ all, load { c with subset := none } = .ok all ∧ d.length = min n.toNat all.length ∧
      ∃ idx : List Nat, idx.Nodup ∧ d.map some = idx.map (fun i => all[i]?) := by
  unfold load at h ⊢
  have hsame : ∀ (zs : List Zip) (i : Nat), collectAll { c with subset := none } i zs = collectAll c i zs := by
    intro zs
    induction zs with
    | nil => intro i; rfl
    | cons z t ih => intro i; rw [collectAll, collectAll, ih]; rfl
  rw [hsame]
  cases h1 : collectAll c 0 c.zips with
  | error e => rw [h1] at h; cases h
  | ok data =>
    rw [h1] at h
    have hn0 : n ≠ 0 := by omega
    simp only [bind, Except.bind, pyAssert, hs, subsetCount, hn0, if_false, hn, if_true] at h ⊢
    by_cases hp : 0 < data.length
    · simp only [hp, decide_true, if_true, Except.ok.injEq] at h ⊢
      have hmem : ∀ i ∈ c.shuffle data.length, i < data.length := by
        intro i hi
        exact List.mem_range.1 ((hperm _).mem_iff.1 hi)
      have hmap := pick_length data hmem
      have hlen : ((c.shuffle data.length).filterMap (fun i => data[i]?)).length = data.length := by
        have := congrArg List.length hmap
        simp only [List.length_map] at this
        rw [this, (hperm _).length_eq, List.length_range]
      refine ⟨data, rfl, ?_, (c.shuffle data.length).take n.toNat, ?_, ?_⟩
      · rw [← h, List.length_take, hlen]
      · exact List.Sublist.nodup (List.take_sublist _ _) ((hperm _).nodup_iff.2 List.nodup_range)
      · rw [← h, List.map_take, hmap, List.map_take]
    · simp [hp] at h

/-- How many with a fraction: the rounded part of all. Partial: with an error when this is zero, and for the fraction one. -/
theorem subset_frac_partial (x : ℚ) (h0 : 0 < x) (h1 : x < 1) (len : Nat) : (1 ≤ (len : ℚ) * x → ∃ n : Nat, subsetCount (some (.frac x)) len = .ok (some n) ∧ (n : ℚ) ≤ len * x ∧ (len : ℚ) * x < n + 1) ∧
    ((len : ℚ) * x < 1 → subsetCount (some (.frac x)) len = .error .assertion) := by
  have hx : x ≠ 0 := ne_of_gt h0
  have hfl : ∀ q : ℚ, q.floor = ⌊q⌋ := fun q => rfl
  constructor
  · intro hge
    have hpos : 0 < ⌊(len : ℚ) * x⌋ := by
      have : (1 : Int) ≤ ⌊(len : ℚ) * x⌋ := Int.le_floor.2 (by simpa using hge)
      omega
    refine ⟨⌊(len : ℚ) * x⌋.toNat, ?_, ?_, ?_⟩
    · unfold subsetCount
      simp only [hx, if_false, h0, h1, and_self, if_true, hfl, hpos]
    · have : ((⌊(len : ℚ) * x⌋.toNat : Int) : ℚ) = (⌊(len : ℚ) * x⌋ : ℚ) := by
        rw [Int.toNat_of_nonneg (le_of_lt hpos)]
      have h2 : ((⌊(len : ℚ) * x⌋.toNat : Nat) : ℚ) = (⌊(len : ℚ) * x⌋ : ℚ) := by exact_mod_cast this
      rw [h2]
      exact Int.floor_le _
    · have : ((⌊(len : ℚ) * x⌋.toNat : Int) : ℚ) = (⌊(len : ℚ) * x⌋ : ℚ) := by
        rw [Int.toNat_of_nonneg (le_of_lt hpos)]
      have h2 : ((⌊(len : ℚ) * x⌋.toNat : Nat) : ℚ) = (⌊(len : ℚ) * x⌋ : ℚ) := by exact_mod_cast this
      rw [h2]
      exact Int.lt_floor_add_one _
  · intro hlt
    have hz : ¬ 0 < ⌊(len : ℚ) * x⌋ := by
      intro hpos
      have : (1 : Int) ≤ ⌊(len : ℚ) * x⌋ := by omega
      have := Int.le_floor.1 this
      simp only [Int.cast_one] at this
      exact absurd hlt (not_lt.2 this)
    unfold subsetCount
    simp only [hx, if_false, h0, h1, and_self, if_true, hfl, hz]

/-- The ends of the documented interval: one is an error, zero means everything. -/
theorem subset_ends (len : Nat) : subsetCount (some (.frac 1)) len = .error .assertion ∧ subsetCount (some (.frac 0)) len = .ok none ∧ subsetCount (some (.num 0)) len = .ok none := by
  refine ⟨?_, ?_, ?_⟩
  · simp [subsetCount]
  · simp [subsetCount]
  · simp [subsetCount]

/-! ## The dataset -/

/-- What is kept is what would be loaded. -/
def Good (c : Cfg) (s : St) : Prop := (∀ d, s.data = some d → load c = .ok d) ∧ ∀ x, s.index = some x → ∃ d, load c = .ok d ∧ x = mkIndex d 0 []

theorem lazyInit_spec {c : Cfg} {s : St} (hg : Good c s) {s' : St} {d : List Entry} (h : lazyInit c s = .ok (s', d)) :
    load c = .ok d ∧ Good c s' ∧ s'.data = some d ∧ s'.seqOrder = s.seqOrder ∧ s'.index = s.index ∧ s'.numSeqs = s.numSeqs := by
  unfold lazyInit at h
  cases hd : s.data with
  | some d0 =>
    rw [hd] at h
    simp only [Except.ok.injEq, Prod.mk.injEq] at h
    obtain ⟨rfl, rfl⟩ := h
    exact ⟨hg.1 d0 hd, hg, hd, rfl, rfl, rfl⟩
  | none =>
    rw [hd] at h
    simp only at h
    cases hl : load c with
    | error e => rw [hl] at h; cases h
    | ok d0 =>
      rw [hl] at h
      simp only [bind, Except.bind, Except.ok.injEq, Prod.mk.injEq] at h
      obtain ⟨rfl, rfl⟩ := h
      refine ⟨rfl, ⟨?_, hg.2⟩, rfl, rfl, rfl, rfl⟩
      intro d hd
      simp only [Option.some.injEq] at hd
      rw [← hd, hl]

theorem lazyIndex_spec {c : Cfg} {s : St} (hg : Good c s) {d : List Entry} (hl : load c = .ok d) : (lazyIndex s d).2 = mkIndex d 0 [] ∧ Good c (lazyIndex s d).1 := by
  unfold lazyIndex
  cases hi : s.index with
  | some x =>
    obtain ⟨d', h1, h2⟩ := hg.2 x hi
    rw [hl] at h1
    simp only [Except.ok.injEq] at h1
    subst h1
    exact ⟨h2, hg⟩
  | none =>
    refine ⟨rfl, hg.1, ?_⟩
    intro x hx
    simp only [Option.some.injEq] at hx
    exact ⟨d, hl, hx.symm⟩

theorem corpus_spec {c : Cfg} {s s' : St} (hg : Good c s) {i : Nat} {q : Seq} (h : corpusSeq c s i = .ok (s', q)) :
    Good c s' ∧ s'.seqOrder = s.seqOrder ∧ ∃ d e, load c = .ok d ∧ s'.data = some d ∧ d[i]? = some e ∧ makeSeq c i e = .ok q := by
  unfold corpusSeq at h
  cases hl : lazyInit c s with
  | error e => rw [hl] at h; cases h
  | ok r =>
    rw [hl] at h
    simp only [bind, Except.bind] at h
    obtain ⟨s1, d⟩ := r
    obtain ⟨h1, h2, h3, h4, _, _⟩ := lazyInit_spec hg hl
    simp only at h
    cases hd : d[i]? with
    | none => rw [hd] at h; cases h
    | some e =>
      rw [hd] at h
      simp only at h
      cases hm : makeSeq c i e with
      | error err => rw [hm] at h; cases h
      | ok q' =>
        rw [hm] at h
        simp only [Except.ok.injEq, Prod.mk.injEq] at h
        obtain ⟨rfl, rfl⟩ := h
        exact ⟨h2, h4, d, e, h1, h3, hd, hm⟩

theorem collect_spec {c : Cfg} {s s' : St} (hg : Good c s) {i : Nat} {q : Seq} (h : collectSeq c s i = .ok (s', q)) :
    Good c s' ∧ ∃ o j d e q', s.seqOrder = some o ∧ o[i]? = some j ∧ load c = .ok d ∧ s'.data = some d ∧ s'.seqOrder = some o ∧ d[j]? = some e ∧ makeSeq c j e = .ok q' ∧ q = { q' with seqIdx := i } := by
  unfold collectSeq refIdx at h
  cases ho : s.seqOrder with
  | none => rw [ho] at h; cases h
  | some o =>
    rw [ho] at h
    simp only at h
    cases hj : o[i]? with
    | none => rw [hj] at h; cases h
    | some j =>
      rw [hj] at h
      simp only [bind, Except.bind] at h
      cases hc : corpusSeq c s j with
      | error e => rw [hc] at h; cases h
      | ok r =>
        rw [hc] at h
        obtain ⟨s1, q1⟩ := r
        simp only [Except.ok.injEq, Prod.mk.injEq] at h
        obtain ⟨rfl, rfl⟩ := h
        obtain ⟨h1, h2, d, e, h3, h4, h5, h6⟩ := corpus_spec hg hc
        exact ⟨h1, o, j, d, e, q1, rfl, hj, h3, h4, by rw [h2, ho], h5, h6, rfl⟩

theorem init_spec {c : Cfg} {s s' : St} (hg : Good c s) {e : Option Nat} {l : Option (List S)} {o : Option (List Nat)} (h : initSeqOrder c s e l o = .ok s') : Good c s' := by
  unfold initSeqOrder at h
  split at h
  · simp only [Except.ok.injEq] at h
    subst h
    exact hg
  · cases hl : lazyInit c s with
    | error e => rw [hl] at h; cases h
    | ok r =>
      rw [hl] at h
      obtain ⟨s1, d⟩ := r
      obtain ⟨h1, h2, h3, h4, _, _⟩ := lazyInit_spec hg hl
      simp only [bind, Except.bind] at h
      cases o with
      | some o =>
        simp only [Except.ok.injEq] at h
        subst h
        exact h2
      | none =>
        cases l with
        | some l =>
          simp only at h
          cases hk : lookupTags (lazyIndex s1 d).2 l with
          | error e => rw [hk] at h; cases h
          | ok o =>
            rw [hk] at h
            simp only [Except.ok.injEq] at h
            subst h
            exact (lazyIndex_spec h2 h1).2
        | none =>
          simp only [Except.ok.injEq] at h
          subst h
          exact h2

theorem reach_good {c : Cfg} {s : St} (h : Reach c s) : Good c s := by
  induction h with
  | init => exact ⟨fun d h => by (cases h), fun x h => by (cases h)⟩
  | order _ h ih => exact init_spec ih h
  | finish free _ ih =>
    cases free
    · exact ih
    · exact ⟨fun d h => by (cases h), ih.2⟩
  | corpus _ h ih => exact (corpus_spec ih h).1
  | collect _ h ih => exact (collect_spec ih h).1
  | @tags s s' l _ h ih =>
    unfold allTags at h
    cases hl : lazyInit c s with
    | error e => rw [hl] at h; cases h
    | ok r =>
      rw [hl] at h
      simp only [bind, Except.bind, Except.ok.injEq, Prod.mk.injEq] at h
      rw [← h.1]
      exact (lazyInit_spec ih hl).2.1

theorem makeSeq_spec {c : Cfg} {i k : Nat} {e : Entry} {q : Seq} (h : makeSeq c i e = .ok q) : SeqOf c k e { q with seqIdx := k } ∧ q.seqIdx = i := by
  unfold makeSeq at h
  cases hf : features c e with
  | error err => rw [hf] at h; cases h
  | ok d =>
    rw [hf] at h
    simp only [bind, Except.bind, Except.ok.injEq] at h
    subst h
    refine ⟨⟨rfl, tag_eq _, rfl, rfl, rfl, ?_, ?_⟩, rfl⟩
    · intro ha
      unfold features at hf
      rw [ha] at hf
      simpa using hf.symm
    · intro ha
      unfold features at hf
      rw [ha] at hf
      simp only [if_true] at hf
      cases hr : readAudio c e with
      | error err => rw [hr] at hf; cases hf
      | ok b =>
        rw [hr] at hf
        simp only [Except.ok.injEq] at hf
        unfold readAudio at hr
        cases hz : c.zips[e.zip]? with
        | none => rw [hz] at hr; simp at hr
        | some z =>
          cases hfile : e.raw.file with
          | none => rw [hz, hfile] at hr; simp at hr
          | some f =>
            rw [hz, hfile] at hr
            simp only at hr
            refine ⟨z, f, b, rfl, rfl, by simp [← hf], ?_⟩
            unfold Dict.getItem at hr
            split at hr
            · rename_i v hv
              simp only [Except.ok.injEq] at hr
              rw [hv, hr]
            · cases hr

/-- After any history, a collected sequence is the entry which the current order says, with its text and the audio of the zip file it came from. -/
theorem collect_right {c : Cfg} {s s' : St} (hr : Reach c s) {i : Nat} {q : Seq} (h : collectSeq c s i = .ok (s', q)) :
    ∃ (d : List Entry) (o : List Nat) (j : Nat) (e : Entry), load c = .ok d ∧ s.seqOrder = some o ∧ o[i]? = some j ∧ d[j]? = some e ∧ SeqOf c i e q ∧ getTag s' i = .ok q.tag := by
  obtain ⟨_, o, j, d, e, q', h1, h2, h3, h4, h5, h6, h7, h8⟩ := collect_spec (reach_good hr) h
  refine ⟨d, o, j, e, h3, h1, h2, h6, ?_, ?_⟩
  · rw [h8]
    exact (makeSeq_spec h7).1
  · have := (makeSeq_spec (k := i) h7).1.2.1
    simp only at this
    simp only [getTag, refIdx, h5, h2, bind, Except.bind, h4, h6, h8, tag_eq]
    rw [this]

/-- The same by number in the corpus. -/
theorem corpus_right {c : Cfg} {s s' : St} (hr : Reach c s) {i : Nat} {q : Seq} (h : corpusSeq c s i = .ok (s', q)) :
    ∃ (d : List Entry) (e : Entry), load c = .ok d ∧ d[i]? = some e ∧ SeqOf c i e q := by
  obtain ⟨_, _, d, e, h1, _, h3, h4⟩ := corpus_spec (reach_good hr) h
  refine ⟨d, e, h1, h3, ?_⟩
  obtain ⟨e1, e2⟩ := makeSeq_spec (k := i) h4
  have : ({ q with seqIdx := i } : Seq) = q := by rw [← e2]
  rw [this] at e1
  exact e1

/-- All tags: one for each entry, in order. -/
theorem tags_right {c : Cfg} {s s' : St} (hr : Reach c s) {l : List S} (h : allTags c s = .ok (s', l)) : ∃ d, load c = .ok d ∧ l = d.map (fun e => tagOf e.raw) := by
  unfold allTags at h
  cases hl : lazyInit c s with
  | error e => rw [hl] at h; cases h
  | ok r =>
    rw [hl] at h
    simp only [bind, Except.bind, Except.ok.injEq, Prod.mk.injEq] at h
    refine ⟨r.2, (lazyInit_spec (reach_good hr) hl).1, ?_⟩
    rw [← h.2]
    congr 1
    funext e
    exact tag_eq _

theorem mkIndex_spec : ∀ (l : List Entry) (i : Nat) (d : Dict S Nat) (t : S),
    (∀ j, (mkIndex l i d).get? t = some j → (i ≤ j ∧ ∃ e, l[j - i]? = some e ∧ e.raw.tag = t ∧ ∀ k e', j - i < k → l[k]? = some e' → e'.raw.tag ≠ t) ∨ (d.get? t = some j ∧ ∀ e ∈ l, e.raw.tag ≠ t)) ∧
    ((∃ e ∈ l, e.raw.tag = t) ∨ (d.get? t).isSome → ∃ j, (mkIndex l i d).get? t = some j) := by
  intro l
  induction l with
  | nil =>
    intro i d t
    refine ⟨fun j h => .inr ⟨h, by simp⟩, ?_⟩
    intro h
    rcases h with h | h
    · simp at h
    · exact Option.isSome_iff_exists.1 h
  | cons a l ih =>
    intro i d t
    obtain ⟨h1, h2⟩ := ih (i + 1) (d.set a.raw.tag i) t
    unfold mkIndex
    constructor
    · intro j hj
      rcases h1 j hj with ⟨hij, e, he, ht, hlast⟩ | ⟨hd, hno⟩
      · left
        refine ⟨by omega, e, ?_, ht, ?_⟩
        · have : j - i = (j - (i + 1)) + 1 := by omega
          rw [this, List.getElem?_cons_succ]
          exact he
        · intro k e' hk hke
          cases k with
          | zero => omega
          | succ k =>
            rw [List.getElem?_cons_succ] at hke
            exact hlast k e' (by omega) hke
      · rw [Dict.get?_set] at hd
        split at hd
        · rename_i hat
          simp only [Option.some.injEq] at hd
          subst hd
          left
          refine ⟨le_refl _, a, by simp, hat, ?_⟩
          intro k e' hk hke
          cases k with
          | zero => omega
          | succ k =>
            rw [List.getElem?_cons_succ] at hke
            exact hno e' (List.mem_of_getElem? hke)
        · rename_i hat
          right
          refine ⟨hd, ?_⟩
          intro e he
          rcases List.mem_cons.1 he with rfl | he
          · exact hat
          · exact hno e he
    · intro h
      apply h2
      rcases h with ⟨e, he, ht⟩ | h
      · rcases List.mem_cons.1 he with rfl | he
        · right
          rw [Dict.get?_set, if_pos ht]
          rfl
        · exact .inl ⟨e, he, ht⟩
      · right
        rw [Dict.get?_set]
        split
        · rfl
        · exact h

theorem lookup_spec (d : Dict S Nat) : ∀ (l : List S), (∀ o, lookupTags d l = .ok o → o.map some = l.map d.get?) ∧ ((∃ o, lookupTags d l = .ok o) ↔ ∀ t ∈ l, ∃ j, d.get? t = some j) := by
  intro l
  induction l with
  | nil => exact ⟨by intro o h; simp only [lookupTags, Except.ok.injEq] at h; subst h; rfl, by simp [lookupTags]⟩
  | cons t ts ih =>
    unfold lookupTags
    cases ht : d.get? t with
    | none => simp [ht]
    | some j =>
      simp only
      cases hr : lookupTags d ts with
      | error e =>
        rw [hr] at ih
        simp only [reduceCtorEq, exists_false, false_iff] at ih
        simp only [bind, Except.bind, reduceCtorEq, exists_false, false_iff, false_imp_iff, implies_true, true_and]
        intro hall
        exact ih.2 (fun x hx => hall x (by simp [hx]))
      | ok r =>
        rw [hr] at ih
        simp only [bind, Except.bind]
        refine ⟨?_, ⟨fun _ => ?_, fun _ => ⟨_, rfl⟩⟩⟩
        · intro o ho
          simp only [Except.ok.injEq] at ho
          subst ho
          simp [ht, ih.1 r rfl]
        · intro x hx
          rcases List.mem_cons.1 hx with rfl | hx
          · exact ⟨j, ht⟩
          · exact ih.2.1 ⟨r, rfl⟩ x hx

/-- A list of tags: it is accepted exactly when the corpus has all of them, and the order then has for each of them the last entry with this tag. After any history. -/
theorem seq_list_right {c : Cfg} {s : St} (hr : Reach c s) (epoch : Option Nat) (l : List S) {d : List Entry} (hd : load c = .ok d) :
    ((∃ s', initSeqOrder c s epoch (some l) none = .ok s') ↔ ∀ t ∈ l, ∃ e ∈ d, tagOf e.raw = t) ∧
    ∀ s', initSeqOrder c s epoch (some l) none = .ok s' → ∃ o : List Nat, s'.seqOrder = some o ∧ s'.numSeqs = some l.length ∧ o.length = l.length ∧
      ∀ (i : Nat) (t : S), l[i]? = some t → ∃ (j : Nat) (e : Entry), o[i]? = some j ∧ d[j]? = some e ∧ tagOf e.raw = t ∧ ∀ (k : Nat) (e' : Entry), j < k → d[k]? = some e' → tagOf e'.raw ≠ t := by
  have hlazy : ∃ s1, lazyInit c s = .ok (s1, d) ∧ Good c s1 := by
    cases hdat : s.data with
    | some d0 =>
      have := (reach_good hr).1 d0 hdat
      rw [hd] at this
      simp only [Except.ok.injEq] at this
      subst this
      exact ⟨s, by simp [lazyInit, hdat], reach_good hr⟩
    | none =>
      have h : lazyInit c s = .ok ({ s with data := some d }, d) := by simp [lazyInit, hdat, hd, bind, Except.bind]
      exact ⟨_, h, (lazyInit_spec (reach_good hr) h).2.1⟩
  obtain ⟨s1, h1, hg1⟩ := hlazy
  have hx := (lazyIndex_spec hg1 hd).1
  obtain ⟨k1, k2⟩ := lookup_spec (mkIndex d 0 []) l
  have hget : ∀ t, (∃ j, (mkIndex d 0 []).get? t = some j) ↔ ∃ e ∈ d, tagOf e.raw = t := by
    intro t
    obtain ⟨m1, m2⟩ := mkIndex_spec d 0 [] t
    constructor
    · rintro ⟨j, hj⟩
      rcases m1 j hj with ⟨_, e, he, ht, _⟩ | ⟨h, _⟩
      · exact ⟨e, List.mem_of_getElem? he, by rw [← tag_eq]; exact ht⟩
      · simp [Dict.get?] at h
    · rintro ⟨e, he, ht⟩
      exact m2 (.inl ⟨e, he, by rw [tag_eq]; exact ht⟩)
  have hrun : initSeqOrder c s epoch (some l) none = (lookupTags (mkIndex d 0 []) l).bind (fun o => .ok { (lazyIndex s1 d).1 with seqOrder := some o, numSeqs := some o.length }) := by
    unfold initSeqOrder
    simp only [Option.isNone_some, Bool.and_false, Bool.false_and, Bool.false_eq_true, if_false, h1, bind, Except.bind, hx]
  rw [hrun]
  cases hlk : lookupTags (mkIndex d 0 []) l with
  | error e =>
    rw [hlk] at k2
    simp only [reduceCtorEq, exists_false, false_iff] at k2
    simp only [Except.bind, reduceCtorEq, exists_false, false_iff, false_imp_iff, implies_true, and_true]
    intro hall
    exact k2 (fun t ht => (hget t).2 (hall t ht))
  | ok o =>
    rw [hlk] at k1 k2
    simp only [Except.bind]
    have hmap := k1 o rfl
    have hlen : o.length = l.length := by simpa using congrArg List.length hmap
    refine ⟨⟨fun _ t ht => (hget t).1 (k2.1 ⟨o, rfl⟩ t ht), fun _ => ⟨_, rfl⟩⟩, ?_⟩
    intro s' hs'
    simp only [Except.ok.injEq] at hs'
    subst hs'
    refine ⟨o, rfl, by simp [hlen], hlen, ?_⟩
    intro i t hi
    have hi' := congrArg (fun x => x[i]?) hmap
    simp only [List.getElem?_map, hi, Option.map_some] at hi'
    cases hoi : o[i]? with
    | none => rw [hoi] at hi'; simp at hi'
    | some j =>
      rw [hoi] at hi'
      simp only [Option.map_some, Option.some.injEq] at hi'
      rcases (mkIndex_spec d 0 [] t).1 j hi'.symm with ⟨_, e, he, ht, hlast⟩ | ⟨h, _⟩
      · refine ⟨j, e, rfl, by simpa using he, by rw [← tag_eq]; exact ht, ?_⟩
        intro k e' hk hke
        rw [← tag_eq]
        exact hlast k e' (by omega) hke
      · simp [Dict.get?] at h

/-- An order of numbers is used as it is; without anything the order comes from the epoch, with hundredths of seconds as lengths, then it is filtered. -/
theorem order_right {c : Cfg} {s : St} (hr : Reach c s) {d : List Entry} (hd : load c = .ok d) :
    (∀ e l o, ∃ s', initSeqOrder c s e l (some o) = .ok s' ∧ s'.seqOrder = some o ∧ s'.numSeqs = some o.length) ∧
    ∀ epoch, ∃ s' len, initSeqOrder c s (some epoch) none none = .ok s' ∧ (∀ (i : Nat) (e : Entry), d[i]? = some e → 0 ≤ e.raw.duration → len i = ⌊e.raw.duration * 100⌋) ∧
      s'.seqOrder = some (match c.filter with | some f => f epoch (c.order epoch d.length len) len | none => c.order epoch d.length len) ∧
      s'.numSeqs = s'.seqOrder.map List.length := by
  have hlazy : ∃ s1, lazyInit c s = .ok (s1, d) := by
    cases hdat : s.data with
    | some d0 =>
      have := (reach_good hr).1 d0 hdat
      rw [hd] at this
      simp only [Except.ok.injEq] at this
      subst this
      exact ⟨s, by simp [lazyInit, hdat]⟩
    | none => exact ⟨_, by simp [lazyInit, hdat, hd, bind, Except.bind]; rfl⟩
  obtain ⟨s1, h1⟩ := hlazy
  constructor
  · intro e l o
    refine ⟨{ s1 with seqOrder := some o, numSeqs := some o.length }, ?_, rfl, rfl⟩
    simp [initSeqOrder, h1, bind, Except.bind]
  · intro epoch
    refine ⟨{ s1 with seqOrder := some (epochOrder c d epoch), numSeqs := some (epochOrder c d epoch).length }, seqLen d, ?_, ?_, ?_, rfl⟩
    · simp [initSeqOrder, h1, bind, Except.bind]
    · intro i e hi h0
      have : (0 : ℚ) ≤ e.raw.duration * 100 := by positivity
      simp only [seqLen, hi, pyInt, this, if_true]
      rfl
    · unfold epochOrder
      rfl

/-- After the end of an epoch there are no sequences. -/
theorem finished (c : Cfg) (s : St) (free : Bool) (i : Nat) : collectSeq c (finishEpoch s free) i = .error .typeError ∧ (finishEpoch s free).numSeqs = some 0 := by
  cases free <;> exact ⟨rfl, rfl⟩

/-- When nothing is asked for there are no sequences, and nothing else changes; above all nothing is loaded. -/
theorem nothing_asked (c : Cfg) (s : St) : initSeqOrder c s none none none = .ok ⟨s.data, s.index, s.seqOrder, some 0⟩ := rfl

/-- Two zip files with a file of the same name. -/
def exCfg : Cfg where
  zips := [⟨[97], some [⟨[1], 2, some [120], none⟩], [([97, 47, 120], [10])]⟩, ⟨[98], some [⟨[2], 3, some [120], some [121]⟩], [([98, 47, 120], [20])]⟩]
  txts := []
  segments := none
  hasAudio := true
  hasTargets := false
  namePrefix := true
  subset := none
  shuffle := List.range
  order := fun _ n _ => (List.range n).reverse
  filter := none
  extract := fun b => [b]
  getSeq := id
  enc := id

example : ∃ s s' q, Reach exCfg s ∧ collectSeq exCfg s 0 = .ok (s', q) ∧ q = ⟨0, [121], some [[20]], none, [2], [2]⟩ :=
  ⟨_, _, _, .order (e := some 1) (l := none) (o := none) .init rfl, rfl, rfl⟩

end Verif.OggZip
