import Verif.Legacy.Spec
import Verif.Legacy.PropsBatch
/-
Theorems about `Dataset.iterate_seqs` with chunking (C12).
-/
namespace Verif.Legacy
open Verif.Py Verif.NumbersDict Verif.Pipeline

theorem get_of_has {V : Type} {a : ND String V} {k : String} {v : V} (h : HasNumber a k v) : get a k = some v := by
  rcases h with h | ⟨h1, h2⟩
  · simp [NumbersDict.get, h]
  · simp [NumbersDict.get, h1, h2]

theorem ndItem_of_has {V : Type} {a : ND String V} {k : String} {v : V} (h : HasNumber a k v) : ndItem a k = .ok v := by
  unfold ndItem NumbersDict.getItem
  rcases h with h | ⟨h1, h2⟩
  · cases a.value with
    | none => simp [Dict.getItem, h, bind, Except.bind]
    | some w => simp [h, bind, Except.bind]
  · simp [h1, h2, bind, Except.bind]

theorem has_of_key {V : Type} {a : ND String V} {k : String} {v : V} (hk : k ∈ a.dict.keys) (h : get a k = some v) :
    HasNumber a k v := .explicit (by rw [dict_get?_of_key a k hk, h])

theorem dict_getItem_of {V : Type} {d : Dict String V} {k : String} {v : V} (h : d.get? k = some v) :
    d.getItem k = .ok v := by simp [Dict.getItem, h]

theorem setFull_spec (lens : Dict String Nat) (full : List String) (hf : ∀ k ∈ full, k ∈ lens.keys)
    (s e : ND String Int) (k : String) :
    ((setFull lens s e full).1.dict.get? k = if k ∈ full then some (some 0) else s.dict.get? k) ∧
    ((setFull lens s e full).2.dict.get? k
      = if k ∈ full then some ((lens.get? k).map (fun n : Nat => (n : Int))) else e.dict.get? k) := by
  induction full generalizing s e with
  | nil => simp [setFull]
  | cons k0 full ih =>
    have := ih (fun k hk => hf k (by simp [hk])) { s with dict := s.dict.set k0 (some 0) }
      { e with dict := e.dict.set k0 ((lens.get? k0).map (fun n : Nat => (n : Int))) }
    unfold setFull
    rw [this.1, this.2]
    by_cases hk : k ∈ full
    · simp [hk]
    · simp only [hk, if_false, List.mem_cons, or_false, Dict.get?_set]
      by_cases h0 : k0 = k
      · subst h0; simp
      · have h0' : ¬ k = k0 := fun h => h0 h.symm
        simp [h0, h0']

/-- Chunk `j` is right for the key `k`. -/
def ChunkAt (lens : Dict String Nat) (size step : String → Int) (full : List String) (j : Nat)
    (ch : ND String Int × ND String Int) : Prop :=
  ∀ k n, lens.get? k = some n →
    HasNumber ch.1 k (if k ∈ full then 0 else j * step k) ∧
    HasNumber ch.2 k (if k ∈ full then (n : Int) else min (j * step k + size k) n)

theorem tooShort_spec (c : ChunkCfg) (t : ND String Int) (l : Dict String Nat) (x mn : String → Int)
    (hx : ∀ k ∈ l.keys, ndItem t k = .ok (x k)) (hm : ∀ k ∈ l.keys, ndItem c.minSize k = .ok (mn k)) :
    ∃ r, tooShort c t l = .ok r ∧ (r = true ↔ ∃ e ∈ l, (e.2 : Int) - x e.1 ≤ mn e.1) := by
  induction l with
  | nil => exact ⟨false, rfl, by simp⟩
  | cons e l ih =>
    obtain ⟨k, n⟩ := e
    obtain ⟨r, h1, h2⟩ := ih (fun k hk => hx k (by simp [Dict.keys] at hk ⊢; exact .inr hk))
      (fun k hk => hm k (by simp [Dict.keys] at hk ⊢; exact .inr hk))
    unfold tooShort
    rw [hx k (by simp [Dict.keys]), hm k (by simp [Dict.keys])]
    simp only [bind, Except.bind, h1]
    refine ⟨_, rfl, ?_⟩
    simp [h2]

theorem chunkLoop_spec (c : ChunkCfg) (dk : String) (lens : Dict String Nat) (hw : lens.Wf) (full : List String)
    (hf : ∀ k ∈ full, k ∈ lens.keys) (size step mn : String → Int) (hc : HasCfg c lens size step mn)
    (ndk : Nat) (hdk : lens.get? dk = some ndk) (hpos : 0 < step dk) (fuel i : Nat) (t : ND String Int)
    (ht : ∀ k ∈ lens.keys, k ∈ t.dict.keys ∧ get t k = some (i * step k)) (hfuel : (ndk : Int) - i * step dk < fuel)
    (hfuel0 : 0 < fuel) :
    ∃ out, chunkLoop c dk lens full fuel t = .ok out ∧
      (∀ j ch, out[j]? = some ch → ChunkAt lens size step full (i + j) ch) ∧
      (out = [] ↔ (ndk : Int) ≤ i * step dk) ∧
      (∀ j, 0 < j → j < out.length → ∀ k n, lens.get? k = some n → (n : Int) - ((i + j : Nat) : Int) * step k > mn k) ∧
      (out ≠ [] → (∃ k n, lens.get? k = some n ∧ (n : Int) - ((i + out.length : Nat) : Int) * step k ≤ mn k) ∨
        (ndk : Int) ≤ ((i + out.length : Nat) : Int) * step dk) := by
  induction fuel generalizing i t with
  | zero => omega
  | succ fuel ih =>
    have hdkm : dk ∈ lens.keys := by rw [← Dict.get?_isSome, hdk]; rfl
    unfold chunkLoop
    rw [dict_getItem_of hdk, ndItem_of_has (has_of_key (ht dk hdkm).1 (ht dk hdkm).2)]
    simp only [bind, Except.bind]
    by_cases hgt : (ndk : Int) > i * step dk
    · simp only [hgt, if_true, minList]
      -- the next position
      have ht' : ∀ k ∈ lens.keys, k ∈ (add t c.step).dict.keys ∧ get (add t c.step) k = some (((i + 1 : Nat) : Int) * step k) := by
        intro k hk
        refine ⟨(add_keys _ _ _).1.mpr (.inl (ht k hk).1), ?_⟩
        rw [(arith_keywise _ _ k).1, (ht k hk).2, get_of_has (hc.step k hk)]
        simp only [Keywise, Option.some.injEq]
        push_cast
        rw [Int.add_mul, Int.one_mul]
      obtain ⟨r, hr1, hr2⟩ := tooShort_spec c (add t c.step) lens (fun k => ((i + 1 : Nat) : Int) * step k) mn
        (fun k hk => ndItem_of_has (has_of_key (ht' k hk).1 (ht' k hk).2)) (fun k hk => ndItem_of_has (hc.min k hk))
      have hr2' : r = true ↔ ∃ k n, lens.get? k = some n ∧ (n : Int) - ((i + 1 : Nat) : Int) * step k ≤ mn k := by
        rw [hr2]
        constructor
        · rintro ⟨e, he, h⟩; exact ⟨e.1, e.2, Dict.get?_of_mem hw he, h⟩
        · rintro ⟨k, n, hk, h⟩; exact ⟨(k, n), Dict.mem_of_get? hk, h⟩
      -- the chunk
      have hch : ∀ v1 v2, ChunkAt lens size step full i
          ({ (setFull lens t (binOp (add t c.size) (seqLengths lens) minOp none) full).1 with value := v1 },
           { (setFull lens t (binOp (add t c.size) (seqLengths lens) minOp none) full).2 with value := v2 }) := by
        intro v1 v2 k n hk
        have hkm : k ∈ lens.keys := by rw [← Dict.get?_isSome, hk]; rfl
        obtain ⟨s1, s2⟩ := setFull_spec lens full hf t (binOp (add t c.size) (seqLengths lens) minOp none) k
        constructor
        · refine .explicit ?_
          simp only
          rw [s1]
          split
          · rfl
          · rw [dict_get?_of_key t k (ht k hkm).1, (ht k hkm).2]
        · refine .explicit ?_
          simp only
          rw [s2]
          split
          · rw [hk]; rfl
          · have hkk : k ∈ (binOp (add t c.size) (seqLengths lens) minOp none).dict.keys := by
              rw [(binOp_keys _ _ _ _).1, keys_seqLengths]; exact .inr hkm
            rw [dict_get?_of_key _ _ hkk, binOp_keywise, (maxOp_spec _ _).2, (arith_keywise _ _ k).1, (ht k hkm).2,
              get_of_has (hc.size k hkm), get_seqLengths, hk]
            rfl
      rw [hr1]
      cases r with
      | true =>
        obtain ⟨k, n, hk, hle⟩ := hr2'.mp rfl
        refine ⟨_, rfl, ?_, by simp; omega, ?_, ?_⟩
        · intro j ch hj
          cases j with
          | zero => simp at hj; subst hj; exact hch none none
          | succ j => simp at hj
        · intro j h1 h2; simp at h2; omega
        · intro _; left; exact ⟨k, n, hk, by simpa using hle⟩
      | false =>
        simp only [Bool.false_eq_true, if_false]
        have hmulpos : ((i + 1 : Nat) : Int) * step dk = i * step dk + step dk := by push_cast; rw [Int.add_mul, Int.one_mul]
        obtain ⟨out, o1, o2, o3, o4, o5⟩ := ih (i + 1) (add t c.step) ht' (by rw [hmulpos]; omega) (by omega)
        have hne : ∀ k n, lens.get? k = some n → (n : Int) - ((i + 1 : Nat) : Int) * step k > mn k := by
          intro k n hk
          by_contra hcon
          have := hr2'.mpr ⟨k, n, hk, by omega⟩
          cases this
        rw [o1]
        refine ⟨_, rfl, ?_, by simp; omega, ?_, ?_⟩
        · intro j ch hj
          cases j with
          | zero => simp at hj; subst hj; exact hch none none
          | succ j =>
            simp only [List.getElem?_cons_succ] at hj
            have := o2 j ch hj
            rwa [show i + 1 + j = i + (j + 1) by omega] at this
        · intro j h1 h2 k n hk
          cases j with
          | zero => omega
          | succ j =>
            cases j with
            | zero => exact hne k n hk
            | succ j =>
              have := o4 (j + 1) (by omega) (by simp at h2; omega) k n hk
              rwa [show i + 1 + (j + 1) = i + (j + 1 + 1) by omega] at this
        · intro _
          by_cases hout : out = []
          · right
            have := o3.mp hout
            subst hout
            simpa using this
          · have := o5 hout
            rw [List.length_cons, show i + (out.length + 1) = i + 1 + out.length by omega]
            exact this
    · simp only [hgt, if_false]
      refine ⟨[], rfl, by simp, by simp; omega, by simp, fun h => absurd rfl h⟩

/-- The keys as the generator takes them. -/
def UsedLens (used : Option (List String)) (lens lens' : Dict String Nat) : Prop :=
  match used with
  | none => lens' = lens
  | some u => restrict lens u = .ok lens'

theorem fullKeys_spec (c : ChunkCfg) (dk : String) (ndk : Nat) (sdk mdk : Int) (l : Dict String Nat) (step mn : String → Int)
    (hs : ∀ k ∈ l.keys, ndItem c.step k = .ok (step k)) (hm : ∀ k ∈ l.keys, ndItem c.minSize k = .ok (mn k))
    (hmdk : ndItem c.minSize dk = .ok mdk) (full : List String)
    (h : fullKeys c dk ndk sdk l = .ok full) :
    (∀ k ∈ full, k ∈ l.keys) ∧
    ∀ e ∈ l, (step e.1 = sdk ∧ e.2 = ndk) ∨ (e.2 ≤ 1 ∧ e.1 ∈ full) ∨
      (step e.1 ≠ 0 ∧ ∃ q, nrChunks e.2 (step e.1) (mn e.1) = .ok q ∧ nrChunks ndk sdk mdk = .ok q) := by
  induction l generalizing full with
  | nil => simp only [fullKeys, Except.ok.injEq] at h; subst h; simp
  | cons e l ih =>
    obtain ⟨k, n⟩ := e
    have hs' : ∀ k ∈ Dict.keys l, ndItem c.step k = .ok (step k) := fun k hk => hs k (by simp [Dict.keys] at hk ⊢; exact .inr hk)
    have hm' : ∀ k ∈ Dict.keys l, ndItem c.minSize k = .ok (mn k) := fun k hk => hm k (by simp [Dict.keys] at hk ⊢; exact .inr hk)
    have hkeys : ∀ x, x ∈ Dict.keys l → x ∈ Dict.keys ((k, n) :: l) := by
      intro x hx; simp [Dict.keys] at hx ⊢; exact .inr hx
    unfold fullKeys at h
    rw [hs k (by simp [Dict.keys])] at h
    simp only [bind, Except.bind] at h
    by_cases h1 : step k = sdk ∧ n = ndk
    · simp only [h1, and_self, if_true] at h
      obtain ⟨i1, i2⟩ := ih hs' hm' full h
      refine ⟨fun x hx => hkeys x (i1 x hx), ?_⟩
      intro e he
      rcases List.mem_cons.mp he with rfl | he
      · exact .inl h1
      · exact i2 e he
    · rw [if_neg h1] at h
      by_cases h2 : n ≤ 1
      · rw [if_pos h2] at h
        cases hr : fullKeys c dk ndk sdk l with
        | error e => rw [hr] at h; cases h
        | ok r =>
          rw [hr] at h
          simp only [Except.ok.injEq] at h
          subst h
          obtain ⟨i1, i2⟩ := ih hs' hm' r hr
          refine ⟨?_, ?_⟩
          · intro x hx
            rcases List.mem_cons.mp hx with rfl | hx
            · simp [Dict.keys]
            · exact hkeys x (i1 x hx)
          · intro e he
            rcases List.mem_cons.mp he with rfl | he
            · exact .inr (.inl ⟨h2, by simp⟩)
            · rcases i2 e he with h | ⟨h3, h4⟩ | h
              · exact .inl h
              · exact .inr (.inl ⟨h3, by simp [h4]⟩)
              · exact .inr (.inr h)
      · rw [if_neg h2] at h
        by_cases h3 : step k = sdk
        · rw [if_pos h3] at h; cases h
        · rw [if_neg h3, hm k (by simp [Dict.keys]), hmdk] at h
          simp only at h
          cases ha : nrChunks n (step k) (mn k) with
          | error e => rw [ha] at h; cases h
          | ok a =>
            cases hb : nrChunks ndk sdk mdk with
            | error e => rw [ha, hb] at h; cases h
            | ok b =>
              rw [ha, hb] at h
              simp only [pyAssert] at h
              by_cases hab : a = b
              · subst hab
                simp only [decide_true, if_true] at h
                obtain ⟨i1, i2⟩ := ih hs' hm' full h
                refine ⟨fun x hx => hkeys x (i1 x hx), ?_⟩
                intro e he
                rcases List.mem_cons.mp he with rfl | he
                · refine .inr (.inr ⟨?_, a, ha, rfl⟩)
                  intro h0; simp [nrChunks, h0] at ha
                · have := i2 e he
                  rw [hb] at this
                  exact this
              · simp [hab] at h

/-- C12: what a successful `iterate_seqs` gives for one seq: `ndk > 0` frames of the default key give at least one chunk;
chunk `j` of a key is `[j*step, min(j*step+size, len))` (or the whole data for the keys `full`, which have at most one
frame); the chunks go on as long as for all keys more than `min_chunk_size` frames remain. -/
theorem chunkSeq_chunks (c : ChunkCfg) (used : Option (List String)) (lens lens' : Dict String Nat)
    (hu : UsedLens used lens lens') (hw : lens'.Wf) (size step mn : String → Int) (hc : HasCfg c lens' size step mn)
    (out : List (ND String Int × ND String Int)) (h : chunkSeq c used lens = .ok out) :
    ∃ dk ndk full, defaultKey c used = .ok dk ∧ lens'.get? dk = some ndk ∧ 0 < step dk ∧
      fullKeys c dk ndk (step dk) lens' = .ok full ∧ (∀ k ∈ full, ∀ n, lens'.get? k = some n → n ≤ 1) ∧
      (∀ j ch, out[j]? = some ch → ChunkAt lens' size step full j ch) ∧
      (out = [] ↔ ndk = 0) ∧
      (∀ j, 0 < j → j < out.length → ∀ k n, lens'.get? k = some n → (n : Int) - j * step k > mn k) ∧
      (out ≠ [] → (∃ k n, lens'.get? k = some n ∧ (n : Int) - out.length * step k ≤ mn k) ∨
        (ndk : Int) ≤ out.length * step dk) := by
  unfold chunkSeq at h
  have h' : (do
      let dk ← defaultKey c used
      let s ← ndItem c.step dk
      pyAssert (decide (s > 0))
      let n ← lens'.getItem dk
      let full ← fullKeys c dk n s lens'
      chunkLoop c dk lens' full (n + 1) (constantLike 0 (seqLengths lens'))) = .ok out := by
    unfold UsedLens at hu
    cases used with
    | none => simp only at hu; subst hu; exact h
    | some u => simp only at hu; simp only [hu, bind, Except.bind] at h ⊢; exact h
  clear h
  simp only [bind, Except.bind] at h'
  cases h1 : defaultKey c used with
  | error e => rw [h1] at h'; cases h'
  | ok dk =>
  rw [h1] at h'
  simp only at h'
  cases h2 : ndItem c.step dk with
  | error e => rw [h2] at h'; cases h'
  | ok s =>
  rw [h2] at h'
  simp only [pyAssert] at h'
  by_cases hs : s > 0
  swap
  · simp [hs] at h'
  simp only [hs, decide_true, if_true] at h'
  cases h3 : lens'.getItem dk with
  | error e => rw [h3] at h'; cases h'
  | ok ndk =>
  rw [h3] at h'
  simp only at h'
  have hdk : lens'.get? dk = some ndk := by
    unfold Dict.getItem at h3
    cases hg : lens'.get? dk with
    | none => rw [hg] at h3; cases h3
    | some v => rw [hg] at h3; injection h3 with h3; rw [h3]
  have hdkm : dk ∈ lens'.keys := by rw [← Dict.get?_isSome, hdk]; rfl
  have hstep : s = step dk := by
    have := ndItem_of_has (hc.step dk hdkm)
    rw [h2] at this; injection this
  subst hstep
  cases h4 : fullKeys c dk ndk (step dk) lens' with
  | error e => rw [h4] at h'; cases h'
  | ok full =>
  rw [h4] at h'
  simp only at h'
  obtain ⟨f1, f2⟩ := fullKeys_spec c dk ndk (step dk) (mn dk) lens' step mn (fun k hk => ndItem_of_has (hc.step k hk))
    (fun k hk => ndItem_of_has (hc.min k hk)) (ndItem_of_has (hc.min dk hdkm)) full h4
  obtain ⟨out', o1, o2, o3, o4, o5⟩ := chunkLoop_spec c dk lens' hw full f1 size step mn hc ndk hdk hs (ndk + 1) 0
    (constantLike 0 (seqLengths lens')) (by
      intro k hk
      refine ⟨?_, ?_⟩
      · have : (constantLike (0 : Int) (seqLengths lens')).dict.keys = lens'.keys := by
          rw [← keys_seqLengths lens']; simp [constantLike, Dict.keys, Function.comp_def]
        rw [this]; exact hk
      · rw [get_constantLike _ (noNone_seqLengths _), get_seqLengths]
        obtain ⟨n, hn⟩ := Option.isSome_iff_exists.mp ((Dict.get?_isSome _ k).mpr hk)
        rw [hn]; simp) (by simp; omega) (by omega)
  rw [h'] at o1
  injection o1 with o1
  subst o1
  refine ⟨dk, ndk, full, rfl, hdk, hs, h4, ?_, ?_, ?_, ?_, ?_⟩
  · -- full keys have at most one frame
    have : ∀ (l : Dict String Nat) (full : List String), (∀ k ∈ Dict.keys l, ndItem c.step k = .ok (step k)) →
        fullKeys c dk ndk (step dk) l = .ok full → ∀ k ∈ full, ∃ n, (k, n) ∈ l ∧ n ≤ 1 := by
      intro l
      induction l with
      | nil => intro full _ h; simp only [fullKeys, Except.ok.injEq] at h; subst h; simp
      | cons e l ih =>
        obtain ⟨k0, n0⟩ := e
        intro full hst h
        have hst' : ∀ k ∈ Dict.keys l, ndItem c.step k = .ok (step k) :=
          fun k hk => hst k (by simp [Dict.keys] at hk ⊢; exact .inr hk)
        unfold fullKeys at h
        rw [hst k0 (by simp [Dict.keys])] at h
        simp only [bind, Except.bind] at h
        have up : (∀ k ∈ full, ∃ n, (k, n) ∈ l ∧ n ≤ 1) → ∀ k ∈ full, ∃ n, (k, n) ∈ (k0, n0) :: l ∧ n ≤ 1 := by
          intro h k hk; obtain ⟨n, h1, h2⟩ := h k hk; exact ⟨n, by simp [h1], h2⟩
        split at h
        · exact up (ih full hst' h)
        · split at h
          · rename_i hle
            cases hr : fullKeys c dk ndk (step dk) l with
            | error e => rw [hr] at h; cases h
            | ok r =>
              rw [hr] at h
              simp only [Except.ok.injEq] at h
              subst h
              intro k hk
              rcases List.mem_cons.mp hk with rfl | hk
              · exact ⟨n0, by simp, hle⟩
              · obtain ⟨n, h1, h2⟩ := ih r hst' hr k hk
                exact ⟨n, by simp [h1], h2⟩
          · split at h
            · cases h
            · cases ha : ndItem c.minSize k0 with
              | error e => rw [ha] at h; cases h
              | ok m0 =>
                cases hb : ndItem c.minSize dk with
                | error e => rw [ha, hb] at h; cases h
                | ok m1 =>
                  rw [ha, hb] at h
                  simp only at h
                  cases hc1 : nrChunks n0 (step k0) m0 with
                  | error e => rw [hc1] at h; cases h
                  | ok q0 =>
                    cases hc2 : nrChunks ndk (step dk) m1 with
                    | error e => rw [hc1, hc2] at h; cases h
                    | ok q1 =>
                      rw [hc1, hc2] at h
                      simp only [pyAssert] at h
                      by_cases hq : q0 = q1
                      · simp only [hq, decide_true, if_true] at h
                        exact up (ih full hst' h)
                      · simp [hq] at h
    intro k hk n hn
    obtain ⟨n', hmem, hle⟩ := this lens' full (fun k hk => ndItem_of_has (hc.step k hk)) h4 k hk
    have := Dict.get?_of_mem hw hmem
    rw [hn] at this; injection this with this; omega
  · intro j ch hj; have := o2 j ch hj; rwa [Nat.zero_add] at this
  · rw [o3]; simp
  · intro j hj1 hj2 k n hk; have := o4 j hj1 hj2 k n hk; rwa [Nat.zero_add] at this
  · intro hne; have := o5 hne; rwa [Nat.zero_add] at this

/-- C12 (partial). With `step <= size` and no minimal chunk size, all frames of all keys are covered, if no key has a
length of 0 or 1 (or all keys have the same length and step). Missing: a key with 0 or 1 frames beside longer ones; for
these the claim is false, see `single_frame_key_truncates`. -/
theorem chunkSeq_covers_partial (c : ChunkCfg) (used : Option (List String)) (lens lens' : Dict String Nat)
    (hu : UsedLens used lens lens') (hw : lens'.Wf) (size step mn : String → Int) (hc : HasCfg c lens' size step mn)
    (hstep : ∀ k ∈ lens'.keys, 0 < step k ∧ step k ≤ size k) (hmin : ∀ k ∈ lens'.keys, mn k = 0)
    (hsmall : ∀ k n k' n', lens'.get? k = some n → n ≤ 1 → lens'.get? k' = some n' → n' = n ∧ step k' = step k)
    (out : List (ND String Int × ND String Int)) (h : chunkSeq c used lens = .ok out) : Covers lens' out := by
  obtain ⟨dk, ndk, full, _, hdk, hpos, hfull, hfl, o2, o3, _, o5⟩ := chunkSeq_chunks c used lens lens' hu hw size step mn hc out h
  have hdkm : dk ∈ lens'.keys := by rw [← Dict.get?_isSome, hdk]; rfl
  obtain ⟨f1, f2⟩ := fullKeys_spec c dk ndk (step dk) (mn dk) lens' step mn (fun k hk => ndItem_of_has (hc.step k hk))
    (fun k hk => ndItem_of_has (hc.min k hk)) (ndItem_of_has (hc.min dk hdkm)) full hfull
  -- the number of chunks of all keys agree
  have hnr : ∀ k n, lens'.get? k = some n → ∀ m : Nat, (n : Int) ≤ m * step k ↔ (ndk : Int) ≤ m * step dk := by
    intro k n hk m
    have hkm : k ∈ lens'.keys := by rw [← Dict.get?_isSome, hk]; rfl
    have hsame : (step k = step dk ∧ n = ndk) → ((n : Int) ≤ m * step k ↔ (ndk : Int) ≤ m * step dk) := by
      rintro ⟨h1, h2⟩; rw [h1, h2]
    rcases f2 (k, n) (Dict.mem_of_get? hk) with h1 | ⟨h1, _⟩ | ⟨_, q, h1, h2⟩
    · exact hsame h1
    · obtain ⟨h2, h3⟩ := hsmall k n dk ndk hk h1 hdk
      exact hsame ⟨h3.symm, h2.symm⟩
    · have key : ∀ (n : Nat) (s : Int), 0 < s → nrChunks n s 0 = .ok q → ((n : Int) ≤ m * s ↔ q ≤ m) := by
        intro n s hs hq
        simp only [nrChunks, show ¬ s = 0 by omega, if_false, if_true, Except.ok.injEq] at hq
        rw [Int.fdiv_eq_ediv_of_nonneg _ (by omega)] at hq
        have h1 := Int.ediv_lt_iff_lt_mul (a := (n : Int) - 1) (b := m) (c := s) hs
        constructor
        · intro h; have := h1.mpr (by omega); omega
        · intro h; have := h1.mp (by omega); omega
      rw [hmin k hkm] at h1
      rw [hmin dk hdkm] at h2
      exact (key n (step k) (hstep k hkm).1 h1).trans (key ndk (step dk) (hstep dk hdkm).1 h2).symm
  have hnofull : ∀ k n, lens'.get? k = some n → 0 < n → k ∈ full → False ∨ (n = 1 ∧ step k = step dk ∧ ndk = 1) := by
    intro k n hk hn hkf
    right
    have h1 := hfl k hkf n hk
    obtain ⟨h2, h3⟩ := hsmall k n dk ndk hk h1 hdk
    exact ⟨by omega, h3.symm, by omega⟩
  intro k n hk f hf
  have hkm : k ∈ lens'.keys := by rw [← Dict.get?_isSome, hk]; rfl
  obtain ⟨hs1, hs2⟩ := hstep k hkm
  have hne : out ≠ [] := by
    intro ho
    have h0 := o3.mp ho
    have := (hnr k n hk 0).mpr (by simp; omega)
    simp at this
    omega
  have hend : (n : Int) ≤ out.length * step k := by
    rcases o5 hne with ⟨k', n', hk', hle⟩ | hle
    · have hkm' : k' ∈ lens'.keys := by rw [← Dict.get?_isSome, hk']; rfl
      rw [hmin k' hkm'] at hle
      exact (hnr k n hk out.length).mpr ((hnr k' n' hk' out.length).mp (by omega))
    · exact (hnr k n hk out.length).mpr hle
  -- the chunk of frame f
  have hq0 : 0 ≤ (f : Int) / step k := Int.ediv_nonneg (by omega) (by omega)
  obtain ⟨q, hq⟩ := Int.eq_ofNat_of_zero_le hq0
  have hqlt : q < out.length := by
    have : (f : Int) / step k < out.length := (Int.ediv_lt_iff_lt_mul hs1).mpr (by omega)
    omega
  have hdm := Int.mul_ediv_add_emod (f : Int) (step k)
  have hm1 := Int.emod_nonneg (f : Int) (b := step k) (by omega)
  have hm2 := Int.emod_lt_of_pos (f : Int) hs1
  rw [hq, Int.mul_comm] at hdm
  obtain ⟨e1, e2⟩ := o2 q _ (List.getElem?_eq_getElem hqlt) k n hk
  refine ⟨_, List.getElem_mem hqlt, _, _, e1, e2, ?_, ?_⟩
  · split <;> omega
  · split
    · omega
    · have : (f : Int) < q * step k + size k := by omega
      omega

/-- C12: chunking always ends (for data with positive step the loop bound of the model is never reached). -/
theorem chunkSeq_ends (c : ChunkCfg) (lens : Dict String Nat) (hw : lens.Wf) (size step mn : String → Int)
    (hc : HasCfg c lens size step mn) (n : Nat) (hd : lens.get? "data" = some n) (hs : 0 < step "data") (full : List String)
    (hf : fullKeys c "data" n (step "data") lens = .ok full) : ∃ out, chunkSeq c none lens = .ok out := by
  have hdkm : "data" ∈ lens.keys := by rw [← Dict.get?_isSome, hd]; rfl
  obtain ⟨f1, _⟩ := fullKeys_spec c "data" n (step "data") (mn "data") lens step mn (fun k hk => ndItem_of_has (hc.step k hk))
    (fun k hk => ndItem_of_has (hc.min k hk)) (ndItem_of_has (hc.min _ hdkm)) full hf
  obtain ⟨out, o1, _⟩ := chunkLoop_spec c "data" lens hw full f1 size step mn hc n hd hs (n + 1) 0
    (constantLike 0 (seqLengths lens)) (by
      intro k hk
      refine ⟨?_, ?_⟩
      · have : (constantLike (0 : Int) (seqLengths lens)).dict.keys = lens.keys := by
          rw [← keys_seqLengths lens]; simp [constantLike, Dict.keys, Function.comp_def]
        rw [this]; exact hk
      · rw [get_constantLike _ (noNone_seqLengths _), get_seqLengths]
        obtain ⟨n, hn⟩ := Option.isSome_iff_exists.mp ((Dict.get?_isSome _ k).mpr hk)
        rw [hn]; simp) (by simp; omega) (by omega)
  exact ⟨out, by
    simp [chunkSeq, defaultKey, bind, Except.bind, ndItem_of_has (hc.step _ hdkm), pyAssert, hs, dict_getItem_of hd, hf, o1]⟩

theorem restrict_spec (lens : Dict String Nat) (u : List String) (r : Dict String Nat) (h : restrict lens u = .ok r) :
    r.keys = u ∧ ∀ k ∈ u, r.get? k = lens.get? k := by
  induction u generalizing r with
  | nil => simp only [restrict, Except.ok.injEq] at h; subst h; simp [Dict.keys]
  | cons k u ih =>
    simp only [restrict, bind, Except.bind] at h
    cases h1 : lens.getItem k with
    | error e => rw [h1] at h; cases h
    | ok n =>
      rw [h1] at h
      simp only at h
      cases h2 : restrict lens u with
      | error e => rw [h2] at h; cases h
      | ok r' =>
        rw [h2] at h
        simp only [Except.ok.injEq] at h
        subst h
        obtain ⟨i1, i2⟩ := ih r' h2
        have hk : lens.get? k = some n := by
          unfold Dict.getItem at h1
          cases hg : lens.get? k with
          | none => rw [hg] at h1; cases h1
          | some v => rw [hg] at h1; injection h1 with h1; rw [h1]
        refine ⟨by simp [Dict.keys] at i1 ⊢; exact i1, ?_⟩
        intro x hx
        simp only [Dict.get?]
        split
        · rename_i he; subst he; exact hk.symm
        · rename_i hne
          rcases List.mem_cons.mp hx with rfl | hx
          · exact absurd rfl hne
          · exact i2 x hx

/-- C12: the seqs come one after the other, each with its own index. -/
theorem iterateSeqs_stream (c : ChunkCfg) (used : Option (List String)) (i : Nat) (ls : List (Dict String Nat))
    (out : List (Nat × ND String Int × ND String Int)) (h : iterateSeqs c used i ls = .ok out) :
    ∃ css : List (List (ND String Int × ND String Int)),
      out = ((css.zipIdx i).map (fun p => p.1.map (fun x => (p.2, x)))).flatten ∧
      List.Forall₂ (fun lens cs => if eq c.size (constantLike 0 c.size)
        then cs = [(constantLike 0 (seqLengths lens), seqLengths lens)] else chunkSeq c used lens = .ok cs) ls css := by
  induction ls generalizing i out with
  | nil => simp only [iterateSeqs, Except.ok.injEq] at h; exact ⟨[], by simp [← h], .nil⟩
  | cons lens ls ih =>
    simp only [iterateSeqs, bind, Except.bind] at h
    by_cases hz : eq c.size (constantLike 0 c.size) = true
    · simp only [hz, if_true] at h ih ⊢
      cases hr : iterateSeqs c used (i + 1) ls with
      | error e => rw [hr] at h; cases h
      | ok r =>
        rw [hr] at h
        simp only [Except.ok.injEq] at h
        obtain ⟨css, h1, h2⟩ := ih (i + 1) r hr
        exact ⟨[(constantLike 0 (seqLengths lens), seqLengths lens)] :: css, by rw [← h, h1]; simp, .cons rfl h2⟩
    · simp only [hz, Bool.false_eq_true, if_false] at h ih ⊢
      cases hq : chunkSeq c used lens with
      | error e => rw [hq] at h; cases h
      | ok cs =>
        rw [hq] at h
        simp only at h
        cases hr : iterateSeqs c used (i + 1) ls with
        | error e => rw [hr] at h; cases h
        | ok r =>
          rw [hr] at h
          simp only [Except.ok.injEq] at h
          obtain ⟨css, h1, h2⟩ := ih (i + 1) r hr
          exact ⟨cs :: css, by rw [← h, h1]; simp, .cons hq h2⟩

/-- The values of a key for the chunks. -/
def rangesOf (k : String) (r : Res (List (ND String Int × ND String Int))) : Option (List (Option Int × Option Int)) :=
  match r with
  | .ok l => some (l.map (fun ch => (NumbersDict.get ch.1 k, NumbersDict.get ch.2 k)))
  | .error _ => none

example : rangesOf "data" (chunkSeq ⟨ofScalar 4, ofScalar 3, ofScalar 0⟩ none [("data", 10), ("classes", 10)])
    = some [(some 0, some 4), (some 3, some 7), (some 6, some 10), (some 9, some 10)] := by decide +kernel

example : rangesOf "classes" (chunkSeq ⟨ofDict [("data", 4), ("classes", 2)], ofDict [("data", 4), ("classes", 2)], ofScalar 0⟩
    none [("data", 10), ("classes", 5)])
    = some [(some 0, some 2), (some 2, some 4), (some 4, some 5)] := by decide +kernel

/-- Disagreement with C12 and with the comment in the code: a data key with a single frame beside the normal data, which
should be repeated for every chunk, ends the chunking after the first chunk; the frames from 4 on are lost. -/
theorem single_frame_key_truncates :
    rangesOf "data" (chunkSeq ⟨ofScalar 4, ofScalar 4, ofScalar 0⟩ none [("data", 10), ("speaker", 1)])
      = some [(some 0, some 4)] := by decide +kernel

end Verif.Legacy
