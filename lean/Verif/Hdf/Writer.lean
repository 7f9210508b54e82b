import Verif.Hdf.Reader
/-
`SimpleHDFWriter`: the content of the file while sequences are written.
-/
namespace Verif.Hdf
open Verif.Py

variable {K F T : Type} [LinearOrder K] [Inhabited F] [Inhabited T]

theorem modify_mid {α : Type} (f : α → α) (a : List α) (x : α) (b : List α) : (a ++ x :: b).modify a.length f = a ++ f x :: b := by
  induction a with
  | nil => rfl
  | cons y a ih => simp [ih]

/-- The row of a sequence in `seqLengths`. -/
def wrow (P : List K) (s : Seq K F T) : List Nat :=
  s.input.length :: (if P = [] then [0] else (sortKeys P).map (fun k => (s.get k).length))

def wwidth (P : List K) : Nat := 1 + max 1 P.length

theorem wrow_length (P : List K) (s : Seq K F T) : (wrow P s).length = wwidth P := by
  unfold wrow wwidth
  split
  · rename_i h; subst h; rfl
  · rename_i h
    have : P.length ≠ 0 := by simpa using h
    simp only [List.length_cons, List.length_map, length_sortKeys]
    omega

/-- The content of the file after some sequences, with room for `m` more, where `P` are the extra keys. -/
structure FInv (nm : Names K) (f : File K F T) (P : List K) (seqs : List (Seq K F T)) (m : Nat) : Prop where
  nodup : P.Nodup
  noin : nm.inputs ∉ P
  tnone : P = [] → f.targets = none
  tsome : P ≠ [] → f.targets.isSome = true
  tkeys : (f.targets.getD []).keys.Perm P
  tget : ∀ k ∈ P, (f.targets.getD []).get? k = some (seqs.flatMap (fun s => s.get k))
  other : ∀ k, k ∉ P → ∀ s ∈ seqs, s.get k = []
  width : f.width = wwidth P
  lens : f.lens = seqs.map (wrow P) ++ List.replicate m (List.replicate (wwidth P) 0)
  tags : f.tags = seqs.map (fun s => s.tag) ++ List.replicate m default
  inp : f.inputs = if seqs = [] then none else some (seqs.flatMap (fun s => s.input))
  nts : f.numTimesteps = (seqs.flatMap (fun s => s.input)).length
  nsq : f.numSeqs = seqs.length

/-- The writer, with the number of frames per extra key. -/
structure WInv (nm : Names K) (w : Writer K F T) (seqs : List (Seq K F T)) (m : Nat) : Prop where
  file : FInv nm w.file w.prepared seqs m
  steps : ∀ k ∈ w.prepared, w.steps.get? k = some (seqs.flatMap (fun s => s.get k)).length

theorem resize_grow {α : Type} (z : α) (l : List α) (n : Nat) : resize z (l.length + n) l = l ++ List.replicate n z := by
  unfold resize
  rw [List.take_of_length_le (by omega)]
  congr 2
  omega

theorem assignFrom_grow (l raw : List F) (z : F) (a : Nat) (ha : a = l.length) : assignFrom (l ++ List.replicate raw.length z) a raw = .ok (l ++ raw) := by
  unfold assignFrom
  rw [if_pos (by simp [ha])]
  rw [List.take_append_of_le_length (by omega), List.take_of_length_le (by omega)]

/-! ### Start -/

theorem create_base (nm : Names K) : WInv nm (⟨⟨none, none, 2, [], [], 0, 0⟩, false, [], []⟩ : Writer K F T) [] 0 := by
  refine ⟨⟨by simp, by simp, fun _ => rfl, fun h => (h rfl).elim, by simp [Dict.keys], by simp, by simp, rfl, rfl, rfl, rfl, rfl, rfl⟩, by simp⟩

theorem wwidth_snoc (P : List K) (k : K) : wwidth (P ++ [k]) = 1 + (P.length + 1) := by
  unfold wwidth; simp

theorem wwidth_le (P : List K) (k : K) : wwidth P ≤ 1 + (P.length + 1) := by
  unfold wwidth; omega

theorem resize_zeros {a b : Nat} (h : a ≤ b) : resize 0 b (List.replicate a 0) = List.replicate b 0 := by
  unfold resize
  rw [List.take_of_length_le (by simpa using h), List.length_replicate, List.replicate_append_replicate]
  congr 1; omega

theorem addKey_targets (nm : Names K) {w : Writer K F T} {seqs : List (Seq K F T)} {m : Nat} (hw : WInv nm w seqs m) {k : K} (hk : k ∉ w.prepared) :
    (((w.file.targets.getD []).set k []).keys.Perm (w.prepared ++ [k])) ∧
    (∀ k' ∈ w.prepared ++ [k], ((w.file.targets.getD []).set k []).get? k' = some (seqs.flatMap (fun s => s.get k'))) ∧
    (∀ k' ∈ w.prepared ++ [k], (w.steps.set k 0).get? k' = some (seqs.flatMap (fun s => s.get k')).length) := by
  have hz : seqs.flatMap (fun s => s.get k) = [] := by
    rw [List.flatMap_eq_nil_iff]
    exact hw.file.other k hk
  refine ⟨?_, ?_, ?_⟩
  · rw [Dict.keys_set, if_neg (fun h => hk (hw.file.tkeys.mem_iff.1 h))]
    exact hw.file.tkeys.append_right _
  · intro k' hk'
    rw [Dict.get?_set]
    split
    · rename_i h; subst h; rw [hz]
    · rename_i h
      refine hw.file.tget k' ?_
      rcases List.mem_append.1 hk' with h' | h'
      · exact h'
      · simp at h'; exact (h h'.symm).elim
  · intro k' hk'
    rw [Dict.get?_set]
    split
    · rename_i h; subst h; rw [hz]; rfl
    · rename_i h
      refine hw.steps k' ?_
      rcases List.mem_append.1 hk' with h' | h'
      · exact h'
      · simp at h'; exact (h h'.symm).elim

/-- A new key before the first sequence. -/
theorem addKey_empty {nm : Names K} {w : Writer K F T} {m : Nat} (hw : WInv nm w [] m) {k : K} (hk : k ∉ w.prepared) (hi : k ≠ nm.inputs) :
    WInv nm (addKey w k) [] m := by
  obtain ⟨h1, h2, h3⟩ := addKey_targets nm hw hk
  unfold addKey
  refine ⟨⟨?_, ?_, ?_, ?_, h1, h2, by simp, ?_, ?_, hw.file.tags, hw.file.inp, hw.file.nts, hw.file.nsq⟩, h3⟩
  · exact List.nodup_append.2 ⟨hw.file.nodup, by simp, by rintro a ha b hb rfl; simp at hb; subst hb; exact hk ha⟩
  · simp only [List.mem_append, List.mem_singleton, not_or]
    exact ⟨hw.file.noin, fun h => hi h.symm⟩
  · intro h; simp at h
  · intro _; rfl
  · exact (wwidth_snoc _ _).symm
  · simp only
    rw [hw.file.lens, wwidth_snoc]
    simp only [List.map_nil, List.nil_append, List.map_replicate]
    rw [resize_zeros (wwidth_le _ k)]

theorem prepareExtra_old {nm : Names K} {w : Writer K F T} {k : K} (hk : k ∈ w.prepared) (hi : nm.inputs ∉ w.prepared) :
    prepareExtra nm w k = .ok (w, false) := by
  unfold prepareExtra
  rw [if_neg (by rintro rfl; exact hi hk), if_pos hk]

theorem prepareExtra_new {nm : Names K} {w : Writer K F T} {k : K} (hk : k ∉ w.prepared) (hi : k ≠ nm.inputs) (he : w.ext = false) :
    prepareExtra nm w k = .ok (addKey w k, true) := by
  unfold prepareExtra
  rw [if_neg hi, if_neg hk, if_neg (by simp [he])]

theorem prepareAll_new {nm : Names K} : ∀ (ks : List K) {w : Writer K F T}, WInv nm w [] 0 → w.ext = false → nm.inputs ∉ ks →
    ∃ w', prepareAll nm ks w = .ok w' ∧ WInv nm w' [] 0 ∧ w'.ext = false ∧ ∀ k, k ∈ w'.prepared ↔ k ∈ w.prepared ∨ k ∈ ks
  | [], w, hw, he, _ => ⟨w, rfl, hw, he, by simp⟩
  | k :: ks, w, hw, he, hi => by
    simp only [List.mem_cons, not_or] at hi
    unfold prepareAll
    by_cases hk : k ∈ w.prepared
    · rw [prepareExtra_old hk hw.file.noin]
      obtain ⟨w', h1, h2, h3, h4⟩ := prepareAll_new ks hw he hi.2
      refine ⟨w', h1, h2, h3, fun k' => ?_⟩
      rw [h4]
      simp only [List.mem_cons]
      constructor
      · rintro (h | h)
        · exact Or.inl h
        · exact Or.inr (Or.inr h)
      · rintro (h | rfl | h)
        · exact Or.inl h
        · exact Or.inl hk
        · exact Or.inr h
    · rw [prepareExtra_new hk (fun h => hi.1 h.symm) he]
      obtain ⟨w', h1, h2, h3, h4⟩ := prepareAll_new ks (addKey_empty hw hk (fun h => hi.1 h.symm)) he hi.2
      refine ⟨w', h1, h2, h3, fun k' => ?_⟩
      rw [h4]
      simp only [addKey, List.mem_append, List.mem_cons, List.not_mem_nil, or_false]
      exact or_assoc

/-! ### Opening a file for extending -/

theorem finv_perm {nm : Names K} {f : File K F T} {P Q : List K} {seqs : List (Seq K F T)} {m : Nat} (h : FInv nm f P seqs m) (hp : Q.Perm P) :
    FInv nm f Q seqs m := by
  have hnil : Q = [] ↔ P = [] := by
    constructor
    · rintro rfl; exact hp.symm.eq_nil
    · rintro rfl; exact hp.eq_nil
  have hww : wwidth Q = wwidth P := by unfold wwidth; rw [hp.length_eq]
  have hwr : wrow (F := F) (T := T) Q = wrow P := by
    funext s
    unfold wrow
    rw [sortKeys_congr hp]
    simp only [hnil]
  exact ⟨hp.nodup_iff.2 h.nodup, fun hi => h.noin (hp.mem_iff.1 hi), fun e => h.tnone (hnil.1 e), fun e => h.tsome (fun e' => e (hnil.2 e')),
    h.tkeys.trans hp.symm, fun k hk => h.tget k (hp.mem_iff.1 hk), fun k hk => h.other k (fun hk' => hk (hp.mem_iff.2 hk')),
    by rw [hww]; exact h.width, by rw [hww, hwr]; exact h.lens, h.tags, h.inp, h.nts, h.nsq⟩

theorem prepareAll_ext {nm : Names K} {f : File K F T} {P : List K} {seqs : List (Seq K F T)} (hf : FInv nm f P seqs 0) :
    ∀ (ks : List K) {w : Writer K F T}, w.file = f → w.ext = true → (∀ k ∈ ks, k ∈ P) → (w.prepared ++ ks).Nodup →
      (∀ k ∈ w.prepared, w.steps.get? k = some (seqs.flatMap (fun s => s.get k)).length) →
      ∃ w', prepareAll nm ks w = .ok w' ∧ w'.file = f ∧ w'.ext = true ∧ w'.prepared = w.prepared ++ ks ∧
        (∀ k ∈ w'.prepared, w'.steps.get? k = some (seqs.flatMap (fun s => s.get k)).length)
  | [], w, h1, h2, _, _, h5 => ⟨w, rfl, h1, h2, by simp, h5⟩
  | k :: ks, w, h1, h2, h3, h4, h5 => by
    have hkP := h3 k (by simp)
    have hPne : P ≠ [] := by rintro rfl; simp at hkP
    have hknp : k ∉ w.prepared := by
      intro h
      exact (List.nodup_append.1 h4).2.2 k h k (by simp) rfl
    have hts := hf.tsome hPne
    rw [Option.isSome_iff_exists] at hts
    obtain ⟨t, ht⟩ := hts
    have hg := hf.tget k hkP
    rw [ht] at hg
    simp only [Option.getD_some] at hg
    have hpe : prepareExtra nm w k = .ok ({ w with prepared := w.prepared ++ [k], steps := w.steps.set k (seqs.flatMap (fun s => s.get k)).length }, true) := by
      unfold prepareExtra
      rw [if_neg (by rintro rfl; exact hf.noin hkP), if_neg hknp, if_pos h2]
      unfold addKeyExt
      rw [h1, ht]
      simp only
      rw [hg]
      rfl
    unfold prepareAll
    rw [hpe]
    obtain ⟨w', a1, a2, a3, a4, a5⟩ := prepareAll_ext hf ks (w := { w with prepared := w.prepared ++ [k], steps := w.steps.set k (seqs.flatMap (fun s => s.get k)).length })
      h1 h2 (fun k hk => h3 k (by simp [hk])) (by simpa using h4) (by
        intro k' hk'
        simp only at hk' ⊢
        rw [Dict.get?_set]
        split
        · rename_i h; subst h; rfl
        · rename_i h
          refine h5 k' ?_
          rcases List.mem_append.1 hk' with h' | h'
          · exact h'
          · simp at h'; exact (h h'.symm).elim)
    exact ⟨w', a1, a2, a3, by simpa using a4, a5⟩

theorem openExt_spec {nm : Names K} {f : File K F T} {P ks : List K} {seqs : List (Seq K F T)} (hf : FInv nm f P seqs 0) (hp : ks.Perm P) :
    ∃ w, openExt nm ks f = .ok w ∧ WInv nm w seqs 0 ∧ w.ext = true ∧ w.prepared = ks := by
  have hf' := finv_perm hf hp
  obtain ⟨w, h1, h2, h3, h4, h5⟩ := prepareAll_ext hf ks (w := ⟨f, true, [], []⟩) rfl rfl (fun k hk => hp.mem_iff.1 hk)
    (by simpa using hf'.nodup) (by simp)
  simp only [List.nil_append] at h4
  exact ⟨w, h1, ⟨by rw [h2, h4]; exact hf', h5⟩, h3, h4⟩

/-! ### One sequence -/

theorem replicate_set_zero (n j : Nat) : (List.replicate n 0).set j 0 = List.replicate n 0 := by
  apply List.ext_getElem (by simp)
  intro i h1 h2
  rw [List.getElem_set]
  split <;> simp

theorem wrow_empty (P : List K) (tag : T) (raw : List F) : wrow P (⟨tag, raw, fun _ => []⟩ : Seq K F T) = raw.length :: List.replicate (max 1 P.length) 0 := by
  unfold wrow
  simp only [List.length_nil, List.map_const', length_sortKeys]
  split
  · rename_i h; subst h; rfl
  · rename_i h
    have : P.length ≠ 0 := by simpa using h
    rw [show max 1 P.length = P.length by omega]

/-- The first steps for a sequence: tag, length, inputs. -/
theorem insertInputs_spec {nm : Names K} {w : Writer K F T} {seqs : List (Seq K F T)} {m : Nat} (hw : WInv nm w seqs (m + 1))
    (he : w.ext = true → seqs ≠ []) (tag : T) (raw : List F) :
    ∃ f, setLen { w.file with tags := w.file.tags.set seqs.length tag } seqs.length 0 raw.length = .ok f ∧
      ∃ w', insertInputs { w with file := f } raw = .ok w' ∧ WInv nm w' (seqs ++ [⟨tag, raw, fun _ => []⟩]) m ∧ w'.ext = w.ext ∧ w'.prepared = w.prepared := by
  have hl := hw.file.lens
  rw [List.replicate_succ] at hl
  have ht := hw.file.tags
  rw [List.replicate_succ] at ht
  unfold setLen
  simp only
  rw [if_pos (by
    rw [hl, hw.file.width]
    constructor
    · simp
    · unfold wwidth; omega)]
  refine ⟨_, rfl, ?_⟩
  have hlens : w.file.lens.modify seqs.length (fun r => r.set 0 raw.length) =
      (seqs ++ [(⟨tag, raw, fun _ => []⟩ : Seq K F T)]).map (wrow w.prepared) ++ List.replicate m (List.replicate (wwidth w.prepared) 0) := by
    rw [hl]
    conv => lhs; rw [show seqs.length = (seqs.map (wrow w.prepared)).length by simp]
    rw [modify_mid, List.map_append, List.append_assoc, List.map_singleton, List.singleton_append, wrow_empty]
    congr 2
    unfold wwidth
    rw [Nat.add_comm, List.replicate_succ]
    rfl
  have htags : w.file.tags.set seqs.length tag = (seqs ++ [(⟨tag, raw, fun _ => []⟩ : Seq K F T)]).map (fun s => s.tag) ++ List.replicate m default := by
    rw [ht]
    conv => lhs; rw [show seqs.length = (seqs.map (fun s => s.tag)).length by simp]
    rw [List.set_append_right _ _ (Nat.le_refl _)]
    simp
  have hins : (inputsDataset { w with file := { w.file with tags := w.file.tags.set seqs.length tag, lens := w.file.lens.modify seqs.length (fun r => r.set 0 raw.length) } } raw) =
      .ok (seqs.flatMap (fun s => s.input) ++ List.replicate raw.length default) := by
    unfold inputsDataset
    simp only
    rw [hw.file.inp]
    by_cases hs : seqs = []
    · subst hs
      rw [if_pos rfl]
      simp only
      rw [if_neg (fun h => he h rfl)]
      simp
    · rw [if_neg hs]
      simp only
      rw [resize_grow]
  unfold insertInputs
  rw [hins]
  simp only [Except.bind]
  rw [assignFrom_grow _ _ _ _ hw.file.nts]
  refine ⟨_, rfl, ⟨⟨hw.file.nodup, hw.file.noin, hw.file.tnone, hw.file.tsome, hw.file.tkeys, ?_, ?_, hw.file.width, hlens, htags, ?_, ?_, ?_⟩, ?_⟩, rfl, rfl⟩
  · intro k hk
    simp only [List.flatMap_append, List.flatMap_singleton, List.append_nil]
    exact hw.file.tget k hk
  · intro k hk s hs
    rcases List.mem_append.1 hs with h | h
    · exact hw.file.other k hk s h
    · simp at h; subst h; rfl
  · simp
  · simp only [List.flatMap_append, List.flatMap_singleton, List.length_append]
    rw [hw.file.nts]
  · simp only [List.length_append, List.length_singleton]
    rw [hw.file.nsq]
  · intro k hk
    simp only [List.flatMap_append, List.flatMap_singleton, List.append_nil]
    exact hw.steps k hk

/-! ### Extra data -/

theorem setLen_mid {f : File K F T} {a : List (List Nat)} {r : List Nat} {b : List (List Nat)} (hl : f.lens = a ++ r :: b) {i j v : Nat}
    (hi : i = a.length) (hj : j < f.width) : setLen f i j v = .ok { f with lens := a ++ r.set j v :: b } := by
  unfold setLen
  rw [if_pos (by rw [hl, hi]; simpa using hj), hl, hi, modify_mid]

theorem reinit_spec {a b : List (List Nat)} {steps : Dict K Nat} {i : Nat} (hi : i = a.length) (g : K → Nat) :
    ∀ (ks : List K) (j : Nat) (f : File K F T) (r : List Nat), f.lens = a ++ r :: b → (∀ k ∈ ks, steps.get? k = some (g k)) →
      j + 1 + ks.length = f.width → r.length = f.width →
      reinit i steps ks j f = .ok { f with lens := a ++ (r.take (j + 1) ++ ks.map g) :: b }
  | [], j, f, r, hl, _, hj, hr => by
    unfold reinit
    simp only [List.length_nil, Nat.add_zero] at hj
    rw [List.take_of_length_le (by omega), List.map_nil, List.append_nil, ← hl]
  | k :: ks, j, f, r, hl, hs, hj, hr => by
    simp only [List.length_cons] at hj
    unfold reinit
    have hg : Dict.getItem steps k = .ok (g k) := by unfold Dict.getItem; rw [hs k (by simp)]
    rw [hg]
    simp only [Except.bind]
    rw [setLen_mid hl hi (by omega)]
    simp only
    rw [reinit_spec hi g ks (j + 1) _ (r.set (j + 1) (g k)) rfl (fun k hk => hs k (by simp [hk])) (by simp only; omega) (by simpa using hr)]
    have : (r.set (j + 1) (g k)).take (j + 1 + 1) = r.take (j + 1) ++ [g k] := by
      rw [List.take_add_one, List.take_set_of_le (Nat.le_refl _), List.getElem?_set_self (by omega)]
      rfl
    rw [this]
    simp

/-- Change of the data of one key. -/
def Seq.setKey (s : Seq K F T) (k : K) (raw : List F) : Seq K F T := { s with get := fun k' => if k' = k then raw else s.get k' }

theorem set_idxOf_map {ks : List K} (hn : ks.Nodup) {k : K} (hk : k ∈ ks) (g : K → Nat) (v : Nat) :
    (ks.map g).set (ks.idxOf k) v = ks.map (fun k' => if k' = k then v else g k') := by
  induction ks with
  | nil => simp at hk
  | cons x ks ih =>
    simp only [List.nodup_cons] at hn
    by_cases h : x = k
    · subst h
      simp only [List.idxOf_cons_self, List.map_cons, List.set_cons_zero, if_true]
      congr 1
      apply List.map_congr_left
      intro y hy
      rw [if_neg (by rintro rfl; exact hn.1 hy)]
    · rw [List.idxOf_cons_ne _ h]
      simp only [List.map_cons, Nat.succ_eq_add_one, List.set_cons_succ, if_neg h]
      rw [ih hn.2 (by simpa [Ne.symm h] using hk)]

theorem wrow_setKey {P : List K} (hn : P.Nodup) {k : K} (hk : k ∈ P) (s : Seq K F T) (raw : List F) :
    (wrow P s).set ((sortKeys P).idxOf k + 1) raw.length = wrow P (s.setKey k raw) := by
  have hP : P ≠ [] := by rintro rfl; simp at hk
  unfold wrow Seq.setKey
  simp only [if_neg hP, List.set_cons_succ]
  rw [set_idxOf_map (nodup_sortKeys hn) (mem_sortKeys.2 hk)]
  congr 1
  apply List.map_congr_left
  intro k' _
  split <;> rfl

theorem flatMap_setKey_self (seqs : List (Seq K F T)) (s : Seq K F T) (k : K) (raw : List F) (hs : s.get k = []) :
    (seqs ++ [s.setKey k raw]).flatMap (fun s => s.get k) = (seqs ++ [s]).flatMap (fun s => s.get k) ++ raw := by
  simp [Seq.setKey, hs]

theorem flatMap_setKey_ne (seqs : List (Seq K F T)) (s : Seq K F T) {k k' : K} (raw : List F) (hk : k' ≠ k) :
    (seqs ++ [s.setKey k raw]).flatMap (fun s => s.get k') = (seqs ++ [s]).flatMap (fun s => s.get k') := by
  simp [Seq.setKey, hk]

theorem appendOther_spec {nm : Names K} {w : Writer K F T} {seqs : List (Seq K F T)} {s : Seq K F T} {m : Nat} (hw : WInv nm w (seqs ++ [s]) m)
    {k : K} (hk : k ∈ w.prepared) (hs : s.get k = []) (raw : List F) :
    ∃ w', appendOther seqs.length k raw w = .ok w' ∧ WInv nm w' (seqs ++ [s.setKey k raw]) m ∧ w'.ext = w.ext ∧ w'.prepared = w.prepared := by
  have hP : w.prepared ≠ [] := by intro h; rw [h] at hk; simp at hk
  have hst : Dict.getItem w.steps k = .ok ((seqs ++ [s]).flatMap (fun s => s.get k)).length := by unfold Dict.getItem; rw [hw.steps k hk]
  have htg : Dict.getItem (w.file.targets.getD []) k = .ok ((seqs ++ [s]).flatMap (fun s => s.get k)) := by unfold Dict.getItem; rw [hw.file.tget k hk]
  have hki : keyIdx (sortKeys w.prepared) k = .ok ((sortKeys w.prepared).idxOf k) := by
    unfold keyIdx; rw [if_pos (mem_sortKeys.2 hk)]
  have hidx : (sortKeys w.prepared).idxOf k + 1 < w.file.width := by
    have := List.idxOf_lt_length_of_mem (mem_sortKeys.2 hk)
    rw [length_sortKeys] at this
    rw [hw.file.width]; unfold wwidth; omega
  have hl : w.file.lens = seqs.map (wrow w.prepared) ++ wrow w.prepared s :: List.replicate m (List.replicate (wwidth w.prepared) 0) := by
    rw [hw.file.lens]; simp
  unfold appendOther
  rw [hst, htg, hki]
  simp only [Except.bind]
  rw [setLen_mid hl (by simp) hidx]
  simp only
  rw [resize_grow, assignFrom_grow _ _ _ _ rfl]
  refine ⟨_, rfl, ⟨⟨hw.file.nodup, hw.file.noin, fun h => (hP h).elim, fun _ => rfl, ?_, ?_, ?_, hw.file.width, ?_, ?_, ?_, ?_, ?_⟩, ?_⟩, rfl, rfl⟩
  · simp only [Option.getD_some]
    rw [Dict.keys_set, if_pos (hw.file.tkeys.mem_iff.2 hk)]
    exact hw.file.tkeys
  · intro k' hk'
    simp only [Option.getD_some]
    rw [Dict.get?_set]
    split
    · rename_i h; subst h
      rw [flatMap_setKey_self _ _ _ _ hs]
    · rename_i h
      rw [flatMap_setKey_ne _ _ _ (Ne.symm h)]
      exact hw.file.tget k' hk'
  · intro k' hk' q hq
    have hne : k' ≠ k := by rintro rfl; exact hk' hk
    rcases List.mem_append.1 hq with h | h
    · exact hw.file.other k' hk' q (by simp [h])
    · simp at h; subst h
      simp only [Seq.setKey, if_neg hne]
      exact hw.file.other k' hk' s (by simp)
  · simp only
    rw [wrow_setKey hw.file.nodup hk]
    simp
  · simp only
    rw [hw.file.tags]; simp [Seq.setKey]
  · simp only
    rw [hw.file.inp]; simp [Seq.setKey]
  · simp only
    rw [hw.file.nts]; simp [Seq.setKey]
  · simp only
    rw [hw.file.nsq]; simp
  · intro k' hk'
    simp only
    rw [Dict.get?_set]
    split
    · rename_i h; subst h
      rw [flatMap_setKey_self _ _ _ _ hs, List.length_append]
    · rename_i h
      rw [flatMap_setKey_ne _ _ _ (Ne.symm h)]
      exact hw.steps k' hk'

/-- A new key with the first sequence. -/
theorem afterPrepare_new {nm : Names K} {w : Writer K F T} {s : Seq K F T} {m : Nat} (hw : WInv nm w [s] m) {k : K} (hk : k ∉ w.prepared)
    (hi : k ≠ nm.inputs) :
    ∃ w', afterPrepare 0 (addKey w k, true) = .ok w' ∧ WInv nm w' [s] m ∧ w'.ext = w.ext ∧ w'.prepared = w.prepared ++ [k] := by
  obtain ⟨h1, h2, h3⟩ := addKey_targets nm hw hk
  unfold afterPrepare
  rw [if_pos rfl, if_pos (Or.inl rfl)]
  have hl : (addKey w k).file.lens = [] ++ resize 0 (1 + (w.prepared.length + 1)) (wrow w.prepared s) ::
      List.replicate m (List.replicate (wwidth (w.prepared ++ [k])) 0) := by
    unfold addKey
    simp only
    rw [hw.file.lens]
    simp only [List.map_append, List.map_cons, List.map_nil, List.map_replicate]
    rw [resize_zeros (wwidth_le _ k), wwidth_snoc]
    rfl
  have hrl : (resize 0 (1 + (w.prepared.length + 1)) (wrow w.prepared s)).length = 1 + (w.prepared.length + 1) := by
    unfold resize
    have := wwidth_le w.prepared k
    rw [List.length_append, List.length_take, List.length_replicate, wrow_length]
    omega
  simp only
  rw [reinit_spec (i := 0) (a := []) rfl (fun k' => (s.get k').length) _ 0 _ _ hl (by
    intro k' hk'
    rw [mem_sortKeys] at hk'
    have := h3 k' hk'
    simp only [List.flatMap_singleton] at this
    exact this) (by rw [length_sortKeys]; simp [addKey]) (by rw [hrl]; rfl)]
  have hrow : (resize 0 (1 + (w.prepared.length + 1)) (wrow w.prepared s)).take (0 + 1) ++ (sortKeys (addKey w k).prepared).map (fun k' => (s.get k').length) =
      wrow (w.prepared ++ [k]) s := by
    unfold resize wrow
    rw [if_neg (by simp : ¬ w.prepared ++ [k] = [])]
    rw [Nat.add_comm 1 (w.prepared.length + 1), List.take_succ_cons, List.cons_append]
    rfl
  rw [hrow]
  refine ⟨_, rfl, ⟨⟨?_, ?_, ?_, ?_, h1, h2, ?_, ?_, ?_, hw.file.tags, hw.file.inp, hw.file.nts, hw.file.nsq⟩, h3⟩, rfl, rfl⟩
  · exact List.nodup_append.2 ⟨hw.file.nodup, by simp, by rintro a ha b hb rfl; simp at hb; subst hb; exact hk ha⟩
  · simp only [addKey, List.mem_append, List.mem_singleton, not_or]
    exact ⟨hw.file.noin, fun h => hi h.symm⟩
  · intro h; simp [addKey] at h
  · intro _; rfl
  · intro k' hk' q hq
    exact hw.file.other k' (fun h => hk' (by simp [addKey, h])) q hq
  · exact (wwidth_snoc _ _).symm
  · rfl

theorem insertOther_spec {nm : Names K} {w : Writer K F T} {seqs : List (Seq K F T)} {s : Seq K F T} {m : Nat} (hw : WInv nm w (seqs ++ [s]) m)
    {k : K} (hk : k ∈ w.prepared ∨ (w.ext = false ∧ seqs = [])) (hi : k ≠ nm.inputs) (hs : s.get k = []) (raw : List F) :
    ∃ w', insertOther nm w k raw = .ok w' ∧ WInv nm w' (seqs ++ [s.setKey k raw]) m ∧ w'.ext = w.ext ∧
      ∀ k', k' ∈ w'.prepared ↔ k' ∈ w.prepared ∨ k' = k := by
  have hns : w.file.numSeqs - 1 = seqs.length := by rw [hw.file.nsq]; simp
  unfold insertOther
  rw [if_pos (by rw [hw.file.nsq, hw.file.lens]; simp; omega), hns]
  by_cases hp : k ∈ w.prepared
  · rw [prepareExtra_old hp hw.file.noin]
    obtain ⟨w', h1, h2, h3, h4⟩ := appendOther_spec hw hp hs raw
    refine ⟨w', h1, h2, h3, fun k' => ?_⟩
    rw [h4]
    constructor
    · exact Or.inl
    · rintro (h | rfl)
      · exact h
      · exact hp
  · obtain ⟨he, rfl⟩ := hk.resolve_left hp
    rw [prepareExtra_new hp hi he]
    obtain ⟨w1, h1, h2, h3, h4⟩ := afterPrepare_new hw hp hi
    obtain ⟨w2, h5, h6, h7, h8⟩ := appendOther_spec (seqs := []) h2 (k := k) (by rw [h4]; simp) hs raw
    simp only [Except.bind, List.length_nil]
    rw [h1]
    refine ⟨w2, h5, h6, by rw [h7, h3], fun k' => ?_⟩
    rw [h8, h4]
    simp

theorem insertOthers_spec {nm : Names K} : ∀ (es : List (K × List F)) {w : Writer K F T} {seqs : List (Seq K F T)} {s : Seq K F T} {m : Nat},
    WInv nm w (seqs ++ [s]) m → (∀ e ∈ es, (e.1 ∈ w.prepared ∨ (w.ext = false ∧ seqs = [])) ∧ e.1 ≠ nm.inputs ∧ s.get e.1 = []) →
    (es.map Prod.fst).Nodup →
    ∃ w', insertOthers nm es w = .ok w' ∧
      WInv nm w' (seqs ++ [{ s with get := fun k => (Dict.get? es k).getD (s.get k) }]) m ∧ w'.ext = w.ext ∧
      ∀ k', k' ∈ w'.prepared ↔ k' ∈ w.prepared ∨ k' ∈ es.map Prod.fst
  | [], w, seqs, s, m, hw, _, _ => ⟨w, rfl, by simpa [Dict.get?] using hw, rfl, by simp⟩
  | e :: es, w, seqs, s, m, hw, he, hn => by
    simp only [List.map_cons, List.nodup_cons] at hn
    obtain ⟨a1, a2, a3⟩ := he e (by simp)
    obtain ⟨w1, h1, h2, h3, h4⟩ := insertOther_spec hw a1 a2 a3 e.2
    obtain ⟨w2, h5, h6, h7, h8⟩ := insertOthers_spec es h2 (by
      intro e' he'
      obtain ⟨b1, b2, b3⟩ := he e' (by simp [he'])
      refine ⟨?_, b2, ?_⟩
      · rw [h4, h3]
        rcases b1 with b | b
        · exact Or.inl (Or.inl b)
        · exact Or.inr b
      · unfold Seq.setKey
        simp only
        split
        · rename_i h
          exact (hn.1 (List.mem_map.2 ⟨e', he', h⟩)).elim
        · exact b3) hn.2
    refine ⟨w2, by unfold insertOthers; rw [h1]; exact h5, ?_, by rw [h7, h3], ?_⟩
    · have : ({ (s.setKey e.1 e.2) with get := fun k => (Dict.get? es k).getD ((s.setKey e.1 e.2).get k) } : Seq K F T) =
          { s with get := fun k => (Dict.get? (e :: es) k).getD (s.get k) } := by
        unfold Seq.setKey
        simp only [Seq.mk.injEq, true_and]
        funext k
        obtain ⟨k0, v0⟩ := e
        simp only [Dict.get?]
        by_cases h : k0 = k
        · subst h
          rw [if_pos rfl, if_pos rfl, (Dict.get?_eq_none es k0).2 hn.1]
          rfl
        · rw [if_neg h, if_neg (Ne.symm h)]
      rw [← this]
      exact h6
    · intro k'
      rw [h8, h4]
      simp only [List.map_cons, List.mem_cons]
      exact or_assoc

/-! ### Batches -/

theorem insertSeq_spec {nm : Names K} {w : Writer K F T} {seqs : List (Seq K F T)} {m : Nat} (hw : WInv nm w seqs (m + 1))
    (he : w.ext = true → seqs ≠ []) (b : BSeq K F T) (hl : b.len ≤ b.frames.length) (hn : b.extra.Wf) (hi : nm.inputs ∉ b.extra.keys)
    (hk : ∀ k ∈ b.extra.keys, k ∈ w.prepared ∨ (w.ext = false ∧ seqs = [])) :
    ∃ w', insertSeq nm seqs.length b w = .ok w' ∧ WInv nm w' (seqs ++ [b.toSeq]) m ∧ w'.ext = w.ext ∧
      ∀ k, k ∈ w'.prepared ↔ k ∈ w.prepared ∨ k ∈ b.extra.keys := by
  obtain ⟨f, h1, w1, h2, h3, h4, h5⟩ := insertInputs_spec hw he b.tag (b.frames.take b.len)
  obtain ⟨w2, h6, h7, h8, h9⟩ := insertOthers_spec b.extra h3 (by
    intro e hm
    have hmk : e.1 ∈ b.extra.keys := List.mem_map.2 ⟨e, hm, rfl⟩
    refine ⟨?_, ?_, rfl⟩
    · rw [h5, h4]; exact hk _ hmk
    · intro h; exact hi (h ▸ hmk)) hn
  refine ⟨w2, ?_, h7, by rw [h8, h4], fun k => by rw [h9, h5]; rfl⟩
  unfold insertSeq
  simp only
  have hlen : (b.frames.take b.len).length = b.len := by rw [List.length_take]; omega
  rw [hlen] at h1
  rw [h1]
  simp only [Except.bind]
  rw [h2]
  exact h6

/-- A batch which fits to its time axis, with proper extra keys. -/
def SeqOk (nm : Names K) (b : BSeq K F T) : Prop := b.len ≤ b.frames.length ∧ b.extra.Wf ∧ nm.inputs ∉ b.extra.keys

theorem insertSeqs_spec {nm : Names K} : ∀ (bs : List (BSeq K F T)) {w : Writer K F T} {seqs : List (Seq K F T)}, WInv nm w seqs bs.length →
    (w.ext = true → seqs ≠ []) → (∀ b ∈ bs, SeqOk nm b) →
    (∀ b ∈ bs, ∀ k ∈ b.extra.keys, k ∈ w.prepared ∨ (w.ext = false ∧ seqs = [] ∧ ∀ b0, bs.head? = some b0 → k ∈ b0.extra.keys)) →
    ∃ w', insertSeqs nm bs seqs.length w = .ok w' ∧ WInv nm w' (seqs ++ bs.map BSeq.toSeq) 0 ∧ w'.ext = w.ext ∧
      ∀ k, k ∈ w'.prepared ↔ k ∈ w.prepared ∨ ∃ b ∈ bs, k ∈ b.extra.keys
  | [], w, seqs, hw, _, _, _ => ⟨w, rfl, by simpa using hw, rfl, by simp⟩
  | b :: bs, w, seqs, hw, he, ho, hk => by
    obtain ⟨o1, o2, o3⟩ := ho b (by simp)
    obtain ⟨w1, h1, h2, h3, h4⟩ := insertSeq_spec (m := bs.length) hw he b o1 o2 o3 (by
      intro k hkb
      rcases hk b (by simp) k hkb with h | h
      · exact Or.inl h
      · exact Or.inr ⟨h.1, h.2.1⟩)
    obtain ⟨w2, h5, h6, h7, h8⟩ := insertSeqs_spec bs h2 (fun _ => by simp) (fun b hb => ho b (by simp [hb])) (by
      intro b' hb' k hkb
      left
      rw [h4]
      rcases hk b' (by simp [hb']) k hkb with h | h
      · exact Or.inl h
      · exact Or.inr (h.2.2 b rfl))
    refine ⟨w2, ?_, by simpa using h6, by rw [h7, h3], ?_⟩
    · unfold insertSeqs
      rw [h1]
      simp only [Except.bind]
      rw [List.length_append, List.length_singleton] at h5
      exact h5
    · intro k
      rw [h8, h4]
      simp only [List.mem_cons, exists_eq_or_imp]
      exact or_assoc

theorem insertBatch_spec {nm : Names K} {time : Nat} {bs : List (BSeq K F T)} {w : Writer K F T} {seqs : List (Seq K F T)} (hw : WInv nm w seqs 0)
    (hne : bs ≠ []) (ht : (bs.map (fun b => b.len)).foldl max 0 = time)
    (he : w.ext = true → seqs ≠ []) (ho : ∀ b ∈ bs, SeqOk nm b)
    (hk : ∀ b ∈ bs, ∀ k ∈ b.extra.keys, k ∈ w.prepared ∨ (w.ext = false ∧ seqs = [] ∧ ∀ b0, bs.head? = some b0 → k ∈ b0.extra.keys)) :
    ∃ w', insertBatch nm time bs w = .ok w' ∧ WInv nm w' (seqs ++ bs.map BSeq.toSeq) 0 ∧ w'.ext = w.ext ∧
      ∀ k, k ∈ w'.prepared ↔ k ∈ w.prepared ∨ ∃ b ∈ bs, k ∈ b.extra.keys := by
  unfold insertBatch
  rw [if_neg hne, if_pos ht]
  simp only
  have hn : w.file.lens.length = seqs.length := by rw [hw.file.lens]; simp
  have hnt : w.file.tags.length = seqs.length := by rw [hw.file.tags]; simp
  have hw' : WInv nm { w with file := { w.file with
      lens := resize (List.replicate w.file.width 0) (w.file.lens.length + bs.length) w.file.lens,
      tags := resize default (w.file.lens.length + bs.length) w.file.tags } } seqs bs.length := by
    refine ⟨⟨hw.file.nodup, hw.file.noin, hw.file.tnone, hw.file.tsome, hw.file.tkeys, hw.file.tget, hw.file.other, hw.file.width, ?_, ?_,
      hw.file.inp, hw.file.nts, hw.file.nsq⟩, hw.steps⟩
    · simp only
      rw [resize_grow, hw.file.width]
      conv => lhs; rw [hw.file.lens]
      simp
    · simp only
      rw [hn, ← hnt, resize_grow]
      conv => lhs; rw [hw.file.tags]
      simp
  rw [hn] at hw' ⊢
  exact insertSeqs_spec bs hw' he ho hk

/-- What is written can be read. -/
theorem FInv.rep {nm : Names K} {f : File K F T} {P : List K} {seqs : List (Seq K F T)} (h : FInv nm f P seqs 0) (hne : seqs ≠ []) (hd : nm.data ∉ P)
    (hcl : nm.classes ≠ nm.data) : Rep nm f seqs := by
  have hinp := h.inp
  rw [if_neg hne] at hinp
  have hsome : f.inputs.isSome = true := by rw [hinp]; rfl
  have htk : targetKeys nm f = if P = [] then [nm.classes] else sortKeys P := by
    unfold targetKeys
    by_cases hP : P = []
    · rw [h.tnone hP, if_pos hP]
    · rw [if_neg hP]
      have := h.tsome hP
      rw [Option.isSome_iff_exists] at this
      obtain ⟨t, ht⟩ := this
      rw [ht]
      have hp := h.tkeys
      rw [ht] at hp
      exact sortKeys_congr hp
  refine ⟨by rw [h.tags]; simp, ?_, ?_, ?_, ?_, ?_⟩
  · intro l hl
    rw [hinp] at hl
    injection hl with hl
    exact hl.symm
  · intro t ht
    have hp := h.tkeys
    have hg := h.tget
    rw [ht] at hp hg
    exact ⟨hp.nodup_iff.2 h.nodup, fun k hk => hg k (hp.mem_iff.1 hk)⟩
  · rw [h.width, htk]
    unfold numInputKeys wwidth
    rw [hsome, if_pos rfl]
    split
    · rename_i hP; subst hP; rfl
    · rename_i hP
      have : P.length ≠ 0 := by simpa using hP
      rw [length_sortKeys]; omega
  · rw [h.lens, hsome, htk]
    simp only [List.replicate_zero, List.append_nil]
    apply List.map_congr_left
    intro s hs
    unfold wrow cols
    simp only [if_true, List.singleton_append, List.map_cons]
    congr 1
    split
    · rename_i hP
      have := h.other nm.classes (by rw [hP]; simp) s hs
      simp [this]
    · simp
  · intro _
    rw [htk]
    split
    · simpa using Ne.symm hcl
    · intro hm; exact hd (mem_sortKeys.1 hm)

end Verif.Hdf
