import Verif.Hdf.Writer
/-
**C58**: what `SimpleHDFWriter` wrote is what `HDFDataset` reads.
-/
namespace Verif.Hdf
open Verif.Py

variable {K F T : Type} [LinearOrder K] [Inhabited F] [Inhabited T]

theorem foldl_max_le (l : List Nat) (a t : Nat) (ha : a ≤ t) (h : ∀ x ∈ l, x ≤ t) : l.foldl max a ≤ t := by
  induction l generalizing a with
  | nil => exact ha
  | cons x l ih => exact ih _ (Nat.max_le.2 ⟨ha, h x (by simp)⟩) (fun y hy => h y (by simp [hy]))

theorem le_foldl_max (l : List Nat) (a : Nat) : a ≤ l.foldl max a ∧ ∀ x ∈ l, x ≤ l.foldl max a := by
  induction l generalizing a with
  | nil => simp
  | cons x l ih =>
    obtain ⟨h1, h2⟩ := ih (max a x)
    refine ⟨Nat.le_trans (Nat.le_max_left _ _) h1, ?_⟩
    intro y hy
    rcases List.mem_cons.1 hy with rfl | hy
    · exact Nat.le_trans (Nat.le_max_right _ _) h1
    · exact h2 y hy

theorem batchOk_max {time : Nat} {bs : List (BSeq K F T)} (h : BatchOk time bs) : (bs.map (fun b => b.len)).foldl max 0 = time := by
  obtain ⟨⟨b, hb, he⟩, h2⟩ := h
  apply Nat.le_antisymm
  · apply foldl_max_le _ _ _ (by omega)
    intro x hx
    obtain ⟨b', hb', rfl⟩ := List.mem_map.1 hx
    exact (h2 b' hb').2.1
  · rw [← he]
    exact (le_foldl_max _ 0).2 _ (List.mem_map.2 ⟨b, hb, rfl⟩)

theorem insertBatches_spec {nm : Names K} : ∀ (l : List (Nat × List (BSeq K F T))) {w : Writer K F T} {seqs : List (Seq K F T)}, WInv nm w seqs 0 →
    (w.ext = true → seqs ≠ []) → (∀ b ∈ l, BatchOk b.1 b.2) → (∀ b ∈ l.flatMap Prod.snd, nm.inputs ∉ b.extra.keys) →
    (∀ b ∈ l.flatMap Prod.snd, ∀ k ∈ b.extra.keys, k ∈ w.prepared ∨
      (w.ext = false ∧ seqs = [] ∧ ∀ b0, (l.flatMap Prod.snd).head? = some b0 → k ∈ b0.extra.keys)) →
    ∃ w', insertBatches nm l w = .ok w' ∧ WInv nm w' (seqs ++ (l.flatMap Prod.snd).map BSeq.toSeq) 0 ∧ w'.ext = w.ext ∧
      ∀ k, k ∈ w'.prepared ↔ k ∈ w.prepared ∨ ∃ b ∈ l.flatMap Prod.snd, k ∈ b.extra.keys
  | [], w, seqs, hw, _, _, _, _ => ⟨w, rfl, by simpa using hw, rfl, by simp⟩
  | (time, bs) :: l, w, seqs, hw, he, hb, hi, hk => by
    have hb0 : BatchOk time bs := hb (time, bs) (by simp)
    have hne : bs ≠ [] := by
      obtain ⟨⟨b, h, _⟩, _⟩ := hb0
      rintro rfl; simp at h
    obtain ⟨b0, bs', hbs⟩ := List.exists_cons_of_ne_nil hne
    have hhead : (((time, bs) :: l).flatMap Prod.snd).head? = some b0 := by simp [hbs]
    obtain ⟨w1, h1, h2, h3, h4⟩ := insertBatch_spec hw hne (batchOk_max hb0) he
      (fun b hbm => ⟨by rw [(hb0.2 b hbm).1]; exact (hb0.2 b hbm).2.1, (hb0.2 b hbm).2.2, hi b (by simp [hbm])⟩)
      (fun b hbm k hkb => by
        rcases hk b (by simp [hbm]) k hkb with h | ⟨ha, hb', hc⟩
        · exact Or.inl h
        · refine Or.inr ⟨ha, hb', ?_⟩
          intro b1 hb1
          have : b1 = b0 := by rw [hbs] at hb1; simpa using hb1.symm
          rw [this]; exact hc b0 hhead)
    obtain ⟨w2, h5, h6, h7, h8⟩ := insertBatches_spec l h2 (fun _ => by simp [hne]) (fun b hbm => hb b (by simp [hbm]))
      (fun b hbm => hi b (by simp only [List.flatMap_cons, List.mem_append]; exact Or.inr hbm))
      (fun b hbm k hkb => by
        left
        rw [h4]
        rcases hk b (by simp only [List.flatMap_cons, List.mem_append]; exact Or.inr hbm) k hkb with h | ⟨_, _, hc⟩
        · exact Or.inl h
        · exact Or.inr ⟨b0, by rw [hbs]; simp, hc b0 hhead⟩)
    refine ⟨w2, by unfold insertBatches; rw [h1]; exact h5, ?_, by rw [h7, h3], ?_⟩
    · simpa using h6
    · intro k
      rw [h8, h4]
      simp only [List.flatMap_cons, List.mem_append]
      constructor
      · rintro ((h | ⟨b, h, h'⟩) | ⟨b, h, h'⟩)
        · exact Or.inl h
        · exact Or.inr ⟨b, Or.inl h, h'⟩
        · exact Or.inr ⟨b, Or.inr h, h'⟩
      · rintro (h | ⟨b, h | h, h'⟩)
        · exact Or.inl (Or.inl h)
        · exact Or.inl (Or.inr ⟨b, h, h'⟩)
        · exact Or.inr ⟨b, h, h'⟩

theorem extendAll_spec {nm : Names K} (keys : List K) : ∀ (l : List (Session K F T)) {f : File K F T} {P : List K} {seqs : List (Seq K F T)},
    FInv nm f P seqs 0 → (∀ k, k ∈ P ↔ k ∈ keys) → seqs ≠ [] → nm.inputs ∉ keys →
    (∀ s ∈ l, (∀ b ∈ s.batches, BatchOk b.1 b.2) ∧ (∀ b ∈ s.entries, ∀ k ∈ b.extra.keys, k ∈ keys) ∧ s.extraType.Nodup ∧
      ∀ k, k ∈ s.extraType ↔ k ∈ keys) →
    ∃ f' P', extendAll nm l f = .ok f' ∧ FInv nm f' P' (seqs ++ (l.flatMap Session.entries).map BSeq.toSeq) 0 ∧ ∀ k, k ∈ P' ↔ k ∈ keys
  | [], f, P, seqs, hf, hP, _, _, _ => ⟨f, P, rfl, by simpa using hf, hP⟩
  | s :: l, f, P, seqs, hf, hP, hne, hi, hl => by
    obtain ⟨a1, a2, a3, a4⟩ := hl s (by simp)
    have hperm : s.extraType.Perm P := (List.perm_ext_iff_of_nodup a3 hf.nodup).2 (fun k => by rw [a4, hP])
    obtain ⟨w, h1, h2, h3, h4⟩ := openExt_spec hf hperm
    obtain ⟨w', h5, h6, h7, h8⟩ := insertBatches_spec s.batches h2 (fun _ => hne) a1
      (fun b hb hk => hi (a2 b hb _ hk)) (fun b hb k hk => Or.inl (by rw [h4, a4]; exact a2 b hb k hk))
    obtain ⟨f', P', h9, h10, h11⟩ := extendAll_spec keys l h6.file (fun k => by
      rw [h8, h4, a4]
      constructor
      · rintro (h | ⟨b, hb, hk⟩)
        · exact h
        · exact a2 b hb k hk
      · exact Or.inl) (by simp [hne]) hi (fun s hs => hl s (by simp [hs]))
    refine ⟨f', P', ?_, ?_, h11⟩
    · unfold extendAll extendFile
      rw [h1]
      simp only [Except.bind]
      rw [h5]
      exact h9
    · have : seqs ++ ((s :: l).flatMap Session.entries).map BSeq.toSeq =
          seqs ++ (s.batches.flatMap Prod.snd).map BSeq.toSeq ++ (l.flatMap Session.entries).map BSeq.toSeq := by
        simp [Session.entries]
      rw [this]
      exact h10

theorem entries_ne {s : Session K F T} (hne : s.batches ≠ []) (hb : ∀ b ∈ s.batches, BatchOk b.1 b.2) : s.entries ≠ [] := by
  obtain ⟨b, l, h⟩ := List.exists_cons_of_ne_nil hne
  obtain ⟨⟨x, hx, _⟩, _⟩ := hb b (by rw [h]; simp)
  intro he
  unfold Session.entries at he
  rw [List.flatMap_eq_nil_iff] at he
  have := he b (by rw [h]; simp)
  rw [this] at hx; simp at hx

/-- The file which was written has the sequences. -/
theorem writeHist_spec {nm : Names K} {h : Hist K F T} (ho : HistOk nm.data nm.inputs h) :
    ∃ f P, writeHist nm h = .ok f ∧ FInv nm f P (h.entries.map BSeq.toSeq) 0 ∧ ∀ k, k ∈ P ↔ k ∈ h.keys := by
  have hne := entries_ne ho.ne (ho.batch h.first (by simp))
  obtain ⟨b0, bs, hb0⟩ := List.exists_cons_of_ne_nil hne
  have hkeys : h.keys = h.first.extraType ++ b0.extra.map Prod.fst := by unfold Hist.keys; rw [hb0]
  obtain ⟨w, h1, h2, h3, h4⟩ := prepareAll_new (nm := nm) h.first.extraType (create_base (F := F) (T := T) nm) rfl
    (fun hi => ho.reserved.2 (by rw [hkeys]; simp [hi]))
  have h4' : ∀ k, k ∈ w.prepared ↔ k ∈ h.first.extraType := by
    intro k; rw [h4]; simp
  have hsub : ∀ b ∈ h.first.entries, ∀ k ∈ b.extra.keys, k ∈ h.keys := fun b hb k hk => ho.sub b (by unfold Hist.entries; simp [hb]) k hk
  obtain ⟨w', h5, h6, h7, h8⟩ := insertBatches_spec h.first.batches h2 (fun h => by rw [h3] at h; cases h) (ho.batch h.first (by simp))
    (fun b hb hk => ho.reserved.2 (hsub b hb _ hk)) (fun b hb k hk => by
      have := hsub b hb k hk
      rw [hkeys, List.mem_append] at this
      rcases this with h | h
      · exact Or.inl ((h4' k).2 h)
      · refine Or.inr ⟨h3, rfl, ?_⟩
        intro b1 hb1
        have hb1' : (Session.entries _).head? = some b1 := hb1
        rw [hb0] at hb1'
        simp only [List.head?_cons, Option.some.injEq] at hb1'
        rw [← hb1']; exact h)
  have hP : ∀ k, k ∈ w'.prepared ↔ k ∈ h.keys := by
    intro k
    rw [h8, h4']
    constructor
    · rintro (h' | ⟨b, hb, hk⟩)
      · rw [hkeys]; simp [h']
      · exact hsub b hb k hk
    · intro hk
      rw [hkeys, List.mem_append] at hk
      rcases hk with h' | h'
      · exact Or.inl h'
      · refine Or.inr ⟨b0, ?_, h'⟩
        have : b0 ∈ h.first.entries := by rw [hb0]; simp
        exact this
  obtain ⟨f, P, h9, h10, h11⟩ := extendAll_spec h.keys h.exts h6.file hP (by
    simp only [List.nil_append, ne_eq, List.map_eq_nil_iff]
    exact hne) ho.reserved.2 (fun s hs => ⟨ho.batch s (by simp [hs]), fun b hb k hk => ho.sub b (by
      unfold Hist.entries
      exact List.mem_append_right _ (List.mem_flatMap.2 ⟨s, hs, hb⟩)) k hk, (ho.ext s hs).1, (ho.ext s hs).2⟩)
  refine ⟨f, P, ?_, ?_, h11⟩
  · unfold writeHist writeFile create
    rw [h1]
    simp only [Except.bind]
    rw [h5]
    exact h9
  · have : h.entries.map BSeq.toSeq = [] ++ (h.first.batches.flatMap Prod.snd).map BSeq.toSeq ++ (h.exts.flatMap Session.entries).map BSeq.toSeq := by
      simp [Hist.entries, Session.entries]
    rw [this]
    exact h10

theorem writeHists_spec {nm : Names K} : ∀ (hs : List (Hist K F T)), (∀ h ∈ hs, HistOk nm.data nm.inputs h) →
    ∃ fs, writeHists nm hs = .ok fs ∧ List.Forall₂ (fun f h => ∃ P, FInv nm f P (h.entries.map BSeq.toSeq) 0 ∧ ∀ k, k ∈ P ↔ k ∈ h.keys) fs hs
  | [], _ => ⟨[], rfl, .nil⟩
  | h :: hs, ho => by
    obtain ⟨f, P, h1, h2⟩ := writeHist_spec (ho h (by simp))
    obtain ⟨fs, h3, h4⟩ := writeHists_spec hs (fun h hh => ho h (by simp [hh]))
    refine ⟨f :: fs, ?_, .cons ⟨P, h2⟩ h4⟩
    unfold writeHists
    rw [h1]
    simp only [Except.bind]
    rw [h3]

theorem hist_ne {nm : Names K} {h : Hist K F T} (ho : HistOk nm.data nm.inputs h) : h.entries.map BSeq.toSeq ≠ [] := by
  have := entries_ne ho.ne (ho.batch h.first (by simp))
  unfold Hist.entries
  simp [this]

/-- Facts about one written file, for the reader. -/
theorem finv_facts {nm : Names K} {h : Hist K F T} (ho : HistOk nm.data nm.inputs h) {f : File K F T} {P : List K}
    (hf : FInv nm f P (h.entries.map BSeq.toSeq) 0) (hP : ∀ k, k ∈ P ↔ k ∈ h.keys) :
    f.inputs.isSome = true ∧ (f.targets.isSome = true ↔ h.keys ≠ []) ∧
      (∀ k, k ∈ targetKeys nm f ↔ if h.keys = [] then k = nm.classes else k ∈ h.keys) := by
  have hPk : P = [] ↔ h.keys = [] := by
    rw [List.eq_nil_iff_forall_not_mem, List.eq_nil_iff_forall_not_mem]
    exact forall_congr' (fun k => not_congr (hP k))
  refine ⟨?_, ?_, ?_⟩
  · rw [hf.inp, if_neg (hist_ne ho)]; rfl
  · rw [ne_eq, ← hPk]
    constructor
    · intro hs hn
      rw [hf.tnone hn] at hs; cases hs
    · exact hf.tsome
  · intro k
    unfold targetKeys
    by_cases hk : h.keys = []
    · rw [if_pos hk, hf.tnone (hPk.2 hk)]
      simp
    · rw [if_neg hk]
      have hs := hf.tsome (fun h => hk (hPk.1 h))
      rw [Option.isSome_iff_exists] at hs
      obtain ⟨t, ht⟩ := hs
      have hp := hf.tkeys
      rw [ht] at hp ⊢
      simp only
      rw [mem_sortKeys, ← hP]
      exact hp.mem_iff

/-- **C58** (partial: whoever extends a file gives all its extra keys in `extra_type`; otherwise see `extend_wrong`) For files written by `SimpleHDFWriter` (each created and maybe extended several times, in any batches), `HDFDataset` over these
files has all the sequences in the order they were written, with their tags, their input frames without padding, and their extra data.
The keys are those of the first file; the other files must have them too (and none if the first has none). -/
theorem hdf_roundtrip_partial (nm : Names K) (hcl : nm.classes ≠ nm.data) (h0 : Hist K F T) (hs : List (Hist K F T))
    (ho : ∀ h ∈ h0 :: hs, HistOk nm.data nm.inputs h)
    (hk : ∀ h ∈ hs, (h0.keys = [] ↔ h.keys = []) ∧ ∀ k ∈ h0.keys, k ∈ h.keys) :
    ∃ fs ds, writeHists nm (h0 :: hs) = .ok fs ∧ openFiles nm fs = .ok ds ∧
      totalNumSeqs ds = ((h0 :: hs).flatMap Hist.entries).length ∧
      ∀ (i : Nat) (b : BSeq K F T), ((h0 :: hs).flatMap Hist.entries)[i]? = some b →
        getTag ds i = .ok b.tag ∧ getData nm ds i nm.data = .ok (b.frames.take b.len) ∧
        ∀ k ∈ h0.keys, getData nm ds i k = .ok ((b.extra.get? k).getD []) := by
  obtain ⟨fs, h1, h2⟩ := writeHists_spec (nm := nm) (h0 :: hs) ho
  cases h2 with
  | @cons f0 _ fs' _ hf0 hfs =>
    obtain ⟨P0, hf0, hP0⟩ := hf0
    obtain ⟨a1, a2, a3⟩ := finv_facts (ho h0 (by simp)) hf0 hP0
    have hdat : ∀ (h : Hist K F T) (P : List K), h ∈ h0 :: hs → (∀ k, k ∈ P ↔ k ∈ h.keys) → nm.data ∉ P := by
      intro h P hm hP hd
      exact (ho h hm).reserved.1 ((hP _).1 hd)
    have hr0 : Rep nm f0 (h0.entries.map BSeq.toSeq) := hf0.rep (hist_ne (ho h0 (by simp))) (hdat h0 P0 (by simp) hP0) hcl
    have hrs : List.Forall₂ (Rep nm) fs' (hs.map (fun h => h.entries.map BSeq.toSeq)) := by
      rw [List.forall₂_map_right_iff]
      have : ∀ (fs : List (File K F T)) (l : List (Hist K F T)), (∀ h ∈ l, h ∈ h0 :: hs) →
          List.Forall₂ (fun f h => ∃ P, FInv nm f P (h.entries.map BSeq.toSeq) 0 ∧ ∀ k, k ∈ P ↔ k ∈ h.keys) fs l →
          List.Forall₂ (fun f h => Rep nm f (h.entries.map BSeq.toSeq)) fs l := by
        intro fs l hl hfa
        induction hfa with
        | nil => exact .nil
        | cons hx _ ih =>
          obtain ⟨P, hx, hP⟩ := hx
          exact .cons (hx.rep (hist_ne (ho _ (hl _ (by simp)))) (hdat _ P (hl _ (by simp)) hP) hcl) (ih (fun h hh => hl h (by simp [hh])))
      exact this fs' hs (fun h hh => by simp [hh]) hfs
    have hkk : ∀ f ∈ fs', f.inputs.isSome = f0.inputs.isSome ∧ f.targets.isSome = f0.targets.isSome ∧
        (targetKeys nm f = targetKeys nm f0 ∨ (f0.inputs.isSome = true ∧ ∀ k ∈ targetKeys nm f0, k ∈ targetKeys nm f)) := by
      intro f hf
      obtain ⟨j, hj, rfl⟩ := List.mem_iff_getElem.1 hf
      have hjs : j < hs.length := by rw [← hfs.length_eq]; exact hj
      have hx := hfs.get (i := j) hj hjs
      simp only [List.get_eq_getElem] at hx
      obtain ⟨P, hx, hP⟩ := hx
      have hmem : hs[j] ∈ hs := List.getElem_mem hjs
      obtain ⟨b1, b2, b3⟩ := finv_facts (ho _ (List.mem_cons_of_mem _ hmem)) hx hP
      obtain ⟨c1, c2⟩ := hk _ hmem
      refine ⟨by rw [a1, b1], ?_, Or.inr ⟨a1, ?_⟩⟩
      · rw [Bool.eq_iff_iff, a2, b2, ne_eq, ne_eq, c1]
      · intro k hk0
        rw [a3] at hk0
        rw [b3]
        by_cases hn : h0.keys = []
        · rw [if_pos hn] at hk0
          rw [if_pos (c1.1 hn)]; exact hk0
        · rw [if_neg hn] at hk0
          rw [if_neg (fun h => hn (c1.2 h))]
          exact c2 k hk0
    obtain ⟨ds, h3, h4, h5⟩ := openFiles_spec hr0 (hist_ne (ho h0 (by simp))) hrs (by
      intro q hq
      obtain ⟨h, hh, rfl⟩ := List.mem_map.1 hq
      exact hist_ne (ho h (by simp [hh]))) hkk
    have hfl : h0.entries.map BSeq.toSeq ++ (hs.map (fun h => h.entries.map BSeq.toSeq)).flatten = ((h0 :: hs).flatMap Hist.entries).map BSeq.toSeq := by
      simp only [List.flatMap_cons, List.map_append, List.map_flatMap]
      rfl
    rw [hfl] at h4 h5
    refine ⟨_, ds, h1, h3, by rw [h4, List.length_map], ?_⟩
    intro i b hb
    obtain ⟨r1, r2, r3⟩ := h5 i b.toSeq (by rw [List.getElem?_map, hb]; rfl)
    refine ⟨r1, r2 a1, ?_⟩
    intro k hk0
    have hn : h0.keys ≠ [] := by intro h; rw [h] at hk0; simp at hk0
    exact r3 (a2.2 hn) k (by rw [a3, if_neg hn]; exact hk0)

end Verif.Hdf
