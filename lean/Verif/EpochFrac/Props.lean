import Verif.EpochFrac.Model
import Mathlib.Tactic.Linarith
import Mathlib.Tactic.Positivity
import Mathlib.Tactic.NormNum
import Mathlib.Algebra.Order.Field.Basic
/-
C127: how far an epoch is.
-/
namespace Verif.EpochFrac
open Verif.Py

theorem generic_known (i n : Nat) (h : i < n) : generic i (some n) = ((i : ℝ) + 1) / (n : ℝ) := by
  cases n with
  | zero => omega
  | succ n =>
    show min (((i : ℝ) + 1) / ((n : ℝ) + 1)) 1 = _
    rw [min_eq_left]
    · push_cast
      rfl
    · have hn : (0 : ℝ) < (n : ℝ) + 1 := by positivity
      rw [div_le_one hn]
      have : (i : ℝ) ≤ n := by exact_mod_cast (Nat.lt_succ_iff.1 h)
      linarith

/-- With a known number, after sequence `i` the fraction is (i + 1) / n; other indices are an error. -/
theorem frac_known (n i : Nat) (lr : Bool) : (i < n → completeFrac (.known n) i lr = .ok (some (((i : ℝ) + 1) / (n : ℝ)))) ∧ (¬ i < n → completeFrac (.known n) i lr = .error .assertion) := by
  constructor
  · intro h
    simp only [completeFrac, fracOf, h, if_true, generic_known i n h]
  · intro h
    simp only [completeFrac, fracOf, h, if_false]

/-- Not known: some value, larger for later sequences, always between 0 and 1 and never one of them. -/
theorem frac_guess (i j : Nat) : 0 < generic i none ∧ generic i none < 1 ∧ (i ≤ j → generic i none ≤ generic j none) := by
  unfold generic
  have hs : ∀ k : Nat, 0 ≤ Real.sqrt (k : ℝ) := fun k => Real.sqrt_nonneg _
  have hp : ∀ k : Nat, (0 : ℝ) < Real.sqrt (k : ℝ) / 100 + 1 := by
    intro k
    have := hs k
    positivity
  refine ⟨?_, ?_, ?_⟩
  · exact lt_of_lt_of_le (by norm_num) (le_max_left _ _)
  · apply max_lt
    · norm_num
    · have h1 : (0 : ℝ) < 1 / (Real.sqrt (i : ℝ) / 100 + 1) := by
        have := hp i
        positivity
      linarith
  · intro hij
    apply max_le_max (le_refl _)
    have h1 : Real.sqrt (i : ℝ) ≤ Real.sqrt (j : ℝ) := Real.sqrt_le_sqrt (by exact_mod_cast hij)
    have h2 : 1 / (Real.sqrt (j : ℝ) / 100 + 1) ≤ 1 / (Real.sqrt (i : ℝ) / 100 + 1) := one_div_le_one_div_of_le (hp i) (by linarith)
    have : (1 - 1 / (Real.sqrt (i : ℝ) / 100 + 1)) ≤ (1 - 1 / (Real.sqrt (j : ℝ) / 100 + 1)) := by linarith
    exact mul_le_mul_of_nonneg_right this (by norm_num)

/-- The guess is not used where it should be: without an estimate of the number it is an error. -/
theorem no_estimate_error (i : Nat) : completeFrac (.unknown none) i false = .error .typeError := rfl

/-- An estimate which is too small is an error, although it does not have to be exact. -/
theorem small_estimate_error (n i : Nat) (h : n ≤ i) : completeFrac (.unknown (some n)) i false = .error .assertion := by
  have : ¬ i < n := by omega
  simp only [completeFrac, fracOf, this, if_false, Bool.false_eq_true]

/-- For the learning rate, there is no fraction when the number is not known. -/
theorem lr_unknown (ns : NumSeqs) (i : Nat) (h : ∀ n, ns ≠ .known n) : completeFrac ns i true = .ok none := by
  cases ns with
  | known n => exact absurd rfl (h n)
  | infinite => rfl
  | unknown e => rfl

/-! ## The data pipe -/

theorem pipeFrom_known (n epoch : Nat) : ∀ (seqs : List Seq) (i : Nat) (last : ℝ), (∀ s ∈ seqs, s.own = none) → i + seqs.length = n → last ≤ (i : ℝ) / (n : ℝ) →
    pipeFrom (.known n) epoch i last seqs = ((seqs.zipIdx i).map (fun si => ⟨si.1.tag, si.2, epoch, some (n : Int), ((si.2 : ℝ) + 1) / (n : ℝ)⟩), none) := by
  intro seqs
  induction seqs with
  | nil => intro i last _ _ _; rfl
  | cons s t ih =>
    intro i last hown hlen hlast
    have hi : i < n := by
      simp only [List.length_cons] at hlen
      omega
    have hn : (0 : ℝ) < (n : ℝ) := by exact_mod_cast (by omega : 0 < n)
    have hs : s.own = none := hown s (by simp)
    have h1 : (0 : ℝ) ≤ ((i : ℝ) + 1) / (n : ℝ) := by positivity
    have h2 : ((i : ℝ) + 1) / (n : ℝ) ≤ 1 := by
      rw [div_le_one hn]
      exact_mod_cast hi
    have h3 : last ≤ ((i : ℝ) + 1) / (n : ℝ) := by
      refine le_trans hlast ?_
      apply div_le_div_of_nonneg_right _ hn.le
      linarith
    have hc : checkFrac (some (((i : ℝ) + 1) / (n : ℝ))) last = .ok (((i : ℝ) + 1) / (n : ℝ)) := by
      unfold checkFrac
      simp only [h1, h2, h3, and_self, if_true]
    have hrec := ih (i + 1) (((i : ℝ) + 1) / (n : ℝ)) (fun x hx => hown x (by simp [hx])) (by simp only [List.length_cons] at hlen; omega) (by push_cast; exact le_refl _)
    unfold pipeFrom
    simp only [cachedFrac, hs, (frac_known n i true).1 hi, hc, hrec, NumSeqs.asInt, List.zipIdx_cons, List.map_cons]

/-- A dataset with a known number of sequences: each sequence once, in order, with its index, the epoch, the number and the fraction. -/
theorem pipe_known (epoch : Nat) (seqs : List Seq) (h : ∀ s ∈ seqs, s.own = none) :
    (pipe (.known seqs.length) epoch seqs).2 = none ∧ (pipe (.known seqs.length) epoch seqs).1.map Sample.tag = seqs.map Seq.tag ∧
    ∀ (i : Nat) (x : Sample), (pipe (.known seqs.length) epoch seqs).1[i]? = some x → x.seqIdx = i ∧ x.epoch = epoch ∧ x.numSeqs = some (seqs.length : Int) ∧ x.frac = ((i : ℝ) + 1) / (seqs.length : ℝ) := by
  unfold pipe
  rw [pipeFrom_known seqs.length epoch seqs 0 (-1) h (by simp) (by simp)]
  refine ⟨rfl, ?_, ?_⟩
  · simp only [List.map_map]
    rw [show (Sample.tag ∘ fun si : Seq × Nat => (⟨si.1.tag, si.2, epoch, some (seqs.length : Int), ((si.2 : ℝ) + 1) / (seqs.length : ℝ)⟩ : Sample)) = Seq.tag ∘ Prod.fst from rfl, ← List.map_map,
      List.zipIdx_map_fst]
  · intro i x hx
    simp only [List.getElem?_map, List.getElem?_zipIdx, Option.map_eq_some_iff] at hx
    obtain ⟨si, ⟨s, _, rfl⟩, rfl⟩ := hx
    simp

theorem pipeFrom_unknown (ns : NumSeqs) (hns : ∀ n, ns ≠ .known n) (epoch : Nat) : ∀ (seqs : List Seq) (i : Nat) (last : ℝ), (∀ s ∈ seqs, s.own = none) →
    pipeFrom ns epoch i last seqs = ((seqs.zipIdx i).map (fun si => ⟨si.1.tag, si.2, epoch, ns.asInt, -1⟩), none) := by
  intro seqs
  induction seqs with
  | nil => intro i last _; rfl
  | cons s t ih =>
    intro i last hown
    have hs : s.own = none := hown s (by simp)
    unfold pipeFrom
    simp only [cachedFrac, hs, lr_unknown ns i hns, checkFrac, ih (i + 1) (-1) (fun x hx => hown x (by simp [hx])), List.zipIdx_cons, List.map_cons]

/-- Without a known number: each sequence once, in order, and -1 for what is not known. -/
theorem pipe_unknown (e : Option Nat) (epoch : Nat) (seqs : List Seq) (h : ∀ s ∈ seqs, s.own = none) :
    (pipe (.unknown e) epoch seqs).2 = none ∧ (pipe (.unknown e) epoch seqs).1.map Sample.tag = seqs.map Seq.tag ∧
    ∀ (i : Nat) (x : Sample), (pipe (.unknown e) epoch seqs).1[i]? = some x → x.seqIdx = i ∧ x.epoch = epoch ∧ x.numSeqs = some (-1) ∧ x.frac = -1 := by
  unfold pipe
  rw [pipeFrom_unknown (.unknown e) (by intro n hn; cases hn) epoch seqs 0 (-1) h]
  refine ⟨rfl, ?_, ?_⟩
  · simp only [List.map_map]
    rw [show (Sample.tag ∘ fun si : Seq × Nat => (⟨si.1.tag, si.2, epoch, NumSeqs.asInt (.unknown e), -1⟩ : Sample)) = Seq.tag ∘ Prod.fst from rfl, ← List.map_map, List.zipIdx_map_fst]
  · intro i x hx
    simp only [List.getElem?_map, List.getElem?_zipIdx, Option.map_eq_some_iff] at hx
    obtain ⟨si, ⟨s, _, rfl⟩, rfl⟩ := hx
    simp [NumSeqs.asInt]

theorem pipeFrom_own (ns : NumSeqs) (epoch : Nat) : ∀ (seqs : List Seq) (fs : List ℝ) (i : Nat) (last : ℝ), seqs.map Seq.own = fs.map some →
    ((pipeFrom ns epoch i last seqs).2 = none ↔ (∀ f ∈ fs, 0 ≤ f ∧ f ≤ 1) ∧ (last :: fs).Pairwise (· ≤ ·)) ∧
    ((pipeFrom ns epoch i last seqs).2 = none → (pipeFrom ns epoch i last seqs).1.map Sample.frac = fs) := by
  intro seqs
  induction seqs with
  | nil =>
    intro fs i last h
    have : fs = [] := by simpa using h.symm
    subst this
    simp [pipeFrom]
  | cons s t ih =>
    intro fs i last h
    cases fs with
    | nil => simp at h
    | cons f fs =>
      simp only [List.map_cons, List.cons.injEq] at h
      obtain ⟨hs, ht⟩ := h
      obtain ⟨h1, h2⟩ := ih fs (i + 1) f ht
      unfold pipeFrom
      simp only [cachedFrac, hs]
      by_cases ha : 0 ≤ f ∧ f ≤ 1
      · by_cases hb : last ≤ f
        · have hc : checkFrac (some f) last = .ok f := by
            simp only [checkFrac]
            rw [if_pos ha, if_pos hb]
          rw [hc]
          simp only
          constructor
          · rw [h1]
            constructor
            · rintro ⟨a1, a2⟩
              refine ⟨?_, ?_⟩
              · intro x hx
                rcases List.mem_cons.1 hx with heq | hx
                · rw [heq]; exact ha
                · exact a1 x hx
              · rw [List.pairwise_cons]
                refine ⟨?_, a2⟩
                intro x hx
                rcases List.mem_cons.1 hx with heq | hx
                · rw [heq]; exact hb
                · exact le_trans hb ((List.pairwise_cons.1 a2).1 x hx)
            · rintro ⟨a1, a2⟩
              exact ⟨fun x hx => a1 x (by simp [hx]), (List.pairwise_cons.1 a2).2⟩
          · intro h3
            simp only [List.map_cons, h2 h3]
        · have hc : checkFrac (some f) last = .error .assertion := by
            simp only [checkFrac]
            rw [if_pos ha, if_neg hb]
          rw [hc]
          simp only
          constructor
          · constructor
            · intro h; cases h
            · rintro ⟨_, a2⟩
              exact absurd ((List.pairwise_cons.1 a2).1 f (by simp)) hb
          · intro h; cases h
      · have hc : checkFrac (some f) last = .error .assertion := by
          simp only [checkFrac]
          rw [if_neg ha]
        rw [hc]
        simp only
        constructor
        · constructor
          · intro h; cases h
          · rintro ⟨a1, _⟩
            exact absurd (a1 f (by simp)) ha
        · intro h; cases h

/-- When each sequence has its own fraction: these are passed on, and it is an error exactly when one is not between 0 and 1 or they go back. -/
theorem pipe_own (ns : NumSeqs) (epoch : Nat) (seqs : List Seq) (fs : List ℝ) (h : seqs.map Seq.own = fs.map some) :
    ((pipe ns epoch seqs).2 = none ↔ (∀ f ∈ fs, 0 ≤ f ∧ f ≤ 1) ∧ fs.Pairwise (· ≤ ·)) ∧ ((pipe ns epoch seqs).2 = none → (pipe ns epoch seqs).1.map Sample.frac = fs) := by
  obtain ⟨h1, h2⟩ := pipeFrom_own ns epoch seqs fs 0 (-1) h
  refine ⟨?_, h2⟩
  unfold pipe
  rw [h1, List.pairwise_cons]
  constructor
  · rintro ⟨a1, _, a2⟩
    exact ⟨a1, a2⟩
  · rintro ⟨a1, a2⟩
    exact ⟨a1, fun x hx => by have := (a1 x hx).1; linarith, a2⟩

/-- When one sequence has no fraction, the next one may go back. -/
theorem gap_not_checked (epoch : Nat) : (pipe (.unknown none) epoch [⟨0, some (1 / 2)⟩, ⟨1, none⟩, ⟨2, some (1 / 4)⟩]).2 = none ∧
    (pipe (.unknown none) epoch [⟨0, some (1 / 2)⟩, ⟨1, none⟩, ⟨2, some (1 / 4)⟩]).1.map Sample.frac = [1 / 2, -1, 1 / 4] := by
  have h1 : checkFrac (some (1 / 2)) (-1) = .ok (1 / 2) := by
    simp only [checkFrac]
    rw [if_pos (by norm_num), if_pos (by norm_num)]
  have h2 : checkFrac (some (1 / 4)) (-1) = .ok (1 / 4) := by
    simp only [checkFrac]
    rw [if_pos (by norm_num), if_pos (by norm_num)]
  have h3 : ∀ last : ℝ, checkFrac none last = .ok (-1) := fun _ => rfl
  unfold pipe
  simp only [pipeFrom, cachedFrac, completeFrac, h1, h2, h3, if_true, List.map_cons, List.map_nil, and_self]

/-! ## Training -/

theorem batchFrac_le (b : Sample × List Sample) (m : ℝ) (h : ∀ s ∈ b.1 :: b.2, s.frac ≤ m) : batchFrac b ≤ m := by
  unfold batchFrac
  have key : ∀ (l : List Sample) (a : ℝ), a ≤ m → (∀ s ∈ l, s.frac ≤ m) → l.foldl (fun m s => max m s.frac) a ≤ m := by
    intro l
    induction l with
    | nil => intro a ha _; exact ha
    | cons x t ih =>
      intro a ha hl
      exact ih _ (max_le ha (hl x (by simp))) (fun s hs => hl s (by simp [hs]))
  exact key _ _ (h _ (by simp)) (fun s hs => h s (by simp [hs]))

theorem le_batchFrac (b : Sample × List Sample) (s : Sample) (h : s ∈ b.1 :: b.2) : s.frac ≤ batchFrac b := by
  unfold batchFrac
  have key : ∀ (l : List Sample) (a : ℝ), a ≤ l.foldl (fun m s => max m s.frac) a ∧ ∀ s ∈ l, s.frac ≤ l.foldl (fun m s => max m s.frac) a := by
    intro l
    induction l with
    | nil => intro a; simp
    | cons x t ih =>
      intro a
      obtain ⟨h1, h2⟩ := ih (max a x.frac)
      refine ⟨le_trans (le_max_left _ _) h1, ?_⟩
      intro s hs
      rcases List.mem_cons.1 hs with heq | hs
      · rw [heq]
        exact le_trans (le_max_right _ _) h1
      · exact h2 s hs
  obtain ⟨h1, h2⟩ := key b.2 b.1.frac
  rcases List.mem_cons.1 h with heq | h
  · rw [heq]; exact h1
  · exact h2 s h

/-- All samples of a list of batches. -/
def samplesOf (bs : List (Sample × List Sample)) : List Sample := (bs.map (fun b => b.1 :: b.2)).flatten

theorem train_known (verbose : Bool) (elapsed : Nat → ℝ) (epoch n : Nat) : ∀ (bs : List (Sample × List Sample)) (step i : Nat), (∀ (j : Nat) (x : Sample), (samplesOf bs)[j]? = some x → x.frac = ((i : ℝ) + j + 1) / (n : ℝ)) →
    i + (samplesOf bs).length = n →
    (trainEpoch verbose elapsed epoch step bs).2 = none ∧
    ∃ ks : List Nat, (trainEpoch verbose elapsed epoch step bs).1 = ks.map (fun k : Nat => some ((epoch : ℝ) - 1 + (k : ℝ) / (n : ℝ))) ∧ (i :: ks).Pairwise (· < ·) ∧ (bs ≠ [] → ks.getLast? = some n) ∧
      ks.length = bs.length := by
  intro bs
  induction bs with
  | nil =>
    intro step i _ _
    exact ⟨rfl, [], rfl, by simp, fun h => absurd rfl h, rfl⟩
  | cons b t ih =>
    intro step i hx hlen
    have hsam : samplesOf (b :: t) = (b.1 :: b.2) ++ samplesOf t := rfl
    have hlen2 : i + ((b.2.length + 1) + (samplesOf t).length) = n := by
      rw [hsam, List.length_append] at hlen
      simpa using hlen
    have hn0 : 0 < n := by omega
    have hn : (0 : ℝ) < (n : ℝ) := by exact_mod_cast hn0
    -- the fraction of the batch
    have hfrac : batchFrac b = ((i + (b.2.length + 1) : Nat) : ℝ) / (n : ℝ) := by
      apply le_antisymm
      · apply batchFrac_le
        intro s hs
        obtain ⟨j, hj, hsj⟩ := List.mem_iff_getElem.1 hs
        have := hx j s (by rw [hsam, List.getElem?_append_left hj, List.getElem?_eq_getElem hj, hsj])
        rw [this]
        apply div_le_div_of_nonneg_right _ hn.le
        simp only [List.length_cons] at hj
        have : (j : ℝ) + 1 ≤ (b.2.length : ℝ) + 1 := by exact_mod_cast hj
        push_cast
        linarith
      · have hj : b.2.length < (b.1 :: b.2).length := by simp
        have := hx b.2.length ((b.1 :: b.2)[b.2.length]) (by rw [hsam, List.getElem?_append_left hj, List.getElem?_eq_getElem hj])
        refine le_trans (le_of_eq ?_) (le_batchFrac b _ (List.getElem_mem hj))
        rw [this]
        push_cast
        ring_nf
    have hpos : 0 < batchFrac b := by
      rw [hfrac]
      have : (0 : ℝ) < ((i + (b.2.length + 1) : Nat) : ℝ) := by exact_mod_cast (by omega : 0 < i + (b.2.length + 1))
      positivity
    have hle : batchFrac b ≤ 1 := by
      rw [hfrac, div_le_one hn]
      exact_mod_cast (by omega : i + (b.2.length + 1) ≤ n)
    have hprint : ∃ r, printProcess verbose (elapsed step) (some (batchFrac b)) = .ok r := by
      unfold printProcess
      cases verbose with
      | false => exact ⟨none, rfl⟩
      | true =>
        simp only [hpos, hle, and_self, if_true]
        exact ⟨_, rfl⟩
    obtain ⟨r, hr⟩ := hprint
    obtain ⟨g1, ks, g2, g3, g4, g5⟩ := ih (step + 1) (i + (b.2.length + 1))
      (by
        intro j x hj
        have := hx ((b.2.length + 1) + j) x (by
          rw [hsam, List.getElem?_append_right (by simp)]
          simpa using hj)
        rw [this]
        push_cast
        ring_nf)
      (by omega)
    unfold trainEpoch
    simp only [hr]
    refine ⟨g1, (i + (b.2.length + 1)) :: ks, ?_, ?_, ?_, by simp [g5]⟩
    · have hc : epochContinuous epoch (batchFrac b) = some ((epoch : ℝ) - 1 + ((i + (b.2.length + 1) : Nat) : ℝ) / (n : ℝ)) := by
        unfold epochContinuous
        rw [if_pos hpos.le, hfrac]
      rw [List.map_cons, g2, hc]
    · rw [List.pairwise_cons]
      refine ⟨?_, g3⟩
      intro k hk
      rcases List.mem_cons.1 hk with heq | hk
      · omega
      · have := (List.pairwise_cons.1 g3).1 k hk
        omega
    · intro _
      cases t with
      | nil =>
        have : ks = [] := by
          apply List.eq_nil_of_length_eq_zero
          simpa using g5
        subst this
        simp only [samplesOf, List.map_nil, List.flatten_nil, List.length_nil] at hlen2
        simp only [List.getLast?_singleton, Option.some.injEq]
        omega
      | cons b2 t2 =>
        have hl := g4 (by simp)
        rw [List.getLast?_cons, hl]
        rfl

/-- Training with a known number of sequences, in any batches: nothing fails, also when progress is printed; the continuous epoch always increases, within the epoch, and is the number of
the epoch at the end. -/
theorem train_progress (verbose : Bool) (elapsed : Nat → ℝ) (epoch : Nat) (seqs : List Seq) (hown : ∀ s ∈ seqs, s.own = none) (hne : seqs ≠ []) (bs : List (Sample × List Sample))
    (hbs : samplesOf bs = (pipe (.known seqs.length) epoch seqs).1) :
    (trainEpoch verbose elapsed epoch 0 bs).2 = none ∧ ∃ xs : List ℝ, (trainEpoch verbose elapsed epoch 0 bs).1 = xs.map some ∧ xs.length = bs.length ∧ xs.Pairwise (· < ·) ∧
      (∀ x ∈ xs, (epoch : ℝ) - 1 < x ∧ x ≤ epoch) ∧ xs.getLast? = some (epoch : ℝ) := by
  obtain ⟨_, htags, hx⟩ := pipe_known epoch seqs hown
  have hlen : (samplesOf bs).length = seqs.length := by
    rw [hbs]
    have := congrArg List.length htags
    simpa using this
  have hn0 : 0 < seqs.length := List.length_pos_iff.2 hne
  have hn : (0 : ℝ) < (seqs.length : ℝ) := by exact_mod_cast hn0
  obtain ⟨h1, ks, h2, h3, h4, h5⟩ := train_known verbose elapsed epoch seqs.length bs 0 0
    (by
      intro j x hj
      rw [hbs] at hj
      rw [(hx j x hj).2.2.2]
      push_cast
      ring_nf)
    (by rw [hlen]; omega)
  have hbne : bs ≠ [] := by
    rintro rfl
    simp [samplesOf] at hlen
    omega
  have hlast := h4 hbne
  have hmax : ∀ k ∈ ks, 0 < k ∧ k ≤ seqs.length := by
    intro k hk
    refine ⟨(List.pairwise_cons.1 h3).1 k hk, ?_⟩
    obtain ⟨ys, rfl⟩ : ∃ ys, ks = ys ++ [seqs.length] := by
      obtain ⟨ys, hys⟩ := List.getLast?_eq_some_iff.1 hlast
      exact ⟨ys, hys⟩
    rcases List.mem_append.1 hk with hk | hk
    · have := (List.pairwise_append.1 (List.pairwise_cons.1 h3).2).2.2 k hk seqs.length (by simp)
      omega
    · simp at hk
      omega
  refine ⟨h1, ks.map (fun k : Nat => (epoch : ℝ) - 1 + (k : ℝ) / (seqs.length : ℝ)), ?_, by simp [h5], ?_, ?_, ?_⟩
  · rw [h2, List.map_map]
    rfl
  · rw [List.pairwise_map]
    apply List.Pairwise.imp _ (List.pairwise_cons.1 h3).2
    intro a b hab
    have : (a : ℝ) / (seqs.length : ℝ) < (b : ℝ) / (seqs.length : ℝ) := by
      apply div_lt_div_of_pos_right _ hn
      exact_mod_cast hab
    linarith
  · intro x hxm
    obtain ⟨k, hk, rfl⟩ := List.mem_map.1 hxm
    obtain ⟨k1, k2⟩ := hmax k hk
    have a1 : (0 : ℝ) < (k : ℝ) / (seqs.length : ℝ) := by
      have : (0 : ℝ) < (k : ℝ) := by exact_mod_cast k1
      positivity
    have a2 : (k : ℝ) / (seqs.length : ℝ) ≤ 1 := by
      rw [div_le_one hn]
      exact_mod_cast k2
    constructor <;> linarith
  · rw [List.getLast?_map, hlast]
    simp only [Option.map_some, Option.some.injEq]
    rw [div_self hn.ne']
    linarith

/-- The remaining time which is printed after `k` of `n` sequences: as if the others take the same time each. -/
theorem remaining_time (elapsed : ℝ) (k n : Nat) (hk : 0 < k) (hkn : k ≤ n) :
    printProcess true elapsed (some ((k : ℝ) / (n : ℝ))) = .ok (some (elapsed / k * (n - k), (k : ℝ) / n * 100)) := by
  have hk' : (0 : ℝ) < (k : ℝ) := by exact_mod_cast hk
  have hn' : (0 : ℝ) < (n : ℝ) := by exact_mod_cast (by omega : 0 < n)
  unfold printProcess
  have h1 : 0 < (k : ℝ) / (n : ℝ) ∧ (k : ℝ) / (n : ℝ) ≤ 1 := ⟨by positivity, by rw [div_le_one hn']; exact_mod_cast hkn⟩
  simp only [if_true, h1, and_self]
  have h2 : elapsed / ((k : ℝ) / (n : ℝ)) - elapsed = elapsed / k * (n - k) := by
    rw [div_div_eq_mul_div, mul_sub, div_mul_cancel₀ _ hk'.ne', div_mul_eq_mul_div]
  rw [h2]

/-- When the number of sequences is not known: the first step of an epoch fails when progress is printed, for any batches. -/
theorem train_unknown_error (elapsed : Nat → ℝ) (epoch : Nat) (e : Option Nat) (seqs : List Seq) (hown : ∀ s ∈ seqs, s.own = none) (b : Sample × List Sample) (bs : List (Sample × List Sample))
    (hbs : samplesOf (b :: bs) = (pipe (.unknown e) epoch seqs).1) : trainEpoch true elapsed epoch 0 (b :: bs) = ([none], some .assertion) := by
  obtain ⟨_, _, hx⟩ := pipe_unknown e epoch seqs hown
  have hall : ∀ s ∈ samplesOf (b :: bs), s.frac = -1 := by
    intro s hs
    rw [hbs] at hs
    obtain ⟨i, hi, rfl⟩ := List.mem_iff_getElem.1 hs
    exact (hx i _ (List.getElem?_eq_getElem hi)).2.2.2
  have hb : batchFrac b = -1 := by
    apply le_antisymm
    · exact batchFrac_le b _ (fun s hs => le_of_eq (hall s (by simp only [samplesOf, List.map_cons, List.flatten_cons, List.mem_append]; exact .inl hs)))
    · rw [← hall b.1 (by simp [samplesOf])]
      exact le_batchFrac b b.1 (by simp)
  have hp : printProcess true (elapsed 0) (some (batchFrac b)) = .error .assertion := by
    unfold printProcess
    simp only [if_true]
    rw [if_neg]
    rw [hb]
    norm_num
  have hc : epochContinuous epoch (batchFrac b) = none := by
    unfold epochContinuous
    rw [if_neg]
    rw [hb]
    norm_num
  unfold trainEpoch
  simp only [hp, hc]

/-- Without printing it works, and there is no continuous epoch. -/
theorem train_unknown (elapsed : Nat → ℝ) (epoch : Nat) (bs : List (Sample × List Sample)) (h : ∀ s ∈ samplesOf bs, s.frac = -1) (step : Nat) :
    trainEpoch false elapsed epoch step bs = (bs.map (fun _ => none), none) := by
  induction bs generalizing step with
  | nil => rfl
  | cons b t ih =>
    have hb : batchFrac b = -1 := by
      apply le_antisymm
      · exact batchFrac_le b _ (fun s hs => le_of_eq (h s (by simp only [samplesOf, List.map_cons, List.flatten_cons, List.mem_append]; exact .inl hs)))
      · rw [← h b.1 (by simp [samplesOf])]
        exact le_batchFrac b b.1 (by simp)
    have hc : epochContinuous epoch (batchFrac b) = none := by
      unfold epochContinuous
      rw [if_neg]
      rw [hb]
      norm_num
    unfold trainEpoch
    have hp : printProcess false (elapsed step) (some (batchFrac b)) = .ok none := rfl
    simp only [hp, hc, ih (fun s hs => h s (by simp only [samplesOf, List.map_cons, List.flatten_cons, List.mem_append] at hs ⊢; exact .inr hs)), List.map_cons]

/-- A fraction of zero is accepted by the data pipe and refused when it is printed. -/
theorem zero_frac (epoch : Nat) (elapsed : ℝ) : (pipe (.unknown none) epoch [⟨0, some 0⟩]).2 = none ∧ (pipe (.unknown none) epoch [⟨0, some 0⟩]).1.map Sample.frac = [0] ∧
    printProcess true elapsed (some 0) = .error .assertion := by
  obtain ⟨h1, h2⟩ := pipe_own (.unknown none) epoch [⟨0, some 0⟩] [0] rfl
  have h3 := h1.2 ⟨by simp, by simp⟩
  refine ⟨h3, h2 h3, ?_⟩
  unfold printProcess
  simp

/-- A user function gets the same continuous epoch as the engine when the number is known, and none otherwise. -/
theorem user_function (s : Sample) (h : 0 ≤ s.frac ∨ s.numSeqs = some (-1) ∨ s.numSeqs = none) : userEpochContinuous s = epochContinuous s.epoch s.frac := by
  unfold userEpochContinuous epochContinuous
  by_cases h0 : 0 ≤ s.frac
  · rw [if_pos h0, if_pos h0]
  · rw [if_neg h0, if_neg h0]
    rcases h with h | h | h
    · exact absurd h h0
    · rw [h]
      simp
    · rw [h]

/-- Otherwise a user function gets it from the index, if the number is known. -/
theorem user_function_index (s : Sample) (n : Nat) (h : s.frac < 0) (hn : s.numSeqs = some (n : Int)) (hpos : 0 < n) :
    userEpochContinuous s = some ((s.epoch : ℝ) - 1 + ((s.seqIdx : ℝ) + 1) / (n : ℝ)) := by
  unfold userEpochContinuous
  rw [if_neg (not_le.2 h), hn]
  simp [hpos]

/-! ## Several processes -/

theorem fixUp_spec : ∀ (l : List ℝ) (cur : ℝ), ∃ r, fixUp cur (l.map some) = .ok r ∧ r.length = l.length ∧ (cur :: r).Pairwise (· ≤ ·) ∧ (∀ (i : Nat) (x y : ℝ), l[i]? = some x → r[i]? = some y → x ≤ y) ∧
    ∀ m, cur ≤ m → (∀ x ∈ l, x ≤ m) → ∀ y ∈ r, y ≤ m := by
  intro l
  induction l with
  | nil => intro cur; exact ⟨[], rfl, rfl, by simp, by simp, by simp⟩
  | cons a t ih =>
    intro cur
    obtain ⟨r, h1, h2, h3, h4, h5⟩ := ih (max a cur)
    refine ⟨max a cur :: r, ?_, by simp [h2], ?_, ?_, ?_⟩
    · simp only [List.map_cons, fixUp, h1, bind, Except.bind]
    · rw [List.pairwise_cons]
      refine ⟨?_, h3⟩
      intro x hx
      rcases List.mem_cons.1 hx with heq | hx
      · rw [heq]; exact le_max_right _ _
      · exact le_trans (le_max_right _ _) ((List.pairwise_cons.1 h3).1 x hx)
    · intro i x y hx hy
      cases i with
      | zero =>
        simp only [List.getElem?_cons_zero, Option.some.injEq] at hx hy
        rw [← hx, ← hy]
        exact le_max_left _ _
      | succ i => exact h4 i x y (by simpa using hx) (by simpa using hy)
    · intro m hm hall y hy
      have hmm : max a cur ≤ m := max_le (hall a (by simp)) hm
      rcases List.mem_cons.1 hy with heq | hy
      · rw [heq]; exact hmm
      · exact h5 m hmm (fun x hx => hall x (by simp [hx])) y hy

/-- The fractions of several processes, in any order: after the correction they never go back, so that the data pipe takes them. -/
theorem multi_proc (ns : NumSeqs) (epoch : Nat) (fs : List ℝ) (h : ∀ f ∈ fs, 0 ≤ f ∧ f ≤ 1) (tags : List Nat) (ht : tags.length = fs.length) :
    ∃ r, fixUp 0 (fs.map some) = .ok r ∧ r.length = fs.length ∧ r.Pairwise (· ≤ ·) ∧ (∀ f ∈ r, 0 ≤ f ∧ f ≤ 1) ∧ (∀ (i : Nat) (x y : ℝ), fs[i]? = some x → r[i]? = some y → x ≤ y) ∧
      (pipe ns epoch ((tags.zip r).map (fun tr => ⟨tr.1, some tr.2⟩))).2 = none := by
  obtain ⟨r, h1, h2, h3, h4, h5⟩ := fixUp_spec fs 0
  have hr : ∀ f ∈ r, 0 ≤ f ∧ f ≤ 1 := by
    intro f hf
    exact ⟨(List.pairwise_cons.1 h3).1 f hf, h5 1 (by norm_num) (fun x hx => (h x hx).2) f hf⟩
  refine ⟨r, h1, h2, (List.pairwise_cons.1 h3).2, hr, h4, ?_⟩
  apply (pipe_own ns epoch _ r ?_).1.2 ⟨hr, (List.pairwise_cons.1 h3).2⟩
  rw [List.map_map]
  rw [show (Seq.own ∘ fun tr : Nat × ℝ => (⟨tr.1, some tr.2⟩ : Seq)) = some ∘ Prod.snd from rfl, ← List.map_map, List.map_snd_zip]
  rw [ht, h2]

/-- When the datasets in the processes do not know their number of sequences, the first sequence is an error. -/
theorem multi_proc_unknown_error (fs : List (Option ℝ)) (cur : ℝ) : fixUp cur (none :: fs) = .error .typeError := rfl

/-! ## Examples -/

/-- Three sequences. -/
noncomputable def exSeqs : List Seq := [⟨7, none⟩, ⟨8, none⟩, ⟨9, none⟩]

/-- Batches of two and one, as needed by `train_progress` and `train_unknown_error`. -/
example : ∃ bs, samplesOf bs = (pipe (.known exSeqs.length) 4 exSeqs).1 ∧ bs.length = 2 := by
  unfold pipe
  rw [pipeFrom_known exSeqs.length 4 exSeqs 0 (-1) (by simp [exSeqs]) (by simp) (by simp)]
  exact ⟨[(_, [_]), (_, [])], rfl, rfl⟩

example : ∃ b bs, samplesOf (b :: bs) = (pipe (.unknown none) 4 exSeqs).1 ∧ bs.length = 1 := by
  unfold pipe
  rw [pipeFrom_unknown (.unknown none) (by intro n hn; cases hn) 4 exSeqs 0 (-1) (by simp [exSeqs])]
  exact ⟨(_, [_]), [(_, [])], rfl, rfl⟩

/-- Two processes, whose fractions go back by a bit. -/
example : fixUp 0 [some (1 / 3), some (1 / 4), some (2 / 3), some (3 / 4)] = .ok [1 / 3, 1 / 3, 2 / 3, 3 / 4] := by
  norm_num [fixUp, bind, Except.bind]

end Verif.EpochFrac
