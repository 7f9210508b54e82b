import Verif.Bleu.Model
import Verif.Bleu.Spec
import Mathlib.Algebra.BigOperators.Group.Finset.Basic
import Mathlib.Algebra.Order.BigOperators.Group.Finset
import Mathlib.Data.List.Count
import Mathlib.Data.Multiset.Count
import Mathlib.Algebra.BigOperators.Group.Finset.Lemmas
/-
Lemmas for BLEU: what the counters and loops count.
-/
namespace Verif.Bleu
open Verif Verif.Py

variable {τ : Type} [DecidableEq τ]

theorem window_length (s : List τ) (n : Nat) (hn : 0 < n) (g : List τ) (h : g ∈ Spec.windows s n) : g.length = n := by
  simp only [Spec.windows, List.mem_map, List.mem_range] at h
  obtain ⟨i, hi, rfl⟩ := h
  simp only [List.length_take, List.length_drop]; omega

theorem ngrams_succ (s : List τ) (N : Nat) : ngrams s (N + 1) = ngrams s N ++ Spec.windows s (N + 1) := by
  simp [ngrams, Spec.windows, List.range_succ, List.flatMap_append]

theorem ngrams_filter (s : List τ) (N n : Nat) (hn : 0 < n) :
    (ngrams s N).filter (fun g => decide (g.length = n)) = if n ≤ N then Spec.windows s n else [] := by
  induction N with
  | zero => simp [ngrams]; omega
  | succ N ih =>
    rw [ngrams_succ, List.filter_append, ih]
    by_cases h : n = N + 1
    · subst h
      rw [if_neg (by omega), if_pos (le_refl _), List.nil_append, List.filter_eq_self]
      intro g hg; simpa using window_length s (N + 1) (by omega) g hg
    · have : (Spec.windows s (N + 1)).filter (fun g => decide (g.length = n)) = [] := by
        rw [List.filter_eq_nil_iff]
        intro g hg
        rw [window_length s (N + 1) (by omega) g hg]
        simpa using fun e => h e.symm
      rw [this, List.append_nil]
      by_cases h2 : n ≤ N
      · rw [if_pos h2, if_pos (by omega)]
      · rw [if_neg h2, if_neg (by omega)]

theorem ngrams_pos (s : List τ) (N : Nat) (g : List τ) (h : g ∈ ngrams s N) : 0 < g.length ∧ g.length ≤ N := by
  induction N with
  | zero => simp [ngrams] at h
  | succ N ih =>
    rw [ngrams_succ, List.mem_append] at h
    rcases h with h | h
    · have := ih h; omega
    · rw [window_length s (N + 1) (by omega) g h]; omega

theorem count_ngrams (s : List τ) (N : Nat) (g : List τ) (h0 : 0 < g.length) (h1 : g.length ≤ N) : (ngrams s N).count g = Spec.occ s g := by
  have h := ngrams_filter s N g.length h0
  rw [if_pos h1] at h
  unfold Spec.occ
  rw [← h, List.count_filter (by simp)]

/-- What a counter over a list contains. -/
theorem counter_spec (l : List (List τ)) (d : Dict (List τ) Nat) (hw : d.Wf) :
    (l.foldl count1 d).Wf ∧ ∀ g, ((l.foldl count1 d).get? g).getD 0 = (d.get? g).getD 0 + l.count g ∧ (g ∈ (l.foldl count1 d).keys ↔ g ∈ d.keys ∨ g ∈ l) := by
  induction l generalizing d with
  | nil => exact ⟨hw, fun g => ⟨by simp, by simp⟩⟩
  | cons x t ih =>
    obtain ⟨h1, h2⟩ := ih (count1 d x) (Dict.wf_set hw _ _)
    refine ⟨h1, fun g => ⟨?_, ?_⟩⟩
    · rw [List.foldl_cons, (h2 g).1]
      simp only [count1, Dict.get?_set, List.count_cons]
      by_cases hx : x = g
      · subst hx; simp; omega
      · simp [hx]
    · rw [List.foldl_cons, (h2 g).2]
      simp only [count1, Dict.keys_set]
      by_cases hx : x ∈ d.keys
      · rw [if_pos hx, List.mem_cons]
        constructor
        · rintro (h | h)
          · exact Or.inl h
          · exact Or.inr (Or.inr h)
        · rintro (h | rfl | h)
          · exact Or.inl h
          · exact Or.inl hx
          · exact Or.inr h
      · rw [if_neg hx, List.mem_append, List.mem_singleton, List.mem_cons, or_assoc]

theorem getNgrams_spec (s : List τ) (N : Nat) :
    (getNgrams s N).Wf ∧ ∀ g, ((getNgrams s N).get? g).getD 0 = (ngrams s N).count g ∧ (g ∈ (getNgrams s N).keys ↔ g ∈ ngrams s N) := by
  obtain ⟨h1, h2⟩ := counter_spec (ngrams s N) [] (by simp [Dict.Wf, Dict.keys])
  refine ⟨h1, fun g => ⟨?_, ?_⟩⟩
  · have h := (h2 g).1; simp only [Dict.get?, Option.getD_none, Nat.zero_add] at h; exact h
  · have h := (h2 g).2; simp only [Dict.keys, List.map_nil, List.not_mem_nil, false_or] at h; exact h

theorem addCounts_get (d : Dict (List τ) Nat) (m : List Nat) (k : Nat) :
    (addCounts d m)[k]? = (m[k]?).map fun c => c + ((d.filter fun p => decide (p.1.length - 1 = k)).map Prod.snd).sum := by
  unfold addCounts
  induction d generalizing m with
  | nil => simp
  | cons p t ih =>
    rw [List.foldl_cons, ih, List.getElem?_modify]
    by_cases h : p.1.length - 1 = k
    · rw [List.filter_cons_of_pos (by simpa using h)]
      subst h
      cases m[p.1.length - 1]? <;> simp [Nat.add_assoc]
    · rw [List.filter_cons_of_neg (by simpa using h)]
      cases m[k]? <;> simp [h]

theorem addCounts_length (d : Dict (List τ) Nat) (m : List Nat) : (addCounts d m).length = m.length := by
  unfold addCounts
  induction d generalizing m with
  | nil => rfl
  | cons p t ih => rw [List.foldl_cons, ih, List.length_modify]

/-- The sum over the entries of a dict of one order, as a sum over the distinct n-grams. -/
theorem entries_sum (d : Dict (List τ) Nat) (hw : d.Wf) (f : List τ → Nat → Nat) (n : Nat) (S : Finset (List τ))
    (hS : ∀ g, g ∈ S ↔ g ∈ d.keys ∧ g.length - 1 = n) :
    (((d.map fun p => (p.1, f p.1 p.2)).filter fun p => decide (p.1.length - 1 = n)).map Prod.snd).sum = ∑ g ∈ S, f g ((d.get? g).getD 0) := by
  have hS' : S = ((d.filter fun p => decide (p.1.length - 1 = n)).map Prod.fst).toFinset := by
    ext g
    rw [hS]
    simp only [List.mem_toFinset, List.mem_map, List.mem_filter, Dict.keys, decide_eq_true_eq]
    constructor
    · rintro ⟨⟨p, hp, rfl⟩, h⟩; exact ⟨p, ⟨hp, h⟩, rfl⟩
    · rintro ⟨p, ⟨hp, h⟩, rfl⟩; exact ⟨⟨p, hp, rfl⟩, h⟩
  have hnd : ((d.filter fun p => decide (p.1.length - 1 = n)).map Prod.fst).Nodup :=
    List.Nodup.sublist (List.filter_sublist.map Prod.fst) hw
  rw [hS', List.sum_toFinset _ hnd, List.filter_map, List.map_map, List.map_map]
  congr 1
  apply List.map_congr_left
  intro p hp
  have hp' : p ∈ d := (List.mem_filter.1 hp).1
  have := Dict.get?_of_mem hw (k := p.1) (v := p.2) hp'
  simp [this]

theorem pair_matched (N n : Nat) (hn : n < N) (ref tr : List τ) :
    (((overlap (getNgrams ref N) (getNgrams tr N)).filter fun p => decide (p.1.length - 1 = n)).map Prod.snd).sum = Spec.clipped (n + 1) ref tr := by
  obtain ⟨hw, hr⟩ := getNgrams_spec ref N
  have ht := (getNgrams_spec tr N).2
  unfold overlap
  rw [entries_sum (getNgrams ref N) hw (fun g c => min c (((getNgrams tr N).get? g).getD 0)) n (Spec.windows ref (n + 1)).toFinset]
  · unfold Spec.clipped
    apply Finset.sum_congr rfl
    intro g hg
    have hl := window_length ref (n + 1) (by omega) g (List.mem_toFinset.1 hg)
    rw [(hr g).1, (ht g).1, count_ngrams ref N g (by omega) (by omega), count_ngrams tr N g (by omega) (by omega)]
  · intro g
    rw [List.mem_toFinset, (hr g).2]
    have hf := ngrams_filter ref N (n + 1) (by omega)
    rw [if_pos (by omega)] at hf
    rw [← hf, List.mem_filter, decide_eq_true_eq]
    constructor
    · rintro ⟨h1, h2⟩; exact ⟨h1, by omega⟩
    · rintro ⟨h1, h2⟩; have := ngrams_pos ref N g h1; exact ⟨h1, by omega⟩

theorem windows_count_sum (s : List τ) (n : Nat) (hn : 0 < n) : ∑ g ∈ (Spec.windows s n).toFinset, Spec.occ s g = s.length + 1 - n := by
  have h1 : ∑ g ∈ (Spec.windows s n).toFinset, Spec.occ s g = ∑ g ∈ (Spec.windows s n).toFinset, (Spec.windows s n).count g := by
    apply Finset.sum_congr rfl
    intro g hg
    unfold Spec.occ
    rw [window_length s n hn g (List.mem_toFinset.1 hg)]
  have h2 : ∑ g ∈ (Spec.windows s n).toFinset, (Spec.windows s n).count g = (Spec.windows s n).length := by
    have h := List.sum_toFinset_count_eq_length (Spec.windows s n)
    have e : (instBEqOfDecidableEq : BEq (List τ)) = List.instBEq := by
      apply lawful_beq_subsingleton
    rw [e] at h
    exact h
  rw [h1, h2]
  simp [Spec.windows]

theorem pair_possible (N n : Nat) (hn : n < N) (tr : List τ) :
    (((getNgrams tr N).filter fun p => decide (p.1.length - 1 = n)).map Prod.snd).sum = tr.length + 1 - (n + 1) := by
  obtain ⟨hw, hr⟩ := getNgrams_spec tr N
  have h := entries_sum (getNgrams tr N) hw (fun _ c => c) n (Spec.windows tr (n + 1)).toFinset (by
    intro g
    rw [List.mem_toFinset, (hr g).2]
    have hf := ngrams_filter tr N (n + 1) (by omega)
    rw [if_pos (by omega)] at hf
    rw [← hf, List.mem_filter, decide_eq_true_eq]
    constructor
    · rintro ⟨h1, h2⟩; exact ⟨h1, by omega⟩
    · rintro ⟨h1, h2⟩; have := ngrams_pos tr N g h1; exact ⟨h1, by omega⟩)
  rw [List.map_congr_left (g := id) (by intro p _; rfl), List.map_id] at h
  rw [h, ← windows_count_sum tr (n + 1) (by omega)]
  apply Finset.sum_congr rfl
  intro g hg
  have hl := window_length tr (n + 1) (by omega) g (List.mem_toFinset.1 hg)
  rw [(hr g).1, count_ngrams tr N g (by omega) (by omega)]

/-- What the loop over the corpus has summed up. -/
theorem fold_spec (N : Nat) (pairs : List (List τ × List τ)) (a : Acc) (hm : a.matched.length = N) (hp : a.possible.length = N) :
    (pairs.foldl (pairStep N) a).refLen = a.refLen + (pairs.map fun p => p.1.length).sum ∧
    (pairs.foldl (pairStep N) a).trLen = a.trLen + (pairs.map fun p => p.2.length).sum ∧
    (pairs.foldl (pairStep N) a).matched.length = N ∧ (pairs.foldl (pairStep N) a).possible.length = N ∧
    ∀ n, n < N → (pairs.foldl (pairStep N) a).matched[n]? = (a.matched[n]?).map (fun c => c + Spec.matched (n + 1) pairs) ∧
      (pairs.foldl (pairStep N) a).possible[n]? = (a.possible[n]?).map (fun c => c + Spec.possible (n + 1) pairs) := by
  induction pairs generalizing a with
  | nil => simp [Spec.matched, Spec.possible, hm, hp]
  | cons p t ih =>
    obtain ⟨h1, h2, h3, h4, h5⟩ := ih (pairStep N a p) (by simp [pairStep, addCounts_length, hm]) (by simp [pairStep, addCounts_length, hp])
    rw [List.foldl_cons]
    refine ⟨?_, ?_, h3, h4, ?_⟩
    · rw [h1]; simp [pairStep, Nat.add_assoc]
    · rw [h2]; simp [pairStep, Nat.add_assoc]
    · intro n hn
      obtain ⟨h6, h7⟩ := h5 n hn
      rw [h6, h7]
      simp only [pairStep, addCounts_get, pair_matched N n hn, pair_possible N n hn, Option.map_map]
      constructor
      · cases a.matched[n]? <;> simp [Spec.matched, Nat.add_assoc]
      · cases a.possible[n]? <;> simp [Spec.possible, Nat.add_assoc]

theorem clipped_le (n : Nat) (hn : 0 < n) (ref tr : List τ) : Spec.clipped n ref tr ≤ tr.length + 1 - n := by
  rw [← windows_count_sum tr n hn]
  unfold Spec.clipped
  have h1 : ∑ g ∈ (Spec.windows ref n).toFinset, min (Spec.occ ref g) (Spec.occ tr g) ≤ ∑ g ∈ (Spec.windows ref n).toFinset, Spec.occ tr g :=
    Finset.sum_le_sum fun g _ => Nat.min_le_right _ _
  refine h1.trans ?_
  rw [← Finset.sum_filter_add_sum_filter_not (Spec.windows ref n).toFinset (fun g => g ∈ (Spec.windows tr n).toFinset)]
  have h2 : ∑ g ∈ (Spec.windows ref n).toFinset.filter (fun g => g ∉ (Spec.windows tr n).toFinset), Spec.occ tr g = 0 := by
    apply Finset.sum_eq_zero
    intro g hg
    rw [Finset.mem_filter] at hg
    unfold Spec.occ
    rw [window_length ref n hn g (List.mem_toFinset.1 hg.1)]
    exact List.count_eq_zero_of_not_mem fun hc => hg.2 (List.mem_toFinset.2 hc)
  rw [h2, Nat.add_zero]
  apply Finset.sum_le_sum_of_subset
  intro g hg
  exact (Finset.mem_filter.1 hg).2

theorem matched_le (n : Nat) (hn : 0 < n) (pairs : List (List τ × List τ)) : Spec.matched n pairs ≤ Spec.possible n pairs := by
  unfold Spec.matched Spec.possible
  induction pairs with
  | nil => simp
  | cons p t ih => simp only [List.map_cons, List.sum_cons]; exact Nat.add_le_add (clipped_le n hn p.1 p.2) ih

theorem clipped_self (n : Nat) (hn : 0 < n) (s : List τ) : Spec.clipped n s s = s.length + 1 - n := by
  unfold Spec.clipped
  simp only [Nat.min_self]
  exact windows_count_sum s n hn

end Verif.Bleu
