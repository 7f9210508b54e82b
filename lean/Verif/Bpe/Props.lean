import Verif.Bpe.Spec
import Mathlib.Data.List.Basic
import Mathlib.Data.List.Infix
import Mathlib.Data.List.Forall2
import Mathlib.Tactic.Push
/-
C36: byte pair encoding is lossless.
-/
namespace Verif.Bpe
open Verif.Py

/-! ### The codes -/

theorem get?_foldl_set {K V : Type} [DecidableEq K] (l : List (K × V)) : ∀ (d : Dict K V) (k : K) (v : V),
    (l.foldl (fun d p => d.set p.1 p.2) d).get? k = some v → (k, v) ∈ l ∨ d.get? k = some v := by
  induction l with
  | nil => intro d k v h; exact Or.inr h
  | cons a l ih =>
    intro d k v h
    rcases ih _ k v h with h | h
    · exact Or.inl (by simp [h])
    · rw [Dict.get?_set] at h
      split at h
      · rename_i hk
        injection h with h
        exact Or.inl (by simp [← hk, ← h])
      · exact Or.inr h

theorem get?_foldl_set_last {K V : Type} [DecidableEq K] (l : List (K × V)) (d : Dict K V) (k : K) (v : V)
    (pre post : List (K × V)) (hl : l = pre ++ (k, v) :: post) (hp : ∀ p ∈ post, p.1 ≠ k) :
    (l.foldl (fun d p => d.set p.1 p.2) d).get? k = some v := by
  have hstay : ∀ (post : List (K × V)) (d : Dict K V), (∀ p ∈ post, p.1 ≠ k) →
      (post.foldl (fun d p => d.set p.1 p.2) d).get? k = d.get? k := by
    intro post
    induction post with
    | nil => intro d _; rfl
    | cons a post ih =>
      intro d h
      rw [List.foldl_cons, ih _ (fun p hp => h p (by simp [hp])), Dict.get?_set, if_neg (h a (by simp))]
  rw [hl, List.foldl_append, List.foldl_cons, hstay _ _ hp, Dict.get?_set, if_pos rfl]

/-- The index of a pair is the first one. -/
theorem loadCodes_some {lines : List (Str × Str)} {p : Str × Str} {i : Nat} (h : (loadCodes lines).get? p = some i) :
    lines[i]? = some p ∧ ∀ j, lines[j]? = some p → i ≤ j := by
  unfold loadCodes at h
  have hmem : (p, i) ∈ lines.zipIdx := by
    rcases get?_foldl_set _ _ _ _ h with h | h
    · simpa using h
    · simp [Dict.get?] at h
  have hi : lines[i]? = some p := by
    have := List.mem_zipIdx_iff_getElem?.1 hmem
    simpa using this
  refine ⟨hi, fun j hj => ?_⟩
  by_contra hlt
  -- the first index of `p`
  have hpl : p ∈ lines := List.mem_of_getElem? hj
  let k := lines.idxOf p
  have hk : k < lines.length := List.idxOf_lt_length_of_mem hpl
  have hkp : lines[k]? = some p := by
    rw [List.getElem?_eq_getElem hk]; simp [k]
  have hkj : k ≤ j := by
    by_contra hc
    push Not at hc
    have hne := List.not_of_lt_findIdx (p := fun x => x == p) (xs := lines) (i := j) (by
      have : lines.findIdx (fun x => x == p) = k := rfl
      rw [this]; exact hc)
    have hjl : j < lines.length := by omega
    rw [List.getElem?_eq_getElem hjl] at hj
    injection hj with hj
    rw [hj] at hne
    simp at hne
  have hk2 := get?_foldl_set_last lines.zipIdx.reverse [] p k
    ((lines.zipIdx.drop (k + 1)).reverse) ((lines.zipIdx.take k).reverse) (by
      have hsplit : lines.zipIdx = lines.zipIdx.take k ++ (p, k) :: lines.zipIdx.drop (k + 1) := by
        have hlen : k < lines.zipIdx.length := by simpa using hk
        have hd : lines.zipIdx.drop k = (p, k) :: lines.zipIdx.drop (k + 1) := by
          rw [List.drop_eq_getElem_cons hlen]
          congr 1
          have : lines[k] = p := by
            rw [List.getElem?_eq_getElem hk] at hkp; injection hkp
          simp [this]
        rw [← hd, List.take_append_drop]
      conv_lhs => rw [hsplit]
      simp) (by
      intro q hq
      rw [List.mem_reverse] at hq
      intro hqp
      obtain ⟨n, hn, hqn⟩ := List.mem_take_iff_getElem.1 hq
      have hn' : n < k := by omega
      have hne := List.not_of_lt_findIdx (p := fun x => x == p) (xs := lines) (i := n) hn'
      have : q.1 = lines[n]'(by omega) := by rw [← hqn]; simp
      rw [this] at hqp
      rw [hqp] at hne
      simp at hne)
  rw [hk2] at h
  injection h with h
  omega

theorem loadCodes_none {lines : List (Str × Str)} {p : Str × Str} : (loadCodes lines).get? p = none ↔ p ∉ lines := by
  constructor
  · intro h hp
    unfold loadCodes at h
    have hkeys : ∀ (l : List ((Str × Str) × Nat)) (d : Dict (Str × Str) Nat),
        (d.get? p ≠ none ∨ ∃ q ∈ l, q.1 = p) → (l.foldl (fun d p => d.set p.1 p.2) d).get? p ≠ none := by
      intro l
      induction l with
      | nil => intro d h; simpa using h
      | cons a l ih =>
        intro d h
        rw [List.foldl_cons]
        apply ih
        by_cases ha : a.1 = p
        · left; rw [Dict.get?_set, if_pos ha]; simp
        · rcases h with h | ⟨q, hq, hqp⟩
          · left; rw [Dict.get?_set, if_neg ha]; exact h
          · rcases List.mem_cons.1 hq with rfl | hq
            · exact absurd hqp ha
            · right; exact ⟨q, hq, hqp⟩
    refine hkeys lines.zipIdx.reverse [] (Or.inr ?_) h
    obtain ⟨i, hi⟩ := List.mem_iff_getElem?.1 hp
    exact ⟨(p, i), by rw [List.mem_reverse]; exact List.mem_zipIdx_iff_getElem?.2 (by simpa using hi), rfl⟩
  · intro hp
    cases h : (loadCodes lines).get? p with
    | none => rfl
    | some i => exact absurd (List.mem_of_getElem? (loadCodes_some h).1) hp

theorem loadRev_some {lines : List (Str × Str)} {s : Str} {p : Str × Str}
    (h : (loadRev (loadCodes lines)).get? s = some p) : p ∈ lines ∧ p.1 ++ p.2 = s := by
  unfold loadRev at h
  have key : ∀ (l : Dict (Str × Str) Nat) (d : Dict Str (Str × Str)),
      (l.foldl (fun d p => Dict.set d (p.1.1 ++ p.1.2) p.1) d).get? s = some p →
      (p ∈ l.keys ∧ p.1 ++ p.2 = s) ∨ d.get? s = some p := by
    intro l
    induction l with
    | nil => intro d h; exact Or.inr h
    | cons a l ih =>
      intro d h
      rcases ih _ h with h | h
      · exact Or.inl ⟨by simp [Dict.keys] at h ⊢; exact Or.inr h.1, h.2⟩
      · rw [Dict.get?_set] at h
        split at h
        · rename_i hk
          injection h with h
          subst h
          exact Or.inl ⟨by simp [Dict.keys], hk⟩
        · exact Or.inr h
  rcases key _ _ h with ⟨h1, h2⟩ | h
  · refine ⟨?_, h2⟩
    by_contra hp
    exact (Dict.get?_eq_none _ _).1 (loadCodes_none.2 hp) h1
  · simp [Dict.get?] at h

theorem loadRev_none {lines : List (Str × Str)} {s : Str} (h : (loadRev (loadCodes lines)).get? s = none) :
    Atomic lines s := by
  intro p hp hs
  have hk : p ∈ (loadCodes lines).keys := by
    by_contra hk
    exact (loadCodes_none.1 ((Dict.get?_eq_none _ _).2 hk)) hp
  unfold loadRev at h
  have key : ∀ (l : Dict (Str × Str) Nat) (d : Dict Str (Str × Str)), (d.get? s ≠ none ∨ p ∈ l.keys) →
      (l.foldl (fun d p => Dict.set d (p.1.1 ++ p.1.2) p.1) d).get? s ≠ none := by
    intro l
    induction l with
    | nil => intro d h; simpa [Dict.keys] using h
    | cons a l ih =>
      intro d h
      rw [List.foldl_cons]
      apply ih
      by_cases ha : a.1.1 ++ a.1.2 = s
      · left; rw [Dict.get?_set, if_pos ha]; simp
      · rcases h with h | h
        · left; rw [Dict.get?_set, if_neg ha]; exact h
        · simp only [Dict.keys, List.map_cons, List.mem_cons] at h
          rcases h with h | h
          · exact absurd (by rw [← h]; exact hs) ha
          · exact Or.inr h
  exact key _ _ (Or.inr hk) h

/-! ### The merges -/

theorem mem_pairs (w : List Str) (a b : Str) : (a, b) ∈ pairs w ↔ Adj w a b := by
  unfold pairs Adj
  induction w with
  | nil => simp
  | cons x w ih =>
    cases w with
    | nil =>
      simp only [List.tail_cons, List.zip_nil_right, List.not_mem_nil, false_iff]
      rintro ⟨pre, post, h⟩
      have := congrArg List.length h
      simp at this; omega
    | cons y w =>
      simp only [List.tail_cons, List.zip_cons_cons, List.mem_cons] at ih ⊢
      constructor
      · rintro (h | h)
        · injection h with h1 h2
          exact ⟨[], w, by simp [h1, h2]⟩
        · obtain ⟨pre, post, hw⟩ := ih.1 h
          exact ⟨x :: pre, post, by rw [hw]; rfl⟩
      · rintro ⟨pre, post, hw⟩
        cases pre with
        | nil => left; simp at hw; rw [hw.1, hw.2.1]
        | cons z pre =>
          right
          rw [List.cons_append] at hw
          injection hw with _ hw
          exact ih.2 ⟨pre, post, hw⟩

/-- The step of `bestPair`. -/
def bestStep (codes : Dict (Str × Str) Nat) (b : Option (Nat × (Str × Str))) (p : Str × Str) : Option (Nat × (Str × Str)) :=
  match codes.get? p, b with
  | none, _ => b
  | some i, none => some (i, p)
  | some i, some (j, q) => if i < j then some (i, p) else some (j, q)

theorem best_fold (codes : Dict (Str × Str) Nat) (l : List (Str × Str)) : ∀ b : Option (Nat × (Str × Str)),
    (l.foldl (bestStep codes) b = none ↔ b = none ∧ ∀ p ∈ l, codes.get? p = none) ∧
    ∀ i p, l.foldl (bestStep codes) b = some (i, p) →
      ((p ∈ l ∧ codes.get? p = some i) ∨ b = some (i, p)) ∧
      (∀ q ∈ l, ∀ j, codes.get? q = some j → i ≤ j) ∧ (∀ j q, b = some (j, q) → i ≤ j) := by
  induction l with
  | nil =>
    intro b
    refine ⟨by simp, fun i p h => ?_⟩
    rw [List.foldl_nil] at h
    exact ⟨Or.inr h, by simp, fun j q hb => by rw [h] at hb; injection hb with hb; injection hb with hb; omega⟩
  | cons a l ih =>
    intro b
    rw [List.foldl_cons]
    obtain ⟨h1, h2⟩ := ih (bestStep codes b a)
    constructor
    · rw [h1]
      constructor
      · rintro ⟨hb, hl⟩
        unfold bestStep at hb
        cases ha : codes.get? a with
        | none =>
          rw [ha] at hb
          exact ⟨hb, fun p hp => by rcases List.mem_cons.1 hp with rfl | hp; exacts [ha, hl p hp]⟩
        | some i =>
          rw [ha] at hb
          cases hbb : b with
          | none => rw [hbb] at hb; cases hb
          | some x =>
            rw [hbb] at hb
            simp only at hb
            split at hb <;> cases hb
      · rintro ⟨rfl, hl⟩
        refine ⟨?_, fun p hp => hl p (by simp [hp])⟩
        unfold bestStep
        rw [hl a (by simp)]
    · intro i p h
      obtain ⟨h3, h4, h5⟩ := h2 i p h
      unfold bestStep at h3 h5
      cases ha : codes.get? a with
      | none =>
        rw [ha] at h3 h5
        refine ⟨?_, ?_, h5⟩
        · rcases h3 with h3 | h3
          · exact Or.inl ⟨by simp [h3.1], h3.2⟩
          · exact Or.inr h3
        · intro q hq j hj
          rcases List.mem_cons.1 hq with rfl | hq
          · rw [ha] at hj; cases hj
          · exact h4 q hq j hj
      | some k =>
        rw [ha] at h3 h5
        cases hb : b with
        | none =>
          rw [hb] at h3 h5
          simp only at h3 h5
          have hik := h5 k a rfl
          refine ⟨?_, ?_, by simp⟩
          · rcases h3 with h3 | h3
            · exact Or.inl ⟨by simp [h3.1], h3.2⟩
            · injection h3 with h3; injection h3 with h3 h3'
              exact Or.inl ⟨by simp [h3'], by rw [← h3', ha, h3]⟩
          · intro q hq j hj
            rcases List.mem_cons.1 hq with rfl | hq
            · rw [ha] at hj; injection hj with hj; omega
            · exact h4 q hq j hj
        | some x =>
          obtain ⟨j0, q0⟩ := x
          rw [hb] at h3 h5
          simp only at h3 h5
          by_cases hlt : k < j0
          · rw [if_pos hlt] at h3 h5
            have hik := h5 k a rfl
            refine ⟨?_, ?_, ?_⟩
            · rcases h3 with h3 | h3
              · exact Or.inl ⟨by simp [h3.1], h3.2⟩
              · injection h3 with h3; injection h3 with h3 h3'
                exact Or.inl ⟨by simp [h3'], by rw [← h3', ha, h3]⟩
            · intro q hq j hj
              rcases List.mem_cons.1 hq with rfl | hq
              · rw [ha] at hj; injection hj with hj; omega
              · exact h4 q hq j hj
            · intro j q hjq; injection hjq with hjq; injection hjq with hjq; omega
          · rw [if_neg hlt] at h3 h5
            have hij := h5 j0 q0 rfl
            refine ⟨?_, ?_, ?_⟩
            · rcases h3 with h3 | h3
              · exact Or.inl ⟨by simp [h3.1], h3.2⟩
              · exact Or.inr h3
            · intro q hq j hj
              rcases List.mem_cons.1 hq with rfl | hq
              · rw [ha] at hj; injection hj with hj; omega
              · exact h4 q hq j hj
            · intro j q hjq; injection hjq with hjq; injection hjq with hjq; omega

theorem bestPair_none {lines : List (Str × Str)} {w : List Str} (h : bestPair (loadCodes lines) w = none) :
    ∀ p ∈ lines, ¬ Adj w p.1 p.2 := by
  intro p hp ha
  have := ((best_fold (loadCodes lines) (pairs w) none).1.1 h).2 p ((mem_pairs w p.1 p.2).2 ha)
  exact loadCodes_none.1 this hp

theorem bestPair_some {lines : List (Str × Str)} {w : List Str} {i : Nat} {a b : Str}
    (h : bestPair (loadCodes lines) w = some (i, (a, b))) : First lines w a b := by
  obtain ⟨h1, h2, _⟩ := (best_fold (loadCodes lines) (pairs w) none).2 i (a, b) h
  rcases h1 with ⟨h1, h3⟩ | h1
  · obtain ⟨hi, hmin⟩ := loadCodes_some h3
    have hlen : i < lines.length := by
      by_contra hc
      rw [List.getElem?_eq_none (by omega)] at hi; cases hi
    refine ⟨(mem_pairs w a b).1 h1, lines.take i, lines.drop (i + 1), ?_, fun p hp hadj => ?_⟩
    · rw [List.getElem?_eq_getElem hlen] at hi
      injection hi with hi
      rw [← hi, ← List.drop_eq_getElem_cons hlen, List.take_append_drop]
    · obtain ⟨n, hn, hpn⟩ := List.mem_take_iff_getElem.1 hp
      have hpl : p ∈ lines := List.mem_of_mem_take hp
      cases hc : (loadCodes lines).get? p with
      | none => exact loadCodes_none.1 hc hpl
      | some j =>
        have h4 := h2 p ((mem_pairs w p.1 p.2).2 hadj) j hc
        have h5 := (loadCodes_some hc).2 n (by rw [List.getElem?_eq_getElem (by omega), hpn])
        omega
  · cases h1

theorem merged_mergePair (f s : Str) : ∀ w : List Str, Merged f s w (mergePair f s w)
  | [] => by simp only [mergePair]; exact .nil
  | [a] => by
    simp only [mergePair]
    exact .skip (by simp) .nil
  | a :: b :: l => by
    simp only [mergePair]
    split
    · rename_i h
      obtain ⟨rfl, rfl⟩ := h
      exact .hit (merged_mergePair _ _ l)
    · rename_i h
      exact .skip (by simpa using h) (merged_mergePair f s (b :: l))

theorem merged_le {f s : Str} {w w' : List Str} (h : Merged f s w w') : w'.length ≤ w.length := by
  induction h with
  | nil => simp
  | hit _ ih => simp only [List.length_cons]; omega
  | skip _ _ ih => simp only [List.length_cons]; omega

/-- A round which merges something makes the word shorter. -/
theorem merged_lt {f s : Str} {w w' : List Str} (h : Merged f s w w') (ha : Adj w f s) : w'.length < w.length := by
  induction h with
  | nil => obtain ⟨pre, post, h⟩ := ha; simp at h
  | hit hm _ => have := merged_le hm; simp only [List.length_cons]; omega
  | @skip a l l' hn hm ih =>
    obtain ⟨pre, post, h⟩ := ha
    cases pre with
    | nil =>
      simp only [List.nil_append] at h
      injection h with h1 h2
      exact absurd ⟨h1, by rw [h2]; rfl⟩ hn
    | cons x pre =>
      rw [List.cons_append] at h
      injection h with _ h
      have := ih ⟨pre, post, h⟩
      simp only [List.length_cons]; omega

theorem merged_flatten {f s : Str} {w w' : List Str} (h : Merged f s w w') : w'.flatten = w.flatten := by
  induction h with
  | nil => rfl
  | hit _ ih => simp [ih]
  | skip _ _ ih => simp [ih]

theorem merged_last {f s : Str} {w w' : List Str} (h : Merged f s w w') :
    (w = [] ∧ w' = []) ∨ ∃ x y, w.getLast? = some x ∧ w'.getLast? = some y ∧ x <:+ y := by
  induction h with
  | nil => exact Or.inl ⟨rfl, rfl⟩
  | @hit l l' _ ih =>
    right
    rcases ih with ⟨rfl, rfl⟩ | ⟨x, y, h1, h2, h3⟩
    · exact ⟨s, f ++ s, rfl, rfl, List.suffix_append _ _⟩
    · exact ⟨x, y, by rw [List.getLast?_cons, List.getLast?_cons, h1]; rfl, by rw [List.getLast?_cons, h2]; rfl, h3⟩
  | @skip a l l' _ _ ih =>
    right
    rcases ih with ⟨rfl, rfl⟩ | ⟨x, y, h1, h2, h3⟩
    · exact ⟨a, a, rfl, rfl, List.suffix_refl _⟩
    · exact ⟨x, y, by rw [List.getLast?_cons, h1]; rfl, by rw [List.getLast?_cons, h2]; rfl, h3⟩

/-- C36. The loop of `_encode_word` is byte pair encoding: again and again all occurrences of the pair which comes
first in the codes file are merged, until there is no pair of the codes file any more. -/
theorem mergeLoop_encodes (lines : List (Str × Str)) : ∀ (fuel : Nat) (w : List Str), w.length ≤ fuel →
    Encodes lines w (mergeLoop (loadCodes lines) fuel w)
  | 0, w, h => by
    have : w = [] := List.length_eq_zero_iff.1 (by omega)
    subst this
    exact .done (fun p _ ⟨pre, post, h⟩ => by simp at h)
  | fuel + 1, w, h => by
    simp only [mergeLoop]
    split
    · rename_i hb; exact .done (bestPair_none hb)
    · rename_i i f s hb
      have hf := bestPair_some hb
      have hm := merged_mergePair f s w
      refine .step hf hm ?_
      split
      · rename_i h1
        refine .done (fun p _ ⟨pre, post, h⟩ => ?_)
        have := congrArg List.length h
        rw [h1] at this; simp at this; omega
      · exact mergeLoop_encodes lines fuel _ (by have := merged_lt hm hf.1; omega)

theorem encodes_flatten {lines : List (Str × Str)} {w out : List Str} (h : Encodes lines w out) :
    out.flatten = w.flatten := by
  induction h with
  | done _ => rfl
  | step _ hm _ ih => rw [ih, merged_flatten hm]

theorem encodes_last {lines : List (Str × Str)} {w out : List Str} (h : Encodes lines w out) {x : Str}
    (hx : w.getLast? = some x) : ∃ y, out.getLast? = some y ∧ x <:+ y := by
  induction h generalizing x with
  | done _ => exact ⟨x, hx, List.suffix_refl _⟩
  | step _ hm _ ih =>
    rcases merged_last hm with ⟨rfl, rfl⟩ | ⟨x', y, h1, h2, h3⟩
    · cases hx
    · rw [hx] at h1; injection h1 with h1; subst h1
      obtain ⟨z, hz, h4⟩ := ih h2
      exact ⟨z, hz, h3.trans h4⟩

/-! ### The end-of-word symbol -/

theorem initWord_ok {v : Version} (hv : v ≠ .other) {orig : Str} (h0 : orig ≠ []) :
    ∃ w x, initWord v orig = .ok w ∧ w.flatten = orig ++ eow ∧ w.getLast? = some x ∧ eow <:+ x := by
  have hfl : ∀ l : Str, (l.map (fun c => [c])).flatten = l := by
    intro l; induction l with
    | nil => rfl
    | cons a l ih => simp only [List.map_cons, List.flatten_cons, ih]; rfl
  cases v with
  | other => exact absurd rfl hv
  | v01 => exact ⟨_, eow, rfl, by simp [hfl], by simp, List.suffix_refl _⟩
  | v02 =>
    cases hl : orig.getLast? with
    | none => rw [List.getLast?_eq_none_iff] at hl; exact absurd hl h0
    | some c =>
      refine ⟨orig.dropLast.map (fun c => [c]) ++ [c :: eow], c :: eow, by simp [initWord, hl], ?_, by simp, List.suffix_cons _ _⟩
      obtain ⟨l, rfl⟩ := List.getLast?_eq_some_iff.1 hl
      simp [hfl]

/-- The end-of-word symbol cannot overlap with itself. -/
theorem eow_prefix_short {x : Str} (h : eow <+: x ++ eow) (hx : x ≠ []) : eow <+: x := by
  match x, hx with
  | [a], _ => exfalso; revert h; simp only [eow]; intro ⟨t, h⟩; simp at h
  | [a, b], _ => exfalso; revert h; simp only [eow]; intro ⟨t, h⟩; simp at h
  | [a, b, c], _ => exfalso; revert h; simp only [eow]; intro ⟨t, h⟩; simp at h
  | a :: b :: c :: d :: l, _ =>
    obtain ⟨t, h⟩ := h
    simp only [eow, show ("</w>".toList : List Char) = ['<', '/', 'w', '>'] from rfl, List.cons_append, List.nil_append] at h
    injection h with h1 h; injection h with h2 h; injection h with h3 h; injection h with h4 h
    exact ⟨l, by subst h1 h2 h3 h4; rfl⟩

theorem removeAll_eow (x : Str) : ∀ fuel, x.length + 4 ≤ fuel → ¬ eow <:+: x → removeAll eow fuel (x ++ eow) = x := by
  induction x with
  | nil =>
    intro fuel hf _
    match fuel, hf with
    | 0, h => simp at h
    | 1, h => simp at h
    | fuel + 2, _ => simp [removeAll, eow]
  | cons c x ih =>
    intro fuel hf hn
    cases fuel with
    | zero => simp at hf
    | succ fuel =>
      have hp : ¬ eow.isPrefixOf (c :: (x ++ eow)) = true := by
        intro hp
        rw [List.isPrefixOf_iff_prefix] at hp
        exact hn (eow_prefix_short (x := c :: x) hp (by simp)).isInfix
      have hx : ¬ eow <:+: x := fun h => hn (h.trans (List.suffix_cons c x).isInfix)
      simp only [List.cons_append, removeAll]
      rw [if_neg hp, ih fuel (by simp at hf; omega) hx]

/-- Taking away the end-of-word symbol of a segmentation of `orig ++ "</w>"`. -/
theorem strip_ok {orig : Str} {w : List Str} {x : Str} (hfl : w.flatten = orig ++ eow) (hx : w.getLast? = some x)
    (he : eow <:+ x) (hn : ¬ eow <:+: orig) (h0 : orig ≠ []) : (stripEow w).flatten = orig ∧ stripEow w ≠ [] := by
  obtain ⟨l, rfl⟩ := List.getLast?_eq_some_iff.1 hx
  obtain ⟨y, rfl⟩ := he
  have hy : l.flatten ++ y = orig := by
    simp only [List.flatten_append, List.flatten_cons, List.flatten_nil, List.append_nil, ← List.append_assoc] at hfl
    exact List.append_cancel_right hfl
  have hres : (stripEow (l ++ [y ++ eow])).flatten = orig := by
    unfold stripEow
    rw [hx]
    simp only
    split
    · rename_i h1
      have : y = [] := by
        have := congrArg List.length h1
        simp at this; exact this
      subst this
      simpa using hy
    · rw [if_pos (by rw [List.isSuffixOf_iff_suffix]; exact List.suffix_append _ _)]
      have hyn : ¬ eow <:+: y := fun h => hn (by rw [← hy]; exact h.trans (List.suffix_append _ _).isInfix)
      rw [removeAll_eow y _ (by simp [eow]) hyn]
      simp [hy]
  exact ⟨hres, fun h => h0 (by rw [← hres, h]; rfl)⟩

/-! ### The vocabulary check -/

theorem recursiveSplit_ok {lines : List (Str × Str)} (hc : CodesOk lines) (vocab : List Str) :
    ∀ (fuel : Nat) (s : Str) (final : Bool), s.length + (if final then 4 else 0) < fuel →
      ∃ out, recursiveSplit (loadRev (loadCodes lines)) vocab fuel s final = .ok out ∧ out.flatten = s ∧
        (final = false → ∀ x ∈ out, x ++ sep ∈ vocab ∨ Atomic lines x) ∧
        (final = true → InVocab lines vocab out) := by
  intro fuel
  induction fuel with
  | zero => intro s final h; omega
  | succ fuel ih =>
    intro s final hf
    simp only [recursiveSplit]
    cases hr : (loadRev (loadCodes lines)).get? (if final then s ++ eow else s) with
    | none =>
      refine ⟨[s], rfl, by simp, fun h x hx => ?_, fun h => ?_⟩
      · subst h
        simp only [List.mem_singleton] at hx
        subst hx
        exact Or.inr (loadRev_none hr)
      · subst h
        exact ⟨[], s, rfl, by simp, Or.inr (loadRev_none hr)⟩
    | some p =>
      obtain ⟨left, right⟩ := p
      obtain ⟨hmem, hcat⟩ := loadRev_some hr
      obtain ⟨h1, h2, h3⟩ := hc _ hmem
      simp only at hcat h1 h2 h3
      -- the right part without the end-of-word symbol
      have hright : ∃ r, (if final then right.take (right.length - 4) else right) = r ∧ left ++ r = s ∧
          r.length + (if final then 4 else 0) < s.length + (if final then 4 else 0) ∧
          left.length < fuel := by
        cases final with
        | false =>
          simp only [Bool.false_eq_true, if_false] at hcat ⊢
          refine ⟨right, rfl, hcat, ?_, ?_⟩
          · have := List.length_pos_iff.2 h1; rw [← hcat, List.length_append]; omega
          · have := List.length_pos_iff.2 h2
            rw [← hcat, List.length_append] at hf
            simp at hf; omega
        | true =>
          simp only [if_true] at hcat hf ⊢
          obtain ⟨r, hr⟩ := h3 (by rw [hcat]; exact List.suffix_append _ _)
          have hr' : right.take (right.length - 4) = r := by
            rw [← hr]; simp [eow]
          have hs : left ++ r = s := by
            rw [← hr, ← List.append_assoc] at hcat
            exact List.append_cancel_right hcat
          refine ⟨r, hr', hs, ?_, ?_⟩
          · have := List.length_pos_iff.2 h1; rw [← hs, List.length_append]; omega
          · rw [← hs, List.length_append] at hf; omega
      obtain ⟨r, hr1, hr2, hr3, hr4⟩ := hright
      simp only [hr1, bind, Except.bind]
      -- left part
      have hleft : ∃ a, orSplit (vocab.contains (left ++ sep)) left
          (recursiveSplit (loadRev (loadCodes lines)) vocab fuel left false) = .ok a ∧ a.flatten = left ∧
          ∀ x ∈ a, x ++ sep ∈ vocab ∨ Atomic lines x := by
        unfold orSplit
        by_cases hv : vocab.contains (left ++ sep) = true
        · rw [if_pos hv]
          exact ⟨[left], rfl, by simp, by simp only [List.mem_singleton, forall_eq]; exact Or.inl (by simpa using hv)⟩
        · rw [if_neg hv]
          obtain ⟨a, ha1, ha2, ha3, _⟩ := ih left false (by simpa using hr4)
          exact ⟨a, ha1, ha2, ha3 rfl⟩
      have hrec : ∃ b, orSplit ((final && vocab.contains r) || (!final && vocab.contains (r ++ sep))) r
          (recursiveSplit (loadRev (loadCodes lines)) vocab fuel r final) = .ok b ∧ b.flatten = r ∧
          (final = false → ∀ x ∈ b, x ++ sep ∈ vocab ∨ Atomic lines x) ∧ (final = true → InVocab lines vocab b) := by
        unfold orSplit
        by_cases hv : ((final && vocab.contains r) || (!final && vocab.contains (r ++ sep))) = true
        · rw [if_pos hv]
          refine ⟨[r], rfl, by simp, fun h x hx => ?_, fun h => ?_⟩
          · subst h
            simp only [List.mem_singleton] at hx
            subst hx
            left; simpa using hv
          · subst h
            exact ⟨[], r, rfl, by simp, Or.inl (by simpa using hv)⟩
        · rw [if_neg hv]
          exact ih r final (by omega)
      obtain ⟨a, ha1, ha2, ha3⟩ := hleft
      obtain ⟨b, hb1, hb2, hb3, hb4⟩ := hrec
      rw [ha1]
      simp only
      rw [hb1]
      refine ⟨a ++ b, rfl, by simp [ha2, hb2, hr2], fun h x hx => ?_, fun h => ?_⟩
      · rcases List.mem_append.1 hx with hx | hx
        · exact ha3 x hx
        · exact hb3 h x hx
      · obtain ⟨inner, last, hl1, hl2, hl3⟩ := hb4 h
        refine ⟨a ++ inner, last, by rw [hl1]; simp, fun x hx => ?_, hl3⟩
        rcases List.mem_append.1 hx with hx | hx
        · exact ha3 x hx
        · exact hl2 x hx

theorem splitInner_ok {lines : List (Str × Str)} (hc : CodesOk lines) (vocab : List Str) : ∀ l : List Str,
    ∃ out, splitInner (loadRev (loadCodes lines)) vocab l = .ok out ∧ out.flatten = l.flatten ∧
      ∀ x ∈ out, x ++ sep ∈ vocab ∨ Atomic lines x := by
  intro l
  induction l with
  | nil => exact ⟨[], rfl, rfl, by simp⟩
  | cons s l ih =>
    obtain ⟨b, hb1, hb2, hb3⟩ := ih
    simp only [splitInner, bind, Except.bind, orSplit]
    by_cases hv : vocab.contains (s ++ sep) = true
    · rw [if_pos hv, hb1]
      refine ⟨[s] ++ b, rfl, by simp [hb2], fun x hx => ?_⟩
      rcases List.mem_append.1 hx with hx | hx
      · simp only [List.mem_singleton] at hx; subst hx; exact Or.inl (by simpa using hv)
      · exact hb3 x hx
    · rw [if_neg hv]
      obtain ⟨a, ha1, ha2, ha3, _⟩ := recursiveSplit_ok hc vocab (splitFuel s) s false (by simp [splitFuel])
      rw [ha1]
      simp only
      rw [hb1]
      refine ⟨a ++ b, rfl, by simp [ha2, hb2], fun x hx => ?_⟩
      rcases List.mem_append.1 hx with hx | hx
      · exact ha3 rfl x hx
      · exact hb3 x hx

theorem checkVocab_ok {lines : List (Str × Str)} (hc : CodesOk lines) (vocab : List Str) {w : List Str} (hw : w ≠ []) :
    ∃ out, checkVocab (loadRev (loadCodes lines)) vocab w = .ok out ∧ out.flatten = w.flatten ∧ InVocab lines vocab out := by
  unfold checkVocab
  cases hl : w.getLast? with
  | none => rw [List.getLast?_eq_none_iff] at hl; exact absurd hl hw
  | some last =>
    obtain ⟨l, rfl⟩ := List.getLast?_eq_some_iff.1 hl
    obtain ⟨a, ha1, ha2, ha3⟩ := splitInner_ok hc vocab l
    simp only [List.dropLast_concat, bind, Except.bind, ha1, orSplit]
    by_cases hv : vocab.contains last = true
    · rw [if_pos hv]
      exact ⟨a ++ [last], rfl, by simp [ha2], a, last, rfl, ha3, Or.inl (by simpa using hv)⟩
    · rw [if_neg hv]
      obtain ⟨b, hb1, hb2, _, hb4⟩ := recursiveSplit_ok hc vocab (splitFuel last) last true (by simp [splitFuel])
      rw [hb1]
      obtain ⟨inner, x, hx1, hx2, hx3⟩ := hb4 rfl
      refine ⟨a ++ b, rfl, by simp [ha2, hb2], a ++ inner, x, by rw [hx1]; simp, fun y hy => ?_, hx3⟩
      rcases List.mem_append.1 hy with hy | hy
      · exact ha3 y hy
      · exact hx2 y hy

/-! ### The result -/

/-- C36. For every codes file and vocabulary and every word which does not contain the end-of-word symbol: the encoding
does not fail, the segments joined give the word, and with a vocabulary, every segment is in the vocabulary or cannot be
split. (Missing: words which contain "</w>", for which it is false, see `encode_loses_eow`.) -/
theorem encode_lossless_partial {lines : List (Str × Str)} (hc : CodesOk lines) {v : Version} (hv : v ≠ .other)
    (labels : Option (List Str)) {orig : Str} (h0 : orig ≠ []) (hn : ¬ eow <:+: orig) :
    ∃ out, encodeWord (load v lines labels) orig = .ok out ∧ out.flatten = orig ∧ out ≠ [] := by
  obtain ⟨w, x, hw1, hw2, hw3, hw4⟩ := initWord_ok hv h0
  unfold encodeWord load
  simp only [hw1, bind, Except.bind]
  split
  · have hfl : ∀ l : Str, (l.map (fun c => [c])).flatten = l := by
      intro l; induction l with
      | nil => rfl
      | cons a l ih => simp only [List.map_cons, List.flatten_cons, ih]; rfl
    exact ⟨_, rfl, hfl orig, by simpa using h0⟩
  · have henc := mergeLoop_encodes lines w.length w le_rfl
    obtain ⟨y, hy1, hy2⟩ := encodes_last henc hw3
    obtain ⟨hs1, hs2⟩ := strip_ok ((encodes_flatten henc).trans hw2) hy1 (hw4.trans hy2) hn h0
    split
    · obtain ⟨out, ho1, ho2, ho3⟩ := checkVocab_ok hc _ hs2
      refine ⟨out, ho1, by rw [ho2, hs1], ?_⟩
      obtain ⟨inner, last, h, _⟩ := ho3
      rw [h]; simp
    · exact ⟨_, rfl, hs1, hs2⟩

/-- C36. With a vocabulary, every segment is in the vocabulary (with "@@", if it is not the last one), or no merge
operation of the codes file gives this segment. (The exception is a word of one symbol with version 0.2, which the
code returns as it is.) -/
theorem encode_in_vocab {lines : List (Str × Str)} (hc : CodesOk lines) {v : Version} {vocab : List Str}
    (hvoc : vocab ≠ []) {orig : Str} (h0 : orig ≠ []) (hn : ¬ eow <:+: orig) (h1 : v = .v01 ∨ 2 ≤ orig.length)
    (hv : v ≠ .other) :
    ∃ out, encodeWord (load v lines (some vocab)) orig = .ok out ∧ out.flatten = orig ∧ InVocab lines vocab out := by
  obtain ⟨w, x, hw1, hw2, hw3, hw4⟩ := initWord_ok hv h0
  have hlen : (pairs w).isEmpty = false := by
    have h2 : 2 ≤ w.length := by
      rcases h1 with rfl | h1
      · injection hw1 with hw1; subst hw1
        have := List.length_pos_iff.2 h0
        simp; omega
      · cases v with
        | other => exact absurd rfl hv
        | v01 => injection hw1 with hw1; subst hw1; simp; omega
        | v02 =>
          simp only [initWord] at hw1
          split at hw1
          · cases hw1
          · injection hw1 with hw1; subst hw1; simp; omega
    match w, h2 with
    | a :: b :: l, _ => simp [pairs]
  obtain ⟨l, ls, rfl⟩ := List.exists_cons_of_ne_nil hvoc
  have henc := mergeLoop_encodes lines w.length w le_rfl
  obtain ⟨y, hy1, hy2⟩ := encodes_last henc hw3
  obtain ⟨hs1, hs2⟩ := strip_ok ((encodes_flatten henc).trans hw2) hy1 (hw4.trans hy2) hn h0
  obtain ⟨out, ho1, ho2, ho3⟩ := checkVocab_ok hc (l :: ls) hs2
  refine ⟨out, ?_, by rw [ho2, hs1], ho3⟩
  unfold encodeWord load
  simp only [hw1, bind, Except.bind, hlen]
  simpa using ho1

/-- C36 is violated for words with the end-of-word symbol: it gets lost. -/
theorem encode_loses_eow : ∃ (lines : List (Str × Str)) (orig : Str), CodesOk lines ∧
    ∃ out, encodeWord (load .v02 lines none) orig = .ok out ∧ out.flatten ≠ orig := by
  refine ⟨[([ '>'], "a</w>".toList), (['w'], ">a</w>".toList), (['/'], "w>a</w>".toList), (['<'], "/w>a</w>".toList)],
    "</w>a".toList, ?_, [['a']], by decide +kernel, by decide⟩
  intro p hp
  simp only [List.mem_cons, List.not_mem_nil, or_false] at hp
  rcases hp with rfl | rfl | rfl | rfl <;> exact ⟨by decide, by decide, fun _ => by decide⟩

/-- C36 is violated for a codes file which tears the end-of-word symbol apart. -/
theorem encode_bad_codes : ∃ (lines : List (Str × Str)) (vocab : List Str) (orig : Str), ¬ eow <:+: orig ∧
    ∃ out, encodeWord (load .v02 lines (some vocab)) orig = .ok out ∧ out.flatten ≠ orig := by
  exact ⟨[("a</".toList, "w>".toList)], ["x".toList], "ba".toList, by decide,
    ["b".toList, "a</".toList, []], by decide +kernel, by decide⟩

/-- A segment may be empty, if the vocabulary does not have the last part: then the output has the token "". -/
theorem encode_empty_segment : ∃ (lines : List (Str × Str)) (vocab : List Str) (orig : Str), CodesOk lines ∧
    ¬ eow <:+: orig ∧ encodeWord (load .v01 lines (some vocab)) orig = .ok [orig, []] := by
  refine ⟨[(['a'], ['b']), ("ab".toList, "</w>".toList)], ["ab@@".toList], "ab".toList, ?_, by decide, by decide +kernel⟩
  intro p hp
  simp only [List.mem_cons, List.not_mem_nil, or_false] at hp
  rcases hp with rfl | rfl <;> exact ⟨by decide, by decide, by decide⟩

/-- The empty word: no segments in version 0.1, and an `IndexError` in version 0.2. -/
theorem encode_empty (lines : List (Str × Str)) (labels : Option (List Str)) :
    encodeWord (load .v01 lines labels) [] = .ok [] ∧ encodeWord (load .v02 lines labels) [] = .error .indexError :=
  ⟨rfl, rfl⟩

/-- An unknown version is refused. -/
theorem encode_version (lines : List (Str × Str)) (labels : Option (List Str)) (orig : Str) :
    encodeWord (load .other lines labels) orig = .error .notImplemented := rfl

/-- C36. Without a vocabulary, the segments are the ones of byte pair encoding, on the characters of the word and the
end-of-word symbol, of which the symbol is taken away. -/
theorem encode_is_bpe {lines : List (Str × Str)} {v : Version} {orig : Str} {w : List Str}
    (h2 : v = .v01 ∧ orig ≠ [] ∧ w = orig.map (fun c => [c]) ++ [eow] ∨
      v = .v02 ∧ ∃ l b, l ≠ [] ∧ orig = l ++ [b] ∧ w = l.map (fun c => [c]) ++ [b :: eow])
    (hn : ¬ eow <:+: orig) :
    ∃ inner last, Encodes lines w (inner ++ [last ++ eow]) ∧
      encodeWord (load v lines none) orig = .ok (if last = [] then inner else inner ++ [last]) := by
  have h0 : orig ≠ [] := by
    rcases h2 with ⟨_, h, _⟩ | ⟨_, l, b, _, h, _⟩
    · exact h
    · rw [h]; simp
  have hw1 : initWord v orig = .ok w := by
    rcases h2 with ⟨rfl, _, rfl⟩ | ⟨rfl, l, b, _, rfl, rfl⟩
    · rfl
    · simp [initWord]
  have hv : v ≠ .other := by rcases h2 with ⟨rfl, _⟩ | ⟨rfl, _⟩ <;> simp
  have hp : (pairs w).isEmpty = false := by
    rcases h2 with ⟨_, h, rfl⟩ | ⟨_, l, b, h, _, rfl⟩
    · obtain ⟨a, l, rfl⟩ := List.exists_cons_of_ne_nil h
      cases l <;> simp [pairs]
    · obtain ⟨a, l, rfl⟩ := List.exists_cons_of_ne_nil h
      cases l <;> simp [pairs]
  obtain ⟨w', x, hw1', hw2, hw3, hw4⟩ := initWord_ok hv h0
  rw [hw1] at hw1'; injection hw1' with hw1'; subst hw1'
  have henc := mergeLoop_encodes lines w.length w le_rfl
  obtain ⟨y, hy1, hy2⟩ := encodes_last henc hw3
  obtain ⟨inner, hi⟩ := List.getLast?_eq_some_iff.1 hy1
  obtain ⟨last, rfl⟩ := hw4.trans hy2
  refine ⟨inner, last, by rw [← hi]; exact henc, ?_⟩
  have hlast : ¬ eow <:+: last := by
    intro h
    have hf := encodes_flatten henc
    rw [hw2, hi] at hf
    simp only [List.flatten_append, List.flatten_cons, List.flatten_nil, List.append_nil, ← List.append_assoc] at hf
    have := List.append_cancel_right hf
    exact hn (by rw [← this]; exact h.trans (List.suffix_append _ _).isInfix)
  unfold encodeWord load
  simp only [hw1, bind, Except.bind, hp, Bool.false_eq_true, if_false]
  congr 1
  rw [hi]
  unfold stripEow
  rw [show (inner ++ [last ++ eow]).getLast? = some (last ++ eow) from by simp]
  simp only
  by_cases hl : last = []
  · subst hl; simp
  · rw [if_neg (by intro h; apply hl; have := congrArg List.length h; simpa using this),
      if_pos (by rw [List.isSuffixOf_iff_suffix]; exact List.suffix_append _ _), if_neg hl,
      removeAll_eow last _ (by simp [eow]) hlast]
    simp

/-! ### The cache and whole sentences -/

/-- All entries of the cache are right. -/
def CacheOk (E : Encoder) (cache : Dict Str (List Str)) : Prop :=
  ∀ w segs, cache.get? w = some segs → encodeWord E w = .ok segs

/-- C36. The cache does not change the result. -/
theorem cache_transparent {E : Encoder} {cache : Dict Str (List Str)} (hc : CacheOk E cache) (orig : Str) :
    (encodeCached E cache orig).map Prod.fst = encodeWord E orig ∧
    ∀ segs cache', encodeCached E cache orig = .ok (segs, cache') → CacheOk E cache' := by
  cases hg : cache.get? orig with
  | some w =>
    constructor
    · simp [encodeCached, hg, hc _ _ hg, Except.map]
    · intro segs cache' h
      simp only [encodeCached, hg] at h
      injection h with h; injection h with _ h
      subst h; exact hc
  | none =>
    have heq : ∀ segs cache', encodeCached E cache orig = .ok (segs, cache') →
        encodeWord E orig = .ok segs ∧ (cache' = cache ∨ cache' = cache.set orig segs) := by
      intro segs cache' h
      simp only [encodeCached, hg, bind, Except.bind] at h
      unfold encodeWord
      simp only [bind, Except.bind]
      cases hi : initWord E.version orig with
      | error e => rw [hi] at h; cases h
      | ok w =>
        rw [hi] at h
        simp only at h ⊢
        by_cases hp : (pairs w).isEmpty = true
        · rw [if_pos hp] at h ⊢
          injection h with h; injection h with h1 h2
          exact ⟨by rw [h1], Or.inl h2.symm⟩
        · rw [if_neg hp] at h ⊢
          split at h
          · rename_i l ls hl
            cases hv : checkVocab E.rev (l :: ls) (stripEow (mergeLoop E.codes w.length w)) with
            | error e => rw [hv] at h; cases h
            | ok r =>
              rw [hv] at h
              injection h with h; injection h with h1 h2
              exact ⟨by rw [h1], Or.inr (by rw [← h2, h1])⟩
          · rename_i hl
            injection h with h; injection h with h1 h2
            exact ⟨by rw [h1], Or.inr (by rw [← h2, h1])⟩
    constructor
    · cases h : encodeCached E cache orig with
      | ok r => obtain ⟨segs, cache'⟩ := r; rw [(heq _ _ h).1]; rfl
      | error e =>
        simp only [encodeCached, hg, bind, Except.bind] at h
        unfold encodeWord
        simp only [bind, Except.bind, Except.map]
        cases hi : initWord E.version orig with
        | error e' => rw [hi] at h; injection h with h; rw [h]
        | ok w =>
          rw [hi] at h
          simp only at h ⊢
          by_cases hp : (pairs w).isEmpty = true
          · rw [if_pos hp] at h; cases h
          · rw [if_neg hp] at h ⊢
            split at h
            · rename_i l ls hl
              cases hv : checkVocab E.rev (l :: ls) (stripEow (mergeLoop E.codes w.length w)) with
              | error e => rw [hv] at h; injection h with h; rw [h]
              | ok r => rw [hv] at h; cases h
            · cases h
    · intro segs cache' h
      obtain ⟨h1, h2⟩ := heq _ _ h
      rcases h2 with rfl | rfl
      · exact hc
      · intro w s hs
        rw [Dict.get?_set] at hs
        split at hs
        · rename_i hk
          injection hs with hs
          rw [← hk, ← hs]; exact h1
        · exact hc w s hs

/-- The tokens of a word: kept as it is, if it is part of a category, or the segments of the encoding, with "@@" after
all but the last one. -/
def TokensOf (E : Encoder) (w : Str) (toks : List Str) : Prop :=
  toks = [w] ∨ ∃ inner last, encodeWord E w = .ok (inner ++ [last]) ∧ toks = inner.map (fun s => s ++ sep) ++ [last]

theorem sentence_words {E : Encoder} : ∀ (ws : List Str) (cache : Dict Str (List Str)) (found skip : Bool) (out : List Str),
    CacheOk E cache → segmentSentence E cache found skip ws = .ok out →
    ∃ parts, out = parts.flatten ∧ List.Forall₂ (TokensOf E) ws parts := by
  intro ws
  induction ws with
  | nil =>
    intro cache found skip out _ h
    simp only [segmentSentence] at h
    injection h with h
    exact ⟨[], h.symm, .nil⟩
  | cons w ws ih =>
    intro cache found skip out hc h
    have keep : ∀ f s, (segmentSentence E cache f s ws).map (fun r => w :: r) = .ok out →
        ∃ parts, out = parts.flatten ∧ List.Forall₂ (TokensOf E) (w :: ws) parts := by
      intro f s h
      cases hr : segmentSentence E cache f s ws with
      | error e => rw [hr] at h; cases h
      | ok r =>
        rw [hr] at h
        injection h with h
        obtain ⟨parts, h1, h2⟩ := ih _ _ _ _ hc hr
        exact ⟨[w] :: parts, by rw [← h, h1]; rfl, .cons (Or.inl rfl) h2⟩
    simp only [segmentSentence, bind, Except.bind] at h
    split at h
    · apply keep true skip
      cases hr : segmentSentence E cache true skip ws with
      | error e => rw [hr] at h; cases h
      | ok r => rw [hr] at h; exact h
    · split at h
      · apply keep found true
        cases hr : segmentSentence E cache found true ws with
        | error e => rw [hr] at h; cases h
        | ok r => rw [hr] at h; exact h
      · split at h
        · apply keep found skip
          cases hr : segmentSentence E cache found skip ws with
          | error e => rw [hr] at h; cases h
          | ok r => rw [hr] at h; exact h
        · obtain ⟨ht1, ht2⟩ := cache_transparent hc w
          cases he : encodeCached E cache w with
          | error e => rw [he] at h; cases h
          | ok r =>
            obtain ⟨segs, cache'⟩ := r
            rw [he] at h ht1
            simp only at h
            split at h
            · cases h
            · rename_i hne
              cases hr : segmentSentence E cache' false false ws with
              | error e => rw [hr] at h; cases h
              | ok r =>
                rw [hr] at h
                injection h with h
                obtain ⟨parts, h1, h2⟩ := ih _ _ _ _ (ht2 _ _ he) hr
                refine ⟨withSep segs :: parts, by rw [← h, h1]; rfl, .cons (Or.inr ?_) h2⟩
                cases hl : segs.getLast? with
                | none => rw [List.getLast?_eq_none_iff] at hl; rw [hl] at hne; simp at hne
                | some last =>
                  obtain ⟨inner, rfl⟩ := List.getLast?_eq_some_iff.1 hl
                  exact ⟨inner, last, by rw [← ht1]; rfl, by simp [withSep]⟩

theorem segmentSentence_ok {lines : List (Str × Str)} (hcodes : CodesOk lines) {v : Version} (hv : v ≠ .other)
    (labels : Option (List Str)) : ∀ (ws : List Str) (cache : Dict Str (List Str)),
    CacheOk (load v lines labels) cache → Plain ws → (∀ w ∈ ws, w ≠ [] ∧ ¬ eow <:+: w) →
    ∃ out, segmentSentence (load v lines labels) cache false false ws = .ok out ∧
      ∃ parts, out = parts.flatten ∧ List.Forall₂ Detok ws parts := by
  intro ws
  induction ws with
  | nil => intro cache _ _ _; exact ⟨[], rfl, [], rfl, .nil⟩
  | cons w ws ih =>
    intro cache hc hpl hok
    obtain ⟨hw0, hwn⟩ := hok w (by simp)
    obtain ⟨segs, hs1, hs2, hs3⟩ := encode_lossless_partial hcodes hv labels hw0 hwn
    obtain ⟨ht1, ht2⟩ := cache_transparent hc w
    cases he : encodeCached (load v lines labels) cache w with
    | error e => rw [he, hs1] at ht1; cases ht1
    | ok r =>
      obtain ⟨segs', cache'⟩ := r
      rw [he, hs1] at ht1
      injection ht1 with ht1
      simp only at ht1
      subst ht1
      obtain ⟨out, ho1, parts, ho2, ho3⟩ := ih cache' (ht2 _ _ he) (fun w hw => hpl w (by simp [hw]))
        (fun w hw => hok w (by simp [hw]))
      refine ⟨withSep segs' ++ out, ?_, withSep segs' :: parts, by rw [ho2]; rfl, .cons ?_ ho3⟩
      · have h1 : ¬ (w.head? = some '$' ∧ w.length > 1) := by
          rcases hpl w (by simp) with h | h
          · exact fun hh => h hh.1
          · exact fun hh => by omega
        simp only [segmentSentence, if_neg h1, Bool.false_eq_true, false_and, if_false, he, ho1, bind, Except.bind]
        rw [if_neg (by simpa using hs3)]
      · cases hl : segs'.getLast? with
        | none => rw [List.getLast?_eq_none_iff] at hl; exact absurd hl hs3
        | some last =>
          obtain ⟨inner, rfl⟩ := List.getLast?_eq_some_iff.1 hl
          exact ⟨inner, last, by simp [withSep], by rw [← hs2]; simp⟩

/-- C36. A sentence: for words without "</w>" and without categories, the encoder does not fail, and taking the
separators away gives the words back, one after the other. -/
theorem sentence_lossless_partial {lines : List (Str × Str)} (hcodes : CodesOk lines) {v : Version} (hv : v ≠ .other)
    (labels : Option (List Str)) {ws : List Str} (hpl : Plain ws) (hok : ∀ w ∈ ws, w ≠ [] ∧ ¬ eow <:+: w) :
    ∃ out, segmentSentence (load v lines labels) [] false false ws = .ok out ∧
      ∃ parts, out = parts.flatten ∧ List.Forall₂ Detok ws parts :=
  segmentSentence_ok hcodes hv labels ws [] (by intro w s h; simp [Dict.get?] at h) hpl hok

/-! ### Examples -/

/-- A small codes file. -/
def exLines : List (Str × Str) :=
  [("l".toList, "o".toList), ("lo".toList, "w".toList), ("e".toList, "r</w>".toList), ("low".toList, "er</w>".toList)]

theorem exLines_ok : CodesOk exLines := by
  intro p hp
  simp only [exLines, List.mem_cons, List.not_mem_nil, or_false] at hp
  rcases hp with rfl | rfl | rfl | rfl <;> exact ⟨by decide, by decide, by decide⟩

example : encodeWord (load .v02 exLines none) "lower".toList = .ok ["lower".toList] := by decide +kernel
example : encodeWord (load .v02 exLines (some ["low@@".toList, "er".toList])) "lower".toList =
    .ok ["low".toList, "er".toList] := by decide +kernel
example : encodeWord (load .v02 exLines none) "slow".toList = .ok ["s".toList, "lo".toList, "w".toList] := by
  decide +kernel
example : segmentSentence (load .v02 exLines none) [] false false ["slow".toList, "lower".toList] =
    .ok ["s@@".toList, "lo@@".toList, "w".toList, "lower".toList] := by decide +kernel
example : ∃ out, encodeWord (load .v02 exLines (some ["low@@".toList])) "lower".toList = .ok out ∧
    out.flatten = "lower".toList ∧ out ≠ [] :=
  encode_lossless_partial exLines_ok (by decide) _ (by decide) (by decide)
example : Plain ["slow".toList, "lower".toList] ∧ ∀ w ∈ ["slow".toList, "lower".toList], w ≠ [] ∧ ¬ eow <:+: w := by
  constructor
  · intro w hw; left; simp only [List.mem_cons, List.not_mem_nil, or_false] at hw
    rcases hw with rfl | rfl <;> decide
  · intro w hw; simp only [List.mem_cons, List.not_mem_nil, or_false] at hw
    rcases hw with rfl | rfl <;> decide

end Verif.Bpe
