import Verif.CtcFsa.Py
/-
The edges which the native op computes, index by index, have the CTC topology.
-/
namespace Verif.CtcFsa
open Verif.Py

variable {A : Type} [DecidableEq A]

section
variable {loop : Bool} {blank : A} {row : List A} {L : Nat}

theorem kernel0_sound (rel : Nat) (hd : (kernel0 blank rel).2.1 ≠ 1) :
    Topo loop blank (row.take 0) 2 (kernel0 blank rel).1 (kernel0 blank rel).2.2 (kernel0 blank rel).2.1 := by
  revert hd
  unfold kernel0
  split_ifs <;> simp only <;> intro hd
  · exact .blankLoop 0 rfl rfl (by simp)
  · exact .lastEnd (by simp) rfl
  · exact (hd rfl).elim

theorem kernel1_sound (hL : 1 ≤ row.length) (rel : Nat) (hd : (kernel1 loop blank row rel).2.1 ≠ 3) :
    Topo loop blank (row.take 1) 4 (kernel1 loop blank row rel).1 (kernel1 loop blank row rel).2.2 (kernel1 loop blank row rel).2.1 := by
  have hlen := take_len hL
  have hg : (row.take 1)[0]? = some (row.getD 0 blank) := (take_get hL blank).2 ⟨by omega, rfl⟩
  revert hd
  unfold kernel1
  simp only
  by_cases h1 : rel < 3
  · rw [if_pos h1]
    by_cases h2 : rel = 0
    · rw [if_pos h2]; intro _; exact .blankLoop 0 rfl rfl (by omega)
    · rw [if_neg h2]
      by_cases h3 : rel = 1
      · rw [if_pos h3]; intro _; exact .label 0 rfl rfl hg
      · rw [if_neg h3]; intro _; exact .labelEnd 0 rfl rfl hg (by omega)
  rw [if_neg h1]
  by_cases h1 : rel < 7
  · rw [if_pos h1]
    by_cases h2 : rel - 3 = 0
    · rw [if_pos h2]
      cases loop
      · intro hd; exact (hd rfl).elim
      · intro _; exact .labelLoop 0 rfl rfl hg rfl
    · rw [if_neg h2]
      by_cases h3 : rel - 3 = 1
      · rw [if_pos h3]; intro _; exact .blank 0 rfl rfl (by omega)
      · rw [if_neg h3]
        by_cases h4 : rel - 3 = 2
        · rw [if_pos h4]
          cases loop
          · intro hd; exact (hd rfl).elim
          · intro _; exact .loopEnd 0 rfl rfl hg rfl (by omega)
        · rw [if_neg h4]; intro _; exact .blankEnd 0 rfl rfl (by omega)
  rw [if_neg h1]
  by_cases h1 : rel < 9
  · rw [if_pos h1]
    by_cases h2 : rel - 7 = 0
    · rw [if_pos h2]; intro _; exact .blankLoop 1 rfl rfl (by omega)
    · rw [if_neg h2]; intro _; exact .lastEnd (by rw [hlen]) rfl
  rw [if_neg h1]
  intro hd; exact (hd rfl).elim

theorem kernelInner_sound (hL : L ≤ row.length) (rel : Nat) (hr : rel < 5 * (L - 1)) (hd : (kernelInner loop blank row L rel).2.1 ≠ 2 * L + 1) :
    Topo loop blank (row.take L) (2 * L + 2) (kernelInner loop blank row L rel).1 (kernelInner loop blank row L rel).2.2
      (kernelInner loop blank row L rel).2.1 := by
  have hlen := take_len hL
  have hlt : rel / 5 + 1 < L := by omega
  have hg : (row.take L)[rel / 5]? = some (row.getD (rel / 5) blank) := (take_get hL blank).2 ⟨by omega, rfl⟩
  have hg' : (row.take L)[rel / 5 + 1]? = some (row.getD (rel / 5 + 1) blank) := (take_get hL blank).2 ⟨by omega, rfl⟩
  revert hd
  unfold kernelInner
  simp only
  by_cases h1 : rel % 5 < 2
  · rw [if_pos h1]
    by_cases h2 : rel % 5 = 0
    · rw [if_pos h2]; intro _; exact .blankLoop (rel / 5) rfl rfl (by omega)
    · rw [if_neg h2]; intro _; exact .label (rel / 5) rfl rfl hg
  rw [if_neg h1]
  by_cases h2 : rel % 5 - 2 = 0
  · rw [if_pos h2]
    cases loop
    · intro hd; exact (hd (by simp only [Bool.false_eq_true, if_false]; omega)).elim
    · intro _; exact .labelLoop (rel / 5) rfl rfl hg rfl
  rw [if_neg h2]
  by_cases h3 : rel % 5 - 2 = 1
  · rw [if_pos h3]; intro _; exact .blank (rel / 5) rfl rfl (by omega)
  rw [if_neg h3]
  by_cases h4 : row.getD (rel / 5) blank ≠ row.getD (rel / 5 + 1) blank ∨ loop = false
  · rw [if_pos h4]; intro _; exact .skip (rel / 5) rfl rfl hg hg' h4
  · rw [if_neg h4]
    intro hd; exact (hd (by simp only; omega)).elim

theorem kernel2_sound (hL : L ≤ row.length) (h2L : 2 ≤ L) (rel : Nat) (hd : (kernel2 loop blank row L rel).2.1 ≠ 2 * L + 1) :
    Topo loop blank (row.take L) (2 * L + 2) (kernel2 loop blank row L rel).1 (kernel2 loop blank row L rel).2.2
      (kernel2 loop blank row L rel).2.1 := by
  have hlen := take_len hL
  have hg : ∀ i, i < L → (row.take L)[i]? = some (row.getD i blank) := fun i hi => (take_get hL blank).2 ⟨hi, rfl⟩
  revert hd
  unfold kernel2
  simp only
  by_cases h1 : rel < 5 * (L - 1)
  · rw [if_pos h1]
    intro hd
    exact kernelInner_sound hL rel h1 hd
  rw [if_neg h1]
  by_cases h1 : rel = 5 * (L - 1)
  · rw [if_pos h1]
    by_cases h2 : row.getD (L - 2) blank ≠ row.getD (L - 2 + 1) blank ∨ loop = false
    · rw [if_pos h2]
      intro _
      exact .skipEnd (L - 2) (by simp only; omega) (by simp only; omega) (hg _ (by omega)) (hg _ (by omega)) h2 (by omega)
    · rw [if_neg h2]
      intro hd; exact (hd (by simp only; omega)).elim
  rw [if_neg h1]
  by_cases h1 : rel ≤ 5 * (L - 1) + 3
  · rw [if_pos h1]
    by_cases h2 : rel - (5 * (L - 1) + 1) = 0
    · rw [if_pos h2]; intro _; exact .blankLoop (L - 1) (by simp only; omega) (by simp only; omega) (by omega)
    · rw [if_neg h2]
      by_cases h3 : rel - (5 * (L - 1) + 1) = 1
      · rw [if_pos h3]; intro _; exact .label (L - 1) (by simp only; omega) (by simp only; omega) (hg _ (by omega))
      · rw [if_neg h3]; intro _; exact .labelEnd (L - 1) (by simp only; omega) (by simp only; omega) (hg _ (by omega)) (by omega)
  rw [if_neg h1]
  by_cases h1 : rel ≤ 5 * (L - 1) + 7
  · rw [if_pos h1]
    by_cases h2 : rel - (5 * (L - 1) + 4) = 0
    · rw [if_pos h2]
      cases loop
      · intro hd; exact (hd (by simp only [Bool.false_eq_true, if_false]; omega)).elim
      · intro _; exact .labelLoop (L - 1) (by simp only; omega) (by simp only [if_true]; omega) (hg _ (by omega)) rfl
    · rw [if_neg h2]
      by_cases h3 : rel - (5 * (L - 1) + 4) = 1
      · rw [if_pos h3]; intro _; exact .blank (L - 1) (by simp only; omega) (by simp only; omega) (by omega)
      · rw [if_neg h3]
        by_cases h4 : rel - (5 * (L - 1) + 4) = 2
        · rw [if_pos h4]
          cases loop
          · intro hd; exact (hd (by simp only [Bool.false_eq_true, if_false]; omega)).elim
          · intro _; exact .loopEnd (L - 1) (by simp only; omega) (by simp only [if_true]; omega) (hg _ (by omega)) rfl (by omega)
        · rw [if_neg h4]; intro _; exact .blankEnd (L - 1) (by simp only; omega) (by simp only; omega) (by omega)
  rw [if_neg h1]
  by_cases h1 : rel ≤ 5 * (L - 1) + 9
  · rw [if_pos h1]
    by_cases h2 : rel - (5 * (L - 1) + 8) = 0
    · rw [if_pos h2]; intro _; exact .blankLoop L (by simp only; omega) (by simp only; omega) (by omega)
    · rw [if_neg h2]; intro _; exact .lastEnd (by simp only; omega) (by simp only; omega)
  rw [if_neg h1]
  intro hd; exact (hd (by simp only; omega)).elim

theorem kernel_sound (hL : L ≤ row.length) (rel : Nat) (hd : (kernelEdge loop blank row L rel).2.1 ≠ 2 * L + 1) :
    Topo loop blank (row.take L) (2 * L + 2) (kernelEdge loop blank row L rel).1 (kernelEdge loop blank row L rel).2.2
      (kernelEdge loop blank row L rel).2.1 := by
  unfold kernelEdge at *
  by_cases h0 : L = 0
  · subst h0
    exact kernel0_sound rel hd
  · simp only [if_neg h0] at *
    by_cases h1 : L = 1
    · subst h1
      exact kernel1_sound hL rel hd
    · simp only [if_neg h1] at *
      exact kernel2_sound hL (by omega) rel hd

/-- The state `2 * L + 1` is no end and is never left. -/
theorem kernel_dead (hL : L ≤ row.length) (rel : Nat) (h : (kernelEdge loop blank row L rel).1 = 2 * L + 1) :
    (kernelEdge loop blank row L rel).2.1 = 2 * L + 1 := by
  by_contra hd
  have := (kernel_sound hL rel hd).src_lt
  rw [take_len hL] at this
  omega

theorem kernelInner_src (rel : Nat) (hr : rel < 5 * (L - 1)) : (kernelInner loop blank row L rel).1 ≤ 2 * L + 1 := by
  unfold kernelInner
  simp only
  split_ifs <;> simp only <;> omega

theorem kernel_src (rel : Nat) : (kernelEdge loop blank row L rel).1 ≤ 2 * L + 1 := by
  unfold kernelEdge
  split
  · unfold kernel0
    split_ifs <;> simp only <;> omega
  · split
    · unfold kernel1
      simp only
      split_ifs <;> simp only <;> omega
    · unfold kernel2
      by_cases h1 : rel < 5 * (L - 1)
      · simp only [if_pos h1]
        exact kernelInner_src rel h1
      · simp only [if_neg h1]
        split_ifs <;> simp only <;> omega

/-- From the states and whether it is blank, the index of the edge. -/
def code (L s t : Nat) (isBlank : Bool) : Nat :=
  if L = 0 then (if t = s then 0 else 1)
  else
    let B := if L = 1 then 0 else 5 * (L - 1) + 1
    if s % 2 = 0 then
      if s / 2 + 1 < L then (if t = s then 5 * (s / 2) else 5 * (s / 2) + 1)
      else if s / 2 + 1 = L then (if t = s then B else if t = s + 1 then B + 1 else B + 2)
      else (if t = s then B + 7 else B + 8)
    else
      if s / 2 + 1 < L then
        (if t = s then 5 * (s / 2) + 2 else if t = s + 1 then 5 * (s / 2) + 3 else if t = s + 2 then 5 * (s / 2) + 4 else 5 * (L - 1))
      else (if t = s then B + 3 else if t = s + 1 then B + 4 else if isBlank then B + 6 else B + 5)

theorem code_kernel0 (rel : Nat) (hd : (kernel0 blank rel).2.1 ≠ 1) :
    code 0 (kernel0 blank rel).1 (kernel0 blank rel).2.1 (decide ((kernel0 blank rel).2.2 = blank)) = rel := by
  revert hd
  unfold kernel0 code
  split_ifs <;> simp_all

theorem code_kernel1 (rel : Nat) (hb : row.getD 0 blank ≠ blank) (hd : (kernel1 loop blank row rel).2.1 ≠ 3) :
    code 1 (kernel1 loop blank row rel).1 (kernel1 loop blank row rel).2.1 (decide ((kernel1 loop blank row rel).2.2 = blank)) = rel := by
  have hb' : decide (row.getD 0 blank = blank) = false := by simpa using hb
  revert hd
  unfold kernel1
  simp only
  cases loop <;> split_ifs <;> simp only [hb', decide_true] <;> unfold code <;> simp <;> omega

theorem code_inner (rel : Nat) (h2L : 2 ≤ L) (hr : rel < 5 * (L - 1)) (c : Bool) (hd : (kernelInner loop blank row L rel).2.1 ≠ 2 * L + 1) :
    code L (kernelInner loop blank row L rel).1 (kernelInner loop blank row L rel).2.1 c = rel := by
  have e0 : ∀ t, t + 1 < L → code L (2 * t) (2 * t) c = 5 * t := by
    intro t ht
    unfold code
    rw [if_neg (by omega), if_pos (by omega), if_pos (by omega), if_pos rfl]; omega
  have e1 : ∀ t, t + 1 < L → code L (2 * t) (2 * t + 1) c = 5 * t + 1 := by
    intro t ht
    unfold code
    rw [if_neg (by omega), if_pos (by omega), if_pos (by omega), if_neg (by omega)]; omega
  have e2 : ∀ t, t + 1 < L → code L (2 * t + 1) (2 * t + 1) c = 5 * t + 2 := by
    intro t ht
    unfold code
    rw [if_neg (by omega), if_neg (by omega), if_pos (by omega), if_pos rfl]; omega
  have e3 : ∀ t, t + 1 < L → code L (2 * t + 1) (2 * t + 2) c = 5 * t + 3 := by
    intro t ht
    unfold code
    rw [if_neg (by omega), if_neg (by omega), if_pos (by omega), if_neg (by omega), if_pos rfl]; omega
  have e4 : ∀ t, t + 1 < L → code L (2 * t + 1) (2 * t + 3) c = 5 * t + 4 := by
    intro t ht
    unfold code
    rw [if_neg (by omega), if_neg (by omega), if_pos (by omega), if_neg (by omega), if_neg (by omega), if_pos rfl]; omega
  have ht : rel / 5 + 1 < L := by omega
  revert hd
  unfold kernelInner
  simp only
  split_ifs <;> simp only <;> intro hd
  · rw [e0 _ ht]; omega
  · rw [e1 _ ht]; omega
  · rw [e2 _ ht]; omega
  · omega
  · rw [e3 _ ht]; omega
  · rw [e4 _ ht]; omega
  · omega

theorem code_kernel2 (rel : Nat) (h2L : 2 ≤ L) (hb : row.getD (L - 1) blank ≠ blank) (hd : (kernel2 loop blank row L rel).2.1 ≠ 2 * L + 1) :
    code L (kernel2 loop blank row L rel).1 (kernel2 loop blank row L rel).2.1 (decide ((kernel2 loop blank row L rel).2.2 = blank)) = rel := by
  have hb' : decide (row.getD (L - 1) blank = blank) = false := by simpa using hb
  have hB : (if L = 1 then 0 else 5 * (L - 1) + 1) = 5 * (L - 1) + 1 := if_neg (by omega)
  revert hd
  unfold kernel2
  simp only
  by_cases h1 : rel < 5 * (L - 1)
  · rw [if_pos h1]
    intro hd
    exact code_inner rel h2L h1 _ hd
  rw [if_neg h1]
  by_cases h1 : rel = 5 * (L - 1)
  · rw [if_pos h1]
    split
    · intro _
      simp only
      unfold code
      rw [if_neg (by omega), if_neg (by omega), if_pos (by omega), if_neg (by omega), if_neg (by omega), if_neg (by omega)]; omega
    · intro hd; exact (hd (by simp only; omega)).elim
  rw [if_neg h1]
  by_cases h1 : rel ≤ 5 * (L - 1) + 3
  · rw [if_pos h1]
    have pre : ∀ t c, code L ((L - 1) * 2) t c =
        if t = (L - 1) * 2 then 5 * (L - 1) + 1 else if t = (L - 1) * 2 + 1 then 5 * (L - 1) + 1 + 1 else 5 * (L - 1) + 1 + 2 := by
      intro t c
      unfold code
      rw [if_neg (by omega), if_pos (by omega), if_neg (by omega), if_pos (by omega), hB]
    split_ifs <;> simp only <;> intro _ <;> rw [pre] <;> split_ifs <;> omega
  rw [if_neg h1]
  by_cases h1 : rel ≤ 5 * (L - 1) + 7
  · rw [if_pos h1]
    have pre : ∀ t c, code L ((L - 1) * 2 + 1) t c = if t = (L - 1) * 2 + 1 then 5 * (L - 1) + 1 + 3 else
        if t = (L - 1) * 2 + 1 + 1 then 5 * (L - 1) + 1 + 4 else if c = true then 5 * (L - 1) + 1 + 6 else 5 * (L - 1) + 1 + 5 := by
      intro t c
      unfold code
      rw [if_neg (by omega), if_neg (by omega), if_neg (by omega), hB]
    split_ifs <;> simp only [hb', decide_true] <;> intro _ <;> rw [pre] <;> simp only [Bool.false_eq_true, if_true, if_false] <;>
      (try split_ifs) <;> omega
  rw [if_neg h1]
  by_cases h1 : rel ≤ 5 * (L - 1) + 9
  · rw [if_pos h1]
    have pre : ∀ t c, code L ((L - 1) * 2 + 2) t c = if t = (L - 1) * 2 + 2 then 5 * (L - 1) + 1 + 7 else 5 * (L - 1) + 1 + 8 := by
      intro t c
      unfold code
      rw [if_neg (by omega), if_pos (by omega), if_neg (by omega), if_neg (by omega), hB]
    split_ifs <;> simp only <;> intro _ <;> rw [pre] <;> split_ifs <;> omega
  rw [if_neg h1]
  intro hd; exact (hd (by simp only; omega)).elim

theorem kernel_unique (hb : blank ∉ row.take L) (hL : L ≤ row.length) (rel rel' : Nat) (hd : (kernelEdge loop blank row L rel).2.1 ≠ 2 * L + 1)
    (he : kernelEdge loop blank row L rel = kernelEdge loop blank row L rel') : rel = rel' := by
  have hne : ∀ i, i < L → row.getD i blank ≠ blank := by
    intro i hi h
    exact hb (List.mem_of_getElem? ((take_get hL blank).2 ⟨hi, h⟩))
  have hcode : ∀ r, (kernelEdge loop blank row L r).2.1 ≠ 2 * L + 1 →
      code L (kernelEdge loop blank row L r).1 (kernelEdge loop blank row L r).2.1 (decide ((kernelEdge loop blank row L r).2.2 = blank)) = r := by
    intro r hr
    unfold kernelEdge at *
    by_cases h0 : L = 0
    · subst h0
      exact code_kernel0 r hr
    · simp only [if_neg h0] at *
      by_cases h1 : L = 1
      · subst h1
        exact code_kernel1 r (hne 0 (by omega)) hr
      · simp only [if_neg h1] at *
        exact code_kernel2 r (by omega) (hne _ (by omega)) hr
  rw [← hcode rel hd, ← hcode rel' (by rw [← he]; exact hd), he]

theorem kernel2_inner {rel t k : Nat} (hr : rel = 5 * t + k) (hk : k < 5) (ht : t + 1 < L) :
    kernel2 loop blank row L rel =
      if k < 2 then if k = 0 then (2 * t, 2 * t, blank) else (2 * t, 2 * t + 1, row.getD t blank)
      else
        if k - 2 = 0 then (2 * t + 1, if loop then 2 * t + 1 else L * 2 + 1, row.getD t blank)
        else if k - 2 = 1 then (2 * t + 1, 2 * t + 2, blank)
        else if row.getD t blank ≠ row.getD (t + 1) blank ∨ loop = false then (2 * t + 1, 2 * t + 3, row.getD (t + 1) blank)
        else (2 * t + 1, L * 2 + 1, blank) := by
  have h1 : rel / 5 = t := by omega
  have h2 : rel % 5 = k := by omega
  unfold kernel2
  simp only
  rw [if_pos (by omega)]
  unfold kernelInner
  rw [h1, h2]

theorem kernel_complete (hb : blank ∉ row.take L) (hL : L ≤ row.length) {s t : Nat} {a : A} (h : Topo loop blank (row.take L) (2 * L + 2) s a t) :
    ∃ rel, rel < 5 * L + 5 ∧ kernelEdge loop blank row L rel = (s, t, a) := by
  have hlen := take_len hL
  rcases (show L = 0 ∨ L = 1 ∨ 2 ≤ L by omega) with h0 | h0 | h2
  · subst h0
    have hn : ∀ (i : Nat) (c : A), (row.take 0)[i]? ≠ some c := by simp
    cases h with
    | blankLoop i hs ht hi =>
      have hi0 : i = 0 := by omega
      subst hi0
      exact ⟨0, by omega, by subst hs ht; rfl⟩
    | label i hs ht hi => exact (hn _ _ hi).elim
    | labelEnd i hs ht hi => exact (hn _ _ hi).elim
    | labelLoop i hs ht hi => exact (hn _ _ hi).elim
    | blank i hs ht hi => omega
    | skip i hs ht hi => exact (hn _ _ hi).elim
    | skipEnd i hs ht hi => exact (hn _ _ hi).elim
    | loopEnd i hs ht hi => exact (hn _ _ hi).elim
    | blankEnd i hs ht hi => omega
    | lastEnd hs ht => exact ⟨1, by omega, by subst hs ht; simp [kernelEdge, kernel0]⟩
  · subst h0
    have hg : ∀ (i : Nat) (c : A), (row.take 1)[i]? = some c → i = 0 ∧ row.getD 0 blank = c := by
      intro i c h
      obtain ⟨h1, h2⟩ := (take_get hL blank).1 h
      have : i = 0 := by omega
      subst this
      exact ⟨rfl, h2⟩
    have hev : ∀ r, kernelEdge loop blank row 1 r = kernel1 loop blank row r := fun _ => rfl
    cases h with
    | blankLoop i hs ht hi =>
      rcases (show i = 0 ∨ i = 1 by omega) with rfl | rfl
      · exact ⟨0, by omega, by subst hs ht; rfl⟩
      · exact ⟨7, by omega, by subst hs ht; rfl⟩
    | label i hs ht hi => obtain ⟨rfl, rfl⟩ := hg _ _ hi; exact ⟨1, by omega, by subst hs ht; rfl⟩
    | labelEnd i hs ht hi => obtain ⟨rfl, rfl⟩ := hg _ _ hi; exact ⟨2, by omega, by subst hs ht; rfl⟩
    | labelLoop i hs ht hi hl => obtain ⟨rfl, rfl⟩ := hg _ _ hi; subst hl; exact ⟨3, by omega, by subst hs ht; rfl⟩
    | blank i hs ht hi => have : i = 0 := by omega
                          subst this; exact ⟨4, by omega, by subst hs ht; rfl⟩
    | skip i hs ht hi hi' => have := (hg _ _ hi').1; omega
    | skipEnd i hs ht hi hi' => have := (hg _ _ hi').1; omega
    | loopEnd i hs ht hi hl => obtain ⟨rfl, rfl⟩ := hg _ _ hi; subst hl; exact ⟨5, by omega, by subst hs ht; rfl⟩
    | blankEnd i hs ht hi => have : i = 0 := by omega
                             subst this; exact ⟨6, by omega, by subst hs ht; rfl⟩
    | lastEnd hs ht => exact ⟨8, by omega, by subst ht; rw [hs, hlen]; rfl⟩
  · have hev : ∀ r, kernelEdge loop blank row L r = kernel2 loop blank row L r := by
      intro r
      unfold kernelEdge
      rw [if_neg (by omega), if_neg (by omega)]
    simp only [hev]
    have hg : ∀ (i : Nat) (c : A), (row.take L)[i]? = some c → i < L ∧ row.getD i blank = c := fun i c h => (take_get hL blank).1 h
    have hp : ∀ {s t s' t' : Nat} {a a' : A}, s = s' → t = t' → a = a' → (s, t, a) = (s', t', a') := by
      rintro _ _ _ _ _ _ rfl rfl rfl; rfl
    cases h with
    | blankLoop i hs ht hi =>
      rcases (show i + 1 < L ∨ i + 1 = L ∨ i = L by omega) with h | h | h
      · refine ⟨5 * i, by omega, ?_⟩
        rw [kernel2_inner (t := i) (k := 0) (by omega) (by omega) h, if_pos (by omega), if_pos rfl]
        exact hp hs.symm ht.symm rfl
      · refine ⟨5 * (L - 1) + 1, by omega, ?_⟩
        unfold kernel2
        simp only
        rw [if_neg (by omega), if_neg (by omega), if_pos (by omega), if_pos (by omega)]
        exact hp (by omega) (by omega) rfl
      · refine ⟨5 * (L - 1) + 8, by omega, ?_⟩
        unfold kernel2
        simp only
        rw [if_neg (by omega), if_neg (by omega), if_neg (by omega), if_neg (by omega), if_pos (by omega), if_pos (by omega)]
        exact hp (by omega) (by omega) rfl
    | label i hs ht hi =>
      obtain ⟨g1, g2⟩ := hg _ _ hi
      rcases (show i + 1 < L ∨ i + 1 = L by omega) with h | h
      · refine ⟨5 * i + 1, by omega, ?_⟩
        rw [kernel2_inner (t := i) (k := 1) (by omega) (by omega) h, if_pos (by omega), if_neg (by omega)]
        exact hp hs.symm ht.symm g2
      · refine ⟨5 * (L - 1) + 2, by omega, ?_⟩
        have hLi : L - 1 = i := by omega
        unfold kernel2
        simp only
        rw [if_neg (by omega), if_neg (by omega), if_pos (by omega), if_neg (by omega), if_pos (by omega)]
        exact hp (by omega) (by omega) (by rw [hLi]; exact g2)
    | labelEnd i hs ht hi hl =>
      obtain ⟨g1, g2⟩ := hg _ _ hi
      refine ⟨5 * (L - 1) + 3, by omega, ?_⟩
      have hLi : L - 1 = i := by omega
      unfold kernel2
      simp only
      rw [if_neg (by omega), if_neg (by omega), if_pos (by omega), if_neg (by omega), if_neg (by omega)]
      exact hp (by omega) (by omega) (by rw [hLi]; exact g2)
    | labelLoop i hs ht hi hl =>
      obtain ⟨g1, g2⟩ := hg _ _ hi
      subst hl
      rcases (show i + 1 < L ∨ i + 1 = L by omega) with h | h
      · refine ⟨5 * i + 2, by omega, ?_⟩
        rw [kernel2_inner (t := i) (k := 2) (by omega) (by omega) h, if_neg (by omega), if_pos (by omega), if_pos rfl]
        exact hp hs.symm ht.symm g2
      · refine ⟨5 * (L - 1) + 4, by omega, ?_⟩
        have hLi : L - 1 = i := by omega
        unfold kernel2
        simp only
        rw [if_neg (by omega), if_neg (by omega), if_neg (by omega), if_pos (by omega), if_pos (by omega), if_pos trivial]
        exact hp (by omega) (by omega) (by rw [hLi]; exact g2)
    | blank i hs ht hi =>
      rcases (show i + 1 < L ∨ i + 1 = L by omega) with h | h
      · refine ⟨5 * i + 3, by omega, ?_⟩
        rw [kernel2_inner (t := i) (k := 3) (by omega) (by omega) h, if_neg (by omega), if_neg (by omega), if_pos (by omega)]
        exact hp hs.symm ht.symm rfl
      · refine ⟨5 * (L - 1) + 5, by omega, ?_⟩
        unfold kernel2
        simp only
        rw [if_neg (by omega), if_neg (by omega), if_neg (by omega), if_pos (by omega), if_neg (by omega), if_pos (by omega)]
        exact hp (by omega) (by omega) rfl
    | skip i hs ht hi hi' hcc =>
      obtain ⟨g1, g2⟩ := hg _ _ hi
      obtain ⟨g1', g2'⟩ := hg _ _ hi'
      refine ⟨5 * i + 4, by omega, ?_⟩
      rw [kernel2_inner (t := i) (k := 4) (by omega) (by omega) g1', if_neg (by omega), if_neg (by omega), if_neg (by omega),
        if_pos (by rw [g2, g2']; exact hcc)]
      exact hp hs.symm ht.symm g2'
    | skipEnd i hs ht hi hi' hcc hl =>
      obtain ⟨g1, g2⟩ := hg _ _ hi
      obtain ⟨g1', g2'⟩ := hg _ _ hi'
      refine ⟨5 * (L - 1), by omega, ?_⟩
      have hLi : L - 2 = i := by omega
      unfold kernel2
      simp only
      rw [if_neg (by omega), if_pos trivial, hLi, if_pos (by rw [g2, g2']; exact hcc)]
      exact hp (by omega) (by omega) g2'
    | loopEnd i hs ht hi hl hl' =>
      obtain ⟨g1, g2⟩ := hg _ _ hi
      subst hl
      refine ⟨5 * (L - 1) + 6, by omega, ?_⟩
      have hLi : L - 1 = i := by omega
      unfold kernel2
      simp only
      rw [if_neg (by omega), if_neg (by omega), if_neg (by omega), if_pos (by omega), if_neg (by omega), if_neg (by omega), if_pos (by omega),
        if_pos trivial]
      exact hp (by omega) (by omega) (by rw [hLi]; exact g2)
    | blankEnd i hs ht hl =>
      refine ⟨5 * (L - 1) + 7, by omega, ?_⟩
      unfold kernel2
      simp only
      rw [if_neg (by omega), if_neg (by omega), if_neg (by omega), if_pos (by omega), if_neg (by omega), if_neg (by omega), if_neg (by omega)]
      exact hp (by omega) (by omega) rfl
    | lastEnd hs ht =>
      refine ⟨5 * (L - 1) + 9, by omega, ?_⟩
      unfold kernel2
      simp only
      rw [if_neg (by omega), if_neg (by omega), if_neg (by omega), if_neg (by omega), if_pos (by omega), if_neg (by omega)]
      exact hp (by omega) (by omega) rfl

end

/-! ### The batch -/

theorem stride_eq {N b b' s s' : Nat} (h : N * b + s = N * b' + s') (h1 : s < N) (h2 : s' < N) : b = b' ∧ s = s' := by
  have hb : b = b' := by
    have e1 : (N * b + s) / N = b := by rw [Nat.mul_add_div (by omega), Nat.div_eq_of_lt h1]; rfl
    have e2 : (N * b' + s') / N = b' := by rw [Nat.mul_add_div (by omega), Nat.div_eq_of_lt h2]; rfl
    rw [← e1, ← e2, h]
  subst hb
  exact ⟨rfl, by omega⟩

theorem hasTopo_native {loop : Bool} {blank : A} {targets : List (List A)} {nTime : Nat} {seqLens : List Nat}
    (hle : ∀ b, b < targets.length → seqLens.getD b 0 ≤ nTime ∧ seqLens.getD b 0 ≤ (targets.getD b []).length)
    {b : Nat} (hbt : b < targets.length) (hb : blank ∉ (targets.getD b []).take (seqLens.getD b 0)) :
    HasTopo ((List.range (targets.length * (5 * nTime + 5))).map (nativeEdge loop blank targets nTime seqLens (5 * nTime + 5)))
      b ((nTime * 2 + 3) * b) loop blank ((targets.getD b []).take (seqLens.getD b 0)) (2 * seqLens.getD b 0 + 2)
      (fun s => s = (nTime * 2 + 3) * b + (2 * seqLens.getD b 0 + 1)) := by
  obtain ⟨hn, hL⟩ := hle b hbt
  have hlen := take_len hL
  -- an edge at the states of this sequence
  have hget : ∀ (e : Nat) (x : Edge A),
      ((List.range (targets.length * (5 * nTime + 5))).map (nativeEdge loop blank targets nTime seqLens (5 * nTime + 5)))[e]? = some x →
      e < targets.length * (5 * nTime + 5) ∧ x = nativeEdge loop blank targets nTime seqLens (5 * nTime + 5) e := by
    intro e x h
    rw [List.getElem?_map] at h
    by_cases he : e < targets.length * (5 * nTime + 5)
    · rw [List.getElem?_range he] at h
      injection h with h
      exact ⟨he, h.symm⟩
    · rw [List.getElem?_eq_none (by simpa using he)] at h; cases h
  have hat : ∀ (e : Nat) (x : Edge A) (s : Nat),
      ((List.range (targets.length * (5 * nTime + 5))).map (nativeEdge loop blank targets nTime seqLens (5 * nTime + 5)))[e]? = some x →
      x.src = (nTime * 2 + 3) * b + s → s ≤ 2 * seqLens.getD b 0 + 2 →
      e / (5 * nTime + 5) = b ∧ x.seq = b ∧
      s = (kernelEdge loop blank (targets.getD b []) (seqLens.getD b 0) (e % (5 * nTime + 5))).1 ∧
      x.dst = (nTime * 2 + 3) * b + (kernelEdge loop blank (targets.getD b []) (seqLens.getD b 0) (e % (5 * nTime + 5))).2.1 ∧
      x.label = (kernelEdge loop blank (targets.getD b []) (seqLens.getD b 0) (e % (5 * nTime + 5))).2.2 := by
    intro e x s h hs hr
    obtain ⟨he, hx⟩ := hget e x h
    have heb : e / (5 * nTime + 5) < targets.length := by
      rw [Nat.div_lt_iff_lt_mul (by omega)]; exact he
    obtain ⟨hn', hL'⟩ := hle _ heb
    have hsrc := kernel_src (loop := loop) (blank := blank) (row := targets.getD (e / (5 * nTime + 5)) [])
      (L := seqLens.getD (e / (5 * nTime + 5)) 0) (e % (5 * nTime + 5))
    rw [hx] at hs
    simp only [nativeEdge] at hs
    obtain ⟨q1, q2⟩ := stride_eq hs (by omega) (by omega)
    refine ⟨q1, by rw [hx]; exact q1, ?_, ?_, ?_⟩
    · rw [← q2, q1]
    · rw [hx]; simp only [nativeEdge]; rw [q1]
    · rw [hx]; simp only [nativeEdge]; rw [q1]
  refine ⟨?_, ?_, ?_, ?_, ?_⟩
  · intro e x s h1 h2 h3 h4
    obtain ⟨q1, q2, q3, q4, q5⟩ := hat e x s h1 h2 (by omega)
    refine ⟨q2, _, q4, ?_⟩
    rw [q3, q5]
    exact kernel_sound hL _ (fun hd => h4 (by rw [q4, hd]))
  · intro s a t h
    obtain ⟨rel, hrel, hk⟩ := kernel_complete hb hL h
    have hidx : (5 * nTime + 5) * b + rel < targets.length * (5 * nTime + 5) := by
      have : (5 * nTime + 5) * (b + 1) ≤ (5 * nTime + 5) * targets.length := Nat.mul_le_mul_left _ hbt
      rw [Nat.mul_comm targets.length]
      rw [Nat.mul_add] at this
      omega
    have e1 : ((5 * nTime + 5) * b + rel) / (5 * nTime + 5) = b := by
      rw [Nat.mul_add_div (by omega), Nat.div_eq_of_lt (by omega)]; rfl
    have e2 : ((5 * nTime + 5) * b + rel) % (5 * nTime + 5) = rel := by
      rw [Nat.mul_add_mod, Nat.mod_eq_of_lt (by omega)]
    refine ⟨(5 * nTime + 5) * b + rel, nativeEdge loop blank targets nTime seqLens (5 * nTime + 5) ((5 * nTime + 5) * b + rel), ?_, ?_, ?_, ?_⟩
    · rw [List.getElem?_map, List.getElem?_range hidx]; rfl
    · simp only [nativeEdge]; rw [e1, e2, hk]
    · simp only [nativeEdge]; rw [e1, e2, hk]
    · simp only [nativeEdge]; rw [e1, e2, hk]
  · intro e e' x x' s t h1 h1' h2 h2' h3 h3' h4 h5
    have hs := h5.src_lt
    have ht := h5.dst
    rw [hlen] at hs ht
    obtain ⟨q1, q2, q3, q4, q5⟩ := hat e x s h1 h2 (by omega)
    obtain ⟨r1, r2, r3, r4, r5⟩ := hat e' x' s h1' h2' (by omega)
    have hu := kernel_unique (loop := loop) hb hL (e % (5 * nTime + 5)) (e' % (5 * nTime + 5)) (by omega)
      (Prod.ext (by omega) (Prod.ext (by omega) (by rw [← q5, ← r5, h4])))
    have d1 := Nat.div_add_mod e (5 * nTime + 5)
    have d2 := Nat.div_add_mod e' (5 * nTime + 5)
    rw [← d1, ← d2, hu, q1, r1]
  · intro e x h hd
    obtain ⟨q1, q2, q3, q4, q5⟩ := hat e x _ h hd (by omega)
    rw [q4, kernel_dead hL _ q3.symm]
  · intro h
    omega

end Verif.CtcFsa
