import Verif.EditDist.Lemmas
import Mathlib.Data.List.GetD
import Mathlib.Tactic.Linarith
import Mathlib.Tactic.IntervalCases
/-
C55: `rf.edit_distance` is the edit distance.
-/
namespace Verif.EditDist

/-! ### Lists -/

theorem getD_zipWith (f : Int → Int → Int) (l r : List Int) (i : Nat) (hl : i < l.length) (hr : i < r.length) :
    (List.zipWith f l r).getD i 0 = f (l.getD i 0) (r.getD i 0) := by
  rw [List.getD_eq_getElem _ _ (by simp; omega), List.getD_eq_getElem _ _ hl, List.getD_eq_getElem _ _ hr, List.getElem_zipWith]

theorem getD_map_succ (l : List Int) (i : Nat) (hl : i < l.length) : (l.map (· + 1)).getD i 0 = l.getD i 0 + 1 := by
  rw [List.getD_eq_getElem _ _ (by simpa using hl), List.getD_eq_getElem _ _ hl, List.getElem_map]

theorem getD_take (l : List Int) (n i : Nat) (h : i < n) : (l.take n).getD i 0 = l.getD i 0 := by
  simp [List.getD_eq_getElem?_getD, List.getElem?_take, h]

theorem getD_drop (l : List Int) (n i : Nat) : (l.drop n).getD i 0 = l.getD (n + i) 0 := by
  simp [List.getD_eq_getElem?_getD, List.getElem?_drop]

theorem length_sl (s n : Nat) (l : List Int) (h : s + n ≤ l.length) : (sl s n l).length = n := by
  simp [sl]; omega

theorem getD_sl (s n i : Nat) (l : List Int) (h : i < n) : (sl s n l).getD i 0 = l.getD (s + i) 0 := by
  rw [sl, getD_take _ _ _ h, getD_drop]

theorem length_assign (x : List Int) (s : Nat) (v : List Int) (h : s + v.length ≤ x.length) : (assign x s v).length = x.length := by
  simp [assign]; omega

theorem getD_assign_in (x : List Int) (s : Nat) (v : List Int) (i : Nat) (h : s + v.length ≤ x.length) (hi : i < v.length) :
    (assign x s v).getD (s + i) 0 = v.getD i 0 := by
  have h1 : (x.take s).length = s := by simp; omega
  simp only [assign, List.getD_eq_getElem?_getD]
  rw [List.getElem?_append_left (by simp; omega), List.getElem?_append_right (by omega), h1]
  congr 2
  omega

theorem getD_assign_out (x : List Int) (s : Nat) (v : List Int) (i : Nat) (h : s + v.length ≤ x.length) (hi : i < s ∨ s + v.length ≤ i) :
    (assign x s v).getD i 0 = x.getD i 0 := by
  have h1 : (x.take s).length = s := by simp; omega
  simp only [assign, List.getD_eq_getElem?_getD]
  rcases hi with hi | hi
  · rw [List.append_assoc, List.getElem?_append_left (by omega), List.getElem?_take]
    simp [hi]
  · rw [List.getElem?_append_right (by simp; omega), List.getElem?_drop]
    congr 2
    simp
    omega

/-! ### One iteration -/

/-- The symbols of `a` (with the padding on the right), `b`. -/
def symA (nb : Nat) (aExt : List Int) (k : Nat) : Int := aExt.getD (nb + k) 0
def symB (b : List Int) (k : Nat) : Int := b.getD k 0

structure Inv (nb : Nat) (f g : Nat → Int) (u : Nat) (buf : List Int) : Prop where
  len : buf.length = 3 * (nb + 1)
  vals : ∀ v, v ≤ u → u ≤ v + 1 → ∀ e, e ≤ nb → nb ≤ v + e →
    buf.getD (off nb ((v + 2) % 3) + e) 0 = dp f g (v + e - nb) (nb - e)

theorem off_le (nb i : Nat) : off nb (i % 3) + (nb + 1) ≤ 3 * (nb + 1) := by
  have : i % 3 < 3 := Nat.mod_lt _ (by omega)
  unfold off
  interval_cases i % 3 <;> omega

theorem off_ne (nb u e : Nat) (he : e ≤ nb) :
    off nb ((u + 2) % 3) + e < off nb ((u + 1 + 2) % 3) ∨ off nb ((u + 1 + 2) % 3) + (nb + 1) ≤ off nb ((u + 2) % 3) + e := by
  have h1 : (u + 1 + 2) % 3 = ((u + 2) % 3 + 1) % 3 := by omega
  have : (u + 2) % 3 < 3 := Nat.mod_lt _ (by omega)
  rw [h1]
  unfold off
  interval_cases (u + 2) % 3 <;> simp <;> omega

theorem length_minCosts {nb u : Nat} {prev2 prev aExt bFlip : List Int} (h2 : prev2.length = nb + 1) (h1 : prev.length = nb + 1)
    (ha : u + nb ≤ aExt.length + 1) (hu : 0 < u) (hb : bFlip.length = nb) : (minCosts nb u prev2 prev aExt bFlip).length = nb := by
  have := length_sl (u - 1) nb aExt (by omega)
  simp [minCosts, subCosts, this, h1, h2, hb]

theorem getD_minCosts {nb u : Nat} {prev2 prev aExt bFlip : List Int} (h2 : prev2.length = nb + 1) (h1 : prev.length = nb + 1)
    (ha : u + nb ≤ aExt.length + 1) (hu : 0 < u) (hb : bFlip.length = nb) (e : Nat) (he : e < nb) :
    (minCosts nb u prev2 prev aExt bFlip).getD e 0 = min (min (prev.getD e 0 + 1) (prev.getD (e + 1) 0 + 1))
      (prev2.getD (e + 1) 0 + if aExt.getD (u - 1 + e) 0 ≠ bFlip.getD e 0 then 1 else 0) := by
  have hs := length_sl (u - 1) nb aExt (by omega)
  rw [minCosts, getD_zipWith _ _ _ _ (by simp; omega) (by simp [subCosts, hs]; omega),
    getD_zipWith _ _ _ _ (by simp; omega) (by simp; omega), getD_map_succ _ _ (by simp; omega), getD_map_succ _ _ (by simp; omega),
    getD_take _ _ _ he, getD_drop, subCosts, getD_zipWith _ _ _ _ (by simp; omega) (by simp [hs]; omega), getD_drop,
    getD_zipWith _ _ _ _ (by omega) (by omega), getD_sl _ _ _ _ he]
  simp only [Nat.add_comm 1 e]

theorem length_curDist {nb u : Nat} {m : List Int} (h : m.length = nb) : (curDist nb u m).length = nb := by
  simp [curDist, h]

theorem getD_curDist {nb u : Nat} {m : List Int} (h : m.length = nb) (e : Nat) (he : e < nb) :
    (curDist nb u m).getD e 0 = if nb < u + e then m.getD e 0 else (u : Int) := by
  rw [List.getD_eq_getElem _ _ (by rw [length_curDist h]; exact he), List.getD_eq_getElem _ _ (by omega)]
  simp only [curDist, List.getElem_zipWith, List.getElem_range]
  by_cases hc : nb < u + e
  · rw [if_pos hc, if_pos (by omega)]
  · rw [if_neg hc, if_neg (by omega)]

theorem dp_zero (f g : Nat → Int) (i : Nat) : dp f g i 0 = i := by cases i <;> simp [dp]

theorem getD_reverse (b : List Int) (e : Nat) (he : e < b.length) : b.reverse.getD e 0 = b.getD (b.length - 1 - e) 0 := by
  rw [List.getD_eq_getElem _ _ (by simpa using he), List.getD_eq_getElem _ _ (by omega), List.getElem_reverse]

theorem inv_next {nb u : Nat} {aExt b buf : List Int} (hb : b.length = nb) (ha : u + 1 + nb ≤ aExt.length + 1)
    (h : Inv nb (symA nb aExt) (symB b) u buf) :
    Inv nb (symA nb aExt) (symB b) (u + 1) (nextBuffer nb (u + 1) aExt b.reverse buf) := by
  have hlen := h.len
  have o1 := off_le nb (u + 1)
  have o2 := off_le nb (u + 1 + 1)
  have o3 := off_le nb (u + 1 + 2)
  have hl2 : (sl (off nb ((u + 1) % 3)) (nb + 1) buf).length = nb + 1 := length_sl _ _ _ (by omega)
  have hl1 : (sl (off nb ((u + 1 + 1) % 3)) (nb + 1) buf).length = nb + 1 := length_sl _ _ _ (by omega)
  have hbl : b.reverse.length = nb := by simpa using hb
  have hmin := length_minCosts (u := u + 1) (aExt := aExt) hl2 hl1 ha (by omega) hbl
  have hcur := length_curDist (u := u + 1) hmin
  have hlen1 : (assign buf (off nb ((u + 1 + 2) % 3)) (curDist nb (u + 1) (minCosts nb (u + 1) (sl (off nb ((u + 1) % 3)) (nb + 1) buf)
      (sl (off nb ((u + 1 + 1) % 3)) (nb + 1) buf) aExt b.reverse))).length = 3 * (nb + 1) := by
    rw [length_assign _ _ _ (by rw [hcur]; omega), hlen]
  constructor
  · rw [nextBuffer, length_assign _ _ _ (by rw [hlen1]; simp; omega), hlen1]
  · intro v hv1 hv2 e he hve
    rw [nextBuffer]
    by_cases hv : v = u + 1
    · subst hv
      by_cases hen : e = nb
      · subst hen
        have := getD_assign_in (assign buf (off e ((u + 1 + 2) % 3)) (curDist e (u + 1) (minCosts e (u + 1) (sl (off e ((u + 1) % 3))
          (e + 1) buf) (sl (off e ((u + 1 + 1) % 3)) (e + 1) buf) aExt b.reverse))) (off e ((u + 1 + 2) % 3) + e) [((u + 1 : Nat) : Int)] 0
          (by rw [hlen1]; simp; omega) (by simp)
        simp only [Nat.add_zero] at this
        rw [this]
        simp [dp_zero]
      · have hlt : e < nb := by omega
        rw [getD_assign_out _ _ _ _ (by rw [hlen1]; simp; omega) (Or.inl (by omega)),
          getD_assign_in _ _ _ _ (by rw [hcur]; omega) (by omega), getD_curDist hmin e hlt]
        by_cases hta : nb < u + 1 + e
        · rw [if_pos hta, getD_minCosts hl2 hl1 ha (by omega) hbl e hlt, getD_sl _ _ _ _ (by omega), getD_sl _ _ _ _ (by omega),
            getD_sl _ _ _ _ (by omega)]
          obtain ⟨i, hi⟩ : ∃ i, u + 1 + e - nb = i + 1 := ⟨u + e - nb, by omega⟩
          obtain ⟨j, hj⟩ : ∃ j, nb - e = j + 1 := ⟨nb - e - 1, by omega⟩
          have v1 := h.vals u (le_refl _) (by omega) e he (by omega)
          have v2 := h.vals u (le_refl _) (by omega) (e + 1) (by omega) (by omega)
          have v3 := h.vals (u - 1) (by omega) (by omega) (e + 1) (by omega) (by omega)
          rw [show u - 1 + 2 = u + 1 by omega] at v3
          rw [show u + 1 + 1 = u + 2 by omega, v1, v2, v3, hi, hj, dp]
          rw [show u + e - nb = i by omega, show u + (e + 1) - nb = i + 1 by omega, show nb - (e + 1) = j by omega,
            show u - 1 + (e + 1) - nb = i by omega]
          rw [min_comm (dp (symA nb aExt) (symB b) i (j + 1) + 1)]
          have hf : aExt.getD (u + 1 - 1 + e) 0 = symA nb aExt i := by
            unfold symA
            congr 1
            omega
          have hg : b.reverse.getD e 0 = symB b j := by
            rw [getD_reverse b e (by omega)]
            unfold symB
            congr 1
            omega
          rw [hf, hg]
        · rw [if_neg hta]
          rw [show u + 1 + e - nb = 0 by omega]
          simp only [dp]
          omega
    · have hvu : v = u := by omega
      subst hvu
      have hne := off_ne nb v e he
      rw [getD_assign_out _ _ _ _ (by rw [hlen1]; simp only [List.length_singleton]; omega) (by simp only [List.length_singleton]; omega),
        getD_assign_out _ _ _ _ (by rw [hcur]; omega) (by rw [hcur]; omega)]
      exact h.vals v (le_refl _) (by omega) e he hve

theorem inv_zero (nb : Nat) (f g : Nat → Int) : Inv nb f g 0 (List.replicate (3 * (nb + 1)) 0) := by
  constructor
  · simp
  · intro v hv _ e he hve
    have : v = 0 := by omega
    subst this
    have : e = nb := by omega
    subst this
    rw [show 0 + e - e = 0 by omega, show e - e = 0 by omega]
    simp [dp]

theorem loop_spec {nb na la lb : Nat} {a b : List Int} (ha : a.length = na) (hb : b.length = nb) (hla : la ≤ na) (hlb : lb ≤ nb) (r0 : Int) :
    ∀ n, n ≤ na + nb →
    let aExt := List.replicate nb 0 ++ a ++ List.replicate nb 0
    let s := loop nb la lb aExt b.reverse n (List.replicate (3 * (nb + 1)) 0, r0)
    Inv nb (symA nb aExt) (symB b) n s.1 ∧
    s.2 = if 0 < la + lb ∧ la + lb ≤ n then dp (symA nb aExt) (symB b) la lb else r0
  | 0, _ => by
    refine ⟨inv_zero _ _ _, ?_⟩
    simp only [loop]
    rw [if_neg (by omega)]
  | n + 1, hn => by
    obtain ⟨h1, h2⟩ := loop_spec ha hb hla hlb r0 n (by omega)
    have hext : (List.replicate nb (0 : Int) ++ a ++ List.replicate nb 0).length = na + 2 * nb := by simp [ha]; omega
    have h3 := inv_next hb (by rw [hext]; omega) h1
    refine ⟨h3, ?_⟩
    simp only [loop]
    unfold nextResult
    simp only
    by_cases hu : la + lb = n + 1
    · rw [if_pos (by omega), if_pos (by omega)]
      unfold gatherClip
      have hidx : (((off nb ((n + 1 + 2) % 3) : Nat) : Int) + ((nb : Int) + la - ((n + 1 : Nat) : Int))).toNat
          = off nb ((n + 1 + 2) % 3) + (nb - lb) := by omega
      rw [hidx, h3.len, Nat.min_eq_left (by have := off_le nb (n + 1 + 2); omega), h3.vals (n + 1) (le_refl _) (by omega) (nb - lb) (by omega)
        (by omega)]
      congr 1 <;> omega
    · rw [if_neg (by omega), h2]
      by_cases hc : 0 < la + lb ∧ la + lb ≤ n
      · rw [if_pos hc, if_pos (by omega)]
      · rw [if_neg hc, if_neg (by omega)]

theorem pre_eq_take (f : Nat → Int) (a : List Int) (n : Nat) (h : n ≤ a.length) (hf : ∀ k, k < n → f k = a.getD k 0) : pre f n = a.take n := by
  apply List.ext_getElem
  · simp [pre, h]
  · intro i h1 h2
    have hi : i < n := by simpa [pre] using h1
    simp only [pre, List.getElem_map, List.getElem_range, List.getElem_take]
    rw [hf i hi, List.getD_eq_getElem]

/-- **C55** One batch entry. -/
theorem editDistance1_correct (maxErr : Int) (na nb : Nat) (e : Entry) (ha : e.a.length = na) (hb : e.b.length = nb) (hla : e.la ≤ na)
    (hlb : e.lb ≤ nb) : IsDist (e.a.take e.la) (e.b.take e.lb) (editDistance1 maxErr na nb e) := by
  have h := (loop_spec ha hb hla hlb (if e.la = 0 ∧ e.lb = 0 then 0 else maxErr) (na + nb) (le_refl _)).2
  unfold editDistance1
  simp only at h ⊢
  rw [h]
  have key := dp_isDist (symA nb (List.replicate nb 0 ++ e.a ++ List.replicate nb 0)) (symB e.b) e.la e.lb
  rw [pre_eq_take _ e.a e.la (by omega) ?_, pre_eq_take _ e.b e.lb (by omega) ?_] at key
  · by_cases hz : e.la = 0 ∧ e.lb = 0
    · rw [if_neg (by omega), if_pos hz]
      rw [hz.1, hz.2] at key ⊢
      simpa [dp] using key
    · rw [if_pos (by omega)]
      exact key
  · intro k hk
    rfl
  · intro k hk
    unfold symA
    simp only [List.getD_eq_getElem?_getD]
    rw [List.getElem?_append_left (by simp; omega), List.getElem?_append_right (by simp)]
    simp

theorem edit_symm {α : Type} {a b : List α} (h : Edit a b) : Edit b a := by
  cases h with
  | ins p s x => exact .del p s x
  | del p s x => exact .ins p s x
  | sub p s x y => exact .sub p s y x

theorem edits_trans1 {α : Type} {a b c : List α} {n : Nat} (h : Edit a b) (h2 : Edits b c n) : Edits a c (n + 1) := by
  induction h2 with
  | refl => exact .step (.refl _) h
  | step _ he ih => exact .step ih he

theorem edits_symm {α : Type} {a b : List α} {n : Nat} (h : Edits a b n) : Edits b a n := by
  induction h with
  | refl => exact .refl _
  | step _ he ih => exact edits_trans1 (edit_symm he) ih

theorem isDist_symm {α : Type} {a b : List α} {n : Int} (h : IsDist a b n) : IsDist b a n := by
  obtain ⟨⟨m, h1, h2⟩, h3⟩ := h
  exact ⟨⟨m, h1, edits_symm h2⟩, fun k hk => h3 k (edits_symm hk)⟩

/-- **C55** `rf.edit_distance` gives, for each entry of the batch, the least number of insertions, deletions and substitutions which turn
the labels of `a` into the labels of `b`, whatever is in the padding, and whichever of both is longer. -/
theorem editDistance_correct (maxErr : Int) (na nb : Nat) (batch : List Entry)
    (h : ∀ e ∈ batch, e.a.length = na ∧ e.b.length = nb ∧ e.la ≤ na ∧ e.lb ≤ nb) :
    (editDistance maxErr na nb batch).length = batch.length ∧
    ∀ i (hi : i < batch.length), ∃ d, (editDistance maxErr na nb batch)[i]? = some d ∧
      IsDist (batch[i].a.take batch[i].la) (batch[i].b.take batch[i].lb) d := by
  unfold editDistance
  split
  · refine ⟨by simp, ?_⟩
    intro i hi
    obtain ⟨h1, h2, h3, h4⟩ := h _ (List.getElem_mem hi)
    exact ⟨_, by rw [List.getElem?_map, List.getElem?_eq_getElem hi]; rfl, isDist_symm (editDistance1_correct maxErr nb na (swap batch[i]) h2 h1 h4 h3)⟩
  · refine ⟨by simp, ?_⟩
    intro i hi
    obtain ⟨h1, h2, h3, h4⟩ := h _ (List.getElem_mem hi)
    exact ⟨_, by rw [List.getElem?_map, List.getElem?_eq_getElem hi]; rfl, editDistance1_correct maxErr na nb batch[i] h1 h2 h3 h4⟩

/-- The distance is unique. -/
theorem isDist_unique {α : Type} {a b : List α} {m n : Int} (h1 : IsDist a b m) (h2 : IsDist a b n) : m = n := by
  obtain ⟨⟨k, rfl, hk⟩, h1⟩ := h1
  obtain ⟨⟨l, rfl, hl⟩, h2⟩ := h2
  exact le_antisymm (h1 l hl) (h2 k hk)

theorem edits_trans {α : Type} {a b c : List α} {m n : Nat} (h1 : Edits a b m) (h2 : Edits b c n) : Edits a c (m + n) := by
  induction h2 with
  | refl => exact h1
  | step _ he ih => exact .step ih he

/-- It is a metric. -/
theorem isDist_triangle {α : Type} {a b c : List α} {x y z : Int} (h1 : IsDist a b x) (h2 : IsDist b c y) (h3 : IsDist a c z) : z ≤ x + y := by
  obtain ⟨⟨k, rfl, hk⟩, _⟩ := h1
  obtain ⟨⟨l, rfl, hl⟩, _⟩ := h2
  have := h3.2 _ (edits_trans hk hl)
  push_cast at this
  exact this

theorem isDist_zero {α : Type} {a b : List α} : IsDist a b 0 ↔ a = b := by
  constructor
  · rintro ⟨⟨m, h1, h2⟩, _⟩
    have : m = 0 := by omega
    subst this
    cases h2
    rfl
  · rintro rfl
    exact ⟨⟨0, rfl, .refl _⟩, fun m _ => by omega⟩

/-! ### Examples -/

example : editDistance 2147483647 4 3 [⟨[1, 2, 3, 4], 4, [1, 3, 9], 2⟩, ⟨[7, 7, 0, 0], 2, [7, 8, 7], 3⟩, ⟨[5, 5, 5, 5], 0, [6, 6, 6], 0⟩] = [2, 1, 0] := by
  decide +kernel
example : editDistance 2147483647 2 3 [⟨[1, 2], 2, [3, 1, 2], 3⟩] = [1] := by decide +kernel
example : editDistance 2147483647 2 0 [⟨[1, 2], 2, [], 0⟩, ⟨[1, 2], 1, [], 0⟩] = [2, 1] := by decide +kernel
example : IsDist ([1, 2, 3, 4] : List Int) [1, 3] 2 := by
  have := (editDistance_correct 100 4 2 [⟨[1, 2, 3, 4], 4, [1, 3], 2⟩] (by simp)).2 0 (by simp)
  obtain ⟨d, h1, h2⟩ := this
  have : editDistance 100 4 2 [⟨[1, 2, 3, 4], 4, [1, 3], 2⟩] = [2] := by decide +kernel
  rw [this] at h1
  simp at h1
  subst h1
  exact h2

end Verif.EditDist
