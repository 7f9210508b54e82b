import Verif.RfPcw.Model
import Verif.RfPcw.Spec
import Mathlib.Tactic.Linarith
import Mathlib.Tactic.Ring
import Mathlib.Tactic.FieldSimp
import Mathlib.Algebra.Order.Ring.Rat
import Mathlib.Algebra.Order.Field.Basic
/-
C124: piecewise linear functions.
-/
namespace Verif.RfPcw
open Verif Verif.Py

theorem sort_perm (l : List (ℚ × ℚ)) : (sortPts l).Perm l := List.mergeSort_perm _ _

theorem sort_le (l : List (ℚ × ℚ)) : (sortPts l).Pairwise (fun a b => a.1 ≤ b.1) := by
  have := List.pairwise_mergeSort (le := fun a b : ℚ × ℚ => decide (a.1 ≤ b.1)) (by
    intro a b c h1 h2
    simp only [decide_eq_true_eq] at *
    exact le_trans h1 h2) (by
    intro a b
    simp only [Bool.or_eq_true, decide_eq_true_eq]
    exact le_total _ _) l
  exact this.imp (by intro a b h; simpa using h)

theorem sort_lt {l : List (ℚ × ℚ)} (h : (l.map (fun p => p.1)).Nodup) : (sortPts l).Pairwise (fun a b => a.1 < b.1) := by
  have h1 := sort_le l
  have h2 : ((sortPts l).map (fun p => p.1)).Nodup := (((sort_perm l).map _).nodup_iff).2 h
  have h3 : (sortPts l).Pairwise (fun a b => a.1 ≠ b.1) := by
    rw [List.Nodup, List.pairwise_map] at h2
    exact h2
  exact (h1.and h3).imp (fun h => lt_of_le_of_ne h.1 h.2)

/-- What the position is: everything before it is less, everything from it on is not. -/
theorem search_spec : ∀ (l : List (ℚ × ℚ)) (x : ℚ), l.Pairwise (fun a b => a.1 < b.1) →
    ∃ n : Nat, searchSorted (l.map (fun p => p.1)) x = n ∧ n ≤ l.length ∧ ∀ (i : Nat) (p : ℚ × ℚ), l[i]? = some p → (i < n ↔ p.1 < x) := by
  intro l x
  induction l with
  | nil => intro _; exact ⟨0, rfl, le_refl _, by simp⟩
  | cons a t ih =>
    intro h
    rw [List.pairwise_cons] at h
    obtain ⟨n, h1, h2, h3⟩ := ih h.2
    unfold searchSorted at h1 ⊢
    rw [List.map_cons, List.takeWhile_cons]
    by_cases hx : a.1 < x
    · refine ⟨n + 1, ?_, by simpa using h2, ?_⟩
      · simp only [hx, decide_true, if_true, List.length_cons]
        rw [Nat.cast_add, h1]
        rfl
      · intro i p hi
        cases i with
        | zero =>
          simp only [List.getElem?_cons_zero, Option.some.injEq] at hi
          subst hi
          simp [hx]
        | succ i =>
          rw [List.getElem?_cons_succ] at hi
          rw [Nat.add_lt_add_iff_right]
          exact h3 i p hi
    · refine ⟨0, by simp [hx], by simp, ?_⟩
      intro i p hi
      have : ¬ p.1 < x := by
        cases i with
        | zero =>
          simp only [List.getElem?_cons_zero, Option.some.injEq] at hi
          subst hi
          exact hx
        | succ i =>
          rw [List.getElem?_cons_succ] at hi
          have := h.1 p (List.mem_of_getElem? hi)
          exact fun hp => hx (lt_trans this hp)
      simp [this]

theorem gather_nat (l : List ℚ) {i : Nat} {v : ℚ} (h : l[i]? = some v) : gather l (i : Int) = .ok v := by
  unfold gather
  have : ¬ ((i : Int) < 0) := by omega
  simp [this, h]

/-- With at least two points, what is computed: two neighbours, with `x` between them except at the ends. -/
theorem call_spec {points : List (ℚ × ℚ)} (hnd : (points.map (fun p => p.1)).Nodup) (h2 : 2 ≤ points.length) (x : ℚ) :
    ∃ (a b : ℚ × ℚ) (i : Nat), (sortPts points)[i]? = some a ∧ (sortPts points)[i + 1]? = some b ∧ a.1 < b.1 ∧ (a.1 < x ∨ i = 0) ∧ (x ≤ b.1 ∨ i + 2 = points.length) ∧
      call points x = .ok (some (a.2 + clampQ ((x - a.1) / (b.1 - a.1)) 0 1 * (b.2 - a.2))) := by
  have hs := sort_lt hnd
  have hlen : (sortPts points).length = points.length := (sort_perm points).length_eq
  obtain ⟨n, hn, hnle, hspec⟩ := search_spec (sortPts points) x hs
  rw [hlen] at hnle
  -- the position of the left neighbour
  obtain ⟨i, hi⟩ : ∃ i : Nat, i = min (max n 1) (points.length - 1) - 1 := ⟨_, rfl⟩
  have hclamp : clamp (n : Int) 1 (((sortPts points).map (fun p => p.1)).length - 1) = ((i + 1 : Nat) : Int) := by
    unfold clamp
    rw [List.length_map, hlen]
    omega
  have hi1 : i + 1 < (sortPts points).length := by omega
  have hi0 : i < (sortPts points).length := by omega
  have ha : (sortPts points)[i]? = some (sortPts points)[i] := List.getElem?_eq_getElem hi0
  have hb : (sortPts points)[i + 1]? = some (sortPts points)[i + 1] := List.getElem?_eq_getElem hi1
  have hab : ((sortPts points)[i]).1 < ((sortPts points)[i + 1]).1 := List.pairwise_iff_getElem.1 hs i (i + 1) hi0 hi1 (by omega)
  refine ⟨(sortPts points)[i], (sortPts points)[i + 1], i, ha, hb, hab, ?_, ?_, ?_⟩
  · by_cases h0 : i = 0
    · exact .inr h0
    · left
      exact (hspec i _ ha).1 (by omega)
  · by_cases h0 : i + 2 = points.length
    · exact .inr h0
    · left
      by_contra hc
      have := (hspec (i + 1) _ hb).2 (not_le.1 hc)
      omega
  · have hne : points ≠ [] := by rintro rfl; simp at h2
    unfold call
    simp only [hne, if_false, hn, hclamp]
    have hm1 : (((i + 1 : Nat) : Int) - 1) = (i : Int) := by omega
    rw [hm1]
    have g1 := gather_nat ((sortPts points).map (fun p => p.1)) (i := i) (v := ((sortPts points)[i]).1) (by rw [List.getElem?_map, ha]; rfl)
    have g2 := gather_nat ((sortPts points).map (fun p => p.1)) (i := i + 1) (v := ((sortPts points)[i + 1]).1) (by rw [List.getElem?_map, hb]; rfl)
    have g3 := gather_nat ((sortPts points).map (fun p => p.2)) (i := i) (v := ((sortPts points)[i]).2) (by rw [List.getElem?_map, ha]; rfl)
    have g4 := gather_nat ((sortPts points).map (fun p => p.2)) (i := i + 1) (v := ((sortPts points)[i + 1]).2) (by rw [List.getElem?_map, hb]; rfl)
    rw [g1, g2, g3, g4]
    have hz : ¬ ((sortPts points)[i + 1]).1 - ((sortPts points)[i]).1 = 0 := by
      intro h
      linarith
    simp only [bind, Except.bind, frac, hz, if_false, Option.map_some, lerp]

theorem clamp_mid {r : ℚ} (h0 : 0 ≤ r) (h1 : r ≤ 1) : clampQ r 0 1 = r := by
  unfold clampQ
  rw [max_eq_left h0, min_eq_left h1]

theorem clamp_low {r : ℚ} (h0 : r ≤ 0) : clampQ r 0 1 = 0 := by
  unfold clampQ
  rw [max_eq_right h0]
  exact min_eq_left (by norm_num)

theorem clamp_high {r : ℚ} (h0 : 1 ≤ r) : clampQ r 0 1 = 1 := by
  unfold clampQ
  rw [max_eq_left (by linarith), min_eq_right h0]

theorem key_inj {points : List (ℚ × ℚ)} (hnd : (points.map (fun p => p.1)).Nodup) {p q : ℚ × ℚ} (hp : p ∈ points) (hq : q ∈ points) (h : p.1 = q.1) : p = q := by
  induction points with
  | nil => cases hp
  | cons a t ih =>
    rw [List.map_cons, List.nodup_cons] at hnd
    have hno : ∀ r ∈ t, r.1 ≠ a.1 := fun r hr hra => hnd.1 (List.mem_map.2 ⟨r, hr, hra⟩)
    rcases List.mem_cons.1 hp with hpa | hp'
    · rcases List.mem_cons.1 hq with hqa | hq'
      · rw [hpa, hqa]
      · exact absurd (by rw [← h, hpa]) (hno q hq')
    · rcases List.mem_cons.1 hq with hqa | hq'
      · exact absurd (by rw [h, hqa]) (hno p hp')
      · exact ih hnd.2 hp' hq'

/-- With at least two points: the value is on the line through the neighbours, and constant outside. Partial: not for one point. -/
theorem interp_partial {points : List (ℚ × ℚ)} (hnd : (points.map (fun p => p.1)).Nodup) (h2 : 2 ≤ points.length) (x : ℚ) :
    ∃ y, call points x = .ok (some y) ∧ Interp points x y := by
  obtain ⟨a, b, i, ha, hb, hab, hx1, hx2, hcall⟩ := call_spec hnd h2 x
  refine ⟨_, hcall, ?_⟩
  have hs := sort_lt hnd
  have hlen : (sortPts points).length = points.length := (sort_perm points).length_eq
  have hmem : ∀ p, p ∈ points ↔ p ∈ sortPts points := fun p => (sort_perm points).mem_iff.symm
  have haM : a ∈ points := (hmem a).2 (List.mem_of_getElem? ha)
  have hbM : b ∈ points := (hmem b).2 (List.mem_of_getElem? hb)
  -- all other points are outside
  have hout : ∀ p ∈ points, p.1 ≤ a.1 ∨ b.1 ≤ p.1 := by
    intro p hp
    obtain ⟨j, hj, hjp⟩ := List.getElem_of_mem ((hmem p).1 hp)
    obtain ⟨hi0, hai⟩ := List.getElem?_eq_some_iff.1 ha
    obtain ⟨hi1, hbi⟩ := List.getElem?_eq_some_iff.1 hb
    rcases Nat.lt_trichotomy j i with h | h | h
    · left
      rw [← hjp, ← hai]
      exact le_of_lt (List.pairwise_iff_getElem.1 hs j i hj hi0 h)
    · subst h
      left
      rw [← hjp, ← hai]
    · rcases Nat.lt_or_ge (i + 1) j with h' | h'
      · right
        rw [← hjp, ← hbi]
        exact le_of_lt (List.pairwise_iff_getElem.1 hs (i + 1) j hi1 hj h')
      · have : j = i + 1 := by omega
        subst this
        right
        rw [← hjp, ← hbi]
  have hfirst : i = 0 → ∀ p ∈ points, a.1 ≤ p.1 := by
    intro h0 p hp
    obtain ⟨j, hj, hjp⟩ := List.getElem_of_mem ((hmem p).1 hp)
    obtain ⟨hi0, hai⟩ := List.getElem?_eq_some_iff.1 ha
    rcases Nat.eq_zero_or_pos j with h | h
    · subst h
      subst h0
      rw [← hjp, ← hai]
    · rw [← hjp, ← hai]
      exact le_of_lt (List.pairwise_iff_getElem.1 hs i j hi0 hj (by omega))
  have hlast : i + 2 = points.length → ∀ p ∈ points, p.1 ≤ b.1 := by
    intro h0 p hp
    obtain ⟨j, hj, hjp⟩ := List.getElem_of_mem ((hmem p).1 hp)
    obtain ⟨hi1, hbi⟩ := List.getElem?_eq_some_iff.1 hb
    by_cases h : j = i + 1
    · subst h
      rw [← hjp, ← hbi]
    · rw [← hjp, ← hbi]
      exact le_of_lt (List.pairwise_iff_getElem.1 hs j (i + 1) hj hi1 (by omega))
  have hba : 0 < b.1 - a.1 := by linarith
  -- the value in the three cases
  have hmid : a.1 ≤ x → x ≤ b.1 → (clampQ ((x - a.1) / (b.1 - a.1)) 0 1) * (b.1 - a.1) = x - a.1 := by
    intro h h'
    rw [clamp_mid (div_nonneg (by linarith) (le_of_lt hba)) ((div_le_one hba).2 (by linarith))]
    field_simp
  have hlow : x ≤ a.1 → clampQ ((x - a.1) / (b.1 - a.1)) 0 1 = 0 := fun h => clamp_low (div_nonpos_of_nonpos_of_nonneg (by linarith) (le_of_lt hba))
  have hhigh : b.1 ≤ x → clampQ ((x - a.1) / (b.1 - a.1)) 0 1 = 1 := fun h => clamp_high ((one_le_div hba).2 (by linarith))
  refine ⟨?_, ?_, ?_⟩
  · intro c vc d vd hc hd hcd hno hcx hxd
    -- either the same neighbours, or `x` is at a point
    have hcase1 : ∀ p ∈ points, p.1 ≤ c ∨ d ≤ p.1 := hno
    by_cases hxa : x ≤ a.1
    · -- then `x` is not behind the first neighbour, so it is the first point
      have hi0 : i = 0 := by
        rcases hx1 with h | h
        · linarith
        · exact h
      have hca : c = a.1 := le_antisymm (le_trans hcx hxa) (hfirst hi0 (c, vc) hc)
      have := key_inj hnd hc haM hca
      have hv : vc = a.2 := by rw [← this]
      have hxc : x = a.1 := le_antisymm hxa (by rw [← hca]; exact hcx)
      rw [hlow hxa, hv, hxc, hca]
      ring
    · have hxa := not_le.1 hxa
      by_cases hxb : b.1 ≤ x
      · by_cases hxb' : x = b.1
        · -- at the right neighbour
          rw [hhigh hxb]
          rcases hcase1 b hbM with h | h
          · have hcb : c = b.1 := le_antisymm (by rw [← hxb']; exact hcx) h
            have := key_inj hnd hc hbM hcb
            have hv : vc = b.2 := by rw [← this]
            rw [hv, hcb, hxb']
            ring
          · have hdb : d = b.1 := le_antisymm h (by rw [← hxb']; exact hxd)
            have := key_inj hnd hd hbM hdb
            have hv : vd = b.2 := by rw [← this]
            have hca : c = a.1 := by
              apply le_antisymm
              · rcases hout (c, vc) hc with h' | h'
                · exact h'
                · simp only at h'
                  linarith
              · rcases hcase1 a haM with h' | h'
                · exact h'
                · linarith
            have := key_inj hnd hc haM hca
            have hv' : vc = a.2 := by rw [← this]
            rw [hv, hv', hdb, hca, hxb']
            ring
        · exfalso
          have hlt : b.1 < x := lt_of_le_of_ne hxb (Ne.symm hxb')
          rcases hx2 with h | h
          · linarith
          · have := hlast h (d, vd) hd
            simp only at this
            linarith
      · have hxb := not_le.1 hxb
        have hca : c = a.1 := by
          apply le_antisymm
          · rcases hout (c, vc) hc with h' | h'
            · exact h'
            · simp only at h'
              linarith
          · rcases hcase1 a haM with h' | h'
            · exact h'
            · linarith
        have hdb : d = b.1 := by
          apply le_antisymm
          · rcases hcase1 b hbM with h' | h'
            · linarith
            · exact h'
          · rcases hout (d, vd) hd with h' | h'
            · simp only at h'
              linarith
            · exact h'
        have e1 := key_inj hnd hc haM hca
        have e2 := key_inj hnd hd hbM hdb
        have hv1 : vc = a.2 := by rw [← e1]
        have hv2 : vd = b.2 := by rw [← e2]
        rw [hv1, hv2, hca, hdb]
        have := hmid (le_of_lt hxa) (le_of_lt hxb)
        calc (a.2 + clampQ ((x - a.1) / (b.1 - a.1)) 0 1 * (b.2 - a.2) - a.2) * (b.1 - a.1)
            = (clampQ ((x - a.1) / (b.1 - a.1)) 0 1 * (b.1 - a.1)) * (b.2 - a.2) := by ring
          _ = (x - a.1) * (b.2 - a.2) := by rw [this]
  · intro c vc hc hmin hx
    have h1 : x ≤ a.1 := le_trans hx (hmin a haM)
    have hi0 : i = 0 := by
      rcases hx1 with h | h
      · linarith
      · exact h
    have hca : c = a.1 := le_antisymm (hmin a haM) (hfirst hi0 (c, vc) hc)
    have := key_inj hnd hc haM hca
    rw [hlow h1]
    have hv : vc = a.2 := by rw [← this]
    rw [hv]
    ring
  · intro d vd hd hmax hx
    have h1 : b.1 ≤ x := le_trans (hmax b hbM) hx
    rw [hhigh h1]
    have hdb : d = b.1 := by
      apply le_antisymm
      · rcases hx2 with h | h
        · exact le_trans hx h
        · exact hlast h (d, vd) hd
      · exact hmax b hbM
    have := key_inj hnd hd hbM hdb
    have hv : vd = b.2 := by rw [← this]
    rw [hv]
    ring

/-- At the key of a point the value is the one of the point. -/
theorem at_points {points : List (ℚ × ℚ)} (hnd : (points.map (fun p => p.1)).Nodup) (h2 : 2 ≤ points.length) {k v : ℚ} (h : (k, v) ∈ points) : call points k = .ok (some v) := by
  obtain ⟨a, b, i, ha, hb, hab, hx1, hx2, hcall⟩ := call_spec hnd h2 k
  obtain ⟨y, hy, hI⟩ := interp_partial hnd h2 k
  rw [hy]
  congr 2
  have hmem : ∀ p, p ∈ points ↔ p ∈ sortPts points := fun p => (sort_perm points).mem_iff.symm
  by_cases hmin : ∀ p ∈ points, k ≤ p.1
  · exact hI.2.1 k v h hmin (le_refl _)
  · -- the point before
    have hs := sort_lt hnd
    obtain ⟨j, hj, hjp⟩ := List.getElem_of_mem ((hmem _).1 h)
    have hj0 : j ≠ 0 := by
      rintro rfl
      apply hmin
      intro p hp
      obtain ⟨m, hm, hmp⟩ := List.getElem_of_mem ((hmem _).1 hp)
      rcases Nat.eq_zero_or_pos m with h0 | h0
      · subst h0
        rw [← hmp, hjp]
      · have := List.pairwise_iff_getElem.1 hs 0 m hj hm h0
        rw [hmp, hjp] at this
        exact le_of_lt this
    have hlt := List.pairwise_iff_getElem.1 hs (j - 1) j (by omega) hj (by omega)
    rw [hjp] at hlt
    have hq : (sortPts points)[j - 1] ∈ points := (hmem _).2 (List.getElem_mem _)
    have := hI.1 ((sortPts points)[j - 1]).1 ((sortPts points)[j - 1]).2 k v hq h hlt (by
      intro p hp
      obtain ⟨m, hm, hmp⟩ := List.getElem_of_mem ((hmem _).1 hp)
      rcases Nat.lt_or_ge m (j - 1) with h0 | h0
      · left
        rw [← hmp]
        exact le_of_lt (List.pairwise_iff_getElem.1 hs m (j - 1) hm (by omega) h0)
      · rcases Nat.lt_or_ge m j with h1 | h1
        · left
          have : m = j - 1 := by omega
          subst this
          rw [← hmp]
        · right
          rcases Nat.lt_or_ge j m with h3 | h3
          · have := List.pairwise_iff_getElem.1 hs j m hj hm h3
            rw [hmp, hjp] at this
            exact le_of_lt this
          · have : m = j := by omega
            subst this
            rw [← hmp, hjp]) (le_of_lt hlt) (le_refl _)
    have hd : k - ((sortPts points)[j - 1]).1 ≠ 0 := by
      intro h0
      simp only at hlt
      linarith
    have h3 : (y - v) * (k - ((sortPts points)[j - 1]).1) = 0 := by linarith
    rcases mul_eq_zero.1 h3 with h4 | h4
    · linarith
    · exact absurd h4 hd

/-- The value is never outside of the values of the points. -/
theorem bounded {points : List (ℚ × ℚ)} (hnd : (points.map (fun p => p.1)).Nodup) (h2 : 2 ≤ points.length) (x lo hi : ℚ) (h : ∀ p ∈ points, lo ≤ p.2 ∧ p.2 ≤ hi) :
    ∃ y, call points x = .ok (some y) ∧ lo ≤ y ∧ y ≤ hi := by
  obtain ⟨a, b, i, ha, hb, hab, _, _, hcall⟩ := call_spec hnd h2 x
  refine ⟨_, hcall, ?_⟩
  have hA := h a ((sort_perm points).mem_iff.1 (List.mem_of_getElem? ha))
  have hB := h b ((sort_perm points).mem_iff.1 (List.mem_of_getElem? hb))
  have hw : 0 ≤ clampQ ((x - a.1) / (b.1 - a.1)) 0 1 ∧ clampQ ((x - a.1) / (b.1 - a.1)) 0 1 ≤ 1 := by
    unfold clampQ
    exact ⟨le_min (le_max_right _ _) (by norm_num), min_le_right _ _⟩
  generalize clampQ ((x - a.1) / (b.1 - a.1)) 0 1 = w at hw ⊢
  constructor
  · nlinarith [mul_nonneg hw.1 (sub_nonneg.2 hB.1), mul_nonneg (sub_nonneg.2 hw.2) (sub_nonneg.2 hA.1)]
  · nlinarith [mul_nonneg hw.1 (sub_nonneg.2 hB.2), mul_nonneg (sub_nonneg.2 hw.2) (sub_nonneg.2 hA.2)]

/-- The order of the points in the dict does not matter. -/
theorem order_irrelevant {p q : List (ℚ × ℚ)} (hnd : (p.map (fun p => p.1)).Nodup) (h : p.Perm q) (x : ℚ) : call p x = call q x := by
  have hq : (q.map (fun p => p.1)).Nodup := ((h.map _).nodup_iff).1 hnd
  have hs : sortPts p = sortPts q := by
    apply List.Perm.eq_of_pairwise (le := fun a b : ℚ × ℚ => a.1 < b.1)
    · intro a b _ _ h1 h2
      exact absurd (lt_trans h1 h2) (lt_irrefl _)
    · exact sort_lt hnd
    · exact sort_lt hq
    · exact ((sort_perm p).trans h).trans (sort_perm q).symm
  have he : p = [] ↔ q = [] := by
    constructor
    · rintro rfl
      exact h.symm.eq_nil
    · rintro rfl
      exact h.eq_nil
  unfold call
  by_cases hp : p = []
  · simp [hp, he.1 hp]
  · have : q ≠ [] := fun hc => hp (he.2 hc)
    simp only [hp, this, if_false, hs]

/-- No points: an error. -/
theorem no_points (x : ℚ) : call [] x = .error .valueError := rfl

/-- One point: its value everywhere, but not at its own key, where the result is not a number. -/
theorem one_point (k v x : ℚ) : (x ≠ k → call [(k, v)] x = .ok (some v)) ∧ call [(k, v)] k = .ok none := by
  have hrun : ∀ x, call [(k, v)] x = .ok ((frac x k k).map (lerp v v)) := by
    intro x
    have hs : sortPts [(k, v)] = [(k, v)] := by simp [sortPts]
    have hc : ∀ n : Int, clamp n 1 (1 - 1) = 0 := by
      intro n
      unfold clamp
      omega
    unfold call
    simp only [hs, List.map_cons, List.map_nil, List.length_cons, List.length_nil]
    simp only [Nat.zero_add, Nat.cast_one, hc]
    simp [gather, bind, Except.bind]
  constructor
  · intro hx
    rw [hrun]
    have : ¬ x - k = 0 := by
      intro h
      exact hx (by linarith)
    unfold frac
    simp only [sub_self, if_true, this, if_false]
    split <;> simp [lerp]
  · rw [hrun]
    simp [frac]

/-- The scheduler: at a step of a point its value. -/
theorem scheduler {points : List (ℚ × ℚ)} (hnd : (points.map (fun p => p.1)).Nodup) (h2 : 2 ≤ points.length) (step : Nat) :
    (∀ v, ((step : ℚ), v) ∈ points → atStep points step = .ok (some v)) ∧ ∃ y, atStep points step = .ok (some y) ∧ Interp points step y :=
  ⟨fun _ h => at_points hnd h2 h, interp_partial hnd h2 step⟩

example : ∃ y, call [(10, 3), (0, 1)] 5 = .ok (some y) ∧ Interp [(10, 3), (0, 1)] 5 y := interp_partial (by decide) (by decide) 5

end Verif.RfPcw
