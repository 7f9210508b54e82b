import Verif.RfGather.Model
import Verif.RfGather.Spec
import Verif.RfMatmul.Props
/-
Lemmas: selection of positions of one axis of a raw tensor, and the alignment of the indices.
-/
namespace Verif.RfGather

open Verif.Py Verif.BinOp Verif.RfMatmul

variable {α : Type}

theorem allValues_of {β : Type} {p : β → Bool} {r : Raw β} (h : ∀ idx, InB idx r.shape → p (r.get idx) = true) :
    allValues p r = true := by
  unfold allValues
  rw [List.all_eq_true]
  intro k hk
  exact h _ (unravel_inB (List.mem_range.mp hk)).1

theorem allValues_false {β : Type} {p : β → Bool} {r : Raw β} {idx : List Nat} (hi : InB idx r.shape)
    (h : p (r.get idx) = false) : allValues p r = false := by
  unfold allValues
  rw [List.all_eq_false]
  refine ⟨ravel r.shape idx, List.mem_range.mpr (ravel_lt hi), ?_⟩
  rw [unravel_ravel hi, h]
  simp

theorem getD_mid (sp sq : List Nat) (n d : Nat) : (sp ++ [n] ++ sq).getD sp.length d = n := by simp

theorem take_mid (sp m sq : List Nat) : (sp ++ m ++ sq).take sp.length = sp := by simp

theorem drop_mid (sp m sq : List Nat) : (sp ++ m ++ sq).drop (sp.length + m.length) = sq := by
  rw [← List.length_append, List.drop_left]

theorem mid_mid (sp m sq : List Nat) : ((sp ++ m ++ sq).drop sp.length).take m.length = m := by
  rw [List.append_assoc, List.drop_left, List.take_left]

theorem selectAxis_spec {neg : Bool} {r : Raw α} {sp sq : List Nat} {n : Nat} {j : Raw Int}
    (hs : r.shape = sp ++ [n] ++ sq) (hj : ∀ idx, InB idx j.shape → inRange neg n (j.get idx) = true) :
    ∃ o, selectAxis neg r sp.length j = .ok o ∧ o.shape = sp ++ j.shape ++ sq ∧
      ∀ ip ij iq, ip.length = sp.length → ij.length = j.shape.length →
        o.get (ip ++ ij ++ iq) = r.get (ip ++ [norm n (j.get ij)] ++ iq) := by
  unfold selectAxis
  have hn : r.shape.getD sp.length 0 = n := by rw [hs, getD_mid]
  rw [hn, if_pos (allValues_of hj)]
  refine ⟨_, rfl, ?_, ?_⟩
  · simp only
    rw [hs]
    have h1 := take_mid sp [n] sq
    have h2 := drop_mid sp [n] sq
    simp only [List.length_singleton] at h2
    rw [h1, h2]
  · intro ip ij iq hip hij
    simp only
    rw [← hip, ← hij, take_mid, mid_mid, drop_mid]

/-- Merging the middle axes does not change the position. -/
theorem ravel_mid {sp sj sq ip ij iq : List Nat} (hp : ip.length = sp.length) (hj : ij.length = sj.length) :
    ravel (sp ++ sj ++ sq) (ip ++ ij ++ iq) = ravel (sp ++ [numel sj] ++ sq) (ip ++ [ravel sj ij] ++ iq) := by
  rw [ravel_append _ _ _ _ (by simp [hp, hj]), ravel_append _ _ _ _ hp, ravel_append _ _ _ _ (by simp [hp]),
    ravel_append _ _ _ _ hp]
  simp [ravel, numel]

theorem numel_mid (sp sj sq : List Nat) : numel (sp ++ [numel sj] ++ sq) = numel (sp ++ sj ++ sq) := by
  simp [numel_append, numel]

/-- A reshape which merges the middle axes. -/
theorem reshape_merge {β : Type} {r : Raw β} {sp sj sq : List Nat} (hs : r.shape = sp ++ sj ++ sq) :
    ∃ o, reshape r (sp ++ [numel sj] ++ sq) = .ok o ∧ o.shape = sp ++ [numel sj] ++ sq ∧
      ∀ ip ij iq, InB ip sp → InB ij sj → InB iq sq → o.get (ip ++ [ravel sj ij] ++ iq) = r.get (ip ++ ij ++ iq) := by
  unfold reshape
  rw [if_pos (by rw [hs, numel_mid])]
  refine ⟨_, rfl, rfl, ?_⟩
  intro ip ij iq h1 h2 h3
  simp only
  rw [← ravel_mid h1.length_eq h2.length_eq, hs, unravel_ravel (inB_append (inB_append h1 h2) h3)]

/-- A reshape which splits the middle axis. -/
theorem reshape_split {β : Type} {r : Raw β} {sp sj sq : List Nat} (hs : r.shape = sp ++ [numel sj] ++ sq) :
    ∃ o, reshape r (sp ++ sj ++ sq) = .ok o ∧ o.shape = sp ++ sj ++ sq ∧
      ∀ ip ij iq, InB ip sp → InB ij sj → InB iq sq → o.get (ip ++ ij ++ iq) = r.get (ip ++ [ravel sj ij] ++ iq) := by
  unfold reshape
  rw [if_pos (by rw [hs, numel_mid])]
  refine ⟨_, rfl, rfl, ?_⟩
  intro ip ij iq h1 h2 h3
  simp only
  rw [ravel_mid h1.length_eq h2.length_eq, hs, unravel_ravel]
  exact inB_append (inB_append h1 (List.Forall₂.cons (ravel_lt h2) List.Forall₂.nil)) h3

theorem inRange_nonneg {neg : Bool} {n : Nat} {i : Int} (h0 : 0 ≤ i) (h1 : i < n) : inRange neg n i = true := by
  unfold inRange
  rw [if_neg (by omega)]
  simpa using h1

theorem norm_nonneg {n : Nat} {i : Int} (h0 : 0 ≤ i) : norm n i = i.toNat := by
  unfold norm
  rw [if_neg (by omega)]

/-- All values are positions of an axis of size `n`. -/
def Positions (n : Nat) (j : Raw Int) : Prop := ∀ idx, InB idx j.shape → 0 ≤ j.get idx ∧ j.get idx < n

theorem gatherFlat_spec {r : Raw α} {sp sq : List Nat} {n : Nat} {j : Raw Int} (hs : r.shape = sp ++ [n] ++ sq)
    (hj : Positions n j) :
    ∃ o, gatherFlat r sp.length j = .ok o ∧ o.shape = sp ++ j.shape ++ sq ∧
      ∀ ip ij iq, InB ip sp → InB ij j.shape → InB iq sq →
        o.get (ip ++ ij ++ iq) = r.get (ip ++ [(j.get ij).toNat] ++ iq) := by
  unfold gatherFlat
  have e0 : reshape j [numel j.shape] = .ok ⟨[numel j.shape], fun idx => j.get (unravel j.shape (ravel [numel j.shape] idx))⟩ := by
    unfold reshape
    rw [if_pos (by simp [numel])]
  rw [e0]
  simp only
  have hflat : ∀ m, ravel [numel j.shape] [m] = m := by intro m; simp [ravel, numel]
  obtain ⟨o, h1, h2, h3⟩ := selectAxis_spec (neg := false) (r := r) hs
    (j := ⟨[numel j.shape], fun idx => j.get (unravel j.shape (ravel [numel j.shape] idx))⟩) (by
      intro idx hidx
      cases hidx with
      | cons hm hrest =>
        cases hrest
        simp only [hflat]
        obtain ⟨b1, b2⟩ := hj _ (unravel_inB hm).1
        exact inRange_nonneg b1 b2)
  rw [h1]
  simp only
  have ht : r.shape.take sp.length ++ j.shape ++ r.shape.drop (sp.length + 1) = sp ++ j.shape ++ sq := by
    rw [hs]
    have a1 := take_mid sp [n] sq
    have a2 := drop_mid sp [n] sq
    simp only [List.length_singleton] at a2
    rw [a1, a2]
  rw [ht]
  obtain ⟨o', g1, g2, g3⟩ := reshape_split (sj := j.shape) (r := o) h2
  refine ⟨o', g1, g2, ?_⟩
  intro ip ij iq a1 a2 a3
  rw [g3 ip ij iq a1 a2 a3, h3 ip [ravel j.shape ij] iq a1.length_eq rfl]
  simp only [hflat, unravel_ravel a2]
  rw [norm_nonneg (hj _ a2).1]

theorem gatherOwn_spec {r : Raw α} {sp sq : List Nat} {n : Nat} {j : Raw Int} (hs : r.shape = sp ++ [n] ++ sq)
    (hj : Positions n j) :
    ∃ o, gatherOwn r sp.length j = .ok o ∧ o.shape = sp ++ j.shape ++ sq ∧
      ∀ ip ij iq, InB ip sp → InB ij j.shape → InB iq sq →
        o.get (ip ++ ij ++ iq) = r.get (ip ++ [(j.get ij).toNat] ++ iq) := by
  have hsel : ∀ neg, ∃ o, selectAxis neg r sp.length j = .ok o ∧ o.shape = sp ++ j.shape ++ sq ∧
      ∀ ip ij iq, InB ip sp → InB ij j.shape → InB iq sq →
        o.get (ip ++ ij ++ iq) = r.get (ip ++ [(j.get ij).toNat] ++ iq) := by
    intro neg
    obtain ⟨o, h1, h2, h3⟩ := selectAxis_spec (neg := neg) hs (fun idx hi => inRange_nonneg (hj idx hi).1 (hj idx hi).2)
    refine ⟨o, h1, h2, ?_⟩
    intro ip ij iq a1 a2 a3
    rw [h3 ip ij iq a1.length_eq a2.length_eq, norm_nonneg (hj _ a2).1]
  unfold gatherOwn
  split
  · exact hsel true
  · split
    · exact hsel false
    · split
      · exact hsel true
      · exact gatherFlat_spec hs hj

/-! ### With common dims -/

theorem map_getD_self {β : Type} (l : List β) (f : β → Nat) (i : Nat) : (l.map f).getD i 0 = (l[i]?.map f).getD 0 := by
  simp

/-- The aligned and expanded indices. -/
theorem expand_spec {sz : Nat → Nat} {t : Tensor Int} {outs : List Dim} (hv : Valid sz t) (ht : BinOp.Unique t)
    (hu : (classes outs).Nodup) (hs : ∀ d ∈ t.dims, d.cls ∈ classes outs) :
    ∃ j0 j1, copyCompatPy t.dims t.raw outs = .ok j0 ∧ expandTo j0 (outs.map (fun d => sz d.cls)) = .ok j1 ∧
      j1.shape = outs.map (fun d => sz d.cls) ∧
      ∀ σ : Nat → Nat, (∀ d ∈ outs, σ d.cls < sz d.cls) → j1.get (outs.map (fun d => σ d.cls)) = valueAt t σ := by
  obtain ⟨j0, h1, h2, h3⟩ := (copy_compatible hv hu ht hs).2
  refine ⟨j0, ⟨outs.map (fun d => sz d.cls), fun idx => j0.get (project j0.shape idx)⟩, h1, ?_, rfl, ?_⟩
  rotate_left
  · intro σ hσ
    simp only
    have hσt : ∀ d ∈ t.dims, σ d.cls < sz d.cls := by
      intro d hd
      obtain ⟨o, ho, e⟩ := List.mem_map.mp (hs d hd)
      rw [← e]
      exact hσ o ho
    rw [← h3 σ hσt, h2]
    congr 1
    rw [project_same (by simp), List.zipWith_map, List.zipWith_self]
    apply List.map_congr_left
    intro o ho
    by_cases hc : o.cls ∈ t.dims.map Dim.cls
    · simp only [if_pos hc]
      have := hσ o ho
      split <;> omega
    · simp [hc]
  · unfold expandTo
    rw [if_pos]
    rw [h2, List.forall₂_map_left_iff, List.forall₂_map_right_iff]
    apply List.forall₂_same.mpr
    intro o _
    split <;> simp

theorem torchGather_spec {r : Raw α} {sp sq : List Nat} {n m : Nat} {j : Raw Int} (hs : r.shape = sp ++ [n] ++ sq)
    (hjs : j.shape = sp ++ [m] ++ sq) (hj : Positions n j) :
    ∃ o, torchGather r sp.length j = .ok o ∧ o.shape = sp ++ [m] ++ sq ∧
      ∀ ip i iq, InB ip sp → i < m → InB iq sq →
        o.get (ip ++ [i] ++ iq) = r.get (ip ++ [(j.get (ip ++ [i] ++ iq)).toNat] ++ iq) := by
  unfold torchGather
  have hn : r.shape.getD sp.length 0 = n := by rw [hs, getD_mid]
  rw [if_pos, hn, if_pos (allValues_of (fun idx hi => inRange_nonneg (hj idx hi).1 (hj idx hi).2))]
  · refine ⟨_, rfl, hjs, ?_⟩
    intro ip i iq h1 h2 h3
    simp only
    have a1 := take_mid ip [i] iq
    have a2 := drop_mid ip [i] iq
    simp only [List.length_singleton] at a2
    rw [← h1.length_eq, a1, a2, norm_nonneg]
    refine (hj _ ?_).1
    rw [hjs]
    exact inB_append (inB_append h1 (List.Forall₂.cons h2 List.Forall₂.nil)) h3
  · refine ⟨by rw [hs, hjs]; simp, ?_⟩
    intro d _ hd
    rw [hs, hjs]
    rcases Nat.lt_or_gt_of_ne hd with h | h
    · simp only [List.append_assoc, List.getD_eq_getElem?_getD, List.getElem?_append_left h, Nat.le_refl]
    · obtain ⟨e, rfl⟩ : ∃ e, d = sp.length + (e + 1) := ⟨d - sp.length - 1, by omega⟩
      have e2 : ∀ y : Nat, (sp ++ [y] ++ sq)[sp.length + (e + 1)]? = sq[e]? := by
        intro y
        rw [List.append_assoc, List.getElem?_append_right (by omega), Nat.add_sub_cancel_left]
        rfl
      rw [List.getD_eq_getElem?_getD, List.getD_eq_getElem?_getD, e2, e2]

/-- The value of the generic case. -/
theorem gatherCommon_spec {sz : Nat → Nat} {source : Tensor α} {indices : Tensor Int} {pre post own : List Dim} {x : Dim}
    (hsd : source.dims = pre ++ [x] ++ post) (hvs : Valid sz source) (hvi : Valid sz indices)
    (hui : BinOp.Unique indices) (huo : (classes (pre ++ own ++ post)).Nodup)
    (hsub : ∀ d ∈ indices.dims, d.cls ∈ classes (pre ++ own ++ post))
    (hpos : ∀ σ : Nat → Nat, (∀ d ∈ indices.dims, σ d.cls < sz d.cls) →
      0 ≤ valueAt indices σ ∧ valueAt indices σ < sz x.cls) :
    ∃ r, gatherCommon sz source pre.length own (pre ++ own ++ post) indices = .ok r ∧
      r.shape = (pre ++ own ++ post).map (fun d => sz d.cls) ∧
      ∀ σ : Nat → Nat, (∀ d ∈ pre ++ own ++ post, σ d.cls < sz d.cls) →
        r.get ((pre ++ own ++ post).map (fun d => σ d.cls)) =
          source.raw.get (pre.map (fun d => σ d.cls) ++ [(valueAt indices σ).toNat] ++ post.map (fun d => σ d.cls)) := by
  obtain ⟨j0, j1, h1, h2, h3, h4⟩ := expand_spec hvi hui huo hsub
  have hsh : source.raw.shape = pre.map (fun d => sz d.cls) ++ [sz x.cls] ++ post.map (fun d => sz d.cls) := by
    rw [hvs, hsd]; simp
  unfold gatherCommon
  rw [h1]
  simp only [h2]
  obtain ⟨S, hS⟩ : ∃ S : Dim → Nat, S = fun d => sz d.cls := ⟨_, rfl⟩
  have hms : source.raw.shape.take pre.length ++ [numel (own.map (fun d => sz d.cls))] ++
      source.raw.shape.drop (pre.length + 1) =
      pre.map (fun d => sz d.cls) ++ [numel (own.map (fun d => sz d.cls))] ++ post.map (fun d => sz d.cls) := by
    rw [hsh]
    have a1 := take_mid (pre.map (fun d => sz d.cls)) [sz x.cls] (post.map (fun d => sz d.cls))
    have a2 := drop_mid (pre.map (fun d => sz d.cls)) [sz x.cls] (post.map (fun d => sz d.cls))
    simp only [List.length_singleton, List.length_map] at a1 a2
    rw [a1, a2]
  rw [hms]
  -- the merged indices
  have hmerge : ∃ j2, mergeOwn own j1 (pre.map (fun d => sz d.cls) ++ [numel (own.map (fun d => sz d.cls))] ++
      post.map (fun d => sz d.cls)) = .ok j2 ∧
      j2.shape = pre.map (fun d => sz d.cls) ++ [numel (own.map (fun d => sz d.cls))] ++ post.map (fun d => sz d.cls) ∧
      ∀ ip ij iq, InB ip (pre.map (fun d => sz d.cls)) → InB ij (own.map (fun d => sz d.cls)) →
        InB iq (post.map (fun d => sz d.cls)) →
        j2.get (ip ++ [ravel (own.map (fun d => sz d.cls)) ij] ++ iq) = j1.get (ip ++ ij ++ iq) := by
    have hgen := reshape_merge (r := j1) (sp := pre.map (fun d => sz d.cls)) (sj := own.map (fun d => sz d.cls))
      (sq := post.map (fun d => sz d.cls)) (by rw [h3]; simp)
    unfold mergeOwn
    split
    · next o =>
      refine ⟨j1, rfl, by rw [h3]; simp [numel], ?_⟩
      intro ip ij iq _ hij _
      cases hij with
      | cons hi hr =>
        cases hr
        simp [ravel, numel]
    · exact hgen
  obtain ⟨j2, m1, m2, m3⟩ := hmerge
  rw [m1]
  simp only
  have hp2 : Positions (sz x.cls) j2 := by
    intro idx hidx
    rw [m2] at hidx
    -- an index of the merged tensor comes from a position
    obtain ⟨ip, rest, hip, hrest, rfl⟩ : ∃ ip rest, InB ip (pre.map (fun d => sz d.cls)) ∧
        InB rest ([numel (own.map (fun d => sz d.cls))] ++ post.map (fun d => sz d.cls)) ∧ idx = ip ++ rest := by
      rw [List.append_assoc] at hidx
      exact ⟨_, _, List.forall₂_take_append _ _ _ hidx, List.forall₂_drop_append _ _ _ hidx, (List.take_append_drop _ _).symm⟩
    cases hrest with
    | @cons m _ iq _ hm hiq =>
      obtain ⟨u1, u2⟩ := unravel_inB hm
      have := m3 ip _ iq hip u1 hiq
      rw [u2] at this
      rw [List.append_assoc] at this
      simp only [List.singleton_append] at this
      rw [this]
      -- the values are those of the index tensor
      have hin : InB (ip ++ unravel (own.map (fun d => sz d.cls)) m ++ iq) ((pre ++ own ++ post).map (fun d => sz d.cls)) := by
        rw [List.map_append, List.map_append]
        exact inB_append (inB_append hip u1) hiq
      obtain ⟨σ, hσ, e⟩ : ∃ σ : Nat → Nat, (∀ d ∈ pre ++ own ++ post, σ d.cls < sz d.cls) ∧
          ip ++ unravel (own.map (fun d => sz d.cls)) m ++ iq = (pre ++ own ++ post).map (fun d => σ d.cls) := by
        generalize pre ++ own ++ post = outs at hin huo
        generalize ip ++ unravel (own.map (fun d => sz d.cls)) m ++ iq = idx at hin
        clear * - hin huo
        induction outs generalizing idx with
        | nil =>
          cases hin
          exact ⟨fun _ => 0, by simp, rfl⟩
        | cons o outs ih =>
          cases hin with
          | @cons i _ is _ hi his =>
            simp only [classes, List.map_cons, List.nodup_cons] at huo
            obtain ⟨σ, s1, s2⟩ := ih huo.2 is his
            refine ⟨moveTo σ o.cls i, ?_, ?_⟩
            · intro d hd
              by_cases hc : d.cls = o.cls
              · simp only [moveTo, hc, if_true]; exact hi
              · rw [moveTo_ne hc]
                rcases List.mem_cons.mp hd with h | h
                · exact absurd (congrArg Dim.cls h) hc
                · exact s1 d h
            · rw [s2, List.map_cons]
              congr 1
              · simp [moveTo]
              · apply List.map_congr_left
                intro d hd
                rw [moveTo_ne]
                intro hc
                exact huo.1 (hc ▸ List.mem_map_of_mem hd)
      rw [e, h4 σ hσ]
      apply hpos
      intro d hd
      obtain ⟨o, ho, e⟩ := List.mem_map.mp (hsub d hd)
      rw [← e]
      exact hσ o ho
  obtain ⟨o, g1, g2, g3⟩ := torchGather_spec (r := source.raw) (sp := pre.map (fun d => sz d.cls))
    (sq := post.map (fun d => sz d.cls)) hsh m2 hp2
  rw [List.length_map] at g1
  rw [g1]
  simp only
  -- split the merged axis
  have hsplit : ∃ r, mergeOwn own o ((pre ++ own ++ post).map (fun d => sz d.cls)) = .ok r ∧
      r.shape = (pre ++ own ++ post).map (fun d => sz d.cls) ∧
      ∀ ip ij iq, InB ip (pre.map (fun d => sz d.cls)) → InB ij (own.map (fun d => sz d.cls)) →
        InB iq (post.map (fun d => sz d.cls)) →
        r.get (ip ++ ij ++ iq) = o.get (ip ++ [ravel (own.map (fun d => sz d.cls)) ij] ++ iq) := by
    have hgen := reshape_split (r := o) (sp := pre.map (fun d => sz d.cls)) (sj := own.map (fun d => sz d.cls))
      (sq := post.map (fun d => sz d.cls)) g2
    unfold mergeOwn
    split
    · next y =>
      refine ⟨o, rfl, by rw [g2]; simp [numel], ?_⟩
      intro ip ij iq _ hij _
      cases hij with
      | cons hi hr =>
        cases hr
        simp [ravel, numel]
    · rw [List.map_append, List.map_append]
      exact hgen
  obtain ⟨r, r1, r2, r3⟩ := hsplit
  refine ⟨r, r1, r2, ?_⟩
  intro σ hσ
  have b1 : InB (pre.map (fun d => σ d.cls)) (pre.map (fun d => sz d.cls)) :=
    forall₂_map _ _ _ (fun d hd => hσ d (by simp [hd]))
  have b2 : InB (own.map (fun d => σ d.cls)) (own.map (fun d => sz d.cls)) :=
    forall₂_map _ _ _ (fun d hd => hσ d (by simp [hd]))
  have b3 : InB (post.map (fun d => σ d.cls)) (post.map (fun d => sz d.cls)) :=
    forall₂_map _ _ _ (fun d hd => hσ d (by simp [hd]))
  rw [List.map_append, List.map_append, r3 _ _ _ b1 b2 b3, g3 _ _ _ b1 (ravel_lt b2) b3, m3 _ _ _ b1 b2 b3,
    ← List.map_append, ← List.map_append, h4 σ hσ]

end Verif.RfGather
