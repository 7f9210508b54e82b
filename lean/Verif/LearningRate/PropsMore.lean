import Verif.LearningRate.PropsTrain
import Mathlib.Algebra.BigOperators.Group.List.Basic
/-
`NewbobMultiEpoch`, failures, `get_last_best_epoch`, `set_epoch_error`.
-/
namespace Verif.LearningRate
open Verif.Py Verif.ListLemmas

/-- When epoch `e+1` started, the data of the epochs up to `e` was what it is now. -/
theorem train_snapshot {k : Control} {c : Cfg} {n : Int} {d : Data} (h : Train k c n d) :
    ∀ e, 1 ≤ e → e < n → ∃ d0 lr d1 z, Train k c e d0 ∧ getLr k c d0 (e + 1) = .ok (lr, d1) ∧
      (∀ q, q ≤ e → d.get? q = d0.get? q) ∧ d.get? (e + 1) = some z ∧ z.lr = lr := by
  induction h with
  | init => intro e h1 h2; omega
  | @epoch n d lr d' ht hg ih =>
    intro e h1 h2
    obtain ⟨⟨z, hz, hzl⟩, hoth, _⟩ := getLr_effect hg
    by_cases he : e < n
    · obtain ⟨d0, lr0, d1, z, a1, a2, a3, a4, a5⟩ := ih e h1 he
      exact ⟨d0, lr0, d1, z, a1, a2, fun q hq => by rw [hoth q (by omega)]; exact a3 q hq,
        by rw [hoth _ (by omega)]; exact a4, a5⟩
    · have : e = n := by omega
      subst this
      exact ⟨d, lr, d', z, ht, hg, fun q hq => hoth q (by omega), hz, hzl⟩
  | @score n d err d' ht hn hs ih =>
    intro e h1 h2
    obtain ⟨y, er, hy, h3⟩ := setError_old (((train_wf ht).2.2 n).2 (by omega)) hs
    obtain ⟨d0, lr0, d1, z, a1, a2, a3, a4, a5⟩ := ih e h1 h2
    by_cases he : n = e + 1
    · refine ⟨d0, lr0, d1, ⟨y.lr, er⟩, a1, a2, fun q hq => ?_, ?_, ?_⟩
      · rw [h3, Dict.get?_set, if_neg (by omega)]; exact a3 q hq
      · rw [h3, Dict.get?_set, if_pos he]
      · rw [← he, hy] at a4; injection a4 with a4; rw [← a5, ← a4]
    · refine ⟨d0, lr0, d1, z, a1, a2, fun q hq => ?_, ?_, a5⟩
      · rw [h3, Dict.get?_set, if_neg (by omega)]; exact a3 q hq
      · rw [h3, Dict.get?_set, if_neg he]; exact a4

/-! ### `NewbobMultiEpoch` -/

/-- The rate changes only in the epochs `1, 1 + interval, 1 + 2 * interval, ...`. -/
theorem multi_interval {c : Cfg} {num iv : Nat} {thr gt : ℚ} {n : Int} {d : Data} (hiv : 1 < iv)
    (h : Train (.multi num iv thr gt) c n d) (e : Int) (x z : EpochData) (h1 : 1 ≤ e)
    (hx : d.get? e = some x) (hz : d.get? (e + 1) = some z) (hne : z.lr ≠ x.lr) : (iv : Int) ∣ e := by
  have hen : e + 1 ≤ n := (((train_wf h).2.2 (e + 1)).1 ((Dict.get?_isSome d (e + 1)).1 (by rw [hz]; rfl))).2
  obtain ⟨d0, lr, d1, z', ht, hg, hsame, hz', hzl⟩ := train_snapshot h e h1 (by omega)
  rw [hz] at hz'; injection hz' with hz'; subst hz'
  rw [hsame e (le_refl _)] at hx
  obtain ⟨hw, _, hk⟩ := train_wf ht
  have hnew : e + 1 ∉ d0.keys := by rw [hk]; omega
  obtain ⟨hc, _, _⟩ := getLr_new hnew hg
  have hp : IsPrev d0 (e + 1) e := by simpa using prev_of_train ht (e := e + 1) (by omega) (by omega)
  by_contra hdvd
  have hcl : ∀ l, calcLr (.multi num iv thr gt) c d0 (e + 1) = .ok l → l = x.lr := by
    intro l hl
    simp only [calcLr] at hl
    rw [if_pos, mostRecentLr_eq hw c (e + 1) true (p := e) (x := x) (by simpa using hp) hx] at hl
    · injection hl with hl; exact hl.symm
    · simp only [Bool.and_eq_true, decide_eq_true_eq, gt_iff_lt]
      refine ⟨hiv, fun hmod => hdvd ?_⟩
      have h1 : (iv : Int) ∣ (e + 1) - 1 := by
        apply Int.dvd_self_sub_of_emod_eq hmod
      simpa using h1
  apply hne
  rw [hzl]
  by_cases hN : 1 < c.minNum
  · by_contra hcon
    have h2 : ∀ l, calcNewLr (.multi num iv thr gt) c d0 (e + 1) = .ok l → l = x.lr := by
      intro l hl
      by_contra hl2
      unfold calcNewLr at hl
      rw [if_pos hN] at hl
      simp only [bind, Except.bind, pure, Except.pure] at hl
      split at hl
      · cases hl
      · rename_i lrs hlrs
        split at hl
        · have hlast : (lastEpochs d0 (e + 1) c.minNum.toNat).getLast? = some e := by
            rw [lastEpochs_getLast? (by omega)]; exact (getLastEpoch_some d0 _ e).2 hp
          obtain ⟨v, hv, y, hy, hyv⟩ := forall₂_getLast (lrsOf_ok hlrs) hlast
          rw [hx] at hy; injection hy with hy
          rw [hv] at hl; injection hl with hl
          exact hl2 (by rw [← hl, ← hyv, hy])
        · exact hl2 (hcl l hl)
    exact hcon (h2 _ hc)
  · unfold calcNewLr at hc
    rw [if_neg hN] at hc
    exact hcl _ hc

theorem decayOrGrow_some {c : Cfg} {lr r m thr gt : ℚ} 
    (h : decayOrGrow c lr (decide (m > thr)) (some (decide (m < gt))) = .ok r) : r = multiNext c thr gt m lr := by
  unfold decayOrGrow at h
  unfold multiNext
  have hmax : ∀ y : ℚ, (if y < c.minLr then c.minLr else y) = max y c.minLr := by
    intro y; split
    · rw [max_eq_right]; exact le_of_lt ‹_›
    · rw [max_eq_left]; exact not_lt.1 ‹_›
  by_cases h1 : m > thr <;> by_cases h2 : m < gt
  · simp [h1, h2, pyAssert, bind, Except.bind] at h
  · simp only [h1, h2, pyAssert, bind, Except.bind, pure, Except.pure, decide_true, decide_false, Bool.false_and,
      Bool.not_false, if_true] at h ⊢
    cases hy : calcUpdate lr c.decay with
    | error e => rw [hy] at h; simp at h
    | ok y => rw [hy] at h; simp at h; rw [← calcUpdate_ok hy, ← h, hmax]
  · simp [h1, h2, pyAssert, bind, Except.bind, pure, Except.pure] at h ⊢
    exact calcUpdate_ok h
  · simp [h1, h2, pyAssert, bind, Except.bind, pure, Except.pure] at h ⊢
    exact h.symm

/-- The relative errors of neighbours. -/
theorem relErrors_ok {c : Cfg} {d : Data} (hw : d.Wf) {key : String} {f g : Int → ℚ} : ∀ {l : List Int} {rs},
    (∀ p ∈ l, ∃ x, d.get? p = some x ∧ scoreOf c x = some (key, f p) ∧ x.lr = g p) → relErrors c d l = .ok rs →
    rs = (l.zip l.tail).map (fun p => some (relError c (f p.1) (f p.2) (g p.2)))
  | [], rs, _, h => by simp only [relErrors] at h; injection h with h; simp [← h]
  | [a], rs, _, h => by simp only [relErrors] at h; injection h with h; simp [← h]
  | a :: b :: l, rs, hs, h => by
    simp only [relErrors, bind, Except.bind, pure, Except.pure] at h
    cases h1 : calcRelativeError c d a b with
    | error _ => rw [h1] at h; cases h
    | ok r =>
      rw [h1] at h
      cases h2 : relErrors c d (b :: l) with
      | error _ => rw [h2] at h; cases h
      | ok rs' =>
        rw [h2] at h; injection h with h; subst h
        have ih := relErrors_ok hw (l := b :: l) (fun p hp => hs p (by simp [hp])) h2
        obtain ⟨y, hy, hys, _⟩ := hs a (by simp)
        obtain ⟨x, hx, hxs, hxg⟩ := hs b (by simp)
        have hr := calcRelativeError_ok hw hy hx h1
        rw [hys, hxs] at hr
        simp only [if_true] at hr
        rw [ih, hr, hxg]
        simp

theorem zip_tail_range (s : Int) (m : Nat) (F : Int → Int → ℚ) :
    (((List.range (m + 1)).map (fun i : Nat => s + (i : Int))).zip
      ((List.range (m + 1)).map (fun i : Nat => s + (i : Int))).tail).map (fun p => F p.1 p.2) =
    (List.range m).map (fun i : Nat => F (s + i) (s + i + 1)) := by
  apply List.ext_getElem
  · simp
  · intro i h1 h2
    simp
    congr 1
    omega

/-- C31 (multi epoch Newbob): in an epoch with an update, the decision is on the mean of the relative errors between the
last `num_epochs + 1` epochs (as far as they exist), if all of them have a score with the same key. -/
theorem multi_train {c : Cfg} {num iv : Nat} {thr gt : ℚ} (hN : c.minNum ≤ 1) {n : Int} {d : Data}
    (h : Train (.multi num iv thr gt) c n d) (e : Int) (h1 : 2 ≤ e) (h2 : e < n) (hnum : 1 ≤ num)
    (hiv : iv ≤ 1 ∨ (iv : Int) ∣ e) {key : String} {f g : Int → ℚ}
    (hs : ∀ p, max 1 (e - num) ≤ p → p ≤ e → ∃ x, d.get? p = some x ∧ scoreOf c x = some (key, f p) ∧ x.lr = g p) :
    ∃ z, d.get? (e + 1) = some z ∧ z.lr = multiNext c thr gt
      (((List.range (e - max 1 (e - num)).toNat).map (fun i : Nat =>
        relError c (f (max 1 (e - num) + i)) (f (max 1 (e - num) + i + 1)) (g (max 1 (e - num) + i + 1)))).sum /
          ((e - max 1 (e - num) : Int) : ℚ)) (g e) := by
  obtain ⟨d0, lr, d1, z, ht, hg, hsame, hz, hzl⟩ := train_snapshot h e (by omega) h2
  refine ⟨z, hz, ?_⟩
  rw [hzl]
  obtain ⟨hw, _, hk⟩ := train_wf ht
  have hnew : e + 1 ∉ d0.keys := by rw [hk]; omega
  obtain ⟨hc, _, _⟩ := getLr_new hnew hg
  have hp : IsPrev d0 (e + 1) e := by simpa using prev_of_train ht (e := e + 1) (by omega) (by omega)
  unfold calcNewLr at hc
  rw [if_neg (by omega)] at hc
  simp only [calcLr] at hc
  obtain ⟨x, hx, hxs, hxg⟩ := hs e (by omega) (le_refl _)
  rw [hsame e (le_refl _)] at hx
  rw [mostRecentLr_eq hw c (e + 1) true (p := e) (x := x) (by simpa using hp) hx, if_neg] at hc
  · simp only [bind, Except.bind, pure, Except.pure] at hc
    have hle : lastEpochs d0 (e + 1) (num + 1) =
        (List.range ((e - max 1 (e - num)).toNat + 1)).map (fun i : Nat => max 1 (e - num) + (i : Int)) := by
      unfold lastEpochs
      rw [epochsBefore_train ht]
      apply List.ext_getElem
      · simp; omega
      · intro i h1 h2
        simp
        omega
    have hlen : ¬ (lastEpochs d0 (e + 1) (num + 1)).length ≤ 1 := by rw [hle]; simp; omega
    cases hm : recentMean c d0 num (e + 1) with
    | error _ => rw [hm] at hc; cases hc
    | ok m =>
      rw [hm] at hc
      unfold recentMean at hm
      simp only [hlen, if_false, bind, Except.bind, pure, Except.pure] at hm
      cases hr : relErrors c d0 (lastEpochs d0 (e + 1) (num + 1)) with
      | error _ => rw [hr] at hm; cases hm
      | ok rs =>
        rw [hr] at hm
        have hrs := relErrors_ok hw (key := key) (f := f) (g := g) (rs := rs) (fun p hp => by
          rw [hle] at hp
          simp only [List.mem_map, List.mem_range] at hp
          obtain ⟨i, hi, rfl⟩ := hp
          rw [← hsame _ (by omega)]
          exact hs _ (by omega) (by omega)) hr
        have hmap : rs = ((List.range (e - max 1 (e - num)).toNat).map (fun i : Nat =>
            relError c (f (max 1 (e - num) + i)) (f (max 1 (e - num) + i + 1)) (g (max 1 (e - num) + i + 1)))).map some := by
          rw [hrs, hle]
          rw [← zip_tail_range (max 1 (e - num)) (e - max 1 (e - num)).toNat (fun a b => relError c (f a) (f b) (g b))]
          simp only [List.map_map]
          rfl
        rw [hmap] at hm
        have hany : ((((List.range (e - max 1 (e - num)).toNat).map (fun i : Nat =>
            relError c (f (max 1 (e - num) + i)) (f (max 1 (e - num) + i + 1)) (g (max 1 (e - num) + i + 1)))).map
              some).any Option.isNone) = false := by simp
        have hfm : ∀ l : List ℚ, (l.map some).filterMap id = l := by
          intro l; induction l with
          | nil => rfl
          | cons a l ih => simp
        simp only [hany, Bool.false_eq_true, if_false, hfm] at hm
        injection hm with hm
        rw [← hm] at hc
        have := decayOrGrow_some hc
        rw [this, hxg]
        unfold mean
        congr 2
        rw [List.length_map, List.length_range]
        have hnn : 0 ≤ e - max 1 (e - num) := by omega
        have hcast : ∀ z : Int, 0 ≤ z → (((z.toNat : Nat) : ℚ) = ((z : Int) : ℚ)) := by
          intro z hz; obtain ⟨n, rfl⟩ := Int.eq_ofNat_of_zero_le hz; simp
        exact hcast _ hnn
  · simp only [Bool.and_eq_true, decide_eq_true_eq, gt_iff_lt, not_and, not_not]
    intro hlt
    rcases hiv with hiv | hiv
    · omega
    · obtain ⟨t, ht⟩ := hiv
      rw [ht, Int.mul_add_emod_self_left]
      exact Int.emod_eq_of_lt (by omega) (by omega)

/-! ### Failures and surprises -/

/-- The code violates "never fails on a valid history": a score of exactly zero (a perfect frame error rate, say) in the
last epoch makes every relative Newbob fail with a `ZeroDivisionError` in the next epoch. -/
theorem zero_score_fails {c : Cfg} {d : Data} {e p q : Int} {thr : ℚ} {x y : EpochData} {key : String} {old : ℚ}
    (he : 1 ≤ e) (hnew : e ∉ d.keys) (hN : c.minNum ≤ 1) (hdiv : c.divByOld = false)
    (hp : IsPrev d e p) (hq : IsPrev d p q) (hx : d.get? p = some x) (hy : d.get? q = some y)
    (hsx : errorKeyValue c d p = .ok (some (key, 0))) (hsy : errorKeyValue c d q = .ok (some (key, old))) :
    getLr (.relative thr) c d e = .error .zeroDivision := by
  have hr : calcRelativeError c d q p = .error .zeroDivision := by
    unfold calcRelativeError
    simp [hsx, hsy, hdiv, fdiv, bind, Except.bind, pure, Except.pure]
  unfold getLr
  rw [(Dict.get?_eq_none d e).2 hnew]
  unfold calcNewLr
  rw [if_neg (by omega)]
  simp only [calcLr, (getLastEpoch_some d e p).2 hp, (getLastEpoch_some d p q).2 hq, getItem_ok.2 hx, hr]
  simp [pyAssert, he, bind, Except.bind, pure, Except.pure]

/-- The code violates "never grow without growth": below the minimum, a decay raises the rate to the minimum. -/
theorem decay_raises {c : Cfg} {lr f : ℚ} (hd : c.decay = .factor f) (hlow : lr < c.minLr) (hf : lr * f < c.minLr) :
    decayOrGrow c lr true none = .ok c.minLr := by
  simp [decayOrGrow, pyAssert, hd, calcUpdate, hf, bind, Except.bind, pure, Except.pure]

/-- `NewbobMultiEpoch` fails with an assertion if the mean is between the two thresholds, and the growth threshold is
the larger one (nothing checks the order of the two options). -/
theorem multi_thresholds_fail {c : Cfg} {lr m thr gt : ℚ} (h1 : m > thr) (h2 : m < gt) :
    decayOrGrow c lr (decide (m > thr)) (some (decide (m < gt))) = .error .assertion := by
  simp [decayOrGrow, pyAssert, h1, h2, bind, Except.bind]

/-! ### `get_last_best_epoch` -/

/-- The score of an epoch, if it has data and a score. -/
def scoreAt (c : Cfg) (d : Data) (e : Int) : Option (String × ℚ) := (d.get? e).bind (scoreOf c)

theorem errorKeyValue_scoreAt {c : Cfg} {d : Data} {e : Int} {r} (h : errorKeyValue c d e = .ok r) :
    r = scoreAt c d e := by
  unfold scoreAt
  cases hx : d.get? e with
  | none => unfold errorKeyValue at h; rw [hx] at h; injection h with h; exact h.symm
  | some x => exact errorKeyValue_ok hx h

theorem scoredEpochs_ok {c : Cfg} {d : Data} : ∀ {l : List Int} {vs}, scoredEpochs c d l = .ok vs →
    vs = l.filterMap (fun e => (scoreAt c d e).map (fun p => (p, e)))
  | [], vs, h => by simp only [scoredEpochs] at h; injection h with h; simp [← h]
  | e :: l, vs, h => by
    simp only [scoredEpochs, bind, Except.bind, pure, Except.pure] at h
    cases h1 : errorKeyValue c d e with
    | error _ => rw [h1] at h; cases h
    | ok kv =>
      rw [h1] at h
      cases h2 : scoredEpochs c d l with
      | error _ => rw [h2] at h; cases h
      | ok r =>
        rw [h2] at h
        have ih := scoredEpochs_ok h2
        rw [List.filterMap_cons, ← errorKeyValue_scoreAt h1, ← ih]
        cases kv <;> (injection h with h; exact h.symm)

theorem minPair_spec {l : List (ℚ × Int)} {p : ℚ × Int} (h : minPair l = some p) :
    p ∈ l ∧ ∀ q ∈ l, p.1 < q.1 ∨ (p.1 = q.1 ∧ p.2 ≤ q.2) := by
  cases l with
  | nil => cases h
  | cons a l =>
    simp only [minPair] at h
    injection h with h
    have key : ∀ (l : List (ℚ × Int)) (a : ℚ × Int),
        let m := l.foldl (fun m q => if q.1 < m.1 ∨ (q.1 = m.1 ∧ q.2 < m.2) then q else m) a
        (m ∈ a :: l) ∧ ∀ q ∈ a :: l, m.1 < q.1 ∨ (m.1 = q.1 ∧ m.2 ≤ q.2) := by
      intro l
      induction l with
      | nil => intro a; simp
      | cons b l ih =>
        intro a
        simp only [List.foldl_cons]
        obtain ⟨h1, h2⟩ := ih (if b.1 < a.1 ∨ (b.1 = a.1 ∧ b.2 < a.2) then b else a)
        split at h1
        · rename_i hlt
          simp only [hlt, if_true] at h2 ⊢
          refine ⟨List.mem_cons_of_mem _ h1, fun q hq => ?_⟩
          rcases List.mem_cons.1 hq with rfl | hq
          · have h3 := h2 b (by simp)
            rcases hlt with hlt | ⟨hlt, hlt2⟩ <;> rcases h3 with h3 | ⟨h3, h4⟩
            · left; linarith
            · left; linarith
            · left; linarith
            · right; exact ⟨by linarith, by omega⟩
          · exact h2 q hq
        · rename_i hlt
          simp only [hlt, if_false] at h2 ⊢
          refine ⟨?_, fun q hq => ?_⟩
          · rcases List.mem_cons.1 h1 with h1 | h1
            · rw [h1]; simp
            · simp [h1]
          · rcases List.mem_cons.1 hq with rfl | hq
            · exact h2 q (by simp)
            · rcases List.mem_cons.1 hq with rfl | hq
              · have h3 := h2 a (by simp)
                rw [not_or, not_and] at hlt
                obtain ⟨hl1, hl2⟩ := hlt
                rw [not_lt] at hl1
                rcases lt_or_eq_of_le hl1 with hl1 | hl1
                · left; rcases h3 with h3 | ⟨h3, _⟩ <;> linarith
                · have hl3 := hl2 hl1.symm
                  rcases h3 with h3 | ⟨h3, h4⟩
                  · left; linarith
                  · right; exact ⟨by linarith, by omega⟩
              · exact h2 q (by simp [hq])
    rw [← h]; exact key l a

/-- The range of epochs which `get_last_best_epoch` looks at. -/
def bestFrom (last first : Int) : Option Int → Int
  | none => first
  | some n => if n = 0 then first else max first (last - n + 1)

/-- `e` is the latest epoch of the range which has a score. -/
def IsLatestScored (c : Cfg) (d : Data) (lo hi e : Int) : Prop :=
  lo ≤ e ∧ e ≤ hi ∧ (scoreAt c d e).isSome ∧ ∀ q, e < q → q ≤ hi → scoreAt c d q = none

/-- Epoch `e` with value `v` is eligible: in the range, scored by the same key as the latest scored epoch, not above the
filter, and better than the latest score by more than the distance. -/
def Eligible (c : Cfg) (d : Data) (lo hi : Int) (filt : Option ℚ) (dist : ℚ) (e : Int) (v : ℚ) : Prop :=
  ∃ t key latest, IsLatestScored c d lo hi t ∧ scoreAt c d t = some (key, latest) ∧ lo ≤ e ∧ e ≤ hi ∧
    scoreAt c d e = some (key, v) ∧ (∀ f, filt = some f → v ≤ f) ∧ v + dist < latest

theorem latest_of_getLast {c : Cfg} {d : Data} {lo hi : Int} {key : String} {v : ℚ} {t : Int}
    (h : (((List.range (hi - lo + 1).toNat).map (fun i : Nat => lo + (i : Int))).filterMap
      (fun e => (scoreAt c d e).map (fun p => (p, e)))).getLast? = some ((key, v), t)) :
    IsLatestScored c d lo hi t ∧ scoreAt c d t = some (key, v) := by
  obtain ⟨l, hl⟩ := List.getLast?_eq_some_iff.1 h
  have hmem : ((key, v), t) ∈ ((List.range (hi - lo + 1).toNat).map (fun i : Nat => lo + (i : Int))).filterMap
      (fun e => (scoreAt c d e).map (fun p => (p, e))) := by rw [hl]; simp
  obtain ⟨t', ht', hs⟩ := List.mem_filterMap.1 hmem
  simp only [List.mem_map, List.mem_range] at ht'
  obtain ⟨i, hi', rfl⟩ := ht'
  simp only [Option.map_eq_some_iff, Prod.mk.injEq] at hs
  obtain ⟨p, hp, rfl, rfl⟩ := hs
  refine ⟨⟨by omega, by omega, by rw [hp]; rfl, fun q hq1 hq2 => ?_⟩, hp⟩
  by_contra hne
  obtain ⟨⟨k2, v2⟩, hk2⟩ := Option.ne_none_iff_exists'.1 hne
  have hsorted : (((List.range (hi - lo + 1).toNat).map (fun i : Nat => lo + (i : Int))).filterMap
      (fun e => (scoreAt c d e).map (fun p => (p, e)))).Pairwise (fun a b => a.2 < b.2) := by
    rw [List.pairwise_filterMap, List.pairwise_map]
    refine List.pairwise_lt_range.imp ?_
    intro a b hab x hx y hy
    simp only [Option.map_eq_some_iff] at hx hy
    obtain ⟨_, _, rfl⟩ := hx
    obtain ⟨_, _, rfl⟩ := hy
    simp; omega
  have hqm : ((k2, v2), q) ∈ ((List.range (hi - lo + 1).toNat).map (fun i : Nat => lo + (i : Int))).filterMap
      (fun e => (scoreAt c d e).map (fun p => (p, e))) := by
    rw [List.mem_filterMap]
    refine ⟨q, List.mem_map.2 ⟨(q - lo).toNat, by rw [List.mem_range]; omega, by omega⟩, by rw [hk2]; rfl⟩
  rw [hl] at hsorted hqm
  rw [List.pairwise_append] at hsorted
  rcases List.mem_append.1 hqm with h1 | h1
  · have := hsorted.2.2 _ h1 _ (List.mem_singleton.2 rfl)
    simp only at this; omega
  · simp at h1; omega

theorem latest_unique {c : Cfg} {d : Data} {lo hi a b : Int} (ha : IsLatestScored c d lo hi a)
    (hb : IsLatestScored c d lo hi b) : a = b := by
  by_contra hne
  rcases lt_or_gt_of_ne hne with h | h
  · have := ha.2.2.2 b h hb.2.1; have h2 := hb.2.2.1; rw [this] at h2; cases h2
  · have := hb.2.2.2 a h ha.2.1; have h2 := ha.2.2.1; rw [this] at h2; cases h2

/-- The candidates before `only_last_n` and the distance filter. -/
theorem mem_candidates {c : Cfg} {d : Data} {lo hi : Int} {vs : List ((String × ℚ) × Int)} {key : String}
    (hvs : vs = ((List.range (hi - lo + 1).toNat).map (fun i : Nat => lo + (i : Int))).filterMap
      (fun e => (scoreAt c d e).map (fun p => (p, e)))) (filt : Option ℚ) (v : ℚ) (e : Int) :
    (v, e) ∈ ((vs.filter (fun p => decide (p.1.1 = key))).map (fun p => (p.1.2, p.2))).filter
      (fun p => leFilter p.1 filt) ↔
    lo ≤ e ∧ e ≤ hi ∧ scoreAt c d e = some (key, v) ∧ (∀ f, filt = some f → v ≤ f) := by
  have hf : leFilter v filt = true ↔ ∀ f, filt = some f → v ≤ f := by
    cases filt <;> simp [leFilter]
  rw [List.mem_filter, hf, List.mem_map]
  constructor
  · rintro ⟨⟨⟨⟨k2, v2⟩, e2⟩, hm, heq⟩, h2⟩
    simp only [Prod.mk.injEq] at heq
    obtain ⟨rfl, rfl⟩ := heq
    rw [List.mem_filter] at hm
    obtain ⟨hm, hk⟩ := hm
    simp only [decide_eq_true_eq] at hk
    subst hk
    rw [hvs, List.mem_filterMap] at hm
    obtain ⟨t', ht', hs⟩ := hm
    simp only [List.mem_map, List.mem_range] at ht'
    obtain ⟨i, hi', rfl⟩ := ht'
    simp only [Option.map_eq_some_iff, Prod.mk.injEq] at hs
    obtain ⟨p, hp, rfl, rfl⟩ := hs
    exact ⟨by omega, by omega, hp, h2⟩
  · rintro ⟨h1, h2, h3, h4⟩
    refine ⟨⟨((key, v), e), ?_, rfl⟩, h4⟩
    rw [List.mem_filter]
    refine ⟨?_, by simp⟩
    rw [hvs, List.mem_filterMap]
    exact ⟨e, List.mem_map.2 ⟨(e - lo).toNat, by rw [List.mem_range]; omega, by omega⟩, by rw [h3]; rfl⟩

/-- C48. `get_last_best_epoch` (without `only_last_n`) returns an eligible epoch with the smallest score, the earliest one
of several (despite its name), and `None` only if no epoch is eligible. -/
theorem last_best_spec {c : Cfg} {d : Data} {last first : Int} {ol : Option Int} {filt : Option ℚ} {nl : Int} {dist : ℚ}
    (hnl : nl < 1) {r : Option Int} (h : lastBest c d last first ol filt nl dist = .ok r) :
    (∀ e, r = some e → ∃ v, Eligible c d (bestFrom last first ol) last filt dist e v ∧
      ∀ e' v', Eligible c d (bestFrom last first ol) last filt dist e' v' → v < v' ∨ (v = v' ∧ e ≤ e')) ∧
    (r = none → ∀ e v, ¬ Eligible c d (bestFrom last first ol) last filt dist e v) := by
  unfold lastBest at h
  simp only at h
  have hb : firstOf last first ol = bestFrom last first ol := by cases ol <;> rfl
  rw [hb] at h
  generalize hlo : bestFrom last first ol = lo at h ⊢
  split at h
  · rename_i hgt
    injection h with h; subst h
    refine ⟨fun e he => (by cases he), fun _ e v hel => ?_⟩
    obtain ⟨t, key, latest, ⟨h1, h2, _⟩, _⟩ := hel; omega
  · simp only [bind, Except.bind, pure, Except.pure] at h
    split at h
    · cases h
    · rename_i vs hvs
      have hvs' := scoredEpochs_ok hvs
      split at h
      · rename_i hlast
        injection h with h; subst h
        refine ⟨fun e he => (by cases he), fun _ e v hel => ?_⟩
        obtain ⟨t, key, latest, _, _, h1, h2, h3, _⟩ := hel
        rw [List.getLast?_eq_none_iff] at hlast
        have hm := (mem_candidates (key := key) hvs' none v e).2 ⟨h1, h2, h3, by simp⟩
        rw [hlast] at hm; simp at hm
      · rename_i key latest t hlast
        rw [hvs'] at hlast
        obtain ⟨hl1, hl2⟩ := latest_of_getLast hlast
        have hel : ∀ e v, Eligible c d lo last filt dist e v ↔
            (v, e) ∈ (((vs.filter (fun p => decide (p.1.1 = key))).map (fun p => (p.1.2, p.2))).filter
              (fun p => leFilter p.1 filt)).filter (fun p => decide (p.1 + dist < latest)) := by
          intro e v
          rw [List.mem_filter, mem_candidates hvs']
          constructor
          · rintro ⟨t', k', l', a1, a2, a3, a4, a5, a6, a7⟩
            have := latest_unique a1 hl1; subst this
            rw [hl2] at a2; injection a2 with a2; injection a2 with a8 a9; subst a8 a9
            exact ⟨⟨a3, a4, a5, a6⟩, by simpa using a7⟩
          · rintro ⟨⟨a3, a4, a5, a6⟩, a7⟩
            exact ⟨t, key, latest, hl1, hl2, a3, a4, a5, a6, by simpa using a7⟩
        split at h
        · rename_i hemp
          injection h with h; subst h
          refine ⟨fun e he => (by cases he), fun _ e v he => ?_⟩
          have := (hel e v).1 he
          rw [List.isEmpty_iff] at hemp
          rw [hemp] at this; simp at this
        · rw [if_neg (by omega)] at h
          injection h with h
          cases hmin : minPair ((((vs.filter (fun p => decide (p.1.1 = key))).map (fun p => (p.1.2, p.2))).filter
              (fun p => leFilter p.1 filt)).filter (fun p => decide (p.1 + dist < latest))) with
          | none =>
            rw [hmin] at h; subst h
            refine ⟨fun e he => (by cases he), fun _ e v he => ?_⟩
            have := (hel e v).1 he
            cases hl : ((((vs.filter (fun p => decide (p.1.1 = key))).map (fun p => (p.1.2, p.2))).filter
              (fun p => leFilter p.1 filt)).filter (fun p => decide (p.1 + dist < latest))) with
            | nil => rw [hl] at this; simp at this
            | cons a l => rw [hl] at hmin; cases hmin
          | some p =>
            rw [hmin] at h; subst h
            obtain ⟨m1, m2⟩ := minPair_spec hmin
            refine ⟨fun e he => ?_, fun hn => by cases hn⟩
            simp only [Option.map_some, Option.some.injEq] at he
            subst he
            exact ⟨p.1, (hel _ _).2 m1, fun e' v' he' => m2 _ ((hel _ _).1 he')⟩

/-- An epoch considered by `get_last_best_epoch`, before `only_last_n` and the distance filter: it has a score with
the same key as the latest scored epoch, and the score is not above the filter score. -/
def Candidate (c : Cfg) (d : Data) (lo hi : Int) (filt : Option ℚ) (e : Int) : Prop :=
  ∃ t key latest v, IsLatestScored c d lo hi t ∧ scoreAt c d t = some (key, latest) ∧ lo ≤ e ∧ e ≤ hi ∧
    scoreAt c d e = some (key, v) ∧ (∀ f, filt = some f → v ≤ f)

/-- C48, with `only_last_n = n ≥ 1`: the candidate epochs, in order, are cut down to the last `n`; the result is
the earliest epoch with the smallest score among the eligible ones of these. -/
theorem last_best_only_last_n {c : Cfg} {d : Data} {last first : Int} {ol : Option Int} {filt : Option ℚ} {nl : Int}
    {dist : ℚ} (hnl : 1 ≤ nl) {r : Option Int} (h : lastBest c d last first ol filt nl dist = .ok r) :
    ∃ cs : List Int, cs.Pairwise (· < ·) ∧
      (∀ e, e ∈ cs ↔ Candidate c d (bestFrom last first ol) last filt e) ∧
      (∀ e, r = some e → e ∈ cs.drop (cs.length - nl.toNat) ∧
        ∃ v, Eligible c d (bestFrom last first ol) last filt dist e v ∧
          ∀ e' v', e' ∈ cs.drop (cs.length - nl.toNat) → Eligible c d (bestFrom last first ol) last filt dist e' v' →
            v < v' ∨ (v = v' ∧ e ≤ e')) ∧
      (r = none → ∀ e v, e ∈ cs.drop (cs.length - nl.toNat) →
        ¬ Eligible c d (bestFrom last first ol) last filt dist e v) := by
  unfold lastBest at h
  simp only at h
  have hb : firstOf last first ol = bestFrom last first ol := by cases ol <;> rfl
  rw [hb] at h
  generalize hlo : bestFrom last first ol = lo at h ⊢
  split at h
  · rename_i hgt
    injection h with h; subst h
    refine ⟨[], List.Pairwise.nil, fun e => ⟨fun he => (by cases he), ?_⟩, fun e he => (by cases he), fun _ e v he => (by simp at he)⟩
    rintro ⟨t, key, latest, v, ⟨h1, h2, _⟩, _⟩; omega
  · simp only [bind, Except.bind, pure, Except.pure] at h
    split at h
    · cases h
    · rename_i vs hvs
      have hvs' := scoredEpochs_ok hvs
      split at h
      · rename_i hlast
        injection h with h; subst h
        refine ⟨[], List.Pairwise.nil, fun e => ⟨fun he => (by cases he), ?_⟩, fun e he => (by cases he), fun _ e v he => (by simp at he)⟩
        rintro ⟨t, key, latest, v, _, _, h1, h2, h3, _⟩
        rw [List.getLast?_eq_none_iff] at hlast
        have hm := (mem_candidates (key := key) hvs' none v e).2 ⟨h1, h2, h3, by simp⟩
        rw [hlast] at hm; simp at hm
      · rename_i key latest t hlast
        rw [hvs'] at hlast
        obtain ⟨hl1, hl2⟩ := latest_of_getLast hlast
        have hmem := fun v e => mem_candidates (key := key) hvs' filt v e
        have hsorted : vs.Pairwise (fun a b => a.2 < b.2) := by
          rw [hvs', List.pairwise_filterMap, List.pairwise_map]
          refine List.pairwise_lt_range.imp ?_
          intro a b hab x hx y hy
          simp only [Option.map_eq_some_iff] at hx hy
          obtain ⟨_, _, rfl⟩ := hx
          obtain ⟨_, _, rfl⟩ := hy
          simp; omega
        have hLs : (((vs.filter (fun p => decide (p.1.1 = key))).map (fun p => (p.1.2, p.2))).filter
              (fun p => leFilter p.1 filt)).Pairwise (fun a b => a.2 < b.2) := by
          refine List.Pairwise.filter _ ?_
          rw [List.pairwise_map]
          exact List.Pairwise.filter _ hsorted
        generalize hL : ((vs.filter (fun p => decide (p.1.1 = key))).map (fun p => (p.1.2, p.2))).filter
              (fun p => leFilter p.1 filt) = L at h hmem hLs
        have hel : ∀ e v, Eligible c d lo last filt dist e v ↔ (v, e) ∈ L ∧ v + dist < latest := by
          intro e v
          rw [hmem]
          constructor
          · rintro ⟨t', k', l', a1, a2, a3, a4, a5, a6, a7⟩
            have := latest_unique a1 hl1; subst this
            rw [hl2] at a2; injection a2 with a2; injection a2 with a8 a9; subst a8 a9
            exact ⟨⟨a3, a4, a5, a6⟩, a7⟩
          · rintro ⟨⟨a3, a4, a5, a6⟩, a7⟩
            exact ⟨t, key, latest, hl1, hl2, a3, a4, a5, a6, a7⟩
        have hcand : ∀ e, e ∈ L.map Prod.snd ↔ Candidate c d lo last filt e := by
          intro e
          rw [List.mem_map]
          constructor
          · rintro ⟨⟨v, e2⟩, hm, rfl⟩
            obtain ⟨a1, a2, a3, a4⟩ := (hmem v e2).1 hm
            exact ⟨t, key, latest, v, hl1, hl2, a1, a2, a3, a4⟩
          · rintro ⟨t', k', l', v, a1, a2, a3, a4, a5, a6⟩
            have := latest_unique a1 hl1; subst this
            rw [hl2] at a2; injection a2 with a2; injection a2 with a8 a9; subst a8 a9
            exact ⟨(v, e), (hmem v e).2 ⟨a3, a4, a5, a6⟩, rfl⟩
        have hdrop : ∀ e v, e ∈ (L.map Prod.snd).drop ((L.map Prod.snd).length - nl.toNat) → (v, e) ∈ L →
            (v, e) ∈ L.drop (L.length - nl.toNat) := by
          intro e v he hv
          rw [List.length_map, ← List.map_drop, List.mem_map] at he
          obtain ⟨⟨v2, e2⟩, hm, rfl⟩ := he
          have h1 := (hmem v2 e2).1 (List.mem_of_mem_drop hm)
          have h2 := (hmem v e2).1 hv
          rw [h1.2.2.1] at h2
          have h3 := h2.2.2.1
          injection h3 with h3; injection h3 with _ h4
          rw [← h4]; exact hm
        refine ⟨L.map Prod.snd, by rw [List.pairwise_map]; exact hLs, hcand, ?_⟩
        split at h
        · rename_i hemp
          injection h with h; subst h
          rw [List.isEmpty_iff] at hemp
          subst hemp
          exact ⟨fun e he => (by cases he), fun _ e v he => (by simp at he)⟩
        · injection h with h
          cases hmin : minPair ((L.drop (L.length - nl.toNat)).filter (fun p => decide (p.1 + dist < latest))) with
          | none =>
            rw [hmin] at h; subst h
            refine ⟨fun e he => (by cases he), fun _ e v he hE => ?_⟩
            obtain ⟨b1, b2⟩ := (hel e v).1 hE
            have : (v, e) ∈ (L.drop (L.length - nl.toNat)).filter (fun p => decide (p.1 + dist < latest)) :=
              List.mem_filter.2 ⟨hdrop e v he b1, by simpa using b2⟩
            cases hl : (L.drop (L.length - nl.toNat)).filter (fun p => decide (p.1 + dist < latest)) with
            | nil => rw [hl] at this; simp at this
            | cons a l => rw [hl] at hmin; cases hmin
          | some p =>
            rw [hmin] at h; subst h
            obtain ⟨m1, m2⟩ := minPair_spec hmin
            refine ⟨fun e he => ?_, fun hn => by cases hn⟩
            simp only [Option.map_some, Option.some.injEq] at he
            subst he
            rw [List.mem_filter] at m1
            refine ⟨?_, p.1, (hel _ _).2 ⟨List.mem_of_mem_drop m1.1, by simpa using m1.2⟩, ?_⟩
            · rw [List.length_map, ← List.map_drop]
              exact List.mem_map_of_mem m1.1
            · intro e' v' hd hE
              obtain ⟨b1, b2⟩ := (hel e' v').1 hE
              exact m2 _ (List.mem_filter.2 ⟨hdrop e' v' hd b1, by simpa using b2⟩)

/-! ### `set_epoch_error` -/

theorem get?_updateDict {V : Type _} (other : Dict String V) : ∀ (d : Dict String V), other.Wf → ∀ k,
    (updateDict d other).get? k = (other.get? k).or (d.get? k) := by
  unfold updateDict
  induction other with
  | nil => intro d _ k; rfl
  | cons e l ih =>
    intro d hw k
    have hw' : Dict.Wf l := (List.nodup_cons.1 hw).2
    have hn : e.1 ∉ Dict.keys l := (List.nodup_cons.1 hw).1
    rw [List.foldl_cons, ih _ hw', Dict.get?_set]
    simp only [Dict.get?]
    by_cases h : e.1 = k
    · subst h
      rw [if_pos rfl, if_pos rfl, (Dict.get?_eq_none l e.1).2 hn]; rfl
    · rw [if_neg h, if_neg h]

theorem flatten_nums {err : Dict String Score} (h : ∀ kv ∈ err, ∃ v, kv.2 = .num v) : flatten err = err := by
  unfold flatten
  have key : ∀ (l : Dict String Score) (acc : Dict String Score), (∀ kv ∈ l, ∃ v, kv.2 = .num v) →
      l.foldl flattenStep acc = acc := by
    intro l
    induction l with
    | nil => intro acc _; rfl
    | cons a l ih =>
      intro acc hl
      obtain ⟨v, hv⟩ := hl a (by simp)
      rw [List.foldl_cons, ih _ (fun kv hkv => hl kv (by simp [hkv]))]
      simp [flattenStep, hv]
  exact key err err h

theorem toNums_map (l : Dict String ℚ) : toNums (l.map (fun p => (p.1, Score.num p.2))) = .ok l := by
  induction l with
  | nil => rfl
  | cons a l ih => simp only [List.map_cons, toNums, ih, bind, Except.bind, pure, Except.pure]

/-- Plain scores are stored: afterwards the epoch has exactly the new scores and the earlier scores with other keys,
the same rate as before; no other epoch is changed. -/
theorem set_error_stores {k : Control} {c : Cfg} {d : Data} {e : Int} {x : EpochData} {new : Dict String ℚ}
    (hx : d.get? e = some x) (hnew : new.Wf) :
    ∃ d', setError k c d e (new.map (fun p => (p.1, Score.num p.2))) = .ok d' ∧
      (∃ y, d'.get? e = some y ∧ y.lr = x.lr ∧ ∀ key, y.error.get? key = (new.get? key).or (x.error.get? key)) ∧
      ∀ e', e' ≠ e → d'.get? e' = d.get? e' := by
  have hc : d.contains e = true := by unfold Dict.contains; rw [hx]; rfl
  refine ⟨d.set e ⟨x.lr, updateDict x.error new⟩, ?_, ⟨⟨x.lr, updateDict x.error new⟩, ?_, rfl, ?_⟩, ?_⟩
  · unfold setError
    rw [flatten_nums (by intro kv hkv; simp at hkv; obtain ⟨a, b, _, rfl⟩ := hkv; exact ⟨b, rfl⟩), toNums_map]
    simp only [hc, if_true, getItem_ok.2 hx, bind, Except.bind, pure, Except.pure]
  · rw [Dict.get?_set, if_pos rfl]
  · intro key; exact get?_updateDict new x.error hnew key
  · intro e' hne; rw [Dict.get?_set, if_neg (fun h => hne h.symm)]

/-! ### Non-vacuity -/

/-- A configuration: decay by half, no growth. -/
def exCfg : Cfg :=
  { defaultLr := 1, minLr := 3/10, errKey := .none, relLr := false, minNum := 0, divByOld := false,
    decay := .factor (1/2), growth := .none }

/-- Training for five epochs with the given dev scores. -/
def exOps (s : List ℚ) : List Op :=
  (s.zipIdx 1).flatMap (fun p => [.getLr p.2, .setError p.2 [("dev_score", .num p.1)]])

/-- Scores improve, then stall twice: the rate is halved, then bounded by the minimum. -/
example : (runOps (.relative (-1/100)) exCfg [] (exOps [4, 2, 2, 3, 5])).map (fun d => d.map (fun p => (p.1, p.2.lr))) =
    .ok [(1, 1), (2, 1), (3, 1), (4, 1/2), (5, 3/10)] := by decide +kernel

/-- With `min_num_epochs_per_new_lr = 3` the same history keeps the first rate for three epochs, and so on. -/
example : (runOps (.relative (-1/100)) { exCfg with minNum := 3 } [] (exOps [4, 2, 2, 3, 5, 6])).map
    (fun d => d.map (fun p => (p.1, p.2.lr))) =
    .ok [(1, 1), (2, 1), (3, 1), (4, 1/2), (5, 1/2), (6, 1/2)] := by decide +kernel

/-- The hypotheses of `zero_score_fails` are met by the training with scores 4, 0. -/
example : runOps (.relative (-1/100)) exCfg [] (exOps [4, 0] ++ [.getLr 3]) = .error .zeroDivision := by decide +kernel

example : lastBest exCfg [(1, ⟨1, [("dev_score", 4)]⟩), (2, ⟨1, [("dev_score", 2)]⟩), (3, ⟨1, [("dev_score", 2)]⟩),
    (4, ⟨1, [("dev_score", 3)]⟩)] 4 1 none none (-1) 0 = .ok (some 2) := by decide +kernel

/-- A training as in the theorems. -/
example : ∃ d, Train (.relative (-1/100)) exCfg 2 d ∧ d.length = 2 := by
  refine ⟨_, .score (.epoch (.score (.epoch .init rfl) (by decide) (err := [("dev_score", .num 4)]) rfl) rfl)
    (by decide) (err := [("dev_score", .num 5)]) rfl, ?_⟩
  decide +kernel

end Verif.LearningRate
