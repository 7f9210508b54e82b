import Verif.MathUtil.Model
import Verif.Util.ListLemmas
import Mathlib.Algebra.Order.Field.Rat
import Mathlib.Algebra.Order.AbsoluteValue.Basic
import Mathlib.Tactic.Linarith
import Mathlib.Tactic.FieldSimp
import Mathlib.Tactic.Ring
import Mathlib.Data.List.Basic
/-
Theorems about the number helpers (C19, C20, C44, C45, C46).
-/
namespace Verif.MathUtil
open Verif.Py Verif.ListLemmas

/-! ### Integer helpers (C20) -/

/-- C20. `ceil_div(a, b)` for `b > 0` is the least `q` with `q * b >= a`. -/
theorem ceilDiv_least (a b : Int) (hb : 0 < b) :
    ∃ q, ceilDiv a b = .ok q ∧ a ≤ q * b ∧ ∀ q', a ≤ q' * b → q ≤ q' := by
  have hne : b ≠ 0 := by omega
  refine ⟨-(Int.fdiv (-a) b), by simp [ceilDiv, hne], ?_, ?_⟩
  · have h1 := Int.mul_fdiv_add_fmod (-a) b
    have h2 := Int.fmod_nonneg_of_pos (-a) hb
    have h3 : -(-a).fdiv b * b = -(b * (-a).fdiv b) := by ring
    rw [h3]; omega
  · intro q' hq'
    have h1 := Int.mul_fdiv_add_fmod (-a) b
    have h2 := Int.fmod_lt_of_pos (-a) hb
    by_contra hc
    have h3 : q' + 1 ≤ -(-a).fdiv b := by omega
    have h4 : (q' + 1) * b ≤ -(-a).fdiv b * b := Int.mul_le_mul_of_nonneg_right h3 (by omega)
    have h5 : -(-a).fdiv b * b = -(b * (-a).fdiv b) := by ring
    have h6 : (q' + 1) * b = q' * b + b := by ring
    rw [h5, h6] at h4
    omega

/-- C20. For `b < 0` as well: the least `q` with `q >= a / b`, that is `q * b <= a`. -/
theorem ceilDiv_least_neg (a b : Int) (hb : b < 0) :
    ∃ q, ceilDiv a b = .ok q ∧ q * b ≤ a ∧ ∀ q', q' * b ≤ a → q ≤ q' := by
  obtain ⟨q, h1, h2, h3⟩ := ceilDiv_least (-a) (-b) (by omega)
  have hne : b ≠ 0 := by omega
  refine ⟨q, ?_, ?_, ?_⟩
  · simp only [ceilDiv, hne, if_false, show ¬ -b = 0 by omega] at h1 ⊢
    rw [← h1, Int.neg_fdiv_neg]
  · have : q * -b = -(q * b) := by ring
    rw [this] at h2; omega
  · intro q' hq'
    refine h3 q' ?_
    have : q' * -b = -(q' * b) := by ring
    rw [this]; omega

theorem ceilDiv_zero (a : Int) : ceilDiv a 0 = .error .zeroDivision := by simp [ceilDiv]

theorem bitLength_spec (n : Nat) : n < 2 ^ bitLength n ∧ (n ≠ 0 → 2 ^ bitLength n ≤ 2 * n) := by
  induction n using Nat.strongRecOn with
  | ind n ih =>
    unfold bitLength
    by_cases h0 : n = 0
    · subst h0; simp
    · simp only [h0, if_false, pow_succ]
      obtain ⟨i1, i2⟩ := ih (n / 2) (by omega)
      refine ⟨by omega, fun _ => ?_⟩
      by_cases h1 : n / 2 = 0
      · have : bitLength (n / 2) = 0 := by rw [h1]; simp [bitLength]
        rw [this]; omega
      · have := i2 h1; omega

/-- C20. `next_power_of_two(n)` for `n >= 1` is the least power of two which is at least `n`. -/
theorem nextPowerOfTwo_least (n : Int) (hn : 1 ≤ n) :
    (∃ k : Nat, nextPowerOfTwo n = 2 ^ k) ∧ n ≤ nextPowerOfTwo n ∧ ∀ j : Nat, n ≤ 2 ^ j → nextPowerOfTwo n ≤ 2 ^ j := by
  obtain ⟨m, rfl⟩ : ∃ m : Nat, n = m + 1 := ⟨(n - 1).toNat, by omega⟩
  have hm : ((m : Int) + 1 - 1).natAbs = m := by omega
  unfold nextPowerOfTwo
  rw [hm]
  obtain ⟨h1, h2⟩ := bitLength_spec m
  refine ⟨⟨_, rfl⟩, ?_, ?_⟩
  · have : ((m : Int)) < ((2 ^ bitLength m : Nat) : Int) := by exact_mod_cast h1
    push_cast at this; omega
  · intro j hj
    have hj' : m + 1 ≤ 2 ^ j := by
      have : ((m + 1 : Nat) : Int) ≤ ((2 ^ j : Nat) : Int) := by push_cast; exact hj
      exact_mod_cast this
    have hb : bitLength m ≤ j := by
      by_cases h0 : m = 0
      · subst h0; simp [bitLength]
      · have h3 := h2 h0
        by_contra hc
        have h4 : 2 ^ (j + 1) ≤ 2 ^ bitLength m := Nat.pow_le_pow_right (by omega) (by omega)
        rw [pow_succ] at h4
        omega
    exact_mod_cast (Nat.pow_le_pow_right (show 0 < 2 by omega) hb)

/-- Below 1 the claim of the documentation ("next power of two, >= n") holds, but the power is not the least one. -/
theorem nextPowerOfTwo_nonpos : nextPowerOfTwo 0 = 2 ∧ nextPowerOfTwo (-1) = 4 ∧ nextPowerOfTwo (-6) = 8 := by
  simp [nextPowerOfTwo, bitLength]

example : ceilDiv 7 2 = .ok 4 ∧ ceilDiv (-7) 2 = .ok (-3) ∧ ceilDiv 8 2 = .ok 4 ∧ ceilDiv 7 (-2) = .ok (-3) := by decide +kernel
example : nextPowerOfTwo 5 = 8 ∧ nextPowerOfTwo 8 = 8 ∧ nextPowerOfTwo 1 = 1 := by simp [nextPowerOfTwo, bitLength]

/-! ### The argument of the call -/

/-- With a `kw_name`: the argument must be given with that name and nothing else, except that other names are allowed with
`ignore_other_kwargs`. -/
theorem selectArg_kw (o : CallOpts) (k : String) (hk : o.kwName = some k) (hk0 : k ≠ "")
    (kwargs : List (String × Option Rat)) (hnd : (kwargs.map Prod.fst).Nodup) (args : List (Option Rat)) (x : Rat) :
    selectArg o args kwargs = .ok x ↔
      args = [] ∧ (k, some x) ∈ kwargs ∧ (o.ignoreOtherKwargs = false → kwargs = [(k, some x)]) := by
  have hpop : ∀ kw : List (String × Option Rat), (kw.map Prod.fst).Nodup →
      (∀ v, (k, v) ∈ kw → popKw kw k = (v, kw.filter (fun e => e.1 ≠ k))) ∧
      ((∀ v, (k, v) ∉ kw) → popKw kw k = (none, kw)) := by
    intro kw
    induction kw with
    | nil => intro _; exact ⟨fun v h => absurd h (by simp), fun _ => rfl⟩
    | cons e r ih =>
      intro hnd
      obtain ⟨k', v'⟩ := e
      simp only [List.map_cons, List.nodup_cons] at hnd
      by_cases he : k' = k
      · subst he
        constructor
        · intro v hv
          have hv' : v = v' := by
            rcases List.mem_cons.mp hv with h | h
            · injection h
            · exact absurd (List.mem_map.mpr ⟨_, h, rfl⟩) hnd.1
          subst hv'
          simp only [popKw, if_true, ne_eq]
          congr 1
          simp only [not_true_eq_false, decide_false, List.filter_cons, Bool.false_eq_true, if_false]
          symm
          rw [List.filter_eq_self]
          intro e he
          simp only [decide_eq_true_eq]
          intro hc
          exact hnd.1 (List.mem_map.mpr ⟨e, he, hc⟩)
        · intro h; exact absurd (List.mem_cons_self ..) (h v')
      · obtain ⟨i1, i2⟩ := ih hnd.2
        constructor
        · intro v hv
          rcases List.mem_cons.mp hv with h | h
          · injection h with h _; exact absurd h.symm he
          · simp only [popKw, he, if_false, i1 v h, List.filter_cons, ne_eq, not_false_eq_true, decide_true, if_true]
        · intro h
          simp only [popKw, he, if_false, i2 (fun v hv => h v (List.mem_cons_of_mem _ hv))]
  have hkn : o.kwName.getD "" = k := by simp [hk]
  unfold selectArg
  simp only [hkn, ne_eq, hk0, not_false_eq_true, if_true, bind, Except.bind]
  by_cases ha : args = []
  · subst ha
    simp only [not_true_eq_false, if_false, true_and]
    by_cases hin : ∃ v, (k, v) ∈ kwargs
    · obtain ⟨v, hv⟩ := hin
      rw [(hpop kwargs hnd).1 v hv]
      have huniq : ∀ w, (k, w) ∈ kwargs → w = v := by
        intro w hw
        have := (hpop kwargs hnd).1 w hw
        rw [(hpop kwargs hnd).1 v hv] at this
        injection this with h _; exact h.symm
      have hone : kwargs.filter (fun e => e.1 ≠ k) = [] ↔ kwargs = [(k, v)] := by
        constructor
        · intro h
          rw [List.filter_eq_nil_iff] at h
          have hall : ∀ e ∈ kwargs, e = (k, v) := by
            intro e he
            have h1 : e.1 = k := by simpa using h e he
            obtain ⟨a, b⟩ := e
            simp only at h1; subst h1
            rw [huniq b he]
          match kwargs, hv, hnd, hall with
          | [e], _, _, hall => rw [hall e (by simp)]
          | e1 :: e2 :: r, _, hnd, hall =>
            exfalso
            have h1 := hall e1 (by simp); have h2 := hall e2 (by simp)
            subst h1; subst h2; simp at hnd
        · intro h; subst h; simp
      by_cases hi : o.ignoreOtherKwargs = true
      · simp only [hi, Bool.not_true, Bool.false_and, Bool.false_eq_true, if_false]
        cases v with
        | none => simp only [reduceCtorEq, false_iff]; rintro ⟨h, _⟩; have := huniq _ h; simp at this
        | some y =>
          simp only [Except.ok.injEq, Bool.true_eq_false, false_implies, and_true]
          constructor
          · rintro rfl; exact hv
          · intro h; have := huniq _ h; injection this with h; exact h.symm
      · have hi' : o.ignoreOtherKwargs = false := by simpa using hi
        simp only [hi', Bool.not_false, Bool.true_and, decide_eq_true_eq, true_implies]
        by_cases hf : kwargs.filter (fun e => e.1 ≠ k) = []
        · simp only [ne_eq] at hf
          simp only [ne_eq, hf, not_true_eq_false, if_false]
          have hk1 := hone.mp hf
          cases v with
          | none => simp only [reduceCtorEq, false_iff]; rintro ⟨h, _⟩; have := huniq _ h; simp at this
          | some y =>
            simp only [Except.ok.injEq]
            constructor
            · rintro rfl; exact ⟨hv, hk1⟩
            · rintro ⟨h, _⟩; have := huniq _ h; injection this with h; exact h.symm
        · have hf' := hf
          simp only [ne_eq] at hf'
          simp only [ne_eq, hf', not_false_eq_true, if_true, reduceCtorEq, false_iff]
          rintro ⟨h, h2⟩
          refine hf (hone.mpr ?_)
          rw [h2, huniq _ h]
    · have hn : ∀ v, (k, v) ∉ kwargs := fun v hv => hin ⟨v, hv⟩
      rw [(hpop kwargs hnd).2 hn]
      constructor
      · intro h
        split at h <;> simp at h
      · rintro ⟨h, _⟩; exact absurd h (hn _)
  · simp [ha]

/-- Without a `kw_name`: exactly one positional argument, and no keyword argument unless they are ignored. -/
theorem selectArg_pos (o : CallOpts) (hk : o.kwName = none) (kwargs : List (String × Option Rat)) (args : List (Option Rat)) (x : Rat) :
    selectArg o args kwargs = .ok x ↔ args = [some x] ∧ (o.ignoreOtherKwargs = false → kwargs = []) := by
  unfold selectArg
  simp only [hk, Option.getD_none, ne_eq, not_true_eq_false, if_false, bind, Except.bind]
  match args with
  | [] => simp
  | [y] =>
    simp only
    cases hi : o.ignoreOtherKwargs <;> by_cases hkw : kwargs = [] <;> cases y <;> simp [hkw]
  | _ :: _ :: _ => simp

/-! ### `StepFunction` (C19) -/

theorem sortedKeys_perm {V : Type} (values : Dict Rat V) : (sortedKeys values).Perm values.keys := stableSort_perm _ _

theorem sortedKeys_sorted {V : Type} (values : Dict Rat V) : (sortedKeys values).Pairwise (· ≤ ·) := by
  have := stableSort_pairwise (le := fun a b : Rat => decide (a ≤ b))
    (fun a b c h1 h2 => by simp at *; exact le_trans h1 h2) (fun a b => by simp; exact le_total a b) values.keys
  simpa [sortedKeys] using this

theorem bisectLoop_spec (keys : List Rat) (x : Rat) (hs : keys.Pairwise (· ≤ ·)) (fuel lo hi : Nat) (hf : hi - lo ≤ fuel)
    (hlh : lo ≤ hi) (hh : hi ≤ keys.length)
    (h1 : ∀ i (h : i < keys.length), i < lo → keys[i] < x) (h2 : ∀ i (h : i < keys.length), hi ≤ i → x ≤ keys[i]) :
    ∃ m ≤ keys.length, bisectLoop keys x fuel lo hi = m ∧
      (∀ i (h : i < keys.length), i < m → keys[i] < x) ∧ (∀ i (h : i < keys.length), m ≤ i → x ≤ keys[i]) := by
  induction fuel generalizing lo hi with
  | zero =>
    have : lo = hi := by omega
    subst this
    exact ⟨lo, hh, rfl, h1, h2⟩
  | succ fuel ih =>
    unfold bisectLoop
    by_cases hlt : lo < hi
    · simp only [hlt, if_true]
      have hmid : (lo + hi) / 2 < keys.length := by omega
      rw [List.getElem?_eq_getElem hmid]
      simp only [Option.getD_some]
      have hmono : ∀ i j (hi : i < keys.length) (hj : j < keys.length), i ≤ j → keys[i] ≤ keys[j] := by
        intro i j hi hj hij
        rcases Nat.lt_or_ge i j with h | h
        · exact List.pairwise_iff_getElem.mp hs i j hi hj h
        · have : i = j := by omega
          subst this; exact le_refl _
      by_cases hc : keys[(lo + hi) / 2] < x
      · simp only [hc, if_true]
        refine ih _ _ (by omega) (by omega) hh ?_ h2
        intro i hil hi2
        exact lt_of_le_of_lt (hmono i ((lo + hi) / 2) hil hmid (by omega)) hc
      · simp only [hc, if_false]
        refine ih _ _ (by omega) (by omega) (by omega) h1 ?_
        intro i hil hi2
        exact le_trans (not_lt.mp hc) (hmono ((lo + hi) / 2) i hmid hil hi2)
    · simp only [hlt, if_false]
      have : lo = hi := by omega
      subst this
      exact ⟨lo, hh, rfl, h1, h2⟩

/-- C19. `StepFunction(values)(x)` is the value of a key which is nearest to `x`, the lower key if there are two. -/
theorem stepLookup_nearest {V : Type} (values : Dict Rat V) (hne : values.keys ≠ []) (x : Rat) :
    ∃ k y, values.get? k = some y ∧ stepLookup values x = .ok y ∧
      ∀ k' ∈ values.keys, |x - k| ≤ |x - k'| ∧ (|x - k'| = |x - k| → k ≤ k') := by
  have hs := sortedKeys_sorted values
  have hp := sortedKeys_perm values
  generalize hks : sortedKeys values = keys at hs hp
  have hlen : 0 < keys.length := by
    rw [hp.length_eq]
    exact List.length_pos_iff.mpr hne
  obtain ⟨m, hm, hb, h1, h2⟩ := bisectLoop_spec keys x hs keys.length 0 keys.length (by omega) (by omega) (le_refl _)
    (fun i h hi => absurd hi (by omega)) (fun i h hi => absurd hi (by omega))
  have hmono : ∀ i j (hi : i < keys.length) (hj : j < keys.length), i ≤ j → keys[i] ≤ keys[j] := by
    intro i j hi hj hij
    rcases Nat.lt_or_ge i j with h | h
    · exact List.pairwise_iff_getElem.mp hs i j hi hj h
    · have : i = j := by omega
      subst this; exact le_refl _
  -- it suffices to show which key is selected
  suffices h : ∃ j, ∃ hj : j < keys.length,
      stepLookup values x = values.getItem keys[j] ∧
      ∀ i (hi : i < keys.length), |x - keys[j]| ≤ |x - keys[i]| ∧ (|x - keys[i]| = |x - keys[j]| → keys[j] ≤ keys[i]) by
    obtain ⟨j, hj, e, hall⟩ := h
    have hmem : keys[j] ∈ values.keys := hp.mem_iff.mp (List.getElem_mem hj)
    obtain ⟨y, hy⟩ := Option.isSome_iff_exists.mp ((values.get?_isSome keys[j]).mpr hmem)
    refine ⟨keys[j], y, hy, by rw [e]; simp [Dict.getItem, hy], ?_⟩
    intro k' hk'
    obtain ⟨i, hi, rfl⟩ := List.mem_iff_getElem.mp (hp.mem_iff.mpr hk')
    exact hall i hi
  have hkne : keys ≠ [] := List.length_pos_iff.mp hlen
  unfold stepLookup
  simp only [hks, bind, Except.bind, pyAssert, ne_eq, hkne, not_false_eq_true, decide_true, if_true, bisectLeft, hb]
  by_cases hge : m ≥ keys.length
  · simp only [hge, if_true, getItem, List.getElem?_eq_getElem (show m - 1 < keys.length by omega)]
    refine ⟨m - 1, by omega, rfl, ?_⟩
    intro i hi
    have a1 := h1 i hi (by omega)
    have a2 := h1 (m - 1) (by omega) (by omega)
    have a3 := hmono i (m - 1) hi (by omega) (by omega)
    rw [abs_of_pos (by linarith), abs_of_pos (by linarith)]
    exact ⟨by linarith, fun h => by linarith⟩
  · have hml : m < keys.length := by omega
    simp only [hge, if_false, getItem, List.getElem?_eq_getElem hml]
    by_cases hm0 : m > 0
    · simp only [hm0, if_true, List.getElem?_eq_getElem (show m - 1 < keys.length by omega)]
      have b1 := h1 (m - 1) (by omega) (by omega)
      have b2 := h2 m hml (le_refl _)
      by_cases hc : x - keys[m - 1] ≤ keys[m] - x
      · simp only [hc, if_true]
        refine ⟨m - 1, by omega, rfl, ?_⟩
        intro i hi
        rw [abs_of_pos (show 0 < x - keys[m - 1] by linarith)]
        rcases Nat.lt_or_ge i m with h | h
        · have a1 := h1 i hi h
          have a3 := hmono i (m - 1) hi (by omega) (by omega)
          rw [abs_of_pos (by linarith)]
          exact ⟨by linarith, fun h => by linarith⟩
        · have a1 := h2 i hi h
          have a3 := hmono m i hml hi h
          rw [abs_of_nonpos (by linarith)]
          exact ⟨by linarith, fun h => by linarith⟩
      · simp only [hc, if_false]
        refine ⟨m, hml, rfl, ?_⟩
        intro i hi
        rw [abs_of_nonpos (show x - keys[m] ≤ 0 by linarith)]
        rcases Nat.lt_or_ge i m with h | h
        · have a1 := h1 i hi h
          have a3 := hmono i (m - 1) hi (by omega) (by omega)
          rw [abs_of_pos (by linarith)]
          exact ⟨by linarith, fun h => by linarith⟩
        · have a1 := h2 i hi h
          have a3 := hmono m i hml hi h
          rw [abs_of_nonpos (by linarith)]
          exact ⟨by linarith, fun h => by linarith⟩
    · simp only [hm0, if_false]
      refine ⟨m, hml, rfl, ?_⟩
      intro i hi
      have a1 := h2 i hi (by omega)
      have a2 := h2 m hml (le_refl _)
      have a3 := hmono m i hml hi (by omega)
      rw [abs_of_nonpos (by linarith), abs_of_nonpos (by linarith)]
      exact ⟨by linarith, fun h => by linarith⟩

/-- C19, the whole call: an accepted call gives the value of the nearest key; without any key the constructor fails. -/
theorem stepFunction_nearest {V : Type} (values : Dict Rat V) (o : CallOpts) (args : List (Option Rat))
    (kwargs : List (String × Option Rat)) :
    (values.keys = [] → stepFunction values o args kwargs = .error .assertion) ∧
    (∀ x, values.keys ≠ [] → selectArg o args kwargs = .ok x →
      ∃ k y, values.get? k = some y ∧ stepFunction values o args kwargs = .ok y ∧
        ∀ k' ∈ values.keys, |x - k| ≤ |x - k'| ∧ (|x - k'| = |x - k| → k ≤ k')) := by
  constructor
  · intro h; simp [stepFunction, h, pyAssert, bind, Except.bind]
  · intro x hne hx
    obtain ⟨k, y, h1, h2, h3⟩ := stepLookup_nearest values hne x
    refine ⟨k, y, h1, ?_, h3⟩
    simp [stepFunction, hne, pyAssert, bind, Except.bind, hx, h2]

def exSteps : Dict Rat Nat := [(10, 1), (0, 0), (20, 2)]

example : stepFunction exSteps {} [some 5] [] = .ok 0 ∧ stepFunction exSteps {} [some 6] [] = .ok 1 ∧
    stepFunction exSteps {} [some (-3)] [] = .ok 0 ∧ stepFunction exSteps {} [some 21] [] = .ok 2 ∧
    stepFunction exSteps { kwName := some "epoch", ignoreOtherKwargs := true } [] [("n", some 1), ("epoch", some 16)] = .ok 2 ∧
    stepFunction exSteps { kwName := some "epoch" } [] [("n", some 1), ("epoch", some 16)] = .error .typeError := by
  decide +kernel

end Verif.MathUtil
