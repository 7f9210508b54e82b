import Verif.NumbersDict.Spec
import Mathlib.Data.List.Nodup
/-
Theorems about `NumbersDict` (C17).
-/
namespace Verif.NumbersDict
open Verif.Py

variable {K V W : Type} [DecidableEq K]

theorem get_iff (a : ND K V) (hn : NoNone a) (k : K) (v : V) : get a k = some v ↔ HasNumber a k v := by
  unfold get
  cases h : a.dict.get? k with
  | none =>
    simp only [Option.getD_none]
    exact ⟨fun h2 => .broadcast h h2, fun h' => by
      cases h' with
      | explicit h' => rw [h] at h'; cases h'
      | broadcast _ h2 => exact h2⟩
  | some o =>
    simp only [Option.getD_some]
    refine ⟨fun h2 => .explicit (by rw [h, h2]), fun h' => ?_⟩
    cases h' with
    | explicit h' => rw [h] at h'; injection h'
    | broadcast h1 _ => rw [h] at h1; cases h1

theorem mem_keysUnionLoop (seen ks : List K) (k : K) : k ∈ keysUnionLoop seen ks ↔ k ∈ seen ∨ k ∈ ks := by
  induction ks generalizing seen with
  | nil => simp [keysUnionLoop]
  | cons a ks ih =>
    unfold keysUnionLoop
    split
    · rename_i h
      rw [ih]
      constructor
      · rintro (h' | h') <;> simp [h']
      · rintro (h' | h')
        · exact .inl h'
        · rcases List.mem_cons.mp h' with rfl | h'
          · exact .inl h
          · exact .inr h'
    · rw [ih]; simp [or_assoc]

theorem nodup_keysUnionLoop (seen ks : List K) (h : seen.Nodup) : (keysUnionLoop seen ks).Nodup := by
  induction ks generalizing seen with
  | nil => exact h
  | cons a ks ih =>
    unfold keysUnionLoop
    split
    · exact ih _ h
    · rename_i ha
      refine ih _ ?_
      rw [List.nodup_append]
      refine ⟨h, by simp, ?_⟩
      intro x hx y hy
      simp at hy; subst hy
      intro e; subst e; exact ha hx

theorem mem_keysUnion (a : ND K V) (b : ND K W) (k : K) :
    k ∈ keysUnion a b ↔ k ∈ a.dict.keys ∨ k ∈ b.dict.keys := by
  simp [keysUnion, mem_keysUnionLoop]

theorem nodup_keysUnion (a : ND K V) (b : ND K W) : (keysUnion a b).Nodup :=
  nodup_keysUnionLoop _ _ (nodup_keysUnionLoop _ _ List.nodup_nil)

theorem get?_binOpLoop (a b : ND K V) (op : Option V → Option V → Option W) (zero : Option V) (ks : List K)
    (r : Dict K (Option W)) (k : K) :
    (binOpLoop a b op zero ks r).get? k
      = if k ∈ ks then some (binOpScalarOptional (get a k) (get b k) zero op) else r.get? k := by
  induction ks generalizing r with
  | nil => simp [binOpLoop]
  | cons c ks ih =>
    unfold binOpLoop
    rw [ih, Dict.get?_set]
    by_cases h : k ∈ ks
    · simp [h]
    · by_cases h2 : c = k
      · subst h2; simp
      · have h3 : ¬ (k = c) := fun e => h2 e.symm
        simp [h, h2, h3]

/-- C17. A binary operation acts key-wise, for every key whatsoever (explicit in one, both or none of the operands). -/
theorem binOp_keywise (a b : ND K V) (op : Option V → Option V → Option W) (zero : Option V) (k : K) :
    get (binOp a b op zero) k = binOpScalarOptional (get a k) (get b k) zero op := by
  unfold binOp
  rw [get, get?_binOpLoop]
  split
  · rfl
  · rename_i h
    rw [mem_keysUnion, not_or, ← Dict.get?_eq_none, ← Dict.get?_eq_none] at h
    simp [Dict.get?, get, h.1, h.2]

/-- The explicit keys of the result are exactly the union of the explicit keys, without duplicates. -/
theorem binOp_keys (a b : ND K V) (op : Option V → Option V → Option W) (zero : Option V) :
    (∀ k, k ∈ (binOp a b op zero).dict.keys ↔ k ∈ a.dict.keys ∨ k ∈ b.dict.keys) ∧ (binOp a b op zero).dict.Wf := by
  constructor
  · intro k
    rw [← Dict.get?_isSome]
    unfold binOp
    rw [get?_binOpLoop, ← mem_keysUnion]
    split <;> simp_all [Dict.get?]
  · have : ∀ (ks : List K) (r : Dict K (Option W)), r.Wf → (binOpLoop a b op zero ks r).Wf := by
      intro ks
      induction ks with
      | nil => intro r h; exact h
      | cons c ks ih => intro r h; exact ih _ (Dict.wf_set h _ _)
    exact this _ [] List.nodup_nil

theorem get_set_other (a : ND K V) (k k' : K) (v : Option V) (h : k ≠ k') :
    get { a with dict := a.dict.set k v } k' = get a k' := by
  simp [get, Dict.get?_set, h]

theorem iBinOpLoop_spec (b : ND K V) (op : Option V → Option V → Option V) (zero : Option V) (ks : List K)
    (hnd : ks.Nodup) (a : ND K V) :
    (iBinOpLoop b op zero ks a).value = a.value ∧
    ∀ k, (iBinOpLoop b op zero ks a).dict.get? k
      = if k ∈ ks then some (binOpScalarOptional (get a k) (get b k) zero op) else a.dict.get? k := by
  induction ks generalizing a with
  | nil => simp [iBinOpLoop]
  | cons c ks ih =>
    rw [List.nodup_cons] at hnd
    unfold iBinOpLoop
    obtain ⟨h1, h2⟩ := ih hnd.2 { a with dict := a.dict.set c (binOpScalarOptional (get a c) (get b c) zero op) }
    refine ⟨h1, ?_⟩
    intro k
    rw [h2]
    by_cases hk : k ∈ ks
    · have : c ≠ k := fun e => hnd.1 (e ▸ hk)
      simp only [hk, if_true, List.mem_cons, or_true]
      rw [get_set_other _ _ _ _ this]
    · by_cases hc : c = k
      · subst hc; simp [hk, Dict.get?_set]
      · have hc' : ¬ (k = c) := fun e => hc e.symm
        simp [hk, hc', Dict.get?_set, hc]

/-- C17. The in-place operators give the same numbers as the normal operators, for every key. -/
theorem iBinOp_eq_binOp (a b : ND K V) (op : Option V → Option V → Option V) (zero : Option V) (k : K) :
    get (iBinOp a b op zero) k = get (binOp a b op zero) k := by
  obtain ⟨h1, h2⟩ := iBinOpLoop_spec b op zero (keysUnion a b) (nodup_keysUnion a b) a
  rw [binOp_keywise]
  unfold iBinOp
  simp only [get] at h2 ⊢
  rw [h2, h1]
  split
  · rfl
  · rename_i h
    rw [mem_keysUnion, not_or, ← Dict.get?_eq_none, ← Dict.get?_eq_none] at h
    simp [h.1, h.2]

theorem selfBinOpLoop_spec (op : Option V → Option V → Option V) (zero : Option V) (ks : List K)
    (hnd : ks.Nodup) (a : ND K V) :
    (selfBinOpLoop op zero ks a).value = a.value ∧
    ∀ k, (selfBinOpLoop op zero ks a).dict.get? k
      = if k ∈ ks then some (binOpScalarOptional (get a k) (get a k) zero op) else a.dict.get? k := by
  induction ks generalizing a with
  | nil => simp [selfBinOpLoop]
  | cons c ks ih =>
    rw [List.nodup_cons] at hnd
    unfold selfBinOpLoop
    obtain ⟨h1, h2⟩ := ih hnd.2 { a with dict := a.dict.set c (binOpScalarOptional (get a c) (get a c) zero op) }
    refine ⟨h1, ?_⟩
    intro k
    rw [h2]
    by_cases hk : k ∈ ks
    · have : c ≠ k := fun e => hnd.1 (e ▸ hk)
      simp only [hk, if_true, List.mem_cons, or_true]
      rw [get_set_other _ _ _ _ this]
    · by_cases hc : c = k
      · subst hc; simp [hk, Dict.get?_set]
      · have hc' : ¬ (k = c) := fun e => hc e.symm
        simp [hk, hc', Dict.get?_set, hc]

/-- C17. `d += d` (the same object on both sides) is safe: it gives the same numbers as `d + d`. -/
theorem selfBinOp_eq_binOp (a : ND K V) (op : Option V → Option V → Option V) (zero : Option V) (k : K) :
    get (selfBinOp a op zero) k = get (binOp a a op zero) k := by
  obtain ⟨h1, h2⟩ := selfBinOpLoop_spec op zero (keysUnion a a) (nodup_keysUnion a a) a
  rw [binOp_keywise]
  unfold selfBinOp
  simp only [get] at h2 ⊢
  rw [h2, h1]
  split
  · rfl
  · rename_i h
    rw [mem_keysUnion, not_or, ← Dict.get?_eq_none] at h
    simp [h.1]

/-- C17. Addition, subtraction, multiplication and floor division act key-wise; a missing number counts as 0 (or 1). -/
theorem arith_keywise (a b : ND K Int) (k : K) :
    get (add a b) k = Keywise (· + ·) 0 (get a k) (get b k) ∧
    get (sub a b) k = Keywise (· - ·) 0 (get a k) (get b k) ∧
    get (mul a b) k = Keywise (· * ·) 1 (get a k) (get b k) ∧
    get (floordiv a b) k = Keywise Int.fdiv 1 (get a k) (get b k) ∧
    get (neg a) k = (get a k).map (fun x => -x) ∧
    get (iadd a b) k = get (add a b) k := by
  refine ⟨?_, ?_, ?_, ?_, ?_, iBinOp_eq_binOp _ _ _ _ _⟩
  · rw [add, binOp_keywise]; cases get a k <;> cases get b k <;> rfl
  · rw [sub, binOp_keywise]; cases get a k <;> cases get b k <;> rfl
  · rw [mul, binOp_keywise]; cases get a k <;> cases get b k <;> rfl
  · rw [floordiv, binOp_keywise]; cases get a k <;> cases get b k <;> rfl
  · unfold neg unaryOp get
    have : ∀ d : Dict K (Option Int), Dict.get? (d.map (fun e => (e.1, e.2.map (fun x => -x)))) k
        = (d.get? k).map (fun o => o.map (fun x => -x)) := by
      intro d
      induction d with
      | nil => rfl
      | cons e d ih =>
        obtain ⟨k0, v0⟩ := e
        simp only [List.map_cons, Dict.get?]
        split
        · rfl
        · exact ih
    rw [this]
    cases a.dict.get? k <;> rfl

theorem get?_map_const (d : Dict K (Option W)) (v : V) (k : K) :
    Dict.get? (d.map (fun e => (e.1, some v))) k = (d.get? k).map (fun _ => some v) := by
  induction d with
  | nil => rfl
  | cons e d ih =>
    obtain ⟨k0, v0⟩ := e
    simp only [List.map_cons, Dict.get?]
    split
    · rfl
    · exact ih

/-- A number which is combined with a `NumbersDict` applies to exactly the keys which have a number there. -/
theorem get_constantLike (a : ND K W) (hn : NoNone a) (v : V) (k : K) :
    get (constantLike v a) k = (get a k).map (fun _ => v) := by
  unfold get constantLike
  simp only [get?_map_const]
  cases h : a.dict.get? k with
  | none => cases a.value <;> rfl
  | some o =>
    have := hn _ (Dict.mem_of_get? h)
    cases o with
    | none => exact absurd rfl this
    | some w => rfl

/-- C17. `d + c`, `d * c` and `c - d` for a number `c` change each number of `d`, and add no key. -/
theorem scalar_arith (a : ND K Int) (hn : NoNone a) (c : Int) (k : K) :
    get (addScalar a c) k = (get a k).map (· + c) ∧
    get (mulScalar a c) k = (get a k).map (· * c) ∧
    get (rsubScalar a c) k = (get a k).map (c - ·) := by
  refine ⟨?_, ?_, ?_⟩
  · rw [addScalar, add, binOp_keywise, get_constantLike a hn]; cases get a k <;> rfl
  · rw [mulScalar, mul, binOp_keywise, get_constantLike a hn]; cases get a k <;> rfl
  · rw [rsubScalar, binOp_keywise, get_constantLike a hn]; cases get a k <;> rfl

theorem maxOp_spec (x y : Option Int) :
    binOpScalarOptional x y none maxOp = maxOp x y ∧ binOpScalarOptional x y none minOp = minOp x y := by
  cases x <;> cases y <;> exact ⟨rfl, rfl⟩

theorem maxList_cons (a b : ND K Int) (l : List (ND K Int)) :
    maxList (a :: b :: l) = (do let r ← maxList (b :: l); .ok (binOp a r maxOp none)) ∧
    minList (a :: b :: l) = (do let r ← minList (b :: l); .ok (binOp a r minOp none)) := by
  cases l <;> exact ⟨rfl, rfl⟩

/-- C17. `NumbersDict.max(items)`: for each key it is the largest of the numbers which the items have for that key
(an upper bound which is attained), and there is no number iff no item has one. -/
theorem maxList_is_max (items : List (ND K Int)) (h : items ≠ []) :
    ∃ r, maxList items = .ok r ∧ ∀ k,
      (∀ a ∈ items, ∀ v, get a k = some v → ∃ m, get r k = some m ∧ v ≤ m) ∧
      (∀ m, get r k = some m → ∃ a ∈ items, get a k = some m) := by
  induction items with
  | nil => exact absurd rfl h
  | cons a l ih =>
    cases l with
    | nil =>
      refine ⟨a, rfl, fun k => ⟨?_, fun m hm => ⟨a, by simp, hm⟩⟩⟩
      intro a' ha' v hv
      simp at ha'; subst ha'
      exact ⟨v, hv, Int.le_refl _⟩
    | cons b l =>
      obtain ⟨r, hr, hk⟩ := ih (by simp)
      refine ⟨binOp a r maxOp none, ?_, ?_⟩
      · rw [(maxList_cons a b l).1, hr]; rfl
      · intro k
        rw [binOp_keywise, (maxOp_spec _ _).1]
        obtain ⟨h1, h2⟩ := hk k
        constructor
        · intro a' ha' v hv
          rcases List.mem_cons.mp ha' with rfl | ha'
          · rw [hv]
            cases hrk : get r k with
            | none => exact ⟨v, rfl, Int.le_refl _⟩
            | some w => exact ⟨max v w, rfl, Int.le_max_left _ _⟩
          · obtain ⟨m, hm, hle⟩ := h1 a' ha' v hv
            rw [hm]
            cases hak : get a k with
            | none => exact ⟨m, rfl, hle⟩
            | some w => exact ⟨max w m, rfl, Int.le_trans hle (Int.le_max_right _ _)⟩
        · intro m hm
          cases hak : get a k with
          | none =>
            rw [hak] at hm
            obtain ⟨a', ha', h'⟩ := h2 m (by cases hrk : get r k <;> rw [hrk] at hm <;> exact hm)
            exact ⟨a', by simp [ha'], h'⟩
          | some w =>
            rw [hak] at hm
            cases hrk : get r k with
            | none => rw [hrk] at hm; exact ⟨a, by simp, by rw [hak]; exact hm⟩
            | some w' =>
              rw [hrk] at hm
              simp only [maxOp, Option.some.injEq] at hm
              rcases Int.le_total w w' with hle | hle
              · rw [Int.max_eq_right hle] at hm
                subst hm
                obtain ⟨a', ha', h'⟩ := h2 w' hrk
                exact ⟨a', by simp [ha'], h'⟩
              · rw [Int.max_eq_left hle] at hm
                subst hm
                exact ⟨a, by simp, hak⟩

/-- C17. `NumbersDict.min(items)`, analogously. -/
theorem minList_is_min (items : List (ND K Int)) (h : items ≠ []) :
    ∃ r, minList items = .ok r ∧ ∀ k,
      (∀ a ∈ items, ∀ v, get a k = some v → ∃ m, get r k = some m ∧ m ≤ v) ∧
      (∀ m, get r k = some m → ∃ a ∈ items, get a k = some m) := by
  induction items with
  | nil => exact absurd rfl h
  | cons a l ih =>
    cases l with
    | nil =>
      refine ⟨a, rfl, fun k => ⟨?_, fun m hm => ⟨a, by simp, hm⟩⟩⟩
      intro a' ha' v hv
      simp at ha'; subst ha'
      exact ⟨v, hv, Int.le_refl _⟩
    | cons b l =>
      obtain ⟨r, hr, hk⟩ := ih (by simp)
      refine ⟨binOp a r minOp none, ?_, ?_⟩
      · rw [(maxList_cons a b l).2, hr]; rfl
      · intro k
        rw [binOp_keywise, (maxOp_spec _ _).2]
        obtain ⟨h1, h2⟩ := hk k
        constructor
        · intro a' ha' v hv
          rcases List.mem_cons.mp ha' with rfl | ha'
          · rw [hv]
            cases hrk : get r k with
            | none => exact ⟨v, rfl, Int.le_refl _⟩
            | some w => exact ⟨min v w, rfl, Int.min_le_left _ _⟩
          · obtain ⟨m, hm, hle⟩ := h1 a' ha' v hv
            rw [hm]
            cases hak : get a k with
            | none => exact ⟨m, rfl, hle⟩
            | some w => exact ⟨min w m, rfl, Int.le_trans (Int.min_le_right _ _) hle⟩
        · intro m hm
          cases hak : get a k with
          | none =>
            rw [hak] at hm
            obtain ⟨a', ha', h'⟩ := h2 m (by cases hrk : get r k <;> rw [hrk] at hm <;> exact hm)
            exact ⟨a', by simp [ha'], h'⟩
          | some w =>
            rw [hak] at hm
            cases hrk : get r k with
            | none => rw [hrk] at hm; exact ⟨a, by simp, by rw [hak]; exact hm⟩
            | some w' =>
              rw [hrk] at hm
              simp only [minOp, Option.some.injEq] at hm
              rcases Int.le_total w w' with hle | hle
              · rw [Int.min_eq_left hle] at hm
                subst hm
                exact ⟨a, by simp, hak⟩
              · rw [Int.min_eq_right hle] at hm
                subst hm
                obtain ⟨a', ha', h'⟩ := h2 w' hrk
                exact ⟨a', by simp [ha'], h'⟩

theorem max_empty_fails : maxList ([] : List (ND K Int)) = .error .assertion ∧
    minList ([] : List (ND K Int)) = .error .assertion := ⟨rfl, rfl⟩

example : maxList [ofDict [("a", 1), ("b", 5)], ofScalar 3, ⟨[("b", some 7)], some 0⟩]
    = .ok ⟨[("a", some 3), ("b", some 7)], some 3⟩ := by decide

/-! ### any_compare -/

/-- The exact meaning of `any_compare` (numbers only): some *explicit* key of the first operand compares, or the
broadcast values do. -/
def AnyCompares (a b : ND K V) (cmp : V → V → Bool) : Prop :=
  (∃ k ∈ a.dict.keys, ∃ x y, get a k = some x ∧ get b k = some y ∧ cmp x y = true) ∨
  (∃ x y, a.value = some x ∧ b.value = some y ∧ cmp x y = true)

theorem getItem_of_mem (a : ND K V) (hn : NoNone a) (k : K) (hk : k ∈ a.dict.keys) :
    ∃ v, getItem a k = .ok (some v) ∧ get a k = some v := by
  obtain ⟨o, ho⟩ := Option.isSome_iff_exists.mp ((Dict.get?_isSome a.dict k).mpr hk)
  have := hn _ (Dict.mem_of_get? ho)
  cases o with
  | none => exact absurd rfl this
  | some v =>
    refine ⟨v, ?_, by simp [get, ho]⟩
    unfold getItem
    cases a.value <;> simp [ho, Dict.getItem]

theorem anyCompareLoop_spec (a b : ND K V) (ha : NoNone a) (hb : NoNone b) (cmp : V → V → Bool) (ks : List K)
    (hks : ∀ k ∈ ks, k ∈ a.dict.keys) :
    ∃ r, anyCompareLoop a b cmp ks = .ok r ∧
      (r = true ↔ ∃ k ∈ ks, ∃ x y, get a k = some x ∧ get b k = some y ∧ cmp x y = true) := by
  induction ks with
  | nil => exact ⟨false, rfl, by simp⟩
  | cons k ks ih =>
    obtain ⟨r, hr, hiff⟩ := ih (fun k' hk' => hks k' (by simp [hk']))
    obtain ⟨x, hx1, hx2⟩ := getItem_of_mem a ha k (hks k (by simp))
    have key : ∀ oy : Option V, get b k = oy →
        ((∃ k' ∈ k :: ks, ∃ x y, get a k' = some x ∧ get b k' = some y ∧ cmp x y = true) ↔
          ((∃ y, oy = some y ∧ cmp x y = true) ∨ r = true)) := by
      intro oy hoy
      rw [hiff]
      constructor
      · rintro ⟨k', hk', x', y', h1, h2, h3⟩
        rcases List.mem_cons.mp hk' with rfl | hk'
        · rw [hx2] at h1; injection h1 with h1; subst h1
          exact .inl ⟨y', by rw [← hoy, h2], h3⟩
        · exact .inr ⟨k', hk', x', y', h1, h2, h3⟩
      · rintro (⟨y, h1, h2⟩ | ⟨k', hk', h'⟩)
        · exact ⟨k, by simp, x, y, hx2, by rw [hoy, h1], h2⟩
        · exact ⟨k', by simp [hk'], h'⟩
    unfold anyCompareLoop
    simp only [bind, Except.bind, hx1]
    by_cases hbk : b.dict.contains k = true
    · obtain ⟨y, hy1, hy2⟩ := getItem_of_mem b hb k ((Dict.get?_isSome b.dict k).mp hbk)
      simp only [hbk, if_true, hy1]
      by_cases hc : cmp x y = true
      · exact ⟨true, by simp [hc], by rw [key _ hy2]; simp [hc]⟩
      · refine ⟨r, by simp [hc, hr], ?_⟩
        rw [key _ hy2]; simp [hc]
    · have hbn : b.dict.get? k = none := by
        simp only [Dict.contains] at hbk
        cases h : b.dict.get? k with
        | none => rfl
        | some _ => rw [h] at hbk; simp at hbk
      have hgb : get b k = b.value := by simp [get, hbn]
      simp only [hbk]
      cases hv : b.value with
      | none =>
        refine ⟨r, by simp [hr], ?_⟩
        rw [key none (by rw [hgb, hv])]; simp
      | some y =>
        by_cases hc : cmp x y = true
        · exact ⟨true, by simp [hc], by rw [key (some y) (by rw [hgb, hv])]; simp [hc]⟩
        · refine ⟨r, by simp [hc, hr], ?_⟩
          rw [key (some y) (by rw [hgb, hv])]; simp [hc]

/-- C17. `any_compare` never fails on numbers and is true iff an explicit key of `self` compares or the broadcast
values compare. -/
theorem anyCompare_iff (a b : ND K V) (ha : NoNone a) (hb : NoNone b) (cmp : V → V → Bool) :
    ∃ r, anyCompare a b cmp = .ok r ∧ (r = true ↔ AnyCompares a b cmp) := by
  obtain ⟨r, hr, hiff⟩ := anyCompareLoop_spec a b ha hb cmp a.dict.keys (fun _ h => h)
  unfold anyCompare AnyCompares
  simp only [bind, Except.bind, hr, ← hiff]
  cases r with
  | true => exact ⟨true, by simp, by simp⟩
  | false =>
    cases hav : a.value with
    | none => exact ⟨false, by simp, by simp⟩
    | some x =>
      cases hbv : b.value with
      | none => exact ⟨false, by simp, by simp⟩
      | some y => exact ⟨cmp x y, by simp, by simp⟩

/-- C17 (partial): if the second operand has no explicit key which is missing in the first one, then `any_compare` is
true iff some key compares, or the broadcast values do. Missing: second operands with further keys, see below. -/
theorem anyCompare_some_key_partial (a b : ND K V) (ha : NoNone a) (hb : NoNone b) (cmp : V → V → Bool)
    (hsub : ∀ k ∈ b.dict.keys, k ∈ a.dict.keys) :
    ∃ r, anyCompare a b cmp = .ok r ∧
      (r = true ↔ (∃ k x y, HasNumber a k x ∧ HasNumber b k y ∧ cmp x y = true) ∨
        (∃ x y, a.value = some x ∧ b.value = some y ∧ cmp x y = true)) := by
  obtain ⟨r, hr, hiff⟩ := anyCompare_iff a b ha hb cmp
  refine ⟨r, hr, hiff.trans ?_⟩
  unfold AnyCompares
  constructor
  · rintro (⟨k, _, x, y, h1, h2, h3⟩ | h)
    · exact .inl ⟨k, x, y, (get_iff a ha k x).mp h1, (get_iff b hb k y).mp h2, h3⟩
    · exact .inr h
  · rintro (⟨k, x, y, h1, h2, h3⟩ | h)
    · by_cases hk : k ∈ a.dict.keys
      · exact .inl ⟨k, hk, x, y, (get_iff a ha k x).mpr h1, (get_iff b hb k y).mpr h2, h3⟩
      · right
        have hkb : k ∉ b.dict.keys := fun h => hk (hsub k h)
        rw [← Dict.get?_eq_none] at hk hkb
        cases h1 with
        | explicit h1 => rw [hk] at h1; cases h1
        | broadcast _ h1 =>
          cases h2 with
          | explicit h2 => rw [hkb] at h2; cases h2
          | broadcast _ h2 => exact ⟨x, y, h1, h2, h3⟩
    · exact .inr h

/-- Disagreement with C17: a key which is explicit only in `other` is not looked at: 5 (broadcast) > 3 (for key "a"),
but `NumbersDict(5).any_compare(NumbersDict({"a": 3}), >)` is false. -/
theorem anyCompare_misses_key :
    HasNumber (ofScalar 5 : ND String Int) "a" 5 ∧ HasNumber (ofDict [("a", 3)] : ND String Int) "a" 3 ∧
    anyCompare (ofScalar 5 : ND String Int) (ofDict [("a", 3)]) (fun x y => decide (x > y)) = .ok false :=
  ⟨.broadcast rfl rfl, .explicit rfl, by decide⟩

example : anyCompare (ofDict [("a", 5), ("b", 1)] : ND String Int) ⟨[("b", some 9)], some 4⟩ (fun x y => decide (x > y))
    = .ok true := by decide

/-! ### equality -/

/-- C17. `a == b` iff every explicit key of either has equal numbers in both, and the broadcast values do not differ
(one of them may be missing). -/
theorem eq_iff [DecidableEq V] (a b : ND K V) :
    eq a b = true ↔
      (∀ k, k ∈ a.dict.keys ∨ k ∈ b.dict.keys → ∃ v, get a k = some v ∧ get b k = some v) ∧
      (∀ x y, a.value = some x → b.value = some y → x = y) := by
  have hval : ∀ (x y : Option V), binOpScalarOptional x y none eqOp = some true ↔ ∃ v, x = some v ∧ y = some v := by
    intro x y
    cases x <;> cases y <;> simp [binOpScalarOptional, eqOp, eq_comm]
  have hkeys := binOp_keys a b eqOp none
  have h1 : eq a b = true ↔ (∀ o ∈ (binOp a b eqOp none).dict.values, o = some true) ∧
      ((binOp a b eqOp none).value = none ∨ (binOp a b eqOp none).value = some true) := by
    unfold eq elemEq values
    simp only [if_true, List.all_append, Bool.and_eq_true, List.all_eq_true, decide_eq_true_eq]
    cases h : (binOp a b eqOp none).value <;> simp
  rw [h1]
  have h2 : (∀ o ∈ (binOp a b eqOp none).dict.values, o = some true) ↔
      ∀ k, k ∈ a.dict.keys ∨ k ∈ b.dict.keys → ∃ v, get a k = some v ∧ get b k = some v := by
    constructor
    · intro h k hk
      rw [← hkeys.1, ← Dict.get?_isSome] at hk
      obtain ⟨o, ho⟩ := Option.isSome_iff_exists.mp hk
      have h3 := h o (List.mem_map.mpr ⟨_, Dict.mem_of_get? ho, rfl⟩)
      have h4 := binOp_keywise a b eqOp none k
      rw [get, ho, Option.getD_some, h3] at h4
      exact (hval _ _).mp h4.symm
    · intro h o ho
      obtain ⟨⟨k, o'⟩, hmem, rfl⟩ := List.mem_map.mp ho
      have hk : k ∈ (binOp a b eqOp none).dict.keys := List.mem_map.mpr ⟨_, hmem, rfl⟩
      have h4 := binOp_keywise a b eqOp none k
      rw [get, Dict.get?_of_mem hkeys.2 hmem, Option.getD_some] at h4
      rw [h4]
      exact (hval _ _).mpr (h k ((hkeys.1 k).mp hk))
  rw [h2]
  refine and_congr Iff.rfl ?_
  show (binOpScalarOptional a.value b.value none eqOp = none ∨ _) ↔ _
  have : (binOp a b eqOp none).value = binOpScalarOptional a.value b.value none eqOp := rfl
  rw [this]
  cases a.value <;> cases b.value <;> simp [binOpScalarOptional, eqOp]

/-- C17. Equality is reflexive on numbers and symmetric. -/
theorem eq_refl_symm [DecidableEq V] (a b : ND K V) (ha : NoNone a) : eq a a = true ∧ (eq a b = true → eq b a = true) := by
  constructor
  · rw [eq_iff]
    refine ⟨?_, fun x y h1 h2 => by rw [h1] at h2; injection h2⟩
    intro k hk
    obtain ⟨v, _, hv⟩ := getItem_of_mem a ha k (by rcases hk with h | h <;> exact h)
    exact ⟨v, hv, hv⟩
  · rw [eq_iff, eq_iff]
    rintro ⟨h1, h2⟩
    refine ⟨fun k hk => ?_, fun x y hx hy => (h2 y x hy hx).symm⟩
    obtain ⟨v, hv1, hv2⟩ := h1 k hk.symm
    exact ⟨v, hv2, hv1⟩

/-- Equality is not transitive: a missing broadcast value is equal to any broadcast value. -/
theorem eq_not_transitive :
    eq (ofScalar 5 : ND String Int) {} = true ∧ eq ({} : ND String Int) (ofScalar 6) = true ∧
    eq (ofScalar 5 : ND String Int) (ofScalar 6) = false := by decide

/-! ### max_value, min_value -/

theorem pyExtremum_spec (better : Int → Int → Int) (le : Int → Int → Prop) (hrefl : ∀ a, le a a)
    (htrans : ∀ a b c, le a b → le b c → le a c) (hb : ∀ a b, le a (better a b) ∧ le b (better a b))
    (hb2 : ∀ a b, better a b = a ∨ better a b = b) (l : List (Option Int)) (hl : ∀ o ∈ l, o ≠ none) (hne : l ≠ []) :
    ∃ m, pyExtremum better l = .ok m ∧ some m ∈ l ∧ ∀ v, some v ∈ l → le v m := by
  induction l with
  | nil => exact absurd rfl hne
  | cons o l ih =>
    cases o with
    | none => exact absurd rfl (hl none (by simp))
    | some a =>
      cases l with
      | nil => exact ⟨a, rfl, by simp, by simp [hrefl]⟩
      | cons o' l =>
        obtain ⟨m, h1, h2, h3⟩ := ih (fun o ho => hl o (by simp [ho])) (by simp)
        refine ⟨better a m, ?_, ?_, ?_⟩
        · simp only [pyExtremum, h1, bind, Except.bind]
        · rcases hb2 a m with h | h <;> rw [h]
          · simp
          · exact List.mem_cons_of_mem _ h2
        · intro v hv
          rcases List.mem_cons.mp hv with h | h
          · injection h with h; subst h; exact (hb _ _).1
          · exact htrans _ _ _ (h3 v h) (hb _ _).2

theorem mem_values (a : ND K V) (hw : a.dict.Wf) (v : V) :
    some v ∈ values a ↔ (∃ k, a.dict.get? k = some (some v)) ∨ a.value = some v := by
  unfold values
  rw [List.mem_append]
  refine or_congr ?_ ?_
  · constructor
    · intro h
      obtain ⟨⟨k, o⟩, hm, he⟩ := List.mem_map.mp h
      simp only at he; subst he
      exact ⟨k, Dict.get?_of_mem hw hm⟩
    · rintro ⟨k, hk⟩
      exact List.mem_map.mpr ⟨_, Dict.mem_of_get? hk, rfl⟩
  · cases h : a.value <;> simp [eq_comm]

/-- C17. `max_value()` / `min_value()` fail iff there is no number at all; otherwise they are the largest / smallest of
the explicit numbers and the broadcast value. -/
theorem extremum_spec (a : ND K Int) (hw : a.dict.Wf) (hn : NoNone a) :
    (a.dict = [] ∧ a.value = none → maxValue a = .error .valueError ∧ minValue a = .error .valueError) ∧
    (¬ (a.dict = [] ∧ a.value = none) → ∃ m m', maxValue a = .ok m ∧ minValue a = .ok m' ∧
      ((∃ k, a.dict.get? k = some (some m)) ∨ a.value = some m) ∧
      ((∃ k, a.dict.get? k = some (some m')) ∨ a.value = some m') ∧
      ∀ v, ((∃ k, a.dict.get? k = some (some v)) ∨ a.value = some v) → m' ≤ v ∧ v ≤ m) := by
  constructor
  · rintro ⟨h1, h2⟩
    simp [maxValue, minValue, values, h1, h2, pyExtremum, Dict.values]
  · intro h
    have hne : values a ≠ [] := by
      intro he
      unfold values at he
      rw [List.append_eq_nil_iff] at he
      apply h
      refine ⟨by simpa [Dict.values] using he.1, ?_⟩
      cases hv : a.value with
      | none => rfl
      | some v => rw [hv] at he; simp at he
    have hnn : ∀ o ∈ values a, o ≠ none := by
      intro o ho
      unfold values at ho
      rcases List.mem_append.mp ho with ho | ho
      · obtain ⟨e, he, rfl⟩ := List.mem_map.mp ho
        exact hn e he
      · intro hno; subst hno
        cases hv : a.value <;> rw [hv] at ho <;> simp at ho
    obtain ⟨m, h1, h2, h3⟩ := pyExtremum_spec max (· ≤ ·) (fun _ => Int.le_refl _) (fun _ _ _ => Int.le_trans)
      (fun a b => ⟨Int.le_max_left a b, Int.le_max_right a b⟩) (fun a b => by omega) _ hnn hne
    obtain ⟨m', h1', h2', h3'⟩ := pyExtremum_spec min (fun a b => b ≤ a) (fun _ => Int.le_refl _)
      (fun _ _ _ h h' => Int.le_trans h' h)
      (fun a b => ⟨Int.min_le_left a b, Int.min_le_right a b⟩) (fun a b => by omega) _ hnn hne
    exact ⟨m, m', h1, h1', (mem_values a hw m).mp h2, (mem_values a hw m').mp h2', fun v hv =>
      ⟨h3' v ((mem_values a hw v).mpr hv), h3 v ((mem_values a hw v).mpr hv)⟩⟩

/-- C17. `copy_like(other)`: has the same numbers as `self`, restricted to the keys (and the broadcast) of `other`. -/
theorem copyLike_spec (a : ND K V) (n : ND K W) (k : K) (hk : k ∈ n.dict.keys) : get (copyLike a n) k = get a k := by
  have hmap : ∀ (d : Dict K (Option W)), Dict.get? (d.map (fun e => (e.1, get a e.1))) k
      = if k ∈ d.keys then some (get a k) else none := by
    intro d
    induction d with
    | nil => simp [Dict.get?, Dict.keys]
    | cons e d ih =>
      obtain ⟨k0, v0⟩ := e
      have hm : k ∈ Dict.keys ((k0, v0) :: d) ↔ k = k0 ∨ k ∈ Dict.keys d := List.mem_cons
      simp only [List.map_cons, Dict.get?, hm]
      split
      · rename_i h; subst h; simp
      · rename_i h
        have h' : ¬ (k = k0) := fun e => h e.symm
        rw [ih]; simp [h']
  unfold copyLike
  split
  · rw [get, hmap]; simp [hk]
  · rename_i hv
    have hv' : a.value = none := by cases h : a.value <;> simp_all
    rw [get, hmap]
    split
    · rfl
    · rename_i hk'
      simp only [Option.getD_none]
      have : a.dict.get? k = none := by
        rw [Dict.get?_eq_none, ← Dict.get?_isSome]
        intro hs
        apply hk'
        obtain ⟨e, he, rfl⟩ := List.mem_map.mp hk
        exact List.mem_map.mpr ⟨e, List.mem_filter.mpr ⟨he, hs⟩, rfl⟩
      simp [get, this, hv']

example : get (add (ofDict [("a", 1), ("b", 2)]) (ofScalar 10)) "c" = some 10 := by decide
example : eq (ofDict [("a", 1)] : ND String Int) (ofDict [("a", 1), ("b", 2)]) = false := by decide
example : maxValue (⟨[("a", some 1), ("b", some 7)], some 3⟩ : ND String Int) = .ok 7 := by decide

end Verif.NumbersDict
