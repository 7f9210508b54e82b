import Verif.MathUtil.Props
/-
Theorems about `PiecewiseLinear`, `simplify_and_format_number`, `merge_random_seeds` (C44, C45, C46).
-/
namespace Verif.MathUtil
open Verif.Py Verif.ListLemmas

/-! ### `PiecewiseLinear` (C44) -/

theorem interpFrom_key (p : Rat × Rat) (r : List (Rat × Rat)) (hs : (p :: r).Pairwise (fun a b => a.1 < b.1))
    (k y : Rat) (h : (k, y) ∈ p :: r) : interpFrom p r k = y := by
  induction r generalizing p with
  | nil =>
    simp only [List.mem_singleton] at h
    subst h; rfl
  | cons q r ih =>
    have hs' := List.pairwise_cons.mp hs
    have hpq := hs'.1 q (by simp)
    unfold interpFrom
    rcases List.mem_cons.mp h with h | h
    · subst h
      simp only [hpq, if_true]
      ring
    · have hk : ¬ k < q.1 := by
        rcases List.mem_cons.mp h with h | h
        · subst h; exact lt_irrefl _
        · exact not_lt.mpr (le_of_lt ((List.pairwise_cons.mp hs'.2).1 _ h))
      simp only [hk, if_false]
      exact ih q hs'.2 h

theorem interpFrom_between (p : Rat × Rat) (r : List (Rat × Rat)) (hs : (p :: r).Pairwise (fun a b => a.1 < b.1))
    (k y k' y' x : Rat) (h : (k, y) ∈ p :: r) (h' : (k', y') ∈ p :: r) (hlt : k < k')
    (hno : ∀ e ∈ p :: r, ¬ (k < e.1 ∧ e.1 < k')) (hx : k ≤ x) (hx' : x ≤ k') :
    (interpFrom p r x - y) * (k' - k) = (y' - y) * (x - k) := by
  induction r generalizing p with
  | nil =>
    simp only [List.mem_singleton] at h h'
    subst h
    injection h' with e1 e2
    exact absurd hlt (by rw [e1]; exact lt_irrefl _)
  | cons q r ih =>
    have hs' := List.pairwise_cons.mp hs
    have hpq := hs'.1 q (by simp)
    have hq : ∀ e ∈ q :: r, q.1 ≤ e.1 := by
      intro e he
      rcases List.mem_cons.mp he with rfl | he
      · exact le_refl _
      · exact le_of_lt ((List.pairwise_cons.mp hs'.2).1 _ he)
    have hk' : (k', y') ∈ q :: r := by
      rcases List.mem_cons.mp h' with h' | h'
      · exfalso
        rcases List.mem_cons.mp h with h | h
        · subst h; injection h' with e1 e2; rw [e1] at hlt; exact lt_irrefl _ hlt
        · have h1 := hq _ h
          have h2 : p.1 = k' := by rw [← h']
          rw [h2] at hpq
          exact absurd hlt (not_lt.mpr (le_of_lt (lt_of_lt_of_le hpq h1)))
      · exact h'
    rcases List.mem_cons.mp h with h | h
    · subst h
      have hkq : (k', y') = q := by
        rcases List.mem_cons.mp hk' with e | e
        · exact e
        · exact absurd ⟨hpq, (List.pairwise_cons.mp hs'.2).1 _ e⟩ (hno q (by simp))
      subst hkq
      unfold interpFrom
      have hne : k' - k ≠ 0 := by intro hc; linarith
      by_cases hxq : x < k'
      · simp only [hxq, if_true]
        field_simp
        ring
      · have : x = k' := le_antisymm hx' (not_lt.mp hxq)
        subst this
        simp only [lt_irrefl, if_false]
        rw [interpFrom_key _ r hs'.2 x y' (by simp)]
    · unfold interpFrom
      have hxq : ¬ x < q.1 := not_lt.mpr (le_trans (hq _ h) hx)
      simp only [hxq, if_false]
      exact ih q hs'.2 h hk' (fun e he => hno e (List.mem_cons_of_mem _ he))

theorem interpFrom_above (p : Rat × Rat) (r : List (Rat × Rat)) (hs : (p :: r).Pairwise (fun a b => a.1 < b.1))
    (k y x : Rat) (h : (k, y) ∈ p :: r) (hmax : ∀ e ∈ p :: r, e.1 ≤ k) (hx : k ≤ x) : interpFrom p r x = y := by
  induction r generalizing p with
  | nil =>
    simp only [List.mem_singleton] at h
    subst h; rfl
  | cons q r ih =>
    have hs' := List.pairwise_cons.mp hs
    have hpq := hs'.1 q (by simp)
    unfold interpFrom
    have hqk := hmax q (by simp)
    simp only [not_lt.mpr (le_trans hqk hx), if_false]
    refine ih q hs'.2 ?_ (fun e he => hmax e (List.mem_cons_of_mem _ he))
    rcases List.mem_cons.mp h with h | h
    · exfalso; subst h; exact absurd hpq (not_lt.mpr hqk)
    · exact h

/-- The items are sorted by their keys. -/
theorem sortedItems_strict (values : Dict Rat Rat) (hw : values.Wf) :
    let pts := stableSort (fun a b : Rat × Rat => decide (a.1 < b.1 ∨ (a.1 = b.1 ∧ a.2 ≤ b.2))) values
    pts.Perm values ∧ pts.Pairwise (fun a b => a.1 < b.1) := by
  intro pts
  have hp : pts.Perm values := stableSort_perm _ _
  refine ⟨hp, ?_⟩
  have hsort := stableSort_pairwise (le := fun a b : Rat × Rat => decide (a.1 < b.1 ∨ (a.1 = b.1 ∧ a.2 ≤ b.2)))
    (fun a b c h1 h2 => by
      simp only [decide_eq_true_eq] at *
      rcases h1 with h1 | ⟨h1, h1'⟩ <;> rcases h2 with h2 | ⟨h2, h2'⟩
      · exact Or.inl (lt_trans h1 h2)
      · exact Or.inl (by rw [← h2]; exact h1)
      · exact Or.inl (by rw [h1]; exact h2)
      · exact Or.inr ⟨h1.trans h2, le_trans h1' h2'⟩)
    (fun a b => by
      simp only [Bool.or_eq_true, decide_eq_true_eq]
      rcases lt_trichotomy a.1 b.1 with h | h | h
      · exact Or.inl (Or.inl h)
      · rcases le_total a.2 b.2 with h2 | h2
        · exact Or.inl (Or.inr ⟨h, h2⟩)
        · exact Or.inr (Or.inr ⟨h.symm, h2⟩)
      · exact Or.inr (Or.inl h)) values
  have hnd : pts.Pairwise (fun a b => a.1 ≠ b.1) := by
    have : (pts.map Prod.fst).Nodup := (hp.map Prod.fst).nodup_iff.mpr hw
    exact List.pairwise_map.mp this
  refine (List.Pairwise.and hsort hnd).imp ?_
  rintro a b ⟨h1, h2⟩
  simp only [decide_eq_true_eq] at h1
  rcases h1 with h1 | ⟨h1, _⟩
  · exact h1
  · exact absurd h1 h2

/-- C44. `PiecewiseLinear(values)(x)`: it goes through every given point, is linear between two neighbouring points, and has
the value of the first or last point outside. Without any point the call fails. -/
theorem piecewiseLinear_spec (values : Dict Rat Rat) (hw : values.Wf) (o : CallOpts) (args : List (Option Rat))
    (kwargs : List (String × Option Rat)) (x : Rat) (hx : selectArg o args kwargs = .ok x) :
    (values.keys = [] → piecewiseLinear values o args kwargs = .error .valueError) ∧
    (values.keys ≠ [] → ∃ v, piecewiseLinear values o args kwargs = .ok v ∧
      (∀ y, values.get? x = some y → v = y) ∧
      (∀ k y k' y', values.get? k = some y → values.get? k' = some y' → k < k' →
        (∀ e ∈ values.keys, ¬ (k < e ∧ e < k')) → k ≤ x → x ≤ k' → (v - y) * (k' - k) = (y' - y) * (x - k)) ∧
      (∀ k y, values.get? k = some y → (∀ e ∈ values.keys, k ≤ e) → x ≤ k → v = y) ∧
      (∀ k y, values.get? k = some y → (∀ e ∈ values.keys, e ≤ k) → k ≤ x → v = y)) := by
  obtain ⟨hp, hs⟩ := sortedItems_strict values hw
  have hval : piecewiseLinear values o args kwargs =
      interp (stableSort (fun a b : Rat × Rat => decide (a.1 < b.1 ∨ (a.1 = b.1 ∧ a.2 ≤ b.2))) values) x := by
    simp [piecewiseLinear, hx, bind, Except.bind]
  rw [hval]
  generalize stableSort (fun a b : Rat × Rat => decide (a.1 < b.1 ∨ (a.1 = b.1 ∧ a.2 ≤ b.2))) values = pts at hp hs
  have hmem : ∀ k y, values.get? k = some y → (k, y) ∈ pts := fun k y h => hp.mem_iff.mpr (Dict.mem_of_get? h)
  have hkey : ∀ e ∈ pts, e.1 ∈ values.keys := fun e he => List.mem_map.mpr ⟨e, hp.mem_iff.mp he, rfl⟩
  cases pts with
  | nil =>
    have : values = [] := List.nil_perm.mp hp
    refine ⟨fun _ => rfl, fun h => absurd (by rw [this]; rfl) h⟩
  | cons p r =>
    constructor
    · intro h; have := hkey p (by simp); rw [h] at this; cases this
    · intro _
      refine ⟨if x < p.1 then p.2 else interpFrom p r x, rfl, ?_, ?_, ?_, ?_⟩
      · intro y hy
        have hm := hmem x y hy
        have : ¬ x < p.1 := by
          rcases List.mem_cons.mp hm with h | h
          · rw [← h]; exact lt_irrefl _
          · exact not_lt.mpr (le_of_lt ((List.pairwise_cons.mp hs).1 _ h))
        simp only [this, if_false]
        exact interpFrom_key p r hs x y hm
      · intro k y k' y' hy hy' hlt hno hxk hxk'
        have hm := hmem k y hy
        have : ¬ x < p.1 := by
          rcases List.mem_cons.mp hm with h | h
          · rw [← h]; exact not_lt.mpr hxk
          · exact not_lt.mpr (le_trans (le_of_lt ((List.pairwise_cons.mp hs).1 _ h)) hxk)
        simp only [this, if_false]
        exact interpFrom_between p r hs k y k' y' x hm (hmem k' y' hy') hlt (fun e he => hno e.1 (hkey e he)) hxk hxk'
      · intro k y hy hmin hxk
        have hm := hmem k y hy
        have hkp : (k, y) = p := by
          rcases List.mem_cons.mp hm with h | h
          · exact h
          · exact absurd ((List.pairwise_cons.mp hs).1 _ h) (not_lt.mpr (hmin p.1 (hkey p (by simp))))
        subst hkp
        by_cases hlt : x < k
        · simp [hlt]
        · have : x = k := le_antisymm hxk (not_lt.mp hlt)
          subst this
          simp only [lt_irrefl, if_false]
          exact interpFrom_key _ r hs x y (by simp)
      · intro k y hy hmax hxk
        have hm := hmem k y hy
        have : ¬ x < p.1 := not_lt.mpr (le_trans (hmax p.1 (hkey p (by simp))) hxk)
        simp only [this, if_false]
        exact interpFrom_above p r hs k y x hm (fun e he => hmax e.1 (hkey e he)) hxk

example : let d : Dict Rat Rat := [(10, 4), (0, 0), (20, 2)]
    piecewiseLinear d {} [some 5] [] = .ok 2 ∧ piecewiseLinear d {} [some 15] [] = .ok 3 ∧
    piecewiseLinear d {} [some (-1)] [] = .ok 0 ∧ piecewiseLinear d {} [some 100] [] = .ok 2 := by decide +kernel

/-! ### `merge_random_seeds` (C45) -/

theorem toBytes8_spec (n : Int) (b : List Nat) (h : toBytes8 n = .ok b) :
    b.length = 8 ∧ -9223372036854775808 ≤ n ∧ n < 9223372036854775808 ∧
      fromBytes b = (n % 18446744073709551616).toNat := by
  unfold toBytes8 at h
  split at h
  · rename_i hr
    injection h with h
    subst h
    refine ⟨rfl, hr.1, hr.2, ?_⟩
    simp only [fromBytes, List.foldl_cons, List.foldl_nil]
    have : (n % 18446744073709551616).toNat < 18446744073709551616 := by omega
    generalize (n % 18446744073709551616).toNat = u at this ⊢
    norm_num
    omega
  · cases h

theorem toBytes8_inj (n m : Int) (b : List Nat) (hn : toBytes8 n = .ok b) (hm : toBytes8 m = .ok b) : n = m := by
  obtain ⟨_, h1, h2, h3⟩ := toBytes8_spec n b hn
  obtain ⟨_, h4, h5, h6⟩ := toBytes8_spec m b hm
  rw [h3] at h6
  omega

/-- C45. Different lists of seeds give a different input of the hash function. -/
theorem seedBytes_injective (l l' : List Int) (b : List Nat) (h : seedBytes l = .ok b) (h' : seedBytes l' = .ok b) : l = l' := by
  have hlen : ∀ (n : Int) (ns : List Int) (b : List Nat), seedBytes (n :: ns) = .ok b →
      ∃ x y, toBytes8 n = .ok x ∧ seedBytes ns = .ok y ∧ b = x ++ y ∧ x.length = 8 := by
    intro n ns b h
    simp only [seedBytes, bind, Except.bind] at h
    cases hx : toBytes8 n with
    | error e => rw [hx] at h; cases h
    | ok x =>
      rw [hx] at h
      simp only at h
      cases hy : seedBytes ns with
      | error e => rw [hy] at h; cases h
      | ok y =>
        rw [hy] at h
        injection h with h
        exact ⟨x, y, rfl, rfl, h.symm, (toBytes8_spec n x hx).1⟩
  induction l generalizing l' b with
  | nil =>
    simp only [seedBytes, Except.ok.injEq] at h
    subst h
    cases l' with
    | nil => rfl
    | cons n ns =>
      obtain ⟨x, y, _, _, h3, h4⟩ := hlen n ns _ h'
      have := congrArg List.length h3
      simp at this; omega
  | cons n ns ih =>
    obtain ⟨x, y, h1, h2, h3, h4⟩ := hlen n ns _ h
    cases l' with
    | nil =>
      simp only [seedBytes, Except.ok.injEq] at h'
      subst h'
      have := congrArg List.length h3
      simp at this; omega
    | cons m ms =>
      obtain ⟨x', y', g1, g2, g3, g4⟩ := hlen m ms _ h'
      rw [h3] at g3
      obtain ⟨e1, e2⟩ := List.append_inj g3 (by omega)
      subst e1; subst e2
      rw [toBytes8_inj n m x h1 g1, ih ms y h2 g2]

/-- C45. It fails exactly if a seed does not fit into 64 bits (signed). -/
theorem seedBytes_ok_iff (l : List Int) :
    (∃ b, seedBytes l = .ok b) ↔ ∀ n ∈ l, -9223372036854775808 ≤ n ∧ n < 9223372036854775808 := by
  induction l with
  | nil => simp [seedBytes]
  | cons n ns ih =>
    simp only [List.forall_mem_cons]
    constructor
    · rintro ⟨b, h⟩
      simp only [seedBytes, bind, Except.bind] at h
      cases hx : toBytes8 n with
      | error e => rw [hx] at h; cases h
      | ok x =>
        rw [hx] at h
        simp only at h
        obtain ⟨_, h1, h2, _⟩ := toBytes8_spec n x hx
        refine ⟨⟨h1, h2⟩, ih.mp ?_⟩
        cases hy : seedBytes ns with
        | error e => rw [hy] at h; cases h
        | ok y => exact ⟨y, rfl⟩
    · rintro ⟨h1, h2⟩
      obtain ⟨y, hy⟩ := ih.mpr h2
      have hx : ∃ x, toBytes8 n = .ok x := ⟨_, by unfold toBytes8; rw [if_pos h1]⟩
      obtain ⟨x, hx⟩ := hx
      exact ⟨x ++ y, by simp [seedBytes, bind, Except.bind, hx, hy]⟩

theorem fromBytes_lt (b : List Nat) (hb : ∀ x ∈ b, x < 256) : fromBytes b < 256 ^ b.length := by
  have key : ∀ (b : List Nat) (acc n : Nat), (∀ x ∈ b, x < 256) → acc < 256 ^ n →
      b.foldl (fun acc x => 256 * acc + x) acc < 256 ^ (n + b.length) := by
    intro b
    induction b with
    | nil => intro acc n _ h; simpa using h
    | cons x b ih =>
      intro acc n hb h
      simp only [List.foldl_cons, List.length_cons]
      have := ih (256 * acc + x) (n + 1) (fun y hy => hb y (List.mem_cons_of_mem _ hy))
        (by rw [pow_succ]; have := hb x (by simp); omega)
      rw [show n + (b.length + 1) = n + 1 + b.length by omega]
      exact this
  have := key b 0 0 hb (by simp)
  simpa [fromBytes] using this

/-- C45. The result fits into `num_bytes` bytes: `0 <= seed < 256 ** num_bytes`, or the signed range. -/
theorem mergeRandomSeeds_range (sha256 : List Nat → List Nat) (hsha : ∀ b, (sha256 b).length = 32 ∧ ∀ x ∈ sha256 b, x < 256)
    (l : List Int) (hl : ∀ n ∈ l, -9223372036854775808 ≤ n ∧ n < 9223372036854775808) (numBytes : Nat) (hn : numBytes ≤ 32)
    (signed : Bool) :
    ∃ seed, mergeRandomSeeds sha256 l numBytes signed = .ok seed ∧
      (signed = false → 0 ≤ seed ∧ seed < 256 ^ numBytes) ∧
      (signed = true → 0 < numBytes → -(256 ^ numBytes) ≤ 2 * seed ∧ 2 * seed < 256 ^ numBytes) := by
  obtain ⟨b, hb⟩ := (seedBytes_ok_iff l).mpr hl
  have hlen : ((sha256 b).take numBytes).length = numBytes := by simp [(hsha b).1]; exact hn
  have hlt := fromBytes_lt ((sha256 b).take numBytes) (fun x hx => (hsha b).2 x (List.mem_of_mem_take hx))
  rw [hlen] at hlt
  have hltZ : (fromBytes ((sha256 b).take numBytes) : Int) < 256 ^ numBytes := by exact_mod_cast hlt
  simp only [mergeRandomSeeds, hb, bind, Except.bind, hlen]
  refine ⟨_, rfl, ?_, ?_⟩
  · intro hs
    subst hs
    simp only [Bool.false_and, Bool.false_eq_true, if_false]
    exact ⟨by omega, hltZ⟩
  · intro hs h0
    subst hs
    have hne : (sha256 b).take numBytes ≠ [] := by
      intro hc; rw [hc] at hlen; simp at hlen; omega
    simp only [Bool.true_and, hne, ne_eq, not_false_eq_true, decide_true, Bool.and_true, decide_eq_true_eq]
    generalize fromBytes ((sha256 b).take numBytes) = u at *
    by_cases hc : 2 * u ≥ 256 ^ numBytes
    · rw [if_pos hc]
      have : ((256 ^ numBytes : Nat) : Int) ≤ ((2 * u : Nat) : Int) := by exact_mod_cast hc
      push_cast at this
      constructor <;> linarith
    · rw [if_neg hc]
      have : ((2 * u : Nat) : Int) < ((256 ^ numBytes : Nat) : Int) := by exact_mod_cast (not_le.mp hc)
      push_cast at this
      constructor <;> linarith [Int.natCast_nonneg u]

theorem fromBytes_inj (a b : List Nat) (hl : a.length = b.length) (ha : ∀ x ∈ a, x < 256) (hb : ∀ x ∈ b, x < 256)
    (h : fromBytes a = fromBytes b) : a = b := by
  have key : ∀ (a b : List Nat), a.length = b.length → (∀ x ∈ a, x < 256) → (∀ x ∈ b, x < 256) →
      ∀ i j, a.foldl (fun acc x => 256 * acc + x) i = b.foldl (fun acc x => 256 * acc + x) j → a = b ∧ i = j := by
    intro a
    induction a with
    | nil =>
      intro b hl _ _ i j h
      have : b = [] := List.length_eq_zero_iff.mp hl.symm
      subst this
      exact ⟨rfl, h⟩
    | cons x a ih =>
      intro b hl ha hb i j h
      cases b with
      | nil => simp at hl
      | cons y b =>
        obtain ⟨h1, h2⟩ := ih b (by simpa using hl) (fun z hz => ha z (List.mem_cons_of_mem _ hz))
          (fun z hz => hb z (List.mem_cons_of_mem _ hz)) _ _ h
        simp only at h2
        have := ha x (by simp); have := hb y (by simp)
        exact ⟨by rw [h1, show x = y by omega], by omega⟩
  exact (key a b hl ha hb 0 0 h).1

/-- C45. Equal results of two different seed lists come from a collision of the (truncated) hash only. -/
theorem mergeRandomSeeds_collision (sha256 : List Nat → List Nat)
    (hsha : ∀ b, (sha256 b).length = 32 ∧ ∀ x ∈ sha256 b, x < 256) (l l' : List Int) (numBytes : Nat) (signed : Bool) (seed : Int)
    (h : mergeRandomSeeds sha256 l numBytes signed = .ok seed) (h' : mergeRandomSeeds sha256 l' numBytes signed = .ok seed) :
    l = l' ∨ ∃ b b', b ≠ b' ∧ seedBytes l = .ok b ∧ seedBytes l' = .ok b' ∧ (sha256 b).take numBytes = (sha256 b').take numBytes := by
  simp only [mergeRandomSeeds, bind, Except.bind] at h h'
  cases hb : seedBytes l with
  | error e => rw [hb] at h; cases h
  | ok b =>
    cases hb' : seedBytes l' with
    | error e => rw [hb'] at h'; cases h'
    | ok b' =>
      rw [hb] at h; rw [hb'] at h'
      simp only [Except.ok.injEq] at h h'
      by_cases he : b = b'
      · subst he; exact Or.inl (seedBytes_injective l l' b hb hb')
      · right
        refine ⟨b, b', he, rfl, rfl, ?_⟩
        have hlen : ((sha256 b).take numBytes).length = ((sha256 b').take numBytes).length := by
          simp [(hsha b).1, (hsha b').1]
        have q1 : ∀ x ∈ (sha256 b).take numBytes, x < 256 := fun x hx => (hsha b).2 x (List.mem_of_mem_take hx)
        have q2 : ∀ x ∈ (sha256 b').take numBytes, x < 256 := fun x hx => (hsha b').2 x (List.mem_of_mem_take hx)
        refine fromBytes_inj _ _ hlen q1 q2 ?_
        have r1 := fromBytes_lt _ q1
        have r2 := fromBytes_lt _ q2
        rw [← hlen] at r2 h'
        generalize (sha256 b).take numBytes = x at *
        generalize (sha256 b').take numBytes = y at *
        have r1' : (fromBytes x : Int) < 256 ^ x.length := by exact_mod_cast r1
        have r2' : (fromBytes y : Int) < 256 ^ x.length := by exact_mod_cast r2
        generalize fromBytes x = u at *
        generalize fromBytes y = v at *
        generalize (256 : Int) ^ x.length = M at *
        rw [← h'] at h
        split at h <;> split at h <;> omega

example : mergeRandomSeeds (fun b => (b ++ List.replicate 32 0).take 32) [-2, 5] 4 false = .ok 4294967295 := by decide +kernel

/-! ### `simplify_and_format_number` (C46) -/

theorem rstrip_append (c : Char) (a b : List Char) (hb : ∀ x ∈ b, x = c) (ha : a.getLast? ≠ some c) :
    rstrip c (a ++ b) = a := by
  unfold rstrip
  rw [List.reverse_append, List.dropWhile_append_of_pos (by intro x hx; simpa using hb x (List.mem_reverse.mp hx))]
  have : a.reverse.dropWhile (· == c) = a.reverse := by
    cases h : a.reverse with
    | nil => rfl
    | cons x r =>
      have hx : a.getLast? = some x := by rw [← List.head?_reverse, h]; rfl
      have hne : ¬ x = c := by intro e; subst e; exact ha hx
      simp [List.dropWhile_cons, hne]
  rw [this, List.reverse_reverse]

/-- C46 (partial): for a float which Python prints in the form `i.f`: the integral digits are kept, from the fraction only the
trailing zeros are removed, and the point if nothing is left of the fraction. So the printed number has the same value. What is
missing: ints, and floats printed with an exponent, for which the claim is false, see the next theorem. -/
theorem simplifyFormat_partial (i f zeros : List Char) (hz : ∀ c ∈ zeros, c = '0')
    (hi : ∀ c ∈ i, c ≠ '.') (hf : f.getLast? ≠ some '0') (hf' : ∀ c ∈ f, c ≠ '.') :
    simplifyFormat (i ++ '.' :: (f ++ zeros)) = if f = [] then i else i ++ '.' :: f := by
  unfold simplifyFormat
  rw [show i ++ '.' :: (f ++ zeros) = (i ++ '.' :: f) ++ zeros by simp]
  have hlast : ∀ (l : List Char) (c : Char), (l ++ '.' :: f).getLast? = some c → f.getLast? = some c ∨ (f = [] ∧ c = '.') := by
    intro l c h
    cases f with
    | nil => right; simpa [eq_comm] using h
    | cons x r => left; simpa [List.getLast?_append, List.getLast?_cons_cons] using h
  rw [rstrip_append '0' _ zeros hz (by
    intro h
    rcases hlast i '0' h with h | ⟨_, h⟩
    · exact hf h
    · exact absurd h (by decide))]
  by_cases hfe : f = []
  · subst hfe
    simp only [if_true]
    refine rstrip_append '.' i ['.'] (by simp) ?_
    intro h
    exact hi '.' (List.mem_of_getLast? h) rfl
  · simp only [hfe, if_false]
    have := rstrip_append '.' (i ++ '.' :: f) [] (by simp) (by
      intro h
      rcases hlast i '.' h with h | ⟨h, _⟩
      · exact hf' '.' (List.mem_of_getLast? h) rfl
      · exact hfe h)
    simpa using this

/-- Every positive int which ends with zeros is printed as a different number (`10` as `1`, `0` as the empty string), and so
are floats with an exponent (`1e-10` as `1e-1`). -/
theorem simplifyFormat_wrong :
    simplifyFormat "10".toList = "1".toList ∧ simplifyFormat "1".toList = "1".toList ∧ simplifyFormat "0".toList = [] ∧
    simplifyFormat "1e-10".toList = "1e-1".toList ∧ simplifyFormat "1e+20".toList = "1e+2".toList := by decide +kernel

example : simplifyFormat "2.50".toList = "2.5".toList ∧ simplifyFormat "10.0".toList = "10".toList := by decide +kernel

end Verif.MathUtil
