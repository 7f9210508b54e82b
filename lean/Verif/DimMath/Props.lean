import Verif.DimMath.LemmasDiv
/-
C52: arithmetic on dims. C53: sizes of derived dims. C54: output sizes of convolution and pooling.
-/
namespace Verif.DimMath
open Verif.Py

variable {P : Params} {env : Nat → Int}

/-! ### Sums, differences, products -/

/-- **C52** `a + b` -/
theorem add_val (hs : Sound P env) {fuel : Nat} {a b r : D} (h : dAdd P fuel a b = .ok r) (ha : Valid env a) (hb : Valid env b) :
    Valid env r ∧ val env r = val env a + val env b := (addSpec hs fuel).add a b r h ha hb

/-- **C52** `b + a`, called on `a` -/
theorem radd_val (hs : Sound P env) {fuel : Nat} {a b r : D} (h : dRadd P fuel a b = .ok r) (ha : Valid env a) (hb : Valid env b) :
    Valid env r ∧ val env r = val env b + val env a := (addSpec hs fuel).radd a b r h ha hb

theorem dSub_spec {q : Prop} (hs : SoundW q P env) {fuel : Nat} {a b r : D} (h : dSub P fuel a b = .ok r) (ha : ValidW q env a)
    (hb : ValidW q env b) : ValidW q env r ∧ val env r = val env a - val env b := by
  unfold dSub at h
  split at h
  · rename_i c hc
    injection h with h
    subst h
    exact hs.cache _ _ _ _ hc ha hb trivial
  · simp only [bind, Except.bind] at h
    split at h
    · cases h
    · rename_i t1 h1
      split at h
      · cases h
      · rename_i t2 h2
        injection h with h
        subst h
        obtain ⟨e1, e2⟩ := linFromDim_spec hs h1 ha
        obtain ⟨e3, e4⟩ := (addSpec hs fuel).lin _ _ _ _ _ h2 hb e1
        obtain ⟨e5, e6⟩ := linAsDim_spec hs e3
        exact ⟨e5, by rw [e6, e4, e2]; simp [sgn]; ring⟩

theorem dSubLeft_spec {q : Prop} (hs : SoundW q P env) {fuel : Nat} {a b r : D} (h : dSubLeft P fuel a b = .ok r) (ha : ValidW q env a)
    (hb : ValidW q env b) : ValidW q env r ∧ val env r = -val env b + val env a := by
  unfold dSubLeft at h
  split at h
  · rename_i c hc
    injection h with h
    subst h
    exact hs.cache _ _ _ _ hc ha hb trivial
  · simp only [bind, Except.bind] at h
    split at h
    · cases h
    · rename_i t1 h1
      split at h
      · cases h
      · rename_i t2 h2
        injection h with h
        subst h
        obtain ⟨e1, e2⟩ := linFromDim_spec hs h1 ha
        obtain ⟨e3, e4⟩ := (addSpec hs fuel).lin _ _ _ _ _ h2 hb e1
        obtain ⟨e5, e6⟩ := linAsDim_spec hs e3
        exact ⟨e5, by rw [e6, e4, e2]; simp [sgn]; ring⟩

/-- **C52** `a - b` -/
theorem sub_val (hs : Sound P env) {fuel : Nat} {a b r : D} (h : dSub P fuel a b = .ok r) (ha : Valid env a) (hb : Valid env b) :
    Valid env r ∧ val env r = val env a - val env b := dSub_spec hs h ha hb

/-- **C52** `a.sub_left(b)` -/
theorem subLeft_val (hs : Sound P env) {fuel : Nat} {a b r : D} (h : dSubLeft P fuel a b = .ok r) (ha : Valid env a) (hb : Valid env b) :
    Valid env r ∧ val env r = -val env b + val env a := dSubLeft_spec hs h ha hb

/-- **C52** `a * b` -/
theorem mul_val (hs : Sound P env) {fuel : Nat} {a b r : D} (h : dMul P fuel a b = .ok r) (ha : Valid env a) (hb : Valid env b) :
    Valid env r ∧ val env r = val env a * val env b := dMul_spec hs h ha hb

/-- **C52** `b * a`, called on `a` -/
theorem rmul_val (hs : Sound P env) {fuel : Nat} {a b r : D} (h : dRmul P fuel a b = .ok r) (ha : Valid env a) (hb : Valid env b) :
    Valid env r ∧ val env r = val env b * val env a := by
  unfold dRmul at h
  split at h
  · rename_i c hc
    injection h with h
    subst h
    exact hs.cache _ _ _ _ hc ha hb trivial
  · simp only [bind, Except.bind] at h
    split at h
    · cases h
    · rename_i t1 h1
      split at h
      · cases h
      · rename_i t2 h2
        injection h with h
        subst h
        obtain ⟨e1, e2⟩ := linFromDim_spec hs h1 ha
        obtain ⟨e3, e4⟩ := linMul_spec hs h2 hb e1
        obtain ⟨e5, e6⟩ := linAsDim_spec hs e3
        exact ⟨e5, by rw [e6, e4, e2]; ring⟩

/-- **C52** If the result has a static size, it is the result for the numbers. -/
theorem static_add (hs : ∀ env, Sound P env) {fuel : Nat} {a b r : D} (h : dAdd P fuel a b = .ok r)
    (ha : ∀ env, Valid env a) (hb : ∀ env, Valid env b) {x y z : Int} (hx : a.dimension = some x) (hy : b.dimension = some y)
    (hz : r.dimension = some z) : z = x + y := by
  have := (add_val (hs (fun _ => 0)) h (ha _) (hb _)).2
  rw [dimension_val a hx, dimension_val b hy, dimension_val r hz] at this
  exact this

/-! ### Quotients -/

theorem harmless_noQuot {k : DK} {right : Bool} {t : List D} (h : Harmless k right t) : NoQuot k right t := by
  rcases h with h | h
  · exact Or.inl h
  · right
    intro d hd
    cases hq : sameQuot k right d with
    | none => rfl
    | some p =>
      have := sameQuot_spec (num := p.1) (den := p.2) hq
      rw [this] at hd
      exact (h _ _ hd).elim

/-- **C52, partial**: `a // b`, `a.ceildiv_right(b)`, `a.div_left(b)`, ... where `a`, as a sum of products, has no product of several
factors with a quotient of the same kind as a factor. Missing: see `product_quot_bug`, the code is wrong there. -/
theorem div_val_partial (hs : Sound P env) {fuel : Nat} {k : DK} {right : Bool} {a b r : D} {ts : List (List D)}
    (h : dDiv P fuel k right a b = .ok r) (ha : Valid env a) (hb : Valid env b) (hp : PosFactors env b)
    (he : k = .exact → val env b ∣ val env a)
    (hts : linFromDim P fuel a = .ok ts) (hn : ∀ t ∈ ts, Harmless k right t ∧ Harmless .exact right t) :
    Valid env r ∧ val env r = meaning (.div k right) (val env a) (val env b) := by
  have hm : ∀ x y, meaning (.div k right) x y = dv k x y := fun x y => by cases k <;> rfl
  unfold dDiv at h
  split at h
  · rename_i c hc
    injection h with h
    subst h
    exact hs.cache _ _ _ _ hc ha hb ⟨posFactors_pos _ hp, he, trivial⟩
  · rw [hts] at h
    simp only [bind, Except.bind] at h
    split at h
    · cases h
    · rename_i t2 h2
      injection h with h
      subst h
      obtain ⟨e1, e2⟩ := linFromDim_spec hs hts ha
      obtain ⟨e3, e4⟩ := linDiv_spec hs h2 hb hp e1
        (fun t ht => ⟨harmless_noQuot (hn t ht).1, harmless_noQuot (hn t ht).2⟩) (by rw [e2]; exact he)
      obtain ⟨e5, e6⟩ := linAsDim_spec hs e3
      exact ⟨e5, by rw [e6, e4, e2, hm]⟩

theorem noDiv_iff : ∀ (d : D), ValidW False env d ↔ NoDiv d
  | .base _ _ => by simp [ValidW, NoDiv]
  | .const _ => by simp [ValidW, NoDiv]
  | .add a b => by simp only [ValidW, NoDiv, noDiv_iff a, noDiv_iff b]
  | .mul a b => by simp only [ValidW, NoDiv, noDiv_iff a, noDiv_iff b]
  | .div _ _ _ _ => by simp [ValidW, NoDiv]

theorem noDiv_valid : ∀ (d : D), NoDiv d → Valid env d
  | .base _ _, _ => trivial
  | .const _, _ => trivial
  | .add a b, h => ⟨noDiv_valid a h.1, noDiv_valid b h.2⟩
  | .mul a b, h => ⟨noDiv_valid a h.1, noDiv_valid b h.2⟩
  | .div _ _ _ _, h => h.elim

theorem soundFalse (hs : Sound P env) (hc : CacheNoDiv P) : SoundW False P env := by
  refine ⟨hs.eq, ?_⟩
  intro k a b r h ha hb hd
  rw [noDiv_iff] at ha hb
  have hk : ∀ dk right, k ≠ .div dk right := by
    intro dk right hk
    subst hk
    exact hd.2.2
  refine ⟨(noDiv_iff r).2 (hc k a b r h ha hb hk), (hs.cache k a b r h (noDiv_valid _ ha) (noDiv_valid _ hb) ?_).2⟩
  cases k with
  | div dk right => exact (hk _ _ rfl).elim
  | _ => trivial

/-- **C52** For a numerator made of user dims, numbers, sums and products only, every division is right. -/
theorem div_noDiv (hs : Sound P env) (hc : CacheNoDiv P) {fuel : Nat} {k : DK} {right : Bool} {a b r : D}
    (h : dDiv P fuel k right a b = .ok r) (ha : NoDiv a) (hb : Valid env b) (hp : PosFactors env b)
    (he : k = .exact → val env b ∣ val env a) :
    Valid env r ∧ val env r = meaning (.div k right) (val env a) (val env b) := by
  cases hts : linFromDim P fuel a with
  | error e =>
    unfold dDiv at h
    split at h
    · rename_i c hc'
      injection h with h
      subst h
      exact hs.cache _ _ _ _ hc' (noDiv_valid _ ha) hb ⟨posFactors_pos _ hp, he, trivial⟩
    · rw [hts] at h
      cases h
  | ok ts =>
    refine div_val_partial hs h (noDiv_valid _ ha) hb hp he hts ?_
    obtain ⟨e1, _⟩ := linFromDim_spec (soundFalse hs hc) hts ((noDiv_iff a).2 ha)
    intro t ht
    constructor
    · right
      intro num den hm
      exact (e1 t ht _ hm).2.2.2.2
    · right
      intro num den hm
      exact (e1 t ht _ hm).2.2.2.2

/-- **C52** Repeated divisions: a numerator which is itself a quotient, of any kind. -/
theorem div_div (hs : Sound P env) {fuel : Nat} {k k' : DK} {right right' : Bool} {x y b r : D}
    (h : dDiv P fuel k right (.div k' right' x y) b = .ok r) (ha : Valid env (.div k' right' x y)) (hb : Valid env b)
    (hp : PosFactors env b) (he : k = .exact → val env b ∣ val env (.div k' right' x y)) :
    Valid env r ∧ val env r = meaning (.div k right) (val env (.div k' right' x y)) (val env b) := by
  cases hts : linFromDim P fuel (.div k' right' x y) with
  | error e =>
    unfold dDiv at h
    split at h
    · rename_i c hc'
      injection h with h
      subst h
      exact hs.cache _ _ _ _ hc' ha hb ⟨posFactors_pos _ hp, he, trivial⟩
    · rw [hts] at h
      cases h
  | ok ts =>
    refine div_val_partial hs h ha hb hp he hts ?_
    have : ts = [[.div k' right' x y]] := by
      match fuel with
      | 0 => simp only [linFromDim, linAdd] at hts; cases hts
      | 1 => simp only [linFromDim, linAdd, linAdd1] at hts; cases hts
      | n + 2 =>
        simp only [linFromDim, linAdd, linAdd1, mostRecent, multFromDim, pushRecent] at hts
        injection hts with hts
        rw [← hts]
        rfl
    subst this
    intro t ht
    simp only [List.mem_singleton] at ht
    subst ht
    exact ⟨Or.inl (by simp), Or.inl (by simp)⟩

/-- Equality of trees, no cache. -/
def P0 : Params := ⟨fun a b => decide (a = b), fun _ _ _ => none⟩

theorem P0_sound : Sound P0 env := ⟨fun a b h => by simp [P0] at h; rw [h], fun k a b r h => by simp [P0] at h⟩

theorem P0_noDiv : CacheNoDiv P0 := fun k a b r h => by simp [P0] at h

/-- **C52** The code is wrong for `(2 * x.ceildiv_right(3)).ceildiv_right(2)`: for `x` of size 3, this is `ceil(2 * 1 / 2) = 1`, but the
dim is `2 * x.ceildiv_right(6)`, of size 2. -/
theorem product_quot_bug : ∃ y z r : D,
    dDiv P0 20 .ceil true (.base 0 none) (.const 3) = .ok y ∧ dRmul P0 20 y (.const 2) = .ok z ∧
    dDiv P0 20 .ceil true z (.const 2) = .ok r ∧ val (fun _ => 3) z = 2 ∧ val (fun _ => 3) r = 2 ∧
    meaning (.div .ceil true) (val (fun _ => 3) z) 2 = 1 :=
  ⟨.div .ceil true (.base 0 none) (.const 3), .mul (.const 2) (.div .ceil true (.base 0 none) (.const 3)),
    .mul (.const 2) (.div .ceil true (.base 0 none) (.const 6)), by decide +kernel, by decide +kernel, by decide +kernel,
    by decide +kernel, by decide +kernel, by decide +kernel⟩

/-! ### C53 -/

/-- **C53, partial**: the size of each sequence is the value of the expression, if no sum in it is negative. Missing: sums are cut at
zero, see `sub_left_bug`. -/
theorem dyn_size_partial : ∀ (d : D), NonnegSums env d → dynSize env d = val env d
  | .base _ _, _ => rfl
  | .const _, _ => rfl
  | .add a b, h => by
    simp only [dynSize, dyn_size_partial a h.1, dyn_size_partial b h.2.1]
    cases hl : lift2 (· + ·) a.dimension b.dimension with
    | none => simp only [Option.getD_none, val]; exact max_eq_left h.2.2
    | some v => exact (dimension_val (env := env) (.add a b) hl).symm
  | .mul a b, h => by
    simp only [dynSize, dyn_size_partial a h.1, dyn_size_partial b h.2]
    cases hl : lift2 (· * ·) a.dimension b.dimension with
    | none => rfl
    | some v => exact (dimension_val (env := env) (.mul a b) hl).symm
  | .div k r a b, h => by
    simp only [dynSize, dyn_size_partial a h.1, dyn_size_partial b h.2]
    cases hl : lift2 (quot k) a.dimension b.dimension with
    | none => rw [val_div]; rfl
    | some v => exact (dimension_val (env := env) (.div k r a b) hl).symm

/-- **C53** `z.sub_left(x).sub_left(y)` has sizes `z`, not `z - x - y`. -/
theorem sub_left_bug : ∃ d e : D, dSubLeft P0 20 (.base 2 none) (.base 0 none) = .ok d ∧ dSubLeft P0 20 d (.base 1 none) = .ok e ∧
    val (fun i => if i = 2 then 7 else 2) e = 3 ∧ dynSize (fun i => if i = 2 then 7 else 2) e = 7 := 
  ⟨.add (.mul (.const (-1)) (.base 0 none)) (.base 2 none),
    .add (.add (.mul (.const (-1)) (.base 1 none)) (.mul (.const (-1)) (.base 0 none))) (.base 2 none), by decide +kernel,
    by decide +kernel, by decide +kernel, by decide +kernel⟩

theorem dynSize_static : ∀ (d : D) {v : Int}, d.dimension = some v → dynSize env d = v
  | .base _ _, v, h => by simp only [D.dimension] at h; rw [dynSize, h]; rfl
  | .const _, v, h => by simp only [D.dimension] at h; injection h
  | .add a b, v, h => by simp only [D.dimension] at h; rw [dynSize, h]; rfl
  | .mul a b, v, h => by simp only [D.dimension] at h; rw [dynSize, h]; rfl
  | .div k r a b, v, h => by simp only [D.dimension] at h; rw [dynSize, h]; rfl

theorem quot_mono (k : DK) {x y v : Int} (hv : 0 < v) (h : x ≤ y) : quot k x v ≤ quot k y v := by
  cases k <;> simp only [quot, ceilDiv]
  · rw [Int.fdiv_eq_ediv_of_nonneg _ hv.le, Int.fdiv_eq_ediv_of_nonneg _ hv.le]
    exact Int.ediv_le_ediv hv h
  · rw [Int.fdiv_eq_ediv_of_nonneg _ hv.le, Int.fdiv_eq_ediv_of_nonneg _ hv.le]
    have := Int.ediv_le_ediv hv (neg_le_neg h)
    omega
  · rw [Int.fdiv_eq_ediv_of_nonneg _ hv.le, Int.fdiv_eq_ediv_of_nonneg _ hv.le]
    exact Int.ediv_le_ediv hv h

theorem quot_zero (k : DK) (v : Int) : quot k 0 v = 0 := by cases k <;> simp [quot, ceilDiv]

/-- How two environments compare on a dim. -/
def Cmp (e1 e2 : Nat → Int) (d : D) : Prop := 0 ≤ dynSize e1 d ∧ dynSize e1 d ≤ dynSize e2 d

theorem cmp_add {e1 e2 : Nat → Int} {a b : D} (ha : Cmp e1 e2 a) (hb : Cmp e1 e2 b) : Cmp e1 e2 (.add a b) := by
  unfold Cmp at *
  cases hl : (D.add a b).dimension with
  | some v =>
    rw [dynSize_static (env := e1) _ hl, dynSize_static (env := e2) _ hl]
    obtain ⟨x, y, hx, hy, rfl⟩ := lift2_some hl
    rw [dynSize_static a hx, dynSize_static a hx] at ha
    rw [dynSize_static b hy, dynSize_static b hy] at hb
    constructor <;> omega
  | none =>
    simp only [D.dimension] at hl
    simp only [dynSize, hl, Option.getD_none]
    constructor <;> omega

theorem cmp_addConst {e1 e2 : Nat → Int} {a : D} {v : Int} (ha : Cmp e1 e2 a) (h : a.dimension = none ∨ 0 ≤ v) :
    Cmp e1 e2 (.add a (.const v)) ∧ Cmp e1 e2 (.add (.const v) a) := by
  rcases h with h | h
  · unfold Cmp at *
    constructor <;> (simp only [dynSize, h, D.dimension, lift2, Option.getD_none]; constructor <;> omega)
  · have hc : Cmp e1 e2 (.const v) := ⟨h, le_refl _⟩
    exact ⟨cmp_add ha hc, cmp_add hc ha⟩

theorem cmp_mono {e1 e2 : Nat → Int} (h0 : ∀ i, 0 ≤ e1 i) (hle : ∀ i, e1 i ≤ e2 i) (d : D) (h : Monotone d) : Cmp e1 e2 d := by
  fun_induction Monotone d with
  | case1 i d =>
    cases d with
    | none => exact ⟨h0 i, hle i⟩
    | some v => exact ⟨h v rfl, le_refl _⟩
  | case2 v => exact ⟨h, le_refl _⟩
  | case3 v b ih => exact (cmp_addConst (ih h.1) h.2).2
  | case4 a v _ ih => exact (cmp_addConst (ih h.1) h.2).1
  | case5 a b _ _ ih1 ih2 => exact cmp_add (ih1 h.1) (ih2 h.2)
  | case6 a b ih1 ih2 =>
    obtain ⟨a1, a2⟩ := ih1 h.1
    obtain ⟨b1, b2⟩ := ih2 h.2
    unfold Cmp
    cases hl : (D.mul a b).dimension with
    | some v =>
      rw [dynSize_static (env := e1) _ hl, dynSize_static (env := e2) _ hl]
      obtain ⟨x, y, hx, hy, rfl⟩ := lift2_some hl
      rw [dynSize_static a hx] at a1
      rw [dynSize_static b hy] at b1
      exact ⟨Int.mul_nonneg a1 b1, le_refl _⟩
    | none =>
      simp only [D.dimension] at hl
      simp only [dynSize, hl, Option.getD_none]
      exact ⟨Int.mul_nonneg a1 b1, Int.mul_le_mul a2 b2 b1 (le_trans a1 a2)⟩
  | case7 k r a v ih =>
    obtain ⟨a1, a2⟩ := ih h.1
    unfold Cmp
    cases hl : (D.div k r a (.const v)).dimension with
    | some w =>
      rw [dynSize_static (env := e1) _ hl, dynSize_static (env := e2) _ hl]
      obtain ⟨x, y, hx, hy, rfl⟩ := lift2_some hl
      rw [dynSize_static a hx] at a1
      simp only [D.dimension] at hy
      injection hy with hy
      subst hy
      have := quot_mono k h.2 a1
      rw [quot_zero] at this
      exact ⟨this, le_refl _⟩
    | none =>
      simp only [D.dimension] at hl
      simp only [dynSize, hl, D.dimension, Option.getD_none]
      have := quot_mono k h.2 a1
      rw [quot_zero] at this
      exact ⟨this, quot_mono k h.2 a2⟩
  | case8 => exact h.elim

theorem foldl_max_le : ∀ (l : List Int) (s : Int), s ≤ l.foldl max s ∧ ∀ x ∈ l, x ≤ l.foldl max s
  | [], s => by simp
  | a :: l, s => by
    obtain ⟨h1, h2⟩ := foldl_max_le l (max s a)
    simp only [List.foldl_cons]
    refine ⟨by omega, ?_⟩
    intro x hx
    rcases List.mem_cons.1 hx with rfl | hx
    · omega
    · exact h2 x hx

theorem foldl_max_mem : ∀ (l : List Int) (s : Int), l.foldl max s = s ∨ l.foldl max s ∈ l
  | [], s => Or.inl rfl
  | a :: l, s => by
    simp only [List.foldl_cons]
    rcases foldl_max_mem l (max s a) with h | h
    · rw [h]
      rcases le_total s a with h1 | h1
      · right; rw [max_eq_right h1]; exact List.mem_cons_self
      · left; exact max_eq_left h1
    · exact Or.inr (List.mem_cons_of_mem _ h)

/-- **C53, partial**: the dim value (the padded size of the axis) is at least the size of each sequence. Missing: for differences and for
quotients by dims, see `dim_value_bug`. -/
theorem dim_value_bound_partial (envs : List (Nat → Int)) (h0 : ∀ e ∈ envs, ∀ i, 0 ≤ e i) (d : D) (h : Monotone d) (e : Nat → Int)
    (he : e ∈ envs) : dynSize e d ≤ dimValue envs d := by
  refine (cmp_mono (h0 e he) ?_ d h).2
  intro i
  exact (foldl_max_le _ 0).2 _ (List.mem_map.2 ⟨e, he, rfl⟩)

theorem dynSize_only {i : Nat} {e1 e2 : Nat → Int} (h : e1 i = e2 i) : ∀ (d : D), OnlyDim i d → dynSize e1 d = dynSize e2 d
  | .base j d, hd => by
    rcases hd with rfl | hd
    · simp only [dynSize, h]
    · cases d with
      | none => exact (hd rfl).elim
      | some v => rfl
  | .const _, _ => rfl
  | .add a b, hd => by simp only [dynSize, dynSize_only h a hd.1, dynSize_only h b hd.2]
  | .mul a b, hd => by simp only [dynSize, dynSize_only h a hd.1, dynSize_only h b hd.2]
  | .div _ _ a b, hd => by simp only [dynSize, dynSize_only h a hd.1, dynSize_only h b hd.2]

/-- **C53** If the dim is derived from a single dim of dynamic size, some sequence has the dim value as size: with
`dim_value_bound_partial`, it is the maximum. -/
theorem dim_value_attained (envs : List (Nat → Int)) (hne : envs ≠ []) (h0 : ∀ e ∈ envs, ∀ i, 0 ≤ e i) (i : Nat) (d : D)
    (h : OnlyDim i d) : ∃ e ∈ envs, dynSize e d = dimValue envs d := by
  have key : ∃ e ∈ envs, e i = (envs.map (fun env => env i)).foldl max 0 := by
    rcases foldl_max_mem (envs.map (fun env => env i)) 0 with h1 | h1
    · obtain ⟨e, he⟩ := List.exists_mem_of_ne_nil envs hne
      refine ⟨e, he, ?_⟩
      have h2 := (foldl_max_le (envs.map (fun env => env i)) 0).2 (e i) (List.mem_map.2 ⟨e, he, rfl⟩)
      rw [h1] at h2 ⊢
      exact le_antisymm h2 (h0 e he i)
    · obtain ⟨e, he, h2⟩ := List.mem_map.1 h1
      exact ⟨e, he, h2⟩
  obtain ⟨e, he, h2⟩ := key
  exact ⟨e, he, dynSize_only h2 d h⟩

/-- **C53** For `x - y` with sizes `x = [3, 5]`, `y = [1, 5]`, the first sequence has size 2, but the dim value is 0. -/
theorem dim_value_bug : ∃ d : D, dSub P0 20 (.base 0 none) (.base 1 none) = .ok d ∧
    dynSize (fun i => if i = 0 then 3 else 1) d = 2 ∧
    dimValue [fun i => if i = 0 then 3 else 1, fun _ => 5] d = 0 :=
  ⟨.add (.base 0 none) (.mul (.const (-1)) (.base 1 none)), by decide +kernel, by decide +kernel, by decide +kernel⟩

/-! ### C54 -/

theorem ceil_lt (t : Nat) (x s : Int) (hs : 0 < s) : (t : Int) < -((-x).fdiv s) ↔ (t : Int) * s < x := by
  rw [Int.fdiv_eq_ediv_of_nonneg _ hs.le]
  constructor
  · intro h
    have h1 : (-x) / s < -(t : Int) := by omega
    rw [Int.ediv_lt_iff_lt_mul hs] at h1
    rw [neg_mul] at h1
    omega
  · intro h
    have h1 : (-x) / s < -(t : Int) := by
      rw [Int.ediv_lt_iff_lt_mul hs, neg_mul]
      omega
    omega

/-- **C54** Padding "same": there is an output frame `t` iff `t * stride` is in the input. -/
theorem conv_same (hs : Sound P env) (hc : CacheNoDiv P) {fuel : Nat} {d r : D} {stride : Int} (h : convSame P fuel d stride = .ok r)
    (hd : NoDiv d) (hst : 0 < stride) (t : Nat) : (t : Int) < val env r ↔ t * stride < val env d := by
  obtain ⟨_, h2⟩ := div_noDiv hs hc h hd trivial hst (by intro h; cases h)
  rw [h2]
  exact ceil_lt t _ _ hst

theorem convPad_spec {q : Prop} (hs : SoundW q P env) {fuel : Nat} {d r : D} {pad : Int}
    (h : convPad P fuel d pad = .ok r)
    (hd : ValidW q env d) : ValidW q env r ∧ val env r = val env d + 2 * pad := by
  unfold convPad at h
  split at h
  · rename_i h0
    injection h with h
    subst h
    exact ⟨hd, by omega⟩
  · cases h1 : dRadd P fuel d (.const pad) with
    | error e => rw [h1] at h; cases h
    | ok d1 =>
      rw [h1] at h
      obtain ⟨a1, a2⟩ := (addSpec hs fuel).radd _ _ _ h1 hd trivial
      obtain ⟨b1, b2⟩ := (addSpec hs fuel).add _ _ _ h a1 trivial
      simp only [val] at a2 b2
      exact ⟨b1, by rw [b2, a2]; ring⟩

/-- **C54** Padding "valid", or `pad` frames on each side: there is an output frame `t` iff the window which starts at `t * stride` in the
padded input, with its last element at `t * stride + (filter - 1) * dilation`, is inside of the padded input. -/
theorem conv_valid (hs : Sound P env) (hc : CacheNoDiv P) {fuel : Nat} {d r : D} {filter stride dilation pad : Int}
    (h : convValid P fuel d filter stride dilation pad = .ok r) (hd : NoDiv d) (hst : 0 < stride) (t : Nat) :
    (t : Int) < val env r ↔ t * stride + (filter - 1) * dilation < val env d + 2 * pad := by
  have hsf := soundFalse hs hc
  unfold convValid at h
  simp only [bind, Except.bind] at h
  split at h
  · cases h
  · split at h
    · cases h
    · rename_i d1 h1
      split at h
      · cases h
      · rename_i d2 h2
        split at h
        · cases h
        · rename_i d3 h3
          obtain ⟨a1, a2⟩ := convPad_spec hsf h1 ((noDiv_iff d).2 hd)
          obtain ⟨b1, b2⟩ := dSubLeft_spec hsf h2 a1 trivial
          obtain ⟨c1, c2⟩ := dSub_spec hsf h3 b1 trivial
          obtain ⟨_, e2⟩ := div_noDiv hs hc h ((noDiv_iff d3).1 c1) trivial hst (by intro h; cases h)
          rw [e2]
          simp only [val] at b2 c2
          have hv : val env d3 = val env d + 2 * pad - (filter - 1) * dilation := by rw [c2, b2, a2]; ring
          rw [hv]
          have := ceil_lt t (val env d + 2 * pad - (filter - 1) * dilation) stride hst
          simp only [meaning, val]
          rw [this]
          constructor <;> intro h <;> linarith

/-! ### Examples -/

section Examples

/-- `x` of dynamic size. -/
private abbrev x : D := .base 0 none
private abbrev y : D := .base 1 none
private abbrev f : D := .base 2 (some 6)

-- merging and cancelling: 2 * x + 3 * x = 5 * x, x + 3 - x
example : dAdd P0 30 (.mul (.const 2) x) (.mul (.const 3) x) = .ok (.mul (.const 5) x) := by decide +kernel
example : (dAdd P0 30 x (.const 3)).bind (fun d => dSubLeft P0 30 d x) = .ok (.const 3) := by decide +kernel
example : dSub P0 30 (.add x (.const 3)) (.const 3) = .ok x := by decide +kernel
example : dSub P0 30 (.add x y) y = .ok x := by decide +kernel
example : dMul P0 30 (.div .exact true x y) y = .ok x := by decide +kernel
example : dMul P0 30 (.add x y) (.const 2) = .ok (.mul (.add x y) (.const 2)) := by decide +kernel
example : dRmul P0 30 (.const 3) (.const 2) = .ok (.const 6) := by decide +kernel
example : Valid (fun i => if i = 0 then 12 else 4) (.div .exact true x y) := by
  simp only [Valid, ValidW, val]; decide
example : (add_val P0_sound (env := fun _ => 7) (show dAdd P0 30 x f = .ok (.add x f) by decide +kernel) trivial trivial).2 =
  (rfl : (13 : Int) = 13) := rfl
example : (D.add f (.const 2)).dimension = some 8 := rfl

-- divisions
example : dDiv P0 30 .floor true (.add x (.const 4)) (.const 2) = .ok (.div .floor true (.add x (.const 4)) (.const 2)) := by decide +kernel
example : dDiv P0 30 .ceil true (.div .ceil true x (.const 3)) (.const 2) = .ok (.div .ceil true x (.const 6)) := by decide +kernel
example : NoDiv (.add (.mul x (.const 6)) (.const 4)) := by simp [NoDiv]
example : PosFactors (fun _ => 3) (.mul x (.const 2)) := by simp [PosFactors, val]
example : dDiv P0 30 .exact true f (.const 4) = .error .valueError := by decide +kernel
example : linFromDim P0 30 (.add (.mul x y) (.const 2)) = .ok [[x, y], [.const 2]] := by decide +kernel
example : Harmless .floor true [x, y] ∧ ¬ Harmless .floor true [x, .div .floor true y (.const 2)] := by
  constructor
  · right; intro num den; simp
  · rintro (h | h)
    · simp at h
    · exact h y (.const 2) (by simp)

-- sizes
example : NonnegSums (fun _ => 7) (.add (.const (-2)) x) := by simp [NonnegSums, val]
example : Monotone (.div .ceil true (.add (.const (-2)) x) (.const 3)) := by simp [Monotone, D.dimension]
example : OnlyDim 0 (.div .ceil true (.add (.const (-2)) x) f) := by simp [OnlyDim]
example : dimValue [fun _ => 7, fun _ => 4] (.div .ceil true (.add (.const (-2)) x) (.const 3)) = 2 := by decide +kernel

-- convolution: 10 frames, filter 3, stride 2, dilation 2, padding 1: 12 - 4 = 8 positions, every second
example : ∃ r, convValid P0 30 x 3 2 2 1 = .ok r ∧ val (fun _ => 10) r = 4 :=
  ⟨.div .ceil true (.add (.add (.const (-1)) x) (.const (-1))) (.const 2), by decide +kernel, by decide +kernel⟩
example : ∃ r, convSame P0 30 x 3 = .ok r ∧ val (fun _ => 10) r = 4 :=
  ⟨.div .ceil true x (.const 3), by decide +kernel, by decide +kernel⟩

end Examples

end Verif.DimMath
