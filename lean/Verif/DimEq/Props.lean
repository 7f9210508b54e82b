import Verif.DimEq.Model
/-
C66 (equality and hash of dims), C67 (`declare_same_as`).
-/
namespace Verif.DimEq

/-! ### The base -/

theorem getBase_root {h : Heap} {i : Nat} (hi : (h i).sameAs = none) (n : Nat) : getBase h (n + 1) i = some i := by
  simp only [getBase, hi]

theorem getBase_next {h : Heap} {i j : Nat} (hi : (h i).sameAs = some j) (n : Nat) : getBase h (n + 1) i = getBase h n j := by
  simp only [getBase, hi]

theorem getBase_is_root {h : Heap} : ∀ {n i r : Nat}, getBase h n i = some r → (h r).sameAs = none
  | 0, _, _, hb => by cases hb
  | n + 1, i, r, hb => by
    cases hi : (h i).sameAs with
    | none =>
      rw [getBase_root hi] at hb
      injection hb with hb
      rw [← hb]; exact hi
    | some j =>
      rw [getBase_next hi] at hb
      exact getBase_is_root hb

theorem getBase_mono {h : Heap} : ∀ {n i r : Nat} (k : Nat), getBase h n i = some r → getBase h (n + k) i = some r
  | 0, _, _, _, hb => by cases hb
  | n + 1, i, r, k, hb => by
    rw [show n + 1 + k = (n + k) + 1 by omega]
    cases hi : (h i).sameAs with
    | none =>
      rw [getBase_root hi] at hb ⊢
      exact hb
    | some j =>
      rw [getBase_next hi] at hb ⊢
      exact getBase_mono k hb

theorem Base.unique {h : Heap} {i r r' : Nat} (h1 : Base h i r) (h2 : Base h i r') : r = r' := by
  obtain ⟨n, h1⟩ := h1
  obtain ⟨m, h2⟩ := h2
  have e1 := getBase_mono m h1
  have e2 := getBase_mono n h2
  rw [Nat.add_comm m n, e1] at e2
  injection e2

theorem Base.root {h : Heap} {i r : Nat} (hb : Base h i r) : (h r).sameAs = none := by
  obtain ⟨n, hb⟩ := hb
  exact getBase_is_root hb

theorem Base.of_root {h : Heap} {i : Nat} (hi : (h i).sameAs = none) : Base h i i := ⟨1, getBase_root hi 0⟩

theorem Base.of_next {h : Heap} {i j r : Nat} (hi : (h i).sameAs = some j) (hb : Base h j r) : Base h i r := by
  obtain ⟨n, hb⟩ := hb
  exact ⟨n + 1, by rw [getBase_next hi]; exact hb⟩

/-- Induction along the chain of `same_as`. -/
theorem Base.rec' {h : Heap} {r : Nat} {P : Nat → Prop} (hroot : P r) (hnext : ∀ i j, (h i).sameAs = some j → Base h j r → P j → P i) {i : Nat} (hb : Base h i r) : P i := by
  obtain ⟨n, hb⟩ := hb
  induction n generalizing i with
  | zero => cases hb
  | succ n ih =>
    cases hi : (h i).sameAs with
    | none =>
      rw [getBase_root hi] at hb
      injection hb with hb
      rw [hb]; exact hroot
    | some j =>
      rw [getBase_next hi] at hb
      exact hnext i j hi ⟨n, hb⟩ (ih hb)

/-! ### Equality -/

theorem eqBases_true {h : Heap} {a b : Nat} : eqBases h a b = true ↔
    a = b ∨ ((h a).kind = some .batch ∧ (h b).kind = some .batch) ∨ ((h a).auto = true ∧ (h b).auto = true ∧ (h a).name = (h b).name) := by
  unfold eqBases
  by_cases h1 : a = b
  · simp [h1]
  · by_cases h2 : (h a).kind = some .batch ∧ (h b).kind = some .batch
    · simp [h1, h2]
    · by_cases h3 : (h a).auto = true ∧ (h b).auto = true ∧ (h a).name = (h b).name
      · rw [if_neg h1, if_neg h2, if_pos h3]; simp [h3]
      · rw [if_neg h1, if_neg h2, if_neg h3]
        constructor
        · intro h; cases h
        · rintro (h | h | h)
          · exact (h1 h).elim
          · exact (h2 h).elim
          · exact (h3 h).elim

theorem eqBases_symm (h : Heap) (a b : Nat) : eqBases h a b = eqBases h b a := by
  rw [Bool.eq_iff_iff, eqBases_true, eqBases_true]
  constructor
  · rintro (e | ⟨e1, e2⟩ | ⟨e1, e2, e3⟩)
    · exact Or.inl e.symm
    · exact Or.inr (Or.inl ⟨e2, e1⟩)
    · exact Or.inr (Or.inr ⟨e2, e1, e3.symm⟩)
  · rintro (e | ⟨e1, e2⟩ | ⟨e1, e2, e3⟩)
    · exact Or.inl e.symm
    · exact Or.inr (Or.inl ⟨e2, e1⟩)
    · exact Or.inr (Or.inr ⟨e2, e1, e3.symm⟩)

/-- C66: `==` is reflexive. -/
theorem eqSimple_refl (h : Heap) (n a : Nat) : eqSimple h n a a = some true := if_pos rfl

/-- C66: `==` is symmetric. -/
theorem eqSimple_symm (h : Heap) (n a b : Nat) : eqSimple h n a b = eqSimple h n b a := by
  unfold eqSimple
  by_cases h1 : a = b
  · subst h1; rfl
  · rw [if_neg h1, if_neg (fun e => h1 e.symm)]
    cases getBase h n a with
    | none => cases getBase h n b <;> rfl
    | some ra =>
      cases getBase h n b with
      | none => rfl
      | some rb => simp only [Option.bind_some, eqBases_symm h ra rb]

theorem bcast_symm (o : Opts) (x y : DimRec) : bcast o x y = bcast o y x := by
  unfold bcast
  rw [Bool.or_comm]

theorem spatialMatches_symm (o : Opts) (x y : DimRec) (hs : x.size = y.size ∨ bcast o x y = true) : spatialMatches o x y = spatialMatches o y x := by
  have h1 : (x.size.isSome || (o.broadcast && (x.size == some 1 || y.size == some 1))) = (y.size.isSome || (o.broadcast && (y.size == some 1 || x.size == some 1))) := by
    rcases hs with hs | hs
    · rw [hs]
    · unfold bcast at hs
      simp only [Bool.and_eq_true, Bool.or_eq_true, beq_iff_eq] at hs
      obtain ⟨hb, hs⟩ := hs
      rcases hs with hs | hs <;> simp [hb, hs.1]
  unfold spatialMatches
  rw [h1, Bool.or_comm (!x.hasDyn), Bool.or_comm x.undef]

theorem isEqualKinds_symm (simple : Bool) (o : Opts) (x y : DimRec) (kx ky : Option Kind) (hs : x.size = y.size ∨ bcast o x y = true) :
    isEqualKinds simple o x y kx ky = isEqualKinds simple o y x ky kx := by
  unfold isEqualKinds
  by_cases hk : kx = ky
  · subst hk
    simp only [spatialMatches_symm o x y hs, bcast_symm o x y, or_comm (a := x.auto = false), Bool.and_comm x.auto, BEq.comm (a := x.name)]
  · rw [if_pos hk, if_pos (fun e => hk e.symm)]

theorem isEqualRecs_symm (simple : Bool) (o : Opts) (x y : DimRec) : isEqualRecs simple o x y = isEqualRecs simple o y x := by
  unfold isEqualRecs
  by_cases h1 : x.kind = some .feature ∧ y.kind = some .feature ∧ o.ignoreFeature = true
  · rw [if_pos h1, if_pos ⟨h1.2.1, h1.1, h1.2.2⟩]
  · have h1' : ¬ (y.kind = some .feature ∧ x.kind = some .feature ∧ o.ignoreFeature = true) := fun e => h1 ⟨e.2.1, e.1, e.2.2⟩
    rw [if_neg h1, if_neg h1']
    by_cases h2 : x.size ≠ y.size ∧ bcast o x y = false
    · have h2' : y.size ≠ x.size ∧ bcast o y x = false := ⟨fun e => h2.1 e.symm, (bcast_symm o y x).trans h2.2⟩
      rw [if_pos h2, if_pos h2']
    · have h2' : ¬ (y.size ≠ x.size ∧ bcast o y x = false) := fun e => h2 ⟨fun e' => e.1 e'.symm, (bcast_symm o x y).trans e.2⟩
      rw [if_neg h2, if_neg h2']
      refine isEqualKinds_symm simple o x y _ _ ?_
      by_cases h3 : x.size = y.size
      · exact Or.inl h3
      · refine Or.inr ?_
        cases hb : bcast o x y with
        | true => rfl
        | false => exact (h2 ⟨h3, hb⟩).elim

/-- C66: `is_equal` is symmetric with all options. -/
theorem isEqual_symm (h : Heap) (simple : Bool) (o : Opts) (n a b : Nat) : isEqual h simple o n a b = isEqual h simple o n b a := by
  unfold isEqual
  by_cases h1 : a = b
  · subst h1; rfl
  · have h1' : ¬ b = a := fun e => h1 e.symm
    rw [if_neg h1, if_neg h1']
    by_cases h2 : (h a).special = true ∨ (h b).special = true
    · rw [if_pos h2, if_pos h2.symm]
    · have h2' : ¬ ((h b).special = true ∨ (h a).special = true) := fun e => h2 e.symm
      rw [if_neg h2, if_neg h2']
      cases compareBase h o n a with
      | none => cases compareBase h o n b <;> rfl
      | some ra =>
        cases compareBase h o n b with
        | none => rfl
        | some rb =>
          simp only [Option.bind_some, isEqualRecs_symm simple o (h a) (h b)]
          by_cases h3 : ra = rb
          · rw [if_pos h3, if_pos h3.symm]
          · rw [if_neg h3, if_neg (fun e => h3 e.symm)]

/-- The dims of a graph as they should be (a separate condition, the code does not check it): special dims and batch dims are not auto-generated, special
dims are no batch dims, and auto-generated dims with the same description have the same kind and size. -/
structure Sane (h : Heap) : Prop where
  special : ∀ r, (h r).special = true → (h r).auto = false ∧ (h r).kind ≠ some .batch
  batch : ∀ r, (h r).kind = some .batch → (h r).auto = false
  auto : ∀ r s, (h r).sameAs = none → (h s).sameAs = none → (h r).auto = true → (h s).auto = true → (h r).name = (h s).name →
    (h r).kind = (h s).kind ∧ (h r).size = (h s).size

theorem eqBases_of_eqSimple {h : Heap} {n a b ra rb : Nat} (ha : getBase h n a = some ra) (hb : getBase h n b = some rb) :
    eqSimple h n a b = some (eqBases h ra rb) := by
  unfold eqSimple
  by_cases h1 : a = b
  · subst h1
    rw [ha] at hb
    injection hb with hb
    subst hb
    rw [if_pos rfl]
    simp [eqBases]
  · rw [if_neg h1, ha, hb]; rfl

/-- C66: `==` is transitive for sane dims. -/
theorem eqSimple_trans_partial {h : Heap} (hs : Sane h) {n a b c : Nat} {ra rb rc : Nat} (ha : getBase h n a = some ra) (hb : getBase h n b = some rb)
    (hc : getBase h n c = some rc) (h1 : eqSimple h n a b = some true) (h2 : eqSimple h n b c = some true) : eqSimple h n a c = some true := by
  rw [eqBases_of_eqSimple ha hb] at h1
  rw [eqBases_of_eqSimple hb hc] at h2
  rw [eqBases_of_eqSimple ha hc]
  injection h1 with h1
  injection h2 with h2
  congr 1
  rw [eqBases_true] at *
  rcases h1 with h1 | ⟨k1, k2⟩ | ⟨a1, a2, e⟩
  · subst h1; exact h2
  · rcases h2 with h2 | ⟨k3, k4⟩ | ⟨a3, a4, e'⟩
    · subst h2; exact Or.inr (Or.inl ⟨k1, k2⟩)
    · exact Or.inr (Or.inl ⟨k1, k4⟩)
    · rw [hs.batch rb k2] at a3; cases a3
  · rcases h2 with h2 | ⟨k3, k4⟩ | ⟨a3, a4, e'⟩
    · subst h2; exact Or.inr (Or.inr ⟨a1, a2, e⟩)
    · rw [hs.batch rb k3] at a2; cases a2
    · exact Or.inr (Or.inr ⟨a1, a4, e.trans e'⟩)

/-- C66: for sane dims, equal dims have the same hash. -/
theorem eqSimple_hash_partial {h : Heap} (hs : Sane h) {n a b : Nat} {ra rb : Nat} (ha : getBase h n a = some ra) (hb : getBase h n b = some rb)
    (h1 : eqSimple h n a b = some true) : hashDim h n a = hashDim h n b := by
  rw [eqBases_of_eqSimple ha hb] at h1
  injection h1 with h1
  rw [eqBases_true] at h1
  unfold hashDim
  rw [ha, hb]
  simp only [Option.map_some]
  congr 1
  rcases h1 with h1 | ⟨k1, k2⟩ | ⟨a1, a2, e⟩
  · rw [h1]
  · have s1 : (h ra).special = false := by
      cases hx : (h ra).special with
      | false => rfl
      | true => exact ((hs.special ra hx).2 k1).elim
    have s2 : (h rb).special = false := by
      cases hx : (h rb).special with
      | false => rfl
      | true => exact ((hs.special rb hx).2 k2).elim
    simp [hashBase, s1, s2, k1, k2]
  · have s1 : (h ra).special = false := by
      cases hx : (h ra).special with
      | false => rfl
      | true => rw [(hs.special ra hx).1] at a1; cases a1
    have s2 : (h rb).special = false := by
      cases hx : (h rb).special with
      | false => rfl
      | true => rw [(hs.special rb hx).1] at a2; cases a2
    obtain ⟨ek, es⟩ := hs.auto ra rb (getBase_is_root ha) (getBase_is_root hb) a1 a2 e
    by_cases hk : (h rb).kind = some .batch
    · rw [hs.batch rb hk] at a2; cases a2
    · simp [hashBase, s1, s2, a1, a2, ek, es, e, hk]

/-- C66, conversely: dims with the same hash key are equal. So for sane dims, `==` says the same as the hash key. -/
theorem hash_eqSimple {h : Heap} {n a b : Nat} {ra rb : Nat} (ha : getBase h n a = some ra) (hb : getBase h n b = some rb)
    (h1 : hashDim h n a = hashDim h n b) : eqSimple h n a b = some true := by
  rw [eqBases_of_eqSimple ha hb]
  unfold hashDim at h1
  rw [ha, hb] at h1
  simp only [Option.map_some, Option.some.injEq] at h1
  congr 1
  rw [eqBases_true]
  unfold hashBase at h1
  by_cases s1 : (h ra).special = true <;> by_cases s2 : (h rb).special = true <;> by_cases k1 : (h ra).kind = some .batch <;>
    by_cases k2 : (h rb).kind = some .batch <;> by_cases a1 : (h ra).auto = true <;> by_cases a2 : (h rb).auto = true <;>
    simp_all

/-- A dim declared the same as another agrees with it in what `is_equal` looks at. -/
def Agrees (h : Heap) (a r : Nat) : Prop :=
  (h a).kind = (h r).kind ∧ (h a).size = (h r).size ∧ (h a).name = (h r).name ∧ (h a).auto = (h r).auto ∧ (h a).special = (h r).special

/-- C66: "should exactly replicate the previous `is_equal` logic" (1424-1426): for sane dims which agree with their bases, where a special dim is only
the same as itself and batch dims have the same size. -/
theorem eqSimple_isEqual_partial {h : Heap} (hs : Sane h) {n a b ra rb : Nat} (ha : getBase h n a = some ra) (hb : getBase h n b = some rb)
    (ga : Agrees h a ra) (gb : Agrees h b rb) (sa : (h ra).special = true → a = ra) (sb : (h rb).special = true → b = rb)
    (hbs : (h ra).kind = some .batch → (h rb).kind = some .batch → (h ra).size = (h rb).size) : eqSimple h n a b = isEqual h true {} n a b := by
  by_cases hab : a = b
  · subst hab; simp [eqSimple, isEqual]
  · rw [eqBases_of_eqSimple ha hb]
    unfold isEqual
    rw [if_neg hab]
    obtain ⟨ka, za, na, aa, spa⟩ := ga
    obtain ⟨kb, zb, nb, ab, spb⟩ := gb
    by_cases hsp : (h a).special = true ∨ (h b).special = true
    · rw [if_pos hsp]
      congr 1
      rw [Bool.eq_false_iff, Ne, eqBases_true]
      rintro (e | ⟨k1, k2⟩ | ⟨a1, a2, e⟩)
      · subst e
        rw [spa, spb, or_self] at hsp
        exact hab ((sa hsp).trans (sb hsp).symm)
      · rcases hsp with hsp | hsp
        · exact (hs.special ra (spa ▸ hsp)).2 k1
        · exact (hs.special rb (spb ▸ hsp)).2 k2
      · rcases hsp with hsp | hsp
        · rw [(hs.special ra (spa ▸ hsp)).1] at a1; cases a1
        · rw [(hs.special rb (spb ▸ hsp)).1] at a2; cases a2
    · rw [if_neg hsp]
      have hc : ∀ x, compareBase h {} n x = getBase h n x := fun x => rfl
      rw [hc, hc, ha, hb]
      simp only [Option.bind_some, Option.some.injEq]
      by_cases hr : ra = rb
      · rw [if_pos hr, eqBases_true]; exact Or.inl hr
      · rw [if_neg hr]
        have hk : isEqualRecs true {} (h a) (h b) = true ↔ (h a).size = (h b).size ∧ (h a).kind = (h b).kind ∧
            ((h a).kind = some .batch ∨ ((h a).auto = true ∧ (h b).auto = true ∧ (h a).name = (h b).name)) := by
          simp only [isEqualRecs, isEqualKinds, bcast, asSpatial, spatialMatches]
          by_cases q1 : (h a).size = (h b).size <;> by_cases q2 : (h a).kind = (h b).kind <;> by_cases q3 : (h b).kind = some .batch <;>
            by_cases q4 : (h a).auto = true <;> by_cases q5 : (h b).auto = true <;> simp [q1, q2, q3, q4, q5]
        rw [Bool.eq_iff_iff, eqBases_true, hk, za, zb, ka, kb, na, nb, aa, ab]
        constructor
        · rintro (e | ⟨k1, k2⟩ | ⟨a1, a2, e⟩)
          · exact (hr e).elim
          · exact ⟨hbs k1 k2, k1.trans k2.symm, Or.inl k1⟩
          · obtain ⟨ek, es⟩ := hs.auto ra rb (getBase_is_root ha) (getBase_is_root hb) a1 a2 e
            exact ⟨es, ek, Or.inr ⟨a1, a2, e⟩⟩
        · rintro ⟨_, e, k | k⟩
          · exact Or.inr (Or.inl ⟨k, e ▸ k⟩)
          · exact Or.inr (Or.inr k)

/-! ### Concrete dims -/

/-- A list of dims as heap. -/
def heapOf (l : List DimRec) : Heap := fun i => (l[i]?).getD { size := none, name := none }

/-- 0: batch; 1: a time dim of the user; 2: the same, via 1; 3, 4: two auto-generated feature dims of different instances with the same description; 5: another batch. -/
def exHeap : Heap := heapOf [
  { size := none, name := some "batch", kind := some .batch },
  { size := none, name := some "time", kind := some .spatial, hasDyn := true },
  { size := none, name := some "time", kind := some .spatial, hasDyn := true, sameAs := some 1 },
  { size := some 5, name := some "out:channel", kind := some .feature, auto := true },
  { size := some 5, name := some "out:channel", kind := some .feature, auto := true },
  { size := none, name := some "B", kind := some .batch },
  { size := some 5, name := some "out:channel", kind := some .feature }]

theorem exHeap_big {i : Nat} (hi : 7 ≤ i) : exHeap i = { size := none, name := none } := by
  have : exHeap (i - 7 + 7) = { size := none, name := none } := rfl
  rwa [show i - 7 + 7 = i by omega] at this

theorem exHeap_cases {P : Nat → Prop} (h0 : P 0) (h1 : P 1) (h2 : P 2) (h3 : P 3) (h4 : P 4) (h5 : P 5) (h6 : P 6) (hbig : ∀ i, 7 ≤ i → P i) (i : Nat) : P i := by
  match i with
  | 0 => exact h0
  | 1 => exact h1
  | 2 => exact h2
  | 3 => exact h3
  | 4 => exact h4
  | 5 => exact h5
  | 6 => exact h6
  | k + 7 => exact hbig (k + 7) (by omega)

theorem exHeap_auto {i : Nat} (h : (exHeap i).auto = true) : i = 3 ∨ i = 4 := by
  revert h
  refine exHeap_cases (P := fun i => (exHeap i).auto = true → i = 3 ∨ i = 4) ?_ ?_ ?_ ?_ ?_ ?_ ?_ ?_ i
  all_goals first | (intro h; exact absurd h (by decide)) | (intro _; decide) | (intro i hi h; rw [exHeap_big hi] at h; cases h)

/-- The hypotheses are met. -/
theorem exHeap_sane : Sane exHeap := by
  refine ⟨fun r => ?_, fun r => ?_, ?_⟩
  · refine exHeap_cases (P := fun r => (exHeap r).special = true → (exHeap r).auto = false ∧ (exHeap r).kind ≠ some .batch) ?_ ?_ ?_ ?_ ?_ ?_ ?_ ?_ r
    all_goals first | (intro h; exact absurd h (by decide)) | (intro i hi h; rw [exHeap_big hi] at h; cases h)
  · refine exHeap_cases (P := fun r => (exHeap r).kind = some .batch → (exHeap r).auto = false) ?_ ?_ ?_ ?_ ?_ ?_ ?_ ?_ r
    all_goals first | (intro h; exact absurd h (by decide)) | (intro h; decide) | (intro i hi h; rw [exHeap_big hi] at h; cases h)
  · intro r s _ _ ar as _
    rcases exHeap_auto ar with rfl | rfl <;> rcases exHeap_auto as with rfl | rfl <;> exact ⟨rfl, rfl⟩

example : eqSimple exHeap 3 1 2 = some true ∧ eqSimple exHeap 3 3 4 = some true ∧ eqSimple exHeap 3 0 5 = some true ∧ eqSimple exHeap 3 3 6 = some false ∧
    eqSimple exHeap 3 1 0 = some false ∧ hashDim exHeap 3 2 = some (.byId 1) ∧ hashDim exHeap 3 4 = some (.fields (some .feature) (some 5) (some "out:channel")) ∧
    isEqual exHeap true {} 3 2 1 = some true ∧ isEqual exHeap true {} 3 3 6 = some false ∧ isEqual exHeap false { allowSameFeature := true } 3 3 6 = some true := by
  decide

/-- Where the claims fail: 0 and 1 are auto-generated, have the same description and different sizes; 2 is an auto-generated batch dim with this description;
3 another batch dim, with a static size; 4, 5: two user dims of the same class, 5 is a copy with another kind. -/
def badHeap : Heap := heapOf [
  { size := some 5, name := some "d", kind := some .feature, auto := true },
  { size := some 7, name := some "d", kind := some .feature, auto := true },
  { size := none, name := some "d", kind := some .batch, auto := true },
  { size := some 3, name := some "B", kind := some .batch },
  { size := some 2, name := some "u", kind := some .feature },
  { size := some 2, name := some "u", kind := some .spatial, sameAs := some 4 },
  { size := some 2, name := some "u", kind := some .spatial, derivedFrom := some 4 }]

/-- C66, refuted in general: equal dims with different hash keys, for which `is_equal` says no. -/
theorem eqSimple_hash_fails : eqSimple badHeap 2 0 1 = some true ∧ hashDim badHeap 2 0 ≠ hashDim badHeap 2 1 ∧ isEqual badHeap true {} 2 0 1 = some false := by
  decide

/-- C66, refuted in general: `==` is not transitive. -/
theorem eqSimple_trans_fails : eqSimple badHeap 2 0 2 = some true ∧ eqSimple badHeap 2 2 3 = some true ∧ eqSimple badHeap 2 0 3 = some false := by decide

/-- C66, refuted in general: two batch dims of different size are `==`, but not `is_equal`. -/
theorem eqSimple_batch_size : eqSimple badHeap 2 2 3 = some true ∧ isEqual badHeap true {} 2 2 3 = some false := by decide

/-- More options can make `is_equal` false: with `derived_matches` two dims which were declared the same are not equal, as `get_same_derived_base` does not
return the base but the dim itself. -/
theorem derived_matches_fails : isEqual badHeap true {} 3 4 5 = some true ∧ isEqual badHeap true { derived := true } 3 4 5 = some false := by decide

/-- The options widen the relation otherwise. -/
structure Opts.Le (o p : Opts) : Prop where
  ignoreFeature : o.ignoreFeature = true → p.ignoreFeature = true
  allowSameFeature : o.allowSameFeature = true → p.allowSameFeature = true
  allowSameSpatial : o.allowSameSpatial.getD o.allowSameFeature = true → p.allowSameSpatial.getD p.allowSameFeature = true
  treat : o.treatFeatureAsSpatial = p.treatFeatureAsSpatial
  broadcast : o.broadcast = true → p.broadcast = true
  unknownSpatial : o.unknownSpatial = true → p.unknownSpatial = true
  undefined : o.undefined = true → p.undefined = true
  derived : o.derived = p.derived
  allowOld : o.allowOld = true → p.allowOld = true

theorem bcast_mono {o p : Opts} (hl : o.Le p) {x y : DimRec} (h : bcast o x y = true) : bcast p x y = true := by
  unfold bcast at *
  rw [Bool.and_eq_true] at *
  exact ⟨hl.broadcast h.1, h.2⟩

theorem spatialMatches_mono {o p : Opts} (hl : o.Le p) {x y : DimRec} (h : spatialMatches o x y = true) : spatialMatches p x y = true := by
  unfold spatialMatches at *
  rw [Bool.or_eq_true, Bool.or_eq_true, Bool.and_eq_true, Bool.and_eq_true, Bool.and_eq_true, Bool.or_eq_true, Bool.and_eq_true] at *
  rcases h with (⟨h1, h2⟩ | ⟨h1, h2⟩) | ⟨h1, h2⟩
  · exact Or.inl (Or.inl ⟨hl.allowSameSpatial h1, h2.imp id (fun h => ⟨hl.broadcast h.1, h.2⟩)⟩)
  · exact Or.inl (Or.inr ⟨hl.unknownSpatial h1, h2⟩)
  · exact Or.inr ⟨hl.undefined h1, h2⟩

theorem isEqualKinds_true {simple : Bool} {o : Opts} {x y : DimRec} {kx ky : Option Kind} : isEqualKinds simple o x y kx ky = true ↔
    kx = ky ∧ (kx = some .batch ∨ ((simple = false ∨ o.allowOld = true ∨ (x.auto = true ∧ y.auto = true) ∨ bcast o x y = true) ∧
      ((kx = some .feature ∧ o.allowSameFeature = true) ∨ (kx = some .spatial ∧ spatialMatches o x y = true) ∨ (x.auto = true ∧ y.auto = true ∧ x.name = y.name)))) := by
  unfold isEqualKinds
  by_cases q1 : kx = ky
  · by_cases q2 : ky = some .batch
    · simp [q1, q2]
    · by_cases q3 : simple = true ∧ o.allowOld = false ∧ (x.auto = false ∨ y.auto = false) ∧ bcast o x y = false
      · rw [if_neg (not_not.mpr q1), if_neg (q1 ▸ q2), if_pos q3]
        obtain ⟨e1, e2, e3, e4⟩ := q3
        constructor
        · intro h; cases h
        · rintro ⟨_, h | ⟨h, _⟩⟩
          · exact (q2 (q1 ▸ h)).elim
          · rcases h with h | h | h | h
            · rw [e1] at h; cases h
            · rw [e2] at h; cases h
            · rcases e3 with e3 | e3
              · rw [e3] at h; cases h.1
              · rw [e3] at h; cases h.2
            · rw [e4] at h; cases h
      · have q3' : simple = false ∨ o.allowOld = true ∨ (x.auto = true ∧ y.auto = true) ∨ bcast o x y = true := by
          by_contra hc
          apply q3
          simp only [not_or, Bool.not_eq_false, Bool.not_eq_true, not_and] at hc
          obtain ⟨c1, c2, c3, c4⟩ := hc
          refine ⟨c1, c2, ?_, c4⟩
          cases hx : x.auto with
          | false => exact Or.inl rfl
          | true => exact Or.inr (c3 hx)
        rw [if_neg (not_not.mpr q1), if_neg (q1 ▸ q2), if_neg q3]
        by_cases q4 : kx = some .feature ∧ o.allowSameFeature = true
        · rw [if_pos q4]; simp [q1, q3', q1 ▸ q4]
        · rw [if_neg q4]
          by_cases q5 : kx = some .spatial ∧ spatialMatches o x y = true
          · rw [if_pos q5]; simp [q1, q3', q1 ▸ q5]
          · rw [if_neg q5, Bool.and_eq_true, Bool.and_eq_true, beq_iff_eq]
            constructor
            · rintro ⟨⟨h1, h2⟩, h3⟩
              exact ⟨q1, Or.inr ⟨q3', Or.inr (Or.inr ⟨h1, h2, h3⟩)⟩⟩
            · rintro ⟨_, h | ⟨_, h | h | h⟩⟩
              · exact (q2 (q1 ▸ h)).elim
              · exact (q4 h).elim
              · exact (q5 h).elim
              · exact ⟨⟨h.1, h.2.1⟩, h.2.2⟩
  · rw [if_pos q1]
    constructor
    · intro h; cases h
    · intro h; exact (q1 h.1).elim

theorem isEqualKinds_mono {simple : Bool} {o p : Opts} (hl : o.Le p) {x y : DimRec} {kx ky : Option Kind} (h : isEqualKinds simple o x y kx ky = true) :
    isEqualKinds simple p x y kx ky = true := by
  rw [isEqualKinds_true] at *
  obtain ⟨h1, h2⟩ := h
  refine ⟨h1, h2.imp id (fun h => ⟨?_, ?_⟩)⟩
  · exact h.1.imp id (Or.imp hl.allowOld (Or.imp id (bcast_mono hl)))
  · exact h.2.imp (fun h => ⟨h.1, hl.allowSameFeature h.2⟩) (Or.imp (fun h => ⟨h.1, spatialMatches_mono hl h.2⟩) id)

theorem isEqualRecs_mono {simple : Bool} {o p : Opts} (hl : o.Le p) {x y : DimRec} (h : isEqualRecs simple o x y = true) : isEqualRecs simple p x y = true := by
  unfold isEqualRecs at *
  by_cases h1 : x.kind = some .feature ∧ y.kind = some .feature ∧ p.ignoreFeature = true
  · rw [if_pos h1]
  · have h1' : ¬ (x.kind = some .feature ∧ y.kind = some .feature ∧ o.ignoreFeature = true) := fun e => h1 ⟨e.1, e.2.1, hl.ignoreFeature e.2.2⟩
    rw [if_neg h1'] at h
    rw [if_neg h1]
    by_cases h2 : x.size ≠ y.size ∧ bcast o x y = false
    · rw [if_pos h2] at h; cases h
    · have h2' : ¬ (x.size ≠ y.size ∧ bcast p x y = false) := by
        intro e
        apply h2
        refine ⟨e.1, ?_⟩
        cases hb : bcast o x y with
        | false => rfl
        | true => rw [bcast_mono hl hb] at e; cases e.2
      rw [if_neg h2] at h
      rw [if_neg h2', ← hl.treat]
      exact isEqualKinds_mono hl h

/-- C66: what is equal stays equal with more options (without `derived_matches` and `treat_feature_as_spatial`, which must be the same). -/
theorem isEqual_mono {h : Heap} {simple : Bool} {o p : Opts} (hl : o.Le p) {n a b : Nat} (he : isEqual h simple o n a b = some true) :
    isEqual h simple p n a b = some true := by
  unfold isEqual at *
  by_cases h1 : a = b
  · rw [if_pos h1]
  · rw [if_neg h1] at he ⊢
    by_cases h2 : (h a).special = true ∨ (h b).special = true
    · rw [if_pos h2] at he; cases he
    · rw [if_neg h2] at he ⊢
      have hc : ∀ x, compareBase h p n x = compareBase h o n x := by
        intro x; unfold compareBase; rw [hl.derived]
      rw [hc, hc]
      cases ha : compareBase h o n a with
      | none => rw [ha] at he; cases he
      | some ra =>
        cases hb : compareBase h o n b with
        | none => rw [ha, hb] at he; cases he
        | some rb =>
          rw [ha, hb] at he
          simp only [Option.bind_some, Option.some.injEq] at he ⊢
          by_cases h3 : ra = rb
          · rw [if_pos h3]
          · rw [if_neg h3] at he ⊢
            exact isEqualRecs_mono hl he

/-- C66: without simple equality `is_equal` is not transitive: 4 and 5 are the same dim, 5 has another kind. -/
theorem isEqual_trans_fails : isEqual badHeap false { allowSameFeature := true } 3 4 5 = some true ∧ isEqual badHeap false { allowSameFeature := true } 3 5 6 = some true ∧
    isEqual badHeap false { allowSameFeature := true } 3 4 6 = some false := by decide

/-- The documentation of `is_equal` (1310-1332) as condition on two dims which are not the same. `sp k`: the kind counts as spatial. -/
def EqualByOpts (simple : Bool) (o : Opts) (x y : DimRec) : Prop :=
  let sp := fun k : Option Kind => k = some .spatial ∨ (o.treatFeatureAsSpatial = true ∧ k ≠ some .batch)
  let one := o.broadcast = true ∧ ((x.size = some 1 ∧ x.auto = true) ∨ (y.size = some 1 ∧ y.auto = true))
  (o.ignoreFeature = true ∧ x.kind = some .feature ∧ y.kind = some .feature) ∨
  ((x.size = y.size ∨ one) ∧ (x.kind = y.kind ∨ (sp x.kind ∧ sp y.kind)) ∧
    (x.kind = some .batch ∨
      ((simple = true → o.allowOld = false → (x.auto = true ∧ y.auto = true) ∨ one) ∧
        ((x.kind = some .feature ∧ o.treatFeatureAsSpatial = false ∧ o.allowSameFeature = true) ∨
          (sp x.kind ∧ o.allowSameSpatial.getD o.allowSameFeature = true ∧ (x.size ≠ none ∨ (o.broadcast = true ∧ y.size = some 1))) ∨
          (sp x.kind ∧ o.unknownSpatial = true ∧ (x.hasDyn = false ∨ y.hasDyn = false)) ∨
          (sp x.kind ∧ o.undefined = true ∧ (x.undef = true ∨ y.undef = true)) ∨
          (x.auto = true ∧ y.auto = true ∧ x.name = y.name)))))

theorem bcast_true (o : Opts) (x y : DimRec) : bcast o x y = true ↔ o.broadcast = true ∧ ((x.size = some 1 ∧ x.auto = true) ∨ (y.size = some 1 ∧ y.auto = true)) := by
  simp [bcast]

theorem spatialMatches_true (o : Opts) (x y : DimRec) : spatialMatches o x y = true ↔
    (o.allowSameSpatial.getD o.allowSameFeature = true ∧ (x.size ≠ none ∨ (o.broadcast = true ∧ y.size = some 1))) ∨
    (o.unknownSpatial = true ∧ (x.hasDyn = false ∨ y.hasDyn = false)) ∨ (o.undefined = true ∧ (x.undef = true ∨ y.undef = true)) := by
  unfold spatialMatches
  cases hx : x.size <;> simp [or_assoc]

theorem asSpatial_spatial (t : Bool) (k : Option Kind) : asSpatial t k = some .spatial ↔ k = some .spatial ∨ (t = true ∧ k ≠ some .batch) := by
  cases t <;> rcases k with _ | k <;> try cases k
  all_goals simp [asSpatial]

theorem asSpatial_feature (t : Bool) (k : Option Kind) : asSpatial t k = some .feature ↔ k = some .feature ∧ t = false := by
  cases t <;> rcases k with _ | k <;> try cases k
  all_goals simp [asSpatial]

theorem asSpatial_batch (t : Bool) (k : Option Kind) : asSpatial t k = some .batch ↔ k = some .batch := by
  cases t <;> rcases k with _ | k <;> try cases k
  all_goals simp [asSpatial]

theorem asSpatial_eq (t : Bool) (k l : Option Kind) : asSpatial t k = asSpatial t l ↔ k = l ∨ ((k = some .spatial ∨ (t = true ∧ k ≠ some .batch)) ∧ (l = some .spatial ∨ (t = true ∧ l ≠ some .batch))) := by
  cases t <;> rcases k with _ | k <;> rcases l with _ | l <;> try cases k
  all_goals try cases l
  all_goals simp [asSpatial]

/-- C66: `is_equal` is what its documentation says, for all options: the same instance, or none is special and they have the same (derived) base or are
equal by the options. -/
theorem isEqual_spec {h : Heap} {simple : Bool} {o : Opts} {n a b ra rb : Nat} (ha : compareBase h o n a = some ra) (hb : compareBase h o n b = some rb) :
    isEqual h simple o n a b = some true ↔
      a = b ∨ ((h a).special = false ∧ (h b).special = false ∧ (ra = rb ∨ EqualByOpts simple o (h a) (h b))) := by
  have key : isEqualRecs simple o (h a) (h b) = true ↔ EqualByOpts simple o (h a) (h b) := by
    unfold isEqualRecs EqualByOpts
    simp only []
    rw [← bcast_true]
    generalize hx : h a = x
    generalize hy : h b = y
    by_cases h1 : x.kind = some .feature ∧ y.kind = some .feature ∧ o.ignoreFeature = true
    · rw [if_pos h1]; exact ⟨fun _ => Or.inl ⟨h1.2.2, h1.1, h1.2.1⟩, fun _ => rfl⟩
    · rw [if_neg h1]
      have h1' : ¬ (o.ignoreFeature = true ∧ x.kind = some .feature ∧ y.kind = some .feature) := fun e => h1 ⟨e.2.1, e.2.2, e.1⟩
      rw [or_iff_right h1']
      by_cases h2 : x.size ≠ y.size ∧ bcast o x y = false
      · rw [if_pos h2]
        constructor
        · intro e; cases e
        · rintro ⟨e | e, _⟩
          · exact (h2.1 e).elim
          · rw [h2.2] at e; cases e
      · rw [if_neg h2, isEqualKinds_true, asSpatial_eq, asSpatial_batch, asSpatial_feature, asSpatial_spatial, spatialMatches_true]
        have h2' : x.size = y.size ∨ bcast o x y = true := by
          by_cases e : x.size = y.size
          · exact Or.inl e
          · refine Or.inr ?_
            cases hc : bcast o x y with
            | true => rfl
            | false => exact (h2 ⟨e, hc⟩).elim
        rw [and_iff_right h2']
        have h3 : (simple = false ∨ o.allowOld = true ∨ (x.auto = true ∧ y.auto = true) ∨ bcast o x y = true) ↔
            (simple = true → o.allowOld = false → (x.auto = true ∧ y.auto = true) ∨ bcast o x y = true) := by
          cases simple <;> cases o.allowOld <;> simp
        rw [h3]
        simp only [and_or_left, or_assoc, and_assoc]
  unfold isEqual
  by_cases h1 : a = b
  · rw [if_pos h1]; simp [h1]
  · rw [if_neg h1, or_iff_right h1]
    by_cases h2 : (h a).special = true ∨ (h b).special = true
    · rw [if_pos h2]
      constructor
      · intro e; cases e
      · rintro ⟨e1, e2, _⟩
        rw [e1, e2] at h2
        rcases h2 with h2 | h2 <;> cases h2
    · rw [if_neg h2, ha, hb]
      simp only [not_or, Bool.not_eq_true] at h2
      rw [and_iff_right h2.1, and_iff_right h2.2]
      simp only [Option.bind_some, Option.some.injEq]
      by_cases h3 : ra = rb
      · rw [if_pos h3]; simp [h3]
      · rw [if_neg h3, key, or_iff_right h3]

end Verif.DimEq
