import Verif.DimEq.Props
/-
C67: `declare_same_as` merges exactly two classes, for every outcome of its conditions on which one to change.
-/
namespace Verif.DimEq

/-- The loops for the base end, for all dims (no cycle in `same_as`). -/
def Ends (h : Heap) : Prop := ∀ i, ∃ r, Base h i r

/-- Two dims were declared to be the same: same base. -/
def Same (h : Heap) (x y : Nat) : Prop := ∃ r, Base h x r ∧ Base h y r

/-- What one call does, for the bases `ra` and `rb`. -/
def Merged (h h' : Heap) (ra rb r : Nat) : Prop :=
  (∀ x rx, Base h x rx → Base h' x (if rx = ra ∨ rx = rb then r else rx)) ∧
  (∀ i, (h' i).name = (h i).name ∧ (h' i).kind = (h i).kind ∧ (h' i).special = (h i).special) ∧
  ((h' r).auto = (h ra).auto ∨ (h' r).auto = (h rb).auto) ∧
  (∀ i, (h i).sameAs = none → i ≠ ra → i ≠ rb → (h' i).auto = (h i).auto)

theorem linked_base {h h1 : Heap} {a ra rb : Nat} (ha : Base h a ra) (hb : (h rb).sameAs = none) (hne : ra ≠ rb) (hl : Linked h a ra rb h1) {x rx : Nat}
    (hx : Base h x rx) : Base h1 x rx ∨ (rx = ra ∧ Base h1 x rb) := by
  have hab : rb ≠ a := by
    intro e
    subst e
    exact hne (ha.unique (Base.of_root hb))
  have hrb : Base h1 rb rb := Base.of_root (by rw [(hl rb).2.2.2.1, if_neg hab, hb])
  have hroot := hx.root
  refine Base.rec' (h := h) (r := rx) (P := fun x => Base h1 x rx ∨ (rx = ra ∧ Base h1 x rb)) ?_ ?_ hx
  · by_cases e : rx = a
    · right
      refine ⟨?_, ?_⟩
      · subst e; exact (Base.of_root hroot).unique ha
      · exact Base.of_next (by rw [(hl rx).2.2.2.1, if_pos e]) hrb
    · left
      exact Base.of_root (by rw [(hl rx).2.2.2.1, if_neg e, hroot])
  · intro i j hij hj ih
    by_cases e : i = a
    · right
      refine ⟨?_, ?_⟩
      · subst e; exact (Base.of_next hij hj).unique ha
      · exact Base.of_next (by rw [(hl i).2.2.2.1, if_pos e]) hrb
    · have hi : (h1 i).sameAs = some j := by rw [(hl i).2.2.2.1, if_neg e, hij]
      rcases ih with ih | ⟨e1, ih⟩
      · exact Or.inl (Base.of_next hi ih)
      · exact Or.inr ⟨e1, Base.of_next hi ih⟩

theorem decl_merged {h h' : Heap} {a b : Nat} (hd : Decl h a b h') : ∀ {ra rb : Nat}, Base h a ra → Base h b rb → ∃ r, (r = ra ∨ r = rb) ∧ Merged h h' ra rb r := by
  induction hd with
  | self h a =>
    intro ra rb ha hb
    have e := ha.unique hb
    subst e
    refine ⟨ra, Or.inl rfl, ?_, fun i => ⟨rfl, rfl, rfl⟩, Or.inl rfl, fun i _ _ _ => rfl⟩
    intro x rx hx
    by_cases e : rx = ra
    · rw [if_pos (Or.inl e), ← e]; exact hx
    · rw [if_neg (by tauto)]; exact hx
  | already h a b rb hb ha =>
    intro ra rb' ha' hb'
    have e := hb.unique hb'
    subst e
    have e : ra = rb := by
      rcases ha with ha | ha | ha
      · subst ha; exact ha'.unique (Base.of_root hb.root)
      · exact ha'.unique (Base.of_next ha (Base.of_root hb.root))
      · exact ha'.unique ha
    subst e
    refine ⟨ra, Or.inl rfl, ?_, fun i => ⟨rfl, rfl, rfl⟩, Or.inl rfl, fun i _ _ _ => rfl⟩
    intro x rx hx
    by_cases e : rx = ra
    · rw [if_pos (Or.inl e), ← e]; exact hx
    · rw [if_neg (by tauto)]; exact hx
  | swap h a b h' _ ih =>
    intro ra rb ha hb
    obtain ⟨r, hr, h1, h2, h3, h4⟩ := ih hb ha
    refine ⟨r, hr.symm, ?_, h2, h3.symm, fun i hi e1 e2 => h4 i hi e2 e1⟩
    intro x rx hx
    have := h1 x rx hx
    by_cases e : rx = ra ∨ rx = rb
    · rw [if_pos e]; rwa [if_pos e.symm] at this
    · have e' : ¬ (rx = rb ∨ rx = ra) := fun h => e h.symm
      rw [if_neg e]; rwa [if_neg e'] at this
  | link h a b ra rb h' ha hb hne hself hl =>
    intro ra' rb' ha' hb'
    have e1 := ha.unique ha'
    have e2 := hb.unique hb'
    subst e1 e2 hself
    refine ⟨rb, Or.inr rfl, ?_, fun i => ⟨(hl i).1, (hl i).2.1, (hl i).2.2.1⟩, Or.inr ?_, ?_⟩
    · intro x rx hx
      have hroot : (h ra).sameAs = none := ha.root
      rcases linked_base ha hb.root hne hl hx with h1 | ⟨e, h1⟩
      · by_cases e : rx = ra
        · exfalso
          have := h1.root
          rw [(hl rx).2.2.2.1, if_pos e] at this
          cases this
        · by_cases e' : rx = rb
          · rw [if_pos (Or.inr e')]; rwa [e'] at h1
          · rw [if_neg (by tauto)]; exact h1
      · rw [if_pos (Or.inl e)]; exact h1
    · rw [(hl rb).2.2.2.2, if_neg (by rintro (e | e) <;> exact hne e.symm)]
    · intro i _ e1 e2
      rw [(hl i).2.2.2.2, if_neg (by tauto)]
  | linkBase h a b ra rb h1 h' ha hb hne hself hl hrec ih =>
    intro ra' rb' ha' hb'
    have e1 := ha.unique ha'
    have e2 := hb.unique hb'
    subst e1 e2
    have hrb : rb ≠ a := by
      intro e
      have := ha.unique (e ▸ Base.of_root hb.root)
      exact hself (this.trans rfl)
    have b1 : Base h1 ra ra := Base.of_root (by rw [(hl ra).2.2.2.1, if_neg hself, ha.root])
    have b2 : Base h1 rb rb := Base.of_root (by rw [(hl rb).2.2.2.1, if_neg hrb, hb.root])
    obtain ⟨r, hr, m1, m2, m3, m4⟩ := ih b1 b2
    have auto_rb : (h1 rb).auto = (h rb).auto := by
      rw [(hl rb).2.2.2.2, if_neg (by rintro (e | e); exact hrb e; exact hne e.symm)]
    have auto_ra : (h1 ra).auto = (h rb).auto := by rw [(hl ra).2.2.2.2, if_pos (Or.inr rfl)]
    refine ⟨r, hr, ?_, ?_, ?_, ?_⟩
    · intro x rx hx
      rcases linked_base ha hb.root hne hl hx with h1 | ⟨e, h1⟩
      · exact m1 x rx h1
      · have := m1 x rb h1
        rw [if_pos (Or.inr rfl)] at this
        rw [if_pos (Or.inl e)]; exact this
    · intro i
      exact ⟨(m2 i).1.trans (hl i).1, (m2 i).2.1.trans (hl i).2.1, (m2 i).2.2.trans (hl i).2.2.1⟩
    · right
      rcases m3 with m3 | m3
      · rw [m3, auto_ra]
      · rw [m3, auto_rb]
    · intro i hi e1 e2
      have hia : i ≠ a := by
        intro e
        subst e
        exact e1 ((Base.of_root hi).unique ha)
      have : (h1 i).sameAs = none := by rw [(hl i).2.2.2.1, if_neg hia, hi]
      rw [m4 i this e1 e2, (hl i).2.2.2.2, if_neg (by tauto)]

/-- C67: after the call there is no cycle. -/
theorem decl_ends {h h' : Heap} {a b : Nat} (hd : Decl h a b h') (he : Ends h) : Ends h' := by
  obtain ⟨ra, ha⟩ := he a
  obtain ⟨rb, hb⟩ := he b
  obtain ⟨r, _, m1, _⟩ := decl_merged hd ha hb
  intro i
  obtain ⟨ri, hi⟩ := he i
  exact ⟨_, m1 i ri hi⟩

/-- C67: two dims are the same afterwards iff they were before or belong to the two classes that are merged. -/
theorem decl_same {h h' : Heap} {a b : Nat} (hd : Decl h a b h') (he : Ends h) (x y : Nat) :
    Same h' x y ↔ Same h x y ∨ ((Same h x a ∨ Same h x b) ∧ (Same h y a ∨ Same h y b)) := by
  obtain ⟨ra, ha⟩ := he a
  obtain ⟨rb, hb⟩ := he b
  obtain ⟨r, hr, m1, _⟩ := decl_merged hd ha hb
  obtain ⟨rx, hx⟩ := he x
  obtain ⟨ry, hy⟩ := he y
  have sx : ∀ {z rz : Nat}, Base h z rz → ((Same h z a ∨ Same h z b) ↔ (rz = ra ∨ rz = rb)) := by
    intro z rz hz
    constructor
    · rintro (⟨q, q1, q2⟩ | ⟨q, q1, q2⟩)
      · exact Or.inl ((hz.unique q1).trans (q2.unique ha))
      · exact Or.inr ((hz.unique q1).trans (q2.unique hb))
    · rintro (e | e)
      · exact Or.inl ⟨ra, e ▸ hz, ha⟩
      · exact Or.inr ⟨rb, e ▸ hz, hb⟩
  have sxy : Same h x y ↔ rx = ry := by
    constructor
    · rintro ⟨q, q1, q2⟩; exact (hx.unique q1).trans (q2.unique hy)
    · intro e; exact ⟨ry, e ▸ hx, hy⟩
  have sxy' : Same h' x y ↔ (if rx = ra ∨ rx = rb then r else rx) = (if ry = ra ∨ ry = rb then r else ry) := by
    constructor
    · rintro ⟨q, q1, q2⟩; exact ((m1 x rx hx).unique q1).trans (q2.unique (m1 y ry hy))
    · intro e; exact ⟨_, e ▸ m1 x rx hx, m1 y ry hy⟩
  rw [sxy', sxy, sx hx, sx hy]
  by_cases c1 : rx = ra ∨ rx = rb
  · rw [if_pos c1]
    by_cases c2 : ry = ra ∨ ry = rb
    · rw [if_pos c2]
      exact ⟨fun _ => Or.inr ⟨c1, c2⟩, fun _ => rfl⟩
    · rw [if_neg c2]
      constructor
      · intro e; exact (c2 (e ▸ hr)).elim
      · rintro (e | e)
        · exact (c2 (e ▸ c1)).elim
        · exact (c2 e.2).elim
  · rw [if_neg c1]
    by_cases c2 : ry = ra ∨ ry = rb
    · rw [if_pos c2]
      constructor
      · intro e; exact (c1 (e ▸ hr)).elim
      · rintro (e | e)
        · exact (c1 (e ▸ c2)).elim
        · exact (c1 e.1).elim
    · rw [if_neg c2]
      exact ⟨Or.inl, fun e => e.elim id (fun e => (c1 e.1).elim)⟩

/-- C67: afterwards the two are `==`, and have the same hash. -/
theorem decl_eq {h h' : Heap} {a b : Nat} (hd : Decl h a b h') (he : Ends h) : ∃ n, eqSimple h' n a b = some true ∧ hashDim h' n a = hashDim h' n b ∧ (hashDim h' n a).isSome := by
  obtain ⟨r, ⟨n, hn⟩, ⟨m, hm⟩⟩ := (decl_same hd he a b).2 (Or.inr ⟨Or.inl (he a |>.elim fun r hr => ⟨r, hr, hr⟩), Or.inr (he b |>.elim fun r hr => ⟨r, hr, hr⟩)⟩)
  have h1 := getBase_mono m hn
  have h2 := getBase_mono n hm
  rw [Nat.add_comm m n] at h2
  refine ⟨n + m, ?_, ?_, ?_⟩
  · rw [eqBases_of_eqSimple h1 h2]; simp [eqBases]
  · unfold hashDim; rw [h1, h2]
  · unfold hashDim; rw [h1]; rfl

/-- C67: dims outside of the two classes keep their base, and two such are `==` as before. -/
theorem decl_others {h h' : Heap} {a b : Nat} (hd : Decl h a b h') (he : Ends h) {x y : Nat} (xa : ¬ Same h x a) (xb : ¬ Same h x b) (ya : ¬ Same h y a) (yb : ¬ Same h y b) :
    ∃ n v, eqSimple h n x y = some v ∧ eqSimple h' n x y = some v := by
  obtain ⟨ra, ha⟩ := he a
  obtain ⟨rb, hb⟩ := he b
  obtain ⟨r, hr, m1, m2, m3, m4⟩ := decl_merged hd ha hb
  obtain ⟨rx, hx⟩ := he x
  obtain ⟨ry, hy⟩ := he y
  have nx1 : rx ≠ ra := fun e => xa ⟨ra, e ▸ hx, ha⟩
  have nx2 : rx ≠ rb := fun e => xb ⟨rb, e ▸ hx, hb⟩
  have ny1 : ry ≠ ra := fun e => ya ⟨ra, e ▸ hy, ha⟩
  have ny2 : ry ≠ rb := fun e => yb ⟨rb, e ▸ hy, hb⟩
  have hx' := m1 x rx hx
  have hy' := m1 y ry hy
  rw [if_neg (by tauto)] at hx' hy'
  have ax := m4 rx hx.root nx1 nx2
  have ay := m4 ry hy.root ny1 ny2
  obtain ⟨n1, e1⟩ := hx
  obtain ⟨n2, e2⟩ := hy
  obtain ⟨n3, e3⟩ := hx'
  obtain ⟨n4, e4⟩ := hy'
  have f1 := getBase_mono (n2 + n3 + n4) e1
  have f2 := getBase_mono (n1 + n3 + n4) e2
  have f3 := getBase_mono (n1 + n2 + n4) e3
  have f4 := getBase_mono (n1 + n2 + n3) e4
  rw [show n2 + (n1 + n3 + n4) = n1 + (n2 + n3 + n4) by omega] at f2
  rw [show n3 + (n1 + n2 + n4) = n1 + (n2 + n3 + n4) by omega] at f3
  rw [show n4 + (n1 + n2 + n3) = n1 + (n2 + n3 + n4) by omega] at f4
  refine ⟨n1 + (n2 + n3 + n4), eqBases h rx ry, eqBases_of_eqSimple f1 f2, ?_⟩
  rw [eqBases_of_eqSimple f3 f4]
  congr 1
  rw [Bool.eq_iff_iff, eqBases_true, eqBases_true, ax, ay, (m2 rx).1, (m2 ry).1, (m2 rx).2.1, (m2 ry).2.1]

/-! A history of calls. -/

/-- Any sequence of calls. -/
inductive Calls : Heap → List (Nat × Nat) → Heap → Prop where
  | nil (h : Heap) : Calls h [] h
  | cons (h h1 h' : Heap) (a b : Nat) (l : List (Nat × Nat)) (hd : Decl h a b h1) (hl : Calls h1 l h') : Calls h ((a, b) :: l) h'

/-- The smallest equivalence with the declared pairs. -/
inductive Closure (l : List (Nat × Nat)) : Nat → Nat → Prop where
  | pair (a b : Nat) (h : (a, b) ∈ l) : Closure l a b
  | refl (a : Nat) : Closure l a a
  | symm (a b : Nat) (h : Closure l a b) : Closure l b a
  | trans (a b c : Nat) (h1 : Closure l a b) (h2 : Closure l b c) : Closure l a c

theorem Same.trans {h : Heap} {x y z : Nat} (h1 : Same h x y) (h2 : Same h y z) : Same h x z := by
  obtain ⟨r, a1, a2⟩ := h1
  obtain ⟨s, b1, b2⟩ := h2
  have e := a2.unique b1
  subst e
  exact ⟨r, a1, b2⟩

theorem Same.symm {h : Heap} {x y : Nat} (h1 : Same h x y) : Same h y x := by
  obtain ⟨r, a1, a2⟩ := h1
  exact ⟨r, a2, a1⟩

theorem Ends.refl {h : Heap} (he : Ends h) (x : Nat) : Same h x x := (he x).elim fun r hr => ⟨r, hr, hr⟩

theorem calls_ends {h h' : Heap} {l : List (Nat × Nat)} (hc : Calls h l h') (he : Ends h) : Ends h' := by
  induction hc with
  | nil => exact he
  | cons h h1 h' a b l hd _ ih => exact ih (decl_ends hd he)

theorem calls_same_of {h h' : Heap} {l : List (Nat × Nat)} (hc : Calls h l h') (he : Ends h) :
    (∀ x y, Same h x y → Same h' x y) ∧ ∀ p ∈ l, Same h' p.1 p.2 := by
  induction hc with
  | nil => exact ⟨fun _ _ h => h, fun p hp => by cases hp⟩
  | cons h h1 h' a b l hd _ ih =>
    obtain ⟨i1, i2⟩ := ih (decl_ends hd he)
    refine ⟨fun x y hxy => i1 x y ((decl_same hd he x y).2 (Or.inl hxy)), ?_⟩
    intro p hp
    rcases List.mem_cons.1 hp with e | hp
    · subst e
      exact i1 a b ((decl_same hd he a b).2 (Or.inr ⟨Or.inl (he.refl a), Or.inr (he.refl b)⟩))
    · exact i2 p hp

/-- C67: after any sequence of calls, in whichever direction each is done, two dims are the same iff this follows from the declared pairs. -/
theorem calls_same {h h' : Heap} {l : List (Nat × Nat)} (hc : Calls h l h') (he : Ends h) (hfresh : ∀ x y, Same h x y → x = y) (x y : Nat) :
    Same h' x y ↔ Closure l x y := by
  constructor
  · have gen : ∀ (R : Nat → Nat → Prop), (∀ x, R x x) → (∀ x y, R x y → R y x) → (∀ x y z, R x y → R y z → R x z) → (∀ x y, Same h x y → R x y) →
        (∀ p ∈ l, R p.1 p.2) → ∀ x y, Same h' x y → R x y := by
      intro R r1 r2 r3
      clear hfresh
      induction hc with
      | nil => intro h1 _; exact h1
      | cons h h1 h' a b l hd _ ih =>
        intro g1 g2
        refine ih (decl_ends hd he) ?_ (fun p hp => g2 p (List.mem_cons_of_mem _ hp))
        intro u v huv
        have hab : R a b := g2 (a, b) List.mem_cons_self
        have toa : ∀ z, (Same h z a ∨ Same h z b) → R z a := by
          rintro z (hz | hz)
          · exact g1 z a hz
          · exact r3 z b a (g1 z b hz) (r2 a b hab)
        rcases (decl_same hd he u v).1 huv with e | ⟨e1, e2⟩
        · exact g1 u v e
        · exact r3 u a v (toa u e1) (r2 v a (toa v e2))
    exact gen (Closure l) Closure.refl Closure.symm Closure.trans (fun x y e => (hfresh x y e) ▸ Closure.refl x) (fun p hp => Closure.pair p.1 p.2 hp) x y
  · intro hcl
    have hends := calls_ends hc he
    have hpairs := (calls_same_of hc he).2
    induction hcl with
    | pair a b hp => exact hpairs (a, b) hp
    | refl a => exact hends.refl a
    | symm a b _ ih => exact ih.symm
    | trans a b c _ _ i1 i2 => exact i1.trans i2

/-- C67: but the hash changes: a dim used as key before is not found after. Dim 3 of `exHeap` (auto-generated) is declared the same as the user dim 6. -/
theorem decl_hash_changes : ∃ h', Decl exHeap 3 6 h' ∧ hashDim exHeap 2 3 = some (.fields (some .feature) (some 5) (some "out:channel")) ∧ hashDim h' 2 3 = some (.byId 6) ∧
    eqSimple exHeap 2 3 4 = some true ∧ eqSimple h' 2 3 4 = some false := by
  refine ⟨fun i => if i = 3 then { exHeap 3 with sameAs := some 6, auto := false } else exHeap i, ?_, by decide, by decide, by decide, by decide⟩
  refine Decl.link exHeap 3 6 3 6 _ ⟨1, rfl⟩ ⟨1, rfl⟩ (by decide) rfl ?_
  intro i
  by_cases e : i = 3
  · subst e; exact ⟨rfl, rfl, rfl, rfl, rfl⟩
  · simp only [if_neg e, or_self, and_self]

theorem exHeap_ends : Ends exHeap := by
  refine exHeap_cases (P := fun i => ∃ r, Base exHeap i r) ⟨0, 1, rfl⟩ ⟨1, 1, rfl⟩ ⟨1, 2, rfl⟩ ⟨3, 1, rfl⟩ ⟨4, 1, rfl⟩ ⟨5, 1, rfl⟩ ⟨6, 1, rfl⟩ ?_
  intro i hi
  exact ⟨i, 1, getBase_root (by rw [exHeap_big hi]) 0⟩

/-- The case with the recursive call for the base: dim 2 (base 1) is declared the same as 6, then dim 1. -/
example : ∃ h', Decl exHeap 2 6 h' ∧ getBase h' 2 1 = some 6 := by
  refine ⟨fun i => if i = 2 then { exHeap 2 with sameAs := some 6, auto := false } else if i = 1 then { exHeap 1 with sameAs := some 6, auto := false } else exHeap i, ?_, rfl⟩
  refine Decl.linkBase exHeap 2 6 1 6 (fun i => if i = 2 then { exHeap 2 with sameAs := some 6, auto := false } else exHeap i) _
    ⟨2, rfl⟩ ⟨1, rfl⟩ (by decide) (by decide) ?_ ?_
  · intro i
    by_cases e : i = 2
    · subst e; exact ⟨rfl, rfl, rfl, rfl, rfl⟩
    · by_cases e1 : i = 1
      · subst e1; exact ⟨rfl, rfl, rfl, rfl, rfl⟩
      · simp only [if_neg e, if_neg e1, e, e1, or_self, and_self, if_false]
  · refine Decl.link _ 1 6 1 6 _ ⟨1, rfl⟩ ⟨1, rfl⟩ (by decide) rfl ?_
    intro i
    by_cases e : i = 2
    · subst e; exact ⟨rfl, rfl, rfl, rfl, rfl⟩
    · by_cases e1 : i = 1
      · subst e1; exact ⟨rfl, rfl, rfl, rfl, rfl⟩
      · simp only [if_neg e, if_neg e1, or_self, and_self]

end Verif.DimEq
