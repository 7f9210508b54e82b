import Verif.DimMath.Lemmas
namespace Verif.DimMath
open Verif.Py

variable {q : Prop} {P : Params} {env : Nat → Int}

/-- The sign. -/
def sgn (sub : Bool) (x : Int) : Int := if sub then -x else x

structure AddSpec (q : Prop) (P : Params) (env : Nat → Int) (fuel : Nat) : Prop where
  lin : ∀ (other : D) (sub right : Bool) (ts r : List (List D)), linAdd P fuel other sub right ts = .ok r → ValidW q env other → VL q env ts →
    VL q env r ∧ lv env r = lv env ts + sgn sub (val env other)
  lin1 : ∀ (term neg : List D) (right : Bool) (ts r : List (List D)), linAdd1 P fuel term neg right ts = .ok r → VM q env term →
    VL q env ts → mv env neg = - mv env term → VL q env r ∧ lv env r = lv env ts + mv env term
  merged : ∀ (right : Bool) (a b r : D), addMerged P fuel right a b = .ok r → ValidW q env a → ValidW q env b →
    ValidW q env r ∧ val env r = val env a + val env b
  add : ∀ (a b r : D), dAdd P fuel a b = .ok r → ValidW q env a → ValidW q env b → ValidW q env r ∧ val env r = val env a + val env b
  radd : ∀ (a b r : D), dRadd P fuel a b = .ok r → ValidW q env a → ValidW q env b → ValidW q env r ∧ val env r = val env b + val env a

theorem linAddLeaf_spec (hs : SoundW q P env) {fuel : Nat} (ih : AddSpec q P env fuel) {other : D} {sub right : Bool} {ts r : List (List D)}
    (h : linAdd1 P fuel (if sub then multNegative P (multFromDim other) else multFromDim other)
      (if sub then multFromDim other else multNegative P (multFromDim other)) right ts = .ok r)
    (ho : ValidW q env other) (ht : VL q env ts) : VL q env r ∧ lv env r = lv env ts + sgn sub (val env other) := by
  obtain ⟨h1, h2⟩ := multFromDim_spec ho
  obtain ⟨h3, h4⟩ := multNegative_spec hs h1
  cases sub with
  | true =>
    simp only [if_true] at h
    obtain ⟨h5, h6⟩ := ih.lin1 _ _ _ _ _ h h3 ht (by rw [h4]; ring)
    exact ⟨h5, by rw [h6, h4, h2]; rfl⟩
  | false =>
    simp only [Bool.false_eq_true, if_false] at h
    obtain ⟨h5, h6⟩ := ih.lin1 _ _ _ _ _ h h1 ht h4
    exact ⟨h5, by rw [h6, h2]; rfl⟩

theorem sgn_add (sub : Bool) (x y : Int) : sgn sub (x + y) = sgn sub x + sgn sub y := by
  cases sub <;> simp [sgn]; ring

theorem sameLast_spec {m t : List D} {x l : D} (h : sameLast P m t = some (x, l)) :
    m.getLast? = some x ∧ t.getLast? = some l ∧ P.eq x l = true := by
  unfold sameLast at h
  split at h
  · rename_i a b h1 h2
    split at h
    · rename_i he
      injection h with h
      injection h with h3 h4
      subst h3 h4
      exact ⟨h1, h2, he⟩
    · cases h
  · cases h

theorem mv_dropLast {t : List D} {l : D} (h : t.getLast? = some l) : mv env t = mv env t.dropLast * val env l := by
  conv => lhs; rw [← List.dropLast_append_getLast? l h]
  simp

theorem VM_dropLast {t : List D} (h : VM q env t) : VM q env t.dropLast := fun d hd => h d ((List.dropLast_sublist t).subset hd)

theorem addSpec (hs : SoundW q P env) : ∀ fuel, AddSpec q P env fuel
  | 0 => by
    refine ⟨?_, ?_, ?_, ?_, ?_⟩
    · intro other sub right ts r h; simp only [linAdd] at h; cases h
    · intro term neg right ts r h; simp only [linAdd1] at h; cases h
    · intro right a b r h; simp only [addMerged] at h; cases h
    · intro a b r h; simp only [dAdd] at h; cases h
    · intro a b r h; simp only [dRadd] at h; cases h
  | fuel + 1 => by
    have ih := addSpec hs fuel
    refine ⟨?_, ?_, ?_, ?_, ?_⟩
    · intro other sub right ts r h ho ht
      cases other with
      | add a b =>
        simp only [linAdd] at h
        split at h
        · simp only [bind, Except.bind] at h
          split at h
          · cases h
          · rename_i t1 h1
            obtain ⟨e1, e2⟩ := ih.lin _ _ _ _ _ h1 ho.1 ht
            obtain ⟨e3, e4⟩ := ih.lin _ _ _ _ _ h ho.2 e1
            exact ⟨e3, by rw [e4, e2]; simp only [val, sgn_add]; ring⟩
        · simp only [bind, Except.bind] at h
          split at h
          · cases h
          · rename_i t1 h1
            obtain ⟨e1, e2⟩ := ih.lin _ _ _ _ _ h1 ho.2 ht
            obtain ⟨e3, e4⟩ := ih.lin _ _ _ _ _ h ho.1 e1
            exact ⟨e3, by rw [e4, e2]; simp only [val, sgn_add]; ring⟩
      | const v =>
        by_cases hv : v = 0
        · subst hv
          simp only [linAdd] at h
          injection h with h
          subst h
          exact ⟨ht, by cases sub <;> simp [val, sgn]⟩
        · have : linAdd P (fuel + 1) (.const v) sub right ts = linAdd1 P fuel
              (if sub then multNegative P (multFromDim (.const v)) else multFromDim (.const v))
              (if sub then multFromDim (.const v) else multNegative P (multFromDim (.const v))) right ts := by
            rw [linAdd]
            · intro h; exact hv (by injection h)
            · intro a b h; cases h
          rw [this] at h
          exact linAddLeaf_spec hs ih h ho ht
      | base i d => exact linAddLeaf_spec hs ih h ho ht
      | mul a b => exact linAddLeaf_spec hs ih h ho ht
      | div k x a b => exact linAddLeaf_spec hs ih h ho ht
    · intro term neg right ts r h hterm ht hneg
      simp only [linAdd1] at h
      split at h
      · injection h with h
        subst h
        exact ⟨VL_push ht hterm, lv_push _ _⟩
      · rename_i m hm
        have hmv := ht m (mem_recent hm)
        have hlr := lv_recent (env := env) hm
        split at h
        · rename_i he
          injection h with h
          subst h
          refine ⟨VL_pop ht, ?_⟩
          rw [hlr, eqList_spec hs _ _ he, hneg]
          ring
        · split at h
          · split at h
            · rename_i x y hx hy
              injection h with h
              subst h
              obtain ⟨c1, c2⟩ := multFromDim_spec (env := env) (d := .const (x + y)) trivial
              refine ⟨VL_push (VL_pop ht) c1, ?_⟩
              rw [lv_push, c2, hlr, multDimension_spec m hx, multDimension_spec term hy]
              simp only [val]
              ring
            · cases h
          · split at h
            · rename_i x l hl
              obtain ⟨l1, l2, l3⟩ := sameLast_spec hl
              simp only [bind, Except.bind] at h
              split at h
              · cases h
              · rename_i s hsum
                injection h with h
                subst h
                obtain ⟨f1, f2⟩ := fromFactors_spec hs (VM_dropLast hmv)
                obtain ⟨f3, f4⟩ := fromFactors_spec hs (VM_dropLast hterm)
                obtain ⟨g1, g2⟩ := multAsDim_spec hs f1
                obtain ⟨g3, g4⟩ := multAsDim_spec hs f3
                obtain ⟨s1, s2⟩ := ih.merged _ _ _ _ hsum g1 g3
                obtain ⟨m1, m2⟩ := multFromDim_spec s1
                obtain ⟨n1, n2⟩ := multMul_spec hs true l (hterm l (List.mem_of_getLast? l2)) m1
                refine ⟨VL_push (VL_pop ht) n1, ?_⟩
                rw [lv_push, n2, m2, s2, g2, g4, f2, f4, hlr, mv_dropLast (env := env) l1, mv_dropLast (env := env) l2, hs.eq _ _ l3]
                ring
            · injection h with h
              subst h
              exact ⟨VL_push ht hterm, lv_push _ _⟩
    · intro right a b r h ha hb
      simp only [addMerged] at h
      split at h
      · split at h
        · have := ih.radd _ _ _ h hb ha; exact this
        · have := ih.add _ _ _ h hb ha; exact ⟨this.1, by rw [this.2]; ring⟩
      · split at h
        · split at h
          · exact ih.add _ _ _ h ha hb
          · have := ih.radd _ _ _ h ha hb; exact ⟨this.1, by rw [this.2]; ring⟩
        · split at h
          · exact ih.add _ _ _ h ha hb
          · have := ih.add _ _ _ h hb ha; exact ⟨this.1, by rw [this.2]; ring⟩
    · intro a b r h ha hb
      simp only [dAdd] at h
      split at h
      · rename_i c hc
        injection h with h
        subst h
        exact hs.cache _ _ _ _ hc ha hb trivial
      · simp only [bind, Except.bind] at h
        split at h
        · cases h
        · rename_i t1 h1
          split at h
          · cases h
          · rename_i t2 h2
            injection h with h
            subst h
            obtain ⟨e1, e2⟩ := ih.lin _ _ _ _ _ h1 ha VL_nil
            obtain ⟨e3, e4⟩ := ih.lin _ _ _ _ _ h2 hb e1
            obtain ⟨e5, e6⟩ := linAsDim_spec hs e3
            exact ⟨e5, by rw [e6, e4, e2]; simp [sgn]⟩
    · intro a b r h ha hb
      simp only [dRadd] at h
      split at h
      · rename_i c hc
        injection h with h
        subst h
        exact hs.cache _ _ _ _ hc ha hb trivial
      · simp only [bind, Except.bind] at h
        split at h
        · cases h
        · rename_i t1 h1
          split at h
          · cases h
          · rename_i t2 h2
            injection h with h
            subst h
            obtain ⟨e1, e2⟩ := ih.lin _ _ _ _ _ h1 ha VL_nil
            obtain ⟨e3, e4⟩ := ih.lin _ _ _ _ _ h2 hb e1
            obtain ⟨e5, e6⟩ := linAsDim_spec hs e3
            exact ⟨e5, by rw [e6, e4, e2]; simp [sgn]; ring⟩

theorem linFromDim_spec (hs : SoundW q P env) {fuel : Nat} {d : D} {ts : List (List D)} (h : linFromDim P fuel d = .ok ts)
    (hd : ValidW q env d) : VL q env ts ∧ lv env ts = val env d := by
  obtain ⟨h1, h2⟩ := (addSpec hs fuel).lin _ _ _ _ _ h hd VL_nil
  exact ⟨h1, by rw [h2]; simp [sgn]⟩

/-! ### Multiplication -/

theorem mapMul_spec (hs : SoundW q P env) (right : Bool) {other : D} (ho : ValidW q env other) : ∀ (ts : List (List D)), VL q env ts →
    VL q env (ts.map (multMul P right other)) ∧ lv env (ts.map (multMul P right other)) = lv env ts * val env other
  | [], _ => ⟨VL_nil, by simp⟩
  | t :: ts, h => by
    rw [VL_cons] at h
    obtain ⟨h1, h2⟩ := multMul_spec hs right other ho h.1
    obtain ⟨h3, h4⟩ := mapMul_spec hs right ho ts h.2
    exact ⟨VL_cons.2 ⟨h1, h3⟩, by rw [List.map_cons, lv_cons, lv_cons, h2, h4]; ring⟩

theorem linMul_spec (hs : SoundW q P env) {fuel : Nat} {other : D} {right : Bool} {ts r : List (List D)}
    (h : linMul P fuel other right ts = .ok r) (ho : ValidW q env other) (ht : VL q env ts) :
    VL q env r ∧ lv env r = lv env ts * val env other := by
  have key : ∀ (ts' : List (List D)) (o : D) (rt : Bool), VL q env ts' → ValidW q env o → lv env ts' * val env o = lv env ts * val env other →
      (if o = .const 1 then (Except.ok ts' : Res (List (List D))) else .ok (ts'.map (multMul P rt o))) = .ok r →
      VL q env r ∧ lv env r = lv env ts * val env other := by
    intro ts' o rt h1 h2 h3 h4
    split at h4
    · rename_i ho1
      injection h4 with h4
      subst h4 ho1
      exact ⟨h1, by rw [← h3]; simp [val]⟩
    · injection h4 with h4
      subst h4
      obtain ⟨e1, e2⟩ := mapMul_spec hs rt h2 ts' h1
      exact ⟨e1, by rw [e2, h3]⟩
  unfold linMul swapMul at h
  split at h
  · cases hf : linFromDim P fuel other with
    | error e => rw [hf] at h; cases h
    | ok ts' =>
      rw [hf] at h
      obtain ⟨f1, f2⟩ := linFromDim_spec hs hf ho
      obtain ⟨g1, g2⟩ := linAsDim_spec hs ht
      exact key ts' (linAsDim P ts) false f1 g1 (by rw [f2, g2]; ring) h
  · exact key ts other right ht ho rfl h

theorem dMul_spec (hs : SoundW q P env) {fuel : Nat} {a b r : D} (h : dMul P fuel a b = .ok r) (ha : ValidW q env a) (hb : ValidW q env b) :
    ValidW q env r ∧ val env r = val env a * val env b := by
  unfold dMul at h
  split at h
  · rename_i c hc
    injection h with h
    subst h
    exact hs.cache _ _ _ _ hc ha hb trivial
  · simp only [bind, Except.bind] at h
    split at h
    · cases h
    · rename_i t1 h1
      split at h
      · cases h
      · rename_i t2 h2
        injection h with h
        subst h
        obtain ⟨e1, e2⟩ := linFromDim_spec hs h1 ha
        obtain ⟨e3, e4⟩ := linMul_spec hs h2 hb e1
        obtain ⟨e5, e6⟩ := linAsDim_spec hs e3
        exact ⟨e5, by rw [e6, e4, e2]⟩

end Verif.DimMath
