import Verif.DimMath.Spec
import Mathlib.Algebra.BigOperators.Group.List.Basic
import Mathlib.Algebra.BigOperators.Ring.List
import Mathlib.Tactic.Ring
import Mathlib.Tactic.Linarith
import Mathlib.Data.Int.Order.Basic
namespace Verif.DimMath
open Verif.Py

variable {q : Prop} {P : Params} {env : Nat → Int}

theorem lift2_some {f : Int → Int → Int} {a b : Option Int} {n : Int} (h : lift2 f a b = some n) :
    ∃ x y, a = some x ∧ b = some y ∧ n = f x y := by
  cases a <;> cases b <;> simp [lift2] at h
  exact ⟨_, _, rfl, rfl, h.symm⟩

theorem val_div (k : DK) (r : Bool) (a b : D) : val env (.div k r a b) = quot k (val env a) (val env b) := by
  cases k <;> rfl

/-- A static size is the value. -/
theorem dimension_val : ∀ (d : D) {n : Int}, d.dimension = some n → val env d = n
  | .base _ d, n, h => by
    simp only [D.dimension] at h
    subst h
    rfl
  | .const v, n, h => by
    simp only [D.dimension] at h
    injection h
  | .add a b, n, h => by
    obtain ⟨x, y, h1, h2, rfl⟩ := lift2_some h
    simp only [val, dimension_val a h1, dimension_val b h2]
  | .mul a b, n, h => by
    obtain ⟨x, y, h1, h2, rfl⟩ := lift2_some h
    simp only [val, dimension_val a h1, dimension_val b h2]
  | .div k r a b, n, h => by
    obtain ⟨x, y, h1, h2, rfl⟩ := lift2_some h
    rw [val_div, dimension_val a h1, dimension_val b h2]

/-- The value of a product. -/
def mv (env : Nat → Int) (t : List D) : Int := (t.map (val env)).prod

/-- The value of a sum of products. -/
def lv (env : Nat → Int) (ts : List (List D)) : Int := (ts.map (mv env)).sum

/-- All dims in it are valid. -/
def VM (q : Prop) (env : Nat → Int) (t : List D) : Prop := ∀ d ∈ t, ValidW q env d

def VL (q : Prop) (env : Nat → Int) (ts : List (List D)) : Prop := ∀ t ∈ ts, VM q env t

@[simp] theorem mv_nil : mv env [] = 1 := rfl
@[simp] theorem mv_cons (d : D) (t : List D) : mv env (d :: t) = val env d * mv env t := by simp [mv]
@[simp] theorem mv_append (s t : List D) : mv env (s ++ t) = mv env s * mv env t := by simp [mv]
@[simp] theorem mv_reverse (t : List D) : mv env t.reverse = mv env t := by
  induction t with
  | nil => rfl
  | cons a t ih => simp [ih]; ring
@[simp] theorem lv_nil : lv env [] = 0 := rfl
@[simp] theorem lv_cons (t : List D) (ts : List (List D)) : lv env (t :: ts) = mv env t + lv env ts := by simp [lv]
@[simp] theorem lv_append (s t : List (List D)) : lv env (s ++ t) = lv env s + lv env t := by simp [lv]

theorem VM_nil : VM q env [] := by simp [VM]
theorem VM_cons {d : D} {t : List D} : VM q env (d :: t) ↔ ValidW q env d ∧ VM q env t := by simp [VM]
theorem VM_append {s t : List D} : VM q env (s ++ t) ↔ VM q env s ∧ VM q env t := by simp [VM, or_imp, forall_and]
theorem VM_reverse {t : List D} : VM q env t.reverse ↔ VM q env t := by simp [VM]
theorem VL_nil : VL q env [] := by simp [VL]
theorem VL_cons {t : List D} {ts : List (List D)} : VL q env (t :: ts) ↔ VM q env t ∧ VL q env ts := by simp [VL]
theorem VL_append {s t : List (List D)} : VL q env (s ++ t) ↔ VL q env s ∧ VL q env t := by simp [VL, or_imp, forall_and]

theorem binMul_spec (hs : SoundW q P env) {a b : D} (ha : ValidW q env a) (hb : ValidW q env b) :
    ValidW q env (binMul P a b) ∧ val env (binMul P a b) = val env a * val env b := by
  unfold binMul
  split
  · rename_i r h
    split at h
    · have := hs.cache _ _ _ _ h hb ha trivial
      exact this
    · exact hs.cache _ _ _ _ h ha hb trivial
  · exact ⟨⟨ha, hb⟩, rfl⟩

theorem binAdd_spec (hs : SoundW q P env) {a b : D} (ha : ValidW q env a) (hb : ValidW q env b) :
    ValidW q env (binAdd P a b) ∧ val env (binAdd P a b) = val env a + val env b := by
  unfold binAdd
  split
  · rename_i r h
    split at h
    · exact hs.cache _ _ _ _ h hb ha trivial
    · exact hs.cache _ _ _ _ h ha hb trivial
  · exact ⟨⟨ha, hb⟩, rfl⟩

theorem foldMul_spec (hs : SoundW q P env) : ∀ (ds : List D) (d : D), ValidW q env d → VM q env ds →
    ValidW q env (ds.foldl (binMul P) d) ∧ val env (ds.foldl (binMul P) d) = val env d * mv env ds
  | [], d, h, _ => ⟨h, by simp⟩
  | e :: ds, d, h, hd => by
    rw [VM_cons] at hd
    obtain ⟨h1, h2⟩ := binMul_spec hs h hd.1
    obtain ⟨h3, h4⟩ := foldMul_spec hs ds _ h1 hd.2
    exact ⟨h3, by rw [List.foldl_cons, h4, h2, mv_cons]; ring⟩

theorem multAsDim_spec (hs : SoundW q P env) {t : List D} (h : VM q env t) :
    ValidW q env (multAsDim P t) ∧ val env (multAsDim P t) = mv env t := by
  cases t with
  | nil => exact ⟨trivial, rfl⟩
  | cons d ds =>
    rw [VM_cons] at h
    have := foldMul_spec hs ds d h.1 h.2
    exact ⟨this.1, by rw [mv_cons]; exact this.2⟩

theorem multFromDim_spec {d : D} (h : ValidW q env d) : VM q env (multFromDim d) ∧ mv env (multFromDim d) = val env d := by
  cases d with
  | const v =>
    simp only [multFromDim]
    split
    · rename_i hv; subst hv; exact ⟨VM_nil, rfl⟩
    · exact ⟨by simp [VM, ValidW], by simp⟩
  | mul a b => exact ⟨by simp only [multFromDim, VM_cons]; exact ⟨h.1, h.2, VM_nil⟩, by simp [multFromDim, val]⟩
  | base i d => exact ⟨by simp [multFromDim, VM, ValidW], by simp [multFromDim]⟩
  | add a b => exact ⟨by simp only [multFromDim, VM_cons]; exact ⟨h, VM_nil⟩, by simp [multFromDim]⟩
  | div k r a b => exact ⟨by simp only [multFromDim, VM_cons]; exact ⟨h, VM_nil⟩, by simp [multFromDim]⟩

theorem cancelTerm_spec (hs : SoundW q P env) {right : Bool} {term other n : D} (h : cancelTerm P right term other = some n)
    (ht : ValidW q env term) : ValidW q env n ∧ val env n = val env term * val env other := by
  unfold cancelTerm at h
  split at h
  · rename_i r num den
    split at h
    · rename_i hc
      injection h with h
      subst h
      obtain ⟨h1, h2, h3, h4, _⟩ := ht
      refine ⟨h1, ?_⟩
      have he := hs.eq _ _ hc.2
      rw [← he]
      simp only [val]
      obtain ⟨c, hq⟩ := h4 rfl
      rw [hq, Int.mul_fdiv_cancel_left _ (by omega)]
      ring
    · cases h
  · cases h

theorem mulConsts_spec {a b : D} {r : Option D} (h : mulConsts a b = some r) :
    (r = none → val env a * val env b = 1) ∧ (∀ n, r = some n → ValidW q env n ∧ val env n = val env a * val env b) := by
  unfold mulConsts at h
  split at h
  · injection h with h
    split at h
    · rename_i h1
      exact ⟨fun _ => h1, fun n hn => (by subst h; cases hn)⟩
    · refine ⟨fun hn => (by subst h; cases hn), fun n hn => ?_⟩
      rw [← h] at hn
      injection hn with hn
      subst hn
      exact ⟨trivial, rfl⟩
  · cases h

theorem simplifyMul_spec (hs : SoundW q P env) {right : Bool} {a b : D} {r : Option D} (h : simplifyMul P right a b = some r)
    (ha : ValidW q env a) (hb : ValidW q env b) :
    (r = none → val env a * val env b = 1) ∧ (∀ n, r = some n → ValidW q env n ∧ val env n = val env a * val env b) := by
  unfold simplifyMul at h
  split at h
  · rename_i n hc
    injection h with h
    subst h
    refine ⟨fun h => (by cases h), fun m hm => ?_⟩
    injection hm with hm
    subst hm
    exact cancelTerm_spec hs hc ha
  · split at h
    · rename_i n hc
      injection h with h
      subst h
      refine ⟨fun h => (by cases h), fun m hm => ?_⟩
      injection hm with hm
      subst hm
      have := cancelTerm_spec hs hc hb
      exact ⟨this.1, by rw [this.2]; ring⟩
    · exact mulConsts_spec h

theorem simplifyFirst_spec (hs : SoundW q P env) {right : Bool} {other : D} (ho : ValidW q env other) : ∀ (t : List D) {r : List D},
    simplifyFirst P right other t = some r → VM q env t → VM q env r ∧ mv env r = mv env t * val env other
  | [], r, h, _ => by cases h
  | d :: ds, r, h, hv => by
    rw [VM_cons] at hv
    simp only [simplifyFirst] at h
    split at h
    · rename_i hc
      injection h with h
      subst h
      have := (simplifyMul_spec hs hc hv.1 ho).1 rfl
      refine ⟨hv.2, ?_⟩
      rw [mv_cons]
      calc mv env ds = (val env d * val env other) * mv env ds := by rw [this]; ring
        _ = _ := by ring
    · rename_i n hc
      injection h with h
      subst h
      obtain ⟨h1, h2⟩ := (simplifyMul_spec hs hc hv.1 ho).2 n rfl
      exact ⟨VM_cons.2 ⟨h1, hv.2⟩, by rw [mv_cons, mv_cons, h2]; ring⟩
    · cases hr : simplifyFirst P right other ds with
      | none => rw [hr] at h; cases h
      | some r' =>
        rw [hr] at h
        injection h with h
        subst h
        obtain ⟨h1, h2⟩ := simplifyFirst_spec hs ho ds hr hv.2
        exact ⟨VM_cons.2 ⟨hv.1, h1⟩, by rw [mv_cons, mv_cons, h2]; ring⟩

theorem simplifyAny_spec (hs : SoundW q P env) {right : Bool} {other : D} (ho : ValidW q env other) {t r : List D}
    (h : simplifyAny P right other t = some r) (hv : VM q env t) : VM q env r ∧ mv env r = mv env t * val env other := by
  unfold simplifyAny at h
  split at h
  · cases hr : simplifyFirst P right other t.reverse with
    | none => rw [hr] at h; cases h
    | some r' =>
      rw [hr] at h
      injection h with h
      subst h
      obtain ⟨h1, h2⟩ := simplifyFirst_spec hs ho _ hr (VM_reverse.2 hv)
      exact ⟨VM_reverse.2 h1, by rw [mv_reverse, h2, mv_reverse]⟩
  · exact simplifyFirst_spec hs ho _ h hv

theorem multMul1_spec (hs : SoundW q P env) {right : Bool} {other : D} (ho : ValidW q env other) {t : List D} (hv : VM q env t) :
    VM q env (multMul1 P right other t) ∧ mv env (multMul1 P right other t) = mv env t * val env other := by
  unfold multMul1
  split
  · rename_i r h
    exact simplifyAny_spec hs ho h hv
  · split
    · exact ⟨VM_append.2 ⟨hv, by simpa [VM] using ho⟩, by simp⟩
    · exact ⟨VM_cons.2 ⟨ho, hv⟩, by rw [mv_cons]; ring⟩

theorem multMulLeaf_spec (hs : SoundW q P env) {right : Bool} {other : D} (ho : ValidW q env other) {t : List D} (hv : VM q env t) {r : List D}
    (h : r = if other = .const 1 then t else if t = [] then [other] else multMul1 P right other t) :
    VM q env r ∧ mv env r = mv env t * val env other := by
  subst h
  split
  · rename_i h; subst h; exact ⟨hv, by simp [val]⟩
  · split
    · rename_i h; subst h; exact ⟨by simpa [VM] using ho, by simp⟩
    · exact multMul1_spec hs ho hv

theorem multMul_spec (hs : SoundW q P env) (right : Bool) : ∀ (other : D) {t : List D}, ValidW q env other → VM q env t →
    VM q env (multMul P right other t) ∧ mv env (multMul P right other t) = mv env t * val env other
  | .base i d, t, ho, hv => multMulLeaf_spec hs ho hv rfl
  | .const v, t, ho, hv => multMulLeaf_spec hs ho hv rfl
  | .add a b, t, ho, hv => multMulLeaf_spec hs ho hv rfl
  | .div k r a b, t, ho, hv => multMulLeaf_spec hs ho hv rfl
  | .mul a b, t, ho, hv => by
    simp only [multMul]
    split
    · rename_i h; subst h; exact ⟨by simpa [VM] using ho, by simp⟩
    · split
      · obtain ⟨h1, h2⟩ := multMul_spec hs right a ho.1 hv
        obtain ⟨h3, h4⟩ := multMul_spec hs right b ho.2 h1
        exact ⟨h3, by rw [h4, h2]; simp only [val]; ring⟩
      · obtain ⟨h1, h2⟩ := multMul_spec hs right b ho.2 hv
        obtain ⟨h3, h4⟩ := multMul_spec hs right a ho.1 h1
        exact ⟨h3, by rw [h4, h2]; simp only [val]; ring⟩

theorem multNegative_spec (hs : SoundW q P env) {t : List D} (hv : VM q env t) :
    VM q env (multNegative P t) ∧ mv env (multNegative P t) = - mv env t := by
  have hg : VM q env (multMul P false (.const (-1)) t) ∧ mv env (multMul P false (.const (-1)) t) = - mv env t := by
    obtain ⟨h1, h2⟩ := multMul_spec hs false (.const (-1)) (t := t) trivial hv
    exact ⟨h1, by rw [h2]; simp [val]⟩
  unfold multNegative
  split
  · rename_i v ts
    split
    · rename_i h
      subst h
      rw [VM_cons] at hv
      exact ⟨hv.2, by simp [val]⟩
    · exact hg
  · exact hg

theorem foldFactors_spec (hs : SoundW q P env) : ∀ (ds t : List D), VM q env ds → VM q env t →
    VM q env (ds.foldl (fun t d => multMul P true d t) t) ∧
    mv env (ds.foldl (fun t d => multMul P true d t) t) = mv env t * mv env ds
  | [], t, _, ht => ⟨ht, by simp⟩
  | d :: ds, t, hd, ht => by
    rw [VM_cons] at hd
    obtain ⟨h1, h2⟩ := multMul_spec hs true d hd.1 ht
    obtain ⟨h3, h4⟩ := foldFactors_spec hs ds _ hd.2 h1
    exact ⟨h3, by rw [List.foldl_cons, h4, h2, mv_cons]; ring⟩

theorem fromFactors_spec (hs : SoundW q P env) {ds : List D} (h : VM q env ds) :
    VM q env (fromFactors P ds) ∧ mv env (fromFactors P ds) = mv env ds := by
  have := foldFactors_spec hs ds [] h VM_nil
  rw [mv_nil, one_mul] at this
  exact this

theorem foldAdd_spec (hs : SoundW q P env) : ∀ (ts : List (List D)) (d : D), ValidW q env d → VL q env ts →
    ValidW q env ((ts.map (multAsDim P)).foldl (binAdd P) d) ∧
    val env ((ts.map (multAsDim P)).foldl (binAdd P) d) = val env d + lv env ts
  | [], d, h, _ => ⟨h, by simp⟩
  | t :: ts, d, h, ht => by
    rw [VL_cons] at ht
    obtain ⟨h1, h2⟩ := multAsDim_spec hs ht.1
    obtain ⟨h3, h4⟩ := binAdd_spec hs h h1
    obtain ⟨h5, h6⟩ := foldAdd_spec hs ts _ h3 ht.2
    exact ⟨h5, by rw [List.map_cons, List.foldl_cons, h6, h4, h2, lv_cons]; ring⟩

theorem linAsDim_spec (hs : SoundW q P env) {ts : List (List D)} (h : VL q env ts) :
    ValidW q env (linAsDim P ts) ∧ val env (linAsDim P ts) = lv env ts := by
  cases ts with
  | nil => exact ⟨trivial, rfl⟩
  | cons t ts =>
    rw [VL_cons] at h
    obtain ⟨h1, h2⟩ := multAsDim_spec hs h.1
    obtain ⟨h3, h4⟩ := foldAdd_spec hs ts _ h1 h.2
    exact ⟨h3, by simp only [linAsDim]; rw [h4, h2, lv_cons]⟩

theorem eqList_spec (hs : SoundW q P env) : ∀ (a b : List D), eqList P a b = true → mv env a = mv env b
  | [], [], _ => rfl
  | [], _ :: _, h => by cases h
  | _ :: _, [], h => by cases h
  | a :: as, b :: bs, h => by
    simp only [eqList, Bool.and_eq_true] at h
    rw [mv_cons, mv_cons, hs.eq a b h.1, eqList_spec hs as bs h.2]

theorem multDimension_spec : ∀ (t : List D) {n : Int}, multDimension t = some n → mv env t = n
  | [], n, h => by simp only [multDimension] at h; injection h
  | d :: ds, n, h => by
    obtain ⟨x, y, h1, h2, rfl⟩ := lift2_some h
    rw [mv_cons, dimension_val d h1, multDimension_spec ds h2]

theorem recent_split {α : Type} {right : Bool} {l : List α} {m : α} (h : mostRecent right l = some m) :
    (if right then l = popRecent right l ++ [m] else l = m :: popRecent right l) := by
  cases right with
  | true =>
    simp only [mostRecent, popRecent, if_true] at h ⊢
    exact (List.dropLast_append_getLast? m h).symm
  | false =>
    simp only [mostRecent, popRecent, Bool.false_eq_true, if_false] at h ⊢
    cases l with
    | nil => cases h
    | cons a l => injection h with h; rw [h]; rfl

theorem lv_recent {right : Bool} {l : List (List D)} {m : List D} (h : mostRecent right l = some m) :
    lv env l = lv env (popRecent right l) + mv env m := by
  have := recent_split h
  cases right with
  | true => simp only [if_true] at this; conv => lhs; rw [this]
            simp
  | false => simp only [Bool.false_eq_true, if_false] at this; conv => lhs; rw [this]
             simp; ring

theorem lv_push {right : Bool} (l : List (List D)) (m : List D) : lv env (pushRecent right l m) = lv env l + mv env m := by
  cases right <;> simp [pushRecent] ; ring

theorem mv_recent {right : Bool} {l : List D} {m : D} (h : mostRecent right l = some m) :
    mv env l = mv env (popRecent right l) * val env m := by
  have := recent_split h
  cases right with
  | true => simp only [if_true] at this; conv => lhs; rw [this]
            simp
  | false => simp only [Bool.false_eq_true, if_false] at this; conv => lhs; rw [this]
             simp; ring

theorem mv_push {right : Bool} (l : List D) (m : D) : mv env (pushRecent right l m) = mv env l * val env m := by
  cases right <;> simp [pushRecent] ; ring

theorem mem_pop {α : Type} {right : Bool} {l : List α} {x : α} (h : x ∈ popRecent right l) : x ∈ l := by
  cases right with
  | true => exact (List.dropLast_sublist l).subset h
  | false => exact List.mem_of_mem_tail h

theorem mem_push {α : Type} {right : Bool} {l : List α} {x y : α} (h : x ∈ pushRecent right l y) : x ∈ l ∨ x = y := by
  cases right with
  | true => simpa [pushRecent] using h
  | false => simpa [pushRecent, or_comm] using h

theorem mem_recent {α : Type} {right : Bool} {l : List α} {m : α} (h : mostRecent right l = some m) : m ∈ l := by
  cases right with
  | true => exact List.mem_of_getLast? h
  | false => exact List.mem_of_head? h

theorem VL_pop {right : Bool} {l : List (List D)} (h : VL q env l) : VL q env (popRecent right l) := fun t ht => h t (mem_pop ht)
theorem VL_push {right : Bool} {l : List (List D)} {m : List D} (h : VL q env l) (hm : VM q env m) : VL q env (pushRecent right l m) := by
  intro t ht
  rcases mem_push ht with ht | rfl
  · exact h t ht
  · exact hm
theorem VM_pop {right : Bool} {l : List D} (h : VM q env l) : VM q env (popRecent right l) := fun t ht => h t (mem_pop ht)
theorem VM_push {right : Bool} {l : List D} {m : D} (h : VM q env l) (hm : ValidW q env m) : VM q env (pushRecent right l m) := by
  intro t ht
  rcases mem_push ht with ht | rfl
  · exact h t ht
  · exact hm

end Verif.DimMath
