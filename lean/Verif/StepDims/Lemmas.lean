import Verif.StepDims.Spec
import Mathlib.Tactic.Common
/-
Invariants of the heap of dims.
-/
namespace Verif.StepDims

open Verif.Py

theorem app_eq (o : Op) (a b : Nat) : o.app a b = opVal o a b := by
  cases o <;> try rfl
  show (a + b - 1) / b = if b = 0 then 0 else if a % b = 0 then a / b else a / b + 1
  by_cases hb : b = 0
  · subst hb
    simp
  · rw [if_neg hb]
    have hpos : 0 < b := Nat.pos_of_ne_zero hb
    have hdm := Nat.div_add_mod a b
    have hlt := Nat.mod_lt a hpos
    by_cases hm : a % b = 0
    · rw [if_pos hm]
      have : a + b - 1 = (b - 1) + b * (a / b) := by omega
      rw [this, Nat.add_mul_div_left _ _ hpos, Nat.div_eq_of_lt (by omega)]
      omega
    · rw [if_neg hm]
      have : a + b - 1 = (a % b - 1) + b * (a / b + 1) := by
        rw [Nat.mul_add]
        omega
      rw [this, Nat.add_mul_div_left _ _ hpos, Nat.div_eq_of_lt (by omega)]
      omega

theorem len_put (h : Heap) (d : Nat) (o : Obj) : (h.put d o).objs.length = h.objs.length := by
  unfold Heap.put
  exact List.length_set

theorem get_put_same {h : Heap} {d : Nat} {o : Obj} (hd : d < h.objs.length) : (h.put d o).get d = o := by
  unfold Heap.put Heap.get
  simp [List.getD, hd]

theorem get_put_ne {h : Heap} {d e : Nat} {o : Obj} (hne : e ≠ d) : (h.put d o).get e = h.get e := by
  unfold Heap.put Heap.get
  simp [List.getD, List.getElem?_set_ne hne.symm]

theorem get_ge {h : Heap} {d : Nat} (hd : h.objs.length ≤ d) : h.get d = {} := by
  unfold Heap.get
  simp [List.getD, List.getElem?_eq_none hd]

theorem put_ge {h : Heap} {d : Nat} {o : Obj} (hd : h.objs.length ≤ d) : h.put d o = h := by
  unfold Heap.put
  rw [List.set_eq_of_length_le hd]

/-- A new object at the end. -/
def Heap.push (h : Heap) (o : Obj) : Heap := { objs := h.objs ++ [o] }

theorem len_push (h : Heap) (o : Obj) : (h.push o).objs.length = h.objs.length + 1 := by
  unfold Heap.push
  simp

theorem get_push_same (h : Heap) (o : Obj) : (h.push o).get h.objs.length = o := by
  unfold Heap.push Heap.get
  simp [List.getD]

theorem get_push_lt {h : Heap} {o : Obj} {d : Nat} (hd : d < h.objs.length) : (h.push o).get d = h.get d := by
  unfold Heap.push Heap.get
  simp [List.getD, List.getElem?_append_left hd]

/-- What may happen to existing objects when sizes are completed: only sizes are added, and only to objects with an operation. -/
structure Same (h h' : Heap) : Prop where
  len : h'.objs.length = h.objs.length
  static : ∀ d, (h'.get d).static = (h.get d).static
  op : ∀ d, (h'.get d).op = (h.get d).op
  cache : ∀ d, (h'.get d).cache = (h.get d).cache
  sizes : ∀ d l, (h.get d).sizes = some l → (h'.get d).sizes = some l
  noop : ∀ d, (h.get d).op = none → (h'.get d).sizes = (h.get d).sizes

theorem Same.refl (h : Heap) : Same h h :=
  ⟨rfl, fun _ => rfl, fun _ => rfl, fun _ => rfl, fun _ _ hs => hs, fun _ _ => rfl⟩

theorem Same.trans {a b c : Heap} (h1 : Same a b) (h2 : Same b c) : Same a c :=
  ⟨h2.len.trans h1.len, fun d => (h2.static d).trans (h1.static d), fun d => (h2.op d).trans (h1.op d),
    fun d => (h2.cache d).trans (h1.cache d), fun d l hs => h2.sizes d l (h1.sizes d l hs),
    fun d ho => (h2.noop d ((h1.op d).trans ho)).trans (h1.noop d ho)⟩

theorem same_store {h : Heap} {d : Nat} {s : Option Size} (hn : (h.get d).sizes = none) (ho : (h.get d).op ≠ none) :
    Same h (store h d s) := by
  unfold store
  split
  · rename_i l
    by_cases hd : d < h.objs.length
    · refine ⟨len_put .., fun e => ?_, fun e => ?_, fun e => ?_, fun e l' hs => ?_, fun e he => ?_⟩
      all_goals by_cases hed : e = d
      · subst hed; rw [get_put_same hd]
      · rw [get_put_ne hed]
      · subst hed; rw [get_put_same hd]
      · rw [get_put_ne hed]
      · subst hed; rw [get_put_same hd]
      · rw [get_put_ne hed]
      · subst hed; rw [hn] at hs; exact absurd hs (by simp)
      · rw [get_put_ne hed]; exact hs
      · subst hed; exact absurd he ho
      · rw [get_put_ne hed]
    · rw [put_ge (by omega)]
      exact Same.refl h
  · exact Same.refl h

/-- Well-formed heaps: inputs are older than the dims derived from them, static sizes are right, and caches hold what they say. -/
structure Wf (h : Heap) : Prop where
  op : ∀ d o a b, (h.get d).op = some (o, a, b) → a < d ∧ b.lt d ∧ (h.get d).static = staticOf h o a b
  cache : ∀ d k v, (k, v) ∈ (h.get d).cache → v < h.objs.length ∧ (h.get v).op = some (k.1, d, k.2)

theorem staticOf_congr {h h' : Heap} {o : Op} {a : Nat} {b : Arg} (ha : (h'.get a).static = (h.get a).static)
    (hb : ∀ e, b = .dim e → (h'.get e).static = (h.get e).static) : staticOf h' o a b = staticOf h o a b := by
  unfold staticOf
  rw [ha]
  cases b with
  | int c => cases (h.get a).static <;> rfl
  | dim e =>
    cases (h.get a).static with
    | none => rfl
    | some x =>
      show Option.map _ (h'.get e).static = _
      rw [hb e rfl]

theorem Wf.same {h h' : Heap} (hw : Wf h) (hs : Same h h') : Wf h' := by
  constructor
  · intro d o a b ho
    rw [hs.op] at ho
    obtain ⟨h1, h2, h3⟩ := hw.op d o a b ho
    refine ⟨h1, h2, ?_⟩
    rw [hs.static, h3, staticOf_congr (hs.static a) (fun e _ => hs.static e)]
  · intro d k v hv
    rw [hs.cache] at hv
    obtain ⟨h1, h2⟩ := hw.cache d k v hv
    exact ⟨by rw [hs.len]; exact h1, by rw [hs.op]; exact h2⟩

theorem store_ne {h : Heap} {d e : Nat} {s : Option Size} (hne : e ≠ d) : (store h d s).get e = h.get e := by
  unfold store
  split
  · exact get_put_ne hne
  · rfl

theorem same_complete : ∀ (fuel : Nat) (h : Heap) (d : Nat), Wf h →
    Same h (complete fuel h d) ∧ ∀ e, d < e → (complete fuel h d).get e = h.get e := by
  intro fuel
  induction fuel with
  | zero => exact fun h _ _ => ⟨Same.refl h, fun _ _ => rfl⟩
  | succ n ih =>
    intro h d hw
    unfold complete
    split
    · exact ⟨Same.refl h, fun _ _ => rfl⟩
    · split
      · exact ⟨Same.refl h, fun _ _ => rfl⟩
      · rename_i hs
        split
        · exact ⟨Same.refl h, fun _ _ => rfl⟩
        · rename_i o a b hop
          obtain ⟨had, hbd, -⟩ := hw.op d o a b hop
          obtain ⟨h1, g1⟩ := ih h a hw
          have h2 : Same (complete n h a) (completeArg (complete n) (complete n h a) b)
              ∧ ∀ e, d ≤ e → (completeArg (complete n) (complete n h a) b).get e = (complete n h a).get e := by
            cases b with
            | int c => exact ⟨Same.refl _, fun _ _ => rfl⟩
            | dim e =>
              obtain ⟨p, q⟩ := ih (complete n h a) e (hw.same h1)
              exact ⟨p, fun e' he' => q e' (Nat.lt_of_lt_of_le hbd he')⟩
          have h12 := h1.trans h2.1
          have hg : ∀ e, d ≤ e → (completeArg (complete n) (complete n h a) b).get e = h.get e := fun e he =>
            (h2.2 e he).trans (g1 e (Nat.lt_of_lt_of_le had he))
          have hz : ((completeArg (complete n) (complete n h a) b).get d).sizes = none := by
            rw [hg d (Nat.le_refl d)]
            simpa using hs
          refine ⟨h12.trans (same_store hz (by rw [h12.op, hop]; simp)), fun e he => ?_⟩
          rw [store_ne (Nat.ne_of_gt he)]
          exact hg e (Nat.le_of_lt he)

/-- What may happen to existing objects within a step. -/
structure Ext (h h' : Heap) : Prop where
  len : h.objs.length ≤ h'.objs.length
  static : ∀ d, d < h.objs.length → (h'.get d).static = (h.get d).static
  op : ∀ d, d < h.objs.length → (h'.get d).op = (h.get d).op
  sizes : ∀ d l, (h.get d).sizes = some l → (h'.get d).sizes = some l
  noop : ∀ d, d < h.objs.length → (h.get d).op = none → (h'.get d).sizes = (h.get d).sizes

theorem Ext.refl (h : Heap) : Ext h h :=
  ⟨Nat.le_refl _, fun _ _ => rfl, fun _ _ => rfl, fun _ _ hs => hs, fun _ _ _ => rfl⟩

theorem Same.ext {h h' : Heap} (hs : Same h h') : Ext h h' :=
  ⟨Nat.le_of_eq hs.len.symm, fun d _ => hs.static d, fun d _ => hs.op d, hs.sizes, fun d _ => hs.noop d⟩

theorem lt_of_op {h : Heap} {d : Nat} {x : Op × Nat × Arg} (ho : (h.get d).op = some x) : d < h.objs.length := by
  by_contra hc
  rw [get_ge (by omega)] at ho
  simp at ho

theorem lt_of_static {h : Heap} {d n : Nat} (ho : (h.get d).static = some n) : d < h.objs.length := by
  by_contra hc
  rw [get_ge (by omega)] at ho
  simp at ho

theorem lt_of_sizes {h : Heap} {d : Nat} {l : List Nat} (ho : (h.get d).sizes = some l) : d < h.objs.length := by
  by_contra hc
  rw [get_ge (by omega)] at ho
  simp at ho

theorem Len.ext {S : Step} {h h' : Heap} (he : Ext h h') {i d n : Nat} (hl : Len S h i d n) : Len S h' i d n := by
  induction hl with
  | static ho hs =>
    have hd := lt_of_static hs
    exact .static (by rw [he.op _ hd]; exact ho) (by rw [he.static _ hd]; exact hs)
  | given hg hn => exact .given hg hn
  | own hg h0 ho hs hz hn =>
    have hd := lt_of_sizes hz
    exact .own hg h0 (by rw [he.op _ hd]; exact ho) (by rw [he.static _ hd]; exact hs) (he.sizes _ _ hz) hn
  | opInt hg ho _ ih => exact .opInt hg (by rw [he.op _ (lt_of_op ho)]; exact ho) ih
  | opDim hg ho _ _ ih1 ih2 => exact .opDim hg (by rw [he.op _ (lt_of_op ho)]; exact ho) ih1 ih2

theorem Fresh.ext {S : Step} {h h' : Heap} (he : Ext h h') {d : Nat} (hl : Fresh S h d) : Fresh S h' d := by
  induction hl with
  | static hs => exact .static (by rw [he.static _ (lt_of_static hs)]; exact hs)
  | given hg => exact .given hg
  | own h0 ho hz =>
    have hd := lt_of_sizes hz
    exact .own h0 (by rw [he.op _ hd]; exact ho) (he.sizes _ _ hz)
  | opInt h0 ho _ ih => exact .opInt h0 (by rw [he.op _ (lt_of_op ho)]; exact ho) ih
  | opDim h0 ho _ _ ih1 ih2 => exact .opDim h0 (by rw [he.op _ (lt_of_op ho)]; exact ho) ih1 ih2

/-- A dim of the current step was one before it got more sizes or more dims were created. -/
theorem Fresh.of_ext {S : Step} {h h' : Heap} (hw : Wf h) (he : Ext h h')
    (hglt : ∀ d l, S.given d = some l → d < h.objs.length) {d : Nat} (hl : Fresh S h' d) (hd : d < h.objs.length) : Fresh S h d := by
  induction hl with
  | static hs => exact .static (by rw [← he.static _ hd]; exact hs)
  | given hg => exact .given hg
  | own h0 ho hz =>
    rw [he.op _ hd] at ho
    exact .own h0 ho (by rw [← he.noop _ hd ho]; exact hz)
  | opInt h0 ho _ ih =>
    rw [he.op _ hd] at ho
    exact .opInt h0 ho (ih (Nat.lt_trans (hw.op _ _ _ _ ho).1 hd))
  | opDim h0 ho _ _ ih1 ih2 =>
    rw [he.op _ hd] at ho
    exact .opDim h0 ho (ih1 (Nat.lt_trans (hw.op _ _ _ _ ho).1 hd)) (ih2 (Nat.lt_trans (hw.op _ _ _ _ ho).2.1 hd))

/-- The right sizes of a dim. -/
def Right (S : Step) (h : Heap) (d : Nat) : Size → Prop
  | .all n => ∀ i, i < S.B → Len S h i d n
  | .each l => l.length = S.B ∧ ∀ i n, l[i]? = some n → Len S h i d n

theorem Right.ext {S : Step} {h h' : Heap} (he : Ext h h') {d : Nat} {s : Size} (hr : Right S h d s) : Right S h' d s := by
  cases s with
  | all n => exact fun i hi => (hr i hi).ext he
  | each l => exact ⟨hr.1, fun i n hn => (hr.2 i n hn).ext he⟩

/-- The invariant of a step. -/
structure Inv (S : Step) (h : Heap) : Prop where
  wf : Wf h
  n0 : S.n0 ≤ h.objs.length
  glt : ∀ d l, S.given d = some l → d < S.n0
  gstatic : ∀ d l, S.given d = some l → (h.get d).static = none
  gsizes : ∀ d l, S.given d = some l → (h.get d).sizes = some l
  glen : ∀ d l, S.given d = some l → l.length = S.B
  /-- whatever sizes a dim of this step has are right -/
  right : ∀ d l, Fresh S h d → (h.get d).static = none → (h.get d).sizes = some l → Right S h d (.each l)
  /-- caches of given and of new dims hold only dims of this step -/
  cache : ∀ d k v, (S.given d).isSome ∨ S.n0 ≤ d → (k, v) ∈ (h.get d).cache → S.n0 ≤ v

theorem Inv.static_right {S : Step} {h : Heap} (hi : Inv S h) : ∀ (d n : Nat), (h.get d).static = some n → Right S h d (.all n) := by
  intro d
  induction d using Nat.strongRecOn with
  | _ d ih =>
    intro n hn i hB
    have hgn : S.given d = none := by
      cases hg : S.given d with
      | none => rfl
      | some l =>
        rw [hi.gstatic d l hg] at hn
        simp at hn
    cases ho : (h.get d).op with
    | none => exact .static ho hn
    | some x =>
      obtain ⟨o, a, b⟩ := x
      obtain ⟨ha, hb, hst⟩ := hi.wf.op d o a b ho
      rw [hn] at hst
      unfold staticOf at hst
      cases hsa : (h.get a).static with
      | none => rw [hsa] at hst; simp at hst
      | some x =>
        rw [hsa] at hst
        cases b with
        | int c =>
          simp only [Option.some.injEq] at hst
          rw [hst, app_eq]
          exact .opInt hgn ho (ih a ha x hsa i hB)
        | dim e =>
          simp only [] at hst
          cases hse : (h.get e).static with
          | none => rw [hse] at hst; simp at hst
          | some y =>
            rw [hse] at hst
            simp only [Option.map_some, Option.some.injEq] at hst
            rw [hst, app_eq]
            exact .opDim hgn ho (ih a ha x hsa i hB) (ih e hb y hse i hB)

theorem Inv.size_right {S : Step} {h : Heap} (hi : Inv S h) {d : Nat} {s : Size} (hf : Fresh S h d) (hs : (h.get d).size = some s) :
    Right S h d s := by
  unfold Obj.size at hs
  cases hst : (h.get d).static with
  | some n =>
    rw [hst] at hs
    cases hs
    exact hi.static_right d n hst
  | none =>
    rw [hst] at hs
    cases hz : (h.get d).sizes with
    | none => rw [hz] at hs; simp at hs
    | some l =>
      rw [hz] at hs
      cases hs
      exact hi.right d l hf hst hz

/-- The sizes which are calculated for a dim of this step are right. -/
theorem calc_right {S : Step} {h : Heap} (hi : Inv S h) {d : Nat} {o : Op} {a : Nat} {b : Arg} {s : Size} (hg : S.given d = none)
    (ho : (h.get d).op = some (o, a, b)) (hfa : Fresh S h a) (hfb : FreshArg S h b) (hs : calcSize h o a b = some s) : Right S h d s := by
  unfold calcSize at hs
  cases ha : (h.get a).size with
  | none => rw [ha] at hs; simp at hs
  | some x =>
    rw [ha] at hs
    have hx := hi.size_right hfa ha
    cases b with
    | int c =>
      simp only [argSize, Option.some.injEq] at hs
      subst hs
      cases x with
      | all n => exact fun i hB => by rw [app_eq]; exact .opInt hg ho (hx i hB)
      | each l =>
        refine ⟨by simpa using hx.1, fun i n hn => ?_⟩
        rw [List.getElem?_map] at hn
        cases hl : l[i]? with
        | none => rw [hl] at hn; simp at hn
        | some m =>
          rw [hl] at hn
          simp only [Option.map_some, Option.some.injEq] at hn
          rw [← hn, app_eq]
          exact .opInt hg ho (hx.2 i m hl)
    | dim e =>
      simp only [argSize] at hs
      cases he : (h.get e).size with
      | none => rw [he] at hs; simp at hs
      | some y =>
        rw [he] at hs
        simp only [Option.some.injEq] at hs
        subst hs
        have hy := hi.size_right hfb he
        cases x with
        | all n =>
          cases y with
          | all m => exact fun i hB => by rw [app_eq]; exact .opDim hg ho (hx i hB) (hy i hB)
          | each l =>
            refine ⟨by simpa using hy.1, fun i n hn => ?_⟩
            rw [List.getElem?_map] at hn
            cases hl : l[i]? with
            | none => rw [hl] at hn; simp at hn
            | some m =>
              rw [hl] at hn
              simp only [Option.map_some, Option.some.injEq] at hn
              rw [← hn, app_eq]
              have hlt := (List.getElem?_eq_some_iff.mp hl).1
              exact .opDim hg ho (hx i (by rw [← hy.1]; exact hlt)) (hy.2 i m hl)
        | each l =>
          cases y with
          | all c =>
            refine ⟨by simpa using hx.1, fun i n hn => ?_⟩
            rw [List.getElem?_map] at hn
            cases hl : l[i]? with
            | none => rw [hl] at hn; simp at hn
            | some m =>
              rw [hl] at hn
              simp only [Option.map_some, Option.some.injEq] at hn
              rw [← hn, app_eq]
              have hlt := (List.getElem?_eq_some_iff.mp hl).1
              exact .opDim hg ho (hx.2 i m hl) (hy i (by rw [← hx.1]; exact hlt))
          | each l' =>
            refine ⟨by simp [hx.1, hy.1], fun i n hn => ?_⟩
            rw [List.getElem?_zipWith] at hn
            cases hl : l[i]? with
            | none => rw [hl] at hn; simp at hn
            | some m =>
              cases hl' : l'[i]? with
              | none => rw [hl, hl'] at hn; simp at hn
              | some m' =>
                rw [hl, hl'] at hn
                simp only [Option.some.injEq] at hn
                rw [← hn, app_eq]
                exact .opDim hg ho (hx.2 i m hl) (hy.2 i m' hl')

/-- Adding sizes which are right keeps the invariant. -/
theorem Inv.of_same {S : Step} {h h' : Heap} (hi : Inv S h) (hs : Same h h')
    (hr : ∀ d l, Fresh S h d → (h.get d).static = none → (h'.get d).sizes = some l → Right S h d (.each l)) : Inv S h' := by
  refine ⟨hi.wf.same hs, by rw [hs.len]; exact hi.n0, hi.glt, fun d l hg => by rw [hs.static]; exact hi.gstatic d l hg,
    fun d l hg => hs.sizes _ _ (hi.gsizes d l hg), hi.glen, fun d l hf hst hz => ?_,
    fun d k v hd hv => hi.cache d k v hd (by rw [← hs.cache]; exact hv)⟩
  rw [hs.static] at hst
  have hd : d < h.objs.length := by rw [← hs.len]; exact lt_of_sizes hz
  have hf' := Fresh.of_ext hi.wf hs.ext (fun d l hg => Nat.lt_of_lt_of_le (hi.glt d l hg) hi.n0) hf hd
  exact (hr d l hf' hst hz).ext hs.ext

theorem store_same {h : Heap} {d : Nat} {s : Option Size} {l : List Nat} (hn : (h.get d).sizes = none)
    (hz : ((store h d s).get d).sizes = some l) : s = some (.each l) := by
  unfold store at hz
  split at hz
  · rename_i l'
    have hd : d < h.objs.length := by
      have := lt_of_sizes hz
      rwa [len_put] at this
    rw [get_put_same hd] at hz
    simp only [Option.some.injEq] at hz
    rw [hz]
  · rw [hn] at hz
    simp at hz

/-- The inputs of a dim of this step which is not yet completed. -/
theorem Inv.inputs {S : Step} {h : Heap} (hi : Inv S h) {d : Nat} {o : Op} {a : Nat} {b : Arg} (hf : Fresh S h d)
    (hst : (h.get d).static = none) (hz : (h.get d).sizes = none) (ho : (h.get d).op = some (o, a, b)) :
    S.given d = none ∧ Fresh S h a ∧ FreshArg S h b := by
  cases hf with
  | static h1 => rw [h1] at hst; simp at hst
  | given hg => rw [hi.gsizes _ _ hg] at hz; simp at hz
  | own h0 h1 h2 => rw [h2] at hz; simp at hz
  | opInt h0 h1 h2 =>
    rw [h1] at ho
    cases ho
    refine ⟨?_, h2, trivial⟩
    cases hg : S.given d with
    | none => rfl
    | some l => exact absurd (hi.glt d l hg) (by omega)
  | opDim h0 h1 h2 h3 =>
    rw [h1] at ho
    cases ho
    refine ⟨?_, h2, h3⟩
    cases hg : S.given d with
    | none => rfl
    | some l => exact absurd (hi.glt d l hg) (by omega)

theorem inv_store {S : Step} {h : Heap} (hi : Inv S h) {d : Nat} {o : Op} {a : Nat} {b : Arg} (hz : (h.get d).sizes = none)
    (ho : (h.get d).op = some (o, a, b)) : Inv S (store h d (calcSize h o a b)) := by
  refine hi.of_same (same_store hz (by rw [ho]; simp)) (fun e l hf hst hl => ?_)
  by_cases hed : e = d
  · subst hed
    obtain ⟨hg, hfa, hfb⟩ := hi.inputs hf hst hz ho
    exact calc_right hi hg ho hfa hfb (store_same hz hl)
  · rw [store_ne hed] at hl
    exact hi.right e l hf hst hl

theorem inv_complete {S : Step} : ∀ (fuel : Nat) (h : Heap) (d : Nat), Inv S h → Inv S (complete fuel h d) := by
  intro fuel
  induction fuel with
  | zero => exact fun h _ hi => hi
  | succ n ih =>
    intro h d hi
    unfold complete
    split
    · exact hi
    · split
      · exact hi
      · rename_i hs
        split
        · exact hi
        · rename_i o a b hop
          obtain ⟨had, hbd, -⟩ := hi.wf.op d o a b hop
          have i1 := ih h a hi
          obtain ⟨h1, g1⟩ := same_complete n h a hi.wf
          have i2 : Inv S (completeArg (complete n) (complete n h a) b) := by
            cases b with
            | int c => exact i1
            | dim e => exact ih _ e i1
          have g2 : (completeArg (complete n) (complete n h a) b).get d = h.get d := by
            rw [← g1 d had]
            cases b with
            | int c => rfl
            | dim e => exact (same_complete n _ e i1.wf).2 d hbd
          exact inv_store i2 (by rw [g2]; simpa using hs) (by rw [g2]; exact hop)

/-- The size of a dim of this step is known after `complete`. -/
theorem complete_known {S : Step} : ∀ (fuel : Nat) (h : Heap) (d : Nat), Inv S h → Fresh S h d → d < fuel →
    ((complete fuel h d).get d).size.isSome := by
  intro fuel
  induction fuel with
  | zero => exact fun _ _ _ _ hd => absurd hd (by omega)
  | succ n ih =>
    intro h d hi hf hd
    unfold complete
    split
    · rename_i hst
      unfold Obj.size
      obtain ⟨m, hm⟩ := Option.isSome_iff_exists.mp hst
      rw [hm]
      rfl
    · rename_i hst
      have hst' : (h.get d).static = none := by simpa using hst
      split
      · rename_i hz
        obtain ⟨m, hm⟩ := Option.isSome_iff_exists.mp hz
        unfold Obj.size
        rw [hst', hm]
        rfl
      · rename_i hz
        have hz' : (h.get d).sizes = none := by simpa using hz
        split
        · rename_i ho
          cases hf with
          | static h1 => rw [h1] at hst'; simp at hst'
          | given hg => rw [hi.gsizes _ _ hg] at hz'; simp at hz'
          | own h0 h1 h2 => rw [h2] at hz'; simp at hz'
          | opInt h0 h1 h2 => rw [h1] at ho; simp at ho
          | opDim h0 h1 h2 h3 => rw [h1] at ho; simp at ho
        · rename_i o a b hop
          obtain ⟨hg, hfa, hfb⟩ := hi.inputs hf hst' hz' hop
          obtain ⟨had, hbd, hstat⟩ := hi.wf.op d o a b hop
          have i1 := inv_complete n h a hi
          have hdl := lt_of_op hop
          obtain ⟨h1, g1⟩ := same_complete n h a hi.wf
          have ka := ih h a hi hfa (by omega)
          -- the size of `a` stays known
          have keep : ∀ {x y : Heap} (e : Nat), Same x y → (x.get e).size.isSome → (y.get e).size.isSome := by
            intro x y e hxy hx
            unfold Obj.size at hx ⊢
            rw [hxy.static]
            cases hse : (x.get e).static with
            | some n => rfl
            | none =>
              rw [hse] at hx
              cases hz : (x.get e).sizes with
              | none => rw [hz] at hx; simp at hx
              | some l => rw [hxy.sizes e l hz]; rfl
          obtain ⟨h2, g2, ka2, kb2⟩ : Same (complete n h a) (completeArg (complete n) (complete n h a) b)
              ∧ (completeArg (complete n) (complete n h a) b).get d = h.get d
              ∧ ((completeArg (complete n) (complete n h a) b).get a).size.isSome
              ∧ (argSize (completeArg (complete n) (complete n h a) b) b).isSome := by
            cases b with
            | int c => exact ⟨Same.refl _, g1 d had, ka, rfl⟩
            | dim e =>
              obtain ⟨p, q⟩ := same_complete n (complete n h a) e i1.wf
              exact ⟨p, (q d hbd).trans (g1 d had), keep a p ka, ih _ e i1 (hfb.ext h1.ext) (Nat.lt_of_lt_of_le hbd (by omega))⟩
          have h12 := h1.trans h2
          show ((store (completeArg (complete n) (complete n h a) b) d
            (calcSize (completeArg (complete n) (complete n h a) b) o a b)).get d).size.isSome
          generalize completeArg (complete n) (complete n h a) b = H at h2 g2 ka2 kb2 h12 ⊢
          obtain ⟨x, hx⟩ := Option.isSome_iff_exists.mp ka2
          obtain ⟨y, hy⟩ := Option.isSome_iff_exists.mp kb2
          have hcalc : calcSize H o a b = some (combine o x y) := by
            unfold calcSize
            rw [hx, hy]
          have heach : ∃ l, combine o x y = .each l := by
            cases x with
            | each l => cases y <;> exact ⟨_, rfl⟩
            | all m =>
              cases y with
              | each l => exact ⟨_, rfl⟩
              | all m' =>
                exfalso
                have hsa : (H.get a).static = some m := by
                  unfold Obj.size at hx
                  cases hs : (H.get a).static with
                  | some k => rw [hs] at hx; simpa using hx
                  | none =>
                    rw [hs] at hx
                    cases hz : (H.get a).sizes with
                    | none => rw [hz] at hx; simp at hx
                    | some l => rw [hz] at hx; simp at hx
                rw [h12.static] at hsa
                rw [hst'] at hstat
                unfold staticOf at hstat
                rw [hsa] at hstat
                cases b with
                | int c => simp at hstat
                | dim e =>
                  have hse : (H.get e).static = some m' := by
                    simp only [argSize] at hy
                    unfold Obj.size at hy
                    cases hs : (H.get e).static with
                    | some k => rw [hs] at hy; simpa using hy
                    | none =>
                      rw [hs] at hy
                      cases hz : (H.get e).sizes with
                      | none => rw [hz] at hy; simp at hy
                      | some l => rw [hz] at hy; simp at hy
                  rw [h12.static] at hse
                  simp [hse] at hstat
          obtain ⟨l, hl⟩ := heach
          rw [hcalc, hl]
          unfold store
          simp only
          rw [get_put_same (by rw [h12.len]; exact hdl)]
          unfold Obj.size
          simp only
          rw [h12.static, hst']
          rfl

theorem mem_insert {c : List ((Op × Arg) × Nat)} {k : Op × Arg} {v : Nat} {e : (Op × Arg) × Nat} (he : e ∈ insert c k v) :
    e ∈ c ∨ e = (k, v) := by
  unfold insert at he
  split at he
  · rcases List.mem_append.mp he with h1 | h1
    · exact .inl (List.mem_filter.mp h1).1
    · exact .inr (List.mem_singleton.mp h1)
  · rcases List.mem_append.mp he with h1 | h1
    · exact .inl h1
    · exact .inr (List.mem_singleton.mp h1)

theorem mem_lookup {c : List ((Op × Arg) × Nat)} {k : Op × Arg} {v : Nat} (h : lookup c k = some v) : (k, v) ∈ c := by
  unfold lookup at h
  cases hf : c.find? (fun e => e.1 == k) with
  | none => rw [hf] at h; simp at h
  | some e =>
    rw [hf] at h
    simp only [Option.map_some, Option.some.injEq] at h
    have hk : e.1 = k := by simpa using List.find?_some hf
    have := List.mem_of_find?_eq_some hf
    rw [← hk, ← h]
    exact this

/-- The heap after a new derived dim. -/
def pushOp (h : Heap) (o : Op) (a : Nat) (b : Arg) : Heap :=
  let h1 := h.push { static := staticOf h o a b, op := some (o, a, b) }
  h1.put a { h1.get a with cache := insert (h1.get a).cache (o, b) h.objs.length }

theorem derive_cases (h : Heap) (o : Op) (a : Nat) (b : Arg) :
    (∃ d, lookup (h.get a).cache (o, b) = some d ∧ derive h o a b = (read h d, d))
    ∨ (lookup (h.get a).cache (o, b) = none ∧ derive h o a b = (pushOp h o a b, h.objs.length)) := by
  unfold derive
  cases hl : lookup (h.get a).cache (o, b) with
  | some d => exact .inl ⟨d, rfl, rfl⟩
  | none => exact .inr ⟨rfl, rfl⟩

theorem len_pushOp (h : Heap) (o : Op) (a : Nat) (b : Arg) : (pushOp h o a b).objs.length = h.objs.length + 1 := by
  unfold pushOp
  simp only
  rw [len_put, len_push]

theorem pushOp_new {h : Heap} {o : Op} {a : Nat} {b : Arg} (ha : a < h.objs.length) :
    (pushOp h o a b).get h.objs.length = { static := staticOf h o a b, op := some (o, a, b) } := by
  unfold pushOp
  simp only
  rw [get_put_ne (by omega), get_push_same]

theorem pushOp_a {h : Heap} {o : Op} {a : Nat} {b : Arg} (ha : a < h.objs.length) :
    (pushOp h o a b).get a = { h.get a with cache := insert (h.get a).cache (o, b) h.objs.length } := by
  unfold pushOp
  simp only
  rw [get_put_same (by rw [len_push]; omega), get_push_lt ha]

theorem pushOp_ne {h : Heap} {o : Op} {a : Nat} {b : Arg} {d : Nat} (hd : d < h.objs.length) (hne : d ≠ a) :
    (pushOp h o a b).get d = h.get d := by
  unfold pushOp
  simp only
  rw [get_put_ne hne, get_push_lt hd]

/-- Existing objects only get cache entries. -/
theorem pushOp_old {h : Heap} {o : Op} {a : Nat} {b : Arg} (ha : a < h.objs.length) {d : Nat} (hd : d < h.objs.length) :
    ((pushOp h o a b).get d).static = (h.get d).static ∧ ((pushOp h o a b).get d).op = (h.get d).op
      ∧ ((pushOp h o a b).get d).sizes = (h.get d).sizes
      ∧ ∀ k v, (k, v) ∈ ((pushOp h o a b).get d).cache → (k, v) ∈ (h.get d).cache ∨ (d = a ∧ k = (o, b) ∧ v = h.objs.length) := by
  by_cases hda : d = a
  · subst hda
    rw [pushOp_a ha]
    refine ⟨rfl, rfl, rfl, fun k v hv => ?_⟩
    rcases mem_insert hv with h1 | h1
    · exact .inl h1
    · simp only [Prod.mk.injEq] at h1
      exact .inr ⟨rfl, h1.1, h1.2⟩
  · rw [pushOp_ne hd hda]
    exact ⟨rfl, rfl, rfl, fun k v hv => .inl hv⟩

theorem ext_pushOp {h : Heap} {o : Op} {a : Nat} {b : Arg} (ha : a < h.objs.length) : Ext h (pushOp h o a b) := by
  refine ⟨by rw [len_pushOp]; omega, fun d hd => (pushOp_old ha hd).1, fun d hd => (pushOp_old ha hd).2.1, fun d l hs => ?_,
    fun d hd _ => (pushOp_old ha hd).2.2.1⟩
  rw [(pushOp_old ha (lt_of_sizes hs)).2.2.1]
  exact hs

theorem ext_push (h : Heap) (x : Obj) : Ext h (h.push x) := by
  refine ⟨by rw [len_push]; omega, fun d hd => by rw [get_push_lt hd], fun d hd => by rw [get_push_lt hd], fun d l hs => ?_,
    fun d hd _ => by rw [get_push_lt hd]⟩
  rw [get_push_lt (lt_of_sizes hs)]
  exact hs

theorem wf_pushOp {h : Heap} (hw : Wf h) {o : Op} {a : Nat} {b : Arg} (ha : a < h.objs.length) (hb : b.lt h.objs.length) :
    Wf (pushOp h o a b) := by
  have hext := ext_pushOp (o := o) (b := b) ha
  constructor
  · intro d o' a' b' ho
    have hlt := lt_of_op ho
    rw [len_pushOp] at hlt
    by_cases hd : d = h.objs.length
    · subst hd
      rw [pushOp_new ha] at ho ⊢
      simp only [Option.some.injEq, Prod.mk.injEq] at ho
      obtain ⟨rfl, rfl, rfl⟩ := ho
      refine ⟨ha, hb, ?_⟩
      refine (staticOf_congr (hext.static a ha) (fun e he => hext.static e ?_)).symm
      subst he
      exact hb
    · have hd' : d < h.objs.length := by omega
      rw [hext.op d hd'] at ho
      obtain ⟨h1, h2, h3⟩ := hw.op d o' a' b' ho
      refine ⟨h1, h2, ?_⟩
      rw [hext.static d hd', h3]
      refine (staticOf_congr (hext.static a' (by omega)) (fun e he => hext.static e ?_)).symm
      subst he
      exact Nat.lt_trans h2 hd'
  · intro d k v hv
    have hlt : d < h.objs.length + 1 := by
      by_contra hc
      rw [get_ge (by rw [len_pushOp]; omega)] at hv
      simp at hv
    rw [len_pushOp]
    by_cases hd : d = h.objs.length
    · subst hd
      rw [pushOp_new ha] at hv
      simp at hv
    · have hd' : d < h.objs.length := by omega
      rcases (pushOp_old ha hd').2.2.2 k v hv with h1 | ⟨rfl, rfl, rfl⟩
      · obtain ⟨p, q⟩ := hw.cache d k v h1
        exact ⟨by omega, by rw [hext.op v p]; exact q⟩
      · exact ⟨by omega, by rw [pushOp_new ha]⟩

theorem wf_push {h : Heap} (hw : Wf h) {x : Obj} (hx : x.op = none) (hc : x.cache = []) : Wf (h.push x) := by
  have hext := ext_push h x
  constructor
  · intro d o a b ho
    have hlt := lt_of_op ho
    rw [len_push] at hlt
    by_cases hd : d = h.objs.length
    · subst hd
      rw [get_push_same, hx] at ho
      simp at ho
    · have hd' : d < h.objs.length := by omega
      rw [hext.op d hd'] at ho
      obtain ⟨h1, h2, h3⟩ := hw.op d o a b ho
      refine ⟨h1, h2, ?_⟩
      rw [hext.static d hd', h3]
      refine (staticOf_congr (hext.static a (by omega)) (fun e he => hext.static e ?_)).symm
      subst he
      exact Nat.lt_trans h2 hd'
  · intro d k v hv
    have hlt : d < h.objs.length + 1 := by
      by_contra hc'
      rw [get_ge (by rw [len_push]; omega)] at hv
      simp at hv
    rw [len_push]
    by_cases hd : d = h.objs.length
    · subst hd
      rw [get_push_same, hc] at hv
      simp at hv
    · have hd' : d < h.objs.length := by omega
      rw [get_push_lt hd'] at hv
      obtain ⟨p, q⟩ := hw.cache d k v hv
      exact ⟨by omega, by rw [hext.op v p]; exact q⟩

theorem wf_act {B : Nat} {h h' : Heap} (hw : Wf h) (ha : Act B h h') : Wf h' := by
  cases ha with
  | derive o a b hal hbl =>
    rcases derive_cases h o a b with ⟨d, -, hd⟩ | ⟨-, hd⟩
    · rw [hd]
      exact hw.same (same_complete _ h d hw).1
    · rw [hd]
      exact wf_pushOp hw hal hbl
  | read d => exact hw.same (same_complete _ h d hw).1
  | new st sz _ => exact wf_push hw rfl rfl

theorem ext_act {B : Nat} {h h' : Heap} (hw : Wf h) (ha : Act B h h') : Ext h h' := by
  cases ha with
  | derive o a b hal hbl =>
    rcases derive_cases h o a b with ⟨d, -, hd⟩ | ⟨-, hd⟩
    · rw [hd]
      exact (same_complete _ h d hw).1.ext
    · rw [hd]
      exact ext_pushOp hal
  | read d => exact (same_complete _ h d hw).1.ext
  | new st sz _ => exact ext_push h _

theorem inv_pushOp {S : Step} {h : Heap} (hi : Inv S h) {o : Op} {a : Nat} {b : Arg} (ha : a < h.objs.length)
    (hb : b.lt h.objs.length) : Inv S (pushOp h o a b) := by
  have hext := ext_pushOp (o := o) (b := b) ha
  have hgl : ∀ d l, S.given d = some l → d < h.objs.length := fun d l hg => Nat.lt_of_lt_of_le (hi.glt d l hg) hi.n0
  refine ⟨wf_pushOp hi.wf ha hb, Nat.le_trans hi.n0 hext.len, hi.glt, fun d l hg => ?_, fun d l hg => hext.sizes d l (hi.gsizes d l hg),
    hi.glen, fun d l hf hst hz => ?_, fun d k v hd hv => ?_⟩
  · rw [hext.static d (hgl d l hg)]
    exact hi.gstatic d l hg
  · have hlt := lt_of_sizes hz
    rw [len_pushOp] at hlt
    by_cases hd : d = h.objs.length
    · subst hd
      rw [pushOp_new ha] at hz
      simp at hz
    · have hd' : d < h.objs.length := by omega
      rw [hext.static d hd'] at hst
      rw [(pushOp_old ha hd').2.2.1] at hz
      exact (hi.right d l (Fresh.of_ext hi.wf hext hgl hf hd') hst hz).ext hext
  · by_cases hd' : d < h.objs.length
    · rcases (pushOp_old ha hd').2.2.2 k v hv with h1 | ⟨rfl, rfl, rfl⟩
      · exact hi.cache d k v hd h1
      · exact hi.n0
    · by_cases he : d = h.objs.length
      · subst he
        rw [pushOp_new ha] at hv
        simp at hv
      · rw [get_ge (by rw [len_pushOp]; omega)] at hv
        simp at hv

theorem inv_push {S : Step} {h : Heap} (hi : Inv S h) {x : Obj} (hx : x.op = none) (hc : x.cache = [])
    (hB : ∀ l, x.sizes = some l → l.length = S.B) : Inv S (h.push x) := by
  have hext := ext_push h x
  have hgl : ∀ d l, S.given d = some l → d < h.objs.length := fun d l hg => Nat.lt_of_lt_of_le (hi.glt d l hg) hi.n0
  refine ⟨wf_push hi.wf hx hc, Nat.le_trans hi.n0 hext.len, hi.glt, fun d l hg => ?_, fun d l hg => hext.sizes d l (hi.gsizes d l hg),
    hi.glen, fun d l hf hst hz => ?_, fun d k v hd hv => ?_⟩
  · rw [hext.static d (hgl d l hg)]
    exact hi.gstatic d l hg
  · have hlt := lt_of_sizes hz
    rw [len_push] at hlt
    by_cases hd : d = h.objs.length
    · subst hd
      have hgn : S.given h.objs.length = none := by
        cases hg : S.given h.objs.length with
        | none => rfl
        | some l => exact absurd (hgl _ l hg) (by omega)
      have hz' := hz
      rw [get_push_same] at hz'
      refine ⟨hB l hz', fun i n hn => .own hgn hi.n0 (by rw [get_push_same]; exact hx) hst hz hn⟩
    · have hd' : d < h.objs.length := by omega
      rw [hext.static d hd'] at hst
      rw [get_push_lt hd'] at hz
      exact (hi.right d l (Fresh.of_ext hi.wf hext hgl hf hd') hst hz).ext hext
  · by_cases hd' : d < h.objs.length
    · rw [get_push_lt hd'] at hv
      exact hi.cache d k v hd hv
    · by_cases he : d = h.objs.length
      · subst he
        rw [get_push_same, hc] at hv
        simp at hv
      · rw [get_ge (by rw [len_push]; omega)] at hv
        simp at hv

theorem inv_act {S : Step} {h h' : Heap} (hi : Inv S h) (ha : Act S.B h h') : Inv S h' := by
  cases ha with
  | derive o a b hal hbl =>
    rcases derive_cases h o a b with ⟨d, -, hd⟩ | ⟨-, hd⟩
    · rw [hd]
      exact inv_complete _ h d hi
    · rw [hd]
      exact inv_pushOp hi hal hbl
  | read d => exact inv_complete _ h d hi
  | new st sz hB => exact inv_push hi rfl rfl hB

theorem inv_run {S : Step} {h h' : Heap} (hi : Inv S h) (hr : Run S.B h h') : Inv S h' := by
  induction hr with
  | refl => exact hi
  | tail _ ha ih => exact inv_act ih ha

/-- Objects keep what they are; caches may lose entries. -/
structure Less (h h' : Heap) : Prop where
  len : h'.objs.length = h.objs.length
  static : ∀ d, (h'.get d).static = (h.get d).static
  op : ∀ d, (h'.get d).op = (h.get d).op
  cache : ∀ d e, e ∈ (h'.get d).cache → e ∈ (h.get d).cache

theorem Less.refl (h : Heap) : Less h h := ⟨rfl, fun _ => rfl, fun _ => rfl, fun _ _ he => he⟩

theorem Less.trans {a b c : Heap} (h1 : Less a b) (h2 : Less b c) : Less a c :=
  ⟨h2.len.trans h1.len, fun d => (h2.static d).trans (h1.static d), fun d => (h2.op d).trans (h1.op d),
    fun d e he => h1.cache d e (h2.cache d e he)⟩

theorem Wf.less {h h' : Heap} (hw : Wf h) (hs : Less h h') : Wf h' := by
  constructor
  · intro d o a b ho
    rw [hs.op] at ho
    obtain ⟨h1, h2, h3⟩ := hw.op d o a b ho
    exact ⟨h1, h2, by rw [hs.static, h3, staticOf_congr (hs.static a) (fun e _ => hs.static e)]⟩
  · intro d k v hv
    obtain ⟨h1, h2⟩ := hw.cache d k v (hs.cache d _ hv)
    exact ⟨by rw [hs.len]; exact h1, by rw [hs.op]; exact h2⟩

/-- Changing only the sizes and the cache of an object. -/
theorem less_put {h : Heap} {d : Nat} {x : Obj} (h1 : x.static = (h.get d).static) (h2 : x.op = (h.get d).op)
    (h3 : ∀ e, e ∈ x.cache → e ∈ (h.get d).cache) : Less h (h.put d x) := by
  by_cases hd : d < h.objs.length
  · refine ⟨len_put .., fun e => ?_, fun e => ?_, fun e c hc => ?_⟩
    all_goals by_cases hed : e = d
    · subst hed; rw [get_put_same hd]; exact h1
    · rw [get_put_ne hed]
    · subst hed; rw [get_put_same hd]; exact h2
    · rw [get_put_ne hed]
    · subst hed; rw [get_put_same hd] at hc; exact h3 c hc
    · rw [get_put_ne hed] at hc; exact hc
  · rw [put_ge (by omega)]
    exact Less.refl h

theorem less_reset (h : Heap) (d : Nat) : Less h (reset h d) := less_put rfl rfl (fun _ he => absurd he (by simp))

theorem reset_ne {h : Heap} {d e : Nat} (hne : e ≠ d) : (reset h d).get e = h.get e := get_put_ne hne

/-- An object without sizes and cache stays so under resets. -/
theorem reset_keep {h : Heap} {d e : Nat} (hs : (h.get e).sizes = none) (hc : (h.get e).cache = []) :
    ((reset h d).get e).sizes = none ∧ ((reset h d).get e).cache = [] := by
  by_cases hed : e = d
  · subst hed
    by_cases hd : e < h.objs.length
    · unfold reset
      rw [get_put_same hd]
      exact ⟨rfl, rfl⟩
    · unfold reset
      rw [put_ge (by omega)]
      exact ⟨hs, hc⟩
  · rw [reset_ne hed]
    exact ⟨hs, hc⟩

theorem resets (L : List Nat) : ∀ h : Heap, Less h (L.foldl reset h)
    ∧ (∀ d, (h.get d).sizes = none → (h.get d).cache = [] →
        ((L.foldl reset h).get d).sizes = none ∧ ((L.foldl reset h).get d).cache = [])
    ∧ (∀ d, d ∈ L → d < h.objs.length → ((L.foldl reset h).get d).sizes = none ∧ ((L.foldl reset h).get d).cache = []) := by
  induction L with
  | nil => exact fun h => ⟨Less.refl h, fun d h1 h2 => ⟨h1, h2⟩, fun d hd => absurd hd (by simp)⟩
  | cons x L ih =>
    intro h
    obtain ⟨i1, i2, i3⟩ := ih (reset h x)
    refine ⟨(less_reset h x).trans i1, fun d h1 h2 => ?_, fun d hd hl => ?_⟩
    · obtain ⟨k1, k2⟩ := reset_keep (d := x) h1 h2
      exact i2 d k1 k2
    · rcases List.mem_cons.mp hd with rfl | hd
      · refine i2 d ?_ ?_
        · unfold reset
          rw [get_put_same hl]
        · unfold reset
          rw [get_put_same hl]
      · exact i3 d hd (by rw [(less_reset h x).len]; exact hl)

theorem mem_dedup_aux (l : List Nat) : ∀ (acc : List Nat) (d : Nat), (d ∈ acc ∨ d ∈ l) →
    d ∈ l.foldl (fun acc d => if acc.contains d then acc else acc ++ [d]) acc := by
  induction l with
  | nil => intro acc d hd; simpa using hd
  | cons x l ih =>
    intro acc d hd
    simp only [List.foldl_cons]
    apply ih
    by_cases hc : acc.contains x = true
    · rw [if_pos hc]
      rcases hd with hd | hd
      · exact .inl hd
      · rcases List.mem_cons.mp hd with rfl | hd
        · exact .inl (by simpa using hc)
        · exact .inr hd
    · rw [if_neg hc]
      rcases hd with hd | hd
      · exact .inl (List.mem_append_left _ hd)
      · rcases List.mem_cons.mp hd with rfl | hd
        · exact .inl (List.mem_append_right _ (by simp))
        · exact .inr hd

theorem mem_dynDims {h : Heap} {ts : List Template} {t : Template} {d : Nat} (ht : t ∈ ts) (hd : d ∈ t.dims)
    (hs : (h.get d).static = none) : d ∈ dynDims h ts := by
  unfold dynDims dynDims.dedup
  apply mem_dedup_aux
  right
  rw [List.mem_filter]
  exact ⟨List.mem_flatMap.mpr ⟨t, ht, hd⟩, by rw [hs]; rfl⟩

/-- Objects keep what they are, and only get sizes. -/
structure More (h h' : Heap) : Prop where
  len : h'.objs.length = h.objs.length
  static : ∀ d, (h'.get d).static = (h.get d).static
  op : ∀ d, (h'.get d).op = (h.get d).op
  cache : ∀ d, (h'.get d).cache = (h.get d).cache
  sizes : ∀ d l, (h.get d).sizes = some l → (h'.get d).sizes = some l

theorem More.refl (h : Heap) : More h h := ⟨rfl, fun _ => rfl, fun _ => rfl, fun _ => rfl, fun _ _ he => he⟩

theorem More.trans {a b c : Heap} (h1 : More a b) (h2 : More b c) : More a c :=
  ⟨h2.len.trans h1.len, fun d => (h2.static d).trans (h1.static d), fun d => (h2.op d).trans (h1.op d),
    fun d => (h2.cache d).trans (h1.cache d), fun d l hs => h2.sizes d l (h1.sizes d l hs)⟩

theorem More.less {h h' : Heap} (hm : More h h') : Less h h' :=
  ⟨hm.len, hm.static, hm.op, fun d e he => by rw [← hm.cache]; exact he⟩

/-- One entry of the extern data. -/
theorem setEntry_spec {raw : Dict String Raw} {h h' : Heap} {t : Template} (hs : setEntry raw h t = .ok h') :
    More h h' ∧ (∀ d, t.dims.head? ≠ some d → h'.get d = h.get d)
      ∧ (∀ d, t.dims.head? = some d → (h.get d).static = none → (h.get d).sizes = none → d < h.objs.length →
          ∃ r l, raw.get? t.key = some r ∧ r.seqLen = some l ∧ (h'.get d).sizes = some l) := by
  unfold setEntry at hs
  obtain ⟨r, hr, hs⟩ := bind_ok hs
  have hr' : raw.get? t.key = some r := by
    unfold Dict.getItem at hr
    cases hg : raw.get? t.key with
    | none => rw [hg] at hr; cases hr
    | some r' => rw [hg] at hr; cases hr; rfl
  split at hs
  · unfold setTime at hs
    split at hs
    · rename_i hd0
      cases hs
      refine ⟨More.refl h, fun _ _ => rfl, fun d hd => ?_⟩
      rw [hd0] at hd
      simp at hd
    · rename_i d0 rest hd0
      rw [hd0]
      split at hs
      · rename_i hc
        simp only [Bool.and_eq_true] at hc
        have hn1 : (h.get d0).static = none := by simpa using hc.1
        have hn2 : (h.get d0).sizes = none := by simpa using hc.2
        cases hq : r.seqLen with
        | none => rw [hq] at hs; cases hs
        | some l =>
          rw [hq] at hs
          cases hs
          refine ⟨?_, fun d hd => ?_, fun d hd _ _ hlt => ?_⟩
          · by_cases hd : d0 < h.objs.length
            · refine ⟨len_put .., fun e => ?_, fun e => ?_, fun e => ?_, fun e l' hs' => ?_⟩
              all_goals by_cases hed : e = d0
              · subst hed; rw [get_put_same hd]
              · rw [get_put_ne hed]
              · subst hed; rw [get_put_same hd]
              · rw [get_put_ne hed]
              · subst hed; rw [get_put_same hd]
              · rw [get_put_ne hed]
              · subst hed; rw [hn2] at hs'; exact absurd hs' (by simp)
              · rw [get_put_ne hed]; exact hs'
            · rw [put_ge (by omega)]
              exact More.refl h
          · refine get_put_ne (fun he => hd ?_)
            rw [he]
            rfl
          · simp only [List.head?_cons, Option.some.injEq] at hd
            subst hd
            exact ⟨r, l, hr', hq, by rw [get_put_same hlt]⟩
      · rename_i hc
        cases hs
        refine ⟨More.refl h, fun _ _ => rfl, fun d hd h1 h2 _ => ?_⟩
        simp only [List.head?_cons, Option.some.injEq] at hd
        subst hd
        rw [h1, h2] at hc
        simp at hc
  · cases hs
where
  bind_ok {α β : Type} {x : Res α} {f : α → Res β} {b : β} (h : (x >>= f) = .ok b) : ∃ a, x = .ok a ∧ f a = .ok b := by
    cases x with
    | error e => cases h
    | ok a => exact ⟨a, rfl, h⟩

/-- All entries: the first entry with a dim gives its sizes. -/
theorem setEntries_spec {raw : Dict String Raw} : ∀ (ts : List Template) (h h' : Heap), ts.foldlM (setEntry raw) h = .ok h' →
    More h h' ∧ ∀ d t, (h.get d).static = none → (h.get d).sizes = none → d < h.objs.length →
      ts.find? (fun t => t.dims.head? == some d) = some t →
      ∃ r l, raw.get? t.key = some r ∧ r.seqLen = some l ∧ (h'.get d).sizes = some l := by
  intro ts
  induction ts with
  | nil =>
    intro h h' hf
    cases hf
    exact ⟨More.refl h, fun d t _ _ _ hd => absurd hd (by simp)⟩
  | cons t ts ih =>
    intro h h' hf
    rw [List.foldlM_cons] at hf
    obtain ⟨h1, he, hf⟩ := setEntry_spec.bind_ok hf
    obtain ⟨m1, n1, s1⟩ := setEntry_spec he
    obtain ⟨m2, s2⟩ := ih h1 h' hf
    refine ⟨m1.trans m2, fun d t' hst hz hlt hfind => ?_⟩
    by_cases hd : t.dims.head? = some d
    · rw [List.find?_cons_of_pos (by simpa using hd)] at hfind
      cases hfind
      obtain ⟨r, l, p1, p2, p3⟩ := s1 d hd hst hz hlt
      exact ⟨r, l, p1, p2, m2.sizes d l p3⟩
    · rw [List.find?_cons_of_neg (by simpa using hd)] at hfind
      have hg := n1 d hd
      exact s2 d t' (by rw [hg]; exact hst) (by rw [hg]; exact hz) (by rw [m1.len]; exact hlt) hfind

theorem less_startStep {ts : List Template} {raw : Dict String Raw} {h h' : Heap} (hs : startStep ts raw h = .ok h') : Less h h' :=
  (resets _ h).1.trans (setEntries_spec ts _ h' hs).1.less

theorem wf_hist {h : Heap} (hh : Hist h) : Wf h := by
  induction hh with
  | start =>
    constructor
    · intro d o a b ho
      rw [get_ge (by simp)] at ho
      simp at ho
    · intro d k v hv
      rw [get_ge (by simp)] at hv
      simp at hv
  | act _ ha ih => exact wf_act ih ha
  | step _ hs ih => exact ih.less (less_startStep hs)

/-- The step starts with the invariant. -/
theorem inv_start {ts : List Template} {raw : Dict String Raw} {B : Nat} {h h' : Heap} (hw : Wf h) (hv : ValidBatch h ts raw B)
    (hs : startStep ts raw h = .ok h') : Inv (stepOf h ts raw B) h' := by
  have hless := less_startStep hs
  obtain ⟨r1, -, r3⟩ := resets (dynDims h ts) h
  obtain ⟨m1, s1⟩ := setEntries_spec ts _ h' hs
  -- what a given dim is
  have hgiv : ∀ d l, (stepOf h ts raw B).given d = some l → (h.get d).static = none ∧ d < h.objs.length ∧ d ∈ dynDims h ts
      ∧ ∃ t, ts.find? (fun t => t.dims.head? == some d) = some t ∧ (raw.get? t.key).bind Raw.seqLen = some l := by
    intro d l hg
    unfold Step.given stepOf at hg
    simp only at hg
    split at hg
    · rename_i hst
      have hst' : (h.get d).static = none := by simpa using hst
      cases hf : ts.find? (fun t => t.dims.head? == some d) with
      | none => rw [hf] at hg; simp at hg
      | some t =>
        rw [hf] at hg
        have htm := List.mem_of_find?_eq_some hf
        have hhd : t.dims.head? = some d := by simpa using List.find?_some hf
        have hdm : d ∈ t.dims := List.mem_of_mem_head? (by rw [hhd]; rfl)
        exact ⟨hst', hv.exist t htm d hdm, mem_dynDims htm hdm hst', t, rfl, hg⟩
    · simp at hg
  have hsz : ∀ d l, (stepOf h ts raw B).given d = some l → (h'.get d).sizes = some l := by
    intro d l hg
    obtain ⟨h1, h2, h3, t, h4, h5⟩ := hgiv d l hg
    obtain ⟨r, l', p1, p2, p3⟩ := s1 d t (by rw [r1.static]; exact h1) (r3 d h3 h2).1 (by rw [r1.len]; exact h2) h4
    rw [p1] at h5
    simp only [Option.bind_some] at h5
    rw [p2] at h5
    cases h5
    exact p3
  have hln : ∀ d l, (stepOf h ts raw B).given d = some l → l.length = (stepOf h ts raw B).B := by
    intro d l hg
    obtain ⟨-, -, -, t, -, h5⟩ := hgiv d l hg
    cases hr : raw.get? t.key with
    | none => rw [hr] at h5; simp at h5
    | some r =>
      rw [hr] at h5
      exact hv.num t.key r l hr h5
  refine ⟨hw.less hless, Nat.le_of_eq hless.len.symm, fun d l hg => (hgiv d l hg).2.1, fun d l hg => ?_, hsz, hln, fun d l hf hst hz => ?_,
    fun d k v hd hkv => ?_⟩
  · rw [hless.static]
    exact (hgiv d l hg).1
  · have hlt := lt_of_sizes hz
    rw [hless.len] at hlt
    cases hf with
    | static h1 => rw [h1] at hst; simp at hst
    | given hg =>
      rw [hsz _ _ hg] at hz
      cases hz
      exact ⟨hln _ _ hg, fun i n hn => .given hg hn⟩
    | own h0 _ _ => exact absurd hlt (Nat.not_lt.mpr h0)
    | opInt h0 _ _ => exact absurd hlt (Nat.not_lt.mpr h0)
    | opDim h0 _ _ _ => exact absurd hlt (Nat.not_lt.mpr h0)
  · rcases hd with hg | hd
    · obtain ⟨l, hl⟩ := Option.isSome_iff_exists.mp hg
      obtain ⟨-, h2, h3, -⟩ := hgiv d l hl
      rw [m1.cache, (r3 d h3 h2).2] at hkv
      simp at hkv
    · rw [get_ge (by rw [hless.len]; exact hd)] at hkv
      simp at hkv

end Verif.StepDims
