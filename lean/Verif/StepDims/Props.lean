import Verif.StepDims.Lemmas
/-
C99: every step works with the sizes of its own batch.  The full statement would be about every dim the user has: it does not hold for
dims which are kept over steps (`held_stale`), and not for operations whose first operand is a static dim (`cached_stale`).
-/
namespace Verif.StepDims

open Verif.Py

/-- A dim has one length for a sequence. -/
theorem len_unique {S : Step} {h : Heap} (hst : ∀ d l, S.given d = some l → (h.get d).static = none) {i d n m : Nat}
    (h1 : Len S h i d n) (h2 : Len S h i d m) : n = m := by
  induction h1 generalizing m with
  | static ho hs =>
    cases h2 with
    | static _ hs' => rw [hs] at hs'; cases hs'; rfl
    | given hg _ => rw [hst _ _ hg] at hs; cases hs
    | own _ _ _ hs' _ _ => rw [hs] at hs'; cases hs'
    | opInt _ ho' _ => rw [ho] at ho'; cases ho'
    | opDim _ ho' _ _ => rw [ho] at ho'; cases ho'
  | given hg hn =>
    cases h2 with
    | static _ hs' => rw [hst _ _ hg] at hs'; cases hs'
    | given hg' hn' => rw [hg] at hg'; cases hg'; rw [hn] at hn'; cases hn'; rfl
    | own hg' _ _ _ _ _ => rw [hg] at hg'; cases hg'
    | opInt hg' _ _ => rw [hg] at hg'; cases hg'
    | opDim hg' _ _ _ => rw [hg] at hg'; cases hg'
  | own hg _ ho hs hz hn =>
    cases h2 with
    | static _ hs' => rw [hs] at hs'; cases hs'
    | given hg' _ => rw [hg] at hg'; cases hg'
    | own _ _ _ _ hz' hn' => rw [hz] at hz'; cases hz'; rw [hn] at hn'; cases hn'; rfl
    | opInt _ ho' _ => rw [ho] at ho'; cases ho'
    | opDim _ ho' _ _ => rw [ho] at ho'; cases ho'
  | opInt hg ho _ ih =>
    cases h2 with
    | static ho' _ => rw [ho] at ho'; cases ho'
    | given hg' _ => rw [hg] at hg'; cases hg'
    | own _ _ ho' _ _ _ => rw [ho] at ho'; cases ho'
    | opInt _ ho' h2' => rw [ho] at ho'; cases ho'; rw [ih h2']
    | opDim _ ho' _ _ => rw [ho] at ho'; cases ho'
  | opDim hg ho _ _ ih1 ih2 =>
    cases h2 with
    | static ho' _ => rw [ho] at ho'; cases ho'
    | given hg' _ => rw [hg] at hg'; cases hg'
    | own _ _ ho' _ _ _ => rw [ho] at ho'; cases ho'
    | opInt _ ho' _ => rw [ho] at ho'; cases ho'
    | opDim _ ho' h3 h4 => rw [ho] at ho'; cases ho'; rw [ih1 h3, ih2 h4]

/-- **C99, sizes.**  After any history of steps, the next step starts with its batch, and user code does anything with dims.  Then
reading a dynamic dim of the current step gives the lengths for the sequences of the current batch. -/
theorem read_right_partial {ts : List Template} {raw : Dict String Raw} {B : Nat} {h0 h1 h : Heap} (hh : Hist h0)
    (hv : ValidBatch h0 ts raw B) (hs : startStep ts raw h0 = .ok h1) (hr : Run B h1 h) {d : Nat}
    (hf : Fresh (stepOf h0 ts raw B) h d) (hd : (h.get d).static = none) :
    ∃ l, ((read h d).get d).sizes = some l ∧ l.length = B ∧ ∀ i n, l[i]? = some n → Len (stepOf h0 ts raw B) h i d n := by
  have hi : Inv (stepOf h0 ts raw B) h := inv_run (S := stepOf h0 ts raw B) (inv_start (wf_hist hh) hv hs) hr
  have hk := complete_known (d + 1) h d hi hf (Nat.lt_succ_self d)
  have hsame := (same_complete (d + 1) h d hi.wf).1
  have hi' := inv_complete (d + 1) h d hi
  have hd' : ((complete (d + 1) h d).get d).static = none := by rw [hsame.static]; exact hd
  unfold Obj.size at hk
  rw [hd'] at hk
  cases hz : ((complete (d + 1) h d).get d).sizes with
  | none => rw [hz] at hk; simp at hk
  | some l =>
    have hright := hi'.right d l (hf.ext hsame.ext) hd' hz
    refine ⟨l, hz, hright.1, fun i n hn => ?_⟩
    -- the lengths are about the dims before reading too
    exact back hi hsame (hright.2 i n hn) (lt_of_some hsame hz)
where
  lt_of_some {a b : Heap} (hs : Same a b) {d : Nat} {l : List Nat} (hz : (b.get d).sizes = some l) : d < a.objs.length := by
    rw [← hs.len]
    exact lt_of_sizes hz
  back {S : Step} {a b : Heap} (hi : Inv S a) (hs : Same a b) {i d n : Nat} (hl : Len S b i d n) (hd : d < a.objs.length) :
      Len S a i d n := by
    induction hl with
    | static ho hst => exact .static (by rw [← hs.op]; exact ho) (by rw [← hs.static]; exact hst)
    | given hg hn => exact .given hg hn
    | own hg h0 ho hst hz hn =>
      rw [hs.op] at ho
      exact .own hg h0 ho (by rw [← hs.static]; exact hst) (by rw [← hs.noop _ ho]; exact hz) hn
    | opInt hg ho _ ih =>
      rw [hs.op] at ho
      exact .opInt hg ho (ih (Nat.lt_trans (hi.wf.op _ _ _ _ ho).1 hd))
    | opDim hg ho _ _ ih1 ih2 =>
      rw [hs.op] at ho
      exact .opDim hg ho (ih1 (Nat.lt_trans (hi.wf.op _ _ _ _ ho).1 hd)) (ih2 (Nat.lt_trans (hi.wf.op _ _ _ _ ho).2.1 hd))

/-- The length of an operand. -/
def LenArg (S : Step) (h : Heap) (i : Nat) : Arg → Nat → Prop
  | .int c, n => n = c
  | .dim d, n => Len S h i d n

/-- **C99, operations.**  An operation whose first operand is a dim of the batch or was created in this step gives a dim of this step,
also from the cache, and it has the length of the operation on the operands. -/
theorem derive_right_partial {ts : List Template} {raw : Dict String Raw} {B : Nat} {h0 h1 h : Heap} (hh : Hist h0)
    (hv : ValidBatch h0 ts raw B) (hs : startStep ts raw h0 = .ok h1) (hr : Run B h1 h) {o : Op} {a : Nat} {b : Arg}
    (hal : a < h.objs.length) (hbl : b.lt h.objs.length)
    (ha : ((stepOf h0 ts raw B).given a).isSome ∨ h0.objs.length ≤ a) (hfa : Fresh (stepOf h0 ts raw B) h a)
    (hfb : FreshArg (stepOf h0 ts raw B) h b) :
    Fresh (stepOf h0 ts raw B) (derive h o a b).1 (derive h o a b).2
    ∧ ∀ i x y, Len (stepOf h0 ts raw B) h i a x → LenArg (stepOf h0 ts raw B) h i b y →
        Len (stepOf h0 ts raw B) (derive h o a b).1 i (derive h o a b).2 (opVal o x y) := by
  have hi : Inv (stepOf h0 ts raw B) h := inv_run (S := stepOf h0 ts raw B) (inv_start (wf_hist hh) hv hs) hr
  have hext : Ext h (derive h o a b).1 := ext_act (B := B) hi.wf (.derive h o a b hal hbl)
  -- the result was created in this step, by this operation
  obtain ⟨hn0, hop⟩ : (stepOf h0 ts raw B).n0 ≤ (derive h o a b).2 ∧ ((derive h o a b).1.get (derive h o a b).2).op = some (o, a, b) := by
    rcases derive_cases h o a b with ⟨d, hl, hd⟩ | ⟨-, hd⟩
    · have hm := mem_lookup hl
      rw [hd]
      refine ⟨hi.cache a _ d ha hm, ?_⟩
      show ((complete (d + 1) h d).get d).op = _
      rw [(same_complete (d + 1) h d hi.wf).1.op]
      exact (hi.wf.cache a _ d hm).2
    · rw [hd]
      exact ⟨hi.n0, by rw [pushOp_new hal]⟩
  have hg : (stepOf h0 ts raw B).given (derive h o a b).2 = none := by
    cases hg : (stepOf h0 ts raw B).given (derive h o a b).2 with
    | none => rfl
    | some l => exact absurd (hi.glt _ l hg) (by omega)
  cases b with
  | int c =>
    refine ⟨.opInt hn0 hop (hfa.ext hext), fun i x y hx hy => ?_⟩
    cases hy
    exact .opInt hg hop (hx.ext hext)
  | dim e => exact ⟨.opDim hn0 hop (hfa.ext hext) (hfb.ext hext), fun i x y hx hy => .opDim hg hop (hx.ext hext) (hy.ext hext)⟩

/-- Operations on static dims give the right static size, also from the cache, after any history. -/
theorem derive_static {h : Heap} (hh : Hist h) {o : Op} {a x y : Nat} {b : Arg} (ha : (h.get a).static = some x)
    (hbl : b.lt h.objs.length) (hb : (∃ e, b = .dim e ∧ (h.get e).static = some y) ∨ b = .int y) :
    ((derive h o a b).1.get (derive h o a b).2).static = some (opVal o x y) := by
  have hw := wf_hist hh
  have hal := lt_of_static ha
  have hst : staticOf h o a b = some (opVal o x y) := by
    unfold staticOf
    rw [ha]
    rcases hb with ⟨e, rfl, he⟩ | rfl
    · simp [he, app_eq]
    · simp [app_eq]
  rcases derive_cases h o a b with ⟨d, hl, hd⟩ | ⟨-, hd⟩
  · rw [hd]
    show ((read h d).get d).static = _
    unfold read
    rw [(same_complete (d + 1) h d hw).1.static]
    have hop := (hw.cache a _ d (mem_lookup hl)).2
    rw [(hw.op d o a b hop).2.2]
    exact hst
  · rw [hd]
    show ((pushOp h o a b).get h.objs.length).static = _
    rw [pushOp_new hal]
    exact hst

/-- Static dims never change. -/
theorem static_kept {ts : List Template} {raw : Dict String Raw} {h h' : Heap} (hs : startStep ts raw h = .ok h') (d : Nat) :
    (h'.get d).static = (h.get d).static ∧ (h'.get d).op = (h.get d).op :=
  ⟨(less_startStep hs).static d, (less_startStep hs).op d⟩

/-! ### Examples: a time dim (0), a feature dim of size 10 (1) -/

def heap0 : Heap := { objs := [{}, { static := some 10 }] }

def tmpl : List Template := [{ key := "data", dims := [0, 1] }, { key := "align", dims := [0] }]

def batch1 : Dict String Raw := [("data", { shape := [3, 10], seqLen := some [2, 3] }), ("align", { shape := [3], seqLen := some [2, 3] })]

def batch2 : Dict String Raw := [("data", { shape := [5, 10], seqLen := some [5, 1] }), ("align", { shape := [5], seqLen := some [5, 1] })]

/-- The heap of a result. -/
def ok! (r : Res Heap) : Heap :=
  match r with
  | .ok h => h
  | .error _ => heap0

theorem hist0 : Hist heap0 := by
  have h1 := Hist.act Hist.start (Act.new (B := 0) { objs := [] } none none (by simp))
  exact Hist.act h1 (Act.new (B := 0) _ (some 10) none (by simp))

/-- The first step, with `(time + 3) // 2` and `time * feat` read; and the start of the second one. -/
def step1 : Heap := ok! (startStep tmpl batch1 heap0)
def used1 : Heap := read (derive (derive step1 .add 0 (.int 3)).1 .floordiv 2 (.int 2)).1 3
def step2 : Heap := ok! (startStep tmpl batch2 used1)

example : (used1.get 3).sizes = some [2, 3] ∧ (step2.get 0).sizes = some [5, 1] := by decide +kernel

/-- In the second step the same expression gives new dims, with the sizes of the second batch. -/
example : (derive step2 .add 0 (.int 3)).2 = 4 ∧ (derive (derive step2 .add 0 (.int 3)).1 .floordiv 4 (.int 2)).2 = 5
    ∧ ((read (derive (derive step2 .add 0 (.int 3)).1 .floordiv 4 (.int 2)).1 5).get 5).sizes = some [4, 2] := by decide +kernel

/-- Within a step, the cache gives the same dim. -/
example : (derive (derive step2 .add 0 (.int 3)).1 .add 0 (.int 3)).2 = 4 := by decide +kernel

/-- The hypotheses of the theorems hold for the second step. -/
example : Hist used1 ∧ startStep tmpl batch2 used1 = .ok step2 ∧ ValidBatch used1 tmpl batch2 2
    ∧ (stepOf used1 tmpl batch2 2).given 0 = some [5, 1] := by
  have hs1 : startStep tmpl batch1 heap0 = .ok step1 := rfl
  refine ⟨?_, rfl, ⟨?_, ?_⟩, by decide +kernel⟩
  · have a1 := Hist.step hist0 hs1
    have a2 := Hist.act a1 (Act.derive (B := 0) step1 .add 0 (.int 3) (by decide +kernel) trivial)
    have a3 := Hist.act a2 (Act.derive (B := 0) _ .floordiv 2 (.int 2) (by decide +kernel) trivial)
    exact Hist.act a3 (Act.read (B := 0) _ 3)
  · decide +kernel
  · intro k r l hr hl
    have hm := Dict.mem_of_get? hr
    simp only [batch2, List.mem_cons, Prod.mk.injEq, List.not_mem_nil, or_false] at hm
    rcases hm with ⟨-, rfl⟩ | ⟨-, rfl⟩
    · cases hl; rfl
    · cases hl; rfl

/-- **Violation.**  `feat + time` is cached in `feat`, which is never reset: in the second step it gives the dim of the first step, with
the sizes of the first batch (12, 13 and not 15, 11). -/
theorem cached_stale : let u := read (derive step1 .add 1 (.dim 0)).1 2
    let s := ok! (startStep tmpl batch2 u)
    (s.get 0).sizes = some [5, 1] ∧ (derive s .add 1 (.dim 0)).2 = 2 ∧ ((derive s .add 1 (.dim 0)).1.get 2).sizes = some [12, 13]
      ∧ ((read (derive s .add 0 (.dim 1)).1 (derive s .add 0 (.dim 1)).2).get (derive s .add 0 (.dim 1)).2).sizes = some [15, 11] := by
  decide +kernel

/-- **Violation.**  A derived dim which is kept over steps keeps the sizes of the first batch in which it was read, while the same
expression gives the right ones (`reset_raw` clears the cache before it goes through it). -/
theorem held_stale : let u := read (derive step1 .floordiv 0 (.int 2)).1 2
    let s := ok! (startStep tmpl batch2 u)
    ((read s 2).get 2).sizes = some [1, 1] ∧ (derive s .floordiv 0 (.int 2)).2 = 3
      ∧ ((read (derive s .floordiv 0 (.int 2)).1 3).get 3).sizes = some [2, 0] := by
  decide +kernel

/-- **Violation.**  Two entries with the same dim and different lengths are accepted; the lengths of the first one are used. -/
theorem lengths_unchecked :
    ((ok! (startStep tmpl [("data", { shape := [5, 10], seqLen := some [5, 1] }), ("align", { shape := [4], seqLen := some [4, 4] })] heap0)).get 0).sizes
      = some [5, 1] := by
  decide +kernel

/-- Missing lengths, missing entries and wrong static sizes are errors. -/
theorem missing_len : startStep tmpl [("data", { shape := [5, 10], seqLen := none })] heap0 = .error .assertion := rfl

theorem missing_key : startStep tmpl [("data", { shape := [5, 10], seqLen := some [5, 1] })] heap0 = .error .keyError := rfl

theorem wrong_static : startStep tmpl [("data", { shape := [5, 11], seqLen := some [5, 1] })] heap0 = .error .assertion := rfl

/-- In general: if a step starts, then all entries are there, and their static axes have the right sizes. -/
theorem start_checked {ts : List Template} {raw : Dict String Raw} {h h' : Heap} (hs : startStep ts raw h = .ok h') :
    ∀ t ∈ ts, ∃ r, raw.get? t.key = some r ∧ t.dims.length = r.shape.length
      ∧ ∀ (j d n : Nat), t.dims[j]? = some d → (h.get d).static = some n → r.shape[j]? = some n := by
  unfold startStep at hs
  have hl := (resets (dynDims h ts) h).1
  generalize (dynDims h ts).foldl reset h = g at hs hl
  have key : ∀ (ts : List Template) (g h' : Heap), ts.foldlM (setEntry raw) g = .ok h' → Less h g →
      ∀ t ∈ ts, ∃ r, raw.get? t.key = some r ∧ t.dims.length = r.shape.length
        ∧ ∀ (j d n : Nat), t.dims[j]? = some d → (h.get d).static = some n → r.shape[j]? = some n := by
    intro ts
    induction ts with
    | nil => exact fun _ _ _ _ t ht => absurd ht (by simp)
    | cons t ts ih =>
      intro g h' hf hl t' ht'
      rw [List.foldlM_cons] at hf
      obtain ⟨g1, he, hf⟩ := setEntry_spec.bind_ok hf
      rcases List.mem_cons.mp ht' with rfl | ht'
      · unfold setEntry at he
        obtain ⟨r, hr, he⟩ := setEntry_spec.bind_ok he
        have hr' : raw.get? t'.key = some r := by
          unfold Dict.getItem at hr
          cases hg : raw.get? t'.key with
          | none => rw [hg] at hr; cases hr
          | some r' => rw [hg] at hr; cases hr; rfl
        split at he
        · rename_i hok
          unfold shapeOk at hok
          simp only [Bool.and_eq_true, decide_eq_true_eq, List.all_eq_true] at hok
          refine ⟨r, hr', hok.1, fun j d n hj hn => ?_⟩
          have hlt : j < r.shape.length := by
            rw [← hok.1]
            exact (List.getElem?_eq_some_iff.mp hj).1
          have hz : (t'.dims.zip r.shape)[j]? = some (d, r.shape[j]) := by
            rw [List.getElem?_zip_eq_some]
            exact ⟨hj, List.getElem?_eq_getElem hlt⟩
          have := hok.2 _ (List.mem_of_getElem? hz)
          simp only [hl.static, hn, decide_eq_true_eq] at this
          rw [List.getElem?_eq_getElem hlt, this]
        · cases he
      · exact ih g1 h' hf (hl.trans (setEntry_spec he).1.less) t' ht'
  exact key ts g h' hs hl

end Verif.StepDims
