import Verif.GradCkpt.Lemmas
/-
C90: gradient checkpointing does not change what the backward pass sees.
-/
namespace Verif.GradCkpt

open Verif.Py

variable {V M S : Type}

theorem keys_mem {K W : Type} [DecidableEq K] {d : Dict K W} {e : K × W} (h : e ∈ d) : e.1 ∈ d.keys := by
  simp only [Dict.keys, List.mem_map]
  exact ⟨e, h, rfl⟩

theorem mem_keys {K W : Type} [DecidableEq K] {d : Dict K W} {k : K} (h : k ∈ d.keys) : ∃ e ∈ d, e.1 = k := by
  simpa [Dict.keys] using h

theorem storeRng_wf (phys : Nat → Nat) (rng : Nat → S) (ds : List Nat) (t : Dict Nat S) (h : t.Wf) :
    (ds.foldl (storeRng phys rng) t).Wf := by
  induction ds generalizing t with
  | nil => exact h
  | cons d ds ih =>
    apply ih
    unfold storeRng
    split
    · exact h
    · exact Dict.wf_set h _ _

theorem recordAll_wf (phys : Nat → Nat) (ts : List (Func V M S × List Nat)) (s : St V M S × Graph V M S)
    (h : s.2.rngs.Wf) : (recordAll phys ts s).2.rngs.Wf := by
  induction ts generalizing s with
  | nil => exact h
  | cons p ts ih => exact ih _ (storeRng_wf _ _ _ _ h)

theorem recordAll_done (phys : Nat → Nat) (ts : List (Func V M S × List Nat)) (s : St V M S × Graph V M S) :
    (recordAll phys ts s).2.done = s.2.done := by
  induction ts generalizing s with
  | nil => rfl
  | cons p ts ih => rw [recordAll, ih]; rfl

/-- **C90** Recomputation: for every tensor which was made in the scope, the recomputed one has the value which the tensor had at
the end of the scope, also if operations draw random numbers, make views or work in place; the generators are afterwards as
before, and no tensor which exists is changed. -/
theorem recompute_partial (phys : Nat → Nat) (st0 : St V M S) (ts : List (Func V M S × List Nat)) (E : Nat → Prop)
    (hE : ∀ a, E a → a < st0.hn) (hv : Valid phys st0.on E ts (st0, Graph.empty))
    (hu : NamesUnique phys (recordAll phys ts (st0, Graph.empty)).2.rngs)
    (st1 : St V M S) (hl : Later E (recordAll phys ts (st0, Graph.empty)).1 st1) :
    let s2 := maybeRecompute phys (st1, (recordAll phys ts (st0, Graph.empty)).2)
    (∀ o i j, (recordAll phys ts (st0, Graph.empty)).2.tensors.get? o = some (i, j) →
      valOf s2.1 (resolve s2.2.done (.graph i j)) = valOf (recordAll phys ts (st0, Graph.empty)).1 o) ∧
    s2.1.rng = st1.rng ∧ (∀ a < st1.hn, s2.1.heap a = st1.heap a) ∧ (∀ o < st1.on, s2.1.objs o = st1.objs o) ∧
    s2.2.ops = [] := by
  have hstored := recordAll_stored (r0 := st0.rng) ts (st0, Graph.empty) hv
    ⟨by simp [Graph.empty, Dict.get?], fun _ _ => rfl⟩ hu
  have hwf := recordAll_wf phys ts (st0, Graph.empty) (by simp [Graph.empty, Dict.Wf, Dict.keys])
  have hframe : ∀ (ts : List (Func V M S × List Nat)) (s : St V M S × Graph V M S), s.1.on ≤ (recordAll phys ts s).1.on ∧
      s.1.hn ≤ (recordAll phys ts s).1.hn ∧ ∀ o < s.1.on, (recordAll phys ts s).1.objs o = s.1.objs o := by
    intro ts
    induction ts with
    | nil => intro s; exact ⟨Nat.le_refl _, Nat.le_refl _, fun _ _ => rfl⟩
    | cons p ts ih =>
      intro s
      obtain ⟨h1, h2, h3⟩ := ih (record phys p.1 p.2 s)
      have hc := call_frame p.1 p.2 s.1
      have e : (record phys p.1 p.2 s).1 = (call p.1 p.2 s.1).1 := rfl
      rw [e] at h1 h2 h3
      refine ⟨by simp only [recordAll]; omega, by simp only [recordAll]; have := hc.2.1; omega, ?_⟩
      intro o ho
      simp only [recordAll]
      rw [h3 o (by omega), hc.2.2.1 o ho]
  obtain ⟨fr1, fr2, fr3⟩ := hframe ts (st0, Graph.empty)
  simp only at fr1 fr2 fr3
  generalize hF : recordAll phys ts (st0, Graph.empty) = F at *
  intro s2
  -- the values from outside are the same at the beginning, at the end of the scope, and now
  have hheapE : ∀ (ts : List (Func V M S × List Nat)) (s : St V M S × Graph V M S), Valid phys st0.on E ts s →
      ∀ a, E a → (recordAll phys ts s).1.heap a = s.1.heap a := by
    intro ts
    induction ts with
    | nil => intro s _ a _; rfl
    | cons p ts ih =>
      intro s hs a ha
      obtain ⟨_, _, _, v4, v5⟩ := hs
      simp only [recordAll]
      rw [ih _ v5 a ha, v4 a ha]
  have hE0 : ∀ a, E a → F.1.heap a = st0.heap a := by
    intro a ha
    rw [← hF]
    exact hheapE ts _ hv a ha
  let C : Nat → Prop := fun g => ∃ d ∈ F.2.rngs.keys, phys d = g
  let r : St V M S := { st1 with rng := setRngs phys F.2.rngs st1.rng }
  have hset : ∀ g, C g → setRngs phys F.2.rngs st1.rng g = st0.rng g := by
    rintro g ⟨d, d1, d2⟩
    rcases setRngs_spec phys F.2.rngs st1.rng g (st0.rng g) (by
      intro e he heg
      rw [← heg]
      exact hstored.vals e.1 e.2 (Dict.get?_of_mem hwf he)) with ⟨h1, _⟩ | ⟨_, h2⟩
    · exact h1
    · obtain ⟨e, e1, e2⟩ := mem_keys d1
      exact absurd (by rw [e2, d2]) (h2 e e1)
  obtain ⟨news, i1, i2, i3, i4, i5, i6, i7, i8, i9, i10⟩ := run_sim (phys := phys) (m := st1.on) (ms := st1.hn)
    (Nat.le_trans fr1 hl.on) (Nat.le_trans fr2 hl.hn) hE C st0.heap st1.heap ts st0 Graph.empty r []
    (by simp [Graph.empty])
    (by
      refine ⟨Nat.le_refl _, by simp [r]; omega, Nat.le_refl _, by simp [r]; omega, ?_, ?_⟩
      · intro o ho
        have h1 := ho.1
        have h2 := ho.2 h1
        have h3 := hE _ h2
        refine ⟨?_, fun _ => h2, h3⟩
        rw [ren_lt h1, ren_lt h3]
        show st1.objs o = _
        rw [hl.objs o (by omega), fr3 o h1]
      · intro a ha1 ha2
        rw [ren_lt ha1]
        show st1.heap a = _
        rw [hl.heap a (ha2 ha1), hE0 a (ha2 ha1)])
    (by
      refine ⟨by simp [Graph.empty, Dict.get?], ?_⟩
      intro o h1 h2
      omega)
    (by intro x hx; exact (hset x hx).symm) (fun _ _ => rfl) (fun _ _ _ => rfl) hv
    (by intro d hd; rw [hF] at hd; exact ⟨d, hd, rfl⟩)
  rw [hF] at i1 i2 i3 i4
  simp only [Graph.empty, List.nil_append] at i1
  have hdone : F.2.done = [] := by rw [← hF, recordAll_done]; rfl
  by_cases hops : F.2.ops.isEmpty
  · -- nothing was recorded
    have hs2 : s2 = (st1, F.2) := by simp only [s2, maybeRecompute, hops, if_true]
    rw [hs2]
    have hn : news = [] := by rw [← i1]; simpa using hops
    refine ⟨?_, rfl, fun _ _ => rfl, fun _ _ => rfl, by simpa using hops⟩
    intro o i j ho
    have := (i3.found o i j ho).1
    rw [hn] at this
    simp [recomputeOps] at this
  · have hs2 : s2 = ({ (recomputeOps F.2.ops F.2.done r).1 with
        rng := setRngs phys (F.2.rngs.map (fun e => (e.1, st1.rng (phys e.1)))) (recomputeOps F.2.ops F.2.done r).1.rng },
        { F.2 with done := (recomputeOps F.2.ops F.2.done r).2, ops := [], rngs := [] }) := by
      simp only [s2, maybeRecompute, hops]
      rfl
    rw [hs2, i1, hdone]
    refine ⟨?_, ?_, ?_, ?_, rfl⟩
    · intro o i j ho
      obtain ⟨_, t2, t3⟩ := i3.found o i j ho
      obtain ⟨o1, o2, o3⟩ := i2.objs o t3
      simp only [resolve, valOf, t2, o1, i2.heap _ o3 o2]
    · funext g
      simp only
      rcases setRngs_spec phys (F.2.rngs.map (fun e => (e.1, st1.rng (phys e.1)))) (recomputeOps news [] r).1.rng g
          (st1.rng g) (by
        intro e he heg
        obtain ⟨e', e1, e2⟩ := List.mem_map.mp he
        rw [← e2] at heg ⊢
        simp only at heg ⊢
        rw [heg]) with ⟨h1, _⟩ | ⟨h1, h2⟩
      · exact h1
      · rw [h1]
        have hnc : ¬ C g := by
          rintro ⟨d, d1, d2⟩
          obtain ⟨e, e1, e2⟩ := mem_keys d1
          exact h2 (e.1, st1.rng (phys e.1)) (List.mem_map.mpr ⟨e, e1, rfl⟩) (by rw [← d2, ← e2])
        rw [i6 g hnc]
        show setRngs phys F.2.rngs st1.rng g = st1.rng g
        rcases setRngs_spec phys F.2.rngs st1.rng g (st0.rng g) (by
          intro e he heg
          rw [← heg]
          exact hstored.vals e.1 e.2 (Dict.get?_of_mem hwf he)) with ⟨_, e, e1, e2⟩ | ⟨h3, _⟩
        · exact absurd ⟨e.1, keys_mem e1, e2⟩ hnc
        · exact h3
    · intro a ha
      by_cases hEa : E a
      · have h1 := hE a hEa
        have h2 := i2.heap a (by have := i2.hn1; omega) (fun _ => hEa)
        rw [ren_lt h1] at h2
        simp only
        rw [h2, i4 a hEa, hl.heap a hEa, hE0 a hEa]
      · exact i5 a ha hEa
    · intro o ho
      exact i9 o ho

/-- Unpacking of a list of saved tensors, in any order. -/
def unpackAll (phys : Nat → Nat) : List Arg → St V M S × Graph V M S → (St V M S × Graph V M S) × List Nat
  | [], s => (s, [])
  | a :: r, s =>
    let t := unpack phys a s
    let u := unpackAll phys r t.1
    (u.1, t.2 :: u.2)

theorem unpackAll_done (phys : Nat → Nat) (as : List Arg) (s : St V M S × Graph V M S) (h : s.2.ops = []) :
    unpackAll phys as s = (s, as.map (resolve s.2.done)) := by
  induction as with
  | nil => rfl
  | cons a as ih =>
    have hr : maybeRecompute phys s = s := by simp [maybeRecompute, h]
    cases a with
    | ext o => simp only [unpackAll, unpack, ih, List.map_cons, resolve]
    | graph i j => simp only [unpackAll, unpack, hr, ih, List.map_cons]

theorem maybeRecompute_done (phys : Nat → Nat) (s : St V M S × Graph V M S) (h : s.2.ops = []) : maybeRecompute phys s = s := by
  simp [maybeRecompute, h]

/-- **C90** What the backward pass gets: the tensors from the scope which were packed at its end or later, in whatever order and
however often they are unpacked, have the values which they had at the end of the scope; the generators are as before. -/
theorem unpack_partial (phys : Nat → Nat) (st0 : St V M S) (ts : List (Func V M S × List Nat)) (E : Nat → Prop)
    (hE : ∀ a, E a → a < st0.hn) (hv : Valid phys st0.on E ts (st0, Graph.empty))
    (hu : NamesUnique phys (recordAll phys ts (st0, Graph.empty)).2.rngs)
    (st1 : St V M S) (hl : Later E (recordAll phys ts (st0, Graph.empty)).1 st1)
    (saved : List Nat) (hs : ∀ o ∈ saved, ((recordAll phys ts (st0, Graph.empty)).2.tensors.get? o).isSome) :
    let F := recordAll phys ts (st0, Graph.empty)
    let u := unpackAll phys (saved.map (pack F.2)) (st1, F.2)
    u.2.map (valOf u.1.1) = saved.map (valOf F.1) ∧ u.1.1.rng = st1.rng := by
  intro F u
  have hmain := recompute_partial phys st0 ts E hE hv hu st1 hl
  simp only at hmain
  obtain ⟨h1, h2, _, _, h5⟩ := hmain
  cases hsv : saved with
  | nil =>
    simp only [u, hsv, List.map_nil, unpackAll]
    trivial
  | cons o os =>
    have hgo := hs o (by simp [hsv])
    obtain ⟨p, hp⟩ := Option.isSome_iff_exists.mp hgo
    have hu' : u = unpackAll phys (saved.map (pack F.2)) (maybeRecompute phys (st1, F.2)) := by
      have hp' : pack F.2 o = .graph p.1 p.2 := by
        unfold pack wrap
        rw [show F.2.tensors.get? o = some p from hp]
      simp only [u, hsv, List.map_cons, unpackAll, unpack, hp']
      rw [maybeRecompute_done phys (maybeRecompute phys (st1, F.2)) h5]
    rw [hu', unpackAll_done _ _ _ h5, ← hsv]
    refine ⟨?_, h2⟩
    simp only [List.map_map]
    apply List.map_congr_left
    intro o' ho'
    obtain ⟨p', hp'⟩ := Option.isSome_iff_exists.mp (hs o' ho')
    have hpk : pack F.2 o' = .graph p'.1 p'.2 := by
      unfold pack wrap
      rw [show F.2.tensors.get? o' = some p' from hp']
    simp only [Function.comp, hpk]
    exact h1 o' p'.1 p'.2 hp'

/-- **C90** Every tensor made in the scope is recorded, so none of them is kept for the backward pass. -/
theorem all_recorded (phys : Nat → Nat) (ts : List (Func V M S × List Nat)) (st0 : St V M S) :
    ∀ o, st0.on ≤ o → o < (recordAll phys ts (st0, Graph.empty)).1.on →
      ((recordAll phys ts (st0, Graph.empty)).2.tensors.get? o).isSome := by
  have : ∀ (ts : List (Func V M S × List Nat)) (s : St V M S × Graph V M S),
      (∀ o, st0.on ≤ o → o < s.1.on → (s.2.tensors.get? o).isSome) →
      ∀ o, st0.on ≤ o → o < (recordAll phys ts s).1.on → ((recordAll phys ts s).2.tensors.get? o).isSome := by
    intro ts
    induction ts with
    | nil => intro s h; exact h
    | cons p ts ih =>
      intro s h
      apply ih
      intro o h1 h2
      apply addOuts_isSome
      by_cases ho : o < s.1.on
      · exact Or.inl (h o h1 ho)
      · exact Or.inr ((call_frame p.1 p.2 s.1).2.2.2.2.2 o (by omega) h2)
  exact this ts (st0, Graph.empty) (fun o h1 h2 => by simp only at h2; omega)

/-! ### Concrete runs -/

/-- `torch.rand(..., device=dev)`; generator `g`; the tensor is on the device `d`. -/
def exRand (dev g d : Nat) : Func Nat Unit Nat :=
  ⟨[dev], [g], fun _ r => ([], [.fresh (r g) d ()], upd r g (r g + 1))⟩

/-- `x.add_(1)`. -/
def exAdd_ : Func Nat Unit Nat :=
  ⟨[], [], fun vs r => match vs with
    | [] => ([], [], r)
    | v :: _ => ([v.1 + 1], [.same 0], r)⟩

/-- `x * y`. -/
def exMul (d : Nat) : Func Nat Unit Nat :=
  ⟨[], [], fun vs r => ([], [.fresh ((vs.map Prod.fst).foldl (· * ·) 1) d ()], r)⟩

theorem exRand_ok (dev g d : Nat) : FnOk (exRand dev g d) := by
  refine ⟨?_, ?_, ?_⟩
  · intro vs r r' h
    simp only [exRand, List.mem_singleton] at h ⊢
    have := h g rfl
    simp [this, upd]
  · intro vs r x hx
    simp only [exRand, List.mem_singleton] at hx ⊢
    exact upd_ne _ _ hx
  · intro vs r x hx
    simp only [exRand, List.mem_singleton] at hx
    subst hx
    trivial

theorem exAdd__ok : FnOk exAdd_ := by
  refine ⟨?_, ?_, ?_⟩
  · intro vs r r' _
    cases vs <;> simp [exAdd_]
  · intro vs r g _
    cases vs <;> rfl
  · intro vs r x hx
    cases vs with
    | nil => simp [exAdd_] at hx
    | cons v vs =>
      simp only [exAdd_, List.mem_singleton] at hx
      subst hx
      simp [Out.InRange]

theorem exMul_ok (d : Nat) : FnOk (exMul d) := by
  refine ⟨fun _ _ _ _ => ⟨rfl, rfl, fun g hg => by simp [exMul] at hg⟩, fun _ _ _ _ => rfl, ?_⟩
  intro vs r x hx
  simp only [exMul, List.mem_singleton] at hx
  subst hx
  trivial

/-- One tensor from outside (value 5, on the CPU); generators 0 (CPU) and 1 (GPU). -/
def exSt : St Nat Unit Nat := ⟨fun _ => 5, 1, fun _ => ⟨0, 0, ()⟩, 1, fun g => 10 * (g + 1)⟩

/-- `y = torch.rand(device=gpu)`, `y.add_(1)`, `z = x * y`. -/
def exTrace : List (Func Nat Unit Nat × List Nat) := [(exRand 1 1 1, []), (exAdd_, [1]), (exMul 1, [0, 1])]

/-- The hypotheses of `recompute_partial` are met. -/
example : Valid id 1 (fun a => a = 0) exTrace (exSt, Graph.empty) ∧
    NamesUnique id (recordAll id exTrace (exSt, Graph.empty)).2.rngs := by
  refine ⟨⟨exRand_ok 1 1 1, by simp, ?_, ?_, exAdd__ok, ?_, by simp [exAdd_], ?_, exMul_ok 1, ?_, by simp [exMul], ?_, trivial⟩,
    fun a _ b _ h => h⟩
  · intro g hg
    simp only [exRand, List.mem_singleton] at hg
    subst hg
    exact ⟨1, by simp [DeviceOf, exRand], rfl⟩
  · rintro a rfl; rfl
  · simp [record, call, mkOuts, exRand, exSt]
  · rintro a rfl; rfl
  · simp [record, call, mkOuts, exRand, exSt, exAdd_, valOf, upd]
  · rintro a rfl; rfl

/-- The run: the value of `y` is 20 + 1, that of `z` is 105, and they are recomputed also after the generators have moved on. -/
example : let F := recordAll id exTrace (exSt, Graph.empty)
    let u := unpackAll id ([2, 1].map (pack F.2)) ({ F.1 with rng := fun _ => 77 }, F.2)
    [valOf F.1 2, valOf F.1 1] = [(105, ()), (21, ())] ∧ u.2.map (valOf u.1.1) = [(105, ()), (21, ())] ∧
      u.1.1.rng 1 = 77 ∧ u.2 = [4, 3] := by
  decide +kernel

/-- Two names for one device, as `cuda` (1) and `cuda:0` (2): the state of the generator is stored twice, at different times, and
the later one is used, so other random numbers are drawn in the recomputation. -/
theorem two_names_wrong :
    let phys : Nat → Nat := fun d => if d = 0 then 0 else 1
    let F := recordAll phys [(exRand 1 1 2, []), (exMul 2, [1])] (exSt, Graph.empty)
    let u := unpackAll phys ([1].map (pack F.2)) F
    valOf F.1 1 = (20, ()) ∧ u.2.map (valOf u.1.1) = [(21, ())] := by
  decide +kernel

/-- A generator of its own, as for `rf.random` with `static=True`: its state is not stored, so other random numbers are drawn in
the recomputation, and its state is changed. -/
theorem own_generator_wrong :
    let F := recordAll id [(exRand 0 7 0, [])] (exSt, Graph.empty)
    let u := unpackAll id ([1].map (pack F.2)) F
    valOf F.1 1 = (80, ()) ∧ u.2.map (valOf u.1.1) = [(81, ())] ∧ F.1.rng 7 = 81 ∧ u.1.1.rng 7 = 82 := by
  decide +kernel

/-- An operation in place on a tensor from outside is done twice. -/
theorem inplace_outside_wrong :
    let F := recordAll id [(exAdd_, [0]), (exMul 0, [0])] (exSt, Graph.empty)
    let u := unpackAll id ([1].map (pack F.2)) F
    valOf F.1 0 = (6, ()) ∧ valOf F.1 1 = (6, ()) ∧ u.2.map (valOf u.1.1) = [(7, ())] ∧ valOf u.1.1 0 = (7, ()) := by
  decide +kernel

/-- A tensor from outside which is changed between the scope and the backward pass: the new value is used, without an error. -/
theorem changed_outside_wrong :
    let F := recordAll id [(exMul 0, [0])] (exSt, Graph.empty)
    let u := unpackAll id ([1].map (pack F.2)) ((call exAdd_ [0] F.1).1, F.2)
    valOf F.1 1 = (5, ()) ∧ u.2.map (valOf u.1.1) = [(6, ())] := by
  decide +kernel

end Verif.GradCkpt
