import Verif.GradCkpt.Spec
import Mathlib.Tactic.Common
/-
Lemmas: the recomputation simulates the recorded run.
-/
namespace Verif.GradCkpt

open Verif.Py

variable {V M S : Type}

theorem upd_same {β : Type} (f : Nat → β) (i : Nat) (x : β) : upd f i x i = x := by simp [upd]

theorem upd_ne {β : Type} (f : Nat → β) {i j : Nat} (x : β) (h : j ≠ i) : upd f i x j = f j := by simp [upd, h]

/-- Renaming of tensor objects (and of storages): those from outside are the same, the others are counted anew. -/
def ren (n m o : Nat) : Nat := if o < n then o else o - n + m

theorem ren_lt {n m o : Nat} (h : o < n) : ren n m o = o := by simp [ren, h]

theorem ren_ge {n m o : Nat} (h : n ≤ o) : ren n m o = o - n + m := by simp [ren, Nat.not_lt.mpr h]

theorem ren_inj {n m a b : Nat} (hm : n ≤ m) (h : ren n m a = ren n m b) : a = b := by
  unfold ren at h
  split at h <;> split at h <;> omega

/-- The object can be used in the scope. -/
def Acc (n : Nat) (E : Nat → Prop) (f : St V M S) (o : Nat) : Prop := o < f.on ∧ (o < n → E (f.objs o).sto)

/-- The recomputation is in the same state as the recorded run. -/
structure Sim (n ns m ms : Nat) (E : Nat → Prop) (f r : St V M S) : Prop where
  on1 : n ≤ f.on
  on2 : f.on + m = r.on + n
  hn1 : ns ≤ f.hn
  hn2 : f.hn + ms = r.hn + ns
  objs : ∀ o, Acc n E f o → r.objs (ren n m o) = ⟨ren ns ms (f.objs o).sto, (f.objs o).dev, (f.objs o).info⟩ ∧
    ((f.objs o).sto < ns → E (f.objs o).sto) ∧ (f.objs o).sto < f.hn
  heap : ∀ a < f.hn, (a < ns → E a) → r.heap (ren ns ms a) = f.heap a

/-! ### Frames -/

theorem mkOuts_objs (args : List Nat) (outs : List (Out V M)) (st : St V M S) :
    st.on ≤ (mkOuts args outs st).1.on ∧ st.hn ≤ (mkOuts args outs st).1.hn ∧
      (∀ o < st.on, (mkOuts args outs st).1.objs o = st.objs o) ∧
      (∀ a < st.hn, (mkOuts args outs st).1.heap a = st.heap a) ∧
      (mkOuts args outs st).1.rng = st.rng ∧
      ∀ o, st.on ≤ o → o < (mkOuts args outs st).1.on → o ∈ (mkOuts args outs st).2 := by
  induction outs generalizing st with
  | nil => simp [mkOuts]
  | cons x outs ih =>
    cases x with
    | fresh v d m =>
      simp only [mkOuts]
      obtain ⟨h1, h2, h3, h4, h5, h6⟩ := ih
        { st with heap := upd st.heap st.hn v, hn := st.hn + 1, objs := upd st.objs st.on ⟨st.hn, d, m⟩, on := st.on + 1 }
      simp only at h1 h2 h3 h4 h5 h6
      refine ⟨by omega, by omega, ?_, ?_, h5, ?_⟩
      · intro o ho
        rw [h3 o (by omega), upd_ne _ _ (by omega)]
      · intro a ha
        rw [h4 a (by omega), upd_ne _ _ (by omega)]
      · intro o ho1 ho2
        by_cases ho : o = st.on
        · simp [ho]
        · exact List.mem_cons_of_mem _ (h6 o (by omega) ho2)
    | view i m =>
      simp only [mkOuts]
      obtain ⟨h1, h2, h3, h4, h5, h6⟩ := ih
        { st with objs := upd st.objs st.on ⟨(st.objs (args.getD i 0)).sto, (st.objs (args.getD i 0)).dev, m⟩, on := st.on + 1 }
      simp only at h1 h2 h3 h4 h5 h6
      refine ⟨by omega, by omega, ?_, h4, h5, ?_⟩
      · intro o ho
        rw [h3 o (by omega), upd_ne _ _ (by omega)]
      · intro o ho1 ho2
        by_cases ho : o = st.on
        · simp [ho]
        · exact List.mem_cons_of_mem _ (h6 o (by omega) ho2)
    | same i =>
      simp only [mkOuts]
      obtain ⟨h1, h2, h3, h4, h5, h6⟩ := ih st
      refine ⟨h1, h2, h3, h4, h5, ?_⟩
      intro o ho1 ho2
      exact List.mem_cons_of_mem _ (h6 o ho1 ho2)

theorem writeBack_not_mem (ss : List Nat) (vs : List V) (h : Nat → V) (a : Nat) (ha : a ∉ ss) :
    writeBack ss vs h a = h a := by
  induction ss generalizing vs h with
  | nil => cases vs <;> rfl
  | cons s ss ih =>
    cases vs with
    | nil => rfl
    | cons v vs =>
      simp only [List.mem_cons, not_or] at ha
      simp only [writeBack]
      rw [ih vs _ ha.2, upd_ne _ _ ha.1]

theorem writeBack_ren {ns ms : Nat} (hm : ns ≤ ms) (ss : List Nat) (vs : List V) (h h' : Nat → V) (P : Nat → Prop)
    (hh : ∀ a, P a → h' (ren ns ms a) = h a) (a : Nat) (ha : P a) :
    writeBack (ss.map (ren ns ms)) vs h' (ren ns ms a) = writeBack ss vs h a := by
  induction ss generalizing vs h h' with
  | nil => cases vs <;> exact hh a ha
  | cons s ss ih =>
    cases vs with
    | nil => exact hh a ha
    | cons v vs =>
      simp only [List.map_cons, writeBack]
      apply ih
      intro b hb
      by_cases hs : b = s
      · subst hs; rw [upd_same, upd_same]
      · rw [upd_ne _ _ hs, upd_ne _ _ (fun e => hs (ren_inj hm e)), hh b hb]

/-! ### One operation -/

theorem acc_mono {n : Nat} {E : Nat → Prop} {f f' : St V M S} (hon : f.on ≤ f'.on) (ho : ∀ o < f.on, f'.objs o = f.objs o)
    {o : Nat} (h : Acc n E f o) : Acc n E f' o := by
  refine ⟨by have := h.1; omega, fun hn => ?_⟩
  rw [ho o h.1]
  exact h.2 hn

theorem mkOuts_sim {n ns m ms : Nat} {E : Nat → Prop} (hnm : n ≤ m) (hns : ns ≤ ms) (args : List Nat)
    (outs : List (Out V M)) (hr : ∀ x ∈ outs, x.InRange args.length) (f r : St V M S) (h : Sim n ns m ms E f r)
    (ha : ∀ o ∈ args, Acc n E f o) :
    Sim n ns m ms E (mkOuts args outs f).1 (mkOuts (args.map (ren n m)) outs r).1 ∧
      (mkOuts (args.map (ren n m)) outs r).2 = (mkOuts args outs f).2.map (ren n m) ∧
      ∀ o ∈ (mkOuts args outs f).2, Acc n E (mkOuts args outs f).1 o := by
  induction outs generalizing f r with
  | nil => exact ⟨h, rfl, by simp [mkOuts]⟩
  | cons x outs ih =>
    have hrest : ∀ y ∈ outs, y.InRange args.length := fun y hy => hr y (by simp [hy])
    cases x with
    | fresh v d i =>
      simp only [mkOuts]
      have hon := h.on1
      have hon2 := h.on2
      have hhn := h.hn1
      have hhn2 := h.hn2
      have e1 : ren n m f.on = r.on := by rw [ren_ge hon]; omega
      have e2 : ren ns ms f.hn = r.hn := by rw [ren_ge hhn]; omega
      have hs : Sim n ns m ms E
          { f with heap := upd f.heap f.hn v, hn := f.hn + 1, objs := upd f.objs f.on ⟨f.hn, d, i⟩, on := f.on + 1 }
          { r with heap := upd r.heap r.hn v, hn := r.hn + 1, objs := upd r.objs r.on ⟨r.hn, d, i⟩, on := r.on + 1 } := by
        refine ⟨by simp; omega, by simp; omega, by simp; omega, by simp; omega, ?_, ?_⟩
        · intro o ho
          simp only
          by_cases hof : o = f.on
          · subst hof
            rw [e1, upd_same, upd_same]
            refine ⟨by rw [e2], fun hc => by simp at hc; omega, by simp⟩
          · have ho' : Acc n E f o := by
              have h1 := ho.1
              simp only at h1
              refine ⟨by omega, fun hc => ?_⟩
              have := ho.2 hc
              simp only [upd_ne _ _ hof] at this
              exact this
            rw [upd_ne _ _ hof, upd_ne _ _ (fun e => hof (ren_inj hnm (by rw [e, e1])))]
            obtain ⟨g1, g2, g3⟩ := h.objs o ho'
            exact ⟨g1, g2, by omega⟩
        · intro a ha1 ha2
          simp only at ha1 ⊢
          by_cases haf : a = f.hn
          · subst haf; rw [e2, upd_same, upd_same]
          · rw [upd_ne _ _ haf, upd_ne _ _ (fun e => haf (ren_inj hns (by rw [e, e2])))]
            exact h.heap a (by omega) ha2
      obtain ⟨i1, i2, i3⟩ := ih hrest _ _ hs (by
        intro o ho
        refine acc_mono (f := f) (by simp) ?_ (ha o ho)
        intro o' ho'
        exact upd_ne _ _ (by omega))
      refine ⟨i1, by rw [i2, List.map_cons, e1], ?_⟩
      intro o ho
      rcases List.mem_cons.mp ho with ho | ho
      · subst ho
        have := (mkOuts_objs args outs
          { f with heap := upd f.heap f.hn v, hn := f.hn + 1, objs := upd f.objs f.on ⟨f.hn, d, i⟩, on := f.on + 1 }).1
        simp only at this
        exact ⟨by omega, fun hc => by omega⟩
      · exact i3 o ho
    | view k i =>
      simp only [mkOuts]
      have hk : k < args.length := hr (.view k i) (by simp)
      have hon := h.on1
      have hon2 := h.on2
      have e1 : ren n m f.on = r.on := by rw [ren_ge hon]; omega
      have ea : (args.map (ren n m)).getD k 0 = ren n m (args.getD k 0) := by
        simp [List.getD_eq_getElem?_getD, hk]
      have hacc : Acc n E f (args.getD k 0) := by
        apply ha
        rw [List.getD_eq_getElem?_getD, List.getElem?_eq_getElem hk]
        simp
      obtain ⟨o1, o2, o3⟩ := h.objs _ hacc
      rw [ea, o1]
      simp only
      generalize hf : f.objs (args.getD k 0) = a at *
      have hs : Sim n ns m ms E
          { f with objs := upd f.objs f.on ⟨a.sto, a.dev, i⟩, on := f.on + 1 }
          { r with objs := upd r.objs r.on ⟨ren ns ms a.sto, a.dev, i⟩, on := r.on + 1 } := by
        refine ⟨by simp; omega, by simp; omega, h.hn1, h.hn2, ?_, h.heap⟩
        intro o ho
        simp only
        by_cases hof : o = f.on
        · subst hof
          rw [e1, upd_same, upd_same]
          exact ⟨rfl, o2, o3⟩
        · have ho' : Acc n E f o := by
            have h1 := ho.1
            simp only at h1
            refine ⟨by omega, fun hc => ?_⟩
            have := ho.2 hc
            simp only [upd_ne _ _ hof] at this
            exact this
          rw [upd_ne _ _ hof, upd_ne _ _ (fun e => hof (ren_inj hnm (by rw [e, e1])))]
          exact h.objs o ho'
      obtain ⟨i1, i2, i3⟩ := ih hrest _ _ hs (by
        intro o ho
        refine acc_mono (f := f) (by simp) ?_ (ha o ho)
        intro o' ho'
        exact upd_ne _ _ (by omega))
      refine ⟨i1, by rw [i2, List.map_cons, e1], ?_⟩
      intro o ho
      rcases List.mem_cons.mp ho with ho | ho
      · subst ho
        have := (mkOuts_objs args outs { f with objs := upd f.objs f.on ⟨a.sto, a.dev, i⟩, on := f.on + 1 }).1
        simp only at this
        exact ⟨by omega, fun hc => by omega⟩
      · exact i3 o ho
    | same k =>
      simp only [mkOuts]
      have hk : k < args.length := hr (.same k) (by simp)
      have ea : (args.map (ren n m)).getD k 0 = ren n m (args.getD k 0) := by
        simp [List.getD_eq_getElem?_getD, hk]
      have hacc : Acc n E f (args.getD k 0) := by
        apply ha
        rw [List.getD_eq_getElem?_getD, List.getElem?_eq_getElem hk]
        simp
      obtain ⟨i1, i2, i3⟩ := ih hrest f r h ha
      refine ⟨i1, by rw [i2, List.map_cons, ea], ?_⟩
      intro o ho
      rcases List.mem_cons.mp ho with ho | ho
      · rw [ho]
        have hm := mkOuts_objs args outs f
        exact acc_mono hm.1 hm.2.2.1 hacc
      · exact i3 o ho

theorem call_frame (fn : Func V M S) (args : List Nat) (st : St V M S) :
    st.on ≤ (call fn args st).1.on ∧ st.hn ≤ (call fn args st).1.hn ∧
      (∀ o < st.on, (call fn args st).1.objs o = st.objs o) ∧
      (∀ a < st.hn, a ∉ args.map (fun o => (st.objs o).sto) → (call fn args st).1.heap a = st.heap a) ∧
      (call fn args st).1.rng = (fn.run (args.map (valOf st)) st.rng).2.2 ∧
      ∀ o, st.on ≤ o → o < (call fn args st).1.on → o ∈ (call fn args st).2 := by
  unfold call
  obtain ⟨h1, h2, h3, h4, h5, h6⟩ := mkOuts_objs args (fn.run (args.map (valOf st)) st.rng).2.1
    { st with heap := writeBack (args.map (fun o => (st.objs o).sto)) (fn.run (args.map (valOf st)) st.rng).1 st.heap,
              rng := (fn.run (args.map (valOf st)) st.rng).2.2 }
  refine ⟨h1, h2, h3, ?_, h5, h6⟩
  intro a ha hm
  simp only
  rw [h4 a ha]
  exact writeBack_not_mem _ _ _ _ hm

theorem vals_eq {n ns m ms : Nat} {E : Nat → Prop} {f r : St V M S} (h : Sim n ns m ms E f r) {args : List Nat}
    (ha : ∀ o ∈ args, Acc n E f o) : (args.map (ren n m)).map (valOf r) = args.map (valOf f) := by
  rw [List.map_map]
  apply List.map_congr_left
  intro o ho
  obtain ⟨h1, h2, h3⟩ := h.objs o (ha o ho)
  simp only [Function.comp, valOf, h1, h.heap _ h3 h2]

theorem stos_eq {n ns m ms : Nat} {E : Nat → Prop} {f r : St V M S} (h : Sim n ns m ms E f r) {args : List Nat}
    (ha : ∀ o ∈ args, Acc n E f o) :
    (args.map (ren n m)).map (fun o => (r.objs o).sto) = (args.map (fun o => (f.objs o).sto)).map (ren ns ms) := by
  rw [List.map_map, List.map_map]
  apply List.map_congr_left
  intro o ho
  obtain ⟨h1, _, _⟩ := h.objs o (ha o ho)
  simp only [Function.comp, h1]

theorem call_sim {n ns m ms : Nat} {E : Nat → Prop} (hnm : n ≤ m) (hns : ns ≤ ms) {fn : Func V M S} (hok : FnOk fn)
    {args : List Nat} {f r : St V M S} (h : Sim n ns m ms E f r) (ha : ∀ o ∈ args, Acc n E f o)
    (hrng : ∀ g ∈ fn.uses, f.rng g = r.rng g) :
    Sim n ns m ms E (call fn args f).1 (call fn (args.map (ren n m)) r).1 ∧
      (call fn (args.map (ren n m)) r).2 = (call fn args f).2.map (ren n m) ∧
      ∀ o ∈ (call fn args f).2, Acc n E (call fn args f).1 o := by
  obtain ⟨d1, d2, _⟩ := hok.depends (args.map (valOf f)) f.rng r.rng hrng
  unfold call
  simp only
  rw [vals_eq h ha, stos_eq h ha, ← d1, ← d2]
  apply mkOuts_sim hnm hns
  · intro x hx
    have := hok.outs _ _ x hx
    simpa using this
  · refine ⟨h.on1, h.on2, h.hn1, h.hn2, h.objs, ?_⟩
    intro a ha1 ha2
    exact writeBack_ren hns _ _ _ _ (fun a => a < f.hn ∧ (a < ns → E a)) (fun b hb => h.heap b hb.1 hb.2) a ⟨ha1, ha2⟩
  · exact ha

/-! ### The table of tensors -/

theorem addOuts_get? (op : Nat) (outs : List Nat) (j : Nat) (t : Dict Nat (Nat × Nat)) (o : Nat) (p : Nat × Nat)
    (h : (addOuts op outs j t).get? o = some p) :
    t.get? o = some p ∨ ∃ i, outs[i]? = some o ∧ p = (op, j + i) := by
  induction outs generalizing j t with
  | nil => exact Or.inl h
  | cons x outs ih =>
    simp only [addOuts] at h
    rcases ih _ _ h with h1 | ⟨i, h1, h2⟩
    · split at h1
      · exact Or.inl h1
      · rw [Dict.get?_set] at h1
        split at h1
        · next hx =>
          right
          refine ⟨0, by simp [hx], ?_⟩
          simpa using h1.symm
        · exact Or.inl h1
    · right
      refine ⟨i + 1, by simpa using h1, ?_⟩
      rw [h2]
      congr 1
      omega

theorem addOuts_isSome (op : Nat) (outs : List Nat) (j : Nat) (t : Dict Nat (Nat × Nat)) (o : Nat)
    (h : (t.get? o).isSome ∨ o ∈ outs) : ((addOuts op outs j t).get? o).isSome := by
  induction outs generalizing j t with
  | nil => simpa [addOuts] using h
  | cons x outs ih =>
    simp only [addOuts]
    apply ih
    rcases h with h | h
    · left
      split
      · exact h
      · rw [Dict.get?_set]
        split
        · rfl
        · exact h
    · rcases List.mem_cons.mp h with h | h
      · left
        subst h
        split
        · next hc => simpa [Dict.contains] using hc
        · rw [Dict.get?_set, if_pos rfl]; rfl
      · exact Or.inr h

/-- The table of tensors refers to the recomputed ones. -/
structure Table (n m : Nat) (E : Nat → Prop) (f : St V M S) (t : Dict Nat (Nat × Nat)) (done : List (List Nat)) : Prop where
  found : ∀ o i j, t.get? o = some (i, j) → i < done.length ∧ (done.getD i []).getD j 0 = ren n m o ∧ Acc n E f o
  all : ∀ o, n ≤ o → o < f.on → (t.get? o).isSome

theorem resolve_wrap {n m : Nat} {E : Nat → Prop} {f : St V M S} {t : Dict Nat (Nat × Nat)} {done : List (List Nat)}
    (h : Table n m E f t done) {o : Nat} (ho : Acc n E f o) : resolve done (wrap t o) = ren n m o := by
  unfold wrap
  cases hg : t.get? o with
  | some p => exact (h.found o p.1 p.2 hg).2.1
  | none =>
    have : o < n := by
      by_contra hc
      have := h.all o (by omega) ho.1
      rw [hg] at this
      simp at this
    simp [resolve, ren_lt this]

theorem table_step {n ns m ms : Nat} {E : Nat → Prop} {f f' : St V M S} {t : Dict Nat (Nat × Nat)}
    {done : List (List Nat)} (h : Table n m E f t done) (hon : f.on ≤ f'.on) (hob : ∀ o < f.on, f'.objs o = f.objs o)
    (outs : List Nat) (hacc : ∀ o ∈ outs, Acc n E f' o) (hall : ∀ o, f.on ≤ o → o < f'.on → o ∈ outs) :
    Table n m E f' (addOuts done.length outs 0 t) (done ++ [outs.map (ren n m)]) := by
  refine ⟨?_, ?_⟩
  · intro o i j ho
    rcases addOuts_get? _ _ _ _ _ _ ho with h1 | ⟨k, h1, h2⟩
    · obtain ⟨g1, g2, g3⟩ := h.found o i j h1
      refine ⟨by simp; omega, ?_, acc_mono hon hob g3⟩
      rw [← g2]
      simp [List.getD_eq_getElem?_getD, List.getElem?_append_left g1]
    · have e1 : i = done.length := by simpa using congrArg Prod.fst h2
      have e2 : j = k := by simpa using congrArg Prod.snd h2
      subst e1 e2
      refine ⟨by simp, ?_, hacc o (List.mem_of_getElem? h1)⟩
      simp [List.getD_eq_getElem?_getD, h1]
  · intro o h1 h2
    apply addOuts_isSome
    by_cases ho : o < f.on
    · exact Or.inl (h.all o h1 ho)
    · exact Or.inr (hall o (by omega) h2)

/-! ### The generators -/

theorem storeRng_keys (phys : Nat → Nat) (rng : Nat → S) (ds : List Nat) (t : Dict Nat S) :
    (∀ d ∈ t.keys, d ∈ (ds.foldl (storeRng phys rng) t).keys) ∧ ∀ d ∈ ds, d ∈ (ds.foldl (storeRng phys rng) t).keys := by
  induction ds generalizing t with
  | nil => simp
  | cons d ds ih =>
    simp only [List.foldl_cons]
    obtain ⟨h1, h2⟩ := ih (storeRng phys rng t d)
    have hk : (∀ x ∈ t.keys, x ∈ (storeRng phys rng t d).keys) ∧ d ∈ (storeRng phys rng t d).keys := by
      unfold storeRng
      split
      · next hc =>
        refine ⟨fun _ h => h, ?_⟩
        rw [← Dict.get?_isSome]
        simpa [Dict.contains] using hc
      · rw [Dict.keys_set]
        split
        · next hm => exact ⟨fun _ h => h, hm⟩
        · simp +contextual
    refine ⟨fun x hx => h1 x (hk.1 x hx), ?_⟩
    intro x hx
    rcases List.mem_cons.mp hx with hx | hx
    · subst hx; exact h1 _ hk.2
    · exact h2 x hx

theorem record_keys (phys : Nat → Nat) (fn : Func V M S) (args : List Nat) (s : St V M S × Graph V M S) :
    (∀ d ∈ s.2.rngs.keys, d ∈ (record phys fn args s).2.rngs.keys) ∧
      ∀ d ∈ devNames s.1 fn args, d ∈ (record phys fn args s).2.rngs.keys :=
  storeRng_keys phys s.1.rng (devNames s.1 fn args) s.2.rngs

theorem recordAll_keys (phys : Nat → Nat) (ts : List (Func V M S × List Nat)) (s : St V M S × Graph V M S) :
    ∀ d ∈ s.2.rngs.keys, d ∈ (recordAll phys ts s).2.rngs.keys := by
  induction ts generalizing s with
  | nil => intro d h; exact h
  | cons p ts ih => intro d h; exact ih _ d ((record_keys phys p.1 p.2 s).1 d h)

/-- The stored states are those at the beginning, and generators of which no state is stored are as at the beginning. -/
structure Stored (phys : Nat → Nat) (r0 rng : Nat → S) (t : Dict Nat S) : Prop where
  vals : ∀ d s, t.get? d = some s → s = r0 (phys d)
  rest : ∀ g, (∀ d ∈ t.keys, phys d ≠ g) → rng g = r0 g

theorem storeRng_stored {phys : Nat → Nat} {r0 rng : Nat → S} (ds : List Nat) (t : Dict Nat S)
    (h : Stored phys r0 rng t) (hu : ∀ a ∈ (ds.foldl (storeRng phys rng) t).keys,
      ∀ b ∈ (ds.foldl (storeRng phys rng) t).keys, phys a = phys b → a = b) :
    Stored phys r0 rng (ds.foldl (storeRng phys rng) t) := by
  induction ds generalizing t with
  | nil => exact h
  | cons d ds ih =>
    simp only [List.foldl_cons] at hu ⊢
    refine ih _ ?_ hu
    have hk := storeRng_keys phys rng ds (storeRng phys rng t d)
    unfold storeRng at hu hk ⊢
    split
    · exact h
    · next hc =>
      rw [if_neg hc] at hu hk
      have hd : d ∉ t.keys := by
        intro hm
        rw [← Dict.get?_isSome] at hm
        exact hc (by simpa [Dict.contains] using hm)
      refine ⟨?_, ?_⟩
      · intro x s hx
        rw [Dict.get?_set] at hx
        split at hx
        · next e =>
          subst e
          have hs : s = rng (phys d) := by simpa using hx.symm
          rw [hs]
          apply h.rest
          intro y hy hyd
          have hy' : y ∈ (t.set d (rng (phys d))).keys := by
            rw [Dict.keys_set, if_neg hd]; simp [hy]
          have hd' : d ∈ (t.set d (rng (phys d))).keys := by
            rw [Dict.keys_set, if_neg hd]; simp
          have := hu y (hk.1 y hy') d (hk.1 d hd') hyd
          rw [this] at hy
          exact hd hy
        · exact h.vals x s hx
      · intro g hg
        apply h.rest
        intro y hy
        apply hg
        rw [Dict.keys_set, if_neg hd]
        simp [hy]

theorem devNames_of {st : St V M S} {fn : Func V M S} {args : List Nat} {d : Nat} (hd : DeviceOf st fn args d) :
    d ∈ devNames st fn args := by
  rcases hd with rfl | ⟨o, ho, rfl⟩ | hd
  · simp [devNames, cpu]
  · simp only [devNames, List.mem_cons, List.mem_append, List.mem_map]
    exact Or.inr (Or.inl ⟨o, ho, rfl⟩)
  · simp [devNames, hd]

theorem record_stored {phys : Nat → Nat} {r0 : Nat → S} {fn : Func V M S} (hok : FnOk fn) {args : List Nat}
    {s : St V M S × Graph V M S} (hcov0 : ∀ g ∈ fn.uses, ∃ d, DeviceOf s.1 fn args d ∧ phys d = g)
    (h : Stored phys r0 s.1.rng s.2.rngs) (hu : NamesUnique phys (record phys fn args s).2.rngs) :
    Stored phys r0 (record phys fn args s).1.rng (record phys fn args s).2.rngs := by
  have hcov : ∀ g ∈ fn.uses, ∃ d ∈ devNames s.1 fn args, phys d = g := by
    intro g hg
    obtain ⟨d, hd, he⟩ := hcov0 g hg
    exact ⟨d, devNames_of hd, he⟩
  have h1 := storeRng_stored (devNames s.1 fn args) s.2.rngs h hu
  refine ⟨h1.vals, ?_⟩
  intro g hg
  rw [← h1.rest g hg]
  show (call fn args s.1).1.rng g = s.1.rng g
  rw [(call_frame fn args s.1).2.2.2.2.1]
  apply hok.frame
  intro hgu
  obtain ⟨d, d1, d2⟩ := hcov g hgu
  exact hg d ((record_keys phys fn args s).2 d d1) d2

theorem recordAll_stored {phys : Nat → Nat} {r0 : Nat → S} {n : Nat} {E : Nat → Prop}
    (ts : List (Func V M S × List Nat)) (s : St V M S × Graph V M S) (hv : Valid phys n E ts s)
    (h : Stored phys r0 s.1.rng s.2.rngs) (hu : NamesUnique phys (recordAll phys ts s).2.rngs) :
    Stored phys r0 (recordAll phys ts s).1.rng (recordAll phys ts s).2.rngs := by
  induction ts generalizing s with
  | nil => exact h
  | cons p ts ih =>
    obtain ⟨v1, _, v3, _, v5⟩ := hv
    refine ih _ v5 (record_stored v1 v3 h ?_) hu
    intro a ha b hb hab
    exact hu a (recordAll_keys phys ts _ a ha) b (recordAll_keys phys ts _ b hb) hab

theorem setRngs_spec (phys : Nat → Nat) (t : List (Nat × S)) (rng : Nat → S) (g : Nat) (x : S)
    (h : ∀ e ∈ t, phys e.1 = g → e.2 = x) :
    (setRngs phys t rng g = x ∧ ∃ e ∈ t, phys e.1 = g) ∨ (setRngs phys t rng g = rng g ∧ ∀ e ∈ t, phys e.1 ≠ g) := by
  induction t generalizing rng with
  | nil => right; simp [setRngs]
  | cons e t ih =>
    simp only [setRngs]
    rcases ih (upd rng (phys e.1) e.2) (fun e' he' => h e' (by simp [he'])) with ⟨h1, h2⟩ | ⟨h1, h2⟩
    · left
      obtain ⟨e', e1, e2⟩ := h2
      exact ⟨h1, e', by simp [e1], e2⟩
    · by_cases hg : phys e.1 = g
      · left
        refine ⟨?_, e, by simp, hg⟩
        rw [h1, ← hg, upd_same]
        exact h e (by simp) hg
      · right
        refine ⟨?_, ?_⟩
        · rw [h1, upd_ne _ _ (fun e' => hg e'.symm)]
        · intro e' he'
          rcases List.mem_cons.mp he' with h' | h'
          · rw [h']; exact hg
          · exact h2 e' h'

/-! ### The whole run -/

theorem run_sim {phys : Nat → Nat} {n ns m ms : Nat} {E : Nat → Prop} (hnm : n ≤ m) (hns : ns ≤ ms)
    (hE : ∀ a, E a → a < ns) (C : Nat → Prop) (h0 h1 : Nat → V) (ts : List (Func V M S × List Nat)) :
    ∀ (f : St V M S) (g : Graph V M S) (r : St V M S) (done : List (List Nat)),
      g.done.length + g.ops.length = done.length → Sim n ns m ms E f r → Table n m E f g.tensors done →
      (∀ x, C x → f.rng x = r.rng x) → (∀ a, E a → f.heap a = h0 a) → (∀ a < ms, ¬ E a → r.heap a = h1 a) →
      Valid phys n E ts (f, g) → (∀ d ∈ (recordAll phys ts (f, g)).2.rngs.keys, C (phys d)) →
      ∃ news, (recordAll phys ts (f, g)).2.ops = g.ops ++ news ∧
        Sim n ns m ms E (recordAll phys ts (f, g)).1 (recomputeOps news done r).1 ∧
        Table n m E (recordAll phys ts (f, g)).1 (recordAll phys ts (f, g)).2.tensors (recomputeOps news done r).2 ∧
        (∀ a, E a → (recordAll phys ts (f, g)).1.heap a = h0 a) ∧
        (∀ a < ms, ¬ E a → (recomputeOps news done r).1.heap a = h1 a) ∧
        (∀ x, ¬ C x → (recomputeOps news done r).1.rng x = r.rng x) ∧
        r.on ≤ (recomputeOps news done r).1.on ∧ r.hn ≤ (recomputeOps news done r).1.hn ∧
        (∀ o < r.on, (recomputeOps news done r).1.objs o = r.objs o) ∧ news.length = ts.length := by
  induction ts with
  | nil =>
    intro f g r done _ hs ht _ hf hr _ _
    exact ⟨[], by simp [recordAll], hs, ht, hf, hr, fun _ _ => rfl, Nat.le_refl _, Nat.le_refl _, fun _ _ => rfl, rfl⟩
  | cons p ts ih =>
    intro f g r done hl hs ht hC hf hr hv hk
    obtain ⟨v1, v2, v3, v4, v5⟩ := hv
    simp only at v2 v3 v4 v5
    have hacc : ∀ o ∈ p.2, Acc n E f o := fun o ho => v2 o ho
    have hkeys := record_keys phys p.1 p.2 (f, g)
    have huse : ∀ x ∈ p.1.uses, C x := by
      intro x hx
      obtain ⟨d, d1, d2⟩ := v3 x hx
      rw [← d2]
      exact hk d (recordAll_keys phys ts _ d (hkeys.2 d (devNames_of d1)))
    have hrng : ∀ x ∈ p.1.uses, f.rng x = r.rng x := fun x hx => hC x (huse x hx)
    obtain ⟨c1, c2, c3⟩ := call_sim hnm hns v1 hs hacc hrng
    have hargs : (p.2.map (wrap g.tensors)).map (resolve done) = p.2.map (ren n m) := by
      rw [List.map_map]
      apply List.map_congr_left
      intro o ho
      exact resolve_wrap ht (hacc o ho)
    have ff := call_frame p.1 p.2 f
    have fr := call_frame p.1 (p.2.map (ren n m)) r
    have hst : record phys p.1 p.2 (f, g) = ((call p.1 p.2 f).1, (record phys p.1 p.2 (f, g)).2) := rfl
    have htab : Table n m E (call p.1 p.2 f).1 (record phys p.1 p.2 (f, g)).2.tensors
        (done ++ [(call p.1 (p.2.map (ren n m)) r).2]) := by
      rw [c2]
      show Table n m E (call p.1 p.2 f).1 (addOuts (g.done.length + g.ops.length) (call p.1 p.2 f).2 0 g.tensors) _
      rw [hl]
      exact table_step (ns := ns) (ms := ms) ht ff.1 ff.2.2.1 _ c3 ff.2.2.2.2.2
    obtain ⟨news, i1, i2, i3, i4, i5, i6, i7, i8, i9, i10⟩ := ih (call p.1 p.2 f).1 (record phys p.1 p.2 (f, g)).2
      (call p.1 (p.2.map (ren n m)) r).1 (done ++ [(call p.1 (p.2.map (ren n m)) r).2])
      (by simp [record]; omega) c1 htab
      (by
        intro x hx
        rw [ff.2.2.2.2.1, fr.2.2.2.2.1, vals_eq hs hacc]
        by_cases hu : x ∈ p.1.uses
        · exact (v1.depends _ _ _ hrng).2.2 x hu
        · rw [v1.frame _ _ _ hu, v1.frame _ _ _ hu]
          exact hC x hx)
      (by
        intro a ha
        rw [← hf a ha]
        exact v4 a ha)
      (by
        intro a ha hEa
        rw [← hr a ha hEa]
        apply fr.2.2.2.1
        · have := hs.hn1; have := hs.hn2; omega
        · rw [stos_eq hs hacc]
          intro hm
          rw [List.map_map, List.mem_map] at hm
          obtain ⟨o, o1, o2⟩ := hm
          obtain ⟨_, q2, _⟩ := hs.objs o (hacc o o1)
          simp only [Function.comp] at o2
          by_cases hlt : (f.objs o).sto < ns
          · rw [ren_lt hlt] at o2
            rw [← o2] at hEa
            exact hEa (q2 hlt)
          · rw [ren_ge (by omega)] at o2
            omega)
      (by rw [hst] at v5; exact v5)
      (by
        intro d hd
        apply hk
        simp only [recordAll]
        rw [hst]
        exact hd)
    refine ⟨⟨p.1, p.2.map (wrap g.tensors)⟩ :: news, ?_, ?_⟩
    · simp only [recordAll]
      rw [hst, i1]
      simp [record]
    · simp only [recordAll, recomputeOps, hargs]
      rw [hst]
      refine ⟨i2, i3, i4, i5, ?_, by have := fr.1; omega, by have := fr.2.1; omega, ?_, by simp [i10]⟩
      · intro x hx
        rw [i6 x hx, fr.2.2.2.2.1]
        exact v1.frame _ _ _ (fun hu => hx (huse x hu))
      · intro o ho
        rw [i9 o (by have := fr.1; omega), fr.2.2.1 o ho]

end Verif.GradCkpt
