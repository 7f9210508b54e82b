import Verif.Lstm.Props
import Mathlib.Tactic.Ring
import Mathlib.Tactic.FieldSimp
import Mathlib.Algebra.CharZero.Defs
/-
C103: the equations of the LSTM cell and of ZoneoutLSTM.
-/
namespace Verif.Lstm
open Verif.Py

variable {K : Type} [Field K]

/-! ### Lemmas -/

theorem plus_eq : ∀ (a b : List K), plus a b = addV a b
  | [], _ => by simp [plus, addV]
  | _ :: _, [] => by simp [plus, addV]
  | x :: a, y :: b => by
    have := plus_eq a b
    unfold plus addV at this ⊢
    simp only [List.zip_cons_cons, List.map_cons, List.zipWith_cons_cons, this]

theorem times_eq : ∀ (a b : List K), times a b = mulV a b
  | [], _ => by simp [times, mulV]
  | _ :: _, [] => by simp [times, mulV]
  | x :: a, y :: b => by
    have := times_eq a b
    unfold times mulV at this ⊢
    simp only [List.zip_cons_cons, List.map_cons, List.zipWith_cons_cons, this]

theorem matTimes_eq (w : List (List K)) (x : List K) : matTimes w x = matVec w x := by
  unfold matTimes matVec
  simp only [times_eq]

theorem gateVal_eq (w : GateW K) (x h : List K) : gateVal w x h = addV (addV (matVec w.ffW x) w.bias) (matVec w.recW h) := by
  unfold gateVal
  simp only [plus_eq, matTimes_eq]

theorem lstmEq_eq (sigmoid tanh : K → K) (fb : K) (w : Gate → GateW K) (x : List K) (s : LSt K) : lstmEq sigmoid tanh fb w x s =
    (mulV ((gateVal (w .o) x s.1).map sigmoid) ((addV (mulV ((gateVal (w .f) x s.1).map (fun a => sigmoid (a + fb))) s.2) (mulV ((gateVal (w .i) x s.1).map sigmoid) ((gateVal (w .j) x s.1).map tanh))).map tanh),
      addV (mulV ((gateVal (w .f) x s.1).map (fun a => sigmoid (a + fb))) s.2) (mulV ((gateVal (w .i) x s.1).map sigmoid) ((gateVal (w .j) x s.1).map tanh))) := by
  unfold lstmEq
  simp only [plus_eq, times_eq]

theorem part_flatMap (H : Nat) (v : Gate → List K) (hv : ∀ g, (v g).length = H) (g : Gate) : ∀ (order : List Gate), g ∈ order → part H (order.idxOf g) (order.flatMap v) = v g
  | [], h => by simp at h
  | a :: l, h => by
    rw [List.idxOf_cons, List.flatMap_cons]
    by_cases ha : a = g
    · subst ha
      simp [part, hv]
    · have h1 : (a == g) = false := by simpa using ha
      rw [h1]
      have ih := part_flatMap H v hv g l (by simpa [Ne.symm ha] using h)
      simp only [cond_false, part] at ih ⊢
      rw [← ih]
      congr 1
      rw [show (l.idxOf g + 1) * H = (v a).length + l.idxOf g * H by rw [hv]; ring, ← List.drop_drop, List.drop_left]

theorem addV_flatMap (u v : Gate → List K) (h : ∀ g, (u g).length = (v g).length) : ∀ (order : List Gate), addV (order.flatMap u) (order.flatMap v) = order.flatMap (fun g => addV (u g) (v g))
  | [] => rfl
  | a :: l => by
    rw [List.flatMap_cons, List.flatMap_cons, List.flatMap_cons, ← addV_flatMap u v h l]
    unfold addV
    rw [List.zipWith_append (h a)]

theorem matVec_flatMap (w : Gate → List (List K)) (x : List K) (order : List Gate) : matVec (order.flatMap w) x = order.flatMap (fun g => matVec (w g) x) := by
  unfold matVec
  rw [List.map_flatMap]

theorem matVec_length (w : List (List K)) (x : List K) : (matVec w x).length = w.length := by simp [matVec]

theorem addV_length (a b : List K) : (addV a b).length = min a.length b.length := by simp [addV]

theorem addV_zero : ∀ (a : List K), addV a (List.replicate a.length 0) = a
  | [] => rfl
  | x :: a => by
    have := addV_zero a
    unfold addV at this ⊢
    rw [List.length_cons, List.replicate_succ, List.zipWith_cons_cons, this, add_zero]

theorem addV_half [CharZero K] : ∀ (a b r : List K), addV (addV a (b.map (· * (1 / 2)))) (addV r (b.map (· * (1 / 2)))) = addV (addV a b) r
  | [], b, r => by simp [addV]
  | _ :: _, [], r => by simp [addV]
  | _ :: _, _ :: _, [] => by simp [addV]
  | x :: a, y :: b, z :: r => by
    have := addV_half a b r
    unfold addV at this ⊢
    simp only [List.map_cons, List.zipWith_cons_cons, this]
    congr 1
    ring

/-- The input part plus the recurrent part, for stacked weights. -/
theorem stacked_sum (p : Params K) (order : List Gate) (w : Gate → GateW K) (h : Stacked p order w) (x hh : List K) :
    addV (zInput p x) (matVec p.recW hh) = order.flatMap (fun g => gateVal (w g) x hh) := by
  obtain ⟨hok, hf, hr, hb⟩ := h
  have h1 : zInput p x = order.flatMap (fun g => addV (matVec (w g).ffW x) (w g).bias) := by
    unfold zInput
    rcases hb with hb | ⟨hb, hz⟩
    · rw [hb]
      simp only
      rw [hf, matVec_flatMap, addV_flatMap]
      intro g
      rw [matVec_length, (hok g).1, (hok g).2.2]
    · rw [hb]
      simp only
      rw [hf, matVec_flatMap]
      congr 1
      funext g
      rw [hz g]
      have := addV_zero (matVec (w g).ffW x)
      rw [matVec_length, (hok g).1] at this
      exact this.symm
  rw [h1, hr, matVec_flatMap, addV_flatMap]
  · simp only [gateVal_eq]
  · intro g
    rw [addV_length, matVec_length, matVec_length, (hok g).1, (hok g).2.1, (hok g).2.2, Nat.min_self]

theorem gateVal_length {H : Nat} {w : GateW K} (h : w.ok H) (x hh : List K) : (gateVal w x hh).length = H := by
  rw [gateVal_eq]
  rw [addV_length, addV_length, matVec_length, matVec_length, h.1, h.2.1, h.2.2, Nat.min_self, Nat.min_self]

/-! ### Theorems -/

/-- C103: torch's LSTM, with the parameters as `rf.LSTM` hands them over (the bias in two halves), computes the equations of the LSTM, with the gates stacked in the order i, f, j, o. -/
theorem torchCell_right [CharZero K] (sigmoid tanh : K → K) (p : Params K) (w : Gate → GateW K) (h : Stacked p [.i, .f, .j, .o] w) (x : List K) (s : LSt K) :
    torchCell sigmoid tanh p x s = ((lstmEq sigmoid tanh 0 w x s).1, lstmEq sigmoid tanh 0 w x s) := by
  have hg : torchSum p.bias (matVec p.ffW x) (matVec p.recW s.1) = addV (zInput p x) (matVec p.recW s.1) := by
    unfold zInput torchSum
    cases p.bias with
    | none => rfl
    | some b => exact addV_half _ _ _
  unfold torchCell
  simp only [hg, stacked_sum p _ w h x s.1]
  have e0 := part_flatMap p.H (fun g => gateVal (w g) x s.1) (fun g => gateVal_length (h.1 g) x s.1) .i [.i, .f, .j, .o] (by simp)
  have e1 := part_flatMap p.H (fun g => gateVal (w g) x s.1) (fun g => gateVal_length (h.1 g) x s.1) .f [.i, .f, .j, .o] (by simp)
  have e2 := part_flatMap p.H (fun g => gateVal (w g) x s.1) (fun g => gateVal_length (h.1 g) x s.1) .j [.i, .f, .j, .o] (by simp)
  have e3 := part_flatMap p.H (fun g => gateVal (w g) x s.1) (fun g => gateVal_length (h.1 g) x s.1) .o [.i, .f, .j, .o] (by simp)
  have i0 : [Gate.i, .f, .j, .o].idxOf .i = 0 := by decide
  have i1 : [Gate.i, .f, .j, .o].idxOf .f = 1 := by decide
  have i2 : [Gate.i, .f, .j, .o].idxOf .j = 2 := by decide
  have i3 : [Gate.i, .f, .j, .o].idxOf .o = 3 := by decide
  rw [i0] at e0; rw [i1] at e1; rw [i2] at e2; rw [i3] at e3
  rw [e0, e1, e2, e3]
  simp [lstmEq_eq]

variable [DecidableEq K]

/-- C103: the cell of ZoneoutLSTM: whatever the order in which the gates are stacked, it is the LSTM with the forget bias, then zoneout on `c` and `h`; the output is `h` after zoneout or before it. -/
theorem innerStep_right (sigmoid tanh : K → K) (p : Params K) (c : ZCfg K) (hc : c.valid = true) (w : Gate → GateW K) (h : Stacked p c.order w) (keep : Option (List Bool × List Bool)) (x : List K)
    (s : LSt K) :
    innerStep sigmoid tanh p c keep (zInput p x) s = (do
      let new := lstmEq sigmoid tanh c.forgetBias w x s
      let cc ← zoneout c.factorC (keep.map Prod.fst) s.2 new.2
      let hh ← zoneout c.factorH (keep.map Prod.snd) s.1 new.1
      return (if c.zoneoutOutput then hh else new.1, (hh, cc))) := by
  have hmem : ∀ g, g ∈ c.order := by
    unfold ZCfg.valid at hc
    simp only [Bool.and_eq_true, List.all_eq_true, List.contains_iff_mem] at hc
    intro g
    exact hc.2 g (by cases g <;> simp)
  have e : ∀ g, part p.H (c.order.idxOf g) (c.order.flatMap (fun g => gateVal (w g) x s.1)) = gateVal (w g) x s.1 :=
    fun g => part_flatMap p.H (fun g => gateVal (w g) x s.1) (fun g => gateVal_length (h.1 g) x s.1) g _ (hmem g)
  unfold innerStep gateOf
  simp only [stacked_sum p _ w h x s.1, e, lstmEq_eq]

/-- C103: without zoneout and forget bias, ZoneoutLSTM with the order i, f, j, o is the LSTM. -/
theorem zoneout_is_lstm [CharZero K] (sigmoid tanh : K → K) (p : Params K) (c : ZCfg K) (w : Gate → GateW K) (ho : c.order = [.i, .f, .j, .o]) (h : Stacked p c.order w) (h1 : c.factorC = 0)
    (h2 : c.factorH = 0) (h3 : c.forgetBias = 0) (keep : Option (List Bool × List Bool)) (x : List K) (s : LSt K) :
    innerStep sigmoid tanh p c keep (zInput p x) s = .ok (torchCell sigmoid tanh p x s) := by
  rw [innerStep_right sigmoid tanh p c (by unfold ZCfg.valid; rw [ho]; decide) w h keep x s, torchCell_right sigmoid tanh p w (ho ▸ h)]
  simp only [zoneout, h1, h2, h3, if_true, bind, Except.bind, pure, Except.pure, ite_self]

/-- C103: zoneout outside of training is the mean of new and old value. -/
theorem zoneout_eval (f : K) (prev cur : List K) (hl : cur.length = prev.length) : ∃ r, zoneout f none prev cur = .ok r ∧ r.length = cur.length ∧
    ∀ (i : Nat) a b, cur[i]? = some a → prev[i]? = some b → r[i]? = some ((1 - f) * a + f * b) := by
  unfold zoneout
  by_cases hf : f = 0
  · refine ⟨cur, by simp [hf], rfl, ?_⟩
    intro i a b ha hb
    rw [ha, hf]
    congr 1
    ring
  · refine ⟨_, by rw [if_neg hf], by simp [addV, scaleV, hl], ?_⟩
    intro i a b ha hb
    simp [addV, scaleV, List.getElem?_zipWith, ha, hb]

/-- C103: zoneout in training keeps the old value where the noise drops, else takes the new value exactly. -/
theorem zoneout_train (f : K) (hf : f ≠ 0) (hf1 : f ≠ 1) (keep : List Bool) (prev cur : List K) (hl : cur.length = prev.length) (hk : keep.length = cur.length) :
    ∃ r, zoneout f (some keep) prev cur = .ok r ∧ r.length = cur.length ∧
      ∀ (i : Nat) a b k, cur[i]? = some a → prev[i]? = some b → keep[i]? = some k → r[i]? = some (pick k a b) := by
  have h1 : 1 - f ≠ 0 := fun h => hf1 (sub_eq_zero.1 h).symm
  unfold zoneout
  refine ⟨_, by rw [if_neg hf]; simp only; rw [if_neg h1], by simp [addV, scaleV, dropout, hl, hk], ?_⟩
  intro i a b k ha hb hki
  simp only [addV, scaleV, dropout, List.getElem?_zipWith, List.getElem?_map, ha, hb, hki, Option.map_some, Option.some.injEq]
  unfold pick
  cases k
  · simp
  · simp only [if_true]
    field_simp
    ring

/-- C103: zoneout with factor 1 raises in training only (outside, the old value stays). -/
theorem zoneout_one (prev cur : List K) (keep : List Bool) (hl : cur.length = prev.length) :
    zoneout (1 : K) (some keep) prev cur = .error .valueError ∧ zoneout (1 : K) none prev cur = .ok prev := by
  unfold zoneout
  rw [if_neg one_ne_zero, if_neg one_ne_zero]
  refine ⟨by simp, ?_⟩
  simp only [Except.ok.injEq]
  apply List.ext_getElem
  · simp [addV, scaleV, hl]
  · intro i h1 h2
    simp [addV, scaleV]

/-- C103: the step never raises outside of training, or with factors other than 1. -/
theorem innerStep_total (sigmoid tanh : K → K) (p : Params K) (c : ZCfg K) (keep : Option (List Bool × List Bool)) (h : keep = none ∨ (c.factorC ≠ 1 ∧ c.factorH ≠ 1)) (x : List K) (s : LSt K) :
    innerStep sigmoid tanh p c keep x s = .ok (innerStep! sigmoid tanh p c keep x s) := by
  have hz : ∀ (f : K) (k : Option (List Bool)) (a b : List K), (k = none ∨ f ≠ 1) → ∃ r, zoneout f k a b = .ok r := by
    intro f k a b hk
    unfold zoneout
    by_cases hf : f = 0
    · exact ⟨b, by simp [hf]⟩
    · rw [if_neg hf]
      cases k with
      | none => exact ⟨_, rfl⟩
      | some k =>
        have h1 : 1 - f ≠ 0 := by
          intro h'
          rcases hk with hk | hk
          · exact absurd hk (by simp)
          · exact hk (sub_eq_zero.1 h').symm
        exact ⟨_, by simp only; rw [if_neg h1]⟩
  unfold innerStep!
  have : ∃ r, innerStep sigmoid tanh p c keep x s = .ok r := by
    unfold innerStep
    simp only
    generalize addV (mulV ((gateOf c p.H .f (addV x (matVec p.recW s.1))).map (fun a => sigmoid (a + c.forgetBias))) s.2)
      (mulV ((gateOf c p.H .i (addV x (matVec p.recW s.1))).map sigmoid) ((gateOf c p.H .j (addV x (matVec p.recW s.1))).map tanh)) = newC
    obtain ⟨r1, h1⟩ := hz c.factorC (keep.map Prod.fst) s.2 newC (by rcases h with h | h; · left; simp [h]
                                                                     · right; exact h.1)
    obtain ⟨r2, h2⟩ := hz c.factorH (keep.map Prod.snd) s.1 (mulV ((gateOf c p.H .o (addV x (matVec p.recW s.1))).map sigmoid) (newC.map tanh)) (by
      rcases h with h | h
      · left; simp [h]
      · right; exact h.2)
    rw [h1, h2]
    exact ⟨_, rfl⟩
  obtain ⟨r, hr⟩ := this
  rw [hr]

/-- The step of ZoneoutLSTM with the number of the frame in the state (for the noise). -/
def zCell (sigmoid tanh : K → K) (p : Params K) (c : ZCfg K) (keeps : Option (Nat → List Bool × List Bool)) (x : List K) (s : Nat × LSt K) : List K × (Nat × LSt K) :=
  let r := innerStep! sigmoid tanh p c (keeps.map (fun k => k s.1)) (zInput p x) s.2
  (r.1, (s.1 + 1, r.2))

theorem runSeq_zCell (sigmoid tanh : K → K) (p : Params K) (c : ZCfg K) (keeps : Option (Nat → List Bool × List Bool)) : ∀ (xs : List (List K)) (t : Nat) (s : LSt K),
    Verif.Scan.runSeq (G := Nat) { stepG := (· + 1), step := fun x t s => innerStep! sigmoid tanh p c (keeps.map (fun k => k t)) x s, cond := fun _ _ => true } (xs.map (zInput p)) t s =
      runCell (zCell sigmoid tanh p c keeps) xs (t, s)
  | [], t, s => rfl
  | x :: xs, t, s => by
    rw [List.map_cons, Verif.Scan.runSeq, runSeq_zCell sigmoid tanh p c keeps xs]
    simp only [runCell, zCell]

/-- C103: ZoneoutLSTM over a padded batch: for each entry, also an empty one, the outputs and the final state are those of the loop over its own frames. -/
theorem zoneoutCall_right (sigmoid tanh : K → K) (p : Params K) (c : ZCfg K) (keeps : Option (Nat → List Bool × List Bool)) (batch : List (Entry (List K) (LSt K)))
    (hx : ∀ e ∈ batch, e.xs.length = maxLen batch) :
    ∃ r, zoneoutCall sigmoid tanh p c keeps batch = some r ∧ List.Forall₂ (fun e y => y.2 = (runCell (zCell sigmoid tanh p c keeps) e.valid (0, e.st)).2.2 ∧
      y.1.take e.len = (runCell (zCell sigmoid tanh p c keeps) e.valid (0, e.st)).1 ∧ y.1.length = maxLen batch) batch r := by
  have hd : Verif.Scan.dimValue ((batch.map (fun e => (e.len, e.xs.map (zInput p), e.st))).map (·.1)) = maxLen batch := by
    unfold Verif.Scan.dimValue maxLen
    rw [List.map_map]; rfl
  obtain ⟨r, h1, _, h3⟩ := Verif.Scan.scanXs_correct (G := Nat) { stepG := (· + 1), step := fun x t s => innerStep! sigmoid tanh p c (keeps.map (fun k => k t)) x s, cond := fun _ _ => true } 0
    (batch := batch.map (fun e => (e.len, e.xs.map (zInput p), e.st))) (fuel := maxLen batch + 1)
    (by
      rw [hd]
      intro b hb
      obtain ⟨e, he, rfl⟩ := List.mem_map.1 hb
      simpa using hx e he) (by rw [hd]; omega)
  refine ⟨_, by unfold zoneoutCall; rw [h1]; rfl, ?_⟩
  rw [List.forall₂_map_left_iff] at h3
  rw [List.forall₂_map_right_iff]
  refine h3.imp ?_
  intro e y h
  simp only [← List.map_take, runSeq_zCell, hd] at h
  exact h

/-- C103: outside of training, without zoneout and forget bias: ZoneoutLSTM over a padded batch gives the same as the LSTM. -/
theorem zoneoutCall_is_lstm [CharZero K] (sigmoid tanh : K → K) (p : Params K) (c : ZCfg K) (w : Gate → GateW K) (ho : c.order = [.i, .f, .j, .o]) (h : Stacked p c.order w) (h1 : c.factorC = 0)
    (h2 : c.factorH = 0) (h3 : c.forgetBias = 0) (keeps : Option (Nat → List Bool × List Bool)) (batch : List (Entry (List K) (LSt K))) (hx : ∀ e ∈ batch, e.xs.length = maxLen batch)
    (hok : BatchOk batch) (hne : batch ≠ []) (perm : List Nat) (hs : IsSort perm batch) (zero : List K) :
    ∃ r r', zoneoutCall sigmoid tanh p c keeps batch = some r ∧ lstmCall (torchCell sigmoid tanh p) zero perm batch = .ok r' ∧ r.map Prod.snd = r'.map Prod.snd ∧
      ∀ (b : Nat) e y y', batch[b]? = some e → r[b]? = some y → r'[b]? = some y' → y.1.take e.len = y'.1.take e.len := by
  have hcell : ∀ (xs : List (List K)) (t : Nat) (s : LSt K), (runCell (zCell sigmoid tanh p c keeps) xs (t, s)).1 = (runCell (torchCell sigmoid tanh p) xs s).1 ∧
      (runCell (zCell sigmoid tanh p c keeps) xs (t, s)).2.2 = (runCell (torchCell sigmoid tanh p) xs s).2 := by
    intro xs
    induction xs with
    | nil => intro t s; exact ⟨rfl, rfl⟩
    | cons x xs ih =>
      intro t s
      have hst : innerStep! sigmoid tanh p c (keeps.map (fun k => k t)) (zInput p x) s = torchCell sigmoid tanh p x s := by
        unfold innerStep!
        rw [zoneout_is_lstm sigmoid tanh p c w ho h h1 h2 h3]
      simp only [runCell, zCell, hst]
      obtain ⟨i1, i2⟩ := ih (t + 1) (torchCell sigmoid tanh p x s).2
      exact ⟨by rw [i1], i2⟩
  obtain ⟨r, hr, hf⟩ := zoneoutCall_right sigmoid tanh p c keeps batch hx
  refine ⟨r, _, hr, lstm_right _ zero perm batch hs hok hne, ?_, ?_⟩
  · rw [List.map_map]
    apply List.ext_getElem?
    intro b
    rw [List.getElem?_map, List.getElem?_map]
    by_cases hb : b < batch.length
    · have hb' : b < r.length := by rw [← hf.length_eq]; exact hb
      rw [List.getElem?_eq_getElem hb, List.getElem?_eq_getElem hb']
      have := (List.forall₂_iff_get.1 hf).2 b hb hb'
      simp only [List.get_eq_getElem] at this
      simp only [Option.map_some, Function.comp_apply, Option.some.injEq]
      rw [this.1, (hcell _ _ _).2]
    · rw [List.getElem?_eq_none (by rw [← hf.length_eq]; omega), List.getElem?_eq_none (by omega)]
      rfl
  · intro b e y y' he hy hy'
    have hb := (List.getElem?_eq_some_iff.1 he)
    have hb' := (List.getElem?_eq_some_iff.1 hy)
    obtain ⟨hb1, rfl⟩ := hb
    obtain ⟨hb2, rfl⟩ := hb'
    have := (List.forall₂_iff_get.1 hf).2 b hb1 hb2
    simp only [List.get_eq_getElem] at this
    rw [this.2.1, (hcell _ _ _).1]
    rw [List.getElem?_map, List.getElem?_eq_getElem hb1] at hy'
    simp only [Option.map_some, Option.some.injEq] at hy'
    subst hy'
    simp only
    rw [List.take_left']
    rw [runCell_length]
    have := (hok _ (List.getElem_mem hb1)).2
    simp [Entry.valid]; omega

/-! ### Examples -/

/-- One unit, one input. -/
def exW : Gate → GateW Rat
  | .i => { ffW := [[1]], recW := [[2]], bias := [1] }
  | .j => { ffW := [[3]], recW := [[0]], bias := [0] }
  | .f => { ffW := [[0]], recW := [[1]], bias := [2] }
  | .o => { ffW := [[1]], recW := [[0]], bias := [0] }

def exP : Params Rat := { H := 1, ffW := [[1], [0], [3], [1]], recW := [[2], [1], [0], [0]], bias := some [1, 2, 0, 0] }

example : Stacked exP [.i, .f, .j, .o] exW := by
  refine ⟨?_, rfl, rfl, Or.inl rfl⟩
  intro g
  cases g <;> exact ⟨rfl, rfl, rfl⟩

def exC : ZCfg Rat := { factorC := 1 / 4, factorH := 0, zoneoutOutput := true, forgetBias := 1, order := [.o, .j, .i, .f] }

example : exC.valid = true := by decide

/-- C103: where they differ: a batch with an empty sequence raises in the LSTM, not in ZoneoutLSTM, where the state of this sequence stays as it is. -/
theorem empty_differs (sigmoid tanh : K → K) (p : Params K) (c : ZCfg K) (keeps : Option (Nat → List Bool × List Bool)) (batch : List (Entry (List K) (LSt K)))
    (hx : ∀ e ∈ batch, e.xs.length = maxLen batch) (b : Nat) (e : Entry (List K) (LSt K)) (he : batch[b]? = some e) (h0 : e.len = 0) (perm : List Nat) (zero : List K) :
    lstmCall (torchCell sigmoid tanh p) zero perm batch = .error (.other "pack") ∧ ∃ r y, zoneoutCall sigmoid tanh p c keeps batch = some r ∧ r[b]? = some y ∧ y.2 = e.st := by
  refine ⟨lstm_empty _ zero perm batch e (List.mem_of_getElem? he) h0, ?_⟩
  obtain ⟨r, h1, h2⟩ := zoneoutCall_right sigmoid tanh p c keeps batch hx
  obtain ⟨hb, rfl⟩ := List.getElem?_eq_some_iff.1 he
  have hb' : b < r.length := by rw [← h2.length_eq]; exact hb
  refine ⟨r, _, h1, List.getElem?_eq_getElem hb', ?_⟩
  have := ((List.forall₂_iff_get.1 h2).2 b hb hb').1
  simp only [List.get_eq_getElem] at this
  rw [this]
  simp [Entry.valid, h0, runCell]

def exEmpty : List (Entry (List Rat) (LSt Rat)) := [{ len := 0, xs := [[1]], st := ([5], [6]) }, { len := 1, xs := [[1]], st := ([0], [0]) }]

example : (∀ e ∈ exEmpty, e.xs.length = maxLen exEmpty) ∧ ∃ e, exEmpty[0]? = some e ∧ e.len = 0 := by
  refine ⟨?_, _, rfl, rfl⟩
  intro e he
  simp only [exEmpty, List.mem_cons, List.not_mem_nil, or_false] at he
  rcases he with rfl | rfl <;> rfl

end Verif.Lstm
