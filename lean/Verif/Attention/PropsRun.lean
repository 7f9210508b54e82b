import Verif.Attention.PropsDecoder
import Verif.Attention.Freq
import Mathlib.Analysis.SpecialFunctions.Trigonometric.Basic
/-!
C78, C79, C80: runs of single steps, also after a sequence; rotary positions; the learned relative encoding; the calls which fail.
-/

namespace Verif.Attention
open Verif.Py Verif.RfSeq

section
variable {R : Type} [Field R]

/-! ### C78: runs -/

/-- Single steps, one after the other. -/
def attSteps (exp : R → R) (a : Att R) (kind : Kind R) : List (List (Frame R)) → State R → Res (List (List (Frame R)) × State R)
  | [], st => .ok ([], st)
  | xs :: rest, st => do
    let r ← callStep exp a kind xs (some st)
    let q ← attSteps exp a kind rest r.2
    return (r.1 :: q.1, q.2)

theorem attSteps_ok (exp : R → R) (a : Att R) (kind : Kind R) (B : Nat) : ∀ (steps : List (Nat → Frame R)) (st : State R) (h : Nat → List (Frame R)), StateOf a st (batch B h) →
    ∃ st', attSteps exp a kind (steps.map (batch B)) st = .ok ((List.range steps.length).map (fun i => batch B (fun b => causal exp a kind (h b ++ steps.map (fun x => x b)) ((h b).length + i))), st') ∧
      StateOf a st' (batch B (fun b => h b ++ steps.map (fun x => x b)))
  | [], st, h, hst => ⟨st, rfl, by simpa using hst⟩
  | x :: steps, st, h, hst => by
    obtain ⟨st1, s1, s2⟩ := callStep_ok exp a kind st (batch B h) hst (batch B x) (by rw [length_batch, length_batch])
    rw [zipWith_batch] at s1 s2
    obtain ⟨st', r1, r2⟩ := attSteps_ok exp a kind B steps st1 (fun b => h b ++ [x b]) s2
    refine ⟨st', ?_, by simpa only [List.map_cons, List.append_assoc, List.singleton_append] using r2⟩
    rw [List.map_cons, attSteps, s1]
    simp only [bind, Except.bind, pure, Except.pure]
    rw [r1]
    simp only [List.length_cons]
    rw [List.range_succ_eq_map, List.map_cons, List.map_map]
    congr 3
    · unfold batch
      apply List.map_congr_left
      intro b _
      rw [Nat.add_zero, List.map_cons, ← causal_take exp a kind (h b ++ x b :: steps.map (fun x => x b)) ((h b).length + 1) (h b).length (by omega)]
      rw [List.take_append, List.take_of_length_le (by omega), Nat.add_sub_cancel_left]
      rfl
    · apply List.map_congr_left
      intro i _
      unfold batch
      apply List.map_congr_left
      intro b _
      simp only [List.map_cons, List.append_assoc, List.singleton_append, List.length_append, List.length_singleton, Nat.succ_eq_add_one]
      congr 1
      omega

theorem initState_batch (a : Att R) (B : Nat) : StateOf a (initState R B) (batch B (fun _ => [])) := by
  have h := initState_of a B
  have e : batch B (fun _ => ([] : List (Frame R))) = List.replicate B [] := by
    apply List.ext_getElem?
    intro i
    unfold batch
    rw [List.getElem?_map, List.getElem?_replicate]
    by_cases hi : i < B
    · rw [List.getElem?_range hi, if_pos hi]; rfl
    · rw [List.getElem?_eq_none (by simp; omega), if_neg hi]; rfl
  rw [e]; exact h

/-- C78: single steps from the initial state give at step `t` causal attention at position `t`. -/
theorem steps_from_init (exp : R → R) (a : Att R) (kind : Kind R) (B : Nat) (steps : List (Nat → Frame R)) :
    ∃ st', attSteps exp a kind (steps.map (batch B)) (initState R B) = .ok ((List.range steps.length).map (fun t => batch B (fun b => causal exp a kind (steps.map (fun x => x b)) t)), st') ∧
      StateOf a st' (batch B (fun b => steps.map (fun x => x b))) := by
  obtain ⟨st', h1, h2⟩ := attSteps_ok exp a kind B steps (initState R B) (fun _ => []) (initState_batch a B)
  refine ⟨st', ?_, by simpa using h2⟩
  rw [h1]
  simp only [List.nil_append, List.length_nil, Nat.zero_add]

/-- C78: for sequences (of any lengths), and then single steps: the same as if all frames had been in the sequence. -/
theorem seq_then_steps (exp : R → R) (a : Att R) (kind : Kind R) (B : Nat) (x : Padded (Frame R)) (hx : x.Ok) (f : Nat → List (Frame R)) (hv : x.valid = batch B f) (dim : Option Nat)
    (st : Option (State R)) (hst : ∀ s, st = some s → s.dim = some 0) (steps : List (Nat → Frame R)) :
    ∃ out st1 st2, callSeq exp a kind x dim st = .ok (out, st1) ∧ out.valid = batch B (fun b => (List.range (f b).length).map (fun t => causal exp a kind (f b ++ steps.map (fun x => x b)) t)) ∧
      attSteps exp a kind (steps.map (batch B)) st1 = .ok ((List.range steps.length).map (fun i => batch B (fun b => causal exp a kind (f b ++ steps.map (fun x => x b)) ((f b).length + i))), st2) := by
  obtain ⟨out, st1, o1, _, _, _, o5, o6, _⟩ := callSeq_ok exp a kind x hx dim st hst
  rw [hv] at o5 o6
  obtain ⟨st2, s1, _⟩ := attSteps_ok exp a kind B steps st1 f o6
  refine ⟨out, st1, st2, o1, ?_, s1⟩
  rw [o5, map_batch]
  unfold batch
  apply List.map_congr_left
  intro b _
  apply List.map_congr_left
  intro t ht
  rw [List.mem_range] at ht
  rw [← causal_take exp a kind (f b ++ steps.map (fun x => x b)) (f b).length t ht]
  simp

/-- C78: a sequence cannot be processed from a state which is not initial. -/
theorem callSeq_fails (exp : R → R) (a : Att R) (kind : Kind R) (x : Padded (Frame R)) (dim : Option Nat) (s : State R) (hs : s.dim ≠ some 0) : callSeq exp a kind x dim (some s) = .error .notImplemented := by
  unfold callSeq
  rw [if_pos]
  simp [nonInitial, hs]

/-- C78: a single step without a state fails. -/
theorem callStep_fails (exp : R → R) (a : Att R) (kind : Kind R) (xs : List (Frame R)) : callStep exp a kind xs none = .error .assertion := rfl

/-! ### C80: sequences and runs of the decoder -/

theorem decInit_pos (d : Dec R) (B : Nat) : (decInit d B).pos = batch B (fun _ => 0) := by
  apply List.ext_getElem?
  intro i
  unfold batch decInit
  simp only [List.getElem?_map, List.getElem?_replicate]
  by_cases hi : i < B
  · rw [List.getElem?_range hi, if_pos hi]; rfl
  · rw [List.getElem?_eq_none (by simp; omega), if_neg hi]; rfl

theorem layersOf_init (exp : R → R) (B : Nat) (enc : Nat → List (Frame R)) : ∀ ls : List (Layer R), LayersOf exp B enc ls (ls.map (fun _ => initState R B)) (fun _ => [])
  | [] => rfl
  | l :: ls => ⟨_, _, rfl, by simpa using initState_batch l.att B, by simpa [layerSpec] using layersOf_init exp B enc ls⟩

/-- The initial state is the one after no labels. -/
theorem decInit_of (exp : R → R) (d : Dec R) (B : Nat) (enc : Nat → List (Frame R)) : DecStateOf exp d B enc (decInit d B) (fun _ => []) :=
  ⟨decInit_pos d B, layersOf_init exp B enc d.layers⟩

theorem decInputSeq_ok (d : Dec R) (x : Padded Nat) (hx : x.Ok) (B : Nat) (f : Nat → List Nat) (hv : x.valid = batch B f) :
    (decInputSeq d x (batch B (fun _ => 0))).Ok ∧ (decInputSeq d x (batch B (fun _ => 0))).valid = batch B (fun b => inputSpec d (f b)) ∧
    (decInputSeq d x (batch B (fun _ => 0))).seqs.map Prod.fst = x.seqs.map Prod.fst := by
  obtain ⟨hlen, hget⟩ := valid_get x B f hv
  have hseqs : (decInputSeq d x (batch B (fun _ => 0))).seqs = x.seqs.map (fun p => (p.1, p.2.mapIdx (fun t l => decInput d l t))) := by
    unfold decInputSeq
    apply List.ext_getElem?
    intro i
    rw [List.getElem?_zipWith, List.getElem?_map]
    by_cases hi : i < B
    · rw [getElem?_batch _ _ _ hi, List.getElem?_eq_getElem (by omega)]; rfl
    · rw [List.getElem?_eq_none (by omega)]; rfl
  have hT : (decInputSeq d x (batch B (fun _ => 0))).T = x.T := rfl
  have hM : (decInputSeq d x (batch B (fun _ => 0))).masked = x.masked := rfl
  refine ⟨?_, ?_, ?_⟩
  · intro p hp
    rw [hseqs] at hp
    obtain ⟨q, hq, rfl⟩ := List.mem_map.1 hp
    obtain ⟨h1, h2, h3⟩ := hx q hq
    rw [hT, hM]
    exact ⟨by simpa using h1, h2, h3⟩
  · unfold Padded.valid
    rw [hseqs, List.map_map]
    have : batch B (fun b => inputSpec d (f b)) = x.valid.map (inputSpec d) := by rw [hv, map_batch]
    rw [this]
    unfold Padded.valid
    rw [List.map_map]
    apply List.map_congr_left
    intro p _
    simp only [Function.comp_apply]
    rw [inputSpec_take]; simp only [decInput_eq]; rfl
  · rw [hseqs, List.map_map]; rfl

theorem zip_lens {α : Type} (x : Padded α) (hx : x.Ok) (B : Nat) (f : Nat → List α) (hv : x.valid = batch B f) : List.zipWith (fun o p => o + p.1) (batch B (fun _ => 0)) x.seqs = batch B (fun b => (f b).length) := by
  obtain ⟨hlen, hget⟩ := valid_get x B f hv
  apply List.ext_getElem?
  intro i
  rw [List.getElem?_zipWith]
  by_cases hi : i < B
  · obtain ⟨p, p1, p2⟩ := hget i hi
    obtain ⟨o1, o2, _⟩ := hx p (List.mem_of_getElem? p1)
    rw [getElem?_batch _ _ _ hi, getElem?_batch _ _ _ hi, p1, ← p2]
    simp only [Nat.zero_add, List.length_take, Option.some.injEq]
    omega
  · rw [List.getElem?_eq_none (l := x.seqs) (by omega), List.getElem?_eq_none (l := batch B (fun b => (f b).length)) (by rw [length_batch]; omega)]
    cases (batch B (fun _ => 0))[i]? <;> rfl

/-- C80 for a whole sequence, from the initial state. -/
theorem decSeq_ok (exp : R → R) (d : Dec R) (encoder : Option (List (Option (Enc R)))) (B : Nat) (enc : Nat → List (Frame R)) (he : List.Forall₂ (EncFor B enc) d.layers (encOrNone d encoder))
    (x : Padded Nat) (hx : x.Ok) (f : Nat → List Nat) (hv : x.valid = batch B f) (dim : Option Nat) :
    ∃ out st', decSeq exp d encoder x dim (decInit d B) = .ok (out, st') ∧ out.valid = batch B (fun b => decSpec exp d (enc b) (f b)) ∧ DecStateOf exp d B enc st' f := by
  obtain ⟨i1, i2, i3⟩ := decInputSeq_ok d x hx B f hv
  obtain ⟨o, ss', o1, o2, o3, o4, o5, o6, o7, o8⟩ := layersSeq_ok exp dim B enc d.layers (encOrNone d encoder) (decInit d B).layers _ _ he (by simp [decInit])
    (by intro s hs; obtain ⟨_, _, rfl⟩ := List.mem_map.1 hs; rfl) i1 i2
  refine ⟨_, _, by unfold decSeq; rw [decInit_pos, o1]; rfl, ?_, ?_, o7⟩
  · have : batch B (fun b => decSpec exp d (enc b) (f b)) = o.valid.map (fun ys => ys.map (fun y => d.logits (d.outLn y))) := by rw [o6, map_batch]; rfl
    rw [this]
    unfold Padded.valid
    rw [List.map_map, List.map_map]
    apply List.map_congr_left
    intro p _
    simp
  · exact zip_lens x hx B f hv

/-- C80 for a whole sequence with `output_only_last_frame`, when all sequences are non-empty: the logits are the last ones of the specification. -/
theorem decSeqLast_ok (exp : R → R) (d : Dec R) (encoder : Option (List (Option (Enc R)))) (B : Nat) (enc : Nat → List (Frame R)) (he : List.Forall₂ (EncFor B enc) d.layers (encOrNone d encoder))
    (x : Padded Nat) (hx : x.Ok) (f : Nat → List Nat) (hv : x.valid = batch B f) (hne : ∀ b, b < B → f b ≠ []) (dim : Option Nat) :
    ∃ y st', decSeqLast exp d encoder x dim (decInit d B) = .ok (batch B y, st') ∧ (∀ b, b < B → (decSpec exp d (enc b) (f b)).getLast? = some (y b)) ∧ DecStateOf exp d B enc st' f := by
  obtain ⟨i1, i2, i3⟩ := decInputSeq_ok d x hx B f hv
  obtain ⟨o, ss', o1, o2, o3, o4, o5, o6, o7, o8⟩ := layersSeq_ok exp dim B enc d.layers (encOrNone d encoder) (decInit d B).layers _ _ he (by simp [decInit])
    (by intro s hs; obtain ⟨_, _, rfl⟩ := List.mem_map.1 hs; rfl) i1 i2
  obtain ⟨olen, oget⟩ := valid_get o B _ o6
  have hsp : ∀ b, b < B → 0 < (f b).length := fun b hb => List.length_pos_iff.2 (hne b hb)
  have hll : ∀ b, (layersSpec exp d.layers (enc b) (inputSpec d (f b))).length = (f b).length := by intro b; rw [layersSpec_length]; simp [inputSpec]
  have hat : ∀ b p, o.seqs[b]? = some p → p.2[lastFramePosition p.1]? = (layersSpec exp d.layers (enc b) (inputSpec d (f b))).getLast? ∧ b < B := by
    intro b p hp
    have hb : b < B := by rw [← olen]; exact (List.getElem?_eq_some_iff.1 hp).1
    obtain ⟨p', q1, q2⟩ := oget b hb
    rw [hp] at q1
    cases q1
    obtain ⟨a1, a2, _⟩ := o2 p (List.mem_of_getElem? hp)
    have hn : p.1 = (f b).length := by rw [← hll b, ← q2, List.length_take]; omega
    refine ⟨?_, hb⟩
    have h0 := hsp b hb
    unfold lastFramePosition
    rw [List.getLast?_eq_getElem?, hll, ← q2, List.getElem?_take, if_pos (by omega), hn, Nat.max_eq_left (by omega)]
  have hlast : ∀ p ∈ o.seqs, gatherLast p = .ok (p.2.getD (lastFramePosition p.1) []) := by
    intro p hp
    obtain ⟨b, hb⟩ := List.mem_iff_getElem?.1 hp
    obtain ⟨h1, h2⟩ := hat b p hb
    unfold gatherLast
    rw [List.getD_eq_getElem?_getD, h1]
    have h3 : layersSpec exp d.layers (enc b) (inputSpec d (f b)) ≠ [] := by
      rw [← List.length_pos_iff, hll]; exact hsp b h2
    rw [List.getLast?_eq_getLast_of_ne_nil h3]
    rfl
  refine ⟨fun b => d.logits (d.outLn ((o.seqs.getD b (0, [])).2.getD (lastFramePosition (o.seqs.getD b (0, [])).1) [])), { pos := List.zipWith (fun o p => o + p.1) (batch B (fun _ => 0)) x.seqs, layers := ss' }, ?_, ?_, ?_, o7⟩
  · unfold decSeqLast
    rw [decInit_pos, o1]
    simp only [bind, Except.bind, pure, Except.pure]
    rw [mapM_ok (g := fun p : Nat × List (Frame R) => p.2.getD (lastFramePosition p.1) []) o.seqs hlast]
    simp only []
    congr 2
    rw [List.map_map, eq_range_map o.seqs _ (0, []), olen]
    rfl
  · intro b hb
    have hb' : o.seqs[b]? = some (o.seqs.getD b (0, [])) := by
      rw [List.getD_eq_getElem?_getD, List.getElem?_eq_getElem (by omega)]; rfl
    obtain ⟨h1, _⟩ := hat b _ hb'
    have h3 : layersSpec exp d.layers (enc b) (inputSpec d (f b)) ≠ [] := by
      rw [← List.length_pos_iff, hll]; exact hsp b hb
    unfold decSpec
    rw [List.getLast?_map, ← h1]
    rw [List.getLast?_eq_getLast_of_ne_nil h3] at h1
    simp only [List.getD_eq_getElem?_getD (l := (o.seqs.getD b (0, [])).2), h1]
    rfl
  · exact zip_lens x hx B f hv

/-- Single steps of the decoder, one after the other. -/
def decSteps (exp : R → R) (d : Dec R) (encoder : Option (List (Option (Enc R)))) : List (List Nat) → DecState R → Res (List (List (Frame R)) × DecState R)
  | [], st => .ok ([], st)
  | xs :: rest, st => do
    let r ← decStep exp d encoder xs st
    let q ← decSteps exp d encoder rest r.2
    return (r.1 :: q.1, q.2)

/-- C80: single steps from the state after some labels: their logits are those of the specification on all labels. -/
theorem decSteps_ok (exp : R → R) (d : Dec R) (encoder : Option (List (Option (Enc R)))) (B : Nat) (enc : Nat → List (Frame R)) (he : List.Forall₂ (EncFor B enc) d.layers (encOrNone d encoder)) :
    ∀ (steps : List (Nat → Nat)) (st : DecState R) (h : Nat → List Nat), DecStateOf exp d B enc st h →
    ∃ (ys : List (Nat → Frame R)) (st' : DecState R), decSteps exp d encoder (steps.map (batch B)) st = .ok (ys.map (batch B), st') ∧ DecStateOf exp d B enc st' (fun b => h b ++ steps.map (fun x => x b)) ∧
      ∀ b, decSpec exp d (enc b) (h b ++ steps.map (fun x => x b)) = decSpec exp d (enc b) (h b) ++ ys.map (fun y => y b)
  | [], st, h, hst => ⟨[], st, rfl, by simpa using hst, fun b => by simp⟩
  | x :: steps, st, h, hst => by
    obtain ⟨y, st1, s1, s2, s3⟩ := decStep_ok exp d encoder B enc he st h hst x
    obtain ⟨ys, st', r1, r2, r3⟩ := decSteps_ok exp d encoder B enc he steps st1 (fun b => h b ++ [x b]) s2
    refine ⟨y :: ys, st', ?_, by simpa only [List.map_cons, List.append_assoc, List.singleton_append] using r2, ?_⟩
    · rw [List.map_cons, decSteps, s1]
      simp only [bind, Except.bind, pure, Except.pure]
      rw [r1]
      rfl
    · intro b
      have := r3 b
      rw [s3 b, List.append_assoc, List.append_assoc] at this
      simpa only [List.map_cons, List.singleton_append] using this

/-- C80: decoding step by step from the initial state gives the logits of the specification. -/
theorem decSteps_init (exp : R → R) (d : Dec R) (encoder : Option (List (Option (Enc R)))) (B : Nat) (enc : Nat → List (Frame R)) (he : List.Forall₂ (EncFor B enc) d.layers (encOrNone d encoder)) (steps : List (Nat → Nat)) :
    ∃ (ys : List (Nat → Frame R)) (st' : DecState R), decSteps exp d encoder (steps.map (batch B)) (decInit d B) = .ok (ys.map (batch B), st') ∧ ∀ b, decSpec exp d (enc b) (steps.map (fun x => x b)) = ys.map (fun y => y b) := by
  obtain ⟨ys, st', h1, _, h3⟩ := decSteps_ok exp d encoder B enc he steps (decInit d B) (fun _ => []) (decInit_of exp d B enc)
  refine ⟨ys, st', h1, fun b => ?_⟩
  have := h3 b
  rw [List.nil_append] at this
  rw [this]
  have h0 : decSpec exp d (enc b) [] = [] := by
    have := decSpec_length exp d (enc b) []
    exact List.eq_nil_of_length_eq_zero this
  rw [h0, List.nil_append]

/-- C80: a prompt as a sequence (of different lengths in the batch), then single steps. -/
theorem decSeq_then_steps (exp : R → R) (d : Dec R) (encoder : Option (List (Option (Enc R)))) (B : Nat) (enc : Nat → List (Frame R)) (he : List.Forall₂ (EncFor B enc) d.layers (encOrNone d encoder))
    (x : Padded Nat) (hx : x.Ok) (f : Nat → List Nat) (hv : x.valid = batch B f) (dim : Option Nat) (steps : List (Nat → Nat)) :
    ∃ (out : Padded (Frame R)) (st : DecState R) (ys : List (Nat → Frame R)) (st' : DecState R), decSeq exp d encoder x dim (decInit d B) = .ok (out, st) ∧ out.valid = batch B (fun b => decSpec exp d (enc b) (f b)) ∧
      decSteps exp d encoder (steps.map (batch B)) st = .ok (ys.map (batch B), st') ∧ ∀ b, decSpec exp d (enc b) (f b ++ steps.map (fun x => x b)) = decSpec exp d (enc b) (f b) ++ ys.map (fun y => y b) := by
  obtain ⟨out, st, o1, o2, o3⟩ := decSeq_ok exp d encoder B enc he x hx f hv dim
  obtain ⟨ys, st', h1, _, h3⟩ := decSteps_ok exp d encoder B enc he steps st f o3
  exact ⟨out, st, ys, st', o1, o2, h1, h3⟩

/-- The encoder states of `transform_encoder` meet the condition on encoder states; it only works when all layers have cross attention. -/
theorem decEncoder_ok (d : Dec R) (x : Padded (Frame R)) (hx : x.Ok) (B : Nat) (enc : Nat → List (Frame R)) (hv : x.valid = batch B enc) (es : List (Option (Enc R))) (h : decEncoder d x = .ok es) :
    List.Forall₂ (EncFor B enc) d.layers (encOrNone d (some es)) := by
  unfold decEncoder at h
  show List.Forall₂ (EncFor B enc) d.layers es
  revert es
  generalize d.layers = ls
  induction ls with
  | nil => intro es h; cases h; exact List.Forall₂.nil
  | cons l ls ih =>
    intro es h
    rw [List.mapM_cons] at h
    cases hc : l.cross with
    | none =>
      have : layerEncoder x l = .error .assertion := by unfold layerEncoder; rw [hc]
      rw [this] at h; cases h
    | some c =>
      have : layerEncoder x l = .ok (some (transformEncoder c.2 x)) := by unfold layerEncoder; rw [hc]
      rw [this] at h
      cases hm : ls.mapM (layerEncoder x) with
      | error e => rw [hm] at h; cases h
      | ok es' =>
        rw [hm] at h
        simp only [bind, Except.bind, pure, Except.pure, Except.ok.injEq] at h
        subst h
        refine List.Forall₂.cons ?_ (ih es' hm)
        intro ln c' hc'
        rw [hc] at hc'
        cases hc'
        exact ⟨x, hx, hv, rfl⟩

/-- Without cross attention no encoder state is needed. -/
theorem no_encoder (d : Dec R) (h : ∀ l ∈ d.layers, l.cross = none) (B : Nat) (enc : Nat → List (Frame R)) : List.Forall₂ (EncFor B enc) d.layers (encOrNone d none) := by
  unfold encOrNone
  show List.Forall₂ (EncFor B enc) d.layers (d.layers.map (fun _ => none))
  revert h
  generalize d.layers = ls
  intro h
  induction ls with
  | nil => exact List.Forall₂.nil
  | cons l ls ih =>
    refine List.Forall₂.cons ?_ (ih (fun l hl => h l (by simp [hl])))
    intro ln c hc
    rw [h l (by simp)] at hc
    cases hc

end

/-! ### C79: the learned relative encoding -/

/-- The index is in the table (of size `2 * clipping + 1`, or `clipping + 1` for causal). -/
theorem learnedIdx_range (clipping : Nat) (causal : Bool) (i : Int) : 0 ≤ learnedIdx clipping causal i ∧ learnedIdx clipping causal i < (if causal then 1 else 2) * clipping + 1 := by
  unfold learnedIdx clamp
  cases causal <;> simp <;> omega

/-- Different relative positions within the clipping range have different entries, and all beyond have the entry of the boundary. -/
theorem learnedIdx_eq (clipping : Nat) (i : Int) : learnedIdx clipping false i = if i < -clipping then 0 else if i ≤ clipping then i + clipping else 2 * clipping := by
  unfold learnedIdx clamp
  simp
  split_ifs <;> omega

/-! ### C79: rotary positions -/

theorem sum_pairs (l : List Nat) (a b c d : Nat → ℝ) : dot (l.flatMap (fun i => [a i, b i])) (l.flatMap (fun i => [c i, d i])) = (l.map (fun i => a i * c i + b i * d i)).sum := by
  unfold dot
  induction l with
  | nil => rfl
  | cons x l ih =>
    simp only [List.flatMap_cons, List.map_cons, List.sum_cons, List.cons_append, List.nil_append, List.zipWith_cons_cons, ih]
    ring

theorem sinEnc_sin (div : Nat → ℝ) (d : Nat) (p : ℝ) (i : Nat) (h : i < d / 2) : ((sinEnc Real.sin (Real.pi / 2) div d p).take (d / 2)).getD i 0 = Real.sin (p * div i) := by
  unfold sinEnc
  rw [List.take_append_of_le_length (by simp), List.take_of_length_le (by simp), getD_map _ _ _ 0 _ (by simpa using h)]
  simp [List.getD_eq_getElem?_getD, h]

theorem sinEnc_cos (div : Nat → ℝ) (d : Nat) (p : ℝ) (i : Nat) (h : i < d / 2) : ((sinEnc Real.sin (Real.pi / 2) div d p).drop (d / 2)).getD i 0 = Real.cos (p * div i) := by
  unfold sinEnc
  rw [List.drop_append_of_le_length (by simp), List.drop_of_length_le (by simp), List.nil_append, getD_map _ _ _ 0 _ (by simpa using h)]
  simp [List.getD_eq_getElem?_getD, h, Real.sin_add_pi_div_two]

/-- C79: with rotary positions the energy of query position `m` and key position `n` depends on the positions only by `m - n`. -/
theorem rope_relative (div : Nat → ℝ) (d : Nat) (q k : List ℝ) (m n : ℝ) :
    dot (applyRope d (sinEnc Real.sin (Real.pi / 2) div d m) q) (applyRope d (sinEnc Real.sin (Real.pi / 2) div d n) k) =
      ((List.range (d / 2)).map (fun i =>
        (q.getD (2 * i) 0 * k.getD (2 * i) 0 + q.getD (2 * i + 1) 0 * k.getD (2 * i + 1) 0) * Real.cos ((m - n) * div i) +
        (q.getD (2 * i) 0 * k.getD (2 * i + 1) 0 - q.getD (2 * i + 1) 0 * k.getD (2 * i) 0) * Real.sin ((m - n) * div i))).sum := by
  unfold applyRope
  simp only []
  rw [sum_pairs]
  congr 1
  apply List.map_congr_left
  intro i hi
  rw [List.mem_range] at hi
  rw [sinEnc_sin _ _ _ _ hi, sinEnc_sin _ _ _ _ hi, sinEnc_cos _ _ _ _ hi, sinEnc_cos _ _ _ _ hi, sub_mul m n, Real.cos_sub, Real.sin_sub]
  ring

/-- C79: with the base given for the rotary positions (attention.py 292, 326), the frequencies are the ones of RoPE. -/
theorem rope_freq (d : Nat) (hd : 2 < d) (heven : d % 2 = 0) (i : Nat) : divTerm (ropeBase d) d i = (10000 : ℝ) ^ (-(2 * (i : ℝ) / (d : ℝ))) := by
  have h2 : ((d / 2 : Nat) : ℝ) = (d : ℝ) / 2 := by
    have : d = 2 * (d / 2) := by omega
    have h : (d : ℝ) = 2 * ((d / 2 : Nat) : ℝ) := by exact_mod_cast this
    rw [h]; ring
  have hdr : (2 : ℝ) < (d : ℝ) := by exact_mod_cast hd
  unfold divTerm ropeBase
  rw [Real.log_rpow (by norm_num), h2, Real.rpow_def_of_pos (by norm_num)]
  congr 1
  have h3 : (d : ℝ) - 2 ≠ 0 := by intro h; linarith
  have h4 : (d : ℝ) ≠ 0 := by intro h; linarith
  have h5 : (d : ℝ) / 2 - 1 = ((d : ℝ) - 2) / 2 := by ring
  rw [h5]
  field_simp

/-- C79: the denominator is 0 for 2 features (so also for rotary positions with 2 features per head), which raises. -/
theorem divTerm_two (base : ℝ) (i : Nat) : divTermPy base 2 i = .error .zeroDivision := rfl

theorem divTermPy_ok (base : ℝ) (d : Nat) (hd : d / 2 ≠ 1) (i : Nat) : divTermPy base d i = .ok (divTerm base d i) := by unfold divTermPy; rw [if_neg hd]

end Verif.Attention
