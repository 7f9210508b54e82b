import Verif.Attention.SpecDecoder
import Verif.Attention.Props
/-!
C80: the Transformer decoder: single steps, a whole sequence, and a sequence followed by single steps give the same logits as the specification on the labels of each sequence.
-/

namespace Verif.Attention
open Verif.Py Verif.RfSeq

variable {R : Type} [Field R]

theorem zipWith_batch {α β γ : Type} (B : Nat) (f : Nat → α) (g : Nat → β) (op : α → β → γ) : List.zipWith op (batch B f) (batch B g) = batch B (fun b => op (f b) (g b)) := by
  unfold batch
  rw [List.zipWith_map, List.zipWith_self]

theorem map_batch {α β : Type} (B : Nat) (f : Nat → α) (g : α → β) : (batch B f).map g = batch B (fun b => g (f b)) := by
  unfold batch; rw [List.map_map]; rfl

theorem length_batch {α : Type} (B : Nat) (f : Nat → α) : (batch B f).length = B := by simp [batch]

theorem getElem?_batch {α : Type} (B : Nat) (f : Nat → α) (b : Nat) (h : b < B) : (batch B f)[b]? = some (f b) := by
  unfold batch; rw [List.getElem?_map, List.getElem?_range h]; rfl

theorem zipIdx_mapM_batch {α β : Type} (B : Nat) (f : Nat → α) (g : α × Nat → Res β) (r : Nat → β) (h : ∀ b, b < B → g (f b, b) = .ok (r b)) : (batch B f).zipIdx.mapM g = .ok (batch B r) := by
  have hz : (batch B f).zipIdx = batch B (fun b => (f b, b)) := by
    apply List.ext_getElem?
    intro i
    rw [List.getElem?_zipIdx]
    unfold batch
    simp only [List.getElem?_map]
    by_cases hi : i < B
    · rw [List.getElem?_range hi]; simp
    · rw [List.getElem?_eq_none (by simp; omega)]; rfl
  rw [hz]
  unfold batch
  rw [List.mapM_map, mapM_ok (g := r)]
  intro b hb
  exact h b (List.mem_range.1 hb)

/-! ### The features of the heads -/

theorem splitDims_get (H d : Nat) (x : List R) (h i : Nat) (hh : h < H) (hi : i < d) : (head (splitDims H d x) h)[i]? = x[h * d + i]? := by
  unfold head splitDims
  rw [List.getD_eq_getElem?_getD, List.getElem?_map, List.getElem?_range hh]
  simp only [Option.map_some, Option.getD_some]
  rw [List.getElem?_take, if_pos hi, List.getElem?_drop]

theorem head_map (y : Heads R) (f : List R → List R) (hf : f [] = []) (h : Nat) : head (y.map f) h = f (head y h) := by
  unfold head
  rw [List.getD_eq_getElem?_getD, List.getD_eq_getElem?_getD, List.getElem?_map]
  cases y[h]? with
  | none => exact hf.symm
  | some z => rfl

/-- C78: the output of the linear layer has for each head the query, the key and the value, in this order. -/
theorem fwd_get (a : Att R) (x : Frame R) (h : Nat) (hh : h < a.H) :
    (∀ i, i < a.dk → (head (a.fwd x).1 h)[i]? = (a.qkv x)[h * (2 * a.dk + a.dv) + i]?) ∧
    (∀ i, i < a.dk → (head (a.fwd x).2.1 h)[i]? = (a.qkv x)[h * (2 * a.dk + a.dv) + (a.dk + i)]?) ∧
    (∀ i, i < a.dv → (head (a.fwd x).2.2 h)[i]? = (a.qkv x)[h * (2 * a.dk + a.dv) + (2 * a.dk + i)]?) := by
  unfold Att.fwd
  simp only []
  refine ⟨?_, ?_, ?_⟩
  · intro i hi
    rw [head_map _ _ (by simp), List.getElem?_take, if_pos hi, splitDims_get _ _ _ _ _ hh (by omega)]
  · intro i hi
    rw [head_map _ _ (by simp), List.getElem?_take, if_pos hi, List.getElem?_drop, splitDims_get _ _ _ _ _ hh (by omega)]
  · intro i hi
    rw [head_map _ _ (by simp), List.getElem?_drop, splitDims_get _ _ _ _ _ hh (by omega)]

/-- C80: the same for cross attention. -/
theorem fwdKv_get (c : Cross R) (x : Frame R) (h : Nat) (hh : h < c.H) :
    (∀ i, i < c.dk → (head (c.fwdQ x) h)[i]? = (c.q x)[h * c.dk + i]?) ∧
    (∀ i, i < c.dk → (head (c.fwdKv x).1 h)[i]? = (c.kv x)[h * (c.dk + c.dv) + i]?) ∧
    (∀ i, i < c.dv → (head (c.fwdKv x).2 h)[i]? = (c.kv x)[h * (c.dk + c.dv) + (c.dk + i)]?) := by
  unfold Cross.fwdKv Cross.fwdQ
  simp only []
  refine ⟨?_, ?_, ?_⟩
  · intro i hi
    rw [splitDims_get _ _ _ _ _ hh hi]
  · intro i hi
    rw [head_map _ _ (by simp), List.getElem?_take, if_pos hi, splitDims_get _ _ _ _ _ hh (by omega)]
  · intro i hi
    rw [head_map _ _ (by simp), List.getElem?_drop, splitDims_get _ _ _ _ _ hh (by omega)]

/-! ### Cross attention -/

theorem crossFrame_ok (exp : R → R) (c : Cross R) (x : Padded (Frame R)) (hx : x.Ok) (B : Nat) (enc : Nat → List (Frame R)) (hv : x.valid = batch B enc) (b : Nat) (hb : b < B) (q : Frame R) :
    crossFrame exp c (transformEncoder c x) b q = crossSpec exp c (enc b) q := by
  have h1 : (x.valid)[b]? = some (enc b) := by rw [hv, getElem?_batch _ _ _ hb]
  unfold Padded.valid at h1
  rw [List.getElem?_map] at h1
  cases hxb : x.seqs[b]? with
  | none => rw [hxb] at h1; cases h1
  | some p =>
    rw [hxb] at h1
    simp only [Option.map_some, Option.some.injEq] at h1
    obtain ⟨o1, o2, o3⟩ := hx p (List.mem_of_getElem? hxb)
    have hlen : (enc b).length = p.1 := by rw [← h1, List.length_take]; omega
    unfold crossFrame crossSpec transformEncoder
    simp only [List.getD_eq_getElem?_getD, List.getElem?_map, hxb, Option.map_some, Option.getD_some]
    congr 1
    rw [List.flatMap_def, List.flatMap_def]
    congr 1
    apply List.map_congr_left
    intro h _
    rw [attHead_eq exp c.att h _ _ _ p.1 (by simp [dotEnergies]) (by simp; omega) (by
      cases hm : x.masked with
      | true => exact Or.inl rfl
      | false => exact Or.inr ⟨rfl, by simp [o3 hm, o1]⟩), hlen]
    apply List.map_congr_left
    intro i _
    have hj : ∀ j, j < p.1 → p.2[j]? = (enc b)[j]? := by
      intro j hj
      rw [← h1, List.getElem?_take, if_pos hj]
    have he : ∀ j, j < p.1 → (dotEnergies c.att (head (c.fwdQ q) h) ((p.2.map (fun f => (c.fwdKv f).1)).map (fun k => head k h))).getD j 0 = c.scale * dot (head (c.fwdQ q) h) (head (c.fwdKv ((enc b)[j]?.getD [])).1 h) := by
      intro j hj'
      rw [← hj j hj']
      unfold dotEnergies
      rw [List.map_map, List.map_map, getD_map _ _ _ [] _ (by omega)]
      simp only [Function.comp_apply, dot_scale, Cross.att, List.getD_eq_getElem?_getD]
    have e2 : (List.range p.1).map (fun j => exp ((dotEnergies c.att (head (c.fwdQ q) h) ((p.2.map (fun f => (c.fwdKv f).1)).map (fun k => head k h))).getD j 0)) =
        (List.range p.1).map (fun j => exp (c.scale * dot (head (c.fwdQ q) h) (head (c.fwdKv ((enc b)[j]?.getD [])).1 h))) := by
      apply List.map_congr_left
      intro j hj'
      rw [he j (List.mem_range.1 hj')]
    have e3 : (List.range p.1).map (fun j => exp ((dotEnergies c.att (head (c.fwdQ q) h) ((p.2.map (fun f => (c.fwdKv f).1)).map (fun k => head k h))).getD j 0) * (head ((p.2.map (fun f => (c.fwdKv f).2)).getD j []) h).getD i 0) =
        (List.range p.1).map (fun j => exp (c.scale * dot (head (c.fwdQ q) h) (head (c.fwdKv ((enc b)[j]?.getD [])).1 h)) * (head (c.fwdKv ((enc b)[j]?.getD [])).2 h).getD i 0) := by
      apply List.map_congr_left
      intro j hj'
      rw [List.mem_range] at hj'
      rw [he j hj', getD_map _ _ _ [] _ (by omega), List.getD_eq_getElem?_getD (l := p.2), hj j hj']
    rw [e2, e3]
    simp only [List.getD_eq_getElem?_getD]

theorem layerRest_ok (exp : R → R) (l : Layer R) (e : Option (Enc R)) (B : Nat) (enc : Nat → List (Frame R)) (he : EncFor B enc l e) (b : Nat) (hb : b < B) (x : Frame R) :
    layerRest exp l e b x = .ok (restSpec exp l (enc b) x) := by
  unfold layerRest restSpec crossBlock
  cases hc : l.cross with
  | none => rfl
  | some lc =>
    obtain ⟨ln, c⟩ := lc
    obtain ⟨p, p1, p2, rfl⟩ := he ln c hc
    simp only [bind, Except.bind, pure, Except.pure]
    rw [crossFrame_ok exp c p p1 B enc p2 b hb]

/-! ### The specification only looks at the past -/

theorem layerAt_take (exp : R → R) (l : Layer R) (enc xs : List (Frame R)) (n t : Nat) (h : t < n) : layerAt exp l enc (xs.take n) t = layerAt exp l enc xs t := by
  unfold layerAt
  rw [List.map_take, causal_take _ _ _ _ _ _ h, getD_take _ _ _ _ h]

theorem layerSpec_take (exp : R → R) (l : Layer R) (enc xs : List (Frame R)) (n : Nat) : layerSpec exp l enc (xs.take n) = (layerSpec exp l enc xs).take n := by
  unfold layerSpec
  rw [← List.map_take, List.take_range, List.length_take]
  apply List.map_congr_left
  intro t ht
  rw [List.mem_range] at ht
  rw [layerAt_take _ _ _ _ _ _ (by omega)]

theorem layerSpec_snoc (exp : R → R) (l : Layer R) (enc h : List (Frame R)) (x : Frame R) : layerSpec exp l enc (h ++ [x]) = layerSpec exp l enc h ++ [layerAt exp l enc (h ++ [x]) h.length] := by
  have h1 : layerSpec exp l enc h = (layerSpec exp l enc (h ++ [x])).take h.length := by rw [← layerSpec_take]; simp
  have h2 : layerSpec exp l enc (h ++ [x]) = (List.range h.length).map (fun t => layerAt exp l enc (h ++ [x]) t) ++ [layerAt exp l enc (h ++ [x]) h.length] := by
    unfold layerSpec; rw [List.length_append, List.length_singleton, List.range_succ, List.map_append]; rfl
  rw [h1, h2, List.take_append_of_le_length (by simp), List.take_of_length_le (by simp)]

theorem layerSpec_length (exp : R → R) (l : Layer R) (enc xs : List (Frame R)) : (layerSpec exp l enc xs).length = xs.length := by simp [layerSpec]

theorem layersSpec_take (exp : R → R) (ls : List (Layer R)) (enc xs : List (Frame R)) (n : Nat) : layersSpec exp ls enc (xs.take n) = (layersSpec exp ls enc xs).take n := by
  unfold layersSpec
  induction ls generalizing xs with
  | nil => rfl
  | cons l ls ih => rw [List.foldl_cons, List.foldl_cons, layerSpec_take, ih]

theorem layersSpec_length (exp : R → R) (ls : List (Layer R)) (enc xs : List (Frame R)) : (layersSpec exp ls enc xs).length = xs.length := by
  unfold layersSpec
  induction ls generalizing xs with
  | nil => rfl
  | cons l ls ih => rw [List.foldl_cons, ih, layerSpec_length]

theorem inputSpec_take (d : Dec R) (labels : List Nat) (n : Nat) : inputSpec d (labels.take n) = (inputSpec d labels).take n := by
  apply List.ext_getElem?
  intro i
  unfold inputSpec
  rw [List.getElem?_mapIdx, List.getElem?_take, List.getElem?_take, List.getElem?_mapIdx]
  by_cases h : i < n <;> simp [h]

/-- The logits at a position do not depend on later labels. -/
theorem decSpec_take (exp : R → R) (d : Dec R) (enc : List (Frame R)) (labels : List Nat) (n : Nat) : decSpec exp d enc (labels.take n) = (decSpec exp d enc labels).take n := by
  unfold decSpec
  rw [inputSpec_take, layersSpec_take, List.map_take]

theorem decSpec_length (exp : R → R) (d : Dec R) (enc : List (Frame R)) (labels : List Nat) : (decSpec exp d enc labels).length = labels.length := by
  unfold decSpec; rw [List.length_map, layersSpec_length]; simp [inputSpec]

/-! ### Single steps -/

theorem layerStep_ok (exp : R → R) (l : Layer R) (e : Option (Enc R)) (B : Nat) (enc : Nat → List (Frame R)) (he : EncFor B enc l e) (st : State R) (h : Nat → List (Frame R)) (x : Nat → Frame R)
    (hst : StateOf l.att st (batch B (fun b => (h b).map l.saLn))) :
    ∃ st', layerStep exp l e (batch B x) st = .ok (batch B (fun b => layerAt exp l (enc b) (h b ++ [x b]) (h b).length), st') ∧ StateOf l.att st' (batch B (fun b => (h b ++ [x b]).map l.saLn)) := by
  obtain ⟨st', s1, s2⟩ := callStep_ok exp l.att l.kind st _ hst (batch B (fun b => l.saLn (x b))) (by rw [length_batch, length_batch])
  rw [zipWith_batch] at s1 s2
  refine ⟨st', ?_, by simpa only [List.map_append, List.map_cons, List.map_nil] using s2⟩
  unfold layerStep
  rw [map_batch, s1]
  simp only [bind, Except.bind, pure, Except.pure]
  rw [zipWith_batch, zipIdx_mapM_batch B _ _ (fun b => layerAt exp l (enc b) (h b ++ [x b]) (h b).length)]
  intro b hb
  rw [layerRest_ok exp l e B enc he b hb]
  unfold layerAt
  rw [List.map_append, List.getD_eq_getElem?_getD, List.getElem?_append_right (Nat.le_refl _)]
  simp

theorem layersStep_ok (exp : R → R) (B : Nat) (enc : Nat → List (Frame R)) : ∀ (ls : List (Layer R)) (es : List (Option (Enc R))) (ss : List (State R)) (h : Nat → List (Frame R)) (x : Nat → Frame R),
    List.Forall₂ (EncFor B enc) ls es → LayersOf exp B enc ls ss h →
    ∃ y ss', layersStep exp ls es ss (batch B x) = .ok (batch B y, ss') ∧ LayersOf exp B enc ls ss' (fun b => h b ++ [x b]) ∧
      ∀ b, layersSpec exp ls (enc b) (h b ++ [x b]) = layersSpec exp ls (enc b) (h b) ++ [y b]
  | [], _, ss, h, x, _, hl => ⟨x, [], rfl, rfl, fun _ => rfl⟩
  | l :: ls, [], _, _, _, hf, _ => by cases hf
  | l :: ls, e :: es, ss, h, x, hf, hl => by
    obtain ⟨s, ss', rfl, l1, l2⟩ := hl
    rcases hf with _ | ⟨hf1, hf2⟩
    obtain ⟨st', s1, s2⟩ := layerStep_ok exp l e B enc hf1 s h x l1
    obtain ⟨y, ss'', y1, y2, y3⟩ := layersStep_ok exp B enc ls es ss' (fun b => layerSpec exp l (enc b) (h b)) (fun b => layerAt exp l (enc b) (h b ++ [x b]) (h b).length) hf2 l2
    refine ⟨y, st' :: ss'', ?_, ⟨st', ss'', rfl, s2, ?_⟩, ?_⟩
    · unfold layersStep
      rw [s1]
      simp only [bind, Except.bind, pure, Except.pure]
      rw [y1]
    · simpa only [layerSpec_snoc] using y2
    · intro b
      have := y3 b
      unfold layersSpec at this ⊢
      rw [List.foldl_cons, List.foldl_cons, layerSpec_snoc, this]

theorem decInput_eq (d : Dec R) (label i : Nat) : decInput d label i = inputAt d label i := by
  unfold decInput inputAt scaleVec addVec
  cases d.posEnc <;> rfl

theorem inputSpec_snoc (d : Dec R) (h : List Nat) (x : Nat) : inputSpec d (h ++ [x]) = inputSpec d h ++ [decInput d x h.length] := by
  unfold inputSpec; rw [List.mapIdx_append, decInput_eq]; simp

/-- C80 for a single step: from the state after the labels `h` it works, the logits for each sequence are the last ones of the specification for the labels with the new one, and the state is the
one after these labels. -/
theorem decStep_ok (exp : R → R) (d : Dec R) (encoder : Option (List (Option (Enc R)))) (B : Nat) (enc : Nat → List (Frame R)) (he : List.Forall₂ (EncFor B enc) d.layers (encOrNone d encoder))
    (st : DecState R) (h : Nat → List Nat) (hst : DecStateOf exp d B enc st h) (x : Nat → Nat) :
    ∃ y st', decStep exp d encoder (batch B x) st = .ok (batch B y, st') ∧ DecStateOf exp d B enc st' (fun b => h b ++ [x b]) ∧
      ∀ b, decSpec exp d (enc b) (h b ++ [x b]) = decSpec exp d (enc b) (h b) ++ [y b] := by
  obtain ⟨hp, hl⟩ := hst
  obtain ⟨y, ss', y1, y2, y3⟩ := layersStep_ok exp B enc d.layers (encOrNone d encoder) st.layers (fun b => inputSpec d (h b)) (fun b => decInput d (x b) (h b).length) he hl
  refine ⟨fun b => d.logits (d.outLn (y b)), { pos := st.pos.map (fun p => p + 1), layers := ss' }, ?_, ⟨?_, ?_⟩, ?_⟩
  · unfold decStep
    rw [hp, zipWith_batch, y1]
    simp only [bind, Except.bind, pure, Except.pure]
    rw [map_batch]
  · simp only []
    rw [hp, map_batch]
    unfold batch
    apply List.map_congr_left
    intro b _
    simp
  · simpa only [inputSpec_snoc] using y2
  · intro b
    unfold decSpec
    rw [inputSpec_snoc, y3 b, List.map_append]
    rfl

/-! ### Sequences -/

theorem valid_get {α : Type} (x : Padded α) (B : Nat) (f : Nat → List α) (hv : x.valid = batch B f) : x.seqs.length = B ∧ ∀ b, b < B → ∃ p, x.seqs[b]? = some p ∧ p.2.take p.1 = f b := by
  have hl : x.seqs.length = B := by
    have := congrArg List.length hv
    rw [length_batch] at this
    simpa [Padded.valid] using this
  refine ⟨hl, ?_⟩
  intro b hb
  have h1 : (x.valid)[b]? = some (f b) := by rw [hv, getElem?_batch _ _ _ hb]
  unfold Padded.valid at h1
  rw [List.getElem?_map, List.getElem?_eq_getElem (by omega)] at h1
  exact ⟨_, List.getElem?_eq_getElem (by omega), by simpa using h1⟩

/-- A list as a batch. -/
theorem eq_batch {α : Type} (l : List α) (B : Nat) (d : α) (h : l.length = B) : l = batch B (fun b => l.getD b d) := by
  have := eq_range_map l id d
  rw [List.map_id] at this
  rw [h] at this
  exact this

theorem zipIdx_mapM_ok {α β : Type} (l : List α) (g : α × Nat → Res β) (r : α → Nat → β) (h : ∀ b a, l[b]? = some a → g (a, b) = .ok (r a b)) : l.zipIdx.mapM g = .ok (l.mapIdx (fun b a => r a b)) := by
  rw [mapM_ok (g := fun (p : α × Nat) => r p.1 p.2)]
  · congr 1
    apply List.ext_getElem?
    intro i
    rw [List.getElem?_map, List.getElem?_zipIdx, List.getElem?_mapIdx]
    cases l[i]? <;> simp
  · intro p hp
    obtain ⟨a, b⟩ := p
    exact h b a (List.mem_zipIdx_iff_getElem?.1 hp)

theorem layerSeq_ok (exp : R → R) (l : Layer R) (e : Option (Enc R)) (B : Nat) (enc : Nat → List (Frame R)) (he : EncFor B enc l e) (st : State R) (hst : st.dim = some 0)
    (x : Padded (Frame R)) (hx : x.Ok) (f : Nat → List (Frame R)) (hv : x.valid = batch B f) (dim : Option Nat) :
    ∃ out st', layerSeq exp l e x dim st = .ok (out, st') ∧ out.Ok ∧ out.T = x.T ∧ out.masked = x.masked ∧ out.seqs.map Prod.fst = x.seqs.map Prod.fst ∧
      out.valid = batch B (fun b => layerSpec exp l (enc b) (f b)) ∧ StateOf l.att st' (batch B (fun b => (f b).map l.saLn)) ∧ st'.dim = dim := by
  obtain ⟨xl, hx'⟩ : ∃ xl : Padded (Frame R), xl = { T := x.T, masked := x.masked, seqs := x.seqs.map (fun p => (p.1, p.2.map l.saLn)) } := ⟨_, rfl⟩
  have hxl : xl.Ok := by
    rw [hx']
    intro p hp
    obtain ⟨q, hq, rfl⟩ := List.mem_map.1 hp
    obtain ⟨h1, h2, h3⟩ := hx q hq
    exact ⟨by simpa using h1, h2, h3⟩
  have hxv : xl.valid = batch B (fun b => (f b).map l.saLn) := by
    rw [← map_batch B f (fun xs => xs.map l.saLn), ← hv, hx']
    unfold Padded.valid
    simp only [List.map_map]
    apply List.map_congr_left
    intro p _
    simp
  obtain ⟨sa, st', s1, s2, s3, s4, s5, s6, s7⟩ := callSeq_ok exp l.att l.kind xl hxl dim (some st) (by rintro s ⟨⟩; exact hst)
  rw [hxv, map_batch] at s5
  rw [hxv] at s6
  obtain ⟨hlen, hget⟩ := valid_get x B f hv
  obtain ⟨slen, sget⟩ := valid_get sa B _ s5
  have hTx : xl.T = x.T := by rw [hx']
  unfold layerSeq
  rw [← hx', s1]
  simp only [bind, Except.bind, pure, Except.pure]
  have hrows := zipIdx_mapM_ok (sa.seqs.zip x.seqs)
    (fun p => ((List.zipWith (fun y x => addVec y x) p.1.1.2 p.1.2.2).mapM (fun y => layerRest exp l e p.2 y)).map (fun r => (p.1.2.1, r)))
    (fun p b => (p.2.1, (List.zipWith (fun y x => addVec y x) p.1.2 p.2.2).map (fun y => restSpec exp l (enc b) y)))
    (by
      intro b p hp
      have hb : b < B := by
        have := (List.getElem?_eq_some_iff.1 hp).1
        rw [List.length_zip] at this; omega
      rw [mapM_ok (g := fun y => restSpec exp l (enc b) y)]
      · rfl
      · intro y _
        exact layerRest_ok exp l e B enc he b hb y)
  rw [hrows]
  have hzl : (sa.seqs.zip x.seqs).length = B := by rw [List.length_zip]; omega
  have hzip : ∀ (b : Nat) (p : (Nat × List (Frame R)) × (Nat × List (Frame R))), (sa.seqs.zip x.seqs)[b]? = some p → sa.seqs[b]? = some p.1 ∧ x.seqs[b]? = some p.2 := by
    intro b p hp
    unfold List.zip at hp
    rw [List.getElem?_zipWith] at hp
    cases h1 : sa.seqs[b]? with
    | none => rw [h1] at hp; cases hp
    | some u =>
      cases h2 : x.seqs[b]? with
      | none => rw [h1, h2] at hp; cases hp
      | some w =>
        rw [h1, h2] at hp
        simp only [Option.some.injEq] at hp
        rw [← hp]
        exact ⟨rfl, rfl⟩
  refine ⟨_, st', rfl, ?_, rfl, rfl, ?_, ?_, s6, s7⟩
  · intro p hp
    obtain ⟨b, hb, rfl⟩ := List.mem_mapIdx.1 hp
    obtain ⟨z1, z2⟩ := hzip b _ (List.getElem?_eq_getElem hb)
    obtain ⟨a1, a2, a3⟩ := s2 _ (List.mem_of_getElem? z1)
    obtain ⟨b1, b2, b3⟩ := hx _ (List.mem_of_getElem? z2)
    refine ⟨?_, b2, b3⟩
    simp only [List.length_map, List.length_zipWith]
    rw [a1, b1, s3, hTx, Nat.min_self]
  · apply List.ext_getElem?
    intro i
    rw [List.getElem?_map, List.getElem?_mapIdx, List.getElem?_map]
    cases hz : (sa.seqs.zip x.seqs)[i]? with
    | none =>
      have : x.seqs[i]? = none := by
        rw [List.getElem?_eq_none_iff] at hz ⊢
        omega
      rw [this]; rfl
    | some p =>
      rw [(hzip i p hz).2]; rfl
  · apply List.ext_getElem?
    intro b
    unfold Padded.valid
    rw [List.getElem?_map, List.getElem?_mapIdx]
    by_cases hb : b < B
    · rw [getElem?_batch _ _ _ hb]
      have hz : (sa.seqs.zip x.seqs)[b]? = some ((sa.seqs.zip x.seqs)[b]'(by omega)) := List.getElem?_eq_getElem (by omega)
      obtain ⟨p, hp⟩ : ∃ p, (sa.seqs.zip x.seqs)[b]? = some p := ⟨_, hz⟩
      obtain ⟨z1, z2⟩ := hzip b p hp
      obtain ⟨p1, q1, q2⟩ := sget b hb
      obtain ⟨p2, r1, r2⟩ := hget b hb
      rw [z1] at q1
      rw [z2] at r1
      cases q1
      cases r1
      obtain ⟨a1, a2, a3⟩ := s2 _ (List.mem_of_getElem? z1)
      obtain ⟨b1, b2, b3⟩ := hx _ (List.mem_of_getElem? z2)
      have hfl : (f b).length = p.2.1 := by rw [← r2, List.length_take]; omega
      have hn : p.1.1 = p.2.1 := by
        have := congrArg List.length q2
        simp only [List.length_take, List.length_map, List.length_range] at this
        omega
      rw [hp]
      simp only [Option.map_some, Option.some.injEq]
      rw [← List.map_take, List.take_zipWith, ← hn, q2, hn, r2]
      unfold layerSpec
      apply List.ext_getElem?
      intro t
      simp only [List.getElem?_map, List.getElem?_zipWith, List.length_map]
      by_cases ht : t < (f b).length
      · rw [List.getElem?_range ht, List.getElem?_eq_getElem ht]
        simp only [Option.map_some, layerAt, List.getD_eq_getElem?_getD, List.getElem?_eq_getElem ht, Option.getD_some]
      · rw [List.getElem?_eq_none (l := List.range _) (by simp; omega)]; rfl
    · have : (sa.seqs.zip x.seqs)[b]? = none := by rw [List.getElem?_eq_none_iff]; omega
      rw [this, List.getElem?_eq_none (by rw [length_batch]; omega)]; rfl

theorem layersSeq_ok (exp : R → R) (dim : Option Nat) (B : Nat) (enc : Nat → List (Frame R)) : ∀ (ls : List (Layer R)) (es : List (Option (Enc R))) (ss : List (State R)) (x : Padded (Frame R)) (f : Nat → List (Frame R)),
    List.Forall₂ (EncFor B enc) ls es → ss.length = ls.length → (∀ s ∈ ss, s.dim = some 0) → x.Ok → x.valid = batch B f →
    ∃ out ss', layersSeq exp dim ls es ss x = .ok (out, ss') ∧ out.Ok ∧ out.T = x.T ∧ out.masked = x.masked ∧ out.seqs.map Prod.fst = x.seqs.map Prod.fst ∧
      out.valid = batch B (fun b => layersSpec exp ls (enc b) (f b)) ∧ LayersOf exp B enc ls ss' f ∧ (∀ s ∈ ss', s.dim = dim)
  | [], _, ss, x, f, _, hl, _, hx, hv => ⟨x, [], rfl, hx, rfl, rfl, rfl, hv, rfl, fun s hs => by cases hs⟩
  | l :: ls, [], _, _, _, hf, _, _, _, _ => by cases hf
  | l :: ls, e :: es, [], _, _, _, hl, _, _, _ => by simp at hl
  | l :: ls, e :: es, s :: ss, x, f, hf, hl, hd, hx, hv => by
    rcases hf with _ | ⟨hf1, hf2⟩
    obtain ⟨o, st', o1, o2, o3, o4, o5, o6, o7, o8⟩ := layerSeq_ok exp l e B enc hf1 s (hd s (by simp)) x hx f hv dim
    obtain ⟨out, ss', p1, p2, p3, p4, p5, p6, p7, p8⟩ := layersSeq_ok exp dim B enc ls es ss o _ hf2 (by simpa using hl) (fun s hs => hd s (by simp [hs])) o2 o6
    refine ⟨out, st' :: ss', ?_, p2, by rw [p3, o3], by rw [p4, o4], by rw [p5, o5], ?_, ⟨st', ss', rfl, o7, p7⟩, ?_⟩
    · unfold layersSeq
      rw [o1]
      simp only [bind, Except.bind, pure, Except.pure]
      rw [p1]
    · rw [p6]; rfl
    · intro s hs
      rcases List.mem_cons.1 hs with rfl | hs
      · exact o8
      · exact p8 s hs

end Verif.Attention
