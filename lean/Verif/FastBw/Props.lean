import Verif.FastBw.Kernels
/-
C61: Baum-Welch is the sum over all paths, for every batch, every FSA, every order of the threads.
-/
namespace Verif.FastBw
open Verif.CtcFsa

variable {K : Type} [Semifield K] [DecidableEq K]

/-! ### Forward -/

/-- The state buffer before frame `t`. -/
def alpha (edges : List (Edge Nat)) (w : Nat → K) (am : Nat → Nat → Nat → K) (init : Nat → K) : Nat → Nat → K
  | 0 => init
  | t + 1 => fun s => lsum (List.range edges.length) (contrib true edges w (am t) (alpha edges w am init t) s)

theorem fwdFrom_spec {edges : List (Edge Nat)} {w : Nat → K} {am : Nat → Nat → Nat → K} {sc : Sched} {init : Nat → K}
    (hsc : ∀ t, (sc.fwd t).Perm (List.range edges.length)) : ∀ (k t : Nat) (eb : Nat → Nat → K) (t' : Nat),
    fwdFrom edges w am sc k t (alpha edges w am init t) eb t' =
      if t ≤ t' ∧ t' < t + k then edgeAfter true edges w (am t') (alpha edges w am init t') (eb t') else eb t'
  | 0, t, eb, t' => by rw [if_neg (by omega)]; rfl
  | k + 1, t, eb, t' => by
    obtain ⟨h1, h2⟩ := nextFrame_spec (fwd := true) (edges := edges) (w := w) (am := am t) (prev := alpha edges w am init t) (sc.fwd t) (hsc t) (eb t)
    have h1' : (nextFrame true edges w (am t) (sc.fwd t) (alpha edges w am init t) (eb t)).1 = alpha edges w am init (t + 1) := funext h1
    simp only [fwdFrom]
    rw [h1', fwdFrom_spec hsc k (t + 1)]
    by_cases ht : t' = t
    · subst ht
      rw [if_neg (by omega), if_pos (by omega), upd_self]
      exact funext h2
    · rw [upd_ne ht]
      by_cases hc : t + 1 ≤ t' ∧ t' < t + 1 + k
      · rw [if_pos hc, if_pos (by omega)]
      · rw [if_neg hc, if_neg (by omega)]

theorem alpha_spec {f : Fsa Nat} {own : Nat → Nat} (ho : ∀ x ∈ f.edges, own x.src = x.seq ∧ own x.dst = x.seq)
    (hse : ∀ (b s e : Nat), f.startEnd[b]? = some (s, e) → own s = b ∧ own e = b) (w : Nat → K) (am : Nat → Nat → Nat → K)
    {b st e : Nat} (hb : f.startEnd[b]? = some (st, e)) : ∀ (t s : Nat), own s = b →
    alpha f.edges w am (setStart (f.startEnd.map Prod.fst) (fun _ => 0)) t s = bsum f.edges w am 0 st t s
  | 0, s, hs => by
    simp only [alpha]
    rw [setStart_spec, bsum_zero]
    by_cases h : st = s
    · rw [if_pos h, if_pos]
      rw [← h]
      exact List.mem_map.2 ⟨(st, e), List.mem_of_getElem? hb, rfl⟩
    · rw [if_neg h, if_neg]
      intro hm
      obtain ⟨⟨st', e'⟩, hm', h'⟩ := List.mem_map.1 hm
      simp only at h'
      subst h'
      obtain ⟨b', hb'⟩ := List.mem_iff_getElem?.1 hm'
      have := (hse b' _ _ hb').1
      rw [hs] at this
      subst this
      rw [hb] at hb'
      injection hb' with hb'
      injection hb' with hb'
      exact h hb'
  | t + 1, s, hs => by
    simp only [alpha]
    rw [bsum_snoc]
    refine lsum_congr ?_
    intro i _
    unfold contrib
    cases hx : f.edges[i]? with
    | none => rfl
    | some x =>
      simp only [Option.elim_some, eTo, eFrom, if_true]
      by_cases hd : x.dst = s
      · rw [if_pos hd, if_pos hd]
        obtain ⟨o1, o2⟩ := ho x (List.mem_of_getElem? hx)
        rw [alpha_spec ho hse w am hb t x.src (by rw [o1, ← o2, hd, hs])]
      · rw [if_neg hd, if_neg hd]

/-! ### Backward -/

theorem bwdFrom_spec {f : Fsa Nat} {own : Nat → Nat} (ho : ∀ x ∈ f.edges, own x.src = x.seq ∧ own x.dst = x.seq)
    (hse : ∀ (b s e : Nat), f.startEnd[b]? = some (s, e) → own s = b ∧ own e = b) {w : Nat → K} {am : Nat → Nat → Nat → K} {sc : Sched}
    (hsc : ∀ t, (sc.bwd t).Perm (List.range f.edges.length)) {index : Nat → Nat → Bool} {T : Nat → Nat} {nFrames : Nat}
    (hT : ∀ b, b < f.startEnd.length → T b ≤ nFrames) (hi : ∀ t b, t < nFrames → b < f.startEnd.length → index t b = decide (t < T b)) :
    ∀ (t : Nat), t ≤ nFrames → ∀ (prev : Nat → K) (eb : Nat → Nat → K),
    (∀ (b st e s : Nat), f.startEnd[b]? = some (st, e) → own s = b → prev s = if t < T b then bsum f.edges w am t s (T b - t) e else 0) →
    (∀ t', t ≤ t' → bwdFrom f.edges w am sc index (f.startEnd.map Prod.snd) (nFrames - 1) t prev eb t' = eb t') ∧
    (∀ t', t' < t → ∀ (i : Nat) (x : Edge Nat) (st e : Nat), f.edges[i]? = some x → f.startEnd[x.seq]? = some (st, e) →
      bwdFrom f.edges w am sc index (f.startEnd.map Prod.snd) (nFrames - 1) t prev eb t' i =
        eb t' i * (if t' < T x.seq then bsum f.edges w am (t' + 1) x.dst (T x.seq - t' - 1) e else 0))
  | 0, _, prev, eb, _ => ⟨fun _ _ => rfl, fun t' h => by omega⟩
  | t + 1, htn, prev, eb, hprev => by
    have hends : ∀ b st e, f.startEnd[b]? = some (st, e) → (f.startEnd.map Prod.snd).getD b 0 = e ∧ b < f.startEnd.length := by
      intro b st e h
      refine ⟨by rw [List.getD_eq_getElem?_getD, List.getElem?_map, h]; rfl, ?_⟩
      by_contra h'
      rw [List.getElem?_eq_none (by omega)] at h; cases h
    -- after the end states are set
    have hinit : ∀ (b st e s : Nat), f.startEnd[b]? = some (st, e) → own s = b →
        initBwd index (f.startEnd.map Prod.snd) t (nFrames - 1) prev s = if t < T b then bsum f.edges w am (t + 1) s (T b - t - 1) e else 0 := by
      intro b st e s hb hs
      obtain ⟨he, hbl⟩ := hends b st e hb
      rw [initBwd_spec]
      have hcond : (∃ b', b' < (f.startEnd.map Prod.snd).length ∧ (f.startEnd.map Prod.snd).getD b' 0 = s ∧ index t b' = true ∧
          (t = nFrames - 1 ∨ index (t + 1) b' = false)) ↔ (s = e ∧ T b = t + 1) := by
        have hti : ∀ b', b' < f.startEnd.length → ((index t b' = true ∧ (t = nFrames - 1 ∨ index (t + 1) b' = false)) ↔ T b' = t + 1) := by
          intro b' hb'
          have := hT b' hb'
          rw [hi t b' (by omega) hb', decide_eq_true_eq]
          by_cases hlast : t = nFrames - 1
          · constructor
            · rintro ⟨h1, _⟩; omega
            · intro h; exact ⟨by omega, Or.inl hlast⟩
          · rw [hi (t + 1) b' (by omega) hb', decide_eq_false_iff_not]
            constructor
            · rintro ⟨h1, h2 | h2⟩ <;> omega
            · intro h; exact ⟨by omega, Or.inr (by omega)⟩
        constructor
        · rintro ⟨b', h1, h2, h3⟩
          rw [List.length_map] at h1
          have hb' : f.startEnd[b']? = some ((f.startEnd[b']).1, (f.startEnd[b']).2) := List.getElem?_eq_getElem h1
          have h2' := (hends b' _ _ hb').1
          have hown := (hse b' _ _ hb').2
          rw [← h2', h2, hs] at hown
          subst hown
          rw [hb] at hb'
          injection hb' with hb'
          injection hb' with _ hb'
          rw [← hb'] at h2'
          exact ⟨by rw [← h2, ← h2'], (hti b hbl).1 h3⟩
        · rintro ⟨h1, h2⟩
          exact ⟨b, by rw [List.length_map]; exact hbl, by rw [he, h1], (hti b hbl).2 h2⟩
      rw [hprev b st e s hb hs]
      by_cases hc : s = e ∧ T b = t + 1
      · rw [if_pos (hcond.2 hc), if_pos (by omega), show T b - t - 1 = 0 by omega, bsum_zero, if_pos hc.1]
      · rw [if_neg (fun h => hc (hcond.1 h))]
        by_cases h1 : t + 1 < T b
        · rw [if_pos h1, if_pos (by omega), show T b - (t + 1) = T b - t - 1 by omega]
        · rw [if_neg h1]
          by_cases h2 : t < T b
          · rw [if_pos h2, show T b - t - 1 = 0 by omega, bsum_zero, if_neg]
            intro h; exact hc ⟨h, by omega⟩
          · rw [if_neg h2]
    obtain ⟨n1, n2⟩ := nextFrame_spec (fwd := false) (edges := f.edges) (w := w) (am := am t)
      (prev := initBwd index (f.startEnd.map Prod.snd) t (nFrames - 1) prev) (sc.bwd t) (hsc t) (eb t)
    obtain ⟨r1, r2⟩ := bwdFrom_spec ho hse hsc hT hi t (by omega)
      (nextFrame false f.edges w (am t) (sc.bwd t) (initBwd index (f.startEnd.map Prod.snd) t (nFrames - 1) prev) (eb t)).1
      (upd eb t (nextFrame false f.edges w (am t) (sc.bwd t) (initBwd index (f.startEnd.map Prod.snd) t (nFrames - 1) prev) (eb t)).2) (by
        intro b st e s hb hs
        rw [n1]
        by_cases hlt : t < T b
        · rw [if_pos hlt, show T b - t = (T b - t - 1) + 1 by omega, bsum_succ]
          refine lsum_congr ?_
          intro i _
          unfold contrib
          cases hx : f.edges[i]? with
          | none => rfl
          | some x =>
            simp only [Option.elim_some, eTo, eFrom, Bool.false_eq_true, if_false]
            by_cases hd : x.src = s
            · rw [if_pos hd, if_pos hd]
              obtain ⟨o1, o2⟩ := ho x (List.mem_of_getElem? hx)
              rw [hinit b st e x.dst hb (by rw [o2, ← o1, hd, hs]), if_pos hlt]
            · rw [if_neg hd, if_neg hd]
        · rw [if_neg hlt, lsum_congr (g := fun _ => 0), lsum_zero]
          intro i _
          unfold contrib
          cases hx : f.edges[i]? with
          | none => rfl
          | some x =>
            simp only [Option.elim_some, eTo, eFrom, Bool.false_eq_true, if_false]
            by_cases hd : x.src = s
            · rw [if_pos hd]
              obtain ⟨o1, o2⟩ := ho x (List.mem_of_getElem? hx)
              rw [hinit b st e x.dst hb (by rw [o2, ← o1, hd, hs]), if_neg hlt]; ring
            · rw [if_neg hd])
    simp only [bwdFrom]
    refine ⟨?_, ?_⟩
    · intro t' ht'
      rw [r1 t' (by omega), upd_ne (by omega)]
    · intro t' ht' i x st e hx hb
      rcases Nat.lt_or_ge t' t with h | h
      · rw [r2 t' h i x st e hx hb, upd_ne (by omega)]
      · have : t' = t := by omega
        subst this
        rw [r1 t' (by omega), upd_self, n2]
        unfold edgeAfter
        rw [hx]
        simp only [Option.elim_some, Bool.false_eq_true, if_false]
        obtain ⟨o1, o2⟩ := ho x (List.mem_of_getElem? hx)
        rw [hinit x.seq st e x.dst hb o2]

/-! ### Together -/

section
variable {f : Fsa Nat} {w : Nat → K} {am : Nat → Nat → Nat → K} {index : Nat → Nat → Bool} {nFrames : Nat} {sc : Sched} {T : Nat → Nat}

theorem edgeBuffer_spec {own : Nat → Nat} (ho : ∀ x ∈ f.edges, own x.src = x.seq ∧ own x.dst = x.seq)
    (hse : ∀ (b s e : Nat), f.startEnd[b]? = some (s, e) → own s = b ∧ own e = b) (hsc : sc.Ok f.edges.length nFrames)
    (hT : ∀ b, b < f.startEnd.length → T b ≤ nFrames) (hi : ∀ t b, t < nFrames → b < f.startEnd.length → index t b = decide (t < T b))
    {t i st e : Nat} {x : Edge Nat} (ht : t < nFrames) (hx : f.edges[i]? = some x) (hb : f.startEnd[x.seq]? = some (st, e)) :
    edgeBuffer f w am index nFrames sc t i = if t < T x.seq then
      bsum f.edges w am 0 st t x.src * w i * am t x.seq x.label * bsum f.edges w am (t + 1) x.dst (T x.seq - t - 1) e else 0 := by
  unfold edgeBuffer
  rw [(bwdFrom_spec ho hse hsc.2.1 hT hi nFrames (le_refl _) (fun _ => 0) _ (by
    intro b st e s hb _
    rw [if_neg]
    have hbl : b < f.startEnd.length := by
      by_contra h'
      rw [List.getElem?_eq_none (by omega)] at hb; cases hb
    have := hT b hbl
    omega)).2 t ht i x st e hx hb]
  have hf := fwdFrom_spec (am := am) (w := w) (init := setStart (f.startEnd.map Prod.fst) (fun _ => 0)) hsc.1 nFrames 0 (fun _ _ => 1) t
  simp only [alpha] at hf
  rw [hf, if_pos (by omega)]
  unfold edgeAfter
  rw [hx]
  simp only [Option.elim_some, if_true, one_mul]
  rw [alpha_spec ho hse w am hb t x.src (ho x (List.mem_of_getElem? hx)).1]
  by_cases h : t < T x.seq
  · rw [if_pos h, if_pos h]
  · rw [if_neg h, if_neg h, mul_zero]

/-- The sum over the edges of the sequence in one frame which satisfy a condition. -/
theorem frame_sum {own : Nat → Nat} (ho : ∀ x ∈ f.edges, own x.src = x.seq ∧ own x.dst = x.seq)
    (hse : ∀ (b s e : Nat), f.startEnd[b]? = some (s, e) → own s = b ∧ own e = b) (hsc : sc.Ok f.edges.length nFrames)
    (hT : ∀ b, b < f.startEnd.length → T b ≤ nFrames) (hi : ∀ t b, t < nFrames → b < f.startEnd.length → index t b = decide (t < T b))
    {t b st e : Nat} (ht : t < nFrames) (hb : f.startEnd[b]? = some (st, e)) (P : Edge Nat → Prop) [DecidablePred P] :
    lsum (List.range f.edges.length) (fun i => (f.edges[i]?).elim 0 (fun x =>
      if x.seq = b ∧ P x then edgeBuffer f w am index nFrames sc t i else 0)) =
    if t < T b then lsum (seqs f.edges.length (T b)) (fun p =>
      if isRun f.edges st p e = true ∧ (∀ i, p[t]? = some i → ∃ x, f.edges[i]? = some x ∧ P x) then weight f.edges w am 0 p else 0) else 0 := by
  classical
  by_cases hlt : t < T b
  · rw [if_pos hlt]
    have hTb : T b = t + ((T b - t - 1) + 1) := by omega
    conv => rhs; rw [hTb]
    rw [sum_at (P := fun i => ∃ x, f.edges[i]? = some x ∧ P x)]
    refine lsum_congr ?_
    intro i _
    cases hx : f.edges[i]? with
    | none => rfl
    | some x =>
      simp only [Option.elim_some]
      have hPx : (∃ x', some x = some x' ∧ P x') ↔ P x := by
        constructor
        · rintro ⟨x', h, h'⟩; injection h with h; rw [h]; exact h'
        · intro h; exact ⟨x, rfl, h⟩
      by_cases hP : P x
      · rw [if_pos (hPx.2 hP)]
        by_cases hs : x.seq = b
        · rw [if_pos ⟨hs, hP⟩, edgeBuffer_spec ho hse hsc hT hi ht hx (by rw [hs]; exact hb), hs, if_pos hlt]
        · rw [if_neg (fun h => hs h.1)]
          obtain ⟨o1, _⟩ := ho x (List.mem_of_getElem? hx)
          rw [bsum_own ho (by rw [o1, (hse b st e hb).1]; exact fun h => hs h.symm)]
          ring
      · rw [if_neg (fun h => hP h.2), if_neg (fun h => hP (hPx.1 h))]
  · rw [if_neg hlt, lsum_congr (g := fun _ => 0), lsum_zero]
    intro i _
    cases hx : f.edges[i]? with
    | none => rfl
    | some x =>
      simp only [Option.elim_some]
      by_cases hs : x.seq = b ∧ P x
      · rw [if_pos hs, edgeBuffer_spec ho hse hsc hT hi ht hx (by rw [hs.1]; exact hb), hs.1, if_neg hlt]
      · rw [if_neg hs]

/-- The sum output: in every frame of a sequence it is the sum over all its paths. -/
theorem fastBw_sums (hsep : Separate f) (hsc : sc.Ok f.edges.length nFrames) (hT : ∀ b, b < f.startEnd.length → T b ≤ nFrames)
    (hi : ∀ t b, t < nFrames → b < f.startEnd.length → index t b = decide (t < T b)) (b s e t : Nat) (hb : f.startEnd[b]? = some (s, e)) (ht : t < nFrames) :
    frameSums f.edges (edgeBuffer f w am index nFrames sc t) b = if t < T b then pathSum f.edges w am s (T b) e else 0 := by
  obtain ⟨own, ho, hse⟩ := hsep
  rw [frameSums_spec]
  have := frame_sum (w := w) (am := am) ho hse hsc hT hi ht hb (fun _ => True)
  simp only [and_true] at this
  rw [this]
  by_cases hlt : t < T b
  · rw [if_pos hlt, if_pos hlt, pathSum_eq]
    unfold bsum
    refine lsum_congr ?_
    intro p hp
    obtain ⟨hl, hm⟩ := mem_seqs.1 hp
    have : (∀ i, p[t]? = some i → ∃ x, f.edges[i]? = some x ∧ True) := by
      intro i hi
      exact ⟨_, List.getElem?_eq_getElem (hm i (List.mem_of_getElem? hi)), trivial⟩
    by_cases h : isRun f.edges s p e = true
    · rw [if_pos ⟨h, this⟩, if_pos h]
    · rw [if_neg (fun h' => h h'.1), if_neg h]
  · rw [if_neg hlt, if_neg hlt]

/-- C61: for every batch of FSAs which do not share states, all scores, all lengths, and every order of the threads: the observation score of a
sequence is the sum over all its paths, in every frame of it, and the output for a frame and a label is the sum over the paths which emit the
label in this frame, divided by the sum over all paths. In frames after the end of a sequence the score is 1 (0.0 in -log space), the output 0. -/
theorem baum_welch_correct (hsep : Separate f) (hsc : sc.Ok f.edges.length nFrames) (hT : ∀ b, b < f.startEnd.length → T b ≤ nFrames)
    (hi : ∀ t b, t < nFrames → b < f.startEnd.length → index t b = decide (t < T b))
    (b s e t : Nat) (hb : f.startEnd[b]? = some (s, e)) (ht : t < nFrames) :
    (t < T b → pathSum f.edges w am s (T b) e ≠ 0 →
      (fastBw f w am index nFrames sc).2 t b = pathSum f.edges w am s (T b) e ∧
      ∀ a, (fastBw f w am index nFrames sc).1 t b a = pathSumAt f.edges w am s (T b) e t a / pathSum f.edges w am s (T b) e) ∧
    ((T b ≤ t ∨ pathSum f.edges w am s (T b) e = 0) →
      (fastBw f w am index nFrames sc).2 t b = 1 ∧ ∀ a, (fastBw f w am index nFrames sc).1 t b a = 0) := by
  classical
  have hsum := fastBw_sums (w := w) (am := am) hsep hsc hT hi b s e t hb ht
  have hsum2 : (fastBw f w am index nFrames sc).2 t b = if frameSums f.edges (edgeBuffer f w am index nFrames sc t) b = 0 then 1 else
      frameSums f.edges (edgeBuffer f w am index nFrames sc t) b := rfl
  obtain ⟨own, ho, hse⟩ := hsep
  refine ⟨?_, ?_⟩
  · intro hlt hne
    rw [if_pos hlt] at hsum
    rw [hsum2, hsum, if_neg hne]
    refine ⟨rfl, ?_⟩
    intro a
    unfold fastBw
    simp only
    rw [out_sum f.edges _ (fun t i => edgeBuffer f w am index nFrames sc t i / frameSums f.edges (edgeBuffer f w am index nFrames sc t) b) t b a]
    · rw [zero_add, lsum_perm hsc.2.2, outContrib_total _ _ _ _ _ _ ht, hsum]
      have hfs := frame_sum (w := w) (am := am) ho hse hsc hT hi ht hb (fun x => x.label = a)
      rw [if_pos hlt] at hfs
      have hat : pathSumAt f.edges w am s (T b) e t a = lsum (seqs f.edges.length (T b)) (fun p =>
          if isRun f.edges s p e = true ∧ (∀ i, p[t]? = some i → ∃ x, f.edges[i]? = some x ∧ x.label = a) then weight f.edges w am 0 p else 0) := by
        unfold pathSumAt runs
        rw [lsum_filter, lsum_filter]
        refine lsum_congr ?_
        intro p hp
        have hpl := (mem_seqs.1 hp).1
        have hget : p[t]? = some p[t] := List.getElem?_eq_getElem (by omega)
        have hlab : labelAt f.edges p t = some a ↔ ∀ i, p[t]? = some i → ∃ x, f.edges[i]? = some x ∧ x.label = a := by
          unfold labelAt
          rw [hget]
          simp only [Option.bind_some, Option.map_eq_some_iff]
          constructor
          · rintro h i hi
            injection hi with hi
            rw [← hi]; exact h
          · intro h; exact h _ rfl
        by_cases h1 : isRun f.edges s p e = true
        · by_cases h2 : labelAt f.edges p t = some a
          · rw [if_pos h1, if_pos (by simpa using h2), if_pos ⟨h1, hlab.1 h2⟩]
          · rw [if_pos h1, if_neg (by simpa using h2), if_neg (fun h => h2 (hlab.2 h.2))]
        · rw [if_neg h1, if_neg (fun h => h1 h.1)]
      rw [hat, ← hfs, div_eq_mul_inv, ← lsum_mul_right]
      refine lsum_congr ?_
      intro i _
      cases f.edges[i]? with
      | none => simp
      | some x =>
        simp only [Option.elim_some]
        by_cases h : x.seq = b ∧ x.label = a
        · rw [if_pos h, if_pos h, div_eq_mul_inv]
        · rw [if_neg h, if_neg h, zero_mul]
    · intro i x hx hs
      simp only [hx, Option.elim_some, sub]
      rw [hs, hsum, if_neg hne]
  · intro hor
    have h0 : frameSums f.edges (edgeBuffer f w am index nFrames sc t) b = 0 := by
      rw [hsum]
      rcases hor with h | h
      · rw [if_neg (by omega)]
      · rw [h]; simp
    rw [hsum2, if_pos h0]
    refine ⟨rfl, ?_⟩
    intro a
    unfold fastBw
    simp only
    refine out_nan f.edges _ t b a ?_ sc.out _ rfl
    intro i x hx hs
    simp only [hx, Option.elim_some, sub]
    rw [hs, if_pos h0]

end

end Verif.FastBw
