import Verif.Viterbi.Cas
import Mathlib.Data.List.Basic
import Mathlib.Data.Int.Order.Basic
import Mathlib.Order.WithBot
/-
C64: `fast_viterbi` finds a best path, for every interleaving of the threads.
-/
namespace Verif.Viterbi
open Verif.CtcFsa Verif.FastBw

variable {V : Type} [LinearOrder V] [OrderBot V]

/-! ### Paths -/

theorem isRun_append (edges : List (Edge Nat)) : ∀ (p q : List Nat) (s t : Nat), isRun edges s (p ++ q) t = true ↔ ∃ u, isRun edges s p u = true ∧ isRun edges u q t = true
  | [], q, s, t => by simp [isRun]
  | e :: p, q, s, t => by
    simp only [List.cons_append, isRun]
    cases edges[e]? with
    | none => simp
    | some x =>
      simp only [Option.elim_some, Bool.and_eq_true, decide_eq_true_eq]
      rw [isRun_append edges p q]
      constructor
      · rintro ⟨h, u, h1, h2⟩; exact ⟨u, ⟨h, h1⟩, h2⟩
      · rintro ⟨u, ⟨h, h1⟩, h2⟩; exact ⟨h, u, h1, h2⟩

theorem isRun_single (edges : List (Edge Nat)) (e s t : Nat) : isRun edges s [e] t = true ↔ ∃ x, edges[e]? = some x ∧ x.src = s ∧ x.dst = t := by
  simp only [isRun]
  cases edges[e]? with
  | none => simp
  | some x => simp

theorem pathScore_append (add : V → V → V) (edges : List (Edge Nat)) (w : Nat → V) (am : Nat → Nat → Nat → V) : ∀ (p q : List Nat) (t : Nat) (acc : V),
    pathScore add edges w am t acc (p ++ q) = pathScore add edges w am (t + p.length) (pathScore add edges w am t acc p) q
  | [], _, _, _ => rfl
  | e :: p, q, t, acc => by
    simp only [List.cons_append, pathScore, List.length_cons]
    rw [pathScore_append add edges w am p q, show t + 1 + p.length = t + (p.length + 1) by omega]

theorem isRun_own {edges : List (Edge Nat)} {own : Nat → Nat} (ho : ∀ x ∈ edges, own x.src = x.seq ∧ own x.dst = x.seq) : ∀ (p : List Nat) (s t : Nat),
    isRun edges s p t = true → own t = own s
  | [], s, t, h => by simp only [isRun, decide_eq_true_eq] at h; rw [h]
  | e :: p, s, t, h => by
    simp only [isRun] at h
    cases he : edges[e]? with
    | none => rw [he] at h; simp at h
    | some x =>
      rw [he] at h
      simp only [Option.elim_some, Bool.and_eq_true, decide_eq_true_eq] at h
      have hx := ho x (List.mem_of_getElem? he)
      rw [isRun_own ho p _ _ h.2, ← h.1, hx.1, hx.2]

theorem isRun_lt (edges : List (Edge Nat)) : ∀ (p : List Nat) (s t : Nat), isRun edges s p t = true → ∀ i ∈ p, i < edges.length
  | [], _, _, _ => by simp
  | e :: p, s, t, h => by
    simp only [isRun] at h
    by_cases he : e < edges.length
    · rw [List.getElem?_eq_getElem he] at h
      simp only [Option.elim_some, Bool.and_eq_true, decide_eq_true_eq] at h
      intro i hi
      rcases List.mem_cons.1 hi with rfl | hi
      · exact he
      · exact isRun_lt edges p _ _ h.2 i hi
    · rw [List.getElem?_eq_none (by omega)] at h
      simp at h

/-! ### The frames -/

section
variable {add : V → V → V} {zero : V} {f : Fsa Nat} {w : Nat → V} {am : Nat → Nat → Nat → V} {lens : Nat → Nat} {nTime : Nat} {tr : Nat → List Nat}

theorem edgeJob_some {edges : List (Edge Nat)} {t : Nat} {prev : Nat → Cell V} {i s : Nat} {c : Cell V} :
    edgeJob add edges w am lens t prev i = some (s, c) ↔
      ∃ x, edges[i]? = some x ∧ t < lens x.seq ∧ x.dst = s ∧ c = { idx := i, val := add (add (prev x.src).val (w i)) (am t x.seq x.label) } := by
  unfold edgeJob
  cases edges[i]? with
  | none => simp
  | some x =>
    simp only [Option.bind_some, Option.some.injEq, exists_eq_left']
    by_cases h : t < lens x.seq
    · rw [if_pos h]
      simp only [Option.some.injEq, Prod.mk.injEq, h, true_and]
      exact ⟨fun h => ⟨h.1, h.2.symm⟩, fun h => ⟨h.1, h.2.symm⟩⟩
    · rw [if_neg h]
      simp [h]

theorem frame_best (hfin : Finished add zero f w am lens nTime tr) {t : Nat} (ht : t < nTime) (s : Nat) :
    IsBest (edgeJob add f.edges w am lens t (frameAt add zero f w am lens tr t)) emptyCell s (frameAt add zero f w am lens tr (t + 1) s) := by
  refine run_best (init := fun _ => emptyCell) ?_ s
  intro i jb hj
  refine hfin t ht i ?_
  by_contra hc
  unfold edgeJob at hj
  rw [List.getElem?_eq_none (by omega)] at hj
  cases hj

theorem firstFrame_spec (starts : List Nat) (s : Nat) : firstFrame zero starts s = { idx := -1, val := if s ∈ starts then zero else ⊥ } := by
  have key : ∀ (l : List Nat) (fr : Nat → Cell V), (l.foldl (fun fr s => upd fr s { idx := (fr s).idx, val := zero }) fr) s =
      { idx := (fr s).idx, val := if s ∈ l then zero else (fr s).val } := by
    intro l
    induction l with
    | nil => intro fr; simp
    | cons a l ih =>
      intro fr
      rw [List.foldl_cons, ih]
      by_cases h : s = a
      · subst h; simp [upd]
      · simp [upd, h]
  unfold firstFrame
  rw [key]
  rfl

/-- No path is better than what the frame says. -/
theorem frame_upper (hl : ScoreLaws add zero) (hfin : Finished add zero f w am lens nTime tr) {own : Nat → Nat}
    (ho : ∀ x ∈ f.edges, own x.src = x.seq ∧ own x.dst = x.seq) {b s0 e0 : Nat} (hse : f.startEnd[b]? = some (s0, e0)) (hown : own s0 = b) (hT : lens b ≤ nTime) :
    ∀ (t : Nat) (p : List Nat) (s : Nat), t ≤ lens b → p.length = t → isRun f.edges s0 p s = true →
      pathScore add f.edges w am 0 zero p ≤ (frameAt add zero f w am lens tr t s).val := by
  intro t
  induction t with
  | zero =>
    intro p s _ hp hr
    rw [List.length_eq_zero_iff] at hp
    subst hp
    simp only [isRun, decide_eq_true_eq] at hr
    subst hr
    show zero ≤ (firstFrame zero (f.startEnd.map Prod.fst) s0).val
    rw [firstFrame_spec, if_pos (List.mem_map.2 ⟨_, List.mem_of_getElem? hse, rfl⟩)]
  | succ t ih =>
    intro p s ht hp hr
    rcases List.eq_nil_or_concat p with rfl | ⟨q, e, rfl⟩
    · simp at hp
    rw [List.concat_eq_append] at *
    obtain ⟨u, h1, h2⟩ := (isRun_append _ _ _ _ _).1 hr
    obtain ⟨x, hx, hxs, hxd⟩ := (isRun_single _ _ _ _).1 h2
    have hq : q.length = t := by simpa using hp
    have hseq : x.seq = b := by
      rw [← (ho x (List.mem_of_getElem? hx)).1, hxs, isRun_own ho q _ _ h1, hown]
    have hih := ih q u (by omega) hq h1
    have hbest := (frame_best hfin (t := t) (by omega) s).2.2 e _ (edgeJob_some.2 ⟨x, hx, by rw [hseq]; omega, hxd, rfl⟩)
    have hval : add (add (frameAt add zero f w am lens tr t x.src).val (w e)) (am t x.seq x.label) ≤ (frameAt add zero f w am lens tr (t + 1) s).val := by
      rcases hbest with h | h
      · exact le_of_lt h
      · exact le_of_eq h.1
    refine le_trans ?_ hval
    rw [pathScore_append, hq]
    simp only [pathScore, hx, Option.elim_some, Nat.zero_add]
    rw [hxs]
    exact hl.mono _ _ _ (hl.mono _ _ _ hih)

/-- Going back from a state gives a path with its score. -/
theorem frame_back (hl : ScoreLaws add zero) (hfin : Finished add zero f w am lens nTime tr) {own : Nat → Nat}
    (ho : ∀ x ∈ f.edges, own x.src = x.seq ∧ own x.dst = x.seq) (hown : ∀ (b s e : Nat), f.startEnd[b]? = some (s, e) → own s = b ∧ own e = b)
    {b s0 e0 : Nat} (hse : f.startEnd[b]? = some (s0, e0)) (hT : lens b ≤ nTime) :
    ∀ (t s : Nat), t ≤ lens b → own s = b → (frameAt add zero f w am lens tr t s).val ≠ ⊥ →
      ∃ p, p.length = t ∧ isRun f.edges s0 p s = true ∧ pathScore add f.edges w am 0 zero p = (frameAt add zero f w am lens tr t s).val ∧
        ∀ (out : Nat → Nat) (i : Nat), (i < t → labelAt f.edges p i = some (backFrom f.edges (lens b) (frameAt add zero f w am lens tr) t s out i)) ∧
          (t ≤ i → backFrom f.edges (lens b) (frameAt add zero f w am lens tr) t s out i = out i) := by
  intro t
  induction t with
  | zero =>
    intro s _ hs hne
    have hv : (frameAt add zero f w am lens tr 0 s).val = if s ∈ f.startEnd.map Prod.fst then zero else ⊥ := by
      show (firstFrame zero (f.startEnd.map Prod.fst) s).val = _
      rw [firstFrame_spec]
    by_cases hmem : s ∈ f.startEnd.map Prod.fst
    swap
    · rw [hv, if_neg hmem] at hne; exact (hne rfl).elim
    rw [if_pos hmem] at hv
    obtain ⟨⟨s1, e1⟩, hm, h1⟩ := List.mem_map.1 hmem
    obtain ⟨b1, hb1⟩ := List.mem_iff_getElem?.1 hm
    simp only at h1
    subst h1
    have hbb : b1 = b := by rw [← (hown b1 _ _ hb1).1, hs]
    subst hbb
    rw [hse] at hb1
    injection hb1 with hb1
    injection hb1 with hb1 _
    subst hb1
    refine ⟨[], rfl, by simp [isRun], hv.symm, ?_⟩
    intro out i
    exact ⟨fun h => by omega, fun _ => rfl⟩
  | succ t ih =>
    intro s ht hs hne
    obtain ⟨hfrom, _, _⟩ := frame_best hfin (t := t) (by omega) s
    rcases hfrom with h | ⟨i, hi⟩
    · rw [h] at hne; exact (hne rfl).elim
    obtain ⟨x, hx, hlt, hdst, hc⟩ := edgeJob_some.1 hi
    have hval : (frameAt add zero f w am lens tr (t + 1) s).val = add (add (frameAt add zero f w am lens tr t x.src).val (w i)) (am t x.seq x.label) := by rw [hc]
    have hidx : (frameAt add zero f w am lens tr (t + 1) s).idx = (i : Int) := by rw [hc]
    have hprev : (frameAt add zero f w am lens tr t x.src).val ≠ ⊥ := by
      intro h0
      rw [hval, h0, hl.bot, hl.bot] at hne
      exact hne rfl
    have hox := ho x (List.mem_of_getElem? hx)
    obtain ⟨q, hq1, hq2, hq3, hq4⟩ := ih x.src (by omega) (by rw [hox.1, ← hox.2, hdst, hs]) hprev
    have hstep : backStep f.edges (lens b) t (frameAt add zero f w am lens tr (t + 1)) s = (x.src, x.label) := by
      unfold backStep
      rw [if_pos (by omega), hidx, if_pos (Int.natCast_nonneg i), Int.toNat_natCast, hx]
      rfl
    refine ⟨q ++ [i], by simp [hq1], ?_, ?_, ?_⟩
    · exact (isRun_append _ _ _ _ _).2 ⟨x.src, hq2, (isRun_single _ _ _ _).2 ⟨x, hx, rfl, hdst⟩⟩
    · rw [pathScore_append, hq1, hval, hq3]
      simp only [pathScore, hx, Option.elim_some, Nat.zero_add]
    · intro out j
      simp only [backFrom, hstep]
      constructor
      · intro hj
        by_cases hjt : j < t
        · have := (hq4 (upd out t x.label) j).1 hjt
          unfold labelAt at *
          rw [List.getElem?_append_left (by omega)]
          exact this
        · have hjt : j = t := by omega
          subst hjt
          rw [(hq4 (upd out j x.label) j).2 (Nat.le_refl _), upd_same]
          unfold labelAt
          rw [← hq1, List.getElem?_concat_length]
          simp [hx]
      · intro hj
        rw [(hq4 (upd out t x.label) j).2 (by omega), upd_other _ _ (by omega)]

/-- Frames after the end of the sequence are skipped. -/
theorem backFrom_skip (edges : List (Edge Nat)) (len : Nat) (frames : Nat → Nat → Cell V) (cur : Nat) : ∀ k, backFrom edges len frames (len + k) cur (fun _ => 0) =
    backFrom edges len frames len cur (fun _ => 0)
  | 0 => rfl
  | k + 1 => by
    have h1 : backStep edges len (len + k) (frames (len + k + 1)) cur = (cur, 0) := by
      unfold backStep
      rw [if_neg (by omega)]
    have h2 : upd (fun _ => 0) (len + k) 0 = fun _ => (0 : Nat) := by
      funext j
      unfold upd
      split <;> rfl
    show backFrom edges len frames (len + k + 1) cur (fun _ => 0) = _
    simp only [backFrom, h1, h2]
    exact backFrom_skip edges len frames cur k

theorem backFrom_after (edges : List (Edge Nat)) (len : Nat) (frames : Nat → Nat → Cell V) : ∀ (t cur : Nat) (out : Nat → Nat) (i : Nat), t ≤ i →
    backFrom edges len frames t cur out i = out i
  | 0, _, _, _, _ => rfl
  | t + 1, cur, out, i, h => by
    simp only [backFrom]
    rw [backFrom_after edges len frames t _ _ i (by omega), upd_other _ _ (by omega)]

/-- C64: for every run of the kernels, if the sequences of the batch do not share states: no path of the sequence's length from its start to its end state is
better than the score; and if the score is not -infinity, the output in the frames of the sequence is the labels of a path with exactly this score. After the
sequence's length, the output is zero. -/
theorem viterbi_correct (hl : ScoreLaws add zero) (hsep : Separate f) (hfin : Finished add zero f w am lens nTime tr)
    (b s e : Nat) (hb : f.startEnd[b]? = some (s, e)) (hT : lens b ≤ nTime) :
    (∀ p ∈ runs f.edges s (lens b) e, pathScore add f.edges w am 0 zero p ≤ (viterbi add zero f w am lens nTime tr).2 b) ∧
    ((viterbi add zero f w am lens nTime tr).2 b ≠ ⊥ → ∃ p ∈ runs f.edges s (lens b) e,
      pathScore add f.edges w am 0 zero p = (viterbi add zero f w am lens nTime tr).2 b ∧
      ∀ t, t < lens b → labelAt f.edges p t = some ((viterbi add zero f w am lens nTime tr).1 t b)) ∧
    ∀ t, lens b ≤ t → (viterbi add zero f w am lens nTime tr).1 t b = 0 := by
  obtain ⟨own, ho, hown⟩ := hsep
  have hend : (f.startEnd.map Prod.snd).getD b 0 = e := by
    rw [List.getD_eq_getElem?_getD, List.getElem?_map, hb]; rfl
  have hsc : (viterbi add zero f w am lens nTime tr).2 b = (frameAt add zero f w am lens tr (lens b) e).val := by
    unfold viterbi
    simp only [hend]
  have hout : ∀ t, (viterbi add zero f w am lens nTime tr).1 t b = backFrom f.edges (lens b) (frameAt add zero f w am lens tr) (lens b) e (fun _ => 0) t := by
    intro t
    unfold viterbi
    simp only [hend]
    obtain ⟨k, hk⟩ : ∃ k, nTime = lens b + k := ⟨nTime - lens b, by omega⟩
    rw [hk, backFrom_skip]
  have hmem : ∀ p, isRun f.edges s p e = true → p.length = lens b → p ∈ runs f.edges s (lens b) e := by
    intro p hp hlen
    exact List.mem_filter.2 ⟨mem_seqs.2 ⟨hlen, isRun_lt _ p s e hp⟩, hp⟩
  refine ⟨?_, ?_, ?_⟩
  · intro p hp
    obtain ⟨h1, h2⟩ := List.mem_filter.1 hp
    rw [hsc]
    exact frame_upper hl hfin ho hb (hown b s e hb).1 hT (lens b) p e (Nat.le_refl _) (mem_seqs.1 h1).1 h2
  · intro hne
    rw [hsc] at hne
    obtain ⟨p, h1, h2, h3, h4⟩ := frame_back hl hfin ho hown hb hT (lens b) e (Nat.le_refl _) (hown b s e hb).2 hne
    refine ⟨p, hmem p h2 h1, by rw [hsc, h3], ?_⟩
    intro t ht
    rw [hout]
    exact (h4 _ t).1 ht
  · intro t ht
    rw [hout]
    exact backFrom_after _ _ _ _ _ _ _ ht

/-- C64: if the score is -infinity, there is no edge into the end state: the output of the last frame is zero ("no path found"). -/
theorem viterbi_no_path (hfin : Finished add zero f w am lens nTime tr) (b s e : Nat) (hb : f.startEnd[b]? = some (s, e)) (hT : lens b ≤ nTime) (hpos : 0 < lens b)
    (hbot : (viterbi add zero f w am lens nTime tr).2 b = ⊥) : (viterbi add zero f w am lens nTime tr).1 (lens b - 1) b = 0 := by
  have hend : (f.startEnd.map Prod.snd).getD b 0 = e := by
    rw [List.getD_eq_getElem?_getD, List.getElem?_map, hb]; rfl
  obtain ⟨t, ht⟩ : ∃ t, lens b = t + 1 := ⟨lens b - 1, by omega⟩
  have hsc : (frameAt add zero f w am lens tr (t + 1) e).val = ⊥ := by
    unfold viterbi at hbot
    simp only [hend, ht] at hbot
    exact hbot
  obtain ⟨_, hbet, _⟩ := frame_best hfin (t := t) (by omega) e
  have hidx : (frameAt add zero f w am lens tr (t + 1) e).idx < 0 := by
    rcases hbet with h | h
    · rw [hsc] at h; exact (not_lt_bot h).elim
    · have := h.2
      simp only [emptyCell] at this
      omega
  unfold viterbi
  simp only [hend]
  obtain ⟨k, hk⟩ : ∃ k, nTime = lens b + k := ⟨nTime - lens b, by omega⟩
  rw [hk, backFrom_skip, ht]
  simp only [backFrom, Nat.add_sub_cancel]
  rw [backFrom_after _ _ _ _ _ _ _ (Nat.le_refl t), upd_same]
  unfold backStep
  rw [if_pos (by omega), if_neg (by omega)]

/-! ### The result does not depend on the interleaving -/

theorem frames_unique {tr' : Nat → List Nat} (hfin : Finished add zero f w am lens nTime tr) (hfin' : Finished add zero f w am lens nTime tr') :
    ∀ t, t ≤ nTime → frameAt add zero f w am lens tr t = frameAt add zero f w am lens tr' t
  | 0, _ => rfl
  | t + 1, ht => by
    funext s
    have h1 := frame_best hfin (t := t) (by omega) s
    have h2 := frame_best hfin' (t := t) (by omega) s
    rw [frames_unique hfin hfin' t (by omega)] at h1
    exact h1.unique h2

theorem backFrom_congr {edges : List (Edge Nat)} {len : Nat} {frames frames' : Nat → Nat → Cell V} : ∀ (t cur : Nat) (out : Nat → Nat),
    (∀ i, i ≤ t → frames i = frames' i) → backFrom edges len frames t cur out = backFrom edges len frames' t cur out
  | 0, _, _, _ => rfl
  | t + 1, cur, out, h => by
    simp only [backFrom, h (t + 1) (Nat.le_refl _)]
    exact backFrom_congr t _ _ (fun i hi => h i (by omega))

/-- C64: also among equally good paths, all interleavings of the threads give the same result. -/
theorem viterbi_deterministic {tr' : Nat → List Nat} (hfin : Finished add zero f w am lens nTime tr) (hfin' : Finished add zero f w am lens nTime tr')
    (b : Nat) (hT : lens b ≤ nTime) :
    (viterbi add zero f w am lens nTime tr).2 b = (viterbi add zero f w am lens nTime tr').2 b ∧
    ∀ t, (viterbi add zero f w am lens nTime tr).1 t b = (viterbi add zero f w am lens nTime tr').1 t b := by
  unfold viterbi
  refine ⟨?_, ?_⟩
  · simp only
    rw [frames_unique hfin hfin' _ hT]
  · intro t
    simp only
    rw [backFrom_congr nTime _ _ (fun i hi => frames_unique hfin hfin' i hi)]

theorem frameAt_congr {tr tr' : Nat → List Nat} : ∀ t, (∀ i, i < t → tr i = tr' i) → frameAt add zero f w am lens tr t = frameAt add zero f w am lens tr' t
  | 0, _ => rfl
  | t + 1, h => by
    simp only [frameAt]
    rw [frameAt_congr t (fun i hi => h i (by omega)), h t (by omega)]

/-- There is a run in which all threads return; and by `run_ends` there is no other kind of run. -/
theorem exists_finished (add : V → V → V) (zero : V) (f : Fsa Nat) (w : Nat → V) (am : Nat → Nat → Nat → V) (lens : Nat → Nat) : ∀ nTime,
    ∃ tr, Finished add zero f w am lens nTime tr
  | 0 => ⟨fun _ => [], fun t ht => absurd ht (Nat.not_lt_zero t)⟩
  | n + 1 => by
    obtain ⟨tr, h⟩ := exists_finished add zero f w am lens n
    obtain ⟨new, _, hnew⟩ := run_extends (n := f.edges.length) (job := edgeJob add f.edges w am lens n (frameAt add zero f w am lens tr n)) _ initSt (Nat.le_refl _)
    refine ⟨upd tr n new, ?_⟩
    intro t ht i hi
    have hc : frameAt add zero f w am lens (upd tr n new) t = frameAt add zero f w am lens tr t :=
      frameAt_congr t (fun j hj => upd_other _ _ (by omega))
    rw [hc]
    by_cases htn : t = n
    · subst htn
      rw [upd_same]
      exact hnew i hi
    · rw [upd_other _ _ htn]
      exact h t (by omega) i hi

end

end Verif.Viterbi
