import Verif.RfSeq.PropsReduce
/-
C73: scatter over padded sequences.
-/
namespace Verif.RfSeq
open Verif.Py

/-! ### Specification -/

/-- The frames of a sequence which go to position `o`, in order. -/
def targets {α : Type} (idxs : List Nat) (s : List α) (o : Nat) : List α := ((idxs.zip s).filter (fun p => p.1 == o)).map Prod.snd

/-! ### Lemmas -/

theorem mem_targets {α : Type} {idxs : List Nat} {s : List α} {o : Nat} {a : α} : a ∈ targets idxs s o ↔ ∃ i : Nat, idxs[i]? = some o ∧ s[i]? = some a := by
  unfold targets
  rw [List.mem_map]
  constructor
  · rintro ⟨q, hq, rfl⟩
    obtain ⟨h1, h2⟩ := List.mem_filter.1 hq
    obtain ⟨i, hi⟩ := List.getElem?_of_mem h1
    rw [List.getElem?_zip_eq_some] at hi
    rw [beq_iff_eq] at h2
    exact ⟨i, by rw [hi.1, h2], hi.2⟩
  · rintro ⟨i, h1, h2⟩
    refine ⟨(o, a), List.mem_filter.2 ⟨List.mem_of_getElem? (i := i) (List.getElem?_zip_eq_some.2 ⟨h1, h2⟩), by simp⟩, rfl⟩

theorem targets_append {α : Type} : ∀ (s : List α) (idxs : List Nat) (t : List α) (o : Nat), s.length ≤ idxs.length →
    targets idxs (s ++ t) o = targets idxs s o ++ targets (idxs.drop s.length) t o
  | [], idxs, t, o, _ => by simp [targets]
  | a :: s, [], t, o, h => by simp at h
  | a :: s, i :: idxs, t, o, h => by
    have ih := targets_append s idxs t o (by simpa using h)
    unfold targets at ih ⊢
    simp only [List.cons_append, List.zip_cons_cons, List.filter_cons, List.length_cons, List.drop_succ_cons]
    by_cases hi : i = o
    · simp only [hi, beq_self_eq_true, if_true, List.map_cons, List.cons_append]; rw [ih]
    · have : (i == o) = false := by simpa using hi
      simp only [this, Bool.false_eq_true, if_false]; rw [ih]

theorem mem_targets_replicate {α : Type} {idxs : List Nat} {m : Nat} {v a : α} {o : Nat} (h : a ∈ targets idxs (List.replicate m v) o) : a = v := by
  obtain ⟨i, _, h⟩ := mem_targets.1 h
  rw [getElem?_replicate'] at h
  split at h
  · exact (Option.some.inj h).symm
  · cases h

theorem foldl_neutral {α : Type} (f : α → α → α) (e : α) (hr : ∀ a, f a e = a) : ∀ (l : List α) (a : α), (∀ b ∈ l, b = e) → l.foldl f a = a
  | [], _, _ => rfl
  | b :: l, a, h => by
    rw [List.foldl_cons, h b List.mem_cons_self, hr]
    exact foldl_neutral f e hr l a (fun c hc => h c (List.mem_cons_of_mem _ hc))

theorem scatterReduce_ok {α : Type} (f : α → α → α) (O : Nat) (fill : α) (idxs : List Nat) (row : List α) (hi : ∀ i ∈ idxs, i < O) :
    scatterReduce f O fill (idxs.zip row) = .ok ((List.range O).map (fun o => reduceOne f fill (targets idxs row o))) := by
  unfold scatterReduce targets
  have h : (idxs.zip row).all (fun p => decide (p.1 < O)) = true := by
    rw [List.all_eq_true]
    intro p hp
    simpa using hi p.1 (List.of_mem_zip hp).1
  rw [if_pos h]

theorem getElem?_scatterReduce {α : Type} (f : α → α → α) (O : Nat) (fill : α) (idxs : List Nat) (row : List α) (hi : ∀ i ∈ idxs, i < O) :
    ∃ out, scatterReduce f O fill (idxs.zip row) = .ok out ∧ out.length = O ∧ ∀ o < O, out[o]? = some (reduceOne f fill (targets idxs row o)) := by
  refine ⟨_, scatterReduce_ok f O fill idxs row hi, by simp, ?_⟩
  intro o ho
  rw [List.getElem?_map, List.getElem?_range ho]
  rfl

/-! ### C73 -/

/-- C73: `scatter` with a fill value which is neutral (0 for sum, minus infinity for max, infinity for min): each position gets the reduction of the frames of the sequence which go there,
whatever the indices and values in the padding are. -/
theorem scatterRow_valid_partial {α : Type} (f : α → α → α) (fill : α) (hl : ∀ a, f fill a = a) (hr : ∀ a, f a fill = a) (masked useMask : Bool) (hu : masked = true → useMask = true)
    (n : Nat) (row : List α) (hn : n ≤ row.length) (hm : masked = false → n = row.length) (idxs : List Nat) (hlen : idxs.length = row.length) (O : Nat) (hi : ∀ i ∈ idxs, i < O) :
    ∃ out, scatterRow f fill masked useMask n row idxs O = .ok out ∧ out.length = O ∧ ∀ o < O, out[o]? = some ((targets idxs (row.take n) o).foldl f fill) := by
  unfold scatterRow
  have hrow : (if masked && useMask then whereBefore n fill row else row) = row.take n ++ List.replicate (row.length - n) fill := by
    cases masked with
    | true => rw [hu rfl]; simp only [Bool.and_self, if_true]; exact whereBefore_eq n fill row hn
    | false => simp only [Bool.false_and, Bool.false_eq_true, if_false]; rw [hm rfl, Nat.sub_self, List.take_length]; simp
  rw [hrow]
  obtain ⟨out, h1, h2, h3⟩ := getElem?_scatterReduce f O fill idxs (row.take n ++ List.replicate (row.length - n) fill) hi
  refine ⟨out, h1, h2, ?_⟩
  intro o ho
  rw [h3 o ho, targets_append _ _ _ _ (by rw [List.length_take]; omega)]
  congr 1
  have hrep : ∀ b ∈ targets (idxs.drop (row.take n).length) (List.replicate (row.length - n) fill) o, b = fill := fun b hb => mem_targets_replicate hb
  generalize targets (idxs.drop (row.take n).length) (List.replicate (row.length - n) fill) o = t at hrep
  cases hc : targets idxs (row.take n) o with
  | nil =>
    cases t with
    | nil => rfl
    | cons b t =>
      simp only [List.nil_append, List.foldl_nil, reduceOne]
      rw [foldl_neutral f fill hr t b (fun c hc => hrep c (List.mem_cons_of_mem _ hc)), hrep b List.mem_cons_self]
  | cons a l =>
    simp only [List.cons_append, reduceOne]
    rw [List.foldl_append, foldl_neutral f fill hr t _ hrep, List.foldl_cons, hl]

/-- C73 for the sum. -/
theorem scatter_sum_valid {α : Type} [AddMonoid α] (masked useMask : Bool) (hu : masked = true → useMask = true) (n : Nat) (row : List α) (hn : n ≤ row.length)
    (hm : masked = false → n = row.length) (idxs : List Nat) (hlen : idxs.length = row.length) (O : Nat) (hi : ∀ i ∈ idxs, i < O) :
    ∃ out, scatterRow (· + ·) 0 masked useMask n row idxs O = .ok out ∧ out.length = O ∧ ∀ o < O, out[o]? = some (targets idxs (row.take n) o).sum := by
  obtain ⟨out, h1, h2, h3⟩ := scatterRow_valid_partial (· + ·) (0 : α) zero_add add_zero masked useMask hu n row hn hm idxs hlen O hi
  refine ⟨out, h1, h2, fun o ho => ?_⟩
  rw [h3 o ho, List.sum_eq_foldl]

/-- C73 for the maximum: the largest frame which goes there, minus infinity if there is none. -/
theorem scatter_max_valid {α : Type} [LinearOrder α] (bot : α) (hbot : ∀ a : α, bot ≤ a) (masked useMask : Bool) (hu : masked = true → useMask = true) (n : Nat) (row : List α) (hn : n ≤ row.length)
    (hm : masked = false → n = row.length) (idxs : List Nat) (hlen : idxs.length = row.length) (O : Nat) (hi : ∀ i ∈ idxs, i < O) :
    ∃ out, scatterRow max bot masked useMask n row idxs O = .ok out ∧ out.length = O ∧
      ∀ o < O, ∃ m, out[o]? = some m ∧ (targets idxs (row.take n) o = [] → m = bot) ∧ (targets idxs (row.take n) o ≠ [] → IsMax (targets idxs (row.take n) o) m) := by
  obtain ⟨out, h1, h2, h3⟩ := scatterRow_valid_partial max bot (fun a => max_eq_right (hbot a)) (fun a => max_eq_left (hbot a)) masked useMask hu n row hn hm idxs hlen O hi
  refine ⟨out, h1, h2, fun o ho => ⟨_, h3 o ho, ?_, ?_⟩⟩
  · intro h; rw [h]; rfl
  · intro h
    cases hc : targets idxs (row.take n) o with
    | nil => exact (h hc).elim
    | cons a l =>
      rw [List.foldl_cons, max_eq_right (hbot a)]
      exact foldl_max_spec l a

/-- An index out of range raises. -/
theorem scatter_out_of_range {α : Type} (f : α → α → α) (fill : α) (masked useMask : Bool) (n : Nat) (row : List α) (idxs : List Nat) (hlen : idxs.length = row.length) (O : Nat) (hi : ∃ i ∈ idxs, O ≤ i) :
    scatterRow f fill masked useMask n row idxs O = .error (.other "index out of bounds") := by
  unfold scatterRow scatterReduce
  rw [if_neg]
  intro h
  rw [List.all_eq_true] at h
  obtain ⟨i, hi, hO⟩ := hi
  obtain ⟨j, hj⟩ := List.getElem?_of_mem hi
  have hjl : j < idxs.length := by
    by_contra hc
    rw [List.getElem?_eq_none (by omega)] at hj
    cases hj
  generalize hrow : (if masked && useMask then whereBefore n fill row else row) = r at h
  have hrl : r.length = row.length := by
    rw [← hrow]; split
    · rw [length_whereBefore]
    · rfl
  have := h (i, r[j]'(by omega)) (List.mem_of_getElem? (i := j) (List.getElem?_zip_eq_some.2 ⟨hj, List.getElem?_eq_getElem (by omega)⟩))
  simp at this
  omega

/-- C73, refuted for the counts in `scatter_logmeanexp`: the padding frames are counted. The claim would be that the count at `o` is the number of frames of the sequence which go there,
and 1 if there is none. -/
theorem scatterCounts_wrong (n : Nat) (idxs : List Nat) (hn : n ≤ idxs.length) (O : Nat) (hi : ∀ i ∈ idxs, i < O) :
    ∃ c, scatterCounts true true n idxs.length idxs O = .ok c ∧ ∀ o < O, c[o]? = some (if o ∈ idxs then (idxs.count o : Int) else 1) := by
  unfold scatterCounts scatterRow
  have hrow : (if (true && true) = true then whereBefore n (1 : Int) (List.replicate idxs.length 1) else List.replicate idxs.length 1) = List.replicate idxs.length 1 := by
    simp only [Bool.and_self, if_true]
    rw [whereBefore_eq _ _ _ (by simpa using hn), List.take_replicate, List.length_replicate, Nat.min_eq_left hn, List.replicate_append_replicate]
    congr 1
    omega
  rw [hrow]
  obtain ⟨out, h1, h2, h3⟩ := getElem?_scatterReduce (· + ·) O (1 : Int) idxs (List.replicate idxs.length 1) hi
  refine ⟨out, h1, ?_⟩
  intro o ho
  rw [h3 o ho]
  congr 1
  have key : ∀ l : List Nat, targets l (List.replicate l.length (1 : Int)) o = List.replicate (l.count o) 1 := by
    intro l
    induction l with
    | nil => rfl
    | cons a l ih =>
      unfold targets at ih ⊢
      rw [List.length_cons, List.replicate_succ, List.zip_cons_cons, List.filter_cons, List.count_cons]
      by_cases h : a = o
      · simp only [h, beq_self_eq_true, if_true, List.map_cons, ih, List.replicate_succ]
      · have : (a == o) = false := by simpa using h
        simp only [this, Bool.false_eq_true, if_false, ih, Nat.add_zero]
  rw [key idxs]
  have hfold : ∀ (m : Nat) (a : Int), (List.replicate m (1 : Int)).foldl (· + ·) a = a + m := by
    intro m
    induction m with
    | zero => intro a; simp
    | succ m ih => intro a; rw [List.replicate_succ, List.foldl_cons, ih]; push_cast; ring
  by_cases hmem : o ∈ idxs
  · rw [if_pos hmem]
    obtain ⟨m, hm⟩ : ∃ m, idxs.count o = m + 1 := ⟨idxs.count o - 1, by have := List.count_pos_iff.2 hmem; omega⟩
    rw [hm, List.replicate_succ]
    simp only [reduceOne]
    rw [hfold]
    push_cast; ring
  · rw [if_neg hmem, List.count_eq_zero.2 hmem]
    rfl

/-- Three frames for position 0, and two padding frames, which have index 0 as usual: the count is 5. -/
example : scatterCounts true true 3 5 [0, 0, 0, 0, 0] 2 = .ok [5, 1] := by decide

/-- C73, refuted for other fill values: a fill value of 0 with "max" overwrites negative frames where a padding frame goes to. -/
theorem scatter_max_fill_wrong : scatterRow max (0 : Int) true true 2 [-3, -4, 77] [0, 1, 0] 2 = .ok [0, -4] := by decide

/-! ### scatter_argmax -/

/-- The first frame with the largest value among those which go to `o`. -/
def IsArgmaxAt {α : Type} [LinearOrder α] (idxs : List Nat) (s : List α) (o i : Nat) : Prop :=
  ∃ a, idxs[i]? = some o ∧ s[i]? = some a ∧ ∀ (j : Nat) (b : α), idxs[j]? = some o → s[j]? = some b → b ≤ a ∧ (b = a → i ≤ j)

theorem getElem?_argmaxSrc {α : Type} [DecidableEq α] (big : Int) (masked : Bool) (n : Nat) (row srcMax : List α) (i : Nat) :
    (argmaxSrc big masked n row srcMax)[i]? = ((row.zip srcMax)[i]?).map (fun p => if decide (p.2 = p.1) && (!masked || decide (i < n)) then (i : Int) else big) := by
  unfold argmaxSrc
  rw [List.getElem?_mapIdx]

/-- C73: `scatter_argmax` without padding. -/
theorem scatterArgmax_valid_partial {α : Type} [LinearOrder α] (bot : α) (hbot : ∀ a : α, bot ≤ a) (big invalid : Int) (useMask : Bool) (row : List α) (idxs : List Nat) (hlen : idxs.length = row.length)
    (O : Nat) (hi : ∀ i ∈ idxs, i < O) (hbig : (row.length : Int) ≤ big) :
    ∃ out, scatterArgmax bot big invalid false useMask row.length row idxs O = .ok out ∧ out.length = O ∧
      ∀ o < O, (o ∉ idxs → out[o]? = some invalid) ∧ (o ∈ idxs → ∃ i : Nat, out[o]? = some (i : Int) ∧ IsArgmaxAt idxs row o i) := by
  obtain ⟨om, g1, g2, g3⟩ := scatter_max_valid bot hbot false useMask (fun h => by cases h) row.length row (Nat.le_refl _) (fun _ => rfl) idxs hlen O hi
  rw [List.take_length] at g3
  generalize hsrc : argmaxSrc big false row.length row (idxs.map (fun i => om.getD i bot)) = src
  obtain ⟨out, k1, k2, k3⟩ := getElem?_scatterReduce min O invalid idxs src hi
  have hsr : scatterRow min invalid false useMask row.length src idxs O = .ok out := by
    unfold scatterRow
    simp only [Bool.false_and, Bool.false_eq_true, if_false]
    exact k1
  refine ⟨out.map (fun i => if i ≠ big then i else invalid), ?_, by simp [k2], ?_⟩
  · unfold scatterArgmax
    rw [g1]
    simp only [bind, Except.bind, hsrc, hsr]
    rfl
  · intro o ho
    -- the frames which go to `o`
    have hget : ∀ i : Nat, idxs[i]? = some o → ∀ a, row[i]? = some a → src[i]? = some (if om.getD o bot = a then (i : Int) else big) := by
      intro i h1 a h2
      rw [← hsrc, getElem?_argmaxSrc, (List.getElem?_zip_eq_some (z := (a, om.getD o bot))).2 ⟨h2, by rw [List.getElem?_map, h1]; rfl⟩]
      simp
    rw [List.getElem?_map, k3 o ho]
    refine ⟨?_, ?_⟩
    · intro hno
      have : targets idxs src o = [] := by
        rw [List.eq_nil_iff_forall_not_mem]
        intro a ha
        obtain ⟨i, h, _⟩ := mem_targets.1 ha
        exact hno (List.mem_of_getElem? h)
      rw [this]
      simp [reduceOne]
    · intro hmem
      obtain ⟨m, hm1, _, hm2⟩ := g3 o ho
      have hmD : om.getD o bot = m := by rw [List.getD_eq_getElem?_getD, hm1]; rfl
      obtain ⟨i0, hi0⟩ := List.getElem?_of_mem hmem
      have hrow : ∀ i : Nat, idxs[i]? = some o → ∃ a, row[i]? = some a := by
        intro i h
        have : i < idxs.length := by
          by_contra hc
          rw [List.getElem?_eq_none (by omega)] at h
          cases h
        exact ⟨_, List.getElem?_eq_getElem (by omega)⟩
      obtain ⟨a0, ha0⟩ := hrow i0 hi0
      obtain ⟨hmm, hmle⟩ := hm2 (List.ne_nil_of_mem (mem_targets.2 ⟨i0, hi0, ha0⟩))
      obtain ⟨i1, hi1, hm1'⟩ := mem_targets.1 hmm
      have hsrc1 := hget i1 hi1 m hm1'
      rw [hmD, if_pos rfl] at hsrc1
      cases hc : targets idxs src o with
      | nil => exact (List.ne_nil_of_mem (mem_targets.2 ⟨i1, hi1, hsrc1⟩) hc).elim
      | cons b l =>
        obtain ⟨q1, q2⟩ := foldl_min_spec l b
        rw [← hc] at q1 q2
        generalize hmin : l.foldl min b = mn at q1 q2
        obtain ⟨i2, hi2, hs2⟩ := mem_targets.1 q1
        obtain ⟨a2, ha2⟩ := hrow i2 hi2
        have hs2' := hget i2 hi2 a2 ha2
        rw [hs2, hmD] at hs2'
        have hi1len : i1 < row.length := by
          by_contra hcc
          rw [List.getElem?_eq_none (by omega)] at hm1'
          cases hm1'
        have hle := q2 _ (mem_targets.2 ⟨i1, hi1, hsrc1⟩)
        by_cases ha : m = a2
        · rw [if_pos ha] at hs2'
          have hmn : mn = (i2 : Int) := Option.some.inj hs2'
          refine ⟨i2, ?_, a2, hi2, ha2, ?_⟩
          · simp only [Option.map_some, reduceOne]
            rw [hmin, if_pos (by omega), hmn]
          · intro j b' hj hb'
            have hb'le := hmle b' (mem_targets.2 ⟨j, hj, hb'⟩)
            refine ⟨by rw [← ha]; exact hb'le, ?_⟩
            intro hba
            have := hget j hj b' hb'
            rw [hmD, if_pos (by rw [hba]; exact ha)] at this
            have := q2 _ (mem_targets.2 ⟨j, hj, this⟩)
            omega
        · rw [if_neg ha] at hs2'
          have hmn : mn = big := Option.some.inj hs2'
          omega

/-- C73, refuted for `scatter_argmax` with padding: where a padding frame goes to, the result is always "no frame". -/
theorem scatterArgmax_padded_wrong {α : Type} [LinearOrder α] (bot : α) (big invalid : Int) (hinv : invalid < 0) (hbig : 0 ≤ big) (n : Nat) (row : List α) (hn : n ≤ row.length) (idxs : List Nat)
    (hlen : idxs.length = row.length) (O : Nat) (hi : ∀ i ∈ idxs, i < O) (o : Nat) (j : Nat) (hnj : n ≤ j) (hj : idxs[j]? = some o) :
    ∃ out, scatterArgmax bot big invalid true true n row idxs O = .ok out ∧ out[o]? = some invalid := by
  have ho : o < O := hi o (List.mem_of_getElem? hj)
  have hjl : j < idxs.length := by
    by_contra hc
    rw [List.getElem?_eq_none (by omega)] at hj
    cases hj
  obtain ⟨om, g1, g2, g3⟩ := getElem?_scatterReduce max O bot idxs (whereBefore n bot row) hi
  have g1' : scatterRow max bot true true n row idxs O = .ok om := by
    unfold scatterRow
    simp only [Bool.and_self, if_true]
    exact g1
  generalize hsrc : argmaxSrc big true n row (idxs.map (fun i => om.getD i bot)) = src
  have hsl : src.length = row.length := by
    rw [← hsrc]; unfold argmaxSrc; simp [hlen]
  obtain ⟨out, k1, k2, k3⟩ := getElem?_scatterReduce min O invalid idxs (whereBefore n invalid src) hi
  have hsr : scatterRow min invalid true true n src idxs O = .ok out := by
    unfold scatterRow
    simp only [Bool.and_self, if_true]
    exact k1
  refine ⟨out.map (fun i => if i ≠ big then i else invalid), ?_, ?_⟩
  · unfold scatterArgmax
    rw [g1']
    simp only [bind, Except.bind, hsrc, hsr]
    rfl
  · rw [List.getElem?_map, k3 o ho]
    have hmem : invalid ∈ targets idxs (whereBefore n invalid src) o :=
      mem_targets.2 ⟨j, hj, by rw [getElem?_whereBefore, if_neg (by omega), if_pos (by omega)]⟩
    have hge : ∀ v ∈ targets idxs (whereBefore n invalid src) o, invalid ≤ v := by
      intro v hv
      obtain ⟨i, _, hv⟩ := mem_targets.1 hv
      rw [getElem?_whereBefore] at hv
      by_cases hin : i < n
      · rw [if_pos hin, ← hsrc, getElem?_argmaxSrc] at hv
        cases hz : (row.zip (idxs.map (fun i => om.getD i bot)))[i]? with
        | none => rw [hz] at hv; cases hv
        | some z =>
          rw [hz] at hv
          simp only [Option.map_some, Option.some.injEq] at hv
          split at hv <;> omega
      · rw [if_neg hin] at hv
        split at hv
        · rw [Option.some.inj hv]
        · cases hv
    cases hc : targets idxs (whereBefore n invalid src) o with
    | nil => rw [hc] at hmem; cases hmem
    | cons b l =>
      obtain ⟨q1, q2⟩ := foldl_min_spec l b
      rw [hc] at hmem hge
      have : l.foldl min b = invalid := le_antisymm (q2 _ hmem) (hge _ q1)
      simp only [Option.map_some, reduceOne, this]
      split <;> rfl

/-- The frames 0, 1 of a sequence of length 2 go to positions 0 and 1, the padding frame has index 0: position 0 gets -1 instead of 0. -/
example : scatterArgmax (0 : Nat) 1000 (-1) true true 2 [5, 6, 0] [0, 1, 0] 2 = .ok [-1, 1] := by decide
example : scatterArgmax (0 : Nat) 1000 (-1) false true 3 [5, 6, 5] [0, 1, 0] 3 = .ok [0, 1, -1] := by decide
example : scatterRow (· + ·) 0 true true 2 [5, 6, 99] [1, 1, 0] 2 = .ok [0, 11] := by decide

end Verif.RfSeq
