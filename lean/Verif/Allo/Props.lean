import Verif.Allo.Lemmas
import Mathlib.Data.List.Nodup
import Mathlib.Data.List.Perm.Subperm
/-
C120: allophone states, their numbers, their context.
-/
namespace Verif.Allo
open Verif Verif.Py

/-- Different phones have different numbers. -/
def Distinct (idxs : Dict Phone Nat) : Prop := ∀ p q i, idxs.get? p = some i → idxs.get? q = some i → p = q

/-- Different allophone states have different numbers. -/
theorem index_injective {idxs : Dict Phone Nat} (hd : Distinct idxs) {S L n : Nat} {a b : Allo} (ha : a.index idxs S L = .ok n)
    (hb : b.index idxs S L = .ok n) : a = b := by
  obtain ⟨a1, a2, a3, s, m, a4, a5, a6, a7, a8⟩ := index_inv ha
  obtain ⟨b1, b2, b3, s', m', b4, b5, b6, b7, b8⟩ := index_inv hb
  rw [a6] at b6
  simp only [Except.ok.injEq] at b6
  subst b6
  generalize hA : enc (m + 1 + 1) ((List.range (2 * L + 1)).map (dg a idxs)) = A at a7
  generalize hB : enc (m + 1 + 1) ((List.range (2 * L + 1)).map (dg b idxs)) = B at b7
  have hbd : a.boundary = b.boundary := by omega
  have h1 : A * S + s = B * S + s' := by omega
  have hs : s = s' := by
    have := congrArg (· % S) h1
    simp only [Nat.mul_comm _ S, Nat.mul_add_mod, Nat.mod_eq_of_lt a5, Nat.mod_eq_of_lt b5] at this
    exact this
  have hAB : A = B := by
    have := congrArg (· / S) h1
    simp only [Nat.mul_comm _ S, Nat.mul_add_div (show 0 < S by omega), Nat.div_eq_of_lt a5, Nat.div_eq_of_lt b5, Nat.add_zero] at this
    exact this
  have hlt : ∀ (c : Allo), (∀ i, i ≤ 2 * L → ∀ p, c.phoneme (pos i) = some p → (idxs.get? p).isSome) →
      ∀ d ∈ (List.range (2 * L + 1)).map (dg c idxs), d < m + 1 + 1 := by
    intro c hc d hd'
    obtain ⟨i, hi, rfl⟩ := List.mem_map.1 hd'
    exact dg_lt a6 (hc i (by have := List.mem_range.1 hi; omega))
  have hdig : (List.range (2 * L + 1)).map (dg a idxs) = (List.range (2 * L + 1)).map (dg b idxs) := by
    have e1 := dec_enc (m + 1 + 1) _ (hlt a a8)
    have e2 := dec_enc (m + 1 + 1) _ (hlt b b8)
    rw [hA] at e1
    rw [hB, ← hAB] at e2
    simp only [List.length_map] at e1 e2
    rw [e1] at e2
    exact List.reverse_inj.1 e2
  have hph : ∀ i, i ≤ 2 * L → a.phoneme (pos i) = b.phoneme (pos i) := by
    intro i hi
    have := List.map_inj_left.1 hdig i (List.mem_range.2 (by omega))
    unfold dg at this
    cases hpa : a.phoneme (pos i) with
    | none =>
      cases hpb : b.phoneme (pos i) with
      | none => rfl
      | some q => rw [hpa, hpb] at this; simp at this
    | some p =>
      cases hpb : b.phoneme (pos i) with
      | none => rw [hpa, hpb] at this; simp at this
      | some q =>
        rw [hpa, hpb] at this
        obtain ⟨x, hx⟩ := Option.isSome_iff_exists.1 (a8 i hi p hpa)
        obtain ⟨y, hy⟩ := Option.isSome_iff_exists.1 (b8 i hi q hpb)
        simp only [hx, hy, Option.getD_some, Nat.add_right_cancel_iff] at this
        subst this
        rw [hd p q x hx hy]
  obtain ⟨e1, e2, e3⟩ := ext_phonemes a1 b1 a2 b2 hph
  cases a
  cases b
  simp only at *
  rw [e1, e2, e3, hbd, a4, b4, hs]

/-- Numbers are below the number of classes: one more than the phones for each place, the states, and four kinds of boundaries. -/
theorem index_bound {idxs : Dict Phone Nat} {S L n m : Nat} {a : Allo} (ha : a.index idxs S L = .ok n) (hm : m ∈ idxs.values) (hmax : ∀ i ∈ idxs.values, i ≤ m) :
    n < (m + 2) ^ (2 * L + 1) * S * 4 := by
  obtain ⟨_, _, a3, s, m', _, a5, a6, a7, a8⟩ := index_inv ha
  have hmm : m' = m := by
    have h1 := (pyMax_ge a6).1
    have h2 := (pyMax_ge a6).2 m hm
    have h3 := hmax m' h1
    omega
  subst hmm
  have hlt := enc_lt (m' + 1 + 1) ((List.range (2 * L + 1)).map (dg a idxs)) (by
    intro d hd
    obtain ⟨i, hi, rfl⟩ := List.mem_map.1 hd
    exact dg_lt a6 (a8 i (by have := List.mem_range.1 hi; omega)))
  rw [List.length_map, List.length_range] at hlt
  generalize enc (m' + 1 + 1) ((List.range (2 * L + 1)).map (dg a idxs)) = E at *
  have h1 : E * S + s < (m' + 2) ^ (2 * L + 1) * S := by
    calc E * S + s < E * S + S := by omega
      _ = (E + 1) * S := by rw [Nat.add_mul, Nat.one_mul]
      _ ≤ _ := Nat.mul_le_mul_right _ hlt
  omega

/-- What has a number: as much context as asked for, known phones, an existing state. -/
theorem index_defined {idxs : Dict Phone Nat} {S L : Nat} {a : Allo} : (∃ n, a.index idxs S L = .ok n) ↔
    a.hist.length ≤ L ∧ a.fut.length ≤ L ∧ a.boundary < 4 ∧ (∃ s, a.state = some s ∧ s < S) ∧ ∀ p ∈ a.id :: (a.hist ++ a.fut), ∃ i, idxs.get? p = some i := by
  constructor
  · rintro ⟨n, h⟩
    obtain ⟨a1, a2, a3, s, m, a4, a5, a6, a7, a8⟩ := index_inv h
    refine ⟨a1, a2, a3, ⟨s, a4, a5⟩, ?_⟩
    intro p hp
    rw [← Option.isSome_iff_exists]
    rcases List.mem_cons.1 hp with rfl | hp
    · exact a8 0 (by omega) _ (by rw [pos_zero, phoneme_zero])
    · rcases List.mem_append.1 hp with hp | hp
      · obtain ⟨k, hk, rfl⟩ := List.mem_iff_getElem.1 hp
        exact a8 (2 * k + 1) (by omega) _ (by rw [pos_odd, phoneme_hist, List.getElem?_eq_getElem hk])
      · obtain ⟨k, hk, rfl⟩ := List.mem_iff_getElem.1 hp
        exact a8 (2 * (k + 1)) (by omega) _ (by
          rw [pos_even, Int.natCast_add, Int.natCast_one, phoneme_fut, List.getElem?_eq_getElem hk])
  · rintro ⟨a1, a2, a3, ⟨s, a4, a5⟩, h⟩
    have h' : ∀ p ∈ a.id :: (a.hist ++ a.fut), (idxs.get? p).isSome := fun p hp => Option.isSome_iff_exists.2 (h p hp)
    exact index_ok a1 a2 a3 a4 a5 (h' _ (by simp)) (fun p hp => h' p (by simp [hp])) (fun p hp => h' p (by simp [hp]))

/-- The phones `a` 0, `b` 1, `c` 2. -/
def exIdxs : Dict Phone Nat := [([97], 0), ([98], 1), ([99], 2)]

/-- `b` between `a` and `c`, at the begin of a word, state 2. -/
def exAllo : Allo := ⟨[98], [[97]], [[99]], 1, some 2⟩

theorem exDistinct : Distinct exIdxs := by
  intro p q i hp hq
  have := Dict.mem_of_get? hp
  have := Dict.mem_of_get? hq
  simp only [exIdxs, List.mem_cons, List.not_mem_nil, or_false, Prod.mk.injEq] at *
  grind

example : exAllo.index exIdxs 3 1 = .ok 477 := by decide

/-- What `from_index` gives for the number of an allophone state: the same state and boundary, but the phones are read in the reverse order,
and a missing context becomes an empty phone. -/
theorem from_index_reversed {idxs : Dict Phone Nat} (hw : idxs.Wf) (hv : idxs.values.Nodup) {S L n : Nat} {a : Allo} (ha : a.index idxs S L = .ok n) :
    ∃ b, fromIndex n (idxs.map (fun p => (p.2, p.1))) S L = .ok b ∧ b.boundary = a.boundary ∧ b.state = a.state ∧ b.hist.length = L ∧ b.fut.length = L ∧
      (∀ k : Nat, k ≤ L → b.phoneme k = some ((a.phoneme ((L : Int) - k)).getD [])) ∧
      (∀ k : Nat, 1 ≤ k → k ≤ L → b.phoneme (-(k : Int)) = some ((a.phoneme (-((L : Int) + 1 - k))).getD [])) := by
  obtain ⟨_, _, a3, s, m, a4, a5, a6, a7, a8⟩ := index_inv ha
  have hkeys : Dict.keys (idxs.map (fun p => (p.2, p.1))) = idxs.values := by
    simp [Dict.keys, Dict.values, List.map_map, Function.comp_def]
  have hrev : ∀ p i, idxs.get? p = some i → Dict.get? (idxs.map (fun p => (p.2, p.1))) i = some p := by
    intro p i h
    apply Dict.get?_of_mem
    · unfold Dict.Wf
      rw [hkeys]
      exact hv
    · exact List.mem_map.2 ⟨(p, i), Dict.mem_of_get? h, rfl⟩
  have hlt : ∀ d ∈ (List.range (2 * L + 1)).map (dg a idxs), d < m + 1 + 1 := by
    intro d hd
    obtain ⟨i, hi, rfl⟩ := List.mem_map.1 hd
    exact dg_lt a6 (a8 i (by have := List.mem_range.1 hi; omega))
  have hdec := dec_enc (m + 1 + 1) _ hlt
  simp only [List.length_map, List.length_range] at hdec
  generalize hE : enc (m + 1 + 1) ((List.range (2 * L + 1)).map (dg a idxs)) = E at *
  have c1 : n % 4 = a.boundary := by omega
  have c2 : n / 4 = E * S + s := by omega
  have c3 : n / 4 % S = s := by rw [c2, Nat.mul_comm, Nat.mul_add_mod, Nat.mod_eq_of_lt a5]
  have c4 : n / 4 / S = E := by rw [c2, Nat.mul_comm, Nat.mul_add_div (by omega), Nat.div_eq_of_lt a5, Nat.add_zero]
  let ps : List Phone := (List.range (2 * L + 1)).map (fun i => (a.phoneme (pos (2 * L - i))).getD [])
  have hps : ∀ i, i ≤ 2 * L → ps.getD i [] = (a.phoneme (pos (2 * L - i))).getD [] := by
    intro i hi
    simp [ps, List.getD, List.getElem?_map, List.getElem?_range (show i < 2 * L + 1 by omega)]
  obtain ⟨b, e1, e2, e3, e4, e5, e6, _⟩ := fromLoop_ok (idxs.map (fun p => (p.2, p.1))) (m + 1 + 1) (2 * L + 1) 0 E
    ⟨[], [], [], n % 4, some (n / 4 % S)⟩ ps (by simp [ps]) (by
      intro i hi hi'
      have hget : (dec (m + 1 + 1) (2 * L + 1) E)[i] = dg a idxs (2 * L - i) := by
        have : (dec (m + 1 + 1) (2 * L + 1) E)[i]? = some (dg a idxs (2 * L - i)) := by
          rw [hdec, List.getElem?_reverse (by simpa using hi)]
          rw [List.length_map, List.length_range, List.getElem?_map, List.getElem?_range (by omega)]
          simp
        rw [List.getElem?_eq_getElem hi'] at this
        simpa using this
      rw [hget, hps i (by omega)]
      unfold phoneOf dg
      cases hp : a.phoneme (pos (2 * L - i)) with
      | none => simp
      | some p =>
        obtain ⟨x, hx⟩ := Option.isSome_iff_exists.1 (a8 (2 * L - i) (by omega) p hp)
        simp [hx, hrev p x hx]) rfl rfl
  have e6 : ∀ i, i ≤ 2 * L → b.phoneme (pos i) = some ((a.phoneme (pos (2 * L - i))).getD []) := by
    intro i hi
    have := e6 i (by omega)
    rw [Nat.zero_add, hps i hi] at this
    exact this
  refine ⟨b, ?_, by rw [e4, c1], by rw [e5, c3, a4], by rw [e2]; omega, by rw [e3]; omega, ?_, ?_⟩
  · unfold fromIndex
    rw [hkeys, a6]
    simp only [bind, Except.bind, c4, List.range_eq_range']
    rw [c3, c1] at *
    exact e1
  · intro k hk
    have h1 := e6 (2 * k) (by omega)
    rw [pos_even, show 2 * L - 2 * k = 2 * (L - k) by omega, pos_even] at h1
    rw [h1]
    congr 3
    omega
  · intro k hk1 hk
    have h1 := e6 (2 * (k - 1) + 1) (by omega)
    rw [pos_odd, show 2 * L - (2 * (k - 1) + 1) = 2 * (L - k) + 1 by omega, pos_odd] at h1
    have h2 : -((k - 1 : Nat) : Int) - 1 = -(k : Int) := by omega
    rw [h2] at h1
    rw [h1]
    congr 3
    omega

/-- `from_index` is the inverse of `index`. Partial: only without context. -/
theorem from_index_inverse_partial {idxs : Dict Phone Nat} (hw : idxs.Wf) (hv : idxs.values.Nodup) {S n : Nat} {a : Allo} (ha : a.index idxs S 0 = .ok n) :
    fromIndex n (idxs.map (fun p => (p.2, p.1))) S 0 = .ok a := by
  obtain ⟨b, h1, h2, h3, h4, h5, h6, _⟩ := from_index_reversed hw hv ha
  obtain ⟨a1, a2, _⟩ := index_inv ha
  rw [h1]
  have := h6 0 (Nat.le_refl _)
  simp only [Int.natCast_zero, Int.sub_zero] at this
  have e0 : (Int.ofNat 0) = (0 : Int) := rfl
  rw [phoneme_zero, phoneme_zero] at this
  simp only [Option.getD_some, Option.some.injEq] at this
  congr 1
  cases a
  cases b
  simp only at *
  rw [this, h2, h3, List.length_eq_zero_iff.1 h4, List.length_eq_zero_iff.1 h5, List.length_eq_zero_iff.1 (Nat.le_zero.1 a1),
    List.length_eq_zero_iff.1 (Nat.le_zero.1 a2)]

/-- With context it is not: the phone and its right context are exchanged. -/
theorem from_index_wrong : ∃ (idxs : Dict Phone Nat) (ids : Dict Nat Phone) (a b : Allo) (n : Nat), (∀ p i, idxs.get? p = some i ↔ ids.get? i = some p) ∧
    a.index idxs 3 1 = .ok n ∧ fromIndex n ids 3 1 = .ok b ∧ a ≠ b ∧ b.index idxs 3 1 ≠ .ok n := by
  refine ⟨exIdxs, [(0, [97]), (1, [98]), (2, [99])], exAllo, ⟨[99], [[97]], [[98]], 1, some 2⟩, 477, ?_, by decide, by decide, by decide, by decide⟩
  intro p i
  constructor
  · intro h
    have := Dict.mem_of_get? h
    simp only [exIdxs, List.mem_cons, List.not_mem_nil, or_false, Prod.mk.injEq] at this
    rcases this with ⟨rfl, rfl⟩ | ⟨rfl, rfl⟩ | ⟨rfl, rfl⟩ <;> rfl
  · intro h
    have := Dict.mem_of_get? h
    simp only [List.mem_cons, List.not_mem_nil, or_false, Prod.mk.injEq] at this
    rcases this with ⟨rfl, rfl⟩ | ⟨rfl, rfl⟩ | ⟨rfl, rfl⟩ <;> rfl

/-- The classic encoding: emission plus `2 ^ 26` for each state. -/
theorem classic_exact {allos : Dict Nat Allo} {e s maxStates : Nat} (he : e < 2 ^ 26) (hs : s ≤ maxStates) {a : Allo} (ha : allos.get? e = some a) :
    fromClassic (e + s * 2 ^ 26) allos maxStates = .ok { a with state := some s } := by
  have key : ∀ (s k st : Nat), s ≤ k → classicLoop k (e + s * 2 ^ 26) st = (e, st + s) := by
    intro s
    induction s with
    | zero =>
      intro k st _
      cases k with
      | zero => simp [classicLoop]
      | succ k =>
        rw [classicLoop, if_neg (by omega)]
        simp
    | succ s ih =>
      intro k st hk
      cases k with
      | zero => omega
      | succ k =>
        rw [classicLoop, if_pos (by omega), show e + (s + 1) * 2 ^ 26 - 2 ^ 26 = e + s * 2 ^ 26 by omega, ih k (st + 1) (by omega)]
        congr 1
        omega
  unfold fromClassic
  rw [key s maxStates 0 hs, ha, Nat.zero_add]

example : fromClassic (1 + 2 * 2 ^ 26) [(0, exAllo), (1, .new [99])] 6 = .ok ⟨[99], [], [], 0, some 2⟩ := by decide

/-! ## Context -/

/-- The context on the right: the next phones, as far as asked for and as far as all of them have context; the next one first.
Nothing else changes. -/
theorem future_exact (isCtx : Phone → Bool) (n : Nat) (hn : n ≠ 0) {l : List Allo} {i : Nat} {a : Allo} (ha : l[i]? = some a) (hc : isCtx a.id = true) :
    ∃ b, (setContext isCtx n l)[i]? = some b ∧ b.id = a.id ∧ b.boundary = a.boundary ∧ b.state = a.state ∧
      ∀ (k : Nat) (p : Phone), 1 ≤ k → (b.phoneme k = some p ↔ k ≤ n ∧ Right isCtx (l.map Allo.id) i k p) := by
  refine ⟨withContext isCtx n (l.map Allo.id) i a, by rw [setContext_get isCtx hn, ha]; rfl, ?_, ?_, ?_, ?_⟩
  · simp [withContext, hc]
  · simp [withContext, hc]
  · simp [withContext, hc]
  · intro k p hk
    obtain ⟨k, rfl⟩ : ∃ k', k = k' + 1 := ⟨k - 1, by omega⟩
    rw [Int.natCast_add, Int.natCast_one, phoneme_fut]
    simp only [withContext, hc, if_true]
    rw [takeWhile_take_get, List.getElem?_drop]
    unfold Right
    rw [show i + 1 + k = i + (k + 1) by omega]
    constructor
    · rintro ⟨h1, h2, h3⟩
      refine ⟨by omega, h2, ?_⟩
      intro j hj1 hj2
      obtain ⟨q, h4, h5⟩ := h3 (j - 1) (by omega)
      rw [List.getElem?_drop, show i + 1 + (j - 1) = i + j by omega] at h4
      exact ⟨q, h4, h5⟩
    · rintro ⟨h1, h2, h3⟩
      refine ⟨by omega, h2, ?_⟩
      intro j hj
      obtain ⟨q, h4, h5⟩ := h3 (j + 1) (by omega) (by omega)
      exact ⟨q, by rw [List.getElem?_drop, show i + 1 + j = i + (j + 1) by omega]; exact h4, h5⟩

/-- The context on the left: the phones before, as far as asked for and as far as all of them have context. It is stored with the first phone first,
so that the phone just before is the last one. -/
theorem history_stored (isCtx : Phone → Bool) (n : Nat) (hn : n ≠ 0) {l : List Allo} {i : Nat} {a : Allo} (ha : l[i]? = some a) (hc : isCtx a.id = true) :
    ∃ b, (setContext isCtx n l)[i]? = some b ∧ ∀ (k : Nat) (p : Phone), 1 ≤ k → (b.hist.reverse[k - 1]? = some p ↔ k ≤ n ∧ Left isCtx (l.map Allo.id) i k p) := by
  refine ⟨withContext isCtx n (l.map Allo.id) i a, by rw [setContext_get isCtx hn, ha]; rfl, ?_⟩
  intro k p hk
  obtain ⟨k, rfl⟩ : ∃ k', k = k' + 1 := ⟨k - 1, by omega⟩
  have hi : i < l.length := (List.getElem?_eq_some_iff.1 ha).1
  have hidx : ∀ j q, ((l.map Allo.id).take i).reverse[j]? = some q ↔ j + 1 ≤ i ∧ (l.map Allo.id)[i - (j + 1)]? = some q := by
    intro j q
    have hlen : ((l.map Allo.id).take i).length = i := by simp; omega
    by_cases hj : j < i
    · rw [List.getElem?_reverse (by omega), hlen, List.getElem?_take, if_pos (by omega), show i - 1 - j = i - (j + 1) by omega]
      simp
      omega
    · rw [List.getElem?_eq_none (by rw [List.length_reverse]; omega)]
      constructor
      · intro h; cases h
      · intro h; omega
  simp only [withContext, hc, if_true, List.reverse_reverse, Nat.add_sub_cancel]
  rw [takeWhile_take_get]
  unfold Left
  constructor
  · rintro ⟨h1, h2, h3⟩
    rw [hidx] at h2
    refine ⟨by omega, h2.1, h2.2, ?_⟩
    intro j hj1 hj2
    obtain ⟨q, h4, h5⟩ := h3 (j - 1) (by omega)
    rw [hidx, show j - 1 + 1 = j by omega] at h4
    exact ⟨q, h4.2, h5⟩
  · rintro ⟨h1, h2, h3, h4⟩
    refine ⟨by omega, (hidx k p).2 ⟨h2, h3⟩, ?_⟩
    intro j hj
    obtain ⟨q, h5, h6⟩ := h4 (j + 1) (by omega) (by omega)
    exact ⟨q, (hidx j q).2 ⟨by omega, h5⟩, h6⟩

/-- The phone on the left. Partial: only for a context of one phone (triphones). -/
theorem history_partial (isCtx : Phone → Bool) {l : List Allo} {i : Nat} {a : Allo} (ha : l[i]? = some a) (hc : isCtx a.id = true) :
    ∃ b, (setContext isCtx 1 l)[i]? = some b ∧ ∀ (k : Nat) (p : Phone), 1 ≤ k → (b.phoneme (-(k : Int)) = some p ↔ k ≤ 1 ∧ Left isCtx (l.map Allo.id) i k p) := by
  obtain ⟨b, h1, h2⟩ := history_stored isCtx 1 (by omega) ha hc
  refine ⟨b, h1, ?_⟩
  intro k p hk
  rw [← h2 k p hk]
  obtain ⟨k, rfl⟩ : ∃ k', k = k' + 1 := ⟨k - 1, by omega⟩
  have hle : b.hist.length ≤ 1 := by
    by_contra hcon
    have hlt : 1 < b.hist.reverse.length := by rw [List.length_reverse]; omega
    have := (h2 2 b.hist.reverse[1] (by omega)).1 (by simp [List.getElem?_eq_getElem hlt])
    omega
  rw [show -((k + 1 : Nat) : Int) = -(k : Int) - 1 by omega, phoneme_hist, Nat.add_sub_cancel]
  match hb : b.hist with
  | [] => simp
  | [x] => simp
  | x :: y :: t => rw [hb] at hle; simp at hle

/-- With a context of two phones, the phone before is not the one at offset -1. -/
theorem history_wrong : ∃ (l : List Allo) (b : Allo) (p : Phone), (setContext (fun _ => true) 2 l)[2]? = some b ∧ Left (fun _ => true) (l.map Allo.id) 2 1 p ∧
    b.phoneme (-1) ≠ some p := by
  refine ⟨[.new [97], .new [98], .new [99]], ⟨[99], [[97], [98]], [], 0, none⟩, [98], by decide, ⟨by omega, rfl, ?_⟩, by decide⟩
  intro j h1 h2
  have : j = 1 := by omega
  subst this
  exact ⟨[98], rfl, rfl⟩

/-- Phones without context, and a context of length zero, stay as they are. -/
theorem no_context (isCtx : Phone → Bool) (n : Nat) {l : List Allo} {i : Nat} {a : Allo} (ha : l[i]? = some a) (hc : n = 0 ∨ isCtx a.id = false) :
    (setContext isCtx n l)[i]? = some a := by
  by_cases hn : n = 0
  · simp [setContext, hn, ha]
  · rw [setContext_get isCtx hn, ha]
    rcases hc with hc | hc
    · exact absurd hc hn
    · simp [withContext, hc]

/-! ## Sequences -/

theorem setContext_same (isCtx : Phone → Bool) (n : Nat) (l : List Allo) (i : Nat) (b : Allo) (h : (setContext isCtx n l)[i]? = some b) :
    ∃ a, l[i]? = some a ∧ b.id = a.id ∧ b.boundary = a.boundary ∧ b.state = a.state ∧
      ((b.hist = a.hist ∧ b.fut = a.fut) ∨ (b.hist.length ≤ n ∧ b.fut.length ≤ n ∧ ∀ p ∈ b.hist ++ b.fut, p ∈ l.map Allo.id)) := by
  by_cases hn : n = 0
  · simp only [setContext, hn, if_true] at h
    exact ⟨b, h, rfl, rfl, rfl, .inl ⟨rfl, rfl⟩⟩
  · rw [setContext_get isCtx hn] at h
    cases ha : l[i]? with
    | none => rw [ha] at h; cases h
    | some a =>
      rw [ha] at h
      simp only [Option.map_some, Option.some.injEq] at h
      subst h
      refine ⟨a, rfl, ?_⟩
      unfold withContext
      by_cases hc : isCtx a.id = true
      · rw [if_pos hc]
        refine ⟨rfl, rfl, rfl, .inr ⟨by simp; omega, by simp; omega, ?_⟩⟩
        intro p hp
        rcases List.mem_append.1 hp with hp | hp
        · rw [List.mem_reverse] at hp
          have := (List.takeWhile_prefix isCtx).subset ((List.take_prefix _ _).subset hp)
          rw [List.mem_reverse] at this
          exact (List.take_prefix _ _).subset this
        · have := (List.takeWhile_prefix isCtx).subset ((List.take_prefix _ _).subset hp)
          exact (List.drop_suffix _ _).subset this
      · rw [if_neg hc]
        exact ⟨rfl, rfl, rfl, .inl ⟨rfl, rfl⟩⟩

theorem wordAllos_ok (w : List Phone) : (w = [] → wordAllos w = .error .indexError) ∧
    (w ≠ [] → wordAllos w = .ok (w.zipIdx.map (fun p => ⟨p.1, [], [], flags p.2 w.length, none⟩))) := by
  constructor
  · rintro rfl; rfl
  · intro hne
    cases w with
    | nil => exact absurd rfl hne
    | cons p t =>
      unfold wordAllos
      simp only [List.map_cons]
      congr 1
      apply List.ext_getElem?
      intro j
      rw [List.getElem?_modify, List.getElem?_map, List.getElem?_zipIdx, Nat.zero_add]
      simp only [List.length_cons, List.length_map, Nat.add_sub_cancel]
      cases j with
      | zero =>
        simp only [List.getElem?_cons_zero, Option.map_some, flags]
        by_cases ht : t.length = 0
        · simp [ht, Allo.new, Allo.markInitial, Allo.markFinal]
        · simp [ht, Allo.new, Allo.markInitial, Ne.symm ht]
      | succ j =>
        simp only [List.getElem?_cons_succ, List.getElem?_map]
        cases hj : t[j]? with
        | none => simp
        | some q =>
          simp only [Option.map_some, flags]
          by_cases ht : t.length = j + 1
          · simp [ht, Allo.new, Allo.markFinal]
          · simp [ht, Allo.new]
            omega

theorem allWords_ok : ∀ {words : List (List Phone)} {l : List Allo}, allWords words = .ok l →
    l = words.flatMap (fun w => w.zipIdx.map (fun p => ⟨p.1, [], [], flags p.2 w.length, none⟩)) := by
  intro words
  induction words with
  | nil =>
    intro l h
    simp only [allWords, Except.ok.injEq] at h
    subst h
    rfl
  | cons w t ih =>
    intro l h
    unfold allWords at h
    by_cases hw : w = []
    · rw [(wordAllos_ok w).1 hw] at h; cases h
    · rw [(wordAllos_ok w).2 hw] at h
      simp only [bind, Except.bind] at h
      cases hr : allWords t with
      | error e => rw [hr] at h; cases h
      | ok r =>
        rw [hr] at h
        simp only [Except.ok.injEq] at h
        subst h
        rw [ih hr]
        rfl

theorem repeats_append {α : Type} {a b c d : List α} (h1 : Repeats a b) (h2 : Repeats c d) : Repeats (a ++ c) (b ++ d) := by
  induction h1 with
  | nil => exact h2
  | cons x k _ ih => rw [List.cons_append, List.append_assoc]; exact .cons x k ih

/-- The generated sequence has all states of all phones of the words, in order, each one once or more times, with the flags of word boundaries. -/
theorem generate_states (isCtx : Phone → Bool) (si : Phone) (S L : Nat) (reps : Nat → Nat → Nat) {words : List (List Phone)} {out : List Allo}
    (h : generateSeq isCtx si S L reps words = .ok out) : Repeats (wantedStates si S words) (out.map (fun a => (a.id, a.boundary, a.state))) := by
  unfold generateSeq at h
  cases hw : allWords words with
  | error e => rw [hw] at h; cases h
  | ok l =>
    rw [hw] at h
    simp only [bind, Except.bind, Except.ok.injEq] at h
    subst h
    have hbase := allWords_ok hw
    have hmap : (setContext isCtx L l).map (fun a => (a.id, a.boundary)) = l.map (fun a => (a.id, a.boundary)) := by
      apply List.ext_getElem?
      intro i
      rw [List.getElem?_map, List.getElem?_map]
      cases hi : (setContext isCtx L l)[i]? with
      | some b =>
        obtain ⟨a, h1, h2, h3, _⟩ := setContext_same isCtx L l i b hi
        rw [h1]
        simp [h2, h3]
      | none =>
        have : l[i]? = none := by
          by_cases hL : L = 0
          · simpa [setContext, hL] using hi
          · rw [setContext_get isCtx hL] at hi
            simpa using hi
        rw [this]
    have hwant : wantedStates si S words = (l.map (fun a => (a.id, a.boundary))).flatMap (fun p =>
        if p.1 = si then [(p.1, 3, some 0)] else (List.range S).map (fun s => (p.1, p.2, some s))) := by
      rw [hbase]
      unfold wantedStates
      rw [List.map_flatMap, List.flatMap_assoc]
      apply List.flatMap_congr
      intro w _
      rw [List.map_map, List.flatMap_map]
      rfl
    rw [hwant, ← hmap]
    generalize setContext isCtx L l = k
    have key : ∀ (k : List Allo) (i : Nat), Repeats ((k.map (fun a => (a.id, a.boundary))).flatMap (fun p =>
        if p.1 = si then [(p.1, 3, some 0)] else (List.range S).map (fun s => (p.1, p.2, some s))))
        (((k.zipIdx i).flatMap (fun p => addStates si S (reps p.2) p.1)).map (fun a => (a.id, a.boundary, a.state))) := by
      intro k
      induction k with
      | nil => intro i; exact .nil
      | cons a t ih =>
        intro i
        rw [List.map_cons, List.flatMap_cons, List.zipIdx_cons, List.flatMap_cons, List.map_append]
        apply repeats_append _ (ih (i + 1))
        unfold addStates
        by_cases hs : a.id = si
        · simp only [hs, if_true, List.map_replicate]
          have := Repeats.cons (si, 3, some 0) (reps i 0) (Repeats.nil (α := Phone × Nat × Option Nat))
          rw [List.append_nil] at this
          have hsil : ((silence si).id, (silence si).boundary, (silence si).state) = (si, 3, some 0) := by
            simp [silence, Allo.new, Allo.markInitial, Allo.markFinal]
          rw [hsil]
          exact this
        · simp only [hs, if_false]
          generalize List.range S = ss
          induction ss with
          | nil => exact .nil
          | cons s ss ihs =>
            rw [List.map_cons, List.flatMap_cons, List.map_append, List.map_replicate]
            exact .cons _ _ ihs
    exact key k 0

/-- All states of a generated sequence have numbers: nothing fails when they are encoded. -/
theorem generate_index_ok (isCtx : Phone → Bool) (si : Phone) (S L : Nat) (hS : 0 < S) (reps : Nat → Nat → Nat) {words : List (List Phone)} {out : List Allo}
    (h : generateSeq isCtx si S L reps words = .ok out) {idxs : Dict Phone Nat} (hi : ∀ w ∈ words, ∀ p ∈ w, ∃ i, idxs.get? p = some i) :
    ∀ b ∈ out, ∃ n, b.index idxs S L = .ok n := by
  unfold generateSeq at h
  cases hw : allWords words with
  | error e => rw [hw] at h; cases h
  | ok l =>
    rw [hw] at h
    simp only [bind, Except.bind, Except.ok.injEq] at h
    subst h
    have hbase := allWords_ok hw
    have hl : ∀ a ∈ l, (∃ i, idxs.get? a.id = some i) ∧ a.hist = [] ∧ a.fut = [] ∧ a.boundary < 4 := by
      intro a ha
      rw [hbase] at ha
      obtain ⟨w, hw', ha⟩ := List.mem_flatMap.1 ha
      obtain ⟨p, hp, rfl⟩ := List.mem_map.1 ha
      refine ⟨hi w hw' p.1 ?_, rfl, rfl, ?_⟩
      · have := List.mem_zipIdx hp
        rw [this.2.2]
        exact List.getElem_mem _
      · show flags p.2 w.length < 4
        unfold flags
        split <;> split <;> omega
    intro b hb
    obtain ⟨p, hp, hb⟩ := List.mem_flatMap.1 hb
    have hpm := List.mem_zipIdx hp
    have hget : (setContext isCtx L l)[p.2]? = some p.1 := by
      rw [List.getElem?_eq_getElem (by omega)]
      simp [hpm.2.2]
    obtain ⟨a, ha, e1, e2, _, e4⟩ := setContext_same isCtx L l _ _ hget
    obtain ⟨g1, g2, g3, g4⟩ := hl a (List.mem_of_getElem? ha)
    have hctx : p.1.hist.length ≤ L ∧ p.1.fut.length ≤ L ∧ ∀ q ∈ p.1.hist ++ p.1.fut, ∃ i, idxs.get? q = some i := by
      rcases e4 with ⟨e5, e6⟩ | ⟨e5, e6, e7⟩
      · rw [e5, e6, g2, g3]
        simp
      · refine ⟨e5, e6, ?_⟩
        intro q hq
        obtain ⟨c, hc, rfl⟩ := List.mem_map.1 (e7 q hq)
        exact (hl c hc).1
    rw [index_defined]
    unfold addStates at hb
    by_cases hs : p.1.id = si
    · rw [if_pos hs] at hb
      have := List.eq_of_mem_replicate hb
      subst this
      refine ⟨by simp [silence, Allo.new, Allo.markInitial, Allo.markFinal], by simp [silence, Allo.new, Allo.markInitial, Allo.markFinal],
        by simp [silence, Allo.new, Allo.markInitial, Allo.markFinal], ⟨0, rfl, hS⟩, ?_⟩
      intro q hq
      simp only [silence, Allo.new, Allo.markInitial, Allo.markFinal, List.append_nil, List.mem_singleton] at hq
      rw [hq, e1]
      exact g1
    · rw [if_neg hs] at hb
      obtain ⟨s, hs', hb⟩ := List.mem_flatMap.1 hb
      have := List.eq_of_mem_replicate hb
      subst this
      refine ⟨hctx.1, hctx.2.1, by simp only [e2]; exact g4, ⟨s, rfl, List.mem_range.1 hs'⟩, ?_⟩
      intro q hq
      rcases List.mem_cons.1 hq with rfl | hq
      · show ∃ i, idxs.get? p.1.id = some i
        rw [e1]
        exact g1
      · exact hctx.2.2 q hq

example : (generateSeq (fun p => p != [35]) [35] 2 1 (fun i _ => i) [[[97], [98]], [[35]]]).map (fun l => l.map (fun a => a.index [([97], 0), ([98], 1), ([35], 2)] 2 1)) =
    .ok [.ok 145, .ok 149, .ok 290, .ok 290, .ok 294, .ok 294, .ok 387, .ok 387, .ok 387] := by decide

/-! ## State tying -/

theorem tyingLoop_spec : ∀ (lines : List (Phone × Nat)) (done : List (Phone × Nat)) (t : Tying),
    ((done.map Prod.fst).Nodup ∧ (∀ a c, t.alloMap.get? a = some c ↔ (a, c) ∈ done) ∧ (∀ c, c ∈ t.classMap.keys ↔ ∃ a, (a, c) ∈ done) ∧
      (∀ a c, a ∈ (t.classMap.get? c).getD [] ↔ (a, c) ∈ done) ∧ t.classMap.Wf) →
    (((done ++ lines).map Prod.fst).Nodup ↔ ∃ t', tyingLoop lines t = .ok t') ∧
    ∀ t', tyingLoop lines t = .ok t' → (∀ a c, t'.alloMap.get? a = some c ↔ (a, c) ∈ done ++ lines) ∧ (∀ c, c ∈ t'.classMap.keys ↔ ∃ a, (a, c) ∈ done ++ lines) ∧
      (∀ a c, a ∈ (t'.classMap.get? c).getD [] ↔ (a, c) ∈ done ++ lines) ∧ t'.classMap.Wf := by
  intro lines
  induction lines with
  | nil =>
    rintro done t ⟨h1, h2, h3, h4, h5⟩
    refine ⟨⟨fun _ => ⟨t, rfl⟩, fun _ => by simpa using h1⟩, ?_⟩
    intro t' ht
    simp only [tyingLoop, Except.ok.injEq] at ht
    subst ht
    simpa using ⟨h2, h3, h4, h5⟩
  | cons x r ih =>
    rintro done t ⟨h1, h2, h3, h4, h5⟩
    obtain ⟨a, c⟩ := x
    by_cases hin : a ∈ done.map Prod.fst
    · have hcon : t.alloMap.contains a = true := by
        obtain ⟨⟨a', c'⟩, hm, rfl⟩ := List.mem_map.1 hin
        simp [Dict.contains, (h2 _ _).2 hm]
      have herr : ∀ t', tyingLoop ((a, c) :: r) t ≠ .ok t' := by
        intro t' ht
        simp [tyingLoop, tyingStep, pyAssert, hcon, bind, Except.bind] at ht
      refine ⟨⟨?_, fun ⟨t', ht⟩ => absurd ht (herr t')⟩, fun t' ht => absurd ht (herr t')⟩
      intro hnd
      exfalso
      rw [List.map_append, List.nodup_append] at hnd
      exact hnd.2.2 a hin a (by simp) rfl
    · have hcon : t.alloMap.contains a = false := by
        unfold Dict.contains
        cases hg : t.alloMap.get? a with
        | none => rfl
        | some c' => exact absurd (List.mem_map.2 ⟨(a, c'), (h2 _ _).1 hg, rfl⟩) hin
      have hstep : tyingLoop ((a, c) :: r) t = tyingLoop r ⟨t.alloMap.set a c, t.classMap.set c (((t.classMap.get? c).getD []) ++ [a])⟩ := by
        simp [tyingLoop, tyingStep, pyAssert, hcon, bind, Except.bind]
      have := ih (done ++ [(a, c)]) ⟨t.alloMap.set a c, t.classMap.set c (((t.classMap.get? c).getD []) ++ [a])⟩ (by
        refine ⟨?_, ?_, ?_, ?_, Dict.wf_set h5 _ _⟩
        · rw [List.map_append, List.nodup_append]
          refine ⟨h1, by simp, ?_⟩
          intro x hx y hy hxy
          simp only [List.map_cons, List.map_nil, List.mem_singleton] at hy
          rw [hxy, hy] at hx
          exact hin hx
        · intro b d
          rw [Dict.get?_set]
          by_cases hab : a = b
          · subst hab
            rw [if_pos rfl]
            simp only [List.mem_append, List.mem_singleton, Prod.mk.injEq, true_and]
            constructor
            · intro h
              simp only [Option.some.injEq] at h
              exact .inr h.symm
            · rintro (h | h)
              · exact absurd (List.mem_map.2 ⟨_, h, rfl⟩) hin
              · rw [h]
          · rw [if_neg hab, h2]
            simp only [List.mem_append, List.mem_singleton, Prod.mk.injEq]
            constructor
            · exact .inl
            · rintro (h | h)
              · exact h
              · exact absurd h.1.symm hab
        · intro d
          rw [Dict.keys_set]
          have : (d ∈ (if c ∈ t.classMap.keys then t.classMap.keys else t.classMap.keys ++ [c])) ↔ d ∈ t.classMap.keys ∨ d = c := by
            split
            · rename_i hc
              constructor
              · exact .inl
              · rintro (h | h)
                · exact h
                · rw [h]; exact hc
            · simp
          rw [this, h3]
          simp only [List.mem_append, List.mem_singleton, Prod.mk.injEq]
          constructor
          · rintro (⟨b, hb⟩ | rfl)
            · exact ⟨b, .inl hb⟩
            · exact ⟨a, .inr ⟨rfl, rfl⟩⟩
          · rintro ⟨b, hb | hb⟩
            · exact .inl ⟨b, hb⟩
            · exact .inr hb.2
        · intro b d
          rw [Dict.get?_set]
          by_cases hcd : c = d
          · subst hcd
            rw [if_pos rfl, Option.getD_some, List.mem_append, h4, List.mem_append]
            simp
          · rw [if_neg hcd, h4]
            simp only [List.mem_append, List.mem_singleton, Prod.mk.injEq]
            constructor
            · exact .inl
            · rintro (h | h)
              · exact h
              · exact absurd h.2.symm hcd)
      rw [List.append_assoc, List.singleton_append] at this
      rw [hstep]
      exact this

/-- A state tying is accepted exactly when every allophone state is there once, and the classes are numbered from 0 on without gaps. -/
theorem tying_accepted (lines : List (Phone × Nat)) : (∃ t, mkTying lines = .ok t) ↔
    (lines.map Prod.fst).Nodup ∧ lines ≠ [] ∧ ∀ a c, (a, c) ∈ lines → ∀ c', c' < c → ∃ a', (a', c') ∈ lines := by
  have hspec := tyingLoop_spec lines [] ⟨[], []⟩ (by simp [Dict.get?, Dict.keys, Dict.Wf])
  simp only [List.nil_append] at hspec
  obtain ⟨hs1, hs2⟩ := hspec
  unfold mkTying
  constructor
  · rintro ⟨t, ht⟩
    cases hl : tyingLoop lines ⟨[], []⟩ with
    | error e => rw [hl] at ht; cases ht
    | ok t0 =>
      obtain ⟨_, k2, _, k4⟩ := hs2 t0 hl
      rw [hl] at ht
      simp only [bind, Except.bind] at ht
      cases hmin : pyMin t0.classMap.keys with
      | error e => rw [hmin] at ht; cases ht
      | ok lo =>
        cases hmax : pyMax t0.classMap.keys with
        | error e => rw [hmin, hmax] at ht; cases ht
        | ok hi =>
          rw [hmin, hmax] at ht
          simp only [pyAssert] at ht
          by_cases h1 : lo = 0
          · by_cases h2 : (hi : Int) = (t0.classMap.length : Int) - 1
            · refine ⟨hs1.2 ⟨t0, hl⟩, ?_, ?_⟩
              · rintro rfl
                have := (k2 lo).1 (pyMin_le hmin).1
                simp at this
              · intro a c hac c' hc'
                have hlen : t0.classMap.keys.length = t0.classMap.length := by simp [Dict.keys]
                have hsub : t0.classMap.keys ⊆ List.range (hi + 1) := by
                  intro x hx
                  have := (pyMax_ge hmax).2 x hx
                  exact List.mem_range.2 (by omega)
                have hperm := (List.Nodup.subperm k4 hsub).perm_of_length_le (by rw [List.length_range, hlen]; omega)
                have hc : c ≤ hi := (pyMax_ge hmax).2 c ((k2 c).2 ⟨a, hac⟩)
                exact (k2 c').1 (hperm.mem_iff.2 (List.mem_range.2 (by omega)))
            · simp [h1, h2] at ht
          · simp [h1] at ht
  · rintro ⟨h1, h2, h3⟩
    obtain ⟨t0, hl⟩ := hs1.1 h1
    obtain ⟨_, k2, _, k4⟩ := hs2 t0 hl
    have hne : t0.classMap.keys ≠ [] := by
      intro he
      obtain ⟨⟨a, c⟩, hac⟩ := List.exists_mem_of_ne_nil _ h2
      have := (k2 c).2 ⟨a, hac⟩
      rw [he] at this
      cases this
    obtain ⟨lo, hmin⟩ := pyMin_ok hne
    obtain ⟨hi, hmax⟩ := pyMax_ok hne
    obtain ⟨ahi, hahi⟩ := (k2 hi).1 (pyMax_ge hmax).1
    have hlo : lo = 0 := by
      obtain ⟨a, ha⟩ := (k2 lo).1 (pyMin_le hmin).1
      by_contra hcon
      obtain ⟨a', ha'⟩ := h3 a lo ha 0 (by omega)
      have := (pyMin_le hmin).2 0 ((k2 0).2 ⟨a', ha'⟩)
      omega
    have hhi : (hi : Int) = (t0.classMap.length : Int) - 1 := by
      have hlen : t0.classMap.keys.length = t0.classMap.length := by simp [Dict.keys]
      have hsub1 : t0.classMap.keys ⊆ List.range (hi + 1) := by
        intro x hx
        have := (pyMax_ge hmax).2 x hx
        exact List.mem_range.2 (by omega)
      have hsub2 : List.range (hi + 1) ⊆ t0.classMap.keys := by
        intro x hx
        have hx := List.mem_range.1 hx
        by_cases hxe : x = hi
        · rw [hxe]; exact (pyMax_ge hmax).1
        · exact (k2 x).2 (h3 ahi hi hahi x (by omega))
      have l1 := (List.Nodup.subperm k4 hsub1).length_le
      have l2 := (List.Nodup.subperm List.nodup_range hsub2).length_le
      rw [List.length_range] at l1 l2
      omega
    refine ⟨t0, ?_⟩
    rw [hl]
    simp only [bind, Except.bind, hmin, hmax, pyAssert]
    simp [hlo, hhi]

/-- The class of an allophone state and the allophone states of a class are the ones of the lines. -/
theorem tying_lookup {lines : List (Phone × Nat)} {t : Tying} (h : mkTying lines = .ok t) : (∀ a c, t.alloMap.get? a = some c ↔ (a, c) ∈ lines) ∧
    (∀ a c, a ∈ (t.classMap.get? c).getD [] ↔ (a, c) ∈ lines) ∧ ∀ c, c < t.classMap.length ↔ ∃ a, (a, c) ∈ lines := by
  have hspec := tyingLoop_spec lines [] ⟨[], []⟩ (by simp [Dict.get?, Dict.keys, Dict.Wf])
  simp only [List.nil_append] at hspec
  obtain ⟨hs1, hs2⟩ := hspec
  unfold mkTying at h
  cases hl : tyingLoop lines ⟨[], []⟩ with
  | error e => rw [hl] at h; cases h
  | ok t0 =>
    obtain ⟨k1, k2, k3, k4⟩ := hs2 t0 hl
    rw [hl] at h
    simp only [bind, Except.bind] at h
    cases hmin : pyMin t0.classMap.keys with
    | error e => rw [hmin] at h; cases h
    | ok lo =>
      cases hmax : pyMax t0.classMap.keys with
      | error e => rw [hmin, hmax] at h; cases h
      | ok hi =>
        rw [hmin, hmax] at h
        simp only [pyAssert] at h
        by_cases h1 : lo = 0
        · by_cases h2 : (hi : Int) = (t0.classMap.length : Int) - 1
          · simp [h1, h2] at h
            subst h
            refine ⟨k1, k3, ?_⟩
            intro c
            rw [← k2]
            have hlen : t0.classMap.keys.length = t0.classMap.length := by simp [Dict.keys]
            have hsub : t0.classMap.keys ⊆ List.range (hi + 1) := by
              intro x hx
              have := (pyMax_ge hmax).2 x hx
              exact List.mem_range.2 (by omega)
            have hperm := (List.Nodup.subperm k4 hsub).perm_of_length_le (by rw [List.length_range, hlen]; omega)
            rw [hperm.mem_iff, List.mem_range]
            omega
          · simp [h1, h2] at h
        · simp [h1] at h

example : ∃ t, mkTying [([97], 1), ([98], 0), ([99], 1)] = .ok t ∧ t.classMap.get? 1 = some [[97], [99]] := ⟨_, rfl, by decide⟩

/-- Marking sets its own flag and keeps the other one and everything else. -/
theorem marks (a : Allo) (i : Nat) : a.markInitial.boundary.testBit i = (decide (i = 0) || a.boundary.testBit i) ∧
    a.markFinal.boundary.testBit i = (decide (i = 1) || a.boundary.testBit i) ∧
    a.markInitial = { a with boundary := a.markInitial.boundary } ∧ a.markFinal = { a with boundary := a.markFinal.boundary } := by
  refine ⟨?_, ?_, rfl, rfl⟩
  · show (a.boundary ||| 1).testBit i = _
    rw [Nat.testBit_or, Bool.or_comm]
    congr 1
    cases i with
    | zero => rfl
    | succ i => simp [Nat.testBit_succ]
  · show (a.boundary ||| 2).testBit i = _
    rw [Nat.testBit_or, Bool.or_comm]
    congr 1
    match i with
    | 0 => rfl
    | 1 => rfl
    | i + 2 => simp [Nat.testBit_succ]

end Verif.Allo
