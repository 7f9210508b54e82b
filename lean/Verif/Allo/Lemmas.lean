import Verif.Allo.Spec
import Mathlib.Data.List.TakeWhile
namespace Verif.Allo
open Verif Verif.Py

/-- A number from its digits, the first one is the highest. -/
def enc (B : Nat) (ds : List Nat) : Nat := ds.foldl (fun r d => r * B + d) 0

/-- The lowest `n` digits, the lowest one first. -/
def dec (B : Nat) : Nat → Nat → List Nat
  | 0, _ => []
  | n + 1, x => x % B :: dec B n (x / B)

theorem enc_snoc (B : Nat) (ds : List Nat) (d : Nat) : enc B (ds ++ [d]) = enc B ds * B + d := by
  simp [enc, List.foldl_append]

theorem dec_enc (B : Nat) (ds : List Nat) (h : ∀ d ∈ ds, d < B) : dec B ds.length (enc B ds) = ds.reverse := by
  induction hn : ds.length generalizing ds with
  | zero =>
    have : ds = [] := List.length_eq_zero_iff.1 hn
    subst this
    rfl
  | succ n ih =>
    have hne : ds ≠ [] := by rintro rfl; simp at hn
    obtain ⟨l, d, rfl⟩ : ∃ l d, ds = l ++ [d] := ⟨ds.dropLast, ds.getLast hne, (List.dropLast_concat_getLast hne).symm⟩
    have hd : d < B := h d (by simp)
    have hl : l.length = n := by simp at hn; exact hn
    rw [enc_snoc, dec, List.reverse_append, List.reverse_singleton, List.singleton_append]
    have h1 : (enc B l * B + d) % B = d := by rw [Nat.mul_comm, Nat.mul_add_mod, Nat.mod_eq_of_lt hd]
    have h2 : (enc B l * B + d) / B = enc B l := by
      rw [Nat.mul_comm, Nat.mul_add_div (by omega), Nat.div_eq_of_lt hd, Nat.add_zero]
    rw [h1, h2, ih l (fun x hx => h x (by simp [hx])) hl]

theorem enc_lt (B : Nat) (ds : List Nat) (h : ∀ d ∈ ds, d < B) : enc B ds < B ^ ds.length := by
  induction hn : ds.length generalizing ds with
  | zero =>
    have : ds = [] := List.length_eq_zero_iff.1 hn
    subst this
    simp [enc]
  | succ n ih =>
    have hne : ds ≠ [] := by rintro rfl; simp at hn
    obtain ⟨l, d, rfl⟩ : ∃ l d, ds = l ++ [d] := ⟨ds.dropLast, ds.getLast hne, (List.dropLast_concat_getLast hne).symm⟩
    have hd : d < B := h d (by simp)
    have := ih l (fun x hx => h x (by simp [hx])) (by simp at hn; exact hn)
    rw [enc_snoc, Nat.pow_succ]
    calc enc B l * B + d < enc B l * B + B := by omega
      _ = (enc B l + 1) * B := by rw [Nat.add_mul, Nat.one_mul]
      _ ≤ B ^ n * B := Nat.mul_le_mul_right _ this

theorem pyMax_ge {l : List Nat} {n : Nat} (h : pyMax l = .ok n) : n ∈ l ∧ ∀ x ∈ l, x ≤ n := by
  have key : ∀ (t : List Nat) (a : Nat), t.foldl max a ∈ a :: t ∧ ∀ x ∈ a :: t, x ≤ t.foldl max a := by
    intro t
    induction t with
    | nil => intro a; simp
    | cons b t ih =>
      intro a
      obtain ⟨h1, h2⟩ := ih (max a b)
      rw [List.foldl_cons]
      constructor
      · rcases List.mem_cons.1 h1 with h1 | h1
        · rw [h1]
          rcases Nat.le_total a b with h | h
          · rw [Nat.max_eq_right h]; simp
          · rw [Nat.max_eq_left h]; simp
        · simp [h1]
      · intro x hx
        have hm := h2 (max a b) (by simp)
        simp only [List.mem_cons] at hx
        rcases hx with rfl | rfl | hx
        · omega
        · omega
        · exact h2 x (by simp [hx])
  cases l with
  | nil => cases h
  | cons a t =>
    simp only [pyMax, Except.ok.injEq] at h
    subst h
    exact key t a

theorem pyMin_le {l : List Nat} {n : Nat} (h : pyMin l = .ok n) : n ∈ l ∧ ∀ x ∈ l, n ≤ x := by
  have key : ∀ (t : List Nat) (a : Nat), t.foldl min a ∈ a :: t ∧ ∀ x ∈ a :: t, t.foldl min a ≤ x := by
    intro t
    induction t with
    | nil => intro a; simp
    | cons b t ih =>
      intro a
      obtain ⟨h1, h2⟩ := ih (min a b)
      rw [List.foldl_cons]
      constructor
      · rcases List.mem_cons.1 h1 with h1 | h1
        · rw [h1]
          rcases Nat.le_total a b with h | h
          · rw [Nat.min_eq_left h]; simp
          · rw [Nat.min_eq_right h]; simp
        · simp [h1]
      · intro x hx
        have hm := h2 (min a b) (by simp)
        simp only [List.mem_cons] at hx
        rcases hx with rfl | rfl | hx
        · omega
        · omega
        · exact h2 x (by simp [hx])
  cases l with
  | nil => cases h
  | cons a t =>
    simp only [pyMin, Except.ok.injEq] at h
    subst h
    exact key t a

theorem pyMax_ok {l : List Nat} (h : l ≠ []) : ∃ n, pyMax l = .ok n := by
  cases l with
  | nil => exact absurd rfl h
  | cons a t => exact ⟨_, rfl⟩

theorem pyMin_ok {l : List Nat} (h : l ≠ []) : ∃ n, pyMin l = .ok n := by
  cases l with
  | nil => exact absurd rfl h
  | cons a t => exact ⟨_, rfl⟩

/-! ## Index -/

theorem pos_zero : pos 0 = 0 := rfl

theorem pos_odd (k : Nat) : pos (2 * k + 1) = -(k : Int) - 1 := by
  unfold pos
  rw [if_pos (by omega)]
  have : (2 * k + 1) / 2 = k := by omega
  rw [this]

theorem pos_even (k : Nat) : pos (2 * k) = (k : Int) := by
  unfold pos
  rw [if_neg (by omega)]
  have : (2 * k) / 2 = k := by omega
  rw [this]

theorem phoneme_zero (a : Allo) : a.phoneme 0 = some a.id := by simp [Allo.phoneme]

theorem phoneme_hist (a : Allo) (k : Nat) : a.phoneme (-(k : Int) - 1) = a.hist[k]? := by
  unfold Allo.phoneme
  rw [if_neg (by omega), if_neg (by omega)]
  congr 1
  omega

theorem phoneme_fut (a : Allo) (k : Nat) : a.phoneme ((k : Int) + 1) = a.fut[k]? := by
  unfold Allo.phoneme
  rw [if_neg (by omega), if_pos (by omega)]
  congr 1
  omega

theorem pos_cases (i : Nat) : i = 0 ∨ (∃ k, i = 2 * k + 1) ∨ (∃ k, i = 2 * (k + 1)) := by
  rcases Nat.mod_two_eq_zero_or_one i with h | h
  · by_cases h0 : i = 0
    · exact .inl h0
    · exact .inr (.inr ⟨i / 2 - 1, by omega⟩)
  · exact .inr (.inl ⟨i / 2, by omega⟩)

/-- The number of the phone at a loop index. -/
def dg (a : Allo) (idxs : Dict Phone Nat) (i : Nat) : Nat :=
  match a.phoneme (pos i) with
  | none => 0
  | some p => (idxs.get? p).getD 0 + 1

theorem phoneIdx_dg {a : Allo} {idxs : Dict Phone Nat} {i n : Nat} (h : a.phoneIdx (pos i) idxs = .ok n) :
    n = dg a idxs i ∧ ∀ p, a.phoneme (pos i) = some p → (idxs.get? p).isSome := by
  unfold Allo.phoneIdx at h
  unfold dg
  cases hp : a.phoneme (pos i) with
  | none =>
    rw [hp] at h
    simp only [Except.ok.injEq] at h
    exact ⟨h.symm, fun p hp => by cases hp⟩
  | some p =>
    rw [hp] at h
    simp only at h
    cases hg : idxs.get? p with
    | none => rw [hg] at h; cases h
    | some j =>
      rw [hg] at h
      simp only [Except.ok.injEq] at h
      subst h
      refine ⟨by simp [hg], ?_⟩
      intro q hq
      simp only [Option.some.injEq] at hq
      subst hq
      simp [hg]

theorem indexLoop_inv {a : Allo} {idxs : Dict Phone Nat} {B : Nat} : ∀ (l : List Nat) (r n : Nat), indexLoop a idxs B l r = .ok n →
    n = (l.map (dg a idxs)).foldl (fun r d => r * B + d) r ∧ ∀ i ∈ l, ∀ p, a.phoneme (pos i) = some p → (idxs.get? p).isSome := by
  intro l
  induction l with
  | nil =>
    intro r n h
    simp only [indexLoop, Except.ok.injEq] at h
    exact ⟨h.symm, by simp⟩
  | cons i t ih =>
    intro r n h
    unfold indexLoop at h
    cases hp : a.phoneIdx (pos i) idxs with
    | error e => rw [hp] at h; cases h
    | ok d =>
      rw [hp] at h
      simp only [bind, Except.bind] at h
      obtain ⟨h1, h2⟩ := phoneIdx_dg hp
      obtain ⟨h3, h4⟩ := ih _ _ h
      refine ⟨by rw [h3, h1]; rfl, ?_⟩
      intro j hj
      rcases List.mem_cons.1 hj with rfl | hj
      · exact h2
      · exact h4 j hj

theorem indexLoop_ok {a : Allo} {idxs : Dict Phone Nat} {B : Nat} : ∀ (l : List Nat) (r : Nat),
    (∀ i ∈ l, ∀ p, a.phoneme (pos i) = some p → (idxs.get? p).isSome) → ∃ n, indexLoop a idxs B l r = .ok n := by
  intro l
  induction l with
  | nil => intro r _; exact ⟨r, rfl⟩
  | cons i t ih =>
    intro r h
    unfold indexLoop
    have : ∃ d, a.phoneIdx (pos i) idxs = .ok d := by
      unfold Allo.phoneIdx
      cases hp : a.phoneme (pos i) with
      | none => exact ⟨0, rfl⟩
      | some p =>
        obtain ⟨j, hj⟩ := Option.isSome_iff_exists.1 (h i (by simp) p hp)
        exact ⟨j + 1, by simp [hj]⟩
    obtain ⟨d, hd⟩ := this
    rw [hd]
    exact ih _ (fun j hj => h j (by simp [hj]))

theorem dg_lt {a : Allo} {idxs : Dict Phone Nat} {n : Nat} (hn : pyMax idxs.values = .ok n) {i : Nat}
    (h : ∀ p, a.phoneme (pos i) = some p → (idxs.get? p).isSome) : dg a idxs i < n + 1 + 1 := by
  unfold dg
  cases hp : a.phoneme (pos i) with
  | none => simp
  | some p =>
    obtain ⟨j, hj⟩ := Option.isSome_iff_exists.1 (h p hp)
    have := (pyMax_ge hn).2 j (List.mem_map.2 ⟨(p, j), Dict.mem_of_get? hj, rfl⟩)
    simp [hj]
    omega

theorem index_inv {a : Allo} {idxs : Dict Phone Nat} {S L n : Nat} (h : a.index idxs S L = .ok n) :
    a.hist.length ≤ L ∧ a.fut.length ≤ L ∧ a.boundary < 4 ∧ ∃ s m, a.state = some s ∧ s < S ∧ pyMax idxs.values = .ok m ∧
      n = (enc (m + 1 + 1) ((List.range (2 * L + 1)).map (dg a idxs)) * S + s) * 4 + a.boundary ∧
      ∀ i, i ≤ 2 * L → ∀ p, a.phoneme (pos i) = some p → (idxs.get? p).isSome := by
  unfold Allo.index at h
  simp only [pyAssert] at h
  by_cases h1 : max a.hist.length a.fut.length ≤ L
  · by_cases h2 : a.boundary < 4
    · cases hs : a.state with
      | none => simp [h1, h2, hs, bind, Except.bind] at h
      | some s =>
        by_cases h3 : s < S
        · cases hm : pyMax idxs.values with
          | error e => simp [h1, h2, hs, h3, hm, bind, Except.bind] at h
          | ok m =>
            cases hl : indexLoop a idxs (m + 1 + 1) (List.range (2 * L + 1)) 0 with
            | error e => simp [h1, h2, hs, h3, hm, hl, bind, Except.bind] at h
            | ok r =>
              simp [h1, h2, hs, h3, hm, hl, bind, Except.bind] at h
              obtain ⟨e1, e2⟩ := indexLoop_inv _ _ _ hl
              refine ⟨by omega, by omega, h2, s, m, rfl, h3, rfl, ?_, ?_⟩
              · rw [← h, e1]
                rfl
              · intro i hi
                exact e2 i (List.mem_range.2 (by omega))
        · simp [h1, h2, hs, h3, bind, Except.bind] at h
    · simp [h1, h2, bind, Except.bind] at h
  · simp [h1, bind, Except.bind] at h

theorem index_ok {a : Allo} {idxs : Dict Phone Nat} {S L s : Nat} (h1 : a.hist.length ≤ L) (h2 : a.fut.length ≤ L) (h3 : a.boundary < 4)
    (h4 : a.state = some s) (h5 : s < S) (hid : (idxs.get? a.id).isSome) (hh : ∀ p ∈ a.hist, (idxs.get? p).isSome)
    (hf : ∀ p ∈ a.fut, (idxs.get? p).isSome) : ∃ n, a.index idxs S L = .ok n := by
  have hne : idxs.values ≠ [] := by
    intro he
    obtain ⟨j, hj⟩ := Option.isSome_iff_exists.1 hid
    have : j ∈ idxs.values := List.mem_map.2 ⟨(a.id, j), Dict.mem_of_get? hj, rfl⟩
    rw [he] at this
    cases this
  obtain ⟨m, hm⟩ := pyMax_ok hne
  obtain ⟨r, hr⟩ := indexLoop_ok (a := a) (idxs := idxs) (B := m + 1 + 1) (List.range (2 * L + 1)) 0 (by
    intro i _ p hp
    rcases pos_cases i with rfl | ⟨k, rfl⟩ | ⟨k, rfl⟩
    · rw [pos_zero, phoneme_zero] at hp
      simp only [Option.some.injEq] at hp
      rw [← hp]
      exact hid
    · rw [pos_odd, phoneme_hist] at hp
      exact hh p (List.mem_of_getElem? hp)
    · rw [pos_even, Int.natCast_add, Int.natCast_one, phoneme_fut] at hp
      exact hf p (List.mem_of_getElem? hp))
  refine ⟨(r * S + s) * 4 + a.boundary, ?_⟩
  unfold Allo.index
  have hmax : max a.hist.length a.fut.length ≤ L := by omega
  simp [pyAssert, hmax, h3, h4, h5, hm, hr, bind, Except.bind]

theorem ext_phonemes {a b : Allo} {L : Nat} (ha : a.hist.length ≤ L) (hb : b.hist.length ≤ L) (ha' : a.fut.length ≤ L) (hb' : b.fut.length ≤ L)
    (h : ∀ i, i ≤ 2 * L → a.phoneme (pos i) = b.phoneme (pos i)) : a.id = b.id ∧ a.hist = b.hist ∧ a.fut = b.fut := by
  refine ⟨?_, ?_, ?_⟩
  · have := h 0 (by omega)
    rw [pos_zero, phoneme_zero, phoneme_zero] at this
    simpa using this
  · apply List.ext_getElem?
    intro k
    by_cases hk : k < L
    · have := h (2 * k + 1) (by omega)
      rwa [pos_odd, phoneme_hist, phoneme_hist] at this
    · rw [List.getElem?_eq_none (by omega), List.getElem?_eq_none (by omega)]
  · apply List.ext_getElem?
    intro k
    by_cases hk : k < L
    · have := h (2 * (k + 1)) (by omega)
      rwa [pos_even, Int.natCast_add, Int.natCast_one, phoneme_fut, phoneme_fut] at this
    · rw [List.getElem?_eq_none (by omega), List.getElem?_eq_none (by omega)]

/-! ## From index -/

theorem setPhoneme_ok (a : Allo) (j : Nat) (p : Phone) (h1 : a.hist.length = j / 2) (h2 : a.fut.length = (j - 1) / 2) :
    ∃ b, a.setPhoneme (pos j) p = .ok b ∧ b.hist.length = (j + 1) / 2 ∧ b.fut.length = j / 2 ∧ b.boundary = a.boundary ∧ b.state = a.state ∧
      b.phoneme (pos j) = some p ∧ ∀ i, i < j → b.phoneme (pos i) = a.phoneme (pos i) := by
  rcases pos_cases j with rfl | ⟨k, rfl⟩ | ⟨k, rfl⟩
  · refine ⟨{ a with id := p }, by simp [Allo.setPhoneme, pos_zero], by simpa using h1, by simpa using h2, rfl, rfl, by simp [pos_zero, Allo.phoneme], ?_⟩
    intro i hi
    omega
  · refine ⟨{ a with hist := a.hist ++ [p] }, ?_, by simp; omega, by simp only; omega, rfl, rfl, ?_, ?_⟩
    · unfold Allo.setPhoneme
      rw [pos_odd, if_neg (by omega), if_neg (by omega)]
      have : (-(-(k : Int) - 1) - 1).toNat = a.hist.length := by omega
      simp [this, pyAssert, bind, Except.bind]
    · rw [pos_odd, phoneme_hist]
      have : k = a.hist.length := by omega
      simp [this]
    · intro i hi
      rcases pos_cases i with rfl | ⟨m, rfl⟩ | ⟨m, rfl⟩
      · rw [pos_zero, phoneme_zero, phoneme_zero]
      · rw [pos_odd, phoneme_hist, phoneme_hist]
        exact List.getElem?_append_left (by omega)
      · rw [pos_even, Int.natCast_add, Int.natCast_one, phoneme_fut, phoneme_fut]
  · refine ⟨{ a with fut := a.fut ++ [p] }, ?_, by simp only; omega, by simp; omega, rfl, rfl, ?_, ?_⟩
    · unfold Allo.setPhoneme
      rw [pos_even, if_neg (by omega), if_pos (by omega)]
      have : (((k + 1 : Nat) : Int) - 1).toNat = a.fut.length := by omega
      simp only [this, pyAssert, bind, Except.bind, beq_self_eq_true, if_true]
    · rw [pos_even, Int.natCast_add, Int.natCast_one, phoneme_fut]
      have : k = a.fut.length := by omega
      simp [this]
    · intro i hi
      rcases pos_cases i with rfl | ⟨m, rfl⟩ | ⟨m, rfl⟩
      · rw [pos_zero, phoneme_zero, phoneme_zero]
      · rw [pos_odd, phoneme_hist, phoneme_hist]
      · rw [pos_even, Int.natCast_add, Int.natCast_one, phoneme_fut, phoneme_fut]
        exact List.getElem?_append_left (by omega)

theorem fromLoop_ok (ids : Dict Nat Phone) (B : Nat) : ∀ (k j code : Nat) (a : Allo) (ps : List Phone), ps.length = k →
    (∀ i (h : i < k) (h' : i < (dec B k code).length), phoneOf ids (dec B k code)[i] = .ok (ps.getD i [])) →
    a.hist.length = j / 2 → a.fut.length = (j - 1) / 2 →
    ∃ b, fromLoop ids B (List.range' j k) code a = .ok b ∧ b.hist.length = (j + k) / 2 ∧ b.fut.length = (j + k - 1) / 2 ∧ b.boundary = a.boundary ∧
      b.state = a.state ∧ (∀ i, i < k → b.phoneme (pos (j + i)) = some (ps.getD i [])) ∧ ∀ i, i < j → b.phoneme (pos i) = a.phoneme (pos i) := by
  intro k
  induction k with
  | zero =>
    intro j code a ps _ _ h1 h2
    exact ⟨a, rfl, by simpa using h1, by simpa using h2, rfl, rfl, by intro i h; omega, fun i _ => rfl⟩
  | succ k ih =>
    intro j code a ps hps hd h1 h2
    obtain ⟨p, ps', rfl⟩ : ∃ p ps', ps = p :: ps' := by
      cases ps with
      | nil => simp at hps
      | cons p t => exact ⟨p, t, rfl⟩
    have h0 : phoneOf ids (code % B) = .ok p := by
      have := hd 0 (by omega) (by simp [dec])
      simpa [dec] using this
    obtain ⟨b, e1, e2, e3, e4, e5, e6, e7⟩ := setPhoneme_ok a j p h1 h2
    obtain ⟨c, f1, f2, f3, f4, f5, f6, f7⟩ := ih (j + 1) (code / B) b ps' (by simpa using hps) (by
      intro i hi hi'
      have := hd (i + 1) (by omega) (by simp only [dec, List.length_cons]; omega)
      simpa [dec] using this) e2 (by simpa using e3)
    refine ⟨c, ?_, by rw [f2]; congr 1; omega, by rw [f3]; congr 1; omega, by rw [f4, e4], by rw [f5, e5], ?_, ?_⟩
    · rw [List.range'_succ, fromLoop, h0]
      simp only [bind, Except.bind, e1, f1]
    · intro i hi
      cases i with
      | zero =>
        rw [Nat.add_zero, f7 j (by omega), e6]
        rfl
      | succ i =>
        have := f6 i (by omega)
        rw [show j + (i + 1) = j + 1 + i by omega, this]
        rfl
    · intro i hi
      rw [f7 i (by omega), e7 i hi]

theorem dec_length (B : Nat) : ∀ (n x : Nat), (dec B n x).length = n := by
  intro n
  induction n with
  | zero => intro x; rfl
  | succ n ih => intro x; simp [dec, ih]

/-! ## Context -/

/-- The phones with context at the end of a list. -/
def trail (isCtx : Phone → Bool) (done : List Phone) : List Phone := (done.reverse.takeWhile isCtx).reverse

theorem trail_snoc (isCtx : Phone → Bool) (done : List Phone) (x : Phone) :
    trail isCtx (done ++ [x]) = if isCtx x then trail isCtx done ++ [x] else [] := by
  unfold trail
  rw [List.reverse_append, List.reverse_singleton, List.singleton_append, List.takeWhile_cons]
  split <;> simp_all

theorem lastN_snoc {α : Type} {n : Nat} (hn : n ≠ 0) (l : List α) (x : α) : lastN n (lastN n l ++ [x]) = lastN n (l ++ [x]) := by
  unfold lastN
  rw [if_neg hn, if_neg hn, if_neg hn]
  rw [← List.drop_append_of_le_length (l₂ := [x]) (by omega)]
  rw [List.drop_drop]
  congr 1
  simp only [List.length_drop, List.length_append, List.length_singleton]
  omega

theorem histLoop_get (isCtx : Phone → Bool) {n : Nat} (hn : n ≠ 0) : ∀ (l : List Allo) (done : List Phone) (i : Nat),
    (histLoop isCtx n (lastN n (trail isCtx done)) l)[i]? = l[i]?.map (fun a => if isCtx a.id then { a with hist := lastN n (trail isCtx (done ++ (l.take i).map Allo.id)) } else a) := by
  intro l
  induction l with
  | nil => intro done i; simp [histLoop]
  | cons a t ih =>
    intro done i
    have hrec : (if isCtx a.id then lastN n (lastN n (trail isCtx done) ++ [a.id]) else []) = lastN n (trail isCtx (done ++ [a.id])) := by
      rw [trail_snoc]
      split
      · exact lastN_snoc hn _ _
      · simp [lastN]
    unfold histLoop
    by_cases hc : isCtx a.id = true
    · rw [if_pos hc] at hrec ⊢
      rw [hrec]
      cases i with
      | zero => simp [hc]
      | succ i =>
        rw [List.getElem?_cons_succ, ih, List.getElem?_cons_succ]
        simp
    · rw [if_neg hc] at hrec ⊢
      rw [hrec]
      cases i with
      | zero => simp [hc]
      | succ i =>
        rw [List.getElem?_cons_succ, ih, List.getElem?_cons_succ]
        simp

theorem futLoop_get (isCtx : Phone → Bool) {n : Nat} (hn : n ≠ 0) : ∀ (l : List Allo) (done : List Phone) (i : Nat),
    (futLoop isCtx n (lastN n (trail isCtx done)) l)[i]? =
      l[i]?.map (fun a => if isCtx a.id then { a with fut := (lastN n (trail isCtx (done ++ (l.take i).map Allo.id))).reverse } else a) := by
  intro l
  induction l with
  | nil => intro done i; simp [futLoop]
  | cons a t ih =>
    intro done i
    have hrec : (if isCtx a.id then lastN n (lastN n (trail isCtx done) ++ [a.id]) else []) = lastN n (trail isCtx (done ++ [a.id])) := by
      rw [trail_snoc]
      split
      · exact lastN_snoc hn _ _
      · simp [lastN]
    unfold futLoop
    by_cases hc : isCtx a.id = true
    · rw [if_pos hc] at hrec ⊢
      rw [hrec]
      cases i with
      | zero => simp [hc]
      | succ i =>
        rw [List.getElem?_cons_succ, ih, List.getElem?_cons_succ]
        simp
    · rw [if_neg hc] at hrec ⊢
      rw [hrec]
      cases i with
      | zero => simp [hc]
      | succ i =>
        rw [List.getElem?_cons_succ, ih, List.getElem?_cons_succ]
        simp

theorem lastN_reverse {α : Type} {n : Nat} (hn : n ≠ 0) (l : List α) : (lastN n l.reverse).reverse = l.take n := by
  unfold lastN
  rw [if_neg hn, List.drop_reverse, List.reverse_reverse, List.length_reverse]
  by_cases h : n ≤ l.length
  · congr 1; omega
  · rw [List.take_of_length_le (by omega), List.take_of_length_le (by omega)]

/-- One allophone with its context. -/
def withContext (isCtx : Phone → Bool) (n : Nat) (ids : List Phone) (i : Nat) (a : Allo) : Allo :=
  if isCtx a.id then { a with hist := (((ids.take i).reverse.takeWhile isCtx).take n).reverse, fut := ((ids.drop (i + 1)).takeWhile isCtx).take n }
  else a

theorem histLoop_length (isCtx : Phone → Bool) (n : Nat) : ∀ (l : List Allo) (ctx : List Phone), (histLoop isCtx n ctx l).length = l.length := by
  intro l
  induction l with
  | nil => intro ctx; rfl
  | cons a t ih => intro ctx; unfold histLoop; split <;> simp [ih]

theorem futLoop_length (isCtx : Phone → Bool) (n : Nat) : ∀ (l : List Allo) (ctx : List Phone), (futLoop isCtx n ctx l).length = l.length := by
  intro l
  induction l with
  | nil => intro ctx; rfl
  | cons a t ih => intro ctx; unfold futLoop; split <;> simp [ih]

theorem histLoop_ids (isCtx : Phone → Bool) (n : Nat) : ∀ (l : List Allo) (ctx : List Phone), (histLoop isCtx n ctx l).map Allo.id = l.map Allo.id := by
  intro l
  induction l with
  | nil => intro ctx; rfl
  | cons a t ih => intro ctx; unfold histLoop; split <;> simp [ih]

theorem setContext_get (isCtx : Phone → Bool) {n : Nat} (hn : n ≠ 0) (l : List Allo) (i : Nat) :
    (setContext isCtx n l)[i]? = l[i]?.map (withContext isCtx n (l.map Allo.id) i) := by
  unfold setContext
  rw [if_neg hn]
  by_cases hi : i < l.length
  · have h0 : lastN n (trail isCtx []) = [] := by simp [trail, lastN]
    rw [List.getElem?_reverse (by rw [futLoop_length, List.length_reverse, histLoop_length]; exact hi), futLoop_length, List.length_reverse, histLoop_length]
    have hf := futLoop_get isCtx hn (histLoop isCtx n [] l).reverse [] (l.length - 1 - i)
    rw [h0] at hf
    rw [hf]
    rw [List.getElem?_reverse (by rw [histLoop_length]; omega), histLoop_length]
    have hidx : l.length - 1 - (l.length - 1 - i) = i := by omega
    rw [hidx]
    have hh := histLoop_get isCtx hn l [] i
    rw [h0] at hh
    rw [hh, Option.map_map]
    rw [List.getElem?_eq_getElem hi, Option.map_some, Option.map_some]
    congr 1
    unfold withContext
    have hT : ((histLoop isCtx n [] l).reverse.take (l.length - 1 - i)).map Allo.id = ((l.map Allo.id).drop (i + 1)).reverse := by
      rw [List.map_take, List.map_reverse, histLoop_ids, List.take_reverse, List.length_map]
      congr 2
      omega
    by_cases hc : isCtx l[i].id = true
    · simp only [Function.comp, hc, if_true, hT, List.nil_append]
      congr 1
      · unfold trail
        rw [List.map_take]
        rw [← lastN_reverse hn, List.reverse_reverse]
      · unfold trail
        rw [List.reverse_reverse]
        exact lastN_reverse hn _
    · have hc' : isCtx l[i].id = false := by simpa using hc
      simp [Function.comp, hc']
  · rw [List.getElem?_eq_none (by rw [List.length_reverse, futLoop_length, List.length_reverse, histLoop_length]; omega), List.getElem?_eq_none (by omega)]
    rfl

theorem takeWhile_take_get {α : Type} (p : α → Bool) (l : List α) (n m : Nat) (x : α) :
    ((l.takeWhile p).take n)[m]? = some x ↔ m < n ∧ l[m]? = some x ∧ ∀ j, j ≤ m → ∃ q, l[j]? = some q ∧ p q = true := by
  induction l generalizing n m with
  | nil => simp
  | cons a t ih =>
    rw [List.takeWhile_cons]
    by_cases ha : p a = true
    · rw [if_pos ha]
      cases n with
      | zero => simp
      | succ n =>
        rw [List.take_succ_cons]
        cases m with
        | zero =>
          simp only [List.getElem?_cons_zero, Nat.zero_lt_succ, true_and, Option.some.injEq]
          constructor
          · rintro rfl
            refine ⟨rfl, ?_⟩
            intro j hj
            have : j = 0 := by omega
            subst this
            exact ⟨a, rfl, ha⟩
          · exact fun h => h.1
        | succ m =>
          rw [List.getElem?_cons_succ, ih, List.getElem?_cons_succ]
          constructor
          · rintro ⟨h1, h2, h3⟩
            refine ⟨by omega, h2, ?_⟩
            intro j hj
            cases j with
            | zero => exact ⟨a, rfl, ha⟩
            | succ j => exact h3 j (by omega)
          · rintro ⟨h1, h2, h3⟩
            exact ⟨by omega, h2, fun j hj => h3 (j + 1) (by omega)⟩
    · rw [if_neg ha]
      simp only [List.take_nil, List.getElem?_nil]
      constructor
      · intro h; cases h
      · rintro ⟨_, _, h⟩
        obtain ⟨q, h1, h2⟩ := h 0 (by omega)
        simp only [List.getElem?_cons_zero, Option.some.injEq] at h1
        subst h1
        exact absurd h2 ha

end Verif.Allo
