import Verif.NpDump.Model
/-
C141: the dataset of text dumps.
-/
namespace Verif.NpDump
open Verif Verif.Py

variable {F : Type}

/-- Files `a`, ..., `m - 1` exist, and file `m` does not. -/
def FilesTo (d : Disk F) (a m : Nat) : Prop := a ≤ m ∧ (∀ i, a ≤ i → i < m → d.both i = true) ∧ d.both m = false

theorem scan_spec (d : Disk F) (endSeq : Option Nat) (m : Nat) (n i : Nat) (last : Option Nat)
    (him : i ≤ m) (hex : ∀ k, i ≤ k → k < m → d.both k = true ∧ atEnd endSeq k = false) (hstop : d.both m = false ∨ atEnd endSeq m = true) (hn : m - i < n) :
    scan d endSeq n i last = if i = m then last else some (m - 1) := by
  induction n generalizing i last with
  | zero => omega
  | succ n ih =>
    simp only [scan]
    by_cases h : i = m
    · subst h
      rw [if_pos rfl]
      rcases hstop with h | h
      · rw [h]; simp
      · rw [h]; simp
    · have h1 := hex i (Nat.le_refl i) (by omega)
      rw [h1.1, h1.2, ih (i + 1) (some i) (by omega) (fun k hk hkm => hex k (by omega) hkm) (by omega), if_neg h]
      simp only [Bool.false_eq_true, if_false, if_true]
      by_cases h2 : i + 1 = m
      · rw [if_pos h2, ← h2]; simp
      · rw [if_neg h2]

/-- Without a given end, the *last* file is not used: of the files `start`, ..., `m - 1` there are `m - start - 1` sequences. With a single file (or none) it is an
assertion. -/
theorem last_file_dropped (d : Disk F) (start m : Nat) (hd : ∀ i, d.limit ≤ i → d.both i = false) (h : FilesTo d start m) :
    (start + 2 ≤ m → numSeqs d start none = .ok (m - start - 1)) ∧ (m < start + 2 → numSeqs d start none = .error .assertion) := by
  obtain ⟨h1, h2, h3⟩ := h
  have hm : start < m → m ≤ d.limit := by
    intro hlt
    apply Nat.le_of_not_lt
    intro hc
    have := h2 (m - 1) (by omega) (by omega)
    rw [hd (m - 1) (by omega)] at this
    cases this
  by_cases hlim : start < d.limit + 1
  · have hs := scan_spec d none m (d.limit + 1 - start) start none h1 (fun k hk hkm => ⟨h2 k hk hkm, rfl⟩) (Or.inl h3) (by
      by_cases hsm : start < m
      · have := hm hsm; omega
      · omega)
    unfold numSeqs
    rw [hs]
    constructor
    · intro hlt
      rw [if_neg (by omega)]
      simp only [usedEnd]
      rw [if_pos (by omega)]
      congr 1; omega
    · intro hlt
      by_cases e : start = m
      · rw [if_pos e]; rfl
      · rw [if_neg e]
        simp only [usedEnd]
        rw [if_neg (by omega)]
  · have hsm : start = m := by
      apply Classical.byContradiction
      intro hne
      have := hm (by omega); omega
    constructor
    · intro hlt; omega
    · intro _
      have : d.limit + 1 - start = 0 := by omega
      unfold numSeqs
      rw [this]; rfl

/-- With a given end, all files from `start` up to it are used, and a missing one (or an empty range) is an assertion. -/
theorem given_end (d : Disk F) (start e : Nat) (hd : ∀ i, d.limit ≤ i → d.both i = false) :
    (start < e → (∀ i, start ≤ i → i < e → d.both i = true) → numSeqs d start (some e) = .ok (e - start)) ∧
    ((e ≤ start ∨ ∃ i, start ≤ i ∧ i < e ∧ d.both i = false) → numSeqs d start (some e) = .error .assertion) := by
  constructor
  · intro hse hall
    have hel : e ≤ d.limit := by
      apply Nat.le_of_not_lt
      intro hc
      have := hall (e - 1) (by omega) (by omega)
      rw [hd (e - 1) (by omega)] at this
      cases this
    have hs := scan_spec d (some e) e (d.limit + 1 - start) start none (by omega)
      (fun k hk hke => ⟨hall k hk hke, by simp only [atEnd, decide_eq_false_iff_not]; omega⟩) (Or.inr (by simp [atEnd])) (by omega)
    unfold numSeqs
    rw [hs, if_neg (by omega)]
    have he : (((e - 1 : Nat) : Int)) = (e : Int) - 1 := by omega
    simp only [usedEnd, Option.map_some, he, if_true]
    rw [if_pos hse]
  · intro hbad
    -- the loop stops at the first missing file
    have hstop : scan d (some e) (d.limit + 1 - start) start none = none ∨ ∃ l, scan d (some e) (d.limit + 1 - start) start none = some l ∧ l + 1 < e := by
      rcases hbad with h | ⟨i, hi1, hi2, hi3⟩
      · left
        cases hn : d.limit + 1 - start with
        | zero => rfl
        | succ n =>
          have : atEnd (some e) start = true := by simp only [atEnd, decide_eq_true_eq]; exact h
          simp [scan, this]
      · have gen : ∀ (n j : Nat) (last : Option Nat), j ≤ i → (last = none ∨ ∃ l, last = some l ∧ l + 1 = j) →
            (scan d (some e) n j last = none ∨ ∃ l, scan d (some e) n j last = some l ∧ l + 1 < e) := by
          intro n
          induction n with
          | zero =>
            intro j last hj hl
            rcases hl with rfl | ⟨l, rfl, hl⟩
            · left; rfl
            · right; exact ⟨l, rfl, by omega⟩
          | succ n ih =>
            intro j last hj hl
            have hae : atEnd (some e) j = false := by simp only [atEnd, decide_eq_false_iff_not]; omega
            simp only [scan, hae, Bool.false_eq_true, if_false]
            by_cases hb : d.both j = true
            · rw [if_pos hb]
              have hji : j ≠ i := by intro hc; rw [hc, hi3] at hb; cases hb
              exact ih (j + 1) (some j) (by omega) (Or.inr ⟨j, rfl, rfl⟩)
            · rw [if_neg hb]
              rcases hl with rfl | ⟨l, rfl, hl⟩
              · left; rfl
              · right; exact ⟨l, rfl, by omega⟩
        exact gen _ start none hi1 (Or.inl rfl)
    unfold numSeqs
    rcases hstop with h | ⟨l, h, hl⟩
    · rw [h]; simp [usedEnd]
    · rw [h]
      have : ¬ ((some l).map (fun l : Nat => (l : Int)) = some ((e : Int) - 1)) := by
        simp only [Option.map_some, Option.some.injEq]; omega
      simp only [usedEnd, if_neg this]

/-- The cache holds exactly the sequences `a`, ..., `b - 1` of the epoch, each with what is in its file. -/
def Window (d : Disk F) (s : St F) (a b : Nat) : Prop :=
  a ≤ b ∧ s.cache.map (fun x => some x) = (List.range' a (b - a)).map fun i => (s.index[i]?).map fun real => (i, d.content real)

theorem window_get (d : Disk F) (s : St F) (a b : Nat) (h : Window d s a b) (i : Nat) :
    (a ≤ i → i < b → ∃ real, s.index[i]? = some real ∧ cacheGet? s.cache i = some (d.content real)) ∧ ((i < a ∨ b ≤ i) → cacheGet? s.cache i = none) := by
  obtain ⟨hab, h⟩ := h
  generalize hn : b - a = n at h
  obtain ⟨index, cache⟩ := s
  simp only at h ⊢
  induction n generalizing a cache with
  | zero =>
    simp only [List.range'_zero, List.map_nil, List.map_eq_nil_iff] at h
    subst h
    exact ⟨fun _ _ => by omega, fun _ => rfl⟩
  | succ n ih =>
    cases cache with
    | nil => simp [List.range'_succ] at h
    | cons x c =>
      simp only [List.range'_succ, List.map_cons, List.cons.injEq] at h
      obtain ⟨h1, h2⟩ := h
      cases hr : index[a]? with
      | none => rw [hr] at h1; cases h1
      | some real =>
        rw [hr] at h1
        simp only [Option.map_some, Option.some.injEq] at h1
        subst h1
        obtain ⟨i1, i2⟩ := ih (a + 1) (by omega) (by omega) c h2
        constructor
        · intro hi1 hi2
          by_cases e : a = i
          · subst e; exact ⟨real, hr, by simp [cacheGet?]⟩
          · obtain ⟨r, q1, q2⟩ := i1 (by omega) hi2
            exact ⟨r, q1, by rw [← q2]; simp [cacheGet?, List.find?_cons, e]⟩
        · intro hi
          have e : a ≠ i := by omega
          rw [← i2 (by omega)]
          simp [cacheGet?, List.find?_cons, e]

theorem window_next (d : Disk F) (s : St F) (a b : Nat) (h : Window d s a b) : nextIdx s.cache = if a < b then b else 0 := by
  obtain ⟨hab, h⟩ := h
  have hl := congrArg List.getLast? h
  rw [List.getLast?_map, List.getLast?_map] at hl
  unfold nextIdx
  by_cases e : a < b
  · rw [if_pos e]
    have h1 : (List.range' a (b - a)).getLast? = some (b - 1) := by
      obtain ⟨n, hn⟩ : ∃ n, b - a = n + 1 := ⟨b - a - 1, by omega⟩
      rw [hn, List.range'_concat]
      simp; omega
    rw [h1] at hl
    cases hc : s.cache.getLast? with
    | none => rw [hc] at hl; cases hl
    | some x =>
      rw [hc] at hl
      simp only [Option.map_some, Option.some.injEq] at hl
      cases hr : s.index[b - 1]? with
      | none => rw [hr] at hl; cases hl
      | some real => rw [hr] at hl; simp only [Option.map_some, Option.some.injEq] at hl; subst hl; simp only; omega
  · rw [if_neg e]
    have : b - a = 0 := by omega
    rw [this] at h
    simp only [List.range'_zero, List.map_nil, List.map_eq_nil_iff] at h
    rw [h]; rfl

theorem window_cleanup (d : Disk F) (s : St F) (a b k : Nat) (h : Window d s a b) (hk : a ≤ k) :
    Window d { s with cache := cleanup k s.cache } (min k b) b ∧ (b ≤ k → cleanup k s.cache = []) := by
  obtain ⟨hab, h⟩ := h
  obtain ⟨index, cache⟩ := s
  simp only [Window] at h ⊢
  generalize hn : b - a = n at h
  induction n generalizing a cache with
  | zero =>
    simp only [List.range'_zero, List.map_nil, List.map_eq_nil_iff] at h
    subst h
    have : b - min k b = 0 := by omega
    rw [this]
    exact ⟨⟨by omega, rfl⟩, fun _ => rfl⟩
  | succ n ih =>
    cases cache with
    | nil => simp [List.range'_succ] at h
    | cons x c =>
      have h' := h
      simp only [List.range'_succ, List.map_cons, List.cons.injEq] at h
      obtain ⟨h1, h2⟩ := h
      cases hr : index[a]? with
      | none => rw [hr] at h1; cases h1
      | some real =>
        rw [hr] at h1
        simp only [Option.map_some, Option.some.injEq] at h1
        subst h1
        by_cases e : a < k
        · have hd : cleanup k ((a, d.content real) :: c) = cleanup k c := by simp [cleanup, List.dropWhile_cons, e]
          rw [hd]
          exact ih (a + 1) (by omega) (by omega) c (by omega) h2
        · have hak : a = k := by omega
          have hd : cleanup k ((a, d.content real) :: c) = (a, d.content real) :: c := by simp [cleanup, List.dropWhile_cons, e]
          rw [hd]
          have hmin : min k b = a := by omega
          rw [hmin, hn]
          exact ⟨⟨hab, h'⟩, fun hbk => by omega⟩

theorem window_push (d : Disk F) (s : St F) (a b : Nat) (h : Window d s a b) (real : Nat) (hr : s.index[b]? = some real) :
    Window d { s with cache := s.cache ++ [(b, d.content real)] } a (b + 1) := by
  obtain ⟨hab, h⟩ := h
  refine ⟨by omega, ?_⟩
  have : b + 1 - a = (b - a) + 1 := by omega
  simp only [this, List.range'_concat, List.map_append, h]
  have e : a + (b - a) = b := by omega
  simp [e, hr]

/-- Loading further than before, from a sequence which is still there (or from the beginning): works, and then exactly the sequences from the first one asked for are
there. -/
theorem loop_ok (d : Disk F) (n i : Nat) (s : St F) (a b : Nat) (h : Window d s a b) (hne : a < b ∨ (b = 0)) (hai : a ≤ i) (hib : i ≤ b)
    (hv : ∀ k, i ≤ k → k < i + n → ∃ real, s.index[k]? = some real ∧ d.valid real = true) :
    ∃ s', loadLoop d n i s = .ok s' ∧ s'.index = s.index ∧ Window d s' a (max b (i + n)) := by
  induction n generalizing i s b with
  | zero => exact ⟨s, rfl, rfl, by have : max b (i + 0) = b := by omega
                                   rw [this]; exact h⟩
  | succ n ih =>
    by_cases e : i < b
    · obtain ⟨real, _, hc⟩ := (window_get d s a b h i).1 hai e
      obtain ⟨s', p1, p2, p3⟩ := ih (i + 1) s b h hne (by omega) (by omega) (fun k hk hkn => hv k (by omega) (by omega))
      refine ⟨s', ?_, p2, ?_⟩
      · simp only [loadLoop, loadOne, hc, p1]
      · have : max b (i + (n + 1)) = max b (i + 1 + n) := by omega
        rw [this]; exact p3
    · have hib' : i = b := by omega
      subst hib'
      have hc := (window_get d s a i h i).2 (Or.inr (Nat.le_refl i))
      obtain ⟨real, hr, hval⟩ := hv i (Nat.le_refl i) (by omega)
      have hnx := window_next d s a i h
      have hnx' : i = nextIdx s.cache := by
        rw [hnx]
        rcases hne with h' | h'
        · rw [if_pos h']
        · subst h'; split <;> rfl
      have hpush := window_push d s a i h real hr
      obtain ⟨s', p1, p2, p3⟩ := ih (i + 1) _ (i + 1) hpush (Or.inl (by omega)) (by omega) (Nat.le_refl _) (fun k hk hkn => hv k (by omega) (by omega))
      refine ⟨s', ?_, p2, ?_⟩
      · have hone : loadOne d s i = .ok { s with cache := s.cache ++ [(i, d.content real)] } := by
          simp only [loadOne, hc, loadSeq, hr, hval, if_true]
          rw [if_pos hnx']
        simp only [loadLoop, hone, p1]
      · have : max i (i + (n + 1)) = max (i + 1) (i + 1 + n) := by omega
        rw [this]; exact p3

theorem load_overlapping (d : Disk F) (s : St F) (a b k e : Nat) (h : Window d s a b) (hk : a ≤ k ∧ k < b ∨ a = 0 ∧ b = 0 ∧ k = 0) (hke : k ≤ e)
    (hv : ∀ i, k ≤ i → i < e → ∃ real, s.index[i]? = some real ∧ d.valid real = true) :
    ∃ s', loadSeqs d s k e = .ok s' ∧ s'.index = s.index ∧ Window d s' k (max b e) := by
  have hc := (window_cleanup d s a b k h (by omega)).1
  have hmin : min k b = k := by omega
  rw [hmin] at hc
  obtain ⟨s', p1, p2, p3⟩ := loop_ok d (e - k) k { s with cache := cleanup k s.cache } k b hc (by omega) (Nat.le_refl k) (by omega)
    (fun i hi hin => hv i hi (by omega))
  refine ⟨s', p1, p2, ?_⟩
  have : max b (k + (e - k)) = max b e := by omega
  rw [this] at p3; exact p3

/-- At the beginning of an epoch the cache is empty, and the sequences from the first one can be loaded; what is then read for sequence `i` is the content of the file
of the `i`-th sequence in the order. -/
theorem first_load (d : Disk F) (start : Nat) (order : List Nat) (e : Nat) (he : e ≤ order.length) (hv : ∀ i ∈ order, d.valid (i + start) = true) :
    ∃ s, loadSeqs d (initOrder start order) 0 e = .ok s ∧ Window d s 0 e ∧
      ∀ i x, i < e → order[i]? = some x → getData s i = .ok (d.content (x + start)) := by
  have hw : Window d (initOrder start order) 0 0 := ⟨Nat.le_refl 0, rfl⟩
  obtain ⟨s, p1, p2, p3⟩ := load_overlapping d (initOrder start order) 0 0 0 e hw (Or.inr ⟨rfl, rfl, rfl⟩) (Nat.zero_le e) (by
    intro i _ hi
    have hlt : i < order.length := by omega
    refine ⟨order[i] + start, ?_, hv _ (List.getElem_mem hlt)⟩
    simp [initOrder, List.getElem?_map, List.getElem?_eq_getElem hlt])
  have hmax : max 0 e = e := by omega
  rw [hmax] at p3
  refine ⟨s, p1, p3, ?_⟩
  intro i x hi hx
  obtain ⟨real, q1, q2⟩ := (window_get d s 0 e p3 i).1 (Nat.zero_le i) hi
  rw [p2] at q1
  simp only [initOrder, List.getElem?_map, hx, Option.map_some, Option.some.injEq] at q1
  simp only [getData, q2, ← q1]

/-- Loading the next sequences without overlap fails: nothing is left in the cache, and then only sequence 0 is accepted. So going over the data in batches which
follow each other is an assertion at the second batch. -/
theorem next_batch_fails (d : Disk F) (s : St F) (a b k e : Nat) (h : Window d s a b) (hk : b ≤ k) (h0 : 0 < k) (hke : k < e) (hlen : k < s.index.length) :
    loadSeqs d s k e = .error .assertion := by
  have hab := h.1
  have hc := (window_cleanup d s a b k h (by omega)).2 hk
  obtain ⟨n, hn⟩ : ∃ n, e - k = n + 1 := ⟨e - k - 1, by omega⟩
  unfold loadSeqs
  rw [hc, hn]
  have hz : nextIdx ([] : List (Nat × F)) = 0 := rfl
  have hone : loadOne d { s with cache := [] } k = .error .assertion := by
    simp only [loadOne, cacheGet?, List.find?_nil, Option.map_none, loadSeq, List.getElem?_eq_getElem hlen, hz]
    split
    · rw [if_neg (by omega)]
    · rfl
  simp only [loadLoop, hone]

/-- Going back is refused as well. -/
theorem going_back_fails (d : Disk F) (s : St F) (a b k e : Nat) (h : Window d s a b) (hab : a < b) (hk : k < a) (hke : k < e) (hlen : k < s.index.length) :
    loadSeqs d s k e = .error .assertion := by
  have hc : cleanup k s.cache = s.cache := by
    obtain ⟨_, h⟩ := h
    obtain ⟨n, hn⟩ : ∃ n, b - a = n + 1 := ⟨b - a - 1, by omega⟩
    rw [hn] at h
    cases hs : s.cache with
    | nil => rfl
    | cons x c =>
      rw [hs] at h
      simp only [List.range'_succ, List.map_cons, List.cons.injEq] at h
      cases hr : s.index[a]? with
      | none => rw [hr] at h; cases h.1
      | some real =>
        rw [hr] at h
        have hx : x = (a, d.content real) := by simpa using h.1
        subst hx
        have : ¬ a < k := by omega
        simp [cleanup, List.dropWhile_cons, this]
  obtain ⟨n, hn⟩ : ∃ n, e - k = n + 1 := ⟨e - k - 1, by omega⟩
  unfold loadSeqs
  rw [hc, hn]
  have hg := (window_get d s a b h k).2 (Or.inl hk)
  have hnx := window_next d s a b h
  rw [if_pos hab] at hnx
  have hone : loadOne d { s with cache := s.cache } k = .error .assertion := by
    simp only [loadOne, hg, loadSeq, List.getElem?_eq_getElem hlen, hnx]
    split
    · rw [if_neg (by omega)]
    · rfl
  simp only [loadLoop, hone]

/-- The length of a sequence: of one in the cache, or of the next one, which is then loaded as well. -/
theorem length_of (d : Disk F) (s : St F) (a b : Nat) (h : Window d s a b) (hab : a < b) (i real : Nat) (hr : s.index[i]? = some real) :
    (a ≤ i → i < b → getLength d s i = .ok (d.content real, s)) ∧
    (i = b → d.valid real = true → ∃ s', getLength d s i = .ok (d.content real, s') ∧ Window d s' a (b + 1)) ∧
    (i < a ∨ b < i → getLength d s i = .error .assertion) := by
  have hnx := window_next d s a b h
  rw [if_pos hab] at hnx
  refine ⟨?_, ?_, ?_⟩
  · intro h1 h2
    obtain ⟨r, q1, q2⟩ := (window_get d s a b h i).1 h1 h2
    rw [hr] at q1; cases q1
    simp only [getLength, loadOne, q2, getData]
  · rintro rfl hv
    have hg := (window_get d s a i h i).2 (Or.inr (Nat.le_refl i))
    have hpush := window_push d s a i h real hr
    refine ⟨_, ?_, hpush⟩
    have hone : loadOne d s i = .ok { s with cache := s.cache ++ [(i, d.content real)] } := by
      simp only [loadOne, hg, loadSeq, hr, hv, if_true, hnx]
    obtain ⟨r, q1, q2⟩ := (window_get d _ a (i + 1) hpush i).1 (by omega) (by omega)
    simp only at q1 q2
    rw [hr] at q1; cases q1
    simp only [getLength, hone, getData, q2]
  · intro hi
    have hg := (window_get d s a b h i).2 (by omega)
    have hone : loadOne d s i = .error .assertion := by
      simp only [loadOne, hg, loadSeq, hr, hnx]
      split
      · rw [if_neg (by omega)]
      · rfl
    simp only [getLength, hone]

def exDisk : Disk Nat := ⟨fun i => decide (i < 4), 4, fun _ => true, fun i => 100 + i⟩
-- four files, three sequences
example : numSeqs exDisk 0 none = .ok 3 ∧ numSeqs exDisk 0 (some 4) = .ok 4 ∧ numSeqs exDisk 3 none = .error .assertion := by decide +kernel
example : FilesTo exDisk 0 4 := ⟨by decide, by intro i _ h; simpa [exDisk] using h, rfl⟩
def twoBatches (k : Nat) : Res Nat :=
  match loadSeqs exDisk (initOrder 0 [2, 0, 1, 3]) 0 2 with
  | .error e => .error e
  | .ok s =>
    match loadSeqs exDisk s k 4 with
    | .error e => .error e
    | .ok s' => getData s' 3
example : twoBatches 1 = .ok 103 ∧ twoBatches 2 = .error .assertion := by decide +kernel

end Verif.NpDump
