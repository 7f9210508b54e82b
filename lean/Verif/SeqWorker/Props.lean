import Verif.SeqWorker.Model
import Verif.SeqWorker.Spec
import Mathlib.Data.List.Nodup
/-
Property theorems about the prefetching sequence worker (C43).
-/
namespace Verif.SeqWorker
open Verif.Py Spec

/-- The entries `c, c+1, ..., c+n-1` of `ds`, as cached. -/
def seg {α : Type} (ds : List α) (c n : Nat) : List (Nat × α) :=
  (List.range' c n).filterMap (fun i => (ds[i]?).map (fun x => (i, x)))

theorem seg_zero {α : Type} (ds : List α) (c : Nat) : seg ds c 0 = [] := rfl

theorem seg_succ {α : Type} (ds : List α) (c n : Nat) (x : α) (h : ds[c]? = some x) :
    seg ds c (n + 1) = (c, x) :: seg ds (c + 1) n := by
  simp [seg, List.range'_succ, h]

theorem seg_snoc {α : Type} (ds : List α) (c n : Nat) (x : α) (h : ds[c + n]? = some x) :
    seg ds c (n + 1) = seg ds c n ++ [(c + n, x)] := by
  simp [seg, List.range'_concat, h]

theorem seg_length {α : Type} (ds : List α) (c n : Nat) (h : c + n ≤ ds.length) : (seg ds c n).length = n := by
  induction n generalizing c with
  | zero => rfl
  | succ n ih =>
    have hc : c < ds.length := by omega
    rw [seg_succ ds c n ds[c] (List.getElem?_eq_getElem hc), List.length_cons, ih (c + 1) (by omega)]

theorem seg_getLast {α : Type} (ds : List α) (c n : Nat) (h : c + (n + 1) ≤ ds.length) :
    ∃ x, ds[c + n]? = some x ∧ (seg ds c (n + 1)).getLast? = some (c + n, x) := by
  have hc : c + n < ds.length := by omega
  refine ⟨ds[c + n], List.getElem?_eq_getElem hc, ?_⟩
  rw [seg_snoc ds c n _ (List.getElem?_eq_getElem hc)]; simp

theorem seg_dropWhile {α : Type} (ds : List α) (c n i : Nat) (h : c + n ≤ ds.length) (hci : c ≤ i) :
    (seg ds c n).dropWhile (fun e => decide (e.1 < i)) = if i < c + n then seg ds i (c + n - i) else [] := by
  induction n generalizing c with
  | zero => simp [seg_zero]; intro h1; omega
  | succ n ih =>
    have hc : c < ds.length := by omega
    rw [seg_succ ds c n ds[c] (List.getElem?_eq_getElem hc), List.dropWhile_cons]
    by_cases hlt : c < i
    · simp only [hlt, decide_true, if_true]
      rw [ih (c + 1) (by omega) (by omega)]
      have : c + 1 + n = c + (n + 1) := by omega
      rw [this]
    · have : i = c := by omega
      subst this
      simp only [Nat.lt_irrefl, decide_false, Bool.false_eq_true, if_false]
      rw [if_pos (by omega)]
      have : i + (n + 1) - i = n + 1 := by omega
      rw [this, seg_succ ds i n ds[i] (List.getElem?_eq_getElem hc)]

/-- The state of the worker is consistent: the cache is the segment `[c, next)`, it starts at or before the last
requested index `lo`, and everything before `nlo` was loaded (unless the end was passed). -/
structure Inv {α : Type} (ds : List α) (lo nlo : Nat) (w : W α) : Prop where
  ex : ∃ c, c ≤ w.next ∧ w.cache = seg ds c (w.next - c) ∧ c ≤ lo
  le : w.next ≤ ds.length
  nlo : nlo ≤ w.next ∨ ds.length ≤ lo

theorem addToCache_some {α : Type} (ds : List α) (buffer : Nat) (w w' : W α)
    (ha : addToCache ds buffer w = some w') :
    ∃ x, ds[w.next]? = some x ∧ w' = { cache := w.cache ++ [(w.next, x)], next := w.next + 1 } ∧
      w.next < ds.length ∧ w.cache.length < buffer := by
  unfold addToCache at ha
  split at ha
  · simp at ha
  · rename_i hlen
    split at ha
    · simp at ha
    · rename_i x hx
      injection ha with ha
      have hlt : w.next < ds.length := by
        by_contra hc
        rw [List.getElem?_eq_none (by omega)] at hx; simp at hx
      exact ⟨x, hx, ha.symm, hlt, by omega⟩

theorem addToCache_inv {α : Type} (ds : List α) (buffer lo nlo : Nat) (w w' : W α) (h : Inv ds lo nlo w)
    (ha : addToCache ds buffer w = some w') : Inv ds lo nlo w' := by
  obtain ⟨x, hx, rfl, hlt, _⟩ := addToCache_some ds buffer w w' ha
  obtain ⟨c, h1, h2, h3⟩ := h.ex
  constructor
  · refine ⟨c, by simp; omega, ?_, h3⟩
    simp only
    have : w.next + 1 - c = (w.next - c) + 1 := by omega
    have h4 : c + (w.next - c) = w.next := by omega
    rw [this, seg_snoc ds c (w.next - c) x (by rw [h4]; exact hx), ← h2, h4]
  · simp; omega
  · simp; have := h.nlo; omega

theorem prefetch_inv {α : Type} (ds : List α) (buffer lo nlo k : Nat) (w : W α) (h : Inv ds lo nlo w) :
    Inv ds lo nlo (prefetch ds buffer k w) := by
  induction k generalizing w with
  | zero => exact h
  | succ k ih =>
    unfold prefetch
    split
    · exact h
    · rename_i w' hw; exact ih w' (addToCache_inv ds buffer lo nlo w w' h hw)

theorem searchCache_head {α : Type} (i : Nat) (x : α) (l : List (Nat × α)) :
    searchCache i ((i, x) :: l) = .ok (some x) := by
  simp [searchCache, pyAssert, bind, Except.bind]

/-- The fill loop reaches index `i` if the buffer is large enough. -/
theorem fillLoop_ok {α : Type} (ds : List α) (buffer i : Nat) (hi : i < ds.length) :
    ∀ (d fuel c : Nat) (w : W α), w.next + d = i → d < fuel → c ≤ w.next → w.cache = seg ds c (w.next - c) →
      w.cache.length + d < buffer →
      ∃ w', fillLoop ds buffer i fuel w = .ok (ds[i]?, w') ∧ w'.cache = seg ds c (w'.next - c) ∧ w'.next = i + 1 := by
  intro d
  induction d with
  | zero =>
    intro fuel c w h1 h2 h3 h4 h5
    obtain ⟨fuel, rfl⟩ : ∃ f, fuel = f + 1 := ⟨fuel - 1, by omega⟩
    have hx : ds[w.next]? = some ds[i] := by rw [show w.next = i by omega]; exact List.getElem?_eq_getElem hi
    have hnot : ¬ (w.cache.length ≥ buffer) := by omega
    have ha : addToCache ds buffer w = some { cache := w.cache ++ [(w.next, ds[i])], next := w.next + 1 } := by
      simp only [addToCache, hnot, if_false, hx]
    refine ⟨{ cache := w.cache ++ [(i, ds[i])], next := i + 1 },
      by simp [fillLoop, ha, pyAssert, bind, Except.bind, show w.next = i by omega], ?_, ?_⟩
    · simp only
      have h6 : i + 1 - c = (w.next - c) + 1 := by omega
      have h7 : c + (w.next - c) = w.next := by omega
      rw [h6, seg_snoc ds c _ ds[i] (by rw [h7]; exact hx), ← h4, h7, show w.next = i by omega]
    · rfl
  | succ d ih =>
    intro fuel c w h1 h2 h3 h4 h5
    obtain ⟨fuel, rfl⟩ : ∃ f, fuel = f + 1 := ⟨fuel - 1, by omega⟩
    have hlt : w.next < ds.length := by omega
    have hx : ds[w.next]? = some ds[w.next] := List.getElem?_eq_getElem hlt
    have hnot : ¬ (w.cache.length ≥ buffer) := by omega
    have ha : addToCache ds buffer w = some { cache := w.cache ++ [(w.next, ds[w.next])], next := w.next + 1 } := by
      simp only [addToCache, hnot, if_false, hx]
    obtain ⟨w', r1, r2, r3⟩ := ih fuel c { cache := w.cache ++ [(w.next, ds[w.next])], next := w.next + 1 }
      (by simp; omega) (by omega) (by simp; omega) (by
        simp only
        have h6 : w.next + 1 - c = (w.next - c) + 1 := by omega
        have h7 : c + (w.next - c) = w.next := by omega
        rw [h6, seg_snoc ds c _ ds[w.next] (by rw [h7]; exact hx), ← h4, h7]) (by simp; omega)
    refine ⟨w', ?_, r2, r3⟩
    have h8 : ¬ (w.next = i) := by omega
    have h9 : w.next ≤ i := by omega
    simp [fillLoop, ha, pyAssert, bind, Except.bind, h8, h9, r1]

/-- One request in a consistent state gives exactly the requested seq, or `None` past the end. -/
theorem request_ok {α : Type} (ds : List α) (buffer lo nlo i : Nat) (w : W α) (h : Inv ds lo nlo w)
    (hlo : lo ≤ i) (hi : i < nlo + buffer) :
    ∃ w', request ds buffer w i = .ok (ds[i]?, w') ∧ Inv ds i (i + 1) w' ∧
      (i < ds.length → i ≤ nlo → ∃ x, w'.cache.head? = some (i, x)) := by
  obtain ⟨c, h1, h2, h3⟩ := h.ex
  have hle := h.le
  have hnlo := h.nlo
  have hd : w.cache.dropWhile (fun e => decide (e.1 < i)) = if i < w.next then seg ds i (w.next - i) else [] := by
    rw [h2, seg_dropWhile ds c (w.next - c) i (by omega) (by omega)]
    rw [show c + (w.next - c) = w.next by omega]
  unfold request
  rw [hd]
  by_cases hin : i < w.next
  · -- in the cache
    rw [if_pos hin]
    have hlt : i < ds.length := by omega
    have hseg : seg ds i (w.next - i) = (i, ds[i]) :: seg ds (i + 1) (w.next - i - 1) := by
      rw [show w.next - i = (w.next - i - 1) + 1 by omega, seg_succ ds i _ ds[i] (List.getElem?_eq_getElem hlt)]
      simp
    obtain ⟨y, hy1, hy2⟩ := seg_getLast ds i (w.next - i - 1) (by omega)
    rw [show w.next - i - 1 + 1 = w.next - i by omega] at hy2
    have hgl : getFromCache (seg ds i (w.next - i)) i = .ok (some ds[i]) := by
      unfold getFromCache
      rw [hy2]
      simp only
      rw [if_neg (by omega), hseg, searchCache_head]
    refine ⟨{ w with cache := seg ds i (w.next - i) }, ?_, ?_, ?_⟩
    · unfold get
      rw [hseg] at hgl
      simp only [hseg, bind, Except.bind, Nat.lt_irrefl, if_false, hgl]
      rw [List.getElem?_eq_getElem hlt]
    · exact ⟨⟨i, by simp; omega, rfl, Nat.le_refl _⟩, hle, by simp; omega⟩
    · intro _ _; exact ⟨ds[i], by simp [hseg]⟩
  · rw [if_neg hin]
    unfold get
    simp only [getFromCache, List.getLast?_nil, bind, Except.bind]
    by_cases hlt : i < ds.length
    · rw [if_pos hlt]
      obtain ⟨w', r1, r2, r3⟩ := fillLoop_ok ds buffer i hlt (i - w.next) (buffer + 1) w.next
        { w with cache := [] } (by simp; omega) (by omega) (by simp) (by simp [seg_zero]) (by simp; omega)
      have hle2 : w.next ≤ i := by omega
      have hlen : w'.cache.length = i + 1 - w.next := by
        rw [r2, r3, seg_length ds _ _ (by omega)]
      -- the cache keeps the entries from `next` on
      refine ⟨w', ?_, ?_, ?_⟩
      · simp [pyAssert, hle2, r1]
      · refine ⟨⟨w.next, by omega, r2, by omega⟩, by omega, by omega⟩
      · intro _ hnl
        have hni : w.next = i := by omega
        rw [r2, r3, hni, show i + 1 - i = 0 + 1 by omega, seg_succ ds i 0 ds[i] (List.getElem?_eq_getElem hlt)]
        exact ⟨ds[i], rfl⟩
    · rw [if_neg hlt]
      refine ⟨{ w with cache := [] }, ?_, ?_, ?_⟩
      · rw [List.getElem?_eq_none (by omega)]
      · exact ⟨⟨w.next, by simp, by simp [seg_zero], by omega⟩, hle, by simp; omega⟩
      · intro h; omega

theorem serve_inv {α : Type} (ds : List α) (buffer : Nat) :
    ∀ (reqs : List (Nat × Nat)) (lo : Nat) (w : W α), Inv ds lo (lo + 1) w →
      Follows buffer lo (reqs.map Prod.snd) →
      ∃ w', serve ds buffer w reqs = .ok (reqs.map (fun r => ds[r.2]?), w') := by
  intro reqs
  induction reqs with
  | nil => intro lo w _ _; exact ⟨w, rfl⟩
  | cons r reqs ih =>
    obtain ⟨k, i⟩ := r
    intro lo w h hf
    obtain ⟨h1, h2, h3⟩ := hf
    obtain ⟨w1, r1, r2, _⟩ := request_ok ds buffer lo (lo + 1) i _ (prefetch_inv ds buffer lo (lo + 1) k w h) h1 (by omega)
    obtain ⟨w2, r3⟩ := ih i w1 r2 h3
    exact ⟨w2, by simp [serve, r1, r3, bind, Except.bind]⟩

theorem inv_init {α : Type} (ds : List α) : Inv ds 0 0 ({} : W α) :=
  ⟨⟨0, Nat.le_refl _, rfl, Nat.le_refl _⟩, Nat.zero_le _, Or.inl (Nat.le_refl _)⟩

/-- C43. Whatever the prefetching does in between, a worker answers every legal history of requests without an
exception, and each answer is exactly the requested seq of the dataset (`None` past its end). -/
theorem worker_serves {α : Type} (ds : List α) (buffer : Nat) (reqs : List (Nat × Nat))
    (hl : Legal buffer (reqs.map Prod.snd)) :
    ∃ w', serve ds buffer {} reqs = .ok (reqs.map (fun r => ds[r.2]?), w') := by
  cases reqs with
  | nil => exact ⟨_, rfl⟩
  | cons r reqs =>
    obtain ⟨k, i⟩ := r
    obtain ⟨h1, h2⟩ := hl
    obtain ⟨w1, r1, r2, _⟩ := request_ok ds buffer 0 0 i _ (prefetch_inv ds buffer 0 0 k {} (inv_init ds)) (Nat.zero_le _)
      (by omega)
    obtain ⟨w2, r3⟩ := serve_inv ds buffer reqs i w1 r2 h2
    exact ⟨w2, by simp [serve, r1, r3, bind, Except.bind]⟩

theorem follows_range' (buffer : Nat) (hb : 0 < buffer) : ∀ (m s : Nat), Follows buffer s (List.range' (s + 1) m) := by
  intro m
  induction m with
  | zero => intro s; exact trivial
  | succ m ih => intro s; exact ⟨by omega, by omega, ih (s + 1)⟩

/-- C43. Reading the seqs one after the other (and past the end) is always legal for a buffer of at least one seq. -/
theorem sequential_legal (buffer n : Nat) (hb : 0 < buffer) : Legal buffer (List.range n) := by
  cases n with
  | zero => exact trivial
  | succ n =>
    rw [List.range_eq_range', List.range'_succ]
    exact ⟨hb, follows_range' buffer hb n 0⟩

theorem get_backwards {α : Type} (ds : List α) (buffer j i : Nat) (x : α) (w : W α)
    (h : w.cache.head? = some (j, x)) (hij : i < j) :
    request ds buffer w i = .error (.other "cannot go backwards") := by
  obtain ⟨cache, next⟩ := w
  cases cache with
  | nil => simp at h
  | cons e l =>
    simp at h
    subst h
    have hn : ¬ (j < i) := by omega
    simp [request, get, List.dropWhile_cons, hn, hij, bind, Except.bind]

theorem prefetch_head {α : Type} (ds : List α) (buffer k : Nat) (w : W α) (e : Nat × α)
    (h : w.cache.head? = some e) : (prefetch ds buffer k w).cache.head? = some e := by
  induction k generalizing w with
  | zero => exact h
  | succ k ih =>
    unfold prefetch
    split
    · exact h
    · rename_i w' hw
      obtain ⟨x, _, rfl, _, _⟩ := addToCache_some ds buffer w w' hw
      apply ih
      cases hc : w.cache with
      | nil => simp [hc] at h
      | cons a l => simpa [hc] using h

theorem serve_seq {α : Type} (ds : List α) (buffer : Nat) (hb : 0 < buffer) :
    ∀ (ks : List Nat) (s : Nat) (w : W α), Inv ds s (s + 1) w → (∃ x, w.cache.head? = some (s, x)) →
      s + ks.length < ds.length →
      ∃ xs w', serve ds buffer w (ks.zip (List.range' (s + 1) ks.length)) = .ok (xs, w') ∧
        ∃ x, w'.cache.head? = some (s + ks.length, x) := by
  intro ks
  induction ks with
  | nil => intro s w _ hx _; exact ⟨[], w, rfl, by simpa using hx⟩
  | cons k ks ih =>
    intro s w h hx hlen
    simp only [List.length_cons] at hlen
    obtain ⟨w1, r1, r2, r3⟩ := request_ok ds buffer s (s + 1) (s + 1) _ (prefetch_inv ds buffer s (s + 1) k w h)
      (by omega) (by omega)
    obtain ⟨xs, w2, h1, h2⟩ := ih (s + 1) w1 r2 (r3 (by omega) (by omega)) (by omega)
    refine ⟨ds[s + 1]? :: xs, w2, ?_, ?_⟩
    · simp [List.range'_succ, serve, r1, h1, bind, Except.bind]
    · rw [List.length_cons, show s + (ks.length + 1) = s + 1 + ks.length by omega]; exact h2

/-- C43. A worker cannot be rewound: after reading seqs `0 .. j` one by one (with any prefetching), a request for an
earlier seq raises. The only way back is a new `init_seq_order` in the worker. -/
theorem worker_no_rewind {α : Type} (ds : List α) (buffer j i k k0 : Nat) (ks : List Nat) (hb : 0 < buffer)
    (hks : ks.length = j) (hj : j < ds.length) (hij : i < j) :
    serve ds buffer {} ((k0 :: ks).zip (List.range (j + 1)) ++ [(k, i)]) = .error (.other "cannot go backwards") := by
  obtain ⟨w1, r1, r2, r3⟩ := request_ok ds buffer 0 0 0 _ (prefetch_inv ds buffer 0 0 k0 {} (inv_init ds)) (Nat.zero_le _)
    (by omega)
  obtain ⟨xs, w2, h1, x, h2⟩ := serve_seq ds buffer hb ks 0 w1 r2 (r3 (by omega) (by omega)) (by omega)
  have happ : ∀ (a b : List (Nat × Nat)) (w w' : W α) (xs : List (Option α)) (e : Err),
      serve ds buffer w a = .ok (xs, w') → serve ds buffer w' b = .error e → serve ds buffer w (a ++ b) = .error e := by
    intro a
    induction a with
    | nil => intro b w w' xs e h1 h2; simp [serve] at h1; obtain ⟨_, rfl⟩ := h1; exact h2
    | cons r a ih =>
      intro b w w' xs e h1 h2
      obtain ⟨k, i⟩ := r
      simp only [serve, bind, Except.bind, List.cons_append] at h1 ⊢
      cases hr : request ds buffer (prefetch ds buffer k w) i with
      | error e => simp [hr] at h1
      | ok y =>
        simp only [hr] at h1 ⊢
        cases hs : serve ds buffer y.2 a with
        | error e => simp [hs] at h1
        | ok z =>
          simp only [hs] at h1
          injection h1 with h1
          injection h1 with h3 h4
          rw [ih b y.2 z.2 z.1 e hs (by rw [h4]; exact h2)]
  refine happ _ _ _ w2 (ds[0]? :: xs) _ ?_ ?_
  · rw [List.range_eq_range', List.range'_succ, ← hks]
    simp [serve, r1, h1, bind, Except.bind]
  · have h3 := prefetch_head ds buffer k w2 _ h2
    have h4 := get_backwards ds buffer (0 + ks.length) i x _ h3 (by omega)
    simp [serve, h4, bind, Except.bind]

example : serve ["a", "b", "c"] 2 {} [(1, 0), (0, 1), (5, 2), (0, 2), (0, 4)]
    = .ok ([some "a", some "b", some "c", some "c", none], ⟨[], 3⟩) := by decide
example : Legal 2 [0, 1, 2, 2, 4] := by simp [Legal, Follows]

end Verif.SeqWorker
