import Verif.HdfCache.Steps
/-
The invariant of the whole system, for a reader which waits for the loading threads.
-/
namespace Verif.HdfCache
open Verif.Py

variable {F T : Type}

/-- The threads: all finished but at most one. -/
def Shape (ts : List (List Act)) (th : List Act) : Prop :=
  (th = [] ∧ ∀ t ∈ ts, t = []) ∨ ∃ t1 t2, ts = t1 ++ th :: t2 ∧ (∀ t ∈ t1, t = []) ∧ ∀ t ∈ t2, t = []

/-- The invariant of a run. -/
def Inv (c : Cfg F T) (base : List Nat) (s : Sys F T) : Prop :=
  (s.st = init c ∧ s.threads = [] ∧ s.main = .idle ∧ s.order = [] ∧ ∀ x y, s.win = some (x, y) → y ≤ x) ∨
  ∃ a b th, Ok c base s.st s.order a b th ∧ Shape s.threads th ∧
    (∀ x y, s.main = .waiting x y → x = a ∧ y ≤ b ∧ y ≤ s.order.length ∧ x < y ∧ s.win = none) ∧
    (∀ x y, s.win = some (x, y) → y ≤ s.order.length ∧ ∀ i, x ≤ i → i < y → i ∈ s.st.preload)

theorem shape_quiet {ts : List (List Act)} {th : List Act} (h : Shape ts th) (hq : ∀ t ∈ ts, t = []) : th = [] := by
  rcases h with h | ⟨t1, t2, rfl, _, _⟩
  · exact h.1
  · exact hq th (by simp)

theorem shape_split {ts t1 t2 : List (List Act)} {th r : List Act} {a : Act} (h : Shape ts th) (he : ts = t1 ++ (a :: r) :: t2) :
    th = a :: r ∧ (∀ t ∈ t1, t = []) ∧ ∀ t ∈ t2, t = [] := by
  subst he
  rcases h with ⟨_, h⟩ | ⟨u1, u2, he, hu1, hu2⟩
  · exact absurd (h (a :: r) (by simp)) (by simp)
  · rw [List.append_eq_append_iff] at he
    rcases he with ⟨w, h1, h2⟩ | ⟨w, h1, h2⟩
    · cases w with
      | nil =>
        simp only [List.append_nil] at h1
        simp only [List.nil_append, List.cons.injEq] at h2
        obtain ⟨rfl, rfl⟩ := h2
        subst h1
        exact ⟨rfl, hu1, hu2⟩
      | cons x w =>
        simp only [List.cons_append, List.cons.injEq] at h2
        exact absurd (hu1 (a :: r) (by rw [h1]; simp [h2.1])) (by simp)
    · cases w with
      | nil =>
        simp only [List.append_nil] at h1
        simp only [List.nil_append, List.cons.injEq] at h2
        obtain ⟨rfl, rfl⟩ := h2
        subst h1
        exact ⟨rfl, hu1, hu2⟩
      | cons x w =>
        simp only [List.cons_append, List.cons.injEq] at h2
        exact absurd (hu2 (a :: r) (by rw [h2.2]; simp)) (by simp)

theorem Ok.fin {c : Cfg F T} {base : List Nat} {st : St F T} {order : List Nat} {a b : Nat} (h : Ok c base st order a b []) :
    (∀ i, a ≤ i → i < b → i ∈ st.preload) ∧ (∀ i, held (lens c st.seqIndex) st.ivs i ≠ none → i ∈ st.preload) := by
  have ht := h.thread
  generalize hx : ([] : List Act) = th at ht
  cases ht with
  | fin h1 h2 => exact ⟨h1, h2⟩
  | check => simp at hx
  | insert => simp at hx
  | markRest => simp at hx
  | loop => simp at hx
  | wrI => simp at hx
  | mark => simp at hx

theorem Ok.pend {c : Cfg F T} {base : List Nat} {st : St F T} {order : List Nat} {a b : Nat} {th : List Act}
    (h : Ok c base st order a b th) (hne : th ≠ []) : st.preloadEnd = b := by
  cases h.thread with
  | fin => exact absurd rfl hne
  | check _ _ k => exact k
  | insert _ _ k => exact k
  | markRest k => exact k.pend
  | loop k => exact k.pend
  | wrI k => exact k.pend
  | mark k => exact k.pend

theorem olen {c : Cfg F T} {base : List Nat} {st : St F T} {order : List Nat} {a b : Nat} {th : List Act}
    (h : Ok c base st order a b th) : order.length = st.seqIndex.length := by
  rw [h.operm.length_eq, h.perm.length_eq]

theorem loadSeqs_empty {c : Cfg F T} {st : St F T} {a b : Nat} (hb : b = 0) {st' : St F T} {th : Option (List Act)}
    (h : loadSeqs c st a b = .ok (st', th)) : st' = st ∧ th = none ∧ a = 0 := by
  subst hb
  rcases Nat.eq_zero_or_pos a with rfl | h0
  · simp [loadSeqs, pyAssert, isCached, bind, Except.bind] at h
    exact ⟨h.1.symm, h.2.symm, rfl⟩
  · simp [loadSeqs, pyAssert, show ¬ a ≤ 0 by omega, bind, Except.bind] at h

theorem loadSeqs_le {c : Cfg F T} {st : St F T} {a b : Nat} {r : St F T × Option (List Act)}
    (h : loadSeqs c st a b = .ok r) : a ≤ b := by
  by_contra hcon
  simp [loadSeqs, pyAssert, hcon, bind, Except.bind] at h

theorem wait_ok {c : Cfg F T} {base : List Nat} {st : St F T} {order : List Nat} {a b x y : Nat} {th : List Act}
    (h : Ok c base st order a b th) (hx : x = a) (hy : y ≤ b) (hxy : x < y) :
    (waitCached st x y = some true ∧ ∀ i, x ≤ i → i < y → i ∈ st.preload) ∨ (waitCached st x y = none ∧ th ≠ []) := by
  subst hx
  by_cases hth : th = []
  · left
    subst hth
    have hall : ∀ i, x ≤ i → i < y → i ∈ st.preload := fun i h1 h2 => h.fin.1 i h1 (by omega)
    have hc := isCached_iff.2 hall
    refine ⟨?_, hall⟩
    unfold waitCached
    rw [if_neg (by omega), hc]
    simp
  · have hp := h.pend hth
    unfold waitCached
    rw [if_neg (by omega), if_pos (by omega)]
    by_cases hc : isCached st x y = true
    · left
      rw [if_pos hc]
      exact ⟨rfl, isCached_iff.1 hc⟩
    · right
      rw [if_neg hc]
      exact ⟨rfl, hth⟩

theorem inv_step {c : Cfg F T} {base : List Nat} (hb : BaseOk c base) (hf : FilesOk c) {s s' : Sys F T} (h : Inv c base s)
    (hs : Step c (fun si => si.Perm base) true s s') : Inv c base s' := by
  cases hs with
  | act ht hx =>
    rename_i t1 t2 a r more st'
    rcases h with ⟨_, h0, _⟩ | ⟨p, q, th, hok, hsh, hm, hw⟩
    · rw [h0] at ht
      simp at ht
    · obtain ⟨rfl, h1, h2⟩ := shape_split hsh ht
      obtain ⟨st'', more', he, hok', hpre⟩ := exec_ok hb hf hok
      rw [hx] at he
      simp only [Except.ok.injEq, Prod.mk.injEq] at he
      obtain ⟨rfl, rfl⟩ := he
      refine .inr ⟨p, q, _, hok', .inr ⟨t1, t2, rfl, h1, h2⟩, hm, ?_⟩
      intro x y hxy
      exact ⟨(hw x y hxy).1, fun i hi1 hi2 => hpre i ((hw x y hxy).2 i hi1 hi2)⟩
  | die ht hx =>
    rename_i t1 t2 a r e
    rcases h with ⟨_, h0, _⟩ | ⟨p, q, th, hok, hsh, hm, hw⟩
    · rw [h0] at ht
      simp at ht
    · obtain ⟨rfl, h1, h2⟩ := shape_split hsh ht
      obtain ⟨st'', more', he, _⟩ := exec_ok hb hf hok
      rw [hx] at he
      simp at he
  | epoch hm hj ha hx =>
    rename_i si st' th r
    have hq := hj rfl
    have key : ∃ st'' th' r', initSeqOrder c s.st si = .ok (st'', th', r') ∧ ∃ a' b', Ok c base st'' si a' b' (th'.getD []) := by
      rcases h with ⟨h0, _⟩ | ⟨p, q, th, hok, hsh, _⟩
      · exact initSeqOrder_ok (order := []) (a := 0) (b := 0) hb ha (.inl h0)
      · have := shape_quiet hsh hq
        subst this
        exact initSeqOrder_ok hb ha (.inr hok)
    obtain ⟨st'', th', r', he, a', b', hok⟩ := key
    rw [hx] at he
    simp only [Except.ok.injEq, Prod.mk.injEq] at he
    obtain ⟨rfl, rfl, rfl⟩ := he
    refine .inr ⟨a', b', _, hok, ?_, by simp, by simp⟩
    cases th with
    | none => exact .inl ⟨rfl, fun t ht => hq t (by simpa using ht)⟩
    | some t => exact .inr ⟨s.threads, [], rfl, hq, by simp⟩
  | load hm hj hb' hx =>
    rename_i a b st' th
    have hq := hj rfl
    rcases h with ⟨h0, _, _, ho, _⟩ | ⟨p, q, th', hok, hsh, _⟩
    · rw [ho] at hb'
      have := loadSeqs_empty (by simpa using hb') hx
      simp at this
    · have := shape_quiet hsh hq
      subst this
      have hle := loadSeqs_le hx
      rcases loadSeqs_ok hb hok hle (by rw [← olen hok]; exact hb') with ⟨_, he⟩ | ⟨st'', e', he, hle', hok'⟩
      · rw [hx] at he
        simp at he
      · have hlt : a < b := by
          rcases Nat.lt_or_ge a b with h' | h'
          · exact h'
          · have : a = b := by omega
            subst this
            simp [loadSeqs, pyAssert, isCached, bind, Except.bind] at hx
        rw [hx] at he
        simp only [Except.ok.injEq, Prod.mk.injEq, Option.some.injEq] at he
        obtain ⟨rfl, rfl⟩ := he
        refine .inr ⟨a, e', _, hok', .inr ⟨s.threads, [], rfl, hq, by simp⟩, ?_, by simp⟩
        intro x y hxy
        simp only [Main.waiting.injEq] at hxy
        obtain ⟨rfl, rfl⟩ := hxy
        exact ⟨rfl, hle', hb', hlt, rfl⟩
  | loadCached hm hj hb' hx =>
    rename_i a b st'
    have hq := hj rfl
    rcases h with ⟨h0, ht, hm', ho, _⟩ | ⟨p, q, th', hok, hsh, hm', _⟩
    · rw [ho] at hb'
      have hb0 : b = 0 := by simpa using hb'
      obtain ⟨rfl, _, ha0⟩ := loadSeqs_empty hb0 hx
      refine .inl ⟨h0, ht, hm', ho, ?_⟩
      intro x y hxy
      simp only [Option.some.injEq, Prod.mk.injEq] at hxy
      omega
    · have := shape_quiet hsh hq
      subst this
      have hle := loadSeqs_le hx
      rcases loadSeqs_ok hb hok hle (by rw [← olen hok]; exact hb') with ⟨hc, he⟩ | ⟨st'', e', he, hle', hok'⟩
      · rw [hx] at he
        simp only [Except.ok.injEq, Prod.mk.injEq, and_true] at he
        subst he
        refine .inr ⟨p, q, _, hok, hsh, ?_, ?_⟩
        · intro x y hxy
          change s.main = .waiting x y at hxy
          rw [hm] at hxy
          cases hxy
        · intro x y hxy
          simp only [Option.some.injEq, Prod.mk.injEq] at hxy
          obtain ⟨rfl, rfl⟩ := hxy
          exact ⟨hb', isCached_iff.1 hc⟩
      · rw [hx] at he
        simp at he
  | ret hm hw =>
    rename_i a b r
    rcases h with ⟨_, _, h0, _⟩ | ⟨p, q, th, hok, hsh, hm', hw'⟩
    · rw [h0] at hm
      cases hm
    · obtain ⟨h1, h2, h3, h4, _⟩ := hm' a b hm
      refine .inr ⟨p, q, th, hok, hsh, (by intro x y hxy; cases hxy), ?_⟩
      intro x y hxy
      simp only [Option.some.injEq, Prod.mk.injEq] at hxy
      obtain ⟨rfl, rfl⟩ := hxy
      refine ⟨h3, ?_⟩
      rcases wait_ok hok h1 h2 h4 with ⟨_, h⟩ | ⟨h, _⟩
      · exact h
      · rw [hw] at h
        cases h

theorem inv_run {c : Cfg F T} {base : List Nat} (hb : BaseOk c base) (hf : FilesOk c) {s : Sys F T}
    (hr : Run c (fun si => si.Perm base) true (start c) s) : Inv c base s := by
  induction hr with
  | refl => exact .inl ⟨rfl, rfl, rfl, rfl, by simp [start]⟩
  | tail _ hs ih => exact inv_step hb hf ih hs

/-- What the reader gets. -/
theorem read_ok {c : Cfg F T} {base : List Nat} (hb : BaseOk c base) {st : St F T} {order : List Nat} {a b : Nat} {th : List Act}
    (h : Ok c base st order a b th) {i : Nat} (hi : i < order.length) (hp : i ∈ st.preload) :
    ∃ r x, order[i]? = some r ∧ c.corpus[r]? = some x ∧ getInputData c st i = .ok x.inp ∧ getTargets c st i = .ok x.tgt := by
  have hv := h.valid hb
  have hn := olen h
  obtain ⟨k, hk, hmk, hsk⟩ := h.map i (by omega)
  have hkp : k ∈ st.preload := by
    rcases h.idmap with h' | ⟨_, h'⟩
    · rw [h', List.getElem?_range (by omega)] at hmk
      cases hmk
      exact hp
    · exact h' k hk
  obtain ⟨_, x, hx, hh, ht⟩ := h.good k hkp
  have hx' := hx
  rw [items_get hv, hsk] at hx'
  obtain ⟨r, hr, hxr⟩ := Option.bind_eq_some_iff.1 hx'
  refine ⟨r, x, hr, hxr, ?_, ?_⟩
  · obtain ⟨idi, v, h1, h2, h3, h4⟩ := lookup_spec h.proper hh
    have hsl : (sortedLens c st).getD i 0 = (lens c st.seqIndex).getD k 0 := by
      simp [sortedLens, List.getD, hmk]
    simp only [getInputData, getItem, hmk, h1, h2, bind, Except.bind, hsl, pyAssert, h3, decide_true, if_true, h4]
  · simp only [getTargets, getItem, hmk, bind, Except.bind, slice, tlens_get hx]
    rw [List.drop_take, show seqStart (tlens c st.seqIndex) k + x.tgt.length - seqStart (tlens c st.seqIndex) k = x.tgt.length by omega, ht]

theorem extend_sum (l : List Nat) : ∀ (free : Int) (stop : Nat),
    (extend l free stop).1 + ((l.take ((extend l free stop).2 - stop)).sum : Nat) = free := by
  induction l with
  | nil => intro free stop; simp [extend]
  | cons x r ih =>
    intro free stop
    rw [extend]
    split
    · simp
    · have h1 := ih (free - x) (stop + 1)
      have h2 := extend_spec r (free - x) (stop + 1)
      rw [show (extend r (free - x) (stop + 1)).2 - stop = ((extend r (free - x) (stop + 1)).2 - (stop + 1)) + 1 by omega,
        List.take_succ_cons, List.sum_cons]
      push_cast
      omega

theorem startCache_spec (limit nbytes : Nat) (r : List Nat) : ∀ (p : List Nat) (i num bytes : Nat), i = p.length → num ≤ i →
    bytes = (p.take num).sum * nbytes → bytes ≤ limit →
    (num < i → limit < ((p.take (num + 1)).sum) * nbytes) →
    let res := startCache limit nbytes r i num bytes
    res.1 ≤ (p ++ r).length ∧ res.2 = ((p ++ r).take res.1).sum * nbytes ∧ res.2 ≤ limit ∧
      (res.1 < (p ++ r).length → limit < ((p ++ r).take (res.1 + 1)).sum * nbytes) := by
  induction r with
  | nil =>
    intro p i num bytes hi hn hb hl hmax
    subst hi
    simp only [startCache, List.append_nil]
    exact ⟨hn, hb, hl, hmax⟩
  | cons x r ih =>
    intro p i num bytes hi hn hb hl hmax
    have e : p ++ x :: r = (p ++ [x]) ++ r := by simp
    simp only [startCache]
    split
    · rename_i hc
      obtain ⟨rfl, hc⟩ := hc
      subst hi
      rw [List.take_length] at hb
      rw [e]
      refine ih (p ++ [x]) _ _ _ (by simp) (Nat.le_refl _) ?_ hc (fun h => absurd h (Nat.lt_irrefl _))
      rw [show p.length + 1 = (p ++ [x]).length by simp, List.take_length, hb]
      simp [Nat.add_mul]
    · rename_i hc
      rw [e]
      refine ih (p ++ [x]) _ _ _ (by simp [hi]) (by omega) ?_ hl ?_
      · rw [hb, List.take_append_of_le_length (by omega)]
      · intro _
        rcases Nat.lt_or_ge num i with h | h
        · rw [List.take_append_of_le_length (by omega)]
          exact hmax h
        · have : num = i := by omega
          subst this
          subst hi
          rw [List.take_length] at hb
          rw [show p.length + 1 = (p ++ [x]).length by simp, List.take_length]
          have h2 : ¬ (bytes + x * nbytes ≤ limit) := fun h' => hc ⟨rfl, h'⟩
          rw [List.sum_append, Nat.add_mul, ← hb]
          simp only [List.sum_cons, List.sum_nil, Nat.add_zero]
          omega

end Verif.HdfCache
