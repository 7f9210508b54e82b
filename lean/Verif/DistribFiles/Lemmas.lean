import Verif.DistribFiles.Model
import Verif.SeqOrder.Props
import Mathlib.Data.List.Nodup
namespace Verif.DistribFiles
open Verif.Py

/-- Loop invariant: the bins before the current one are non-empty, the ones after it are empty, the bins contain
exactly the files `done`, and there are enough remaining files for the remaining bins. -/
structure Inv {F Q : Type} (nb : Nat) (s : St F Q) (done : List F) (rem : Nat) : Prop where
  ex : ∃ closed cur, s.bins = closed ++ cur :: List.replicate (nb - s.binIdx - 1) [] ∧ closed.length = s.binIdx ∧
    (∀ b ∈ closed, b ≠ []) ∧ closed.flatten ++ cur = done ∧ (cur = [] → nb - s.binIdx ≤ rem)
  lt : s.binIdx < nb
  rem : nb - s.binIdx - 1 ≤ rem

theorem appendAt_cur {F : Type} (closed : List (List F)) (cur : List F) (rest : List (List F)) (f : F) (i : Nat)
    (h : closed.length = i) :
    appendAt (closed ++ cur :: rest) i f = .ok (closed ++ (cur ++ [f]) :: rest) := by
  subst h
  have : closed.length < (closed ++ cur :: rest).length := by simp
  rw [appendAt, if_pos this]
  congr 1
  rw [List.modify_eq_take_cons_drop this]
  simp

theorem appendAt_next {F : Type} (closed : List (List F)) (cur : List F) (n : Nat) (f : F) (i : Nat)
    (h : closed.length = i) (hn : 0 < n) :
    appendAt (closed ++ cur :: List.replicate n []) (i + 1) f
      = .ok ((closed ++ [cur]) ++ [f] :: List.replicate (n - 1) []) := by
  obtain ⟨m, rfl⟩ : ∃ m, n = m + 1 := ⟨n - 1, by omega⟩
  have := appendAt_cur (closed ++ [cur]) ([] : List F) (List.replicate m []) f (i + 1) (by simp [h])
  simpa [List.replicate_succ] using this

theorem getItem_cur {F : Type} (closed : List (List F)) (cur : List F) (rest : List (List F)) (i : Nat)
    (h : closed.length = i) : getItem (closed ++ cur :: rest) i = .ok cur := by
  subst h; simp [getItem]

theorem step_ok {F Q : Type} (ar : Arith Q) (size : F → Int) (nb : Nat) (total : Int) (r : Nat) (s : St F Q) (f : F)
    (done : List F) (h : Inv nb s done (r + 1)) :
    ∃ s', step ar size nb total (r + 1) s f = .ok s' ∧ Inv nb s' (done ++ [f]) r := by
  obtain ⟨⟨closed, cur, hb, hl, hne, hd, hc⟩, hlt, hrem⟩ := h
  unfold step
  simp only [hb, bind, Except.bind, getItem_cur closed cur _ _ hl, appendAt_cur closed cur _ f _ hl]
  by_cases h1 : ((r + 1 : Nat) : Int) ≤ (nb : Int) - (s.binIdx : Int) - 1
  · rw [if_pos h1]
    have hcur : cur ≠ [] := by intro hcur; have := hc hcur; omega
    have hav : ∃ q, newAvg ar total (s.totalTaken + size f) nb (s.binIdx + 1) = .ok q := by
      unfold newAvg; rw [if_neg (by omega)]; exact ⟨_, rfl⟩
    obtain ⟨q, hq⟩ := hav
    have hp : pyAssert (!cur.isEmpty) = .ok () := by simp [pyAssert, hcur]
    simp only [hp, hq, appendAt_next closed cur _ f _ hl (by omega : 0 < nb - s.binIdx - 1)]
    refine ⟨_, rfl, ⟨⟨closed ++ [cur], [f], ?_, by simp [hl], ?_, ?_, by simp⟩, by simp; omega, by simp; omega⟩⟩
    · simp only; rw [show nb - s.binIdx - 1 - 1 = nb - (s.binIdx + 1) - 1 by omega]
    · intro b hb'; rcases List.mem_append.mp hb' with h | h
      · exact hne b h
      · simp at h; rw [h]; exact hcur
    · rw [← hd]; simp
  · rw [if_neg h1]
    by_cases h2 : (s.binIdx : Int) = (nb : Int) - 1
    · rw [if_pos h2]
      refine ⟨_, rfl, ⟨⟨closed, cur ++ [f], rfl, hl, hne, ?_, by simp⟩, hlt, by simp; omega⟩⟩
      rw [← hd]; simp
    · rw [if_neg h2]
      by_cases h3 : ar.le (s.sizeTaken + size f) s.avg = true
      · rw [if_pos h3]
        refine ⟨_, rfl, ⟨⟨closed, cur ++ [f], rfl, hl, hne, ?_, by simp⟩, hlt, by simp; omega⟩⟩
        rw [← hd]; simp
      · rw [if_neg h3]
        have hav : ∃ q, newAvg ar total (s.totalTaken + size f) nb (s.binIdx + 1) = .ok q := by
          unfold newAvg; rw [if_neg (by omega)]; exact ⟨_, rfl⟩
        obtain ⟨q, hq⟩ := hav
        by_cases h4 : (cur.isEmpty || ar.better s.sizeTaken (size f) s.avg) = true
        · rw [if_pos h4]
          simp only [hq]
          refine ⟨_, rfl, ⟨⟨closed ++ [cur ++ [f]], [], ?_, by simp [hl], ?_, ?_, ?_⟩, by simp; omega, by simp; omega⟩⟩
          · simp only
            rw [show nb - s.binIdx - 1 = (nb - (s.binIdx + 1) - 1) + 1 by omega, List.replicate_succ]; simp
          · intro b hb'; rcases List.mem_append.mp hb' with h | h
            · exact hne b h
            · simp at h; rw [h]; simp
          · rw [← hd]; simp
          · intro _; simp; omega
        · rw [if_neg h4]
          have hcur : cur ≠ [] := by intro hcur; simp [hcur] at h4
          simp only [hq, appendAt_next closed cur _ f _ hl (by omega : 0 < nb - s.binIdx - 1)]
          refine ⟨_, rfl, ⟨⟨closed ++ [cur], [f], ?_, by simp [hl], ?_, ?_, by simp⟩, by simp; omega, by simp; omega⟩⟩
          · simp only; rw [show nb - s.binIdx - 1 - 1 = nb - (s.binIdx + 1) - 1 by omega]
          · intro b hb'; rcases List.mem_append.mp hb' with h | h
            · exact hne b h
            · simp at h; rw [h]; exact hcur
          · rw [← hd]; simp

theorem loop_ok {F Q : Type} (ar : Arith Q) (size : F → Int) (nb : Nat) (total : Int) :
    ∀ (files : List F) (s : St F Q) (done : List F), Inv nb s done files.length →
      ∃ s', loop ar size nb total files s = .ok s' ∧ Inv nb s' (done ++ files) 0 := by
  intro files
  induction files with
  | nil => intro s done h; exact ⟨s, rfl, by simpa using h⟩
  | cons f files ih =>
    intro s done h
    obtain ⟨s1, h1, h2⟩ := step_ok ar size nb total files.length s f done h
    obtain ⟨s2, h3, h4⟩ := ih s1 _ h2
    exact ⟨s2, by simp [loop, h1, h3, bind, Except.bind], by simpa using h4⟩

theorem distribute_ok {F Q : Type} (ar : Arith Q) (size : F → Int) (nb : Nat) (files : List F) (h0 : 0 < nb)
    (hn : nb ≤ files.length) :
    ∃ bins, distribute ar size nb files = .ok bins ∧ bins.length = nb ∧ (∀ b ∈ bins, b ≠ []) ∧
      bins.flatten = files := by
  have hinit : Inv nb (initSt ar nb (files.map size).sum : St F Q) [] files.length := by
    refine ⟨⟨[], [], ?_, rfl, by simp, rfl, ?_⟩, h0, ?_⟩
    · obtain ⟨m, rfl⟩ : ∃ m, nb = m + 1 := ⟨nb - 1, by omega⟩
      simp [initSt, List.replicate_succ]
    · intro _; simpa [initSt] using hn
    · simp [initSt]; omega
  obtain ⟨s, h1, ⟨⟨closed, cur, hb, hl, hne, hd, hc⟩, hlt, hrem⟩⟩ := loop_ok ar size nb (files.map size).sum files _ [] hinit
  have hcur : cur ≠ [] := by intro h; have := hc h; omega
  have hbins : s.bins = closed ++ [cur] := by
    rw [hb, show nb - s.binIdx - 1 = 0 by omega]; rfl
  have hall : ∀ b ∈ s.bins, b ≠ [] := by
    intro b hb'
    rw [hbins] at hb'
    rcases List.mem_append.mp hb' with h | h
    · exact hne b h
    · simp at h; rw [h]; exact hcur
  refine ⟨s.bins, ?_, ?_, hall, ?_⟩
  · have h0' : ¬ nb = 0 := by omega
    have hp : pyAssert (s.bins.all (fun b => !b.isEmpty)) = .ok () := by
      have : s.bins.all (fun b => !b.isEmpty) = true := by
        rw [List.all_eq_true]; intro b hb'; simp [hall b hb']
      simp [pyAssert, this]
    have hp2 : pyAssert (decide (files.length ≥ nb)) = .ok () := by simp [pyAssert, hn]
    simp [distribute, h0', hp2, h1, hp, bind, Except.bind]
  · rw [hbins]; simp [hl]; omega
  · rw [hbins, List.flatten_append]; simpa using hd

/-! ### The history of calls -/

/-- The files order cache and the workers only contain correct entries. -/
structure StInv {F Q : Type} (ar : Arith Q) (d : Ds F) (rng : SeqOrder.Rng) (s : State F) : Prop where
  orders : ∀ f e, s.orders.lookup f = some e → orderEntry ar d rng f = .ok e
  workers : ∀ ep w, s.workers.lookup ep = some w →
    ∃ e, orderEntry ar d rng (d.full ep) = .ok e ∧ e[(ep - 1) % d.P]? = some w.files ∧ w.innerEpoch = d.full ep + 1

theorem lookup_filter {α : Type} (p : Nat → Bool) (l : List (Nat × α)) (k : Nat) :
    (l.filter (fun e => p e.1)).lookup k = if p k then l.lookup k else none := by
  induction l with
  | nil => simp
  | cons a l ih =>
    obtain ⟨j, x⟩ := a
    rw [List.filter_cons]
    by_cases hj : p j = true
    · simp only [hj, if_true, List.lookup_cons, ih]
      by_cases hk : k = j
      · subst hk; simp [hj]
      · have : (k == j) = false := by simp [hk]
        simp [this]
    · simp only [hj, List.lookup_cons]
      by_cases hk : k = j
      · subst hk; simp only [Bool.false_eq_true, if_false]; rw [ih]; simp [hj]
      · have : (k == j) = false := by simp [hk]
        simp only [Bool.false_eq_true, if_false, ih, this]

theorem lookup_append {α : Type} (l : List (Nat × α)) (j : Nat) (x : α) (k : Nat) :
    (l ++ [(j, x)]).lookup k = match l.lookup k with | some y => some y | none => if k = j then some x else none := by
  induction l with
  | nil =>
    by_cases h : k = j
    · simp [List.lookup_cons, h]
    · have : (k == j) = false := by simp [h]
      simp [List.lookup_cons, h, this]
  | cons a l ih =>
    obtain ⟨i, y⟩ := a
    simp only [List.cons_append, List.lookup_cons, ih]
    by_cases h : k = i
    · subst h; simp
    · have : (k == i) = false := by simp [h]
      simp [this]

theorem filesOrder_perm {F : Type} (d : Ds F) (rng : SeqOrder.Rng) (f : Nat) :
    (filesOrder d rng f).Perm d.files := by
  unfold filesOrder
  split
  · exact SeqOrder.shuffle_perm _ _ _ _
  · exact List.Perm.refl _

theorem P_pos {F : Type} (d : Ds F) : 0 < d.P := SeqOrder.orOne_pos _

/-- With enough files, every entry of the files order cache can be computed: `P` non-empty sub-epochs. -/
theorem orderEntry_ok {F Q : Type} (ar : Arith Q) (d : Ds F) (rng : SeqOrder.Rng) (f : Nat)
    (hs : d.shardIndex < d.numShards) (hn : d.numShards * d.P ≤ d.files.length) :
    ∃ bins, distribute ar d.size (d.numShards * d.P) (filesOrder d rng f) = .ok bins ∧
      bins.length = d.numShards * d.P ∧ (∀ b ∈ bins, b ≠ []) ∧ bins.flatten = filesOrder d rng f ∧
      orderEntry ar d rng f = .ok (slice bins (d.P * d.shardIndex) (d.P * d.shardIndex + d.P)) ∧
      ∀ k < d.P, (slice bins (d.P * d.shardIndex) (d.P * d.shardIndex + d.P))[k]? = bins[d.P * d.shardIndex + k]? := by
  have hP := P_pos d
  have h0 : 0 < d.numShards * d.P := Nat.mul_pos (by omega) hP
  obtain ⟨bins, h1, h2, h3, h4⟩ := distribute_ok ar d.size (d.numShards * d.P) (filesOrder d rng f) h0
    (by rw [(filesOrder_perm d rng f).length_eq]; exact hn)
  refine ⟨bins, h1, h2, h3, h4, by simp [orderEntry, h1, bind, Except.bind], ?_⟩
  intro k hk
  rw [slice, List.getElem?_drop, List.getElem?_take, if_pos (by omega)]

theorem foldRes_inv {σ α : Type} (f : σ → α → Res σ) (I : σ → Prop) (l : List α)
    (h : ∀ s a, I s → a ∈ l → ∃ s', f s a = .ok s' ∧ I s') : ∀ s, I s → ∃ s', foldRes f l s = .ok s' ∧ I s' := by
  induction l with
  | nil => intro s hs; exact ⟨s, rfl, hs⟩
  | cons a l ih =>
    intro s hs
    obtain ⟨s1, h1, h2⟩ := h s a hs (by simp)
    obtain ⟨s2, h3, h4⟩ := ih (fun s a hs ha => h s a hs (by simp [ha])) s1 h2
    exact ⟨s2, by simp [foldRes, h1, h3, bind, Except.bind], h4⟩

theorem foldRes_mono {σ α : Type} (f : σ → α → Res σ) (J : σ → α → Prop)
    (hset : ∀ s a s', f s a = .ok s' → J s' a) (hkeep : ∀ s a b s', f s a = .ok s' → J s b → J s' b) :
    ∀ (l : List α) s s', foldRes f l s = .ok s' → (∀ a ∈ l, J s' a) ∧ (∀ b, J s b → J s' b) := by
  intro l
  induction l with
  | nil => intro s s' h; simp [foldRes] at h; subst h; exact ⟨by simp, fun b hb => hb⟩
  | cons a l ih =>
    intro s s' h
    simp only [foldRes, bind, Except.bind] at h
    cases h1 : f s a with
    | error e => simp [h1] at h
    | ok s1 =>
      simp only [h1] at h
      obtain ⟨i1, i2⟩ := ih s1 s' h
      refine ⟨?_, fun b hb => i2 b (hkeep s a b s1 h1 hb)⟩
      intro b hb
      rcases List.mem_cons.mp hb with rfl | hb
      · exact i2 b (hset s b s1 h1)
      · exact i1 b hb

theorem lookup_append_of_none {α : Type} (l : List (Nat × α)) (j : Nat) (x : α) (k : Nat) (y : α)
    (h : (l ++ [(j, x)]).lookup k = some y) : l.lookup k = some y ∨ (k = j ∧ y = x) := by
  rw [lookup_append] at h
  cases hl : l.lookup k with
  | some z => simp [hl] at h; left; rw [h]
  | none =>
    simp only [hl] at h
    split at h
    · rename_i hk; injection h with h; exact Or.inr ⟨hk, h.symm⟩
    · simp at h

theorem initSeqOrder_ok {F Q : Type} (ar : Arith Q) (d : Ds F) (rng : SeqOrder.Rng) (s : State F) (ep : Nat)
    (hs : d.shardIndex < d.numShards) (hn : d.numShards * d.P ≤ d.files.length) (h : StInv ar d rng s) :
    ∃ s', initSeqOrder ar d rng s ep = .ok s' ∧ StInv ar d rng s' ∧ s'.epoch = some ep ∧
      ∃ w, s'.workers.lookup ep = some w := by
  -- orders
  obtain ⟨orders, ho1, ho2⟩ := foldRes_inv (fillOrder ar d rng)
    (fun os => ∀ f e, os.lookup f = some e → orderEntry ar d rng f = .ok e) (List.range' ep (d.preload + 1))
    (by
      intro os a hI _
      unfold fillOrder
      cases hl : os.lookup (d.full a) with
      | some e => exact ⟨os, rfl, hI⟩
      | none =>
        obtain ⟨bins, _, _, _, _, he, _⟩ := orderEntry_ok ar d rng (d.full a) hs hn
        refine ⟨_, by simp only [he, bind, Except.bind]; rfl, ?_⟩
        intro f e hfe
        rcases lookup_append_of_none _ _ _ _ _ hfe with h1 | ⟨rfl, rfl⟩
        · exact hI f e h1
        · exact he)
    (s.orders.filter (fun e => !decide (e.1 < d.full ep)))
    (by
      intro f e hfe
      rw [lookup_filter (fun k => !decide (k < d.full ep))] at hfe
      split at hfe
      · exact h.orders f e hfe
      · simp at hfe)
  have hall : ∀ a ∈ List.range' ep (d.preload + 1), ∃ e, orders.lookup (d.full a) = some e := by
    refine (foldRes_mono (fillOrder ar d rng) (fun os a => ∃ e, os.lookup (d.full a) = some e) ?_ ?_ _ _ _ ho1).1
    · intro os a os' hfo
      unfold fillOrder at hfo
      cases hl : os.lookup (d.full a) with
      | some e => simp only [hl] at hfo; injection hfo with hfo; subst hfo; exact ⟨e, hl⟩
      | none =>
        simp only [hl, bind, Except.bind] at hfo
        split at hfo
        · simp at hfo
        · injection hfo with hfo; subst hfo; rw [lookup_append, hl]; exact ⟨_, if_pos rfl⟩
    · intro os a b os' hfo hb
      obtain ⟨e, he⟩ := hb
      unfold fillOrder at hfo
      cases hl : os.lookup (d.full a) with
      | some e' => simp only [hl] at hfo; injection hfo with hfo; subst hfo; exact ⟨e, he⟩
      | none =>
        simp only [hl, bind, Except.bind] at hfo
        split at hfo
        · simp at hfo
        · injection hfo with hfo; subst hfo; rw [lookup_append, he]; exact ⟨_, rfl⟩
  -- workers
  obtain ⟨workers, hw1, hw2⟩ := foldRes_inv (fillWorker d orders)
    (fun ws => ∀ ep w, ws.1.lookup ep = some w →
      ∃ e, orderEntry ar d rng (d.full ep) = .ok e ∧ e[(ep - 1) % d.P]? = some w.files ∧ w.innerEpoch = d.full ep + 1)
    (List.range' ep (d.preload + 1))
    (by
      intro ws a hI ha
      unfold fillWorker
      cases hl : ws.1.lookup a with
      | some e => exact ⟨ws, rfl, hI⟩
      | none =>
        obtain ⟨e, he⟩ := hall a ha
        have hoe := ho2 _ _ he
        obtain ⟨bins, _, hbl, _, _, he', hk⟩ := orderEntry_ok ar d rng (d.full a) hs hn
        have hee : e = slice bins (d.P * d.shardIndex) (d.P * d.shardIndex + d.P) := by
          rw [hoe] at he'; injection he'
        have hlt : (a - 1) % d.P < d.P := Nat.mod_lt _ (P_pos d)
        have hbk : d.P * d.shardIndex + (a - 1) % d.P < bins.length := by
          rw [hbl]
          calc d.P * d.shardIndex + (a - 1) % d.P < d.P * d.shardIndex + d.P := by omega
            _ = (d.shardIndex + 1) * d.P := by rw [Nat.add_mul, Nat.mul_comm]; omega
            _ ≤ d.numShards * d.P := Nat.mul_le_mul_right _ hs
        have hget : e[(a - 1) % d.P]? = some bins[d.P * d.shardIndex + (a - 1) % d.P] := by
          rw [hee, hk _ hlt, List.getElem?_eq_getElem hbk]
        simp only [he, getItem, hget, bind, Except.bind]
        refine ⟨_, rfl, ?_⟩
        intro ep' w hw
        rcases lookup_append_of_none _ _ _ _ _ hw with h1 | ⟨rfl, rfl⟩
        · exact hI ep' w h1
        · exact ⟨e, hoe, hget, rfl⟩)
    (s.workers.filter (fun e => !decide (e.1 < ep)), s.started)
    (by
      intro ep' w hw
      simp only at hw
      rw [lookup_filter (fun k => !decide (k < ep))] at hw
      split at hw
      · exact h.workers ep' w hw
      · simp at hw)
  have hallw : ∀ a ∈ List.range' ep (d.preload + 1), ∃ w, workers.1.lookup a = some w := by
    refine (foldRes_mono (fillWorker d orders) (fun ws a => ∃ w, ws.1.lookup a = some w) ?_ ?_ _ _ _ hw1).1
    · intro ws a ws' hfo
      unfold fillWorker at hfo
      cases hl : ws.1.lookup a with
      | some e => simp only [hl] at hfo; injection hfo with hfo; subst hfo; exact ⟨e, hl⟩
      | none =>
        simp only [hl, bind, Except.bind] at hfo
        split at hfo
        · simp at hfo
        · split at hfo
          · simp at hfo
          · injection hfo with hfo; subst hfo; rw [lookup_append, hl]; exact ⟨_, if_pos rfl⟩
    · intro ws a b ws' hfo hb
      obtain ⟨e, he⟩ := hb
      unfold fillWorker at hfo
      cases hl : ws.1.lookup a with
      | some e' => simp only [hl] at hfo; injection hfo with hfo; subst hfo; exact ⟨e, he⟩
      | none =>
        simp only [hl, bind, Except.bind] at hfo
        split at hfo
        · simp at hfo
        · split at hfo
          · simp at hfo
          · injection hfo with hfo; subst hfo; rw [lookup_append, he]; exact ⟨_, rfl⟩
  refine ⟨{ epoch := some ep, orders := orders, workers := workers.1, started := workers.2 }, ?_, ⟨ho2, hw2⟩, rfl, hallw ep (by simp [List.mem_range'])⟩
  simp only [initSeqOrder, ho1, hw1, bind, Except.bind]

theorem finishEpoch_inv {F Q : Type} (ar : Arith Q) (d : Ds F) (rng : SeqOrder.Rng) (s : State F) (b : Bool)
    (h : StInv ar d rng s) : StInv ar d rng (finishEpoch s b) := by
  unfold finishEpoch
  cases b with
  | true => exact ⟨by simp, by simp⟩
  | false => exact ⟨h.orders, h.workers⟩

theorem runCalls_ok {F Q : Type} (ar : Arith Q) (d : Ds F) (rng : SeqOrder.Rng)
    (hs : d.shardIndex < d.numShards) (hn : d.numShards * d.P ≤ d.files.length) :
    ∀ (cs : List Call) (s : State F), StInv ar d rng s →
      ∃ s', runCalls ar d rng cs s = .ok s' ∧ StInv ar d rng s' := by
  intro cs
  induction cs with
  | nil => intro s h; exact ⟨s, rfl, h⟩
  | cons c cs ih =>
    intro s h
    cases c with
    | init e =>
      obtain ⟨s1, h1, h2, _⟩ := initSeqOrder_ok ar d rng s e hs hn h
      obtain ⟨s2, h3, h4⟩ := ih s1 h2
      exact ⟨s2, by simp [runCalls, h1, h3, bind, Except.bind], h4⟩
    | finish b =>
      obtain ⟨s2, h3, h4⟩ := ih _ (finishEpoch_inv ar d rng s b h)
      exact ⟨s2, by simpa [runCalls] using h3, h4⟩

end Verif.DistribFiles
