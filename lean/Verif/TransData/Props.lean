import Verif.TransData.Lemmas
import Verif.TransData.Spec
import Mathlib.Data.Nat.Digits.Lemmas
import Mathlib.Data.List.Sort
import Mathlib.Data.Prod.Lex
/-
C121: the lines of a translation corpus are read by a thread; order, tags, vocabularies.
-/
namespace Verif.TransData
open Verif Verif.Py

section
variable {Line D : Type}

theorem good_iff (c : Corpus Line D) : GoodCorpus c ↔ ∀ k ∈ c.keys, (c.file k).length = (c.file .source).length ∧ ∀ l ∈ c.file k, (c.proc k l).isSome := by
  unfold GoodCorpus
  simp only [Option.isSome_iff_exists]

/-- The thread always comes to an end, whatever the chunks are: for a good corpus with all lines of all files loaded, for a bad one with an exception. -/
theorem thread_outcome (c : Corpus Line D) (hk : c.keys.Nodup) (chunks : Nat → Nat) : ∃ N, ∀ n, N ≤ n →
    (GoodCorpus c → (run c chunks n).phase = .done ∧ ∀ k ∈ c.keys, ((run c chunks n).data k).map some = (c.file k).map (c.proc k)) ∧
    (¬ GoodCorpus c → (run c chunks n).phase = .failed) := by
  obtain ⟨N, hN⟩ := run_ends c hk chunks
  refine ⟨N, ?_⟩
  intro n hn
  have hinv := run_inv c hk chunks n
  have hst := run_stays c chunks hN n hn
  have hdata : (run c chunks n).phase = .done → ∀ k ∈ c.keys, ((run c chunks n).data k).map some = (c.file k).map (c.proc k) := by
    intro hd k hkk
    have h1 := hinv.data k
    rw [(hinv.fin hd k hkk).1, List.take_length] at h1
    exact procAll_map h1
  constructor
  · intro hg
    have hnf : ∀ m, (run c chunks m).phase ≠ .failed := by
      intro m
      induction m with
      | zero => simp [run, start]
      | succ m ih =>
        exact (step_ok c hk (chunks m) (run_inv c hk chunks m)).2.2 ((good_iff c).1 hg) ih
    have hd : (run c chunks n).phase = .done := by
      rw [hst]
      rcases hN with h | h
      · exact h
      · exact absurd h (hnf N)
    exact ⟨hd, hdata hd⟩
  · intro hb
    rcases hN with h | h
    · exfalso
      apply hb
      rw [← hst] at h
      intro k hkk
      refine ⟨(hinv.fin h k hkk).2, ?_⟩
      intro l hl
      obtain ⟨i, hi, rfl⟩ := List.mem_iff_getElem.1 hl
      have := congrArg (fun l => l[i]?) (hdata h k hkk)
      simp only [List.getElem?_map, List.getElem?_eq_getElem hi, Option.map_some] at this
      cases hd : ((run c chunks n).data k)[i]? with
      | none => rw [hd] at this; simp at this
      | some d =>
        rw [hd] at this
        simp only [Option.map_some, Option.some.injEq] at this
        exact ⟨d, this.symm⟩
    · rw [hst]
      exact h

theorem data_prefix (c : Corpus Line D) (hk : c.keys.Nodup) (chunks : Nat → Nat) (n : Nat) (k : Key) {i : Nat} {d : D}
    (h : ((run c chunks n).data k)[i]? = some d) : IsLine c k i d := by
  have h1 := procAll_map ((run_inv c hk chunks n).data k)
  have := congrArg (fun l => l[i]?) h1
  simp only [List.getElem?_map, h, Option.map_some] at this
  rw [List.getElem?_take] at this
  split at this
  · cases hl : (c.file k)[i]? with
    | none => rw [hl] at this; simp at this
    | some l =>
      rw [hl] at this
      simp only [Option.map_some, Option.some.injEq] at this
      exact ⟨l, hl, this.symm⟩
  · simp at this

/-- Whenever a line is asked for: what comes is this line. -/
theorem get_right (c : Corpus Line D) (hk : c.keys.Nodup) (chunks : Nat → Nat) (n : Nat) (k : Key) {line : Nat} {d : D}
    (h : getData (run c chunks n) k line = .ok (some d)) : IsLine c k line d := by
  apply data_prefix c hk chunks n k
  unfold getData at h
  cases hd : (run c chunks n).dataLen with
  | none =>
    simp only [hd, bind, Except.bind, Except.ok.injEq] at h
    exact h
  | some m =>
    simp only [hd, pyAssert, bind, Except.bind] at h
    by_cases hm : line ≤ m
    · simpa [hm] using h
    · simp [hm] at h

/-- A line of a good corpus comes after some time, at every later time as well, and there is never an error before. -/
theorem get_eventually (c : Corpus Line D) (hk : c.keys.Nodup) (hg : GoodCorpus c) (chunks : Nat → Nat) {k : Key} (hkk : k ∈ c.keys) {line : Nat}
    (hl : line < (c.file .source).length) : (∃ N, ∀ n, N ≤ n → ∃ d, getData (run c chunks n) k line = .ok (some d)) ∧
      ∀ n, ∃ r, getData (run c chunks n) k line = .ok r := by
  have hget : ∀ n, getData (run c chunks n) k line = .ok ((run c chunks n).data k)[line]? := by
    intro n
    have hinv := run_inv c hk chunks n
    unfold getData
    cases hd : (run c chunks n).dataLen with
    | none => rfl
    | some m =>
      have : m = (c.file .source).length := by
        have := hinv.len (by
          intro j hj
          have := (hinv.count j hj).2
          rw [hd] at this
          cases this)
        rw [hd] at this
        simpa using this
      simp [pyAssert, bind, Except.bind, this, Nat.le_of_lt hl]
  refine ⟨?_, fun n => ⟨_, hget n⟩⟩
  obtain ⟨N, hN⟩ := thread_outcome c hk chunks
  refine ⟨N, ?_⟩
  intro n hn
  have h2 := ((hN n hn).1 hg).2 k hkk
  have hlen : ((run c chunks n).data k).length = (c.file k).length := by
    have := congrArg List.length h2
    simpa using this
  have hlt : line < ((run c chunks n).data k).length := by rw [hlen, (hg k hkk).1]; exact hl
  exact ⟨((run c chunks n).data k)[line], by rw [hget, List.getElem?_eq_getElem hlt]⟩

/-- A line number behind the end is an error when the number of lines is known. Partial: not for the number just behind the last line. -/
theorem behind_end_partial (c : Corpus Line D) (hk : c.keys.Nodup) (chunks : Nat → Nat) (k : Key) {line : Nat} (hl : (c.file .source).length < line) :
    ∃ N, ∀ n, N ≤ n → getData (run c chunks n) k line = .error .assertion := by
  obtain ⟨N, hN⟩ := run_ends c hk chunks
  refine ⟨N, ?_⟩
  intro n hn
  have hst := run_stays c chunks hN n hn
  have hinv := run_inv c hk chunks n
  have hlen := hinv.len (by
    intro j hj
    rw [hst] at hj
    rcases hN with h | h <;> (rw [h] at hj; cases hj))
  unfold getData
  have : ¬ line ≤ (c.file .source).length := by omega
  simp [hlen, pyAssert, this, bind, Except.bind]

/-- Just behind the last line there is no error: `_get_data` waits for ever. -/
theorem behind_end_waits (c : Corpus Line D) (hk : c.keys.Nodup) (chunks : Nat → Nat) (n : Nat) :
    getData (run c chunks n) .source (c.file .source).length = .ok none := by
  have hinv := run_inv c hk chunks n
  have hnone : ((run c chunks n).data .source)[(c.file .source).length]? = none := by
    cases h : ((run c chunks n).data .source)[(c.file .source).length]? with
    | none => rfl
    | some d =>
      obtain ⟨l, hl, _⟩ := data_prefix c hk chunks n .source h
      simp at hl
  unfold getData
  cases hd : (run c chunks n).dataLen with
  | none => simp [bind, Except.bind, hnone]
  | some m =>
    have : m = (c.file .source).length := by
      have := hinv.len (by
        intro j hj
        have := (hinv.count j hj).2
        rw [hd] at this
        cases this)
      rw [hd] at this
      simpa using this
    simp [pyAssert, bind, Except.bind, this, hnone]

theorem getAll_ok {s : St D} {line : Nat} : ∀ {keys : List Key} {f : List (Key × D)}, getAll s line keys = .ok (some f) →
    f.map Prod.fst = keys ∧ ∀ k d, (k, d) ∈ f → getData s k line = .ok (some d) := by
  intro keys
  induction keys with
  | nil =>
    intro f h
    simp only [getAll, Except.ok.injEq, Option.some.injEq] at h
    subst h
    simp
  | cons k t ih =>
    intro f h
    unfold getAll at h
    cases h1 : getData s k line with
    | error e => rw [h1] at h; cases h
    | ok d =>
      rw [h1] at h
      simp only [bind, Except.bind] at h
      cases h2 : getAll s line t with
      | error e => rw [h2] at h; cases h
      | ok r =>
        rw [h2] at h
        cases d with
        | none => simp at h
        | some d =>
          cases r with
          | none => simp at h
          | some r =>
            simp only [Except.ok.injEq, Option.some.injEq] at h
            subst h
            obtain ⟨e1, e2⟩ := ih h2
            refine ⟨by simp [e1], ?_⟩
            intro k' d' hm
            rcases List.mem_cons.1 hm with hm | hm
            · simp only [Prod.mk.injEq] at hm
              rw [hm.1, hm.2, h1]
            · exact e2 k' d' hm

/-- A collected sequence: the line of the order, with its tag, and the data of all files from the same line. -/
theorem collect_right (c : Corpus Line D) (hk : c.keys.Nodup) (chunks : Nat → Nat) (n : Nat) (order : List Nat) (idx : Nat) {t : List Nat} {f : List (Key × D)}
    (h : collect c.keys order (run c chunks n) idx = .ok (.seq t f)) :
    ∃ line, order[idx]? = some line ∧ t = tag line ∧ f.map Prod.fst = c.keys ∧ ∀ k d, (k, d) ∈ f → IsLine c k line d := by
  unfold collect at h
  cases ho : order[idx]? with
  | none => rw [ho] at h; simp at h
  | some line =>
    rw [ho] at h
    simp only at h
    cases hg : getAll (run c chunks n) line c.keys with
    | error e => rw [hg] at h; cases h
    | ok r =>
      rw [hg] at h
      simp only [bind, Except.bind] at h
      cases r with
      | none => simp at h
      | some f' =>
        simp only [Except.ok.injEq, Seq.seq.injEq] at h
        obtain ⟨rfl, rfl⟩ := h
        obtain ⟨e1, e2⟩ := getAll_ok hg
        exact ⟨line, rfl, rfl, e1, fun k d hm => get_right c hk chunks n k (e2 k d hm)⟩

/-- For a good corpus, every sequence of an order of existing lines can be collected after some time. -/
theorem collect_eventually (c : Corpus Line D) (hk : c.keys.Nodup) (hg : GoodCorpus c) (chunks : Nat → Nat) (order : List Nat)
    (ho : ∀ l ∈ order, l < (c.file .source).length) : ∃ N, ∀ n, N ≤ n → ∀ idx, (idx < order.length → ∃ t f, collect c.keys order (run c chunks n) idx = .ok (.seq t f)) ∧
      (order.length ≤ idx → collect c.keys order (run c chunks n) idx = .ok .over) := by
  obtain ⟨N, hN⟩ := thread_outcome c hk chunks
  refine ⟨N, ?_⟩
  intro n hn idx
  constructor
  · intro hi
    have hline := ho order[idx] (List.getElem_mem hi)
    have hall : ∀ keys : List Key, (∀ k ∈ keys, k ∈ c.keys) → ∃ f, getAll (run c chunks n) order[idx] keys = .ok (some f) := by
      intro keys
      induction keys with
      | nil => intro _; exact ⟨[], rfl⟩
      | cons k t ih =>
        intro hks
        obtain ⟨f, hf⟩ := ih (fun x hx => hks x (by simp [hx]))
        have hkk := hks k (by simp)
        obtain ⟨r, hr⟩ := (get_eventually c hk hg chunks hkk hline).2 n
        have h2 := ((hN n hn).1 hg).2 k hkk
        have hlen : ((run c chunks n).data k).length = (c.file k).length := by
          have := congrArg List.length h2
          simpa using this
        have hlt : order[idx] < ((run c chunks n).data k).length := by rw [hlen, (hg k hkk).1]; exact hline
        have : ∃ d, r = some d := by
          unfold getData at hr
          rw [List.getElem?_eq_getElem hlt] at hr
          cases hd : (run c chunks n).dataLen with
          | none =>
            rw [hd] at hr
            simp only [bind, Except.bind, Except.ok.injEq] at hr
            exact ⟨_, hr.symm⟩
          | some m =>
            rw [hd] at hr
            simp only [pyAssert, bind, Except.bind] at hr
            by_cases hm : order[idx] ≤ m
            · simp [hm] at hr
              exact ⟨_, hr.symm⟩
            · simp [hm] at hr
        obtain ⟨d, rfl⟩ := this
        exact ⟨(k, d) :: f, by simp [getAll, hr, hf, bind, Except.bind]⟩
    obtain ⟨f, hf⟩ := hall c.keys (fun _ h => h)
    refine ⟨tag order[idx], f, ?_⟩
    · unfold collect
      rw [List.getElem?_eq_getElem hi]
      simp only [hf, bind, Except.bind]
      rfl
  · intro hi
    unfold collect
    rw [List.getElem?_eq_none hi]

/-- A corpus with two lines; the postfix is number 9. -/
def exCorpus : Corpus Nat (List Nat) := ⟨fun k => if k = .source then [1, 2] else [3, 4], fun _ l => some [l, 9], [.source, .target]⟩

example : (run exCorpus (fun _ => 1) 20).phase = .done ∧ (run exCorpus (fun _ => 1) 20).data .target = [[3, 9], [4, 9]] := by decide

example : GoodCorpus exCorpus := by
  intro k _
  refine ⟨by cases k <;> rfl, fun l _ => ⟨[l, 9], rfl⟩⟩

/-! ## Order and tags -/

theorem int_str (n : Nat) : int (str n) = .ok n := by
  unfold int str
  by_cases h : n = 0
  · subst h
    rfl
  · rw [if_neg h]
    have hne : (Nat.digits 10 n).reverse.map (fun d => d + 48) ≠ [] := by
      simp [Nat.digits_ne_nil_iff_ne_zero, h]
    have hlt : ((Nat.digits 10 n).reverse.map (fun d => d + 48)).any (fun c => c < 48 || 57 < c) = false := by
      rw [List.any_eq_false]
      intro c hc
      obtain ⟨d, hd, rfl⟩ := List.mem_map.1 hc
      have := Nat.digits_lt_base (show 1 < 10 by omega) (List.mem_reverse.1 hd)
      simp
      omega
    rw [if_neg (by simp only [hlt, hne]; simp)]
    congr 1
    rw [List.foldl_map]
    have : ∀ (l : List Nat), l.reverse.foldl (fun r d => r * 10 + (d + 48 - 48)) 0 = Nat.ofDigits 10 l := by
      intro l
      induction l with
      | nil => rfl
      | cons a t ih =>
        rw [List.reverse_cons, List.foldl_append, ih]
        simp [Nat.ofDigits_cons]
        omega
    rw [this, Nat.ofDigits_digits]

/-- A list of tags gives these lines as order, whatever the dataset has as its own list. -/
theorem order_from_tags (own : Option (List Nat)) (auto lines : List Nat) : initOrder own (some (lines.map (fun n => Entry.str (tag n)))) none auto = .ok lines := by
  have : ∀ l : List Nat, entryLines (l.map (fun n => Entry.str (tag n))) = .ok l := by
    intro l
    induction l with
    | nil => rfl
    | cons a t ih =>
      have h1 : entryLine (.str (tag a)) = .ok a := by
        show int (([108, 105, 110, 101, 45] ++ str a).drop 5) = .ok a
        exact int_str a
      rw [List.map_cons, entryLines, h1]
      simp only [bind, Except.bind, ih]
  unfold initOrder
  exact this lines

/-- An order of line numbers is used as it is; without anything the order of the epoch is used. -/
theorem order_given (own : Option (List Nat)) (l : Option (List Entry)) (auto order : List Nat) : initOrder own l (some order) auto = .ok order ∧
    initOrder none none none auto = .ok auto := ⟨by unfold initOrder; rfl, rfl⟩

/-- A dataset with `seq_list_file` can not be used: its numbers are taken as strings. -/
theorem seq_list_file_fails (n : Nat) (t auto : List Nat) : initOrder (some (n :: t)) none none auto = .error .typeError := rfl

/-- All tags are the ones of all lines. Partial: when the thread is done. -/
theorem all_tags_partial (c : Corpus Line D) (hk : c.keys.Nodup) (hs : Key.source ∈ c.keys) (chunks : Nat → Nat) {n : Nat} (h : (run c chunks n).phase = .done) :
    allTags (run c chunks n) = List.range (c.file .source).length := by
  have hinv := run_inv c hk chunks n
  have h1 := hinv.data .source
  rw [(hinv.fin h .source hs).1, List.take_length] at h1
  unfold allTags
  rw [procAll_length h1]

/-- Before that, tags are missing. -/
theorem all_tags_missing : ∃ n, allTags (run exCorpus (fun _ => 1) n) = [0] ∧ (exCorpus.file .source).length = 2 := ⟨4, by decide, rfl⟩

end

/-! ## Vocabularies -/

section
variable {W : Type} [LinearOrder W]

theorem foldl_max : ∀ (t : List Nat) (a : Nat), t.foldl max a ∈ a :: t ∧ ∀ x ∈ a :: t, x ≤ t.foldl max a := by
  intro t
  induction t with
  | nil => intro a; simp
  | cons b t ih =>
    intro a
    obtain ⟨h1, h2⟩ := ih (max a b)
    rw [List.foldl_cons]
    constructor
    · rcases List.mem_cons.1 h1 with h1 | h1
      · rw [h1]
        rcases Nat.le_total a b with h | h
        · rw [Nat.max_eq_right h]; simp
        · rw [Nat.max_eq_left h]; simp
      · simp [h1]
    · intro x hx
      have hm := h2 (max a b) (by simp)
      simp only [List.mem_cons] at hx
      rcases hx with rfl | rfl | hx
      · omega
      · omega
      · exact h2 x (by simp [hx])

theorem fold_set_last : ∀ (l : List (W × Nat)) (d : Dict Nat W), l.Pairwise (fun a b => a.1 ≤ b.1) →
    (∀ i w, d.get? i = some w → ∀ w', (w', i) ∈ l → w ≤ w') → ∀ i,
    (∀ w, (l.foldl (fun d p => d.set p.2 p.1) d).get? i = some w → ((w, i) ∈ l ∨ (d.get? i = some w ∧ ∀ w', (w', i) ∉ l)) ∧ ∀ w', (w', i) ∈ l → w' ≤ w) ∧
    ((∃ w, (w, i) ∈ l) → ∃ w, (l.foldl (fun d p => d.set p.2 p.1) d).get? i = some w) ∧
    (d.get? i = none → (∀ w, (w, i) ∉ l) → (l.foldl (fun d p => d.set p.2 p.1) d).get? i = none) ∧
    (∀ w, d.get? i = some w → ∃ w', (l.foldl (fun d p => d.set p.2 p.1) d).get? i = some w') := by
  intro l
  induction l with
  | nil =>
    intro d _ _ i
    refine ⟨fun w h => ⟨.inr ⟨h, by simp⟩, by simp⟩, by simp, fun h _ => h, fun w h => ⟨w, h⟩⟩
  | cons p t ih =>
    intro d hp hd i
    obtain ⟨a, j⟩ := p
    rw [List.pairwise_cons] at hp
    have hd' : ∀ i w, (d.set j a).get? i = some w → ∀ w', (w', i) ∈ t → w ≤ w' := by
      intro i w h w' hm
      rw [Dict.get?_set] at h
      split at h
      · simp only [Option.some.injEq] at h
        subst h
        exact hp.1 _ hm
      · exact hd i w h w' (by simp [hm])
    obtain ⟨h1, h2, h3, h4⟩ := ih (d.set j a) hp.2 hd' i
    rw [List.foldl_cons]
    refine ⟨?_, ?_, ?_, ?_⟩
    · intro w hw
      obtain ⟨e1, e2⟩ := h1 w hw
      by_cases hji : j = i
      · subst hji
        have haw : a ≤ w := by
          rcases e1 with e1 | ⟨e1, _⟩
          · exact hp.1 _ e1
          · rw [Dict.get?_set, if_pos rfl] at e1
            simp only [Option.some.injEq] at e1
            exact le_of_eq e1
        refine ⟨.inl ?_, ?_⟩
        · rcases e1 with e1 | ⟨e1, _⟩
          · simp [e1]
          · rw [Dict.get?_set, if_pos rfl] at e1
            simp only [Option.some.injEq] at e1
            simp [e1]
        · intro w' hw'
          rcases List.mem_cons.1 hw' with hw' | hw'
          · simp only [Prod.mk.injEq] at hw'
            rw [hw'.1]
            exact haw
          · exact e2 w' hw'
      · rw [Dict.get?_set, if_neg hji] at e1
        refine ⟨?_, ?_⟩
        · rcases e1 with e1 | ⟨e1, e3⟩
          · exact .inl (by simp [e1])
          · refine .inr ⟨e1, ?_⟩
            intro w' hw'
            rcases List.mem_cons.1 hw' with hw' | hw'
            · simp only [Prod.mk.injEq] at hw'
              exact hji hw'.2.symm
            · exact e3 w' hw'
        · intro w' hw'
          rcases List.mem_cons.1 hw' with hw' | hw'
          · simp only [Prod.mk.injEq] at hw'
            exact absurd hw'.2.symm hji
          · exact e2 w' hw'
    · rintro ⟨w, hw⟩
      rcases List.mem_cons.1 hw with hw | hw
      · simp only [Prod.mk.injEq] at hw
        exact h4 a (by rw [Dict.get?_set, if_pos hw.2.symm])
      · exact h2 ⟨w, hw⟩
    · intro hn hnot
      have hji : j ≠ i := by
        rintro rfl
        exact hnot a (by simp)
      exact h3 (by rw [Dict.get?_set, if_neg hji]; exact hn) (fun w hm => hnot w (by simp [hm]))
    · intro w hw
      by_cases hji : j = i
      · exact h4 a (by rw [Dict.get?_set, if_pos hji])
      · exact h4 w (by rw [Dict.get?_set, if_neg hji]; exact hw)

theorem reverse_spec (vocab : Dict W Nat) (i : Nat) : (∀ w, (reverseVocab vocab).get? i = some w → (w, i) ∈ vocab ∧ ∀ w', (w', i) ∈ vocab → w' ≤ w) ∧
    ((∃ w, (w, i) ∈ vocab) → ∃ w, (reverseVocab vocab).get? i = some w) := by
  unfold reverseVocab
  have hs : (vocab.mergeSort (fun a b => decide (a.1 ≤ b.1))).Pairwise (fun a b => a.1 ≤ b.1) := by
    have := List.pairwise_mergeSort (le := fun (a b : W × Nat) => decide (a.1 ≤ b.1)) (by
      intro a b c h1 h2
      simp only [decide_eq_true_eq] at *
      exact le_trans h1 h2) (by
      intro a b
      simp only [Bool.or_eq_true, decide_eq_true_eq]
      exact le_total _ _) vocab
    exact this.imp (by intro a b h; simpa using h)
  have hm : ∀ x, x ∈ vocab.mergeSort (fun a b => decide (a.1 ≤ b.1)) ↔ x ∈ vocab := fun x => List.mem_mergeSort
  obtain ⟨h1, h2, _, _⟩ := fold_set_last _ ([] : Dict Nat W) hs (by intro i w h; simp [Dict.get?] at h) i
  constructor
  · intro w hw
    obtain ⟨e1, e2⟩ := h1 w hw
    refine ⟨?_, fun w' hw' => e2 w' ((hm _).2 hw')⟩
    rcases e1 with e1 | ⟨e1, _⟩
    · exact (hm _).1 e1
    · simp [Dict.get?] at e1
  · rintro ⟨w, hw⟩
    exact h2 ⟨w, (hm _).2 hw⟩

theorem labelsOf_ok (d : Dict Nat W) : ∀ (l : List Nat), ((∀ i ∈ l, ∃ w, d.get? i = some w) ↔ ∃ r, labelsOf d l = .ok r) ∧
    ∀ r, labelsOf d l = .ok r → r.map some = l.map d.get? := by
  intro l
  induction l with
  | nil => exact ⟨⟨fun _ => ⟨[], rfl⟩, by simp⟩, by intro r h; simp only [labelsOf, Except.ok.injEq] at h; subst h; rfl⟩
  | cons i t ih =>
    unfold labelsOf
    cases hi : d.get? i with
    | none => simp [hi]
    | some w =>
      obtain ⟨h1, h2⟩ := ih
      cases ht : labelsOf d t with
      | error e =>
        rw [ht] at h1
        simp only [reduceCtorEq, exists_false, iff_false] at h1
        simp only [bind, Except.bind, reduceCtorEq, exists_false, iff_false, false_imp_iff, implies_true, and_true]
        intro hall
        exact h1 (fun j hj => hall j (by simp [hj]))
      | ok r =>
        simp only [bind, Except.bind]
        refine ⟨⟨fun _ => ⟨_, rfl⟩, fun _ => ?_⟩, ?_⟩
        · intro j hj
          rcases List.mem_cons.1 hj with rfl | hj
          · exact ⟨w, hi⟩
          · exact (h1.2 ⟨r, ht⟩) j hj
        · intro r' hr'
          simp only [Except.ok.injEq] at hr'
          subst hr'
          simp [hi, h2 r ht]

/-- The labels exist exactly when the ids of the vocabulary have no gaps; there is one for each id, and it is the last word in lexical order with this id. -/
theorem labels_exact (vocab : Dict W Nat) : ((∃ ls, labelList vocab = .ok ls) ↔ vocab ≠ [] ∧ ∀ w i, (w, i) ∈ vocab → ∀ j, j < i → ∃ w', (w', j) ∈ vocab) ∧
    ∀ ls, labelList vocab = .ok ls → (∀ i, i < ls.length ↔ ∃ w, (w, i) ∈ vocab) ∧
      ∀ i w, ls[i]? = some w → (w, i) ∈ vocab ∧ ∀ w', (w', i) ∈ vocab → w' ≤ w := by
  have hsome : ∀ i, (∃ w, (reverseVocab vocab).get? i = some w) ↔ ∃ w, (w, i) ∈ vocab := by
    intro i
    constructor
    · rintro ⟨w, hw⟩
      exact ⟨w, ((reverse_spec vocab i).1 w hw).1⟩
    · exact (reverse_spec vocab i).2
  unfold labelList numOutputs
  cases hv : vocab.values with
  | nil =>
    have : vocab = [] := by simpa [Dict.values] using hv
    subst this
    simp [bind, Except.bind]
  | cons a t =>
    have hne : vocab ≠ [] := by rintro rfl; simp [Dict.values] at hv
    obtain ⟨m1, m2⟩ := foldl_max t a
    rw [← hv] at m1 m2
    simp only [bind, Except.bind]
    generalize t.foldl max a = M at *
    obtain ⟨wM, hwM⟩ : ∃ w, (w, M) ∈ vocab := by
      obtain ⟨⟨w, i⟩, h1, rfl⟩ := List.mem_map.1 m1
      exact ⟨w, h1⟩
    obtain ⟨k1, k2⟩ := labelsOf_ok (reverseVocab vocab) (List.range (M + 1))
    constructor
    · rw [← k1]
      constructor
      · intro h
        refine ⟨hne, ?_⟩
        intro w i hwi j hj
        have := m2 i (List.mem_map.2 ⟨(w, i), hwi, rfl⟩)
        exact (hsome j).1 (h j (List.mem_range.2 (by omega)))
      · rintro ⟨_, h⟩ i hi
        have hi := List.mem_range.1 hi
        by_cases hiM : i = M
        · rw [hiM]; exact (hsome M).2 ⟨wM, hwM⟩
        · exact (hsome i).2 (h wM M hwM i (by omega))
    · intro ls hls
      have hmap := k2 ls hls
      have hlen : ls.length = M + 1 := by
        have := congrArg List.length hmap
        simpa using this
      have hall := k1.2 ⟨ls, hls⟩
      constructor
      · intro i
        rw [hlen]
        constructor
        · intro hi
          exact (hsome i).1 (hall i (List.mem_range.2 hi))
        · rintro ⟨w, hw⟩
          have := m2 i (List.mem_map.2 ⟨(w, i), hw, rfl⟩)
          omega
      · intro i w hw
        have hi : i < M + 1 := by rw [← hlen]; exact (List.getElem?_eq_some_iff.1 hw).1
        have := congrArg (fun l => l[i]?) hmap
        simp only [List.getElem?_map, hw, Option.map_some, List.getElem?_range hi, Option.some.injEq] at this
        exact (reverse_spec vocab i).1 w this.symm

example : ∃ ls, labelList [(5, 0), (7, 1), (6, 1)] = .ok ls := by
  rw [(labels_exact (W := Nat) [(5, 0), (7, 1), (6, 1)]).1]
  refine ⟨by simp, ?_⟩
  intro w i h j hj
  simp at h
  have : j = 0 := by omega
  subst this
  exact ⟨5, by simp⟩

/-- Words with an unknown label: the id of each known word, the one of the unknown label for the others. Without one: an error exactly for unknown words. -/
theorem words_exact (vocab : Dict W Nat) (words : List W) :
    (∀ ids, wordIds vocab none words = .ok ids → ids.map some = words.map vocab.get?) ∧
    ((∃ ids, wordIds vocab none words = .ok ids) ↔ ∀ w ∈ words, ∃ i, vocab.get? w = some i) ∧
    ∀ u j, vocab.get? u = some j → ∃ ids : List Nat, wordIds vocab (some u) words = .ok ids ∧ ids.length = words.length ∧
      ∀ (n : Nat) (w : W), words[n]? = some w → (∀ i : Nat, vocab.get? w = some i → ids[n]? = some i) ∧ (vocab.get? w = none → ids[n]? = some j) := by
  have hstrict : ∀ ws : List W, (∀ ids, idsStrict vocab ws = .ok ids → ids.map some = ws.map vocab.get?) ∧
      ((∃ ids, idsStrict vocab ws = .ok ids) ↔ ∀ w ∈ ws, ∃ i, vocab.get? w = some i) := by
    intro ws
    induction ws with
    | nil => exact ⟨by intro ids h; simp only [idsStrict, Except.ok.injEq] at h; subst h; rfl, ⟨by simp, fun _ => ⟨[], rfl⟩⟩⟩
    | cons w t ih =>
      unfold idsStrict
      cases hw : vocab.get? w with
      | none => simp [hw]
      | some i =>
        cases ht : idsStrict vocab t with
        | error e =>
          rw [ht] at ih
          simp only [reduceCtorEq, exists_false, false_iff] at ih
          simp only [bind, Except.bind, reduceCtorEq, exists_false, false_iff, false_imp_iff, implies_true, true_and]
          intro hall
          exact ih.2 (fun x hx => hall x (by simp [hx]))
        | ok r =>
          rw [ht] at ih
          simp only [bind, Except.bind]
          refine ⟨?_, ⟨fun _ => ?_, fun _ => ⟨_, rfl⟩⟩⟩
          · intro ids h
            simp only [Except.ok.injEq] at h
            subst h
            simp [hw, ih.1 r rfl]
          · intro x hx
            rcases List.mem_cons.1 hx with rfl | hx
            · exact ⟨i, hw⟩
            · exact (ih.2.1 ⟨r, rfl⟩) x hx
  refine ⟨(hstrict words).1, (hstrict words).2, ?_⟩
  intro u j hu
  refine ⟨words.map (fun w => (vocab.get? w).getD j), by simp [wordIds, hu], by simp, ?_⟩
  intro n w hw
  constructor
  · intro i hi
    simp [hw, hi]
  · intro hn
    simp [hw, hn]

/-- An unknown label which is not in the vocabulary is an error for every line. -/
theorem unknown_label_missing (vocab : Dict W Nat) {u : W} (h : vocab.get? u = none) (words : List W) : wordIds vocab (some u) words = .error .keyError := by
  simp [wordIds, h]

end

/-- The dimension of the targets is told to be the one of the sources. -/
theorem data_dim_wrong : ∃ vocab : Key → Dict Nat Nat, dataDim vocab .target = .ok 1 ∧ numOutputs (vocab .target) = .ok 3 :=
  ⟨fun k => if k = .source then [(7, 0)] else [(7, 0), (8, 1), (9, 2)], by decide, by decide⟩

end Verif.TransData
