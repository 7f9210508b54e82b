import Verif.TransData.Model
namespace Verif.TransData
open Verif Verif.Py

variable {Line D : Type}

theorem procAll_append (p : Line → Option D) (a b : List Line) {da db : List D} (ha : procAll p a = some da) (hb : procAll p b = some db) :
    procAll p (a ++ b) = some (da ++ db) := by
  induction a generalizing da with
  | nil =>
    simp only [procAll, Option.some.injEq] at ha
    subst ha
    exact hb
  | cons l t ih =>
    unfold procAll at ha
    cases h1 : p l with
    | none => rw [h1] at ha; simp at ha
    | some d =>
      cases h2 : procAll p t with
      | none => rw [h1, h2] at ha; simp at ha
      | some r =>
        rw [h1, h2] at ha
        simp only [Option.some.injEq] at ha
        subst ha
        rw [List.cons_append, procAll, h1, ih h2]
        rfl

theorem procAll_map {p : Line → Option D} : ∀ {l : List Line} {ds : List D}, procAll p l = some ds → ds.map some = l.map p := by
  intro l
  induction l with
  | nil =>
    intro ds h
    simp only [procAll, Option.some.injEq] at h
    subst h
    rfl
  | cons a t ih =>
    intro ds h
    unfold procAll at h
    cases h1 : p a with
    | none => rw [h1] at h; simp at h
    | some d =>
      cases h2 : procAll p t with
      | none => rw [h1, h2] at h; simp at h
      | some r =>
        rw [h1, h2] at h
        simp only [Option.some.injEq] at h
        subst h
        simp [h1, ih h2]

theorem procAll_ok {p : Line → Option D} : ∀ {l : List Line}, (∀ x ∈ l, (p x).isSome) → ∃ ds, procAll p l = some ds := by
  intro l
  induction l with
  | nil => intro _; exact ⟨[], rfl⟩
  | cons a t ih =>
    intro h
    obtain ⟨d, hd⟩ := Option.isSome_iff_exists.1 (h a (by simp))
    obtain ⟨r, hr⟩ := ih (fun x hx => h x (by simp [hx]))
    exact ⟨d :: r, by simp [procAll, hd, hr]⟩

theorem procAll_length {p : Line → Option D} {l : List Line} {ds : List D} (h : procAll p l = some ds) : ds.length = l.length := by
  have := congrArg List.length (procAll_map h)
  simpa using this

theorem readLines_cases (file : List Line) (pos chunk : Nat) : (readLines file pos chunk = [] ∧ file.length ≤ pos) ∨
    (readLines file pos chunk ≠ [] ∧ pos + (readLines file pos chunk).length ≤ file.length ∧ 1 ≤ (readLines file pos chunk).length ∧
      file.take (pos + (readLines file pos chunk).length) = file.take pos ++ readLines file pos chunk) := by
  have hlen : (readLines file pos chunk).length = min (max 1 chunk) (file.length - pos) := by simp [readLines]
  by_cases h : file.length ≤ pos
  · left
    refine ⟨?_, h⟩
    apply List.eq_nil_of_length_eq_zero
    rw [hlen]
    omega
  · right
    have h1 : 1 ≤ (readLines file pos chunk).length := by rw [hlen]; omega
    refine ⟨fun he => by rw [he] at h1; simp at h1, by rw [hlen]; omega, h1, ?_⟩
    rw [List.take_add]
    congr 1
    rw [hlen]
    unfold readLines
    rcases Nat.le_total (max 1 chunk) (file.length - pos) with hm | hm
    · rw [Nat.min_eq_left hm]
    · rw [Nat.min_eq_right hm, List.take_of_length_le (by simp), List.take_of_length_le (by simp; omega)]

/-- What is always true. -/
structure Inv (c : Corpus Line D) (s : St D) : Prop where
  pos : ∀ k, s.at_ k ≤ (c.file k).length
  data : ∀ k, procAll (c.proc k) ((c.file k).take (s.at_ k)) = some (s.data k)
  count : ∀ n, s.phase = .count n → n ≤ (c.file .source).length ∧ s.dataLen = none
  len : (∀ n, s.phase ≠ .count n) → s.dataLen = some (c.file .source).length
  todo : ∀ todo i, s.phase = .round todo i → todo.Sublist c.keys ∧
    ∀ k ∈ c.keys, k ∉ todo → s.at_ k = (c.file k).length ∧ (c.file k).length = (c.file .source).length
  fin : s.phase = .done → ∀ k ∈ c.keys, s.at_ k = (c.file k).length ∧ (c.file k).length = (c.file .source).length

theorem inv_start (c : Corpus Line D) : Inv c (start : St D) := by
  refine ⟨fun k => Nat.zero_le _, fun k => by simp [start, procAll], ?_, ?_, ?_, ?_⟩
  · intro n h
    simp only [start, Phase.count.injEq] at h
    subst h
    exact ⟨Nat.zero_le _, rfl⟩
  · intro h
    exact absurd rfl (h 0)
  · intro todo i h
    cases h
  · intro h
    cases h

/-- How many steps the thread may still need. -/
def mu (c : Corpus Line D) (s : St D) : Nat :=
  match s.phase with
  | .count n => 2 * ((c.file .source).length - s.at_ .source + ((c.file .target).length - s.at_ .target) + c.keys.length) + 2 + ((c.file .source).length - n)
  | .round todo i => 2 * ((c.file .source).length - s.at_ .source + ((c.file .target).length - s.at_ .target) + todo.length) + (if todo.length ≤ i then 1 else 0)
  | .done => 0
  | .failed => 0

theorem step_ok (c : Corpus Line D) (hk : c.keys.Nodup) (chunk : Nat) {s : St D} (h : Inv c s) :
    Inv c (step c chunk s) ∧ (s.phase ≠ .done → s.phase ≠ .failed → mu c (step c chunk s) < mu c s) ∧
    ((∀ k ∈ c.keys, (c.file k).length = (c.file .source).length ∧ ∀ l ∈ c.file k, (c.proc k l).isSome) → s.phase ≠ .failed → (step c chunk s).phase ≠ .failed) := by
  unfold step
  cases hp : s.phase with
  | done => exact ⟨by simpa using h, fun h => absurd rfl h, fun _ _ => by simp [hp]⟩
  | failed => exact ⟨by simpa using h, fun _ h => absurd rfl h, fun _ h => absurd rfl h⟩
  | count n =>
    obtain ⟨h1, h2⟩ := h.count n hp
    simp only
    unfold countStep
    rcases readLines_cases (c.file .source) n chunk with ⟨he, hle⟩ | ⟨hne, hb, h3, _⟩
    · rw [he]
      simp only
      have hn : n = (c.file .source).length := by omega
      refine ⟨⟨h.pos, h.data, ?_, ?_, ?_, ?_⟩, ?_, ?_⟩
      · intro m hm; cases hm
      · intro _; simp [hn]
      · intro todo i ht
        simp only [Phase.round.injEq] at ht
        obtain ⟨rfl, rfl⟩ := ht
        exact ⟨List.Sublist.refl _, fun k hk1 hk2 => absurd hk1 hk2⟩
      · intro hd; cases hd
      · intro _ _
        simp only [mu, hp]
        split <;> omega
      · intro _ _ hf; cases hf
    · generalize hls : readLines (c.file .source) n chunk = ls at *
      cases ls with
      | nil => exact absurd rfl hne
      | cons a t =>
        simp only
        refine ⟨⟨h.pos, h.data, ?_, ?_, ?_, ?_⟩, ?_, ?_⟩
        · intro m hm
          simp only [Phase.count.injEq] at hm
          subst hm
          exact ⟨hb, h2⟩
        · intro hc; exact absurd rfl (hc _)
        · intro todo i ht; cases ht
        · intro hd; cases hd
        · intro _ _
          simp only [mu, hp]
          omega
        · intro _ _ hf; cases hf
  | round todo i =>
    obtain ⟨h1, h2⟩ := h.todo todo i hp
    have hlen := h.len (by intro n hn; rw [hp] at hn; cases hn)
    have hnd : todo.Nodup := h1.nodup hk
    simp only
    cases hi : todo[i]? with
    | none =>
      have hi' : todo.length ≤ i := by simpa using hi
      simp only
      by_cases ht : todo = []
      · rw [if_pos ht]
        refine ⟨⟨h.pos, h.data, ?_, fun _ => hlen, ?_, ?_⟩, ?_, ?_⟩
        · intro m hm; cases hm
        · intro t' i' ht'; cases ht'
        · intro _ k hkk
          exact h2 k hkk (by rw [ht]; simp)
        · intro _ _
          simp only [mu, hp, if_pos hi']
          omega
        · intro _ _ hf; cases hf
      · rw [if_neg ht]
        refine ⟨⟨h.pos, h.data, ?_, fun _ => hlen, ?_, ?_⟩, ?_, ?_⟩
        · intro m hm; cases hm
        · intro t' i' ht'
          simp only [Phase.round.injEq] at ht'
          obtain ⟨rfl, rfl⟩ := ht'
          exact ⟨h1, h2⟩
        · intro hd; cases hd
        · intro _ _
          have : ¬ todo.length ≤ 0 := by
            intro h0
            exact ht (List.eq_nil_of_length_eq_zero (by omega))
          simp only [mu, hp, if_pos hi', if_neg this]
          omega
        · intro _ _ hf; cases hf
    | some k =>
      have hi' : i < todo.length := (List.getElem?_eq_some_iff.1 hi).1
      have hkt : k ∈ todo := List.mem_of_getElem? hi
      have hkk : k ∈ c.keys := h1.subset hkt
      have hdl : (s.data k).length = s.at_ k := by
        have := procAll_length (h.data k)
        rw [List.length_take, Nat.min_eq_left (h.pos k)] at this
        exact this
      simp only
      unfold fileStep
      have hmuP : 0 < mu c s := by
        simp only [mu, hp]
        omega
      have hfailInv : Inv c { s with phase := .failed } :=
        ⟨h.pos, h.data, fun m hm => by (cases hm), fun _ => hlen, fun t' i' ht' => by (cases ht'), fun hd => by (cases hd)⟩
      rcases readLines_cases (c.file k) (s.at_ k) chunk with ⟨he, hle⟩ | ⟨hne, hb, h3, h4⟩
      · rw [he]
        simp only [hdl, hlen, Option.getD_some]
        have hat : s.at_ k = (c.file k).length := Nat.le_antisymm (h.pos k) hle
        by_cases hcond : s.at_ k = (c.file .source).length
        · rw [if_pos hcond]
          refine ⟨⟨h.pos, h.data, ?_, fun _ => rfl, ?_, ?_⟩, ?_, ?_⟩
          · intro m hm; cases hm
          · intro t' i' ht'
            simp only [Phase.round.injEq] at ht'
            obtain ⟨rfl, rfl⟩ := ht'
            refine ⟨(List.erase_sublist).trans h1, ?_⟩
            intro k' hk1 hk2
            by_cases hkk' : k' = k
            · subst hkk'
              exact ⟨hat, by rw [← hat, hcond]⟩
            · exact h2 k' hk1 (fun hm => hk2 ((List.mem_erase_of_ne hkk').2 hm))
          · intro hd; cases hd
          · intro _ _
            have hlen' : (todo.erase k).length = todo.length - 1 := List.length_erase_of_mem hkt
            simp only [mu, hp, hlen', if_neg (show ¬ todo.length ≤ i by omega)]
            split <;> omega
          · intro _ _ hf; cases hf
        · rw [if_neg hcond]
          refine ⟨by simpa [hlen] using hfailInv, fun _ _ => by simpa [mu] using hmuP, ?_⟩
          intro hgood _ _
          exact hcond (by rw [hat]; exact (hgood k hkk).1)
      · generalize hls : readLines (c.file k) (s.at_ k) chunk = ls at *
        cases ls with
        | nil => exact absurd rfl hne
        | cons a t =>
          simp only [hdl, hlen, Option.getD_some]
          by_cases hcond : s.at_ k + (a :: t).length ≤ (c.file .source).length
          · rw [if_pos hcond]
            cases hpr : procAll (c.proc k) (a :: t) with
            | none =>
              simp only
              refine ⟨by simpa [hlen] using hfailInv, fun _ _ => by simpa [mu] using hmuP, ?_⟩
              intro hgood _ _
              obtain ⟨ds, hds⟩ := procAll_ok (p := c.proc k) (l := a :: t) (by
                intro x hx
                apply (hgood k hkk).2
                have : x ∈ (c.file k).take (s.at_ k + (a :: t).length) := by rw [h4]; simp at hx ⊢; tauto
                exact (List.take_prefix _ _).subset this)
              rw [hpr] at hds
              cases hds
            | some ds =>
              simp only
              refine ⟨⟨?_, ?_, ?_, fun _ => rfl, ?_, ?_⟩, ?_, ?_⟩
              · intro k'
                simp only [upd]
                split
                · rename_i hkk'
                  rw [hkk']
                  exact hb
                · exact h.pos k'
              · intro k'
                simp only [upd]
                by_cases hkk' : k' = k
                · subst hkk'
                  rw [if_pos rfl, if_pos rfl, h4]
                  exact procAll_append _ _ _ (h.data k') hpr
                · rw [if_neg hkk', if_neg hkk']
                  exact h.data k'
              · intro m hm; cases hm
              · intro t' i' ht'
                simp only [Phase.round.injEq] at ht'
                obtain ⟨rfl, rfl⟩ := ht'
                refine ⟨h1, ?_⟩
                intro k' hk1 hk2
                have hne' : k' ≠ k := by
                  rintro rfl
                  exact hk2 hkt
                simp only [upd, if_neg hne']
                exact h2 k' hk1 hk2
              · intro hd; cases hd
              · intro _ _
                simp only [mu, hp, if_neg (show ¬ todo.length ≤ i by omega)]
                simp only [List.length_cons] at hb ⊢
                cases k with
                | source =>
                  have e2 : (Key.target = Key.source) = False := by simp
                  simp only [upd, if_true, e2, if_false]
                  split <;> omega
                | target =>
                  have e2 : (Key.source = Key.target) = False := by simp
                  simp only [upd, if_true, e2, if_false]
                  split <;> omega
              · intro _ _ hf; cases hf
          · rw [if_neg hcond]
            refine ⟨by simpa [hlen] using hfailInv, fun _ _ => by simpa [mu] using hmuP, ?_⟩
            intro hgood _ _
            apply hcond
            rw [← (hgood k hkk).1]
            exact hb

theorem run_inv (c : Corpus Line D) (hk : c.keys.Nodup) (chunks : Nat → Nat) : ∀ n, Inv c (run c chunks n) := by
  intro n
  induction n with
  | zero => exact inv_start c
  | succ n ih => exact (step_ok c hk _ ih).1

theorem run_stays (c : Corpus Line D) (chunks : Nat → Nat) {n : Nat} (h : (run c chunks n).phase = .done ∨ (run c chunks n).phase = .failed) :
    ∀ m, n ≤ m → run c chunks m = run c chunks n := by
  intro m hm
  induction m with
  | zero =>
    have : n = 0 := by omega
    subst this
    rfl
  | succ m ih =>
    by_cases he : n = m + 1
    · subst he; rfl
    · have := ih (by omega)
      rw [run, this]
      unfold step
      rcases h with h | h <;> rw [h]

theorem run_ends (c : Corpus Line D) (hk : c.keys.Nodup) (chunks : Nat → Nat) :
    ∃ n, (run c chunks n).phase = .done ∨ (run c chunks n).phase = .failed := by
  by_contra hcon
  have hnot : ∀ n, (run c chunks n).phase ≠ .done ∧ (run c chunks n).phase ≠ .failed := by
    intro n
    constructor
    · exact fun h => hcon ⟨n, .inl h⟩
    · exact fun h => hcon ⟨n, .inr h⟩
  have hdec : ∀ n, mu c (run c chunks n) + n ≤ mu c (start : St D) := by
    intro n
    induction n with
    | zero => exact Nat.le_refl _
    | succ n ih =>
      have := (step_ok c hk (chunks n) (run_inv c hk chunks n)).2.1 (hnot n).1 (hnot n).2
      rw [run]
      omega
  have := hdec (mu c (start : St D) + 1)
  omega

end Verif.TransData
