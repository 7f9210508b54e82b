import Verif.FileCache.Thread
/-
C30: the touch thread.
-/
namespace Verif.FileCache.Thread

/-- A file is tracked only when it exists, and it is not deleted while it is tracked. -/
def Proper {κ : Type} (s : St κ) : Ev κ → Prop
  | .track f => f ∈ s.exist
  | .unlink f => f ∉ s.tracked
  | _ => True

/-- A file is also not deleted while the thread still has it in its list. -/
def NotPending {κ : Type} (s : St κ) : Ev κ → Prop
  | .unlink f => f ∉ s.pending
  | _ => True

/-- C30, partial: the thread stays alive if no file is deleted which is tracked or which was tracked at the begin of its round. The full
statement is with `Proper` only, and it is false (`thread_dies`). -/
theorem thread_alive_partial {κ : Type} [DecidableEq κ] {s : St κ} (h : Reach (fun s e => Proper s e ∧ NotPending s e) s) : s.alive = true := by
  have key : s.alive = true ∧ (∀ f ∈ s.tracked, f ∈ s.exist) ∧ ∀ f ∈ s.pending, f ∈ s.exist := by
    induction h with
    | init => simp
    | @step s s' e _ hok hs ih =>
      obtain ⟨h1, h2, h3⟩ := ih
      cases e with
      | track f =>
        simp only [step, Option.some.injEq] at hs
        subst hs
        refine ⟨h1, ?_, h3⟩
        intro g hg
        rcases List.mem_append.mp hg with hg | hg
        · exact h2 g hg
        · simp only [List.mem_singleton] at hg; subst hg; exact hok.1
      | untrack f =>
        simp only [step, Option.some.injEq] at hs
        subst hs
        exact ⟨h1, fun g hg => h2 g (List.mem_filter.mp hg).1, h3⟩
      | create f =>
        simp only [step, Option.some.injEq] at hs
        subst hs
        exact ⟨h1, fun g hg => List.mem_cons_of_mem _ (h2 g hg), fun g hg => List.mem_cons_of_mem _ (h3 g hg)⟩
      | unlink f =>
        simp only [step, Option.some.injEq] at hs
        subst hs
        refine ⟨h1, fun g hg => ?_, fun g hg => ?_⟩
        · refine List.mem_filter.mpr ⟨h2 g hg, ?_⟩
          have : g ≠ f := fun e => hok.1 (e ▸ hg)
          simpa using this
        · refine List.mem_filter.mpr ⟨h3 g hg, ?_⟩
          have : g ≠ f := fun e => hok.2 (e ▸ hg)
          simpa using this
      | snapshot =>
        simp only [step] at hs
        split at hs
        · simp only [Option.some.injEq] at hs
          subst hs
          exact ⟨h1, h2, h2⟩
        · simp at hs
      | touch =>
        simp only [step, h1, if_true] at hs
        split at hs
        · simp at hs
        · rename_i f fs hp
          have := h3 f (by rw [hp]; simp)
          simp only [this, if_true, Option.some.injEq] at hs
          subst hs
          exact ⟨rfl, h2, fun g hg => h3 g (by rw [hp]; simp [hg])⟩
  exact key.1

/-- Several events. -/
def runs {κ : Type} [DecidableEq κ] (s : St κ) : List (Ev κ) → Option (St κ)
  | [] => some s
  | e :: es => match step s e with | none => none | some s' => runs s' es

theorem touch_all {κ : Type} [DecidableEq κ] (fs : List κ) : ∀ s : St κ, s.alive = true → s.pending = fs → (∀ f ∈ fs, f ∈ s.exist) →
    runs s (List.replicate fs.length .touch) = some { s with pending := [], touched := s.touched ++ fs } := by
  induction fs with
  | nil => intro s _ hp _; simp only [List.length_nil, List.replicate_zero, runs, List.append_nil]; rw [← hp]
  | cons f fs ih =>
    intro s ha hp he
    have hf := he f (List.mem_cons_self ..)
    have hs : step s .touch = some { s with pending := fs, touched := s.touched ++ [f] } := by
      simp only [step, ha, if_true, hp, hf]
    simp only [List.length_cons, List.replicate_succ, runs, hs]
    rw [ih { s with pending := fs, touched := s.touched ++ [f] } ha rfl (fun g hg => he g (List.mem_cons_of_mem _ hg))]
    simp

/-- C30. A round of the thread in which nothing is deleted touches exactly the tracked files. -/
theorem round_touches {κ : Type} [DecidableEq κ] (s : St κ) (ha : s.alive = true) (hp : s.pending = []) (he : ∀ f ∈ s.tracked, f ∈ s.exist) :
    runs s (.snapshot :: List.replicate s.tracked.length .touch) = some { s with pending := [], touched := s.tracked } := by
  have hs : step s .snapshot = some { s with pending := s.tracked, touched := [] } := by simp [step, ha, hp]
  simp only [runs, hs]
  rw [touch_all s.tracked { s with pending := s.tracked, touched := [] } ha rfl he]
  simp

/-- Once dead, the thread touches nothing anymore. -/
theorem dead_stays {κ : Type} [DecidableEq κ] (s : St κ) (ha : s.alive = false) (e : Ev κ) (s' : St κ) (h : step s e = some s') :
    s'.alive = false ∧ s'.touched = s.touched := by
  cases e with
  | snapshot => simp [step, ha] at h
  | touch => simp [step, ha] at h
  | track f => simp only [step, Option.some.injEq] at h; subst h; exact ⟨ha, rfl⟩
  | untrack f => simp only [step, Option.some.injEq] at h; subst h; exact ⟨ha, rfl⟩
  | create f => simp only [step, Option.some.injEq] at h; subst h; exact ⟨ha, rfl⟩
  | unlink f => simp only [step, Option.some.injEq] at h; subst h; exact ⟨ha, rfl⟩

/-- C30 fails: the lock file (328-330) is untracked and then deleted at the end of a `get_file` call. If the thread has read the list of
files before, it dies of the missing file, and the files in use (here `data`) are not kept alive anymore. -/
theorem thread_dies {κ : Type} [DecidableEq κ] (lock data : κ) (hne : lock ≠ data) :
    ∃ s, Reach (κ := κ) Proper s ∧ s.alive = false ∧ data ∈ s.tracked ∧ data ∈ s.exist := by
  have h0 : Reach (κ := κ) Proper {} := .init
  have h1 : Reach (κ := κ) Proper { exist := [data] } := .step (e := .create data) h0 trivial rfl
  have h2 : Reach (κ := κ) Proper { exist := [data], tracked := [data] } := .step (e := .track data) h1 (by simp [Proper]) rfl
  have h3 : Reach (κ := κ) Proper { exist := [lock, data], tracked := [data] } := .step (e := .create lock) h2 trivial rfl
  have h4 : Reach (κ := κ) Proper { exist := [lock, data], tracked := [data, lock] } := .step (e := .track lock) h3 (by simp [Proper]) rfl
  have h5 : Reach (κ := κ) Proper { exist := [lock, data], tracked := [data, lock], pending := [data, lock] } :=
    .step (e := .snapshot) h4 trivial rfl
  have h6 : Reach (κ := κ) Proper { exist := [lock, data], tracked := [data], pending := [data, lock] } :=
    .step (e := .untrack lock) h5 trivial (by simp [step, hne, hne.symm])
  have h7 : Reach (κ := κ) Proper { exist := [data], tracked := [data], pending := [data, lock] } :=
    .step (e := .unlink lock) h6 (by simp [Proper, hne]) (by simp [step, hne.symm])
  have h8 : Reach (κ := κ) Proper { exist := [data], tracked := [data], pending := [lock], touched := [data] } :=
    .step (e := .touch) h7 trivial (by simp [step])
  have h9 : Reach (κ := κ) Proper { exist := [data], tracked := [data], pending := [lock], touched := [data], alive := false } :=
    .step (e := .touch) h8 trivial (by simp [step, hne])
  exact ⟨_, h9, rfl, by simp, by simp⟩

example : runs ({} : St Nat) [.create 1, .track 1, .snapshot, .touch, .create 2, .track 2, .snapshot, .touch, .touch, .untrack 1, .unlink 1, .snapshot, .touch] =
    some { tracked := [2], exist := [2], touched := [2] } := by decide +kernel

end Verif.FileCache.Thread
