import Verif.LockFile.Model
import Mathlib.Order.Basic
/-
C29: mutual exclusion of `LockFile`.
-/
namespace Verif.LockFile

/-- Nobody holds the lock for longer than the timeout without touching the file: time goes on only as long as the lock file of a process
which holds the lock is not older than the timeout. -/
def Fresh (timeout : Int) (s : St) : Ev → Prop
  | .tick d => ∀ f, s.file = some f → s.pc f.owner = .held → s.now + d - f.mtime ≤ timeout
  | _ => True

/-- A process removes an old lock file only if it is still the file which it has looked at (not made again or touched since). -/
def SameFile (s : St) : Ev → Prop
  | .next p => ∀ m f, s.pc p = .remove m → s.file = some f → f.mtime = m
  | _ => True

@[simp] theorem setPc_pc (s : St) (p : Nat) (c : Pc) (q : Nat) : (s.setPc p c).pc q = if q = p then c else s.pc q := rfl
@[simp] theorem setPc_file (s : St) (p : Nat) (c : Pc) : (s.setPc p c).file = s.file := rfl
@[simp] theorem setPc_now (s : St) (p : Nat) (c : Pc) : (s.setPc p c).now = s.now := rfl

structure Inv (timeout : Int) (s : St) : Prop where
  /-- who holds the lock owns the file -/
  own : ∀ p, s.pc p = .held → ∃ f, s.file = some f ∧ f.owner = p
  fresh : ∀ f, s.file = some f → s.pc f.owner = .held → s.now - f.mtime ≤ timeout
  past : ∀ f, s.file = some f → f.mtime ≤ s.now
  old : ∀ p m, s.pc p = .remove m → s.now - m > timeout
  seen : ∀ p m, s.pc p = .decide m → m ≤ s.now
  noFail : ∀ p, s.pc p ≠ .failed

theorem inv_step {timeout : Int} (h0 : 0 ≤ timeout) {s s' : St} {e : Ev} (h : Inv timeout s) (hf : Fresh timeout s e) (hsame : SameFile s e)
    (hs : step timeout s e = some s') : Inv timeout s' := by
  -- a step which only changes the pc of a process to something harmless
  have harmless : ∀ (p : Nat) (c : Pc), c ≠ .held → c ≠ .failed → (∀ m, c = .remove m → s.now - m > timeout) → (∀ m, c = .decide m → m ≤ s.now) →
      Inv timeout (s.setPc p c) := by
    intro p c h1 h2 h3 h4
    refine ⟨?_, ?_, h.past, ?_, ?_, ?_⟩
    · intro q hq
      simp only [setPc_pc] at hq
      split at hq
      · exact absurd hq h1
      · exact h.own q hq
    · intro f hf hq
      simp only [setPc_pc] at hq
      split at hq
      · exact absurd hq h1
      · exact h.fresh f hf hq
    · intro q m hq
      simp only [setPc_pc] at hq
      split at hq
      · exact h3 m hq
      · exact h.old q m hq
    · intro q m hq
      simp only [setPc_pc] at hq
      split at hq
      · exact h4 m hq
      · exact h.seen q m hq
    · intro q hq
      simp only [setPc_pc] at hq
      split at hq
      · exact h2 hq
      · exact h.noFail q hq
  cases e with
  | next p =>
    simp only [step, next] at hs
    split at hs
    · -- start
      rename_i hp
      split at hs
      · rename_i hfile
        simp only [Option.some.injEq] at hs
        subst hs
        refine ⟨?_, ?_, ?_, ?_, ?_, ?_⟩
        · intro q hq
          simp only [setPc_pc] at hq
          split at hq
          · rename_i he; exact ⟨_, rfl, he.symm⟩
          · obtain ⟨f, hf', _⟩ := h.own q hq
            rw [hfile] at hf'; simp at hf'
        · intro f hf' _
          simp only [setPc_file, Option.some.injEq] at hf'
          subst hf'
          simpa using h0
        · intro f hf'
          simp only [setPc_file, Option.some.injEq] at hf'
          subst hf'
          exact Int.le_refl _
        · intro q m hq
          simp only [setPc_pc] at hq
          split at hq
          · simp at hq
          · exact h.old q m hq
        · intro q m hq
          simp only [setPc_pc] at hq
          split at hq
          · simp at hq
          · exact h.seen q m hq
        · intro q hq
          simp only [setPc_pc] at hq
          split at hq
          · simp at hq
          · exact h.noFail q hq
      · simp only [Option.some.injEq] at hs
        subst hs
        exact harmless p .stat (by simp) (by simp) (by simp) (by simp)
    · -- stat
      split at hs
      · simp only [Option.some.injEq] at hs
        subst hs
        exact harmless p .start (by simp) (by simp) (by simp) (by simp)
      · rename_i f hfile
        simp only [Option.some.injEq] at hs
        subst hs
        refine harmless p (.decide f.mtime) (by simp) (by simp) (by simp) ?_
        intro m hm
        simp only [Pc.decide.injEq] at hm
        rw [← hm]; exact h.past f hfile
    · -- decide
      rename_i m hp
      split at hs
      · rename_i hc
        simp only [Option.some.injEq] at hs
        subst hs
        refine harmless p (.remove m) (by simp) (by simp) ?_ (by simp)
        intro m' hm'
        simp only [Pc.remove.injEq] at hm'
        subst hm'
        have := h.seen p m hp
        omega
      · simp only [Option.some.injEq] at hs
        subst hs
        exact harmless p .start (by simp) (by simp) (by simp) (by simp)
    · -- remove
      rename_i m hp
      simp only [Option.some.injEq] at hs
      subst hs
      have hold := h.old p m hp
      have hnone : ∀ q, s.pc q ≠ .held := by
        intro q hq
        obtain ⟨f, hfile, ho⟩ := h.own q hq
        have h1 := hsame m f hp hfile
        have h2 := h.fresh f hfile (by rw [ho]; exact hq)
        omega
      refine ⟨?_, by simp, by simp, ?_, ?_, ?_⟩
      · intro q hq
        simp only [setPc_pc] at hq
        split at hq
        · simp at hq
        · exact absurd hq (hnone q)
      · intro q m' hq
        simp only [setPc_pc] at hq
        split at hq
        · simp at hq
        · exact h.old q m' hq
      · intro q m' hq
        simp only [setPc_pc] at hq
        split at hq
        · simp at hq
        · exact h.seen q m' hq
      · intro q hq
        simp only [setPc_pc] at hq
        split at hq
        · simp at hq
        · exact h.noFail q hq
    · simp at hs
  | unlock p =>
    simp only [step, unlock] at hs
    split at hs
    · rename_i hp
      obtain ⟨f, hfile, ho⟩ := h.own p hp
      rw [hfile] at hs
      simp only [Option.some.injEq] at hs
      subst hs
      refine ⟨?_, by simp, by simp, ?_, ?_, ?_⟩
      · intro q hq
        simp only [setPc_pc] at hq
        split at hq
        · simp at hq
        · rename_i hne
          obtain ⟨f', hf', ho'⟩ := h.own q hq
          rw [hfile] at hf'
          simp only [Option.some.injEq] at hf'
          rw [hf', ho'] at ho
          exact absurd ho hne
      · intro q m' hq
        simp only [setPc_pc] at hq
        split at hq
        · simp at hq
        · exact h.old q m' hq
      · intro q m' hq
        simp only [setPc_pc] at hq
        split at hq
        · simp at hq
        · exact h.seen q m' hq
      · intro q hq
        simp only [setPc_pc] at hq
        split at hq
        · simp at hq
        · exact h.noFail q hq
    · simp at hs
  | touch p =>
    simp only [step] at hs
    split at hs
    · simp only [Option.some.injEq] at hs
      subst hs
      refine ⟨?_, ?_, ?_, h.old, h.seen, h.noFail⟩
      · intro q hq
        obtain ⟨f, hfile, ho⟩ := h.own q hq
        exact ⟨⟨f.owner, s.now⟩, by simp [hfile], ho⟩
      · intro f hf' _
        obtain ⟨g, _, hg⟩ := Option.map_eq_some_iff.mp hf'
        subst hg
        simpa using h0
      · intro f hf'
        obtain ⟨g, _, hg⟩ := Option.map_eq_some_iff.mp hf'
        subst hg
        exact Int.le_refl _
    · simp at hs
  | crash p =>
    simp only [step, Option.some.injEq] at hs
    subst hs
    exact harmless p .dead (by simp) (by simp) (by simp) (by simp)
  | tick d =>
    simp only [step, Option.some.injEq] at hs
    subst hs
    refine ⟨h.own, ?_, ?_, ?_, ?_, h.noFail⟩
    · intro f hf' hq
      exact hf f hf' hq
    · intro f hf'
      have := h.past f hf'
      simp only; omega
    · intro q m hq
      have := h.old q m hq
      simp only; omega
    · intro q m hq
      have := h.seen q m hq
      simp only; omega

theorem inv_reach {timeout : Int} (h0 : 0 ≤ timeout) {s : St} (h : Reach timeout (fun s e => Fresh timeout s e ∧ SameFile s e) s) : Inv timeout s := by
  induction h with
  | init now => constructor <;> simp
  | step _ hok hs ih => exact inv_step h0 ih hok.1 hok.2 hs

/-- C29, partial: for any number of processes, any interleaving and any crashes, at most one process holds the lock, and `unlock` does not
fail, if nobody holds the lock longer than the timeout without touching it, and if a process which removes an old lock file removes the
same file which it has found to be old. The code does not ensure the latter: the full statement is without `SameFile`, and it is false
(`two_holders`). -/
theorem mutex_partial {timeout : Int} (h0 : 0 ≤ timeout) {s : St} (h : Reach timeout (fun s e => Fresh timeout s e ∧ SameFile s e) s) :
    (∀ p q, s.pc p = .held → s.pc q = .held → p = q) ∧ ∀ p, s.pc p ≠ .failed := by
  have hI := inv_reach h0 h
  refine ⟨?_, hI.noFail⟩
  intro p q hp hq
  obtain ⟨f, hf, ho⟩ := hI.own p hp
  obtain ⟨g, hg, ho'⟩ := hI.own q hq
  rw [hf] at hg
  simp only [Option.some.injEq] at hg
  rw [← ho, ← ho', hg]

/-- No process dies, no lock file gets older than the timeout, and every mtime which was read is compared within the timeout. -/
def NoStale (timeout : Int) (s : St) : Ev → Prop
  | .crash _ => False
  | .tick d => (∀ f, s.file = some f → s.now + d - f.mtime ≤ timeout) ∧ ∀ p m, s.pc p = .decide m → s.now + d - m ≤ timeout
  | _ => True

/-- C29. Under these conditions no lock file is ever removed by a waiting process, and at most one process holds the lock, for any number of
processes and any interleaving. -/
theorem mutex_no_crash {timeout : Int} (h0 : 0 ≤ timeout) {s : St} (h : Reach timeout (NoStale timeout) s) :
    (∀ p q, s.pc p = .held → s.pc q = .held → p = q) ∧ ∀ p, s.pc p ≠ .failed := by
  have key : Inv timeout s ∧ (∀ p m, s.pc p ≠ .remove m) ∧ (∀ f, s.file = some f → s.now - f.mtime ≤ timeout) ∧
      ∀ p m, s.pc p = .decide m → s.now - m ≤ timeout := by
    induction h with
    | init now => refine ⟨by constructor <;> simp, by simp, by simp, by simp⟩
    | @step s s' e _ hok hs ih =>
      obtain ⟨hI, hno, hage, hdec⟩ := ih
      have hI' : Inv timeout s' := by
        refine inv_step h0 hI ?_ ?_ hs
        · cases e <;> simp only [Fresh]
          intro f hf _
          exact hok.1 f hf
        · cases e <;> simp only [SameFile]
          intro m f hp
          exact absurd hp (hno _ m)
      refine ⟨hI', ?_, ?_, ?_⟩
      · intro q m hq
        cases e with
        | next p =>
          simp only [step, next] at hs
          split at hs
          · split at hs <;> simp only [Option.some.injEq] at hs <;> subst hs <;> simp only [setPc_pc] at hq <;> split at hq
            all_goals first | exact absurd hq (by simp) | exact hno q m hq
          · split at hs <;> simp only [Option.some.injEq] at hs <;> subst hs <;> simp only [setPc_pc] at hq <;> split at hq
            all_goals first | exact absurd hq (by simp) | exact hno q m hq
          · rename_i m' hp
            split at hs
            · rename_i hc
              have h1 := hdec p m' hp
              have h2 := hI.seen p m' hp
              omega
            · simp only [Option.some.injEq] at hs
              subst hs
              simp only [setPc_pc] at hq
              split at hq
              · exact absurd hq (by simp)
              · exact hno q m hq
          · rename_i m' hp
            exact hno p m' hp
          · simp at hs
        | unlock p =>
          simp only [step, unlock] at hs
          split at hs
          · split at hs <;> simp only [Option.some.injEq] at hs <;> subst hs <;> simp only [setPc_pc] at hq <;> split at hq
            all_goals first | exact absurd hq (by simp) | exact hno q m hq
          · simp at hs
        | touch p =>
          simp only [step] at hs
          split at hs
          · simp only [Option.some.injEq] at hs; subst hs; exact hno q m hq
          · simp at hs
        | crash p => exact hok
        | tick d => simp only [step, Option.some.injEq] at hs; subst hs; exact hno q m hq
      · intro f hf
        cases e with
        | next p =>
          simp only [step, next] at hs
          split at hs
          · split at hs <;> simp only [Option.some.injEq] at hs <;> subst hs
            · simp only [setPc_file, Option.some.injEq] at hf
              subst hf
              simpa using h0
            · exact hage f hf
          · split at hs <;> simp only [Option.some.injEq] at hs <;> subst hs <;> exact hage f hf
          · split at hs <;> simp only [Option.some.injEq] at hs <;> subst hs <;> exact hage f hf
          · simp only [Option.some.injEq] at hs; subst hs; simp at hf
          · simp at hs
        | unlock p =>
          simp only [step, unlock] at hs
          split at hs
          · split at hs <;> simp only [Option.some.injEq] at hs <;> subst hs
            · exact hage f hf
            · simp at hf
          · simp at hs
        | touch p =>
          simp only [step] at hs
          split at hs
          · simp only [Option.some.injEq] at hs; subst hs
            obtain ⟨g, _, hg⟩ := Option.map_eq_some_iff.mp hf
            subst hg
            simpa using h0
          · simp at hs
        | crash p => exact absurd hok (by simp [NoStale])
        | tick d => simp only [step, Option.some.injEq] at hs; subst hs; exact hok.1 f hf
      · intro q m hq
        cases e with
        | next p =>
          simp only [step, next] at hs
          split at hs
          · split at hs <;> simp only [Option.some.injEq] at hs <;> subst hs <;> simp only [setPc_pc] at hq <;> split at hq
            all_goals first | exact absurd hq (by simp) | exact hdec q m hq
          · split at hs
            · simp only [Option.some.injEq] at hs
              subst hs
              simp only [setPc_pc] at hq
              split at hq
              · exact absurd hq (by simp)
              · exact hdec q m hq
            · rename_i f hfile
              simp only [Option.some.injEq] at hs
              subst hs
              simp only [setPc_pc] at hq
              split at hq
              · simp only [Pc.decide.injEq] at hq
                rw [← hq]; exact hage f hfile
              · exact hdec q m hq
          · split at hs <;> simp only [Option.some.injEq] at hs <;> subst hs <;> simp only [setPc_pc] at hq <;> split at hq
            all_goals first | exact absurd hq (by simp) | exact hdec q m hq
          · simp only [Option.some.injEq] at hs
            subst hs
            simp only [setPc_pc] at hq
            split at hq
            · exact absurd hq (by simp)
            · exact hdec q m hq
          · simp at hs
        | unlock p =>
          simp only [step, unlock] at hs
          split at hs
          · split at hs <;> simp only [Option.some.injEq] at hs <;> subst hs <;> simp only [setPc_pc] at hq <;> split at hq
            all_goals first | exact absurd hq (by simp) | exact hdec q m hq
          · simp at hs
        | touch p =>
          simp only [step] at hs
          split at hs
          · simp only [Option.some.injEq] at hs; subst hs; exact hdec q m hq
          · simp at hs
        | crash p => exact absurd hok (by simp [NoStale])
        | tick d => simp only [step, Option.some.injEq] at hs; subst hs; exact hok.2 q m hq
  refine ⟨?_, key.1.noFail⟩
  intro p q hp hq
  obtain ⟨f, hf, ho⟩ := key.1.own p hp
  obtain ⟨g, hg, ho'⟩ := key.1.own q hq
  rw [hf] at hg
  simp only [Option.some.injEq] at hg
  rw [← ho, ← ho', hg]

/-- Several events. -/
def runs (timeout : Int) (s : St) : List Ev → Option St
  | [] => some s
  | e :: es => match step timeout s e with | none => none | some s' => runs timeout s' es

/-- The events all satisfy `ok`. -/
def AllOk (timeout : Int) (ok : St → Ev → Prop) (s : St) : List Ev → Prop
  | [] => True
  | e :: es => ok s e ∧ match step timeout s e with | none => True | some s' => AllOk timeout ok s' es

theorem reach_runs {timeout : Int} {ok : St → Ev → Prop} (es : List Ev) : ∀ {s s' : St}, Reach timeout ok s → AllOk timeout ok s es →
    runs timeout s es = some s' → Reach timeout ok s' := by
  induction es with
  | nil => intro s s' h _ hr; simp only [runs, Option.some.injEq] at hr; rw [← hr]; exact h
  | cons e es ih =>
    intro s s' h hok hr
    simp only [runs] at hr
    simp only [AllOk] at hok
    split at hr
    · simp at hr
    · rename_i s1 hs1
      rw [hs1] at hok
      exact ih (.step h hok.1 hs1) hok.2 hr

/-- C29 fails: process 0 dies with the lock. Processes 1 and 2 both find its lock file to be old. Process 1 removes it and gets the lock.
Process 2 removes the new file of process 1, and gets the lock too. Nobody holds the lock longer than the timeout. -/
def raceEvents (timeout : Nat) : List Ev :=
  [.next 0, .crash 0, .tick (timeout + 1), .next 1, .next 1, .next 1, .next 2, .next 2, .next 2, .next 1, .next 1, .next 2, .next 2]

theorem two_holders (timeout : Nat) : ∃ s, Reach timeout (Fresh timeout) s ∧ s.pc 1 = .held ∧ s.pc 2 = .held := by
  have hc : (timeout : Int) < 1 + (timeout + 1) - 1 := by omega
  have h1 : AllOk timeout (Fresh timeout) { now := 1 } (raceEvents timeout) := by
    simp [raceEvents, AllOk, Fresh, step, next, St.setPc, hc]
  obtain ⟨s', hs', hp1, hp2⟩ : ∃ s', runs timeout { now := 1 } (raceEvents timeout) = some s' ∧ s'.pc 1 = .held ∧ s'.pc 2 = .held := by
    simp [raceEvents, runs, step, next, St.setPc, hc]
  exact ⟨s', reach_runs _ (.init 1) h1 hs', hp1, hp2⟩

/-- After that `unlock` of process 1 removes the lock of process 2, and `unlock` of process 2 fails. -/
theorem unlock_fails (timeout : Nat) : ∃ s, Reach timeout (Fresh timeout) s ∧ s.pc 1 = .done ∧ s.pc 2 = .failed := by
  have hc : (timeout : Int) < 1 + (timeout + 1) - 1 := by omega
  have h1 : AllOk timeout (Fresh timeout) { now := 1 } (raceEvents timeout ++ [.unlock 1, .unlock 2]) := by
    simp [raceEvents, AllOk, Fresh, step, next, unlock, St.setPc, hc]
  obtain ⟨s', hs', hp1, hp2⟩ : ∃ s', runs timeout { now := 1 } (raceEvents timeout ++ [.unlock 1, .unlock 2]) = some s' ∧ s'.pc 1 = .done ∧ s'.pc 2 = .failed := by
    simp [raceEvents, runs, step, next, unlock, St.setPc, hc]
  exact ⟨s', reach_runs _ (.init 1) h1 hs', hp1, hp2⟩

/-- C29, takeover: if the lock file is old (and its mtime is not 0), a waiting process which is not disturbed gets the lock by five more
system calls. -/
theorem takeover (timeout : Int) (s : St) (f : File) (hf : s.file = some f) (h0 : f.mtime ≠ 0) (hold : s.now - f.mtime > timeout) (p : Nat)
    (hp : s.pc p = .start) :
    ∃ s', runs timeout s [.next p, .next p, .next p, .next p, .next p] = some s' ∧ s'.pc p = .held ∧ s'.file = some ⟨p, s.now⟩ := by
  have hold' : timeout < s.now - f.mtime := hold
  simp [runs, step, next, hp, hf, h0, hold', St.setPc]

/-- A lock file which is not old is respected: the process waits. -/
theorem waits (timeout : Int) (s : St) (f : File) (hf : s.file = some f) (hnew : s.now - f.mtime ≤ timeout) (hpast : f.mtime ≤ s.now) (h0 : 0 ≤ timeout) (p : Nat)
    (hp : s.pc p = .start) : ∃ s', runs timeout s [.next p, .next p, .next p] = some s' ∧ s'.pc p = .start ∧ s'.file = some f := by
  have h1 : ¬ timeout < s.now - f.mtime := by omega
  have h2 : ¬ timeout < f.mtime - s.now := by omega
  simp [runs, step, next, hp, hf, St.setPc, h1, h2]

/-- An execution which meets the conditions: takeover of a crashed lock, two processes one after another. -/
example : ∃ s, Reach 20 (fun s e => Fresh 20 s e ∧ SameFile s e) s ∧ s.pc 1 = .done ∧ s.pc 2 = .held := by
  let es : List Ev := [.next 0, .crash 0, .tick 21, .next 1, .next 1, .next 1, .next 1, .next 1, .tick 15, .touch 1, .next 2, .next 2, .next 2,
    .tick 15, .unlock 1, .next 2]
  have h1 : AllOk 20 (fun s e => Fresh 20 s e ∧ SameFile s e) { now := 1 } es := by
    simp [es, AllOk, Fresh, SameFile, step, next, unlock, St.setPc]
  obtain ⟨s', hs', hp1, hp2⟩ : ∃ s', runs 20 { now := 1 } es = some s' ∧ s'.pc 1 = .done ∧ s'.pc 2 = .held := by
    simp [es, runs, step, next, unlock, St.setPc]
  exact ⟨s', reach_runs _ (.init 1) h1 hs', hp1, hp2⟩

end Verif.LockFile
