import Verif.NativeComp.Model
/-
C147: compiled libraries from the cache.
-/
namespace Verif.NativeComp
open Verif Verif.Py

/-- The states of the directory after any number of runs one after the other, each of which may have stopped anywhere. -/
inductive Reach : Dir → Prop
  | start : Reach empty
  | run {d d' : Dir} (c : Cfg) (r : Bool) : Reach d → (d', r) ∈ outcomes true c d → Reach d'

/-- If there is an info with keys, the library is missing or complete with these keys. -/
def Inv (d : Dir) : Prop := ∀ r, d.info = some (.keys r) → d.lib = none ∨ ∃ b, d.lib = some (.built b) ∧ b.relevant = r

theorem need_true (c : Cfg) (d : Dir) (cleanup : Bool) (h : needRecompile c d = .ok true) (p : Dir × Bool) : p ∈ outcomes cleanup c d ↔
    (∃ d' ∈ (if cleanup then cleanupStops d else []), p = (d', false)) ∨ (∃ d' ∈ compileStops c (if cleanup then empty else d), p = (d', false)) ∨ p = (compiled c, true) := by
  unfold outcomes
  rw [h]
  simp only [List.mem_append, List.mem_map, List.mem_singleton, eq_comm (b := p), or_assoc]

theorem inv_compiled (c : Cfg) : Inv (compiled c) := by
  intro r hr
  simp only [compiled, Option.some.injEq, Info.keys.injEq] at hr
  exact Or.inr ⟨c, rfl, hr⟩

theorem inv_step (c : Cfg) (d d' : Dir) (r : Bool) (hd : Inv d) (h : (d', r) ∈ outcomes true c d) : Inv d' := by
  cases hn : needRecompile c d with
  | error e => simp only [outcomes, hn, List.mem_singleton, Prod.mk.injEq] at h; rw [h.1]; exact hd
  | ok b =>
    cases b with
    | false => simp only [outcomes, hn, List.mem_singleton, Prod.mk.injEq] at h; rw [h.1]; exact hd
    | true =>
      rw [need_true c d true hn] at h
      rcases h with ⟨x, hx, h⟩ | ⟨x, hx, h⟩ | h
      · cases h
        simp only [if_true, cleanupStops, List.mem_cons, List.not_mem_nil, or_false] at hx
        rcases hx with rfl | rfl | rfl | rfl
        · exact hd
        · intro r _; exact Or.inl rfl
        · intro r hr; cases hr
        · intro r hr; cases hr
      · cases h
        simp only [if_true, compileStops, List.mem_cons, List.not_mem_nil, or_false, empty] at hx
        rcases hx with rfl | rfl | rfl | rfl <;> (intro r hr; cases hr)
      · cases h; exact inv_compiled c

/-- For runs one after the other, which may have stopped anywhere: when a run returns, there is a complete library, compiled from the same code, macros and flags. -/
theorem returned_up_to_date (c : Cfg) (d d' : Dir) (hd : Reach d) (h : (d', true) ∈ outcomes true c d) :
    ∃ b, d'.lib = some (.built b) ∧ b.relevant = c.relevant := by
  have hinv : Inv d := by
    clear h
    induction hd with
    | start => intro r hr; cases hr
    | run c r _ hm ih => exact inv_step c _ _ r ih hm
  cases hn : needRecompile c d with
  | error e => simp [outcomes, hn] at h
  | ok b =>
    cases b with
    | true =>
      rw [need_true c d true hn] at h
      rcases h with ⟨_, _, h⟩ | ⟨_, _, h⟩ | h
      · cases h
      · cases h
      · cases h; exact ⟨c, rfl, rfl⟩
    | false =>
      simp only [outcomes, hn, List.mem_singleton, Prod.mk.injEq, and_true] at h
      subst h
      unfold needRecompile at hn
      cases hl : d'.lib with
      | none => rw [hl] at hn; cases hn
      | some l =>
        rw [hl] at hn
        simp only at hn
        cases hi : d'.info with
        | none => rw [hi] at hn; cases hn
        | some i =>
          rw [hi] at hn
          cases i with
          | torn => cases hn
          | keys r =>
            simp only [infoDiffers, Except.ok.injEq, decide_eq_false_iff_not, Decidable.not_not] at hn
            rcases hinv r hi with h' | ⟨b, hb, hr⟩
            · rw [h'] at hl; cases hl
            · exact ⟨b, hl ▸ hb, hr.trans hn⟩

/-- A run on a directory without a torn info can return; and nothing is compiled again for the same keys. -/
theorem can_return (c : Cfg) (d : Dir) (h : d.info ≠ some .torn) : ∃ d', (d', true) ∈ outcomes true c d := by
  cases hn : needRecompile c d with
  | error e =>
    unfold needRecompile at hn
    cases hl : d.lib with
    | none => rw [hl] at hn; cases hn
    | some l =>
      rw [hl] at hn
      cases hi : d.info with
      | none => rw [hi] at hn; cases hn
      | some i => cases i with
        | torn => exact absurd hi h
        | keys r => rw [hi] at hn; cases hn
  | ok b => cases b with
    | false => exact ⟨d, by simp [outcomes, hn]⟩
    | true => exact ⟨compiled c, (need_true c d true hn _).2 (Or.inr (Or.inr rfl))⟩

/-- But what is not in the relevant keys is ignored: after a run for another ABI or other include paths, the library of that one is taken. -/
theorem abi_ignored (c c' : Cfg) (h : c.relevant = c'.relevant) : outcomes true c' (compiled c) = [(compiled c, true)] ∧ (compiled c).lib = some (.built c) := by
  simp [outcomes, needRecompile, compiled, infoDiffers, h]

/-- The library is complete, but is not that of the configuration. -/
theorem wrong_abi_reached : ∃ (c c' : Cfg) (d : Dir), c.cxx11Abi ≠ c'.cxx11Abi ∧ Reach d ∧ (d, true) ∈ outcomes true c' d ∧ d.lib = some (.built c) :=
  ⟨⟨0, true, []⟩, ⟨0, false, []⟩, compiled ⟨0, true, []⟩, by decide,
    .run ⟨0, true, []⟩ true .start ((need_true _ _ true rfl _).2 (Or.inr (Or.inr rfl))), by decide, rfl⟩

/-- A run which stops while the info is written leaves a directory for which every later run fails, and which stays as it is. -/
theorem torn_info_stays (c : Cfg) : ∃ d, Reach d ∧ ∀ (c' : Cfg) (cleanup : Bool), outcomes cleanup c' d = [(d, false)] :=
  ⟨⟨some (.built c), some .torn⟩, .run c false .start ((need_true _ _ true rfl _).2 (Or.inr (Or.inl ⟨_, by simp [compileStops], rfl⟩))),
    fun c' cleanup => by simp [outcomes, needRecompile, infoDiffers]⟩

/-- A run which waited for another one for the same configuration compiles again, in place; if it stops while the compiler writes, all later runs take the incomplete library. -/
theorem waited_incomplete (c : Cfg) (cleanup : Bool) : ∃ d, (d, false) ∈ outcomesWaited c (compiled c) ∧ d.lib = some .incomplete ∧ outcomes cleanup c d = [(d, true)] :=
  ⟨{ compiled c with lib := some .incomplete }, by simp [outcomesWaited, compileStops], rfl, by simp [outcomes, needRecompile, compiled, infoDiffers]⟩

/-- The same without the cleanup of the own directory: a run for other keys in the same directory which stops after the compiler leaves its library under the old info. -/
theorem without_cleanup_wrong (c c' : Cfg) (h : c.relevant ≠ c'.relevant) :
    ∃ d, (d, false) ∈ outcomes false c' (compiled c) ∧ d.lib = some (.built c') ∧ outcomes false c d = [(d, true)] := by
  refine ⟨{ compiled c with lib := some (.built c') }, ?_, rfl, by simp [outcomes, needRecompile, compiled, infoDiffers]⟩
  refine (need_true c' (compiled c) false (by simp [needRecompile, compiled, infoDiffers, h]) _).2 (Or.inr (Or.inl ⟨_, ?_, rfl⟩))
  simp [compileStops]

/-- The states after runs one after the other without the cleanup of the own directory, which is the default, for configurations with the same relevant keys, as it is if the
directory is named by the hash. -/
inductive ReachDefault (r : Nat) : Dir → Prop
  | start : ReachDefault r empty
  | run {d d' : Dir} (c : Cfg) (b : Bool) : c.relevant = r → ReachDefault r d → (d', b) ∈ outcomes false c d → ReachDefault r d'

theorem default_inv (r : Nat) (d : Dir) (h : ReachDefault r d) : ∀ k, d.info = some (.keys k) → k = r ∧ ∃ b, d.lib = some (.built b) ∧ b.relevant = r := by
  induction h with
  | start => intro k hk; cases hk
  | @run d d' c b hc _ hm ih =>
    cases hn : needRecompile c d with
    | error e => simp only [outcomes, hn, List.mem_singleton, Prod.mk.injEq] at hm; rw [hm.1]; exact ih
    | ok t =>
      cases t with
      | false => simp only [outcomes, hn, List.mem_singleton, Prod.mk.injEq] at hm; rw [hm.1]; exact ih
      | true =>
        have hno : ∀ k, d.info ≠ some (.keys k) := by
          intro k hk
          obtain ⟨rfl, b, hb, _⟩ := ih k hk
          simp [needRecompile, hb, hk, infoDiffers, hc] at hn
        rw [need_true c d false hn] at hm
        rcases hm with ⟨x, hx, h⟩ | ⟨x, hx, h⟩ | h
        · simp at hx
        · cases h
          simp only [Bool.false_eq_true, if_false, compileStops, List.mem_cons, List.not_mem_nil, or_false] at hx
          rcases hx with rfl | rfl | rfl | rfl
          · exact ih
          · intro k hk; exact absurd hk (hno k)
          · intro k hk; exact absurd hk (hno k)
          · intro k hk; cases hk
        · cases h
          intro k hk
          simp only [compiled, Option.some.injEq, Info.keys.injEq] at hk
          exact ⟨hk ▸ hc, c, rfl, hc⟩

/-- By default, too, for runs one after the other which may have stopped anywhere: when a run returns, there is a complete library for the same code, macros and flags. -/
theorem default_up_to_date (c : Cfg) (d d' : Dir) (hd : ReachDefault c.relevant d) (h : (d', true) ∈ outcomes false c d) :
    ∃ b, d'.lib = some (.built b) ∧ b.relevant = c.relevant := by
  have hr := default_inv _ _ (ReachDefault.run c true rfl hd h)
  cases hn : needRecompile c d with
  | error e => simp [outcomes, hn] at h
  | ok t =>
    cases t with
    | true =>
      rw [need_true c d false hn] at h
      rcases h with ⟨_, _, h⟩ | ⟨_, _, h⟩ | h
      · cases h
      · cases h
      · cases h; exact ⟨c, rfl, rfl⟩
    | false =>
      simp only [outcomes, hn, List.mem_singleton, Prod.mk.injEq, and_true] at h
      subst h
      unfold needRecompile at hn
      cases hl : d'.lib with
      | none => rw [hl] at hn; cases hn
      | some l =>
        rw [hl] at hn
        cases hi : d'.info with
        | none => rw [hi] at hn; cases hn
        | some i =>
          cases i with
          | torn => rw [hi] at hn; cases hn
          | keys k => rw [← hl]; exact (hr k hi).2

/-- But by default a cleanup from another process which stopped after it removed the library, and then a run which stops while the compiler writes, leave an incomplete
library which is taken. -/
theorem default_incomplete (c : Cfg) : ∃ d d', d ∈ cleanupStops (compiled c) ∧ (d', false) ∈ outcomes false c d ∧ d'.lib = some .incomplete ∧
    outcomes false c d' = [(d', true)] := by
  refine ⟨{ compiled c with lib := none }, { compiled c with lib := some .incomplete }, by simp [cleanupStops], ?_, rfl, by simp [outcomes, needRecompile, compiled, infoDiffers]⟩
  exact (need_true c _ false rfl _).2 (Or.inr (Or.inl ⟨_, by simp [compileStops], rfl⟩))

/-- What the cleanup of other directories deletes: those which are not locked and either corrupt or with a library older than the limit. -/
theorem deleted_iff (now days : Int) (e : Entry) : deleted now days e = true ↔
    e.own = false ∧ e.isDir = true ∧ e.locked = false ∧
    (e.infoTime = none ∨ e.libTime = none ∨ ∃ t, e.libTime = some t ∧ t + days * 86400 < now) := by
  unfold deleted
  cases e.own <;> cases e.isDir <;> cases e.locked <;> cases e.infoTime <;> cases e.libTime <;> simp
  omega

/-- A use of a library does not save it from the cleanup, although it is marked: the mark is on the info file and the time of the library counts. -/
theorem use_does_not_count (now days : Int) (e : Entry) (h : e.infoTime ≠ none) : deleted now days (touch now e) = deleted now days e := by
  unfold deleted touch
  cases hi : e.infoTime with
  | none => exact absurd hi h
  | some t => rfl

theorem used_now_deleted : ∃ (now : Int) (e : Entry), deleted now 60 (touch now e) = true ∧ e.infoTime ≠ none ∧ e.libTime ≠ none :=
  ⟨100 * 86400, ⟨false, true, false, some 0, some 0⟩, by decide, by decide, by decide⟩

example : Reach (compiled ⟨3, true, []⟩) := .run ⟨3, true, []⟩ true .start ((need_true _ _ true rfl _).2 (Or.inr (Or.inr rfl)))
example : (outcomes true ⟨4, true, []⟩ (compiled ⟨3, true, []⟩)).length = 9 := by decide

end Verif.NativeComp
