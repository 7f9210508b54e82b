import Verif.SprintData.Steps
import Mathlib.Tactic.Linarith
/-
C112: the buffer between the thread which adds sequences and the thread which reads them.
-/
namespace Verif.SprintData

variable {α : Type}

/-- C112: whatever the interleaving, each call of a forward reader gets the right result: `is_less_than_num_seqs` tells the truth, `load_seqs` does not fail, and `get_data` gives the sequence of that number. -/
theorem results_right (items : List α) (client : List (COp × CRes α) → Option COp) (hcl : ForwardClient client) (st : St α) (h : Run client (fresh items) st) :
    ∀ p ∈ st.hist, RightRes items p.1 p.2 := by
  obtain ⟨_, m, c, hi⟩ := run_inv hcl h
  exact hi.hhist

/-- C112: the adding thread never fails an assertion. -/
theorem adder_ok (items : List α) (client : List (COp × CRes α) → Option COp) (hcl : ForwardClient client) (st : St α) (h : Run client (fresh items) st) : ∀ hf : st.ppc = .failed, False := by
  intro hf
  obtain ⟨_, m, c, hi⟩ := run_inv hcl h
  cases hi.hp with
  | run hp => rw [hp] at hf; simp at hf
  | wait x aw hp => rw [hp] at hf; simp at hf
  | fin hp => rw [hp] at hf; simp at hf

/-- C112: no deadlock: while the reader is in a call or wants to call, some thread can go on. -/
theorem no_deadlock (items : List α) (client : List (COp × CRes α) → Option COp) (hcl : ForwardClient client) (st : St α) (h : Run client (fresh items) st)
    (hwant : (∃ op aw, st.cpc = .wait op aw) ∨ client st.hist ≠ none) : ∃ t, Step client st t := by
  obtain ⟨_, m, c, hi⟩ := run_inv hcl h
  cases hi.hc with
  | idle hc =>
    rcases hwant with ⟨op, aw, hw⟩ | hne
    · rw [hc] at hw; simp at hw
    · obtain ⟨op, hop⟩ := Option.ne_none_iff_exists'.1 hne
      exact ⟨_, .inr (by unfold stepC; rw [hc, hop]; rfl)⟩
  | wait op aw hc hni hs hlt hr haw =>
    cases aw with
    | true => exact ⟨_, .inr (by unfold stepC; rw [hc])⟩
    | false =>
      obtain ⟨hf, hm⟩ := haw rfl
      cases hi.hp with
      | run hp hn hpr =>
        cases hd : items.drop m with
        | nil => exact ⟨_, .inl (by unfold stepP; rw [hp, hpr, hd]; rfl)⟩
        | cons x r => exact ⟨_, .inl (by unfold stepP; rw [hp, hpr, hd]; rfl)⟩
      | fin hp hn hpr hf' => rw [hf] at hf'; simp at hf'
      | wait x aw' hp hx hn hpr hf' hrd haw' =>
        cases aw' with
        | true => exact ⟨_, .inl (by unfold stepP; rw [hp])⟩
        | false =>
          have := haw' rfl
          omega

/-- C112: when both threads are at rest, the reader is done and all sequences were added, or the adding thread waits because the buffer is full. -/
theorem at_rest (items : List α) (client : List (COp × CRes α) → Option COp) (hcl : ForwardClient client) (st : St α) (h : Run client (fresh items) st) (hrest : ∀ t, ¬ Step client st t) :
    client st.hist = none ∧ ((st.sh.final = true ∧ st.sh.next = items.length) ∨ ∃ i x, st.ppc = .waitAdd i x false ∧ i + 1 > st.sh.requested + 100) := by
  constructor
  · by_contra hne
    obtain ⟨t, ht⟩ := no_deadlock items client hcl st h (.inr hne)
    exact hrest t ht
  · obtain ⟨_, m, c, hi⟩ := run_inv hcl h
    cases hi.hp with
    | run hp hn hpr =>
      exfalso
      cases hd : items.drop m with
      | nil => exact hrest _ (.inl (by unfold stepP; rw [hp, hpr, hd]; rfl))
      | cons x r => exact hrest _ (.inl (by unfold stepP; rw [hp, hpr, hd]; rfl))
    | fin hp hn hpr hf hm => exact .inl ⟨hf, hn.trans hm⟩
    | wait x aw hp hx hn hpr hf hr haw =>
      cases aw with
      | true => exact absurd (.inl (by unfold stepP; rw [hp])) (hrest (addCheck st m x))
      | false => exact .inr ⟨m, x, hp, haw rfl⟩

/-- C112: the adding thread is never more than 200 sequences (and one in its hands) ahead of what was asked for. -/
theorem buffer_bounded (items : List α) (client : List (COp × CRes α) → Option COp) (hcl : ForwardClient client) (st : St α) (h : Run client (fresh items) st) :
    st.sh.next ≤ st.sh.requested + 201 ∧ st.sh.added.length ≤ st.sh.requested + 200 := by
  obtain ⟨_, m, c, hi⟩ := run_inv hcl h
  have hn : st.sh.next ≤ m + 1 := by
    cases hi.hp with
    | run hp hn => omega
    | wait x aw hp hx hn => omega
    | fin hp hn => omega
  have hmx : m ≤ st.sh.requested + 200 := hi.hnext
  refine ⟨by omega, ?_⟩
  rw [hi.hadd]
  unfold part
  rw [List.length_drop, List.length_take]
  omega

/-! ### Every call ends -/

def PPc.phase : PPc α → Int
  | .waitAdd _ _ aw => if aw then 5 else 4
  | .waitEp _ aw => if aw then 5 else 4
  | _ => 0

def CPc.phase : CPc → Int
  | .idle => 3
  | .wait _ aw => if aw then 1 else 0

/-- What is left to do, less what the reader got. -/
def pot (st : St α) : Int := 8 * st.prog.length + st.ppc.phase + st.cpc.phase - 10 * st.hist.length

theorem phase_wake (p : PPc α) : p.wake.phase ≤ p.phase + 1 := by
  cases p with
  | run => simp [PPc.wake, PPc.phase]
  | failed => simp [PPc.wake, PPc.phase]
  | waitAdd i x aw => cases aw <;> simp [PPc.wake, PPc.phase]
  | waitEp k aw => cases aw <;> simp [PPc.wake, PPc.phase]

theorem phase_nonneg (p : PPc α) : 0 ≤ p.phase := by
  cases p with
  | run => simp [PPc.phase]
  | failed => simp [PPc.phase]
  | waitAdd i x aw => cases aw <;> simp [PPc.phase]
  | waitEp k aw => cases aw <;> simp [PPc.phase]

theorem cphase_wake (c : CPc) : c.wake.phase ≤ c.phase + 1 := by
  cases c with
  | idle => simp [CPc.wake, CPc.phase]
  | wait op aw => cases aw <;> simp [CPc.wake, CPc.phase]

theorem cphase_nonneg (c : CPc) : 0 ≤ c.phase ∧ c.phase ≤ 3 := by
  cases c with
  | idle => simp [CPc.phase]
  | wait op aw => cases aw <;> simp [CPc.phase]

theorem request_pot (st : St α) (n : Nat) : (request st n).hist = st.hist ∧ (request st n).prog = st.prog ∧ (request st n).ppc.phase ≤ st.ppc.phase + 1 ∧ ((request st n).ppc = st.ppc ∨ (request st n).ppc = st.ppc.wake) := by
  unfold request
  split
  · exact ⟨rfl, rfl, phase_wake _, .inr rfl⟩
  · exact ⟨rfl, rfl, by omega, .inl rfl⟩

theorem advance_pot (st : St α) (n : Nat) : (advance st n).hist = st.hist ∧ (advance st n).prog = st.prog ∧ ((advance st n).ppc = st.ppc ∨ (advance st n).ppc = st.ppc.wake) := by
  unfold advance
  split
  · exact ⟨rfl, rfl, .inr rfl⟩
  · exact ⟨rfl, rfl, .inl rfl⟩

theorem wake_wakeP (p : PPc α) : p.wake.wake = p.wake := by cases p <;> rfl

theorem stepC_pot {client : List (COp × CRes α) → Option COp} {st st' : St α} (hstep : stepC client st = some st') : pot st' + 1 ≤ pot st := by
  have hfin : ∀ (s1 : St α) (op : COp), s1.hist = st.hist → s1.prog = st.prog → s1.ppc.phase ≤ st.ppc.phase + 1 → st.cpc = .idle → pot (check s1 op) + 1 ≤ pot st := by
    intro s1 op h1 h2 h3 h4
    rcases check_shape s1 op with ⟨r, h⟩ | h
    · rw [h]
      simp only [pot, done, h1, h2, h4, CPc.phase, List.length_cons]
      omega
    · rw [h]
      simp only [pot, h1, h2, h4, CPc.phase]
      simp only [Bool.false_eq_true, if_false]
      omega
  have hdone : ∀ (s1 : St α) (op : COp) (r : CRes α), s1.hist = st.hist → s1.prog = st.prog → s1.ppc.phase ≤ st.ppc.phase + 1 → pot (done s1 op r) + 1 ≤ pot st := by
    intro s1 op r h1 h2 h3
    have := cphase_nonneg st.cpc
    have hid : CPc.phase .idle = 3 := rfl
    simp only [pot, done, h1, h2, hid, List.length_cons]
    omega
  unfold stepC at hstep
  cases hc : st.cpc with
  | idle =>
    rw [hc] at hstep
    simp only [Option.map_eq_some_iff] at hstep
    obtain ⟨op, hop, rfl⟩ := hstep
    cases op with
    | initEpoch k => exact hdone _ _ _ rfl rfl (phase_wake _)
    | less n =>
      obtain ⟨a, b, d, _⟩ := request_pot st (n + 1)
      exact hfin _ _ a b d hc
    | get n =>
      obtain ⟨a, b, d, _⟩ := request_pot st (n + 1)
      exact hfin _ _ a b d hc
    | load s e =>
      simp only [startOp]
      split
      · exact hdone _ _ _ rfl rfl (by omega)
      · split
        · exact hdone _ _ _ rfl rfl (by omega)
        · split
          · exact hdone _ _ _ rfl rfl (by omega)
          · obtain ⟨a, b, d⟩ := advance_pot st s
            obtain ⟨a', b', _, d'⟩ := request_pot (advance st s) e
            refine hfin _ _ (a'.trans a) (b'.trans b) ?_ hc
            have hw := phase_wake st.ppc
            rcases d' with d' | d' <;> rcases d with d | d <;> rw [d', d]
            · omega
            · exact hw
            · exact hw
            · rw [wake_wakeP]; exact hw
  | wait op aw =>
    rw [hc] at hstep
    cases aw with
    | false => simp at hstep
    | true =>
      simp only [Option.some.injEq] at hstep
      subst hstep
      rcases check_shape st op with ⟨r, h⟩ | h
      · rw [h]; exact hdone _ _ _ rfl rfl (by omega)
      · rw [h]
        simp [pot, hc, CPc.phase]
        omega

theorem addCheck_pot (st : St α) (idx : Nat) (x : α) : pot (addCheck st idx x) ≤ 8 * st.prog.length + 4 + st.cpc.phase - 10 * st.hist.length := by
  have := cphase_wake st.cpc
  unfold addCheck
  split
  · split
    · simp only [pot, PPc.phase]; omega
    · simp only [pot, PPc.phase, Bool.false_eq_true, if_false]; omega
  · simp only [pot, append, notify, PPc.wake, PPc.phase]; omega

theorem epochCheck_pot (st : St α) (k : Nat) : pot (epochCheck st k) ≤ 8 * st.prog.length + 4 + st.cpc.phase - 10 * st.hist.length := by
  unfold epochCheck
  split
  · simp only [pot, PPc.phase]; omega
  · split
    · simp only [pot, PPc.phase]; omega
    · split
      · simp only [pot, PPc.phase, Bool.false_eq_true, if_false]; omega
      · simp only [pot, PPc.phase]; omega

theorem stepP_pot {st st' : St α} (hstep : stepP st = some st') : pot st' + 1 ≤ pot st := by
  have hw := cphase_wake st.cpc
  unfold stepP at hstep
  split at hstep
  · simp at hstep
  · rename_i idx x hp
    simp only [Option.some.injEq] at hstep; subst hstep
    have h1 := addCheck_pot st idx x
    have h2 : pot st = 8 * st.prog.length + 5 + st.cpc.phase - 10 * st.hist.length := by simp [pot, hp, PPc.phase]
    omega
  · simp at hstep
  · rename_i k hp
    simp only [Option.some.injEq] at hstep; subst hstep
    have h1 := epochCheck_pot st k
    have h2 : pot st = 8 * st.prog.length + 5 + st.cpc.phase - 10 * st.hist.length := by simp [pot, hp, PPc.phase]
    omega
  · simp at hstep
  · rename_i hp
    have h2 : pot st = 8 * st.prog.length + st.cpc.phase - 10 * st.hist.length := by simp [pot, hp, PPc.phase]
    split at hstep
    · simp at hstep
    · rename_i k r hpr
      simp only [Option.some.injEq] at hstep; subst hstep
      have h1 := epochCheck_pot { st with prog := r } k
      rw [hpr] at h2
      simp only [List.length_cons] at h1 h2
      omega
    · rename_i r hpr
      simp only [Option.some.injEq] at hstep; subst hstep
      rw [hpr] at h2
      simp only [pot, notify, hp, PPc.wake, PPc.phase, List.length_cons] at h2 ⊢
      omega
    · rename_i x r hpr
      simp only [Option.some.injEq] at hstep; subst hstep
      rw [hpr] at h2
      simp only [List.length_cons] at h2
      unfold addStart
      split
      · have hfl : PPc.phase (.failed : PPc α) = 0 := rfl
        rw [h2]; simp only [pot, hfl]; omega
      · simp only
        split
        · have h1 := addCheck_pot (notify { st with prog := r, sh := { st.sh with next := st.sh.next + 1 } }) st.sh.next x
          simp only [notify] at h1 ⊢
          omega
        · have hrn : PPc.phase (.run : PPc α) = 0 := rfl
          rw [h2]
          simp only [pot, append, notify, PPc.wake, hrn, wake_wake]
          omega
    · rename_i r hpr
      simp only [Option.some.injEq] at hstep; subst hstep
      rw [hpr] at h2
      simp only [pot, notify, hp, PPc.wake, PPc.phase, List.length_cons] at h2 ⊢
      omega

/-- C112: no schedule runs on without end between two calls: the number of steps is bounded by the number of sequences and of finished calls. With `no_deadlock`, each call ends. -/
theorem steps_bounded (items : List α) (client : List (COp × CRes α) → Option COp) (n : Nat) (st : St α) (h : RunN client n (fresh items) st) :
    n ≤ 8 * (items.length + 1) + 3 + 10 * st.hist.length := by
  have hpot : ∀ s, RunN client n s st → pot st + n ≤ pot s := by
    intro s hs
    induction hs with
    | refl s => simp
    | tail hr hstep ih =>
      have hlt : ∀ {a b : St α}, Step client a b → pot b + 1 ≤ pot a := fun hstep => hstep.elim stepP_pot stepC_pot
      rename_i k s t u
      have h0 : ∀ {k : Nat} {s t : St α}, RunN client k s t → pot t + k ≤ pot s := by
        intro k s t hk
        induction hk with
        | refl s => simp
        | tail _ hst ih => have := hlt hst; push_cast; omega
      have h1 := hlt hstep
      have h2 := h0 hr
      push_cast
      omega
  have h1 := hpot _ h
  have h2 : pot (fresh items) = 8 * ((items.length : Int) + 1) + 3 := by simp [pot, fresh, PPc.phase, CPc.phase]
  have h3 := phase_nonneg st.ppc
  have h4 := (cphase_nonneg st.cpc).1
  unfold pot at h1 h2
  omega

/-! ### Further epochs -/

/-- `init_sprint_epoch` gives the state in which an epoch starts. -/
theorem reset_fresh (st : St α) (items : List α) (hp : st.ppc = .run) (hc : st.cpc = .idle) (hpr : st.prog = .reset :: (items.map .add ++ [.finish])) :
    stepP st = some { fresh items with epoch := st.epoch, hist := st.hist } := by
  unfold stepP
  rw [hp, hpr]
  simp [notify, hp, hc, PPc.wake, CPc.wake, fresh]

/-- Between two epochs the adding thread goes on exactly if the reader has started the epoch it waits for. If the reader is in an
earlier epoch it sleeps, without a change of the buffer, and in a later one (or none) it fails. -/
theorem epoch_gate (st : St α) (k : Nat) (r : List (POp α)) (hp : st.ppc = .run) (hpr : st.prog = .waitEpoch k :: r) :
    ∃ st', stepP st = some st' ∧ st'.sh = st.sh ∧ st'.prog = r ∧ (st'.ppc = .run ↔ st.epoch = some k) ∧
      (st'.ppc = .waitEp k false ↔ ∃ e, st.epoch = some e ∧ e < k) := by
  unfold stepP
  rw [hp, hpr]
  refine ⟨_, rfl, ?_⟩
  unfold epochCheck
  cases he : st.epoch with
  | none => simp [he]
  | some e =>
    simp only [he]
    by_cases h1 : e = k
    · simp [h1]
    · by_cases h2 : e < k
      · simp [h1, h2]
      · simp [h1, h2]

/-- The sleeping thread is woken when the reader starts that epoch, and then goes on. -/
theorem epoch_wakes (client : List (COp × CRes α) → Option COp) (st : St α) (k : Nat) (hp : st.ppc = .waitEp k false) (hc : st.cpc = .idle)
    (hcl : client st.hist = some (.initEpoch k)) :
    ∃ st' st'', stepC client st = some st' ∧ stepP st' = some st'' ∧ st''.ppc = .run ∧ st''.prog = st.prog := by
  have h1 : stepC client st = some (done (notify { st with epoch := some k }) (.initEpoch k) .unit) := by
    simp [stepC, hc, hcl, startOp]
  refine ⟨_, { (done (notify { st with epoch := some k }) (.initEpoch k) .unit) with ppc := .run }, h1, ?_, rfl, rfl⟩
  simp [stepP, done, notify, hp, PPc.wake, epochCheck]

/-- Run a schedule: `true` is the adding thread. -/
def exec (client : List (COp × CRes α) → Option COp) : List Bool → St α → Option (St α)
  | [], s => some s
  | b :: r, s =>
    match (if b then stepP s else stepC client s) with
    | none => none
    | some t => exec client r t

theorem exec_run {client : List (COp × CRes α) → Option COp} {sched : List Bool} {s t : St α} (h : exec client sched s = some t) : Run client s t := by
  induction sched generalizing s with
  | nil => simp only [exec, Option.some.injEq] at h; subst h; exact .refl
  | cons b r ih =>
    simp only [exec] at h
    cases hb : (if b then stepP s else stepC client s) with
    | none => rw [hb] at h; simp at h
    | some u =>
      rw [hb] at h
      refine .head ?_ (ih h)
      cases b
      · exact .inr hb
      · exact .inl hb

/-- A reader with a fixed list of calls. -/
def script (ops : List COp) (h : List (COp × CRes α)) : Option COp := ops[h.length]?

/-- Two epochs, as `getSegmentList` runs them. -/
def twoEpochs (xs ys : List α) : St α := { fresh xs with epoch := some 1, prog := xs.map .add ++ [.finish, .waitEpoch 2, .reset] ++ ys.map .add ++ [.finish] }

/-- C112 fails between epochs: until the adding thread has reset the buffer, a reader which has started the second epoch still reads the first one: it gets a sequence of the first epoch for the second one. -/
theorem stale_epoch (a : α) (ys : List α) : ∃ st, Run (script [.load 0 1, .initEpoch 2, .get 0]) (twoEpochs [a] ys) st ∧ st.epoch = some 2 ∧ st.hist.head? = some (.get 0, .data a) :=
  ⟨_, exec_run (sched := [true, true, false, false, false]) (by rfl), by rfl, by rfl⟩

/-- C112 fails between epochs: and if the first epoch was read further, the load of the first sequence of the second epoch raises. -/
theorem stale_assertion (a b : α) (ys : List α) : ∃ st, Run (script [.load 0 1, .load 1 2, .initEpoch 2, .load 0 1]) (twoEpochs [a, b] ys) st ∧ st.epoch = some 2 ∧ st.hist.head? = some (.load 0 1, .assertion) :=
  ⟨_, exec_run (sched := [true, true, true, false, false, false, false]) (by rfl), by rfl, by rfl⟩

/-- 300 sequences, before the reset of the buffer at the start of the epoch. -/
def beforeReset : St Unit := { fresh (List.replicate 300 ()) with epoch := some 1, prog := .reset :: ((List.replicate 300 ()).map .add ++ [.finish]) }

/-- The reader asks for 300 sequences before the reset. -/
def lostSched : List Bool := false :: true :: List.replicate 201 true ++ [false]

/-- The end of this schedule. -/
def lostEnd : Option (St Unit) := exec (script [.load 0 300]) lostSched beforeReset

/-- C112 fails at the start of an epoch: the reset forgets what the reader has asked for. The reader waits for more than 200 sequences, the adding thread waits because the buffer is full: a deadlock. -/
theorem lost_request_deadlock : ∃ st, Run (script [.load 0 300]) beforeReset st ∧ st.hist = [] ∧ ∀ t, ¬ Step (script [.load 0 300]) st t := by
  have h : (match lostEnd with | some st => st.hist.isEmpty && (stepP st).isNone && (stepC (script [.load 0 300]) st).isNone | none => false) = true := by decide +kernel
  cases he : lostEnd with
  | none => rw [he] at h; simp at h
  | some st =>
    rw [he] at h
    simp only [Bool.and_eq_true, List.isEmpty_iff, Option.isNone_iff_eq_none] at h
    refine ⟨st, exec_run he, h.1.1, ?_⟩
    rintro t (ht | ht)
    · rw [h.1.2] at ht; simp at ht
    · rw [h.2] at ht; simp at ht

/-! ### Examples -/

/-- A reader which reads all sequences one by one. -/
def reader (h : List (COp × CRes α)) : Option COp :=
  match h with
  | [] => some (.less 0)
  | (.less n, .bool true) :: _ => some (.load n (n + 1))
  | (.load n _, .unit) :: _ => some (.get n)
  | (.get n, .data _) :: _ => some (.less (n + 1))
  | _ => none

theorem reader_start (h : List (COp × CRes α)) (ho : Own reader h) (op : COp) (r : CRes α) (t : List (COp × CRes α)) (e : h = (op, r) :: t) :
    lastStart h ≤ op.start ∧ ∀ n, op = .get n → lastStart h = n := by
  induction h generalizing op r t with
  | nil => simp at e
  | cons p h ih =>
    obtain ⟨rfl, rfl⟩ := List.cons.inj e
    obtain ⟨hc, ho'⟩ := ho
    match h, hc, ho', ih with
    | [], hc, _, _ =>
      simp only [reader, Option.some.injEq] at hc
      subst hc
      simp [lastStart, COp.start]
    | (.less n, .bool true) :: _, hc, ho', ih =>
      simp only [reader, Option.some.injEq] at hc
      subst hc
      simp [lastStart, COp.start]
    | (.load n k, .unit) :: q, hc, ho', ih =>
      simp only [reader, Option.some.injEq] at hc
      subst hc
      have hlast : (∃ b, q = b) ∧ k = n + 1 := by
        refine ⟨⟨q, rfl⟩, ?_⟩
        have := ho'.1
        unfold reader at this
        split at this <;> simp at this
        omega
      simp [lastStart, COp.start, hlast.2]
    | (.get n, .data x) :: q, hc, ho', ih =>
      simp only [reader, Option.some.injEq] at hc
      subst hc
      have h2 := (ih ho' (.get n) (.data x) q rfl).2 n rfl
      constructor
      · show lastStart ((COp.get n, CRes.data x) :: q) ≤ n + 1
        omega
      · intro n' hn; simp at hn
    | (.initEpoch _, _) :: _, hc, _, _ => simp [reader] at hc
    | (.less _, .bool false) :: _, hc, _, _ => simp [reader] at hc
    | (.less _, .unit) :: _, hc, _, _ => simp [reader] at hc
    | (.less _, .data _) :: _, hc, _, _ => simp [reader] at hc
    | (.less _, .noData) :: _, hc, _, _ => simp [reader] at hc
    | (.less _, .assertion) :: _, hc, _, _ => simp [reader] at hc
    | (.load _ _, .bool _) :: _, hc, _, _ => simp [reader] at hc
    | (.load _ _, .data _) :: _, hc, _, _ => simp [reader] at hc
    | (.load _ _, .noData) :: _, hc, _, _ => simp [reader] at hc
    | (.load _ _, .assertion) :: _, hc, _, _ => simp [reader] at hc
    | (.get _, .bool _) :: _, hc, _, _ => simp [reader] at hc
    | (.get _, .unit) :: _, hc, _, _ => simp [reader] at hc
    | (.get _, .noData) :: _, hc, _, _ => simp [reader] at hc
    | (.get _, .assertion) :: _, hc, _, _ => simp [reader] at hc

/-- The reader which reads all sequences one by one goes forward. -/
theorem reader_forward : ForwardClient (reader (α := α)) := by
  intro h op ho hc
  unfold reader at hc
  split at hc
  · simp only [Option.some.injEq] at hc; subst hc; simp [Forward, lastStart]
  · rename_i n t
    simp only [Option.some.injEq] at hc; subst hc
    exact ⟨by omega, (reader_start _ ho _ _ _ rfl).1⟩
  · rename_i n k t
    simp only [Option.some.injEq] at hc; subst hc
    exact (reader_start _ ho _ _ _ rfl).1
  · rename_i n x t
    simp only [Option.some.injEq] at hc; subst hc
    have := (reader_start _ ho _ _ _ rfl).1
    simp only [COp.start] at this
    show lastStart _ ≤ n + 1
    omega
  · simp at hc

/-- An interleaving in which it reads two sequences. -/
example : (exec reader ([false, true, false] ++ List.replicate 3 false ++ [true, true] ++ List.replicate 4 false) (fresh [7, 8])).map (fun s => s.hist.head?) = some (some (.less 2, .bool false)) := by
  decide +kernel

end Verif.SprintData
