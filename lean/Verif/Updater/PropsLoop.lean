import Verif.Updater.Loop
import Mathlib.Data.List.Basic
/-!
C76 and C77: the learning rate of each update, and which batches are in its gradient.
-/

namespace Verif.Updater

/-! ### Specification -/

/-- The effective learning rate at a global train step. -/
def lrAt {L : Type} (dyn : DynLr L) (step epoch : Nat) (cont : Option Rat) (lr : L) : L :=
  match dyn with
  | none => lr
  | some f => f step epoch cont lr

/-- How much of the training was done before batch `i` of the epoch: what the batch before it says. -/
def contBefore {B : Type} (epoch : Nat) (batches : List (B × Rat)) (i : Nat) : Option Rat :=
  match i with
  | 0 => some ((epoch : Rat) - 1)
  | i + 1 => match batches[i]? with
    | some b => if 0 ≤ b.2 then some ((epoch : Rat) - 1 + b.2) else none
    | none => none

/-- The updates of an epoch: `g`: batches since the last update, `i`: index of the next batch. After each batch there is an update if enough batches are there. -/
inductive Updates {L B : Type} (n : Nat) (lr : Nat → L) (accum : Nat → Int) : Nat → List B → List B → List (Update L B) → Prop
  /-- At the end of the epoch the batches since the last update are not used. -/
  | done (i : Nat) (g : List B) : Updates n lr accum i g [] []
  | wait {i : Nat} {g : List B} {b : B} {rest : List B} {us : List (Update L B)} : ((g.length + 1 : Nat) : Int) < accum i → Updates n lr accum (i + 1) (g ++ [b]) rest us →
      Updates n lr accum i g (b :: rest) us
  | update {i : Nat} {g : List B} {b : B} {rest : List B} {us : List (Update L B)} : accum i ≤ ((g.length + 1 : Nat) : Int) → Updates n lr accum (i + 1) [] rest us →
      Updates n lr accum i g (b :: rest) ({ lrs := List.replicate n (lr i), grad := g ++ [b] } :: us)

/-! ### Proofs -/

/-- The updater is up to date: all groups have the effective learning rate. -/
def Synced {L : Type} (dyn : DynLr L) (n : Nat) (step epoch : Nat) (cont : Option Rat) (lr : L) (u : Upd L) : Prop :=
  u.lr = lr ∧ u.eff = lrAt dyn step epoch cont lr ∧ u.groupLrs = some (List.replicate n (lrAt dyn step epoch cont lr))

/-- Any updater with an optimizer with `n` groups. -/
def HasGroups {L : Type} (n : Nat) (u : Upd L) : Prop := ∃ l, u.groupLrs = some l ∧ l.length = n

theorem setStep_synced {L : Type} {dyn : DynLr L} {n : Nat} {u : Upd L} (h : HasGroups n u) (step epoch : Nat) (cont : Option Rat) : Synced dyn n step epoch cont u.lr (setStep dyn step epoch cont u) := by
  obtain ⟨l, hl, hn⟩ := h
  have hm : ∀ e : L, l.map (fun _ => e) = List.replicate n e := by intro e; rw [List.map_const', hn]
  refine ⟨rfl, ?_, ?_⟩
  · cases dyn <;> rfl
  · have : (setStep dyn step epoch cont u).groupLrs = u.groupLrs.map (fun l => l.map (fun _ => lrAt dyn step epoch cont u.lr)) := by cases dyn <;> rfl
    rw [this, hl, Option.map_some, hm]

theorem Synced.hasGroups {L : Type} {dyn : DynLr L} {n step epoch : Nat} {cont : Option Rat} {lr : L} {u : Upd L} (h : Synced dyn n step epoch cont lr u) : HasGroups n u :=
  ⟨_, h.2.2, by simp⟩

theorem setLr_hasGroups {L : Type} {dyn : DynLr L} {n : Nat} {u : Upd L} (h : HasGroups n u) (v : L) : HasGroups n (setLr dyn v u) ∧ (setLr dyn v u).lr = v := by
  obtain ⟨l, hl, hn⟩ := h
  refine ⟨⟨l.map (fun _ => (setLr dyn v u).eff), ?_, ?_⟩, rfl⟩
  · unfold setLr updateEff; simp only [hl, Option.map_some]
  · simpa using hn

/-- The loop from the middle of an epoch. -/
theorem loop_updates {L B : Type} (dyn : DynLr L) (accum : Nat → Option Rat → Nat → Int) (epoch n g0 : Nat) (lr : L) (batches : List (B × Rat)) :
    ∀ (rest done : List (B × Rat)) (s : Train L B) (l : Loc) (g : List B), batches = done ++ rest →
      Synced dyn n s.gstep epoch (contBefore epoch batches done.length) lr s.upd → s.gstep = g0 + done.length → (l.zeroNext = true → g = []) → (l.zeroNext = false → s.grad = g ∧ l.count = g.length) →
      ∃ us, Updates n (fun i => lrAt dyn (g0 + i) epoch (contBefore epoch batches i) lr) (fun i => accum epoch (contBefore epoch batches (i + 1)) (g0 + i)) done.length g (rest.map Prod.fst) us ∧
        (rest.foldl (oneStep dyn accum epoch) (s, l)).1.updates = s.updates ++ us ∧ (rest.foldl (oneStep dyn accum epoch) (s, l)).1.gstep = s.gstep + rest.length ∧
        HasGroups n (rest.foldl (oneStep dyn accum epoch) (s, l)).1.upd := by
  intro rest
  induction rest with
  | nil => intro done s l g _ hs _ _ _; exact ⟨[], .done _ _, by simp, by simp, hs.hasGroups⟩
  | cons b rest ih =>
    intro done s l g hb hs hg hz hnz
    have hcb : contBefore epoch batches (done.length + 1) = epochCont epoch b.2 := by
      unfold contBefore epochCont
      simp [hb]
    -- state after zero_grad
    obtain ⟨s1, hs1⟩ : ∃ s1 : Train L B, s1 = { s with grad := g } := ⟨_, rfl⟩
    have h0 : ∃ z, zeroGrad s l = (s1, { zeroNext := z, count := g.length }) := by
      unfold zeroGrad
      cases hzn : l.zeroNext with
      | true =>
        have := hz hzn
        subst this
        exact ⟨true, by rw [if_pos rfl, hs1, ← hzn]; rfl⟩
      | false =>
        obtain ⟨h1, h2⟩ := hnz hzn
        refine ⟨false, ?_⟩
        rw [if_neg (by decide), hs1, ← h2, ← h1, ← hzn]
    obtain ⟨z, h0⟩ := h0
    have hstep : oneStep dyn accum epoch (s, l) b =
        (endStep dyn epoch (epochCont epoch b.2) (backwardAndUpdate (accum epoch (epochCont epoch b.2) s1.gstep) b.1 s1 { zeroNext := z, count := g.length }).1,
          (backwardAndUpdate (accum epoch (epochCont epoch b.2) s1.gstep) b.1 s1 { zeroNext := z, count := g.length }).2) := by
      unfold oneStep
      simp only [h0]
    have hgs : s1.gstep = g0 + done.length := by rw [hs1]; exact hg
    have hlen : (done ++ [b]).length = done.length + 1 := by simp
    rw [List.foldl_cons, hstep]
    have hupd1 : s1.upd = s.upd := by rw [hs1]
    have hsync' : ∀ us, Synced dyn n (s1.gstep + 1) epoch (contBefore epoch batches (done ++ [b]).length) lr (endStep dyn epoch (epochCont epoch b.2) { s1 with grad := g ++ [b.1], updates := us }).upd := by
      intro us
      unfold endStep
      simp only []
      rw [hlen, hcb, hupd1]
      have := setStep_synced (dyn := dyn) hs.hasGroups (s1.gstep + 1) epoch (epochCont epoch b.2)
      rw [hs.1] at this
      exact this
    by_cases hp : accum epoch (epochCont epoch b.2) (g0 + done.length) ≤ ((g.length + 1 : Nat) : Int)
    · have hbw : backwardAndUpdate (accum epoch (epochCont epoch b.2) s1.gstep) b.1 s1 { zeroNext := z, count := g.length } =
          ({ s1 with grad := g ++ [b.1], updates := s1.updates ++ [{ lrs := s1.upd.groupLrs.getD [], grad := g ++ [b.1] }] }, { zeroNext := true, count := g.length + 1 }) := by
        unfold backwardAndUpdate
        rw [hgs]
        have hp' : decide (accum epoch (epochCont epoch b.2) (g0 + done.length) ≤ ((g.length + 1 : Nat) : Int)) = true := decide_eq_true hp
        simp only [hp', if_true, hs1]
      rw [hbw]
      simp only []
      obtain ⟨us, u1, u2, u3, u4⟩ := ih (done ++ [b]) (endStep dyn epoch (epochCont epoch b.2) { s1 with grad := g ++ [b.1], updates := s1.updates ++ [{ lrs := s1.upd.groupLrs.getD [], grad := g ++ [b.1] }] })
        { zeroNext := true, count := g.length + 1 } [] (by rw [hb]; simp) (hsync' _) (by unfold endStep; simp only []; rw [hgs, hlen]; omega) (fun _ => rfl) (fun h => by cases h)
      refine ⟨{ lrs := s1.upd.groupLrs.getD [], grad := g ++ [b.1] } :: us, ?_, ?_, ?_, u4⟩
      · rw [hupd1, hs.2.2]
        simp only [Option.getD_some, List.map_cons]
        rw [hg]
        rw [hlen] at u1
        exact .update (by rw [hcb]; exact hp) u1
      · rw [u2]; unfold endStep; rw [hs1]; simp
      · rw [u3]; unfold endStep; rw [hs1]; simp only [List.length_cons]; omega
    · have hbw : backwardAndUpdate (accum epoch (epochCont epoch b.2) s1.gstep) b.1 s1 { zeroNext := z, count := g.length } =
          ({ s1 with grad := g ++ [b.1], updates := s1.updates }, { zeroNext := false, count := g.length + 1 }) := by
        unfold backwardAndUpdate
        rw [hgs]
        have hp' : decide (accum epoch (epochCont epoch b.2) (g0 + done.length) ≤ ((g.length + 1 : Nat) : Int)) = false := decide_eq_false hp
        simp only [hp', hs1, Bool.false_eq_true, if_false]
      rw [hbw]
      simp only []
      obtain ⟨us, u1, u2, u3, u4⟩ := ih (done ++ [b]) (endStep dyn epoch (epochCont epoch b.2) { s1 with grad := g ++ [b.1], updates := s1.updates })
        { zeroNext := false, count := g.length + 1 } (g ++ [b.1]) (by rw [hb]; simp) (hsync' _) (by unfold endStep; simp only []; rw [hgs, hlen]; omega) (fun h => by cases h)
        (fun _ => ⟨rfl, by simp⟩)
      refine ⟨us, ?_, ?_, ?_, u4⟩
      · rw [hlen] at u1
        exact .wait (by rw [hcb]; omega) u1
      · rw [u2]; unfold endStep; rw [hs1]
      · rw [u3]; unfold endStep; rw [hs1]; simp only [List.length_cons]; omega

/-- C76, C77 for one epoch, from any state (any learning rates and gradients before). -/
theorem epoch_updates {L B : Type} (dyn : DynLr L) (accum : Nat → Option Rat → Nat → Int) (lrOf : Nat → L) (epoch n : Nat) (batches : List (B × Rat)) (s : Train L B) (hs : HasGroups n s.upd) :
    ∃ us, Updates n (fun i => lrAt dyn (s.gstep + i) epoch (contBefore epoch batches i) (lrOf epoch)) (fun i => accum epoch (contBefore epoch batches (i + 1)) (s.gstep + i)) 0 [] (batches.map Prod.fst) us ∧
      (trainEpoch dyn accum epoch batches (initEpoch dyn lrOf epoch s)).updates = s.updates ++ us ∧
      (trainEpoch dyn accum epoch batches (initEpoch dyn lrOf epoch s)).gstep = s.gstep + batches.length ∧ HasGroups n (trainEpoch dyn accum epoch batches (initEpoch dyn lrOf epoch s)).upd := by
  unfold trainEpoch
  obtain ⟨k1, k2⟩ := setLr_hasGroups (dyn := dyn) hs (lrOf epoch)
  have := setStep_synced (dyn := dyn) k1 s.gstep epoch (some ((epoch : Rat) - 1))
  rw [k2] at this
  exact loop_updates dyn accum epoch n s.gstep (lrOf epoch) batches batches [] (initEpoch dyn lrOf epoch s) { zeroNext := true, count := 0 } [] rfl this rfl (fun _ => rfl) (fun h => by cases h)

/-- The updates of all epochs. -/
inductive AllUpdates {L B : Type} (dyn : DynLr L) (accum : Nat → Option Rat → Nat → Int) (lrOf : Nat → L) (n : Nat) : Nat → Nat → List (List (B × Rat)) → List (Update L B) → Prop
  | nil (epoch gstep : Nat) : AllUpdates dyn accum lrOf n epoch gstep [] []
  | cons {epoch gstep : Nat} {batches : List (B × Rat)} {rest : List (List (B × Rat))} {us vs : List (Update L B)} :
      Updates n (fun i => lrAt dyn (gstep + i) epoch (contBefore epoch batches i) (lrOf epoch)) (fun i => accum epoch (contBefore epoch batches (i + 1)) (gstep + i)) 0 [] (batches.map Prod.fst) us →
      AllUpdates dyn accum lrOf n (epoch + 1) (gstep + batches.length) rest vs → AllUpdates dyn accum lrOf n epoch gstep (batches :: rest) (us ++ vs)

theorem train_updates' {L B : Type} (dyn : DynLr L) (accum : Nat → Option Rat → Nat → Int) (lrOf : Nat → L) (n : Nat) : ∀ (epochs : List (List (B × Rat))) (epoch : Nat) (s : Train L B), HasGroups n s.upd →
    ∃ us, AllUpdates dyn accum lrOf n epoch s.gstep epochs us ∧ (train dyn accum lrOf epoch epochs s).updates = s.updates ++ us
  | [], epoch, s, _ => ⟨[], .nil _ _, by simp [train]⟩
  | batches :: rest, epoch, s, hs => by
    obtain ⟨us, u1, u2, u3, u4⟩ := epoch_updates dyn accum lrOf epoch n batches s hs
    obtain ⟨vs, v1, v2⟩ := train_updates' dyn accum lrOf n rest (epoch + 1) (trainEpoch dyn accum epoch batches (initEpoch dyn lrOf epoch s)) u4
    rw [u3] at v1
    exact ⟨us ++ vs, .cons u1 v1, by unfold train; rw [v2, u2]; simp⟩

/-- C76: in every epoch, every update uses for all parameter groups the learning rate for its global train step, epoch and the amount of data before its last batch; a restored optimizer
state, the initial learning rate and the earlier epochs have no influence. C77: its gradient is from the batches since the last update in the epoch (spec: `Updates`). -/
theorem train_updates {L B : Type} (dyn : DynLr L) (accum : Nat → Option Rat → Nat → Int) (lrOf : Nat → L) (n : Nat) (epochs : List (List (B × Rat))) (epoch gstep : Nat) (mult : L → L) (lr : L)
    (loaded : Option (List L)) (hl : ∀ l, loaded = some l → l.length = n) :
    AllUpdates dyn accum lrOf n epoch gstep epochs (train dyn accum lrOf epoch epochs (start dyn mult n lr loaded gstep)).updates := by
  have hs : HasGroups n (start (B := B) dyn mult n lr loaded gstep).upd := by
    unfold start
    cases loaded with
    | none => exact ⟨_, rfl, by simp⟩
    | some l => exact ⟨l, rfl, hl l rfl⟩
  obtain ⟨us, u1, u2⟩ := train_updates' dyn accum lrOf n epochs epoch (start (B := B) dyn mult n lr loaded gstep) hs
  have h0 : (start (B := B) dyn mult n lr loaded gstep).updates = [] := rfl
  rw [u2, h0]
  exact u1

/-! ### What follows from the specification -/

theorem Updates.det {L B : Type} {n : Nat} {lr : Nat → L} {accum : Nat → Int} {i : Nat} {g bs : List B} {us vs : List (Update L B)} (h1 : Updates n lr accum i g bs us) (h2 : Updates n lr accum i g bs vs) : us = vs := by
  induction h1 generalizing vs with
  | done => cases h2; rfl
  | wait h _ ih =>
    cases h2 with
    | wait _ h' => exact ih h'
    | update h' _ => omega
  | update h _ ih =>
    cases h2 with
    | wait h' _ => omega
    | update _ h' => rw [ih h']

theorem AllUpdates.det {L B : Type} {dyn : DynLr L} {accum : Nat → Option Rat → Nat → Int} {lrOf : Nat → L} {n epoch gstep : Nat} {epochs : List (List (B × Rat))} {us vs : List (Update L B)}
    (h1 : AllUpdates dyn accum lrOf n epoch gstep epochs us) (h2 : AllUpdates dyn accum lrOf n epoch gstep epochs vs) : us = vs := by
  induction h1 generalizing vs with
  | nil => cases h2; rfl
  | cons h _ ih =>
    cases h2 with
    | cons h' h'' => rw [h.det h', ih h'']

/-- C76: the option `learning_rate_multiplier` has no effect: the updates do not depend on it. -/
theorem lr_multiplier_no_effect {L B : Type} (dyn : DynLr L) (accum : Nat → Option Rat → Nat → Int) (lrOf : Nat → L) (n : Nat) (epochs : List (List (B × Rat))) (epoch gstep : Nat) (mult mult' : L → L) (lr : L) :
    (train dyn accum lrOf epoch epochs (start dyn mult n lr none gstep)).updates = (train dyn accum lrOf epoch epochs (start dyn mult' n lr none gstep)).updates :=
  (train_updates dyn accum lrOf n epochs epoch gstep mult lr none (by intro l h; cases h)).det (train_updates dyn accum lrOf n epochs epoch gstep mult' lr none (by intro l h; cases h))

/-- The gradients of the updates, one after the other, are the first batches of the epoch: no batch twice, none left out before the last update. -/
theorem Updates.grads_prefix {L B : Type} {n : Nat} {lr : Nat → L} {accum : Nat → Int} {i : Nat} {g bs : List B} {us : List (Update L B)} (h : Updates n lr accum i g bs us) :
    us = [] ∨ ∃ rest, g ++ bs = (us.flatMap (fun u => u.grad)) ++ rest := by
  induction h with
  | done => exact Or.inl rfl
  | @wait i g b rest us _ _ ih =>
    rcases ih with h | ⟨r, hr⟩
    · exact Or.inl h
    · exact Or.inr ⟨r, by rw [← hr]; simp⟩
  | @update i g b rest us _ _ ih =>
    right
    rcases ih with h | ⟨r, hr⟩
    · exact ⟨rest, by simp [h]⟩
    · refine ⟨r, ?_⟩
      rw [List.flatMap_cons, List.append_assoc, ← hr]; simp

/-- C77 for a constant `accum_grad_multiple_step` `k`: the gradient of the update `j` of the epoch is from the batches `j * k` to `(j + 1) * k`, and there are as many updates as full groups of
`k` batches; the remaining batches of the epoch are in no update. -/
theorem updates_const {L B : Type} (n : Nat) (lr : Nat → L) (k : Nat) (hk : 0 < k) : ∀ (m : Nat) (bs : List B), bs.length = m → ∀ (i : Nat) (us : List (Update L B)),
    Updates n lr (fun _ => (k : Int)) i [] bs us → us.length = bs.length / k ∧
      ∀ j u, us[j]? = some u → u.grad = (bs.drop (j * k)).take k ∧ u.lrs = List.replicate n (lr (i + j * k + (k - 1))) := by
  -- one group
  have first : ∀ (bs : List B) (g : List B) (i : Nat) (us : List (Update L B)), g.length < k → Updates n lr (fun _ => (k : Int)) i g bs us →
      (g.length + bs.length < k ∧ us = []) ∨
      (k ≤ g.length + bs.length ∧ ∃ vs, us = { lrs := List.replicate n (lr (i + (k - 1 - g.length))), grad := g ++ bs.take (k - g.length) } :: vs ∧
        Updates n lr (fun _ => (k : Int)) (i + (k - g.length)) [] (bs.drop (k - g.length)) vs) := by
    intro bs
    induction bs with
    | nil => intro g i us hg h; cases h; left; exact ⟨by simpa using hg, rfl⟩
    | cons b bs ih =>
      intro g i us hg h
      cases h with
      | wait hw h =>
        have hlt : (g ++ [b]).length < k := by rw [List.length_append, List.length_singleton]; omega
        have e1 : (g ++ [b]).length = g.length + 1 := by simp
        rcases ih (g ++ [b]) (i + 1) us hlt h with ⟨a, e⟩ | ⟨a, vs, e, h'⟩
        · left; rw [e1] at a; exact ⟨by rw [List.length_cons]; omega, e⟩
        · right
          rw [e1] at a e h' hlt
          have e2 : k - g.length = (k - (g.length + 1)) + 1 := by omega
          refine ⟨by rw [List.length_cons]; omega, vs, ?_, ?_⟩
          · rw [e, e2, List.take_succ_cons, show i + 1 + (k - 1 - (g.length + 1)) = i + (k - 1 - g.length) by omega]; simp
          · rw [e2, List.drop_succ_cons, show i + (k - (g.length + 1) + 1) = i + 1 + (k - (g.length + 1)) by omega]; exact h'
      | @update _ _ _ _ vs hu h =>
        have hkl : k = g.length + 1 := by omega
        right
        refine ⟨by rw [List.length_cons]; omega, vs, ?_, ?_⟩
        · rw [hkl, show g.length + 1 - 1 - g.length = 0 by omega, show g.length + 1 - g.length = 1 by omega]; rfl
        · rw [show k - g.length = 1 by omega]; exact h
  intro m
  induction m using Nat.strongRecOn with
  | ind m ih =>
    intro bs hm i us h
    rcases first bs [] i us hk h with ⟨a, rfl⟩ | ⟨a, vs, rfl, h'⟩
    · refine ⟨?_, by intro j u hj; simp at hj⟩
      rw [List.length_nil, Nat.zero_add] at a
      rw [Nat.div_eq_of_lt a]; rfl
    · simp only [List.length_nil, Nat.zero_add, Nat.sub_zero, List.nil_append] at a h' ⊢
      obtain ⟨l1, l2⟩ := ih (bs.length - k) (by omega) (bs.drop k) (by simp) (i + k) vs h'
      refine ⟨?_, ?_⟩
      · rw [List.length_cons, l1, List.length_drop, Nat.div_eq_sub_div hk a]
      · intro j u hj
        cases j with
        | zero =>
          simp only [List.getElem?_cons_zero, Option.some.injEq] at hj
          subst hj
          simp
        | succ j =>
          rw [List.getElem?_cons_succ] at hj
          obtain ⟨g1, g2⟩ := l2 j u hj
          refine ⟨?_, ?_⟩
          · rw [g1, List.drop_drop, Nat.succ_mul, Nat.add_comm k]
          · rw [g2]
            congr 2
            rw [Nat.succ_mul]; omega

/-- C77, C76: an epoch with a constant number of accumulated batches. -/
theorem epoch_updates_const {L B : Type} (dyn : DynLr L) (k : Nat) (hk : 0 < k) (lrOf : Nat → L) (epoch n : Nat) (batches : List (B × Rat)) (s : Train L B) (hs : HasGroups n s.upd) :
    ∃ us, (trainEpoch dyn (fun _ _ _ => (k : Int)) epoch batches (initEpoch dyn lrOf epoch s)).updates = s.updates ++ us ∧ us.length = batches.length / k ∧
      ∀ j u, us[j]? = some u → u.grad = ((batches.map Prod.fst).drop (j * k)).take k ∧
        u.lrs = List.replicate n (lrAt dyn (s.gstep + (j * k + (k - 1))) epoch (contBefore epoch batches (j * k + (k - 1))) (lrOf epoch)) := by
  obtain ⟨us, u1, u2, _, _⟩ := epoch_updates dyn (fun _ _ _ => (k : Int)) lrOf epoch n batches s hs
  obtain ⟨c1, c2⟩ := updates_const n _ k hk _ (batches.map Prod.fst) rfl 0 us u1
  refine ⟨us, u2, by simpa using c1, ?_⟩
  intro j u hj
  obtain ⟨d1, d2⟩ := c2 j u hj
  refine ⟨d1, ?_⟩
  rw [d2, Nat.zero_add]

/-! ### Examples -/

/-- Two epochs, batches 1-5 and 6-8, two batches per update: 5 and 8 are in no update; the learning rate is the one of the global step. -/
example : (train (B := Nat) (some (fun step epoch _ lr => lr + 10 * epoch + step)) (fun _ _ _ => 2) (fun e => 1000 * e) 1
    [[(1, 1/5), (2, 2/5), (3, 3/5), (4, 4/5), (5, 1)], [(6, 1/3), (7, 2/3), (8, 1)]] (start (some (fun step epoch _ lr => lr + 10 * epoch + step)) (fun x => 3 * x) 2 7 (some [5, 5]) 100)).updates =
    [{ lrs := [1111, 1111], grad := [1, 2] }, { lrs := [1113, 1113], grad := [3, 4] }, { lrs := [2126, 2126], grad := [6, 7] }] := by rfl

/-- C77 in the sense "every batch is in some update" does not hold: the batches at the end of an epoch. -/
theorem leftover_lost : ∃ (batches : List (Nat × Rat)), ∀ u ∈ (trainEpoch none (fun _ _ _ => 2) 1 batches (initEpoch none (fun _ => ()) 1 (start none id 1 () none 0))).updates, 3 ∉ u.grad ∧ 3 ∈ batches.map Prod.fst := by
  refine ⟨[(1, 1/3), (2, 2/3), (3, 1)], ?_⟩
  intro u hu
  have : u = { lrs := [()], grad := [1, 2] } := by
    have h : (trainEpoch none (fun _ _ _ => 2) 1 [((1 : Nat), (1/3 : Rat)), (2, 2/3), (3, 1)] (initEpoch none (fun _ => ()) 1 (start none id 1 () none 0))).updates = [{ lrs := [()], grad := [1, 2] }] := by rfl
    rw [h] at hu
    exact List.mem_singleton.1 hu
  subst this
  exact ⟨by decide, by decide⟩

end Verif.Updater
