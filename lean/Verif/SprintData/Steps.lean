import Verif.SprintData.Lemmas
namespace Verif.SprintData

variable {α : Type}

theorem PInv.congr {items : List α} {m : Nat} {st st' : St α} (h : PInv items m st) (h1 : st'.ppc = st.ppc) (h2 : st'.sh = st.sh) (h3 : st'.prog = st.prog) : PInv items m st' := by
  cases h with
  | run hp hn hpr hf hr => exact .run (h1.trans hp) (h2 ▸ hn) (h3.trans hpr) (h2 ▸ hf) (h2 ▸ hr)
  | wait x aw hp hx hn hpr hf hr haw => exact .wait x aw (h1.trans hp) hx (h2 ▸ hn) (h3.trans hpr) (h2 ▸ hf) (h2 ▸ hr) (h2 ▸ haw)
  | fin hp hn hpr hf hm => exact .fin (h1.trans hp) (h2 ▸ hn) (h3.trans hpr) (h2 ▸ hf) hm

/-- A change of the shared state which wakes the adding thread. -/
theorem PInv.notify' {items : List α} {m : Nat} {st : St α} (h : PInv items m st) (sh' : Sh α) (h1 : sh'.next = st.sh.next) (h2 : sh'.final = st.sh.final) (h3 : sh'.ready = st.sh.ready) :
    PInv items m (SprintData.notify { st with sh := sh' }) := by
  cases h with
  | run hp hn hpr hf hr => exact .run (by simp [SprintData.notify, hp, PPc.wake]) (h1.trans hn) hpr (h2.trans hf) (h3.trans hr)
  | wait x aw hp hx hn hpr hf hr haw => exact .wait x true (by simp [SprintData.notify, hp, PPc.wake]) hx (h1.trans hn) hpr (h2.trans hf) (h3.trans hr) (by simp)
  | fin hp hn hpr hf hm => exact .fin (by simp [SprintData.notify, hp, PPc.wake]) (h1.trans hn) hpr (h2.trans hf) hm

/-- The invariant without the reading thread. -/
structure Base (items : List α) (st : St α) (m c : Nat) : Prop where
  hcm : c ≤ m
  hce : c ≤ st.sh.expected
  hm : m ≤ items.length
  hadd : st.sh.added = part items c m
  hp : PInv items m st
  hnext : m ≤ st.sh.requested + cachedMax
  hhist : ∀ p ∈ st.hist, RightRes items p.1 p.2

theorem Inv.base {items : List α} {st : St α} {m c : Nat} (h : Inv items st m c) : Base items st m c := ⟨h.hcm, h.hce, h.hm, h.hadd, h.hp, h.hnext, h.hhist⟩

/-- Where the newest load starts when this call is the current one. -/
def opStart (h : List (COp × CRes α)) : COp → Nat
  | .load s _ => s
  | _ => lastStart h

theorem PInv.bounds {items : List α} {m : Nat} {st : St α} (h : PInv items m st) : m ≤ st.sh.next ∧ (st.sh.final = true → st.sh.next = m ∧ m = items.length) := by
  cases h with
  | run hp hn hpr hf hr => exact ⟨by omega, by simp [hf]⟩
  | wait x aw hp hx hn hpr hf hr haw => exact ⟨by omega, by simp [hf]⟩
  | fin hp hn hpr hf hm => exact ⟨by omega, fun _ => ⟨hn, hm⟩⟩

theorem result_right {items : List α} {st : St α} {m c : Nat} (h : Base items st m c) (op : COp) (hs : st.sh.expected ≤ op.start)
    (hpass : st.sh.final = true ∨ op.stop ≤ m) : RightRes items op (result st.sh op) := by
  obtain ⟨hb1, hb2⟩ := h.hp.bounds
  cases op with
  | initEpoch k => rfl
  | load s e => rfl
  | less n =>
    show CRes.bool _ = CRes.bool _
    congr 1
    rcases hpass with hf | hst
    · obtain ⟨e1, e2⟩ := hb2 hf
      rw [e1, e2]
    · have hst' : n + 1 ≤ m := hst
      have := h.hm
      have h1 : n < st.sh.next := by omega
      have h2 : n < items.length := by omega
      simp [h1, h2]
  | get i =>
    have hci : c ≤ i := Nat.le_trans h.hce hs
    have hfind := find_part items m i h.hm c h.hcm hci
    simp only [RightRes, result, h.hadd, hfind]
    rcases hpass with hf | hst
    · obtain ⟨_, e2⟩ := hb2 hf
      by_cases him : i < m
      · rw [if_pos him]
        have : i < items.length := by omega
        simp [this]
      · rw [if_neg him]
        have : items[i]? = none := List.getElem?_eq_none (by omega)
        simp [this]
    · have hst' : i + 1 ≤ m := hst
      rw [if_pos (by omega)]
      have : i < items.length := by have := h.hm; omega
      simp [this]

theorem check_inv {items : List α} {st : St α} {m c : Nat} (h : Base items st m c) (op : COp) (hi : ∀ k, op ≠ .initEpoch k) (hs : st.sh.expected ≤ op.start) (hlt : op.start < op.stop)
    (hr : op.stop ≤ st.sh.requested) (hexp : st.sh.expected = opStart st.hist op) : Inv items (check st op) m c := by
  have hdone : ∀ r, RightRes items op r → Inv items (done st op r) m c := by
    intro r hright
    refine ⟨h.hcm, h.hce, h.hm, h.hadd, h.hp.congr rfl rfl rfl, .idle rfl, h.hnext, ?_, ?_⟩
    · show st.sh.expected = lastStart ((op, r) :: st.hist)
      rw [hexp]
      cases op with
      | load s e =>
        have : s ≠ e := by
          have : s < e := hlt
          omega
        simp [opStart, lastStart, this]
      | initEpoch k => exact absurd rfl (hi k)
      | less n => rfl
      | get i => rfl
    · intro p hp
      rcases List.mem_cons.1 hp with rfl | hp
      · exact hright
      · exact h.hhist p hp
  have hsleep : st.sh.final = false → m < op.stop → Inv items { st with cpc := .wait op false } m c := by
    intro hf hlt'
    refine ⟨h.hcm, h.hce, h.hm, h.hadd, h.hp.congr rfl rfl rfl, .wait op false rfl hi hs hlt hr (fun _ => ⟨hf, hlt'⟩), h.hnext, ?_, h.hhist⟩
    show st.sh.expected = curStart { st with cpc := .wait op false }
    rw [hexp]
    cases op <;> rfl
  unfold check canPass
  by_cases hf : st.sh.final = true
  · rw [if_pos hf]
    exact hdone _ (result_right h op hs (.inl hf))
  · rw [if_neg hf, h.hadd, haveSeqs_part items h.hm h.hcm (Nat.le_trans h.hce hs) hlt]
    by_cases hst : op.stop ≤ m
    · simp only [hst, decide_true]
      exact hdone _ (result_right h op hs (.inr hst))
    · simp only [hst, decide_false]
      exact hsleep (by simpa using hf) (by omega)

theorem request_base {items : List α} {st : St α} {m c : Nat} (h : Base items st m c) (stop : Nat) :
    Base items (request st stop) m c ∧ stop ≤ (request st stop).sh.requested ∧ (request st stop).sh.expected = st.sh.expected ∧ (request st stop).hist = st.hist := by
  unfold request
  by_cases hgt : stop > st.sh.requested
  · rw [if_pos hgt]
    refine ⟨⟨h.hcm, h.hce, h.hm, h.hadd, h.hp.notify' _ rfl rfl rfl, ?_, h.hhist⟩, Nat.le_refl _, rfl, rfl⟩
    show m ≤ stop + cachedMax
    have := h.hnext
    omega
  · rw [if_neg hgt]
    exact ⟨h, by omega, rfl, rfl⟩

theorem advance_base {items : List α} {st : St α} {m c : Nat} (h : Base items st m c) (s : Nat) (hs : st.sh.expected ≤ s) :
    ∃ c', Base items (advance st s) m c' ∧ (advance st s).sh.expected = s ∧ (advance st s).hist = st.hist := by
  unfold advance
  by_cases hgt : s > st.sh.expected
  · rw [if_pos hgt]
    refine ⟨min (max c s) m, ⟨Nat.min_le_right _ _, ?_, h.hm, ?_, h.hp.notify' _ rfl rfl rfl, h.hnext, h.hhist⟩, rfl, rfl⟩
    · show min (max c s) m ≤ s
      have := h.hce
      omega
    · show cleanup st.sh.added s = _
      rw [h.hadd, cleanup_part items m s h.hm c h.hcm]
  · rw [if_neg hgt]
    exact ⟨c, h, by omega, rfl⟩

theorem startOp_inv {items : List α} {st : St α} {m c : Nat} (h : Inv items st m c) (hidle : st.cpc = .idle) (op : COp) (hf : Forward st.hist op) : ∃ c', Inv items (startOp st op) m c' := by
  have hexp : st.sh.expected = lastStart st.hist := by
    rw [h.hexp, curStart, hidle]
  cases op with
  | initEpoch k => exact absurd hf (by simp [Forward])
  | less n =>
    obtain ⟨hb, h1, h2, h3⟩ := request_base h.base (n + 1)
    refine ⟨c, check_inv hb (.less n) (by simp) ?_ (Nat.lt_succ_self n) h1 ?_⟩
    · rw [h2, hexp]; exact hf
    · rw [h2, hexp, h3]; rfl
  | get i =>
    obtain ⟨hb, h1, h2, h3⟩ := request_base h.base (i + 1)
    refine ⟨c, check_inv hb (.get i) (by simp) ?_ (Nat.lt_succ_self i) h1 ?_⟩
    · rw [h2, hexp]; exact hf
    · rw [h2, hexp, h3]; rfl
  | load s e =>
    obtain ⟨hse, hls⟩ := hf
    simp only [startOp]
    by_cases heq : s = e
    · rw [if_pos heq]
      refine ⟨c, h.hcm, h.hce, h.hm, h.hadd, h.hp.congr rfl rfl rfl, .idle rfl, h.hnext, ?_, ?_⟩
      · show st.sh.expected = lastStart ((.load s e, .unit) :: st.hist)
        rw [hexp]
        simp [lastStart, heq]
      · intro p hp
        rcases List.mem_cons.1 hp with rfl | hp
        · rfl
        · exact h.hhist p hp
    · rw [if_neg heq, if_neg (by omega), if_neg (by omega)]
      obtain ⟨c', hb0, e1, e2⟩ := advance_base h.base s (by omega)
      obtain ⟨hb, h1, h2, h3⟩ := request_base hb0 e
      exact ⟨c', check_inv hb (.load s e) (by simp) (by rw [h2, e1]; exact Nat.le_refl _) (by show s < e; omega) h1 (by rw [h2, e1]; rfl)⟩

theorem stepC_inv {items : List α} {client : List (COp × CRes α) → Option COp} (hcl : ForwardClient client) {st st' : St α} (hown : Own client st.hist) {m c : Nat} (h : Inv items st m c) (hstep : stepC client st = some st') :
    ∃ c', Inv items st' m c' := by
  unfold stepC at hstep
  have hc := h.hc
  have hex := h.hexp
  cases hc with
  | idle hi =>
    rw [hi] at hstep
    simp only [Option.map_eq_some_iff] at hstep
    obtain ⟨op, hop, rfl⟩ := hstep
    exact startOp_inv h hi op (hcl _ _ hown hop)
  | wait op aw hw hi hs hlt hr haw =>
    rw [hw] at hstep
    cases aw with
    | false => simp at hstep
    | true =>
      simp only [Option.some.injEq] at hstep
      subst hstep
      refine ⟨c, check_inv h.base op hi hs hlt hr ?_⟩
      rw [hex, curStart, hw]
      cases op <;> rfl

/-! ### The adding thread -/

theorem curStart_of {st st' : St α} (h1 : st'.hist = st.hist) (h2 : st'.cpc = st.cpc ∨ st'.cpc = st.cpc.wake) : curStart st' = curStart st := by
  unfold curStart
  rw [h1]
  rcases h2 with h2 | h2
  · rw [h2]
  · rw [h2]
    cases hc : st.cpc with
    | idle => simp [CPc.wake]
    | wait op aw => cases op <;> simp [CPc.wake]

/-- The reading thread after a change of the shared state by the adding thread with a notification. -/
theorem CInv.after {m m' : Nat} {st st' : St α} (h : CInv m st) (hc : st'.cpc = st.cpc.wake) (h1 : st'.sh.expected = st.sh.expected) (h2 : st'.sh.requested = st.sh.requested) : CInv m' st' := by
  cases h with
  | idle hi => exact .idle (by rw [hc, hi]; rfl)
  | wait op aw hw hi hs hlt hr haw => exact .wait op true (by rw [hc, hw]; rfl) hi (h1 ▸ hs) hlt (h2 ▸ hr) (by simp)

theorem append_inv {items : List α} {st : St α} {m c : Nat} {x : α} (hcm : c ≤ m) (hce : c ≤ st.sh.expected) (hadd : st.sh.added = part items c m) (hx : items[m]? = some x)
    (hn : st.sh.next = m + 1) (hpr : st.prog = (items.drop (m + 1)).map .add ++ [.finish]) (hf : st.sh.final = false) (hr : st.sh.ready = true) (hc : CInv m st)
    (hnext : m + 1 ≤ st.sh.requested + cachedMax) (hexp : st.sh.expected = curStart st) (hh : ∀ p ∈ st.hist, RightRes items p.1 p.2) :
    Inv items (append st m x) (m + 1) c := by
  have hm : m < items.length := (List.getElem?_eq_some_iff.1 hx).1
  refine ⟨by omega, hce, by omega, ?_, .run rfl hn hpr hf hr, hc.after rfl rfl rfl, hnext, ?_, hh⟩
  · show st.sh.added ++ [(m, x)] = _
    rw [hadd, part_snoc items hcm hx]
  · show st.sh.expected = _
    rw [hexp]
    exact (by symm; exact curStart_of (st := st) (by rfl) (.inr (by rfl)))

theorem addCheck_inv {items : List α} {st : St α} {m c : Nat} {x : α} (hcm : c ≤ m) (hce : c ≤ st.sh.expected) (hadd : st.sh.added = part items c m) (hx : items[m]? = some x)
    (hn : st.sh.next = m + 1) (hpr : st.prog = (items.drop (m + 1)).map .add ++ [.finish]) (hf : st.sh.final = false) (hr : st.sh.ready = true) (hc : CInv m st)
    (hnext : m ≤ st.sh.requested + cachedMax) (hexp : st.sh.expected = curStart st) (hh : ∀ p ∈ st.hist, RightRes items p.1 p.2) :
    ∃ m', Inv items (addCheck st m x) m' c := by
  have hm : m < items.length := (List.getElem?_eq_some_iff.1 hx).1
  unfold addCheck
  by_cases hgt : m + 1 > st.sh.requested + cachedMin
  · rw [if_pos hgt, if_neg (by simp [hf, hn])]
    refine ⟨m, hcm, hce, by omega, hadd, .wait x false rfl hx hn hpr hf hr (fun _ => hgt), ?_, hnext, ?_, hh⟩
    · cases hc with
      | idle hi => exact .idle hi
      | wait op aw hw hi hs hlt hr haw => exact .wait op aw hw hi hs hlt hr haw
    · show st.sh.expected = _
      rw [hexp]
      exact (by symm; exact curStart_of (st := st) (by rfl) (.inl (by rfl)))
  · rw [if_neg hgt]
    exact ⟨m + 1, append_inv hcm hce hadd hx hn hpr hf hr hc (by simp only [cachedMin, cachedMax] at *; omega) hexp hh⟩

theorem stepP_inv {items : List α} {st st' : St α} {m c : Nat} (h : Inv items st m c) (hstep : stepP st = some st') : ∃ m', Inv items st' m' c := by
  unfold stepP at hstep
  have hp := h.hp
  cases hp with
  | fin hp hn hpr hf hm =>
    rw [hp, hpr] at hstep
    simp at hstep
  | wait x aw hp hx hn hpr hf hr haw =>
    rw [hp] at hstep
    cases aw with
    | false => simp at hstep
    | true =>
      simp only [Option.some.injEq] at hstep
      subst hstep
      exact addCheck_inv h.hcm h.hce h.hadd hx hn hpr hf hr h.hc h.hnext h.hexp h.hhist
  | run hp hn hpr hf hr =>
    rw [hp, hpr] at hstep
    by_cases hlt : m < items.length
    · have hd : items.drop m = items[m] :: items.drop (m + 1) := List.drop_eq_getElem_cons hlt
      rw [hd] at hstep
      simp only [List.map_cons, List.cons_append, Option.some.injEq] at hstep
      subst hstep
      have hx : items[m]? = some items[m] := by simp [hlt]
      unfold addStart
      rw [if_neg (by simp [hf, hr])]
      simp only [hn]
      by_cases hmax : m + 1 > st.sh.requested + cachedMax
      · rw [if_pos hmax]
        exact addCheck_inv h.hcm h.hce h.hadd hx rfl rfl hf hr (h.hc.after rfl rfl rfl) h.hnext (h.hexp.trans (by symm; exact curStart_of (st := st) (by rfl) (.inr (by rfl)))) h.hhist
      · rw [if_neg hmax]
        exact ⟨m + 1, append_inv h.hcm h.hce h.hadd hx rfl rfl hf hr (h.hc.after rfl rfl rfl) (by show m + 1 ≤ st.sh.requested + cachedMax; omega) (h.hexp.trans (by symm; exact curStart_of (st := st) (by rfl) (.inr (by rfl)))) h.hhist⟩
    · have hm : m = items.length := by have := h.hm; omega
      have hd : items.drop m = [] := List.drop_eq_nil_of_le (by omega)
      rw [hd] at hstep
      simp only [List.map_nil, List.nil_append, Option.some.injEq] at hstep
      subst hstep
      refine ⟨m, h.hcm, h.hce, h.hm, h.hadd, .fin ?_ hn rfl rfl hm, h.hc.after rfl rfl rfl, h.hnext, ?_, h.hhist⟩
      · simp [notify, hp, PPc.wake]
      · show st.sh.expected = _
        rw [h.hexp]
        exact (by symm; exact curStart_of (st := st) (by rfl) (.inr (by rfl)))

/-! ### The calls are those of the reader -/

/-- The finished calls and the current one are the reader's. -/
def OwnSt (client : List (COp × CRes α) → Option COp) (st : St α) : Prop :=
  Own client st.hist ∧ ∀ op aw, st.cpc = .wait op aw → client st.hist = some op

theorem check_shape (st : St α) (op : COp) : (∃ r, check st op = done st op r) ∨ check st op = { st with cpc := .wait op false } := by
  unfold check
  split
  · exact .inl ⟨_, rfl⟩
  · exact .inl ⟨_, rfl⟩
  · exact .inr rfl

theorem check_own {client : List (COp × CRes α) → Option COp} {st st0 : St α} {op : COp} (hh : st.hist = st0.hist) (h1 : Own client st0.hist) (h2 : client st0.hist = some op) : OwnSt client (check st op) := by
  rcases check_shape st op with ⟨r, h⟩ | h
  · rw [h]
    refine ⟨?_, by simp [done]⟩
    show client st.hist = some op ∧ Own client st.hist
    rw [hh]; exact ⟨h2, h1⟩
  · rw [h]
    refine ⟨by show Own client st.hist; rw [hh]; exact h1, fun op' aw he => ?_⟩
    simp only [CPc.wait.injEq] at he
    show client st.hist = some op'
    rw [hh, h2, he.1]

theorem done_own {client : List (COp × CRes α) → Option COp} {st st0 : St α} {op : COp} (r : CRes α) (hh : st.hist = st0.hist) (h1 : Own client st0.hist) (h2 : client st0.hist = some op) : OwnSt client (done st op r) := by
  refine ⟨?_, by simp [done]⟩
  show client st.hist = some op ∧ Own client st.hist
  rw [hh]; exact ⟨h2, h1⟩

theorem request_hist (st : St α) (n : Nat) : (request st n).hist = st.hist := by
  unfold request; split <;> rfl

theorem advance_hist (st : St α) (n : Nat) : (advance st n).hist = st.hist := by
  unfold advance; split <;> rfl

theorem stepC_own {client : List (COp × CRes α) → Option COp} {st st' : St α} (h : OwnSt client st) (hstep : stepC client st = some st') : OwnSt client st' := by
  unfold stepC at hstep
  cases hc : st.cpc with
  | idle =>
    rw [hc] at hstep
    simp only [Option.map_eq_some_iff] at hstep
    obtain ⟨op, hop, rfl⟩ := hstep
    cases op with
    | initEpoch k => exact done_own (st0 := st) _ rfl h.1 hop
    | less n => exact check_own (request_hist st _) h.1 hop
    | get n => exact check_own (request_hist st _) h.1 hop
    | load s e =>
      simp only [startOp]
      split
      · exact done_own (st0 := st) _ rfl h.1 hop
      · split
        · exact done_own (st0 := st) _ rfl h.1 hop
        · split
          · exact done_own (st0 := st) _ rfl h.1 hop
          · exact check_own ((request_hist _ _).trans (advance_hist st _)) h.1 hop
  | wait op aw =>
    rw [hc] at hstep
    cases aw with
    | false => simp at hstep
    | true =>
      simp only [Option.some.injEq] at hstep
      subst hstep
      exact check_own rfl h.1 (h.2 op true hc)

/-- The adding thread leaves the calls alone. -/
theorem append_shape (st : St α) (idx : Nat) (x : α) : (append st idx x).hist = st.hist ∧ (append st idx x).cpc = st.cpc.wake := ⟨rfl, rfl⟩

theorem wake_wake (c : CPc) : c.wake.wake = c.wake := by cases c <;> rfl

theorem addCheck_shape (st : St α) (idx : Nat) (x : α) : (addCheck st idx x).hist = st.hist ∧ ((addCheck st idx x).cpc = st.cpc ∨ (addCheck st idx x).cpc = st.cpc.wake) := by
  unfold addCheck
  split
  · split
    · exact ⟨rfl, .inl rfl⟩
    · exact ⟨rfl, .inl rfl⟩
  · exact ⟨rfl, .inr rfl⟩

theorem addStart_shape (st : St α) (x : α) : (addStart st x).hist = st.hist ∧ ((addStart st x).cpc = st.cpc ∨ (addStart st x).cpc = st.cpc.wake) := by
  unfold addStart
  split
  · exact ⟨rfl, .inl rfl⟩
  · simp only
    split
    · obtain ⟨h1, h2⟩ := addCheck_shape (notify { st with sh := { st.sh with next := st.sh.next + 1 } }) st.sh.next x
      refine ⟨h1, .inr ?_⟩
      rcases h2 with h2 | h2
      · exact h2
      · exact h2.trans (wake_wake _)
    · exact ⟨rfl, .inr (wake_wake _)⟩

theorem epochCheck_shape (st : St α) (k : Nat) : (epochCheck st k).hist = st.hist ∧ ((epochCheck st k).cpc = st.cpc ∨ (epochCheck st k).cpc = st.cpc.wake) := by
  unfold epochCheck
  split
  · exact ⟨rfl, .inl rfl⟩
  · split
    · exact ⟨rfl, .inl rfl⟩
    · split
      · exact ⟨rfl, .inl rfl⟩
      · exact ⟨rfl, .inl rfl⟩

theorem stepP_shape {st st' : St α} (hstep : stepP st = some st') : st'.hist = st.hist ∧ (st'.cpc = st.cpc ∨ st'.cpc = st.cpc.wake) := by
  unfold stepP at hstep
  split at hstep
  · simp at hstep
  · simp only [Option.some.injEq] at hstep; subst hstep; exact addCheck_shape _ _ _
  · simp at hstep
  · simp only [Option.some.injEq] at hstep; subst hstep; exact epochCheck_shape _ _
  · simp at hstep
  · split at hstep
    · simp at hstep
    · simp only [Option.some.injEq] at hstep; subst hstep; exact epochCheck_shape _ _
    · simp only [Option.some.injEq] at hstep; subst hstep; exact ⟨rfl, .inr rfl⟩
    · simp only [Option.some.injEq] at hstep; subst hstep; exact addStart_shape _ _
    · simp only [Option.some.injEq] at hstep; subst hstep; exact ⟨rfl, .inr rfl⟩

theorem stepP_own {client : List (COp × CRes α) → Option COp} {st st' : St α} (h : OwnSt client st) (hstep : stepP st = some st') : OwnSt client st' := by
  obtain ⟨h1, h2⟩ := stepP_shape hstep
  refine ⟨h1 ▸ h.1, fun op aw he => ?_⟩
  rw [h1]
  rcases h2 with h2 | h2
  · exact h.2 op aw (h2 ▸ he)
  · cases hc : st.cpc with
    | idle => rw [h2, hc] at he; simp [CPc.wake] at he
    | wait op' aw' =>
      rw [h2, hc] at he
      simp only [CPc.wake, CPc.wait.injEq] at he
      exact he.1 ▸ h.2 op' aw' hc

theorem run_inv {items : List α} {client : List (COp × CRes α) → Option COp} (hcl : ForwardClient client) {st : St α} (h : Run client (fresh items) st) : OwnSt client st ∧ ∃ m c, Inv items st m c := by
  induction h with
  | refl => exact ⟨⟨trivial, by simp [fresh]⟩, 0, 0, inv_fresh items⟩
  | tail _ hstep ih =>
    obtain ⟨ho, m, c, hi⟩ := ih
    rcases hstep with hs | hs
    · obtain ⟨m', h'⟩ := stepP_inv hi hs
      exact ⟨stepP_own ho hs, m', c, h'⟩
    · obtain ⟨c', h'⟩ := stepC_inv hcl ho.1 hi hs
      exact ⟨stepC_own ho hs, m, c', h'⟩

end Verif.SprintData
