import Verif.SprintData.Spec
import Mathlib.Tactic.Common
namespace Verif.SprintData

variable {α : Type}

/-- The sequences with their numbers. -/
def numbered (items : List α) : List (Nat × α) := items.zipIdx.map (fun p => (p.2, p.1))

theorem numbered_length (items : List α) : (numbered items).length = items.length := by simp [numbered]

theorem numbered_get (items : List α) (i : Nat) : (numbered items)[i]? = (items[i]?).map (fun x => (i, x)) := by
  simp [numbered, List.getElem?_map, List.getElem?_zipIdx, Option.map_map, Function.comp_def]

/-- The numbers from `c` to `m`. -/
def part (items : List α) (c m : Nat) : List (Nat × α) := ((numbered items).take m).drop c

theorem part_empty (items : List α) (m : Nat) : part items m m = [] := by
  simp [part]

theorem part_cons (items : List α) {c m : Nat} (h : c < m) (hm : m ≤ items.length) : ∃ x, items[c]? = some x ∧ part items c m = (c, x) :: part items (c + 1) m := by
  have hc : c < items.length := by omega
  refine ⟨items[c], by simp [hc], ?_⟩
  unfold part
  have hl : c < ((numbered items).take m).length := by
    rw [List.length_take, numbered_length]; omega
  rw [List.drop_eq_getElem_cons hl]
  congr 1
  have h1 : ((numbered items).take m)[c]? = some (c, items[c]) := by
    rw [List.getElem?_take, if_pos h, numbered_get]
    simp [hc]
  exact (List.getElem?_eq_some_iff.1 h1).2

theorem part_snoc (items : List α) {c m : Nat} {x : α} (h : c ≤ m) (hx : items[m]? = some x) : part items c m ++ [(m, x)] = part items c (m + 1) := by
  have hm : m < items.length := (List.getElem?_eq_some_iff.1 hx).1
  unfold part
  rw [List.take_succ, numbered_get, hx]
  simp only [Option.map_some, Option.toList_some]
  rw [List.drop_append_of_le_length]
  rw [List.length_take, numbered_length]
  omega

theorem haveLoop_part (items : List α) (m stop : Nat) (hm : m ≤ items.length) (c start : Nat) (hc : c ≤ m) (h1 : c ≤ start) (h2 : start < stop) :
    haveLoop (part items c m) start stop = some (decide (stop ≤ m)) := by
  induction hk : m - c generalizing c start with
  | zero =>
    have : c = m := by omega
    subst this
    rw [part_empty]
    have : ¬ stop ≤ c := by omega
    simp [haveLoop, this]
  | succ k ih =>
    obtain ⟨x, _, hp⟩ := part_cons items (show c < m by omega) hm
    rw [hp]
    simp only [haveLoop]
    rw [if_neg (by omega)]
    by_cases hcs : c = start
    · subst hcs
      rw [if_pos rfl]
      by_cases hst : c + 1 ≥ stop
      · rw [if_pos hst]
        have : stop ≤ m := by omega
        simp [this]
      · rw [if_neg hst]
        exact ih (c + 1) (c + 1) (by omega) (by omega) (by omega) (by omega)
    · rw [if_neg hcs, if_neg (by omega)]
      exact ih (c + 1) start (by omega) (by omega) h2 (by omega)

theorem haveSeqs_part (items : List α) {m start stop c : Nat} (hm : m ≤ items.length) (hc : c ≤ m) (h1 : c ≤ start) (h2 : start < stop) :
    haveSeqs (part items c m) start stop = some (decide (stop ≤ m)) := by
  unfold haveSeqs
  rw [if_neg (by omega)]
  exact haveLoop_part items m stop hm c start hc h1 h2

theorem find_part (items : List α) (m i : Nat) (hm : m ≤ items.length) (c : Nat) (hc : c ≤ m) (h : c ≤ i) :
    (part items c m).find? (fun p => p.1 == i) = if i < m then (items[i]?).map (fun x => (i, x)) else none := by
  induction hk : m - c generalizing c with
  | zero =>
    have : c = m := by omega
    subst this
    rw [part_empty, if_neg (by omega)]
    rfl
  | succ k ih =>
    obtain ⟨x, hx, hp⟩ := part_cons items (show c < m by omega) hm
    rw [hp]
    by_cases hci : c = i
    · subst hci
      rw [if_pos (by omega), hx]
      simp
    · rw [List.find?_cons_of_neg (by simpa using hci)]
      exact ih (c + 1) (by omega) (by omega) (by omega)

theorem cleanup_part (items : List α) (m s : Nat) (hm : m ≤ items.length) (c : Nat) (hc : c ≤ m) : cleanup (part items c m) s = part items (min (max c s) m) m := by
  induction hk : m - c generalizing c with
  | zero =>
    have : c = m := by omega
    subst this
    have : min (max c s) c = c := by omega
    rw [this, part_empty]
    rfl
  | succ k ih =>
    obtain ⟨x, hx, hp⟩ := part_cons items (show c < m by omega) hm
    unfold cleanup at ih ⊢
    by_cases hcs : c < s
    · rw [hp, List.dropWhile_cons_of_pos (by simpa using hcs), ih (c + 1) (by omega) (by omega)]
      congr 1
      omega
    · have : min (max c s) m = c := by omega
      rw [this]
      conv_lhs => rw [hp]
      rw [List.dropWhile_cons_of_neg (by simpa using hcs), ← hp]

/-! ### The invariant -/

/-- The adding thread: `m` sequences are in the buffer or were. -/
inductive PInv (items : List α) (m : Nat) : St α → Prop
  | run {st : St α} (hp : st.ppc = .run) (hn : st.sh.next = m) (hpr : st.prog = (items.drop m).map .add ++ [.finish]) (hf : st.sh.final = false) (hr : st.sh.ready = true) : PInv items m st
  | wait {st : St α} (x : α) (aw : Bool) (hp : st.ppc = .waitAdd m x aw) (hx : items[m]? = some x) (hn : st.sh.next = m + 1) (hpr : st.prog = (items.drop (m + 1)).map .add ++ [.finish])
      (hf : st.sh.final = false) (hr : st.sh.ready = true) (haw : aw = false → m + 1 > st.sh.requested + cachedMin) : PInv items m st
  | fin {st : St α} (hp : st.ppc = .run) (hn : st.sh.next = m) (hpr : st.prog = []) (hf : st.sh.final = true) (hm : m = items.length) : PInv items m st

/-- The start of the newest load, also if it is not finished. -/
def curStart (st : St α) : Nat :=
  match st.cpc with
  | .wait (.load s _) _ => s
  | _ => lastStart st.hist

/-- The reading thread. -/
inductive CInv (m : Nat) : St α → Prop
  | idle {st : St α} (hc : st.cpc = .idle) : CInv m st
  | wait {st : St α} (op : COp) (aw : Bool) (hc : st.cpc = .wait op aw) (hi : ∀ k, op ≠ .initEpoch k) (hs : st.sh.expected ≤ op.start) (hlt : op.start < op.stop) (hr : op.stop ≤ st.sh.requested)
      (haw : aw = false → st.sh.final = false ∧ m < op.stop) : CInv m st

structure Inv (items : List α) (st : St α) (m c : Nat) : Prop where
  hcm : c ≤ m
  hce : c ≤ st.sh.expected
  hm : m ≤ items.length
  hadd : st.sh.added = part items c m
  hp : PInv items m st
  hc : CInv m st
  hnext : m ≤ st.sh.requested + cachedMax
  hexp : st.sh.expected = curStart st
  hhist : ∀ p ∈ st.hist, RightRes items p.1 p.2

theorem inv_fresh (items : List α) : Inv items (fresh items) 0 0 :=
  ⟨Nat.le_refl _, Nat.le_refl _, Nat.zero_le _, by simp [fresh, part], .run rfl rfl (by simp [fresh]) rfl rfl, .idle rfl, Nat.zero_le _, rfl, by simp [fresh]⟩

theorem PInv.notify {items : List α} {m : Nat} {st : St α} (h : PInv items m st) : PInv items m (notify st) := by
  cases h with
  | run hp hn hpr hf hr => exact .run (by simp [SprintData.notify, hp, PPc.wake]) hn hpr hf hr
  | wait x aw hp hx hn hpr hf hr haw => exact .wait x true (by simp [SprintData.notify, hp, PPc.wake]) hx hn hpr hf hr (by simp)
  | fin hp hn hpr hf hm => exact .fin (by simp [SprintData.notify, hp, PPc.wake]) hn hpr hf hm

theorem CInv.notify {m : Nat} {st : St α} (h : CInv m st) : CInv m (notify st) := by
  cases h with
  | idle hc => exact .idle (by simp [SprintData.notify, hc, CPc.wake])
  | wait op aw hc hi hs hlt hr haw => exact .wait op true (by simp [SprintData.notify, hc, CPc.wake]) hi hs hlt hr (by simp)

theorem curStart_notify (st : St α) : curStart (notify st) = curStart st := by
  unfold curStart notify
  cases hc : st.cpc with
  | idle => simp [CPc.wake]
  | wait op aw => cases op <;> simp [CPc.wake]

theorem Inv.notify {items : List α} {st : St α} {m c : Nat} (h : Inv items st m c) : Inv items (notify st) m c :=
  ⟨h.hcm, h.hce, h.hm, h.hadd, h.hp.notify, h.hc.notify, h.hnext, h.hexp.trans (curStart_notify st).symm, h.hhist⟩

end Verif.SprintData
