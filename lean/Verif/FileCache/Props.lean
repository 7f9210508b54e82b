import Verif.FileCache.Model
import Mathlib.Data.List.Basic
/-
C26: `FileCache` serves no stale, torn or truncated copy.
-/
namespace Verif.FileCache

/-- Every change of the source makes its mtime larger. -/
def growing (a b : Nat) : Bool := decide (a < b)

/-- The mtime `m` which a process has read. -/
def MOk (s : St) (m : Nat) : Prop := m ≤ s.src.mtime ∧ (s.seen.length = 1 → m = s.src.mtime)

def InfoIs (s : St) (m : Nat) : Prop := s.info = none ∨ s.info = some (.ok m)

def Checked (s : St) (size mtime : Nat) : Prop :=
  ∃ c ∈ s.seen, size = c.length ∧ ∀ d m, s.dst = some d → s.info = some (.ok m) → mtime ≤ m → d = c

def PcInv (s : St) : Pc → Prop
  | .exists_ => True
  | .statSrc => True
  | .remove => True
  | .statDst size mtime => Checked s size mtime
  | .loadInfo size mtime _ => Checked s size mtime
  | .statMtime => s.dst = none
  | .infoOpen m => s.dst = none ∧ MOk s m
  | .infoWrite m => s.dst = none ∧ MOk s m ∧ ∀ m', s.info ≠ some (.ok m')
  | .copyStat m => s.dst = none ∧ MOk s m ∧ InfoIs s m
  | .tmpOpen m size => s.dst = none ∧ MOk s m ∧ InfoIs s m ∧ (m = s.src.mtime → size = s.src.content.length)
  | .falloc m size => s.dst = none ∧ MOk s m ∧ InfoIs s m ∧ (m = s.src.mtime → size = s.src.content.length)
  | .srcOpen m size => s.dst = none ∧ MOk s m ∧ InfoIs s m ∧ (m = s.src.mtime → size = s.src.content.length ∧
      ∀ t, s.tmp = some t → t = if size > 0 then List.replicate (size + 1) 0 else [])
  | .copy m size fd off => s.dst = none ∧ MOk s m ∧ InfoIs s m ∧ (m = s.src.mtime → size = s.src.content.length ∧ fd = none ∧
      off ≤ size ∧ ∀ t, s.tmp = some t → t = s.src.content.take off ++ List.replicate (if size > 0 then size + 1 - off else 0) 0)
  | .truncate m size => s.dst = none ∧ MOk s m ∧ InfoIs s m ∧ (m = s.src.mtime → size = s.src.content.length ∧
      ∀ t, s.tmp = some t → t.take size = s.src.content)
  | .rename m => s.dst = none ∧ MOk s m ∧ InfoIs s m ∧ (m = s.src.mtime → ∀ t, s.tmp = some t → t = s.src.content)

structure Inv (s : St) : Prop where
  infoLe : ∀ m, s.info = some (.ok m) → m ≤ s.src.mtime
  fresh : ∀ d m, s.dst = some d → s.info = some (.ok m) → m = s.src.mtime → d = s.src.content
  corrupt : s.info = some .corrupt → s.dst = none
  seen : s.pc ≠ none → s.src.content ∈ s.seen
  pc : ∀ p, s.pc = some p → PcInv s p

theorem inv_init (src : Src) : Inv { src := src } := by
  constructor <;> simp

theorem inv_nopc {s : St} (h : Inv s) : Inv { s with pc := none } :=
  ⟨h.infoLe, h.fresh, h.corrupt, by simp, by simp⟩

theorem inv_pc {s : St} (h : Inv s) (p q : Pc) (hp : s.pc = some p) (hq : PcInv s q) : Inv { s with pc := some q } := by
  refine ⟨h.infoLe, h.fresh, h.corrupt, fun _ => h.seen (by simp [hp]), ?_⟩
  intro p' hp'
  simp only [Option.some.injEq] at hp'
  subst hp'
  exact hq

theorem inv_stepPc {s : St} (h : Inv s) (p : Pc) (hp : s.pc = some p) : Inv (stepPc s p).1 := by
  have hI := h.pc p hp
  have hseen := h.seen (by simp [hp])
  cases p with
  | exists_ =>
    simp only [stepPc]
    split
    · exact inv_pc h _ .statMtime hp (by assumption)
    · exact inv_pc h _ .statSrc hp trivial
  | statSrc =>
    refine inv_pc h _ (.statDst _ _) hp ⟨_, hseen, rfl, ?_⟩
    intro d m hd hm hle
    exact h.fresh d m hd hm (Nat.le_antisymm (h.infoLe m hm) hle)
  | statDst size mtime =>
    simp only [stepPc]
    split
    · exact inv_nopc h
    · exact inv_pc h _ (.loadInfo _ _ _) hp hI
  | loadInfo size mtime dstSize =>
    simp only [stepPc]
    split
    · exact inv_pc h _ .remove hp trivial
    · exact inv_nopc h
    · split
      · exact inv_nopc h
      · exact inv_pc h _ .remove hp trivial
  | remove =>
    simp only [stepPc]
    split
    · exact inv_nopc h
    · exact ⟨h.infoLe, by simp, by simp, fun _ => hseen, by simp [PcInv]⟩
  | statMtime =>
    exact inv_pc h _ (.infoOpen _) hp ⟨hI, Nat.le_refl _, fun _ => rfl⟩
  | infoOpen m =>
    refine ⟨by simp [stepPc], by simp [stepPc], fun _ => hI.1, fun _ => hseen, ?_⟩
    intro p' hp'
    simp only [stepPc, Option.some.injEq] at hp'
    subst hp'
    exact ⟨hI.1, hI.2, by simp [stepPc]⟩
  | infoWrite m =>
    obtain ⟨h1, h2, h3⟩ := hI
    refine ⟨?_, ?_, fun _ => h1, fun _ => hseen, ?_⟩
    · intro m' hm'
      simp only [stepPc] at hm'
      obtain ⟨a, _, ha⟩ := Option.map_eq_some_iff.mp hm'
      simp only [Info.ok.injEq] at ha
      rw [← ha]; exact h2.1
    · intro d m' hd
      simp only [stepPc, h1] at hd
      exact absurd hd (by simp)
    · intro p' hp'
      simp only [stepPc, Option.some.injEq] at hp'
      subst hp'
      refine ⟨h1, h2, ?_⟩
      simp only [InfoIs, stepPc]
      cases s.info <;> simp
  | copyStat m =>
    obtain ⟨h1, h2, h3⟩ := hI
    exact inv_pc h _ (.tmpOpen _ _) hp ⟨h1, h2, h3, fun _ => rfl⟩
  | tmpOpen m size =>
    obtain ⟨h1, h2, h3, h4⟩ := hI
    refine ⟨h.infoLe, h.fresh, h.corrupt, fun _ => hseen, ?_⟩
    intro p' hp'
    simp only [stepPc, Option.some.injEq] at hp'
    subst hp'
    exact ⟨h1, h2, h3, h4⟩
  | falloc m size =>
    obtain ⟨h1, h2, h3, h4⟩ := hI
    refine ⟨h.infoLe, h.fresh, h.corrupt, fun _ => hseen, ?_⟩
    intro p' hp'
    simp only [stepPc, Option.some.injEq] at hp'
    subst hp'
    refine ⟨h1, h2, h3, fun he => ⟨h4 he, ?_⟩⟩
    intro t ht
    simp only [stepPc] at ht
    obtain ⟨a, _, ha⟩ := Option.map_eq_some_iff.mp ht
    exact ha.symm
  | srcOpen m size =>
    obtain ⟨h1, h2, h3, h4⟩ := hI
    refine inv_pc h _ (.copy _ _ _ _) hp ⟨h1, h2, h3, fun he => ⟨(h4 he).1, rfl, Nat.zero_le _, ?_⟩⟩
    intro t ht
    rw [(h4 he).2 t ht]
    simp only [List.take_zero, List.nil_append, Nat.sub_zero]
    split <;> simp
  | copy m size fd off =>
    exact inv_pc h _ (.copy _ _ _ _) hp hI
  | truncate m size =>
    obtain ⟨h1, h2, h3, h4⟩ := hI
    refine ⟨h.infoLe, h.fresh, h.corrupt, fun _ => hseen, ?_⟩
    intro p' hp'
    simp only [stepPc, Option.some.injEq] at hp'
    subst hp'
    refine ⟨h1, h2, h3, fun he => ?_⟩
    intro t ht
    simp only [stepPc] at ht
    obtain ⟨a, ha, hb⟩ := Option.map_eq_some_iff.mp ht
    obtain ⟨h5, h6⟩ := h4 he
    have h7 := h6 a ha
    have hl : size ≤ a.length := by
      have := congrArg List.length h7
      rw [List.length_take, ← h5] at this
      omega
    rw [← hb, h7, show size - a.length = 0 by omega]
    simp [stepPc]
  | rename m =>
    obtain ⟨h1, h2, h3, h4⟩ := hI
    simp only [stepPc]
    split
    · exact inv_nopc h
    · rename_i t ht
      refine ⟨h.infoLe, ?_, ?_, by simp, by simp⟩
      · intro d m' hd hm' he
        simp only [Option.some.injEq] at hd
        simp only at hm' he
        subst hd
        rcases h3 with h3 | h3
        · rw [h3] at hm'; exact absurd hm' (by simp)
        · rw [h3] at hm'
          simp only [Option.some.injEq, Info.ok.injEq] at hm'
          exact h4 (hm'.trans he) _ ht
      · intro hc
        simp only at hc
        rcases h3 with h3 | h3 <;> rw [h3] at hc <;> exact absurd hc (by simp)

theorem inv_stepChunk {s : St} (h : Inv s) (k m size : Nat) (fd : Option Content) (off : Nat) (hp : s.pc = some (.copy m size fd off)) :
    Inv (stepChunk s k m size fd off) := by
  have hseen := h.seen (by simp [hp])
  obtain ⟨h1, h2, h3, h4⟩ := h.pc _ hp
  unfold stepChunk
  simp only
  split
  · rename_i hd
    refine inv_pc h _ (.truncate _ _) hp ⟨h1, h2, h3, fun he => ?_⟩
    obtain ⟨h5, h6, h7, h8⟩ := h4 he
    refine ⟨h5, ?_⟩
    intro t ht
    subst h6
    have hoff : s.src.content.length ≤ off := by
      simp only [Option.getD_none, List.take_eq_nil_iff, List.drop_eq_nil_iff] at hd
      rcases hd with hd | hd <;> omega
    rw [h8 t ht, List.take_of_length_le hoff, List.take_append_of_le_length (by omega), List.take_of_length_le (by omega)]
  · rename_i hd
    refine ⟨h.infoLe, h.fresh, h.corrupt, fun _ => hseen, ?_⟩
    intro p' hp'
    simp only [Option.some.injEq] at hp'
    subst hp'
    refine ⟨h1, h2, h3, fun he => ?_⟩
    obtain ⟨h5, h6, h7, h8⟩ := h4 he
    subst h6
    simp only [Option.getD_none] at *
    have hlen : (List.take (k + 1) (List.drop off s.src.content)).length = min (k + 1) (size - off) := by
      simp [h5]
    have hpos : 0 < (List.take (k + 1) (List.drop off s.src.content)).length := List.length_pos_iff.mpr hd
    refine ⟨h5, trivial, by omega, ?_⟩
    intro t ht
    obtain ⟨a, ha, hb⟩ := Option.map_eq_some_iff.mp ht
    rw [← hb, h8 a ha]
    have hsz : size > 0 := by omega
    simp only [hsz, if_true, writeAt]
    have htl : (s.src.content.take off).length = off := by rw [List.length_take]; omega
    have hdr : List.drop (off + min (k + 1) (size - off)) (List.take off s.src.content) = [] := List.drop_of_length_le (by omega)
    rw [List.take_append_of_le_length (by omega), List.take_of_length_le (show (s.src.content.take off).length ≤ off by omega), hlen,
      List.drop_append, htl, hdr, List.nil_append, show off + min (k + 1) (size - off) - off = min (k + 1) (size - off) by omega,
      List.drop_replicate]
    congr 1
    · have hta : List.take (off + min (k + 1) (size - off)) s.src.content =
          List.take off s.src.content ++ List.take (min (k + 1) (size - off)) (List.drop off s.src.content) := List.take_add ..
      rw [hta]
      congr 1
      have hdl : (List.drop off s.src.content).length = size - off := by rw [List.length_drop, ← h5]
      rcases Nat.le_or_ge (k + 1) (size - off) with hk | hk
      · rw [Nat.min_eq_left hk]
      · rw [Nat.min_eq_right hk, List.take_of_length_le (by omega), List.take_of_length_le (by omega)]
    · congr 1; omega

/-- A change of the source keeps what is known about the process, as its `m` is older now. -/
theorem pcInv_src {s : St} (c : Content) (m' : Nat) (hlt : s.src.mtime < m') (p : Pc) (h : PcInv s p) (hseen : s.seen ≠ []) (pc' : Option Pc) :
    PcInv { s with src := ⟨c, m'⟩, seen := c :: s.seen, pc := pc' } p := by
  have hne : (c :: s.seen).length ≠ 1 := by
    cases hs : s.seen with
    | nil => exact absurd hs hseen
    | cons a b => simp
  have hm : ∀ m, MOk s m → MOk { s with src := ⟨c, m'⟩, seen := c :: s.seen, pc := pc' } m :=
    fun m hm => ⟨by have := hm.1; simp only; omega, fun he => absurd he hne⟩
  have hno : ∀ m, MOk s m → m ≠ m' := fun m hm => by have := hm.1; omega
  have hchk : ∀ a b, Checked s a b → Checked { s with src := ⟨c, m'⟩, seen := c :: s.seen, pc := pc' } a b := by
    rintro a b ⟨c0, hc0, hx⟩
    exact ⟨c0, List.mem_cons_of_mem _ hc0, hx⟩
  cases p with
  | exists_ => trivial
  | statSrc => trivial
  | remove => trivial
  | statDst size mtime => exact hchk _ _ h
  | loadInfo size mtime dsz => exact hchk _ _ h
  | statMtime => exact h
  | infoOpen m => exact ⟨h.1, hm _ h.2⟩
  | infoWrite m => exact ⟨h.1, hm _ h.2.1, h.2.2⟩
  | copyStat m => exact ⟨h.1, hm _ h.2.1, h.2.2⟩
  | tmpOpen m size => exact ⟨h.1, hm _ h.2.1, h.2.2.1, fun he => absurd he (hno m h.2.1)⟩
  | falloc m size => exact ⟨h.1, hm _ h.2.1, h.2.2.1, fun he => absurd he (hno m h.2.1)⟩
  | srcOpen m size => exact ⟨h.1, hm _ h.2.1, h.2.2.1, fun he => absurd he (hno m h.2.1)⟩
  | copy m size fd off => exact ⟨h.1, hm _ h.2.1, h.2.2.1, fun he => absurd he (hno m h.2.1)⟩
  | truncate m size => exact ⟨h.1, hm _ h.2.1, h.2.2.1, fun he => absurd he (hno m h.2.1)⟩
  | rename m => exact ⟨h.1, hm _ h.2.1, h.2.2.1, fun he => absurd he (hno m h.2.1)⟩

theorem pcInv_detach {s : St} (c c0 : Content) (m' : Nat) (hlt : s.src.mtime < m') (p : Pc) (h : PcInv s p) (hseen : s.seen ≠ []) (pc' : Option Pc) :
    PcInv { s with src := ⟨c, m'⟩, seen := c :: s.seen, pc := pc' } (Pc.detach c0 p) := by
  have hh := pcInv_src c m' hlt p h hseen pc'
  cases p with
  | copy m size fd off =>
    refine ⟨hh.1, hh.2.1, hh.2.2.1, fun he => ?_⟩
    have := h.2.1.1
    simp only at he
    omega
  | _ => exact hh

theorem pcInv_rm {s : St} (p : Pc) (h : PcInv s p) :
    PcInv { s with dst := none } p ∧ PcInv { s with tmp := none } p ∧ PcInv { s with info := none } p := by
  cases p with
  | exists_ => exact ⟨trivial, trivial, trivial⟩
  | statSrc => exact ⟨trivial, trivial, trivial⟩
  | remove => exact ⟨trivial, trivial, trivial⟩
  | statDst size mtime =>
    obtain ⟨c, h1, h2, h3⟩ := h
    exact ⟨⟨c, h1, h2, by simp⟩, ⟨c, h1, h2, h3⟩, ⟨c, h1, h2, by simp⟩⟩
  | loadInfo size mtime dsz =>
    obtain ⟨c, h1, h2, h3⟩ := h
    exact ⟨⟨c, h1, h2, by simp⟩, ⟨c, h1, h2, h3⟩, ⟨c, h1, h2, by simp⟩⟩
  | statMtime => exact ⟨rfl, h, h⟩
  | infoOpen m => exact ⟨⟨rfl, h.2⟩, h, h⟩
  | infoWrite m => exact ⟨⟨rfl, h.2⟩, h, ⟨h.1, h.2.1, by simp⟩⟩
  | copyStat m => exact ⟨⟨rfl, h.2⟩, h, ⟨h.1, h.2.1, Or.inl rfl⟩⟩
  | tmpOpen m size => exact ⟨⟨rfl, h.2⟩, h, ⟨h.1, h.2.1, Or.inl rfl, h.2.2.2⟩⟩
  | falloc m size => exact ⟨⟨rfl, h.2⟩, h, ⟨h.1, h.2.1, Or.inl rfl, h.2.2.2⟩⟩
  | srcOpen m size =>
    exact ⟨⟨rfl, h.2⟩, ⟨h.1, h.2.1, h.2.2.1, fun he => ⟨(h.2.2.2 he).1, by simp⟩⟩, ⟨h.1, h.2.1, Or.inl rfl, h.2.2.2⟩⟩
  | copy m size fd off =>
    exact ⟨⟨rfl, h.2⟩, ⟨h.1, h.2.1, h.2.2.1, fun he => ⟨(h.2.2.2 he).1, (h.2.2.2 he).2.1, (h.2.2.2 he).2.2.1, by simp⟩⟩,
      ⟨h.1, h.2.1, Or.inl rfl, h.2.2.2⟩⟩
  | truncate m size =>
    exact ⟨⟨rfl, h.2⟩, ⟨h.1, h.2.1, h.2.2.1, fun he => ⟨(h.2.2.2 he).1, by simp⟩⟩, ⟨h.1, h.2.1, Or.inl rfl, h.2.2.2⟩⟩
  | rename m => exact ⟨⟨rfl, h.2⟩, ⟨h.1, h.2.1, h.2.2.1, fun _ => by simp⟩, ⟨h.1, h.2.1, Or.inl rfl, h.2.2.2⟩⟩

theorem inv_src {s : St} (h : Inv s) (c : Content) (m' : Nat) (hlt : s.src.mtime < m') (pc' : Option Pc)
    (hpc : ∀ p', pc' = some p' → ∃ p, s.pc = some p ∧ (p' = p ∨ p' = Pc.detach s.src.content p)) :
    Inv { s with src := ⟨c, m'⟩, seen := c :: s.seen, pc := pc' } := by
  refine ⟨?_, ?_, h.corrupt, fun _ => List.mem_cons_self .., ?_⟩
  · intro m hm
    have := h.infoLe m hm
    simp only; omega
  · intro d m _ hm he
    have := h.infoLe m hm
    simp only at he; omega
  · intro p' hp'
    simp only at hp'
    obtain ⟨p, hp, hor⟩ := hpc p' hp'
    have hseen : s.seen ≠ [] := List.ne_nil_of_mem (h.seen (by simp [hp]))
    rcases hor with rfl | rfl
    · exact pcInv_src c m' hlt _ (h.pc _ hp) hseen pc'
    · exact pcInv_detach c _ m' hlt _ (h.pc _ hp) hseen pc'

theorem inv_step {s s' : St} {e : Ev} {r : Option Ret} (h : Inv s) (hs : step growing s e = some (s', r)) : Inv s' := by
  cases e with
  | acquire =>
    simp only [step] at hs
    split at hs
    · exact absurd hs (by simp)
    · simp only [Option.some.injEq, Prod.mk.injEq] at hs
      rw [← hs.1]
      refine ⟨h.infoLe, h.fresh, h.corrupt, fun _ => by simp, ?_⟩
      intro p hp
      simp only [Option.some.injEq] at hp
      subst hp
      trivial
  | next =>
    simp only [step] at hs
    split at hs
    · exact absurd hs (by simp)
    · rename_i p hp
      simp only [Option.some.injEq] at hs
      rw [show s' = (stepPc s p).1 by rw [hs]]
      exact inv_stepPc h p hp
  | chunk k =>
    simp only [step] at hs
    split at hs
    · rename_i m size fd off hp
      simp only [Option.some.injEq, Prod.mk.injEq] at hs
      rw [← hs.1]
      exact inv_stepChunk h k m size fd off hp
    · exact absurd hs (by simp)
  | crash =>
    simp only [step, Option.some.injEq, Prod.mk.injEq] at hs
    rw [← hs.1]
    exact inv_nopc h
  | fail =>
    simp only [step] at hs
    split at hs
    · exact absurd hs (by simp)
    · simp only [Option.some.injEq, Prod.mk.injEq] at hs
      rw [← hs.1]
      exact inv_nopc h
  | srcWrite c m =>
    simp only [step, growing, decide_eq_true_eq] at hs
    split at hs
    · rename_i hlt
      simp only [Option.some.injEq, Prod.mk.injEq] at hs
      rw [← hs.1]
      exact inv_src h c m hlt s.pc (fun p' hp' => ⟨p', hp', Or.inl rfl⟩)
    · exact absurd hs (by simp)
  | srcReplace c m =>
    simp only [step, growing, decide_eq_true_eq] at hs
    split at hs
    · rename_i hlt
      simp only [Option.some.injEq, Prod.mk.injEq] at hs
      rw [← hs.1]
      refine inv_src h c m hlt _ (fun p' hp' => ?_)
      obtain ⟨p, hp, he⟩ := Option.map_eq_some_iff.mp hp'
      exact ⟨p, hp, Or.inr he.symm⟩
    · exact absurd hs (by simp)
  | rmDst =>
    simp only [step, Option.some.injEq, Prod.mk.injEq] at hs
    rw [← hs.1]
    exact ⟨h.infoLe, by simp, by simp, h.seen, fun p hp => (pcInv_rm p (h.pc p hp)).1⟩
  | rmTmp =>
    simp only [step, Option.some.injEq, Prod.mk.injEq] at hs
    rw [← hs.1]
    exact ⟨h.infoLe, h.fresh, h.corrupt, h.seen, fun p hp => (pcInv_rm p (h.pc p hp)).2.1⟩
  | rmInfo =>
    simp only [step, Option.some.injEq, Prod.mk.injEq] at hs
    rw [← hs.1]
    exact ⟨by simp, by simp, by simp, h.seen, fun p hp => (pcInv_rm p (h.pc p hp)).2.2⟩

theorem inv_reach {s : St} (h : Reach growing s) : Inv s := by
  induction h with
  | init src => exact inv_init src
  | step _ hs ih => exact inv_step ih hs

/-- A result comes only from the next system call of the process with the lock, or from an exception. -/
theorem step_ret {s s' : St} {e : Ev} {r : Ret} (hs : step growing s e = some (s', some r)) :
    (∃ p, s.pc = some p ∧ stepPc s p = (s', some r)) ∨ r = .raised := by
  cases e with
  | next =>
    simp only [step] at hs
    split at hs
    · exact absurd hs (by simp)
    · rename_i p hp
      exact Or.inl ⟨p, hp, by simpa using hs⟩
  | acquire => simp only [step] at hs; split at hs <;> simp at hs
  | chunk k => simp only [step] at hs; split at hs <;> simp at hs
  | crash => simp [step] at hs
  | fail =>
    simp only [step] at hs
    split at hs
    · simp at hs
    · right; simp at hs; exact hs.2.symm
  | srcWrite c m => simp only [step] at hs; split at hs <;> simp at hs
  | srcReplace c m => simp only [step] at hs; split at hs <;> simp at hs
  | rmDst => simp [step] at hs
  | rmTmp => simp [step] at hs
  | rmInfo => simp [step] at hs

theorem stepPc_hit {s s' : St} {p : Pc} (h : stepPc s p = (s', some .hit)) :
    ∃ size mtime dsz known, p = .loadInfo size mtime dsz ∧ s.info = some (.ok known) ∧ usable size mtime dsz known = true ∧
      s' = { s with pc := none } := by
  cases p with
  | loadInfo size mtime dsz =>
    simp only [stepPc] at h
    split at h
    · simp at h
    · simp at h
    · rename_i known hk
      split at h
      · rename_i hu
        simp only [Prod.mk.injEq, and_true] at h
        exact ⟨size, mtime, dsz, known, rfl, hk, hu, h.symm⟩
      · simp at h
  | exists_ => simp only [stepPc] at h; split at h <;> simp at h
  | statDst a b => simp only [stepPc] at h; split at h <;> simp at h
  | remove => simp only [stepPc] at h; split at h <;> simp at h
  | rename m => simp only [stepPc] at h; split at h <;> simp at h
  | _ => simp [stepPc] at h

theorem stepPc_copied {s s' : St} {p : Pc} (h : stepPc s p = (s', some .copied)) :
    ∃ m t, p = .rename m ∧ s.tmp = some t ∧ s' = { s with dst := some t, tmp := none, pc := none } := by
  cases p with
  | rename m =>
    simp only [stepPc] at h
    split at h
    · simp at h
    · rename_i t ht
      simp only [Prod.mk.injEq, and_true] at h
      exact ⟨m, t, rfl, ht, h.symm⟩
  | exists_ => simp only [stepPc] at h; split at h <;> simp at h
  | statDst a b => simp only [stepPc] at h; split at h <;> simp at h
  | remove => simp only [stepPc] at h; split at h <;> simp at h
  | loadInfo size mtime dsz =>
    simp only [stepPc] at h
    split at h
    · simp at h
    · simp at h
    · split at h <;> simp at h
  | _ => simp [stepPc] at h

/-- C26. However processes, crashes, exceptions, source changes and cleanups were interleaved before: if `_copy_file_if_needed`
uses the existing file, then the content of the file is a content the source had at some time since the process got the lock. -/
theorem hit_not_stale {s s' : St} {e : Ev} (h : Reach growing s) (hs : step growing s e = some (s', some .hit)) (d : Content)
    (hd : s'.dst = some d) : d ∈ s'.seen := by
  have hI := inv_reach h
  rcases step_ret hs with ⟨p, hp, hst⟩ | hr
  · obtain ⟨size, mtime, dsz, known, rfl, hk, hu, rfl⟩ := stepPc_hit hst
    obtain ⟨c, hc, _, hx⟩ := hI.pc _ hp
    simp only [usable, Bool.not_eq_true', Bool.or_eq_false_iff, decide_eq_false_iff_not] at hu
    have := hx d known hd hk (by omega)
    rw [this]; exact hc
  · exact absurd hr (by simp)

/-- C26. If it copies the file, and the source was not changed since the process got the lock, then the cached file is the source
file. -/
theorem copied_not_torn_partial {s s' : St} {e : Ev} (h : Reach growing s) (hs : step growing s e = some (s', some .copied)) (c : Content)
    (hc : s'.seen = [c]) : s'.dst = some c ∧ s'.src.content = c := by
  have hI := inv_reach h
  rcases step_ret hs with ⟨p, hp, hst⟩ | hr
  · obtain ⟨m, t, rfl, ht, rfl⟩ := stepPc_copied hst
    obtain ⟨_, hm, _, hx⟩ := hI.pc _ hp
    have hsc := hI.seen (by simp [hp])
    simp only at hc
    rw [hc] at hsc
    simp only [List.mem_singleton] at hsc
    have := hx (hm.2 (by simp [hc])) t ht
    exact ⟨by simp only [this, hsc], hsc⟩
  · exact absurd hr (by simp)

/-- C26. A torn copy (the source was changed while it was copied) is never used again: as long as the cached file differs from
the source, no later check accepts it. -/
theorem torn_not_used {s : St} (h : Reach growing s) (d : Content) (known : Nat) (hd : s.dst = some d) (hi : s.info = some (.ok known))
    (hne : d ≠ s.src.content) (size dsz : Nat) : usable size s.src.mtime dsz known = false := by
  have hI := inv_reach h
  have h1 := hI.infoLe known hi
  have h2 : known ≠ s.src.mtime := fun he => hne (hI.fresh d known hd hi he)
  simp only [usable, Bool.not_eq_false', Bool.or_eq_true, decide_eq_true_eq]
  right; omega

/-- C26. Also after a crash while writing it, the info file can always be decoded when it is read, unless the cached file itself was
removed by a cleanup since it was seen. -/
theorem no_decode_error {s s' : St} {e : Ev} (h : Reach growing s) (hs : step growing s e = some (s', some .decodeError)) : s.dst = none := by
  have hI := inv_reach h
  rcases step_ret hs with ⟨p, hp, hst⟩ | hr
  · cases p with
    | loadInfo size mtime dsz =>
      simp only [stepPc] at hst
      split at hst
      · simp at hst
      · rename_i hc
        exact hI.corrupt hc
      · split at hst <;> simp at hst
    | exists_ => simp only [stepPc] at hst; split at hst <;> simp at hst
    | statDst a b => simp only [stepPc] at hst; split at hst <;> simp at hst
    | remove => simp only [stepPc] at hst; split at hst <;> simp at hst
    | rename m => simp only [stepPc] at hst; split at hst <;> simp at hst
    | _ => simp [stepPc] at hst
  · exact absurd hr (by simp)

/-! The sizes, also if changes of the source need not make its mtime larger. -/

def SizeInv (s : St) : Prop :=
  match s.pc with
  | some (.statDst size _) => size ∈ s.seen.map List.length
  | some (.loadInfo size _ dsz) => size ∈ s.seen.map List.length ∧ ∀ d, s.dst = some d → d.length = dsz
  | _ => True

theorem sizeInv_step {later : Nat → Nat → Bool} {s s' : St} {e : Ev} {r : Option Ret} (hsrc : s.pc ≠ none → s.src.content ∈ s.seen)
    (h : SizeInv s) (hs : step later s e = some (s', r)) : SizeInv s' ∧ (s'.pc ≠ none → s'.src.content ∈ s'.seen) := by
  cases e with
  | acquire =>
    simp only [step] at hs
    split at hs
    · simp at hs
    · simp only [Option.some.injEq, Prod.mk.injEq] at hs
      rw [← hs.1]; exact ⟨trivial, by simp⟩
  | crash => simp only [step, Option.some.injEq, Prod.mk.injEq] at hs; rw [← hs.1]; exact ⟨trivial, by simp⟩
  | fail =>
    simp only [step] at hs
    split at hs
    · simp at hs
    · simp only [Option.some.injEq, Prod.mk.injEq] at hs
      rw [← hs.1]; exact ⟨trivial, by simp⟩
  | rmDst =>
    simp only [step, Option.some.injEq, Prod.mk.injEq] at hs; rw [← hs.1]
    refine ⟨?_, hsrc⟩
    unfold SizeInv at h ⊢
    simp only
    split
    · rename_i hp; rw [hp] at h; exact h
    · rename_i hp; rw [hp] at h; exact ⟨h.1, by simp⟩
    · trivial
  | rmTmp => simp only [step, Option.some.injEq, Prod.mk.injEq] at hs; rw [← hs.1]; exact ⟨h, hsrc⟩
  | rmInfo => simp only [step, Option.some.injEq, Prod.mk.injEq] at hs; rw [← hs.1]; exact ⟨h, hsrc⟩
  | srcWrite c m =>
    simp only [step] at hs
    split at hs
    · simp only [Option.some.injEq, Prod.mk.injEq] at hs
      rw [← hs.1]
      refine ⟨?_, fun _ => by simp⟩
      unfold SizeInv at h ⊢
      simp only
      split
      · rename_i hp; rw [hp] at h; exact List.mem_cons_of_mem _ h
      · rename_i hp; rw [hp] at h; exact ⟨List.mem_cons_of_mem _ h.1, h.2⟩
      · trivial
    · simp at hs
  | srcReplace c m =>
    simp only [step] at hs
    split at hs
    · simp only [Option.some.injEq, Prod.mk.injEq] at hs
      rw [← hs.1]
      refine ⟨?_, fun _ => by simp⟩
      unfold SizeInv at h ⊢
      simp only
      cases hp : s.pc with
      | none => trivial
      | some p =>
        rw [hp] at h
        cases p with
        | statDst a b => exact List.mem_cons_of_mem _ h
        | loadInfo a b c => exact ⟨List.mem_cons_of_mem _ h.1, h.2⟩
        | _ => trivial
    · simp at hs
  | chunk k =>
    simp only [step] at hs
    split at hs
    · rename_i hp
      simp only [Option.some.injEq, Prod.mk.injEq] at hs
      rw [← hs.1]
      have := hsrc (by simp [hp])
      unfold stepChunk
      simp only
      split <;> exact ⟨trivial, fun _ => this⟩
    · simp at hs
  | next =>
    simp only [step] at hs
    split at hs
    · simp at hs
    · rename_i p hp
      simp only [Option.some.injEq] at hs
      rw [show s' = (stepPc s p).1 by rw [hs]]
      have hin := hsrc (by simp [hp])
      unfold SizeInv at h
      rw [hp] at h
      cases p with
      | exists_ => simp only [stepPc]; split <;> exact ⟨trivial, fun _ => hin⟩
      | statSrc => exact ⟨List.mem_map_of_mem hin, fun _ => hin⟩
      | statDst a b =>
        simp only [stepPc]
        split
        · exact ⟨trivial, by simp⟩
        · rename_i d hd
          refine ⟨⟨h, ?_⟩, fun _ => hin⟩
          intro d' hd'
          simp only [hd, Option.some.injEq] at hd'
          rw [hd']
      | loadInfo a b c =>
        simp only [stepPc]
        split
        · exact ⟨trivial, fun _ => hin⟩
        · exact ⟨trivial, by simp⟩
        · split
          · exact ⟨trivial, by simp⟩
          · exact ⟨trivial, fun _ => hin⟩
      | remove =>
        simp only [stepPc]
        split
        · exact ⟨trivial, by simp⟩
        · exact ⟨trivial, fun _ => hin⟩
      | rename m => simp only [stepPc]; split <;> exact ⟨trivial, by simp⟩
      | _ => exact ⟨trivial, fun _ => hin⟩

/-- C26. A file of another size than the source had since the process got the lock is not used, also if the mtime of the source was not
changed or made older. -/
theorem hit_size {later : Nat → Nat → Bool} {s s' : St} {e : Ev} (h : Reach later s) (hs : step later s e = some (s', some .hit)) (d : Content)
    (hd : s'.dst = some d) : d.length ∈ s'.seen.map List.length := by
  have hI : SizeInv s ∧ (s.pc ≠ none → s.src.content ∈ s.seen) := by
    clear hs
    induction h with
    | init src => exact ⟨trivial, by simp⟩
    | step _ hs ih => exact sizeInv_step ih.2 ih.1 hs
  have hn : ∃ p, s.pc = some p ∧ stepPc s p = (s', some .hit) := by
    cases e with
    | next =>
      simp only [step] at hs
      split at hs
      · exact absurd hs (by simp)
      · rename_i p hp
        exact ⟨p, hp, by simpa using hs⟩
    | acquire => simp only [step] at hs; split at hs <;> simp at hs
    | chunk k => simp only [step] at hs; split at hs <;> simp at hs
    | crash => simp [step] at hs
    | fail => simp only [step] at hs; split at hs <;> simp at hs
    | srcWrite c m => simp only [step] at hs; split at hs <;> simp at hs
    | srcReplace c m => simp only [step] at hs; split at hs <;> simp at hs
    | rmDst => simp [step] at hs
    | rmTmp => simp [step] at hs
    | rmInfo => simp [step] at hs
  obtain ⟨p, hp, hst⟩ := hn
  obtain ⟨size, mtime, dsz, known, rfl, hk, hu, rfl⟩ := stepPc_hit hst
  have h1 := hI.1
  unfold SizeInv at h1
  rw [hp] at h1
  simp only [usable, Bool.not_eq_true', Bool.or_eq_false_iff, decide_eq_false_iff_not] at hu
  have h2 := h1.2 d hd
  rw [h2, show dsz = size by omega]
  exact h1.1

/-! A call without disturbance. -/

/-- What holds in addition if nobody else interferes. -/
def Quiet (s : St) : Pc → Prop
  | .exists_ => True
  | .statSrc => s.dst ≠ none
  | .statDst _ _ => s.dst ≠ none
  | .loadInfo _ _ _ => s.dst ≠ none
  | .remove => s.dst ≠ none
  | .falloc _ _ => s.tmp ≠ none
  | .srcOpen _ _ => s.tmp ≠ none
  | .copy _ _ _ _ => s.tmp ≠ none
  | .truncate _ _ => s.tmp ≠ none
  | .rename _ => s.tmp ≠ none
  | _ => True

structure QInv (src : Src) (s : St) : Prop where
  reach : Reach growing s
  same : s.src = src
  seen : s.seen = [src.content]
  quiet : ∀ p, s.pc = some p → Quiet s p

/-- The result of a call without disturbance. -/
def Good (src : Src) (s : St) (r : Ret) : Prop := (r = .hit ∨ r = .copied) ∧ s.pc = none ∧ s.dst = some src.content ∧ s.src = src

def Own : Ev → Prop
  | .next => True
  | .chunk _ => True
  | _ => False

theorem quiet_step {src : Src} {s s' : St} {e : Ev} {r : Option Ret} (h : QInv src s) (ho : Own e) (hs : step growing s e = some (s', r)) :
    (r = none ∧ s'.pc ≠ none ∧ QInv src s') ∨ ∃ r', r = some r' ∧ Good src s' r' := by
  have hr' : Reach growing s' := .step h.reach hs
  have hI := inv_reach h.reach
  cases e with
  | next =>
    have hs0 := hs
    simp only [step] at hs
    split at hs
    · exact absurd hs (by simp)
    · rename_i p hp
      have hq := h.quiet p hp
      simp only [Option.some.injEq] at hs
      have close : ∀ q : Pc, Quiet s' q → s' = { s' with src := s.src, seen := s.seen, pc := some q } →
          (none = (none : Option Ret) ∧ s'.pc ≠ none ∧ QInv src s') := by
        intro q hq' he
        have h1 : s'.src = s.src := by rw [he]
        have h2 : s'.seen = s.seen := by rw [he]
        have h3 : s'.pc = some q := by rw [he]
        refine ⟨rfl, by simp [h3], hr', by rw [h1]; exact h.same, by rw [h2]; exact h.seen, ?_⟩
        intro p' hp'
        rw [h3] at hp'
        simp only [Option.some.injEq] at hp'
        subst hp'
        exact hq'
      cases p with
      | exists_ =>
        simp only [stepPc] at hs
        split at hs
        · simp only [Prod.mk.injEq] at hs
          obtain ⟨rfl, rfl⟩ := hs
          exact Or.inl (close .statMtime trivial rfl)
        · rename_i d hd
          simp only [Prod.mk.injEq] at hs
          obtain ⟨rfl, rfl⟩ := hs
          exact Or.inl (close .statSrc (by simp [Quiet, hd]) rfl)
      | statSrc =>
        simp only [stepPc, Prod.mk.injEq] at hs
        obtain ⟨rfl, rfl⟩ := hs
        exact Or.inl (close (.statDst _ _) hq rfl)
      | statDst a b =>
        simp only [stepPc] at hs
        split at hs
        · rename_i hd; exact absurd hd hq
        · simp only [Prod.mk.injEq] at hs
          obtain ⟨rfl, rfl⟩ := hs
          exact Or.inl (close (.loadInfo _ _ _) hq rfl)
      | loadInfo a b c =>
        simp only [stepPc] at hs
        split at hs
        · simp only [Prod.mk.injEq] at hs
          obtain ⟨rfl, rfl⟩ := hs
          exact Or.inl (close .remove hq rfl)
        · rename_i hc
          exact absurd (hI.corrupt hc) hq
        · split at hs
          · rename_i known hk hu
            simp only [Prod.mk.injEq] at hs
            obtain ⟨rfl, rfl⟩ := hs
            refine Or.inr ⟨_, rfl, Or.inl rfl, rfl, ?_, h.same⟩
            obtain ⟨d, hd⟩ := Option.ne_none_iff_exists'.mp hq
            have hst := hit_not_stale h.reach hs0 d hd
            simp only [h.seen, List.mem_singleton] at hst
            simp only [hd, hst]
          · simp only [Prod.mk.injEq] at hs
            obtain ⟨rfl, rfl⟩ := hs
            exact Or.inl (close .remove hq rfl)
      | remove =>
        simp only [stepPc] at hs
        split at hs
        · rename_i hd; exact absurd hd hq
        · simp only [Prod.mk.injEq] at hs
          obtain ⟨rfl, rfl⟩ := hs
          exact Or.inl (close .statMtime trivial rfl)
      | statMtime =>
        simp only [stepPc, Prod.mk.injEq] at hs
        obtain ⟨rfl, rfl⟩ := hs
        exact Or.inl (close (.infoOpen _) trivial rfl)
      | infoOpen m =>
        simp only [stepPc, Prod.mk.injEq] at hs
        obtain ⟨rfl, rfl⟩ := hs
        exact Or.inl (close (.infoWrite _) trivial rfl)
      | infoWrite m =>
        simp only [stepPc, Prod.mk.injEq] at hs
        obtain ⟨rfl, rfl⟩ := hs
        exact Or.inl (close (.copyStat _) trivial rfl)
      | copyStat m =>
        simp only [stepPc, Prod.mk.injEq] at hs
        obtain ⟨rfl, rfl⟩ := hs
        exact Or.inl (close (.tmpOpen _ _) trivial rfl)
      | tmpOpen m size =>
        simp only [stepPc, Prod.mk.injEq] at hs
        obtain ⟨rfl, rfl⟩ := hs
        exact Or.inl (close (.falloc _ _) (by simp [Quiet]) rfl)
      | falloc m size =>
        simp only [stepPc, Prod.mk.injEq] at hs
        obtain ⟨rfl, rfl⟩ := hs
        exact Or.inl (close (.srcOpen _ _) (by simpa [Quiet] using hq) rfl)
      | srcOpen m size =>
        simp only [stepPc, Prod.mk.injEq] at hs
        obtain ⟨rfl, rfl⟩ := hs
        exact Or.inl (close (.copy _ _ _ _) hq rfl)
      | copy m size fd off =>
        simp only [stepPc, Prod.mk.injEq] at hs
        obtain ⟨rfl, rfl⟩ := hs
        exact Or.inl (close (.copy _ _ _ _) hq rfl)
      | truncate m size =>
        simp only [stepPc, Prod.mk.injEq] at hs
        obtain ⟨rfl, rfl⟩ := hs
        exact Or.inl (close (.rename _) (by simpa [Quiet] using hq) rfl)
      | rename m =>
        simp only [stepPc] at hs
        split at hs
        · rename_i hd; exact absurd hd hq
        · simp only [Prod.mk.injEq] at hs
          obtain ⟨rfl, rfl⟩ := hs
          refine Or.inr ⟨_, rfl, Or.inr rfl, rfl, ?_, h.same⟩
          exact (copied_not_torn_partial h.reach hs0 _ h.seen).1
  | chunk k =>
    simp only [step] at hs
    split at hs
    · rename_i m size fd off hp
      have hq := h.quiet _ hp
      simp only [Option.some.injEq, Prod.mk.injEq] at hs
      obtain ⟨rfl, rfl⟩ := hs
      left
      refine ⟨rfl, ?_, hr', ?_, ?_, ?_⟩
      · unfold stepChunk; simp only; split <;> simp
      · unfold stepChunk; simp only; split <;> exact h.same
      · unfold stepChunk; simp only; split <;> exact h.seen
      · intro p' hp'
        unfold stepChunk at hp' ⊢
        simp only at hp' ⊢
        split at hp'
        · rename_i hd
          rw [if_pos hd]
          simp only [Option.some.injEq] at hp'
          subst hp'
          exact hq
        · rename_i hd
          rw [if_neg hd]
          simp only [Option.some.injEq] at hp'
          subst hp'
          simpa [Quiet] using hq
    · exact absurd hs (by simp)
  | acquire => exact absurd ho (by simp [Own])
  | crash => exact absurd ho (by simp [Own])
  | fail => exact absurd ho (by simp [Own])
  | srcWrite c m => exact absurd ho (by simp [Own])
  | srcReplace c m => exact absurd ho (by simp [Own])
  | rmDst => exact absurd ho (by simp [Own])
  | rmTmp => exact absurd ho (by simp [Own])
  | rmInfo => exact absurd ho (by simp [Own])

theorem quiet_runs {src : Src} (es : List Ev) : ∀ {s s' : St} {rs : List Ret}, QInv src s → s.pc ≠ none → (∀ e ∈ es, Own e) →
    runs growing s es = some (s', rs) → (rs = [] ∧ s'.pc ≠ none ∧ QInv src s') ∨ ∃ r, rs = [r] ∧ Good src s' r := by
  induction es with
  | nil =>
    intro s s' rs h hp _ hr
    simp only [runs, Option.some.injEq, Prod.mk.injEq] at hr
    obtain ⟨rfl, rfl⟩ := hr
    exact Or.inl ⟨rfl, hp, h⟩
  | cons e es ih =>
    intro s s' rs h hp ho hr
    simp only [runs] at hr
    split at hr
    · exact absurd hr (by simp)
    · rename_i s1 r1 hs
      split at hr
      · exact absurd hr (by simp)
      · rename_i s2 rs2 hrs
        simp only [Option.some.injEq, Prod.mk.injEq] at hr
        obtain ⟨rfl, rfl⟩ := hr
        rcases quiet_step h (ho e (List.mem_cons_self ..)) hs with ⟨rfl, hp1, h1⟩ | ⟨r', rfl, hg⟩
        · exact ih h1 hp1 (fun e' he' => ho e' (List.mem_cons_of_mem _ he')) hrs
        · cases es with
          | nil =>
            simp only [runs, Option.some.injEq, Prod.mk.injEq] at hrs
            obtain ⟨rfl, rfl⟩ := hrs
            exact Or.inr ⟨r', rfl, hg⟩
          | cons e2 es2 =>
            have ho2 := ho e2 (by simp)
            have : step growing s1 e2 = none := by
              cases e2 <;> simp_all [Own, step, Good]
            simp only [runs, this] at hrs
            exact absurd hrs (by simp)

theorem acquire_quiet {s : St} (h : Reach growing s) (hp : s.pc = none) :
    step growing s .acquire = some ({ s with pc := some .exists_, seen := [s.src.content] }, none) ∧
    QInv s.src { s with pc := some .exists_, seen := [s.src.content] } := by
  have hs : step growing s .acquire = some ({ s with pc := some .exists_, seen := [s.src.content] }, none) := by
    simp [step, hp]
  refine ⟨hs, .step h hs, rfl, rfl, ?_⟩
  intro p hp
  simp only [Option.some.injEq] at hp
  subst hp
  trivial

/-- C26. After any history of crashes, exceptions, source changes and cleanups, a call which nobody disturbs can only end with
the cached file equal to the source file: it does not raise. -/
theorem undisturbed {s s' : St} (h : Reach growing s) (hp : s.pc = none) (es : List Ev) (ho : ∀ e ∈ es, Own e) (rs : List Ret)
    (hr : runs growing s (.acquire :: es) = some (s', rs)) (hend : s'.pc = none) :
    (rs = [.hit] ∨ rs = [.copied]) ∧ s'.dst = some s.src.content ∧ s'.src = s.src := by
  obtain ⟨hs, hq⟩ := acquire_quiet h hp
  simp only [runs, hs] at hr
  split at hr
  · exact absurd hr (by simp)
  · rename_i s2 rs2 hrs
    simp only [Option.some.injEq, Prod.mk.injEq] at hr
    obtain ⟨rfl, rfl⟩ := hr
    rcases quiet_runs es hq (by simp) ho hrs with ⟨_, hp2, _⟩ | ⟨r, rfl, hg⟩
    · exact absurd hend hp2
    · refine ⟨?_, hg.2.2.1, hg.2.2.2⟩
      rcases hg.1 with rfl | rfl
      · exact Or.inl rfl
      · exact Or.inr rfl

/-- The call can finish. -/
def Finishes (s : St) : Prop := ∃ es s' rs, (∀ e ∈ es, Own e) ∧ runs growing s es = some (s', rs) ∧ s'.pc = none

theorem finishes_of {s s' : St} {e : Ev} {r : Option Ret} (ho : Own e) (hs : step growing s e = some (s', r)) (h : Finishes s' ∨ s'.pc = none) :
    Finishes s := by
  rcases h with ⟨es, s2, rs, h1, h2, h3⟩ | hp
  · refine ⟨e :: es, s2, r.toList ++ rs, ?_, by simp [runs, hs, h2], h3⟩
    intro e' he'
    rcases List.mem_cons.mp he' with rfl | he'
    · exact ho
    · exact h1 e' he'
  · exact ⟨[e], s', r.toList ++ [], by simpa using ho, by simp [runs, hs], hp⟩

theorem fin_next {s : St} {p : Pc} (hp : s.pc = some p) (h : Finishes (stepPc s p).1 ∨ (stepPc s p).1.pc = none) : Finishes s :=
  finishes_of (e := .next) (r := (stepPc s p).2) trivial (by simp only [step, hp]) h

theorem fin_rename {s : St} {m : Nat} (hp : s.pc = some (.rename m)) : Finishes s := by
  refine fin_next hp (Or.inr ?_)
  simp only [stepPc]; split <;> rfl

theorem fin_copy {s : St} {m size off : Nat} {fd : Option Content} (hp : s.pc = some (.copy m size fd off)) : Finishes s := by
  by_cases hoff : (fd.getD s.src.content).drop off = []
  · refine finishes_of (e := .chunk 0) (s' := stepChunk s 0 m size fd off) (r := none) trivial (by simp only [step, hp]) (Or.inl ?_)
    have : stepChunk s 0 m size fd off = { s with pc := some (.truncate m size) } := by simp [stepChunk, hoff]
    rw [this]
    exact fin_next rfl (Or.inl (fin_rename rfl))
  · -- read all, then the end
    let n := ((fd.getD s.src.content).drop off).length
    have h1 : stepChunk s n m size fd off = { s with tmp := s.tmp.map (fun t => writeAt t off ((fd.getD s.src.content).drop off)), pc := some (.copy m size fd (off + n)) } := by
      have ht : List.take (n + 1) (List.drop off (fd.getD s.src.content)) = List.drop off (fd.getD s.src.content) :=
        List.take_of_length_le (by simp [n])
      unfold stepChunk
      simp only [ht, if_neg hoff]
      rfl
    refine finishes_of (e := .chunk n) (s' := stepChunk s n m size fd off) (r := none) trivial (by simp only [step, hp]) (Or.inl ?_)
    rw [h1]
    generalize hs2 : ({ s with tmp := s.tmp.map (fun t => writeAt t off ((fd.getD s.src.content).drop off)), pc := some (.copy m size fd (off + n)) } : St) = s2
    have hp2 : s2.pc = some (.copy m size fd (off + n)) := by rw [← hs2]
    have hsrc2 : s2.src = s.src := by rw [← hs2]
    have hend : (fd.getD s2.src.content).drop (off + n) = [] := by
      rw [hsrc2, List.drop_eq_nil_iff]
      simp only [n, List.length_drop]; omega
    refine finishes_of (e := .chunk 0) (s' := stepChunk s2 0 m size fd (off + n)) (r := none) trivial (by simp only [step, hp2]) (Or.inl ?_)
    have : stepChunk s2 0 m size fd (off + n) = { s2 with pc := some (.truncate m size) } := by simp [stepChunk, hend]
    rw [this]
    exact fin_next rfl (Or.inl (fin_rename rfl))

theorem fin_statMtime {s : St} (hp : s.pc = some .statMtime) : Finishes s := by
  refine fin_next hp (Or.inl ?_)
  refine fin_next (p := .infoOpen s.src.mtime) rfl (Or.inl ?_)
  refine fin_next (p := .infoWrite s.src.mtime) rfl (Or.inl ?_)
  refine fin_next (p := .copyStat s.src.mtime) rfl (Or.inl ?_)
  refine fin_next (p := .tmpOpen s.src.mtime s.src.content.length) rfl (Or.inl ?_)
  refine fin_next (p := .falloc s.src.mtime s.src.content.length) rfl (Or.inl ?_)
  refine fin_next (p := .srcOpen s.src.mtime s.src.content.length) rfl (Or.inl ?_)
  exact fin_copy rfl

/-- C26: recovery. After any history a call which nobody disturbs can finish, and then has the right file. -/
theorem recovers {s : St} (h : Reach growing s) (hp : s.pc = none) :
    ∃ es s' rs, (∀ e ∈ es, Own e) ∧ runs growing s (.acquire :: es) = some (s', rs) ∧ s'.pc = none ∧ s'.dst = some s.src.content := by
  obtain ⟨hs, _⟩ := acquire_quiet h hp
  have hf : Finishes { s with pc := some .exists_, seen := [s.src.content] } := by
    refine fin_next rfl (Or.inl ?_)
    simp only [stepPc]
    split
    · exact fin_statMtime rfl
    · refine fin_next (p := .statSrc) rfl (Or.inl ?_)
      refine fin_next (p := .statDst s.src.content.length s.src.mtime) rfl ?_
      simp only [stepPc]
      split
      · right; rfl
      · left
        rename_i d hd
        refine fin_next (p := .loadInfo s.src.content.length s.src.mtime d.length) rfl ?_
        have hrem : ∀ s : St, s.pc = some .remove → Finishes s := by
          intro s hp
          refine fin_next hp ?_
          simp only [stepPc]
          split
          · right; rfl
          · left; exact fin_statMtime rfl
        simp only [stepPc]
        split
        · left; exact hrem _ rfl
        · right; rfl
        · split
          · right; rfl
          · left; exact hrem _ rfl
  obtain ⟨es, s', rs, h1, h2, h3⟩ := hf
  have hr : runs growing s (.acquire :: es) = some (s', rs) := by simp [runs, hs, h2]
  exact ⟨es, s', rs, h1, hr, h3, (undisturbed h hp es h1 rs hr h3).2.1⟩

/-! Where the property does not hold. -/

/-- If the source is changed while it is copied, the call may return a file whose content the source never had. -/
theorem torn_served : ∃ s s' : St, Reach growing s ∧ step growing s .next = some (s', some .copied) ∧
    ∃ d, s'.dst = some d ∧ d ∉ s'.seen := by
  have h0 : Reach growing { src := ⟨[1, 2], 0⟩ } := .init _
  have hr : ∀ (es : List Ev) (s : St), Reach growing s → ∀ s' rs, runs growing s es = some (s', rs) → Reach growing s' := by
    intro es
    induction es with
    | nil => intro s hs s' rs h; simp only [runs, Option.some.injEq, Prod.mk.injEq] at h; rw [← h.1]; exact hs
    | cons e es ih =>
      intro s hs s' rs h
      simp only [runs] at h
      split at h
      · exact absurd h (by simp)
      · rename_i s1 r1 h1
        split at h
        · exact absurd h (by simp)
        · rename_i s2 rs2 h2
          simp only [Option.some.injEq, Prod.mk.injEq] at h
          rw [← h.1]
          exact ih s1 (.step hs h1) _ _ h2
  refine ⟨_, _, hr [.acquire, .next, .next, .next, .next, .next, .next, .next, .next, .chunk 0, .srcWrite [3, 4] 1, .chunk 0, .chunk 0, .next]
    _ h0 ⟨⟨[3, 4], 1⟩, none, some [1, 4], some (.ok 0), some (.rename 0), [[3, 4], [1, 2]]⟩ [] (by decide +kernel), rfl, [1, 4], rfl, by decide⟩

/-- If changes of the source need not make its mtime larger, an old copy of the same size may be used. -/
theorem stale_served : ∃ (es : List Ev) (s' : St), runs (fun _ _ => true) { src := ⟨[1, 2], 5⟩ } es = some (s', [.copied, .hit]) ∧
    s'.dst = some [1, 2] ∧ s'.src.content = [3, 4] ∧ s'.seen = [[3, 4]] :=
  ⟨[.acquire, .next, .next, .next, .next, .next, .next, .next, .next, .chunk 1, .chunk 0, .next, .next, .srcReplace [3, 4] 4,
    .acquire, .next, .next, .next, .next], ⟨⟨[3, 4], 4⟩, some [1, 2], none, some (.ok 5), none, [[3, 4]]⟩, by decide +kernel, rfl, rfl, rfl⟩

/-- A history with a crash in the copy, a changed source and a recovery. -/
example : runs growing { src := ⟨[1, 2, 3], 0⟩ }
    ([.acquire, .next, .next, .next, .next, .next, .next, .next, .next, .chunk 0, .crash, .srcReplace [7, 8] 1,
      .acquire, .next, .next, .next, .next, .next, .next, .next, .next, .chunk 0, .chunk 5, .chunk 5, .next, .next,
      .acquire, .next, .next, .next, .next]) =
    some (⟨⟨[7, 8], 1⟩, some [7, 8], none, some (.ok 1), none, [[7, 8]]⟩, [.copied, .hit]) := by decide +kernel

end Verif.FileCache
