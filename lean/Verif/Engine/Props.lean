import Verif.Engine.Spec
import Verif.Util.ListLemmas
import Mathlib.Data.Nat.Digits.Lemmas
import Mathlib.Tactic.Linarith
/-
C33: which model is loaded and where the training starts.
-/
namespace Verif.Engine
open Verif.Py

/-! ### File names -/

theorem digitChar_toNat : ∀ d, d < 10 → (Nat.digitChar d).toNat = 48 + d := by decide
theorem digitChar_isDig : ∀ d, d < 10 → isDig (Nat.digitChar d) = true := by decide
theorem isDig_ne_dot {c : Char} (h : isDig c = true) : c ≠ '.' := by rintro rfl; exact absurd h (by decide)

theorem pad3_isDig (n : Nat) : ∀ c ∈ pad3 n, isDig c = true := by
  intro c hc
  unfold pad3 at hc
  rw [List.mem_append] at hc
  rcases hc with hc | hc
  · rw [(List.mem_replicate.1 hc).2]; decide
  · obtain ⟨d, hd, rfl⟩ := List.mem_map.1 hc
    exact digitChar_isDig d (Nat.digits_lt_base (by decide) (List.mem_reverse.1 hd))

theorem pad3_ne_nil (n : Nat) : pad3 n ≠ [] := by
  intro h
  have := congrArg List.length h
  simp only [pad3, List.length_append, List.length_replicate, List.length_nil] at this
  omega

theorem parse_foldl_digits (l : List Nat) (hl : ∀ d ∈ l, d < 10) :
    ∀ a, (l.reverse.map Nat.digitChar).foldl (fun a c => 10 * a + (c.toNat - 48)) a
      = a * 10 ^ l.length + Nat.ofDigits 10 l := by
  induction l with
  | nil => intro a; simp
  | cons d l ih =>
    intro a
    rw [List.reverse_cons, List.map_append, List.foldl_append, ih (fun d hd => hl d (by simp [hd]))]
    simp only [List.map_cons, List.map_nil, List.foldl_cons, List.foldl_nil, Nat.ofDigits_cons, List.length_cons,
      digitChar_toNat d (hl d (by simp))]
    rw [pow_succ]; simp; ring

theorem parse_replicate_zero (k : Nat) : (List.replicate k '0').foldl (fun a c => 10 * a + (c.toNat - 48)) 0 = 0 := by
  induction k with
  | zero => rfl
  | succ k ih => rw [List.replicate_succ, List.foldl_cons]; exact ih

/-- `int("%03d" % n) == n`. -/
theorem parse_pad3 (n : Nat) : parseDigits (pad3 n) = n := by
  unfold parseDigits pad3
  rw [List.foldl_append, parse_replicate_zero, parse_foldl_digits _ (fun d hd => Nat.digits_lt_base (by decide) hd)]
  simp [Nat.ofDigits_digits]

theorem dotDigits_digits {ds : List Char} (h : ∀ c ∈ ds, isDig c = true) : dotDigits ds = none := by
  induction ds with
  | nil => rfl
  | cons c ds ih =>
    simp only [dotDigits, ih (fun c hc => h c (by simp [hc]))]
    rw [if_neg]
    intro hc; exact isDig_ne_dot (h c (by simp)) hc.1

theorem takeWhile_all {p : Char → Bool} {l : List Char} (h : ∀ c ∈ l, p c = true) : l.takeWhile p = l := by
  induction l with
  | nil => rfl
  | cons a l ih => rw [List.takeWhile_cons, if_pos (h a (by simp)), ih (fun c hc => h c (by simp [hc]))]

theorem dotDigits_append (pre ds : List Char) (hne : ds ≠ []) (h : ∀ c ∈ ds, isDig c = true) :
    dotDigits (pre ++ '.' :: ds) = some ds := by
  induction pre with
  | nil =>
    simp only [List.nil_append, dotDigits, dotDigits_digits h]
    rw [if_pos]
    · congr 1; exact takeWhile_all h
    · refine ⟨trivial, ?_⟩
      cases ds with
      | nil => exact absurd rfl hne
      | cons a l => simpa using h a (by simp)
  | cons c pre ih => simp only [List.cons_append, dotDigits, ih]

/-- The epoch of a model file name is the epoch for which the name was made (no symbolic link). -/
theorem epoch_of_name (fs : Fs) (model : String) (pre : Bool) {e : Int} (he : 0 ≤ e)
    (hl : fs.resolve (epochFile model e pre) = epochFile model e pre) :
    epochFromFilename fs (epochFile model e pre) = some e := by
  unfold epochFromFilename
  rw [hl]
  have : (epochFile model e pre).toList
      = (model ++ (if pre then ".pretrain" else "")).toList ++ '.' :: pad3 e.toNat := by
    unfold epochFile
    rw [String.toList_append, String.toList_append, String.toList_ofList]
    simp
  rw [this, dotDigits_append _ _ (pad3_ne_nil _) (pad3_isDig _)]
  simp only [Option.map_some, parse_pad3]
  congr 1; omega

/-- Different epochs have different file names. -/
theorem epochFile_injective (model : String) (pre : Bool) {e e' : Int} (he : 0 ≤ e) (he' : 0 ≤ e')
    (h : epochFile model e pre = epochFile model e' pre) : e = e' := by
  have h1 := epoch_of_name ⟨fun _ => false, id⟩ model pre he rfl
  have h2 := epoch_of_name ⟨fun _ => false, id⟩ model pre he' rfl
  rw [h, h2] at h1
  injection h1 with h1; exact h1.symm

/-! ### Existing models -/

theorem mem_epochRange (n e : Int) : e ∈ epochRange n ↔ 1 ≤ e ∧ e ≤ n := by
  simp only [epochRange, List.mem_map, List.mem_range]
  constructor
  · rintro ⟨i, hi, rfl⟩; omega
  · rintro ⟨h1, h2⟩; exact ⟨(e - 1).toNat, by omega, by omega⟩

theorem epochRange_sorted (n : Int) : (epochRange n).Pairwise (· < ·) := by
  unfold epochRange
  rw [List.pairwise_map]
  exact List.pairwise_lt_range.imp (fun h => by omega)

theorem upToFinal_iff (c : Cfg) (e : Int) : UpToFinal c e ↔ e ≤ finalEpoch c := by
  unfold UpToFinal finalEpoch
  cases c.loadEpoch with
  | none => simp
  | some le => simp

theorem mem_existing (c : Cfg) (fs : Fs) (e : Int) (fn : String) :
    (e, fn) ∈ existingModels c fs c.train ↔ Ckpt c fs e fn := by
  have key : (e, fn) ∈ existingModels c fs c.train ↔ c.model ≠ "" ∧ (1 ≤ e ∧ UpToFinal c e) ∧
      firstExisting c.backend fs.ex c.train (epochNames c e) = some fn := by
    rw [upToFinal_iff]
    unfold existingModels
    split
    · rename_i h; simp [h]
    · rename_i h
      rw [List.mem_filterMap]
      constructor
      · rintro ⟨e', he', hm⟩
        simp only [Option.map_eq_some_iff, Prod.mk.injEq] at hm
        obtain ⟨fn', h1, rfl, rfl⟩ := hm
        exact ⟨h, (mem_epochRange _ _).1 he', h1⟩
      · rintro ⟨_, h1, h2⟩
        exact ⟨e, (mem_epochRange _ _).2 h1, by rw [h2]; rfl⟩
  rw [key]
  unfold Ckpt
  cases hb : c.backend with
  | torch =>
    simp only [TorchCkpt, epochNames, hb, firstExisting]
    constructor
    · rintro ⟨h1, ⟨h2, h3⟩, h4⟩
      refine ⟨h1, h2, h3, ?_⟩
      split at h4
      · rename_i hx; injection h4 with h4; subst h4; exact ⟨rfl, Or.inl hx⟩
      · split at h4
        · rename_i hpt
          split at h4
          · cases h4
          · rename_i hopt
            injection h4 with h4; subst h4
            refine ⟨rfl, Or.inr ⟨hpt, fun ht => ?_⟩⟩
            rw [ht] at hopt; simpa using hopt
        · cases h4
    · rintro ⟨h1, h2, h3, rfl, h4⟩
      refine ⟨h1, ⟨h2, h3⟩, ?_⟩
      rcases h4 with h4 | ⟨h4, h5⟩
      · rw [if_pos h4]
      · cases ht : c.train with
        | false => simp [h4]
        | true => simp [h4, h5 ht]
  | tf =>
    simp only [TfCkpt, epochNames, hb, firstExisting]
    constructor
    · rintro ⟨h1, ⟨h2, h3⟩, h4⟩
      refine ⟨h1, h2, h3, ?_⟩
      split at h4
      · rename_i hx; injection h4 with h4; subst h4; exact Or.inl ⟨rfl, Or.inl hx⟩
      · rename_i hx
        split at h4
        · rename_i hx2; injection h4 with h4; subst h4; exact Or.inl ⟨rfl, Or.inr hx2⟩
        · rename_i hx2
          split at h4
          · rename_i hy; injection h4 with h4; subst h4
            exact Or.inr ⟨rfl, Or.inl hy, fun h => h.elim hx hx2⟩
          · split at h4
            · rename_i hy; injection h4 with h4; subst h4
              exact Or.inr ⟨rfl, Or.inr hy, fun h => h.elim hx hx2⟩
            · cases h4
    · rintro ⟨h1, h2, h3, h4⟩
      refine ⟨h1, ⟨h2, h3⟩, ?_⟩
      rcases h4 with ⟨rfl, h4⟩ | ⟨rfl, h4, h5⟩
      · rcases h4 with h4 | h4
        · rw [if_pos h4]
        · simp [h4]
      · rw [if_neg (fun h => h5 (Or.inl h)), if_neg (fun h => h5 (Or.inr h))]
        rcases h4 with h4 | h4
        · rw [if_pos h4]
        · simp [h4]
  | other =>
    simp only [epochNames, hb, firstExisting]
    constructor
    · rintro ⟨h1, ⟨h2, h3⟩, h4⟩
      split at h4
      · rename_i hx; injection h4 with h4; subst h4; exact ⟨h1, h2, h3, rfl, hx⟩
      · cases h4
    · rintro ⟨h1, h2, h3, rfl, h4⟩
      exact ⟨h1, ⟨h2, h3⟩, by rw [if_pos h4]⟩

theorem existing_sorted (c : Cfg) (fs : Fs) (t : Bool) : (existingModels c fs t).Pairwise (fun a b => a.1 < b.1) := by
  unfold existingModels
  split
  · exact List.Pairwise.nil
  · rw [List.pairwise_filterMap]
    refine (epochRange_sorted _).imp ?_
    intro a b hab x hx y hy
    simp only [Option.map_eq_some_iff] at hx hy
    obtain ⟨_, _, rfl⟩ := hx
    obtain ⟨_, _, rfl⟩ := hy
    exact hab

theorem existing_last {c : Cfg} {fs : Fs} {e : Int} {fn : String} (h : LastCkpt c fs e fn) :
    (existingModels c fs c.train).getLast? = some (e, fn) := by
  have hm := (mem_existing c fs e fn).2 h.1
  have hs := existing_sorted c fs c.train
  cases hl : (existingModels c fs c.train).getLast? with
  | none => rw [List.getLast?_eq_none_iff] at hl; rw [hl] at hm; cases hm
  | some p =>
    obtain ⟨l, hl'⟩ := List.getLast?_eq_some_iff.1 hl
    rw [hl'] at hm hs
    rw [List.pairwise_append] at hs
    rcases List.mem_append.1 hm with h1 | h1
    · have h2 := hs.2.2 _ h1 p (by simp)
      have h3 : Ckpt c fs p.1 p.2 := (mem_existing c fs p.1 p.2).1 (by rw [hl']; simp)
      have := h.2 _ _ h3
      simp only at h2; omega
    · rw [List.mem_singleton.1 h1]

theorem existing_none {c : Cfg} {fs : Fs} (h : ∀ e fn, ¬ Ckpt c fs e fn) : existingModels c fs c.train = [] := by
  cases hl : existingModels c fs c.train with
  | nil => rfl
  | cons p l => exact absurd ((mem_existing c fs p.1 p.2).1 (by rw [hl]; simp)) (h _ _)

theorem existing_wf (c : Cfg) (fs : Fs) (t : Bool) : Dict.Wf (existingModels c fs t) := by
  unfold Dict.Wf Dict.keys
  rw [List.nodup_iff_pairwise_ne, List.pairwise_map]
  exact (existing_sorted c fs t).imp (fun h => by omega)

theorem existing_get (c : Cfg) (fs : Fs) (e : Int) (fn : String) :
    Dict.get? (existingModels c fs c.train) e = some fn ↔ Ckpt c fs e fn := by
  rw [← mem_existing]
  exact ⟨fun h => Dict.mem_of_get? h, fun h => Dict.get?_of_mem (existing_wf _ _ _) h⟩

theorem existing_get_none {c : Cfg} {fs : Fs} {e : Int} (h : ∀ fn, ¬ Ckpt c fs e fn) :
    Dict.get? (existingModels c fs c.train) e = none := by
  cases hg : Dict.get? (existingModels c fs c.train) e with
  | none => rfl
  | some fn => exact absurd ((existing_get c fs e fn).1 hg) (h fn)

/-! ### The decision -/

theorem getEpochModel_eq {c : Cfg} {fs : Fs} (hs : ∀ s, c.startEpoch = some s → 1 ≤ s) (ho : OptsOk c fs) :
    getEpochModel c fs = (do
      let r ← loadOpts c fs (existingModels c fs c.train)
      applyStart c (existingModels c fs c.train) (chooseModel c (existingModels c fs c.train) r.1 r.2)) := by
  unfold getEpochModel
  have h1 : ∃ s, startEpochNoModel c = .ok s := by
    unfold startEpochNoModel
    cases h : c.startEpoch with
    | none => exact ⟨1, rfl⟩
    | some s => exact ⟨s, by simp only [if_pos (hs s h)]⟩
  obtain ⟨s, h1⟩ := h1
  have h2 : (decide (filepattern c.load = "") || (fs.ex (filepattern c.load ++ modelPostfix c.backend)
      || fs.ex (filepattern c.load))) = true := by
    rcases ho.1 with h | h | h <;> simp [h]
  have h3 : (decide (filepattern c.importEpoch1 = "")
      || fs.ex (filepattern c.importEpoch1 ++ modelPostfix c.backend)) = true := by
    rcases ho.2 with h | h <;> simp [h]
  simp only [h1, h2, h3, pyAssert, if_true, bind, Except.bind]

theorem start_of {c : Cfg} {fs : Fs} {m : Option Int × Option String} (hb : c.startBatchAuto = true)
    (h : getEpochModel c fs = .ok m) : trainStartEpoch c fs = .ok (match m.1 with | none => 1 | some e => e + 1) := by
  unfold trainStartEpoch
  rw [if_pos hb, h]
  simp only [bind, Except.bind, pure, Except.pure]
  cases m.1 <;> rfl

/-- `load_epoch` is not set, or 0. -/
def NoLoadEpoch (c : Cfg) : Prop := c.loadEpoch.getD (-1) ≤ 0

theorem loadOpts_none {c : Cfg} {fs : Fs} {ex : List (Int × String)} (hl : filepattern c.load = "")
    (hn : NoLoadEpoch c) : loadOpts c fs ex = .ok (some (c.loadEpoch.getD (-1)), "") := by
  unfold loadOpts
  unfold NoLoadEpoch at hn
  simp only
  rw [if_neg (by simpa using hl), if_neg (by omega)]

theorem loadOpts_load {c : Cfg} {fs : Fs} {ex : List (Int × String)} (hl : filepattern c.load ≠ "") :
    ∃ le, loadOpts c fs ex = .ok (le, filepattern c.load) ∧
      (NoLoadEpoch c → le = epochFromFilename fs (filepattern c.load)) ∧ (∀ e, c.loadEpoch = some e → 0 < e → le = some e) := by
  unfold loadOpts
  simp only
  rw [if_pos hl]
  refine ⟨_, rfl, fun h => if_pos h, fun e he hpos => ?_⟩
  rw [he]; simp only [Option.getD_some]; rw [if_neg (by omega)]

/-- C33. Training (automatic start epoch) resumes right after the last checkpoint, also if `load` is given. -/
theorem resume_auto {c : Cfg} {fs : Fs} {e : Int} {fn : String} (ht : c.train = true) (hs : c.startEpoch = none)
    (hb : c.startBatchAuto = true) (ho : OptsOk c fs) (hn : filepattern c.load ≠ "" ∨ NoLoadEpoch c)
    (h : LastCkpt c fs e fn) :
    getEpochModel c fs = .ok (some e, some fn) ∧ trainStartEpoch c fs = .ok (e + 1) := by
  have key : getEpochModel c fs = .ok (some e, some fn) := by
    rw [getEpochModel_eq (by rw [hs]; simp) ho]
    have : ∃ r, loadOpts c fs (existingModels c fs c.train) = .ok r := by
      by_cases hl : filepattern c.load = ""
      · exact ⟨_, loadOpts_none hl (hn.resolve_left (fun h => h hl))⟩
      · obtain ⟨le, h, _⟩ := loadOpts_load (c := c) (fs := fs) (ex := existingModels c fs c.train) hl; exact ⟨_, h⟩
    obtain ⟨r, hr⟩ := this
    have hlast := existing_last h
    simp only [hr, bind, Except.bind, chooseModel, applyStart, hs, hlast]
    rw [if_neg (by simp [ht])]
  exact ⟨key, start_of hb key⟩

theorem loadOpts_epoch {c : Cfg} {fs : Fs} {le : Int} {lfn : String} (hl : filepattern c.load = "")
    (hle : c.loadEpoch = some le) (hpos : 0 < le) (hck : Ckpt c fs le lfn) (hres : fs.resolve lfn = lfn) :
    loadOpts c fs (existingModels c fs c.train) = .ok (some le, lfn) := by
  unfold loadOpts
  simp only [hle, Option.getD_some, hl]
  rw [if_neg (by simp), if_pos hpos, (existing_get c fs le lfn).2 hck]
  simp only
  have : ∃ pre, lfn = epochFile c.model le pre := by
    unfold Ckpt at hck
    cases hb : c.backend <;> rw [hb] at hck
    · obtain ⟨_, _, _, h⟩ := hck
      rcases h with h | h
      · exact ⟨_, h.1⟩
      · exact ⟨_, h.1⟩
    · exact ⟨_, hck.2.2.2.1⟩
    · exact ⟨_, hck.2.2.2.1⟩
  obtain ⟨pre, rfl⟩ := this
  rw [if_pos (epoch_of_name fs c.model pre (by omega) hres)]

/-- In training (automatic start epoch), `load_epoch` does not change where the training is resumed. -/
theorem resume_ignores_load_epoch {c : Cfg} {fs : Fs} {e le : Int} {fn lfn : String} (ht : c.train = true)
    (hs : c.startEpoch = none) (hb : c.startBatchAuto = true) (ho : OptsOk c fs) (hl : filepattern c.load = "")
    (hle : c.loadEpoch = some le) (hpos : 0 < le) (hck : Ckpt c fs le lfn) (hres : fs.resolve lfn = lfn)
    (h : LastCkpt c fs e fn) :
    getEpochModel c fs = .ok (some e, some fn) ∧ trainStartEpoch c fs = .ok (e + 1) := by
  have key : getEpochModel c fs = .ok (some e, some fn) := by
    rw [getEpochModel_eq (by rw [hs]; simp) ho]
    have hlast := existing_last h
    simp only [loadOpts_epoch hl hle hpos hck hres, bind, Except.bind, chooseModel, applyStart, hs, hlast]
    rw [if_neg (by simp [ht])]
  exact ⟨key, start_of hb key⟩

/-- C33. `load_epoch` without `load` must be an existing checkpoint, for every task. -/
theorem load_epoch_missing {c : Cfg} {fs : Fs} {le : Int} (hs : ∀ s, c.startEpoch = some s → 1 ≤ s)
    (ho : OptsOk c fs) (hl : filepattern c.load = "") (hle : c.loadEpoch = some le) (hpos : 0 < le)
    (hck : ∀ fn, ¬ Ckpt c fs le fn) : getEpochModel c fs = .error .assertion := by
  rw [getEpochModel_eq hs ho]
  unfold loadOpts
  simp only [hle, Option.getD_some, hl]
  rw [if_neg (by simp), if_pos hpos, existing_get_none hck]
  rfl

/-- C33. Without any checkpoint or import, the training starts from scratch with epoch 1. -/
theorem start_fresh_partial {c : Cfg} {fs : Fs} (hs : ∀ s, c.startEpoch = some s → 1 ≤ s)
    (hb : c.startBatchAuto = true) (hl : filepattern c.load = "") (hi : filepattern c.importEpoch1 = "")
    (hn : NoLoadEpoch c) (h : ∀ e fn, ¬ Ckpt c fs e fn) :
    getEpochModel c fs = .ok (none, none) ∧ trainStartEpoch c fs = .ok 1 := by
  have key : getEpochModel c fs = .ok (none, none) := by
    rw [getEpochModel_eq hs ⟨Or.inl hl, Or.inl hi⟩]
    simp only [loadOpts_none hl hn, existing_none h, bind, Except.bind, chooseModel, applyStart, hi]
    simp
    cases c.startEpoch with
    | none => rfl
    | some s => simp
  exact ⟨key, start_of hb key⟩

/-- C33 is violated: with `start_epoch` set and no model, the training starts at epoch 1, not at `start_epoch`
(while `get_start_epoch_no_existing_model` gives `start_epoch`). -/
theorem start_epoch_ignored {c : Cfg} {fs : Fs} {s : Int} (hs : c.startEpoch = some s) (h1 : 1 < s)
    (hb : c.startBatchAuto = true) (hl : filepattern c.load = "") (hi : filepattern c.importEpoch1 = "")
    (hn : NoLoadEpoch c) (h : ∀ e fn, ¬ Ckpt c fs e fn) :
    startEpochNoModel c = .ok s ∧ trainStartEpoch c fs = .ok 1 := by
  refine ⟨?_, (start_fresh_partial (by intro s' h'; rw [hs] at h'; injection h' with h'; omega) hb hl hi hn h).2⟩
  unfold startEpochNoModel
  rw [hs]
  simp only [if_pos (show s ≥ 1 by omega)]

/-- Without a checkpoint, `import_model_train_epoch1` is loaded and the training starts with epoch 1,
if `start_epoch` is automatic or 1. -/
theorem start_import {c : Cfg} {fs : Fs} (ht : c.train = true) (hs : c.startEpoch = none ∨ c.startEpoch = some 1)
    (hb : c.startBatchAuto = true) (ho : OptsOk c fs) (hl : filepattern c.load = "")
    (hi : filepattern c.importEpoch1 ≠ "") (hn : NoLoadEpoch c) (h : ∀ e fn, ¬ Ckpt c fs e fn) :
    getEpochModel c fs = .ok (some 0, some (filepattern c.importEpoch1)) ∧ trainStartEpoch c fs = .ok 1 := by
  have key : getEpochModel c fs = .ok (some 0, some (filepattern c.importEpoch1)) := by
    rw [getEpochModel_eq (by intro s h'; rcases hs with hs | hs <;> rw [hs] at h' <;> simp at h'; omega) ho]
    simp only [loadOpts_none hl hn, existing_none h, bind, Except.bind, chooseModel, applyStart]
    rcases hs with hs | hs <;> simp [hs, ht, hi]
  exact ⟨key, start_of hb key⟩

/-- Without a checkpoint, `load` is loaded; the training (automatic start epoch) starts after the epoch of the *loaded*
model as given by its name, or with epoch 1 if the name has no epoch. (The comment at base.py:186 says the opposite.) -/
theorem start_load {c : Cfg} {fs : Fs} (ht : c.train = true) (hs : c.startEpoch = none)
    (hb : c.startBatchAuto = true) (ho : OptsOk c fs) (hl : filepattern c.load ≠ "")
    (hi : filepattern c.importEpoch1 = "") (hn : NoLoadEpoch c) (h : ∀ e fn, ¬ Ckpt c fs e fn) :
    getEpochModel c fs = .ok (epochFromFilename fs (filepattern c.load), some (filepattern c.load)) ∧
      trainStartEpoch c fs = .ok (match epochFromFilename fs (filepattern c.load) with | none => 1 | some e => e + 1) := by
  have key : getEpochModel c fs = .ok (epochFromFilename fs (filepattern c.load), some (filepattern c.load)) := by
    rw [getEpochModel_eq (by rw [hs]; simp) ho]
    obtain ⟨le, h1, h2, _⟩ := loadOpts_load (c := c) (fs := fs) (ex := existingModels c fs c.train) hl
    rw [h1]
    simp only [h2 hn, bind, Except.bind, chooseModel, applyStart, hs, existing_none h]
    simp [hl, hi, ht]
  exact ⟨key, start_of hb key⟩

/-- C33. `start_epoch = 1` starts from scratch, whatever checkpoints there are. -/
theorem start_epoch_one {c : Cfg} {fs : Fs} {e : Int} {fn : String} (hs : c.startEpoch = some 1)
    (hb : c.startBatchAuto = true) (ho : OptsOk c fs) (hl : filepattern c.load = "") (hn : NoLoadEpoch c)
    (h : LastCkpt c fs e fn) :
    getEpochModel c fs = .ok (none, none) ∧ trainStartEpoch c fs = .ok 1 := by
  have he : 1 ≤ e := by
    have := h.1
    unfold Ckpt TorchCkpt TfCkpt at this
    cases hb : c.backend <;> rw [hb] at this <;> exact this.2.1
  have key : getEpochModel c fs = .ok (none, none) := by
    rw [getEpochModel_eq (by intro s h'; rw [hs] at h'; simp at h'; omega) ho]
    have hlast := existing_last h
    simp only [loadOpts_none hl hn, hlast, bind, Except.bind, chooseModel, applyStart, hs]
    simp
    intro h0; omega
  exact ⟨key, start_of hb key⟩

/-- C33. With checkpoints and `start_epoch = s > 1`, the training continues with epoch `s` after loading the checkpoint
of epoch `s - 1`. -/
theorem start_epoch_explicit {c : Cfg} {fs : Fs} {e s : Int} {fn fn' : String} (hs : c.startEpoch = some s) (h1 : 1 < s)
    (hb : c.startBatchAuto = true) (ho : OptsOk c fs) (hl : filepattern c.load = "") (hn : NoLoadEpoch c)
    (h : LastCkpt c fs e fn) (h' : Ckpt c fs (s - 1) fn') :
    getEpochModel c fs = .ok (some (s - 1), some fn') ∧ trainStartEpoch c fs = .ok s := by
  have he : 1 ≤ e := by
    have := h.1
    unfold Ckpt TorchCkpt TfCkpt at this
    cases hb : c.backend <;> rw [hb] at this <;> exact this.2.1
  have key : getEpochModel c fs = .ok (some (s - 1), some fn') := by
    rw [getEpochModel_eq (by intro s h'; rw [hs] at h'; simp at h'; omega) ho]
    have hlast := existing_last h
    have hget := (existing_get c fs _ _).2 h'
    have hc : chooseModel c (existingModels c fs c.train) (some (c.loadEpoch.getD (-1))) "" = (some e, some fn) := by
      simp [chooseModel, hlast]
    simp only [loadOpts_none hl hn, bind, Except.bind, hc, applyStart, hs, hget]
    rw [if_neg (by omega), if_pos h1, if_pos ⟨by simp, by simp; omega⟩]
  refine ⟨key, ?_⟩
  rw [start_of hb key]
  simp

/-- If there are checkpoints but not the one before `start_epoch`, the start fails with KeyError. -/
theorem start_epoch_missing {c : Cfg} {fs : Fs} {e s : Int} {fn : String} (hs : c.startEpoch = some s) (h1 : 1 < s)
    (ho : OptsOk c fs) (hl : filepattern c.load = "") (hn : NoLoadEpoch c)
    (h : LastCkpt c fs e fn) (h' : ∀ fn', ¬ Ckpt c fs (s - 1) fn') :
    getEpochModel c fs = .error .keyError := by
  have he : 1 ≤ e := by
    have := h.1
    unfold Ckpt TorchCkpt TfCkpt at this
    cases hb : c.backend <;> rw [hb] at this <;> exact this.2.1
  rw [getEpochModel_eq (by intro s h'; rw [hs] at h'; simp at h'; omega) ho]
  have hlast := existing_last h
  have hc : chooseModel c (existingModels c fs c.train) (some (c.loadEpoch.getD (-1))) "" = (some e, some fn) := by
    simp [chooseModel, hlast]
  simp only [loadOpts_none hl hn, bind, Except.bind, hc, applyStart, hs, existing_get_none h']
  rw [if_neg (by omega), if_pos h1, if_pos ⟨by simp, by simp; omega⟩]

/-- With both `load` and an explicit `start_epoch`, training always loads `load` and starts with epoch 1. -/
theorem start_epoch_and_load {c : Cfg} {fs : Fs} {s : Int} (ht : c.train = true) (hs : c.startEpoch = some s)
    (h1 : 1 ≤ s) (hb : c.startBatchAuto = true) (ho : OptsOk c fs) (hl : filepattern c.load ≠ "") :
    getEpochModel c fs = .ok (none, some (filepattern c.load)) ∧ trainStartEpoch c fs = .ok 1 := by
  have key : getEpochModel c fs = .ok (none, some (filepattern c.load)) := by
    rw [getEpochModel_eq (by intro s' h'; rw [hs] at h'; injection h' with h'; omega) ho]
    obtain ⟨le, h1', h2, _⟩ := loadOpts_load (c := c) (fs := fs) (ex := existingModels c fs c.train) hl
    simp only [h1', bind, Except.bind, chooseModel, applyStart, hs]
    simp [hl, ht]
  exact ⟨key, start_of hb key⟩

/-- C33. Other tasks than training: the model is that of `load_epoch`. -/
theorem task_load_epoch {c : Cfg} {fs : Fs} {le : Int} {lfn : String} (ht : c.train = false)
    (hs : c.startEpoch = none) (ho : OptsOk c fs) (hl : filepattern c.load = "")
    (hle : c.loadEpoch = some le) (hpos : 0 < le) (hck : Ckpt c fs le lfn) (hres : fs.resolve lfn = lfn) :
    getEpochModel c fs = .ok (some le, some lfn) := by
  rw [getEpochModel_eq (by rw [hs]; simp) ho]
  have hne : lfn ≠ "" := by
    have : ∃ pre, lfn = epochFile c.model le pre := by
      unfold Ckpt at hck
      cases hb : c.backend <;> rw [hb] at hck
      · obtain ⟨_, _, _, h⟩ := hck
        rcases h with h | h
        · exact ⟨_, h.1⟩
        · exact ⟨_, h.1⟩
      · exact ⟨_, hck.2.2.2.1⟩
      · exact ⟨_, hck.2.2.2.1⟩
    obtain ⟨pre, rfl⟩ := this
    intro h0
    have := epoch_of_name ⟨fun _ => false, id⟩ c.model pre (e := le) (by omega) rfl
    rw [h0] at this
    exact absurd this (by simp [epochFromFilename, dotDigits])
  simp only [loadOpts_epoch hl hle hpos hck hres, bind, Except.bind, chooseModel, applyStart, hs]
  rw [if_pos ⟨hne, Or.inl ht⟩]
  simp [ht]

/-- C33. Other tasks than training: `load` is used if given; its epoch is `load_epoch`, or comes from its name. -/
theorem task_load {c : Cfg} {fs : Fs} (ht : c.train = false) (hs : c.startEpoch = none) (ho : OptsOk c fs)
    (hl : filepattern c.load ≠ "") :
    ∃ le, getEpochModel c fs = .ok (le, some (filepattern c.load)) ∧
      (NoLoadEpoch c → le = epochFromFilename fs (filepattern c.load)) ∧
      (∀ e, c.loadEpoch = some e → 0 < e → le = some e) := by
  obtain ⟨le, h1, h2⟩ := loadOpts_load (c := c) (fs := fs) (ex := existingModels c fs c.train) hl
  refine ⟨le, ?_, h2⟩
  rw [getEpochModel_eq (by rw [hs]; simp) ho]
  simp only [h1, bind, Except.bind, chooseModel, applyStart, hs]
  rw [if_pos ⟨hl, Or.inl ht⟩]
  simp [ht]

/-- C33. Other tasks than training, without options: the last checkpoint; the optimizer file is not needed. -/
theorem task_last {c : Cfg} {fs : Fs} {e : Int} {fn : String} (hs : c.startEpoch = none)
    (ho : OptsOk c fs) (hl : filepattern c.load = "") (hn : NoLoadEpoch c) (h : LastCkpt c fs e fn) :
    getEpochModel c fs = .ok (some e, some fn) := by
  rw [getEpochModel_eq (by rw [hs]; simp) ho]
  have hlast := existing_last h
  simp only [loadOpts_none hl hn, bind, Except.bind, chooseModel, applyStart, hs, hlast]
  rw [if_neg (by simp)]

/-! ### Examples -/

/-- Models 1 to 3 (the optimizer state of epoch 3 is not there), PyTorch. -/
def exCfg : Cfg := { backend := .torch, train := true, model := "m", numEpochs := 10 }
def exFs : Fs := { ex := fun s => ["m.001.pt", "m.002.pt", "m.002.opt.pt", "m.003.pt"].contains s }

theorem ex_last : LastCkpt exCfg exFs 2 "m.002" := by
  have hx : existingModels exCfg exFs exCfg.train = [(2, "m.002")] := by decide +kernel
  refine ⟨(mem_existing _ _ _ _).1 (by rw [hx]; simp), fun e' fn' h => ?_⟩
  have := (mem_existing _ _ _ _).2 h
  rw [hx] at this; simp at this; omega

example : trainStartEpoch exCfg exFs = .ok 3 :=
  (resume_auto rfl rfl rfl ⟨Or.inl (by decide +kernel), Or.inl (by decide +kernel)⟩ (Or.inr (by unfold NoLoadEpoch; decide)) ex_last).2
example : trainStartEpoch { exCfg with startEpoch := some 3 } exFs = .ok 3 := by decide +kernel
example : trainStartEpoch { exCfg with startEpoch := some 5 } exFs = .error .keyError := by decide +kernel
example : trainStartEpoch { exCfg with startEpoch := some 5 } ⟨fun _ => false, id⟩ = .ok 1 := by decide +kernel
example : getEpochModel { exCfg with train := false } exFs = .ok (some 3, some "m.003") := by decide +kernel
example : getEpochModel { exCfg with train := false, loadEpoch := some 1 } exFs = .ok (some 1, some "m.001") := by
  decide +kernel
example : trainStartEpoch { exCfg with model := "n", load := "m.002.pt" } exFs = .ok 3 := by decide +kernel

end Verif.Engine
