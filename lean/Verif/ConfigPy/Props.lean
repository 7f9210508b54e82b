import Verif.ConfigPy.Spec
import Mathlib.Tactic.Common
/-
C104: which source of the config wins.
-/
namespace Verif.ConfigPy
open Verif.Py

/-! ### Lemmas -/

theorem splitComma_ne_nil : ∀ s : Str, splitComma s ≠ []
  | [] => by simp [splitComma]
  | c :: s => by
    unfold splitComma
    split
    · simp
    · cases h : splitComma s with
      | nil => simp
      | cons a l => simp

theorem join_splitComma : ∀ s : Str, join [','] (splitComma s) = s
  | [] => rfl
  | c :: s => by
    have ih := join_splitComma s
    unfold splitComma
    by_cases hc : c = ','
    · rw [if_pos hc]
      cases h : splitComma s with
      | nil => exact absurd h (splitComma_ne_nil s)
      | cons a l =>
        rw [h] at ih
        simp only [join, List.nil_append, ih, hc, List.cons_append]
    · rw [if_neg hc]
      cases h : splitComma s with
      | nil => exact absurd h (splitComma_ne_nil s)
      | cons a l =>
        rw [h] at ih
        cases l with
        | nil => simpa [join] using ih
        | cons b l =>
          simp only [join, List.cons_append] at ih ⊢
          rw [ih]

theorem join_untyped (v : Str) : join [','] (untypedValue v) = v := by
  unfold untypedValue
  cases v with
  | nil => rfl
  | cons c s =>
    simp only
    split
    · rfl
    · split
      · exact join_splitComma _
      · rfl

theorem update_get (k : Str) : ∀ (d : Dict Str Val) (c : Cfg), (c.update d).untyped = c.untyped ∧ (k ∉ d.keys → (c.update d).typed.get? k = c.typed.get? k)
  | [], c => ⟨rfl, fun _ => rfl⟩
  | (k', v) :: d, c => by
    obtain ⟨h1, h2⟩ := update_get k d (c.set k' v)
    refine ⟨by rw [show c.update ((k', v) :: d) = (c.set k' v).update d from rfl, h1]; rfl, ?_⟩
    intro h
    rw [show c.update ((k', v) :: d) = (c.set k' v).update d from rfl]
    simp only [Dict.keys, List.map_cons, List.mem_cons, not_or] at h
    rw [h2 h.2]
    simp only [Cfg.set, Dict.get?_set, if_neg (Ne.symm h.1)]

theorem update_set (k : Str) (x : Val) : ∀ (d : Dict Str Val) (c : Cfg), d.Wf → d.get? k = some x → (c.update d).typed.get? k = some x
  | [], c, _, h => by simp [Dict.get?] at h
  | (k', v) :: d, c, hw, h => by
    rw [show c.update ((k', v) :: d) = (c.set k' v).update d from rfl]
    unfold Dict.get? at h
    have hw' : k' ∉ Dict.keys d ∧ Dict.Wf d := by
      unfold Dict.Wf Dict.keys at hw ⊢
      simpa using hw
    by_cases hk : k' = k
    · rw [if_pos hk] at h
      cases h
      subst hk
      rw [(update_get k' d _).2 hw'.1]
      simp [Cfg.set, Dict.get?_set]
    · rw [if_neg hk] at h
      exact update_set k x d _ hw'.2 h

/-- A line for another key does not touch `k`. -/
theorem addLine_frame {P : Python} {load : Cfg → Str → Res Cfg} {c c' : Cfg} {k k' v : Str} (hk : k' ≠ k) (hi : k' ≠ includeKey) (h : addLine P load c k' v = .ok c') : SameAt k c c' := by
  unfold addLine at h
  cases ht : c.typed.get? k' with
  | none =>
    rw [ht] at h
    simp only [if_neg hi] at h
    cases h
    exact ⟨rfl, by simp [Dict.get?_set, hk]⟩
  | some old =>
    rw [ht] at h
    simp only [typedLine] at h
    split at h
    · cases h
      exact ⟨by simp [Dict.get?_set, hk], rfl⟩
    · split at h
      · cases h
        exact ⟨by simp [Dict.get?_set, hk], rfl⟩
      · cases h
        exact ⟨by simp [Dict.get?_set, hk], rfl⟩
      · cases h

/-- A line sets its key. -/
theorem addLine_sets {P : Python} {load : Cfg → Str → Res Cfg} {c c' : Cfg} {k v : Str} (hi : k ≠ includeKey) (h : addLine P load c k v = .ok c') : FromCmd P c' k v := by
  unfold addLine at h
  unfold FromCmd
  cases ht : c.typed.get? k with
  | none =>
    rw [ht] at h
    simp only [if_neg hi] at h
    cases h
    simp only [ht]
    intro d
    unfold Cfg.value
    simp only [ht, Dict.get?_set, if_true, join_untyped]
  | some old =>
    rw [ht] at h
    simp only [typedLine] at h
    split at h
    · cases h
      simp [Dict.get?_set]
    · split at h
      · rename_i x hx
        cases h
        simp only [Dict.get?_set, if_true]
        exact Or.inr ⟨_, hx⟩
      · cases h
        simp [Dict.get?_set]
      · cases h

theorem FromCmd.same {P : Python} {c c' : Cfg} {k v : Str} (h : FromCmd P c k v) (hs : SameAt k c c') : FromCmd P c' k v := by
  unfold FromCmd at h ⊢
  rw [hs.1]
  cases ht : c.typed.get? k with
  | some x => rw [ht] at h; exact h
  | none =>
    rw [ht] at h
    simp only at h ⊢
    intro d
    have := h d
    unfold Cfg.value at this ⊢
    rw [hs.1, hs.2]
    exact this

theorem SameAt.trans {k : Str} {a b c : Cfg} (h1 : SameAt k a b) (h2 : SameAt k b c) : SameAt k a c := ⟨h2.1.trans h1.1, h2.2.trans h1.2⟩

theorem restLines_cons (P : Python) (load : Cfg → Str → Res Cfg) (p : Str × Str) (ps : List (Str × Str)) (c : Cfg) :
    restLines P load (pairArgs (p :: ps)) c = (do restLines P load (pairArgs ps) (← addLine P load c p.1 (cmdValue p.2))) := by
  unfold pairArgs
  rw [List.flatMap_cons]
  simp only [List.cons_append, List.nil_append, restLines]
  rw [if_neg (by simp)]
  rfl

theorem restLines_frame {P : Python} {load : Cfg → Str → Res Cfg} {k : Str} : ∀ (ps : List (Str × Str)) (c c' : Cfg), (∀ p ∈ ps, p.1 ≠ includeKey ∧ p.1 ≠ k) →
    restLines P load (pairArgs ps) c = .ok c' → SameAt k c c'
  | [], c, c', _, h => by cases h; exact ⟨rfl, rfl⟩
  | p :: ps, c, c', hp, h => by
    rw [restLines_cons] at h
    cases ha : addLine P load c p.1 (cmdValue p.2) with
    | error e => rw [ha] at h; cases h
    | ok c1 =>
      rw [ha] at h
      obtain ⟨h1, h2⟩ := hp p List.mem_cons_self
      exact (addLine_frame h2 h1 ha).trans (restLines_frame ps c1 c' (fun q hq => hp q (List.mem_cons_of_mem _ hq)) h)

theorem restLines_sets {P : Python} {load : Cfg → Str → Res Cfg} {k v : Str} (hk : k ≠ includeKey) (l2 : List (Str × Str)) (h2 : ∀ p ∈ l2, p.1 ≠ includeKey ∧ p.1 ≠ k) :
    ∀ (l1 : List (Str × Str)) (c c' : Cfg), restLines P load (pairArgs (l1 ++ (k, v) :: l2)) c = .ok c' → FromCmd P c' k (cmdValue v)
  | [], c, c', h => by
    rw [List.nil_append, restLines_cons] at h
    cases ha : addLine P load c k (cmdValue v) with
    | error e => rw [ha] at h; cases h
    | ok c1 =>
      rw [ha] at h
      exact (addLine_sets hk ha).same (restLines_frame l2 c1 c' h2 h)
  | p :: l1, c, c', h => by
    rw [List.cons_append, restLines_cons] at h
    cases ha : addLine P load c p.1 (cmdValue p.2) with
    | error e => rw [ha] at h; cases h
    | ok c1 =>
      rw [ha] at h
      exact restLines_sets hk l2 h2 l1 c1 c' h

theorem parseCmd_rest {P : Python} {load : Cfg → Str → Res Cfg} {cmd : Cmd} {c c' : Cfg} (h : parseCmd P load cmd c = .ok c') : ∃ c1, restLines P load cmd.rest c1 = .ok c' := by
  unfold parseCmd at h
  cases h1 : cmd.opts.foldlM (fun c kv => addLine P load c kv.1 kv.2) c with
  | error e => rw [h1] at h; cases h
  | ok c1 =>
    rw [h1] at h
    simp only [bind, Except.bind, pure, Except.pure] at h
    cases h4 : loadOpt load cmd.loadConfig c1 with
    | error e => rw [h4] at h; cases h
    | ok c2 =>
      rw [h4] at h
      simp only at h
      by_cases h3 : cmd.rest.length % 2 ≠ 0
      · rw [if_pos h3] at h; cases h
      · rw [if_neg h3] at h; exact ⟨_, h⟩

theorem opts_frame {P : Python} {load : Cfg → Str → Res Cfg} {k : Str} : ∀ (opts : List (Str × Str)) (c c' : Cfg), (∀ p ∈ opts, p.1 ≠ includeKey ∧ p.1 ≠ k) →
    opts.foldlM (fun c kv => addLine P load c kv.1 kv.2) c = .ok c' → SameAt k c c'
  | [], c, c', _, h => by cases h; exact ⟨rfl, rfl⟩
  | p :: ps, c, c', hp, h => by
    rw [List.foldlM_cons] at h
    cases ha : addLine P load c p.1 p.2 with
    | error e => rw [ha] at h; cases h
    | ok c1 =>
      rw [ha] at h
      obtain ⟨h1, h2⟩ := hp p List.mem_cons_self
      exact (addLine_frame h2 h1 ha).trans (opts_frame ps c1 c' (fun q hq => hp q (List.mem_cons_of_mem _ hq)) h)

theorem parseCmd_frame {P : Python} {load : Cfg → Str → Res Cfg} {cmd : Cmd} {ps : List (Str × Str)} {k : Str} {c c' : Cfg} (hp : cmd.plain ps) (hl : cmd.lacks ps k)
    (h : parseCmd P load cmd c = .ok c') : SameAt k c c' := by
  obtain ⟨hc, hr, ho, hps⟩ := hp
  unfold parseCmd at h
  cases h1 : cmd.opts.foldlM (fun c kv => addLine P load c kv.1 kv.2) c with
  | error e => rw [h1] at h; cases h
  | ok c1 =>
    rw [h1, hc] at h
    simp only [bind, Except.bind, pure, Except.pure, loadOpt] at h
    by_cases h3 : cmd.rest.length % 2 ≠ 0
    · rw [if_pos h3] at h; cases h
    · rw [if_neg h3, hr] at h
      exact (opts_frame _ _ _ (fun p hpp => ⟨ho p hpp, hl.1 p hpp⟩) h1).trans (restLines_frame _ _ _ (fun p hpp => ⟨hps p hpp, hl.2 p hpp⟩) h)

/-- `init_config` in parts: the config before the files, after the files, and the end. -/
theorem initConfig_parts {P : Python} {fs : Str → Option File} {fuel : Nat} {optparse : List Str → Cmd} {filename : Option Str} {args : List Str} {dflt extra : Dict Str Val} {c' : Cfg}
    (h : initConfig P fs fuel optparse filename args dflt extra = .ok c') :
    ∃ c1 c2, parseCmdIf P (loadFile P fs fuel) optparse (splitFiles args).2 ((Cfg.empty.update dflt).update extra) = .ok c1 ∧
      (filename.toList ++ (splitFiles args).1).foldlM (loadFile P fs fuel) c1 = .ok c2 ∧
      parseCmdIf P (loadFile P fs fuel) optparse (splitFiles args).2 (c2.update extra) = .ok c' := by
  unfold initConfig at h
  simp only [bind, Except.bind] at h
  cases h1 : parseCmdIf P (loadFile P fs fuel) optparse (splitFiles args).2 ((Cfg.empty.update dflt).update extra) with
  | error e => rw [h1] at h; cases h
  | ok c1 =>
    rw [h1] at h
    simp only at h
    cases h2 : loadOpt (loadFile P fs fuel) filename c1 with
    | error e => rw [h2] at h; cases h
    | ok c2 =>
      rw [h2] at h
      simp only at h
      cases h3 : (splitFiles args).1.foldlM (loadFile P fs fuel) c2 with
      | error e => rw [h3] at h; cases h
      | ok c3 =>
        rw [h3] at h
        refine ⟨c1, c3, rfl, ?_, h⟩
        cases filename with
        | none =>
          simp only [loadOpt] at h2
          cases h2
          simpa using h3
        | some f =>
          simp only [loadOpt] at h2
          simp only [Option.toList_some, List.cons_append, List.nil_append, List.foldlM_cons, h2]
          exact h3

theorem files_keep {P : Python} {fs : Str → Option File} {fuel : Nat} {k : Str} : ∀ (l : List Str) (c c' : Cfg), (∀ f ∈ l, FileKeeps P fs fuel f k) →
    l.foldlM (loadFile P fs fuel) c = .ok c' → c'.typed.get? k = c.typed.get? k
  | [], c, c', _, h => by cases h; rfl
  | f :: l, c, c', hl, h => by
    rw [List.foldlM_cons] at h
    cases h1 : loadFile P fs fuel c f with
    | error e => rw [h1] at h; cases h
    | ok c1 =>
      rw [h1] at h
      exact (files_keep l c1 c' (fun g hg => hl g (List.mem_cons_of_mem _ hg)) h).trans (hl f List.mem_cons_self c c1 h1)

theorem files_set {P : Python} {fs : Str → Option File} {fuel : Nat} {k : Str} {f : Str} {x : Val} (hf : FileSets P fs fuel f k x) (l2 : List Str) (h2 : ∀ g ∈ l2, FileKeeps P fs fuel g k) :
    ∀ (l1 : List Str) (c c' : Cfg), (l1 ++ f :: l2).foldlM (loadFile P fs fuel) c = .ok c' → c'.typed.get? k = some x
  | [], c, c', h => by
    rw [List.nil_append, List.foldlM_cons] at h
    cases h1 : loadFile P fs fuel c f with
    | error e => rw [h1] at h; cases h
    | ok c1 =>
      rw [h1] at h
      exact (files_keep l2 c1 c' h2 h).trans (hf c c1 h1)
  | g :: l1, c, c', h => by
    rw [List.cons_append, List.foldlM_cons] at h
    cases h1 : loadFile P fs fuel c g with
    | error e => rw [h1] at h; cases h
    | ok c1 =>
      rw [h1] at h
      exact files_set hf l2 h2 l1 c1 c' h

/-! ### Theorems -/

/-- C104: a value may be negative, with a plus before it. -/
theorem cmdValue_meant (v : Str) : cmdValue v = meant v := by
  unfold cmdValue
  split
  · rename_i h
    match v, h with
    | [], h => simp at h
    | [_], h => simp at h
    | a :: b :: r, h =>
      simp at h
      obtain ⟨rfl, rfl⟩ := h
      rfl
  · rename_i h
    match v, h with
    | [], _ => rfl
    | [_], _ => simp [meant]
    | a :: b :: r, h =>
      unfold meant
      split
      · rename_i h'
        obtain ⟨rfl, rfl, rfl⟩ : a = '+' ∧ b = '-' ∧ r = _ := by
          injection h' with h1 h2
          injection h2 with h2 h3
          exact ⟨h1, h2, h3⟩
        simp at h
      · rfl

/-- C104: the command line wins: whatever the config files, defaults and updates have for the key, with `++k v` on the command line the config has `v` in the end; of several, the last one. -/
theorem cmdline_wins {P : Python} {fs : Str → Option File} {fuel : Nat} {optparse : List Str → Cmd} {filename : Option Str} {args : List Str} {dflt extra : Dict Str Val} {c' : Cfg}
    (h : initConfig P fs fuel optparse filename args dflt extra = .ok c') (hne : (splitFiles args).2 ≠ []) (l1 l2 : List (Str × Str)) (k v : Str)
    (hr : (optparse (splitFiles args).2).rest = pairArgs (l1 ++ (k, v) :: l2)) (hk : k ≠ includeKey) (h2 : ∀ p ∈ l2, p.1 ≠ includeKey ∧ p.1 ≠ k) :
    FromCmd P c' k (meant v) := by
  rw [← cmdValue_meant]
  obtain ⟨c1, c2, _, _, h3⟩ := initConfig_parts h
  rw [parseCmdIf, if_neg (by simpa using hne)] at h3
  obtain ⟨c4, h4⟩ := parseCmd_rest h3
  rw [hr] at h4
  exact restLines_sets hk l2 h2 l1 c4 c' h4

/-- C104: extra updates win over files and defaults, unless the command line has the key. -/
theorem extra_wins {P : Python} {fs : Str → Option File} {fuel : Nat} {optparse : List Str → Cmd} {filename : Option Str} {args : List Str} {dflt extra : Dict Str Val} {c' : Cfg}
    (h : initConfig P fs fuel optparse filename args dflt extra = .ok c') (k : Str) (x : Val) (hw : extra.Wf) (hx : extra.get? k = some x)
    (hc : (splitFiles args).2 ≠ [] → ∃ ps, (optparse (splitFiles args).2).plain ps ∧ (optparse (splitFiles args).2).lacks ps k) : c'.typed.get? k = some x := by
  obtain ⟨c1, c2, _, _, h3⟩ := initConfig_parts h
  have h4 := update_set k x extra c2 hw hx
  by_cases hne : (splitFiles args).2 = []
  · rw [parseCmdIf, if_pos (by simp [hne])] at h3
    cases h3
    exact h4
  · rw [parseCmdIf, if_neg (by simpa using hne)] at h3
    obtain ⟨ps, hp, hl⟩ := hc hne
    rw [(parseCmd_frame hp hl h3).1, h4]

/-- C104: config files win over defaults, the later file over the earlier one (and those on the command line over the file name which is given), unless updates or the command line have the key. -/
theorem file_wins {P : Python} {fs : Str → Option File} {fuel : Nat} {optparse : List Str → Cmd} {filename : Option Str} {args : List Str} {dflt extra : Dict Str Val} {c' : Cfg}
    (h : initConfig P fs fuel optparse filename args dflt extra = .ok c') (k : Str) (x : Val) (l1 l2 : List Str) (f : Str) (hl : filename.toList ++ (splitFiles args).1 = l1 ++ f :: l2)
    (hf : FileSets P fs fuel f k x) (h2 : ∀ g ∈ l2, FileKeeps P fs fuel g k) (he : k ∉ extra.keys)
    (hc : (splitFiles args).2 ≠ [] → ∃ ps, (optparse (splitFiles args).2).plain ps ∧ (optparse (splitFiles args).2).lacks ps k) : c'.typed.get? k = some x := by
  obtain ⟨c1, c2, _, h2', h3⟩ := initConfig_parts h
  rw [hl] at h2'
  have h4 : (c2.update extra).typed.get? k = some x := by rw [(update_get k extra c2).2 he]; exact files_set hf l2 h2 l1 c1 c2 h2'
  by_cases hne : (splitFiles args).2 = []
  · rw [parseCmdIf, if_pos (by simp [hne])] at h3
    cases h3
    exact h4
  · rw [parseCmdIf, if_neg (by simpa using hne)] at h3
    obtain ⟨ps, hp, hl⟩ := hc hne
    rw [(parseCmd_frame hp hl h3).1, h4]

/-- C104: a default stays if nothing else has the key. -/
theorem default_stays {P : Python} {fs : Str → Option File} {fuel : Nat} {optparse : List Str → Cmd} {filename : Option Str} {args : List Str} {dflt extra : Dict Str Val} {c' : Cfg}
    (h : initConfig P fs fuel optparse filename args dflt extra = .ok c') (k : Str) (x : Val) (hw : dflt.Wf) (hx : dflt.get? k = some x)
    (hf : ∀ f ∈ filename.toList ++ (splitFiles args).1, FileKeeps P fs fuel f k) (he : k ∉ extra.keys)
    (hc : (splitFiles args).2 ≠ [] → ∃ ps, (optparse (splitFiles args).2).plain ps ∧ (optparse (splitFiles args).2).lacks ps k) : c'.typed.get? k = some x := by
  obtain ⟨c1, c2, h1, h2, h3⟩ := initConfig_parts h
  have h0 : ((Cfg.empty.update dflt).update extra).typed.get? k = some x := by rw [(update_get k extra _).2 he]; exact update_set k x dflt _ hw hx
  have h4 : c1.typed.get? k = some x → c'.typed.get? k = some x := by
    intro h4
    have h5 : (c2.update extra).typed.get? k = some x := by rw [(update_get k extra c2).2 he, files_keep _ _ _ hf h2, h4]
    by_cases hne : (splitFiles args).2 = []
    · rw [parseCmdIf, if_pos (by simp [hne])] at h3
      cases h3
      exact h5
    · rw [parseCmdIf, if_neg (by simpa using hne)] at h3
      obtain ⟨ps, hp, hl⟩ := hc hne
      rw [(parseCmd_frame hp hl h3).1, h5]
  apply h4
  by_cases hne : (splitFiles args).2 = []
  · rw [parseCmdIf, if_pos (by simp [hne])] at h1
    cases h1
    exact h0
  · rw [parseCmdIf, if_neg (by simpa using hne)] at h1
    obtain ⟨ps, hp, hl⟩ := hc hne
    rw [(parseCmd_frame hp hl h1).1, h0]

/-- C104: what files do: a dict of items sets its keys and keeps the others. -/
theorem items_file (P : Python) (fs : Str → Option File) (n : Nat) (f : Str) (d : Dict Str Val) (hf : fs f = some (.items d)) (hw : d.Wf) (k : Str) :
    (∀ x, d.get? k = some x → FileSets P fs (n + 1) f k x) ∧ (d.get? k = none → FileKeeps P fs (n + 1) f k) := by
  refine ⟨?_, ?_⟩
  · intro x hx c c' h
    simp only [loadFile, hf] at h
    cases h
    exact update_set k x d _ hw hx
  · intro hx c c' h
    simp only [loadFile, hf] at h
    cases h
    rw [(update_get k d _).2 ((Dict.get?_eq_none d k).1 hx)]

/-- C104: a Python file which assigns `k`, whatever the names were before. -/
theorem py_file (P : Python) (fs : Str → Option File) (n : Nat) (f : Str) (run : Dict Str Val → Res (Dict Str Val)) (hf : fs f = some (.py run)) (k : Str) (x : Val)
    (hx : ∀ d t, run d = .ok t → t.get? k = some x) : FileSets P fs (n + 1) f k x := by
  intro c c' h
  simp only [loadFile, hf, bind, Except.bind, pure, Except.pure] at h
  split at h
  · cases h
  · rename_i t ht
    cases h
    exact hx _ _ ht

/-- C104: a line of the old format with a key and a value, maybe with a comment, gives the key and the value. -/
theorem line_right (k v ws pre post comment : Str) (hk : ∀ c ∈ k, isSpace c = false ∧ c ≠ '#') (hk0 : k ≠ []) (hv : ∀ c ∈ v, c ≠ '#') (hv0 : v ≠ []) (hv1 : ∀ c, v.head? = some c → isSpace c = false)
    (hv2 : ∀ c, v.getLast? = some c → isSpace c = false) (hw : ∀ c ∈ ws, isSpace c = true) (hw0 : ws ≠ []) (hpre : ∀ c ∈ pre, isSpace c = true) (hpost : ∀ c ∈ post, isSpace c = true)
    (hcm : comment = [] ∨ comment.head? = some '#') : parseLine (pre ++ k ++ ws ++ v ++ post ++ comment) = .ok (some (k, v)) := by
  have sp : ∀ c, isSpace c = true → c ≠ '#' := by
    intro c hc h
    subst h
    simp [isSpace] at hc
  have dropAll : ∀ (a b : Str) (p : Char → Bool), (∀ c ∈ a, p c = true) → (a ++ b).dropWhile p = b.dropWhile p := by
    intro a b p ha
    induction a with
    | nil => rfl
    | cons c a ih => rw [List.cons_append, List.dropWhile_cons_of_pos (ha c List.mem_cons_self)]; exact ih (fun x hx => ha x (List.mem_cons_of_mem _ hx))
  have takeAll : ∀ (a b : Str) (p : Char → Bool), (∀ c ∈ a, p c = true) → (a ++ b).takeWhile p = a ++ b.takeWhile p := by
    intro a b p ha
    induction a with
    | nil => rfl
    | cons c a ih => rw [List.cons_append, List.takeWhile_cons_of_pos (ha c List.mem_cons_self), ih (fun x hx => ha x (List.mem_cons_of_mem _ hx)), List.cons_append]
  have headNo : ∀ (a : Str), (∀ c, a.head? = some c → isSpace c = false) → a.dropWhile isSpace = a := by
    intro a ha
    cases a with
    | nil => rfl
    | cons c a => rw [List.dropWhile_cons_of_neg]; rw [ha c rfl]; simp
  have e1 : (pre ++ k ++ ws ++ v ++ post ++ comment).takeWhile (· ≠ '#') = pre ++ k ++ ws ++ v ++ post := by
    rw [takeAll]
    · rcases hcm with rfl | hcm
      · simp
      · cases comment with
        | nil => simp at hcm
        | cons c l =>
          simp only [List.head?_cons, Option.some.injEq] at hcm
          subst hcm
          simp
    · intro c hc
      simp only [List.mem_append] at hc
      rcases hc with (((hc | hc) | hc) | hc) | hc
      · simpa using sp c (hpre c hc)
      · simpa using (hk c hc).2
      · simpa using sp c (hw c hc)
      · simpa using hv c hc
      · simpa using sp c (hpost c hc)
  have e2 : strip (pre ++ k ++ ws ++ v ++ post) = k ++ ws ++ v := by
    unfold strip
    rw [show pre ++ k ++ ws ++ v ++ post = pre ++ (k ++ ws ++ v ++ post) by simp, dropAll _ _ _ hpre, headNo (k ++ ws ++ v ++ post), List.reverse_append, dropAll, headNo, List.reverse_reverse]
    · intro c hc
      rw [List.head?_reverse] at hc
      have : (k ++ ws ++ v).getLast? = v.getLast? := by
        rw [List.getLast?_append, List.getLast?_eq_some_getLast hv0]
        rfl
      rw [this] at hc
      exact hv2 c hc
    · intro c hc
      exact hpost c (List.mem_reverse.1 hc)
    · intro c hc
      cases k with
      | nil => exact absurd rfl hk0
      | cons a k =>
        simp only [List.cons_append, List.head?_cons, Option.some.injEq] at hc
        subst hc
        exact (hk a List.mem_cons_self).1
  unfold parseLine
  simp only [e1, e2]
  rw [if_neg (by simp [hk0])]
  have hws : ∃ a l, ws = a :: l := by
    cases ws with
    | nil => exact absurd rfl hw0
    | cons a l => exact ⟨a, l, rfl⟩
  have e3 : (k ++ ws ++ v).takeWhile (fun c => !isSpace c) = k := by
    rw [List.append_assoc, takeAll _ _ _ (fun c hc => by simp [(hk c hc).1])]
    obtain ⟨a, l, rfl⟩ := hws
    rw [List.cons_append, List.takeWhile_cons_of_neg (by simp [hw a List.mem_cons_self])]
    simp
  have e4 : ((k ++ ws ++ v).dropWhile (fun c => !isSpace c)).dropWhile isSpace = v := by
    rw [List.append_assoc, dropAll _ _ _ (fun c hc => by simp [(hk c hc).1])]
    obtain ⟨a, l, rfl⟩ := hws
    rw [List.cons_append, List.dropWhile_cons_of_neg (by simp [hw a List.mem_cons_self]), ← List.cons_append, dropAll _ _ _ hw, headNo v hv1]
  rw [e3, e4, if_neg hv0]

/-! ### Examples and where the priority does not hold -/

def digits (s : Str) : Option Int := if s ≠ [] && s.all Char.isDigit then some ((s.foldl (fun n c => n * 10 + (c.toNat - 48)) 0 : Nat) : Int) else none

/-- A small part of Python: numbers, quoted strings; other words are unknown names. -/
def exPy : Python where
  eval := fun _ _ v => match digits v with
    | some i => .ok (.at (.int i))
    | none => match v with
      | '\'' :: s => .ok (.at (.str s.dropLast))
      | c :: _ => if c.isAlpha then .exc else .syntaxError
      | [] => .syntaxError
  strAtom := fun a => match a with
    | .none => "None".toList
    | .bool true => "True".toList
    | .bool false => "False".toList
    | .int i => if i = 5 then ['5'] else []
    | _ => []
  strVal := fun _ => []
  toInt := digits
  toFloat := fun s => (digits s).map (fun i => (i : Rat))

def exFs : Str → Option File := fun f =>
  if f = ['f'] then some (.items [("b".toList, .at (.int 100)), ("t".toList, .at (.bool true))]) else none

def exParse (opts : List (Str × Str)) (cfg : Option Str) : List Str → Cmd := fun l => { opts := opts, loadConfig := cfg, rest := if opts.isEmpty then l else [] }

example : ∃ c, initConfig exPy exFs 3 (exParse [] none) none ["f".toList, "++b".toList, "7".toList] [] [] = .ok c ∧ c.typed.get? "b".toList = some (.at (.int 7)) := ⟨_, rfl, by decide +kernel⟩

example : (exParse [] none ["++b".toList, "7".toList]).plain [("b".toList, "7".toList)] ∧ (exParse [] none ["++b".toList, "7".toList]).lacks [("b".toList, "7".toList)] "t".toList := by
  refine ⟨⟨rfl, rfl, by simp [exParse], by decide⟩, by simp [exParse], by decide⟩

/-- C104: an option which is not of the form `++key value` loses against a file which is given as `--config`, also on the same command line. -/
theorem option_loses : let r := initConfig exPy exFs 3 (exParse [("b".toList, "7".toList)] (some ['f'])) none ["-b".toList] [] []
    (r.toOption.map (fun c => (c.int exPy "b".toList (.at .none)).toOption)) = some (some (.at (.int 100))) := by
  simp only
  decide +kernel

/-- C104: the command line is applied twice, and the second time the value may be of another type: a quoted string keeps its quotes if the default was no string. -/
theorem quotes_twice : let cmd := ["++x".toList, "'ab'".toList]
    ((initConfig exPy exFs 3 (exParse [] none) none cmd [("x".toList, .at (.int 3))] []).toOption.bind (fun c => c.typed.get? "x".toList)) = some (.at (.str "'ab'".toList)) ∧
    ((initConfig exPy exFs 3 (exParse [] none) none cmd [] [("x".toList, .at (.int 3))]).toOption.bind (fun c => c.typed.get? "x".toList)) = some (.at (.str "ab".toList)) := by
  simp only
  decide +kernel

/-- C104: `++t false` raises where the file has a bool (the name `false` does not exist), and is accepted where it has none. -/
theorem false_raises : (initConfig exPy exFs 3 (exParse [] none) none ["f".toList, "++t".toList, "false".toList] [] []).isOk = false ∧
    (initConfig exPy exFs 3 (exParse [] none) none ["f".toList, "++u".toList, "false".toList] [] []).isOk = true := by
  decide +kernel

end Verif.ConfigPy
