import Verif.LmData.Spec
import Mathlib.Data.List.Forall2
import Mathlib.Data.List.TakeWhile
/-
C118: lines of the corpus.
-/
namespace Verif.LmData
open Verif Verif.Py

/-! ## Lines -/

theorem findIdx_line {l : Text} (h : 10 ∉ l) (r : Text) : (l ++ 10 :: r).findIdx? (fun c => c == 10) = some l.length := by
  induction l with
  | nil => rw [List.nil_append, List.findIdx?_cons]; rfl
  | cons a t ih =>
    simp only [List.mem_cons, not_or] at h
    have : (a == 10) = false := by simpa using fun he => h.1 he.symm
    rw [List.cons_append, List.findIdx?_cons, this, ih h.2]
    simp

theorem findIdx_none {l : Text} (h : 10 ∉ l) : l.findIdx? (fun c => c == 10) = none := by
  rw [List.findIdx?_eq_none_iff]
  intro x hx
  simp only [beq_eq_false_iff_ne]
  rintro rfl
  exact h hx

theorem takeWhile_line {l : Text} (h : 10 ∉ l) (r : Text) : (l ++ 10 :: r).takeWhile (fun c => c != 10) = l := by
  induction l with
  | nil => simp
  | cons a t ih =>
    simp only [List.mem_cons, not_or] at h
    have : (a != 10) = true := by simpa using fun he => h.1 he.symm
    rw [List.cons_append, List.takeWhile_cons, this]
    simp [ih h.2]

theorem takeWhile_none {l : Text} (h : 10 ∉ l) : l.takeWhile (fun c => c != 10) = l := by
  rw [List.takeWhile_eq_self_iff]
  intro x hx
  simp only [bne_iff_ne]
  rintro rfl
  exact h hx

theorem scanLines_ok (skip : Bool) {r : Text} {ls : List Text} (h : FinishedLines r ls) : ∀ (pre : Text) (fuel : Nat), r.length < fuel →
    (scanLines skip (pre ++ r) fuel pre.length).map (fun p => ((pre ++ r).drop p.1).take p.2) = ls.filter (fun l => !(skip && l.isEmpty)) ∧
    ∀ p ∈ scanLines skip (pre ++ r) fuel pre.length, p.1 + p.2 ≤ (pre ++ r).length := by
  induction h with
  | @last l h =>
    intro pre fuel hf
    cases fuel with
    | zero => omega
    | succ fuel =>
      unfold scanLines
      rw [List.drop_left, findIdx_none h]
      simp
  | @line l r ls h hr ih =>
    intro pre fuel hf
    cases fuel with
    | zero => omega
    | succ fuel =>
      unfold scanLines
      rw [List.drop_left, findIdx_line h]
      simp only [List.length_append, List.length_cons] at hf
      obtain ⟨h1, h2⟩ := ih (pre ++ l ++ [10]) fuel (by omega)
      have hpos : (pre ++ l ++ [10]).length = pre.length + l.length + 1 := by simp; omega
      have hfile : pre ++ l ++ [10] ++ r = pre ++ (l ++ 10 :: r) := by simp
      rw [hpos, hfile] at h1 h2
      have htake : ((pre ++ (l ++ 10 :: r)).drop pre.length).take l.length = l := by rw [List.drop_left, List.take_left]
      constructor
      · simp only [List.map_append, h1, List.filter_cons]
        cases l with
        | nil => cases skip <;> simp [htake]
        | cons a t => simpa using htake
      · intro p hp
        rw [List.mem_append] at hp
        rcases hp with hp | hp
        · split at hp
          · simp only [List.mem_singleton] at hp
            subst hp
            simp only [List.length_append]
            omega
          · simp at hp
        · exact h2 p hp

theorem fileLines_ok {f : Text} {ls : List Text} (h : Lines f ls) : ∀ fuel, f.length < fuel → fileLines fuel f = ls := by
  induction h with
  | nil =>
    intro fuel hf
    cases fuel with
    | zero => omega
    | succ fuel => simp [fileLines]
  | @last l h hne =>
    intro fuel hf
    cases fuel with
    | zero => omega
    | succ fuel =>
      unfold fileLines
      rw [if_neg hne, takeWhile_none h, List.drop_eq_nil_of_le (by omega)]
      cases fuel <;> simp [fileLines]
  | @line l r ls h hr ih =>
    intro fuel hf
    cases fuel with
    | zero => omega
    | succ fuel =>
      unfold fileLines
      simp only [List.length_append, List.length_cons] at hf
      have hd : (l ++ 10 :: r).drop (l.length + 1) = r := by
        rw [List.drop_append, List.drop_eq_nil_of_le (by omega)]
        simp
      rw [if_neg (by simp), takeWhile_line h, hd, ih fuel (by omega)]

/-! ## The corpus -/

/-- The content of a mapped or temporary file. -/
def view (c : Corpus) (f : Nat) : Option Text :=
  match c.tmp with
  | some (i, t) => if i = f then some t else (c.maps[f]?).join
  | none => (c.maps[f]?).join

/-- A line is there. -/
def Holds (c : Corpus) (o : Nat × Nat × Nat) (x : Text) : Prop :=
  ∃ m, view c o.1 = some m ∧ o.2.1 + o.2.2 ≤ m.length ∧ strip ((m.drop o.2.1).take o.2.2) = x

def TmpOk (c : Corpus) : Prop := ∀ i t, c.tmp = some (i, t) → c.maps[i]? = some none

def Ext (c c' : Corpus) : Prop := ∀ f m, view c f = some m → ∃ x, view c' f = some (m ++ x)

theorem Holds.ext {c c' : Corpus} (he : Ext c c') {o : Nat × Nat × Nat} {x : Text} (h : Holds c o x) : Holds c' o x := by
  obtain ⟨m, h1, h2, h3⟩ := h
  obtain ⟨y, hy⟩ := he _ _ h1
  refine ⟨m ++ y, hy, by rw [List.length_append]; omega, ?_⟩
  rw [List.drop_append_of_le_length (by omega), List.take_append_of_le_length (by rw [List.length_drop]; omega), h3]

/-- The texts so far. -/
def Inv (c : Corpus) (ts : List Text) : Prop := List.Forall₂ (Holds c) c.orths ts ∧ TmpOk c

theorem Inv.initTmp {c : Corpus} {ts : List Text} (h : Inv c ts) : Inv (initTmp c) ts ∧ ∃ i t, (LmData.initTmp c).tmp = some (i, t) := by
  unfold LmData.initTmp
  cases ht : c.tmp with
  | some p => exact ⟨by simpa [ht] using h, p.1, p.2, by simp [ht]⟩
  | none =>
    refine ⟨⟨?_, ?_⟩, c.maps.length, [], rfl⟩
    · refine h.1.imp ?_
      intro o x ho
      refine ho.ext ?_
      intro f m hm
      refine ⟨[], ?_⟩
      simp only [view, ht] at hm ⊢
      obtain ⟨hlt, _⟩ : ∃ h : f < c.maps.length, True := by
        refine ⟨?_, trivial⟩
        by_contra hc
        rw [List.getElem?_eq_none (by omega)] at hm
        simp at hm
      rw [if_neg (by omega), List.getElem?_append_left hlt, hm]
      simp
    · intro i t hi
      simp only [Option.some.injEq, Prod.mk.injEq] at hi
      rw [← hi.1]
      simp

theorem Inv.addLine {c : Corpus} {ts : List Text} (h : Inv c ts) {i : Nat} {t : Text} (ht : c.tmp = some (i, t)) (line : Text) :
    Inv (addLine c line) (ts ++ [strip line]) ∧ ∃ t', (LmData.addLine c line).tmp = some (i, t') := by
  have hext : Ext c { c with tmp := some (i, t ++ line ++ [10]), orths := c.orths ++ [(i, t.length, line.length)] } := by
    intro f m hm
    simp only [view, ht] at hm ⊢
    split at hm
    · rename_i hf
      rw [if_pos hf]
      simp only [Option.some.injEq] at hm
      subst hm
      exact ⟨line ++ [10], by simp⟩
    · rename_i hf
      rw [if_neg hf]
      exact ⟨[], by simpa using hm⟩
  unfold LmData.addLine
  rw [ht]
  refine ⟨⟨?_, ?_⟩, _, rfl⟩
  · refine List.rel_append (R := Holds _) (h.1.imp (fun _ _ ho => ho.ext hext)) ?_
    refine .cons ⟨t ++ line ++ [10], by simp [view], by simp, ?_⟩ .nil
    simp
  · intro j t' hj
    simp only [Option.some.injEq, Prod.mk.injEq] at hj
    rw [← hj.1]
    exact h.2 i t ht

theorem Inv.addLines {ts : List Text} (ls : List Text) : ∀ {c : Corpus} {ts : List Text}, Inv c ts → (∃ i t, c.tmp = some (i, t)) →
    Inv (ls.foldl LmData.addLine c) (ts ++ ls.map strip) := by
  induction ls with
  | nil => intro c ts h _; simpa using h
  | cons l r ih =>
    rintro c ts h ⟨i, t, ht⟩
    obtain ⟨h1, t', h2⟩ := h.addLine ht l
    have := ih h1 ⟨i, t', h2⟩
    simpa using this

theorem strip_of_strip (l : Text) : strip (strip l) = strip l := by
  have hd : ∀ (s : Text), (s.dropWhile isSpace).dropWhile isSpace = s.dropWhile isSpace := by
    intro s
    induction s with
    | nil => rfl
    | cons a t ih =>
      by_cases h : isSpace a = true
      · simp [List.dropWhile_cons, h, ih]
      · simp [List.dropWhile_cons, h]
  -- the start of the reversed text is kept when its end is stripped
  have hk : ∀ (s : Text), (∀ a t, s = a :: t → isSpace a = false) →
      ((s.reverse.dropWhile isSpace).reverse).dropWhile isSpace = (s.reverse.dropWhile isSpace).reverse := by
    intro s hs
    cases s with
    | nil => rfl
    | cons a t =>
      have ha := hs a t rfl
      have : ∃ u, ((a :: t).reverse.dropWhile isSpace).reverse = a :: u := by
        rw [List.reverse_cons]
        have : ∀ (x : Text), ∃ u, (x ++ [a]).dropWhile isSpace = u ++ [a] := by
          intro x
          induction x with
          | nil => exact ⟨[], by simp [List.dropWhile_cons, ha]⟩
          | cons b y ih =>
            by_cases hb : isSpace b = true
            · obtain ⟨u, hu⟩ := ih
              exact ⟨u, by simp [List.dropWhile_cons, hb, hu]⟩
            · exact ⟨b :: y, by simp [List.dropWhile_cons, hb]⟩
        obtain ⟨u, hu⟩ := this t.reverse
        exact ⟨u.reverse, by rw [hu]; simp⟩
      obtain ⟨u, hu⟩ := this
      rw [hu, List.dropWhile_cons, ha]
      simp
  unfold strip
  rw [hk (l.dropWhile isSpace) (by
    intro a t h
    have := hd l
    rw [h, List.dropWhile_cons] at this
    by_contra hc
    simp only [Bool.not_eq_false] at hc
    rw [if_pos hc] at this
    have hl := congrArg List.length this
    have h2 := (List.dropWhile_suffix (p := isSpace) (l := t)).length_le
    simp at hl
    omega)]
  rw [List.reverse_reverse, hd]

theorem map_strip_filter (ls : List Text) (p : Text → Bool) : ((ls.map strip).filter p).map strip = (ls.map strip).filter p := by
  conv_rhs => rw [← List.map_id ((ls.map strip).filter p)]
  apply List.map_congr_left
  intro l hl
  obtain ⟨l', _, rfl⟩ := List.mem_map.1 (List.mem_filter.1 hl).1
  exact strip_of_strip l'

theorem Inv.addFile {c c' : Corpus} {ts us : List Text} (h : Inv c ts) {skip : Bool} {f : File} (hf : RealTexts skip f us)
    (ha : addFile skip c f = .ok c') : Inv c' (ts ++ us) := by
  cases hf with
  | @bliss orths =>
    simp only [LmData.addFile, Except.ok.injEq] at ha
    subst ha
    obtain ⟨h1, i, t, h2⟩ := h.initTmp
    exact Inv.addLines (ts := ts) orths h1 ⟨i, t, h2⟩
  | @gz content ls hl =>
    simp only [LmData.addFile, Except.ok.injEq] at ha
    subst ha
    obtain ⟨h1, i, t, h2⟩ := h.initTmp
    have h3 := Inv.addLines (ts := ts) (iterTxt skip content) h1 ⟨i, t, h2⟩
    have : (iterTxt skip content).map strip = (ls.map strip).filter (fun l => !(skip && l.isEmpty)) := by
      unfold iterTxt
      rw [fileLines_ok hl _ (by omega), map_strip_filter]
    rw [this] at h3
    exact h3
  | @raw content ls hl =>
    simp only [LmData.addFile] at ha
    split at ha
    · cases ha
    · simp only [Except.ok.injEq] at ha
      subst ha
      obtain ⟨h1, h2⟩ := scanLines_ok skip hl [] (content.length + 1) (by omega)
      simp only [List.nil_append, List.length_nil] at h1 h2
      have htl : ∀ i t, c.tmp = some (i, t) → i < c.maps.length := by
        intro i t ht
        exact (List.getElem?_eq_some_iff.1 (h.2 i t ht)).1
      refine ⟨?_, ?_⟩
      · refine List.rel_append (R := Holds _) (h.1.imp (fun _ _ ho => ho.ext (?_ : Ext c _))) ?_
        rotate_left
        · intro f m hm
          refine ⟨[], ?_⟩
          have hlt : c.tmp.map (fun p => p.1) = some f ∨ f < c.maps.length := by
            by_cases hlt : f < c.maps.length
            · exact .inr hlt
            · unfold view at hm
              cases ht : c.tmp with
              | none => rw [ht, List.getElem?_eq_none (by omega)] at hm; simp at hm
              | some p =>
                obtain ⟨i, t⟩ := p
                rw [ht] at hm
                simp only at hm
                split at hm
                · rename_i hif; exact .inl (by simp [hif])
                · rw [List.getElem?_eq_none (by omega)] at hm; simp at hm
          have hlt' : f < c.maps.length := by
            rcases hlt with hlt | hlt
            · cases ht : c.tmp with
              | none => rw [ht] at hlt; simp at hlt
              | some p =>
                rw [ht] at hlt
                simp only [Option.map_some, Option.some.injEq] at hlt
                rw [← hlt]
                exact htl p.1 p.2 (by rw [ht])
            · exact hlt
          unfold view at hm ⊢
          simp only [List.getElem?_append_left hlt', List.append_nil]
          exact hm
        · rw [← h1, List.map_map]
          refine List.forall₂_map_left_iff.2 (List.forall₂_map_right_iff.2 ?_)
          refine List.forall₂_same.2 ?_
          intro p hp
          refine ⟨content, ?_, h2 p hp, rfl⟩
          unfold view
          cases ht : c.tmp with
          | none => simp
          | some q =>
            have := htl q.1 q.2 (by rw [ht])
            have hne : ¬ q.1 = c.maps.length := by omega
            simp [hne]
      · intro i t hi
        have h3 := h.2 i t hi
        rw [List.getElem?_append_left (htl i t hi)]
        exact h3

theorem Inv.addFiles {skip : Bool} {files : List File} {tss : List (List Text)} (hf : List.Forall₂ (RealTexts skip) files tss) :
    ∀ {c c' : Corpus} {ts : List Text}, Inv c ts → addFiles skip files c = .ok c' → Inv c' (ts ++ tss.flatten) := by
  induction hf with
  | nil =>
    intro c c' ts h ha
    simp only [LmData.addFiles, Except.ok.injEq] at ha
    subst ha
    simpa using h
  | cons hx _ ih =>
    intro c c' ts h ha
    simp only [LmData.addFiles, bind, Except.bind] at ha
    split at ha
    · cases ha
    · rename_i c1 h1
      have := ih (h.addFile hx h1) ha
      simpa using this

/-- The texts of the dataset are exactly the texts of the files, one file after the other. What is a text: see `RealTexts`. -/
theorem texts_exact {skip : Bool} {files : List File} {tss : List (List Text)} (hf : List.Forall₂ (RealTexts skip) files tss) {c : Corpus}
    (hc : lazyInit skip files = .ok c) : c.orths.length = tss.flatten.length ∧ ∀ i (hi : i < tss.flatten.length),
      c.text i = .ok tss.flatten[i] := by
  simp only [lazyInit, bind, Except.bind] at hc
  split at hc
  · cases hc
  · rename_i c1 h1
    have hinv := Inv.addFiles hf (c := ⟨[], none, []⟩) (ts := []) ⟨.nil, by intro i t h; cases h⟩ h1
    rw [List.nil_append] at hinv
    have hfin : c.orths = c1.orths ∧ ∀ f m, view c1 f = some m → c.maps[f]? = some (some m) := by
      unfold mapTmp at hc
      cases ht : c1.tmp with
      | none =>
        rw [ht] at hc
        simp only [Except.ok.injEq] at hc
        subst hc
        refine ⟨rfl, ?_⟩
        intro f m hm
        simp only [view, ht] at hm
        cases hq : c1.maps[f]? with
        | none => rw [hq] at hm; simp at hm
        | some q => rw [hq] at hm; simp at hm; rw [hm]
      | some p =>
        obtain ⟨i, t⟩ := p
        rw [ht] at hc
        simp only at hc
        split at hc
        · cases hc
        · simp only [Except.ok.injEq] at hc
          subst hc
          refine ⟨rfl, ?_⟩
          intro f m hm
          simp only [view, ht] at hm
          have hil := (List.getElem?_eq_some_iff.1 (hinv.2 i t ht)).1
          split at hm
          · rename_i hif
            subst hif
            simp only [List.getElem?_set_self hil]
            simpa using hm
          · rename_i hif
            simp only [List.getElem?_set_ne hif]
            cases hq : c1.maps[f]? with
            | none => rw [hq] at hm; simp at hm
            | some q => rw [hq] at hm; simp at hm; rw [hm]
    rw [hfin.1]
    refine ⟨hinv.1.length_eq, ?_⟩
    intro i hi
    have hio : i < c1.orths.length := by rw [hinv.1.length_eq]; exact hi
    obtain ⟨m, h2, _, h4⟩ := hinv.1.get hio hi
    unfold Corpus.text
    rw [hfin.1, List.getElem?_eq_getElem hio]
    simp only
    have h5 := hfin.2 _ _ h2
    simp only [List.get_eq_getElem] at h4 h5
    rw [h5]
    simp only [h4]

theorem lines_finished {c : Text} {ls : List Text} (h : Lines c ls) (he : c.getLast? = some 10) : FinishedLines c ls := by
  induction h with
  | nil => cases he
  | last h hne => exact absurd (List.mem_of_getLast? he) h
  | @line l r ls h hr ih =>
    cases hr with
    | nil => exact .line h (.last (by simp))
    | last h' hne' =>
      refine .line h (ih ?_)
      rw [List.getLast?_append_of_ne_nil _ (by simp), List.getLast?_cons_of_ne_nil hne'] at he
      exact he
    | line h' hr' =>
      refine .line h (ih ?_)
      rw [List.getLast?_append_of_ne_nil _ (by simp), List.getLast?_cons_of_ne_nil (by simp)] at he
      exact he

theorem strip_blank {l : Text} : strip l = [] ↔ blank l := by
  unfold strip blank
  rw [List.reverse_eq_nil_iff, List.dropWhile_eq_nil_iff]
  constructor
  · intro h c hc
    by_contra hn
    have h2 : ∀ (s : Text), c ∈ s → isSpace c ≠ true → c ∈ s.dropWhile isSpace := by
      intro s hs hn
      induction s with
      | nil => exact hs
      | cons a t ih =>
        rw [List.dropWhile_cons]
        split
        · rename_i ha
          rcases List.mem_cons.1 hs with rfl | hs
          · exact absurd ha hn
          · exact ih hs
        · exact hs
    exact hn (h c (by simpa using h2 l hc hn))
  · intro h c hc
    exact h c ((List.dropWhile_suffix _).subset (by simpa using hc))

/-- The texts of the dataset are the stripped lines of all files, without blank lines if these are to be skipped.
Partial: plain text files have to end with a newline, see `last_line_lost`, and blank lines in them have to be empty, see `blank_line_kept`. -/
theorem texts_partial {skip : Bool} {files : List File} {tss : List (List Text)} (hf : List.Forall₂ (FileTexts skip) files tss)
    (hend : ∀ content, File.raw content ∈ files → content.getLast? = some 10)
    (hblank : skip = true → ∀ content ls, File.raw content ∈ files → Lines content ls → ∀ l ∈ ls, blank l → l = []) {c : Corpus}
    (hc : lazyInit skip files = .ok c) : c.orths.length = tss.flatten.length ∧ ∀ i (hi : i < tss.flatten.length),
      c.text i = .ok tss.flatten[i] := by
  refine texts_exact ?_ hc
  clear hc
  induction hf with
  | nil => exact .nil
  | @cons f ts fs tss hx hrest ih =>
    refine .cons ?_ (ih (fun content h => hend content (by simp [h])) (fun hs content ls h => hblank hs content ls (by simp [h])))
    cases hx with
    | bliss => exact .bliss
    | gz h => exact .gz h
    | @raw content ls h =>
      have h1 := RealTexts.raw (skip := skip) (lines_finished h (hend content (by simp)))
      have : ((ls.filter (fun l => !(skip && l.isEmpty))).map strip) = (ls.map strip).filter (fun l => !(skip && l.isEmpty)) := by
        rw [List.filter_map]
        congr 1
        apply List.filter_congr
        intro l hl
        cases skip with
        | false => rfl
        | true =>
          simp only [Bool.true_and, Function.comp]
          congr 1
          rw [Bool.eq_iff_iff, List.isEmpty_iff, List.isEmpty_iff, strip_blank]
          constructor
          · rintro rfl
            intro c hc
            cases hc
          · exact hblank rfl content ls (by simp) h l hl
      rw [← this]
      exact h1

/-- There are always lines. -/
theorem lines_exist (c : Text) : ∃ ls, Lines c ls := by
  induction hn : c.length using Nat.strongRecOn generalizing c with
  | _ n ih =>
    by_cases h : 10 ∈ c
    · obtain ⟨l, r, hc, hl⟩ : ∃ l r, c = l ++ 10 :: r ∧ 10 ∉ l := by
        refine ⟨c.takeWhile (fun x => x != 10), (c.dropWhile (fun x => x != 10)).tail, ?_, ?_⟩
        · conv_lhs => rw [← List.takeWhile_append_dropWhile (p := fun x => x != 10) (l := c)]
          congr 1
          cases hd : c.dropWhile (fun x => x != 10) with
          | nil =>
            rw [List.dropWhile_eq_nil_iff] at hd
            have := hd 10 h
            simp at this
          | cons a u =>
            have := List.head_dropWhile_not (fun x => x != 10) (l := c) (by rw [hd]; simp)
            simp only [hd, List.head_cons] at this
            simp at this
            rw [this]
            rfl
        · intro hm
          have := List.mem_takeWhile_imp hm
          simp at this
      subst hc
      obtain ⟨ls, hls⟩ := ih r.length (by rw [← hn]; simp; omega) r rfl
      exact ⟨_, .line hl hls⟩
    · by_cases hne : c = []
      · subst hne
        exact ⟨_, .nil⟩
      · exact ⟨_, .last h hne⟩

/-- `a␤b c␤` as plain text and as gz. -/
def exFiles : List File := [.raw [97, 10, 98, 32, 99, 10], .gz [10, 97, 10, 98], .bliss [[120]], .raw [10, 121, 10]]

example : ∃ tss c, List.Forall₂ (FileTexts true) exFiles tss ∧ (∀ content, File.raw content ∈ exFiles → content.getLast? = some 10) ∧
    lazyInit true exFiles = .ok c ∧ tss.flatten = [[97], [98, 32, 99], [97], [98], [120], [121]] ∧ c.text 3 = .ok [98] := by
  refine ⟨_, _, .cons (.raw (.line (l := [97]) (r := [98, 32, 99, 10]) (by decide) (.line (l := [98, 32, 99]) (r := []) (by decide) .nil)))
    (.cons (.gz (.line (l := []) (by decide) (.line (l := [97]) (by decide) (.last (l := [98]) (by decide) (by decide)))))
    (.cons .bliss (.cons (.raw (.line (l := []) (by decide) (.line (l := [121]) (by decide) .nil))) .nil))), ?_, rfl, by decide, by decide⟩
  intro content h
  simp [exFiles] at h
  rcases h with rfl | rfl <;> rfl

/-- A plain text file without newline at its end loses its last line, the same text as gz does not. -/
theorem last_line_lost : (∃ c, lazyInit true [.raw [97, 10, 98]] = .ok c ∧ c.orths.length = 1) ∧
    (∃ c, lazyInit true [.gz [97, 10, 98]] = .ok c ∧ c.orths.length = 2 ∧ c.text 1 = .ok [98]) ∧ Lines [97, 10, 98] [[97], [98]] :=
  ⟨⟨_, rfl, by decide⟩, ⟨_, rfl, by decide, by decide⟩, .line (l := [97]) (by decide) (.last (by decide) (by decide))⟩

/-- A line with a space is kept as an empty sequence in a plain text file, although empty lines are to be skipped; in a gz file it is skipped. -/
theorem blank_line_kept : (∃ c, lazyInit true [.raw [97, 10, 32, 10, 98, 10]] = .ok c ∧ c.orths.length = 3 ∧ c.text 1 = .ok []) ∧
    (∃ c, lazyInit true [.gz [97, 10, 32, 10, 98, 10]] = .ok c ∧ c.orths.length = 2 ∧ c.text 1 = .ok [98]) :=
  ⟨⟨_, rfl, by decide, by decide⟩, ⟨_, rfl, by decide, by decide⟩⟩

/-- An empty file is refused. -/
theorem empty_file_fails (skip : Bool) (files : List File) (h : File.raw [] ∈ files) : ∃ e, lazyInit skip files = .error e := by
  have : ∀ (fs : List File) (c : Corpus), File.raw [] ∈ fs → ∃ e, addFiles skip fs c = .error e := by
    intro fs
    induction fs with
    | nil => intro c h; cases h
    | cons f t ih =>
      intro c h
      simp only [LmData.addFiles, bind, Except.bind]
      rcases List.mem_cons.1 h with rfl | h
      · exact ⟨.valueError, rfl⟩
      · split
        · exact ⟨_, rfl⟩
        · exact ih _ h
  obtain ⟨e, he⟩ := this files ⟨[], none, []⟩ h
  exact ⟨e, by simp [lazyInit, he, bind, Except.bind]⟩

end Verif.LmData
