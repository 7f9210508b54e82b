import Verif.SprintCache.Lemmas
/-
C116: Sprint archives.
-/
namespace Verif.SprintCache
open Verif Verif.Py

/-- Two entries. -/
def exAdds : List Add := [⟨[97], [[1, 2], [3, 4]], [(0, 1), (1, 2)], [60, 62]⟩, ⟨[120, 47, 98], [[7]], [(5, 6)], [60]⟩]

theorem content_ok {a : Archive} {name : Bytes} {fi : FileInfo} {e : Entry} (hk : a.ft.get? name = some fi) (hh : HoldsAt a.file fi e) :
    ∃ p post, PayloadOf e p fi.size ∧ a.content name = .ok (if fi.size = 0 then none else some (fi, p ++ post)) := by
  obtain ⟨h1, h2, h3, p, post, h4, h5⟩ := hh
  refine ⟨p, post, h4, ?_⟩
  have hc : a.ft.contains name = true := by simp [Dict.contains, hk]
  have hg : a.ft.getItem name = .ok fi := by simp [Dict.getItem, hk]
  simp only [Archive.content, Archive.resolve, hc, if_true, hg, bind, Except.bind, h5]
  rw [readU32_le (by omega)]
  simp only []
  rw [readU32_le (by omega)]
  simp only []
  rw [readU32_le (by omega)]
  simp only []
  split <;> simp_all

/-- Whatever is written, is read again after `finalize`: features, times, and the text of the attributes.
For a name which was written several times, it is the last one. -/
theorem round_trip {adds : List Add} (hv : ∀ a ∈ adds, a.valid) {w : Writer} (hw : runAdds adds create = .ok w) {file : Bytes}
    (hf : finalize w = .ok file) : ∃ a, openArchive file = .ok a ∧
      (∀ name, a.ft.contains name = true ↔ name ∈ (entries adds).map (fun e => e.1)) ∧
      (∀ name fs ts, lastEntry (entries adds) name = some (.feat fs ts) → a.readFeat name = .ok (some (ts.map (fun t => [t.1, t.2]), fs))) ∧
      (∀ name d, lastEntry (entries adds) name = some (.text d) → a.readStrEntry name = .ok (if d = [] then none else some d)) := by
  have hi := WInv.runAdds adds WInv.create hv hw
  rw [List.nil_append] at hi
  obtain ⟨ft, h1, ⟨r, hr⟩, ⟨r', hr'⟩, h2, h3⟩ := table_ok hi hf
  have hopen : openArchive file = .ok ⟨file, ft, shortNames ft⟩ := by
    have h4 : readN 8 file = .ok (header, 1 :: r') := by
      rw [hr', List.append_assoc]
      exact readN_append rfl
    have h5 : readChar (1 :: r') = .ok (1, r') := by
      simp [readChar, readN, unle, bind, Except.bind]
    simp [openArchive, h4, h5, pyAssert, loadFt, h1, bind, Except.bind]
  refine ⟨_, hopen, ?_, ?_, ?_⟩
  · intro name
    have hl : name ∈ (entries adds).map (fun e => e.1) ↔ (lastEntry (entries adds) name).isSome = true := by
      unfold lastEntry
      rw [Option.isSome_map, List.find?_isSome]
      simp only [List.mem_map, List.mem_reverse, decide_eq_true_eq]
    rw [hl]
    simp only [Dict.contains]
    cases he : lastEntry (entries adds) name with
    | none => simp [h2 name (hi.none name he)]
    | some e =>
      obtain ⟨fi, h4, _⟩ := hi.some name e he
      obtain ⟨j, h5⟩ := h3 name fi h4
      simp [h5]
  · intro name fs ts he
    obtain ⟨fi, h4, h5⟩ := hi.some name _ he
    obtain ⟨j, h6⟩ := h3 name fi h4
    have hh : HoldsAt file { fi with index := j } (.feat fs ts) := by
      rw [hr]
      exact (h5.append r).index j
    obtain ⟨p, post, ⟨g1, g2, g3, g4, g5, frames, g6, g7⟩, hc⟩ := content_ok (a := ⟨file, ft, shortNames ft⟩) h6 hh
    rw [if_neg g3] at hc
    have g8 := readFrames_ok fs ts frames g1 g4 g5 g6 post
    have hv10 : vectorF32.length = 10 := rfl
    simp only [Archive.readFeat, hc, bind, Except.bind, featOf, rawReadFeat, g7, List.append_assoc]
    rw [readU32_le (by omega)]
    simp only []
    rw [readStr_append hv10]
    simp only [pyAssert, beq_self_eq_true, if_true]
    rw [readU32_le (by omega)]
    simp only []
    rw [g8]
  · intro name d he
    obtain ⟨fi, h4, h5⟩ := hi.some name _ he
    obtain ⟨j, h6⟩ := h3 name fi h4
    have hh : HoldsAt file { fi with index := j } (.text d) := by
      rw [hr]
      exact (h5.append r).index j
    obtain ⟨p, post, ⟨g1, g2⟩, hc⟩ := content_ok (a := ⟨file, ft, shortNames ft⟩) h6 hh
    subst g1
    have g2' : fi.size = p.length := g2
    by_cases hd : p = []
    · subst hd
      simp only [List.length_nil] at g2'
      rw [if_pos (by exact g2')] at hc
      simp [Archive.readStrEntry, hc, bind, Except.bind, strOf]
    · have hn : fi.size ≠ 0 := by
        rw [g2']
        intro h0
        exact hd (List.length_eq_zero_iff.1 h0)
      rw [if_neg (by exact hn)] at hc
      simp only [Archive.readStrEntry, hc, bind, Except.bind, strOf, if_neg hd, g2']
      rw [readStr_append rfl]

example : (∀ a ∈ exAdds, a.valid) ∧ ∃ w file, runAdds exAdds create = .ok w ∧ finalize w = .ok file := by
  refine ⟨by simp [exAdds, Add.valid]; omega, ?_⟩
  cases h : runAdds exAdds create with
  | error e =>
    have : (runAdds exAdds create).toBool = true := by decide +kernel
    rw [h] at this
    simp [Except.toBool] at this
  | ok w =>
    refine ⟨w, ?_⟩
    cases h2 : finalize w with
    | error e =>
      have : (runAdds exAdds create >>= finalize).toBool = true := by decide +kernel
      simp [h, h2, bind, Except.bind, Except.toBool] at this
    | ok f => exact ⟨f, rfl, rfl⟩

/-- Features of different number than times are refused. -/
theorem add_length_mismatch {name : Bytes} {fs : List (List Nat)} {ts : List (Nat × Nat)} {d : Bytes} {w : Writer} (h : fs.length ≠ ts.length) :
    ∃ e, addFeatureCache name fs ts d w = .error e := by
  cases hc : addFeatureCache name fs ts d w with
  | error e => exact ⟨e, rfl⟩
  | ok w' =>
    exfalso
    unfold addFeatureCache at hc
    obtain ⟨w1, h1, _⟩ := bind_ok hc
    unfold addFeatures at h1
    obtain ⟨_, _, h1⟩ := bind_ok h1
    obtain ⟨_, _, h1⟩ := bind_ok h1
    obtain ⟨_, _, h1⟩ := bind_ok h1
    obtain ⟨_, _, h1⟩ := bind_ok h1
    obtain ⟨_, _, h1⟩ := bind_ok h1
    obtain ⟨_, h2, h1⟩ := bind_ok h1
    have := assert_ok h2
    simp only [beq_iff_eq] at this
    exact h this

/-! ## Without finalize -/

theorem runAdds_end (adds : List Add) : ∀ {w w' : Writer}, adds ≠ [] → runAdds adds w = .ok w' →
    ∃ x d, w'.buf = x ++ d ++ le 4 endTag ∧ d.length = 4 := by
  induction adds with
  | nil => intro w w' h; exact absurd rfl h
  | cons a t ih =>
    intro w w' _ hw
    unfold runAdds at hw
    obtain ⟨w1, h1, hw⟩ := bind_ok hw
    cases t with
    | cons b t => exact ih (by simp) hw
    | nil =>
      simp only [runAdds, Except.ok.injEq] at hw
      subst hw
      unfold addFeatureCache at h1
      obtain ⟨w2, h2, h1⟩ := bind_ok h1
      unfold addAttributes at h1
      obtain ⟨s, _, h1⟩ := bind_ok h1
      obtain ⟨l, _, h1⟩ := bind_ok h1
      obtain ⟨sz, _, h1⟩ := bind_ok h1
      obtain ⟨e, he, h1⟩ := bind_ok h1
      obtain ⟨_, rfl⟩ := packU32_ok he
      simp only [Except.ok.injEq] at h1
      subst h1
      generalize hY : w2.buf ++ (s ++ l ++ (a.name ++ dotAttribs)) ++ (sz ++ le 4 0 ++ le 4 0 ++ a.attribs) = Y
      have hl : 4 ≤ Y.length := by
        rw [← hY]
        simp only [List.length_append, le_length]
        omega
      refine ⟨Y.take (Y.length - 4), Y.drop (Y.length - 4), ?_, ?_⟩
      · rw [List.take_append_drop]
      · rw [List.length_drop]
        omega

/-- An archive which was not finalized, e.g. after a crash, cannot be opened, although all entries have recovery tags. -/
theorem unfinalized {adds : List Add} (hne : adds ≠ []) (hv : ∀ a ∈ adds, a.valid) {w : Writer} (hw : runAdds adds create = .ok w)
    (hbytes : ∀ b ∈ w.buf, b < 256) (hl : w.buf.length < 2 ^ 62) : openArchive w.buf = .error structError := by
  obtain ⟨x, d, hb, hd⟩ := runAdds_end adds hne hw
  obtain ⟨r, hr⟩ := (WInv.runAdds adds WInv.create hv hw).pre
  have h4 : readN 8 w.buf = .ok (header, 1 :: r) := by
    rw [hr, List.append_assoc]
    exact readN_append rfl
  have h5 : readChar (1 :: r) = .ok (1, r) := by
    simp [readChar, readN, unle, bind, Except.bind]
  have hlen : w.buf.length = x.length + 8 := by
    rw [hb]
    simp [le_length, hd]
  have hdrop : w.buf.drop (w.buf.length - 8) = d ++ le 4 endTag := by
    rw [hlen, Nat.add_sub_cancel, hb, List.append_assoc, List.drop_left]
  have hun : ∃ v, unle (d ++ le 4 endTag) = v ∧ 2 ^ 62 ≤ v ∧ v < 2 ^ 63 := by
    refine ⟨_, rfl, ?_⟩
    have hdb : ∀ b ∈ d, b < 256 := fun b hb' => hbytes b (by rw [hb]; simp [hb'])
    match d, hd, hdb with
    | [a, b, c, e], _, hdb =>
      have h1 := hdb a (by simp)
      have h2 := hdb b (by simp)
      have h3 := hdb c (by simp)
      have h4 := hdb e (by simp)
      simp only [List.cons_append, List.nil_append, unle]
      rw [unle_le 4 endTag (by decide)]
      unfold endTag
      omega
  obtain ⟨v, hv1, hv2, hv3⟩ := hun
  have hr64 : readI64 (d ++ le 4 endTag) = .ok ((v : Int), []) := by
    have : readN 8 (d ++ le 4 endTag) = .ok (d ++ le 4 endTag, []) := by
      have := readN_append (n := 8) (a := d ++ le 4 endTag) (b := []) (by simp [hd, le_length])
      simpa using this
    simp only [readI64, this, bind, Except.bind, hv1, if_pos hv3]
  have hnil : w.buf.drop v = [] := List.drop_eq_nil_of_le (by omega)
  have hneg : ¬ ((v : Int) < 0) := by omega
  have htab : readFileInfoTable w.buf = .error structError := by
    unfold readFileInfoTable
    rw [if_neg (by omega), hdrop, hr64]
    simp [bind, Except.bind, seek, hneg, hnil, readI32, readN]
  simp [openArchive, h4, h5, pyAssert, loadFt, htab, bind, Except.bind]

example : ∃ w, runAdds exAdds create = .ok w ∧ (∀ b ∈ w.buf, b < 256) ∧ w.buf.length < 2 ^ 62 := by
  cases h : runAdds exAdds create with
  | error e =>
    have : (runAdds exAdds create).toBool = true := by decide +kernel
    rw [h] at this
    simp [Except.toBool] at this
  | ok w =>
    refine ⟨w, rfl, ?_, ?_⟩
    · have : ∀ b ∈ ((runAdds exAdds create).toOption.map (fun w => w.buf)).getD [], b < 256 := by decide +kernel
      rw [h] at this
      exact this
    · have : (((runAdds exAdds create).toOption.map (fun w => w.buf)).getD []).length < 1000 := by decide +kernel
      rw [h] at this
      have : w.buf.length < 1000 := this
      omega

/-- The scan which is used for archives without table misses the first entry: it looks at multiples of four, and the first entry is behind a
header of nine bytes. -/
theorem scan_misses_first : ∃ w, runAdds exAdds create = .ok w ∧ ∃ ft, scanArchive w.buf = .ok ft ∧ ft.contains [97] = false ∧
    w.ft.contains [97] = true := by
  cases h : runAdds exAdds create with
  | error e =>
    have : (runAdds exAdds create).toBool = true := by decide +kernel
    rw [h] at this
    simp [Except.toBool] at this
  | ok w =>
    refine ⟨w, rfl, ?_⟩
    have h2 : (runAdds exAdds create).toOption.map (fun w => ((scanArchive w.buf).toOption.map (fun ft => ft.contains [97]), w.ft.contains [97])) =
        some (some false, true) := by decide +kernel
    rw [h] at h2
    simp only [Except.toOption, Option.map_some, Option.some.injEq, Prod.mk.injEq] at h2
    obtain ⟨h3, h4⟩ := h2
    cases h5 : scanArchive w.buf with
    | error e => rw [h5] at h3; simp at h3
    | ok ft =>
      rw [h5] at h3
      simp only [Option.map_some, Option.some.injEq] at h3
      exact ⟨ft, rfl, h3, h4⟩

end Verif.SprintCache
