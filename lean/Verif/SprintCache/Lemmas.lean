import Verif.SprintCache.Spec
import Mathlib.Tactic.Ring
import Mathlib.Tactic.Common
/-
Reading what was written.
-/
namespace Verif.SprintCache
open Verif Verif.Py

theorem le_length (k n : Nat) : (le k n).length = k := by
  induction k generalizing n with
  | zero => rfl
  | succ k ih => simp [le, ih]

theorem unle_le (k n : Nat) (h : n < 256 ^ k) : unle (le k n) = n := by
  induction k generalizing n with
  | zero => simp at h; simp [le, unle, h]
  | succ k ih =>
    simp only [le, unle]
    rw [ih (n / 256) (by rw [Nat.pow_succ] at h; omega)]
    omega

theorem readN_append {n : Nat} {a b : Bytes} (h : a.length = n) : readN n (a ++ b) = .ok (a, b) := by
  subst h
  simp [readN]

theorem readU32_le {n : Nat} (h : n < 2 ^ 32) (r : Bytes) : readU32 (le 4 n ++ r) = .ok (n, r) := by
  simp [readU32, readN_append (le_length 4 n), unle_le 4 n (by omega), bind, Except.bind]

theorem readI32_le {n : Nat} (h : n < 2 ^ 31) (r : Bytes) : readI32 (le 4 n ++ r) = .ok ((n : Int), r) := by
  simp only [readI32, readN_append (le_length 4 n), unle_le 4 n (by omega), bind, Except.bind, if_pos h]

theorem readI64_le {n : Nat} (h : n < 2 ^ 63) (r : Bytes) : readI64 (le 8 n ++ r) = .ok ((n : Int), r) := by
  simp only [readI64, readN_append (le_length 8 n), unle_le 8 n (by omega), bind, Except.bind, if_pos h]

theorem readStr_append {n : Nat} {a b : Bytes} (h : a.length = n) : readStr (n : Int) (a ++ b) = .ok (a, b) := by
  have : ¬ ((n : Int) < 0) := by omega
  simp [readStr, this, readN_append h]

theorem readV_append (b : Nat) : ∀ (xs : List Nat) (r : Bytes), (∀ x ∈ xs, x < 256 ^ b) →
    readV b xs.length (xs.flatMap (le b) ++ r) = .ok (xs, r) := by
  intro xs
  induction xs with
  | nil => intro r _; rfl
  | cons x t ih =>
    intro r h
    simp only [List.length_cons, List.flatMap_cons, List.append_assoc, readV, readN_append (le_length b x), bind, Except.bind,
      ih r (fun y hy => h y (by simp [hy])), unle_le b x (h x (by simp))]

theorem packI32_ok {n : Nat} {b : Bytes} (h : packI32 n = .ok b) : n < 2 ^ 31 ∧ b = le 4 n := by
  unfold packI32 at h
  split at h
  · exact ⟨by assumption, by simpa using h.symm⟩
  · simp at h

theorem packI64_ok {n : Nat} {b : Bytes} (h : packI64 n = .ok b) : n < 2 ^ 63 ∧ b = le 8 n := by
  unfold packI64 at h
  split at h
  · exact ⟨by assumption, by simpa using h.symm⟩
  · simp at h

theorem packU32_ok {n : Nat} {b : Bytes} (h : packU32 n = .ok b) : n < 2 ^ 32 ∧ b = le 4 n := by
  unfold packU32 at h
  split at h
  · exact ⟨by assumption, by simpa using h.symm⟩
  · simp at h

theorem bind_ok {α β : Type} {x : Res α} {f : α → Res β} {b : β} (h : (x >>= f) = .ok b) : ∃ a, x = .ok a ∧ f a = .ok b := by
  cases x with
  | error e => simp [bind, Except.bind] at h
  | ok a => exact ⟨a, rfl, h⟩

theorem assert_ok {c : Bool} {u : Unit} (h : pyAssert c = .ok u) : c = true := by
  unfold pyAssert at h
  split at h
  · assumption
  · simp at h

/-! ### Features -/

theorem readFrames_ok : ∀ (features : List (List Nat)) (times : List (Nat × Nat)) (b : Bytes), features.length = times.length →
    (∀ f ∈ features, ∀ x ∈ f, x < 2 ^ 32) → (∀ t ∈ times, t.1 < 2 ^ 64 ∧ t.2 < 2 ^ 64) →
    writeFrames (features.zip times) = .ok b → ∀ r, readFrames features.length (b ++ r) = .ok ((times.map (fun t => [t.1, t.2]), features), r) := by
  intro features
  induction features with
  | nil =>
    intro times b hl _ _ hw r
    cases times with
    | nil =>
      simp only [List.zip_nil_right, writeFrames, Except.ok.injEq] at hw
      subst hw
      rfl
    | cons t ts => simp at hl
  | cons f fs ih =>
    intro times b hl hf ht hw r
    cases times with
    | nil => simp at hl
    | cons t ts =>
      simp only [List.zip_cons_cons, writeFrames] at hw
      obtain ⟨a, ha, hw⟩ := bind_ok hw
      obtain ⟨c, hc, hw⟩ := bind_ok hw
      simp only [Except.ok.injEq] at hw
      subst hw
      unfold writeFrame at ha
      obtain ⟨l, hl', ha⟩ := bind_ok ha
      simp only [Except.ok.injEq] at ha
      obtain ⟨h1, rfl⟩ := packI32_ok hl'
      subst ha
      have h2 := readV_append 4 f (le 8 t.1 ++ (le 8 t.2 ++ (c ++ r))) (fun x hx => by
        have := hf f (by simp) x hx
        omega)
      have h3 := readV_append 8 [t.1, t.2] (c ++ r) (by
        intro x hx
        have := ht t (by simp)
        simp only [List.mem_cons, List.not_mem_nil, or_false] at hx
        rcases hx with rfl | rfl <;> omega)
      simp only [List.flatMap_cons, List.flatMap_nil, List.append_nil, List.length_cons, List.length_nil, List.append_assoc] at h3
      simp only [List.length_cons, List.map_cons, List.append_assoc]
      unfold readFrames
      simp only [bind, Except.bind]
      have h1' : f.length < 2 ^ 31 := h1
      rw [readU32_le (by omega)]
      simp only []
      rw [h2]
      simp only []
      rw [h3]
      simp only []
      rw [ih ts c (by simpa using hl) (fun g hg => hf g (by simp [hg])) (fun u hu => ht u (by simp [hu])) hc r]

/-- What is in the file for an entry. -/
def PayloadOf : Entry → Bytes → Nat → Prop
  | .feat fs ts, p, s => fs.length = ts.length ∧ fs.length < 2 ^ 31 ∧ s ≠ 0 ∧ (∀ f ∈ fs, ∀ x ∈ f, x < 2 ^ 32) ∧
      (∀ t ∈ ts, t.1 < 2 ^ 64 ∧ t.2 < 2 ^ 64) ∧
      ∃ frames, writeFrames (fs.zip ts) = .ok frames ∧ p = le 4 10 ++ vectorF32 ++ le 4 fs.length ++ frames
  | .text d, p, s => p = d ∧ s = d.length

/-- Where the entry is in the file. -/
def HoldsAt (buf : Bytes) (fi : FileInfo) (e : Entry) : Prop :=
  fi.pos ≤ buf.length ∧ fi.size < 2 ^ 31 ∧ fi.compressed = 0 ∧ ∃ p post, PayloadOf e p fi.size ∧
    buf.drop fi.pos = le 4 fi.size ++ (le 4 0 ++ (le 4 0 ++ (p ++ post)))

theorem HoldsAt.append {buf : Bytes} {fi : FileInfo} {e : Entry} (h : HoldsAt buf fi e) (x : Bytes) : HoldsAt (buf ++ x) fi e := by
  obtain ⟨h1, h2, h3, p, post, h4, h5⟩ := h
  refine ⟨by rw [List.length_append]; omega, h2, h3, p, post ++ x, h4, ?_⟩
  rw [List.drop_append_of_le_length h1, h5]
  simp

theorem HoldsAt.index {buf : Bytes} {fi : FileInfo} {e : Entry} (h : HoldsAt buf fi e) (i : Nat) : HoldsAt buf { fi with index := i } e := h

/-- What is known about a file which is written. -/
structure WInv (w : Writer) (es : List (Bytes × Entry)) : Prop where
  wf : w.ft.Wf
  names : ∀ k fi, w.ft.get? k = some fi → fi.name = k
  none : ∀ k, lastEntry es k = none → w.ft.get? k = none
  some : ∀ k e, lastEntry es k = some e → ∃ fi, w.ft.get? k = some fi ∧ HoldsAt w.buf fi e
  pre : ∃ r, w.buf = header ++ [1] ++ r

theorem lastEntry_append (es : List (Bytes × Entry)) (n : Bytes) (e : Entry) (k : Bytes) :
    lastEntry (es ++ [(n, e)]) k = if n = k then some e else lastEntry es k := by
  unfold lastEntry
  rw [List.reverse_append]
  simp only [List.reverse_cons, List.reverse_nil, List.nil_append, List.cons_append, List.find?_cons]
  by_cases h : n = k <;> simp [h]

theorem WInv.create : WInv create [] := by
  refine ⟨List.nodup_nil, ?_, ?_, ?_, ⟨[], by simp [SprintCache.create]⟩⟩
  · intro k fi h; simp [SprintCache.create, Dict.get?] at h
  · intro k _; rfl
  · intro k e h; simp [lastEntry] at h

theorem WInv.add {w : Writer} {es : List (Bytes × Entry)} (h : WInv w es) {name : Bytes} {fi : FileInfo} {e : Entry} {x y : Bytes}
    (hn : fi.name = name) (hh : HoldsAt (w.buf ++ x) fi e) : WInv ⟨w.buf ++ x ++ y, w.ft.set name fi⟩ (es ++ [(name, e)]) := by
  refine ⟨Dict.wf_set h.wf _ _, ?_, ?_, ?_, ?_⟩
  · intro k fi' hk
    rw [Dict.get?_set] at hk
    split at hk
    · rename_i he
      simp only [Option.some.injEq] at hk
      rw [← hk, hn, he]
    · exact h.names k fi' hk
  · intro k hk
    rw [lastEntry_append] at hk
    rw [Dict.get?_set]
    split at hk
    · simp at hk
    · rename_i he
      rw [if_neg he]
      exact h.none k hk
  · intro k e' hk
    rw [lastEntry_append] at hk
    simp only [Dict.get?_set]
    split at hk
    · rename_i he
      rw [if_pos he]
      simp only [Option.some.injEq] at hk
      subst hk
      exact ⟨fi, rfl, hh.append y⟩
    · rename_i he
      rw [if_neg he]
      obtain ⟨fi', h1, h2⟩ := h.some k e' hk
      exact ⟨fi', h1, (h2.append x).append y⟩
  · obtain ⟨r, hr⟩ := h.pre
    exact ⟨r ++ x ++ y, by simp [hr]⟩

theorem drop_pos (a b c : Bytes) : (a ++ b ++ c).drop (a.length + b.length) = c := by
  rw [← List.length_append, List.drop_left]

theorem WInv.addFeatures {w w' : Writer} {es : List (Bytes × Entry)} (h : WInv w es) {name : Bytes} {fs : List (List Nat)}
    {ts : List (Nat × Nat)} (hf : ∀ f ∈ fs, ∀ x ∈ f, x < 2 ^ 32) (ht : ∀ t ∈ ts, t.1 < 2 ^ 64 ∧ t.2 < 2 ^ 64)
    (hw : addFeatures name fs ts w = .ok w') : WInv w' (es ++ [(name, .feat fs ts)]) := by
  unfold SprintCache.addFeatures at hw
  obtain ⟨s, hs, hw⟩ := bind_ok hw
  obtain ⟨l, hl, hw⟩ := bind_ok hw
  obtain ⟨_, _, hw⟩ := bind_ok hw
  obtain ⟨size, hsize, hw⟩ := bind_ok hw
  obtain ⟨ten, hten, hw⟩ := bind_ok hw
  obtain ⟨_, ha, hw⟩ := bind_ok hw
  obtain ⟨n, hn, hw⟩ := bind_ok hw
  obtain ⟨frames, hfr, hw⟩ := bind_ok hw
  obtain ⟨e, he, hw⟩ := bind_ok hw
  simp only [Except.ok.injEq] at hw
  subst hw
  obtain ⟨h1, rfl⟩ := packI32_ok hsize
  obtain ⟨_, rfl⟩ := packI32_ok hten
  obtain ⟨h2, rfl⟩ := packI32_ok hn
  have h3 := assert_ok ha
  simp only [beq_iff_eq] at h3
  have hz : featSize fs ≠ 0 := by cases fs <;> simp [featSize]
  have := h.add (name := name) (fi := ⟨name, w.buf.length + (s ++ l ++ name).length, featSize fs, 0, w.ft.length⟩) (e := .feat fs ts)
    (x := (s ++ l ++ name) ++ (le 4 (featSize fs) ++ le 4 0 ++ le 4 0 ++ (le 4 10 ++ vectorF32 ++ le 4 fs.length ++ frames))) (y := e) rfl
    ⟨by simp only [List.length_append]; omega, h1, rfl, _, [], ⟨h3, h2, hz, hf, ht, frames, hfr, rfl⟩, by
      rw [← List.append_assoc, drop_pos]
      simp⟩
  simpa [List.append_assoc] using this

theorem WInv.addAttributes {w w' : Writer} {es : List (Bytes × Entry)} (h : WInv w es) {name d : Bytes}
    (hw : addAttributes name d w = .ok w') : WInv w' (es ++ [(name ++ dotAttribs, .text d)]) := by
  unfold SprintCache.addAttributes at hw
  obtain ⟨s, hs, hw⟩ := bind_ok hw
  obtain ⟨l, hl, hw⟩ := bind_ok hw
  obtain ⟨size, hsize, hw⟩ := bind_ok hw
  obtain ⟨e, he, hw⟩ := bind_ok hw
  simp only [Except.ok.injEq] at hw
  subst hw
  obtain ⟨h1, rfl⟩ := packI32_ok hsize
  have := h.add (name := name ++ dotAttribs) (fi := ⟨name ++ dotAttribs, w.buf.length + (s ++ l ++ (name ++ dotAttribs)).length, d.length, 0, w.ft.length⟩)
    (e := .text d) (x := (s ++ l ++ (name ++ dotAttribs)) ++ (le 4 d.length ++ le 4 0 ++ le 4 0 ++ d)) (y := e) rfl
    ⟨by simp only [List.length_append]; omega, h1, rfl, d, [], ⟨rfl, rfl⟩, by
      show List.drop (w.buf.length + (s ++ l ++ (name ++ dotAttribs)).length) _ = _
      rw [← List.append_assoc w.buf, drop_pos]
      simp⟩
  simpa [List.append_assoc] using this

theorem WInv.runAdds (adds : List Add) : ∀ {w w' : Writer} {es : List (Bytes × Entry)}, WInv w es → (∀ a ∈ adds, a.valid) →
    runAdds adds w = .ok w' → WInv w' (es ++ entries adds) := by
  induction adds with
  | nil =>
    intro w w' es h _ hw
    simp only [SprintCache.runAdds, Except.ok.injEq] at hw
    subst hw
    simpa [entries] using h
  | cons a t ih =>
    intro w w' es h hv hw
    unfold SprintCache.runAdds at hw
    obtain ⟨w1, h1, hw⟩ := bind_ok hw
    unfold addFeatureCache at h1
    obtain ⟨w2, h2, h1⟩ := bind_ok h1
    have hva := hv a (by simp)
    have := ih ((h.addFeatures hva.1 hva.2 h2).addAttributes h1) (fun b hb => hv b (by simp [hb])) hw
    simpa [entries, dotAttribs, List.append_assoc] using this

/-! ### Table -/

theorem readTable_ok : ∀ (l : List FileInfo) (b : Bytes), tableEntries l = .ok b → (l.map (fun fi => fi.name)).Nodup →
    ∀ (i : Nat) (ft : Dict Bytes FileInfo) (r : Bytes), ∃ ft', readTable l.length i ft (b ++ r) = .ok (ft', r) ∧
      ∀ k, (∀ fi ∈ l, fi.name = k → ∃ j, ft'.get? k = some { fi with index := j }) ∧
        ((∀ fi ∈ l, fi.name ≠ k) → ft'.get? k = ft.get? k) := by
  intro l
  induction l with
  | nil =>
    intro b hb _ i ft r
    simp only [tableEntries, Except.ok.injEq] at hb
    subst hb
    exact ⟨ft, rfl, fun k => ⟨by simp, fun _ => rfl⟩⟩
  | cons fi t ih =>
    intro b hb hn i ft r
    simp only [tableEntries] at hb
    obtain ⟨a, ha, hb⟩ := bind_ok hb
    obtain ⟨c, hc, hb⟩ := bind_ok hb
    simp only [Except.ok.injEq] at hb
    subst hb
    unfold tableEntry at ha
    obtain ⟨x1, h1, ha⟩ := bind_ok ha
    obtain ⟨x2, h2, ha⟩ := bind_ok ha
    obtain ⟨x3, h3, ha⟩ := bind_ok ha
    obtain ⟨x4, h4, ha⟩ := bind_ok ha
    simp only [Except.ok.injEq] at ha
    subst ha
    obtain ⟨g1, rfl⟩ := packI32_ok h1
    obtain ⟨g2, rfl⟩ := packI64_ok h2
    obtain ⟨g3, rfl⟩ := packI32_ok h3
    obtain ⟨g4, rfl⟩ := packI32_ok h4
    rw [List.map_cons, List.nodup_cons] at hn
    obtain ⟨ft', h5, h6⟩ := ih c hc hn.2 (i + 1) (ft.set fi.name { fi with index := i }) r
    refine ⟨ft', ?_, ?_⟩
    · simp only [List.length_cons, List.append_assoc]
      unfold readTable
      simp only [bind, Except.bind]
      rw [readI32_le g1]
      simp only []
      rw [readStr_append rfl]
      simp only []
      rw [readI64_le g2]
      simp only []
      rw [readI32_le g3]
      simp only []
      rw [readI32_le g4]
      simp only [Int.toNat_natCast]
      exact h5
    · intro k
      obtain ⟨h7, h8⟩ := h6 k
      constructor
      · intro fi' hfi' hk
        rw [List.mem_cons] at hfi'
        rcases hfi' with rfl | hfi'
        · refine ⟨i, ?_⟩
          rw [h8 (by
            intro fi'' hm he
            exact hn.1 (List.mem_map.2 ⟨fi'', hm, by rw [he, hk]⟩)), Dict.get?_set, if_pos hk]
        · exact h7 fi' hfi' hk
      · intro hne
        rw [h8 (fun fi' hfi' => hne fi' (by simp [hfi'])), Dict.get?_set, if_neg (hne fi (by simp))]

/-- The table of a finalized archive. -/
theorem table_ok {w : Writer} {es : List (Bytes × Entry)} (h : WInv w es) {file : Bytes} (hf : finalize w = .ok file) :
    ∃ ft, readFileInfoTable file = .ok ft ∧ (∃ r, file = w.buf ++ r) ∧ (∃ r, file = header ++ [1] ++ r) ∧
      (∀ k, w.ft.get? k = none → ft.get? k = none) ∧ ∀ k fi, w.ft.get? k = some fi → ∃ j, ft.get? k = some { fi with index := j } := by
  unfold finalize at hf
  obtain ⟨n, hn, hf⟩ := bind_ok hf
  obtain ⟨t, ht, hf⟩ := bind_ok hf
  obtain ⟨z, hz, hf⟩ := bind_ok hf
  obtain ⟨p, hp, hf⟩ := bind_ok hf
  simp only [Except.ok.injEq] at hf
  subst hf
  obtain ⟨h1, rfl⟩ := packI32_ok hn
  obtain ⟨h2, rfl⟩ := packI64_ok hz
  obtain ⟨h3, rfl⟩ := packI64_ok hp
  have hnames : w.ft.values.map (fun fi => fi.name) = w.ft.keys := by
    unfold Dict.values Dict.keys
    rw [List.map_map]
    apply List.map_congr_left
    rintro ⟨k, fi⟩ hm
    exact h.names k fi (Dict.get?_of_mem h.wf hm)
  have hlen : w.ft.values.length = w.ft.length := by simp [Dict.values]
  obtain ⟨ft, h4, h5⟩ := readTable_ok w.ft.values t ht (by rw [hnames]; exact h.wf) 0 [] (le 8 0 ++ le 8 w.buf.length)
  refine ⟨ft, ?_, ⟨_, rfl⟩, ?_, ?_, ?_⟩
  · have hl : ¬ (w.buf ++ (le 4 w.ft.length ++ t ++ le 8 0 ++ le 8 w.buf.length)).length < 8 := by
      simp only [List.length_append, le_length]
      omega
    have hd : (w.buf ++ (le 4 w.ft.length ++ t ++ le 8 0 ++ le 8 w.buf.length)).drop
        ((w.buf ++ (le 4 w.ft.length ++ t ++ le 8 0 ++ le 8 w.buf.length)).length - 8) = le 8 w.buf.length := by
      have he : w.buf ++ (le 4 w.ft.length ++ t ++ le 8 0 ++ le 8 w.buf.length) = (w.buf ++ (le 4 w.ft.length ++ t ++ le 8 0)) ++ le 8 w.buf.length := by
        simp
      rw [he]
      have : ((w.buf ++ (le 4 w.ft.length ++ t ++ le 8 0)) ++ le 8 w.buf.length).length - 8 = (w.buf ++ (le 4 w.ft.length ++ t ++ le 8 0)).length := by
        rw [List.length_append, le_length]
        omega
      rw [this, List.drop_left]
    unfold readFileInfoTable
    rw [if_neg hl, hd]
    have h6 := readI64_le h3 []
    rw [List.append_nil] at h6
    have hneg : ¬ ((w.buf.length : Int) < 0) := by omega
    simp only [bind, Except.bind, h6, seek, if_neg hneg, Int.toNat_natCast, List.drop_left]
    rw [List.append_assoc, List.append_assoc, readI32_le h1]
    simp only [Int.toNat_natCast]
    rw [← hlen, h4]
  · obtain ⟨r, hr⟩ := h.pre
    refine ⟨r ++ (le 4 w.ft.length ++ t ++ le 8 0 ++ le 8 w.buf.length), ?_⟩
    simp [hr]
  · intro k hk
    rw [(h5 k).2 ?_]
    · rfl
    · intro fi hfi he
      rw [Dict.get?_eq_none] at hk
      apply hk
      rw [← hnames, ← he]
      exact List.mem_map.2 ⟨fi, hfi, rfl⟩
  · intro k fi hk
    exact (h5 k).1 fi (List.mem_map.2 ⟨(k, fi), Dict.mem_of_get? hk, rfl⟩) (h.names k fi hk)

end Verif.SprintCache
