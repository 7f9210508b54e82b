import Verif.PyPickle.Parse
/-
What the parser writes for lists, dicts and sets.
-/
namespace Verif.PyPickle

open Verif.Py

variable (stod : List Nat → Option Nat) (cap : Nat)

theorem patch_inp (st : St) (s : Nat) : (patch cap st s).inp = st.inp := by
  unfold patch; split <;> rfl

theorem patch_err (st : St) (s : Nat) : (patch cap st s).err = st.err := by
  unfold patch; split <;> rfl

/-- The opening byte is replaced. -/
theorem Wr.patch {st st' : St} {c : List Nat} (h : Wr cap st (125 :: c) st') :
    Wr cap st (0x8f :: c) (patch cap st' st.out.length) := by
  refine ⟨by rw [patch_err]; exact h.err, ?_, ?_, ?_⟩
  · intro ho
    have := h.ovf ho
    unfold PyPickle.patch; split
    · rfl
    · exact this
  · intro ho hl
    obtain ⟨e1, e2⟩ := h.fit ho (by simpa using hl)
    have hlt : st.out.length < cap := by simp at hl; omega
    unfold PyPickle.patch
    rw [if_neg (by omega), e1]
    refine ⟨?_, e2⟩
    simp [List.set_append]
  · intro ho hl
    have := h.nofit ho (by simpa using hl)
    unfold PyPickle.patch; split
    · rfl
    · exact this

/-- Replacing it once more changes nothing. -/
theorem Wr.patch_again {st : St} {s : Nat} (h : st.ovf = false → st.out[s]? = some 0x8f ∧ s < cap) {c : List Nat}
    {st' : St} (hw : Wr cap (PyPickle.patch cap st s) c st') : Wr cap st c st' := by
  cases ho : st.ovf with
  | true =>
    refine ⟨by rw [hw.err, patch_err], fun _ => hw.ovf ?_, fun h => by simp [ho] at h, fun h => by simp [ho] at h⟩
    unfold PyPickle.patch; split
    · rfl
    · exact ho
  | false =>
    obtain ⟨h1, h2⟩ := h ho
    have : PyPickle.patch cap st s = st := by
      unfold PyPickle.patch
      rw [if_neg (by omega)]
      obtain ⟨hlt, hg⟩ := List.getElem?_eq_some_iff.1 h1
      have : st.out.set s 0x8f = st.out := by
        conv_lhs => rw [← hg]
        exact List.set_getElem_self hlt
      rw [this]
    rw [this] at hw
    exact hw

/-- The replaced byte stays. -/
theorem keep_set {st st' : St} {c : List Nat} {s : Nat} (hw : Wr cap st c st')
    (h : st.ovf = false → st.out[s]? = some 0x8f ∧ s < cap) :
    st'.ovf = false → st'.out[s]? = some 0x8f ∧ s < cap := by
  intro ho
  cases ho' : st.ovf with
  | true => rw [hw.ovf ho'] at ho; simp at ho
  | false =>
    obtain ⟨h1, h2⟩ := h ho'
    by_cases hf : st.out.length + c.length ≤ cap
    · obtain ⟨e1, _⟩ := hw.fit ho' hf
      refine ⟨?_, h2⟩
      rw [e1, List.getElem?_append_left]
      · exact h1
      · exact (List.getElem?_eq_some_iff.1 h1).1
    · rw [hw.nofit ho' (by omega)] at ho; simp at ho

/-- One round of `parse_dict_or_set` with an item. -/
theorem dict_round {text code : List Nat} (h : ParsesTo stod cap text code) (f : Nat) (st : St) (d : DSt)
    (w₁ w₂ : List Nat) (c : Nat) (r : List Nat) (hw₁ : Ws w₁) (hw₂ : Ws w₂)
    (hin : st.inp = w₁ ++ (text ++ (w₂ ++ c :: r))) (hs : isSpace c = false) (hn : isNumChar c = false)
    (hf : 2 * st.inp.length + 2 ≤ f) (he : st.err = false) :
    ∃ st' g, f = g + 1 ∧ st'.inp = r ∧ Wr cap st code st' ∧
      dictLoop stod cap f st d = match dictStep cap (some c) st' { d with count := d.count + 1 } with
        | .ret st => .ok st
        | .cont st d => dictLoop stod cap g st d := by
  obtain ⟨g, rfl⟩ : ∃ g, f = g + 1 := ⟨f - 1, by omega⟩
  obtain ⟨st', e1, e2, e3⟩ := parse_item stod cap h g st w₁ w₂ c r hw₁ hw₂ hin hs hn (by omega) he
  refine ⟨st', g, rfl, e2, e3, ?_⟩
  rw [dictLoop, e1]
  rfl

/-- The last round of `parse_dict_or_set`, without an item. -/
theorem dict_noround (f : Nat) (st : St) (d : DSt) (w r : List Nat) (hw : Ws w)
    (hin : st.inp = w ++ 125 :: r) (hf : 2 * st.inp.length + 2 ≤ f) :
    ∃ g, f = g + 1 ∧
      dictLoop stod cap f st d = match dictStep cap (some 125) { st with inp := r } d with
        | .ret st => .ok st
        | .cont st d => dictLoop stod cap g st d := by
  obtain ⟨g, rfl⟩ : ∃ g, f = g + 1 := ⟨f - 1, by omega⟩
  refine ⟨g, rfl, ?_⟩
  rw [dictLoop, parse_noitem stod cap g st w 125 r hw hin (Or.inr rfl) (by omega)]
  rfl

theorem dictStep_colon (st : St) (d : DSt) (h : d.curKey = true) (hs : d.isSet = false) :
    dictStep cap (some 58) st d = .cont st { d with curKey := false } := by
  simp [dictStep, h, hs]

theorem dictStep_comma (st : St) (d : DSt) (hc : d.count ≠ 1) (h : d.curKey = false) :
    dictStep cap (some 44) st d = .cont st (if d.isSet then d else { d with curKey := true }) := by
  simp [dictStep, maybeSet, h, hc]

theorem dictStep_close (st : St) (d : DSt) (hc : d.count ≠ 1) :
    dictStep cap (some 125) st d = .ret (dictEnd cap st d) := by
  simp [dictStep, maybeSet, hc]

theorem maybeSet_one (st : St) (d : DSt) (hc : d.count = 1) (he : st.err = false) :
    maybeSet cap st d = (false, patch cap st d.start, { d with curKey := false, isSet := true }) := by
  unfold maybeSet makeSet
  rw [if_pos hc, if_neg (by omega)]
  simp only [patch_err, he]

theorem dictStep_comma_one (st : St) (d : DSt) (hc : d.count = 1) (he : st.err = false) :
    dictStep cap (some 44) st d = .cont (patch cap st d.start) { d with curKey := false, isSet := true } := by
  simp [dictStep, maybeSet_one cap st d hc he]

theorem dictStep_close_one (st : St) (d : DSt) (hc : d.count = 1) (he : st.err = false) :
    dictStep cap (some 125) st d
      = .ret (dictEnd cap (patch cap st d.start) { d with curKey := false, isSet := true }) := by
  simp [dictStep, maybeSet_one cap st d hc he]

theorem wr_start (st : St) (a : Nat) : Wr cap st [a, 40] (write cap (write cap st [a]) [40]) :=
  (Wr.write cap st [a]).trans (Wr.write cap _ [40])

mutual

/-- Every literal of the supported kind is parsed to its opcodes. -/
theorem parsesTo (c : Cst) (h : c.ok stod) : ParsesTo stod cap c.text (c.code stod) := by
  match c with
  | .none => rw [Cst.text, Cst.code]; exact parsesTo_none stod cap
  | .int s ds => exact parsesTo_int stod cap s ds h
  | .float s ip fp => exact parsesTo_float stod cap s ip fp h
  | .str q ps =>
    rw [Cst.ok] at h
    rw [Cst.text, Cst.code]
    exact parsesTo_str stod cap q ps h.1 h.2
  | .list items =>
    rw [Cst.ok] at h
    intro f st rest hin _ hf he
    rw [Cst.text] at hin
    have hin' : st.inp = 91 :: (items.text ++ 93 :: rest) := by rw [hin]; simp
    have hlen := congrArg List.length hin'
    simp only [List.length_append, List.length_cons] at hlen
    obtain ⟨f, rfl⟩ : ∃ g, f = g + 1 := ⟨f - 1, by omega⟩
    have hw := wr_start cap { st with inp := items.text ++ 93 :: rest } 93
    obtain ⟨st', e1, e2, e3⟩ := list_items items h f
      (write cap (write cap { st with inp := items.text ++ 93 :: rest } [93]) [40]) rest
      (by rw [write_inp, write_inp]) (by
        rw [write_inp, write_inp]; simp only [List.length_append, List.length_cons]; omega)
      (by rw [hw.err]; exact he)
    refine ⟨f, st', ?_, e2, ?_, by omega⟩
    · rw [parse, hin']
      simp only
      rw [if_neg (by decide), if_neg (by decide), if_neg (by decide), if_pos (by decide), e1]
    · rw [Cst.code, List.append_assoc]
      exact (hw.trans e3).inp_left
  | .set items =>
    rw [Cst.ok] at h
    intro f st rest hin _ hf he
    rw [Cst.text] at hin
    have hin' : st.inp = 123 :: (items.text ++ 125 :: rest) := by rw [hin]; simp
    have hlen := congrArg List.length hin'
    simp only [List.length_append, List.length_cons] at hlen
    obtain ⟨f, rfl⟩ : ∃ g, f = g + 1 := ⟨f - 1, by omega⟩
    obtain ⟨st', e1, e2, e3⟩ := set_items items h.1 h.2.1 f { st with inp := items.text ++ 125 :: rest } rest
      rfl (by simp only [List.length_append, List.length_cons]; omega) he
    refine ⟨f, st', ?_, e2, ?_, by omega⟩
    · rw [parse, hin']
      simp only
      rw [if_neg (by decide), if_neg (by decide), if_neg (by decide), if_neg (by decide), if_pos (by decide)]
      simp only at e1
      rw [e1]
    · rw [Cst.code, List.append_assoc]
      exact e3.inp_left
  | .dict items =>
    rw [Cst.ok] at h
    intro f st rest hin _ hf he
    rw [Cst.text] at hin
    have hin' : st.inp = 123 :: (items.text ++ 125 :: rest) := by rw [hin]; simp
    have hlen := congrArg List.length hin'
    simp only [List.length_append, List.length_cons] at hlen
    obtain ⟨f, rfl⟩ : ∃ g, f = g + 1 := ⟨f - 1, by omega⟩
    have hw := wr_start cap { st with inp := items.text ++ 125 :: rest } 125
    obtain ⟨st', e1, e2, e3⟩ := dict_items items h f
      (write cap (write cap { st with inp := items.text ++ 125 :: rest } [125]) [40]) rest 0 st.out.length
      (by rw [write_inp, write_inp]) (by
        rw [write_inp, write_inp]; simp only [List.length_append, List.length_cons]; omega)
      (by rw [hw.err]; exact he)
    refine ⟨f, st', ?_, e2, ?_, by omega⟩
    · rw [parse, hin']
      simp only
      rw [if_neg (by decide), if_neg (by decide), if_neg (by decide), if_neg (by decide), if_pos (by decide)]
      rw [e1]
    · rw [Cst.code, List.append_assoc]
      exact (hw.trans e3).inp_left

theorem list_items (it : Items) (h : it.ok stod) : ∀ (f : Nat) (st : St) (r : List Nat),
    st.inp = it.text ++ 93 :: r → 2 * st.inp.length + 2 ≤ f → st.err = false →
    ∃ st', listLoop stod cap f st = .ok st' ∧ st'.inp = r ∧ Wr cap st (it.code stod ++ [101]) st' := by
  match it with
  | .nil w =>
    intro f st r hin hf he
    rw [Items.ok] at h
    rw [Items.text] at hin
    obtain ⟨g, rfl⟩ : ∃ g, f = g + 1 := ⟨f - 1, by omega⟩
    rw [listLoop, parse_noitem stod cap g st w 93 r h hin (Or.inl rfl) (by omega)]
    refine ⟨write cap { st with inp := r } [101], rfl, write_inp _ _ _, ?_⟩
    rw [Items.code, List.nil_append]
    exact (Wr.write cap { st with inp := r } [101]).inp_left
  | .last w₁ c w₂ =>
    intro f st r hin hf he
    rw [Items.ok] at h
    rw [Items.text] at hin
    obtain ⟨g, rfl⟩ : ∃ g, f = g + 1 := ⟨f - 1, by omega⟩
    obtain ⟨st', e1, e2, e3⟩ := parse_item stod cap (parsesTo c h.2.1) g st w₁ w₂ 93 r h.1 h.2.2
      (by rw [hin]; simp) rfl rfl (by omega) he
    rw [listLoop, e1]
    refine ⟨write cap st' [101], rfl, by rw [write_inp, e2], ?_⟩
    rw [Items.code]
    exact e3.trans (Wr.write cap st' [101])
  | .more w₁ c w₂ rest =>
    intro f st r hin hf he
    rw [Items.ok] at h
    rw [Items.text] at hin
    obtain ⟨g, rfl⟩ : ∃ g, f = g + 1 := ⟨f - 1, by omega⟩
    have hlen := congrArg List.length hin
    simp only [List.length_append, List.length_cons] at hlen
    obtain ⟨st', e1, e2, e3⟩ := parse_item stod cap (parsesTo c h.2.1) g st w₁ w₂ 44 (rest.text ++ 93 :: r) h.1
      h.2.2.1 (by rw [hin]; simp) rfl rfl (by omega) he
    rw [listLoop, e1]
    obtain ⟨st'', e4, e5, e6⟩ := list_items rest h.2.2.2 g st' r e2
      (by rw [e2]; simp only [List.length_append, List.length_cons]; omega) (by rw [e3.err]; exact he)
    refine ⟨st'', ?_, e5, ?_⟩
    · simp only [if_true]; exact e4
    · rw [Items.code, List.append_assoc]
      exact e3.trans e6

/-- The items of a set behind the first one. -/
theorem set_rest (it : Items) (h : it.ok stod) : ∀ (f : Nat) (st : St) (r : List Nat) (n s : Nat),
    st.inp = it.text ++ 125 :: r → 2 * st.inp.length + 2 ≤ f → st.err = false →
    (st.ovf = false → st.out[s]? = some 0x8f ∧ s < cap) →
    ∃ st', dictLoop stod cap f st ⟨n + 1, true, false, s⟩ = .ok st' ∧ st'.inp = r
      ∧ Wr cap st (it.code stod ++ [0x90]) st' := by
  match it with
  | .nil w =>
    intro f st r n s hin hf he hset
    rw [Items.ok] at h
    rw [Items.text] at hin
    obtain ⟨g, _, e1⟩ := dict_noround stod cap f st ⟨n + 1, true, false, s⟩ w r h hin hf
    rw [e1, Items.code, List.nil_append]
    by_cases hn : n = 0
    · subst hn
      rw [dictStep_close_one cap { st with inp := r } ⟨0 + 1, true, false, s⟩ rfl he]
      refine ⟨_, rfl, ?_, ?_⟩
      · simp [dictEnd, write_inp, patch_inp]
      · refine (Wr.patch_again cap (st := { st with inp := r }) (s := s) hset ?_).inp_left
        exact Wr.write cap _ _
    · rw [dictStep_close cap _ _ (by simp only; omega)]
      refine ⟨_, rfl, ?_, ?_⟩
      · simp [dictEnd, write_inp]
      · exact (Wr.write cap { st with inp := r } [0x90]).inp_left
  | .last w₁ c w₂ =>
    intro f st r n s hin hf he hset
    rw [Items.ok] at h
    rw [Items.text] at hin
    obtain ⟨st', g, _, e2, e3, e1⟩ := dict_round stod cap (parsesTo c h.2.1) f st ⟨n + 1, true, false, s⟩ w₁ w₂ 125 r
      h.1 h.2.2 (by rw [hin]; simp) rfl rfl hf he
    rw [e1, Items.code, dictStep_close cap _ _ (by simp only; omega)]
    refine ⟨_, rfl, ?_, ?_⟩
    · simp [dictEnd, write_inp, e2]
    · exact e3.trans (Wr.write cap st' [0x90])
  | .more w₁ c w₂ rest =>
    intro f st r n s hin hf he hset
    rw [Items.ok] at h
    rw [Items.text] at hin
    have hlen := congrArg List.length hin
    simp only [List.length_append, List.length_cons] at hlen
    obtain ⟨st', g, hg, e2, e3, e1⟩ := dict_round stod cap (parsesTo c h.2.1) f st ⟨n + 1, true, false, s⟩ w₁ w₂ 44
      (rest.text ++ 125 :: r) h.1 h.2.2.1 (by rw [hin]; simp) rfl rfl hf he
    rw [e1, Items.code, dictStep_comma cap _ _ (by simp only; omega) rfl]
    obtain ⟨st'', e4, e5, e6⟩ := set_rest rest h.2.2.2 g st' r (n + 1) s e2
      (by rw [e2]; simp only [List.length_append, List.length_cons]; omega) (by rw [e3.err]; exact he)
      (keep_set cap e3 hset)
    refine ⟨st'', e4, e5, ?_⟩
    rw [List.append_assoc]
    exact e3.trans e6

/-- A whole set, behind the opening brace. -/
theorem set_items (it : Items) (h : it.ok stod) (hne : it.nonempty) : ∀ (f : Nat) (st : St) (r : List Nat),
    st.inp = it.text ++ 125 :: r → 2 * st.inp.length + 2 ≤ f → st.err = false →
    ∃ st', dictLoop stod cap f (write cap (write cap st [125]) [40]) ⟨0, false, true, st.out.length⟩ = .ok st'
      ∧ st'.inp = r ∧ Wr cap st ([0x8f, 40] ++ (it.code stod ++ [0x90])) st' := by
  match it with
  | .nil w => exact absurd hne (by simp [Items.nonempty])
  | .last w₁ c w₂ =>
    intro f st r hin hf he
    rw [Items.ok] at h
    rw [Items.text] at hin
    have hw := wr_start cap st 125
    obtain ⟨st', g, _, e2, e3, e1⟩ := dict_round stod cap (parsesTo c h.2.1) f
      (write cap (write cap st [125]) [40]) ⟨0, false, true, st.out.length⟩ w₁ w₂ 125 r
      h.1 h.2.2 (by rw [write_inp, write_inp, hin]; simp) rfl rfl (by rw [write_inp, write_inp]; exact hf)
      (by rw [hw.err]; exact he)
    rw [e1, Items.code, dictStep_close_one cap _ _ rfl (by rw [e3.err, hw.err]; exact he)]
    refine ⟨_, rfl, ?_, ?_⟩
    · simp [dictEnd, write_inp, patch_inp, e2]
    · have hp : Wr cap st (0x8f :: ([40] ++ c.code stod)) (patch cap st' st.out.length) :=
        Wr.patch cap (hw.trans e3)
      have h9 := hp.trans (Wr.write cap (patch cap st' st.out.length) [0x90])
      exact h9
  | .more w₁ c w₂ rest =>
    intro f st r hin hf he
    rw [Items.ok] at h
    rw [Items.text] at hin
    have hlen := congrArg List.length hin
    simp only [List.length_append, List.length_cons] at hlen
    have hw := wr_start cap st 125
    obtain ⟨st', g, hg, e2, e3, e1⟩ := dict_round stod cap (parsesTo c h.2.1) f
      (write cap (write cap st [125]) [40]) ⟨0, false, true, st.out.length⟩ w₁ w₂ 44 (rest.text ++ 125 :: r)
      h.1 h.2.2.1 (by rw [write_inp, write_inp, hin]; simp) rfl rfl (by rw [write_inp, write_inp]; exact hf)
      (by rw [hw.err]; exact he)
    have he' : st'.err = false := by rw [e3.err, hw.err]; exact he
    rw [e1, Items.code, dictStep_comma_one cap _ _ rfl he']
    have hp : Wr cap st (0x8f :: ([40] ++ c.code stod)) (patch cap st' st.out.length) :=
      Wr.patch cap (hw.trans e3)
    have hset : (patch cap st' st.out.length).ovf = false →
        (patch cap st' st.out.length).out[st.out.length]? = some 0x8f ∧ st.out.length < cap := by
      intro ho
      cases ho' : st.ovf with
      | true => rw [hp.ovf ho'] at ho; simp at ho
      | false =>
        by_cases hfit : st.out.length + (0x8f :: ([40] ++ c.code stod)).length ≤ cap
        · rw [(hp.fit ho' hfit).1]
          simp only [List.length_cons] at hfit
          exact ⟨by simp, by omega⟩
        · rw [hp.nofit ho' (by omega)] at ho; simp at ho
    obtain ⟨st'', e4, e5, e6⟩ := set_rest rest h.2.2.2 g (patch cap st' st.out.length) r 0 st.out.length
      (by rw [patch_inp, e2])
      (by rw [patch_inp, e2]; simp only [List.length_append, List.length_cons]; omega) (by rw [patch_err]; exact he')
      hset
    refine ⟨st'', e4, e5, ?_⟩
    have := hp.trans e6
    simpa using this

/-- The items of a dict; `n` pairs were parsed before. -/
theorem dict_items (it : DItems) (h : it.ok stod) : ∀ (f : Nat) (st : St) (r : List Nat) (n s : Nat),
    st.inp = it.text ++ 125 :: r → 2 * st.inp.length + 2 ≤ f → st.err = false →
    ∃ st', dictLoop stod cap f st ⟨2 * n, false, true, s⟩ = .ok st' ∧ st'.inp = r
      ∧ Wr cap st (it.code stod ++ [117]) st' := by
  match it with
  | .nil w =>
    intro f st r n s hin hf he
    rw [DItems.ok] at h
    rw [DItems.text] at hin
    obtain ⟨g, _, e1⟩ := dict_noround stod cap f st ⟨2 * n, false, true, s⟩ w r h hin hf
    rw [e1, DItems.code, List.nil_append, dictStep_close cap _ _ (by simp only; omega)]
    refine ⟨_, rfl, ?_, ?_⟩
    · simp [dictEnd, write_inp]
    · simp only [dictEnd]
      rw [if_neg (by simp)]
      exact (Wr.write cap { st with inp := r } [117]).inp_left
  | .last w₁ k w₂ w₃ v w₄ =>
    intro f st r n s hin hf he
    rw [DItems.ok] at h
    rw [DItems.text] at hin
    obtain ⟨h1, hk, _, h2, h3, hv, h4⟩ := h
    have hlen := congrArg List.length hin
    simp only [List.length_append, List.length_cons] at hlen
    obtain ⟨st', g, hg, e2, e3, e1⟩ := dict_round stod cap (parsesTo k hk) f st ⟨2 * n, false, true, s⟩ w₁ w₂ 58
      (w₃ ++ v.text ++ w₄ ++ 125 :: r) h1 h2 (by rw [hin]; simp) rfl rfl hf he
    rw [e1, dictStep_colon cap _ _ rfl rfl]
    obtain ⟨st'', g', hg', e5, e6, e4⟩ := dict_round stod cap (parsesTo v hv) g st' ⟨2 * n + 1, false, false, s⟩
      w₃ w₄ 125 r h3 h4 (by rw [e2]; simp) rfl rfl
      (by rw [e2]; simp only [List.length_append, List.length_cons, List.length_nil]; omega) (by rw [e3.err]; exact he)
    refine ⟨dictEnd cap st'' ⟨2 * n + 1 + 1, false, false, s⟩, ?_, ?_, ?_⟩
    · simp only
      rw [e4, dictStep_close cap _ _ (by simp only; omega)]
    · simp only [dictEnd]
      rw [if_neg (by simp; omega), write_inp, e5]
    · rw [DItems.code]
      simp only [dictEnd]
      rw [if_neg (by simp; omega)]
      exact (e3.trans e6).trans (Wr.write cap st'' [117])
  | .more w₁ k w₂ w₃ v w₄ rest =>
    intro f st r n s hin hf he
    rw [DItems.ok] at h
    rw [DItems.text] at hin
    obtain ⟨h1, hk, _, h2, h3, hv, h4, hrest⟩ := h
    have hlen := congrArg List.length hin
    simp only [List.length_append, List.length_cons] at hlen
    obtain ⟨st', g, hg, e2, e3, e1⟩ := dict_round stod cap (parsesTo k hk) f st ⟨2 * n, false, true, s⟩ w₁ w₂ 58
      (w₃ ++ v.text ++ w₄ ++ 44 :: (rest.text ++ 125 :: r)) h1 h2 (by rw [hin]; simp) rfl rfl hf he
    rw [e1, dictStep_colon cap _ _ rfl rfl]
    obtain ⟨st'', g', hg', e5, e6, e4⟩ := dict_round stod cap (parsesTo v hv) g st' ⟨2 * n + 1, false, false, s⟩
      w₃ w₄ 44 (rest.text ++ 125 :: r) h3 h4 (by rw [e2]; simp) rfl rfl
      (by rw [e2]; simp only [List.length_append, List.length_cons, List.length_nil]; omega) (by rw [e3.err]; exact he)
    obtain ⟨st3, e7, e8, e9⟩ := dict_items rest hrest g' st'' r (n + 1) s e5
      (by rw [e5]; simp only [List.length_append, List.length_cons]; omega) (by rw [e6.err, e3.err]; exact he)
    refine ⟨st3, ?_, e8, ?_⟩
    · simp only
      rw [e4, dictStep_comma cap _ _ (by simp only; omega) rfl]
      exact e7
    · rw [DItems.code, List.append_assoc]
      exact (e3.trans e6).trans e9

end

end Verif.PyPickle
