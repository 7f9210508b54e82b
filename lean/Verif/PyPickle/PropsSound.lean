import Verif.PyPickle.PropsTotal
/-
What the converter accepts is a well formed pickle, for every input.
-/
namespace Verif.PyPickle

open Verif.Py

variable (stod : List Nat → Option Nat) (cap : Nat)

mutual

/-- Opcodes which push one object. -/
inductive Code : List Nat → Prop where
  | none : Code [78]
  | int (v : Int) : Code (intCode v)
  | float (bits : Nat) : Code (floatCode bits)
  | str (b : List Nat) (h : b.length < 2 ^ 64) : Code (strHeader b.length ++ b)
  | list (n : Nat) (c : List Nat) (h : Codes n c) : Code ([93, 40] ++ c ++ [101])
  | set (n : Nat) (c : List Nat) (h : Codes n c) : Code ([0x8f, 40] ++ c ++ [0x90])
  | dict (n : Nat) (c : List Nat) (h : Codes (2 * n) c) : Code ([125, 40] ++ c ++ [117])

/-- Opcodes which push `n` objects. -/
inductive Codes : Nat → List Nat → Prop where
  | nil : Codes 0 []
  | snoc (n : Nat) (c x : List Nat) (h : Codes n c) (hx : Code x) : Codes (n + 1) (c ++ x)

end

/-- No error so far. -/
def Clean (st : St) : Prop := st.err = false ∧ st.ovf = false

theorem write_clean (st : St) (d : List Nat) (h : Clean (write cap st d)) :
    Clean st ∧ (write cap st d).out = st.out ++ d := by
  unfold write at h ⊢
  split at h
  · simp [Clean] at h
  · rename_i hn
    rw [if_neg hn]; exact ⟨h, rfl⟩

theorem not_clean_parseError (st : St) : ¬ Clean (parseError st) := by simp [Clean, parseError]

theorem strLoop_bound (q : Nat) : ∀ (inp : List Nat) (m : Mode) (buf b r : List Nat),
    strLoop q inp m buf = (some b, r) → b.length ≤ buf.length + 4 * inp.length := by
  intro inp
  induction inp with
  | nil => intro m buf b r h; simp [strLoop] at h
  | cons c rest ih =>
    intro m buf b r h
    simp only [List.length_cons]
    cases m with
    | direct =>
      rw [strLoop] at h
      split at h
      · simp only [Prod.mk.injEq, Option.some.injEq] at h; rw [← h.1]; omega
      · split at h
        · have := ih _ _ _ _ h; omega
        · have := ih _ _ _ _ h; simp only [List.length_append, List.length_cons, List.length_nil] at this; omega
    | init =>
      rw [strLoop] at h
      split at h
      · have := ih _ _ _ _ h; omega
      · split at h
        · have := ih _ _ _ _ h; simp only [List.length_append, List.length_cons, List.length_nil] at this; omega
        · simp at h
    | hex rem acc =>
      rw [strLoop] at h
      split at h
      · simp at h
      · split at h
        · split at h
          · simp at h
          · rename_i u hu
            have := ih _ _ _ _ h
            rw [List.length_append] at this
            have hu4 : u.length ≤ 4 := by
              unfold utf8Encode at hu
              split at hu
              · simp only [Option.some.injEq] at hu; rw [← hu]; simp
              · split at hu
                · simp only [Option.some.injEq] at hu; rw [← hu]; simp
                · split at hu
                  · simp only [Option.some.injEq] at hu; rw [← hu]; simp
                  · split at hu
                    · simp only [Option.some.injEq] at hu; rw [← hu]; simp
                    · simp at hu
            omega
        · have := ih _ _ _ _ h; omega

theorem parseStr_sound (st : St) (q : Nat) (hlen : st.inp.length < 2 ^ 62) (h : Clean (parseStr cap st q)) :
    Clean st ∧ ∃ code, Code code ∧ (parseStr cap st q).out = st.out ++ code := by
  unfold parseStr at h ⊢
  cases hs : strLoop q st.inp .direct [] with
  | mk o r =>
    rw [hs] at h
    cases o with
    | none => exact absurd h (not_clean_parseError _)
    | some b =>
      simp only at h ⊢
      obtain ⟨h1, e1⟩ := write_clean cap _ _ h
      obtain ⟨h2, e2⟩ := write_clean cap _ _ h1
      have hb := strLoop_bound q _ _ _ _ _ hs
      refine ⟨h2, _, Code.str b (by simp only [List.length_nil] at hb; omega), ?_⟩
      rw [e1, e2, List.append_assoc]

theorem parseNum_sound (st : St) (first : Nat) (c : Option Nat) (st' : St)
    (h : parseNum stod cap st first = .ok (c, st')) (hc : Clean st') :
    Clean st ∧ ∃ code, Code code ∧ st'.out = st.out ++ code := by
  unfold parseNum at h
  split at h
  rename_i buf c' r hn
  cases hcode : numCode stod first buf with
  | error e => rw [hcode] at h; simp at h
  | ok code =>
    rw [hcode] at h
    simp only [Except.ok.injEq, Prod.mk.injEq] at h
    obtain ⟨_, rfl⟩ := h
    obtain ⟨h1, e1⟩ := write_clean cap _ _ hc
    refine ⟨h1, code, ?_, e1⟩
    unfold numCode at hcode
    split at hcode
    · split at hcode
      · simp at hcode
      · simp only [Except.ok.injEq] at hcode; rw [← hcode]; exact Code.float _
    · split at hcode
      · simp at hcode
      · simp only [Except.ok.injEq] at hcode; rw [← hcode]; exact Code.int _

theorem expect_out : ∀ (l : List Nat) (st : St), (expect l st).2.out = st.out ∧ (expect l st).2.err = st.err
    ∧ (expect l st).2.ovf = st.ovf := by
  intro l
  induction l with
  | nil => intro st; simp [expect]
  | cons c l ih =>
    intro st
    rw [expect]
    unfold readChar
    cases hi : st.inp with
    | nil => simp
    | cons d r =>
      simp only
      split
      · exact ih { st with inp := r }
      · exact ⟨rfl, rfl, rfl⟩

theorem parseNone_sound (st : St) (h : Clean (parseNone cap st)) :
    Clean st ∧ ∃ code, Code code ∧ (parseNone cap st).out = st.out ++ code := by
  have he := expect_out [111, 110, 101] st
  unfold parseNone at h ⊢
  cases hs : expect [111, 110, 101] st with
  | mk b st1 =>
    rw [hs] at h he
    cases b with
    | false => exact absurd h (not_clean_parseError _)
    | true =>
      simp only at h ⊢
      obtain ⟨h1, e1⟩ := write_clean cap _ _ h
      refine ⟨⟨by rw [← he.2.1]; exact h1.1, by rw [← he.2.2]; exact h1.2⟩, _, Code.none, ?_⟩
      rw [e1, he.1]

/-- What is known inside of `parse_dict_or_set`: behind `pre` there are the opening opcodes and `d.count` objects. -/
def DictInv (pre : List Nat) (st : St) (d : DSt) : Prop :=
  d.start = pre.length ∧ ∃ c, Codes d.count c ∧ st.out = pre ++ ([if d.isSet then 0x8f else 125, 40] ++ c)

theorem patch_clean (st : St) (s : Nat) (h : Clean (patch cap st s)) :
    Clean st ∧ (patch cap st s).out = st.out.set s 0x8f := by
  unfold patch at h ⊢
  split at h
  · simp [Clean] at h
  · rename_i hn
    rw [if_neg hn]; exact ⟨h, rfl⟩

theorem maybeSet_sound (pre : List Nat) (st : St) (d : DSt) (h : Clean (maybeSet cap st d).2.1) :
    Clean st ∧ (DictInv pre st d → DictInv pre (maybeSet cap st d).2.1 (maybeSet cap st d).2.2) := by
  unfold maybeSet at h ⊢
  split at h
  · rename_i h1
    rw [if_pos h1]
    unfold makeSet at h ⊢
    rw [if_neg (by omega)] at h ⊢
    simp only at h ⊢
    obtain ⟨h2, e2⟩ := patch_clean cap _ _ h
    refine ⟨h2, ?_⟩
    rintro ⟨hs, c, hc, ho⟩
    refine ⟨hs, c, hc, ?_⟩
    rw [e2, ho, hs]
    simp [List.set_append]
  · rename_i h1
    rw [if_neg h1]
    exact ⟨h, fun x => x⟩

theorem dictEnd_sound (pre : List Nat) (st : St) (d : DSt) (h : Clean (dictEnd cap st d)) :
    Clean st ∧ (DictInv pre st d → ∃ code, Code code ∧ (dictEnd cap st d).out = pre ++ code) := by
  unfold dictEnd at h ⊢
  split at h
  · exact absurd h (not_clean_parseError _)
  · rename_i h1
    rw [if_neg h1]
    obtain ⟨h2, e2⟩ := write_clean cap _ _ h
    refine ⟨h2, ?_⟩
    rintro ⟨_, c, hc, ho⟩
    cases hs : d.isSet with
    | true =>
      refine ⟨_, Code.set _ _ hc, ?_⟩
      rw [hs] at e2 ho
      simp only [if_true] at e2 ho
      simp only [if_true]
      rw [e2, ho, List.append_assoc, List.append_assoc]
    | false =>
      obtain ⟨n, hn⟩ : ∃ n, d.count = 2 * n := by
        simp [hs] at h1
        exact ⟨d.count / 2, by omega⟩
      rw [hn] at hc
      refine ⟨_, Code.dict _ _ hc, ?_⟩
      rw [hs] at e2 ho
      simp only [Bool.false_eq_true, if_false] at e2 ho
      simp only [Bool.false_eq_true, if_false]
      rw [e2, ho, List.append_assoc, List.append_assoc]

theorem dictStep_sound (pre : List Nat) (c : Option Nat) (st : St) (d : DSt) (h : Clean (dictStep cap c st d).st) :
    Clean st ∧ (DictInv pre st d →
      match dictStep cap c st d with
      | .cont st' d' => DictInv pre st' d'
      | .ret st' => ∃ code, Code code ∧ st'.out = pre ++ code) := by
  have hbad : ∀ st1 : St, Clean (Next.ret (parseError st1)).st → False := fun st1 h => not_clean_parseError st1 h
  have hms := maybeSet_sound cap pre st d
  -- a clean state of `maybeSet` does not make the function return
  have hret : ∀ st1 d1, maybeSet cap st d = (true, st1, d1) → st1.err = true := by
    intro st1 d1 hm
    unfold maybeSet at hm
    split at hm
    · simp only [Prod.mk.injEq] at hm
      have e := hm.1
      rw [hm.2] at e
      exact e
    · simp at hm
  by_cases c44 : c = some 44
  · subst c44
    unfold dictStep at h ⊢
    cases hm : maybeSet cap st d with
    | mk b x =>
      obtain ⟨st1, d1⟩ := x
      rw [hm] at h hms
      cases b with
      | true =>
        have := hret st1 d1 hm
        simp only [Next.st, Clean] at h
        rw [this] at h; simp at h
      | false =>
        simp only at h ⊢
        split at h
        · exact (hbad _ h).elim
        · rename_i hk
          rw [if_neg hk]
          obtain ⟨h1, h2⟩ := hms h
          refine ⟨h1, fun hi => ?_⟩
          have := h2 hi
          simp only at this ⊢
          obtain ⟨e1, c, e2, e3⟩ := this
          by_cases hset : d1.isSet = true
          · rw [if_pos hset]; exact ⟨e1, c, e2, e3⟩
          · rw [if_neg hset]; exact ⟨e1, c, e2, e3⟩
  by_cases c58 : c = some 58
  · subst c58
    unfold dictStep at h ⊢
    simp only at h ⊢
    split at h
    · exact (hbad _ h).elim
    · rename_i hk
      split at h
      · exact (hbad _ h).elim
      · rename_i hs
        rw [if_neg hk, if_neg hs]
        exact ⟨h, fun hi => hi⟩
  by_cases c125 : c = some 125
  · subst c125
    unfold dictStep at h ⊢
    cases hm : maybeSet cap st d with
    | mk b x =>
      obtain ⟨st1, d1⟩ := x
      rw [hm] at h hms
      cases b with
      | true =>
        have := hret st1 d1 hm
        simp only [Next.st, Clean] at h
        rw [this] at h; simp at h
      | false =>
        simp only at h ⊢
        obtain ⟨h3, h4⟩ := dictEnd_sound cap pre st1 d1 h
        obtain ⟨h1, h2⟩ := hms h3
        exact ⟨h1, fun hi => h4 (h2 hi)⟩
  · have : dictStep cap c st d = .ret (parseError st) := by
      unfold dictStep
      split
      · exact absurd rfl c44
      · exact absurd rfl c58
      · exact absurd rfl c125
      · rfl
    rw [this] at h
    exact (hbad _ h).elim

/-- The parser on any input: if there is no error at the end, then there was none before, and one object was written for an
item. -/
theorem sound (f : Nat) :
    (∀ had st c had' st', 2 * st.inp.length + 1 ≤ f → st.inp.length < 2 ^ 62 →
      parse stod cap f had st = .ok (c, had', st') → Clean st' →
      Clean st ∧ ((had' = had ∧ st'.out = st.out) ∨ (had = false ∧ had' = true ∧ ∃ code, Code code ∧ st'.out = st.out ++ code)))
    ∧ (∀ st st', 2 * st.inp.length + 2 ≤ f → st.inp.length < 2 ^ 62 → listLoop stod cap f st = .ok st' → Clean st' →
      Clean st ∧ ∀ pre n c, Codes n c → st.out = pre ++ ([93, 40] ++ c) → ∃ code, Code code ∧ st'.out = pre ++ code)
    ∧ (∀ st d st', 2 * st.inp.length + 2 ≤ f → st.inp.length < 2 ^ 62 → dictLoop stod cap f st d = .ok st' → Clean st' →
      Clean st ∧ ∀ pre, DictInv pre st d → ∃ code, Code code ∧ st'.out = pre ++ code) := by
  induction f with
  | zero => exact ⟨fun _ _ _ _ _ h => by omega, fun _ _ h => by omega, fun _ _ _ h => by omega⟩
  | succ f ih =>
    obtain ⟨ihP, ihL, ihD⟩ := ih
    obtain ⟨tP, tL, tD⟩ := total stod cap f
    refine ⟨?_, ?_, ?_⟩
    · intro had st c0 had' st' hf hlen h hc
      rw [parse] at h
      cases hi : st.inp with
      | nil =>
        rw [hi] at h
        simp only [Except.ok.injEq, Prod.mk.injEq] at h
        obtain ⟨_, rfl, rfl⟩ := h
        exact ⟨hc, Or.inl ⟨rfl, rfl⟩⟩
      | cons c r =>
        rw [hi] at h
        rw [hi, List.length_cons] at hf hlen
        simp only at h
        -- behind an item
        have key : ∀ (st1 : St), st1.inp.length ≤ r.length → (Clean st1 → Clean st ∧ ∃ code, Code code ∧ st1.out = st.out ++ code) →
            parse stod cap f true st1 = .ok (c0, had', st') →
            had = false → Clean st ∧ ((had' = had ∧ st'.out = st.out) ∨
              (had = false ∧ had' = true ∧ ∃ code, Code code ∧ st'.out = st.out ++ code)) := by
          intro st1 hl h1 h2 h3
          obtain ⟨k1, k2⟩ := ihP true st1 _ _ _ (by omega) (by omega) h2 hc
          obtain ⟨k3, code, k4, k5⟩ := h1 k1
          refine ⟨k3, Or.inr ⟨h3, ?_⟩⟩
          rcases k2 with ⟨e1, e2⟩ | ⟨e1, _⟩
          · exact ⟨e1, code, k4, by rw [e2, k5]⟩
          · simp at e1
        by_cases h1 : isSpace c = true
        · rw [if_pos h1] at h
          exact ihP had { st with inp := r } _ _ _ (by simp only; omega) (by simp only; omega) h hc
        rw [if_neg h1] at h
        by_cases h2 : had = true
        · rw [if_pos h2] at h
          simp only [Except.ok.injEq, Prod.mk.injEq] at h
          obtain ⟨_, rfl, rfl⟩ := h
          exact ⟨hc, Or.inl ⟨rfl, rfl⟩⟩
        rw [if_neg h2] at h
        have h2' : had = false := by simpa using h2
        by_cases h3 : (c == 39 || c == 34) = true
        · rw [if_pos h3] at h
          exact key _ (parseStr_length cap { st with inp := r } c)
            (fun hcl => parseStr_sound cap { st with inp := r } c (by simp only; omega) hcl) h h2'
        rw [if_neg h3] at h
        by_cases h4 : (c == 91) = true
        · rw [if_pos h4] at h
          have hin : (write cap (write cap { st with inp := r } [93]) [40]).inp = r := by rw [write_inp, write_inp]
          cases hl : listLoop stod cap f (write cap (write cap { st with inp := r } [93]) [40]) with
          | error e => rw [hl] at h; simp at h
          | ok st1 =>
            rw [hl] at h
            have hlen1 := (tL _ (by rw [hin]; omega)).2 st1 hl
            rw [hin] at hlen1
            refine key st1 hlen1 ?_ h h2'
            intro hcl
            obtain ⟨k1, k2⟩ := ihL _ st1 (by rw [hin]; omega) (by rw [hin]; omega) hl hcl
            obtain ⟨k3, e3⟩ := write_clean cap _ _ k1
            obtain ⟨k4, e4⟩ := write_clean cap _ _ k3
            exact ⟨k4, k2 st.out 0 [] Codes.nil (by rw [e3, e4]; simp)⟩
        rw [if_neg h4] at h
        by_cases h5 : (c == 123) = true
        · rw [if_pos h5] at h
          have hin : (write cap (write cap { st with inp := r } [125]) [40]).inp = r := by rw [write_inp, write_inp]
          cases hl : dictLoop stod cap f (write cap (write cap { st with inp := r } [125]) [40])
              ⟨0, false, true, st.out.length⟩ with
          | error e => rw [hl] at h; simp at h
          | ok st1 =>
            rw [hl] at h
            have hlen1 := (tD _ ⟨0, false, true, st.out.length⟩ (by rw [hin]; omega)).2 st1 hl
            rw [hin] at hlen1
            refine key st1 hlen1 ?_ h h2'
            intro hcl
            obtain ⟨k1, k2⟩ := ihD _ _ st1 (by rw [hin]; omega) (by rw [hin]; omega) hl hcl
            obtain ⟨k3, e3⟩ := write_clean cap _ _ k1
            obtain ⟨k4, e4⟩ := write_clean cap _ _ k3
            exact ⟨k4, k2 st.out ⟨rfl, [], Codes.nil, by rw [e3, e4]; simp⟩⟩
        rw [if_neg h5] at h
        by_cases h6 : isNumChar c = true
        · rw [if_pos h6] at h
          cases hp : parseNum stod cap { st with inp := r } c with
          | error e => rw [hp] at h; simp at h
          | ok x =>
            obtain ⟨x, st1⟩ := x
            rw [hp] at h
            have hl := parseNum_length stod cap _ _ _ _ hp
            have hs := parseNum_sound stod cap _ _ _ _ hp
            cases x with
            | none =>
              simp only [Except.ok.injEq, Prod.mk.injEq] at h
              obtain ⟨_, rfl, rfl⟩ := h
              obtain ⟨k1, k2⟩ := hs hc
              exact ⟨k1, Or.inr ⟨h2', rfl, k2⟩⟩
            | some x =>
              simp only at h
              by_cases hsp : isSpace x = true
              · rw [if_pos hsp] at h
                exact key st1 hl.1 hs h h2'
              · rw [if_neg hsp] at h
                simp only [Except.ok.injEq, Prod.mk.injEq] at h
                obtain ⟨_, rfl, rfl⟩ := h
                obtain ⟨k1, k2⟩ := hs hc
                exact ⟨k1, Or.inr ⟨h2', rfl, k2⟩⟩
        rw [if_neg h6] at h
        by_cases h7 : (c == 78) = true
        · rw [if_pos h7] at h
          exact key _ (parseNone_length cap { st with inp := r }) (parseNone_sound cap { st with inp := r }) h h2'
        rw [if_neg h7] at h
        simp only [Except.ok.injEq, Prod.mk.injEq] at h
        obtain ⟨_, rfl, rfl⟩ := h
        exact ⟨hc, Or.inl ⟨h2'.symm, rfl⟩⟩
    · intro st st' hf hlen h hc
      rw [listLoop] at h
      cases hp : parse stod cap f false st with
      | error e => rw [hp] at h; simp at h
      | ok x =>
        obtain ⟨c, had, st1⟩ := x
        rw [hp] at h
        have hl := (tP false st (by omega)).2 c had st1 hp
        have hP := ihP false st c had st1 (by omega) hlen hp
        -- the items after this round
        have items : Clean st1 → Clean st ∧ ∀ pre n c, Codes n c → st.out = pre ++ ([93, 40] ++ c) →
            ∃ n' c', Codes n' c' ∧ st1.out = pre ++ ([93, 40] ++ c') := by
          intro hcl
          obtain ⟨k1, k2⟩ := hP hcl
          refine ⟨k1, ?_⟩
          intro pre n c hc ho
          rcases k2 with ⟨_, e⟩ | ⟨_, _, code, e1, e2⟩
          · exact ⟨n, c, hc, by rw [e, ho]⟩
          · exact ⟨n + 1, c ++ code, Codes.snoc n c code hc e1, by rw [e2, ho]; simp⟩
        simp only at h
        by_cases h1 : c = some 44
        · rw [if_pos h1] at h
          have := hl.2 (by rw [h1]; simp)
          obtain ⟨k1, k2⟩ := ihL st1 st' (by omega) (by omega) h hc
          obtain ⟨k3, k4⟩ := items k1
          refine ⟨k3, ?_⟩
          intro pre n c hcs ho
          obtain ⟨n', c', e1, e2⟩ := k4 pre n c hcs ho
          exact k2 pre n' c' e1 e2
        · rw [if_neg h1] at h
          by_cases h2 : c = some 93
          · rw [if_pos h2] at h
            simp only [Except.ok.injEq] at h
            subst h
            obtain ⟨k1, e1⟩ := write_clean cap _ _ hc
            obtain ⟨k3, k4⟩ := items k1
            refine ⟨k3, ?_⟩
            intro pre n c hcs ho
            obtain ⟨n', c', e2, e3⟩ := k4 pre n c hcs ho
            exact ⟨_, Code.list n' c' e2, by rw [e1, e3, List.append_assoc, List.append_assoc]⟩
          · rw [if_neg h2] at h
            simp only [Except.ok.injEq] at h
            rw [← h] at hc
            exact absurd hc (not_clean_parseError _)
    · intro st d st' hf hlen h hc
      rw [dictLoop] at h
      cases hp : parse stod cap f false st with
      | error e => rw [hp] at h; simp at h
      | ok x =>
        obtain ⟨c, had, st1⟩ := x
        rw [hp] at h
        have hl := (tP false st (by omega)).2 c had st1 hp
        have hP := ihP false st c had st1 (by omega) hlen hp
        simp only at h
        generalize hd1 : ({ d with count := if had then d.count + 1 else d.count } : DSt) = d1 at h
        have items : Clean st1 → Clean st ∧ ∀ pre, DictInv pre st d → DictInv pre st1 d1 := by
          intro hcl
          obtain ⟨k1, k2⟩ := hP hcl
          refine ⟨k1, ?_⟩
          rintro pre ⟨hs, c, hcs, ho⟩
          rw [← hd1]
          rcases k2 with ⟨e0, e⟩ | ⟨_, e0, code, e1, e2⟩
          · rw [e0]
            exact ⟨hs, c, hcs, by rw [e, ho]⟩
          · rw [e0]
            exact ⟨hs, c ++ code, Codes.snoc _ _ _ hcs e1, by rw [e2, ho]; simp⟩
        have hin := dictStep_inp cap c st1 d1
        have hso := fun pre => dictStep_sound cap pre c st1 d1
        cases hs : dictStep cap c st1 d1 with
        | ret st2 =>
          rw [hs] at h
          simp only [Except.ok.injEq] at h
          subst h
          rw [hs] at hso
          obtain ⟨k1, _⟩ := hso [] hc
          obtain ⟨k3, k4⟩ := items k1
          exact ⟨k3, fun pre hi => (hso pre hc).2 (k4 pre hi)⟩
        | cont st2 d2 =>
          rw [hs] at h hin hso
          simp only at h hin
          have := hl.2 hin.2
          obtain ⟨k1, k2⟩ := ihD st2 d2 st' (by rw [hin.1]; omega) (by rw [hin.1]; omega) h hc
          obtain ⟨k5, _⟩ := hso [] k1
          obtain ⟨k3, k4⟩ := items k5
          exact ⟨k3, fun pre hi => k2 pre ((hso pre k1).2 (k4 pre hi))⟩

end Verif.PyPickle
