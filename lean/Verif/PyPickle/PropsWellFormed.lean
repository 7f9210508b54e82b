import Verif.PyPickle.PropsSound
/-
C82: for every input, what the converter returns is a pickle which `pickle.loads` can read to its end; and nothing is
written behind the end of the buffer.
-/
namespace Verif.PyPickle

open Verif.Py

variable (stod : List Nat → Option Nat) (cap : Nat)

/-! ### Running opcodes -/

/-- Running `code` raises `e`, whatever is on the stack. -/
def Fails (code : List Nat) (e : PErr) : Prop :=
  ∃ n, n ≤ code.length ∧ ∀ (f : Nat) (rest : List Nat) (stack : List Value) (marks : List (List Value)),
    pickleRun (f + n) ⟨code ++ rest, stack, marks⟩ = .error e

theorem Fails.append {c1 : List Nat} {e : PErr} (h : Fails c1 e) (c2 : List Nat) : Fails (c1 ++ c2) e := by
  obtain ⟨n, hn, h⟩ := h
  refine ⟨n, by rw [List.length_append]; omega, ?_⟩
  intro f rest stack marks
  rw [List.append_assoc, h]

theorem Fails.after {c1 c2 : List Nat} {v : List Value} {e : PErr} (h1 : Loads c1 v) (h2 : Fails c2 e) :
    Fails (c1 ++ c2) e := by
  obtain ⟨n1, l1, h1⟩ := h1
  obtain ⟨n2, l2, h2⟩ := h2
  refine ⟨n1 + n2, by rw [List.length_append]; omega, ?_⟩
  intro f rest stack marks
  rw [List.append_assoc, show f + (n1 + n2) = f + n2 + n1 by omega, h1, h2]

/-- `code` pushes `n` objects, or raises one of the errors which depend on the values. -/
def Runs (code : List Nat) (n : Nat) : Prop :=
  (∃ vs, vs.length = n ∧ Loads code vs) ∨ Fails code .unicode ∨ Fails code .unhashable

theorem Runs.append {c1 c2 : List Nat} {n1 n2 : Nat} (h1 : Runs c1 n1) (h2 : Runs c2 n2) : Runs (c1 ++ c2) (n1 + n2) := by
  rcases h1 with ⟨v1, l1, h1⟩ | h1 | h1
  · rcases h2 with ⟨v2, l2, h2⟩ | h2 | h2
    · exact Or.inl ⟨v1 ++ v2, by rw [List.length_append, l1, l2], h1.append h2⟩
    · exact Or.inr (Or.inl (Fails.after h1 h2))
    · exact Or.inr (Or.inr (Fails.after h1 h2))
  · exact Or.inr (Or.inl (h1.append _))
  · exact Or.inr (Or.inr (h1.append _))

theorem runs_float (bits : Nat) : Runs (floatCode bits) 1 := by
  refine Or.inl ⟨[.float (leVal (leBytes 8 bits))], rfl, 1, by rw [floatCode_length]; omega, ?_⟩
  intro f rest stack marks
  unfold floatCode
  have : pickleOp 71 ⟨(leBytes 8 bits).reverse ++ rest, stack, marks⟩
      = loadNum 8 (fun b => .float (leVal b.reverse)) ⟨(leBytes 8 bits).reverse ++ rest, stack, marks⟩ := rfl
  rw [List.cons_append, pickleRun_op 71 (by decide), this,
    loadNum_ok 8 _ _ _ (by rw [List.length_reverse, leBytes_length])]
  simp only [List.reverse_reverse]
  rfl

theorem loadStr_bad (n : Nat) (h b rest : List Nat) (hh : h.length = n) (hb : leVal h = b.length)
    (hu : utf8Decode b = none) (stack : List Value) (marks : List (List Value)) :
    loadStr n ⟨h ++ (b ++ rest), stack, marks⟩ = .error .unicode := by
  unfold loadStr
  simp only [readN_append' h (b ++ rest) hh, hb, readN_append b rest, hu]

theorem runs_str (b : List Nat) (hlen : b.length < 2 ^ 64) : Runs (strHeader b.length ++ b) 1 := by
  cases hu : utf8Decode b with
  | some cps => exact Or.inl ⟨_, rfl, loads_str b cps hlen hu⟩
  | none =>
    refine Or.inr (Or.inl ⟨1, ?_, ?_⟩)
    · have := strHeader_length b.length
      rw [List.length_append]
      unfold strSize at this
      split at this
      · omega
      · split at this <;> omega
    · intro f rest stack marks
      rw [List.append_assoc]
      unfold strHeader
      by_cases h1 : b.length ≤ 0xff
      · rw [if_pos h1, List.cons_append, pickleRun_op 0x8c (by decide)]
        have : pickleOp 0x8c ⟨leBytes 1 b.length ++ (b ++ rest), stack, marks⟩
            = loadStr 1 ⟨leBytes 1 b.length ++ (b ++ rest), stack, marks⟩ := rfl
        rw [this, loadStr_bad 1 _ b rest (leBytes_length _ _) (by rw [leVal_leBytes]; omega) hu]
      · rw [if_neg h1]
        by_cases h2 : b.length ≤ 0xffffffff
        · rw [if_pos h2, List.cons_append, pickleRun_op 88 (by decide)]
          have : pickleOp 88 ⟨leBytes 4 b.length ++ (b ++ rest), stack, marks⟩
              = loadStr 4 ⟨leBytes 4 b.length ++ (b ++ rest), stack, marks⟩ := rfl
          rw [this, loadStr_bad 4 _ b rest (leBytes_length _ _)
            (by rw [leVal_leBytes]; exact Nat.mod_eq_of_lt (Nat.lt_of_le_of_lt h2 (by norm_num))) hu]
        · rw [if_neg h2, List.cons_append, pickleRun_op 0x8d (by decide)]
          have : pickleOp 0x8d ⟨leBytes 8 b.length ++ (b ++ rest), stack, marks⟩
              = loadStr 8 ⟨leBytes 8 b.length ++ (b ++ rest), stack, marks⟩ := pickleOp_8d _
          rw [this, loadStr_bad 8 _ b rest (leBytes_length _ _)
            (by rw [leVal_leBytes]; exact Nat.mod_eq_of_lt (Nat.lt_of_lt_of_le hlen (by norm_num))) hu]

/-- A container whose items raise an error. -/
theorem fails_container (a z : Nat) (code : List Nat) (e : PErr) (empty : Value)
    (ha : a ≠ 46 ∧ ∀ (s : PSt), pickleOp a s = .ok { s with stack := empty :: s.stack })
    (hc : Fails code e) : Fails ([a, 40] ++ code ++ [z]) e := by
  obtain ⟨n, hn, hc⟩ := hc
  refine ⟨n + 2, by simp; omega, ?_⟩
  intro f rest stack marks
  have e : ([a, 40] ++ code ++ [z] ++ rest : List Nat) = a :: 40 :: (code ++ (z :: rest)) := by simp
  rw [e, show f + (n + 2) = f + n + 1 + 1 by omega, pickleRun_op a ha.1, ha.2]
  simp only
  rw [pickleRun_op 40 (by decide)]
  have h40 : pickleOp 40 ⟨code ++ z :: rest, empty :: stack, marks⟩
      = .ok ⟨code ++ z :: rest, [], (empty :: stack) :: marks⟩ := rfl
  rw [h40]
  simp only
  rw [hc]

/-- A container whose items cannot be added. -/
theorem fails_items (a z : Nat) (code : List Nat) (items : List Value) (e : PErr) (empty : Value)
    (hz : z = 101 ∨ z = 117 ∨ z = 0x90)
    (ha : a ≠ 46 ∧ ∀ (s : PSt), pickleOp a s = .ok { s with stack := empty :: s.stack })
    (hc : Loads code items)
    (hload : ∀ (inp : List Nat) (stack : List Value) (marks : List (List Value)),
      loadItems z ⟨inp, items.reverse, (empty :: stack) :: marks⟩ = .error e) :
    Fails ([a, 40] ++ code ++ [z]) e := by
  obtain ⟨n, hn, hc⟩ := hc
  refine ⟨n + 3, by simp; omega, ?_⟩
  intro f rest stack marks
  have e : ([a, 40] ++ code ++ [z] ++ rest : List Nat) = a :: 40 :: (code ++ (z :: rest)) := by simp
  rw [e, show f + (n + 3) = f + 1 + n + 1 + 1 by omega, pickleRun_op a ha.1, ha.2]
  simp only
  rw [pickleRun_op 40 (by decide)]
  have h40 : pickleOp 40 ⟨code ++ z :: rest, empty :: stack, marks⟩
      = .ok ⟨code ++ z :: rest, [], (empty :: stack) :: marks⟩ := rfl
  rw [h40]
  simp only
  rw [hc, List.append_nil]
  have hz46 : z ≠ 46 := by rcases hz with rfl | rfl | rfl <;> decide
  have hzop : pickleOp z ⟨rest, items.reverse, (empty :: stack) :: marks⟩
      = loadItems z ⟨rest, items.reverse, (empty :: stack) :: marks⟩ := by
    rcases hz with rfl | rfl | rfl <;> rfl
  rw [pickleRun_op z hz46, hzop, hload]

theorem op_list : (93 : Nat) ≠ 46 ∧ ∀ s : PSt, pickleOp 93 s = .ok { s with stack := .list [] :: s.stack } :=
  ⟨by decide, fun _ => rfl⟩

theorem op_set : (0x8f : Nat) ≠ 46 ∧ ∀ s : PSt, pickleOp 0x8f s = .ok { s with stack := .set [] :: s.stack } :=
  ⟨by decide, fun _ => rfl⟩

theorem op_dict : (125 : Nat) ≠ 46 ∧ ∀ s : PSt, pickleOp 125 s = .ok { s with stack := .dict [] :: s.stack } :=
  ⟨by decide, fun _ => rfl⟩

theorem pairs_even : ∀ (n : Nat) (l : List Value), l.length = 2 * n → ∃ ps, pairs l = some ps
  | 0, [], _ => ⟨[], rfl⟩
  | n + 1, a :: b :: r, h => by
    obtain ⟨ps, hp⟩ := pairs_even n r (by simp at h; omega)
    exact ⟨(a, b) :: ps, by rw [pairs, hp]; rfl⟩
  | n + 1, [], h => by simp at h
  | n + 1, [_], h => by simp at h; omega

mutual

theorem runs_code {code : List Nat} (h : Code code) : Runs code 1 := by
  match h with
  | .none => exact Or.inl ⟨_, rfl, loads_none⟩
  | .int v => exact Or.inl ⟨_, rfl, loads_int v⟩
  | .float bits => exact runs_float bits
  | .str b hb => exact runs_str b hb
  | .list n c hc =>
    rcases runs_codes hc with ⟨vs, hvs, hl⟩ | hf | hf
    · refine Or.inl ⟨[.list vs], rfl, loads_container 93 101 c vs (.list []) _ (Or.inl rfl) op_list hl ?_⟩
      intro inp stack marks
      simp [loadItems]
    · exact Or.inr (Or.inl (fails_container 93 101 c _ _ op_list hf))
    · exact Or.inr (Or.inr (fails_container 93 101 c _ _ op_list hf))
  | .set n c hc =>
    rcases runs_codes hc with ⟨vs, hvs, hl⟩ | hf | hf
    · by_cases hh : vs.all Value.hashable = true
      · refine Or.inl ⟨[.set vs], rfl, loads_container 0x8f 0x90 c vs (.set []) _ (Or.inr (Or.inr rfl)) op_set hl ?_⟩
        intro inp stack marks
        unfold loadItems
        simp only [List.reverse_reverse, if_pos hh]
        rfl
      · refine Or.inr (Or.inr (fails_items 0x8f 0x90 c vs _ (.set []) (Or.inr (Or.inr rfl)) op_set hl ?_))
        intro inp stack marks
        unfold loadItems
        simp only [List.reverse_reverse, if_neg hh]
        rfl
    · exact Or.inr (Or.inl (fails_container 0x8f 0x90 c _ _ op_set hf))
    · exact Or.inr (Or.inr (fails_container 0x8f 0x90 c _ _ op_set hf))
  | .dict n c hc =>
    rcases runs_codes hc with ⟨vs, hvs, hl⟩ | hf | hf
    · obtain ⟨ps, hps⟩ := pairs_even n vs hvs
      by_cases hh : ps.all (fun p => p.1.hashable) = true
      · refine Or.inl ⟨[.dict ps], rfl, loads_container 125 117 c vs (.dict []) _ (Or.inr (Or.inl rfl)) op_dict hl ?_⟩
        intro inp stack marks
        unfold loadItems
        simp only [List.reverse_reverse, hps, if_pos hh]
        rfl
      · refine Or.inr (Or.inr (fails_items 125 117 c vs _ (.dict []) (Or.inr (Or.inl rfl)) op_dict hl ?_))
        intro inp stack marks
        unfold loadItems
        simp only [List.reverse_reverse, hps, if_neg hh]
        rfl
    · exact Or.inr (Or.inl (fails_container 125 117 c _ _ op_dict hf))
    · exact Or.inr (Or.inr (fails_container 125 117 c _ _ op_dict hf))

theorem runs_codes {n : Nat} {c : List Nat} (h : Codes n c) : Runs c n := by
  match h with
  | .nil => exact Or.inl ⟨[], rfl, Loads.nil⟩
  | .snoc n c x hc hx => exact (runs_codes hc).append (runs_code hx)

end

/-- `PROTO`, one object, `STOP`, and anything: `pickle.loads` reads it. -/
theorem loads_code (code pad : List Nat) (h : Code code) :
    (∃ v, loads ([0x80, 3] ++ code ++ [46] ++ pad) = .ok v)
      ∨ loads ([0x80, 3] ++ code ++ [46] ++ pad) = .error .unicode
      ∨ loads ([0x80, 3] ++ code ++ [46] ++ pad) = .error .unhashable := by
  have e : ([0x80, 3] ++ code ++ [46] ++ pad : List Nat) = 0x80 :: 3 :: (code ++ (46 :: pad)) := by simp
  have hL : (0x80 :: 3 :: (code ++ (46 :: pad)) : List Nat).length + 1 = code.length + pad.length + 4 := by simp; omega
  have hproto : pickleOp 0x80 ⟨3 :: (code ++ (46 :: pad)), [], []⟩ = .ok ⟨code ++ (46 :: pad), [], []⟩ := rfl
  have hrun : loads ([0x80, 3] ++ code ++ [46] ++ pad)
      = pickleRun (code.length + pad.length + 3) ⟨code ++ (46 :: pad), [], []⟩ := by
    unfold loads
    rw [e, hL, pickleRun_op 0x80 (by decide), hproto]
  rw [hrun]
  rcases runs_code h with ⟨vs, hvs, n, hn, hl⟩ | ⟨n, hn, hl⟩ | ⟨n, hn, hl⟩
  · left
    obtain ⟨k, hk⟩ : ∃ k, code.length + pad.length + 3 = k + 1 + n := ⟨code.length + pad.length + 2 - n, by omega⟩
    match vs, hvs with
    | [v], _ =>
      refine ⟨v, ?_⟩
      rw [hk, hl, pickleRun]
      rfl
  · right; left
    rw [show code.length + pad.length + 3 = (code.length + pad.length + 3 - n) + n by omega, hl]
  · right; right
    rw [show code.length + pad.length + 3 = (code.length + pad.length + 3 - n) + n by omega, hl]

/-- C82: whatever text the converter accepts, its output is a well formed pickle: loading it gives an object, or fails
because a string is not UTF-8 or a key is not hashable; never because the pickle is broken. -/
theorem accepted_well_formed (inp b : List Nat) (hlen : inp.length < 2 ^ 62) (h : pyToPickle stod inp = .ok b) :
    (∃ v, loads b = .ok v) ∨ loads b = .error .unicode ∨ loads b = .error .unhashable := by
  unfold pyToPickle pyToPickleC at h
  simp only at h
  generalize hcap : inp.length + 1000 = cap at h
  cases hf : fullPass stod cap inp with
  | error e => rw [hf] at h; simp at h
  | ok st =>
    rw [hf] at h
    simp only at h
    have hclean : Clean st := by
      unfold Clean
      cases he : st.err <;> cases ho : st.ovf <;> simp [he, ho] at h ⊢
    have hb : b = st.out ++ List.replicate (cap - st.out.length) 0 := by
      simp only [hclean.1, hclean.2] at h
      simpa using h.symm
    unfold fullPass at hf
    cases hp : parse stod cap (fuel inp) false (write cap (write cap ⟨inp, [], false, false⟩ [0x80]) [3]) with
    | error e => rw [hp] at hf; simp at hf
    | ok x =>
      obtain ⟨c, had, st1⟩ := x
      rw [hp] at hf
      simp only at hf
      cases had with
      | false =>
        simp only [Bool.not_false, if_true, Except.ok.injEq] at hf
        rw [← hf] at hclean
        exact absurd hclean (not_clean_parseError _)
      | true =>
        simp only [Bool.not_true, Bool.false_eq_true, if_false, Except.ok.injEq] at hf
        rw [← hf] at hclean
        obtain ⟨k1, e1⟩ := write_clean cap _ _ hclean
        obtain ⟨k2, k3⟩ := (sound stod cap (fuel inp)).1 false _ c true st1
          (by rw [write_inp, write_inp]; exact Nat.le_refl _) (by rw [write_inp, write_inp]; exact hlen) hp k1
        rcases k3 with ⟨e2, _⟩ | ⟨_, _, code, hc, e2⟩
        · simp at e2
        · obtain ⟨k4, e3⟩ := write_clean cap _ _ k2
          obtain ⟨k5, e4⟩ := write_clean cap _ _ k4
          have := loads_code code (List.replicate (cap - (write cap st1 [46]).out.length) 0) hc
          have e5 : ([0x80, 3] ++ code ++ [46] : List Nat) = (write cap st1 [46]).out := by
            rw [e1, e2, e3, e4]; simp
          rw [e5, hf, ← hb] at this
          exact this

/-! ### The buffer -/

/-- What is written fits into the buffer. -/
def Fit (st : St) : Prop := st.out.length ≤ cap

theorem write_fit (st : St) (d : List Nat) (h : Fit cap st) : Fit cap (write cap st d) := by
  unfold write
  split
  · exact h
  · unfold Fit; simp only [List.length_append]; omega

theorem patch_fit (st : St) (s : Nat) (h : Fit cap st) : Fit cap (patch cap st s) := by
  unfold patch
  split
  · exact h
  · unfold Fit; simp only [List.length_set]; exact h

theorem maybeSet_fit (st : St) (d : DSt) (h : Fit cap st) : Fit cap (maybeSet cap st d).2.1 := by
  unfold maybeSet
  split
  · unfold makeSet
    split
    · exact h
    · exact patch_fit cap st d.start h
  · exact h

theorem dictStep_fit (c : Option Nat) (st : St) (d : DSt) (h : Fit cap st) : Fit cap (dictStep cap c st d).st := by
  have hm := maybeSet_fit cap st d h
  unfold dictStep
  split
  · split
    · rename_i hs; rw [hs] at hm; exact hm
    · rename_i hs
      rw [hs] at hm
      split <;> exact hm
  · split
    · exact h
    · split <;> exact h
  · split
    · rename_i hs; rw [hs] at hm; exact hm
    · rename_i hs
      rw [hs] at hm
      unfold dictEnd
      split
      · exact hm
      · exact write_fit cap _ _ hm
  · exact h

theorem parseStr_fit (st : St) (q : Nat) (h : Fit cap st) : Fit cap (parseStr cap st q) := by
  unfold parseStr
  split
  · exact h
  · exact write_fit cap _ _ (write_fit cap _ _ h)

theorem parseNone_fit (st : St) (h : Fit cap st) : Fit cap (parseNone cap st) := by
  have he := expect_out [111, 110, 101] st
  unfold parseNone
  split
  · rename_i hs; rw [hs] at he; exact write_fit cap _ _ (by unfold Fit at h ⊢; rw [he.1]; exact h)
  · rename_i hs; rw [hs] at he; unfold Fit at h ⊢; unfold parseError; simp only at he ⊢; rw [he.1]; exact h

theorem parseNum_fit (st : St) (first : Nat) (c : Option Nat) (st' : St) (h : Fit cap st)
    (hp : parseNum stod cap st first = .ok (c, st')) : Fit cap st' := by
  unfold parseNum at hp
  split at hp
  rename_i buf x r hn
  cases hcode : numCode stod first buf with
  | error e => rw [hcode] at hp; simp at hp
  | ok code =>
    rw [hcode] at hp
    simp only [Except.ok.injEq, Prod.mk.injEq] at hp
    rw [← hp.2]
    exact write_fit cap _ _ h

theorem fits (f : Nat) :
    (∀ had st c had' st', Fit cap st → parse stod cap f had st = .ok (c, had', st') → Fit cap st')
    ∧ (∀ st st', Fit cap st → listLoop stod cap f st = .ok st' → Fit cap st')
    ∧ (∀ st d st', Fit cap st → dictLoop stod cap f st d = .ok st' → Fit cap st') := by
  induction f with
  | zero =>
    refine ⟨?_, ?_, ?_⟩
    · intro had st c had' st' _ h; simp [parse] at h
    · intro st st' _ h; simp [listLoop] at h
    · intro st d st' _ h; simp [dictLoop] at h
  | succ f ih =>
    obtain ⟨ihP, ihL, ihD⟩ := ih
    refine ⟨?_, ?_, ?_⟩
    · intro had st c0 had' st' hst h
      rw [parse] at h
      cases hi : st.inp with
      | nil =>
        rw [hi] at h
        simp only [Except.ok.injEq, Prod.mk.injEq] at h
        rw [← h.2.2]; exact hst
      | cons c r =>
        rw [hi] at h
        simp only at h
        have hst1 : Fit cap { st with inp := r } := hst
        split at h
        · exact ihP _ _ _ _ _ hst1 h
        split at h
        · simp only [Except.ok.injEq, Prod.mk.injEq] at h
          rw [← h.2.2]; exact hst
        split at h
        · exact ihP _ _ _ _ _ (parseStr_fit cap _ _ hst1) h
        split at h
        · split at h
          · simp at h
          · rename_i st2 hl
            exact ihP _ _ _ _ _ (ihL _ _ (write_fit cap _ _ (write_fit cap _ _ hst1)) hl) h
        split at h
        · split at h
          · simp at h
          · rename_i st2 hl
            exact ihP _ _ _ _ _ (ihD _ _ _ (write_fit cap _ _ (write_fit cap _ _ hst1)) hl) h
        split at h
        · split at h
          · simp at h
          · rename_i st2 hl
            simp only [Except.ok.injEq, Prod.mk.injEq] at h
            rw [← h.2.2]; exact parseNum_fit stod cap _ _ _ _ hst1 hl
          · rename_i x st2 hl
            have := parseNum_fit stod cap _ _ _ _ hst1 hl
            split at h
            · exact ihP _ _ _ _ _ this h
            · simp only [Except.ok.injEq, Prod.mk.injEq] at h
              rw [← h.2.2]; exact this
        split at h
        · exact ihP _ _ _ _ _ (parseNone_fit cap _ hst1) h
        · simp only [Except.ok.injEq, Prod.mk.injEq] at h
          rw [← h.2.2]; exact hst
    · intro st st' hst h
      rw [listLoop] at h
      split at h
      · simp at h
      · rename_i c had st1 hp
        have h1 := ihP _ _ _ _ _ hst hp
        split at h
        · exact ihL _ _ h1 h
        · split at h
          · simp only [Except.ok.injEq] at h
            rw [← h]; exact write_fit cap _ _ h1
          · simp only [Except.ok.injEq] at h
            rw [← h]; exact h1
    · intro st d st' hst h
      rw [dictLoop] at h
      split at h
      · simp at h
      · rename_i c had st1 hp
        have h1 := ihP _ _ _ _ _ hst hp
        have h2 := dictStep_fit cap c st1 { d with count := if had then d.count + 1 else d.count } h1
        split at h
        · rename_i st2 hs
          rw [hs] at h2
          simp only [Except.ok.injEq] at h
          rw [← h]; exact h2
        · rename_i st2 d2 hs
          rw [hs] at h2
          exact ihD _ _ _ h2 h

/-- C82: the converter never writes more than the buffer holds, for every text and every size of the buffer. -/
theorem within_buffer (inp : List Nat) (res : Nat) (out : List Nat) (h : pyToPickleC stod inp cap = .ok (res, out)) :
    out.length ≤ cap := by
  unfold pyToPickleC at h
  cases hf : fullPass stod cap inp with
  | error e => rw [hf] at h; simp at h
  | ok st =>
    rw [hf] at h
    simp only [Except.ok.injEq, Prod.mk.injEq] at h
    rw [← h.2]
    unfold fullPass at hf
    split at hf
    · simp at hf
    · rename_i c had st1 hp
      have h1 := (fits stod cap (fuel inp)).1 _ _ _ _ _ (write_fit cap _ _ (write_fit cap _ _ (by simp [Fit]))) hp
      split at hf
      · simp only [Except.ok.injEq] at hf; rw [← hf]; exact h1
      · simp only [Except.ok.injEq] at hf; rw [← hf]; exact write_fit cap _ _ h1

end Verif.PyPickle
