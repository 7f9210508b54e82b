import Verif.PyPickle.Compound
import Mathlib.Tactic.NormNum
/-
`literal_eval` on literals of the supported kind.
-/
namespace Verif.PyPickle

open Verif.Py

/-! ### The pickle machine on the opcodes of a literal -/

/-- Running `code` pushes `vs`. -/
def Loads (code : List Nat) (vs : List Value) : Prop :=
  ∃ n, n ≤ code.length ∧ ∀ (f : Nat) (rest : List Nat) (stack : List Value) (marks : List (List Value)),
    pickleRun (f + n) ⟨code ++ rest, stack, marks⟩ = pickleRun f ⟨rest, vs.reverse ++ stack, marks⟩

theorem Loads.nil : Loads [] [] := ⟨0, Nat.le_refl _, fun _ _ _ _ => rfl⟩

theorem Loads.append {c1 c2 : List Nat} {v1 v2 : List Value} (h1 : Loads c1 v1) (h2 : Loads c2 v2) :
    Loads (c1 ++ c2) (v1 ++ v2) := by
  obtain ⟨n1, l1, h1⟩ := h1
  obtain ⟨n2, l2, h2⟩ := h2
  refine ⟨n1 + n2, by rw [List.length_append]; omega, ?_⟩
  intro f rest stack marks
  rw [List.append_assoc, show f + (n1 + n2) = f + n2 + n1 by omega, h1, h2, List.reverse_append, List.append_assoc]

/-- One opcode. -/
theorem pickleRun_op (op : Nat) (h : op ≠ 46) (f : Nat) (r : List Nat) (stack : List Value)
    (marks : List (List Value)) :
    pickleRun (f + 1) ⟨op :: r, stack, marks⟩
      = match pickleOp op ⟨r, stack, marks⟩ with
        | .error e => .error e
        | .ok s => pickleRun f s := by
  rw [pickleRun]
  simp only
  rw [if_neg h]
  all_goals rfl

theorem loads_none : Loads [78] [.none] := by
  refine ⟨1, by simp, ?_⟩
  intro f rest stack marks
  rw [List.singleton_append, pickleRun_op 78 (by decide)]
  rfl

theorem loadNum_ok (n : Nat) (g : List Nat → Value) (b rest : List Nat) (hb : b.length = n) (stack : List Value)
    (marks : List (List Value)) :
    loadNum n g ⟨b ++ rest, stack, marks⟩ = .ok ⟨rest, g b :: stack, marks⟩ := by
  unfold loadNum
  simp only [readN_append' b rest hb]

theorem loads_int (v : Int) : Loads (intCode v) [.int (wrap32 v)] := by
  refine ⟨1, by rw [intCode_length, intSize]; split <;> (try split) <;> omega, ?_⟩
  intro f rest stack marks
  rcases intCode_cases v with ⟨h, hv, _⟩ | ⟨a, b, h, hv, _⟩ | ⟨a, h, hv, _⟩
  · rw [h, List.cons_append, pickleRun_op 74 (by decide)]
    have : pickleOp 74 ⟨leBytes 4 (v % (2 : Int) ^ 32).toNat ++ rest, stack, marks⟩
        = loadNum 4 (fun b => .int (leInt32 b)) ⟨leBytes 4 (v % (2 : Int) ^ 32).toNat ++ rest, stack, marks⟩ := rfl
    rw [this, loadNum_ok 4 _ _ _ (leBytes_length _ _)]
    simp only [hv]
    rfl
  · rw [h]
    have : pickleOp 77 ⟨[a, b] ++ rest, stack, marks⟩
        = loadNum 2 (fun b => .int (leVal b)) ⟨[a, b] ++ rest, stack, marks⟩ := rfl
    rw [show ([77, a, b] ++ rest : List Nat) = 77 :: ([a, b] ++ rest) from rfl, pickleRun_op 77 (by decide), this,
      loadNum_ok 2 _ _ _ rfl]
    simp only [hv]
    rfl
  · rw [h]
    have : pickleOp 75 ⟨[a] ++ rest, stack, marks⟩
        = loadNum 1 (fun b => .int (leVal b)) ⟨[a] ++ rest, stack, marks⟩ := rfl
    rw [show ([75, a] ++ rest : List Nat) = 75 :: ([a] ++ rest) from rfl, pickleRun_op 75 (by decide), this,
      loadNum_ok 1 _ _ _ rfl]
    simp only [hv]
    rfl

theorem loads_float (bits : Nat) (h : bits < 2 ^ 64) : Loads (floatCode bits) [.float bits] := by
  refine ⟨1, by rw [floatCode_length]; omega, ?_⟩
  intro f rest stack marks
  unfold floatCode
  have : pickleOp 71 ⟨(leBytes 8 bits).reverse ++ rest, stack, marks⟩
      = loadNum 8 (fun b => .float (leVal b.reverse)) ⟨(leBytes 8 bits).reverse ++ rest, stack, marks⟩ := rfl
  rw [List.cons_append, pickleRun_op 71 (by decide), this,
    loadNum_ok 8 _ _ _ (by rw [List.length_reverse, leBytes_length])]
  simp only [List.reverse_reverse, leVal_leBytes]
  rw [Nat.mod_eq_of_lt (by simpa using h)]
  rfl

theorem loadStr_ok (n : Nat) (h b rest cps : List Nat) (hh : h.length = n) (hb : leVal h = b.length)
    (hu : utf8Decode b = some cps) (stack : List Value) (marks : List (List Value)) :
    loadStr n ⟨h ++ (b ++ rest), stack, marks⟩ = .ok ⟨rest, .str cps :: stack, marks⟩ := by
  unfold loadStr
  simp only [readN_append' h (b ++ rest) hh, hb, readN_append b rest, hu]

theorem pickleOp_8d (s : PSt) : pickleOp 0x8d s = loadStr 8 s := rfl

theorem loads_str (b cps : List Nat) (hlen : b.length < 2 ^ 64) (hu : utf8Decode b = some cps) :
    Loads (strHeader b.length ++ b) [.str cps] := by
  refine ⟨1, ?_, ?_⟩
  · have := strHeader_length b.length
    rw [List.length_append]
    unfold strSize at this
    split at this
    · omega
    · split at this <;> omega
  · intro f rest stack marks
    rw [List.append_assoc]
    unfold strHeader
    by_cases h1 : b.length ≤ 0xff
    · rw [if_pos h1, List.cons_append, pickleRun_op 0x8c (by decide)]
      have : pickleOp 0x8c ⟨leBytes 1 b.length ++ (b ++ rest), stack, marks⟩
          = loadStr 1 ⟨leBytes 1 b.length ++ (b ++ rest), stack, marks⟩ := rfl
      rw [this, loadStr_ok 1 _ b rest cps (leBytes_length _ _) (by rw [leVal_leBytes]; omega) hu]
      rfl
    · rw [if_neg h1]
      by_cases h2 : b.length ≤ 0xffffffff
      · rw [if_pos h2, List.cons_append, pickleRun_op 88 (by decide)]
        have : pickleOp 88 ⟨leBytes 4 b.length ++ (b ++ rest), stack, marks⟩
            = loadStr 4 ⟨leBytes 4 b.length ++ (b ++ rest), stack, marks⟩ := rfl
        rw [this, loadStr_ok 4 _ b rest cps (leBytes_length _ _)
          (by rw [leVal_leBytes]; exact Nat.mod_eq_of_lt (Nat.lt_of_le_of_lt h2 (by norm_num))) hu]
        rfl
      · rw [if_neg h2, List.cons_append, pickleRun_op 0x8d (by decide)]
        have : pickleOp 0x8d ⟨leBytes 8 b.length ++ (b ++ rest), stack, marks⟩
            = loadStr 8 ⟨leBytes 8 b.length ++ (b ++ rest), stack, marks⟩ := pickleOp_8d _
        rw [this, loadStr_ok 8 _ b rest cps (leBytes_length _ _)
          (by rw [leVal_leBytes]; exact Nat.mod_eq_of_lt (Nat.lt_of_lt_of_le hlen (by norm_num))) hu]
        rfl

/-- A container: its opening opcode `a`, the mark, the items, the closing opcode `z`. -/
theorem loads_container (a z : Nat) (code : List Nat) (items : List Value) (empty full : Value)
    (hz : z = 101 ∨ z = 117 ∨ z = 0x90)
    (ha : a ≠ 46 ∧ ∀ (s : PSt), pickleOp a s = .ok { s with stack := empty :: s.stack })
    (hc : Loads code items)
    (hload : ∀ (inp : List Nat) (stack : List Value) (marks : List (List Value)),
      loadItems z ⟨inp, items.reverse, (empty :: stack) :: marks⟩ = .ok ⟨inp, full :: stack, marks⟩) :
    Loads ([a, 40] ++ code ++ [z]) [full] := by
  obtain ⟨n, hn, hc⟩ := hc
  refine ⟨n + 3, by simp; omega, ?_⟩
  intro f rest stack marks
  have e : ([a, 40] ++ code ++ [z] ++ rest : List Nat) = a :: 40 :: (code ++ (z :: rest)) := by simp
  rw [e, show f + (n + 3) = f + 1 + n + 1 + 1 by omega, pickleRun_op a ha.1, ha.2]
  simp only
  rw [pickleRun_op 40 (by decide)]
  have h40 : pickleOp 40 ⟨code ++ z :: rest, empty :: stack, marks⟩
      = .ok ⟨code ++ z :: rest, [], (empty :: stack) :: marks⟩ := rfl
  rw [h40]
  simp only
  rw [hc, List.append_nil]
  have hz46 : z ≠ 46 := by rcases hz with rfl | rfl | rfl <;> decide
  have hzop : pickleOp z ⟨rest, items.reverse, (empty :: stack) :: marks⟩
      = loadItems z ⟨rest, items.reverse, (empty :: stack) :: marks⟩ := by
    rcases hz with rfl | rfl | rfl <;> rfl
  rw [pickleRun_op z hz46, hzop, hload]
  rfl

/-- The keys and values of a dict as they lie on the stack. -/
def flat : List (Value × Value) → List Value
  | [] => []
  | (k, v) :: r => k :: v :: flat r

theorem pairs_flat (l : List (Value × Value)) : pairs (flat l) = some l := by
  induction l with
  | nil => rfl
  | cons p l ih => rw [flat, pairs, ih]; rfl

variable (stod : List Nat → Option Nat)

theorem hashable_value (c : Cst) (num : Int → Int) (h : c.hashable) :
    (c.valueWith stod num).hashable = true := by
  cases c <;> first | (rw [Cst.valueWith]; rfl) | exact absurd h (by simp [Cst.hashable])

theorem hashable_values (num : Int → Int) (it : Items) (h : it.hashable) :
    (it.valuesWith stod num).all Value.hashable = true := by
  match it with
  | .nil _ => rfl
  | .last _ c _ =>
    rw [Items.hashable] at h
    simp [Items.valuesWith, hashable_value stod c num h]
  | .more _ c _ rest =>
    rw [Items.hashable] at h
    have := hashable_values num rest h.2
    rw [Items.valuesWith, List.all_cons, hashable_value stod c num h.1, this]; rfl
termination_by structural it

theorem hashable_pairs (num : Int → Int) (it : DItems) (h : it.ok stod) :
    (it.pairsWith stod num).all (fun p => p.1.hashable) = true := by
  match it with
  | .nil _ => rfl
  | .last _ k _ _ v _ =>
    rw [DItems.ok] at h
    simp [DItems.pairsWith, hashable_value stod k num h.2.2.1]
  | .more _ k _ _ v _ rest =>
    rw [DItems.ok] at h
    have := hashable_pairs num rest h.2.2.2.2.2.2.2
    rw [DItems.pairsWith, List.all_cons, hashable_value stod k num h.2.2.1, this]; rfl
termination_by structural it

/-- `stod` gives 64 bits. -/
def Bits64 : Prop := ∀ b n, stod b = some n → n < 2 ^ 64

mutual

/-- Running the opcodes of a literal pushes its value. -/
theorem loads_cst (hstod : Bits64 stod) (c : Cst) (h : c.ok stod) (hlen : c.text.length < 2 ^ 64) :
    Loads (c.code stod) [c.valueWith stod wrap32] := by
  match c with
  | .none => rw [Cst.code, Cst.valueWith]; exact loads_none
  | .int s ds => rw [Cst.code, Cst.valueWith]; exact loads_int _
  | .float s ip fp =>
    rw [Cst.code, Cst.valueWith]
    rw [Cst.ok] at h
    obtain ⟨bits, hb⟩ := Option.isSome_iff_exists.1 h.2.2.2.2
    rw [hb]
    exact loads_float bits (hstod _ _ hb)
  | .str q ps =>
    rw [Cst.ok] at h
    rw [Cst.code, Cst.valueWith]
    rw [Cst.text] at hlen
    have hl := pieces_length q ps h.2
    have e : ps.flatMap (fun p => utf8 p.cp) = (ps.map Piece.cp).flatMap utf8 := by
      rw [List.flatMap_map]
    refine loads_str _ _ (by simp only [List.length_append] at hlen; omega) ?_
    rw [e]
    refine utf8Decode_flatMap _ ?_
    intro u hu
    obtain ⟨p, hp, rfl⟩ := List.mem_map.1 hu
    exact piece_cp_le q p (h.2 p hp)
  | .list items =>
    rw [Cst.ok] at h
    rw [Cst.text] at hlen
    rw [Cst.code, Cst.valueWith]
    refine loads_container 93 101 _ _ (.list []) _ (Or.inl rfl) ⟨by decide, fun s => rfl⟩
      (loads_items hstod items h (by simp only [List.length_append] at hlen; omega)) ?_
    intro inp stack marks
    unfold loadItems
    simp
  | .set items =>
    rw [Cst.ok] at h
    rw [Cst.text] at hlen
    rw [Cst.code, Cst.valueWith]
    refine loads_container 0x8f 0x90 _ _ (.set []) _ (Or.inr (Or.inr rfl)) ⟨by decide, fun s => rfl⟩
      (loads_items hstod items h.1 (by simp only [List.length_append] at hlen; omega)) ?_
    intro inp stack marks
    unfold loadItems
    have := hashable_values stod wrap32 items h.2.2
    simp [List.all_eq_true] at this ⊢
    exact this
  | .dict items =>
    rw [Cst.ok] at h
    rw [Cst.text] at hlen
    rw [Cst.code, Cst.valueWith]
    refine loads_container 125 117 _ _ (.dict []) _ (Or.inr (Or.inl rfl)) ⟨by decide, fun s => rfl⟩
      (loads_ditems hstod items h (by simp only [List.length_append] at hlen; omega)) ?_
    intro inp stack marks
    unfold loadItems
    have := hashable_pairs stod wrap32 items h
    simp only [List.reverse_reverse, pairs_flat, this]
    rfl

theorem loads_items (hstod : Bits64 stod) (it : Items) (h : it.ok stod) (hlen : it.text.length < 2 ^ 64) :
    Loads (it.code stod) (it.valuesWith stod wrap32) := by
  match it with
  | .nil w => rw [Items.code, Items.valuesWith]; exact Loads.nil
  | .last w₁ c w₂ =>
    rw [Items.ok] at h
    rw [Items.text] at hlen
    rw [Items.code, Items.valuesWith]
    exact loads_cst hstod c h.2.1 (by simp only [List.length_append] at hlen; omega)
  | .more w₁ c w₂ rest =>
    rw [Items.ok] at h
    rw [Items.text] at hlen
    simp only [List.length_append] at hlen
    rw [Items.code, Items.valuesWith]
    exact (loads_cst hstod c h.2.1 (by omega)).append (loads_items hstod rest h.2.2.2 (by omega))

theorem loads_ditems (hstod : Bits64 stod) (it : DItems) (h : it.ok stod) (hlen : it.text.length < 2 ^ 64) :
    Loads (it.code stod) (flat (it.pairsWith stod wrap32)) := by
  match it with
  | .nil w => rw [DItems.code, DItems.pairsWith]; exact Loads.nil
  | .last w₁ k w₂ w₃ v w₄ =>
    rw [DItems.ok] at h
    rw [DItems.text] at hlen
    simp only [List.length_append] at hlen
    rw [DItems.code, DItems.pairsWith]
    exact (loads_cst hstod k h.2.1 (by omega)).append (loads_cst hstod v h.2.2.2.2.2.1 (by omega))
  | .more w₁ k w₂ w₃ v w₄ rest =>
    rw [DItems.ok] at h
    rw [DItems.text] at hlen
    simp only [List.length_append] at hlen
    rw [DItems.code, DItems.pairsWith]
    exact ((loads_cst hstod k h.2.1 (by omega)).append (loads_cst hstod v h.2.2.2.2.2.1 (by omega))).append
      (loads_ditems hstod rest h.2.2.2.2.2.2.2 (by omega))

end

mutual

theorem code_length (c : Cst) : (c.code stod).length = c.size := by
  match c with
  | .none => rw [Cst.code, Cst.size]; rfl
  | .int s ds => rw [Cst.code, Cst.size, intCode_length]
  | .float s ip fp => rw [Cst.code, Cst.size, floatCode_length]
  | .str q ps => rw [Cst.code, Cst.size, List.length_append, strHeader_length]
  | .list items =>
    have := items_length items
    rw [Cst.code, Cst.size]; simp only [List.length_append, List.length_cons, List.length_nil]; omega
  | .set items =>
    have := items_length items
    rw [Cst.code, Cst.size]; simp only [List.length_append, List.length_cons, List.length_nil]; omega
  | .dict items =>
    have := ditems_length items
    rw [Cst.code, Cst.size]; simp only [List.length_append, List.length_cons, List.length_nil]; omega

theorem items_length (it : Items) : (it.code stod).length = it.size := by
  match it with
  | .nil w => rw [Items.code, Items.size]; rfl
  | .last w₁ c w₂ => rw [Items.code, Items.size]; exact code_length c
  | .more w₁ c w₂ rest => rw [Items.code, Items.size, List.length_append, code_length c, items_length rest]

theorem ditems_length (it : DItems) : (it.code stod).length = it.size := by
  match it with
  | .nil w => rw [DItems.code, DItems.size]; rfl
  | .last w₁ k w₂ w₃ v w₄ => rw [DItems.code, DItems.size, List.length_append, code_length k, code_length v]
  | .more w₁ k w₂ w₃ v w₄ rest =>
    rw [DItems.code, DItems.size, List.length_append, List.length_append, code_length k, code_length v,
      ditems_length rest]

end

/-! ### The whole conversion -/

/-- The state after the whole pass over a literal. -/
theorem fullPass_ok (cap : Nat) (c : Cst) (h : c.ok stod) (w₁ w₂ : List Nat) (hw₁ : Ws w₁) (hw₂ : Ws w₂) :
    ∃ st, fullPass stod cap (w₁ ++ c.text ++ w₂) = .ok st
      ∧ Wr cap ⟨w₁ ++ c.text ++ w₂, [], false, false⟩ ([0x80, 3] ++ c.code stod ++ [46]) st := by
  unfold fullPass fuel
  generalize hinp : w₁ ++ c.text ++ w₂ = inp
  have hw := (Wr.write cap ⟨inp, [], false, false⟩ [0x80]).trans (Wr.write cap _ [3])
  generalize hst0 : write cap (write cap ⟨inp, [], false, false⟩ [0x80]) [3] = st0 at hw
  have hin0 : st0.inp = w₁ ++ (c.text ++ w₂) := by
    rw [← hst0, write_inp, write_inp, ← hinp, List.append_assoc]
  have hlen : inp.length = w₁.length + (c.text.length + w₂.length) := by rw [← hinp]; simp
  rw [parse_ws stod cap false (c.text ++ w₂) w₁ _ st0 hw₁ hin0 (by omega)]
  obtain ⟨f', st', e1, e2, e3, e4⟩ := parsesTo stod cap c h (2 * inp.length + 1 - w₁.length)
    { st0 with inp := c.text ++ w₂ } w₂ rfl (head_ws' w₂ hw₂)
    (by simp only [List.length_append]; omega) (by rw [hw.err])
  rw [e1, parse_eof stod cap f' st' w₂ hw₂ e2 (by omega)]
  simp only
  refine ⟨_, rfl, ?_⟩
  have e5 : Wr cap st0 (c.code stod) { st' with inp := [] } := (e3.inp_left).inp st0.inp []
  exact (hw.trans e5).trans (Wr.write cap _ [46])

/-- C81: a text which is a literal of the supported kind, with any white space, is converted, and loading the result
gives the value of the literal with its integers reduced to 32 bits (signed); provided the output buffer is large
enough (1000 bytes more than the text). -/
theorem literal_loads (hstod : Bits64 stod) (c : Cst) (h : c.ok stod) (w₁ w₂ : List Nat) (hw₁ : Ws w₁) (hw₂ : Ws w₂)
    (hlen : c.text.length < 2 ^ 64) (hsize : c.size + 3 ≤ (w₁ ++ c.text ++ w₂).length + 1000) :
    ∃ b, pyToPickle stod (w₁ ++ c.text ++ w₂) = .ok b ∧ loads b = .ok (c.valueWith stod wrap32) := by
  obtain ⟨st, e1, e2⟩ := fullPass_ok stod ((w₁ ++ c.text ++ w₂).length + 1000) c h w₁ w₂ hw₁ hw₂
  have hl := code_length stod c
  obtain ⟨e3, e4⟩ := e2.fit rfl (by
    simp only [List.length_append, List.length_cons, List.length_nil] at hsize ⊢
    omega)
  unfold pyToPickle pyToPickleC
  simp only [e1]
  simp only [e2.err, e4]
  refine ⟨_, rfl, ?_⟩
  obtain ⟨n, hn, hrun⟩ := loads_cst stod hstod c h hlen
  rw [e3]
  generalize List.replicate _ 0 = pad
  unfold loads
  have e : ([] ++ ([0x80, 3] ++ c.code stod ++ [46]) ++ pad : List Nat)
      = 0x80 :: 3 :: (c.code stod ++ (46 :: pad)) := by simp
  rw [e]
  have hL : (0x80 :: 3 :: (c.code stod ++ (46 :: pad)) : List Nat).length + 1
      = (c.code stod).length + pad.length + 4 := by simp; omega
  rw [hL, pickleRun_op 0x80 (by decide)]
  have hproto : pickleOp 0x80 ⟨3 :: (c.code stod ++ (46 :: pad)), [], []⟩
      = .ok ⟨c.code stod ++ (46 :: pad), [], []⟩ := rfl
  rw [hproto]
  simp only
  obtain ⟨k, hk⟩ : ∃ k, (c.code stod).length + pad.length + 3 = k + 1 + n := ⟨(c.code stod).length + pad.length + 2 - n, by omega⟩
  rw [hk, hrun, pickleRun]
  rfl

/-- C82: with a buffer which is too small the conversion fails with an error (nothing wrong is returned). -/
theorem literal_overflow (c : Cst) (h : c.ok stod) (w₁ w₂ : List Nat) (hw₁ : Ws w₁) (hw₂ : Ws w₂)
    (hsize : (w₁ ++ c.text ++ w₂).length + 1000 < c.size + 3) :
    pyToPickle stod (w₁ ++ c.text ++ w₂) = .error .assertion := by
  obtain ⟨st, e1, e2⟩ := fullPass_ok stod ((w₁ ++ c.text ++ w₂).length + 1000) c h w₁ w₂ hw₁ hw₂
  have hl := code_length stod c
  have e3 := e2.nofit rfl (by
    simp only [List.length_append, List.length_cons, List.length_nil] at hsize ⊢
    omega)
  unfold pyToPickle pyToPickleC
  simp only [e1]
  simp only [e2.err, e3]
  rfl

end Verif.PyPickle
