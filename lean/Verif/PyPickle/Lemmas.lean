import Verif.PyPickle.Spec
import Mathlib.Tactic.Ring
/-
Lemmas: UTF-8, numbers, strings, the writer, the pickle machine.
-/
namespace Verif.PyPickle

open Verif.Py

/-! ### Bytes -/

theorem leBytes_length (n v : Nat) : (leBytes n v).length = n := by
  induction n generalizing v with
  | zero => rfl
  | succ n ih => simp [leBytes, ih]

theorem leVal_leBytes (n v : Nat) : leVal (leBytes n v) = v % 256 ^ n := by
  induction n generalizing v with
  | zero => simp [leBytes, leVal, Nat.mod_one]
  | succ n ih =>
    rw [leBytes, leVal, ih, Nat.pow_succ, Nat.mul_comm (256 ^ n) 256, Nat.mod_mul]

theorem readN_append (a b : List Nat) : readN a.length (a ++ b) = some (a, b) := by
  simp [readN]

theorem readN_append' {n : Nat} (a b : List Nat) (h : a.length = n) : readN n (a ++ b) = some (a, b) := by
  subst h; exact readN_append a b

/-! ### UTF-8 -/

theorem utf8Encode_eq (u : Nat) (h : u ≤ 0x10FFFF) : utf8Encode u = some (utf8 u) := by
  unfold utf8Encode utf8
  by_cases h1 : u ≤ 0x7F
  · rw [if_pos h1, if_pos (show u < 0x80 by omega)]
  · rw [if_neg h1, if_neg (show ¬ u < 0x80 by omega)]
    by_cases h2 : u ≤ 0x7FF
    · rw [if_pos h2, if_pos (show u < 0x800 by omega)]
      congr 1
      simp only [List.cons.injEq, and_true]
      omega
    · rw [if_neg h2, if_neg (show ¬ u < 0x800 by omega)]
      by_cases h3 : u ≤ 0xFFFF
      · rw [if_pos h3, if_pos (show u < 0x10000 by omega)]
        congr 1
        simp only [List.cons.injEq, and_true]
        omega
      · rw [if_neg h3, if_neg (show ¬ u < 0x10000 by omega), if_pos h]
        congr 1
        simp only [List.cons.injEq, and_true]
        omega

theorem utf8Decode_append (u : Nat) (h : u ≤ 0x10FFFF) (r : List Nat) :
    utf8Decode (utf8 u ++ r) = (utf8Decode r).map (u :: ·) := by
  unfold utf8
  by_cases h1 : u < 0x80
  · rw [if_pos h1, List.singleton_append, utf8Decode.eq_def]; dsimp only; rw [if_pos h1]
  · rw [if_neg h1]
    by_cases h2 : u < 0x800
    · rw [if_pos h2]
      simp only [List.cons_append, List.nil_append]
      conv_lhs => rw [utf8Decode.eq_def]
      dsimp only
      rw [if_neg (by omega)]
      have e : (0xC0 + u / 64 - 0xC0) * 64 + (0x80 + u % 64 - 0x80) = u := by omega
      have c : isCont (0x80 + u % 64) = true := by simp [isCont]; omega
      simp only [e, c]
      rw [if_pos (by simp; omega), if_pos (by simp; omega)]
    · rw [if_neg h2]
      by_cases h3 : u < 0x10000
      · rw [if_pos h3]
        simp only [List.cons_append, List.nil_append]
        conv_lhs => rw [utf8Decode.eq_def]
        dsimp only
        rw [if_neg (by omega)]
        have e : (0xE0 + u / 4096 - 0xE0) * 4096 + (0x80 + u / 64 % 64 - 0x80) * 64 + (0x80 + u % 64 - 0x80) = u := by
          omega
        have c1 : isCont (0x80 + u % 64) = true := by simp [isCont]; omega
        have c2 : isCont (0x80 + u / 64 % 64) = true := by simp [isCont]; omega
        simp only [e, c1, c2]
        rw [if_neg (by simp), if_pos (by simp; omega), if_pos (by simp; omega)]
      · rw [if_neg h3]
        simp only [List.cons_append, List.nil_append]
        conv_lhs => rw [utf8Decode.eq_def]
        dsimp only
        rw [if_neg (by omega)]
        have e : (0xF0 + u / 262144 - 0xF0) * 262144 + (0x80 + u / 4096 % 64 - 0x80) * 4096
            + (0x80 + u / 64 % 64 - 0x80) * 64 + (0x80 + u % 64 - 0x80) = u := by omega
        have c1 : isCont (0x80 + u % 64) = true := by simp [isCont]; omega
        have c2 : isCont (0x80 + u / 64 % 64) = true := by simp [isCont]; omega
        have c3 : isCont (0x80 + u / 4096 % 64) = true := by simp [isCont]; omega
        simp only [e, c1, c2, c3]
        rw [if_neg (by simp; omega), if_neg (by simp), if_pos (by simp; omega)]

theorem utf8Decode_flatMap (l : List Nat) (h : ∀ u ∈ l, u ≤ 0x10FFFF) :
    utf8Decode (l.flatMap utf8) = some l := by
  induction l with
  | nil => rw [List.flatMap_nil, utf8Decode]
  | cons u l ih =>
    rw [List.flatMap_cons, utf8Decode_append u (h u (by simp)), ih (fun v hv => h v (by simp [hv]))]
    rfl

theorem utf8_length_pos (u : Nat) : 1 ≤ (utf8 u).length ∧ (utf8 u).length ≤ 4 := by
  unfold utf8; split
  · simp
  · split
    · simp
    · split <;> simp

/-- The bytes of a character other than ASCII are not ASCII. -/
theorem utf8_high (u : Nat) (h : ¬ u < 0x80) : ∀ b ∈ utf8 u, 0x80 ≤ b := by
  unfold utf8; rw [if_neg h]; split
  · simp only [List.mem_cons, List.not_mem_nil, or_false]; omega
  · split <;> (simp only [List.mem_cons, List.not_mem_nil, or_false]; omega)

/-! ### Strings -/

theorem hexVal_hexDigit (d : Nat) (h : d < 16) : hexVal (hexDigit d) = some d := by
  unfold hexDigit hexVal isDigit
  by_cases h1 : d < 10
  · rw [if_pos h1, if_pos (by simp; omega)]; congr 1; omega
  · rw [if_neg h1, if_neg (by simp; omega), if_pos (by simp; omega)]; congr 1; omega

theorem hexText_length (n cp : Nat) : (hexText n cp).length = n := by
  induction n generalizing cp with
  | zero => rfl
  | succ n ih => simp [hexText, ih]

/-- The loop of `parse_str` over hex digits: all but the last one. -/
theorem strLoop_hex (q : Nat) (buf : List Nat) : ∀ (n cp acc m : Nat) (r : List Nat),
    1 ≤ m → acc * 16 ^ n + cp < 2 ^ 32 → cp < 16 ^ n →
    strLoop q (hexText n cp ++ r) (.hex (m + n) acc) buf = strLoop q r (.hex m (acc * 16 ^ n + cp)) buf := by
  intro n
  induction n with
  | zero =>
    intro cp acc m r _ _ hc
    have : cp = 0 := by simpa using hc
    simp [hexText, this]
  | succ n ih =>
    intro cp acc m r hm hlt hc
    rw [hexText, List.append_assoc]
    have hc' : cp / 16 < 16 ^ n := by rw [Nat.pow_succ] at hc; omega
    have hacc : (acc * 16 ^ n + cp / 16) * 16 + cp % 16 = acc * 16 ^ (n + 1) + cp := by
      rw [Nat.pow_succ, Nat.add_mul, Nat.mul_assoc]; omega
    have hlt' : acc * 16 ^ n + cp / 16 < 2 ^ 32 := by omega
    have h := ih (cp / 16) acc (m + 1) ([hexDigit (cp % 16)] ++ r) (by omega) hlt' hc'
    rw [show m + (n + 1) = m + 1 + n by omega, h, List.singleton_append, strLoop,
      hexVal_hexDigit _ (Nat.mod_lt _ (by omega))]
    simp only
    rw [if_neg (by omega), Nat.add_sub_cancel, hacc, Nat.mod_eq_of_lt hlt]

/-- A complete hex escape after the letter. -/
theorem strLoop_hex_all (q : Nat) (buf : List Nat) (n cp : Nat) (r : List Nat) (h8 : n ≤ 8) (hn : 1 ≤ n)
    (hc : cp < 16 ^ n) (hu : cp ≤ 0x10FFFF) :
    strLoop q (hexText n cp ++ r) (.hex n 0) buf = strLoop q r .direct (buf ++ utf8 cp) := by
  obtain ⟨k, rfl⟩ : ∃ k, n = k + 1 := ⟨n - 1, by omega⟩
  have hc' : cp / 16 < 16 ^ k := by rw [Nat.pow_succ] at hc; omega
  rw [hexText, List.append_assoc, show k + 1 = 1 + k by omega,
    strLoop_hex q buf k (cp / 16) 0 1 _ (by omega) (by rw [Nat.zero_mul]; omega) hc', List.singleton_append, strLoop,
    hexVal_hexDigit _ (Nat.mod_lt _ (by omega))]
  simp only
  have e : (0 * 16 ^ k + cp / 16) * 16 + cp % 16 = cp := by rw [Nat.zero_mul]; omega
  rw [if_pos trivial, e, Nat.mod_eq_of_lt (show cp < 2 ^ 32 by omega), utf8Encode_eq cp hu]

theorem strLoop_bytes (q : Nat) (r : List Nat) : ∀ (l buf : List Nat), (∀ b ∈ l, b ≠ q ∧ b ≠ 92) →
    strLoop q (l ++ r) .direct buf = strLoop q r .direct (buf ++ l) := by
  intro l
  induction l with
  | nil => intro buf _; simp
  | cons b l ih =>
    intro buf h
    have hb := h b (by simp)
    rw [List.cons_append, strLoop, if_neg (by simp [hb.1]), if_neg (by simp [hb.2]),
      ih _ (fun x hx => h x (by simp [hx])), List.append_assoc, List.singleton_append]

theorem piece_cp_le (q : Nat) (p : Piece) (h : p.ok q) : p.cp ≤ 0x10FFFF := by
  cases p with
  | raw cp => exact h.1
  | esc l =>
    rcases h with h | h | h | h | h | h <;> subst h <;> simp [Piece.cp]
  | hex l n cp => exact h.1

theorem strLoop_piece (q : Nat) (hq : q = 39 ∨ q = 34) (p : Piece) (h : p.ok q) (r buf : List Nat) :
    strLoop q (p.text ++ r) .direct buf = strLoop q r .direct (buf ++ utf8 p.cp) := by
  have hq92 : (92 == q) = false := by rcases hq with rfl | rfl <;> rfl
  cases p with
  | raw cp =>
    obtain ⟨_, h1, h2, _⟩ := h
    refine strLoop_bytes q r (utf8 cp) buf ?_
    intro b hb
    by_cases hlt : cp < 0x80
    · simp only [utf8, if_pos hlt, List.mem_singleton] at hb
      subst hb; exact ⟨h1, h2⟩
    · have := utf8_high cp hlt b hb
      constructor
      · rcases hq with rfl | rfl <;> omega
      · omega
  | esc l =>
    simp only [Piece.text, List.cons_append, List.nil_append]
    rw [strLoop, if_neg (by simp [hq92]), if_pos (by rfl), strLoop]
    rcases h with h | h | h | h | h | h <;> subst h <;> rfl
  | hex l n cp =>
    obtain ⟨hu, h⟩ := h
    simp only [Piece.text, List.cons_append]
    rw [strLoop, if_neg (by simp [hq92]), if_pos (by rfl), strLoop]
    rcases h with ⟨rfl, rfl, hc⟩ | ⟨rfl, rfl, hc⟩ | ⟨rfl, rfl⟩
    · exact strLoop_hex_all q buf 2 cp r (by omega) (by omega) (by omega) hu
    · exact strLoop_hex_all q buf 4 cp r (by omega) (by omega) (by omega) hu
    · exact strLoop_hex_all q buf 8 cp r (by omega) (by omega) (by omega) hu

theorem strLoop_pieces (q : Nat) (hq : q = 39 ∨ q = 34) (r : List Nat) : ∀ (ps : List Piece) (buf : List Nat),
    (∀ p ∈ ps, p.ok q) →
    strLoop q (ps.flatMap Piece.text ++ q :: r) .direct buf
      = (some (buf ++ ps.flatMap (fun p => utf8 p.cp)), r) := by
  intro ps
  induction ps with
  | nil => intro buf _; simp [strLoop]
  | cons p ps ih =>
    intro buf h
    rw [List.flatMap_cons, List.append_assoc, strLoop_piece q hq p (h p (by simp)),
      ih _ (fun x hx => h x (by simp [hx])), List.flatMap_cons, List.append_assoc]

theorem piece_length (q : Nat) (p : Piece) (h : p.ok q) : (utf8 p.cp).length ≤ p.text.length := by
  cases p with
  | raw cp => exact Nat.le_refl _
  | esc l => rcases h with h | h | h | h | h | h <;> subst h <;> decide
  | hex l n cp =>
    have := (utf8_length_pos cp).2
    simp only [Piece.text, Piece.cp, List.length_cons, hexText_length]
    rcases h.2 with ⟨_, rfl, _⟩ | ⟨_, rfl, _⟩ | ⟨_, rfl⟩ <;> omega

theorem pieces_length (q : Nat) : ∀ (ps : List Piece), (∀ p ∈ ps, p.ok q) →
    (ps.flatMap (fun p => utf8 p.cp)).length ≤ (ps.flatMap Piece.text).length := by
  intro ps
  induction ps with
  | nil => intro _; simp
  | cons p ps ih =>
    intro h
    have h1 := piece_length q p (h p (by simp))
    have h2 := ih (fun x hx => h x (by simp [hx]))
    simp only [List.flatMap_cons, List.length_append]
    omega

/-! ### Numbers -/

theorem digitsVal_eq (ds : List Nat) : digitsVal ds = intVal.digitsNum ds := by
  have h : ∀ (ds : List Nat) (a : Nat), ds.foldl (fun a d => a * 10 + (d - 48)) a
      = a * 10 ^ ds.length + intVal.digitsNum ds := by
    intro ds
    induction ds with
    | nil => intro a; simp [intVal.digitsNum]
    | cons d ds ih =>
      intro a
      rw [List.foldl_cons, ih, intVal.digitsNum, List.length_cons, Nat.pow_succ]
      ring_nf
  unfold digitsVal
  rw [h]; simp

theorem takeWhile_digits (ds : List Nat) (h : Digits ds) : ds.takeWhile isDigit = ds := by
  induction ds with
  | nil => rfl
  | cons d ds ih =>
    have hd := h d (by simp)
    rw [List.takeWhile_cons_of_pos (by simp [isDigit, hd.1, hd.2]), ih (fun x hx => h x (by simp [hx]))]

theorem strtolDigits_eq (neg : Bool) (ds : List Nat) (h : Digits ds) (hne : ds ≠ []) :
    strtolDigits neg ds = some (if neg then -(intVal.digitsNum ds : Int) else intVal.digitsNum ds) := by
  unfold strtolDigits
  rw [takeWhile_digits ds h]
  cases ds with
  | nil => exact absurd rfl hne
  | cons d ds => simp only [digitsVal_eq]

theorem strtol_eq (s : Option Nat) (ds : List Nat) (hs : SignOk s) (h : Digits ds) (hne : ds ≠ []) :
    strtol (s.toList ++ ds) = some (intVal s ds) := by
  unfold strtol intVal
  rcases hs with rfl | rfl | rfl
  · cases ds with
    | nil => exact absurd rfl hne
    | cons d ds =>
      have hd := h d (by simp)
      simp only [Option.toList_none, List.nil_append]
      rw [if_neg (by simp; omega), if_neg (by simp; omega), strtolDigits_eq _ _ h hne, if_neg (by simp)]
      rfl
  · simp only [Option.toList_some, List.singleton_append]
    rw [if_neg (by simp), if_pos (by simp), strtolDigits_eq _ _ h hne, if_neg (by simp)]
    rfl
  · simp only [Option.toList_some, List.singleton_append]
    rw [if_pos (by simp), strtolDigits_eq _ _ h hne, if_pos rfl]
    rfl

theorem stol_eq (s : Option Nat) (ds : List Nat) (hs : SignOk s) (h : Digits ds) (hne : ds ≠ [])
    (hlo : -(2 : Int) ^ 63 ≤ intVal s ds) (hhi : intVal s ds < (2 : Int) ^ 63) :
    stol (s.toList ++ ds) = some (intVal s ds) := by
  unfold stol
  rw [strtol_eq s ds hs h hne]
  exact if_pos ⟨hlo, hhi⟩

/-- The characters of a number: all but the first one are collected by the loop. -/
theorem numLoop_append (l rest : List Nat) (h : ∀ c ∈ l, isNumChar c = true)
    (hr : ∀ c ∈ rest.head?, isNumChar c = false) :
    numLoop (l ++ rest) = (l, rest.head?, rest.tail) := by
  induction l with
  | nil =>
    cases rest with
    | nil => rfl
    | cons c r =>
      have := hr c (by simp)
      simp [numLoop, this]
  | cons c l ih =>
    rw [List.cons_append, numLoop, if_pos (h c (by simp)), ih (fun x hx => h x (by simp [hx]))]

theorem leBytes4 (u : Nat) : leBytes 4 u = [u % 256, u / 256 % 256, u / 256 / 256 % 256, u / 256 / 256 / 256 % 256] := rfl

/-- The integer which is read back. -/
theorem intCode_cases (v : Int) :
    (intCode v = 74 :: leBytes 4 (v % (2 : Int) ^ 32).toNat ∧ leInt32 (leBytes 4 (v % (2 : Int) ^ 32).toNat) = wrap32 v
        ∧ intSize (wrap32 v) = 5)
    ∨ (∃ a b, intCode v = [77, a, b] ∧ (leVal [a, b] : Int) = wrap32 v ∧ intSize (wrap32 v) = 3)
    ∨ (∃ a, intCode v = [75, a] ∧ (leVal [a] : Int) = wrap32 v ∧ intSize (wrap32 v) = 2) := by
  obtain ⟨u, hu⟩ : ∃ u : Nat, (v % (2 : Int) ^ 32) = u := ⟨(v % (2 : Int) ^ 32).toNat, by omega⟩
  have hu' : (v % (2 : Int) ^ 32).toNat = u := by omega
  have hlt : u < 2 ^ 32 := by omega
  have hw : wrap32 v = if u < 2 ^ 31 then (u : Int) else (u : Int) - 2 ^ 32 := by
    unfold wrap32; split <;> omega
  have h4 : leVal (leBytes 4 u) = u := by rw [leVal_leBytes]; omega
  unfold intCode
  rw [hu']
  simp only [leBytes4, List.getD_cons_succ, List.getD_cons_zero, List.take_succ_cons, List.take_zero]
  by_cases h1 : u / 256 / 256 / 256 % 256 ≠ 0 ∨ u / 256 / 256 % 256 ≠ 0
  · left
    rw [if_pos h1]
    refine ⟨rfl, ?_, ?_⟩
    · rw [← leBytes4, leInt32, h4, hw]
    · rw [hw, intSize]
      rw [if_neg (by split <;> omega), if_neg (by split <;> omega)]
  · right
    rw [if_neg h1]
    have hsmall : u < 65536 := by omega
    have hw' : wrap32 v = u := by rw [hw, if_pos (by omega)]
    by_cases h2 : u / 256 % 256 ≠ 0
    · left
      rw [if_pos h2]
      refine ⟨_, _, rfl, ?_, ?_⟩
      · rw [hw']; simp only [leVal]; omega
      · rw [hw', intSize, if_neg (by omega), if_pos (by omega)]
    · right
      rw [if_neg h2]
      refine ⟨_, rfl, ?_, ?_⟩
      · rw [hw']; simp only [leVal]; omega
      · rw [hw', intSize, if_pos (by omega)]

theorem intCode_length (v : Int) : (intCode v).length = intSize (wrap32 v) := by
  rcases intCode_cases v with ⟨h, _, hs⟩ | ⟨a, b, h, _, hs⟩ | ⟨a, h, _, hs⟩
  · rw [h, hs]; rfl
  · rw [h, hs]; rfl
  · rw [h, hs]; rfl

theorem floatCode_length (b : Nat) : (floatCode b).length = 9 := by
  simp [floatCode, leBytes_length]

theorem strHeader_length (n : Nat) : (strHeader n).length + n = strSize n := by
  unfold strHeader strSize
  split
  · simp [leBytes_length]
  · split
    · simp [leBytes_length]
    · simp [leBytes_length]

end Verif.PyPickle
