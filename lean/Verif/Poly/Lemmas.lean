import Verif.Poly.Spec
import Verif.Js.NumLemmas
/-! # Lemmas on strings, numbers and keys of the polyfill -/
namespace Verif.Poly
open Js (Num Res Err asInt IsInt lo hi saturate)

/-! ### Strings -/

theorem char_cases (c : Char) : c.toNat < 0xD800 ∨ 0xDFFF < c.toNat ∧ c.toNat < 0x110000 := by
  have := c.valid
  simp only [UInt32.isValidChar, Nat.isValidChar] at this
  exact this

theorem unit_toNat {n : Nat} (h : n < 0x10000) : (UInt16.ofNat n).toNat = n := by
  simp [UInt16.toNat_ofNat', Nat.mod_eq_of_lt h]

theorem unit_lt (u : UInt16) : u.toNat < 0x10000 := u.toNat_lt

theorem unit_ext {a b : UInt16} (h : a.toNat = b.toNat) : a = b := UInt16.toNat.inj h

theorem ofNat_toNat {n : Nat} (h : n < 0xD800 ∨ 0xDFFF < n ∧ n < 0x110000) : (Char.ofNat n).toNat = n := by
  have hv : n.isValidChar := h
  rw [Char.ofNat, dif_pos hv]; rfl

theorem char_ofNat (c : Char) : Char.ofNat c.toNat = c := Char.ofNat_toNat c

theorem isHigh_iff (u : UInt16) : isHigh u = true ↔ 0xD800 ≤ u.toNat ∧ u.toNat < 0xDC00 := by simp [isHigh]
theorem isLow_iff (u : UInt16) : isLow u = true ↔ 0xDC00 ≤ u.toNat ∧ u.toNat < 0xE000 := by simp [isLow]

theorem decode_plain {a : UInt16} (h1 : isHigh a = false) (h2 : isLow a = false) (r : Units) :
    decode (a :: r) = Char.ofNat a.toNat :: decode r := by
  cases r <;> simp [decode, h1, h2]

theorem decode_pair {a b : UInt16} (h1 : isHigh a = true) (h2 : isLow b = true) (r : Units) :
    decode (a :: b :: r) = Char.ofNat (0x10000 + (a.toNat - 0xD800) * 0x400 + (b.toNat - 0xDC00)) :: decode r := by
  simp [decode, h1, h2]

theorem decode_lone {a : UInt16} (h1 : isLow a = true) (r : Units) :
    decode (a :: r) = Char.ofNat 0xFFFD :: decode r := by
  have : isHigh a = false := by
    rw [isLow_iff] at h1
    rw [← Bool.not_eq_true, isHigh_iff]; omega
  cases r <;> simp [decode, h1, this]

theorem decode_high_end {a : UInt16} (h1 : isHigh a = true) : decode [a] = [Char.ofNat 0xFFFD] := by simp [decode, h1]

theorem decode_high {a b : UInt16} (h1 : isHigh a = true) (h2 : isLow b = false) (r : Units) :
    decode (a :: b :: r) = Char.ofNat 0xFFFD :: decode (b :: r) := by simp [decode, h1, h2]

theorem decode_encodeChar (c : Char) (r : Units) : decode (encodeChar c ++ r) = c :: decode r := by
  have hc := char_cases c
  unfold encodeChar
  by_cases h : c.toNat < 0x10000
  · rw [if_pos h]
    have ht := unit_toNat h
    rw [List.singleton_append, decode_plain]
    · rw [ht, char_ofNat]
    · rw [← Bool.not_eq_true, isHigh_iff, ht]; omega
    · rw [← Bool.not_eq_true, isLow_iff, ht]; omega
  · rw [if_neg h]
    have h1 : (UInt16.ofNat (0xD800 + (c.toNat - 0x10000) / 0x400)).toNat = 0xD800 + (c.toNat - 0x10000) / 0x400 := unit_toNat (by omega)
    have h2 : (UInt16.ofNat (0xDC00 + (c.toNat - 0x10000) % 0x400)).toNat = 0xDC00 + (c.toNat - 0x10000) % 0x400 := unit_toNat (by omega)
    simp only [List.cons_append, List.nil_append]
    rw [decode_pair]
    · rw [h1, h2]
      have : 0x10000 + (0xD800 + (c.toNat - 0x10000) / 0x400 - 0xD800) * 0x400 + (0xDC00 + (c.toNat - 0x10000) % 0x400 - 0xDC00) = c.toNat := by omega
      rw [this, char_ofNat]
    · rw [isHigh_iff, h1]; omega
    · rw [isLow_iff, h2]; omega

theorem decode_encode (s : List Char) : decode (encode s) = s := by
  induction s with
  | nil => rfl
  | cons c s ih =>
    have : encode (c :: s) = encodeChar c ++ encode s := rfl
    rw [this, decode_encodeChar, ih]

theorem decode_encode_append (s : List Char) (r : Units) : decode (encode s ++ r) = s ++ decode r := by
  induction s with
  | nil => rfl
  | cons c s ih =>
    have : encode (c :: s) = encodeChar c ++ encode s := rfl
    rw [this, List.append_assoc, decode_encodeChar, ih]; rfl

theorem encode_inj {s t : List Char} (h : encode s = encode t) : s = t := by
  rw [← decode_encode s, h, decode_encode]

/-- `WellFormed` as a recursion. -/
def wf : Units → Bool
  | [] => true
  | [a] => !isHigh a && !isLow a
  | a :: b :: r => if isHigh a then isLow b && wf r else !isLow a && wf (b :: r)

theorem high_not_low {a : UInt16} (h : isHigh a = true) : isLow a = false := by
  rw [isHigh_iff] at h
  rw [← Bool.not_eq_true, isLow_iff]; omega

theorem encodeChar_plain {a : UInt16} (h1 : isHigh a = false) (h2 : isLow a = false) : encodeChar (Char.ofNat a.toNat) = [a] := by
  have ha := unit_lt a
  rw [← Bool.not_eq_true, isHigh_iff] at h1
  rw [← Bool.not_eq_true, isLow_iff] at h2
  have ht : (Char.ofNat a.toNat).toNat = a.toNat := ofNat_toNat (by omega)
  unfold encodeChar
  rw [ht, if_pos ha]
  congr 1
  exact unit_ext (unit_toNat ha)

theorem encodeChar_pair {a b : UInt16} (h1 : isHigh a = true) (h2 : isLow b = true) :
    encodeChar (Char.ofNat (0x10000 + (a.toNat - 0xD800) * 0x400 + (b.toNat - 0xDC00))) = [a, b] := by
  rw [isHigh_iff] at h1
  rw [isLow_iff] at h2
  have ht := ofNat_toNat (n := 0x10000 + (a.toNat - 0xD800) * 0x400 + (b.toNat - 0xDC00)) (by omega)
  unfold encodeChar
  rw [ht, if_neg (by omega)]
  have e1 : UInt16.ofNat (0xD800 + (0x10000 + (a.toNat - 0xD800) * 0x400 + (b.toNat - 0xDC00) - 0x10000) / 0x400) = a :=
    unit_ext (by rw [unit_toNat] <;> omega)
  have e2 : UInt16.ofNat (0xDC00 + (0x10000 + (a.toNat - 0xD800) * 0x400 + (b.toNat - 0xDC00) - 0x10000) % 0x400) = b :=
    unit_ext (by rw [unit_toNat] <;> omega)
  rw [e1, e2]

theorem encode_cons (c : Char) (s : List Char) : encode (c :: s) = encodeChar c ++ encode s := rfl

theorem encode_replacement (s : List Char) : encode (Char.ofNat 0xFFFD :: s) = 0xFFFD :: encode s := by
  rw [encode_cons]; rfl

theorem high_ne {a : UInt16} (h : isHigh a = true) : (0xFFFD : UInt16) ≠ a := by
  rintro rfl; revert h; decide

theorem low_ne {a : UInt16} (h : isLow a = true) : (0xFFFD : UInt16) ≠ a := by
  rintro rfl; revert h; decide

theorem encode_decode_iff : ∀ u : Units, encode (decode u) = u ↔ wf u = true
  | [] => by simp [decode, encode, wf]
  | [a] => by
    by_cases h1 : isHigh a = true
    · rw [decode_high_end h1, encode_replacement]
      simp only [wf, h1, Bool.not_true, Bool.false_and, Bool.false_eq_true, iff_false]
      intro h; injection h with h; exact high_ne h1 h
    · rw [Bool.not_eq_true] at h1
      by_cases h2 : isLow a = true
      · rw [decode_lone h2, encode_replacement]
        simp only [wf, h2, Bool.not_true, Bool.and_false, Bool.false_eq_true, iff_false]
        intro h; injection h with h; exact low_ne h2 h
      · rw [Bool.not_eq_true] at h2
        rw [decode_plain h1 h2, encode_cons, encodeChar_plain h1 h2]
        simp [wf, h1, h2, decode, encode]
  | a :: b :: r => by
    by_cases h1 : isHigh a = true
    · by_cases h2 : isLow b = true
      · rw [decode_pair h1 h2, encode_cons, encodeChar_pair h1 h2]
        simp only [wf, h1, h2, if_true, Bool.true_and, List.cons_append, List.nil_append, List.cons.injEq, true_and]
        exact encode_decode_iff r
      · rw [Bool.not_eq_true] at h2
        rw [decode_high h1 h2, encode_replacement]
        simp only [wf, h1, h2, if_true, Bool.false_and, Bool.false_eq_true, iff_false]
        intro h; injection h with h; exact high_ne h1 h
    · rw [Bool.not_eq_true] at h1
      by_cases h2 : isLow a = true
      · rw [decode_lone h2, encode_replacement]
        simp only [wf, h1, h2, Bool.not_true, Bool.false_and, Bool.false_eq_true, iff_false, if_false]
        intro h; injection h with h; exact low_ne h2 h
      · rw [Bool.not_eq_true] at h2
        rw [decode_plain h1 h2, encode_cons, encodeChar_plain h1 h2]
        simp only [wf, h1, h2, Bool.not_false, Bool.true_and, Bool.false_eq_true, if_false, List.cons_append, List.nil_append, List.cons.injEq, true_and]
        exact encode_decode_iff (b :: r)

theorem wf_iff : ∀ u : Units, wf u = true ↔ WellFormed u
  | [] => by simp [wf, WellFormed]
  | [a] => by
    simp only [wf, Bool.and_eq_true, Bool.not_eq_true']
    constructor
    · rintro ⟨h1, h2⟩
      refine ⟨fun i x hx hh => ?_, fun i x hx hl => ?_⟩
      · cases i with
        | zero => simp at hx; subst hx; simp [h1] at hh
        | succ i => simp at hx
      · cases i with
        | zero => simp at hx; subst hx; simp [h2] at hl
        | succ i => simp at hx
    · rintro ⟨h1, h2⟩
      constructor
      · rw [← Bool.not_eq_true]; intro h
        obtain ⟨b, hb, _⟩ := h1 0 a rfl h
        simp at hb
      · rw [← Bool.not_eq_true]; intro h
        obtain ⟨j, _, hj, _⟩ := h2 0 a rfl h
        omega
  | a :: b :: r => by
    by_cases h1 : isHigh a = true
    · have ha := high_not_low h1
      simp only [wf, h1, if_true, Bool.and_eq_true]
      constructor
      · rintro ⟨hb, hr⟩
        obtain ⟨r1, r2⟩ := (wf_iff r).1 hr
        have hbh : isHigh b = false := by
          rw [← Bool.not_eq_true]; intro h; rw [high_not_low h] at hb; cases hb
        refine ⟨fun i x hx hh => ?_, fun i x hx hl => ?_⟩
        · match i, hx with
          | 0, hx => exact ⟨b, rfl, hb⟩
          | 1, hx => simp at hx; subst hx; simp [hbh] at hh
          | i + 2, hx => exact r1 i x (by simpa using hx) hh
        · match i, hx with
          | 0, hx => simp at hx; subst hx; simp [ha] at hl
          | 1, hx => exact ⟨0, a, rfl, rfl, h1⟩
          | i + 2, hx =>
            obtain ⟨j, y, hj, hy, hyh⟩ := r2 i x (by simpa using hx) hl
            exact ⟨j + 2, y, by omega, by simpa using hy, hyh⟩
      · rintro ⟨r1, r2⟩
        obtain ⟨b', hb', hbl⟩ := r1 0 a rfl h1
        simp at hb'; subst hb'
        have hbh : isHigh b = false := by
          rw [← Bool.not_eq_true]; intro h; rw [high_not_low h] at hbl; cases hbl
        refine ⟨hbl, (wf_iff r).2 ⟨fun i x hx hh => ?_, fun i x hx hl => ?_⟩⟩
        · obtain ⟨y, hy, hyl⟩ := r1 (i + 2) x (by simpa using hx) hh
          exact ⟨y, by simpa using hy, hyl⟩
        · obtain ⟨j, y, hj, hy, hyh⟩ := r2 (i + 2) x (by simpa using hx) hl
          match j, hj, hy with
          | 0, hj, hy => omega
          | 1, hj, hy => simp at hy; subst hy; simp [hbh] at hyh
          | j + 2, hj, hy => exact ⟨j, y, by omega, by simpa using hy, hyh⟩
    · rw [Bool.not_eq_true] at h1
      simp only [wf, h1, Bool.false_eq_true, if_false, Bool.and_eq_true, Bool.not_eq_true']
      constructor
      · rintro ⟨ha, hr⟩
        obtain ⟨r1, r2⟩ := (wf_iff (b :: r)).1 hr
        refine ⟨fun i x hx hh => ?_, fun i x hx hl => ?_⟩
        · match i, hx with
          | 0, hx => simp at hx; subst hx; simp [h1] at hh
          | i + 1, hx =>
            obtain ⟨y, hy, hyl⟩ := r1 i x (by simpa using hx) hh
            exact ⟨y, by simpa using hy, hyl⟩
        · match i, hx with
          | 0, hx => simp at hx; subst hx; simp [ha] at hl
          | i + 1, hx =>
            obtain ⟨j, y, hj, hy, hyh⟩ := r2 i x (by simpa using hx) hl
            exact ⟨j + 1, y, by omega, by simpa using hy, hyh⟩
      · rintro ⟨r1, r2⟩
        refine ⟨?_, (wf_iff (b :: r)).2 ⟨fun i x hx hh => ?_, fun i x hx hl => ?_⟩⟩
        · rw [← Bool.not_eq_true]; intro h
          obtain ⟨j, _, hj, _⟩ := r2 0 a rfl h
          omega
        · obtain ⟨y, hy, hyl⟩ := r1 (i + 1) x (by simpa using hx) hh
          exact ⟨y, by simpa using hy, hyl⟩
        · obtain ⟨j, y, hj, hy, hyh⟩ := r2 (i + 1) x (by simpa using hx) hl
          match j, hj, hy with
          | 0, hj, hy => simp at hy; subst hy; simp [h1] at hyh
          | j + 1, hj, hy => exact ⟨j, y, by omega, by simpa using hy, hyh⟩

/-! ### Keys -/

/-- Value of a string of digits. -/
def value (s : Units) : Nat := s.foldl (fun n u => 10 * n + (u.toNat - 48)) 0

theorem value_snoc (s : Units) (u : UInt16) : value (s ++ [u]) = 10 * value s + (u.toNat - 48) := by simp [value]

/-- Units of the decimal digits. -/
theorem encode_append (s t : List Char) : encode (s ++ t) = encode s ++ encode t := by simp [encode]

theorem encode_digit {d : Nat} (h : d < 10) : encode [Char.ofNat (48 + d)] = [UInt16.ofNat (48 + d)] := by
  have : (Char.ofNat (48 + d)).toNat = 48 + d := ofNat_toNat (by omega)
  rw [encode_cons]
  unfold encodeChar
  rw [this, if_pos (by omega)]; rfl

theorem digit_toNat {d : Nat} (h : d < 10) : (UInt16.ofNat (48 + d)).toNat = 48 + d := unit_toNat (by omega)

theorem decimal_lt {n : Nat} (h : n < 10) : decimal n = [Char.ofNat (48 + n)] := by rw [decimal, if_pos h]
theorem decimal_ge {n : Nat} (h : ¬ n < 10) : decimal n = decimal (n / 10) ++ [Char.ofNat (48 + n % 10)] := by rw [decimal, if_neg h]

theorem decimal_spec (n : Nat) : value (encode (decimal n)) = n ∧ encode (decimal n) ≠ [] ∧ (encode (decimal n)).all isDigit = true ∧
    ((encode (decimal n)).head? = some 48 → n = 0) := by
  induction n using Nat.strongRecOn with
  | ind n ih =>
    by_cases h : n < 10
    · rw [decimal_lt h, encode_digit h]
      have hd := digit_toNat h
      refine ⟨by simp only [value, List.foldl_cons, List.foldl_nil, hd]; omega, by simp, ?_, ?_⟩
      · simp only [List.all_cons, List.all_nil, Bool.and_true, isDigit, hd]
        simp; omega
      intro h0
      simp only [List.head?_cons, Option.some.injEq] at h0
      have : (UInt16.ofNat (48 + n)).toNat = (48 : UInt16).toNat := by rw [h0]
      rw [hd] at this
      have h48 : (48 : UInt16).toNat = 48 := rfl
      omega
    · obtain ⟨h1, h2, h3, h4⟩ := ih (n / 10) (by omega)
      have hm : n % 10 < 10 := by omega
      have hd := digit_toNat hm
      rw [decimal_ge h, encode_append, encode_digit hm]
      refine ⟨by rw [value_snoc, h1, hd]; omega, by simp, ?_, ?_⟩
      · simp only [List.all_append, h3, Bool.true_and, List.all_cons, List.all_nil, Bool.and_true, isDigit, hd]
        simp; omega
      · intro h0
        rw [List.head?_append] at h0
        cases hh : (encode (decimal (n / 10))).head? with
        | none => rw [List.head?_eq_none_iff] at hh; exact absurd hh h2
        | some x =>
          rw [hh] at h0 h4
          simp only [Option.some_or] at h0
          have := h4 h0
          omega

theorem keyOf_def (s : Units) : keyOf s =
    if s ≠ [] ∧ s.all isDigit = true ∧ (s.head? = some 48 → s.length = 1) ∧ value s < 2 ^ 32 - 1 then .index (value s) else .name s := rfl

theorem keyOf_decimal {n : Nat} (h : n < 2 ^ 32 - 1) : keyOf (encode (decimal n)) = .index n := by
  obtain ⟨h1, h2, h3, h4⟩ := decimal_spec n
  rw [keyOf_def, if_pos]
  · rw [h1]
  · refine ⟨h2, h3, fun h0 => ?_, by rw [h1]; exact h⟩
    have := h4 h0
    rw [this, decimal_lt (by omega), encode_digit (by omega)]; rfl

theorem value_pos : ∀ {s : Units}, s ≠ [] → s.all isDigit = true → s.head? ≠ some 48 → 0 < value s := by
  intro s
  generalize hn : s.length = n
  induction n generalizing s with
  | zero => intro h; rw [List.length_eq_zero_iff] at hn; exact absurd hn h
  | succ n ih =>
    intro _ ha hh
    rcases List.eq_nil_or_concat s with rfl | ⟨t, u, rfl⟩
    · simp at hn
    · rw [List.concat_eq_append] at *
      rw [value_snoc]
      by_cases ht : t = []
      · subst ht
        simp only [List.nil_append, List.head?_cons, ne_eq, Option.some.injEq] at hh
        simp only [List.nil_append, List.all_cons, List.all_nil, Bool.and_true, isDigit, Bool.and_eq_true, decide_eq_true_eq] at ha
        have : u.toNat ≠ 48 := fun h => hh (unit_ext h)
        omega
      · have ha' : t.all isDigit = true := by simp only [List.all_append, Bool.and_eq_true] at ha; exact ha.1
        have hh' : t.head? ≠ some 48 := by
          cases t with
          | nil => exact absurd rfl ht
          | cons x t => simpa using hh
        have := ih (s := t) (by simpa using hn) ht ha' hh'
        omega

theorem canonical : ∀ {s : Units}, s ≠ [] → s.all isDigit = true → (s.head? = some 48 → s.length = 1) → s = encode (decimal (value s)) := by
  intro s
  generalize hn : s.length = n
  induction n generalizing s with
  | zero => intro h; rw [List.length_eq_zero_iff] at hn; exact absurd hn h
  | succ n ih =>
    intro _ ha hh
    rcases List.eq_nil_or_concat s with rfl | ⟨t, u, rfl⟩
    · simp at hn
    · rw [List.concat_eq_append] at *
      simp only [List.all_append, List.all_cons, List.all_nil, Bool.and_true, Bool.and_eq_true] at ha
      have hu : 48 ≤ u.toNat ∧ u.toNat ≤ 57 := by simpa [isDigit] using ha.2
      rw [value_snoc]
      by_cases ht : t = []
      · subst ht
        have hv : value [] = 0 := rfl
        rw [hv, Nat.mul_zero, Nat.zero_add, decimal_lt (by omega), encode_digit (by omega)]
        simp only [List.nil_append]
        congr 1
        exact unit_ext (by rw [digit_toNat (by omega)]; omega)
      · have hh' : t.head? ≠ some 48 := by
          intro h0
          have h1 : (t ++ [u]).head? = some 48 := by
            cases t with
            | nil => exact absurd rfl ht
            | cons x t => simpa using h0
          have h2 := hh h1
          have h3 : t.length ≠ 0 := fun h => ht (List.length_eq_zero_iff.1 h)
          have h4 : (t ++ [u]).length = t.length + 1 := by simp
          omega
        have hp := value_pos ht ha.1 hh'
        have hlt : t.length = n := by simpa using hn
        have := ih (s := t) hlt ht ha.1 (fun h0 => absurd h0 hh')
        rw [decimal_ge (by omega), encode_append, encode_digit (by omega)]
        have hd : (10 * value t + (u.toNat - 48)) / 10 = value t := by omega
        rw [hd, ← this]
        congr 2
        exact unit_ext (by rw [digit_toNat (by omega)]; omega)

theorem keyOf_inj {s t : Units} (h : keyOf s = keyOf t) : s = t := by
  rw [keyOf_def, keyOf_def] at h
  split at h
  · rename_i hs
    split at h
    · rename_i ht
      injection h with h
      rw [canonical hs.1 hs.2.1 hs.2.2.1, canonical ht.1 ht.2.1 ht.2.2.1, h]
    · cases h
  · split at h
    · cases h
    · injection h

theorem key_inj {s t : List Char} (h : keyOf (encode s) = keyOf (encode t)) : s = t := encode_inj (keyOf_inj h)

/-! ### Numbers -/

theorem roundAt_exact {e a : Nat} (h : 2 ^ e ∣ a) : roundAt e a * 2 ^ e = a := by
  have h0 : a % 2 ^ e = 0 := Nat.mod_eq_zero_of_dvd h
  have hp : 0 < 2 ^ e := Nat.two_pow_pos e
  rw [roundAt, h0, if_pos (by omega)]
  exact Nat.div_mul_cancel h

theorem roundAt_near (e a : Nat) : 2 * (roundAt e a * 2 ^ e) ≤ 2 * a + 2 ^ e ∧ 2 * a ≤ 2 * (roundAt e a * 2 ^ e) + 2 ^ e := by
  have hd := Nat.div_add_mod a (2 ^ e)
  have hm := Nat.mod_lt a (Nat.two_pow_pos e)
  rw [Nat.mul_comm] at hd
  unfold roundAt
  split
  · omega
  · split
    · rw [Nat.add_mul]; omega
    · have h2 : a / 2 ^ e % 2 = 0 ∨ a / 2 ^ e % 2 = 1 := by omega
      rcases h2 with h2 | h2 <;> rw [h2]
      · rw [Nat.add_zero]; omega
      · rw [Nat.add_mul]; omega

/-- The rounded magnitude of an integer. -/
def mag (a : Nat) : Nat := if a ≤ 2 ^ 53 then a else roundAt (a.log2 - 52) a * 2 ^ (a.log2 - 52)

theorem ofInt_isInt (i : Int) : IsInt (ofInt i) (i.sign * mag i.natAbs) := by
  unfold ofInt mag
  split
  · rw [Int.sign_mul_natAbs]; exact Js.isInt_fin i
  · simp only [IsInt]
    have h1 : (((i.natAbs.log2 - 52 : Nat) : Int)).toNat = i.natAbs.log2 - 52 := by omega
    have h2 : (-((i.natAbs.log2 - 52 : Nat) : Int)).toNat = 0 := by omega
    rw [h1, h2]
    simp [Int.mul_assoc]

theorem log2_bounds {a : Nat} (h : 2 ^ 53 < a) : 53 ≤ a.log2 ∧ 2 ^ a.log2 ≤ a ∧ a < 2 ^ (a.log2 + 1) := by
  have h0 : a ≠ 0 := by omega
  exact ⟨(Nat.le_log2 h0).2 (by omega), Nat.log2_self_le h0, Nat.lt_log2_self⟩

theorem mag_near (a : Nat) : 2 ^ 53 * mag a ≤ (2 ^ 53 + 1) * a ∧ 2 ^ 53 * a ≤ 2 ^ 53 * mag a + a := by
  unfold mag
  split
  · omega
  · rename_i h
    obtain ⟨h1, h2, h3⟩ := log2_bounds (a := a) (by omega)
    have hn := roundAt_near (a.log2 - 52) a
    have hp : 2 ^ a.log2 = 2 ^ (a.log2 - 52) * 2 ^ 52 := by rw [← Nat.pow_add]; congr 1; omega
    generalize roundAt (a.log2 - 52) a * 2 ^ (a.log2 - 52) = x at *
    generalize 2 ^ (a.log2 - 52) = p at *
    omega

theorem mag_exact {a m k : Nat} (h : a = m * 2 ^ k) (hm : m < 2 ^ 53) : mag a = a := by
  unfold mag
  split
  · rfl
  · rename_i h0
    obtain ⟨h1, h2, h3⟩ := log2_bounds (a := a) (by omega)
    refine roundAt_exact ?_
    have hlt : a < 2 ^ (53 + k) := by
      rw [h, Nat.pow_add]; exact Nat.mul_lt_mul_of_pos_right hm (Nat.two_pow_pos k)
    have : a.log2 < 53 + k := (Nat.pow_lt_pow_iff_right (by omega)).1 (Nat.lt_of_le_of_lt h2 hlt)
    rw [h]
    rw [h] at this
    exact Nat.dvd_trans (Nat.pow_dvd_pow 2 (by omega)) (Nat.dvd_mul_left _ _)

theorem asInt_ofInt (s : Bool) (n : Nat) (i : Int) : asInt s n (ofInt i) = saturate s n (i.sign * mag i.natAbs) := by
  have h := ofInt_isInt i
  cases hx : ofInt i with
  | fin m e => rw [hx] at h; simp only [asInt, Js.trunc_isInt h]
  | nan => rw [hx] at h; exact h.elim
  | inf b => rw [hx] at h; exact h.elim

/-! ### Objects -/

theorem ascii_plain {name : List Char} (h : Plain name) :
    keyOf (encode name) ≠ .name (ascii "__proto__") ∧ keyOf (encode name) ≠ .name (ascii "length") := by
  constructor
  · intro h'
    have : keyOf (encode "__proto__".toList) = .name (ascii "__proto__") := by decide +kernel
    rw [← this] at h'
    exact h.1 (key_inj h')
  · intro h'
    have : keyOf (encode "length".toList) = .name (ascii "length") := by decide +kernel
    rw [← this] at h'
    exact h.2 (key_inj h')

theorem not_special {name : List Char} (h : Plain name) {o : Obj} (ho : o.kind ≠ .bytes) : special o (keyOf (encode name)) = false := by
  obtain ⟨h1, h2⟩ := ascii_plain h
  simp [special, h1, h2, ho]

theorem get_eq (G : Engine) (o : Obj) (k : Key) (ho : o.kind ≠ .bytes) (hl : ¬ (o.kind = .array ∧ k = .name (ascii "length"))) :
    o.get G k = match o.props.lookup k with
      | some v => v
      | none => if o.kind = .error ∧ k = .name (ascii "message") then .str o.message else G.inherited o.kind k := by
  obtain ⟨kd, props, len, bytes, message, frozen⟩ := o
  cases kd with
  | bytes => exact absurd rfl ho
  | array =>
    have : k ≠ .name (ascii "length") := fun h => hl ⟨rfl, h⟩
    simp only [Obj.get, this, and_false, if_false] <;> rfl
  | _ => simp [Obj.get] <;> rfl

theorem get_set_same (G : Engine) (o : Obj) (k : Key) (v : V) (ho : o.kind ≠ .bytes)
    (hk : ¬ (o.kind = .array ∧ k = .name (ascii "length"))) : (o.set k v).get G k = v := by
  rw [get_eq G (o.set k v) k ho hk]
  simp [Obj.set]

theorem get_set_other (G : Engine) (o : Obj) {k k' : Key} (v : V) (ho : o.kind ≠ .bytes) (hk : k' ≠ k)
    (hl : ¬ (o.kind = .array ∧ k' = .name (ascii "length"))) : (o.set k v).get G k' = o.get G k' := by
  rw [get_eq G (o.set k v) k' ho hl, get_eq G o k' ho hl]
  have : (k' == k) = false := by simpa using hk
  simp only [Obj.set, List.lookup_cons, this] <;> rfl

theorem set_ok {G : Engine} {h : Heap} {i : Nat} {ob : Obj} (hi : h[i]? = some ob) (hf : ob.frozen = false) (hb : ob.kind ≠ .bytes)
    {name : List Char} (hn : Plain name) (v : V) :
    setNamed G h (.obj i) name v = .ok (h.set i (ob.set (keyOf (encode name)) v)) := by
  simp [setNamed, hi, not_special hn hb, hf]

theorem get_at {h : Heap} {i : Nat} {ob : Obj} (hi : h[i]? = some ob) (x : Obj) : (h.set i x)[i]? = some x := by
  have : i < h.length := by
    rw [List.getElem?_eq_some_iff] at hi; exact hi.1
  simp [this]

theorem plain_decimal {n : Nat} (h : n < 2 ^ 32 - 1) : Plain (decimal n) := by
  have hk := keyOf_decimal h
  constructor <;> intro he <;> rw [he] at hk
  · have : keyOf (encode "__proto__".toList) = .name (ascii "__proto__") := by decide +kernel
    rw [this] at hk; cases hk
  · have : keyOf (encode "length".toList) = .name (ascii "length") := by decide +kernel
    rw [this] at hk; cases hk

/-- `ob` is an array of exactly the elements `ws`. -/
structure Elems (ob : Obj) (ws : List V) : Prop where
  kind : ob.kind = .array
  free : ob.frozen = false
  len : ob.len = ws.length
  mem : ∀ k, ob.props.lookup k = match k with
    | .index j => ws[j]?
    | .name _ => none

theorem Elems.snoc {ob : Obj} {ws : List V} (e : Elems ob ws) (v : V) : Elems (ob.set (.index ws.length) v) (ws ++ [v]) := by
  refine ⟨e.kind, e.free, ?_, fun k => ?_⟩
  · simp only [Obj.set, e.kind, e.len, if_true, List.length_append, List.length_singleton]; omega
  · simp only [Obj.set, List.lookup_cons]
    cases k with
    | name s =>
      have : (Key.name s == Key.index ws.length) = false := rfl
      rw [this]; simp only [e.mem]
    | index j =>
      by_cases hj : j = ws.length
      · subst hj; simp
      · have : (Key.index j == Key.index ws.length) = false := by simpa using hj
        rw [this]
        simp only [e.mem]
        rw [List.getElem?_append]
        split
        · rfl
        · have h1 : ws[j]? = none := List.getElem?_eq_none (by omega)
          have h2 : ([v] : List V)[j - ws.length]? = none := List.getElem?_eq_none (by simp; omega)
          rw [h1, h2]

theorem fill_ok (G : Engine) (i : Nat) : ∀ (vs ws : List V) (h : Heap) (ob : Obj), h[i]? = some ob → Elems ob ws →
    ws.length + vs.length ≤ 2 ^ 32 - 1 →
    ∃ h' ob', fill G (.obj i) ws.length vs h = .ok h' ∧ h'[i]? = some ob' ∧ Elems ob' (ws ++ vs) ∧
      (∀ j, j ≠ i → h'[j]? = h[j]?)
  | [], ws, h, ob, hi, e, _ => ⟨h, ob, rfl, hi, by simpa using e, fun _ _ => rfl⟩
  | v :: vs, ws, h, ob, hi, e, hl => by
    simp only [List.length_cons] at hl
    have hn : ws.length < 2 ^ 32 - 1 := by omega
    have hs := set_ok (G := G) hi e.free (by rw [e.kind]; decide) (plain_decimal hn) v
    rw [keyOf_decimal hn] at hs
    obtain ⟨h', ob', h1, h2, h3, h4⟩ := fill_ok G i vs (ws ++ [v]) _ _ (get_at hi _) (e.snoc v) (by simp; omega)
    refine ⟨h', ob', ?_, h2, by simpa using h3, fun j hj => ?_⟩
    · simp only [fill, hs, Res.bind]
      simpa using h1
    · rw [h4 j hj, List.getElem?_set_ne (fun h => hj h.symm)]

theorem key_length : keyOf (encode "length".toList) = .name (ascii "length") := by decide +kernel
theorem key_message : keyOf (encode "message".toList) = .name (ascii "message") := by decide +kernel
theorem key_reason : keyOf (encode "reason".toList) = .name (ascii "reason") := by decide +kernel
theorem key_status : keyOf (encode "status".toList) = .name (ascii "status") := by decide +kernel

end Verif.Poly
