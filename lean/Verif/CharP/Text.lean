import Verif.CharP.Spec

/-! # Lemmas on bytes, NUL and UTF-8 -/
namespace Verif.CharP

theorem ofNat_eq_zero {n : Nat} (h : n < 256) : UInt8.ofNat n = 0 ↔ n = 0 := by
  constructor
  · intro e
    have := congrArg UInt8.toNat e
    simp [UInt8.toNat_ofNat'] at this
    omega
  · rintro rfl; rfl

/-- Only the NUL character has a NUL byte in its encoding. -/
theorem zero_mem_enc (c : Char) : (0 : Byte) ∈ String.utf8EncodeChar c ↔ c = '\x00' := by
  have hv := c.val.toNat_lt
  have h0 : c.val.toNat = 0 ↔ c = '\x00' := by
    constructor
    · intro h
      apply Char.ext
      apply UInt32.toNat_inj.mp
      simpa using h
    · rintro rfl; rfl
  unfold String.utf8EncodeChar
  simp only
  split
  · rw [List.mem_singleton, eq_comm, ofNat_eq_zero (by omega), h0]
  · rename_i hgt
    have hne : c ≠ '\x00' := fun e => by have := h0.2 e; omega
    simp only [hne, iff_false]
    split
    · simp only [List.mem_cons, List.not_mem_nil, or_false, not_or]
      refine ⟨?_, ?_⟩ <;> rw [eq_comm, ofNat_eq_zero (by omega)] <;> omega
    · split
      · simp only [List.mem_cons, List.not_mem_nil, or_false, not_or]
        refine ⟨?_, ?_, ?_⟩ <;> rw [eq_comm, ofNat_eq_zero (by omega)] <;> omega
      · simp only [List.mem_cons, List.not_mem_nil, or_false, not_or]
        refine ⟨?_, ?_, ?_, ?_⟩ <;> rw [eq_comm, ofNat_eq_zero (by omega)] <;> omega

theorem enc_nul : String.utf8EncodeChar '\x00' = [0] := by decide

theorem zero_mem_utf8 (cs : List Char) : (0 : Byte) ∈ utf8 cs ↔ '\x00' ∈ cs := by
  simp only [utf8, List.mem_flatMap, zero_mem_enc]
  constructor
  · rintro ⟨c, h, rfl⟩; exact h
  · intro h; exact ⟨_, h, rfl⟩

theorem utf8_append (a b : List Char) : utf8 (a ++ b) = utf8 a ++ utf8 b := by simp [utf8]

theorem utf8_nul (a : List Char) : utf8 (a ++ ['\x00']) = utf8 a ++ [0] := by
  rw [utf8_append]; rfl

theorem utf8_eq_nil {cs : List Char} : utf8 cs = [] ↔ cs = [] := by
  cases cs with
  | nil => simp [utf8]
  | cons c cs => simp [utf8]

/-- A text whose encoding ends with a NUL byte ends with a NUL character. -/
theorem utf8_getLast {cs : List Char} (h : (utf8 cs).getLast? = some 0) :
    cs = cs.dropLast ++ ['\x00'] := by
  rcases List.eq_nil_or_concat cs with rfl | ⟨l, c, rfl⟩
  · simp [utf8] at h
  · simp only [List.concat_eq_append] at h ⊢
    rw [utf8_append, List.getLast?_append] at h
    have : (utf8 [c]).getLast? = some 0 := by
      cases hl : (utf8 [c]).getLast? with
      | none => rw [List.getLast?_eq_none_iff, utf8_eq_nil] at hl; simp at hl
      | some b => rw [hl] at h; simpa using h
    have hm : (0 : Byte) ∈ utf8 [c] := List.mem_of_getLast? this
    rw [zero_mem_utf8] at hm
    simp only [List.mem_singleton] at hm
    simp [← hm]

theorem toArray_toByteArray (b : Bytes) : ByteArray.mk b.toArray = b.toByteArray := by
  apply ByteArray.ext
  simp

/-- The UTF-8 test accepts exactly the encodings of texts. -/
theorem validUtf8_iff (b : Bytes) : validUtf8 b = true ↔ ∃ cs, b = utf8 cs := by
  unfold validUtf8
  rw [ByteArray.validateUTF8_eq_true_iff]
  constructor
  · rintro ⟨m, hm⟩
    refine ⟨m, ?_⟩
    rw [toArray_toByteArray] at hm
    have h2 := congrArg (fun x => x.data.toList) hm
    simpa [List.utf8Encode, utf8] using h2
  · rintro ⟨cs, rfl⟩
    exact ⟨cs, by rw [toArray_toByteArray]; rfl⟩

theorem valid_utf8 (cs : List Char) : validUtf8 (utf8 cs) = true := (validUtf8_iff _).2 ⟨cs, rfl⟩

theorem valid_nil : validUtf8 [] = true := (validUtf8_iff _).2 ⟨[], rfl⟩

theorem getLast?_eq_some_iff' {c : Bytes} {b : Byte} : c.getLast? = some b ↔ c = c.dropLast ++ [b] := by
  constructor
  · intro h
    obtain ⟨l, rfl⟩ := List.getLast?_eq_some_iff.1 h
    simp
  · intro h; rw [h]; simp

theorem valid_strip {c : Bytes} (h : validUtf8 c = true) : validUtf8 (strip c) = true := by
  unfold strip
  split
  · rename_i hl
    obtain ⟨cs, rfl⟩ := (validUtf8_iff _).1 h
    have h2 := utf8_getLast hl
    have h3 := getLast?_eq_some_iff'.1 hl
    rw [h2, utf8_nul] at h3 ⊢
    simp [valid_utf8]
  · exact h

theorem valid_append_nul {c : Bytes} (h : validUtf8 c = true) : validUtf8 (c ++ [0]) = true := by
  obtain ⟨cs, rfl⟩ := (validUtf8_iff _).1 h
  rw [← utf8_nul]; exact valid_utf8 _

/-! ### scanning -/

theorem bytesOf_app {d rest : Bytes} (h : 0 ∉ d) : bytesOf (d ++ 0 :: rest) = .ok d := by
  induction d with
  | nil => simp [bytesOf]
  | cons b d ih =>
    simp only [List.mem_cons, not_or] at h
    have hb : b ≠ 0 := fun e => h.1 e.symm
    simp [bytesOf, hb, ih h.2, bind, Except.bind]

theorem toBytes_app {d rest : Bytes} (h : 0 ∉ d) : toBytes (d ++ 0 :: rest) = .ok d := by
  simp [toBytes, count, bytesOf_app h, readN, bind, Except.bind]

theorem toBytesWithNull_app {d rest : Bytes} (h : 0 ∉ d) :
    toBytesWithNull (d ++ 0 :: rest) = .ok (d ++ [0]) := by
  simp [toBytesWithNull, count, bytesOf_app h, readN, bind, Except.bind, List.take_append, List.take_of_length_le]

theorem toStr_app {d rest : Bytes} (h : 0 ∉ d) (hu : validUtf8 d = true) :
    toStr (d ++ 0 :: rest) = .ok d := by
  simp [toStr, toBytes_app h, bind, Except.bind, hu]

theorem toStrWithNull_app {d rest : Bytes} (h : 0 ∉ d) (hu : validUtf8 d = true) :
    toStrWithNull (d ++ 0 :: rest) = .ok (d ++ [0]) := by
  simp [toStrWithNull, toBytesWithNull_app h, bind, Except.bind, valid_append_nul hu]

theorem position_none {s : Bytes} : position s = none ↔ 0 ∉ s := by
  induction s with
  | nil => simp [position]
  | cons b s ih =>
    by_cases hb : b = 0
    · simp [position, hb]
    · have : ¬ 0 = b := fun e => hb e.symm
      simp [position, hb, ih, this]

theorem position_some {s : Bytes} {n : Nat} :
    position s = some n ↔ ∃ d rest, s = d ++ 0 :: rest ∧ 0 ∉ d ∧ d.length = n := by
  induction s generalizing n with
  | nil => simp [position]
  | cons b s ih =>
    by_cases hb : b = 0
    · subst hb
      simp only [position, if_true, Option.some.injEq]
      constructor
      · rintro rfl; exact ⟨[], s, by simp⟩
      · rintro ⟨d, rest, e, hd, rfl⟩
        cases d with
        | nil => rfl
        | cons x d => simp only [List.cons_append, List.cons.injEq] at e; simp [← e.1] at hd
    · simp only [position, if_neg hb, Option.map_eq_some_iff]
      constructor
      · rintro ⟨m, hm, rfl⟩
        obtain ⟨d, rest, rfl, hd, rfl⟩ := ih.1 hm
        refine ⟨b :: d, rest, by simp, ?_, by simp⟩
        simp only [List.mem_cons, not_or]
        exact ⟨fun e => hb e.symm, hd⟩
      · rintro ⟨d, rest, e, hd, rfl⟩
        cases d with
        | nil => simp at e; exact absurd e.1 hb
        | cons x d =>
          simp only [List.cons_append, List.cons.injEq] at e
          simp only [List.mem_cons, not_or] at hd
          exact ⟨d.length, ih.2 ⟨d, rest, e.2, hd.2, rfl⟩, by simp⟩

/-- The first NUL is the last byte. -/
theorem position_last {s : Bytes} {l : Nat} (hl : s.length = l + 1) :
    position s = some l ↔ s = s.dropLast ++ [0] ∧ 0 ∉ s.dropLast := by
  rw [position_some]
  constructor
  · rintro ⟨d, rest, rfl, hd, rfl⟩
    have : rest = [] := by
      rw [List.length_append, List.length_cons] at hl
      exact List.length_eq_zero_iff.1 (by omega)
    subst this
    simpa using hd
  · rintro ⟨h1, h2⟩
    exact ⟨s.dropLast, [], h1, h2, by simp [hl]⟩

end Verif.CharP
