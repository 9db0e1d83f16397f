import Verif.Bytes.Model
/-! Byte-level lemmas: word encoding, field access, inline images. -/
namespace Verif.Bytes

theorem leBytes_length (k n : Nat) : (leBytes k n).length = k := by
  induction k generalizing n with
  | zero => rfl
  | succ k ih => simp [leBytes, ih]

theorem leVal_leBytes (k n : Nat) (h : n < 256 ^ k) : leVal (leBytes k n) = n := by
  induction k generalizing n with
  | zero => simp at h; simp [leBytes, leVal, h]
  | succ k ih =>
    have h1 : n / 256 < 256 ^ k := by
      rw [Nat.pow_succ] at h; omega
    have : (UInt8.ofNat (n % 256)).toNat = n % 256 := by
      simp only [UInt8.toNat_ofNat']; omega
    simp only [leBytes, leVal, ih _ h1, this]; omega

theorem leVal_lt (bs : List Byte) : leVal bs < 256 ^ bs.length := by
  induction bs with
  | nil => simp [leVal]
  | cons b bs ih =>
    have := b.toNat_lt
    simp only [leVal, List.length_cons, Nat.pow_succ]; omega

theorem leBytes_leVal (bs : List Byte) : leBytes bs.length (leVal bs) = bs := by
  induction bs with
  | nil => rfl
  | cons b bs ih =>
    have := b.toNat_lt
    have h1 : (b.toNat + 256 * leVal bs) % 256 = b.toNat := by omega
    have h2 : (b.toNat + 256 * leVal bs) / 256 = leVal bs := by omega
    simp only [List.length_cons, leBytes, leVal, h1, h2, ih, UInt8.ofNat_toNat]

theorem enc_length (t : Target) (n : Nat) : (enc t n).length = t.w := by
  unfold enc; split <;> simp [leBytes_length]

theorem dec_enc (t : Target) (n : Nat) (h : n < wordMax t) : dec t (enc t n) = n := by
  unfold dec enc; split <;> simp_all [leVal_leBytes, wordMax]

theorem dec_lt (t : Target) (bs : List Byte) (h : bs.length = t.w) : dec t bs < wordMax t := by
  unfold dec wordMax; rw [← h]; split
  · exact leVal_lt bs
  · simpa using leVal_lt bs.reverse

theorem enc_dec (t : Target) (bs : List Byte) (h : bs.length = t.w) : enc t (dec t bs) = bs := by
  unfold dec enc; rw [← h]; split
  · exact leBytes_leVal bs
  · have := leBytes_leVal bs.reverse
    simp only [List.length_reverse] at this
    rw [this, List.reverse_reverse]

theorem wordMax_pos (t : Target) : 0 < wordMax t := Nat.pow_pos (by omega)

theorem wordMax_ge (t : Target) : 65536 ≤ wordMax t := by
  have h := t.w_lo
  have : 256 ^ 2 ≤ 256 ^ t.w := Nat.pow_le_pow_right (by omega) h
  simpa [wordMax] using this

/-- Words fit. -/
structure Fields.Ok (t : Target) (f : Fields) : Prop where
  start : f.start < wordMax t
  len : f.len < wordMax t
  owner : f.owner < wordMax t
  cap : f.cap < wordMax t
  vt : f.vt < wordMax t

theorem Fields.raw_length (t : Target) (f : Fields) : (f.raw t).length = 5 * t.w := by
  simp [Fields.raw, enc_length]; omega

theorem drop_app {α} (a b : List α) (n : Nat) (h : a.length = n) : (a ++ b).drop n = b := by
  subst h; simp
theorem take_app {α} (a b : List α) (n : Nat) (h : a.length = n) : (a ++ b).take n = a := by
  subst h; simp
theorem drop_app_add {α} (a b : List α) (n k : Nat) (h : a.length = n) :
    (a ++ b).drop (n + k) = b.drop k := by
  subst h; simp [List.drop_append, List.drop_eq_nil_of_le]

theorem getWord_raw (t : Target) (f : Fields) :
    getWord t (f.raw t) 0 = dec t (enc t f.start) ∧ getWord t (f.raw t) 1 = dec t (enc t f.len)
    ∧ getWord t (f.raw t) 2 = dec t (enc t f.owner) ∧ getWord t (f.raw t) 3 = dec t (enc t f.cap)
    ∧ getWord t (f.raw t) 4 = dec t (enc t f.vt) := by
  have L := enc_length t
  unfold getWord Fields.raw
  refine ⟨?_, ?_, ?_, ?_, ?_⟩
  · rw [Nat.zero_mul, List.drop_zero, take_app _ _ _ (L _)]
  · rw [Nat.one_mul, drop_app _ _ _ (L _), take_app _ _ _ (L _)]
  · rw [show 2 * t.w = t.w + t.w by omega, drop_app_add _ _ _ _ (L _), drop_app _ _ _ (L _),
      take_app _ _ _ (L _)]
  · rw [show 3 * t.w = t.w + (t.w + t.w) by omega, drop_app_add _ _ _ _ (L _),
      drop_app_add _ _ _ _ (L _), drop_app _ _ _ (L _), take_app _ _ _ (L _)]
  · rw [show 4 * t.w = t.w + (t.w + (t.w + t.w)) by omega, drop_app_add _ _ _ _ (L _),
      drop_app_add _ _ _ _ (L _), drop_app_add _ _ _ _ (L _), drop_app _ _ _ (L _)]
    rw [List.take_of_length_le (by rw [L]; exact Nat.le_refl _)]

theorem fieldsOf_raw (t : Target) (f : Fields) (h : f.Ok t) : fieldsOf t (f.raw t) = f := by
  obtain ⟨h0, h1, h2, h3, h4⟩ := getWord_raw t f
  unfold fieldsOf
  rw [h0, h1, h2, h3, h4, dec_enc _ _ h.start, dec_enc _ _ h.len, dec_enc _ _ h.owner,
    dec_enc _ _ h.cap, dec_enc _ _ h.vt]

theorem chunk_length (t : Target) (r : Raw) (h : r.length = 5 * t.w) (i : Nat) (hi : i < 5) :
    ((r.drop (i * t.w)).take t.w).length = t.w := by
  have : (i + 1) * t.w ≤ 5 * t.w := Nat.mul_le_mul_right _ hi
  rw [Nat.add_mul, Nat.one_mul] at this
  simp [h]; omega

theorem getWord_lt (t : Target) (r : Raw) (h : r.length = 5 * t.w) (i : Nat) (hi : i < 5) :
    getWord t r i < wordMax t := dec_lt _ _ (chunk_length t r h i hi)

theorem fieldsOf_ok (t : Target) (r : Raw) (h : r.length = 5 * t.w) : (fieldsOf t r).Ok t :=
  ⟨getWord_lt t r h 0 (by omega), getWord_lt t r h 1 (by omega), getWord_lt t r h 2 (by omega),
   getWord_lt t r h 3 (by omega), getWord_lt t r h 4 (by omega)⟩

theorem raw_fieldsOf (t : Target) (r : Raw) (h : r.length = 5 * t.w) : (fieldsOf t r).raw t = r := by
  have e : ∀ i, i < 5 → enc t (getWord t r i) = (r.drop (i * t.w)).take t.w :=
    fun i hi => enc_dec t _ (chunk_length t r h i hi)
  simp only [Fields.raw, fieldsOf, e 0 (by omega), e 1 (by omega), e 2 (by omega), e 3 (by omega),
    e 4 (by omega)]
  have c : ∀ n, (r.drop n).take t.w ++ r.drop (n + t.w) = r.drop n := by
    intro n; rw [← List.drop_drop, List.take_append_drop]
  have last : (r.drop (4 * t.w)).take t.w = r.drop (4 * t.w) :=
    List.take_of_length_le (by simp [h]; omega)
  rw [last]
  have c3 := c (3 * t.w); rw [show 3 * t.w + t.w = 4 * t.w by omega] at c3
  have c2 := c (2 * t.w); rw [show 2 * t.w + t.w = 3 * t.w by omega] at c2
  have c1 := c (1 * t.w); rw [show 1 * t.w + t.w = 2 * t.w by omega] at c1
  have c0 := c (0 * t.w); rw [show 0 * t.w + t.w = 1 * t.w by omega] at c0
  rw [c3, c2, c1, c0]; simp

theorem setWord_length (t : Target) (r : Raw) (h : r.length = 5 * t.w) (i n : Nat) (hi : i < 5) :
    (setWord t r i n).length = 5 * t.w := by
  have h1 : (i + 1) * t.w ≤ 5 * t.w := Nat.mul_le_mul_right _ hi
  rw [Nat.add_mul, Nat.one_mul] at h1
  simp only [setWord, List.length_append, List.length_take, List.length_drop, enc_length, h, Nat.add_mul, Nat.one_mul]
  omega

theorem setWord0_raw (t : Target) (f : Fields) (n : Nat) :
    setWord t (f.raw t) 0 n = { f with start := n }.raw t := by
  have L := enc_length t
  unfold setWord Fields.raw
  rw [Nat.zero_mul, List.take_zero, Nat.zero_add, Nat.one_mul, drop_app _ _ _ (L _)]; rfl

theorem setWord1_raw (t : Target) (f : Fields) (n : Nat) :
    setWord t (f.raw t) 1 n = { f with len := n }.raw t := by
  have L := enc_length t
  unfold setWord Fields.raw
  rw [Nat.one_mul, take_app _ _ _ (L _), show (1 + 1) * t.w = t.w + t.w by omega,
    drop_app_add _ _ _ _ (L _), drop_app _ _ _ (L _)]

/-! ### the length byte -/

theorem maxInline_lt (t : Target) : maxInline t < 5 * t.w := by
  have := t.w_lo
  unfold maxInline sizeOf; split <;> omega

theorem maxInline_ge (t : Target) : 4 * t.w ≤ maxInline t := by
  have := t.w_lo
  unfold maxInline sizeOf; split <;> omega

theorem maxInline_le (t : Target) : maxInline t ≤ 127 := by
  have := t.w_lo; have := t.w_hi
  unfold maxInline sizeOf; split <;> omega

/-- The byte at `MAX_INLINE_SIZE` is the low byte of the `vtable` word, on both byte orders. -/
theorem lenByte_eq (t : Target) (f : Fields) : lenByte t (f.raw t) = UInt8.ofNat (f.vt % 256) := by
  have L := enc_length t
  have hw := t.w_lo
  obtain ⟨k, hk⟩ : ∃ k, t.w = k + 1 := ⟨t.w - 1, by omega⟩
  have key : ∀ (a b : List Byte) (n k : Nat), a.length = n → (a ++ b)[n + k]? = b[k]? := by
    intro a b n k h; subst h; rw [List.getElem?_append_right (by omega), Nat.add_sub_cancel_left]
  simp only [lenByte, Fields.raw, maxInline, sizeOf]
  by_cases hl : t.little
  · rw [if_pos hl, show 5 * t.w - t.w = t.w + (t.w + (t.w + (t.w + 0))) by omega,
      key _ _ _ _ (L _), key _ _ _ _ (L _), key _ _ _ _ (L _), key _ _ _ _ (L _)]
    simp [enc, hl, hk, leBytes]
  · rw [if_neg hl, show 5 * t.w - 1 = t.w + (t.w + (t.w + (t.w + (t.w - 1)))) by omega,
      key _ _ _ _ (L _), key _ _ _ _ (L _), key _ _ _ _ (L _), key _ _ _ _ (L _)]
    simp [enc, hl, hk, leBytes, leBytes_length]

theorem u8_even (n : Nat) (h : n % 2 = 0) : (UInt8.ofNat (n % 256) &&& 1) = 0 := by
  have h2 : n % 256 % 2 = 0 := by omega
  have h3 : n % 256 < 256 := by omega
  apply UInt8.toNat_inj.mp
  have e : (1 : UInt8).toNat = 1 := rfl
  rw [UInt8.toNat_and, e, Nat.and_one_is_mod]
  simp [h2]

theorem isInlined_raw (t : Target) (f : Fields) (h : f.vt % 2 = 0) : isInlined t (f.raw t) = false := by
  unfold isInlined; rw [lenByte_eq, u8_even _ h]; rfl

theorem inline_length (t : Target) (s : List Byte) (h : s.length ≤ maxInline t) :
    (inlineUnchecked t s).length = 5 * t.w := by
  have := maxInline_lt t
  simp [inlineUnchecked, sizeOf]; omega

theorem lenByte_inline (t : Target) (s : List Byte) (h : s.length ≤ maxInline t) :
    lenByte t (inlineUnchecked t s) = (1 : UInt8) ||| (UInt8.ofNat s.length <<< 1) := by
  have := maxInline_lt t
  have hl : maxInline t < (s ++ List.replicate (sizeOf t - s.length) (0 : UInt8)).length := by
    simp [sizeOf]; omega
  unfold lenByte inlineUnchecked
  simp only [List.getElem?_set_self hl, Option.getD_some]

theorem tag_bits : ∀ n : Fin 128, (((1 : UInt8) ||| (UInt8.ofNat n.val <<< 1)) &&& 1) ≠ 0
    ∧ ((1 : UInt8) ||| (UInt8.ofNat n.val <<< 1)).toNat >>> 1 = n.val := by decide

theorem isInlined_inline (t : Target) (s : List Byte) (h : s.length ≤ maxInline t) :
    isInlined t (inlineUnchecked t s) = true := by
  have hm := maxInline_le t
  unfold isInlined; rw [lenByte_inline _ _ h]
  have := (tag_bits ⟨s.length, by omega⟩).1
  simpa using this

theorem lenOf_inline (t : Target) (s : List Byte) (h : s.length ≤ maxInline t) :
    lenOf t (inlineUnchecked t s) = s.length := by
  have hm := maxInline_le t
  unfold lenOf; rw [isInlined_inline _ _ h, if_pos rfl, lenByte_inline _ _ h]
  exact (tag_bits ⟨s.length, by omega⟩).2

theorem take_inline (t : Target) (s : List Byte) (h : s.length ≤ maxInline t) :
    (inlineUnchecked t s).take s.length = s := by
  unfold inlineUnchecked
  rw [List.take_set_of_le h]
  simp

theorem asSlice_inline (t : Target) (hp : List Alloc) (s : List Byte) (h : s.length ≤ maxInline t) :
    asSlice t hp (inlineUnchecked t s) = .ok s := by
  unfold asSlice; rw [isInlined_inline _ _ h, if_pos rfl, lenOf_inline _ _ h, take_inline _ _ h]

theorem getWord_fieldsOf (t : Target) (r : Raw) : getWord t r 0 = (fieldsOf t r).start
    ∧ getWord t r 1 = (fieldsOf t r).len ∧ getWord t r 2 = (fieldsOf t r).owner
    ∧ getWord t r 3 = (fieldsOf t r).cap ∧ getWord t r 4 = (fieldsOf t r).vt :=
  ⟨rfl, rfl, rfl, rfl, rfl⟩

end Verif.Bytes
