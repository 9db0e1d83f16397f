import Verif.Js.Helpers
import Verif.Js.ConvProps
import Verif.CharP.Props
/-!
# The JavaScript helper functions (C58, C59, C67)
-/
namespace Verif.Js
open Text Headers
open CharP (utf8 position toStr readN Reads validUtf8 zero_mem_utf8)

/-! ### Lemmas -/

theorem decode_utf8 (t : Text) : decode (utf8 t) = some t := by
  have hb : (⟨(utf8 t).toArray⟩ : ByteArray) = (String.ofList t).toByteArray := by
    rw [CharP.toArray_toByteArray]; rfl
  have hv : (⟨(utf8 t).toArray⟩ : ByteArray).IsValidUTF8 := by
    rw [hb]; exact (String.ofList t).isValidUTF8
  unfold decode String.fromUTF8?
  rw [dif_pos hv]
  simp only [Option.map_some, Option.some.injEq]
  have : String.fromUTF8 ⟨(utf8 t).toArray⟩ hv = String.ofList t := by
    apply String.toByteArray_inj.1
    exact hb
  rw [this]; simp

theorem position_c {t : Text} (h : '\x00' ∉ t) : position (utf8 t ++ [0]) = some (utf8 t).length := by
  have h0 : 0 ∉ utf8 t := fun e => h ((zero_mem_utf8 t).1 e)
  rw [CharP.position_last (l := (utf8 t).length) (by simp)]; simpa using h0

/-- The first NUL is the last byte of valid UTF-8: a text and a terminator. -/
theorem of_position {bytes : List UInt8} (hv : validUtf8 bytes = true) {l : Nat} (hl : bytes.length = l + 1)
    (hp : position bytes = some l) : ∃ t, '\x00' ∉ t ∧ bytes = utf8 t ++ [0] := by
  obtain ⟨e1, e2⟩ := (CharP.position_last hl).1 hp
  obtain ⟨cs, rfl⟩ := (CharP.validUtf8_iff _).1 hv
  have e3 := CharP.utf8_getLast (CharP.getLast?_eq_some_iff'.2 e1)
  rw [e3, CharP.utf8_nul] at e2
  simp only [List.dropLast_concat] at e2
  exact ⟨cs.dropLast, fun hm => e2 ((zero_mem_utf8 _).2 hm), by rw [← CharP.utf8_nul, ← e3]⟩

theorem textOf_c {t : Text} (h : '\x00' ∉ t) (rest : List UInt8) : textOf (utf8 t ++ 0 :: rest) = .ok t := by
  have := (CharP.reads_app h rest).2.2.1
  rw [textOf, this]
  simp [decode_utf8]

theorem at_usable (E : Env) (b : Nat → Text) (c c' : Bool) (to : CTy) (hw : wordy b to) (hm : c' = true → showsMut to = false)
    (hc : c = true → c' = true) (a : Nat) (ha : InRange E .usize a) :
    ∃ j, toPtr E b c to a = .ok j ∧ fromPtr E b c' to j = .ok (.addr a) := by
  cases c' with
  | true => exact C57_const_partial E b c to hw (hm rfl) a ha
  | false =>
    cases c with
    | true => exact absurd (hc rfl) (by simp)
    | false => exact C57_mut E b to a ha

/-! ### C58 -/

/-- The memory after a helper has placed `bytes` at `a`: nothing else changes. -/
def Placed (m m' : Mem) (a : Nat) (bytes : List UInt8) : Prop :=
  m' a = some (.bytes bytes) ∧ ∀ x, x ≠ a → m' x = m x

theorem placed_set (m : Mem) (a : Nat) (bytes : List UInt8) : Placed m (m.set a (some (.bytes bytes))) a bytes :=
  ⟨by simp [Mem.set], fun x h => by simp [Mem.set, h]⟩

/-- **C58.** The callback of `withCString` is called once, with a pointer that native code receives as a
C string (`char const *`) whose text is the JavaScript string. -/
theorem C58_string (E : Env) (b : Nat → Text) (at_ : Nat) (ha : InRange E .usize at_) (s : Text) (hs : '\x00' ∉ s)
    (cb : Cb) (m : Mem) :
    ∃ j m' bytes, withCString E b at_ (.str s) cb m = cb j m' ∧ fromPtr E b true cchar j = .ok (.addr at_) ∧
      Placed m m' at_ bytes ∧ Reads bytes s := by
  obtain ⟨j, h1, h2⟩ := at_usable E b true true cchar trivial (fun _ => rfl) (fun h => h) at_ ha
  have hp : position (utf8 s) = none := CharP.position_none.2 (fun h => hs ((zero_mem_utf8 s).1 h))
  refine ⟨j, m.set at_ (some (.bytes (utf8 s ++ [0]))), utf8 s ++ [0], ?_, h2, placed_set .., CharP.reads_app hs []⟩
  simp only [withCString, hp, h1, Res.bind]

/-- **C58.** A string that ends with a NUL, the only one, is taken as it is: the NUL is the terminator. -/
theorem C58_terminated (E : Env) (b : Nat → Text) (at_ : Nat) (ha : InRange E .usize at_) (s : Text) (hs : '\x00' ∉ s)
    (cb : Cb) (m : Mem) :
    ∃ j m' bytes, withCString E b at_ (.str (s ++ ['\x00'])) cb m = cb j m' ∧ fromPtr E b true cchar j = .ok (.addr at_) ∧
      Placed m m' at_ bytes ∧ Reads bytes s := by
  obtain ⟨j, h1, h2⟩ := at_usable E b true true cchar trivial (fun _ => rfl) (fun h => h) at_ ha
  refine ⟨j, m.set at_ (some (.bytes (utf8 s ++ [0]))), utf8 s ++ [0], ?_, h2, placed_set .., CharP.reads_app hs []⟩
  simp [withCString, CharP.utf8_nul, position_c hs, h1, Res.bind]

/-- **C58.** Any other string has a NUL inside, and is rejected; the callback is not called. -/
theorem C58_inner_nul (E : Env) (b : Nat → Text) (at_ : Nat) (s : Text) (h : '\x00' ∈ s)
    (hs : ¬ ∃ t, '\x00' ∉ t ∧ s = t ++ ['\x00']) : ∃ e, ∀ cb m, withCString E b at_ (.str s) cb m = .err e := by
  have hz := (zero_mem_utf8 s).2 h
  refine ⟨.invalidArg, fun cb m => ?_⟩
  simp only [withCString]
  cases hp : position (utf8 s) with
  | none => exact absurd hz (CharP.position_none.1 hp)
  | some n =>
    simp only
    rw [if_neg]
    intro hn
    have hl : (utf8 s).length = n + 1 := by
      have : 0 < (utf8 s).length := List.length_pos_of_mem hz
      omega
    obtain ⟨t, ht, e⟩ := of_position (CharP.valid_utf8 s) hl hp
    refine hs ⟨t, ht, ?_⟩
    rw [← CharP.utf8_nul] at e
    have := congrArg decode e
    rw [decode_utf8, decode_utf8] at this
    exact Option.some.inj this

/-- **C58.** `null` gives the null pointer, and what is neither a string nor `null` is rejected. -/
theorem C58_other (E : Env) (b : Nat → Text) (at_ : Nat) (cb : Cb) (m : Mem) :
    withCString E b at_ .null cb m = cb .null m ∧ fromPtr E b true cchar .null = .ok (.addr 0) ∧
    ∀ j, j ≠ .null → (∀ s, j ≠ .str s) → Rejected (withCString E b at_ j cb m) := by
  refine ⟨rfl, rfl, fun j h h' => ?_⟩
  cases j <;> first | exact ⟨_, rfl⟩ | exact absurd rfl h | exact absurd rfl (h' _)

/-- **C58.** A `Buffer` that holds a text followed by a NUL, the only one, is received as that C string. -/
theorem C58_buffer (E : Env) (b : Nat → Text) (t : Text) (h : '\x00' ∉ t) :
    ∃ bytes, fromPtr E b true cchar (.buf (utf8 t ++ [0])) = .ok (.mem bytes) ∧ Reads bytes t := by
  refine ⟨utf8 t ++ [0], ?_, CharP.reads_app h []⟩
  have hv : validUtf8 (utf8 t ++ [0]) = true := CharP.valid_append_nul (CharP.valid_utf8 t)
  simp [fromPtr, isCChar, fromBuffer, hv, lenMinusOne, Res.bind, position_c h]

/-- **C58 (partial).** Any other `Buffer` is rejected. Missing: the empty `Buffer`. -/
theorem C58_buffer_rejected_partial (E : Env) (b : Nat → Text) (bytes : List UInt8) (hne : bytes ≠ [])
    (h : ¬ ∃ t, '\x00' ∉ t ∧ bytes = utf8 t ++ [0]) : Rejected (fromPtr E b true cchar (.buf bytes)) := by
  have hf : fromPtr E b true cchar (.buf bytes) = fromBuffer E bytes := rfl
  rw [hf, fromBuffer]
  cases hv : validUtf8 bytes with
  | false => exact ⟨.invalidArg, rfl⟩
  | true =>
    have hl : bytes.length ≠ 0 := by simpa using hne
    simp only [Bool.not_true, Bool.false_eq_true, if_false, lenMinusOne, hl, Res.bind]
    rw [if_pos]
    · exact ⟨_, rfl⟩
    · exact fun e => h (of_position hv (by omega) e)

/-- **C58 fails** for the empty `Buffer`: the length minus one overflows, a panic when overflow is
checked. -/
theorem C58_fails_empty_buffer (E : Env) (b : Nat → Text) :
    (E.checks = true → fromPtr E b true cchar (.buf []) = .panic) ∧
    (E.checks = false → Rejected (fromPtr E b true cchar (.buf []))) := by
  have hf : fromPtr E b true cchar (.buf []) = fromBuffer E [] := rfl
  have hv : validUtf8 [] = true := CharP.valid_nil
  rw [hf, fromBuffer]
  simp only [hv, Bool.not_true, Bool.false_eq_true, if_false, lenMinusOne, List.length_nil, if_true, position]
  refine ⟨fun h => by simp [h, Res.bind], fun h => ⟨.invalidArg, by simp [h, Res.bind]⟩⟩

/-! ### C59 -/

/-- The callback, given a pointer that native code receives as the address `at_` of a variable of type `to`
holding `init`, leaves `final` there. -/
def Leaves (E : Env) (b : Nat → Text) (to : CTy) (at_ : Nat) (init final : Cell) (cb : Cb) (m m' : Mem) : Prop :=
  ∀ j m0, fromPtr E b false to j = .ok (.addr at_) → m0 at_ = some init → (∀ x, x ≠ at_ → m0 x = m x) →
    (∃ r, cb j m0 = .ok (r, m')) ∧ m' at_ = some final

theorem withOutU64_ok (E : Env) (b : Nat → Text) (at_ : Nat) (ha : InRange E .usize at_) (cb : Cb) (m m' : Mem) (v : Nat)
    (hcb : Leaves E b (.int .u64) at_ (.u64 0) (.u64 v) cb m m') :
    withOutU64 E b at_ cb m = (toInt E .i64 (wrap true 64 v)).map fun j => (j, m') := by
  obtain ⟨j, h1, h2⟩ := C57_mut E b (.int .u64) at_ ha
  obtain ⟨⟨r, hr⟩, hm⟩ := hcb j (m.set at_ (some (.u64 0))) h2 (by simp [Mem.set]) (fun x h => by simp [Mem.set, h])
  simp [withOutU64, h1, Res.bind, hr, hm]

/-- **C59 (partial).** `withOutU64` returns the value left by the native function in its out-parameter.
Missing: values of `2 ^ 63` and more. -/
theorem C59_partial (E : Env) (b : Nat → Text) (at_ : Nat) (ha : InRange E .usize at_) (cb : Cb) (m m' : Mem) (v : Nat)
    (hv : v < 2 ^ 63) (hcb : Leaves E b (.int .u64) at_ (.u64 0) (.u64 v) cb m m') :
    ∃ j, withOutU64 E b at_ cb m = .ok (j, m') ∧ Denotes j v ∧ fromInt E .u64 j = .ok v := by
  have hw : wrap true 64 (v : Int) = v := by simp only [wrap, if_true]; omega
  obtain ⟨j, h1, h2, h3⟩ := C55_exact E .i64 v (by simp only [InRange]; omega)
  refine ⟨j, by rw [withOutU64_ok E b at_ ha cb m m' v hcb, hw, h1]; rfl, h2, ?_⟩
  refine (C64_partial E .u64 (by simp [wideTypes]) j v h2 (fun _ _ => by omega) (fun _ _ _ => .inl (by omega))).1 ?_
  simp only [InRange]; omega

/-- **C59 fails** for the values of `2 ^ 63` and more: JavaScript gets the negative `v - 2 ^ 64`. -/
theorem C59_fails (E : Env) (b : Nat → Text) (at_ : Nat) (ha : InRange E .usize at_) (cb : Cb) (m m' : Mem) (v : Nat)
    (hv : 2 ^ 63 ≤ v) (hv' : v < 2 ^ 64) (hcb : Leaves E b (.int .u64) at_ (.u64 0) (.u64 v) cb m m') :
    ∃ j, withOutU64 E b at_ cb m = .ok (j, m') ∧ Denotes j (v - 2 ^ 64) ∧ (v - 2 ^ 64 : Int) < 0 := by
  have hw : wrap true 64 (v : Int) = v - 2 ^ 64 := by simp only [wrap, if_true]; omega
  obtain ⟨j, h1, h2, h3⟩ := C55_exact E .i64 (v - 2 ^ 64) (by simp only [InRange]; omega)
  exact ⟨j, by rw [withOutU64_ok E b at_ ha cb m m' v hcb, hw, h1]; rfl, h2, by omega⟩

/-- **C59.** `withOutBoolean` returns the boolean left by the native function. -/
theorem C59_boolean (E : Env) (b : Nat → Text) (at_ : Nat) (ha : InRange E .usize at_) (cb : Cb) (m m' : Mem) (v : Bool)
    (hcb : Leaves E b .bool at_ (.bool false) (.bool v) cb m m') : withOutBoolean E b at_ cb m = .ok (.bool v, m') := by
  obtain ⟨j, h1, h2⟩ := C57_mut E b .bool at_ ha
  obtain ⟨⟨r, hr⟩, hm⟩ := hcb j (m.set at_ (some (.bool false))) h2 (by simp [Mem.set]) (fun x h => by simp [Mem.set, h])
  simp [withOutBoolean, h1, Res.bind, hr, hm, toJs, Res.map]

/-! ### C67 -/

/-- The memory once the allocation at `a` has been released: nothing else changes. -/
def Released (m m' : Mem) (a : Nat) : Prop := m' a = none ∧ ∀ x, x ≠ a → m' x = m x

theorem released_set (m : Mem) (a : Nat) : Released m (m.set a none) a :=
  ⟨by simp [Mem.set], fun x h => by simp [Mem.set, h]⟩

/-- **C67.** `withCString(s, p => refCStringToString(p))` is `s`. -/
theorem C67_string_round_trip (E : Env) (b : Nat → Text) (at_ : Nat) (h0 : at_ ≠ 0) (ha : InRange E .usize at_) (s : Text)
    (hs : '\x00' ∉ s) (m : Mem) : ∃ m', withCString E b at_ (.str s) (refCStringToString E b) m = .ok (.str s, m') := by
  obtain ⟨j, h1, h2⟩ := at_usable E b true true cchar trivial (fun _ => rfl) (fun h => h) at_ ha
  have hp : position (utf8 s) = none := CharP.position_none.2 (fun h => hs ((zero_mem_utf8 s).1 h))
  refine ⟨m.set at_ (some (.bytes (utf8 s ++ [0]))), ?_⟩
  have ht : textOf (utf8 s ++ [0]) = .ok s := textOf_c hs []
  simp [withCString, hp, h1, Res.bind, refCStringToString, h2, h0, bytesAt, Mem.set, ht, Res.map]

/-- **C67.** A C string returned by a native function (`char const *`) is read as its text, whatever follows
it in memory; nothing is released. Null becomes `null`. -/
theorem C67_ref_string (E : Env) (b : Nat → Text) (a : Nat) (h0 : a ≠ 0) (ha : InRange E .usize a) (t : Text)
    (ht : '\x00' ∉ t) (rest : List UInt8) (m : Mem) (hm : m a = some (.bytes (utf8 t ++ 0 :: rest))) :
    (toPtr E b true cchar a).bind (fun j => refCStringToString E b j m) = .ok (.str t, m) ∧
    refCStringToString E b .null m = .ok (.null, m) := by
  obtain ⟨j, h1, h2⟩ := at_usable E b true true cchar trivial (fun _ => rfl) (fun h => h) a ha
  refine ⟨?_, rfl⟩
  simp [h1, Res.bind, refCStringToString, h2, h0, bytesAt, hm, textOf_c ht rest, Res.map]

/-- **C67.** An owned C string returned by a native function becomes its text, and is released, once,
nothing else being released. Null becomes `null`. -/
theorem C67_box_string (E : Env) (b : Nat → Text) (a : Nat) (h0 : a ≠ 0) (ha : InRange E .usize a) (t : Text)
    (ht : '\x00' ∉ t) (m : Mem) (hm : m a = some (.bytes (utf8 t ++ [0]))) :
    (∃ m', (toPtr E b false cchar a).bind (fun j => boxCStringIntoString E b j m) = .ok (.str t, m') ∧ Released m m' a) ∧
    boxCStringIntoString E b .null m = .ok (.null, m) := by
  obtain ⟨j, h1, h2⟩ := C57_mut E b cchar a ha
  have htx : textOf (utf8 t ++ [0]) = .ok t := textOf_c ht []
  refine ⟨⟨m.set a none, ?_, released_set m a⟩, rfl⟩
  simp [h1, Res.bind, boxCStringIntoString, h2, h0, bytesAt, hm, htx, Res.map, release]

theorem bytesOf_inv {m d : List UInt8} (h : CharP.bytesOf m = .ok d) : ∃ rest, m = d ++ 0 :: rest ∧ 0 ∉ d := by
  induction m generalizing d with
  | nil => cases h
  | cons x m ih =>
    rw [CharP.bytesOf] at h
    split at h
    next hx => cases h; exact ⟨m, by simp [hx], by simp⟩
    next hx =>
      cases hm : CharP.bytesOf m with
      | error e => rw [hm] at h; cases h
      | ok r =>
        rw [hm] at h
        cases h
        obtain ⟨rest, rfl, h0⟩ := ih hm
        exact ⟨rest, rfl, by simp [h0, Ne.symm hx]⟩

theorem toStr_inv {m d : List UInt8} (h : toStr m = .ok d) :
    ∃ rest, m = d ++ 0 :: rest ∧ 0 ∉ d ∧ validUtf8 d = true := by
  cases hb : CharP.bytesOf m with
  | error e => simp [toStr, CharP.toBytes, CharP.count, hb, bind, Except.bind] at h
  | ok r =>
    obtain ⟨rest, rfl, h0⟩ := bytesOf_inv hb
    by_cases hv : validUtf8 r = true
    · rw [CharP.toStr_app h0 hv] at h
      cases h
      exact ⟨rest, rfl, h0, hv⟩
    · simp [toStr, CharP.toBytes_app h0, bind, Except.bind, hv] at h

theorem textOf_ok {bytes : List UInt8} {t : Text} (h : textOf bytes = .ok t) :
    ∃ rest, bytes = utf8 t ++ 0 :: rest ∧ '\x00' ∉ t := by
  unfold textOf at h
  cases hs : toStr bytes with
  | error e => rw [hs] at h; cases h
  | ok s =>
    rw [hs] at h
    simp only at h
    obtain ⟨rest, rfl, h0, hv⟩ := toStr_inv hs
    obtain ⟨cs, rfl⟩ := (CharP.validUtf8_iff _).1 hv
    rw [decode_utf8] at h
    cases h
    exact ⟨rest, rfl, fun hm => h0 ((zero_mem_utf8 _).2 hm)⟩

/-- **C67.** Only the text of a C string in memory is ever returned: if the result is a text, then it is, in UTF-8, what is
at the address before the first NUL. So the text is never made up, cut or continued. -/
theorem C67_only_text (E : Env) (b : Nat → Text) (arg : Js) (m m' : Mem) (t : Text)
    (h : refCStringToString E b arg m = .ok (.str t, m') ∨ boxCStringIntoString E b arg m = .ok (.str t, m')) :
    ∃ p bytes rest, (fromPtr E b true cchar arg = .ok p ∨ fromPtr E b false cchar arg = .ok p) ∧ p ≠ .addr 0 ∧
      bytesAt m p = .ok bytes ∧ bytes = utf8 t ++ 0 :: rest ∧ '\x00' ∉ t := by
  have key : ∀ (c : Bool) (f : Ptr → Mem), ((fromPtr E b c cchar arg).bind fun p =>
      if p = .addr 0 then .ok (.null, m) else ((bytesAt m p).bind textOf).map fun t => (Js.str t, f p)) = .ok (.str t, m') →
      ∃ p bytes rest, fromPtr E b c cchar arg = .ok p ∧ p ≠ .addr 0 ∧
        bytesAt m p = .ok bytes ∧ bytes = utf8 t ++ 0 :: rest ∧ '\x00' ∉ t := by
    intro c f h
    cases hp : fromPtr E b c cchar arg with
    | ok p =>
      rw [hp] at h
      simp only [Res.bind] at h
      by_cases h0 : p = .addr 0
      · rw [if_pos h0] at h; simp at h
      · rw [if_neg h0] at h
        cases hb : bytesAt m p with
        | ok bytes =>
          rw [hb] at h
          simp only [Res.bind] at h
          cases ht : textOf bytes with
          | ok t' =>
            rw [ht] at h
            simp only [Res.map, Res.bind, Res.ok.injEq, Prod.mk.injEq, Js.str.injEq] at h
            obtain ⟨rest, h1, h2⟩ := textOf_ok ht
            rw [h.1] at h1 h2
            exact ⟨p, bytes, rest, rfl, h0, hb, h1, h2⟩
          | _ => rw [ht] at h; simp [Res.map, Res.bind] at h
        | _ => rw [hb] at h; simp [Res.map, Res.bind] at h
    | _ => rw [hp] at h; simp [Res.bind] at h
  rcases h with h | h
  · obtain ⟨p, bytes, rest, h1, h2⟩ := key true (fun _ => m) h
    exact ⟨p, bytes, rest, .inl h1, h2⟩
  · obtain ⟨p, bytes, rest, h1, h2⟩ := key false (release m) h
    exact ⟨p, bytes, rest, .inr h1, h2⟩

/-- `withCString("é", p => …)` lends such a string. -/
example (E : Env) (b : Nat → Text) (ha : InRange E .usize 4096) (m : Mem) :
    ∃ m', withCString E b 4096 (.str t!"é") (refCStringToString E b) m = .ok (.str t!"é", m') :=
  C67_string_round_trip E b 4096 (by decide) ha _ (by decide) m

/-- **C67.** A borrowed C string (`char const *`) is not accepted where an owned one is expected: nothing is
released. -/
theorem C67_box_not_ref (E : Env) (b : Nat → Text) (a : Nat) (h0 : a ≠ 0) (ha : InRange E .usize a) (m : Mem) :
    Rejected ((toPtr E b true cchar a).bind (fun j => boxCStringIntoString E b j m)) := by
  obtain ⟨e, he⟩ := (C57_as_mut E b true cchar cchar trivial a ha h0).2 (by simp)
  obtain ⟨j, hj⟩ := toPtr_ok E b true cchar a ha
  rw [hj] at he ⊢
  simp only [Res.bind] at he ⊢
  exact ⟨e, by simp [boxCStringIntoString, he, Res.bind]⟩

/-- The JavaScript form of a pair of a mutable pointer and a length. -/
theorem slice_js (E : Env) (b : Nat → Text) (p len : Nat) (hp : InRange E .usize p) (hl : InRange E .usize len) :
    ∃ pj lj, toPtr E b false u8 p = .ok pj ∧ fromPtr E b false u8 pj = .ok (.addr p) ∧ fromPtr E b true u8 pj = .ok (.addr p) ∧
      toInt E .usize len = .ok lj ∧ fromInt E .usize lj = .ok len ∧
      toJs E b sliceRaw (.struct [.ptr (.addr p), .int len]) = .ok (.obj [(t!"len", lj), (t!"ptr", pj)]) := by
  obtain ⟨pj, h1, h2⟩ := C57_mut E b u8 p hp
  obtain ⟨pj', h1', h3⟩ := C57_const_partial E b false u8 trivial rfl p hp
  have : pj' = pj := by rw [h1] at h1'; cases h1'; rfl
  subst this
  obtain ⟨lj, h4, h5⟩ := C55 E .usize len hl
  refine ⟨pj', lj, h1, h2, h3, h4, h5, ?_⟩
  simp only [sliceRaw, toJs, toProps, h1, h4, Res.bind, Res.map, setProp]

theorem sliceRaw_of (E : Env) (b : Nat → Text) {pj lj : Js} {p : Ptr} {len : Int} (h1 : fromPtr E b false u8 pj = .ok p)
    (h2 : fromInt E .usize lj = .ok len) :
    fromJs E b id sliceRaw (.obj [(t!"len", lj), (t!"ptr", pj)]) = .ok (.struct [.ptr p, .int len]) := by
  have e1 : prop t!"ptr" (.obj [(t!"len", lj), (t!"ptr", pj)]) = pj := rfl
  have e2 : prop t!"len" (.obj [(t!"len", lj), (t!"ptr", pj)]) = lj := rfl
  simp [sliceRaw, fromJs, fromProps, isObject, e1, e2, h1, h2, Res.bind, Res.map]

theorem sliceRef_of (E : Env) (b : Nat → Text) {pj lj : Js} {p : Ptr} {len : Int} (h1 : fromPtr E b true u8 pj = .ok p)
    (h2 : fromInt E .usize lj = .ok len) :
    fromJs E b id sliceRef (.obj [(t!"len", lj), (t!"ptr", pj)]) = .ok (.struct [.ptr p, .int len, .void]) := by
  have e1 : prop t!"ptr" (.obj [(t!"len", lj), (t!"ptr", pj)]) = pj := rfl
  have e2 : prop t!"len" (.obj [(t!"len", lj), (t!"ptr", pj)]) = lj := rfl
  have e3 : prop t!"_lt" (.obj [(t!"len", lj), (t!"ptr", pj)]) = .undefined := rfl
  simp [sliceRef, fromJs, fromProps, isObject, e1, e2, e3, h1, h2, Res.bind, Res.map]

/-- **C67.** The callback of `withCBytes` is called once, with an object that native code receives as the
slice (`slice_ref<u8>`) of the bytes of the buffer. -/
theorem C67_with_bytes (E : Env) (b : Nat → Text) (at_ : Nat) (ha : InRange E .usize at_) (bytes : List UInt8)
    (hl : InRange E .usize bytes.length) (cb : Cb) (m : Mem) :
    ∃ j m', withCBytes E b at_ (.buf bytes) cb m = cb j m' ∧
      fromJs E b id sliceRef j = .ok (.struct [.ptr (.addr at_), .int bytes.length, .void]) ∧ Placed m m' at_ bytes := by
  obtain ⟨pj, lj, _, _, h3, _, h5, h6⟩ := slice_js E b at_ bytes.length ha hl
  refine ⟨_, m.set at_ (some (.bytes bytes)), by simp only [withCBytes, h6, Res.bind], sliceRef_of E b h3 h5, placed_set ..⟩

/-- **C67.** `null` gives a slice with the null pointer, and what is neither a buffer nor `null` is
rejected. -/
theorem C67_with_bytes_other (E : Env) (b : Nat → Text) (at_ : Nat) (cb : Cb) (m : Mem) :
    (∃ j, withCBytes E b at_ .null cb m = cb j m ∧ ∃ len, fromJs E b id sliceRef j = .ok (.struct [.ptr (.addr 0), .int len, .void])) ∧
    ∀ j, j ≠ .null → (∀ bs, j ≠ .buf bs) → Rejected (withCBytes E b at_ j cb m) := by
  constructor
  · obtain ⟨pj, lj, _, _, h3, _, h5, h6⟩ := slice_js E b 0 0xbad000 (by cases E with | mk w x c => cases w <;> cases x <;> simp [InRange, Env.ptrBits]) (by cases E with | mk w x c => cases w <;> cases x <;> simp [InRange, Env.ptrBits])
    refine ⟨_, ?_, 0xbad000, sliceRef_of E b h3 h5⟩
    have h7 : toJs E b sliceRaw (.struct [.ptr (.addr 0), .int 0xbad000]) = .ok (.obj [(t!"len", lj), (t!"ptr", pj)]) := h6
    rw [withCBytes, h7]; rfl
  · intro j h h'
    cases j <;> first | exact ⟨_, rfl⟩ | exact absurd rfl h | exact absurd rfl (h' _)

/-- **C67.** Borrowed bytes returned by a native function become a buffer of these bytes; nothing is released.
A buffer given instead is copied. -/
theorem C67_ref_bytes (E : Env) (b : Nat → Text) (p len : Nat) (h0 : p ≠ 0) (hp : InRange E .usize p) (hl : InRange E .usize len)
    (bytes rest : List UInt8) (hlen : bytes.length = len) (m : Mem) (hm : m p = some (.bytes (bytes ++ rest))) :
    (∃ j, fromJs E b id sliceRef j = .ok (.struct [.ptr (.addr p), .int len, .void])) ∧
    (∀ j, fromJs E b id sliceRef j = .ok (.struct [.ptr (.addr p), .int len, .void]) →
      refCBytesIntoBuffer E b j m = .ok (.buf bytes, m)) ∧
    refCBytesIntoBuffer E b (.buf bytes) m = .ok (.buf bytes, m) := by
  obtain ⟨pj, lj, _, _, h3, _, h5, h6⟩ := slice_js E b p len hp hl
  refine ⟨⟨_, sliceRef_of E b h3 h5⟩, fun j hj => ?_, ?_⟩
  · subst hlen
    simp [refCBytesIntoBuffer, hj, Res.bind, h0, bytesAt, hm, firstBytes, readN, Res.map]
  · have : fromJs E b id sliceRef (.buf bytes) = .ok (.struct [.ptr (.mem bytes), .int bytes.length, .void]) := rfl
    simp [refCBytesIntoBuffer, this, Res.bind, bytesAt, firstBytes, readN, Res.map]

/-- **C67.** `withCBytes(buffer, p => refCBytesIntoBuffer(p))` is a copy of the buffer. -/
theorem C67_bytes_round_trip (E : Env) (b : Nat → Text) (at_ : Nat) (h0 : at_ ≠ 0) (ha : InRange E .usize at_)
    (bytes : List UInt8) (hl : InRange E .usize bytes.length) (m : Mem) :
    ∃ m', withCBytes E b at_ (.buf bytes) (refCBytesIntoBuffer E b) m = .ok (.buf bytes, m') := by
  obtain ⟨j, m', h1, h2, h3⟩ := C67_with_bytes E b at_ ha bytes hl (refCBytesIntoBuffer E b) m
  refine ⟨m', ?_⟩
  rw [h1]
  exact (C67_ref_bytes E b at_ bytes.length h0 ha hl bytes [] rfl m' (by simpa using h3.1)).2.1 j h2

/-- **C67.** Owned bytes returned by a native function become a buffer of these bytes, and are released,
once, nothing else being released. -/
theorem C67_box_bytes (E : Env) (b : Nat → Text) (p : Nat) (h0 : p ≠ 0) (hp : InRange E .usize p) (bytes : List UInt8)
    (hl : InRange E .usize bytes.length) (m : Mem) (hm : m p = some (.bytes bytes)) :
    ∃ m', (toJs E b sliceRaw (.struct [.ptr (.addr p), .int bytes.length])).bind (fun j => boxCBytesIntoBuffer E b j m) =
      .ok (.buf bytes, m') ∧ Released m m' p := by
  obtain ⟨pj, lj, _, h2, _, _, h5, h6⟩ := slice_js E b p bytes.length hp hl
  refine ⟨m.set p none, ?_, released_set m p⟩
  simp [h6, Res.bind, boxCBytesIntoBuffer, sliceRaw_of E b h2 h5, h0, bytesAt, hm, firstBytes, readN, release]

/-- The callback, given a pointer object of type `ty` whose address is `at_`, where a variable holds
`init`, leaves `final` there. -/
def LeavesAt (E : Env) (ty : Text) (at_ : Nat) (init final : Cell) (cb : Cb) (m m' : Mem) : Prop :=
  ∀ j m0, prop t!"type" j = .str ty → fromInt E .usize (prop t!"addr" j) = .ok at_ → m0 at_ = some init →
    (∀ x, x ≠ at_ → m0 x = m x) → (∃ r, cb j m0 = .ok (r, m')) ∧ m' at_ = some final

theorem wrapPtr_ok (E : Env) (p : Nat) (hp : InRange E .usize p) (ty : Text) :
    ∃ aj, wrapPtr E p ty = .ok (.obj [(t!"type", .str ty), (t!"addr", aj)]) ∧ fromInt E .usize aj = .ok p := by
  obtain ⟨aj, h1, h2⟩ := C55 E .usize p hp
  exact ⟨aj, by simp only [wrapPtr, h1, Res.bind, setProp], h2⟩

theorem wrapPtr_from (E : Env) (b : Nat → Text) (p : Nat) {aj : Js} (h : fromInt E .usize aj = .ok (p : Int)) (to : CTy) :
    fromPtr E b false to (.obj [(t!"type", .str (ptrType b false to)), (t!"addr", aj)]) = .ok (.addr p) := by
  have e1 : prop t!"type" (.obj [(t!"type", .str (ptrType b false to)), (t!"addr", aj)]) = .str (ptrType b false to) := rfl
  have e2 : prop t!"addr" (.obj [(t!"type", .str (ptrType b false to)), (t!"addr", aj)]) = aj := rfl
  simp [fromPtr, fromPtrObj, e1, e2, h, Res.map, Res.bind]

/-- **C67.** `boxCBytesIntoBuffer(withOutBoxCBytes(cb))` is a buffer of the bytes that the native function has
stored into its out-parameter, which are released; it is `null` if the native function has stored none. -/
theorem C67_out_bytes (E : Env) (b : Nat → Text) (at_ p : Nat) (ha : InRange E .usize at_) (hp : InRange E .usize p)
    (bytes : List UInt8) (hl : InRange E .usize bytes.length) (cb : Cb) (m m' : Mem)
    (hcb : LeavesAt E t!"slice_boxed_uint8_t *" at_ (.slice 0 0) (.slice p bytes.length) cb m m') :
    (p ≠ 0 → m' p = some (.bytes bytes) → ∃ m'', (withOutBoxCBytes E at_ cb m).bind (fun (j, m) => boxCBytesIntoBuffer E b j m) =
      .ok (.buf bytes, m'') ∧ Released m' m'' p) ∧
    (p = 0 → (withOutBoxCBytes E at_ cb m).bind (fun (j, m) => boxCBytesIntoBuffer E b j m) = .ok (.null, m')) := by
  obtain ⟨aj, h1, h2⟩ := wrapPtr_ok E at_ ha t!"slice_boxed_uint8_t *"
  obtain ⟨⟨r, hr⟩, hm⟩ := hcb (.obj [(t!"type", .str t!"slice_boxed_uint8_t *"), (t!"addr", aj)]) (m.set at_ (some (.slice 0 0))) rfl h2 (by simp [Mem.set]) (fun x h => by simp [Mem.set, h])
  obtain ⟨pj, h3, h4⟩ := wrapPtr_ok E p hp t!"uint8_t *"
  obtain ⟨lj, h5, h6⟩ := C55 E .usize bytes.length hl
  have hout : withOutBoxCBytes E at_ cb m =
      .ok (.obj [(t!"len", lj), (t!"ptr", .obj [(t!"type", .str t!"uint8_t *"), (t!"addr", pj)])], m') := by
    simp only [withOutBoxCBytes, h1, Res.bind, hr, hm, h3, h5, setProp]
  have hfrom := sliceRaw_of E b (wrapPtr_from E b p h4 u8) h6
  rw [hout]
  simp only [Res.bind]
  have hty : ptrType b false u8 = t!"uint8_t *" := rfl
  rw [hty] at hfrom
  refine ⟨fun h0 hb => ⟨m'.set p none, ?_, released_set m' p⟩, fun h0 => ?_⟩
  · simp [boxCBytesIntoBuffer, hfrom, Res.bind, h0, bytesAt, hb, firstBytes, readN, release]
  · subst h0
    simp [boxCBytesIntoBuffer, hfrom, Res.bind]

/-- The memory once the allocations at `as` have been released: nothing else changes. -/
def ReleasedAll (m m' : Mem) (as : List Nat) : Prop := (∀ a ∈ as, m' a = none) ∧ ∀ x, x ∉ as → m' x = m x

theorem takeStrings_ok : ∀ (ps : List Nat) (ts : List Text) (m : Mem), ps.Nodup → ps.length = ts.length →
    (∀ i (h : i < ps.length) (h' : i < ts.length), '\x00' ∉ ts[i] ∧ m ps[i] = some (.bytes (utf8 ts[i] ++ [0]))) →
    ∃ m', takeStrings ps m = .ok (ts, m') ∧ ReleasedAll m m' ps
  | [], [], m, _, _, _ => ⟨m, rfl, by simp [ReleasedAll]⟩
  | p :: ps, t :: ts, m, hd, hl, h => by
    have hd := List.nodup_cons.1 hd
    obtain ⟨ht, hm⟩ := h 0 (by simp) (by simp)
    simp only [List.getElem_cons_zero] at ht hm
    obtain ⟨m', h1, h2⟩ := takeStrings_ok ps ts (m.set p none) hd.2 (by simpa using hl) (fun i hi hi' => by
      have := h (i + 1) (by simpa using hi) (by simpa using hi')
      simp only [List.getElem_cons_succ] at this
      refine ⟨this.1, ?_⟩
      have hne : ps[i] ≠ p := fun e => hd.1 (e ▸ List.getElem_mem hi)
      simp [Mem.set, hne, this.2])
    have htx : textOf (utf8 t ++ [0]) = .ok t := textOf_c ht []
    refine ⟨m', by simp [takeStrings, bytesAt, hm, htx, Res.bind, release, h1, Res.map], ?_, ?_⟩
    · intro a ha
      by_cases hap : a ∈ ps
      · exact h2.1 a hap
      · rcases List.mem_cons.1 ha with rfl | ha
        · rw [h2.2 a hap]; simp [Mem.set]
        · exact absurd ha hap
    · intro x hx
      simp only [List.mem_cons, not_or] at hx
      rw [h2.2 x hx.2]; simp [Mem.set, hx.1]
  | [], _ :: _, _, _, hl, _ => by simp at hl
  | _ :: _, [], _, _, hl, _ => by simp at hl

/-- **C67.** `cStringVecToStringArray(withOutVecOfPtrs(…, "char *", cb))` is the array of the texts of the C
strings, in order, that the native function has stored into its out-parameter; the strings and the vector
are released, once, and nothing else is. -/
theorem C67_out_strings (E : Env) (b : Nat → Text) (vecTy : Text) (at_ p cap : Nat) (ha : InRange E .usize at_) (h0 : p ≠ 0)
    (hp : InRange E .usize p) (hc : InRange E .usize cap) (hc0 : cap ≠ 0) (ps : List Nat) (ts : List Text) (hl : InRange E .usize ps.length)
    (hd : (p :: ps).Nodup) (hlen : ps.length = ts.length) (cb : Cb) (m m' : Mem)
    (hcb : LeavesAt E (vecTy ++ t!" *") at_ (.vec 0 0 0) (.vec p ps.length cap) cb m m') (hps : m' p = some (.ptrs ps))
    (hts : ∀ i (h : i < ps.length) (h' : i < ts.length), '\x00' ∉ ts[i] ∧ m' ps[i] = some (.bytes (utf8 ts[i] ++ [0]))) :
    ∃ m'', (withOutVecOfPtrs E at_ vecTy t!"char *" cb m).bind (fun (j, m) => cStringVecToStringArray E b j m) = .ok (ts, m'') ∧
      ReleasedAll m' m'' (p :: ps) := by
  obtain ⟨aj, h1, h2⟩ := wrapPtr_ok E at_ ha (vecTy ++ t!" *")
  obtain ⟨⟨r, hr⟩, hm⟩ := hcb (.obj [(t!"type", .str (vecTy ++ t!" *")), (t!"addr", aj)]) (m.set at_ (some (.vec 0 0 0))) rfl h2
    (by simp [Mem.set]) (fun x h => by simp [Mem.set, h])
  obtain ⟨pj, h3, h4⟩ := wrapPtr_ok E p hp (t!"char *" ++ t!" *")
  obtain ⟨lj, h5, h6⟩ := C55 E .usize ps.length hl
  obtain ⟨cj, h7, h8⟩ := C55 E .usize cap hc
  have hout : withOutVecOfPtrs E at_ vecTy t!"char *" cb m =
      .ok (.obj [(t!"cap", cj), (t!"len", lj), (t!"ptr", .obj [(t!"type", .str (t!"char *" ++ t!" *")), (t!"addr", pj)])], m') := by
    simp only [withOutVecOfPtrs, h1, Res.bind, hr, hm, h3, h5, h7, setProp]
  have hfrom : fromJs E b id vecOfStrings
      (.obj [(t!"cap", cj), (t!"len", lj), (t!"ptr", .obj [(t!"type", .str (t!"char *" ++ t!" *")), (t!"addr", pj)])]) =
      .ok (.struct [.ptr (.addr p), .int ps.length, .int cap]) := by
    have hptr := wrapPtr_from E b p h4 (.mutPtr cchar)
    have hty : ptrType b false (.mutPtr cchar) = t!"char *" ++ t!" *" := rfl
    rw [hty] at hptr
    have e1 : prop t!"ptr" (.obj [(t!"cap", cj), (t!"len", lj), (t!"ptr", .obj [(t!"type", .str (t!"char *" ++ t!" *")), (t!"addr", pj)])]) =
      .obj [(t!"type", .str (t!"char *" ++ t!" *")), (t!"addr", pj)] := rfl
    have e2 : prop t!"len" (.obj [(t!"cap", cj), (t!"len", lj), (t!"ptr", .obj [(t!"type", .str (t!"char *" ++ t!" *")), (t!"addr", pj)])]) =
      lj := rfl
    have e3 : prop t!"cap" (.obj [(t!"cap", cj), (t!"len", lj), (t!"ptr", .obj [(t!"type", .str (t!"char *" ++ t!" *")), (t!"addr", pj)])]) =
      cj := rfl
    simp only [vecOfStrings, fromJs, fromProps, isObject, e1, e2, e3, hptr, h6, h8, Res.bind, Res.map, if_true]
  rw [hout]
  simp only [Res.bind, cStringVecToStringArray]
  rw [hfrom]
  obtain ⟨m'', h9, h10⟩ := takeStrings_ok ps ts m' (List.nodup_cons.1 hd).2 hlen hts
  have hpp := (List.nodup_cons.1 hd).1
  refine ⟨m''.set p none, ?_, ?_, ?_⟩
  · simp [Res.bind, h0, hc0, hps, h9, Res.map, release]
  · intro a ha
    rcases List.mem_cons.1 ha with rfl | ha
    · simp [Mem.set]
    · have : a ≠ p := fun e => hpp (e ▸ ha)
      simp [Mem.set, this, h10.1 a ha]
  · intro x hx
    simp only [List.mem_cons, not_or] at hx
    simp [Mem.set, hx.1, h10.2 x hx.2]

/-! ### Concrete cases -/

private def nodeEnv : Env := ⟨false, true, true⟩
private def noNames : Nat → Text := fun _ => t!"T"
private def empty : Mem := fun _ => none

example : '\x00' ∉ t!"né" ∧ InRange nodeEnv .usize (0x1000 : Nat) := by decide
example : withCString nodeEnv noNames 0x1000 (.str ['a', '\x00', 'b']) (refCStringToString nodeEnv noNames) empty = .err .invalidArg := rfl
-- A native function that stores its result.
private def store (to : CTy) (v : Cell) : Cb := fun j m =>
  (fromPtr nodeEnv noNames false to j).bind fun
    | .addr a => .ok (.undefined, m.set a (some v))
    | _ => .panic
example : ∃ m', Leaves nodeEnv noNames (.int .u64) 0x1000 (.u64 0) (.u64 7) (store (.int .u64) (.u64 7)) empty m' := by
  refine ⟨fun x => if x = 0x1000 then some (.u64 7) else none, fun j m0 h _ h' => ⟨⟨.undefined, ?_⟩, rfl⟩⟩
  simp only [store, h, Res.bind]
  congr 2
  funext x
  by_cases hx : x = 0x1000
  · simp [hx, Mem.set]
  · simp [hx, h' x hx, empty, Mem.set]
private def storeAt (v : Cell) : Cb := fun j m =>
  (fromInt nodeEnv .usize (prop t!"addr" j)).bind fun a => .ok (.undefined, m.set a.toNat (some v))
-- Two strings, in a vector.
private def strings : Mem := fun x =>
  if x = 0x20 then some (.ptrs [0x30, 0x40]) else if x = 0x30 then some (.bytes (utf8 t!"a" ++ [0]))
  else if x = 0x40 then some (.bytes (utf8 t!"bc" ++ [0])) else none
example : LeavesAt nodeEnv (t!"Vec_char_ptr_t" ++ t!" *") 0x10 (.vec 0 0 0) (.vec 0x20 2 4) (storeAt (.vec 0x20 2 4)) strings
    (strings.set 0x10 (some (.vec 0x20 2 4))) := by
  intro j m0 _ h _ h'
  refine ⟨⟨.undefined, ?_⟩, rfl⟩
  simp only [storeAt, h, Res.bind]
  congr 2
  funext x
  by_cases hx : x = 0x10
  · simp [hx, Mem.set]
  · simp [hx, h' x hx, Mem.set]
example : (withOutVecOfPtrs nodeEnv 0x10 t!"Vec_char_ptr_t" t!"char *" (storeAt (.vec 0x20 2 4)) strings).bind
    (fun (j, m) => (cStringVecToStringArray nodeEnv noNames j m).map (·.1)) = .ok [t!"a", t!"bc"] := by decide +kernel

end Verif.Js
