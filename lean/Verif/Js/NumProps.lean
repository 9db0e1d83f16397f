import Verif.Js.NumLemmas
/-!
# Numbers through JavaScript (C55, C56, C64, C65)
-/
namespace Verif.Js
open Text Headers

/-! ### C55: 64-bit integers -/

/-- **C55.** Every integer of every integer type, on Node.js and on wasm, converted to JavaScript and back,
is unchanged. -/
theorem C55 (E : Env) (k : IntTy) (v : Int) (h : InRange E k v) :
    ∃ j, toInt E k v = .ok j ∧ fromInt E k j = .ok v := by
  have h1 := fromInt_toInt h
  rw [toInt_ok h] at h1
  exact ⟨_, toInt_ok h, h1⟩

/-- **C55.** In between, the JavaScript value is that integer: a number only when a double represents it
exactly and unambiguously, a BigInt otherwise. -/
theorem C55_exact (E : Env) (k : IntTy) (v : Int) (h : InRange E k v) :
    ∃ j, toInt E k v = .ok j ∧ Denotes j v ∧ ∀ x, j = .num x → Safe v := by
  have hr := (inRange_iff E k v).1 h
  refine ⟨_, toInt_ok h, ?_, ?_⟩
  · split
    · exact isInt_fin v
    · split
      · exact isInt_fin v
      · rfl
  · intro x hx
    split at hx
    · rename_i hk
      have := range32 (small_bits hk) hr
      revert this
      cases signed k <;> simp only [lo, hi, if_true, if_false, Bool.false_eq_true, Safe] <;> omega
    · split at hx
      · assumption
      · cases hx

example : InRange ⟨false, true, true⟩ .u64 (2 ^ 64 - 1) ∧ InRange ⟨true, false, false⟩ .i64 (-2 ^ 63) ∧
    InRange ⟨false, true, true⟩ .isize (-2 ^ 53) := by decide

/-! ### C56: small integers -/

/-- The small integer types. -/
def smallTypes : List IntTy := [.u8, .u16, .u32, .i8, .i16, .i32]

theorem smallTypes_small {E : Env} {k : IntTy} (h : k ∈ smallTypes) : small E k = true := by
  simp only [smallTypes, List.mem_cons, List.not_mem_nil, or_false] at h
  rcases h with rfl | rfl | rfl | rfl | rfl | rfl <;> rfl

/-- **C56 (partial).** A number that is an integer `v` in the range of the type is converted to `v`; one
that is out of the range of the type, but still in the range of the 32-bit type of the same signedness, is
rejected. Missing: numbers beyond 32 bits and numbers that are not integers, which are not always
rejected. -/
theorem C56_partial (E : Env) (k : IntTy) (hk : k ∈ smallTypes) (x : Num) (v : Int) (hx : IsInt x v) :
    (InRange E k v → fromInt E k (.num x) = .ok v) ∧
    (¬ InRange E k v → InRange E (if signed k then .i32 else .u32) v → Rejected (fromInt E k (.num x))) := by
  have hs := smallTypes_small (E := E) hk
  have h32 : InRange E (if signed k then .i32 else .u32) v → lo (signed k) 32 ≤ v ∧ v ≤ hi (signed k) 32 := by
    rw [inRange_iff]
    cases signed k <;> exact id
  simp only [fromInt, hs, if_true]
  constructor
  · intro h
    have h' := (inRange_iff E k v).1 h
    rw [fromSmall_isInt hs hx (range32 (small_bits hs) h'), if_pos h']
  · intro h h'
    rw [fromSmall_isInt hs hx (h32 h'), if_neg (fun c => h ((inRange_iff E k v).2 c))]
    exact ⟨_, rfl⟩

/-- **C56.** Exactly which numbers are accepted, and as what. A number is first converted to a 32-bit integer of the
same signedness, which is then accepted if it is in the range of the type, and rejected otherwise. On Node.js this
integer is the integer part of the number modulo `2 ^ 32`, and 0 for NaN and the infinities; on wasm it is the nearest
32-bit integer to the integer part, and 0 for NaN. -/
theorem C56_numbers (E : Env) (k : IntTy) (hk : k ∈ smallTypes) (x : Num) :
    ∃ r, InRange E (if signed k then .i32 else .u32) r ∧
      fromInt E k (.num x) = (if InRange E k r then .ok r else .err .invalidArg) ∧
      (∀ t, IntPart x t → if E.wasm then r = max (lo (signed k) 32) (min (hi (signed k) 32) t) else (2 : Int) ^ 32 ∣ r - t) ∧
      (x = .nan → r = 0) ∧
      ∀ neg, x = .inf neg → r = if E.wasm then (if neg then lo (signed k) 32 else hi (signed k) 32) else 0 := by
  have hs := smallTypes_small (E := E) hk
  have hr := get32_range E (signed k) x
  refine ⟨get32 E (signed k) x, ?_, ?_, ?_, ?_, ?_⟩
  · rw [inRange_iff]
    revert hr
    cases signed k <;> exact id
  · simp only [fromInt, hs, if_true, fromSmall_get32 hs x hr, inRange_iff]
  · intro t ht
    cases x with
    | fin m e =>
      simp only [get32, asInt, trunc_intPart ht]
      cases E.wasm
      · simp only [Bool.false_eq_true, if_false]; exact wrap_dvd _ _
      · simp only [if_true]; exact saturate_clamp _ (.inl rfl) _
    | _ => exact ht.elim
  · rintro rfl; simp only [get32, asInt, ite_self]
  · rintro neg rfl; simp only [get32, asInt]

example : IntPart (.fin (-7) (-1)) (-3) ∧ IntPart (.fin 3 40) (3 * 2 ^ 40) := by
  refine ⟨.inr ⟨by decide, by decide, by decide⟩, .inl ⟨by decide, by decide, by decide⟩⟩

/-- **C56.** Values that are not numbers are rejected (Node.js). -/
theorem C56_not_a_number (E : Env) (_hE : E.wasm = false) (k : IntTy) (hk : k ∈ smallTypes) (j : Js) (h : ∀ x, j ≠ .num x) :
    Rejected (fromInt E k j) := by
  simp only [fromInt, smallTypes_small hk, if_true]
  cases j <;> first | exact absurd rfl (h _) | exact ⟨_, rfl⟩

/-- **C56.** On wasm, an integer out of range is rejected by the types of 8 and 16 bits, even beyond 32
bits, except negative numbers for unsigned types. -/
theorem C56_wasm (E : Env) (hE : E.wasm = true) (k : IntTy) (hk : k ∈ [IntTy.u8, .u16, .i8, .i16]) (x : Num) (v : Int)
    (hx : IsInt x v) (h : ¬ InRange E k v) (hneg : signed k = true ∨ 0 ≤ v) : Rejected (fromInt E k (.num x)) := by
  have hs : small E k = true := by
    simp only [List.mem_cons, List.not_mem_nil, or_false] at hk
    rcases hk with rfl | rfl | rfl | rfl <;> rfl
  cases x with
  | fin m e =>
    simp only [fromInt, hs, if_true, fromSmall, get32, hE, asInt, trunc_isInt hx]
    rw [if_pos]
    · exact ⟨_, rfl⟩
    · simp only [List.mem_cons, List.not_mem_nil, or_false] at hk
      rcases hk with rfl | rfl | rfl | rfl <;>
        simp only [signed, bits, saturate, wrap, lo, hi, InRange, if_true, if_false, Bool.false_eq_true, false_or] at h hneg ⊢ <;>
        split <;> (try split) <;> simp_all <;> omega
  | _ => exact hx.elim

/-- **C56 fails** on Node.js: numbers are taken modulo `2 ^ 32` before the range test, so `-1` is accepted
as a `u32`, `2 ^ 32 + 5` as a `u8`; the fraction of `1.5` is dropped, and NaN and the infinities become 0. -/
theorem C56_fails (E : Env) (hE : E.wasm = false) :
    fromInt E .u32 (.num (.fin (-1) 0)) = .ok 4294967295 ∧ fromInt E .u8 (.num (.fin (2 ^ 32 + 5) 0)) = .ok 5 ∧
    fromInt E .i32 (.num (.fin (2 ^ 31) 0)) = .ok (-2 ^ 31) ∧
    fromInt E .u8 (.num (.fin 3 (-1))) = .ok 1 ∧ fromInt E .u8 (.num .nan) = .ok 0 ∧
    fromInt E .u8 (.num (.inf false)) = .ok 0 := by
  obtain ⟨w, a, c⟩ := E
  cases hE
  revert a c
  decide +kernel

/-- **C56 fails** on wasm, where numbers saturate at 32 bits: negative numbers are accepted as the unsigned
integer 0, and too large ones as the greatest `u32`. -/
theorem C56_fails_wasm (E : Env) (hE : E.wasm = true) :
    fromInt E .u8 (.num (.fin (-1) 0)) = .ok 0 ∧ fromInt E .u32 (.num (.fin 1 32)) = .ok 4294967295 ∧
    fromInt E .u32 (.num (.inf false)) = .ok 4294967295 ∧ fromInt E .u8 (.num .nan) = .ok 0 := by
  obtain ⟨w, a, c⟩ := E
  cases hE
  revert a c
  decide +kernel

/-- **C56 fails** for every number: on Node.js a conversion to `u32` or `i32` never rejects a number. -/
theorem C56_fails_never_rejects (E : Env) (hE : E.wasm = false) (x : Num) (k : IntTy) (hk : k ∈ [IntTy.u32, .i32]) :
    ∃ v, fromInt E k (.num x) = .ok v := by
  have key : ∀ s v, lo s 32 ≤ v → v ≤ hi s 32 → wrap s 32 v = v := fun s v h h' => (wrap_eq_iff s (by simp) v).2 ⟨h, h'⟩
  have h0 : ∀ s, lo s 32 ≤ get32 E s x ∧ get32 E s x ≤ hi s 32 := by
    intro s
    cases x with
    | fin m e => simp only [get32, hE, Bool.false_eq_true, if_false]; exact wrap_range s (by simp) _
    | _ => simp only [get32, hE, Bool.false_eq_true, if_false]; cases s <;> decide
  simp only [List.mem_cons, List.not_mem_nil, or_false] at hk
  rcases hk with rfl | rfl
  · refine ⟨get32 E false x, ?_⟩
    simp only [fromInt, small, if_true, fromSmall, signed, bits, key _ _ (h0 false).1 (h0 false).2]
    simp
  · refine ⟨get32 E true x, ?_⟩
    simp only [fromInt, small, if_true, fromSmall, signed, bits, key _ _ (h0 true).1 (h0 true).2]
    simp

example : IsInt (.fin 25 3) 200 ∧ InRange ⟨false, true, true⟩ .u8 200 ∧ ¬ InRange ⟨false, true, true⟩ .i8 200 ∧
    InRange ⟨false, true, true⟩ .i32 200 := by decide

/-! ### C64: 64-bit integers from JavaScript -/

/-- The 64-bit integer types. -/
def wideTypes : List IntTy := [.u64, .i64]

/-- **C64 (partial).** A JavaScript integer `v`, number or BigInt, is converted to `v` if it is in range
and rejected otherwise. Missing: numbers that are not between `-2 ^ 63` and `2 ^ 63 - 1` (they saturate),
numbers that are not integers (their fraction is dropped), and small negative BigInts for `u64` on wasm
(they become 0). -/
theorem C64_partial (E : Env) (k : IntTy) (hk : k ∈ wideTypes) (j : Js) (v : Int) (hj : Denotes j v)
    (hnum : ∀ x, j = .num x → -2 ^ 63 ≤ v ∧ v < 2 ^ 63)
    (hwasm : E.wasm = true → j = .bigint v → k = .u64 → 0 ≤ v ∨ v < -(2 ^ 53 - 1)) :
    (InRange E k v → fromInt E k j = .ok v) ∧ (¬ InRange E k v → Rejected (fromInt E k j)) := by
  have hs : small E k = false := by
    simp only [wideTypes, List.mem_cons, List.not_mem_nil, or_false] at hk; rcases hk with rfl | rfl <;> rfl
  have hb : bits E k = 64 := by
    simp only [wideTypes, List.mem_cons, List.not_mem_nil, or_false] at hk; rcases hk with rfl | rfl <;> rfl
  have key : from64 E (signed k) j = if lo (signed k) 64 ≤ v ∧ v ≤ hi (signed k) 64 then .ok v else .err .invalidArg := by
    cases j with
    | num x => exact from64_num hj (hnum x rfl)
    | bigint n =>
      cases hj
      cases hw : E.wasm
      · exact from64_big_node hw _ _
      · apply from64_big_wasm hw
        simp only [wideTypes, List.mem_cons, List.not_mem_nil, or_false] at hk
        rcases hk with rfl | rfl
        · exact .inr (hwasm hw rfl rfl)
        · exact .inl rfl
    | _ => exact hj.elim
  simp only [fromInt, hs, Bool.false_eq_true, if_false, key, inRange_iff, hb]
  constructor <;> intro h
  · simp [h, Res.bind]
  · rw [if_neg h]; exact ⟨_, rfl⟩

/-- **C64.** Exactly which numbers are accepted, and as what, by the 64-bit types: the integer part, or the nearest
64-bit signed integer to it, if that is in the range of the type. NaN is 0; the infinities are 0 on Node.js, and the
extreme 64-bit signed integers on wasm. -/
theorem C64_numbers (E : Env) (k : IntTy) (hk : k ∈ wideTypes) (x : Num) :
    ∃ r, fromInt E k (.num x) = (if InRange E k r then .ok r else .err .invalidArg) ∧
      (∀ t, IntPart x t → r = max (-2 ^ 63) (min (2 ^ 63 - 1) t)) ∧
      (x = .nan → r = 0) ∧
      ∀ neg, x = .inf neg → r = if E.wasm then (if neg then -2 ^ 63 else 2 ^ 63 - 1) else 0 := by
  have hs : small E k = false := by
    simp only [wideTypes, List.mem_cons, List.not_mem_nil, or_false] at hk; rcases hk with rfl | rfl <;> rfl
  have hb : bits E k = 64 := by
    simp only [wideTypes, List.mem_cons, List.not_mem_nil, or_false] at hk; rcases hk with rfl | rfl <;> rfl
  refine ⟨get64 E x, ?_, ?_, ?_, ?_⟩
  · simp only [fromInt, hs, Bool.false_eq_true, if_false, from64, inRange_iff, hb]
    by_cases h : lo (signed k) 64 ≤ get64 E x ∧ get64 E x ≤ hi (signed k) 64
    · simp [h, Res.bind]
    · rw [if_neg h]; rfl
  · intro t ht
    cases x with
    | fin m e => simp only [get64, asInt, trunc_intPart ht]; exact saturate_clamp true (.inr rfl) t
    | _ => exact ht.elim
  · rintro rfl; simp only [get64, asInt, ite_self]
  · rintro neg rfl; simp only [get64, asInt]; rfl

/-- **C64.** `usize` and `isize` on a 64-bit platform behave as `u64` and `i64`. -/
theorem C64_size (E : Env) (hE : E.ptrBits = 64) (j : Js) :
    fromInt E .usize j = fromInt E .u64 j ∧ fromInt E .isize j = fromInt E .i64 j := by
  have hw : E.wasm = false := by
    unfold Env.ptrBits at hE
    cases hw : E.wasm
    · rfl
    · simp [hw] at hE
  simp only [fromInt, small, hw, Bool.false_eq_true, if_false, signed, bits, hE]
  exact ⟨rfl, rfl⟩

/-- **C64.** Anything but a number or a BigInt is rejected. -/
theorem C64_wrong_type (E : Env) (k : IntTy) (hk : k ∈ wideTypes) (j : Js) (h : ∀ x, j ≠ .num x) (h' : ∀ n, j ≠ .bigint n) :
    Rejected (fromInt E k j) := by
  simp only [wideTypes, List.mem_cons, List.not_mem_nil, or_false] at hk
  rcases hk with rfl | rfl <;>
    cases j <;> first | exact absurd rfl (h _) | exact absurd rfl (h' _) | exact ⟨_, rfl⟩

/-- **C64 fails** for numbers of `2 ^ 63` and more: they are accepted as `2 ^ 63 - 1`; and on wasm the
BigInt `-1` is accepted as the `u64` 0. -/
theorem C64_fails :
    (∀ E, fromInt E .u64 (.num (.fin 1 63)) = .ok (2 ^ 63 - 1) ∧ fromInt E .i64 (.num (.fin 1 63)) = .ok (2 ^ 63 - 1) ∧
      fromInt E .u64 (.num (.fin 3 (-1))) = .ok 1 ∧ fromInt E .u64 (.num .nan) = .ok 0) ∧
    ∀ E, E.wasm = true → fromInt E .u64 (.bigint (-1)) = .ok 0 := by
  constructor
  · rintro ⟨w, a, c⟩
    refine ⟨?_, ?_, ?_, ?_⟩ <;> cases w <;> rfl
  · rintro ⟨w, a, c⟩ h
    cases h
    rfl

/-- **C64 fails** on wasm for every small negative BigInt: a negative BigInt above `-2 ^ 53` is accepted as the `u64` 0. All others are accepted
exactly if they are in range (`C64_partial`). -/
theorem C64_fails_negative (E : Env) (hE : E.wasm = true) (n : Int) (hn : -2 ^ 53 < n) (hn' : n < 0) :
    fromInt E .u64 (.bigint n) = .ok 0 := by
  have h : -maxSafe ≤ n ∧ n ≤ maxSafe := by
    have : maxSafe = 2 ^ 53 - 1 := rfl
    omega
  have hz : saturate false 64 n = 0 := by
    unfold saturate
    exact if_pos (show n < 0 from hn')
  simp only [fromInt, small, Bool.false_eq_true, if_false, from64, getBig, hE, if_true, h, signed, and_self, Res.bind, asInt, trunc_zero, hz, bits]
  rfl

example : Denotes (.bigint (2 ^ 64)) (2 ^ 64) ∧ Denotes (.num (.fin (-1) 60)) (-2 ^ 60) ∧
    InRange ⟨true, false, true⟩ .i64 (-2 ^ 60) ∧ ¬ InRange ⟨true, false, true⟩ .u64 (2 ^ 64) := by decide

/-! ### C65: floats -/

/-- **C65 (partial).** A double converted to JavaScript and back is unchanged, and so is a float; a number
that is not a float is rejected where a float is expected. Missing: NaN. -/
theorem C65_partial (narrow : Num → Num) (hn : Narrowing narrow) (x : Num) (hx : x ≠ .nan) :
    fromFloat id (.num x) = .ok x ∧
    (IsF32 x → fromFloat narrow (.num x) = .ok x) ∧
    (¬ IsF32 x → Rejected (fromFloat narrow (.num x))) := by
  have self : x.eq x = true := by
    cases x with
    | nan => exact absurd rfl hx
    | inf b => simp [Num.eq]
    | fin m e => simp [Num.eq]
  refine ⟨by simp [fromFloat, self], fun h => by simp [fromFloat, hn.2 x h, self], fun h => ?_⟩
  have hne : (narrow x).eq x = false := by
    cases he : (narrow x).eq x with
    | false => rfl
    | true =>
      refine absurd ?_ h
      have h32 := hn.1 x
      revert he h32
      cases narrow x with
      | nan => intro he; cases x <;> cases he
      | inf b => cases x with
        | inf b' => exact fun _ _ => trivial
        | nan => intro he; cases he
        | fin m e => intro he; cases he
      | fin m e => cases x with
        | fin m' e' =>
          rintro he ⟨m2, e2, h2, hr⟩
          refine ⟨m2, e2, ?_, hr⟩
          exact eq_trans' he h2
        | nan => intro he; cases he
        | inf b => intro he; cases he
  exact ⟨.invalidArg, by simp [fromFloat, hne]⟩

/-- **C65 fails** for NaN, which is rejected as if it were too large: a native function that takes an `f64`
cannot be given NaN. -/
theorem C65_fails_nan (narrow : Num → Num) :
    Rejected (fromFloat id (.num .nan)) ∧ Rejected (fromFloat narrow (.num .nan)) := by
  refine ⟨⟨.invalidArg, rfl⟩, .invalidArg, ?_⟩
  have : (narrow .nan).eq .nan = false := by cases narrow .nan <;> rfl
  simp [fromFloat, this]

example : ∃ narrow, Narrowing narrow := by
  classical
  refine ⟨fun x => if IsF32 x then x else .inf false, fun x => ?_, fun x h => by simp [h]⟩
  dsimp only
  split
  · assumption
  · trivial

example : IsF32 (.fin 3 (-1)) ∧ ¬ IsF32 (.fin 1 200) := by
  refine ⟨⟨3, -1, by decide, by decide, by decide, by decide, by decide⟩, ?_⟩
  rintro ⟨m, e, h, -, hm, -, he⟩
  simp only [Num.eq, beq_iff_eq] at h
  have h1 : min 200 e = e := by omega
  have h2 : (200 - e).toNat = 96 + (104 - e).toNat := by omega
  have h3 := Int.pow_pos (n := 2) (m := (104 - e).toNat) (by decide)
  rw [h1, h2, Int.pow_add] at h
  simp only [Int.sub_self, Int.toNat_zero, Int.pow_zero, Int.mul_one, Int.one_mul] at h
  omega

end Verif.Js
