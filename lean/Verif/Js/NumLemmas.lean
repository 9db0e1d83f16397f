import Verif.Js.Spec
/-! # Lemmas on integers through JavaScript -/
namespace Verif.Js
open Text Headers

theorem tdiv_pow (v : Int) (k : Nat) : (v * 2 ^ k).tdiv (2 ^ k) = v :=
  Int.mul_tdiv_cancel v (by have := Int.pow_pos (n := 2) (m := k) (by decide); omega)

theorem trunc_isInt {m e v : Int} (h : IsInt (.fin m e) v) : trunc m e = v := by
  simp only [IsInt] at h
  unfold trunc
  split
  · have : (-e).toNat = 0 := by omega
    rw [this] at h; simpa using h
  · have : e.toNat = 0 := by omega
    rw [this] at h
    simp only [Int.pow_zero, Int.mul_one] at h
    rw [h, tdiv_pow]

theorem trunc_zero (v : Int) : trunc v 0 = v := by simp [trunc]

theorem isInt_fin (v : Int) : IsInt (.fin v 0) v := by simp [IsInt]

theorem ptrBits_cases (E : Env) : E.ptrBits = 64 ∨ E.ptrBits = 32 := by unfold Env.ptrBits; split <;> simp

theorem inRange_iff (E : Env) (k : IntTy) (v : Int) :
    InRange E k v ↔ lo (signed k) (bits E k) ≤ v ∧ v ≤ hi (signed k) (bits E k) := by
  cases k <;> simp only [InRange, lo, hi, signed, bits, if_true, if_false, Bool.false_eq_true] <;>
    first
    | omega
    | (rcases ptrBits_cases E with h | h <;> simp only [h, if_true, if_false, show ¬ (32 = 64) by decide] <;> omega)

theorem bits_mem (E : Env) (k : IntTy) : bits E k = 8 ∨ bits E k = 16 ∨ bits E k = 32 ∨ bits E k = 64 := by
  cases k <;> simp [bits] <;> have := ptrBits_cases E <;> omega

theorem wrap_eq_iff (s : Bool) {n : Nat} (hn : n = 8 ∨ n = 16 ∨ n = 32 ∨ n = 64) (v : Int) :
    wrap s n v = v ↔ lo s n ≤ v ∧ v ≤ hi s n := by
  rcases hn with rfl | rfl | rfl | rfl <;> cases s <;>
    simp only [wrap, lo, hi, if_true, if_false, Bool.false_eq_true] <;> omega

theorem wrap_range (s : Bool) {n : Nat} (hn : n = 8 ∨ n = 16 ∨ n = 32 ∨ n = 64) (v : Int) :
    lo s n ≤ wrap s n v ∧ wrap s n v ≤ hi s n := by
  rcases hn with rfl | rfl | rfl | rfl <;> cases s <;>
    simp only [wrap, lo, hi, if_true, if_false, Bool.false_eq_true] <;> omega

theorem saturate_eq {s : Bool} {n : Nat} {v : Int} (h : lo s n ≤ v ∧ v ≤ hi s n) : saturate s n v = v := by
  unfold saturate; split
  · omega
  · split <;> omega

theorem range32 {s : Bool} {n : Nat} (hn : n = 8 ∨ n = 16 ∨ n = 32) {v : Int} (h : lo s n ≤ v ∧ v ≤ hi s n) :
    lo s 32 ≤ v ∧ v ≤ hi s 32 := by
  rcases hn with rfl | rfl | rfl <;> cases s <;> simp only [lo, hi, if_true, if_false, Bool.false_eq_true] at * <;> omega

theorem range64 {s : Bool} {n : Nat} (hn : n = 8 ∨ n = 16 ∨ n = 32 ∨ n = 64) {v : Int} (h : lo s n ≤ v ∧ v ≤ hi s n) :
    lo s 64 ≤ v ∧ v ≤ hi s 64 := by
  rcases hn with rfl | rfl | rfl | rfl <;> cases s <;> simp only [lo, hi, if_true, if_false, Bool.false_eq_true] at * <;> omega

theorem small_bits {E : Env} {k : IntTy} (h : small E k = true) : bits E k = 8 ∨ bits E k = 16 ∨ bits E k = 32 := by
  cases k <;> simp [small, bits, Env.ptrBits] at * <;> simp [h]

theorem get32_isInt {E : Env} {s : Bool} {x : Num} {v : Int} (hx : IsInt x v) (h : lo s 32 ≤ v ∧ v ≤ hi s 32) :
    get32 E s x = v := by
  cases x with
  | fin m e =>
    simp only [get32, asInt, trunc_isInt hx]
    split
    · exact saturate_eq h
    · exact (wrap_eq_iff s (by simp) v).2 h
  | _ => exact hx.elim

theorem fromSmall_isInt {E : Env} {k : IntTy} (hk : small E k = true) {x : Num} {v : Int} (hx : IsInt x v)
    (h32 : lo (signed k) 32 ≤ v ∧ v ≤ hi (signed k) 32) :
    fromSmall E k (.num x) = if lo (signed k) (bits E k) ≤ v ∧ v ≤ hi (signed k) (bits E k) then .ok v else .err .invalidArg := by
  have hb := small_bits hk
  have hb' : bits E k = 8 ∨ bits E k = 16 ∨ bits E k = 32 ∨ bits E k = 64 := by omega
  simp only [fromSmall, get32_isInt hx h32]
  by_cases h : lo (signed k) (bits E k) ≤ v ∧ v ≤ hi (signed k) (bits E k)
  · rw [(wrap_eq_iff _ hb' v).2 h, (wrap_eq_iff _ (by simp) v).2 h32]
    simp [h]
  · have hr := wrap_range (signed k) hb' v
    have : wrap (signed k) 32 (wrap (signed k) (bits E k) v) = wrap (signed k) (bits E k) v :=
      (wrap_eq_iff _ (by simp) _).2 (range32 hb hr)
    rw [this]
    have hne : wrap (signed k) (bits E k) v ≠ v := fun he => h ((wrap_eq_iff _ hb' v).1 he)
    simp [h, hne]

theorem get64_isInt {E : Env} {x : Num} {v : Int} (hx : IsInt x v) : get64 E x = saturate true 64 v := by
  cases x with
  | fin m e => simp only [get64, asInt, trunc_isInt hx]
  | _ => exact hx.elim

theorem bigWords_abs (v : Int) (h : -2 ^ 128 < v ∧ v < 2 ^ 128) :
    bigWords (decide (v < 0)) [v.natAbs % 2 ^ 64, v.natAbs / 2 ^ 64 % 2 ^ 64] = v := by
  have hm : v.natAbs / 2 ^ 64 % 2 ^ 64 = v.natAbs / 2 ^ 64 := Nat.mod_eq_of_lt (by omega)
  rw [hm]
  simp only [bigWords, List.foldr_cons, List.foldr_nil, Nat.mul_zero, Nat.add_zero]
  have : v.natAbs % 2 ^ 64 + 2 ^ 64 * (v.natAbs / 2 ^ 64) = v.natAbs := Nat.mod_add_div _ _
  rw [this]
  by_cases hn : v < 0
  · simp only [hn, decide_true, if_true]; omega
  · simp only [hn, decide_false, Bool.false_eq_true, if_false]; omega

/-- The two forms of a 64-bit integer. -/
theorem to64_cases (E : Env) {s : Bool} {v : Int} (h : lo s 64 ≤ v ∧ v ≤ hi s 64) :
    to64 E v = if Safe v then .num (.fin v 0) else .bigint v := by
  have hv : -2 ^ 128 < v ∧ v < 2 ^ 128 := by
    cases s <;> simp only [lo, hi, if_true, if_false, Bool.false_eq_true] at h <;> omega
  unfold to64
  simp only [bigWords_abs v hv, ite_self]
  by_cases hs : Safe v
  · rw [if_pos hs]; exact if_pos hs
  · rw [if_neg hs]; exact if_neg hs

theorem from64_num {E : Env} {s : Bool} {x : Num} {v : Int} (hx : IsInt x v) (h : -2 ^ 63 ≤ v ∧ v < 2 ^ 63) :
    from64 E s (.num x) = if lo s 64 ≤ v ∧ v ≤ hi s 64 then .ok v else .err .invalidArg := by
  have : saturate true 64 v = v := saturate_eq (by simp only [lo, hi, if_true]; omega)
  simp only [from64, get64_isInt hx, this]

theorem from64_big_node {E : Env} (hE : E.wasm = false) (s : Bool) (n : Int) :
    from64 E s (.bigint n) = if lo s 64 ≤ n ∧ n ≤ hi s 64 then .ok n else .err .invalidArg := by
  simp only [from64, getBig, hE, Bool.false_eq_true, if_false, Res.bind, decide_eq_true_eq]
  have := wrap_eq_iff s (n := 64) (by simp) n
  by_cases h : lo s 64 ≤ n ∧ n ≤ hi s 64
  · rw [this.2 h]; simp [h]
  · have hne : wrap s 64 n ≠ n := fun e => h (this.1 e)
    simp [h, hne]

theorem from64_big_wasm {E : Env} (hE : E.wasm = true) {s : Bool} {n : Int} (h : s = true ∨ 0 ≤ n ∨ n < -maxSafe) :
    from64 E s (.bigint n) = if lo s 64 ≤ n ∧ n ≤ hi s 64 then .ok n else .err .invalidArg := by
  simp only [from64, getBig, hE, if_true]
  by_cases hs : -maxSafe ≤ n ∧ n ≤ maxSafe
  · have hr : lo s 64 ≤ n ∧ n ≤ hi s 64 := by
      cases s <;> simp only [maxSafe, lo, hi, if_true, if_false, Bool.false_eq_true, false_or] at * <;> omega
    simp [hs, hr, Res.bind, asInt, trunc_zero, saturate_eq hr]
  · by_cases hr : lo s 64 ≤ n ∧ n ≤ hi s 64 <;> simp [hs, hr, Res.bind]

theorem toInt_ok {E : Env} {k : IntTy} {v : Int} (h : InRange E k v) :
    toInt E k v = .ok (if small E k then .num (.fin v 0) else if Safe v then .num (.fin v 0) else .bigint v) := by
  rw [inRange_iff] at h
  unfold toInt
  split
  · rename_i hk
    simp [toSmall, range32 (small_bits hk) h]
  · rw [to64_cases E (range64 (bits_mem E k) h)]

theorem from64_to64 {E : Env} {s : Bool} {v : Int} (h : lo s 64 ≤ v ∧ v ≤ hi s 64) : from64 E s (to64 E v) = .ok v := by
  rw [to64_cases E h]
  split
  · rename_i hs
    rw [from64_num (isInt_fin v) (by unfold Safe at hs; omega), if_pos h]
  · rename_i hs
    cases hE : E.wasm
    · rw [from64_big_node hE, if_pos h]
    · rw [from64_big_wasm hE, if_pos h]
      unfold Safe at hs
      cases s <;> simp only [maxSafe, lo, hi, if_true, if_false, Bool.false_eq_true] at * <;> omega

theorem fromInt_toInt {E : Env} {k : IntTy} {v : Int} (h : InRange E k v) : (toInt E k v).bind (fromInt E k) = .ok v := by
  have h' := (inRange_iff E k v).1 h
  unfold toInt fromInt
  split
  · rename_i hk
    have h32 := range32 (small_bits hk) h'
    simp only [toSmall, h32, and_self, if_true, Res.bind]
    rw [fromSmall_isInt hk (isInt_fin v) h32, if_pos h']
  · simp only [Res.bind]
    rw [from64_to64 (range64 (bits_mem E k) h')]
    simp [h']

/-- Equal numbers are equal to the same numbers. -/
theorem eq_trans' {m e m' e' m2 e2 : Int} (h : (Num.fin m e).eq (.fin m' e') = true) (h2 : (Num.fin m e).eq (.fin m2 e2) = true) :
    (Num.fin m' e').eq (.fin m2 e2) = true := by
  simp only [Num.eq, beq_iff_eq] at *
  have scale : ∀ {a b : Int} {p q : Int} {l : Int}, l ≤ p → l ≤ q →
      (a * 2 ^ (p - min p q).toNat = b * 2 ^ (q - min p q).toNat ↔ a * 2 ^ (p - l).toNat = b * 2 ^ (q - l).toNat) := by
    intro a b p q l hp hq
    have e1 : (p - l).toNat = (p - min p q).toNat + (min p q - l).toNat := by omega
    have e2 : (q - l).toNat = (q - min p q).toNat + (min p q - l).toNat := by omega
    rw [e1, e2, Int.pow_add, Int.pow_add, ← Int.mul_assoc, ← Int.mul_assoc]
    constructor
    · intro h; rw [h]
    · intro h
      refine Int.eq_of_mul_eq_mul_right ?_ h
      have := Int.pow_pos (n := 2) (m := (min p q - l).toNat) (by decide)
      omega
  have l1 : min e (min e' e2) ≤ e := by omega
  have l2 : min e (min e' e2) ≤ e' := by omega
  have l3 : min e (min e' e2) ≤ e2 := by omega
  rw [scale l1 l2] at h
  rw [scale l1 l3] at h2
  rw [scale l2 l3, ← h, h2]

theorem tdiv_unique {a d t : Int} (hd : 0 < d) (h : 0 ≤ a ∧ t * d ≤ a ∧ a < (t + 1) * d ∨ a < 0 ∧ a ≤ t * d ∧ (t - 1) * d < a) :
    a.tdiv d = t := by
  rcases h with ⟨h0, h1, h2⟩ | ⟨h0, h1, h2⟩
  · rw [Int.tdiv_eq_ediv_of_nonneg h0]
    have a1 := (Int.le_ediv_iff_mul_le hd).2 h1
    have a2 := (Int.ediv_lt_iff_lt_mul hd).2 h2
    omega
  · have hn : (-a).tdiv d = -t := by
      rw [Int.tdiv_eq_ediv_of_nonneg (by omega)]
      have e1 : -t * d ≤ -a := by rw [Int.neg_mul]; omega
      have e2 : -a < (-t + 1) * d := by
        have : (-t + 1) * d = -((t - 1) * d) := by rw [← Int.neg_mul]; congr 1; omega
        rw [this]; omega
      have a1 := (Int.le_ediv_iff_mul_le hd).2 e1
      have a2 := (Int.ediv_lt_iff_lt_mul hd).2 e2
      omega
    rw [Int.neg_tdiv] at hn
    omega

theorem trunc_intPart {m e t : Int} (h : IntPart (.fin m e) t) : trunc m e = t := by
  simp only [IntPart] at h
  unfold trunc
  split
  · rename_i he
    have : (-e).toNat = 0 := by omega
    rw [this] at h
    simp only [Int.pow_zero, Int.mul_one] at h
    have h0 : (0 : Int) < 2 ^ e.toNat := Int.pow_pos (by decide)
    rcases h with ⟨_, h1, h2⟩ | ⟨_, h1, h2⟩ <;> omega
  · rename_i he
    have : e.toNat = 0 := by omega
    rw [this] at h
    simp only [Int.pow_zero, Int.mul_one] at h
    exact tdiv_unique (Int.pow_pos (by decide)) h

theorem saturate_clamp (s : Bool) {n : Nat} (hn : n = 32 ∨ n = 64) (t : Int) : saturate s n t = max (lo s n) (min (hi s n) t) := by
  unfold saturate
  rcases hn with rfl | rfl <;> cases s <;> simp only [lo, hi, if_true, if_false, Bool.false_eq_true] <;> split <;> (try split) <;> omega

theorem fromSmall_get32 {E : Env} {k : IntTy} (hk : small E k = true) (x : Num)
    (h32 : lo (signed k) 32 ≤ get32 E (signed k) x ∧ get32 E (signed k) x ≤ hi (signed k) 32) :
    fromSmall E k (.num x) =
      if lo (signed k) (bits E k) ≤ get32 E (signed k) x ∧ get32 E (signed k) x ≤ hi (signed k) (bits E k)
      then .ok (get32 E (signed k) x) else .err .invalidArg := by
  have hb := small_bits hk
  have hb' : bits E k = 8 ∨ bits E k = 16 ∨ bits E k = 32 ∨ bits E k = 64 := by omega
  generalize hv : get32 E (signed k) x = v at *
  simp only [fromSmall, hv]
  by_cases h : lo (signed k) (bits E k) ≤ v ∧ v ≤ hi (signed k) (bits E k)
  · rw [(wrap_eq_iff _ hb' v).2 h, (wrap_eq_iff _ (by simp) v).2 h32]
    simp [h]
  · have hr := wrap_range (signed k) hb' v
    have : wrap (signed k) 32 (wrap (signed k) (bits E k) v) = wrap (signed k) (bits E k) v :=
      (wrap_eq_iff _ (by simp) _).2 (range32 hb hr)
    rw [this]
    have hne : wrap (signed k) (bits E k) v ≠ v := fun he => h ((wrap_eq_iff _ hb' v).1 he)
    simp [h, hne]

theorem get32_range (E : Env) (s : Bool) (x : Num) : lo s 32 ≤ get32 E s x ∧ get32 E s x ≤ hi s 32 := by
  have hc : ∀ t, lo s 32 ≤ saturate s 32 t ∧ saturate s 32 t ≤ hi s 32 := fun t => by
    unfold saturate
    cases s <;> simp only [lo, hi, if_true, if_false, Bool.false_eq_true] <;> split <;> (try split) <;> omega
  cases x with
  | fin m e =>
    simp only [get32]
    split
    · exact hc _
    · exact wrap_range s (by simp) _
  | nan => simp only [get32, asInt, ite_self]; cases s <;> decide
  | inf b => simp only [get32, asInt]; cases b <;> cases s <;> cases E.wasm <;> decide

theorem wrap_dvd (s : Bool) (v : Int) : (2 : Int) ^ 32 ∣ wrap s 32 v - v := by
  unfold wrap
  cases s
  · simp only [Bool.false_eq_true, if_false]; omega
  · simp only [if_true]; omega

/-- Every finite number has an integer part, and no other. -/
theorem intPart_total (m e : Int) : ∃ t, IntPart (.fin m e) t := by
  by_cases hm : 0 ≤ m
  · refine ⟨(m * 2 ^ e.toNat) / 2 ^ (-e).toNat, .inl ⟨hm, Int.ediv_mul_le _ (Int.ne_of_gt (Int.pow_pos (by decide))),
      Int.lt_ediv_add_one_mul_self _ (Int.pow_pos (by decide))⟩⟩
  · refine ⟨-((-(m * 2 ^ e.toNat)) / 2 ^ (-e).toNat), .inr ⟨by omega, ?_, ?_⟩⟩
    · have := Int.ediv_mul_le (-(m * 2 ^ e.toNat)) (b := 2 ^ (-e).toNat) (Int.ne_of_gt (Int.pow_pos (by decide)))
      rw [Int.neg_mul]; omega
    · have := Int.lt_ediv_add_one_mul_self (-(m * 2 ^ e.toNat)) (b := 2 ^ (-e).toNat) (Int.pow_pos (by decide))
      have h2 : ∀ q d : Int, (-q - 1) * d = -((q + 1) * d) := fun q d => by rw [← Int.neg_mul]; congr 1; omega
      rw [h2]; omega

end Verif.Js
