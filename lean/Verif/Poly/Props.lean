import Verif.Poly.Lemmas
/-! # C94: the polyfill of N-API for wasm -/
namespace Verif.Poly
open Js (Num Res Err asInt IsInt lo hi saturate)

/-- An engine without inherited properties, for the examples. -/
def Sample.engine : Engine where
  inherited _ _ := .undefined
  exotic h _ _ _ := .ok h
  stringifies _ _ := true
  otherJson _ _ := none
  shown _ _ := "missing field `reason`".toList

/-- Integers that are doubles are created as that number, and read back in any integer type they fit in. -/
theorem C94_int {s : Bool} {n : Nat} {i : Int} (hd : IsDouble i) (hr : lo s n ≤ i ∧ i ≤ hi s n) :
    readInt s n (createInt i) = .ok i ∧ ∃ x, createInt i = .num x ∧ IsInt x i := by
  obtain ⟨m, k, h, h1, h2⟩ := hd
  have ha : i.natAbs = m.natAbs * 2 ^ k := by rw [h, Int.natAbs_mul]; simp [Int.natAbs_pow]
  have hm : i.sign * (mag i.natAbs : Int) = i := by
    rw [mag_exact ha (by omega), Int.sign_mul_natAbs]
  refine ⟨?_, ofInt i, rfl, ?_⟩
  · simp only [createInt, readInt, asInt_ofInt, hm, Js.saturate_eq hr]
  · have := ofInt_isInt i
    rwa [hm] at this

example : readInt false 64 (createInt (2 ^ 63 + 2 ^ 11)) = .ok (2 ^ 63 + 2 ^ 11) ∧
    readInt true 32 (createInt (-2 ^ 31)) = .ok (-2 ^ 31) := by decide +kernel

/-- Every `i32` and every `u32` comes back. -/
theorem C94_int32 (i : Int) : (-2 ^ 31 ≤ i ∧ i < 2 ^ 31 → readInt true 32 (createInt i) = .ok i) ∧
    (0 ≤ i ∧ i < 2 ^ 32 → readInt false 32 (createInt i) = .ok i) := by
  refine ⟨fun h => (C94_int ⟨i, 0, by omega, by omega, by omega⟩ ?_).1, fun h => (C94_int ⟨i, 0, by omega, by omega, by omega⟩ ?_).1⟩ <;>
    simp only [lo, hi, if_true, if_false, Bool.false_eq_true] <;> omega

example : readInt true 32 (createInt (-7)) = .ok (-7) := by decide +kernel

/-- An `i64` comes back with an error of at most one part in `2 ^ 53`. -/
theorem C94_int64_partial {i : Int} (h : -2 ^ 63 ≤ i ∧ i < 2 ^ 63) :
    ∃ j : Int, readInt true 64 (createInt i) = .ok j ∧ 2 ^ 53 * (j - i).natAbs ≤ i.natAbs := by
  refine ⟨saturate true 64 (i.sign * mag i.natAbs), by simp only [createInt, readInt, asInt_ofInt], ?_⟩
  have hn := mag_near i.natAbs
  generalize mag i.natAbs = a at hn
  simp only [saturate, lo, hi, if_true]
  rcases Int.lt_trichotomy i 0 with h0 | h0 | h0
  · rw [Int.sign_eq_neg_one_of_neg h0]
    split
    · omega
    · split <;> omega
  · subst h0; simp at hn ⊢
  · rw [Int.sign_eq_one_of_pos h0]
    split
    · omega
    · split <;> omega

example : readInt true 64 (createInt (2 ^ 60 + 300)) = .ok (2 ^ 60 + 256) := by decide +kernel

/-- `create_int64` does not keep all values: `2 ^ 53 + 1` comes back as `2 ^ 53`. -/
theorem C94_fails_int64 : readInt true 64 (createInt (2 ^ 53 + 1)) = .ok (2 ^ 53) := by decide +kernel

/-- Other values that are created read back as they were made. -/
theorem C94_values (h : Heap) (x : Num) (b : Bool) (s : List Char) (xs : List UInt8) :
    readDouble (createDouble x) = .ok x ∧ readBool (getBoolean b) = .ok b ∧ readString (createString s) = .ok s ∧
      readBuffer (createBuffer h xs).1 (createBuffer h xs).2 = .ok xs := by
  refine ⟨rfl, rfl, by simp [createString, readString, decode_encode], ?_⟩
  simp [createBuffer, alloc, readBuffer]

example : readString (createString ['h', Char.ofNat 0x1F600]) = .ok ['h', Char.ofNat 0x1F600] ∧
    createString ['h', Char.ofNat 0x1F600] = .str [0x68, 0xD83D, 0xDE00] := by decide +kernel

/-- They are of the type that they were made as. -/
theorem C94_created_types (h : Heap) (i : Int) (x : Num) (b : Bool) (s : List Char) (xs : List UInt8) :
    Is h .number (createInt i) ∧ Is h .number (createDouble x) ∧ Is h .boolean (getBoolean b) ∧ Is h .string (createString s) ∧
      Is h .null getNull ∧ Is h .undefined getUndefined ∧ Is (createBuffer h xs).1 .buffer (createBuffer h xs).2 ∧
      Is (createArray h).1 .object (createArray h).2 ∧ Is (createObject h).1 .object (createObject h).2 := by
  refine ⟨⟨_, rfl⟩, ⟨_, rfl⟩, ⟨_, rfl⟩, ⟨_, rfl⟩, rfl, rfl, ⟨h.length, { kind := .bytes, bytes := xs }, rfl, ?_, rfl⟩, ⟨_, rfl⟩, ⟨_, rfl⟩⟩
  simp [createBuffer, alloc]

/-- Creating an object is not seen by those that exist. -/
theorem C94_created_fresh (h : Heap) (xs : List UInt8) (e : Error) {i : Nat} (hi : i < h.length) :
    (createArray h).1[i]? = h[i]? ∧ (createObject h).1[i]? = h[i]? ∧ (createBuffer h xs).1[i]? = h[i]? ∧ (e.toJs h).1[i]? = h[i]? ∧
      (createArray h).2 ≠ .obj i ∧ (createObject h).2 ≠ .obj i ∧ (createBuffer h xs).2 ≠ .obj i ∧ (e.toJs h).2 ≠ .obj i := by
  simp only [createArray, createObject, createBuffer, Error.toJs, alloc, List.getElem?_append_left hi, true_and, ne_eq, V.obj.injEq]
  omega

example : (createObject []).1.length = 1 ∧ (createArray (createObject []).1).2 = .obj 1 := by decide +kernel

/-- A JavaScript string survives the way to Rust and back exactly if it is well-formed. -/
theorem C94_string_from_js (u : Units) : ∃ s, readString (.str u) = .ok s ∧ (createString s = .str u ↔ WellFormed u) := by
  refine ⟨_, rfl, ?_⟩
  rw [← wf_iff, ← encode_decode_iff]
  simp [createString]

example : WellFormed [0x68, 0xD83D, 0xDE00] ∧ ¬ WellFormed [0xDE00, 0xD83D] := by
  rw [← wf_iff, ← wf_iff]; decide +kernel

/-- A half of a surrogate pair without the other one is read as U+FFFD, and what is before and behind it as it is. -/
theorem C94_string_lone (s : List Char) {a : UInt16} (r : Units)
    (ha : isLow a = true ∨ isHigh a = true ∧ ∀ b, r.head? = some b → isLow b = false) :
    ∃ t, readString (.str r) = .ok t ∧ readString (.str (encode s ++ a :: r)) = .ok (s ++ Char.ofNat 0xFFFD :: t) := by
  refine ⟨decode r, rfl, ?_⟩
  simp only [readString, decode_encode_append]
  rcases ha with h | ⟨h, hr⟩
  · rw [decode_lone h]
  · cases r with
    | nil => rw [decode_high_end h]; rfl
    | cons b r => rw [decode_high h (hr b rfl)]

example : readString (.str [0x68, 0xD800, 0x68, 0xDC00, 0xD83D, 0xDE00]) =
    .ok ['h', Char.ofNat 0xFFFD, 'h', Char.ofNat 0xFFFD, Char.ofNat 0x1F600] := by decide +kernel

/-- A lone surrogate is lost: two different strings are read as the same. -/
theorem C94_fails_string : readString (.str [0xD800]) = readString (.str [0xFFFD]) ∧ V.str [0xD800] ≠ .str [0xFFFD] := by decide +kernel

/-- `get_type` is the type of the value: `typeof`, but `null` has a type of its own. -/
theorem C94_type {h : Heap} {v : V} (hv : ∀ i, v = .obj i → i < h.length) (t : ValueType) : getType h v = t ↔ HasValueType h v t := by
  have key : HasValueType h v (getType h v) := by
    cases v with
    | obj i =>
      have hi := hv i rfl
      have hs : h[i]? = some h[i] := List.getElem?_eq_getElem hi
      by_cases hk : h[i].kind = .function
      · have : getType h (.obj i) = .function := by simp [getType, typeOf, hs, hk]
        rw [this]; exact .function i _ hs hk
      · have : getType h (.obj i) = .object := by simp [getType, typeOf, hs, hk]
        rw [this]; exact .object i _ hs hk
    | undefined => exact .undefined
    | null => exact .null
    | bool b => exact .boolean b
    | num x => exact .number x
    | bigint n => exact .bigint n
    | str s => exact .string s
    | symbol k => exact .symbol k
  have uniq : ∀ a b, HasValueType h v a → HasValueType h v b → a = b := by
    intro a b ha hb
    cases ha <;> cases hb <;> simp_all
  exact ⟨fun he => he ▸ key, fun ht => uniq _ _ key ht⟩

example : getType [{ kind := .function }] (.obj 0) = .function ∧ getType [] .null = .null := by decide +kernel

/-- A conversion from `JsUnknown` succeeds exactly for the values of the type, and gives the same value.
Missing: `JsBigint`, `JsNull` and `JsUndefined` (see `C94_fails_try_from`). -/
theorem C94_try_from_partial {h : Heap} {t : Ty} {v : V} (ht : t ≠ .bigint ∧ t ≠ .null ∧ t ≠ .undefined) :
    (Is h t v → tryFrom h t v = .ok v) ∧ (¬ Is h t v → ∃ e, tryFrom h t v = .err e) := by
  have key : isTypeOf h t v = true ↔ Is h t v := by
    cases t with
    | bigint => exact absurd rfl ht.1
    | null => exact absurd rfl ht.2.1
    | undefined => exact absurd rfl ht.2.2
    | object => cases v <;> simp [isTypeOf, Is, isRef]
    | boolean | number | string =>
      cases v with
      | obj i =>
        simp only [isTypeOf, Is, typeOf]
        split
        · split <;> simp
        · simp
      | _ => simp [isTypeOf, Is, typeOf]
    | function =>
      cases v with
      | obj i =>
        simp only [isTypeOf, Is, typeOf]
        cases hi : h[i]? with
        | none => simp [hi]
        | some o => by_cases hk : o.kind = .function <;> simp [hi, hk]
      | _ => simp [isTypeOf, Is, typeOf]
    | buffer | promise =>
      cases v with
      | obj i =>
        simp only [isTypeOf, Is, isKind]
        cases hi : h[i]? with
        | none => simp [hi]
        | some o => simp [hi]
      | _ => simp [isTypeOf, Is, isKind]
  constructor
  · intro hs; simp [tryFrom, key.2 hs]
  · intro hs
    have : isTypeOf h t v = false := by rw [← Bool.not_eq_true, key]; exact hs
    exact ⟨.wrongType, by simp [tryFrom, this]⟩

example : Is [] .string (.str [0x68]) ∧ ¬ Is [] .string (.num .nan) := ⟨⟨_, rfl⟩, by simp [Is]⟩

/-- Every value converts to a `JsNull`, a `JsUndefined` and a `JsBigint`. -/
theorem C94_fails_try_from (h : Heap) (v : V) : tryFrom h .null v = .ok v ∧ tryFrom h .undefined v = .ok v ∧ tryFrom h .bigint v = .ok v := ⟨rfl, rfl, rfl⟩

/-- `is_buffer` recognizes the buffers. -/
theorem C94_is_buffer (h : Heap) (v : V) : isBuffer h v = true ↔ Is h .buffer v := by
  cases v with
  | obj i =>
    simp only [isBuffer, hasType, Is, isKind]
    cases hi : h[i]? with
    | none => simp [hi]
    | some o => simp [hi]
  | _ => simp [isBuffer, hasType, Is, isKind]

example : isBuffer (createBuffer [] [1, 2]).1 (createBuffer [] [1, 2]).2 = true := by decide +kernel

/-- `has_type` recognizes functions, buffers, promises and objects.
Missing: the other types (see `C94_fails_has_type`). -/
theorem C94_has_type_partial (h : Heap) (t : Ty) (ht : t = .function ∨ t = .buffer ∨ t = .promise ∨ t = .object) (v : V) :
    hasType h t v = true ↔ Is h t v := by
  rcases ht with rfl | rfl | rfl | rfl
  case inr.inr.inr => cases v <;> simp [hasType, Is, isRef]
  all_goals
    cases v with
    | obj i =>
      simp only [hasType, Is, isKind]
      cases hi : h[i]? with
      | none => simp [hi]
      | some o => simp [hi]
    | _ => simp [hasType, Is, isKind]

example : hasType [{ kind := .function }, { kind := .promise }] .function (.obj 0) = true ∧
    hasType [{ kind := .function }, { kind := .promise }] .function (.obj 1) = false := by decide +kernel

/-- `has_type` does not recognize numbers, strings and booleans, not even those that were created as such
(the wrappers define `instanceof` only). -/
theorem C94_fails_has_type (h : Heap) (i : Int) (s : List Char) (b : Bool) :
    hasType h .number (createInt i) = false ∧ hasType h .string (createString s) = false ∧ hasType h .boolean (getBoolean b) = false :=
  ⟨rfl, rfl, rfl⟩

/-- A property that was set is got back; other properties, other objects, and what objects there are, stay as they are. -/
theorem C94_set_get (G : Engine) {h : Heap} {o : V} (hm : Mutable h o) {name : List Char} (hn : Plain name) (v : V) :
    ∃ h', setNamed G h o name v = .ok h' ∧ getNamed G h' o name = .ok v ∧
      (∀ name', name' ≠ name → Plain name' → getNamed G h' o name' = getNamed G h o name') ∧
      (∀ o' name', o' ≠ o → getNamed G h' o' name' = getNamed G h o' name') ∧
      (∀ v', getType h' v' = getType h v') ∧ (∀ v', readBuffer h' v' = readBuffer h v') := by
  obtain ⟨i, ob, rfl, hi, hf, hb⟩ := hm
  have hlen : ∀ {n : List Char}, Plain n → ¬ (ob.kind = .array ∧ keyOf (encode n) = .name (ascii "length")) :=
    fun hp hc => (ascii_plain hp).2 hc.2
  have hat : ∀ j, j ≠ i → (h.set i (ob.set (keyOf (encode name)) v))[j]? = h[j]? := fun j hj => List.getElem?_set_ne (fun e => hj e.symm)
  refine ⟨_, set_ok hi hf hb hn v, ?_, fun name' hne hp => ?_, fun o' name' ho => ?_, fun v' => ?_, fun v' => ?_⟩
  · simp [getNamed, get_at hi, get_set_same G ob _ v hb (hlen hn)]
  · simp only [getNamed, get_at hi, hi]
    rw [get_set_other G ob v hb (fun he => hne (key_inj he)) (hlen hp)]
  · cases o' with
    | obj j =>
      have hj : j ≠ i := fun e => ho (by rw [e])
      simp only [getNamed, hat j hj]
    | _ => rfl
  · cases v' with
    | obj j =>
      have : typeOf (h.set i (ob.set (keyOf (encode name)) v)) (.obj j) = typeOf h (.obj j) := by
        by_cases hj : j = i
        · subst hj; simp only [typeOf, get_at hi, hi]; rfl
        · simp only [typeOf, hat j hj]
      simp only [getType, this]
    | _ => rfl
  · cases v' with
    | obj j =>
      by_cases hj : j = i
      · subst hj; simp only [readBuffer, get_at hi, hi]; rfl
      · simp only [readBuffer, hat j hj]
    | _ => rfl

example : Mutable (createObject []).1 (createObject []).2 ∧ Plain "x".toList :=
  ⟨⟨0, { kind := .plain }, rfl, rfl, rfl, by decide⟩, by decide, by decide⟩

/-- If an object is frozen, or the value is no object, setting a property is an error. -/
theorem C94_set_refused (G : Engine) (h : Heap) (o : V) (name : List Char) (v : V) :
    (∀ i ob, o = .obj i → h[i]? = some ob → ob.frozen = true → ob.kind ≠ .bytes → Plain name →
      ∃ e, setNamed G h o name v = .err e) ∧
    ((∀ i, o ≠ .obj i) → (∃ e, setNamed G h o name v = .err e) ∧ ∃ e, getNamed G h o name = .err e) := by
  constructor
  · rintro i ob rfl hi hf hb hn
    exact ⟨.genericFailure, by simp [setNamed, hi, not_special hn hb, hf]⟩
  · intro ho
    cases o with
    | obj i => exact absurd rfl (ho i)
    | _ => exact ⟨⟨_, rfl⟩, _, rfl⟩

example : setNamed Sample.engine [{ kind := .plain, frozen := true }] (.obj 0) "x".toList .null = .err .genericFailure := by decide +kernel

/-- An array that was created and filled at `0`, `1`, … has the length and the elements that were put in,
and others behind them are those of the prototype. -/
theorem C94_array (G : Engine) (h : Heap) (vs : List V) (hl : vs.length < 2 ^ 32) :
    ∃ h', fill G (createArray h).2 0 vs (createArray h).1 = .ok h' ∧ arrayLength G h' (createArray h).2 = .ok vs.length ∧
      (∀ i (hi : i < vs.length), element G h' (createArray h).2 i = .ok vs[i]) ∧
      (∀ i, vs.length ≤ i → i < 2 ^ 32 - 1 → element G h' (createArray h).2 i = .ok (G.inherited .array (.index i))) ∧
      (∀ j, j < h.length → h'[j]? = h[j]?) := by
  have h0 : (createArray h).1[h.length]? = some { kind := .array } := by simp [createArray, alloc]
  obtain ⟨h', ob, h1, h2, h3, h4⟩ := fill_ok G h.length vs [] _ _ h0 ⟨rfl, rfl, rfl, fun k => by cases k <;> rfl⟩ (by simp; omega)
  rw [List.nil_append] at h3
  have hb : ob.kind ≠ .bytes := by rw [h3.kind]; decide
  refine ⟨h', h1, ?_, fun i hi => ?_, fun i hi hi' => ?_, fun j hj => ?_⟩
  · have hg : ob.get G (.name (ascii "length")) = .num (.fin ob.len 0) := by
      unfold Obj.get
      rw [h3.kind]; simp
    have : getNamed G h' (createArray h).2 "length".toList = .ok (.num (.fin vs.length 0)) := by
      simp only [getNamed, createArray, alloc, h2, key_length, hg, h3.len]
    simp only [arrayLength, this, Res.bind]
    rw [if_pos (show getType h' (V.num (.fin vs.length 0)) = .number from rfl)]
    simp only [readInt, asInt, Js.trunc_zero]
    rw [Js.saturate_eq]
    simp only [lo, hi, if_false, Bool.false_eq_true]; omega
  · have : i < 2 ^ 32 - 1 := by omega
    simp only [element, createArray, alloc, h2, elemKey, if_pos this]
    rw [get_eq G ob _ hb (by simp), h3.mem]
    simp [hi]
  · simp only [element, createArray, alloc, h2, elemKey, if_pos hi']
    rw [get_eq G ob _ hb (by simp), h3.mem]
    have : vs[i]? = none := List.getElem?_eq_none hi
    simp [this, h3.kind]
  · rw [h4 j (by omega)]
    simp [createArray, alloc, List.getElem?_append_left hj]

example : ((fill Sample.engine (createArray []).2 0 [.null, .bool true] (createArray []).1).bind fun h =>
    element Sample.engine h (.obj 0) 1) = .ok (.bool true) := by decide +kernel

/-- `get_array_length` accepts values that are no arrays, and numbers that are no lengths: an object
whose `length` is -1 has length 0, one whose `length` is `2 ^ 40` has length `2 ^ 32 - 1`. -/
theorem C94_fails_array_length (G : Engine) :
    arrayLength G [{ kind := .plain, props := [(.name (ascii "length"), .num (.fin (-1) 0))] }] (.obj 0) = .ok 0 ∧
      arrayLength G [{ kind := .plain, props := [(.name (ascii "length"), .num (.fin 1 40))] }] (.obj 0) = .ok (2 ^ 32 - 1) := by
  constructor <;>
  · simp only [arrayLength, getNamed, key_length, List.getElem?_cons_zero, Res.bind, Obj.get]
    simp
    decide +kernel

/-- An error arrives in JavaScript as an `Error` whose message is the reason. -/
theorem C94_error (G : Engine) (h : Heap) (e : Error) :
    getNamed G (e.toJs h).1 (e.toJs h).2 "message".toList = .ok (createString e.reason) ∧
      getType (e.toJs h).1 (e.toJs h).2 = .object ∧ ∃ i o, (e.toJs h).2 = .obj i ∧ (e.toJs h).1[i]? = some o ∧ o.kind = .error := by
  have h0 : (e.toJs h).1[h.length]? = some { kind := .error, message := encode e.reason } := by simp [Error.toJs, alloc]
  refine ⟨?_, ?_, h.length, _, rfl, h0, rfl⟩
  · have : (e.toJs h).2 = .obj h.length := rfl
    simp only [getNamed, this, h0, key_message]
    rw [get_eq G _ _ (by simp) (by simp)]
    simp [createString]
  · have : (e.toJs h).2 = .obj h.length := rfl
    rw [this]
    simp [getType, typeOf, h0]

example : getNamed Sample.engine (Error.toJs [] ⟨"no".toList, .invalidArg⟩).1 (.obj 0) "message".toList = .ok (.str [0x6E, 0x6F]) := by decide +kernel

/-- Errors made of a status have it and no reason; errors made of a reason have it and are generic failures. -/
theorem C94_error_new (e : Error) (s : Status) (r : List Char) :
    (Error.fromStatus s = e ↔ e.status = s ∧ e.reason = "".toList) ∧
      (Error.fromReason r = e ↔ e.status = .genericFailure ∧ e.reason = r) := by
  obtain ⟨r', s'⟩ := e
  simp only [Error.fromStatus, Error.fromReason, Error.mk.injEq]
  refine ⟨⟨fun ⟨h1, h2⟩ => ⟨h2.symm, by rw [← h1]; rfl⟩, fun ⟨h1, h2⟩ => ⟨by rw [h2]; rfl, h1.symm⟩⟩, ⟨fun ⟨h1, h2⟩ => ⟨h2.symm, h1.symm⟩, fun ⟨h1, h2⟩ => ⟨h2.symm, h1.symm⟩⟩⟩

example : Error.fromStatus .invalidArg ≠ Error.fromStatus .ok ∧ Error.fromReason "no".toList = ⟨"no".toList, .genericFailure⟩ := by decide +kernel

/-- Names of the statuses. -/
def Status.name : Status → List Char
  | .ok => "Ok".toList
  | .invalidArg => "InvalidArg".toList
  | .genericFailure => "GenericFailure".toList

/-- An object with a `reason` and a `status`, made by the polyfill itself, is read as that error. -/
theorem C94_error_from_object (G : Engine) (h : Heap) (e : Error) (hs : ∀ h v, G.stringifies h v = true) :
    ∃ h1 h2, setNamed G (createObject h).1 (createObject h).2 "reason".toList (createString e.reason) = .ok h1 ∧
      setNamed G h1 (createObject h).2 "status".toList (createString e.status.name) = .ok h2 ∧
      Error.fromJs G h2 (createObject h).2 = .ok e := by
  have h0 : (createObject h).1[h.length]? = some { kind := .plain } := by simp [createObject, alloc]
  have p1 : Plain "reason".toList := by constructor <;> decide
  have p2 : Plain "status".toList := by constructor <;> decide
  have s1 := set_ok (G := G) h0 rfl (by decide) p1 (createString e.reason)
  have g1 := get_at h0 (Obj.set { kind := .plain } (keyOf (encode "reason".toList)) (createString e.reason))
  have s2 := set_ok (G := G) g1 rfl (by simp [Obj.set]) p2 (createString e.status.name)
  have g2 := get_at g1 (Obj.set (Obj.set { kind := .plain } (keyOf (encode "reason".toList)) (createString e.reason)) (keyOf (encode "status".toList)) (createString e.status.name))
  refine ⟨_, _, s1, s2, ?_⟩
  have hv : (createObject h).2 = .obj h.length := rfl
  simp only [Error.fromJs, hs, if_true, fromJson, hv]
  rw [g2]
  simp only [Obj.set, key_reason, key_status]
  have n1 : (Key.name (ascii "reason") == Key.name (ascii "status")) = false := by decide +kernel
  have st : statusOf (encode e.status.name) = some e.status := by cases e.status <;> decide +kernel
  simp [List.lookup_cons, n1, createString, decode_encode, st]

example : ∃ h1, setNamed Sample.engine (createObject []).1 (createObject []).2 "reason".toList (createString "no".toList) = .ok h1 :=
  ⟨_, rfl⟩

/-- An error that went to JavaScript does not come back: its status is lost, and its reason is replaced
by a complaint about the conversion. -/
theorem C94_fails_error_back (G : Engine) (h : Heap) (e : Error) (hs : ∀ h v, G.stringifies h v = true) :
    Error.fromJs G (e.toJs h).1 (e.toJs h).2 = .ok ⟨G.shown (e.toJs h).1 (e.toJs h).2, .genericFailure⟩ := by
  have h0 : (e.toJs h).1[h.length]? = some { kind := .error, message := encode e.reason } := by simp [Error.toJs, alloc]
  have hv : (e.toJs h).2 = .obj h.length := rfl
  simp only [Error.fromJs, hs, if_true, fromJson, hv, h0]
  simp [Error.fromReason]

example : (Error.fromJs Sample.engine (Error.toJs [] ⟨"no".toList, .invalidArg⟩).1 (.obj 0)) = .ok ⟨"missing field `reason`".toList, .genericFailure⟩ := by
  decide +kernel

end Verif.Poly
