import Verif.Js.PtrLemmas
import Verif.Headers.NameProps
/-!
# Pointers through JavaScript (C57)

`toPtr E b const to a` sends the pointer of address `a` and type `*const to` or `*mut to` to JavaScript;
`fromPtr E b const to j` receives such a pointer.
-/
namespace Verif.Js
open Text Headers

theorem prop_type (a : Js) (s : Text) : prop t!"type" (.obj (setProp t!"type" (.str s) (setProp t!"addr" a []))) = .str s := rfl
theorem prop_addr (a : Js) (s : Text) : prop t!"addr" (.obj (setProp t!"type" (.str s) (setProp t!"addr" a []))) = a := rfl

/-- What is received of a pointer that was sent. -/
theorem fromPtr_toPtr (E : Env) (b : Nat → Text) (c c' : Bool) (to to' : CTy) (a : Nat) (ha : InRange E .usize a) (h0 : a ≠ 0) :
    (toPtr E b c to a).bind (fromPtr E b c' to') =
      if (if c' then constify (ptrType b c to) else ptrType b c to) = ptrType b c' to' then .ok (.addr a) else .err .invalidArg := by
  have h := fromInt_toInt ha
  rw [toInt_ok ha] at h
  simp only [toPtr, h0, if_false, toInt_ok ha, Res.bind, fromPtr, fromPtrObj, prop_type, prop_addr] at h ⊢
  rw [h]
  by_cases hc : (if c' then constify (ptrType b c to) else ptrType b c to) = ptrType b c' to' <;> simp [hc, Res.map, Res.bind]

/-- **C57.** The null pointer becomes `null`, and conversely, whatever the type. -/
theorem C57_null (E : Env) (b : Nat → Text) (const : Bool) (to : CTy) :
    toPtr E b const to 0 = .ok .null ∧ fromPtr E b const to .null = .ok (.addr 0) := ⟨rfl, rfl⟩

/-- **C57.** Mutable pointers, to any type, sent to JavaScript and back are unchanged. -/
theorem C57_mut (E : Env) (b : Nat → Text) (to : CTy) (a : Nat) (ha : InRange E .usize a) :
    ∃ j, toPtr E b false to a = .ok j ∧ fromPtr E b false to j = .ok (.addr a) := by
  by_cases h0 : a = 0
  · subst h0; exact ⟨.null, C57_null E b false to⟩
  · have h := fromPtr_toPtr E b false false to to a ha h0
    simp only [Bool.false_eq_true, if_false, if_true] at h
    have e : ∃ j, toPtr E b false to a = .ok j := by
      simp only [toPtr, h0, if_false, toInt_ok ha, Res.bind]; exact ⟨_, rfl⟩
    obtain ⟨j, hj⟩ := e
    rw [hj] at h
    exact ⟨j, hj, h⟩

theorem toPtr_ok (E : Env) (b : Nat → Text) (c : Bool) (to : CTy) (a : Nat) (ha : InRange E .usize a) :
    ∃ j, toPtr E b c to a = .ok j := by
  by_cases h0 : a = 0
  · subst h0; exact ⟨_, rfl⟩
  · simp only [toPtr, h0, if_false, toInt_ok ha, Res.bind]; exact ⟨_, rfl⟩

theorem constify_ptrType (b : Nat → Text) (c : Bool) (to : CTy) (hw : wordy b to) :
    constify (ptrType b c to) = cName b (.constPtr (allConst to)) := by
  cases c
  · rw [ptrType_mut, constify_name b (.mutPtr to) (by simpa [wordy] using hw)]; simp [allConst]
  · rw [ptrType_const, constify_name b (.constPtr to) (by simpa [wordy] using hw)]; simp [allConst]

/-- **C57 (partial).** `const` pointers sent to JavaScript and back are unchanged, and so are mutable
pointers received as `const` pointers to the same type. Missing: pointees that mention a mutable
pointer. -/
theorem C57_const_partial (E : Env) (b : Nat → Text) (const : Bool) (to : CTy) (hw : wordy b to) (hm : showsMut to = false)
    (a : Nat) (ha : InRange E .usize a) :
    ∃ j, toPtr E b const to a = .ok j ∧ fromPtr E b true to j = .ok (.addr a) := by
  by_cases h0 : a = 0
  · subst h0; exact ⟨.null, C57_null E b const to⟩
  · obtain ⟨j, hj⟩ := toPtr_ok E b const to a ha
    have h := fromPtr_toPtr E b const true to to a ha h0
    rw [hj] at h
    simp only [if_true, constify_ptrType b const to hw, ptrType_const, allConst_eq to hm] at h
    exact ⟨j, hj, h⟩

/-- **C57.** Exactly which non-null pointers are received as a mutable pointer: the mutable ones whose
pointee has the same C name. The others are rejected, `const` pointers among them. -/
theorem C57_as_mut (E : Env) (b : Nat → Text) (const : Bool) (to to' : CTy) (hw : wordy b to')
    (a : Nat) (ha : InRange E .usize a) (h0 : a ≠ 0) :
    ((const = false ∧ cName b to = cName b to') → (toPtr E b const to a).bind (fromPtr E b false to') = .ok (.addr a)) ∧
    (¬ (const = false ∧ cName b to = cName b to') → Rejected ((toPtr E b const to a).bind (fromPtr E b false to'))) := by
  rw [fromPtr_toPtr E b const false to to' a ha h0]
  simp only [Bool.false_eq_true, if_false]
  refine ⟨fun ⟨hc, e⟩ => ?_, fun hn => ?_⟩
  · subst hc
    rw [if_pos]
    rw [ptrType_mut, ptrType_mut, cName_mut, cName_mut, e]
  · rw [if_neg]
    · exact ⟨_, rfl⟩
    · cases const with
      | true => rw [ptrType_const, ptrType_mut]; exact const_ne_mut b to to' hw
      | false =>
        rw [ptrType_mut, ptrType_mut, cName_mut, cName_mut]
        exact fun e => hn ⟨rfl, List.append_cancel_right e⟩

/-- **C57.** Exactly which non-null pointers are received as a `const` pointer: those whose pointee has
the expected C name once its own pointers are made `const`. The others are rejected. -/
theorem C57_as_const (E : Env) (b : Nat → Text) (const : Bool) (to to' : CTy) (hw : wordy b to)
    (a : Nat) (ha : InRange E .usize a) (h0 : a ≠ 0) :
    (cName b (allConst to) = cName b to' → (toPtr E b const to a).bind (fromPtr E b true to') = .ok (.addr a)) ∧
    (cName b (allConst to) ≠ cName b to' → Rejected ((toPtr E b const to a).bind (fromPtr E b true to'))) := by
  rw [fromPtr_toPtr E b const true to to' a ha h0]
  simp only [if_true, constify_ptrType b const to hw, ptrType_const, cName_const]
  refine ⟨fun e => ?_, fun hn => ?_⟩
  · rw [if_pos (by rw [e])]
  · rw [if_neg]
    · exact ⟨_, rfl⟩
    · exact fun e => hn (List.append_cancel_right e)

theorem allConst_named {ty : CTy} (h : named ty = true) : allConst ty = ty := by
  cases ty <;> first | rfl | (simp [named] at h)

/-- **C57 (partial).** Pointers to two different types (integers, structs, enums, aliases, arrays) are
never taken for one another. Missing: the types that have the same C name (C43). -/
theorem C57_incompatible_partial (E : Env) {N : Naming} (hN : N.Distinct) {to to' : CTy} (ok : nameOk N to) (ok' : nameOk N to')
    (nx : named to = true) (ny : named to' = true) (hw : wordy N.b to) (hw' : wordy N.b to') (hne : to ≠ to') (c c' : Bool)
    (a : Nat) (ha : InRange E .usize a) (h0 : a ≠ 0) :
    Rejected ((toPtr E N.b c to a).bind (fromPtr E N.b c' to')) := by
  have hn := fun h => hne (C43_c_partial hN ok ok' nx ny h)
  cases c' with
  | false => exact (C57_as_mut E N.b c to to' hw' a ha h0).2 fun h => hn h.2
  | true => exact (C57_as_const E N.b c to to' hw a ha h0).2 (by rwa [allConst_named nx])

/-- **C57.** A value that is neither `null` nor an object is rejected. -/
theorem C57_not_pointer (E : Env) (b : Nat → Text) (const : Bool) (to : CTy) (j : Js) (hj : j ≠ .null)
    (ho : isObject j = false) : Rejected (fromPtr E b const to j) := by
  cases j <;> first | (simp [isObject] at ho; done) | exact ⟨_, rfl⟩ | exact absurd rfl hj

/-- **C57.** A `Buffer` is only accepted for a `char const *`: never for a mutable pointer, nor for a pointer
to anything else. -/
theorem C57_buffer (E : Env) (b : Nat → Text) (const : Bool) (to : CTy) (d : List UInt8)
    (h : const = false ∨ isCChar to = false) : Rejected (fromPtr E b const to (.buf d)) := by
  have e : fromPtr E b const to (.buf d) = .err .wrongType := by
    show (if const && isCChar to then fromBuffer E d else fromPtrObj E b const to (.buf d)) = _
    rw [if_neg (by rcases h with h | h <;> simp [h])]
    rfl
  exact ⟨_, e⟩

example : Rejected (fromPtr ⟨false, true, true⟩ (fun _ => []) false .cchar (.buf [97, 0])) :=
  C57_buffer _ _ _ _ _ (.inl rfl)

/-- **C57 fails.** No object at all is received as a `const` pointer to something that mentions a
mutable pointer, so that `*const *mut T` cannot be passed to an export, even when it comes from one. -/
theorem C57_fails (E : Env) (b : Nat → Text) (to : CTy) (hw : wordy b to) (hm : showsMut to = true) (props : List (Text × Js)) :
    Rejected (fromPtr E b true to (.obj props)) := by
  have h := constify_ne b to hw hm
  rw [fromPtr, fromPtrObj]
  split
  · rename_i ty _
    simp only [if_true]
    rw [if_pos (h ty)]
    exact ⟨_, rfl⟩
  · exact ⟨_, rfl⟩

/-! ### Concrete cases -/

/-- 64-bit Node.js. -/
private def node : Env := ⟨false, true, true⟩
private def foo : Nat → Text := fun | 0 => t!"Foo" | _ => t!"Bar"

-- A pointer to a declared type.
example : toPtr node foo false (.adt 0 []) 0x1000 =
    .ok (.obj [(t!"type", .str t!"Foo_t *"), (t!"addr", .num (.fin 4096 0))]) := rfl
example : InRange node .usize (0x1000 : Nat) ∧ wordy foo (.adt 0 []) ∧ showsMut (.adt 0 []) = false := by
  refine ⟨by decide, ?_, by decide⟩
  simp only [wordy]; decide
-- Mutable as `const`, and not conversely.
example : (toPtr node foo false (.adt 0 []) 0x1000).bind (fromPtr node foo true (.adt 0 [])) = .ok (.addr 0x1000) := by decide +kernel
example : (toPtr node foo true (.adt 0 []) 0x1000).bind (fromPtr node foo false (.adt 0 [])) = .err .invalidArg := by decide +kernel
-- Another pointee.
example : (toPtr node foo false (.adt 0 []) 0x1000).bind (fromPtr node foo false (.adt 1 [])) = .err .invalidArg := by decide +kernel
-- `*mut *mut Foo` is accepted as `*const *const Foo`; `*const *mut Foo` is not accepted as itself.
example : (toPtr node foo false (.mutPtr (.adt 0 [])) 0x1000).bind (fromPtr node foo true (.constPtr (.adt 0 []))) =
    .ok (.addr 0x1000) := by decide +kernel
example : showsMut (.mutPtr (.adt 0 [])) = true := by decide
example : (toPtr node foo true (.mutPtr (.adt 0 [])) 0x1000).bind (fromPtr node foo true (.mutPtr (.adt 0 []))) =
    .err .invalidArg := by decide +kernel

end Verif.Js
