import Verif.Js.ConvProps
/-!
# What JavaScript can pass to native code
-/
namespace Verif.Js
open Text Headers

/-- `k` is the value, or is reached from it by reading properties. -/
inductive Reaches (j : Js) : Js → Prop
  | here : Reaches j j
  | prop {k : Js} (name : Text) : Reaches j k → Reaches j (prop name k)

/-- The length of every buffer that is passed is a `usize`. -/
def Fits (E : Env) (j : Js) : Prop := ∀ bs, Reaches j (.buf bs) → InRange E .usize bs.length

mutual
/-- Structs have one name per field; the slices of bytes are a pointer, a length and a lifetime. -/
def JTy.wf : JTy → Prop
  | .struct sliceRef names fields =>
      names.length = fields.length ∧ (sliceRef = true → ∃ to, fields = [.ptr true to, .int .usize, .void]) ∧ wfs fields
  | _ => True
def wfs : List JTy → Prop
  | [] => True
  | ty :: tys => ty.wf ∧ wfs tys
end

mutual
/-- The values that a native function may assume for a parameter of each type. A pointer is an address, or, if
it is `const`, points to the contents of a buffer. -/
def Valid (E : Env) : JTy → Val → Prop
  | .int k, .int v => InRange E k v
  | .f32, .float x => IsF32 x
  | .f64, .float _ => True
  | .bool, .bool _ => True
  | .void, .void => True
  | .ptr _ _, .ptr (.addr a) => InRange E .usize a
  | .ptr const _, .ptr (.mem _) => const = true
  | .bytes n, .bytes bs => bs.length = n
  | .enum variants, .disc d => d ∈ variants.map (·.2)
  | .struct _ _ fields, .struct vs => ValidAll E fields vs
  | _, _ => False
def ValidAll (E : Env) : List JTy → List Val → Prop
  | [], [] => True
  | ty :: tys, v :: vs => Valid E ty v ∧ ValidAll E tys vs
  | _, _ => False
end

theorem Reaches.trans {j k l : Js} (h : Reaches j k) (h' : Reaches k l) : Reaches j l := by
  induction h' with
  | here => exact h
  | prop n _ ih => exact .prop n ih
theorem Fits.prop {E : Env} {j : Js} (h : Fits E j) (n : Text) : Fits E (prop n j) :=
  fun bs hb => h bs ((Reaches.prop n .here).trans hb)

theorem Res.map_ok {α β : Type} {f : α → β} {r : Res α} {v : β} (h : r.map f = .ok v) : ∃ a, r = .ok a ∧ v = f a := by
  cases r with
  | ok a => exact ⟨a, rfl, by simpa [Res.map, Res.bind] using h.symm⟩
  | err e => simp [Res.map, Res.bind] at h
  | panic => simp [Res.map, Res.bind] at h
theorem Res.bind_ok {α β : Type} {f : α → Res β} {r : Res α} {v : β} (h : r.bind f = .ok v) : ∃ a, r = .ok a ∧ f a = .ok v := by
  cases r with
  | ok a => exact ⟨a, rfl, h⟩
  | err e => simp [Res.bind] at h
  | panic => simp [Res.bind] at h

theorem wrap_inRange (E : Env) (k : IntTy) (n : Int) : InRange E k (wrap (signed k) (bits E k) n) := by
  cases k <;> simp only [InRange, wrap, signed, bits, if_true, Bool.false_eq_true, if_false] <;> try omega
  all_goals
    by_cases h : E.ptrBits = 64
    · rw [if_pos h, h]; omega
    · have : E.ptrBits = 32 := by unfold Env.ptrBits at *; split <;> simp_all
      rw [if_neg h, this]; omega

theorem inRange_of (E : Env) (k : IntTy) (v : Int) (h : lo (signed k) (bits E k) ≤ v ∧ v ≤ hi (signed k) (bits E k)) : InRange E k v := by
  cases k <;> simp only [InRange, lo, hi, signed, bits, if_true, Bool.false_eq_true, if_false] at h ⊢ <;> try omega
  all_goals
    by_cases hp : E.ptrBits = 64
    · rw [if_pos hp]; rw [hp] at h; omega
    · have : E.ptrBits = 32 := by unfold Env.ptrBits at *; split <;> simp_all
      rw [if_neg hp]; rw [this] at h; omega

theorem fromInt_inRange (E : Env) (k : IntTy) (j : Js) (v : Int) (h : fromInt E k j = .ok v) : InRange E k v := by
  unfold fromInt at h
  by_cases hs : small E k = true
  · rw [if_pos hs] at h
    cases j with
    | num x =>
      simp only [fromSmall] at h
      split at h
      · simp at h
      · simp only [Res.ok.injEq] at h; rw [← h]; exact wrap_inRange E k _
    | _ => simp [fromSmall] at h
  · rw [if_neg hs] at h
    obtain ⟨a, _, h2⟩ := Res.bind_ok h
    by_cases hr : lo (signed k) (bits E k) ≤ a ∧ a ≤ hi (signed k) (bits E k)
    · simp only [hr, and_self, if_true, Res.ok.injEq] at h2; rw [← h2]; exact inRange_of E k a hr
    · rw [if_neg hr] at h2; simp at h2

theorem fromPtrObj_valid (E : Env) (b : Nat → Text) (const : Bool) (to : CTy) (j : Js) (p : Ptr) (h : fromPtrObj E b const to j = .ok p) :
    ∃ a : Nat, p = .addr a ∧ InRange E .usize a := by
  unfold fromPtrObj at h
  split at h
  · next ty _ =>
    replace h : (if (if const then constify ty else ty) ≠ ptrType b const to then .err .invalidArg
      else (fromInt E .usize (prop t!"addr" j)).map fun a => .addr a.toNat) = Res.ok p := h
    by_cases hc : (if const then constify ty else ty) ≠ ptrType b const to
    · rw [if_pos hc] at h; simp at h
    · rw [if_neg hc] at h
      obtain ⟨a, h1, h2⟩ := Res.map_ok h
      have := fromInt_inRange E .usize _ a h1
      refine ⟨a.toNat, h2, ?_⟩
      have h0 : 0 ≤ a := by simp only [InRange] at this; split at this <;> omega
      rwa [Int.toNat_of_nonneg h0]
  · simp at h

theorem fromPtr_valid (E : Env) (b : Nat → Text) (const : Bool) (to : CTy) (j : Js) (p : Ptr) (h : fromPtr E b const to j = .ok p) :
    (∃ a : Nat, p = .addr a ∧ InRange E .usize a) ∨ const = true ∧ to = .cchar ∧ ∃ bs, p = .mem bs ∧ j = .buf bs := by
  cases j with
  | null =>
    simp only [fromPtr, Res.ok.injEq] at h
    refine .inl ⟨0, h.symm, ?_⟩
    simp only [InRange]; split <;> decide
  | obj ps => exact .inl (fromPtrObj_valid E b const to _ p h)
  | buf bs =>
    replace h : (if const && isCChar to then fromBuffer E bs else fromPtrObj E b const to (.buf bs)) = .ok p := h
    by_cases hc : (const && isCChar to) = true
    · rw [if_pos hc] at h
      unfold fromBuffer at h
      split at h
      · simp at h
      · obtain ⟨l, _, h2⟩ := Res.bind_ok h
        split at h2
        · simp at h2
        · simp only [Bool.and_eq_true] at hc
          refine .inr ⟨hc.1, ?_, bs, by simpa using h2.symm, rfl⟩
          revert hc; cases to <;> simp [isCChar]
    · rw [if_neg hc] at h; exact .inl (fromPtrObj_valid E b const to _ p h)
  | _ => simp [fromPtr] at h

mutual
theorem valid (E : Env) (b : Nat → Text) (narrow : Num → Num) (hn : Narrowing narrow) :
    ∀ (ty : JTy) (j : Js) (v : Val), ty.wf → Fits E j → fromJs E b narrow ty j = .ok v → Valid E ty v
  | .int k, j, v, _, _, h => by
    rw [fromJs] at h
    obtain ⟨a, h1, rfl⟩ := Res.map_ok h
    exact fromInt_inRange E k j a h1
  | .f32, j, v, _, _, h => by
    rw [fromJs] at h
    obtain ⟨a, h1, rfl⟩ := Res.map_ok h
    cases j with
    | num x =>
      simp only [fromFloat] at h1
      split at h1
      · simp at h1
      · simp only [Res.ok.injEq] at h1; rw [← h1]; exact hn.1 x
    | _ => simp [fromFloat] at h1
  | .f64, j, v, _, _, h => by
    rw [fromJs] at h
    obtain ⟨a, h1, rfl⟩ := Res.map_ok h
    exact trivial
  | .bool, j, v, _, _, h => by
    cases j with
    | bool x => simp only [fromJs, Res.ok.injEq] at h; rw [← h]; exact trivial
    | _ => simp [fromJs] at h
  | .void, j, v, _, _, h => by
    cases j with
    | undefined => simp only [fromJs, Res.ok.injEq] at h; rw [← h]; exact trivial
    | _ => simp [fromJs] at h
  | .ptr const to, j, v, _, _, h => by
    rw [fromJs] at h
    obtain ⟨p, h1, rfl⟩ := Res.map_ok h
    rcases fromPtr_valid E b const to j p h1 with ⟨a, rfl, h2⟩ | ⟨h2, _, bs, rfl, _⟩
    · exact h2
    · exact h2
  | .bytes n, j, v, _, _, h => by
    rw [fromJs] at h
    obtain ⟨bs, h1, rfl⟩ := Res.map_ok h
    cases j with
    | buf ds =>
      simp only [fromBytes] at h1
      split at h1
      · next hl => simp only [Res.ok.injEq] at h1; rw [← h1]; exact hl
      · simp at h1
    | _ => simp [fromBytes] at h1
  | .enum variants, j, v, _, _, h => by
    obtain ⟨x, hx, _, rfl⟩ := C66_enum E b narrow variants j v h
    exact List.mem_map_of_mem hx
  | .struct sliceRef names fields, j, v, hw, hf, h => by
    rw [JTy.wf] at hw
    have key : isObject j = true → (fromProps E b narrow names fields j).map .struct = .ok v → Valid E (.struct sliceRef names fields) v := by
      intro _ h
      obtain ⟨vs, h1, rfl⟩ := Res.map_ok h
      exact valids E b narrow hn fields names j vs hw.1 hw.2.2 hf h1
    have key' : (if isObject j then (fromProps E b narrow names fields j).map .struct else .err .wrongType) = .ok v →
        Valid E (.struct sliceRef names fields) v := by
      intro h
      by_cases ho : isObject j = true
      · rw [if_pos ho] at h; exact key ho h
      · rw [if_neg ho] at h; simp at h
    cases sliceRef with
    | false => exact key' (by simpa only [fromJs] using h)
    | true =>
      obtain ⟨to, rfl⟩ := hw.2.1 rfl
      cases j with
      | buf bs =>
        simp only [fromJs, Res.ok.injEq] at h
        rw [← h]
        simp only [Valid, ValidAll, true_and, and_true]
        exact hf bs .here
      | null =>
        simp only [fromJs, Res.ok.injEq] at h
        rw [← h]
        simp only [Valid, ValidAll, and_true, InRange]
        split <;> decide
      | _ => exact key' (by simpa only [fromJs] using h)
theorem valids (E : Env) (b : Nat → Text) (narrow : Num → Num) (hn : Narrowing narrow) :
    ∀ (tys : List JTy) (names : List Text) (j : Js) (vs : List Val), names.length = tys.length → wfs tys → Fits E j →
      fromProps E b narrow names tys j = .ok vs → ValidAll E tys vs
  | [], [], j, vs, _, _, _, h => by
    simp only [fromProps, Res.ok.injEq] at h; rw [← h]; exact trivial
  | [], _ :: _, _, _, hl, _, _, _ => by simp at hl
  | _ :: _, [], _, _, hl, _, _, _ => by simp at hl
  | ty :: tys, name :: names, j, vs, hl, hw, hf, h => by
    rw [wfs] at hw
    simp only [fromProps] at h
    obtain ⟨v, h1, h2⟩ := Res.bind_ok h
    obtain ⟨ws, h3, rfl⟩ := Res.map_ok h2
    exact ⟨valid E b narrow hn ty _ v hw.1 (hf.prop name) h1,
      valids E b narrow hn tys names j ws (by simpa using hl) hw.2 hf h3⟩
end

/-- **C66.** Whatever JavaScript passes, a value that is accepted is a valid value of the type: an integer in
range, a declared variant of an enum, an array of the declared length, and so on in structs of any depth. -/
theorem C66_valid (E : Env) (b : Nat → Text) (narrow : Num → Num) (hn : Narrowing narrow) (ty : JTy) (hw : ty.wf) (j : Js)
    (hf : Fits E j) (v : Val) (h : fromJs E b narrow ty j = .ok v) : Valid E ty v :=
  valid E b narrow hn ty j v hw hf h

/-- **C66.** Exported functions are only ever called with valid arguments. -/
theorem C66_valid_args (E : Env) (b : Nat → Text) (narrow : Num → Num) (hn : Narrowing narrow) (params : List JTy)
    (hw : ∀ ty ∈ params, ty.wf) (ret : JTy) (fn : List Val → Val) (js : List Js) (hf : ∀ j ∈ js, Fits E j) :
    ∀ args ∈ (callExport E b narrow params ret fn js).1, args.length = params.length ∧
      ∀ i (h : i < params.length) (h' : i < args.length), Valid E params[i] args[i] := by
  intro args ha
  rcases C66_all_or_nothing E b narrow params ret fn js with ⟨h1, _⟩ | ⟨args', h1, _, h3, h4⟩
  · rw [h1] at ha; simp at ha
  · rw [h1, List.mem_singleton] at ha
    subst ha
    have hl : params.length = js.length := by
      unfold callExport at h1
      cases hc : fromArgs E b narrow params js with
      | ok as => exact (fromArgs_get E b narrow params js as hc).1
      | err e => rw [hc] at h1; simp at h1
      | panic => rw [hc] at h1; simp at h1
    exact ⟨by omega, fun i h h' => C66_valid E b narrow hn _ (hw _ (List.getElem_mem h)) js[i] (hf _ (List.getElem_mem (by omega))) _
      (h4 i h (by omega) h')⟩

/-- **C66.** Booleans, `undefined` and byte arrays are passed as they are, and nothing else is accepted in their
place. -/
theorem C66_exact (E : Env) (b : Nat → Text) (narrow : Num → Num) (j : Js) (v : Val) :
    (fromJs E b narrow .bool j = .ok v ↔ ∃ x, j = .bool x ∧ v = .bool x) ∧
    (fromJs E b narrow .void j = .ok v ↔ j = .undefined ∧ v = .void) ∧
    ∀ n, fromJs E b narrow (.bytes n) j = .ok v ↔ ∃ bs, bs.length = n ∧ j = .buf bs ∧ v = .bytes bs := by
  refine ⟨?_, ?_, ?_⟩
  · cases j <;> simp [fromJs, eq_comm]
  · cases j <;> simp [fromJs, eq_comm]
  · intro n
    rw [fromJs]
    constructor
    · intro h
      obtain ⟨bs, h1, rfl⟩ := Res.map_ok h
      cases j with
      | buf ds =>
        simp only [fromBytes] at h1
        split at h1
        · next hl => simp only [Res.ok.injEq] at h1; rw [← h1]; exact ⟨ds, hl, rfl, rfl⟩
        · simp at h1
      | _ => simp [fromBytes] at h1
    · rintro ⟨bs, rfl, rfl, rfl⟩
      simp [fromBytes, Res.map, Res.bind]

/-- `struct { bytes: slice_ref<u8>, kind: enum { On = 1 } }`. -/
private def ty : JTy := .struct false [t!"bytes", t!"kind"]
  [.struct true [t!"ptr", t!"len", t!"_lt"] [.ptr true .void, .int .usize, .void], .enum [(t!"On", 1)]]
private def js : Js := .obj [(t!"kind", .str t!"On"), (t!"bytes", .buf [7, 8])]
example : ty.wf := by
  simp only [ty, JTy.wf, wfs]
  exact ⟨rfl, nofun, ⟨rfl, fun _ => ⟨_, rfl⟩, trivial, trivial, trivial, trivial⟩, trivial, trivial⟩
example (E : Env) (b : Nat → Text) (narrow : Num → Num) :
    fromJs E b narrow ty js = .ok (.struct [.struct [.ptr (.mem [7, 8]), .int 2, .void], .disc 1]) := rfl
example (E : Env) (b : Nat → Text) (narrow : Num → Num) : fromJs E b narrow .bool (.num (.fin 0 0)) = .err .wrongType := rfl

end Verif.Js
