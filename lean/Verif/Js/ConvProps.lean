import Verif.Js.NumProps
import Verif.Js.PtrProps
/-!
# All values, and exported functions, through JavaScript (C66)
-/
namespace Verif.Js
open Text Headers

theorem prop_setProp_self (n : Text) (j : Js) (ps : List (Text × Js)) : prop n (.obj (setProp n j ps)) = j := by
  simp [prop, setProp]

theorem prop_setProp_ne {n m : Text} (h : n ≠ m) (j : Js) (ps : List (Text × Js)) :
    prop n (.obj (setProp m j ps)) = prop n (.obj ps) := by
  have h' : m ≠ n := fun e => h e.symm
  simp only [prop, setProp, List.find?_cons]
  simp [h']

theorem enum_round (vs : List (Text × Int)) (hn : (vs.map (·.1)).Nodup) (d : Int) (hd : d ∈ vs.map (·.2)) :
    ∃ s, toEnum vs d = .ok (.str s) ∧ fromEnum vs (.str s) = .ok d := by
  obtain ⟨⟨name, d'⟩, hm, he⟩ := List.mem_map.mp hd
  have he : d' = d := he
  subst he
  cases hf : vs.find? (·.2 = d') with
  | none => exact absurd (List.find?_eq_none.mp hf _ hm) (by simp)
  | some x =>
    obtain ⟨n, d⟩ := x
    have hd : d = d' := by simpa using List.find?_some hf
    subst hd
    refine ⟨n, by rw [toEnum, hf], ?_⟩
    have hmem := List.mem_of_find?_eq_some hf
    clear hf hm
    induction vs with
    | nil => simp at hmem
    | cons w ws ih =>
      obtain ⟨n', d'⟩ := w
      simp only [List.map_cons, List.nodup_cons] at hn
      by_cases hnn : n' = n
      · subst hnn
        rcases List.mem_cons.mp hmem with e | hmem
        · cases e; simp [fromEnum]
        · exact absurd (List.mem_map.mpr ⟨_, hmem, rfl⟩) hn.1
      · rcases List.mem_cons.mp hmem with e | hmem
        · cases e; exact absurd rfl hnn
        · have := ih hn.2 (List.mem_map.mpr ⟨_, hmem, rfl⟩) hmem
          simpa [fromEnum, List.find?_cons, hnn] using this

mutual
theorem round (E : Env) (b : Nat → Text) (narrow : Num → Num) (hn : Narrowing narrow) :
    ∀ (ty : JTy) (v : Val), readable b ty → Has E ty v → ∃ j, toJs E b ty v = .ok j ∧ fromJs E b narrow ty j = .ok v
  | .int k, .int v, _, h => by
    obtain ⟨j, h1, h2⟩ := C55 E k v h
    exact ⟨j, h1, by rw [fromJs, h2]; rfl⟩
  | .f32, .float x, _, h => ⟨.num x, rfl, by rw [fromJs, ((C65_partial narrow hn x h.1).2.1 h.2)]; rfl⟩
  | .f64, .float x, _, h => ⟨.num x, rfl, by rw [fromJs, ((C65_partial narrow hn x h).1)]; rfl⟩
  | .bool, .bool v, _, _ => ⟨_, rfl, rfl⟩
  | .void, .void, _, _ => ⟨_, rfl, rfl⟩
  | .ptr const to, .ptr (.addr a), hr, h => by
    have : ∃ j, toPtr E b const to a = .ok j ∧ fromPtr E b const to j = .ok (.addr a) := by
      cases const with
      | false => exact C57_mut E b to a h
      | true => exact C57_const_partial E b true to hr.1 (hr.2 rfl) a h
    obtain ⟨j, h1, h2⟩ := this
    exact ⟨j, h1, by rw [fromJs, h2]; rfl⟩
  | .bytes n, .bytes bs, _, h => ⟨.buf bs, rfl, by
      have h : bs.length = n := h
      rw [fromJs, fromBytes, if_pos h]; rfl⟩
  | .enum vs, .disc d, hr, h => by
    obtain ⟨s, h1, h2⟩ := enum_round vs hr.1 d h
    exact ⟨.str s, h1, by rw [fromJs, h2]; rfl⟩
  | .struct sl names fields, .struct vs, hr, h => by
    obtain ⟨ps, h1, h2, h3⟩ := rounds E b narrow hn fields vs names hr.1 hr.2.1 hr.2.2 h []
    refine ⟨.obj ps, by rw [toJs, h1]; rfl, ?_⟩
    rw [fromJs]
    · simp [isObject, h3, Res.map, Res.bind]
    · intro _ _ h; cases h
    · intro _ h; cases h
theorem rounds (E : Env) (b : Nat → Text) (narrow : Num → Num) (hn : Narrowing narrow) :
    ∀ (tys : List JTy) (vs : List Val) (names : List Text), names.Nodup → names.length = tys.length → readables b tys →
      HasAll E tys vs → ∀ ps, ∃ ps', toProps E b names tys vs ps = .ok ps' ∧
        (∀ n, n ∉ names → prop n (.obj ps') = prop n (.obj ps)) ∧ fromProps E b narrow names tys (.obj ps') = .ok vs
  | [], [], [], _, _, _, _, ps => ⟨ps, rfl, fun _ _ => rfl, rfl⟩
  | ty :: tys, v :: vs, name :: names, hd, hl, hr, hv, ps => by
    obtain ⟨j, h1, h2⟩ := round E b narrow hn ty v hr.1 hv.1
    have hd' := List.nodup_cons.mp hd
    obtain ⟨ps', e, hp, hf⟩ := rounds E b narrow hn tys vs names hd'.2 (by simpa using hl) hr.2 hv.2 (setProp name j ps)
    refine ⟨ps', by rw [toProps, h1]; exact e, fun n hn => ?_, ?_⟩
    · simp only [List.mem_cons, not_or] at hn
      rw [hp n hn.2, prop_setProp_ne hn.1]
    · rw [fromProps, hp name hd'.1, prop_setProp_self, h2]
      simp [Res.bind, hf, Res.map]
  | [], [], _ :: _, _, hl, _, _, _ => by simp at hl
  | _ :: _, _ :: _, [], _, hl, _, _, _ => by simp at hl
end

theorem fromArgs_round (E : Env) (b : Nat → Text) (narrow : Num → Num) (hn : Narrowing narrow) :
    ∀ (tys : List JTy) (vs : List Val), readables b tys → HasAll E tys vs →
      ∃ js, js.length = vs.length ∧ (∀ i (h : i < tys.length) (h' : i < vs.length) (h'' : i < js.length), toJs E b tys[i] vs[i] = .ok js[i]) ∧
        fromArgs E b narrow tys js = .ok vs
  | [], [], _, _ => ⟨[], rfl, fun _ h => by simp at h, rfl⟩
  | ty :: tys, v :: vs, hr, hv => by
    obtain ⟨j, h1, h2⟩ := round E b narrow hn ty v hr.1 hv.1
    obtain ⟨js, hl, hjs, hf⟩ := fromArgs_round E b narrow hn tys vs hr.2 hv.2
    refine ⟨j :: js, by simp [hl], ?_, ?_⟩
    · intro i h h' h''
      cases i with
      | zero => exact h1
      | succ i => exact hjs i (by simpa using h) (by simpa using h') (by simpa using h'')
    · rw [fromArgs, h2]; simp [Res.bind, hf, Res.map]

/-! ### Properties -/

/-- **C66 (partial).** Every value of every type with a JavaScript form, structs nested to any depth
included, converted to JavaScript and back, is unchanged. Missing: NaN, and `const` pointers to types that
mention a mutable pointer. -/
theorem C66_partial (E : Env) (b : Nat → Text) (narrow : Num → Num) (hn : Narrowing narrow) (ty : JTy) (hr : readable b ty)
    (v : Val) (hv : Has E ty v) : ∃ j, toJs E b ty v = .ok j ∧ fromJs E b narrow ty j = .ok v :=
  round E b narrow hn ty v hr hv

/-- **C66 (partial).** Calling an exported function from JavaScript with the JavaScript forms of some
arguments calls the native function exactly once, with these arguments, and returns the JavaScript form of
its result, which JavaScript can pass back. Missing: as above. -/
theorem C66_call_partial (E : Env) (b : Nat → Text) (narrow : Num → Num) (hn : Narrowing narrow) (params : List JTy) (ret : JTy)
    (hp : readables b params) (hr : readable b ret) (fn : List Val → Val) (args : List Val) (ha : HasAll E params args)
    (hf : Has E ret (fn args)) :
    ∃ js r, js.length = args.length ∧
      (∀ i (h : i < params.length) (h' : i < args.length) (h'' : i < js.length), toJs E b params[i] args[i] = .ok js[i]) ∧
      callExport E b narrow params ret fn js = ([args], .ok r) ∧ fromJs E b narrow ret r = .ok (fn args) := by
  obtain ⟨js, hl, hjs, hargs⟩ := fromArgs_round E b narrow hn params args hp ha
  obtain ⟨r, h1, h2⟩ := round E b narrow hn ret (fn args) hr hf
  exact ⟨js, r, hl, hjs, by rw [callExport, hargs]; simp only [h1], h2⟩

theorem fromArgs_get (E : Env) (b : Nat → Text) (narrow : Num → Num) :
    ∀ (tys : List JTy) (js : List Js) (vs : List Val), fromArgs E b narrow tys js = .ok vs →
      tys.length = js.length ∧ vs.length = js.length ∧
      ∀ i (h : i < tys.length) (h' : i < js.length) (h'' : i < vs.length), fromJs E b narrow tys[i] js[i] = .ok vs[i]
  | [], [], vs, h => by
    have : vs = [] := by simpa [fromArgs] using h.symm
    subst this
    exact ⟨rfl, rfl, fun _ h => by simp at h⟩
  | [], _ :: _, _, h => by simp [fromArgs] at h
  | _ :: _, [], _, h => by simp [fromArgs] at h
  | ty :: tys, j :: js, vs, h => by
    rw [fromArgs] at h
    cases hj : fromJs E b narrow ty j with
    | err e => rw [hj] at h; simp [Res.bind] at h
    | panic => rw [hj] at h; simp [Res.bind] at h
    | ok v =>
      rw [hj] at h
      cases hjs : fromArgs E b narrow tys js with
      | err e => simp [Res.bind, hjs, Res.map] at h
      | panic => simp [Res.bind, hjs, Res.map] at h
      | ok vs' =>
        have : vs = v :: vs' := by simpa [Res.bind, hjs, Res.map] using h.symm
        subst this
        obtain ⟨h1, h2, h3⟩ := fromArgs_get E b narrow tys js vs' hjs
        refine ⟨by simp [h1], by simp [h2], ?_⟩
        intro i hi hi' hi''
        cases i with
        | zero => exact hj
        | succ i => exact h3 i (by simpa using hi) (by simpa using hi') (by simpa using hi'')

/-- **C66.** Whatever JavaScript passes, an exported function is either not called, and then the call
fails, or called exactly once, and then every argument is the converted value at its position and the
result is that of the function. -/
theorem C66_all_or_nothing (E : Env) (b : Nat → Text) (narrow : Num → Num) (params : List JTy) (ret : JTy)
    (fn : List Val → Val) (js : List Js) :
    (callExport E b narrow params ret fn js).1 = [] ∧ (∀ r, (callExport E b narrow params ret fn js).2 ≠ .ok r) ∨
    ∃ args, (callExport E b narrow params ret fn js).1 = [args] ∧
      (callExport E b narrow params ret fn js).2 = toJs E b ret (fn args) ∧ args.length = js.length ∧
      ∀ i (h : i < params.length) (h' : i < js.length) (h'' : i < args.length), fromJs E b narrow params[i] js[i] = .ok args[i] := by
  unfold callExport
  cases h : fromArgs E b narrow params js with
  | err e => exact .inl ⟨rfl, fun _ => by simp⟩
  | panic => exact .inl ⟨rfl, fun _ => by simp⟩
  | ok args =>
    obtain ⟨_, h2, h3⟩ := fromArgs_get E b narrow params js args h
    exact .inr ⟨args, rfl, rfl, h2, h3⟩

/-- **C66.** Only the name of a variant is accepted as an enum, and it gives the discriminant of that
variant. -/
theorem C66_enum (E : Env) (b : Nat → Text) (narrow : Num → Num) (variants : List (Text × Int)) (j : Js) (v : Val)
    (h : fromJs E b narrow (.enum variants) j = .ok v) : ∃ x ∈ variants, j = .str x.1 ∧ v = .disc x.2 := by
  rw [fromJs] at h
  cases j with
  | str s =>
    rw [fromEnum] at h
    cases hf : variants.find? (·.1 = s) with
    | none => rw [hf] at h; simp [Res.map, Res.bind] at h
    | some x =>
      rw [hf] at h
      have hs : x.1 = s := by simpa using List.find?_some hf
      exact ⟨x, List.mem_of_find?_eq_some hf, by rw [hs], by simpa [Res.map, Res.bind] using h.symm⟩
  | _ => simp [fromEnum, Res.map, Res.bind] at h

/-- **C66 fails** for `*const *mut T`: the JavaScript form that an export returns is not accepted back. -/
theorem C66_fails_const_mut (E : Env) (b : Nat → Text) (narrow : Num → Num) (to : CTy) (hw : wordy b to) (a : Nat)
    (ha : InRange E .usize a) (h0 : a ≠ 0) :
    ∃ j, toJs E b (.ptr true (.mutPtr to)) (.ptr (.addr a)) = .ok j ∧ Rejected (fromJs E b narrow (.ptr true (.mutPtr to)) j) := by
  simp only [toJs, toPtr, h0, if_false, toInt_ok ha, Res.bind]
  refine ⟨_, rfl, ?_⟩
  obtain ⟨e, he⟩ := C57_fails E b (.mutPtr to) (by simpa [wordy] using hw) (by simp [showsMut]) _
  exact ⟨e, by rw [fromJs, he]; rfl⟩

/-! ### Concrete cases -/

private def names : Nat → Text := fun | 0 => t!"Foo" | _ => t!"Bar"
/-- `struct { flag: bool, inner: struct { id: u64, kind: enum { On = 1, Off = 4 } }, bar: *const Bar }`. -/
private def ty : JTy :=
  .struct false [t!"flag", t!"inner", t!"bar"]
    [.bool, .struct false [t!"id", t!"kind"] [.int .u64, .enum [(t!"On", 1), (t!"Off", 4)]], .ptr true (.adt 1 [])]
private def val : Val := .struct [.bool true, .struct [.int (2 ^ 64 - 1), .disc 4], .ptr (.addr 0x2000)]

example : readable names ty := by
  simp only [ty, readable, readables, wordy, showsMut]
  exact ⟨by decide, rfl, trivial, ⟨by decide, rfl, trivial, ⟨by decide, by decide⟩, trivial⟩, ⟨by decide, fun _ => trivial⟩, trivial⟩
example : Has ⟨false, true, true⟩ ty val := by
  simp only [ty, val, Has, HasAll]
  decide +kernel
/-- A function that negates the flag. -/
private def fn : List Val → Val
  | [.struct (.bool f :: _)] => .bool (!f)
  | _ => .bool false
example : HasAll ⟨false, true, true⟩ [ty] [val] ∧ Has ⟨false, true, true⟩ .bool (fn [val]) ∧ fn [val] = .bool false := by
  refine ⟨?_, trivial, rfl⟩
  simp only [ty, val, Has, HasAll]
  decide +kernel
example : callExport ⟨false, true, true⟩ names id [.bool, .bytes 2] .bool fn [.bool true, .buf [1, 2]] =
    ([[.bool true, .bytes [1, 2]]], .ok (.bool false)) := rfl
example : callExport ⟨false, true, true⟩ names id [.bool, .bytes 2] .bool fn [.bool true, .buf [1]] = ([], .err .invalidArg) := rfl

end Verif.Js
