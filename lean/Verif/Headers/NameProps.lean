import Verif.Headers.TypeNames
/-!
# C43: distinct types have distinct names

The types that a header gives a name of their own are integers, arrays, aliases and declared types
(and, in C#, function pointers). Two of them that differ must not have the same name: the second
definition would be dropped, or would clash.

True when all declared names are plain (no underscore, no word like `ptr`), generic parameters are
themselves base, alias or declared types, and function pointers are not nested. In all other cases the
names can collide: see the negations.
-/
namespace Verif.Headers
open Text

/-- The types that have a name of their own in C: the header defines it, or `stdint.h`. -/
def named : CTy → Bool
  | .int _ | .array _ _ | .alias _ _ _ | .adt _ _ => true
  | _ => false

theorem cName_named (b : Nat → Text) {ty : CTy} (h : named ty = true) : cName b ty = short b ty ++ t!"_t" := by
  match ty, h with
  | .int k, _ => rw [cName, cVar_int]; simp [sep, short_int]
  | .array n item, _ => rw [cName, cVar_array]; simp [sep]
  | .alias r d i, _ => rw [cName, cVar_alias]; simp [sep, short_alias]
  | .adt i gs, _ => rw [cName, cVar_adt]; simp [sep]

theorem short_inj {E : Naming} (hE : E.Distinct) {x y : CTy} (hx : nameOk E x) (hy : nameOk E y) (h : short E.b x = short E.b y) :
    x = y := by
  apply toks_inj hE hx hy
  rw [← split_short E.b x (name_noUnder hE x hx), ← split_short E.b y (name_noUnder hE y hy), h]

/-- C43, in part: two named types with the same C name are the same type. Missing: names with
underscores, function pointers inside function pointers, generic parameters that are pointers, arrays
or function pointers. -/
theorem C43_c_partial {E : Naming} (hE : E.Distinct) {x y : CTy} (hx : nameOk E x) (hy : nameOk E y)
    (nx : named x = true) (ny : named y = true) (h : cName E.b x = cName E.b y) : x = y := by
  rw [cName_named E.b nx, cName_named E.b ny] at h
  exact short_inj hE hx hy (List.append_cancel_right h)

/-- The C# names under which arrays, declared types and delegates are defined: src/layout/_mod.rs 61-65,
555-559; src/layout/impls.rs 345-349. -/
def csDefined : CTy → Bool
  | .array _ _ | .adt _ _ | .fptr _ _ => true
  | _ => false

/-- The last token of a short name is its last characters. -/
theorem csName_fptr_ne (b : Nat → Text) (ret : CTy) (args : List CTy) (w : Text) : csName b (.fptr ret args) ≠ w ++ t!"_t" := by
  intro h
  rw [csName, short_fptr] at h
  have := congrArg (fun l => l.reverse.take 2) h
  simp at this

/-- C43 for C#, in part: two types that have definitions of their own and the same C# name are the
same type. The same is missing. -/
theorem C43_csharp_partial {E : Naming} (hE : E.Distinct) {x y : CTy} (hx : nameOk E x) (hy : nameOk E y)
    (nx : csDefined x = true) (ny : csDefined y = true) (h : csName E.b x = csName E.b y) : x = y := by
  have arr : ∀ n item, csName E.b (.array n item) = short E.b (.array n item) ++ t!"_t" := fun n item => by
    rw [csName, cVar_array]; simp [sep]
  match x, y, nx, ny with
  | .array n item, .array m item', _, _ =>
    rw [arr, arr] at h; exact short_inj hE hx hy (List.append_cancel_right h)
  | .array n item, .adt i gs, _, _ =>
    rw [arr, csName] at h; exact short_inj hE hx hy (List.append_cancel_right h)
  | .adt i gs, .array n item, _, _ =>
    rw [arr, csName] at h; exact short_inj hE hx hy (List.append_cancel_right h)
  | .adt i gs, .adt j gs', _, _ =>
    rw [csName, csName] at h; exact short_inj hE hx hy (List.append_cancel_right h)
  | .fptr r a, .fptr r' a', _, _ => exact short_inj hE hx hy h
  | .fptr r a, .array n item, _, _ => rw [arr] at h; exact absurd h (csName_fptr_ne _ _ _ _)
  | .fptr r a, .adt i gs, _, _ => exact absurd h (csName_fptr_ne _ _ _ _)
  | .array n item, .fptr r a, _, _ => rw [arr] at h; exact absurd h.symm (csName_fptr_ne _ _ _ _)
  | .adt i gs, .fptr r a, _, _ => exact absurd h.symm (csName_fptr_ne _ _ _ _)

/-! ### The hypotheses are met -/

/-- Declared types `S`, `SS`, `SSS`…, the last two generic, and an alias `Handle`. -/
def demo : Naming where
  b i := List.replicate (i + 1) 'S'
  arity i := i
  alias r := if r = t!"Handle" then some ([], .mutPtr .void) else none

theorem demo_distinct : demo.Distinct where
  inj i j h := by
    have := congrArg List.length h
    simp [demo] at this
    omega
  base i := by
    refine ⟨by simp [demo], ?_, ?_, ?_⟩
    · intro h
      have := (List.mem_replicate.1 h).2
      cases this
    · have key : ∀ w ∈ reserved, w.head? ≠ some 'S' := by decide
      intro h
      exact key _ h (by simp [demo, List.head?_replicate])
    · intro c h
      simp [demo, List.head?_replicate] at h
      rw [← h]; decide
  aliases r h := by
    by_cases e : r = t!"Handle"
    · subst e
      refine ⟨by decide, by decide, by decide, ?_⟩
      intro c hc; simp at hc; rw [← hc]; decide
    · simp [demo, e] at h
  apart r i h := by
    by_cases e : r = t!"Handle"
    · subst e
      intro h'
      have := congrArg List.head? h'
      simp [demo, List.head?_replicate] at this
    · simp [demo, e] at h

/-- `[extern "C" fn(*const SS<u8>, Handle) -> S; 4]` -/
def demoTy : CTy := .array 4 (.fptr (.adt 0 []) [.constPtr (.adt 1 [.int .u8]), .alias t!"Handle" [] (.mutPtr .void)])

theorem demoTy_ok : nameOk demo demoTy := by
  refine ⟨⟨rfl, trivial⟩, ?_⟩
  intro a ha
  simp only [List.mem_cons, List.not_mem_nil, or_false] at ha
  rcases ha with rfl | rfl
  · exact ⟨rfl, rfl, trivial⟩
  · show demo.alias t!"Handle" = _
    simp [demo]

example : cName demo.b demoTy = t!"S_SS_uint8_const_ptr_Handle_fptr_4_array_t" := by decide
/-- Its name differs from that of every other type. -/
example (y : CTy) (hy : nameOk demo y) (ny : named y = true) (h : cName demo.b y = t!"S_SS_uint8_const_ptr_Handle_fptr_4_array_t") :
    y = demoTy := C43_c_partial demo_distinct hy demoTy_ok ny rfl (h.trans (by decide))
example (y : CTy) (hy : nameOk demo y) (ny : csDefined y = true) (h : csName demo.b y = t!"S_SS_uint8_const_ptr_Handle_fptr_4_array_t") :
    y = demoTy := C43_csharp_partial demo_distinct hy demoTy_ok ny rfl (h.trans (by decide))

/-! ### The code does not satisfy the property -/

/-- Types `Foo`, `Bar`, `Foo_Bar`. -/
def threeNames : Nat → Text
  | 0 => t!"Foo"
  | 1 => t!"Bar"
  | _ => t!"Foo_Bar"

/-- C43 fails: `Foo<Bar>` and the type `Foo_Bar` have the same name. -/
theorem C43_fails_generic : ∃ b : Nat → Text, b 0 ≠ b 1 ∧ b 0 ≠ b 2 ∧ b 1 ≠ b 2 ∧
    cName b (.adt 0 [.adt 1 []]) = cName b (.adt 2 []) :=
  ⟨threeNames, by decide, by decide, by decide, by decide⟩

/-- C43 fails, whatever the names: `Foo<[Bar; 3]>` and `[Foo<Bar>; 3]`. -/
theorem C43_fails_array_parameter (b : Nat → Text) (n : Nat) :
    cName b (.adt 0 [.array n (.adt 1 [])]) = cName b (.array n (.adt 0 [.adt 1 []])) := by
  rw [cName_named b rfl, cName_named b rfl, short_adt, short_array, shorts_cons, short_array, short_adt, short_adt, shorts_cons, short_adt]
  simp [shorts_nil]

/-- C43 fails, whatever the names: arrays (and, in C#, delegates) of `extern fn(extern fn() -> A) -> B`
and of `extern fn() -> extern fn(A) -> B`. -/
theorem C43_fails_nested_fptr (b : Nat → Text) (A B : CTy) (n : Nat) :
    CTy.fptr B [.fptr A []] ≠ CTy.fptr (.fptr B [A]) [] ∧
      cName b (.array n (.fptr B [.fptr A []])) = cName b (.array n (.fptr (.fptr B [A]) [])) ∧
      csName b (.fptr B [.fptr A []]) = csName b (.fptr (.fptr B [A]) []) := by
  have h : short b (.fptr B [.fptr A []]) = short b (.fptr (.fptr B [A]) []) := by
    rw [short_fptr, short_fptr, shorts_cons, short_fptr, short_fptr, shorts_cons]
    simp [shorts_nil]
  refine ⟨by simp, ?_, h⟩
  rw [cName_named b rfl, cName_named b rfl, short_array, short_array, h]

/-- C43 fails: a generic type with a `rename` is given the same name at every parameter (the rename of
a transparent struct replaces the whole name): `Wrapper<u8>` and `Wrapper<u64>`. -/
theorem C43_fails_generic_alias (b : Nat → Text) (r : Text) :
    CTy.alias r [] (.int .u8) ≠ CTy.alias r [] (.int .u64) ∧ cName b (.alias r [] (.int .u8)) = cName b (.alias r [] (.int .u64)) :=
  ⟨by simp, rfl⟩

/-- C43 fails: a declared type named `uint8`, and `u8`. -/
theorem C43_fails_base_name : ∃ b : Nat → Text, cName b (.adt 0 []) = cName b (.int .u8) := ⟨fun _ => t!"uint8", by decide⟩

end Verif.Headers
