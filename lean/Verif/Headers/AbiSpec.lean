import Verif.Headers.PpSpec
import Verif.Headers.GenSpec
import Verif.Layout.Rust
/-!
# Specification: what a C compiler makes of a header

The declarations of a C header as a C compiler reads them, the layout of the C types (System V and all other ABIs
that lay out structs member after member), and the layout of the Rust types of a program. Independent of the way
headers are written.

Macros are not expanded: no name is to be that of an exported constant. Not considered: attributes, bit fields, unions, function definitions and tags without a typedef name, none of which
occur. A use in front of the declaration is not an error here (C39).
-/
namespace Verif.Headers
open Text

/-! ### Declarations of a header -/

abbrev ktypedef : Text := ['t', 'y', 'p', 'e', 'd', 'e', 'f']
abbrev kstruct : Text := ['s', 't', 'r', 'u', 'c', 't']
abbrev kenum : Text := ['e', 'n', 'u', 'm']

/-- What a name stands for. `opaque`: a struct that is declared but not defined. -/
inductive CDef
  | struct (members : List (Text × CT))
  | enum
  | opaque
  | alias (of : CT)
  | fn (ret : CT) (params : List (Option Text × CT))

/-- The names that a header declares. -/
abbrev Env := List (Text × CDef)

/-- The tokens of the lines that the preprocessor keeps, apart from directives such as `#include`. -/
def tokens (lines : List Text) : List Tok := (lines.filter fun l => (directive l).isNone).flatMap lex

/-- Members up to the closing brace, and what follows it. -/
def structBody : Nat → List Tok → Option (List (Text × CT) × List Tok)
  | 0, _ => none
  | _ + 1, .bad '}' :: r => some ([], r)
  | m + 1, ts =>
      match declaration m ts with
      | some (some n, ty, .semi :: r) => (structBody m r).map fun (ms, r) => ((n, ty) :: ms, r)
      | _ => none

/-- What follows the closing brace of an enum. -/
def enumBody : List Tok → Option (List Tok)
  | [] => none
  | .bad '}' :: r => some r
  | _ :: r => enumBody r

/-- After the braces of a typedef: the name and a semicolon. -/
def typedefName (d : CDef) : List Tok → Option (List (Text × CDef) × List Tok)
  | .id n :: .semi :: r => some ([(n, d)], r)
  | _ => none

/-- After `typedef struct`. -/
def structDef (m : Nat) : List Tok → Option (List (Text × CDef) × List Tok)
  | .bad '{' :: r => (structBody m r).bind fun (ms, r) => typedefName (.struct ms) r
  | .id _ :: .bad '{' :: r => (structBody m r).bind fun (ms, r) => typedefName (.struct ms) r
  | .id _ :: r => typedefName .opaque r
  | _ => none

/-- After `typedef enum`, or after `enum`, which declares no type name. -/
def enumDef (named : Bool) : List Tok → Option (List (Text × CDef) × List Tok)
  | .id _ :: .bad '{' :: r =>
      match enumBody r with
      | some r => if named then typedefName .enum r else match r with
        | .semi :: r => some ([], r)
        | _ => none
      | none => none
  | _ => none

/-- One declaration, and what follows it. -/
def unit (m : Nat) : List Tok → Option (List (Text × CDef) × List Tok)
  | .id w :: ts =>
      if w = kenum then enumDef false ts
      else if w = ktypedef then
        match ts with
        | .id v :: r =>
            if v = kstruct then structDef m r
            else if v = kenum then enumDef true r
            else match declaration m ts with
              | some (some n, ty, .semi :: r) => some ([(n, .alias ty)], r)
              | _ => none
        | _ => none
      else match declaration m (.id w :: ts) with
        | some (some n, .fn ret params, .semi :: r) => some ([(n, .fn ret params)], r)
        | _ => none
  | _ => none

/-- All of them. The number bounds their count, and the depth of their declarators. -/
def units : Nat → List Tok → Option Env
  | 0, _ => none
  | _ + 1, [] => some []
  | m + 1, ts =>
      match unit m ts with
      | some (ds, r) => (units m r).map (ds ++ ·)
      | none => none

/-- A C compiler that has defined the macros `defs` reads the header as these declarations. -/
def ReadsAs (eval : List Text → Text → Bool) (defs : List Text) (header : Text) (env : Env) : Prop :=
  ∃ st, (Pp.mk defs [] []).read eval header = some st ∧ ∃ k, ∀ m, k ≤ m → units m (tokens st.out) = some env

theorem ReadsAs.unique {eval : List Text → Text → Bool} {defs : List Text} {header : Text} {e e' : Env}
    (h : ReadsAs eval defs header e) (h' : ReadsAs eval defs header e') : e = e' := by
  obtain ⟨st, h1, k, hk⟩ := h
  obtain ⟨st', h1', k', hk'⟩ := h'
  rw [h1] at h1'
  cases h1'
  exact Option.some.inj ((hk (max k k') (Nat.le_max_left _ _)).symm.trans (hk' (max k k') (Nat.le_max_right _ _)))

/-! ### Layouts -/

/-- What processors know. -/
inductive Scalar
  | int (signed : Bool) (bytes : Nat)
  | float (bytes : Nat)
  | bool
  | char
  | ptr
  deriving DecidableEq, Repr

/-- The bytes of a scalar; `word` is the number of bytes of a pointer. -/
def Scalar.size (word : Nat) : Scalar → Nat
  | .int _ n => n
  | .float n => n
  | .bool => 1
  | .char => 1
  | .ptr => word

/-- A target: the bytes of a pointer, and the alignments. -/
structure Abi where
  word : Nat
  align : Scalar → Nat
  wordPos : 0 < word
  pos : ∀ s, 0 < align s
  dvd : ∀ s, align s ∣ s.size word

/-- How a type is made of scalars. -/
inductive Shape
  | scalar (s : Scalar)
  | array (n : Nat) (of : Shape)
  | struct (members : List Shape)

mutual
/-- Size and alignment. -/
def Shape.lay (A : Abi) : Shape → Nat × Nat
  | .scalar s => (s.size A.word, A.align s)
  | .array n s => (n * (s.lay A).1, (s.lay A).2)
  | .struct ms => Layout.structLay (lays A ms)
def lays (A : Abi) : List Shape → List (Nat × Nat)
  | [] => []
  | s :: ss => s.lay A :: lays A ss
end

mutual
/-- The scalars of a value at this address, with their addresses. -/
def Shape.scalars (A : Abi) : Shape → Nat → List (Nat × Scalar)
  | .scalar s, a => [(a, s)]
  | .array n s, a => (List.range n).flatMap fun i => s.scalars A (a + i * (s.lay A).1)
  | .struct ms, a => scalarsAll A ms (Layout.offsetsFrom 0 (lays A ms)) a
def scalarsAll (A : Abi) : List Shape → List Nat → Nat → List (Nat × Scalar)
  | s :: ss, o :: os, a => s.scalars A (a + o) ++ scalarsAll A ss os a
  | _, _, _ => []
end

/-- The same size, the same alignment, and the same scalars at the same places. -/
def SameAbi (A : Abi) (s s' : Shape) : Prop := s.lay A = s'.lay A ∧ ∀ a, s.scalars A a = s'.scalars A a

/-- Named members, with their offsets and shapes. -/
def placed (A : Abi) (pos : Nat) (names : List Text) (ss : List Shape) : List (Text × Nat × Shape) :=
  names.zip ((Layout.offsetsFrom pos (lays A ss)).zip ss)

/-- Two members are the same for users. -/
def SameMember (A : Abi) (m m' : Text × Nat × Shape) : Prop := m.1 = m'.1 ∧ m.2.1 = m'.2.1 ∧ SameAbi A m.2.2 m'.2.2

/-! ### C types -/

/-- The types of C, `<stddef.h>`, `<stdint.h>` and `<stdbool.h>`, and `ssize_t`. -/
def baseTypes (A : Abi) : List (Text × Scalar) :=
  [(t!"uint8_t", .int false 1), (t!"uint16_t", .int false 2), (t!"uint32_t", .int false 4), (t!"uint64_t", .int false 8),
   (t!"int8_t", .int true 1), (t!"int16_t", .int true 2), (t!"int32_t", .int true 4), (t!"int64_t", .int true 8),
   (t!"size_t", .int false A.word), (t!"ssize_t", .int true A.word), (t!"float", .float 4), (t!"double", .float 8),
   (t!"bool", .bool), (t!"int", .int true 4), (t!"char", .char)]

mutual
/-- The shape of a C type. Enums have the size of an `int`. -/
inductive CShape (A : Abi) (env : Env) : CT → Shape → Prop
  | base {n s} : (baseTypes A).lookup n = some s → CShape A env (.name n) (.scalar s)
  | const {t s} : CShape A env t s → CShape A env (.const t) s
  | ptr {t} : CShape A env (.ptr t) (.scalar .ptr)
  | array {n t s} : CShape A env t s → CShape A env (.array (nat n) t) (.array n s)
  | enum {n} : (baseTypes A).lookup n = none → env.lookup n = some .enum → CShape A env (.name n) (.scalar (.int true 4))
  | alias {n t s} : (baseTypes A).lookup n = none → env.lookup n = some (.alias t) → CShape A env t s → CShape A env (.name n) s
  | struct {n ms ss} : (baseTypes A).lookup n = none → env.lookup n = some (.struct ms) → CShapes A env ms ss →
      CShape A env (.name n) (.struct ss)
/-- Of the members of a struct. -/
inductive CShapes (A : Abi) (env : Env) : List (Text × CT) → List Shape → Prop
  | nil : CShapes A env [] []
  | cons {n t s ms ss} : CShape A env t s → CShapes A env ms ss → CShapes A env ((n, t) :: ms) (s :: ss)
end

/-! ### Rust types -/

/-- Rust's integers. -/
def intScalar (A : Abi) : IntTy → Scalar
  | .u8 => .int false 1 | .u16 => .int false 2 | .u32 => .int false 4 | .u64 => .int false 8 | .usize => .int false A.word
  | .i8 => .int true 1 | .i16 => .int true 2 | .i32 => .int true 4 | .i64 => .int true 8 | .isize => .int true A.word

mutual
/-- The shape of a Rust type: `#[repr(C)]` structs field after field, `#[repr(k)]` enums as their integer (`#[repr(C)]`
ones as `i32`), `#[repr(transparent)]` types as what they wrap. Opaque types have none. -/
inductive RShape (A : Abi) (P : Prog) : CTy → Shape → Prop
  | int (k) : RShape A P (.int k) (.scalar (intScalar A k))
  | float : RShape A P .float (.scalar (.float 4))
  | double : RShape A P .double (.scalar (.float 8))
  | bool : RShape A P .bool (.scalar .bool)
  | cint : RShape A P .cint (.scalar (.int true 4))
  | cchar : RShape A P .cchar (.scalar .char)
  | void : RShape A P .void (.struct [])
  | array {n t s} : RShape A P t s → RShape A P (.array n t) (.array n s)
  | fptr {ret args} : RShape A P (.fptr ret args) (.scalar .ptr)
  | constPtr {t} : RShape A P (.constPtr t) (.scalar .ptr)
  | mutPtr {t} : RShape A P (.mutPtr t) (.scalar .ptr)
  | alias {rn docs t s} : RShape A P t s → RShape A P (.alias rn docs t) s
  | enum {i g docs int vs} : P.decl i g = .enum docs int vs → RShape A P (.adt i g) (.scalar (intScalar A (int.getD .i32)))
  | struct {i g docs size fs ss} : P.decl i g = .struct docs size fs → RShapes A P fs ss → RShape A P (.adt i g) (.struct ss)
/-- Of the fields of a struct, whose sizes and alignments are those of `mem::size_of` and `mem::align_of`. -/
inductive RShapes (A : Abi) (P : Prog) : List Field → List Shape → Prop
  | nil : RShapes A P [] []
  | cons {f s fs ss} : RShape A P f.ty s → (f.size, f.align) = s.lay A → RShapes A P fs ss → RShapes A P (f :: fs) (s :: ss)
end

/-! ### Programs -/

/-- The types that the exports mention, directly or within others, also behind pointers. -/
inductive Reach (P : Prog) (es : List Export) : CTy → Prop
  | export {e t} : e ∈ es → t ∈ e.types → Reach P es t
  | item {n t} : Reach P es (.array n t) → Reach P es t
  | constPtr {t} : Reach P es (.constPtr t) → Reach P es t
  | mutPtr {t} : Reach P es (.mutPtr t) → Reach P es t
  | ret {r args} : Reach P es (.fptr r args) → Reach P es r
  | arg {r args t} : Reach P es (.fptr r args) → t ∈ args → Reach P es t
  | inner {rn docs t} : Reach P es (.alias rn docs t) → Reach P es t
  | field {i g docs size fs f} : Reach P es (.adt i g) → P.decl i g = .struct docs size fs → f ∈ fs → Reach P es f.ty

/-- The types that have a definition of their own in a C header. -/
def hasDef : CTy → Bool
  | .array _ _ => true
  | .alias _ _ _ => true
  | .adt _ _ => true
  | _ => false

/-- The names of the defined types are not those of C or of functions, and two types with the same name are the same. -/
structure Unambiguous (P : Prog) (es : List Export) : Prop where
  types : ∀ t t', Reach P es t → Reach P es t' → hasDef t = true → hasDef t' = true → cName P.base t = cName P.base t' → t = t'
  base : ∀ A t, Reach P es t → hasDef t = true → (baseTypes A).lookup (cName P.base t) = none
  fns : ∀ t f, Reach P es t → hasDef t = true → .fn f ∈ es → f.name ≠ cName P.base t

/-- A declaration that C headers get right (C44, C47): the names are words, the documentation closes no comment, and
so on. -/
def DeclFine : Decl → Prop
  | .struct docs _ fs => DocsOk docs ∧ ∀ f ∈ fs, DocsOk f.docs ∧ IsWord f.name ∧ f.name ≠ kconst
  | .enum docs _ vs => DocsOk docs ∧ ∀ v ∈ vs, DocsOk v.docs ∧ IsWord v.name ∧ ∀ d, v.disc = some d → ValueOk d ∧ '}' ∉ d
  | .opaque docs => DocsOk docs

/-- The same of a type. -/
def TypeFine (P : Prog) : CTy → Prop
  | .alias _ docs inner => DocsOk docs ∧ plain inner = true
  | .adt i g => DeclFine (P.decl i g)
  | _ => True

/-- The same of an export. -/
def ExportFine : Export → Prop
  | .fn f => DocsOk f.docs ∧ IsWord f.name ∧ f.name ≠ kconst ∧ ∀ a ∈ f.args, IsWord a.name ∧ a.name ≠ kconst ∧ isVoid a.ty = false
  | .const c => DocsOk c.docs ∧ IsWord c.name ∧ ValueOk c.value ∧ c.name ≠ t!"__cplusplus" ∧ c.name ≠ t!"DOXYGEN"
  | .type _ _ => True

/-- The same of all exports and the types they mention. -/
structure Declarable (P : Prog) (es : List Export) : Prop where
  types : ∀ t, Reach P es t → wordsOk P.base t = true ∧ declOk t = true ∧ TypeFine P t
  exports : ∀ e ∈ es, ExportFine e

/-- What users must see to: a header for C with the default banner and no text after the guard, a guard that is a word,
fine names and texts, and names that do not clash. -/
structure Fine (P : Prog) (c : Config) (es : List Export) : Prop where
  lang : c.lang = .c
  banner : c.banner = none
  after : c.textAfterGuard = none
  guard : IsWord c.guardName ∧ c.guardName ≠ t!"__cplusplus" ∧ c.guardName ≠ t!"DOXYGEN"
  sorted : c.stable = true → DistinctNames es
  declarable : Declarable P es

/-- A C compiler, and neither a C++ one nor Doxygen. It has not yet read the header. -/
structure Compiler (c : Config) (defs : List Text) : Prop where
  guard : c.guardName ∉ defs
  cxx : t!"__cplusplus" ∉ defs
  dox : t!"DOXYGEN" ∉ defs

end Verif.Headers
