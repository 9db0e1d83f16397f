import Verif.Headers.CheckSpec
/-!
# Specification: macros and name spaces of C

What C compilers do with the names of a header beyond `Verif.Headers.CheckSpec`: the identifiers that are macros are
replaced by the preprocessor, and names must be distinct in each of the name spaces of C (ISO C 6.2.3): ordinary identifiers
(types, functions and enum constants), tags, the members of each struct, and the parameters of each function. Independent of
the way headers are written.

Replaced text is not scanned again for further macros, and macros with parameters are not considered.
-/
namespace Verif.Headers
open Text

/-- The macros that are defined, the latest first, each with what it is replaced by. -/
abbrev Macros := List (Text × List Tok)

/-- A preprocessor that replaces macros. -/
structure Ppx where
  pp : Pp
  macros : Macros
  toks : List Tok

/-- A token, after its replacement. -/
def expand (ms : Macros) : Tok → List Tok
  | .id w => (ms.lookup w).getD [.id w]
  | t => [t]

/-- One line. The names of the macros are those that the preprocessor `pp` knows. -/
def Ppx.step (eval : List Text → Text → Bool) (st : Ppx) (line : Text) : Option Ppx :=
  (st.pp.step eval line).map fun pp =>
    match directive line with
    | none => ⟨pp, st.macros, st.toks ++ if st.pp.active then (lex line).flatMap (expand st.macros) else []⟩
    | some (k, r) =>
        if !st.pp.active then ⟨pp, st.macros, st.toks⟩
        else if k = t!"define" then ⟨pp, (ident r, lex (r.dropWhile isWordChar)) :: st.macros, st.toks⟩
        else if k = t!"undef" then ⟨pp, st.macros.filter (·.1 ≠ ident r), st.toks⟩
        else ⟨pp, st.macros, st.toks⟩

def Ppx.run (eval : List Text → Text → Bool) : Ppx → List Text → Option Ppx
  | st, [] => some st
  | st, l :: ls => (st.step eval l).bind (·.run eval ls)

/-- A compiler with these macros of its own sees these tokens of a header. -/
def Expands (eval : List Text → Text → Bool) (ms : Macros) (header : Text) (toks : List Tok) : Prop :=
  ∃ st, (Ppx.mk ⟨ms.map (·.1), [], []⟩ ms []).run eval (split '\n' (code .code header)) = some st ∧ st.toks = toks

/-- Where we are in an enum: outside, after `enum`, before a constant, after its name. -/
inductive Place
  | outside
  | opening
  | constant
  | value
  deriving DecidableEq

/-- The constants of the enums. None: something else is in the place of a constant. -/
def enumNames : Place → List Tok → Option (List Text)
  | .outside, [] => some []
  | _, [] => none
  | .outside, .id w :: r => enumNames (if w = kenum then .opening else .outside) r
  | .outside, _ :: r => enumNames .outside r
  | .opening, .bad '{' :: r => enumNames .constant r
  | .opening, .id _ :: r => enumNames .opening r
  | .opening, _ :: _ => none
  | .constant, .id n :: r => (enumNames .value r).map (n :: ·)
  | .constant, .bad '}' :: r => enumNames .outside r
  | .constant, _ :: _ => none
  | .value, .comma :: r => enumNames .constant r
  | .value, .bad '}' :: r => enumNames .outside r
  | .value, _ :: r => enumNames .value r

/-- The tags: the names after `struct` or `enum`. `after`: such a word has just been read. -/
def tagNames : (after : Bool) → List Tok → List Text
  | _, [] => []
  | true, .id n :: r => n :: tagNames false r
  | false, .id w :: r => tagNames (decide (w = kstruct ∨ w = kenum)) r
  | _, _ :: r => tagNames false r

/-- No name has two meanings in a name space, and none is reserved. -/
structure NoClash (env : Env) (toks : List Tok) : Prop where
  ordinary : ∃ cs, enumNames .outside toks = some cs ∧ (env.map (·.1) ++ cs).Nodup ∧ ∀ c ∈ cs, c ∉ cReserved ∧ c ∉ stdTypes
  tags : (tagNames false toks).Nodup ∧ ∀ t ∈ tagNames false toks, t ∉ cReserved
  members : ∀ n ms, (n, CDef.struct ms) ∈ env → (ms.map (·.1)).Nodup
  params : ∀ n ret ps, (n, CDef.fn ret ps) ∈ env → (ps.filterMap (·.1)).Nodup

/-! ### Programs -/

/-- `EnumNameVariant` as `ENUM_NAME_VARIANT`: an underscore in front of each upper-case letter but the first letter. -/
def screaming : Text → Text
  | [] => []
  | c :: cs => toAsciiUpper c :: cs.flatMap fun c => if isAsciiUpper c then ['_', c] else [toAsciiUpper c]

/-- The names of the constants of an enum in C. -/
def variantNames (P : Prog) (i : Nat) (g : List CTy) (vs : List Variant) : List Text :=
  vs.map fun v => screaming (short P.base (.adt i g) ++ v.name)

/-- Begins with a digit, like numbers. -/
def numeric (s : Text) : Bool := s.head?.any Char.isDigit

/-- The names that a program brings into its header, and those that every header can have. -/
inductive Used (P : Prog) (es : List Export) : Text → Prop
  | c {n} : n ∈ [ktypedef, kstruct, kenum, kconst, kvoid, t!"idx", t!"ssize_t"] → Used P es n
  | std {n} : n ∈ stdTypes → Used P es n
  | number {n} : numeric n = true → Used P es n
  | type {t} : Reach P es t → hasDef t = true → Used P es (cName P.base t)
  | tag {i g} : Reach P es (.adt i g) → Used P es (short P.base (.adt i g))
  | field {i g docs size fs f} : Reach P es (.adt i g) → P.decl i g = .struct docs size fs → f ∈ fs → Used P es f.name
  | constant {i g docs int vs n} : Reach P es (.adt i g) → P.decl i g = .enum docs int vs → n ∈ variantNames P i g vs → Used P es n
  | fn {f} : .fn f ∈ es → Used P es f.name
  | arg {f a} : .fn f ∈ es → a ∈ f.args → Used P es a.name

/-- What Rust and users see to: fields and parameters have distinct names, discriminants are numbers, the names of types are not
reserved in C; and the constants of the enums clash neither with each other nor with types and functions. -/
structure Apart (P : Prog) (es : List Export) : Prop where
  fields : ∀ i g docs size fs, Reach P es (.adt i g) → P.decl i g = .struct docs size fs → (fs.map (·.name)).Nodup
  args : ∀ f, .fn f ∈ es → (f.args.map (·.name)).Nodup
  discs : ∀ i g docs int vs v d, Reach P es (.adt i g) → P.decl i g = .enum docs int vs → v ∈ vs → v.disc = some d →
    ',' ∉ d ∧ ∀ w, .id w ∈ lex d → numeric w = true
  tags : ∀ i g, Reach P es (.adt i g) → short P.base (.adt i g) ∉ cReserved
  own : ∀ i g docs int vs, Reach P es (.adt i g) → P.decl i g = .enum docs int vs → (variantNames P i g vs).Nodup ∧
    ∀ n ∈ variantNames P i g vs, n ∉ cReserved ∧ n ∉ stdTypes ∧ (∀ t, Reach P es t → hasDef t = true → n ≠ cName P.base t) ∧
      ∀ f, .fn f ∈ es → n ≠ f.name
  others : ∀ i g docs int vs j h docs' int' vs', Reach P es (.adt i g) → P.decl i g = .enum docs int vs → Reach P es (.adt j h) →
    P.decl j h = .enum docs' int' vs' → CTy.adt i g ≠ .adt j h → ∀ n ∈ variantNames P i g vs, n ∉ variantNames P j h vs'

/-- Enums whose names, and those of their variants, are in camel case, and whose names together with those of their variants are not
the same for two of them. Rust sees to it that the variants of an enum have distinct names. -/
structure Camel (P : Prog) (es : List Export) : Prop where
  case : ∀ i g docs int vs v, Reach P es (.adt i g) → P.decl i g = .enum docs int vs → v ∈ vs →
    ((short P.base (.adt i g)).head?.any isAsciiUpper = true) ∧
      ∀ l c r, short P.base (.adt i g) ++ v.name = l ++ '_' :: c :: r → isAsciiLower c = false
  variants : ∀ i g docs int vs, Reach P es (.adt i g) → P.decl i g = .enum docs int vs → (vs.map (·.name)).Nodup
  joined : ∀ i g docs int vs j h docs' int' vs', Reach P es (.adt i g) → P.decl i g = .enum docs int vs → Reach P es (.adt j h) →
    P.decl j h = .enum docs' int' vs' → CTy.adt i g ≠ .adt j h → ∀ v ∈ vs, ∀ v' ∈ vs',
    short P.base (.adt i g) ++ v.name ≠ short P.base (.adt j h) ++ v'.name

/-- The macros are not used for anything else: the guard, the exported constants, and those of the compiler. -/
def MacrosApart (P : Prog) (c : Config) (es : List Export) (ms : Macros) : Prop :=
  ¬ Used P es c.guardName ∧ (∀ k, .const k ∈ es → ¬ Used P es k.name) ∧ ∀ m ∈ ms, ¬ Used P es m.1

end Verif.Headers
