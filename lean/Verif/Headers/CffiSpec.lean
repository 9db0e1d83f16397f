import Verif.Headers.CheckSpec
/-!
# Specification: what cffi makes of a Python header

The text that is passed to `ffi.cdef`, as cffi reads it for a module in API mode (`_preprocess`, `_process_macros` and
`parse` of its `cparser.py`, with pycparser's grammar of C): comments are removed; `#define NAME ...` is a constant that is
asked of the C compiler; every other directive is an error; `...` is a name, and a typedef of it an opaque type; the rest are
C declarations. Layouts are those of C (`CShape`). Independent of the way headers are written.

Not considered: `#define` of an integer literal and `#line`, which do not occur; `...` across lines; enum constants (C45, C46).
-/
namespace Verif.Headers
open Text

/-- What cffi has learned from a header. -/
structure Cdef where
  env : Env
  macros : List Text

/-- The name that cffi puts in the place of `...`. -/
abbrev kdots : Text := ['_', '_', 'd', 'o', 't', 'd', 'o', 't', 'd', 'o', 't', '_', '_']

/-- The lines that are left for the parser, and the names of the constants. `stripped`: the user has removed the
`#include` lines beforehand. -/
def cdefLines (stripped : Bool) : List Text → Option (List Text × List Text)
  | [] => some ([], [])
  | l :: ls =>
      match directive l with
      | none => (cdefLines stripped ls).map fun (ks, ms) => (l :: ks, ms)
      | some (k, r) =>
          if k = t!"define" ∧ trim (r.dropWhile isWordChar) = t!"..." then
            (cdefLines stripped ls).map fun (ks, ms) => (ks, ident r :: ms)
          else if k = t!"include" ∧ stripped = true then cdefLines stripped ls
          else none

/-- `...` is replaced. -/
def dots : List Tok → List Tok
  | .bad '.' :: .bad '.' :: .bad '.' :: r => .id kdots :: dots r
  | t :: r => t :: dots r
  | [] => []

/-- A typedef of `...` is an opaque type. -/
def undot : Text × CDef → Text × CDef
  | (n, .alias (.name w)) => if w = kdots then (n, .opaque) else (n, .alias (.name w))
  | d => d

/-- cffi reads the header as these declarations and constants. -/
def CdefReads (stripped : Bool) (header : Text) (f : Cdef) : Prop :=
  ∃ ls raw, cdefLines stripped (split '\n' (code .code header)) = some (ls, f.macros) ∧
    (∃ k, ∀ m, k ≤ m → units m (ls.flatMap fun l => dots (lex l)) = some raw) ∧ f.env = raw.map undot

theorem CdefReads.unique {stripped : Bool} {header : Text} {f f' : Cdef} (h : CdefReads stripped header f)
    (h' : CdefReads stripped header f') : f = f' := by
  obtain ⟨ls, raw, h1, ⟨k, hk⟩, h2⟩ := h
  obtain ⟨ls', raw', h1', ⟨k', hk'⟩, h2'⟩ := h'
  rw [h1] at h1'
  obtain ⟨e1, e2⟩ := Prod.mk.inj (Option.some.inj h1')
  subst e1
  have e := Option.some.inj ((hk (max k k') (Nat.le_max_left _ _)).symm.trans (hk' (max k k') (Nat.le_max_right _ _)))
  cases f
  cases f'
  simp only at *
  rw [h2, h2', e, e2]

/-! ### Programs -/

/-- What users must see to: a Python header with the default banner, fine names and texts as for C, no aliases (C39, C44),
and no enums with an integer of their own. -/
structure CdefFine (P : Prog) (c : Config) (es : List Export) : Prop where
  lang : c.lang = .python
  banner : c.banner = none
  sorted : c.stable = true → DistinctNames es
  declarable : Declarable P es
  aliases : ∀ rn docs t, ¬ Reach P es (.alias rn docs t)
  enums : ∀ i g docs int vs, Reach P es (.adt i g) → P.decl i g = .enum docs int vs → int = none

end Verif.Headers
