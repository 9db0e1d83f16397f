import Verif.Headers.Types
/-!
# Specification: the C declarator grammar

A lexer and a parser for the part of C declarations that headers use: a type name, possibly
`const`, and a declarator (ISO C 6.7.6): pointers, arrays, functions, parentheses. Independent of
the way the code writes declarations.
-/
namespace Verif.Headers

/-- C types. -/
inductive CT
  | name (s : Text)
  | const (of : CT)
  | ptr (to : CT)
  | array (n : Text) (of : CT)
  | fn (ret : CT) (params : List (Option Text × CT))

inductive Tok
  | id (s : Text) | star | lp | rp | lb | rb | comma | semi | bad (c : Char)
  deriving DecidableEq, Repr

/-- Characters of identifiers and numbers. Beyond ASCII, all characters that are not white space. -/
def isWordChar (c : Char) : Bool := c.isAlphanum || c == '_' || (128 ≤ c.toNat && !Text.isWs c)

def punct (c : Char) : List Tok :=
  if Text.isWs c then []
  else if c = '*' then [.star] else if c = '(' then [.lp] else if c = ')' then [.rp]
  else if c = '[' then [.lb] else if c = ']' then [.rb] else if c = ',' then [.comma]
  else if c = ';' then [.semi] else [.bad c]

def word (w : Text) : List Tok := if w.isEmpty then [] else [.id w]

/-- `cur` is the word being read. -/
def lexFrom (cur : Text) : Text → List Tok
  | [] => word cur
  | c :: cs => if isWordChar c then lexFrom (cur ++ [c]) cs else word cur ++ (punct c ++ lexFrom [] cs)

def lex (s : Text) : List Tok := lexFrom [] s

abbrev kconst : Text := ['c', 'o', 'n', 's', 't']
abbrev kvoid : Text := ['v', 'o', 'i', 'd']

/-- What is read of a declarator: the declared name if any, the type as a function of the type in
front of the declarator, and the tokens left. -/
abbrev Read := Option (Option Text × (CT → CT) × List Tok)

/-- After the parameters of a function: `suffixes` reads what follows. -/
def afterParams (suffixes : List Tok → Option ((CT → CT) × List Tok)) :
    Option (List (Option Text × CT) × List Tok) → Option ((CT → CT) × List Tok)
  | some (ps, r) => (suffixes r).map fun (g, r) => (fun b => .fn (g b) ps, r)
  | none => none

/-- After a nested declarator: a closing parenthesis, then suffixes. -/
def afterNested (suffixes : List Tok → Option ((CT → CT) × List Tok)) : Read → Read
  | some (n, f, .rp :: r) => (suffixes r).map fun (g, r) => (n, fun b => f (g b), r)
  | _ => none

/-- After a parameter: the closing parenthesis, or a comma and more parameters. A parameter cannot
have type `void`. -/
def afterParam (params : List Tok → Option (List (Option Text × CT) × List Tok)) :
    Option (Option Text × CT × List Tok) → Option (List (Option Text × CT) × List Tok)
  | some (_, .name ['v', 'o', 'i', 'd'], _) => none
  | some (n, ty, .rp :: r) => some ([(n, ty)], r)
  | some (n, ty, .comma :: r) => (params r).map fun (ps, r) => ((n, ty) :: ps, r)
  | _ => none

mutual
/-- `declarator: pointer? direct-declarator`. The number bounds the recursion depth. -/
def declarator : Nat → List Tok → Read
  | 0, _ => none
  | m + 1, .star :: .id w :: ts =>
      if w = kconst then (declarator m ts).map fun (n, f, r) => (n, fun b => f (.const (.ptr b)), r)
      else (declarator m (.id w :: ts)).map fun (n, f, r) => (n, fun b => f (.ptr b), r)
  | m + 1, .star :: ts => (declarator m ts).map fun (n, f, r) => (n, fun b => f (.ptr b), r)
  | m + 1, ts => direct m ts
/-- `direct-declarator: identifier | ( declarator ) | …` followed by suffixes. A parenthesis opens
a nested declarator if a `*` follows, a parameter list otherwise. -/
def direct : Nat → List Tok → Read
  | 0, _ => none
  | m + 1, .lp :: .star :: ts =>
      afterNested (suffixes m) (declarator m (.star :: ts))
  | m + 1, .id x :: ts => (suffixes m ts).map fun (g, r) => (some x, g, r)
  | m + 1, ts => (suffixes m ts).map fun (g, r) => (none, g, r)
/-- `[ n ]` and `( parameters )` -/
def suffixes : Nat → List Tok → Option ((CT → CT) × List Tok)
  | 0, _ => none
  | m + 1, .lb :: .id n :: .rb :: ts => (suffixes m ts).map fun (g, r) => (fun b => .array n (g b), r)
  | m + 1, .lp :: .id w :: .rp :: ts =>
      if w = kvoid then (suffixes m ts).map fun (g, r) => (fun b => .fn (g b) [], r)
      else afterParams (suffixes m) (params m (.id w :: .rp :: ts))
  | m + 1, .lp :: ts => afterParams (suffixes m) (params m ts)
  | _ + 1, ts => some (fun b => b, ts)
/-- A non-empty parameter list, up to and including the closing parenthesis. -/
def params : Nat → List Tok → Option (List (Option Text × CT) × List Tok)
  | 0, _ => none
  | m + 1, ts => afterParam (params m) (declaration m ts)
/-- A type name, `const` or not, and a declarator. -/
def declaration : Nat → List Tok → Option (Option Text × CT × List Tok)
  | 0, _ => none
  | m + 1, .id w :: .id c :: ts =>
      if w = kconst then none
      else if c = kconst then (declarator m ts).map fun (n, f, r) => (n, f (.const (.name w)), r)
      else (declarator m (.id c :: ts)).map fun (n, f, r) => (n, f (.name w), r)
  | m + 1, .id w :: ts =>
      if w = kconst then none
      else (declarator m ts).map fun (n, f, r) => (n, f (.name w), r)
  | _ + 1, _ => none
end

/-- The text is a C declaration of this name (none in an abstract declarator) with this type.
`end_` is what follows the declarator. -/
def Declares (text : Text) (name : Option Text) (ty : CT) (end_ : List Tok := []) : Prop :=
  ∃ k, ∀ m, k ≤ m → declaration m (lex text) = some (name, ty, end_)

/-- A text declares at most one thing. -/
theorem Declares.unique {text : Text} {n n' : Option Text} {ty ty' : CT} {e e' : List Tok}
    (h : Declares text n ty e) (h' : Declares text n' ty' e') : n = n' ∧ ty = ty' ∧ e = e' := by
  obtain ⟨k, hk⟩ := h
  obtain ⟨k', hk'⟩ := h'
  have := (hk (max k k') (Nat.le_max_left _ _)).symm.trans (hk' (max k k') (Nat.le_max_right _ _))
  simpa using this

/-- Non-empty, made of word characters. -/
def IsWord (s : Text) : Prop := s ≠ [] ∧ ∀ c ∈ s, isWordChar c = true

instance (s : Text) : Decidable (IsWord s) := inferInstanceAs (Decidable (_ ∧ _))

/-! ### The intended C types -/

/-- The C integer type of the same size and signedness. -/
def cInt : IntTy → Text
  | .u8 => t!"uint8_t"
  | .u16 => t!"uint16_t"
  | .u32 => t!"uint32_t"
  | .u64 => t!"uint64_t"
  | .usize => t!"size_t"
  | .i8 => t!"int8_t"
  | .i16 => t!"int16_t"
  | .i32 => t!"int32_t"
  | .i64 => t!"int64_t"
  | .isize => t!"ssize_t"

mutual
/-- The C type of a type: typedef names for the declared types and for arrays (which C passes by
value only inside a struct), pointers, pointers to functions. -/
def ctype (b : Nat → Text) : CTy → CT
  | .int k => .name (cInt k)
  | .float => .name t!"float"
  | .double => .name t!"double"
  | .bool => .name t!"bool"
  | .cint => .name t!"int"
  | .cchar => .name t!"char"
  | .void => .name kvoid
  | .array n item => .name (short b (.array n item) ++ ['_', 't'])
  | .fptr ret args => .ptr (.fn (ctype b ret) (ctypes b args))
  | .constPtr to => .ptr (.const (ctype b to))
  | .mutPtr to => .ptr (ctype b to)
  | .alias rename _ _ => .name (rename ++ ['_', 't'])
  | .adt i generics => .name (short b (.adt i generics) ++ ['_', 't'])
/-- Unnamed parameters. -/
def ctypes (b : Nat → Text) : List CTy → List (Option Text × CT)
  | [] => []
  | x :: xs => (none, ctype b x) :: ctypes b xs
end

/-! ### Equations (faster than the generated ones) -/

theorem ctype_int (b : Nat → Text) (k : IntTy) : ctype b (.int k) = .name (cInt k) := rfl

theorem cInt_eq (k : IntTy) : cInt k = k.c ++ ['_', 't'] := by cases k <;> rfl

theorem ctype_float (b : Nat → Text) : ctype b .float = .name t!"float" := rfl
theorem ctype_double (b : Nat → Text) : ctype b .double = .name t!"double" := rfl
theorem ctype_bool (b : Nat → Text) : ctype b .bool = .name t!"bool" := rfl
theorem ctype_cint (b : Nat → Text) : ctype b .cint = .name t!"int" := rfl
theorem ctype_cchar (b : Nat → Text) : ctype b .cchar = .name t!"char" := rfl
theorem ctype_void (b : Nat → Text) : ctype b .void = .name kvoid := rfl
theorem ctype_array (b : Nat → Text) (n : Nat) (item : CTy) : ctype b (.array n item) = .name (short b (.array n item) ++ ['_', 't']) := rfl
theorem ctype_fptr (b : Nat → Text) (ret : CTy) (args : List CTy) : ctype b (.fptr ret args) = .ptr (.fn (ctype b ret) (ctypes b args)) := rfl
theorem ctype_constPtr (b : Nat → Text) (to : CTy) : ctype b (.constPtr to) = .ptr (.const (ctype b to)) := rfl
theorem ctype_mutPtr (b : Nat → Text) (to : CTy) : ctype b (.mutPtr to) = .ptr (ctype b to) := rfl
theorem ctype_alias (b : Nat → Text) (rename : Text) (docs : List Text) (inner : CTy) : ctype b (.alias rename docs inner) = .name (rename ++ ['_', 't']) := rfl
theorem ctype_adt (b : Nat → Text) (i : Nat) (generics : List CTy) : ctype b (.adt i generics) = .name (short b (.adt i generics) ++ ['_', 't']) := rfl
theorem ctypes_nil (b : Nat → Text) : ctypes b [] = [] := rfl
theorem ctypes_cons (b : Nat → Text) (x : CTy) (xs : List CTy) : ctypes b (x :: xs) = (none, ctype b x) :: ctypes b xs := rfl

end Verif.Headers
