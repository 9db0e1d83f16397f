import Verif.Headers.DeclLemmas
import Verif.Headers.Emit
/-!
# C44: C declarators denote the intended types

`Declares` (CDecl.lean) reads a text with the C declarator grammar; `ctype` is the intended type.
-/
namespace Verif.Headers
open Text

mutual
/-- All names of declared types that occur in the name of the type are identifiers. -/
def wordsOk (b : Nat → Text) : CTy → Bool
  | .array _ item => wordsOk b item
  | .fptr ret args => wordsOk b ret && wordsOks b args
  | .constPtr x => wordsOk b x
  | .mutPtr x => wordsOk b x
  | .alias rename _ _ => decide (IsWord rename)
  | .adt i generics => decide (IsWord (b i)) && wordsOks b generics
  | _ => true
def wordsOks (b : Nat → Text) : List CTy → Bool
  | [] => true
  | x :: xs => wordsOk b x && wordsOks b xs
end

/-- Not a function pointer, nor a pointer to … a function pointer. -/
def plain : CTy → Bool
  | .fptr _ _ => false
  | .constPtr x => plain x
  | .mutPtr x => plain x
  | _ => true

def isVoid : CTy → Bool
  | .void => true
  | _ => false

mutual
/-- No pointer to a function pointer, no function pointer that returns one, no `()` parameter of a
function pointer; outside of typedef names. -/
def declOk : CTy → Bool
  | .fptr ret args => plain ret && declOk ret && argsOk args
  | .constPtr x => plain x && declOk x
  | .mutPtr x => plain x && declOk x
  | _ => true
def argsOk : List CTy → Bool
  | [] => true
  | x :: xs => !isVoid x && declOk x && argsOk xs
end

/-! ### Lemmas -/

theorem IsWord.append {a x : Text} (h : IsWord a) (hx : ∀ c ∈ x, isWordChar c = true) : IsWord (a ++ x) :=
  ⟨by simp [h.1], fun c hc => (List.mem_append.1 hc).elim (h.2 c) (hx c)⟩

theorem nat_word (n : Nat) : ∀ c ∈ nat n, isWordChar c = true := by
  intro c hc
  have hd : c.isDigit = true := by
    simp only [nat, toString] at hc
    rw [Nat.toList_repr] at hc
    exact Nat.isDigit_of_mem_toDigits (by omega) (by omega) hc
  simp [isWordChar, Char.isAlphanum, hd]

mutual
theorem short_word (b : Nat → Text) (ty : CTy) (h : wordsOk b ty = true) : IsWord (short b ty) := by
  cases ty with
  | int k => rw [short_int]; cases k <;> decide
  | array n item =>
    have := short_word b item h
    rw [short_array]
    refine ((this.append (by decide)).append (nat_word n)).append (by decide)
  | fptr ret args =>
    rw [wordsOk, Bool.and_eq_true] at h
    rw [short_fptr]
    exact ((short_word b ret h.1).append (shorts_word b args h.2)).append (by decide)
  | constPtr x => exact (short_word b x h).append (by decide)
  | mutPtr x => exact (short_word b x h).append (by decide)
  | alias rename docs inner => exact of_decide_eq_true h
  | adt i generics =>
    rw [wordsOk, Bool.and_eq_true] at h
    exact (of_decide_eq_true h.1 : IsWord (b i)).append (shorts_word b generics h.2)
  | float => exact (by decide : IsWord (t!"float"))
  | double => exact (by decide : IsWord (t!"double"))
  | bool => exact (by decide : IsWord (t!"bool"))
  | cint => exact (by decide : IsWord (t!"int"))
  | cchar => exact (by decide : IsWord (t!"char"))
  | void => exact (by decide : IsWord (t!"void"))
theorem shorts_word (b : Nat → Text) (tys : List CTy) (h : wordsOks b tys = true) :
    ∀ c ∈ shorts b tys, isWordChar c = true := by
  match tys, h with
  | [], _ => intro c hc; cases hc
  | x :: xs, h =>
    rw [wordsOks, Bool.and_eq_true] at h
    intro c hc
    rw [shorts_cons] at hc
    rcases List.mem_append.1 hc with hc | hc
    · rcases List.mem_append.1 hc with hc | hc
      · rw [List.mem_singleton.1 hc]; decide
      · exact (short_word b x h.1).2 c hc
    · exact shorts_word b xs h.2 c hc
end

theorem t_word : ∀ c ∈ t!"_t", isWordChar c = true := by decide

theorem t_ne_const (x : Text) : x ++ t!"_t" ≠ kconst := by
  intro e
  have := congrArg List.reverse e
  simp at this

theorem t_ne_void (x : Text) : x ++ t!"_t" ≠ kvoid := by
  intro e
  have := congrArg List.reverse e
  simp at this

theorem ctype_ne_void (b : Nat → Text) {ty : CTy} (h : isVoid ty = false) : ctype b ty ≠ .name kvoid := by
  match ty, h with
  | .int k, _ => exact fun e => t_ne_void _ ((cInt_eq k).symm.trans (CT.name.inj e))
  | .float, _ => exact fun e => absurd (CT.name.inj e) (by decide)
  | .double, _ => exact fun e => absurd (CT.name.inj e) (by decide)
  | .bool, _ => exact fun e => absurd (CT.name.inj e) (by decide)
  | .cint, _ => exact fun e => absurd (CT.name.inj e) (by decide)
  | .cchar, _ => exact fun e => absurd (CT.name.inj e) (by decide)
  | .fptr _ _, _ => exact nofun
  | .constPtr _, _ => exact nofun
  | .mutPtr _, _ => exact nofun
  | .array _ _, _ => exact fun e => t_ne_void _ (CT.name.inj e)
  | .alias _ _ _, _ => exact fun e => t_ne_void _ (CT.name.inj e)
  | .adt _ _, _ => exact fun e => t_ne_void _ (CT.name.inj e)

theorem lex_blank (a b : Text) : lex (a ++ ' ' :: b) = lex a ++ lex b := lex_sep a b (c := ' ') (by decide)
theorem lex_lp (a b : Text) : lex (a ++ '(' :: b) = lex a ++ .lp :: lex b := lex_sep a b (c := '(') (by decide)
theorem lex_rp (a b : Text) : lex (a ++ ')' :: b) = lex a ++ .rp :: lex b := lex_sep a b (c := ')') (by decide)
theorem lex_star (a b : Text) : lex (a ++ '*' :: b) = lex a ++ .star :: lex b := lex_sep a b (c := '*') (by decide)
theorem lex_comma (a b : Text) : lex (a ++ ',' :: b) = lex a ++ .comma :: lex b := lex_sep a b (c := ',') (by decide)
theorem lex_semi (a b : Text) : lex (a ++ ';' :: b) = lex a ++ .semi :: lex b := lex_sep a b (c := ';') (by decide)
theorem lex_lb (a b : Text) : lex (a ++ '[' :: b) = lex a ++ .lb :: lex b := lex_sep a b (c := '[') (by decide)
theorem lex_rb (a b : Text) : lex (a ++ ']' :: b) = lex a ++ .rb :: lex b := lex_sep a b (c := ']') (by decide)
theorem lex_newline (a b : Text) : lex (a ++ '\n' :: b) = lex a ++ lex b := lex_sep a b (c := '\n') (by decide)

theorem lex_fptr (a v p : Text) : lex (a ++ t!" " ++ t!"(*" ++ v ++ t!")(" ++ p ++ t!")") =
    lex a ++ (.lp :: .star :: lex v ++ (.rp :: .lp :: lex p ++ [.rp])) := by
  have e : a ++ t!" " ++ t!"(*" ++ v ++ t!")(" ++ p ++ t!")" = a ++ ' ' :: ([] ++ '(' :: ([] ++ '*' :: (v ++ ')' :: ([] ++ '(' :: (p ++ ')' :: []))))) := by
    simp
  rw [e, lex_blank, lex_lp, lex_star, lex_rp, lex_lp, lex_rp, lex_nil]
  simp

theorem lex_app_sep (a v : Text) : lex (a ++ sep v ++ v) = lex a ++ lex v := by
  cases v with
  | nil => simp [sep, lex_nil]
  | cons x xs =>
    have : a ++ sep (x :: xs) ++ x :: xs = a ++ ' ' :: (x :: xs) := by simp [sep]
    rw [this, lex_blank]

theorem lex_constPtr (a v : Text) : lex (a ++ t!" const *" ++ sep v ++ v) = lex a ++ [.id kconst, .star] ++ lex v := by
  rw [lex_app_sep]
  have e : a ++ t!" const *" = a ++ ' ' :: (kconst ++ ' ' :: ([] ++ '*' :: [])) := by simp
  rw [e, lex_blank, lex_blank, lex_star, lex_nil, lex_word (w := kconst) (by decide)]
  rfl

theorem lex_mutPtr (a v : Text) : lex (a ++ t!" *" ++ sep v ++ v) = lex a ++ [.star] ++ lex v := by
  rw [lex_app_sep]
  have e : a ++ t!" *" = a ++ ' ' :: ([] ++ '*' :: []) := by simp
  rw [e, lex_blank, lex_star, lex_nil]
  rfl

theorem lex_commaSp (a v : Text) : lex (a ++ (t!", " ++ v)) = lex a ++ .comma :: lex v := by
  have e : a ++ (t!", " ++ v) = a ++ ',' :: ([] ++ ' ' :: v) := by simp
  rw [e, lex_comma, lex_blank, lex_nil]
  rfl

/-- The typedef name of the types that are written with one. -/
theorem front_name (w v : Text) (hw : IsWord w) (hc : w ≠ kconst) :
    lex (w ++ sep v ++ v) = lex (w ++ sep [] ++ []) ++ lex v ∧ Front (lex (w ++ sep [] ++ [])) (.name w) := by
  rw [lex_word_sep hw, lex_word_sep hw]
  exact ⟨rfl, Front.name hc⟩

theorem front_plain (b : Nat → Text) (ty : CTy) (hw : wordsOk b ty = true) (hd : declOk ty = true) (hp : plain ty = true) :
    (∀ v, lex (cVar b ty v) = lex (cVar b ty []) ++ lex v) ∧ Front (lex (cVar b ty [])) (ctype b ty) := by
  have key : ∀ w : Text, IsWord w → w ≠ kconst → (∀ v, cVar b ty v = w ++ sep v ++ v) → ctype b ty = .name w →
      (∀ v, lex (cVar b ty v) = lex (cVar b ty []) ++ lex v) ∧ Front (lex (cVar b ty [])) (ctype b ty) := by
    intro w h1 h2 h3 h4
    rw [h4]
    refine ⟨fun v => ?_, ?_⟩
    · rw [h3, h3]; exact (front_name w v h1 h2).1
    · rw [h3]; exact (front_name w [] h1 h2).2
  cases ty with
  | int k => exact key (k.c ++ t!"_t") (by cases k <;> decide) (t_ne_const _) (fun v => rfl) (by rw [ctype_int, cInt_eq])
  | float => exact key (t!"float") (by decide) (by decide) (fun v => rfl) rfl
  | double => exact key (t!"double") (by decide) (by decide) (fun v => rfl) rfl
  | bool => exact key (t!"bool") (by decide) (by decide) (fun v => rfl) rfl
  | cint => exact key (t!"int") (by decide) (by decide) (fun v => rfl) rfl
  | cchar => exact key (t!"char") (by decide) (by decide) (fun v => rfl) rfl
  | void => exact key kvoid (by decide) (by decide) (fun v => rfl) rfl
  | array n item => exact key _ ((short_word b (.array n item) hw).append t_word) (t_ne_const _) (fun v => cVar_array b n item v) rfl
  | fptr => cases hp
  | alias r d i =>
    exact key _ ((short_word b (.alias r d i) hw).append t_word) (t_ne_const _) (fun v => cVar_alias b r d i v) rfl
  | adt i g =>
    exact key _ ((short_word b (.adt i g) hw).append t_word) (t_ne_const _) (fun v => cVar_adt b i g v) rfl
  | constPtr x =>
    rw [declOk, Bool.and_eq_true] at hd
    obtain ⟨_, h2⟩ := front_plain b x hw hd.2 hd.1
    have e : ∀ v, lex (cVar b (.constPtr x) v) = lex (cVar b x []) ++ [.id kconst, .star] ++ lex v := by
      intro v; rw [cVar_constPtr]; exact lex_constPtr _ _
    refine ⟨fun v => ?_, ?_⟩
    · rw [e v, e [], lex_nil, List.append_nil]
    · rw [e [], lex_nil, List.append_nil, ctype_constPtr]
      exact h2.constStar
  | mutPtr x =>
    rw [declOk, Bool.and_eq_true] at hd
    obtain ⟨_, h2⟩ := front_plain b x hw hd.2 hd.1
    have e : ∀ v, lex (cVar b (.mutPtr x) v) = lex (cVar b x []) ++ [.star] ++ lex v := by
      intro v; rw [cVar_mutPtr]; exact lex_mutPtr _ _
    refine ⟨fun v => ?_, ?_⟩
    · rw [e v, e [], lex_nil, List.append_nil]
    · rw [e [], lex_nil, List.append_nil, ctype_mutPtr]
      exact h2.star

theorem parens_of (b : Nat → Text) (args : List CTy)
    (h : ∀ x xs, args = x :: xs → Params (lex (cVar b x [] ++ cArgsTail b xs)) ((none, ctype b x) :: ctypes b xs)) :
    Parens (lex (cArgs b args)) (ctypes b args) := by
  cases args with
  | nil => exact Parens.void
  | cons x xs => rw [cArgs_cons, ctypes_cons]; exact (h x xs rfl).parens

mutual
/-- A declaration whose variable part is any direct declarator. -/
theorem declares_var (b : Nat → Text) (ty : CTy) (hw : wordsOk b ty = true) (hd : declOk ty = true)
    {v : Text} {n : Option Text} {g : CT → CT} (hv : Direct (lex v) n g) {r : List Tok} (hr : OkRest r) :
    Ev (declaration · (lex (cVar b ty v) ++ r)) (n, g (ctype b ty), r) := by
  by_cases hp : plain ty = true
  · obtain ⟨h1, h2⟩ := front_plain b ty hw hd hp
    rw [h1, List.append_assoc]
    refine h2.plain _ _ ?_ (hv.after hr _)
    intro ts e
    cases hl : lex v with
    | nil => rw [hl, List.nil_append] at e; subst e; exact hr
    | cons x xs => rw [hl, List.cons_append] at e; exact hv.noConst xs (by rw [hl]; simp at e; rw [e.1])
  · match ty, hw, hd with
    | .fptr ret args, hw, hd =>
      rw [wordsOk, Bool.and_eq_true] at hw
      rw [declOk, Bool.and_eq_true, Bool.and_eq_true] at hd
      obtain ⟨_, h2⟩ := front_plain b ret hw.1 hd.1.2 hd.1.1
      have hps := parens_of b args (declares_tail b args hw.2 hd.2)
      rw [cVar_fptr, lex_fptr, ctype_fptr]
      have e2 : lex (cVar b ret []) ++ (.lp :: .star :: lex v ++ (.rp :: .lp :: lex (cArgs b args) ++ [.rp])) ++ r =
          lex (cVar b ret []) ++ (.lp :: .star :: lex v ++ (.rp :: .lp :: lex (cArgs b args) ++ .rp :: r)) := by
        generalize lex (cVar b ret []) = A
        generalize lex (cArgs b args) = B
        simp
      rw [e2]
      exact h2.plain _ _ (by simp) (hv.group hps hr _)
    | .int k, _, _ => exact absurd rfl hp
    | .float, _, _ => exact absurd rfl hp
    | .double, _, _ => exact absurd rfl hp
    | .bool, _, _ => exact absurd rfl hp
    | .cint, _, _ => exact absurd rfl hp
    | .cchar, _, _ => exact absurd rfl hp
    | .void, _, _ => exact absurd rfl hp
    | .array _ _, _, _ => exact absurd rfl hp
    | .alias _ _ _, _, _ => exact absurd rfl hp
    | .adt _ _, _, _ => exact absurd rfl hp
    | .constPtr x, _, hd => rw [declOk, Bool.and_eq_true] at hd; exact absurd hd.1 hp
    | .mutPtr x, _, hd => rw [declOk, Bool.and_eq_true] at hd; exact absurd hd.1 hp
theorem declares_tail (b : Nat → Text) (args : List CTy) (hw : wordsOks b args = true) (hd : argsOk args = true) :
    ∀ x xs, args = x :: xs → Params (lex (cVar b x [] ++ cArgsTail b xs)) ((none, ctype b x) :: ctypes b xs) := by
  match args, hw, hd with
  | [], _, _ => intro x xs e; cases e
  | x :: xs, hw, hd =>
    intro x' xs' e
    cases e
    rw [wordsOks, Bool.and_eq_true] at hw
    rw [argsOk, Bool.and_eq_true, Bool.and_eq_true] at hd
    have hx : ∀ r, OkRest r → Ev (declaration · (lex (cVar b x []) ++ r)) (none, ctype b x, r) :=
      fun r hr => declares_var b x hw.1 hd.1.2 (v := []) Direct.nil hr
    have hv := ctype_ne_void b (ty := x) (by simpa using hd.1.1)
    have ih := declares_tail b xs hw.2 hd.2
    cases xs with
    | nil => rw [cArgsTail_nil, List.append_nil]; exact Params.one hv hx
    | cons y ys =>
      rw [cArgsTail_cons, List.append_assoc, lex_commaSp, ctypes_cons]
      exact Params.cons hv hx (ih y ys rfl)
end

/-! ### The two languages that use C declarations -/

/-- cffi has no aliases: they stand for their inner type. -/
def unalias : CTy → CTy
  | .alias _ _ inner => unalias inner
  | ty => ty

def isAlias : CTy → Bool
  | .alias _ _ _ => true
  | _ => false

/-- The type that a C header (or a cffi header) is meant to declare for `ty`. -/
def intended : Lang → CTy → CTy
  | .python, ty => unalias ty
  | _, ty => ty

/-- The declarations that are proved right. -/
def declFine (b : Nat → Text) : Lang → CTy → Bool
  | .c, ty => wordsOk b ty && declOk ty
  | .python, ty => wordsOk b (unalias ty) && declOk (unalias ty) && (!isAlias ty || plain (unalias ty))
  | .csharp, _ => false

theorem pyName_unalias (b : Nat → Text) (ty : CTy) : pyName b ty = cVar b (unalias ty) [] := by
  match ty with
  | .alias _ _ inner => rw [pyName, unalias]; exact pyName_unalias b inner
  | .int _ => rfl
  | .float => rfl
  | .double => rfl
  | .bool => rfl
  | .cint => rfl
  | .cchar => rfl
  | .void => rfl
  | .array _ _ => rfl
  | .fptr _ _ => rfl
  | .constPtr _ => rfl
  | .mutPtr _ => rfl
  | .adt _ _ => rfl

theorem pyVar_not_alias (b : Nat → Text) {ty : CTy} (h : isAlias ty = false) (v : Text) : pyVar b ty v = cVar b (unalias ty) v := by
  cases ty <;> first | rfl | cases h

theorem declares_lang (b : Nat → Text) {lang : Lang} {ty : CTy} (h : declFine b lang ty = true)
    {v : Text} {n : Option Text} {g : CT → CT} (hv : Direct (lex v) n g) {r : List Tok} (hr : OkRest r) :
    Ev (declaration · (lex (var b lang ty v) ++ r)) (n, g (ctype b (intended lang ty)), r) := by
  cases lang with
  | csharp => cases h
  | c =>
    rw [declFine, Bool.and_eq_true] at h
    exact declares_var b ty h.1 h.2 hv hr
  | python =>
    rw [declFine, Bool.and_eq_true, Bool.and_eq_true, Bool.or_eq_true] at h
    obtain ⟨⟨h1, h2⟩, h3⟩ := h
    have := declares_var b (unalias ty) h1 h2 hv hr
    rw [var, intended]
    cases ha : isAlias ty with
    | false => rw [pyVar_not_alias b ha]; exact this
    | true =>
      have hp : plain (unalias ty) = true := by simpa [ha] using h3
      have e : pyVar b ty v = pyName b ty ++ sep v ++ v := by
        match ty, ha with
        | .alias _ _ _, _ => rfl
      rw [e, pyName_unalias, lex_app_sep, ← (front_plain b _ h1 h2 hp).1]
      exact this

/-! ### C44 -/

/-- C44: the text written in C and cffi headers for a variable, field or parameter declares that
name with that type. All nestings of base types, declared types, pointers, arrays and function
pointers, but for pointers to function pointers and function pointers that return one or take a
`()`, and for aliases of function pointers in cffi headers: see the theorems `C44_fails_…`. -/
theorem C44_declares_partial (b : Nat → Text) (lang : Lang) (ty : CTy) (h : declFine b lang ty = true)
    (v : Text) (hv : IsWord v) (hv' : v ≠ kconst) :
    Declares (var b lang ty v) (some v) (ctype b (intended lang ty)) := by
  have := declares_lang b h (v := v) (by rw [lex_word hv]; exact Direct.id hv') (r := []) trivial
  simp only [List.append_nil] at this
  exact this

/-- C44: without a name, the text is an abstract declarator of the type. -/
theorem C44_abstract_partial (b : Nat → Text) (ty : CTy) (hw : wordsOk b ty = true) (hd : declOk ty = true) :
    Declares (name b .c ty) none (ctype b ty) := by
  have := declares_var b ty hw hd (v := []) Direct.nil (r := []) trivial
  simp only [List.append_nil] at this
  exact this

theorem declares_idx (b : Nat → Text) (n : Nat) (item : CTy) (hw : wordsOk b item = true)
    (hd : declOk item = true) :
    Declares (cVar b item (t!"idx[" ++ nat n ++ t!"]")) (some (t!"idx")) (.array (nat n) (ctype b item)) := by
  have hl : lex (t!"idx[" ++ nat n ++ t!"]") = [.id (t!"idx"), .lb, .id (nat n), .rb] := by
    have hn : IsWord (nat n) := by
      refine ⟨?_, nat_word n⟩
      simp only [nat, toString]
      rw [Nat.toList_repr]
      intro e
      have := Nat.length_toDigits_pos (b := 10) (n := n)
      rw [e] at this
      simp at this
    have e : t!"idx[" ++ nat n ++ t!"]" = ['i', 'd', 'x'] ++ '[' :: (nat n ++ ']' :: []) := by simp
    rw [e, lex_lb, lex_rb, lex_word hn, lex_word (w := ['i', 'd', 'x']) (by decide), lex_nil]
    rfl
  have := declares_var b item hw hd (v := t!"idx[" ++ nat n ++ t!"]") (by rw [hl]; exact Direct.array (by decide)) (r := []) trivial
  simp only [List.append_nil] at this
  exact this

/-- C44: the struct that stands for an array of `n` items has one field, an array of `n` items of the item
type, and the name of the array type. -/
theorem C44_array_field_partial (b : Nat → Text) (n : Nat) (item : CTy) (hw : wordsOk b item = true)
    (hd : declOk item = true) :
    ∃ decl, flat (cArray b n item) = t!"typedef struct {\n    " ++ decl ++ t!";\n} " ++ name b .c (.array n item) ++ t!";\n\n" ∧
      Declares decl (some (t!"idx")) (.array (nat n) (ctype b item)) := by
  refine ⟨_, ?_, declares_idx b n item hw hd⟩
  rw [cArray, flat, List.flatten_cons, List.flatten_nil, List.append_nil]
  rfl

/-- C44: the typedef of an alias, after the keyword `typedef`, declares the alias with the inner type. -/
theorem C44_alias_partial (b : Nat → Text) (rename : Text) (docs : List Text) (inner : CTy) (hr : IsWord rename)
    (hw : wordsOk b inner = true) (hd : declOk inner = true) (hp : plain inner = true) :
    ∃ decl, aliasLine b (.alias rename docs inner) inner = t!"typedef " ++ decl ∧
      Declares decl (some (rename ++ t!"_t")) (ctype b inner) [.semi] := by
  have hn : cName b (.alias rename docs inner) = rename ++ t!"_t" := by rw [cName, cVar_alias]; simp [sep]
  refine ⟨cName b inner ++ t!" " ++ (rename ++ t!"_t") ++ t!";", by simp only [aliasLine, hn, List.append_assoc], ?_⟩
  have hwd : IsWord (rename ++ t!"_t") := hr.append t_word
  have := declares_var b inner hw hd (v := rename ++ t!"_t") (by rw [lex_word hwd]; exact Direct.id (t_ne_const _)) (r := [.semi]) trivial
  rw [(front_plain b inner hw hd hp).1] at this
  have e : cName b inner ++ t!" " ++ (rename ++ t!"_t") ++ t!";" = cVar b inner [] ++ ' ' :: ((rename ++ t!"_t") ++ ';' :: []) := by
    rw [cName]; generalize cVar b inner [] = A; simp
  show Ev _ _
  rw [e, lex_blank, lex_semi, lex_nil, ← List.append_assoc]
  exact this

/-- The hypotheses hold of nested types. -/
example : wordsOk (fun _ => t!"Foo") (.fptr (.mutPtr (.adt 0 [.int .u8])) [.constPtr (.mutPtr .void), .fptr .void [], .array 3 .bool]) = true ∧
    declOk (.fptr (.mutPtr (.adt 0 [.int .u8])) [.constPtr (.mutPtr .void), .fptr .void [], .array 3 .bool]) = true := by decide

example : var (fun _ => t!"Foo") .c (.fptr (.mutPtr (.adt 0 [.int .u8])) [.constPtr (.mutPtr .void), .fptr .void [], .array 3 .bool]) (t!"f") =
    t!"Foo_uint8_t * (*f)(void * const *, void (*)(void), bool_3_array_t)" := by
  rw [var, cVar_fptr, cVar_mutPtr, cVar_adt, short_adt, shorts_cons, short_int, shorts_nil, cArgs_cons, cVar_constPtr, cVar_mutPtr,
    cVar_void, cArgsTail_cons, cVar_fptr, cVar_void, cArgs_nil, cArgsTail_cons, cVar_array, short_array, short_bool, cArgsTail_nil]
  decide

/-- C44 in full fails: a pointer to a function pointer is not written as a C declaration. -/
theorem C44_fails_ptr_to_fptr (b : Nat → Text) (n : Option Text) (ty : CT) :
    ¬ Declares (var b .c (.mutPtr (.fptr (.int .i32) [])) (t!"p")) n ty := by
  have e : var b .c (.mutPtr (.fptr (.int .i32) [])) (t!"p") = t!"int32_t (*)(void) * p" := by
    rw [var, cVar_mutPtr, cVar_fptr, cVar_int, cArgs_nil]; decide
  rw [e]
  have hl : lex (t!"int32_t (*)(void) * p") = [.id (t!"int32_t"), .lp, .star, .rp, .lp, .id kvoid, .rp, .star, .id (t!"p")] := by decide
  intro h
  have : Declares (t!"int32_t (*)(void) * p") none (.ptr (.fn (.name (t!"int32_t")) [])) [.star, .id (t!"p")] := by
    refine ⟨20, fun m hm => ?_⟩
    obtain ⟨d, rfl⟩ : ∃ d, m = d + 20 := ⟨m - 20, by omega⟩
    rw [hl]; rfl
  exact absurd (h.unique this).2.2 (by simp)

/-- C44 in full fails: nor is a function pointer that returns a function pointer. -/
theorem C44_fails_ret_fptr (b : Nat → Text) (n : Option Text) (ty : CT) (r : List Tok) :
    ¬ Declares (var b .c (.fptr (.fptr (.int .i32) []) []) (t!"f")) n ty r := by
  have e : var b .c (.fptr (.fptr (.int .i32) []) []) (t!"f") = t!"int32_t (*)(void) (*f)(void)" := by
    rw [var, cVar_fptr, cVar_fptr, cVar_int, cArgs_nil]; decide
  have hl : lex (t!"int32_t (*)(void) (*f)(void)") =
      [.id (t!"int32_t"), .lp, .star, .rp, .lp, .id kvoid, .rp, .lp, .star, .id (t!"f"), .rp, .lp, .id kvoid, .rp] := by decide
  rw [e]
  rintro ⟨k, hk⟩
  rw [hl] at hk
  have h1 := hk (k + 20) (by omega)
  have h2 : declaration (k + 20)
      [.id (t!"int32_t"), .lp, .star, .rp, .lp, .id kvoid, .rp, .lp, .star, .id (t!"f"), .rp, .lp, .id kvoid, .rp] = none := rfl
  rw [h2] at h1
  cases h1

/-- C44 in full fails: the typedef of an alias of a function pointer is not a C declaration. -/
theorem C44_fails_alias_fptr (b : Nat → Text) (docs : List Text) (n : Option Text) (ty : CT) :
    aliasLine b (.alias (t!"cb") docs (.fptr (.int .i32) [])) (.fptr (.int .i32) []) = t!"typedef " ++ t!"int32_t (*)(void) cb_t;" ∧
    ¬ Declares (t!"int32_t (*)(void) cb_t;") n ty [.semi] := by
  refine ⟨by simp only [aliasLine, cName, cVar_fptr, cVar_int, cVar_alias, cArgs_nil]; decide, fun h => ?_⟩
  have hl : lex (t!"int32_t (*)(void) cb_t;") =
      [.id (t!"int32_t"), .lp, .star, .rp, .lp, .id kvoid, .rp, .id (t!"cb_t"), .semi] := by decide
  have : Declares (t!"int32_t (*)(void) cb_t;") none (.ptr (.fn (.name (t!"int32_t")) [])) [.id (t!"cb_t"), .semi] := by
    refine ⟨20, fun m hm => ?_⟩
    obtain ⟨d, rfl⟩ : ∃ d, m = d + 20 := ⟨m - 20, by omega⟩
    rw [hl]; rfl
  exact absurd (h.unique this).2.2 (by simp)

/-- C44 in full fails: in cffi headers, a variable whose type is an alias of a function pointer. -/
theorem C44_fails_python_alias (b : Nat → Text) (docs : List Text) (n : Option Text) (ty : CT) :
    ¬ Declares (var b .python (.alias (t!"cb") docs (.fptr (.int .i32) [])) (t!"f")) n ty := by
  have e : var b .python (.alias (t!"cb") docs (.fptr (.int .i32) [])) (t!"f") = t!"int32_t (*)(void) f" := by
    have : var b .python (.alias (t!"cb") docs (.fptr (.int .i32) [])) (t!"f") =
        cVar b (.fptr (.int .i32) []) [] ++ sep (t!"f") ++ t!"f" := rfl
    rw [this, cVar_fptr, cVar_int, cArgs_nil]; decide
  have hl : lex (t!"int32_t (*)(void) f") = [.id (t!"int32_t"), .lp, .star, .rp, .lp, .id kvoid, .rp, .id (t!"f")] := by decide
  rw [e]
  intro h
  have : Declares (t!"int32_t (*)(void) f") none (.ptr (.fn (.name (t!"int32_t")) [])) [.id (t!"f")] := by
    refine ⟨20, fun m hm => ?_⟩
    obtain ⟨d, rfl⟩ : ∃ d, m = d + 20 := ⟨m - 20, by omega⟩
    rw [hl]; rfl
  exact absurd (h.unique this).2.2 (by simp)

/-- C44 in full fails: a function pointer with one `()` parameter is declared without parameters. -/
theorem C44_fails_unit_param (b : Nat → Text) :
    Declares (var b .c (.fptr (.int .i32) [.void]) (t!"f")) (some (t!"f")) (.ptr (.fn (.name (t!"int32_t")) [])) ∧
    ctype b (.fptr (.int .i32) [.void]) ≠ .ptr (.fn (.name (t!"int32_t")) []) := by
  have e : var b .c (.fptr (.int .i32) [.void]) (t!"f") = t!"int32_t (*f)(void)" := by
    rw [var, cVar_fptr, cVar_int, cArgs_cons, cVar_void, cArgsTail_nil]; decide
  have hl : lex (t!"int32_t (*f)(void)") = [.id (t!"int32_t"), .lp, .star, .id (t!"f"), .rp, .lp, .id kvoid, .rp] := by decide
  refine ⟨⟨20, fun m hm => ?_⟩, fun h => ?_⟩
  · obtain ⟨d, rfl⟩ : ∃ d, m = d + 20 := ⟨m - 20, by omega⟩
    rw [e, hl]; rfl
  · rw [ctype_fptr, ctypes_cons] at h
    injection h with h
    injection h with _ h
    cases h

end Verif.Headers
