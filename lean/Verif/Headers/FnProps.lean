import Verif.Headers.DeclProps
import Verif.Headers.DocsLemmas
/-!
# C49: function prototypes

C and cffi prototypes are read with the C declarator grammar (CDecl.lean). For C#, `csParams` below
reads a parameter list.
-/
namespace Verif.Headers
open Text

/-! ### Lemmas -/

theorem lex_all_ws (a : Text) {w : Text} (h : ∀ c ∈ w, isWs c = true) : lex (a ++ w) = lex a := by
  cases w with
  | nil => simp
  | cons c cs =>
    have hc := h c (by simp)
    rw [lex_sep a cs (isWs_not_word hc), punct_ws hc, List.nil_append]
    have : ∀ l : Text, (∀ c ∈ l, isWs c = true) → lex l = [] := by
      intro l hl
      induction l with
      | nil => rfl
      | cons x xs ih => rw [lex_ws_cons xs (hl x (by simp))]; exact ih fun c hc => hl c (by simp [hc])
    rw [this cs fun c hc => h c (by simp [hc]), List.append_nil]

theorem trimEnd_split (s : Text) : ∃ w, s = trimEnd s ++ w ∧ ∀ c ∈ w, isWs c = true := by
  refine ⟨(s.reverse.takeWhile isWs).reverse, ?_, ?_⟩
  · have := List.takeWhile_append_dropWhile (p := isWs) (l := s.reverse)
    have := congrArg List.reverse this
    rw [List.reverse_append, List.reverse_reverse] at this
    exact this.symm
  · intro c hc
    have := List.mem_reverse.1 hc
    exact List.all_eq_true.1 List.all_takeWhile c this

theorem lex_trimEnd (s : Text) : lex (trimEnd s) = lex s := by
  obtain ⟨w, h1, h2⟩ := trimEnd_split s
  conv => rhs; rw [h1]
  rw [lex_all_ws _ h2]

theorem mem_split {c : Char} {s : Text} (h : c ∈ s) : ∃ a b, s = a ++ c :: b ∧ c ∉ a := by
  induction s with
  | nil => cases h
  | cons x xs ih =>
    by_cases hx : x = c
    · exact ⟨[], xs, by simp [hx], by simp⟩
    · rcases List.mem_cons.1 h with h | h
      · exact absurd h.symm hx
      · obtain ⟨a, b, e, hn⟩ := ih h
        exact ⟨x :: a, b, by rw [e]; rfl, by simp [hn, Ne.symm hx]⟩

/-- Lines without trailing white space have the same tokens. -/
theorem lex_lines (s : Text) : lex ((split '\n' s).flatMap fun p => trimEnd p ++ ['\n']) = lex s := by
  have key : ∀ n s, s.length = n → lex ((split '\n' s).flatMap fun p => trimEnd p ++ ['\n']) = lex s := by
    intro n
    induction n using Nat.strongRecOn with
    | _ n ih =>
      intro s hs
      by_cases h : '\n' ∈ s
      · obtain ⟨a, b, e, hn⟩ := mem_split h
        subst e
        rw [split_append hn, List.flatMap_cons, List.append_assoc, List.singleton_append, lex_newline, lex_newline, lex_trimEnd,
          ih b.length (by rw [← hs]; simp; omega) b rfl]
      · rw [split_of_not_mem h]
        simp only [List.flatMap_cons, List.flatMap_nil, List.append_nil]
        rw [lex_newline, lex_trimEnd, lex_nil, List.append_nil]
  exact key _ s rfl

theorem lex_outLine (l : Text) : lex (flat (outLines 0 [l])) = lex l := by
  rw [flat_outLines]
  simp only [List.flatMap_cons, List.flatMap_nil, List.append_nil]
  rw [lex_lines]
  rfl

theorem sigArgs_nil (b : Nat → Text) (lang : Lang) : sigArgs b lang true [] = t!"void" := rfl
theorem sigArgs_done (b : Nat → Text) (lang : Lang) : sigArgs b lang false [] = [] := rfl
theorem sigArgs_cons (b : Nat → Text) (lang : Lang) (first : Bool) (a : Arg) (as : List Arg) :
    sigArgs b lang first (a :: as) =
      (if first then [] else t!",") ++ (nl ++ indent 1 ++ var b lang a.ty a.name) ++ sigArgs b lang false as := by
  cases first <;> rfl

theorem lex_nl_indent (x : Text) : lex (nl ++ indent 1 ++ x) = lex x := by
  have : nl ++ indent 1 ++ x = '\n' :: ' ' :: ' ' :: ' ' :: ' ' :: x := rfl
  rw [this, lex_ws_cons _ (by decide), lex_ws_cons _ (by decide), lex_ws_cons _ (by decide), lex_ws_cons _ (by decide),
    lex_ws_cons _ (by decide)]

/-- The parameter: its name, its type. -/
def param (b : Nat → Text) (lang : Lang) (a : Arg) : Option Text × CT := (some a.name, ctype b (intended lang a.ty))

/-- A parameter whose declaration is proved right (C44), other than of type `()`. -/
def argFine (b : Nat → Text) (lang : Lang) (a : Arg) : Bool :=
  declFine b lang a.ty && !isVoid (intended lang a.ty) && decide (IsWord a.name) && decide (a.name ≠ kconst)

theorem lex_sigTail (b : Nat → Text) (lang : Lang) (a : Arg) (as : List Arg) :
    lex (var b lang a.ty a.name ++ sigArgs b lang false as) =
      lex (var b lang a.ty a.name) ++ as.flatMap fun a => .comma :: lex (var b lang a.ty a.name) := by
  induction as generalizing a with
  | nil => rw [sigArgs_done]; simp
  | cons c cs ih =>
    rw [sigArgs_cons]
    have e : var b lang a.ty a.name ++ ((if false = true then [] else t!",") ++ (nl ++ indent 1 ++ var b lang c.ty c.name) ++ sigArgs b lang false cs) =
        var b lang a.ty a.name ++ ',' :: (nl ++ indent 1 ++ (var b lang c.ty c.name ++ sigArgs b lang false cs)) := by simp
    rw [e, lex_comma, lex_nl_indent, ih, List.flatMap_cons]
    simp

theorem param_reads {b : Nat → Text} {lang : Lang} {a : Arg} (h : argFine b lang a = true) :
    (∀ r, OkRest r → Ev (declaration · (lex (var b lang a.ty a.name) ++ r)) (some a.name, ctype b (intended lang a.ty), r)) ∧
    ctype b (intended lang a.ty) ≠ .name kvoid := by
  simp only [argFine, Bool.and_eq_true, decide_eq_true_eq] at h
  obtain ⟨⟨⟨h1, h2⟩, h3⟩, h4⟩ := h
  exact ⟨fun r hr => declares_lang b h1 (v := a.name) (by rw [lex_word h3]; exact Direct.id h4) hr,
    ctype_ne_void b (by simpa using h2)⟩

theorem params_sig (b : Nat → Text) (lang : Lang) (a : Arg) (as : List Arg) (h : ∀ x ∈ a :: as, argFine b lang x = true) :
    Params (lex (var b lang a.ty a.name) ++ as.flatMap fun a => .comma :: lex (var b lang a.ty a.name))
      ((a :: as).map (param b lang)) := by
  obtain ⟨hx, hv⟩ := param_reads (h a (by simp))
  induction as generalizing a with
  | nil => rw [List.flatMap_nil, List.append_nil]; exact Params.one hv hx
  | cons c cs ih =>
    obtain ⟨gx, gv⟩ := param_reads (h c (by simp))
    exact Params.cons hv hx (ih c (fun x hx => h x (List.mem_cons_of_mem _ hx)) gx gv)

theorem parens_sig (b : Nat → Text) (lang : Lang) (args : List Arg) (h : ∀ x ∈ args, argFine b lang x = true) :
    Parens (lex (sigArgs b lang true args)) (args.map (param b lang)) := by
  cases args with
  | nil => exact Parens.void
  | cons a as =>
    have e : lex (sigArgs b lang true (a :: as)) = lex (var b lang a.ty a.name) ++ as.flatMap fun a => .comma :: lex (var b lang a.ty a.name) := by
      rw [sigArgs_cons, ← lex_sigTail]
      have : (if true = true then [] else t!",") ++ (nl ++ indent 1 ++ var b lang a.ty a.name) ++ sigArgs b lang false as =
          nl ++ indent 1 ++ (var b lang a.ty a.name ++ sigArgs b lang false as) := by simp
      rw [this, lex_nl_indent]
    rw [e]
    exact (params_sig b lang a as h).parens

theorem lex_sig (b : Nat → Text) (lang : Lang) {fname : Text} (hf : IsWord fname) (args : List Arg) :
    lex (sig b lang fname args) = .id fname :: .lp :: lex (sigArgs b lang true args) ++ [.rp] := by
  have e : sig b lang fname args = '\n' :: (fname ++ ' ' :: ([] ++ '(' :: (sigArgs b lang true args ++ ')' :: []))) := by
    simp [sig, indent]
  rw [e, lex_ws_cons _ (by decide), lex_blank, lex_lp, lex_rp, lex_word hf, lex_nil]
  simp

/-! ### C49 -/

/-- C49, C and cffi headers: after its documentation, a function is written as a prototype which,
read with the C grammar, declares this name with this return type and exactly these parameters, in
order (so `(void)` without parameters, and only then: see `C49_void`). For the types whose
declarations are proved right (C44) and no parameter of type `()`. -/
theorem C49_c_partial (b : Nat → Text) (lang : Lang) (docs : List Text) (fname : Text) (args : List Arg) (ret : CTy)
    (hf : IsWord fname) (hf' : fname ≠ kconst) (hret : declFine b lang ret = true)
    (hargs : ∀ a ∈ args, argFine b lang a = true) :
    ∃ proto, flat (emitFunction b lang docs fname args ret) = flat (emitDocs lang 0 docs) ++ proto ++ ['\n'] ∧
      Declares proto (some fname)
        (.fn (ctype b (intended lang ret)) (args.map fun a => (some a.name, ctype b (intended lang a.ty)))) [.semi] := by
  have hl : lang ≠ .csharp := by rintro rfl; cases hret
  refine ⟨flat (outLines 0 [var b lang ret (sig b lang fname args) ++ t!";"]), ?_, ?_⟩
  · cases lang with
    | csharp => exact absurd rfl hl
    | c => simp [emitFunction, flat]
    | python => simp [emitFunction, flat]
  · show Ev _ _
    have hd := Direct.fn hf' (parens_sig b lang args hargs)
    rw [← lex_sig b lang hf args] at hd
    have := declares_lang b hret hd (r := [.semi]) trivial
    rw [lex_outLine]
    have e : var b lang ret (sig b lang fname args) ++ t!";" = var b lang ret (sig b lang fname args) ++ ';' :: [] := rfl
    rw [e, lex_semi, lex_nil]
    exact this

/-- C49: the parameter list is `(void)` if and only if the function has no parameter. -/
theorem C49_void (b : Nat → Text) (lang : Lang) (fname : Text) (args : List Arg) (hf : IsWord fname)
    (hargs : ∀ a ∈ args, argFine b lang a = true) :
    lex (sig b lang fname args) = [.id fname, .lp, .id kvoid, .rp] ↔ args = [] := by
  rw [lex_sig b lang hf]
  constructor
  · intro e
    have e1 : lex (sigArgs b lang true args) = [.id kvoid] := by
      have : lex (sigArgs b lang true args) ++ [Tok.rp] = [.id kvoid] ++ [.rp] := by simpa using e
      exact List.append_cancel_right this
    cases args with
    | nil => rfl
    | cons a as =>
      exfalso
      have h1 := parens_sig b lang (a :: as) hargs [] trivial
      have h2 := Parens.void [] trivial
      rw [e1] at h1
      have h3 := h1.unique h2
      have h4 := congrArg (fun p => p.1 (.name [])) h3
      simp at h4
  · rintro rfl
    rfl

/-- The hypotheses hold of a function that returns a function pointer and takes arrays and pointers. -/
example : declFine (fun _ => t!"Foo") .c (.fptr .void [.int .u8]) = true ∧
    ∀ a ∈ [Arg.mk t!"x" (.constPtr (.adt 0 [])), ⟨t!"y", .array 4 .cchar⟩], argFine (fun _ => t!"Foo") .c a = true := by decide

example : flat (emitFunction (fun _ => t!"Foo") .c [t!"Hi"] t!"f" [⟨t!"x", .constPtr (.adt 0 [])⟩, ⟨t!"y", .bool⟩] (.int .u8)) =
    t!"/** \\brief\n *  Hi\n */\nuint8_t\nf (\n    Foo_t const * x,\n    bool y);\n\n" := by decide

/-- C49 in full fails: a parameter of type `()` makes the prototype ill-formed. -/
theorem C49_fails_unit (b : Nat → Text) (n : Option Text) (ty : CT) (r : List Tok) :
    ¬ Declares (flat (outLines 0 [var b .c (.int .u8) (sig b .c t!"f" [⟨t!"x", .void⟩]) ++ t!";"])) n ty r := by
  have hl : lex (flat (outLines 0 [var b .c (.int .u8) (sig b .c t!"f" [⟨t!"x", .void⟩]) ++ t!";"])) =
      [.id t!"uint8_t", .id t!"f", .lp, .id kvoid, .id t!"x", .rp, .semi] := by
    rw [lex_outLine]
    have : var b .c (.int .u8) (sig b .c t!"f" [⟨t!"x", .void⟩]) ++ t!";" = t!"uint8_t \nf (\n    void x);" := rfl
    rw [this]
    decide
  rintro ⟨k, hk⟩
  rw [hl] at hk
  have h1 := hk (k + 20) (by omega)
  have h2 : declaration (k + 20) [.id t!"uint8_t", .id t!"f", .lp, .id kvoid, .id t!"x", .rp, .semi] = none := rfl
  rw [h2] at h1
  cases h1

/-! ### C# -/

/-- Specification: reads one parameter of a C# method: an attribute on its own line or not, then the
type and the name, separated by the last space. -/
def csParam (piece : Text) : Option (Option Text × Text × Text) :=
  match (split '\n' piece).map trim with
  | [[], l] => (rsplitOnce ' ' l).map fun (ty, n) => (none, ty, n)
  | [[], attr, l] => (rsplitOnce ' ' l).map fun (ty, n) => (some attr, ty, n)
  | _ => none

/-- Specification: reads the text between the parentheses of a C# method. -/
def csParams (text : Text) : Option (List (Option Text × Text × Text)) :=
  if text = [] then some [] else (split ',' text).mapM csParam

/-- The names of declared types in the C# name of a type are identifiers. -/
def csWords (b : Nat → Text) : CTy → Bool
  | .constPtr x => csWords b x
  | .mutPtr x => csWords b x
  | .alias _ _ inner => csWords b inner
  | ty => wordsOk b ty

/-- Starts with a word character, contains no comma and no newline. -/
def CsType (s : Text) : Prop := (∃ c cs, s = c :: cs ∧ isWordChar c = true) ∧ ',' ∉ s ∧ '\n' ∉ s

theorem IsWord.csType {s : Text} (h : IsWord s) : CsType s := by
  refine ⟨?_, fun hc => ?_, fun hc => ?_⟩
  · cases s with
    | nil => exact absurd rfl h.1
    | cons c cs => exact ⟨c, cs, rfl, h.2 c (by simp)⟩
  · exact absurd (h.2 _ hc) (by decide)
  · exact absurd (h.2 _ hc) (by decide)

theorem CsType.append {s x : Text} (h : CsType s) (h1 : ',' ∉ x) (h2 : '\n' ∉ x) : CsType (s ++ x) := by
  obtain ⟨⟨c, cs, e, hc⟩, h3, h4⟩ := h
  exact ⟨⟨c, cs ++ x, by rw [e]; rfl, hc⟩, by simp [h3, h1], by simp [h4, h2]⟩

theorem csName_type (b : Nat → Text) (ty : CTy) (h : csWords b ty = true) : CsType (csName b ty) := by
  match ty, h with
  | .int k, _ => exact IsWord.csType (s := k.cs) (by cases k <;> decide)
  | .float, _ => exact IsWord.csType (s := t!"float") (by decide)
  | .double, _ => exact IsWord.csType (s := t!"double") (by decide)
  | .bool, _ => exact IsWord.csType (s := t!"bool") (by decide)
  | .cint, _ => exact IsWord.csType (s := t!"int") (by decide)
  | .cchar, _ => exact IsWord.csType (s := t!"byte") (by decide)
  | .void, _ => exact IsWord.csType (s := t!"void") (by decide)
  | .array n item, h =>
    have : csName b (.array n item) = short b (.array n item) ++ t!"_t" := by
      show cVar b (.array n item) [] = _
      rw [cVar_array]; simp [sep]
    rw [this]
    exact ((short_word b _ h).append t_word).csType
  | .fptr ret args, h => exact (short_word b (.fptr ret args) h).csType
  | .constPtr x, h => exact (csName_type b x h).append (x := t!" /*const*/ *") (by decide) (by decide)
  | .mutPtr x, h => exact (csName_type b x h).append (x := t!" *") (by decide) (by decide)
  | .alias _ _ inner, h => exact csName_type b inner h
  | .adt i g, h => exact ((short_word b (.adt i g) h).append t_word).csType

/-- One parameter, without the comma. -/
def csPiece (b : Nat → Text) (a : Arg) : Text :=
  nl ++ flat (attrLines 2 a.ty) ++ (indent 2 ++ csName b a.ty ++ t!" " ++ a.name)

theorem flat_csArgs_false (b : Nat → Text) (as : List Arg) :
    flat (csArgs b false as) = as.flatMap fun a => ',' :: csPiece b a := by
  induction as with
  | nil => rfl
  | cons a as ih =>
    rw [List.flatMap_cons, ← ih, csArgs, csPiece]
    simp [flat]

theorem flat_csArgs_true (b : Nat → Text) (a : Arg) (as : List Arg) :
    flat (csArgs b true (a :: as)) = csPiece b a ++ as.flatMap fun a => ',' :: csPiece b a := by
  rw [← flat_csArgs_false, csArgs, csPiece]
  simp [flat]

theorem csMarshaler_cases (ty : CTy) : csMarshaler ty = none ∨ csMarshaler ty = some t!"UnmanagedType.FunctionPtr" ∨
    csMarshaler ty = some t!"UnmanagedType.U1" ∨ csMarshaler ty = some t!"UnmanagedType.SysInt" := by
  cases ty <;> simp [csMarshaler]

theorem trim_word_ends {l : Text} (h1 : ∀ c, l.head? = some c → isWs c = false) (h2 : ∀ c, l.getLast? = some c → isWs c = false) :
    trim (indent 2 ++ l) = l := by
  have h : trimStart (indent 2 ++ l) = l := by
    cases l with
    | nil => rfl
    | cons c cs =>
      have hc := h1 c rfl
      simp [trimStart, indent, List.replicate, isWs_sp, hc]
  rw [trim, h, trimEnd_eq h2]

theorem csPiece_line (b : Nat → Text) {a : Arg} (hw : csWords b a.ty = true) (hn : IsWord a.name) :
    trim (indent 2 ++ csName b a.ty ++ t!" " ++ a.name) = csName b a.ty ++ ' ' :: a.name := by
  have e : indent 2 ++ csName b a.ty ++ t!" " ++ a.name = indent 2 ++ (csName b a.ty ++ ' ' :: a.name) := by simp
  rw [e]
  obtain ⟨⟨c, cs, he, hc⟩, _, _⟩ := csName_type b a.ty hw
  apply trim_word_ends
  · intro x hx
    rw [he] at hx
    simp at hx
    subst hx
    cases h : isWs c with
    | false => rfl
    | true => rw [isWs_not_word h] at hc; cases hc
  · intro x hx
    have hm : x ∈ a.name := by
      have e2 : csName b a.ty ++ ' ' :: a.name = (csName b a.ty ++ [' ']) ++ a.name := by simp
      rw [e2, List.getLast?_append, List.getLast?_eq_some_getLast hn.1, Option.some_or, Option.some.injEq] at hx
      exact hx ▸ List.getLast_mem hn.1
    cases h : isWs x with
    | false => rfl
    | true => have := hn.2 x hm; rw [isWs_not_word h] at this; cases this

theorem csParam_piece (b : Nat → Text) {a : Arg} (hw : csWords b a.ty = true) (hn : IsWord a.name) :
    csParam (csPiece b a) = some ((csMarshaler a.ty).map marshalAs, csName b a.ty, a.name) := by
  have hns : ' ' ∉ a.name := fun h => absurd (hn.2 _ h) (by decide)
  have hnn : '\n' ∉ a.name := fun h => absurd (hn.2 _ h) (by decide)
  have hline := csPiece_line b hw hn
  have hnl : '\n' ∉ indent 2 ++ csName b a.ty ++ t!" " ++ a.name := by
    have := (csName_type b a.ty hw).2.2
    have h2 : '\n' ∉ indent 2 := nl_notMem_indent 2
    simp only [List.mem_append, not_or]
    exact ⟨⟨⟨h2, this⟩, by decide⟩, hnn⟩
  generalize hL : indent 2 ++ csName b a.ty ++ t!" " ++ a.name = L at hline hnl
  have hr : rsplitOnce ' ' (trim L) = some (csName b a.ty, a.name) := by rw [hline]; exact rsplitOnce_append hns
  have key : ∀ m, '\n' ∉ indent 2 ++ marshalAs m → trimEnd (indent 2 ++ marshalAs m) = indent 2 ++ marshalAs m →
      trim (indent 2 ++ marshalAs m) = marshalAs m → csMarshaler a.ty = some m →
      csParam (csPiece b a) = some (some (marshalAs m), csName b a.ty, a.name) := by
    intro m h1 h2 h3 h4
    have e : csPiece b a = [] ++ '\n' :: (indent 2 ++ marshalAs m ++ '\n' :: L) := by
      have : flat (outLines 2 [marshalAs m]) = indent 2 ++ marshalAs m ++ ['\n'] := by
        rw [flat_outLine 2 (fun h => h1 (List.mem_append_right _ h)), h2]
      have ha : attrLines 2 a.ty = outLines 2 [marshalAs m] := by rw [attrLines, h4]
      rw [csPiece, hL, ha, this]
      simp
    rw [e, csParam, split_append (by simp), split_append h1, split_of_not_mem hnl]
    simp only [List.map_cons, List.map_nil]
    rw [h3]
    have : trim [] = [] := rfl
    rw [this]
    simp [hr]
  rcases csMarshaler_cases a.ty with h | h | h | h
  · have e : csPiece b a = [] ++ '\n' :: L := by
      have ha : attrLines 2 a.ty = [] := by rw [attrLines, h]
      rw [csPiece, ha, hL]; simp [flat]
    rw [e, csParam, split_append (by simp), split_of_not_mem hnl, h]
    simp only [List.map_cons, List.map_nil]
    have : trim [] = [] := rfl
    rw [this]
    simp [hr]
  · rw [key _ (by decide) (by decide) (by decide) h, h]; rfl
  · rw [key _ (by decide) (by decide) (by decide) h, h]; rfl
  · rw [key _ (by decide) (by decide) (by decide) h, h]; rfl

theorem csPiece_comma (b : Nat → Text) {a : Arg} (hw : csWords b a.ty = true) (hn : IsWord a.name) : ',' ∉ csPiece b a := by
  have h1 : ',' ∉ a.name := fun h => absurd (hn.2 _ h) (by decide)
  have h2 := (csName_type b a.ty hw).2.1
  have h3 : ',' ∉ flat (attrLines 2 a.ty) := by
    rcases csMarshaler_cases a.ty with h | h | h | h <;> rw [attrLines, h] <;> decide
  simp only [csPiece, List.mem_append, not_or]
  exact ⟨⟨by decide, h3⟩, ⟨⟨by decide, h2⟩, by decide⟩, h1⟩

theorem csParams_pieces (b : Nat → Text) (a : Arg) (as : List Arg) (h : ∀ x ∈ a :: as, csWords b x.ty = true ∧ IsWord x.name) :
    (split ',' (csPiece b a ++ as.flatMap fun a => ',' :: csPiece b a)).mapM csParam =
      some ((a :: as).map fun a => ((csMarshaler a.ty).map marshalAs, csName b a.ty, a.name)) := by
  induction as generalizing a with
  | nil =>
    obtain ⟨h1, h2⟩ := h a (by simp)
    rw [List.flatMap_nil, List.append_nil, split_of_not_mem (csPiece_comma b h1 h2)]
    simp [csParam_piece b h1 h2]
  | cons c cs ih =>
    obtain ⟨h1, h2⟩ := h a (by simp)
    have ih := ih c fun x hx => h x (List.mem_cons_of_mem _ hx)
    rw [List.flatMap_cons, List.cons_append, split_append (csPiece_comma b h1 h2), List.mapM_cons, ih, csParam_piece b h1 h2]
    rfl

/-- Specification: the attribute of the returned value, on a line of its own. -/
def csReturn : Option Text → Text
  | some m => t!"    [return: MarshalAs(" ++ m ++ t!")]\n"
  | none => []

theorem flat_returnLines (ret : CTy) : flat (returnLines ret) = csReturn (csMarshaler ret) := by
  rcases csMarshaler_cases ret with h | h | h | h <;> rw [returnLines, h] <;> decide

/-- C49, C#: a function is written as a method of this return type and name, whose parameter list,
read back, is exactly the parameters in order: their names, types and marshaling attributes. The
attribute of the returned value stands in front of the method's. -/
theorem C49_csharp (b : Nat → Text) (docs : List Text) (fname : Text) (args : List Arg) (ret : CTy)
    (h : ∀ a ∈ args, csWords b a.ty = true ∧ IsWord a.name) :
    ∃ params, flat (emitFunction b .csharp docs fname args ret) =
        t!"public unsafe partial class Ffi {\n" ++ flat (emitDocs .csharp 1 docs) ++ csReturn (csMarshaler ret) ++
          t!"    [DllImport(RustLib, ExactSpelling = true)] public static unsafe extern\n    " ++
          csName b ret ++ t!" " ++ fname ++ t!" (" ++ params ++ t!");\n}\n\n" ∧
      csParams params = some (args.map fun a => ((csMarshaler a.ty).map marshalAs, csName b a.ty, a.name)) := by
  refine ⟨flat (csArgs b true args), ?_, ?_⟩
  · have e : flat (outLines 0 [t!"}"]) = t!"}\n" := by decide
    have e1 : flat (outLines 0 [t!"public unsafe partial class Ffi {"]) = t!"public unsafe partial class Ffi {\n" := by decide
    have e2 : flat (outLines 1 [t!"[DllImport(RustLib, ExactSpelling = true)] public static unsafe extern"]) =
        t!"    [DllImport(RustLib, ExactSpelling = true)] public static unsafe extern\n" := by decide
    rw [emitFunction]
    simp only [flat_append]
    rw [e, e1, e2, flat_returnLines, emitDocs]
    simp [flat, indent, List.replicate]
  · cases args with
    | nil => rfl
    | cons a as =>
      rw [flat_csArgs_true, csParams, if_neg (by simp [csPiece]), csParams_pieces b a as h]

/-- The hypotheses hold, and three parameters are read back. -/
example : (∀ a ∈ [Arg.mk t!"x" (.constPtr (.adt 0 [])), ⟨t!"y", .bool⟩, ⟨t!"z", .int .u8⟩],
      csWords (fun _ => t!"Foo") a.ty = true ∧ IsWord a.name) ∧
    csParams t!"\n        Foo_t /*const*/ * x,\n        [MarshalAs(UnmanagedType.U1)]\n        bool y,\n        byte z" =
      some [(none, t!"Foo_t /*const*/ *", t!"x"), (some t!"[MarshalAs(UnmanagedType.U1)]", t!"bool", t!"y"), (none, t!"byte", t!"z")] := by
  decide

end Verif.Headers
