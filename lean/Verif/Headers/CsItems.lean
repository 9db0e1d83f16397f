import Verif.Headers.CsRead
/-! # Every item of a C# header is read as its declarations -/
namespace Verif.Headers.Cs
open Text

variable {eval : List Text → Text → Bool} {D : List Text}

/-! ### The declarations -/

/-- The attributes of a field or parameter. -/
def attrs : CTy → List Attr
  | .fptr _ _ => [marshal t!"FunctionPtr"]
  | .bool => [marshal t!"U1"]
  | .cint => [marshal t!"SysInt"]
  | _ => []

/-- The attributes of a returned value. -/
def retAttrs (t : CTy) : List Attr := (attrs t).map fun a => .id t!"return" :: .bad ':' :: a

/-- A field or parameter. -/
def var (b : Nat → Text) (n : Text) (t : CTy) : Var := ⟨attrs t, ty b t, n⟩

def dllImport : Attr := [.id t!"DllImport", .lp, .id t!"RustLib", .comma, .id t!"ExactSpelling", .bad '=', .id t!"true", .rp]
def winapiAttr : Attr := [.id t!"UnmanagedFunctionPointer", .lp, .id t!"CallingConvention", .bad '.', .id t!"Winapi", .rp]

def kFfi : Text := t!"Ffi"
def ffiMods : List Text := [kPublic, kUnsafe, kPartial]
def typeMods : List Text := [kPublic, kUnsafe]
def methodMods : List Text := [kPublic, kStatic, kUnsafe, kExtern]

/-- The members of a struct. -/
def fieldMembers (b : Nat → Text) (fs : List Field) : List Member := (kept fs).map fun f => .field [kPublic] (var b f.name f.ty)

/-- The members of an array. -/
def arrayMembers (b : Nat → Text) (n : Nat) (item : CTy) : List Member :=
  if isFixed item then [.fixed [kPublic] (ty b item) t!"arr" (nat n)]
  else (List.range n).map fun i => .field [kPublic] (var b (t!"_" ++ nat i) item)

/-- The parameters of a delegate; `i` numbers them. -/
def delegateParams (b : Nat → Text) : Nat → List CTy → List Var
  | _, [] => []
  | i, a :: as => var b (t!"_" ++ nat i) a :: delegateParams b (i + 1) as

/-- Of a declared type with this name. -/
def declDecl (b : Nat → Text) (n : Text) : Verif.Headers.Decl → Decl
  | .struct _ size fs => .struct [sequential size] typeMods n (fieldMembers b fs)
  | .enum _ int vs => .enum [kPublic] n (int.map fun k => csName b (.int k)) (vs.map (·.name))
  | .opaque _ => .struct [] [kPublic] n [.field [kPrivate] ⟨[], .name t!"byte", t!"OPAQUE"⟩]

/-- Of a type. -/
def typeDecls (P : Prog) : CTy → List Decl
  | .adt i g => [declDecl P.base (csName P.base (.adt i g)) (P.decl i g)]
  | .array n item => [.struct [sequential (P.size (.array n item))] typeMods (csName P.base (.array n item)) (arrayMembers P.base n item)]
  | .fptr ret args => [.delegate (winapiAttr :: retAttrs ret) typeMods (ty P.base ret) (csName P.base (.fptr ret args)) (delegateParams P.base 0 args)]
  | _ => []

/-- Of an item. -/
def csDecls (P : Prog) : Item → List Decl
  | .type _ t => typeDecls P t
  | .func _ f => [.cls ffiMods kFfi [.method (retAttrs f.ret ++ [dllImport]) methodMods (ty P.base f.ret) f.name (f.args.map fun a => var P.base a.name a.ty)]]
  | .const _ c => if c.untyped then [] else [.cls ffiMods kFfi [.const [kPublic] (ty P.base c.ty) c.name (lex c.value)]]
  | _ => []

/-! ### Names of types -/

theorem t_starts (x : Text) : x ++ t!"_t" ∉ starts := by
  intro h
  have : ∀ w ∈ starts, ¬ t!"_t" <:+ w := by decide
  exact this _ h ⟨x, rfl⟩

theorem fptr_starts (x : Text) : x ++ t!"_fptr" ∉ starts := by
  intro h
  have : ∀ w ∈ starts, ¬ t!"_fptr" <:+ w := by decide
  exact this _ h ⟨x, rfl⟩

theorem ty_head (b : Nat → Text) (t : CTy) : (ty b t).head ∉ starts := by
  match t with
  | .int k => exact (by cases k <;> decide : k.cs ∉ starts)
  | .float => exact (by decide : t!"float" ∉ starts)
  | .double => exact (by decide : t!"double" ∉ starts)
  | .bool => exact (by decide : t!"bool" ∉ starts)
  | .cint => exact (by decide : t!"int" ∉ starts)
  | .cchar => exact (by decide : t!"byte" ∉ starts)
  | .void => exact (by decide : t!"void" ∉ starts)
  | .array n item => rw [ty_named rfl, Ty.head, csName_array]; exact t_starts _
  | .fptr ret args => rw [ty_named rfl, Ty.head, csName, short]; exact fptr_starts _
  | .adt i g => rw [ty_named rfl, Ty.head, csName]; exact t_starts _
  | .constPtr t => exact ty_head b t
  | .mutPtr t => exact ty_head b t
  | .alias _ _ t => exact ty_head b t

theorem nat_isWord (n : Nat) : IsWord (nat n) := ⟨nat_ne_nil n, nat_word n⟩

theorem attrs_ok (t : CTy) : ∀ a ∈ attrs t, Tok.rb ∉ a := by
  cases t <;> simp [attrs] <;> decide

theorem retAttrs_ok (t : CTy) : ∀ a ∈ retAttrs t, Tok.rb ∉ a := by
  cases t <;> simp [retAttrs, attrs] <;> decide

theorem var_ok (b : Nat → Text) (n : Text) (t : CTy) : (var b n t).ok := attrs_ok t

/-! ### Pieces in front of others -/

/-- A piece that a word can stand in front of. -/
def OPiece (s : Text) (ts : List Tok) : Prop :=
  ∃ s', (∀ rest, code .code (s ++ rest) = s' ++ code .code rest) ∧ '#' ∉ s' ∧ Lx s' ts ∧ Opens s' = true

theorem OPiece.piece {s : Text} {ts : List Tok} (h : OPiece s ts) : Piece s ts := by
  obtain ⟨s', h1, h2, h3, _⟩ := h
  exact ⟨s', h1, h2, h3⟩

theorem OPiece.lit {s : Text} {ts : List Tok} (h : Lx s ts) (hc : Clean s) (ho : Opens s = true) : OPiece s ts :=
  ⟨s, code_plain hc.slash, hc.hash, h, ho⟩

theorem OPiece.append {a b : Text} {x y : List Tok} (ha : OPiece a x) (hb : Piece b y) : OPiece (a ++ b) (x ++ y) := by
  obtain ⟨a', h1, h2, h3, h7⟩ := ha
  obtain ⟨b', h4, h5, h6⟩ := hb
  refine ⟨a' ++ b', fun rest => ?_, by simp [h2, h5], fun rest => ?_, ?_⟩
  · rw [List.append_assoc, h1, h4, List.append_assoc]
  · rw [List.append_assoc, h3, h6, List.append_assoc]
  · cases a' with
    | nil => cases h7
    | cons c a' => exact h7

theorem OPiece.cast {s : Text} {a b : List Tok} (h : OPiece s a) (e : a = b) : OPiece s b := e ▸ h
theorem OPiece.text {s s' : Text} {a : List Tok} (h : OPiece s a) (e : s = s') : OPiece s' a := e ▸ h

theorem Piece.before {w s : Text} {ts : List Tok} (hw : IsWord w) (h : OPiece s ts) : Piece (w ++ s) (.id w :: ts) := by
  obtain ⟨s', h1, h2, h3, h4⟩ := h
  refine ⟨w ++ s', fun rest => ?_, ?_, lx_word hw h4 h3⟩
  · rw [List.append_assoc, code_plain hw.clean.slash, h1, List.append_assoc]
  · simp [h2, hw.clean.hash]

/-- A type, a blank, a word, and more. -/
theorem Piece.varMore {b : Nat → Text} {t : CTy} {n s : Text} {ts : List Tok} (h : csWords b t = true) (hn : IsWord n) (hs : OPiece s ts) :
    Piece (csName b t ++ t!" " ++ n ++ s) ((Cs.ty b t).toks ++ .id n :: ts) := by
  have := (Piece.ty (b := b) (t := t) (s := t!" ") (ts := []) h rfl (fun _ => lex_ws_cons _ (by decide)) (by decide)).append (Piece.before hn hs)
  exact (this.text (by simp)).cast (by simp)

theorem Piece.flatMap {α : Type} {l : List α} {f : α → Text} {g : α → List Tok} (h : ∀ x ∈ l, Piece (f x) (g x)) : Piece (l.flatMap f) (l.flatMap g) := by
  induction l with
  | nil => exact .nil
  | cons x l ih => exact (h x (by simp)).append (ih fun x hx => h x (by simp [hx]))

theorem piece_indent (d : Nat) : Piece (indent d) [] := .lit (fun rest => by rw [lex_indent]; rfl) (clean_indent d)

/-- The text of lines without trailing white space. -/
theorem flat_line (d : Nat) {l : Text} (h : '\n' ∉ l) (hl : (l.getLast?.all fun c => !isWs c) = true) (hne : l ≠ []) :
    flat (outLines d [l]) = indent d ++ l ++ nl := flat_outLine_visible d h hl hne

theorem piece_attrLines (d : Nat) (t : CTy) : Piece (flat (attrLines d t)) (attrToks (attrs t)) := by
  have line : ∀ {l : Text} {ts : List Tok}, Lx (l ++ nl) ts → Clean (l ++ nl) → '\n' ∉ l → (l.getLast?.all fun c => !isWs c) = true → l ≠ [] →
      Piece (flat (outLines d [l])) ts := by
    intro l ts h1 h2 h3 h4 h5
    rw [flat_line d h3 h4 h5, List.append_assoc]
    exact (piece_indent d).append (.lit h1 h2)
  cases t with
  | fptr r a => exact line (fun _ => rfl) (by decide) (by decide) (by decide) (by decide)
  | bool => exact line (fun _ => rfl) (by decide) (by decide) (by decide) (by decide)
  | cint => exact line (fun _ => rfl) (by decide) (by decide) (by decide) (by decide)
  | _ => exact .nil

theorem tk_attrLines (d : Nat) (t : CTy) : Tk eval D (flat (attrLines d t)) (attrToks (attrs t)) := by
  cases t with
  | fptr r a => exact Piece.line (.lit (fun _ => rfl) (by decide)) (by decide) (by decide) (by decide)
  | bool => exact Piece.line (.lit (fun _ => rfl) (by decide)) (by decide) (by decide) (by decide)
  | cint => exact Piece.line (.lit (fun _ => rfl) (by decide)) (by decide) (by decide) (by decide)
  | _ => exact .nil

theorem tk_returnLines (t : CTy) : Tk eval D (flat (returnLines t)) (attrToks (retAttrs t)) := by
  cases t with
  | fptr r a => exact Piece.line (.lit (fun _ => rfl) (by decide)) (by decide) (by decide) (by decide)
  | bool => exact Piece.line (.lit (fun _ => rfl) (by decide)) (by decide) (by decide) (by decide)
  | cint => exact Piece.line (.lit (fun _ => rfl) (by decide)) (by decide) (by decide) (by decide)
  | _ => exact .nil

/-! ### Structs -/

theorem csName_nl {b : Nat → Text} {t : CTy} (h : csWords b t = true) : '\n' ∉ csName b t := (csName_type b t h).2.2

theorem word_nl {w : Text} (h : IsWord w) : '\n' ∉ w := h.not_mem (by decide)

theorem tk_field (d : Nat) {b : Nat → Text} {t : CTy} {n : Text} (h : csWords b t = true) (hn : IsWord n) :
    Tk eval D (flat (outLines d [t!"public " ++ csName b t ++ t!" " ++ n ++ t!";"])) (.id kPublic :: ((ty b t).toks ++ [.id n, .semi])) := by
  have hp : Piece (t!"public " ++ (csName b t ++ t!" " ++ n ++ t!";")) ([.id kPublic] ++ ((ty b t).toks ++ [.id n, .semi])) :=
    (Piece.lit (s := t!"public ") (ts := [.id kPublic]) (fun _ => rfl) (by decide)).append (Piece.var h hn rfl (fun _ => rfl) (by decide))
  refine Piece.line (hp.text (by simp)) ?_ ?_ (by simp)
  · have h1 := csName_nl h
    have h2 := word_nl hn
    simp [h1, h2]
  · rw [List.getLast?_append]; rfl

theorem tk_fields {b : Nat → Text} (first : Bool) {fs : List Field} (h : ∀ f ∈ fs, DocsFine f.docs ∧ IsWord f.name ∧ csWords b f.ty = true)
    (hp : (fields b .csharp first fs).panics = false) : Tk eval D (flat (fields b .csharp first fs).writes) (memberToks (fieldMembers b fs)) := by
  induction fs generalizing first with
  | nil => exact .nil
  | cons f fs ih =>
    have ih' := fun first => ih first fun f hf => h f (by simp [hf])
    obtain ⟨h1, h2, h3⟩ := h f (by simp)
    rw [fields] at hp ⊢
    by_cases h0 : f.size = 0
    · have e : fieldMembers b (f :: fs) = fieldMembers b fs := by simp [fieldMembers, kept, h0]
      rw [if_pos h0] at hp ⊢
      rw [e]
      by_cases ha : 1 < f.align
      · rw [if_pos ha] at hp; cases hp
      · rw [if_neg ha] at hp ⊢; exact ih' first hp
    · have e : fieldMembers b (f :: fs) = .field [kPublic] (var b f.name f.ty) :: fieldMembers b fs := by simp [fieldMembers, kept, h0]
      rw [if_neg h0] at hp ⊢
      have h6 := ih' false hp
      simp only
      rw [flat_append, flat_append, flat_append, e]
      have hn : Tk eval D (flat (if first = true then [] else [nl])) [] := by
        cases first
        · exact tk_nl
        · exact .nil
      have hl : Tk eval D (flat (fieldLines b .csharp f)) (Member.toks (.field [kPublic] (var b f.name f.ty))) := by
        show Tk eval D (flat (attrLines 1 f.ty ++ outLines 1 [t!"public " ++ csName b f.ty ++ t!" " ++ f.name ++ t!";"])) _
        rw [flat_append]
        exact ((tk_attrLines 1 f.ty).append (tk_field 1 h3 h2)).cast (by simp [Member.toks, var])
      exact (((hn.append (tk_docs 1 h1)).append hl).append h6).cast (by simp [memberToks])

theorem fieldMembers_ok (b : Nat → Text) (fs : List Field) : ∀ x ∈ fieldMembers b fs, x.ok := by
  intro x hx
  obtain ⟨f, _, rfl⟩ := List.mem_map.1 hx
  exact ⟨by decide, var_ok _ _ _, ty_head _ _⟩

theorem seq_ok (n : Nat) : ∀ a ∈ [sequential n], Tok.rb ∉ a := by
  intro a ha
  rw [List.mem_singleton.1 ha]
  simp [sequential]

theorem typeMods_ok : ∀ w ∈ typeMods, w ∈ modifiers := by decide
theorem ffiMods_ok : ∀ w ∈ ffiMods, w ∈ modifiers := by decide
theorem methodMods_ok : ∀ w ∈ methodMods, w ∈ modifiers := by decide

theorem piece_layout (size : Nat) : Piece (t!"[StructLayout(LayoutKind.Sequential, Size = " ++ nat size ++ t!")]") (attrToks [sequential size]) := by
  have h1 : Piece (t!"[StructLayout(LayoutKind.Sequential, Size = ") [.lb, .id t!"StructLayout", .lp, .id t!"LayoutKind", .bad '.', .id t!"Sequential", .comma,
    .id t!"Size", .bad '='] := .lit (fun _ => rfl) (by decide)
  have h2 : Piece (nat size ++ t!")]") [.id (nat size), .rp, .rb] := Piece.word (nat_isWord size) rfl (fun _ => rfl) (by decide)
  exact ((h1.append h2).text (by simp)).cast rfl

theorem piece_open {b : Nat → Text} {t : CTy} (hn : isNamed t = true) (h : csWords b t = true) {s : Text} {ks : List Tok} (hs : Lx s ks) (hc : Clean s) :
    Piece (s ++ csName b t ++ t!" {") (ks ++ [.id (csName b t), .bad '{']) := by
  have := (Piece.lit hs hc).append (Piece.word (w := csName b t) (s := t!" {") (ts := [.bad '{']) (csName_word hn h) rfl (fun _ => rfl) (by decide))
  exact this.text (by simp)

theorem tk_open {b : Nat → Text} {t : CTy} (hn : isNamed t = true) (h : csWords b t = true) {s : Text} {ks : List Tok} (hs : Lx s ks) (hc : Clean s)
    (hl : '\n' ∉ s) : Tk eval D (flat (outLines 0 [s ++ csName b t ++ t!" {"])) (ks ++ [.id (csName b t), .bad '{']) := by
  refine Piece.line (piece_open hn h hs hc) ?_ ?_ (by simp)
  · have h1 := csName_nl h
    simp [h1, hl]
  · rw [List.getLast?_append]; rfl

theorem tk_close : Tk eval D (flat (outLines 0 [t!"}"])) [.bad '}'] := Piece.line (.lit (fun _ => rfl) (by decide)) (by decide) (by decide) (by decide)

theorem decls_struct {b : Nat → Text} {i : Nat} {g : List CTy} (h : csWords b (.adt i g) = true) {docs : List Text} {size : Nat} {fs : List Field}
    (hd : DocsFine docs) (hf : ∀ f ∈ fs, DocsFine f.docs ∧ IsWord f.name ∧ csWords b f.ty = true)
    (hp : (emitStruct b .csharp docs (.adt i g) size fs).panics = false) :
    ∃ toks, Tk eval D (flat (emitStruct b .csharp docs (.adt i g) size fs).writes) toks ∧
      Decls toks [.struct [sequential size] typeMods (csName b (.adt i g)) (fieldMembers b fs)] := by
  by_cases hs : size = 0
  · rw [emitStruct.eq_def, if_pos hs] at hp; cases hp
  rw [emitStruct.eq_def, if_neg hs] at hp ⊢
  simp only at hp ⊢
  rw [structEnd] at hp ⊢
  by_cases hb : (fields b .csharp true fs).panics = true
  · rw [if_pos hb] at hp; cases hp
  rw [if_neg hb]
  refine ⟨_, ?_, Decls.struct (seq_ok size) typeMods_ok (fieldMembers_ok b fs)⟩
  simp only [flat_append]
  rw [flat_outLines_cons']
  have hl : Tk eval D (flat (outLines 0 [t!"[StructLayout(LayoutKind.Sequential, Size = " ++ nat size ++ t!")]"])) (attrToks [sequential size]) := by
    refine Piece.line (piece_layout size) ?_ ?_ (by simp)
    · have h1 := word_nl (nat_isWord size)
      simp [h1]
    · rw [List.getLast?_append]; rfl
  have ho := tk_open (eval := eval) (D := D) (t := .adt i g) (s := t!"public unsafe struct ") (ks := [.id kPublic, .id kUnsafe, .id kStruct]) rfl h (fun _ => rfl) (by decide) (by decide)
  refine ((((tk_docs 0 hd).append (hl.append ho)).append (tk_fields true hf (by simpa using hb))).append tk_close |>.append (b := nl) tk_nl).cast ?_
  simp [typeMods]

/-! ### Opaque types -/

theorem decls_opaque {b : Nat → Text} {i : Nat} {g : List CTy} (h : csWords b (.adt i g) = true) {docs : List Text} (hd : DocsFine docs) :
    ∃ toks, Tk eval D (flat (emitOpaque b .csharp docs (.adt i g))) toks ∧
      Decls toks [.struct [] [kPublic] (csName b (.adt i g)) [.field [kPrivate] ⟨[], .name t!"byte", t!"OPAQUE"⟩]] := by
  refine ⟨_, ?_, Decls.struct (as := []) nofun (by decide) (ms := [.field [kPrivate] ⟨[], .name t!"byte", t!"OPAQUE"⟩]) ?_⟩
  · rw [emitOpaque]
    simp only [flat_append]
    have hb : Tk eval D (flat (outLines 1 [t!"#pragma warning disable 0169", t!"private byte OPAQUE;", t!"#pragma warning restore 0169"]))
        [.id kPrivate, .id t!"byte", .id t!"OPAQUE", .semi] := by
      have e : flat (outLines 1 [t!"#pragma warning disable 0169", t!"private byte OPAQUE;", t!"#pragma warning restore 0169"]) =
          ([] ++ t!"    #pragma warning disable 0169" ++ ['\n']) ++ ((t!"    private byte OPAQUE;" ++ ['\n']) ++ (t!"    #pragma warning restore 0169" ++ ['\n'])) := by
        decide
      rw [e]
      refine Tk.cast (Tk.append (x := []) ?_ (Tk.append (x := [.id kPrivate, .id t!"byte", .id t!"OPAQUE", .semi]) (y := []) ?_ ?_)) rfl
      · exact Tk.directive (l := t!"    #pragma warning disable 0169") (l' := t!"#pragma warning disable 0169") (r := t!"warning disable 0169") (by decide) (by decide) (by decide) (by decide)
          (by decide)
      · exact Piece.tk (.lit (fun _ => rfl) (by decide))
      · exact Tk.directive (l' := t!"#pragma warning restore 0169") (r := t!"warning restore 0169") (by decide) (by decide) (by decide) (by decide) (by decide)
    have ho := tk_open (eval := eval) (D := D) (t := .adt i g) (s := t!"public struct ") (ks := [.id kPublic, .id kStruct]) rfl h (fun _ => rfl) (by decide) (by decide)
    refine (((((tk_docs 0 hd).append ho).append hb).append tk_close).append (b := nl) tk_nl).cast ?_
    simp [attrToks, memberToks, Member.toks, Ty.toks]
  · intro x hx
    rw [List.mem_singleton.1 hx]
    exact ⟨by decide, nofun, by decide⟩

/-! ### Enums -/

theorem lex_no_tok {x : Tok} {c : Char} (hw : ∀ s, x ≠ .id s) (hp : ∀ d, d ≠ c → x ∉ punct d) {s : Text} (h : c ∉ s) : x ∉ lex s := by
  have key : ∀ (s cur : Text), c ∉ s → x ∉ lexFrom cur s := by
    intro s
    induction s with
    | nil => intro cur _; rw [lexFrom, word]; split <;> simp [hw]
    | cons d s ih =>
      intro cur h
      have h1 : d ≠ c := fun e => h (by simp [e])
      have h2 : c ∉ s := fun hm => h (by simp [hm])
      rw [lexFrom]
      split
      · exact ih _ h2
      · have hwd : x ∉ word cur := by rw [word]; split <;> simp [hw]
        simp only [List.mem_append, not_or]
        exact ⟨hwd, hp d h1, ih _ h2⟩
  exact key s [] h

theorem lex_no_comma {s : Text} (h : ',' ∉ s) : Tok.comma ∉ lex s := by
  refine lex_no_tok (fun _ h => Tok.noConfusion h) (fun d hd => ?_) h
  rw [punct]
  repeat' split
  all_goals simp_all

theorem lex_no_semi {s : Text} (h : ';' ∉ s) : Tok.semi ∉ lex s := by
  refine lex_no_tok (fun _ h => Tok.noConfusion h) (fun d hd => ?_) h
  rw [punct]
  repeat' split
  all_goals simp_all

/-- A value and what stands after it. -/
theorem piece_value {v : Text} {c : Char} {k : Tok} (hv : Clean v) (hc : isWordChar c = false) (hp : punct c = [k]) (hc' : Clean [c]) :
    Piece (v ++ [c]) (lex v ++ [k]) := by
  refine .lit (fun rest => ?_) (hv.append hc')
  rw [List.append_assoc, List.singleton_append, lex_sep _ _ hc, hp]
  simp

theorem tk_constLine {n : Text} {disc : Option Text} (hn : IsWord n) (hd : ∀ d, disc = some d → ValueOk d) :
    Tk eval D (flat (outLines 1 [enumLine n disc])) (constToks [(n, disc.map lex)]) := by
  cases disc with
  | none =>
    refine Piece.line (l := n ++ t!",") (Piece.word hn rfl (fun _ => rfl) (by decide)) ?_ ?_ (by simp)
    · have h1 := word_nl hn
      simp [h1]
    · rw [List.getLast?_append]; rfl
  | some d =>
    obtain ⟨h1, h2, h3⟩ := hd d rfl
    have hp := (Piece.word (s := t!" = ") (ts := [.bad '=']) hn rfl (fun _ => rfl) (by decide)).append
      (piece_value (c := ',') (k := .comma) (ValueOk.clean ⟨h1, h2, h3⟩) (by decide) (by decide) (by decide))
    refine Piece.line ((hp.text (s' := enumLine n (some d)) (by simp [enumLine])).cast (by simp [constToks])) ?_ ?_ (by simp [enumLine])
    · have h4 := word_nl hn
      simp [enumLine, h4, h2]
    · rw [enumLine, List.getLast?_append]; rfl

theorem constToks_append (a b : List (Text × Option (List Tok))) : constToks (a ++ b) = constToks a ++ constToks b := by
  induction a with
  | nil => rfl
  | cons p a ih =>
    obtain ⟨n, v⟩ := p
    cases v with
    | none => simp [constToks, ih]
    | some v => simp [constToks, ih]

theorem decls_enum {b : Nat → Text} {i : Nat} {g : List CTy} (h : csWords b (.adt i g) = true) {docs : List Text} {int : Option IntTy} {vs : List Variant}
    (hd : DocsFine docs) (hv : ∀ v ∈ vs, DocsFine v.docs ∧ IsWord v.name ∧ ∀ d, v.disc = some d → ValueOk d ∧ ',' ∉ d) :
    ∃ toks, Tk eval D (flat (csEnum b docs (.adt i g) int vs)) toks ∧
      Decls toks [.enum [kPublic] (csName b (.adt i g)) (int.map fun k => csName b (.int k)) (vs.map (·.name))] := by
  have hdecl := Decls.enum (mods := [kPublic]) (n := csName b (.adt i g)) (b := int.map fun k => csName b (.int k))
    (vs := vs.map fun v => (v.name, v.disc.map lex)) (by decide) (by
      intro p hp v e
      obtain ⟨x, hx, rfl⟩ := List.mem_map.1 hp
      cases hxd : x.disc with
      | none => rw [hxd] at e; cases e
      | some d =>
        rw [hxd] at e
        cases e
        exact lex_no_comma ((hv x hx).2.2 d hxd).2)
  rw [List.map_map] at hdecl
  refine ⟨_, ?_, hdecl⟩
  rw [csEnum]
  simp only [flat_append]
  have ho : Tk eval D (flat (outLines 0 [t!"public enum " ++ csName b (.adt i g) ++ t!" " ++ csBacking b int ++ t!" {"]))
      (.id kPublic :: .id kEnum :: .id (csName b (.adt i g)) :: (baseToks (int.map fun k => csName b (.int k)) ++ [.bad '{'])) := by
    have hw := csName_word (t := .adt i g) rfl h
    cases int with
    | none =>
      have hp := (Piece.lit (s := t!"public enum ") (ts := [.id kPublic, .id kEnum]) (fun _ => rfl) (by decide)).append
        (Piece.word (s := t!"  {") (ts := [.bad '{']) hw rfl (fun _ => rfl) (by decide))
      refine Piece.line ((hp.text (by simp [csBacking])).cast rfl) ?_ ?_ (by simp)
      · have h1 := word_nl hw
        simp [csBacking, h1]
      · rw [List.getLast?_append]; rfl
    | some k =>
      have hp := ((Piece.lit (s := t!"public enum ") (ts := [.id kPublic, .id kEnum]) (fun _ => rfl) (by decide)).append
        (Piece.word (s := t!" : ") (ts := [.bad ':']) hw rfl (fun _ => rfl) (by decide))).append
        (Piece.word (w := csName b (.int k)) (s := t!" {") (ts := [.bad '{']) (int_cs_word k) rfl (fun _ => rfl) (by decide))
      refine Piece.line ((hp.text (by simp [csBacking])).cast rfl) ?_ ?_ (by simp)
      · have h1 := word_nl hw
        have h2 : '\n' ∉ csName b (.int k) := word_nl (int_cs_word k)
        simp [csBacking, h1, h2]
      · rw [List.getLast?_append]; rfl
  have hb : Tk eval D (flat (vs.flatMap fun v => csDocs 1 v.docs ++ outLines 1 [enumLine v.name v.disc])) (constToks (vs.map fun v => (v.name, v.disc.map lex))) := by
    clear hdecl
    induction vs with
    | nil => exact .nil
    | cons v vs ih =>
      rw [List.flatMap_cons, flat_append, flat_append]
      obtain ⟨h1, h2, h3⟩ := hv v (by simp)
      refine (((tk_docs 1 h1).append (tk_constLine h2 fun d e => (h3 d e).1)).append (ih fun v hv' => hv v (by simp [hv']))).cast ?_
      rw [List.map_cons, List.nil_append, ← constToks_append]
      rfl
  refine (((((tk_docs 0 hd).append ho).append hb).append tk_close).append (b := nl) tk_nl).cast ?_
  simp

/-! ### Parameters -/

/-- The parameters after the first, and the end. -/
def tailToks : List Var → List Tok
  | [] => [.rp, .semi]
  | v :: vs => .comma :: (v.toks ++ tailToks vs)

theorem tail_params (v : Var) (vs : List Var) : paramToks (v :: vs) ++ [.rp, .semi] = v.toks ++ tailToks vs := by
  induction vs generalizing v with
  | nil => rfl
  | cons w vs ih =>
    show (v.toks ++ .comma :: paramToks (w :: vs)) ++ [.rp, .semi] = _
    rw [List.append_assoc, List.cons_append, ih w]
    rfl

theorem opiece_args {b : Nat → Text} {as : List Arg} (h : ∀ a ∈ as, IsWord a.name ∧ csWords b a.ty = true) :
    OPiece (flat (csArgs b false as) ++ t!");") (tailToks (as.map fun a => var b a.name a.ty)) := by
  induction as with
  | nil => exact OPiece.lit (s := t!");") (fun _ => rfl) (by decide) rfl
  | cons a as ih =>
    obtain ⟨h1, h2⟩ := h a (by simp)
    have h3 := Piece.varMore h2 h1 (ih fun a ha => h a (by simp [ha]))
    have h4 := ((OPiece.lit (s := t!",\n") (ts := [.comma]) (fun _ => rfl) (by decide) rfl).append (piece_attrLines 2 a.ty)).append ((piece_indent 2).append h3)
    refine (h4.text ?_).cast ?_
    · rw [csArgs]
      simp only [flat_append]
      simp [flat, nl]
    · simp [tailToks, Var.toks, var]

theorem piece_args {b : Nat → Text} {as : List Arg} (h : ∀ a ∈ as, IsWord a.name ∧ csWords b a.ty = true) :
    Piece (flat (csArgs b true as) ++ t!");") (paramToks (as.map fun a => var b a.name a.ty) ++ [.rp, .semi]) := by
  cases as with
  | nil => exact Piece.lit (s := t!");") (fun _ => rfl) (by decide)
  | cons a as =>
    obtain ⟨h1, h2⟩ := h a (by simp)
    have h3 := Piece.varMore h2 h1 (opiece_args (as := as) fun a ha => h a (by simp [ha]))
    have h4 := ((Piece.lit (s := t!"\n") (ts := []) (fun _ => rfl) (by decide)).append (piece_attrLines 2 a.ty)).append ((piece_indent 2).append h3)
    refine (h4.text ?_).cast ?_
    · rw [csArgs]
      simp only [flat_append]
      simp [flat, nl]
    · rw [List.map_cons, tail_params]; simp [Var.toks, var]

theorem delegate_attr (t : CTy) (sep : Text) (hs : Lx sep []) (hc : Clean sep) :
    Piece (match csMarshaler t with | some m => t!"[MarshalAs(" ++ m ++ t!")]" ++ sep | none => []) (attrToks (attrs t)) := by
  have hb : Piece sep [] := .lit hs hc
  have h : ∀ {s : Text} {ts : List Tok}, Lx s ts → Clean s → Piece (s ++ sep) ts := fun h hc => ((Piece.lit h hc).append hb).cast (by simp)
  cases t with
  | fptr r a => exact h (s := t!"[MarshalAs(UnmanagedType.FunctionPtr)]") (fun _ => rfl) (by decide)
  | bool => exact h (s := t!"[MarshalAs(UnmanagedType.U1)]") (fun _ => rfl) (by decide)
  | cint => exact h (s := t!"[MarshalAs(UnmanagedType.SysInt)]") (fun _ => rfl) (by decide)
  | _ => exact .nil

theorem delegate_return (t : CTy) :
    Piece (match csMarshaler t with | some m => t!"[return: MarshalAs(" ++ m ++ t!")]\n" | none => []) (attrToks (retAttrs t)) := by
  cases t with
  | fptr r a => exact .lit (s := t!"[return: MarshalAs(UnmanagedType.FunctionPtr)]\n") (fun _ => rfl) (by decide)
  | bool => exact .lit (s := t!"[return: MarshalAs(UnmanagedType.U1)]\n") (fun _ => rfl) (by decide)
  | cint => exact .lit (s := t!"[return: MarshalAs(UnmanagedType.SysInt)]\n") (fun _ => rfl) (by decide)
  | _ => exact .nil

theorem number_word (i : Nat) : IsWord (t!"_" ++ nat i) := by
  refine ⟨by simp, fun c hc => ?_⟩
  rcases List.mem_append.1 hc with h | h
  · rw [List.mem_singleton.1 h]; decide
  · exact nat_word i c h

theorem opiece_delegate {b : Nat → Text} {as : List CTy} (h : ∀ a ∈ as, csWords b a = true) (i : Nat) (hi : i ≠ 0) :
    OPiece (delegateArgs b i as ++ t!");") (tailToks (delegateParams b i as)) := by
  induction as generalizing i with
  | nil => exact OPiece.lit (s := t!");") (fun _ => rfl) (by decide) rfl
  | cons a as ih =>
    have h3 := Piece.varMore (h a (by simp)) (number_word i) (ih (fun a ha => h a (by simp [ha])) (i + 1) (by omega))
    have h4 := ((OPiece.lit (s := t!",\n        ") (ts := [.comma]) (fun _ => rfl) (by decide) rfl).append (delegate_attr a t!"\n        " (fun _ => rfl) (by decide))).append h3
    refine (h4.text ?_).cast ?_
    · rw [delegateArgs, if_neg hi]
      cases csMarshaler a <;> simp
    · simp [tailToks, delegateParams, Var.toks, var]

theorem piece_delegate {b : Nat → Text} {as : List CTy} (h : ∀ a ∈ as, csWords b a = true) :
    Piece (delegateArgs b 0 as ++ t!");") (paramToks (delegateParams b 0 as) ++ [.rp, .semi]) := by
  cases as with
  | nil => exact Piece.lit (s := t!");") (fun _ => rfl) (by decide)
  | cons a as =>
    have h3 := Piece.varMore (h a (by simp)) (number_word 0) (opiece_delegate (as := as) (fun a ha => h a (by simp [ha])) 1 (by omega))
    have h4 := ((Piece.lit (s := t!"\n        ") (ts := []) (fun _ => rfl) (by decide)).append (delegate_attr a t!"\n        " (fun _ => rfl) (by decide))).append h3
    refine (h4.text ?_).cast ?_
    · rw [delegateArgs, if_pos rfl]
      cases csMarshaler a <;> simp
    · rw [delegateParams, tail_params]; simp [Var.toks, var]

/-! ### Delegates -/

theorem delegateParams_ok (b : Nat → Text) (i : Nat) (as : List CTy) : ∀ v ∈ delegateParams b i as, v.ok := by
  induction as generalizing i with
  | nil => nofun
  | cons a as ih =>
    intro v hv
    rcases List.mem_cons.1 hv with rfl | hv
    · exact var_ok _ _ _
    · exact ih _ v hv

theorem decls_delegate {b : Nat → Text} {ret : CTy} {args : List CTy} (h : csWords b (.fptr ret args) = true) (hr : csWords b ret = true)
    (ha : ∀ a ∈ args, csWords b a = true) :
    ∃ toks, Tk eval D (flat (csDelegate b ret args)) toks ∧
      Decls toks [.delegate (winapiAttr :: retAttrs ret) typeMods (ty b ret) (csName b (.fptr ret args)) (delegateParams b 0 args)] := by
  refine ⟨_, ?_, Decls.delegate (by
    intro a ha
    rcases List.mem_cons.1 ha with rfl | ha
    · decide
    · exact retAttrs_ok ret a ha) typeMods_ok (delegateParams_ok b 0 args)⟩
  have h1 : Piece t!"[UnmanagedFunctionPointer(CallingConvention.Winapi)]\n" (attrToks [winapiAttr]) := .lit (fun _ => rfl) (by decide)
  have h2 : Piece t!"public unsafe /* static */ delegate\n    " [.id kPublic, .id kUnsafe, .id kDelegate] :=
    ⟨t!"public unsafe  delegate\n    ", fun _ => rfl, by decide, fun _ => rfl⟩
  have h3 : Piece (csName b ret ++ t!"\n    ") (ty b ret).toks :=
    (Piece.ty (s := t!"\n    ") (ts := []) hr rfl (fun _ => rfl) (by decide)).cast (by simp)
  have h4 : Piece (csName b (.fptr ret args) ++ t!" (") [.id (csName b (.fptr ret args)), .lp] :=
    Piece.word (csName_word rfl h) rfl (fun _ => rfl) (by decide)
  have h5 := ((((h1.append (delegate_return ret)).append h2).append h3).append h4).append (piece_delegate ha)
  have h6 := (h5.tk (eval := eval) (D := D)).append tk_nl
  have e : flat (csDelegate b ret args) = (t!"[UnmanagedFunctionPointer(CallingConvention.Winapi)]\n" ++
      (match csMarshaler ret with | some m => t!"[return: MarshalAs(" ++ m ++ t!")]\n" | none => []) ++
      t!"public unsafe /* static */ delegate\n    " ++ (csName b ret ++ t!"\n    ") ++ (csName b (.fptr ret args) ++ t!" (") ++
      (delegateArgs b 0 args ++ t!");")) ++ ['\n'] ++ nl := by
    rw [csDelegate]
    cases csMarshaler ret <;> simp [flat, nl]
  rw [e]
  refine h6.cast ?_
  simp [attrToks, typeMods]

/-! ### Arrays -/

theorem piece_items {b : Nat → Text} {item : CTy} (h : csWords b item = true) (n : Nat) :
    Piece (csItems b item n) (memberToks ((List.range n).map fun i => .field [kPublic] (var b (t!"_" ++ nat i) item))) := by
  rw [csItems, memberToks, List.flatMap_map]
  refine Piece.flatMap fun i _ => ?_
  have h1 : Piece t!"    " [] := .lit (fun _ => rfl) (by decide)
  have h2 : Piece t!"public " [.id kPublic] := .lit (fun _ => rfl) (by decide)
  have h3 := ((h1.append (delegate_attr item t!"\n    " (fun _ => rfl) (by decide))).append h2).append
    (Piece.var (n := t!"_" ++ nat i) (s := t!";\n") (ts := [.semi]) h (number_word i) rfl (fun _ => rfl) (by decide))
  refine (h3.text ?_).cast ?_
  · cases csMarshaler item <;> simp
  · simp [Member.toks, var]

theorem arrayMembers_ok (b : Nat → Text) (n : Nat) (item : CTy) : ∀ x ∈ arrayMembers b n item, x.ok := by
  intro x hx
  rw [arrayMembers] at hx
  split at hx
  · rw [List.mem_singleton.1 hx]
    exact (by decide : ∀ w ∈ [kPublic], w ∈ modifiers)
  · obtain ⟨i, _, rfl⟩ := List.mem_map.1 hx
    exact ⟨by decide, var_ok _ _ _, ty_head _ _⟩

theorem decls_array {b : Nat → Text} {n : Nat} {item : CTy} (size : Nat) (h : csWords b (.array n item) = true) (hi : csWords b item = true) :
    ∃ toks, Tk eval D (flat (csArray b n item size)) toks ∧
      Decls toks [.struct [sequential size] typeMods (csName b (.array n item)) (arrayMembers b n item)] := by
  refine ⟨_, ?_, Decls.struct (seq_ok size) typeMods_ok (arrayMembers_ok b n item)⟩
  have h1 := piece_layout size
  have h2 := piece_open (t := .array n item) (s := t!"\npublic unsafe struct ") (ks := [.id kPublic, .id kUnsafe, .id kStruct]) rfl h (fun _ => rfl) (by decide)
  have hnl : Piece t!"\n" [] := .lit (fun _ => rfl) (by decide)
  have h3 : Piece (if isFixed item then t!"    public fixed " ++ csName b item ++ t!" arr[" ++ nat n ++ t!"];\n" else csItems b item n)
      (memberToks (arrayMembers b n item)) := by
    rw [arrayMembers]
    split
    · have h4 : Piece t!"    public fixed " [.id kPublic, .id kFixed] := .lit (fun _ => rfl) (by decide)
      have h5 := (h4.append (Piece.ty (s := t!" arr[") (ts := [.id t!"arr", .lb]) hi rfl (fun _ => rfl) (by decide))).append
        (Piece.word (s := t!"];\n") (ts := [.rb, .semi]) (nat_isWord n) rfl (fun _ => rfl) (by decide))
      refine (h5.text (by simp)).cast ?_
      simp [memberToks, Member.toks]
    · exact piece_items hi n
  have h4 : Piece t!"}" [.bad '}'] := .lit (fun _ => rfl) (by decide)
  have h5 := (((((h1.append h2).append hnl).append h3).append h4).tk (eval := eval) (D := D)).append tk_nl
  have e : flat (csArray b n item size) = (t!"[StructLayout(LayoutKind.Sequential, Size = " ++ nat size ++ t!")]" ++
      (t!"\npublic unsafe struct " ++ csName b (.array n item) ++ t!" {") ++ t!"\n" ++
      (if isFixed item then t!"    public fixed " ++ csName b item ++ t!" arr[" ++ nat n ++ t!"];\n" else csItems b item n) ++ t!"}") ++ ['\n'] ++ nl := by
    have hc : csName b (.array n item) = cVar b (.array n item) [] := rfl
    rw [csArray, hc]
    generalize (if isFixed item then t!"    public fixed " ++ csName b item ++ t!" arr[" ++ nat n ++ t!"];\n" else csItems b item n) = x
    simp [flat, nl]
  rw [e]
  refine h5.cast ?_
  simp [typeMods]

/-! ### Functions and constants -/

theorem tk_ffi : Tk eval D (flat (outLines 0 [t!"public unsafe partial class Ffi {"])) (ffiMods.map .id ++ [.id kClass, .id kFfi, .bad '{']) :=
  Piece.line (.lit (fun _ => rfl) (by decide)) (by decide) (by decide) (by decide)

theorem attrToks_append (a b : List Attr) : attrToks (a ++ b) = attrToks a ++ attrToks b := List.flatMap_append

set_option maxRecDepth 4000 in
theorem decls_func {b : Nat → Text} {docs : List Text} {fname : Text} {args : List Arg} {ret : CTy} (hd : DocsFine docs) (hn : IsWord fname)
    (ha : ∀ a ∈ args, IsWord a.name ∧ csWords b a.ty = true) (hr : csWords b ret = true) :
    ∃ toks, Tk eval D (flat (emitFunction b .csharp docs fname args ret)) toks ∧
      Decls toks [.cls ffiMods kFfi [.method (retAttrs ret ++ [dllImport]) methodMods (ty b ret) fname (args.map fun a => var b a.name a.ty)]] := by
  refine ⟨_, ?_, Decls.cls ffiMods_ok ?_⟩
  · have h1 : Piece (flat (outLines 1 [t!"[DllImport(RustLib, ExactSpelling = true)] public static unsafe extern"]))
        (attrToks [dllImport] ++ methodMods.map .id) := by
      rw [flat_line 1 (by decide) (by decide) (by decide), List.append_assoc]
      exact (piece_indent 1).append (.lit (s := t!"[DllImport(RustLib, ExactSpelling = true)] public static unsafe extern\n") (fun _ => rfl) (by decide))
    have h2 : Tk eval D (flat (outLines 1 [t!"[DllImport(RustLib, ExactSpelling = true)] public static unsafe extern"]) ++
        (indent 1 ++ (csName b ret ++ t!" " ++ fname ++ t!" (")) ++ (flat (csArgs b true args) ++ t!");") ++ ['\n']) _ :=
      ((h1.append ((piece_indent 1).append (Piece.var (n := fname) (s := t!" (") (ts := [.lp]) hr hn rfl (fun _ => rfl) (by decide)))).append (piece_args ha)).tk
    have e : flat (emitFunction b .csharp docs fname args ret) =
        flat (outLines 0 [t!"public unsafe partial class Ffi {"]) ++ flat (csDocs 1 docs) ++ flat (returnLines ret) ++
        (flat (outLines 1 [t!"[DllImport(RustLib, ExactSpelling = true)] public static unsafe extern"]) ++
        (indent 1 ++ (csName b ret ++ t!" " ++ fname ++ t!" (")) ++ (flat (csArgs b true args) ++ t!");") ++ ['\n']) ++ flat (outLines 0 [t!"}"]) ++ nl := by
      rw [emitFunction]
      simp only [flat_append]
      simp [flat]
    rw [e]
    refine (((((tk_ffi.append (tk_docs 1 hd)).append (tk_returnLines ret)).append h2).append tk_close).append tk_nl).cast ?_
    simp [memberToks, Member.toks, attrToks_append]
  · intro x hx
    rw [List.mem_singleton.1 hx]
    refine ⟨methodMods_ok, fun a ha => ?_, fun v hv => ?_, ty_head _ _⟩
    · rcases List.mem_append.1 ha with ha | ha
      · exact retAttrs_ok ret a ha
      · rw [List.mem_singleton.1 ha]; decide
    · obtain ⟨a, _, rfl⟩ := List.mem_map.1 hv
      exact var_ok _ _ _

theorem decls_const {b : Nat → Text} {docs : List Text} {n : Text} {t : CTy} {v : Text} (hd : DocsFine docs) (hn : IsWord n) (ht : csWords b t = true)
    (hv : ValueOk v ∧ ';' ∉ v) :
    ∃ toks, Tk eval D (flat (emitConstant b .csharp docs n t false v)) toks ∧
      Decls toks [.cls ffiMods kFfi [.const [kPublic] (ty b t) n (lex v)]] := by
  obtain ⟨⟨v1, v2, v3⟩, v4⟩ := hv
  refine ⟨_, ?_, Decls.cls ffiMods_ok ?_⟩
  · have h1 : Tk eval D (flat (outLines 1 [t!"public const " ++ csName b t ++ t!" " ++ n ++ t!" = " ++ v ++ t!";"]))
        (Member.toks (.const [kPublic] (ty b t) n (lex v))) := by
      have hp := ((Piece.lit (s := t!"public const ") (ts := [.id kPublic, .id kConst]) (fun _ => rfl) (by decide)).append
        (Piece.var (n := n) (s := t!" = ") (ts := [.bad '=']) ht hn rfl (fun _ => rfl) (by decide))).append
        (piece_value (v := v) (c := ';') (k := .semi) (ValueOk.clean ⟨v1, v2, v3⟩) (by decide) (by decide) (by decide))
      refine Piece.line ((hp.text (by simp)).cast (by simp [Member.toks])) ?_ ?_ (by simp)
      · have h1 := csName_nl ht
        have h2 := word_nl hn
        simp [h1, h2, v2]
      · rw [List.getLast?_append]; rfl
    have e : flat (emitConstant b .csharp docs n t false v) =
        flat (outLines 0 [t!"public unsafe partial class Ffi {"]) ++ flat (csDocs 1 docs) ++
        flat (outLines 1 [t!"public const " ++ csName b t ++ t!" " ++ n ++ t!" = " ++ v ++ t!";"]) ++ flat (outLines 0 [t!"}"]) ++ nl := by
      rw [emitConstant]
      simp [flat]
    rw [e]
    refine ((((tk_ffi.append (tk_docs 1 hd)).append h1).append tk_close).append tk_nl).cast ?_
    simp [memberToks]
  · intro x hx
    rw [List.mem_singleton.1 hx]
    exact ⟨(by decide : ∀ w ∈ [kPublic], w ∈ modifiers), lex_no_semi v4⟩

/-! ### Items -/

/-- The items of a C# header, with words as names. -/
def ItemFine (P : Prog) : Item → Prop
  | .type lang t => lang = .csharp ∧ isItem t = true ∧ csWords P.base t = true ∧ TypeFine P t ∧ match t with
      | .adt i g => ∀ docs size fs, P.decl i g = .struct docs size fs → ∀ f ∈ fs, csWords P.base f.ty = true
      | .array _ item => csWords P.base item = true
      | .fptr ret args => csWords P.base ret = true ∧ ∀ a ∈ args, csWords P.base a = true
      | _ => True
  | .func lang f => lang = .csharp ∧ ExportFine (.fn f) ∧ (∀ a ∈ f.args, csWords P.base a.ty = true) ∧ csWords P.base f.ret = true
  | .const lang c => lang = .csharp ∧ ExportFine (.const c) ∧ csWords P.base c.ty = true
  | _ => False

theorem decls_item {P : Prog} {it : Item} (h : ItemFine P it) (hp : (render P it).panics = false) :
    ∃ toks, Tk eval D (flat (render P it).writes) toks ∧ Decls toks (csDecls P it) := by
  cases it with
  | intHeaders => exact h.elim
  | boolHeader => exact h.elim
  | text s => exact h.elim
  | type lang t =>
    obtain ⟨rfl, hn, h1, h2, h3⟩ := h
    cases t with
    | adt i g =>
      change (renderDecl P .csharp (.adt i g) (P.decl i g)).panics = false at hp
      change ∃ toks, Tk eval D (flat (renderDecl P .csharp (.adt i g) (P.decl i g)).writes) toks ∧ Decls toks [declDecl P.base (csName P.base (.adt i g)) (P.decl i g)]
      change DeclFine (P.decl i g) at h2
      cases hd : P.decl i g with
      | struct docs size fs =>
        rw [hd] at h2 hp
        exact decls_struct h1 h2.1 (fun f hf => ⟨(h2.2 f hf).1, (h2.2 f hf).2, h3 docs size fs hd f hf⟩) hp
      | enum docs int vs => rw [hd] at h2; exact decls_enum h1 h2.1 h2.2
      | «opaque» docs => rw [hd] at h2; exact decls_opaque h1 h2
    | array n item => exact decls_array _ h1 h3
    | fptr ret args => exact decls_delegate h1 h3.1 h3.2
    | _ => cases hn
  | func lang f =>
    obtain ⟨rfl, ⟨h1, h2, h3⟩, h4, h5⟩ := h
    exact decls_func h1 h2 (fun a ha => ⟨h3 a ha, h4 a ha⟩) h5
  | const lang c =>
    obtain ⟨rfl, ⟨h1, h2, h3⟩, h4⟩ := h
    change ∃ toks, Tk eval D (flat (emitConstant P.base .csharp c.docs c.name c.ty c.untyped c.value)) toks ∧
      Decls toks (if c.untyped then [] else [.cls ffiMods kFfi [.const [kPublic] (ty P.base c.ty) c.name (lex c.value)]])
    cases c.untyped
    · exact decls_const h1 h2 h4 h3
    · exact ⟨[], .nil, .nil⟩

theorem decls_items {P : Prog} {its : List Item} (h : ∀ it ∈ its, ItemFine P it ∧ (render P it).panics = false) :
    ∃ toks, Tk eval D (flat (its.flatMap fun it => (render P it).writes)) toks ∧ Decls toks (its.flatMap (csDecls P)) := by
  induction its with
  | nil => exact ⟨[], .nil, .nil⟩
  | cons it its ih =>
    obtain ⟨a, h1, h2⟩ := decls_item (h it (by simp)).1 (h it (by simp)).2
    obtain ⟨b, h3, h4⟩ := ih fun it hit => h it (by simp [hit])
    rw [List.flatMap_cons, flat_append, List.flatMap_cons]
    exact ⟨_, h1.append h3, h2.append h4⟩

end Verif.Headers.Cs
