import Verif.Headers.AbiProps
/-! # The tokens and the macros of every item of a C header -/
namespace Verif.Headers
open Text

/-! ### Lines -/

/-- Macros that the line defines meet the predicate. A line that is no directive has no `#`. -/
def LineOk (U : Text → Prop) (l : Text) : Prop :=
  match directive l with
  | none => '#' ∉ l
  | some (k, r) => k = t!"define" → U (ident r)

theorem LineOk.plain {U : Text → Prop} {l : Text} (h : '#' ∉ l) : LineOk U l := by
  rw [LineOk, directive_none h]; exact h

theorem LineOk.of {U : Text → Prop} {l k r : Text} (h : directive l = some (k, r)) (hk : k = t!"define" → U (ident r)) : LineOk U l := by
  rw [LineOk, h]; exact hk

theorem Good.unique {s : Text} {a b : List Text} (ha : Good s a) (hb : Good s b) : a = b :=
  List.append_cancel_right ((ha.lines []).symm.trans (hb.lines []))

/-- The text has these tokens, and all its macros meet the predicate. -/
def Tm (U : Text → Prop) (s : Text) (toks : List Tok) : Prop :=
  Tk s toks ∧ ∃ ls, Good s ls ∧ ∀ l ∈ ls, LineOk U l

section
variable {U : Text → Prop}

theorem Tm.nil : Tm U [] [] := ⟨.nil, [], .nil, nofun⟩

theorem Tm.append {a b : Text} {x y : List Tok} (ha : Tm U a x) (hb : Tm U b y) : Tm U (a ++ b) (x ++ y) := by
  obtain ⟨h1, as, h2, h3⟩ := ha
  obtain ⟨h4, bs, h5, h6⟩ := hb
  exact ⟨h1.append h4, _, h2.append h5, fun l hl => (List.mem_append.1 hl).elim (h3 l) (h6 l)⟩

theorem Tm.cast {s : Text} {a b : List Tok} (h : Tm U s a) (e : a = b) : Tm U s b := e ▸ h

theorem tm_clean {s : Text} (h : Clean s) : Tm U (s ++ ['\n']) (lex s) :=
  ⟨tk_clean h, _, good_clean h, fun _ hl => .plain fun hc => h.hash (mem_of_mem_split hl hc)⟩

theorem tm_line (d : Nat) {l : Text} (h : Clean l) : Tm U (flat (outLines d [l])) (lex l) := by
  refine ⟨tk_line d h, ?_⟩
  rw [flat_outLines, List.flatMap_cons, List.flatMap_nil, List.append_nil]
  have hp : ∀ p ∈ split '\n' (indent d ++ l), Clean p := fun p hp c hc => ((clean_indent d).append h) c (mem_of_mem_split hp hc)
  generalize split '\n' (indent d ++ l) = ps at hp
  induction ps with
  | nil => exact ⟨[], .nil, nofun⟩
  | cons p ps ih =>
    obtain ⟨ls, h1, h2⟩ := ih fun q hq => hp q (by simp [hq])
    have hc : Clean (trimEnd p) := fun c hc => hp p (by simp) c (mem_trimEnd hc)
    rw [List.flatMap_cons]
    refine ⟨_, (good_clean hc).append h1, fun l hl => ?_⟩
    rcases List.mem_append.1 hl with hl | hl
    · exact .plain fun hm => hc.hash (mem_of_mem_split hl hm)
    · exact h2 l hl

theorem tm_nl : Tm U nl [] := tm_clean (s := []) nofun

theorem tm_docs (d : Nat) {docs : List Text} (h : DocsOk docs) : Tm U (flat (cDocs d docs)) [] :=
  ⟨tk_docs d h, _, good_docs d h, fun l hl => by rw [List.mem_singleton.1 hl]; exact .plain (clean_indent d).hash⟩

theorem tm_remark (b : Nat → Text) (k : IntTy) :
    Tm U (flat (outLines 0 [t!"/** \\remark Has the same ABI as `" ++ cName b (.int k) ++ t!"` **/"])) [] :=
  ⟨tk_remark b k, _, good_remark b k, fun l hl => by rw [List.mem_singleton.1 hl]; exact .plain nofun⟩

theorem tm_ifdef : Tm U (flat (outLines 0 [t!"#ifdef DOXYGEN", t!"typedef", t!"#endif"])) [] := by
  have e2 : flat (outLines 0 [t!"#ifdef DOXYGEN", t!"typedef", t!"#endif"]) = [t!"#ifdef DOXYGEN", t!"typedef", t!"#endif"].flatMap (· ++ ['\n']) := by
    decide
  refine ⟨tk_ifdef, ?_⟩
  rw [e2]
  refine ⟨_, good_lines (by decide) (by decide) ?_, ?_⟩
  · intro g l hl
    simp only [List.mem_cons, List.not_mem_nil, or_false] at hl
    rcases hl with rfl | rfl | rfl
    · exact keeps_of (k := t!"ifdef") (r := t!"DOXYGEN") (by decide) (by decide) (by decide) g
    · exact keeps_none (by decide) g
    · exact keeps_of (k := t!"endif") (r := []) (by decide) (by decide) (by decide) g
  · intro l hl
    simp only [List.mem_cons, List.not_mem_nil, or_false] at hl
    rcases hl with rfl | rfl | rfl
    · exact .of (k := t!"ifdef") (r := t!"DOXYGEN") (by decide) nofun
    · exact .plain (by decide)
    · exact .of (k := t!"endif") (r := []) (by decide) nofun

theorem tm_ifndef (k : IntTy) : Tm U (flat (outLines 0 [t!"#ifndef DOXYGEN", t!"; typedef " ++ (k.c ++ t!"_t"), t!"#endif"]))
    [.semi, .id ktypedef, .id (cInt k)] := by
  have e2 : flat (outLines 0 [t!"#ifndef DOXYGEN", t!"; typedef " ++ (k.c ++ t!"_t"), t!"#endif"]) =
      [t!"#ifndef DOXYGEN", t!"; typedef " ++ (k.c ++ t!"_t"), t!"#endif"].flatMap (· ++ ['\n']) := by cases k <;> decide
  refine ⟨tk_ifndef k, ?_⟩
  rw [e2]
  refine ⟨_, good_lines (by cases k <;> decide) (by cases k <;> decide) ?_, ?_⟩
  · intro g l hl
    simp only [List.mem_cons, List.not_mem_nil, or_false] at hl
    rcases hl with rfl | rfl | rfl
    · exact keeps_of (k := t!"ifndef") (r := t!"DOXYGEN") (by decide) (by decide) (by decide) g
    · exact keeps_none (by cases k <;> decide) g
    · exact keeps_of (k := t!"endif") (r := []) (by decide) (by decide) (by decide) g
  · intro l hl
    simp only [List.mem_cons, List.not_mem_nil, or_false] at hl
    rcases hl with rfl | rfl | rfl
    · exact .of (k := t!"ifndef") (r := t!"DOXYGEN") (by decide) nofun
    · exact .plain (by cases k <;> decide)
    · exact .of (k := t!"endif") (r := []) (by decide) nofun

/-! ### Enums -/

/-- The first tokens of an enum. -/
def enumHead (s : Text) (int : Option IntTy) : List Tok :=
  (match int with
    | none => [.id ktypedef]
    | some _ => []) ++ [.id kenum, .id s, .bad '{']

/-- The last ones. -/
def enumTail (n : Text) (int : Option IntTy) : List Tok :=
  .bad '}' :: (match int with
    | none => []
    | some k => [.semi, .id ktypedef, .id (cInt k)]) ++ [.id n, .semi]

theorem tm_enumOpen {b : Nat → Text} {i : Nat} {g : List CTy} (h : wordsOk b (.adt i g) = true) (int : Option IntTy) :
    Tm U (flat (enumOpen b (.adt i g) int)) (enumHead (short b (.adt i g)) int) := by
  have hs := short_clean h
  have hw := short_word b _ h
  cases int with
  | none =>
    refine (tm_line 0 (((by decide : Clean t!"typedef enum ").append hs).append (by decide))).cast ?_
    have e : t!"typedef enum " ++ short b (.adt i g) ++ t!" {" = t!"typedef enum" ++ ' ' :: (short b (.adt i g) ++ t!" {") := by simp
    rw [e, lex_open _ _ [.id ktypedef, .id kenum] hw (by decide)]
    rfl
  | some k =>
    rw [enumOpen, flat_outLines_cons']
    refine Tm.cast ((tm_remark b k).append (?_ : Tm U _ [.id kenum, .id (short b (.adt i g)), .bad '{'])) rfl
    show Tm U (flat (outLines 0 ([t!"#ifdef DOXYGEN", t!"typedef", t!"#endif"] ++ [_]))) _
    rw [flat_outLines_append]
    refine Tm.cast (tm_ifdef.append (tm_line 0 (((by decide : Clean t!"enum ").append hs).append (by decide)))) ?_
    have e : t!"enum " ++ short b (.adt i g) ++ t!" {" = t!"enum" ++ ' ' :: (short b (.adt i g) ++ t!" {") := by simp
    rw [e, lex_open _ _ [.id kenum] hw (by decide)]
    rfl

theorem tm_enumClose {b : Nat → Text} {i : Nat} {g : List CTy} (h : wordsOk b (.adt i g) = true) (int : Option IntTy) :
    Tm U (flat (enumClose b (.adt i g) int)) (enumTail (cName b (.adt i g)) int) := by
  have hs := cName_clean h
  have hw := (cName_named_abi (ty := .adt i g) rfl h).1
  cases int with
  | none => exact (tm_line 0 (((by decide : Clean t!"} ").append hs).append (by decide))).cast (lex_close hw)
  | some k =>
    have ek : cName b (.int k) = k.c ++ t!"_t" := by rw [cName, cVar_int]; simp [sep]
    rw [enumClose, flat_outLines_cons', ek]
    refine Tm.cast ((tm_line 0 (by decide : Clean t!"}")).append
      (?_ : Tm U _ [.semi, .id ktypedef, .id (cInt k), .id (cName b (.adt i g)), .semi])) rfl
    show Tm U (flat (outLines 0 ([t!"#ifndef DOXYGEN", t!"; typedef " ++ (k.c ++ t!"_t"), t!"#endif"] ++ [_]))) _
    rw [flat_outLines_append]
    refine Tm.cast ((tm_ifndef k).append (tm_line 0 (hs.append (by decide)))) ?_
    rw [lex_name_semi hw]
    rfl

theorem tm_enum {b : Nat → Text} {i : Nat} {g : List CTy} (h : wordsOk b (.adt i g) = true) {docs : List Text} {int : Option IntTy}
    {vs : List Variant} (hd : DeclFine (.enum docs int vs)) :
    Tm U (flat (cEnum b docs (.adt i g) int vs)) (enumHead (short b (.adt i g)) int ++
      (vs.flatMap fun v => lex (enumLine (constName (short b (.adt i g)) v.name) v.disc)) ++ enumTail (cName b (.adt i g)) int) := by
  obtain ⟨hd, hv⟩ := hd
  have hvs : Tm U (flat (vs.flatMap fun v => cDocs 1 v.docs ++ outLines 1 [enumLine (constName (short b (.adt i g)) v.name) v.disc]))
      (vs.flatMap fun v => lex (enumLine (constName (short b (.adt i g)) v.name) v.disc)) := by
    clear hd
    induction vs with
    | nil => exact .nil
    | cons v vs ih =>
      have ih := ih fun v hv' => hv v (by simp [hv'])
      obtain ⟨h1, h2, h3⟩ := hv v (by simp)
      rw [List.flatMap_cons, flat_append, flat_append, List.flatMap_cons]
      have hc := constName_clean (short_clean h) h2.clean
      have hl : Clean (enumLine (constName (short b (.adt i g)) v.name) v.disc) := by
        cases hdisc : v.disc with
        | none => exact hc.append (by decide)
        | some d => exact ((hc.append (by decide)).append (h3 d hdisc).1.clean).append (by decide)
      exact ((tm_docs 1 h1).append (tm_line 1 hl)).append ih
  rw [cEnum, flat_append, flat_append, flat_append, flat_append]
  exact (((((tm_docs 0 hd).append (tm_enumOpen h int)).append hvs).append (tm_enumClose h int)).append tm_nl).cast (by simp)

/-! ### Structs -/

theorem tm_var (d : Nat) {b : Nat → Text} {ty : CTy} (hw : wordsOk b ty = true) (v : Text) (hv : Clean v) :
    Tm U (flat (outLines d [cVar b ty v ++ t!";"])) (lex (cVar b ty v) ++ [.semi]) :=
  (tm_line d ((cVar_clean hw hv).append (by decide))).cast (by rw [lex_semi]; rfl)

theorem tm_fields {b : Nat → Text} (first : Bool) {fs : List Field}
    (h : ∀ f ∈ fs, (DocsOk f.docs ∧ IsWord f.name ∧ f.name ≠ kconst) ∧ wordsOk b f.ty = true ∧ declOk f.ty = true)
    (hp : (fields b .c first fs).panics = false) :
    Tm U (flat (fields b .c first fs).writes) ((kept fs).flatMap fun f => lex (cVar b f.ty f.name) ++ [.semi]) := by
  induction fs generalizing first with
  | nil => exact .nil
  | cons f fs ih =>
    have ih' := fun first => ih first fun f hf => h f (by simp [hf])
    obtain ⟨⟨h1, h2, h3⟩, h4, h5⟩ := h f (by simp)
    rw [fields] at hp ⊢
    by_cases h0 : f.size = 0
    · have e : kept (f :: fs) = kept fs := by simp [kept, h0]
      rw [if_pos h0] at hp ⊢
      rw [e]
      by_cases ha : 1 < f.align
      · rw [if_pos ha] at hp; cases hp
      · rw [if_neg ha] at hp ⊢; exact ih' first hp
    · have e : kept (f :: fs) = f :: kept fs := by simp [kept, h0]
      rw [if_neg h0] at hp ⊢
      have h6 := ih' false hp
      simp only
      rw [flat_append, flat_append, flat_append, e, List.flatMap_cons]
      have hn : Tm U (flat (if first = true then [] else [nl])) [] := by
        cases first
        · exact tm_nl
        · exact .nil
      exact ((hn.append (tm_docs 1 h1)).append (tm_var 1 h4 _ h2.clean)).append h6

theorem tm_struct {b : Nat → Text} {i : Nat} {g : List CTy} (h : wordsOk b (.adt i g) = true) {docs : List Text} {size : Nat} {fs : List Field}
    (hd : DeclFine (.struct docs size fs)) (hf : ∀ f ∈ fs, wordsOk b f.ty = true ∧ declOk f.ty = true)
    (hp : (emitStruct b .c docs (.adt i g) size fs).panics = false) :
    Tm U (flat (emitStruct b .c docs (.adt i g) size fs).writes) ([.id ktypedef, .id kstruct, .id (short b (.adt i g)), .bad '{'] ++
      ((kept fs).flatMap fun f => lex (cVar b f.ty f.name) ++ [.semi]) ++ [.bad '}', .id (cName b (.adt i g)), .semi]) := by
  by_cases hs : size = 0
  · rw [emitStruct.eq_def, if_pos hs] at hp; cases hp
  · rw [emitStruct.eq_def, if_neg hs] at hp ⊢
    change (structEnd _ _ _).panics = false at hp
    change Tm U (flat (structEnd _ _ _).writes) _
    rw [structEnd] at hp ⊢
    split at hp
    · cases hp
    · next hpf =>
      rw [if_neg hpf]
      have h1 := tm_fields (U := U) (b := b) true (fs := fs) (fun f hm => ⟨hd.2 f hm, hf f hm⟩) (by simpa using hpf)
      have h3 : Tm U (flat (outLines 0 [t!"typedef struct " ++ short b (.adt i g) ++ t!" {"])) [.id ktypedef, .id kstruct, .id (short b (.adt i g)), .bad '{'] := by
        refine (tm_line 0 (((by decide : Clean t!"typedef struct ").append (short_clean h)).append (by decide))).cast ?_
        have e : t!"typedef struct " ++ short b (.adt i g) ++ t!" {" = t!"typedef struct" ++ ' ' :: (short b (.adt i g) ++ t!" {") := by simp
        rw [e, lex_open _ _ [.id ktypedef, .id kstruct] (short_word b _ h) (by decide)]
        rfl
      have h4 : Tm U (flat (outLines 0 [t!"} " ++ name b .c (.adt i g) ++ t!";"])) [.bad '}', .id (cName b (.adt i g)), .semi] :=
        (tm_line 0 (((by decide : Clean t!"} ").append (cName_clean h)).append (by decide))).cast (lex_close (cName_named_abi (ty := .adt i g) rfl h).1)
      simp only [flat_append]
      exact (((((tm_docs 0 hd.1).append h3).append h1).append h4).append tm_nl).cast (by simp)

theorem tm_opaque {b : Nat → Text} {i : Nat} {g : List CTy} (h : wordsOk b (.adt i g) = true) {docs : List Text}
    (hd : DocsOk docs) : Tm U (flat (emitOpaque b .c docs (.adt i g)))
      [.id ktypedef, .id kstruct, .id (short b (.adt i g)), .id (cName b (.adt i g)), .semi] := by
  rw [emitOpaque]
  simp only [flat_append]
  refine (((tm_docs 0 hd).append (tm_line 0 ((((by decide : Clean t!"typedef struct ").append (short_clean h)).append
    (by decide : Clean t!" ")).append (cName_clean h) |>.append (by decide)))).append tm_nl).cast ?_
  have e : t!"typedef struct " ++ short b (.adt i g) ++ t!" " ++ cName b (.adt i g) ++ t!";" =
      t!"typedef struct" ++ ' ' :: (short b (.adt i g) ++ ' ' :: (cName b (.adt i g) ++ t!";")) := by simp
  rw [e, lex_blank, lex_blank, lex_word (short_word b _ h), lex_name_semi (cName_named_abi (ty := .adt i g) rfl h).1,
    show lex t!"typedef struct" = [.id ktypedef, .id kstruct] by decide]
  rfl

/-! ### Arrays, aliases, functions and constants -/

theorem tm_array {b : Nat → Text} {n : Nat} {item : CTy} (h : wordsOk b (.array n item) = true) :
    Tm U (flat (cArray b n item)) ([.id ktypedef, .id kstruct, .bad '{'] ++ lex (cVar b item (t!"idx[" ++ nat n ++ t!"]")) ++
      [.semi, .bad '}', .id (cName b (.array n item)), .semi]) := by
  have h' : wordsOk b item = true := h
  have e : flat (cArray b n item) = (t!"typedef struct {\n    " ++ cVar b item (t!"idx[" ++ nat n ++ t!"]") ++ t!";\n} " ++ cVar b (.array n item) [] ++ t!";\n") ++ ['\n'] := by
    simp [cArray, flat]
  rw [e]
  refine (tm_clean ?_).cast ?_
  · exact ((((by decide : Clean t!"typedef struct {\n    ").append (cVar_clean h' (((by decide : Clean t!"idx[").append (nat_clean n)).append
      (by decide)))).append (by decide : Clean t!";\n} ")).append (cVar_clean h (by decide))).append (by decide)
  · have hw := (cName_named_abi (ty := .array n item) rfl h).1
    have e2 : t!"typedef struct {\n    " ++ cVar b item (t!"idx[" ++ nat n ++ t!"]") ++ t!";\n} " ++ cVar b (.array n item) [] ++ t!";\n" =
        t!"typedef struct {\n   " ++ ' ' :: (cVar b item (t!"idx[" ++ nat n ++ t!"]") ++ ';' :: ([] ++ '\n' :: (t!"} " ++ cName b (.array n item) ++ t!";" ++ '\n' :: []))) := by
      simp [cName]
    rw [e2, lex_blank, lex_semi, lex_newline, lex_newline, lex_close hw, lex_nil,
      show lex t!"typedef struct {\n   " = [.id ktypedef, .id kstruct, .bad '{'] by decide]
    simp

theorem tm_alias {b : Nat → Text} {rn : Text} {docs : List Text} {inner : CTy} (h : IsWord rn) (hd : DocsOk docs) (hw : wordsOk b inner = true) :
    Tm U (flat (emitAlias b docs (.alias rn docs inner) inner)) ([.id ktypedef] ++ lex (cVar b inner []) ++
      [.id (cName b (.alias rn docs inner)), .semi]) := by
  have ha : wordsOk b (.alias rn docs inner) = true := by rw [wordsOk]; simpa using h
  have hn := cName_named_abi (ty := .alias rn docs inner) rfl ha
  rw [emitAlias, flat_append, flat_append]
  refine (((tm_docs 0 hd).append (tm_line 0 (?_ : Clean (aliasLine b (.alias rn docs inner) inner)))).append tm_nl).cast ?_
  · rw [aliasLine]
    exact ((((by decide : Clean t!"typedef ").append (cName_clean hw)).append (by decide : Clean t!" ")).append (cName_clean ha)).append (by decide)
  · have e : aliasLine b (.alias rn docs inner) inner = t!"typedef" ++ ' ' :: (cVar b inner [] ++ ' ' :: (cName b (.alias rn docs inner) ++ ';' :: [])) := by
      simp [aliasLine, cName]
    rw [e, lex_blank, lex_blank, lex_semi, lex_nil, show lex t!"typedef" = [.id ktypedef] by decide, lex_word hn.1]
    simp

theorem tm_function {b : Nat → Text} {f : Fn} (h1 : DocsOk f.docs) (h2 : IsWord f.name)
    (h4 : ∀ a ∈ f.args, IsWord a.name ∧ wordsOk b a.ty = true) (h5 : wordsOk b f.ret = true) :
    Tm U (flat (emitFunction b .c f.docs f.name f.args f.ret)) (lex (cVar b f.ret (sig b .c f.name f.args)) ++ [.semi]) := by
  show Tm U (flat (emitDocs .c 0 f.docs ++ outLines 0 [cVar b f.ret (sig b .c f.name f.args) ++ t!";"] ++ [nl])) _
  simp only [flat_append]
  have hs : Clean (sig b .c f.name f.args) := by
    rw [sig]
    exact ((((by decide : Clean nl).append (clean_indent 0)).append h2.clean).append (by decide)).append
      (sigArgs_clean true h4) |>.append (by decide)
  exact (((tm_docs 0 h1).append (tm_var 0 h5 _ hs)).append tm_nl).cast (by simp)

theorem tm_constant {b : Nat → Text} {docs : List Text} {nm : Text} {ty : CTy} {untyped : Bool} {value : Text} (h1 : DocsOk docs) (h2 : IsWord nm)
    (h3 : wordsOk b ty = true) (h4 : ValueOk value) (h5' : nm ≠ cxx) (h6' : nm ≠ dox) (hU : U nm) :
    Tm U (flat (emitConstant b .c docs nm ty untyped value)) [] := by
  refine ⟨tk_constant h1 h2 h3 h4 h5' h6', ?_⟩
  rw [emitConstant]
  simp only [flat_append]
  have hh : ∀ x : Text, (nm ++ x).head?.all isWordChar = true ∧ nm ++ x ≠ [] := by
    intro x
    obtain ⟨c, cs, e⟩ := List.exists_cons_of_ne_nil h2.1
    have := h2.2 c (by rw [e]; simp)
    rw [e]
    simp [this]
  have n1 : '/' ∉ nm := h2.not_mem (by decide)
  have n2 : '\n' ∉ nm := h2.not_mem (by decide)
  have t1 : '/' ∉ cName b ty := (cName_clean h3).slash
  have t2 : '\n' ∉ cName b ty := (cVar_declText b ty h3 (v := []) nofun).not_mem (by decide)
  have hdef : ∀ x : Text, '/' ∉ x → '\n' ∉ x → ∃ ls, Good (flat (outLines 0 [t!"#define " ++ (nm ++ ' ' :: x)])) ls ∧ ∀ l ∈ ls, LineOk U l := by
    intro x h5 h6
    obtain ⟨l, r, g1, g2, g3⟩ := good_define (s := nm ++ ' ' :: x) (by simp [n1, n2, h5, h6]) (hh _).1 (hh _).2 (by rw [ident_word h2 _ (by decide)]; exact h5')
    refine ⟨_, g1, fun l' hl => ?_⟩
    rw [List.mem_singleton.1 hl]
    exact .of g2 fun _ => by rw [g3, ident_word h2 _ (by decide)]; exact hU
  have hd : ∃ ls, Good (flat (outLines 0 [if untyped = true then t!"#define " ++ nm ++ t!" " ++ value
      else t!"#define " ++ nm ++ t!" ((" ++ cName b ty ++ t!") " ++ value ++ t!")"])) ls ∧ ∀ l ∈ ls, LineOk U l := by
    cases untyped
    · have := hdef (t!"((" ++ cName b ty ++ t!") " ++ value ++ t!")") (by simp [t1, h4.1]) (by simp [t2, h4.2.1])
      simpa using this
    · have := hdef value h4.1 h4.2.1
      simpa using this
  obtain ⟨ls, g1, g2⟩ := hd
  obtain ⟨_, l1, g3, g4⟩ := tm_docs (U := U) 0 h1
  obtain ⟨_, l2, g5, g6⟩ := tm_nl (U := U)
  refine ⟨(l1 ++ ls) ++ l2, ?_, fun l hl => ?_⟩
  · have := (g3.append g1).append g5
    rw [show flat [nl] = nl from rfl]
    cases untyped <;> simpa [emitDocs] using this
  · simp only [List.mem_append] at hl
    rcases hl with (hl | hl) | hl
    · exact g4 l hl
    · exact g2 l hl
    · exact g6 l hl

/-! ### Items -/

/-- The tokens of an item. -/
def itemToks (P : Prog) : Item → List Tok
  | .type _ (.adt i g) =>
      match P.decl i g with
      | .struct _ _ fs => [.id ktypedef, .id kstruct, .id (short P.base (.adt i g)), .bad '{'] ++
          ((kept fs).flatMap fun f => lex (cVar P.base f.ty f.name) ++ [.semi]) ++ [.bad '}', .id (cName P.base (.adt i g)), .semi]
      | .enum _ int vs => enumHead (short P.base (.adt i g)) int ++
          (vs.flatMap fun v => lex (enumLine (constName (short P.base (.adt i g)) v.name) v.disc)) ++ enumTail (cName P.base (.adt i g)) int
      | .opaque _ => [.id ktypedef, .id kstruct, .id (short P.base (.adt i g)), .id (cName P.base (.adt i g)), .semi]
  | .type _ (.array n item) => [.id ktypedef, .id kstruct, .bad '{'] ++ lex (cVar P.base item (t!"idx[" ++ nat n ++ t!"]")) ++
      [.semi, .bad '}', .id (cName P.base (.array n item)), .semi]
  | .type _ (.alias rn docs inner) => [.id ktypedef] ++ lex (cVar P.base inner []) ++ [.id (cName P.base (.alias rn docs inner)), .semi]
  | .func _ f => lex (cVar P.base f.ret (sig P.base .c f.name f.args)) ++ [.semi]
  | _ => []

theorem tm_item {P : Prog} {it : Item} (h : ItemFine P it) (hp : (render P it).panics = false) (hU : ∀ l k, it = .const l k → U k.name) :
    Tm U (flat (render P it).writes) (itemToks P it) := by
  cases it with
  | intHeaders =>
    have e : flat (render P .intHeaders).writes = [[], t!"#include <stddef.h>", t!"#include <stdint.h>", []].flatMap (· ++ ['\n']) := rfl
    rw [e]
    have hg : Good ([[], t!"#include <stddef.h>", t!"#include <stdint.h>", []].flatMap (· ++ ['\n']))
        [[], t!"#include <stddef.h>", t!"#include <stdint.h>", []] := good_lines (by decide) (by decide) fun g l hl => by
      simp only [List.mem_cons, List.not_mem_nil, or_false] at hl
      rcases hl with rfl | rfl | rfl | rfl
      · rfl
      · exact keeps_of (k := t!"include") (r := t!"<stddef.h>") (by decide) (by decide) (by decide) g
      · exact keeps_of (k := t!"include") (r := t!"<stdint.h>") (by decide) (by decide) (by decide) g
      · rfl
    refine ⟨⟨_, hg, fun eval D hD => ⟨D, [t!"#include <stddef.h>", t!"#include <stdint.h>"], rfl, hD, rfl⟩⟩, _, hg, fun l hl => ?_⟩
    simp only [List.mem_cons, List.not_mem_nil, or_false] at hl
    rcases hl with rfl | rfl | rfl | rfl
    · exact .plain nofun
    · exact .of (k := t!"include") (r := t!"<stddef.h>") (by decide) nofun
    · exact .of (k := t!"include") (r := t!"<stdint.h>") (by decide) nofun
    · exact .plain nofun
  | boolHeader =>
    have e : flat (render P .boolHeader).writes = [[], t!"#include <stdbool.h>", []].flatMap (· ++ ['\n']) := rfl
    rw [e]
    have hg : Good ([[], t!"#include <stdbool.h>", []].flatMap (· ++ ['\n'])) [[], t!"#include <stdbool.h>", []] :=
      good_lines (by decide) (by decide) fun g l hl => by
        simp only [List.mem_cons, List.not_mem_nil, or_false] at hl
        rcases hl with rfl | rfl | rfl
        · rfl
        · exact keeps_of (k := t!"include") (r := t!"<stdbool.h>") (by decide) (by decide) (by decide) g
        · rfl
    refine ⟨⟨_, hg, fun eval D hD => ⟨D, [t!"#include <stdbool.h>"], rfl, hD, rfl⟩⟩, _, hg, fun l hl => ?_⟩
    simp only [List.mem_cons, List.not_mem_nil, or_false] at hl
    rcases hl with rfl | rfl | rfl
    · exact .plain nofun
    · exact .of (k := t!"include") (r := t!"<stdbool.h>") (by decide) nofun
    · exact .plain nofun
  | type lang ty =>
    obtain ⟨rfl, hn, h1, h2, h3, h4⟩ := h
    cases ty with
    | adt i g =>
      change (renderDecl P .c (.adt i g) (P.decl i g)).panics = false at hp
      change Tm U (flat (renderDecl P .c (.adt i g) (P.decl i g)).writes) (itemToks P (.type .c (.adt i g)))
      change DeclFine (P.decl i g) at h3
      rw [itemToks]
      cases hd : P.decl i g with
      | struct docs size fs => rw [hd] at h3 hp; exact tm_struct h1 h3 (h4 docs size fs hd) hp
      | enum docs int vs => rw [hd] at h3; exact tm_enum h1 h3
      | «opaque» docs => rw [hd] at h3; exact tm_opaque h1 h3
    | alias rn docs inner => exact tm_alias (by simpa [wordsOk] using h1) h3.1 h4.1
    | array n item => exact tm_array h1
    | _ => cases hn
  | func lang f =>
    obtain ⟨rfl, ⟨h1, h2, h3, h4⟩, h5, h6, h7⟩ := h
    exact tm_function h1 h2 (fun a ha => ⟨(h4 a ha).1, (h5 a ha).1⟩) h6
  | const lang c =>
    obtain ⟨rfl, ⟨h1, h2, h3, h4, h5⟩, h6⟩ := h
    exact tm_constant h1 h2 h6 h3 h4 h5 (hU _ _ rfl)
  | text s => exact h.elim

theorem tm_items {P : Prog} {its : List Item} (h : ∀ it ∈ its, ItemFine P it ∧ (render P it).panics = false)
    (hU : ∀ l k, .const l k ∈ its → U k.name) : Tm U (flat (its.flatMap fun it => (render P it).writes)) (its.flatMap (itemToks P)) := by
  induction its with
  | nil => exact .nil
  | cons it its ih =>
    rw [List.flatMap_cons, flat_append, List.flatMap_cons]
    exact (tm_item (h it (by simp)).1 (h it (by simp)).2 fun l k e => hU l k (by simp [e])).append
      (ih (fun it hit => h it (by simp [hit])) fun l k hk => hU l k (by simp [hk]))

end

end Verif.Headers
