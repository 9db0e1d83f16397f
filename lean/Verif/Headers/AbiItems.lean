import Verif.Headers.AbiUnits
import Verif.Headers.PpProps
/-! # Every item of a C header, read as declarations -/
namespace Verif.Headers
open Text

/-! ### Tokens of lines -/

/-- What Doxygen defines. -/
def dox : Text := t!"DOXYGEN"

/-- The text stands on lines of its own, and compilers see these tokens of it. -/
def Tk (s : Text) (toks : List Tok) : Prop :=
  ∃ ls, Good s ls ∧ ∀ eval D, dox ∉ D → ∃ D' new, (Pp.mk D [] []).run eval ls = some ⟨D', [], new⟩ ∧ dox ∉ D' ∧ tokens new = toks

theorem tokens_append (a b : List Text) : tokens (a ++ b) = tokens a ++ tokens b := by
  rw [tokens, tokens, tokens, List.filter_append, List.flatMap_append]

theorem Tk.nil : Tk [] [] := ⟨[], .nil, fun _ D h => ⟨D, [], rfl, h, rfl⟩⟩

theorem Tk.append {a b : Text} {x y : List Tok} (ha : Tk a x) (hb : Tk b y) : Tk (a ++ b) (x ++ y) := by
  obtain ⟨as, h1, h2⟩ := ha
  obtain ⟨bs, h3, h4⟩ := hb
  refine ⟨_, h1.append h3, fun eval D hD => ?_⟩
  obtain ⟨D1, n1, r1, d1, t1⟩ := h2 eval D hD
  obtain ⟨D2, n2, r2, d2, t2⟩ := h4 eval D1 d1
  refine ⟨D2, n1 ++ n2, ?_, d2, by rw [tokens_append, t1, t2]⟩
  have := run_frame (base := []) rfl n1 r2
  rw [Pp.run_append, r1, Option.bind_some]
  simpa [Pp.frame] using this

theorem Tk.cast {s : Text} {a b : List Tok} (h : Tk s a) (e : a = b) : Tk s b := e ▸ h

theorem lex_trim (s : Text) : lex (trim s) = lex s := by
  rw [trim, lex_trimEnd, trimStart]
  induction s with
  | nil => rfl
  | cons c s ih =>
    rw [List.dropWhile_cons]
    split
    · next h => rw [ih, lex_ws_cons _ h]
    · rfl

theorem lex_split (s : Text) : (split '\n' s).flatMap lex = lex s := by
  rw [← lex_lines s]
  generalize split '\n' s = ls
  induction ls with
  | nil => rfl
  | cons l ls ih => rw [List.flatMap_cons, List.flatMap_cons, ih, List.append_assoc, List.singleton_append, lex_newline, lex_trimEnd]

/-- Lines without directives. -/
theorem run_plain {ls : List Text} (h : ∀ l ∈ ls, '#' ∉ l) (eval : List Text → Text → Bool) (D : List Text) :
    ∃ new, (Pp.mk D [] []).run eval ls = some ⟨D, [], new⟩ ∧ tokens new = ls.flatMap lex := by
  induction ls with
  | nil => exact ⟨[], rfl, rfl⟩
  | cons l ls ih =>
    obtain ⟨new, h1, h2⟩ := ih fun l hl => h l (by simp [hl])
    have hl := h l (by simp)
    have hk : (Pp.mk D [] []).step eval l = some ((Pp.mk D [] []).keep l) := by rw [Pp.step, directive_none hl]
    rw [Pp.run, hk, Option.bind_some, List.flatMap_cons]
    by_cases he : (trim l).isEmpty = true
    · refine ⟨new, ?_, ?_⟩
      · rw [Pp.keep, he]; exact h1
      · rw [h2, ← lex_trim l, List.isEmpty_iff.1 he]; rfl
    · refine ⟨trim l :: new, ?_, ?_⟩
      · have e : (Pp.mk D [] []).keep l = (Pp.mk D [] []).frame [] [trim l] := by simp [Pp.keep, Pp.active, he, Pp.frame]
        rw [e, run_frame (base := []) rfl [trim l] h1]
        rfl
      · have hd : directive (trim l) = none := directive_none fun hm => hl (mem_trim hm)
        rw [← h2, ← lex_trim l, tokens, List.filter_cons, hd]
        rfl

/-- A clean text. -/
theorem tk_clean {s : Text} (h : Clean s) : Tk (s ++ ['\n']) (lex s) := by
  refine ⟨_, good_clean h, fun eval D hD => ?_⟩
  obtain ⟨new, h1, h2⟩ := run_plain (ls := split '\n' s) (fun l hl hc => h.hash (mem_of_mem_split hl hc)) eval D
  exact ⟨D, new, h1, hD, by rw [h2, lex_split]⟩

theorem lex_indent (d : Nat) (s : Text) : lex (indent d ++ s) = lex s := by
  rw [indent]
  generalize d * 4 = n
  induction n with
  | zero => rfl
  | succ n ih => rw [List.replicate_succ, List.cons_append, lex_ws_cons _ (by decide), ih]

/-- A clean line. -/
theorem tk_line (d : Nat) {l : Text} (h : Clean l) : Tk (flat (outLines d [l])) (lex l) := by
  rw [flat_outLines, List.flatMap_cons, List.flatMap_nil, List.append_nil]
  rw [← lex_indent d l, ← lex_split]
  have hp : ∀ p ∈ split '\n' (indent d ++ l), Clean p := fun p hp c hc => ((clean_indent d).append h) c (mem_of_mem_split hp hc)
  generalize split '\n' (indent d ++ l) = ps at hp
  induction ps with
  | nil => exact .nil
  | cons p ps ih =>
    rw [List.flatMap_cons, List.flatMap_cons, ← lex_trimEnd p]
    exact (tk_clean fun c hc => hp p (by simp) c (mem_trimEnd hc)).append (ih fun q hq => hp q (by simp [hq]))

theorem tk_nl : Tk nl [] := tk_clean (s := []) nofun

/-- Lines that leave nothing. -/
theorem Tk.quiet {s : Text} {ls : List Text} (h : Good s ls) (hr : ∀ eval D, dox ∉ D → (Pp.mk D [] []).run eval ls = some ⟨D, [], []⟩) : Tk s [] :=
  ⟨ls, h, fun eval D hD => ⟨D, [], hr eval D hD, hD, rfl⟩⟩

theorem trim_indent (d : Nat) : trim (indent d) = [] := by
  have : trimStart (indent d) = [] := by
    rw [trimStart, indent]
    generalize d * 4 = n
    induction n with
    | zero => rfl
    | succ n ih => rw [List.replicate_succ, List.dropWhile_cons, if_pos (by decide), ih]
  rw [trim, this]; rfl

theorem tk_docs (d : Nat) {docs : List Text} (h : DocsOk docs) : Tk (flat (cDocs d docs)) [] := by
  refine .quiet (good_docs d h) fun eval D _ => ?_
  rw [Pp.run, Pp.step, directive_none (clean_indent d).hash]
  simp only
  rw [Pp.keep, trim_indent]
  rfl

theorem tk_remark (b : Nat → Text) (k : IntTy) :
    Tk (flat (outLines 0 [t!"/** \\remark Has the same ABI as `" ++ cName b (.int k) ++ t!"` **/"])) [] :=
  .quiet (good_remark b k) fun _ _ _ => rfl

/-! ### Directives -/

theorem step_ifdef_dox (eval : List Text → Text → Bool) (D o : List Text) (hD : dox ∉ D) :
    (Pp.mk D [] o).step eval t!"#ifdef DOXYGEN" = some ⟨D, [⟨true, false, false⟩], o⟩ := by
  show some ((Pp.mk D [] o).push (decide (dox ∈ D))) = _
  rw [decide_eq_false hD]; rfl

theorem step_ifndef_dox (eval : List Text → Text → Bool) (D o : List Text) (hD : dox ∉ D) :
    (Pp.mk D [] o).step eval t!"#ifndef DOXYGEN" = some ⟨D, [⟨true, true, true⟩], o⟩ := by
  show some ((Pp.mk D [] o).push (decide (dox ∉ D))) = _
  rw [decide_eq_true hD]; rfl

/-- `#ifdef DOXYGEN`, `typedef`, `#endif` -/
theorem tk_ifdef : Tk (flat (outLines 0 [t!"#ifdef DOXYGEN", t!"typedef", t!"#endif"])) [] := by
  have e2 : flat (outLines 0 [t!"#ifdef DOXYGEN", t!"typedef", t!"#endif"]) = [t!"#ifdef DOXYGEN", t!"typedef", t!"#endif"].flatMap (· ++ ['\n']) := by
    decide
  rw [e2]
  refine .quiet (good_lines (by decide) (by decide) ?_) fun eval D hD => ?_
  · intro g l hl
    simp only [List.mem_cons, List.not_mem_nil, or_false] at hl
    rcases hl with rfl | rfl | rfl
    · exact keeps_of (k := t!"ifdef") (r := t!"DOXYGEN") (by decide) (by decide) (by decide) g
    · exact keeps_none (by decide) g
    · exact keeps_of (k := t!"endif") (r := []) (by decide) (by decide) (by decide) g
  · rw [Pp.run, step_ifdef_dox _ _ _ hD]; rfl

/-- `#ifndef DOXYGEN`, `; typedef …`, `#endif` -/
theorem tk_ifndef (k : IntTy) : Tk (flat (outLines 0 [t!"#ifndef DOXYGEN", t!"; typedef " ++ (k.c ++ t!"_t"), t!"#endif"]))
    [.semi, .id ktypedef, .id (cInt k)] := by
  have e2 : flat (outLines 0 [t!"#ifndef DOXYGEN", t!"; typedef " ++ (k.c ++ t!"_t"), t!"#endif"]) =
      [t!"#ifndef DOXYGEN", t!"; typedef " ++ (k.c ++ t!"_t"), t!"#endif"].flatMap (· ++ ['\n']) := by cases k <;> decide
  rw [e2]
  refine ⟨_, good_lines (by cases k <;> decide) (by cases k <;> decide) ?_, fun eval D hD => ?_⟩
  · intro g l hl
    simp only [List.mem_cons, List.not_mem_nil, or_false] at hl
    rcases hl with rfl | rfl | rfl
    · exact keeps_of (k := t!"ifndef") (r := t!"DOXYGEN") (by decide) (by decide) (by decide) g
    · exact keeps_none (by cases k <;> decide) g
    · exact keeps_of (k := t!"endif") (r := []) (by decide) (by decide) (by decide) g
  · refine ⟨D, [t!"; typedef " ++ (k.c ++ t!"_t")], ?_, hD, by cases k <;> decide⟩
    rw [Pp.run, step_ifndef_dox _ _ _ hD]
    cases k <;> rfl

theorem lex_open (p s : Text) (ks : List Tok) (hs : IsWord s) (hp : lex p = ks) : lex (p ++ ' ' :: (s ++ t!" {")) = ks ++ [.id s, .bad '{'] := by
  have e : s ++ t!" {" = s ++ ' ' :: t!"{" := by simp
  rw [lex_blank, e, lex_blank, lex_word hs, hp]
  rfl

theorem tk_enumOpen {b : Nat → Text} {i : Nat} {g : List CTy} (h : wordsOk b (.adt i g) = true) (int : Option IntTy) :
    Tk (flat (enumOpen b (.adt i g) int))
      (match int with
        | none => [.id ktypedef, .id kenum, .id (short b (.adt i g)), .bad '{']
        | some _ => [.id kenum, .id (short b (.adt i g)), .bad '{']) := by
  have hs := short_clean h
  have hw := short_word b _ h
  cases int with
  | none =>
    refine (tk_line 0 (((by decide : Clean t!"typedef enum ").append hs).append (by decide))).cast ?_
    have e : t!"typedef enum " ++ short b (.adt i g) ++ t!" {" = t!"typedef enum" ++ ' ' :: (short b (.adt i g) ++ t!" {") := by simp
    rw [e, lex_open _ _ [.id ktypedef, .id kenum] hw (by decide)]
    rfl
  | some k =>
    rw [enumOpen, flat_outLines_cons']
    refine Tk.cast ((tk_remark b k).append (?_ : Tk _ [.id kenum, .id (short b (.adt i g)), .bad '{'])) rfl
    show Tk (flat (outLines 0 ([t!"#ifdef DOXYGEN", t!"typedef", t!"#endif"] ++ [_]))) _
    rw [flat_outLines_append]
    refine Tk.cast (tk_ifdef.append (tk_line 0 (((by decide : Clean t!"enum ").append hs).append (by decide)))) ?_
    have e : t!"enum " ++ short b (.adt i g) ++ t!" {" = t!"enum" ++ ' ' :: (short b (.adt i g) ++ t!" {") := by simp
    rw [e, lex_open _ _ [.id kenum] hw (by decide)]
    rfl

theorem lex_name_semi {n : Text} (h : IsWord n) : lex (n ++ t!";") = [.id n, .semi] := by
  rw [lex_semi, lex_word h]; rfl

theorem lex_close {n : Text} (h : IsWord n) : lex (t!"} " ++ n ++ t!";") = [.bad '}', .id n, .semi] := by
  have e : t!"} " ++ n ++ t!";" = t!"}" ++ ' ' :: (n ++ t!";") := by simp
  rw [e, lex_blank, lex_name_semi h]
  rfl

theorem cName_adt (b : Nat → Text) (i : Nat) (g : List CTy) : cName b (.adt i g) = short b (.adt i g) ++ t!"_t" := by
  rw [cName, cVar_adt]; simp [sep]
theorem cName_array (b : Nat → Text) (n : Nat) (item : CTy) : cName b (.array n item) = short b (.array n item) ++ t!"_t" := by
  rw [cName, cVar_array]; simp [sep]
theorem cName_alias (b : Nat → Text) (r : Text) (d : List Text) (inner : CTy) : cName b (.alias r d inner) = r ++ t!"_t" := by
  rw [cName, cVar_alias]; simp [sep]

/-- The names of the types that headers define are words, but no keywords. -/
theorem cName_named_abi {b : Nat → Text} {ty : CTy} (hn : hasDef ty = true) (hw : wordsOk b ty = true) :
    IsWord (cName b ty) ∧ cName b ty ≠ kconst ∧ ctype b ty = .name (cName b ty) := by
  cases ty with
  | array n item => rw [cName_array]; exact ⟨(short_word b (.array n item) hw).append t_word, t_ne_const _, rfl⟩
  | alias r d inner => rw [cName_alias]; exact ⟨(short_word b (.alias r d inner) hw).append t_word, t_ne_const _, rfl⟩
  | adt i g => rw [cName_adt]; exact ⟨(short_word b (.adt i g) hw).append t_word, t_ne_const _, rfl⟩
  | _ => cases hn

theorem tk_enumClose {b : Nat → Text} {i : Nat} {g : List CTy} (h : wordsOk b (.adt i g) = true) (int : Option IntTy) :
    Tk (flat (enumClose b (.adt i g) int))
      (match int with
        | none => [.bad '}', .id (cName b (.adt i g)), .semi]
        | some k => [.bad '}', .semi, .id ktypedef, .id (cInt k), .id (cName b (.adt i g)), .semi]) := by
  have hs := cName_clean h
  have hw := (cName_named_abi (ty := .adt i g) rfl h).1
  cases int with
  | none => exact (tk_line 0 (((by decide : Clean t!"} ").append hs).append (by decide))).cast (lex_close hw)
  | some k =>
    have ek : cName b (.int k) = k.c ++ t!"_t" := by rw [cName, cVar_int]; simp [sep]
    rw [enumClose, flat_outLines_cons', ek]
    refine Tk.cast ((tk_line 0 (by decide : Clean t!"}")).append
      (?_ : Tk _ [.semi, .id ktypedef, .id (cInt k), .id (cName b (.adt i g)), .semi])) rfl
    show Tk (flat (outLines 0 ([t!"#ifndef DOXYGEN", t!"; typedef " ++ (k.c ++ t!"_t"), t!"#endif"] ++ [_]))) _
    rw [flat_outLines_append]
    refine Tk.cast ((tk_ifndef k).append (tk_line 0 (hs.append (by decide)))) ?_
    rw [lex_name_semi hw]
    rfl

/-- No closing brace: enough to be skipped by the reader of enums. -/
theorem lex_no_brace {s : Text} (h : '}' ∉ s) : Tok.bad '}' ∉ lex s := by
  have key : ∀ (s cur : Text), '}' ∉ s → Tok.bad '}' ∉ lexFrom cur s := by
    intro s
    induction s with
    | nil => intro cur _; rw [lexFrom, word]; split <;> simp
    | cons c s ih =>
      intro cur h
      have h1 : c ≠ '}' := fun e => h (by simp [e])
      have h2 : '}' ∉ s := fun hm => h (by simp [hm])
      rw [lexFrom]
      split
      · exact ih _ h2
      · have hp : Tok.bad '}' ∉ punct c := by
          rw [punct]
          repeat' split
          all_goals simp
          exact fun e => h1 e.symm
        have hw : Tok.bad '}' ∉ word cur := by rw [word]; split <;> simp
        simp only [List.mem_append, not_or]
        exact ⟨hw, hp, ih _ h2⟩
  exact key s [] h

theorem upper_no_brace {c : Char} (h : c ≠ '}') : toAsciiUpper c ≠ '}' := by
  rcases Verif.Names.upper_cases c with ⟨h1, h2⟩ | ⟨h1, h2⟩
  · rw [Verif.Names.lower_iff] at h1
    intro e; rw [e] at h2; have : ('}' : Char).toNat = 125 := rfl; omega
  · rw [h2]; exact h

theorem constName_no_brace {s v : Text} (hs : '}' ∉ s) (hv : '}' ∉ v) : '}' ∉ constName s v := by
  have key : ∀ first c, c ≠ '}' → '}' ∉ Verif.Names.screamChar first c := by
    intro first c hc hm
    rw [Verif.Names.screamChar, List.mem_append] at hm
    rcases hm with hm | hm
    · split at hm <;> simp at hm
    · exact upper_no_brace hc (List.mem_singleton.1 hm).symm
  have h : '}' ∉ s ++ v := by simp [hs, hv]
  rw [constName, Verif.Names.screamingCase]
  cases e : s ++ v with
  | nil => exact nofun
  | cons c cs =>
    rw [e] at h
    intro hm
    rcases List.mem_append.1 hm with hm | hm
    · exact key _ _ (fun e => h (by simp [e])) hm
    · obtain ⟨y, hy, hm⟩ := List.mem_flatMap.1 hm
      exact key _ _ (fun e => h (List.mem_cons_of_mem _ (e ▸ hy))) hm

/-- The declarations of enums. -/
def enumEntry (n : Text) : Option IntTy → Env
  | none => [(n, .enum)]
  | some k => [(n, .alias (.name (cInt k)))]

theorem units_enum {b : Nat → Text} {i : Nat} {g : List CTy} (h : wordsOk b (.adt i g) = true) {docs : List Text} {int : Option IntTy}
    {vs : List Variant} (hd : DeclFine (.enum docs int vs)) :
    ∃ toks, Tk (flat (cEnum b docs (.adt i g) int vs)) toks ∧ Units toks (enumEntry (cName b (.adt i g)) int) := by
  obtain ⟨hd, hv⟩ := hd
  have hvs : ∃ ts, Tk (flat (vs.flatMap fun v => cDocs 1 v.docs ++ outLines 1 [enumLine (constName (short b (.adt i g)) v.name) v.disc])) ts ∧
      Tok.bad '}' ∉ ts := by
    clear hd
    induction vs with
    | nil => exact ⟨[], .nil, nofun⟩
    | cons v vs ih =>
      obtain ⟨ts, h4, h5⟩ := ih fun v hv' => hv v (by simp [hv'])
      obtain ⟨h1, h2, h3⟩ := hv v (by simp)
      rw [List.flatMap_cons, flat_append, flat_append]
      have hc := constName_clean (short_clean h) h2.clean
      have hb : '}' ∉ constName (short b (.adt i g)) v.name :=
        constName_no_brace ((short_word b _ h).not_mem (by decide)) (h2.not_mem (by decide))
      have hl : Clean (enumLine (constName (short b (.adt i g)) v.name) v.disc) := by
        cases hdisc : v.disc with
        | none => exact hc.append (by decide)
        | some d => exact ((hc.append (by decide)).append (h3 d hdisc).1.clean).append (by decide)
      refine ⟨_, ((tk_docs 1 h1).append (tk_line 1 hl)).append h4, ?_⟩
      simp only [List.nil_append, List.mem_append, not_or]
      refine ⟨lex_no_brace ?_, h5⟩
      cases hdisc : v.disc with
      | none => simp [enumLine, hb]
      | some d => simp [enumLine, hb, (h3 d hdisc).2]
  obtain ⟨ts, h1, h2⟩ := hvs
  rw [cEnum, flat_append, flat_append, flat_append, flat_append]
  refine ⟨_, ((((tk_docs 0 hd).append (tk_enumOpen h int)).append h1).append (tk_enumClose h int)).append tk_nl, ?_⟩
  cases int with
  | none =>
    have := Units.enum (s := short b (.adt i g)) (n := cName b (.adt i g)) h2
    simpa [enumEntry] using this
  | some k =>
    have := Units.enumInt (s := short b (.adt i g)) (n := cName b (.adt i g)) (k := cInt k) h2 (by cases k <;> decide)
      (by cases k <;> decide) (cName_named_abi (ty := .adt i g) rfl h).2.1
    simpa [enumEntry] using this

/-! ### Structs -/

/-- The members of a struct. -/
def memberEntries (b : Nat → Text) (fs : List Field) : List (Text × CT) := (kept fs).map fun f => (f.name, ctype b f.ty)

/-- A line that declares a variable. -/
theorem tk_var (d : Nat) {b : Nat → Text} {ty : CTy} (hw : wordsOk b ty = true) (v : Text) (hv : Clean v) :
    Tk (flat (outLines d [cVar b ty v ++ t!";"])) (lex (cVar b ty v) ++ [.semi]) :=
  (tk_line d ((cVar_clean hw hv).append (by decide))).cast (by rw [lex_semi]; rfl)

theorem body_fields {b : Nat → Text} (first : Bool) {fs : List Field}
    (h : ∀ f ∈ fs, (DocsOk f.docs ∧ IsWord f.name ∧ f.name ≠ kconst) ∧ wordsOk b f.ty = true ∧ declOk f.ty = true)
    (hp : (fields b .c first fs).panics = false) :
    ∃ toks, Tk (flat (fields b .c first fs).writes) toks ∧ MemBody toks (memberEntries b fs) := by
  induction fs generalizing first with
  | nil => exact ⟨[], .nil, .nil⟩
  | cons f fs ih =>
    have ih' := fun first => ih first fun f hf => h f (by simp [hf])
    obtain ⟨⟨h1, h2, h3⟩, h4, h5⟩ := h f (by simp)
    rw [fields] at hp ⊢
    by_cases h0 : f.size = 0
    · have e : memberEntries b (f :: fs) = memberEntries b fs := by simp [memberEntries, kept, h0]
      rw [if_pos h0] at hp ⊢
      rw [e]
      by_cases ha : 1 < f.align
      · rw [if_pos ha] at hp; cases hp
      · rw [if_neg ha] at hp ⊢; exact ih' first hp
    · have e : memberEntries b (f :: fs) = (f.name, ctype b f.ty) :: memberEntries b fs := by simp [memberEntries, kept, h0]
      rw [if_neg h0] at hp ⊢
      obtain ⟨ts, h6, h7⟩ := ih' false hp
      simp only
      rw [flat_append, flat_append, flat_append, e]
      have hn : Tk (flat (if first = true then [] else [nl])) [] := by
        cases first
        · exact tk_nl
        · exact .nil
      refine ⟨_, ((hn.append (tk_docs 1 h1)).append (tk_var 1 h4 _ h2.clean)).append h6, ?_⟩
      refine MemBody.append (d := [(f.name, ctype b f.ty)]) (MemBody.one (cVar_starts b _ h4 _) fun r => ?_) h7
      exact declares_var b f.ty h4 h5 (v := f.name) (by rw [lex_word h2]; exact Direct.id h3) (r := .semi :: r) trivial

theorem units_struct {b : Nat → Text} {i : Nat} {g : List CTy} (h : wordsOk b (.adt i g) = true) {docs : List Text} {size : Nat} {fs : List Field}
    (hd : DeclFine (.struct docs size fs)) (hf : ∀ f ∈ fs, wordsOk b f.ty = true ∧ declOk f.ty = true)
    (hp : (emitStruct b .c docs (.adt i g) size fs).panics = false) :
    ∃ toks, Tk (flat (emitStruct b .c docs (.adt i g) size fs).writes) toks ∧ Units toks [(cName b (.adt i g), .struct (memberEntries b fs))] := by
  by_cases hs : size = 0
  · rw [emitStruct.eq_def, if_pos hs] at hp; cases hp
  · rw [emitStruct.eq_def, if_neg hs] at hp ⊢
    change (structEnd _ _ _).panics = false at hp
    change ∃ toks, Tk (flat (structEnd _ _ _).writes) toks ∧ _
    rw [structEnd] at hp ⊢
    split at hp
    · cases hp
    · next hpf =>
      rw [if_neg hpf]
      obtain ⟨ts, h1, h2⟩ := body_fields (b := b) true (fs := fs) (fun f hm => ⟨hd.2 f hm, hf f hm⟩) (by simpa using hpf)
      have h3 : Tk (flat (outLines 0 [t!"typedef struct " ++ short b (.adt i g) ++ t!" {"])) [.id ktypedef, .id kstruct, .id (short b (.adt i g)), .bad '{'] := by
        refine (tk_line 0 (((by decide : Clean t!"typedef struct ").append (short_clean h)).append (by decide))).cast ?_
        have e : t!"typedef struct " ++ short b (.adt i g) ++ t!" {" = t!"typedef struct" ++ ' ' :: (short b (.adt i g) ++ t!" {") := by simp
        rw [e, lex_open _ _ [.id ktypedef, .id kstruct] (short_word b _ h) (by decide)]
        rfl
      have h4 : Tk (flat (outLines 0 [t!"} " ++ name b .c (.adt i g) ++ t!";"])) [.bad '}', .id (cName b (.adt i g)), .semi] :=
        (tk_line 0 (((by decide : Clean t!"} ").append (cName_clean h)).append (by decide))).cast (lex_close (cName_named_abi (ty := .adt i g) rfl h).1)
      simp only [flat_append]
      refine ⟨_, ((((tk_docs 0 hd.1).append h3).append h1).append h4).append tk_nl, ?_⟩
      have := Units.struct (s := short b (.adt i g)) (n := cName b (.adt i g)) h2
      simpa using this

theorem units_opaque {b : Nat → Text} {i : Nat} {g : List CTy} (h : wordsOk b (.adt i g) = true) {docs : List Text}
    (hd : DocsOk docs) : ∃ toks, Tk (flat (emitOpaque b .c docs (.adt i g))) toks ∧ Units toks [(cName b (.adt i g), .opaque)] := by
  rw [emitOpaque]
  simp only [flat_append]
  refine ⟨_, ((tk_docs 0 hd).append (tk_line 0 ((((by decide : Clean t!"typedef struct ").append (short_clean h)).append
    (by decide : Clean t!" ")).append (cName_clean h) |>.append (by decide)))).append tk_nl, ?_⟩
  have e : t!"typedef struct " ++ short b (.adt i g) ++ t!" " ++ cName b (.adt i g) ++ t!";" =
      t!"typedef struct" ++ ' ' :: (short b (.adt i g) ++ ' ' :: (cName b (.adt i g) ++ t!";")) := by simp
  rw [e, lex_blank, lex_blank, lex_word (short_word b _ h), lex_name_semi (cName_named_abi (ty := .adt i g) rfl h).1,
    show lex t!"typedef struct" = [.id ktypedef, .id kstruct] by decide]
  exact Units.opaque _ _

/-! ### Arrays, aliases, functions and constants -/

theorem lex_idx (n : Nat) : lex (t!"idx[" ++ nat n ++ t!"]") = [.id (t!"idx"), .lb, .id (nat n), .rb] := by
  have hn : IsWord (nat n) := by
    refine ⟨?_, nat_word n⟩
    simp only [nat, toString]
    rw [Nat.toList_repr]
    intro e
    have := Nat.length_toDigits_pos (b := 10) (n := n)
    rw [e] at this
    simp at this
  have e : t!"idx[" ++ nat n ++ t!"]" = ['i', 'd', 'x'] ++ '[' :: (nat n ++ ']' :: []) := by simp
  rw [e, lex_lb, lex_rb, lex_word hn, lex_word (w := ['i', 'd', 'x']) (by decide), lex_nil]
  rfl

theorem units_array {b : Nat → Text} {n : Nat} {item : CTy} (h : wordsOk b (.array n item) = true) (hd : declOk item = true) :
    ∃ toks, Tk (flat (cArray b n item)) toks ∧
      Units toks [(cName b (.array n item), .struct [(t!"idx", .array (nat n) (ctype b item))])] := by
  have h' : wordsOk b item = true := h
  have e : flat (cArray b n item) = (t!"typedef struct {\n    " ++ cVar b item (t!"idx[" ++ nat n ++ t!"]") ++ t!";\n} " ++ cVar b (.array n item) [] ++ t!";\n") ++ ['\n'] := by
    simp [cArray, flat]
  rw [e]
  refine ⟨_, tk_clean ?_, ?_⟩
  · exact ((((by decide : Clean t!"typedef struct {\n    ").append (cVar_clean h' (((by decide : Clean t!"idx[").append (nat_clean n)).append
      (by decide)))).append (by decide : Clean t!";\n} ")).append (cVar_clean h (by decide))).append (by decide)
  · have hw := (cName_named_abi (ty := .array n item) rfl h).1
    have e2 : t!"typedef struct {\n    " ++ cVar b item (t!"idx[" ++ nat n ++ t!"]") ++ t!";\n} " ++ cVar b (.array n item) [] ++ t!";\n" =
        t!"typedef struct {\n   " ++ ' ' :: (cVar b item (t!"idx[" ++ nat n ++ t!"]") ++ ';' :: ([] ++ '\n' :: (t!"} " ++ cName b (.array n item) ++ t!";" ++ '\n' :: []))) := by
      simp [cName]
    rw [e2, lex_blank, lex_semi, lex_newline, lex_newline, lex_close hw, lex_nil,
      show lex t!"typedef struct {\n   " = [.id ktypedef, .id kstruct, .bad '{'] by decide]
    have hb := MemBody.one (cVar_starts b item h' (t!"idx[" ++ nat n ++ t!"]")) (n := t!"idx") (ty := .array (nat n) (ctype b item)) fun r =>
      declares_var b item h' hd (v := t!"idx[" ++ nat n ++ t!"]") (n := some t!"idx") (g := fun c => .array (nat n) c)
        (by rw [lex_idx]; exact Direct.array (by decide)) (r := .semi :: r) trivial
    have := Units.struct' (n := cName b (.array n item)) hb
    simpa using this

theorem units_alias {b : Nat → Text} {rn : Text} {docs : List Text} {inner : CTy} (h : IsWord rn) (hd : DocsOk docs) (hw : wordsOk b inner = true)
    (hdecl : declOk inner = true) (hp : plain inner = true) :
    ∃ toks, Tk (flat (emitAlias b docs (.alias rn docs inner) inner)) toks ∧ Units toks [(cName b (.alias rn docs inner), .alias (ctype b inner))] := by
  have ha : wordsOk b (.alias rn docs inner) = true := by rw [wordsOk]; simpa using h
  have hn := cName_named_abi (ty := .alias rn docs inner) rfl ha
  rw [emitAlias, flat_append, flat_append]
  refine ⟨_, ((tk_docs 0 hd).append (tk_line 0 (?_ : Clean (aliasLine b (.alias rn docs inner) inner)))).append tk_nl, ?_⟩
  · rw [aliasLine]
    exact ((((by decide : Clean t!"typedef ").append (cName_clean hw)).append (by decide : Clean t!" ")).append (cName_clean ha)).append (by decide)
  · have e : aliasLine b (.alias rn docs inner) inner = t!"typedef" ++ ' ' :: (cVar b inner [] ++ ' ' :: (cName b (.alias rn docs inner) ++ ';' :: [])) := by
      simp [aliasLine, cName]
    rw [e, lex_blank, lex_blank, lex_semi, lex_nil, show lex t!"typedef" = [.id ktypedef] by decide]
    have h1 := (front_plain b inner hw hdecl hp).1 (cName b (.alias rn docs inner))
    have := Units.alias (cVar_starts b inner hw (cName b (.alias rn docs inner))) fun r =>
      declares_var b inner hw hdecl (v := cName b (.alias rn docs inner)) (by rw [lex_word hn.1]; exact Direct.id hn.2.1) (r := .semi :: r) trivial
    rw [h1] at this
    simpa using this

theorem units_function {b : Nat → Text} {f : Fn} (h1 : DocsOk f.docs) (h2 : IsWord f.name) (h3 : f.name ≠ kconst)
    (h4 : ∀ a ∈ f.args, (IsWord a.name ∧ a.name ≠ kconst ∧ isVoid a.ty = false) ∧ wordsOk b a.ty = true ∧ declOk a.ty = true)
    (h5 : wordsOk b f.ret = true) (h6 : declOk f.ret = true) :
    ∃ toks, Tk (flat (emitFunction b .c f.docs f.name f.args f.ret)) toks ∧
      Units toks [(f.name, .fn (ctype b f.ret) (f.args.map fun a => (some a.name, ctype b a.ty)))] := by
  show ∃ toks, Tk (flat (emitDocs .c 0 f.docs ++ outLines 0 [cVar b f.ret (sig b .c f.name f.args) ++ t!";"] ++ [nl])) toks ∧ _
  simp only [flat_append]
  have hs : Clean (sig b .c f.name f.args) := by
    rw [sig]
    exact ((((by decide : Clean nl).append (clean_indent 0)).append h2.clean).append (by decide)).append
      (sigArgs_clean true fun a ha => ⟨(h4 a ha).1.1, (h4 a ha).2.1⟩) |>.append (by decide)
  refine ⟨_, ((tk_docs 0 h1).append (tk_var 0 h5 _ hs)).append tk_nl, ?_⟩
  have hargs : ∀ a ∈ f.args, argFine b .c a = true := by
    intro a ha
    obtain ⟨⟨w1, w2, w3⟩, w4, w5⟩ := h4 a ha
    have w3' : isVoid (intended .c a.ty) = false := w3
    simp [argFine, declFine, w1, w2, w3', w4, w5]
  have hd := Direct.fn h3 (parens_sig b .c f.args hargs)
  rw [← lex_sig b .c h2 f.args] at hd
  have := Units.fn (cVar_starts b f.ret h5 (sig b .c f.name f.args)) fun r => declares_var b f.ret h5 h6 hd (r := .semi :: r) trivial
  rw [List.nil_append, List.append_nil]
  exact this

theorem tk_constant {b : Nat → Text} {docs : List Text} {nm : Text} {ty : CTy} {untyped : Bool} {value : Text} (h1 : DocsOk docs) (h2 : IsWord nm)
    (h3 : wordsOk b ty = true) (h4 : ValueOk value) (h5' : nm ≠ cxx) (h6' : nm ≠ dox) : Tk (flat (emitConstant b .c docs nm ty untyped value)) [] := by
  rw [emitConstant]
  simp only [flat_append]
  have hh : ∀ x : Text, (nm ++ x).head?.all isWordChar = true ∧ nm ++ x ≠ [] := by
    intro x
    obtain ⟨c, cs, e⟩ := List.exists_cons_of_ne_nil h2.1
    have := h2.2 c (by rw [e]; simp)
    rw [e]
    simp [this]
  have n1 : '/' ∉ nm := h2.not_mem (by decide)
  have n2 : '\n' ∉ nm := h2.not_mem (by decide)
  have t1 : '/' ∉ cName b ty := (cName_clean h3).slash
  have t2 : '\n' ∉ cName b ty := (cVar_declText b ty h3 (v := []) nofun).not_mem (by decide)
  have hdef : ∀ x : Text, '/' ∉ x → '\n' ∉ x → Tk (flat (outLines 0 [t!"#define " ++ (nm ++ ' ' :: x)])) [] := by
    intro x h5 h6
    obtain ⟨l, r, g1, g2, g3⟩ := good_define (s := nm ++ ' ' :: x) (by simp [n1, n2, h5, h6]) (hh _).1 (hh _).2 (by rw [ident_word h2 _ (by decide)]; exact h5')
    refine ⟨_, g1, fun eval D hD => ⟨nm :: D, [], ?_, ?_, rfl⟩⟩
    · rw [Pp.run, Pp.step, g2]
      simp only
      rw [if_neg (by decide), if_neg (by decide), if_neg (by decide), if_neg (by decide), if_neg (by decide), if_neg (by decide), if_pos trivial,
        g3, ident_word h2 _ (by decide)]
      rfl
    · intro hm
      rcases List.mem_cons.1 hm with e | hm
      · exact h6' e.symm
      · exact hD hm
  refine Tk.cast (((tk_docs 0 h1).append (?_ : Tk _ [])).append tk_nl) rfl
  cases untyped
  · have := hdef (t!"((" ++ cName b ty ++ t!") " ++ value ++ t!")") (by simp [t1, h4.1]) (by simp [t2, h4.2.1])
    simpa using this
  · have := hdef value h4.1 h4.2.1
    simpa using this

/-! ### Items -/

/-- What an item declares. -/
def entry (P : Prog) : Item → Env
  | .type _ (.adt i g) =>
      match P.decl i g with
      | .struct _ _ fs => [(cName P.base (.adt i g), .struct (memberEntries P.base fs))]
      | .enum _ int _ => enumEntry (cName P.base (.adt i g)) int
      | .opaque _ => [(cName P.base (.adt i g), .opaque)]
  | .type _ (.array n item) => [(cName P.base (.array n item), .struct [(t!"idx", .array (nat n) (ctype P.base item))])]
  | .type _ (.alias rn docs inner) => [(cName P.base (.alias rn docs inner), .alias (ctype P.base inner))]
  | .func _ f => [(f.name, .fn (ctype P.base f.ret) (f.args.map fun a => (some a.name, ctype P.base a.ty)))]
  | _ => []

/-- The items that are proved right. -/
def ItemFine (P : Prog) : Item → Prop
  | .type lang ty => lang = .c ∧ hasDef ty = true ∧ wordsOk P.base ty = true ∧ declOk ty = true ∧ TypeFine P ty ∧ match ty with
      | .adt i g => ∀ docs size fs, P.decl i g = .struct docs size fs → ∀ f ∈ fs, wordsOk P.base f.ty = true ∧ declOk f.ty = true
      | .array _ item => declOk item = true
      | .alias _ _ inner => wordsOk P.base inner = true ∧ declOk inner = true
      | _ => True
  | .func lang f => lang = .c ∧ ExportFine (.fn f) ∧ (∀ a ∈ f.args, wordsOk P.base a.ty = true ∧ declOk a.ty = true) ∧
      wordsOk P.base f.ret = true ∧ declOk f.ret = true
  | .const lang c => lang = .c ∧ ExportFine (.const c) ∧ wordsOk P.base c.ty = true
  | .text _ => False
  | _ => True

theorem units_item {P : Prog} {it : Item} (h : ItemFine P it) (hp : (render P it).panics = false) :
    ∃ toks, Tk (flat (render P it).writes) toks ∧ Units toks (entry P it) := by
  cases it with
  | intHeaders =>
    have e : flat (render P .intHeaders).writes = [[], t!"#include <stddef.h>", t!"#include <stdint.h>", []].flatMap (· ++ ['\n']) := rfl
    rw [e]
    refine ⟨[], ⟨_, good_lines (by decide) (by decide) ?_, fun eval D hD => ⟨D, [t!"#include <stddef.h>", t!"#include <stdint.h>"], rfl, hD, rfl⟩⟩, .nil⟩
    intro g l hl
    simp only [List.mem_cons, List.not_mem_nil, or_false] at hl
    rcases hl with rfl | rfl | rfl | rfl
    · rfl
    · exact keeps_of (k := t!"include") (r := t!"<stddef.h>") (by decide) (by decide) (by decide) g
    · exact keeps_of (k := t!"include") (r := t!"<stdint.h>") (by decide) (by decide) (by decide) g
    · rfl
  | boolHeader =>
    have e : flat (render P .boolHeader).writes = [[], t!"#include <stdbool.h>", []].flatMap (· ++ ['\n']) := rfl
    rw [e]
    refine ⟨[], ⟨_, good_lines (by decide) (by decide) ?_, fun eval D hD => ⟨D, [t!"#include <stdbool.h>"], rfl, hD, rfl⟩⟩, .nil⟩
    intro g l hl
    simp only [List.mem_cons, List.not_mem_nil, or_false] at hl
    rcases hl with rfl | rfl | rfl
    · rfl
    · exact keeps_of (k := t!"include") (r := t!"<stdbool.h>") (by decide) (by decide) (by decide) g
    · rfl
  | type lang ty =>
    obtain ⟨rfl, hn, h1, h2, h3, h4⟩ := h
    cases ty with
    | adt i g =>
      change (renderDecl P .c (.adt i g) (P.decl i g)).panics = false at hp
      change ∃ toks, Tk (flat (renderDecl P .c (.adt i g) (P.decl i g)).writes) toks ∧ Units toks (entry P (.type .c (.adt i g)))
      change DeclFine (P.decl i g) at h3
      rw [entry]
      cases hd : P.decl i g with
      | struct docs size fs => rw [hd] at h3 hp; exact units_struct h1 h3 (h4 docs size fs hd) hp
      | enum docs int vs => rw [hd] at h3; exact units_enum h1 h3
      | «opaque» docs => rw [hd] at h3; exact units_opaque h1 h3
    | alias rn docs inner => exact units_alias (by simpa [wordsOk] using h1) h3.1 h4.1 h4.2 h3.2
    | array n item => exact units_array h1 h4
    | _ => cases hn
  | func lang f =>
    obtain ⟨rfl, ⟨h1, h2, h3, h4⟩, h5, h6, h7⟩ := h
    exact units_function h1 h2 h3 (fun a ha => ⟨h4 a ha, h5 a ha⟩) h6 h7
  | const lang c =>
    obtain ⟨rfl, ⟨h1, h2, h3, h4, h5⟩, h6⟩ := h
    exact ⟨[], tk_constant h1 h2 h6 h3 h4 h5, .nil⟩
  | text s => exact h.elim

theorem units_items {P : Prog} {its : List Item} (h : ∀ it ∈ its, ItemFine P it ∧ (render P it).panics = false) :
    ∃ toks, Tk (flat (its.flatMap fun it => (render P it).writes)) toks ∧ Units toks (its.flatMap (entry P)) := by
  induction its with
  | nil => exact ⟨[], .nil, .nil⟩
  | cons it its ih =>
    obtain ⟨a, h1, h2⟩ := units_item (h it (by simp)).1 (h it (by simp)).2
    obtain ⟨b, h3, h4⟩ := ih fun it hit => h it (by simp [hit])
    rw [List.flatMap_cons, flat_append, List.flatMap_cons]
    exact ⟨_, h1.append h3, h2.append h4⟩

end Verif.Headers
