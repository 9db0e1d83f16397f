import Verif.Headers.PpLemmas
import Verif.Headers.StructProps
import Verif.Headers.EnumLemmas
import Verif.Names.Props
import Verif.Headers.GenLemmas
import Verif.Headers.FnProps
/-! # Every item of a C header stands on lines of its own -/
namespace Verif.Headers
open Text

/-- What C++ compilers define. -/
def cxx : Text := t!"__cplusplus"

/-- The line does not undefine the macro, nor define the one of C++. -/
def tame (g l : Text) : Bool :=
  match directive l with
  | some (k, r) => !(k == t!"undef" && ident r == g) && !(k == t!"define" && ident r == cxx)
  | none => true

theorem tame.keeps {g l : Text} (h : tame g l = true) : keeps g l = true := by
  rw [tame] at h
  rw [Verif.Headers.keeps]
  cases hd : directive l with
  | none => rfl
  | some kr => rw [hd] at h; simp only [Bool.and_eq_true] at h; exact h.1

/-- The lines of an emitted text: its comments and conditionals are closed, nothing is undefined, `__cplusplus` is not defined. -/
structure Good (s : Text) (ls : List Text) : Prop where
  lines : ∀ rest, split '\n' (code .code (s ++ rest)) = ls ++ split '\n' (code .code rest)
  nested : nest 0 ls = some 0
  keep : ∀ g, ∀ l ∈ ls, tame g l = true

theorem Good.nil : Good [] [] := ⟨fun _ => rfl, rfl, fun _ => nofun⟩

theorem Good.append {a b : Text} {as bs : List Text} (ha : Good a as) (hb : Good b bs) : Good (a ++ b) (as ++ bs) where
  lines rest := by rw [List.append_assoc, ha.lines, hb.lines, List.append_assoc]
  nested := by rw [nest_append, ha.nested]; exact hb.nested
  keep g l hl := (List.mem_append.1 hl).elim (ha.keep g l) (hb.keep g l)

/-- It is good for some lines. -/
def Nice (s : Text) : Prop := ∃ ls, Good s ls

theorem Nice.append {a b : Text} (ha : Nice a) (hb : Nice b) : Nice (a ++ b) := by
  obtain ⟨as, ha⟩ := ha
  obtain ⟨bs, hb⟩ := hb
  exact ⟨_, ha.append hb⟩

theorem Nice.nil : Nice [] := ⟨_, .nil⟩

/-- No character starts a comment or a directive. -/
def Clean (s : Text) : Prop := ∀ c ∈ s, c ≠ '#' ∧ c ≠ '/'

instance (s : Text) : Decidable (Clean s) := inferInstanceAs (Decidable (∀ _ ∈ _, _))

theorem Clean.append {a b : Text} (ha : Clean a) (hb : Clean b) : Clean (a ++ b) :=
  fun c hc => (List.mem_append.1 hc).elim (ha c) (hb c)

theorem Clean.slash {s : Text} (h : Clean s) : '/' ∉ s := fun hm => (h _ hm).2 rfl
theorem Clean.hash {s : Text} (h : Clean s) : '#' ∉ s := fun hm => (h _ hm).1 rfl

theorem directive_none {l : Text} (h : '#' ∉ l) : directive l = none := by
  rw [directive]
  have : '#' ∉ l.dropWhile blank := fun hm => h ((List.dropWhile_suffix _).subset hm)
  split
  · next r e => rw [e] at this; exact absurd (by simp) this
  · rfl

theorem nest1_none {l : Text} (h : directive l = none) (d : Nat) : nest1 d l = some d := by unfold nest1; rw [h]

theorem nest_none {ls : List Text} (h : ∀ l ∈ ls, '#' ∉ l) (d : Nat) : nest d ls = some d := by
  induction ls with
  | nil => rfl
  | cons l ls ih =>
    rw [nest_cons, nest1_none (directive_none (h l (by simp)))]
    exact ih fun l hl => h l (by simp [hl])

theorem keeps_none {l : Text} (h : '#' ∉ l) (g : Text) : tame g l = true := by rw [tame, directive_none h]

theorem mem_of_mem_split {s l : Text} {x c : Char} (hl : l ∈ split x s) (hc : c ∈ l) : c ∈ s := by
  obtain ⟨a, b, rfl⟩ := mem_split_infix hl
  simp [hc]

/-- A clean text followed by a newline. -/
theorem good_clean {s : Text} (h : Clean s) : Good (s ++ ['\n']) (split '\n' s) where
  lines rest := by
    have h0 : '/' ∉ s ++ ['\n'] := by simp [h.slash]
    rw [code_plain h0, List.append_assoc, List.singleton_append, split_nl]
  nested := nest_none (fun _ hl hc => h.hash (mem_of_mem_split hl hc)) 0
  keep g _ hl := keeps_none (fun hc => h.hash (mem_of_mem_split hl hc)) g

theorem nice_nl : Nice nl := ⟨_, good_clean (s := []) nofun⟩

theorem clean_indent (d : Nat) : Clean (indent d) := by
  intro c hc
  rw [(List.mem_replicate.1 hc).2]
  decide

theorem flat_outLines_cons' (d : Nat) (l : Text) (ls : List Text) : flat (outLines d (l :: ls)) = flat (outLines d [l]) ++ flat (outLines d ls) := by
  rw [flat_outLines, flat_outLines, flat_outLines, List.flatMap_cons, List.flatMap_cons, List.flatMap_nil, List.append_nil]

theorem flat_outLines_append (d : Nat) (a b : List Text) : flat (outLines d (a ++ b)) = flat (outLines d a) ++ flat (outLines d b) := by
  rw [flat_outLines, flat_outLines, flat_outLines, List.flatMap_append]

/-- Clean lines. -/
theorem nice_line (d : Nat) {l : Text} (h : Clean l) : Nice (flat (outLines d [l])) := by
  rw [flat_outLines, List.flatMap_cons, List.flatMap_nil, List.append_nil]
  have hp : ∀ p ∈ split '\n' (indent d ++ l), Clean p := fun p hp c hc => ((clean_indent d).append h) c (mem_of_mem_split hp hc)
  generalize split '\n' (indent d ++ l) = ps at hp
  induction ps with
  | nil => exact .nil
  | cons p ps ih =>
    rw [List.flatMap_cons]
    exact Nice.append ⟨_, good_clean fun c hc => hp p (by simp) c (mem_trimEnd hc)⟩ (ih fun q hq => hp q (by simp [hq]))

theorem nice_lines (d : Nat) {ls : List Text} (h : ∀ l ∈ ls, Clean l) : Nice (flat (outLines d ls)) := by
  induction ls with
  | nil => exact .nil
  | cons l ls ih =>
    rw [flat_outLines_cons']
    exact (nice_line d (h l (by simp))).append (ih fun l hl => h l (by simp [hl]))

/-- Documentation. -/
theorem good_docs (d : Nat) {docs : List Text} (h : DocsOk docs) : Good (flat (cDocs d docs)) [indent d] := by
  refine ⟨?_, ?_, ?_⟩
  · intro rest
    have := C47_c_partial d docs h rest
    rw [emitDocs] at this
    rw [this, split_nl, split_of_not_mem (nl_notMem_indent d)]
  · exact nest_none (by simpa using (clean_indent d).hash) 0
  · intro g l hl
    rw [List.mem_singleton.1 hl]
    exact keeps_none (clean_indent d).hash g

theorem nice_docs (d : Nat) {docs : List Text} (h : DocsOk docs) : Nice (flat (cDocs d docs)) := ⟨_, good_docs d h⟩

/-! ### Names -/

theorem IsWord.clean {s : Text} (h : IsWord s) : Clean s := fun c hc =>
  ⟨fun e => by have := h.2 c hc; subst e; revert this; decide, fun e => by have := h.2 c hc; subst e; revert this; decide⟩

theorem DeclText.clean {s : Text} (h : DeclText s) : Clean s := fun c hc =>
  ⟨fun e => by have := h c hc; subst e; revert this; decide, fun e => by have := h c hc; subst e; revert this; decide⟩

theorem cVar_clean {b : Nat → Text} {ty : CTy} (h : wordsOk b ty = true) {v : Text} (hv : Clean v) : Clean (cVar b ty v) := by
  have h0 : Clean (cVar b ty []) := (cVar_declText b ty h (v := []) nofun).clean
  have hsep : Clean (sep v) := (sep_declText v).clean
  cases ty with
  | int k => rw [cVar_int] at h0 ⊢; simp only [sep, List.isEmpty_nil, if_true, List.append_nil] at h0; exact (h0.append hsep).append hv
  | float => rw [cVar_float] at h0 ⊢; simp only [sep, List.isEmpty_nil, if_true, List.append_nil] at h0; exact (h0.append hsep).append hv
  | double => rw [cVar_double] at h0 ⊢; simp only [sep, List.isEmpty_nil, if_true, List.append_nil] at h0; exact (h0.append hsep).append hv
  | bool => rw [cVar_bool] at h0 ⊢; simp only [sep, List.isEmpty_nil, if_true, List.append_nil] at h0; exact (h0.append hsep).append hv
  | cint => rw [cVar_cint] at h0 ⊢; simp only [sep, List.isEmpty_nil, if_true, List.append_nil] at h0; exact (h0.append hsep).append hv
  | cchar => rw [cVar_cchar] at h0 ⊢; simp only [sep, List.isEmpty_nil, if_true, List.append_nil] at h0; exact (h0.append hsep).append hv
  | void => rw [cVar_void] at h0 ⊢; simp only [sep, List.isEmpty_nil, if_true, List.append_nil] at h0; exact (h0.append hsep).append hv
  | array n item => rw [cVar_array] at h0 ⊢; simp only [sep, List.isEmpty_nil, if_true, List.append_nil] at h0; exact (h0.append hsep).append hv
  | fptr ret args =>
    rw [cVar_fptr] at h0 ⊢
    simp only [List.append_nil] at h0
    intro c hc
    simp only [List.mem_append] at hc
    rcases hc with ((((hc | hc) | hc) | hc) | hc) | hc
    all_goals first
      | exact hv c hc
      | (refine h0 c ?_; simp only [List.mem_append]; simp only [hc, true_or, or_true])
  | constPtr to => rw [cVar_constPtr] at h0 ⊢; simp only [sep, List.isEmpty_nil, if_true, List.append_nil] at h0; exact (h0.append hsep).append hv
  | mutPtr to => rw [cVar_mutPtr] at h0 ⊢; simp only [sep, List.isEmpty_nil, if_true, List.append_nil] at h0; exact (h0.append hsep).append hv
  | alias rn docs inner => rw [cVar_alias] at h0 ⊢; simp only [sep, List.isEmpty_nil, if_true, List.append_nil] at h0; exact (h0.append hsep).append hv
  | adt i g => rw [cVar_adt] at h0 ⊢; simp only [sep, List.isEmpty_nil, if_true, List.append_nil] at h0; exact (h0.append hsep).append hv

theorem cName_clean {b : Nat → Text} {ty : CTy} (h : wordsOk b ty = true) : Clean (cName b ty) := cVar_clean h nofun

theorem upper_clean {c : Char} (h : c ≠ '#' ∧ c ≠ '/') : toAsciiUpper c ≠ '#' ∧ toAsciiUpper c ≠ '/' := by
  rcases Verif.Names.upper_cases c with ⟨h1, h2⟩ | ⟨h1, h2⟩
  · rw [Verif.Names.lower_iff] at h1
    constructor
    · intro e; rw [e] at h2; have : ('#' : Char).toNat = 35 := rfl; omega
    · intro e; rw [e] at h2; have : ('/' : Char).toNat = 47 := rfl; omega
  · rw [h2]; exact h

theorem scream_clean {first : Bool} {c : Char} (h : c ≠ '#' ∧ c ≠ '/') : Clean (Verif.Names.screamChar first c) := by
  intro x hx
  rw [Verif.Names.screamChar, List.mem_append] at hx
  rcases hx with hx | hx
  · split at hx
    · rw [List.mem_singleton.1 hx]; decide
    · simp at hx
  · rw [List.mem_singleton.1 hx]; exact upper_clean h

theorem constName_clean {s v : Text} (hs : Clean s) (hv : Clean v) : Clean (constName s v) := by
  have h := hs.append hv
  rw [constName, Verif.Names.screamingCase]
  cases e : s ++ v with
  | nil => exact nofun
  | cons c cs =>
    rw [e] at h
    refine (scream_clean (h c (by simp))).append fun x hx => ?_
    obtain ⟨y, hy, hx⟩ := List.mem_flatMap.1 hx
    exact scream_clean (h y (by simp [hy])) x hx

theorem short_clean {b : Nat → Text} {i : Nat} {g : List CTy} (h : wordsOk b (.adt i g) = true) : Clean (short b (.adt i g)) := by
  intro c hc
  refine cName_clean h c ?_
  rw [cName, cVar_adt]
  simp [hc]

/-! ### Directives -/

/-- Lines given outright. -/
theorem good_lines {ls : List Text} (h1 : ∀ l ∈ ls, '/' ∉ l ∧ '\n' ∉ l) (h2 : nest 0 ls = some 0) (h3 : ∀ g, ∀ l ∈ ls, tame g l = true) :
    Good (ls.flatMap (· ++ ['\n'])) ls where
  lines rest := by
    clear h2 h3
    induction ls with
    | nil => rfl
    | cons l ls ih =>
      have h0 : '/' ∉ l ++ ['\n'] := by simp [(h1 l (by simp)).1]
      rw [List.flatMap_cons, List.append_assoc, code_plain h0, List.append_assoc, List.singleton_append,
        split_append (h1 l (by simp)).2, ih fun l hl => h1 l (by simp [hl])]
      rfl
  nested := h2
  keep := h3

theorem keeps_of {l k r : Text} (h : directive l = some (k, r)) (hk : k ≠ t!"undef") (hd : k ≠ t!"define" ∨ ident r ≠ cxx) (g : Text) :
    tame g l = true := by
  rw [tame, h]
  rcases hd with hd | hd <;> simp [hk, hd]

/-- `/** \remark … **/` -/
theorem good_remark (b : Nat → Text) (k : IntTy) :
    Good (flat (outLines 0 [t!"/** \\remark Has the same ABI as `" ++ cName b (.int k) ++ t!"` **/"])) [[]] := by
  have ek : cName b (.int k) = k.c ++ t!"_t" := by rw [cName, cVar_int]; simp [sep]
  have h1 : flat (outLines 0 [t!"/** \\remark Has the same ABI as `" ++ cName b (.int k) ++ t!"` **/"]) =
      '/' :: '*' :: ((t!"* \\remark Has the same ABI as `" ++ k.c ++ t!"_t` *") ++ '*' :: '/' :: ['\n']) := by
    rw [ek]; cases k <;> decide
  have h2 : has (t!"* \\remark Has the same ABI as `" ++ k.c ++ t!"_t` *") = false := by cases k <;> decide
  rw [h1]
  generalize (t!"* \\remark Has the same ABI as `" ++ k.c ++ t!"_t` *") = W at h2
  refine ⟨?_, rfl, fun g l hl => by rw [List.mem_singleton.1 hl]; rfl⟩
  intro rest
  have e : '/' :: '*' :: (W ++ '*' :: '/' :: ['\n']) ++ rest = '/' :: '*' :: (W ++ '*' :: '/' :: ([] ++ '\n' :: rest)) := by simp
  have h3 : code .code ('\n' :: rest) = '\n' :: code .code rest := code_plain (s := ['\n']) (by decide) rest
  rw [e, code, block_end _ _ h2, List.nil_append, h3]
  exact split_append (l := []) nofun

theorem nice_remark (b : Nat → Text) (k : IntTy) :
    Nice (flat (outLines 0 [t!"/** \\remark Has the same ABI as `" ++ cName b (.int k) ++ t!"` **/"])) := ⟨_, good_remark b k⟩

theorem nice_enumOpen {b : Nat → Text} {i : Nat} {g : List CTy} (h : wordsOk b (.adt i g) = true) (int : Option IntTy) :
    Nice (flat (enumOpen b (.adt i g) int)) := by
  have hs := short_clean h
  cases int with
  | none => exact nice_line 0 (((by decide : Clean t!"typedef enum ").append hs).append (by decide))
  | some k =>
    rw [enumOpen, flat_outLines_cons']
    refine (nice_remark b k).append ?_
    have e2 : flat (outLines 0 [t!"#ifdef DOXYGEN", t!"typedef", t!"#endif"]) = [t!"#ifdef DOXYGEN", t!"typedef", t!"#endif"].flatMap (· ++ ['\n']) := by
      decide
    show Nice (flat (outLines 0 ([t!"#ifdef DOXYGEN", t!"typedef", t!"#endif"] ++ [_])))
    rw [flat_outLines_append, e2]
    refine Nice.append ⟨_, good_lines (by decide) (by decide) ?_⟩ (nice_line 0 (((by decide : Clean t!"enum ").append hs).append (by decide)))
    intro g l hl
    simp only [List.mem_cons, List.not_mem_nil, or_false] at hl
    rcases hl with rfl | rfl | rfl
    · exact keeps_of (k := t!"ifdef") (r := t!"DOXYGEN") (by decide) (by decide) (by decide) g
    · exact keeps_none (by decide) g
    · exact keeps_of (k := t!"endif") (r := []) (by decide) (by decide) (by decide) g

theorem nice_enumClose {b : Nat → Text} {i : Nat} {g : List CTy} (h : wordsOk b (.adt i g) = true) (int : Option IntTy) :
    Nice (flat (enumClose b (.adt i g) int)) := by
  have hs := cName_clean h
  cases int with
  | none => exact nice_line 0 (((by decide : Clean t!"} ").append hs).append (by decide))
  | some k =>
    have ek : cName b (.int k) = k.c ++ t!"_t" := by rw [cName, cVar_int]; simp [sep]
    rw [enumClose, flat_outLines_cons', ek]
    refine (nice_line 0 (by decide)).append ?_
    have e2 : flat (outLines 0 [t!"#ifndef DOXYGEN", t!"; typedef " ++ (k.c ++ t!"_t"), t!"#endif"]) =
        [t!"#ifndef DOXYGEN", t!"; typedef " ++ (k.c ++ t!"_t"), t!"#endif"].flatMap (· ++ ['\n']) := by cases k <;> decide
    show Nice (flat (outLines 0 ([t!"#ifndef DOXYGEN", t!"; typedef " ++ (k.c ++ t!"_t"), t!"#endif"] ++ [_])))
    rw [flat_outLines_append, e2]
    refine Nice.append ⟨_, good_lines (by cases k <;> decide) (by cases k <;> decide) ?_⟩ (nice_line 0 (hs.append (by decide)))
    intro g l hl
    simp only [List.mem_cons, List.not_mem_nil, or_false] at hl
    rcases hl with rfl | rfl | rfl
    · exact keeps_of (k := t!"ifndef") (r := t!"DOXYGEN") (by decide) (by decide) (by decide) g
    · exact keeps_none (by cases k <;> decide) g
    · exact keeps_of (k := t!"endif") (r := []) (by decide) (by decide) (by decide) g

theorem ValueOk.clean {s : Text} (h : ValueOk s) : Clean s := fun _ hc => ⟨fun e => h.2.2 (e ▸ hc), fun e => h.1 (e ▸ hc)⟩

theorem nice_enum {b : Nat → Text} {i : Nat} {g : List CTy} (h : wordsOk b (.adt i g) = true) {docs : List Text} {int : Option IntTy}
    {vs : List Variant} (hd : DeclTexts b (.enum docs int vs)) : Nice (flat (cEnum b docs (.adt i g) int vs)) := by
  rw [cEnum, flat_append, flat_append, flat_append, flat_append]
  refine ((((nice_docs 0 hd.1).append (nice_enumOpen h int)).append ?_).append (nice_enumClose h int)).append nice_nl
  have hv := hd.2
  clear hd
  induction vs with
  | nil => exact .nil
  | cons v vs ih =>
    rw [List.flatMap_cons, flat_append, flat_append]
    obtain ⟨h1, h2, h3⟩ := hv v (by simp)
    refine ((nice_docs 1 h1).append (nice_line 1 ?_)).append (ih fun v hv' => hv v (by simp [hv']))
    have hc := constName_clean (short_clean h) h2.clean
    cases hdisc : v.disc with
    | none => exact hc.append (by decide)
    | some d => exact ((hc.append (by decide)).append (h3 d hdisc).clean).append (by decide)

theorem ident_ws {w : Text} (h : ∀ c ∈ w, isWs c = true) (a : Text) : ident (a ++ w) = ident a := by
  induction a with
  | nil =>
    cases w with
    | nil => rfl
    | cons c w => rw [List.nil_append, ident, List.takeWhile_cons, isWs_not_word (h c (by simp))]; rfl
  | cons c a ih =>
    rw [List.cons_append, ident, ident, List.takeWhile_cons, List.takeWhile_cons]
    split
    · exact congrArg _ ih
    · rfl

theorem ident_word {w : Text} (h : IsWord w) (c : Char) (hc : isWordChar c = false) (x : Text) : ident (w ++ c :: x) = w := by
  rw [ident, List.takeWhile_append_of_pos h.2, List.takeWhile_cons, hc]
  simp

/-- `#define NAME …` -/
theorem good_define {s : Text} (h : '/' ∉ s ∧ '\n' ∉ s) (hs : s.head?.all isWordChar = true) (hne : s ≠ []) (hi : ident s ≠ cxx) :
    ∃ l r, Good (flat (outLines 0 [t!"#define " ++ s])) [l] ∧ directive l = some (t!"define", r) ∧ ident r = ident s := by
  obtain ⟨c, cs, rfl⟩ := List.exists_cons_of_ne_nil hne
  have hc : isWordChar c = true := by simpa using hs
  have hcw : isWs c = false := by
    cases hw : isWs c with
    | false => rfl
    | true => rw [isWs_not_word hw] at hc; cases hc
  have e : flat (outLines 0 [t!"#define " ++ c :: cs]) = [t!"#define " ++ c :: trimEnd cs].flatMap (· ++ ['\n']) := by
    rw [flat_outLine 0 (by simpa using h.2)]
    have : indent 0 ++ (t!"#define " ++ c :: cs) = t!"#define " ++ c :: cs := rfl
    rw [this, trimEnd_nonws _ _ hcw]
    simp
  have hb : blank c = false := by
    cases hw : blank c with
    | false => rfl
    | true =>
      rw [blank] at hw
      rcases Bool.or_eq_true_iff.1 hw with h | h
      · rw [eq_of_beq h] at hcw; exact absurd hcw (by decide)
      · rw [eq_of_beq h] at hcw; exact absurd hcw (by decide)
  have hd : directive (t!"#define " ++ c :: trimEnd cs) = some (t!"define", c :: trimEnd cs) := by
    show some (t!"define", (c :: trimEnd cs).dropWhile blank) = _
    rw [List.dropWhile_cons, hb]
    rfl
  have hi0 : ident (c :: trimEnd cs) = ident (c :: cs) := by
    obtain ⟨w, ew, hw⟩ := trimEnd_split cs
    rw [← ident_ws hw (c :: trimEnd cs), List.cons_append, ← ew]
  have hi' : ident (c :: trimEnd cs) ≠ cxx := hi0 ▸ hi
  rw [e]
  refine ⟨_, _, good_lines ?_ ?_ ?_, hd, hi0⟩
  · intro l hl
    rw [List.mem_singleton.1 hl]
    have h1 : '/' ∉ trimEnd cs := fun hm => h.1 (by simp [mem_trimEnd hm])
    have h2 : '\n' ∉ trimEnd cs := fun hm => h.2 (by simp [mem_trimEnd hm])
    have h3 : '/' ≠ c := fun e => h.1 (by rw [e]; simp)
    have h4 : '\n' ≠ c := fun e => h.2 (by rw [e]; simp)
    simp [h1, h2, h3, h4]
  · rw [nest_cons]
    unfold nest1
    rw [hd]
    rfl
  · intro g l hl
    rw [List.mem_singleton.1 hl]
    exact keeps_of hd (by decide) (.inr hi') g

theorem nice_define {s : Text} (h : '/' ∉ s ∧ '\n' ∉ s) (hs : s.head?.all isWordChar = true) (hne : s ≠ []) (hi : ident s ≠ cxx) :
    Nice (flat (outLines 0 [t!"#define " ++ s])) := by
  obtain ⟨l, _, h, _⟩ := good_define h hs hne hi
  exact ⟨_, h⟩

/-! ### Items -/

theorem nice_fields {b : Nat → Text} (first : Bool) {fs : List Field}
    (h : ∀ f ∈ fs, DocsOk f.docs ∧ IsWord f.name ∧ wordsOk b f.ty = true) : Nice (flat (fields b .c first fs).writes) := by
  induction fs generalizing first with
  | nil => exact .nil
  | cons f fs ih =>
    have ih' := fun first => ih first fun f hf => h f (by simp [hf])
    obtain ⟨h1, h2, h3⟩ := h f (by simp)
    rw [fields]
    split
    · split
      · exact .nil
      · exact ih' first
    · simp only
      rw [flat_append, flat_append, flat_append]
      refine (((?_ : Nice _).append (nice_docs 1 h1)).append (nice_line 1 ((cVar_clean h3 h2.clean).append (by decide)))).append (ih' false)
      cases first
      · exact nice_nl
      · exact .nil

theorem nice_struct {b : Nat → Text} {i : Nat} {g : List CTy} (h : wordsOk b (.adt i g) = true) {docs : List Text} {size : Nat} {fs : List Field}
    (hd : DeclTexts b (.struct docs size fs)) : Nice (flat (emitStruct b .c docs (.adt i g) size fs).writes) := by
  by_cases hs : size = 0
  · rw [emitStruct.eq_def, if_pos hs]; exact .nil
  · rw [emitStruct.eq_def, if_neg hs]
    have h1 : Nice (flat (emitDocs .c 0 docs ++ outLines 0 [t!"typedef struct " ++ short b (.adt i g) ++ t!" {"])) := by
      rw [flat_append]
      exact (nice_docs 0 hd.1).append (nice_line 0 (((by decide : Clean t!"typedef struct ").append (short_clean h)).append (by decide)))
    have h2 := nice_fields true hd.2
    have h3 : Nice (flat (outLines 0 [t!"} " ++ name b .c (.adt i g) ++ t!";"])) :=
      nice_line 0 (((by decide : Clean t!"} ").append (cName_clean h)).append (by decide))
    show Nice (flat (structEnd _ _ _).writes)
    rw [structEnd]
    split
    · simp only [flat_append] at h1 ⊢
      exact h1.append h2
    · simp only [flat_append] at h1 ⊢
      exact ((h1.append h2).append h3).append nice_nl

theorem nice_opaque {b : Nat → Text} {i : Nat} {g : List CTy} (h : wordsOk b (.adt i g) = true) {docs : List Text}
    (hd : DocsOk docs) : Nice (flat (emitOpaque b .c docs (.adt i g))) := by
  rw [emitOpaque]
  simp only [flat_append]
  exact ((nice_docs 0 hd).append (nice_line 0 ((((by decide : Clean t!"typedef struct ").append (short_clean h)).append
    (by decide : Clean t!" ")).append (cName_clean h) |>.append (by decide)))).append nice_nl

theorem sigArgs_clean {b : Nat → Text} (first : Bool) {args : List Arg} (h : ∀ a ∈ args, IsWord a.name ∧ wordsOk b a.ty = true) :
    Clean (sigArgs b .c first args) := by
  induction args generalizing first with
  | nil =>
    cases first
    · show Clean []; decide
    · show Clean t!"void"; decide
  | cons a as ih =>
    rw [sigArgs]
    refine Clean.append (Clean.append ?_ (Clean.append (Clean.append (by decide) (clean_indent 1)) ?_)) (ih false fun a ha => h a (by simp [ha]))
    · cases first <;> decide
    · exact cVar_clean (h a (by simp)).2 (h a (by simp)).1.clean

theorem nice_function {b : Nat → Text} {docs : List Text} {fname : Text} {args : List Arg} {ret : CTy} (h1 : DocsOk docs) (h2 : IsWord fname)
    (h3 : ∀ a ∈ args, IsWord a.name ∧ wordsOk b a.ty = true) (h4 : wordsOk b ret = true) :
    Nice (flat (emitFunction b .c docs fname args ret)) := by
  show Nice (flat (emitDocs .c 0 docs ++ outLines 0 [var b .c ret (sig b .c fname args) ++ t!";"] ++ [nl]))
  simp only [flat_append]
  refine ((nice_docs 0 h1).append (nice_line 0 (Clean.append (cVar_clean h4 ?_) (by decide)))).append nice_nl
  rw [sig]
  exact ((((by decide : Clean nl).append (clean_indent 0)).append h2.clean).append (by decide)).append (sigArgs_clean true h3) |>.append (by decide)

theorem nice_constant {b : Nat → Text} {docs : List Text} {nm : Text} {ty : CTy} {untyped : Bool} {value : Text} (h1 : DocsOk docs) (h2 : IsWord nm)
    (h3 : wordsOk b ty = true) (h4 : ValueOk value) (h5' : nm ≠ cxx) : Nice (flat (emitConstant b .c docs nm ty untyped value)) := by
  rw [emitConstant]
  simp only [flat_append]
  have hh : ∀ x : Text, (nm ++ x).head?.all isWordChar = true ∧ nm ++ x ≠ [] := by
    intro x
    obtain ⟨c, cs, e⟩ := List.exists_cons_of_ne_nil h2.1
    have := h2.2 c (by rw [e]; simp)
    rw [e]
    simp [this]
  have n1 : '/' ∉ nm := h2.not_mem (by decide)
  have n2 : '\n' ∉ nm := h2.not_mem (by decide)
  have t1 : '/' ∉ cName b ty := (cName_clean h3).slash
  have t2 : '\n' ∉ cName b ty := (cVar_declText b ty h3 (v := []) nofun).not_mem (by decide)
  have hdef : ∀ x : Text, '/' ∉ x → '\n' ∉ x → Nice (flat (outLines 0 [t!"#define " ++ (nm ++ ' ' :: x)])) := by
    intro x h5 h6
    exact nice_define (s := nm ++ ' ' :: x) (by simp [n1, n2, h5, h6]) (hh _).1 (hh _).2 (by rw [ident_word h2 _ (by decide)]; exact h5')
  refine ((nice_docs 0 h1).append ?_).append nice_nl
  cases untyped
  · have := hdef (t!"((" ++ cName b ty ++ t!") " ++ value ++ t!")") (by simp [t1, h4.1]) (by simp [t2, h4.2.1])
    simpa using this
  · have := hdef value h4.1 h4.2.1
    simpa using this

theorem nat_clean (n : Nat) : Clean (nat n) := fun c hc => by
  have := Verif.Names.digits_of_toString n c hc
  constructor
  · intro e; subst e; revert this; decide
  · intro e; subst e; revert this; decide

theorem nice_array {b : Nat → Text} {n : Nat} {item : CTy} (h : wordsOk b (.array n item) = true) : Nice (flat (cArray b n item)) := by
  have h' : wordsOk b item = true := h
  have e : flat (cArray b n item) = (t!"typedef struct {\n    " ++ cVar b item (t!"idx[" ++ nat n ++ t!"]") ++ t!";\n} " ++ cVar b (.array n item) [] ++ t!";\n") ++ ['\n'] := by
    simp [cArray, flat]
  rw [e]
  refine ⟨_, good_clean ?_⟩
  exact ((((by decide : Clean t!"typedef struct {\n    ").append (cVar_clean h' (((by decide : Clean t!"idx[").append (nat_clean n)).append
    (by decide)))).append (by decide : Clean t!";\n} ")).append (cVar_clean h (by decide))).append (by decide)

/-- The items of a C header. -/
def InC : Item → Prop
  | .type lang ty => lang = .c ∧ ∀ ret args, ty ≠ .fptr ret args
  | .func lang _ => lang = .c
  | .const lang _ => lang = .c
  | .text _ => False
  | _ => True

theorem nice_item {P : Prog} {it : Item} (hc : InC it) (h : ItemTexts P it) : Nice (flat (render P it).writes) := by
  cases it with
  | intHeaders =>
    have e : flat (render P .intHeaders).writes = [[], t!"#include <stddef.h>", t!"#include <stdint.h>", []].flatMap (· ++ ['\n']) := rfl
    rw [e]
    refine ⟨_, good_lines (by decide) (by decide) ?_⟩
    intro g l hl
    simp only [List.mem_cons, List.not_mem_nil, or_false] at hl
    rcases hl with rfl | rfl | rfl | rfl
    · rfl
    · exact keeps_of (k := t!"include") (r := t!"<stddef.h>") (by decide) (by decide) (by decide) g
    · exact keeps_of (k := t!"include") (r := t!"<stdint.h>") (by decide) (by decide) (by decide) g
    · rfl
  | boolHeader =>
    have e : flat (render P .boolHeader).writes = [[], t!"#include <stdbool.h>", []].flatMap (· ++ ['\n']) := rfl
    rw [e]
    refine ⟨_, good_lines (by decide) (by decide) ?_⟩
    intro g l hl
    simp only [List.mem_cons, List.not_mem_nil, or_false] at hl
    rcases hl with rfl | rfl | rfl
    · rfl
    · exact keeps_of (k := t!"include") (r := t!"<stdbool.h>") (by decide) (by decide) (by decide) g
    · rfl
  | type lang ty =>
    obtain ⟨rfl, hf⟩ := hc
    cases ty with
    | adt i g =>
      obtain ⟨h1, h2⟩ := h
      show Nice (flat (renderDecl P .c (.adt i g) (P.decl i g)).writes)
      cases hd : P.decl i g with
      | struct docs size fs => rw [hd] at h2; exact nice_struct h1 h2
      | enum docs int vs => rw [hd] at h2; exact nice_enum h1 h2
      | «opaque» docs => rw [hd] at h2; exact nice_opaque h1 h2
    | alias rn docs inner =>
      obtain ⟨h1, h2, h3⟩ := h
      show Nice (flat (emitAlias P.base docs (.alias rn docs inner) inner))
      rw [emitAlias, flat_append, flat_append]
      refine ((nice_docs 0 h2).append (nice_line 0 ?_)).append nice_nl
      rw [aliasLine]
      have : wordsOk P.base (.alias rn docs inner) = true := by rw [wordsOk]; simpa using h1
      exact ((((by decide : Clean t!"typedef ").append (cName_clean h3)).append (by decide : Clean t!" ")).append (cName_clean this)).append (by decide)
    | array n item => exact nice_array h
    | fptr ret args => exact absurd rfl (hf ret args)
    | _ => exact .nil
  | func lang f =>
    obtain rfl : lang = .c := hc
    obtain ⟨h1, h2, h3, h4⟩ := h
    exact nice_function h1 h2 h3 h4
  | const lang c =>
    obtain rfl : lang = .c := hc
    obtain ⟨h1, h2, h3, h4, h5⟩ := h
    exact nice_constant h1 h2 h3 h4 h5
  | text s => exact hc.elim

/-! ### What is emitted -/

/-- The action emits only items of C headers. -/
def OnlyC (a : Act) : Prop := ∀ k st, ∃ new, (a k st).1.items = st.items ++ new ∧ ∀ it ∈ new, InC it

theorem OnlyC.done : OnlyC done := fun _ st => ⟨[], by simp [Verif.Headers.done], nofun⟩
theorem OnlyC.fail (e : Err) : OnlyC (fail e) := fun _ st => ⟨[], by simp [Verif.Headers.fail], nofun⟩

theorem OnlyC.seq {a b : Act} (ha : OnlyC a) (hb : OnlyC b) : OnlyC (a ;; b) := by
  intro k st
  obtain ⟨n1, e1, h1⟩ := ha k st
  cases h : (a k st).2 with
  | some e => rw [andThen_err h]; exact ⟨n1, e1, h1⟩
  | none =>
    rw [andThen_ok h]
    obtain ⟨n2, e2, h2⟩ := hb k (a k st).1
    refine ⟨n1 ++ n2, by rw [e2, e1, List.append_assoc], fun it hit => ?_⟩
    exact (List.mem_append.1 hit).elim (h1 it) (h2 it)

theorem OnlyC.emit {P : Prog} {it : Item} (h : InC it) : OnlyC (emit P it) := fun k st =>
  ⟨[it], (emit_st P it k st).1, fun x hx => by rw [List.mem_singleton.1 hx]; exact h⟩

theorem OnlyC.type {P : Prog} (ty : CTy) (h : ∀ ret args, ty ≠ .fptr ret args) : OnlyC (Verif.Headers.emit P (.type .c ty)) :=
  .emit (show InC (.type .c ty) from ⟨rfl, h⟩)

theorem OnlyC.once {n : Text} {a : Act} (ha : OnlyC a) : OnlyC (defineOnce n a) := by
  intro k st
  rw [defineOnce]
  split
  · exact ⟨[], by simp, nofun⟩
  · exact ha k _

theorem OnlyC.insertFn (n : Text) : OnlyC (insertFn n) := by
  intro k st
  rw [Verif.Headers.insertFn]
  split <;> exact ⟨[], by simp, nofun⟩

mutual
theorem define_onlyC {P : Prog} {adt : Lang → Nat → List CTy → Act} (hadt : ∀ i g, OnlyC (adt .c i g)) (ty : CTy) : OnlyC (define P adt .c ty) := by
  match ty with
  | .int k => rw [define_int, if_neg (by decide)]; exact (OnlyC.emit (it := .intHeaders) trivial).once
  | .bool => rw [define_bool, if_neg (by decide)]; exact (OnlyC.emit (it := .boolHeader) trivial).once
  | .float => exact .done
  | .double => exact .done
  | .cint => exact .done
  | .cchar => exact .done
  | .void => exact .done
  | .array n item =>
    rw [define_array, if_neg (by decide)]
    exact ((define_onlyC hadt item).seq (.type _ fun _ _ h => CTy.noConfusion h)).once
  | .fptr ret args =>
    rw [define_fptr, if_neg (by decide)]
    exact (define_onlyC hadt ret).seq (defineAll_onlyC hadt args)
  | .constPtr to => exact define_onlyC hadt to
  | .mutPtr to => exact define_onlyC hadt to
  | .alias rename docs inner =>
    rw [define_alias, if_pos rfl]
    exact ((define_onlyC hadt inner).seq (.type _ fun _ _ h => CTy.noConfusion h)).once
  | .adt i g => exact hadt i g
theorem defineAll_onlyC {P : Prog} {adt : Lang → Nat → List CTy → Act} (hadt : ∀ i g, OnlyC (adt .c i g)) (tys : List CTy) : OnlyC (defineAll P adt .c tys) := by
  match tys with
  | [] => exact .done
  | x :: xs => exact (define_onlyC hadt x).seq (defineAll_onlyC hadt xs)
end

theorem defineAdt_onlyC (P : Prog) (m i : Nat) (g : List CTy) : OnlyC (defineAdt P m .c i g) := by
  induction m generalizing i g with
  | zero => exact .fail _
  | succ m ih => exact ((defineAll_onlyC (fun i g => ih i g) _).seq (.type _ fun _ _ h => CTy.noConfusion h)).once

theorem genAll_onlyC (P : Prog) (m : Nat) (es : List Export) : OnlyC (genAll P m .c es) := by
  have ha := defineAdt_onlyC P m
  induction es with
  | nil => exact .done
  | cons e es ih =>
    refine OnlyC.seq ?_ ih
    cases e with
    | fn f => exact (OnlyC.insertFn _).seq ((defineAll_onlyC ha _).seq ((define_onlyC ha _).seq (.emit (it := .func .c f) rfl)))
    | const c => exact (define_onlyC ha _).seq (.emit (it := .const .c c) rfl)
    | type n ty => exact define_onlyC ha _

end Verif.Headers
