import Verif.DocAttrs.Spec
import Verif.Headers.DocsProps
/-!
# C98: the documentation of an item is that of the header
-/
namespace Verif.DocAttrs
open Verif.Headers

theorem isIdent_doc {a : Attr} : a.path.isIdent (t "doc") = true ↔ IsDoc a := by
  obtain ⟨⟨l, s⟩, ts⟩ := a
  simp only [Path.isIdent, IsDoc, Path.mk.injEq, Bool.and_eq_true, Bool.not_eq_true', beq_iff_eq]
  rfl

theorem docExpr_of_not {P : Parse} {ts : List Tok} (h : ¬ Assigns ts) : docExpr P ts = some none := by
  unfold docExpr
  split
  · exact absurd ⟨_, rfl⟩ h
  · rfl

theorem docExpr_text {P : Parse} {e : Expr} (h : Reads P e) (comma : Bool) :
    docExpr P (.punct '=' :: (e ++ if comma then [.punct ','] else [])) = some (some e) := by
  cases comma with
  | false => simp [docExpr, h.1, skipComma]
  | true => simp [docExpr, h.2, skipComma]

theorem extractDocs_other {P : Parse} {a : Attr} (h : ¬ IsDoc a) (as : List Attr) :
    extractDocs P (a :: as) = extractDocs P as := by
  rw [extractDocs, if_neg (by rwa [isIdent_doc])]

theorem extractDocs_append_other {P : Parse} (bs : List Attr) (h : ∀ b ∈ bs, ¬ IsDoc b) (as : List Attr) :
    extractDocs P (as ++ bs) = extractDocs P as := by
  induction as with
  | nil =>
    induction bs with
    | nil => rfl
    | cons b bs ih =>
      rw [List.nil_append, extractDocs_other (h b (by simp))]
      exact ih fun c hc => h c (by simp [hc])
  | cons a as ih => simp only [List.cons_append, extractDocs, ih]

/-- Only the documentation attributes count. -/
theorem extractDocs_filter {P : Parse} (p : Attr → Bool) (h : ∀ a, IsDoc a → p a = true) (as : List Attr) :
    extractDocs P (as.filter p) = extractDocs P as := by
  induction as with
  | nil => rfl
  | cons a as ih =>
    rw [List.filter_cons]
    by_cases hd : IsDoc a
    · rw [if_pos (h a hd)]
      simp only [extractDocs, ih]
    · rw [extractDocs_other hd]
      split
      · rw [extractDocs_other hd, ih]
      · exact ih

theorem extractDocs_docsOf {P : Parse} (as : List Attr) : extractDocs P (docsOf as) = extractDocs P as :=
  extractDocs_filter _ (fun _ h => isIdent_doc.2 h) as

theorem not_doc_list {n args : Text} (h : n ≠ ['d', 'o', 'c']) : ¬ IsDoc (listAttr n args) := by
  intro hd
  simp [IsDoc, listAttr, identPath] at hd
  exact h hd

theorem extractDocs_rewrite {P : Parse} (r : Text) (as : List Attr) : extractDocs P (rewriteRepr r as) = extractDocs P as := by
  induction as with
  | nil => rfl
  | cons a as ih =>
    rw [rewriteRepr]
    split
    next h =>
      have hn : ¬ IsDoc a := by
        intro hd
        rw [IsDoc] at hd
        rw [hd] at h
        revert h; decide
      rw [extractDocs_other (not_doc_list (by decide)), extractDocs_other hn]
    next => simp only [extractDocs, ih]

/-- C98: the documentation of an item consists of the texts of its `#[doc = …]` attributes, in the order in which
they are written; other attributes, among them other forms of `doc` such as `#[doc(hidden)]`, do not matter. -/
theorem C98_texts (P : Parse) (ws : List Written) (h : ∀ w ∈ ws, w.Ok P) : extractDocs P (attrsOf ws) = some (texts ws) := by
  induction ws with
  | nil => rfl
  | cons w ws ih =>
    have ih := ih fun x hx => h x (by simp [hx])
    have hw := h w (by simp)
    rw [attrsOf] at ih
    rw [attrsOf, List.map_cons]
    cases w with
    | text e comma =>
      rw [Written.attr, extractDocs, if_pos (isIdent_doc.2 (by rfl)), docExpr_text hw]
      simp only [ih]
      rfl
    | flag ts =>
      rw [Written.attr, extractDocs, if_pos (isIdent_doc.2 (by rfl)), docExpr_of_not hw]
      simp only [ih]
      rfl
    | other a =>
      rw [Written.attr, extractDocs_other hw, ih]
      rfl

/-- C98: a macro refuses the attributes of an item exactly if one of them is a `#[doc = …]` that is not an
expression, with or without a comma after it. -/
theorem C98_refused (P : Parse) (as : List Attr) : extractDocs P as = none ↔ Malformed P as := by
  unfold Malformed
  induction as with
  | nil => simp [extractDocs]
  | cons a as ih =>
    by_cases hd : IsDoc a
    · rw [extractDocs, if_pos (isIdent_doc.2 hd)]
      by_cases ha : Assigns a.tokens
      · obtain ⟨ts, hts⟩ := ha
        have key : (∀ e, P ts ≠ some (e, []) ∧ P ts ≠ some (e, [.punct ','])) ↔ docExpr P a.tokens = none := by
          rw [hts, docExpr]
          cases hp : P ts with
          | none => simp
          | some x =>
            obtain ⟨e, rest⟩ := x
            simp only [ne_eq, Option.some.injEq, Prod.mk.injEq, not_and]
            by_cases hs : (skipComma rest).isEmpty = true
            · rw [if_pos hs]
              simp only [reduceCtorEq, iff_false]
              intro hc
              have := hc e
              unfold skipComma at hs
              split at hs
              · rw [List.isEmpty_iff] at hs; subst hs
                exact this.2 rfl rfl
              · rw [List.isEmpty_iff] at hs
                exact this.1 rfl hs
            · rw [if_neg hs]
              simp only [iff_true]
              intro e' 
              refine ⟨fun _ hr => hs (by rw [hr]; rfl), fun _ hr => hs (by rw [hr]; rfl)⟩
        cases hx : docExpr P a.tokens with
        | none =>
          simp only [true_iff]
          exact ⟨a, by simp, hd, ts, hts, key.2 hx⟩
        | some x =>
          have hno : ¬ ∃ ts, a.tokens = .punct '=' :: ts ∧ ∀ e, P ts ≠ some (e, []) ∧ P ts ≠ some (e, [.punct ',']) := by
            rintro ⟨ts', h1, h2⟩
            rw [hts] at h1
            cases h1
            rw [key.1 h2] at hx
            cases hx
          have : (∃ b ∈ a :: as, IsDoc b ∧ ∃ ts, b.tokens = .punct '=' :: ts ∧ ∀ e, P ts ≠ some (e, []) ∧ P ts ≠ some (e, [.punct ','])) ↔
              ∃ b ∈ as, IsDoc b ∧ ∃ ts, b.tokens = .punct '=' :: ts ∧ ∀ e, P ts ≠ some (e, []) ∧ P ts ≠ some (e, [.punct ',']) := by
            constructor
            · rintro ⟨b, hb, h1, h2⟩
              rcases List.mem_cons.1 hb with rfl | hb
              · exact absurd h2 hno
              · exact ⟨b, hb, h1, h2⟩
            · rintro ⟨b, hb, h⟩
              exact ⟨b, by simp [hb], h⟩
          rw [this, ← ih]
          cases x <;> simp
      · rw [docExpr_of_not ha]
        have : (∃ b ∈ a :: as, IsDoc b ∧ ∃ ts, b.tokens = .punct '=' :: ts ∧ ∀ e, P ts ≠ some (e, []) ∧ P ts ≠ some (e, [.punct ',']) ) ↔
            ∃ b ∈ as, IsDoc b ∧ ∃ ts, b.tokens = .punct '=' :: ts ∧ ∀ e, P ts ≠ some (e, []) ∧ P ts ≠ some (e, [.punct ',']) := by
          constructor
          · rintro ⟨b, hb, h1, ts, h2, h3⟩
            rcases List.mem_cons.1 hb with rfl | hb
            · exact absurd ⟨ts, h2⟩ ha
            · exact ⟨b, hb, h1, ts, h2, h3⟩
          · rintro ⟨b, hb, h⟩
            exact ⟨b, by simp [hb], h⟩
        rw [this, ← ih]
    · rw [extractDocs_other hd, ih]
      constructor
      · rintro ⟨b, hb, h⟩
        exact ⟨b, by simp [hb], h⟩
      · rintro ⟨b, hb, h1, h2⟩
        rcases List.mem_cons.1 hb with rfl | hb
        · exact absurd h1 hd
        · exact ⟨b, hb, h1, h2⟩

theorem extractAll_texts {P : Parse} (f : List Attr → List Attr) (hf : ∀ as, extractDocs P (f as) = extractDocs P as)
    (ms : List (List Written)) (h : ∀ m ∈ ms, ∀ w ∈ m, w.Ok P) :
    extractAll P ((ms.map attrsOf).map f) = some (ms.map texts) := by
  induction ms with
  | nil => rfl
  | cons m ms ih =>
    rw [List.map_cons, List.map_cons, extractAll, hf, C98_texts P m (h m (by simp)), ih fun x hx => h x (by simp [hx])]
    rfl

theorem extractAll_texts' {P : Parse} (ms : List (List Written)) (h : ∀ m ∈ ms, ∀ w ∈ m, w.Ok P) :
    extractAll P (ms.map attrsOf) = some (ms.map texts) := by
  have := extractAll_texts _root_.id (fun _ => rfl) ms h
  rwa [List.map_id] at this

/-- C98: the definition of a struct in a header has the documentation of the struct, and each of its members that of
its field. (The documentation that the macro adds for Rust, on the layout in C, is not part of it.) -/
theorem C98_struct (P : Parse) (repr : Text) (s : Source) (h : s.Ok P) :
    handed P repr (.struct (attrsOf s.own) (s.members.map attrsOf)) = some (some ⟨texts s.own, s.members.map texts⟩) := by
  rw [handed, structDocs, extractDocs_append_other _ (by
    intro b hb
    simp only [List.mem_cons, List.not_mem_nil, or_false] at hb
    rcases hb with rfl | rfl <;> exact not_doc_list (by decide)),
    extractDocs_docsOf, extractDocs_rewrite, C98_texts P _ h.1]
  simp only
  rw [extractAll_texts docsOf extractDocs_docsOf _ h.2]
  rfl

/-- C98: the definition of an enum in a header has the documentation of the enum, and each of its constants that of
its variant. -/
theorem C98_enum (P : Parse) (repr : Text) (s : Source) (h : s.Ok P) :
    handed P repr (.enum (attrsOf s.own) (s.members.map attrsOf)) = some (some ⟨texts s.own, s.members.map texts⟩) := by
  rw [handed, enumDocs, extractDocs_rewrite, C98_texts P _ h.1]
  simp only
  rw [extractAll_texts' _ h.2]
  rfl

/-- C98: functions, `async` or not, constants, opaque types and renamed newtypes are declared with their
documentation. Newtypes that are not renamed are not declared. -/
theorem C98_others (P : Parse) (repr : Text) (ws : List Written) (h : ∀ w ∈ ws, w.Ok P) :
    (∀ isAsync, handed P repr (.fn isAsync (attrsOf ws)) = some (some ⟨texts ws, []⟩)) ∧
    handed P repr (.const (attrsOf ws)) = some (some ⟨texts ws, []⟩) ∧
    handed P repr (.opaque (attrsOf ws)) = some (some ⟨texts ws, []⟩) ∧
    handed P repr (.transparent true (attrsOf ws)) = some (some ⟨texts ws, []⟩) ∧
    handed P repr (.transparent false (attrsOf ws)) = some none := by
  have hx := C98_texts P ws h
  have hf : fnDocs P (attrsOf ws) = some (texts ws) := by
    rw [fnDocs, extractDocs_append_other _ (by
      intro b hb
      simp only [List.mem_cons, List.not_mem_nil, or_false] at hb
      rcases hb with rfl | rfl <;> exact not_doc_list (by decide)), hx]
  refine ⟨fun isAsync => ?_, ?_, ?_, ?_, rfl⟩
  · cases isAsync
    · rw [handed, if_neg (by decide), hf]; rfl
    · rw [handed, if_pos rfl, asyncDocs, hf]; rfl
  · rw [handed, hx]; rfl
  · rw [handed, opaqueDocs, extractDocs_filter _ (by
      intro a ha
      have : a.path.isIdent (t "repr") = false := by rw [ha]; decide
      rw [this]; rfl), extractDocs_rewrite, hx]
    rfl
  · rw [handed, if_pos rfl, transparentDocs, extractDocs_append_other _ (by
      intro b hb
      simp only [List.mem_cons, List.not_mem_nil, or_false] at hb
      rcases hb with rfl | rfl <;> exact not_doc_list (by decide)), extractDocs_docsOf, extractDocs_rewrite, hx]
    rfl

theorem extractAll_none {P : Parse} (f : List Attr → List Attr) (hf : ∀ as, extractDocs P (f as) = extractDocs P as)
    (ms : List (List Attr)) : extractAll P (ms.map f) = none ↔ ∃ m ∈ ms, Malformed P m := by
  induction ms with
  | nil => simp [extractAll]
  | cons m ms ih =>
    rw [List.map_cons, extractAll, hf]
    cases hx : extractDocs P m with
    | none => simp [← C98_refused, hx]
    | some ds =>
      have : ¬ Malformed P m := by rw [← C98_refused, hx]; simp
      simp [ih, this]

/-- C98: the macros refuse an item for its documentation exactly if there is a malformed one among its attributes or
those of its fields or variants. -/
theorem C98_refused_items (P : Parse) (repr : Text) (as : List Attr) (ms : List (List Attr)) :
    (handed P repr (.struct as ms) = none ↔ Malformed P as ∨ ∃ m ∈ ms, Malformed P m) ∧
    (handed P repr (.enum as ms) = none ↔ Malformed P as ∨ ∃ m ∈ ms, Malformed P m) ∧
    (∀ isAsync, handed P repr (.fn isAsync as) = none ↔ Malformed P as) ∧
    (handed P repr (.const as) = none ↔ Malformed P as) ∧
    (handed P repr (.opaque as) = none ↔ Malformed P as) ∧
    (handed P repr (.transparent true as) = none ↔ Malformed P as) := by
  have hl : ∀ x y : Attr, ¬ IsDoc x → ¬ IsDoc y → ∀ b ∈ [x, y], ¬ IsDoc b := by
    intro x y hx hy b hb
    simp only [List.mem_cons, List.not_mem_nil, or_false] at hb
    rcases hb with rfl | rfl <;> assumption
  have hf : fnDocs P as = none ↔ Malformed P as := by
    rw [fnDocs, extractDocs_append_other _ (hl _ _ (not_doc_list (by decide)) (not_doc_list (by decide))), C98_refused]
  refine ⟨?_, ?_, fun isAsync => ?_, ?_, ?_, ?_⟩
  · rw [handed, structDocs, extractDocs_append_other _ (hl _ _ (not_doc_list (by decide)) (not_doc_list (by decide))),
      extractDocs_docsOf, extractDocs_rewrite, Option.map_eq_none_iff, ← C98_refused]
    cases hx : extractDocs P as with
    | none => simp
    | some ds => simp [extractAll_none docsOf extractDocs_docsOf]
  · rw [handed, enumDocs, extractDocs_rewrite, Option.map_eq_none_iff, ← C98_refused]
    have he := extractAll_none (P := P) _root_.id (fun _ => rfl) ms
    rw [List.map_id] at he
    cases hx : extractDocs P as with
    | none => simp
    | some ds => simp [he]
  · cases isAsync
    · rw [handed, if_neg (by decide), Option.map_eq_none_iff, hf]
    · rw [handed, if_pos rfl, asyncDocs, Option.map_eq_none_iff, hf]
  · rw [handed, Option.map_eq_none_iff, C98_refused]
  · rw [handed, opaqueDocs, extractDocs_filter _ (by
      intro a ha
      have : a.path.isIdent (t "repr") = false := by rw [ha]; decide
      rw [this]; rfl), extractDocs_rewrite, Option.map_eq_none_iff, C98_refused]
  · rw [handed, if_pos rfl, transparentDocs,
      extractDocs_append_other _ (hl _ _ (not_doc_list (by decide)) (not_doc_list (by decide))), extractDocs_docsOf,
      extractDocs_rewrite, Option.map_eq_none_iff, C98_refused]

/-- C98: and what a C header says for the documentation: a comment with a line for each of its lines, in order, each
without the white space around it. (Lines as in `///` comments; a `#[doc = …]` with several lines in one text is the
subject of C47.) -/
theorem C98_c_comment (depth : Nat) (lines : List Text) (hne : lines ≠ []) (hn : ∀ l ∈ lines, '\n' ∉ Text.trim l) :
    flat (emitDocs .c depth lines) =
      List.replicate (depth * 4) ' ' ++ "/** \\brief\n".toList ++ cLines (List.replicate (depth * 4) ' ') lines ++
      (List.replicate (depth * 4) ' ' ++ " */\n".toList) := by
  rw [emitDocs, cDocs, if_neg (by simpa using hne), flat_append, flat_append, flat_flatMap,
    flat_outLine_visible _ (show '\n' ∉ t "/** \\brief" by decide) (by decide),
    flat_outLine_visible _ (show '\n' ∉ t " */" by decide) (by decide)]
  have hmid : ∀ l ∈ lines, flat (outLines depth [t " *" ++ (if (Text.trim l).isEmpty = true then [] else t "  ") ++ Text.trim l]) =
      indent depth ++ [' ', '*'] ++ (if Text.trim l = [] then [] else [' ', ' '] ++ Text.trim l) ++ ['\n'] := by
    intro l hl
    by_cases he : Text.trim l = []
    · simp only [he, List.isEmpty_nil, if_true, List.append_nil]
      rw [flat_outLine_visible _ (by decide) (by decide)]
      rfl
    · have hb : (Text.trim l).isEmpty = false := by simpa using he
      simp only [hb, Bool.false_eq_true, if_false, he]
      rw [flat_outLine_visible (hne := by simp [t])]
      · simp [t]
      · simp only [List.mem_append, not_or]
        exact ⟨⟨by decide, by decide⟩, hn l hl⟩
      · rw [List.getLast?_append]
        cases hx : (Text.trim l).getLast? with
        | none => exact absurd (List.getLast?_eq_none_iff.1 hx) he
        | some y => simp [trim_last _ _ hx]
  have : (lines.flatMap fun l => flat (outLines depth [t " *" ++ (if (Text.trim l).isEmpty = true then [] else t "  ") ++ Text.trim l])) =
      cLines (indent depth) lines := by
    rw [cLines, List.flatMap, List.flatMap, List.map_congr_left hmid]
  rw [this]
  simp [t, indent]

/-- C98: without documentation, a C header says so, and a C# header says nothing. -/
theorem C98_none (depth : Nat) :
    flat (emitDocs .c depth []) = List.replicate (depth * 4) ' ' ++ "/** <No documentation available> */\n".toList ∧
    flat (emitDocs .csharp depth []) = [] := by
  refine ⟨?_, rfl⟩
  rw [emitDocs, cDocs, if_pos (by rfl), flat_outLine_visible _ (by decide) (by decide)]
  simp [t, indent]

/-! ### Examples -/

namespace Sample

/-- A parser that reads a string literal, or a macro call such as `include_str!("x")`. -/
def parse : Parse
  | .str s :: ts => some ([.str s], ts)
  | .word w :: .punct '!' :: .group g :: ts => some ([.word w, .punct '!', .group g], ts)
  | _ => none

/-- `/// A point.`, `#[derive(Clone)]`, `#[doc(hidden)]`, `#[doc = include_str!("x"),]`, `#[repr(C)]`. -/
def own : List Written :=
  [.text [.str (t " A point.")] false, .other (listAttr (t "derive") (t "Clone")), .flag [.group (t "hidden")],
   .text [.word (t "include_str"), .punct '!', .group (t "x")] true, .other (listAttr (t "repr") (t "C"))]

def point : Source := ⟨own, [[.text [.str (t " Across.")] false], []]⟩

theorem ok : point.Ok parse := by
  refine ⟨?_, ?_⟩
  · intro w hw
    simp only [point, own, List.mem_cons, List.not_mem_nil, or_false] at hw
    rcases hw with rfl | rfl | rfl | rfl | rfl
    · exact ⟨rfl, rfl⟩
    · exact not_doc_list (by decide)
    · rintro ⟨r, hr⟩; cases hr
    · exact ⟨rfl, rfl⟩
    · exact not_doc_list (by decide)
  · intro m hm w hw
    simp only [point, List.mem_cons, List.not_mem_nil, or_false] at hm
    rcases hm with rfl | rfl
    · simp only [List.mem_cons, List.not_mem_nil, or_false] at hw
      subst hw
      exact ⟨rfl, rfl⟩
    · cases hw

end Sample

example : extractDocs Sample.parse (attrsOf Sample.own) =
    some [[.str (t " A point.")], [.word (t "include_str"), .punct '!', .group (t "x")]] :=
  C98_texts _ _ Sample.ok.1

example : handed Sample.parse (t "C") (.struct (attrsOf Sample.point.own) (Sample.point.members.map attrsOf)) =
    some (some ⟨texts Sample.own, [[[.str (t " Across.")]], []]⟩) := C98_struct _ _ _ Sample.ok

example : handed Sample.parse (t "u8") (.enum (attrsOf Sample.point.own) (Sample.point.members.map attrsOf)) =
    some (some ⟨texts Sample.own, [[[.str (t " Across.")]], []]⟩) := C98_enum _ _ _ Sample.ok

example : handed Sample.parse (t "C") (.fn true (attrsOf Sample.own)) = some (some ⟨texts Sample.own, []⟩) :=
  (C98_others _ _ _ Sample.ok.1).1 true

/-- A field with `#[doc = ]` is refused. -/
example : handed Sample.parse (t "C") (.struct (attrsOf Sample.own) [[], attrsOf [.flag [.punct '=']]]) = none :=
  (C98_refused_items _ _ _ _).1.2 (.inr ⟨attrsOf [.flag [.punct '=']], by simp,
    ⟨_, List.mem_cons_self .., rfl, [], rfl, fun e => ⟨nofun, nofun⟩⟩⟩)

/-- `#[doc = ]` is refused. -/
example : extractDocs Sample.parse (attrsOf [.flag [.punct '=']]) = none := by
  refine (C98_refused _ _).2 ⟨_, List.mem_cons_self .., rfl, [], rfl, fun e => ⟨nofun, nofun⟩⟩

example : flat (emitDocs .c 1 [t " A point. ", t ""]) = t "    /** \\brief\n     *  A point.\n     *\n     */\n" := by
  rw [C98_c_comment _ _ (by simp) (by decide)]
  decide +kernel

end Verif.DocAttrs
