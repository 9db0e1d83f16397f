import Verif.DocAttrs.Props
import Verif.Headers.Gen
/-!
# C98: where a header has the documentation
-/
namespace Verif.DocAttrs
open Verif.Headers

/-- The comment of a C header for documentation of these lines. -/
def cComment (depth : Nat) (lines : List Text) : Text :=
  let pad := List.replicate (depth * 4) ' '
  if lines = [] then pad ++ "/** <No documentation available> */\n".toList
  else pad ++ "/** \\brief\n".toList ++ cLines pad lines ++ (pad ++ " */\n".toList)

/-- No text has several lines (C47 is about those that do). -/
def OneLine (lines : List Text) : Prop := ∀ l ∈ lines, '\n' ∉ Text.trim l

theorem flat_cDocs (depth : Nat) {lines : List Text} (h : OneLine lines) : flat (cDocs depth lines) = cComment depth lines := by
  by_cases he : lines = []
  · subst he; exact (C98_none depth).1
  · rw [cComment, if_neg he]; exact C98_c_comment depth lines he h

/-- C98: in a C header, the definition of a struct, enum, opaque type or renamed newtype, the prototype of a function and the
definition of a constant come after the comment with the documentation of the item, and do not depend on it otherwise. -/
theorem C98_placed (b : Nat → Text) (i : Nat) (g : List CTy) :
    (∀ size fs, size ≠ 0 → ∃ decl, ∀ (P : Prog) docs, P.base = b → P.decl i g = .struct docs size fs → OneLine docs →
      flat (render P (.type .c (.adt i g))).writes = cComment 0 docs ++ decl) ∧
    (∀ int vs, ∃ decl, ∀ (P : Prog) docs, P.base = b → P.decl i g = .enum docs int vs → OneLine docs →
      flat (render P (.type .c (.adt i g))).writes = cComment 0 docs ++ decl) ∧
    (∃ decl, ∀ (P : Prog) docs, P.base = b → P.decl i g = .opaque docs → OneLine docs →
      flat (render P (.type .c (.adt i g))).writes = cComment 0 docs ++ decl) ∧
    (∀ rename inner, ∃ decl, ∀ (P : Prog) docs, P.base = b → OneLine docs →
      flat (render P (.type .c (.alias rename docs inner))).writes = cComment 0 docs ++ decl) ∧
    (∀ name args ret, ∃ decl, ∀ (P : Prog) docs, P.base = b → OneLine docs →
      flat (render P (.func .c ⟨docs, name, args, ret⟩)).writes = cComment 0 docs ++ decl) ∧
    (∀ name ty untyped value, ∃ decl, ∀ (P : Prog) docs, P.base = b → OneLine docs →
      flat (render P (.const .c ⟨docs, name, ty, untyped, value⟩)).writes = cComment 0 docs ++ decl) := by
  refine ⟨fun size fs hs => ?_, fun int vs => ?_, ?_, fun rename inner => ?_, fun name args ret => ?_, fun name ty untyped value => ?_⟩
  · cases hp : (fields b .c true fs).panics with
    | true =>
      apply Exists.intro; intro P docs hb hd hn
      simp only [render, renderType, hd, renderDecl, emitStruct, if_neg hs, structEnd, emitDocs, hb, hp, if_true,
        flat_append, flat_cDocs 0 hn, List.append_assoc]
      rfl
    | false =>
      apply Exists.intro; intro P docs hb hd hn
      simp only [render, renderType, hd, renderDecl, emitStruct, if_neg hs, structEnd, emitDocs, hb, hp, Bool.false_eq_true, if_false,
        flat_append, flat_cDocs 0 hn, List.append_assoc]
      rfl
  · apply Exists.intro; intro P docs hb hd hn
    simp only [render, renderType, hd, renderDecl, emitEnum, cEnum, hb, flat_append, flat_cDocs 0 hn, List.append_assoc]
    rfl
  · apply Exists.intro; intro P docs hb hd hn
    simp only [render, renderType, hd, renderDecl, emitOpaque, hb, flat_append, flat_cDocs 0 hn, List.append_assoc]
    rfl
  · apply Exists.intro; intro P docs hb hn
    simp only [render, renderType, emitAlias, aliasLine, cName, cVar, hb, flat_append, flat_cDocs 0 hn, List.append_assoc]
    rfl
  · apply Exists.intro; intro P docs hb hn
    simp only [render, emitFunction, emitDocs, hb, flat_append, flat_cDocs 0 hn, List.append_assoc]
    rfl
  · apply Exists.intro; intro P docs hb hn
    simp only [render, emitConstant, hb, flat_append, flat_cDocs 0 hn, List.append_assoc]
    rfl

/-- C98: in a C header, the line of each member of a struct comes after the comment with the documentation of the field
(fields without a size have no member). -/
theorem C98_placed_field (b : Nat → Text) (ty : CTy) (docs : List Text) (size : Nat) (before after : List Field) (f : Field)
    (hs : size ≠ 0) (hf : f.size ≠ 0) (hz : ∀ g ∈ before, g.size = 0 → g.align ≤ 1) (hn : OneLine f.docs) :
    ∃ s r, flat (emitStruct b .c docs ty size (before ++ f :: after)).writes =
      s ++ cComment 1 f.docs ++ flat (outLines 1 [cVar b f.ty f.name ++ t!";"]) ++ r := by
  have key : ∀ (before : List Field) (first : Bool), (∀ g ∈ before, g.size = 0 → g.align ≤ 1) →
      ∃ s r, flat (fields b .c first (before ++ f :: after)).writes =
        s ++ cComment 1 f.docs ++ flat (outLines 1 [cVar b f.ty f.name ++ t!";"]) ++ r := by
    intro before
    induction before with
    | nil =>
      intro first _
      refine ⟨flat (if first then [] else [nl]), flat (fields b .c false after).writes, ?_⟩
      simp only [List.nil_append, fields, if_neg hf, fieldLines, emitDocs, flat_append, flat_cDocs 1 hn]
      rfl
    | cons g gs ih =>
      intro first hz
      by_cases h0 : g.size = 0
      · obtain ⟨s, r, h⟩ := ih first fun x hx => hz x (List.mem_cons_of_mem _ hx)
        refine ⟨s, r, ?_⟩
        rw [← h, List.cons_append, fields, if_pos h0, if_neg (by have := hz g (List.mem_cons_self ..) h0; omega)]
      · obtain ⟨s, r, h⟩ := ih false fun x hx => hz x (List.mem_cons_of_mem _ hx)
        refine ⟨flat ((if first then [] else [nl]) ++ emitDocs .c 1 g.docs ++ fieldLines b .c g) ++ s, r, ?_⟩
        rw [List.cons_append, fields, if_neg h0]
        simp only [flat_append, h, List.append_assoc]
  obtain ⟨s, r, h⟩ := key before true hz
  simp only [emitStruct, if_neg hs, structEnd]
  split
  · refine ⟨flat (emitDocs .c 0 docs ++ outLines 0 [t!"typedef struct " ++ short b ty ++ t!" {"]) ++ s, r, ?_⟩
    simp only [flat_append, h, List.append_assoc]
  · refine ⟨flat (emitDocs .c 0 docs ++ outLines 0 [t!"typedef struct " ++ short b ty ++ t!" {"]) ++ s,
      r ++ flat (outLines 0 [t!"} " ++ name b .c ty ++ t!";"] ++ [nl]), ?_⟩
    simp only [flat_append, h, List.append_assoc]

/-- C98: in a C header, the line of each constant of an enum comes after the comment with the documentation of the variant. -/
theorem C98_placed_variant (b : Nat → Text) (ty : CTy) (docs : List Text) (int : Option IntTy) (before after : List Variant)
    (v : Variant) (hn : OneLine v.docs) :
    ∃ s r, flat (emitEnum b .c docs ty int (before ++ v :: after)) =
      s ++ cComment 1 v.docs ++ flat (outLines 1 [enumLine (constName (short b ty) v.name) v.disc]) ++ r := by
  let one (v : Variant) : List Text := cDocs 1 v.docs ++ outLines 1 [enumLine (constName (short b ty) v.name) v.disc]
  refine ⟨flat (cDocs 0 docs ++ enumOpen b ty int ++ before.flatMap one), flat (after.flatMap one ++ (enumClose b ty int ++ [nl])), ?_⟩
  simp only [emitEnum, cEnum, List.flatMap_append, List.flatMap_cons, flat_append, flat_cDocs 1 hn, List.append_assoc, one]

/-- The hypotheses hold, and the comments are where they should be. -/
example : OneLine [t " An id. "] ∧
    flat (emitStruct (fun _ => t "foo") .c [t " A foo."] (.adt 0 []) 4 [⟨[], t "u", .void, 0, 1⟩, ⟨[t " An id. "], t "id", .int .u32, 4, 4⟩]).writes =
      t "/** \\brief\n *  A foo.\n */\ntypedef struct foo {\n    /** \\brief\n     *  An id.\n     */\n    uint32_t id;\n} foo_t;\n\n" := by
  unfold OneLine; decide +kernel

/-! ### C# -/

/-- The comment of a C# header for documentation of these lines (C48: with markup for the backticks). -/
def csComment (depth : Nat) (lines : List Text) : Text :=
  let pad := List.replicate (depth * 4) ' '
  if lines = [] then []
  else pad ++ t "/// <summary>\n" ++
    (lines.flatMap fun l => pad ++ t "///" ++ (if Text.trim l = [] then [] else ' ' :: markup 0 (segs (Text.trim l))) ++ ['\n']) ++
    (pad ++ t "/// </summary>\n")

/-- No text has several lines, or runs of 4, 7, … backticks (see C48). -/
def CsLine (lines : List Text) : Prop :=
  OneLine lines ∧ ∀ l ∈ lines, ∀ n, .run n ∈ segs (Text.trim l) → n = 1 ∨ n % 3 ≠ 1

theorem flat_csDocs (depth : Nat) {lines : List Text} (h : CsLine lines) : flat (csDocs depth lines) = csComment depth lines := by
  by_cases he : lines = []
  · subst he; exact (C98_none depth).2
  · rw [csComment, if_neg he]; exact C48_emitted_partial depth lines he h.1 h.2

/-- C98: the same of C# headers. Functions and constants are members of a class, within which their comments are; untyped
constants are left out. -/
theorem C98_placed_cs (b : Nat → Text) (i : Nat) (g : List CTy) :
    (∀ size fs, size ≠ 0 → ∃ decl, ∀ (P : Prog) docs, P.base = b → P.decl i g = .struct docs size fs → CsLine docs →
      flat (render P (.type .csharp (.adt i g))).writes = csComment 0 docs ++ decl) ∧
    (∀ int vs, ∃ decl, ∀ (P : Prog) docs, P.base = b → P.decl i g = .enum docs int vs → CsLine docs →
      flat (render P (.type .csharp (.adt i g))).writes = csComment 0 docs ++ decl) ∧
    (∃ decl, ∀ (P : Prog) docs, P.base = b → P.decl i g = .opaque docs → CsLine docs →
      flat (render P (.type .csharp (.adt i g))).writes = csComment 0 docs ++ decl) ∧
    (∀ name args ret, ∃ decl, ∀ (P : Prog) docs, P.base = b → CsLine docs →
      flat (render P (.func .csharp ⟨docs, name, args, ret⟩)).writes =
        t "public unsafe partial class Ffi {\n" ++ csComment 1 docs ++ decl) ∧
    (∀ name ty value, ∃ decl, ∀ (P : Prog) docs, P.base = b → CsLine docs →
      flat (render P (.const .csharp ⟨docs, name, ty, false, value⟩)).writes =
        t "public unsafe partial class Ffi {\n" ++ csComment 1 docs ++ decl) := by
  have hc : flat (outLines 0 [t!"public unsafe partial class Ffi {"]) = t "public unsafe partial class Ffi {\n" := by decide +kernel
  refine ⟨fun size fs hs => ?_, fun int vs => ?_, ?_, fun name args ret => ?_, fun name ty value => ?_⟩
  · cases hp : (fields b .csharp true fs).panics with
    | true =>
      apply Exists.intro; intro P docs hb hd hn
      simp only [render, renderType, hd, renderDecl, emitStruct, if_neg hs, structEnd, hb, hp, if_true,
        flat_append, flat_csDocs 0 hn, List.append_assoc]
      rfl
    | false =>
      apply Exists.intro; intro P docs hb hd hn
      simp only [render, renderType, hd, renderDecl, emitStruct, if_neg hs, structEnd, hb, hp, Bool.false_eq_true, if_false,
        flat_append, flat_csDocs 0 hn, List.append_assoc]
      rfl
  · apply Exists.intro; intro P docs hb hd hn
    simp only [render, renderType, hd, renderDecl, emitEnum, csEnum, hb, flat_append, flat_csDocs 0 hn, List.append_assoc]
    rfl
  · apply Exists.intro; intro P docs hb hd hn
    simp only [render, renderType, hd, renderDecl, emitOpaque, hb, flat_append, flat_csDocs 0 hn, List.append_assoc]
    rfl
  · apply Exists.intro; intro P docs hb hn
    simp only [render, emitFunction, hb, flat_append, hc, flat_csDocs 1 hn, List.append_assoc]
    rfl
  · apply Exists.intro; intro P docs hb hn
    simp only [render, emitConstant, hb, Bool.false_eq_true, if_false, flat_append, hc, flat_csDocs 1 hn, List.append_assoc]
    rfl

/-- C98: the same of the members of structs in C# headers. -/
theorem C98_placed_field_cs (b : Nat → Text) (ty : CTy) (docs : List Text) (size : Nat) (before after : List Field) (f : Field)
    (hs : size ≠ 0) (hf : f.size ≠ 0) (hz : ∀ g ∈ before, g.size = 0 → g.align ≤ 1) (hn : CsLine f.docs) :
    ∃ s r, flat (emitStruct b .csharp docs ty size (before ++ f :: after)).writes =
      s ++ csComment 1 f.docs ++ flat (attrLines 1 f.ty) ++
        flat (outLines 1 [t!"public " ++ csName b f.ty ++ t!" " ++ f.name ++ t!";"]) ++ r := by
  have key : ∀ (before : List Field) (first : Bool), (∀ g ∈ before, g.size = 0 → g.align ≤ 1) →
      ∃ s r, flat (fields b .csharp first (before ++ f :: after)).writes =
        s ++ csComment 1 f.docs ++ flat (attrLines 1 f.ty) ++
          flat (outLines 1 [t!"public " ++ csName b f.ty ++ t!" " ++ f.name ++ t!";"]) ++ r := by
    intro before
    induction before with
    | nil =>
      intro first _
      refine ⟨flat (if first then [] else [nl]), flat (fields b .csharp false after).writes, ?_⟩
      simp only [List.nil_append, fields, if_neg hf, fieldLines, emitDocs, flat_append, flat_csDocs 1 hn, List.append_assoc]
    | cons g gs ih =>
      intro first hz
      by_cases h0 : g.size = 0
      · obtain ⟨s, r, h⟩ := ih first fun x hx => hz x (List.mem_cons_of_mem _ hx)
        refine ⟨s, r, ?_⟩
        rw [← h, List.cons_append, fields, if_pos h0, if_neg (by have := hz g (List.mem_cons_self ..) h0; omega)]
      · obtain ⟨s, r, h⟩ := ih false fun x hx => hz x (List.mem_cons_of_mem _ hx)
        refine ⟨flat ((if first then [] else [nl]) ++ emitDocs .csharp 1 g.docs ++ fieldLines b .csharp g) ++ s, r, ?_⟩
        rw [List.cons_append, fields, if_neg h0]
        simp only [flat_append, h, List.append_assoc]
  obtain ⟨s, r, h⟩ := key before true hz
  simp only [emitStruct, if_neg hs, structEnd]
  split
  · refine ⟨flat (csDocs 0 docs ++ outLines 0 [t!"[StructLayout(LayoutKind.Sequential, Size = " ++ nat size ++ t!")]",
            t!"public unsafe struct " ++ csName b ty ++ t!" {"]) ++ s, r, ?_⟩
    simp only [flat_append, h, List.append_assoc]
  · refine ⟨flat (csDocs 0 docs ++ outLines 0 [t!"[StructLayout(LayoutKind.Sequential, Size = " ++ nat size ++ t!")]",
            t!"public unsafe struct " ++ csName b ty ++ t!" {"]) ++ s, r ++ flat (outLines 0 [t!"}"] ++ [nl]), ?_⟩
    simp only [flat_append, h, List.append_assoc]

/-- C98: the same of the constants of enums in C# headers. -/
theorem C98_placed_variant_cs (b : Nat → Text) (ty : CTy) (docs : List Text) (int : Option IntTy) (before after : List Variant)
    (v : Variant) (hn : CsLine v.docs) :
    ∃ s r, flat (emitEnum b .csharp docs ty int (before ++ v :: after)) =
      s ++ csComment 1 v.docs ++ flat (outLines 1 [enumLine v.name v.disc]) ++ r := by
  let one (v : Variant) : List Text := csDocs 1 v.docs ++ outLines 1 [enumLine v.name v.disc]
  refine ⟨flat (csDocs 0 docs ++ outLines 0 [t!"public enum " ++ csName b ty ++ t!" " ++ csBacking b int ++ t!" {"] ++ before.flatMap one),
    flat (after.flatMap one ++ (outLines 0 [t!"}"] ++ [nl])), ?_⟩
  simp only [emitEnum, csEnum, List.flatMap_append, List.flatMap_cons, flat_append, flat_csDocs 1 hn, List.append_assoc, one]

/-- The comments are where they should be. -/
example : flat (emitEnum (fun _ => t "foo") .csharp [t " A `foo`."] (.adt 0 []) (some .u8) [⟨[t " One. "], t "One", some (t "1")⟩]) =
    t "/// <summary>\n/// A <c>foo</c>.\n/// </summary>\npublic enum foo_t : byte {\n    /// <summary>\n    /// One.\n    /// </summary>\n    One = 1,\n}\n\n" := by
  decide +kernel

/-- The hypothesis on the lines holds of usual documentation. -/
example : CsLine [t " A `foo`.", t "", t " See ``bar``."] := by
  refine ⟨by unfold OneLine; decide +kernel, fun l hl n hn => ?_⟩
  have hall : ([t " A `foo`.", t "", t " See ``bar``."].all fun l => (segs (Text.trim l)).all fun s =>
    match s with | .run n => decide (n = 1 ∨ n % 3 ≠ 1) | _ => true) = true := by decide +kernel
  simpa using List.all_eq_true.1 (List.all_eq_true.1 hall l hl) _ hn

end Verif.DocAttrs
