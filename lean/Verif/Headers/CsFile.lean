import Verif.Headers.CsCover
/-! # A C# header is read as a namespace with the declarations of its items -/
namespace Verif.Headers.Cs
open Text

variable {eval : List Text → Text → Bool} {D : List Text}

/-! ### The prelude -/

/-- `#if IOS … #else … #endif` around single lines. -/
theorem Tk.cond {a b : Text} {x y : List Tok} (ca : ∀ rest, code .code (a ++ rest) = a ++ code .code rest) (na : '\n' ∉ a) (ha : '#' ∉ a) (la : Lx a x)
    (cb : ∀ rest, code .code (b ++ rest) = b ++ code .code rest) (nb : '\n' ∉ b) (hb : '#' ∉ b) (lb : Lx b y) :
    Tk eval D (t!"#if IOS\n" ++ (a ++ (t!"\n#else\n" ++ (b ++ t!"\n#endif\n")))) (if eval D t!"IOS" then x else y) := by
  have kept : ∀ {s : Text} {ts : List Tok}, '#' ∉ s → Lx s ts → ∃ new, tokens new = ts ∧
      (∀ c : Cond, c.now = true → ∀ st : List Cond, (Pp.mk D (c :: st) []).step eval s = some ⟨D, c :: st, new⟩) ∧
      (∀ c : Cond, c.now = false → ∀ st : List Cond, ∀ o, (Pp.mk D (c :: st) o).step eval s = some ⟨D, c :: st, o⟩) := by
    intro s ts h1 h2
    obtain ⟨new, h3, h4⟩ := run_plain (ls := [s]) (fun l hl => by rw [List.mem_singleton.1 hl]; exact h1) eval D
    have hd := directive_none h1
    refine ⟨new, ?_, fun c hc st => ?_, fun c hc st o => ?_⟩
    · rw [h4]
      have := h2 []
      simpa [lex_nil] using this
    · rw [Pp.run, Pp.step, hd] at h3
      have h5 : (Pp.mk D [] []).keep s = ⟨D, [], new⟩ := Option.some.inj h3
      rw [Pp.step, hd]
      simp only [Pp.keep, Pp.active, Bool.true_and, hc] at h5 ⊢
      split at h5
      · next h => injection h5 with _ _ h6; rw [if_pos h, h6]
      · next h => injection h5 with _ _ h6; rw [if_neg h, h6]
    · rw [Pp.step, hd]
      simp [Pp.keep, Pp.active, hc]
  obtain ⟨n1, t1, k1, s1⟩ := kept ha la
  obtain ⟨n2, t2, k2, s2⟩ := kept hb lb
  refine ⟨[t!"#if IOS", a, t!"#else", b, t!"#endif"], if eval D t!"IOS" then n1 else n2, fun rest => ?_, ?_, ?_⟩
  · have e1 : t!"#if IOS\n" ++ (a ++ (t!"\n#else\n" ++ (b ++ t!"\n#endif\n"))) ++ rest = t!"#if IOS\n" ++ (a ++ (t!"\n#else\n" ++ (b ++ (t!"\n#endif\n" ++ rest)))) := by
      simp
    rw [e1, code_plain (s := t!"#if IOS\n") (by decide), ca, code_plain (s := t!"\n#else\n") (by decide), cb, code_plain (s := t!"\n#endif\n") (by decide)]
    have e2 : t!"#if IOS\n" ++ (a ++ (t!"\n#else\n" ++ (b ++ (t!"\n#endif\n" ++ code .code rest)))) =
        t!"#if IOS" ++ '\n' :: (a ++ '\n' :: (t!"#else" ++ '\n' :: (b ++ '\n' :: (t!"#endif" ++ '\n' :: code .code rest)))) := by simp
    rw [e2, split_append (by decide), split_append na, split_append (by decide), split_append nb, split_append (by decide)]
    rfl
  · rw [Pp.run, show (Pp.mk D [] []).step eval t!"#if IOS" = some ⟨D, [⟨true, eval D t!"IOS", eval D t!"IOS"⟩], []⟩ from rfl, Option.bind_some]
    cases eval D t!"IOS" with
    | true =>
      rw [Pp.run, k1 _ rfl, Option.bind_some, Pp.run,
        show (Pp.mk D [⟨true, true, true⟩] n1).step eval t!"#else" = some ⟨D, [⟨true, true, false⟩], n1⟩ from rfl, Option.bind_some,
        Pp.run, s2 _ rfl, Option.bind_some]
      rfl
    | false =>
      rw [Pp.run, s1 _ rfl, Option.bind_some, Pp.run,
        show (Pp.mk D [⟨true, false, false⟩] []).step eval t!"#else" = some ⟨D, [⟨true, true, true⟩], []⟩ from rfl, Option.bind_some,
        Pp.run, k2 _ rfl, Option.bind_some]
      rfl
  · split
    · exact t1
    · exact t2

/-- The tokens of the library's name. -/
def libToks (ios : Bool) (lib : Text) : List Tok :=
  if ios then [.bad '"', .id lib, .bad '.', .id t!"framework", .bad '/', .id lib, .bad '"'] else [.bad '"', .id lib, .bad '"']

/-- The first part of the class for the functions. -/
def libDecl (ios : Bool) (lib : Text) : Decl := .cls ffiMods kFfi [.const [kPrivate] (.name t!"string") t!"RustLib" (libToks ios lib)]

def namespaceName (c : Config) : Text := Verif.Names.pascalCasedLibName c.lib

def usings : List (List Tok) := [[.id t!"System"], [.id t!"System", .bad '.', .id t!"Runtime", .bad '.', .id t!"InteropServices"]]

theorem upper_word {c : Char} (h : isWordChar c = true) : isWordChar (toAsciiUpper c) = true := by
  rw [toAsciiUpper]
  split
  · next hl =>
    have : ∀ n : Fin 26, isWordChar (Char.ofNat (97 + n.val - 32)) = true := by decide
    have hb : 97 ≤ c.toNat ∧ c.toNat ≤ 122 := by simpa [isAsciiLower, Char.le_def, UInt32.le_iff_toNat_le] using hl
    have e := this ⟨c.toNat - 97, by omega⟩
    rwa [show 97 + (c.toNat - 97) - 32 = c.toNat - 32 by omega] at e
  · exact h

theorem pascal_word {lib : Text} (h : IsWord lib) : IsWord (Verif.Names.pascalCasedLibName lib) := by
  have key : ∀ (s : Text) u, (∀ c ∈ s, isWordChar c = true) → ∀ c ∈ Verif.Names.pascalLoop u s, isWordChar c = true := by
    intro s
    induction s with
    | nil => intro u _ c hc; cases hc
    | cons x s ih =>
      intro u hs c hc
      have h1 := hs x (by simp)
      have h2 := fun c hc => hs c (List.mem_cons_of_mem _ hc)
      rw [Verif.Names.pascalLoop] at hc
      split at hc
      · rcases List.mem_cons.1 hc with rfl | hc
        · exact upper_word h1
        · exact ih _ h2 c hc
      · split at hc
        · exact ih _ h2 c hc
        · rcases List.mem_cons.1 hc with rfl | hc
          · exact h1
          · exact ih _ h2 c hc
  refine ⟨?_, key lib true h.2⟩
  obtain ⟨c, cs, rfl⟩ := List.exists_cons_of_ne_nil h.1
  rw [Verif.Names.pascalCasedLibName, Verif.Names.pascalLoop, if_pos rfl]
  simp

theorem tk_pragma {l r : Text} (h1 : '/' ∉ l) (h2 : '\n' ∉ l) (h3 : trim l = l) (hd : directive l = some (t!"pragma", r)) : Tk eval D (l ++ ['\n']) [] :=
  .directive h1 h2 h3 hd hd

theorem slash_word {w : Text} (h : IsWord w) (s rest : Text) (hs : ∀ rest, code .code (s ++ rest) = s ++ code .code rest) :
    code .code ('/' :: (w ++ s) ++ rest) = '/' :: (w ++ s) ++ code .code rest := by
  obtain ⟨c, cs, rfl⟩ := List.exists_cons_of_ne_nil h.1
  have h1 : c ≠ '*' := fun e => absurd (h.2 c (by simp)) (by rw [e]; decide)
  have h2 : c ≠ '/' := fun e => absurd (h.2 c (by simp)) (by rw [e]; decide)
  have e : code .code ('/' :: c :: (cs ++ s ++ rest)) = '/' :: code .code (c :: (cs ++ s ++ rest)) := by
    rw [code.eq_def]
    split
    · simp_all
    · simp_all
    · next h => obtain ⟨rfl, rfl⟩ := List.cons.inj h; rfl
    all_goals simp_all
  show code .code ('/' :: c :: (cs ++ s ++ rest)) = _
  rw [e]
  have : c :: (cs ++ s ++ rest) = (c :: cs) ++ (s ++ rest) := by simp
  rw [this, code_plain h.clean.slash, hs]
  simp

set_option maxRecDepth 8000 in
theorem tk_prelude {c : Config} (hc : c.lang = .csharp) (hl : IsWord c.lib) :
    ∃ s, c.prelude = some s ∧ Tk eval D s ([.id kNamespace, .id (namespaceName c), .bad '{', .id kUsing, .id t!"System", .semi, .id kUsing, .id t!"System", .bad '.',
      .id t!"Runtime", .bad '.', .id t!"InteropServices", .semi] ++ (ffiMods.map .id ++ .id kClass :: .id kFfi :: .bad '{' ::
        (memberToks [.const [kPrivate] (.name t!"string") t!"RustLib" (libToks (eval D t!"IOS") c.lib)] ++ [.bad '}']))) := by
  have hn : IsWord (namespaceName c) := pascal_word hl
  refine ⟨_, by rw [Config.prelude, hc], ?_⟩
  have hp : Tk eval D (t!"#pragma warning disable IDE0044, IDE0049, IDE0055, IDE1006,\n" ++
      t!"#pragma warning disable SA1004, SA1008, SA1023, SA1028,\n" ++
      t!"#pragma warning disable SA1121, SA1134,\n" ++
      t!"#pragma warning disable SA1201,\n" ++
      t!"#pragma warning disable SA1300, SA1306, SA1307, SA1310, SA1313,\n" ++
      t!"#pragma warning disable SA1500, SA1505, SA1507,\n" ++
      t!"#pragma warning disable SA1600, SA1601, SA1604, SA1605, SA1611, SA1615, SA1649,\n") [] := by
    refine ((((((Tk.append (x := []) (y := []) ?_ ?_).append (y := []) ?_).append (y := []) ?_).append (y := []) ?_).append (y := []) ?_).append (y := []) ?_)
    · exact tk_pragma (l := t!"#pragma warning disable IDE0044, IDE0049, IDE0055, IDE1006,") (r := t!"warning disable IDE0044, IDE0049, IDE0055, IDE1006,")
        (by decide) (by decide) (by decide) (by decide)
    · exact tk_pragma (l := t!"#pragma warning disable SA1004, SA1008, SA1023, SA1028,") (r := t!"warning disable SA1004, SA1008, SA1023, SA1028,")
        (by decide) (by decide) (by decide) (by decide)
    · exact tk_pragma (l := t!"#pragma warning disable SA1121, SA1134,") (r := t!"warning disable SA1121, SA1134,")
        (by decide) (by decide) (by decide) (by decide)
    · exact tk_pragma (l := t!"#pragma warning disable SA1201,") (r := t!"warning disable SA1201,")
        (by decide) (by decide) (by decide) (by decide)
    · exact tk_pragma (l := t!"#pragma warning disable SA1300, SA1306, SA1307, SA1310, SA1313,") (r := t!"warning disable SA1300, SA1306, SA1307, SA1310, SA1313,")
        (by decide) (by decide) (by decide) (by decide)
    · exact tk_pragma (l := t!"#pragma warning disable SA1500, SA1505, SA1507,") (r := t!"warning disable SA1500, SA1505, SA1507,")
        (by decide) (by decide) (by decide) (by decide)
    · exact tk_pragma (l := t!"#pragma warning disable SA1600, SA1601, SA1604, SA1605, SA1611, SA1615, SA1649,")
        (r := t!"warning disable SA1600, SA1601, SA1604, SA1605, SA1611, SA1615, SA1649,")
        (by decide) (by decide) (by decide) (by decide)
  have hns : Tk eval D (t!"\nnamespace " ++ (namespaceName c ++ t!" {\nusing System;\n") ++ t!"using System.Runtime.InteropServices;\n\n" ++
      t!"public unsafe partial class Ffi {" ++ ['\n'])
      ([.id kNamespace] ++ [.id (namespaceName c), .bad '{', .id kUsing, .id t!"System", .semi] ++ [.id kUsing, .id t!"System", .bad '.',
      .id t!"Runtime", .bad '.', .id t!"InteropServices", .semi] ++ (ffiMods.map .id ++ [.id kClass, .id kFfi, .bad '{'])) := by
    refine Piece.tk (((Piece.append ?_ ?_).append ?_).append ?_)
    · exact .lit (fun _ => rfl) (by decide)
    · exact Piece.word hn rfl (fun _ => rfl) (by decide)
    · exact .lit (fun _ => rfl) (by decide)
    · exact .lit (fun _ => rfl) (by decide)
  have hcond := Tk.cond (eval := eval) (D := D) (a := t!"    private const string RustLib = \"" ++ (c.lib ++ t!".framework") ++ '/' :: (c.lib ++ t!"\";"))
    (x := [.id kPrivate, .id kConst, .id t!"string", .id t!"RustLib", .bad '='] ++ libToks true c.lib ++ [.semi])
    (b := t!"    private const string RustLib = \"" ++ (c.lib ++ t!"\";"))
    (y := [.id kPrivate, .id kConst, .id t!"string", .id t!"RustLib", .bad '='] ++ libToks false c.lib ++ [.semi])
    (by
      intro rest
      rw [List.append_assoc, List.append_assoc, code_plain (s := t!"    private const string RustLib = \"") (by decide), List.append_assoc,
        code_plain hl.clean.slash, code_plain (s := t!".framework") (by decide), slash_word hl t!"\";" rest (fun rest => code_plain (by decide) rest)]
      simp)
    (by have := word_nl hl; simp [this])
    (by have := hl.clean.hash; simp [this])
    (by
      intro rest
      have h1 : Lx (c.lib ++ t!"\";") [.id c.lib, .bad '"', .semi] := lx_word hl rfl fun _ => rfl
      have h2 : Lx t!".framework/" [.bad '.', .id t!"framework", .bad '/'] := fun _ => rfl
      have h3 : Lx (c.lib ++ t!".framework/") [.id c.lib, .bad '.', .id t!"framework", .bad '/'] := lx_word hl rfl h2
      have h4 : Lx t!"    private const string RustLib = \"" [.id kPrivate, .id kConst, .id t!"string", .id t!"RustLib", .bad '=', .bad '"'] := fun _ => rfl
      have e : t!"    private const string RustLib = \"" ++ (c.lib ++ t!".framework") ++ '/' :: (c.lib ++ t!"\";") ++ rest =
          t!"    private const string RustLib = \"" ++ ((c.lib ++ t!".framework/") ++ ((c.lib ++ t!"\";") ++ rest)) := by simp
      rw [e, h4, h3, h1]
      rfl)
    (by
      intro rest
      rw [List.append_assoc, code_plain (s := t!"    private const string RustLib = \"") (by decide), List.append_assoc,
        code_plain hl.clean.slash, code_plain (s := t!"\";") (by decide)]
      simp)
    (by have := word_nl hl; simp [this])
    (by have := hl.clean.hash; simp [this])
    (by
      intro rest
      have h1 : Lx (c.lib ++ t!"\";") [.id c.lib, .bad '"', .semi] := lx_word hl rfl fun _ => rfl
      have h4 : Lx t!"    private const string RustLib = \"" [.id kPrivate, .id kConst, .id t!"string", .id t!"RustLib", .bad '=', .bad '"'] := fun _ => rfl
      rw [List.append_assoc, h4, h1]
      rfl)
  have hend : Tk eval D (t!"}" ++ ['\n']) [.bad '}'] := Piece.tk (.lit (fun _ => rfl) (by decide))
  have := (((hp.append hns).append hcond).append hend).append tk_nl
  have e : ∀ p : Text, p ++ t!"\n" ++ t!"namespace " ++ Verif.Names.pascalCasedLibName c.lib ++ t!" {\nusing System;\nusing System.Runtime.InteropServices;\n\n" ++
      t!"public unsafe partial class Ffi {\n#if IOS\n    private const string RustLib = \"" ++ c.lib ++ t!".framework/" ++ c.lib ++
      t!"\";\n#else\n    private const string RustLib = \"" ++ c.lib ++ t!"\";\n#endif\n}\n" ++ nl =
      p ++ (t!"\nnamespace " ++ (namespaceName c ++ t!" {\nusing System;\n") ++ t!"using System.Runtime.InteropServices;\n\n" ++
      t!"public unsafe partial class Ffi {" ++ ['\n']) ++ (t!"#if IOS\n" ++ (t!"    private const string RustLib = \"" ++ (c.lib ++ t!".framework") ++ '/' :: (c.lib ++ t!"\";") ++
        (t!"\n#else\n" ++ (t!"    private const string RustLib = \"" ++ (c.lib ++ t!"\";") ++ t!"\n#endif\n")))) ++ (t!"}" ++ ['\n']) ++ nl := by
    intro p
    simp [namespaceName, nl]
  rw [← e] at this
  refine Tk.cast (Eq.mp (congrArg (fun s => Tk eval D s _) ?_) this) ?_
  · rfl
  · cases eval D t!"IOS" <;> simp [memberToks, Member.toks, libToks, Ty.toks]

theorem tk_epilogue {c : Config} (hc : c.lang = .csharp) (hl : IsWord c.lib) : ∃ s, c.epilogue = some s ∧ Tk eval D s [.bad '}'] := by
  have hn : IsWord (namespaceName c) := pascal_word hl
  refine ⟨_, by rw [Config.epilogue, hc], ?_⟩
  have hblock : ∀ w rest : Text, '*' ∉ w → code .block (w ++ rest) = code .block rest := by
    intro w
    induction w with
    | nil => intros; rfl
    | cons x w ih =>
      intro rest h
      rw [List.cons_append, ← ih rest fun hm => h (by simp [hm])]
      have hx : x ≠ '*' := fun e => h (by simp [e])
      rw [code.eq_def]
      split <;> simp_all
  have hp : Piece (t!"\n} /* " ++ (namespaceName c ++ t!" */")) [.bad '}'] := by
    refine ⟨t!"\n} ", fun rest => ?_, by decide, fun _ => rfl⟩
    have e : t!"\n} /* " ++ (namespaceName c ++ t!" */") ++ rest = t!"\n} /* " ++ (namespaceName c ++ (t!" */" ++ rest)) := by simp
    have e2 : ∀ x : Text, code .code (t!"\n} /* " ++ x) = t!"\n} " ++ code .block x := fun x => rfl
    rw [e, e2, hblock _ _ (hn.not_mem (by decide))]
    rfl
  have := hp.tk (eval := eval) (D := D)
  refine Eq.mp (congrArg (fun s => Tk eval D s _) ?_) this
  simp [namespaceName]

theorem tk_banner {c : Config} (h : c.banner = none) : Tk eval D c.writeBanner [] := by
  obtain ⟨s, h1, h2, h3⟩ := default_banner c h []
  refine ⟨[[], [], []], [], fun rest => ?_, ?_, rfl⟩
  · rw [h1, List.append_assoc, List.singleton_append, h2.lines, h3]
  · rw [run_blank, run_blank, run_blank]; rfl

/-! ### The file -/

/-- A header with these declarations. -/
def file (c : Config) (ios : Bool) (ds : List Decl) : File := ⟨namespaceName c, usings, libDecl ios c.lib :: ds⟩

theorem readFile_toks {n : Text} {toks : List Tok} {ds : List Decl} (h : Ev (readDecls · (toks ++ [.bad '}'])) ds) {r : List Tok} (hr : toks = .id kPublic :: r) :
    Ev (readFile · ([.id kNamespace, .id n, .bad '{', .id kUsing, .id t!"System", .semi, .id kUsing, .id t!"System", .bad '.',
      .id t!"Runtime", .bad '.', .id t!"InteropServices", .semi] ++ toks ++ [.bad '}'])) ⟨n, usings, ds⟩ := by
  obtain ⟨k, hk⟩ := h
  refine ⟨k + 3, fun m hm => ?_⟩
  obtain ⟨m, rfl⟩ : ∃ j, m = j + 3 := ⟨m - 3, by omega⟩
  have h := hk (m + 3) (by omega)
  subst hr
  simp only at h
  simp only [List.cons_append, List.nil_append]
  rw [readFile, if_pos rfl]
  have hu : readUsings (m + 3) (.id kUsing :: .id t!"System" :: .semi :: .id kUsing :: .id t!"System" :: .bad '.' :: .id t!"Runtime" :: .bad '.' ::
      .id t!"InteropServices" :: .semi :: .id kPublic :: (r ++ [.bad '}'])) = some (usings, .id kPublic :: (r ++ [.bad '}'])) := rfl
  rw [hu]
  simp only
  rw [show Tok.id kPublic :: (r ++ [.bad '}']) = .id kPublic :: r ++ [.bad '}'] from rfl, h]
  rfl

/-- A C# compiler reads a header as this file. -/
theorem reads_file {P : Prog} {c : Config} {its : List Item} {p e : Text} (hc : c.lang = .csharp) (hl : IsWord c.lib) (hb : c.banner = none)
    (hp : c.prelude = some p) (he : c.epilogue = some e) (h : ∀ it ∈ its, ItemFine P it ∧ (render P it).panics = false) (defs : List Text) :
    ReadsAs eval defs (c.writeBanner ++ p ++ flat (its.flatMap fun it => (render P it).writes) ++ e) (file c (eval defs t!"IOS") (its.flatMap (csDecls P))) := by
  obtain ⟨s1, e1, t1⟩ := tk_prelude (eval := eval) (D := defs) hc hl
  obtain ⟨s2, e2, t2⟩ := tk_epilogue (eval := eval) (D := defs) hc hl
  rw [hp] at e1
  rw [he] at e2
  cases e1
  cases e2
  obtain ⟨toks, t3, hd⟩ := decls_items (eval := eval) (D := defs) h
  have hlib : Decls (ffiMods.map .id ++ .id kClass :: .id kFfi :: .bad '{' ::
        (memberToks [.const [kPrivate] (.name t!"string") t!"RustLib" (libToks (eval defs t!"IOS") c.lib)] ++ [.bad '}'])) [libDecl (eval defs t!"IOS") c.lib] := by
    refine Decls.cls ffiMods_ok fun x hx => ?_
    rw [List.mem_singleton.1 hx]
    refine ⟨by decide, ?_⟩
    rw [libToks]
    split <;> simp
  have hf := readFile_toks (n := namespaceName c) (hlib.append hd).ends (r := _) rfl
  obtain ⟨ls, new, h1, h2, h3⟩ := (((tk_banner (eval := eval) (D := defs) hb).append t1).append t3).append t2
  refine ⟨⟨defs, [], new⟩, ?_, rfl, ?_⟩
  · rw [Pp.read]
    have := h1 []
    rw [List.append_nil] at this
    rw [this, lines_nil, run_blank_end, h2]
  · rw [h3]
    simp only [List.append_assoc, List.cons_append, List.nil_append] at hf ⊢
    exact hf

end Verif.Headers.Cs
