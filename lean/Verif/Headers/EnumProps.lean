import Verif.Headers.EnumLemmas
/-!
# C45: the constants of emitted enums have the discriminants of Rust

The emitted text is read with the rules of `EnumSpec`, and compared with the discriminants that the Rust
reference gives. Two things are wrong in the code. cffi headers have no values at all. And the value of an
explicit discriminant is that of the expression at its default type (`i32`), not at the type of the
`repr`. So the theorems are about expressions for which the type does not matter.
-/
namespace Verif.Headers
open Text

/-- The type of explicit discriminants: `isize` if the `repr` is just `C`. -/
def reprTy (int : Option IntTy) : IntTy := int.getD .isize

/-- An expression that means the same at every type at which it compiles: literals, sums and products;
and complements, if the `repr` is signed. -/
def Ex.anyType (signed : Bool) : Ex → Bool
  | .lit _ => true
  | .typed _ _ => true
  | .not e => signed && e.anyType signed
  | .add a b => a.anyType signed && b.anyType signed
  | .mul a b => a.anyType signed && b.anyType signed
  | .shl _ _ => false

/-- The value does not depend on whether the expression has the type of the `repr` or its default type:
a part of it has an explicit type, or the `repr` is `i32`, or the expression is of the kind above. -/
def Ex.fine (k : IntTy) (e : Ex) : Bool := e.type?.isSome || k == .i32 || e.anyType k.signed

theorem checked_eq {W : Nat} {k : IntTy} {v x : Int} (h : Ex.checked W k v = some x) : x = v := by
  unfold Ex.checked at h; split at h <;> simp at h; exact h.symm

theorem eval_type {W : Nat} {k k' : IntTy} {e : Ex} {x : Int} (h : e.eval W k = some x) (ht : e.type? = some k') : k' = k := by
  induction e generalizing x with
  | lit v => cases ht
  | typed v k'' =>
    simp only [Ex.type?, Option.some.injEq] at ht
    rw [Ex.eval] at h
    split at h
    next e => rw [← ht, e]
    · cases h
  | not e ih =>
    rw [Ex.eval, Option.map_eq_some_iff] at h
    obtain ⟨y, hy, _⟩ := h
    exact ih hy ht
  | add a b iha ihb =>
    rw [Ex.eval] at h
    split at h
    next y z hy hz =>
      simp only [Ex.type?] at ht
      cases ha : a.type? with
      | some k'' => rw [ha] at ht; simp at ht; subst ht; exact iha hy ha
      | none => rw [ha] at ht; simp at ht; exact ihb hz ht
    · cases h
  | mul a b iha ihb =>
    rw [Ex.eval] at h
    split at h
    next y z hy hz =>
      simp only [Ex.type?] at ht
      cases ha : a.type? with
      | some k'' => rw [ha] at ht; simp at ht; subst ht; exact iha hy ha
      | none => rw [ha] at ht; simp at ht; exact ihb hz ht
    · cases h
  | shl e n ih =>
    rw [Ex.eval] at h
    split at h
    next y hy => exact ih hy ht
    · cases h

theorem eval_anyType {W : Nat} {k k' : IntTy} {e : Ex} {x y : Int} (h : e.eval W k = some x) (h' : e.eval W k' = some y)
    (ha : e.anyType k.signed = true) (hs : k'.signed = true) : y = x := by
  induction e generalizing x y with
  | lit v =>
    rw [Ex.eval] at h h'
    rw [checked_eq h, checked_eq h']
  | typed v k'' =>
    rw [Ex.eval] at h h'
    split at h <;> split at h' <;> first | (cases h; done) | (cases h'; done) | skip
    rw [checked_eq h, checked_eq h']
  | not e ih =>
    rw [Ex.eval, Option.map_eq_some_iff] at h h'
    obtain ⟨a, h1, h2⟩ := h
    obtain ⟨c, h3, h4⟩ := h'
    simp only [Ex.anyType, Bool.and_eq_true] at ha
    rw [if_pos ha.1] at h2
    rw [if_pos hs] at h4
    rw [← h2, ← h4, ih h1 h3 ha.2]
  | add a b iha ihb =>
    rw [Ex.eval] at h h'
    simp only [Ex.anyType, Bool.and_eq_true] at ha
    split at h
    next p q hp hq =>
      split at h'
      next p' q' hp' hq' =>
        rw [checked_eq h, checked_eq h', iha hp hp' ha.1, ihb hq hq' ha.2]
      · cases h'
    · cases h
  | mul a b iha ihb =>
    rw [Ex.eval] at h h'
    simp only [Ex.anyType, Bool.and_eq_true] at ha
    split at h
    next p q hp hq =>
      split at h'
      next p' q' hp' hq' =>
        rw [checked_eq h, checked_eq h', iha hp hp' ha.1, ihb hq hq' ha.2]
      · cases h'
    · cases h
  | shl e n ih => cases ha

/-- The value that the header gets is that of Rust. -/
theorem header_fine {W : Nat} {k : IntTy} {e : Ex} {x y : Int} (hf : e.fine k = true) (h : e.eval W k = some x)
    (h' : e.header W = some y) : y = x := by
  unfold Ex.header at h'
  cases ht : e.type? with
  | some k' =>
    rw [ht, eval_type h ht] at h'
    simp only [Option.getD_some] at h'
    rw [h] at h'
    exact (Option.some.inj h').symm
  | none =>
    rw [ht] at h'
    simp only [Option.getD_none] at h'
    simp only [Ex.fine, ht, Option.isSome_none, Bool.false_or, Bool.or_eq_true, beq_iff_eq] at hf
    rcases hf with rfl | hf
    · rw [h] at h'; exact (Option.some.inj h').symm
    · exact eval_anyType h h' hf rfl

/-! ### Reading the text -/

/-- Documentation that stays inside its comments (C47). -/
def docsOk : Lang → List Text → Prop
  | .c, docs => ∀ d ∈ docs, ¬ Contains d ['*', '/']
  | .csharp, docs => ∀ d ∈ docs, ∀ c ∈ trim d, isTerminator c = false
  | .python, _ => True

theorem docs_code {lang : Lang} {docs : List Text} (h : docsOk lang docs) (depth : Nat) (rest : Text) :
    ∃ w, Ws w ∧ code .code (flat (emitDocs lang depth docs) ++ rest) = w ++ code .code rest := by
  cases lang with
  | c => exact ⟨indent depth ++ ['\n'], (ws_indent depth).append (by decide), by rw [C47_c_partial depth docs h]; simp⟩
  | csharp => exact C47_csharp_partial depth docs h rest
  | python => exact ⟨[], Ws.nil, rfl⟩

theorem flat_outLines_cons (d : Nat) (l l' : Text) (ls : List Text) :
    flat (outLines d (l :: l' :: ls)) = flat (outLines d [l]) ++ flat (outLines d (l' :: ls)) := by
  simp [flat_outLines]

theorem toAsciiUpper_word {c : Char} (h : isWordChar c = true) : isWordChar (toAsciiUpper c) = true := by
  unfold toAsciiUpper
  split
  next hl =>
    simp only [isAsciiLower, Bool.and_eq_true, decide_eq_true_eq] at hl
    have h1 : c.toNat ≥ 97 := by have := hl.1; simp only [Char.le_def, UInt32.le_iff_toNat_le] at this; exact this
    have h2 : c.toNat ≤ 122 := by have := hl.2; simp only [Char.le_def, UInt32.le_iff_toNat_le] at this; exact this
    have key : ∀ n, n < 26 → isWordChar (Char.ofNat (n + 65)) = true := by decide
    have e : c.toNat - 32 = (c.toNat - 97) + 65 := by omega
    rw [e]
    exact key _ (by omega)
  · exact h

theorem constName_word {a v : Text} (ha : IsWord a) (hv : IsWord v) : IsWord (constName a v) := by
  have key : ∀ f, ∀ c, isWordChar c = true → ∀ x ∈ Verif.Names.screamChar f c, isWordChar x = true := by
    intro f c hc x hx
    simp only [Verif.Names.screamChar, List.mem_append, List.mem_singleton] at hx
    rcases hx with hx | rfl
    · split at hx
      · simp at hx; subst hx; decide
      · cases hx
    · exact toAsciiUpper_word hc
  have hall : ∀ c ∈ a ++ v, isWordChar c = true := fun c hc => (List.mem_append.1 hc).elim (ha.2 c) (hv.2 c)
  rw [constName, Verif.Names.screamingCase]
  cases hs : a ++ v with
  | nil => exact absurd (List.append_eq_nil_iff.1 hs).1 ha.1
  | cons c cs =>
    rw [hs] at hall
    refine ⟨by simp [Verif.Names.screamChar], ?_⟩
    intro x hx
    rcases List.mem_append.1 hx with hx | hx
    · exact key true c (hall c (by simp)) x hx
    · obtain ⟨y, hy, hx⟩ := List.mem_flatMap.1 hx
      exact key false y (hall y (List.mem_cons_of_mem _ hy)) x hx

/-- The name of a constant in each language. -/
def constantName : Lang → Text → Text → Text
  | .csharp, _, v => v
  | _, enum, v => constName enum v

theorem constantName_word {lang : Lang} {a v : Text} (ha : IsWord a) (hv : IsWord v) : IsWord (constantName lang a v) := by
  cases lang
  · exact constName_word ha hv
  · exact hv
  · exact constName_word ha hv

/-- The loop over the variants. -/
theorem code_body {lang : Lang} {enum : Text} (he : IsWord enum) (val : Variant → Option Text) (vs : List Variant)
    (hv : ∀ v ∈ vs, IsWord v.name ∧ docsOk lang v.docs ∧ ∀ d, val v = some d → IsValue d) (rest : Text) :
    ∃ s, Body (vs.map fun v => (constantName lang enum v.name, val v)) s ∧
      code .code (flat (vs.flatMap fun v => emitDocs lang 1 v.docs ++ outLines 1 [enumLine (constantName lang enum v.name) (val v)]) ++ rest) =
        s ++ code .code rest := by
  induction vs with
  | nil => exact ⟨[], .nil, rfl⟩
  | cons v vs ih =>
    obtain ⟨s, hs, hc⟩ := ih fun x hx => hv x (List.mem_cons_of_mem _ hx)
    obtain ⟨h1, h2, h3⟩ := hv v (by simp)
    have hw := constantName_word (lang := lang) he h1
    generalize hn : constantName lang enum v.name = n at hw
    have hline : flat (outLines 1 [enumLine n (val v)]) = indent 1 ++ enumLine n (val v) ++ ['\n'] := by
      apply flat_outLine_visible
      · rw [enumLine_eq]
        have := enumPiece_not_mem (c := '\n') hw h3 (by decide) (by decide) (by decide) (by decide)
        simp [this]
      · rw [enumLine_eq, List.getLast?_append]; rfl
      · rw [enumLine_eq]; simp
    have hslash : '/' ∉ indent 1 ++ enumLine n (val v) ++ ['\n'] := by
      rw [enumLine_eq]
      have h4 := enumPiece_not_mem (c := '/') hw h3 (by decide) (by decide) (by decide) (by decide)
      have h5 := (ws_indent 1).not_mem (c := '/') (by decide)
      simp only [List.mem_append, not_or]
      exact ⟨⟨h5, h4, by decide⟩, by decide⟩
    rw [List.flatMap_cons, List.map_cons, hn, flat_append, flat_append, hline]
    obtain ⟨w, hws, hdocs⟩ := docs_code h2 1 ((indent 1 ++ enumLine n (val v) ++ ['\n']) ++
      (flat (vs.flatMap fun v => emitDocs lang 1 v.docs ++ outLines 1 [enumLine (constantName lang enum v.name) (val v)]) ++ rest))
    refine ⟨(w ++ indent 1) ++ enumLine n (val v) ++ '\n' :: s, .cons (hws.append (ws_indent 1)) hs, ?_⟩
    have e : ∀ a c d e : Text, a ++ c ++ d ++ e = a ++ (c ++ (d ++ e)) := by simp
    rw [e, hdocs, code_plain hslash, hc]
    simp

theorem sfree {s : Text} (h : IsWord s) : '/' ∉ s := h.not_mem (by decide)

theorem short_enum (b : Nat → Text) (i : Nat) : short b (.adt i []) = b i := by rw [short_adt, shorts_nil, List.append_nil]

theorem cName_enum (b : Nat → Text) (i : Nat) : cName b (.adt i []) = b i ++ t!"_t" := by
  rw [cName, cVar_adt, short_enum]; simp [sep]

theorem line0 {l : Text} (h : '\n' ∉ l) (hl : (l.getLast?.all fun c => !isWs c) = true) (hne : l ≠ []) :
    flat (outLines 0 [l]) = l ++ ['\n'] := by
  rw [flat_outLine_visible 0 h hl hne]; rfl

/-- The text before the variants, in C. -/
theorem code_open_c (b : Nat → Text) (i : Nat) (hb : IsWord (b i)) (int : Option IntTy) (rest : Text) :
    ∃ pre, '{' ∉ pre ∧ code .code (flat (enumOpen b (.adt i []) int) ++ rest) = pre ++ '{' :: '\n' :: code .code rest := by
  have hbr : '{' ∉ b i := hb.not_mem (by decide)
  have hnl : '\n' ∉ b i := hb.not_mem (by decide)
  have hsl := sfree hb
  cases int with
  | none =>
    refine ⟨t!"typedef enum " ++ b i ++ t!" ", by simp [hbr], ?_⟩
    rw [enumOpen, short_enum, line0 (by simp [hnl]) (by rw [List.getLast?_append]; rfl) (by simp), code_plain (by simp [hsl])]
    simp
  | some k =>
    refine ⟨t!"\n#ifdef DOXYGEN\ntypedef\n#endif\nenum " ++ b i ++ t!" ", by simp [hbr], ?_⟩
    have ek : cName b (.int k) = k.c ++ t!"_t" := by rw [cName, cVar_int]; simp [sep]
    have h1 : flat (outLines 0 [t!"/** \\remark Has the same ABI as `" ++ cName b (.int k) ++ t!"` **/"]) =
        '/' :: '*' :: ((t!"* \\remark Has the same ABI as `" ++ k.c ++ t!"_t` *") ++ '*' :: '/' :: ['\n']) := by
      rw [ek]; cases k <;> decide
    have h2 : has (t!"* \\remark Has the same ABI as `" ++ k.c ++ t!"_t` *") = false := by cases k <;> decide
    have h3 : flat (outLines 0 [t!"#ifdef DOXYGEN"]) = t!"#ifdef DOXYGEN\n" := by decide
    have h4 : flat (outLines 0 [t!"typedef"]) = t!"typedef\n" := by decide
    have h5 : flat (outLines 0 [t!"#endif"]) = t!"#endif\n" := by decide
    rw [enumOpen, flat_outLines_cons, flat_outLines_cons, flat_outLines_cons, flat_outLines_cons, h1, h3, h4, h5, short_enum,
      line0 (by simp [hnl]) (by rw [List.getLast?_append]; rfl) (by simp)]
    generalize (t!"* \\remark Has the same ABI as `" ++ k.c ++ t!"_t` *") = W at h2
    have e : '/' :: '*' :: (W ++ '*' :: '/' :: ['\n']) ++ (t!"#ifdef DOXYGEN\n" ++ (t!"typedef\n" ++ (t!"#endif\n" ++
        (t!"enum " ++ b i ++ t!" {" ++ ['\n'])))) ++ rest =
        '/' :: '*' :: (W ++ '*' :: '/' :: ((t!"\n#ifdef DOXYGEN\ntypedef\n#endif\nenum " ++ b i ++ t!" {\n") ++ rest)) := by simp
    rw [e, code, block_end _ _ h2, code_plain (by simp [hsl])]
    simp

/-- After the variants: a closing brace first. -/
theorem code_close {l : Text} {ws : List Text} (h : '\n' ∉ l) (hl : (('}' :: l).getLast?.all fun c => !isWs c) = true) (rest : Text) :
    ∃ post, code .code (flat (outLines 0 (('}' :: l) :: ws)) ++ rest) = '}' :: post := by
  have h1 : flat (outLines 0 ['}' :: l]) = '}' :: l ++ ['\n'] := line0 (by simp [h]) hl (by simp)
  have hx : ∀ s : Text, ∃ post, code .code ('}' :: s) = '}' :: post := by
    intro s
    exact ⟨code .code s, by rw [code] <;> intro _ e <;> exact absurd e (by decide)⟩
  cases ws with
  | nil => rw [h1]; exact hx _
  | cons l' ls => rw [flat_outLines_cons, h1]; exact hx _

/-- What the text of an enum, in any of the languages, is read as. -/
theorem enumerators_emit (b : Nat → Text) (lang : Lang) (docs : List Text) (i : Nat) (int : Option IntTy) (us : List Variant)
    (hb : IsWord (b i)) (hd : docsOk lang docs)
    (hu : ∀ v ∈ us, IsWord v.name ∧ docsOk lang v.docs ∧ ∀ d, v.disc = some d → IsValue d) :
    enumerators (flat (emitEnum b lang docs (.adt i []) int us)) =
      (us.map fun v => (constantName lang (b i) v.name, if lang = .python then none else v.disc)).mapM lineValue := by
  have hnl : '\n' ∉ b i := hb.not_mem (by decide)
  have hsl := sfree hb
  have hbr : '{' ∉ b i := hb.not_mem (by decide)
  have ok : ∀ val : Variant → Option Text, (∀ v ∈ us, ∀ d, val v = some d → IsValue d) →
      ∀ x ∈ us.map fun v => (constantName lang (b i) v.name, val v), lineOk x := by
    intro val hval x hx
    obtain ⟨v, hv, rfl⟩ := List.mem_map.1 hx
    exact ⟨constantName_word hb (hu v hv).1, hval v hv⟩
  cases lang with
  | c =>
    rw [emitEnum, cEnum]
    simp only [flat_append, List.append_assoc]
    have e : ∀ v : Variant, cDocs 1 v.docs ++ outLines 1 [enumLine (constName (short b (.adt i [])) v.name) v.disc] =
        emitDocs .c 1 v.docs ++ outLines 1 [enumLine (constantName .c (b i) v.name) v.disc] := fun v => by rw [short_enum]; rfl
    simp only [e]
    have close : ∃ post, code .code (flat (enumClose b (.adt i []) int) ++ flat [nl]) = '}' :: post := by
      cases int with
      | none =>
        refine code_close (l := t!" " ++ cName b (.adt i []) ++ t!";") ?_ ?_ _
        · rw [cName_enum]; simp [hnl]
        · rw [← List.cons_append, List.getLast?_append]; rfl
      | some k => exact code_close (l := []) (by simp) (by decide) _
    obtain ⟨post, hpost⟩ := close
    obtain ⟨s, hs, hcode⟩ := code_body hb (lang := .c) (·.disc) us hu _
    obtain ⟨pre, hpre, hopen⟩ := code_open_c b i hb int _
    obtain ⟨w, hw, hdoc⟩ := docs_code hd 0 _
    have := enumerators_body hs (ok (·.disc) fun v hv => (hu v hv).2.2) (post := post) (pre := w ++ pre) (by
      simp [hpre, hw.not_mem (c := '{') (by decide)]) (hdoc.trans (by rw [hopen, hcode, hpost]; simp))
    exact this
  | csharp =>
    rw [emitEnum, csEnum]
    simp only [flat_append, List.append_assoc]
    have e : ∀ v : Variant, csDocs 1 v.docs ++ outLines 1 [enumLine v.name v.disc] =
        emitDocs .csharp 1 v.docs ++ outLines 1 [enumLine (constantName .csharp (b i) v.name) v.disc] := fun v => rfl
    simp only [e]
    have hcs : csName b (.adt i []) = b i ++ t!"_t" := by rw [csName, short_enum]
    have hint : ∀ x ∈ csBacking b int, x ≠ '\n' ∧ x ≠ '/' ∧ x ≠ '{' := by
      cases int with
      | none => exact nofun
      | some k =>
        show ∀ x ∈ t!": " ++ k.cs, x ≠ '\n' ∧ x ≠ '/' ∧ x ≠ '{'
        cases k <;> decide
    generalize csBacking b int = I at hint
    have hIn : '\n' ∉ I := fun h => (hint _ h).1 rfl
    have hIs : '/' ∉ I := fun h => (hint _ h).2.1 rfl
    have hIb : '{' ∉ I := fun h => (hint _ h).2.2 rfl
    have hopen : ∀ rest, code .code (flat (outLines 0 [t!"public enum " ++ (csName b (.adt i []) ++ (t!" " ++ (I ++ t!" {")))]) ++ rest) =
        (t!"public enum " ++ b i ++ t!"_t" ++ t!" " ++ I ++ t!" ") ++ '{' :: '\n' :: code .code rest := by
      intro rest
      rw [hcs, line0 (by simp [hnl, hIn]) (by
        have : t!"public enum " ++ (b i ++ t!"_t" ++ (t!" " ++ (I ++ t!" {"))) = (t!"public enum " ++ (b i ++ t!"_t") ++ (t!" " ++ I)) ++ t!" {" := by simp
        rw [this, List.getLast?_append]; rfl) (by simp), code_plain (by simp [hsl, hIs])]
      simp
    obtain ⟨post, hpost⟩ := code_close (l := []) (ws := []) (by simp) (by decide) (flat [nl])
    obtain ⟨s, hs, hcode⟩ := code_body hb (lang := .csharp) (·.disc) us hu _
    obtain ⟨w, hw, hdoc⟩ := docs_code hd 0 _
    have := enumerators_body hs (ok (·.disc) fun v hv => (hu v hv).2.2) (post := post)
      (pre := w ++ (t!"public enum " ++ b i ++ t!"_t" ++ t!" " ++ I ++ t!" ")) (by
      simp [hbr, hIb, hw.not_mem (c := '{') (by decide)]) (hdoc.trans (by rw [hopen, hcode, hpost]; simp))
    exact this
  | python =>
    rw [emitEnum, pyEnum]
    simp only [flat_append, List.append_assoc]
    have e : ∀ v : Variant, pyDocs 1 v.docs ++ outLines 1 [enumLine (constName (short b (.adt i [])) v.name) none] =
        emitDocs .python 1 v.docs ++ outLines 1 [enumLine (constantName .python (b i) v.name) none] := fun v => by rw [short_enum]; rfl
    simp only [e]
    have hopen : ∀ rest, code .code (flat (outLines 0 [t!"typedef enum " ++ (short b (.adt i []) ++ t!" {")]) ++ rest) =
        (t!"typedef enum " ++ b i ++ t!" ") ++ '{' :: '\n' :: code .code rest := by
      intro rest
      rw [short_enum, line0 (by simp [hnl]) (by
        rw [← List.append_assoc, List.getLast?_append]; rfl) (by simp), code_plain (by simp [hsl])]
      simp
    have hpy : pyName b (.adt i []) = b i ++ t!"_t" := cName_enum b i
    obtain ⟨post, hpost⟩ := code_close (l := t!" " ++ (pyName b (.adt i []) ++ t!";")) (ws := []) (by rw [hpy]; simp [hnl]) (by
      rw [← List.append_assoc, ← List.cons_append, List.getLast?_append]; rfl) (flat [nl])
    obtain ⟨s, hs, hcode⟩ := code_body hb (lang := .python) (fun _ => none) us (fun v hv => ⟨(hu v hv).1, (hu v hv).2.1, nofun⟩) _
    have := enumerators_body hs (ok (fun _ => none) fun v hv => nofun)
      (pre := t!"typedef enum " ++ b i ++ t!" ") (by
      simp [hbr]) ((hopen _).trans (by rw [hcode]; exact congrArg (fun x => _ ++ '{' :: '\n' :: (s ++ x)) hpost))
    exact this

/-! ### C45 -/

/-- The variants of a declaration that the reader accepts: names, and documentation, are fine. -/
def varOk (lang : Lang) (k : IntTy) (v : EnumVar) : Prop :=
  IsWord v.name ∧ docsOk lang v.docs ∧ ∀ e, v.disc = some e → e.fine k = true

theorem variant_ok {W : Nat} {v : EnumVar} {u : Variant} (hu : v.variant W = some u) :
    u.name = v.name ∧ u.docs = v.docs ∧ (∀ d, u.disc = some d → IsValue d) ∧
      ∀ e, v.disc = some e → ∃ y, e.header W = some y ∧ u.disc = some (intText y) := by
  unfold EnumVar.variant at hu
  cases hd : v.disc with
  | none =>
    rw [hd] at hu
    simp at hu
    subst hu
    exact ⟨rfl, rfl, nofun, nofun⟩
  | some e =>
    rw [hd] at hu
    simp only [Option.map_eq_some_iff] at hu
    obtain ⟨y, hy, rfl⟩ := hu
    refine ⟨rfl, rfl, ?_, ?_⟩
    · intro d hd
      simp at hd
      subst hd
      exact ⟨intText_ne_nil y, intText_chars y⟩
    · intro e' he
      simp at he
      subst he
      exact ⟨y, hy, rfl⟩

theorem variant_none {W : Nat} {v : EnumVar} {u : Variant} (hu : v.variant W = some u) (h : v.disc = none) : u.disc = none := by
  unfold EnumVar.variant at hu
  rw [h] at hu
  simp at hu
  subst hu
  rfl

theorem variants_cons {W : Nat} {v : EnumVar} {vs : List EnumVar} {us : List Variant} (h : variants W (v :: vs) = some us) :
    ∃ u us', us = u :: us' ∧ v.variant W = some u ∧ variants W vs = some us' := by
  rw [variants, List.mapM_cons] at h
  cases h1 : v.variant W with
  | none => rw [h1] at h; cases h
  | some u =>
    rw [h1] at h
    cases h2 : vs.mapM (·.variant W) with
    | none => rw [h2] at h; cases h
    | some us' => rw [h2] at h; simp at h; exact ⟨u, us', h.symm, rfl, h2⟩

theorem variants_ok {W : Nat} {lang : Lang} {k : IntTy} {vs : List EnumVar} {us : List Variant} (h : ∀ v ∈ vs, varOk lang k v)
    (hu : variants W vs = some us) : ∀ u ∈ us, IsWord u.name ∧ docsOk lang u.docs ∧ ∀ d, u.disc = some d → IsValue d := by
  induction vs generalizing us with
  | nil =>
    simp [variants] at hu
    subst hu
    exact nofun
  | cons v vs ih =>
    obtain ⟨u, us', rfl, h1, h2⟩ := variants_cons hu
    intro x hx
    rcases List.mem_cons.1 hx with rfl | hx
    · obtain ⟨e1, e2, e3, _⟩ := variant_ok h1
      rw [e1, e2]
      exact ⟨(h v (by simp)).1, (h v (by simp)).2.1, e3⟩
    · exact ih (fun v hv => h v (List.mem_cons_of_mem _ hv)) h2 x hx

/-- Values of the constants, from the lines. -/
theorem values_lines {W : Nat} {lang : Lang} {k : IntTy} (enum : Text) {vs : List EnumVar} {us : List Variant} {vals : List (Text × Int)}
    (h : ∀ v ∈ vs, varOk lang k v) (hu : variants W vs = some us) (next : Int) (hr : discriminants W k next vs = some vals) :
    ((us.map fun v => (constantName lang enum v.name, v.disc)).mapM lineValue).map (assign next) =
      some (vals.map fun x => (constantName lang enum x.1, x.2)) := by
  induction vs generalizing us vals next with
  | nil =>
    simp [variants] at hu
    subst hu
    simp [discriminants] at hr
    subst hr
    rfl
  | cons v vs ih =>
    obtain ⟨u, us', rfl, h1, h2⟩ := variants_cons hu
    obtain ⟨e1, _, _, e4⟩ := variant_ok h1
    have ih := fun {vals} => ih (vals := vals) (fun v hv => h v (List.mem_cons_of_mem _ hv)) h2
    rw [discriminants] at hr
    rw [List.map_cons, List.mapM_cons]
    cases hd : v.disc with
    | none =>
      have hn := variant_none h1 hd
      rw [hd] at hr
      dsimp only at hr
      by_cases hk : k.has W next
      · rw [if_pos hk] at hr
        simp only [Option.map_eq_some_iff] at hr
        obtain ⟨r, hr, rfl⟩ := hr
        have := ih (next + 1) hr
        rw [Option.map_eq_some_iff] at this
        obtain ⟨ls, hls, hass⟩ := this
        rw [hls, hn]
        simp [lineValue, assign, hass, e1]
      · rw [if_neg hk] at hr; cases hr
    | some e =>
      obtain ⟨y, hy, hdy⟩ := e4 e hd
      rw [hd] at hr
      dsimp only at hr
      cases hx : e.eval W k with
      | none => rw [hx] at hr; cases hr
      | some x =>
        rw [hx] at hr
        simp only [Option.map_eq_some_iff] at hr
        obtain ⟨r, hr, rfl⟩ := hr
        have hyx := header_fine ((h v (by simp)).2.2 e hd) hx hy
        subst hyx
        have := ih (y + 1) hr
        rw [Option.map_eq_some_iff] at this
        obtain ⟨ls, hls, hass⟩ := this
        rw [hls, hdy]
        simp [lineValue, readInt_intText, assign, hass, e1]

/-- C45: the discriminants that the theorems below compare the headers with are those of Rust: an expression compiles
if it means bits of its type, and its value is the number that they stand for. -/
theorem C45_values (W : Nat) (k : IntTy) (hW : 0 < W) (e : Ex) (v : Int) :
    e.eval W k = some v ↔ ∃ x, Ex.Means W k e x ∧ k.read W x = v := by
  have h : 0 < k.bits W := by cases k <;> simp [IntTy.bits, hW]
  induction e generalizing v with
  | lit n =>
    rw [Ex.eval, checked_iff h]
    exact ⟨fun ⟨x, h1, h2⟩ => ⟨x, .lit h1, h2⟩, fun ⟨x, h1, h2⟩ => by cases h1 with | lit h1 => exact ⟨x, h1, h2⟩⟩
  | typed n k' =>
    rw [Ex.eval]
    by_cases hk : k' = k
    · subst hk
      rw [if_pos rfl, checked_iff h]
      exact ⟨fun ⟨x, h1, h2⟩ => ⟨x, .typed h1, h2⟩, fun ⟨x, h1, h2⟩ => by cases h1 with | typed h1 => exact ⟨x, h1, h2⟩⟩
    · rw [if_neg hk]
      exact ⟨nofun, fun ⟨x, h1, _⟩ => by cases h1; exact absurd rfl hk⟩
  | not e ih =>
    rw [Ex.eval, Option.map_eq_some_iff]
    constructor
    · rintro ⟨y, h1, h2⟩
      obtain ⟨x, h3, h4⟩ := (ih y).1 h1
      exact ⟨_, .not h3, by rw [IntTy.read_not h, h4, h2]⟩
    · rintro ⟨x, h1, h2⟩
      cases h1 with
      | not h1 => exact ⟨_, (ih _).2 ⟨_, h1, rfl⟩, by rw [← h2, IntTy.read_not h]⟩
  | add a b iha ihb =>
    rw [Ex.eval]
    constructor
    · intro h1
      split at h1
      next y z hy hz =>
        obtain ⟨x, h2, h3⟩ := (checked_iff h).1 h1
        obtain ⟨xa, a1, a2⟩ := (iha _).1 hy
        obtain ⟨xb, b1, b2⟩ := (ihb _).1 hz
        exact ⟨x, .add a1 b1 (by rw [h2, a2, b2]), h3⟩
      · cases h1
    · rintro ⟨x, h1, h2⟩
      cases h1 with
      | add h3 h4 h5 =>
        rw [(iha _).2 ⟨_, h3, rfl⟩, (ihb _).2 ⟨_, h4, rfl⟩]
        exact (checked_iff h).2 ⟨x, h5, h2⟩
  | mul a b iha ihb =>
    rw [Ex.eval]
    constructor
    · intro h1
      split at h1
      next y z hy hz =>
        obtain ⟨x, h2, h3⟩ := (checked_iff h).1 h1
        obtain ⟨xa, a1, a2⟩ := (iha _).1 hy
        obtain ⟨xb, b1, b2⟩ := (ihb _).1 hz
        exact ⟨x, .mul a1 b1 (by rw [h2, a2, b2]), h3⟩
      · cases h1
    · rintro ⟨x, h1, h2⟩
      cases h1 with
      | mul h3 h4 h5 =>
        rw [(iha _).2 ⟨_, h3, rfl⟩, (ihb _).2 ⟨_, h4, rfl⟩]
        exact (checked_iff h).2 ⟨x, h5, h2⟩
  | shl e n ih =>
    rw [Ex.eval]
    constructor
    · intro h1
      split at h1
      next y hy =>
        split at h1
        next hn =>
          cases h1
          obtain ⟨x, h3, h4⟩ := (ih y).1 hy
          exact ⟨_, .shl h3 hn, by rw [IntTy.read_shl h, h4]⟩
        · cases h1
      · cases h1
    · rintro ⟨x, h1, h2⟩
      cases h1 with
      | shl h3 h4 =>
        rw [(ih _).2 ⟨_, h3, rfl⟩]
        simp only [if_pos h4]
        rw [← h2, IntTy.read_shl h]

/-- C45: a literal compiles as a discriminant exactly if its value is in the range of the type. -/
theorem C45_ranges (W : Nat) (k : IntTy) (v w : Int) :
    (Ex.lit v).eval W k = some w ↔ w = v ∧ (k.range W).1 ≤ v ∧ v ≤ (k.range W).2 := by
  have e : k.has W v = true ↔ (k.range W).1 ≤ v ∧ v ≤ (k.range W).2 := by
    cases k <;>
      simp only [IntTy.has, IntTy.signed, IntTy.bits, IntTy.range, if_true, Bool.false_eq_true, if_false, Nat.reduceSub,
        Int.reducePow] <;>
      refine Iff.trans decide_eq_true_iff (and_congr_right fun _ => ?_) <;> omega
  rw [← e, Ex.eval, Ex.checked]
  by_cases h : k.has W v
  · rw [if_pos h]; simp [h, eq_comm]
  · rw [if_neg h]; simp [h]

/-- The greatest `u16` compiles, the next number does not. -/
example : (Ex.lit 65535).eval 64 .u16 = some 65535 ∧ (Ex.lit 65536).eval 64 .u16 = none := by decide +kernel

/-- `!0` has the value 255 as a `u8`, and `1 << 7` the value -128 as an `i8`; `200 + 100` does not compile as a `u8`. -/
example : (∃ x, Ex.Means 64 .u8 (.not (.lit 0)) x ∧ IntTy.read 64 .u8 x = 255) ∧
    (∃ x, Ex.Means 64 .i8 (.shl (.lit 1) 7) x ∧ IntTy.read 64 .i8 x = -128) ∧
    ¬ ∃ x, Ex.Means 64 .u8 (.add (.lit 200) (.lit 100)) x :=
  ⟨(C45_values 64 .u8 (by decide) _ _).1 (by decide +kernel), (C45_values 64 .i8 (by decide) _ _).1 (by decide +kernel),
    fun ⟨x, hx⟩ => by
      have : Ex.eval 64 .u8 (.add (.lit 200) (.lit 100)) = none := by decide +kernel
      rw [(C45_values 64 .u8 (by decide) _ _).2 ⟨x, hx, rfl⟩] at this
      cases this⟩
/-- C45, C and C#, in part: the emitted enum, read with the rules of the language, has one constant per
variant, in order, with the value of the Rust variant. Missing: discriminants that are expressions whose
value depends on their type (see the negations below). -/
theorem C45_partial (W : Nat) (b : Nat → Text) (lang : Lang) (hl : lang ≠ .python) (docs : List Text) (i : Nat) (int : Option IntTy)
    (vs : List EnumVar) (us : List Variant) (vals : List (Text × Int)) (hb : IsWord (b i)) (hd : docsOk lang docs)
    (hv : ∀ v ∈ vs, varOk lang (reprTy int) v) (hu : variants W vs = some us)
    (hr : discriminants W (reprTy int) 0 vs = some vals) :
    constants (flat (emitEnum b lang docs (.adt i []) int us)) = some (vals.map fun x => (constantName lang (b i) x.1, x.2)) := by
  rw [constants, enumerators_emit b lang docs i int us hb hd (variants_ok hv hu)]
  have := values_lines (b i) hv hu 0 hr
  simp only [if_neg hl]
  exact this

/-- Without explicit discriminants, the constants are numbered from 0. -/
theorem C45_python_partial (W : Nat) (b : Nat → Text) (docs : List Text) (i : Nat) (int : Option IntTy)
    (vs : List EnumVar) (us : List Variant) (vals : List (Text × Int)) (hb : IsWord (b i))
    (hv : ∀ v ∈ vs, IsWord v.name ∧ v.disc = none) (hu : variants W vs = some us)
    (hr : discriminants W (reprTy int) 0 vs = some vals) :
    constants (flat (emitEnum b .python docs (.adt i []) int us)) = some (vals.map fun x => (constName (b i) x.1, x.2)) := by
  have hv' : ∀ v ∈ vs, varOk .python (reprTy int) v := fun v h => ⟨(hv v h).1, trivial, fun e he => by rw [(hv v h).2] at he; cases he⟩
  have hn : ∀ u ∈ us, u.disc = none := by
    clear hr hv'
    induction vs generalizing us with
    | nil =>
      simp [variants] at hu
      subst hu
      exact nofun
    | cons v vs ih =>
      obtain ⟨u, us', rfl, h1, h2⟩ := variants_cons hu
      intro x hx
      rcases List.mem_cons.1 hx with rfl | hx
      · exact variant_none h1 (hv v (by simp)).2
      · exact ih _ (fun v hv' => hv v (List.mem_cons_of_mem _ hv')) h2 x hx
  rw [constants, enumerators_emit b .python docs i int us hb trivial (variants_ok hv' hu)]
  have := values_lines (b i) hv' hu 0 hr
  have e : (us.map fun v => (constantName .python (b i) v.name, if Lang.python = .python then none else v.disc)) =
      us.map fun v => (constantName .python (b i) v.name, v.disc) := by
    apply List.map_congr_left
    intro v hvm
    rw [hn v hvm]; rfl
  rw [e]
  exact this

/-- C45 in cffi headers, for every enum: the constants are numbered from 0, whatever the discriminants. -/
theorem C45_python_exact (b : Nat → Text) (docs : List Text) (i : Nat) (int : Option IntTy) (us : List Variant) (hb : IsWord (b i))
    (hu : ∀ v ∈ us, IsWord v.name) :
    constants (flat (emitEnum b .python docs (.adt i []) int us)) =
      some (us.zipIdx.map fun (v, n) => (constName (b i) v.name, (n : Int))) := by
  have e : emitEnum b .python docs (.adt i []) int us =
      emitEnum b .python docs (.adt i []) int (us.map fun v => { v with disc := none }) := by
    simp only [emitEnum, pyEnum, List.flatMap_map]
  rw [constants, e, enumerators_emit b .python docs i int _ hb trivial (fun v hv => by
    obtain ⟨u, hu', rfl⟩ := List.mem_map.1 hv
    exact ⟨hu u hu', trivial, nofun⟩)]
  have key : ∀ (us : List Variant) (k : Nat), ((us.map fun v => (constantName .python (b i) v.name, none)).mapM lineValue).map (assign (k : Int)) =
      some ((us.zipIdx k).map fun (v, n) => (constName (b i) v.name, (n : Int))) := by
    intro us
    induction us with
    | nil => intro k; rfl
    | cons v us ih =>
      intro k
      have := ih (k + 1)
      rw [List.map_cons, List.mapM_cons, List.zipIdx_cons, List.map_cons]
      cases hm : (us.map fun v => (constantName .python (b i) v.name, none)).mapM lineValue with
      | none => rw [hm] at this; cases this
      | some l =>
        rw [hm] at this
        have h2 : assign (((k + 1 : Nat)) : Int) l = _ := Option.some.inj this
        show some ((_, (k : Int)) :: assign ((k : Int) + 1) l) = _
        rw [show ((k : Int) + 1) = ((k + 1 : Nat) : Int) by omega, h2]
        rfl
  rw [List.map_map]
  exact key us 0

example : (∀ v ∈ [(⟨[], t!"A", some t!"5"⟩ : Variant), ⟨[], t!"B", none⟩], IsWord v.name) ∧ 
  constants (flat (emitEnum (fun _ => t!"Foo") .python [] (.adt 0 []) none [⟨[], t!"A", some t!"5"⟩, ⟨[], t!"B", none⟩])) =
    some [(t!"FOO_A", 0), (t!"FOO_B", 1)] := by constructor <;> decide +kernel

/-! ### The hypotheses are met -/

/-- `#[repr(i16)] enum Foo { /** a */ A = -3, B, C = !8 }` -/
def demoEnum : List EnumVar := [⟨[t!"first"], t!"A", some (.lit (-3))⟩, ⟨[], t!"B", none⟩, ⟨[], t!"C", some (.not (.lit 8))⟩]

example : discriminants 64 .i16 0 demoEnum = some [(t!"A", -3), (t!"B", -2), (t!"C", -9)] := by decide +kernel

example (b : Nat → Text) (hb : IsWord (b 0)) : ∃ us, variants 64 demoEnum = some us ∧
    constants (flat (emitEnum b .c [t!"An enum"] (.adt 0 []) (some .i16) us)) =
      some [(constName (b 0) t!"A", -3), (constName (b 0) t!"B", -2), (constName (b 0) t!"C", -9)] := by
  have hd : ∀ d ∈ [t!"An enum"], ¬ Contains d ['*', '/'] := by
    intro d hd
    rw [← has_iff]
    revert d; decide
  have hv : discriminants 64 .i16 0 demoEnum = some [(t!"A", -3), (t!"B", -2), (t!"C", -9)] := by decide +kernel
  refine ⟨_, rfl, (C45_partial 64 b .c (by decide) _ 0 (some .i16) demoEnum _ _ hb hd ?_ rfl hv).trans rfl⟩
  clear hv
  intro v hv
  simp only [demoEnum, List.mem_cons, List.not_mem_nil, or_false] at hv
  rcases hv with rfl | rfl | rfl
  · refine ⟨by decide, ?_, fun e he => by simp at he; subst he; decide⟩
    intro d hd
    rw [← has_iff]
    revert d; decide
  · exact ⟨by decide, nofun, nofun⟩
  · exact ⟨by decide, nofun, fun e he => by simp at he; subst he; decide⟩

/-! ### The code does not satisfy the property -/

/-- C45 fails for C and C#: the variant of `#[repr(u8)] enum Foo { All = !0 }` has the value 255, the
constant of the header has the value -1. (In C#, this does not compile.) -/
theorem C45_fails_complement : discriminants 64 .u8 0 [⟨[], t!"All", some (.not (.lit 0))⟩] = some [(t!"All", 255)] ∧
    ∃ us, variants 64 [⟨[], t!"All", some (.not (.lit 0))⟩] = some us ∧
      constants (flat (emitEnum (fun _ => t!"Foo") .c [] (.adt 0 []) (some .u8) us)) = some [(t!"FOO_ALL", -1)] ∧
      constants (flat (emitEnum (fun _ => t!"Foo") .csharp [] (.adt 0 []) (some .u8) us)) = some [(t!"All", -1)] :=
  ⟨by decide +kernel, _, rfl, by decide +kernel, by decide +kernel⟩

/-- C45 fails: the variant of `#[repr(u32)] enum Foo { High = 1 << 31 }` has the value 2147483648, the
constant of the header has the value -2147483648. -/
theorem C45_fails_shift : discriminants 64 .u32 0 [⟨[], t!"High", some (.shl (.lit 1) 31)⟩] = some [(t!"High", 2147483648)] ∧
    ∃ us, variants 64 [⟨[], t!"High", some (.shl (.lit 1) 31)⟩] = some us ∧
      constants (flat (emitEnum (fun _ => t!"Foo") .c [] (.adt 0 []) (some .u32) us)) = some [(t!"FOO_HIGH", -2147483648)] :=
  ⟨by decide +kernel, _, rfl, by decide +kernel⟩

/-- C45 fails for cffi: `#[repr(u8)] enum Foo { A = 5 }` is given the value 0. -/
theorem C45_fails_python : discriminants 64 .u8 0 [⟨[], t!"A", some (.lit 5)⟩] = some [(t!"A", 5)] ∧
    ∃ us, variants 64 [⟨[], t!"A", some (.lit 5)⟩] = some us ∧
      constants (flat (emitEnum (fun _ => t!"Foo") .python [] (.adt 0 []) (some .u8) us)) = some [(t!"FOO_A", 0)] :=
  ⟨by decide +kernel, _, rfl, by decide +kernel⟩

end Verif.Headers
