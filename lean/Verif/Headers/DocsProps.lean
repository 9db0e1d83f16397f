import Verif.Headers.DocsLemmas
/-!
# C47, C48: documentation in generated headers

`code` (DocsSpec.lean) is what a compiler sees of a text once comments are removed; `segs` and
`markup` describe the intended C# markup.
-/
namespace Verif.Headers
open Text

/-- C47, C headers: whatever follows, a compiler sees only white space in place of the emitted
documentation, provided that no line of the documentation contains `*/`.

The full property has no such proviso: it fails, see `C47_fails_c`. -/
theorem C47_c_partial (depth : Nat) (docs : List Text) (h : ∀ d ∈ docs, ¬ Contains d ['*', '/']) (rest : Text) :
    code .code (flat (emitDocs .c depth docs) ++ rest) = indent depth ++ '\n' :: code .code rest := by
  rw [emitDocs, cDocs]
  split
  · rw [flat_outLine_visible _ (by decide) (by decide), List.append_assoc, List.append_assoc, code_indent]
    congr 1
  next hne =>
    rw [flat_append, flat_append, flat_flatMap,
      flat_outLine_visible _ (show '\n' ∉ t "/** \\brief" by decide) (by decide),
      flat_outLine_visible _ (show '\n' ∉ t " */" by decide) (by decide)]
    simp only [List.append_assoc]
    rw [code_indent]
    congr 1
    have hw : ∀ ds : List Text, (∀ d ∈ ds, has d = false) →
        has ((ds.flatMap fun d => flat (outLines depth [t " *" ++ ((if (trim d).isEmpty = true then [] else t "  ") ++ trim d)])) ++
          (indent depth ++ [' '])) = false := by
      intro ds hds
      induction ds with
      | nil => rw [List.flatMap_nil, List.nil_append, has_indent]; rfl
      | cons d ds ih =>
        rw [List.flatMap_cons, List.append_assoc]
        apply has_outLine
        · split
          next he => rw [List.isEmpty_iff.1 he]; rfl
          next he =>
            have : has (trim d) = false := has_infix (hds d (by simp)) (trim_infix d)
            show has (' ' :: '*' :: ' ' :: ' ' :: trim d) = false
            rw [has_cons_ne _ (by decide), has_star_ne _ (by decide), has_cons_ne _ (by decide),
              has_cons_ne _ (by decide), this]
        · exact ih fun d hd => hds d (by simp [hd])
    have hd : ∀ d ∈ docs, has d = false := by
      intro d hd
      rw [Bool.eq_false_iff, Ne, has_iff]; exact h d hd
    have hW := hw docs hd
    generalize hX : (docs.flatMap fun d => flat (outLines depth [t " *" ++ ((if (trim d).isEmpty = true then [] else t "  ") ++ trim d)])) = X at hW
    have e : ∀ Y : Text, (t "/** \\brief" ++ (['\n'] ++ (X ++ (indent depth ++ (t " */" ++ (['\n'] ++ Y)))))) =
        '/' :: '*' :: ((t "* \\brief" ++ '\n' :: (X ++ (indent depth ++ [' ']))) ++ '*' :: '/' :: ('\n' :: Y)) := by
      intro Y; simp [t]
    rw [e, code, block_end]
    · rw [code] <;> (intros; simp_all)
    · rw [has_sep _ _ (by decide) (by decide), hW]; decide

example : ∀ d ∈ [t " Frees `p`; a / b * c.", t ""], ¬ Contains d ['*', '/'] := by
  intro d hd
  rw [← has_iff]
  revert d; decide

/-- C47, C headers, in full, fails: documentation that contains `*/` leaks. -/
theorem C47_fails_c :
    code .code (flat (emitDocs .c 0 [t "pass a `*const */*mut` pointer"])) = t "\n" → False := by decide +kernel

/-- C47, C headers: the proviso is exact. As soon as a line contains `*/`, the comment ends there:
the text up to it (on its line) is followed by code. Here for documentation of one line. -/
theorem C47_c_leak (d : Text) (a b : Text) (hd : Text.trim d = a ++ '*' :: '/' :: b)
    (ha : ¬ Contains a ['*', '/']) (hn : '\n' ∉ Text.trim d) (rest : Text) :
    ∃ tail, code .code (flat (emitDocs .c 0 [d]) ++ rest) = code .code (trimEnd b ++ tail) := by
  refine ⟨'\n' :: (t " */\n" ++ rest), ?_⟩
  have hae : has a = false := by rw [Bool.eq_false_iff, Ne, has_iff]; exact ha
  have hne : (trim d).isEmpty = false := by rw [hd]; cases a <;> rfl
  rw [emitDocs, cDocs, if_neg (by simp)]
  rw [flat_append, flat_append, flat_flatMap, flat_outLine _ (show '\n' ∉ t "/** \\brief" by decide),
    flat_outLine _ (show '\n' ∉ t " */" by decide), List.flatMap_cons, List.flatMap_nil, List.append_nil]
  simp only [hne, Bool.false_eq_true, if_false]
  rw [flat_outLine]
  · rw [hd]
    have e1 : indent 0 ++ (t " *" ++ t "  " ++ (a ++ '*' :: '/' :: b)) = (t " *  " ++ a ++ ['*']) ++ '/' :: b := by
      simp [indent, t]
    rw [e1, trimEnd_nonws _ _ (by decide), show trimEnd (indent 0 ++ t "/** \\brief") = t "/** \\brief" by decide,
      show trimEnd (indent 0 ++ t " */") = t " */" by decide]
    have e2 : t "/** \\brief" ++ ['\n'] ++ (t " *  " ++ a ++ ['*'] ++ '/' :: trimEnd b ++ ['\n']) ++ (t " */" ++ ['\n']) ++ rest =
        '/' :: '*' :: ((t "* \\brief" ++ '\n' :: (t " *" ++ ' ' :: (t "" ++ ' ' :: a))) ++ '*' :: '/' :: (trimEnd b ++ '\n' :: (t " */\n" ++ rest))) := by
      simp [t]
    rw [e2, code, block_end]
    rw [has_sep _ _ (by decide) (by decide), has_sep _ _ (by decide) (by decide), has_sep _ _ (by decide) (by decide), hae]
    decide
  · simp only [List.mem_append, not_or]
    exact ⟨by decide, hn⟩

example : ∃ a b, Text.trim (t " see */ foo(); ") = a ++ '*' :: '/' :: b ∧ ¬ Contains a ['*', '/'] ∧
    '\n' ∉ Text.trim (t " see */ foo(); ") :=
  ⟨t "see ", t " foo();", by decide, by rw [← has_iff]; decide, by decide⟩

/-- What `out!` writes for one documentation line of a C# header. -/
theorem csDoc_line (depth : Nat) (w : Text) (hw : ∀ c ∈ w, isTerminator c = false) (rest : Text) :
    code .code (flat (outLines depth [t "///" ++ w]) ++ rest) = indent depth ++ '\n' :: code .code rest := by
  have hn : '\n' ∉ t "///" ++ w := by
    simp only [List.mem_append, not_or]
    refine ⟨by decide, fun h => ?_⟩
    have := hw _ h
    revert this; decide
  rw [flat_outLine _ hn, show indent depth ++ (t "///" ++ w) = (indent depth ++ t "//") ++ '/' :: w by simp [t],
    trimEnd_nonws _ _ (by decide)]
  simp only [List.append_assoc]
  rw [code_indent]
  congr 1
  show code .line ('/' :: trimEnd w ++ '\n' :: rest) = _
  rw [line_end]
  intro c hc
  rcases List.mem_cons.1 hc with rfl | hc
  · decide
  · exact hw c (mem_trimEnd hc)

/-- C47, C# headers: whatever follows, a compiler sees only white space in place of the emitted
documentation, provided that no line of it contains a line terminator once trimmed.

The full property has no such proviso: it fails, see `C47_fails_csharp`. -/
theorem C47_csharp_partial (depth : Nat) (docs : List Text)
    (h : ∀ d ∈ docs, ∀ c ∈ Text.trim d, isTerminator c = false) (rest : Text) :
    ∃ ws : Text, (∀ c ∈ ws, Text.isWs c = true) ∧
      code .code (flat (emitDocs .csharp depth docs) ++ rest) = ws ++ code .code rest := by
  have hws : ∀ c ∈ indent depth ++ ['\n'], Text.isWs c = true := by
    intro c hc
    rcases List.mem_append.1 hc with hc | hc
    · rw [(List.mem_replicate.1 hc).2]; decide
    · rw [List.mem_singleton.1 hc]; decide
  rw [emitDocs, csDocs]
  split
  · exact ⟨[], by simp, by simp [flat]⟩
  · rw [flat_append, flat_append, flat_flatMap]
    have hmid : ∀ (ds : List Text), (∀ d ∈ ds, ∀ c ∈ Text.trim d, isTerminator c = false) → ∀ Y : Text,
        ∃ ws : Text, (∀ c ∈ ws, Text.isWs c = true) ∧
        code .code ((ds.flatMap fun d => flat (outLines depth [t "///" ++ ((if (csLine (trim d)).isEmpty = true then [] else t " ") ++ csLine (trim d))])) ++ Y)
          = ws ++ code .code Y := by
      intro ds hds Y
      induction ds with
      | nil => exact ⟨[], by simp, rfl⟩
      | cons d ds ih =>
        obtain ⟨ws, h1, h2⟩ := ih fun d hd => hds d (by simp [hd])
        refine ⟨(indent depth ++ ['\n']) ++ ws, ?_, ?_⟩
        · intro c hc
          rcases List.mem_append.1 hc with hc | hc
          · exact hws c hc
          · exact h1 c hc
        · rw [List.flatMap_cons, List.append_assoc, csDoc_line, h2]
          · simp
          · intro c hc
            rcases List.mem_append.1 hc with hc | hc
            · split at hc
              · cases hc
              · rw [List.mem_singleton.1 hc]; decide
            · rcases csLine_chars _ c hc with hc | hc
              · exact hds d (by simp) c hc
              · exact (show ∀ c ∈ t "</c>", isTerminator c = false by decide) c hc
    simp only [List.append_assoc]
    obtain ⟨ws, h1, h2⟩ := hmid docs h (flat (outLines depth [t "/// </summary>"]) ++ rest)
    refine ⟨(indent depth ++ ['\n']) ++ ws ++ (indent depth ++ ['\n']), ?_, ?_⟩
    · intro c hc
      rcases List.mem_append.1 hc with hc | hc
      · rcases List.mem_append.1 hc with hc | hc
        · exact hws c hc
        · exact h1 c hc
      · exact hws c hc
    · rw [show t "/// <summary>" = t "///" ++ t " <summary>" by decide, csDoc_line _ _ (by decide), h2,
        show t "/// </summary>" = t "///" ++ t " </summary>" by decide, csDoc_line _ _ (by decide)]
      simp

example : ∀ d ∈ [t " Frees `p`; see https://x */", t "\n"], ∀ c ∈ Text.trim d, isTerminator c = false := by decide

/-- C47, C# headers, in full, fails: a documentation text of several lines (`#[doc = "…"]` or a
`/** … */` comment) leaks its second line. -/
theorem C47_fails_csharp :
    code .code (flat (emitDocs .csharp 0 [t "Sum of\nint x"])) = t "\n\nint x\n\n" := by decide +kernel

/-- C47, cffi headers: no documentation is emitted. -/
theorem C47_python (depth : Nat) (docs : List Text) (rest : Text) :
    flat (emitDocs .python depth docs) ++ rest = rest := rfl

/-! ### C48 -/

/-- `segs` splits a line in its maximal runs of backticks and its other characters: the line is
recovered, no two runs are adjacent, runs are not empty and other characters are not backticks. -/
theorem C48_segments (line : Text) : unsegs (segs line) = line ∧ SegsOk (segs line) :=
  ⟨unsegs_segs line, segs_ok line⟩

/-- C48: each backtick that stands alone is turned into `<c>` or `</c>` in turn, starting with
`<c>`, and nothing else changes; provided that no run of backticks has length 4, 7, 10, …

The full property has no such proviso: it fails, see `C48_fails_run4`. -/
theorem C48_markup_partial (line : Text) (h : ∀ n, .run n ∈ segs line → n = 1 ∨ n % 3 ≠ 1) :
    csLine line = markup 0 (segs line) := by
  rw [csLine]
  split
  · rw [← csBackticks_segs _ _ (segs_ok line) h, unsegs_segs]
  next hc =>
    have : '`' ∉ line := by simpa using hc
    rw [markup_no_singles _ _ (not_run_of_not_mem this 1), unsegs_segs]

example : ∀ n, .run n ∈ segs (t "a `b` ``c`` ```d``` e") → n = 1 ∨ n % 3 ≠ 1 := by
  intro n hn
  have : n = 1 ∨ n = 2 ∨ n = 3 := by
    revert hn
    rw [show segs (t "a `b` ``c`` ```d``` e") = [.ch 'a', .ch ' ', .run 1, .ch 'b', .run 1, .ch ' ', .run 2, .ch 'c',
      .run 2, .ch ' ', .run 3, .ch 'd', .run 3, .ch ' ', .ch 'e'] by decide +kernel]
    simp
  omega

/-- C48: a line with an even number of lone backticks yields balanced markup, namely the tags
`<c>`, `</c>`, `<c>`, `</c>`, …; with the same proviso, for a line that has no `<` of its own. -/
theorem C48_balanced_partial (line : Text) (h : ∀ n, .run n ∈ segs line → n = 1 ∨ n % 3 ≠ 1) (hl : '<' ∉ line)
    (m : Nat) (hm : singles (segs line) = 2 * m) :
    tags (csLine line) = (List.replicate m [Tag.opening, .closing]).flatten := by
  rw [C48_markup_partial line h, tags_markup _ _ (fun hs => hl (mem_segs hs)), hm, alternate_even _ _ rfl]

example : singles (segs (t "see `a` and `b`, not ``c``")) = 2 * 2 ∧ '<' ∉ t "see `a` and `b`, not ``c``" := by
  decide +kernel

/-- C48, exactly: what becomes of every line. The intended markup, where a run of 4, 7, 10, … backticks counts as a
lone backtick after a run of 3, 6, 9, … of them. -/
theorem C48_exact (line : Text) : csLine line = markup 0 (asTreated (segs line)) := by
  rw [csLine]
  split
  · rw [← csBackticks_treated _ _ (segs_ok line), unsegs_segs]
  next hc =>
    have : '`' ∉ line := by simpa using hc
    rw [asTreated_none (not_run_of_not_mem this), markup_no_singles _ _ (not_run_of_not_mem this 1), unsegs_segs]

/-- C48: the tags always alternate, starting with `<c>`; there are as many as runs of 1, 4, 7, … backticks, so the
markup of a line is balanced exactly if their number is even. For a line that has no `<` of its own. -/
theorem C48_balanced_exact (line : Text) (hl : '<' ∉ line) :
    ∃ r, r = ((segs line).countP fun g => match g with | .run n => n % 3 = 1 | _ => false) ∧
      tags (csLine line) = (List.range r).map fun i => if i % 2 = 0 then Tag.opening else .closing := by
  refine ⟨_, rfl, ?_⟩
  rw [C48_exact, tags_markup _ _ (fun hs => hl (mem_segs (mem_asTreated hs))), singles_treated]
  generalize List.countP _ _ = r
  have : ∀ k, alternate k r = (List.range r).map fun i => if (k + i) % 2 = 0 then Tag.opening else .closing := by
    induction r with
    | zero => intro k; rfl
    | succ r ih =>
      intro k
      rw [List.range_succ_eq_map, List.map_cons, List.map_map]
      show _ :: alternate (k + 1) r = _
      rw [ih]
      congr 1
      apply List.map_congr_left
      intro i _
      simp only [Function.comp]
      rw [show k + 1 + i = k + (i + 1) by omega]
  simpa using this 0

example : csLine (t "a ````` b ```` c `") = t "a ````` b ```<c> c </c>" := by decide +kernel

/-- C48 in full fails: four backticks in a row, each of them next to another one, are rewritten. -/
theorem C48_fails_run4 : csLine (t "````") = t "```<c>" ∧ markup 0 (segs (t "````")) = t "````" := by decide +kernel

theorem markup_eq_nil (k : Nat) (gs : List Seg) (h : markup k gs = []) : unsegs gs = [] := by
  induction gs generalizing k with
  | nil => rfl
  | cons g gs ih =>
    cases g with
    | ch c => simp [markup] at h
    | run n =>
      by_cases e : n = 1
      · subst e; rw [markup] at h; split at h <;> simp at h
      · rw [markup_run _ _ e, List.append_eq_nil_iff] at h
        rw [unsegs, h.1, ih _ h.2]; rfl

theorem markup_last (k : Nat) (gs : List Seg) (c : Char) (h : (markup k gs).getLast? = some c) :
    c = '>' ∨ (unsegs gs).getLast? = some c := by
  induction gs generalizing k with
  | nil => simp [markup] at h
  | cons g gs ih =>
    cases g with
    | ch x =>
      rw [markup, List.getLast?_cons] at h
      rw [unsegs, List.getLast?_cons]
      cases hm : (markup k gs).getLast? with
      | none =>
        rw [hm] at h
        rw [markup_eq_nil _ _ (List.getLast?_eq_none_iff.1 hm)]
        exact .inr h
      | some y =>
        rw [hm] at h
        rcases ih k (by rw [hm]; exact h) with e | e
        · exact .inl e
        · right; rw [e]; rfl
    | run n =>
      by_cases e : n = 1
      · subst e
        rw [markup, List.getLast?_append] at h
        rw [unsegs, List.getLast?_append]
        cases hm : (markup (k + 1) gs).getLast? with
        | none => rw [hm] at h; left; split at h <;> simp at h <;> exact h.symm
        | some y =>
          rw [hm] at h
          rcases ih (k + 1) (by rw [hm]; exact h) with e | e
          · exact .inl e
          · right; rw [e]; rfl
      · rw [markup_run _ _ e, List.getLast?_append] at h
        rw [unsegs, List.getLast?_append]
        cases hm : (markup k gs).getLast? with
        | none =>
          rw [hm] at h
          rw [markup_eq_nil _ _ (List.getLast?_eq_none_iff.1 hm)]
          exact .inr h
        | some y =>
          rw [hm] at h
          rcases ih k (by rw [hm]; exact h) with e | e
          · exact .inl e
          · right; rw [e]; rfl

theorem trim_last (s : Text) (c : Char) (h : (trim s).getLast? = some c) : isWs c = false := by
  have hd : ∀ l : Text, ∀ c, (l.dropWhile isWs).head? = some c → isWs c = false := by
    intro l c hc
    induction l with
    | nil => cases hc
    | cons x xs ih =>
      rw [List.dropWhile_cons] at hc
      split at hc
      · exact ih hc
      next hx => simp at hc; rw [← hc]; simpa using hx
  rw [trim, trimEnd, List.getLast?_reverse] at h
  exact hd _ _ h

/-- C48, as emitted: the block of lines written for the documentation of a C# item. Each line is
trimmed, marked up, and put after `/// `. -/
theorem C48_emitted_partial (depth : Nat) (docs : List Text) (hne : docs ≠ [])
    (hn : ∀ d ∈ docs, '\n' ∉ Text.trim d)
    (hr : ∀ d ∈ docs, ∀ n, .run n ∈ segs (Text.trim d) → n = 1 ∨ n % 3 ≠ 1) :
    flat (emitDocs .csharp depth docs) =
      indent depth ++ t "/// <summary>\n" ++
      (docs.flatMap fun d =>
        indent depth ++ t "///" ++ (if Text.trim d = [] then [] else ' ' :: markup 0 (segs (Text.trim d))) ++ ['\n']) ++
      (indent depth ++ t "/// </summary>\n") := by
  have hte : ∀ l : Text, (∃ w, l = w ++ ['>']) → '\n' ∉ l → flat (outLines depth [l]) = indent depth ++ l ++ ['\n'] := by
    rintro l ⟨w, rfl⟩ hl
    rw [flat_outLine _ hl, ← List.append_assoc, trimEnd_nonws _ _ (by decide)]
    simp [trimEnd]
  rw [emitDocs, csDocs, if_neg (by simpa using hne), flat_append, flat_append, flat_flatMap,
    hte (t "/// <summary>") ⟨t "/// <summary", by decide⟩ (by decide),
    hte (t "/// </summary>") ⟨t "/// </summary", by decide⟩ (by decide)]
  have hmid : ∀ d ∈ docs, flat (outLines depth [t "///" ++ (if (csLine (trim d)).isEmpty = true then [] else t " ") ++ csLine (trim d)]) =
      indent depth ++ t "///" ++ (if Text.trim d = [] then [] else ' ' :: markup 0 (segs (Text.trim d))) ++ ['\n'] := by
    intro d hd
    rw [C48_markup_partial _ (hr d hd)]
    by_cases he : trim d = []
    · rw [he]
      simp only [segs, markup, List.isEmpty_nil, if_true, List.append_nil]
      rw [flat_outLine _ (by decide), show t "///" = t "//" ++ '/' :: [] by decide, ← List.append_assoc,
        trimEnd_nonws _ _ (by decide)]
      simp [trimEnd]
    · have hm : markup 0 (segs (trim d)) ≠ [] := fun h => he (by rw [← unsegs_segs (trim d)]; exact markup_eq_nil _ _ h)
      have hb : (markup 0 (segs (trim d))).isEmpty = false := by simpa using hm
      simp only [hb, Bool.false_eq_true, if_false, he]
      rw [flat_outLine]
      · rw [trimEnd_eq]
        · simp [t]
        · intro c hc
          rw [← List.append_assoc, List.getLast?_append] at hc
          cases hl : (markup 0 (segs (trim d))).getLast? with
          | none => exact absurd (List.getLast?_eq_none_iff.1 hl) hm
          | some y =>
            rw [hl] at hc
            simp at hc
            subst hc
            rcases markup_last _ _ _ hl with rfl | h
            · decide
            · rw [unsegs_segs] at h; exact trim_last _ _ h
      · rw [← C48_markup_partial _ (hr d hd)]
        simp only [List.mem_append, not_or]
        refine ⟨by decide, fun hc => ?_⟩
        rcases csLine_chars _ _ hc with hc | hc
        · exact hn d hd hc
        · revert hc; decide
  have : (docs.flatMap fun d => flat (outLines depth [t "///" ++ (if (csLine (trim d)).isEmpty = true then [] else t " ") ++ csLine (trim d)])) =
      docs.flatMap fun d => indent depth ++ t "///" ++ (if Text.trim d = [] then [] else ' ' :: markup 0 (segs (Text.trim d))) ++ ['\n'] := by
    rw [List.flatMap, List.flatMap, List.map_congr_left hmid]
  simp only [this]
  simp [t]

example : flat (emitDocs .csharp 1 [t " Frees `p`. ", t ""]) =
    t "    /// <summary>\n    /// Frees <c>p</c>.\n    ///\n    /// </summary>\n" := by decide +kernel

end Verif.Headers
