import Verif.Names.Model
/-!
# Properties of computed names: C46, C51, C52
-/
namespace Verif.Names
open Verif.Text

/-! ## C46: names of enum constants in C -/

/-- No underscore is followed by a lower-case letter: in particular the names in `UpperCamelCase`. -/
def NoUnderscoreLower (s : Text) : Prop := ∀ l c r, s = l ++ '_' :: c :: r → isAsciiLower c = false

theorem NoUnderscoreLower.tail {c : Char} {s : Text} (h : NoUnderscoreLower (c :: s)) : NoUnderscoreLower s :=
  fun l d r e => h (c :: l) d r (by rw [e]; rfl)

theorem toNat_upper {c : Char} (h : isAsciiLower c = true) : (toAsciiUpper c).toNat = c.toNat - 32 := by
  rw [toAsciiUpper, if_pos h]
  simp only [isAsciiLower, Bool.and_eq_true, decide_eq_true_eq, Char.le_def] at h
  have h1 : 97 ≤ c.toNat := by have := h.1; rw [UInt32.le_iff_toNat_le] at this; exact this
  have h2 : c.toNat ≤ 122 := by have := h.2; rw [UInt32.le_iff_toNat_le] at this; exact this
  have hv : (c.toNat - 32).isValidChar := by left; omega
  rw [Char.ofNat, dif_pos hv]
  rfl

theorem lower_iff (c : Char) : isAsciiLower c = true ↔ 97 ≤ c.toNat ∧ c.toNat ≤ 122 := by
  simp only [isAsciiLower, Bool.and_eq_true, decide_eq_true_eq, Char.le_def, UInt32.le_iff_toNat_le]
  exact Iff.rfl

theorem upper_iff (c : Char) : isAsciiUpper c = true ↔ 65 ≤ c.toNat ∧ c.toNat ≤ 90 := by
  simp only [isAsciiUpper, Bool.and_eq_true, decide_eq_true_eq, Char.le_def, UInt32.le_iff_toNat_le]
  exact Iff.rfl

theorem upper_of_not_lower {c : Char} (h : ¬ isAsciiLower c = true) : toAsciiUpper c = c := by
  rw [toAsciiUpper, if_neg h]

theorem char_ext {c d : Char} (h : c.toNat = d.toNat) : c = d := Char.toNat_inj.1 h

theorem underscore_toNat : ('_' : Char).toNat = 95 := rfl

/-- What a character's upper-case version can come from. -/
theorem upper_cases (c : Char) : (isAsciiLower c = true ∧ (toAsciiUpper c).toNat + 32 = c.toNat) ∨
    (isAsciiLower c = false ∧ toAsciiUpper c = c) := by
  cases h : isAsciiLower c with
  | true => left; rw [toNat_upper h]; have := (lower_iff c).1 h; exact ⟨rfl, by omega⟩
  | false => right; exact ⟨rfl, upper_of_not_lower (by simp [h])⟩

theorem scream_inj {v w : Text} (hv : NoUnderscoreLower v) (hw : NoUnderscoreLower w)
    (h : v.flatMap (screamChar false) = w.flatMap (screamChar false)) : v = w := by
  -- an upper-case letter cannot be confused with an underscore and a lower-case letter
  have key : ∀ (c : Char) (v' : Text) (d : Char) (w' : Text), isAsciiUpper c = true → isAsciiUpper d = false →
      NoUnderscoreLower (d :: w') →
      '_' :: toAsciiUpper c :: v' = toAsciiUpper d :: w'.flatMap (screamChar false) → False := by
    intro c v' d w' hc hd hn e
    simp only [List.cons.injEq] at e
    have hd' : d = '_' := by
      rcases upper_cases d with ⟨h1, h2⟩ | ⟨_, h2⟩
      · rw [← e.1, underscore_toNat] at h2
        have := (lower_iff d).1 h1
        omega
      · rw [← h2, e.1]
    subst hd'
    cases w' with
    | nil => simp at e
    | cons d2 w2 =>
      have hl := hn [] d2 w2 rfl
      have hu : toAsciiUpper d2 = d2 := upper_of_not_lower (by simp [hl])
      have hcu : toAsciiUpper c = c := by
        apply upper_of_not_lower
        rw [lower_iff]; have := (upper_iff c).1 hc; omega
      rw [hcu] at e
      rw [List.flatMap_cons, screamChar, hu] at e
      cases hd2 : isAsciiUpper d2 with
      | true =>
        rw [hd2] at e
        simp at e
        have := (upper_iff c).1 hc
        rw [e.2.1, underscore_toNat] at this
        omega
      | false =>
        rw [hd2] at e
        simp at e
        rw [e.2.1, hd2] at hc
        cases hc
  induction v generalizing w with
  | nil =>
    cases w with
    | nil => rfl
    | cons d w => simp [screamChar] at h
  | cons c v ih =>
    cases w with
    | nil => simp [screamChar] at h
    | cons d w =>
      rw [List.flatMap_cons, List.flatMap_cons] at h
      cases hc : isAsciiUpper c with
      | true =>
        cases hd : isAsciiUpper d with
        | true =>
          simp [screamChar, hc, hd] at h
          have h1 := (upper_iff c).1 hc
          have h2 := (upper_iff d).1 hd
          have h3 : toAsciiUpper c = c := upper_of_not_lower (by rw [lower_iff]; omega)
          have h4 : toAsciiUpper d = d := upper_of_not_lower (by rw [lower_iff]; omega)
          rw [h3, h4] at h
          rw [h.1, ih hv.tail hw.tail h.2]
        | false =>
          simp only [screamChar, hc, hd, Bool.not_false, Bool.true_and, if_true, List.cons_append, List.nil_append,
            Bool.false_eq_true, if_false] at h
          exact (key c _ d w hc hd hw h).elim
      | false =>
        cases hd : isAsciiUpper d with
        | true =>
          simp only [screamChar, hc, hd, Bool.not_false, Bool.true_and, if_true, List.cons_append, List.nil_append,
            Bool.false_eq_true, if_false] at h
          exact (key d _ c v hd hc hv h.symm).elim
        | false =>
          simp [screamChar, hc, hd] at h
          rw [ih hv.tail hw.tail h.2]
          congr 1
          apply char_ext
          rcases upper_cases c with ⟨h1, h2⟩ | ⟨h1, h2⟩ <;> rcases upper_cases d with ⟨h3, h4⟩ | ⟨h3, h4⟩
          · rw [h.1] at h2; omega
          · exfalso
            rw [h.1, h4] at h2
            have := (lower_iff c).1 h1
            have : isAsciiUpper d = true := (upper_iff d).2 (by omega)
            rw [hd] at this; cases this
          · exfalso
            rw [← h.1, h2] at h4
            have := (lower_iff d).1 h3
            have : isAsciiUpper c = true := (upper_iff c).2 (by omega)
            rw [hc] at this; cases this
          · rw [← h2, ← h4, h.1]

/-- C46 (same enum): the constants of two variants of an enum have distinct names, provided that in the
variants' names no underscore is followed by a lower-case letter.  Missing: other names, for which it is false
(`C46_fails_same_enum`). -/
theorem C46_same_enum_partial (enum v w : Text) (he : enum ≠ []) (hv : NoUnderscoreLower v) (hw : NoUnderscoreLower w)
    (h : screamingCase enum v = screamingCase enum w) : v = w := by
  cases enum with
  | nil => exact absurd rfl he
  | cons c cs =>
    simp only [screamingCase, List.cons_append, List.flatMap_append] at h
    have h := List.append_cancel_left (List.append_cancel_left h)
    exact scream_inj hv hw h

/-- C46 (any enums): the names of two constants are equal only if the concatenations of the enum's and the
variant's names are, under the same proviso and for enums' names that start with an upper-case letter.
Missing: nothing separates the two names, so that distinct enums can collide (`C46_fails_two_enums`). -/
theorem C46_two_enums_partial (c : Char) (enum v : Text) (d : Char) (enum' w : Text)
    (hc : isAsciiUpper c = true) (hd : isAsciiUpper d = true)
    (hv : NoUnderscoreLower (c :: enum ++ v)) (hw : NoUnderscoreLower (d :: enum' ++ w))
    (h : screamingCase (c :: enum) v = screamingCase (d :: enum') w) : c :: enum ++ v = d :: enum' ++ w := by
  have h1 := (upper_iff c).1 hc
  have h2 := (upper_iff d).1 hd
  have h3 : toAsciiUpper c = c := upper_of_not_lower (by rw [lower_iff]; omega)
  have h4 : toAsciiUpper d = d := upper_of_not_lower (by rw [lower_iff]; omega)
  simp only [screamingCase, List.cons_append, screamChar, Bool.not_true, Bool.false_and, Bool.false_eq_true, if_false,
    List.nil_append, h3, h4, List.cons.injEq] at h
  have h5 : enum ++ v = enum' ++ w := scream_inj hv.tail hw.tail h.2
  rw [List.cons_append, List.cons_append, h.1, h5]

/-- C46 is false: `enum E { A_b, AB }`. -/
theorem C46_fails_same_enum : screamingCase "E".toList "A_b".toList = screamingCase "E".toList "AB".toList ∧
    "A_b".toList ≠ "AB".toList := by decide

/-- C46 is false: `enum A { BC }` and `enum AB { C }`. -/
theorem C46_fails_two_enums : screamingCase "A".toList "BC".toList = screamingCase "AB".toList "C".toList ∧
    "A".toList ≠ "AB".toList := by decide

example : screamingCase "MyEnum".toList "FooBar".toList = "MY_ENUM_FOO_BAR".toList := by decide
theorem noUnderscore {s : Text} (h : '_' ∉ s) : NoUnderscoreLower s := by
  intro l c r e
  subst e
  simp at h
example : NoUnderscoreLower "FooBar2".toList ∧ "MyEnum".toList ≠ [] := ⟨noUnderscore (by decide), by decide⟩

/-! ## C51: the C# namespace -/

/-- A word with its first letter in upper case. -/
def capitalise : Text → Text
  | [] => []
  | c :: cs => toAsciiUpper c :: cs

/-- The words separated by underscores, capitalised and put together. -/
def pascalCase (s : Text) : Text := (split '_' s).flatMap capitalise

/-- Neither at the beginning nor twice in a row. -/
def SimpleUnderscores (s : Text) : Prop := (∀ r, s ≠ '_' :: r) ∧ (∀ l r, s ≠ l ++ '_' :: '_' :: r)

theorem pascalLoop_false (s : Text) (h : ∀ l r, s ≠ l ++ '_' :: '_' :: r) :
    ∃ w ws, split '_' s = w :: ws ∧ pascalLoop false s = w ++ ws.flatMap capitalise := by
  induction hn : s.length using Nat.strongRecOn generalizing s with
  | _ n ih =>
    cases s with
    | nil => exact ⟨[], [], rfl, rfl⟩
    | cons c cs =>
      simp only [List.length_cons] at hn
      have htl : ∀ l r, cs ≠ l ++ '_' :: '_' :: r := fun l r e => h (c :: l) r (by rw [e]; rfl)
      by_cases hc : c = '_'
      · subst hc
        cases cs with
        | nil => exact ⟨[], [[]], by simp [split], by simp [pascalLoop, capitalise]⟩
        | cons d ds =>
          simp only [List.length_cons] at hn
          have hd : d ≠ '_' := fun e => h [] ds (by rw [e]; rfl)
          obtain ⟨w, ws, h1, h2⟩ := ih ds.length (by omega) ds (fun l r e => htl (d :: l) r (by rw [e]; rfl)) rfl
          refine ⟨[], (d :: w) :: ws, by simp [split, hd, h1], ?_⟩
          simp [pascalLoop, h2, capitalise]
      · obtain ⟨w, ws, h1, h2⟩ := ih cs.length (by omega) cs htl rfl
        exact ⟨c :: w, ws, by simp [split, hc, h1], by simp [pascalLoop, hc, h2]⟩

/-- C51: the namespace is the lib's name in PascalCase, provided that the name has no underscore at the
beginning or next to another one.  Missing: the other names, for which underscores are kept
(`C51_fails_leading`, `C51_fails_double`). -/
theorem C51_pascal_partial (lib : Text) (h : SimpleUnderscores lib) : pascalCasedLibName lib = pascalCase lib := by
  cases lib with
  | nil => rfl
  | cons c cs =>
    have hc : c ≠ '_' := fun e => h.1 cs (by rw [e])
    obtain ⟨w, ws, h1, h2⟩ := pascalLoop_false cs (fun l r e => h.2 (c :: l) r (by rw [e]; rfl))
    simp [pascalCasedLibName, pascalLoop, pascalCase, split, hc, h1, h2, capitalise]

theorem upper_upper (c : Char) : toAsciiUpper (toAsciiUpper c) = toAsciiUpper c := by
  cases h : isAsciiLower (toAsciiUpper c) with
  | false => rw [toAsciiUpper.eq_def (toAsciiUpper c), if_neg (by rw [h]; simp)]
  | true =>
    cases h2 : isAsciiLower c with
    | false => rw [toAsciiUpper.eq_def c, if_neg (by rw [h2]; simp)] at h; rw [h] at h2; cases h2
    | true =>
      rw [lower_iff, toNat_upper h2] at h
      rw [lower_iff] at h2; omega

theorem upper_underscore (c : Char) : toAsciiUpper c = '_' ↔ c = '_' := by
  constructor
  · intro h
    cases h2 : isAsciiLower c with
    | false => rwa [toAsciiUpper.eq_def c, if_neg (by rw [h2]; simp)] at h
    | true =>
      have h3 := toNat_upper h2
      rw [h] at h3
      rw [lower_iff] at h2
      have : ('_' : Char).toNat = 95 := rfl
      omega
  · rintro rfl; decide

/-- C51, for every name: but for underscores and upper case, the namespace is the lib's name. No letter is lost. -/
theorem C51_letters (lib : Text) :
    ((pascalCasedLibName lib).filter (· ≠ '_')).map toAsciiUpper = (lib.filter (· ≠ '_')).map toAsciiUpper := by
  unfold pascalCasedLibName
  generalize true = b
  induction lib generalizing b with
  | nil => rfl
  | cons c cs ih =>
    by_cases hc : c = '_'
    · subst hc
      have h1 : toAsciiUpper '_' = '_' := by decide
      cases b <;> simp [pascalLoop, h1] <;> simpa using ih _
    · have h2 : toAsciiUpper c ≠ '_' := fun h => hc ((upper_underscore c).mp h)
      cases b <;> simp [pascalLoop, hc, h2, upper_upper] <;> simpa using ih _

theorem split_no_sep (c : Char) (s : Text) : ∀ w ∈ split c s, c ∉ w := by
  induction s with
  | nil => simp [split]
  | cons x xs ih =>
    intro w hw
    rw [split] at hw
    split at hw
    · simp only [List.mem_cons] at hw
      rcases hw with rfl | hw
      · simp
      · exact ih w hw
    · rename_i hx
      split at hw
      · rename_i p ps hp
        simp only [List.mem_cons] at hw
        rcases hw with rfl | hw
        · intro hm
          simp only [List.mem_cons] at hm
          rcases hm with rfl | hm
          · exact hx rfl
          · exact ih p (by rw [hp]; simp) hm
        · exact ih w (by rw [hp]; simp [hw])
      · simp only [List.mem_singleton] at hw
        subst hw
        simp only [List.mem_singleton]
        exact fun e => hx e.symm

/-- C51: and then it has no underscore. -/
theorem C51_no_underscore (lib : Text) (h : SimpleUnderscores lib) : '_' ∉ pascalCasedLibName lib := by
  rw [C51_pascal_partial lib h, pascalCase, List.mem_flatMap]
  rintro ⟨w, hw, hm⟩
  have h1 := split_no_sep _ _ w hw
  cases w with
  | nil => simp [capitalise] at hm
  | cons c cs =>
    simp only [capitalise, List.mem_cons] at hm
    simp only [List.mem_cons, not_or] at h1
    rcases hm with hm | hm
    · rcases upper_cases c with ⟨h2, h3⟩ | ⟨_, h3⟩
      · rw [← hm, underscore_toNat] at h3
        have := (lower_iff c).1 h2
        omega
      · exact h1.1 (hm.trans h3)
    · exact h1.2 hm

/-- C51: hyphens of the package's name are turned into underscores first. -/
theorem C51_hyphens (pkg lib : Text) (h : libName none (some pkg) = some lib) :
    '-' ∉ lib ∧ lib.length = pkg.length ∧ ∀ (i : Nat) c, pkg[i]? = some c → lib[i]? = some (if c = '-' then '_' else c) := by
  simp only [libName, Option.map_some, Option.some.injEq] at h
  subst h
  refine ⟨?_, by simp, fun i c hc => by simp [hc]⟩
  rw [List.mem_map]
  rintro ⟨c, _, hc⟩
  split at hc
  · exact absurd hc (by decide)
  · rename_i h; exact h hc

/-- C51 is false of `_my_lib`: an underscore at the beginning is kept. -/
theorem C51_fails_leading : pascalCasedLibName "_my_lib".toList = "_myLib".toList := by decide

/-- C51 is false of `my__lib` (the package `my--lib`): one of the underscores is kept. -/
theorem C51_fails_double : pascalCasedLibName "my__lib".toList = "My_lib".toList := by decide

example : pascalCasedLibName "my_ffi_lib2_".toList = "MyFfiLib2".toList := by decide
theorem simple_of {s : Text} (h1 : s.head? ≠ some '_') (h2 : ∀ i : Fin s.length, ¬ (s[i]? = some '_' ∧ s[i.val + 1]? = some '_')) :
    SimpleUnderscores s := by
  refine ⟨fun r e => h1 (by rw [e]; rfl), fun l r e => ?_⟩
  have hl : l.length < s.length := by rw [e]; simp
  exact h2 ⟨l.length, hl⟩ (by subst e; simp)
example : SimpleUnderscores "my_ffi_lib2_".toList := simple_of (by decide) (by decide)

/-! ## C52: names of opaque types -/

/-- Letters, digits and underscores. -/
def Ident (uni : Char → Bool) (s : Text) : Prop := ∀ c ∈ s, validForIdent uni c = true

theorem Ident.append {uni : Char → Bool} {s t : Text} (hs : Ident uni s) (ht : Ident uni t) : Ident uni (s ++ t) := by
  intro c hc
  rw [List.mem_append] at hc
  exact hc.elim (hs c) (ht c)

theorem foldlM_frag {uni : Char → Bool} {f : Text → Text → Option Text}
    (hf : ∀ out s r, f out s = some r → ∃ frag, r = out ++ frag ∧ Ident uni frag) (l : List Text) (out r : Text)
    (h : l.foldlM f out = some r) : ∃ frag, r = out ++ frag ∧ Ident uni frag := by
  induction l generalizing out with
  | nil =>
    simp only [List.foldlM_nil, Option.pure_def, Option.some.injEq] at h
    exact ⟨[], by simp [h], by simp [Ident]⟩
  | cons s l ih =>
    simp only [List.foldlM_cons, Option.bind_eq_bind, Option.bind_eq_some_iff] at h
    obtain ⟨o, h1, h2⟩ := h
    obtain ⟨f1, rfl, hi1⟩ := hf _ _ _ h1
    obtain ⟨f2, rfl, hi2⟩ := ih _ h2
    exact ⟨f1 ++ f2, by simp, hi1.append hi2⟩

theorem mem_trim {c : Char} {s : Text} (h : c ∈ trim s) : c ∈ s := by
  simp only [trim, trimEnd, trimStart, List.mem_reverse] at h
  have h := (List.dropWhile_sublist _).subset h
  rw [List.mem_reverse] at h
  exact (List.dropWhile_sublist _).subset h

theorem mem_splitOnce {c : Char} {s l r : Text} (h : splitOnce c s = some (l, r)) : s = l ++ c :: r ∧ c ∉ l := by
  induction s generalizing l with
  | nil => simp [splitOnce] at h
  | cons x xs ih =>
    rw [splitOnce] at h
    split at h
    · rename_i hx
      simp only [Option.some.injEq, Prod.mk.injEq] at h
      obtain ⟨rfl, rfl⟩ := h
      simp [hx]
    · rename_i hx
      simp only [Option.map_eq_some_iff, Prod.mk.injEq] at h
      obtain ⟨⟨l', r'⟩, h1, rfl, rfl⟩ := h
      obtain ⟨h2, h3⟩ := ih h1
      exact ⟨by rw [h2]; rfl, by simp [h3]; exact fun e => hx e.symm⟩

theorem mem_rsplitOnce {c : Char} {s l r : Text} (h : rsplitOnce c s = some (l, r)) : s = l ++ c :: r ∧ c ∉ r := by
  simp only [rsplitOnce, Option.map_eq_some_iff, Prod.mk.injEq] at h
  obtain ⟨⟨a, b⟩, h1, h2, h3⟩ := h
  obtain ⟨h4, h5⟩ := mem_splitOnce h1
  subst h2; subst h3
  refine ⟨?_, by simpa using h5⟩
  rw [← List.reverse_reverse s, h4]
  simp

theorem ident_underscore (uni : Char → Bool) : Ident uni ['_'] := by simp [Ident, validForIdent]

theorem ident_dyn (uni : Char → Bool) (path : Text) : Ident uni (splitDyn path).1 := by
  unfold splitDyn
  split
  · intro c hc
    have : ("dyn_".toList.all fun c => c.isAlphanum || c == '_') = true := by decide
    rw [List.all_eq_true] at this
    have := this c hc
    simp only [validForIdent, isAlnum, Bool.or_eq_true] at this ⊢
    rcases this with h | h
    · exact .inl (.inl h)
    · exact .inr h
  · simp [Ident]

theorem splitOnce_of_mem {c : Char} {s : Text} (h : c ∈ s) : splitOnce c s ≠ none := by
  induction s with
  | nil => simp at h
  | cons x xs ih =>
    rw [splitOnce]
    split
    · simp
    · rename_i hne
      simp only [List.mem_cons] at h
      have := ih (h.resolve_left (fun e => hne e.symm))
      simpa using this

theorem ident_head (uni : Char → Bool) (path : Text) : Ident uni (headName uni path) := by
  unfold headName
  split
  · rename_i hall
    intro c hc
    have hc := mem_trim hc
    rw [List.all_eq_true] at hall
    split at hc
    · rename_i l r' hr
      obtain ⟨h1, h2⟩ := mem_rsplitOnce hr
      have := hall c (by rw [h1]; simp [hc])
      rw [Bool.or_eq_true, beq_iff_eq] at this
      exact this.resolve_right (fun e => h2 (e ▸ hc))
    · rename_i hr
      have := hall c hc
      rw [Bool.or_eq_true, beq_iff_eq] at this
      refine this.resolve_right (fun e => ?_)
      subst e
      simp only [rsplitOnce, Option.map_eq_none_iff] at hr
      exact splitOnce_of_mem (by simpa using hc) hr
  · intro c hc
    rw [List.mem_map] at hc
    obtain ⟨d, _, rfl⟩ := hc
    split
    · assumption
    · simp [validForIdent]

/-- C52 (fragment): for every string whatsoever, if the computation succeeds then it appends an identifier
fragment to the given name. -/
theorem C52_fragment (uni : Char → Bool) (out s r : Text) (h : appendUnqualifiedName uni out s = some r) :
    ∃ frag, r = out ++ frag ∧ Ident uni frag := by
  have key : ∀ fuel out s r, append uni fuel out s = some r → ∃ frag, r = out ++ frag ∧ Ident uni frag := by
    intro fuel
    induction fuel with
    | zero => intro out s r h; simp [append] at h
    | succ fuel ih =>
      intro out s r h
      rw [append] at h
      split at h
      · rw [Option.bind_eq_some_iff] at h
        obtain ⟨inn, _, h⟩ := h
        exact foldlM_frag (fun o s r => ih o s r) _ _ _ h
      · split at h
        · rw [Option.bind_eq_some_iff] at h
          obtain ⟨inn, _, h⟩ := h
          rw [Option.bind_eq_some_iff] at h
          obtain ⟨o1, h1, h2⟩ := h
          obtain ⟨f1, rfl, hi1⟩ := ih _ _ _ h1
          split at h2
          · obtain ⟨f2, rfl, hi2⟩ := ih _ _ _ h2
            exact ⟨f1 ++ f2, by simp, hi1.append hi2⟩
          · cases h2; exact ⟨f1, rfl, hi1⟩
        · -- a path
          dsimp only at h
          have hi := (ident_dyn uni (mbSplitWith (trim s) (splitOnce '<' (trim s))).1).append
            (ident_head uni (splitDyn (mbSplitWith (trim s) (splitOnce '<' (trim s))).1).2)
          split at h
          · rw [Option.bind_eq_some_iff] at h
            obtain ⟨gen, _, h⟩ := h
            obtain ⟨f3, rfl, hi3⟩ := foldlM_frag (fun o s r => ih o s r) _ _ _ h
            exact ⟨['_'] ++ _ ++ f3, by simp [List.append_assoc], ((ident_underscore uni).append hi).append hi3⟩
          · cases h
            exact ⟨['_'] ++ _, by simp [List.append_assoc], (ident_underscore uni).append hi⟩
  exact key _ _ _ _ h

/-- Type names as Rust prints them. -/
inductive TyName
  /-- A path, or anything else without `<` that does not start with a parenthesis or bracket (a reference, a
  `dyn` type, a function pointer, ...), with generic arguments or not. -/
  | node (head : Text) (args : List TyName)
  | tuple (ts : List TyName)
  | array (t : TyName) (len : Nat)
  | slice (t : TyName)

def joinComma : List Text → Text
  | [] => []
  | [s] => s
  | s :: s' :: ss => s ++ ',' :: ' ' :: joinComma (s' :: ss)

mutual
/-- How Rust prints them. -/
def TyName.print : TyName → Text
  | .node h [] => h
  | .node h (a :: as) => h ++ '<' :: (joinComma (a.print :: prints as) ++ ['>'])
  | .tuple [] => "()".toList
  | .tuple [t] => '(' :: (t.print ++ ",".toList ++ [')'])
  | .tuple (t :: t' :: ts) => '(' :: (joinComma (t.print :: t'.print :: prints ts) ++ [')'])
  | .array t n => '[' :: (t.print ++ ';' :: ' ' :: (toString n).toList ++ [']'])
  | .slice t => '[' :: (t.print ++ [']'])
def prints : List TyName → List Text
  | [] => []
  | t :: ts => t.print :: prints ts
end

example : (TyName.node "alloc::vec::Vec".toList [.array (.node "u8".toList []) 3]).print = "alloc::vec::Vec<[u8; 3]>".toList := by decide

/-- A path, reference, `dyn` type, ... as described above. -/
def okHead (h : Text) : Prop := h ≠ [] ∧ '<' ∉ h ∧ Trimmed h ∧ h.head? ≠ some '(' ∧ h.head? ≠ some '['

mutual
/-- No comma is nested in an argument of a generic type or a component of a tuple, and slices have no `;`
in their element type. -/
def TyName.ok : TyName → Prop
  | .node h args => okHead h ∧ okArgs args
  | .tuple ts => okArgs ts
  | .array t _ => t.ok
  | .slice t => t.ok ∧ ';' ∉ t.print
def okArgs : List TyName → Prop
  | [] => True
  | t :: ts => (t.ok ∧ ',' ∉ t.print) ∧ okArgs ts
end

mutual
/-- The name: the last segments of all paths, in the order of the text, each after an underscore. -/
def TyName.fragment (uni : Char → Bool) : TyName → Text
  | .node h args => '_' :: ((splitDyn h).1 ++ headName uni (splitDyn h).2 ++ fragments uni args)
  | .tuple [] => ['_']
  | .tuple [t] => t.fragment uni ++ ['_']
  | .tuple (t :: t' :: ts) => t.fragment uni ++ (t'.fragment uni ++ fragments uni ts)
  | .array t n => t.fragment uni ++ '_' :: (toString n).toList
  | .slice t => t.fragment uni
def fragments (uni : Char → Bool) : List TyName → Text
  | [] => []
  | t :: ts => t.fragment uni ++ fragments uni ts
end

mutual
def TyName.depth : TyName → Nat
  | .node _ args => 1 + depths args
  | .tuple ts => 2 + depths ts
  | .array t _ => 2 + t.depth
  | .slice t => 1 + t.depth
def depths : List TyName → Nat
  | [] => 0
  | t :: ts => t.depth + depths ts
end

theorem append_space (uni : Char → Bool) (fuel : Nat) (out s : Text) : append uni fuel out (' ' :: s) = append uni fuel out s := by
  cases fuel with
  | zero => rfl
  | succ n => rw [append, append, trim_space]

theorem foldlM_join {uni : Char → Bool} {fuel : Nat} (ts : List (Text × Text)) (out : Text) (hne : ts ≠ [])
    (h : ∀ p ∈ ts, ',' ∉ p.1 ∧ ∀ out, append uni fuel out p.1 = some (out ++ p.2)) :
    (split ',' (joinComma (ts.map (·.1)))).foldlM (fun out generic => append uni fuel out generic) out =
      some (out ++ (ts.map (·.2)).flatten) := by
  induction ts generalizing out with
  | nil => exact absurd rfl hne
  | cons p ts ih =>
    cases ts with
    | nil =>
      have := h p (by simp)
      simp only [List.map_cons, List.map_nil, joinComma, split_of_not_mem this.1, List.foldlM_cons, this.2,
        List.foldlM_nil, List.flatten_cons, List.flatten_nil, List.append_nil]
      rfl
    | cons q ts =>
      have hp := h p (by simp)
      have ih := ih (out ++ p.2) (by simp) (fun r hr => h r (List.mem_cons_of_mem _ hr))
      simp only [List.map_cons, joinComma] at ih ⊢
      rw [split_append hp.1]
      -- the space in front of the next piece
      have hs : ∀ s : Text, split ',' (' ' :: s) = match split ',' s with
          | w :: ws => (' ' :: w) :: ws
          | [] => [[' ']] := by
        intro s; rw [split, if_neg (by decide)]; try (cases split ',' s <;> rfl)
      rw [hs]
      cases hq : split ',' (joinComma (q.1 :: ts.map (·.1))) with
      | nil => exact absurd hq (split_ne_nil _ _)
      | cons w ws =>
        rw [hq] at ih
        simp only [List.foldlM_cons, hp.2, Option.bind_eq_bind, Option.bind_some, append_space] at ih ⊢
        rw [ih]
        simp

theorem digits_of_toString (n : Nat) : ∀ c ∈ (toString n).toList, c.isDigit = true := by
  intro c hc
  have hc : c ∈ Nat.toDigits 10 n := by rw [← Nat.toList_repr]; exact hc
  exact Nat.isDigit_of_mem_toDigits (by decide) (by decide) hc

theorem append_digits (uni : Char → Bool) (fuel n : Nat) (out : Text) :
    append uni (fuel + 1) out (toString n).toList = some (out ++ '_' :: (toString n).toList) := by
  have hd := digits_of_toString n
  generalize (toString n).toList = s at hd
  have hnot : ∀ c, c.isDigit = false → c ∉ s := fun c hc hm => by rw [hd c hm] at hc; cases hc
  have hws : ∀ c ∈ s, isWs c = false := by
    intro c hc
    have := hd c hc
    simp only [Char.isDigit, Bool.and_eq_true, decide_eq_true_eq, ge_iff_le, UInt32.le_iff_toNat_le] at this
    have h1 : 48 ≤ c.toNat := this.1
    have h2 : c.toNat ≤ 57 := this.2
    simp only [isWs]
    simp
    omega
  have htrim : Trimmed s := ⟨fun c hc => hws c (List.mem_of_head? hc), fun c hc => hws c (List.mem_of_getLast? hc)⟩
  have hpre : ∀ c : Char, c.isDigit = false → stripPrefix c s = none := by
    intro c hc
    cases s with
    | nil => rfl
    | cons x xs =>
      have : x ≠ c := fun e => hnot c hc (by simp [e])
      simp [stripPrefix, this]
  have hdyn : splitDyn s = ([], s) := by
    have : stripPrefixStr "dyn ".toList s = none := by
      cases s with
      | nil => rfl
      | cons x xs =>
        have : x ≠ 'd' := fun e => hnot 'd' (by decide) (by simp [e])
        show stripPrefixStr ('d' :: _) (x :: xs) = none
        rw [stripPrefixStr, if_neg this]
    rw [splitDyn, this]
  have hhead : headName uni s = s := by
    rw [headName, if_pos]
    · rw [lastSegment, rsplitOnce_none (hnot ':' (by decide))]
      exact trim_eq htrim
    · rw [List.all_eq_true]
      intro c hc
      have : c.isAlphanum = true := by simp [Char.isAlphanum, hd c hc]
      simp [validForIdent, isAlnum, this]
  rw [append]
  simp only [trim_eq htrim, hpre '(' (by decide), hpre '[' (by decide), splitOnce_none (hnot '<' (by decide)), mbSplitWith,
    hdyn, hhead]
  simp

theorem stripPrefix_ne {c : Char} {s : Text} (h : s.head? ≠ some c) : stripPrefix c s = none := by
  cases s with
  | nil => rfl
  | cons x xs =>
    have : x ≠ c := fun e => h (by simp [e])
    simp [stripPrefix, this]

theorem trimmed_bracket (a b : Char) (s : Text) (ha : isWs a = false) (hb : isWs b = false) : Trimmed (a :: (s ++ [b])) := by
  refine ⟨fun c hc => ?_, fun c hc => ?_⟩
  · simp at hc; exact hc ▸ ha
  · have : (a :: (s ++ [b])) = (a :: s) ++ [b] := rfl
    rw [this, List.getLast?_append] at hc
    simp at hc; exact hc ▸ hb

mutual
theorem append_print (uni : Char → Bool) (t : TyName) (h : t.ok) (fuel : Nat) (hf : t.depth ≤ fuel) (out : Text) :
    append uni fuel out t.print = some (out ++ t.fragment uni) := by
  cases fuel with
  | zero => exfalso; cases t <;> simp [TyName.depth] at hf
  | succ fuel =>
    match t, h, hf with
    | .node hd [], h, hf =>
      simp only [TyName.ok] at h
      rw [TyName.print, append]
      simp [trim_eq h.1.2.2.1, stripPrefix_ne h.1.2.2.2.1, stripPrefix_ne h.1.2.2.2.2, splitOnce_none h.1.2.1, mbSplitWith,
        TyName.fragment, fragments]
    | .node hd (a :: as), h, hf =>
      simp only [TyName.ok] at h
      have hfuel : depths (a :: as) ≤ fuel := by simp only [TyName.depth] at hf; omega
      have hargs := append_prints uni (a :: as) h.2 fuel hfuel
      have htr : Trimmed (TyName.node hd (a :: as)).print := by
        refine ⟨fun c hc => ?_, fun c hc => ?_⟩
        · obtain ⟨h1, _, h3, _⟩ := h.1
          cases hd with
          | nil => exact absurd rfl h1
          | cons x xs => simp [TyName.print] at hc; exact h3.1 c (by simp [hc])
        · rw [TyName.print, ← List.cons_append, ← List.append_assoc, List.getLast?_append] at hc
          simp at hc; subst hc; decide
      have hhead : (TyName.node hd (a :: as)).print.head? = hd.head? := by
        obtain ⟨h1, _⟩ := h.1
        cases hd with
        | nil => exact absurd rfl h1
        | cons x xs => simp [TyName.print]
      rw [append]
      simp only [trim_eq htr, stripPrefix_ne (hhead ▸ h.1.2.2.2.1 : (TyName.node hd (a :: as)).print.head? ≠ some '('),
        stripPrefix_ne (hhead ▸ h.1.2.2.2.2 : (TyName.node hd (a :: as)).print.head? ≠ some '[')]
      simp only [TyName.print, splitOnce_append h.1.2.1, mbSplitWith, stripSuffix_append, Option.bind_some]
      have := hargs (out ++ ['_'] ++ (splitDyn hd).1 ++ headName uni (splitDyn hd).2) (by simp)
      simp only [prints] at this
      rw [this]
      simp [TyName.fragment]
    | .tuple [], h, hf =>
      cases fuel with
      | zero => simp [TyName.depth, depths] at hf
      | succ fuel =>
        rw [TyName.print]
        have h1 : append uni (fuel + 1) out [] = some (out ++ ['_']) := by
          rw [append]
          simp [trim, trimStart, trimEnd, stripPrefix, splitOnce, mbSplitWith, splitDyn, stripPrefixStr, headName, lastSegment,
            rsplitOnce]
        rw [append]
        have h2 : trim "()".toList = ['(', ')'] := by decide
        simp only [h2, stripPrefix, if_true, stripSuffix, List.reverse_cons, List.reverse_nil, List.nil_append, Option.map_some,
          Option.bind_some, split, List.foldlM_cons, h1, List.foldlM_nil, TyName.fragment]
        rfl
    | .tuple [t], h, hf =>
      simp only [TyName.ok, okArgs] at h
      simp only [TyName.depth, depths] at hf
      have h1 := append_print uni t h.1.1 fuel (by omega) out
      cases fuel with
      | zero => omega
      | succ fuel =>
        have h0 : ∀ out, append uni (fuel + 1) out [] = some (out ++ ['_']) := by
          intro out
          rw [append]
          simp [trim, trimStart, trimEnd, stripPrefix, splitOnce, mbSplitWith, splitDyn, stripPrefixStr, headName, lastSegment,
            rsplitOnce]
        rw [append]
        have htr : Trimmed (TyName.tuple [t]).print := trimmed_bracket '(' ')' _ (by decide) (by decide)
        rw [trim_eq htr]
        have hc : t.print ++ ",".toList = t.print ++ ',' :: [] := rfl
        simp only [TyName.print, stripPrefix, if_true, stripSuffix_append, Option.bind_some, hc, split_append h.1.2, split,
          List.foldlM_cons, h1, h0, List.foldlM_nil, Option.bind_eq_bind, TyName.fragment]
        simp
    | .tuple (t :: t' :: ts), h, hf =>
      simp only [TyName.ok] at h
      have hfuel : depths (t :: t' :: ts) ≤ fuel := by simp only [TyName.depth] at hf; omega
      have hargs := append_prints uni (t :: t' :: ts) h fuel hfuel out (by simp)
      have htr : Trimmed (TyName.tuple (t :: t' :: ts)).print := trimmed_bracket '(' ')' _ (by decide) (by decide)
      rw [append, trim_eq htr]
      simp only [TyName.print, stripPrefix, if_true, stripSuffix_append, Option.bind_some]
      simp only [prints, fragments] at hargs
      rw [hargs]
      simp [TyName.fragment]
    | .array t n, h, hf =>
      simp only [TyName.ok] at h
      simp only [TyName.depth] at hf
      have h1 := append_print uni t h fuel (by omega) out
      have htr : Trimmed (TyName.array t n).print := by
        rw [TyName.print]; exact trimmed_bracket '[' ']' _ (by decide) (by decide)
      rw [append, trim_eq htr]
      have hsemi : ';' ∉ ' ' :: (toString n).toList := by
        intro hm
        simp only [List.mem_cons] at hm
        rcases hm with hm | hm
        · exact absurd hm (by decide)
        · exact absurd (digits_of_toString n _ hm) (by decide)
      cases fuel with
      | zero => omega
      | succ fuel =>
        simp only [TyName.print, stripPrefix, if_true, stripSuffix_append, Option.bind_some, rsplitOnce_append hsemi, mbSplitWith, h1,
          append_space, append_digits, TyName.fragment]
        simp
    | .slice t, h, hf =>
      simp only [TyName.ok] at h
      simp only [TyName.depth] at hf
      have h1 := append_print uni t h.1 fuel (by omega) out
      have htr : Trimmed (TyName.slice t).print := by
        rw [TyName.print]; exact trimmed_bracket '[' ']' _ (by decide) (by decide)
      rw [append, trim_eq htr]
      simp only [TyName.print, stripPrefix, if_true,
        stripSuffix_append, Option.bind_some, rsplitOnce_none h.2, mbSplitWith, h1, TyName.fragment]
      simp
theorem append_prints (uni : Char → Bool) (ts : List TyName) (h : okArgs ts) (fuel : Nat) (hf : depths ts ≤ fuel) (out : Text)
    (hne : ts ≠ []) :
    (split ',' (joinComma (prints ts))).foldlM (fun out generic => append uni fuel out generic) out =
      some (out ++ fragments uni ts) := by
  have hall := append_each uni ts h fuel hf
  have h1 : ∀ ts : List TyName, (ts.map fun t => (t.print, t.fragment uni)).map (·.1) = prints ts := by
    intro ts; induction ts with
    | nil => rfl
    | cons t ts ih => simp only [List.map_cons, prints, ih]
  have h2 : ∀ ts : List TyName, ((ts.map fun t => (t.print, t.fragment uni)).map (·.2)).flatten = fragments uni ts := by
    intro ts; induction ts with
    | nil => rfl
    | cons t ts ih => simp only [List.map_cons, List.flatten_cons, fragments, ih]
  rw [← h1, ← h2]
  exact foldlM_join _ _ (by simpa using hne) hall
theorem append_each (uni : Char → Bool) (ts : List TyName) (h : okArgs ts) (fuel : Nat) (hf : depths ts ≤ fuel) :
    ∀ p ∈ ts.map (fun t => (t.print, t.fragment uni)), ',' ∉ p.1 ∧ ∀ out, append uni fuel out p.1 = some (out ++ p.2) := by
  match ts, h, hf with
  | [], _, _ => simp
  | t :: ts, h, hf =>
    simp only [okArgs] at h
    simp only [depths] at hf
    intro p hp
    simp only [List.map_cons, List.mem_cons] at hp
    rcases hp with rfl | hp
    · exact ⟨h.1.2, fun out => append_print uni t h.1.1 fuel (by omega) out⟩
    · exact append_each uni ts h.2 fuel (by omega) p hp
end

theorem length_joinComma (ss : List Text) : (ss.map List.length).sum ≤ (joinComma ss).length := by
  induction ss with
  | nil => simp
  | cons s ss ih =>
    cases ss with
    | nil => simp [joinComma]
    | cons s' ss => simp only [joinComma, List.map_cons, List.sum_cons, List.length_append, List.length_cons] at ih ⊢; omega

mutual
theorem depth_le (t : TyName) (h : t.ok) : t.depth ≤ t.print.length := by
  match t, h with
  | .node hd [], h =>
    simp only [TyName.ok] at h
    have := List.length_pos_iff.2 h.1.1
    simp only [TyName.depth, depths, TyName.print]; omega
  | .node hd (a :: as), h =>
    simp only [TyName.ok] at h
    have h1 := depths_le (a :: as) h.2
    have h2 := length_joinComma (prints (a :: as))
    simp only [TyName.depth, TyName.print, prints, List.length_append, List.length_cons, List.length_nil] at h1 h2 ⊢
    omega
  | .tuple [], h => simp [TyName.depth, depths, TyName.print]
  | .tuple [t], h =>
    simp only [TyName.ok, okArgs] at h
    have h1 := depth_le t h.1.1
    simp only [TyName.depth, depths, TyName.print, List.length_append, List.length_cons, List.length_nil]
    omega
  | .tuple (t :: t' :: ts), h =>
    simp only [TyName.ok] at h
    have h1 := depths_le (t :: t' :: ts) h
    have h2 := length_joinComma (prints (t :: t' :: ts))
    simp only [TyName.depth, TyName.print, prints, List.length_append, List.length_cons, List.length_nil] at h1 h2 ⊢
    omega
  | .array t n, h =>
    simp only [TyName.ok] at h
    have h1 := depth_le t h
    simp only [TyName.depth, TyName.print, List.length_append, List.length_cons, List.length_nil]
    omega
  | .slice t, h =>
    simp only [TyName.ok] at h
    have h1 := depth_le t h.1
    simp only [TyName.depth, TyName.print, List.length_append, List.length_cons, List.length_nil]
    omega
theorem depths_le (ts : List TyName) (h : okArgs ts) : depths ts ≤ ((prints ts).map List.length).sum := by
  match ts, h with
  | [], _ => simp [depths]
  | t :: ts, h =>
    simp only [okArgs] at h
    have h1 := depth_le t h.1.1
    have h2 := depths_le ts h.2
    simp only [depths, prints, List.map_cons, List.sum_cons]
    omega
end

/-- C52: for every type name in which no comma is nested in an argument of a generic type or a component of a
tuple, and no `;` in the element type of a slice, the computation succeeds and appends the name described by
`TyName.fragment`, an identifier fragment.  Missing: the other type names, for which it panics
(`C52_fails_nested_generics`, `C52_fails_slice_of_arrays`, `C52_fails_dyn`). -/
theorem C52_name_partial (uni : Char → Bool) (t : TyName) (h : t.ok) (out : Text) :
    appendUnqualifiedName uni out t.print = some (out ++ t.fragment uni) ∧ Ident uni (t.fragment uni) := by
  have h1 := append_print uni t h (t.print.length + 1) (by have := depth_le t h; omega) out
  refine ⟨h1, ?_⟩
  obtain ⟨frag, h2, h3⟩ := C52_fragment uni out _ _ h1
  rw [List.append_cancel_left h2]
  exact h3

/-- C52 is false: the name of `Opaque<Vec<HashMap<K, V>>>` cannot be computed: it panics. -/
theorem C52_fails_nested_generics :
    (TyName.node "Vec".toList [.node "HashMap".toList [.node "K".toList [], .node "V".toList []]]).print = "Vec<HashMap<K, V>>".toList ∧
    appendUnqualifiedName (fun _ => false) [] "Vec<HashMap<K, V>>".toList = none ∧
    appendUnqualifiedName (fun _ => false) [] "Vec<(A, B)>".toList = none ∧
    appendUnqualifiedName (fun _ => false) [] "(A, (B, C))".toList = none := by decide +kernel

/-- C52 is false: `Box<[[u8; 3]]>`. -/
theorem C52_fails_slice_of_arrays : appendUnqualifiedName (fun _ => false) [] "Box<[[u8; 3]]>".toList = none := by decide +kernel

/-- C52 is false: `dyn Into<A> + Send`, `fn(Vec<A>) -> B`, `&[Vec<A>]`. -/
theorem C52_fails_dyn : appendUnqualifiedName (fun _ => false) [] "dyn Into<A> + Send".toList = none ∧
    appendUnqualifiedName (fun _ => false) [] "fn(Vec<A>) -> B".toList = none ∧
    appendUnqualifiedName (fun _ => false) [] "&[Vec<A>]".toList = none := by decide +kernel

/-- `std::collections::HashMap<[alloc::vec::Vec<&str>; 3], (dyn a::Tr<()>)>` without the parentheses -/
def exName : TyName := .node "std::collections::HashMap".toList
  [.array (.node "alloc::vec::Vec".toList [.node "&str".toList []]) 3, .node "dyn a::Tr".toList [.tuple []]]
example : exName.print = "std::collections::HashMap<[alloc::vec::Vec<&str>; 3], dyn a::Tr<()>>".toList := by decide +kernel
example : exName.fragment (fun _ => false) = "_HashMap_Vec__str_3_dyn_Tr_".toList := by decide +kernel
example : exName.ok := by
  simp only [exName, TyName.ok, okArgs, okHead, TyName.print, prints, joinComma]
  decide +kernel
end Verif.Names
