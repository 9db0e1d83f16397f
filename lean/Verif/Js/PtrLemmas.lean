import Verif.Js.NumLemmas
import Verif.Headers.TypeNames
/-! # Lemmas on the types of pointers in JavaScript -/
namespace Verif.Js
open Text Headers

/-- A word of a C type: no space, no star, not ending in `const`. -/
structure Word (w : Text) : Prop where
  space : ' ' ∉ w
  star : '*' ∉ w
  const : ¬ t!"const" <:+ w
  ne : w ≠ []

theorem not_const_t (u : Text) : ¬ t!"const" <:+ u ++ t!"_t" := by
  intro h
  have h := List.reverse_prefix.2 h
  rw [List.reverse_append] at h
  simp at h

theorem word_t {u : Text} (h : ' ' ∉ u) (h' : '*' ∉ u) : Word (u ++ t!"_t") where
  space := by simp [h]
  star := by simp [h']
  const := not_const_t u
  ne := by simp

theorem Word.of (w : Text) (h : ' ' ∉ w ∧ '*' ∉ w ∧ ¬ t!"const" <:+ w ∧ w ≠ []) : Word w := ⟨h.1, h.2.1, h.2.2.1, h.2.2.2⟩

/-- Not a pointer, not a function pointer. -/
def plain : CTy → Bool
  | .constPtr _ | .mutPtr _ | .fptr _ _ => false
  | _ => true

theorem nat_plain (n : Nat) : ' ' ∉ nat n ∧ '*' ∉ nat n := by
  have h := nat_digits n
  exact ⟨fun x => absurd (h _ x) (by decide), fun x => absurd (h _ x) (by decide)⟩

theorem word_plain (b : Nat → Text) {ty : CTy} (h : plain ty = true) (hw : wordy b ty) : Word (cName b ty) := by
  cases ty with
  | int k => rw [cName, cVar_int]; cases k <;> exact Word.of _ (by decide)
  | array n item =>
    rw [cName, cVar_array]
    simp only [sep, List.isEmpty_nil, if_true, List.append_nil]
    have hn := nat_plain n
    apply word_t
    · rw [short_array]; simp [hw.1, hn.1]
    · rw [short_array]; simp [hw.2, hn.2]
  | alias r d i =>
    rw [cName, cVar_alias]
    simp only [sep, List.isEmpty_nil, if_true, List.append_nil]
    exact word_t hw.1 hw.2
  | adt i gs =>
    rw [cName, cVar_adt]
    simp only [sep, List.isEmpty_nil, if_true, List.append_nil]
    exact word_t hw.1 hw.2
  | float => exact (Word.of t!"float" (by decide) :)
  | double => exact (Word.of t!"double" (by decide) :)
  | bool => exact (Word.of t!"bool" (by decide) :)
  | cint => exact (Word.of t!"int" (by decide) :)
  | cchar => exact (Word.of t!"char" (by decide) :)
  | void => exact (Word.of t!"void" (by decide) :)
  | _ => cases h

/-! ### `str::replace` -/

/-- No match starts in `a`. -/
theorem replace_append (pat rep a r : Text)
    (h : ∀ l c s, a = l ++ c :: s → pat.isPrefixOf (c :: s ++ r) = false) :
    replace pat rep (a ++ r) = a ++ replace pat rep r := by
  induction a with
  | nil => rfl
  | cons c s ih =>
    have h0 := h [] c s rfl
    have ih := ih fun l c' s' e => h (c :: l) c' s' (by rw [e]; rfl)
    show replaceGo pat rep 0 (c :: (s ++ r)) = _
    rw [replaceGo, if_neg (by rw [← List.cons_append, h0]; simp)]
    show c :: replace pat rep (s ++ r) = _
    rw [ih]; rfl

/-- What follows a word in a C type. -/
def Ok (r : Text) : Prop := ∀ c, r.head? = some c → c = ' ' ∨ c = ')' ∨ c = ','

theorem Ok.nil : Ok [] := nofun
theorem Ok.space (r : Text) : Ok (' ' :: r) := fun c h => .inl (by simpa using h.symm)
theorem Ok.paren (r : Text) : Ok (')' :: r) := fun c h => .inr (.inl (by simpa using h.symm))
theorem Ok.comma (r : Text) : Ok (',' :: r) := fun c h => .inr (.inr (by simpa using h.symm))

theorem word1 {w r : Text} (hw : Word w) (hr : Ok r) :
    replace t!"const *" t!"*" (w ++ r) = w ++ replace t!"const *" t!"*" r := by
  apply replace_append
  intro l c s e
  rw [Bool.eq_false_iff]
  intro h
  rw [List.isPrefixOf_iff_prefix] at h
  have key : ∀ (p q u : Text), ' ' ∉ u → q ≠ [] → (∀ c ∈ p, c ≠ ')' ∧ c ≠ ',' ∧ c ≠ ' ') → p ++ ' ' :: q <+: u ++ r → u = p := by
    intro p
    induction p with
    | nil =>
      intro q u hu hq _ h
      cases u with
      | nil => rfl
      | cons x u =>
        obtain ⟨t, ht⟩ := h
        simp only [List.nil_append, List.cons_append, List.cons.injEq] at ht
        exact absurd (ht.1 ▸ List.mem_cons_self ..) hu
    | cons x p ih =>
      intro q u hu hq hp h
      obtain ⟨t, ht⟩ := h
      cases u with
      | nil =>
        cases r with
        | nil => simp at ht
        | cons y r =>
          simp only [List.nil_append, List.cons_append, List.cons.injEq] at ht
          have := hr y rfl
          have hx := hp x (List.mem_cons_self ..)
          rw [ht.1] at hx
          rcases this with e | e | e
          · exact absurd e hx.2.2
          · exact absurd e hx.1
          · exact absurd e hx.2.1
      | cons y u =>
        simp only [List.cons_append, List.cons.injEq] at ht
        rw [ht.1, ih q u (fun m => hu (List.mem_cons_of_mem _ m)) hq (fun c m => hp c (List.mem_cons_of_mem _ m)) ⟨t, ht.2⟩]
  have := key t!"const" t!"*" (c :: s) (fun m => hw.space (by rw [e]; exact List.mem_append_right _ m)) (by decide)
    (by decide) h
  exact hw.const ⟨l, by rw [e, this]⟩

theorem word2 {w : Text} (hw : Word w) (rep r : Text) :
    replace t!" *" rep (w ++ r) = w ++ replace t!" *" rep r := by
  apply replace_append
  intro l c s e
  rw [Bool.eq_false_iff]
  intro h
  rw [List.isPrefixOf_iff_prefix] at h
  obtain ⟨t, ht⟩ := h
  simp only [List.cons_append, List.cons.injEq] at ht
  exact hw.space (by rw [e, ht.1]; simp)

/-! ### Types -/

mutual
/-- The type with all pointers mutable. -/
def allMut : CTy → CTy
  | .mutPtr to => .mutPtr (allMut to)
  | .constPtr to => .mutPtr (allMut to)
  | .fptr ret args => .fptr (allMut ret) (allMuts args)
  | ty => ty
def allMuts : List CTy → List CTy
  | [] => []
  | x :: xs => allMut x :: allMuts xs
end

theorem plain_allMut {ty : CTy} (h : plain ty = true) : allMut ty = ty := by cases ty <;> first | rfl | cases h
theorem plain_allConst {ty : CTy} (h : plain ty = true) : allConst ty = ty := by cases ty <;> first | rfl | cases h

theorem cName_const (b : Nat → Text) (to : CTy) : cName b (.constPtr to) = cName b to ++ t!" const *" := by
  rw [cName, cVar_constPtr]; simp [sep, cName]
theorem cName_mut (b : Nat → Text) (to : CTy) : cName b (.mutPtr to) = cName b to ++ t!" *" := by
  rw [cName, cVar_mutPtr]; simp [sep, cName]
theorem cName_fptr (b : Nat → Text) (ret : CTy) (args : List CTy) :
    cName b (.fptr ret args) = cName b ret ++ (t!" (*)(" ++ (cArgs b args ++ t!")")) := by
  rw [cName, cVar_fptr]; simp [cName]

theorem cName_head (b : Nat → Text) (ty : CTy) (hw : wordy b ty) : ∃ c s, cName b ty = c :: s ∧ c ≠ '*' := by
  match ty with
  | .constPtr to => obtain ⟨c, s, e, h⟩ := cName_head b to hw; exact ⟨c, _, by rw [cName_const, e]; rfl, h⟩
  | .mutPtr to => obtain ⟨c, s, e, h⟩ := cName_head b to hw; exact ⟨c, _, by rw [cName_mut, e]; rfl, h⟩
  | .fptr ret args => obtain ⟨c, s, e, h⟩ := cName_head b ret hw.1; exact ⟨c, _, by rw [cName_fptr, e]; rfl, h⟩
  | .int k => exact plain_head (word_plain b rfl hw)
  | .float => exact plain_head (word_plain b rfl hw)
  | .double => exact plain_head (word_plain b rfl hw)
  | .bool => exact plain_head (word_plain b rfl hw)
  | .cint => exact plain_head (word_plain b rfl hw)
  | .cchar => exact plain_head (word_plain b rfl hw)
  | .void => exact plain_head (word_plain b rfl hw)
  | .array _ _ => exact plain_head (word_plain b rfl hw)
  | .alias _ _ _ => exact plain_head (word_plain b rfl hw)
  | .adt _ _ => exact plain_head (word_plain b rfl hw)
where
  plain_head {w : Text} (h : Word w) : ∃ c s, w = c :: s ∧ c ≠ '*' := by
    cases w with
    | nil => exact absurd rfl h.ne
    | cons c s => exact ⟨c, s, rfl, fun e => h.star (by rw [e]; exact List.mem_cons_self ..)⟩

theorem void_word : Word t!"void" := Word.of _ (by decide)

/-! #### First pass: `const *` becomes `*` -/

theorem r1_const (r : Text) : replace t!"const *" t!"*" (t!" const *" ++ r) = t!" *" ++ replace t!"const *" t!"*" r := rfl
theorem r1_mut (r : Text) : replace t!"const *" t!"*" (t!" *" ++ r) = t!" *" ++ replace t!"const *" t!"*" r := rfl
theorem r1_fptr (r : Text) : replace t!"const *" t!"*" (t!" (*)(" ++ r) = t!" (*)(" ++ replace t!"const *" t!"*" r := rfl
theorem r1_paren (r : Text) : replace t!"const *" t!"*" (t!")" ++ r) = t!")" ++ replace t!"const *" t!"*" r := rfl
theorem r1_comma (r : Text) : replace t!"const *" t!"*" (t!", " ++ r) = t!", " ++ replace t!"const *" t!"*" r := rfl

theorem pass1_plain {b : Nat → Text} {ty : CTy} (h : plain ty = true) (hw : wordy b ty) {r : Text} (hr : Ok r) :
    replace t!"const *" t!"*" (cName b ty ++ r) = cName b (allMut ty) ++ replace t!"const *" t!"*" r := by
  rw [plain_allMut h, word1 (word_plain b h hw) hr]

mutual
theorem pass1 (b : Nat → Text) (ty : CTy) (hw : wordy b ty) {r : Text} (hr : Ok r) :
    replace t!"const *" t!"*" (cName b ty ++ r) = cName b (allMut ty) ++ replace t!"const *" t!"*" r := by
  match ty with
  | .constPtr to =>
    rw [cName_const, List.append_assoc, pass1 b to hw (r := t!" const *" ++ r) (Ok.space _), r1_const, allMut, cName_mut, List.append_assoc]
  | .mutPtr to =>
    rw [cName_mut, List.append_assoc, pass1 b to hw (r := t!" *" ++ r) (Ok.space _), r1_mut, allMut, cName_mut, List.append_assoc]
  | .fptr ret args =>
    rw [cName_fptr, allMut, cName_fptr]
    simp only [List.append_assoc]
    rw [pass1 b ret hw.1 (r := t!" (*)(" ++ (cArgs b args ++ (t!")" ++ r))) (Ok.space _), r1_fptr, pass1_args b args hw.2, r1_paren]
  | .int k => exact pass1_plain rfl hw hr
  | .float => exact pass1_plain rfl hw hr
  | .double => exact pass1_plain rfl hw hr
  | .bool => exact pass1_plain rfl hw hr
  | .cint => exact pass1_plain rfl hw hr
  | .cchar => exact pass1_plain rfl hw hr
  | .void => exact pass1_plain rfl hw hr
  | .array _ _ => exact pass1_plain rfl hw hr
  | .alias _ _ _ => exact pass1_plain rfl hw hr
  | .adt _ _ => exact pass1_plain rfl hw hr
theorem pass1_args (b : Nat → Text) (args : List CTy) (hw : wordys b args) {r : Text} :
    replace t!"const *" t!"*" (cArgs b args ++ (t!")" ++ r)) =
      cArgs b (allMuts args) ++ replace t!"const *" t!"*" (t!")" ++ r) := by
  match args with
  | [] => rw [allMuts, cArgs_nil, word1 void_word (r := t!")" ++ r) (Ok.paren _)]
  | x :: xs =>
    rw [allMuts, cArgs_cons, cArgs_cons]
    have h := pass1 b x hw.1 (r := cArgsTail b xs ++ (t!")" ++ r)) (by cases xs; exact Ok.paren _; exact Ok.comma _)
    rw [cName, cName] at h
    simp only [List.append_assoc]
    rw [h, pass1_tail b xs hw.2]
theorem pass1_tail (b : Nat → Text) (args : List CTy) (hw : wordys b args) {r : Text} :
    replace t!"const *" t!"*" (cArgsTail b args ++ (t!")" ++ r)) =
      cArgsTail b (allMuts args) ++ replace t!"const *" t!"*" (t!")" ++ r) := by
  match args with
  | [] => rfl
  | x :: xs =>
    rw [allMuts, cArgsTail_cons, cArgsTail_cons]
    have h := pass1 b x hw.1 (r := cArgsTail b xs ++ (t!")" ++ r)) (by cases xs; exact Ok.paren _; exact Ok.comma _)
    rw [cName, cName] at h
    simp only [List.append_assoc]
    rw [r1_comma, h, pass1_tail b xs hw.2]
end

/-! #### Second pass: ` *` becomes ` const *` -/

theorem r2_mut (r : Text) : replace t!" *" t!" const *" (t!" *" ++ r) = t!" const *" ++ replace t!" *" t!" const *" r := rfl
theorem r2_fptr {r : Text} : replace t!" *" t!" const *" (t!" (*)(" ++ r) =
    t!" (*)(" ++ replace t!" *" t!" const *" r := rfl
theorem r2_paren (r : Text) : replace t!" *" t!" const *" (t!")" ++ r) = t!")" ++ replace t!" *" t!" const *" r := rfl
theorem r2_comma {r : Text} (h : ∃ c s, r = c :: s ∧ c ≠ '*') : replace t!" *" t!" const *" (t!", " ++ r) =
    t!", " ++ replace t!" *" t!" const *" r := by
  obtain ⟨c, s, rfl, hc⟩ := h
  have : t!" *".isPrefixOf (' ' :: c :: s) = false := by
    simp only [List.isPrefixOf, Bool.and_eq_false_imp]
    intro _
    simp [Ne.symm hc]
  show ',' :: (if t!" *".isPrefixOf (' ' :: c :: s) = true then _ else _) = _
  rw [this]
  rfl

theorem pass2_plain {b : Nat → Text} {ty : CTy} (h : plain ty = true) (hw : wordy b ty) {r : Text} :
    replace t!" *" t!" const *" (cName b (allMut ty) ++ r) = cName b (allConst ty) ++ replace t!" *" t!" const *" r := by
  rw [plain_allMut h, plain_allConst h, word2 (word_plain b h hw)]

theorem head_append {x : Text} (h : ∃ c s, x = c :: s ∧ c ≠ '*') (r : Text) : ∃ c s, x ++ r = c :: s ∧ c ≠ '*' := by
  obtain ⟨c, s, rfl, hc⟩ := h; exact ⟨c, s ++ r, rfl, hc⟩

mutual
theorem wordy_allMut (b : Nat → Text) (ty : CTy) (hw : wordy b ty) : wordy b (allMut ty) := by
  match ty with
  | .constPtr to => exact wordy_allMut b to hw
  | .mutPtr to => exact wordy_allMut b to hw
  | .fptr ret args => exact ⟨wordy_allMut b ret hw.1, wordys_allMuts b args hw.2⟩
  | .int _ | .float | .double | .bool | .cint | .cchar | .void | .array _ _ | .alias _ _ _ | .adt _ _ => exact hw
theorem wordys_allMuts (b : Nat → Text) (tys : List CTy) (hw : wordys b tys) : wordys b (allMuts tys) := by
  match tys with
  | [] => trivial
  | x :: xs => exact ⟨wordy_allMut b x hw.1, wordys_allMuts b xs hw.2⟩
end

mutual
theorem pass2 (b : Nat → Text) (ty : CTy) (hw : wordy b ty) {r : Text} :
    replace t!" *" t!" const *" (cName b (allMut ty) ++ r) = cName b (allConst ty) ++ replace t!" *" t!" const *" r := by
  match ty with
  | .constPtr to =>
    rw [allMut, allConst, cName_const, cName_mut, List.append_assoc, pass2 b to hw, r2_mut, List.append_assoc]
  | .mutPtr to =>
    rw [allMut, allConst, cName_const, cName_mut, List.append_assoc, pass2 b to hw, r2_mut, List.append_assoc]
  | .fptr ret args =>
    rw [allMut, allConst, cName_fptr, cName_fptr]
    simp only [List.append_assoc]
    rw [pass2 b ret hw.1, r2_fptr, pass2_args b args hw.2, r2_paren]
  | .int k => exact pass2_plain rfl hw
  | .float => exact pass2_plain rfl hw
  | .double => exact pass2_plain rfl hw
  | .bool => exact pass2_plain rfl hw
  | .cint => exact pass2_plain rfl hw
  | .cchar => exact pass2_plain rfl hw
  | .void => exact pass2_plain rfl hw
  | .array _ _ => exact pass2_plain rfl hw
  | .alias _ _ _ => exact pass2_plain rfl hw
  | .adt _ _ => exact pass2_plain rfl hw
theorem pass2_args (b : Nat → Text) (args : List CTy) (hw : wordys b args) {r : Text} :
    replace t!" *" t!" const *" (cArgs b (allMuts args) ++ r) = cArgs b (allConsts args) ++ replace t!" *" t!" const *" r := by
  match args with
  | [] => rw [allMuts, allConsts, cArgs_nil, word2 void_word]
  | x :: xs =>
    rw [allMuts, allConsts, cArgs_cons, cArgs_cons]
    have h := pass2 b x hw.1 (r := cArgsTail b (allMuts xs) ++ r)
    rw [cName, cName] at h
    simp only [List.append_assoc]
    rw [h, pass2_tail b xs hw.2]
theorem pass2_tail (b : Nat → Text) (args : List CTy) (hw : wordys b args) {r : Text} :
    replace t!" *" t!" const *" (cArgsTail b (allMuts args) ++ r) =
      cArgsTail b (allConsts args) ++ replace t!" *" t!" const *" r := by
  match args with
  | [] => rfl
  | x :: xs =>
    rw [allMuts, allConsts, cArgsTail_cons, cArgsTail_cons]
    have h := pass2 b x hw.1 (r := cArgsTail b (allMuts xs) ++ r)
    have hh := head_append (cName_head b _ (wordy_allMut b x hw.1)) (cArgsTail b (allMuts xs) ++ r)
    rw [cName] at h hh
    rw [cName] at h
    simp only [List.append_assoc]
    rw [r2_comma hh, h, pass2_tail b xs hw.2]
end

theorem ptrType_mut (b : Nat → Text) (to : CTy) : ptrType b false to = cName b (.mutPtr to) := by
  rw [cName_mut]; simp [ptrType]
theorem ptrType_const (b : Nat → Text) (to : CTy) : ptrType b true to = cName b (.constPtr to) := by
  rw [cName_const]; simp [ptrType]

/-- What is done to the type of a pointer received as a `const` pointer: all pointers become `const`. -/
theorem constify_name (b : Nat → Text) (ty : CTy) (hw : wordy b ty) : constify (cName b ty) = cName b (allConst ty) := by
  have h1 := pass1 b ty hw Ok.nil
  have h2 := pass2 b ty hw (r := [])
  have e1 : replace t!"const *" t!"*" [] = [] := rfl
  have e2 : replace t!" *" t!" const *" [] = [] := rfl
  rw [e1] at h1
  rw [e2] at h2
  simp only [List.append_nil] at h1 h2
  rw [constify, h1, h2]

mutual
theorem allConst_eq (ty : CTy) (h : showsMut ty = false) : allConst ty = ty := by
  match ty with
  | .constPtr to => rw [allConst, allConst_eq to h]
  | .mutPtr to => cases h
  | .fptr ret args =>
    rw [showsMut, Bool.or_eq_false_iff] at h
    rw [allConst, allConst_eq ret h.1, allConsts_eq args h.2]
  | .int _ | .float | .double | .bool | .cint | .cchar | .void | .array _ _ | .alias _ _ _ | .adt _ _ => rfl
theorem allConsts_eq (tys : List CTy) (h : showsMuts tys = false) : allConsts tys = tys := by
  match tys with
  | [] => rfl
  | x :: xs =>
    rw [showsMuts, Bool.or_eq_false_iff] at h
    rw [allConsts, allConst_eq x h.1, allConsts_eq xs h.2]
end

/-! ### No name ends in `const` -/

theorem not_const_last {w : Text} {c : Char} (hc : c ≠ 't') : ¬ t!"const" <:+ w ++ [c] := by
  intro h
  have h := List.reverse_prefix.2 h
  rw [List.reverse_append] at h
  obtain ⟨t, ht⟩ := h
  simp at ht
  exact hc ht.1.symm

theorem name_not_const (b : Nat → Text) (ty : CTy) (hw : wordy b ty) : ¬ t!"const" <:+ cName b ty := by
  cases ty with
  | constPtr to => rw [cName_const, show t!" const *" = t!" const " ++ [ '*' ] from rfl, ← List.append_assoc]; exact not_const_last (by decide)
  | mutPtr to => rw [cName_mut, show t!" *" = t!" " ++ [ '*' ] from rfl, ← List.append_assoc]; exact not_const_last (by decide)
  | fptr ret args =>
    rw [cName_fptr, ← List.append_assoc, ← List.append_assoc]; exact not_const_last (by decide)
  | int k => exact (word_plain b rfl hw).const
  | array n item => exact (word_plain b rfl hw).const
  | alias r d i => exact (word_plain b rfl hw).const
  | adt i gs => exact (word_plain b rfl hw).const
  | float => exact (word_plain b rfl hw).const
  | double => exact (word_plain b rfl hw).const
  | bool => exact (word_plain b rfl hw).const
  | cint => exact (word_plain b rfl hw).const
  | cchar => exact (word_plain b rfl hw).const
  | void => exact (word_plain b rfl hw).const

/-- A `const` pointer never has the type of a mutable one. -/
theorem const_ne_mut (b : Nat → Text) (to to' : CTy) (hw : wordy b to') : cName b (.constPtr to) ≠ cName b (.mutPtr to') := by
  intro h
  rw [cName_const, cName_mut, show t!" const *" = t!" const" ++ t!" *" from rfl, ← List.append_assoc] at h
  have := List.append_cancel_right h
  exact name_not_const b to' hw ⟨cName b to ++ t!" ", by rw [← this]; simp⟩

/-! ### What is received as a `const` pointer -/

/-- A star after a space, without `const` before it. -/
def Bare (s : Text) : Prop := ∃ l r, s = l ++ t!" *" ++ r ∧ ¬ t!"const" <:+ l

/-- After the second pass, every star that follows a space follows `const`. `pre` is what was written
before. -/
theorem covered (s : Text) : ∀ (k : Nat) (pre : Text), (pre.getLast? = some ' ' → k = 0 ∧ s.head? ≠ some '*') →
    ∀ l r, pre ++ replaceGo t!" *" t!" const *" k s = l ++ t!" *" ++ r → pre.length ≤ l.length + 1 → t!"const" <:+ l := by
  induction s with
  | nil =>
    intro k pre _ l r h hl
    have := congrArg List.length h
    simp [replaceGo] at this
    omega
  | cons c s ih =>
    intro k pre hp l r h hl
    cases k with
    | succ k =>
      rw [replaceGo] at h
      refine ih k pre (fun e => ?_) l r h hl
      exact absurd (hp e).1 (by omega)
    | zero =>
      rw [replaceGo] at h
      by_cases hm : t!" *".isPrefixOf (c :: s) = true
      · rw [if_pos hm] at h
        by_cases hl' : pre.length + 8 ≤ l.length + 1
        · refine ih _ (pre ++ t!" const *") (fun e => ?_) l r (by rw [List.append_assoc]; exact h) (by simp; omega)
          rw [List.getLast?_append] at e
          simp at e
        · rw [List.append_assoc l] at h
          rcases List.append_eq_append_iff.1 h with ⟨d, hd, he⟩ | ⟨d, hd, he⟩
          · -- `l = pre ++ d`
            have hlen := congrArg List.length hd
            simp at hlen
            rcases d with _ | ⟨d0, _ | ⟨d1, _ | ⟨d2, _ | ⟨d3, _ | ⟨d4, _ | ⟨d5, _ | ⟨d6, d⟩⟩⟩⟩⟩⟩⟩
            · simp at he
            · simp at he
            · simp at he
            · simp at he
            · simp at he
            · simp at he
            · simp at he
              obtain ⟨rfl, rfl, rfl, rfl, rfl, rfl, -⟩ := he
              exact ⟨pre ++ t!" ", by rw [hd]; simp⟩
            · simp at hlen; omega
          · have hlen := congrArg List.length hd
            simp at hlen
            rcases d with _ | ⟨d0, _ | ⟨d1, d⟩⟩
            · simp at he
            · simp at he
            · simp at hlen; omega
      · rw [if_neg hm] at h
        by_cases hl' : pre.length + 1 ≤ l.length + 1
        · refine ih 0 (pre ++ [c]) (fun e => ⟨rfl, fun e' => ?_⟩) l r (by rw [List.append_assoc]; exact h) (by simp; omega)
          rw [List.getLast?_append] at e
          simp at e
          cases s with
          | nil => simp at e'
          | cons x s =>
            simp at e'
            subst e e'
            simp [List.isPrefixOf] at hm
        · have hle : pre.length = l.length + 1 := by omega
          rw [List.append_assoc l] at h
          rcases List.append_eq_append_iff.1 h with ⟨d, hd, he⟩ | ⟨d, hd, he⟩
          · have hlen := congrArg List.length hd
            simp at hlen; omega
          · have hlen := congrArg List.length hd
            simp at hlen
            rcases d with _ | ⟨d0, _ | ⟨d1, d⟩⟩
            · simp at hlen; omega
            · simp at he
              obtain ⟨rfl, rfl, -⟩ := he
              have := (hp (by rw [hd]; simp)).2
              simp at this
            · simp at hlen; omega

theorem constify_not_bare (s : Text) : ¬ Bare (constify s) := by
  rintro ⟨l, r, h, hc⟩
  exact hc (covered (replace t!"const *" t!"*" s) 0 [] (by simp) l r (by simpa [constify, replace] using h) (by simp))

theorem const_shift {c : Char} (hc : c ∉ t!"const") (p l : Text) (h : ¬ t!"const" <:+ l) : ¬ t!"const" <:+ p ++ [c] ++ l := by
  intro hs
  rcases List.suffix_or_suffix_of_suffix hs (List.suffix_append (p ++ [c]) l) with h1 | ⟨d, h1⟩
  · exact h h1
  · rcases List.eq_nil_or_concat d with rfl | ⟨d', x, rfl⟩
    · exact h ⟨[], by simpa using h1.symm⟩
    · obtain ⟨t, ht⟩ := hs
      rw [← h1] at ht
      simp only [List.concat_eq_append, ← List.append_assoc] at ht
      have := List.append_cancel_right ht
      have hx := List.append_inj_right' this rfl
      simp at hx
      apply hc
      rw [← h1, ← hx]
      simp

theorem Bare.right {s : Text} (h : Bare s) (r : Text) : Bare (s ++ r) := by
  obtain ⟨l, r', e, hc⟩ := h
  exact ⟨l, r' ++ r, by rw [e]; simp, hc⟩

theorem Bare.left {s : Text} (h : Bare s) {c : Char} (hc : c ∉ t!"const") (p : Text) : Bare (p ++ [c] ++ s) := by
  obtain ⟨l, r, e, hl⟩ := h
  exact ⟨p ++ [c] ++ l, r, by rw [e]; simp, const_shift hc p l hl⟩

mutual
theorem bare_name (b : Nat → Text) (ty : CTy) (hw : wordy b ty) (h : showsMut ty = true) : Bare (cName b ty) := by
  match ty with
  | .mutPtr to => exact ⟨cName b to, [], by rw [cName_mut]; simp, name_not_const b to hw⟩
  | .constPtr to => rw [cName_const]; exact (bare_name b to hw h).right _
  | .fptr ret args =>
    rw [showsMut, Bool.or_eq_true] at h
    rw [cName_fptr]
    rcases h with h | h
    · exact (bare_name b ret hw.1 h).right _
    · have := ((bare_args b args hw.2 h).right t!")").left (c := '(') (by decide) (cName b ret ++ t!" (*)")
      rw [show t!" (*)(" = t!" (*)" ++ [ '(' ] from rfl]
      simpa using this
theorem bare_args (b : Nat → Text) (tys : List CTy) (hw : wordys b tys) (h : showsMuts tys = true) : Bare (cArgs b tys) := by
  match tys with
  | x :: xs =>
    rw [showsMuts, Bool.or_eq_true] at h
    rw [cArgs_cons]
    rcases h with h | h
    · exact (bare_name b x hw.1 h).right _
    · exact bare_tail b xs hw.2 h _
theorem bare_tail (b : Nat → Text) (tys : List CTy) (hw : wordys b tys) (h : showsMuts tys = true) (p : Text) :
    Bare (p ++ cArgsTail b tys) := by
  match tys with
  | x :: xs =>
    rw [showsMuts, Bool.or_eq_true] at h
    rw [cArgsTail_cons]
    rcases h with h | h
    · have := ((bare_name b x hw.1 h).right (cArgsTail b xs)).left (c := ' ') (by decide) (p ++ t!",")
      rw [cName] at this
      simpa using this
    · have := bare_tail b xs hw.2 h (p ++ (t!", " ++ cVar b x []))
      simpa using this
end

/-- No text is accepted as the type of a `const` pointer to a type that mentions a mutable one. -/
theorem constify_ne (b : Nat → Text) (to : CTy) (hw : wordy b to) (h : showsMut to = true) (s : Text) :
    constify s ≠ ptrType b true to := by
  intro e
  apply constify_not_bare s
  rw [e, ptrType_const]
  exact bare_name b (.constPtr to) hw h

end Verif.Js
