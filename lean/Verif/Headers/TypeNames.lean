import Verif.Headers.DeclProps
import Verif.Util.Dec
/-!
# Lemmas for C43: type names as token lists

A short name, cut at underscores, is a list of tokens; types are decoded from it left to right.
-/
namespace Verif.Headers
open Text

/-! ### Which types -/

/-- Words that short names are made of. -/
def reserved : List Text :=
  [t!"ptr", t!"const", t!"array", t!"fptr", t!"uint8", t!"uint16", t!"uint32", t!"uint64", t!"size", t!"int8", t!"int16", t!"int32",
    t!"int64", t!"ssize", t!"float", t!"double", t!"bool", t!"int", t!"char", t!"void"]

/-- A name without underscore, other than the words above, not starting with a digit. -/
def PlainName (w : Text) : Prop :=
  w ≠ [] ∧ '_' ∉ w ∧ w ∉ reserved ∧ ∀ c, w.head? = some c → c.isDigit = false

/-- What names the declared types and the aliases of a program have: `b` the name and `arity` the
number of generic parameters of each declared type, `alias` what each alias stands for. -/
structure Naming where
  b : Nat → Text
  arity : Nat → Nat
  alias : Text → Option (List Text × CTy)

/-- Declared types and aliases have distinct plain names. -/
structure Naming.Distinct (E : Naming) : Prop where
  inj : ∀ i j, E.b i = E.b j → i = j
  base : ∀ i, PlainName (E.b i)
  aliases : ∀ r, (E.alias r).isSome → PlainName r
  apart : ∀ r i, (E.alias r).isSome → r ≠ E.b i

def builtin : CTy → Bool
  | .int _ | .float | .double | .bool | .cint | .cchar | .void => true
  | _ => false

mutual
/-- Base types, aliases and declared types, at generic parameters of this kind. -/
def stemOk (E : Naming) : CTy → Prop
  | .alias r d inner => E.alias r = some (d, inner)
  | .adt i gs => gs.length = E.arity i ∧ stemsOk E gs
  | ty => builtin ty = true
def stemsOk (E : Naming) : List CTy → Prop
  | [] => True
  | x :: xs => stemOk E x ∧ stemsOk E xs
end

/-- Arrays and pointers, to any depth, of such types. -/
def flatOk (E : Naming) : CTy → Prop
  | .array _ item => flatOk E item
  | .constPtr x => flatOk E x
  | .mutPtr x => flatOk E x
  | ty => stemOk E ty

/-- Arrays and pointers, to any depth, of such types or of function pointers between such types. -/
def nameOk (E : Naming) : CTy → Prop
  | .array _ item => nameOk E item
  | .constPtr x => nameOk E x
  | .mutPtr x => nameOk E x
  | .fptr ret args => flatOk E ret ∧ ∀ a ∈ args, flatOk E a
  | ty => stemOk E ty

/-! ### Tokens -/

mutual
def toks (b : Nat → Text) : CTy → List Text
  | .array n item => toks b item ++ [nat n, t!"array"]
  | .fptr ret args => toks b ret ++ tokss b args ++ [t!"fptr"]
  | .constPtr x => toks b x ++ [t!"const", t!"ptr"]
  | .mutPtr x => toks b x ++ [t!"ptr"]
  | .alias r _ _ => [r]
  | .adt i gs => b i :: tokss b gs
  | .int k => [k.c]
  | .float => [t!"float"]
  | .double => [t!"double"]
  | .bool => [t!"bool"]
  | .cint => [t!"int"]
  | .cchar => [t!"char"]
  | .void => [t!"void"]
def tokss (b : Nat → Text) : List CTy → List Text
  | [] => []
  | x :: xs => toks b x ++ tokss b xs
end

theorem split_join (a b : Text) : split '_' (a ++ '_' :: b) = split '_' a ++ split '_' b := by
  induction a with
  | nil => simp [split]
  | cons c cs ih =>
    rw [List.cons_append, split, split]
    by_cases h : c = '_'
    · rw [if_pos h, if_pos h, ih]; rfl
    · rw [if_neg h, if_neg h, ih]
      cases hs : split '_' cs with
      | nil => exact absurd hs (split_ne_nil _ _)
      | cons p ps => simp

theorem nat_digits (n : Nat) : ∀ c ∈ nat n, c.isDigit = true := by
  intro c hc
  simp only [nat, toString] at hc
  rw [Nat.toList_repr] at hc
  exact Nat.isDigit_of_mem_toDigits (by omega) (by omega) hc

theorem nat_ne_nil (n : Nat) : nat n ≠ [] := by
  simp only [nat, toString]
  rw [Nat.toList_repr]
  intro e
  have := Nat.length_toDigits_pos (b := 10) (n := n)
  rw [e] at this
  simp at this

theorem nat_no_underscore (n : Nat) : '_' ∉ nat n := fun h => absurd (nat_digits n _ h) (by decide)

mutual
/-- No name of a declared type or alias in `ty` has an underscore. -/
def noUnder (b : Nat → Text) : CTy → Prop
  | .array _ item => noUnder b item
  | .fptr ret args => noUnder b ret ∧ noUnders b args
  | .constPtr x => noUnder b x
  | .mutPtr x => noUnder b x
  | .alias r _ _ => '_' ∉ r
  | .adt i gs => '_' ∉ b i ∧ noUnders b gs
  | _ => True
def noUnders (b : Nat → Text) : List CTy → Prop
  | [] => True
  | x :: xs => noUnder b x ∧ noUnders b xs
end

mutual
theorem split_short (b : Nat → Text) (ty : CTy) (h : noUnder b ty) : split '_' (short b ty) = toks b ty := by
  match ty, h with
  | .int k, _ =>
    show split '_' k.c = [k.c]
    cases k <;> decide
  | .float, _ => exact (by decide : split '_' t!"float" = [t!"float"])
  | .double, _ => exact (by decide : split '_' t!"double" = [t!"double"])
  | .bool, _ => exact (by decide : split '_' t!"bool" = [t!"bool"])
  | .cint, _ => exact (by decide : split '_' t!"int" = [t!"int"])
  | .cchar, _ => exact (by decide : split '_' t!"char" = [t!"char"])
  | .void, _ => exact (by decide : split '_' t!"void" = [t!"void"])
  | .array n item, h =>
    have ih := split_short b item h
    rw [short, toks, ← ih]
    have e : short b item ++ t!"_" ++ nat n ++ t!"_array" = short b item ++ '_' :: (nat n ++ '_' :: t!"array") := by simp
    rw [e, split_join, split_join, split_of_not_mem (nat_no_underscore n)]
    rfl
  | .fptr ret args, h =>
    have ih := split_short b ret h.1
    have ihs := split_shorts b args h.2 (short b ret)
    rw [short, toks]
    have e : short b ret ++ shorts b args ++ t!"_fptr" = (short b ret ++ shorts b args) ++ '_' :: t!"fptr" := by simp
    rw [e, split_join, ihs, ih]
    rfl
  | .constPtr x, h =>
    have ih := split_short b x h
    rw [short, toks]
    have e : short b x ++ t!"_const_ptr" = short b x ++ '_' :: (t!"const" ++ '_' :: t!"ptr") := by simp
    rw [e, split_join, split_join, ih]
    rfl
  | .mutPtr x, h =>
    have ih := split_short b x h
    rw [short, toks]
    have e : short b x ++ t!"_ptr" = short b x ++ '_' :: t!"ptr" := by simp
    rw [e, split_join, ih]
    rfl
  | .alias r _ _, h => exact split_of_not_mem h
  | .adt i gs, h =>
    have ihs := split_shorts b gs h.2 (b i)
    rw [short, toks, ihs, split_of_not_mem h.1]
    rfl
theorem split_shorts (b : Nat → Text) (tys : List CTy) (h : noUnders b tys) (pre : Text) :
    split '_' (pre ++ shorts b tys) = split '_' pre ++ tokss b tys := by
  match tys, h with
  | [], _ => rw [shorts, tokss, List.append_nil, List.append_nil]
  | x :: xs, h =>
    have ih := split_short b x h.1
    have ihs := split_shorts b xs h.2 (pre ++ '_' :: short b x)
    rw [shorts, tokss]
    have e : pre ++ (t!"_" ++ short b x ++ shorts b xs) = (pre ++ '_' :: short b x) ++ shorts b xs := by simp
    rw [e, ihs, split_join, ih]
    simp
end

/-! ### Stems -/

theorem Naming.Distinct.no_reserved {E : Naming} (hE : E.Distinct) {x : Text} (hx : x ∈ reserved) (i : Nat) : E.b i ≠ x :=
  fun e => (hE.base i).2.2.1 (e ▸ hx)

theorem builtin_reserved (b : Nat → Text) {ty : CTy} (h : builtin ty = true) : ∃ w ∈ reserved, toks b ty = [w] ∧
    w ≠ t!"ptr" ∧ w ≠ t!"const" ∧ w ≠ t!"fptr" ∧ ∀ c, w.head? = some c → c.isDigit = false := by
  match ty, h with
  | .int k, _ => cases k <;> exact ⟨_, by decide, rfl, by decide, by decide, by decide, by simp [IntTy.c]⟩
  | .float, _ => exact ⟨_, by decide, rfl, by decide, by decide, by decide, by simp⟩
  | .double, _ => exact ⟨_, by decide, rfl, by decide, by decide, by decide, by simp⟩
  | .bool, _ => exact ⟨_, by decide, rfl, by decide, by decide, by decide, by simp⟩
  | .cint, _ => exact ⟨_, by decide, rfl, by decide, by decide, by decide, by simp⟩
  | .cchar, _ => exact ⟨_, by decide, rfl, by decide, by decide, by decide, by simp⟩
  | .void, _ => exact ⟨_, by decide, rfl, by decide, by decide, by decide, by simp⟩

theorem builtin_inj (b : Nat → Text) {x y : CTy} (hx : builtin x = true) (hy : builtin y = true) (h : toks b x = toks b y) : x = y := by
  have dec : ∀ k k' : IntTy, [k.c] = [k'.c] → k = k' := by
    intro k k'; cases k <;> cases k' <;> decide
  have l : ∀ {a c : Text}, [a] = [c] → a = c := fun h => (List.cons.inj h).1
  match x, y, hx, hy with
  | .int k, .int k', _, _ => rw [dec k k' h]
  | .int k, .float, _, _ => cases k <;> exact absurd (l h) (by decide)
  | .int k, .double, _, _ => cases k <;> exact absurd (l h) (by decide)
  | .int k, .bool, _, _ => cases k <;> exact absurd (l h) (by decide)
  | .int k, .cint, _, _ => cases k <;> exact absurd (l h) (by decide)
  | .int k, .cchar, _, _ => cases k <;> exact absurd (l h) (by decide)
  | .int k, .void, _, _ => cases k <;> exact absurd (l h) (by decide)
  | .float, .int k, _, _ => cases k <;> exact absurd (l h) (by decide)
  | .double, .int k, _, _ => cases k <;> exact absurd (l h) (by decide)
  | .bool, .int k, _, _ => cases k <;> exact absurd (l h) (by decide)
  | .cint, .int k, _, _ => cases k <;> exact absurd (l h) (by decide)
  | .cchar, .int k, _, _ => cases k <;> exact absurd (l h) (by decide)
  | .void, .int k, _, _ => cases k <;> exact absurd (l h) (by decide)
  | .float, .float, _, _ => rfl
  | .double, .double, _, _ => rfl
  | .bool, .bool, _, _ => rfl
  | .cint, .cint, _, _ => rfl
  | .cchar, .cchar, _, _ => rfl
  | .void, .void, _, _ => rfl
  | .float, .double, _, _ => exact absurd (l h) (by decide)
  | .float, .bool, _, _ => exact absurd (l h) (by decide)
  | .float, .cint, _, _ => exact absurd (l h) (by decide)
  | .float, .cchar, _, _ => exact absurd (l h) (by decide)
  | .float, .void, _, _ => exact absurd (l h) (by decide)
  | .double, .float, _, _ => exact absurd (l h) (by decide)
  | .double, .bool, _, _ => exact absurd (l h) (by decide)
  | .double, .cint, _, _ => exact absurd (l h) (by decide)
  | .double, .cchar, _, _ => exact absurd (l h) (by decide)
  | .double, .void, _, _ => exact absurd (l h) (by decide)
  | .bool, .float, _, _ => exact absurd (l h) (by decide)
  | .bool, .double, _, _ => exact absurd (l h) (by decide)
  | .bool, .cint, _, _ => exact absurd (l h) (by decide)
  | .bool, .cchar, _, _ => exact absurd (l h) (by decide)
  | .bool, .void, _, _ => exact absurd (l h) (by decide)
  | .cint, .float, _, _ => exact absurd (l h) (by decide)
  | .cint, .double, _, _ => exact absurd (l h) (by decide)
  | .cint, .bool, _, _ => exact absurd (l h) (by decide)
  | .cint, .cchar, _, _ => exact absurd (l h) (by decide)
  | .cint, .void, _, _ => exact absurd (l h) (by decide)
  | .cchar, .float, _, _ => exact absurd (l h) (by decide)
  | .cchar, .double, _, _ => exact absurd (l h) (by decide)
  | .cchar, .bool, _, _ => exact absurd (l h) (by decide)
  | .cchar, .cint, _, _ => exact absurd (l h) (by decide)
  | .cchar, .void, _, _ => exact absurd (l h) (by decide)
  | .void, .float, _, _ => exact absurd (l h) (by decide)
  | .void, .double, _, _ => exact absurd (l h) (by decide)
  | .void, .bool, _, _ => exact absurd (l h) (by decide)
  | .void, .cint, _, _ => exact absurd (l h) (by decide)
  | .void, .cchar, _, _ => exact absurd (l h) (by decide)

/-- The kinds of stems. -/
inductive Stem (E : Naming) : CTy → Prop
  | builtin {ty} : builtin ty = true → Stem E ty
  | alias {r d inner} : E.alias r = some (d, inner) → Stem E (.alias r d inner)
  | adt {i gs} : gs.length = E.arity i → stemsOk E gs → Stem E (.adt i gs)

theorem stem_of_ok {E : Naming} {ty : CTy} (h : stemOk E ty) : Stem E ty := by
  cases ty with
  | alias r d i => exact .alias h
  | adt i gs => exact .adt h.1 h.2
  | array => cases h
  | fptr => cases h
  | constPtr => cases h
  | mutPtr => cases h
  | _ => exact .builtin h

mutual
theorem stem_prefix {E : Naming} (hE : E.Distinct) (x y : CTy) (hx : stemOk E x) (hy : stemOk E y) (r s : List Text)
    (h : toks E.b x ++ r = toks E.b y ++ s) : x = y ∧ r = s := by
  match x, stem_of_ok hx, hx with
  | x, .builtin hb, _ =>
    obtain ⟨w, hw, e, _⟩ := builtin_reserved E.b hb
    cases stem_of_ok hy with
    | builtin hb' =>
      obtain ⟨w', _, e', _⟩ := builtin_reserved E.b hb'
      rw [e, e'] at h
      simp only [List.singleton_append, List.cons.injEq] at h
      exact ⟨builtin_inj E.b hb hb' (by rw [e, e', h.1]), h.2⟩
    | alias ha =>
      rw [e, toks] at h
      simp only [List.singleton_append, List.cons.injEq] at h
      exact absurd hw (h.1 ▸ (hE.aliases _ (by rw [ha]; rfl)).2.2.1)
    | @adt i gs _ _ =>
      rw [e, toks] at h
      simp only [List.cons_append, List.cons.injEq] at h
      exact absurd hw (h.1 ▸ (hE.base i).2.2.1)
  | .alias rn d inner, .alias ha, _ =>
    cases stem_of_ok hy with
    | builtin hb' =>
      obtain ⟨w, hw, e, _⟩ := builtin_reserved E.b hb'
      rw [e, toks] at h
      simp only [List.singleton_append, List.cons.injEq] at h
      exact absurd (h.1 ▸ hw) (hE.aliases _ (by rw [ha]; rfl)).2.2.1
    | alias ha' =>
      rw [toks, toks] at h
      simp only [List.singleton_append, List.cons.injEq] at h
      obtain ⟨h1, h2⟩ := h
      subst h1
      rw [ha] at ha'
      simp only [Option.some.injEq, Prod.mk.injEq] at ha'
      exact ⟨by rw [ha'.1, ha'.2], h2⟩
    | @adt i gs _ _ =>
      rw [toks, toks] at h
      simp only [List.cons_append, List.cons.injEq] at h
      exact absurd h.1 (hE.apart _ i (by rw [ha]; rfl))
  | .adt i gs, .adt hl hs, _ =>
    cases stem_of_ok hy with
    | builtin hb' =>
      obtain ⟨w, hw, e, _⟩ := builtin_reserved E.b hb'
      rw [e, toks] at h
      simp only [List.cons_append, List.cons.injEq] at h
      exact absurd (h.1 ▸ hw) (hE.base i).2.2.1
    | alias ha' =>
      rw [toks, toks] at h
      simp only [List.cons_append, List.cons.injEq] at h
      exact absurd h.1.symm (hE.apart _ i (by rw [ha']; rfl))
    | @adt j gs' hl' hs' =>
      rw [toks, toks] at h
      simp only [List.cons_append, List.cons.injEq] at h
      have hij := hE.inj _ _ h.1
      subst hij
      obtain ⟨h1, h2⟩ := stems_prefix hE gs gs' hs hs' (hl.trans hl'.symm) r s h.2
      exact ⟨by rw [h1], h2⟩
theorem stems_prefix {E : Naming} (hE : E.Distinct) (xs ys : List CTy) (hx : stemsOk E xs) (hy : stemsOk E ys)
    (hl : xs.length = ys.length) (r s : List Text) (h : tokss E.b xs ++ r = tokss E.b ys ++ s) : xs = ys ∧ r = s := by
  match xs, ys, hx, hy, hl with
  | [], [], _, _, _ => exact ⟨rfl, h⟩
  | x :: xs, y :: ys, hx, hy, hl =>
    rw [tokss, tokss, List.append_assoc, List.append_assoc] at h
    obtain ⟨h1, h2⟩ := stem_prefix hE x y hx.1 hy.1 _ _ h
    obtain ⟨h3, h4⟩ := stems_prefix hE xs ys hx.2 hy.2 (by simpa using hl) _ _ h2
    exact ⟨by rw [h1, h3], h4⟩
end

/-- The first token of a stem does not start a suffix. -/
def Starts (w : Text) : Prop := w ≠ t!"ptr" ∧ w ≠ t!"const" ∧ w ≠ t!"fptr" ∧ ∀ c, w.head? = some c → c.isDigit = false

theorem stem_head {E : Naming} (hE : E.Distinct) {x : CTy} (hx : stemOk E x) : ∃ w ws, toks E.b x = w :: ws ∧ Starts w := by
  have key : ∀ w, PlainName w → Starts w := fun w h =>
    ⟨fun e => h.2.2.1 (by rw [e]; decide), fun e => h.2.2.1 (by rw [e]; decide), fun e => h.2.2.1 (by rw [e]; decide), h.2.2.2⟩
  cases stem_of_ok hx with
  | builtin hb =>
    obtain ⟨w, _, e, h1, h2, h3, h4⟩ := builtin_reserved E.b hb
    exact ⟨w, [], e, h1, h2, h3, h4⟩
  | alias ha => exact ⟨_, [], rfl, key _ (hE.aliases _ (by rw [ha]; rfl))⟩
  | @adt i gs _ _ => exact ⟨E.b i, tokss E.b gs, rfl, key _ (hE.base i)⟩

/-! ### Suffixes -/

inductive Sfx | arr (n : Nat) | cptr | mptr

def Sfx.toks : Sfx → List Text
  | .arr n => [nat n, t!"array"]
  | .cptr => [t!"const", t!"ptr"]
  | .mptr => [t!"ptr"]

def Sfx.apply (ty : CTy) : Sfx → CTy
  | .arr n => .array n ty
  | .cptr => .constPtr ty
  | .mptr => .mutPtr ty

/-- What is inside all arrays and pointers, and these. -/
def stem : CTy → CTy
  | .array _ x => stem x
  | .constPtr x => stem x
  | .mutPtr x => stem x
  | ty => ty

def sfx : CTy → List Sfx
  | .array n x => sfx x ++ [.arr n]
  | .constPtr x => sfx x ++ [.cptr]
  | .mutPtr x => sfx x ++ [.mptr]
  | _ => []

theorem rebuild (ty : CTy) : (sfx ty).foldl Sfx.apply (stem ty) = ty := by
  match ty with
  | .array n x => rw [sfx, stem, List.foldl_append, rebuild x]; rfl
  | .constPtr x => rw [sfx, stem, List.foldl_append, rebuild x]; rfl
  | .mutPtr x => rw [sfx, stem, List.foldl_append, rebuild x]; rfl
  | .int _ => rfl
  | .float => rfl
  | .double => rfl
  | .bool => rfl
  | .cint => rfl
  | .cchar => rfl
  | .void => rfl
  | .fptr _ _ => rfl
  | .alias _ _ _ => rfl
  | .adt _ _ => rfl

theorem toks_stem (b : Nat → Text) (ty : CTy) : toks b ty = toks b (stem ty) ++ (sfx ty).flatMap Sfx.toks := by
  match ty with
  | .array n x => rw [sfx, stem, toks, toks_stem b x]; simp [Sfx.toks]
  | .constPtr x => rw [sfx, stem, toks, toks_stem b x]; simp [Sfx.toks]
  | .mutPtr x => rw [sfx, stem, toks, toks_stem b x]; simp [Sfx.toks]
  | .int _ => exact (List.append_nil _).symm
  | .float => exact (List.append_nil _).symm
  | .double => exact (List.append_nil _).symm
  | .bool => exact (List.append_nil _).symm
  | .cint => exact (List.append_nil _).symm
  | .cchar => exact (List.append_nil _).symm
  | .void => exact (List.append_nil _).symm
  | .fptr _ _ => exact (List.append_nil _).symm
  | .alias _ _ _ => exact (List.append_nil _).symm
  | .adt _ _ => exact (List.append_nil _).symm

theorem flatOk_stem {E : Naming} {ty : CTy} (h : flatOk E ty) : stemOk E (stem ty) := by
  match ty, h with
  | .array n x, h => exact flatOk_stem (ty := x) h
  | .constPtr x, h => exact flatOk_stem (ty := x) h
  | .mutPtr x, h => exact flatOk_stem (ty := x) h
  | .int _, h => exact h
  | .float, h => exact h
  | .double, h => exact h
  | .bool, h => exact h
  | .cint, h => exact h
  | .cchar, h => exact h
  | .void, h => exact h
  | .fptr _ _, h => cases h
  | .alias _ _ _, h => exact h
  | .adt _ _, h => exact h

/-- The list does not start like a suffix. -/
def Stop (r : List Text) : Prop := ∀ w, r.head? = some w → w ≠ t!"ptr" ∧ w ≠ t!"const" ∧ ∀ c, w.head? = some c → c.isDigit = false

theorem stop_not_sfx (x : Sfx) (xs : List Sfx) {r s : List Text} (hs : Stop s) : (x :: xs).flatMap Sfx.toks ++ r ≠ s := by
  intro e
  have h := hs
  rw [← e] at h
  cases x with
  | arr n =>
    obtain ⟨c, cs, hc⟩ := List.exists_cons_of_ne_nil (nat_ne_nil n)
    have h1 := (h (nat n) rfl).2.2 c (by rw [hc]; rfl)
    rw [nat_digits n c (by rw [hc]; simp)] at h1
    cases h1
  | cptr => exact (h _ rfl).2.1 rfl
  | mptr => exact (h _ rfl).1 rfl

theorem nat_head (n : Nat) : ∃ c, (nat n).head? = some c ∧ c.isDigit = true := by
  obtain ⟨c, cs, hc⟩ := List.exists_cons_of_ne_nil (nat_ne_nil n)
  exact ⟨c, by rw [hc]; rfl, nat_digits n c (by rw [hc]; simp)⟩

theorem nat_inj {n m : Nat} (h : nat n = nat m) : n = m := by
  have : toString n = toString m := String.toList_inj.1 h
  exact toString_inj this

theorem nat_ne {n : Nat} {w : Text} (hw : ∀ c, w.head? = some c → c.isDigit = false) : nat n ≠ w := by
  intro e
  obtain ⟨c, h1, h2⟩ := nat_head n
  rw [e] at h1
  rw [hw c h1] at h2
  cases h2

theorem sfx_prefix (xs ys : List Sfx) {r s : List Text} (hr : Stop r) (hs : Stop s)
    (h : xs.flatMap Sfx.toks ++ r = ys.flatMap Sfx.toks ++ s) : xs = ys ∧ r = s := by
  induction xs generalizing ys with
  | nil =>
    cases ys with
    | nil => exact ⟨rfl, h⟩
    | cons y ys => exact absurd h.symm (stop_not_sfx y ys hr)
  | cons x xs ih =>
    cases ys with
    | nil => exact absurd h (stop_not_sfx x xs hs)
    | cons y ys =>
      rw [List.flatMap_cons, List.flatMap_cons, List.append_assoc, List.append_assoc] at h
      cases x with
      | arr n =>
        cases y with
        | arr m =>
          simp only [Sfx.toks, List.cons_append, List.nil_append, List.cons.injEq] at h
          obtain ⟨h1, h2⟩ := ih ys h.2.2
          exact ⟨by rw [nat_inj h.1, h1], h2⟩
        | cptr =>
          simp only [Sfx.toks, List.cons_append, List.cons.injEq] at h
          exact absurd h.1 (nat_ne (by simp))
        | mptr =>
          simp only [Sfx.toks, List.cons_append, List.cons.injEq] at h
          exact absurd h.1 (nat_ne (by simp))
      | cptr =>
        cases y with
        | arr m =>
          simp only [Sfx.toks, List.cons_append, List.cons.injEq] at h
          exact absurd h.1.symm (nat_ne (by simp))
        | cptr =>
          simp only [Sfx.toks, List.cons_append, List.nil_append, List.cons.injEq] at h
          obtain ⟨h1, h2⟩ := ih ys h.2.2
          exact ⟨by rw [h1], h2⟩
        | mptr =>
          simp only [Sfx.toks, List.cons_append] at h
          exact absurd (List.cons.inj h).1 (by decide)
      | mptr =>
        cases y with
        | arr m =>
          simp only [Sfx.toks, List.cons_append, List.cons.injEq] at h
          exact absurd h.1.symm (nat_ne (by simp))
        | cptr =>
          simp only [Sfx.toks, List.cons_append] at h
          exact absurd (List.cons.inj h).1 (by decide)
        | mptr =>
          simp only [Sfx.toks, List.cons_append, List.nil_append, List.cons.injEq] at h
          obtain ⟨h1, h2⟩ := ih ys h.2
          exact ⟨by rw [h1], h2⟩

/-! ### Whole types -/

theorem flat_prefix {E : Naming} (hE : E.Distinct) {x y : CTy} (hx : flatOk E x) (hy : flatOk E y) {r s : List Text}
    (hr : Stop r) (hs : Stop s) (h : toks E.b x ++ r = toks E.b y ++ s) : x = y ∧ r = s := by
  rw [toks_stem E.b x, toks_stem E.b y, List.append_assoc, List.append_assoc] at h
  obtain ⟨h1, h2⟩ := stem_prefix hE _ _ (flatOk_stem hx) (flatOk_stem hy) _ _ h
  obtain ⟨h3, h4⟩ := sfx_prefix _ _ hr hs h2
  exact ⟨by rw [← rebuild x, ← rebuild y, h1, h3], h4⟩

theorem flat_head {E : Naming} (hE : E.Distinct) {x : CTy} (hx : flatOk E x) : ∃ w ws, toks E.b x = w :: ws ∧ Starts w := by
  obtain ⟨w, ws, e, hw⟩ := stem_head hE (flatOk_stem hx)
  exact ⟨w, ws ++ (sfx x).flatMap Sfx.toks, by rw [toks_stem, e]; rfl, hw⟩

theorem stop_of_head {E : Naming} (hE : E.Distinct) {x : CTy} (hx : flatOk E x) (r : List Text) : Stop (toks E.b x ++ r) := by
  obtain ⟨w, ws, e, hw⟩ := flat_head hE hx
  intro w' h
  rw [e] at h
  simp at h
  subst h
  exact ⟨hw.1, hw.2.1, hw.2.2.2⟩

theorem stop_fptr (r : List Text) : Stop (t!"fptr" :: r) := by
  intro w h
  simp at h
  subst h
  exact ⟨by decide, by decide, by simp⟩

theorem stop_nil : Stop [] := nofun

theorem stop_flats {E : Naming} (hE : E.Distinct) {xs : List CTy} (hx : ∀ x ∈ xs, flatOk E x) (r : List Text) :
    Stop (tokss E.b xs ++ t!"fptr" :: r) := by
  cases xs with
  | nil => exact stop_fptr r
  | cons x xs => rw [tokss, List.append_assoc]; exact stop_of_head hE (hx x (by simp)) _

theorem flats_prefix {E : Naming} (hE : E.Distinct) (xs ys : List CTy) (hx : ∀ x ∈ xs, flatOk E x) (hy : ∀ y ∈ ys, flatOk E y)
    {r s : List Text} (h : tokss E.b xs ++ t!"fptr" :: r = tokss E.b ys ++ t!"fptr" :: s) : xs = ys ∧ r = s := by
  induction xs generalizing ys with
  | nil =>
    cases ys with
    | nil => exact ⟨rfl, (List.cons.inj h).2⟩
    | cons y ys =>
      obtain ⟨w, ws, e, hw⟩ := flat_head hE (hy y (by simp))
      rw [tokss, tokss, e] at h
      exact absurd (List.cons.inj h).1.symm hw.2.2.1
  | cons x xs ih =>
    cases ys with
    | nil =>
      obtain ⟨w, ws, e, hw⟩ := flat_head hE (hx x (by simp))
      rw [tokss, tokss, e] at h
      exact absurd (List.cons.inj h).1 hw.2.2.1
    | cons y ys =>
      rw [tokss, tokss, List.append_assoc, List.append_assoc] at h
      have hx' : ∀ z ∈ xs, flatOk E z := fun z hz => hx z (List.mem_cons_of_mem _ hz)
      have hy' : ∀ z ∈ ys, flatOk E z := fun z hz => hy z (List.mem_cons_of_mem _ hz)
      obtain ⟨h1, h2⟩ := flat_prefix hE (hx x (by simp)) (hy y (by simp)) (stop_flats hE hx' r) (stop_flats hE hy' s) h
      obtain ⟨h3, h4⟩ := ih ys hx' hy' h2
      exact ⟨by rw [h1, h3], h4⟩

/-- The inside of all arrays and pointers of a type with a decodable name. -/
theorem nameOk_stem {E : Naming} {ty : CTy} (h : nameOk E ty) :
    stemOk E (stem ty) ∨ ∃ ret args, stem ty = .fptr ret args ∧ flatOk E ret ∧ ∀ a ∈ args, flatOk E a := by
  match ty, h with
  | .array n x, h => exact nameOk_stem (ty := x) h
  | .constPtr x, h => exact nameOk_stem (ty := x) h
  | .mutPtr x, h => exact nameOk_stem (ty := x) h
  | .int _, h => exact .inl h
  | .float, h => exact .inl h
  | .double, h => exact .inl h
  | .bool, h => exact .inl h
  | .cint, h => exact .inl h
  | .cchar, h => exact .inl h
  | .void, h => exact .inl h
  | .fptr ret args, h => exact .inr ⟨ret, args, rfl, h⟩
  | .alias _ _ _, h => exact .inl h
  | .adt _ _, h => exact .inl h

theorem toks_inj {E : Naming} (hE : E.Distinct) {x y : CTy} (hx : nameOk E x) (hy : nameOk E y) (h : toks E.b x = toks E.b y) :
    x = y := by
  have fin : stem x = stem y → sfx x = sfx y → x = y := fun h1 h2 => by rw [← rebuild x, ← rebuild y, h1, h2]
  have mixed : ∀ {x ret args} {z : CTy}, stemOk E (stem x) → stem z = .fptr ret args → flatOk E ret → (∀ a ∈ args, flatOk E a) →
      toks E.b x = toks E.b z → False := by
    intro x ret args z h1 h2 h3 h4 h
    rw [toks_stem E.b x, toks_stem E.b z, h2, toks, toks_stem E.b ret] at h
    have e : toks E.b (stem ret) ++ (sfx ret).flatMap Sfx.toks ++ tokss E.b args ++ [t!"fptr"] ++ (sfx z).flatMap Sfx.toks =
        toks E.b (stem ret) ++ ((sfx ret).flatMap Sfx.toks ++ (tokss E.b args ++ t!"fptr" :: (sfx z).flatMap Sfx.toks)) := by simp
    rw [e] at h
    obtain ⟨_, h6⟩ := stem_prefix hE _ _ h1 (flatOk_stem h3) _ _ h
    have h7 : (sfx x).flatMap Sfx.toks ++ [] = (sfx ret).flatMap Sfx.toks ++ (tokss E.b args ++ t!"fptr" :: (sfx z).flatMap Sfx.toks) := by
      rw [List.append_nil]; exact h6
    have h8 := (sfx_prefix _ _ stop_nil (stop_flats hE h4 _) h7).2
    simp at h8
  rcases nameOk_stem hx with h1 | ⟨ret, args, h1, h2, h3⟩ <;> rcases nameOk_stem hy with g1 | ⟨ret', args', g1, g2, g3⟩
  · rw [toks_stem E.b x, toks_stem E.b y] at h
    obtain ⟨h5, h6⟩ := stem_prefix hE _ _ h1 g1 _ _ h
    have h7 : (sfx x).flatMap Sfx.toks ++ [] = (sfx y).flatMap Sfx.toks ++ [] := by rw [h6]
    exact fin h5 (sfx_prefix _ _ stop_nil stop_nil h7).1
  · exact (mixed h1 g1 g2 g3 h).elim
  · exact (mixed g1 h1 h2 h3 h.symm).elim
  · rw [toks_stem E.b x, toks_stem E.b y, h1, g1, toks, toks] at h
    have h' : toks E.b ret ++ (tokss E.b args ++ t!"fptr" :: (sfx x).flatMap Sfx.toks) =
        toks E.b ret' ++ (tokss E.b args' ++ t!"fptr" :: (sfx y).flatMap Sfx.toks) := by simpa using h
    obtain ⟨h5, h6⟩ := flat_prefix hE h2 g2 (stop_flats hE h3 _) (stop_flats hE g3 _) h'
    obtain ⟨h7, h8⟩ := flats_prefix hE _ _ h3 g3 h6
    have h9 : (sfx x).flatMap Sfx.toks ++ [] = (sfx y).flatMap Sfx.toks ++ [] := by rw [h8]
    exact fin (by rw [h1, g1, h5, h7]) (sfx_prefix _ _ stop_nil stop_nil h9).1

/-! ### No underscores -/

mutual
theorem stem_noUnder {E : Naming} (hE : E.Distinct) (ty : CTy) (h : stemOk E ty) : noUnder E.b ty := by
  match ty, h with
  | .alias r d i, h => exact (hE.aliases r (by rw [show E.alias r = some (d, i) from h]; rfl)).2.1
  | .adt i gs, h => exact ⟨(hE.base i).2.1, stems_noUnder hE gs h.2⟩
  | .int _, _ => trivial
  | .float, _ => trivial
  | .double, _ => trivial
  | .bool, _ => trivial
  | .cint, _ => trivial
  | .cchar, _ => trivial
  | .void, _ => trivial
theorem stems_noUnder {E : Naming} (hE : E.Distinct) (tys : List CTy) (h : stemsOk E tys) : noUnders E.b tys := by
  match tys, h with
  | [], _ => trivial
  | x :: xs, h => exact ⟨stem_noUnder hE x h.1, stems_noUnder hE xs h.2⟩
end

theorem flat_noUnder {E : Naming} (hE : E.Distinct) (ty : CTy) (h : flatOk E ty) : noUnder E.b ty := by
  match ty, h with
  | .array n x, h => exact flat_noUnder hE x h
  | .constPtr x, h => exact flat_noUnder hE x h
  | .mutPtr x, h => exact flat_noUnder hE x h
  | .alias r d i, h => exact stem_noUnder hE (.alias r d i) h
  | .adt i gs, h => exact stem_noUnder hE (.adt i gs) h
  | .int _, _ => trivial
  | .float, _ => trivial
  | .double, _ => trivial
  | .bool, _ => trivial
  | .cint, _ => trivial
  | .cchar, _ => trivial
  | .void, _ => trivial

theorem flats_noUnder {E : Naming} (hE : E.Distinct) (tys : List CTy) (h : ∀ x ∈ tys, flatOk E x) : noUnders E.b tys := by
  induction tys with
  | nil => trivial
  | cons x xs ih => exact ⟨flat_noUnder hE x (h x (by simp)), ih fun z hz => h z (List.mem_cons_of_mem _ hz)⟩

theorem name_noUnder {E : Naming} (hE : E.Distinct) (ty : CTy) (h : nameOk E ty) : noUnder E.b ty := by
  match ty, h with
  | .array n x, h => exact name_noUnder hE x h
  | .constPtr x, h => exact name_noUnder hE x h
  | .mutPtr x, h => exact name_noUnder hE x h
  | .fptr ret args, h => exact ⟨flat_noUnder hE ret h.1, flats_noUnder hE args h.2⟩
  | .alias r d i, h => exact stem_noUnder hE (.alias r d i) h
  | .adt i gs, h => exact stem_noUnder hE (.adt i gs) h
  | .int _, _ => trivial
  | .float, _ => trivial
  | .double, _ => trivial
  | .bool, _ => trivial
  | .cint, _ => trivial
  | .cchar, _ => trivial
  | .void, _ => trivial

end Verif.Headers
