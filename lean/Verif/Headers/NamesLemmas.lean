import Verif.Headers.NamesItems
import Verif.Headers.NamesSpec
/-! # Identifiers, macros, enum constants and tags of a C header -/
namespace Verif.Headers
open Text

theorem upper_self {c : Char} (h : isAsciiUpper c = true) : toAsciiUpper c = c := by
  have h1 := (Verif.Names.upper_iff c).1 h
  exact Verif.Names.upper_of_not_lower (by rw [Verif.Names.lower_iff]; omega)

theorem constName_screaming (s v : Text) : constName s v = screaming (s ++ v) := by
  rw [constName, Verif.Names.screamingCase]
  cases s ++ v with
  | nil => rfl
  | cons c cs =>
    simp only [screaming, Verif.Names.screamChar, Bool.not_true, Bool.false_and, Bool.false_eq_true, if_false, List.nil_append, List.cons_append]
    congr 1
    apply congrArg (List.flatMap · cs)
    funext d
    by_cases h : isAsciiUpper d = true
    · simp [Verif.Names.screamChar, h, upper_self h]
    · simp [Verif.Names.screamChar, h]

/-! ### The preprocessor with macros -/

theorem trim_hash {l r : Text} (h : l.dropWhile blank = '#' :: r) : ∃ r', trim l = '#' :: r' := by
  have h1 : trimStart l = '#' :: r := by
    rw [trimStart]
    induction l with
    | nil => cases h
    | cons c l ih =>
      rw [List.dropWhile_cons] at h ⊢
      by_cases hb : blank c = true
      · have hw : isWs c = true := by
          rw [blank] at hb
          rcases Bool.or_eq_true_iff.1 hb with e | e <;> rw [eq_of_beq e] <;> decide
        rw [if_pos hb] at h
        rw [if_pos hw]
        exact ih h
      · rw [if_neg hb] at h
        injection h with e1 e2
        rw [e1, if_neg (by decide), e2]
  rw [trim, h1]
  exact ⟨_, trimEnd_nonws [] r (c := '#') (by decide)⟩

theorem directive_trim {l : Text} {kr : Text × Text} (h : directive l = some kr) : (directive (trim l)).isSome = true := by
  rw [directive] at h
  split at h
  · next r e =>
    obtain ⟨r', e'⟩ := trim_hash e
    rw [e']; rfl
  · cases h

theorem tokens_snoc (o : List Text) (l : Text) : tokens (o ++ [l]) = tokens o ++ if (directive l).isNone then lex l else [] := by
  rw [tokens_append]
  congr 1
  rw [tokens, List.filter_cons]
  split <;> simp

theorem keep_plain {st : Pp} {l : Text} (h : '#' ∉ l) :
    tokens (st.keep l).out = tokens st.out ++ if st.active then lex l else [] := by
  rw [Pp.keep]
  by_cases ha : st.active = true
  · rw [ha, Bool.true_and, if_pos rfl]
    by_cases he : (trim l).isEmpty = true
    · rw [he, ← lex_trim l, List.isEmpty_iff.1 he]; simp [lex_nil]
    · simp only [he, Bool.not_false, if_true]
      rw [tokens_snoc, directive_none fun hm => h (mem_trim hm), lex_trim]; rfl
  · simp [ha]

theorem keep_directive {st : Pp} {l : Text} {kr : Text × Text} (h : directive l = some kr) : tokens (st.keep l).out = tokens st.out := by
  rw [Pp.keep]
  split
  · show tokens (st.out ++ [trim l]) = _
    obtain ⟨kr', e⟩ := Option.isSome_iff_exists.1 (directive_trim h)
    rw [tokens_snoc, e]; simp
  · rfl

theorem keep_prefix (st : Pp) (l : Text) : st.out <+: (st.keep l).out := by
  rw [Pp.keep]
  split
  · exact List.prefix_append _ _
  · exact List.prefix_refl _

theorem step_prefix {eval : List Text → Text → Bool} {st st' : Pp} {l : Text} (h : st.step eval l = some st') : st.out <+: st'.out := by
  have key : ∀ {x : Pp}, some x = some st' → st.out <+: x.out → st.out <+: st'.out := fun e hp => Option.some.inj e ▸ hp
  rw [Pp.step] at h
  split at h
  · exact key h (keep_prefix _ _)
  · repeat' split at h
    all_goals first
      | cases h; done
      | exact key h (List.prefix_refl _)
      | exact key h (keep_prefix _ _)
      | skip
    all_goals exact key h (by split <;> exact List.prefix_refl _)

theorem step_directive {eval : List Text → Text → Bool} {st st' : Pp} {l : Text} {kr : Text × Text} (hd : directive l = some kr)
    (h : st.step eval l = some st') : tokens st'.out = tokens st.out := by
  have key : ∀ {x : Pp}, some x = some st' → tokens x.out = tokens st.out → tokens st'.out = tokens st.out := fun e hp => Option.some.inj e ▸ hp
  rw [Pp.step, hd] at h
  simp only at h
  repeat' split at h
  all_goals first
    | cases h; done
    | exact key h rfl
    | exact key h (keep_directive hd)
    | skip
  all_goals exact key h (by split <;> rfl)

theorem run_prefix {eval : List Text → Text → Bool} {ls : List Text} {st st' : Pp} (h : st.run eval ls = some st') : st.out <+: st'.out := by
  induction ls generalizing st with
  | nil => rw [Pp.run] at h; cases h; exact List.prefix_refl _
  | cons l ls ih =>
    rw [Pp.run] at h
    cases hs : st.step eval l with
    | none => rw [hs] at h; cases h
    | some st1 =>
      rw [hs, Option.bind_some] at h
      exact (step_prefix hs).trans (ih h)

/-- Every identifier meets the predicate. -/
def Ids (Q : Text → Prop) (ts : List Tok) : Prop := ∀ w, .id w ∈ ts → Q w

theorem lookup_none {ms : Macros} {w : Text} (h : ∀ m ∈ ms, m.1 ≠ w) : ms.lookup w = none := by
  induction ms with
  | nil => rfl
  | cons m ms ih =>
    obtain ⟨n, r⟩ := m
    have hne : n ≠ w := h (n, r) (by simp)
    rw [List.lookup_cons, beq_false_of_ne hne.symm]
    exact ih fun m hm => h m (by simp [hm])

theorem expand_apart {U : Text → Prop} {ms : Macros} (hm : ∀ m ∈ ms, U m.1) {ts : List Tok} (h : Ids (¬ U ·) ts) :
    ts.flatMap (expand ms) = ts := by
  induction ts with
  | nil => rfl
  | cons t ts ih =>
    rw [List.flatMap_cons, ih fun w hw => h w (by simp [hw])]
    have : expand ms t = [t] := by
      cases t with
      | id w => rw [expand, lookup_none fun m hm' (e : m.1 = w) => h w (by simp) (e ▸ hm m hm')]; rfl
      | _ => rfl
    rw [this]; rfl

/-- If no identifier is a macro, nothing is replaced. -/
theorem run_expand {U : Text → Prop} {eval : List Text → Text → Bool} {ls : List Text} (hl : ∀ l ∈ ls, LineOk U l) {pp pp' : Pp} {ms : Macros}
    (hm : ∀ m ∈ ms, U m.1) (h : pp.run eval ls = some pp') (hi : Ids (¬ U ·) (tokens pp'.out)) :
    ∃ ms', (Ppx.mk pp ms (tokens pp.out)).run eval ls = some ⟨pp', ms', tokens pp'.out⟩ := by
  induction ls generalizing pp ms with
  | nil => rw [Pp.run] at h; cases h; exact ⟨ms, rfl⟩
  | cons l ls ih =>
    rw [Pp.run] at h
    cases hs : pp.step eval l with
    | none => rw [hs] at h; cases h
    | some pp1 =>
      rw [hs, Option.bind_some] at h
      have ih := fun ms hm => ih (fun l hl' => hl l (by simp [hl'])) (ms := ms) hm h
      have hok := hl l (by simp)
      suffices hstep : ∃ ms1, (∀ m ∈ ms1, U m.1) ∧ (Ppx.mk pp ms (tokens pp.out)).step eval l = some ⟨pp1, ms1, tokens pp1.out⟩ by
        obtain ⟨ms1, h1, h2⟩ := hstep
        obtain ⟨ms', h3⟩ := ih ms1 h1
        exact ⟨ms', by rw [Ppx.run, h2, Option.bind_some, h3]⟩
      rw [Ppx.step, hs]
      rw [LineOk] at hok
      cases hd : directive l with
      | none =>
        rw [hd] at hok
        refine ⟨ms, hm, ?_⟩
        have e1 : pp1 = pp.keep l := by rw [Pp.step, hd] at hs; exact (Option.some.inj hs).symm
        have e2 := keep_plain (st := pp) hok
        simp only [Option.map_some]
        rw [e1, e2]
        cases ha : pp.active with
        | false => rfl
        | true =>
          simp only [if_true]
          rw [expand_apart hm]
          intro w hw
          refine hi w ?_
          obtain ⟨rest, e⟩ := run_prefix h
          rw [← e, tokens_append, e1, e2, ha]
          simp [hw]
      | some kr =>
        rw [hd] at hok
        have ht := step_directive hd hs
        obtain ⟨k, r⟩ := kr
        simp only [Option.map_some]
        rw [ht]
        cases ha : pp.active with
        | false => exact ⟨ms, hm, rfl⟩
        | true =>
          simp only [Bool.not_true, Bool.false_eq_true, if_false]
          by_cases hk : k = t!"define"
          · refine ⟨(ident r, lex (r.dropWhile isWordChar)) :: ms, ?_, by rw [if_pos hk]⟩
            intro m hmem
            rcases List.mem_cons.1 hmem with rfl | hmem
            · exact hok hk
            · exact hm m hmem
          · by_cases hk' : k = t!"undef"
            · refine ⟨ms.filter (·.1 ≠ ident r), fun m hmem => hm m (List.mem_filter.1 hmem).1, ?_⟩
              rw [if_neg hk, if_pos hk']
            · exact ⟨ms, hm, by rw [if_neg hk, if_neg hk']⟩

/-! ### Identifiers of declarations -/

section
variable {Q : Text → Prop}

theorem Ids.nil : Ids Q [] := nofun
theorem Ids.empty : Ids Q (lex []) := by rw [lex_nil]; exact .nil
theorem Ids.append {a b : List Tok} (ha : Ids Q a) (hb : Ids Q b) : Ids Q (a ++ b) := fun w hw => (List.mem_append.1 hw).elim (ha w) (hb w)
theorem Ids.word {n : Text} {ts : List Tok} (hn : Q n) (h : Ids Q ts) : Ids Q (.id n :: ts) := fun w hw => by
  rcases List.mem_cons.1 hw with e | hw
  · injection e with e; rw [e]; exact hn
  · exact h w hw
theorem Ids.skip {t : Tok} {ts : List Tok} (ht : ∀ w, t ≠ .id w) (h : Ids Q ts) : Ids Q (t :: ts) := fun w hw => by
  rcases List.mem_cons.1 hw with e | hw
  · exact absurd e.symm (ht w)
  · exact h w hw
theorem Ids.flatMap {α : Type} {f : α → List Tok} {l : List α} (h : ∀ a ∈ l, Ids Q (f a)) : Ids Q (l.flatMap f) := fun w hw => by
  obtain ⟨a, ha, hw⟩ := List.mem_flatMap.1 hw
  exact h a ha w hw
theorem Ids.mono {R : Text → Prop} {ts : List Tok} (h : Ids Q ts) (hr : ∀ w, Q w → R w) : Ids R ts := fun w hw => hr w (h w hw)

/-- The words of C that types can consist of. -/
def typeWords : List Text := kconst :: kvoid :: t!"ssize_t" :: stdTypes

variable {P : Prog} {es : List Export}

theorem ids_named (h : ∀ t, Reach P es t → hasDef t = true → Q (cName P.base t)) (hd : Declarable P es) {ty : CTy} (hr : Reach P es ty)
    (hn : hasDef ty = true) {v : Text} (hv : Ids Q (lex v)) : Ids Q (lex (cName P.base ty ++ sep v ++ v)) := by
  rw [lex_word_sep (cName_named_abi hn (hd.types ty hr).1).1]
  exact .word (h ty hr hn) hv

theorem ids_join {b : Nat → Text} (x : CTy) (xs : List CTy) (h : ∀ t ∈ x :: xs, Ids Q (lex (cVar b t []))) :
    Ids Q (lex (cVar b x [] ++ cArgsTail b xs)) := by
  induction xs generalizing x with
  | nil => rw [show cArgsTail b [] = [] from rfl, List.append_nil]; exact h x (by simp)
  | cons y ys ih =>
    have e : cVar b x [] ++ cArgsTail b (y :: ys) = cVar b x [] ++ (t!", " ++ (cVar b y [] ++ cArgsTail b ys)) := by
      rw [cArgsTail]; simp
    rw [e, lex_commaSp]
    exact (h x (by simp)).append (.skip nofun (ih y fun t ht => h t (by simp at ht ⊢; exact .inr ht)))

theorem ids_cArgs {b : Nat → Text} (hv : Q kvoid) (args : List CTy) (h : ∀ t ∈ args, Ids Q (lex (cVar b t []))) : Ids Q (lex (cArgs b args)) := by
  cases args with
  | nil => exact .word (n := kvoid) hv .nil
  | cons x xs => rw [cArgs_cons]; exact ids_join x xs h

mutual
theorem ids_cVar (hb : ∀ n ∈ typeWords, Q n) (h : ∀ t, Reach P es t → hasDef t = true → Q (cName P.base t)) (hd : Declarable P es)
    (ty : CTy) (hr : Reach P es ty) {v : Text} (hv : Ids Q (lex v)) : Ids Q (lex (cVar P.base ty v)) := by
  match ty, hr with
  | .int k, _ =>
    rw [cVar_int, lex_word_sep (by cases k <;> decide)]
    exact .word (hb _ (by cases k <;> decide)) hv
  | .float, _ => rw [cVar_float, lex_word_sep (by decide)]; exact .word (hb _ (by decide)) hv
  | .double, _ => rw [cVar_double, lex_word_sep (by decide)]; exact .word (hb _ (by decide)) hv
  | .bool, _ => rw [cVar_bool, lex_word_sep (by decide)]; exact .word (hb _ (by decide)) hv
  | .cint, _ => rw [cVar_cint, lex_word_sep (by decide)]; exact .word (hb _ (by decide)) hv
  | .cchar, _ => rw [cVar_cchar, lex_word_sep (by decide)]; exact .word (hb _ (by decide)) hv
  | .void, _ => rw [cVar_void, lex_word_sep (by decide)]; exact .word (hb _ (by decide)) hv
  | .array n item, hr =>
    have := ids_named h hd hr rfl hv
    rw [cName_array] at this
    rw [cVar_array]; exact this
  | .fptr ret args, hr =>
    rw [cVar_fptr, lex_fptr]
    refine (ids_cVar hb h hd ret hr.ret (v := []) Ids.empty).append (.skip nofun (.skip nofun (hv.append (.skip nofun (.skip nofun (.append ?_ (.skip nofun .nil)))))))
    exact ids_cArgs (hb _ (by decide)) args (ids_all hb h hd args fun t ht => hr.arg ht)
  | .constPtr to, hr =>
    rw [cVar_constPtr, lex_constPtr]
    exact ((ids_cVar hb h hd to hr.constPtr (v := []) Ids.empty).append (.word (hb _ (by decide)) (.skip (t := .star) nofun .nil))).append hv
  | .mutPtr to, hr =>
    rw [cVar_mutPtr, lex_mutPtr]
    exact ((ids_cVar hb h hd to hr.mutPtr (v := []) Ids.empty).append (.skip (t := .star) nofun .nil)).append hv
  | .alias rn docs inner, hr =>
    have := ids_named h hd hr rfl hv
    rw [cName_alias] at this
    rw [cVar_alias]; exact this
  | .adt i g, hr =>
    have := ids_named h hd hr rfl hv
    rw [cName_adt] at this
    rw [cVar_adt]; exact this
theorem ids_all (hb : ∀ n ∈ typeWords, Q n) (h : ∀ t, Reach P es t → hasDef t = true → Q (cName P.base t)) (hd : Declarable P es)
    (args : List CTy) (hr : ∀ t ∈ args, Reach P es t) : ∀ t ∈ args, Ids Q (lex (cVar P.base t [])) := by
  match args, hr with
  | [], _ => exact nofun
  | x :: xs, hr =>
    intro t ht
    have h1 := ids_cVar hb h hd x (hr x (by simp)) (v := []) Ids.empty
    have h2 := ids_all hb h hd xs fun t ht => hr t (by simp [ht])
    rcases List.mem_cons.1 ht with rfl | ht
    · exact h1
    · exact h2 t ht
end

theorem ids_args (hb : ∀ n ∈ typeWords, Q n) (h : ∀ t, Reach P es t → hasDef t = true → Q (cName P.base t)) (hd : Declarable P es)
    (args : List Arg) (ha : ∀ a ∈ args, Reach P es a.ty ∧ IsWord a.name ∧ Q a.name) : Ids Q (lex (sigArgs P.base .c true args)) := by
  have key : ∀ a ∈ args, Ids Q (lex (var P.base .c a.ty a.name)) := fun a hm =>
    ids_cVar hb h hd a.ty (ha a hm).1 (by rw [lex_word (ha a hm).2.1]; exact .word (ha a hm).2.2 .nil)
  cases args with
  | nil => exact .word (n := kvoid) (hb _ (by decide)) .nil
  | cons a as =>
    have e : sigArgs P.base .c true (a :: as) = nl ++ indent 1 ++ (var P.base .c a.ty a.name ++ sigArgs P.base .c false as) := by
      rw [sigArgs_cons]; simp
    rw [e, lex_nl_indent, lex_sigTail]
    exact (key a (by simp)).append (.flatMap fun a' ha' => .skip nofun (key a' (by simp [ha'])))

theorem ids_sig (hb : ∀ n ∈ typeWords, Q n) (h : ∀ t, Reach P es t → hasDef t = true → Q (cName P.base t)) (hd : Declarable P es) {f : Fn}
    (hf : .fn f ∈ es) (hn : Q f.name) (ha : ∀ a ∈ f.args, Q a.name) : Ids Q (lex (cVar P.base f.ret (sig P.base .c f.name f.args))) := by
  have hx := hd.exports _ hf
  have hr : ∀ a ∈ f.args, Reach P es a.ty := fun a ha => .export hf (by rw [Export.types]; simp; exact .inl ⟨a, ha, rfl⟩)
  refine ids_cVar hb h hd f.ret (.export hf (by rw [Export.types]; simp)) ?_
  rw [lex_sig P.base .c hx.2.1 f.args]
  exact (Ids.word hn (.skip (t := .lp) nofun (ids_args hb h hd f.args fun a hm => ⟨hr a hm, (hx.2.2.2 a hm).1, ha a hm⟩))).append (.skip (t := .rp) nofun .nil)

end

/-! ### Numbers -/

theorem numeric_nat (n : Nat) : numeric (nat n) = true := by
  have h := Verif.Names.digits_of_toString n
  have hne : nat n ≠ [] := by
    simp only [nat, toString]
    rw [Nat.toList_repr]
    intro e
    have := Nat.length_toDigits_pos (b := 10) (n := n)
    rw [e] at this
    simp at this
  obtain ⟨c, cs, e⟩ := List.exists_cons_of_ne_nil hne
  have := h c (by show c ∈ nat n; rw [e]; simp)
  rw [numeric, e]
  simpa using this

/-- The words that enums and structs begin with. -/
def Calm (w : Text) : Prop := w ≠ kstruct ∧ w ≠ kenum

theorem calm_reserved {w : Text} (h : w ∉ cReserved) : Calm w :=
  ⟨fun e => h (by rw [e]; decide), fun e => h (by rw [e]; decide)⟩

theorem calm_numeric {w : Text} (h : numeric w = true) : Calm w :=
  ⟨fun e => by rw [e] at h; exact absurd h (by decide), fun e => by rw [e] at h; exact absurd h (by decide)⟩

theorem calm_type {b : Nat → Text} {t : CTy} (h : hasDef t = true) : Calm (cName b t) := by
  cases t with
  | array n item => rw [cName_array]; exact ⟨(t_ne_words _).2.2, (t_ne_words _).2.1⟩
  | alias r d inner => rw [cName_alias]; exact ⟨(t_ne_words _).2.2, (t_ne_words _).2.1⟩
  | adt i g => rw [cName_adt]; exact ⟨(t_ne_words _).2.2, (t_ne_words _).2.1⟩
  | _ => cases h

theorem calm_typeWords : ∀ n ∈ typeWords, Calm n := by
  intro n hn
  constructor
  · rintro rfl; exact absurd hn (by decide)
  · rintro rfl; exact absurd hn (by decide)

/-! ### Enum constants -/

theorem lex_enumLine {c : Text} (hc : IsWord c) (d : Option Text) :
    lex (enumLine c d) = .id c :: ((match d with | none => [] | some d => .bad '=' :: lex d) ++ [.comma]) := by
  cases d with
  | none =>
    have e : enumLine c none = c ++ ',' :: [] := rfl
    rw [e, lex_comma, lex_word hc, lex_nil]; rfl
  | some d =>
    have e : enumLine c (some d) = c ++ ' ' :: ([] ++ '=' :: ([] ++ ' ' :: (d ++ ',' :: []))) := by simp [enumLine]
    rw [e, lex_blank, lex_sep _ _ (c := '=') (by decide), lex_blank, lex_comma, lex_word hc, lex_nil]
    rfl

theorem lex_no_comma {s : Text} (h : ',' ∉ s) : Tok.comma ∉ lex s := by
  have key : ∀ (s cur : Text), ',' ∉ s → Tok.comma ∉ lexFrom cur s := by
    intro s
    induction s with
    | nil => intro cur _; rw [lexFrom, word]; split <;> simp
    | cons c s ih =>
      intro cur h
      have h1 : c ≠ ',' := fun e => h (by simp [e])
      have h2 : ',' ∉ s := fun hm => h (by simp [hm])
      rw [lexFrom]
      split
      · exact ih _ h2
      · have hp : Tok.comma ∉ punct c := by
          rw [punct]
          repeat' split
          all_goals simp_all
        have hw : Tok.comma ∉ word cur := by rw [word]; split <;> simp
        simp only [List.mem_append, not_or]
        exact ⟨hw, hp, ih _ h2⟩
  exact key s [] h

theorem enumNames_skip {ts : List Tok} (h : Ids (· ≠ kenum) ts) (r : List Tok) : enumNames .outside (ts ++ r) = enumNames .outside r := by
  induction ts with
  | nil => rfl
  | cons t ts ih =>
    have ih := ih fun w hw => h w (by simp [hw])
    rw [List.cons_append]
    cases t with
    | id w => rw [enumNames, if_neg (h w (by simp)), ih]
    | _ => rw [← ih]; rfl

theorem enumNames_value {ts : List Tok} (h1 : Tok.comma ∉ ts) (h2 : Tok.bad '}' ∉ ts) (r : List Tok) :
    enumNames .value (ts ++ r) = enumNames .value r := by
  induction ts with
  | nil => rfl
  | cons t ts ih =>
    have ih := ih (fun hm => h1 (by simp [hm])) fun hm => h2 (by simp [hm])
    rw [List.cons_append, ← ih]
    have e1 : t ≠ .comma := fun e => h1 (by simp [e])
    have e2 : t ≠ .bad '}' := fun e => h2 (by simp [e])
    rw [enumNames.eq_def]
    split <;> simp_all

theorem enumNames_line {c : Text} (hc : IsWord c) {d : Option Text} (hd : ∀ x, d = some x → ',' ∉ x ∧ '}' ∉ x) (r : List Tok) :
    enumNames .constant (lex (enumLine c d) ++ r) = (enumNames .constant r).map (c :: ·) := by
  rw [lex_enumLine hc, List.cons_append, enumNames, List.append_assoc]
  congr 1
  cases d with
  | none => rfl
  | some x =>
    obtain ⟨h1, h2⟩ := hd x rfl
    rw [enumNames_value]
    · rfl
    · simp [lex_no_comma h1]
    · simp [lex_no_brace h2]

theorem enumNames_head (s : Text) (int : Option IntTy) (r : List Tok) : enumNames .outside (enumHead s int ++ r) = enumNames .constant r := by
  cases int <;> rfl

theorem enumNames_tail {n : Text} (hn : n ≠ kenum) (int : Option IntTy) (r : List Tok) :
    enumNames .constant (enumTail n int ++ r) = enumNames .outside r := by
  have h : ∀ ts, Ids (· ≠ kenum) ts → enumNames .constant (.bad '}' :: ts ++ r) = enumNames .outside r := fun ts hts => by
    rw [List.cons_append]; exact enumNames_skip hts r
  cases int with
  | none => exact h [.id n, .semi] (.word hn (.skip nofun .nil))
  | some k =>
    exact h [.semi, .id ktypedef, .id (cInt k), .id n, .semi]
      (.skip nofun (.word (by decide) (.word (by cases k <;> decide) (.word hn (.skip nofun .nil)))))

/-! ### Tags -/

theorem tagNames_skip {ts : List Tok} (h : Ids Calm ts) (r : List Tok) : tagNames false (ts ++ r) = tagNames false r := by
  induction ts with
  | nil => rfl
  | cons t ts ih =>
    have ih := ih fun w hw => h w (by simp [hw])
    rw [List.cons_append]
    cases t with
    | id w =>
      have hw := h w (by simp)
      rw [tagNames, ih.symm, decide_eq_false (not_or.2 hw)]
    | _ => rw [← ih]; rfl

/-! ### Items -/

/-- The enum constants of an item. -/
def constsOf (P : Prog) : Item → List Text
  | .type _ (.adt i g) =>
      match P.decl i g with
      | .enum _ _ vs => variantNames P i g vs
      | _ => []
  | _ => []

/-- The tags of an item. -/
def tagsOf (P : Prog) : Item → List Text
  | .type _ (.adt i g) => [short P.base (.adt i g)]
  | _ => []

section
variable {P : Prog} {es : List Export} {d : List Text}

theorem kept_mem {fs : List Field} {f : Field} (h : f ∈ kept fs) : f ∈ fs ∧ f.size ≠ 0 := by
  simpa [kept] using h

theorem ids_idx {Q : Text → Prop} (h1 : Q t!"idx") (h2 : ∀ w, numeric w = true → Q w) (n : Nat) : Ids Q (lex (t!"idx[" ++ nat n ++ t!"]")) := by
  rw [lex_idx]
  exact .word h1 (.skip nofun (.word (h2 _ (numeric_nat n)) (.skip nofun .nil)))

theorem ids_line {Q : Text → Prop} {c : Text} (hw : IsWord c) (hc : Q c) {v : Option Text} (hv : ∀ x, v = some x → Ids Q (lex x)) :
    Ids Q (lex (enumLine c v)) := by
  rw [lex_enumLine hw]
  refine .word hc (.append ?_ (.skip nofun .nil))
  cases v with
  | none => exact .nil
  | some x => exact .skip nofun (hv x rfl)

/-- The names that come up in an item are those of the program. -/
theorem ids_item (hd : Declarable P es) (ha : Apart P es) {it : Item} (h : Fits P es d it) : Ids (Used P es) (itemToks P it) := by
  have hb : ∀ n ∈ typeWords, Used P es n := by
    intro n hn
    simp only [typeWords, List.mem_cons] at hn
    rcases hn with rfl | rfl | rfl | hn
    · exact .c (by decide)
    · exact .c (by decide)
    · exact .c (by decide)
    · exact .std hn
  have ht : ∀ t, Reach P es t → hasDef t = true → Used P es (cName P.base t) := fun _ hr hn => .type hr hn
  have h1 : Used P es ktypedef := .c (by decide)
  have h2 : Used P es kstruct := .c (by decide)
  have h3 : Used P es kenum := .c (by decide)
  cases it with
  | type lang t =>
    obtain ⟨_, hn, hr, _⟩ := h
    have hfine := (hd.types t hr).2.2
    cases t with
    | adt i g =>
      have hw := (hd.types _ hr).1
      change DeclFine (P.decl i g) at hfine
      have hname := ht _ hr hn
      have htag : Used P es (short P.base (.adt i g)) := .tag hr
      rw [itemToks]
      cases hdecl : P.decl i g with
      | struct docs size fs =>
        rw [hdecl] at hfine
        refine ((Ids.word h1 (.word h2 (.word htag (.skip (t := .bad '{') nofun .nil)))).append (.flatMap fun f hf => ?_)).append
          (.skip (t := .bad '}') nofun (.word hname (.skip (t := .semi) nofun .nil)))
        have hf := (kept_mem hf).1
        refine (ids_cVar hb ht hd f.ty (hr.field hdecl hf) ?_).append (.skip nofun .nil)
        rw [lex_word (hfine.2 f hf).2.1]
        exact .word (.field hr hdecl hf) .nil
      | enum docs int vs =>
        rw [hdecl] at hfine
        refine Ids.append (.append ?_ (.flatMap fun v hv => ?_)) ?_
        · cases int with
          | none => exact .word h1 (.word h3 (.word htag (.skip nofun .nil)))
          | some k => exact .word h3 (.word htag (.skip nofun .nil))
        · refine ids_line (constName_word (short_word _ _ hw) (hfine.2 v hv).2.1) (.constant hr hdecl (List.mem_map.2 ⟨v, hv, (constName_screaming _ _).symm⟩)) fun x hx => ?_
          exact fun w hw => .number ((ha.discs i g docs int vs v x hr hdecl hv hx).2 w hw)
        · cases int with
          | none => exact .skip nofun (.word hname (.skip nofun .nil))
          | some k => exact .skip nofun (.skip nofun (.word h1 (.word (hb _ (by cases k <;> decide)) (.word hname (.skip nofun .nil)))))
      | «opaque» docs => exact .word h1 (.word h2 (.word htag (.word hname (.skip nofun .nil))))
    | array n item =>
      exact ((Ids.word h1 (.word h2 (.skip (t := .bad '{') nofun .nil))).append (ids_cVar hb ht hd item hr.item (ids_idx (.c (by decide)) (fun _ h => .number h) n))).append
        (.skip (t := .semi) nofun (.skip (t := .bad '}') nofun (.word (ht _ hr hn) (.skip (t := .semi) nofun .nil))))
    | alias rn docs inner =>
      exact ((Ids.word h1 .nil).append (ids_cVar hb ht hd inner hr.inner Ids.empty)).append (.word (ht _ hr hn) (.skip nofun .nil))
    | _ => cases hn
  | func lang f =>
    exact (ids_sig hb ht hd h.2 (.fn h.2) fun a ha => .arg h.2 ha).append (.skip nofun .nil)
  | text s => exact h.elim
  | _ => exact .nil

/-- Outside of enums, nothing looks like an enum or a struct. -/
theorem fn_calm (hd : Declarable P es) (hs : Solid P es) {f : Fn} (hf : .fn f ∈ es) :
    Ids Calm (lex (cVar P.base f.ret (sig P.base .c f.name f.args)) ++ [.semi]) := by
  obtain ⟨h1, _, _, h2⟩ := hs.fns f hf
  exact (ids_sig calm_typeWords (fun _ _ hn => calm_type hn) hd hf (calm_reserved h1) fun a ha => calm_reserved (h2 a ha).2).append (.skip nofun .nil)

theorem fields_calm (hd : Declarable P es) (hs : Solid P es) {i : Nat} {g : List CTy} (hr : Reach P es (.adt i g)) {docs : List Text} {size : Nat}
    {fs : List Field} (hdecl : P.decl i g = .struct docs size fs) :
    Ids Calm ((kept fs).flatMap fun f => lex (cVar P.base f.ty f.name) ++ [.semi]) := by
  have hfine := (hd.types _ hr).2.2
  change DeclFine (P.decl i g) at hfine
  rw [hdecl] at hfine
  refine .flatMap fun f hf => ?_
  obtain ⟨hf, h0⟩ := kept_mem hf
  refine (ids_cVar calm_typeWords (fun _ _ hn => calm_type hn) hd f.ty (hr.field hdecl hf) ?_).append (.skip nofun .nil)
  rw [lex_word (hfine.2 f hf).2.1]
  exact .word (calm_reserved (hs.fields i g docs size fs f hr hdecl hf h0).2) .nil

theorem array_calm (hd : Declarable P es) {n : Nat} {item : CTy} (hr : Reach P es (.array n item)) :
    Ids Calm (lex (cVar P.base item (t!"idx[" ++ nat n ++ t!"]"))) :=
  ids_cVar calm_typeWords (fun _ _ hn => calm_type hn) hd item hr.item (ids_idx (by constructor <;> decide) (fun _ h => calm_numeric h) n)

theorem consts_item (hd : Declarable P es) (ha : Apart P es) (hs : Solid P es) {it : Item} (h : Fits P es d it) (r : List Tok) :
    enumNames .outside (itemToks P it ++ r) = (enumNames .outside r).map (constsOf P it ++ ·) := by
  have none_of : ∀ ts, Ids (· ≠ kenum) ts → constsOf P it = [] → itemToks P it = ts →
      enumNames .outside (itemToks P it ++ r) = (enumNames .outside r).map (constsOf P it ++ ·) := by
    intro ts h1 h2 h3
    rw [h2, h3, enumNames_skip h1]
    simp
  have calm : ∀ {ts}, Ids Calm ts → Ids (· ≠ kenum) ts := fun h => h.mono fun _ hw => hw.2
  cases it with
  | type lang t =>
    obtain ⟨_, hn, hr, _⟩ := h
    have hfine := (hd.types t hr).2.2
    have hname : cName P.base t ≠ kenum := (calm_type hn).2
    cases t with
    | adt i g =>
      have hw := (hd.types _ hr).1
      have htag : short P.base (.adt i g) ≠ kenum := (calm_reserved (ha.tags i g hr)).2
      change DeclFine (P.decl i g) at hfine
      cases hdecl : P.decl i g with
      | struct docs size fs =>
        refine none_of _ ?_ (by rw [constsOf, hdecl]) (by rw [itemToks, hdecl])
        exact ((Ids.word (Q := (· ≠ kenum)) (by decide) (.word (by decide) (.word htag (.skip (t := .bad '{') nofun .nil)))).append (calm (fields_calm hd hs hr hdecl))).append
          (.skip (t := .bad '}') nofun (.word hname (.skip (t := .semi) nofun .nil)))
      | enum docs int vs =>
        rw [hdecl] at hfine
        rw [itemToks, constsOf, hdecl]
        simp only
        rw [List.append_assoc, List.append_assoc, enumNames_head]
        have hdisc := fun v hv x hx => (ha.discs i g docs int vs v x hr hdecl hv hx).1
        have hv := hfine.2
        rw [variantNames]
        clear hfine hdecl
        induction vs with
        | nil => simp [enumNames_tail hname]
        | cons v vs ih =>
          rw [List.flatMap_cons, List.append_assoc, enumNames_line (constName_word (short_word _ _ hw) (hv v (by simp)).2.1)
            fun x hx => ⟨hdisc v (by simp) x hx, ((hv v (by simp)).2.2 x hx).2⟩,
            ih (fun v hv' => hdisc v (by simp [hv'])) fun v hv' => hv v (by simp [hv'])]
          cases enumNames .outside r <;> simp [constName_screaming]
      | «opaque» docs =>
        refine none_of _ ?_ (by rw [constsOf, hdecl]) (by rw [itemToks, hdecl])
        exact .word (by decide) (.word (by decide) (.word htag (.word hname (.skip nofun .nil))))
    | array n item =>
      refine none_of _ ?_ rfl rfl
      exact ((Ids.word (by decide) (.word (by decide) (.skip (t := .bad '{') nofun .nil))).append (calm (array_calm hd hr))).append
        (.skip (t := .semi) nofun (.skip (t := .bad '}') nofun (.word hname (.skip (t := .semi) nofun .nil))))
    | alias rn docs inner =>
      refine none_of _ ?_ rfl rfl
      exact ((Ids.word (by decide) .nil).append (calm (ids_cVar calm_typeWords (fun _ _ hn => calm_type hn) hd inner hr.inner Ids.empty))).append
        (.word hname (.skip nofun .nil))
    | _ => cases hn
  | func lang f => exact none_of _ (calm (fn_calm hd hs h.2)) rfl rfl
  | text s => exact h.elim
  | _ => exact none_of [] .nil rfl rfl

theorem consts_items (hd : Declarable P es) (ha : Apart P es) (hs : Solid P es) {body : List Item} (h : ∀ it ∈ body, Fits P es d it) :
    enumNames .outside (body.flatMap (itemToks P)) = some (body.flatMap (constsOf P)) := by
  induction body with
  | nil => rfl
  | cons it body ih =>
    rw [List.flatMap_cons, consts_item hd ha hs (h it (by simp)), ih fun it hit => h it (by simp [hit])]
    rfl

theorem tags_item (hd : Declarable P es) (ha : Apart P es) (hs : Solid P es) {it : Item} (h : Fits P es d it) (r : List Tok) :
    tagNames false (itemToks P it ++ r) = tagsOf P it ++ tagNames false r := by
  cases it with
  | type lang t =>
    obtain ⟨_, hn, hr, _⟩ := h
    have hfine := (hd.types t hr).2.2
    have hname : Calm (cName P.base t) := calm_type hn
    cases t with
    | adt i g =>
      have hw := (hd.types _ hr).1
      change DeclFine (P.decl i g) at hfine
      rw [itemToks, tagsOf]
      cases hdecl : P.decl i g with
      | struct docs size fs =>
        simp only
        rw [List.append_assoc, List.append_assoc]
        have h1 : ∀ r, tagNames false ([.id ktypedef, .id kstruct, .id (short P.base (.adt i g)), .bad '{'] ++ r) =
          short P.base (.adt i g) :: tagNames false r := fun _ => rfl
        rw [h1, tagNames_skip (fields_calm hd hs hr hdecl),
          tagNames_skip (ts := [.bad '}', _, .semi]) (.skip nofun (.word hname (.skip nofun .nil)))]
        rfl
      | enum docs int vs =>
        rw [hdecl] at hfine
        simp only
        have h1 : ∀ r, tagNames false (enumHead (short P.base (.adt i g)) int ++ r) = short P.base (.adt i g) :: tagNames false r := by
          intro r; cases int <;> rfl
        rw [List.append_assoc, List.append_assoc, h1, tagNames_skip (.flatMap fun v hv => ?_), tagNames_skip]
        · rfl
        · cases int with
          | none => exact .skip nofun (.word hname (.skip nofun .nil))
          | some k =>
            exact .skip nofun (.skip nofun (.word (by constructor <;> decide) (.word (by constructor <;> cases k <;> decide) (.word hname (.skip nofun .nil)))))
        · refine ids_line (constName_word (short_word _ _ hw) (hfine.2 v hv).2.1)
            (calm_reserved ((ha.own i g docs int vs hr hdecl).2 _ (List.mem_map.2 ⟨v, hv, (constName_screaming _ _).symm⟩)).1) fun x hx => ?_
          exact fun w hw => calm_numeric ((ha.discs i g docs int vs v x hr hdecl hv hx).2 w hw)
      | «opaque» docs =>
        show short P.base (.adt i g) :: tagNames false ([.id (cName P.base (.adt i g)), .semi] ++ r) = _
        rw [tagNames_skip (.word hname (.skip (t := .semi) nofun .nil))]
        rfl
    | array n item =>
      rw [itemToks, List.append_assoc, List.append_assoc]
      have h1 : ∀ r, tagNames false ([.id ktypedef, .id kstruct, .bad '{'] ++ r) = tagNames false r := fun _ => rfl
      rw [h1, tagNames_skip (array_calm hd hr),
        tagNames_skip (ts := [.semi, .bad '}', _, .semi]) (.skip nofun (.skip nofun (.word hname (.skip nofun .nil))))]
      rfl
    | alias rn docs inner =>
      rw [itemToks, tagNames_skip]
      · rfl
      · exact ((Ids.word (by constructor <;> decide) .nil).append (ids_cVar calm_typeWords (fun _ _ hn => calm_type hn) hd inner hr.inner Ids.empty)).append
          (.word hname (.skip nofun .nil))
    | _ => cases hn
  | func lang f => rw [itemToks, tagNames_skip (fn_calm hd hs h.2)]; rfl
  | text s => exact h.elim
  | _ => rfl

theorem tags_items (hd : Declarable P es) (ha : Apart P es) (hs : Solid P es) {body : List Item} (h : ∀ it ∈ body, Fits P es d it) :
    tagNames false (body.flatMap (itemToks P)) = body.flatMap (tagsOf P) := by
  induction body with
  | nil => rfl
  | cons it body ih =>
    rw [List.flatMap_cons, tags_item hd ha hs (h it (by simp)), ih fun it hit => h it (by simp [hit])]
    rfl

end

end Verif.Headers
