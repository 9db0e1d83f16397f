import Verif.Util.Dec
import Verif.JsExport.LifetimesSpec
/-!
# Lifetimes of the parameters of JavaScript exports: C82
-/
namespace Verif.JsExport
open Spec

/-! ## Lemmas -/

theorem remapAll_eq (new : Lt) (cs : List Tree) : remapAll new cs = cs.map (remap new) := by
  induction cs with
  | nil => simp [remapAll]
  | cons c cs ih => simp [remapAll, ih]

theorem makeStaticAll_eq (cs : List Tree) : makeStaticAll cs = cs.map makeStatic := by
  induction cs with
  | nil => simp [makeStaticAll]
  | cons c cs ih => simp [makeStaticAll, ih]

theorem stripAll_eq (cs : List Tree) : stripAll cs = cs.map strip := by
  induction cs with
  | nil => simp [stripAll]
  | cons c cs ih => simp [stripAll, ih]

theorem resolvesAll_eq (e : Bool) (Γ : List String) (cs : List Tree) :
    resolvesAll e Γ cs = true ↔ ∀ c ∈ cs, resolves e Γ c = true := by
  induction cs with
  | nil => simp [resolvesAll]
  | cons c cs ih => simp [resolvesAll, ih]

theorem outlivesAll_eq (e : Bool) (Γ : List String) (cs : List Tree) :
    outlivesAll e Γ cs = true ↔ ∀ c ∈ cs, outlives e Γ c = true := by
  induction cs with
  | nil => simp [outlivesAll]
  | cons c cs ih => simp [outlivesAll, ih]

theorem plainAll_eq (cs : List Tree) : PlainAll cs = true ↔ ∀ c ∈ cs, Plain c = true := by
  induction cs with
  | nil => simp [PlainAll]
  | cons c cs ih => simp [PlainAll, ih]

/-- Induction over types. -/
theorem Tree.ind {P : Tree → Prop} (lt : ∀ l, P (.lt l)) (ref : ∀ o t, P t → P (.ref o t))
    (bind : ∀ vs t, P t → P (.bind vs t)) (node : ∀ k cs, (∀ c ∈ cs, P c) → P (.node k cs)) (t : Tree) : P t := by
  refine Tree.rec (motive_1 := P) (motive_2 := fun cs => ∀ c ∈ cs, P c) lt ref bind node ?_ ?_ t
  · simp
  · intro c cs h1 h2; simp; exact ⟨h1, h2⟩

/-- Rust's outlives rule holds exactly of the types that do not borrow. -/
theorem outlives_iff (t : Tree) : ∀ hr bound, outlives hr bound t = true ↔ ¬ Borrows hr bound t := by
  induction t using Tree.ind with
  | lt l =>
    intro hr bound
    cases l with
    | static => simp [outlives, Lt.longLived]; rintro ⟨⟩
    | named a =>
      simp [outlives, Lt.longLived]
      constructor
      · intro h c; cases c with | named h' => exact h' h
      · intro h; exact Decidable.byContradiction fun h' => h (.named h')
    | anon =>
      cases hr
      · simp [outlives, Lt.longLived]; exact .anon
      · simp [outlives, Lt.longLived]; rintro ⟨⟩
  | ref o t ih =>
    intro hr bound
    simp only [outlives, Bool.and_eq_true, ih]
    constructor
    · rintro ⟨h1, h2⟩ c
      cases c with
      | refNamed h => simp [Lt.longLived] at h1; exact h h1
      | refAnon => simp [Lt.longLived] at h1
      | refElided => simp at h1
      | referent h => exact h2 h
    · intro h
      refine ⟨?_, fun c => h (.referent c)⟩
      cases o with
      | none => cases hr with
        | true => rfl
        | false => exact absurd .refElided h
      | some l => cases l with
        | static => simp [Lt.longLived]
        | named a =>
          simp [Lt.longLived]
          exact Decidable.byContradiction fun h' => h (.refNamed h')
        | anon => cases hr with
          | true => simp
          | false => exact absurd .refAnon h
  | bind vs t ih =>
    intro hr bound
    simp only [outlives, ih]
    constructor
    · rintro h c; cases c with | forBody h' => exact h h'
    · intro h c; exact h (.forBody c)
  | node k cs ih =>
    intro hr bound
    have all : ∀ hr, outlivesAll hr bound cs = true ↔ ∀ c ∈ cs, ¬ Borrows hr bound c := by
      intro hr; rw [outlivesAll_eq]
      exact ⟨fun h c hc => (ih c hc _ _).mp (h c hc), fun h c hc => (ih c hc _ _).mpr (h c hc)⟩
    cases k with
    | angle n h =>
      simp only [outlives, Bool.and_eq_true, all]
      constructor
      · rintro ⟨h1, h2⟩ c
        cases c with
        | hidden => simp at h1
        | arg hc hb => exact h2 _ hc hb
      · intro c
        refine ⟨?_, fun c' hc hb => c (.arg hc hb)⟩
        cases h <;> cases hr <;> simp
        exact c .hidden
    | paren n =>
      simp only [outlives, all]
      constructor
      · rintro h c; cases c with | fnArg hc hb => exact h _ hc hb
      · intro h c hc hb; exact h (.fnArg hc hb)
    | fnPtr =>
      simp only [outlives, all]
      constructor
      · rintro h c; cases c with | fnPtrArg hc hb => exact h _ hc hb
      · intro h c hc hb; exact h (.fnPtrArg hc hb)
    | other n =>
      simp only [outlives, all]
      constructor
      · rintro h c; cases c with | part hc hb => exact h _ hc hb
      · intro h c hc hb; exact h (.part hc hb)

theorem names_remap (a : String) (vs : List Lt) (b : String) (h : b ∈ names (vs.map (remapLt (.named a)))) : b = a := by
  induction vs with
  | nil => simp [names] at h
  | cons v vs ih =>
    cases v <;> simp only [List.map_cons, remapLt, names, List.mem_cons] at h
    · exact ih h
    · rcases h with h | h
      · exact h
      · exact ih h
    · rcases h with h | h
      · exact h
      · exact ih h

/-- A renamed `for<…>` is refused by the compiler, unless it binds nothing. -/
theorem bind_refused (a : String) (Γ : List String) (ha : a ∈ Γ) (e : Bool) (vs : List Lt) (t : Tree)
    (h : resolves e Γ (.bind (vs.map (remapLt (.named a))) t) = true) : vs = [] := by
  cases vs with
  | nil => rfl
  | cons v vs =>
    simp only [resolves, Bool.and_eq_true] at h
    cases v <;> simp [remapLt, ha] at h

/-- If what a parameter became outlives everything, then the parameter as written does not borrow. -/
theorem not_borrows (a : String) (Γ : List String) (ha : a ∈ Γ) (t : Tree) :
    ∀ hr bound e, resolves e Γ (remap (.named a) t) = true → resolves true bound t = true →
      outlives hr [] (remap (.named a) t) = true → ¬ Borrows hr bound t := by
  induction t using Tree.ind with
  | lt l =>
    intro hr bound e h1 h2 h3 c
    cases c with
    | named h => simp [resolves, Lt.declared] at h2; exact h h2
    | anon => simp [remap, remapLt, outlives, Lt.longLived] at h3
  | ref o t ih =>
    intro hr bound e h1 h2 h3 c
    simp only [remap, resolves, outlives, Bool.and_eq_true] at h1 h2 h3
    cases c with
    | refNamed h => simp [Lt.declared] at h2; exact h h2.1
    | refAnon => simp [remapLt, Lt.longLived] at h3
    | refElided => simp [Lt.longLived] at h3
    | referent h => exact ih _ _ _ h1.2 h2.2 h3.2 h
  | bind vs t ih =>
    intro hr bound e h1 h2 h3 c
    simp only [remap] at h1 h3
    cases bind_refused a Γ ha e vs _ h1
    cases c with
    | forBody h =>
      simp only [List.map_nil, names, resolves, outlives, List.nil_append, Bool.and_eq_true] at h1 h2 h3 h
      exact ih _ _ _ h1.2 h2.2 h3 h
  | node k cs ih =>
    intro hr bound e h1 h2 h3 c
    cases k with
    | angle n h =>
      simp only [remap, remapAll_eq, resolves, outlives, Bool.and_eq_true, resolvesAll_eq, outlivesAll_eq,
        List.forall_mem_map] at h1 h2 h3
      cases c with
      | hidden => simp at h3
      | arg hc hb => exact ih _ hc _ _ _ (h1.2 _ hc) (h2.2 _ hc) (h3.2 _ hc) hb
    | paren n =>
      simp only [remap, resolves, outlives, resolvesAll_eq, outlivesAll_eq] at h1 h2 h3
      cases c with
      | fnArg hc hb =>
        -- not rewritten: any free name would be one that `__js` does not declare
        have := h3 _ hc
        rw [outlives_iff] at this
        exact absurd hb (fun hb => this (mono hb (by simp)))
    | fnPtr =>
      simp only [remap, remapAll_eq, resolves, outlives, resolvesAll_eq, outlivesAll_eq, List.forall_mem_map] at h1 h2 h3
      cases c with
      | fnPtrArg hc hb => exact ih _ hc _ _ _ (h1 _ hc) (h2 _ hc) (h3 _ hc) hb
    | other n =>
      simp only [remap, remapAll_eq, resolves, outlives, resolvesAll_eq, outlivesAll_eq, List.forall_mem_map] at h1 h2 h3
      cases c with
      | part hc hb => exact ih _ hc _ _ _ (h1 _ hc) (h2 _ hc) (h3 _ hc) hb
where
  mono {hr : Bool} {b b' : List String} {t : Tree} (h : Borrows hr b t) (hs : ∀ a ∈ b', a ∈ b) : Borrows hr b' t := by
    induction h generalizing b' with
    | named h => exact .named fun c => h (hs _ c)
    | anon => exact .anon
    | refNamed h => exact .refNamed fun c => h (hs _ c)
    | refAnon => exact .refAnon
    | refElided => exact .refElided
    | referent _ ih => exact .referent (ih hs)
    | forBody _ ih => exact .forBody (ih (by simp only [List.mem_append]; rintro a (h | h); exact .inl h; exact .inr (hs _ h)))
    | hidden => exact .hidden
    | arg hc _ ih => exact .arg hc (ih hs)
    | part hc _ ih => exact .part hc (ih hs)
    | fnArg hc _ ih => exact .fnArg hc (ih hs)
    | fnPtrArg hc _ ih => exact .fnPtrArg hc (ih hs)

theorem captureLt_mem {n i : Nat} (h : i < n) : captureLt i ∈ captureLts n :=
  List.mem_map.mpr ⟨i, List.mem_range.mpr h, rfl⟩

theorem asyncParamsOk_get {n k : Nat} {ts : List Tree} (h : asyncParamsOk n k ts = true) {i : Nat} {t : Tree}
    (hi : ts[i]? = some t) : asyncParamOk n (k + i) t = true := by
  induction ts generalizing k i with
  | nil => simp at hi
  | cons u ts ih =>
    simp only [asyncParamsOk, Bool.and_eq_true] at h
    cases i with
    | zero => simp at hi; subst hi; exact h.1
    | succ i => simp at hi; have := ih h.2 hi; rwa [show k + 1 + i = k + (i + 1) by omega] at this

theorem asyncParamsOk_of {n k : Nat} {ts : List Tree}
    (h : ∀ i t, ts[i]? = some t → asyncParamOk n (k + i) t = true) : asyncParamsOk n k ts = true := by
  induction ts generalizing k with
  | nil => rfl
  | cons u ts ih =>
    simp only [asyncParamsOk, Bool.and_eq_true]
    refine ⟨h 0 u rfl, ih fun i t hi => ?_⟩
    have := h (i + 1) t (by simpa using hi)
    rwa [show k + 1 + i = k + (i + 1) by omega]

/-- Declaring more names does no harm to a type that does not write them. -/
theorem resolves_weaken (t : Tree) : ∀ (e e' : Bool) (Γ Γ' : List String), (e = true → e' = true) → (∀ a ∈ Γ, a ∈ Γ') →
    (∀ a ∈ Γ', a ∉ Γ → ¬ Occurs (.named a) t) → resolves e Γ t = true → resolves e' Γ' t = true := by
  have declared : ∀ (e e' : Bool) (Γ Γ' : List String) (l : Lt), (e = true → e' = true) → (∀ a ∈ Γ, a ∈ Γ') →
      l.declared e Γ = true → l.declared e' Γ' = true := by
    intro e e' Γ Γ' l he hs h
    cases l with
    | static => rfl
    | named a => simp only [Lt.declared, List.contains_iff_mem] at h ⊢; exact hs _ h
    | anon => exact he h
  induction t using Tree.ind with
  | lt l => intro e e' Γ Γ' he hs _ h; exact declared _ _ _ _ _ he hs h
  | ref o t ih =>
    intro e e' Γ Γ' he hs hf h
    simp only [resolves, Bool.and_eq_true] at h ⊢
    refine ⟨?_, ih _ _ _ _ he hs (fun a h1 h2 c => hf a h1 h2 (.inRef c)) h.2⟩
    cases o with
    | none => exact he h.1
    | some l => exact declared _ _ _ _ _ he hs h.1
  | bind vs t ih =>
    intro e e' Γ Γ' he hs hf h
    simp only [resolves, Bool.and_eq_true] at h ⊢
    refine ⟨⟨?_, h.1.2⟩, ih _ _ _ _ he ?_ ?_ h.2⟩
    · rw [List.all_eq_true]
      intro l hl
      have := (List.all_eq_true.mp h.1.1) l hl
      cases l with
      | static => simp at this
      | anon => simp at this
      | named a =>
        simp at this ⊢
        intro c
        exact hf a c this (.var hl)
    · simp only [List.mem_append]
      rintro a (h | h)
      · exact .inl h
      · exact .inr (hs _ h)
    · simp only [List.mem_append]
      rintro a (h1 | h1) h2 c
      · exact h2 (.inl h1)
      · exact hf a h1 (fun c => h2 (.inr c)) (.inBind c)
  | node k cs ih =>
    intro e e' Γ Γ' he hs hf h
    have all : ∀ e e' : Bool, (e = true → e' = true) → resolvesAll e Γ cs = true → resolvesAll e' Γ' cs = true := by
      intro e e' he h
      rw [resolvesAll_eq] at h ⊢
      exact fun c hc => ih c hc _ _ _ _ he hs (fun a h1 h2 c => hf a h1 h2 (.child hc c)) (h c hc)
    cases k with
    | angle n hid =>
      simp only [resolves, Bool.and_eq_true] at h ⊢
      refine ⟨?_, all _ _ he h.2⟩
      cases hid with
      | false => rfl
      | true => simpa using he (by simpa using h.1)
    | paren n => simp only [resolves] at h ⊢; exact all _ _ id h
    | fnPtr => simp only [resolves] at h ⊢; exact all _ _ id h
    | other n => simp only [resolves] at h ⊢; exact all _ _ he h

/-- Renaming the lifetimes of a plain type leaves it meaningful wherever the new one is declared. -/
theorem resolves_plain (new : Lt) (e : Bool) (Γ : List String) (hn : new.declared e Γ = true) (t : Tree) :
    (∀ a ∈ Γ, ¬ Occurs (.named a) t) → Plain t = true → Meaningful t = true → resolves e Γ (remap new t) = true := by
  have declared : ∀ l : Lt, (remapLt new l).declared e Γ = true := by
    intro l; cases l <;> first | rfl | exact hn
  unfold Meaningful
  induction t using Tree.ind with
  | lt l => intro hf hp hm; exact declared l
  | ref o t ih =>
    intro hf hp hm
    simp only [remap, resolves, Bool.and_eq_true, Plain] at hp hm ⊢
    refine ⟨?_, ih (fun a h c => hf a h (.inRef c)) hp hm.2⟩
    cases o with
    | none => exact hn
    | some l => exact declared l
  | bind vs t ih => intro hf hp; simp [Plain] at hp
  | node k cs ih =>
    intro hf hp hm
    cases k with
    | angle n hid =>
      simp only [remap, resolves, Bool.and_eq_true, Plain, remapAll_eq, resolvesAll_eq, plainAll_eq, List.forall_mem_map] at hp hm ⊢
      exact ⟨by simpa using .inl (by simpa using hp.1), fun c hc => ih c hc (fun a h c => hf a h (.child hc c)) (hp.2 c hc) (hm.2 c hc)⟩
    | paren n =>
      simp only [remap, resolves, resolvesAll_eq] at hm ⊢
      exact fun c hc => resolves_weaken c _ _ _ _ id (by simp) (fun a h _ c => hf a h (.child hc c)) (hm c hc)
    | fnPtr => simp [Plain] at hp
    | other n =>
      simp only [remap, resolves, Plain, remapAll_eq, resolvesAll_eq, plainAll_eq, List.forall_mem_map] at hp hm ⊢
      exact fun c hc => ih c hc (fun a h c => hf a h (.child hc c)) (hp c hc) (hm c hc)

/-- A plain type that does not borrow is not changed in a way that borrows. -/
theorem outlives_plain (new : Lt) (t : Tree) :
    Plain t = true → ¬ Borrows false [] t → outlives false [] (remap new t) = true := by
  intro hp hb
  induction t using Tree.ind with
  | lt l =>
    cases l with
    | static => rfl
    | named a => exact absurd (.named (by simp)) hb
    | anon => exact absurd .anon hb
  | ref o t ih =>
    simp only [remap, outlives, Bool.and_eq_true, Plain] at hp ⊢
    refine ⟨?_, ih hp fun c => hb (.referent c)⟩
    cases o with
    | none => exact absurd .refElided hb
    | some l => cases l with
      | static => simp [remapLt, Lt.longLived]
      | named a => exact absurd (.refNamed (by simp)) hb
      | anon => exact absurd .refAnon hb
  | bind vs t ih => simp [Plain] at hp
  | node k cs ih =>
    cases k with
    | angle n hid =>
      simp only [remap, outlives, Bool.and_eq_true, Plain, remapAll_eq, outlivesAll_eq, plainAll_eq, List.forall_mem_map] at hp ⊢
      exact ⟨by simpa using hp.1, fun c hc => ih c hc (hp.2 c hc) fun h => hb (.arg hc h)⟩
    | paren n =>
      simp only [remap, outlives, outlivesAll_eq]
      exact fun c hc => (outlives_iff _ _ _).mpr fun h => hb (.fnArg hc h)
    | fnPtr => simp [Plain] at hp
    | other n =>
      simp only [remap, outlives, Plain, remapAll_eq, outlivesAll_eq, plainAll_eq, List.forall_mem_map] at hp ⊢
      exact fun c hc => ih c hc (hp c hc) fun h => hb (.part hc h)

/-! ## Concrete types -/

/-- `u8`. -/
def u8 : Tree := .node (.angle "u8" false) []
/-- `char_p::Ref<'_>`. -/
def charPRef : Tree := .node (.other "path") [.node (.angle "char_p" false) [], .node (.angle "Ref" false) [.lt .anon]]
/-- `char_p::Ref`, with its lifetime parameter left out. -/
def charPRefHidden : Tree := .node (.other "path") [.node (.angle "char_p" false) [], .node (.angle "Ref" true) []]
/-- `&'static u8`. -/
def staticRef : Tree := .ref (some .static) u8
/-- `repr_c::Box<dyn Send + Fn(&u8)>`. -/
def boxedFn : Tree :=
  .node (.angle "Box" false) [.node (.other "dyn") [.node (.angle "Send" false) [], .node (.paren "Fn") [.ref none u8]]]
/-- `extern "C" fn(&u8)`. -/
def fnPointer : Tree := .node .fnPtr [.ref none u8]

theorem staticRef_not_borrowed : ¬ Borrowed staticRef :=
  (outlives_iff staticRef false []).mp (by decide)

theorem boxedFn_not_borrowed : ¬ Borrowed boxedFn :=
  (outlives_iff boxedFn false []).mp (by decide)

theorem charPRef_borrowed : Borrowed charPRef :=
  .part (List.mem_cons_of_mem _ (List.mem_singleton.mpr rfl)) (.arg (List.mem_singleton.mpr rfl) .anon)

/-! ## C82 -/

/-- The promise of an asynchronous export never holds a borrowed argument: whatever the parameters, if the export compiles,
no parameter captured by its future borrows from the caller. -/
theorem C82_captures (params : List Tree) (captured : List Nat) (h : asyncOk params captured = true)
    (i : Nat) (hi : i ∈ captured) (t : Tree) (ht : params[i]? = some t) : ¬ Borrowed t := by
  simp only [asyncOk, Bool.and_eq_true, List.all_eq_true] at h
  have ok := asyncParamsOk_get h.1 ht
  have cap := h.2 i hi
  simp only [ht, capturable, bounded] at cap
  simp only [asyncParamOk, bounded, Bool.and_eq_true, Nat.zero_add] at ok
  have hn : i < params.length := by
    rw [List.getElem?_eq_some_iff] at ht; exact ht.1
  exact not_borrows _ _ (captureLt_mem hn) t _ _ _ ok.1.2 ok.2 cap

example : asyncOk [charPRef, staticRef, u8, boxedFn] [1, 2, 3] = true ∧ asyncOk [charPRef, u8] [0] = false := by
  decide +kernel

/-- A parameter with a lifetime left out of a path is refused: borrows cannot hide. -/
theorem C82_hidden (n i : Nat) (name : String) (args : List Tree) :
    asyncParamOk n i (.node (.angle name true) args) = false := by
  simp [asyncParamOk, remap, resolves, Place.elides]

example : asyncParamOk 1 0 charPRefHidden = false ∧ asyncParamOk 1 0 charPRef = true := by decide +kernel

/-- Borrowed parameters may be used before the future is made, and parameters that do not borrow may be captured: an
export is accepted, with any of its non-borrowed parameters captured, if its types write all the lifetime parameters of
paths, have no function pointers nor `for<…>` outside `Fn(…)`, and do not use the lifetime names of the macro. -/
theorem C82_accepts_partial (params : List Tree) (captured : List Nat)
    (hm : ∀ t ∈ params, Meaningful t = true) (hp : ∀ t ∈ params, Plain t = true)
    (hf : ∀ t ∈ params, ∀ j, ¬ Occurs (.named (captureLt j)) t)
    (hc : ∀ i ∈ captured, ∃ t, params[i]? = some t ∧ ¬ Borrowed t) : asyncOk params captured = true := by
  simp only [asyncOk, Bool.and_eq_true, List.all_eq_true]
  constructor
  · apply asyncParamsOk_of
    intro i t hi
    have ht : t ∈ params := List.mem_of_getElem? hi
    have hn : i < params.length := by
      rw [List.getElem?_eq_some_iff] at hi; exact hi.1
    have fresh : ∀ a ∈ captureLts params.length, ¬ Occurs (.named a) t := by
      intro a ha
      obtain ⟨j, _, rfl⟩ := List.mem_map.mp ha
      exact hf t ht j
    simp only [asyncParamOk, bounded, Bool.and_eq_true, Nat.zero_add]
    refine ⟨⟨resolves_plain .static _ _ rfl t (by simp) (hp t ht) (hm t ht),
      resolves_plain _ _ _ ?_ t fresh (hp t ht) (hm t ht)⟩, hm t ht⟩
    simp only [Lt.declared, List.contains_iff_mem]
    exact captureLt_mem hn
  · intro i hi
    obtain ⟨t, ht, hb⟩ := hc i hi
    simp only [ht, capturable, bounded]
    exact outlives_plain _ t (hp t (List.mem_of_getElem? ht)) hb

example : (∀ t ∈ [charPRef, staticRef, boxedFn], Meaningful t = true) ∧ (∀ t ∈ [charPRef, staticRef, boxedFn], Plain t = true) := by
  decide +kernel

/-- What `C82_accepts_partial` leaves out, function pointers: `extern "C" fn(&u8)` does not borrow, yet it cannot be
captured, since the lifetimes of its parameters are renamed like borrows of the caller. -/
theorem C82_fails_fn_pointer : ¬ Borrowed fnPointer ∧ Meaningful fnPointer = true
    ∧ asyncOk [fnPointer] [] = true ∧ asyncOk [fnPointer] [0] = false :=
  ⟨(outlives_iff _ _ _).mp (by decide), by decide, by decide +kernel, by decide +kernel⟩

/-- What `C82_accepts_partial` leaves out, `for<…>`: the type does not borrow, yet the export does not compile. -/
theorem C82_fails_for (n i : Nat) (a : String) (t : Tree) : asyncParamOk n i (.bind [.named a] t) = false := by
  simp [asyncParamOk, remap, remapLt, resolves]

example : ¬ Borrowed (.bind [.named "a"] (.node (.paren "Fn") [.ref (some (.named "a")) u8])) :=
  (outlives_iff _ _ _).mp (by decide)

/-- The lifetimes that are given to the parameters are distinct: no parameter is made to live as long as another. -/
theorem C82_lifetimes (n : Nat) : (captureLts n).length = n ∧ (captureLts n).Nodup := by
  refine ⟨by simp [captureLts], ?_⟩
  rw [captureLts, List.nodup_iff_pairwise_ne, List.pairwise_map]
  exact List.Pairwise.imp (fun hab he => hab (Verif.toString_inj ((String.append_right_inj _).1 he))) List.nodup_range

example : captureLts 12 ≠ [] ∧ captureLt 11 ∈ captureLts 12 ∧ captureLt 11 ≠ captureLt 1 := by decide +kernel

/-- With `js(async_worker)` instead, the call runs on a worker thread after the JavaScript function has returned, and
nothing keeps it from using a borrowed argument. -/
theorem C82_fails_worker : Borrowed charPRef ∧ workerOk [charPRef] = true := ⟨charPRef_borrowed, by decide⟩

/-! ### The rewritten types -/

theorem skeletonAll_eq (cs : List Tree) : skeletonAll cs = cs.map skeleton := by
  induction cs with
  | nil => simp [skeletonAll]
  | cons c cs ih => simp [skeletonAll, ih]

/-- Rewriting lifetimes does not change anything but lifetimes: the C layout that crosses the boundary is that of the type
as written. -/
theorem C82_same_layout (new : Lt) (t : Tree) : skeleton (remap new t) = skeleton t ∧ skeleton (makeStatic t) = skeleton t := by
  induction t using Tree.ind with
  | lt l => simp [remap, makeStatic, skeleton]
  | ref o t ih => simp [remap, makeStatic, skeleton, ih]
  | bind vs t ih => simp [remap, makeStatic, skeleton, ih]
  | node k cs ih =>
    have h1 : (cs.map (remap new)).map skeleton = cs.map skeleton := by
      rw [List.map_map]; exact List.map_congr_left fun c hc => (ih c hc).1
    have h2 : (cs.map makeStatic).map skeleton = cs.map skeleton := by
      rw [List.map_map]; exact List.map_congr_left fun c hc => (ih c hc).2
    cases k <;> simp only [remap, makeStatic, skeleton, skeletonAll_eq, remapAll_eq, makeStaticAll_eq, h1, h2, and_self]

example : skeleton charPRef ≠ skeleton charPRefHidden := by
  simp [charPRef, charPRefHidden, skeleton, skeletonAll]

/-- The rewritten types that are given a `type` alias are free of borrows, for any type: an alias that compiles names a
`'static` type. -/
theorem C82_alias_static (t : Tree) (h : resolves Place.alias_.elides [] (remap .static t) = true) :
    ¬ Borrowed (remap .static t) := by
  rw [Borrowed, ← outlives_iff]
  have hΓ : ∀ (t : Tree) (e hr : Bool) (Γ : List String), (e = true → hr = true) → resolves e Γ t = true → outlives hr Γ t = true := by
    intro t
    have lts : ∀ (e hr : Bool) (Γ : List String) (l : Lt), (e = true → hr = true) → l.declared e Γ = true →
        (l.longLived Γ || (hr && l == .anon)) = true := by
      intro e hr Γ l he h
      cases l with
      | static => rfl
      | named a => simp only [Lt.declared] at h; simp only [Lt.longLived, h, Bool.true_or]
      | anon => simp [he h]
    induction t using Tree.ind with
    | lt l => intro e hr Γ he h; exact lts _ _ _ _ he h
    | ref o t ih =>
      intro e hr Γ he h
      simp only [resolves, outlives, Bool.and_eq_true] at h ⊢
      refine ⟨?_, ih _ _ _ he h.2⟩
      cases o with
      | none => exact he h.1
      | some l => exact lts _ _ _ _ he h.1
    | bind vs t ih =>
      intro e hr Γ he h
      simp only [resolves, outlives, Bool.and_eq_true] at h ⊢
      exact ih _ _ _ he h.2
    | node k cs ih =>
      intro e hr Γ he h
      cases k with
      | angle n hid =>
        simp only [resolves, outlives, Bool.and_eq_true, resolvesAll_eq, outlivesAll_eq] at h ⊢
        refine ⟨?_, fun c hc => ih c hc _ _ _ he (h.2 c hc)⟩
        cases hid with
        | false => rfl
        | true => simpa using he (by simpa using h.1)
      | paren n =>
        simp only [resolves, outlives, resolvesAll_eq, outlivesAll_eq] at h ⊢
        exact fun c hc => ih c hc _ _ _ id (h c hc)
      | fnPtr =>
        simp only [resolves, outlives, resolvesAll_eq, outlivesAll_eq] at h ⊢
        exact fun c hc => ih c hc _ _ _ id (h c hc)
      | other n =>
        simp only [resolves, outlives, resolvesAll_eq, outlivesAll_eq] at h ⊢
        exact fun c hc => ih c hc _ _ _ he (h c hc)
  exact hΓ _ _ _ _ (by simp [Place.elides]) h

/-- `__make_all_lifetimes_static!` leaves no lifetime but `'static`, anywhere. -/
theorem C82_make_static (t : Tree) (l : Lt) (h : Occurs l (makeStatic t)) : l = .static := by
  induction t using Tree.ind with
  | lt l => simp only [makeStatic] at h; cases h; rfl
  | ref o t ih =>
    simp only [makeStatic] at h
    cases h with
    | ref => rfl
    | inRef h => exact ih h
  | bind vs t ih =>
    simp only [makeStatic] at h
    cases h with
    | var h => simp at h; exact h.2.symm
    | inBind h => exact ih h
  | node k cs ih =>
    simp only [makeStatic, makeStaticAll_eq] at h
    cases h with
    | child hc h =>
      obtain ⟨c, hd, rfl⟩ := List.mem_map.mp hc
      exact ih c hd h

example : Occurs .static (makeStatic charPRef) := by
  simp only [charPRef, makeStatic, makeStaticAll]
  exact .child (List.mem_cons_of_mem _ (List.mem_singleton.mpr rfl)) (.child (List.mem_singleton.mpr rfl) .lt)

theorem refsAndArgsAll_eq (cs : List Tree) : RefsAndArgsAll cs = true ↔ ∀ c ∈ cs, RefsAndArgs c = true := by
  induction cs with
  | nil => simp [RefsAndArgsAll]
  | cons c cs ih => simp [RefsAndArgsAll, ih]

theorem isLt_eq (t : Tree) : isLt t = lifetimeArg t := by cases t <;> rfl

theorem refsAndArgsOrLt_eq (cs : List Tree) : RefsAndArgsOrLt cs = true ↔ ∀ c ∈ cs, isLt c = true ∨ RefsAndArgs c = true := by
  induction cs with
  | nil => simp [RefsAndArgsOrLt]
  | cons c cs ih => simp [RefsAndArgsOrLt, ih, isLt_eq]

theorem isLt_strip (t : Tree) : isLt (strip t) = isLt t := by
  cases t with
  | lt l => simp [strip, isLt]
  | ref o t => simp [strip, isLt]
  | bind vs t => simp [strip, isLt]
  | node k cs => cases k <;> simp [strip, isLt]

/-- On wasm, where `wasm_bindgen` refuses lifetimes in signatures: parameters that write lifetimes only in references and as
arguments of paths are left without any. -/
theorem C82_wasm_partial (s : Sig) (t : Tree) (ht : t ∈ (replaceLifetimes s).params)
    (h : ∀ t ∈ s.params, RefsAndArgs t = true) (l : Lt) : ¬ Occurs l t ∧ (replaceLifetimes s).lifetimes = [] := by
  refine ⟨?_, rfl⟩
  simp only [replaceLifetimes, stripAll_eq] at ht
  obtain ⟨t, hs, rfl⟩ := List.mem_map.mp ht
  replace h := h t hs
  clear ht hs
  induction t using Tree.ind with
  | lt l => simp [RefsAndArgs] at h
  | ref o t ih =>
    simp only [RefsAndArgs] at h
    simp only [strip]
    intro c
    cases c with
    | inRef c => exact ih h c
  | bind vs t ih => simp [RefsAndArgs] at h
  | node k cs ih =>
    cases k with
    | angle n hid =>
      simp only [RefsAndArgs, refsAndArgsOrLt_eq] at h
      simp only [strip, stripAll_eq]
      intro c
      cases c with
      | child hc c =>
        rw [List.mem_filter] at hc
        obtain ⟨d, hd, rfl⟩ := List.mem_map.mp hc.1
        have := hc.2
        rw [isLt_strip] at this
        rcases h d hd with h' | h'
        · simp [h'] at this
        · exact ih d hd h' c
    | _ =>
      simp only [RefsAndArgs, refsAndArgsAll_eq] at h
      simp only [strip, stripAll_eq]
      intro c
      cases c with
      | child hc c =>
        obtain ⟨d, hd, rfl⟩ := List.mem_map.mp hc
        exact ih d hd (h d hd) c

theorem bareAll_eq (cs : List Tree) : bareAll cs = cs.map bare := by
  induction cs with
  | nil => simp [bareAll]
  | cons c cs ih => simp [bareAll, ih]

theorem bareArgs_eq (cs : List Tree) : bareArgs cs = (cs.filter fun t => !isLt t).map bare := by
  induction cs with
  | nil => simp [bareArgs]
  | cons c cs ih => by_cases h : isLt c = true <;> simp [bareArgs, ih, h, ← isLt_eq]

/-- On wasm, the rewritten parameters differ from the written ones in nothing but lifetimes; none is lost or moved. -/
theorem C82_wasm_same (s : Sig) : (replaceLifetimes s).params.map bare = s.params.map bare
    ∧ (replaceLifetimes s).generics = s.generics := by
  refine ⟨?_, rfl⟩
  simp only [replaceLifetimes, stripAll_eq, List.map_map]
  apply List.map_congr_left
  intro t ht
  show bare (strip t) = bare t
  clear ht
  induction t using Tree.ind with
  | lt l => simp [strip]
  | ref o t ih => simp [strip, bare, ih]
  | bind vs t ih => simp [strip, bare, ih]
  | node k cs ih =>
    have all : (cs.map strip).map bare = cs.map bare := by
      rw [List.map_map]; exact List.map_congr_left ih
    cases k with
    | angle n hid =>
      simp only [strip, stripAll_eq, bare, bareArgs_eq, List.filter_filter, Bool.and_self]
      congr 1
      rw [List.filter_map, List.map_map]
      have : (fun t => !isLt t) ∘ strip = fun t => !isLt t := by funext t; simp [isLt_strip]
      rw [this]
      exact List.map_congr_left fun c hc => ih c (List.mem_of_mem_filter' hc)
    | paren n => simpa [strip, stripAll_eq, bare, bareAll_eq] using all
    | fnPtr => simpa [strip, stripAll_eq, bare, bareAll_eq] using all
    | other n => simpa [strip, stripAll_eq, bare, bareAll_eq] using all
where
  List.mem_of_mem_filter' {cs : List Tree} {c : Tree} {p : Tree → Bool} (h : c ∈ cs.filter p) : c ∈ cs :=
    (List.mem_filter.mp h).1

/-- `&'a str`-like and `char_p::Ref<'a>`. -/
example : (replaceLifetimes ⟨["a"], [], [.ref (some (.named "a")) u8, charPRef]⟩).params.length = 2
    ∧ RefsAndArgs (.ref (some (.named "a")) u8) = true ∧ RefsAndArgs charPRef = true := by decide

/-- What `C82_wasm_partial` leaves out: in `&'a (dyn Send + 'a)` the bound keeps its lifetime, which is no longer declared. -/
theorem C82_fails_wasm :
    let s : Sig := ⟨["a"], [], [.ref (some (.named "a")) (.node (.other "dyn") [.node (.angle "Send" false) [], .lt (.named "a")])]⟩
    s.params.all (resolves true s.lifetimes) = true
    ∧ (replaceLifetimes s).params.all (resolves true (replaceLifetimes s).lifetimes) = false := by decide

end Verif.JsExport
