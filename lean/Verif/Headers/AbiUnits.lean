import Verif.Headers.AbiSpec
import Verif.Headers.TypeNames
/-! # Reading the declarations of a header one after the other -/
namespace Verif.Headers
open Text

/-! ### Sequences -/

/-- The tokens are these declarations, whatever follows. -/
def Units (toks : List Tok) (ds : Env) : Prop := ∀ r e, Ev (units · r) e → Ev (units · (toks ++ r)) (ds ++ e)

theorem Units.nil : Units [] [] := fun _ _ h => h

theorem Units.append {a b : List Tok} {d e : Env} (ha : Units a d) (hb : Units b e) : Units (a ++ b) (d ++ e) := by
  intro r x h
  rw [List.append_assoc, List.append_assoc]
  exact ha _ _ (hb _ _ h)

theorem Units.one {ts : List Tok} {ds : Env} (hne : ts ≠ []) (h : ∀ r, Ev (unit · (ts ++ r)) (ds, r)) : Units ts ds := by
  intro r e he
  obtain ⟨t, ts, rfl⟩ := List.exists_cons_of_ne_nil hne
  refine Ev.step (h := fun m => match unit m (t :: ts ++ r) with
    | some (ds, r) => (units m r).map (ds ++ ·)
    | none => none) (fun _ => rfl) ?_
  refine Ev.subst (f := fun m => unit m (t :: ts ++ r)) (h r) (F := fun m o => match o with
    | some (ds, r) => (units m r).map (ds ++ ·)
    | none => none) ?_
  exact he.map (ds ++ ·)

theorem Units.reads {ts : List Tok} {ds : Env} (h : Units ts ds) : Ev (units · ts) ds := by
  have := h [] [] ⟨1, fun m hm => by obtain ⟨m, rfl⟩ : ∃ k, m = k + 1 := ⟨m - 1, by omega⟩; rfl⟩
  simpa using this

/-! ### The first word of a declaration -/

theorem t_ne_words (x : Text) : x ++ t!"_t" ≠ ktypedef ∧ x ++ t!"_t" ≠ kenum ∧ x ++ t!"_t" ≠ kstruct := by
  refine ⟨?_, ?_, ?_⟩ <;>
  · intro e
    have := congrArg List.reverse e
    simp at this

/-- Leads with a word that is no keyword of a declaration. -/
def Leads (ts : List Tok) : Prop := ∃ w r, ts = .id w :: r ∧ w ≠ ktypedef ∧ w ≠ kenum ∧ w ≠ kstruct

theorem Leads.append {ts : List Tok} (h : Leads ts) (us : List Tok) : Leads (ts ++ us) := by
  obtain ⟨w, r, rfl, h⟩ := h
  exact ⟨w, r ++ us, rfl, h⟩

theorem cVar_starts (b : Nat → Text) (ty : CTy) (hw : wordsOk b ty = true) (v : Text) : Leads (lex (cVar b ty v)) := by
  have key : ∀ w : Text, IsWord w → w ≠ ktypedef ∧ w ≠ kenum ∧ w ≠ kstruct → Leads (lex (w ++ sep v ++ v)) := by
    intro w h1 h2
    rw [lex_word_sep h1]
    exact ⟨w, _, rfl, h2⟩
  have keyt : ∀ w : Text, IsWord w → Leads (lex (w ++ t!"_t" ++ sep v ++ v)) :=
    fun w h1 => key _ (h1.append t_word) (t_ne_words w)
  cases ty with
  | int k => rw [cVar_int]; exact keyt _ (by cases k <;> decide)
  | float => rw [cVar_float]; exact key _ (by decide) (by decide)
  | double => rw [cVar_double]; exact key _ (by decide) (by decide)
  | bool => rw [cVar_bool]; exact key _ (by decide) (by decide)
  | cint => rw [cVar_cint]; exact key _ (by decide) (by decide)
  | cchar => rw [cVar_cchar]; exact key _ (by decide) (by decide)
  | void => rw [cVar_void]; exact key _ (by decide) (by decide)
  | array n item => rw [cVar_array]; exact keyt _ (short_word b (.array n item) hw)
  | fptr ret args =>
    rw [cVar_fptr, lex_fptr]
    rw [wordsOk, Bool.and_eq_true] at hw
    exact (cVar_starts b ret hw.1 []).append _
  | constPtr to => rw [cVar_constPtr, lex_constPtr, List.append_assoc]; exact (cVar_starts b to hw []).append _
  | mutPtr to => rw [cVar_mutPtr, lex_mutPtr, List.append_assoc]; exact (cVar_starts b to hw []).append _
  | alias rn docs inner => rw [cVar_alias]; exact keyt _ (by simpa [wordsOk] using hw)
  | adt i g => rw [cVar_adt]; exact keyt _ (short_word b (.adt i g) hw)
termination_by ty

/-! ### Kinds of declarations -/

theorem Units.fn {ts : List Tok} {n : Text} {ret : CT} {params : List (Option Text × CT)} (hs : Leads ts)
    (h : ∀ r, Ev (declaration · (ts ++ .semi :: r)) (some n, .fn ret params, .semi :: r)) : Units (ts ++ [.semi]) [(n, .fn ret params)] := by
  refine .one (by simp) fun r => ?_
  obtain ⟨w, ts, rfl, h1, h2, _⟩ := hs
  obtain ⟨k, hk⟩ := h r
  refine ⟨k, fun m hm => ?_⟩
  have := hk m hm
  simp only [List.append_assoc, List.cons_append, List.nil_append] at this ⊢
  rw [unit.eq_def]
  simp only [if_neg h2, if_neg h1, this]

theorem Units.alias {ts : List Tok} {n : Text} {ty : CT} (hs : Leads ts)
    (h : ∀ r, Ev (declaration · (ts ++ .semi :: r)) (some n, ty, .semi :: r)) : Units (.id ktypedef :: ts ++ [.semi]) [(n, .alias ty)] := by
  refine .one (by simp) fun r => ?_
  obtain ⟨w, ts, rfl, h1, h2, h3⟩ := hs
  obtain ⟨k, hk⟩ := h r
  refine ⟨k, fun m hm => ?_⟩
  have := hk m hm
  simp only [List.append_assoc, List.cons_append, List.nil_append] at this ⊢
  rw [unit, if_neg (by decide), if_pos rfl]
  simp only [if_neg h3, if_neg h2, this]

/-- Members of a struct, whatever follows. -/
def MemBody (toks : List Tok) (ms : List (Text × CT)) : Prop :=
  ∀ r e r', Ev (structBody · r) (e, r') → Ev (structBody · (toks ++ r)) (ms ++ e, r')

theorem MemBody.nil : MemBody [] [] := fun _ _ _ h => h

theorem MemBody.append {a b : List Tok} {d e : List (Text × CT)} (ha : MemBody a d) (hb : MemBody b e) : MemBody (a ++ b) (d ++ e) := by
  intro r x r' h
  rw [List.append_assoc, List.append_assoc]
  exact ha _ _ _ (hb _ _ _ h)

theorem MemBody.one {ts : List Tok} {n : Text} {ty : CT} (hs : Leads ts)
    (h : ∀ r, Ev (declaration · (ts ++ .semi :: r)) (some n, ty, .semi :: r)) : MemBody (ts ++ [.semi]) [(n, ty)] := by
  intro r e r' he
  obtain ⟨w, ts, rfl, _⟩ := hs
  have h := h r
  simp only [List.append_assoc, List.cons_append, List.nil_append] at h ⊢
  refine Ev.step (h := fun m => match declaration m (.id w :: (ts ++ .semi :: r)) with
    | some (some n, ty, .semi :: r) => (structBody m r).map fun (ms, r) => ((n, ty) :: ms, r)
    | _ => none) (fun _ => rfl) ?_
  refine Ev.subst (f := fun m => declaration m (.id w :: (ts ++ .semi :: r))) h (F := fun m o => match o with
    | some (some n, ty, .semi :: r) => (structBody m r).map fun (ms, r) => ((n, ty) :: ms, r)
    | _ => none) ?_
  exact he.map fun (ms, r) => ((n, ty) :: ms, r)

theorem structBody_end (r : List Tok) : Ev (structBody · (.bad '}' :: r)) ([], r) :=
  ⟨1, fun m hm => by obtain ⟨m, rfl⟩ : ∃ k, m = k + 1 := ⟨m - 1, by omega⟩; rfl⟩

theorem MemBody.reads {ts : List Tok} {ms : List (Text × CT)} (h : MemBody ts ms) (r : List Tok) :
    Ev (structBody · (ts ++ .bad '}' :: r)) (ms, r) := by
  have := h (.bad '}' :: r) [] r (structBody_end r)
  rwa [List.append_nil] at this

theorem Units.struct {s n : Text} {ts : List Tok} {ms : List (Text × CT)} (h : MemBody ts ms) :
    Units (.id ktypedef :: .id kstruct :: .id s :: .bad '{' :: ts ++ [.bad '}', .id n, .semi]) [(n, .struct ms)] := by
  refine .one (by simp) fun r => ?_
  obtain ⟨k, hk⟩ := h.reads (.id n :: .semi :: r)
  refine ⟨k, fun m hm => ?_⟩
  have := hk m hm
  simp only [List.append_assoc, List.cons_append, List.nil_append] at this ⊢
  rw [unit, if_neg (by decide), if_pos rfl]
  simp only [if_true, structDef, this, Option.bind_some, typedefName]

theorem Units.struct' {n : Text} {ts : List Tok} {ms : List (Text × CT)} (h : MemBody ts ms) :
    Units (.id ktypedef :: .id kstruct :: .bad '{' :: ts ++ [.bad '}', .id n, .semi]) [(n, .struct ms)] := by
  refine .one (by simp) fun r => ?_
  obtain ⟨k, hk⟩ := h.reads (.id n :: .semi :: r)
  refine ⟨k, fun m hm => ?_⟩
  have := hk m hm
  simp only [List.append_assoc, List.cons_append, List.nil_append] at this ⊢
  rw [unit, if_neg (by decide), if_pos rfl]
  simp only [if_true, structDef, this, Option.bind_some, typedefName]

theorem Units.opaque (s n : Text) : Units [.id ktypedef, .id kstruct, .id s, .id n, .semi] [(n, .opaque)] := by
  refine .one (by simp) fun r => ⟨0, fun m _ => ?_⟩
  show unit m (.id ktypedef :: .id kstruct :: .id s :: .id n :: .semi :: r) = _
  rw [unit, if_neg (by decide), if_pos rfl]
  simp only [if_true, structDef, typedefName]

theorem enumBody_skip {ts : List Tok} (h : .bad '}' ∉ ts) (r : List Tok) : enumBody (ts ++ .bad '}' :: r) = some r := by
  induction ts with
  | nil => rfl
  | cons t ts ih =>
    have h1 : t ≠ .bad '}' := fun e => h (by simp [e])
    rw [List.cons_append, enumBody]
    · exact ih fun hm => h (List.mem_cons_of_mem _ hm)
    · intro e; exact h1 e

theorem Units.enum {s n : Text} {ts : List Tok} (h : .bad '}' ∉ ts) :
    Units (.id ktypedef :: .id kenum :: .id s :: .bad '{' :: ts ++ [.bad '}', .id n, .semi]) [(n, .enum)] := by
  refine .one (by simp) fun r => ⟨0, fun m _ => ?_⟩
  simp only [List.append_assoc, List.cons_append, List.nil_append]
  rw [unit, if_neg (by decide), if_pos rfl]
  simp only [if_neg (by decide : ¬ kenum = kstruct), if_true, enumDef, enumBody_skip h, typedefName]

/-- `enum S { … }; typedef K N;` -/
theorem Units.enumInt {s n k : Text} {ts : List Tok} (h : .bad '}' ∉ ts) (hk : k ≠ kconst) (hs : k ≠ kstruct ∧ k ≠ kenum) (hn : n ≠ kconst) :
    Units ((.id kenum :: .id s :: .bad '{' :: ts ++ [.bad '}', .semi]) ++ [.id ktypedef, .id k, .id n, .semi]) [(n, .alias (.name k))] := by
  refine Units.append (d := []) (.one (by simp) fun r => ⟨0, fun m _ => ?_⟩) (.one (by simp) fun r => ?_)
  · simp only [List.append_assoc, List.cons_append, List.nil_append]
    rw [unit, if_pos rfl]
    simp [enumDef, enumBody_skip h]
  · obtain ⟨l, hl⟩ := (Front.name hk).plain (.id n :: .semi :: r) (some n, .name k, .semi :: r) (by simp [hn])
      ((Direct.id hn).after (r := .semi :: r) trivial _)
    refine ⟨l, fun m hm => ?_⟩
    have := hl m hm
    simp only [List.singleton_append] at this
    show unit m (.id ktypedef :: .id k :: .id n :: .semi :: r) = _
    rw [unit, if_neg (by decide), if_pos rfl]
    simp only [if_neg hs.1, if_neg hs.2, this]

end Verif.Headers
