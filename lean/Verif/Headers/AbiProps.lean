import Verif.Headers.AbiCover
import Verif.Headers.AbiLayout
/-!
# C77: C compilers and Rust agree about the types and functions of a header

For every program whose names and texts are fine, and every target.
-/
namespace Verif.Headers
open Text Layout

/-! ### Items -/

theorem fits_fine {P : Prog} {es : List Export} (hd : Declarable P es) {d : List Text} {it : Item} (h : Fits P es d it) : ItemFine P it := by
  cases it with
  | type lang t =>
    obtain ⟨h1, h2, h3, _⟩ := h
    obtain ⟨a, b, c⟩ := hd.types t h3
    refine ⟨h1, h2, a, b, c, ?_⟩
    cases t with
    | adt i g => exact fun docs size fs e f hf => ⟨(hd.types _ (h3.field e hf)).1, (hd.types _ (h3.field e hf)).2.1⟩
    | array n item => exact (hd.types _ h3.item).2.1
    | alias r d inner => exact ⟨(hd.types _ h3.inner).1, (hd.types _ h3.inner).2.1⟩
    | _ => trivial
  | func lang f =>
    have hr : ∀ t ∈ Export.types (.fn f), Reach P es t := fun t ht => .export h.2 ht
    have ha : ∀ a ∈ f.args, Reach P es a.ty := fun a ha => hr _ (by rw [Export.types]; simp; exact .inl ⟨a, ha, rfl⟩)
    have hret : Reach P es f.ret := hr _ (by rw [Export.types]; simp)
    exact ⟨h.1, hd.exports _ h.2, fun a h => ⟨(hd.types _ (ha a h)).1, (hd.types _ (ha a h)).2.1⟩, (hd.types _ hret).1, (hd.types _ hret).2.1⟩
  | const lang c =>
    exact ⟨h.1, hd.exports _ h.2, (hd.types _ (.export h.2 (by simp [Export.types]))).1⟩
  | text s => exact h.elim
  | _ => trivial

theorem fine_texts {P : Prog} {it : Item} (h : ItemFine P it) : ItemTexts P it := by
  cases it with
  | type lang t =>
    obtain ⟨_, h1, h2, h3, h4, h5⟩ := h
    cases t with
    | adt i g =>
      refine ⟨h2, ?_⟩
      change DeclFine (P.decl i g) at h4
      cases hd : P.decl i g with
      | struct docs size fs =>
        rw [hd] at h4
        exact ⟨h4.1, fun f hf => ⟨(h4.2 f hf).1, (h4.2 f hf).2.1, (h5 docs size fs hd f hf).1⟩⟩
      | enum docs int vs =>
        rw [hd] at h4
        exact ⟨h4.1, fun v hv => ⟨(h4.2 v hv).1, (h4.2 v hv).2.1, fun d e => ((h4.2 v hv).2.2 d e).1⟩⟩
      | «opaque» docs => rw [hd] at h4; exact h4
    | alias r docs inner => exact ⟨by simpa [wordsOk] using h2, h4.1, h5.1⟩
    | _ => exact h2
  | func lang f => exact ⟨h.2.1.1, h.2.1.2.1, fun a ha => ⟨(h.2.1.2.2.2 a ha).1, (h.2.2.1 a ha).1⟩, h.2.2.2.1⟩
  | const lang c => exact ⟨h.2.1.1, h.2.1.2.1, h.2.2, h.2.1.2.2.1, h.2.1.2.2.2.1⟩
  | _ => trivial

/-! ### Lookup -/

theorem entry_names {P : Prog} {es : List Export} {d : List Text} {it : Item} (h : Fits P es d it) :
    (entry P it).map (·.1) = (declaredName P it).toList := by
  cases it with
  | type lang t =>
    obtain ⟨_, h2, _⟩ := h
    cases t with
    | adt i g =>
      rw [entry]
      cases P.decl i g with
      | enum docs int vs => cases int <;> simp [enumEntry, declaredName, typeName, cName_adt]
      | _ => simp [declaredName, typeName, cName_adt]
    | array n item => simp [entry, declaredName, typeName, cName_array]
    | alias r docs inner => simp [entry, declaredName, typeName, cName_alias]
    | _ => cases h2
  | func lang f => rfl
  | text s => exact h.elim
  | _ => rfl

theorem lookup_nodup {env : Env} (h : (env.map (·.1)).Nodup) {n : Text} {d : CDef} (hm : (n, d) ∈ env) : env.lookup n = some d := by
  induction env with
  | nil => cases hm
  | cons p env ih =>
    obtain ⟨n', d'⟩ := p
    rw [List.map_cons, List.nodup_cons] at h
    rcases List.mem_cons.1 hm with e | hm
    · injection e with e1 e2
      rw [e1, e2, List.lookup_cons_self]
    · have hne : n ≠ n' := fun e => h.1 (e ▸ List.mem_map.2 ⟨_, hm, rfl⟩)
      rw [List.lookup_cons, beq_false_of_ne hne]
      exact ih h.2 hm

theorem env_names {P : Prog} {es : List Export} {d : List Text} {body : List Item} (h : ∀ it ∈ body, Fits P es d it) :
    (body.flatMap (entry P)).map (·.1) = body.filterMap (declaredName P) := by
  induction body with
  | nil => rfl
  | cons it body ih =>
    rw [List.flatMap_cons, List.map_append, ih fun it hit => h it (by simp [hit]), entry_names (h it (by simp)), List.filterMap_cons]
    cases declaredName P it <;> rfl

/-! ### The header -/

/-- A C compiler sees the tokens of the items. -/
theorem header_read {P : Prog} {m : Nat} {c : Config} {es : List Export} {k : Sink} (hf : Fine P c es)
    (h : (generated P m c es k).2 = none) {eval : List Text → Text → Bool} {defs : List Text} (hc : Compiler c defs) {p e : Text} {body : List Item}
    {defined : List Text} (hi : (generated P m c es k).1.items = .text c.writeBanner :: .text p :: (body ++ [.text e]))
    (hfit : ∀ it ∈ body, Fits P es defined it ∧ (render P it).panics = false) {toks : List Tok}
    (ht : Tk (flat (body.flatMap fun it => (render P it).writes)) toks) :
    ∃ st, (Pp.mk defs [] []).read eval (generated P m c es k).1.out = some st ∧ tokens st.out = toks := by
  have hframe : ∀ it ∈ body, inFrame it = false := fun it hit => by
    have := (hfit it hit).1
    cases it <;> first | rfl | exact this.elim
  have hfine := fun it hit => (⟨fits_fine hf.declarable (hfit it hit).1, (hfit it hit).2⟩ : ItemFine P it ∧ _)
  have hdecl : declarations P (generated P m c es k).1.items = flat (body.flatMap fun it => (render P it).writes) := by
    rw [declarations, hi]
    have : body.filter (fun it => !inFrame it) = body := List.filter_eq_self.2 fun it hit => by rw [hframe it hit]; rfl
    rw [List.filter_cons, List.filter_cons, List.filter_append, this]
    simp [inFrame]
  obtain ⟨D, after, D', decls, h1, h2, h3, _⟩ := C74_linkage P m c es k hf.lang h hf.guard.1 (fun s hs => by rw [hf.banner] at hs; cases hs)
    (fun s hs => by rw [hf.after] at hs; cases hs) (by
      rw [hi]
      intro it hit
      simp only [List.mem_cons, List.mem_append, List.not_mem_nil, or_false] at hit
      rcases hit with rfl | rfl | hit | rfl
      · trivial
      · trivial
      · exact fine_texts (hfine it hit).1
      · trivial) eval ⟨defs, [], []⟩ _ (C74_banner c hf.banner eval _) rfl hc.guard
  rw [hf.after] at h1
  have e1 : (Pp.mk (c.guardName :: defs) [] []).read eval [] = some ⟨c.guardName :: defs, [], []⟩ := rfl
  obtain ⟨rfl, rfl⟩ : D = c.guardName :: defs ∧ after = [] := by
    have := Option.some.inj (h1.symm.trans e1)
    injection this with a _ b
    exact ⟨a, b⟩
  obtain ⟨ls, hg, hr⟩ := ht
  have hdox : dox ∉ c.guardName :: defs := by
    rw [List.mem_cons]
    rintro (e | e)
    · exact hf.guard.2.2 e.symm
    · exact hc.dox e
  obtain ⟨D'', new, r1, _, r2⟩ := hr eval _ hdox
  rw [hdecl, Pp.read] at h2
  have := hg.lines []
  rw [List.append_nil, lines_nil] at this
  rw [this, run_blank_end, r1] at h2
  obtain ⟨rfl, rfl⟩ : D'' = D' ∧ new = decls := by
    have := Option.some.inj h2
    injection this with a _ b
    exact ⟨a, b⟩
  rw [if_neg] at h3
  · refine ⟨_, h3, ?_⟩
    show tokens ([] ++ [] ++ new) = _
    rw [List.nil_append, List.nil_append, r2]
  · rw [List.mem_cons]
    rintro (e | e)
    · exact hf.guard.2.1 e.symm
    · exact hc.cxx e

/-- A C compiler reads these declarations. -/
theorem header_env {P : Prog} {m : Nat} {c : Config} {es : List Export} {k : Sink} (hf : Fine P c es)
    (h : (generated P m c es k).2 = none) {eval : List Text → Text → Bool} {defs : List Text} (hc : Compiler c defs) :
    ReadsAs eval defs (generated P m c es k).1.out ((generated P m c es k).1.items.flatMap (entry P)) := by
  obtain ⟨p, e, body, defined, hp, he, hi, hfit, ho, hl⟩ := header_cov hf.lang hf.sorted h
  have henv : (generated P m c es k).1.items.flatMap (entry P) = body.flatMap (entry P) := by
    rw [hi, List.flatMap_cons, List.flatMap_cons, List.flatMap_append]
    show [] ++ ([] ++ (_ ++ [])) = _
    simp
  rw [henv]
  obtain ⟨toks, ht, hu⟩ := units_items (P := P) (its := body) fun it hit => ⟨fits_fine hf.declarable (hfit it hit).1, (hfit it hit).2⟩
  obtain ⟨st, h1, h2⟩ := header_read hf h (eval := eval) hc hi hfit ht
  exact ⟨st, h1, by rw [h2]; exact hu.reads⟩

/-- They are all that is needed. -/
theorem header_defines {P : Prog} {m : Nat} {c : Config} {es : List Export} {k : Sink} (hf : Fine P c es) (hu : Unambiguous P es)
    (h : (generated P m c es k).2 = none) :
    (∀ A, Defines A P es ((generated P m c es k).1.items.flatMap (entry P))) ∧
      ∀ f, .fn f ∈ es → ((generated P m c es k).1.items.flatMap (entry P)).lookup f.name =
        some (.fn (ctype P.base f.ret) (f.args.map fun a => (some a.name, ctype P.base a.ty))) := by
  obtain ⟨p, e, body, defined, hp, he, hi, hfit, ho, hl⟩ := header_cov hf.lang hf.sorted h
  have hfit' := fun it hit => (hfit it hit).1
  have henv : (generated P m c es k).1.items.flatMap (entry P) = body.flatMap (entry P) := by
    rw [hi, List.flatMap_cons, List.flatMap_cons, List.flatMap_append]
    show [] ++ ([] ++ (_ ++ [])) = _
    simp
  have hnodup : ((body.flatMap (entry P)).map (·.1)).Nodup := by
    have := C39_once P m c es k
    rw [hi, List.filterMap_cons_none rfl, List.filterMap_cons_none rfl, List.filterMap_append] at this
    rw [env_names hfit']
    exact (List.nodup_append.1 this).1
  have hitem : ∀ t, Reach P es t → hasDef t = true → .type .c t ∈ body := fun t ht hn => (reach_item hu hfit' ho hl ht).2 hn
  rw [henv]
  refine ⟨fun A => ⟨?_, ?_, ?_, ?_, ?_⟩, ?_⟩
  · exact fun t ht hn => hu.base A t ht hn
  · exact fun n item ht => lookup_nodup hnodup (List.mem_flatMap.2 ⟨_, hitem _ ht rfl, by simp [entry]⟩)
  · exact fun rn docs inner ht => lookup_nodup hnodup (List.mem_flatMap.2 ⟨_, hitem _ ht rfl, by simp [entry]⟩)
  · intro i g docs int vs ht e
    refine lookup_nodup hnodup (List.mem_flatMap.2 ⟨_, hitem _ ht rfl, ?_⟩)
    rw [entry, e]
    cases int <;> simp [enumEntry]
  · intro i g docs size fs ht e
    refine ⟨lookup_nodup hnodup (List.mem_flatMap.2 ⟨_, hitem _ ht rfl, ?_⟩), fun f hf h0 => ?_⟩
    · rw [entry, e]; simp [memberEntries]
    · have hp := (hfit _ (hitem _ ht rfl)).2
      change (renderDecl P .c (.adt i g) (P.decl i g)).panics = false at hp
      rw [e] at hp
      refine Nat.le_of_not_lt fun ha => ?_
      have := (C63_refuses P.base .c docs (.adt i g) size fs).2 (.inr ⟨f, hf, h0, ha⟩)
      rw [show renderDecl P .c (.adt i g) (.struct docs size fs) = emitStruct P.base .c docs (.adt i g) size fs from rfl, this] at hp
      cases hp
  · intro f hfe
    have hx : (c.lang, Export.fn f) ∈ (generated P m c es k).1.items.filterMap exported := by
      rw [items_exported h]
      exact List.mem_map.2 ⟨_, List.mem_filter.2 ⟨(mem_ordered hf.sorted _).2 hfe, rfl⟩, rfl⟩
    obtain ⟨it, h1, h2⟩ := List.mem_filterMap.1 hx
    have : it = .func c.lang f := by
      cases it with
      | func lang g => simp only [exported, Option.some.injEq, Prod.mk.injEq, Export.fn.injEq] at h2; rw [h2.1, h2.2]
      | _ => simp [exported] at h2
    rw [this, hi] at h1
    simp only [List.mem_cons, List.mem_append, reduceCtorEq, List.not_mem_nil, or_false, false_or] at h1
    exact lookup_nodup hnodup (List.mem_flatMap.2 ⟨_, h1, by simp [entry]⟩)

/-! ### C77 -/

/-- **C77 (types).** If no two types have the same name: a C compiler reads the header, and gives every type that the exports mention, also behind pointers,
the size and the alignment that it has in Rust, and has the same scalars at the same places. (Types without bytes have no
counterpart in C.) -/
theorem C77_types_partial (P : Prog) (m : Nat) (c : Config) (es : List Export) (k : Sink) (hf : Fine P c es) (hu : Unambiguous P es)
    (h : (generated P m c es k).2 = none) (eval : List Text → Text → Bool) (defs : List Text) (hc : Compiler c defs) :
    ∃ env, ReadsAs eval defs (generated P m c es k).1.out env ∧
      ∀ A t s, Reach P es t → RShape A P t s → (s.lay A).1 ≠ 0 → ∃ s', CShape A env (ctype P.base t) s' ∧ SameAbi A s s' :=
  ⟨_, header_env hf h hc, fun A _ _ hr hs h0 => RShape.same ((header_defines hf hu h).1 A) hs hr h0⟩

/-- **C77 (members).** If no two types have the same name: the struct of a C header has the fields of the Rust struct under their names, at the same offsets and
with the same contents, except for those without bytes. -/
theorem C77_members_partial (P : Prog) (m : Nat) (c : Config) (es : List Export) (k : Sink) (hf : Fine P c es) (hu : Unambiguous P es)
    (h : (generated P m c es k).2 = none) (eval : List Text → Text → Bool) (defs : List Text) (hc : Compiler c defs) :
    ∃ env, ReadsAs eval defs (generated P m c es k).1.out env ∧
      ∀ A i g docs size fs ss, Reach P es (.adt i g) → P.decl i g = .struct docs size fs → RShapes A P fs ss →
        ∃ ms ss', env.lookup (cName P.base (.adt i g)) = some (.struct ms) ∧ CShapes A env ms ss' ∧
          All₂ (SameMember A) ((placed A 0 (fs.map (·.name)) ss).filter fun r => (r.2.2.lay A).1 ≠ 0) (placed A 0 (ms.map (·.1)) ss') := by
  refine ⟨_, header_env hf h hc, fun A i g docs size fs ss hr hd hs => ?_⟩
  have hD := (header_defines hf hu h).1 A
  obtain ⟨h1, h2⟩ := hD.struct _ _ _ _ _ hr hd
  obtain ⟨ss', h3, h4⟩ := RShapes.same hD hs (fun f hf => hr.field hd hf) h2
  refine ⟨_, ss', h1, h3, ?_⟩
  have := (h4.same 0).2.2.2
  rw [List.map_map]
  exact this

/-- **C77 (functions).** If no two types have the same name: a C compiler sees a prototype of every exported function, with the parameters in order, under
their names. Each of them is passed as Rust expects it, and so is the result, except for `void` or a type without bytes. -/
theorem C77_functions_partial (P : Prog) (m : Nat) (c : Config) (es : List Export) (k : Sink) (hf : Fine P c es) (hu : Unambiguous P es)
    (h : (generated P m c es k).2 = none) (eval : List Text → Text → Bool) (defs : List Text) (hc : Compiler c defs) :
    ∃ env, ReadsAs eval defs (generated P m c es k).1.out env ∧
      ∀ f, .fn f ∈ es → ∃ ret params, env.lookup f.name = some (.fn ret params) ∧
        All₂ (fun (a : Arg) (p : Option Text × CT) => p.1 = some a.name ∧
          ∀ A s, RShape A P a.ty s → (s.lay A).1 ≠ 0 → ∃ s', CShape A env p.2 s' ∧ SameAbi A s s') f.args params ∧
        (f.ret = .void → ret = .name kvoid) ∧
        ∀ A s, RShape A P f.ret s → (s.lay A).1 ≠ 0 → ∃ s', CShape A env ret s' ∧ SameAbi A s s' := by
  refine ⟨_, header_env hf h hc, fun f hfe => ⟨_, _, (header_defines hf hu h).2 f hfe, ?_, fun e => by rw [e]; rfl, fun A s hs h0 => ?_⟩⟩
  · have ha : ∀ a ∈ f.args, Reach P es a.ty := fun a ha => .export hfe (by rw [Export.types]; simp; exact .inl ⟨a, ha, rfl⟩)
    generalize f.args = args at ha
    induction args with
    | nil => exact .nil
    | cons a args ih =>
      refine .cons ⟨rfl, fun A s hs h0 => ?_⟩ (ih fun a h => ha a (by simp [h]))
      exact RShape.same ((header_defines hf hu h).1 A) hs (ha a (by simp)) h0
  · exact RShape.same ((header_defines hf hu h).1 A) hs (.export hfe (by rw [Export.types]; simp)) h0

/-- **C77 (one meaning).** There is only one way to read a header, and each of its types has only one shape. -/
theorem C77_unique (eval : List Text → Text → Bool) (defs : List Text) (header : Text) (env env' : Env)
    (h : ReadsAs eval defs header env) (h' : ReadsAs eval defs header env') :
    env = env' ∧ ∀ A t s s', CShape A env t s → CShape A env' t s' → s = s' := by
  cases h.unique h'
  exact ⟨rfl, fun _ _ _ _ => CShape.unique⟩

/-! ### Non-vacuity -/

/-- A 64-bit target where every scalar is aligned to its size. -/
def x64 : Abi where
  word := 8
  align s := max 1 (s.size 8)
  wordPos := by decide
  pos s := by omega
  dvd s := by
    rcases Nat.eq_zero_or_pos (s.size 8) with h | h
    · rw [h]; exact ⟨0, rfl⟩
    · rw [Nat.max_eq_right h]; exact Nat.dvd_refl _

namespace Sample

def used : List CTy := [color, .void, line, .int .u32, .constPtr line, .fptr .bool [point], .bool, point, .int .i32, .constPtr point, .array 2 color]

theorem reach_used {t : CTy} (h : Reach P es t) : t ∈ used := by
  induction h with
  | «export» he ht =>
    simp only [es, List.mem_cons, List.not_mem_nil, or_false] at he
    rcases he with rfl | rfl | rfl | rfl <;> simp [Export.types, fill, draw, width] at ht
    · rcases ht with rfl | rfl <;> simp [used]
    · rw [ht]; simp [used]
    · rw [ht]; simp [used]
    · rcases ht with rfl | rfl | rfl <;> simp [used]
  | item _ ih => simp [used, color, line, point] at ih; simp [used, ih, color]
  | constPtr _ ih => simp [used, color, line, point] at ih; rcases ih with rfl | rfl <;> simp [used, line, point]
  | mutPtr _ ih => simp [used, color, line, point] at ih
  | ret _ ih => simp [used, color, line, point] at ih; simp [used, ih]
  | arg _ h ih => simp [used, color, line, point] at ih; rw [ih.2] at h; simp at h; simp [used, h, point]
  | inner _ ih => simp [used, color, line, point] at ih
  | field _ hd hf ih =>
    simp [used, color, line, point] at ih
    rcases ih with ⟨rfl, rfl⟩ | ⟨rfl, rfl⟩ | ⟨rfl, rfl⟩ <;> simp [P, decls] at hd <;> rw [← hd.2.2] at hf <;> simp at hf <;>
      rcases hf with rfl | rfl | rfl <;> simp [used, point, color]

theorem fine : Fine P (cfg .c true) es where
  lang := rfl
  banner := rfl
  after := rfl
  guard := ⟨C74_guard _ rfl (by decide), by decide, by decide⟩
  sorted _ := distinct
  declarable := {
    types := by
      intro t ht
      have := reach_used ht
      have all : used.all (fun t => wordsOk P.base t && declOk t) = true := by decide +kernel
      have h := List.all_eq_true.1 all t this
      rw [Bool.and_eq_true] at h
      refine ⟨h.1, h.2, ?_⟩
      simp only [used, List.mem_cons, List.not_mem_nil, or_false] at this
      rcases this with rfl | rfl | rfl | rfl | rfl | rfl | rfl | rfl | rfl | rfl | rfl
      · exact ⟨nofun, fun v hv => by
          simp only [List.mem_cons, List.not_mem_nil, or_false] at hv
          rcases hv with rfl | rfl <;> exact ⟨nofun, by decide, nofun⟩⟩
      · trivial
      · exact ⟨nofun, fun v hv => by
          simp only [List.mem_cons, List.not_mem_nil, or_false] at hv
          rcases hv with rfl | rfl | rfl <;> exact ⟨nofun, by decide, by decide⟩⟩
      · trivial
      · trivial
      · trivial
      · trivial
      · exact ⟨nofun, fun v hv => by
          simp only [List.mem_cons, List.not_mem_nil, or_false] at hv
          rcases hv with rfl | rfl <;> exact ⟨nofun, by decide, by decide⟩⟩
      · trivial
      · trivial
      · trivial
    exports := by
      intro e he
      simp only [es, List.mem_cons, List.not_mem_nil, or_false] at he
      rcases he with rfl | rfl | rfl | rfl
      · exact ⟨nofun, by decide, by decide, fun a ha => by
          simp only [fill, List.mem_cons, List.not_mem_nil, or_false] at ha
          rcases ha with rfl; exact ⟨by decide, by decide, rfl⟩⟩
      · trivial
      · exact ⟨nofun, by decide, ⟨by decide, by decide, by decide⟩, by decide, by decide⟩
      · exact ⟨nofun, by decide, by decide, fun a ha => by
          simp only [draw, List.mem_cons, List.not_mem_nil, or_false] at ha
          rcases ha with rfl | rfl <;> exact ⟨by decide, by decide, rfl⟩⟩ }

theorem unambiguous : Unambiguous P es where
  types := by
    intro t t' ht ht' hn hn' e
    have h1 := reach_used ht
    have h2 := reach_used ht'
    simp only [used, List.mem_cons, List.not_mem_nil, or_false] at h1 h2
    rcases h1 with rfl | rfl | rfl | rfl | rfl | rfl | rfl | rfl | rfl | rfl | rfl <;> first | cases hn; done | skip
    all_goals
      rcases h2 with rfl | rfl | rfl | rfl | rfl | rfl | rfl | rfl | rfl | rfl | rfl <;> first | rfl | (cases hn'; done) | exact absurd e (by decide +kernel)
  base := by
    intro A t ht hn
    have h1 := reach_used ht
    simp only [used, List.mem_cons, List.not_mem_nil, or_false] at h1
    rcases h1 with rfl | rfl | rfl | rfl | rfl | rfl | rfl | rfl | rfl | rfl | rfl <;> first | rfl | (cases hn; done)
  fns := by
    intro t f ht hn hf
    have h1 := reach_used ht
    simp only [used, List.mem_cons, List.not_mem_nil, or_false] at h1
    simp only [es, List.mem_cons, List.not_mem_nil, or_false, Export.fn.injEq, reduceCtorEq, false_or] at hf
    rcases hf with rfl | rfl <;>
      rcases h1 with rfl | rfl | rfl | rfl | rfl | rfl | rfl | rfl | rfl | rfl | rfl <;> first | (cases hn; done) | decide +kernel

theorem point_shape (A : Abi) (h4 : A.align (.int true 4) = 4) : RShape A P point (.struct [.scalar (.int true 4), .scalar (.int true 4)]) :=
  .struct rfl (.cons (.int .i32) (by rw [Shape.lay, h4]; rfl) (.cons (.int .i32) (by rw [Shape.lay, h4]; rfl) .nil))

theorem color_shape (A : Abi) : RShape A P color (.scalar (.int false 1)) :=
  RShape.enum (int := some .u8) (i := 1) (g := []) (docs := []) (vs := [⟨[], t!"Red", none⟩, ⟨[], t!"Blue", none⟩]) rfl

theorem line_shape : RShape x64 P line (.struct [.struct [.scalar (.int true 4), .scalar (.int true 4)], .scalar .ptr, .array 2 (.scalar (.int false 1))]) :=
  .struct rfl (.cons (point_shape x64 rfl) rfl (.cons .constPtr rfl (.cons (.array (color_shape x64)) rfl .nil)))

end Sample

/-- The sample meets the hypotheses; its `Line` (behind a pointer) has 24 bytes, also in C. -/
example (eval : List Text → Text → Bool) : ∃ env, ReadsAs eval [] (generated Sample.P 7 (Sample.cfg .c true) Sample.es okSink).1.out env ∧
    ∃ s, CShape x64 env (.name t!"Line_t") s ∧ s.lay x64 = (24, 8) := by
  obtain ⟨env, h1, h2⟩ := C77_types_partial Sample.P 7 (Sample.cfg .c true) Sample.es okSink Sample.fine Sample.unambiguous (Sample.succeeds .c true) eval []
    ⟨nofun, nofun, nofun⟩
  obtain ⟨s, h3, h4⟩ := h2 x64 Sample.line _ (.constPtr (.export (e := .fn Sample.draw) (by simp [Sample.es]) (by simp [Export.types, Sample.draw]))) Sample.line_shape (by decide)
  exact ⟨env, h1, s, h3, h4.1.symm.trans (by decide)⟩

/-- The offsets of its members, in C. -/
example (eval : List Text → Text → Bool) : ∃ env, ReadsAs eval [] (generated Sample.P 7 (Sample.cfg .c true) Sample.es okSink).1.out env ∧
    ∃ ms ss, env.lookup t!"Line_t" = some (.struct ms) ∧ CShapes x64 env ms ss ∧
      (placed x64 0 (ms.map (·.1)) ss).map (fun m => (m.1, m.2.1)) = [(t!"from", 0), (t!"to", 8), (t!"colors", 16)] := by
  obtain ⟨env, h1, h2⟩ := C77_members_partial Sample.P 7 (Sample.cfg .c true) Sample.es okSink Sample.fine Sample.unambiguous (Sample.succeeds .c true) eval []
    ⟨nofun, nofun, nofun⟩
  have hl := Sample.line_shape
  cases hl with
  | @struct i g docs size fs ss hd hs =>
    obtain ⟨ms, ss', h3, h4, h5⟩ := h2 x64 2 [] _ _ _ _ (.constPtr (.export (e := .fn Sample.draw) (by simp [Sample.es]) (by simp [Export.types, Sample.draw]; exact .inl rfl))) hd hs
    refine ⟨env, h1, ms, ss', h3, h4, ?_⟩
    have key : ∀ {a b : List (Text × Nat × Shape)}, All₂ (SameMember x64) a b → b.map (fun m => (m.1, m.2.1)) = a.map (fun m => (m.1, m.2.1)) := by
      intro a b h
      induction h with
      | nil => rfl
      | cons h _ ih => rw [List.map_cons, List.map_cons, ih, h.1, h.2.1]
    rw [key h5]
    cases hd
    decide

/-- The function `draw` returns its color as one unsigned byte. -/
example (eval : List Text → Text → Bool) : ∃ env, ReadsAs eval [] (generated Sample.P 7 (Sample.cfg .c true) Sample.es okSink).1.out env ∧
    ∃ ret params, env.lookup t!"draw" = some (.fn ret params) ∧ params.length = 2 ∧
      ∃ s, CShape x64 env ret s ∧ s.scalars x64 0 = [(0, .int false 1)] := by
  obtain ⟨env, h1, h2⟩ := C77_functions_partial Sample.P 7 (Sample.cfg .c true) Sample.es okSink Sample.fine Sample.unambiguous (Sample.succeeds .c true) eval []
    ⟨nofun, nofun, nofun⟩
  obtain ⟨ret, params, h3, h4, _, h5⟩ := h2 Sample.draw (by simp [Sample.es])
  obtain ⟨s, h6, h7⟩ := h5 x64 _ (Sample.color_shape x64) (by decide)
  refine ⟨env, h1, ret, params, h3, ?_, s, h6, (h7.2 0).symm⟩
  have key : ∀ {R : Arg → Option Text × CT → Prop} {a b}, All₂ R a b → b.length = a.length := by
    intro R a b h
    induction h with
    | nil => rfl
    | cons _ _ ih => simp [ih]
  exact key h4

/-! ### Two types of the same name -/

namespace Sample

/-- `mod a { struct Point { x: i32 } }`, `mod b { struct Point { x: u64 } }` -/
def twins : Prog where
  base _ := t!"Point"
  decl
    | 0, _ => .struct [] 4 [⟨[], t!"x", .int .i32, 4, 4⟩]
    | _, _ => .struct [] 8 [⟨[], t!"x", .int .u64, 8, 8⟩]
  size _ := 8

/-- `fn f(a: a::Point, b: b::Point)` -/
def both : List Export := [.fn ⟨[], t!"f", [⟨t!"a", .adt 0 []⟩, ⟨t!"b", .adt 1 []⟩], .void⟩]

theorem reach_twins {t : CTy} (h : Reach twins both t) : t ∈ [.void, .adt 0 [], .adt 1 [], .int .i32, .int .u64] := by
  induction h with
  | «export» he ht =>
    simp only [both, List.mem_cons, List.not_mem_nil, or_false] at he
    subst he
    simp [Export.types] at ht
    rcases ht with rfl | rfl | rfl <;> simp
  | item _ ih => simp at ih
  | constPtr _ ih => simp at ih
  | mutPtr _ ih => simp at ih
  | ret _ ih => simp at ih
  | arg _ h ih => simp at ih
  | inner _ ih => simp at ih
  | field _ hd hf ih =>
    simp at ih
    rcases ih with ⟨rfl, rfl⟩ | ⟨rfl, rfl⟩ <;> simp [twins] at hd <;> rw [← hd.2.2] at hf <;> simp at hf <;> rw [hf] <;> simp

theorem fine_twins : Fine twins (cfg .c true) both where
  lang := rfl
  banner := rfl
  after := rfl
  guard := ⟨C74_guard _ rfl (by decide), by decide, by decide⟩
  sorted _ := by
    intro e he e' he' _
    simp only [both, List.mem_cons, List.not_mem_nil, or_false] at he he'
    rw [he, he']
  declarable := {
    types := by
      intro t ht
      have := reach_twins ht
      simp only [List.mem_cons, List.not_mem_nil, or_false] at this
      rcases this with rfl | rfl | rfl | rfl | rfl
      · exact ⟨rfl, rfl, trivial⟩
      · exact ⟨by decide, rfl, nofun, fun v hv => by
          simp only [List.mem_cons, List.not_mem_nil, or_false] at hv
          rcases hv with rfl; exact ⟨nofun, by decide, by decide⟩⟩
      · exact ⟨by decide, rfl, nofun, fun v hv => by
          simp only [List.mem_cons, List.not_mem_nil, or_false] at hv
          rcases hv with rfl; exact ⟨nofun, by decide, by decide⟩⟩
      · exact ⟨rfl, rfl, trivial⟩
      · exact ⟨rfl, rfl, trivial⟩
    exports := by
      intro e he
      simp only [both, List.mem_cons, List.not_mem_nil, or_false] at he
      subst he
      exact ⟨nofun, by decide, by decide, fun a ha => by
        simp only [List.mem_cons, List.not_mem_nil, or_false] at ha
        rcases ha with rfl | rfl <;> exact ⟨by decide, by decide, rfl⟩⟩ }

def isPoint : CDef → Bool
  | .struct [(n, .name m)] => n = t!"x" && m = t!"int32_t"
  | _ => false

def isF : CDef → Bool
  | .fn _ [_, (_, .name m)] => m = t!"Point_t"
  | _ => false

theorem isPoint_eq {d : CDef} (h : isPoint d = true) : d = .struct [(t!"x", .name t!"int32_t")] := by
  unfold isPoint at h
  split at h
  · simp only [Bool.and_eq_true, decide_eq_true_eq] at h
    rw [h.1, h.2]
  · cases h

theorem isF_eq {d : CDef} (h : isF d = true) : ∃ ret a n, d = .fn ret [a, (n, .name t!"Point_t")] := by
  unfold isF at h
  split at h
  · rw [of_decide_eq_true h]; exact ⟨_, _, _, rfl⟩
  · cases h

end Sample

/-- **C77** fails if two types have the same name (short names ignore the modules, see C36). The header has only the first
of them, and no error is reported: for C compilers the second parameter of `f` has 4 bytes, for Rust 8. -/
theorem C77_fails_same_name (eval : List Text → Text → Bool) :
    Fine Sample.twins (Sample.cfg .c true) Sample.both ∧ (generated Sample.twins 7 (Sample.cfg .c true) Sample.both okSink).2 = none ∧
    ∃ env, ReadsAs eval [] (generated Sample.twins 7 (Sample.cfg .c true) Sample.both okSink).1.out env ∧
      ∃ ret a b, env.lookup t!"f" = some (.fn ret [a, b]) ∧
        (∃ s, CShape x64 env b.2 s ∧ s.lay x64 = (4, 4)) ∧ ∃ s, RShape x64 Sample.twins (.adt 1 []) s ∧ s.lay x64 = (8, 8) := by
  have hs : (generated Sample.twins 7 (Sample.cfg .c true) Sample.both okSink).2 = none := by decide +kernel
  refine ⟨Sample.fine_twins, hs, _, header_env Sample.fine_twins hs ⟨nofun, nofun, nofun⟩, ?_⟩
  have h1 : (((generated Sample.twins 7 (Sample.cfg .c true) Sample.both okSink).1.items.flatMap (entry Sample.twins)).lookup t!"Point_t").any Sample.isPoint = true := by
    decide +kernel
  have h2 : (((generated Sample.twins 7 (Sample.cfg .c true) Sample.both okSink).1.items.flatMap (entry Sample.twins)).lookup t!"f").any Sample.isF = true := by
    decide +kernel
  generalize (generated Sample.twins 7 (Sample.cfg .c true) Sample.both okSink).1.items.flatMap (entry Sample.twins) = env at h1 h2
  have key : ∀ {p : CDef → Bool} {o : Option CDef}, o.any p = true → ∃ d, o = some d ∧ p d = true := by
    intro p o h
    cases o with
    | none => cases h
    | some d => exact ⟨d, rfl, h⟩
  obtain ⟨d, e1, h1⟩ := key h1
  obtain ⟨d', e2, h2⟩ := key h2
  rw [Sample.isPoint_eq h1] at e1
  obtain ⟨ret, a, n, rfl⟩ := Sample.isF_eq h2
  exact ⟨_, _, _, e2, ⟨_, .struct (ms := [(t!"x", .name t!"int32_t")]) rfl e1 (.cons (.base rfl) .nil), by decide⟩,
    .struct [.scalar (.int false 8)], .struct (i := 1) (g := []) rfl (.cons (.int .u64) rfl .nil), by decide⟩

end Verif.Headers
