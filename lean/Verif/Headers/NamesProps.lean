import Verif.Headers.NamesLemmas
import Verif.Headers.CheckProps
/-!
# C92: names in a C header do not clash, and macros do not change its declarations
-/
namespace Verif.Headers
open Text

/-! ### The header -/

/-- The lines of a header, and the macros they define. -/
theorem header_lines {P : Prog} {m : Nat} {c : Config} {es : List Export} {k : Sink} (hf : Fine P c es) (h : (generated P m c es k).2 = none)
    {U : Text → Prop} (hg : U c.guardName) {p e : Text} {body : List Item} (hp : c.prelude = some p) (he : c.epilogue = some e)
    (hi : (generated P m c es k).1.items = .text c.writeBanner :: .text p :: (body ++ [.text e])) {toks : List Tok}
    (ht : Tm U (flat (body.flatMap fun it => (render P it).writes)) toks) :
    ∀ l ∈ split '\n' (code .code (generated P m c es k).1.out), LineOk U l := by
  obtain ⟨bs, hb1, hb2, hb3⟩ := default_banner c hf.banner c.guardName
  obtain ⟨p', hp', hpl⟩ := lines_head hf.lang hf.guard.1 fun s hs => by rw [hf.after] at hs; cases hs
  obtain ⟨e', he', hel⟩ := lines_tail hf.lang hf.guard.1
  obtain rfl : p = p' := by rw [hp] at hp'; exact Option.some.inj hp'
  obtain rfl : e = e' := by rw [he] at he'; exact Option.some.inj he'
  obtain ⟨_, dl, hdl, hok⟩ := ht
  have hout : (generated P m c es k).1.out = bs ++ '\n' :: (p ++ (flat (body.flatMap fun it => (render P it).writes) ++ e)) := by
    rw [out_eq h, hi]
    simp only [List.flatMap_cons, List.flatMap_append, List.flatMap_nil, flat_append]
    rw [show flat (render P (.text c.writeBanner)).writes = c.writeBanner by simp [render, flat], hb1,
      show flat (render P (.text p)).writes = p by simp [render, flat], show flat (render P (.text e)).writes = e by simp [render, flat]]
    simp [flat]
  have hal : c.afterLines = [] := by rw [Config.afterLines, hf.after]
  rw [hout, hb2.lines, hpl, hdl.lines, hel, hb3, hal]
  have hcxx : LineOk U t!"#ifdef __cplusplus" := .of (k := t!"ifdef") (r := t!"__cplusplus") (by decide) nofun
  intro l hl
  simp only [List.mem_append, head, tail, List.mem_cons, List.not_mem_nil, or_false, List.nil_append] at hl
  rcases hl with (rfl | rfl | rfl) | ((rfl | rfl | rfl | rfl | rfl | rfl) | hl | rfl | rfl | rfl | rfl | rfl | rfl | rfl)
  all_goals first
    | exact .plain (by decide)
    | exact hcxx
    | exact hok l hl
    | exact .of (k := t!"endif") (r := []) (by decide) nofun
    | skip
  · exact .of (directive_name t!"ifndef" (by decide) hf.guard.1) nofun
  · exact .of (directive_name t!"define" (by decide) hf.guard.1) fun _ => by
      show U (ident c.guardName)
      rw [hf.guard.1.ident]; exact hg

/-! ### Lists -/

theorem nodup_sublist {l₁ l₂ : List Text} (h : l₁.Sublist l₂) (h2 : l₂.Nodup) : l₁.Nodup := List.Pairwise.sublist h h2

theorem kept_sublist (fs : List Field) : (kept fs).Sublist fs := List.filter_sublist

theorem nodup_of_map {α β : Type} {f : α → β} {l : List α} (h : (l.map f).Nodup) : l.Nodup := by
  rw [List.Nodup, List.pairwise_map] at h
  exact h.imp fun hne e => hne (by rw [e])

/-! ### C92 -/

/-- **C92.** If the macros are used for nothing else and the enum constants do not clash: a C compiler that replaces macros sees
the declarations that are in the header (those of C77 and C86), and no name has two meanings. -/
theorem C92_names_partial (P : Prog) (m : Nat) (c : Config) (es : List Export) (k : Sink) (ms : Macros) (hf : Fine P c es) (hs : Solid P es)
    (ha : Apart P es) (hm : MacrosApart P c es ms) (h : (generated P m c es k).2 = none) (eval : List Text → Text → Bool)
    (hc : Compiler c (ms.map (·.1))) :
    ∃ env toks, ReadsAs eval (ms.map (·.1)) (generated P m c es k).1.out env ∧ Expands eval ms (generated P m c es k).1.out toks ∧
      (∃ n, ∀ n', n ≤ n' → units n' toks = some env) ∧ NoClash env toks := by
  obtain ⟨p, e, body, D, hp, he, hi, hfit, ho, hl⟩ := header_cov hf.lang hf.sorted h
  have hfit' := fun it hit => (hfit it hit).1
  have hd := hf.declarable
  have henv : (generated P m c es k).1.items.flatMap (entry P) = body.flatMap (entry P) := by
    rw [hi, List.flatMap_cons, List.flatMap_cons, List.flatMap_append]
    show [] ++ ([] ++ (_ ++ [])) = _
    simp
  have hone : (body.filterMap (declaredName P)).Nodup := by
    have := C39_once P m c es k
    rw [hi, List.filterMap_cons_none rfl, List.filterMap_cons_none rfl, List.filterMap_append] at this
    exact (List.nodup_append.1 this).1
  have hT : Tm (¬ Used P es ·) (flat (body.flatMap fun it => (render P it).writes)) (body.flatMap (itemToks P)) :=
    tm_items (fun it hit => ⟨fits_fine hd (hfit it hit).1, (hfit it hit).2⟩) fun l k hk => hm.2.1 k (hfit' _ hk).2
  obtain ⟨st, hr1, hr2⟩ := header_read hf h (eval := eval) hc hi hfit hT.1
  have hids : Ids (Used P es) (body.flatMap (itemToks P)) := .flatMap fun it hit => ids_item hd ha (hfit' it hit)
  have hreads := header_env hf h (eval := eval) hc
  rw [henv] at hreads
  obtain ⟨ms', hx⟩ := run_expand (U := (¬ Used P es ·)) (header_lines hf h hm.1 hp he hi hT) (pp := ⟨ms.map fun x : Text × List Tok => x.1, [], []⟩) (ms := ms)
    (fun x hx => hm.2.2 x hx) (eval := eval) (pp' := st) hr1 (by rw [hr2]; exact hids.mono fun _ hw hn => hn hw)
  refine ⟨_, _, hreads, ⟨_, hx, hr2⟩, ?_, ⟨body.flatMap (constsOf P), consts_items hd ha hs hfit', ?_, ?_⟩, ?_, ?_, ?_⟩
  · obtain ⟨st', h1, h2⟩ := hreads
    have : st' = st := Option.some.inj (h1.symm.trans hr1)
    rw [this, hr2] at h2
    exact h2
  · -- ordinary identifiers
    have hmem : ∀ it ∈ body, ∀ n ∈ constsOf P it, ∃ lang i g docs int vs, it = .type lang (.adt i g) ∧ Reach P es (.adt i g) ∧
        P.decl i g = .enum docs int vs ∧ n ∈ variantNames P i g vs := by
      intro it hit n hn
      have hfi := hfit' it hit
      match it, hfi, hn with
      | .type lang (.adt i g), hfi, hn =>
        rw [constsOf] at hn
        cases hdecl : P.decl i g with
        | enum docs int vs => rw [hdecl] at hn; exact ⟨lang, i, g, docs, int, vs, rfl, hfi.2.2.1, hdecl, hn⟩
        | struct docs size fs => rw [hdecl] at hn; cases hn
        | «opaque» docs => rw [hdecl] at hn; cases hn
    rw [List.nodup_append, env_names hfit']
    refine ⟨hone, ?_, ?_⟩
    · rw [List.Nodup, List.pairwise_flatMap]
      constructor
      · intro it hit
        have hfi := hfit' it hit
        cases it with
        | type lang t =>
          cases t with
          | adt i g =>
            rw [constsOf]
            cases hdecl : P.decl i g with
            | enum docs int vs => exact (ha.own i g docs int vs hfi.2.2.1 hdecl).1
            | struct docs size fs => exact .nil
            | «opaque» docs => exact .nil
          | _ => exact .nil
        | _ => exact .nil
      · have hone' := hone
        rw [List.Nodup, List.pairwise_filterMap] at hone'
        refine hone'.imp_of_mem ?_
        intro a b hma hmb hne x hx y hy
        obtain ⟨la, i, g, docs, int, vs, rfl, r1, d1, m1⟩ := hmem a hma x hx
        obtain ⟨lb, j, g', docs', int', vs', rfl, r2, d2, m2⟩ := hmem b hmb y hy
        intro exy
        have hty : CTy.adt i g ≠ .adt j g' := by
          intro et
          have h1 := (hfit' _ hma).1
          have h2 := (hfit' _ hmb).1
          subst h1; subst h2
          rw [et] at hne
          exact hne _ rfl _ rfl rfl
        exact ha.others i g docs int vs j g' docs' int' vs' r1 d1 r2 d2 hty x m1 (exy ▸ m2)
    · intro a ha' b hb' hab
      obtain ⟨it, hit, hx⟩ := List.mem_flatMap.1 hb'
      obtain ⟨lang, i, g, docs, int, vs, rfl, hr, hdecl, hn⟩ := hmem it hit b hx
      obtain ⟨_, _, h3, h4⟩ := (ha.own i g docs int vs hr hdecl).2 b hn
      obtain ⟨it', hit', hname⟩ := List.mem_filterMap.1 ha'
      have hfi := hfit' it' hit'
      cases it' with
      | type l t =>
        obtain ⟨rfl, hn', hr', _⟩ := hfi
        have : a = cName P.base t := by
          cases t with
          | adt i g => rw [cName_adt]; exact (Option.some.inj hname).symm
          | array n t => rw [cName_array]; exact (Option.some.inj hname).symm
          | alias r d t => rw [cName_alias]; exact (Option.some.inj hname).symm
          | _ => cases hn'
        exact h3 t hr' hn' (hab ▸ this)
      | func l f => exact h4 f hfi.2 (hab ▸ (Option.some.inj hname).symm)
      | _ => cases hname
  · intro n hn
    obtain ⟨it, hit, hx⟩ := List.mem_flatMap.1 hn
    have hfi := hfit' it hit
    match it, hfi, hx with
    | .type lang (.adt i g), hfi, hx =>
      rw [constsOf] at hx
      cases hdecl : P.decl i g with
      | enum docs int vs =>
        rw [hdecl] at hx
        have := (ha.own i g docs int vs hfi.2.2.1 hdecl).2 n hx
        exact ⟨this.1, this.2.1⟩
      | struct docs size fs => rw [hdecl] at hx; cases hx
      | «opaque» docs => rw [hdecl] at hx; cases hx
  · -- tags
    rw [tags_items hd ha hs hfit']
    constructor
    · refine nodup_of_map (f := (· ++ t!"_t")) (nodup_sublist ?_ hone)
      clear hone hT hids hreads hx hr1 hr2 henv hi ho hl
      induction body with
      | nil => exact List.nil_sublist _
      | cons it body ih =>
        have ih := ih (fun it hit => hfit it (by simp [hit])) fun it hit => hfit' it (by simp [hit])
        rw [List.flatMap_cons, List.map_append]
        have hfi := hfit' it (by simp)
        have other : tagsOf P it = [] → ((tagsOf P it).map (· ++ t!"_t") ++ (body.flatMap (tagsOf P)).map (· ++ t!"_t")).Sublist
            ((it :: body).filterMap (declaredName P)) := by
          intro e0
          rw [e0, List.filterMap_cons]
          split
          · exact ih
          · exact ih.trans (List.sublist_cons_self _ _)
        cases it with
        | type lang t =>
          cases t with
          | adt i g =>
            have : declaredName P (.type lang (.adt i g)) = some (short P.base (.adt i g) ++ t!"_t") := by
              rw [hfi.1]; rfl
            rw [List.filterMap_cons_some this]
            exact ih.cons_cons _
          | _ => exact other rfl
        | _ => exact other rfl
    · intro n hn
      obtain ⟨it, hit, hx⟩ := List.mem_flatMap.1 hn
      have hfi := hfit' it hit
      match it, hfi, hx with
      | .type lang (.adt i g), hfi, hx =>
        rw [List.mem_singleton.1 hx]
        exact ha.tags i g hfi.2.2.1
  · -- members
    intro n ms hmem
    obtain ⟨it, hit, hx⟩ := List.mem_flatMap.1 hmem
    have hfi := hfit' it hit
    match it, hfi, hx with
    | .type lang (.adt i g), hfi, hx =>
      rw [entry] at hx
      cases hdecl : P.decl i g with
      | enum docs int vs => rw [hdecl] at hx; cases int <;> simp [enumEntry] at hx
      | struct docs size fs =>
        rw [hdecl] at hx
        simp only [List.mem_singleton, Prod.mk.injEq, CDef.struct.injEq] at hx
        rw [hx.2, memberEntries, List.map_map]
        exact nodup_sublist ((kept_sublist fs).map _) (ha.fields i g docs size fs hfi.2.2.1 hdecl)
      | «opaque» docs => rw [hdecl] at hx; simp at hx
    | .type lang (.array n item), hfi, hx =>
      simp only [entry, List.mem_singleton, Prod.mk.injEq, CDef.struct.injEq] at hx
      rw [hx.2]; simp
    | .type lang (.alias rn docs inner), hfi, hx => simp [entry] at hx
    | .func lang f, hfi, hx => simp [entry] at hx
  · -- parameters
    intro n ret ps hmem
    obtain ⟨it, hit, hx⟩ := List.mem_flatMap.1 hmem
    have hfi := hfit' it hit
    match it, hfi, hx with
    | .type lang (.adt i g), hfi, hx =>
      rw [entry] at hx
      cases hdecl : P.decl i g with
      | enum docs int vs => rw [hdecl] at hx; cases int <;> simp [enumEntry] at hx
      | struct docs size fs => rw [hdecl] at hx; simp at hx
      | «opaque» docs => rw [hdecl] at hx; simp at hx
    | .type lang (.array n item), hfi, hx => simp [entry] at hx
    | .type lang (.alias rn docs inner), hfi, hx => simp [entry] at hx
    | .func lang f, hfi, hx =>
      simp only [entry, List.mem_singleton, Prod.mk.injEq, CDef.fn.injEq] at hx
      rw [hx.2.2, List.filterMap_map]
      have : f.args.filterMap ((·.1) ∘ fun a => (some a.name, ctype P.base a.ty)) = f.args.map (·.name) := by
        induction f.args with
        | nil => rfl
        | cons a as ih => exact congrArg (a.name :: ·) ih
      rw [this]
      exact ha.args f hfi.2

/-- **C92** (enum constants). In camel case, the constants of enums have distinct names: what `Apart` wants of them. -/
theorem C92_constants_partial (P : Prog) (es : List Export) (h : Camel P es) :
    (∀ i g docs int vs, Reach P es (.adt i g) → P.decl i g = .enum docs int vs → (variantNames P i g vs).Nodup) ∧
    ∀ i g docs int vs j h docs' int' vs', Reach P es (.adt i g) → P.decl i g = .enum docs int vs → Reach P es (.adt j h) →
      P.decl j h = .enum docs' int' vs' → CTy.adt i g ≠ .adt j h → ∀ n ∈ variantNames P i g vs, n ∉ variantNames P j h vs' := by
  have inj : ∀ {s v s' v' : Text}, s.head?.any isAsciiUpper = true → Verif.Names.NoUnderscoreLower (s ++ v) → s'.head?.any isAsciiUpper = true →
      Verif.Names.NoUnderscoreLower (s' ++ v') → screaming (s ++ v) = screaming (s' ++ v') → s ++ v = s' ++ v' := by
    intro s v s' v' h1 h2 h3 h4 he
    rw [← constName_screaming, ← constName_screaming] at he
    cases s with
    | nil => cases h1
    | cons c s =>
      cases s' with
      | nil => cases h3
      | cons d s' => exact Verif.Names.C46_two_enums_partial c s v d s' v' (by simpa using h1) (by simpa using h3) h2 h4 he
  constructor
  · intro i g docs int vs hr hd
    have hv := h.variants i g docs int vs hr hd
    have hc := h.case i g docs int vs
    rw [List.Nodup, List.pairwise_map] at hv
    rw [variantNames, List.Nodup, List.pairwise_map]
    refine hv.imp_of_mem fun ha hb hne he => hne ?_
    exact List.append_cancel_left (inj (hc _ hr hd ha).1 (hc _ hr hd ha).2 (hc _ hr hd hb).1 (hc _ hr hd hb).2 he)
  · intro i g docs int vs j g' docs' int' vs' hr hd hr' hd' hne n hn hn'
    obtain ⟨v, hv, rfl⟩ := List.mem_map.1 hn
    obtain ⟨w, hw, he⟩ := List.mem_map.1 hn'
    have c1 := h.case i g docs int vs v hr hd hv
    have c2 := h.case j g' docs' int' vs' w hr' hd' hw
    exact h.joined i g docs int vs j g' docs' int' vs' hr hd hr' hd' hne v hv w hw (inj c1.1 c1.2 c2.1 c2.2 he.symm)

namespace Sample

/-- All names of the sample. -/
def allNames : List Text :=
  [ktypedef, kstruct, kenum, kconst, kvoid, t!"idx", t!"ssize_t"] ++ stdTypes ++
  [t!"Point_t", t!"Color_t", t!"Line_t", t!"Color_2_array_t", t!"Point", t!"Color", t!"Line", t!"x", t!"y", t!"from", t!"to", t!"colors",
   t!"COLOR_RED", t!"COLOR_BLUE", t!"fill", t!"draw", t!"with", t!"line", t!"cb"]

theorem used_names {n : Text} (h : Used P es n) : n ∈ allNames ∨ numeric n = true := by
  have adts : ∀ {i g}, Reach P es (.adt i g) → g = [] ∧ (i = 0 ∨ i = 1 ∨ i = 2) := by
    intro i g hr
    have := reach_used hr
    simp [used, color, line, point] at this
    rcases this with ⟨rfl, rfl⟩ | ⟨rfl, rfl⟩ | ⟨rfl, rfl⟩ <;> simp
  cases h with
  | c h => exact .inl (by simp only [allNames, List.mem_append]; exact .inl (.inl h))
  | std h => exact .inl (by simp only [allNames, List.mem_append]; exact .inl (.inr h))
  | number h => exact .inr h
  | type hr hn =>
    left
    have := reach_used hr
    simp only [used, List.mem_cons, List.not_mem_nil, or_false] at this
    rcases this with rfl | rfl | rfl | rfl | rfl | rfl | rfl | rfl | rfl | rfl | rfl
    all_goals first
      | cases hn; done
      | decide +kernel
  | tag hr =>
    left
    obtain ⟨rfl, rfl | rfl | rfl⟩ := adts hr <;> decide +kernel
  | field hr hd hf =>
    left
    obtain ⟨rfl, rfl | rfl | rfl⟩ := adts hr <;> simp [P, decls] at hd
    · rw [← hd.2.2] at hf; simp at hf; rcases hf with rfl | rfl <;> decide +kernel
    · rw [← hd.2.2] at hf; simp at hf; rcases hf with rfl | rfl | rfl <;> decide +kernel
  | constant hr hd hn =>
    left
    obtain ⟨rfl, rfl | rfl | rfl⟩ := adts hr <;> simp [P, decls] at hd
    rw [← hd.2.2] at hn
    simp [variantNames] at hn
    rcases hn with rfl | rfl <;> decide +kernel
  | fn hf =>
    left
    simp only [es, List.mem_cons, List.not_mem_nil, or_false, Export.fn.injEq, reduceCtorEq, false_or] at hf
    rcases hf with rfl | rfl <;> decide +kernel
  | arg hf ha =>
    left
    simp only [es, List.mem_cons, List.not_mem_nil, or_false, Export.fn.injEq, reduceCtorEq, false_or] at hf
    rcases hf with rfl | rfl
    · simp [fill] at ha; rw [ha]; decide +kernel
    · simp [draw] at ha; rcases ha with rfl | rfl <;> decide +kernel

/-- A compiler with a macro of its own. -/
def macros : Macros := [(t!"NULL", [.lp, .lp, .id kvoid, .star, .rp, .id t!"0", .rp])]

theorem macrosApart : MacrosApart P (cfg .c true) es macros := by
  have h : ∀ n : Text, n ∉ allNames → numeric n = false → ¬ Used P es n := fun n h1 h2 hu => by
    rcases used_names hu with h | h
    · exact h1 h
    · rw [h2] at h; cases h
  refine ⟨h _ (by decide +kernel) (by decide +kernel), fun k hk => ?_, fun m hm => ?_⟩
  · simp only [es, List.mem_cons, List.not_mem_nil, or_false, reduceCtorEq, Export.const.injEq, false_or] at hk
    rw [hk]; exact h _ (by decide +kernel) (by decide +kernel)
  · rw [macros, List.mem_singleton] at hm
    rw [hm]; exact h _ (by decide +kernel) (by decide +kernel)

theorem apart : Apart P es where
  fields i g docs size fs hr hd := by
    have := reach_used hr
    simp [used, color, line, point] at this
    rcases this with ⟨rfl, rfl⟩ | ⟨rfl, rfl⟩ | ⟨rfl, rfl⟩ <;> simp [P, decls] at hd <;> rw [← hd.2.2] <;> decide
  args f hf := by
    simp only [es, List.mem_cons, List.not_mem_nil, or_false, Export.fn.injEq, reduceCtorEq, false_or] at hf
    rcases hf with rfl | rfl <;> decide
  discs i g docs int vs v d hr hd hv hx := by
    have := reach_used hr
    simp [used, color, line, point] at this
    rcases this with ⟨rfl, rfl⟩ | ⟨rfl, rfl⟩ | ⟨rfl, rfl⟩ <;> simp [P, decls] at hd
    rw [← hd.2.2] at hv
    simp at hv
    rcases hv with rfl | rfl <;> cases hx
  tags i g hr := by
    have := reach_used hr
    simp [used, color, line, point] at this
    rcases this with ⟨rfl, rfl⟩ | ⟨rfl, rfl⟩ | ⟨rfl, rfl⟩ <;> decide +kernel
  own i g docs int vs hr hd := by
    have := reach_used hr
    simp [used, color, line, point] at this
    rcases this with ⟨rfl, rfl⟩ | ⟨rfl, rfl⟩ | ⟨rfl, rfl⟩ <;> simp [P, decls] at hd
    rw [← hd.2.2]
    refine ⟨by decide +kernel, fun n hn => ?_⟩
    have hn' : n = t!"COLOR_RED" ∨ n = t!"COLOR_BLUE" := by
      have e : variantNames P 1 [] [⟨[], t!"Red", none⟩, ⟨[], t!"Blue", none⟩] = [t!"COLOR_RED", t!"COLOR_BLUE"] := by decide +kernel
      have : n ∈ [t!"COLOR_RED", t!"COLOR_BLUE"] := e ▸ hn
      simpa using this
    refine ⟨?_, ?_, fun t ht hdef => ?_, fun f hf => ?_⟩
    · rcases hn' with rfl | rfl <;> decide +kernel
    · rcases hn' with rfl | rfl <;> decide +kernel
    · have := reach_used ht
      simp only [used, List.mem_cons, List.not_mem_nil, or_false] at this
      rcases this with rfl | rfl | rfl | rfl | rfl | rfl | rfl | rfl | rfl | rfl | rfl
      all_goals first
        | cases hdef; done
        | (rcases hn' with rfl | rfl <;> decide +kernel)
    · simp only [es, List.mem_cons, List.not_mem_nil, or_false, Export.fn.injEq, reduceCtorEq, false_or] at hf
      rcases hf with rfl | rfl <;> rcases hn' with rfl | rfl <;> decide +kernel
  others i g docs int vs j g' docs' int' vs' hr hd hr' hd' hne := by
    have h1 := reach_used hr
    have h2 := reach_used hr'
    simp [used, color, line, point] at h1 h2
    rcases h1 with ⟨rfl, rfl⟩ | ⟨rfl, rfl⟩ | ⟨rfl, rfl⟩ <;> simp [P, decls] at hd
    rcases h2 with ⟨rfl, rfl⟩ | ⟨rfl, rfl⟩ | ⟨rfl, rfl⟩ <;> simp [P, decls] at hd'
    exact absurd rfl hne

theorem camel : Camel P es where
  case i g docs int vs v hr hd hv := by
    have := reach_used hr
    simp [used, color, line, point] at this
    rcases this with ⟨rfl, rfl⟩ | ⟨rfl, rfl⟩ | ⟨rfl, rfl⟩ <;> simp [P, decls] at hd
    rw [← hd.2.2] at hv
    simp at hv
    rcases hv with rfl | rfl
    · exact ⟨by decide +kernel, Verif.Names.noUnderscore (by decide +kernel)⟩
    · exact ⟨by decide +kernel, Verif.Names.noUnderscore (by decide +kernel)⟩
  variants i g docs int vs hr hd := by
    have := reach_used hr
    simp [used, color, line, point] at this
    rcases this with ⟨rfl, rfl⟩ | ⟨rfl, rfl⟩ | ⟨rfl, rfl⟩ <;> simp [P, decls] at hd
    rw [← hd.2.2]
    decide
  joined i g docs int vs j g' docs' int' vs' hr hd hr' hd' hne := by
    have h1 := reach_used hr
    have h2 := reach_used hr'
    simp [used, color, line, point] at h1 h2
    rcases h1 with ⟨rfl, rfl⟩ | ⟨rfl, rfl⟩ | ⟨rfl, rfl⟩ <;> simp [P, decls] at hd
    rcases h2 with ⟨rfl, rfl⟩ | ⟨rfl, rfl⟩ | ⟨rfl, rfl⟩ <;> simp [P, decls] at hd'
    exact absurd rfl hne

end Sample

/-- The sample meets the hypotheses. -/
example : (variantNames Sample.P 1 [] [⟨[], t!"Red", none⟩, ⟨[], t!"Blue", none⟩]).Nodup :=
  (C92_constants_partial Sample.P Sample.es Sample.camel).1 1 [] _ _ _ (.export (e := .fn Sample.fill) (by simp [Sample.es]) (by simp [Sample.fill, Export.types, Sample.color])) rfl

/-- The sample meets the hypotheses. -/
example (eval : List Text → Text → Bool) :
    ∃ env toks, ReadsAs eval [t!"NULL"] (generated Sample.P 7 (Sample.cfg .c true) Sample.es okSink).1.out env ∧
      Expands eval Sample.macros (generated Sample.P 7 (Sample.cfg .c true) Sample.es okSink).1.out toks ∧
      (∃ n, ∀ n', n ≤ n' → units n' toks = some env) ∧ NoClash env toks :=
  C92_names_partial Sample.P 7 _ _ okSink Sample.macros Sample.fine Sample.solid Sample.apart Sample.macrosApart (Sample.succeeds .c true) eval
    ⟨by decide +kernel, by decide +kernel, by decide +kernel⟩

/-! ### Clashes -/

/-- Accepted exports whose header a C compiler without macros of its own rejects, because of a name. -/
def Clashes (P : Prog) (es : List Export) : Prop :=
  Fine P (Sample.cfg .c true) es ∧ (generated P 9 (Sample.cfg .c true) es okSink).2 = none ∧
  ∀ eval, ∃ toks, Expands eval [] (generated P 9 (Sample.cfg .c true) es okSink).1.out toks ∧
    ∀ env n, units n toks = some env → ¬ NoClash env toks

/-- Conditions with expressions. -/
def noIf (l : Text) : Bool := match directive l with
  | some (k, _) => k ≠ t!"if" && k ≠ t!"elif"
  | none => true

theorem run_noIf (eval eval' : List Text → Text → Bool) : ∀ (ls : List Text) (st : Ppx), ls.all noIf = true → st.run eval ls = st.run eval' ls
  | [], _, _ => rfl
  | l :: ls, st, h => by
    rw [List.all_cons, Bool.and_eq_true] at h
    have hp : st.pp.step eval l = st.pp.step eval' l := by
      rw [Pp.step, Pp.step]
      have h1 := h.1
      rw [noIf] at h1
      cases hd : directive l with
      | none => rfl
      | some x =>
        obtain ⟨k, r⟩ := x
        rw [hd] at h1
        simp only [ne_eq, decide_not, Bool.and_eq_true, Bool.not_eq_true', decide_eq_false_iff_not] at h1
        simp only [if_neg h1.1, if_neg h1.2]
    have hs : st.step eval l = st.step eval' l := by rw [Ppx.step, Ppx.step, hp]
    rw [Ppx.run, Ppx.run, hs]
    cases st.step eval' l with
    | none => rfl
    | some st' => exact run_noIf eval eval' ls st' h.2

/-- The tokens of the header of a sample. -/
def toksOf (P : Prog) (es : List Export) : Option (List Tok) :=
  ((Ppx.mk ⟨[], [], []⟩ [] []).run (fun _ _ => false)
    (split '\n' (code .code (generated P 9 (Sample.cfg .c true) es okSink).1.out))).map (·.toks)

theorem clashes {P : Prog} {es : List Export} {toks : List Tok} (hf : Fine P (Sample.cfg .c true) es)
    (h : (generated P 9 (Sample.cfg .c true) es okSink).2 = none) (hn : (split '\n' (code .code (generated P 9 (Sample.cfg .c true) es okSink).1.out)).all noIf = true)
    (ht : toksOf P es = some toks) (hx : ∀ env n, units n toks = some env → ¬ NoClash env toks) : Clashes P es := by
  refine ⟨hf, h, fun eval => ⟨toks, ?_, hx⟩⟩
  rw [toksOf, Option.map_eq_some_iff] at ht
  obtain ⟨st, h1, h2⟩ := ht
  exact ⟨st, (run_noIf eval _ _ _ hn).trans h1, h2⟩

/-- The header of samples. -/
theorem fine_clash {P : Prog} {es : List Export} (hs : DistinctNames es) (L : List CTy) (hL : ∀ t, Reach P es t → t ∈ L)
    (hw : L.all (fun t => wordsOk P.base t && declOk t) = true) (ht : ∀ t ∈ L, TypeFine P t) (he : ∀ e ∈ es, ExportFine e) :
    Fine P (Sample.cfg .c true) es where
  lang := rfl
  banner := rfl
  after := rfl
  guard := ⟨C74_guard _ rfl (by decide), by decide, by decide⟩
  sorted _ := hs
  declarable := {
    types := fun t hr => by
      have := List.all_eq_true.1 hw t (hL t hr)
      rw [Bool.and_eq_true] at this
      exact ⟨this.1, this.2, ht t (hL t hr)⟩
    exports := he }

namespace Sample

/-- `enum Foo { BarBaz }`, `enum FooBar { Baz }`, `struct Both { foo: Foo, bar: FooBar }` and `struct register { x: i32 }` -/
def clashing : Prog where
  base | 0 => t!"Foo" | 1 => t!"FooBar" | 2 => t!"Both" | _ => t!"register"
  decl
    | 0, _ => .enum [] none [⟨[], t!"BarBaz", none⟩]
    | 1, _ => .enum [] none [⟨[], t!"Baz", none⟩]
    | 2, _ => .struct [] 8 [⟨[], t!"foo", .adt 0 [], 4, 4⟩, ⟨[], t!"bar", .adt 1 [], 4, 4⟩]
    | _, _ => .struct [] 4 [⟨[], t!"x", .int .i32, 4, 4⟩]
  size _ := 4

/-- `const name: u32 = 640;` -/
def number (name : Text) : Export := .const ⟨[], name, .int .u32, false, t!"640"⟩

theorem clashing_types : ∀ t ∈ [.adt 0 [], .adt 1 [], .adt 2 [], .adt 3 [], .int .i32, .int .u32, .void], TypeFine clashing t := by
  intro t ht
  simp only [List.mem_cons, List.not_mem_nil, or_false] at ht
  have word : ∀ {n : Text}, IsWord n → ∀ v ∈ [(⟨[], n, none⟩ : Variant)], DocsOk v.docs ∧ IsWord v.name ∧ ∀ d, v.disc = some d → ValueOk d ∧ '}' ∉ d := by
    intro n hn v hv
    rw [List.mem_singleton] at hv
    subst hv
    exact ⟨docsOk_nil rfl, hn, nofun⟩
  rcases ht with rfl | rfl | rfl | rfl | rfl | rfl | rfl
  · exact ⟨docsOk_nil rfl, word (by decide)⟩
  · exact ⟨docsOk_nil rfl, word (by decide)⟩
  · exact (fineTest_types (P := clashing) (t := .adt 2 []) (by decide +kernel)).2.2
  · exact (fineTest_types (P := clashing) (t := .adt 3 []) (by decide +kernel)).2.2
  all_goals trivial

theorem one_fine {n : Text} (hn : IsWord n ∧ n ≠ kconst) {ty : CTy} (hv : isVoid ty = false) : ExportFine (.fn ⟨[], t!"f", [⟨n, ty⟩], .void⟩) :=
  ⟨docsOk_nil rfl, (by decide : IsWord t!"f"), (by decide : t!"f" ≠ kconst), fun a ha => by
    rw [List.mem_singleton] at ha
    subst ha; exact ⟨hn.1, hn.2, hv⟩⟩

end Sample

/-- **C92** fails for parameters with the name of an exported constant: `const a: u32 = 640;` and `fn f(a: u32)`. The prototype
becomes `void f (uint32_t ((uint32_t) 640));`. -/
theorem C92_fails_param : Clashes Sample.clashing [Sample.number t!"a", .fn ⟨[], t!"f", [⟨t!"a", .int .u32⟩], .void⟩] :=
  clashes (toks := [.id kvoid, .id t!"f", .lp, .id t!"uint32_t", .lp, .lp, .id t!"uint32_t", .rp, .id t!"640", .rp, .rp, .semi])
    (fine_clash (by intro e he e' he' h; simp only [List.mem_cons, List.not_mem_nil, or_false] at he he'; rcases he with rfl | rfl <;> rcases he' with rfl | rfl <;> first | rfl | exact absurd h (by decide))
      [.int .u32, .void] (fun t ht => reach_closed _ (by simp [Sample.number, Export.types]) (by simp) ht) (by decide +kernel)
      (fun t ht => Sample.clashing_types t (by simp only [List.mem_cons, List.not_mem_nil, or_false] at ht ⊢; rcases ht with rfl | rfl <;> simp))
      (by
        intro e he
        simp only [List.mem_cons, List.not_mem_nil, or_false] at he
        rcases he with rfl | rfl
        · exact ⟨docsOk_nil rfl, (by decide : IsWord t!"a"), ⟨by decide, by decide, by decide⟩, (by decide : t!"a" ≠ t!"__cplusplus"), (by decide : t!"a" ≠ t!"DOXYGEN")⟩
        · exact Sample.one_fine ⟨by decide, by decide⟩ rfl))
    (by decide +kernel) (by decide +kernel) (by decide +kernel)
    (by
      intro env n h
      exfalso
      by_cases hn : n < 20
      · have : ∀ n < 20, units n [.id kvoid, .id t!"f", .lp, .id t!"uint32_t", .lp, .lp, .id t!"uint32_t", .rp, .id t!"640", .rp, .rp, .semi] = none := by decide +kernel
        rw [this n hn] at h; cases h
      · obtain ⟨m, rfl⟩ : ∃ m, n = m + 20 := ⟨n - 20, by omega⟩
        have : units (m + 20) [.id kvoid, .id t!"f", .lp, .id t!"uint32_t", .lp, .lp, .id t!"uint32_t", .rp, .id t!"640", .rp, .rp, .semi] = none := rfl
        rw [this] at h; cases h)

/-- **C92** fails for constants of different enums that get the same name: `Foo::BarBaz` and `FooBar::Baz` are both `FOO_BAR_BAZ`. -/
theorem C92_fails_constants : Clashes Sample.clashing (Sample.one (.adt 2 [])) :=
  clashes (toks := (toksOf Sample.clashing (Sample.one (.adt 2 []))).getD [])
    (fine_clash (by intro e he e' he' _; simp only [Sample.one, List.mem_cons, List.not_mem_nil, or_false] at he he'; rw [he, he'])
      [.adt 2 [], .adt 0 [], .adt 1 [], .void] (fun t ht => reach_closed _ (by simp [Sample.one, Export.types]) (by simp [Sample.clashing]) ht)
      (by decide +kernel)
      (fun t ht => Sample.clashing_types t (by simp only [List.mem_cons, List.not_mem_nil, or_false] at ht ⊢; rcases ht with rfl | rfl | rfl | rfl <;> simp))
      (by intro e he; rw [Sample.one, List.mem_singleton] at he; subst he; exact Sample.one_fine ⟨by decide, by decide⟩ rfl))
    (by decide +kernel) (by decide +kernel) (by decide +kernel)
    (by
      intro env n _ hc
      obtain ⟨cs, h1, h2, _⟩ := hc.ordinary
      have e : enumNames .outside ((toksOf Sample.clashing (Sample.one (.adt 2 []))).getD []) = some [t!"FOO_BAR_BAZ", t!"FOO_BAR_BAZ"] := by decide +kernel
      rw [e] at h1
      cases h1
      exact absurd (List.nodup_append.1 h2).2.1 (by decide))

/-- **C92** fails for exported constants with the name of the constant of an enum: `const FOO_BAR_BAZ: u32 = 640;` and
`Foo::BarBaz`. The enum becomes `typedef enum Foo { ((uint32_t) 640), } Foo_t;`. -/
theorem C92_fails_const : Clashes Sample.clashing (Sample.number t!"FOO_BAR_BAZ" :: Sample.one (.adt 0 [])) :=
  clashes (toks := (toksOf Sample.clashing (Sample.number t!"FOO_BAR_BAZ" :: Sample.one (.adt 0 []))).getD [])
    (fine_clash (by intro e he e' he' h; simp only [Sample.one, List.mem_cons, List.not_mem_nil, or_false] at he he'; rcases he with rfl | rfl <;> rcases he' with rfl | rfl <;> first | rfl | exact absurd h (by decide))
      [.int .u32, .adt 0 [], .void] (fun t ht => reach_closed _ (by simp [Sample.one, Sample.number, Export.types]) (by simp [Sample.clashing]) ht)
      (by decide +kernel)
      (fun t ht => Sample.clashing_types t (by simp only [List.mem_cons, List.not_mem_nil, or_false] at ht ⊢; rcases ht with rfl | rfl | rfl <;> simp))
      (by
        intro e he
        simp only [Sample.one, List.mem_cons, List.not_mem_nil, or_false] at he
        rcases he with rfl | rfl
        · exact ⟨docsOk_nil rfl, (by decide : IsWord t!"FOO_BAR_BAZ"), ⟨by decide, by decide, by decide⟩,
            (by decide : t!"FOO_BAR_BAZ" ≠ t!"__cplusplus"), (by decide : t!"FOO_BAR_BAZ" ≠ t!"DOXYGEN")⟩
        · exact Sample.one_fine ⟨by decide, by decide⟩ rfl))
    (by decide +kernel) (by decide +kernel) (by decide +kernel)
    (by
      intro env n _ hc
      obtain ⟨cs, h1, _⟩ := hc.ordinary
      have e : enumNames .outside ((toksOf Sample.clashing (Sample.number t!"FOO_BAR_BAZ" :: Sample.one (.adt 0 []))).getD []) = none := by decide +kernel
      rw [e] at h1
      cases h1)

/-- **C92** fails for types whose name C reserves: `struct register { x: i32 }`. -/
theorem C92_fails_tag : Clashes Sample.clashing (Sample.one (.adt 3 [])) :=
  clashes (toks := (toksOf Sample.clashing (Sample.one (.adt 3 []))).getD [])
    (fine_clash (by intro e he e' he' _; simp only [Sample.one, List.mem_cons, List.not_mem_nil, or_false] at he he'; rw [he, he'])
      [.adt 3 [], .int .i32, .void] (fun t ht => reach_closed _ (by simp [Sample.one, Export.types]) (by simp [Sample.clashing]) ht)
      (by decide +kernel)
      (fun t ht => Sample.clashing_types t (by simp only [List.mem_cons, List.not_mem_nil, or_false] at ht ⊢; rcases ht with rfl | rfl | rfl <;> simp))
      (by intro e he; rw [Sample.one, List.mem_singleton] at he; subst he; exact Sample.one_fine ⟨by decide, by decide⟩ rfl))
    (by decide +kernel) (by decide +kernel) (by decide +kernel)
    (by
      intro env n _ hc
      have e : tagNames false ((toksOf Sample.clashing (Sample.one (.adt 3 []))).getD []) = [t!"register"] := by decide +kernel
      exact absurd (hc.tags.2 t!"register" (by rw [e]; exact List.mem_singleton.2 rfl)) (by decide))

end Verif.Headers
