import Verif.JsExport.RegisterSpec
/-!
# JavaScript exports and their registration: C83
-/
namespace Verif.JsExport
open Spec

/-! ## Lemmas -/

theorem parse_render (items : List (Item × Bool)) (a : Attrs) :
    parseAttrs a (items.flatMap Item.render) =
      match givenNames items with
      | [] => some { a with skipNapiImport := a.skipNapiImport || items.any (fun i => i.1 == .skip) }
      | [n] => if a.jsName.isSome then none else
          some { jsName := some n, skipNapiImport := a.skipNapiImport || items.any (fun i => i.1 == .skip) }
      | _ => none := by
  have noComma : ∀ items : List (Item × Bool), dropComma (items.flatMap Item.render) = items.flatMap Item.render := by
    intro items
    cases items with
    | nil => rfl
    | cons i is => obtain ⟨i, c⟩ := i; cases i <;> simp [Item.render, dropComma]
  induction items generalizing a with
  | nil => simp [parseAttrs, givenNames]
  | cons i is ih =>
    obtain ⟨i, c⟩ := i
    have drop : ∀ c : Bool, dropComma ((if c then [Tok.comma] else []) ++ is.flatMap Item.render) = is.flatMap Item.render := by
      intro c; cases c
      · simpa using noComma is
      · simp [dropComma]
    cases i with
    | name n =>
      simp only [List.flatMap_cons, Item.render, List.cons_append, List.nil_append, parseAttrs, drop, ih]
      cases a.jsName with
      | some m =>
        have : givenNames ((Item.name n, c) :: is) = n :: givenNames is := rfl
        rw [this]
        cases givenNames is <;> simp
      | none =>
        have : givenNames ((Item.name n, c) :: is) = n :: givenNames is := rfl
        rw [this]
        cases h : givenNames is with
        | nil => simp; rfl
        | cons m ms => cases ms <;> simp
    | skip =>
      simp only [List.flatMap_cons, Item.render, List.cons_append, List.nil_append, parseAttrs, drop, ih]
      have : givenNames ((Item.skip, c) :: is) = givenNames is := rfl
      rw [this]
      simp

theorem parse_complete (ts : List Tok) (a b : Attrs) (h : parseAttrs a ts = some b) :
    ∃ items : List (Item × Bool), ts = items.flatMap Item.render := by
  have comma : ∀ ts : List Tok, ∃ c : Bool, ts = (if c then [Tok.comma] else []) ++ dropComma ts := by
    intro ts
    unfold dropComma
    split
    · exact ⟨true, rfl⟩
    · exact ⟨false, rfl⟩
  fun_induction parseAttrs a ts with
  | case1 => exact ⟨[], rfl⟩
  | case2 => simp at h
  | case3 a n ts _ ih =>
    obtain ⟨items, hi⟩ := ih h
    obtain ⟨c, hc⟩ := comma ts
    refine ⟨(.name n, c) :: items, ?_⟩
    simp only [List.flatMap_cons, ← hi, Item.render, ← hc, List.cons_append, List.nil_append]
  | case4 a ts ih =>
    obtain ⟨items, hi⟩ := ih h
    obtain ⟨c, hc⟩ := comma ts
    refine ⟨(.skip, c) :: items, ?_⟩
    simp only [List.flatMap_cons, ← hi, Item.render, ← hc, List.cons_append, List.nil_append]
  | case5 => simp at h

/-- What the attribute parser accepts, and what it answers. -/
theorem parse_iff (ts : List Tok) (n : Option String) :
    (∃ a, parseAttrs {} ts = some a ∧ a.jsName = n) ↔ Says ts n := by
  constructor
  · rintro ⟨a, h, hn⟩
    obtain ⟨items, rfl⟩ := parse_complete _ _ _ h
    refine ⟨items, rfl, ?_⟩
    rw [parse_render] at h
    cases hg : givenNames items with
    | nil => rw [hg] at h; simp at h; subst h; subst hn; rfl
    | cons m ms =>
      rw [hg] at h
      cases ms with
      | nil => simp at h; subst h; subst hn; rfl
      | cons => simp at h
  · rintro ⟨items, rfl, hg⟩
    cases n with
    | none => exact ⟨_, by rw [parse_render, hg]; rfl, rfl⟩
    | some n => exact ⟨_, by rw [parse_render, hg]; rfl, rfl⟩

theorem bindParams_eq {V : Type} (undef : V) (args : List V) (i : Nat) (xs : List String) (env : List (String × V)) :
    bindParams undef args i (xs.map .ident) env =
      ((xs.zipIdx i).map fun p => (p.1, ctxGet undef args p.2)).reverse ++ env := by
  induction xs generalizing i env with
  | nil => simp [bindParams]
  | cons x xs ih => simp [bindParams, ih]

theorem supported {ps : List Pat} (h : ps.any unsupported = false) : ∃ xs : List String, ps = xs.map .ident := by
  induction ps with
  | nil => exact ⟨[], rfl⟩
  | cons p ps ih =>
    simp at h
    obtain ⟨xs, rfl⟩ := ih (by simpa using h.2)
    cases p with
    | ident x => exact ⟨x :: xs, rfl⟩
    | other => simp [unsupported] at h
    | receiver => simp [unsupported] at h

theorem lookup_of_mem {V : Type} {env : List (String × V)} (hd : (env.map (·.1)).Nodup) {x : String} {v : V}
    (h : (x, v) ∈ env) : env.lookup x = some v := by
  induction env with
  | nil => simp at h
  | cons p ps ih =>
    obtain ⟨y, w⟩ := p
    simp only [List.map_cons, List.nodup_cons] at hd
    rcases List.mem_cons.mp h with h | h
    · cases h; simp
    · have : x ≠ y := fun c => hd.1 (c ▸ List.mem_map.mpr ⟨_, h, rfl⟩)
      have hb : (x == y) = false := by simpa using this
      rw [List.lookup_cons, hb]
      exact ih hd.2 h

theorem expandAll_mem {V : Type} {undef : V} {fs : List (Fun V)} {es : List (Entry V)} (h : expandAll undef fs = some es) :
    List.Perm (fs.filterMap (expand undef)) es ∧ ∀ f ∈ fs, (expand undef f).isSome := by
  induction fs generalizing es with
  | nil => simp [expandAll] at h; subst h; simp
  | cons f fs ih =>
    simp only [expandAll] at h
    split at h
    · rename_i e es' he hes
      cases h
      obtain ⟨h1, h2⟩ := ih hes
      simp only [List.filterMap_cons, he, List.mem_cons, forall_eq_or_imp, Option.isSome_some, true_and]
      exact ⟨h1.cons _, h2⟩
    · simp at h

theorem registerAll_other {V : Type} (refuse : String → Bool) (es : List (Entry V)) (x : Exports V) (n : String)
    (h : ∀ e ∈ es, e.name = n → refuse n = true) : registerAll refuse es x n = x n := by
  induction es generalizing x with
  | nil => rfl
  | cons e es ih =>
    simp only [registerAll]
    rw [ih _ fun e' he' => h e' (List.mem_cons_of_mem _ he')]
    simp only [createNamedMethod]
    by_cases hr : refuse e.name = true
    · simp [hr]
    · simp only [hr, Bool.false_eq_true, if_false]
      rw [if_neg]
      intro c
      exact hr (c ▸ h e List.mem_cons_self c.symm)

theorem registerAll_mem {V : Type} (refuse : String → Bool) (es : List (Entry V)) (x : Exports V) (e : Entry V) (he : e ∈ es)
    (hd : (es.map (·.name)).Nodup) (hr : refuse e.name = false) : registerAll refuse es x e.name = some e.method := by
  induction es generalizing x with
  | nil => simp at he
  | cons f es ih =>
    simp only [List.map_cons, List.nodup_cons] at hd
    simp only [registerAll]
    rcases List.mem_cons.mp he with rfl | he
    · rw [registerAll_other]
      · simp [createNamedMethod, hr]
      · intro e' he' hn
        exact absurd (hn ▸ List.mem_map.mpr ⟨e', he', rfl⟩) hd.1
    · exact ih _ he hd.2

/-! ## C83 -/

/-- The attribute: `js_name = …` at most once and `__skip_napi_import` are accepted, in any order, and nothing else; the
function is exported under the name given, or else its own. -/
theorem C83_names {V : Type} (undef : V) (f : Fun V) (hp : ∀ p ∈ f.params, ∃ x, p = .ident x) (n : String) :
    (∃ e, expand undef f = some e ∧ e.name = n) ↔ Named f n := by
  have hu : f.params.any unsupported = false := by
    rw [List.any_eq_false]; intro p hm
    obtain ⟨x, rfl⟩ := hp p hm
    simp [unsupported]
  simp only [Named, ← parse_iff, expand, hu]
  constructor
  · rintro ⟨e, h, hn⟩
    cases ha : parseAttrs {} f.attrs with
    | none => simp [ha] at h
    | some a => simp [ha] at h; subst h; exact ⟨_, ⟨a, rfl, rfl⟩, hn.symm⟩
  · rintro ⟨o, ⟨a, ha, rfl⟩, rfl⟩
    simp only [ha]
    exact ⟨_, rfl, rfl⟩

example : Says [.ident "js_name", .eq, .ident "withCString", .comma, .ident "__skip_napi_import"] (some "withCString") :=
  ⟨[(.name "withCString", true), (.skip, false)], rfl, rfl⟩

/-- Two names, or anything else in the attribute, are compile errors. -/
theorem C83_refuses {V : Type} (undef : V) (f : Fun V) (h : ∀ n, ¬ Says f.attrs n) : expand undef f = none := by
  simp only [expand]
  cases ha : parseAttrs {} f.attrs with
  | none => rfl
  | some a => exact absurd ((parse_iff _ _).mp ⟨a, ha, rfl⟩) (h _)

example : parseAttrs {} [.ident "js_name", .eq, .ident "a", .comma, .ident "js_name", .eq, .ident "b"] = none := by
  simp [parseAttrs, dropComma]

/-- A call from JavaScript runs the body once with every parameter bound to the argument at its position, `undefined` when
the call has fewer, and answers what the body answers; further arguments are ignored. -/
theorem C83_arguments_partial {V : Type} (undef : V) (f : Fun V) (e : Entry V) (h : expand undef f = some e)
    (hd : f.params.Nodup) (args : List V) :
    ∃ env, Receives undef f.params args env ∧ e.method args = f.body env := by
  simp only [expand] at h
  split at h
  · simp at h
  · rename_i a ha
    split at h
    · simp at h
    · rename_i hu
      cases h
      refine ⟨_, ?_, rfl⟩
      obtain ⟨xs, hxs⟩ := supported (by simpa using hu)
      rw [hxs] at hd
      rw [hxs, bindParams_eq]
      have hnd : xs.Nodup := by
        have := hd
        rw [List.nodup_iff_pairwise_ne, List.pairwise_map] at this
        exact this.imp fun h c => h (by rw [c])
      refine ⟨by simp, ?_⟩
      intro i x hi
      simp only [List.append_nil]
      apply lookup_of_mem
      · have : (List.map (fun p : String × Nat => p.1) (xs.zipIdx 0)) = xs := by simp
        rw [List.map_reverse, List.map_map]
        show (List.map (fun p : String × Nat => p.1) (xs.zipIdx 0)).reverse.Nodup
        rw [this]
        rw [List.nodup_iff_pairwise_ne, List.pairwise_reverse]
        exact (List.nodup_iff_pairwise_ne.mp hnd).imp fun h => h.symm
      · simp only [List.mem_reverse, List.mem_map]
        refine ⟨(x, i), ?_, rfl⟩
        rw [List.getElem?_map, Option.map_eq_some_iff] at hi
        obtain ⟨y, hy, hxy⟩ := hi
        cases hxy
        rw [List.mem_zipIdx_iff_getElem?]
        exact hy

/-- A function of two parameters. -/
def sub_ : Fun Int where
  attrs := [.ident "js_name", .eq, .ident "sub"]
  name := "ffi_sub"
  params := [.ident "a", .ident "b"]
  body := fun env => match env.lookup "a", env.lookup "b" with
    | some a, some b => .ok (a - b)
    | _, _ => .error "unbound"

example : ∃ e, expand 0 sub_ = some e ∧ e.name = "sub" ∧ e.method [7, 4] = .ok 3 ∧ e.method [7] = .ok 7
    ∧ e.method [7, 4, 9] = .ok 3 := by
  have h : expand 0 sub_ = some ⟨"sub", fun args => sub_.body (bindParams 0 args 0 sub_.params [])⟩ := by
    simp [expand, sub_, parseAttrs, dropComma, unsupported]
  exact ⟨_, h, rfl, rfl, rfl, rfl⟩

/-- What `C83_arguments_partial` leaves out: Rust refuses two parameters of the same name, but here they compile, and the
first argument is lost. -/
theorem C83_fails_same_name {V : Type} (undef : V) (body : List (String × V) → Except String V) (x : String) :
    let f : Fun V := ⟨[], "f", [.ident x, .ident x], body⟩
    ∃ e, expand undef f = some e ∧ ∀ v w env, bindParams undef [v, w] 0 f.params [] = env → env.lookup x = some w := by
  refine ⟨_, by simp [expand, parseAttrs, unsupported]; rfl, ?_⟩
  rintro v w env rfl
  simp [bindParams, ctxGet]

/-- The module: with distinct names, and if Node.js refuses none of them, `exports` has exactly the annotated functions under
their names, in whatever order the linker lists them. -/
theorem C83_exports_partial {V : Type} (undef : V) (fs : List (Fun V)) (es order : List (Entry V))
    (hc : expandAll undef fs = some es) (ho : order.Perm es) (hd : (es.map (·.name)).Nodup)
    (refuse : String → Bool) (hr : ∀ e ∈ es, refuse e.name = false) :
    ∃ x, load refuse order = some x ∧
      ∀ n m, x n = some m ↔ ∃ f ∈ fs, ∃ e, expand undef f = some e ∧ e.name = n ∧ e.method = m := by
  refine ⟨_, rfl, ?_⟩
  obtain ⟨hp, _⟩ := expandAll_mem hc
  have hd' : (order.map (·.name)).Nodup := (ho.map _).nodup_iff.mpr hd
  have mem : ∀ e, e ∈ order ↔ ∃ f ∈ fs, expand undef f = some e := by
    intro e
    rw [ho.mem_iff, ← hp.mem_iff, List.mem_filterMap]
  intro n m
  constructor
  · intro h
    by_cases hn : ∃ e ∈ order, e.name = n
    · obtain ⟨e, he, rfl⟩ := hn
      rw [registerAll_mem _ _ _ _ he hd' (hr e (ho.mem_iff.mp he))] at h
      cases h
      obtain ⟨f, hf, hfe⟩ := (mem e).mp he
      exact ⟨f, hf, e, hfe, rfl, rfl⟩
    · rw [registerAll_other] at h
      · simp at h
      · intro e he c; exact absurd ⟨e, he, c⟩ hn
  · rintro ⟨f, hf, e, hfe, rfl, rfl⟩
    have he : e ∈ order := (mem e).mpr ⟨f, hf, hfe⟩
    exact registerAll_mem _ _ _ _ he hd' (hr e (ho.mem_iff.mp he))

/-- Without attributes. -/
def neg_ : Fun Int where
  attrs := []
  name := "neg"
  params := [.ident "a"]
  body := fun env => match env.lookup "a" with | some a => .ok (-a) | none => .error "unbound"

example : ∃ es, expandAll 0 [sub_, neg_] = some es ∧ (es.map (·.name)) = ["sub", "neg"] := by
  refine ⟨_, by simp [expandAll, expand, sub_, neg_, parseAttrs, dropComma, unsupported]; rfl, rfl⟩

/-- What `C83_exports_partial` leaves out, names used twice: two functions exported under one name compile and load; which one
JavaScript gets depends on the order chosen by the linker, and the other is lost. -/
theorem C83_fails_duplicate {V : Type} (n : String) (m₁ m₂ : List V → Except String V) :
    (∃ x, load (fun _ => false) [⟨n, m₁⟩, ⟨n, m₂⟩] = some x ∧ x n = some m₂)
    ∧ ∃ x, load (fun _ => false) [⟨n, m₂⟩, ⟨n, m₁⟩] = some x ∧ x n = some m₁ :=
  ⟨⟨_, rfl, by simp [registerAll, createNamedMethod]⟩, ⟨_, rfl, by simp [registerAll, createNamedMethod]⟩⟩

/-- What `C83_exports_partial` leaves out, refusals: when Node.js refuses a registration the module loads all the same, without
an error, and the function is missing. -/
theorem C83_fails_silent {V : Type} (refuse : String → Bool) (e : Entry V) (hr : refuse e.name = true) (order : List (Entry V)) :
    ∃ x, load refuse order = some x ∧ x e.name = none :=
  ⟨_, rfl, registerAll_other _ _ _ _ fun _ _ _ => hr⟩

/-- Functions that are not refused are exported all the same. -/
theorem C83_others {V : Type} (refuse : String → Bool) (order : List (Entry V)) (hd : (order.map (·.name)).Nodup)
    (e : Entry V) (he : e ∈ order) (hr : refuse e.name = false) : ∃ x, load refuse order = some x ∧ x e.name = some e.method :=
  ⟨_, rfl, registerAll_mem _ _ _ _ he hd hr⟩

end Verif.JsExport
