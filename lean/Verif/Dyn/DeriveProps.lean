import Verif.Dyn.DeriveLemmas
/-!
# C78: `#[derive_ReprC(dyn)]` does what the guide says

The English property is in `/verif/properties.jsonl`; the specification in `Verif.Dyn.DeriveSpec`.
-/
namespace Verif.DynDerive

open Verif.Dyn (Coercible FnPtr Decl)

/-! ### Which traits are accepted -/

/-- **C78** (partial) With the parameters of the guide, the traits that are accepted are the simple ones in which
no method has the receiver `&mut self` when another has a pinned one.

Missing: the guide does not mention the latter condition, see `C78_fails_pin_and_mut`. -/
theorem C78_accepts_partial {args : List Tok} (ha : args ∈ guideArgs) (items : List Item) :
    (∃ x, expand args items = .ok x) ↔ Simple items ∧ ¬(HasPin items ∧ Has items true false) := by
  have hc : ∃ c, parseArgs args = .ok c := by
    simp only [guideArgs, List.mem_cons, List.not_mem_nil, or_false] at ha
    rcases ha with rfl | rfl | rfl | rfl <;> exact ⟨_, rfl⟩
  constructor
  · rintro ⟨x, h⟩
    obtain ⟨_, _, _, he, hp, _⟩ := expand_ok h
    exact ⟨he.simple, hp⟩
  · rintro ⟨hs, hp⟩
    obtain ⟨c, hc⟩ := hc
    obtain ⟨es, he⟩ := hs.entries
    exact ⟨_, expand_of hc he hp⟩

/-- **C78** Whatever the parameters, an accepted trait is simple, its parameters begin with their only `dyn`, and
all others are `Clone`; `VirtualPtr` is `Clone` iff there is one. -/
theorem C78_accepted {args : List Tok} {items : List Item} {x : Expansion} (h : expand args items = .ok x) :
    Simple items ∧ (∃ rest, args = .dyn :: rest ∧ ∀ t ∈ rest, t = .clone ∨ t = .comma) ∧
    ∀ i ∈ x.impls, (i.dynClone = true ↔ .clone ∈ args) := by
  obtain ⟨c, es, hc, he, _, rfl⟩ := expand_ok h
  obtain ⟨rest, rfl, h1, h2, h3⟩ := parseArgs_ok hc
  refine ⟨he.simple, ⟨rest, rfl, fun t ht => ?_⟩, fun i hi => ?_⟩
  · cases t with
    | dyn => exact absurd ht h1
    | clone => exact .inl rfl
    | comma => exact .inr rfl
    | other => exact absurd ht h2
  · simp only [expansion, List.mem_map] at hi
    obtain ⟨⟨s, y⟩, _, rfl⟩ := hi
    simpa using h3

/-! ### The vtable -/

theorem clone_mem {args : List Tok} {c : Bool} (h : parseArgs args = .ok c) : decide (.clone ∈ args) = c := by
  obtain ⟨rest, rfl, _, _, h3⟩ := parseArgs_ok h
  cases c <;> simp_all

theorem slots_of {items : List Item} {es : List Entry} (h : Entries items es) :
    (es.map fun e => (e.name, some e.slotTy)).length = items.length ∧
    ∀ (i : Nat) (it : Item) (s : String × Option FnTy), items[i]? = some it →
      (es.map fun e => (e.name, some e.slotTy))[i]? = some s → Slot it s := by
  induction h with
  | nil => exact ⟨rfl, fun i it s h => by simp at h⟩
  | @cons m mt pinned tys its es hm _ ih =>
    refine ⟨by simpa using ih.1, fun i it s h1 h2 => ?_⟩
    cases i with
    | zero =>
      simp only [List.getElem?_cons_zero, Option.some.injEq, List.map_cons] at h1 h2
      subst h1 h2
      exact .mk hm
    | succ i =>
      simp only [List.getElem?_cons_succ, List.map_cons] at h1 h2
      exact ih.2 i it s h1 h2

/-- **C78** The vtable is laid out as in the guide: `release_vptr`; `retain_vptr` iff there is `Clone`; a field for
each method, in the order of the trait, of the type of its signature. -/
theorem C78_vtable {args : List Tok} {items : List Item} {x : Expansion} (h : expand args items = .ok x) :
    IsVTable (decide (.clone ∈ args)) items x.vtable := by
  obtain ⟨c, es, hc, he, _, rfl⟩ := expand_ok h
  rw [clone_mem hc]
  refine ⟨es.map fun e => (e.name, some e.slotTy), ?_, slots_of he⟩
  simp [expansion, vtableDef, releaseTy, retainTy]

theorem length_argNames (n : Nat) : (Verif.Dyn.argNames n).length = n := by simp [Verif.Dyn.argNames]

theorem thunkTy_eq {items : List Item} {es : List Entry} (h : Entries items es) :
    ∀ e ∈ es, e.thunkTy = e.slotTy := by
  induction h with
  | nil => intro e he; simp at he
  | @cons m mt pinned tys its es hm _ ih =>
    intro e he
    rcases List.mem_cons.1 he with rfl | he
    · simp only [Entry.thunkTy, Entry.slotTy, entryOf]
      rw [show (fun x : String × RTy => x.2) = Prod.snd from rfl,
        List.map_snd_zip (by simp [length_argNames])]
    · exact ih e he

theorem mem_impls {c : Bool} {es : List Entry} {i : Impl} (h : i ∈ (expansion c es).impls) :
    (i.send, i.sync) ∈ markers (hasMutability false es) ∧ i.dynClone = c ∧ i.methods = es.map (·.forward) ∧
    i.from_ = conversions ⟨c, i.send, i.sync, hasMutability true es, hasPin es⟩ es := by
  simp only [expansion, List.mem_map] at h
  obtain ⟨⟨s, y⟩, hm, rfl⟩ := h
  exact ⟨hm, rfl, rfl, rfl⟩

theorem mem_conversions {e : Env} {es : List Entry} {c : Conversion} :
    c ∈ conversions e es ↔ eligible e c.src.ptr = true ∧ c.src.pin = e.hasPin ∧
      c.needsClone = (e.clone && c.src.ptr == .box) ∧ c.table = vtableExpr e es c.src.ptr := by
  simp only [conversions, List.mem_map, List.mem_filter]
  constructor
  · rintro ⟨src, ⟨_, h⟩, rfl⟩
    exact ⟨h, rfl, rfl, rfl⟩
  · rintro ⟨h1, h2, h3, h4⟩
    refine ⟨c.src.ptr, ⟨?_, h1⟩, ?_⟩
    · generalize c.src.ptr = q
      rcases q with _ | b | b <;> (try cases b) <;> simp [coercibles]
    · cases c; cases ‹PtrTy›; simp_all

/-- **C78** Each impl of a conversion gives every field of the vtable a function of the type of the field. -/
theorem C78_filled {args : List Tok} {items : List Item} {x : Expansion} (h : expand args items = .ok x)
    {i : Impl} (hi : i ∈ x.impls) {c : Conversion} (hc : c ∈ i.from_) (t : Nat) :
    ((c.table t).map fun (n, f) => (n, some f.ty)) ++ [("_invariant", none)] = x.vtable := by
  obtain ⟨cl, es, _, he, _, rfl⟩ := expand_ok h
  obtain ⟨_, _, _, hf⟩ := mem_impls hi
  rw [hf] at hc
  obtain ⟨h1, _, _, h4⟩ := mem_conversions.1 hc
  have hm : (es.map fun en => (en.name, en.thunk t)).map (fun (x : String × Fn) => (x.1, some x.2.ty))
      = es.map fun e => (e.name, some e.slotTy) := by
    rw [List.map_map]
    exact List.map_congr_left fun e h => by simp [Entry.thunk, thunkTy_eq he e h]
  rw [h4]
  simp only [vtableExpr, List.map_append, releaseFn, h1, ↓reduceIte, retainFn, expansion, vtableDef, hm]
  generalize c.src.ptr = q at h1 ⊢
  rcases q with _ | b | b <;> (try cases b) <;> cases cl <;> simp_all [eligible, releaseTy, retainTy]

theorem decl_of {items : List Item} {es : List Entry} (he : Entries items es) :
    ∃ ms : List (String × Bool), ms = es.map (fun e => (e.name, e.receiver.kind == .reference true)) ∧
      ms.length = items.length ∧
      (∀ (i : Nat) (it : Item) (x : String × Bool), items[i]? = some it → ms[i]? = some x →
        ∃ m pinned tys, it = Item.method m ∧ IsMethod m x.2 pinned tys ∧ x.1 = m.name) ∧
      ms.any (·.2) = hasMutability true es ∧ ms.any (!·.2) = hasMutability false es := by
    refine ⟨_, rfl, ?_⟩
    induction he with
    | nil => exact ⟨rfl, fun i it x h => by simp at h, rfl, rfl⟩
    | @cons m mt pinned tys its es hm _ ih =>
      obtain ⟨i1, i2, i3, i4⟩ := ih
      refine ⟨by simpa using i1, fun i it x h1 h2 => ?_, ?_, ?_⟩
      · cases i with
        | zero =>
          simp only [List.getElem?_cons_zero, Option.some.injEq, List.map_cons] at h1 h2
          subst h1 h2
          refine ⟨m, pinned, tys, rfl, ?_, rfl⟩
          cases mt <;> exact hm
        | succ i =>
          simp only [List.getElem?_cons_succ, List.map_cons] at h1 h2
          exact i2 i it x h1 h2
      · rw [List.map_cons, List.any_cons, i3]
        cases mt <;> simp [hasMutability, entryOf]
      · rw [List.map_cons, List.any_cons, i4]
        cases mt <;> simp [hasMutability, entryOf]

/-- **C78** The functions of the vtable: the function for a method calls the method of this name, and those that
release and retain are the ones of `Verif.Dyn.vtable`, for the trait `d` with the same methods; the conversion is one
that C33, C34 and C35 are about. -/
theorem C78_functions {args : List Tok} {items : List Item} {x : Expansion} (h : expand args items = .ok x)
    {i : Impl} (hi : i ∈ x.impls) {c : Conversion} (hc : c ∈ i.from_) :
    ∃ d : Decl, IsDecl (decide (.clone ∈ args)) items d ∧ d.send = i.send ∧ d.sync = i.sync ∧
      d.generated = true ∧ c.src.ptr.isEligible d = true ∧
      ∀ t, (c.table t).map (fun (n, f) => (n, f.ptr)) =
        [("release_vptr", (Verif.Dyn.vtable c.src.ptr d t).release)]
        ++ ((Verif.Dyn.vtable c.src.ptr d t).retain.map fun f => ("retain_vptr", f)).toList
        ++ (Verif.Dyn.vtable c.src.ptr d t).methods := by
  obtain ⟨cl, es, hcl, he, _, rfl⟩ := expand_ok h
  rw [clone_mem hcl]
  obtain ⟨hmk, _, _, hf⟩ := mem_impls hi
  rw [hf] at hc
  obtain ⟨h1, _, _, h4⟩ := mem_conversions.1 hc
  have key := decl_of he
  obtain ⟨ms, e, k1, k2, k3, k4⟩ := key
  refine ⟨⟨ms, cl, i.send, i.sync⟩, ⟨rfl, k1, k2⟩, rfl, rfl, ?_, ?_, fun t => ?_⟩
  · simp only [markers, List.mem_filter] at hmk
    simp only [Decl.generated, Decl.hasRef, k4]
    exact hmk.2
  · rw [← k3] at h1
    generalize c.src.ptr = q at h1
    rcases q with _ | b | b <;> (try cases b) <;> exact h1
  · rw [h4]
    have hm : (es.map fun en => (en.name, en.thunk t)).map (fun (x : String × Fn) => (x.1, x.2.ptr))
        = ms.map fun m => (m.1, .method t m.1) := by
      rw [e, List.map_map, List.map_map]
      rfl
    simp only [vtableExpr, List.map_append, releaseFn, h1, ↓reduceIte, retainFn, hm, Verif.Dyn.vtable]
    generalize c.src.ptr = q at h1 ⊢
    rcases q with _ | b | b <;> (try cases b) <;> cases cl <;>
      simp_all [eligible, Verif.Dyn.Coercible.release, Verif.Dyn.Coercible.retain]

theorem forwards {items : List Item} {es : List Entry} (h : Entries items es) :
    (es.map (·.forward)).length = items.length ∧ ∀ (j : Nat) (m : Method), items[j]? = some (.method m) →
      (es.map (·.forward))[j]? = some ⟨m.name, Verif.Dyn.argNames (m.inputs.length - 1), m.name,
        Verif.Dyn.argNames (m.inputs.length - 1)⟩ ∧
      ∀ t, (es.map fun e => (e.name, e.thunk t))[j]?.map (fun f => (f.1, f.2.params, f.2.passes)) =
        some (m.name, Verif.Dyn.argNames (m.inputs.length - 1), Verif.Dyn.argNames (m.inputs.length - 1)) := by
  induction h with
  | nil => exact ⟨rfl, fun j m h => by simp at h⟩
  | @cons m mt pinned tys its es hm _ ih =>
    refine ⟨by simpa using ih.1, fun j m' h => ?_⟩
    cases j with
    | zero =>
      simp only [List.getElem?_cons_zero, Option.some.injEq, Item.method.injEq] at h
      subst h
      obtain ⟨_, _, _, self, args, hi, _, ht⟩ := hm
      have hl : args.length = tys.length := by simpa using congrArg List.length ht
      simp [Entry.forward, Entry.thunk, entryOf, hi, hl]
    | succ j =>
      simp only [List.getElem?_cons_succ, List.map_cons] at h ⊢
      exact ih.2 j m' h

/-- **C78** Calls. The method of `VirtualPtr` with the name of the `j`-th method of the trait has parameters named
`__arg1`, `__arg2`, …, as many as the method, calls the field of its own name, and passes all of them in order; the
function for this field in the vtable passes all of its parameters in order. (That the method of the object then
gets the arguments of the caller is `C35_arguments`.) -/
theorem C78_calls {args : List Tok} {items : List Item} {x : Expansion} (h : expand args items = .ok x)
    {i : Impl} (hi : i ∈ x.impls) :
    i.methods.length = items.length ∧
    ∀ (j : Nat) (m : Method), items[j]? = some (.method m) →
      i.methods[j]? = some ⟨m.name, Verif.Dyn.argNames (m.inputs.length - 1), m.name,
        Verif.Dyn.argNames (m.inputs.length - 1)⟩ ∧
      ∀ c ∈ i.from_, ∀ t, ∃ f, (m.name, f) ∈ c.table t ∧ f.ptr = .method t m.name ∧
        f.params = Verif.Dyn.argNames (m.inputs.length - 1) ∧ f.passes = Verif.Dyn.argNames (m.inputs.length - 1) := by
  obtain ⟨cl, es, hcl, he, _, rfl⟩ := expand_ok h
  obtain ⟨_, _, hm, hf⟩ := mem_impls hi
  have hw := forwards he
  rw [hm]
  refine ⟨hw.1, fun j m hj => ⟨(hw.2 j m hj).1, fun c hc t => ?_⟩⟩
  rw [hf] at hc
  obtain ⟨_, _, _, h4⟩ := mem_conversions.1 hc
  have h2 := (hw.2 j m hj).2 t
  rw [Option.map_eq_some_iff] at h2
  obtain ⟨⟨n, f⟩, hmem, hx⟩ := h2
  simp only [Prod.mk.injEq] at hx
  obtain ⟨rfl, hp1, hp2⟩ := hx
  have hmem' := List.mem_of_getElem? hmem
  refine ⟨f, ?_, ?_, hp1, hp2⟩
  · rw [h4]
    simp only [vtableExpr, List.mem_append]
    exact .inr (.inr hmem')
  · obtain ⟨e, _, he⟩ := List.mem_map.1 hmem'
    simp only [Prod.mk.injEq] at he
    obtain ⟨h5, rfl⟩ := he
    rw [← h5]; rfl

theorem names_of {items : List Item} {es : List Entry} (he : Entries items es) :
    es.map (·.name) = methodNames items ∧ ∀ n, n ∈ es.map (·.name) ↔ ∃ m, Item.method m ∈ items ∧ m.name = n := by
  induction he with
  | nil => simp [methodNames]
  | cons hm _ ih =>
    refine ⟨by simp [ih.1, entryOf, methodNames], fun n => ?_⟩
    rw [List.map_cons, List.mem_cons, ih.2 n]
    simp [entryOf, eq_comm, or_and_right, exists_or]

/-- **C78** The definition of the vtable compiles (its fields have distinct names) iff the methods have distinct names
and none is called `release_vptr`, `_invariant`, or, with `Clone`, `retain_vptr`. -/
theorem C78_names {args : List Tok} {items : List Item} {x : Expansion} (h : expand args items = .ok x) :
    (x.vtable.map (·.1)).Nodup ↔
      (methodNames items).Nodup ∧
      ∀ m, .method m ∈ items → m.name ≠ "release_vptr" ∧ m.name ≠ "_invariant" ∧
        (.clone ∈ args → m.name ≠ "retain_vptr") := by
  obtain ⟨cl, es, hcl, he, _, rfl⟩ := expand_ok h
  have hn := names_of he
  have hcm := clone_mem hcl
  have e : ((expansion cl es).vtable.map (·.1)) =
      "release_vptr" :: ((if cl then ["retain_vptr"] else []) ++ (es.map (·.name) ++ ["_invariant"])) := by
    cases cl <;> simp [expansion, vtableDef, List.map_map, Function.comp_def]
  rw [e, ← hn.1]
  have hall : (∀ m, .method m ∈ items → m.name ≠ "release_vptr" ∧ m.name ≠ "_invariant" ∧
        (.clone ∈ args → m.name ≠ "retain_vptr")) ↔
      "release_vptr" ∉ es.map (·.name) ∧ "_invariant" ∉ es.map (·.name) ∧ (cl = true → "retain_vptr" ∉ es.map (·.name)) := by
    rw [hn.2, hn.2, hn.2]
    have : (Tok.clone ∈ args) ↔ cl = true := by rw [← hcm]; simp
    rw [this]
    constructor
    · intro H
      refine ⟨?_, ?_, fun hc => ?_⟩ <;> rintro ⟨m, hm, rfl'⟩
      · exact (H m hm).1 rfl'
      · exact (H m hm).2.1 rfl'
      · exact (H m hm).2.2 hc rfl'
    · rintro ⟨H1, H2, H3⟩ m hm
      exact ⟨fun e => H1 ⟨m, hm, e⟩, fun e => H2 ⟨m, hm, e⟩, fun hc e => H3 hc ⟨m, hm, e⟩⟩
  rw [hall]
  generalize es.map (·.name) = ns
  cases cl
  · simp only [Bool.false_eq_true, ↓reduceIte, List.nil_append, List.nodup_cons, List.mem_append, List.mem_cons, List.not_mem_nil, or_false,
      List.nodup_append, not_or, false_implies, and_true]
    constructor
    · rintro ⟨⟨a, _⟩, b, _, c⟩
      exact ⟨b, a, fun h => (c _ h _ rfl) rfl⟩
    · rintro ⟨a, b, c⟩
      exact ⟨⟨b, by decide⟩, a, by simp, fun x hx y hy => by subst hy; exact fun e => c (e ▸ hx)⟩
  · simp only [↓reduceIte, List.cons_append, List.nil_append, List.nodup_cons, List.mem_cons, List.mem_append,
      List.not_mem_nil, or_false, List.nodup_append, not_or, true_implies]
    constructor
    · rintro ⟨⟨_, a, _⟩, ⟨d, _⟩, b, _, c⟩
      exact ⟨b, a, fun h => (c _ h _ rfl) rfl, d⟩
    · rintro ⟨a, b, c, d⟩
      exact ⟨⟨by decide, b, by decide⟩, ⟨d, by decide⟩, a, by simp,
        fun x hx y hy => by subst hy; exact fun e => c (e ▸ hx)⟩

/-! ### Conversions -/

theorem converts_iff {c : Bool} {es : List Entry} {p : PtrTy}
    {send sync nc : Bool} :
    Converts (expansion c es) p send sync nc ↔
      p ∈ fromImpls ∧ (send, sync) ∈ markers (hasMutability false es) ∧
      eligible ⟨c, send, sync, hasMutability true es, hasPin es⟩ p.ptr = true ∧ p.pin = hasPin es ∧
      nc = (c && p.ptr == .box) := by
  constructor
  · rintro ⟨h0, i, hi, rfl, rfl, cv, hcv, rfl, rfl⟩
    obtain ⟨h1, _, _, h4⟩ := mem_impls hi
    rw [h4] at hcv
    obtain ⟨h5, h6, h7, _⟩ := mem_conversions.1 hcv
    exact ⟨h0, h1, h5, h6, h7⟩
  · rintro ⟨h0, h1, h2, h3, h4⟩
    refine ⟨h0, _, List.mem_map.2 ⟨(send, sync), h1, rfl⟩, rfl, rfl,
      ⟨p, nc, vtableExpr ⟨c, send, sync, hasMutability true es, hasPin es⟩ es p.ptr⟩, ?_, rfl, rfl⟩
    exact mem_conversions.2 ⟨h2, h3, h4, rfl⟩

theorem hasMut_eq {items : List Item} {es : List Entry} (he : Entries items es) {b : Bool}
    (h : b = true ↔ HasMut items) : hasMutability true es = b := by
  rw [Bool.eq_iff_iff, h, he.mutability]
  rfl

theorem hasPin_eq {items : List Item} {es : List Entry} (he : Entries items es) {b : Bool}
    (h : b = true ↔ HasPin items) : hasPin es = b := by
  rw [Bool.eq_iff_iff, h, he.pin]

theorem notBox : (∀ b, (Coercible.rc b == .box) = false) ∧ ∀ b, (Coercible.ref b == .box) = false := by decide

/-- **C78** (partial) The conversions into `VirtualPtr<dyn Trait>` and `VirtualPtr<dyn Send + Sync + Trait>` are those
of the guide's table.

Missing: one marker alone (`C78_fails_send_only`, `C78_fails_sync_only`); `Pin<Rc<_>>` and `Pin<Arc<_>>`
(`C78_fails_pinned_arc`); `Rc` and `Arc` without `Clone` (`C78_fails_rc_without_clone`). -/
theorem C78_conversions_partial {args : List Tok} {items : List Item} {x : Expansion} (h : expand args items = .ok x)
    {hasMut hasPin : Bool} (hm : hasMut = true ↔ HasMut items) (hp : hasPin = true ↔ HasPin items)
    {p : PtrTy} {both needsClone : Bool}
    (hrc : ∀ b, p.ptr = .rc b → hasPin = false ∧ .clone ∈ args) :
    Converts x p both both needsClone ↔
      GuideConverts (decide (.clone ∈ args)) hasMut hasPin p both both needsClone := by
  obtain ⟨c, es, hc, he, _, rfl⟩ := expand_ok h
  rw [converts_iff, hasMut_eq he hm, hasPin_eq he hp, clone_mem hc]
  have hcl : (Tok.clone ∈ args) ↔ c = true := by rw [← clone_mem hc]; simp
  rw [hcl] at hrc
  have hmk : (both, both) ∈ markers (hasMutability false es) := by
    cases both <;> cases hasMutability false es <;> decide
  simp only [hmk, true_and]
  clear h hm hp hcl hmk
  rcases p with ⟨pin, q⟩
  rcases q with _ | b | b
  · clear hrc
    cases pin <;> cases hasPin <;> cases c <;> simp [GuideConverts, eligible, fromImpls]
  · obtain ⟨rfl, rfl⟩ := hrc b rfl
    clear hrc
    cases b <;> cases pin <;> cases hasMut <;> cases both <;> simp [GuideConverts, eligible, fromImpls, notBox]
  · clear hrc
    cases b <;> cases pin <;> cases hasPin <;> cases c <;> cases hasMut <;> simp [GuideConverts, eligible, fromImpls, notBox]

/-- **C78** All other conversions are in the guide's table too, except that the guide wants `Clone` for `Rc` and `Arc`:
in particular a pointer is never used as pinned if it is not, a shared one never for exclusive access, a counted
pointer never for both threads unless it is `Arc`. -/
theorem C78_conversions_sound {args : List Tok} {items : List Item} {x : Expansion} (h : expand args items = .ok x)
    {hasMut hasPin : Bool} (hm : hasMut = true ↔ HasMut items) (hp : hasPin = true ↔ HasPin items)
    {p : PtrTy} {send sync needsClone : Bool} (hv : Converts x p send sync needsClone) :
    GuideConverts (decide (.clone ∈ args)) hasMut hasPin p send sync needsClone ∨
    (∃ b, p.ptr = .rc b) ∧ GuideConverts true hasMut hasPin p send sync needsClone := by
  obtain ⟨c, es, hc, he, _, rfl⟩ := expand_ok h
  rw [converts_iff, hasMut_eq he hm, hasPin_eq he hp] at hv
  rw [clone_mem hc]
  obtain ⟨h0, _, h1, h2, h3⟩ := hv
  clear h hm hp hc h0 he
  subst h3
  rcases p with ⟨pin, q⟩
  rcases q with _ | b | b <;> (try cases b) <;> cases pin <;> cases hasPin <;> cases c <;> cases hasMut <;>
    cases send <;> cases sync <;>
    first
    | exact absurd h1 (by decide)
    | exact absurd h2 (by decide)
    | (refine .inr ⟨⟨_, rfl⟩, ?_⟩; simp [GuideConverts]; done)
    | (refine .inl ?_; simp [GuideConverts]; done)

/-! ### Cases, and disagreements with the guide -/

/-- `fn name(self, x: u8, y: bool) -> i32` -/
def method2 (name : String) (self : FnArg) : Item :=
  .method ⟨name, false, false, false, 0, [self, .typed (some "x") (.other "u8"), .typed none (.other "bool")],
    some (.other "i32")⟩

theorem isMethod2 {name : String} {self : FnArg} {mt pinned : Bool} (h : IsReceiver self mt pinned) :
    IsMethod ⟨name, false, false, false, 0, [self, .typed (some "x") (.other "u8"), .typed none (.other "bool")],
      some (.other "i32")⟩ mt pinned [.other "u8", .other "bool"] :=
  ⟨rfl, rfl, rfl, self, _, rfl, h, rfl⟩

/-- `self: core::pin::Pin<&mut Self>` (or `&Self`) -/
def pinned (mt : Bool) : FnArg :=
  .typed (some "self") (.path false false ["core", "pin"] "Pin" (some [some (.ref mt Self')]))

theorem isReceiver_pinned (mt : Bool) : IsReceiver (pinned mt) mt true := .long (.pin _ _ _)

/-- The trait with the methods `get(&self, …)` and `set(&mut self, …)`. -/
def getSet : List Item := [method2 "get" (.receiver true false), method2 "set" (.receiver true true)]

theorem getSet_simple : Simple getSet := by
  intro it hit
  simp only [getSet, List.mem_cons, List.not_mem_nil, or_false] at hit
  rcases hit with rfl | rfl
  · exact ⟨_, _, _, _, rfl, isMethod2 (.short false)⟩
  · exact ⟨_, _, _, _, rfl, isMethod2 (.short true)⟩

/-- Non-vacuity: `getSet` is accepted; its vtable; it has impls for no marker and for both, each with conversions. -/
example : ∃ x, expand [.dyn, .comma, .clone] getSet = .ok x ∧
    x.vtable = [("release_vptr", some ⟨.owned, [], .unit⟩), ("retain_vptr", some ⟨.shared, [], .erased⟩),
      ("get", some ⟨.shared, [.other "u8", .other "bool"], .layout (.other "i32")⟩),
      ("set", some ⟨.exclusive, [.other "u8", .other "bool"], .layout (.other "i32")⟩), ("_invariant", none)] ∧
    x.impls.map (fun i => (i.send, i.sync, i.from_.map (·.src))) =
      [(false, false, [⟨false, .box⟩]), (true, true, [⟨false, .box⟩])] ∧
    (x.vtable.map (·.1)).Nodup :=
  ⟨_, rfl, rfl, rfl, by decide +kernel⟩

/-- Non-vacuity: a trait with pinned receivers. -/
example : ∃ x, expand [.dyn] [method2 "poll" (pinned true), method2 "get" (.receiver true false)] = .ok x ∧
    Converts x ⟨true, .box⟩ true true false ∧ Converts x ⟨true, .ref true⟩ false false false ∧
    ¬Converts x ⟨false, .box⟩ true true false := by
  refine ⟨_, rfl, ?_, ?_, ?_⟩
  · exact ⟨by decide, _, .tail _ (.head _), rfl, rfl, _, .head _, rfl, rfl⟩
  · exact ⟨by decide, _, .head _, rfl, rfl, _, .tail _ (.head _), rfl, rfl⟩
  · rintro ⟨_, i, hi, _, _, c, hc, h1, _⟩
    rcases List.mem_cons.1 hi with rfl | hi
    · rcases List.mem_cons.1 hc with rfl | hc
      · cases h1
      · rcases List.mem_cons.1 hc with rfl | hc
        · cases h1
        · cases hc
    · rcases List.mem_cons.1 hi with rfl | hi
      · rcases List.mem_cons.1 hc with rfl | hc
        · cases h1
        · rcases List.mem_cons.1 hc with rfl | hc
          · cases h1
          · cases hc
      · cases hi

/-- **C78** fails: a simple trait with the receivers `Pin<&mut Self>` and `&mut self` is rejected. -/
theorem C78_fails_pin_and_mut : ∃ items, Simple items ∧ ∀ x, expand [.dyn] items ≠ .ok x := by
  refine ⟨[method2 "a" (pinned true), method2 "b" (.receiver true true)], fun it hit => ?_, fun x h => ?_⟩
  · simp only [List.mem_cons, List.not_mem_nil, or_false] at hit
    rcases hit with rfl | rfl
    · exact ⟨_, _, _, _, rfl, isMethod2 (isReceiver_pinned true)⟩
    · exact ⟨_, _, _, _, rfl, isMethod2 (.short true)⟩
  · obtain ⟨_, _, _, _, hp, _⟩ := expand_ok h
    exact hp ⟨.inr ⟨_, _, .head _, isMethod2 (isReceiver_pinned true)⟩, ⟨_, _, .tail _ (.head _), isMethod2 (.short true)⟩⟩

/-- The entry of `get(&self, …)`. -/
def getEntry : Entry :=
  entryOf ⟨"get", false, false, false, 0, [.receiver true false, .typed (some "x") (.other "u8"), .typed none (.other "bool")],
    some (.other "i32")⟩ false false [.other "u8", .other "bool"]

/-- The trait with the method `get(&self, …)`. -/
def getOnly : List Item := [method2 "get" (.receiver true false)]

theorem getOnly_entries : Entries getOnly [getEntry] := .cons (isMethod2 (.short false)) .nil

theorem getOnly_expand {args : List Tok} {c : Bool} (h : parseArgs args = .ok c) :
    expand args getOnly = .ok (expansion c [getEntry]) :=
  expand_of h getOnly_entries (by
    rintro ⟨h | h, _⟩ <;> · rw [getOnly_entries.has] at h; revert h; decide)

/-- **C78** fails: the guide says that `+ Send` can always be added; there is no conversion into
`VirtualPtr<dyn Send + Trait>` for a trait with the method `get(&self)`, not even from `Box`. -/
theorem C78_fails_send_only : ∃ x, expand [.dyn] getOnly = .ok x ∧
    GuideConverts false false false ⟨false, .box⟩ true false false ∧ ¬Converts x ⟨false, .box⟩ true false false := by
  refine ⟨_, getOnly_expand rfl, ⟨rfl, rfl⟩, fun h => ?_⟩
  rw [converts_iff] at h
  exact absurd h.2.1 (by decide)

/-- **C78** fails: the guide says that `+ Sync` can always be added; there never is a conversion into
`VirtualPtr<dyn Sync + Trait>`. -/
theorem C78_fails_sync_only {args : List Tok} {items : List Item} {x : Expansion} (h : expand args items = .ok x)
    (p : PtrTy) (needsClone : Bool) : ¬Converts x p false true needsClone := by
  obtain ⟨c, es, hc, he, _, rfl⟩ := expand_ok h
  rw [converts_iff]
  rintro ⟨_, h, _⟩
  revert h
  cases hasMutability false es <;> decide

/-- **C78** fails: the guide says that with a pinned receiver the sources are the pinned pointers; there is no
conversion from `Pin<Arc<T>>` (nor from `Pin<Rc<T>>`). -/
theorem C78_fails_pinned_arc : ∃ items x, expand [.dyn, .comma, .clone] items = .ok x ∧ HasPin items ∧
    GuideConverts true false true ⟨true, .rc true⟩ true true false ∧
    ∀ b send sync needsClone, ¬Converts x ⟨true, .rc b⟩ send sync needsClone := by
  refine ⟨[method2 "a" (pinned false)], _, rfl, ?_, by simp [GuideConverts], ?_⟩
  · exact .inl ⟨_, _, .head _, isMethod2 (isReceiver_pinned false)⟩
  · rintro b send sync nc ⟨h, _⟩
    revert h
    cases b <;> decide

/-- **C78** fails: the guide says that the trait must be `Clone`-annotated for the conversion from `Rc`; there is one
without. -/
theorem C78_fails_rc_without_clone : ∃ x, expand [.dyn] getOnly = .ok x ∧
    Converts x ⟨false, .rc false⟩ false false false ∧
    ¬GuideConverts false false false ⟨false, .rc false⟩ false false false := by
  refine ⟨_, getOnly_expand rfl, ?_, by simp [GuideConverts]⟩
  rw [converts_iff]
  decide

/-- **C78** fails: a simple trait with a method called `release_vptr` is accepted, but its vtable has two fields of this
name, so that the result does not compile. -/
theorem C78_fails_reserved_name : ∃ items x, Simple items ∧ (methodNames items).Nodup ∧
    expand [.dyn] items = .ok x ∧ ¬(x.vtable.map (·.1)).Nodup := by
  refine ⟨[method2 "release_vptr" (.receiver true false)], _, ?_, by decide, rfl, by decide⟩
  intro it hit
  simp only [List.mem_cons, List.not_mem_nil, or_false] at hit
  subst hit
  exact ⟨_, _, _, _, rfl, isMethod2 (.short false)⟩

/-- **C78** fails: a repeated `Clone` is meant to be an error ("duplicate parameter"), but is accepted; and the comma
may be missing. -/
theorem C78_fails_duplicate_clone :
    (∃ x, expand [.dyn, .comma, .clone, .comma, .clone] getOnly = .ok x) ∧
    (∃ x, expand [.dyn, .clone, .clone] getOnly = .ok x) :=
  ⟨⟨_, getOnly_expand rfl⟩, ⟨_, getOnly_expand rfl⟩⟩

/-- **C78** fails: in the guide `retain_vptr` returns a `VirtualPtr`; it returns the erased pointer only. -/
theorem C78_fails_retain_type {args : List Tok} {items : List Item} {x : Expansion} (h : expand args items = .ok x)
    (hc : .clone ∈ args) : ("retain_vptr", some ⟨.shared, [], .erased⟩) ∈ x.vtable := by
  obtain ⟨slots, e, _⟩ := C78_vtable h
  rw [e]
  simp [hc]

end Verif.DynDerive
