import Verif.DynGen.Lemmas
import Verif.Generics.Props
/-!
# C97: generic traits with `#[derive_ReprC(dyn)]`
-/
namespace Verif.DynGen
open Generics

/-! ## Functions -/

theorem intro_filter {T : Trait} (L : Legal T) (a : Auto) (k : Kind → Bool) :
    (T.all a).intro.filter (fun p => k p.kind) = ((T.all a).params.filter fun p => k p.kind).map ({ · with default := none }) := by
  rw [all_intro L, List.filter_map]; rfl

theorem own_wf {T : Trait} (L : Legal T) (a : Auto) {ws : List Pred} (hw : Closed (T.all a).intro ws) (n : String) :
    Fn.Wf ⟨n, (T.all a).intro, ws, fwdParams (T.all a)⟩ ∧ Fn.Same ⟨n, (T.all a).intro, ws, fwdParams (T.all a)⟩ := by
  have e1 := intro_filter L a (fun k => decide (k = .lifetime))
  have e2 := intro_filter L a (fun k => decide (k ≠ .lifetime))
  refine ⟨⟨declares_all L a, hw, .inr ?_, ?_⟩, ?_, .inr ?_⟩
  · simp only [fwdParams_eq L]; rw [e1, List.length_map]
  · simp only [fwdParams_eq L]; rw [e2, List.map_map]; rfl
  · simp only [fwdParams_eq L]; rw [e2, names_intro]
  · simp only [fwdParams_eq L]; rw [e1, names_intro]

theorem empty_wf (n : String) : Fn.Wf ⟨n, [], [], []⟩ ∧ Fn.Same ⟨n, [], [], []⟩ :=
  ⟨⟨⟨List.nodup_nil, ⟨[], [], rfl, fun _ h => (by cases h), fun _ h => (by cases h)⟩, fun _ h => (by cases h), fun _ h => (by cases h)⟩,
    fun _ h => (by cases h), .inl rfl, rfl⟩, rfl, .inl rfl⟩

theorem thunk_closed {T : Trait} (L : Legal T) (a : Auto) (m : Method) : Closed (T.thunk a m).params (T.thunk a m).wheres := by
  intro q hq
  simp only [Trait.thunk, List.mem_append, List.mem_map, List.mem_filter] at hq ⊢
  rcases hq with hq | ⟨p, ⟨hp, hk⟩, rfl⟩
  · exact closed_all L a q hq
  · refine ⟨?_, trivial, fun r hr hc => not_const L a hp (by simp only [decide_eq_true_eq] at hk; rw [hk]; decide) hr hc⟩
    simp only [Ty.Over]
    rw [all_intro L, names_intro]
    exact List.mem_map_of_mem hp

theorem thunk_args_filter {T : Trait} (a : Auto) :
    ((T.all a).typeParams ++ (T.all a).params.filter (·.kind = .const)).filter (·.kind = .lifetime) = [] ∧
    ((T.all a).typeParams ++ (T.all a).params.filter (·.kind = .const)).filter (·.kind ≠ .lifetime) =
      (T.all a).typeParams ++ (T.all a).params.filter (·.kind = .const) := by
  constructor
  · refine List.filter_eq_nil_iff.2 fun p hp => ?_
    simp only [Generics.typeParams, List.mem_append, List.mem_filter, decide_eq_true_eq] at hp
    rcases hp with ⟨-, hp⟩ | ⟨-, hp⟩ <;> simp [hp]
  · refine List.filter_eq_self.2 fun p hp => ?_
    simp only [Generics.typeParams, List.mem_append, List.mem_filter, decide_eq_true_eq] at hp
    rcases hp with ⟨-, hp⟩ | ⟨-, hp⟩ <;> simp [hp]

/-- C97: if the trait declares types before constants, or has no methods, every function of every vtable is one that Rust
takes, used with exactly its own parameters. -/
theorem C97_functions_partial {T : Trait} (L : Legal T) (h : T.methods = [] ∨ TypesFirst T) (a : Auto) (s : Src) :
    ∀ f ∈ T.functions a s, f.Wf ∧ f.Same := by
  intro f hf
  simp only [Trait.functions, List.cons_append, List.mem_cons, List.mem_append, List.mem_map] at hf
  rcases hf with rfl | hf | ⟨m, hm, rfl⟩
  · cases s
    · exact own_wf L a (closed_all L a) _
    · exact own_wf L a (closed_all L a) _
    · exact own_wf L a (closed_all L a) _
    · exact empty_wf _
    · exact empty_wf _
  · split at hf
    · cases s
      · rw [List.mem_singleton.1 hf]; exact own_wf L a (closed_clone L a) _
      · rw [List.mem_singleton.1 hf]; exact own_wf L a (closed_all L a) _
      · rw [List.mem_singleton.1 hf]; exact own_wf L a (closed_all L a) _
      · rw [List.mem_singleton.1 hf]; exact empty_wf _
      · cases hf
    · cases hf
  · have h := h.resolve_left (fun e => by rw [e] at hm; cases hm)
    have e2 := intro_filter L a (fun k => decide (k ≠ .lifetime))
    have hn := thunk_args_filter (T := T) a
    refine ⟨⟨declares_all L a, thunk_closed L a m, .inl hn.1, ?_⟩, ?_, .inl hn.1⟩
    · simp only [Trait.thunk]; rw [hn.2, args_of_typesFirst a h, e2, List.map_map]; rfl
    · simp only [Trait.thunk]; rw [hn.2, args_of_typesFirst a h, e2, names_intro]

/-- C97 fails: if a constant is declared before a type, the function of each method is refused: a type is given for a constant. -/
theorem C97_fails_const_first {T : Trait} (L : Legal T) (h : ¬ TypesFirst T) {m : Method} (hm : m ∈ T.methods) (a : Auto) (s : Src) :
    ∃ f ∈ T.functions a s, f.name = m.name ∧ ¬ f.Wf := by
  refine ⟨T.thunk a m, ?_, rfl, fun w => h (typesFirst_of_kinds L a w.kinds)⟩
  simp only [Trait.functions, List.mem_append, List.mem_cons, List.mem_map]
  exact .inr ⟨m, hm, rfl⟩

/-- C97: a function for releasing is there for each pointer; with `Clone`, one for retaining for each pointer but `&mut`; and one
for each method, in order. -/
theorem C97_functions_all (T : Trait) (a : Auto) (s : Src) : (T.functions a s).map (·.name) =
    [match s with | .box => "drop_box" | .rc | .arc => "drop_ref_count" | .ref | .refMut => "no_op"] ++
    (if T.clone then match s with | .box => ["clone_box"] | .rc | .arc => ["inc_ref_count"] | .ref => ["copy"] | .refMut => [] else []) ++
    T.methods.map (·.name) := by
  simp only [Trait.functions, List.map_cons, List.map_append, List.map_map, List.cons_append]
  cases s <;> cases T.clone <;> rfl

/-! ## Impls -/

theorem withLt_names {T : Trait} (L : Legal T) : T.withLt.intro.map (·.name) = usability.name :: T.generics.params.map (·.name) := by
  rw [withLt_intro L, names_intro]; rfl

theorem used_withLt {T : Trait} (L : Legal T) (a : Auto) {p : Param} (hp : p ∈ T.withLt.intro) (hk : p.kind ≠ .lifetime) :
    Occurs p.name (T.dyn a) := by
  rw [withLt_intro L] at hp
  obtain ⟨q, hq, rfl⟩ := List.mem_map.1 hp
  rcases List.mem_cons.1 hq with rfl | hq
  · exact absurd rfl hk
  · exact dyn_occurs L a (List.mem_map.2 ⟨q, hq, rfl⟩)

theorem reprCTrait_wf {T : Trait} (L : Legal T) (a : Auto) : Wf (T.reprCTrait a) := by
  refine ⟨declares_withLt L, closed_withLt L, ?_, trivial, ?_, fun p hp hk => .inl (used_withLt L a hp hk)⟩
  · simp only [Trait.reprCTrait]; rw [withLt_names L]
    exact dyn_over L a List.mem_cons_self fun x hx => List.mem_cons_of_mem _ hx
  · intro t ht
    simp only [Trait.reprCTrait, Option.some.injEq] at ht ⊢
    subst ht
    simp only [Ty.Over]
    rw [withLt_fwd L, withLt_names L]
    exact overs_params fun _ h => h

theorem forward_wf {T : Trait} (L : Legal T) (a : Auto) : Wf (T.forward a) := by
  refine ⟨declares_withLt L, closed_withLt L, ?_, ?_, fun t ht => (by cases ht), fun p hp hk => .inl ?_⟩
  · simp only [Trait.forward, Ty.Over, Ty.Overs, and_true]; rw [withLt_names L]
    exact dyn_over L a List.mem_cons_self fun x hx => List.mem_cons_of_mem _ hx
  · simp only [Trait.forward]; rw [withLt_names L]
    exact fwd_overs L fun x hx => List.mem_cons_of_mem _ hx
  · simp only [Trait.forward, Occurs, OccursIn, or_false]
    exact used_withLt L a hp hk

theorem from_wf {T : Trait} (L : Legal T) (a : Auto) (s : Src) : Wf (T.from a s) := by
  have hu : usability.name ∈ (T.all a).intro.map (·.name) := (mem_names L a).2 (.inr (.inl rfl))
  have hi : (T.implParam a).name ∈ (T.all a).intro.map (·.name) := (mem_names L a).2 (.inl rfl)
  refine ⟨declares_all L a, ?_, ?_, ?_, fun t ht => (by cases ht), ?_⟩
  · simp only [Trait.from]
    split
    · exact closed_clone L a
    · exact closed_all L a
  · exact dyn_over L a hu fun x hx => (mem_names L a).2 (.inr (.inr hx))
  · simp only [Trait.from, Ty.Overs, and_true]
    cases s <;> simp only [Src.type, Ty.Over, Ty.Overs, and_true]
    · exact hi
    · exact hi
    · exact hi
    · exact ⟨hu, hi⟩
    · exact ⟨hu, hi⟩
  · intro p hp hk
    simp only [Trait.from] at hp ⊢
    rw [all_intro L] at hp
    obtain ⟨q, hq, rfl⟩ := List.mem_map.1 hp
    rw [(all_perm L a).mem_iff] at hq
    simp only [List.mem_cons] at hq
    rcases hq with rfl | rfl | hq
    · refine .inr ?_
      cases s <;> simp [OccursIn, Occurs, Src.type]
    · exact absurd rfl hk
    · exact .inl (dyn_occurs L a (List.mem_map.2 ⟨q, hq, rfl⟩))

/-- C97: without `Clone`, or without parameters, all impls are ones that Rust takes, whichever pointers are eligible. -/
theorem C97_impls_partial {T : Trait} (L : Legal T) (h : T.clone = false ∨ T.generics.params = []) (a : Auto) (srcs : List Src) :
    ∀ i ∈ T.impls a srcs, Wf i := by
  intro i hi
  simp only [Trait.impls, List.cons_append, List.mem_cons, List.mem_append, List.mem_map] at hi
  rcases hi with rfl | hi | rfl | ⟨s, -, rfl⟩
  · exact reprCTrait_wf L a
  · rcases h with h | h
    · rw [h] at hi; cases hi
    · split at hi
      · rw [List.mem_singleton.1 hi]
        refine ⟨⟨by simp [Trait.dynClone], ⟨[usability], [], rfl, ?_, fun p hp => (by cases hp)⟩, ?_, ?_⟩, fun q hq => (by cases hq), ?_, trivial,
          fun t ht => (by cases ht), ?_⟩
        · intro p hp; rw [List.mem_singleton.1 hp]; rfl
        · intro p hp; rw [List.mem_singleton.1 hp]; rfl
        · intro p hp; rw [List.mem_singleton.1 hp]; intro b hb; cases hb
        · exact dyn_over L a List.mem_cons_self (by rw [h]; intro x hx; cases hx)
        · intro p hp hk; rw [List.mem_singleton.1 hp] at hk; exact absurd rfl hk
      · cases hi
  · exact forward_wf L a
  · exact from_wf L a s

/-- C97 fails: `#[derive_ReprC(dyn, Clone)]` on any trait with parameters, be it a lifetime, is refused: the impl of cloning uses
parameters that it does not declare. -/
theorem C97_fails_clone {T : Trait} (L : Legal T) (hc : T.clone = true) (hp : T.generics.params ≠ []) (a : Auto) (srcs : List Src) :
    ∃ i ∈ T.impls a srcs, i.trait = ⟨"DynClone", []⟩ ∧ ¬ Wf i := by
  refine ⟨T.dynClone a, by simp [Trait.impls, hc], rfl, fun w => ?_⟩
  have := w.self
  simp only [Trait.dynClone, Trait.dyn, Ty.Over, Ty.Overs] at this
  have h2 := this.2
  rw [fwd_eq' L] at h2
  cases hps : T.generics.params with
  | nil => exact hp hps
  | cons p ps =>
    rw [hps] at h2
    simp only [List.map_cons, Ty.Overs, Ty.Over, List.map_nil, List.mem_singleton] at h2
    exact L.fresh (by rw [hps, ← h2.1]; exact List.mem_cons_self)

theorem text_eq (a : Auto) (n : String) : a.text ++ n = objectName a n := by
  rcases a with ⟨send, sync⟩
  cases send <;> cases sync <;> simp [Auto.text, objectName]

/-- C97: the pointer converts to the trait object of the same arguments, and the object, and the pointer to it, implement the
trait at the same arguments. -/
theorem C97_instances {T : Trait} (L : Legal T) (a : Auto) (srcs : List Src) (σ : String → Ty) :
    (∀ s ∈ srcs, ∃ i ∈ T.impls a srcs, i.trait.subst σ = ⟨"VirtualPtrFrom", [(s.type T a).subst σ]⟩ ∧
      i.self.subst σ = .con (objectName a T.name) (σ usability.name :: T.generics.params.map (σ ·.name))) ∧
    (∃ i ∈ T.impls a srcs, i.trait.subst σ = ⟨T.name, T.generics.params.map (σ ·.name)⟩ ∧
      i.self.subst σ = .con "VirtualPtr" [.con (objectName a T.name) (σ usability.name :: T.generics.params.map (σ ·.name))]) ∧
    ∃ i ∈ T.impls a srcs, i.trait = ⟨"ReprCTrait", []⟩ ∧
      i.self.subst σ = .con (objectName a T.name) (σ usability.name :: T.generics.params.map (σ ·.name)) ∧
      i.assoc.map (·.subst σ) = some (.con (T.name ++ "VTable") (σ usability.name :: T.generics.params.map (σ ·.name))) := by
  have e : (T.dyn a).subst σ = .con (objectName a T.name) (σ usability.name :: T.generics.params.map (σ ·.name)) := by
    rw [Trait.dyn, text_eq, Ty.subst, Ty.substs, fwd_eq' L, substs_params, List.map_map]; rfl
  refine ⟨fun s hs => ⟨T.from a s, ?_, ?_, e⟩, ⟨T.forward a, ?_, ?_, ?_⟩, ⟨T.reprCTrait a, ?_, rfl, e, ?_⟩⟩
  · simp only [Trait.impls, List.cons_append, List.mem_cons, List.mem_append, List.mem_map]
    exact .inr (.inr (.inr ⟨s, hs, rfl⟩))
  · simp [Trait.from, Bound.subst, Ty.substs]
  · simp [Trait.impls]
  · simp only [Trait.forward, Bound.subst]
    rw [fwd_eq' L, substs_params, List.map_map]; rfl
  · simp only [Trait.forward, Ty.subst, Ty.substs, e]
  · simp [Trait.impls]
  · rw [Trait.reprCTrait, withLt_fwd L]
    simp only [Option.map_some, Ty.subst, Trait.vtable]
    rw [substs_params, List.map_map]
    rfl

/-- C97: the vtable has the function that drops, the one that clones where the trait asks for it, and one for each method, in
this order; a method takes a pointer to the object, mutable exactly if the method takes `&mut self`, then its arguments. -/
theorem C97_entries (T : Trait) :
    T.vtable.fields.map (·.1) = "release_vptr" :: (if T.clone then ["retain_vptr"] else []) ++ T.methods.map (·.name) ++ ["_invariant"] ∧
    ∀ m ∈ T.methods, ∃ args ret, (m.name, .con "fn" (.con (if m.mutable then "NonNullMut" else "NonNullRef") [.con "ErasedTy" []] :: args ++ [ret]))
      ∈ T.vtable.fields ∧ args.length = m.args.length := by
  refine ⟨?_, fun m hm => ⟨m.args.map (T.ctype m), T.ctype m (m.ret.getD unit), ?_, by simp⟩⟩
  · cases h : T.clone <;> simp [Trait.vtable, h, List.map_map, Function.comp_def]
  · simp only [Trait.vtable, List.cons_append, List.mem_cons, List.mem_append, List.mem_map]
    exact .inr (.inl (.inr ⟨m, hm, rfl⟩))

/-- C97: what a function of the vtable demands is what the conversion from the pointer demands: nothing else is to be shown
where the vtable is made. -/
theorem C97_bounds (T : Trait) (a : Auto) (s : Src) : ∀ f ∈ T.functions a s,
    (f.params = [] ∨ f.params = (T.from a s).intro) ∧
    ∀ q ∈ f.wheres, q ∈ (T.from a s).wheres ∨ q.bound = ⟨"outlives", []⟩ := by
  have hb : ∀ q ∈ (T.all a).wheres, q ∈ (T.from a s).wheres := by
    intro q hq
    simp only [Trait.from]
    split
    · exact List.mem_append_left _ hq
    · exact hq
  intro f hf
  simp only [Trait.functions, List.cons_append, List.mem_cons, List.mem_append, List.mem_map] at hf
  rcases hf with rfl | hf | ⟨m, hm, rfl⟩
  · cases s
    · exact ⟨.inr rfl, fun q hq => .inl (hb q hq)⟩
    · exact ⟨.inr rfl, fun q hq => .inl (hb q hq)⟩
    · exact ⟨.inr rfl, fun q hq => .inl (hb q hq)⟩
    · exact ⟨.inl rfl, fun q hq => by cases hq⟩
    · exact ⟨.inl rfl, fun q hq => by cases hq⟩
  · split at hf
    · cases s
      · rw [List.mem_singleton.1 hf]; exact ⟨.inr rfl, fun q hq => .inl hq⟩
      · rw [List.mem_singleton.1 hf]; exact ⟨.inr rfl, fun q hq => .inl (hb q hq)⟩
      · rw [List.mem_singleton.1 hf]; exact ⟨.inr rfl, fun q hq => .inl (hb q hq)⟩
      · rw [List.mem_singleton.1 hf]; exact ⟨.inl rfl, fun q hq => by cases hq⟩
      · cases hf
    · cases hf
  · refine ⟨.inr rfl, fun q hq => ?_⟩
    simp only [Trait.thunk, List.mem_append, List.mem_map] at hq
    rcases hq with hq | ⟨p, -, rfl⟩
    · exact .inl (hb q hq)
    · exact .inr rfl

/-- C97: the pointee is required to implement the trait at the same arguments, to outlive the object, to be `Send` and `Sync` if the
object is, and, for boxes only, to be `Clone` if the object is. -/
theorem C97_demands {T : Trait} (L : Legal T) (a : Auto) (s : Src) : ∃ p ∈ (T.from a s).intro, p.name = "__impl_" ++ T.name ∧
    p.bounds = ⟨"outlives", [.param "'__usability"]⟩ :: ((if a.send then [⟨"Send", []⟩] else []) ++
      (if a.sync then [⟨"Sync", []⟩] else []) ++ [⟨T.name, (T.generics.params.map (·.name)).map .param⟩]) ∧
    ((∃ q ∈ (T.from a s).wheres, q = ⟨.param p.name, ⟨"Clone", []⟩⟩) ↔ T.clone = true ∧ s = .box) := by
  have hn : ∀ q ∈ (T.all a).wheres, q ≠ ⟨.param ("__impl_" ++ T.name), ⟨"Clone", []⟩⟩ := by
    intro q hq e
    subst e
    simp only [Trait.all, Trait.withLt, List.mem_append, List.mem_map, Generics.typeParams, List.mem_filter] at hq
    rcases hq with hq | ⟨p, -, e⟩
    · have := (L.wheres _ hq).1
      simp only [Ty.Over] at this
      exact L.freshImpl this
    · simp [outlives] at e
  refine ⟨{ T.implParam a with default := none }, ?_, rfl, ?_, ?_⟩
  · simp only [Trait.from]
    rw [all_intro L]
    exact List.mem_map.2 ⟨T.implParam a, (all_perm L a).mem_iff.2 List.mem_cons_self, rfl⟩
  · simp only [Trait.implParam, Auto.bounds, fwd_eq' L]
    rfl
  · simp only [Trait.from]
    constructor
    · rintro ⟨q, hq, rfl⟩
      split at hq
      · rename_i hs
        refine ⟨?_, hs⟩
        rw [Trait.wheresClone, List.mem_append] at hq
        rcases hq with hq | hq
        · exact absurd rfl (hn _ hq)
        · cases hc : T.clone with
          | true => rfl
          | false => rw [hc] at hq; cases hq
      · exact absurd rfl (hn _ hq)
    · rintro ⟨hc, rfl⟩
      refine ⟨_, ?_, rfl⟩
      rw [if_pos rfl, Trait.wheresClone, hc]
      exact List.mem_append_right _ (List.mem_singleton_self _)

/-! ## Transmutes -/

theorem fixed_ctype {T : Trait} {m : Method} {t : Ty} (h : Fixed (lifetimesOf T m) t) : Fixed (lifetimesOf T m) (T.ctype m t) := by
  refine .layout ?_
  induction h with
  | pointer => exact .pointer
  | pointerMut => exact .pointerMut
  | closed h =>
    refine .closed (over_subst (fun x hx => ?_) _ h)
    have : x ∈ m.lifetimes ∨ x ∈ (T.generics.params.filter (·.kind = .lifetime)).map (·.name) := List.mem_append.1 hx
    rw [if_pos this]
    trivial
  | layout _ ih => exact .layout ih

/-- C97: the values of a method can be transmuted from and to their layouts exactly if the sizes of its argument and result types are
known: that is, if type parameters only occur behind references. -/
theorem C97_transmutes (T : Trait) (m : Method) :
    (∀ c ∈ T.transmutes m, Fixed (lifetimesOf T m) c.1 ∧ Fixed (lifetimesOf T m) c.2) ↔
      ∀ t ∈ m.args ++ m.ret.toList, Fixed (lifetimesOf T m) t := by
  constructor
  · intro h t ht
    rcases List.mem_append.1 ht with ht | ht
    · exact (h (t, T.ctype m t) (by simp only [Trait.transmutes, List.mem_append, List.mem_map]; exact .inl ⟨t, ht, rfl⟩)).1
    · rw [Option.mem_toList] at ht
      refine (h (t, T.ctype m t) ?_).1
      simp only [Trait.transmutes, List.mem_append, List.mem_cons]
      rw [Option.mem_def.1 ht]
      exact .inr (.inr (.inl rfl))
  · intro h c hc
    have hr : Fixed (lifetimesOf T m) (m.ret.getD unit) := by
      cases e : m.ret with
      | none => exact .closed trivial
      | some t => exact h t (by rw [e]; simp)
    simp only [Trait.transmutes, List.mem_append, List.mem_map, List.mem_cons, List.not_mem_nil, or_false] at hc
    rcases hc with ⟨t, ht, rfl⟩ | rfl | rfl
    · exact ⟨h t (List.mem_append_left _ ht), fixed_ctype (h t (List.mem_append_left _ ht))⟩
    · exact ⟨fixed_ctype hr, hr⟩
    · exact ⟨hr, fixed_ctype hr⟩

/-- C97 fails: a method that takes or returns a value of a type parameter of the trait is refused: the size is not known
where the value is transmuted. -/
theorem C97_fails_by_value {T : Trait} (L : Legal T) {p : Param} (hp : p ∈ T.generics.params) (hk : p.kind = .type) {m : Method}
    (hm : m ∈ T.methods) (h : .param p.name ∈ m.args ++ m.ret.toList) :
    ∃ c ∈ T.transmutes m, ¬ (Fixed (lifetimesOf T m) c.1 ∧ Fixed (lifetimesOf T m) c.2) := by
  apply Classical.byContradiction
  intro hn
  have := (C97_transmutes T m).1 (fun c hc => Classical.byContradiction fun hf => hn ⟨c, hc, hf⟩) _ h
  cases this with
  | closed h =>
    simp only [Ty.Over, lifetimesOf, List.mem_append, List.mem_map, List.mem_filter, decide_eq_true_eq] at h
    rcases h with h | ⟨q, ⟨hq, hl⟩, e⟩
    · exact L.shadow m hm _ h (List.mem_map_of_mem hp)
    · have : q = p := same_of_name L.nodup hq hp e
      rw [this, hk] at hl
      cases hl

/-! ## Vtables -/

theorem ctype_over {T : Trait} {m : Method} {t : Ty} (h : t.Over (m.lifetimes ++ T.generics.params.map (·.name))) :
    (T.ctype m t).Over (T.generics.params.map (·.name)) := by
  simp only [Trait.ctype, Ty.Over]
  refine over_subst (fun x hx => ?_) _ h
  split
  · trivial
  · rename_i hn
    simp only [Ty.Over]
    exact (List.mem_append.1 hx).resolve_left fun h => hn (.inl h)

theorem vtable_legal {T : Trait} (L : Legal T) : T.vtable.Legal := by
  have hn : T.vtable.generics.params.map (·.name) = usability.name :: T.generics.params.map (·.name) := withLt_names L
  have D := declares_withLt L
  refine ⟨D.nodup, D.order, D.bounds, fun q hq => ⟨(closed_withLt L q hq).1, (closed_withLt L q hq).2.1⟩, fun f hf => ?_⟩
  rw [hn]
  have hm : ∀ x ∈ T.generics.params.map (·.name), x ∈ usability.name :: T.generics.params.map (·.name) :=
    fun x hx => List.mem_cons_of_mem _ hx
  simp only [Trait.vtable, List.cons_append, List.mem_cons, List.mem_append, List.mem_map, List.not_mem_nil, or_false] at hf
  rcases hf with rfl | (hf | ⟨m, h, rfl⟩) | rfl
  · simp [Ty.Over, Ty.Overs, unit]
  · split at hf
    · rw [List.mem_singleton.1 hf]; simp [Ty.Over, Ty.Overs]
    · cases hf
  · simp only [Trait.entry, List.cons_append, Ty.Over, Ty.Overs]
    refine ⟨by simp [erasedSelf, Ty.Over, Ty.Overs], overs_all fun t ht => ?_⟩
    simp only [List.mem_append, List.mem_map, List.mem_singleton] at ht
    rcases ht with ⟨t, ht, rfl⟩ | rfl
    · exact over_mono hm _ (ctype_over (L.methods m h t (List.mem_append_left _ ht)))
    · refine over_mono hm _ (ctype_over ?_)
      cases e : m.ret with
      | none => exact trivial
      | some t => exact L.methods m h t (by rw [e]; simp)
  · simp only [Ty.Over, Ty.Overs, and_true]
    refine overs_all fun t ht => ?_
    simp only [List.mem_append, List.mem_map, Generics.typeParams, List.mem_filter, Trait.withLt, List.mem_cons] at ht
    rcases ht with ⟨p, ⟨hp, -⟩, rfl⟩ | ⟨p, ⟨hp, -⟩, rfl⟩
    · simp only [Ty.Over, Ty.Overs, and_true]
      rcases hp with rfl | hp
      · exact List.mem_cons_self
      · exact hm _ (List.mem_map_of_mem hp)
    · simp only [Ty.Over]
      rcases hp with rfl | hp
      · exact List.mem_cons_self
      · exact hm _ (List.mem_map_of_mem hp)

/-- C97: an instance of the vtable has a C layout if and only if the trait allows the arguments, each type argument has a C layout,
and each entry has one that is not opaque. -/
theorem C97_vtable {T : Trait} (L : Legal T) {js : Bool} {O : Output} (h : deriveC js T.vtable = some O) (W : World) (args : List Ty) :
    O.Has W reprC (.con (T.name ++ "VTable") args) ↔ T.vtable.Concrete W args :=
  C96_repr_c (vtable_legal L) h W args

/-- C97: with the impls of safer_ffi, that is so at all arguments that the trait allows whose types have C layouts, if so have the
types of the methods there (with `'static` for lifetimes). -/
theorem C97_accepted_partial {T : Trait} (L : Legal T) {js : Bool} {O : Output} (h : deriveC js T.vtable = some O) {W : World}
    (hW : Library W) {args : List Ty} (hA : T.vtable.Allows W args)
    (hT : ∀ p ∈ T.generics.params, p.kind = .type → W (T.vtable.arg args p.name) reprC)
    (hM : ∀ m ∈ T.methods, ∀ t ∈ m.args ++ m.ret.toList,
      W ((t.subst fun x => if x ∈ lifetimesOf T m then .con "'static" [] else .param x).subst (T.vtable.arg args)) reprC) :
    O.Has W reprC (.con (T.name ++ "VTable") args) := by
  have hc : ∀ m ∈ T.methods, ∀ t ∈ m.args ++ m.ret.toList, W ((T.ctype m t).subst (T.vtable.arg args)) reprC := by
    intro m hm t ht
    have := hW.layout _ (hM m hm t ht)
    simpa only [Trait.ctype, Ty.subst, lifetimesOf, List.mem_append] using this
  have hr : ∀ m ∈ T.methods, W ((T.ctype m (m.ret.getD unit)).subst (T.vtable.arg args)) reprC := by
    intro m hm
    cases e : m.ret with
    | none => exact hW.layout _ hW.unit
    | some t => exact hc m hm t (by rw [e]; simp)
  have subst_map : ∀ (σ : String → Ty) (ts : List Ty), Ty.substs σ ts = ts.map (·.subst σ) := by
    intro σ ts
    induction ts with
    | nil => rfl
    | cons t ts ih => simp only [Ty.substs, List.map_cons, ih]
  rw [C97_vtable L h]
  refine ⟨hA, ?_, ?_⟩
  · intro p hp hk
    simp only [Trait.vtable] at hp
    rw [withLt_intro L] at hp
    obtain ⟨q, hq, rfl⟩ := List.mem_map.1 hp
    rcases List.mem_cons.1 hq with rfl | hq
    · cases hk
    · exact hT q hq hk
  · intro f hf
    simp only [Trait.vtable, List.cons_append, List.mem_cons, List.mem_append, List.mem_map, List.not_mem_nil, or_false] at hf
    rcases hf with rfl | (hf | ⟨m, hm, rfl⟩) | rfl
    · simp only [Ty.subst]
      refine hW.fn _ fun t ht => ?_
      simp only [Ty.substs, List.mem_cons, List.not_mem_nil, or_false] at ht
      rcases ht with rfl | rfl
      · exact hW.pointer _ (by simp) _
      · exact hW.unit
    · split at hf
      · rw [List.mem_singleton.1 hf]
        simp only [Ty.subst]
        refine hW.fn _ fun t ht => ?_
        simp only [Ty.substs, List.mem_cons, List.not_mem_nil, or_false] at ht
        rcases ht with rfl | rfl <;> exact hW.pointer _ (by simp) _
      · cases hf
    · simp only [Trait.entry, Ty.subst]
      refine hW.fn _ fun t ht => ?_
      rw [subst_map] at ht
      simp only [List.cons_append, List.map_cons, List.map_append, List.map_map, List.mem_cons, List.mem_append, List.mem_map,
        List.map_nil, List.not_mem_nil, or_false, Function.comp] at ht
      rcases ht with rfl | ⟨u, hu, rfl⟩ | rfl
      · simp only [erasedSelf, Ty.subst]
        exact hW.pointer _ (by split <;> simp) _
      · exact hc m hm u (List.mem_append_left _ hu)
      · exact hr m hm
    · simp only [Ty.subst, Ty.substs]
      exact hW.phantom _

/-- C97 fails: a trait with a type parameter, none of whose bounds is about layouts, is refused, even if the parameter is only used behind
references or not at all: the vtable has no C layout at some arguments that the trait allows, but trait objects require one at all. -/
theorem C97_fails_unbounded {T : Trait} (L : Legal T) {js : Bool} {O : Output} (h : deriveC js T.vtable = some O) {p : Param}
    (hp : p ∈ T.generics.params) (hk : p.kind = .type)
    (hb : ∀ q ∈ T.generics.params, ∀ b ∈ q.bounds, b.name ≠ "ReprC" ∧ b.name ≠ "ConcreteReprC")
    (hw : ∀ q ∈ T.generics.wheres, q.bound.name ≠ "ReprC" ∧ q.bound.name ≠ "ConcreteReprC") :
    ∃ (W : World) (args : List Ty), Library W ∧ Lawful W ∧ T.vtable.Allows W args ∧
      ¬ O.Has W reprC (.con (T.name ++ "VTable") args) := by
  let W : World := fun t b => (b.name = "ReprC" ∨ b.name = "ConcreteReprC") → ∀ u, t = .con "String" u → False
  let args := T.vtable.generics.params.map fun _ => Ty.con "String" []
  have hlen : args.length = T.vtable.generics.params.length := by simp [args]
  have hpar : ∀ q ∈ T.vtable.generics.params, ∀ b ∈ q.bounds, b.name ≠ "ReprC" ∧ b.name ≠ "ConcreteReprC" := by
    intro q hq b hb'
    simp only [Trait.vtable] at hq
    rw [withLt_intro L] at hq
    obtain ⟨r, hr, rfl⟩ := List.mem_map.1 hq
    rcases List.mem_cons.1 hr with rfl | hr
    · cases hb'
    · exact hb r hr b hb'
  have hmem : { p with default := none } ∈ T.vtable.generics.params := by
    simp only [Trait.vtable]
    rw [withLt_intro L]
    exact List.mem_map.2 ⟨p, List.mem_cons_of_mem _ hp, rfl⟩
  refine ⟨W, args, ⟨?_, ?_, ?_, ?_, ?_⟩, ⟨?_, ?_⟩, ⟨hlen, ?_, ?_⟩, ?_⟩
  · intro ts _ _ u e; simp at e
  · intro t _ u e; simp at e
  · intro t _ _ u e; cases e
  · intro _ u e; simp [unit] at e
  · intro c hc t _ u e
    injection e with e
    subst e
    simp at hc
  · intro t ht _ u e; exact ht (.inr rfl) u e
  · intro t _ u e; simp at e
  · intro q hq b hb' hn; exact absurd hn (by rw [Bound.subst, not_or]; exact hpar q hq b hb')
  · intro q hq hn
    exact absurd hn (by rw [Bound.subst, not_or]; exact hw q hq)
  · rw [C97_vtable L h]
    rintro ⟨-, h2, -⟩
    have := h2 _ hmem hk
    refine this (.inl rfl) [] ?_
    have hm := (vtable_legal L).arg_map hlen
    have := map_inj_mem (hm.trans rfl) _ hmem
    exact this

/-! ## Examples -/

namespace Sample

/-- `trait Visit<'a, T : ReprC, const N : usize> { fn visit<'b>(&mut self, at: &'b T, n: usize) -> &'a T; }` -/
def visit : Trait :=
  { name := "Visit"
    generics := { params := [{ name := "'a", kind := .lifetime }, { name := "T", kind := .type, bounds := [reprC] },
      { name := "N", kind := .const }] }
    methods := [{ name := "visit", mutable := true, lifetimes := ["'b"]
                  args := [.con "&" [.param "'b", .param "T"], .con "usize" []], ret := some (.con "&" [.param "'a", .param "T"]) }]
    clone := false }

/-- The same with the constant first, a value of the parameter, no bound, and `Clone`. -/
def wrong : Trait :=
  { name := "Wrong"
    generics := { params := [{ name := "N", kind := .const }, { name := "T", kind := .type }] }
    methods := [{ name := "put", mutable := true, args := [.param "T"], ret := none }]
    clone := true }

theorem visit_legal : Legal visit := by
  refine ⟨by decide, ⟨[_], [_, _], rfl, ?_, ?_⟩, ?_, ?_, by decide, by decide, ?_, ?_⟩
  · intro p hp; rw [List.mem_singleton.1 hp]
  · intro p hp
    simp only [List.mem_cons, List.not_mem_nil, or_false] at hp
    rcases hp with rfl | rfl <;> decide
  · intro p hp b hb
    simp only [visit, List.mem_cons, List.not_mem_nil, or_false] at hp
    rcases hp with rfl | rfl | rfl
    · cases hb
    · rw [List.mem_singleton.1 hb]; trivial
    · cases hb
  · intro q hq; cases hq
  · intro m hm x hx
    rw [List.mem_singleton.1 hm] at hx
    rw [List.mem_singleton.1 hx]
    decide
  · intro m hm t ht
    rw [List.mem_singleton.1 hm] at ht ⊢
    simp only [Option.toList, List.cons_append, List.nil_append, List.mem_cons, List.not_mem_nil, or_false] at ht
    rcases ht with rfl | rfl | rfl <;> simp [Ty.Over, Ty.Overs, visit]

theorem wrong_legal : Legal wrong := by
  refine ⟨by decide, ⟨[], [_, _], rfl, ?_, ?_⟩, ?_, ?_, by decide, by decide, ?_, ?_⟩
  · intro p hp; cases hp
  · intro p hp
    simp only [List.mem_cons, List.not_mem_nil, or_false] at hp
    rcases hp with rfl | rfl <;> decide
  · intro p hp b hb
    simp only [wrong, List.mem_cons, List.not_mem_nil, or_false] at hp
    rcases hp with rfl | rfl <;> cases hb
  · intro q hq; cases hq
  · intro m hm x hx
    rw [List.mem_singleton.1 hm] at hx
    cases hx
  · intro m hm t ht
    rw [List.mem_singleton.1 hm] at ht ⊢
    simp only [Option.toList, List.append_nil, List.mem_singleton] at ht
    subst ht
    simp [Ty.Over, wrong]

end Sample

/-- A trait that meets the conditions of the positive theorems, with parameters of the three kinds. -/
example : Legal Sample.visit ∧ TypesFirst Sample.visit ∧ Sample.visit.clone = false ∧ (∃ O, deriveC false Sample.visit.vtable = some O) ∧
    ∀ m ∈ Sample.visit.methods, ∀ t ∈ m.args ++ m.ret.toList, Fixed (lifetimesOf Sample.visit m) t := by
  refine ⟨Sample.visit_legal, ⟨[_], [_], [_], rfl, ?_, ?_, ?_⟩, rfl, ⟨_, rfl⟩, ?_⟩
  · intro p hp; rw [List.mem_singleton.1 hp]
  · intro p hp; rw [List.mem_singleton.1 hp]
  · intro p hp; rw [List.mem_singleton.1 hp]
  · intro m hm t ht
    rw [List.mem_singleton.1 hm] at ht
    simp only [Option.toList, List.cons_append, List.nil_append, List.mem_cons, List.not_mem_nil, or_false] at ht
    rcases ht with rfl | rfl | rfl
    · exact .pointer
    · exact .closed trivial
    · exact .pointer

example : Sample.visit.vtable.fields.map (·.1) = ["release_vptr", "visit", "_invariant"] ∧
    Sample.wrong.vtable.fields.map (·.1) = ["release_vptr", "retain_vptr", "put", "_invariant"] := ⟨rfl, rfl⟩

/-- At `Visit<'a, u8, 3>`, in a world in which everything has a layout, the vtable has one. -/
example : Library (fun _ _ => True) ∧
    Sample.visit.vtable.Allows (fun _ _ => True) [.con "'u" [], .con "'a" [], .con "u8" [], .con "3" []] :=
  ⟨⟨fun _ _ => trivial, fun _ => trivial, fun _ _ => trivial, trivial, fun _ _ _ => trivial⟩, rfl, fun _ _ _ _ => trivial, fun _ _ => trivial⟩

/-- A trait that meets the conditions of the theorems on failures. -/
example : Legal Sample.wrong ∧ ¬ TypesFirst Sample.wrong ∧ Sample.wrong.clone = true ∧ Sample.wrong.generics.params ≠ [] ∧
    (∃ p ∈ Sample.wrong.generics.params, p.kind = .type ∧ ∃ m ∈ Sample.wrong.methods, .param p.name ∈ m.args ++ m.ret.toList) ∧
    (∀ q ∈ Sample.wrong.generics.params, ∀ b ∈ q.bounds, b.name ≠ "ReprC" ∧ b.name ≠ "ConcreteReprC") := by
  refine ⟨Sample.wrong_legal, ?_, rfl, by simp [Sample.wrong], ⟨{ name := "T", kind := .type }, by simp [Sample.wrong], rfl, _,
    List.mem_singleton_self _, by simp⟩, ?_⟩
  · rintro ⟨ls, ts, cs, e, h1, h2, h3⟩
    simp only [Sample.wrong] at e
    cases ls with
    | cons l ls =>
      simp only [List.cons_append, List.cons.injEq] at e
      have := h1 l List.mem_cons_self
      rw [← e.1] at this; cases this
    | nil =>
      cases ts with
      | cons t ts =>
        simp only [List.cons_append, List.nil_append, List.cons.injEq] at e
        have := h2 t List.mem_cons_self
        rw [← e.1] at this; cases this
      | nil =>
        simp only [List.nil_append] at e
        have := h3 { name := "T", kind := .type } (by rw [← e]; simp)
        cases this
  · intro q hq b hb
    simp only [Sample.wrong, List.mem_cons, List.not_mem_nil, or_false] at hq
    rcases hq with rfl | rfl <;> cases hb

end Verif.DynGen
