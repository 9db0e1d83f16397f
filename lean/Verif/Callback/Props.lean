import Verif.Callback.Lemmas
/-!
# Properties of the lifetimes of callback newtypes

`P` are the types that are `ReprC`, `ρ` the meaning of the lifetime parameters of the newtype and of `'static`.
-/
namespace Verif.Callback

variable {R : Type}

theorem clause_binder (binder : List String) (ty : Ty) : ∃ n, (clause binder ty).binder = binder ++ (List.range' 0 n).map elidedName ∧
    (visit ty { lifetimes := binder, counter := 0 }).2.counter = n := by
  obtain ⟨n, h1, h2⟩ := grows_visit ty { lifetimes := binder, counter := 0 }
  exact ⟨n, h2, by simpa using h1⟩

theorem binderOk_iff (b : List String) : binderOk b = true ↔ b.Nodup ∧ "static" ∉ b := by
  simp [binderOk]

theorem clause_binderOk {binder : List String} (h : binderOk binder = true) (hd : ∀ s ∈ binder, ¬ Generated s) (ty : Ty) :
    binderOk (clause binder ty).binder = true := by
  obtain ⟨n, hb, -⟩ := clause_binder binder ty
  rw [binderOk_iff] at h ⊢
  rw [hb]
  refine ⟨List.nodup_append.mpr ⟨h.1, ?_, fun a ha c hc e => ?_⟩, fun hm => ?_⟩
  · rw [List.nodup_iff_pairwise_ne, List.pairwise_map]
    exact (List.nodup_iff_pairwise_ne.mp List.nodup_range').imp fun hne e => hne (elidedName_inj e)
  · obtain ⟨i, -, rfl⟩ := List.mem_map.mp hc
    exact hd a ha (e ▸ generated_elided i)
  · rcases List.mem_append.mp hm with hm | hm
    · exact h.2 hm
    · obtain ⟨i, -, e⟩ := List.mem_map.mp hm
      exact static_not_generated (e ▸ generated_elided i)

/-- The new lifetimes mean `rs`. -/
def choose (σ : String → R) (rs : List R) (x : String) : R :=
  match (List.range rs.length).find? (fun i => elidedName i == x) with
  | some i => rs[i]?.getD (σ x)
  | none => σ x

theorem choose_other (σ : String → R) (rs : List R) {x : String} (h : ∀ i < rs.length, elidedName i ≠ x) : choose σ rs x = σ x := by
  unfold choose
  rw [List.find?_eq_none.mpr (by simpa using h)]

theorem choose_elided (σ : String → R) (rs : List R) {i : Nat} {r : R} (h : rs[i]? = some r) : choose σ rs (elidedName i) = r := by
  obtain ⟨hi, hr⟩ := List.getElem?_eq_some_iff.mp h
  unfold choose
  cases hf : (List.range rs.length).find? (fun j => elidedName j == elidedName i) with
  | none =>
    have := List.find?_eq_none.mp hf i (by simpa using hi)
    simp at this
  | some j =>
    have := List.find?_some hf
    have hj : j = i := elidedName_inj (by simpa using this)
    subst hj
    simp [h]

/-- C80 (partial): a callback newtype is `ReprC`, that is, the generated where clauses are accepted by the compiler and
hold, exactly if the types of all its parameters and of its result are, whatever the lifetimes that they elide or
that its `for<…>` declares. Missing: function pointers inside of these types that elide lifetimes themselves
(`C80_fails_inner_elision`), and lifetimes with names that the macro uses (`C80_fails_reserved`). -/
theorem C80_bounds_partial (P : RTy R → Prop) (ρ : String → R) (d : Newtype) (hd : d.Ok) (hf : ∀ ty ∈ d.types, ty.fnsOk = true) :
    (∀ c ∈ d.clauses, c.Holds P d.generics ρ) ↔
    ∀ ty ∈ d.types, ∀ (σ : String → R) (u : RTy R), (∀ s, s ∉ d.binder → σ s = ρ s) → ty.Inst [] σ u → P u := by
  constructor
  · intro h ty hty σ u hσ hu
    obtain ⟨-, -, h⟩ := h _ (List.mem_map_of_mem hty)
    obtain ⟨n, hb, hn⟩ := clause_binder d.binder ty
    obtain ⟨rs, h1, h2⟩ := reached (σ := σ) { lifetimes := d.binder, counter := 0 } (hf ty hty) (hd.used ty hty) hu
    rw [hn] at h1
    simp only [Nat.zero_add] at h1
    have hex : Extends σ (choose σ rs) 0 rs := by
      refine ⟨fun s hs => choose_other σ rs fun i _ e => hs (e ▸ generated_elided i), fun i r hr => ?_⟩
      rw [Nat.zero_add]; exact choose_elided σ rs hr
    have hag : ∀ s, s ∉ (clause d.binder ty).binder → choose σ rs s = ρ s := by
      intro s hs
      rw [hb, List.mem_append] at hs
      rw [choose_other σ rs, hσ s fun h => hs (.inl h)]
      intro i hi e
      exact hs (.inr (List.mem_map.mpr ⟨i, by simp [List.mem_range'_1]; omega, e⟩))
    obtain ⟨u', h3, h4⟩ := h (choose σ rs) hag
    have h5 : (visit ty { lifetimes := d.binder, counter := 0 }).1.eval [] (choose σ rs) = some u := h2 _ hex
    have h3' : (visit ty { lifetimes := d.binder, counter := 0 }).1.eval [] (choose σ rs) = some u' := h3
    rw [h5] at h3'
    exact Option.some.inj h3' ▸ h4
  · intro h c hc
    obtain ⟨ty, hty, rfl⟩ := List.mem_map.mp hc
    obtain ⟨n, hb, -⟩ := clause_binder d.binder ty
    refine ⟨clause_binderOk hd.binder hd.declared ty, fun s hs => ?_, fun σ hσ => ?_⟩
    · rw [hb] at hs
      rcases List.mem_append.mp hs with hs | hs
      · exact hd.shadow s hs
      · obtain ⟨i, -, rfl⟩ := List.mem_map.mp hs
        exact fun hg => hd.generics _ hg (generated_elided i)
    · let τ : String → R := fun s => if s ∈ d.binder then σ s else ρ s
      have hτ : ∀ s, Lt.name s ∈ ty.names → τ s = σ s := by
        intro s hs
        by_cases hsb : s ∈ d.binder
        · simp [τ, hsb]
        · simp only [τ, hsb, if_false]
          refine (hσ s ?_).symm
          rw [hb, List.mem_append]
          rintro (h | h)
          · exact hsb h
          · obtain ⟨i, -, rfl⟩ := List.mem_map.mp h
            exact hd.used ty hty _ hs (generated_elided i)
      obtain ⟨u, h1, h2⟩ := sound (σ := σ) (τ := τ) ty { lifetimes := d.binder, counter := 0 } (hf ty hty) hτ
      exact ⟨u, h1, h ty hty τ u (fun s hs => by simp [τ, hs]) h2⟩

/-! ### The C layout -/

mutual
/-- No function pointer inside of the type has a `for<…>`. -/
def Ty.noFor : Ty → Bool
  | .path _ _ args => Ty.allNoFor args
  | .ref _ _ ty => ty.noFor
  | .ptr _ ty => ty.noFor
  | .tuple tys => Ty.allNoFor tys
  | .dyn ts _ => Ty.allNoFor ts
  | .fn b ps r => b.isEmpty && Ty.allNoFor ps && r.noFor
/-- The same for several types. -/
def Ty.allNoFor : List Ty → Bool
  | [] => true
  | t :: ts => t.noFor && Ty.allNoFor ts
end

theorem strip_lts (r : R) (τ : String → R) : ∀ ls : List Lt, (∀ s, Lt.name s ∈ ls → τ s = r) → ∃ gs, (∀ σ : String → R, σ "static" = r → Lt.evals [] σ (ls.map stripLt) = some gs) ∧
    Lt.Insts [] τ ls gs
  | [], _ => ⟨[], fun _ _ => rfl, trivial⟩
  | l :: ls, hn => by
    obtain ⟨gs, h1, h2⟩ := strip_lts r τ ls fun s hs => hn s (by simp [hs])
    refine ⟨.free r :: gs, fun σ hσ => by simp [Lt.evals, stripLt, Lt.eval, h1 σ hσ, hσ], ?_, h2⟩
    cases l with
    | elided => exact ⟨r, rfl⟩
    | name x => simp [Lt.Inst, hn x (by simp)]

mutual
theorem strip_inst (r : R) (τ : String → R) : ∀ ty : Ty, ty.noFor = true → (∀ s, Lt.name s ∈ ty.names → τ s = r) →
    ∃ u, (∀ σ : String → R, σ "static" = r → (strip ty).eval [] σ = some u) ∧ ty.Inst [] τ u
  | .path n lts args, h, hn => by
    simp only [Ty.noFor] at h
    obtain ⟨gs, h1, h2⟩ := strip_lts r τ lts fun s hs => hn s (by simp [Ty.names, hs])
    obtain ⟨us, h3, h4⟩ := strips_inst r τ args h fun s hs => hn s (by simp [Ty.names, hs])
    exact ⟨.path n gs us, fun σ hσ => by simp [strip, Ty.eval, h1 σ hσ, h3 σ hσ], rfl, h2, h4⟩
  | .ref l m ty, h, hn => by
    simp only [Ty.noFor] at h
    obtain ⟨u, h3, h4⟩ := strip_inst r τ ty h fun s hs => hn s (by simp [Ty.names, hs])
    refine ⟨.ref (.free r) m u, fun σ hσ => by simp [strip, Ty.eval, Lt.eval, h3 σ hσ, hσ], ?_⟩
    cases l with
    | none => rw [Ty.Inst]; exact ⟨rfl, ⟨r, rfl⟩, h4⟩
    | some l => rw [Ty.Inst]; refine ⟨rfl, ?_, h4⟩; cases l with
      | elided => exact ⟨r, rfl⟩
      | name x => simp [Lt.Inst, hn x (by simp [Ty.names])]
  | .ptr m ty, h, hn => by
    simp only [Ty.noFor] at h
    obtain ⟨u, h3, h4⟩ := strip_inst r τ ty h fun s hs => hn s (by simp [Ty.names, hs])
    exact ⟨.ptr m u, fun σ hσ => by simp [strip, Ty.eval, h3 σ hσ], rfl, h4⟩
  | .tuple tys, h, hn => by
    simp only [Ty.noFor] at h
    obtain ⟨us, h3, h4⟩ := strips_inst r τ tys h fun s hs => hn s (by simp [Ty.names, hs])
    exact ⟨.tuple us, fun σ hσ => by simp [strip, Ty.eval, h3 σ hσ], h4⟩
  | .dyn ts lts, h, hn => by
    simp only [Ty.noFor] at h
    obtain ⟨gs, h1, h2⟩ := strip_lts r τ lts fun s hs => hn s (by simp [Ty.names, hs])
    obtain ⟨us, h3, h4⟩ := strips_inst r τ ts h fun s hs => hn s (by simp [Ty.names, hs])
    exact ⟨.dyn us gs, fun σ hσ => by simp [strip, Ty.eval, h1 σ hσ, h3 σ hσ], h4, h2⟩
  | .fn b ps ret, h, hn => by
    simp only [Ty.noFor, Bool.and_eq_true, List.isEmpty_iff] at h
    obtain ⟨⟨rfl, hp⟩, hr⟩ := h
    obtain ⟨us, h1, h2⟩ := strips_inst r τ ps hp fun s hs => hn s (by simp [Ty.names, hs])
    obtain ⟨u, h3, h4⟩ := strip_inst r τ ret hr fun s hs => hn s (by simp [Ty.names, hs])
    exact ⟨.fn [] us u, fun σ hσ => by simp [strip, Ty.eval, binderOk, h1 σ hσ, h3 σ hσ], rfl, h2, h4⟩
theorem strips_inst (r : R) (τ : String → R) : ∀ tys : List Ty, Ty.allNoFor tys = true → (∀ s, Lt.name s ∈ Ty.namesOf tys → τ s = r) →
    ∃ us, (∀ σ : String → R, σ "static" = r → Ty.evals [] σ (strips tys) = some us) ∧ Ty.Insts [] τ tys us
  | [], _, _ => ⟨[], fun _ _ => rfl, trivial⟩
  | t :: ts, h, hn => by
    simp only [Ty.allNoFor, Bool.and_eq_true] at h
    obtain ⟨u, h1, h2⟩ := strip_inst r τ t h.1 fun s hs => hn s (by simp [Ty.namesOf, hs])
    obtain ⟨us, h3, h4⟩ := strips_inst r τ ts h.2 fun s hs => hn s (by simp [Ty.namesOf, hs])
    exact ⟨u :: us, fun σ hσ => by simp [strips, Ty.evals, h1 σ hσ, h3 σ hσ], h2, h4⟩
end

/-- C80 (partial): the C layout of the newtype has one parameter per parameter of the callback, in order, each the C
layout of the type as written with `'static` for all lifetimes, and does not depend on any lifetime. Missing:
function pointers inside of these types that have a `for<…>` (`C80_fails_inner_for`). -/
theorem C80_layout_partial (d : Newtype) (hf : ∀ ty ∈ d.types, ty.noFor = true) (r : R) :
    d.layout.params.length = d.params.length ∧
    (∀ (i : Nat) (ty ty' : Ty), d.params[i]? = some ty → d.layout.params[i]? = some ty' →
      ∃ u, (∀ σ : String → R, σ "static" = r → ty'.eval [] σ = some u) ∧ ty.Inst [] (fun _ => r) u) ∧
    ∃ u, (∀ σ : String → R, σ "static" = r → d.layout.ret.eval [] σ = some u) ∧ (d.ret.getD (.tuple [])).Inst [] (fun _ => r) u := by
  refine ⟨by simp [Newtype.layout], fun i ty ty' h h' => ?_, ?_⟩
  · simp only [Newtype.layout, List.getElem?_map, h, Option.map_some, Option.some.injEq] at h'
    subst h'
    exact strip_inst r (fun _ => r) ty (hf ty (List.mem_append_left _ (List.mem_of_getElem? h))) fun _ _ => rfl
  · simp only [Newtype.layout]
    cases hr : d.ret with
    | none => exact ⟨.tuple [], fun σ _ => by simp [Ty.eval, Ty.evals], by simp [Ty.Inst, Ty.Insts]⟩
    | some ty =>
      simp only [Option.getD_some]
      exact strip_inst r (fun _ => r) ty (hf ty (by simp [Newtype.types, hr])) fun _ _ => rfl

/-- C80 (partial): if the newtype is `ReprC`, the types of which its C layout takes the C layouts are `ReprC` too: the
compiler accepts the layout. Missing: newtypes with lifetime parameters (`C80_fails_generic_lifetime`). -/
theorem C80_accepted_partial (P : RTy R → Prop) (ρ : String → R) (d : Newtype) (hd : d.Ok) (hf : ∀ ty ∈ d.types, ty.fnsOk = true)
    (hb : ∀ ty ∈ d.types, ty.noFor = true) (hg : ∀ ty ∈ d.types, ∀ s, Lt.name s ∈ ty.names → s ∈ d.binder ∨ s = "static")
    (h : ∀ c ∈ d.clauses, c.Holds P d.generics ρ) :
    (∀ ty ∈ d.layout.params, ∃ u, ty.eval [] ρ = some u ∧ P u) ∧ (d.ret.isSome → ∃ u, d.layout.ret.eval [] ρ = some u ∧ P u) := by
  have key : ∀ ty ∈ d.types, ∃ u, (strip ty).eval [] ρ = some u ∧ P u := by
    intro ty hty
    obtain ⟨u, h1, h2⟩ := strip_inst (ρ "static") (fun s => if s ∈ d.binder then ρ "static" else ρ s) ty (hb ty hty) fun s hs => by
      rcases hg ty hty s hs with h | rfl
      · simp [h]
      · simp
    exact ⟨u, h1 ρ rfl, (C80_bounds_partial P ρ d hd hf).mp h ty hty _ u (fun s hs => by simp [hs]) h2⟩
  refine ⟨fun ty hty => ?_, fun hr => ?_⟩
  · obtain ⟨t, ht, rfl⟩ := List.mem_map.mp hty
    exact key t (List.mem_append_left _ ht)
  · obtain ⟨ty, hr⟩ := Option.isSome_iff_exists.mp hr
    have := key ty (by simp [Newtype.types, hr])
    simpa [Newtype.layout, hr] using this

/-! ### What does not hold -/

/-- `u8`. -/
def byte : Ty := .path "u8" [] []

/-- `pub struct Cb(pub extern "C" fn(extern "C" fn(&u8)));` -/
def inner : Newtype where
  generics := []
  binder := []
  params := [.fn [] [.ref none false byte] (.tuple [])]
  ret := none

/-- C80: a callback that takes a callback that takes a reference. The generated clause is about callbacks that take
references of one lifetime: `for<'__elided_0> extern "C" fn(&'__elided_0 u8) : ReprC`, and never about the type of
the parameter, which is `for<'x> extern "C" fn(&'x u8)`. -/
theorem C80_fails_inner_elision (σ : String → R) (x : String) : ∀ c ∈ inner.clauses,
    c.ty.eval [] σ = some (.fn [] [.ref (.free (σ "__elided_0")) false (.path "u8" [] [])] (.tuple [])) ∧
    c.ty.eval [] σ ≠ some (.fn [x] [.ref (.bound x) false (.path "u8" [] [])] (.tuple [])) := by
  intro c hc
  have : c.ty = .fn [] [.ref (some (.name "__elided_0")) false byte] (.tuple []) := by
    simp only [Newtype.clauses, Newtype.types, inner, Option.toList_none, List.append_nil, List.map_cons, List.map_nil, List.mem_singleton] at hc
    subst hc
    rfl
  rw [this]
  refine ⟨by simp [Ty.eval, Ty.evals, Lt.eval, Lt.evals, byte, binderOk], ?_⟩
  simp [Ty.eval, Ty.evals, Lt.eval, Lt.evals, byte, binderOk]

/-- `pub struct Cb(pub extern "C" fn(for<'a> extern "C" fn(&'a u8)));` -/
def innerFor : Newtype where
  generics := []
  binder := []
  params := [.fn ["a"] [.ref (some (.name "a")) false byte] (.tuple [])]
  ret := none

/-- C80: the parameter is itself a callback, with a `for<…>`: the clause is about its type, but the layout declares
`for<'static>`, which the compiler rejects. -/
theorem C80_fails_inner_for (σ : String → R) :
    (∀ c ∈ innerFor.clauses, c.ty.eval [] σ = some (.fn ["a"] [.ref (.bound "a") false (.path "u8" [] [])] (.tuple []))) ∧
    ∀ ty ∈ innerFor.layout.params, ty.eval [] σ = none := by
  refine ⟨fun c hc => ?_, fun ty hty => ?_⟩
  · simp only [Newtype.clauses, Newtype.types, innerFor, Option.toList_none, List.append_nil, List.map_cons, List.map_nil, List.mem_singleton] at hc
    subst hc
    simp [clause, visit, visits, visitLt, visitLts, byte, Ty.eval, Ty.evals, Lt.eval, Lt.evals, binderOk]
  · simp only [Newtype.layout, innerFor, List.map_cons, List.map_nil, List.mem_singleton] at hty
    subst hty
    simp [strip, Ty.eval, binderOk]

/-- `pub struct Cb(pub for<'__elided_0> extern "C" fn(&'__elided_0 u8, &u8));` -/
def reserved : Newtype where
  generics := []
  binder := ["__elided_0"]
  params := [.ref (some (.name "__elided_0")) false byte, .ref none false byte]
  ret := none

/-- C80: a lifetime called like the first that the macro introduces is declared twice. -/
theorem C80_fails_reserved : ∃ c ∈ reserved.clauses, ∀ (P : RTy R → Prop) (ρ : String → R), ¬ c.Holds P reserved.generics ρ :=
  ⟨clause reserved.binder (.ref none false byte), by simp [Newtype.clauses, Newtype.types, reserved], fun P ρ h => absurd h.1 (by decide +kernel)⟩

/-- `pub struct Cb<'a, T : 'a>(pub extern "C" fn(&'a T));` -/
def generic : Newtype where
  generics := ["a"]
  binder := []
  params := [.ref (some (.name "a")) false (.path "T" [] [])]
  ret := none

/-- C80: where `&'a T` is `ReprC` but not `&'static T`, as `T` does not outlive it, the clauses hold, but the layout
takes the C layout of `&'static T`. -/
theorem C80_fails_generic_lifetime (ρ : String → R) (h : ρ "a" ≠ ρ "static") :
    let P : RTy R → Prop := fun u => u = .ref (.free (ρ "a")) false (.path "T" [] [])
    generic.Ok ∧ (∀ c ∈ generic.clauses, c.Holds P generic.generics ρ) ∧
    ∀ ty ∈ generic.layout.params, ∃ u, ty.eval [] ρ = some u ∧ ¬ P u := by
  have ha : ¬ Generated "a" := by
    rintro ⟨n, h⟩
    have := congrArg (fun s => s.toList.head?) h
    simp at this
  refine ⟨⟨rfl, by simp [generic], by simp [generic, ha], by simp [generic], fun ty hty s hs => ?_⟩, fun c hc => ?_, fun ty hty => ?_⟩
  · simp only [Newtype.types, generic, Option.toList_none, List.append_nil, List.mem_singleton] at hty
    subst hty
    simp only [Ty.names, Ty.namesOf, Option.toList_some, List.append_nil, List.mem_singleton, Lt.name.injEq] at hs
    subst hs
    exact ha
  · simp only [Newtype.clauses, Newtype.types, generic, Option.toList_none, List.append_nil, List.map_cons, List.map_nil, List.mem_singleton] at hc
    subst hc
    refine ⟨rfl, by simp [clause, visit, visitLt, visits, visitLts], fun σ hσ => ⟨_, rfl, ?_⟩⟩
    have := hσ "a" (by simp [clause, visit, visitLt, visits, visitLts])
    simp [this]
  · simp only [Newtype.layout, generic, List.map_cons, List.map_nil, List.mem_singleton] at hty
    subst hty
    refine ⟨_, rfl, ?_⟩
    simpa using fun e => h e.symm

/-! ### The hypotheses can be met -/

/-- `pub struct Cb(pub for<'a> extern "C" fn(&'a u8, slice_ref<'_, &u8>, extern "C" fn(&'a u8)) -> &'a u8);` -/
def sample : Newtype where
  generics := []
  binder := ["a"]
  params := [.ref (some (.name "a")) false byte, .path "slice_ref" [.elided] [.ref none false byte],
    .fn [] [.ref (some (.name "a")) false byte] (.tuple [])]
  ret := some (.ref (some (.name "a")) false byte)

example : sample.clauses = [
    { binder := ["a"], ty := .ref (some (.name "a")) false byte },
    { binder := ["a", "__elided_0", "__elided_1"], ty := .path "slice_ref" [.name "__elided_0"] [.ref (some (.name "__elided_1")) false byte] },
    { binder := ["a"], ty := .fn [] [.ref (some (.name "a")) false byte] (.tuple []) },
    { binder := ["a"], ty := .ref (some (.name "a")) false byte }] := rfl
example : (∀ ty ∈ sample.types, ty.fnsOk = true) ∧ (∀ ty ∈ sample.types, ty.noFor = true) := by
  simp [sample, Newtype.types, byte, Ty.fnsOk, Ty.allFnsOk, Ty.noFor, Ty.allNoFor, binderOk, Ty.explicit, Ty.explicits]
example : sample.Ok := by
  have ha : ¬ Generated "a" := by
    rintro ⟨n, h⟩
    have := congrArg (fun s => s.toList.head?) h
    simp at this
  refine ⟨rfl, by simp [sample], by simp [sample], by simp [sample, ha], fun ty hty s hs => ?_⟩
  simp only [Newtype.types, sample, byte, Option.toList_some, List.cons_append, List.nil_append, List.mem_cons, List.not_mem_nil, or_false] at hty
  rcases hty with rfl | rfl | rfl | rfl <;> simp [Ty.names, Ty.namesOf] at hs <;> (subst hs; exact ha)

end Verif.Callback
