import Verif.Generics.Lemmas
import Verif.Headers.AbiProps
/-!
# C96: generic definitions
-/
namespace Verif.Generics

/-! ## `#[repr(C)]` -/

theorem deriveC_eq {js : Bool} {D : Def} {O : Output} (h : deriveC js D = some O) : ∃ l : List Impl,
    (l = [] ∧ js = false ∨ ∃ i, l = [i] ∧ js = true ∧
      jsImpl (ctypeGenerics D.generics (D.fields.map (·.2))) (D.name ++ "_Layout") (D.fields.map fun f => .layout f.2) = some i) ∧
    O.structs = [⟨D.name ++ "_Layout", ctypeGenerics D.generics (D.fields.map (·.2)), D.fields.map fun f => (f.1, .layout f.2)⟩] ∧
    O.impls = l ++ ctypeImpls (ctypeGenerics D.generics (D.fields.map (·.2))) (D.name ++ "_Layout") ++
      [implFor (ctypeGenerics D.generics (D.fields.map (·.2))) reprC D.name
        (some (.con (D.name ++ "_Layout") (ctypeGenerics D.generics (D.fields.map (·.2))).fwd))] ∧
    O.projections = D.fields.map (·.2) ++ D.generics.typeParams.map (.param ·.name) ∧
    O.napi = if js then (D.fields.map (·.2)).map (.layout <| .layout ·) else [] := by
  simp only [deriveC, Option.map_eq_some_iff] at h
  obtain ⟨l, hl, rfl⟩ := h
  refine ⟨l, ?_, rfl, rfl, rfl, rfl⟩
  cases js with
  | false => simp only [Bool.false_eq_true, if_false, Option.some.injEq] at hl; exact .inl ⟨hl.symm, rfl⟩
  | true =>
    simp only [if_true, Option.map_eq_some_iff, List.map_map] at hl
    obtain ⟨i, hi, rfl⟩ := hl
    exact .inr ⟨i, rfl, rfl, hi⟩

theorem jsImpl_trait {g : Generics} {c : String} {ts : List Ty} {i : Impl} (h : jsImpl g c ts = some i) :
    i.trait = reprNapi := by
  simp only [jsImpl, Option.map_eq_some_iff] at h
  obtain ⟨⟨ps, bs⟩, -, rfl⟩ := h
  rfl

theorem layout_ne (D : Def) : D.name ++ "_Layout" ≠ D.name := append_ne _ _ (by decide)

/-- C96: an instance of a generic `#[repr(C)]` struct has a C layout if and only if it is an instance that Rust allows,
each type argument has a C layout, and each field has one that is not opaque; whether or not JavaScript glue is
generated. -/
theorem C96_repr_c {D : Def} (L : D.Legal) {js : Bool} {O : Output} (h : deriveC js D = some O) (W : World) (args : List Ty) :
    O.Has W reprC (.con D.name args) ↔ D.Concrete W args := by
  obtain ⟨l, hl, -, hi, -⟩ := deriveC_eq h
  rw [← ctype_at L (W := W) reprC D.name (some (.con (D.name ++ "_Layout") (ctypeGenerics D.generics (D.fields.map (·.2))).fwd)) args]
  constructor
  · rintro ⟨i, hm, ht, σ, hσ⟩
    rw [hi] at hm
    simp only [ctypeImpls, List.mem_append, List.mem_cons, List.not_mem_nil, or_false] at hm
    rcases hm with (hm | rfl | rfl | rfl | rfl) | rfl
    · rcases hl with ⟨rfl, -⟩ | ⟨j, rfl, -, hj⟩
      · cases hm
      · rw [List.mem_singleton.1 hm, jsImpl_trait hj] at ht
        simp [reprNapi, reprC] at ht
    · exact absurd hσ (not_at (layout_ne D))
    · exact absurd hσ (not_at (layout_ne D))
    · exact absurd hσ (not_at (layout_ne D))
    · exact absurd hσ (not_at (layout_ne D))
    · exact ⟨σ, hσ⟩
  · rintro ⟨σ, hσ⟩
    exact ⟨_, by rw [hi]; simp, rfl, σ, hσ⟩

/-- C96: that layout is the generated struct at the same arguments. Its fields are, in the same order and under the same
names, the layouts of the fields at these arguments, and the bounds that the generated struct has hold. -/
theorem C96_layout {D : Def} (L : D.Legal) {js : Bool} {O : Output} (h : deriveC js D = some O) (W : World) (args : List Ty) :
    (∀ u, O.Layout W (.con D.name args) u ↔ D.Concrete W args ∧ u = .con (D.name ++ "_Layout") args) ∧
    ∃ I, O.structs = [I] ∧ I.name = D.name ++ "_Layout" ∧
      I.fields.map (fun f => (f.1, f.2.subst (D.arg args))) = D.fields.map (fun f => (f.1, .layout (f.2.subst (D.arg args)))) ∧
      I.generics.params = D.generics.params ∧
      (D.Concrete W args → ∀ q ∈ I.generics.wheres, q.Holds W (D.arg args)) := by
  obtain ⟨l, hl, hs, hi, -⟩ := deriveC_eq h
  refine ⟨fun u => ?_, _, hs, rfl, ?_, rfl, ?_⟩
  · constructor
    · rintro ⟨i, hm, ht, σ, hσ, a, ha, rfl⟩
      have hc := (C96_repr_c L h W args).1 ⟨i, hm, ht, σ, hσ⟩
      refine ⟨hc, ?_⟩
      rw [hi] at hm
      simp only [ctypeImpls, List.mem_append, List.mem_cons, List.not_mem_nil, or_false] at hm
      rcases hm with (hm | rfl | rfl | rfl | rfl) | rfl
      · rcases hl with ⟨rfl, -⟩ | ⟨j, rfl, -, hj⟩
        · cases hm
        · rw [List.mem_singleton.1 hm, jsImpl_trait hj] at ht
          simp [reprNapi, reprC] at ht
      · exact absurd hσ (not_at (layout_ne D))
      · exact absurd hσ (not_at (layout_ne D))
      · exact absurd hσ (not_at (layout_ne D))
      · exact absurd hσ (not_at (layout_ne D))
      · simp only [implFor, Option.some.injEq] at ha
        subst ha
        have h1 := hσ.1
        simp only [implFor, Ty.subst, Ty.con.injEq, true_and] at h1 ⊢
        exact h1
    · rintro ⟨hc, rfl⟩
      obtain ⟨A, B⟩ := added_holds.2 hc
      obtain ⟨σ, hσ, e⟩ := (implFor_at (W := W) (extra := added D) L (g := ctypeGenerics D.generics (D.fields.map (·.2))) rfl rfl (added_over L)
        reprC D.name (some (.con (D.name ++ "_Layout") (ctypeGenerics D.generics (D.fields.map (·.2))).fwd)) args
        (fun σ => Ty.con (D.name ++ "_Layout") args = (Ty.con (D.name ++ "_Layout") (ctypeGenerics D.generics (D.fields.map (·.2))).fwd).subst σ)
        (fun σ τ hστ => by
          rw [fwd_congr L (g := ctypeGenerics D.generics (D.fields.map (·.2))) rfl _ hστ])).2
        ⟨⟨A, B⟩, (fwd_subst L (g := ctypeGenerics D.generics (D.fields.map (·.2))) rfl _ A.count).symm⟩
      exact ⟨_, by rw [hi]; simp, rfl, σ, hσ, _, rfl, e⟩
  · simp only [List.map_map]
    exact List.map_congr_left fun f _ => rfl
  · intro hc q hq
    obtain ⟨A, B⟩ := added_holds.2 hc
    simp only [ctypeGenerics, List.mem_append] at hq
    rcases hq with hq | hq
    · exact A.wheres q hq
    · exact B q (by simpa only [added, List.mem_append] using hq)

/-- C96: the generated struct is a C type, `Clone`, `Copy` and its own layout at the same arguments. -/
theorem C96_ctype {D : Def} (L : D.Legal) {js : Bool} {O : Output} (h : deriveC js D = some O) (W : World) (args : List Ty)
    (tr : Bound) (ht : tr ∈ [⟨"CType", []⟩, ⟨"Clone", []⟩, ⟨"Copy", []⟩, reprC]) :
    O.Has W tr (.con (D.name ++ "_Layout") args) ↔ D.Concrete W args := by
  obtain ⟨l, hl, -, hi, -⟩ := deriveC_eq h
  constructor
  · rintro ⟨i, hm, rfl, σ, hσ⟩
    rw [hi] at hm
    simp only [ctypeImpls, List.mem_append, List.mem_cons, List.not_mem_nil, or_false] at hm
    rcases hm with (hm | rfl | rfl | rfl | rfl) | rfl
    · rcases hl with ⟨rfl, -⟩ | ⟨j, rfl, -, hj⟩
      · cases hm
      · rw [List.mem_singleton.1 hm, jsImpl_trait hj] at ht
        simp [reprNapi, reprC] at ht
    iterate 4 exact (ctype_at L _ _ _ args).1 ⟨σ, hσ⟩
    · exact absurd hσ (not_at (layout_ne D).symm)
  · intro hc
    simp only [List.mem_cons, List.not_mem_nil, or_false] at ht
    rcases ht with rfl | rfl | rfl | rfl
    all_goals
      obtain ⟨σ, hσ⟩ := (ctype_at L _ _ _ args).2 hc
      exact ⟨_, by rw [hi]; simp only [ctypeImpls, List.mem_append, List.mem_cons]; first | exact .inl (.inr (.inl rfl)) | exact .inl (.inr (.inr (.inl rfl))) | exact .inl (.inr (.inr (.inr (.inl rfl)))) | exact .inl (.inr (.inr (.inr (.inr (.inl rfl))))), rfl, σ, hσ⟩

/-- C96: every layout that the generated code speaks of is there, for every instance. -/
theorem C96_projections {D : Def} (L : D.Legal) {js : Bool} {O : Output} (h : deriveC js D = some O) {W : World} (hW : Lawful W)
    {args : List Ty} (hc : O.Has W reprC (.con D.name args)) : ∀ t ∈ O.projections, W (t.subst (D.arg args)) reprC := by
  obtain ⟨-, h1, h2⟩ := (C96_repr_c L h W args).1 hc
  obtain ⟨l, -, -, -, hp, -⟩ := deriveC_eq h
  rw [hp]
  intro t ht
  simp only [List.mem_append, List.mem_map, Generics.typeParams, List.mem_filter, decide_eq_true_eq] at ht
  rcases ht with ⟨f, hf, rfl⟩ | ⟨p, ⟨hp, hk⟩, rfl⟩
  · exact hW.concrete _ (h2 f hf)
  · exact h1 p hp hk

/-! ### JavaScript -/

/-- C96: with JavaScript glue, the layout type converts from and to JavaScript at the same arguments, provided that it is
`'static` and that the layouts of the fields and of the type arguments convert; and without, it does not. -/
theorem C96_js {D : Def} (L : D.Legal) {js : Bool} {O : Output} (h : deriveC js D = some O) (W : World) (args : List Ty) :
    O.Has W reprNapi (.con (D.name ++ "_Layout") args) ↔
      js = true ∧ D.Concrete W args ∧ W (.con (D.name ++ "_Layout") args) ⟨"outlives", [.con "'static" []]⟩ ∧
      (∀ f ∈ D.fields, W (.layout (f.2.subst (D.arg args))) reprC ∧
        W (.layout (.layout (f.2.subst (D.arg args)))) reprNapi) ∧
      ∀ p ∈ D.generics.params, p.kind = .type → W (.layout (D.arg args p.name)) reprNapi := by
  obtain ⟨l, hl, -, hi, -⟩ := deriveC_eq h
  constructor
  · rintro ⟨i, hm, ht, σ, hσ⟩
    rw [hi] at hm
    simp only [ctypeImpls, List.mem_append, List.mem_cons, List.not_mem_nil, or_false] at hm
    rcases hm with (hm | rfl | rfl | rfl | rfl) | rfl
    · rcases hl with ⟨rfl, -⟩ | ⟨j, rfl, rfl, hj⟩
      · cases hm
      · rw [List.mem_singleton.1 hm] at hσ
        exact ⟨rfl, (jsImpl_at L W hj).1 ⟨σ, hσ⟩⟩
    all_goals simp [implFor, reprNapi, reprC] at ht
  · rintro ⟨rfl, hc⟩
    rcases hl with ⟨rfl, h⟩ | ⟨j, rfl, -, hj⟩
    · cases h
    · obtain ⟨σ, hσ⟩ := (jsImpl_at L W hj).2 hc
      exact ⟨j, by rw [hi]; simp, jsImpl_trait hj, σ, hσ⟩

/-- C96: wherever the impl for JavaScript applies, the conversions that its body uses are there. -/
theorem C96_js_projections {D : Def} (L : D.Legal) {js : Bool} {O : Output} (h : deriveC js D = some O) (W : World)
    {args : List Ty} (hc : O.Has W reprNapi (.con (D.name ++ "_Layout") args)) :
    O.napi.length = D.fields.length ∧ ∀ t ∈ O.napi, W (t.subst (D.arg args)) reprNapi := by
  obtain ⟨rfl, -, -, hf, -⟩ := (C96_js L h W args).1 hc
  obtain ⟨l, -, -, -, -, hp⟩ := deriveC_eq h
  rw [hp]
  refine ⟨by simp, fun t ht => ?_⟩
  simp only [if_true, List.mem_map] at ht
  obtain ⟨t, ⟨f, hf', rfl⟩, rfl⟩ := ht
  exact (hf f hf').2

/-- C96: without JavaScript glue, every definition is accepted; with it, those without constant parameters are. -/
theorem C96_accepted_partial (D : Def) : (deriveC false D).isSome = true ∧
    ((∀ p ∈ D.generics.params, p.kind ≠ .const) → (deriveC true D).isSome = true) := by
  refine ⟨by simp [deriveC], fun h => ?_⟩
  have : mySplit (ctypeGenerics D.generics (D.fields.map (·.2))) ≠ none := by
    rw [mySplit, if_neg (by simpa [ctypeGenerics] using h)]
    exact Option.some_ne_none _
  simp only [deriveC, if_true, jsImpl, Option.isSome_map, Option.isSome_iff_ne_none]
  exact this

/-- C96 fails: a struct with a constant parameter is accepted, but with JavaScript glue the macro panics
(`unimplemented!("const generics")`). -/
theorem C96_fails_const_js (D : Def) (h : ∃ p ∈ D.generics.params, p.kind = .const) :
    (deriveC false D).isSome = true ∧ deriveC true D = none := by
  refine ⟨(C96_accepted_partial D).1, ?_⟩
  have : mySplit (ctypeGenerics D.generics (D.fields.map (·.2))) = none := by
    rw [mySplit, if_pos (by simpa [ctypeGenerics] using h)]
  simp [deriveC, jsImpl, this]

/-! ## `#[repr(transparent)]` -/

/-- The documented condition: the definition's own bounds, and the first field has a C layout. -/
def Def.First (D : Def) (W : World) (args : List Ty) (b : Bound) : Prop :=
  ∃ f, D.fields.head? = some f ∧ W (f.2.subst (D.arg args)) b

/-- C96: an instance of a generic `#[repr(transparent)]` struct has a C layout if and only if it is an instance that Rust
allows and its first field has one. Without `rename` it is that of the field, with `rename` the generated struct at
the same arguments. -/
theorem C96_transparent {D : Def} (L : D.Legal) {rename js : Bool} {O : Output} (h : deriveTransparent rename js D = some O)
    (W : World) (args : List Ty) :
    (O.Has W reprC (.con D.name args) ↔ D.Allows W args ∧ D.First W args reprC) ∧
    (∀ u, O.Layout W (.con D.name args) u ↔ (D.Allows W args ∧ D.First W args reprC) ∧
      if rename then u = .con (D.name ++ "_Layout") args
      else ∃ f, D.fields.head? = some f ∧ u = .layout (f.2.subst (D.arg args))) := by
  simp only [deriveTransparent] at h
  split at h
  · cases h
  · rename_i n t fs hf
    have ht : t.Over (D.generics.params.map (·.name)) := L.fields (n, t) (by rw [hf]; exact List.mem_cons_self)
    have hF : ∀ b, D.First W args b ↔ W (t.subst (D.arg args)) b := by
      intro b; simp [Def.First, hf]
    have hx : ∀ q ∈ [(⟨t, reprC⟩ : Pred)], q.subject.Over (D.generics.params.map (·.name)) ∧
        Ty.Overs (D.generics.params.map (·.name)) q.bound.args := by
      intro q hq; rw [List.mem_singleton.1 hq]; exact ⟨ht, trivial⟩
    have key := fun (a : Option Ty) P hP => implFor_at (W := W) L
      (g := { D.generics with wheres := D.generics.wheres ++ [⟨t, reprC⟩] }) rfl rfl hx reprC D.name a args P hP
    have hq : (∀ q ∈ [(⟨t, reprC⟩ : Pred)], q.Holds W (D.arg args)) ↔ W (t.subst (D.arg args)) reprC := by
      simp only [List.mem_singleton, forall_eq]; exact Iff.rfl
    have h2 : ∀ u, O.Layout W (.con D.name args) u ↔ (D.Allows W args ∧ D.First W args reprC) ∧
        if rename then u = .con (D.name ++ "_Layout") args
        else ∃ f, D.fields.head? = some f ∧ u = .layout (f.2.subst (D.arg args)) := by
      intro u
      rw [hF, ← hq]
      cases rename with
      | true =>
        simp only [if_true, Option.some.injEq] at h ⊢
        subst h
        have k := key (some (.con (D.name ++ "_Layout") ({ D.generics with wheres := D.generics.wheres ++ [⟨t, reprC⟩] } : Generics).fwd))
          (fun σ => u = (Ty.con (D.name ++ "_Layout") ({ D.generics with wheres := D.generics.wheres ++ [⟨t, reprC⟩] } : Generics).fwd).subst σ)
          (fun σ τ hστ => by rw [fwd_congr L (by rfl) _ hστ])
        refine Iff.trans ⟨?_, ?_⟩ (k.trans ⟨?_, ?_⟩)
        · rintro ⟨i, hm, hi, σ, hσ, a, ha, rfl⟩
          simp only [ctypeImpls, List.mem_append, List.mem_cons, List.not_mem_nil, or_false] at hm
          rcases hm with ((rfl | rfl | rfl | rfl) | hm) | rfl | rfl
          iterate 4 exact absurd hσ (not_at (layout_ne D))
          · cases js with
            | false => cases hm
            | true => rw [List.mem_singleton.1 hm] at hi; simp [implFor, reprNapi, reprC] at hi
          · cases ha; exact ⟨σ, hσ, rfl⟩
          · simp [implFor, hasNiche, reprC] at hi
        · rintro ⟨σ, hσ, e⟩
          exact ⟨_, by simp, rfl, σ, hσ, _, rfl, e⟩
        · rintro ⟨A, e⟩; exact ⟨A, by rw [e, fwd_subst L (by rfl) _ A.1.count]⟩
        · rintro ⟨A, e⟩; exact ⟨A, by rw [e, fwd_subst L (by rfl) _ A.1.count]⟩
      | false =>
        simp only [Bool.false_eq_true, if_false, Option.some.injEq] at h ⊢
        subst h
        have k := key (some (.layout t)) (fun σ => u = (Ty.layout t).subst σ)
          (fun σ τ hστ => by rw [Ty.subst, Ty.subst, Ty.subst_congr hστ t ht])
        refine Iff.trans ⟨?_, ?_⟩ (k.trans ⟨?_, ?_⟩)
        · rintro ⟨i, hm, hi, σ, hσ, a, ha, rfl⟩
          simp only [List.mem_cons, List.not_mem_nil, or_false] at hm
          rcases hm with rfl | rfl
          · cases ha; exact ⟨σ, hσ, rfl⟩
          · simp [implFor, hasNiche, reprC] at hi
        · rintro ⟨σ, hσ, e⟩
          exact ⟨_, by simp, rfl, σ, hσ, _, rfl, e⟩
        · rintro ⟨A, e⟩; exact ⟨A, (n, t), by rw [hf]; rfl, e⟩
        · rintro ⟨A, f, e1, e⟩
          rw [hf] at e1; cases e1
          exact ⟨A, e⟩
    refine ⟨⟨?_, fun hc => ?_⟩, h2⟩
    · rintro ⟨i, hm, hi, σ, hσ⟩
      have : ∃ a, i.assoc = some a := by
        cases rename with
        | true =>
          simp only [if_true, Option.some.injEq] at h
          subst h
          simp only [ctypeImpls, List.mem_append, List.mem_cons, List.not_mem_nil, or_false] at hm
          rcases hm with ((rfl | rfl | rfl | rfl) | hm) | rfl | rfl
          iterate 4 exact absurd hσ (not_at (layout_ne D))
          · cases js with
            | false => cases hm
            | true => rw [List.mem_singleton.1 hm] at hi; simp [implFor, reprNapi, reprC] at hi
          · exact ⟨_, rfl⟩
          · simp [implFor, hasNiche, reprC] at hi
        | false =>
          simp only [Bool.false_eq_true, if_false, Option.some.injEq] at h
          subst h
          simp only [List.mem_cons, List.not_mem_nil, or_false] at hm
          rcases hm with rfl | rfl
          · exact ⟨_, rfl⟩
          · simp [implFor, hasNiche, reprC] at hi
      obtain ⟨a, ha⟩ := this
      exact ((h2 _).1 ⟨i, hm, hi, σ, hσ, a, ha, rfl⟩).1
    · have : ∃ u, O.Layout W (.con D.name args) u := by
        cases rename with
        | true => exact ⟨.con (D.name ++ "_Layout") args, (h2 _).2 ⟨hc, by simp only [if_true]⟩⟩
        | false => exact ⟨.layout (t.subst (D.arg args)), (h2 _).2 ⟨hc, by simp [hf]⟩⟩
      obtain ⟨u, i, hm, hi, σ, hσ, -⟩ := this
      exact ⟨i, hm, hi, σ, hσ⟩

/-- C96: `Option` of such an instance has a C layout exactly if, moreover, the first field has a niche. -/
theorem C96_transparent_niche {D : Def} (L : D.Legal) {rename js : Bool} {O : Output}
    (h : deriveTransparent rename js D = some O) (W : World) (args : List Ty) :
    O.Has W hasNiche (.con D.name args) ↔ D.Allows W args ∧ D.First W args reprC ∧ D.First W args hasNiche := by
  simp only [deriveTransparent] at h
  split at h
  · cases h
  · rename_i n t fs hf
    have ht : t.Over (D.generics.params.map (·.name)) := L.fields (n, t) (by rw [hf]; exact List.mem_cons_self)
    have hF : ∀ b, D.First W args b ↔ W (t.subst (D.arg args)) b := by
      intro b; simp [Def.First, hf]
    have key := implFor_has (W := W) L (extra := [⟨t, reprC⟩, ⟨t, hasNiche⟩])
      (g := { D.generics with wheres := D.generics.wheres ++ [⟨t, reprC⟩] ++ [⟨t, hasNiche⟩] }) rfl (by simp)
      (by intro q hq; simp only [List.mem_cons, List.not_mem_nil, or_false] at hq
          rcases hq with rfl | rfl <;> exact ⟨ht, trivial⟩) hasNiche D.name none args
    have hq : (∀ q ∈ [(⟨t, reprC⟩ : Pred), ⟨t, hasNiche⟩], q.Holds W (D.arg args)) ↔
        W (t.subst (D.arg args)) reprC ∧ W (t.subst (D.arg args)) hasNiche := by
      simp only [List.mem_cons, List.not_mem_nil, or_false, forall_eq_or_imp, forall_eq]; exact Iff.rfl
    rw [hF, hF, ← hq, ← key]
    cases rename with
    | true =>
      simp only [if_true, Option.some.injEq] at h
      subst h
      constructor
      · rintro ⟨i, hm, hi, σ, hσ⟩
        simp only [ctypeImpls, List.mem_append, List.mem_cons, List.not_mem_nil, or_false] at hm
        rcases hm with ((rfl | rfl | rfl | rfl) | hm) | rfl | rfl
        iterate 4 exact absurd hσ (not_at (layout_ne D))
        · cases js with
          | false => cases hm
          | true => rw [List.mem_singleton.1 hm] at hi; simp [implFor, reprNapi, hasNiche] at hi
        · simp [implFor, hasNiche, reprC] at hi
        · exact ⟨σ, hσ⟩
      · rintro ⟨σ, hσ⟩
        exact ⟨_, by simp, rfl, σ, hσ⟩
    | false =>
      simp only [Bool.false_eq_true, if_false, Option.some.injEq] at h
      subst h
      constructor
      · rintro ⟨i, hm, hi, σ, hσ⟩
        simp only [List.mem_cons, List.not_mem_nil, or_false] at hm
        rcases hm with rfl | rfl
        · simp [implFor, hasNiche, reprC] at hi
        · exact ⟨σ, hσ⟩
      · rintro ⟨σ, hσ⟩
        exact ⟨_, by simp, rfl, σ, hσ⟩

/-- C96: every layout that the code generated for it speaks of is there, for every instance. -/
theorem C96_transparent_projections {D : Def} (L : D.Legal) {rename js : Bool} {O : Output}
    (h : deriveTransparent rename js D = some O) {W : World} (hW : Lawful W) {args : List Ty}
    (hc : O.Has W reprC (.con D.name args)) : ∀ t ∈ O.projections, W (t.subst (D.arg args)) reprC := by
  obtain ⟨-, f, hf, hr⟩ := (C96_transparent L h W args).1.1 hc
  simp only [deriveTransparent] at h
  split at h
  · cases h
  · rename_i n t fs e
    rw [e] at hf; cases hf
    intro u hu
    cases rename <;> simp only [if_true, Bool.false_eq_true, if_false, Option.some.injEq] at h <;> subst h <;>
      simp only [List.mem_cons, List.not_mem_nil, or_false] at hu
    · rw [hu]; exact hr
    · rcases hu with rfl | rfl
      · exact hr
      · exact hW.phantom _

/-- C96: with `rename`, the generated struct is a C type, `Clone`, `Copy` and its own layout at the same arguments, and
converts from and to JavaScript if that was asked for. -/
theorem C96_transparent_ctype {D : Def} (L : D.Legal) {js : Bool} {O : Output} (h : deriveTransparent true js D = some O)
    (W : World) (args : List Ty) :
    (∀ tr ∈ [(⟨"CType", []⟩ : Bound), ⟨"Clone", []⟩, ⟨"Copy", []⟩, reprC],
      (O.Has W tr (.con (D.name ++ "_Layout") args) ↔ D.Allows W args ∧ D.First W args reprC)) ∧
    (O.Has W reprNapi (.con (D.name ++ "_Layout") args) ↔ js = true ∧ D.Allows W args ∧ D.First W args reprC) := by
  simp only [deriveTransparent] at h
  split at h
  · cases h
  · rename_i n t fs hf
    have ht : t.Over (D.generics.params.map (·.name)) := L.fields (n, t) (by rw [hf]; exact List.mem_cons_self)
    have hF : ∀ b, D.First W args b ↔ W (t.subst (D.arg args)) b := by
      intro b; simp [Def.First, hf]
    have hq : (∀ q ∈ [(⟨t, reprC⟩ : Pred)], q.Holds W (D.arg args)) ↔ W (t.subst (D.arg args)) reprC := by
      simp only [List.mem_singleton, forall_eq]; exact Iff.rfl
    have key := fun (tr : Bound) (c : String) (a : Option Ty) => implFor_has (W := W) L (extra := [⟨t, reprC⟩])
      (g := { D.generics with wheres := D.generics.wheres ++ [⟨t, reprC⟩] }) rfl rfl
      (by intro q hq; rw [List.mem_singleton.1 hq]; exact ⟨ht, trivial⟩) tr c a args
    rw [hF, ← hq]
    simp only [if_true, Option.some.injEq] at h
    subst h
    refine ⟨fun tr htr => ⟨?_, fun hc => ?_⟩, ⟨?_, ?_⟩⟩
    · rintro ⟨i, hm, -, σ, hσ⟩
      simp only [ctypeImpls, List.mem_append, List.mem_cons, List.not_mem_nil, or_false] at hm
      rcases hm with ((rfl | rfl | rfl | rfl) | hm) | rfl | rfl
      iterate 4 exact (key _ _ _).1 ⟨σ, hσ⟩
      · cases js with
        | false => cases hm
        | true => rw [List.mem_singleton.1 hm] at hσ; exact (key _ _ _).1 ⟨σ, hσ⟩
      iterate 2 exact absurd hσ (not_at (layout_ne D).symm)
    · simp only [List.mem_cons, List.not_mem_nil, or_false] at htr
      rcases htr with rfl | rfl | rfl | rfl
      all_goals
        obtain ⟨σ, hσ⟩ := (key _ _ _).2 hc
        exact ⟨_, by
          simp only [ctypeImpls, List.mem_append, List.mem_cons]
          first
            | exact .inl (.inl (.inl rfl))
            | exact .inl (.inl (.inr (.inl rfl)))
            | exact .inl (.inl (.inr (.inr (.inl rfl))))
            | exact .inl (.inl (.inr (.inr (.inr (.inl rfl))))), rfl, σ, hσ⟩
    · rintro ⟨i, hm, hi, σ, hσ⟩
      simp only [ctypeImpls, List.mem_append, List.mem_cons, List.not_mem_nil, or_false] at hm
      rcases hm with ((rfl | rfl | rfl | rfl) | hm) | rfl | rfl
      iterate 4 simp [implFor, reprNapi, reprC] at hi
      · cases js with
        | false => cases hm
        | true => rw [List.mem_singleton.1 hm] at hσ; exact ⟨rfl, (key _ _ _).1 ⟨σ, hσ⟩⟩
      iterate 2 exact absurd hσ (not_at (layout_ne D).symm)
    · rintro ⟨rfl, hc⟩
      obtain ⟨σ, hσ⟩ := (key reprNapi (D.name ++ "_Layout") none).2 hc
      exact ⟨_, by simp, rfl, σ, hσ⟩

/-! ## `#[repr(opaque)]` -/

/-- C96: an instance of a generic `#[repr(opaque)]` struct has a C layout if and only if Rust allows the instance, whatever
its fields are; the layout is the generated struct at the same arguments. -/
theorem C96_opaque {D : Def} (L : D.Legal) (W : World) (args : List Ty) :
    ((deriveOpaque D).Has W reprC (.con D.name args) ↔ D.Allows W args) ∧
    (∀ u, (deriveOpaque D).Layout W (.con D.name args) u ↔ D.Allows W args ∧ u = .con ("__opaque_" ++ D.name) args) ∧
    ∀ tr ∈ [(⟨"CType", []⟩ : Bound), ⟨"Clone", []⟩, ⟨"Copy", []⟩, reprC],
      ((deriveOpaque D).Has W tr (.con ("__opaque_" ++ D.name) args) ↔ D.Allows W args) := by
  have hne : "__opaque_" ++ D.name ≠ D.name := ne_append _ _ (by decide)
  have hw : D.generics.wheres = D.generics.wheres ++ [] := by simp
  have key := fun tr c a => implFor_has (W := W) L (g := D.generics) rfl hw (by simp) tr c a args
  have k2 := fun (u : Ty) => implFor_at (W := W) L (g := D.generics) rfl hw (by simp) reprC D.name
    (some (.con ("__opaque_" ++ D.name) D.generics.fwd)) args
    (fun σ => u = (Ty.con ("__opaque_" ++ D.name) D.generics.fwd).subst σ) (fun σ τ hστ => by rw [fwd_congr L (by rfl) _ hστ])
  simp only [List.not_mem_nil, false_imp_iff, implies_true, and_true] at key k2
  refine ⟨⟨?_, fun h => ?_⟩, fun u => ⟨?_, ?_⟩, fun tr ht => ⟨?_, fun h => ?_⟩⟩
  · rintro ⟨i, hm, -, σ, hσ⟩
    simp only [deriveOpaque, ctypeImpls, List.mem_cons, List.not_mem_nil, or_false] at hm
    rcases hm with rfl | rfl | rfl | rfl | rfl
    · exact (key _ _ _).1 ⟨σ, hσ⟩
    iterate 4 exact absurd hσ (not_at hne)
  · obtain ⟨σ, hσ⟩ := (key reprC D.name (some (.con ("__opaque_" ++ D.name) D.generics.fwd))).2 h
    exact ⟨_, List.mem_cons_self, rfl, σ, hσ⟩
  · rintro ⟨i, hm, -, σ, hσ, a, ha, rfl⟩
    simp only [deriveOpaque, ctypeImpls, List.mem_cons, List.not_mem_nil, or_false] at hm
    rcases hm with rfl | rfl | rfl | rfl | rfl
    · cases ha
      obtain ⟨A, e⟩ := (k2 _).1 ⟨σ, hσ, rfl⟩
      exact ⟨A, by rw [e, fwd_subst L rfl _ A.count]⟩
    iterate 4 exact absurd hσ (not_at hne)
  · rintro ⟨A, rfl⟩
    obtain ⟨σ, hσ, e⟩ := (k2 (.con ("__opaque_" ++ D.name) args)).2 ⟨A, (fwd_subst L rfl _ A.count).symm⟩
    exact ⟨_, List.mem_cons_self, rfl, σ, hσ, _, rfl, e⟩
  · rintro ⟨i, hm, -, σ, hσ⟩
    simp only [deriveOpaque, ctypeImpls, List.mem_cons, List.not_mem_nil, or_false] at hm
    rcases hm with rfl | rfl | rfl | rfl | rfl
    · exact absurd hσ (not_at hne.symm)
    iterate 4 exact (key _ _ _).1 ⟨σ, hσ⟩
  · simp only [List.mem_cons, List.not_mem_nil, or_false] at ht
    rcases ht with rfl | rfl | rfl | rfl
    all_goals
      obtain ⟨σ, hσ⟩ := (key _ _ _).2 h
      exact ⟨_, by
        simp only [deriveOpaque, ctypeImpls, List.mem_cons]
        first
          | exact .inr (.inl rfl)
          | exact .inr (.inr (.inl rfl))
          | exact .inr (.inr (.inr (.inl rfl)))
          | exact .inr (.inr (.inr (.inr (.inl rfl)))), rfl, σ, hσ⟩

/-! ## The impls -/

/-- C96: the impls that are generated are ones that Rust takes, whatever the definition is: also if parameters have
defaults, or if constants are declared between types. -/
theorem C96_impls {D : Def} (L : D.Legal) {O : Output} (h : (∃ js, deriveC js D = some O) ∨
    (∃ rename js, deriveTransparent rename js D = some O) ∨ O = deriveOpaque D) : ∀ i ∈ O.impls, i.Legal := by
  rcases h with ⟨js, h⟩ | ⟨rename, js, h⟩ | rfl
  · obtain ⟨l, hl, -, hi, -⟩ := deriveC_eq h
    have hw : (ctypeGenerics D.generics (D.fields.map (·.2))).wheres = D.generics.wheres ++ added D := rfl
    intro i hm
    rw [hi] at hm
    simp only [List.mem_append, List.mem_singleton] at hm
    rcases hm with (hm | hm) | rfl
    · rcases hl with ⟨rfl, -⟩ | ⟨j, rfl, -, hj⟩
      · cases hm
      · rw [List.mem_singleton] at hm; subst hm; exact jsImpl_legal L hj
    · exact ctypeImpls_legal L (by rfl) hw (added_over L) _ i hm
    · exact implFor_legal L (by rfl) hw (added_over L) _ _ _ fun t ht => by cases ht; exact fwd_over L (by rfl) _
  · simp only [deriveTransparent] at h
    split at h
    · cases h
    · rename_i n t fs hf
      have ht : t.Over (D.generics.params.map (·.name)) := L.fields (n, t) (by rw [hf]; exact List.mem_cons_self)
      have h1 : ∀ q ∈ [(⟨t, reprC⟩ : Pred)], q.subject.Over (D.generics.params.map (·.name)) ∧
          Ty.Overs (D.generics.params.map (·.name)) q.bound.args := by
        intro q hq; rw [List.mem_singleton] at hq; subst hq; exact ⟨ht, trivial⟩
      have h2 : ∀ q ∈ [(⟨t, reprC⟩ : Pred), ⟨t, hasNiche⟩], q.subject.Over (D.generics.params.map (·.name)) ∧
          Ty.Overs (D.generics.params.map (·.name)) q.bound.args := by
        intro q hq
        simp only [List.mem_cons, List.not_mem_nil, or_false] at hq
        rcases hq with rfl | rfl <;> exact ⟨ht, trivial⟩
      simp only [Option.some.injEq] at h
      intro i hm
      cases rename with
      | true =>
        simp only [if_true] at h
        subst h
        simp only [List.mem_append, List.mem_cons, List.not_mem_nil, or_false] at hm
        rcases hm with (hm | hm) | rfl | rfl
        · exact ctypeImpls_legal L (by rfl) (by rfl) h1 _ i hm
        · cases js with
          | true =>
            simp only [if_true, List.mem_singleton] at hm
            subst hm
            exact implFor_legal L (by rfl) (by rfl) h1 _ _ _ nofun
          | false => simp at hm
        · exact implFor_legal L (by rfl) (by rfl) h1 _ _ _ fun t ht => by cases ht; exact fwd_over L (by rfl) _
        · exact implFor_legal L (by rfl) (by simp) h2 _ _ _ nofun
      | false =>
        simp only [Bool.false_eq_true, if_false] at h
        subst h
        simp only [List.mem_cons, List.not_mem_nil, or_false] at hm
        rcases hm with rfl | rfl
        · exact implFor_legal L (by rfl) (by rfl) h1 _ _ _ fun u hu => by cases hu; simpa only [Ty.Over] using ht
        · exact implFor_legal L (by rfl) (by simp) h2 _ _ _ nofun
  · have hw : D.generics.wheres = D.generics.wheres ++ [] := by simp
    intro i hm
    simp only [deriveOpaque, List.mem_cons] at hm
    rcases hm with rfl | hm
    · exact implFor_legal L (by rfl) hw nofun _ _ _ fun t ht => by cases ht; exact fwd_over L (by rfl) _
    · exact ctypeImpls_legal L (by rfl) hw nofun _ i hm

/-- `struct Slot<T = u8>(T)`: the parameter of the impl has no default. -/
example : ∃ O, deriveTransparent false false ⟨"Slot", ⟨[{ name := "T", kind := .type, bounds := [], default := some (.con "u8" []) }], []⟩,
    [("0", .param "T")]⟩ = some O ∧ O.impls.length = 2 := ⟨_, rfl, rfl⟩

/-! ## No two impls for the same type -/

/-- No two of the impls are of the same trait for the same type. -/
def Coherent (O : Output) : Prop :=
  O.impls.Pairwise fun i j => i.trait = j.trait → ∀ (W : World) (t : Ty) (σ τ : String → Ty), i.At W t σ → ¬ j.At W t τ

theorem sep_traits {i j : Impl} (h : i.trait ≠ j.trait) :
    i.trait = j.trait → ∀ (W : World) (t : Ty) (σ τ : String → Ty), i.At W t σ → ¬ j.At W t τ := fun e => absurd e h

theorem sep_types {g g' : Generics} {tr tr' : Bound} {c d : String} {a a' : Option Ty} (h : c ≠ d) :
    (implFor g tr c a).trait = (implFor g' tr' d a').trait →
      ∀ (W : World) (t : Ty) (σ τ : String → Ty), (implFor g tr c a).At W t σ → ¬ (implFor g' tr' d a').At W t τ := by
  intro _ W t σ τ h1 h2
  have e := h1.1.trans h2.1.symm
  simp only [implFor, Ty.subst, Ty.con.injEq] at e
  exact h e.1

/-- C96: the generated impls do not overlap. -/
theorem C96_coherent (D : Def) (js rename : Bool) (O : Output)
    (h : deriveC js D = some O ∨ deriveTransparent rename js D = some O ∨ deriveOpaque D = O) : Coherent O := by
  have h1 := layout_ne D
  have h2 : "__opaque_" ++ D.name ≠ D.name := ne_append _ _ (by decide)
  rcases h with h | h | h
  · obtain ⟨l, hl, -, hi, -⟩ := deriveC_eq h
    rw [Coherent, hi]
    rcases hl with ⟨rfl, -⟩ | ⟨j, rfl, -, hj⟩
    · simp only [ctypeImpls, List.nil_append, List.cons_append, List.pairwise_cons, List.mem_cons, List.not_mem_nil, or_false,
        forall_eq_or_imp, forall_eq, List.Pairwise.nil, and_true, false_imp_iff, implies_true]
      refine ⟨⟨?_, ?_, ?_, ?_⟩, ⟨?_, ?_, ?_⟩, ⟨?_, ?_⟩, ?_⟩ <;>
        first | exact sep_types h1 | exact sep_traits (by simp [implFor, reprC])
    · have ht := jsImpl_trait hj
      simp only [ctypeImpls, List.nil_append, List.cons_append, List.pairwise_cons, List.mem_cons, List.not_mem_nil, or_false,
        forall_eq_or_imp, forall_eq, List.Pairwise.nil, and_true, false_imp_iff, implies_true]
      refine ⟨⟨?_, ?_, ?_, ?_, ?_⟩, ⟨?_, ?_, ?_, ?_⟩, ⟨?_, ?_, ?_⟩, ⟨?_, ?_⟩, ?_⟩ <;>
        first | exact sep_types h1 | exact sep_traits (by rw [ht]; simp [implFor, reprC, reprNapi]) | exact sep_traits (by simp [implFor, reprC])
  · simp only [deriveTransparent] at h
    split at h
    · cases h
    · cases rename <;> cases js <;> simp only [if_true, Bool.false_eq_true, if_false, Option.some.injEq] at h <;> subst h <;>
        simp only [Coherent, ctypeImpls, List.append_nil, List.nil_append, List.cons_append, List.pairwise_cons, List.mem_cons,
          List.not_mem_nil, or_false, forall_eq_or_imp, forall_eq, List.Pairwise.nil, and_true, false_imp_iff, implies_true] <;>
        (repeat' constructor) <;>
        first | exact sep_types h1 | exact sep_traits (by simp [implFor, reprC, reprNapi, hasNiche])
  · subst h
    simp only [Coherent, deriveOpaque, ctypeImpls, List.pairwise_cons, List.mem_cons,
      List.not_mem_nil, or_false, forall_eq_or_imp, forall_eq, List.Pairwise.nil, and_true, false_imp_iff, implies_true]
    refine ⟨⟨?_, ?_, ?_, ?_⟩, ⟨?_, ?_, ?_⟩, ⟨?_, ?_⟩, ?_⟩ <;>
      first | exact sep_types h2.symm | exact sep_traits (by simp [implFor, reprC])

/-! ## The generated structs -/

theorem own_layout {O : Output} {c : String}
    (h : ∀ i ∈ O.impls, i.trait = reprC → i.assoc = some i.self ∨ ∃ d as, i.self = .con d as ∧ d ≠ c)
    (W : World) (args : List Ty) (u : Ty) :
    O.Layout W (.con c args) u ↔ O.Has W reprC (.con c args) ∧ u = .con c args := by
  constructor
  · rintro ⟨i, hm, ht, σ, hσ, a, ha, rfl⟩
    refine ⟨⟨i, hm, ht, σ, hσ⟩, ?_⟩
    rcases h i hm ht with e | ⟨d, as, e, hd⟩
    · rw [e] at ha; cases ha; exact hσ.1
    · have := hσ.1
      rw [e, Ty.subst] at this
      injection this with h1; exact absurd h1 hd
  · rintro ⟨⟨i, hm, ht, σ, hσ⟩, rfl⟩
    refine ⟨i, hm, ht, σ, hσ, ?_⟩
    rcases h i hm ht with e | ⟨d, as, e, hd⟩
    · exact ⟨_, e, hσ.1.symm⟩
    · have := hσ.1
      rw [e, Ty.subst] at this
      injection this with h1; exact absurd h1 hd

theorem ctypeImpls_own {g : Generics} {c : String} : ∀ i ∈ ctypeImpls g c, i.trait = reprC → i.assoc = some i.self := by
  intro i hi ht
  simp only [ctypeImpls, List.mem_cons, List.not_mem_nil, or_false] at hi
  rcases hi with rfl | rfl | rfl | rfl
  iterate 3 simp [implFor, reprC] at ht
  rfl

/-- C96: each struct that is generated is its own layout, at every instance that has one; whichever the annotation. -/
theorem C96_own_layout {D : Def} {rename js : Bool} {O : Output}
    (h : deriveC js D = some O ∨ deriveTransparent rename js D = some O ∨ deriveOpaque D = O) (W : World) (args : List Ty)
    (u : Ty) : ∀ s ∈ O.structs,
    (O.Layout W (.con s.name args) u ↔ O.Has W reprC (.con s.name args) ∧ u = .con s.name args) := by
  intro s hs
  apply own_layout
  intro i hi ht
  rcases h with h | h | h
  · obtain ⟨l, hl, hst, him, -⟩ := deriveC_eq h
    rw [hst, List.mem_singleton] at hs
    subst hs
    rw [him] at hi
    simp only [List.mem_append, List.mem_singleton] at hi
    rcases hi with (hi | hi) | rfl
    · rcases hl with ⟨rfl, -⟩ | ⟨j, rfl, -, hj⟩
      · cases hi
      · rw [List.mem_singleton.1 hi, jsImpl_trait hj] at ht
        simp [reprNapi, reprC] at ht
    · exact .inl (ctypeImpls_own i hi ht)
    · exact .inr ⟨_, _, rfl, (layout_ne D).symm⟩
  · simp only [deriveTransparent] at h
    split at h
    · cases h
    · cases rename with
      | false =>
        simp only [Bool.false_eq_true, if_false, Option.some.injEq] at h
        subst h; cases hs
      | true =>
        simp only [if_true, Option.some.injEq] at h
        subst h
        rw [List.mem_singleton] at hs
        subst hs
        simp only [List.mem_append, List.mem_cons, List.not_mem_nil, or_false] at hi
        rcases hi with (hi | hi) | rfl | rfl
        · exact .inl (ctypeImpls_own i hi ht)
        · cases js with
          | false => cases hi
          | true => rw [List.mem_singleton.1 hi] at ht; simp [implFor, reprNapi, reprC] at ht
        · exact .inr ⟨_, _, rfl, (layout_ne D).symm⟩
        · simp [implFor, hasNiche, reprC] at ht
  · subst h
    rw [deriveOpaque, List.mem_singleton] at hs
    subst hs
    rw [deriveOpaque, List.mem_cons] at hi
    rcases hi with rfl | hi
    · exact .inr ⟨_, _, rfl, (ne_append _ _ (by decide)).symm⟩
    · exact .inl (ctypeImpls_own i hi ht)

/-! ## Names -/

/-- C96: the instances of a `#[repr(C)]` struct are named after the struct and the layouts of the type arguments. -/
theorem C96_name (b : Nat → List Char) (lay : Ty → Headers.CTy) (i : Nat) (g : Generics) (σ : String → Ty) :
    shortName b lay (b i) g σ = Headers.short b (.adt i (g.typeParams.map fun p => lay (.layout (σ p.name)))) := by
  rw [shortName, Headers.short_adt]
  congr 1
  generalize g.typeParams = ps
  induction ps with
  | nil => rfl
  | cons p ps ih => rw [List.flatMap_cons, ih, List.map_cons, Headers.shorts_cons]; rfl

/-- C96: if there is one type parameter and no constant parameter, then two instances have the same name only if their
type arguments have layouts of the same name. (See C43 for names of types in general.) -/
theorem C96_own_name_partial (b : Nat → List Char) (lay : Ty → Headers.CTy) (base : List Char) (g : Generics) (p : Param)
    (h : g.typeParams = [p]) (σ τ : String → Ty) :
    shortName b lay base g σ = shortName b lay base g τ ↔
      Headers.short b (lay (.layout (σ p.name))) = Headers.short b (lay (.layout (τ p.name))) := by
  simp [shortName, h]

/-- C96 fails: instances that differ in a constant argument have the same name, whatever their fields are. -/
theorem C96_fails_const_name (b : Nat → List Char) (lay : Ty → Headers.CTy) (base : List Char) (D : Def) (args args' : List Ty)
    (h : ∀ p ∈ D.generics.params, p.kind = .type → D.arg args p.name = D.arg args' p.name) :
    shortName b lay base D.generics (D.arg args) = shortName b lay base D.generics (D.arg args') := by
  simp only [shortName, List.flatMap_def]
  congr 2
  refine List.map_congr_left fun p hp => ?_
  simp only [Generics.typeParams, List.mem_filter, decide_eq_true_eq] at hp
  rw [h p hp.1 hp.2]

namespace Sample

/-- `struct Buf<const N: usize> { data: [u8; N] }` -/
def buf : Def := ⟨"Buf", ⟨[⟨"N", .const, [], none⟩], []⟩, [("data", .con "[;]" [.con "u8" [], .param "N"])]⟩

/-- Its instances, in a program: the `n`-th declared type is `Buf<n>`. -/
def bufs : Headers.Prog where
  base _ := t!"Buf"
  decl n _ := .struct [] n [⟨[], t!"data", .array n (.int .u8), n, 1⟩]
  size _ := 8

/-- `#[repr(transparent)] struct Id<T>(T);` with `rename = "id"` -/
def id : Def := ⟨"Id", ⟨[⟨"T", .type, [], none⟩], []⟩, [("0", .param "T")]⟩

/-- `fn f(a: Buf<3>, b: Buf<4>)` -/
def twoBufs : List Headers.Export := [.fn ⟨[], t!"f", [⟨t!"a", .adt 3 []⟩, ⟨t!"b", .adt 4 []⟩], .void⟩]

/-- `fn f(a: Id<u8>, b: Id<u32>)` -/
def twoIds : List Headers.Export :=
  [.fn ⟨[], t!"f", [⟨t!"a", .alias t!"id" [] (.int .u8)⟩, ⟨t!"b", .alias t!"id" [] (.int .u32)⟩], .void⟩]

/-- The header for these exports, without an error. -/
def header (es : List Headers.Export) : Option (List Char) :=
  match Headers.generated bufs 7 (Headers.Sample.cfg .c true) es Headers.okSink with
  | (s, none) => some s.out
  | _ => none

end Sample

/-- C96 fails: in the header for `fn f(a: Buf<3>, b: Buf<4>)` both have the type `Buf_t`, with three bytes. -/
theorem C96_fails_const_header : ∃ s r, Sample.header Sample.twoBufs =
    some (s ++ t!"typedef struct {\n    uint8_t idx[3];\n} uint8_3_array_t;\n\n/** <No documentation available> */\ntypedef struct Buf {\n    /** <No documentation available> */\n    uint8_3_array_t data;\n} Buf_t;\n\n/** <No documentation available> */\nvoid\nf (\n    Buf_t a,\n    Buf_t b);\n" ++ r) := by
  refine ⟨((Sample.header Sample.twoBufs).getD []).take 460, ((Sample.header Sample.twoBufs).getD []).drop 722, ?_⟩
  decide +kernel

/-- C96 fails: so does every `#[repr(transparent)]` struct with a `rename`; in the header for `fn f(a: Id<u8>, b: Id<u32>)`
both have the type `id_t`, which is `uint8_t`. -/
theorem C96_fails_alias_name (rename : List Char) (D : Def) (args args' : List Ty) :
    aliasName rename D.generics (D.arg args) = rename ∧ aliasName rename D.generics (D.arg args') = rename ∧
    ∃ s r, Sample.header Sample.twoIds =
      some (s ++ t!"typedef uint8_t id_t;\n\n/** <No documentation available> */\nvoid\nf (\n    id_t a,\n    id_t b);\n" ++ r) := by
  refine ⟨rfl, rfl, ((Sample.header Sample.twoIds).getD []).take 496, ((Sample.header Sample.twoIds).getD []).drop 589, ?_⟩
  decide +kernel

/-- C96 fails: for a generic `#[repr(transparent)]` struct with `rename` and `js`, the impl for JavaScript uses the
conversions of its field, but is not restricted to the instances for which they exist: Rust refuses it. -/
theorem C96_fails_transparent_js : ∃ (O : Output) (W : World) (args : List Ty), Sample.id.Legal ∧ Lawful W ∧
    deriveTransparent true true Sample.id = some O ∧ O.Has W reprNapi (.con "Id_Layout" args) ∧
    ∃ t ∈ O.napi, ¬ W (t.subst (Sample.id.arg args)) reprNapi := by
  have L : Sample.id.Legal := by
    refine ⟨by decide, ⟨[], _, rfl, nofun, by decide⟩, ?_, nofun, ?_⟩
    · intro p hp b hb
      simp only [Sample.id, List.mem_singleton] at hp
      subst hp; cases hb
    · intro f hf
      simp only [Sample.id, List.mem_singleton] at hf
      subst hf
      simp [Ty.Over, Sample.id]
  refine ⟨_, fun _ b => b.name ≠ "ReprNapi", [.con "u8" []], L, ⟨fun _ _ => by simp [reprC], fun _ => by simp [reprC]⟩, rfl, ?_, ?_⟩
  · refine ((C96_transparent_ctype L (D := Sample.id) (js := true) rfl _ _).2).2 ⟨rfl, ⟨rfl, ?_, nofun⟩, _, rfl, by simp [reprC]⟩
    intro p hp b hb
    simp only [Sample.id, List.mem_singleton] at hp
    subst hp; cases hb
  · exact ⟨.layout (.param "T"), by simp, by simp [reprNapi]⟩

/-! ## Examples -/

namespace Sample

/-- `struct Pair<'a, T: Copy, U = u8> where U: 'a { first: T, second: &'a U }` -/
def pair : Def := ⟨"Pair",
  ⟨[⟨"'a", .lifetime, [], none⟩, ⟨"T", .type, [⟨"Copy", []⟩], none⟩, ⟨"U", .type, [], some (.con "u8" [])⟩],
    [⟨.param "U", ⟨"outlives", [.param "'a"]⟩⟩]⟩,
  [("first", .param "T"), ("second", .con "&" [.param "'a", .param "U"])]⟩

theorem pair_legal : pair.Legal where
  nodup := by decide
  order := ⟨[⟨"'a", .lifetime, [], none⟩], _, rfl, by simp, by simp⟩
  bounds := by
    intro p hp b hb
    simp only [pair, List.mem_cons, List.not_mem_nil, or_false] at hp
    rcases hp with rfl | rfl | rfl
    · cases hb
    · rw [List.mem_singleton.1 hb]; trivial
    · cases hb
  wheres := by
    intro q hq
    simp only [pair, List.mem_cons, List.not_mem_nil, or_false] at hq
    subst hq
    simp [Ty.Over, Ty.Overs, pair]
  fields := by
    intro f hf
    simp only [pair, List.mem_cons, List.not_mem_nil, or_false] at hf
    rcases hf with rfl | rfl <;> simp [Ty.Over, Ty.Overs, pair]

/-- A world in which `String` has no concrete layout (and nothing else fails). -/
def world : World := fun t b => ¬ (t matches .con "String" [] ∧ b.name = "ConcreteReprC")

/-- `Pair<'static, u8, String>`. -/
def good : List Ty := [.con "'static" [], .con "u8" [], .con "String" []]
/-- `Pair<'static, String, u8>`. -/
def bad : List Ty := [.con "'static" [], .con "String" [], .con "u8" []]

theorem pair_allows (args : List Ty) (h : args.length = 3) : pair.Allows world args where
  count := h
  bounds := by
    intro p hp b hb
    simp only [pair, List.mem_cons, List.not_mem_nil, or_false] at hp
    rcases hp with rfl | rfl | rfl
    · cases hb
    · rw [List.mem_singleton.1 hb]; simp [world, Bound.subst]
    · cases hb
  wheres := by
    intro q hq
    simp only [pair, List.mem_cons, List.not_mem_nil, or_false] at hq
    subst hq
    simp [world, Pred.Holds, Bound.subst]

end Sample

/-- The definition meets the hypotheses, with and without JavaScript; one instance has a layout, another has none. -/
example : Sample.pair.Legal ∧ (∃ O, deriveC true Sample.pair = some O) ∧ (∃ O, deriveC false Sample.pair = some O) ∧
    Sample.pair.Concrete Sample.world Sample.good ∧ ¬ Sample.pair.Concrete Sample.world Sample.bad := by
  refine ⟨Sample.pair_legal, ⟨_, rfl⟩, ⟨_, rfl⟩, ⟨Sample.pair_allows _ rfl, ?_, ?_⟩, ?_⟩
  · intro p _ _; simp [Sample.world, reprC]
  · intro f hf
    simp only [Sample.pair, List.mem_cons, List.not_mem_nil, or_false] at hf
    rcases hf with rfl | rfl <;> simp [Sample.world, Sample.good, Def.arg, Sample.pair, Ty.subst, List.lookup]
  · rintro ⟨-, -, h⟩
    have := h ("first", .param "T") (by simp [Sample.pair])
    simp [Sample.world, Sample.bad, Def.arg, Sample.pair, Ty.subst, List.lookup] at this

/-- A struct with a constant parameter. -/
example : ∃ p ∈ Sample.buf.generics.params, p.kind = .const := ⟨_, List.mem_singleton_self _, rfl⟩

/-- `Buf<3>` and `Buf<4>`. -/
example : (∀ p ∈ Sample.buf.generics.params, p.kind = .type →
      Sample.buf.arg [.con "3" []] p.name = Sample.buf.arg [.con "4" []] p.name) ∧
    Sample.buf.arg [.con "3" []] "N" ≠ Sample.buf.arg [.con "4" []] "N" := by
  refine ⟨?_, by simp [Def.arg, Sample.buf]⟩
  intro p hp hk
  simp only [Sample.buf, List.mem_singleton] at hp
  subst hp; cases hk

/-- A world in which the layouts of transparent structs and niches exist. -/
example : Lawful (fun _ _ => True) ∧ Sample.id.Allows (fun _ _ => True) [.con "u8" []] ∧
    Sample.id.First (fun _ _ => True) [.con "u8" []] hasNiche :=
  ⟨⟨fun _ _ => trivial, fun _ => trivial⟩, ⟨rfl, fun _ _ _ _ => trivial, fun _ _ => trivial⟩, _, rfl, trivial⟩

/-- The generated struct of `Pair` at two types. -/
example : ∃ O, deriveC true Sample.pair = some O ∧ ∃ s ∈ O.structs, s.name = "Pair_Layout" := ⟨_, rfl, _, List.mem_singleton_self _, rfl⟩

end Verif.Generics
