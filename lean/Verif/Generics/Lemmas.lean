import Verif.Generics.Spec
/-! Lemmas for C96. -/
namespace Verif.Generics

mutual
theorem Ty.subst_congr {xs : List String} {σ τ : String → Ty} (h : ∀ x ∈ xs, σ x = τ x) :
    ∀ t : Ty, t.Over xs → t.subst σ = t.subst τ
  | .param x, hx => by simp only [Ty.Over] at hx; simp only [Ty.subst, h x hx]
  | .con c args, ha => by
      simp only [Ty.Over] at ha
      simp only [Ty.subst, Ty.substs_congr h args ha]
  | .layout t, ht => by
      simp only [Ty.Over] at ht
      simp only [Ty.subst, Ty.subst_congr h t ht]
theorem Ty.substs_congr {xs : List String} {σ τ : String → Ty} (h : ∀ x ∈ xs, σ x = τ x) :
    ∀ ts : List Ty, Ty.Overs xs ts → Ty.substs σ ts = Ty.substs τ ts
  | [], _ => rfl
  | t :: ts, ht => by
      simp only [Ty.Overs] at ht
      simp only [Ty.substs, Ty.subst_congr h t ht.1, Ty.substs_congr h ts ht.2]
end

theorem substs_params (σ : String → Ty) (xs : List String) :
    Ty.substs σ (xs.map .param) = xs.map σ := by
  induction xs with
  | nil => rfl
  | cons x xs ih => simp only [List.map_cons, Ty.substs, Ty.subst, ih]

theorem map_lookup : ∀ (xs : List String) (as : List Ty) (d : Ty), xs.Nodup → as.length = xs.length →
    xs.map (fun x => ((xs.zip as).lookup x).getD d) = as
  | [], [], _, _, _ => rfl
  | x :: xs, a :: as, d, hn, hl => by
    rw [List.nodup_cons] at hn
    have := map_lookup xs as d hn.2 (by simpa using hl)
    simp only [List.map_cons, List.zip_cons_cons, List.lookup_cons, beq_self_eq_true, Option.getD_some]
    congr 1
    refine Eq.trans (List.map_congr_left fun y hy => ?_) this
    have : (y == x) = false := by
      simp only [beq_eq_false_iff_ne, ne_eq]; rintro rfl; exact hn.1 hy
    rw [this]

theorem map_inj_mem {α β : Type} {f g : α → β} : ∀ {xs : List α}, xs.map f = xs.map g → ∀ x ∈ xs, f x = g x
  | [], _, _, h => by cases h
  | y :: ys, e, x, h => by
    simp only [List.map_cons, List.cons.injEq] at e
    rcases List.mem_cons.1 h with rfl | h
    · exact e.1
    · exact map_inj_mem e.2 x h

theorem filter_split {ls ts : List Param} (h1 : ∀ p ∈ ls, p.kind = .lifetime) (h2 : ∀ p ∈ ts, p.kind ≠ .lifetime) :
    (ls ++ ts).filter (fun p => decide (p.kind = .lifetime)) = ls ∧
    (ls ++ ts).filter (fun p => decide (p.kind ≠ .lifetime)) = ts := by
  simp only [List.filter_append]
  constructor
  · rw [List.filter_eq_self.2 fun p hp => decide_eq_true (h1 p hp),
      List.filter_eq_nil_iff.2 fun p hp => by simpa using h2 p hp, List.append_nil]
  · rw [List.filter_eq_nil_iff.2 fun p hp => by simpa using h1 p hp,
      List.filter_eq_self.2 fun p hp => by simpa using h2 p hp, List.nil_append]

theorem Def.Legal.sorted {D : Def} (L : D.Legal) :
    D.generics.params.filter (·.kind = .lifetime) ++ D.generics.params.filter (·.kind ≠ .lifetime) = D.generics.params := by
  obtain ⟨ls, ts, e, h1, h2⟩ := L.order
  have := filter_split h1 h2
  rw [e, this.1, this.2]

theorem Def.Legal.arg_map {D : Def} (L : D.Legal) {args : List Ty} (h : args.length = D.generics.params.length) :
    D.generics.params.map (fun p => D.arg args p.name) = args := by
  have := map_lookup (D.generics.params.map (·.name)) args (.con "?" []) L.nodup (by simpa using h)
  rw [List.map_map] at this
  exact this

theorem fwd_eq {D : Def} (L : D.Legal) {g : Generics} (hg : g.params = D.generics.params) :
    g.fwd = (D.generics.params.map (·.name)).map .param := by
  rw [Generics.fwd, hg, L.sorted, List.map_map]; rfl

theorem fwd_subst {D : Def} (L : D.Legal) {g : Generics} (hg : g.params = D.generics.params) (c : String) {args : List Ty}
    (h : args.length = D.generics.params.length) : (Ty.con c g.fwd).subst (D.arg args) = .con c args := by
  rw [fwd_eq L hg, Ty.subst, substs_params, List.map_map]
  exact congrArg _ (L.arg_map h)

/-- The type matched tells the arguments. -/
theorem fwd_match {D : Def} (L : D.Legal) {g : Generics} (hg : g.params = D.generics.params) {c : String} {args : List Ty}
    {σ : String → Ty} (h : (Ty.con c g.fwd).subst σ = .con c args) :
    args.length = D.generics.params.length ∧ ∀ x ∈ D.generics.params.map (·.name), σ x = D.arg args x := by
  rw [fwd_eq L hg, Ty.subst, substs_params] at h
  injection h with _ h
  have hl : args.length = D.generics.params.length := by rw [← h]; simp
  refine ⟨hl, map_inj_mem (h.trans ?_)⟩
  rw [List.map_map]
  exact (L.arg_map hl).symm

theorem mem_intro {D : Def} (L : D.Legal) {g : Generics} (hg : g.params = D.generics.params) {P : Param → Prop}
    (hP : ∀ p : Param, P { p with default := none } ↔ P p) : (∀ p ∈ g.intro, P p) ↔ ∀ p ∈ D.generics.params, P p := by
  rw [Generics.intro, hg, L.sorted]
  simp only [List.mem_map]
  exact ⟨fun h p hp => (hP p).1 (h _ ⟨p, hp, rfl⟩), fun h p hp => by obtain ⟨q, hq, rfl⟩ := hp; exact (hP q).2 (h q hq)⟩

theorem holds_congr {D : Def} {W : World} {σ τ : String → Ty}
    (h : ∀ x ∈ D.generics.params.map (·.name), σ x = τ x) {q : Pred}
    (h1 : q.subject.Over (D.generics.params.map (·.name))) (h2 : Ty.Overs (D.generics.params.map (·.name)) q.bound.args) :
    q.Holds W σ ↔ q.Holds W τ := by
  simp only [Pred.Holds, Bound.subst, Ty.subst_congr h _ h1, Ty.substs_congr h _ h2]

theorem param_congr {D : Def} (L : D.Legal) {W : World} {σ τ : String → Ty}
    (h : ∀ x ∈ D.generics.params.map (·.name), σ x = τ x) {p : Param} (hp : p ∈ D.generics.params) :
    p.Holds W σ ↔ p.Holds W τ := by
  simp only [Param.Holds]
  refine forall_congr' fun b => forall_congr' fun hb => ?_
  rw [Bound.subst, Bound.subst, Ty.substs_congr h _ (L.bounds p hp b hb), h _ (List.mem_map_of_mem hp)]

/-- When an impl made by `split_for_impl` applies. `extra`: the predicates added to those of the definition. -/
theorem implFor_at {D : Def} (L : D.Legal) {W : World} {g : Generics} (hg : g.params = D.generics.params) {extra : List Pred}
    (hw : g.wheres = D.generics.wheres ++ extra)
    (hx : ∀ q ∈ extra, q.subject.Over (D.generics.params.map (·.name)) ∧
      Ty.Overs (D.generics.params.map (·.name)) q.bound.args)
    (tr : Bound) (c : String) (a : Option Ty) (args : List Ty) (P : (String → Ty) → Prop)
    (hP : ∀ σ τ : String → Ty, (∀ x ∈ D.generics.params.map (·.name), σ x = τ x) → (P σ ↔ P τ)) :
    (∃ σ, (implFor g tr c a).At W (.con c args) σ ∧ P σ) ↔
      (D.Allows W args ∧ ∀ q ∈ extra, q.Holds W (D.arg args)) ∧ P (D.arg args) := by
  have hall : ∀ q ∈ g.wheres, q.subject.Over (D.generics.params.map (·.name)) ∧
      Ty.Overs (D.generics.params.map (·.name)) q.bound.args := by
    intro q hq
    rw [hw, List.mem_append] at hq
    exact hq.elim (L.wheres q) (hx q)
  constructor
  · rintro ⟨σ, ⟨h1, h2, h3⟩, h4⟩
    obtain ⟨hl, hσ⟩ := fwd_match L hg h1
    have h2 := (mem_intro L hg fun p => Iff.rfl).1 h2
    have h3 : ∀ q ∈ g.wheres, q.Holds W (D.arg args) := fun q hq =>
      (holds_congr hσ (hall q hq).1 (hall q hq).2).1 (h3 q hq)
    rw [hw] at h3
    exact ⟨⟨⟨hl, fun p hp => (param_congr L hσ hp).1 (h2 p hp), fun q hq => h3 q (List.mem_append_left _ hq)⟩,
      fun q hq => h3 q (List.mem_append_right _ hq)⟩, (hP _ _ hσ).1 h4⟩
  · rintro ⟨⟨A, B⟩, h4⟩
    refine ⟨D.arg args, ⟨fwd_subst L hg c A.count, (mem_intro L hg fun p => Iff.rfl).2 A.bounds, ?_⟩, h4⟩
    show ∀ q ∈ g.wheres, _
    rw [hw]
    intro q hq
    rcases List.mem_append.1 hq with hq | hq
    · exact A.wheres q hq
    · exact B q hq

theorem implFor_has {D : Def} (L : D.Legal) {W : World} {g : Generics} (hg : g.params = D.generics.params) {extra : List Pred}
    (hw : g.wheres = D.generics.wheres ++ extra)
    (hx : ∀ q ∈ extra, q.subject.Over (D.generics.params.map (·.name)) ∧
      Ty.Overs (D.generics.params.map (·.name)) q.bound.args)
    (tr : Bound) (c : String) (a : Option Ty) (args : List Ty) :
    (∃ σ, (implFor g tr c a).At W (.con c args) σ) ↔ D.Allows W args ∧ ∀ q ∈ extra, q.Holds W (D.arg args) := by
  have := implFor_at (W := W) L hg hw hx tr c a args (fun _ => True) fun _ _ _ => Iff.rfl
  simpa using this

theorem append_ne (s t : String) (h : t ≠ "") : s ++ t ≠ s := by
  intro e
  have := congrArg String.length e
  rw [String.length_append] at this
  exact h (String.length_eq_zero_iff.1 (by omega))

theorem ne_append (s t : String) (h : t ≠ "") : t ++ s ≠ s := by
  intro e
  have := congrArg String.length e
  rw [String.length_append] at this
  exact h (String.length_eq_zero_iff.1 (by omega))

/-- An impl for another type does not apply. -/
theorem not_at {W : World} {g : Generics} {tr : Bound} {c d : String} {a : Option Ty} {args : List Ty} {σ : String → Ty}
    (h : c ≠ d) : ¬ (implFor g tr c a).At W (.con d args) σ := by
  rintro ⟨e, -⟩
  simp only [implFor, Ty.subst, Ty.con.injEq] at e
  exact h e.1

end Verif.Generics

namespace Verif.Generics

/-- What `ctype_generics` adds. -/
def added (D : Def) : List Pred :=
  D.generics.typeParams.map (⟨.param ·.name, reprC⟩) ++ (D.fields.map (·.2)).map (⟨·, concreteReprC⟩)

theorem added_over {D : Def} (L : D.Legal) : ∀ q ∈ added D, q.subject.Over (D.generics.params.map (·.name)) ∧
    Ty.Overs (D.generics.params.map (·.name)) q.bound.args := by
  intro q hq
  simp only [added, List.mem_append, List.mem_map, Generics.typeParams, List.mem_filter] at hq
  rcases hq with ⟨p, ⟨hp, -⟩, rfl⟩ | ⟨t, ⟨f, hf, rfl⟩, rfl⟩
  · exact ⟨by simp only [Ty.Over]; exact List.mem_map_of_mem hp, trivial⟩
  · exact ⟨L.fields f hf, trivial⟩

theorem added_holds {D : Def} {W : World} {args : List Ty} : (D.Allows W args ∧ ∀ q ∈ added D, q.Holds W (D.arg args)) ↔
    D.Concrete W args := by
  simp only [Def.Concrete]
  refine and_congr_right fun _ => ?_
  simp only [added, List.mem_append, List.mem_map, Generics.typeParams, List.mem_filter, decide_eq_true_eq]
  constructor
  · intro h
    exact ⟨fun p hp hk => h ⟨.param p.name, reprC⟩ (.inl ⟨p, ⟨hp, hk⟩, rfl⟩), fun f hf => h ⟨f.2, concreteReprC⟩ (.inr ⟨f.2, ⟨f, hf, rfl⟩, rfl⟩)⟩
  · rintro ⟨h1, h2⟩ q (⟨p, ⟨hp, hk⟩, rfl⟩ | ⟨t, ⟨f, hf, rfl⟩, rfl⟩)
    · exact h1 p hp hk
    · exact h2 f hf

theorem ctype_at {D : Def} (L : D.Legal) {W : World} (tr : Bound) (c : String) (a : Option Ty) (args : List Ty) :
    (∃ σ, (implFor (ctypeGenerics D.generics (D.fields.map (·.2))) tr c a).At W (.con c args) σ) ↔ D.Concrete W args :=
  (implFor_has (W := W) (extra := added D) L (g := ctypeGenerics D.generics (D.fields.map (·.2))) rfl rfl (added_over L) tr c a args).trans added_holds

theorem fwd_congr {D : Def} (L : D.Legal) {g : Generics} (hg : g.params = D.generics.params) (c : String) {σ τ : String → Ty}
    (h : ∀ x ∈ D.generics.params.map (·.name), σ x = τ x) : (Ty.con c g.fwd).subst σ = (Ty.con c g.fwd).subst τ := by
  rw [fwd_eq L hg, Ty.subst, Ty.subst, substs_params, substs_params, List.map_congr_left h]

/-- When the impl for JavaScript applies. -/
theorem jsImpl_at {D : Def} (L : D.Legal) (W : World) {c : String} {i : Impl} {args : List Ty}
    (h : jsImpl (ctypeGenerics D.generics (D.fields.map (·.2))) c (D.fields.map fun f => .layout f.2) = some i) :
    (∃ σ, i.At W (.con c args) σ) ↔ D.Concrete W args ∧ W (.con c args) static ∧
      (∀ f ∈ D.fields, W (.layout (f.2.subst (D.arg args))) reprC ∧
        W (.layout (.layout (f.2.subst (D.arg args)))) reprNapi) ∧
      ∀ p ∈ D.generics.params, p.kind = .type → W (.layout (D.arg args p.name)) reprNapi := by
  simp only [jsImpl, Option.map_eq_some_iff, Prod.exists] at h
  obtain ⟨ps, bs, hs, rfl⟩ := h
  simp only [mySplit] at hs
  split at hs
  · cases hs
  rename_i hk
  have hk : ∀ p ∈ D.generics.params, p.kind ≠ .const := by
    simpa [ctypeGenerics] using hk
  simp only [Option.some.injEq, Prod.mk.injEq] at hs
  obtain ⟨h1, h2⟩ := hs
  have ef : D.generics.params.filter (fun p => decide (p.kind = .type)) =
      D.generics.params.filter (fun p => decide (p.kind ≠ .lifetime)) := by
    refine List.filter_congr fun p hp => ?_
    have := hk p hp
    revert this
    cases p.kind <;> simp
  have e1 : ps = D.generics.params.map ({ · with bounds := [] }) := by
    rw [← h1]
    simp only [ctypeGenerics]
    rw [ef, L.sorted]
  have en : (ps.map fun p => Ty.param p.name) = (D.generics.params.map (·.name)).map .param := by
    rw [e1, List.map_map, List.map_map]; rfl
  have hmatch : ∀ σ, (Ty.con c (ps.map fun p => Ty.param p.name)).subst σ = .con c args ↔
      args.length = D.generics.params.length ∧ ∀ x ∈ D.generics.params.map (·.name), σ x = D.arg args x := by
    intro σ
    rw [en, ← fwd_eq L (g := D.generics) rfl]
    refine ⟨fwd_match L rfl, fun ⟨hl, hσ⟩ => ?_⟩
    rw [fwd_congr L rfl c hσ, fwd_subst L rfl c hl]
  have hpar : ∀ σ, ∀ p ∈ ps.map ({ · with default := none } : Param → Param), p.Holds W σ := by
    intro σ p hp b hb
    rw [e1] at hp
    simp only [List.map_map, List.mem_map, Function.comp] at hp
    obtain ⟨q, -, rfl⟩ := hp
    cases hb
  have hb : bs = D.generics.wheres ++ added D ++
      D.generics.params.flatMap (fun p => p.bounds.map fun b => ⟨.param p.name, b⟩) := by
    rw [← h2]; rfl
  have hn : ∀ q ∈ ps.filter (fun p => decide (p.kind ≠ .lifetime)), ∃ p ∈ D.generics.params, p.kind = .type ∧ q.name = p.name := by
    intro q hq
    rw [e1] at hq
    simp only [List.mem_filter, List.mem_map] at hq
    obtain ⟨⟨p, hp, rfl⟩, hq⟩ := hq
    refine ⟨p, hp, ?_, rfl⟩
    have := hk p hp
    revert this hq
    cases p.kind <;> simp
  have hn' : ∀ p ∈ D.generics.params, p.kind = .type → ∃ q ∈ ps.filter (fun p => decide (p.kind ≠ .lifetime)), q.name = p.name := by
    intro p hp hk
    refine ⟨{ p with bounds := [] }, ?_, rfl⟩
    rw [e1]
    simp only [List.mem_filter, List.mem_map]
    exact ⟨⟨p, hp, rfl⟩, by simp [hk]⟩
  -- what each group of predicates says
  have hA : ∀ q, q ∈ D.fields.flatMap (fun f => [(⟨.layout f.2, reprC⟩ : Pred), ⟨.layout (.layout f.2), reprNapi⟩]) →
      q.subject.Over (D.generics.params.map (·.name)) ∧ Ty.Overs (D.generics.params.map (·.name)) q.bound.args := by
    intro q hq
    simp only [List.mem_flatMap, List.mem_cons, List.not_mem_nil, or_false] at hq
    obtain ⟨f, hf, rfl | rfl⟩ := hq
    · exact ⟨by simp only [Ty.Over]; exact L.fields f hf, trivial⟩
    · exact ⟨by simp only [Ty.Over]; exact L.fields f hf, trivial⟩
  have hall : ∀ σ : String → Ty, (∀ x ∈ D.generics.params.map (·.name), σ x = D.arg args x) →
      args.length = D.generics.params.length →
      ((∀ q ∈ [(⟨.con c (ps.map fun p => Ty.param p.name), static⟩ : Pred)] ++
        (D.fields.map fun f => Ty.layout f.2).flatMap (fun t => [⟨t, reprC⟩, ⟨.layout t, reprNapi⟩]) ++
        (ps.filter (fun p => decide (p.kind ≠ .lifetime))).flatMap (fun p => [⟨.param p.name, reprC⟩, ⟨.layout (.param p.name), reprNapi⟩]) ++
        bs, q.Holds W σ) ↔ D.Concrete W args ∧ W (.con c args) static ∧
      (∀ f ∈ D.fields, W (.layout (f.2.subst (D.arg args))) reprC ∧
        W (.layout (.layout (f.2.subst (D.arg args)))) reprNapi) ∧
      ∀ p ∈ D.generics.params, p.kind = .type → W (.layout (D.arg args p.name)) reprNapi) := by
    intro σ hσ hl
    have e0 := (hmatch σ).2 ⟨hl, hσ⟩
    have hs : (⟨.con c (ps.map fun p => Ty.param p.name), static⟩ : Pred).Holds W σ ↔ W (.con c args) static := by
      simp only [Pred.Holds, e0]; exact Iff.rfl
    have hf : ∀ f ∈ D.fields, f.2.subst σ = f.2.subst (D.arg args) := fun f hf => Ty.subst_congr hσ _ (L.fields f hf)
    have hp : ∀ p ∈ D.generics.params, σ p.name = D.arg args p.name := fun p hp => hσ _ (List.mem_map_of_mem hp)
    constructor
    · intro H
      have H1 := fun q hq => H q (List.mem_append_left _ (List.mem_append_left _ (List.mem_append_left _ hq)))
      have H2 := fun q hq => H q (List.mem_append_left _ (List.mem_append_left _ (List.mem_append_right _ hq)))
      have H3 := fun q hq => H q (List.mem_append_left _ (List.mem_append_right _ hq))
      have H4 := fun q hq => H q (List.mem_append_right _ hq)
      rw [hb] at H4
      refine ⟨added_holds.1 ⟨⟨hl, fun p hp b hb => ?_, fun q hq => ?_⟩, fun q hq => ?_⟩, hs.1 (H1 _ (List.mem_singleton_self _)),
        fun f hf' => ⟨?_, ?_⟩, fun p hp' hk' => ?_⟩
      · have := H4 ⟨.param p.name, b⟩ (List.mem_append_right _ (List.mem_flatMap.2 ⟨p, hp, List.mem_map.2 ⟨b, hb, rfl⟩⟩))
        simp only [Pred.Holds, Ty.subst] at this
        rw [hσ _ (List.mem_map_of_mem hp)] at this
        rwa [Bound.subst, ← Ty.substs_congr hσ _ (L.bounds p hp b hb)]
      · exact (holds_congr hσ (L.wheres q hq).1 (L.wheres q hq).2).1
          (H4 q (List.mem_append_left _ (List.mem_append_left _ hq)))
      · exact (holds_congr hσ (added_over L q hq).1 (added_over L q hq).2).1
          (H4 q (List.mem_append_left _ (List.mem_append_right _ hq)))
      · have := H2 ⟨.layout f.2, reprC⟩ (List.mem_flatMap.2 ⟨_, List.mem_map.2 ⟨f, hf', rfl⟩, by simp⟩)
        simp only [Pred.Holds, Ty.subst, hf f hf'] at this
        exact this
      · have := H2 ⟨.layout (.layout f.2), reprNapi⟩ (List.mem_flatMap.2 ⟨_, List.mem_map.2 ⟨f, hf', rfl⟩, by simp⟩)
        simp only [Pred.Holds, Ty.subst, hf f hf'] at this
        exact this
      · obtain ⟨q, hq, eq⟩ := hn' p hp' hk'
        have := H3 ⟨.layout (.param q.name), reprNapi⟩ (List.mem_flatMap.2 ⟨q, hq, by simp⟩)
        simp only [Pred.Holds, Ty.subst, eq, hp p hp'] at this
        exact this
    · rintro ⟨hc, hst, hfs, hps⟩ q hq
      obtain ⟨A, B⟩ := added_holds.2 hc
      rw [hb] at hq
      simp only [List.mem_append, List.mem_singleton, List.mem_flatMap, List.mem_map, List.mem_cons, List.not_mem_nil, or_false] at hq
      rcases hq with ((rfl | ⟨t, ⟨f, hf', rfl⟩, rfl | rfl⟩) | ⟨r, hr, rfl | rfl⟩) | (hq | hq) | ⟨p, hp', b, hb', rfl⟩
      · exact hs.2 hst
      · simp only [Pred.Holds, Ty.subst, hf f hf']; exact (hfs f hf').1
      · simp only [Pred.Holds, Ty.subst, hf f hf']; exact (hfs f hf').2
      · obtain ⟨p, hp', hk', e⟩ := hn r hr
        simp only [Pred.Holds, Ty.subst, e, hp p hp']
        exact hc.2.1 p hp' hk'
      · obtain ⟨p, hp', hk', e⟩ := hn r hr
        simp only [Pred.Holds, Ty.subst, e, hp p hp']
        exact hps p hp' hk'
      · exact (holds_congr hσ (L.wheres q hq).1 (L.wheres q hq).2).2 (A.wheres q hq)
      · exact (holds_congr hσ (added_over L q hq).1 (added_over L q hq).2).2 (B q hq)
      · have := A.bounds p hp' b hb'
        simp only [Pred.Holds, Ty.subst, hp p hp']
        rwa [Bound.subst, Ty.substs_congr hσ _ (L.bounds p hp' b hb')]
  constructor
  · rintro ⟨σ, g1, -, g3⟩
    obtain ⟨hl, hσ⟩ := (hmatch σ).1 g1
    exact (hall σ hσ hl).1 g3
  · intro hc
    have hl := hc.1.1.count
    exact ⟨D.arg args, (hmatch _).2 ⟨hl, fun _ _ => rfl⟩, hpar _, (hall _ (fun _ _ => rfl) hl).2 hc⟩

theorem overs_params {xs ys : List String} (h : ∀ y ∈ ys, y ∈ xs) : Ty.Overs xs (ys.map .param) := by
  induction ys with
  | nil => trivial
  | cons y ys ih =>
    exact ⟨by simp only [Ty.Over]; exact h y (by simp), ih fun z hz => h z (by simp [hz])⟩

theorem intro_eq {D : Def} (L : D.Legal) {g : Generics} (hg : g.params = D.generics.params) :
    g.intro = D.generics.params.map ({ · with default := none }) := by
  rw [Generics.intro, hg, L.sorted]

theorem names_eq (f : Param → Param) (hf : ∀ p, (f p).name = p.name) (ps : List Param) :
    (ps.map f).map (·.name) = ps.map (·.name) := by
  rw [List.map_map]; exact List.map_congr_left fun p _ => hf p

theorem fwd_over {D : Def} (L : D.Legal) {g : Generics} (hg : g.params = D.generics.params) (c : String) :
    (Ty.con c g.fwd).Over (D.generics.params.map (·.name)) := by
  rw [fwd_eq L hg]; simp only [Ty.Over]; exact overs_params fun _ h => h

theorem implFor_legal {D : Def} (L : D.Legal) {g : Generics} (hg : g.params = D.generics.params) {extra : List Pred}
    (hw : g.wheres = D.generics.wheres ++ extra) (he : ∀ q ∈ extra, q.subject.Over (D.generics.params.map (·.name)) ∧
      Ty.Overs (D.generics.params.map (·.name)) q.bound.args) (tr : Bound) (c : String) (a : Option Ty)
    (ha : ∀ t, a = some t → t.Over (D.generics.params.map (·.name))) : (implFor g tr c a).Legal := by
  have en : (implFor g tr c a).intro.map (·.name) = D.generics.params.map (·.name) := by
    rw [implFor, intro_eq L hg]; exact names_eq (f := fun p => { p with default := none }) (fun _ => rfl) _
  obtain ⟨ls, ts, e, h1, h2⟩ := L.order
  refine ⟨by rw [en]; exact L.nodup, ⟨ls.map ({ · with default := none }), ts.map ({ · with default := none }), ?_, ?_, ?_⟩, ?_, ⟨c, ?_⟩,
    ?_, ?_, by rw [en]; exact ha⟩
  · rw [implFor, intro_eq L hg, e, List.map_append]
  · intro p hp; obtain ⟨q, hq, rfl⟩ := List.mem_map.1 hp; exact h1 q hq
  · intro p hp; obtain ⟨q, hq, rfl⟩ := List.mem_map.1 hp; exact h2 q hq
  · intro p hp
    rw [implFor, intro_eq L hg] at hp
    obtain ⟨q, -, rfl⟩ := List.mem_map.1 hp; rfl
  · have := congrArg (List.map Ty.param) en
    rw [List.map_map] at this
    show Ty.con c g.fwd = _
    rw [fwd_eq L hg, ← this]; rfl
  · rw [en, implFor, intro_eq L hg]
    intro p hp b hb
    obtain ⟨q, hq, rfl⟩ := List.mem_map.1 hp
    exact L.bounds q hq b hb
  · rw [en]
    intro q hq
    simp only [implFor, hw, List.mem_append] at hq
    rcases hq with hq | hq
    · exact L.wheres q hq
    · exact he q hq

theorem jsImpl_legal {D : Def} (L : D.Legal) {c : String} {i : Impl}
    (h : jsImpl (ctypeGenerics D.generics (D.fields.map (·.2))) c (D.fields.map fun f => .layout f.2) = some i) : i.Legal := by
  simp only [jsImpl, Option.map_eq_some_iff, Prod.exists] at h
  obtain ⟨ps, bs, hs, rfl⟩ := h
  simp only [mySplit] at hs
  split at hs
  · cases hs
  rename_i hk
  have hk : ∀ p ∈ D.generics.params, p.kind ≠ .const := by
    simpa [ctypeGenerics] using hk
  simp only [Option.some.injEq, Prod.mk.injEq] at hs
  obtain ⟨h1, h2⟩ := hs
  have ef : D.generics.params.filter (fun p => decide (p.kind = .type)) =
      D.generics.params.filter (fun p => decide (p.kind ≠ .lifetime)) := by
    refine List.filter_congr fun p hp => ?_
    have := hk p hp
    revert this
    cases p.kind <;> simp
  have e1 : ps = D.generics.params.map ({ · with bounds := [] }) := by
    rw [← h1]
    simp only [ctypeGenerics]
    rw [ef, L.sorted]
  have en : (ps.map ({ · with default := none })).map (·.name) = D.generics.params.map (·.name) := by
    rw [names_eq (f := fun p => { p with default := none }) (fun _ => rfl), e1]
    exact names_eq (f := fun p => { p with bounds := [] }) (fun _ => rfl) _
  have ep : (ps.map fun p => Ty.param p.name) = (D.generics.params.map (·.name)).map .param := by
    rw [e1, List.map_map, List.map_map]; rfl
  have hin : ∀ p ∈ ps, p.name ∈ D.generics.params.map (·.name) := by
    intro p hp
    rw [e1] at hp
    obtain ⟨q, hq, rfl⟩ := List.mem_map.1 hp
    exact List.mem_map_of_mem (f := (·.name)) hq
  obtain ⟨ls, ts, e, o1, o2⟩ := L.order
  refine ⟨by rw [en]; exact L.nodup, ⟨(ls.map ({ · with bounds := [] })).map ({ · with default := none }),
    (ts.map ({ · with bounds := [] })).map ({ · with default := none }), ?_, ?_, ?_⟩, ?_, ⟨c, ?_⟩, ?_, ?_, nofun⟩
  · show ps.map _ = _
    rw [e1, e, List.map_append, List.map_append]
  · intro p hp
    simp only [List.map_map, List.mem_map] at hp
    obtain ⟨q, hq, rfl⟩ := hp; exact o1 q hq
  · intro p hp
    simp only [List.map_map, List.mem_map] at hp
    obtain ⟨q, hq, rfl⟩ := hp; exact o2 q hq
  · intro p hp
    obtain ⟨q, -, rfl⟩ := List.mem_map.1 hp; rfl
  · show Ty.con c _ = Ty.con c _
    rw [List.map_map]; rfl
  · intro p hp b hb
    rw [e1] at hp
    simp only [List.map_map, List.mem_map] at hp
    obtain ⟨q, -, rfl⟩ := hp
    cases hb
  · rw [en]
    have hb : bs = D.generics.wheres ++ added D ++
        D.generics.params.flatMap (fun p => p.bounds.map fun b => ⟨.param p.name, b⟩) := by
      rw [← h2]; rfl
    intro q hq
    simp only [List.mem_append, List.mem_flatMap, List.mem_map, List.mem_cons, List.not_mem_nil, or_false,
      List.mem_filter] at hq
    rcases hq with ((rfl | ⟨t, ⟨f, hf, rfl⟩, rfl | rfl⟩) | ⟨p, ⟨hp, -⟩, rfl | rfl⟩) | hq
    · exact ⟨by rw [ep]; simp only [Ty.Over]; exact overs_params fun _ h => h, by simp [static, Ty.Overs, Ty.Over]⟩
    · exact ⟨by simp only [Ty.Over]; exact L.fields f hf, trivial⟩
    · exact ⟨by simp only [Ty.Over]; exact L.fields f hf, trivial⟩
    · exact ⟨by simp only [Ty.Over]; exact hin p hp, trivial⟩
    · exact ⟨by simp only [Ty.Over]; exact hin p hp, trivial⟩
    · rw [hb] at hq
      simp only [List.mem_append, List.mem_flatMap, List.mem_map] at hq
      rcases hq with (hq | hq) | ⟨p, hp, b, hb, rfl⟩
      · exact L.wheres q hq
      · exact added_over L q hq
      · exact ⟨by simp only [Ty.Over]; exact List.mem_map_of_mem (f := (·.name)) hp, L.bounds p hp b hb⟩

theorem ctypeImpls_legal {D : Def} (L : D.Legal) {g : Generics} (hg : g.params = D.generics.params) {extra : List Pred}
    (hw : g.wheres = D.generics.wheres ++ extra) (he : ∀ q ∈ extra, q.subject.Over (D.generics.params.map (·.name)) ∧
      Ty.Overs (D.generics.params.map (·.name)) q.bound.args) (c : String) : ∀ i ∈ ctypeImpls g c, i.Legal := by
  intro i hi
  simp only [ctypeImpls, List.mem_cons, List.not_mem_nil, or_false] at hi
  rcases hi with rfl | rfl | rfl | rfl
  iterate 3 exact implFor_legal L hg hw he _ _ _ nofun
  exact implFor_legal L hg hw he _ _ _ fun t ht => by cases ht; exact fwd_over L hg c

end Verif.Generics
