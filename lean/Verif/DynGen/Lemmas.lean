import Verif.Generics.Lemmas
import Verif.DynGen.Spec
/-!
# Lemmas on the generics of generic `dyn` traits
-/
namespace Verif.DynGen
open Generics

mutual
theorem over_mono {xs ys : List String} (h : ∀ x ∈ xs, x ∈ ys) : ∀ t : Ty, t.Over xs → t.Over ys
  | .param x, hx => by simp only [Ty.Over] at hx ⊢; exact h x hx
  | .con c args, ha => by simp only [Ty.Over] at ha ⊢; exact overs_mono h args ha
  | .layout t, ht => by simp only [Ty.Over] at ht ⊢; exact over_mono h t ht
theorem overs_mono {xs ys : List String} (h : ∀ x ∈ xs, x ∈ ys) : ∀ ts : List Ty, Ty.Overs xs ts → Ty.Overs ys ts
  | [], _ => trivial
  | t :: ts, ht => by
    simp only [Ty.Overs] at ht ⊢
    exact ⟨over_mono h t ht.1, overs_mono h ts ht.2⟩
end

mutual
theorem over_subst {xs ys : List String} {σ : String → Ty} (h : ∀ x ∈ xs, (σ x).Over ys) : ∀ t : Ty, t.Over xs → (t.subst σ).Over ys
  | .param x, hx => by simp only [Ty.Over] at hx; simp only [Ty.subst]; exact h x hx
  | .con c args, ha => by simp only [Ty.Over, Ty.subst] at ha ⊢; exact overs_subst h args ha
  | .layout t, ht => by simp only [Ty.Over, Ty.subst] at ht ⊢; exact over_subst h t ht
theorem overs_subst {xs ys : List String} {σ : String → Ty} (h : ∀ x ∈ xs, (σ x).Over ys) :
    ∀ ts : List Ty, Ty.Overs xs ts → Ty.Overs ys (Ty.substs σ ts)
  | [], _ => trivial
  | t :: ts, ht => by
    simp only [Ty.Overs, Ty.substs] at ht ⊢
    exact ⟨over_subst h t ht.1, overs_subst h ts ht.2⟩
end

theorem overs_all {xs : List String} : ∀ {ts : List Ty}, (∀ t ∈ ts, t.Over xs) → Ty.Overs xs ts
  | [], _ => trivial
  | t :: _, h => ⟨h t List.mem_cons_self, overs_all fun u hu => h u (List.mem_cons_of_mem _ hu)⟩

theorem occursIn_params {x : String} : ∀ {xs : List String}, x ∈ xs → OccursIn x (xs.map .param)
  | y :: ys, h => by
    simp only [List.map_cons, OccursIn, Occurs]
    rcases List.mem_cons.1 h with rfl | h
    · exact .inl rfl
    · exact .inr (occursIn_params h)

/-- The parameters of the trait, by kind. -/
theorem sorted {T : Trait} (L : Legal T) :
    T.generics.params.filter (·.kind = .lifetime) ++ T.generics.params.filter (·.kind ≠ .lifetime) = T.generics.params := by
  obtain ⟨ls, ts, e, h1, h2⟩ := L.order
  have := filter_split h1 h2
  rw [e, this.1, this.2]

theorem fwd_eq' {T : Trait} (L : Legal T) : T.generics.fwd = (T.generics.params.map (·.name)).map .param := by
  rw [Generics.fwd, sorted L, List.map_map]; rfl

theorem withLt_sorted {T : Trait} (L : Legal T) :
    T.withLt.params.filter (·.kind = .lifetime) ++ T.withLt.params.filter (·.kind ≠ .lifetime) =
      usability :: T.generics.params := by
  rw [Trait.withLt, List.filter_cons_of_pos (by simp [usability]), List.filter_cons_of_neg (by simp [usability]),
    List.cons_append, sorted L]

theorem withLt_intro {T : Trait} (L : Legal T) :
    T.withLt.intro = (usability :: T.generics.params).map ({ · with default := none }) := by
  rw [Generics.intro, withLt_sorted L]

theorem withLt_fwd {T : Trait} (L : Legal T) :
    T.withLt.fwd = ((usability :: T.generics.params).map (·.name)).map .param := by
  rw [Generics.fwd, withLt_sorted L, List.map_map]; rfl

theorem names_intro (ps : List Param) :
    (ps.map ({ · with default := none })).map (·.name) = ps.map (·.name) :=
  names_eq (f := fun p => { p with default := none }) (fun _ => rfl) ps

/-- The parameters of the functions. -/
theorem all_params {T : Trait} (L : Legal T) (a : Auto) : ∃ ls ts k, T.generics.params = ls ++ ts ∧
    (∀ p ∈ ls, p.kind = .lifetime) ∧ (∀ p ∈ ts, p.kind ≠ .lifetime) ∧ k = (ts.filter (·.kind = .type)).length ∧
    (T.all a).params = (usability :: ls) ++ (ts.take k ++ T.implParam a :: ts.drop k) := by
  obtain ⟨ls, ts, e, h1, h2⟩ := L.order
  refine ⟨ls, ts, _, e, h1, h2, rfl, ?_⟩
  have hf := filter_split h1 h2
  have h3 : ls.filter (fun p => decide (p.kind = .type)) = [] :=
    List.filter_eq_nil_iff.2 fun p hp => by simp [h1 p hp]
  have hn : (T.withLt.params.filter (·.kind = .lifetime)).length + T.withLt.typeParams.length =
      (usability :: ls).length + (ts.filter (·.kind = .type)).length := by
    rw [Generics.typeParams, Trait.withLt, List.filter_cons_of_pos (by simp [usability]),
      List.filter_cons_of_neg (by simp [usability]), e, hf.1, List.filter_append, h3, List.nil_append]
  simp only [Trait.all]
  rw [hn]
  have : T.withLt.params = (usability :: ls) ++ ts := by rw [Trait.withLt, e]; rfl
  rw [this, List.take_length_add_append, List.drop_length_add_append, List.append_assoc]

theorem all_perm {T : Trait} (L : Legal T) (a : Auto) :
    ((T.all a).params).Perm (T.implParam a :: usability :: T.generics.params) := by
  obtain ⟨ls, ts, k, e, -, -, -, h⟩ := all_params L a
  rw [h, e]
  have h1 : (ts.take k ++ T.implParam a :: ts.drop k).Perm (T.implParam a :: ts) := by
    refine List.perm_middle.trans ?_
    rw [List.take_append_drop]
  exact (List.Perm.append_left _ h1).trans List.perm_middle

/-- The parameters that functions declare, in the order of the declaration. -/
theorem all_sorted {T : Trait} (L : Legal T) (a : Auto) :
    (T.all a).params.filter (·.kind = .lifetime) ++ (T.all a).params.filter (·.kind ≠ .lifetime) = (T.all a).params := by
  obtain ⟨ls, ts, k, e, h1, h2, -, h⟩ := all_params L a
  have h1' : ∀ p ∈ usability :: ls, p.kind = .lifetime := by
    intro p hp; rcases List.mem_cons.1 hp with rfl | hp
    · rfl
    · exact h1 p hp
  have h2' : ∀ p ∈ ts.take k ++ T.implParam a :: ts.drop k, p.kind ≠ .lifetime := by
    intro p hp
    simp only [List.mem_append, List.mem_cons] at hp
    rcases hp with hp | rfl | hp
    · exact h2 p (List.mem_of_mem_take hp)
    · simp [Trait.implParam]
    · exact h2 p (List.mem_of_mem_drop hp)
  have := filter_split h1' h2'
  rw [h, this.1, this.2]

theorem fwdParams_eq {T : Trait} (L : Legal T) (a : Auto) : fwdParams (T.all a) = (T.all a).params := all_sorted L a

theorem all_intro {T : Trait} (L : Legal T) (a : Auto) :
    (T.all a).intro = (T.all a).params.map ({ · with default := none }) := by
  rw [Generics.intro, all_sorted L a]

theorem mem_names {T : Trait} (L : Legal T) (a : Auto) {x : String} :
    x ∈ (T.all a).intro.map (·.name) ↔
      x = (T.implParam a).name ∨ x = usability.name ∨ x ∈ T.generics.params.map (·.name) := by
  rw [all_intro L, names_intro, ((all_perm L a).map (·.name)).mem_iff]
  simp only [List.map_cons, List.mem_cons]

theorem fresh_names {T : Trait} (L : Legal T) (a : Auto) :
    ((T.implParam a).name :: usability.name :: T.generics.params.map (·.name)).Nodup := by
  rw [List.nodup_cons, List.nodup_cons]
  refine ⟨?_, L.fresh, L.nodup⟩
  rw [List.mem_cons, not_or]
  refine ⟨?_, L.freshImpl⟩
  simp only [Trait.implParam, usability]
  intro h
  have := congrArg String.toList h
  rw [String.toList_append] at this
  exact absurd (congrArg List.head? this) (by simp)

theorem fwd_overs {T : Trait} (L : Legal T) {xs : List String} (h : ∀ x ∈ T.generics.params.map (·.name), x ∈ xs) :
    Ty.Overs xs T.generics.fwd := by
  rw [fwd_eq' L]; exact overs_params h

theorem declares_all {T : Trait} (L : Legal T) (a : Auto) : Declares (T.all a).intro := by
  have hu : usability.name ∈ (T.all a).intro.map (·.name) := (mem_names L a).2 (.inr (.inl rfl))
  have hT : ∀ x ∈ T.generics.params.map (·.name), x ∈ (T.all a).intro.map (·.name) :=
    fun x hx => (mem_names L a).2 (.inr (.inr hx))
  refine ⟨?_, ?_, ?_, ?_⟩
  · rw [all_intro L, names_intro, ((all_perm L a).map (·.name)).nodup_iff]
    exact fresh_names L a
  · refine ⟨((T.all a).params.filter (·.kind = .lifetime)).map ({ · with default := none }),
      ((T.all a).params.filter (·.kind ≠ .lifetime)).map ({ · with default := none }), by rw [Generics.intro, List.map_append], ?_, ?_⟩
    · intro p hp
      obtain ⟨q, hq, rfl⟩ := List.mem_map.1 hp
      simpa using (List.mem_filter.1 hq).2
    · intro p hp
      obtain ⟨q, hq, rfl⟩ := List.mem_map.1 hp
      simpa using (List.mem_filter.1 hq).2
  · intro p hp
    rw [all_intro L] at hp
    obtain ⟨q, hq, rfl⟩ := List.mem_map.1 hp
    rfl
  · intro p hp b hb
    rw [all_intro L] at hp
    obtain ⟨q, hq, rfl⟩ := List.mem_map.1 hp
    rw [(all_perm L a).mem_iff] at hq
    simp only [List.mem_cons] at hq
    rcases hq with rfl | rfl | hq
    · simp only [Trait.implParam, List.cons_append, List.mem_cons, List.mem_append, List.not_mem_nil, or_false, Auto.bounds] at hb
      rcases hb with rfl | hb | rfl
      · exact ⟨by simp only [Ty.Over]; exact hu, trivial⟩
      · rcases hb with hb | hb
        · split at hb
          · rw [List.mem_singleton.1 hb]; trivial
          · cases hb
        · split at hb
          · rw [List.mem_singleton.1 hb]; trivial
          · cases hb
      · exact fwd_overs L hT
    · cases hb
    · exact overs_mono hT _ (L.bounds q hq b hb)

theorem same_of_name {ps : List Param} (h : (ps.map (·.name)).Nodup) {p q : Param} (hp : p ∈ ps) (hq : q ∈ ps)
    (e : p.name = q.name) : p = q := by
  obtain ⟨i, hi, rfl⟩ := List.mem_iff_getElem.1 hp
  obtain ⟨j, hj, rfl⟩ := List.mem_iff_getElem.1 hq
  have : i = j := (List.getElem_inj (h₀ := by simpa using hi) (h₁ := by simpa using hj) h).1 (by simpa using e)
  subst this; rfl

/-- Constants among the parameters are those of the trait. -/
theorem const_mem {T : Trait} (L : Legal T) (a : Auto) {p : Param} (hp : p ∈ (T.all a).intro) (hk : p.kind = .const) :
    ∃ q ∈ T.generics.params, q.kind = .const ∧ q.name = p.name := by
  rw [all_intro L] at hp
  obtain ⟨q, hq, rfl⟩ := List.mem_map.1 hp
  rw [(all_perm L a).mem_iff] at hq
  simp only [List.mem_cons] at hq
  rcases hq with rfl | rfl | hq
  · cases hk
  · cases hk
  · exact ⟨q, hq, hk, rfl⟩

/-- The name of a parameter that is not a constant is not that of a constant. -/
theorem not_const {T : Trait} (L : Legal T) (a : Auto) {p q : Param} (hp : p ∈ (T.all a).params) (hk : p.kind ≠ .const)
    (hq : q ∈ (T.all a).intro) (hc : q.kind = .const) : (Ty.param p.name) ≠ .param q.name := by
  intro e
  injection e with e
  rw [all_intro L] at hq
  obtain ⟨r, hr, rfl⟩ := List.mem_map.1 hq
  have hn : ((T.all a).params.map (·.name)).Nodup := by
    rw [((all_perm L a).map (·.name)).nodup_iff]; exact fresh_names L a
  have := same_of_name hn hp hr e
  subst this
  exact hk hc

theorem closed_all {T : Trait} (L : Legal T) (a : Auto) : Closed (T.all a).intro (T.all a).wheres := by
  have hT : ∀ x ∈ T.generics.params.map (·.name), x ∈ (T.all a).intro.map (·.name) :=
    fun x hx => (mem_names L a).2 (.inr (.inr hx))
  intro q hq
  simp only [Trait.all, Trait.withLt, List.mem_append, List.mem_map, Generics.typeParams, List.mem_filter] at hq
  rcases hq with hq | ⟨p, ⟨hp, hk⟩, rfl⟩
  · refine ⟨over_mono hT _ (L.wheres q hq).1, overs_mono hT _ (L.wheres q hq).2.1, fun p hp hk => ?_⟩
    obtain ⟨r, hr, h1, h2⟩ := const_mem L a hp hk
    rw [← h2]
    exact (L.wheres q hq).2.2 r hr h1
  · refine ⟨?_, ⟨?_, trivial⟩, fun r hr hc => ?_⟩
    · simp only [Ty.Over]; exact hT _ (List.mem_map_of_mem hp)
    · simp only [Ty.Over]; exact (mem_names L a).2 (.inr (.inl rfl))
    · exact not_const L a ((all_perm L a).mem_iff.2 (by simp [hp])) (by simp only [decide_eq_true_eq] at hk; rw [hk]; decide) hr hc

theorem closed_clone {T : Trait} (L : Legal T) (a : Auto) : Closed (T.all a).intro (T.wheresClone a) := by
  intro q hq
  rw [Trait.wheresClone, List.mem_append] at hq
  rcases hq with hq | hq
  · exact closed_all L a q hq
  · split at hq
    · rw [List.mem_singleton.1 hq]
      exact ⟨by simp only [Ty.Over]; exact (mem_names L a).2 (.inl rfl), trivial,
        fun r hr hc => not_const L a ((all_perm L a).mem_iff.2 List.mem_cons_self) (by simp [Trait.implParam]) hr hc⟩
    · cases hq

theorem declares_withLt {T : Trait} (L : Legal T) : Declares T.withLt.intro := by
  rw [withLt_intro L]
  refine ⟨?_, ?_, ?_, ?_⟩
  · rw [names_intro]; exact List.nodup_cons.2 ⟨L.fresh, L.nodup⟩
  · obtain ⟨ls, ts, e, h1, h2⟩ := L.order
    refine ⟨(usability :: ls).map ({ · with default := none }), ts.map ({ · with default := none }),
      by rw [e, ← List.map_append]; rfl, ?_, ?_⟩
    · intro p hp
      obtain ⟨q, hq, rfl⟩ := List.mem_map.1 hp
      rcases List.mem_cons.1 hq with rfl | hq
      · rfl
      · exact h1 q hq
    · intro p hp
      obtain ⟨q, hq, rfl⟩ := List.mem_map.1 hp
      exact h2 q hq
  · intro p hp
    obtain ⟨q, hq, rfl⟩ := List.mem_map.1 hp
    rfl
  · intro p hp b hb
    rw [names_intro]
    obtain ⟨q, hq, rfl⟩ := List.mem_map.1 hp
    rcases List.mem_cons.1 hq with rfl | hq
    · cases hb
    · exact overs_mono (fun x hx => List.mem_cons_of_mem _ hx) _ (L.bounds q hq b hb)

theorem closed_withLt {T : Trait} (L : Legal T) : Closed T.withLt.intro T.generics.wheres := by
  intro q hq
  rw [withLt_intro L, names_intro]
  exact ⟨over_mono (fun x hx => List.mem_cons_of_mem _ hx) _ (L.wheres q hq).1,
    overs_mono (fun x hx => List.mem_cons_of_mem _ hx) _ (L.wheres q hq).2.1, fun p hp hk => by
      obtain ⟨r, hr, rfl⟩ := List.mem_map.1 hp
      rcases List.mem_cons.1 hr with rfl | hr
      · cases hk
      · exact (L.wheres q hq).2.2 r hr hk⟩

theorem dyn_over {T : Trait} (L : Legal T) (a : Auto) {xs : List String} (h1 : usability.name ∈ xs)
    (h2 : ∀ x ∈ T.generics.params.map (·.name), x ∈ xs) : (T.dyn a).Over xs := by
  simp only [Trait.dyn, Ty.Over, Ty.Overs]
  exact ⟨h1, fwd_overs L h2⟩

theorem dyn_occurs {T : Trait} (L : Legal T) (a : Auto) {x : String} (h : x ∈ T.generics.params.map (·.name)) :
    Occurs x (T.dyn a) := by
  simp only [Trait.dyn, Occurs, OccursIn]
  rw [fwd_eq' L]
  exact .inr (occursIn_params h)

/-! ## Order -/

theorem kinds_split {q : List Param} {ks ms : List Kind} (h : q.map (·.kind) = ks ++ ms) :
    ∃ A C, q = A ++ C ∧ A.map (·.kind) = ks ∧ C.map (·.kind) = ms := by
  obtain ⟨A, C, e, h1, h2⟩ := List.map_eq_append_iff.1 h
  exact ⟨A, C, e, h1, h2⟩

/-- In the order that the functions are used with, types come first. -/
theorem typesFirst_of_kinds {T : Trait} (L : Legal T) (a : Auto)
    (h : (((T.all a).typeParams ++ (T.all a).params.filter (·.kind = .const)).filter (·.kind ≠ .lifetime)).map (·.kind) =
      ((T.all a).intro.filter (·.kind ≠ .lifetime)).map (·.kind)) : TypesFirst T := by
  obtain ⟨ls, ts, k, e, h1, h2, -, hp⟩ := all_params L a
  have h2' : ∀ p ∈ ts.take k ++ T.implParam a :: ts.drop k, p.kind ≠ .lifetime := by
    intro p hp
    simp only [List.mem_append, List.mem_cons] at hp
    rcases hp with hp | rfl | hp
    · exact h2 p (List.mem_of_mem_take hp)
    · simp [Trait.implParam]
    · exact h2 p (List.mem_of_mem_drop hp)
  have h1' : ∀ p ∈ usability :: ls, p.kind = .lifetime := by
    intro p hp; rcases List.mem_cons.1 hp with rfl | hp
    · rfl
    · exact h1 p hp
  have hr : ((T.all a).intro.filter (·.kind ≠ .lifetime)).map (·.kind) =
      (ts.take k ++ T.implParam a :: ts.drop k).map (·.kind) := by
    rw [all_intro L, List.filter_map, List.map_map]
    have : ((fun p : Param => decide (p.kind ≠ .lifetime)) ∘ fun p : Param => { p with default := none }) =
        fun p => decide (p.kind ≠ .lifetime) := rfl
    rw [this, hp, (filter_split h1' h2').2]
    rfl
  rw [hr, List.filter_append, List.map_append] at h
  obtain ⟨A, C, hAC, hA, hC⟩ := kinds_split h.symm
  have hsub : ts.Sublist (A ++ C) := by
    rw [← hAC]
    conv => lhs; rw [← List.take_append_drop k ts]
    exact List.Sublist.append_left (List.sublist_cons_self _ _) _
  obtain ⟨A', C', e', hA', hC'⟩ := List.sublist_append_iff.1 hsub
  refine ⟨ls, A', C', by rw [e, e', List.append_assoc], h1, ?_, ?_⟩
  · intro p hp
    have := List.mem_map_of_mem (f := (·.kind)) (hA'.subset hp)
    rw [hA] at this
    simp only [Generics.typeParams, List.mem_map, List.mem_filter, decide_eq_true_eq] at this
    obtain ⟨q, ⟨⟨-, hq⟩, -⟩, e⟩ := this
    rw [← e, hq]
  · intro p hp
    have := List.mem_map_of_mem (f := (·.kind)) (hC'.subset hp)
    rw [hC] at this
    simp only [List.mem_map, List.mem_filter, decide_eq_true_eq] at this
    obtain ⟨q, ⟨⟨-, hq⟩, -⟩, e⟩ := this
    rw [← e, hq]

/-- If types come first in the trait, the functions are used with their parameters in order. -/
theorem args_of_typesFirst {T : Trait} (a : Auto) (h : TypesFirst T) :
    (T.all a).typeParams ++ (T.all a).params.filter (·.kind = .const) = (T.all a).params.filter (·.kind ≠ .lifetime) := by
  obtain ⟨ls, ts, cs, e, h1, h2, h3⟩ := h
  have f1 : ∀ k, k ≠ Kind.lifetime → ls.filter (fun p => decide (p.kind = k)) = [] := fun k hk =>
    List.filter_eq_nil_iff.2 fun p hp => by simp only [h1 p hp, decide_eq_true_eq]; exact fun h => hk h.symm
  have f2 : ts.filter (fun p => decide (p.kind = .type)) = ts := List.filter_eq_self.2 fun p hp => by simp [h2 p hp]
  have f3 : cs.filter (fun p => decide (p.kind = .type)) = [] := List.filter_eq_nil_iff.2 fun p hp => by simp [h3 p hp]
  have f4 : ts.filter (fun p => decide (p.kind = .const)) = [] := List.filter_eq_nil_iff.2 fun p hp => by simp [h2 p hp]
  have f5 : cs.filter (fun p => decide (p.kind = .const)) = cs := List.filter_eq_self.2 fun p hp => by simp [h3 p hp]
  have f6 : ls.filter (fun p => decide (p.kind ≠ .lifetime)) = [] := List.filter_eq_nil_iff.2 fun p hp => by simp [h1 p hp]
  have f7 : ts.filter (fun p => decide (p.kind ≠ .lifetime)) = ts := List.filter_eq_self.2 fun p hp => by simp [h2 p hp]
  have f8 : cs.filter (fun p => decide (p.kind ≠ .lifetime)) = cs := List.filter_eq_self.2 fun p hp => by simp [h3 p hp]
  have f9 : ls.filter (fun p => decide (p.kind = .lifetime)) = ls := List.filter_eq_self.2 fun p hp => by simp [h1 p hp]
  have f10 : ts.filter (fun p => decide (p.kind = .lifetime)) = [] := List.filter_eq_nil_iff.2 fun p hp => by simp [h2 p hp]
  have f11 : cs.filter (fun p => decide (p.kind = .lifetime)) = [] := List.filter_eq_nil_iff.2 fun p hp => by simp [h3 p hp]
  have hw : T.withLt.params = (usability :: ls ++ ts) ++ cs := by rw [Trait.withLt, e]; simp
  have hn : (T.withLt.params.filter (·.kind = .lifetime)).length + T.withLt.typeParams.length = (usability :: ls ++ ts).length := by
    rw [Generics.typeParams, hw]
    simp only [List.cons_append]
    rw [List.filter_cons_of_pos (by simp [usability]), List.filter_cons_of_neg (by simp [usability])]
    simp only [List.filter_append, f9, f10, f11, f1 .type (by decide), f2, f3, List.append_nil, List.nil_append, List.length_cons,
      List.length_append]
    omega
  have hp : (T.all a).params = (usability :: ls ++ ts) ++ T.implParam a :: cs := by
    simp only [Trait.all]
    rw [hn, hw, List.take_left, List.drop_left]
  have hp' : (T.all a).params = [usability] ++ ls ++ ts ++ [T.implParam a] ++ cs := by rw [hp]; simp
  have u : ∀ k, k ≠ Kind.lifetime → [usability].filter (fun p => decide (p.kind = k)) = [] := fun k hk =>
    List.filter_eq_nil_iff.2 fun p hp => by
      simp only [List.mem_singleton.1 hp, usability, decide_eq_true_eq]; exact fun h => hk h.symm
  have u' : [usability].filter (fun p => decide (p.kind ≠ .lifetime)) = [] := by simp [usability]
  have i1 : [T.implParam a].filter (fun p => decide (p.kind = .type)) = [T.implParam a] := by simp [Trait.implParam]
  have i2 : [T.implParam a].filter (fun p => decide (p.kind = .const)) = [] := by simp [Trait.implParam]
  have i3 : [T.implParam a].filter (fun p => decide (p.kind ≠ .lifetime)) = [T.implParam a] := by simp [Trait.implParam]
  rw [Generics.typeParams, hp']
  simp only [List.filter_append, u .type (by decide), u .const (by decide), f1 .type (by decide), f1 .const (by decide), u', i1, i2, i3,
    f2, f3, f4, f5, f6, f7, f8, List.nil_append, List.append_nil]

end Verif.DynGen
