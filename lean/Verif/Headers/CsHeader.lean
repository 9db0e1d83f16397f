import Verif.Headers.CsLayout
import Verif.Headers.GenProps
/-! # The C# header of a program -/
namespace Verif.Headers.Cs
open Text Layout

theorem fits_fine {P : Prog} {c : Config} {es : List Export} (hf : Fine P c es) {d : List Text} {it : Item} (h : Fits P es d it) : ItemFine P it := by
  cases it with
  | type lang t =>
    obtain ⟨h1, h2, h3, _⟩ := h
    obtain ⟨a, b⟩ := hf.types t h3
    refine ⟨h1, h2, a, b, ?_⟩
    cases t with
    | adt i g => exact fun docs size fs e f hm => (hf.types _ (h3.field e hm)).1
    | array n item => exact (hf.types _ h3.item).1
    | fptr ret args => exact ⟨(hf.types _ h3.ret).1, fun a ha => (hf.types _ (h3.arg ha)).1⟩
    | _ => trivial
  | func lang f =>
    have hr : ∀ t ∈ Export.types (.fn f), Reach P es t := fun t ht => .export h.2 ht
    exact ⟨h.1, hf.exports _ h.2, fun a ha => (hf.types _ (hr _ (by rw [Export.types]; simp; exact .inl ⟨a, ha, rfl⟩))).1,
      (hf.types _ (hr _ (by rw [Export.types]; simp))).1⟩
  | const lang c => exact ⟨h.1, hf.exports _ h.2, (hf.types _ (.export h.2 (by simp [Export.types]))).1⟩
  | _ => exact h.elim

/-- The items of a header between its frame. -/
structure Body (P : Prog) (c : Config) (es : List Export) (body : List Item) : Prop where
  fits : ∃ defined, ∀ it ∈ body, Fits P es defined it ∧ (render P it).panics = false
  items : ∀ t, Reach P es t → isItem t = true → .type .csharp t ∈ body
  nodup : (body.filterMap (declaredName P)).Nodup
  exported : body.filterMap exported = ((ordered c.stable es).filter isValue).map (Lang.csharp, ·)

theorem header_body {P : Prog} {m : Nat} {c : Config} {es : List Export} {k : Sink} (hf : Fine P c es) (hu : Unambiguous P es)
    (h : (generated P m c es k).2 = none) :
    ∃ body, Body P c es body ∧ ∀ eval defs, ReadsAs eval defs (generated P m c es k).1.out (file c (eval defs t!"IOS") (body.flatMap (csDecls P))) := by
  obtain ⟨p, e, body, defined, hp, he, hi, hfit, ho, hl⟩ := header_cov hf.lang hf.sorted h
  refine ⟨body, ⟨⟨defined, hfit⟩, fun t hr hn => reach_item hu (fun it hit => (hfit it hit).1) ho hl hr hn, ?_, ?_⟩, fun eval defs => ?_⟩
  · have := C39_once P m c es k
    rw [hi, List.filterMap_cons_none rfl, List.filterMap_cons_none rfl, List.filterMap_append] at this
    exact (List.nodup_append.1 this).1
  · have := items_exported h
    rw [hi, List.filterMap_cons_none rfl, List.filterMap_cons_none rfl, List.filterMap_append, List.filterMap_cons_none rfl, List.filterMap_nil,
      List.append_nil, hf.lang] at this
    exact this
  · have := reads_file (eval := eval) hf.lang hf.lib hf.banner hp he (fun it hit => ⟨fits_fine hf (hfit it hit).1, (hfit it hit).2⟩) defs
    rw [out_eq h, hi, List.flatMap_cons, List.flatMap_cons, List.flatMap_append]
    have ht : ∀ s : Text, (render P (.text s)).writes = [s] := fun _ => rfl
    rw [ht, ht, List.flatMap_cons, ht, List.flatMap_nil, List.append_nil, flat_append, flat_append, flat_append]
    simp only [flat, List.flatten_cons, List.flatten_nil, List.append_nil] at this ⊢
    rw [← List.append_assoc, ← List.append_assoc]
    exact this

/-! ### Names -/

/-- How the names of declared types end. -/
def Ends (n : Text) : Prop := (∃ x, n = x ++ t!"_t") ∨ ∃ x, n = x ++ t!"_fptr"

theorem item_ends {b : Nat → Text} {t : CTy} (h : isItem t = true) : Ends (csName b t) := by
  cases t with
  | adt i g => exact .inl ⟨_, rfl⟩
  | array n item => rw [csName_array]; exact .inl ⟨_, rfl⟩
  | fptr ret args => rw [csName, short]; exact .inr ⟨_, rfl⟩
  | _ => cases h

theorem Ends.not_mem {l : List Text} (h : l.all (fun w => !(t!"_t".isSuffixOf w) && !(t!"_fptr".isSuffixOf w)) = true) {n : Text} (hn : Ends n) : n ∉ l := by
  intro hm
  have := List.all_eq_true.1 h n hm
  rcases hn with ⟨x, rfl⟩ | ⟨x, rfl⟩
  · have e : t!"_t".isSuffixOf (x ++ t!"_t") = true := List.isSuffixOf_iff_suffix.2 ⟨x, rfl⟩
    rw [e] at this; simp at this
  · have e : t!"_fptr".isSuffixOf (x ++ t!"_fptr") = true := List.isSuffixOf_iff_suffix.2 ⟨x, rfl⟩
    rw [e] at this; simp at this

theorem Ends.builtin {n : Text} (hn : Ends n) : n ∉ builtin := hn.not_mem (by decide)
theorem Ends.reserved {n : Text} (hn : Ends n) : n ∉ reserved := hn.not_mem (by decide +kernel)

theorem declDecl_typeName (b : Nat → Text) (n : Text) (d : Verif.Headers.Decl) : (declDecl b n d).typeName = some n := by cases d <;> rfl

theorem typeDecls_names (P : Prog) (t : CTy) : ∀ d ∈ typeDecls P t, isItem t = true ∧ d.typeName = some (csName P.base t) := by
  intro d hd
  cases t with
  | adt i g => rw [List.mem_singleton.1 hd, declDecl_typeName]; exact ⟨rfl, rfl⟩
  | array n item => rw [List.mem_singleton.1 hd]; exact ⟨rfl, rfl⟩
  | fptr ret args => rw [List.mem_singleton.1 hd]; exact ⟨rfl, rfl⟩
  | _ => cases hd

theorem csDecls_names {P : Prog} {es : List Export} {d : List Text} {it : Item} (h : Fits P es d it) :
    (csDecls P it).filterMap Decl.typeName = (typeName P it).toList := by
  cases it with
  | type lang t =>
    obtain ⟨_, h2, _⟩ := h
    cases t with
    | adt i g => simp [csDecls, typeDecls, typeName, declDecl_typeName, csName]
    | array n item => simp [csDecls, typeDecls, typeName, Decl.typeName, Decl.name, csName_array]
    | fptr ret args => simp [csDecls, typeDecls, typeName, Decl.typeName, Decl.name, csName]
    | _ => cases h2
  | func lang f => rfl
  | const lang c => rw [csDecls]; split <;> rfl
  | _ => exact h.elim

theorem declared_type (P : Prog) (items : List Item) : (items.filterMap (typeName P)).Sublist (items.filterMap (declaredName P)) := by
  induction items with
  | nil => exact .slnil
  | cons it items ih =>
    cases hx : typeName P it with
    | some n =>
      have : declaredName P it = some n := by cases it <;> first | exact hx | cases hx
      rw [List.filterMap_cons_some hx, List.filterMap_cons_some this]
      exact ih.cons_cons _
    | none =>
      rw [List.filterMap_cons_none hx]
      cases hy : declaredName P it with
      | none => rw [List.filterMap_cons_none hy]; exact ih
      | some n => rw [List.filterMap_cons_some hy]; exact ih.cons _

theorem find_nodup {ds : List Decl} (h : (ds.filterMap Decl.typeName).Nodup) {d : Decl} {n : Text} (hm : d ∈ ds) (hn : d.typeName = some n) :
    find ds n = some d := by
  induction ds with
  | nil => cases hm
  | cons d' ds ih =>
    rw [find, List.find?_cons]
    rcases List.mem_cons.1 hm with rfl | hm
    · simp [hn]
    · have hne : d'.typeName ≠ some n := by
        intro e
        rw [List.filterMap_cons_some e, List.nodup_cons] at h
        exact h.1 (List.mem_filterMap.2 ⟨d, hm, hn⟩)
      have hnd : (ds.filterMap Decl.typeName).Nodup := by
        cases hx : d'.typeName with
        | none => rwa [List.filterMap_cons_none hx] at h
        | some x => rw [List.filterMap_cons_some hx, List.nodup_cons] at h; exact h.2
      simp only [hne, decide_false]
      exact ih hnd hm

theorem find_none {ds : List Decl} {n : Text} (h : n ∉ ds.filterMap Decl.typeName) : find ds n = none := by
  rw [find, List.find?_eq_none]
  intro d hd e
  exact h (List.mem_filterMap.2 ⟨d, hd, by simpa using e⟩)

section
variable {P : Prog} {c : Config} {es : List Export} {body : List Item} (hb : Body P c es body)
include hb

theorem body_names (ios : Bool) : (libDecl ios c.lib :: body.flatMap (csDecls P)).filterMap Decl.typeName = body.filterMap (typeName P) := by
  obtain ⟨defined, hfit⟩ := hb.fits
  rw [List.filterMap_cons_none rfl]
  have : ∀ l : List Item, (∀ it ∈ l, it ∈ body) → (l.flatMap (csDecls P)).filterMap Decl.typeName = l.filterMap (typeName P) := by
    intro l hl
    induction l with
    | nil => rfl
    | cons it l ih =>
      rw [List.flatMap_cons, List.filterMap_append, csDecls_names (hfit it (hl it (by simp))).1, ih fun it h => hl it (by simp [h]), List.filterMap_cons]
      cases typeName P it <;> rfl
  exact this body fun _ h => h

theorem body_nodup (ios : Bool) : ((libDecl ios c.lib :: body.flatMap (csDecls P)).filterMap Decl.typeName).Nodup := by
  rw [body_names hb]; exact (declared_type P body).nodup hb.nodup

omit hb in
theorem body_ends (ios : Bool) : ∀ n ∈ (libDecl ios c.lib :: body.flatMap (csDecls P)).filterMap Decl.typeName, Ends n := by
  intro n hn
  obtain ⟨d, hd, he⟩ := List.mem_filterMap.1 hn
  rcases List.mem_cons.1 hd with rfl | hd
  · cases he
  obtain ⟨it, _, hd⟩ := List.mem_flatMap.1 hd
  cases it with
  | type lang t =>
    obtain ⟨h1, h2⟩ := typeDecls_names P t d hd
    rw [he] at h2
    rw [Option.some.inj h2]
    exact item_ends h1
  | func lang f => rw [List.mem_singleton.1 hd] at he; cases he
  | const lang x =>
    rw [csDecls] at hd
    split at hd
    · cases hd
    · rw [List.mem_singleton.1 hd] at he; cases he
  | _ => cases hd

theorem body_finds (ios : Bool) : Finds P es (libDecl ios c.lib :: body.flatMap (csDecls P)) := by
  refine ⟨fun n hn => find_none fun hm => (body_ends ios n hm).builtin hn, fun t hr hi d hd => ?_, fun i g docs size fs hr hd f hf h0 => ?_⟩
  · exact find_nodup (body_nodup hb ios) (List.mem_cons_of_mem _ (List.mem_flatMap.2 ⟨_, hb.items t hr hi, hd⟩)) (typeDecls_names P t d hd).2
  · obtain ⟨defined, hfit⟩ := hb.fits
    have hp := (hfit _ (hb.items _ hr rfl)).2
    change (renderDecl P .csharp (.adt i g) (P.decl i g)).panics = false at hp
    rw [hd] at hp
    refine Nat.le_of_not_lt fun ha => ?_
    have := (C63_refuses P.base .csharp docs (.adt i g) size fs).2 (.inr ⟨f, hf, h0, ha⟩)
    rw [show renderDecl P .csharp (.adt i g) (.struct docs size fs) = emitStruct P.base .csharp docs (.adt i g) size fs from rfl, this] at hp
    cases hp

theorem body_export (hs : c.stable = true → DistinctNames es) {e : Export} (he : e ∈ es) (hv : isValue e = true) :
    ∃ it ∈ body, Verif.Headers.exported it = some (.csharp, e) := by
  have hx : (Lang.csharp, e) ∈ body.filterMap Verif.Headers.exported := by
    rw [hb.exported]
    exact List.mem_map.2 ⟨_, List.mem_filter.2 ⟨(mem_ordered hs _).2 he, hv⟩, rfl⟩
  exact List.mem_filterMap.1 hx

theorem body_fn (hs : c.stable = true → DistinctNames es) {f : Fn} (hf : .fn f ∈ es) : .func .csharp f ∈ body := by
  obtain ⟨it, h1, h2⟩ := body_export hb hs hf rfl
  have : it = .func .csharp f := by
    cases it with
    | func lang g => simp only [Verif.Headers.exported, Option.some.injEq, Prod.mk.injEq, Export.fn.injEq] at h2; rw [h2.1, h2.2]
    | _ => simp [Verif.Headers.exported] at h2
  rw [← this]; exact h1

end

end Verif.Headers.Cs
