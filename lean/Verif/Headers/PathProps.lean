import Verif.Headers.AbiProps
import Verif.Headers.PathSpec
/-!
# C77: every part of a value is at the same place in C and in Rust

By induction over the expression that selects it.
-/
namespace Verif.Headers
open Text Layout

/-! ### Steps -/

theorem unconst_ctype (b : Nat → Text) (t : CTy) : unconst (ctype b t) = ctype b t := by
  cases t <;> rfl

theorem shift_zero (os : Offsets) : Offsets.shift 0 os = os := by
  cases os with
  | nil => rfl
  | cons x xs => simp [Offsets.shift]

/-- The member for a field with bytes is at the offset of the field. -/
theorem place_field {A : Abi} {P : Prog} {es : List Export} {env : Env} (hd : Defines A P es env) {fs : List Field} {ss ss' : List Shape}
    (h : RShapes A P fs ss) (hr : ∀ f ∈ fs, Reach P es f.ty) (hz : ∀ f ∈ fs, f.size = 0 → f.align ≤ 1)
    (hc : CShapes A env ((kept fs).map fun f => (f.name, ctype P.base f.ty)) ss') {pos o : Nat} {f : Field}
    (hm : (f, o) ∈ fs.zip (offsetsFrom pos (lays A ss))) (h0 : f.size ≠ 0) :
    ((f.name, ctype P.base f.ty), o) ∈ ((kept fs).map fun f => (f.name, ctype P.base f.ty)).zip (offsetsFrom pos (lays A ss')) := by
  match h with
  | .nil => cases hm
  | .cons (f := f₀) (s := s) (fs := fs) (ss := ss) h hl hs =>
    have hr' : ∀ f ∈ fs, Reach P es f.ty := fun f hf => hr f (by simp [hf])
    have hz' : ∀ f ∈ fs, f.size = 0 → f.align ≤ 1 := fun f hf => hz f (by simp [hf])
    rw [lays, ← hl, offsetsFrom, List.zip_cons_cons, List.mem_cons] at hm
    by_cases e0 : f₀.size = 0
    · have e : kept (f₀ :: fs) = kept fs := by simp [kept, e0]
      have ha := hz f₀ (by simp) e0
      have hp := (Shape.lay_good A s).1
      rw [← hl] at hp
      dsimp only at hp
      have ha' : f₀.align = 1 := by omega
      rw [e] at hc ⊢
      rcases hm with hm | hm
      · cases hm; exact absurd e0 h0
      · rw [ha', roundUp_by_one, e0, Nat.add_zero] at hm
        exact place_field hd hs hr' hz' hc hm h0
    · have e : kept (f₀ :: fs) = f₀ :: kept fs := by simp [kept, e0]
      rw [e, List.map_cons] at hc ⊢
      obtain ⟨s', h3, h4⟩ := RShape.same hd h (hr f₀ (by simp)) (by rw [← hl]; exact e0)
      cases hc with
      | cons hc hcs =>
        cases hc.unique h3
        rw [lays, ← h4.1, ← hl, offsetsFrom, List.zip_cons_cons, List.mem_cons]
        rcases hm with hm | hm
        · cases hm; exact .inl rfl
        · exact .inr (place_field hd hs hr' hz' hcs hm h0)

theorem field_mem {fs : List Field} {os : List Nat} {f : Field} {o : Nat} (h : (f, o) ∈ fs.zip os) : f ∈ fs := (List.of_mem_zip h).1

theorem inC_nil : inC [] = [] := rfl
theorem inC_field (n : Text) (p : List Sel) : inC (.field n :: p) = .field n :: inC p := rfl
theorem inC_index (i : Nat) (p : List Sel) : inC (.index i :: p) = .field t!"idx" :: .index i :: inC p := rfl
theorem inC_deref (p : List Sel) : inC (.deref :: p) = .deref :: inC p := rfl
theorem inC_cons (x : Sel) (p : List Sel) : ∃ y q, inC (x :: p) = y :: q := by
  cases x <;> exact ⟨_, _, rfl⟩

/-- Places in Rust are places in C. -/
theorem RPlace.same {A : Abi} {P : Prog} {es : List Export} {env : Env} (hd : Defines A P es env) {t u : CTy} {p : List Sel} {os : Offsets}
    (h : RPlace A P t p os u) (hr : Reach P es t) : CPlace A env (ctype P.base t) (inC p) os (ctype P.base u) ∧ Reach P es u := by
  induction h with
  | @here t =>
    refine ⟨?_, hr⟩
    have := CPlace.here (A := A) (env := env) (t := ctype P.base t)
    rwa [unconst_ctype] at this
  | @field i g docs size fs ss f o p os u e hs hm h0 _ ih =>
    obtain ⟨h1, h2⟩ := hd.struct _ _ _ _ _ hr e
    obtain ⟨ss', h3, _⟩ := RShapes.same hd hs (fun f hf => hr.field e hf) h2
    obtain ⟨h4, h5⟩ := ih (hr.field e (field_mem hm))
    rw [ctype_named rfl, inC_field]
    exact ⟨.field (hd.base _ hr rfl) h1 h3 (place_field hd hs (fun f hf => hr.field e hf) h2 h3 hm h0) h4, h5⟩
  | @index n t s i p os u hi hs h0 _ ih =>
    obtain ⟨h4, h5⟩ := ih hr.item
    obtain ⟨s', h6, h7⟩ := RShape.same hd hs hr.item h0
    rw [ctype_named rfl, inC_index]
    refine ⟨?_, h5⟩
    have hp := (Shape.lay_good A s').1
    have := CPlace.field (o := 0) (hd.base _ hr rfl) (hd.array _ _ hr) (.cons (.array (n := n) h6) .nil)
      (by
        show _ ∈ [_].zip [roundUp 0 (s'.lay A).2]
        rw [roundUp_zero hp]; exact .head _)
      (.index hi h6 h4)
    rwa [shift_zero, ← h7.1] at this
  | @alias rn docs t x p os u _ ih =>
    obtain ⟨h4, h5⟩ := ih hr.inner
    obtain ⟨y, q, e⟩ := inC_cons x p
    rw [ctype_named rfl]
    rw [e] at h4 ⊢
    exact ⟨.alias (hd.base _ hr rfl) (hd.alias _ _ _ hr) h4, h5⟩
  | @constPtr t p os u _ ih =>
    obtain ⟨h4, h5⟩ := ih hr.constPtr
    rw [ctype_constPtr, inC_deref]
    refine ⟨.deref ?_, h5⟩
    cases hp : inC p with
    | nil =>
      rw [hp] at h4
      generalize ctype P.base t = c at h4 ⊢
      generalize ctype P.base u = d at h4 ⊢
      cases h4
      exact CPlace.here (t := .const c)
    | cons y q => rw [hp] at h4; exact .const h4
  | mutPtr _ ih =>
    obtain ⟨h4, h5⟩ := ih hr.mutPtr
    rw [ctype_mutPtr, inC_deref]
    exact ⟨.deref h4, h5⟩


theorem zip_fst_nodup {ms : List (Text × CT)} (hn : (ms.map (·.1)).Nodup) {os : List Nat} {m : Text} {t t' : CT} {o o' : Nat}
    (h : ((m, t), o) ∈ ms.zip os) (h' : ((m, t'), o') ∈ ms.zip os) : t = t' ∧ o = o' := by
  induction ms generalizing os with
  | nil => cases h
  | cons x ms ih =>
    cases os with
    | nil => cases h
    | cons y os =>
      rw [List.map_cons, List.nodup_cons] at hn
      rw [List.zip_cons_cons, List.mem_cons] at h h'
      rcases h with h | h <;> rcases h' with h' | h'
      · cases h; cases h'; exact ⟨rfl, rfl⟩
      · cases h; exact absurd (List.mem_map_of_mem (f := fun x : Text × CT => x.1) (List.of_mem_zip h').1) hn.1
      · cases h'; exact absurd (List.mem_map_of_mem (f := fun x : Text × CT => x.1) (List.of_mem_zip h).1) hn.1
      · exact ih hn.2 h h'

theorem CPlace.unique {A : Abi} {env : Env} (hm : MembersDistinct env) {t u u' : CT} {p : List Sel} {os os' : Offsets}
    (h : CPlace A env t p os u) (h' : CPlace A env t p os' u') : os = os' ∧ u = u' := by
  induction h generalizing os' u' with
  | here => cases h'; exact ⟨rfl, rfl⟩
  | const _ ih => cases h' with | const h' => exact ih h'
  | alias _ e _ ih =>
    cases h' with
    | alias _ e' h' => rw [e] at e'; cases e'; exact ih h'
    | field _ e' => rw [e] at e'; cases e'
  | field _ e hs hz _ ih =>
    cases h' with
    | alias _ e' h' => rw [e] at e'; cases e'
    | field _ e' hs' hz' h' =>
      rw [e] at e'
      cases e'
      cases hs.unique hs'
      obtain ⟨rfl, rfl⟩ := zip_fst_nodup (hm _ _ e) hz hz'
      obtain ⟨rfl, rfl⟩ := ih h'
      exact ⟨rfl, rfl⟩
  | @index n t s i p os u _ hs _ ih =>
    generalize hT : CT.array (nat n) t = T at h'
    cases h' with
    | index _ hs' h' =>
      injection hT with _ e
      subst e
      cases hs.unique hs'
      obtain ⟨rfl, rfl⟩ := ih h'
      exact ⟨rfl, rfl⟩
    | _ => cases hT
  | deref _ ih => cases h' with | deref h' => obtain ⟨rfl, rfl⟩ := ih h'; exact ⟨rfl, rfl⟩

theorem ctypes_same {A : Abi} {P : Prog} {env : Env} {args : List CTy}
    (h : ∀ t ∈ args, ∀ s, RShape A P t s → (s.lay A).1 ≠ 0 → ∃ s', CShape A env (ctype P.base t) s' ∧ SameAbi A s s') :
    All₂ (fun (a : CTy) (p : Option Text × CT) => ∀ s, RShape A P a s → (s.lay A).1 ≠ 0 → ∃ s', CShape A env p.2 s' ∧ SameAbi A s s')
      args (ctypes P.base args) := by
  induction args with
  | nil => exact .nil
  | cons a args ih => rw [ctypes]; exact .cons (h a (by simp)) (ih fun t ht => h t (by simp [ht]))

/-! ### Properties -/

/-- **C77 (places).** If no two types have the same name: whatever expression selects a part of a Rust value that an
exported function takes or returns, through fields, array items, wrappers and pointers, the same expression selects a
part in C, at the same offsets, and of the same layout. -/
theorem C77_places_partial (P : Prog) (m : Nat) (c : Config) (es : List Export) (k : Sink) (hf : Fine P c es) (hu : Unambiguous P es)
    (h : (generated P m c es k).2 = none) (eval : List Text → Text → Bool) (defs : List Text) (hc : Compiler c defs) :
    ∃ env, ReadsAs eval defs (generated P m c es k).1.out env ∧
      ∀ A t p os u, Reach P es t → RPlace A P t p os u → CPlace A env (ctype P.base t) (inC p) os (ctype P.base u) ∧
        ∀ s, RShape A P u s → (s.lay A).1 ≠ 0 → ∃ s', CShape A env (ctype P.base u) s' ∧ SameAbi A s s' :=
  ⟨_, header_env hf h hc, fun A _ _ _ _ hr hp =>
    have ⟨h1, h2⟩ := RPlace.same ((header_defines hf hu h).1 A) hp hr
    ⟨h1, fun _ hs h0 => RShape.same ((header_defines hf hu h).1 A) hs h2 h0⟩⟩

/-- **C77 (places).** And it is the only part that the expression selects in C. -/
theorem C77_places_unique (A : Abi) (env : Env) (hm : MembersDistinct env) (t u u' : CT) (p : List Sel) (os os' : Offsets)
    (h : CPlace A env t p os u) (h' : CPlace A env t p os' u') : os = os' ∧ u = u' :=
  h.unique hm h'

/-- **C77 (callbacks).** Function pointers are pointers to functions with as many parameters, of the same layout, and with
a result of the same layout. -/
theorem C77_callbacks_partial (P : Prog) (m : Nat) (c : Config) (es : List Export) (k : Sink) (hf : Fine P c es) (hu : Unambiguous P es)
    (h : (generated P m c es k).2 = none) (eval : List Text → Text → Bool) (defs : List Text) (hc : Compiler c defs) :
    ∃ env, ReadsAs eval defs (generated P m c es k).1.out env ∧
      ∀ A ret args, Reach P es (.fptr ret args) → ∃ ret' params, ctype P.base (.fptr ret args) = .ptr (.fn ret' params) ∧
        All₂ (fun (a : CTy) (p : Option Text × CT) => ∀ s, RShape A P a s → (s.lay A).1 ≠ 0 → ∃ s', CShape A env p.2 s' ∧ SameAbi A s s') args params ∧
        (ret = .void → ret' = .name kvoid) ∧
        ∀ s, RShape A P ret s → (s.lay A).1 ≠ 0 → ∃ s', CShape A env ret' s' ∧ SameAbi A s s' :=
  ⟨_, header_env hf h hc, fun A ret args hr => ⟨_, _, ctype_fptr .., ctypes_same fun _ ht _ hs h0 =>
    RShape.same ((header_defines hf hu h).1 A) hs (hr.arg ht) h0, fun e => by rw [e]; rfl, fun _ hs h0 =>
    RShape.same ((header_defines hf hu h).1 A) hs hr.ret h0⟩⟩

/-! ### Non-vacuity -/

namespace Sample

theorem reach_arg : Reach P es (.constPtr line) := .export (e := .fn draw) (by simp [es]) (by simp [Export.types, draw])

/-- In Rust: `(*(*line).to).y` -/
theorem to_y : RPlace x64 P (.constPtr line) [.deref, .field t!"to", .deref, .field t!"y"] [0, 8, 4] (.int .i32) := by
  have hl := line_shape
  have hp := point_shape x64 rfl
  cases hl with
  | @struct _ _ _ _ fs ss hd hs =>
    cases hp with
    | @struct _ _ _ _ fs' ss' hd' hs' =>
      cases hd
      cases hd'
      exact .constPtr (.field (o := 8) (f := ⟨[], t!"to", .constPtr point, 8, 8⟩) (os := [0, 4]) rfl hs (.tail _ (.head _)) (by decide)
        (.constPtr (.field (o := 4) (f := ⟨[], t!"y", .int .i32, 4, 4⟩) (os := [0]) rfl hs' (.tail _ (.head _)) (by decide) .here)))

/-- In Rust: `(*line).colors[1]` -/
theorem second_color : RPlace x64 P (.constPtr line) [.deref, .field t!"colors", .index 1] [0, 17] color := by
  have hl := line_shape
  cases hl with
  | @struct _ _ _ _ fs ss hd hs =>
    cases hd
    exact .constPtr (.field (o := 16) (f := ⟨[], t!"colors", .array 2 color, 2, 1⟩) (os := [1]) rfl hs (.tail _ (.tail _ (.head _))) (by decide)
      (.index (i := 1) (os := [0]) (by decide) (color_shape x64) (by decide) .here))

end Sample

/-- In C, `line->to->y` is the `int32_t` 4 bytes into what the pointer points to that is 8 bytes into the line, and
`line->colors.idx[1]` is the `Color_t` 17 bytes into it. -/
example (eval : List Text → Text → Bool) : ∃ env, ReadsAs eval [] (generated Sample.P 7 (Sample.cfg .c true) Sample.es okSink).1.out env ∧
    CPlace x64 env (.ptr (.const (.name t!"Line_t"))) [.deref, .field t!"to", .deref, .field t!"y"] [0, 8, 4] (.name t!"int32_t") ∧
    CPlace x64 env (.ptr (.const (.name t!"Line_t"))) [.deref, .field t!"colors", .field t!"idx", .index 1] [0, 17] (.name t!"Color_t") := by
  obtain ⟨env, h1, h2⟩ := C77_places_partial Sample.P 7 (Sample.cfg .c true) Sample.es okSink Sample.fine Sample.unambiguous (Sample.succeeds .c true) eval []
    ⟨nofun, nofun, nofun⟩
  exact ⟨env, h1, (h2 x64 _ _ _ _ Sample.reach_arg Sample.to_y).1, (h2 x64 _ _ _ _ Sample.reach_arg Sample.second_color).1⟩

/-- The callback that `draw` takes returns a `bool` and has one parameter, with two 32-bit integers. -/
example (eval : List Text → Text → Bool) : ∃ env, ReadsAs eval [] (generated Sample.P 7 (Sample.cfg .c true) Sample.es okSink).1.out env ∧
    ∃ ret' a, ctype Sample.P.base (.fptr .bool [Sample.point]) = .ptr (.fn ret' [a]) ∧
      (∃ s, CShape x64 env ret' s ∧ s.scalars x64 0 = [(0, .bool)]) ∧
      ∃ s, CShape x64 env a.2 s ∧ s.scalars x64 0 = [(0, .int true 4), (4, .int true 4)] := by
  obtain ⟨env, h1, h2⟩ := C77_callbacks_partial Sample.P 7 (Sample.cfg .c true) Sample.es okSink Sample.fine Sample.unambiguous (Sample.succeeds .c true) eval []
    ⟨nofun, nofun, nofun⟩
  obtain ⟨ret', params, h3, h4, _, h5⟩ := h2 x64 .bool [Sample.point]
    (.export (e := .fn Sample.draw) (by simp [Sample.es]) (by simp [Export.types, Sample.draw]))
  cases h4 with
  | @cons _ a _ _ h hs =>
    cases hs
    obtain ⟨s, h6, h7⟩ := h5 _ .bool (by decide)
    obtain ⟨s', h8, h9⟩ := h _ (Sample.point_shape x64 rfl) (by decide)
    exact ⟨env, h1, ret', a, h3, ⟨s, h6, (h7.2 0).symm.trans (by decide)⟩, s', h8, (h9.2 0).symm.trans (by decide)⟩

/-- An environment with a struct, and a place in it. -/
example : MembersDistinct [(t!"P", .struct [(t!"x", .name t!"int"), (t!"y", .name t!"char")])] ∧
    CPlace x64 [(t!"P", .struct [(t!"x", .name t!"int"), (t!"y", .name t!"char")])] (.name t!"P") [.field t!"y"] [4] (.name t!"char") := by
  refine ⟨fun n ms h => ?_, .field (o := 4) (os := [0]) rfl rfl (.cons (.base rfl) (.cons (.base rfl) .nil)) (.tail _ (.head _)) .here⟩
  rw [List.lookup_cons] at h
  split at h
  · cases h; decide
  · cases h

end Verif.Headers
