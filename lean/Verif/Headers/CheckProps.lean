import Verif.Headers.CheckLemmas
/-!
# C86: C compilers accept the header
-/
namespace Verif.Headers
open Text

/-! ### C86 -/

/-- **C86.** If no two types have the same name, none is recursive, opaque types are only behind pointers and no name is reserved
in C: a C compiler reads the header and accepts each of its declarations. -/
theorem C86_compiles_partial (P : Prog) (o : Order) (bound m : Nat) (c : Config) (es : List Export) (k : Sink) (hf : Fine P c es)
    (hu : Unambiguous P es) (hr : NonRecursive P o c.lang bound es) (hs : Solid P es) (h : (generated P m c es k).2 = none)
    (eval : List Text → Text → Bool) (defs : List Text) (hc : Compiler c defs) :
    ∃ env, ReadsAs eval defs (generated P m c es k).1.out env ∧ Compiles env := by
  refine ⟨_, header_env hf h hc, ?_⟩
  have hw := C39_order_partial P o bound m c es k hr
  have hone := C39_once P m c es k
  obtain ⟨p, ep, body, D, hp, he, hi, hfit, ho, hl⟩ := header_cov hf.lang hf.sorted h
  have hfit' := fun it hit => (hfit it hit).1
  have henv : (generated P m c es k).1.items.flatMap (entry P) = body.flatMap (entry P) := by
    rw [hi, List.flatMap_cons, List.flatMap_cons, List.flatMap_append]
    show [] ++ ([] ++ (_ ++ [])) = _
    simp
  have hnodup : ((body.flatMap (entry P)).map (·.1)).Nodup := by
    rw [hi, List.filterMap_cons_none rfl, List.filterMap_cons_none rfl, List.filterMap_append] at hone
    rw [env_names hfit']
    exact (List.nodup_append.1 hone).1
  have hbody : WellOrdered P body := by
    intro a it b e n hn
    rw [hi, e] at hw
    obtain ⟨it', h1, h2⟩ := hw (.text c.writeBanner :: .text p :: a) it (b ++ [.text ep]) (by simp) n hn
    rcases List.mem_cons.1 h1 with rfl | h1
    · cases h2
    rcases List.mem_cons.1 h1 with rfl | h1
    · cases h2
    exact ⟨it', h1, h2⟩
  rw [henv]
  intro pre n d post hsplit
  obtain ⟨a, it, b, h1, rfl, h3⟩ := split_env hsplit
  have ha : ∀ it ∈ a, Fits P es D it := fun it hit => hfit' it (by rw [h1]; simp [hit])
  have hit := hfit' it (by rw [h1]; simp)
  have hn := hnodup
  rw [hsplit, List.map_append, List.map_cons] at hn
  obtain ⟨n1, _, n3⟩ := List.nodup_append.1 hn
  obtain ⟨h4, h5⟩ := entry_names_ok hu hs hit _ h3
  refine ⟨h4, h5, fun hm => n3 _ hm _ (by simp) rfl, accepts_item ha hit n1 hu hs ?_ (hbody a it b h1) _ h3⟩
  intro a' it' b' e n hn
  exact hbody a' it' (b' ++ it :: b) (by rw [h1, e]; simp) n hn

theorem Sample.solid : Solid Sample.P Sample.es where
  fields i g docs size fs f hr hd hf _ := by
    have := Sample.reach_used hr
    simp [Sample.used, Sample.color, Sample.line, Sample.point] at this
    rcases this with ⟨rfl, rfl⟩ | ⟨rfl, rfl⟩ | ⟨rfl, rfl⟩ <;> simp [Sample.P, Sample.decls] at hd <;> rw [← hd.2.2] at hf <;> simp at hf
    · rcases hf with rfl | rfl | rfl <;> exact ⟨rfl, by decide⟩
    · rcases hf with rfl | rfl <;> exact ⟨rfl, by decide⟩
  items n t hr := by
    have := Sample.reach_used hr
    simp [Sample.used, Sample.color, Sample.line, Sample.point] at this
    rw [this.1, this.2]
    exact ⟨rfl, by decide⟩
  fns f hf := by
    simp only [Sample.es, List.mem_cons, List.not_mem_nil, or_false, Export.fn.injEq, reduceCtorEq, false_or] at hf
    rcases hf with rfl | rfl
    · refine ⟨by decide, by decide, .inl rfl, fun a ha => ?_⟩
      simp [Sample.fill] at ha
      rw [ha]; exact ⟨rfl, by decide⟩
    · refine ⟨by decide, by decide, .inr rfl, fun a ha => ?_⟩
      simp [Sample.draw] at ha
      rcases ha with rfl | rfl <;> exact ⟨rfl, by decide⟩

/-- The sample meets the hypotheses. -/
example (eval : List Text → Text → Bool) :
    ∃ env, ReadsAs eval [] (generated Sample.P 7 (Sample.cfg .c true) Sample.es okSink).1.out env ∧ Compiles env :=
  C86_compiles_partial Sample.P Sample.order 7 7 _ _ okSink Sample.fine Sample.unambiguous (Sample.nonRecursive .c) Sample.solid
    (Sample.succeeds .c true) eval [] ⟨nofun, nofun, nofun⟩

/-! ### Programs that C compilers reject -/

/-- The header of `fn f(x: ty)` is written without an error, and C compilers reject it. -/
def Rejected (P : Prog) (ty : CTy) : Prop :=
  Fine P (Sample.cfg .c true) (Sample.one ty) ∧ (generated P 9 (Sample.cfg .c true) (Sample.one ty) okSink).2 = none ∧
  ∀ eval, ∃ env, ReadsAs eval [] (generated P 9 (Sample.cfg .c true) (Sample.one ty) okSink).1.out env ∧ ¬ Compiles env

theorem rejected {P : Prog} {ty : CTy} (hf : Fine P (Sample.cfg .c true) (Sample.one ty))
    (h : (generated P 9 (Sample.cfg .c true) (Sample.one ty) okSink).2 = none)
    (ht : test [] ((generated P 9 (Sample.cfg .c true) (Sample.one ty) okSink).1.items.flatMap (entry P)) = false) : Rejected P ty :=
  ⟨hf, h, fun _ => ⟨_, header_env hf h ⟨nofun, nofun, nofun⟩, fun hc => by rw [hc.test] at ht; cases ht⟩⟩

namespace Sample

/-- `struct Opaque`, `struct S { register: i32 }` -/
def odd : Prog where
  base | 0 => t!"Opaque" | _ => t!"S"
  decl
    | 0, _ => .opaque []
    | _, _ => .struct [] 4 [⟨[], t!"register", .int .i32, 4, 4⟩]
  size _ := 4

end Sample

/-- **C86** fails for arrays of opaque types: `fn f(x: [Opaque; 2])`. (It is accepted: C85_fails_array.) The header has
`Opaque_t idx[2];` with a `Opaque_t` that it does not define. -/
theorem C86_fails_opaque_array : Rejected Sample.odd (.array 2 (.adt 0 [])) :=
  rejected (fine_one rfl [.array 2 (.adt 0 []), .adt 0 [], .void] (fun t ht => reach_closed _ (by simp [Sample.one, Export.types]) (by simp [Sample.odd]) ht)
    (by decide +kernel)) (by decide +kernel) (by decide +kernel)

/-- **C86** fails for names that C reserves and Rust does not: `struct S { register: i32 }`. -/
theorem C86_fails_reserved : Rejected Sample.odd (.adt 1 []) :=
  rejected (fine_one rfl [.adt 1 [], .int .i32, .void] (fun t ht => reach_closed _ (by simp [Sample.one, Export.types]) (by simp [Sample.odd]) ht)
    (by decide +kernel)) (by decide +kernel) (by decide +kernel)

/-- **C86** fails for types that are recursive through pointers: `struct A { b: B }`, `struct B { a: *mut A }`, `fn f(x: B)`. -/
theorem C86_fails_recursive : Rejected Sample.recursive (.adt 1 []) :=
  rejected (fine_one rfl [.adt 1 [], .mutPtr (.adt 0 []), .adt 0 [], .void]
    (fun t ht => reach_closed _ (by simp [Sample.one, Export.types]) (by simp [Sample.recursive]) ht)
    (by decide +kernel)) (by decide +kernel) (by decide +kernel)

/-- **C86** fails for `isize`: `fn f(x: isize)` mentions `ssize_t`, which the included headers do not define. -/
theorem C86_fails_isize : Rejected Sample.odd (.int .isize) :=
  rejected (fine_one rfl [.int .isize, .void] (fun t ht => reach_closed _ (by simp [Sample.one, Export.types]) (by simp) ht)
    (by decide +kernel)) (by decide +kernel) (by decide +kernel)

/-- `struct S { r#in: i32 }`: the name of a field is what `Ident::to_string` makes of it
(src/proc_macro/derives/c_type/struct_.rs 115-118), which keeps the `r#` (proc_macro). -/
def Sample.raw : Prog where
  base _ := t!"S"
  decl _ _ := .struct [] 4 [⟨[], t!"r#in", .int .i32, 4, 4⟩]
  size _ := 4

/-- Lines that are no conditions with expressions. -/
def plainLine (l : Text) : Bool := match directive l with
  | some (k, _) => k ≠ t!"if" && k ≠ t!"elif"
  | none => true

theorem run_plainLine (eval eval' : List Text → Text → Bool) : ∀ (ls : List Text) (st : Pp), ls.all plainLine = true → st.run eval ls = st.run eval' ls
  | [], _, _ => rfl
  | l :: ls, st, h => by
    rw [List.all_cons, Bool.and_eq_true] at h
    have hp : st.step eval l = st.step eval' l := by
      rw [Pp.step, Pp.step]
      have h1 := h.1
      rw [plainLine] at h1
      cases hd : directive l with
      | none => rfl
      | some x =>
        obtain ⟨k, r⟩ := x
        rw [hd] at h1
        simp only [ne_eq, decide_not, Bool.and_eq_true, Bool.not_eq_true', decide_eq_false_iff_not] at h1
        simp only [if_neg h1.1, if_neg h1.2]
    rw [Pp.run, Pp.run, hp]
    cases st.step eval' l with
    | none => rfl
    | some st' => exact run_plainLine eval eval' ls st' h.2

/-- **C86** fails for raw identifiers: the header of `struct S { r#in: i32 }` has the member `int32_t r#in;`, and no C compiler can read
it. -/
theorem C86_fails_raw : (generated Sample.raw 9 (Sample.cfg .c true) (Sample.one (.adt 0 [])) okSink).2 = none ∧
    ∀ eval env, ¬ ReadsAs eval [] (generated Sample.raw 9 (Sample.cfg .c true) (Sample.one (.adt 0 [])) okSink).1.out env := by
  refine ⟨by decide +kernel, fun eval env h => ?_⟩
  obtain ⟨st, h1, k, h2⟩ := h
  rw [Pp.read, run_plainLine eval (fun _ _ => false) _ _ (by decide +kernel)] at h1
  have e : ((Pp.mk [] [] []).run (fun _ _ => false)
      (split '\n' (code .code (generated Sample.raw 9 (Sample.cfg .c true) (Sample.one (.adt 0 [])) okSink).1.out))).map (fun st => tokens st.out) =
      some ([.id ktypedef, .id kstruct, .id t!"S", .bad '{', .id t!"int32_t", .id t!"r", .bad '#', .id t!"in", .semi, .bad '}', .id t!"S_t", .semi,
        .id kvoid, .id t!"f", .lp, .id t!"S_t", .id t!"x", .rp, .semi]) := by decide +kernel
  rw [h1] at e
  have e' : tokens st.out = _ := Option.some.inj e
  have := h2 (k + 20) (by omega)
  rw [e'] at this
  cases this

end Verif.Headers
