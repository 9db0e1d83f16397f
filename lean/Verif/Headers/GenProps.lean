import Verif.Headers.GenExports
/-!
# Header generation: C39, C40, C41, C42
-/
namespace Verif.Headers
open Text

/-! ### An example -/

namespace Sample

def names : Nat → Text
  | 0 => t!"Point"
  | 1 => t!"Color"
  | _ => t!"Line"

def point : CTy := .adt 0 []
def color : CTy := .adt 1 []
def line : CTy := .adt 2 []

/-- `struct Point { x: i32, y: i32 }`, `enum Color { Red, Blue }` as `u8`,
`struct Line { from: Point, to: *const Point, colors: [Color; 2] }` -/
def decls : Nat → List CTy → Decl
  | 0, _ => .struct [] 8 [⟨[], t!"x", .int .i32, 4, 4⟩, ⟨[], t!"y", .int .i32, 4, 4⟩]
  | 1, _ => .enum [] (some .u8) [⟨[], t!"Red", none⟩, ⟨[], t!"Blue", none⟩]
  | _, _ => .struct [] 24 [⟨[], t!"from", point, 8, 4⟩, ⟨[], t!"to", .constPtr point, 8, 8⟩, ⟨[], t!"colors", .array 2 color, 2, 1⟩]

def P : Prog := ⟨names, decls, fun _ => 2⟩

/-- `fn draw(line: *const Line, cb: fn(Point) -> bool) -> Color` -/
def draw : Fn := ⟨[], t!"draw", [⟨t!"line", .constPtr line⟩, ⟨t!"cb", .fptr .bool [point]⟩], color⟩

def fill : Fn := ⟨[], t!"fill", [⟨t!"with", color⟩], .void⟩

def width : Const := ⟨[], t!"WIDTH", .int .u32, false, t!"640"⟩

def es : List Export := [.fn fill, .type t!"Line" line, .const width, .fn draw]

def order : Order where
  rank n := if n = t!"__int_headers__" then 0 else if n = t!"bool" then 1 else if n = t!"Point_t" then 2 else if n = t!"Color_t" then 3
    else if n = t!"Color_2_array_t" then 4 else if n = t!"Line_t" then 5 else if n = t!"bool_Point_fptr" then 6 else 7
  kind n := if n = t!"draw" ∨ n = t!"fill" then .function else .type
  used _ i g := g = [] ∧ i ≤ 2

def cfg (lang : Lang) (stable : Bool) : Config := ⟨lang, stable, t!"shapes", none, none, none⟩

theorem fits_int {lang : Lang} {B : Nat} {k : IntTy} (hk : k ≠ .isize) (hB : 0 < B) : fits P.base order lang B (.int k) := .inr ⟨hk, hB, rfl⟩

theorem fits_point {lang : Lang} {B : Nat} (hB : 2 < B) : fits P.base order lang B point := ⟨hB, rfl, rfl, by decide⟩

theorem fits_color {lang : Lang} {B : Nat} (hB : 3 < B) : fits P.base order lang B color := ⟨hB, rfl, rfl, by decide⟩

theorem fits_colors {lang : Lang} {B : Nat} (hB : 4 < B) : fits P.base order lang B (.array 2 color) :=
  ⟨hB, rfl, fun _ => by decide, fits_color (by decide)⟩

theorem fits_line {lang : Lang} {B : Nat} (hB : 5 < B) : fits P.base order lang B line := ⟨hB, rfl, rfl, by decide⟩

theorem fits_cb {lang : Lang} {B : Nat} (hB : 6 < B) : fits P.base order lang B (.fptr .bool [point]) :=
  ⟨fun _ => ⟨hB, rfl⟩, fun _ => by decide, .inr ⟨by show 1 < B; omega, rfl⟩, fun _ => by decide, fits_point (by omega), trivial⟩

theorem nonRecursive (lang : Lang) : NonRecursive P order lang 7 es where
  decls lang i g h := by
    obtain ⟨rfl, hi⟩ := h
    match i, hi with
    | 0, _ => exact ⟨fun _ => rfl, fits_int nofun (by decide), fun _ => rfl, fits_int nofun (by decide), trivial⟩
    | 1, _ => exact ⟨fun _ => rfl, fits_int nofun (by decide), trivial⟩
    | 2, _ =>
      exact ⟨fun _ => by decide, fits_point (by decide), fun _ => by decide, fits_point (by decide), fun _ => by decide, fits_colors (by decide), trivial⟩
  exports e he := by
    simp only [es, List.mem_cons, List.not_mem_nil, or_false] at he
    rcases he with rfl | rfl | rfl | rfl
    · exact ⟨fun _ => by decide, fits_color (by decide), fun _ => rfl, trivial, trivial⟩
    · exact ⟨fun _ => by decide, fits_line (by decide), trivial⟩
    · exact ⟨fun _ => rfl, fits_int nofun (by decide), trivial⟩
    · exact ⟨fun _ => by decide, fits_line (by decide), fun _ => by decide, fits_cb (by decide), fun _ => by decide, fits_color (by decide), trivial⟩
  functions f hf := by
    simp only [es, List.mem_cons, List.not_mem_nil, or_false, Export.fn.injEq, reduceCtorEq, false_or] at hf
    rcases hf with rfl | rfl <;> rfl

theorem distinct : DistinctNames es := by
  intro e he e' he' h
  simp only [es, List.mem_cons, List.not_mem_nil, or_false] at he he'
  rcases he with rfl | rfl | rfl | rfl <;> rcases he' with rfl | rfl | rfl | rfl <;>
    first | rfl | exact absurd h (by decide)

end Sample

/-! ### C39 -/

/-- C39: a header declares every type name and every function name at most once. For every program, also
if the writer fails. -/
theorem C39_once (P : Prog) (m : Nat) (c : Config) (es : List Export) (k : Sink) :
    ((generated P m c es k).1.items.filterMap (declaredName P)).Nodup := by
  obtain ⟨new, h⟩ := traced_generate P m c es k ⟨[], [], 0, []⟩
  rw [generated, h.items]
  simpa using h.nodup

/-- C39: the definition of a type comes after those of the types that it mentions, and before the
functions and constants that mention it. Also if the writer fails. Missing: programs with types that are
recursive through pointers, `isize` in C and cffi headers, aliases in cffi headers that are used
both directly and within another type, functions with the name of a type, and different aliases with
the same name in C# and cffi headers: see the theorems `C39_fails_…`. -/
theorem C39_order_partial (P : Prog) (o : Order) (bound m : Nat) (c : Config) (es : List Export) (k : Sink)
    (h : NonRecursive P o c.lang bound es) : WellOrdered P (generated P m c es k).1.items :=
  (generate_run h m ordered_subset k ⟨[], [], 0, []⟩ (fun _ => False) nofun nofun (by
    intro pre it post e; simp at e)).1

example (lang : Lang) (stable : Bool) (k : Sink) : WellOrdered Sample.P (generated Sample.P 7 (Sample.cfg lang stable) Sample.es k).1.items :=
  C39_order_partial Sample.P Sample.order 7 7 _ _ k (Sample.nonRecursive lang)

/-- The items of the sample: the definitions in between are not in the order of the exports. -/
example : (generated Sample.P 7 (Sample.cfg .c true) Sample.es okSink).1.items.filterMap (declaredName Sample.P) =
    [t!"Point_t", t!"Color_t", t!"Color_2_array_t", t!"Line_t", t!"draw", t!"fill"] := by decide +kernel

theorem not_ordered {P : Prog} {items : List Item} (i : Nat) (n : Text) (h1 : n ∈ (items[i]?.map (uses P)).getD [])
    (h2 : n ∉ (items.take i).flatMap (provides P)) : ¬ WellOrdered P items := by
  intro hw
  cases hi : items[i]? with
  | none => rw [hi] at h1; cases h1
  | some it =>
    rw [hi] at h1
    obtain ⟨hlt, he⟩ := List.getElem?_eq_some_iff.1 hi
    have hs : items = items.take i ++ it :: items.drop (i + 1) := by
      rw [← he, List.getElem_cons_drop, List.take_append_drop]
    obtain ⟨it', h3, h4⟩ := hw _ _ _ hs n h1
    exact h2 (List.mem_flatMap.2 ⟨it', h3, h4⟩)

namespace Sample

/-- `struct A { b: B }`, `struct B { a: *mut A }` -/
def recursive : Prog where
  base | 0 => t!"A" | _ => t!"B"
  decl
    | 0, _ => .struct [] 8 [⟨[], t!"b", .adt 1 [], 8, 8⟩]
    | _, _ => .struct [] 8 [⟨[], t!"a", .mutPtr (.adt 0 []), 8, 8⟩]
  size _ := 8

def one (ty : CTy) : List Export := [.fn ⟨[], t!"f", [⟨t!"x", ty⟩], .void⟩]

def id : CTy := .alias t!"Id" [] (.int .u32)

end Sample

/-- C39 fails for types that are recursive through a pointer, in every language: `struct A { b: B }` and
`struct B { a: *mut A }` with a function that takes a `B`. The definition of `A`, which contains a `B`, comes before
that of `B`. -/
theorem C39_fails_recursive (lang : Lang) :
    (generated Sample.recursive 9 (Sample.cfg lang true) (Sample.one (.adt 1 [])) okSink).2 = none ∧
    ¬ WellOrdered Sample.recursive (generated Sample.recursive 9 (Sample.cfg lang true) (Sample.one (.adt 1 [])) okSink).1.items := by
  cases lang with
  | c => exact ⟨by decide +kernel, not_ordered 2 t!"B_t" (by decide +kernel) (by decide +kernel)⟩
  | csharp => exact ⟨by decide +kernel, not_ordered 2 t!"B_t" (by decide +kernel) (by decide +kernel)⟩
  | python => exact ⟨by decide +kernel, not_ordered 1 t!"B_t" (by decide +kernel) (by decide +kernel)⟩

/-- C39 fails for `isize`: C headers mention `ssize_t`, which neither `<stddef.h>` nor `<stdint.h>` define. -/
theorem C39_fails_isize :
    (generated Sample.P 9 (Sample.cfg .c true) (Sample.one (.int .isize)) okSink).2 = none ∧
    ¬ WellOrdered Sample.P (generated Sample.P 9 (Sample.cfg .c true) (Sample.one (.int .isize)) okSink).1.items :=
  ⟨by decide +kernel, not_ordered 3 t!"ssize_t" (by decide +kernel) (by decide +kernel)⟩

/-- C39 fails for aliases in cffi headers: for `fn f(x: Id, y: *const Id)` the name `Id_t` occurs but is
never defined. -/
theorem C39_fails_python_alias :
    (generated Sample.P 9 (Sample.cfg .python true) [.fn ⟨[], t!"f", [⟨t!"x", Sample.id⟩, ⟨t!"y", .constPtr Sample.id⟩], .void⟩] okSink).2 = none ∧
    ¬ WellOrdered Sample.P (generated Sample.P 9 (Sample.cfg .python true)
      [.fn ⟨[], t!"f", [⟨t!"x", Sample.id⟩, ⟨t!"y", .constPtr Sample.id⟩], .void⟩] okSink).1.items :=
  ⟨by decide +kernel, not_ordered 2 t!"Id_t" (by decide +kernel) (by decide +kernel)⟩

/-- C39 fails if a function has the name of a type: `fn Point_t(p: Point)`. The type is not defined. -/
theorem C39_fails_fn_named_like_type :
    (generated Sample.P 9 (Sample.cfg .c true) [.fn ⟨[], t!"Point_t", [⟨t!"p", Sample.point⟩], .void⟩] okSink).2 = none ∧
    ¬ WellOrdered Sample.P (generated Sample.P 9 (Sample.cfg .c true) [.fn ⟨[], t!"Point_t", [⟨t!"p", Sample.point⟩], .void⟩] okSink).1.items :=
  ⟨by decide +kernel, not_ordered 2 t!"Point_t" (by decide +kernel) (by decide +kernel)⟩

/-- C39 fails for two aliases with the same name in C#: of the second, the type that it stands for is not
defined. -/
theorem C39_fails_same_alias :
    (generated Sample.P 9 (Sample.cfg .csharp true)
      [.fn ⟨[], t!"f", [⟨t!"x", Sample.id⟩, ⟨t!"y", .alias t!"Id" [] Sample.point⟩], .void⟩] okSink).2 = none ∧
    ¬ WellOrdered Sample.P (generated Sample.P 9 (Sample.cfg .csharp true)
      [.fn ⟨[], t!"f", [⟨t!"x", Sample.id⟩, ⟨t!"y", .alias t!"Id" [] Sample.point⟩], .void⟩] okSink).1.items :=
  ⟨by decide +kernel, not_ordered 2 t!"Point_t" (by decide +kernel) (by decide +kernel)⟩

/-! ### C40 -/

/-- C40: with `stable_header`, the header depends only on the set of the exports, not on the order in which
the linker registered them. (The exports have distinct names. For every writer.) -/
theorem C40 (P : Prog) (m : Nat) (c : Config) (hc : c.stable = true) (es es' : List Export)
    (hd : DistinctNames es) (h : ∀ e, e ∈ es ↔ e ∈ es') (k : Sink) : generated P m c es k = generated P m c es' k := by
  have hd' : DistinctNames es' := fun a ha b hb => hd a ((h a).2 ha) b ((h b).2 hb)
  have : ordered c.stable es = ordered c.stable es' := by
    rw [hc]
    exact sorted_ext (toMap_sorted es) (toMap_sorted es') fun x =>
      (mem_toMap_distinct hd x).trans ((h x).trans (mem_toMap_distinct hd' x).symm)
  rw [generated, generated, generate, generate, this]

example (k : Sink) : generated Sample.P 7 (Sample.cfg .c true) Sample.es k = generated Sample.P 7 (Sample.cfg .c true) Sample.es.reverse k :=
  C40 _ _ _ rfl _ _ Sample.distinct (fun _ => List.mem_reverse.symm) k

/-- C40: and the functions and constants are declared in the alphabetical order of their names. -/
theorem C40_sorted (P : Prog) (m : Nat) (c : Config) (hc : c.stable = true) (es : List Export) (k : Sink) :
    (((generated P m c es k).1.items.filterMap exported).map fun x => x.2.name).Pairwise Before := by
  obtain ⟨p, h1, h2, _⟩ := exports_generate P m c es k ⟨[], [], 0, []⟩
  rw [generated, h1, List.filterMap_nil, List.nil_append, List.pairwise_map]
  have hs : (((ordered c.stable es).filter isValue).map (c.lang, ·)).Pairwise fun a b => Before a.2.name b.2.name := by
    rw [List.pairwise_map, hc]
    exact ((toMap_sorted es).sublist List.filter_sublist).imp fun h => ltText_before.1 h
  exact hs.sublist h2.sublist

example : ((generated Sample.P 7 (Sample.cfg .c true) Sample.es okSink).1.items.filterMap exported).map (fun x => x.2.name) =
    [t!"WIDTH", t!"draw", t!"fill"] := by decide +kernel

/-- Without `stable_header` the order of the registry shows. -/
theorem C40_unstable : (generated Sample.P 7 (Sample.cfg .c false) Sample.es okSink).1.out ≠
    (generated Sample.P 7 (Sample.cfg .c false) Sample.es.reverse okSink).1.out := by decide +kernel

/-! ### C41 -/

/-- The text of the items. -/
theorem out_eq {P : Prog} {m : Nat} {c : Config} {es : List Export} {k : Sink} (h : (generated P m c es k).2 = none) :
    (generated P m c es k).1.out = flat ((generated P m c es k).1.items.flatMap fun it => (render P it).writes) := by
  obtain ⟨new, h'⟩ := traced_generate P m c es k ⟨[], [], 0, []⟩
  have e1 := h'.items
  have e2 := h'.out h
  rw [List.nil_append] at e1 e2
  rw [generated, e1, e2]

theorem infix_of_mem {P : Prog} {items : List Item} {it : Item} (h : it ∈ items) :
    Infix (flat (render P it).writes) (flat (items.flatMap fun it => (render P it).writes)) := by
  obtain ⟨s, t, rfl⟩ := List.append_of_mem h
  refine ⟨flat (s.flatMap fun it => (render P it).writes), flat (t.flatMap fun it => (render P it).writes), ?_⟩
  rw [List.flatMap_append, List.flatMap_cons, flat_append, flat_append, ← List.append_assoc]

theorem items_exported {P : Prog} {m : Nat} {c : Config} {es : List Export} {k : Sink} (h : (generated P m c es k).2 = none) :
    (generated P m c es k).1.items.filterMap exported = ((ordered c.stable es).filter isValue).map (c.lang, ·) := by
  obtain ⟨p, h1, _, h3⟩ := exports_generate P m c es k ⟨[], [], 0, []⟩
  rw [generated, h1, h3 h]
  rfl

/-- C41: if generation succeeds, all exported functions and constants are declared, in the given language, and
nothing else. (With `stable_header`, if the names of the exports are distinct: see `C41_fails_…`. Without, if
none is registered twice.) -/
theorem C41_all_partial (P : Prog) (m : Nat) (c : Config) (es : List Export) (k : Sink) (h : (generated P m c es k).2 = none)
    (hd : c.stable = true → DistinctNames es) (e : Lang × Export) :
    e ∈ (generated P m c es k).1.items.filterMap exported ↔ e.1 = c.lang ∧ e.2 ∈ es ∧ isValue e.2 = true := by
  rw [items_exported h, List.mem_map]
  constructor
  · rintro ⟨x, hx, rfl⟩
    obtain ⟨h1, h2⟩ := List.mem_filter.1 hx
    exact ⟨rfl, (mem_ordered hd x).1 h1, h2⟩
  · rintro ⟨h1, h2, h3⟩
    exact ⟨e.2, List.mem_filter.2 ⟨(mem_ordered hd _).2 h2, h3⟩, by rw [← h1]⟩

/-- C41: the declaration of every exported function, as in C49, is part of the header. -/
theorem C41_functions_partial (P : Prog) (m : Nat) (c : Config) (es : List Export) (k : Sink) (h : (generated P m c es k).2 = none)
    (hd : c.stable = true → DistinctNames es) (f : Fn) (hf : .fn f ∈ es) :
    Infix (flat (emitFunction P.base c.lang f.docs f.name f.args f.ret)) (generated P m c es k).1.out := by
  obtain ⟨it, h1, h2⟩ := List.mem_filterMap.1 ((C41_all_partial P m c es k h hd (c.lang, .fn f)).2 ⟨rfl, hf, rfl⟩)
  have : it = .func c.lang f := by
    cases it <;> first | cases h2 | skip
    rfl
  rw [out_eq h]
  have hi := infix_of_mem (P := P) h1
  rw [this] at hi
  exact hi

/-- C41: and of every exported constant, except untyped ones in C# (see `C41_fails_untyped_csharp`). -/
theorem C41_constants_partial (P : Prog) (m : Nat) (c : Config) (es : List Export) (k : Sink) (h : (generated P m c es k).2 = none)
    (hd : c.stable = true → DistinctNames es) (x : Const) (hx : .const x ∈ es) :
    Infix (flat (emitConstant P.base c.lang x.docs x.name x.ty x.untyped x.value)) (generated P m c es k).1.out := by
  obtain ⟨it, h1, h2⟩ := List.mem_filterMap.1 ((C41_all_partial P m c es k h hd (c.lang, .const x)).2 ⟨rfl, hx, rfl⟩)
  have : it = .const c.lang x := by
    cases it <;> first | cases h2 | skip
    rfl
  rw [out_eq h]
  have hi := infix_of_mem (P := P) h1
  rw [this] at hi
  exact hi

/-- C41: every exported type is defined, in the programs of `C39_order_partial`. -/
theorem C41_types_partial (P : Prog) (o : Order) (bound m : Nat) (c : Config) (es : List Export) (k : Sink)
    (hn : NonRecursive P o c.lang bound es) (h : (generated P m c es k).2 = none)
    (hd : c.stable = true → DistinctNames es) (x : Text) (ty : CTy) (hx : .type x ty ∈ es) :
    ∀ n ∈ mentions P.base c.lang ty, ∃ it ∈ (generated P m c es k).1.items, n ∈ provides P it := by
  have := (generate_run hn m ordered_subset k ⟨[], [], 0, []⟩ (fun _ => False) nofun nofun (by
    intro pre it post e; simp at e)).2.2 h
  exact this.2 _ ((mem_ordered hd _).2 hx)

/-- C41: if no struct is refused (C63) and the names of the functions are distinct, generation succeeds. -/
theorem C41_succeeds (P : Prog) (o : Order) (bound m : Nat) (c : Config) (es : List Export)
    (hn : NonRecursive P o c.lang bound es) (hm : bound ≤ m)
    (hp : ∀ lang i g, o.used lang i g → (renderDecl P lang (.adt i g) (P.decl i g)).panics = false)
    (hd : c.stable = true ∨ (es.filterMap fnName).Nodup) : (generated P m c es okSink).2 = none := by
  obtain ⟨st, h1, h2⟩ := generate_ok P m c es
  rw [h2]
  refine genAll_ok hn hm hp ordered_subset ?_ st fun f _ => by rw [h1]; nofun
  cases hs : c.stable with
  | true => exact sorted_fnNames (toMap_sorted es)
  | false =>
    have := hd.resolve_left (by rw [hs]; decide)
    exact ((List.reverse_perm es).filterMap fnName).nodup_iff.2 this

theorem Sample.no_panic (lang : Lang) (i : Nat) (g : List CTy) (h : Sample.order.used lang i g) :
    (renderDecl Sample.P lang (.adt i g) (Sample.P.decl i g)).panics = false := by
  obtain ⟨rfl, hi⟩ := h
  match i, hi with
  | 0, _ => cases lang <;> decide +kernel
  | 1, _ => rfl
  | 2, _ => cases lang <;> decide +kernel

theorem Sample.succeeds (lang : Lang) (stable : Bool) : (generated Sample.P 7 (Sample.cfg lang stable) Sample.es okSink).2 = none :=
  C41_succeeds Sample.P Sample.order 7 7 _ _ (Sample.nonRecursive lang) (Nat.le_refl _) Sample.no_panic (.inr (by decide +kernel))

example (lang : Lang) (stable : Bool) :
    Infix (flat (emitFunction Sample.names lang [] t!"draw" Sample.draw.args Sample.color))
      (generated Sample.P 7 (Sample.cfg lang stable) Sample.es okSink).1.out :=
  C41_functions_partial _ _ _ _ _ (Sample.succeeds lang stable) (fun _ => Sample.distinct) Sample.draw (by simp [Sample.es])

/-- Function names are among the declared names. -/
theorem fnNames_sublist (P : Prog) (items : List Item) :
    (((items.filterMap exported).map (·.2)).filterMap fnName).Sublist (items.filterMap (declaredName P)) := by
  induction items with
  | nil => exact .slnil
  | cons it items ih =>
    have skip : exported it = none → (((List.filterMap exported (it :: items)).map (·.2)).filterMap fnName).Sublist ((it :: items).filterMap (declaredName P)) := by
      intro h
      rw [List.filterMap_cons, h, List.filterMap_cons]
      cases declaredName P it with
      | none => exact ih
      | some n => exact ih.cons _
    cases it with
    | func lang f => exact ih.cons_cons _
    | const lang c => exact ih
    | intHeaders => exact skip rfl
    | boolHeader => exact skip rfl
    | type _ _ => exact skip rfl
    | text _ => exact skip rfl

/-- C41: without `stable_header`, two functions with the same name make generation fail, with every writer. -/
theorem C41_duplicates (P : Prog) (m : Nat) (c : Config) (es : List Export) (k : Sink) (hs : c.stable = false)
    (hd : ¬ (es.filterMap fnName).Nodup) : (generated P m c es k).2 ≠ none := by
  intro h
  apply hd
  have h1 := items_exported h
  have h2 := C39_once P m c es k
  have h3 : (((generated P m c es k).1.items.filterMap exported).map (·.2)).filterMap fnName = es.reverse.filterMap fnName := by
    rw [h1, List.map_map, hs]
    show List.filterMap fnName (List.map _root_.id (List.filter isValue es.reverse)) = _
    rw [List.map_id, List.filterMap_filter]
    refine congrArg (fun f => List.filterMap f es.reverse) (funext fun e => ?_)
    cases e <;> rfl
  have h4 := (fnNames_sublist P _).nodup h2
  rw [h3] at h4
  exact ((List.reverse_perm es).filterMap fnName).nodup_iff.1 h4

/-- C41: with a writer that does not fail, this is the error. -/
theorem C41_already_exists (P : Prog) (o : Order) (bound m : Nat) (c : Config) (es : List Export)
    (hn : NonRecursive P o c.lang bound es) (hm : bound ≤ m)
    (hp : ∀ lang i g, o.used lang i g → (renderDecl P lang (.adt i g) (P.decl i g)).panics = false)
    (hs : c.stable = false) (hd : ¬ (es.filterMap fnName).Nodup) : (generated P m c es okSink).2 = some .alreadyExists := by
  refine Or.resolve_left ?_ (C41_duplicates P m c es okSink hs hd)
  obtain ⟨st, _, h2⟩ := generate_ok P m c es
  rw [h2]
  exact genAll_err hn hm hp ordered_subset st

example : (generated Sample.P 7 (Sample.cfg .c false) (.fn { Sample.fill with name := t!"draw" } :: Sample.es) okSink).2 = some .alreadyExists := by
  decide +kernel

/-- C41 fails with `stable_header`: of two exports with the same name, one is dropped without an error. Here, two
functions. -/
theorem C41_fails_stable_duplicates (lang : Lang) :
    (generated Sample.P 7 (Sample.cfg lang true) [.fn Sample.draw, .fn { Sample.fill with name := t!"draw" }] okSink).2 = none ∧
    ((generated Sample.P 7 (Sample.cfg lang true) [.fn Sample.draw, .fn { Sample.fill with name := t!"draw" }] okSink).1.items.filterMap
      exported).length = 1 := by
  cases lang <;> exact ⟨by decide +kernel, by decide +kernel⟩

/-- C41 fails with `stable_header`: a function and a type with the same name, which Rust allows. The function is
not declared. -/
theorem C41_fails_same_name (lang : Lang) :
    (generated Sample.P 7 (Sample.cfg lang true) [.fn { Sample.fill with name := t!"Point" }, .type t!"Point" Sample.point] okSink).2 = none ∧
    (generated Sample.P 7 (Sample.cfg lang true) [.fn { Sample.fill with name := t!"Point" }, .type t!"Point" Sample.point] okSink).1.items.filterMap
      (declaredName Sample.P) = [t!"Point_t"] := by
  cases lang <;> exact ⟨by decide +kernel, by decide +kernel⟩

/-- C41 fails in C# for constants that are exported as untyped: nothing is written. -/
theorem C41_fails_untyped_csharp (b : Nat → Text) (docs : List Text) (nm : Text) (ty : CTy) (value : Text) :
    emitConstant b .csharp docs nm ty true value = [] := rfl

/-! ### C42 -/

/-- C42: if a call of the writer fails, generation stops there and returns that error, and what the writer has
accepted is a prefix of the whole header. -/
theorem C42 (P : Prog) (m : Nat) (c : Config) (es : List Export) (k : Sink) (i j e : Nat)
    (hi : i < (generated P m c es okSink).1.calls) (hk : k i = some (j, e)) (hfirst : ∀ i' < i, k i' = none) :
    (generated P m c es k).2 = some (.io e) ∧ (generated P m c es k).1.calls = i + 1 ∧
    (generated P m c es k).1.out <+: (generated P m c es okSink).1.out := by
  obtain ⟨_, _, h⟩ := obeys_generate P m c es k ⟨[], [], 0, []⟩
  rcases h with ⟨h1, h2⟩ | ⟨j', e', h1, _, h2, h3, h4, h5⟩
  · have := h2 i (Nat.zero_le _) (by rw [h1]; exact hi)
    rw [hk] at this
    cases this
  · have hc : (generate P m c es k ⟨[], [], 0, []⟩).1.calls = i + 1 := by
      rcases Nat.lt_trichotomy i ((generate P m c es k ⟨[], [], 0, []⟩).1.calls - 1) with hl | hl | hl
      · have := h5 i (Nat.zero_le _) (by omega)
        rw [hk] at this
        cases this
      · have : 0 < (generate P m c es k ⟨[], [], 0, []⟩).1.calls := h1
        omega
      · have := hfirst _ hl
        rw [h2] at this
        cases this
    rw [hc, Nat.add_sub_cancel, hk] at h2
    cases h2
    exact ⟨h3, hc, h4⟩

/-- C42: if no call fails, the whole header is written. -/
theorem C42_whole (P : Prog) (m : Nat) (c : Config) (es : List Export) (k : Sink)
    (h : ∀ i < (generated P m c es okSink).1.calls, k i = none) : generated P m c es k = generated P m c es okSink := by
  obtain ⟨_, _, h'⟩ := obeys_generate P m c es k ⟨[], [], 0, []⟩
  rcases h' with ⟨h1, _⟩ | ⟨j', e', h1, h0, h2, _⟩
  · exact h1
  · have := h ((generate P m c es k ⟨[], [], 0, []⟩).1.calls - 1) (Nat.lt_of_lt_of_le (by omega) h0)
    rw [h2] at this
    cases this

/-- A writer whose fifth call accepts two characters and fails with error 28. -/
def fullDisk : Sink := fun i => if i = 4 then some (2, 28) else none

example : (generated Sample.P 7 (Sample.cfg .c true) Sample.es fullDisk).2 = some (.io 28) ∧
    (generated Sample.P 7 (Sample.cfg .c true) Sample.es fullDisk).1.out <+: (generated Sample.P 7 (Sample.cfg .c true) Sample.es okSink).1.out :=
  have h := C42 Sample.P 7 (Sample.cfg .c true) Sample.es fullDisk 4 2 28 (by decide +kernel) rfl (fun i hi => if_neg (by omega))
  ⟨h.1, h.2.2⟩

end Verif.Headers
