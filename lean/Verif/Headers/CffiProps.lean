import Verif.Headers.CffiKeep
import Verif.Headers.CheckProps
/-!
# C90: cffi and Rust agree about the types and functions of a Python header

For every program whose names and texts are fine, and every target.
-/
namespace Verif.Headers
open Text Layout

section
variable {P : Prog} {m : Nat} {c : Config} {es : List Export} {k : Sink}

/-! ### Reading -/

/-- The lines of a header. -/
theorem cdef_lines (hb : c.banner = none) (h : (generated P m c es k).2 = none) {body : List Item}
    (hi : (generated P m c es k).1.items = .text c.writeBanner :: body) :
    split '\n' (code .code (generated P m c es k).1.out) = [[], [], []] ++ split '\n' (code .code (flat (body.flatMap fun it => (render P it).writes))) := by
  obtain ⟨s, e1, e2, e3⟩ := default_banner c hb c.guardName
  have hout : (generated P m c es k).1.out = s ++ '\n' :: flat (body.flatMap fun it => (render P it).writes) := by
    rw [out_eq h, hi, List.flatMap_cons, flat_append, show flat (render P (.text c.writeBanner)).writes = c.writeBanner by simp [render, flat], e1]
    simp
  rw [hout, e2.lines, e3]

theorem cdef_reads (fl : Bool) (hb : c.banner = none) (h : (generated P m c es k).2 = none) {body : List Item}
    (hi : (generated P m c es k).1.items = .text c.writeBanner :: body)
    (hbody : ∀ it ∈ body, (it = .intHeaders ∨ it = .boolHeader → fl = true) ∧ CdefItem P it ∧ (render P it).panics = false) :
    CdefReads fl (generated P m c es k).1.out ⟨(body.flatMap (rawEntry P)).map undot, body.flatMap itemMacros⟩ := by
  obtain ⟨toks, ⟨ls, ks, h1, h2, h3⟩, h4⟩ := ck_items hbody
  refine ⟨[[], [], []] ++ (ks ++ [[]]), body.flatMap (rawEntry P), ?_, ?_, rfl⟩
  · have := h1 []
    rw [List.append_nil, lines_nil] at this
    rw [cdef_lines hb h hi, this, cdefLines_append, cdefLines_append, h2]
    show some _ = some _
    simp
  · have e : ([[], [], []] ++ (ks ++ [[]])).flatMap (fun l => dots (lex l)) = toks := by
      have : dtoks ([[], [], []] ++ (ks ++ [[]])) = toks := by
        rw [dtoks_append, dtoks_append, h3]
        show [] ++ (toks ++ []) = toks
        simp
      exact this
    rw [e]
    exact h4.reads

/-- The C header of the same program. -/
def twin (c : Config) : Config := ⟨.c, c.stable, [], some t!"G", none, none⟩

theorem twin_fine (hf : CdefFine P c es) : Fine P (twin c) es where
  lang := rfl
  banner := rfl
  after := rfl
  guard := (by decide : IsWord t!"G" ∧ t!"G" ≠ t!"__cplusplus" ∧ t!"G" ≠ t!"DOXYGEN")
  sorted := hf.sorted
  declarable := hf.declarable

theorem cdef_item (hf : CdefFine P c es) {D : List Text} {it : Item} (h1 : PyItem P es it) (h2 : Fits P es D (toC it)) : CdefItem P it := by
  have hal : ∀ t, Reach P es t → isAlias t = false := fun t ht => by
    cases t with
    | alias rn docs t => exact absurd ht (hf.aliases _ _ _)
    | _ => rfl
  have hd := hf.declarable
  cases it with
  | type lang t =>
    obtain ⟨_, hn, hr, _⟩ := h2
    obtain ⟨w1, w2, w3⟩ := hd.types t hr
    cases t with
    | adt i g =>
      refine ⟨h1, hn, rfl, w1, w3, fun docs size fs e f hfs => ?_, fun docs int vs e => .inr (hf.enums i g docs int vs hr e)⟩
      have := hr.field e hfs
      exact ⟨(hd.types _ this).1, (hd.types _ this).2.1, hal _ this⟩
    | array n item => exact ⟨.inl h1, hn, rfl, w1, w3, h1, (hd.types _ hr.item).2.1⟩
    | alias rn docs t => exact absurd hr (hf.aliases _ _ _)
    | _ => cases hn
  | func lang f =>
    have hr : ∀ t ∈ Export.types (.fn f), Reach P es t := fun t ht => .export h2.2 ht
    have ha : ∀ a ∈ f.args, Reach P es a.ty := fun a ha => hr _ (by rw [Export.types]; simp; exact .inl ⟨a, ha, rfl⟩)
    have hret : Reach P es f.ret := hr _ (by rw [Export.types]; simp)
    exact ⟨h1, hd.exports _ h2.2, fun a h => ⟨(hd.types _ (ha a h)).1, (hd.types _ (ha a h)).2.1, hal _ (ha a h)⟩, (hd.types _ hret).1,
      (hd.types _ hret).2.1, hal _ hret⟩
  | const lang c => exact ⟨h1, hd.exports _ h2.2⟩
  | text s => exact h1.elim
  | _ => trivial

/-- cffi reads the declarations of the C header. -/
theorem header_cdef {c' : Config} (fl : Bool) (hf : CdefFine P c es) (hc' : Fine P c' es) (hs : c'.stable = c.stable)
    (h : (generated P m c es k).2 = none) (hfl : fl = true ∨ ¬ NeedsInt P es ∧ ¬ Reach P es .bool) :
    (generated P m c' es okSink).2 = none ∧ ∃ ms, CdefReads fl (generated P m c es k).1.out ⟨(generated P m c' es okSink).1.items.flatMap (entry P), ms⟩ ∧
      ∀ n, n ∈ ms ↔ ∃ x : Const, .const x ∈ es ∧ x.name = n := by
  obtain ⟨hok, body, p, e, hi, hbody, hp, he, hi'⟩ := header_twin hf hc'.lang hs h
  refine ⟨hok, body.flatMap itemMacros, ?_, fun n => ?_⟩
  · obtain ⟨p', e', body', D, hp', he', hi'', hfit, hx1, hx2⟩ := header_cov hc'.lang hc'.sorted hok
    obtain rfl : body' = body.map toC := by
      rw [hi'] at hi''
      have h1 := (List.cons.inj (List.cons.inj hi'').2).2
      exact (List.append_inj' h1 rfl).1.symm
    have hitems : ∀ it ∈ body, CdefItem P it ∧ ∀ lang i g docs int vs, it = .type lang (.adt i g) → P.decl i g = .enum docs int vs → int = none := by
      intro it hit
      have hx := (hfit (toC it) (List.mem_map.2 ⟨it, hit, rfl⟩)).1
      refine ⟨cdef_item hf (hbody it hit).1 hx, ?_⟩
      rintro lang i g docs int vs rfl hd
      exact hf.enums i g docs int vs hx.2.2.1 hd
    have := cdef_reads fl hf.banner h hi fun it hit => ⟨?_, (hitems it hit).1, (hbody it hit).2⟩
    · have e1 : (body.flatMap (rawEntry P)).map undot = (generated P m c' es okSink).1.items.flatMap (entry P) := by
        rw [hi', List.flatMap_cons, List.flatMap_cons, List.flatMap_append]
        show _ = [] ++ ([] ++ (_ ++ []))
        rw [List.nil_append, List.nil_append, List.append_nil]
        clear hi hi' hi'' hfit this hbody hx1 hx2
        induction body with
        | nil => rfl
        | cons it body ih =>
          rw [List.flatMap_cons, List.map_append, ih fun it hit => hitems it (by simp [hit]), List.map_cons, List.flatMap_cons, entry_toC,
            raw_undot (hitems it (by simp)).1 (hitems it (by simp)).2]
      rw [e1] at this
      exact this
    · have hx := (hbody it hit).1
      rintro (rfl | rfl)
      · exact hfl.elim id fun ⟨h1, _⟩ => absurd hx h1
      · exact hfl.elim id fun ⟨_, h1⟩ => absurd hx h1
  · have hx := items_exported h
    rw [hi, List.filterMap_cons_none rfl] at hx
    have key : n ∈ body.flatMap itemMacros ↔ ∃ x : Const, (Lang.python, Export.const x) ∈ body.filterMap exported ∧ x.name = n := by
      rw [List.mem_flatMap]
      constructor
      · rintro ⟨it, hit, hn⟩
        cases it with
        | const lang x =>
          have hl : lang = .python := (hbody _ hit).1
          subst hl
          exact ⟨x, List.mem_filterMap.2 ⟨_, hit, rfl⟩, (List.mem_singleton.1 hn).symm⟩
        | _ => cases hn
      · rintro ⟨x, hx, rfl⟩
        obtain ⟨it, h1, h2⟩ := List.mem_filterMap.1 hx
        refine ⟨it, h1, ?_⟩
        cases it with
        | const lang y => simp only [exported, Option.some.injEq, Prod.mk.injEq, Export.const.injEq] at h2; rw [h2.2]; simp [itemMacros]
        | _ => simp [exported] at h2
    rw [key, hx, hf.lang]
    constructor
    · rintro ⟨x, h1, h2⟩
      obtain ⟨y, h3, h4⟩ := List.mem_map.1 h1
      injection h4 with _ h4
      rw [h4] at h3
      exact ⟨x, (mem_ordered hf.sorted _).1 (List.mem_filter.1 h3).1, h2⟩
    · rintro ⟨x, h1, h2⟩
      exact ⟨x, List.mem_map.2 ⟨_, List.mem_filter.2 ⟨(mem_ordered hf.sorted _).2 h1, rfl⟩, rfl⟩, h2⟩

end

/-! ### C90 -/

/-- **C90 (types).** If there are no aliases, no enums with an integer of their own and no two types of the same name, and the user removes the `#include`
lines: cffi reads the Python header, and gives every type that the exports mention the size, the alignment and the scalars that it has in Rust. -/
theorem C90_types_partial (P : Prog) (m : Nat) (c : Config) (es : List Export) (k : Sink) (hf : CdefFine P c es) (hu : Unambiguous P es)
    (h : (generated P m c es k).2 = none) :
    ∃ f, CdefReads true (generated P m c es k).1.out f ∧
      ∀ A t s, Reach P es t → RShape A P t s → (s.lay A).1 ≠ 0 → ∃ s', CShape A f.env (ctype P.base t) s' ∧ SameAbi A s s' := by
  obtain ⟨hok, ms, hr, _⟩ := header_cdef true hf (twin_fine hf) rfl h (.inl rfl)
  exact ⟨_, hr, fun A _ _ hr hs h0 => RShape.same ((header_defines (twin_fine hf) hu hok).1 A) hs hr h0⟩

/-- **C90 (members).** Under the same conditions: cffi's struct has the fields of the Rust struct under their names, at the same offsets and
with the same contents, except for those without bytes. -/
theorem C90_members_partial (P : Prog) (m : Nat) (c : Config) (es : List Export) (k : Sink) (hf : CdefFine P c es) (hu : Unambiguous P es)
    (h : (generated P m c es k).2 = none) :
    ∃ f, CdefReads true (generated P m c es k).1.out f ∧
      ∀ A i g docs size fs ss, Reach P es (.adt i g) → P.decl i g = .struct docs size fs → RShapes A P fs ss →
        ∃ ms ss', f.env.lookup (cName P.base (.adt i g)) = some (.struct ms) ∧ CShapes A f.env ms ss' ∧
          All₂ (SameMember A) ((placed A 0 (fs.map (·.name)) ss).filter fun r => (r.2.2.lay A).1 ≠ 0) (placed A 0 (ms.map (·.1)) ss') := by
  obtain ⟨hok, ms, hr, _⟩ := header_cdef true hf (twin_fine hf) rfl h (.inl rfl)
  obtain ⟨env, h1, h2⟩ := C77_members_partial P m (twin c) es okSink (twin_fine hf) hu hok (fun _ _ => false) [] ⟨nofun, nofun, nofun⟩
  rw [h1.unique (header_env (twin_fine hf) hok ⟨nofun, nofun, nofun⟩)] at h2
  exact ⟨_, hr, h2⟩

/-- **C90 (functions).** Under the same conditions: cffi sees every exported function, with the parameters in order, under their names. Each of
them is passed as Rust expects it, and so is the result, except for `void` or a type without bytes. The constants that cffi asks the C compiler for
are the exported ones. -/
theorem C90_functions_partial (P : Prog) (m : Nat) (c : Config) (es : List Export) (k : Sink) (hf : CdefFine P c es) (hu : Unambiguous P es)
    (h : (generated P m c es k).2 = none) :
    ∃ f, CdefReads true (generated P m c es k).1.out f ∧
      (∀ n, n ∈ f.macros ↔ ∃ x : Const, .const x ∈ es ∧ x.name = n) ∧
      ∀ fn, .fn fn ∈ es → ∃ ret params, f.env.lookup fn.name = some (.fn ret params) ∧
        All₂ (fun (a : Arg) (p : Option Text × CT) => p.1 = some a.name ∧
          ∀ A s, RShape A P a.ty s → (s.lay A).1 ≠ 0 → ∃ s', CShape A f.env p.2 s' ∧ SameAbi A s s') fn.args params ∧
        (fn.ret = .void → ret = .name kvoid) ∧
        ∀ A s, RShape A P fn.ret s → (s.lay A).1 ≠ 0 → ∃ s', CShape A f.env ret s' ∧ SameAbi A s s' := by
  obtain ⟨hok, ms, hr, hm⟩ := header_cdef true hf (twin_fine hf) rfl h (.inl rfl)
  obtain ⟨env, h1, h2⟩ := C77_functions_partial P m (twin c) es okSink (twin_fine hf) hu hok (fun _ _ => false) [] ⟨nofun, nofun, nofun⟩
  rw [h1.unique (header_env (twin_fine hf) hok ⟨nofun, nofun, nofun⟩)] at h2
  exact ⟨_, hr, hm, h2⟩

/-- **C90 (accepted).** Under these conditions, if moreover no type is recursive, opaque types are only behind pointers and no name is reserved in C:
every declaration is accepted after those in front of it. -/
theorem C90_accepts_partial (P : Prog) (o : Order) (bound m : Nat) (c : Config) (es : List Export) (k : Sink) (hf : CdefFine P c es)
    (hu : Unambiguous P es) (hr : NonRecursive P o .c bound es) (hs : Solid P es) (h : (generated P m c es k).2 = none) :
    ∃ f, CdefReads true (generated P m c es k).1.out f ∧ Compiles f.env := by
  obtain ⟨hok, ms, hread, _⟩ := header_cdef true hf (twin_fine hf) rfl h (.inl rfl)
  obtain ⟨env, h1, h2⟩ := C86_compiles_partial P o bound m (twin c) es okSink (twin_fine hf) hu hr hs hok (fun _ _ => false) [] ⟨nofun, nofun, nofun⟩
  rw [h1.unique (header_env (twin_fine hf) hok ⟨nofun, nofun, nofun⟩)] at h2
  exact ⟨_, hread, h2⟩

/-- **C90 (C).** Under the same conditions: cffi reads in the Python header what C compilers read in the C header of the same program. -/
theorem C90_same_partial (P : Prog) (m : Nat) (c c' : Config) (es : List Export) (k : Sink) (hf : CdefFine P c es) (hc : Fine P c' es)
    (hs : c'.stable = c.stable) (h : (generated P m c es k).2 = none) :
    ∃ f, CdefReads true (generated P m c es k).1.out f ∧ (generated P m c' es okSink).2 = none ∧
      ∀ eval defs, Compiler c' defs → ReadsAs eval defs (generated P m c' es okSink).1.out f.env := by
  obtain ⟨hok, ms, hread, _⟩ := header_cdef true hf hc hs h (.inl rfl)
  exact ⟨_, hread, hok, fun eval defs hd => header_env hc hok hd⟩

/-- **C90 (as it is).** Without integers, enums and `bool`s, cffi reads the header also as it is, with the same result. -/
theorem C90_bare_partial (P : Prog) (m : Nat) (c : Config) (es : List Export) (k : Sink) (hf : CdefFine P c es)
    (hi : ∀ n, ¬ Reach P es (.int n)) (hb : ¬ Reach P es .bool) (he : ∀ i g docs int vs, Reach P es (.adt i g) → P.decl i g ≠ .enum docs int vs)
    (h : (generated P m c es k).2 = none) :
    ∃ f, CdefReads false (generated P m c es k).1.out f ∧ CdefReads true (generated P m c es k).1.out f := by
  have hn : ¬ NeedsInt P es := by
    rintro (⟨n, hn⟩ | ⟨i, g, docs, int, vs, h1, h2⟩)
    · exact hi n hn
    · exact he _ _ _ _ _ h1 h2
  obtain ⟨hok, body, p, e, hbi, hbody, hp, he, hi'⟩ := header_twin hf (twin_fine hf).lang rfl h
  obtain ⟨_, ms, h1, h2⟩ := header_cdef false hf (twin_fine hf) rfl h (.inr ⟨hn, hb⟩)
  obtain ⟨_, ms', h1', h2'⟩ := header_cdef true hf (twin_fine hf) rfl h (.inl rfl)
  refine ⟨_, h1, ?_⟩
  obtain ⟨ls, raw, a1, a2, a3⟩ := h1
  refine ⟨ls, raw, ?_, a2, a3⟩
  simp only at a1 ⊢
  have key : ∀ (ls : List Text) (x : List Text × List Text), cdefLines false ls = some x → cdefLines true ls = some x := by
    intro ls
    induction ls with
    | nil => exact fun _ h => h
    | cons l ls ih =>
      intro x h
      rw [cdefLines] at h ⊢
      split at h
      · cases hc : cdefLines false ls with
        | none => rw [hc] at h; cases h
        | some y => rw [ih y hc]; rw [hc] at h; exact h
      · split at h
        · next hx =>
          rw [if_pos hx]
          cases hc : cdefLines false ls with
          | none => rw [hc] at h; cases h
          | some y => rw [ih y hc]; rw [hc] at h; exact h
        · next hx =>
          rw [if_neg (fun h => by cases h.2)] at h
          cases h
  exact key _ _ a1

/-- **C90 (one meaning).** There is only one way to read a header, and each of its types has only one shape. -/
theorem C90_unique (stripped : Bool) (header : Text) (f f' : Cdef) (h : CdefReads stripped header f) (h' : CdefReads stripped header f') :
    f = f' ∧ ∀ A t s s', CShape A f.env t s → CShape A f'.env t s' → s = s' := by
  cases h.unique h'
  exact ⟨rfl, fun _ _ _ _ => CShape.unique⟩

/-- **C90** fails for every header with an `#include`: if an exported function or constant mentions an integer or `bool` (and no function has a name that
the generator uses for the `#include` lines), cffi rejects the header as it is. -/
theorem C90_fails_include (P : Prog) (m : Nat) (c : Config) (es : List Export) (k : Sink) (hf : CdefFine P c es)
    (hn : ∀ f, .fn f ∈ es → f.name ≠ t!"__int_headers__" ∧ f.name ≠ t!"bool") (h : (generated P m c es k).2 = none)
    (e : Export) (he : e ∈ es) (t : CTy) (ht : t ∈ e.types) (hi : (∃ n, t = .int n) ∨ t = .bool) (f : Cdef) :
    ¬ CdefReads false (generated P m c es k).1.out f := by
  obtain ⟨hok, body, p, e', hbi, hbody, hp, he', hi'⟩ := header_twin hf (twin_fine hf).lang rfl h
  obtain ⟨p', e'', body', D, hp', he'', hi'', hfit, _, _⟩ := header_cov (twin_fine hf).lang (twin_fine hf).sorted hok
  obtain rfl : body' = body.map toC := by
    rw [hi'] at hi''
    have h1 := (List.cons.inj (List.cons.inj hi'').2).2
    exact (List.append_inj' h1 rfl).1.symm
  have hitems : ∀ it ∈ body, CdefItem P it := fun it hit =>
    cdef_item hf (hbody it hit).1 (hfit (toC it) (List.mem_map.2 ⟨it, hit, rfl⟩)).1
  -- the lines of an item in the middle are lines of the header
  have mid : ∀ it ∈ body, ∀ l, (∀ rest, l ∈ split '\n' (code .code (flat (render P it).writes ++ rest))) →
      l ∈ split '\n' (code .code (generated P m c es k).1.out) := by
    intro it hit l hl
    obtain ⟨a, b, rfl⟩ := List.append_of_mem hit
    obtain ⟨toks, ⟨ls, ks, h1, _, _⟩, _⟩ := ck_items (fl := true) (P := P) (its := a) fun x hx =>
      ⟨fun _ => rfl, hitems x (by simp [hx]), (hbody x (by simp [hx])).2⟩
    rw [cdef_lines hf.banner h hbi, List.flatMap_append, List.flatMap_cons, flat_append, flat_append, h1]
    exact List.mem_append_right _ (List.mem_append_right _ (hl _))
  have fin : ∀ n it, hdrOf t = some (n, it) → (∀ f, .fn f ∈ es → f.name ≠ n) → ∀ l kk r,
      (∀ rest, l ∈ split '\n' (code .code (flat (render P it).writes ++ rest))) → directive l = some (kk, r) → kk ≠ t!"define" →
      ¬ CdefReads false (generated P m c es k).1.out f := by
    rintro n it h1 h2 l kk r h3 h4 h5 ⟨ls, raw, h6, _⟩
    have h7 := header_puts hf.lang hf.sorted h h1 h2 he ht
    rw [hbi] at h7
    have h8 : it ∈ body := (List.mem_cons.1 h7).resolve_left fun e => by
      rcases hdrOf_hdr h1 with ⟨_, e'⟩ | ⟨_, e'⟩ <;> rw [e'] at e <;> cases e
    rw [cdefLines_reject (mid it h8 l h3) h4 h5] at h6
    cases h6
  rcases hi with ⟨n, rfl⟩ | rfl
  · refine fin _ _ rfl (fun f hx => (hn f hx).1) t!"#include <stddef.h>" _ _ (fun rest => ?_) rfl (by decide)
    have e : flat (render P .intHeaders).writes ++ rest = [] ++ '\n' :: (t!"#include <stddef.h>" ++ '\n' :: (t!"#include <stdint.h>" ++ '\n' :: ([] ++ '\n' :: rest))) := rfl
    rw [e, lines_line (by decide) (by decide), lines_line (by decide) (by decide)]
    simp
  · refine fin _ _ rfl (fun f hx => (hn f hx).2) t!"#include <stdbool.h>" _ _ (fun rest => ?_) rfl (by decide)
    have e : flat (render P .boolHeader).writes ++ rest = [] ++ '\n' :: (t!"#include <stdbool.h>" ++ '\n' :: ([] ++ '\n' :: rest)) := rfl
    rw [e, lines_line (by decide) (by decide), lines_line (by decide) (by decide)]
    simp

/-! ### A sample -/

namespace Sample

/-- `struct Point { x: i32, y: i32 }`, `#[repr(C)] enum Color { Red, Blue }`,
`struct Line { from: Point, to: *const Point, colors: [Color; 2] }`, an opaque `struct Window` -/
def shapes : Prog where
  base | 0 => t!"Point" | 1 => t!"Color" | 2 => t!"Line" | _ => t!"Window"
  decl
    | 0, _ => .struct [] 8 [⟨[], t!"x", .int .i32, 4, 4⟩, ⟨[], t!"y", .int .i32, 4, 4⟩]
    | 1, _ => .enum [] none [⟨[], t!"Red", none⟩, ⟨[], t!"Blue", none⟩]
    | 2, _ => .struct [] 24 [⟨[], t!"from", point, 8, 4⟩, ⟨[], t!"to", .constPtr point, 8, 8⟩, ⟨[], t!"colors", .array 2 color, 8, 4⟩]
    | _, _ => .opaque []
  size _ := 8

def window : CTy := .adt 3 []

/-- `fn show(line: *const Line, cb: fn(Point) -> bool, on: *mut Window) -> Color` -/
def shown : Fn := ⟨[], t!"show", [⟨t!"line", .constPtr line⟩, ⟨t!"cb", .fptr .bool [point]⟩, ⟨t!"on", .mutPtr window⟩], color⟩

def drawing : List Export := [.fn fill, .type t!"Line" line, .const width, .fn shown, .type t!"Window" window]

def py (stable : Bool) : Config := cfg .python stable

def drawn : List CTy := [color, .void, line, .int .u32, .constPtr line, .fptr .bool [point], .bool, point, .int .i32, .constPtr point, .array 2 color,
  .mutPtr window, window]

theorem reach_drawn {t : CTy} (h : Reach shapes drawing t) : t ∈ drawn :=
  reach_closed drawn (by simp [drawing, Export.types, fill, shown, width, drawn, line, color, point, window])
    (by simp [drawn, shapes, line, color, point, window]) h

theorem drawing_distinct : DistinctNames drawing := by
  intro e he e' he' h
  simp only [drawing, List.mem_cons, List.not_mem_nil, or_false] at he he'
  rcases he with rfl | rfl | rfl | rfl | rfl <;> rcases he' with rfl | rfl | rfl | rfl | rfl <;> first | rfl | exact absurd h (by decide)

theorem cdefFine (stable : Bool) : CdefFine shapes (py stable) drawing where
  lang := rfl
  banner := rfl
  sorted _ := drawing_distinct
  declarable := {
    types := by
      intro t ht
      have := reach_drawn ht
      have all : drawn.all (fun t => wordsOk shapes.base t && declOk t) = true := by decide +kernel
      have h := List.all_eq_true.1 all t this
      rw [Bool.and_eq_true] at h
      refine ⟨h.1, h.2, ?_⟩
      simp only [drawn, List.mem_cons, List.not_mem_nil, or_false] at this
      rcases this with rfl | rfl | rfl | rfl | rfl | rfl | rfl | rfl | rfl | rfl | rfl | rfl | rfl
      · exact ⟨nofun, fun v hv => by
          simp only [List.mem_cons, List.not_mem_nil, or_false] at hv
          rcases hv with rfl | rfl <;> exact ⟨nofun, by decide, nofun⟩⟩
      · trivial
      · exact ⟨nofun, fun v hv => by
          simp only [List.mem_cons, List.not_mem_nil, or_false] at hv
          rcases hv with rfl | rfl | rfl <;> exact ⟨nofun, by decide, by decide⟩⟩
      · trivial
      · trivial
      · trivial
      · trivial
      · exact ⟨nofun, fun v hv => by
          simp only [List.mem_cons, List.not_mem_nil, or_false] at hv
          rcases hv with rfl | rfl <;> exact ⟨nofun, by decide, by decide⟩⟩
      · trivial
      · trivial
      · trivial
      · trivial
      · exact docsOk_nil rfl
    exports := by
      intro e he
      simp only [drawing, List.mem_cons, List.not_mem_nil, or_false] at he
      rcases he with rfl | rfl | rfl | rfl | rfl
      · exact ⟨nofun, by decide, by decide, fun a ha => by
          simp only [fill, List.mem_cons, List.not_mem_nil, or_false] at ha
          rcases ha with rfl; exact ⟨by decide, by decide, rfl⟩⟩
      · trivial
      · exact ⟨nofun, by decide, ⟨by decide, by decide, by decide⟩, by decide, by decide⟩
      · exact ⟨nofun, by decide, by decide, fun a ha => by
          simp only [shown, List.mem_cons, List.not_mem_nil, or_false] at ha
          rcases ha with rfl | rfl | rfl <;> exact ⟨by decide, by decide, rfl⟩⟩
      · trivial }
  aliases rn docs t h := by
    have := reach_drawn h
    simp [drawn, color, line, point, window] at this
  enums i g docs int vs h hd := by
    have := reach_drawn h
    simp [drawn, color, line, point, window] at this
    rcases this with ⟨rfl, rfl⟩ | ⟨rfl, rfl⟩ | ⟨rfl, rfl⟩ | ⟨rfl, rfl⟩ <;> simp [shapes] at hd
    exact hd.2.1.symm

theorem drawing_unambiguous : Unambiguous shapes drawing where
  types := by
    intro t t' ht ht' hn hn' e
    have h1 := reach_drawn ht
    have h2 := reach_drawn ht'
    simp only [drawn, List.mem_cons, List.not_mem_nil, or_false] at h1 h2
    rcases h1 with rfl | rfl | rfl | rfl | rfl | rfl | rfl | rfl | rfl | rfl | rfl | rfl | rfl <;> first | cases hn; done | skip
    all_goals
      rcases h2 with rfl | rfl | rfl | rfl | rfl | rfl | rfl | rfl | rfl | rfl | rfl | rfl | rfl <;> first | rfl | (cases hn'; done) | exact absurd e (by decide +kernel)
  base := by
    intro A t ht hn
    have h1 := reach_drawn ht
    simp only [drawn, List.mem_cons, List.not_mem_nil, or_false] at h1
    rcases h1 with rfl | rfl | rfl | rfl | rfl | rfl | rfl | rfl | rfl | rfl | rfl | rfl | rfl <;> first | rfl | (cases hn; done)
  fns := by
    intro t f ht hn hf
    have h1 := reach_drawn ht
    simp only [drawn, List.mem_cons, List.not_mem_nil, or_false] at h1
    simp only [drawing, List.mem_cons, List.not_mem_nil, or_false, Export.fn.injEq, reduceCtorEq, false_or] at hf
    rcases hf with rfl | rfl <;>
      rcases h1 with rfl | rfl | rfl | rfl | rfl | rfl | rfl | rfl | rfl | rfl | rfl | rfl | rfl <;> first | (cases hn; done) | decide +kernel

def drawOrder : Order where
  rank n := if n = t!"__int_headers__" then 0 else if n = t!"bool" then 1 else if n = t!"Point_t" then 2 else if n = t!"Color_t" then 3
    else if n = t!"Color_2_array_t" then 4 else if n = t!"Line_t" then 5 else 6
  kind n := if n = t!"show" ∨ n = t!"fill" then .function else .type
  used _ i g := g = [] ∧ i ≤ 3

theorem drawing_nonRecursive : NonRecursive shapes drawOrder .c 7 drawing where
  decls lang i g h := by
    obtain ⟨rfl, hi⟩ := h
    match i, hi with
    | 0, _ => exact ⟨fun _ => rfl, .inr ⟨nofun, by decide, rfl⟩, fun _ => rfl, .inr ⟨nofun, by decide, rfl⟩, trivial⟩
    | 1, _ => exact ⟨fun _ => rfl, .inr ⟨nofun, by decide, rfl⟩, trivial⟩
    | 2, _ =>
      exact ⟨fun _ => by decide, ⟨by decide, rfl, rfl, by decide⟩, fun _ => by decide, ⟨by decide, rfl, rfl, by decide⟩, fun _ => by decide,
        ⟨by decide, rfl, fun _ => by decide, by decide, rfl, rfl, by decide⟩, trivial⟩
    | 3, _ => trivial
  exports e he := by
    simp only [drawing, List.mem_cons, List.not_mem_nil, or_false] at he
    rcases he with rfl | rfl | rfl | rfl | rfl
    · exact ⟨nofun, ⟨by decide, rfl, rfl, by decide⟩, nofun, trivial, trivial⟩
    · exact ⟨nofun, ⟨by decide, rfl, rfl, by decide⟩, trivial⟩
    · exact ⟨nofun, .inr ⟨nofun, by decide, rfl⟩, trivial⟩
    · exact ⟨nofun, ⟨by decide, rfl, rfl, by decide⟩, nofun, ⟨nofun, nofun, .inr ⟨by decide, rfl⟩, nofun, ⟨by decide, rfl, rfl, by decide⟩, trivial⟩,
        nofun, ⟨by decide, rfl, rfl, by decide⟩, nofun, ⟨by decide, rfl, rfl, by decide⟩, trivial⟩
    · exact ⟨nofun, ⟨by decide, rfl, rfl, by decide⟩, trivial⟩
  functions f hf := by
    simp only [drawing, List.mem_cons, List.not_mem_nil, or_false, Export.fn.injEq, reduceCtorEq, false_or] at hf
    rcases hf with rfl | rfl <;> rfl

theorem drawing_solid : Solid shapes drawing where
  fields i g docs size fs f hr hd hf _ := by
    have := reach_drawn hr
    simp [drawn, color, line, point, window] at this
    rcases this with ⟨rfl, rfl⟩ | ⟨rfl, rfl⟩ | ⟨rfl, rfl⟩ | ⟨rfl, rfl⟩ <;> simp [shapes] at hd <;> rw [← hd.2.2] at hf <;> simp at hf
    · rcases hf with rfl | rfl | rfl <;> exact ⟨rfl, by decide⟩
    · rcases hf with rfl | rfl <;> exact ⟨rfl, by decide⟩
  items n t hr := by
    have := reach_drawn hr
    simp [drawn, color, line, point, window] at this
    rw [this.1, this.2]
    exact ⟨rfl, by decide⟩
  fns f hf := by
    simp only [drawing, List.mem_cons, List.not_mem_nil, or_false, Export.fn.injEq, reduceCtorEq, false_or] at hf
    rcases hf with rfl | rfl
    · refine ⟨by decide, by decide, .inl rfl, fun a ha => ?_⟩
      simp [fill] at ha
      rw [ha]; exact ⟨rfl, by decide⟩
    · refine ⟨by decide, by decide, .inr rfl, fun a ha => ?_⟩
      simp [shown] at ha
      rcases ha with rfl | rfl | rfl <;> exact ⟨rfl, by decide⟩

theorem drawing_ok : (generated shapes 7 (py true) drawing okSink).2 = none := by decide +kernel

theorem drawn_point : RShape x64 shapes point (.struct [.scalar (.int true 4), .scalar (.int true 4)]) :=
  .struct rfl (.cons (.int .i32) rfl (.cons (.int .i32) rfl .nil))

theorem drawn_color : RShape x64 shapes color (.scalar (.int true 4)) :=
  RShape.enum (int := none) (i := 1) (g := []) (docs := []) (vs := [⟨[], t!"Red", none⟩, ⟨[], t!"Blue", none⟩]) rfl

theorem drawn_line : RShape x64 shapes line (.struct [.struct [.scalar (.int true 4), .scalar (.int true 4)], .scalar .ptr, .array 2 (.scalar (.int true 4))]) :=
  .struct rfl (.cons drawn_point rfl (.cons .constPtr rfl (.cons (.array drawn_color) rfl .nil)))

theorem reach_line : Reach shapes drawing line := .export (e := .type t!"Line" line) (by simp [drawing]) (by simp [Export.types])

end Sample

/-- The sample meets the hypotheses; its `Line` has 24 bytes, also for cffi. -/
example : ∃ f, CdefReads true (generated Sample.shapes 7 (Sample.py true) Sample.drawing okSink).1.out f ∧
    ∃ s, CShape x64 f.env (.name t!"Line_t") s ∧ s.lay x64 = (24, 8) := by
  obtain ⟨f, h1, h2⟩ := C90_types_partial _ _ _ _ _ (Sample.cdefFine true) Sample.drawing_unambiguous Sample.drawing_ok
  obtain ⟨s, h3, h4⟩ := h2 x64 Sample.line _ Sample.reach_line Sample.drawn_line (by decide)
  exact ⟨f, h1, s, h3, h4.1.symm.trans (by decide)⟩

/-- The constants of the sample. -/
example : ∃ f, CdefReads true (generated Sample.shapes 7 (Sample.py true) Sample.drawing okSink).1.out f ∧ t!"WIDTH" ∈ f.macros ∧ t!"show" ∉ f.macros := by
  obtain ⟨f, h1, h2, _⟩ := C90_functions_partial _ _ _ _ _ (Sample.cdefFine true) Sample.drawing_unambiguous Sample.drawing_ok
  refine ⟨f, h1, (h2 _).2 ⟨Sample.width, by simp [Sample.drawing], rfl⟩, fun h => ?_⟩
  obtain ⟨x, h3, h4⟩ := (h2 _).1 h
  simp only [Sample.drawing, List.mem_cons, List.not_mem_nil, or_false, Export.const.injEq, reduceCtorEq, false_or] at h3
  rw [h3] at h4
  exact absurd h4 (by decide)

example : ∃ f, CdefReads true (generated Sample.shapes 7 (Sample.py true) Sample.drawing okSink).1.out f ∧ Compiles f.env :=
  C90_accepts_partial _ Sample.drawOrder 7 _ _ _ _ (Sample.cdefFine true) Sample.drawing_unambiguous Sample.drawing_nonRecursive Sample.drawing_solid
    Sample.drawing_ok

example : ∃ f, CdefReads true (generated Sample.shapes 7 (Sample.py true) Sample.drawing okSink).1.out f ∧
    (generated Sample.shapes 7 (twin (Sample.py true)) Sample.drawing okSink).2 = none ∧
    ∀ eval defs, Compiler (twin (Sample.py true)) defs → ReadsAs eval defs (generated Sample.shapes 7 (twin (Sample.py true)) Sample.drawing okSink).1.out f.env :=
  C90_same_partial _ _ _ _ _ _ (Sample.cdefFine true) (twin_fine (Sample.cdefFine true)) rfl Sample.drawing_ok

/-- For `fn f(x: *mut Window)`, cffi reads the header as it is. -/
example : ∃ f, CdefReads false (generated Sample.shapes 7 (Sample.py true) (Sample.one (.mutPtr Sample.window)) okSink).1.out f ∧
    CdefReads true (generated Sample.shapes 7 (Sample.py true) (Sample.one (.mutPtr Sample.window)) okSink).1.out f := by
  have hr : ∀ t, Reach Sample.shapes (Sample.one (.mutPtr Sample.window)) t → t ∈ [.mutPtr Sample.window, Sample.window, .void] := fun t h =>
    reach_closed _ (by simp [Sample.one, Export.types]) (by simp [Sample.shapes, Sample.window]) h
  have hf := fine_one (P := Sample.shapes) (ty := .mutPtr Sample.window) rfl _ hr (by decide +kernel)
  refine C90_bare_partial _ _ _ _ _ ⟨rfl, rfl, hf.sorted, hf.declarable, fun rn docs t h => ?_, fun i g docs int vs h hd => ?_⟩ (fun n h => ?_) (fun h => ?_)
    (fun i g docs int vs h hd => ?_) (by decide +kernel)
  · have := hr _ h
    simp [Sample.window] at this
  · have := hr _ h
    simp [Sample.window] at this
    rw [this.1] at hd
    cases hd
  · have := hr _ h
    simp [Sample.window] at this
  · have := hr _ h
    simp [Sample.window] at this
  · have := hr _ h
    simp [Sample.window] at this
    rw [this.1] at hd
    cases hd

/-! ### Where it fails -/

/-- The sample has an integer constant. -/
example (f : Cdef) : ¬ CdefReads false (generated Sample.shapes 7 (Sample.py true) Sample.drawing okSink).1.out f :=
  C90_fails_include _ _ _ _ _ (Sample.cdefFine true) (by
    intro f hf
    simp only [Sample.drawing, List.mem_cons, List.not_mem_nil, or_false, Export.fn.injEq, reduceCtorEq, false_or] at hf
    rcases hf with rfl | rfl <;> exact ⟨by decide, by decide⟩) Sample.drawing_ok (.const Sample.width) (by simp [Sample.drawing]) _
    (by simp [Export.types]; rfl) (.inl ⟨.u32, rfl⟩) f

namespace Sample

/-- From the names `d`, the action writes the items `new`, after which the names are `d'`. -/
def Yields (a : Act) (d d' : List Text) (new : List Item) : Prop :=
  ∀ st, st.defined = d → (a okSink st).2 = none ∧ (a okSink st).1.defined = d' ∧ (a okSink st).1.items = st.items ++ new

theorem Yields.done {d : List Text} : Yields done d d [] := fun st h => ⟨rfl, h, by simp [Verif.Headers.done]⟩

theorem Yields.seq {a b : Act} {d d' d'' : List Text} {x y : List Item} (h : Yields a d d' x) (h' : Yields b d' d'' y) : Yields (a ;; b) d d'' (x ++ y) := by
  intro st hd
  obtain ⟨h1, h2, h3⟩ := h st hd
  obtain ⟨h4, h5, h6⟩ := h' _ h2
  rw [andThen_ok h1]
  exact ⟨h4, h5, by rw [h6, h3, List.append_assoc]⟩

theorem Yields.emit {Q : Prog} {it : Item} {d : List Text} (h : (render Q it).panics = false) : Yields (emit Q it) d d [it] := fun st hd =>
  ⟨emit_okSink h st, (emit_st Q it okSink st).2.1.trans hd, (emit_st Q it okSink st).1⟩

theorem Yields.once {a : Act} {n : Text} {d d' : List Text} {x : List Item} (hn : n ∉ d) (h : Yields a (n :: d) d' x) : Yields (defineOnce n a) d d' x := by
  rintro st rfl
  unfold defineOnce
  rw [if_neg hn]
  exact h _ rfl

theorem Yields.insertFn {n : Text} {d : List Text} (hn : n ∉ d) : Yields (insertFn n) d (n :: d) [] := by
  rintro st rfl
  unfold Verif.Headers.insertFn
  rw [if_neg hn]
  exact ⟨rfl, rfl, by simp⟩

/-- The items of the Python header of `fn f(x: Color)`, where `Color` is an enum of one byte. -/
theorem byte_items : (generated P 9 (py true) (one color) okSink).1.items =
    [.text (py true).writeBanner, .intHeaders, .type .python color, .func .python ⟨[], t!"f", [⟨t!"x", color⟩], .void⟩] := by
  have h0 : Yields (defineAll P (defineAdt P 8) .python [.int .u8]) [t!"Color_t", t!"f"] [t!"__int_headers__", t!"Color_t", t!"f"] [.intHeaders] := by
    rw [defineAll, defineAll, define_int, if_neg (by decide)]
    exact .seq (x := [.intHeaders]) (y := []) (.once (by decide) (.emit rfl)) .done
  have h1 : Yields (define P (defineAdt P 9) .python color) [t!"f"] [t!"__int_headers__", t!"Color_t", t!"f"] [.intHeaders, .type .python color] := by
    rw [color, define, defineAdt, show name P.base .python (.adt 1 []) = t!"Color_t" by decide +kernel]
    exact .once (by decide) (h0.seq (.emit rfl))
  have h2 : Yields (genDef P 9 .python (.fn ⟨[], t!"f", [⟨t!"x", color⟩], .void⟩)) [] [t!"__int_headers__", t!"Color_t", t!"f"]
      [.intHeaders, .type .python color, .func .python ⟨[], t!"f", [⟨t!"x", color⟩], .void⟩] := by
    rw [genDef, List.map_cons, List.map_nil, defineAll, defineAll, defineSelf]
    exact .seq (x := []) (.insertFn (by decide)) (.seq (x := [.intHeaders, .type .python color]) (h1.seq .done) (.seq (x := []) .done (.emit (by decide))))
  have h3 : Yields (generate P 9 (py true) (one color)) [] [t!"__int_headers__", t!"Color_t", t!"f"]
      [.text (py true).writeBanner, .intHeaders, .type .python color, .func .python ⟨[], t!"f", [⟨t!"x", color⟩], .void⟩] := by
    rw [generate, show (py true).prelude = none from rfl, show (py true).epilogue = none from rfl,
      show ordered (py true).stable (one color) = one color from rfl, one, genAll, genAll]
    exact .seq (x := [.text (py true).writeBanner]) (.emit rfl) (.seq (x := []) .done (.seq (y := []) (h2.seq (y := []) .done) .done))
  rw [generated, (h3 _ rfl).2.2, List.nil_append]

theorem byte_ok : (generated P 9 (py true) (one color) okSink).2 = none := by decide +kernel

/-- `fn f(x: *const Color)` -/
def behind : List Export := one (.constPtr color)

end Sample

/-- **C90** fails for `#[repr(u8)]` enums: in `fn f(x: Color)` the enum has one byte, and cffi, which sees neither the integer nor its size, gives it
the four of an `int`. -/
theorem C90_fails_enum_size :
    (generated Sample.P 9 (Sample.py true) (Sample.one Sample.color) okSink).2 = none ∧
    (∀ A, RShape A Sample.P Sample.color (.scalar (.int false 1))) ∧
    ∃ f, CdefReads true (generated Sample.P 9 (Sample.py true) (Sample.one Sample.color) okSink).1.out f ∧
      (∃ params, f.env.lookup t!"f" = some (.fn (.name kvoid) params) ∧ params = [(some t!"x", .name t!"Color_t")]) ∧
      ∀ A s, CShape A f.env (.name t!"Color_t") s ↔ s = .scalar (.int true 4) := by
  refine ⟨Sample.byte_ok, Sample.color_shape, _, cdef_reads true rfl Sample.byte_ok Sample.byte_items ?_, ⟨_, rfl, rfl⟩, fun A s => ?_⟩
  · intro it hit
    refine ⟨fun _ => rfl, ?_⟩
    simp only [List.mem_cons, List.not_mem_nil, or_false] at hit
    rcases hit with rfl | rfl | rfl
    · exact ⟨trivial, rfl⟩
    · refine ⟨⟨.inr rfl, rfl, rfl, by decide, ⟨nofun, fun v hv => ?_⟩, nofun, fun _ _ _ _ => .inl rfl⟩, rfl⟩
      simp only [List.mem_cons, List.not_mem_nil, or_false] at hv
      rcases hv with rfl | rfl <;> exact ⟨nofun, by decide, nofun⟩
    · refine ⟨⟨.inr rfl, ⟨nofun, by decide, by decide, fun a ha => ?_⟩, fun a ha => ?_, by decide, by decide, rfl⟩, by decide⟩
      · simp only [List.mem_cons, List.not_mem_nil, or_false] at ha
        subst ha; exact ⟨by decide, by decide, rfl⟩
      · simp only [List.mem_cons, List.not_mem_nil, or_false] at ha
        subst ha; exact ⟨by decide, by decide, rfl⟩
  · refine ⟨fun h => CShape.unique h (.enum rfl rfl), fun h => h ▸ .enum rfl rfl⟩

/-- **C90** fails for `#[repr(u8)]` enums behind pointers, in arrays and in callbacks, also without the `#include` lines: in `fn f(x: *const Color)` the enum
is written as in C, with `#ifdef DOXYGEN`. -/
theorem C90_fails_ifdef (stripped : Bool) :
    (generated Sample.P 9 (Sample.py true) Sample.behind okSink).2 = none ∧
    ∀ f, ¬ CdefReads stripped (generated Sample.P 9 (Sample.py true) Sample.behind okSink).1.out f := by
  refine ⟨by decide +kernel, ?_⟩
  rintro f ⟨ls, raw, h, _⟩
  have : (cdefLines stripped (split '\n' (code .code (generated Sample.P 9 (Sample.py true) Sample.behind okSink).1.out))).isNone = true := by
    cases stripped <;> decide +kernel
  rw [h] at this
  cases this

end Verif.Headers
