import Verif.Headers.RecEnd
import Verif.Headers.GenProps
/-!
# C39, C41: headers of programs with recursive types
-/
namespace Verif.Headers
open Text

/-- C39, also for types that are recursive through pointers: a function or constant comes after the
definitions of all types that it mentions. The definition of a type comes after those of the types that it
mentions, except for those that may mention it in turn: those of the same level (types of lower levels are all defined
before). Also if the writer fails. What is missing otherwise is listed at `C39_order_partial`; that the exception is needed,
shows `C39_fails_recursive`. -/
theorem C39_levels_partial (P : Prog) (o : Order) (bound m : Nat) (c : Config) (es : List Export) (k : Sink)
    (h : Levelled P o c.lang bound es) : OrderedByLevel P o (generated P m c es k).1.items :=
  (generate_runP h m ordered_subset k ⟨[], [], 0, []⟩ (fun _ => False) nofun nofun (by intro pre it post e; simp at e) nofun).1

/-- C39: if generation succeeds, all types that are mentioned are defined, if perhaps too late. -/
theorem C39_complete_partial (P : Prog) (o : Order) (bound m : Nat) (c : Config) (es : List Export) (k : Sink)
    (h : Levelled P o c.lang bound es) (hok : (generated P m c es k).2 = none) : AllDefined P (generated P m c es k).1.items := by
  obtain ⟨_, h2, _⟩ := (generate_runP h m ordered_subset k ⟨[], [], 0, []⟩ (fun _ => False) nofun nofun
    (by intro pre it post e; simp at e) nofun).2.2 hok
  exact fun it hi n hn => (h2 it hi n hn).resolve_right fun hp => hp.1

/-- C41: every exported type is defined, also if it is recursive. -/
theorem C41_recursive_types_partial (P : Prog) (o : Order) (bound m : Nat) (c : Config) (es : List Export) (k : Sink)
    (h : Levelled P o c.lang bound es) (hok : (generated P m c es k).2 = none)
    (hd : c.stable = true → DistinctNames es) (x : Text) (ty : CTy) (hx : .type x ty ∈ es) :
    ∀ n ∈ mentions P.base c.lang ty, ∃ it ∈ (generated P m c es k).1.items, n ∈ provides P it := by
  obtain ⟨_, _, h3⟩ := (generate_runP h m ordered_subset k ⟨[], [], 0, []⟩ (fun _ => False) nofun nofun
    (by intro pre it post e; simp at e) nofun).2.2 hok
  exact fun n hn => (h3 _ ((mem_ordered hd _).2 hx) n hn).resolve_right fun hp => hp.1

/-- C41: generation ends and succeeds, also for recursive types, if the declared types that are used have finitely many names
(`ns`; the recursion is not deeper than their number), none of their structs is refused (C63), and the names of the functions are
distinct. -/
theorem C41_recursive_succeeds (P : Prog) (o : Order) (bound m : Nat) (c : Config) (es : List Export) (ns : List Text)
    (hl : Levelled P o c.lang bound es) (hns : ∀ lang i g, o.used lang i g → short P.base (.adt i g) ++ t!"_t" ∈ ns) (hm : ns.length < m)
    (hp : ∀ lang i g, o.used lang i g → (renderDecl P lang (.adt i g) (P.decl i g)).panics = false)
    (hd : c.stable = true ∨ (es.filterMap fnName).Nodup) : (generated P m c es okSink).2 = none := by
  obtain ⟨st, h1, h2⟩ := generate_ok P m c es
  rw [h2]
  refine genAll_ends hl hp hns ordered_subset ?_ st (Nat.lt_of_le_of_lt (List.length_filter_le _ _) hm) fun f _ => by rw [h1]; nofun
  cases hs : c.stable with
  | true => exact sorted_fnNames (toMap_sorted es)
  | false =>
    have := hd.resolve_left (by rw [hs]; decide)
    exact ((List.reverse_perm es).filterMap fnName).nodup_iff.2 this

/-! ### An example -/

namespace Sample

/-- `struct Item { value: u32 }`, `struct List { head: *mut Node, last: Item }`, `struct Node { owner: *mut List, next: *mut Node }` -/
def linked : Prog where
  base | 0 => t!"Item" | 1 => t!"List" | _ => t!"Node"
  decl
    | 0, _ => .struct [] 4 [⟨[], t!"value", .int .u32, 4, 4⟩]
    | 1, _ => .struct [] 16 [⟨[], t!"head", .mutPtr (.adt 2 []), 8, 8⟩, ⟨[], t!"last", .adt 0 [], 4, 4⟩]
    | _, _ => .struct [] 16 [⟨[], t!"owner", .mutPtr (.adt 1 []), 8, 8⟩, ⟨[], t!"next", .mutPtr (.adt 2 []), 8, 8⟩]
  size _ := 8

/-- `Item` below `List` and `Node`. -/
def levels : Order where
  rank n := if n = t!"__int_headers__" then 0 else if n = t!"Item_t" then 1 else 2
  kind n := if n = t!"f" then .function else .type
  used _ i g := g = [] ∧ i < 3

def takesList : List Export := [.fn ⟨[], t!"f", [⟨t!"x", .mutPtr (.adt 1 [])⟩], .adt 0 []⟩]

theorem levelled (lang : Lang) : Levelled linked levels lang 2 takesList where
  decls lang i g h := by
    obtain ⟨rfl, hi⟩ := h
    match i, hi with
    | 0, _ => exact ⟨fun _ => rfl, .inr ⟨nofun, by decide, rfl⟩, trivial⟩
    | 1, _ => exact ⟨fun _ => by decide, ⟨by decide, rfl, rfl, by decide⟩, fun _ => by decide, ⟨by decide, rfl, rfl, by decide⟩, trivial⟩
    | 2, _ => exact ⟨fun _ => by decide, ⟨by decide, rfl, rfl, by decide⟩, fun _ => by decide, ⟨by decide, rfl, rfl, by decide⟩, trivial⟩
  exports e he := by
    rw [takesList, List.mem_singleton] at he
    subst he
    exact ⟨fun _ => by decide, ⟨by decide, rfl, rfl, by decide⟩, fun _ => by decide, ⟨by decide, rfl, rfl, by decide⟩, trivial⟩
  functions f hf := by
    rw [takesList, List.mem_singleton, Export.fn.injEq] at hf
    subst hf
    rfl

end Sample

example (lang : Lang) (stable : Bool) :
    let g := generated Sample.linked 4 (Sample.cfg lang stable) Sample.takesList okSink
    g.2 = none ∧ OrderedByLevel Sample.linked Sample.levels g.1.items ∧ AllDefined Sample.linked g.1.items := by
  have hok : (generated Sample.linked 4 (Sample.cfg lang stable) Sample.takesList okSink).2 = none := by
    refine C41_recursive_succeeds _ Sample.levels 2 4 _ _ [t!"Item_t", t!"List_t", t!"Node_t"] (Sample.levelled lang) ?_ (by decide) ?_
      (.inr (by decide +kernel))
    · rintro _ i g ⟨rfl, hi⟩
      match i, hi with
      | 0, _ => decide
      | 1, _ => decide
      | 2, _ => decide
    · rintro lang i g ⟨rfl, hi⟩
      match i, hi with
      | 0, _ => cases lang <;> decide +kernel
      | 1, _ => cases lang <;> decide +kernel
      | 2, _ => cases lang <;> decide +kernel
  exact ⟨hok, C39_levels_partial _ _ 2 _ _ _ _ (Sample.levelled lang), C39_complete_partial _ _ 2 _ _ _ _ (Sample.levelled lang) hok⟩

/-- In its header, `Node` comes before `List`, which it mentions; all others are in order. -/
example (lang : Lang) : (generated Sample.linked 4 (Sample.cfg lang true) Sample.takesList okSink).1.items.filterMap (declaredName Sample.linked) =
    [t!"Node_t", t!"Item_t", t!"List_t", t!"f"] := by cases lang <;> decide +kernel

end Verif.Headers
