import Verif.Headers.CsAccept
import Verif.Headers.CheckProps
/-!
# C87: C# compilers accept the header and see what Rust has
-/
namespace Verif.Headers.Cs
open Text Layout

/-! ### C87 -/

/-- **C87 (types).** A C# compiler reads the header, and .NET passes to native code every struct, enum, array and callback that
the exports mention, also behind pointers, with the size and alignment that it has in Rust and with the same scalars at the same
places (a character is a byte). Without `c_int` and wrappers of `bool`; if no two types have the same name. (Types without bytes
have no counterpart.) -/
theorem C87_types_partial (P : Prog) (m : Nat) (c : Config) (es : List Export) (k : Sink) (hf : Fine P c es) (hu : Unambiguous P es)
    (hm : Marshals P es) (h : (generated P m c es k).2 = none) (eval : List Text → Text → Bool) (defs : List Text) :
    ∃ f, ReadsAs eval defs (generated P m c es k).1.out f ∧
      ∀ A t s, Sized A P es → Reach P es t → isItem t = true → RShape A P t s → (s.lay A).1 ≠ 0 →
        ∃ s', Native A f.decls [] (.name (csName P.base t)) s' ∧ SameAbi A s.bytes s' := by
  obtain ⟨body, hb, hr⟩ := header_body hf hu h
  refine ⟨_, hr eval defs, fun A t s hz ht hi hs h0 => ?_⟩
  obtain ⟨s', h1⟩ := seen (body_finds hb (eval defs t!"IOS")) hz hm hs ht h0
  refine ⟨s', ?_, h1.same⟩
  have := h1.none (by rintro rfl; cases hi)
  rwa [ty_named (by cases t <;> first | rfl | cases hi)] at this

/-- **C87 (members).** The C# struct has the fields of the Rust struct under their names, at the same offsets and with the same
contents, except for those without bytes. -/
theorem C87_members_partial (P : Prog) (m : Nat) (c : Config) (es : List Export) (k : Sink) (hf : Fine P c es) (hu : Unambiguous P es)
    (hm : Marshals P es) (h : (generated P m c es k).2 = none) (eval : List Text → Text → Bool) (defs : List Text) :
    ∃ f, ReadsAs eval defs (generated P m c es k).1.out f ∧
      ∀ A i g docs size fs ss, Sized A P es → Reach P es (.adt i g) → P.decl i g = .struct docs size fs → RShapes A P fs ss →
        ∃ as mods n ms ss', find f.decls (csName P.base (.adt i g)) = some (.struct as mods n ms) ∧ Natives A f.decls ms ss' ∧
          All₂ (SameMember A) ((placed A 0 (fs.map (·.name)) (bytesAll ss)).filter fun r => (r.2.2.lay A).1 ≠ 0)
            (placed A 0 (ms.map Member.name) ss') := by
  obtain ⟨body, hb, hr⟩ := header_body hf hu h
  refine ⟨_, hr eval defs, fun A i g docs size fs ss hz ht hd hs => ?_⟩
  have hD := body_finds hb (eval defs t!"IOS")
  obtain ⟨ss', h1, h2⟩ := seenAll hD hz hm hs (fun f hf => ht.field hd hf) (hD.aligned _ _ _ _ _ ht hd)
  have hx := hD.items _ ht rfl _ (List.mem_singleton.2 rfl)
  rw [hd] at hx
  refine ⟨_, _, _, _, ss', hx, h1, ?_⟩
  rw [fieldMembers, List.map_map]
  exact (h2.same 0).2.2.2

/-- What native code sees of a parameter or result is what Rust has. -/
def Agrees (P : Prog) (es : List Export) (ds : List Decl) (as : List Attr) (ty : Ty) (t : CTy) : Prop :=
  ∀ A s, Sized A P es → RShape A P t s → (s.lay A).1 ≠ 0 → ∃ s', Native A ds as ty s' ∧ SameAbi A s.bytes s'

theorem seen_agrees {P : Prog} {es : List Export} {ds : List Decl} (hd : Finds P es ds) (hm : Marshals P es) {t : CTy} (hr : Reach P es t) :
    Agrees P es ds (attrs t) (ty P.base t) t := by
  intro A s hz hs h0
  obtain ⟨s', h1⟩ := seen hd hz hm hs hr h0
  exact ⟨s', h1.attr, h1.same⟩

theorem return_attrs (t : CTy) (more : List Attr) (h : returnAttrs more = []) : returnAttrs (retAttrs t ++ more) = attrs t := by
  rw [returnAttrs] at h
  rw [returnAttrs, List.filterMap_append, h, List.append_nil]
  cases t <;> simp [retAttrs, attrs]

/-- **C87 (library).** What `RustLib` stands for in the attributes of the methods: the name of the library, and on iOS its path within
the framework of that name. -/
theorem C87_library (P : Prog) (m : Nat) (c : Config) (es : List Export) (k : Sink) (hf : Fine P c es) (hu : Unambiguous P es)
    (h : (generated P m c es k).2 = none) (eval : List Text → Text → Bool) (defs : List Text) :
    ∃ f, ReadsAs eval defs (generated P m c es k).1.out f ∧
      ∃ mods v, .const mods (.name t!"string") t!"RustLib" (.bad '"' :: v ++ [.bad '"']) ∈ classMembers t!"Ffi" f.decls ∧
        (eval defs t!"IOS" = false → v = [.id c.lib]) ∧
        (eval defs t!"IOS" = true → v = [.id c.lib, .bad '.', .id t!"framework", .bad '/', .id c.lib]) := by
  obtain ⟨body, hb, hr⟩ := header_body hf hu h
  refine ⟨_, hr eval defs, [kPrivate], if eval defs t!"IOS" then [.id c.lib, .bad '.', .id t!"framework", .bad '/', .id c.lib] else [.id c.lib],
    ?_, fun e => by rw [e]; rfl, fun e => by rw [e]; rfl⟩
  show _ ∈ classMembers kFfi (libDecl _ c.lib :: body.flatMap (csDecls P))
  rw [libDecl, classMembers, if_pos rfl, libToks]
  cases eval defs t!"IOS" <;> exact List.mem_append.2 (.inl (List.mem_singleton.2 rfl))

/-- **C87 (functions).** The class `Ffi` of the header has a public static extern method for every exported function, with its
name, and with the parameters in order under their names. It is imported from the library with the calling convention of C (other
than on 32-bit Windows). Each parameter is passed as Rust expects it, and so is the result, which is `void` for `()`. -/
theorem C87_functions_partial (P : Prog) (m : Nat) (c : Config) (es : List Export) (k : Sink) (hf : Fine P c es) (hu : Unambiguous P es)
    (hm : Marshals P es) (h : (generated P m c es k).2 = none) (eval : List Text → Text → Bool) (defs : List Text) :
    ∃ f, ReadsAs eval defs (generated P m c es k).1.out f ∧
      ∀ fn, .fn fn ∈ es → ∃ as mods ret params, .method as mods ret fn.name params ∈ classMembers t!"Ffi" f.decls ∧
        kPublic ∈ mods ∧ kStatic ∈ mods ∧ kExtern ∈ mods ∧ importConv false as = some .cdecl ∧
        All₂ (fun (a : Arg) (p : Var) => p.name = a.name ∧ Agrees P es f.decls p.attrs p.ty a.ty) fn.args params ∧
        (fn.ret = .void → ret = .name kVoid) ∧ Agrees P es f.decls (returnAttrs as) ret fn.ret := by
  obtain ⟨body, hb, hr⟩ := header_body hf hu h
  refine ⟨_, hr eval defs, fun fn hfn => ⟨retAttrs fn.ret ++ [dllImport], methodMods, ty P.base fn.ret,
    fn.args.map fun a => var P.base a.name a.ty, ?_, by decide, by decide, by decide, ?_, ?_, fun e => by rw [e]; rfl, ?_⟩⟩
  · show _ ∈ classMembers kFfi (libDecl _ c.lib :: body.flatMap (csDecls P))
    rw [libDecl, classMembers, if_pos rfl, body_class]
    exact List.mem_append.2 (.inr (List.mem_flatMap.2 ⟨_, body_fn hb hf.sorted hfn, List.mem_singleton.2 rfl⟩))
  · rw [importConv, if_pos (by simp [dllImport])]; rfl
  · have ha : ∀ a ∈ fn.args, Reach P es a.ty := fun a ha => .export hfn (by rw [Export.types]; simp; exact .inl ⟨a, ha, rfl⟩)
    generalize fn.args = args at ha
    induction args with
    | nil => exact .nil
    | cons a args ih =>
      exact .cons ⟨rfl, seen_agrees (body_finds hb _) hm (ha a (by simp))⟩ (ih fun a h => ha a (by simp [h]))
  · rw [return_attrs _ _ (by decide)]
    exact seen_agrees (body_finds hb _) hm (.export hfn (by rw [Export.types]; simp))

/-- **C87 (callbacks).** The header has a delegate for every callback type that the exports mention, with the calling convention
of C (other than on 32-bit Windows). Its parameters are passed as Rust passes them, and so is the result. -/
theorem C87_callbacks_partial (P : Prog) (m : Nat) (c : Config) (es : List Export) (k : Sink) (hf : Fine P c es) (hu : Unambiguous P es)
    (hm : Marshals P es) (h : (generated P m c es k).2 = none) (eval : List Text → Text → Bool) (defs : List Text) :
    ∃ f, ReadsAs eval defs (generated P m c es k).1.out f ∧
      ∀ r args, Reach P es (.fptr r args) → ∃ as mods ret params,
        find f.decls (csName P.base (.fptr r args)) = some (.delegate as mods ret (csName P.base (.fptr r args)) params) ∧
        kPublic ∈ mods ∧ delegateConv false as = some .cdecl ∧
        All₂ (fun (a : CTy) (p : Var) => Agrees P es f.decls p.attrs p.ty a) args params ∧
        (r = .void → ret = .name kVoid) ∧ Agrees P es f.decls (returnAttrs as) ret r := by
  obtain ⟨body, hb, hr⟩ := header_body hf hu h
  refine ⟨_, hr eval defs, fun r args hra => ⟨winapiAttr :: retAttrs r, typeMods, ty P.base r, delegateParams P.base 0 args,
    (body_finds hb _).items _ hra rfl _ (List.mem_singleton.2 rfl), by decide, ?_, ?_, fun e => by rw [e]; rfl, ?_⟩⟩
  · rw [delegateConv, if_pos (by simp [winapiAttr])]; rfl
  · have ha : ∀ a ∈ args, Reach P es a := fun a ha => hra.arg ha
    clear hra
    generalize 0 = i
    induction args generalizing i with
    | nil => exact .nil
    | cons a args ih => exact .cons (seen_agrees (body_finds hb _) hm (ha a (by simp))) (ih (fun a h => ha a (by simp [h])) (i + 1))
  · have := return_attrs r [] rfl
    rw [List.append_nil] at this
    have e : returnAttrs (winapiAttr :: retAttrs r) = attrs r := by rw [← this]; rfl
    rw [e]
    exact seen_agrees (body_finds hb _) hm hra.ret

/-- **C87 (accepted).** If no name is a keyword of C# or clashes with another, pointers are not to types with callbacks, arrays are
not of `usize` and constants are of types that C# has constants of: the C# compiler accepts the header. -/
theorem C87_compiles_partial (P : Prog) (m : Nat) (c : Config) (es : List Export) (k : Sink) (hf : Fine P c es) (hu : Unambiguous P es)
    (hs : Solid P es) (h : (generated P m c es k).2 = none) (eval : List Text → Text → Bool) (defs : List Text) :
    ∃ f, ReadsAs eval defs (generated P m c es k).1.out f ∧ Compiles f := by
  obtain ⟨body, hb, hr⟩ := header_body hf hu h
  exact ⟨_, hr eval defs, compiles hb hf.lib hs _⟩

/-- **C87 (one meaning).** There is only one way to read a header, and each of its types has only one shape. -/
theorem C87_unique (eval : List Text → Text → Bool) (defs : List Text) (header : Text) (f f' : File)
    (h : ReadsAs eval defs header f) (h' : ReadsAs eval defs header f') :
    f = f' ∧ ∀ A as t s s', Native A f.decls as t s → Native A f'.decls as t s' → s = s' := by
  obtain ⟨st, h1, _, k, hk⟩ := h
  obtain ⟨st', h1', _, k', hk'⟩ := h'
  rw [h1] at h1'
  cases h1'
  cases Option.some.inj ((hk (max k k') (Nat.le_max_left _ _)).symm.trans (hk' (max k k') (Nat.le_max_right _ _)))
  exact ⟨rfl, fun _ _ _ _ _ => Native.unique⟩

/-- **C87** fails on 32-bit Windows: functions of Rust (`extern "C"`) are called like those of C, but .NET calls the methods of the
header like those of the Windows API. -/
theorem C87_fails_win32 (P : Prog) (m : Nat) (c : Config) (es : List Export) (k : Sink) (hf : Fine P c es) (hu : Unambiguous P es)
    (h : (generated P m c es k).2 = none) (eval : List Text → Text → Bool) (defs : List Text) :
    ∃ f, ReadsAs eval defs (generated P m c es k).1.out f ∧
      ∀ fn, .fn fn ∈ es → ∃ as mods ret params, .method as mods ret fn.name params ∈ classMembers t!"Ffi" f.decls ∧
        importConv true as = some .stdcall := by
  obtain ⟨body, hb, hr⟩ := header_body hf hu h
  refine ⟨_, hr eval defs, fun fn hfn => ⟨retAttrs fn.ret ++ [dllImport], methodMods, ty P.base fn.ret,
    fn.args.map fun a => var P.base a.name a.ty, ?_, ?_⟩⟩
  · show _ ∈ classMembers kFfi (libDecl _ c.lib :: body.flatMap (csDecls P))
    rw [libDecl, classMembers, if_pos rfl, body_class]
    exact List.mem_append.2 (.inr (List.mem_flatMap.2 ⟨_, body_fn hb hf.sorted hfn, List.mem_singleton.2 rfl⟩))
  · rw [importConv, if_pos (by simp [dllImport])]; rfl

/-! ### Non-vacuity -/

/-- The texts of the type and of its declaration are fine. -/
def fineTest (P : Prog) (t : CTy) : Bool := csWords P.base t && match t with
  | .adt i g => match P.decl i g with
    | .struct docs _ fs => docs.isEmpty && fs.all fun f => f.docs.isEmpty && decide (IsWord f.name)
    | .enum docs _ vs => docs.isEmpty && vs.all fun v => v.docs.isEmpty && decide (IsWord v.name) && v.disc.isNone
    | .opaque docs => docs.isEmpty
  | _ => true

def exportTest : Export → Bool
  | .fn f => f.docs.isEmpty && decide (IsWord f.name) && f.args.all fun a => decide (IsWord a.name)
  | .const c => c.docs.isEmpty && decide (IsWord c.name) && decide ('/' ∉ c.value ∧ '\n' ∉ c.value ∧ '#' ∉ c.value) && decide (';' ∉ c.value)
  | .type _ _ => true

theorem docs_nil {docs : List Text} (h : docs.isEmpty = true) : DocsFine docs := by
  rw [List.isEmpty_iff.1 h]; exact nofun

theorem fineTest_types {P : Prog} {t : CTy} (h : fineTest P t = true) : csWords P.base t = true ∧ TypeFine P t := by
  obtain ⟨h1, h2⟩ := Bool.and_eq_true_iff.1 h
  refine ⟨h1, ?_⟩
  cases t with
  | adt i g =>
    simp only at h2
    show DeclFine (P.decl i g)
    cases hd : P.decl i g with
    | struct docs size fs =>
      rw [hd] at h2
      simp only [Bool.and_eq_true, List.all_eq_true] at h2
      exact ⟨docs_nil h2.1, fun f hf => ⟨docs_nil (h2.2 f hf).1, of_decide_eq_true (h2.2 f hf).2⟩⟩
    | enum docs int vs =>
      rw [hd] at h2
      simp only [Bool.and_eq_true, List.all_eq_true] at h2
      refine ⟨docs_nil h2.1, fun v hv => ?_⟩
      obtain ⟨⟨a, b⟩, e⟩ := h2.2 v hv
      exact ⟨docs_nil a, of_decide_eq_true b, fun d he => by rw [he] at e; cases e⟩
    | «opaque» docs => rw [hd] at h2; exact docs_nil h2
  | _ => trivial

theorem exportTest_fine {e : Export} (h : exportTest e = true) : ExportFine e := by
  cases e with
  | fn f =>
    simp only [exportTest, Bool.and_eq_true, List.all_eq_true] at h
    exact ⟨docs_nil h.1.1, of_decide_eq_true h.1.2, fun a ha => of_decide_eq_true (h.2 a ha)⟩
  | const c =>
    simp only [exportTest, Bool.and_eq_true] at h
    exact ⟨docs_nil h.1.1.1, of_decide_eq_true h.1.1.2, (of_decide_eq_true h.1.2 : _ ∧ _ ∧ _), of_decide_eq_true h.2⟩
  | type n t => trivial

theorem fine_of {P : Prog} {es : List Export} (L : List CTy) (hL : ∀ t, Reach P es t → t ∈ L) (h : L.all (fineTest P) = true)
    (he : es.all exportTest = true) (hn : (es.map Export.name).Nodup) : Fine P (Sample.cfg .csharp true) es where
  lang := rfl
  banner := rfl
  lib := (by decide : IsWord t!"shapes")
  sorted _ := by
    clear h he hL
    intro e m e' m' eq
    induction es with
    | nil => cases m
    | cons x es ih =>
      rw [List.map_cons, List.nodup_cons] at hn
      rcases List.mem_cons.1 m with h1 | h1 <;> rcases List.mem_cons.1 m' with h2 | h2
      · rw [h1, h2]
      · exact absurd (List.mem_map.2 ⟨_, h2, by rw [← eq, h1]⟩) hn.1
      · exact absurd (List.mem_map.2 ⟨_, h1, by rw [eq, h2]⟩) hn.1
      · exact ih hn.2 h1 h2
  types t ht := fineTest_types (List.all_eq_true.1 h t (hL t ht))
  exports e hm := exportTest_fine (List.all_eq_true.1 he e hm)

mutual
theorem RShape.one {A : Abi} {P : Prog} {t : CTy} {s s' : Shape} (h : RShape A P t s) (h' : RShape A P t s') : s = s' :=
  match h, h' with
  | .int _, .int _ | .float, .float | .double, .double | .bool, .bool | .cint, .cint | .cchar, .cchar | .void, .void => rfl
  | .fptr, .fptr | .constPtr, .constPtr | .mutPtr, .mutPtr => rfl
  | .array h, .array h' => by rw [RShape.one h h']
  | .alias h, .alias h' => RShape.one h h'
  | .enum e, .enum e' => by rw [e] at e'; cases e'; rfl
  | .struct e h, .struct e' h' => by rw [e] at e'; cases e'; rw [RShapes.one h h']
  | .enum e, .struct e' _ => by rw [e] at e'; cases e'
  | .struct e _, .enum e' => by rw [e] at e'; cases e'
theorem RShapes.one {A : Abi} {P : Prog} {fs : List Field} {ss ss' : List Shape} (h : RShapes A P fs ss) (h' : RShapes A P fs ss') : ss = ss' :=
  match h, h' with
  | .nil, .nil => rfl
  | .cons h _ t, .cons h' _ t' => by rw [RShape.one h h', RShapes.one t t']
end

namespace Sample
open Verif.Headers.Sample

theorem fine : Cs.Fine P (cfg .csharp true) es :=
  fine_of used (fun _ => reach_used) (by decide +kernel) (by decide +kernel) (by decide +kernel)

theorem unambiguous : Cs.Unambiguous P es where
  types := by
    intro t t' ht ht' hn hn' e
    have h1 := reach_used ht
    have h2 := reach_used ht'
    simp only [used, List.mem_cons, List.not_mem_nil, or_false] at h1 h2
    rcases h1 with rfl | rfl | rfl | rfl | rfl | rfl | rfl | rfl | rfl | rfl | rfl <;> first | cases hn; done | skip
    all_goals
      rcases h2 with rfl | rfl | rfl | rfl | rfl | rfl | rfl | rfl | rfl | rfl | rfl <;> first | rfl | (cases hn'; done) | exact absurd e (by decide +kernel)
  fns := by
    intro t f ht hn hf
    have h1 := reach_used ht
    simp only [used, List.mem_cons, List.not_mem_nil, or_false] at h1
    simp only [es, List.mem_cons, List.not_mem_nil, or_false, Export.fn.injEq, reduceCtorEq, false_or] at hf
    rcases hf with rfl | rfl <;>
      rcases h1 with rfl | rfl | rfl | rfl | rfl | rfl | rfl | rfl | rfl | rfl | rfl <;> first | (cases hn; done) | decide +kernel

theorem marshals : Marshals P es := by
  intro t ht
  have h1 := reach_used ht
  simp only [used, List.mem_cons, List.not_mem_nil, or_false] at h1
  rcases h1 with rfl | rfl | rfl | rfl | rfl | rfl | rfl | rfl | rfl | rfl | rfl <;> exact ⟨nofun, nofun⟩

theorem sized : Sized x64 P es where
  structs i g docs size fs s hr hd hs := by
    have h1 := reach_used hr
    simp only [used, color, line, point, List.mem_cons, List.not_mem_nil, or_false, reduceCtorEq, false_or, CTy.adt.injEq] at h1
    rcases h1 with ⟨rfl, rfl⟩ | ⟨rfl, rfl⟩ | ⟨rfl, rfl⟩
    · exact nomatch (show P.decl 1 [] = .enum _ _ _ from rfl).symm.trans hd
    · rw [RShape.one hs line_shape]; cases (show P.decl 2 [] = .struct _ 24 _ from rfl).symm.trans hd; rfl
    · rw [RShape.one hs (point_shape x64 rfl)]; cases (show P.decl 0 [] = .struct _ 8 _ from rfl).symm.trans hd; rfl
  arrays n t s hr hs := by
    have h1 := reach_used hr
    simp only [used, color, line, point, List.mem_cons, List.not_mem_nil, or_false, reduceCtorEq, false_or, CTy.array.injEq] at h1
    obtain ⟨rfl, rfl⟩ := h1
    rw [RShape.one hs (.array (color_shape x64))]; rfl

theorem reach_line : Reach P es line :=
  .constPtr (.export (e := .fn draw) (by simp [es]) (by simp [Export.types, draw]))

theorem plain_point : Plain P point := .struct rfl fun f hf _ => by
  simp only [List.mem_cons, List.not_mem_nil, or_false] at hf
  rcases hf with rfl | rfl <;> exact .int _

theorem plain_color : Plain P color := Plain.enum (i := 1) (g := []) (docs := []) (int := some .u8) (vs := [⟨[], t!"Red", none⟩, ⟨[], t!"Blue", none⟩]) rfl

theorem plain_line : Plain P line := .struct rfl fun f hf _ => by
  simp only [List.mem_cons, List.not_mem_nil, or_false] at hf
  rcases hf with rfl | rfl | rfl
  · exact plain_point
  · exact .constPtr
  · exact .array plain_color

theorem solid : Solid P es where
  distinct := by decide
  types t ht := by
    have h1 := reach_used ht
    simp only [used, List.mem_cons, List.not_mem_nil, or_false] at h1
    rcases h1 with rfl | rfl | rfl | rfl | rfl | rfl | rfl | rfl | rfl | rfl | rfl
    · exact ⟨by decide, by decide +kernel, fun k hk => by cases hk; rfl⟩
    · trivial
    · refine ⟨by decide, fun f hf _ => ?_⟩
      simp only [List.mem_cons, List.not_mem_nil, or_false] at hf
      rcases hf with rfl | rfl | rfl <;> exact ⟨by decide +kernel, by decide +kernel, rfl⟩
    · trivial
    · exact .inr plain_line
    · intro a ha
      rw [List.mem_singleton.1 ha]; rfl
    · trivial
    · refine ⟨by decide, fun f hf _ => ?_⟩
      simp only [List.mem_cons, List.not_mem_nil, or_false] at hf
      rcases hf with rfl | rfl <;> exact ⟨by decide +kernel, by decide +kernel, rfl⟩
    · trivial
    · exact .inr plain_point
    · exact ⟨by decide, rfl, nofun⟩
  exports e he := by
    simp only [es, List.mem_cons, List.not_mem_nil, or_false] at he
    rcases he with rfl | rfl | rfl | rfl
    · refine ⟨⟨by decide +kernel, by decide, by decide⟩, by decide, fun a ha => ?_⟩
      rw [List.mem_singleton.1 ha]; exact ⟨by decide +kernel, rfl⟩
    · trivial
    · refine .inr ⟨⟨by decide +kernel, by decide, by decide⟩, ?_⟩
      exact ConstSolid.pos (k := .u32) (n := 640) (by decide)
    · refine ⟨⟨by decide +kernel, by decide, by decide⟩, by decide, fun a ha => ?_⟩
      simp only [draw, List.mem_cons, List.not_mem_nil, or_false] at ha
      rcases ha with rfl | rfl <;> exact ⟨by decide +kernel, rfl⟩

end Sample

/-- The sample of C46, whose types have callbacks, arrays and pointers, meets the hypotheses: `Line` has 24 bytes in C#. -/
example (eval : List Text → Text → Bool) (defs : List Text) :
    ∃ f, ReadsAs eval defs (generated Sample.P 7 (Sample.cfg .csharp true) Sample.es okSink).1.out f ∧
      ∃ s', Native x64 f.decls [] (.name (csName Sample.P.base Sample.line)) s' ∧ s'.lay x64 = (24, 8) := by
  obtain ⟨f, h1, h2⟩ := C87_types_partial _ 7 _ _ okSink Sample.fine Sample.unambiguous Sample.marshals (Sample.succeeds .csharp true) eval defs
  obtain ⟨s', h3, h4⟩ := h2 x64 _ _ Sample.sized Sample.reach_line rfl Sample.line_shape (by decide)
  exact ⟨f, h1, s', h3, h4.1.symm⟩

example (eval : List Text → Text → Bool) (defs : List Text) :
    ∃ f, ReadsAs eval defs (generated Sample.P 7 (Sample.cfg .csharp true) Sample.es okSink).1.out f ∧
      ∃ as mods n ms ss', find f.decls (csName Sample.P.base Sample.line) = some (.struct as mods n ms) ∧
        (placed x64 0 (ms.map Member.name) ss').map (fun m => (m.1, m.2.1)) = [(t!"from", 0), (t!"to", 8), (t!"colors", 16)] := by
  obtain ⟨f, h1, h2⟩ := C87_members_partial _ 7 _ _ okSink Sample.fine Sample.unambiguous Sample.marshals (Sample.succeeds .csharp true) eval defs
  refine ⟨f, h1, ?_⟩
  have hl := Sample.line_shape
  cases hl with
  | struct hd hs =>
    obtain ⟨as, mods, n, ms, ss', h3, h4, h5⟩ := h2 x64 2 [] _ _ _ _ Sample.sized Sample.reach_line hd hs
    cases (show Sample.P.decl 2 [] = .struct _ _ _ from rfl).symm.trans hd
    refine ⟨as, mods, n, ms, ss', h3, ?_⟩
    rw [show (placed x64 0 _ _).filter _ = _ from rfl] at h5
    generalize placed x64 0 (ms.map Member.name) ss' = l at h5
    match h5 with
    | .cons a (.cons b (.cons c .nil)) => simp [← a.1, ← a.2.1, ← b.1, ← b.2.1, ← c.1, ← c.2.1]; decide

example (eval : List Text → Text → Bool) (defs : List Text) (h : eval defs t!"IOS" = false) :
    ∃ f, ReadsAs eval defs (generated Sample.P 7 (Sample.cfg .csharp true) Sample.es okSink).1.out f ∧
      ∃ mods, .const mods (.name t!"string") t!"RustLib" [.bad '"', .id t!"shapes", .bad '"'] ∈ classMembers t!"Ffi" f.decls := by
  obtain ⟨f, h1, mods, v, h2, h3, _⟩ := C87_library _ 7 _ _ okSink Sample.fine Sample.unambiguous (Sample.succeeds .csharp true) eval defs
  rw [h3 h] at h2
  exact ⟨f, h1, mods, h2⟩

example (eval : List Text → Text → Bool) (defs : List Text) :
    ∃ f, ReadsAs eval defs (generated Sample.P 7 (Sample.cfg .csharp true) Sample.es okSink).1.out f ∧
      ∃ as mods ret params, .method as mods ret t!"draw" params ∈ classMembers t!"Ffi" f.decls ∧ importConv false as = some .cdecl ∧ params.length = 2 := by
  obtain ⟨f, h1, h2⟩ := C87_functions_partial _ 7 _ _ okSink Sample.fine Sample.unambiguous Sample.marshals (Sample.succeeds .csharp true) eval defs
  obtain ⟨as, mods, ret, params, h3, _, _, _, h4, h5, _⟩ := h2 Sample.draw (by simp [Sample.es])
  match h5 with
  | .cons _ (.cons _ .nil) => exact ⟨f, h1, as, mods, ret, _, h3, h4, rfl⟩

example (eval : List Text → Text → Bool) (defs : List Text) :
    ∃ f, ReadsAs eval defs (generated Sample.P 7 (Sample.cfg .csharp true) Sample.es okSink).1.out f ∧
      ∃ as mods ret n params, find f.decls n = some (.delegate as mods ret n params) ∧ params.length = 1 := by
  obtain ⟨f, h1, h2⟩ := C87_callbacks_partial _ 7 _ _ okSink Sample.fine Sample.unambiguous Sample.marshals (Sample.succeeds .csharp true) eval defs
  obtain ⟨as, mods, ret, params, h3, _, _, h4, _⟩ := h2 .bool [Sample.point]
    (.export (e := .fn Sample.draw) (by simp [Sample.es]) (by simp [Export.types, Sample.draw]))
  match h4 with
  | .cons _ .nil => exact ⟨f, h1, as, mods, ret, _, _, h3, rfl⟩

example (eval : List Text → Text → Bool) (defs : List Text) :
    ∃ f, ReadsAs eval defs (generated Sample.P 7 (Sample.cfg .csharp true) Sample.es okSink).1.out f ∧ Compiles f :=
  C87_compiles_partial _ 7 _ _ okSink Sample.fine Sample.unambiguous Sample.solid (Sample.succeeds .csharp true) eval defs

example (eval : List Text → Text → Bool) (defs : List Text) :
    ∃ f, ReadsAs eval defs (generated Sample.P 7 (Sample.cfg .csharp true) Sample.es okSink).1.out f ∧
      ∃ as mods ret params, .method as mods ret t!"draw" params ∈ classMembers t!"Ffi" f.decls ∧ importConv true as = some .stdcall := by
  obtain ⟨f, h1, h2⟩ := C87_fails_win32 _ 7 _ _ okSink Sample.fine Sample.unambiguous (Sample.succeeds .csharp true) eval defs
  exact ⟨f, h1, h2 Sample.draw (by simp [Sample.es])⟩

/-! ### Headers that compilers reject -/

/-- Compilers read the header as before, also if names clash. -/
theorem header_reads {P : Prog} {m : Nat} {c : Config} {es : List Export} {k : Sink} (hf : Fine P c es) (h : (generated P m c es k).2 = none)
    (eval : List Text → Text → Bool) (defs : List Text) :
    ReadsAs eval defs (generated P m c es k).1.out (file c (eval defs t!"IOS") ((generated P m c es k).1.items.flatMap (csDecls P))) := by
  obtain ⟨p, e, body, defined, hp, he, hi, hfit, ho, hl⟩ := header_cov hf.lang hf.sorted h
  have := reads_file (eval := eval) hf.lang hf.lib hf.banner hp he (fun it hit => ⟨fits_fine hf (hfit it hit).1, (hfit it hit).2⟩) defs
  have ht : ∀ s : Text, csDecls P (.text s) = [] := fun _ => rfl
  have hw : ∀ s : Text, (render P (.text s)).writes = [s] := fun _ => rfl
  have hd : (generated P m c es k).1.items.flatMap (csDecls P) = body.flatMap (csDecls P) := by
    rw [hi, List.flatMap_cons, List.flatMap_cons, List.flatMap_append, List.flatMap_cons, ht, ht, ht]; simp
  rw [hd, out_eq h, hi, List.flatMap_cons, List.flatMap_cons, List.flatMap_append]
  rw [hw, hw, List.flatMap_cons, hw, List.flatMap_nil, List.append_nil, flat_append, flat_append, flat_append]
  simp only [flat, List.flatten_cons, List.flatten_nil, List.append_nil] at this ⊢
  rw [← List.append_assoc, ← List.append_assoc]
  exact this

/-- Fine names and texts, the header is generated, and C# compilers read it but do not accept it. -/
def Rejected (P : Prog) (es : List Export) : Prop :=
  Fine P (Sample.cfg .csharp true) es ∧ (generated P 7 (Sample.cfg .csharp true) es okSink).2 = none ∧
  ∀ eval defs, ∃ f, ReadsAs eval defs (generated P 7 (Sample.cfg .csharp true) es okSink).1.out f ∧ ¬ Compiles f

/-- The name is one of a struct with a callback. -/
def managed (ds : List Decl) (n : Text) : Bool := match find ds n with
  | some (.struct _ _ _ ms) => ms.any fun
    | .field _ v => match v.ty with
      | .name n' => match find ds n' with
        | some (.delegate ..) => true
        | _ => false
      | _ => false
    | _ => false
  | _ => false

/-- A member that is not accepted. -/
def badMember (ds : List Decl) (owner : Text) (x : Member) : Bool := x.name ∈ reserved || x.name == owner || match x with
  | .fixed _ (.name n) _ _ => n ∉ bufferTypes
  | .const _ (.name n) _ _ => n ∉ integers.map (·.1) ++ [t!"bool", t!"double", t!"string"]
  | .method _ _ _ _ ps => ps.any fun p => p.name ∈ reserved || match p.ty with
    | .ptr (.name n) => n != kVoid && managed ds n
    | _ => false
  | _ => false

def bad (ds : List Decl) : Bool := ds.any fun
  | .cls _ n ms => ms.any (badMember ds n)
  | .struct _ _ n ms => ms.any (badMember ds n)
  | _ => false

theorem managed_not {ds : List Decl} {n : Text} (h : managed ds n = true) : ¬ Unmanaged ds (.name n) := by
  intro hu
  rw [managed] at h
  cases hu with
  | builtin hn _ => rw [hn] at h; cases h
  | enum he => rw [he] at h; cases h
  | struct hs hm =>
    rw [hs] at h
    obtain ⟨x, hx, h⟩ := List.any_eq_true.1 h
    cases x with
    | field mods v =>
      simp only at h
      have := hm _ _ hx
      obtain ⟨as, ty, name⟩ := v
      cases ty with
      | ptr t => cases h
      | name n' =>
        simp only at h
        cases this with
        | builtin hn _ => rw [hn] at h; cases h
        | enum he => rw [he] at h; cases h
        | struct hs _ => rw [hs] at h; cases h
    | _ => cases h

theorem lookup_mem {n : Text} {p : Int × Int} : ∀ {l : List (Text × Int × Int)}, l.lookup n = some p → n ∈ l.map (·.1)
  | (m, q) :: l, h => by
    rw [List.lookup_cons] at h
    split at h
    · rename_i e; rw [eq_of_beq e]; exact List.mem_cons_self
    · exact List.mem_cons_of_mem _ (lookup_mem h)

theorem badMember_not {ds : List Decl} {mods : List Text} {owner : Text} {x : Member} (h : badMember ds owner x = true) :
    ¬ MemberOk ds mods owner x := by
  intro ho
  rw [badMember.eq_def, Bool.or_eq_true, Bool.or_eq_true] at h
  rcases h with (h | h) | h
  · cases x <;> exact ho.1 (of_decide_eq_true h)
  · cases x <;> exact ho.2.1 (eq_of_beq h)
  · cases x with
    | field _ _ => cases h
    | fixed _ t n k =>
      obtain ⟨_, _, _, _, y, hy, _, rfl⟩ := ho
      exact of_decide_eq_true h hy
    | const _ t n v =>
      obtain ⟨_, _, y, rfl, hc⟩ := ho
      have h' := of_decide_eq_true h
      cases hc with
      | int _ hl _ _ _ => exact h' (List.mem_append.2 (.inl (lookup_mem hl)))
      | bool _ _ => exact h' (by decide)
      | double _ _ _ => exact h' (by decide)
      | string => exact h' (by decide)
    | method as mods' ret n ps =>
      obtain ⟨p, hp, h⟩ := List.any_eq_true.1 h
      have hps := ho.2.2.2.2.2.2
      rcases Bool.or_eq_true_iff.1 h with h | h
      · exact hps.names p hp (of_decide_eq_true h)
      · have hu := (hps.types p hp).1
        obtain ⟨pa, pt, pn⟩ := p
        cases pt with
        | name _ => cases h
        | ptr t => cases t with
          | ptr _ => cases h
          | name n =>
            simp only at h hu
            cases hu with
            | void => simp at h
            | ptr _ hm => exact managed_not (Bool.and_eq_true_iff.1 h).2 hm

theorem bad_not {f : File} (h : bad f.decls = true) : ¬ Compiles f := by
  intro hc
  obtain ⟨d, hd, h⟩ := List.any_eq_true.1 h
  have ho := hc.decls d hd
  cases d with
  | cls mods n ms =>
    obtain ⟨x, hx, h⟩ := List.any_eq_true.1 h
    exact badMember_not h (ho.2.2 x hx)
  | struct as mods n ms =>
    obtain ⟨x, hx, h⟩ := List.any_eq_true.1 h
    exact badMember_not h (ho.2.2 x hx)
  | _ => cases h

theorem rejected {P : Prog} {es : List Export} (hf : Fine P (Sample.cfg .csharp true) es)
    (h : (generated P 7 (Sample.cfg .csharp true) es okSink).2 = none)
    (hb : ∀ ios, bad (file (Sample.cfg .csharp true) ios ((generated P 7 (Sample.cfg .csharp true) es okSink).1.items.flatMap (csDecls P))).decls = true) :
    Rejected P es :=
  ⟨hf, h, fun eval defs => ⟨_, header_reads hf h eval defs, bad_not (hb _)⟩⟩

namespace Sample

/-- `struct S { cb: fn() }` -/
def odd : Prog where
  base _ := t!"S"
  decl _ _ := .struct [] 8 [⟨[], t!"cb", .fptr .void [], 8, 8⟩]
  size _ := 16

end Sample

/-- **C87** fails for names that C# reserves and Rust does not: `fn f(out: u32)`. -/
theorem C87_fails_keyword : Rejected Sample.odd [.fn ⟨[], t!"f", [⟨t!"out", .int .u32⟩], .void⟩] :=
  rejected (fine_of [.int .u32, .void] (fun t ht => reach_closed _ (by simp [Export.types]) (by simp) ht) (by decide +kernel) (by decide +kernel)
    (by decide +kernel)) (by decide +kernel) (by decide +kernel)

/-- **C87** fails for arrays of `usize`: `fn f(x: [usize; 2])`. The header has `fixed UIntPtr arr[2];`. -/
theorem C87_fails_usize_array : Rejected Sample.odd [.fn ⟨[], t!"f", [⟨t!"x", .array 2 (.int .usize)⟩], .void⟩] :=
  rejected (fine_of [.array 2 (.int .usize), .int .usize, .void] (fun t ht => reach_closed _ (by simp [Export.types]) (by simp) ht) (by decide +kernel)
    (by decide +kernel) (by decide +kernel)) (by decide +kernel) (by decide +kernel)

/-- **C87** fails for pointers to structs with callbacks: `struct S { cb: fn() }`, `fn f(x: *const S)`. The field is a delegate, so
that the struct is managed. -/
theorem C87_fails_callback : Rejected Sample.odd [.fn ⟨[], t!"f", [⟨t!"x", .constPtr (.adt 0 [])⟩], .void⟩] :=
  rejected (fine_of [.constPtr (.adt 0 []), .adt 0 [], .fptr .void [], .void] (fun t ht => reach_closed _ (by simp [Export.types]) (by simp [Sample.odd]) ht)
    (by decide +kernel) (by decide +kernel) (by decide +kernel)) (by decide +kernel) (by decide +kernel)

/-- **C87** fails for constants of type `f32`: `const X: f32 = 1.5`. The header has `const float X = 1.5;`. -/
theorem C87_fails_f32 : Rejected Sample.odd [.const ⟨[], t!"X", .float, false, t!"1.5"⟩] :=
  rejected (fine_of [.float] (fun t ht => reach_closed _ (by simp [Export.types]) (by simp) ht) (by decide +kernel) (by decide +kernel)
    (by decide +kernel)) (by decide +kernel) (by decide +kernel)

/-- **C87** fails for constants of type `usize`: `const X: usize = 5`. The header has `const UIntPtr X = 5;`. (C# 11 accepts it.) -/
theorem C87_fails_usize : Rejected Sample.odd [.const ⟨[], t!"X", .int .usize, false, t!"5"⟩] :=
  rejected (fine_of [.int .usize] (fun t ht => reach_closed _ (by simp [Export.types]) (by simp) ht) (by decide +kernel) (by decide +kernel)
    (by decide +kernel)) (by decide +kernel) (by decide +kernel)

/-- **C87** fails for functions with the name of the class that they are in: `fn Ffi()`. -/
theorem C87_fails_class : Rejected Sample.odd [.fn ⟨[], t!"Ffi", [], .void⟩] :=
  rejected (fine_of [.void] (fun t ht => reach_closed _ (by simp [Export.types]) (by simp) ht) (by decide +kernel) (by decide +kernel)
    (by decide +kernel)) (by decide +kernel) (by decide +kernel)

end Verif.Headers.Cs
