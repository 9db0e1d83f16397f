import Verif.Headers.CsHeader
/-! # C# compilers accept a header -/
namespace Verif.Headers.Cs
open Text

section
variable {P : Prog} {es : List Export} {ds : List Decl} (hd : Finds P es ds) (hs : ∀ t, Reach P es t → TypeSolid P t)
include hd

/-! ### Types -/

omit hd in
theorem ty_unit {b : Nat → Text} : ∀ {t : CTy}, isUnit t = true → ty b t = .name kVoid
  | .void, _ => rfl
  | .alias _ _ t, h => ty_unit (t := t) h

/-- What has no callbacks is unmanaged. -/
theorem unmanaged {t : CTy} (h : Plain P t) (hr : Reach P es t) : Unmanaged ds (ty P.base t) := by
  induction h with
  | int k => exact .builtin (hd.builtin _ (builtin_int P.base k)) (builtin_int P.base k)
  | float => exact .builtin (hd.builtin t!"float" (by decide)) (by decide : t!"float" ∈ builtin)
  | double => exact .builtin (hd.builtin t!"double" (by decide)) (by decide : t!"double" ∈ builtin)
  | bool => exact .builtin (hd.builtin t!"bool" (by decide)) (by decide : t!"bool" ∈ builtin)
  | cint => exact .builtin (hd.builtin t!"int" (by decide)) (by decide : t!"int" ∈ builtin)
  | cchar => exact .builtin (hd.builtin t!"byte" (by decide)) (by decide : t!"byte" ∈ builtin)
  | constPtr => exact .ptr
  | mutPtr => exact .ptr
  | @array n t _ ih =>
    have hf := hd.items _ hr rfl _ (List.mem_singleton.2 rfl)
    refine .struct hf fun mods v hv => ?_
    rw [arrayMembers] at hv
    split at hv
    · cases List.mem_singleton.1 hv
    · obtain ⟨i, _, hi⟩ := List.mem_map.1 hv
      cases hi
      exact ih hr.item
  | alias _ ih => exact ih hr.inner
  | enum e =>
    have hf := hd.items _ hr rfl _ (List.mem_singleton.2 rfl)
    rw [e] at hf
    exact .enum hf
  | «opaque» e =>
    have hf := hd.items _ hr rfl _ (List.mem_singleton.2 rfl)
    rw [e] at hf
    refine .struct hf fun mods v hv => ?_
    cases List.mem_singleton.1 hv
    exact .builtin (hd.builtin t!"byte" (by decide)) (by decide : t!"byte" ∈ builtin)
  | struct e _ ih =>
    have hf := hd.items _ hr rfl _ (List.mem_singleton.2 rfl)
    rw [e] at hf
    refine .struct hf fun mods v hv => ?_
    obtain ⟨f, hf, hi⟩ := List.mem_map.1 hv
    cases hi
    rw [kept, List.mem_filter] at hf
    exact ih f hf.1 (by simpa using hf.2) (hr.field e hf.1)

include hs

theorem usable (t : CTy) (hr : Reach P es t) (hu : isUnit t = false) : Usable ds (ty P.base t) := by
  match t with
  | .int k => exact .builtin (hd.builtin _ (builtin_int P.base k)) (builtin_int P.base k)
  | .float => exact .builtin (hd.builtin t!"float" (by decide)) (by decide : t!"float" ∈ builtin)
  | .double => exact .builtin (hd.builtin t!"double" (by decide)) (by decide : t!"double" ∈ builtin)
  | .bool => exact .builtin (hd.builtin t!"bool" (by decide)) (by decide : t!"bool" ∈ builtin)
  | .cint => exact .builtin (hd.builtin t!"int" (by decide)) (by decide : t!"int" ∈ builtin)
  | .cchar => exact .builtin (hd.builtin t!"byte" (by decide)) (by decide : t!"byte" ∈ builtin)
  | .void => cases hu
  | .array n t => exact .decl (hd.items _ hr rfl _ (List.mem_singleton.2 rfl))
  | .fptr r as => exact .decl (hd.items _ hr rfl _ (List.mem_singleton.2 rfl))
  | .adt i g => exact .decl (hd.items _ hr rfl _ (List.mem_singleton.2 rfl))
  | .alias _ _ t => exact usable t hr.inner hu
  | .constPtr t =>
    cases e : isUnit t with
    | true => rw [ty, ty_unit e]; exact .void
    | false => exact .ptr (usable t hr.constPtr e) (unmanaged hd ((hs _ hr).resolve_left (by rw [e]; decide)) hr.constPtr)
  | .mutPtr t =>
    cases e : isUnit t with
    | true => rw [ty, ty_unit e]; exact .void
    | false => exact .ptr (usable t hr.mutPtr e) (unmanaged hd ((hs _ hr).resolve_left (by rw [e]; decide)) hr.mutPtr)

theorem result_ok {mods : List Text} (hm : kUnsafe ∈ mods) {t : CTy} (hr : Reach P es t) : ResultOk ds mods (ty P.base t) := by
  cases e : isUnit t with
  | true => exact .inl (ty_unit e)
  | false => exact .inr ⟨usable hd hs t hr e, fun _ => hm⟩

/-! ### Declarations of types -/

omit hd hs in
theorem number_ne {i : Nat} {n : Text} (hn : Ends n) : t!"_" ++ nat i ≠ n := by
  have : ∀ c, (t!"_" ++ nat i).getLast? = some c → c.isDigit = true := by
    intro c hc
    obtain ⟨x, hx⟩ : ∃ x, (nat i).getLast? = some x := by
      cases h : (nat i).getLast? with
      | none => exact absurd (List.getLast?_eq_none_iff.1 h) (nat_ne_nil i)
      | some x => exact ⟨x, rfl⟩
    rw [List.getLast?_append, hx] at hc
    cases hc
    exact nat_digits i _ (List.mem_of_getLast? hx)
  rintro rfl
  rcases hn with ⟨x, hx⟩ | ⟨x, hx⟩
  · exact absurd (this 't' (by rw [hx, List.getLast?_append]; rfl)) (by decide)
  · exact absurd (this 'r' (by rw [hx, List.getLast?_append]; rfl)) (by decide)

omit hd hs in
theorem number_reserved (i : Nat) : t!"_" ++ nat i ∉ reserved := by
  intro h
  have : reserved.all (fun w => w.head? != some '_') = true := by decide +kernel
  have := List.all_eq_true.1 this _ h
  simp at this

omit hd hs in
theorem numbers_nodup (l : List Nat) (h : l.Nodup) : (l.map fun i => t!"_" ++ nat i).Nodup := by
  induction l with
  | nil => exact .nil
  | cons i l ih =>
    rw [List.nodup_cons] at h
    refine List.nodup_cons.2 ⟨fun hm => ?_, ih h.2⟩
    obtain ⟨j, hj, e⟩ := List.mem_map.1 hm
    rw [nat_inj (List.append_cancel_left e)] at hj
    exact h.1 hj

omit hd hs in
theorem range_nodup (n : Nat) : (List.range n).Nodup := List.nodup_range

omit hd hs in
theorem delegate_names (b : Nat → Text) (i : Nat) (as : List CTy) :
    (delegateParams b i as).map (·.name) = (List.range' i as.length).map fun j => t!"_" ++ nat j := by
  induction as generalizing i with
  | nil => rfl
  | cons a as ih => rw [delegateParams, List.map_cons, ih]; rfl

omit hd hs in
theorem delegate_mem {b : Nat → Text} {i : Nat} {as : List CTy} : ∀ v ∈ delegateParams b i as, ∃ j, ∃ a ∈ as, v = var b (t!"_" ++ nat j) a := by
  induction as generalizing i with
  | nil => exact nofun
  | cons a as ih =>
    intro v hv
    rcases List.mem_cons.1 hv with rfl | hv
    · exact ⟨i, a, by simp, rfl⟩
    · obtain ⟨j, a', h1, h2⟩ := ih v hv
      exact ⟨j, a', by simp [h1], h2⟩

omit hd hs in
theorem nat_zero {n : Nat} (h : nat n = t!"0") : n = 0 := nat_inj (h.trans (by decide))

omit hd hs in
theorem fixed_type {b : Nat → Text} {k : IntTy} (h : isWordSized k = false) : csName b (.int k) ∈ bufferTypes :=
  (by cases k <;> first | (cases h; done) | decide : k.cs ∈ bufferTypes)

omit hd hs in
theorem mem_builtin {n : Text} (h : n ∈ bufferTypes) : n ∈ builtin := List.mem_append.2 (.inl h)

omit hd hs in
theorem int_base {b : Nat → Text} {k : IntTy} (h : isWordSized k = false) : ∃ p ∈ integers, csName b (.int k) = p.1 :=
  (by cases k <;> first | (cases h; done) | decide : ∃ p ∈ integers, k.cs = p.1)

theorem array_member {n : Nat} {t : CTy} (hr : Reach P es (.array n t)) :
    ((arrayMembers P.base n t).map Member.name).Nodup ∧ ∀ x ∈ arrayMembers P.base n t, MemberOk ds typeMods (csName P.base (.array n t)) x := by
  obtain ⟨s1, s2, s3⟩ := hs _ hr
  have he := item_ends (b := P.base) (t := .array n t) rfl
  rw [arrayMembers]
  cases hfix : isFixed t with
  | true =>
    obtain ⟨k, rfl⟩ : ∃ k, t = .int k := by cases t <;> first | (cases hfix; done) | exact ⟨_, rfl⟩
    rw [if_pos rfl]
    refine ⟨by simp, fun x hx => ?_⟩
    rw [List.mem_singleton.1 hx]
    have hk := fixed_type (b := P.base) (s3 k rfl)
    exact ⟨by decide +kernel, fun e => he.not_mem (l := [t!"arr"]) (by decide) (by rw [← e]; simp), by decide, fun e => s1 (nat_zero e), _, hk,
      hd.builtin _ (mem_builtin hk), rfl⟩
  | false =>
    rw [if_neg (by decide)]
    refine ⟨?_, fun x hx => ?_⟩
    · rw [List.map_map]; exact numbers_nodup _ (range_nodup n)
    · obtain ⟨i, _, rfl⟩ := List.mem_map.1 hx
      exact ⟨number_reserved i, number_ne he, usable hd hs t hr.item s2, fun _ => by decide⟩

theorem type_ok {t : CTy} (hr : Reach P es t) (hi : isItem t = true) : ∀ d ∈ typeDecls P t, DeclOk ds d := by
  intro d hm
  have he := item_ends (b := P.base) hi
  cases t with
  | array n t => rw [List.mem_singleton.1 hm]; exact ⟨he.reserved, array_member hd hs hr⟩
  | fptr ret args =>
    rw [List.mem_singleton.1 hm]
    refine ⟨he.reserved, result_ok hd hs (by decide) hr.ret, ?_, ?_, ?_⟩
    · rw [delegate_names]; exact numbers_nodup _ List.nodup_range'
    · intro p hp
      obtain ⟨j, a, _, rfl⟩ := delegate_mem p hp
      exact number_reserved j
    · intro p hp
      obtain ⟨j, a, ha, rfl⟩ := delegate_mem p hp
      exact ⟨usable hd hs a (hr.arg ha) (hs _ hr a ha), fun _ => by decide⟩
  | adt i g =>
    rw [List.mem_singleton.1 hm]
    have hsol := hs _ hr
    rw [TypeSolid] at hsol
    cases hx : P.decl i g with
    | struct docs size fs =>
      rw [hx] at hsol
      refine ⟨he.reserved, ?_, fun x hx' => ?_⟩
      · rw [fieldMembers, List.map_map]
        exact ((List.filter_sublist).map _).nodup hsol.1
      · obtain ⟨f, hf, rfl⟩ := List.mem_map.1 hx'
        rw [kept, List.mem_filter] at hf
        obtain ⟨h1, h2, h3⟩ := hsol.2 f hf.1 (by simpa using hf.2)
        exact ⟨h1, h2, usable hd hs _ (hr.field hx hf.1) h3, fun _ => by decide⟩
    | enum docs int vs =>
      rw [hx] at hsol
      refine ⟨he.reserved, hsol.1, ?_, ?_⟩
      · intro n hn
        obtain ⟨v, hv, rfl⟩ := List.mem_map.1 hn
        exact hsol.2.1 v hv
      · cases int with
        | none => exact ⟨(t!"int", -2147483648, 2147483647), by decide, rfl, hd.builtin _ (by decide)⟩
        | some k =>
          obtain ⟨p, h1, h2⟩ := int_base (b := P.base) (hsol.2.2 k rfl)
          refine ⟨p, h1, h2, hd.builtin _ (mem_builtin (List.mem_append.2 (.inl (List.mem_map.2 ⟨p, h1, rfl⟩))))⟩
    | «opaque» docs =>
      refine ⟨he.reserved, by simp, fun x hx => ?_⟩
      rw [List.mem_singleton.1 hx]
      exact ⟨by decide +kernel, fun e => he.not_mem (l := [t!"OPAQUE"]) (by decide) (by rw [← e]; simp),
        .builtin (hd.builtin t!"byte" (by decide)) (by decide), fun h => nomatch h⟩
  | _ => cases hi

/-! ### Functions and constants -/

theorem func_ok {f : Fn} (hf : .fn f ∈ es) (he : ExportSolid (.fn f)) :
    MemberOk ds ffiMods kFfi (.method (retAttrs f.ret ++ [dllImport]) methodMods (ty P.base f.ret) f.name (f.args.map fun a => var P.base a.name a.ty)) := by
  obtain ⟨⟨n1, n2, _⟩, h2, h3⟩ := he
  have hr : ∀ t ∈ Export.types (.fn f), Reach P es t := fun t ht => .export hf ht
  refine ⟨n1, n2, by decide, by decide, ⟨true, ?_⟩, result_ok hd hs (by decide) (hr _ (by rw [Export.types]; simp)), ?_, ?_, ?_⟩
  · rw [importConv, if_pos (by simp [dllImport])]; rfl
  · rw [List.map_map]; exact h2
  · intro p hp
    obtain ⟨a, ha, rfl⟩ := List.mem_map.1 hp
    exact (h3 a ha).1
  · intro p hp
    obtain ⟨a, ha, rfl⟩ := List.mem_map.1 hp
    exact ⟨usable hd hs _ (hr _ (by rw [Export.types]; simp; exact .inl ⟨a, ha, rfl⟩)) (h3 a ha).2, fun _ => by decide⟩

omit hd hs in
theorem bounds_lookup {b : Nat → Text} {k : IntTy} (h : isWordSized k = false) : integers.lookup (csName b (.int k)) = some (bounds k) := by
  cases k <;> first | (cases h; done) | rfl

omit hd hs in
theorem bounds_small {k : IntTy} : (bounds k).1 ≤ 0 := by cases k <;> decide

omit hd hs in
theorem digits_word {a : Text} (h : isDigits a = true) : IsWord a := by
  rw [isDigits, Bool.and_eq_true] at h
  refine ⟨by rintro rfl; simp at h, fun c hc => ?_⟩
  have := List.all_eq_true.1 h.2 c hc
  have e : ∀ n : Fin 10, isWordChar (Char.ofNat (48 + n.val)) = true := by decide
  have hb : 48 ≤ c.toNat ∧ c.toNat ≤ 57 := by simpa [Char.le_def, UInt32.le_iff_toNat_le] using this
  have := e ⟨c.toNat - 48, by omega⟩
  rw [show 48 + (c.toNat - 48) = c.toNat by omega, Char.ofNat_toNat] at this
  exact this

omit hs in
theorem const_ok {t : CTy} {v : Text} (h : ConstSolid t v) : ∃ x, ty P.base t = .name x ∧ ConstOk ds x (lex v) := by
  cases h with
  | @pos k n hn =>
    have hk : isWordSized k = false := by cases k <;> first | rfl | (simp only [bounds] at hn; omega)
    refine ⟨_, rfl, .int (hd.builtin _ (builtin_int P.base k)) (bounds_lookup hk) (z := n) (Int.le_trans bounds_small (Int.natCast_nonneg n)) hn (.inl ⟨Int.natCast_nonneg n, ?_⟩)⟩
    rw [lex_word (nat_isWord n)]; rfl
  | @neg k n h0 hn =>
    have hk : isWordSized k = false := by cases k <;> first | rfl | (simp [bounds] at hn; omega)
    have h1 : (0 : Int) ≤ (bounds k).2 := by cases k <;> first | decide | cases hk
    refine ⟨_, rfl, .int (hd.builtin _ (builtin_int P.base k)) (bounds_lookup hk) (z := -(n : Int)) hn (Int.le_trans (by omega) h1) (.inr ⟨by omega, ?_⟩)⟩
    rw [show lex ('-' :: nat n) = .bad '-' :: lex (nat n) from rfl, lex_word (nat_isWord n), Int.natAbs_neg, Int.natAbs_natCast]
  | true => exact ⟨_, rfl, .bool (hd.builtin _ (by decide)) (.inl rfl)⟩
  | false => exact ⟨_, rfl, .bool (hd.builtin _ (by decide)) (.inr rfl)⟩
  | @double a b ha hb =>
    refine ⟨_, rfl, ?_⟩
    have e : lex (a ++ '.' :: b) = [.id a, .bad '.', .id b] := by
      have := lx_word (s := t!".") (ts := [.bad '.']) (digits_word ha) rfl (fun _ => rfl) b
      rw [lex_word (digits_word hb)] at this
      simpa using this
    rw [e]
    exact .double (hd.builtin _ (by decide)) ha hb

end

/-! ### The class `Ffi` -/

/-- Its members, of an item. -/
def itemMembers (P : Prog) : Item → List Member
  | .func _ f => [.method (retAttrs f.ret ++ [dllImport]) methodMods (ty P.base f.ret) f.name (f.args.map fun a => var P.base a.name a.ty)]
  | .const _ c => if c.untyped then [] else [.const [kPublic] (ty P.base c.ty) c.name (lex c.value)]
  | _ => []

theorem classMembers_append (n : Text) (a b : List Decl) : classMembers n (a ++ b) = classMembers n a ++ classMembers n b := by
  induction a with
  | nil => rfl
  | cons d a ih =>
    cases d with
    | cls mods n' ms =>
      rw [List.cons_append, classMembers, classMembers]
      split
      · rw [ih, List.append_assoc]
      · exact ih
    | _ => exact ih

theorem typeDecls_class (P : Prog) (n : Text) (t : CTy) : classMembers n (typeDecls P t) = [] := by
  cases t with
  | adt i g => rw [typeDecls]; cases P.decl i g <;> rfl
  | _ => rfl

theorem csDecls_class (P : Prog) (it : Item) : classMembers kFfi (csDecls P it) = itemMembers P it := by
  cases it with
  | type lang t => exact typeDecls_class P _ t
  | func lang f => rw [csDecls, classMembers, if_pos rfl]; rfl
  | const lang c =>
    rw [csDecls, itemMembers]
    split
    · rfl
    · rw [classMembers, if_pos rfl]; rfl
  | _ => rfl

theorem body_class (P : Prog) (body : List Item) : classMembers kFfi (body.flatMap (csDecls P)) = body.flatMap (itemMembers P) := by
  induction body with
  | nil => rfl
  | cons it body ih => rw [List.flatMap_cons, classMembers_append, ih, csDecls_class]; rfl

theorem other_class (P : Prog) (body : List Item) {n : Text} (h : n ≠ kFfi) : classMembers n (body.flatMap (csDecls P)) = [] := by
  induction body with
  | nil => rfl
  | cons it body ih =>
    rw [List.flatMap_cons, classMembers_append, ih, List.append_nil]
    cases it with
    | type lang t => exact typeDecls_class P _ t
    | func lang f => rw [csDecls, classMembers, if_neg (Ne.symm h)]; rfl
    | const lang c =>
      rw [csDecls]
      split
      · rfl
      · rw [classMembers, if_neg (Ne.symm h)]; rfl
    | _ => rfl

/-- The name of the export that an item is. -/
def exportedName (it : Item) : Option Text := (exported it).map fun e => e.2.name

theorem member_names (P : Prog) (body : List Item) : ((body.flatMap (itemMembers P)).map Member.name).Sublist (body.filterMap exportedName) := by
  induction body with
  | nil => exact .slnil
  | cons it body ih =>
    rw [List.flatMap_cons, List.map_append]
    cases it with
    | func lang f => exact ih.cons_cons _
    | const lang c =>
      rw [itemMembers]
      split
      · exact ih.cons _
      · exact ih.cons_cons _
    | _ => exact ih

theorem sorted_names {l : List Export} (h : Sorted l) : (l.map Export.name).Nodup := by
  rw [List.Nodup, List.pairwise_map]
  exact h.imp fun h e => by rw [e, ltText_irrefl] at h; cases h

theorem ordered_names {stable : Bool} {es : List Export} (h : (es.map Export.name).Nodup) : ((ordered stable es).map Export.name).Nodup := by
  cases stable with
  | true => exact sorted_names (toMap_sorted es)
  | false =>
    show (es.reverse.map Export.name).Nodup
    rw [List.map_reverse]
    exact (List.reverse_perm _).nodup_iff.2 h

/-! ### The file -/

theorem namespace_reserved {c : Config} (h : IsWord c.lib) : namespaceName c ∉ reserved := by
  intro hm
  have all : reserved.all (fun w => w.head?.any isAsciiLower) = true := by decide +kernel
  have := List.all_eq_true.1 all _ hm
  obtain ⟨x, cs, hx⟩ := List.exists_cons_of_ne_nil h.1
  rw [namespaceName, hx, Verif.Names.pascalCasedLibName, Verif.Names.pascalLoop, if_pos rfl, List.head?_cons] at this
  change isAsciiLower (toAsciiUpper x) = true at this
  rw [toAsciiUpper] at this
  split at this
  · next hl =>
    have e : ∀ n : Fin 26, isAsciiLower (Char.ofNat (97 + n.val - 32)) = false := by decide
    have hb : 97 ≤ x.toNat ∧ x.toNat ≤ 122 := by simpa [isAsciiLower, Char.le_def, UInt32.le_iff_toNat_le] using hl
    have e := e ⟨x.toNat - 97, by omega⟩
    rw [show 97 + (x.toNat - 97) - 32 = x.toNat - 32 by omega, this] at e
    cases e
  · next hl => exact hl this

theorem lib_ok (ds : List Decl) (ios : Bool) (lib : Text) : DeclOk ds (libDecl ios lib) := by
  refine ⟨by decide +kernel, by decide, fun x hx => ?_⟩
  rw [List.mem_singleton.1 hx]
  refine ⟨by decide +kernel, by decide, _, rfl, ?_⟩
  rw [libToks]
  split
  · exact .string (v := [.id lib, .bad '.', .id t!"framework", .bad '/', .id lib])
  · exact .string (v := [.id lib])

theorem compiles {P : Prog} {c : Config} {es : List Export} {body : List Item} (hb : Body P c es body) (hl : IsWord c.lib) (hs : Solid P es) (ios : Bool) :
    Compiles (file c ios (body.flatMap (csDecls P))) := by
  have hd := body_finds hb ios
  obtain ⟨defined, hfit⟩ := hb.fits
  refine ⟨namespace_reserved hl, fun d hm => ?_, body_nodup hb ios, fun mods n ms hm => ?_, fun n => ?_⟩
  · rcases List.mem_cons.1 hm with rfl | hm
    · exact lib_ok ..
    obtain ⟨it, hit, hm⟩ := List.mem_flatMap.1 hm
    have hf := (hfit it hit).1
    cases it with
    | type lang t => exact type_ok hd hs.types hf.2.2.1 hf.2.1 d hm
    | func lang f =>
      rw [List.mem_singleton.1 hm]
      refine ⟨by decide +kernel, by decide, fun x hx => ?_⟩
      rw [List.mem_singleton.1 hx]
      exact func_ok hd hs.types hf.2 (hs.exports _ hf.2)
    | const lang x =>
      rw [csDecls] at hm
      split at hm
      · cases hm
      · next hu =>
        rw [List.mem_singleton.1 hm]
        refine ⟨by decide +kernel, by decide, fun y hy => ?_⟩
        rw [List.mem_singleton.1 hy]
        obtain ⟨⟨h1, h2, _⟩, h3⟩ := (hs.exports _ hf.2).resolve_left hu
        exact ⟨h1, h2, const_ok hd h3⟩
    | _ => exact hf.elim
  · have : n = kFfi := by
      rcases List.mem_cons.1 hm with hm | hm
      · cases hm; rfl
      obtain ⟨it, hit, hm⟩ := List.mem_flatMap.1 hm
      cases it with
      | type lang t =>
        have := (typeDecls_names P t _ hm).2
        cases this
      | func lang f => cases List.mem_singleton.1 hm; rfl
      | const lang x =>
        rw [csDecls] at hm
        split at hm
        · cases hm
        · cases List.mem_singleton.1 hm; rfl
      | _ => cases hm
    intro hn
    rw [this] at hn
    exact (body_ends ios _ hn).not_mem (l := [kFfi]) (by decide) (by simp)
  · show ((classMembers n (libDecl ios c.lib :: body.flatMap (csDecls P))).map Member.name).Nodup
    by_cases e : n = kFfi
    · rw [e, libDecl, classMembers, if_pos rfl, body_class]
      have hnames : body.filterMap exportedName = ((ordered c.stable es).filter isValue).map Export.name := by
        have : body.filterMap exportedName = (body.filterMap exported).map fun e => e.2.name := by
          rw [List.map_filterMap]; rfl
        rw [this, hb.exported, List.map_map]
        rfl
      have hsub := member_names P body
      rw [hnames] at hsub
      refine List.nodup_cons.2 ⟨fun hm => ?_, hsub.nodup ((List.filter_sublist.map _).nodup (ordered_names hs.distinct))⟩
      obtain ⟨x, hx, hn⟩ := List.mem_map.1 hm
      obtain ⟨it, hit, hx⟩ := List.mem_flatMap.1 hx
      have hf := (hfit it hit).1
      cases it with
      | func lang f =>
        rw [List.mem_singleton.1 hx] at hn
        exact (hs.exports _ hf.2).1.2.2 hn
      | const lang y =>
        rw [itemMembers] at hx
        split at hx
        · cases hx
        · next hu =>
          rw [List.mem_singleton.1 hx] at hn
          exact ((hs.exports _ hf.2).resolve_left hu).1.2.2 hn
      | _ => cases hx
    · rw [libDecl, classMembers, if_neg (Ne.symm e), other_class P body e]
      exact .nil

end Verif.Headers.Cs
