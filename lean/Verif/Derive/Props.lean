import Verif.Derive.Lemmas
/-
C75: `#[derive_ReprC]` generates a C type with the layout of the Rust type.
C76: `#[derive_ReprC]` accepts the definitions the guide lists, and no others.
-/
namespace Verif.Derive

open Verif.Layout

theorem opaque_of_concrete {t : Ty} (h : concrete t = true) (ho : IsOpaque t) : IsOpaqueArray t := by
  induction ho with
  | here => simp [concrete] at h
  | array n hi _ => exact .here n hi
  | option _ ih => exact .option (ih (by simpa [concrete] using h))
  | tagged _ ih => exact .tagged (ih (by simpa [concrete] using h))
  | transparent ts _ ih => exact .transparent ts (ih (by simpa [concrete] using h))

theorem concrete_of (t : Ty) (h : ¬ IsOpaque t) : concrete t = true := by
  induction t using concrete.induct with
  | case1 l p => exact absurd (.here l p) h
  | case2 t n => rfl
  | case3 t ih => simp only [concrete]; exact ih fun ho => h (.option ho)
  | case4 t ih => simp only [concrete]; exact ih fun ho => h (.tagged ho)
  | case5 t ts ih => simp only [concrete]; exact ih fun ho => h (.transparent ts ho)
  | case6 => unfold concrete; split <;> simp_all

theorem intTy_hint {w : String} {k : IntTy} (h : intTy? w = some k) : intHint? (.word w) = some k := by
  unfold intTy? at h
  split at h
  all_goals first | (cases h; rfl) | cases h

theorem intTy_fixed (w : String) : (intTy? w).isSome = true ↔ w ∈ fixedInts := by
  constructor
  · intro h
    unfold intTy? at h
    split at h
    any_goals simp [fixedInts]
    cases h
  · intro h
    simp only [fixedInts, List.mem_cons, List.not_mem_nil, or_false] at h
    rcases h with rfl | rfl | rfl | rfl | rfl | rfl | rfl | rfl <;> rfl

/-! ### C75 -/

/-- `C75_layout_partial` behind the rewriting of the attributes. -/
theorem derived_layout {tg : Target} {cfg : Cfg} {it it' : Item} {g : Generated} {c : CTy}
    {L : Nat × Nat × List Nat} {hs : List Hint} (hd : Derived cfg it it' g)
    (hr : reprs it.attrs = [hs])
    (hc : g.clayout = some c)
    (hL : rustLayout tg it' = some L)
    (hf : ∀ sh fs, it.data = .struct sh fs → ∀ f ∈ fs,
      clay tg (clayout f.ty.ty) = lay tg f.ty.ty)
    (ht : ∀ sh f fs, it.data = .struct sh (f :: fs) → .word "transparent" ∈ hs →
      nontrivial tg f.ty.ty = true) :
    SameLayout tg c g L := by
  cases hd with
  | fptr hp =>
    obtain ⟨sh, f, abi, v, hdat, _, hfr, _, hty, rfl⟩ := tryFptr_ok hp
    rw [firstRepr_eq, hr] at hfr
    cases hfr
    have hh : hints it = [.word "transparent"] := by rw [hints_eq, hr]; rfl
    have hft : f.ty.ty = .fnPtr := by rw [hty]; rfl
    cases hc
    simp only [rustLayout, hh, hdat, layoutWith, fieldTys, List.map_cons, List.map_nil,
      hft] at hL
    have : ([Ty.fnPtr].filter (nontrivial tg)).length ≤ 1 := by
      exact Nat.le_trans (List.length_filter_le _ _) (Nat.le_refl _)
    rw [if_neg (by decide), if_pos trivial, if_pos this] at hL
    cases hL
    have := tg.ptrAlign_pos
    simp only [SameLayout, clay, lays, lay, maxSize, maxAlign, Prod.mk.injEq]
    omega
  | @struct sh fs a as' _ hn hdat hds =>
    rcases deriveStruct_ok hds with ⟨hw, he, f, rest, rfl, b, rfl⟩ | ⟨hw, rfl⟩ | ⟨hw, he, hne, rfl⟩
    · have hw : [.word "transparent"] ∈ reprs it.attrs := soleWord_mem hw
      rw [hr, List.mem_singleton] at hw
      subst hw
      have hh : hints it = [.word "transparent"] := by rw [hints_eq, hr]; rfl
      cases hc
      simp only [rustLayout, hints, he, hdat] at hL
      rw [show (List.flatMap _ it.attrs) = _ from hh] at hL
      simp only [layoutWith] at hL
      rw [if_neg (by decide), if_pos trivial] at hL
      split at hL
      · rename_i hlen
        cases hL
        have hnt := ht _ _ _ hdat (List.mem_singleton_self _)
        obtain ⟨hs1, ha1⟩ := lays_trivial (trivial_rest hnt hlen)
        have hl := hf _ _ hdat f (List.mem_cons_self ..)
        have hp := clay_pos tg (clayout f.ty.ty)
        have hs1 : maxSize (lays tg (fieldTys rest)) = 0 := hs1
        have ha1 : maxAlign (lays tg (fieldTys rest)) = 1 := ha1
        simp only [SameLayout, fieldTys, List.map_cons, lays, maxSize, maxAlign, Prod.mk.injEq]
        simp only [fieldTys] at hs1 ha1
        rw [hs1, ha1, ← hl]
        omega
      · cases hL
    · cases hc
    · have hw : [.word "C"] ∈ reprs it.attrs := soleWord_mem hw
      rw [hr, List.mem_singleton] at hw
      subst hw
      have hh : hints it = [.word "C"] := by rw [hints_eq, hr]; rfl
      cases hc
      simp only [rustLayout, hints, he, hdat] at hL
      rw [show (List.flatMap _ it.attrs) = _ from hh] at hL
      simp only [layoutWith] at hL
      rw [if_neg (by decide), if_neg (by decide), if_neg (by decide), if_neg (by decide),
        if_neg (by decide), if_pos (by decide)] at hL
      cases hL
      have hcl : clays tg (clayouts (fieldTys fs)) = lays tg (fieldTys fs) := clays_eq fun t hm => by
        obtain ⟨f, hfm, rfl⟩ := List.mem_map.mp hm
        exact hf _ _ hdat f hfm
      simp only [SameLayout, cLayout, map_mapIdx_snd, clay, hcl]
      exact (cStruct_plain _).symm
  | @enum vs as' _ hdat hde =>
    rcases deriveEnum_ok hde with ⟨_, rfl⟩ | ⟨_, _, he, _, _, _, k, rfl, hk⟩
    · cases hc
    · obtain ⟨ws, hfr, hne, hkn, rfl⟩ := parseDiscriminantType_ok hk
      rw [firstRepr_eq, hr] at hfr
      cases hfr
      have hh : hints it = ws.map .word := by rw [hints_eq, hr]; simp
      simp only [rustLayout, hints, he, hdat] at hL
      rw [show (List.flatMap _ it.attrs) = _ from hh] at hL
      simp only [layoutWith] at hL
      split at hL
      · cases hL
      split at hL
      · cases hL
      -- the first integer among the hints is the one the macro finds
      have key : ∀ ws : List String, (∀ w ∈ ws, w ∈ knownReprs) → ∀ c,
          (Generated.enum (ws.find? (· != "C"))).clayout = some c →
          (∀ h ∈ ws.map Hint.word, (h == .word "C" || (intHint? h).isSome) = true) →
          (c = .enum .i32 ∧ (ws.map Hint.word).filterMap intHint? = []) ∨
          ∃ k ks, c = .enum k ∧ (ws.map Hint.word).filterMap intHint? = k :: ks := by
        intro ws
        induction ws with
        | nil => intro _ c hc _; cases hc; exact .inl ⟨rfl, rfl⟩
        | cons w ws ih =>
          intro hkn c hc hall
          by_cases hwc : w = "C"
          · subst hwc
            have := ih (fun w hw => hkn w (List.mem_cons_of_mem _ hw)) c
              (by simpa [List.find?] using hc)
              (fun h hm => hall h (List.mem_cons_of_mem _ hm))
            simpa [intHint?] using this
          · have hfd : (w :: ws).find? (· != "C") = some w := by simp [hwc]
            rw [hfd] at hc
            simp only [Generated.clayout] at hc
            cases hit : intTy? w with
            | none => simp [hit] at hc
            | some k =>
              simp only [hit, Option.map_some, Option.some.injEq] at hc
              have hih : intHint? (.word w) = some k := intTy_hint hit
              exact .inr ⟨k, (ws.map Hint.word).filterMap intHint?, hc.symm, by simp [hih]⟩
      rename_i hall
      have hall : ∀ h ∈ ws.map Hint.word, (h == .word "C" || (intHint? h).isSome) = true := by
        have := hall
        simp only [Bool.not_eq_true', Bool.not_eq_false, List.all_eq_true] at this
        exact this
      rcases key ws hkn c hc hall with ⟨rfl, hfm⟩ | ⟨k, ks, rfl, hfm⟩
      · rw [hfm] at hL
        simp only at hL
        split at hL
        · cases hL; simp [SameLayout, clay]
        · cases hL
      · rw [hfm] at hL
        simp only at hL
        split at hL
        · cases hL; simp [SameLayout, clay]
        · cases hL

/-- C75 for definitions with one `#[repr]` attribute (`C75_fails_*` show that
the condition is needed): whatever the macro and rustc accept, size, alignment
and field offsets of the generated C type are those of the Rust type, when they
are for the types of the fields, and when the field with data of a
`repr(transparent)` struct comes first. -/
theorem C75_layout_partial (tg : Target) (cfg : Cfg) (args : List Arg) (it it' : Item)
    (g : Generated) (c : CTy) (L : Nat × Nat × List Nat)
    (h1 : OneRepr it)
    (ha : Accepts cfg args it it' g)
    (hc : g.clayout = some c)
    (hL : rustLayout tg it' = some L)
    (hf : ∀ sh fs, it.data = .struct sh fs → ∀ f ∈ fs,
      clay tg (clayout f.ty.ty) = lay tg f.ty.ty)
    (ht : ∀ sh f fs, it.data = .struct sh (f :: fs) → .word "transparent" ∈ hints it →
      nontrivial tg f.ty.ty = true) :
    SameLayout tg c g L := by
  obtain ⟨h, hcomp⟩ := ha
  obtain ⟨attrs, ⟨hsub, hone⟩, hd⟩ := deriveReprC_ok h
  obtain ⟨hs0, hr0⟩ := h1.reprs
  obtain ⟨hs, hr⟩ := hone hs0 hr0
  refine derived_layout hd hr hc hL hf fun sh f fs he hm => ht sh f fs he ?_
  rw [hints_eq]
  exact hsub _ (by rw [hr]; simpa using hm)

/-- `#[repr(C)] pub struct Sample { a: u8, b: u32, c: () }` -/
def sample : Item where
  attrs := [.doc, .repr [.word "C"], .other]
  isPub := true
  name := "Sample"
  lifetimes := 0
  params := 0
  whereClause := false
  data := .struct .named [⟨some "a", true, .other (.int .u8)⟩, ⟨some "b", false, .other (.int .u32)⟩,
    ⟨some "c", false, .other .unit⟩]

/-- What it becomes. -/
def sampleLayout : Generated :=
  .struct [("a", .int .u8), ("b", .int .u32), ("c", .unit)] ["a", "b", "c"]

example : Accepts ⟨false, true⟩ [.rename "S"] sample sample sampleLayout ∧ OneRepr sample ∧
    rustLayout x86_64 sample = some (8, 4, [0, 4, 8]) ∧
    SameLayout x86_64 (.struct [.int .u8, .int .u32, .void]) sampleLayout (8, 4, [0, 4, 8]) := by
  have h1 : Accepts ⟨false, true⟩ [.rename "S"] sample sample sampleLayout := ⟨rfl, by decide⟩
  have h2 : OneRepr sample := ⟨[.doc], [.word "C"], [.other], rfl, by
    intro a ha hs; revert a; simp⟩
  have h3 : rustLayout x86_64 sample = some (8, 4, [0, 4, 8]) := by decide +kernel
  refine ⟨h1, h2, h3, C75_layout_partial _ _ _ _ _ _ _ _ h2 h1 rfl h3 ?_ ?_⟩
  · intro sh fs h f hf
    cases h
    simp only [List.mem_cons, List.not_mem_nil, or_false] at hf
    rcases hf with rfl | rfl | rfl <;> decide +kernel
  · intro sh f fs _ h
    exact absurd h (by decide +kernel)

/-- The C75 statement for one definition: accepted, with a layout in Rust, and
the generated C type has another one. -/
def WrongLayout (tg : Target) (cfg : Cfg) (it : Item) : Prop :=
  ∃ g c L, Accepts cfg [] it it g ∧ g.clayout = some c ∧ rustLayout tg it = some L ∧
    ¬ SameLayout tg c g L

/-- C75 fails with a second `#[repr]` attribute, as only one is looked at:
`#[repr(C)] #[repr(packed)] struct P { a: u8, b: u32 }` has 5 bytes in Rust and
8 in C, with `b` at offset 1 in Rust and 4 in C. -/
theorem C75_fails_packed (cfg : Cfg) : WrongLayout x86_64 cfg
    { sample with
      attrs := [.repr [.word "C"], .repr [.word "packed"]]
      data := .struct .named [⟨some "a", true, .other (.int .u8)⟩,
        ⟨some "b", true, .other (.int .u32)⟩] } := by
  refine ⟨.struct [("a", .int .u8), ("b", .int .u32)] ["a", "b"], .struct [.int .u8, .int .u32],
    (5, 1, [0, 1]), ⟨?_, by decide +kernel⟩, rfl, by decide +kernel, by unfold SameLayout; decide +kernel⟩
  obtain ⟨js, o⟩ := cfg
  cases js <;> cases o <;> rfl

/-- C75 fails: `#[repr(C)] #[repr(align(8))] struct A { a: u32 }` has 8 bytes in
Rust and 4 in C. -/
theorem C75_fails_align (cfg : Cfg) : WrongLayout x86_64 cfg
    { sample with
      attrs := [.repr [.word "C"], .repr [.call "align" 8]]
      data := .struct .named [⟨some "a", true, .other (.int .u32)⟩] } := by
  refine ⟨.struct [("a", .int .u32)] ["a"], .struct [.int .u32],
    (8, 8, [0]), ⟨?_, by decide +kernel⟩, rfl, by decide +kernel, by unfold SameLayout; decide +kernel⟩
  obtain ⟨js, o⟩ := cfg
  cases js <;> cases o <;> rfl

/-- C75 fails: `#[repr(C)] #[repr(u8)] enum E { A, B }` has one byte in Rust and
four in C. -/
theorem C75_fails_two_enum_reprs (cfg : Cfg) : WrongLayout x86_64 cfg
    { sample with
      attrs := [.repr [.word "C"], .repr [.word "u8"]]
      data := .enum [⟨"A", true, none⟩, ⟨"B", true, none⟩] } := by
  refine ⟨.enum none, .enum .i32, (1, 1, []), ⟨?_, by decide +kernel⟩, rfl, by decide +kernel,
    by unfold SameLayout; decide +kernel⟩
  obtain ⟨js, o⟩ := cfg
  cases js <;> cases o <;> rfl

/-- C75 fails when the field with data is not the first one of a
`repr(transparent)` struct: `pub struct S(PhantomData<X>, u32)`. -/
theorem C75_fails_transparent_order (cfg : Cfg) : WrongLayout x86_64 cfg
    { sample with
      attrs := [.repr [.word "transparent"]]
      data := .struct .tuple [⟨none, true, .other .unit⟩, ⟨none, true, .other (.int .u32)⟩] } := by
  refine ⟨.newtype .unit false, .void, (4, 4, [0, 0]), ⟨?_, by decide +kernel⟩, rfl, by decide +kernel,
    by unfold SameLayout; decide +kernel⟩
  obtain ⟨js, o⟩ := cfg
  cases js <;> cases o <;> rfl

/-! ### C76 -/

/-- C75 fails when a field is an array of opaque types, which is taken for a type with a C layout:
`#[repr(C)] struct S { names: [String; 2] }` has 48 bytes in Rust and none in C. -/
theorem C75_fails_opaque_array (cfg : Cfg) : WrongLayout x86_64 cfg
    { sample with
      attrs := [.repr [.word "C"]]
      data := .struct .named [⟨some "names", true, .other (.array (.opaque 24 8) 2)⟩] } := by
  refine ⟨.struct [("names", .array (.opaque 24 8) 2)] ["names"], .struct [.array .opaque 2],
    (48, 8, [0]), ⟨?_, by decide +kernel⟩, rfl, by decide +kernel, by unfold SameLayout; decide +kernel⟩
  obtain ⟨js, o⟩ := cfg
  cases js <;> cases o <;> rfl

/-- C76, what is accepted: only what the guide lists, and (against the guide)
field-less enums with `#[repr(C)]` and `#[repr(C)]` structs with arrays of opaque types. -/
theorem C76_only_documented_partial (cfg : Cfg) (args : List Arg) (it it' : Item) (g : Generated)
    (ha : Accepts cfg args it it' g) :
    Documented it ∨ ((∃ vs, it.data = .enum vs ∧ vs ≠ [] ∧ ∀ v ∈ vs, v.fieldless = true) ∧
      .word "C" ∈ hints it) ∨ ((∃ sh fs, it.data = .struct sh fs ∧ fs ≠ [] ∧
        (∀ f ∈ fs, IsOpaque f.ty.ty → IsOpaqueArray f.ty.ty) ∧ ∃ f ∈ fs, IsOpaqueArray f.ty.ty) ∧
      .word "C" ∈ hints it) := by
  obtain ⟨h, hcomp⟩ := ha
  obtain ⟨attrs, ⟨hsub, _⟩, hd⟩ := deriveReprC_ok h
  have hsub : ∀ x ∈ hints { it with attrs }, x ∈ hints it := fun x hx => by
    rw [hints_eq] at hx ⊢; exact hsub x hx
  cases hd with
  | fptr hp =>
    obtain ⟨sh, f, abi, v, hdat, _, hfr, _, hty, rfl⟩ := tryFptr_ok hp
    refine .inl (.transparent hdat (hsub _ ?_) (by simp))
    rw [firstRepr_eq] at hfr
    rw [hints_eq]
    exact List.mem_flatten.mpr ⟨_, List.mem_of_head? hfr, List.mem_singleton_self _⟩
  | @struct sh fs a as' _ hn hdat hds =>
    rcases deriveStruct_ok hds with ⟨hw, he, f, rest, rfl, b, rfl⟩ | ⟨hw, rfl⟩ | ⟨hw, he, hne, rfl⟩
    · exact .inl (.transparent hdat (hsub _ (soleWord_hint hw)) (by simp))
    · refine .inl (.hidden ?_ (hsub _ (soleWord_hint hw)))
      rw [show it.data = _ from hdat]; nofun
    · simp only [compiles, Bool.and_eq_true, List.all_eq_true] at hcomp
      have hcon : ∀ f ∈ fs, concrete f.ty.ty = true := fun f hf => by
        have : f.ty.ty ∈ (mapIdx (fun i f => (layoutName i f, f.ty.ty)) 0 fs).map (·.2) := by
          rw [map_mapIdx_snd]; exact List.mem_map.mpr ⟨f, hf, rfl⟩
        obtain ⟨p, hp, he⟩ := List.mem_map.mp this
        rw [← he]; exact hcomp.2 p hp
      by_cases hall : ∀ f ∈ fs, ¬ IsOpaque f.ty.ty
      · exact .inl (.repr_c hdat (hsub _ (soleWord_hint hw)) hne hall)
      · obtain ⟨f, hf, ho⟩ : ∃ f ∈ fs, IsOpaque f.ty.ty := by
          refine Classical.byContradiction fun hno => hall fun f hf ho => hno ⟨f, hf, ho⟩
        exact .inr (.inr ⟨⟨sh, fs, hdat, hne, fun f hf ho => opaque_of_concrete (hcon f hf) ho,
          f, hf, opaque_of_concrete (hcon f hf) ho⟩, hsub _ (soleWord_hint hw)⟩)
  | @enum vs as' _ hdat hde =>
    rcases deriveEnum_ok hde with ⟨hw, rfl⟩ | ⟨hne, hv, he, _, _, _, k, rfl, hk⟩
    · refine .inl (.hidden ?_ (hsub _ (soleWord_hint hw)))
      rw [show it.data = _ from hdat]; nofun
    · obtain ⟨ws, hfr, hws, hkn, rfl⟩ := parseDiscriminantType_ok hk
      have hin : ∀ w ∈ ws, .word w ∈ hints it := fun w hm => hsub _ (by
        rw [firstRepr_eq] at hfr
        rw [hints_eq]
        exact List.mem_flatten.mpr ⟨_, List.mem_of_head? hfr, List.mem_map.mpr ⟨w, hm, rfl⟩⟩)
      cases hfd : ws.find? (· != "C") with
      | some k =>
        rw [hfd] at hcomp
        exact .inl (.enum hdat hne hv (hin k (List.mem_of_find?_eq_some hfd))
          ((intTy_fixed k).mp hcomp))
      | none =>
        refine .inr (.inl ⟨⟨vs, hdat, hne, hv⟩, ?_⟩)
        cases ws with
        | nil => exact absurd rfl hws
        | cons w ws =>
          have := List.find?_eq_none.mp hfd w (List.mem_cons_self ..)
          have hw : w = "C" := by simpa using this
          exact hin "C" (by rw [hw]; exact List.mem_cons_self ..)

/-- In particular unions, structs and enums without `#[repr]`, enums with
fields and empty structs are rejected, whatever else the definition says. -/
theorem C76_rejects (cfg : Cfg) (args : List Arg) (it it' : Item) (g : Generated)
    (ha : Accepts cfg args it it' g) :
    it.data ≠ .union ∧ hints it ≠ [] ∧
    (∀ sh, it.data = .struct sh [] → .word "opaque" ∈ hints it) ∧
    (∀ vs, it.data = .enum vs → (vs = [] ∨ ∃ v ∈ vs, v.fieldless = false) →
      .word "opaque" ∈ hints it) := by
  have hne : ∀ x, x ∈ hints it → hints it ≠ [] := fun x hx e => by rw [e] at hx; cases hx
  have hen : ∀ vs : List Variant, vs ≠ [] → (∀ v ∈ vs, v.fieldless = true) →
      (vs = [] ∨ ∃ v ∈ vs, v.fieldless = false) → False := by
    rintro vs h1 h2 (h | ⟨v, hv, h⟩)
    · exact h1 h
    · rw [h2 v hv] at h; cases h
  rcases C76_only_documented_partial cfg args it it' g ha with h | ⟨⟨vs, hd, hv, hfl⟩, hr⟩ | ⟨⟨sh, fs, hd, hn, _⟩, hr⟩
  · cases h with
    | repr_c hd hr hn hf =>
      refine ⟨by rw [hd]; nofun, hne _ hr, fun sh h => ?_, fun vs h => ?_⟩
      · rw [hd] at h; cases h; exact absurd rfl hn
      · rw [hd] at h; cases h
    | transparent hd hr hn =>
      refine ⟨by rw [hd]; nofun, hne _ hr, fun sh h => ?_, fun vs h => ?_⟩
      · rw [hd] at h; cases h; exact absurd rfl hn
      · rw [hd] at h; cases h
    | enum hd hn hv hr hk =>
      refine ⟨by rw [hd]; nofun, hne _ hr, fun sh h => ?_, fun vs h hh => ?_⟩
      · rw [hd] at h; cases h
      · rw [hd] at h; cases h; exact (hen _ hn hv hh).elim
    | hidden hd hr => exact ⟨hd, hne _ hr, fun _ _ => hr, fun _ _ _ => hr⟩
  · refine ⟨by rw [hd]; nofun, hne _ hr, fun sh h => ?_, fun vs' h hh => ?_⟩
    · rw [hd] at h; cases h
    · rw [hd] at h; cases h; exact (hen _ hv hfl hh).elim
  · refine ⟨by rw [hd]; nofun, hne _ hr, fun sh h => ?_, fun vs h => ?_⟩
    · rw [hd] at h; cases h; exact absurd rfl hn
    · rw [hd] at h; cases h

example : Documented sample ∧ ∀ it' g, ¬ Accepts ⟨false, true⟩ [] { sample with data := .union } it' g :=
  ⟨.repr_c rfl (by decide +kernel) (by simp) (by
    intro f hf
    simp only [List.mem_cons, List.not_mem_nil, or_false] at hf
    rcases hf with rfl | rfl | rfl <;> nofun),
   fun _ _ h => (C76_rejects _ _ _ _ _ h).1 rfl⟩

/-- C76, accepted: a braced `#[repr(C)]` struct with at least one field, all of
them with a C layout.  (Tuple structs are not, `C76_fails_tuple_struct`, nor,
in a build with overflow checks, are structs with more than 255 fields.) -/
theorem C76_accepts_struct_partial (cfg : Cfg) (args : List Arg) (it : Item) (fs : List Field)
    (hr : SoleRepr it "C") (hargs : GoodArgs args)
    (hd : it.data = .struct .named fs) (hn : ∀ f ∈ fs, f.name.isSome) (hne : fs ≠ [])
    (hf : ∀ f ∈ fs, ¬ IsOpaque f.ty.ty) (hlen : fs.length < 256 ∨ cfg.overflowChecks = false) :
    ∃ g, Accepts cfg args it it g ∧ g.clayout = some (.struct (clayouts (fieldTys fs))) := by
  obtain ⟨a, ha⟩ := hargs.parse
  have ht : tryFptr it = none := by
    simp only [tryFptr, hd]
    split
    · rw [hr.first]; rfl
    · rfl
  refine ⟨.struct (mapIdx (fun i f => (layoutName i f, f.ty.ty)) 0 fs) (mapIdx accessName 0 fs),
    ⟨?_, ?_⟩, ?_⟩
  · rw [hr.derive (by decide)]
    have he : fs.isEmpty = false := by cases fs <;> simp_all
    have hl : (cfg.overflowChecks && decide (256 ≤ fs.length)) = false := by
      rcases hlen with h | h
      · simp only [Bool.and_eq_false_iff, decide_eq_false_iff_not]; right; omega
      · simp [h]
    simp only [derive, ha, ht, hd, deriveStruct, hr.sole, he, hl, bind, Except.bind, pure, Except.pure]
    rw [if_neg (by decide), if_neg (by decide)]
    cases it; cases hd; rfl
  · simp only [compiles, Bool.and_eq_true, List.all_eq_true]
    refine ⟨fun x hx => ?_, fun p hp => ?_⟩
    · exact List.contains_iff_mem.mpr (mem_accesses 0 0 hx hn)
    · have : p.2 ∈ fieldTys fs := by
        rw [← map_mapIdx_snd fs 0]; exact List.mem_map.mpr ⟨p, hp, rfl⟩
      obtain ⟨f, hfm, he⟩ := List.mem_map.mp this
      rw [← he]; exact concrete_of _ (hf f hfm)
  · simp only [Generated.clayout, map_mapIdx_snd]

/-- C76, accepted: a public `#[repr(transparent)]` newtype of a type with a C
layout; its layout is that of the wrapped type.  Several fields: also when not
public. -/
theorem C76_accepts_transparent_partial (cfg : Cfg) (args : List Arg) (it : Item) (sh : Shape)
    (f : Field) (fs : List Field) (t : Ty)
    (hr : SoleRepr it "transparent") (hargs : GoodArgs args)
    (hd : it.data = .struct sh (f :: fs)) (hf : f.ty = .other t)
    (hp : it.isPub = true ∨ fs ≠ []) :
    ∃ g, Accepts cfg args it it g ∧ g.clayout = some (clayout t) := by
  obtain ⟨a, ha⟩ := hargs.parse
  have ht : tryFptr it = none := by
    simp only [tryFptr, hd]
    cases sh with
    | unit => rfl
    | named | tuple =>
      simp only
      split
      · rename_i e; cases e
        have : it.isPub = true := hp.resolve_right (by simp)
        simp [hr.first, this, hf]
      · rfl
  refine ⟨.newtype t a.rename.isSome, ⟨?_, rfl⟩, rfl⟩
  rw [hr.derive (by decide)]
  simp only [derive, ha, ht, hd, deriveStruct, hr.sole, deriveTransparent, hf, FieldTy.ty, bind,
    Except.bind, pure, Except.pure]
  cases it; cases hd; rfl

/-- C76, accepted: a public `#[repr(transparent)]` tuple newtype of an
`extern "C"` function pointer. -/
theorem C76_accepts_callback (cfg : Cfg) (args : List Arg) (it : Item) (f : Field)
    (abi : Option String) (hr : SoleRepr it "transparent") (hargs : GoodArgs args)
    (hd : it.data = .struct .tuple [f]) (hf : f.ty = .bareFn (some abi) false)
    (habi : abi = none ∨ abi = some "C") (hp : it.isPub = true) (hfp : f.isPub = true) :
    Accepts cfg args it it (.fnPtr "0") := by
  obtain ⟨a, ha⟩ := hargs.parse
  have ht : tryFptr it = some (.ok (.fnPtr "0")) := by
    have hn : (it.lifetimes ≠ 0 && Shape.tuple == .named) = false := by simp
    simp only [tryFptr, hd, hr.first, hp, hf, hfp]
    rcases habi with rfl | rfl <;> simp
  refine ⟨?_, by simp [compiles, hd]⟩
  rw [hr.derive (by decide)]
  simp only [derive, ha, ht, bind, Except.bind, pure, Except.pure]

/-- C76, accepted: a field-less enum with a fixed-size integer `#[repr]`, of at
most 64 bits; the C type is that integer. -/
theorem C76_accepts_enum (cfg : Cfg) (args : List Arg) (it : Item) (vs : List Variant)
    (w : String) (k : IntTy) (hr : SoleRepr it w) (hw : w ∈ fixedInts)
    (hk : intHint? (.word w) = some k) (hargs : GoodArgs args)
    (hd : it.data = .enum vs) (hne : vs ≠ []) (hv : ∀ v ∈ vs, v.fieldless = true)
    (hg : it.lifetimes = 0 ∧ it.params = 0 ∧ it.whereClause = false) :
    Accepts cfg args it it (.enum (some w)) ∧
      Generated.clayout (.enum (some w)) = some (.enum k) := by
  obtain ⟨a, ha⟩ := hargs.parse
  have hk : intTy? w = some k := by
    cases hi : intTy? w with
    | none => rw [← intTy_fixed, hi] at hw; cases hw
    | some k' => rw [intTy_hint hi] at hk; rw [hk]
  unfold fixedInts at hw
  have ht : tryFptr it = none := by simp [tryFptr, hd]
  have h1 : w ≠ "js" := by rintro rfl; simp at hw
  have h2 : w ≠ "opaque" := by rintro rfl; simp at hw
  have h3 : w ≠ "C" := by rintro rfl; simp at hw
  have h4 : knownReprs.contains w = true := by
    simp only [List.mem_cons, List.not_mem_nil, or_false] at hw
    rcases hw with rfl | rfl | rfl | rfl | rfl | rfl | rfl | rfl <;> rfl
  refine ⟨⟨?_, by simp [compiles, hk]⟩, by simp [Generated.clayout, hk]⟩
  rw [hr.derive h1]
  have h5 : vs.any (!·.fieldless) = false := by
    rw [List.any_eq_false]; intro v hm; simp [hv v hm]
  have h6 : vs.isEmpty = false := by cases vs <;> simp_all
  have hpd : parseDiscriminantType it.attrs = .ok (some w) := by
    have hws : words [.word w] = some [w] := rfl
    have h7 : ([w].any fun x => !knownReprs.contains x) = false := by
      simp only [List.any_cons, List.any_nil, h4]; rfl
    have h8 : [w].find? (· != "C") = some w := by simp [h3]
    simp only [parseDiscriminantType, hr.first, hws, h7, h8]
    rfl
  simp [derive, ha, ht, hd, deriveEnum, hr.sole, h2, h5, h6, hg, hpd, bind, Except.bind, pure,
    Except.pure]
  obtain ⟨h7, h8, h9⟩ := hg
  cases it; cases hd; cases h7; cases h8; cases h9; rfl

/-- C76, accepted: any struct or enum with `#[repr(opaque)]`, whatever its
fields, and that attribute does not reach rustc. -/
theorem C76_accepts_opaque (cfg : Cfg) (args : List Arg) (it : Item)
    (hr : SoleRepr it "opaque") (hargs : GoodArgs args) (hd : it.data ≠ .union) :
    ∃ it', Accepts cfg args it it' .opaque ∧ hints it' = [] ∧ it'.data = it.data := by
  obtain ⟨a, ha⟩ := hargs.parse
  have ht : tryFptr it = none := by
    unfold tryFptr
    split
    · rfl
    · rfl
    · rfl
    · split
      · rw [hr.first]; rfl
      · rfl
  refine ⟨{ it with attrs := it.attrs.filter (· != .repr [.word "opaque"]) }, ⟨?_, rfl⟩, ?_, rfl⟩
  · rw [hr.derive (by decide)]
    cases hdd : it.data with
    | union => exact absurd hdd hd
    | struct sh fs =>
      simp [derive, ha, ht, hdd, deriveStruct, hr.sole, deriveOpaque, bind, Except.bind, pure,
        Except.pure]
    | enum vs =>
      simp [derive, ha, ht, hdd, deriveEnum, hr.sole, deriveOpaque, bind, Except.bind, pure,
        Except.pure]
  · obtain ⟨pre, post, h, hn⟩ := hr
    rw [hints_eq]
    have : reprs (it.attrs.filter (· != .repr [.word "opaque"])) = [] := by
      refine reprs_none fun x hx hs => ?_
      rw [h] at hx
      obtain ⟨hx, hne⟩ := List.mem_filter.mp hx
      simp only [List.mem_append, List.mem_cons] at hx
      rcases hx with hx | rfl | hx
      · exact hn x (List.mem_append_left _ hx) hs
      · simp at hne
      · exact hn x (List.mem_append_right _ hx) hs
    simp [this]

/-- Attributes for the examples. -/
theorem sole (w : String) (it : Item) (h : it.attrs = [.doc, .repr [.word w], .other]) :
    SoleRepr it w := ⟨[.doc], [.other], h, by
  intro a ha hs; revert a; simp⟩

theorem goodArgs : GoodArgs [.js, .rename "S"] := by
  refine ⟨?_, by decide, by decide⟩
  intro a ha
  simp only [List.mem_cons, List.not_mem_nil, or_false] at ha
  rcases ha with rfl | rfl
  · exact .inl rfl
  · exact .inr ⟨_, rfl⟩

example : ∃ g, Accepts ⟨true, true⟩ [.js, .rename "S"] sample sample g ∧ g.clayout.isSome := by
  obtain ⟨g, h, hc⟩ := C76_accepts_struct_partial ⟨true, true⟩ [.js, .rename "S"] sample _
    (sole _ _ rfl) goodArgs rfl (by simp) (by simp) (by
      intro f hf
      simp only [List.mem_cons, List.not_mem_nil, or_false] at hf
      rcases hf with rfl | rfl | rfl <;> nofun) (by simp)
  exact ⟨g, h, by simp [hc]⟩

/-- A definition with this `#[repr]`. -/
def with_ (w : String) (d : Data) : Item :=
  { sample with attrs := [.doc, .repr [.word w], .other], data := d }

/-- `#[repr(transparent)] pub struct Sample(u8);` -/
def sampleNewtype : Item := with_ "transparent" (.struct .tuple [⟨none, false, .other (.int .u8)⟩])

/-- `#[repr(transparent)] pub struct Sample(pub extern "C" fn());` -/
def sampleCallback : Item :=
  with_ "transparent" (.struct .tuple [⟨none, true, .bareFn (some (some "C")) false⟩])

/-- `#[repr(i16)] pub enum Sample { A, B = 7 }` -/
def sampleEnum : Item := with_ "i16" (.enum [⟨"A", true, none⟩, ⟨"B", true, some 7⟩])

/-- `#[repr(opaque)] pub enum Sample { A(String) }` -/
def sampleOpaque : Item := with_ "opaque" (.enum [⟨"A", false, none⟩])

example : ∃ g, Accepts ⟨false, true⟩ [.js, .rename "S"] sampleNewtype sampleNewtype g ∧
    g.clayout = some (.int .u8) :=
  C76_accepts_transparent_partial _ _ _ _ _ _ (.int .u8) (sole _ _ rfl) goodArgs rfl rfl (.inl rfl)

example : Accepts ⟨false, true⟩ [.js, .rename "S"] sampleCallback sampleCallback (.fnPtr "0") :=
  C76_accepts_callback _ _ _ _ (some "C") (sole _ _ rfl) goodArgs rfl rfl (.inr rfl) rfl rfl

example : Accepts ⟨false, true⟩ [.js, .rename "S"] sampleEnum sampleEnum (.enum (some "i16")) :=
  (C76_accepts_enum _ _ _ _ "i16" .i16 (sole _ _ rfl) (by decide) rfl goodArgs rfl (by simp) (by simp)
    ⟨rfl, rfl, rfl⟩).1

example : ∃ it', Accepts ⟨false, true⟩ [.js, .rename "S"] sampleOpaque it' .opaque ∧
    hints it' = [] ∧ it'.data = sampleOpaque.data :=
  C76_accepts_opaque _ _ _ (sole _ _ rfl) goodArgs nofun

/-! #### Where the code departs from the guide -/

/-- C76 is false: `#[repr(C)] struct S { names: [String; 2] }` is accepted, although its field has no C layout. -/
theorem C76_fails_opaque_array (cfg : Cfg) (it : Item) (hit : it = { sample with
      attrs := [.repr [.word "C"]]
      data := .struct .named [⟨some "names", true, .other (.array (.opaque 24 8) 2)⟩] }) :
    (∃ g, Accepts cfg [] it it g) ∧ ¬ Documented it := by
  subst hit
  refine ⟨⟨.struct [("names", .array (.opaque 24 8) 2)] ["names"], ?_, by decide +kernel⟩, fun h => ?_⟩
  · obtain ⟨js, o⟩ := cfg
    cases js <;> cases o <;> rfl
  · cases h with
    | repr_c hd _ _ hf => cases hd; exact hf _ (List.mem_singleton_self _) (.array 2 (.here 24 8))
    | transparent hd hr _ => exact absurd hr (by decide +kernel)
    | enum hd => cases hd
    | hidden _ hr => exact absurd hr (by decide +kernel)

/-- C76 fails: the guide says that `#[derive_ReprC]` refuses an enum without an
explicit fixed-size integer representation (/repo/guide/src/derive-reprc/enum.md
l.121-123); `#[repr(C)]` is accepted (with a warning). -/
theorem C76_fails_repr_c_enum (cfg : Cfg) :
    let it : Item := { sample with
      attrs := [.repr [.word "C"]]
      data := .enum [⟨"A", true, none⟩, ⟨"B", true, none⟩] }
    Accepts cfg [] it it (.enum none) ∧ ¬ Documented it := by
  refine ⟨⟨?_, rfl⟩, fun h => ?_⟩
  · obtain ⟨js, o⟩ := cfg
    cases js <;> cases o <;> rfl
  · cases h with
    | repr_c hd hr hn hf => cases hd
    | transparent hd hr hn => cases hd
    | enum hd hn hv hr hk =>
      have hr := List.mem_singleton.mp hr
      cases hr
      exact absurd hk (by decide)
    | hidden hd hr => exact absurd hr (by decide)

/-- C76 fails: no `#[repr(C)]` tuple struct is accepted, although the guide
lists all `#[repr(C)]` structs.  The generated `is_valid` names the fields by
index, the generated C type names them `_0`, `_1`, …. -/
theorem C76_fails_tuple_struct (cfg : Cfg) (args : List Arg) (it it' : Item) (g : Generated)
    (fs : List Field) (hr : SoleRepr it "C") (hd : it.data = .struct .tuple fs)
    (hn : ∀ f ∈ fs, f.name = none) : ¬ Accepts cfg args it it' g := by
  rintro ⟨h, hc⟩
  rw [hr.derive (by decide)] at h
  cases derive_ok h with
  | fptr hp =>
    obtain ⟨_, _, _, _, _, _, hf, _⟩ := tryFptr_ok hp
    rw [hr.first] at hf
    simp at hf
  | @struct sh fs' a as' _ ht hd' hds =>
    rw [hd] at hd'
    cases hd'
    rcases deriveStruct_ok hds with ⟨hw, _⟩ | ⟨hw, _⟩ | ⟨hw, he, hne, rfl⟩
    · rw [hr.sole] at hw; simp at hw
    · rw [hr.sole] at hw; simp at hw
    · simp only [compiles, Bool.and_eq_true, List.all_eq_true] at hc
      cases fs with
      | nil => exact hne rfl
      | cons f fs =>
        have h0 : accessName 0 f = "0" := by
          simp only [accessName, hn f (List.mem_cons_self ..), Option.getD_none]; rfl
        have := hc.1 "0" (by rw [mapIdx, h0]; exact List.mem_cons_self ..)
        have hm := List.contains_iff_mem.mp this
        clear this hc
        have key : ∀ (fs : List Field) (i : Nat), (∀ f ∈ fs, f.name = none) →
            ∀ x ∈ (mapIdx (fun i f => (layoutName i f, f.ty.ty)) i fs).map (·.1), x ≠ "0" := by
          intro fs
          induction fs with
          | nil => intro i _ x hx; cases hx
          | cons f fs ih =>
            intro i hn x hx
            simp only [mapIdx, List.map_cons, List.mem_cons] at hx
            rcases hx with rfl | hx
            · simp only [layoutName, hn f (List.mem_cons_self ..), Option.getD_none]
              intro e
              have := congrArg (fun s => s.toList.head?) e
              simp [toString] at this
            · exact ih _ (fun f hf => hn f (List.mem_cons_of_mem _ hf)) x hx
        exact key _ 0 hn _ hm rfl
  | @enum vs as' _ hd' hde => rw [hd] at hd'; cases hd'

/-- C76 fails: no private newtype `#[repr(transparent)] struct S(T)` is
accepted, although the guide lists them; they are taken for newtypes of
function pointers, which have to be public. -/
theorem C76_fails_private_newtype (cfg : Cfg) (args : List Arg) (it it' : Item) (g : Generated)
    (f : Field) (hr : SoleRepr it "transparent") (hd : it.data = .struct .tuple [f])
    (hp : it.isPub = false) : ¬ Accepts cfg args it it' g := by
  rintro ⟨h, -⟩
  rw [hr.derive (by decide)] at h
  have ht : tryFptr it = some (.error (.bail "Missing `pub`")) := by
    simp [tryFptr, hd, hr.first, hp]
  cases hpa : parseArgs {} args with
  | error e => simp [derive, hpa, bind, Except.bind] at h
  | ok a => simp [derive, hpa, ht, bind, Except.bind] at h

/-- C76 fails: when the macros are built with overflow checks (the default for
debug builds), a struct with more than 255 fields makes the macro panic. -/
theorem C76_fails_many_fields (js : Bool) (args : List Arg) (it it' : Item) (g : Generated)
    (sh : Shape) (fs : List Field) (hr : SoleRepr it "C") (hd : it.data = .struct sh fs)
    (hlen : 256 ≤ fs.length) : ¬ Accepts ⟨js, true⟩ args it it' g := by
  rintro ⟨h, -⟩
  rw [hr.derive (by decide)] at h
  have hfs : fs.isEmpty = false := by cases fs <;> simp_all
  have ht : tryFptr it = none := by
    simp only [tryFptr, hd]
    cases sh with
    | unit => rfl
    | named | tuple =>
      simp only
      split
      · simp at hlen
      · rfl
  cases hpa : parseArgs {} args with
  | error e => simp [derive, hpa, bind, Except.bind] at h
  | ok a =>
    simp [derive, hpa, ht, hd, deriveStruct, hr.sole, hfs, hlen, bind, Except.bind] at h

/-- C76 fails: `#[repr(u8, js)]` on an enum, the older way of asking for
JavaScript support, is accepted unless JavaScript is enabled. -/
theorem C76_fails_legacy_js_enum (o : Bool) :
    let it : Item := { sample with
      attrs := [.repr [.word "u8", .word "js"]]
      data := .enum [⟨"A", true, none⟩, ⟨"B", true, none⟩] }
    (∃ it', Accepts ⟨false, o⟩ [] it it' (.enum (some "u8"))) ∧
      ∀ args it' g, ¬ Accepts ⟨true, o⟩ args it it' g := by
  refine ⟨⟨{ sample with
      attrs := [.repr [.word "u8"]]
      data := .enum [⟨"A", true, none⟩, ⟨"B", true, none⟩] }, rfl, rfl⟩, fun args it' g h => ?_⟩
  have h := h.1
  simp only [deriveReprC, firstRepr, words, Option.map_some] at h
  rw [show ["u8", "js"].findIdx? (· == "js") = some 1 from rfl] at h
  simp only [if_true, bind, Except.bind] at h
  split at h
  · cases h
  · cases h

end Verif.Derive
