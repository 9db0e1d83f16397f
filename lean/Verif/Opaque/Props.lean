import Verif.Opaque.Spec
/-!
# Opaque types stay behind pointers (C85)
-/
namespace Verif.Opaque

open Verif.Layout
open Verif.Derive (concrete)

theorem reprCs_mem {fs : List Ty} (h : reprCs fs = true) : ∀ f ∈ fs, reprC f = true ∧ concrete f = true := by
  induction fs with
  | nil => nofun
  | cons g fs ih =>
    simp only [reprCs, Bool.and_eq_true] at h
    intro f hf
    rcases List.mem_cons.mp hf with rfl | hf
    · exact h.1
    · exact ih h.2 f hf

theorem arrays_of_holds {t : Ty} (h : Holds t) (hr : reprC t = true) (hc : concrete t = true) : HoldsArray t := by
  induction h with
  | here => simp [concrete] at hc
  | array n h _ => exact .here n h
  | struct n hf _ ih =>
    rw [reprC] at hr
    obtain ⟨h1, h2⟩ := reprCs_mem hr _ hf
    exact .struct n hf (ih h1 h2)
  | transparent ts _ ih => exact .transparent ts (ih (by simpa [reprC] using hr) (by simpa [concrete] using hc))
  | option _ ih =>
    simp only [reprC, Bool.and_eq_true] at hr
    exact .option (ih hr.1 (by simpa [concrete] using hc))
  | tagged _ ih =>
    simp only [reprC, Bool.and_eq_true] at hr
    exact .tagged (ih hr.1 hr.2)

mutual
theorem clay_eq (tg : Target) : ∀ t : Ty, ¬ Holds t → DataFirst tg t → reprC t = true → clay tg (clayout t) = lay tg t
  | .int _, _, _, _ | .float _, _, _, _ | .bool, _, _, _ | .enum _ _, _, _, _ | .rawPtr, _, _, _ | .ref _ _, _, _, _
  | .out _, _, _, _ | .fnPtr, _, _, _ | .unit, _, _, _ => by simp [clayout, clay, lay]
  | .opaque s a, h, _, _ => absurd (.here s a) h
  | .array t n, h, hd, hr => by
    cases hd with | array _ hd =>
    simp only [reprC, Bool.and_eq_true] at hr
    rw [clayout, clay, lay, clay_eq tg t (fun x => h (.array n x)) hd hr.1]
  | .struct n fs, h, hd, hr => by
    cases hd with | struct _ hd =>
    rw [reprC] at hr
    rw [clayout, clay, lay, clays_eq tg fs (fun f hf x => h (.struct n hf x)) hd (fun f hf => (reprCs_mem hr f hf).1)]
  | .transparent [], _, _, hr => by simp [reprC] at hr
  | .transparent (t :: ts), h, hd, hr => by
    cases hd with | transparent hl hd =>
    rw [hl, clayout]
    exact clay_eq tg t (fun x => h (.transparent ts x)) hd (by simpa [reprC] using hr)
  | .option t, h, hd, hr => by
    cases hd with | option hd =>
    simp only [reprC, Bool.and_eq_true] at hr
    rw [clayout, lay, clay_eq tg t (fun x => h (.option x)) hd hr.1]
  | .tagged t, h, hd, hr => by
    cases hd with | tagged hd =>
    simp only [reprC, Bool.and_eq_true] at hr
    simp only [clayout, lay, clay, clays, clay_eq tg t (fun x => h (.tagged x)) hd hr.1]

theorem clays_eq (tg : Target) : ∀ fs : List Ty, (∀ f ∈ fs, ¬ Holds f) → (∀ f ∈ fs, DataFirst tg f) →
    (∀ f ∈ fs, reprC f = true) → clays tg (clayouts fs) = lays tg fs
  | [], _, _, _ => by simp [clayouts, clays, lays]
  | f :: fs, h, hd, hr => by
    rw [clayouts, clays, lays, clay_eq tg f (h f (by simp)) (hd f (by simp)) (hr f (by simp)),
      clays_eq tg fs (fun g hg => h g (by simp [hg])) (fun g hg => hd g (by simp [hg])) (fun g hg => hr g (by simp [hg]))]
end

theorem allItems_ne {p : Panic} {f : List UInt8 → Except Panic Bool} (h : ∀ bs, f bs ≠ .error p) (sz : Nat) (bs : List UInt8) (i n : Nat) :
    allItems f sz bs i n ≠ .error p := by
  induction n generalizing i with
  | zero => simp [allItems]
  | succ n ih =>
    rw [allItems]
    cases hf : f (slice bs (i * sz) sz) with
    | error e =>
      simp only [bind, Except.bind]
      intro he
      exact h _ (hf.trans he)
    | ok b =>
      simp only [bind, Except.bind]
      cases b
      · simp [pure, Except.pure]
      · simpa using ih (i + 1)

theorem isNiche_ne (p : Panic) (tg : Target) : ∀ (t : Ty) (bs : List UInt8), isNiche tg t bs ≠ .error p
  | .transparent [], bs => by simp [isNiche]
  | .transparent (f :: fs), bs => by simpa [isNiche] using isNiche_ne p tg f bs
  | .struct true fs, bs => by rw [isNiche]; split <;> simp
  | .fnPtr, bs => by simp [isNiche, fnPtrValid, Except.map]
  | .ref _ _, bs | .out _, bs | .struct false fs, bs | .int _, bs | .float _, bs | .bool, bs | .enum _ _, bs | .rawPtr, bs
  | .array _ _, bs | .option _, bs | .tagged _, bs | .unit, bs | .opaque _ _, bs => by simp [isNiche]

mutual
theorem isValid_ne (p : Panic) (hp : p ≠ .zst) (tg : Target) : ∀ (t : Ty), ¬ Holds t → ∀ bs : List UInt8, isValid tg t bs ≠ .error p
  | .int _, _, _ | .float _, _, _ | .bool, _, _ | .enum _ _, _, _ | .rawPtr, _, _ | .ref _ _, _, _
  | .out _, _, _ | .fnPtr, _, _ => by simp [isValid, fnPtrValid]
  | .unit, _, _ => by simpa [isValid] using Ne.symm hp
  | .opaque s a, h, _ => absurd (.here s a) h
  | .array t n, h, bs => by
    rw [isValid]
    exact allItems_ne (isValid_ne p hp tg t (fun x => h (.array n x))) _ _ _ _
  | .struct n fs, h, bs => by
    rw [isValid]
    exact fieldsValid_ne p hp tg fs (fun f hf x => h (.struct n hf x)) _ _
  | .transparent [], _, _ => by simp [isValid]
  | .transparent (t :: ts), h, bs => by
    rw [isValid]
    exact isValid_ne p hp tg t (fun x => h (.transparent ts x)) bs
  | .option t, h, bs => by
    rw [isValid]
    have h1 := isNiche_ne p tg t bs
    have h2 := isValid_ne p hp tg t (fun x => h (.option x)) bs
    cases hn : isNiche tg t bs with
    | error e => simp only [bind, Except.bind]; rw [hn] at h1; intro he; exact h1 he
    | ok b => cases b <;> simp [bind, Except.bind, pure, Except.pure, h2]
  | .tagged t, h, bs => by
    rw [isValid]
    split
    · simp
    · exact isValid_ne p hp tg t (fun x => h (.tagged x)) _
    · simp

theorem fieldsValid_ne (p : Panic) (hp : p ≠ .zst) (tg : Target) : ∀ (fs : List Ty), (∀ f ∈ fs, ¬ Holds f) → ∀ (os : List Nat) (bs : List UInt8),
    fieldsValid tg fs os bs ≠ .error p
  | [], _, _, _ => by simp [fieldsValid]
  | _ :: _, _, [], _ => by simp [fieldsValid]
  | f :: fs, h, o :: os, bs => by
    have h1 := isValid_ne p hp tg f (h f (by simp)) (slice bs o (clay tg (clayout f)).1)
    have h2 := fieldsValid_ne p hp tg fs (fun g hg => h g (by simp [hg])) os bs
    rw [fieldsValid]
    by_cases hs : sizeOf' tg f != 0
    · rw [if_pos hs]
      cases hv : isValid tg f (slice bs o (clay tg (clayout f)).1) with
      | error e => simp only [bind, Except.bind]; rw [hv] at h1; intro he; exact h1 he
      | ok a =>
        cases hw : fieldsValid tg fs os bs with
        | error e => simp only [bind, Except.bind]; rw [hw] at h2; intro he; exact h2 he
        | ok b => simp [bind, Except.bind, pure, Except.pure]
    · rw [if_neg hs]
      cases hw : fieldsValid tg fs os bs with
      | error e => simp only [bind, Except.bind, pure, Except.pure]; rw [hw] at h2; intro he; exact h2 he
      | ok b => simp [bind, Except.bind, pure, Except.pure]
end

/-! ## C85 -/

/-- C85: if `#[ffi_export]` accepts a function, no parameter and no returned value contains a value of an opaque type, except in
arrays (`C85_fails_array`). -/
theorem C85_export_partial (s : Sig) (h : exportOk s = true) : ∀ t ∈ s.ret :: s.params, ¬ HoldsArray t → ¬ Holds t := by
  intro t ht hn hh
  simp only [exportOk, Bool.and_eq_true, List.all_eq_true, byValue] at h
  have : reprC t = true ∧ concrete t = true := by
    rcases List.mem_cons.mp ht with rfl | ht
    · exact h.2
    · exact h.1 t ht
  exact hn (arrays_of_holds hh this.1 this.2)

/-- `fn f(a: &mut Context, b: Option<&String>, c: Foo) -> TaggedOption<u64>` with `struct Foo { x: [u8; 3], y: &Vec<u8> }` -/
def demo : Sig where
  params := [.ref .refMut (.opaque 32 8), .option (.ref .ref (.opaque 24 8)),
    .struct false [.array (.int .u8) 3, .ref .ref (.opaque 24 8)]]
  ret := .tagged (.int .u64)

example : exportOk demo = true ∧ ∀ t ∈ demo.ret :: demo.params, DataFirst x86_64 t := by
  refine ⟨by decide +kernel, fun t ht => ?_⟩
  simp only [demo, List.mem_cons, List.not_mem_nil, or_false] at ht
  rcases ht with rfl | rfl | rfl | rfl
  · exact .tagged (.int _)
  · exact .ref _ _
  · exact .option (.ref _ _)
  · refine .struct _ fun f hf => ?_
    simp only [List.mem_cons, List.not_mem_nil, or_false] at hf
    rcases hf with rfl | rfl
    · exact .array _ (.int _)
    · exact .ref _ _

theorem niche_of {t : Ty} (h : NeverNull t) : niche t = true := by
  induction h <;> simp_all [niche]

theorem reprCs_of {fs : List Ty} (h : ∀ f ∈ fs, byValue f = true) : reprCs fs = true := by
  induction fs with
  | nil => simp [reprCs]
  | cons f fs ih =>
    have h1 := h f (by simp)
    simp only [byValue, Bool.and_eq_true] at h1
    simp [reprCs, h1.1, h1.2, ih fun g hg => h g (by simp [hg])]

theorem lengths_eq : supported = arrayLengths := by decide

theorem never_null {t : Ty} (h : niche t = true) : NeverNull t := by
  match t, h with
  | .ref k t, _ => exact .ref k t
  | .out t, _ => exact .out t
  | .fnPtr, _ => exact .fnPtr
  | .struct true fs, _ => exact .slice fs
  | .transparent (f :: fs), h => exact .transparent fs (never_null (by simpa [niche] using h))

/-- C85: the types within those of an accepted signature, also behind pointers: `Option` is only of types that are never null,
arrays have a length that is supported, and `TaggedOption` is of no opaque type. -/
theorem C85_parts (s : Sig) (h : exportOk s = true) : ∀ t ∈ s.ret :: s.params, ∀ u, Part u t →
    (∀ v, u = .option v → NeverNull v) ∧ (∀ v n, u = .array v n → n ∈ supported) ∧
    (∀ v, u = .tagged v → ∀ size align, v ≠ .opaque size align) := by
  have key : ∀ t u, Part u t → reprC t = true → reprC u = true := by
    intro t u hp
    induction hp with
    | self => exact id
    | ref k _ ih => intro h; exact ih (by simpa [reprC] using h)
    | out _ ih => intro h; exact ih (by simpa [reprC] using h)
    | array n _ ih => intro h; simp only [reprC, Bool.and_eq_true] at h; exact ih h.1
    | struct n hf _ ih => intro h; rw [reprC] at h; exact ih (reprCs_mem h _ hf).1
    | transparent ts _ ih => intro h; exact ih (by simpa [reprC] using h)
    | option _ ih => intro h; simp only [reprC, Bool.and_eq_true] at h; exact ih h.1
    | tagged _ ih => intro h; simp only [reprC, Bool.and_eq_true] at h; exact ih h.1
  intro t ht u hu
  simp only [exportOk, Bool.and_eq_true, List.all_eq_true, byValue] at h
  have hr : reprC t = true := by
    rcases List.mem_cons.mp ht with rfl | ht
    · exact h.2.1
    · exact (h.1 t ht).1
  have hr := key t u hu hr
  refine ⟨?_, ?_, ?_⟩
  · rintro v rfl
    simp only [reprC, Bool.and_eq_true] at hr
    exact never_null hr.2
  · rintro v n rfl
    simp only [reprC, Bool.and_eq_true] at hr
    rw [lengths_eq]
    exact List.contains_iff_mem.1 hr.2
  · rintro v rfl size align rfl
    simp [reprC, concrete] at hr

example : exportOk demo = true ∧ Part (.array (.int .u8) 3) (.struct false [.array (.int .u8) 3, .ref .ref (.opaque 24 8)]) :=
  ⟨by decide +kernel, .struct _ (by simp) .self⟩

/-- C85: nothing else is refused: the types that the guide allows are accepted, in any nesting, with opaque types behind
pointers. -/
theorem C85_accepts (s : Sig) (h : ∀ t ∈ s.ret :: s.params, Usable supported t) : exportOk s = true := by
  have key : ∀ t, Usable supported t → byValue t = true := by
    intro t ht
    induction ht with
    | struct n _ ih => simp [byValue, reprC, concrete, reprCs_of ih]
    | option hn _ ih =>
      simp only [byValue, Bool.and_eq_true] at ih
      simp [byValue, reprC, concrete, ih.1, ih.2, niche_of hn]
    | array hl _ ih =>
      simp only [byValue, Bool.and_eq_true] at ih
      simp only [byValue, reprC, concrete, ih.1, Bool.and_true, Bool.true_and, List.contains_iff_mem]
      exact lengths_eq ▸ hl
    | _ => simp_all [byValue, reprC, concrete]
  simp only [exportOk, Bool.and_eq_true, List.all_eq_true]
  exact ⟨fun t ht => key t (h t (by simp [ht])), key _ (h _ (by simp))⟩

example : ∀ t ∈ demo.ret :: demo.params, Usable supported t := by
  intro t ht
  simp only [demo, List.mem_cons, List.not_mem_nil, or_false] at ht
  rcases ht with rfl | rfl | rfl | rfl
  · exact .tagged (.int _)
  · exact .refOpaque _ _ _
  · exact .option (.ref _ _) (.refOpaque _ _ _)
  · refine .struct _ fun f hf => ?_
    simp only [List.mem_cons, List.not_mem_nil, or_false] at hf
    rcases hf with rfl | rfl
    · exact .array (by decide) (.int _)
    · exact .refOpaque _ _ _

/-- C85: hence the C types of an accepted signature have the size and alignment of the Rust types, so that all the bytes cross
(`repr(transparent)` structs with their data first, see `C75_fails_transparent_order`), and neither conversion nor check hits
the panics for opaque types. -/
theorem C85_same_layout_partial (tg : Target) (s : Sig) (h : exportOk s = true) : ∀ t ∈ s.ret :: s.params, ¬ HoldsArray t →
    DataFirst tg t →
    clay tg (clayout t) = lay tg t
    ∧ (∀ bs, intoRaw tg t bs = .ok bs)
    ∧ ∀ bs p, fromRaw tg t bs = .error p → p = .zst := by
  intro t ht hn hd
  have hh := C85_export_partial s h t ht hn
  simp only [exportOk, Bool.and_eq_true, List.all_eq_true, byValue] at h
  have hr : reprC t = true := by
    rcases List.mem_cons.mp ht with rfl | ht
    · exact h.2.1
    · exact (h.1 t ht).1
  have e := clay_eq tg t hh hd hr
  refine ⟨e, fun bs => ?_, fun bs p hp => ?_⟩
  · rw [intoRaw, sizeOf', e, if_pos rfl]
  · refine Classical.byContradiction fun hz => ?_
    have hv := isValid_ne p hz tg t hh bs
    rw [fromRaw, sizeOf', e, if_pos rfl] at hp
    cases hi : isValid tg t bs with
    | error q => rw [hi] at hp hv; simp only [bind, Except.bind] at hp; cases hp; exact hv rfl
    | ok b => rw [hi] at hp; cases b <;> simp [bind, Except.bind, pure, Except.pure] at hp

/-- C85: an opaque type behind a pointer is accepted, of whatever size and alignment; the pointer is all that crosses, and the
check reads nothing behind it. -/
theorem C85_behind_pointers (tg : Target) (k : RefKind) (s a : Nat) :
    byValue (.ref k (.opaque s a)) = true
    ∧ clay tg (clayout (.ref k (.opaque s a))) = lay tg (.ref k (.opaque s a))
    ∧ ∀ bs, isValid tg (.ref k (.opaque s a)) bs = .ok (natOf tg bs != 0 && natOf tg bs % a == 0) := by
  simp [byValue, reprC, concrete, clayout, clay, lay, isValid, alignOf']

example : isValid x86_64 (.ref .ref (.opaque 24 8)) [16, 0, 0, 0, 0, 0, 0, 0] = .ok true
    ∧ isValid x86_64 (.ref .ref (.opaque 24 8)) [17, 0, 0, 0, 0, 0, 0, 0] = .ok false := ⟨rfl, rfl⟩

/-- C85: opaque types themselves, and `repr(transparent)` structs around them, are refused as parameters, as fields and in
`TaggedOption`. -/
theorem C85_refuses (s a : Nat) (ts : List Ty) (t : Ty) (ht : t = .opaque s a ∨ t = .transparent (.opaque s a :: ts)) :
    byValue t = false ∧ (∀ n fs, t ∈ fs → reprC (.struct n fs) = false) ∧ reprC (.tagged t) = false := by
  have hc : concrete t = false := by rcases ht with rfl | rfl <;> simp [concrete]
  refine ⟨by simp [byValue, hc], fun n fs hf => ?_, by simp [reprC, hc]⟩
  rw [reprC]
  cases h : reprCs fs with
  | false => rfl
  | true => rw [(reprCs_mem h t hf).2] at hc; cases hc

/-- C85 is false of arrays: `[String; 2]` is accepted, with a C type of no bytes. Every call of such a function from C panics in
the check, and so does every conversion of such a value. -/
theorem C85_fails_array (tg : Target) (s a n : Nat) (hs : 0 < s) (hn : n ∈ arrayLengths) :
    byValue (.array (.opaque s a) n) = true ∧ (clay tg (clayout (.array (.opaque s a) n))).1 = 0
    ∧ ∀ bs, fromRaw tg (.array (.opaque s a) n) bs = .error .opaque
      ∧ intoRaw tg (.array (.opaque s a) n) bs = .error .sizeMismatch := by
  have hp : 0 < n := by
    have : ∀ m ∈ arrayLengths, 0 < m := by decide
    exact this n hn
  have hc : (clay tg (clayout (.array (.opaque s a) n))).1 = 0 := by simp [clayout, clay]
  refine ⟨by simp [byValue, reprC, concrete, hn], hc, fun bs => ⟨?_, ?_⟩⟩
  · obtain ⟨m, rfl⟩ : ∃ m, n = m + 1 := ⟨n - 1, by omega⟩
    simp [fromRaw, isValid, allItems, bind, Except.bind]
  · rw [intoRaw, hc, if_neg]
    have : 0 < n * s := Nat.mul_pos hp hs
    simp only [sizeOf', lay]
    omega

example : (2 : Nat) ∈ arrayLengths := by decide

/-- C85 is false of callbacks: function pointers and closures whose parameters or results are opaque by value are accepted. -/
theorem C85_fails_callback (s a : Nat) : callbackOk ⟨[.opaque s a], .opaque s a⟩ = true := by
  simp [callbackOk, reprC]

end Verif.Opaque
