import Verif.Stabby.Lemmas
import Verif.Layout.Props
/-
Property C93: validity checks of the types of `stabby`.

`SEnc tg strict t v bs` (Spec.lean): the bytes `bs` represent the value `v` of
type `t`.  `ssupported tg t` (Spec.lean): `t` can be passed by value.
-/
namespace Verif.Stabby
open Verif.Layout

/-! ### Example types -/

/-- `Dyn<'_, Box<u32>, VTable<Head, VtSend<VtDrop>>>` where `Head` is a struct of two functions. -/
def exVt : STy := .vtable (.of (.struct false [.fnPtr, .fnPtr])) (.alias .vtSend .vtDrop)

/-- See `exVt`. -/
def exDyn : STy := .dyn (.ptr .box (.of (.int .u32))) exVt

/-- Data at 4, vtable at 16. -/
def exDynImage : List UInt8 := [4, 0, 0, 0, 0, 0, 0, 0, 16, 0, 0, 0, 0, 0, 0, 0]

/-- `drop` at 1, the functions of `Head` at 2 and 3. -/
def exVtImage : List UInt8 :=
  [1, 0, 0, 0, 0, 0, 0, 0, 2, 0, 0, 0, 0, 0, 0, 0, 3, 0, 0, 0, 0, 0, 0, 0]

/-- Two `u16` from 6 to 10. -/
def exSliceImage : List UInt8 := [6, 0, 0, 0, 0, 0, 0, 0, 10, 0, 0, 0, 0, 0, 0, 0]

theorem exDyn_enc : SEnc x86_64 true exDyn (.tup [.addr 4, .addr 16]) exDynImage :=
  ⟨by decide +kernel, ⟨by decide +kernel, by decide +kernel, by decide, by decide +kernel⟩,
    by decide +kernel, by decide +kernel, by decide, by decide +kernel⟩

theorem exVt_enc : SEnc x86_64 true exVt (.tup [.tup [.addr 2, .addr 3], .addr 1]) exVtImage := by
  refine ⟨by decide +kernel, ⟨by decide +kernel, by decide +kernel, by decide +kernel, by decide, by decide +kernel⟩, ?_⟩
  refine ⟨by decide +kernel, ?_⟩
  have : offsetsFrom 0 (lays x86_64 [.fnPtr, .fnPtr]) = [0, 8] := by decide +kernel
  rw [this]
  simp only [EncFields, Enc, and_true]
  exact ⟨⟨by decide +kernel, by decide +kernel, by decide⟩, by decide +kernel, by decide +kernel, by decide⟩

theorem exSlice_enc : SEnc x86_64 true (.slice .arc (.of (.int .u16))) (.tup [.addr 6, .addr 10]) exSliceImage :=
  ⟨by decide +kernel, by decide +kernel, by decide +kernel, by decide, by decide +kernel, 2, by decide +kernel⟩

/-! ### C93 -/

/-- C93: on any bytes of the right length, `from_raw` never panics. It gives back exactly the bytes
if they represent a value (for the ends of slices: if neither is null and both are aligned for the items),
and `None` otherwise. -/
theorem C93_from_raw (tg : Target) (t : STy) (bs : List UInt8) (ht : ssupported tg t = true)
    (hl : bs.length = ssize tg t) :
    ((∃ v, SEnc tg false t v bs) → sFromRaw tg t bs = .ok (some bs)) ∧
    ((¬ ∃ v, SEnc tg false t v bs) → sFromRaw tg t bs = .ok none) := by
  obtain ⟨b, hb, hb'⟩ := svalid_iff t bs ht hl
  have hc : (clay tg (sclayout t)).1 = ssize tg t := by rw [clay_sclayout t ht]; rfl
  rw [← hb']
  cases b <;> simp [sFromRaw, hb, hc, bind, Except.bind, pure, Except.pure]

example : ssupported x86_64 exDyn = true ∧ sFromRaw x86_64 exDyn exDynImage = .ok (some exDynImage) ∧
    sFromRaw x86_64 exDyn [2, 0, 0, 0, 0, 0, 0, 0, 16, 0, 0, 0, 0, 0, 0, 0] = .ok none ∧
    sFromRaw x86_64 exDyn [4, 0, 0, 0, 0, 0, 0, 0, 0, 0, 0, 0, 0, 0, 0, 0] = .ok none ∧
    sFromRaw x86_64 exDyn [4, 0, 0, 0, 0, 0, 0, 0, 12, 0, 0, 0, 0, 0, 0, 0] = .ok none := by decide +kernel

/-- C93: `from_raw_unchecked` of bytes of no value panics if debug assertions are on, and is undefined otherwise. -/
theorem C93_unchecked (tg : Target) (t : STy) (bs : List UInt8) (ht : ssupported tg t = true) (hl : bs.length = ssize tg t)
    (h : ¬ ∃ v, SEnc tg false t v bs) :
    sFromRawUnchecked tg true t bs = .error .notValid ∧ sFromRawUnchecked tg false t bs = .error .ub := by
  have h1 := (C93_from_raw tg t bs ht hl).2 h
  simp only [sFromRawUnchecked, h1, bind, Except.bind, if_true]
  exact ⟨rfl, rfl⟩

example : let bs := [4, 0, 0, 0, 0, 0, 0, 0, 12, 0, 0, 0, 0, 0, 0, 0]
    ssupported x86_64 exDyn = true ∧ bs.length = ssize x86_64 exDyn ∧
      sFromRawUnchecked x86_64 true exDyn bs = .error .notValid ∧ sFromRawUnchecked x86_64 false exDyn bs = .error .ub := by decide +kernel

/-- C93: for every supported type and every value of it, `into_raw` gives bytes that `from_raw` turns
back into that value, and `from_raw_unchecked` does not panic on them.
Missing from the full statement: slices of items that have no size but an alignment above 1; see
`C93_fails_slice_no_size`. -/
theorem C93_never_rejects_partial (tg : Target) (t : STy) (v : Val) (bs : List UInt8)
    (ht : ssupported tg t = true) (hz : sizedItems tg t = true) (h : SEnc tg true t v bs) :
    sIntoRaw tg t bs = .ok bs ∧ sFromRaw tg t bs = .ok (some bs) ∧
      ∀ debug, sFromRawUnchecked tg debug t bs = .ok bs := by
  have h1 := (C93_from_raw tg t bs ht (h.length t v bs ht)).1 ⟨v, h.loose t v bs hz⟩
  have hc : ssize tg t = (clay tg (sclayout t)).1 := by rw [clay_sclayout t ht]; rfl
  refine ⟨by simp [sIntoRaw, hc], h1, fun debug => ?_⟩
  simp [sFromRawUnchecked, h1, bind, Except.bind, pure, Except.pure]

example : sFromRaw x86_64 exDyn exDynImage = .ok (some exDynImage) :=
  (C93_never_rejects_partial _ _ _ _ (by decide +kernel) (by decide +kernel) exDyn_enc).2.1
example : sFromRaw x86_64 exVt exVtImage = .ok (some exVtImage) :=
  (C93_never_rejects_partial _ _ _ _ (by decide +kernel) (by decide +kernel) exVt_enc).2.1
example : sFromRaw x86_64 (.slice .arc (.of (.int .u16))) exSliceImage = .ok (some exSliceImage) :=
  (C93_never_rejects_partial _ _ _ _ (by decide +kernel) (by decide +kernel) exSlice_enc).2.1

/-- C93: bytes represent at most one value, so the value obtained is the one that was converted. -/
theorem C93_same_value (tg : Target) (strict : Bool) (t : STy) (v v' : Val) (bs : List UInt8)
    (ht : ssupported tg t = true) (h : SEnc tg strict t v bs) (h' : SEnc tg strict t v' bs) : v = v' :=
  SEnc.unique t v v' bs ht h h'

example (v : Val) (h : SEnc x86_64 true exVt v exVtImage) : v = .tup [.tup [.addr 2, .addr 3], .addr 1] :=
  C93_same_value _ _ _ _ _ _ (by decide +kernel) h exVt_enc

/-- C93: `Option` of a pointer takes every null pointer as `None`, every non-null one as the pointer it is,
and rejects it iff the pointer type does. -/
theorem C93_option (tg : Target) (k : PtrKind) (t : STy) (bs : List UInt8) (ha : 0 < salign tg t)
    (hl : bs.length = tg.ptrSize) :
    (natOf tg bs = 0 → sFromRaw tg (.ptr k t) bs = .ok none ∧
      sFromRaw tg (.option (.ptr k t)) bs = .ok (some bs) ∧ SEnc tg true (.option (.ptr k t)) .none bs) ∧
    (natOf tg bs ≠ 0 → sFromRaw tg (.option (.ptr k t)) bs = sFromRaw tg (.ptr k t) bs ∧
      (sFromRaw tg (.ptr k t) bs = .ok (some bs) ↔ salign tg t ∣ natOf tg bs)) := by
  constructor
  · intro h0
    refine ⟨?_, ?_, hl, h0⟩
    · simp [sFromRaw, sIsValid, ptrValid, h0, bind, Except.bind, pure, Except.pure]
    · simp [sFromRaw, sIsValid, sIsNiche, h0, bind, Except.bind, pure, Except.pure, sclayout, clay, ssize, slay, ptrLay]
  · intro h0
    constructor
    · simp [sFromRaw, sIsValid, sIsNiche, h0, bind, Except.bind, pure, Except.pure, sclayout, clay, ssize, slay, ptrLay]
    · have hp := ptrValid_iff (k := k) hl ha
      cases hv : ptrValid tg k t bs with
      | true =>
        obtain ⟨a, _, rfl, _, hd⟩ := hp.mp hv
        simp [sFromRaw, sIsValid, hv, hd, bind, Except.bind, pure, Except.pure, sclayout, clay, ssize, slay, ptrLay]
      | false =>
        have : ¬ salign tg t ∣ natOf tg bs := fun hd => by
          rw [hp.mpr ⟨_, hl, rfl, h0, hd⟩] at hv
          cases hv
        simp [sFromRaw, sIsValid, hv, this, bind, Except.bind, pure, Except.pure]

example : sFromRaw x86_64 (.option (.ptr .weak exVt)) [0, 0, 0, 0, 0, 0, 0, 0] =
    .ok (some [0, 0, 0, 0, 0, 0, 0, 0]) :=
  ((C93_option x86_64 .weak exVt _ (by decide +kernel) rfl).1 (by decide +kernel)).2.1

/-- C93: a vtable starts with the vtables it extends: a pointer to it can be used as a pointer to any of them. What
`from_raw` accepts as the larger vtable it accepts, cut to size, as the smaller. -/
theorem C93_upcast (tg : Target) (t u : STy) (h : Extends t u) (bs : List UInt8) (ht : ssupported tg t = true)
    (hl : bs.length = ssize tg t) (hv : sFromRaw tg t bs = .ok (some bs)) :
    ssize tg u ≤ ssize tg t ∧ salign tg u ≤ salign tg t ∧
      sFromRaw tg u (bs.take (ssize tg u)) = .ok (some (bs.take (ssize tg u))) := by
  have hx : ∃ v, SEnc tg false t v bs := by
    by_cases hx : ∃ v, SEnc tg false t v bs
    · exact hx
    · rw [(C93_from_raw tg t bs ht hl).2 hx] at hv
      cases hv
  clear hv
  induction h generalizing bs with
  | refl t =>
    refine ⟨Nat.le_refl _, Nat.le_refl _, ?_⟩
    rw [List.take_of_length_le (by omega)]
    exact (C93_from_raw tg t bs ht hl).1 hx
  | mark h ih => exact ih bs ht hl hx
  | @step head tail u h ih =>
    simp only [ssupported, Bool.and_eq_true] at ht
    have hb := pair_bounds (slay_pos tail ht.2) (slay_pos head ht.1)
    have hle : ssize tg tail ≤ bs.length := by rw [hl]; exact hb.1
    obtain ⟨v, hv⟩ := hx
    obtain ⟨_, w, _, hv⟩ := senc_vtable.mp hv
    have hsl : slice bs 0 (ssize tg tail) = bs.take (ssize tg tail) := by simp [slice]
    obtain ⟨i1, i2, i3⟩ := ih (bs.take (ssize tg tail)) ht.2 (by simp; omega) ⟨w, hsl ▸ hv.2.1⟩
    refine ⟨Nat.le_trans i1 hb.1, Nat.le_trans i2 ?_, ?_⟩
    · simp only [salign, slay, structLay, maxAlign]
      omega
    · rwa [List.take_take, Nat.min_eq_left i1] at i3

example : Extends exVt .vtDrop ∧ sFromRaw x86_64 .vtDrop (exVtImage.take 8) = .ok (some (exVtImage.take 8)) :=
  ⟨.step (.mark (.refl _)), (C93_upcast x86_64 exVt .vtDrop (.step (.mark (.refl _))) exVtImage (by decide +kernel)
    (by decide +kernel) (by decide +kernel)).2.2⟩

/-- C93: `Stabbied<T>` is accepted unless `T` calls the bytes invalid; `Option<Stabbied<T>>` accepts all bytes, as
`None` those that `T` calls invalid.  So if `T` calls exactly one byte string invalid, and no value of
`T` is represented by it, exactly that one is `None`, and values of `T` are never rejected. -/
theorem C93_stabbied (isInvalid : List UInt8 → Bool) (Value : List UInt8 → Prop) (niche : List UInt8)
    (hv : ¬ Value niche) (hi : ∀ bs, isInvalid bs = true ↔ bs = niche) (bs : List UInt8) :
    (Value bs → stabbiedValid isInvalid bs = true) ∧
    (stabbiedValid isInvalid bs = false ↔ bs = niche) ∧
    stabbiedOptionValid isInvalid bs = true ∧ (stabbiedNiche isInvalid bs = true ↔ bs = niche) := by
  have h := hi bs
  cases hb : isInvalid bs <;> simp [hb] at h
  · refine ⟨fun _ => by simp [stabbiedValid, hb], by simp [stabbiedValid, hb, h],
      by simp [stabbiedOptionValid, stabbiedNiche, stabbiedValid, hb], by simp [stabbiedNiche, stabbiedValid, hb, h]⟩
  · subst h
    exact ⟨fun h => absurd h hv, by simp [stabbiedValid, hb],
      by simp [stabbiedOptionValid, stabbiedNiche, stabbiedValid, hb], by simp [stabbiedNiche, stabbiedValid, hb]⟩

/-- `Option<Stabbied<NonZeroU8>>`. -/
example : stabbiedOptionValid (· == [0]) [0] = true ∧ stabbiedNiche (· == [0]) [0] = true ∧
    stabbiedValid (· == [0]) [7] = true ∧ stabbiedNiche (· == [0]) [7] = false := by decide

/-- C93 fails for slices whose end is before their start, or not a whole number of items behind it: they are
accepted but are no value. -/
theorem C93_fails_slice_ends :
    let t : STy := .slice .box (.of (.array (.int .u16) 2))
    let back : List UInt8 := [8, 0, 0, 0, 0, 0, 0, 0, 4, 0, 0, 0, 0, 0, 0, 0]
    let half : List UInt8 := [4, 0, 0, 0, 0, 0, 0, 0, 6, 0, 0, 0, 0, 0, 0, 0]
    ssupported x86_64 t = true ∧ sFromRaw x86_64 t back = .ok (some back) ∧
      sFromRaw x86_64 t half = .ok (some half) ∧
      (¬ ∃ v, SEnc x86_64 true t v back) ∧ ¬ ∃ v, SEnc x86_64 true t v half := by
  refine ⟨by decide +kernel, by decide +kernel, by decide +kernel, ?_, ?_⟩
  all_goals
    rintro ⟨v, hv⟩
    obtain ⟨s, e, _, _, hs, he, hends⟩ := senc_slice.mp hv
    have hsz : ssize x86_64 (.of (.array (.int .u16) 2)) = 4 := by decide +kernel
    obtain ⟨_, _, h⟩ := hends
    simp only [↓reduceIte, hsz] at h
    obtain ⟨n, hn⟩ := h
    simp only [show (4 : Nat) = 0 ↔ False by decide, if_false] at hn
  · have h1 : s = 8 := by rw [← hs]; decide +kernel
    have h2 : e = 4 := by rw [← he]; decide +kernel
    omega
  · have h1 : s = 4 := by rw [← hs]; decide +kernel
    have h2 : e = 6 := by rw [← he]; decide +kernel
    omega

/-- C93 fails for a slice of one item that has no size and an alignment of 4, if such a slice keeps its
length as the distance in bytes of its ends: it is rejected. -/
theorem C93_fails_slice_no_size :
    let t : STy := .slice .box (.of (.opaque 0 4))
    let bs : List UInt8 := [4, 0, 0, 0, 0, 0, 0, 0, 5, 0, 0, 0, 0, 0, 0, 0]
    ssupported x86_64 t = true ∧ SEnc x86_64 true t (.tup [.addr 4, .addr 5]) bs ∧
      sIntoRaw x86_64 t bs = .ok bs ∧ sFromRaw x86_64 t bs = .ok none :=
  ⟨by decide +kernel, ⟨by decide +kernel, by decide +kernel, by decide +kernel, by decide, by decide +kernel, 1,
    by decide +kernel⟩, by decide +kernel, by decide +kernel⟩

end Verif.Stabby
