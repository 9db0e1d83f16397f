import Verif.Print.Lemmas
import Verif.CharP.Props
import Verif.Owned.Props
import Verif.Bytes.Props

/-!
# C95: values print what they hold

`strDebug`, `strDisplay`, `sliceDebug` (Std.lean) are what Rust's standard library prints for `str` and
`[T]`; `literal` (Spec.lean) reads a Rust string literal. `P` says how pointers, numbers and unusual characters
are printed and `o` are the options of the formatter (`{:#?}`, `{:>8}`, …): the theorems hold for all.
-/
namespace Verif.Print
open CharP (utf8 validUtf8_iff)

/-- Rust's own way to print pointers and numbers, with only ASCII characters taken as printable. -/
def real : Prims where
  ptr _ a := ['0', 'x'] ++ Nat.toDigits 16 a
  num o n := pad o (Nat.toDigits 10 n)
  plain c := decide (32 ≤ c.toNat ∧ c.toNat < 127)

/-! ## Strings -/

/-- C95: what `{:?}` prints for a text is a Rust string literal for that text, whatever characters it has: on one
line, and made of printable characters only. So it can be read back, and different texts print differently. -/
theorem C95_literal (P : Prims) (o : Opts) (t : Text) :
    literal (strDebug P o t) = some t ∧
    (∀ c ∈ strDebug P o t, c ≠ '\n' ∧ c ≠ '\r' ∧ (P.plain c = true ∨ (32 ≤ c.toNat ∧ c.toNat < 127))) ∧
    (∀ o' t', strDebug P o t = strDebug P o' t' → t = t') := by
  refine ⟨literal_debug P o t, fun c hc => debug_mem hc, fun o' t' e => ?_⟩
  have h1 := literal_debug P o t
  rw [e, literal_debug P o' t'] at h1
  exact (Option.some.inj h1).symm

theorem ref_ok {m : List UInt8} {t : Text} (h : CharP.toStr m = .ok (utf8 t)) (P : Prims) (o : Opts) :
    charRefDisplay o m = .ok (strDisplay o t) ∧ charRefDebug P o m = .ok (strDebug P o t) := by
  simp [charRefDisplay, charRefDebug, h, bind, Except.bind, chars_utf8]

/-- C95: a C string prints as the text before its NUL, whatever follows in memory; `{}` gives the text itself. -/
theorem C95_char_p (t : Text) (h : '\x00' ∉ t) (rest : List UInt8) (P : Prims) (o : Opts) :
    charRefDisplay o (utf8 t ++ 0 :: rest) = .ok (strDisplay o t) ∧
    charRefDebug P o (utf8 t ++ 0 :: rest) = .ok (strDebug P o t) ∧
    charRefDisplay {} (utf8 t ++ 0 :: rest) = .ok t := by
  have h1 := (CharP.reads_app h rest).2.2.1
  exact ⟨(ref_ok h1 P o).1, (ref_ok h1 P o).2, (ref_ok h1 P {}).1⟩

example : charRefDebug real {} (utf8 ['a', '"', '\n'] ++ 0 :: [7, 8]) = .ok "\"a\\\"\\n\"".toList := by
  rw [(C95_char_p ['a', '"', '\n'] (by decide) [7, 8] real {}).2.1]; decide +kernel

theorem toStr_valid {m d : List UInt8} (h : CharP.toStr m = .ok d) : CharP.validUtf8 d = true := by
  simp only [CharP.toStr, bind, Except.bind] at h
  split at h
  · cases h
  · split at h
    · cases h; assumption
    · cases h

/-- C95: at any point of any program, an owned C string prints as the text that `to_str` gives. -/
theorem C95_char_p_box {s : CharP.State} (hs : CharP.Reach s) {i : Nat} {p : CharP.Ptr}
    (hp : (s.boxes[i]?).join = some p) :
    ∃ t, CharP.step s (.readStr i) = .ok (s, .data (utf8 t)) ∧ ∀ P o,
      charBoxDisplay o s.heap p = .ok (strDisplay o t) ∧ charBoxDebug P o s.heap p = .ok (strDebug P o t) := by
  obtain ⟨a, R⟩ := hs.rel
  obtain ⟨s', e, _⟩ := CharP.step_ok R (.readStr i)
  simp only [CharP.step, hp, bind, Except.bind] at e ⊢
  cases hm : p.mem s.heap with
  | error x => rw [hm] at e; cases e
  | ok m =>
    rw [hm] at e
    simp only at e ⊢
    cases ht : CharP.toStr m with
    | error x => rw [ht] at e; cases e
    | ok d =>
      obtain ⟨t, rfl⟩ := (validUtf8_iff d).1 (toStr_valid ht)
      refine ⟨t, rfl, fun P o => ?_⟩
      simp only [charBoxDisplay, charBoxDebug, hm, bind, Except.bind]
      exact ref_ok ht P o

example : ∃ s p, CharP.Reach s ∧ (s.boxes[0]?).join = some p ∧
    CharP.step s (.readStr 0) = .ok (s, .data [104, 105]) :=
  ⟨_, _, ⟨[.newString ['h', 'i'] [], .new 0], _, rfl⟩, rfl, by decide +kernel⟩

/-- C95: at any point of any program, a shared C string prints with `{}` as the text that it derefs to. -/
theorem C95_shared_display {s : CharP.Shared.State} (hs : CharP.Shared.Reach s) {i k : Nat}
    (hk : (s.shared[i]?).join = some k) :
    ∃ t, CharP.Shared.step s (.deref i) = .ok (s, .str (utf8 t)) ∧ ∀ o, sharedDisplay o s.heap k = .ok (strDisplay o t) := by
  obtain ⟨a, R⟩ := hs.rel
  obtain ⟨s', e, _⟩ := CharP.Shared.step_ok R (.deref i)
  simp only [CharP.Shared.step, hk, bind, Except.bind] at e ⊢
  cases hd : CharP.Shared.derefS s.heap k with
  | error x => rw [hd] at e; cases e
  | ok d =>
    have hv : CharP.validUtf8 d = true := by
      simp only [CharP.Shared.derefS, bind, Except.bind] at hd
      split at hd
      · cases hd
      · split at hd
        · cases hd; assumption
        · cases hd
    obtain ⟨t, rfl⟩ := (validUtf8_iff d).1 hv
    exact ⟨t, rfl, fun o => by simp [sharedDisplay, hd, bind, Except.bind, chars_utf8]⟩

/-- C95 fails: `{:?}` of a shared C string prints its address: two equal strings print differently, and the text is
not shown. -/
theorem C95_fails_shared_debug : ∃ (s : CharP.Shared.State) (k k' : Nat) (place : Nat → Nat), CharP.Shared.Reach s ∧
    (s.shared[0]?).join = some k ∧ (s.shared[1]?).join = some k' ∧
    CharP.Shared.derefS s.heap k = CharP.Shared.derefS s.heap k' ∧ (∀ a b, place a = place b → a = b) ∧
    sharedDebug real place {} k = "SharedCStr(0x1000)".toList ∧
    sharedDebug real place {} k' = "SharedCStr(0x1010)".toList := by
  refine ⟨_, 0, 1, fun k => 4096 + 16 * k, ⟨[.fromStr ['h', 'i'], .fromStr ['h', 'i']], _, rfl⟩, rfl, rfl,
    by decide +kernel, fun a b h => by simp only at h; omega, by decide +kernel, by decide +kernel⟩

/-- C95: the message of the panic of `char_p::new` has, on the same line, a literal for the string refused. -/
theorem C95_new_panic (P : Prims) (s : Text) :
    (∃ a b l, newPanic P s = a ++ l ++ b ∧ literal l = some s) ∧ '\n' ∉ newPanic P s := by
  have key : ∀ a n b : Text, '\n' ∉ a → '\n' ∉ n → '\n' ∉ b →
      (∃ x y l, a ++ debugTuple {} (String.ofList n) [strDebug P {} s] ++ b = x ++ l ++ y ∧ literal l = some s) ∧
      '\n' ∉ a ++ debugTuple {} (String.ofList n) [strDebug P {} s] ++ b := by
    intro a n b ha hn hb
    have e : a ++ debugTuple {} (String.ofList n) [strDebug P {} s] ++ b =
        (a ++ n ++ ['(']) ++ strDebug P {} s ++ (')' :: b) := by
      simp [debugTuple, commas]
    refine ⟨⟨_, _, _, e, literal_debug P {} s⟩, ?_⟩
    rw [e]
    simp only [List.mem_append, List.mem_cons, List.not_mem_nil, or_false, not_or]
    exact ⟨⟨⟨⟨ha, hn⟩, by decide⟩, fun h => (debug_mem h).1 rfl⟩, by decide, hb⟩
  exact key _ _ _ (by decide +kernel) (by decide +kernel : '\n' ∉ "InvalidNulTerminator".toList) (by decide +kernel)

/-! ## Containers -/

section
variable {α : Type} [Inhabited α] (E : Owned.Elem α)

/-- C95: at any point of any program, a vector, a string, a boxed string or a box prints as Rust prints the
container of the same contents. Missing: boxed slices (`C95_fails_boxed_slice`). -/
theorem C95_containers_partial {s : Owned.State α} (hs : Owned.Reach E s) {i : Nat} {v : Owned.Val}
    (hv : s.var i = some v) (hk : v.kind ≠ .cbs) :
    ∃ c, Owned.step E s (.read i) = .ok (s, .contents c) ∧ ∀ (S : Elems α) (o : Opts),
      valDebug E S o s.heap v = .ok (rustDebug S.prims S.elem S.text o c v.kind) := by
  obtain ⟨a, R⟩ := hs.rel
  obtain ⟨⟨k, d, c⟩, g1, g2⟩ := R.get hv
  have hp := g2.parts
  refine ⟨d, ?_, fun S o => ?_⟩ <;> cases v <;> simp only [Owned.Val.parts] at hp
  all_goals have hr := Owned.read_val hp
  all_goals first
    | (exfalso; exact hk rfl)
    | simp [Owned.step, hv, Owned.CVec.deref, Owned.CBox.deref, Owned.CBox1.deref, hr, bind, Except.bind, pure, Except.pure]
    | simp [valDebug, rustDebug, Owned.Val.kind, Owned.CVec.deref, Owned.CBox.deref, Owned.CBox1.deref, hr, bind, Except.bind]

/-- C95: a vector, a string, a boxed string or a box prints like the Rust value that it converts to. Missing:
boxed slices. -/
theorem C95_as_rust_partial {s s' : Owned.State α} {i : Nat} {v w : Owned.Val} (hv : s.var i = some v)
    (hk : v.kind ≠ .cbs) (h : Owned.step E s (.toRust i) = .ok (s', .unit)) (hw : s'.var i = some w)
    (S : Elems α) (o : Opts) :
    valDebug E S o s'.heap w = valDebug E S o s.heap v ∧
    (v.kind = .cstr → valDisplay E S o s'.heap w = valDisplay E S o s.heap v ∧ (valDisplay E S o s.heap v).isSome) := by
  have get : ∀ u, (s.set s.heap i (some u)).var i = some u := by
    intro u
    have := congrFun (Owned.join_set s.vars (some u) (Owned.join_lt hv)) i
    simp only [Owned.State.var, Owned.State.set] at this ⊢
    rw [this]; simp [Owned.upd]
  cases v <;> simp only [Owned.step, hv] at h <;> cases h
  all_goals first
    | (exfalso; exact hk rfl)
    | (rw [get] at hw; cases hw; exact ⟨rfl, fun _ => ⟨rfl, rfl⟩⟩)
    | (rw [get] at hw; cases hw; exact ⟨rfl, fun h => by cases h⟩)
end

/-- Bytes, printed by `real`; the allocations are 16 bytes apart. -/
def realBytes : Elems UInt8 where
  prims := real
  elem := byteDebug real
  text := chars
  place p := match p with | none => 1 | some k => 4096 + 16 * k

/-- C95: at any point of any program, a string or a boxed string prints with `{:?}` as a literal for its text, and
a string prints with `{}` as its text. -/
theorem C95_strings {s : Owned.State UInt8} (hs : Owned.Reach Owned.u8 s) {i : Nat} {v : Owned.Val}
    (hv : s.var i = some v) (hk : v.kind = .cstr ∨ v.kind = .cbstr) :
    ∃ t, Owned.step Owned.u8 s (.read i) = .ok (s, .contents (utf8 t)) ∧
      ∀ (S : Elems UInt8) (o : Opts), S.text = chars →
        (∃ l, valDebug Owned.u8 S o s.heap v = .ok l ∧ literal l = some t) ∧
        (v.kind = .cstr → valDisplay Owned.u8 S o s.heap v = some (.ok (strDisplay o t))) := by
  obtain ⟨a, R⟩ := hs.rel
  obtain ⟨⟨k, d, c⟩, g1, g2⟩ := R.get hv
  have hkk : v.kind = k := g2.kind
  have ht : CharP.validUtf8 d = true := g2.text (by
    show k.isText = true
    rw [← hkk]; rcases hk with h | h <;> rw [h] <;> rfl)
  obtain ⟨t, rfl⟩ := (validUtf8_iff d).1 ht
  have hp := g2.parts
  refine ⟨t, ?_, fun S o hS => ⟨⟨strDebug S.prims o t, ?_, literal_debug _ _ _⟩, fun hc => ?_⟩⟩ <;>
    cases v <;> simp only [Owned.Val.kind, reduceCtorEq, or_self] at hk <;> simp only [Owned.Val.parts] at hp
  all_goals have hr := Owned.read_val hp
  all_goals first
    | (exfalso; cases hc; done)
    | simp [Owned.step, hv, Owned.CVec.deref, Owned.CBox.deref, hr, bind, Except.bind, pure, Except.pure]
    | simp [valDebug, Owned.CVec.deref, Owned.CBox.deref, hr, bind, Except.bind, hS, chars_utf8]
    | simp [valDisplay, Owned.CVec.deref, hr, bind, Except.bind, hS, chars_utf8]

/-- C95 fails: `{:?}` of a boxed slice prints its address and length, unlike the Rust value it converts to and unlike
the other slices: two boxed slices that are equal (same contents) print differently. -/
theorem C95_fails_boxed_slice : ∃ (s : Owned.State UInt8) (v w : Owned.Val), Owned.Reach Owned.u8 s ∧
    s.var 0 = some v ∧ s.var 1 = some w ∧ v.kind = .cbs ∧ w.kind = .cbs ∧
    Owned.step Owned.u8 s (.read 0) = .ok (s, .contents [1, 2]) ∧
    Owned.step Owned.u8 s (.read 1) = .ok (s, .contents [1, 2]) ∧
    valDebug Owned.u8 realBytes {} s.heap v = .ok "slice_boxed { ptr: NonNullOwned(0x1000), len: 2 }".toList ∧
    valDebug Owned.u8 realBytes {} s.heap w = .ok "slice_boxed { ptr: NonNullOwned(0x1010), len: 2 }".toList ∧
    rustDebug real (byteDebug real) chars {} [1, 2] .rbs = "[1, 2]".toList := by
  refine ⟨_, _, _, ⟨[.newBoxSlice [1, 2], .toC 0, .clone 0], _, rfl⟩, rfl, rfl, rfl, rfl,
    by decide +kernel, by decide +kernel, by decide +kernel, by decide +kernel, by decide +kernel⟩

-- a vector, with `{:?}` and `{:#?}`
example : ∃ (s : Owned.State UInt8) (v : Owned.Val), Owned.Reach Owned.u8 s ∧ s.var 0 = some v ∧ v.kind ≠ .cbs ∧
    valDebug Owned.u8 realBytes {} s.heap v = .ok "[1, 20]".toList ∧
    valDebug Owned.u8 realBytes { alternate := true } s.heap v = .ok "[\n    1,\n    20,\n]".toList :=
  ⟨_, _, ⟨[.newVec [1, 20] 3, .toC 0], _, rfl⟩, rfl, by decide, by decide +kernel, by decide +kernel⟩
-- a string becomes a Rust string
example : ∃ (s s' : Owned.State UInt8) (v w : Owned.Val), Owned.Reach Owned.u8 s ∧ s.var 0 = some v ∧ v.kind = .cstr ∧
    Owned.step Owned.u8 s (.toRust 0) = .ok (s', .unit) ∧ s'.var 0 = some w :=
  ⟨_, _, _, _, ⟨[.newStr [104, 105] 3, .toC 0], _, rfl⟩, rfl, rfl, rfl, rfl⟩

/-! ## Slices -/

section
variable {α : Type}
open Owned.Slice

/-- C95: slices, mutable slices and vectors print the elements they denote, and so does everything obtained from them
by conversions. Missing: boxed slices, and `slice_raw`, whose memory may be gone. -/
theorem C95_slices_partial {cs : List Conv} {v v' : View} (h : convs cs v = some v')
    (h1 : ∀ r, v' ≠ .raw r) (h2 : ∀ b, v' ≠ .boxed b) (P : Prims) (f : Fmt α) (o : Opts) (sz : Nat) (m : Mem α) :
    viewDebug P f o sz m v' = sliceDebug f o (elems sz m v.fat) := by
  rw [← Owned.Slice.convs_fat h]
  cases v' with
  | raw r => exact absurd rfl (h1 r)
  | boxed b => exact absurd rfl (h2 b)
  | _ => rfl

/-- C95: a string slice prints as a literal for its text. -/
theorem C95_str_ref (m : Mem UInt8) (s : Fat) (t : Text) (h : elems 1 m s = utf8 t) (P : Prims) (o : Opts) :
    strRefDebug P o m (SliceRef.ofSlice s) = strDebug P o t ∧
    literal (strRefDebug P o m (SliceRef.ofSlice s)) = some t := by
  have e : strRefDebug P o m (SliceRef.ofSlice s) = strDebug P o t := by
    show strDebug P o (chars (elems 1 m s)) = _
    rw [h, chars_utf8]
  exact ⟨e, by rw [e]; exact literal_debug P o t⟩

example : convs [.asRef, .toSlice, .toRef] (.vec ⟨16, 2, 5⟩) = some (.cref ⟨16, 2⟩) := rfl
end

/-! ## Bytes -/

section
open Bytes
variable {e : Env} {s : State}

theorem byte_debug (P : Prims) : byteDebug P = fun o b => P.num o b.toNat := rfl

/-- C95: `{:?}` of `Bytes` prints its contents as a list of numbers, whatever the representation; `{:#?}` adds whether
`upgrade` and `clone` will allocate, negated, as `owned` and `shared`. -/
theorem C95_bytes (r : Reach e s) (i : Nat) (d : List UInt8) (g : Handle) (hg : s.handle i = some g) (hs : Sees e s i d)
    (P : Prims) (o : Opts) :
    (o.alternate = false → bytesDebug P o e s.heap g.raw = .ok (sliceDebug (fun o b => P.num o b.toNat) o d)) ∧
    (o.alternate = true → ∃ owned shared,
      bytesDebug P o e s.heap g.raw = .ok (debugStruct o "Bytes"
        [("data", sliceDebug (fun o b => P.num o b.toNat) o d), ("owned", boolDebug o owned), ("shared", boolDebug o shared)]) ∧
      upgradePredicts e s i = some (!owned) ∧ clonePredicts e s i = some (!shared)) := by
  obtain ⟨g', hi, H⟩ := (sees_iff r.inv).mp hs
  rw [hg] at hi; cases hi
  have e1 := (r.inv.split hg).asSlice (by simp) H
  refine ⟨fun ha => by simp [bytesDebug, ha, e1, bind, Except.bind, byte_debug], fun ha => ?_⟩
  have hu : ∃ u, upgradeWillAllocate e g.raw = .ok u := by
    rcases H.vtable with ⟨_, hv⟩ | ⟨k, _, _, hv⟩ <;> simp [upgradeWillAllocate, hv, bind, Except.bind]
  have hc : ∃ c, cloneWillAllocate e g.raw = .ok c := by
    rcases H.vtable with ⟨_, hv⟩ | ⟨k, _, _, hv⟩ <;> simp [cloneWillAllocate, hv, bind, Except.bind]
  obtain ⟨u, hu⟩ := hu
  obtain ⟨c, hc⟩ := hc
  refine ⟨!u, !c, by simp [bytesDebug, ha, e1, hu, hc, bind, Except.bind, byte_debug], ?_, ?_⟩
  · simp [upgradePredicts, hg, hu, Except.toOption]
  · simp [clonePredicts, hg, hc, Except.toOption]

/-- C95: `owned` is right for values that own their data, and for borrowing ones that are long enough. Missing: short
borrowing values (`C95_fails_bytes_owned`). -/
theorem C95_bytes_owned_partial (r : Reach e s) (i : Nat) (d : List UInt8) (g : Handle) (hg : s.handle i = some g)
    (hs : Sees e s i d) (hl : borrowedVar e s i = false ∨ Bytes.sizeOf e.toTarget ≤ d.length) (P : Prims) (o : Opts)
    (ha : o.alternate = true) :
    ∃ shared, bytesDebug P o e s.heap g.raw = .ok (debugStruct o "Bytes"
        [("data", sliceDebug (fun o b => P.num o b.toNat) o d), ("owned", boolDebug o (!borrowedVar e s i)), ("shared", boolDebug o shared)]) := by
  obtain ⟨owned, shared, h1, h2, _⟩ := (C95_bytes r i d g hg hs P o).2 ha
  refine ⟨shared, ?_⟩
  rw [h1]
  have : owned = !borrowedVar e s i := by
    obtain ⟨g', hi, H⟩ := (sees_iff r.inv).mp hs
    rw [hg] at hi; cases hi
    simp only [upgradePredicts, hg, Option.bind_some] at h2
    simp only [borrowedVar, hg] at hl ⊢
    rcases H.vtable with ⟨hin, hv⟩ | ⟨k, hout, hw, hv⟩
    · simp [upgradeWillAllocate, hv, bind, Except.bind, Except.toOption] at h2
      simp [isBorrowedRaw, hin, h2]
    · simp [upgradeWillAllocate, hv, bind, Except.bind, Except.toOption] at h2
      have hbr : isBorrowedRaw e g.raw = k.vt.isBorrowed := by
        cases k <;> simp [isBorrowedRaw, hout, hw, Vt.isBorrowed, VtKind.vt] <;>
          first | rfl | (intro h; have := e.vt_inj _ _ h; cases this)
      rw [hbr] at hl ⊢
      rw [H.len] at h2
      rcases hl with hl | hl
      · rw [hl] at h2 ⊢; simpa using h2
      · simp only [hl, decide_true, Bool.and_true] at h2
        rw [h2]; simp
  rw [this]

/-- C95 fails: on a 64-bit little-endian target, a `Bytes` which borrows 33 bytes is printed as `owned: true`. -/
theorem C95_fails_bytes_owned : ∃ (e : Env) (s : State) (g : Handle), Reach e s ∧ s.handle 0 = some g ∧
    Sees e s 0 (List.replicate 33 7) ∧ borrowedVar e s 0 = true ∧
    bytesDebug real { alternate := true } e s.heap g.raw = .ok (debugStruct { alternate := true } "Bytes"
      [("data", sliceDebug (byteDebug real) { alternate := true } (List.replicate 33 7)), ("owned", "true".toList),
        ("shared", "true".toList)]) := by
  refine ⟨demo true true, after (demo true true) [.fromSlice (List.replicate 33 7)], _, after_reach (by decide +kernel), rfl, ?_,
    by decide +kernel, by decide +kernel⟩
  unfold Sees; decide +kernel

-- three bytes, which are stored inline
example : ((after (demo true true) [.fromSlice [1, 2, 3]]).handle 0).map (fun g =>
      bytesDebug real { alternate := true } (demo true true) (after (demo true true) [.fromSlice [1, 2, 3]]).heap g.raw) =
    some (.ok ("Bytes {\n    data: [\n        1,\n        2,\n        3,\n    ],\n    owned: true,\n    shared: true,\n}".toList)) := by
  decide +kernel
-- owned: a boxed slice of 50 bytes
example : ∃ (s : State) (g : Handle), Reach (demo true true) s ∧ s.handle 0 = some g ∧
    Sees (demo true true) s 0 (List.replicate 50 7) ∧ borrowedVar (demo true true) s 0 = false := by
  refine ⟨after (demo true true) [.fromBox (List.replicate 50 7)], _, after_reach (by decide +kernel), rfl, ?_, by decide +kernel⟩
  unfold Sees; decide +kernel
-- borrowed: 50 bytes
example : ∃ (s : State) (g : Handle), Reach (demo true true) s ∧ s.handle 0 = some g ∧
    Sees (demo true true) s 0 (List.replicate 50 7) ∧ borrowedVar (demo true true) s 0 = true := by
  refine ⟨after (demo true true) [.fromSlice (List.replicate 50 7)], _, after_reach (by decide +kernel), rfl, ?_, by decide +kernel⟩
  unfold Sees; decide +kernel
end

/-! ## Options -/

/-- C95: a `TaggedOption` prints as the `Option` it converts to. -/
theorem C95_option {α : Type} (f : Fmt α) (o : Opts) (x : Tagged α) : taggedDebug f o x = optionDebug f o x.toRust := by
  cases x <;> rfl

example : taggedDebug (byteDebug real) {} (.some 7) = "Some(7)".toList := by decide +kernel

end Verif.Print
