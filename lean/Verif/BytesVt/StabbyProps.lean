import Verif.BytesVt.Stabby
import Verif.BytesVt.Props
/-!
# C71: conversion back to `ArcSlice<u8>`

The documentation (/repo/src/bytes.rs:738-745): it "requires the value to be backed by an `ArcSlice<u8>` and not have
been shrunk or cloned from a shrunk value".
-/
namespace Verif.BytesVt
open Verif.Bytes (Byte Raw Fields Bound getWord isInlined wordMax)

variable {e : Env} {s s' : State}

/-- The bytes of an `ArcSlice<u8>`. -/
def ArcSlice.contents (mem : Nat → Byte) (a : ArcSlice) : List Byte := readMem mem a.start (a.end_ - a.start)

/-- A value made of an `ArcSlice<u8>` has its contents, and gives it back, the same. -/
theorem C71_round_trip (h : Reach e s) (vt : Nat) (hv : e.vts vt = some ⟨true, true⟩) (a : ArcSlice)
    (h1 : a.start ≤ a.end_) (h2 : a.end_ < wordMax e.toTarget) :
    Sees e (s.push (fromArcSlice e s.mach vt a).1 (fromArcSlice e s.mach vt a).2) s.vars.length (a.contents s.mach.mem)
    ∧ tryIntoArcSlice e vt (fromArcSlice e s.mach vt a).2 = some a := by
  have hst := C69_given h a.start (a.end_ - a.start) (a.own vt) (by omega) (by show a.start < _; omega) h2 hv
  obtain ⟨s1, e1, e2, -⟩ := hst
  constructor
  · simp only [step] at e1
    split at e1
    · simp only [Except.ok.injEq, Prod.mk.injEq, and_true] at e1
      subst e1; exact e2
    · cases e1
  · have hf : Fields.Ok e.toTarget ⟨a.start, a.end_ - a.start, a.start, a.end_, vt⟩ :=
      ⟨by show a.start < _; omega, by show a.end_ - a.start < _; omega, by show a.start < _; omega, h2, e.vt_lt _ _ hv⟩
    obtain ⟨w0, w1, w2, w3, w4⟩ := words hf
    have hi := Verif.Bytes.isInlined_raw e.toTarget ⟨a.start, a.end_ - a.start, a.start, a.end_, vt⟩ (e.vt_even _ _ hv)
    unfold tryIntoArcSlice fromArcSlice fromRawParts ArcSlice.own
    simp only [w0, w1, w2, w4, hi]
    simp
    cases a; simp at h1 ⊢; omega

/-- After any history: the conversion succeeds only for values of an `ArcSlice<u8>` that start where it
starts, and then the `ArcSlice<u8>` has the contents of the value. -/
theorem C71_contents_partial (h : Reach e s) {vt : Nat} {i : Nat} {r : Raw} (hr : s.var i = some r) {a : ArcSlice}
    (ht : tryIntoArcSlice e vt r = some a) :
    isInlined e.toTarget r = false ∧ (ownOf e r).vt = vt ∧ a.start = (ownOf e r).owner
    ∧ Sees e s i (a.contents s.mach.mem) := by
  have I := reach_inv h
  unfold tryIntoArcSlice at ht
  cases hi : isInlined e.toTarget r with
  | true => simp [hi] at ht
  | false =>
    simp only [hi, Bool.false_eq_true, if_false] at ht
    split at ht
    · rename_i hc
      cases ht
      refine ⟨rfl, hc.1, rfl, (sees_iff I).mpr ⟨r, hr, ?_⟩⟩
      unfold BytesVt.contents ArcSlice.contents
      rw [hi, hc.2]
      simp
    · cases ht

/-- After any history: a value that is backed by the `ArcSlice<u8>` and has its full length (it was not shrunk)
gives it back, the same. (`hm`: values of that owner were made by `From<ArcSlice<u8>>`.) -/
theorem C71_unshrunk (h : Reach e s) {vt i : Nat} {r : Raw} (hr : s.var i = some r) (hi : isInlined e.toTarget r = false)
    {a : ArcSlice} (ho : ownOf e r = a.own vt) (ha : a.start ≤ a.end_)
    (hm : ∀ st ln, Ev.made (a.own vt) st ln ∈ s.mach.log → st = a.start ∧ ln = a.end_ - a.start)
    {d : List Byte} (hs : Sees e s i d) (hl : d.length = a.end_ - a.start) : tryIntoArcSlice e vt r = some a := by
  have I := reach_inv h
  obtain ⟨r', hr', hd⟩ := (sees_iff I).mp hs
  rw [hr] at hr'; cases hr'
  cases I.rep r (mem_live hr) with
  | inl _ hi' _ => rw [hi] at hi'; cases hi'
  | out f hf hv hb hc =>
    rw [own_raw hf] at ho
    rw [ho] at hc
    obtain ⟨st, ln, m1, m2, m3⟩ := hc
    obtain ⟨q1, q2⟩ := hm st ln m1
    rw [contents_raw _ hf hv] at hd
    have hlen : f.len = a.end_ - a.start := by rw [← hl, ← hd, readMem_length]
    obtain ⟨w0, w1, w2, w3, w4⟩ := words hf
    simp only [ArcSlice.own, Own.mk.injEq] at ho
    unfold tryIntoArcSlice
    simp only [w0, w1, w2, w4, hi, Bool.false_eq_true, if_false]
    rw [if_pos ⟨ho.1, by omega⟩]
    cases a; simp at *; omega

/-- C71 fails: of a value that was shrunk at its end the conversion succeeds, with a shorter `ArcSlice<u8>`
than the one it was made of. (The conversion to `Arc<[u8]>` checks the length: C10.) -/
theorem C71_fails_shrunk : ∃ (e : Env) (vt : Nat) (a a' : ArcSlice) (s : State) (r : Raw),
    e.vts vt = some ⟨true, true⟩
    ∧ s = after e (fun _ => 3) [.fromRawParts a.start (a.end_ - a.start) (a.own vt), .shrinkTo 0 (.incl 0) (.excl 60)]
    ∧ s.var 0 = some r ∧ tryIntoArcSlice e vt r = some a' ∧ a'.end_ < a.end_ :=
  ⟨demo, 4096, ⟨8192, 8292⟩, ⟨8192, 8252⟩, _, Fields.raw demo.toTarget ⟨8192, 60, 8192, 8292, 4096⟩, rfl, rfl, by decide +kernel, by decide +kernel, by decide⟩

/-- The hypotheses are met: a value cloned from an `ArcSlice<u8>`. -/
example : Reach demo (after demo (fun _ => 3) [.fromRawParts 8192 100 ⟨4096, 8192, 8292⟩, .clone 0 0, .drop 0])
    ∧ ((after demo (fun _ => 3) [.fromRawParts 8192 100 ⟨4096, 8192, 8292⟩, .clone 0 0, .drop 0]).var 1).bind
        (tryIntoArcSlice demo 4096) = some ⟨8192, 8292⟩ :=
  ⟨after_reach _ _, by decide +kernel⟩

/-- Those of `C71_unshrunk` too, for that clone, the first value being gone. -/
example : let s := after demo (fun _ => 3) [.fromRawParts 8192 100 ⟨4096, 8192, 8292⟩, .clone 0 0, .drop 0]
    ∃ r, s.var 1 = some r ∧ isInlined demo.toTarget r = false ∧ ownOf demo r = ArcSlice.own 4096 ⟨8192, 8292⟩ :=
  ⟨Fields.raw demo.toTarget ⟨8192, 100, 8192, 8292, 4096⟩, by decide +kernel, by decide +kernel, by decide +kernel⟩

end Verif.BytesVt
