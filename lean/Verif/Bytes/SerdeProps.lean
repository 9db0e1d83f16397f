import Verif.Bytes.Serde
import Verif.Bytes.Props
/-!
# C70: serialization of `Bytes`
-/
namespace Verif.Bytes

variable {e : Env} {s : State}

/-- The bytes that a format hands over, if none of its elements fails. -/
def Visit.contents : Visit → Option (List Byte)
  | .borrowedBytes d | .bytes d | .byteBuf d => some d
  | .seq _ elems => if none ∈ elems then none else some (elems.filterMap id)

/-- The size that a sequence announces is a possible one. -/
def Visit.plausible (t : Target) : Visit → Prop
  | .seq (some n) _ => n < 2 ^ (8 * t.w - 1)
  | _ => True

/-- The input is lent for the call only, or given away: the result may not borrow from it. -/
def Visit.lent : Visit → Bool
  | .borrowedBytes _ => false
  | _ => true

theorem collect_eq (l : List (Option Byte)) : collect l = if none ∈ l then none else some (l.filterMap id) := by
  induction l with
  | nil => rfl
  | cons x l ih =>
    cases x with
    | none => simp [collect]
    | some c => simp only [collect, ih]; by_cases h : none ∈ l <;> simp [h]

theorem maxCapacity_eq (t : Target) : maxCapacity t = 2 ^ (8 * t.w - 1) - 1 := by
  unfold maxCapacity wordMax
  have : 256 ^ t.w = 2 * 2 ^ (8 * t.w - 1) := by
    have := t.w_lo
    rw [show (256 : Nat) = 2 ^ 8 from rfl, ← Nat.pow_mul, Nat.mul_comm 2, ← Nat.pow_succ]
    congr 1; omega
  rw [this, Nat.mul_div_cancel_left _ (by omega)]

theorem hint_ok {t : Target} {h : Option Nat} {l : List (Option Byte)} (hp : (Visit.seq h l).plausible t) :
    ¬ maxCapacity t < h.getD 64 := by
  rw [maxCapacity_eq]
  cases h with
  | none =>
    have := t.w_lo
    have : 2 ^ 15 ≤ 2 ^ (8 * t.w - 1) := Nat.pow_le_pow_right (by omega) (by omega)
    simp only [Option.getD_none]; omega
  | some n => simp only [Visit.plausible] at hp; simp only [Option.getD_some]; omega

/-- `serialize` hands exactly the contents over to the format. -/
theorem C70_serialize {i : Nat} {d : List Byte} (hs : Sees e s i d) : serialize e s i = .ok (some d) := by
  unfold Sees at hs
  simp only [step] at hs
  unfold serialize
  cases hi : s.handle i with
  | none => simp [hi] at hs
  | some h =>
    simp only [hi, bind, Except.bind] at hs ⊢
    cases ha : asSlice e.toTarget s.heap h.raw with
    | error f => simp [ha] at hs
    | ok x => simp [ha] at hs; simp [hs]

theorem later_of {op : Op} {s' : State} {i : Nat} {d : List Byte} (r : Reach e s) (hu : unsoundUse e s op = false)
    (h : step e s op = .ok (s', .bytes i)) (hs : Sees e s' i d) : Reach e s' ∧ ∀ s2, Later e i s' s2 → Sees e s2 i d :=
  ⟨r.step hu h, fun _ l => (l.sees (r.step hu h).inv hs).1⟩

theorem handle_of_sees {i : Nat} {d : List Byte} (hs : Sees e s i d) : ∃ h, s.handle i = some h := by
  unfold Sees at hs
  simp only [step] at hs
  cases hi : s.handle i with
  | none => simp [hi] at hs
  | some h => exact ⟨h, rfl⟩

/-- Any way of handing over `d` gives a value that reads as `d`, and keeps doing so in every later history:
drops of other values, and the end of the input. If the input was lent for the call only, the value does not
borrow from it (its lifetime is `'static`). Room for two copies is enough. -/
theorem C70_deserialize_partial (r : Reach e s) (v : Visit) {d : List Byte} (hc : v.contents = some d)
    (hp : v.plausible e.toTarget) (hr : Room e s (2 * d.length + 2 * e.w)) :
    ∃ s' i, visit e s v = .ok (s', .ok i) ∧ (∀ s2, Later e i s' s2 → Sees e s2 i d)
      ∧ (v.lent = true → (s'.handle i).map (·.lt) = some none) := by
  have hr1 : Room e s d.length := by unfold Room at *; omega
  have box : ∃ s' i, step e s (.fromBox d) = .ok (s', .bytes i) ∧ (∀ s2, Later e i s' s2 → Sees e s2 i d)
      ∧ (s'.handle i).map (·.lt) = some none := by
    obtain ⟨s', i, h1, h2, -⟩ := C01_constructors r d hr1 (.fromBox d) (by simp)
    refine ⟨s', i, h1, (later_of r rfl h1 h2).2, ?_⟩
    simp only [step] at h1
    cases hb : fromBox e s d with
    | none => simp [hb] at h1
    | some x =>
      obtain ⟨s1, q⟩ := x
      simp only [hb, State.push, Except.ok.injEq, Prod.mk.injEq, Out.bytes.injEq] at h1
      obtain ⟨rfl, rfl⟩ := h1
      simp [State.handle]
  cases v with
  | borrowedBytes d' =>
    simp only [Visit.contents, Option.some.injEq] at hc; subst hc
    obtain ⟨s', i, h1, h2, -⟩ := C01_constructors r d' hr1 (.fromSlice d') (by simp)
    refine ⟨s', i, by simp [visit, h1, bind, Except.bind, deserOf], (later_of r rfl h1 h2).2, by simp [Visit.lent]⟩
  | byteBuf d' =>
    simp only [Visit.contents, Option.some.injEq] at hc; subst hc
    obtain ⟨s', i, h1, h2, h3⟩ := box
    exact ⟨s', i, by simp [visit, h1, bind, Except.bind, deserOf], h2, fun _ => h3⟩
  | seq hint elems =>
    obtain ⟨s', i, h1, h2, h3⟩ := box
    refine ⟨s', i, ?_, h2, fun _ => h3⟩
    simp only [Visit.contents] at hc
    simp only [visit, collect_eq, if_neg (hint_ok hp), hc, h1, bind, Except.bind, deserOf]
  | bytes d' =>
    simp only [Visit.contents, Option.some.injEq] at hc; subst hc
    obtain ⟨s1, i, h1, h2, -⟩ := C01_constructors r d' hr1 (.fromSlice d') (by simp)
    have r1 := (later_of r rfl h1 h2).1
    have hnext : s1.next = s.next + d'.length + 2 * e.w := by
      simp only [step] at h1
      cases hn : newRegion e.toTarget s d' .borrowed with
      | none => simp [hn] at h1
      | some x =>
        obtain ⟨s0, b⟩ := x
        have h0 : s0.next = s.next + d'.length + 2 * e.w := by
          unfold newRegion at hn
          split at hn
          · cases hn; rfl
          · cases hn
        simp only [hn] at h1
        split at h1 <;> (simp only [State.push, Except.ok.injEq, Prod.mk.injEq] at h1; obtain ⟨rfl, -⟩ := h1; exact h0)
    obtain ⟨s2, o, u1, u2⟩ := C07_upgrade r1 i d' h2
    obtain ⟨g, hg, HG⟩ := (sees_iff r1.inv).mp h2
    rcases upgrade_spec s1 (r1.inv.split hg) HG with ⟨c, hroom⟩ | ⟨s', r', c, I', HO, x, y1, y2, _⟩
    · exfalso
      unfold upgrade at c
      rcases HG.vtable with ⟨q1, -⟩ | ⟨k, q1, q2, q3⟩
      · simp [vtableOf, q1, bind, Except.bind] at c
      · cases hv : vtableOf e g.raw with
        | error f => simp [hv, bind, Except.bind] at c
        | ok vt =>
          cases vt with
          | none => simp [hv, bind, Except.bind] at c
          | some vt =>
            simp only [hv, bind, Except.bind] at c
            split at c
            · cases c
            · have hsl : asSlice e.toTarget s1.heap g.raw = .ok d' := by
                have := h2; unfold Sees at this
                simp only [step, hg, bind, Except.bind] at this
                cases ha : asSlice e.toTarget s1.heap g.raw with
                | error f => simp [ha] at this
                | ok x => simp [ha] at this; rw [this]
              simp only [hsl] at c
              have : ∃ y, copiedFromSlice e s1 d' = some y := by
                unfold copiedFromSlice
                split
                · exact ⟨_, rfl⟩
                · have : s1.next + d'.length + 2 * e.w < wordMax e.toTarget := by
                    rw [hnext]; unfold Room at hr; omega
                  simp [allocate, newRegion, this]
              obtain ⟨⟨s3, q⟩, hy⟩ := this
              simp only [hy] at c
              cases hd : dropRaw e s3.heap g.raw with
              | error f => simp [hd] at c
              | ok z => simp [hd] at c
    · have hst : step e s1 (.upgrade i) = .ok (s'.put i (some ⟨r', none⟩), .unit) := by
        simp [step, hg, c, bind, Except.bind]
      rw [hst] at u1; cases u1
      rcases u2 with u2 | ⟨-, u3, -⟩
      · cases u2.1
      · refine ⟨s'.put i (some ⟨r', none⟩), i, by simp [visit, h1, hst, bind, Except.bind], u3, fun _ => ?_⟩
        have := handle_lt hg
        simp [State.handle, State.put, y1, this]

/-- An error in a sequence is returned, and nothing has been created. -/
theorem C70_error (h : Option Nat) (elems : List (Option Byte)) (hn : none ∈ elems)
    (hp : (Visit.seq h elems).plausible e.toTarget) : visit e s (.seq h elems) = .ok (s, .err) := by
  simp [visit, collect_eq, if_neg (hint_ok hp), hn]

/-- Deserializing only panics where a sequence announces more elements than a `Vec` can hold; if memory runs out,
that is what happens. -/
theorem C70_no_panic (v : Visit) (hp : v.plausible e.toTarget) {s' : State} {o : Deser} (h : visit e s v = .ok (s', o)) :
    o ≠ .panic := by
  have h1 : ∀ d s1 x, step e s (.fromSlice d) = .ok (s1, x) → deserOf x ≠ .panic := by
    intro d s1 x hs
    simp only [step] at hs
    split at hs
    · cases hs; simp [deserOf]
    · split at hs <;> cases hs <;> simp [deserOf]
  have h2 : ∀ d s1 x, step e s (.fromBox d) = .ok (s1, x) → deserOf x ≠ .panic := by
    intro d s1 x hs
    simp only [step] at hs
    split at hs <;> cases hs <;> simp [deserOf]
  cases v with
  | borrowedBytes d =>
    cases hs : step e s (.fromSlice d) with
    | error f => simp [visit, hs, bind, Except.bind] at h
    | ok x => simp [visit, hs, bind, Except.bind] at h; rw [← h.2]; exact h1 d x.1 x.2 hs
  | byteBuf d =>
    cases hs : step e s (.fromBox d) with
    | error f => simp [visit, hs, bind, Except.bind] at h
    | ok x => simp [visit, hs, bind, Except.bind] at h; rw [← h.2]; exact h2 d x.1 x.2 hs
  | bytes d =>
    cases hs : step e s (.fromSlice d) with
    | error f => simp [visit, hs, bind, Except.bind] at h
    | ok x =>
      obtain ⟨s1, x⟩ := x
      have hx := h1 d s1 x hs
      simp only [visit, hs, bind, Except.bind] at h
      split at h
      next i =>
        cases hu : step e s1 (.upgrade i) with
        | error f => simp [hu] at h
        | ok y => simp only [hu] at h; split at h <;> cases h <;> simp
      next => cases h; exact hx
  | seq hint elems =>
    simp only [visit, if_neg (hint_ok hp)] at h
    cases hc : collect elems with
    | none => rw [hc] at h; cases h; simp
    | some d =>
      rw [hc] at h
      cases hs : step e s (.fromBox d) with
      | error f => simp [hs, bind, Except.bind] at h
      | ok x => simp [hs, bind, Except.bind] at h; rw [← h.2]; exact h2 d x.1 x.2 hs

example {s' : State} {o : Deser} (h : visit (demo true true) State.init (.seq (some 3) [some 1, some 2, none]) = .ok (s', o)) :
    o ≠ .panic := C70_no_panic _ (by show 3 < _; decide) h

/-- What is serialized reads back as the same bytes, however the format hands them over. -/
theorem C70_round_trip_partial (r : Reach e s) {i : Nat} {d : List Byte} (hs : Sees e s i d) (v : Visit)
    (hv : ∃ x, serialize e s i = .ok (some x) ∧ v.contents = some x) (hp : v.plausible e.toTarget)
    (hr : Room e s (2 * d.length + 2 * e.w)) :
    ∃ s' j, visit e s v = .ok (s', .ok j) ∧ ∀ s2, Later e j s' s2 → Sees e s2 j d := by
  obtain ⟨x, h1, h2⟩ := hv
  rw [C70_serialize hs] at h1; cases h1
  obtain ⟨s', j, a, b, -⟩ := C70_deserialize_partial r v h2 hp hr
  exact ⟨s', j, a, b⟩

/-- C70 fails when a sequence announces more elements than a `Vec` can hold, as a corrupted or hostile input
may: instead of an error, or of the three elements that there are, a panic. For every target. -/
theorem C70_fails_size_hint (e : Env) (s : State) (elems : List (Option Byte)) :
    visit e s (.seq (some (2 ^ (8 * e.w - 1))) elems) = .ok (s, .panic) := by
  have : maxCapacity e.toTarget < 2 ^ (8 * e.w - 1) := by
    rw [maxCapacity_eq]
    have : 0 < 2 ^ (8 * e.w - 1) := Nat.pow_pos (by omega)
    show 2 ^ (8 * e.w - 1) - 1 < _
    omega
  simp [visit, this]

/-- The hypotheses are met: 50 bytes, lent for the call; then the input ends and its memory with it. -/
example : Reach (demo true true) State.init ∧ Room (demo true true) State.init (2 * 50 + 2 * (demo true true).w)
    ∧ (Visit.bytes (List.replicate 50 7)).contents = some (List.replicate 50 7)
    ∧ (Visit.seq (some 3) [some 1, some 2, some 3]).contents = some [1, 2, 3]
    ∧ (Visit.seq (some 3) [some 1, some 2, some 3]).plausible (demo true true).toTarget
    ∧ (match visit (demo true true) State.init (.bytes (List.replicate 50 7)) with
        | .ok (s, .ok i) => (match run (demo true true) s [.endBorrow 16, .asSlice i] with
            | .ok (_, os) => os | .error _ => [])
        | _ => []) = [.unit, .data (List.replicate 50 7)] :=
  ⟨.init, by unfold Room; decide, rfl, rfl, by show 3 < _; decide, by decide +kernel⟩

end Verif.Bytes
