import Verif.Bytes.Hist
/-!
# Properties of `Bytes`: C01-C13

Vocabulary of the statements (all small, all in `Model`, `Spec`, `Hist`):
* `Reach e s`: `s` is a program state reached by some history of API calls, on a target `e` (any word
  size, any byte order, overflow checks or not). The only excluded call is `noalloc_upgrade` on a value
  that borrows (`unsoundUse`), which is C08's defect.
* `Sees e s i d`: calling `as_slice` on variable `i` in state `s` succeeds and gives `d`.
* `Later e j s s'`: `s'` is reached from `s` by any calls that neither change nor consume variable `j`.
* `Spec.Step`, `Spec.validRange`, `Spec.slice`: value-level specification.
-/
namespace Verif.Bytes

instance {ε α : Type} [DecidableEq ε] [DecidableEq α] : DecidableEq (Except ε α)
  | .ok a, .ok b => if h : a = b then isTrue (by rw [h]) else isFalse (by intro c; cases c; exact h rfl)
  | .error a, .error b => if h : a = b then isTrue (by rw [h]) else isFalse (by intro c; cases c; exact h rfl)
  | .ok _, .error _ => isFalse (by intro c; cases c)
  | .error _, .ok _ => isFalse (by intro c; cases c)

/-- `len()` of variable `i`. -/
def lenVar (e : Env) (s : State) (i : Nat) : Option Nat := (s.handle i).map (fun h => lenOf e.toTarget h.raw)

/-- The address space still has room for `n` bytes (otherwise allocation aborts). -/
def Room (e : Env) (s : State) (n : Nat) : Prop := s.next + n + 2 * e.w < wordMax e.toTarget

/-- A 64-bit target. -/
def demo (little ovf : Bool) : Env where
  w := 8
  little := little
  ovf := ovf
  w_lo := by decide
  w_hi := by decide
  vtAddr := fun | .static => 4096 | .slice => 4112 | .arc => 4128 | .arcT => 4144 | .box => 4160
  vt_inj := by intro a b; cases a <;> cases b <;> simp
  vt_even := by intro a; cases a <;> rfl
  vt_pos := by intro a; cases a <;> decide
  vt_lt := by intro a; cases a <;> decide

/-- All calls of the history avoid the unsound use (see `unsoundUse`). -/
def SoundRun (e : Env) (s : State) : List Op → Prop
  | [] => True
  | op :: ops => unsoundUse e s op = false ∧ ∀ s' o, step e s op = .ok (s', o) → SoundRun e s' ops

/-- All calls of the history avoid the uses on which the code answers wrongly (see `wrongUse`). -/
def RightRun (e : Env) (s : State) : List Op → Prop
  | [] => True
  | op :: ops => wrongUse e s op = false ∧ ∀ s' o, step e s op = .ok (s', o) → RightRun e s' ops

/-- Boolean form of `SoundRun`, for concrete histories. -/
def soundRun? (e : Env) (s : State) : List Op → Bool
  | [] => true
  | op :: ops => !unsoundUse e s op && match step e s op with
    | .ok (s', _) => soundRun? e s' ops
    | .error _ => true

theorem soundRun_of {e : Env} {s : State} {ops : List Op} (h : soundRun? e s ops = true) : SoundRun e s ops := by
  induction ops generalizing s with
  | nil => trivial
  | cons op ops ih =>
    simp only [soundRun?, Bool.and_eq_true] at h
    refine ⟨by simpa using h.1, fun s' o hs => ih ?_⟩
    rw [hs] at h; exact h.2

theorem reach_run {e : Env} {s : State} (r : Reach e s) {ops : List Op} (hs : SoundRun e s ops) {s' : State} {os : List Out}
    (h : run e s ops = .ok (s', os)) : Reach e s' := by
  induction ops generalizing s os with
  | nil => cases h; exact r
  | cons op ops ih =>
    simp only [run, bind, Except.bind] at h
    cases c : step e s op with
    | error f => simp [c] at h
    | ok v =>
      obtain ⟨s1, o⟩ := v
      simp only [c] at h
      cases c2 : run e s1 ops with
      | error f => simp [c2] at h
      | ok v2 =>
        obtain ⟨s2, os2⟩ := v2
        simp [c2] at h
        obtain ⟨h1, h2⟩ := h
        subst h1
        exact ih (r.step hs.1 c) (hs.2 _ _ c) c2

/-- For concrete histories: reachability by computation. -/
theorem reach_demo {e : Env} {ops : List Op} {s : State} {os : List Out} (h1 : soundRun? e State.init ops = true)
    (h2 : run e State.init ops = .ok (s, os)) : Reach e s :=
  reach_run .init (soundRun_of h1) h2

/-- State after a history (init if it faults): for concrete examples. -/
def after (e : Env) (ops : List Op) : State :=
  match run e State.init ops with | .ok (s, _) => s | .error _ => State.init

theorem after_reach {e : Env} {ops : List Op} (h1 : soundRun? e State.init ops = true) : Reach e (after e ops) := by
  unfold after
  cases c : run e State.init ops with
  | ok v => exact reach_demo h1 c
  | error f => exact .init

variable {e : Env} {s : State}

/-! ## C01: constructors -/

theorem lenVar_of {s : State} (I : Inv e s) {i : Nat} {d : List Byte} (h : Sees e s i d) : lenVar e s i = some d.length := by
  obtain ⟨g, hi, H⟩ := (sees_iff I).mp h
  simp [lenVar, hi, H.len]

theorem get_push {a : Spec.St} {d : List Byte} : (a.push d).get a.bytes.length = some d := by
  simp [Spec.St.get, Spec.St.push]

/-- Every constructor gives a value that reads back as the input. -/
theorem C01_constructors (r : Reach e s) (d : List Byte) (hr : Room e s d.length)
    (op : Op) (hop : op ∈ [Op.fromStatic d, .fromSlice d, .copied d, .fromArcT d, .fromBox d]) :
    ∃ s' i, step e s op = .ok (s', .bytes i) ∧ Sees e s' i d ∧ lenVar e s' i = some d.length := by
  have ex : ∃ s' i, step e s op = .ok (s', .bytes i) := by
    unfold Room at hr
    simp only [List.mem_cons, List.not_mem_nil, or_false] at hop
    rcases hop with rfl | rfl | rfl | rfl | rfl
    · simp [step, newRegion, hr, State.push]
    · by_cases hl : d.length ≤ maxInline e.toTarget <;> simp [step, newRegion, hr, State.push, hl]
    · by_cases hl : d.length ≤ maxInline e.toTarget <;>
        simp [step, copiedFromSlice, allocate, newRegion, hr, State.push, hl]
    · simp [step, allocate, newRegion, hr, State.push]
    · by_cases hl : d.length = 0
      · simp [step, fromBox, hl, State.push]
      · simp [step, fromBox, allocate, newRegion, hr, State.push, hl]
  obtain ⟨s', i, h⟩ := ex
  have hu : unsoundUse e s op = false := by
    simp only [List.mem_cons, List.not_mem_nil, or_false] at hop
    rcases hop with rfl | rfl | rfl | rfl | rfl <;> rfl
  have hw : wrongUse e s op = false := by
    simp only [List.mem_cons, List.not_mem_nil, or_false] at hop
    rcases hop with rfl | rfl | rfl | rfl | rfl <;> rfl
  obtain ⟨J, _, sp⟩ := r.inv.step hu h
  have sp := sp hw
  have hs : Sees e s' i d := by
    rw [sees_abs J]
    generalize abs e s' = b at sp ⊢
    simp only [List.mem_cons, List.not_mem_nil, or_false] at hop
    rcases hop with rfl | rfl | rfl | rfl | rfl <;> (cases sp; exact get_push)
  exact ⟨s', i, h, hs, lenVar_of J hs⟩

example : Room (demo true true) State.init 100 := by unfold Room; decide

/-- `inline_slice` is `None` exactly above `MAX_INLINE_SIZE`, and otherwise reads back as the input. -/
theorem C01_inline_slice (r : Reach e s) (d : List Byte) :
    (maxInline e.toTarget < d.length ∧ step e s (.inlineSlice d) = .ok (s, .none_)) ∨
    (d.length ≤ maxInline e.toTarget ∧ ∃ s' i, step e s (.inlineSlice d) = .ok (s', .bytes i) ∧ Sees e s' i d
      ∧ lenVar e s' i = some d.length) := by
  by_cases hl : maxInline e.toTarget < d.length
  · left; exact ⟨hl, by simp [step, hl]⟩
  · right
    refine ⟨by omega, ?_⟩
    have h : ∃ s' i, step e s (.inlineSlice d) = .ok (s', .bytes i) := by simp [step, hl, State.push]
    obtain ⟨s', i, h⟩ := h
    obtain ⟨J, _, sp⟩ := r.inv.step rfl h
    have sp := sp rfl
    have hs : Sees e s' i d := by
      rw [sees_abs J]
      generalize abs e s' = b at sp ⊢
      cases sp; exact get_push
    exact ⟨s', i, h, hs, lenVar_of J hs⟩

example : maxInline (demo true true).toTarget = 32 ∧ maxInline (demo false true).toTarget = 39 := by decide

/-- `From<Arc<[u8]>>`: whatever happened since the `Arc` was created, the conversion reads back as the
`Arc`'s contents (`contArc` is what dereferencing the `Arc` gives). -/
theorem C01_from_arc (r : Reach e s) (j b : Nat) (hj : s.arcAt j = some b) :
    ∃ d s' i, contArc s.heap (some b) = some d ∧ step e s (.fromArc j) = .ok (s', .bytes i) ∧ Sees e s' i d
      ∧ lenVar e s' i = some d.length := by
  obtain ⟨a, ha, hb, hk⟩ := r.inv.arcs b (by
    rw [mem_live]; unfold State.arcAt at hj
    cases h : s.arcs[j]? with
    | none => simp [h] at hj
    | some x => simp [h] at hj; subst hj; exact List.mem_of_getElem? h)
  have fb := r.inv.heap.findBase ha hb
  obtain ⟨s', i, h⟩ : ∃ s' i, step e s (.fromArc j) = .ok (s', .bytes i) := by simp [step, hj, fb, State.push]
  obtain ⟨J, _, sp⟩ := r.inv.step rfl h
  have sp := sp rfl
  have hg := getArc_some (e := e) hj fb
  have hs : Sees e s' i a.data := by
    rw [sees_abs J]
    generalize abs e s' = c at sp ⊢
    cases sp with
    | fromArc h' => rw [hg] at h'; cases h'; exact get_push
  exact ⟨a.data, s', i, by simp [contArc, fb], h, hs, lenVar_of J hs⟩

example : (after (demo true true) [.arcNew [1, 2, 3], .arcClone 0]).arcAt 1 = some 16 := by decide +kernel

/-! ## C02: representation -/

/-- An image built by inlining is read back as inlined, exact length, exact data, non-zero niche word. -/
theorem C02_inline_image (t : Target) (d : List Byte) (h : d.length ≤ maxInline t) :
    (inlineUnchecked t d).length = sizeOf t ∧ isInlined t (inlineUnchecked t d) = true
    ∧ lenOf t (inlineUnchecked t d) = d.length ∧ (inlineUnchecked t d).take (lenOf t (inlineUnchecked t d)) = d
    ∧ getWord t (inlineUnchecked t d) 4 ≠ 0 := by
  have hl := inline_length t d h
  refine ⟨hl, isInlined_inline t d h, lenOf_inline t d h, ?_, ?_⟩
  · rw [lenOf_inline t d h, take_inline t d h]
  · intro h0
    have h1 := isInlined_inline t d h
    rw [← raw_fieldsOf t _ hl] at h1
    rw [isInlined_raw t _ (by show getWord t _ 4 % 2 = 0; rw [h0])] at h1
    cases h1

/-- An image holding a vtable pointer is read back as out-of-line with the exact fields. -/
theorem C02_vtable_image (t : Target) (f : Fields) (hf : f.Ok t) (heven : f.vt % 2 = 0) (hpos : 0 < f.vt) :
    (f.raw t).length = sizeOf t ∧ isInlined t (f.raw t) = false ∧ fieldsOf t (f.raw t) = f
    ∧ lenOf t (f.raw t) = f.len ∧ getWord t (f.raw t) 4 ≠ 0 := by
  have h1 := isInlined_raw t f heven
  have h2 := fieldsOf_raw t f hf
  refine ⟨Fields.raw_length t f, h1, h2, ?_, ?_⟩
  · unfold lenOf; rw [h1]; exact congrArg Fields.len h2
  · have : getWord t (f.raw t) 4 = f.vt := congrArg Fields.vt h2
    omega

/-- In every reachable state, every live value is one or the other, and its niche word is not zero
(so `Option<Bytes>` never takes it for `None`). -/
theorem C02_reachable (r : Reach e s) (i : Nat) (h : Handle) (hi : s.handle i = some h) :
    h.raw.length = sizeOf e.toTarget ∧ getWord e.toTarget h.raw 4 ≠ 0 ∧
    ((isInlined e.toTarget h.raw = true ∧ lenOf e.toTarget h.raw ≤ maxInline e.toTarget) ∨
     (isInlined e.toTarget h.raw = false ∧ ∃ k, getWord e.toTarget h.raw 4 = e.vtAddr k)) := by
  obtain ⟨d, H⟩ := (r.inv.split hi).ok h (by simp)
  refine ⟨H.length, ?_, ?_⟩
  · intro h0
    rcases H.vtable with ⟨h1, _⟩ | ⟨k, _, h2, _⟩
    · rw [← raw_fieldsOf e.toTarget _ H.length] at h1
      rw [isInlined_raw e.toTarget _ (by show getWord e.toTarget _ 4 % 2 = 0; rw [h0])] at h1
      cases h1
    · have := e.vt_pos k; omega
  · rcases H.vtable with ⟨h1, _⟩ | ⟨k, h1, h2, _⟩
    · exact .inl ⟨h1, H.inl_max h1⟩
    · exact .inr ⟨h1, k, h2⟩

example : Fields.Ok (demo true true).toTarget ⟨16, 100, 16, 100, 4128⟩ := by constructor <;> decide

/-! ## C03: shrink_to, subsliced -/

theorem inv_step {s : State} (r : Reach e s) (op : Op) (hu : unsoundUse e s op = false) (hw : wrongUse e s op = false) :
    ∃ s' o, step e s op = .ok (s', o) ∧ Inv e s' ∧ Spec.Step (abs e s) op o (abs e s') := by
  obtain ⟨s', o, h, J, _, sp⟩ := step_ok s op r.inv hu
  exact ⟨s', o, h, J, sp hw⟩

theorem get_set {a : Spec.St} {i : Nat} {d d' : List Byte} (h : a.get i = some d) :
    (a.set i (some d')).get i = some d' := by
  unfold Spec.St.get at h ⊢
  unfold Spec.St.set
  have hl : i < a.bytes.length := by
    cases c : a.bytes[i]? with
    | none => simp [c] at h
    | some x => exact (List.getElem?_eq_some_iff.mp c).1
  simp [hl]

theorem long_not_inlined {s : State} (I : Inv e s) {i : Nat} {d : List Byte} (hs : Sees e s i d)
    (hl : maxInline e.toTarget < d.length) : inlinedVar e s i = false := by
  obtain ⟨h, hi, H⟩ := (sees_iff I).mp hs
  cases c : isInlined e.toTarget h.raw with
  | false => simp [inlinedVar, hi, c]
  | true => have := H.inl_max c; rw [H.len] at this; omega

/-- Full on values that are not inlined, with bounds that do not wrap: exactly the slice-indexing rules.
Missing: inlined values (see the next theorem and the counterexamples) and bounds equal to `usize::MAX`. -/
theorem C03_shrink_to_partial (r : Reach e s) (i : Nat) (d : List Byte) (hs : Sees e s i d)
    (hin : inlinedVar e s i = false) (lo hi : Bound) (hw : wraps e.toTarget lo hi = false) :
    (Spec.validRange d.length lo hi → ∃ s', step e s (.shrinkTo i lo hi) = .ok (s', .unit) ∧ Sees e s' i (Spec.slice d lo hi))
    ∧ (¬ Spec.validRange d.length lo hi → step e s (.shrinkTo i lo hi) = .ok (s, .panic)) := by
  obtain ⟨h, hi', H⟩ := (sees_iff r.inv).mp hs
  have hout : isInlined e.toTarget h.raw = false := by simpa [inlinedVar, hi'] using hin
  rcases shrink_spec (r.inv.split hi') H hout lo hi hw with ⟨v, c⟩ | ⟨v, hp', r', c, I', HO, x⟩
  · exact ⟨fun h => absurd h v, fun _ => by simp [step, hi', c, bind, Except.bind]⟩
  · refine ⟨fun _ => ?_, fun h => absurd v h⟩
    obtain ⟨J, a1⟩ := put_ok (s' := { s with heap := hp' }) r.inv hi' I' HO x rfl rfl
    refine ⟨_, by simp [step, hi', c, bind, Except.bind]; rfl, ?_⟩
    rw [sees_abs J, a1]
    exact get_set (r.inv.get hi' H)

/-- `subsliced` likewise (on panic, `self` has been consumed). -/
theorem C03_subsliced_partial (r : Reach e s) (i : Nat) (d : List Byte) (hs : Sees e s i d)
    (hin : inlinedVar e s i = false) (lo hi : Bound) (hw : wraps e.toTarget lo hi = false) :
    (Spec.validRange d.length lo hi → ∃ s', step e s (.subsliced i lo hi) = .ok (s', .unit) ∧ Sees e s' i (Spec.slice d lo hi))
    ∧ (¬ Spec.validRange d.length lo hi → ∃ s', step e s (.subsliced i lo hi) = .ok (s', .panic)) := by
  obtain ⟨s', o, h, J, sp⟩ := inv_step r (.subsliced i lo hi) rfl (by simp [wrongUse, hin, hw])
  have hg := (sees_abs r.inv).mp hs
  have key : (Spec.validRange d.length lo hi → o = .unit ∧ Sees e s' i (Spec.slice d lo hi))
      ∧ (¬ Spec.validRange d.length lo hi → o = .panic) := by
    have ho : o ≠ .oom := by
      rintro rfl
      obtain ⟨g, hi', H⟩ := (sees_iff r.inv).mp hs
      rcases subsliced_safe (r.inv.split hi') lo hi with ⟨hp', c, _⟩ | ⟨hp', r', c, _⟩ <;>
        simp [step, hi', c, bind, Except.bind] at h
    rw [sees_abs J]
    generalize abs e s' = b at sp ⊢
    cases sp with
    | oom => exact absurd rfl ho
    | moved_bytes hn hop => simp at hop; obtain ⟨rfl, _⟩ := hop; rw [hg] at hn; cases hn
    | moved_arc hn hop => simp at hop
    | subsliced h' hr => rw [hg] at h'; cases h'; exact ⟨fun _ => ⟨rfl, get_set hg⟩, fun h => absurd hr h⟩
    | subsliced_panic h' hr => rw [hg] at h'; cases h'; exact ⟨fun h => absurd h hr, fun _ => rfl⟩
  exact ⟨fun v => ⟨s', by rw [h, (key.1 v).1], (key.1 v).2⟩, fun v => ⟨s', by rw [h, key.2 v]⟩⟩

/-- On inlined values a valid range gives the right bytes or panics, never wrong bytes.
Missing: it should not panic (`C03_fails_valid_range_panics`). -/
theorem C03_inlined_partial (r : Reach e s) (i : Nat) (d : List Byte) (hs : Sees e s i d)
    (hin : inlinedVar e s i = true) (lo hi : Bound) (hv : Spec.validRange d.length lo hi) :
    ∃ s' o, step e s (.shrinkTo i lo hi) = .ok (s', o) ∧
      ((o = .panic ∧ Sees e s' i d) ∨ (o = .unit ∧ Sees e s' i (Spec.slice d lo hi))) := by
  have hg := (sees_abs r.inv).mp hs
  obtain ⟨h, hi', H⟩ := (sees_iff r.inv).mp hs
  rcases shrink_safe (r.inv.split hi') lo hi with c | ⟨hp', r', c, _⟩
  · exact ⟨s, .panic, by simp [step, hi', c, bind, Except.bind], .inl ⟨rfl, hs⟩⟩
  · obtain ⟨s', o, hst, J, k⟩ := inlined_ok s r.inv i hin d hs (.shrinkTo i lo hi) (.inl ⟨lo, hi, rfl, hv⟩)
    have ho : o = .unit := by
      have h2 : ∃ s1, step e s (.shrinkTo i lo hi) = .ok (s1, .unit) := ⟨_, by simp [step, hi', c, bind, Except.bind]; rfl⟩
      obtain ⟨s1, h2⟩ := h2
      rw [hst] at h2; cases h2; rfl
    subst ho
    refine ⟨s', .unit, hst, .inr ⟨rfl, ?_⟩⟩
    rcases k with ⟨ho, _⟩ | sp
    · cases ho
    · rw [sees_abs J]
      generalize abs e s' = b at sp ⊢
      cases sp with
      | shrinkTo h' hr => rw [hg] at h'; cases h'; exact get_set hg

/-- The number in the place where values that are not inlined have their length. Inlined values have data there. -/
def lengthPlace (e : Env) (s : State) (i : Nat) : Nat :=
  match s.handle i with | some h => getWord e.toTarget h.raw 1 | none => 0

theorem shrink_exact {hp : List Alloc} {r : Raw} (hlen : r.length = 5 * e.w) (hin : isInlined e.toTarget r = true)
    (hmax : lenOf e.toTarget r ≤ maxInline e.toTarget) (lo hi : Bound) (hv : Spec.validRange (lenOf e.toTarget r) lo hi) :
    (getWord e.toTarget r 1 < Spec.upper (lenOf e.toTarget r) hi → shrinkTo e hp r lo hi = .ok .panic) ∧
    (Spec.upper (lenOf e.toTarget r) hi ≤ getWord e.toTarget r 1 → ∃ r', shrinkTo e hp r lo hi = .ok (.ok (hp, r'))) := by
  have hw : lenOf e.toTarget r + 1 < wordMax e.toTarget := by
    have h1 := maxInline_le e.toTarget
    have h2 := wordMax_ge e.toTarget
    omega
  have h1 : startOf e.toTarget lo = some (Spec.lower lo) := by
    cases lo with
    | incl a => rfl
    | unb => rfl
    | excl a =>
      have : a + 1 ≤ lenOf e.toTarget r := Nat.le_trans hv.1 hv.2
      rw [startOf, succWord, if_pos (by omega)]; rfl
  have h2 : endOf e.toTarget r hi = some (Spec.upper (lenOf e.toTarget r) hi) := by
    cases hi with
    | excl a => rfl
    | unb => rfl
    | incl a =>
      have : a + 1 ≤ lenOf e.toTarget r := hv.2
      rw [endOf, succWord, if_pos (by omega)]; rfl
  have hd : asSlice e.toTarget hp r = .ok (r.take (lenOf e.toTarget r)) := by
    unfold asSlice; rw [hin]; rfl
  have hdr : dropRaw e hp r = .ok hp := by
    unfold dropRaw vtableOf; rw [hin]; rfl
  have hdl : (r.take (lenOf e.toTarget r)).length = lenOf e.toTarget r := by
    have := maxInline_lt e.toTarget
    rw [List.length_take, hlen]; omega
  rw [shrinkTo_eq e hp r lo hi _ _ h1 h2]
  have hv1 := hv.1
  have hv2 := hv.2
  constructor
  · intro hlt
    rw [if_neg (by simpa using hv1), if_pos (by omega)]
  · intro hle
    rw [if_neg (by simpa using hv1), if_neg (by simpa using hle), if_pos (by omega), hd]
    simp only [bind, Except.bind, hdl, hdr, hv2, not_true_eq_false, if_false]
    exact ⟨_, rfl⟩

/-- What exactly happens to valid ranges of inlined values: `shrink_to`, `split_at` and `read` panic exactly if the end of the range is
beyond the number in the place of the length. (For `split_at` and `read` the range ends with the contents.)
Missing: they should not panic. -/
theorem C03_inlined_exact_partial (r : Reach e s) (i : Nat) (d : List Byte) (hs : Sees e s i d) (hin : inlinedVar e s i = true) (lo hi : Bound)
    (hv : Spec.validRange d.length lo hi) :
    (∃ s', step e s (.shrinkTo i lo hi) = .ok (s', .panic)) ↔ lengthPlace e s i < Spec.upper d.length hi := by
  obtain ⟨h, hi', H⟩ := (sees_iff r.inv).mp hs
  have hin' : isInlined e.toTarget h.raw = true := by simpa [inlinedVar, hi'] using hin
  cases H with
  | out hf hvt => simp [(out_facts e _ _ hf hvt).1] at hin'
  | emptyBox => simp [(out_facts e _ _ (emptyBox_ok e) rfl).1] at hin'
  | @inl r0 lt a1 a2 a3 =>
    have hdl : (r0.take (lenOf e.toTarget r0)).length = lenOf e.toTarget r0 := by
      have := maxInline_lt e.toTarget
      rw [List.length_take, a1]; omega
    rw [hdl] at hv ⊢
    have hx := shrink_exact (hp := s.heap) a1 a2 a3 lo hi hv
    simp only [lengthPlace, hi']
    by_cases hlt : getWord e.toTarget r0 1 < Spec.upper (lenOf e.toTarget r0) hi
    · simp [step, hi', hx.1 hlt, bind, Except.bind, hlt]
    · obtain ⟨r', hr'⟩ := hx.2 (by omega)
      simp [step, hi', hr', bind, Except.bind, hlt]

/-- Two inlined values: `"Hi"`, with which all three panic, and 16 digits `0`, with which none does. -/
example : Reach (demo true true) (after (demo true true) [.inlineSlice [72, 105]]) ∧
    Sees (demo true true) (after (demo true true) [.inlineSlice [72, 105]]) 0 [72, 105] ∧
    inlinedVar (demo true true) (after (demo true true) [.inlineSlice [72, 105]]) 0 = true ∧
    lengthPlace (demo true true) (after (demo true true) [.inlineSlice [72, 105]]) 0 = 0 ∧
    16 ≤ lengthPlace (demo true true) (after (demo true true) [.inlineSlice (List.replicate 16 48)]) 0 := by
  refine ⟨after_reach (by decide +kernel), ?_, by decide +kernel, by decide +kernel, by decide +kernel⟩
  unfold Sees; decide +kernel

/-- C03 fails: the valid range `1..2` of the inlined `"Hi"` panics (line 235 of /repo/src/bytes.rs compares with
the raw `len` field, which holds data bytes when inlined). -/
theorem C03_fails_valid_range_panics :
    ∃ (e : Env) (s : State) (i : Nat) (d : List Byte) (lo hi : Bound), Reach e s ∧ Sees e s i d
      ∧ Spec.validRange d.length lo hi ∧ step e s (.shrinkTo i lo hi) = .ok (s, .panic) := by
  refine ⟨demo true true, after (demo true true) [.inlineSlice [72, 105]], 0, [72, 105], .incl 1, .excl 2,
    after_reach (by decide +kernel), ?_, ⟨by decide, by decide⟩, by decide +kernel⟩
  unfold Sees; decide +kernel

/-- C03 fails: the out-of-range `0..33` of a 16-byte inlined value does not panic but rewrites its bytes. -/
theorem C03_fails_invalid_range_accepted :
    ∃ (e : Env) (s s' : State) (i : Nat) (d d' : List Byte) (lo hi : Bound), Reach e s ∧ Sees e s i d
      ∧ ¬ Spec.validRange d.length lo hi ∧ step e s (.shrinkTo i lo hi) = .ok (s', .unit) ∧ Sees e s' i d' ∧ d' ≠ d := by
  refine ⟨demo true true, after (demo true true) [.inlineSlice (List.replicate 16 48)],
    after (demo true true) [.inlineSlice (List.replicate 16 48), .shrinkTo 0 (.incl 0) (.excl 33)], 0,
    List.replicate 16 48, [48, 48, 48, 48, 48, 48, 48, 48, 33, 0, 0, 0, 0, 0, 0, 0], .incl 0, .excl 33,
    after_reach (by decide +kernel), ?_, ?_, by decide +kernel, ?_, by decide⟩
  · unfold Sees; decide +kernel
  · rintro ⟨_, h⟩; revert h; decide
  · unfold Sees; decide +kernel

/-- C03 fails: `..=usize::MAX` wraps to `..0` in release builds, and is accepted on a long value. -/
theorem C03_fails_inclusive_max :
    ∃ (e : Env) (s s' : State) (i : Nat) (d : List Byte) (lo hi : Bound), Reach e s ∧ Sees e s i d
      ∧ inlinedVar e s i = false
      ∧ ¬ Spec.validRange d.length lo hi ∧ step e s (.shrinkTo i lo hi) = .ok (s', .unit) ∧ Sees e s' i [] := by
  refine ⟨demo true false, after (demo true false) [.fromStatic (List.replicate 50 7)],
    after (demo true false) [.fromStatic (List.replicate 50 7), .shrinkTo 0 (.incl 0) (.incl (2 ^ 64 - 1))], 0,
    List.replicate 50 7, .incl 0, .incl (2 ^ 64 - 1), after_reach (by decide +kernel), ?_, by decide +kernel, ?_,
    by decide +kernel, ?_⟩
  · unfold Sees; decide +kernel
  · rintro ⟨_, h⟩; revert h; decide
  · unfold Sees; decide +kernel

example : ∃ s i d, Reach (demo true true) s ∧ Sees (demo true true) s i d ∧ inlinedVar (demo true true) s i = false
    ∧ Spec.validRange d.length (.incl 3) (.excl 40) ∧ wraps (demo true true).toTarget (.incl 3) (.excl 40) = false := by
  refine ⟨after (demo true true) [.fromStatic (List.replicate 50 7)], 0, List.replicate 50 7,
    after_reach (by decide +kernel), ?_, by decide +kernel, ⟨by decide, by decide⟩, by decide⟩
  unfold Sees; decide +kernel

/-! ## Running out of memory -/

theorem copied_none {s : State} {d : List Byte} (h : copiedFromSlice e s d = none) : maxInline e.toTarget < d.length ∧ ¬ Room e s d.length := by
  unfold copiedFromSlice at h
  by_cases hl : d.length ≤ maxInline e.toTarget
  · rw [if_pos hl] at h; cases h
  · rw [if_neg hl] at h
    refine ⟨by omega, fun hr => ?_⟩
    unfold Room at hr
    simp [allocate, newRegion, hr] at h

theorem clone_none {s : State} {h : Handle} {d : List Byte} {L : List Handle} {A : List Nat} (I : InvC e s.heap s.next (h :: L) A)
    (H : HandleOk e s.heap h d) (hc : cloneRaw e s h.raw = .ok none) :
    getWord e.toTarget h.raw 4 = e.vtAddr .box ∧ maxInline e.toTarget < d.length ∧ ¬ Room e s d.length := by
  have hd := I.asSlice (by simp) H
  rcases noallocClone_spec I with ⟨hp', e1, _⟩ | ⟨e1, _, hb⟩
  · simp [cloneRaw, e1, bind, Except.bind] at hc
  · simp [cloneRaw, e1, hd, bind, Except.bind] at hc
    exact ⟨hb, copied_none hc⟩

theorem split_oom {s s' : State} {h : Handle} {d : List Byte} {L : List Handle} {A : List Nat} (I : InvC e s.heap s.next (h :: L) A)
    (H : HandleOk e s.heap h d) {k : Nat} (hc : splitAt e s h.raw k = .ok (s', .oom)) : maxInline e.toTarget < d.length ∧ ¬ Room e s d.length := by
  have hlen := H.len
  unfold splitAt at hc
  simp only [hlen] at hc
  by_cases h1 : k ≤ d.length
  · rw [if_pos h1] at hc
    have hd := I.asSlice (by simp) H
    simp only [hd, bind, Except.bind] at hc
    by_cases h2 : k ≤ maxInline e.toTarget
    · rw [if_pos h2] at hc
      split at hc
      · cases hc
      · split at hc <;> cases hc
    · rw [if_neg h2] at hc
      by_cases h3 : d.length - k ≤ maxInline e.toTarget
      · rw [if_pos h3] at hc
        split at hc
        · cases hc
        · split at hc <;> cases hc
      · rw [if_neg h3] at hc
        rcases clone_spec s I H with c | ⟨s1, r1, c, I1, H1, _, _, _, _, hx⟩
        · exact (clone_none I H c).2
        · rw [c] at hc
          simp only at hc
          obtain ⟨_, hb, _⟩ := hx (by omega)
          rcases clone_spec s1 I1 H1 with c2 | ⟨s2, r2, c2, _⟩
          · exact absurd (clone_none I1 H1 c2).1 hb
          · simp only [c2] at hc
            split at hc <;> cases hc
  · rw [if_neg h1] at hc; cases hc

/-- The number of bytes that a call may have to find room for; `none` for the calls that need none. -/
def needs (e : Env) (s : State) : Op → Option Nat
  | .fromStatic d | .fromSlice d | .copied d | .arcNew d | .fromArcT d | .fromBox d => some d.length
  | .clone i | .splitAt i _ | .upgrade i => lenVar e s i
  | _ => none

/-- A call aborts for want of memory only if it has to find room for bytes and there is none. -/
theorem C06_aborts (r : Reach e s) (op : Op) (s' : State) (h : step e s op = .ok (s', .oom)) :
    ∃ n, needs e s op = some n ∧ ¬ Room e s n := by
  cases op with
  | fromStatic d =>
    refine ⟨_, rfl, fun hr => ?_⟩
    unfold Room at hr
    simp [step, newRegion, hr, State.push] at h
  | fromSlice d =>
    refine ⟨_, rfl, fun hr => ?_⟩
    unfold Room at hr
    by_cases hl : d.length ≤ maxInline e.toTarget <;> simp [step, newRegion, hr, State.push, hl] at h
  | inlineSlice d => simp only [step] at h; split at h <;> simp [State.push] at h
  | copied d =>
    refine ⟨_, rfl, ?_⟩
    simp only [step] at h
    cases c : copiedFromSlice e s d with
    | none => exact (copied_none c).2
    | some x => simp [c, State.push] at h
  | arcNew d =>
    refine ⟨_, rfl, fun hr => ?_⟩
    unfold Room at hr
    simp [step, allocate, newRegion, hr] at h
  | fromArcT d =>
    refine ⟨_, rfl, fun hr => ?_⟩
    unfold Room at hr
    simp [step, allocate, newRegion, hr, State.push] at h
  | fromBox d =>
    refine ⟨_, rfl, fun hr => ?_⟩
    unfold Room at hr
    by_cases hl : d.length = 0
    · simp [step, fromBox, hl, State.push] at h
    · simp [step, fromBox, allocate, newRegion, hr, State.push, hl] at h
  | arcClone j =>
    simp only [step] at h
    repeat' split at h
    all_goals simp at h
  | arcDrop j =>
    simp only [step] at h
    repeat' split at h
    all_goals simp at h
  | fromArc j =>
    simp only [step] at h
    repeat' split at h
    all_goals simp [State.push] at h
  | clone i =>
    simp only [step] at h
    cases hi : s.handle i with
    | none => simp [hi] at h
    | some g =>
      obtain ⟨d, H⟩ := (r.inv.split hi).ok g (by simp)
      refine ⟨d.length, by simp [needs, lenVar, hi, H.len], ?_⟩
      rcases clone_spec s (r.inv.split hi) H with c | ⟨s1, r1, c, _⟩
      · exact (clone_none (r.inv.split hi) H c).2.2
      · simp [hi, c, bind, Except.bind, State.push] at h
  | splitAt i k =>
    simp only [step] at h
    cases hi : s.handle i with
    | none => simp [hi] at h
    | some g =>
      obtain ⟨d, H⟩ := (r.inv.split hi).ok g (by simp)
      refine ⟨d.length, by simp [needs, lenVar, hi, H.len], ?_⟩
      rcases split_spec s (r.inv.split hi) H k with ⟨v, c⟩ | ⟨v, hm, c⟩ | ⟨v, hin, hp', c, I', x⟩ | ⟨v, s1, l, m, c, _⟩
      · simp [hi, c, bind, Except.bind] at h
      · exact (split_oom (r.inv.split hi) H c).2
      · simp [hi, c, bind, Except.bind] at h
      · simp [hi, c, bind, Except.bind] at h
  | upgrade i =>
    simp only [step] at h
    cases hi : s.handle i with
    | none => simp [hi] at h
    | some g =>
      obtain ⟨d, H⟩ := (r.inv.split hi).ok g (by simp)
      refine ⟨d.length, by simp [needs, lenVar, hi, H.len], ?_⟩
      have hd := (r.inv.split hi).asSlice (by simp) H
      rcases upgrade_spec s (r.inv.split hi) H with ⟨c, _⟩ | ⟨s1, r1, c, _⟩
      · unfold upgrade at c
        simp only [hd, bind, Except.bind] at c
        split at c
        · cases c
        · split at c
          · cases c
          · split at c
            · cases c
            · split at c
              · next c' => exact (copied_none c').2
              · split at c <;> cases c
      · simp [hi, c, bind, Except.bind] at h
  | _ =>
    simp only [step, bind, Except.bind] at h
    repeat' split at h
    all_goals simp [State.push] at h

/-- On a fresh 64-bit machine, cloning 50 bytes does not abort. -/
example : Reach (demo true true) (after (demo true true) [.fromBox (List.replicate 50 7)]) ∧
    needs (demo true true) (after (demo true true) [.fromBox (List.replicate 50 7)]) (.clone 0) = some 50 ∧
    Room (demo true true) (after (demo true true) [.fromBox (List.replicate 50 7)]) 50 :=
  ⟨after_reach (by decide +kernel), by decide +kernel, by unfold Room; decide +kernel⟩

/-! ## C04: split_at -/

theorem get_push_old {a : Spec.St} {d : List Byte} {i : Nat} (hi : i < a.bytes.length) : (a.push d).get i = a.get i := by
  simp [Spec.St.get, Spec.St.push, List.getElem?_append_left hi]

/-- Full on values that are not inlined; on inlined values the code may also panic.
Missing: absence of that panic (`C04_fails`). -/
theorem C04_split_at_partial (r : Reach e s) (i : Nat) (d : List Byte) (hs : Sees e s i d) (k : Nat) :
    ∃ s' o, step e s (.splitAt i k) = .ok (s', o) ∧
      (¬ k ≤ d.length → o = .err ∧ s' = s) ∧
      (k ≤ d.length → (∃ l m, o = .bytes2 l m ∧ Sees e s' l (d.take k) ∧ Sees e s' m (d.drop k))
        ∨ (o = .oom ∧ maxInline e.toTarget < d.length ∧ ¬ Room e s d.length)
        ∨ (o = .panic ∧ inlinedVar e s i = true)) := by
  have hg := (sees_abs r.inv).mp hs
  obtain ⟨h, hi', H⟩ := (sees_iff r.inv).mp hs
  rcases split_spec s (r.inv.split hi') H k with ⟨v, c⟩ | ⟨v, hm, c⟩ | ⟨v, hin, hp', c, I', x⟩ | ⟨v, s1, l, m, c, I', x, h1, h2, HL, HR⟩
  · exact ⟨s, .err, by simp [step, hi', c, bind, Except.bind], fun _ => ⟨rfl, rfl⟩, fun h => absurd h v⟩
  · exact ⟨s, .oom, by simp [step, hi', c, bind, Except.bind], fun h => absurd v h, fun _ => .inr (.inl ⟨rfl, hm, (split_oom (r.inv.split hi') H c).2⟩)⟩
  · exact ⟨_, .panic, by simp [step, hi', c, bind, Except.bind]; rfl, fun h => absurd v h,
      fun _ => .inr (.inr ⟨rfl, by simp [inlinedVar, hi', hin]⟩)⟩
  · obtain ⟨s', o, hst, J, _, _⟩ := step_ok s (.splitAt i k) r.inv rfl
    refine ⟨s', o, hst, fun h => absurd v h, fun _ => .inl ?_⟩
    have hst2 := hst
    simp [step, hi', c, bind, Except.bind] at hst2
    obtain ⟨hs', ho⟩ := hst2
    refine ⟨_, _, ho.symm, ?_, ?_⟩
    · rw [sees_iff J]; refine ⟨⟨l, h.lt⟩, ?_, ?_⟩
      · rw [← hs']; simp [State.handle, State.put]
      · rw [← hs']; exact HL
    · rw [sees_iff J]; refine ⟨⟨m, h.lt⟩, ?_, ?_⟩
      · rw [← hs']; simp [State.handle, State.put]
      · rw [← hs']; exact HR

/-- What exactly happens to inlined values: see `C03_inlined_exact_partial`. -/
theorem C04_inlined_exact_partial (r : Reach e s) (i : Nat) (d : List Byte) (hs : Sees e s i d) (hin : inlinedVar e s i = true) (k : Nat)
    (hk : k ≤ d.length) : (∃ s', step e s (.splitAt i k) = .ok (s', .panic)) ↔ lengthPlace e s i < d.length := by
  obtain ⟨h, hi', H⟩ := (sees_iff r.inv).mp hs
  have hin' : isInlined e.toTarget h.raw = true := by simpa [inlinedVar, hi'] using hin
  cases H with
  | out hf hvt => simp [(out_facts e _ _ hf hvt).1] at hin'
  | emptyBox => simp [(out_facts e _ _ (emptyBox_ok e) rfl).1] at hin'
  | @inl r0 lt a1 a2 a3 =>
    have hdl : (r0.take (lenOf e.toTarget r0)).length = lenOf e.toTarget r0 := by
      have := maxInline_lt e.toTarget
      rw [List.length_take, a1]; omega
    rw [hdl] at hk ⊢
    have hx := shrink_exact (hp := s.heap) a1 a2 a3 (.incl k) .unb ⟨hk, Nat.le_refl _⟩
    have hd : asSlice e.toTarget s.heap r0 = .ok (r0.take (lenOf e.toTarget r0)) := by unfold asSlice; rw [a2]; rfl
    have hdr : dropRaw e s.heap r0 = .ok s.heap := by unfold dropRaw vtableOf; rw [a2]; rfl
    have hm : k ≤ maxInline e.toTarget := Nat.le_trans hk a3
    simp only [lengthPlace, hi']
    by_cases hlt : getWord e.toTarget r0 1 < lenOf e.toTarget r0
    · simp [step, hi', splitAt, subsliced, hd, hdr, hx.1 hlt, bind, Except.bind, hlt, hk, hm]
    · obtain ⟨r', hr'⟩ := hx.2 (Nat.le_of_not_lt hlt)
      simp [step, hi', splitAt, subsliced, hd, hr', bind, Except.bind, hlt, hk, hm]

/-- C04 fails: `Bytes::inline_slice(b"Hi").split_at(1)` panics. -/
theorem C04_fails : ∃ (e : Env) (s s' : State) (i : Nat) (d : List Byte) (k : Nat), Reach e s ∧ Sees e s i d
    ∧ k ≤ d.length ∧ step e s (.splitAt i k) = .ok (s', .panic) := by
  refine ⟨demo true true, after (demo true true) [.inlineSlice [72, 105]],
    after (demo true true) [.inlineSlice [72, 105], .splitAt 0 1], 0, [72, 105], 1,
    after_reach (by decide +kernel), ?_, by decide, by decide +kernel⟩
  unfold Sees; decide +kernel

/-! ## C05, C07: clones and upgrades survive every later history -/

/-- A clone reads as the original, and keeps doing so whatever happens to all other variables (drops,
conversions, ended borrows, panics); the original is not changed by cloning. -/
theorem C05_clone (r : Reach e s) (i : Nat) (d : List Byte) (hs : Sees e s i d) :
    ∃ s1 o, step e s (.clone i) = .ok (s1, o) ∧
      ((o = .oom ∧ ¬ Room e s d.length) ∨ ∃ j, o = .bytes j ∧ i ≠ j ∧ Sees e s1 i d ∧ ∀ s2, Later e j s1 s2 → Sees e s2 j d) := by
  obtain ⟨s', o, h, J, sp⟩ := inv_step r (.clone i) rfl rfl
  refine ⟨s', o, h, ?_⟩
  have hg := (sees_abs r.inv).mp hs
  have key : o = .oom ∨ ∃ j, o = .bytes j ∧ i ≠ j ∧ Sees e s' i d ∧ Sees e s' j d := by
    simp only [sees_abs J]
    have hil : i < (abs e s).bytes.length := by
      unfold Spec.St.get at hg
      cases c : (abs e s).bytes[i]? with
      | none => simp [c] at hg
      | some x => exact (List.getElem?_eq_some_iff.mp c).1
    generalize abs e s' = b at sp ⊢
    cases sp with
    | oom => exact .inl rfl
    | moved_bytes hn hop => simp at hop; subst hop; rw [hg] at hn; cases hn
    | moved_arc hn hop => simp at hop
    | clone h' =>
      rw [hg] at h'; cases h'
      exact .inr ⟨_, rfl, Nat.ne_of_lt hil, by rw [get_push_old hil]; exact hg, get_push⟩
  rcases key with k | ⟨j, ho, hne, h1, h2⟩
  · subst k
    obtain ⟨n, hn, hr⟩ := C06_aborts r _ _ h
    rw [needs, lenVar_of r.inv hs] at hn
    cases hn
    exact .inl ⟨rfl, hr⟩
  · exact .inr ⟨j, ho, hne, h1, fun s2 l => (l.sees J h2).1⟩

/-- `upgrade` keeps the contents, whatever happens afterwards to the other variables and to the borrow
the value came from: the upgraded value does not keep that borrow alive. -/
theorem C07_upgrade (r : Reach e s) (i : Nat) (d : List Byte) (hs : Sees e s i d) :
    ∃ s1 o, step e s (.upgrade i) = .ok (s1, o) ∧
      ((o = .oom ∧ ¬ Room e s d.length) ∨ (o = .unit ∧ (∀ s2, Later e i s1 s2 → Sees e s2 i d)
        ∧ ∀ s2, Later e i s1 s2 → ∀ b a, findBase s2.heap b = some a → a.kind = .borrowed → 0 < a.refs →
            (∀ j h, j ≠ i → s2.handle j = some h → h.lt ≠ some b) →
            ∃ s3, step e s2 (.endBorrow b) = .ok (s3, .unit) ∧ Sees e s3 i d)) := by
  obtain ⟨h, hi, H⟩ := (sees_iff r.inv).mp hs
  rcases upgrade_spec s (r.inv.split hi) H with ⟨c, _⟩ | ⟨s', r', c, I', HO, x, h1, h2, _⟩
  · have hst : step e s (.upgrade i) = .ok (s, .oom) := by simp [step, hi, c, bind, Except.bind]
    obtain ⟨n, hn, hr⟩ := C06_aborts r _ _ hst
    rw [needs, lenVar_of r.inv hs] at hn
    cases hn
    exact ⟨s, .oom, hst, .inl ⟨rfl, hr⟩⟩
  · obtain ⟨J, a1⟩ := put_ok (s' := s') r.inv hi I' HO x h1 h2
    have hss : Sees e (s'.put i (some ⟨r', none⟩)) i d := by
      rw [sees_abs J, a1]; exact get_set (r.inv.get hi H)
    refine ⟨s'.put i (some ⟨r', none⟩), .unit, by simp [step, hi, c, bind, Except.bind], .inr ⟨rfl, fun s2 l => (l.sees J hss).1, ?_⟩⟩
    intro s2 l b a fb ak ar ho
    obtain ⟨hs2, J2, hh⟩ := l.sees J hss
    have hh0 : (s'.put i (some ⟨r', none⟩)).handle i = some ⟨r', none⟩ := by
      have := handle_lt hi
      simp [State.handle, State.put, h1, this]
    rw [hh0] at hh
    have hany : s2.handles.any (fun h => match h with | some h => h.lt == some b | none => false) = false := by
      rw [List.any_eq_false]
      intro g hg
      cases g with
      | none => simp
      | some g =>
        simp only [beq_iff_eq]
        obtain ⟨j, hj, hjg⟩ := List.getElem_of_mem hg
        have hhj : s2.handle j = some g := by simp [State.handle, List.getElem?_eq_getElem hj, hjg]
        by_cases hji : j = i
        · subst hji; rw [hh] at hhj; cases hhj; simp
        · exact ho j g hji hhj
    have hst : step e s2 (.endBorrow b) = .ok ({ s2 with heap := setRefs s2.heap b 0 }, .unit) := by
      simp only [step, fb, ak, ar, and_self, if_true]
      exact if_neg (by rw [Bool.not_eq_true]; exact hany)
    refine ⟨_, hst, ?_⟩
    have l2 : Later e i s2 { s2 with heap := setRefs s2.heap b 0 } := .step rfl rfl hst .refl
    exact (l2.sees J2 hs2).1

example : ∃ s, Reach (demo true true) s ∧ Sees (demo true true) s 0 (List.replicate 50 7)
    ∧ borrowedVar (demo true true) s 0 = true := by
  refine ⟨after (demo true true) [.fromSlice (List.replicate 50 7)], after_reach (by decide +kernel), ?_, by decide +kernel⟩
  unfold Sees; decide +kernel

/-! ## C06: memory safety, exact counts, no leaks -/

/-- Live `Bytes` variables that own the region at `b`, plus live `Arc<[u8]>` variables pointing to it. -/
def owners (e : Env) (s : State) (b : Nat) : Nat :=
  (live s.handles).countP (fun h => ownerOf e h.raw == some b) + (live s.arcs).count b

/-- Heap storage managed by the crate or by `Arc`/`Box` (not static or borrowed memory). -/
def Alloc.isHeap (a : Alloc) : Prop := a.kind = .arc ∨ a.kind = .arcT ∨ a.kind = .box

/-- No history faults: no released storage is read, nothing is released twice or with the wrong size,
no vtable pointer is garbage; including calls that panic. Histories must avoid `noalloc_upgrade` on
borrowing values: that is what is missing (`C06_fails`). -/
theorem C06_memory_safe_partial (ops : List Op) (hs : SoundRun e State.init ops) :
    ∃ s' outs, run e State.init ops = .ok (s', outs) := by
  have gen : ∀ (ops : List Op) (s : State), Inv e s → SoundRun e s ops → ∃ s' outs, run e s ops = .ok (s', outs) := by
    intro ops
    induction ops with
    | nil => intro s _ _; exact ⟨s, [], rfl⟩
    | cons op ops ih =>
      intro s I hs
      obtain ⟨s1, o, h, J, _⟩ := step_ok s op I hs.1
      obtain ⟨s2, os, h2⟩ := ih s1 J (hs.2 _ _ h)
      exact ⟨s2, o :: os, by simp [run, h, h2, bind, Except.bind]⟩
  exact gen ops _ (Inv.init e) hs

/-- Every strong count is the number of live owners. -/
theorem C06_counts (r : Reach e s) (a : Alloc) (ha : a ∈ s.heap) (hk : a.isHeap) : a.refs = owners e s a.base :=
  r.inv.counted a ha (by rcases hk with h | h | h <;> simp [h]) (by rcases hk with h | h | h <;> simp [h])

/-- Once every `Bytes` and `Arc` is gone, all storage has been released. -/
theorem C06_leak_free (r : Reach e s) (hh : ∀ i, s.handle i = none) (ha : ∀ j, s.arcAt j = none) :
    ∀ a ∈ s.heap, a.isHeap → a.refs = 0 := by
  have e1 : live s.handles = [] := by
    rw [List.eq_nil_iff_forall_not_mem]
    intro h hm
    rw [mem_live] at hm
    obtain ⟨j, hj, hjg⟩ := List.getElem_of_mem hm
    have := hh j
    simp [State.handle, List.getElem?_eq_getElem hj, hjg] at this
  have e2 : live s.arcs = [] := by
    rw [List.eq_nil_iff_forall_not_mem]
    intro h hm
    rw [mem_live] at hm
    obtain ⟨j, hj, hjg⟩ := List.getElem_of_mem hm
    have := ha j
    simp [State.arcAt, List.getElem?_eq_getElem hj, hjg] at this
  intro a hm hk
  rw [C06_counts r a hm hk]
  simp [owners, e1, e2]

/-- Storage with a live owner has not been released. -/
theorem C06_not_early (r : Reach e s) (a : Alloc) (ha : a ∈ s.heap) (hk : a.isHeap) (ho : 0 < owners e s a.base) : 0 < a.refs := by
  rw [C06_counts r a ha hk]; exact ho

/-- Values: a history that also avoids the calls of C03/C04/C12's defects behaves as byte strings. -/
theorem C06_values_partial (ops : List Op) (hs : SoundRun e State.init ops) (hr : RightRun e State.init ops) :
    ∃ s' outs, run e State.init ops = .ok (s', outs) ∧ Spec.Run (abs e State.init) ops outs (abs e s') := by
  have gen : ∀ (ops : List Op) (s : State), Inv e s → SoundRun e s ops → RightRun e s ops →
      ∃ s' outs, run e s ops = .ok (s', outs) ∧ Spec.Run (abs e s) ops outs (abs e s') := by
    intro ops
    induction ops with
    | nil => intro s _ _ _; exact ⟨s, [], rfl, .nil⟩
    | cons op ops ih =>
      intro s I hs hr
      obtain ⟨s1, o, h, J, _, sp⟩ := step_ok s op I hs.1
      obtain ⟨s2, os, h2, t⟩ := ih s1 J (hs.2 _ _ h) (hr.2 _ _ h)
      exact ⟨s2, o :: os, by simp [run, h, h2, bind, Except.bind], .cons (sp hr.1) t⟩
  exact gen ops _ (Inv.init e) hs hr

/-- C06 and C08 fail: `from_slice` a long buffer, `noalloc_upgrade` it to `'static`, end the borrow,
read: use after free, in a program that the compiler accepts. -/
theorem C06_fails : ∃ (e : Env) (ops : List Op), run e State.init ops = .error .useAfterFree
    ∧ ∃ s outs, run e State.init ops.dropLast = .ok (s, outs) ∧ .illTyped ∉ outs := by
  refine ⟨demo true true, [.fromSlice (List.replicate 50 7), .noallocUpgrade 0, .endBorrow 16, .asSlice 0],
    by decide +kernel, after (demo true true) [.fromSlice (List.replicate 50 7), .noallocUpgrade 0, .endBorrow 16],
    [.bytes 0, .unit, .unit], by decide +kernel, by decide⟩

example : SoundRun (demo true true) State.init
    [.arcNew (List.replicate 50 7), .fromArc 0, .clone 0, .splitAt 0 40, .drop 1, .tryIntoArc 2, .shrinkTo 2 (.incl 1) .unb,
     .fromSlice [1], .upgrade 4, .endBorrow 16, .drop 2, .drop 3, .drop 4, .arcDrop 1] := soundRun_of (by decide +kernel)

/-! ## C08: noalloc_upgrade -/

/-- On values that do not borrow: `Ok` keeps the contents for ever, `Err` gives the value back unchanged
and only happens when the contents do not fit inline; nothing is allocated.
Missing: borrowing values (`C06_fails`), and owned values for which `Err` is returned although they are
already `'static` (`C08_fails_owned`). -/
theorem C08_noalloc_upgrade_partial (r : Reach e s) (i : Nat) (d : List Byte) (hs : Sees e s i d)
    (hb : borrowedVar e s i = false) :
    ∃ s1 o, step e s (.noallocUpgrade i) = .ok (s1, o) ∧ s1.allocs = s.allocs ∧
      ((o = .err ∧ s1 = s ∧ maxInline e.toTarget < d.length) ∨
       (o = .unit ∧ ∀ s2, Later e i s1 s2 → Sees e s2 i d)) := by
  obtain ⟨h, hi, H⟩ := (sees_iff r.inv).mp hs
  have hb' : isBorrowedRaw e h.raw = false := by simpa [borrowedVar, hi] using hb
  rcases noallocUpgrade_spec (r.inv.split hi) H hb' with ⟨c, hm⟩ | ⟨hm, hp', r', c, I', HO, x⟩
  · exact ⟨s, .err, by simp [step, hi, c, bind, Except.bind], rfl, .inl ⟨rfl, rfl, hm⟩⟩
  · obtain ⟨J, a1⟩ := put_ok (s' := { s with heap := hp' }) r.inv hi I' HO x rfl rfl
    refine ⟨({ s with heap := hp' } : State).put i (some ⟨r', none⟩), .unit, by simp [step, hi, c, bind, Except.bind], rfl, .inr ⟨rfl, fun s2 l => (l.sees J ?_).1⟩⟩
    rw [sees_abs J, a1]; exact get_set (r.inv.get hi H)

/-- C08 fails: a borrowed long value is returned as `Ok('static)`. -/
theorem C08_fails_borrowed : ∃ (e : Env) (s s' : State) (i : Nat) (d : List Byte), Reach e s ∧ Sees e s i d
    ∧ borrowedVar e s i = true ∧ step e s (.noallocUpgrade i) = .ok (s', .unit)
    ∧ ∃ b s'', step e s' (.endBorrow b) = .ok (s'', .unit) ∧ step e s'' (.asSlice i) = .error .useAfterFree := by
  refine ⟨demo true true, after (demo true true) [.fromSlice (List.replicate 50 7)],
    after (demo true true) [.fromSlice (List.replicate 50 7), .noallocUpgrade 0], 0, List.replicate 50 7,
    after_reach (by decide +kernel), ?_, by decide +kernel, by decide +kernel, 16,
    after (demo true true) [.fromSlice (List.replicate 50 7), .noallocUpgrade 0, .endBorrow 16], by decide +kernel, by decide +kernel⟩
  unfold Sees; decide +kernel

/-- C08 fails in the other direction too: `'static` data longer than the inline size is refused. -/
theorem C08_fails_owned : ∃ (e : Env) (s : State) (i : Nat) (d : List Byte), Reach e s ∧ Sees e s i d
    ∧ (s.handle i).map (·.lt) = some none ∧ step e s (.noallocUpgrade i) = .ok (s, .err) := by
  refine ⟨demo true true, after (demo true true) [.fromStatic (List.replicate 50 7)], 0, List.replicate 50 7,
    after_reach (by decide +kernel), ?_, by decide +kernel, by decide +kernel⟩
  unfold Sees; decide +kernel

/-! ## C09: allocation predictions -/

/-- `upgrade_will_allocate()` of variable `i`. -/
def upgradePredicts (e : Env) (s : State) (i : Nat) : Option Bool :=
  (s.handle i).bind (fun h => (upgradeWillAllocate e h.raw).toOption)

/-- `clone_will_allocate()` of variable `i`. -/
def clonePredicts (e : Env) (s : State) (i : Nat) : Option Bool :=
  (s.handle i).bind (fun h => (cloneWillAllocate e h.raw).toOption)

/-- Exact except for lengths strictly between `MAX_INLINE_SIZE` and `size_of::<Bytes>()`, a window
that is empty on big-endian targets. Missing: that window on little-endian (`C09_fails`). -/
theorem C09_upgrade_partial (r : Reach e s) (i : Nat) (d : List Byte) (hs : Sees e s i d)
    (hl : d.length ≤ maxInline e.toTarget ∨ sizeOf e.toTarget ≤ d.length) (s' : State) (o : Out)
    (h : step e s (.upgrade i) = .ok (s', o)) (ho : o ≠ .oom) :
    ∃ p, upgradePredicts e s i = some p ∧ s'.allocs = s.allocs + (if p then 1 else 0) := by
  obtain ⟨g, hi, H⟩ := (sees_iff r.inv).mp hs
  have hlt := maxInline_lt e.toTarget
  have hsz : sizeOf e.toTarget = 5 * e.w := rfl
  rcases upgrade_spec s (r.inv.split hi) H with ⟨c, _⟩ | ⟨s1, r', c, _, _, _, h1, h2, hal, _⟩
  · simp [step, hi, c, bind, Except.bind] at h; exact absurd h.2.symm ho
  · simp [step, hi, c, bind, Except.bind] at h
    have ha : s'.allocs = s1.allocs := by rw [← h.1]; rfl
    rw [ha, hal]
    rcases H.vtable with ⟨hin, hv⟩ | ⟨k, hout, hw, hv⟩
    · refine ⟨false, by simp [upgradePredicts, hi, upgradeWillAllocate, hv, bind, Except.bind, Except.toOption], ?_⟩
      have : isBorrowedRaw e g.raw = false := by simp [isBorrowedRaw, hin]
      simp [this]
    · refine ⟨k.vt.isBorrowed && decide (sizeOf e.toTarget ≤ lenOf e.toTarget g.raw),
        by simp [upgradePredicts, hi, upgradeWillAllocate, hv, bind, Except.bind, Except.toOption], ?_⟩
      have hbr : isBorrowedRaw e g.raw = k.vt.isBorrowed := by
        cases k <;> simp [isBorrowedRaw, hout, hw, Vt.isBorrowed, VtKind.vt] <;>
          first | rfl | (intro h; have := e.vt_inj _ _ h; cases this)
      rw [H.len, hbr]
      cases k.vt.isBorrowed with
      | false => simp
      | true =>
        by_cases hm : maxInline e.toTarget < d.length
        · have : sizeOf e.toTarget ≤ d.length := by omega
          simp [hm, this]
        · have : ¬ sizeOf e.toTarget ≤ d.length := by omega
          simp [hm, this]

/-- Same for `clone_will_allocate`. -/
theorem C09_clone_partial (r : Reach e s) (i : Nat) (d : List Byte) (hs : Sees e s i d)
    (hl : d.length ≤ maxInline e.toTarget ∨ sizeOf e.toTarget ≤ d.length) (s' : State) (o : Out)
    (h : step e s (.clone i) = .ok (s', o)) (ho : o ≠ .oom) :
    ∃ p, clonePredicts e s i = some p ∧ s'.allocs = s.allocs + (if p then 1 else 0) := by
  obtain ⟨g, hi, H⟩ := (sees_iff r.inv).mp hs
  have hlt := maxInline_lt e.toTarget
  have hsz : sizeOf e.toTarget = 5 * e.w := rfl
  rcases clone_spec s (r.inv.split hi) H with c | ⟨s1, r', c, _, _, _, h1, h2, hal, _⟩
  · simp [step, hi, c, bind, Except.bind] at h; exact absurd h.2.symm ho
  · simp [step, hi, c, bind, Except.bind, State.push] at h
    have ha : s'.allocs = s1.allocs := by rw [← h.1]
    rw [ha, hal]
    rcases H.vtable with ⟨hin, hv⟩ | ⟨k, hout, hw, hv⟩
    · refine ⟨false, by simp [clonePredicts, hi, cloneWillAllocate, hv, bind, Except.bind, Except.toOption], ?_⟩
      simp [hin]
    · refine ⟨k.vt.retain.isNone && decide (sizeOf e.toTarget ≤ lenOf e.toTarget g.raw),
        by simp [clonePredicts, hi, cloneWillAllocate, hv, bind, Except.bind, Except.toOption], ?_⟩
      rw [H.len, hw]
      by_cases hk : k = .box
      · subst hk
        by_cases hm : maxInline e.toTarget < d.length
        · have : sizeOf e.toTarget ≤ d.length := by omega
          simp [hm, this, hout, VtKind.vt]
        · have : ¬ sizeOf e.toTarget ≤ d.length := by omega
          simp [hm, this, hout, VtKind.vt]
      · have h3 : k.vt.retain.isNone = false := by cases k <;> first | rfl | exact absurd rfl hk
        have h4 : e.vtAddr k ≠ e.vtAddr .box := fun h => hk (e.vt_inj _ _ h)
        simp [h3, h4]

/-- On big-endian targets the window is empty: the predictions are exact for all lengths. -/
theorem C09_exact_big_endian (hbe : e.little = false) (n : Nat) :
    n ≤ maxInline e.toTarget ∨ sizeOf e.toTarget ≤ n := by
  have h1 : maxInline e.toTarget = sizeOf e.toTarget - 1 := by unfold maxInline; rw [hbe]; rfl
  have h2 : sizeOf e.toTarget = 5 * e.w := rfl
  have := e.w_lo
  omega

/-- C09 fails: on a 64-bit little-endian target, every length from 33 to 39 is predicted not to allocate,
but allocates. -/
theorem C09_fails : ∃ (e : Env) (s s' s'' : State) (i : Nat) (d : List Byte), Reach e s ∧ Sees e s i d
    ∧ upgradePredicts e s i = some false ∧ step e s (.upgrade i) = .ok (s', .unit) ∧ s'.allocs = s.allocs + 1
    ∧ ∃ j k, clonePredicts e s j = some false ∧ step e s (.clone j) = .ok (s'', .bytes k) ∧ s''.allocs = s.allocs + 1 := by
  refine ⟨demo true true, after (demo true true) [.fromSlice (List.replicate 33 7), .fromBox (List.replicate 39 7)],
    after (demo true true) [.fromSlice (List.replicate 33 7), .fromBox (List.replicate 39 7), .upgrade 0],
    after (demo true true) [.fromSlice (List.replicate 33 7), .fromBox (List.replicate 39 7), .clone 1],
    0, List.replicate 33 7,
    after_reach (by decide +kernel), ?_, by decide +kernel, by decide +kernel, by decide +kernel, 1, 2, by decide +kernel, by decide +kernel, by decide +kernel⟩
  unfold Sees; decide +kernel

/-! ## C10: downcast to Arc<[u8]> -/

/-- Variable `i` is backed by an `Arc<[u8]>` and views the whole of it. -/
def wholeArc (e : Env) (s : State) (i : Nat) : Prop :=
  ∃ h a, s.handle i = some h ∧ a ∈ s.heap ∧ a.kind = .arc ∧ ownerOf e h.raw = some a.base
    ∧ getWord e.toTarget h.raw 0 = a.base ∧ lenOf e.toTarget h.raw = a.data.length

/-- Success exactly for whole views of an `Arc<[u8]>`; the heap, so every count, is unchanged: the one
count owned by the `Bytes` is transferred. -/
theorem C10_try_into_arc (r : Reach e s) (i : Nat) (d : List Byte) (hs : Sees e s i d) :
    ∃ s' o, step e s (.tryIntoArc i) = .ok (s', o) ∧
      (wholeArc e s i → ∃ j b, o = .arc j ∧ s'.arcAt j = some b ∧ contArc s'.heap (some b) = some d
        ∧ s'.heap = s.heap ∧ s'.handle i = none ∧ owners e s' b = owners e s b) ∧
      (¬ wholeArc e s i → o = .err ∧ s' = s) := by
  obtain ⟨h, hi, H⟩ := (sees_iff r.inv).mp hs
  cases c : tryIntoArc e h.raw with
  | none =>
    refine ⟨s, .err, by simp [step, hi, c], ?_, fun _ => ⟨rfl, rfl⟩⟩
    rintro ⟨h', a, hi', ha, hk, ho, hst, hlen⟩
    rw [hi] at hi'; cases hi'
    exfalso
    apply tryIntoArc_none H c
    rw [H.len] at hlen
    cases H with
    | inl hl hin hmax => rw [ownerOf_inl hin] at ho; cases ho
    | emptyBox => rw [ownerOf_out e _ .box (emptyBox_ok e) rfl] at ho; simp at ho
    | @out f k lt a' hf hvt ha' hk' hb' h1 h2 hc hbox hlt =>
      obtain ⟨f1, f2, f3, f4, f5, f6, f7⟩ := out_facts e f k hf hvt
      have hob : f.owner = a.base := by
        rw [ownerOf_out e f k hf hvt] at ho
        cases k with
        | static => simp at ho
        | slice => simp at ho
        | arc => simpa using ho
        | arcT => simpa using ho
        | box => simp at ho; exact ho.2
      have : a' = a := r.inv.heap.uniqBase ha' ha (by omega)
      subst this
      have hka : k = .arc := by rw [hk] at hk'; cases k <;> simp [kindOf] at hk' ⊢
      subst hka
      exact ⟨f1, f6.trans hvt, a', ha, by show _ = getWord e.toTarget (f.raw e.toTarget) 2; rw [f4]; exact hob.symm, hst, hlen.symm, by show _ = getWord e.toTarget (f.raw e.toTarget) 3; rw [f5]; exact hc.symm⟩
  | some b =>
    obtain ⟨ho, a, ha, hb, hk, hd⟩ := tryIntoArc_spec H c
    have hlt := handle_lt hi
    have hb2 : ¬ ¬ wholeArc e s i := by
      intro hn
      apply hn
      unfold tryIntoArc at c
      split at c
      · cases c
      · rename_i hin
        simp only at c
        split at c
        · rename_i hc
          simp only [Option.some.injEq] at c
          refine ⟨h, a, hi, ha, hk, by rw [hb]; exact ho, ?_, by rw [H.len, hd]⟩
          show (fieldsOf e.toTarget h.raw).start = _
          rw [hc.2.1, c, hb]
        · cases c
    refine ⟨{ s.put i none with arcs := s.arcs ++ [some b] }, .arc s.arcs.length, by simp [step, hi, c], fun _ => ⟨s.arcs.length, b, rfl, ?_, ?_, rfl, ?_, ?_⟩, fun hn => absurd hn hb2⟩
    · simp [State.arcAt]
    · show contArc s.heap (some b) = some d
      simp [contArc, r.inv.heap.findBase ha hb, hd]
    · simp [State.handle, State.put, hlt]
    · unfold owners
      have p1 := (live_split s.handles i h hi).countP_eq (fun h => ownerOf e h.raw == some b)
      rw [List.countP_cons_of_pos (by simp [ho])] at p1
      show List.countP _ (live (s.handles.set i none)) + (live (s.arcs ++ [some b])).count b = _
      rw [live_append, List.count_append]
      simp only [live, List.filterMap_cons, List.filterMap_nil, id] at p1 ⊢
      simp at p1 ⊢
      omega

example : wholeArc (demo true true) (after (demo true true) [.arcNew (List.replicate 50 7), .fromArc 0]) 0 := by
  exact ⟨⟨fromArcRaw (demo true true) 16 50, none⟩, ⟨16, List.replicate 50 7, .arc, 1⟩, by decide +kernel, by decide +kernel, rfl,
    by decide +kernel, by decide +kernel, by decide +kernel⟩

/-! ## C11: comparison and hash -/

/-- Lexicographic byte order, from first principles: at the first difference, the smaller byte or the
shorter string comes first. -/
def LexLt (a b : List Byte) : Prop :=
  ∃ p, (∃ x xs, a = p ∧ b = p ++ x :: xs) ∨ (∃ x y xs ys, a = p ++ x :: xs ∧ b = p ++ y :: ys ∧ x < y)

theorem cmpSlice_spec (a b : List Byte) :
    (cmpSlice a b = .eq ↔ a = b) ∧ (cmpSlice a b = .lt ↔ LexLt a b) ∧ (cmpSlice a b = .gt ↔ LexLt b a) := by
  induction a generalizing b with
  | nil =>
    cases b with
    | nil => simp [cmpSlice, LexLt]
    | cons y ys =>
      refine ⟨by simp [cmpSlice], ?_, ?_⟩
      · simp only [cmpSlice, true_iff]; exact ⟨[], .inl ⟨y, ys, rfl, rfl⟩⟩
      · simp only [cmpSlice]
        constructor
        · intro h; cases h
        · rintro ⟨p, ⟨x, xs, h1, h2⟩ | ⟨x, z, xs, zs, h1, h2, _⟩⟩ <;> simp at h2
  | cons x xs ih =>
    cases b with
    | nil =>
      refine ⟨by simp [cmpSlice], ?_, ?_⟩
      · simp only [cmpSlice]
        constructor
        · intro h; cases h
        · rintro ⟨p, ⟨x, xs, h1, h2⟩ | ⟨x, z, xs, zs, h1, h2, _⟩⟩ <;> simp at h2
      · simp only [cmpSlice, true_iff]; exact ⟨[], .inl ⟨x, xs, rfl, rfl⟩⟩
    | cons y ys =>
      have flip : ∀ (a b : Byte) (as bs : List Byte), LexLt (a :: as) (b :: bs) ↔ a < b ∨ (a = b ∧ LexLt as bs) := by
        intro a b as bs
        constructor
        · rintro ⟨p, ⟨x, xs, h1, h2⟩ | ⟨x, z, xs, zs, h1, h2, h3⟩⟩
          · cases p with
            | nil => cases h1
            | cons q p =>
              simp only [List.cons.injEq, List.cons_append] at h1 h2
              exact .inr ⟨h1.1.trans h2.1.symm, p, .inl ⟨x, xs, h1.2, h2.2⟩⟩
          · cases p with
            | nil =>
              simp only [List.nil_append, List.cons.injEq] at h1 h2
              exact .inl (by rw [h1.1, h2.1]; exact h3)
            | cons q p =>
              simp only [List.cons.injEq, List.cons_append] at h1 h2
              exact .inr ⟨h1.1.trans h2.1.symm, p, .inr ⟨x, z, xs, zs, h1.2, h2.2, h3⟩⟩
        · rintro (h | ⟨rfl, p, ⟨x, xs, h1, h2⟩ | ⟨x, z, xs, zs, h1, h2, h3⟩⟩)
          · exact ⟨[], .inr ⟨a, b, as, bs, rfl, rfl, h⟩⟩
          · exact ⟨a :: p, .inl ⟨x, xs, by rw [h1], by rw [h2]; rfl⟩⟩
          · exact ⟨a :: p, .inr ⟨x, z, xs, zs, by rw [h1]; rfl, by rw [h2]; rfl, h3⟩⟩
      obtain ⟨i1, i2, i3⟩ := ih ys
      rw [flip, flip]
      simp only [cmpSlice]
      by_cases h1 : x < y
      · have h2 : ¬ y < x := fun h => absurd (UInt8.lt_trans h1 h) (UInt8.lt_irrefl _)
        have h3 : x ≠ y := UInt8.ne_of_lt h1
        simp [h1, h2, h3, Ne.symm h3]
      · by_cases h2 : y < x
        · have h3 : x ≠ y := Ne.symm (UInt8.ne_of_lt h2)
          simp [h1, h2, h3, Ne.symm h3]
        · have h3 : x = y := UInt8.le_antisymm (UInt8.not_lt.mp h2) (UInt8.not_lt.mp h1)
          subst h3
          simp [h1, i1, i2, i3]

/-- `==`, `<`, `cmp` and `hash` of two live values, whatever their representations, are those of the
contents they show. -/
theorem C11_contents_only (r : Reach e s) (i j : Nat) (a b : List Byte) (h1 h2 : Handle) (hi : s.handle i = some h1)
    (hj : s.handle j = some h2) (hs1 : Sees e s i a) (hs2 : Sees e s j b) :
    eqBytes e.toTarget s.heap h1.raw h2.raw = .ok (decide (a = b))
    ∧ (∃ o, cmpBytes e.toTarget s.heap h1.raw h2.raw = .ok o ∧ (o = .eq ↔ a = b) ∧ (o = .lt ↔ LexLt a b) ∧ (o = .gt ↔ LexLt b a))
    ∧ hashFeed e.toTarget s.heap h1.raw = .ok (a.length, a) := by
  obtain ⟨g1, hi', H1⟩ := (sees_iff r.inv).mp hs1
  obtain ⟨g2, hj', H2⟩ := (sees_iff r.inv).mp hs2
  rw [hi] at hi'; cases hi'
  rw [hj] at hj'; cases hj'
  have e1 := (r.inv.split hi).asSlice (by simp) H1
  have e2 := (r.inv.split hj).asSlice (by simp) H2
  refine ⟨?_, ⟨cmpSlice a b, by simp [cmpBytes, e1, e2, bind, Except.bind], cmpSlice_spec a b⟩, by simp [hashFeed, e1, bind, Except.bind]⟩
  simp only [eqBytes, e1, e2, bind, Except.bind]
  congr 1
  by_cases h : a = b
  · subst h; simp
  · simp [h]

/-- The order is a strict total order. -/
theorem C11_total_order : (∀ a, ¬ LexLt a a) ∧ (∀ a b c, LexLt a b → LexLt b c → LexLt a c)
    ∧ ∀ a b, LexLt a b ∨ a = b ∨ LexLt b a := by
  have irr : ∀ a, ¬ LexLt a a := by
    intro a h
    have h1 := (cmpSlice_spec a a).2.1.mpr h
    have h2 := (cmpSlice_spec a a).1.mpr rfl
    rw [h1] at h2; cases h2
  refine ⟨irr, ?_, ?_⟩
  · intro a
    induction a with
    | nil =>
      intro b c h1 h2
      cases c with
      | nil =>
        obtain ⟨p, ⟨x, xs, _, h⟩ | ⟨x, y, xs, ys, _, h, _⟩⟩ := h2 <;> simp at h
      | cons z zs => exact ⟨[], .inl ⟨z, zs, rfl, rfl⟩⟩
    | cons x xs ih =>
      intro b c h1 h2
      cases b with
      | nil =>
        obtain ⟨p, ⟨x, xs, _, h⟩ | ⟨x, y, xs, ys, _, h, _⟩⟩ := h1 <;> simp at h
      | cons y ys =>
        cases c with
        | nil =>
          obtain ⟨p, ⟨x, xs, _, h⟩ | ⟨x, y, xs, ys, _, h, _⟩⟩ := h2 <;> simp at h
        | cons z zs =>
          rw [← (cmpSlice_spec _ _).2.1] at h1 h2 ⊢
          simp only [cmpSlice] at h1 h2 ⊢
          split at h1
          · rename_i hxy
            split at h2
            · rename_i hyz; simp [UInt8.lt_trans hxy hyz]
            · split at h2
              · cases h2
              · rename_i h3 h4
                have : y = z := UInt8.le_antisymm (UInt8.not_lt.mp h4) (UInt8.not_lt.mp h3)
                subst this; simp [hxy]
          · split at h1
            · cases h1
            · rename_i h3 h4
              have : x = y := UInt8.le_antisymm (UInt8.not_lt.mp h4) (UInt8.not_lt.mp h3)
              subst this
              split at h2
              · rename_i hyz; simp [hyz]
              · split at h2
                · cases h2
                · rename_i h5 h6
                  simp only [h5, h6, if_false]
                  rw [(cmpSlice_spec _ _).2.1] at h1 h2 ⊢
                  exact ih _ _ h1 h2
  · intro a b
    obtain ⟨i1, i2, i3⟩ := cmpSlice_spec a b
    cases h : cmpSlice a b with
    | lt => exact .inl (i2.mp h)
    | eq => exact .inr (.inl (i1.mp h))
    | gt => exact .inr (.inr (i3.mp h))

example : LexLt [1, 2] [1, 2, 0] ∧ LexLt [1, 2, 9] [1, 3] := ⟨⟨[1, 2], .inl ⟨0, [], rfl, rfl⟩⟩, ⟨[1], .inr ⟨2, 3, [9], [], rfl, rfl, by decide⟩⟩⟩

/-! ## C12: io::Read -/

/-- What reads with buffers of sizes `ns` may answer on contents `d`, leaving `rest`: each read hands out
the next `min(remaining, buffer)` bytes. The only liberty is a panic that changes nothing. -/
inductive Reads : List Byte → List Nat → List Out → List Byte → Prop
  | nil {d} : Reads d [] [] d
  | data {d n ns os rest} (t : Reads (d.drop n) ns os rest) : Reads d (n :: ns) (.data (d.take n) :: os) rest
  | panic {d n ns os rest} (hl : d.length ≤ 127) (t : Reads d ns os rest) : Reads d (n :: ns) (.panic :: os) rest

/-- The bytes handed out. -/
def got : List Out → List Byte
  | [] => []
  | .data d :: os => d ++ got os
  | _ :: os => got os

theorem Reads.prefix {d : List Byte} {ns : List Nat} {os : List Out} {rest : List Byte} (h : Reads d ns os rest) : d = got os ++ rest := by
  induction h with
  | nil => simp [got]
  | @data d n ns os rest t ih => simp only [got, List.append_assoc]; rw [← ih, List.take_append_drop]
  | panic _ t ih => simpa [got] using ih

/-- Any sequence of reads: never wrong bytes, the concatenation of the answers and the remainder are the
contents. Missing: a read of a value that is, or became, inlined may panic (`C12_fails`). -/
theorem C12_read_partial (r : Reach e s) (i : Nat) (d : List Byte) (hs : Sees e s i d) (ns : List Nat) :
    ∃ s' os rest, run e s (ns.map (Op.read i)) = .ok (s', os) ∧ Reads d ns os rest ∧ Sees e s' i rest
      ∧ d = got os ++ rest := by
  have one : ∀ (s : State) (d : List Byte) (n : Nat), Reach e s → Sees e s i d →
      ∃ s' o, step e s (.read i n) = .ok (s', o) ∧
        ((o = .panic ∧ d.length ≤ 127 ∧ Sees e s' i d) ∨ (o = .data (d.take n) ∧ Sees e s' i (d.drop n))) := by
    intro s d n r hs
    have hg := (sees_abs r.inv).mp hs
    obtain ⟨h, hi, H⟩ := (sees_iff r.inv).mp hs
    cases hin : inlinedVar e s i with
    | false =>
      have hout : isInlined e.toTarget h.raw = false := by simpa [inlinedVar, hi] using hin
      obtain ⟨hp', r', c, I', HO, x⟩ := read_spec (r.inv.split hi) H hout n
      obtain ⟨J, a1⟩ := put_ok (s' := { s with heap := hp' }) r.inv hi I' HO x rfl rfl
      refine ⟨({ s with heap := hp' } : State).put i (some ⟨r', h.lt⟩), .data (d.take n), by simp [step, hi, c, bind, Except.bind], .inr ⟨rfl, ?_⟩⟩
      rw [sees_abs J, a1]; exact get_set hg
    | true =>
      have hlen : d.length ≤ 127 := by
        have h1 := H.inl_max (by simpa [inlinedVar, hi] using hin)
        rw [H.len] at h1
        exact Nat.le_trans h1 (maxInline_le _)
      obtain ⟨s', o, hst, J, k⟩ := inlined_ok s r.inv i hin d hs (.read i n) (.inr (.inr (.inr ⟨n, rfl⟩)))
      refine ⟨s', o, hst, ?_⟩
      rcases k with ⟨ho, ha | ⟨_, hn⟩⟩ | sp
      · exact .inl ⟨ho, hlen, by rw [sees_abs J, ha]; exact hg⟩
      · exact absurd rfl (hn n)
      · rw [sees_abs J, sees_abs J]
        have ho : o ≠ .oom := by
          rintro rfl
          rcases read_safe (r.inv.split hi) n with c | ⟨hp', r', g, c, _⟩ <;>
            simp [step, hi, c, bind, Except.bind] at hst
        generalize abs e s' = b at sp ⊢
        cases sp with
        | oom => exact absurd rfl ho
        | moved_bytes hn hop => simp at hop; obtain ⟨rfl, _⟩ := hop; rw [hg] at hn; cases hn
        | moved_arc hn hop => simp at hop
        | read h' => rw [hg] at h'; cases h'; exact .inr ⟨rfl, get_set hg⟩
  induction ns generalizing s d with
  | nil => exact ⟨s, [], d, rfl, .nil, hs, rfl⟩
  | cons n ns ih =>
    obtain ⟨s1, o, h, k⟩ := one s d n r hs
    have r1 : Reach e s1 := r.step rfl h
    rcases k with ⟨rfl, hl, h2⟩ | ⟨rfl, h2⟩
    · obtain ⟨s2, os, rest, e1, e2, e3, e4⟩ := ih r1 d h2
      have R := Reads.panic (n := n) hl e2
      exact ⟨s2, _, rest, by simp [run, h, e1, bind, Except.bind], R, e3, R.prefix⟩
    · obtain ⟨s2, os, rest, e1, e2, e3, e4⟩ := ih r1 _ h2
      have R := Reads.data e2
      exact ⟨s2, _, rest, by simp [run, h, e1, bind, Except.bind], R, e3, R.prefix⟩

/-- While more than `MAX_INLINE_SIZE` bytes remain, reading never panics. -/
theorem C12_long_read (r : Reach e s) (i : Nat) (d : List Byte) (hs : Sees e s i d)
    (hl : maxInline e.toTarget < d.length) (n : Nat) :
    ∃ s', step e s (.read i n) = .ok (s', .data (d.take n)) ∧ Sees e s' i (d.drop n) := by
  have hin := long_not_inlined r.inv hs hl
  obtain ⟨h, hi, H⟩ := (sees_iff r.inv).mp hs
  have hout : isInlined e.toTarget h.raw = false := by simpa [inlinedVar, hi] using hin
  obtain ⟨hp', r', c, I', HO, x⟩ := read_spec (r.inv.split hi) H hout n
  obtain ⟨J, a1⟩ := put_ok (s' := { s with heap := hp' }) r.inv hi I' HO x rfl rfl
  refine ⟨_, by simp [step, hi, c, bind, Except.bind]; rfl, ?_⟩
  rw [sees_abs J, a1]; exact get_set (r.inv.get hi H)

/-- What exactly happens to inlined values: see `C03_inlined_exact_partial`. -/
theorem C12_inlined_exact_partial (r : Reach e s) (i : Nat) (d : List Byte) (hs : Sees e s i d) (hin : inlinedVar e s i = true) (n : Nat) :
    (∃ s', step e s (.read i n) = .ok (s', .panic)) ↔ lengthPlace e s i < d.length := by
  obtain ⟨h, hi', H⟩ := (sees_iff r.inv).mp hs
  have hin' : isInlined e.toTarget h.raw = true := by simpa [inlinedVar, hi'] using hin
  cases H with
  | out hf hvt => simp [(out_facts e _ _ hf hvt).1] at hin'
  | emptyBox => simp [(out_facts e _ _ (emptyBox_ok e) rfl).1] at hin'
  | @inl r0 lt a1 a2 a3 =>
    have hdl : (r0.take (lenOf e.toTarget r0)).length = lenOf e.toTarget r0 := by
      have := maxInline_lt e.toTarget
      rw [List.length_take, a1]; omega
    rw [hdl]
    have hle : min (lenOf e.toTarget r0) n ≤ lenOf e.toTarget r0 := Nat.min_le_left _ _
    have hx := shrink_exact (hp := s.heap) a1 a2 a3 (.incl (min (lenOf e.toTarget r0) n)) .unb ⟨hle, Nat.le_refl _⟩
    have hd : asSlice e.toTarget s.heap r0 = .ok (r0.take (lenOf e.toTarget r0)) := by unfold asSlice; rw [a2]; rfl
    simp only [lengthPlace, hi']
    by_cases hlt : getWord e.toTarget r0 1 < lenOf e.toTarget r0
    · have hy := hx.1 hlt
      simp only [step, hi', readInto, hd, bind, Except.bind, hdl, hle, not_true_eq_false, if_false, hy, hlt, iff_true]
      exact ⟨s, rfl⟩
    · obtain ⟨r', hr'⟩ := hx.2 (Nat.le_of_not_lt hlt)
      simp only [step, hi', readInto, hd, bind, Except.bind, hdl, hle, not_true_eq_false, if_false, hr', hlt, iff_false]
      rintro ⟨_, h⟩
      cases h

/-- C12 fails: reading a 40-byte static value 30 bytes at a time: the second read panics, the remaining
10 bytes having been inlined by the first. -/
theorem C12_fails : ∃ (e : Env) (s s' : State) (i : Nat) (d : List Byte) (ns : List Nat) (os : List Out),
    Reach e s ∧ Sees e s i d ∧ run e s (ns.map (Op.read i)) = .ok (s', os) ∧ .panic ∈ os := by
  refine ⟨demo true true, after (demo true true) [.fromStatic (List.replicate 40 0)],
    after (demo true true) [.fromStatic (List.replicate 40 0), .read 0 30, .read 0 30], 0, List.replicate 40 0, [30, 30],
    [.data (List.replicate 30 0), .panic], after_reach (by decide +kernel), ?_, by decide +kernel, by decide⟩
  unfold Sees; decide +kernel

/-! ## C13: noalloc_clone -/

/-- Variable `i` is backed by a `Box<[u8]>` (the only storage without shared ownership). -/
def boxBacked (e : Env) (s : State) (i : Nat) : Prop :=
  ∃ h, s.handle i = some h ∧ isInlined e.toTarget h.raw = false ∧ getWord e.toTarget h.raw 4 = e.vtAddr .box

/-- Never allocates; `None` exactly for box-backed values, with nothing changed; otherwise the result is
the same as that of `clone` (state and value), and stays readable. -/
theorem C13_noalloc_clone (r : Reach e s) (i : Nat) (d : List Byte) (hs : Sees e s i d) :
    ∃ s' o, step e s (.noallocClone i) = .ok (s', o) ∧ s'.allocs = s.allocs ∧
      (boxBacked e s i → o = .none_ ∧ s' = s) ∧
      (¬ boxBacked e s i → step e s (.clone i) = .ok (s', o) ∧
        ∃ j, o = .bytes j ∧ ∀ s2, Later e j s' s2 → Sees e s2 j d) := by
  obtain ⟨h, hi, H⟩ := (sees_iff r.inv).mp hs
  rcases noallocClone_spec (r.inv.split hi) with ⟨hp', c, I', x, nb⟩ | ⟨c, hb⟩
  · have hst : step e s (.noallocClone i) = .ok (State.push { s with heap := hp' } h) := by
      simp [step, hi, c, bind, Except.bind]
    refine ⟨_, _, hst, rfl, ?_, fun _ => ⟨?_, s.handles.length, rfl, ?_⟩⟩
    · rintro ⟨g, hg, h1⟩; rw [hi] at hg; cases hg; exact absurd h1 nb
    · simp [step, hi, cloneRaw, c, bind, Except.bind]; rfl
    · obtain ⟨J, _, _⟩ := r.inv.step rfl hst
      intro s2 l
      refine (l.sees J ?_).1
      rw [sees_iff J]
      exact ⟨h, by simp [State.handle], H.mono x⟩
  · exact ⟨s, .none_, by simp [step, hi, c, bind, Except.bind], rfl, fun _ => ⟨rfl, rfl⟩,
      fun hn => absurd ⟨h, hi, hb⟩ hn⟩

example : boxBacked (demo true true) (after (demo true true) [.fromBox [1, 2, 3]]) 0 :=
  ⟨⟨Fields.raw (demo true true).toTarget ⟨16, 3, 16, 3, 4160⟩, none⟩, by decide +kernel, by decide +kernel, by decide +kernel⟩

end Verif.Bytes
