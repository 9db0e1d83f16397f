import Verif.BytesVt.Hist
import Verif.BytesVt.Spec
/-!
# C69: storage supplied by the user

`Bytes::from_raw_parts` with any slice, owner, capacity and vtable: its functions are called as its SAFETY
contract says, and the contents of a value never depend on memory that the contract has given back.
-/
namespace Verif.BytesVt
open Verif.Bytes (Byte Target Raw Fields Bound R Fault Split getWord setWord fieldsOf wordMax maxInline isInlined lenOf
  inlineUnchecked startOf endOf)

variable {e : Env} {s s' : State}

theorem due_counts (o : Own) (log : List Ev) :
    due o log = (given o log : Int) + (retained o log : Int) - (released o log : Int) := by
  induction log with
  | nil => rfl
  | cons x l ih =>
    cases x with
    | read => simpa [due, due1, given, retained, released] using ih
    | _ =>
      simp only [due, due1, given, retained, released, List.countP_cons] at ih ⊢
      split <;> simp_all <;> omega

theorem reach_inv (h : Reach e s) : SInv e s := by
  obtain ⟨mem, ops, os, hr⟩ := h
  obtain ⟨s2, os2, h2, I⟩ := run_spec (init_inv (e := e) mem) ops
  rw [hr] at h2; cases h2; exact I

theorem backed_eq (o : Own) : backed e s o = (live s.vars).countP (claims e o) := by
  unfold backed live claims
  induction s.vars with
  | nil => rfl
  | cons x v ih => cases x <;> simp [List.countP_cons, ih]

theorem rel_of {o : Own} {h : Hooks} (h1 : e.vts o.vt = some h) (h2 : h.release = true) : e.rel o = true := by
  unfold Env.rel; rw [h1]; exact h2

theorem protected_of {log : List Ev} {o : Own} (h : e.rel o = true → 0 < due o log) : Protected e log o := by
  intro hk h1 h2
  have := h (rel_of h1 h2)
  rw [due_counts] at this; omega

theorem sees_iff (I : SInv e s) {i : Nat} {d : List Byte} :
    Sees e s i d ↔ ∃ r, s.var i = some r ∧ contents e s.mach.mem r = d := by
  unfold Sees
  simp only [step]
  cases hv : s.var i with
  | none => simp
  | some r =>
    obtain ⟨-, -, h3⟩ := asSlice_spec (I.at hv)
    simp only [h3, Option.some.injEq, exists_eq_left']
    constructor
    · rintro ⟨s', h⟩; cases h; rfl
    · rintro rfl; exact ⟨_, rfl⟩

/-- A target with two vtables of the user: one counts, at 4096; one cannot be shared, at 4112. -/
def demo : Env where
  w := 8
  little := true
  ovf := true
  w_lo := by decide
  w_hi := by decide
  vts a := if a = 4096 then some ⟨true, true⟩ else if a = 4112 then some ⟨false, true⟩
    else if a = 4128 then some ⟨true, true⟩ else if a = 4144 then some ⟨true, false⟩ else none
  vt_even a v h := by
    revert h
    repeat' split
    all_goals (first | (subst_vars; intro; decide) | (intro h; cases h))
  vt_lt a v h := by
    revert h
    repeat' split
    all_goals (first | (subst_vars; intro; decide) | (intro h; cases h))
  arcVt := 4128
  arc_vt := rfl
  sliceVt := 4144
  slice_vt := rfl

/-- A counted owner and an owner that cannot be shared. -/
abbrev counted : Own := ⟨4096, 77, 5⟩
abbrev unique : Own := ⟨4112, 88, 6⟩

/-- A program: counted storage, cloned, shrunk and split; storage that must be copied to be shared; both
released, then written over. -/
def demoOps : List Op :=
  [.fromRawParts 8192 100 counted, .clone 0 0, .shrinkTo 1 (.incl 10) (.excl 90), .splitAt 1 40 0 0,
   .fromRawParts 16384 64 unique, .clone 3 32768, .drop 3, .write 16385 9, .subsliced 0 (.incl 0) (.excl 4),
   .asSlice 2, .drop 0, .drop 1, .drop 2, .write 8193 7, .asSlice 4]

/-- State after a history. -/
def after (e : Env) (mem : Nat → Byte) (ops : List Op) : State :=
  match run e (State.init mem) ops with | .ok (s, _) => s | .error _ => State.init mem

theorem after_reach (mem : Nat → Byte) (ops : List Op) : Reach e (after e mem ops) := by
  unfold after
  obtain ⟨s, os, h, -⟩ := run_spec (init_inv (e := e) mem) ops
  rw [h]; exact ⟨mem, ops, os, h⟩

/-- For concrete states: what is seen, by computation. -/
theorem sees_of {i : Nat} {d : List Byte}
    (h : (match step e s (.asSlice i) with | .ok (_, o) => some o | .error _ => none) = some (.data d)) : Sees e s i d := by
  unfold Sees
  cases hs : step e s (.asSlice i) with
  | error f => rw [hs] at h; cases h
  | ok v => rw [hs] at h; simp at h; exact ⟨v.1, by rw [← h]⟩

/-! ## Calls of the vtable -/

/-- No history dereferences anything but a vtable: every history has a result. -/
theorem C69_defined (mem : Nat → Byte) (ops : List Op) : ∃ s os, run e (State.init mem) ops = .ok (s, os) := by
  obtain ⟨s, os, h, -⟩ := run_spec (init_inv (e := e) mem) ops
  exact ⟨s, os, h⟩

/-- For an owner whose vtable has a `release`: each live variable stored with it stands for exactly one call
of `release` that remains to be made. -/
theorem C69_balance (h : Reach e s) (o : Own) {k : Hooks} (hv : e.vts o.vt = some k) (hr : k.release = true) :
    given o s.mach.log + retained o s.mach.log = released o s.mach.log + backed e s o := by
  have := (reach_inv h).bal o (rel_of hv hr)
  rw [due_counts] at this
  rw [backed_eq]; omega

/-- Once all variables are gone, each owner has been released exactly once more than it was retained, for each
time that it was given. -/
theorem C69_all_released (h : Reach e s) (hg : ∀ i, s.var i = none) (o : Own) {k : Hooks} (hv : e.vts o.vt = some k)
    (hr : k.release = true) : released o s.mach.log = given o s.mach.log + retained o s.mach.log := by
  have := C69_balance h o hv hr
  have hb : backed e s o = 0 := by
    unfold backed
    rw [List.countP_eq_zero]
    intro x hx
    obtain ⟨i, hi⟩ := List.getElem?_of_mem hx
    have := hg i
    unfold State.var at this
    rw [hi] at this
    simp at this
    subst this; simp
  omega

/-- `release` is called only if the vtable has one, with the owner and capacity that were given, and never
more often than `retain` and the constructor allow. -/
theorem C69_release (h : Reach e s) {pre suf : List Ev} {o : Own} (hl : s.mach.log = pre ++ .release o :: suf) :
    (∃ k, e.vts o.vt = some k ∧ k.release = true) ∧ 1 ≤ given o pre
    ∧ released o pre < given o pre + retained o pre := by
  obtain ⟨h1, h2⟩ := (reach_inv h).good pre _ suf hl
  rw [due_counts] at h2
  have hrel : ∃ k, e.vts o.vt = some k ∧ k.release = true := by
    unfold Env.rel at h1
    split at h1
    · exact ⟨_, by assumption, h1⟩
    · cases h1
  refine ⟨hrel, ?_, by omega⟩
  -- the first call of `retain` also comes after the constructor
  have key : ∀ n (l : List Ev), l.length = n → Good e l → 0 < due o l → 1 ≤ given o l := by
    intro n
    induction n with
    | zero => intro l hl _ hd; rw [List.length_eq_zero_iff.mp hl] at hd; simp [due] at hd
    | succ n ih =>
      intro l hl hg hd
      rcases List.eq_nil_or_concat l with rfl | ⟨l', x, rfl⟩
      · simp at hl
      · rw [List.concat_eq_append] at hl hg hd ⊢
        have hg' : Good e l' := fun p y q hq => hg p y (q ++ [x]) (by rw [hq]; simp)
        have hx := hg l' x [] rfl
        have hmono : given o l' ≤ given o (l' ++ [x]) := by
          unfold given; rw [List.countP_append]; omega
        rw [due_ev] at hd
        by_cases h0 : 0 < due o l'
        · have := ih l' (by simp at hl; exact hl) hg' h0; omega
        · cases x with
          | made o' a b =>
            by_cases ho : o' = o
            · unfold given; rw [List.countP_append]; simp [ho]
            · simp [due1, ho] at hd; omega
          | retain o' =>
            by_cases ho : o' = o
            · subst ho; exact absurd (hx.2 h1) h0
            · simp [due1, ho] at hd; omega
          | release o' => exfalso; simp only [due1] at hd; split at hd <;> omega
          | read => exfalso; simp only [due1] at hd; omega
  have hgp : Good e pre := fun p y q hq => (reach_inv h).good p y (q ++ .release o :: suf) (by rw [hl, hq]; simp)
  exact key _ pre rfl hgp (by rw [due_counts]; omega)

/-- `retain` is called only if the vtable has one, while the storage is protected. -/
theorem C69_retain (h : Reach e s) {pre suf : List Ev} {o : Own} (hl : s.mach.log = pre ++ .retain o :: suf) :
    (∃ k, e.vts o.vt = some k ∧ k.retain = true) ∧ Protected e pre o := by
  obtain ⟨h1, h2⟩ := (reach_inv h).good pre _ suf hl
  exact ⟨h1, protected_of h2⟩

/-- What is read lies within a slice that was given with the same owner, and the storage is protected when it
is read. -/
theorem C69_read (h : Reach e s) {pre suf : List Ev} {o : Own} {st ln : Nat}
    (hl : s.mach.log = pre ++ .read o st ln :: suf) :
    (∃ st0 ln0, .made o st0 ln0 ∈ pre ∧ st0 ≤ st ∧ st + ln ≤ st0 + ln0) ∧ Protected e pre o := by
  obtain ⟨h1, h2⟩ := (reach_inv h).good pre _ suf hl
  exact ⟨h1, protected_of h2⟩

/-- The demonstration program: the counted owner is retained three times, by two clones and a split, and
released four times. -/
example : Reach demo (after demo (fun _ => 3) demoOps)
    ∧ retained counted (after demo (fun _ => 3) demoOps).mach.log = 3
    ∧ released counted (after demo (fun _ => 3) demoOps).mach.log = 4
    ∧ released unique (after demo (fun _ => 3) demoOps).mach.log = 1
    ∧ (after demo (fun _ => 3) demoOps).vars.map Option.isSome = [false, false, false, false, true]
    ∧ Sees demo (after demo (fun _ => 3) demoOps) 4 (List.replicate 64 3) :=
  ⟨after_reach _ _, by decide +kernel, by decide +kernel, by decide +kernel, by decide +kernel,
    sees_of (by decide +kernel)⟩

/-! ## Contents -/

theorem uses_touches {op : Op} {j : Nat} (h : ¬ Uses op j) : ¬ Touches op j := by
  cases op <;> first | exact h | exact id

/-- A variable keeps its contents through any call that does not use it: calls on other values of the same
storage, allocations, and all writes to memory that the contract has given back. -/
theorem C69_stable (h : Reach e s) {j : Nat} {d : List Byte} (hs : Sees e s j d) {op : Op} (hu : ¬ Uses op j)
    {out : Out} (hstep : step e s op = .ok (s', out)) : Sees e s' j d := by
  have I := reach_inv h
  obtain ⟨r, h1, h2⟩ := (sees_iff I).mp hs
  obtain ⟨s2, o2, hs2, I2, F⟩ := step_spec I op
  rw [hstep] at hs2; cases hs2
  obtain ⟨f1, f2⟩ := F j r h1 (uses_touches hu)
  exact (sees_iff I2).mpr ⟨r, f1, f2.trans h2⟩

theorem step_inv (I : SInv e s) {op : Op} {out : Out} (hstep : step e s op = .ok (s', out)) : SInv e s' := by
  obtain ⟨s2, o2, hs2, I2, -⟩ := step_spec I op
  rw [hstep] at hs2; cases hs2; exact I2

/-- `from_raw_parts` gives the contents of the slice, records the owner, and is never refused sound arguments. -/
theorem C69_given (h : Reach e s) (st ln : Nat) (o : Own) (h1 : st + ln < wordMax e.toTarget)
    (h2 : o.owner < wordMax e.toTarget) (h3 : o.cap < wordMax e.toTarget) {k : Hooks} (h4 : e.vts o.vt = some k) :
    ∃ s', step e s (.fromRawParts st ln o) = .ok (s', .unit)
      ∧ Sees e s' s.vars.length ((List.range ln).map fun i => s.mach.mem (st + i))
      ∧ s'.mach.log = s.mach.log ++ [.made o st ln] ∧ backed e s' o = backed e s o + 1 := by
  have I := reach_inv h
  have hp : okParts e st ln o = true := by
    simp only [okParts, okSlice, Bool.and_eq_true, decide_eq_true_eq]
    exact ⟨⟨⟨h1, h2⟩, h3⟩, by rw [h4]; rfl⟩
  obtain ⟨p1, p2, p3, p4⟩ := parts_spec I hp
  have hs : step e s (.fromRawParts st ln o) = .ok (s.push (fromRawParts e s.mach st ln o).1 (fromRawParts e s.mach st ln o).2, .unit) := by
    simp only [step]; rw [if_pos hp]
  refine ⟨_, hs, (sees_iff (step_inv I hs)).mpr ⟨_, var_new, ?_⟩, rfl, ?_⟩
  · exact p4 _
  · have hf : Fields.Ok e.toTarget ⟨st, ln, o.owner, o.cap, o.vt⟩ :=
      ⟨by show st < _; omega, by show ln < _; omega, h2, h3, e.vt_lt _ _ h4⟩
    have ho : ownOf e (fromRawParts e s.mach st ln o).2 = o := own_raw hf
    simp only [backed, State.push, List.countP_append]
    simp [p3, ho]

/-- `from_slice` and `copied_from_slice` give the contents they were given. A slice that a program can have is never
refused; copying fails only without memory (see `C69_aborts`). -/
theorem C69_made (h : Reach e s) :
    (∀ st ln, st + ln < wordMax e.toTarget → ∃ s', step e s (.fromSlice st ln) = .ok (s', .unit)
      ∧ Sees e s' s.vars.length ((List.range ln).map fun i => s.mach.mem (st + i)))
    ∧ ∀ a d, ∃ s', step e s (.copied a d) = .ok (s', .oom)
      ∨ step e s (.copied a d) = .ok (s', .unit) ∧ Sees e s' s.vars.length d := by
  have I := reach_inv h
  constructor
  · intro st ln hl
    have hp : okSlice e st ln = true := by simpa [okSlice] using hl
    obtain ⟨p1, p2, p3⟩ := fromSlice_spec I hp
    have hs : step e s (.fromSlice st ln) = .ok (s.push (fromSlice e s.mach st ln).1 (fromSlice e s.mach st ln).2, .unit) := by
      simp only [step]; rw [if_pos hp]
    exact ⟨_, hs, (sees_iff (step_inv I hs)).mpr ⟨_, var_new, by rw [← p2] at p3; rw [← p2]; exact p3⟩⟩
  · intro a d
    rcases copied_spec I a d with c | ⟨m', r', c1, c2, c3, c4, -⟩
    · exact ⟨s, .inl (by simp only [step, c])⟩
    · have hs : step e s (.copied a d) = .ok (s.push m' r', .unit) := by simp only [step, c1]
      exact ⟨_, .inr ⟨hs, (sees_iff (step_inv I hs)).mpr ⟨_, var_new, c4⟩⟩⟩

/-- A clone has the same contents. -/
theorem C69_clone (h : Reach e s) {i : Nat} {d : List Byte} (hs : Sees e s i d) {op : Op}
    (hop : (∃ a, op = .clone i a) ∨ op = .noallocClone i) (hstep : step e s op = .ok (s', .unit)) :
    Sees e s' s.vars.length d ∧ Sees e s' i d := by
  have I := reach_inv h
  obtain ⟨r, h1, h2⟩ := (sees_iff I).mp hs
  have hi : Sees e s' i d := C69_stable h hs (by rcases hop with ⟨a, rfl⟩ | rfl <;> simp [Uses]) hstep
  refine ⟨?_, hi⟩
  have I' := step_inv I hstep
  rcases hop with ⟨a, rfl⟩ | rfl
  · simp only [step, h1] at hstep
    rcases clone_spec (I.at h1) a with c | ⟨m', r', c1, c2, c3, c4, -⟩
    · simp [c, bind, Except.bind] at hstep
    · simp only [c1, bind, Except.bind, Except.ok.injEq, Prod.mk.injEq, and_true] at hstep
      subst hstep
      exact (sees_iff I').mpr ⟨r', var_new, c4.trans h2⟩
  · simp only [step, h1] at hstep
    rcases noalloc_spec (I.at h1) with c | ⟨m', c1, c2, c3⟩
    · simp [c, bind, Except.bind] at hstep
    · simp only [c1, bind, Except.bind, Except.ok.injEq, Prod.mk.injEq, and_true] at hstep
      subst hstep
      refine (sees_iff I').mpr ⟨r, var_new, ?_⟩
      show contents e m'.mem r = d
      rw [c2, h2]

theorem valid_bounds {t : Target} {r : Raw} {lo hi : Bound} (hl : lenOf t r < wordMax t)
    (hv : Verif.Bytes.Spec.validRange (lenOf t r) lo hi) :
    startOf t lo = some (Verif.Bytes.Spec.lower lo) ∧ endOf t r hi = some (Verif.Bytes.Spec.upper (lenOf t r) hi) := by
  obtain ⟨h1, h2⟩ := hv
  cases lo <;> cases hi <;>
    simp_all [startOf, endOf, Verif.Bytes.succWord, Verif.Bytes.Spec.lower, Verif.Bytes.Spec.upper] <;> omega

theorem rep_len_lt {log : List Ev} {r : Raw} (h : Rep e log r) : lenOf e.toTarget r < wordMax e.toTarget := by
  cases h with
  | inl hl hi hm =>
    have := Verif.Bytes.maxInline_le e.toTarget
    have := Verif.Bytes.wordMax_ge e.toTarget
    omega
  | out f hf hv hs hc =>
    unfold lenOf
    rw [Verif.Bytes.isInlined_raw _ _ (vts_even hv), (words hf).2.1]
    exact hf.len

/-- Shrinking to a valid range gives exactly that part. A value too long to be inlined never panics on a
valid range. (On a short one it may: see C03.) -/
theorem C69_shrink (h : Reach e s) {i : Nat} {d : List Byte} (hs : Sees e s i d) {lo hi : Bound}
    (hv : Verif.Bytes.Spec.validRange d.length lo hi) {op : Op} (hop : op = .shrinkTo i lo hi ∨ op = .subsliced i lo hi)
    {out : Out} (hstep : step e s op = .ok (s', out)) :
    (out = .unit ∧ Sees e s' i (Verif.Bytes.Spec.slice d lo hi))
    ∨ (out = .panic ∧ d.length ≤ maxInline e.toTarget) := by
  have I := reach_inv h
  have I' := step_inv I hstep
  obtain ⟨r, h1, h2⟩ := (sees_iff I).mp hs
  have hR := (I.at h1).rep r (by simp)
  have hlen : d.length = lenOf e.toTarget r := by rw [← h2]; exact hR.len _
  rw [hlen] at hv
  obtain ⟨b1, b2⟩ := valid_bounds (rep_len_lt hR) hv
  have hs1 : shrinkTo e s.mach r lo hi = shrinkBetween e s.mach r (Verif.Bytes.Spec.lower lo)
      (Verif.Bytes.Spec.upper (lenOf e.toTarget r) hi) := by unfold shrinkTo; rw [b1, b2]
  have hshort : isInlined e.toTarget r = true → d.length ≤ maxInline e.toTarget := by
    intro hi
    cases hR with
    | inl _ _ hm => omega
    | out f hf hv' => rw [Verif.Bytes.isInlined_raw _ _ (vts_even hv')] at hi; cases hi
  have hsl : ∀ m' r', contents e m' r' = ((contents e s.mach.mem r).drop (Verif.Bytes.Spec.lower lo)).take
      (Verif.Bytes.Spec.upper (lenOf e.toTarget r) hi - Verif.Bytes.Spec.lower lo) →
      contents e m' r' = Verif.Bytes.Spec.slice d lo hi := by
    intro m' r' hc
    rw [hc, h2]; unfold Verif.Bytes.Spec.slice; rw [hlen]
  rcases shrinkBetween_spec (I.at h1) (Verif.Bytes.Spec.lower lo) (Verif.Bytes.Spec.upper (lenOf e.toTarget r) hi) with
    ⟨c, c2⟩ | ⟨m', r', c1, c2, c3, c4⟩
  · right
    have hin : isInlined e.toTarget r = true := by
      cases hi2 : isInlined e.toTarget r with
      | true => rfl
      | false => exact absurd hv (c2 hi2)
    refine ⟨?_, hshort hin⟩
    rcases hop with rfl | rfl
    · simp only [step, h1, hs1, c, bind, Except.bind, Except.ok.injEq, Prod.mk.injEq] at hstep
      exact hstep.2.symm
    · obtain ⟨m2, d1, -⟩ := drop_spec (I.at h1)
      simp only [step, h1, subsliced, hs1, c, d1, bind, Except.bind, Except.ok.injEq, Prod.mk.injEq] at hstep
      exact hstep.2.symm
  · left
    have c5 := hsl m'.mem r' (c4 hv.1 hv.2 _ c3)
    rcases hop with rfl | rfl
    · simp only [step, h1, hs1, c1, bind, Except.bind, Except.ok.injEq, Prod.mk.injEq] at hstep
      obtain ⟨rfl, rfl⟩ := hstep
      exact ⟨rfl, (sees_iff I').mpr ⟨r', var_set h1, c5⟩⟩
    · simp only [step, h1, subsliced, hs1, c1, bind, Except.bind, Except.ok.injEq, Prod.mk.injEq] at hstep
      obtain ⟨rfl, rfl⟩ := hstep
      exact ⟨rfl, (sees_iff I').mpr ⟨r', var_set h1, c5⟩⟩

/-- Shrinking to any other range panics, if the value is too long to be inlined and the bounds are not `usize::MAX` (see
C03): `shrink_to` then leaves the value as it is, `subsliced` drops it. -/
theorem C69_shrink_refuses (h : Reach e s) {i : Nat} {d : List Byte} (hs : Sees e s i d) {lo hi : Bound}
    (hlong : maxInline e.toTarget < d.length) (hv : ¬ Verif.Bytes.Spec.validRange d.length lo hi)
    (hlo : ∀ k, lo = .excl k → k + 1 < wordMax e.toTarget) (hhi : ∀ k, hi = .incl k → k + 1 < wordMax e.toTarget) :
    step e s (.shrinkTo i lo hi) = .ok (s, .panic)
    ∧ ∃ s', step e s (.subsliced i lo hi) = .ok (s', .panic) ∧ s'.var i = none := by
  have I := reach_inv h
  obtain ⟨r, h1, h2⟩ := (sees_iff I).mp hs
  have hR := (I.at h1).rep r (by simp)
  have hlen : d.length = lenOf e.toTarget r := by rw [← h2]; exact hR.len _
  have hout : isInlined e.toTarget r = false := by
    cases hR with
    | inl _ _ hm => omega
    | out f hf hv' => exact Verif.Bytes.isInlined_raw _ _ (vts_even hv')
  have b1 : startOf e.toTarget lo = some (Verif.Bytes.Spec.lower lo) := by
    cases lo with
    | excl k => simp [startOf, Verif.Bytes.succWord, Verif.Bytes.Spec.lower, hlo k rfl]
    | _ => rfl
  have b2 : endOf e.toTarget r hi = some (Verif.Bytes.Spec.upper (lenOf e.toTarget r) hi) := by
    cases hi with
    | incl k => simp [endOf, Verif.Bytes.succWord, Verif.Bytes.Spec.upper, hhi k rfl]
    | _ => rfl
  have hw : lenOf e.toTarget r = getWord e.toTarget r 1 := by unfold lenOf; rw [hout]; rfl
  have hs1 : shrinkTo e s.mach r lo hi = .ok .panic := by
    unfold shrinkTo
    rw [b1, b2]
    show shrinkBetween _ _ _ _ _ = _
    unfold shrinkBetween
    by_cases c : Verif.Bytes.Spec.lower lo ≤ Verif.Bytes.Spec.upper (lenOf e.toTarget r) hi
    · have c2 : ¬ Verif.Bytes.Spec.upper (lenOf e.toTarget r) hi ≤ getWord e.toTarget r 1 := by
        intro c2; rw [hlen] at hv; exact hv ⟨c, by rw [← hw] at c2; exact c2⟩
      rw [if_neg (by simpa using c), if_pos c2]
    · rw [if_pos c]
  refine ⟨by simp only [step, h1, hs1, bind, Except.bind], ?_⟩
  obtain ⟨m2, d1, -⟩ := drop_spec (I.at h1)
  refine ⟨s.put m2 i none, by simp only [step, h1, subsliced, hs1, d1, bind, Except.bind], ?_⟩
  have hi' : i < s.vars.length := by
    unfold State.var at h1
    cases hx : s.vars[i]? with
    | none => simp [hx] at h1
    | some v => exact (List.getElem?_eq_some_iff.1 hx).1
  simp [State.put, State.var, hi']

example : Sees demo (after demo (fun _ => 3) demoOps) 4 (List.replicate 64 3) ∧ maxInline demo.toTarget < 64 ∧
    ¬ Verif.Bytes.Spec.validRange 64 (.incl 1) (.excl 65) := by
  exact ⟨sees_of (by decide +kernel), by decide, by rintro ⟨_, h⟩; revert h; decide⟩

/-- Splitting gives the two parts, or gives the value back if the index is out of bounds. -/
theorem C69_split (h : Reach e s) {i k a b : Nat} {d : List Byte} (hs : Sees e s i d) {out : Out}
    (hstep : step e s (.splitAt i k a b) = .ok (s', out)) :
    (out = .unit → k ≤ d.length ∧ Sees e s' i (d.take k) ∧ Sees e s' s.vars.length (d.drop k))
    ∧ (out = .none → d.length < k ∧ Sees e s' i d) := by
  have I := reach_inv h
  have I' := step_inv I hstep
  obtain ⟨r, h1, h2⟩ := (sees_iff I).mp hs
  have hlen : d.length = lenOf e.toTarget r := by rw [← h2]; exact ((I.at h1).rep r (by simp)).len _
  simp only [step, h1] at hstep
  rcases splitAt_spec (I.at h1) a b k with ⟨m', c⟩ | ⟨m', c, -⟩ | ⟨c, c2⟩ | ⟨m', l, r', c, c2, c3, c4, c5, c6⟩
  · simp only [c, bind, Except.bind, Except.ok.injEq, Prod.mk.injEq] at hstep
    obtain ⟨-, rfl⟩ := hstep; simp
  · simp only [c, bind, Except.bind, Except.ok.injEq, Prod.mk.injEq] at hstep
    obtain ⟨-, rfl⟩ := hstep; simp
  · simp only [c, bind, Except.bind, Except.ok.injEq, Prod.mk.injEq] at hstep
    obtain ⟨rfl, rfl⟩ := hstep
    exact ⟨by simp, fun _ => ⟨by omega, (sees_iff I').mpr ⟨r, var_set h1, h2⟩⟩⟩
  · simp only [c, bind, Except.bind, Except.ok.injEq, Prod.mk.injEq] at hstep
    obtain ⟨rfl, rfl⟩ := hstep
    refine ⟨fun _ => ⟨by omega, (sees_iff I').mpr ⟨l, ?_, by rw [← h2]; exact c5⟩,
      (sees_iff I').mpr ⟨r', ?_, by rw [← h2]; exact c6⟩⟩, by simp⟩
    · exact var_push (var_set h1)
    · have := var_new (s := s.put m' i (some l)) (m := m') (r := r')
      have hl : (s.put m' i (some l)).vars.length = s.vars.length := by simp [State.put]
      rwa [hl] at this

/-- `upgrade` keeps the contents, and what it gives no longer depends on a lifetime: it is stored in the value
itself or with an owner that has a `release`. -/
theorem C69_upgrade (h : Reach e s) {i a : Nat} {d : List Byte} (hs : Sees e s i d)
    (hstep : step e s (.upgrade i a) = .ok (s', .unit)) :
    Sees e s' i d ∧ ∀ r, s'.var i = some r → isInlined e.toTarget r = false →
      ∃ k, e.vts (ownOf e r).vt = some k ∧ k.release = true := by
  have I := reach_inv h
  have I' := step_inv I hstep
  obtain ⟨r, h1, h2⟩ := (sees_iff I).mp hs
  simp only [step, h1] at hstep
  rcases upgrade_spec (I.at h1) a with c | ⟨m', r', c1, c2, c3, c4, c5⟩
  · simp [c, bind, Except.bind] at hstep
  · simp only [c1, bind, Except.bind, Except.ok.injEq, Prod.mk.injEq, and_true] at hstep
    subst hstep
    refine ⟨(sees_iff I').mpr ⟨r', var_set h1, c4.trans h2⟩, ?_⟩
    intro q hq hi
    rw [var_set h1] at hq; cases hq
    rcases c5 with c5 | c5
    · rw [c5] at hi; cases hi
    · unfold Env.rel at c5
      split at c5
      · exact ⟨_, by assumption, c5⟩
      · cases c5

/-! ## Calls that give nothing -/

theorem mayWrite_read (log : List Ev) (o : Own) (st ln a : Nat) :
    mayWrite e (log ++ [.read o st ln]) a = mayWrite e log a := by
  simp [mayWrite, due_append, due, due1]

theorem mayWrite_asSlice (m : Mach) (r : Raw) (a : Nat) : mayWrite e (asSlice e m r).1.log a = mayWrite e m.log a := by
  unfold asSlice
  split
  · rfl
  · exact mayWrite_read _ _ _ _ _

theorem mayWrite_free {m : Mach} {L : List Raw} (I : Inv e m L) {a : Nat}
    (h : ∀ o st ln, Ev.made o st ln ∈ m.log → st ≤ a → a < st + ln → ¬ Protected e m.log o) :
    mayWrite e m.log a = true := by
  unfold mayWrite
  rw [List.all_eq_true]
  intro x hx
  cases x with
  | made o st ln =>
    by_cases hc : st ≤ a ∧ a < st + ln
    · have hp := h o st ln hx hc.1 hc.2
      have hr : e.rel o = true := by
        cases hr : e.rel o with
        | true => rfl
        | false => exact absurd (protected_of (by simp [hr])) hp
      have hd : ¬ 0 < due o m.log := fun hd => hp (protected_of fun _ => hd)
      have hb := I.bal o hr
      have h0 : due o m.log = 0 := by omega
      simp [hr, h0]
    · simp [hc]
  | _ => rfl

theorem newArc_none {m : Mach} {L : List Raw} (I : Inv e m L) {r : Raw} {a : Nat} {d : List Byte}
    (h : newArc e (asSlice e m r).1 a d = none) : ¬ Free e m.log a d.length := by
  rintro ⟨h1, h2⟩
  unfold newArc at h
  have key : (List.range d.length).all (fun i => mayWrite e (asSlice e m r).1.log (a + i)) = true := by
    rw [List.all_eq_true]
    intro i hi
    rw [List.mem_range] at hi
    rw [mayWrite_asSlice]
    exact mayWrite_free I (h2 _ (by omega) (by omega))
  rw [if_pos ⟨h1, key⟩] at h
  cases h

theorem copied_none' {m : Mach} {L : List Raw} (I : Inv e m L) {r : Raw} {a : Nat} {d : List Byte}
    (h : copiedFromSlice e (asSlice e m r).1 a d = none) :
    maxInline e.toTarget < d.length ∧ ¬ Free e m.log a d.length := by
  unfold copiedFromSlice at h
  split at h
  · cases h
  · exact ⟨by omega, newArc_none I h⟩

theorem noalloc_none {m : Mach} {L : List Raw} {r : Raw} (I : Inv e m (r :: L)) :
    noallocClone e m r = .ok none ↔
      isInlined e.toTarget r = false ∧ ∃ k, e.vts (ownOf e r).vt = some k ∧ k.retain = false := by
  unfold noallocClone
  rcases vtable_spec (I.rep r (by simp)) with ⟨hi, hv⟩ | ⟨hi, hk, h1, hv⟩
  · simp [hv, hi, bind, Except.bind]
  · cases hr : hk.retain <;> simp [hv, hi, h1, hr, bind, Except.bind]

theorem clone_none' {m : Mach} {L : List Raw} {r : Raw} (I : Inv e m (r :: L)) {a : Nat}
    (h : cloneRaw e m a r = .ok none) :
    maxInline e.toTarget < (contents e m.mem r).length ∧ ¬ Free e m.log a (contents e m.mem r).length
    ∧ isInlined e.toTarget r = false ∧ ∃ k, e.vts (ownOf e r).vt = some k ∧ k.retain = false := by
  unfold cloneRaw at h
  rcases noalloc_spec I with hn | ⟨m', hn, -⟩
  · simp only [hn, bind, Except.bind, Except.ok.injEq] at h
    have := copied_none' I h
    rw [(asSlice_spec I).2.2] at this
    exact ⟨this.1, this.2, (noalloc_none I).mp hn⟩
  · simp [hn, bind, Except.bind] at h

/-- What `clone` gives can be cloned without allocating. -/
theorem clone_retains {m m1 : Mach} {L : List Raw} {r l : Raw} (I : Inv e m (r :: L)) {a : Nat}
    (h : cloneRaw e m a r = .ok (some (m1, l))) (hl : isInlined e.toTarget l = false) :
    ∃ k, e.vts (ownOf e l).vt = some k ∧ k.retain = true := by
  unfold cloneRaw at h
  rcases noalloc_spec I with hn | ⟨m', hn, -⟩
  · simp only [hn, bind, Except.bind, Except.ok.injEq] at h
    unfold copiedFromSlice at h
    split at h
    · cases h; rw [Verif.Bytes.isInlined_inline _ _ (by assumption)] at hl; cases hl
    · unfold newArc at h
      split at h
      · rename_i hc
        cases h
        have hf : Fields.Ok e.toTarget ⟨a, (asSlice e m r).2.length, a, (asSlice e m r).2.length, e.arcVt⟩ :=
          ⟨by show a < _; omega, by show List.length _ < _; omega, by show a < _; omega,
           by show List.length _ < _; omega, e.vt_lt _ _ e.arc_vt⟩
        dsimp only
        rw [own_raw hf]
        exact ⟨_, e.arc_vt, rfl⟩
      · cases h
  · simp only [hn, bind, Except.bind, Except.ok.injEq, Option.some.injEq, Prod.mk.injEq] at h
    obtain ⟨-, rfl⟩ := h
    rcases vtable_spec (I.rep r (by simp)) with ⟨hi, hv⟩ | ⟨hi, hk, h1, hv⟩
    · rw [hi] at hl; cases hl
    · refine ⟨hk, h1, ?_⟩
      cases hr : hk.retain with
      | true => rfl
      | false => rw [(noalloc_none I).mpr ⟨hi, hk, h1, hr⟩] at hn; cases hn

theorem split_none {m m' : Mach} {L : List Raw} {r : Raw} (I : Inv e m (r :: L)) {a b k : Nat}
    (h : splitAt e m a b r k = .ok (m', .oom)) : cloneRaw e m a r = .ok none := by
  unfold splitAt at h
  by_cases h1 : k ≤ lenOf e.toTarget r
  · simp only [h1, if_true] at h
    obtain ⟨s1, -, -⟩ := asSlice_spec I
    by_cases h2 : k ≤ maxInline e.toTarget
    · simp only [h2, if_true] at h
      rcases subsliced_spec s1 (.incl k) .unb with ⟨m', p1, -⟩ | ⟨m', r', p1, -⟩ <;>
        simp [p1, bind, Except.bind] at h
    · simp only [h2, if_false] at h
      by_cases h3 : lenOf e.toTarget r - k ≤ maxInline e.toTarget
      · simp only [h3, if_true] at h
        rcases subsliced_spec s1 .unb (.excl k) with ⟨m', p1, -⟩ | ⟨m', r', p1, -⟩ <;>
          simp [p1, bind, Except.bind] at h
      · simp only [h3, if_false] at h
        have hlen := (I.rep r (by simp)).len m.mem
        unfold splitClones at h
        rcases clone_spec I a with c | ⟨m1, l, c1, I1, -, -, o1⟩
        · exact c
        · have o1 := o1 (by omega)
          rcases clone_spec I1 b with c | ⟨m2, q, c2, -⟩
          · obtain ⟨k1, e1, e2⟩ := clone_retains I c1 o1
            obtain ⟨-, -, -, k2, e3, e4⟩ := clone_none' I1 c
            rw [e1] at e3; cases e3
            rw [e2] at e4; cases e4
          · simp only [c1, c2, bind, Except.bind] at h
            split at h <;> simp at h
  · simp [h1] at h

theorem upgrade_none {m : Mach} {L : List Raw} {r : Raw} (I : Inv e m (r :: L)) {a : Nat}
    (h : upgrade e m a r = .ok none) :
    maxInline e.toTarget < (contents e m.mem r).length ∧ ¬ Free e m.log a (contents e m.mem r).length
    ∧ isInlined e.toTarget r = false ∧ ∃ k, e.vts (ownOf e r).vt = some k ∧ k.release = false := by
  unfold upgrade at h
  rcases vtable_spec (I.rep r (by simp)) with ⟨hi, hv⟩ | ⟨hi, hk, h1, hv⟩
  · simp [hv, bind, Except.bind] at h
  · simp only [hv, bind, Except.bind] at h
    cases hr : hk.release with
    | true => simp [hr] at h
    | false =>
      simp only [hr, Bool.false_eq_true, if_false] at h
      obtain ⟨s1, s2, s3⟩ := asSlice_spec I
      cases hc : copiedFromSlice e (asSlice e m r).1 a (asSlice e m r).2 with
      | none =>
        have := copied_none' I hc
        rw [s3] at this
        exact ⟨this.1, this.2, hi, hk, h1, hr⟩
      | some v =>
        rw [hc] at h
        simp only at h
        split at h <;> simp at h

theorem split_panic {m m' : Mach} {L : List Raw} {r : Raw} (I : Inv e m (r :: L)) {a b k : Nat}
    (h : splitAt e m a b r k = .ok (m', .panic)) :
    k ≤ lenOf e.toTarget r ∧ lenOf e.toTarget r ≤ maxInline e.toTarget := by
  have hR := I.rep r (by simp)
  obtain ⟨s1, -, -⟩ := asSlice_spec I
  have hpanic : ∀ lo hi st en, startOf e.toTarget lo = some st → endOf e.toTarget r hi = some en →
      st ≤ en → en ≤ lenOf e.toTarget r → ∀ m', subsliced e (asSlice e m r).1 r lo hi = .ok (m', none) →
      lenOf e.toTarget r ≤ maxInline e.toTarget := by
    intro lo hi st en b1 b2 b3 b4 m' hsub
    have hin : isInlined e.toTarget r = true := by
      cases hi2 : isInlined e.toTarget r with
      | true => rfl
      | false =>
        unfold subsliced shrinkTo at hsub
        rw [b1, b2] at hsub
        rcases shrinkBetween_spec s1 st en with ⟨-, c⟩ | ⟨m', r', c, -⟩
        · exact absurd ⟨b3, b4⟩ (c hi2)
        · simp [c, bind, Except.bind] at hsub
    cases hR with
    | inl _ _ hm => exact hm
    | out f hf hv' => rw [Verif.Bytes.isInlined_raw _ _ (vts_even hv')] at hin; cases hin
  unfold splitAt at h
  by_cases h1 : k ≤ lenOf e.toTarget r
  · refine ⟨h1, ?_⟩
    simp only [h1, if_true] at h
    by_cases h2 : k ≤ maxInline e.toTarget
    · simp only [h2, if_true] at h
      rcases subsliced_spec s1 (.incl k) .unb with ⟨m', p1, -⟩ | ⟨m', r', p1, -⟩
      · exact hpanic _ _ k (lenOf e.toTarget r) rfl rfl h1 (Nat.le_refl _) _ p1
      · simp [p1, bind, Except.bind] at h
    · simp only [h2, if_false] at h
      by_cases h3 : lenOf e.toTarget r - k ≤ maxInline e.toTarget
      · simp only [h3, if_true] at h
        rcases subsliced_spec s1 .unb (.excl k) with ⟨m', p1, -⟩ | ⟨m', r', p1, -⟩
        · exact hpanic _ _ 0 k rfl rfl (by omega) h1 _ p1
        · simp [p1, bind, Except.bind] at h
      · simp only [h3, if_false] at h
        rcases splitClones_spec I a b k h1 (by omega) with ⟨m', c⟩ | ⟨m', l, r', c, -⟩ <;> simp [c] at h
  · simp [h1] at h

/-- A call runs out of memory only if it has to copy, the contents are too long to be stored in the value itself,
and the memory that the allocator was asked for is not free. Only `copied_from_slice` copies always; `clone` and
`split_at` copy only what has no `retain`, and then once; `upgrade` only what has no `release`. -/
theorem C69_aborts (h : Reach e s) {op : Op} (hstep : step e s op = .ok (s', .oom)) :
    s' = s ∧ ∃ a d, maxInline e.toTarget < d.length ∧ ¬ Free e s.mach.log a d.length
      ∧ (op = .copied a d
        ∨ ∃ i hk, Sees e s i d ∧ HasVtable e s i hk ∧
          ((op = .clone i a ∧ hk.retain = false) ∨ (∃ k b, op = .splitAt i k a b ∧ hk.retain = false)
            ∨ (op = .upgrade i a ∧ hk.release = false))) := by
  have I := reach_inv h
  cases op with
  | fromRawParts st ln o => simp only [step] at hstep; split at hstep <;> simp at hstep
  | fromSlice st ln => simp only [step] at hstep; split at hstep <;> simp at hstep
  | copied a d =>
    simp only [step] at hstep
    cases hc : copiedFromSlice e s.mach a d with
    | some v => simp [hc] at hstep
    | none =>
      simp only [hc, Except.ok.injEq, Prod.mk.injEq, and_true] at hstep
      refine ⟨hstep.symm, a, d, ?_, ?_, .inl rfl⟩
      · unfold copiedFromSlice at hc; split at hc
        · cases hc
        · omega
      · unfold copiedFromSlice at hc; split at hc
        · cases hc
        · rintro ⟨f1, f2⟩
          unfold newArc at hc
          have key : (List.range d.length).all (fun i => mayWrite e s.mach.log (a + i)) = true := by
            rw [List.all_eq_true]
            intro i hi
            rw [List.mem_range] at hi
            exact mayWrite_free I (f2 _ (by omega) (by omega))
          rw [if_pos ⟨f1, key⟩] at hc
          cases hc
  | clone i a =>
    simp only [step] at hstep
    cases hv : s.var i with
    | none => simp [hv] at hstep
    | some r =>
      simp only [hv] at hstep
      rcases clone_spec (I.at hv) a with c | ⟨m', r', c1, -⟩
      · simp only [c, bind, Except.bind, Except.ok.injEq, Prod.mk.injEq, and_true] at hstep
        obtain ⟨c1, c2, c3, k, c4, c5⟩ := clone_none' (I.at hv) c
        exact ⟨hstep.symm, a, _, c1, c2, .inr ⟨i, k, (sees_iff I).mpr ⟨r, hv, rfl⟩, ⟨r, hv, c3, c4⟩, .inl ⟨rfl, c5⟩⟩⟩
      · simp [c1, bind, Except.bind] at hstep
  | noallocClone i =>
    simp only [step] at hstep
    cases hv : s.var i with
    | none => simp [hv] at hstep
    | some r =>
      simp only [hv] at hstep
      rcases noalloc_spec (I.at hv) with c | ⟨m', c1, -⟩
      · simp [c, bind, Except.bind] at hstep
      · simp [c1, bind, Except.bind] at hstep
  | drop i =>
    simp only [step] at hstep
    cases hv : s.var i with
    | none => simp [hv] at hstep
    | some r =>
      simp only [hv] at hstep
      obtain ⟨m', c, -⟩ := drop_spec (I.at hv)
      simp [c, bind, Except.bind] at hstep
  | shrinkTo i lo hi =>
    simp only [step] at hstep
    cases hv : s.var i with
    | none => simp [hv] at hstep
    | some r =>
      simp only [hv] at hstep
      rcases shrink_spec (I.at hv) lo hi with c | ⟨m', r', c, -⟩ <;> simp [c, bind, Except.bind] at hstep
  | subsliced i lo hi =>
    simp only [step] at hstep
    cases hv : s.var i with
    | none => simp [hv] at hstep
    | some r =>
      simp only [hv] at hstep
      rcases subsliced_spec (I.at hv) lo hi with ⟨m', c, -⟩ | ⟨m', r', c, -⟩ <;> simp [c, bind, Except.bind] at hstep
  | splitAt i k a b =>
    simp only [step] at hstep
    cases hv : s.var i with
    | none => simp [hv] at hstep
    | some r =>
      simp only [hv] at hstep
      rcases splitAt_spec (I.at hv) a b k with ⟨m', c⟩ | ⟨m', c, -⟩ | ⟨c, c2⟩ | ⟨m', l, r', c, -⟩
      · simp only [c, bind, Except.bind, Except.ok.injEq, Prod.mk.injEq, and_true] at hstep
        obtain ⟨c1, c2, c3, q, c4, c5⟩ := clone_none' (I.at hv) (split_none (I.at hv) c)
        exact ⟨hstep.symm, a, _, c1, c2,
          .inr ⟨i, q, (sees_iff I).mpr ⟨r, hv, rfl⟩, ⟨r, hv, c3, c4⟩, .inr (.inl ⟨k, b, rfl, c5⟩)⟩⟩
      · simp [c, bind, Except.bind] at hstep
      · simp [c, bind, Except.bind] at hstep
      · simp [c, bind, Except.bind] at hstep
  | upgrade i a =>
    simp only [step] at hstep
    cases hv : s.var i with
    | none => simp [hv] at hstep
    | some r =>
      simp only [hv] at hstep
      rcases upgrade_spec (I.at hv) a with c | ⟨m', r', c, -⟩
      · simp only [c, bind, Except.bind, Except.ok.injEq, Prod.mk.injEq, and_true] at hstep
        obtain ⟨c1, c2, c3, q, c4, c5⟩ := upgrade_none (I.at hv) c
        exact ⟨hstep.symm, a, _, c1, c2,
          .inr ⟨i, q, (sees_iff I).mpr ⟨r, hv, rfl⟩, ⟨r, hv, c3, c4⟩, .inr (.inr ⟨rfl, c5⟩)⟩⟩
      · simp [c, bind, Except.bind] at hstep
  | asSlice i =>
    simp only [step] at hstep
    cases hv : s.var i <;> simp [hv] at hstep
  | write a v => simp only [step] at hstep; split at hstep <;> simp at hstep

/-- `noalloc_clone` gives nothing exactly for values whose vtable has no `retain`, and then changes nothing. -/
theorem C69_noalloc (h : Reach e s) {i : Nat} {d : List Byte} (hs : Sees e s i d) {out : Out}
    (hstep : step e s (.noallocClone i) = .ok (s', out)) :
    (out = .unit ∨ (out = .none ∧ s' = s)) ∧ (out = .none ↔ ∃ hk, HasVtable e s i hk ∧ hk.retain = false) := by
  have I := reach_inv h
  obtain ⟨r, h1, h2⟩ := (sees_iff I).mp hs
  have hiff := noalloc_none (I.at h1)
  have hh : (∃ hk, HasVtable e s i hk ∧ hk.retain = false) ↔
      (isInlined e.toTarget r = false ∧ ∃ k, e.vts (ownOf e r).vt = some k ∧ k.retain = false) := by
    constructor
    · rintro ⟨k, ⟨q, q1, q2, q3⟩, q4⟩
      rw [h1] at q1; cases q1
      exact ⟨q2, k, q3, q4⟩
    · rintro ⟨q2, k, q3, q4⟩
      exact ⟨k, ⟨r, h1, q2, q3⟩, q4⟩
  rw [hh, ← hiff]
  simp only [step, h1] at hstep
  rcases noalloc_spec (I.at h1) with c | ⟨m', c1, -⟩
  · simp only [c, bind, Except.bind, Except.ok.injEq, Prod.mk.injEq] at hstep
    obtain ⟨rfl, rfl⟩ := hstep
    exact ⟨.inr ⟨rfl, rfl⟩, by simp [c]⟩
  · simp only [c1, bind, Except.bind, Except.ok.injEq, Prod.mk.injEq] at hstep
    obtain ⟨-, rfl⟩ := hstep
    exact ⟨.inl rfl, by simp [c1]⟩

/-- Cloning, upgrading and splitting a value have no other outcomes: they succeed, run out of memory (see
`C69_aborts`), or, for `split_at`, say that the index is too large, or panic on a value that is short enough to
be stored in itself (see C03). -/
theorem C69_outcomes (h : Reach e s) {i : Nat} {d : List Byte} (hs : Sees e s i d) {op : Op} {out : Out}
    (hstep : step e s op = .ok (s', out)) :
    ((∃ a, op = .clone i a ∨ op = .upgrade i a) → out = .unit ∨ out = .oom)
    ∧ (∀ k a b, op = .splitAt i k a b → (out = .none ↔ d.length < k)
        ∧ (out = .unit ∨ out = .oom ∨ out = .none ∨ out = .panic ∧ d.length ≤ maxInline e.toTarget))
    ∧ (op = .drop i → out = .unit) := by
  have I := reach_inv h
  obtain ⟨r, h1, h2⟩ := (sees_iff I).mp hs
  have hR := (I.at h1).rep r (by simp)
  have hlen : d.length = lenOf e.toTarget r := by rw [← h2]; exact hR.len _
  refine ⟨?_, ?_, ?_⟩
  · rintro ⟨a, rfl | rfl⟩
    · simp only [step, h1] at hstep
      rcases clone_spec (I.at h1) a with c | ⟨m', r', c, -⟩ <;>
        simp only [c, bind, Except.bind, Except.ok.injEq, Prod.mk.injEq] at hstep <;> simp [← hstep.2]
    · simp only [step, h1] at hstep
      rcases upgrade_spec (I.at h1) a with c | ⟨m', r', c, -⟩ <;>
        simp only [c, bind, Except.bind, Except.ok.injEq, Prod.mk.injEq] at hstep <;> simp [← hstep.2]
  · rintro k a b rfl
    simp only [step, h1] at hstep
    rcases splitAt_spec (I.at h1) a b k with ⟨m', c⟩ | ⟨m', c, -⟩ | ⟨c, c2⟩ | ⟨m', l, r', c, -, -, c4, -⟩
    · have hk : ¬ lenOf e.toTarget r < k := by
        intro hk; unfold splitAt at c; rw [if_neg (by omega)] at c; simp at c
      simp only [c, bind, Except.bind, Except.ok.injEq, Prod.mk.injEq] at hstep
      simp [← hstep.2, hlen, hk]
    · obtain ⟨k1, k2⟩ := split_panic (I.at h1) c
      simp only [c, bind, Except.bind, Except.ok.injEq, Prod.mk.injEq] at hstep
      simp [← hstep.2, hlen]; omega
    · simp only [c, bind, Except.bind, Except.ok.injEq, Prod.mk.injEq] at hstep
      simp [← hstep.2, hlen, c2]
    · simp only [c, bind, Except.bind, Except.ok.injEq, Prod.mk.injEq] at hstep
      simp [← hstep.2, hlen]; omega
  · rintro rfl
    simp only [step, h1] at hstep
    obtain ⟨m', c, -⟩ := drop_spec (I.at h1)
    simp only [c, bind, Except.bind, Except.ok.injEq, Prod.mk.injEq] at hstep
    exact hstep.2.symm

/-- The outcomes of a history. -/
def outs (e : Env) (mem : Nat → Byte) (ops : List Op) : List Out :=
  match run e (State.init mem) ops with | .ok (_, os) => os | .error _ => []

/-- Storage that cannot be shared, seen, then cloned, shrunk and split: none of the calls fails, and writes to
storage that is still protected are refused. -/
example : Sees demo (after demo (fun a => UInt8.ofNat a) [.fromRawParts 8192 100 unique]) 0
      ((List.range 100).map UInt8.ofNat)
    ∧ Verif.Bytes.Spec.validRange 100 (.incl 3) (.excl 97)
    ∧ outs demo (fun a => UInt8.ofNat a)
      [.fromRawParts 8192 100 unique, .clone 0 32768, .shrinkTo 0 (.incl 3) (.excl 97), .splitAt 1 40 0 0,
       .upgrade 0 0, .fromSlice 8192 50, .upgrade 3 65536, .write 8195 0, .splitAt 2 61 0 0]
      = [.unit, .unit, .unit, .unit, .unit, .unit, .unit, .refused, .none] :=
  ⟨sees_of (by decide +kernel), ⟨by decide, by decide⟩, by decide +kernel⟩

/-- Calls without memory: an allocation where storage is still protected, and `noalloc_clone` of storage that
cannot be shared. -/
example : outs demo (fun a => UInt8.ofNat a)
      [.fromRawParts 8192 100 unique, .clone 0 8200, .splitAt 0 50 8100 0, .noallocClone 0, .copied 8100 (List.replicate 93 1),
       .copied 8099 (List.replicate 93 1), .fromSlice 0 60, .upgrade 2 8291, .upgrade 2 8292]
      = [.unit, .oom, .oom, .none, .oom, .unit, .unit, .oom, .unit] := by decide +kernel

end Verif.BytesVt
