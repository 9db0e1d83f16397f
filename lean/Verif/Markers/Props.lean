import Verif.Markers.Spec
/-!
# Properties C88 and C89: threads, variance and lifetimes
-/
namespace Verif.Markers

/-! ### Inversion of `Has` -/

section inv
variable {E : Env} {m : Marker}

theorem has_user {i} : Has E m (.user i) ↔ E.has m i :=
  ⟨fun h => (by cases h with | user h => exact h | manual h _ => cases m <;> cases h | auto _ h _ => cases h), .user⟩
theorem has_seq {t} : Has E m (.seq t) ↔ Has E m t :=
  ⟨fun h => (by cases h with | seq h => exact h | manual h _ => cases m <;> cases h | auto _ h _ => cases h), .seq⟩
theorem has_ref {l t} : Has E m (.ref l t) ↔ Has E .sync t :=
  ⟨fun h => (by cases h with | ref h => exact h | manual h _ => cases m <;> cases h | auto _ h _ => cases h), .ref⟩
theorem has_mut {l t} : Has E m (.mut l t) ↔ Has E m t :=
  ⟨fun h => (by cases h with | «mut» h => exact h | manual h _ => cases m <;> cases h | auto _ h _ => cases h), .mut⟩
theorem has_phantom {t} : Has E m (.phantom t) ↔ Has E m t :=
  ⟨fun h => (by cases h with | phantom h => exact h | manual h _ => cases m <;> cases h | auto _ h _ => cases h), .phantom⟩
theorem has_rustBox {t} : Has E m (.rustBox t) ↔ Has E m t :=
  ⟨fun h => (by cases h with | rustBox h => exact h | manual h _ => cases m <;> cases h | auto _ h _ => cases h), .rustBox⟩
theorem has_rustVec {t} : Has E m (.rustVec t) ↔ Has E m t :=
  ⟨fun h => (by cases h with | rustVec h => exact h | manual h _ => cases m <;> cases h | auto _ h _ => cases h), .rustVec⟩
theorem has_arc {t} : Has E m (.arc t) ↔ Has E .send t ∧ Has E .sync t :=
  ⟨fun h => (by cases h with | arc h h' => exact ⟨h, h'⟩ | manual h _ => cases m <;> cases h | auto _ h _ => cases h), fun h => .arc h.1 h.2⟩
theorem has_tuple {ts} : Has E m (.tuple ts) ↔ ∀ t ∈ ts, Has E m t :=
  ⟨fun h => (by cases h with | tuple h => exact h | manual h _ => cases m <;> cases h | auto _ h _ => cases h), .tuple⟩
theorem has_raw {t} : ¬ Has E m (.raw t) :=
  fun h => by cases h with | manual h _ => cases m <;> cases h | auto _ h _ => cases h
theorem has_rc {t} : ¬ Has E m (.rc t) :=
  fun h => by cases h with | manual h _ => cases m <;> cases h | auto _ h _ => cases h

/-- A type with an `unsafe impl` has the marker exactly under its bounds. -/
theorem has_manual {t bs} (h : impls m t = some bs) : Has E m t ↔ ∀ b ∈ bs, Has E b.1 b.2 := by
  constructor
  · intro hh
    cases hh with
    | manual h' hb => rw [h] at h'; cases h'; exact hb
    | auto h' _ _ => rw [h] at h'; cases h'
    | virtSend => cases h
    | virtSync => cases h
    | _ => cases m <;> cases h
  · exact .manual h

/-- A struct without one, exactly if its fields have. -/
theorem has_auto {t fs} (hi : impls m t = none) (h : fields t = some fs) : Has E m t ↔ ∀ f ∈ fs, Has E m f := by
  constructor
  · intro hh
    cases hh with
    | manual h' _ => rw [hi] at h'; cases h'
    | auto _ h' hb => rw [h] at h'; cases h'; exact hb
    | _ => cases h
  · exact .auto hi h

theorem has_virt {l s y h} : Has E m (.virt l s y h) ↔ (match m with | .send => s | .sync => y) = true := by
  constructor
  · intro hh
    cases hh with
    | virtSend => rfl
    | virtSync => rfl
    | manual h' _ => cases m <;> cases h'
    | auto _ h' _ => cases h'
  · intro h
    cases m
    · simp only at h; subst h; exact .virtSend
    · simp only at h; subst h; exact .virtSync

/-- With one bound. -/
theorem has_one {t n u} (h : impls m t = some [(n, u)]) : Has E m t ↔ Has E n u := by
  rw [has_manual h]; simp
theorem has_cBox {t} : Has E m (.cBox t) ↔ Has E m t := (by cases m <;> exact has_one rfl : _ ↔ Has E m (.rustBox t)).trans has_rustBox
theorem has_cVec {t} : Has E m (.cVec t) ↔ Has E m t := (by cases m <;> exact has_one rfl : _ ↔ Has E m (.rustVec t)).trans has_rustVec
theorem has_sliceBoxed {t} : Has E m (.sliceBoxed t) ↔ Has E m t :=
  (by cases m <;> exact has_one rfl : _ ↔ Has E m (.rustBox (.seq t))).trans (has_rustBox.trans has_seq)
theorem has_sliceRef {l t} : Has E m (.sliceRef l t) ↔ Has E .sync t := (by cases m <;> exact has_one rfl : _ ↔ Has E m (.ref l (.seq t))).trans (has_ref.trans has_seq)
theorem has_sliceMut {l t} : Has E m (.sliceMut l t) ↔ Has E m t := (by cases m <;> exact has_one rfl : _ ↔ Has E m (.mut l (.seq t))).trans (has_mut.trans has_seq)
end inv

/-! ## C88 -/

/-- C88: a type of safer_ffi is `Send` (`Sync`) exactly if its counterpart in the standard library is: for all element types. -/
theorem C88_counterpart (E : Env) (m : Marker) (t s : Ty) (h : std t = some s) : Has E m t ↔ Has E m s := by
  cases t <;> cases h
  case cBox => rw [has_cBox, has_rustBox]
  case cVec => rw [has_cVec, has_rustVec]
  case sliceBoxed => rw [has_sliceBoxed, has_rustBox, has_seq]
  case sliceRef => rw [has_sliceRef, has_ref, has_seq]
  case sliceMut => rw [has_sliceMut, has_mut, has_seq]
  case charRef => cases m <;> exact has_one rfl
  case charBoxed => cases m <;> exact has_one rfl
  case sharedCStr => cases m <;> exact has_one rfl
  case tagged t => rw [has_auto (by cases m <;> rfl) rfl, has_tuple]
  case string => rw [has_auto (by cases m <;> rfl) rfl]; simp [has_cVec, has_rustVec]
  case strBoxed => rw [has_auto (by cases m <;> rfl) rfl]; simp [has_sliceBoxed, has_rustBox, has_seq]
  case strRef l => rw [has_auto (by cases m <;> rfl) rfl]; simp [has_sliceRef, has_ref, has_seq]

/-- C88: `Bytes` and `Arc` closures are `Send` and `Sync`, whatever they hide; boxed and borrowed closures are `Send` and never `Sync`;
raw slices, like raw pointers, are neither. -/
theorem C88_hiding (E : Env) (m : Marker) :
    (∀ l h, Has E m (.bytes l h)) ∧ (∀ h ret args, Has E m (.arcFn h ret args)) ∧
    (∀ h ret args, Has E m (.boxFn h ret args) ↔ m = .send) ∧ (∀ l h ret args, Has E m (.refFn l h ret args) ↔ m = .send) ∧
    (∀ t, ¬ Has E m (.sliceRaw t)) ∧ (∀ t, ¬ Has E m (.nonNullRef t)) ∧ (∀ t, ¬ Has E m (.nonNullMut t)) ∧ (∀ t, ¬ Has E m (.nonNullOwned t)) := by
  have raw : ∀ {t u fs}, impls m t = none → fields t = some (.raw u :: fs) → ¬ Has E m t := fun hi hf h =>
    has_raw ((has_auto hi hf).1 h _ (.head _))
  refine ⟨fun l h => ?_, fun h ret args => ?_, fun h ret args => ?_, fun l h ret args => ?_, fun t => ?_, fun t => ?_, fun t => ?_, fun t => ?_⟩
  · rw [has_manual (bs := [(m, .ref l (.seq .prim)), (m, .arc (.seq .prim)), (m, .rustBox (.seq .prim))]) (by cases m <;> rfl)]
    simp [has_ref, has_arc, has_rustBox, has_seq, Has.prim]
  · rw [has_manual (bs := []) (by cases m <;> rfl)]; simp
  · cases m
    · rw [has_manual rfl]; simp
    · simpa using raw rfl rfl
  · cases m
    · rw [has_manual rfl]; simp
    · simpa using raw rfl rfl
  all_goals exact raw (by cases m <;> rfl) rfl

/-- What a new value hides has the markers that the value has, or needs: that of the destructor, and that of a call. -/
theorem new_hidden {E : Env} {L : Lifetimes} {t h : Ty} (hn : New E L false t) (hh : hidden t = some h) (hs : Has E .send t) : Has E .send h := by
  cases hn with
  | arcFn h1 h2 _ => cases hh; exact .arc h1 h2
  | boxFn h1 _ => cases hh; exact .rustBox h1
  | refFn h1 _ => cases hh; exact .mut h1
  | slice => cases hh; exact .ref (.seq .prim)
  | inline => cases hh; exact .tuple (by simp)
  | arcBytes => cases hh; exact .arc (.seq .prim) (.seq .prim)
  | arcOf h1 h2 _ => cases hh; exact .arc h1 h2
  | boxBytes => cases hh; exact .rustBox (.seq .prim)
  | @virt d src l t a b hsup hg he h1 h2 _ =>
    cases hh
    rw [has_virt] at hs
    simp only at hs
    have hd : d.send = true := by
      cases hd : d.send
      · simp only [Dyn.Decl.valueSend, hd, Bool.false_or] at hs
        rw [← hd]; exact (hsup rfl).1 hs
      · rfl
    have t1 := h1 hs
    have t2 : d.sync = true → Has E .sync t := fun hy => h2 (by simp [Dyn.Decl.valueSync, hy])
    obtain _ | b | b := src
    · exact .rustBox t1
    · simp only [Dyn.Coercible.isEligible, Bool.and_eq_true, beq_iff_eq] at he
      have : b = true := by rw [he.2.1, hd]
      subst this
      exact .arc t1 (t2 (by rw [← he.2.2, hd]))
    · cases b
      · simp only [Dyn.Coercible.isEligible, Bool.and_eq_true, beq_iff_eq] at he
        exact .ref (t2 (by rw [he.2, hd]))
      · exact .mut t1

theorem new_shared {E : Env} {L : Lifetimes} {l s y h} (hn : New E L false (.virt l s y h)) (hy : y = true) : s = true ∧ Has E .sync h := by
  generalize ht : Ty.virt l s y h = t at hn
  cases hn with
  | @virt d src l' t a b hsup hg he h1 h2 _ =>
    cases ht
    have hd : d.sync = true := by
      cases hd : d.sync
      · simp only [Dyn.Decl.valueSync, hd, Bool.false_or] at hy
        rw [← hd]; exact (hsup rfl).2 hy
      · rfl
    have hs : d.send = true := by
      cases hs : d.send
      · simp [Dyn.Decl.generated, hd, hs] at hg
      · rfl
    have hv : d.valueSend a = true := by simp [Dyn.Decl.valueSend, hs]
    have t1 := h1 hv
    have t2 := h2 hy
    refine ⟨hv, ?_⟩
    obtain _ | b | b := src
    · exact .rustBox t2
    · simp only [Dyn.Coercible.isEligible, Bool.and_eq_true, beq_iff_eq] at he
      have : b = true := by rw [he.2.1, hs]
      subst this
      exact .arc t1 t2
    · cases b
      · exact .ref t2
      · exact .mut t2
  | _ => cases ht

theorem gives_needs {E : Env} {L : Lifetimes} {m n : Mode} {t u : Ty} (hg : Gives E L false m t n u) (h : Has E m.needs t) :
    Has E n.needs u := by
  cases hg with
  | borrowMut => exact h
  | replace => exact h
  | item => exact has_seq.1 h
  | field hm => exact has_tuple.1 h _ hm
  | box => exact has_rustBox.1 h
  | vec => exact has_rustVec.1 h
  | refCopy => exact .ref (has_ref.1 h)
  | refDeref => exact has_ref.1 h
  | mutDeref => exact has_mut.1 h
  | mutShared => exact has_mut.1 h
  | rcClone => exact absurd h has_rc
  | rcDeref => exact absurd h has_rc
  | rcDrop => exact absurd h has_rc
  | arcClone => exact .arc (has_arc.1 h).1 (has_arc.1 h).2
  | arcDeref => exact (has_arc.1 h).2
  | arcDrop => exact (has_arc.1 h).1
  | cBoxInto => exact .rustBox (has_cBox.1 h)
  | cBoxDerefMut => exact has_cBox.1 h
  | cBoxDeref => exact has_cBox.1 h
  | cVecInto => exact .rustVec (has_cVec.1 h)
  | cVecAsRef => exact has_sliceRef.2 (has_cVec.1 h)
  | cVecAsMut => exact has_sliceMut.2 (has_cVec.1 h)
  | cVecDeref => exact .seq (has_cVec.1 h)
  | cVecDerefMut => exact .seq (has_cVec.1 h)
  | cVecWith => exact .rustVec (has_cVec.1 h)
  | sliceBoxedInto => exact .rustBox (.seq (has_sliceBoxed.1 h))
  | sliceBoxedAsRef => exact has_sliceRef.2 (has_sliceBoxed.1 h)
  | sliceBoxedAsMut => exact has_sliceMut.2 (has_sliceBoxed.1 h)
  | sliceBoxedDeref => exact .seq (has_sliceBoxed.1 h)
  | sliceBoxedDerefMut => exact .seq (has_sliceBoxed.1 h)
  | sliceRefCopy => exact has_sliceRef.2 (has_sliceRef.1 h)
  | sliceRefAsSlice => exact .ref (.seq (has_sliceRef.1 h))
  | sliceMutAsRef => exact has_sliceRef.2 (has_sliceMut.1 h)
  | sliceMutAsMut => exact has_sliceMut.2 (has_sliceMut.1 h)
  | sliceMutAsSlice => exact .mut (.seq (has_sliceMut.1 h))
  | taggedInto => exact (has_auto (by cases m <;> rfl) rfl).1 h _ (.head _)
  | hiddenDrop hn hh => exact new_hidden hn hh h
  | bytesAsSlice hn =>
    cases hn with
    | slice => exact .ref (.seq .prim)
    | inline => exact .tuple (by simp)
    | arcBytes => exact .arc (.seq .prim) (.seq .prim)
    | arcOf h1 h2 _ => exact .arc h1 h2
    | boxBytes => exact .rustBox (.seq .prim)
  | arcFnCall hn => cases hn with | arcFn h1 h2 _ => exact .arc h1 h2
  | virtCall hn => exact (new_shared hn (has_virt.1 h)).2
  | boxFnCall hn => exact new_hidden hn rfl h
  | refFnCall hn => exact new_hidden hn rfl h
  | virtCallMut hn => exact new_hidden hn rfl h
  | bytesClone => exact (C88_hiding E .send).1 _ _
  | arcFnClone => exact (C88_hiding E .send).2.1 _ _ _
  | virtClone hn => exact has_virt.2 (new_shared hn (has_virt.1 h)).1

/-- C88, for programs without `derive_ReprC(dyn)` traits that have the supertraits `Send` or `Sync` (there it is false:
`C88_fails_supertrait`): let a thread receive a value of any type that is `Send`, or share a value of any type that is `Sync`. Whatever
safe code there reaches from it in any number of steps, through the types of safer_ffi and what they hide: it owns or
exclusively borrows only values of `Send` types, it shares only values of `Sync` types, and it never reaches an `Rc`. -/
theorem C88_threads_partial (E : Env) (L : Lifetimes) (m n : Mode) (t u : Ty) (hm : Has E m.needs t)
    (hr : Reaches E L false m t n u) : (∀ i, u = .user i → E.has n.needs i) ∧ ∀ v, u ≠ .rc v := by
  have key : Has E n.needs u := by
    induction hr with
    | refl => exact hm
    | step _ hg ih => exact gives_needs hg ih
  exact ⟨fun i hi => has_user.1 (hi ▸ key), fun v hv => has_rc (hv ▸ key)⟩

/-- C88 fails for traits with supertraits: the `VirtualPtr` of an `Rc` of an executor is `Send` and `Sync`, and safe code reaches the `Rc`
from it, whatever the type of the executor (if it is `Send` and `Sync`, as the trait asks for). -/
theorem C88_fails_supertrait : ∃ (E : Env) (L : Lifetimes) (t : Ty), Has E .send t ∧ Has E .sync t ∧
    Reaches E L true .own t .own (.rc (.user 0)) ∧ Reaches E L true .share t .own (.rc (.user 0)) := by
  let L : Lifetimes := ⟨fun _ _ => True, fun _ => trivial, fun _ _ _ _ _ => trivial, fun _ => trivial⟩
  let E : Env := ⟨fun _ _ => True⟩
  let d : Dyn.Decl := ⟨[("dyn_spawn", false)], true, false, false⟩
  have hn : New E L true (.virt 0 true true (.rc (.user 0))) :=
    .virt (d := d) (src := .rc false) (t := .user 0) true true (by simp) rfl rfl (fun _ => .user trivial) (fun _ => .user trivial) trivial
  refine ⟨E, L, .virt 0 true true (.rc (.user 0)), .virtSend, .virtSync, ?_, ?_⟩
  · exact .step .refl (.hiddenDrop hn rfl)
  · exact .step (.step .refl (.virtClone hn)) (.hiddenDrop hn rfl)

/-! Types of a program: 0 is `Send` and `Sync`, 1 is `Send` only (a `Cell`), 2 is `Sync` only (a guard of a mutex), 3 is neither. -/
def demoEnv : Env := ⟨fun m i => match m with | .send => i = 0 ∨ i = 1 | .sync => i = 0 ∨ i = 2⟩
/-- `'a: 'b` if the number of `'a` is not larger. -/
def demoLifetimes : Lifetimes := ⟨fun a b => a ≤ b, Nat.le_refl, fun _ _ _ => Nat.le_trans, Nat.zero_le⟩

-- C88_counterpart: a vector of cells is `Send` and not `Sync`; a slice of them is neither.
example : Has demoEnv .send (.cVec (.user 1)) ∧ ¬ Has demoEnv .sync (.cVec (.user 1)) ∧ ¬ Has demoEnv .send (.sliceRef 1 (.user 1)) ∧
    Has demoEnv .send (.sliceMut 1 (.user 1)) ∧ Has demoEnv .sync (.sliceMut 1 (.user 2)) ∧ ¬ Has demoEnv .send (.sliceMut 1 (.user 2)) := by
  simp [has_cVec, has_sliceRef, has_sliceMut, has_user, demoEnv]
-- C88_threads_partial: a `Box` of a tagged option of a vector of cells is `Send`, and the thread that receives it reaches the cells.
example : Has demoEnv Mode.own.needs (.cBox (.tagged (.cVec (.user 1)))) ∧
    Reaches demoEnv demoLifetimes false .own (.cBox (.tagged (.cVec (.user 1)))) .excl (.user 1) := by
  constructor
  · rw [has_cBox, has_auto (fs := [.cVec (.user 1)]) rfl rfl]; simp [has_cVec, has_user, demoEnv, Mode.needs]
  · exact .step (.step (.step (.step (.step (.step (.step .refl .borrowMut) .cBoxDerefMut) .taggedInto) (.cVecAsMut (l := 7))) .sliceMutAsSlice)
      .mutDeref) .item
-- And one that shares an `Arc` closure reaches what the closure has captured.
example : New demoEnv demoLifetimes false (.arcFn (.arc (.tuple [.user 0, .prim])) .prim [.prim]) ∧
    Has demoEnv Mode.share.needs (.arcFn (.arc (.tuple [.user 0, .prim])) .prim [.prim]) ∧
    Reaches demoEnv demoLifetimes false .share (.arcFn (.arc (.tuple [.user 0, .prim])) .prim [.prim]) .share (.user 0) := by
  have hn : New demoEnv demoLifetimes false (.arcFn (.arc (.tuple [.user 0, .prim])) .prim [.prim]) := by
    refine .arcFn (.tuple ?_) (.tuple ?_) ⟨trivial, trivial, trivial⟩
    all_goals simp [has_user, demoEnv, Has.prim]
  exact ⟨hn, (C88_hiding demoEnv .sync).2.1 _ _ _, .step (.step (.step .refl (.arcFnCall hn)) .arcDeref) (.field (by simp))⟩
-- A `VirtualPtr<dyn Trait + Send>`, with a `&mut self` method, of a `Box` of a cell.
example : New demoEnv demoLifetimes false (.virt 0 true false (.rustBox (.user 1))) ∧
    Has demoEnv Mode.own.needs (.virt 0 true false (.rustBox (.user 1))) ∧
    Reaches demoEnv demoLifetimes false .own (.virt 0 true false (.rustBox (.user 1))) .excl (.user 1) := by
  have hn : New demoEnv demoLifetimes false (.virt 0 true false (.rustBox (.user 1))) :=
    .virt (d := ⟨[("add", true)], false, true, false⟩) (src := .box) (t := .user 1) false false (by simp) rfl rfl
      (fun _ => .user (.inr rfl)) (fun h => by cases h) trivial
  exact ⟨hn, .virtSend, .step (.step (.step .refl .borrowMut) (.virtCallMut hn)) .box⟩

/-! ## C89 -/

section sub
variable {L : Lifetimes}

theorem sub_struct {t u fs gs} (ht : fields t = some fs) (hu : fields u = some gs) : Sub L t u ↔ shell t = shell u ∧ Subs L fs gs := by
  constructor
  · intro h
    cases h with
    | struct h1 h2 h3 h4 => rw [ht] at h2; rw [hu] at h3; cases h2; cases h3; exact ⟨h1, h4⟩
    | _ => cases ht
  · exact fun h => .struct h.1 ht hu h.2

theorem subs_nil : Subs L [] [] ↔ True := ⟨fun _ => trivial, fun _ => .nil⟩
theorem subs_cons {t u ts us} : Subs L (t :: ts) (u :: us) ↔ Sub L t u ∧ Subs L ts us :=
  ⟨fun h => (by cases h with | cons h h' => exact ⟨h, h'⟩), fun h => .cons h.1 h.2⟩
theorem sub_prim : Sub L .prim .prim ↔ True := ⟨fun _ => trivial, fun _ => .prim⟩
theorem sub_seq {t u} : Sub L (.seq t) (.seq u) ↔ Sub L t u :=
  ⟨fun h => (by cases h with | seq h => exact h | struct _ h _ _ => cases h), .seq⟩
theorem sub_raw {t u} : Sub L (.raw t) (.raw u) ↔ Sub L t u :=
  ⟨fun h => (by cases h with | raw h => exact h | struct _ h _ _ => cases h), .raw⟩
theorem sub_phantom {t u} : Sub L (.phantom t) (.phantom u) ↔ Sub L t u :=
  ⟨fun h => (by cases h with | phantom h => exact h | struct _ h _ _ => cases h), .phantom⟩
theorem sub_rustBox {t u} : Sub L (.rustBox t) (.rustBox u) ↔ Sub L t u :=
  ⟨fun h => (by cases h with | rustBox h => exact h | struct _ h _ _ => cases h), .rustBox⟩
theorem sub_rustVec {t u} : Sub L (.rustVec t) (.rustVec u) ↔ Sub L t u :=
  ⟨fun h => (by cases h with | rustVec h => exact h | struct _ h _ _ => cases h), .rustVec⟩
theorem sub_arc {t u} : Sub L (.arc t) (.arc u) ↔ Sub L t u :=
  ⟨fun h => (by cases h with | arc h => exact h | struct _ h _ _ => cases h), .arc⟩
theorem sub_ref {k l t u} : Sub L (.ref k t) (.ref l u) ↔ L.out k l ∧ Sub L t u :=
  ⟨fun h => (by cases h with | ref h h' => exact ⟨h, h'⟩ | struct _ h _ _ => cases h), fun h => .ref h.1 h.2⟩
theorem sub_mut {k l t u} : Sub L (.mut k t) (.mut l u) ↔ L.out k l ∧ Sub L t u ∧ Sub L u t :=
  ⟨fun h => (by cases h with | «mut» h h1 h2 => exact ⟨h, h1, h2⟩ | struct _ h _ _ => cases h), fun h => .mut h.1 h.2.1 h.2.2⟩
theorem sub_fnPtr {r s as bs} : Sub L (.fnPtr r as) (.fnPtr s bs) ↔ Sub L r s ∧ Subs L bs as :=
  ⟨fun h => (by cases h with | fnPtr h h' => exact ⟨h, h'⟩ | struct _ h _ _ => cases h), fun h => .fnPtr h.1 h.2⟩
theorem sub_tuple {ts us} : Sub L (.tuple ts) (.tuple us) ↔ Subs L ts us :=
  ⟨fun h => (by cases h with | tuple h => exact h | struct _ h _ _ => cases h), .tuple⟩

theorem sub_nonNullRef {t u} : Sub L (.nonNullRef t) (.nonNullRef u) ↔ Sub L t u := by
  rw [sub_struct rfl rfl]; simp [shell, subs_cons, subs_nil, sub_raw]
theorem sub_nonNullOwned {t u} : Sub L (.nonNullOwned t) (.nonNullOwned u) ↔ Sub L t u := by
  rw [sub_struct rfl rfl]; simp [shell, subs_cons, subs_nil, sub_raw, sub_phantom]
theorem sub_phantomInvariant {t u} : Sub L (.phantomInvariant t) (.phantomInvariant u) ↔ Sub L t u ∧ Sub L u t := by
  rw [sub_struct rfl rfl]; simp [shell, subs_cons, subs_nil, sub_phantom, sub_fnPtr, sub_ref, L.refl]
theorem sub_nonNullMut {t u} : Sub L (.nonNullMut t) (.nonNullMut u) ↔ Sub L t u ∧ Sub L u t := by
  rw [sub_struct rfl rfl]; simp [shell, subs_cons, subs_nil, sub_raw, sub_phantomInvariant]
theorem sub_cBox {t u} : Sub L (.cBox t) (.cBox u) ↔ Sub L t u := by
  rw [sub_struct rfl rfl]; simp [shell, subs_cons, subs_nil, sub_nonNullOwned]
theorem sub_cVec {t u} : Sub L (.cVec t) (.cVec u) ↔ Sub L t u := by
  rw [sub_struct rfl rfl]; simp [shell, subs_cons, subs_nil, sub_nonNullOwned, sub_prim]
theorem sub_sliceBoxed {t u} : Sub L (.sliceBoxed t) (.sliceBoxed u) ↔ Sub L t u := by
  rw [sub_struct rfl rfl]; simp [shell, subs_cons, subs_nil, sub_nonNullOwned, sub_prim]
theorem sub_sliceRef {k l t u} : Sub L (.sliceRef k t) (.sliceRef l u) ↔ L.out k l ∧ Sub L t u := by
  rw [sub_struct rfl rfl]; simp [shell, subs_cons, subs_nil, sub_nonNullRef, sub_prim, sub_phantom, sub_ref, and_comm]
theorem sub_sliceMut {k l t u} : Sub L (.sliceMut k t) (.sliceMut l u) ↔ L.out k l ∧ Sub L t u ∧ Sub L u t := by
  rw [sub_struct rfl rfl]; simp [shell, subs_cons, subs_nil, sub_nonNullMut, sub_prim, sub_phantom, sub_ref, and_comm]
theorem sub_releaseTy : Sub L releaseTy releaseTy ↔ True := by
  simp [releaseTy, sub_fnPtr, sub_prim, subs_cons, subs_nil, sub_raw]
theorem sub_callTy {r s as bs} : Sub L (callTy r as) (callTy s bs) ↔ Sub L (.fnPtr r as) (.fnPtr s bs) := by
  simp [callTy, sub_fnPtr, subs_cons, sub_raw, sub_prim]
end sub

/-- C89: variance. A type of safer_ffi is a subtype of another exactly if they are the same struct and their counterparts in the
standard library are subtypes: so `c_slice::Mut<'_, T>` is invariant in `T`, like `&mut [T]`; the others are covariant, and none
of them extends a lifetime. -/
theorem C89_variance (L : Lifetimes) (t u s v : Ty) (ht : std t = some s) (hu : std u = some v) :
    Sub L t u ↔ shell t = shell u ∧ Sub L s v := by
  by_cases hs : shell t = shell u
  · simp only [hs, true_and]
    cases t <;> cases ht <;> cases u <;> cases hu <;> cases hs
    · rw [sub_cBox, sub_rustBox]
    · rw [sub_cVec, sub_rustVec]
    · rw [sub_sliceBoxed, sub_rustBox, sub_seq]
    · rw [sub_sliceRef, sub_ref, sub_seq]
    · rw [sub_sliceMut, sub_mut, sub_seq, sub_seq]
    · rw [sub_struct rfl rfl]; simp [subs_cons, subs_nil, sub_cVec, sub_rustVec, sub_prim]
    · rw [sub_struct rfl rfl]; simp [subs_cons, subs_nil, sub_sliceBoxed, sub_rustBox, sub_seq, sub_prim]
    · rw [sub_struct rfl rfl]; simp [shell, subs_cons, subs_nil, sub_sliceRef, sub_ref, sub_seq, sub_prim]
    · rw [sub_struct rfl rfl]; simp [shell, subs_cons, subs_nil, sub_nonNullRef, sub_phantom, sub_ref, sub_seq, sub_prim]
    · rw [sub_struct rfl rfl]; simp [subs_cons, subs_nil, sub_nonNullOwned, sub_rustBox, sub_seq, sub_prim]
    · rw [sub_struct rfl rfl]; simp [subs_cons, subs_nil, sub_raw, sub_arc, sub_seq, sub_prim]
    · rw [sub_struct rfl rfl]; simp [shell, subs_cons, subs_nil, sub_tuple]
  · simp only [hs, false_and, iff_false]
    intro h
    have : ∃ fs gs, fields t = some fs ∧ fields u = some gs := by
      cases t <;> cases ht <;> cases u <;> cases hu <;> exact ⟨_, _, rfl, rfl⟩
    obtain ⟨fs, gs, h1, h2⟩ := this
    exact hs ((sub_struct h1 h2).1 h).1

/-- C89: closures can be used as closures of another type only if a function pointer could: contravariant in the parameters,
covariant in the result. Borrowed closures and `Bytes` can only be taken for shorter-lived ones. What is hidden does not change. -/
theorem C89_closures (L : Lifetimes) (k l : Nat) (h g r s : Ty) (as bs : List Ty) :
    (Sub L (.arcFn h r as) (.arcFn g s bs) ↔ h = g ∧ Sub L (.fnPtr r as) (.fnPtr s bs)) ∧
    (Sub L (.boxFn h r as) (.boxFn g s bs) ↔ h = g ∧ Sub L (.fnPtr r as) (.fnPtr s bs)) ∧
    (Sub L (.refFn k h r as) (.refFn l g s bs) ↔ h = g ∧ L.out k l ∧ Sub L (.fnPtr r as) (.fnPtr s bs)) ∧
    (Sub L (.bytes k h) (.bytes l g) ↔ h = g ∧ L.out k l) := by
  refine ⟨?_, ?_, ?_, ?_⟩
  · rw [sub_struct rfl rfl]
    simp [shell, subs_cons, subs_nil, sub_raw, sub_prim, sub_callTy, sub_releaseTy, sub_tuple]
  · rw [sub_struct rfl rfl]
    simp [shell, subs_cons, subs_nil, sub_raw, sub_prim, sub_callTy, sub_releaseTy, sub_tuple]
  · rw [sub_struct rfl rfl]
    simp [shell, subs_cons, subs_nil, sub_raw, sub_prim, sub_callTy, sub_phantom, sub_ref, and_comm]
  · rw [sub_struct rfl rfl]
    simp [shell, subs_cons, subs_nil, sub_raw, sub_prim, sub_phantom, sub_ref, sub_seq]

/-- A `VirtualPtr` only has the type that it was made with. -/
theorem C89_virtual (L : Lifetimes) (k : Nat) (s y : Bool) (h t : Ty) : Sub L (.virt k s y h) t ↔ t = .virt k s y h := by
  constructor
  · intro hs
    cases hs with
    | virt => rfl
    | struct _ h _ _ => cases h
  · rintro rfl; exact .virt

mutual
theorem outlives_mono {L : Lifetimes} {k l : Nat} (hkl : L.out k l) : ∀ t, Outlives L k t → Outlives L l t
  | .prim | .user _ | .string | .strBoxed | .charRaw | .charBoxed | .sharedCStr => fun _ => trivial
  | .seq t | .raw t | .phantom t | .rustBox t | .rustVec t | .rc t | .arc t => outlives_mono hkl t
  | .nonNullRef t | .phantomInvariant t | .nonNullMut t | .nonNullOwned t => outlives_mono hkl t
  | .cBox t | .cVec t | .sliceRaw t | .sliceBoxed t | .tagged t => outlives_mono hkl t
  | .ref _ t | .mut _ t | .sliceRef _ t | .sliceMut _ t => fun h => ⟨L.trans _ _ _ h.1 hkl, outlives_mono hkl t h.2⟩
  | .strRef _ | .charRef _ | .bytes _ _ | .virt _ _ _ _ => fun h => L.trans _ _ _ h hkl
  | .fnPtr ret args | .arcFn _ ret args | .boxFn _ ret args => fun h => ⟨outlives_mono hkl ret h.1, outliveAll_mono hkl args h.2⟩
  | .refFn _ _ ret args => fun h => ⟨L.trans _ _ _ h.1 hkl, outlives_mono hkl ret h.2.1, outliveAll_mono hkl args h.2.2⟩
  | .tuple ts => outliveAll_mono hkl ts
theorem outliveAll_mono {L : Lifetimes} {k l : Nat} (hkl : L.out k l) : ∀ ts, OutliveAll L k ts → OutliveAll L l ts
  | [] => fun _ => trivial
  | t :: ts => fun h => ⟨outlives_mono hkl t h.1, outliveAll_mono hkl ts h.2⟩
end

/-- C89: a value that hides another, made by a constructor and used at the same or any other type that it can be taken for, is usable
for a lifetime only if what it hides is valid for this lifetime. -/
theorem C89_lifetimes (E : Env) (L : Lifetimes) (supers : Bool) (t u h : Ty) (l : Nat) (hn : New E L supers t) (hs : Sub L t u)
    (hh : hidden t = some h) (hl : Outlives L l u) : hidden u = some h ∧ Outlives L l h := by
  have st := L.static l
  have key : ∀ {fs}, fields t = some fs → shell t = shell u := fun hf => by
    cases hs with
    | struct h1 _ _ _ => exact h1
    | _ => cases hf
  cases hn with
  | arcFn _ _ ho =>
    cases hh
    have hk := key rfl
    cases u <;> cases hk
    exact ⟨rfl, outlives_mono st (.arc _) ho⟩
  | boxFn _ ho =>
    cases hh
    have hk := key rfl
    cases u <;> cases hk
    exact ⟨rfl, outlives_mono st (.rustBox _) ho⟩
  | refFn _ ho =>
    cases hh
    have hk := key rfl
    cases u <;> cases hk
    have ho' := L.trans _ _ _ ((C89_closures L _ _ _ _ _ _ _ _).2.2.1.1 hs).2.1 hl.1
    exact ⟨rfl, ho', outlives_mono ho' _ ho⟩
  | slice =>
    cases hh
    have hk := key rfl
    cases u <;> cases hk
    exact ⟨rfl, L.trans _ _ _ ((C89_closures L _ _ _ _ .prim .prim [] []).2.2.2.1 hs).2 hl, trivial⟩
  | inline =>
    cases hh
    have hk := key rfl
    cases u <;> cases hk
    exact ⟨rfl, trivial⟩
  | arcBytes =>
    cases hh
    have hk := key rfl
    cases u <;> cases hk
    exact ⟨rfl, trivial⟩
  | arcOf _ _ ho =>
    cases hh
    have hk := key rfl
    cases u <;> cases hk
    exact ⟨rfl, outlives_mono st (.arc _) ho⟩
  | boxBytes =>
    cases hh
    have hk := key rfl
    cases u <;> cases hk
    exact ⟨rfl, trivial⟩
  | @virt d src k t a b hsup hg he h1 h2 ho =>
    cases hh
    rw [(C89_virtual L _ _ _ _ _).1 hs] at hl ⊢
    have ho' : Outlives L l t := outlives_mono hl _ ho
    refine ⟨rfl, ?_⟩
    obtain _ | b | b := src
    · exact ho'
    · cases b <;> exact ho'
    · cases b <;> exact ⟨hl, ho'⟩

/-- C89: and the types of safer_ffi are valid for the same lifetimes as their counterparts in the standard library. -/
theorem C89_counterpart (L : Lifetimes) (l : Nat) (t s : Ty) (h : std t = some s) : Outlives L l t ↔ Outlives L l s := by
  cases t <;> cases h <;> simp [Outlives, OutliveAll]

-- C89_variance: a box of references can be taken for one of shorter-lived references, and not the other way round.
example : Sub demoLifetimes (.cBox (.ref 1 .prim)) (.cBox (.ref 2 .prim)) ∧ ¬ Sub demoLifetimes (.cBox (.ref 2 .prim)) (.cBox (.ref 1 .prim)) := by
  simp [sub_cBox, sub_ref, sub_prim, demoLifetimes]
-- A mutable slice of references can not be: someone could write a shorter-lived one into it. Its own lifetime can be shortened.
example : ¬ Sub demoLifetimes (.sliceMut 1 (.ref 1 .prim)) (.sliceMut 1 (.ref 2 .prim)) ∧
    Sub demoLifetimes (.sliceMut 1 (.ref 1 .prim)) (.sliceMut 2 (.ref 1 .prim)) := by
  simp [sub_sliceMut, sub_ref, sub_prim, demoLifetimes]
-- C89_closures: a closure that takes references of any length can be used where only longer ones are given.
example : Sub demoLifetimes (.arcFn .prim .prim [.ref 2 .prim]) (.arcFn .prim .prim [.ref 1 .prim]) ∧
    ¬ Sub demoLifetimes (.arcFn .prim .prim [.ref 1 .prim]) (.arcFn .prim .prim [.ref 2 .prim]) := by
  rw [(C89_closures demoLifetimes 0 0 _ _ _ _ _ _).1, (C89_closures demoLifetimes 0 0 _ _ _ _ _ _).1]
  simp [sub_fnPtr, subs_cons, subs_nil, sub_ref, sub_prim, demoLifetimes]
-- C89_lifetimes: a borrowed closure of lifetime 1, used with the shorter lifetime 2, that has captured a reference of lifetime 1.
example : New demoEnv demoLifetimes false (.refFn 1 (.mut 1 (.ref 1 .prim)) .prim []) ∧
    Sub demoLifetimes (.refFn 1 (.mut 1 (.ref 1 .prim)) .prim []) (.refFn 2 (.mut 1 (.ref 1 .prim)) .prim []) ∧
    Outlives demoLifetimes 2 (.refFn 2 (.mut 1 (.ref 1 .prim)) .prim []) := by
  refine ⟨.refFn (.ref .prim) ⟨Nat.le_refl _, trivial⟩, ?_, Nat.le_refl _, trivial, trivial⟩
  rw [(C89_closures demoLifetimes 1 2 _ _ _ _ _ _).2.2.1]
  simp [sub_fnPtr, subs_nil, sub_prim, demoLifetimes]

end Verif.Markers
