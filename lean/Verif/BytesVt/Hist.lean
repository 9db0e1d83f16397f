import Verif.BytesVt.Inv
/-! The invariant along histories. -/
namespace Verif.BytesVt
open Verif.Bytes (Byte Target Raw Fields Bound R Fault Split getWord setWord fieldsOf wordMax maxInline isInlined lenOf
  inlineUnchecked startOf endOf)

variable {e : Env} {s : State}

/-- The values of the live variables. -/
def live (v : List (Option Raw)) : List Raw := v.filterMap id

/-- The invariant of a state. -/
def SInv (e : Env) (s : State) : Prop := Inv e s.mach (live s.vars)

theorem live_push (v : List (Option Raw)) (r : Raw) : (live (v ++ [some r])).Perm (r :: live v) := by
  simp only [live, List.filterMap_append]
  exact List.perm_append_comm (l₂ := [r])

theorem live_set {v : List (Option Raw)} {i : Nat} {r : Raw} (h : (v[i]?).join = some r) (x : Option Raw) :
    (live v).Perm (r :: live (v.set i none)) ∧ (live (v.set i x)).Perm (x.toList ++ live (v.set i none)) := by
  induction v generalizing i with
  | nil => simp at h
  | cons a v ih =>
    cases i with
    | zero =>
      simp at h; subst h
      cases x <;> simp [live]
    | succ i =>
      simp at h
      obtain ⟨h1, h2⟩ := ih h
      cases a with
      | none => exact ⟨by simpa [live] using h1, by simpa [live] using h2⟩
      | some a =>
        constructor
        · have := (h1.cons a).trans (List.Perm.swap _ _ _)
          simpa [live] using this
        · have := h2.cons a
          have hs : live ((some a :: v).set (i + 1) x) = a :: live (v.set i x) := rfl
          have hn : live ((some a :: v).set (i + 1) none) = a :: live (v.set i none) := rfl
          rw [hs, hn]
          refine this.trans ?_
          cases x with
          | none => exact List.Perm.refl _
          | some b => exact List.Perm.swap b a _

/-- Variables that a call neither changes nor consumes. -/
def Touches : Op → Nat → Prop
  | .drop i, j => i = j
  | .shrinkTo i _ _, j => i = j
  | .subsliced i _ _, j => i = j
  | .splitAt i _ _ _, j => i = j
  | .upgrade i _, j => i = j
  | _, _ => False

theorem var_push {s : State} {m : Mach} {r : Raw} {j : Nat} {q : Raw} (h : s.var j = some q) : (s.push m r).var j = some q := by
  unfold State.var State.push at *
  have : j < s.vars.length := by
    apply Classical.byContradiction; intro hn
    rw [List.getElem?_eq_none (by omega)] at h; cases h
  simpa [List.getElem?_append_left this] using h

theorem var_new {s : State} {m : Mach} {r : Raw} : (s.push m r).var s.vars.length = some r := by
  simp [State.var, State.push]

theorem var_put {s : State} {m : Mach} {i : Nat} {x : Option Raw} {j : Nat} (hij : i ≠ j) :
    (s.put m i x).var j = s.var j := by
  simp [State.var, State.put, List.getElem?_set_ne hij]

theorem var_lt {s : State} {i : Nat} {r : Raw} (h : s.var i = some r) : i < s.vars.length := by
  apply Classical.byContradiction; intro hn
  unfold State.var at h
  rw [List.getElem?_eq_none (by omega)] at h; cases h

theorem var_set {s : State} {m : Mach} {i : Nat} {x : Option Raw} {r : Raw} (h : s.var i = some r) :
    (s.put m i x).var i = x := by
  simp [State.var, State.put, List.getElem?_set_self (var_lt h)]

/-- The invariant, with one variable apart. -/
theorem SInv.at (I : SInv e s) {i : Nat} {r : Raw} (h : s.var i = some r) :
    Inv e s.mach (r :: live (s.vars.set i none)) := Inv.perm I (live_set h none).1

theorem SInv.of_put {m : Mach} {i : Nat} {r q : Raw} (h : s.var i = some r)
    (J : Inv e m (q :: live (s.vars.set i none))) : SInv e (s.put m i (some q)) :=
  J.perm (live_set h (some q)).2.symm

theorem SInv.of_gone {m : Mach} {i : Nat} (J : Inv e m (live (s.vars.set i none))) : SInv e (s.put m i none) := J

theorem SInv.of_push {m : Mach} {q : Raw} (J : Inv e m (q :: live s.vars)) : SInv e (s.push m q) :=
  J.perm (live_push _ _).symm

theorem mem_live {s : State} {j : Nat} {q : Raw} (h : s.var j = some q) : q ∈ live s.vars := by
  unfold State.var at h
  unfold live
  rw [List.mem_filterMap]
  refine ⟨some q, ?_, rfl⟩
  cases h2 : s.vars[j]? with
  | none => rw [h2] at h; cases h
  | some x => rw [h2] at h; simp at h; subst h; exact List.mem_of_getElem? h2

theorem mem_live_ne {s : State} {i j : Nat} {q : Raw} (h : s.var j = some q) (hij : i ≠ j) :
    q ∈ live (s.vars.set i none) := by
  have : (s.put s.mach i none).var j = some q := by rw [var_put hij]; exact h
  exact mem_live this

/-- Untouched variables keep their values and contents. -/
def Frame (e : Env) (s s' : State) (op : Op) : Prop :=
  ∀ j q, s.var j = some q → ¬ Touches op j → s'.var j = some q ∧ contents e s'.mach.mem q = contents e s.mach.mem q

theorem frame_put {m : Mach} {i : Nat} {x : Option Raw} {op : Op} (hop : Touches op i)
    (K : Keep e s.mach m (live (s.vars.set i none))) : Frame e s (s.put m i x) op := by
  intro j q hq ht
  have hij : i ≠ j := by rintro rfl; exact ht hop
  exact ⟨by rw [var_put hij]; exact hq, K q (mem_live_ne hq hij)⟩

theorem frame_push {m : Mach} {x : Raw} {op : Op} (K : Keep e s.mach m (live s.vars)) : Frame e s (s.push m x) op :=
  fun _ q hq _ => ⟨var_push hq, K q (mem_live hq)⟩

theorem frame_refl {op : Op} : Frame e s s op := fun _ _ h _ => ⟨h, rfl⟩

theorem fromSlice_spec {m : Mach} {L : List Raw} (I : Inv e m L) {st ln : Nat} (h : okSlice e st ln = true) :
    Inv e (fromSlice e m st ln).1 ((fromSlice e m st ln).2 :: L) ∧ (fromSlice e m st ln).1.mem = m.mem
    ∧ contents e m.mem (fromSlice e m st ln).2 = readMem m.mem st ln := by
  unfold fromSlice
  by_cases hl : ln ≤ maxInline e.toTarget
  · rw [if_pos hl]
    have : (readMem m.mem st ln).length ≤ maxInline e.toTarget := by rw [readMem_length]; exact hl
    exact ⟨I.addInline this, rfl, contents_inline _ this⟩
  · rw [if_neg hl]
    have hs : okParts e st ln ⟨e.sliceVt, st, ln⟩ = true := by
      simp only [okSlice, decide_eq_true_eq] at h
      simp only [okParts, okSlice, Bool.and_eq_true, decide_eq_true_eq, e.slice_vt]
      exact ⟨⟨⟨h, by omega⟩, by omega⟩, rfl⟩
    obtain ⟨a, b, c, d⟩ := parts_spec I hs
    exact ⟨a, b, d _⟩

/-- Every call is defined, keeps the invariant and leaves the other variables alone. -/
theorem step_spec (I : SInv e s) (op : Op) :
    ∃ s' o, step e s op = .ok (s', o) ∧ SInv e s' ∧ Frame e s s' op := by
  have refused : ∀ o, ∃ s' o', (Except.ok (s, o) : Except Fault (State × Out)) = .ok (s', o') ∧ SInv e s' ∧ Frame e s s' op :=
    fun o => ⟨s, o, rfl, I, frame_refl⟩
  cases op with
  | fromRawParts st ln o =>
    simp only [step]
    by_cases h : okParts e st ln o = true
    · rw [if_pos h]
      obtain ⟨a, b, -, -⟩ := parts_spec I h
      exact ⟨_, _, rfl, .of_push a, frame_push (Keep.of_mem b _)⟩
    · rw [if_neg h]; exact refused _
  | fromSlice st ln =>
    simp only [step]
    by_cases h : okSlice e st ln = true
    · rw [if_pos h]
      obtain ⟨a, b, -⟩ := fromSlice_spec I h
      exact ⟨_, _, rfl, .of_push a, frame_push (Keep.of_mem b _)⟩
    · rw [if_neg h]; exact refused _
  | copied a d =>
    simp only [step]
    rcases copied_spec I a d with h | ⟨m', r', h1, h2, h3, -⟩
    · rw [h]; exact refused _
    · rw [h1]; exact ⟨_, _, rfl, .of_push h2, frame_push h3⟩
  | clone i a =>
    simp only [step]
    cases hv : s.var i with
    | none => exact refused _
    | some r =>
      rcases clone_spec (I.at hv) a with h | ⟨m', r', h1, h2, h3, -⟩
      · simp only [h, bind, Except.bind]; exact refused _
      · simp only [h1, bind, Except.bind]
        refine ⟨_, _, rfl, .of_push (h2.perm (List.Perm.cons _ (live_set hv none).1.symm)), frame_push ?_⟩
        exact h3.sub (live_set hv none).1.subset
  | noallocClone i =>
    simp only [step]
    cases hv : s.var i with
    | none => exact refused _
    | some r =>
      rcases noalloc_spec (I.at hv) with h | ⟨m', h1, h2, h3⟩
      · simp only [h, bind, Except.bind]; exact refused _
      · simp only [h1, bind, Except.bind]
        exact ⟨_, _, rfl, .of_push (h3.perm (List.Perm.cons _ (live_set hv none).1.symm)), frame_push (Keep.of_mem h2 _)⟩
  | drop i =>
    simp only [step]
    cases hv : s.var i with
    | none => exact refused _
    | some r =>
      obtain ⟨m', h1, h2, h3⟩ := drop_spec (I.at hv)
      simp only [h1, bind, Except.bind]
      exact ⟨_, _, rfl, .of_gone h3, frame_put rfl (Keep.of_mem h2 _)⟩
  | shrinkTo i lo hi =>
    simp only [step]
    cases hv : s.var i with
    | none => exact refused _
    | some r =>
      rcases shrink_spec (I.at hv) lo hi with h | ⟨m', r', h1, h2, h3, -⟩
      · simp only [h, bind, Except.bind]; exact refused _
      · simp only [h1, bind, Except.bind]
        exact ⟨_, _, rfl, .of_put hv h2, frame_put rfl (Keep.of_mem h3 _)⟩
  | subsliced i lo hi =>
    simp only [step]
    cases hv : s.var i with
    | none => exact refused _
    | some r =>
      rcases subsliced_spec (I.at hv) lo hi with ⟨m', h1, h2, h3⟩ | ⟨m', r', h1, h2, h3, -⟩
      · simp only [h1, bind, Except.bind]
        exact ⟨_, _, rfl, .of_gone h2, frame_put rfl (Keep.of_mem h3 _)⟩
      · simp only [h1, bind, Except.bind]
        exact ⟨_, _, rfl, .of_put hv h2, frame_put rfl (Keep.of_mem h3 _)⟩
  | splitAt i k a b =>
    simp only [step]
    cases hv : s.var i with
    | none => exact refused _
    | some r =>
      rcases splitAt_spec (I.at hv) a b k with ⟨m', h⟩ | ⟨m', h1, h2, h3⟩ | ⟨h1, -⟩ | ⟨m', l, r', h1, h2, h3, -⟩
      · simp only [h, bind, Except.bind]; exact refused _
      · simp only [h1, bind, Except.bind]
        exact ⟨_, _, rfl, .of_gone h2, frame_put rfl h3⟩
      · simp only [h1, bind, Except.bind]
        exact ⟨_, _, rfl, .of_put hv (I.at hv), frame_put rfl (Keep.of_mem rfl _)⟩
      · simp only [h1, bind, Except.bind]
        refine ⟨_, _, rfl, ?_, ?_⟩
        · refine SInv.of_push (s := s.put m' i (some l)) ?_
          exact (h2.perm (List.Perm.swap _ _ _)).perm (List.Perm.cons _ (live_set hv (some l)).2.symm)
        · intro j q hq ht
          obtain ⟨x, y⟩ := frame_put (x := some l) (op := .splitAt i k a b) rfl h3 j q hq ht
          exact ⟨var_push x, y⟩
  | upgrade i a =>
    simp only [step]
    cases hv : s.var i with
    | none => exact refused _
    | some r =>
      rcases upgrade_spec (I.at hv) a with h | ⟨m', r', h1, h2, h3, -⟩
      · simp only [h, bind, Except.bind]; exact refused _
      · simp only [h1, bind, Except.bind]
        exact ⟨_, _, rfl, .of_put hv h2, frame_put rfl h3⟩
  | asSlice i =>
    simp only [step]
    cases hv : s.var i with
    | none => exact refused _
    | some r =>
      obtain ⟨h1, h2, -⟩ := asSlice_spec (I.at hv)
      refine ⟨_, _, rfl, h1.perm (live_set hv none).1.symm, ?_⟩
      intro j q hq _
      refine ⟨hq, ?_⟩
      show contents e (asSlice e s.mach r).1.mem q = _
      rw [h2]
  | write a v =>
    simp only [step]
    by_cases h : mayWrite e s.mach.log a = true
    · rw [if_pos h]
      refine ⟨_, _, rfl, ⟨I.rep, I.bal, I.good⟩, ?_⟩
      intro j q hq _
      refine ⟨hq, keep_write (mem' := writeMem s.mach.mem a [v]) I ?_ q (mem_live hq)⟩
      intro x hx
      have := writeMem_ne hx
      rw [List.length_singleton] at this
      rwa [show x = a by omega]
    · rw [if_neg h]; exact refused _

theorem init_inv (mem : Nat → Byte) : SInv e (State.init mem) where
  rep r h := by simp [State.init, live] at h
  bal o _ := rfl
  good pre x suf h := by simp [State.init] at h

theorem run_spec (I : SInv e s) (ops : List Op) : ∃ s' os, run e s ops = .ok (s', os) ∧ SInv e s' := by
  induction ops generalizing s with
  | nil => exact ⟨s, [], rfl, I⟩
  | cons op ops ih =>
    obtain ⟨s1, o, h1, I1, -⟩ := step_spec I op
    obtain ⟨s2, os, h2, I2⟩ := ih I1
    exact ⟨s2, o :: os, by simp [run, h1, h2, bind, Except.bind], I2⟩

end Verif.BytesVt
