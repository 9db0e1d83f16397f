import Verif.Dyn.Step

/-!
# Properties of closures and virtual pointers: C31 - C35

`Abs.run` (Spec.lean) is the specification machine: handles designate objects, calls run the object's
own code, an object lives as long as a variable owns it.
-/
set_option linter.unusedSectionVars false
namespace Verif.Dyn

instance {ε α : Type} [DecidableEq ε] [DecidableEq α] : DecidableEq (Except ε α)
  | .ok a, .ok b => if h : a = b then isTrue (by rw [h]) else isFalse (by intro e; cases e; exact h rfl)
  | .error a, .error b => if h : a = b then isTrue (by rw [h]) else isFalse (by intro e; cases e; exact h rfl)
  | .ok _, .error _ => isFalse (by intro e; cases e)
  | .error _, .ok _ => isFalse (by intro e; cases e)

section
variable {σ V : Type} (S : Sem σ V)

/-- The states a program can be in. -/
def Reach (s : State σ V) : Prop := ∃ ops outs, run S .init ops = .ok (s, outs)

/-- The number of variables which own the object `k`. -/
def State.ownersOf (s : State σ V) (k : Nat) : Nat :=
  s.vars.countP fun
    | some v => v.lt.isNone && v.val.obj == k
    | none => false

/-! ### From the refinement -/

theorem Reach.abs {s : State σ V} (h : Reach S s) : ∃ a, WF a ∧ s = conc a := by
  obtain ⟨ops, outs, h⟩ := h
  obtain ⟨e, W⟩ := run_ok S WF.init ops
  have : (conc (Abs.init : Abs σ V)) = State.init := rfl
  rw [this, h] at e
  simp only [Except.ok.injEq, Prod.mk.injEq] at e
  exact ⟨_, W, e.1⟩

theorem ownersOf_conc (a : Abs σ V) (k : Nat) : (conc a).ownersOf k = a.owners k := by
  simp only [State.ownersOf, conc, Abs.owners, List.countP_map]
  congr 1
  funext x
  cases x with
  | none => rfl
  | some v => simp [AVal.owns, concVar_obj, concVar_lt, Bool.and_comm]

theorem var_conc {a : Abs σ V} {i : Nat} {v : Var} (h : (conc a).var i = some v) :
    ∃ w, a.var i = some w ∧ v = concVar a.sig w ∧ v.val.obj = w.obj ∧ v.lt = w.borrow := by
  rw [conc_var, Option.map_eq_some_iff] at h
  obtain ⟨w, h1, h2⟩ := h
  exact ⟨w, h1, h2.symm, by rw [← h2, concVar_obj], by rw [← h2, concVar_lt]⟩

theorem heap_conc {a : Abs σ V} {k : Nat} {o : AObj σ} (h : a.objs[k]? = some o) :
    (conc a).heap[k]? = some (concObj a k o) := by rw [conc_heap, h]; rfl

/-- One complete call, in the specification. -/
theorem abs_call {a : Abs σ V} {i : Nat} {v : AVal} {o : AObj σ} {name : String} {mt m : Bool} (args : List V)
    (hv : a.var i = some v) (ho : a.objs[v.obj]? = some o) (hr : v.receiver o.own name mt = some m)
    (hn : ∀ f, v.face ≠ .boxFn false f) (hu : a.usable i v m = true) :
    a.step S (.enter i name args mt) = ({ a with acts := a.acts ++ [some ⟨i, v.obj, name, args, m⟩] }, .unit) ∧
    Abs.step S { a with acts := a.acts ++ [some ⟨i, v.obj, name, args, m⟩] } (.leave a.acts.length) =
      ({ a with objs := a.objs.set v.obj { o with st := (S.call o.ty name o.st args).1 }, acts := a.acts ++ [none] },
        .returned (S.call o.ty name o.st args).2) := by
  constructor
  · simp only [Abs.step, hv, ho, hr, hu, if_true]
  · have : Abs.act { a with acts := a.acts ++ [some ⟨i, v.obj, name, args, m⟩] } a.acts.length
        = some ⟨i, v.obj, name, args, m⟩ := by simp [Abs.act]
    simp only [Abs.step, this, ho]
    simp

/-- One complete call, in the code. -/
theorem call_conc {a : Abs σ V} (W : WF a) {i : Nat} {v : AVal} {o : AObj σ} {name : String} {mt m : Bool} (args : List V)
    (hv : a.var i = some v) (ho : a.objs[v.obj]? = some o) (hr : v.receiver o.own name mt = some m)
    (hn : ∀ f, v.face ≠ .boxFn false f) (hu : a.usable i v m = true) :
    ∃ s1 s2, step S (conc a) (.enter i name args mt) = .ok (s1, .unit) ∧
      step S s1 (.leave (conc a).acts.length) = .ok (s2, .returned (S.call o.ty name o.st args).2) ∧
      s2.heap = (conc a).heap.set v.obj { concObj a v.obj o with st := (S.call o.ty name o.st args).1 } ∧
      s2.vars = (conc a).vars := by
  obtain ⟨e1, e2⟩ := abs_call S args hv ho hr hn hu
  obtain ⟨f1, W1⟩ := step_ok S W (.enter i name args mt)
  rw [e1] at f1 W1
  obtain ⟨f2, W2⟩ := step_ok S W1 (.leave a.acts.length)
  rw [e2] at f2 W2
  refine ⟨_, _, f1, by rw [show (conc a).acts.length = a.acts.length by simp [conc]]; exact f2, ?_, ?_⟩
  · have := congrArg State.heap (conc_setObj ho (S.call o.ty name o.st args).1)
    exact this
  · have := congrArg State.vars (conc_setObj ho (S.call o.ty name o.st args).1)
    exact this

/-! ## C31 -/

/-- C31, C32, C33: whatever a program does with closures and virtual pointers (make, convert, borrow,
clone, begin and end calls in any order, drop), it never runs into undefined behaviour, and observes
(results of calls, panics, and which object is destroyed when and in which state) exactly what the
specification machine says. -/
theorem C31_history (ops : List (Op σ V)) :
    ∃ s, run S .init ops = .ok (s, (Abs.run S .init ops).2) :=
  ⟨_, (run_ok S WF.init ops).1⟩

/-- C31: an object's reference count is the number of variables owning it.  (The exception is a foreign
`BoxDynFnMut` without `free`, which nobody can release.) -/
theorem C31_counts {s : State σ V} (h : Reach S s) {k : Nat} {o : Obj σ} (hk : s.heap[k]? = some o) :
    o.cnt = s.ownersOf k ∨ (o.own = .foreign ∧ s.ownersOf k = 0) := by
  obtain ⟨a, W, rfl⟩ := h.abs
  rw [ownersOf_conc]
  rw [conc_heap, Option.map_eq_some_iff] at hk
  obtain ⟨p, hp, rfl⟩ := hk
  cases hl : p.leaked
  · left; simp [concObj, hl]
  · right; exact ⟨(W.leak k p hp hl).2, (W.leak k p hp hl).1⟩

/-- C31, C32, C33: dropping a variable destroys the object if and only if the variable is its last
owner; the state destroyed is the object's current one. -/
theorem C31_released_with_last {s s' : State σ V} (h : Reach S s) {i : Nat} {v : Var} {x : Option σ}
    (hv : s.var i = some v) (hd : step S s (.drop i) = .ok (s', .dropped x)) :
    ∃ o o', s.heap[v.val.obj]? = some o ∧ 0 < o.cnt ∧ s'.heap[v.val.obj]? = some o' ∧
      (x = some o.st ∨ x = none) ∧ (o'.cnt = 0 ↔ x ≠ none) ∧
      (x ≠ none ↔ v.lt = none ∧ ∀ j w, j ≠ i → s.var j = some w → w.lt = none → w.val.obj ≠ v.val.obj) := by
  obtain ⟨a, W, rfl⟩ := h.abs
  obtain ⟨w, hw, -, hobj, hlt⟩ := var_conc hv
  obtain ⟨o, ho, -⟩ := W.obj i w hw
  obtain ⟨f1, W1⟩ := step_ok S W (.drop i)
  rw [hd] at f1
  simp only [Except.ok.injEq, Prod.mk.injEq] at f1
  obtain ⟨g1, g2⟩ := f1
  have hstep : a.step S (.drop i) = (a.setVar i none,
      .dropped (if w.borrow.isNone && (a.setVar i none).owners w.obj == 0 then some o.st else none)) := by
    revert g2
    simp only [Abs.step, hw, ho]
    split
    · intro h; cases h
    · split
      · intro h; cases h
      · intro _; rfl
  rw [hstep] at g1 g2 W1
  simp only [Out.dropped.injEq] at g2
  subst g1
  have hl := W.notLeaked hw ho
  have hlive := W.live hw
  have hdel := owners_del hw w.obj
  have hothers : (a.setVar i none).owners w.obj = 0 ↔
      ∀ j u, j ≠ i → (conc a).var j = some u → u.lt = none → u.val.obj ≠ w.obj := by
    constructor
    · intro h0 j u hj hu hul heq
      obtain ⟨u', hu', -, e1, e2⟩ := var_conc hu
      have : 0 < (a.setVar i none).owners w.obj :=
        owners_pos.2 ⟨j, u', by rw [var_setVar hw, if_neg (Ne.symm hj)]; exact hu', by rw [← e1, heq], by rw [← e2, hul]⟩
      omega
    · intro hall
      rcases Nat.eq_zero_or_pos ((a.setVar i none).owners w.obj) with h | h
      · exact h
      · obtain ⟨j, u, h1, h2, h3⟩ := owners_pos.1 h
        rw [var_setVar hw] at h1
        split at h1
        · cases h1
        · rename_i hij
          exact absurd (by rw [concVar_obj]; exact h2) (hall j (concVar a.sig u) (Ne.symm hij) (by rw [conc_var, h1]; rfl) (by rw [concVar_lt]; exact h3))
  refine ⟨concObj a w.obj o, concObj (a.setVar i none) w.obj o, by rw [hobj]; exact heap_conc ho, ?_,
    by rw [hobj]; exact heap_conc (a := a.setVar i none) ho, ?_, ?_, ?_⟩
  · simp [concObj]; omega
  · rw [g2]; split
    · exact .inl rfl
    · exact .inr rfl
  · rw [g2]
    simp only [concObj, hl, Bool.toNat_false, Nat.add_zero]
    cases hb : w.borrow with
    | none => by_cases h0 : (a.setVar i none).owners w.obj = 0 <;> simp [h0]
    | some ex =>
      simp only [AVal.own1, hb, reduceCtorEq, and_false, if_false] at hdel
      simp; omega
  · rw [g2, hlt, hobj, ← hothers]
    cases hb : w.borrow with
    | none => by_cases h0 : (a.setVar i none).owners w.obj = 0 <;> simp [h0]
    | some ex => simp

/-- C31: a call of an `ArcDynFn` reaches the closure which it designates (still alive), with the
arguments given; it returns what the closure returns. -/
theorem C31_call {s : State σ V} (h : Reach S s) {i : Nat} {f : ArcFn} {lt : Option Bool} (args : List V) (mt : Bool)
    (hv : s.var i = some ⟨.arcFn f, lt⟩) (hu : s.usable i ⟨.arcFn f, lt⟩ false = true) :
    ∃ o s1 s2, s.heap[f.env]? = some o ∧ 0 < o.cnt ∧
      step S s (.enter i "" args mt) = .ok (s1, .unit) ∧
      step S s1 (.leave s.acts.length) = .ok (s2, .returned (S.call o.ty "" o.st args).2) ∧
      s2.heap = s.heap.set f.env { o with st := (S.call o.ty "" o.st args).1 } ∧ s2.vars = s.vars := by
  obtain ⟨a, W, rfl⟩ := h.abs
  obtain ⟨w, hw, e, hobj, hlt⟩ := var_conc hv
  obtain ⟨o, ho, hf⟩ := W.obj i w hw
  rw [e, conc_usable] at hu
  rw [concVar_eq ho] at e
  have hface : ∃ c, w.face = .arcFn c := by
    simp only [Var.mk.injEq] at e
    have e := e.1
    unfold concVal at e
    split at e
    · cases ho' : o.own <;> simp [ho'] at e
    · rename_i c hc; exact ⟨c, hc⟩
    all_goals cases e
  obtain ⟨c, hc⟩ := hface
  have hobj : f.env = w.obj := hobj
  obtain ⟨s1, s2, h1, h2, h3, h4⟩ := call_conc S W (name := "") (mt := mt) (m := false) args hw ho
    (by simp [AVal.receiver, hc]) (by simp [hc]) hu
  have hl := W.live hw
  exact ⟨concObj a w.obj o, s1, s2, by rw [hobj]; exact heap_conc ho, by simp [concObj]; omega, h1, h2,
    by rw [hobj]; exact h3, h4⟩

/-- C31: cloning an `ArcDynFn` whose `retain` is null panics, without any effect. -/
theorem C31_null_retain {s : State σ V} {i : Nat} {f : ArcFn} {lt : Option Bool} (hv : s.var i = some ⟨.arcFn f, lt⟩)
    (hu : s.usable i ⟨.arcFn f, lt⟩ false = true) (hr : f.retain = none) :
    step S s (.clone i) = .ok (s, .panicked) := by
  simp [step, State.clone, hv, hu, hr]

/-- C31: cloning any other `ArcDynFn` gives a copy that shares the closure, and adds one to its count. -/
theorem C31_clone {s : State σ V} (h : Reach S s) {i : Nat} {f : ArcFn} {lt : Option Bool} {g : FnPtr}
    (hv : s.var i = some ⟨.arcFn f, lt⟩) (hu : s.usable i ⟨.arcFn f, lt⟩ false = true) (hr : f.retain = some g) :
    ∃ o, s.heap[f.env]? = some o ∧
      step S s (.clone i) = .ok (s.push (s.heap.set f.env { o with cnt := o.cnt + 1 }) (.arcFn f) none, .unit) := by
  obtain ⟨a, W, rfl⟩ := h.abs
  obtain ⟨w, hw, e, hobj, hlt⟩ := var_conc hv
  obtain ⟨o, ho, hf⟩ := W.obj i w hw
  have hu' := hu
  rw [e, conc_usable] at hu'
  rw [concVar_eq ho] at e
  simp only [Var.mk.injEq] at e
  obtain ⟨e, e'⟩ := e
  obtain ⟨k, fc, b⟩ := w
  have hface : ∃ c, fc = .arcFn c := by
    unfold concVal at e
    split at e
    · cases ho' : o.own <;> simp [ho'] at e
    · rename_i c hc; exact ⟨c, hc⟩
    all_goals cases e
  obtain ⟨c, rfl⟩ := hface
  have hb : b = none := by simp only [FaceOk] at hf; exact hf.2
  subst hb
  simp only [concVal, Val.arcFn.injEq] at e
  have hc : c = true := by
    cases c
    · rw [e] at hr
      have : o.own ≠ .arc := by intro h; simp [FaceOk, h] at hf
      simp [this, ArcFn.foreign] at hr
    · rfl
  subst hc
  have hobj : f.env = k := hobj
  obtain ⟨f1, -⟩ := step_ok S W (.clone i)
  have hs : a.step S (.clone i) = (a.push ⟨k, .arcFn true, none⟩, .unit) := by
    simp [Abs.step, hw, ho, hu']
  rw [hs] at f1
  refine ⟨concObj a k o, by rw [hobj]; exact heap_conc ho, ?_⟩
  rw [f1, conc_push ho rfl, hobj, e]
  rfl

/-! ## C32 -/

/-- The results of running the closure body on a list of argument lists, each call with the state the
previous one left. -/
def thread (t : Nat) (name : String) (st : σ) : List (List V) → σ × List V
  | [] => (st, [])
  | args :: rest =>
      let r := S.call t name st args
      let r' := thread t name r.1 rest
      (r'.1, r.2 :: r'.2)

/-- The program that calls through the variable `i` with each of the argument lists in turn. -/
def callAll (i : Nat) (name : String) (c : Nat) : List (List V) → List (Op σ V)
  | [] => []
  | args :: rest => .enter i name args true :: .leave c :: callAll i name (c + 1) rest

theorem abs_callAll {a : Abs σ V} {i : Nat} {v : AVal} {o : AObj σ} {name : String} {m : Bool} (argss : List (List V))
    (hv : a.var i = some v) (ho : a.objs[v.obj]? = some o) (hr : v.receiver o.own name true = some m)
    (hn : ∀ f, v.face ≠ .boxFn false f) (hu : a.usable i v m = true) :
    ∃ acts, a.run S (callAll i name a.acts.length argss) =
      ({ a with objs := a.objs.set v.obj { o with st := (thread S o.ty name o.st argss).1 }, acts := acts },
        (thread S o.ty name o.st argss).2.flatMap fun r => [.unit, .returned r]) := by
  induction argss generalizing a o with
  | nil =>
    refine ⟨a.acts, ?_⟩
    have : a.objs.set v.obj o = a.objs := by
      obtain ⟨h1, h2⟩ := List.getElem?_eq_some_iff.1 ho
      rw [← h2]; exact List.set_getElem_self h1
    simp [callAll, Abs.run, thread, this]
  | cons args rest ih =>
    obtain ⟨e1, e2⟩ := abs_call S args hv ho hr hn hu
    have hl : v.obj < a.objs.length := (List.getElem?_eq_some_iff.1 ho).1
    obtain ⟨acts, e3⟩ := ih (a := { a with objs := a.objs.set v.obj { o with st := (S.call o.ty name o.st args).1 }, acts := a.acts ++ [none] })
      (o := { o with st := (S.call o.ty name o.st args).1 }) hv (by simp [hl]) hr (by
        rw [usable_iff] at hu ⊢
        refine ⟨fun c x hx => ?_, hu.2⟩
        have hx : ((a.acts ++ [none])[c]?).join = some x := hx
        rw [join_push'] at hx
        split at hx
        · cases hx
        · exact hu.1 c x hx)
    refine ⟨acts, ?_⟩
    simp only [callAll, Abs.run, e1, e2]
    simp only [List.length_append, List.length_singleton] at e3
    rw [e3]
    simp [thread]

/-- C32: successive calls of a `BoxDynFnMut` reach its closure in order, each with the state left by the
previous one, and return its results.  (Calls interleaved with other things are covered by
`C31_history`.) -/
theorem C32_threaded {s : State σ V} (h : Reach S s) {i : Nat} {f : BoxFn} {lt : Option Bool} {g : FnPtr}
    (hv : s.var i = some ⟨.boxFn f, lt⟩) (hu : s.usable i ⟨.boxFn f, lt⟩ true = true) (hc : f.call = some g)
    (argss : List (List V)) :
    ∃ o s', s.heap[f.env]? = some o ∧ 0 < o.cnt ∧
      run S s (callAll i "" s.acts.length argss) =
        .ok (s', (thread S o.ty "" o.st argss).2.flatMap fun r => [.unit, .returned r]) ∧
      s'.heap = s.heap.set f.env { o with st := (thread S o.ty "" o.st argss).1 } ∧ s'.vars = s.vars := by
  obtain ⟨a, W, rfl⟩ := h.abs
  obtain ⟨w, hw, e, hobj, hlt⟩ := var_conc hv
  obtain ⟨o, ho, hf⟩ := W.obj i w hw
  rw [e, conc_usable] at hu
  rw [concVar_eq ho] at e
  simp only [Var.mk.injEq] at e
  obtain ⟨e, e'⟩ := e
  have hface : ∃ c r, w.face = .boxFn c r := by
    unfold concVal at e
    split at e
    · cases ho' : o.own <;> simp [ho'] at e
    · cases e
    · rename_i c r hc; exact ⟨c, r, hc⟩
    all_goals cases e
  obtain ⟨c, r, hcr⟩ := hface
  have hct : c = true := by
    cases c
    · simp only [concVal, hcr, Val.boxFn.injEq] at e
      have : o.own ≠ .box := by intro h; simp [FaceOk, h, hcr] at hf
      simp [e, this, BoxFn.foreign] at hc
    · rfl
  subst hct
  have hobj : f.env = w.obj := hobj
  have hl := W.live hw
  obtain ⟨acts, e1⟩ := abs_callAll S argss hw ho (by simp [AVal.receiver, hcr]) (by simp [hcr]) hu (name := "") (m := true)
  obtain ⟨f1, -⟩ := run_ok S W (callAll i "" a.acts.length argss)
  rw [e1] at f1
  refine ⟨concObj a w.obj o, _, by rw [hobj]; exact heap_conc ho, by simp [concObj]; omega,
    by rw [show (conc a).acts.length = a.acts.length by simp [conc]]; exact f1, ?_, ?_⟩
  · rw [hobj]
    exact congrArg State.heap (conc_setObj ho (thread S o.ty "" o.st argss).1)
  · have := congrArg State.vars (conc_setObj ho (thread S o.ty "" o.st argss).1)
    exact this

/-- C32: dropping a `BoxDynFnMut` that has a `free` destroys its closure, in its current state. -/
theorem C32_freed {s : State σ V} (h : Reach S s) {i : Nat} {f : BoxFn} {lt : Option Bool} {g : FnPtr}
    (hv : s.var i = some ⟨.boxFn f, lt⟩) (hu : s.usable i ⟨.boxFn f, lt⟩ true = true) (hc : f.free = some g) :
    ∃ o s', s.heap[f.env]? = some o ∧ 0 < o.cnt ∧ step S s (.drop i) = .ok (s', .dropped (some o.st)) ∧
      s'.heap = s.heap.set f.env { o with cnt := 0 } := by
  obtain ⟨a, W, rfl⟩ := h.abs
  obtain ⟨w, hw, e, hobj, hlt⟩ := var_conc hv
  obtain ⟨o, ho, hf⟩ := W.obj i w hw
  rw [e, conc_usable] at hu
  rw [concVar_eq ho] at e
  simp only [Var.mk.injEq] at e
  obtain ⟨e, e'⟩ := e
  have hface : ∃ c r, w.face = .boxFn c r := by
    unfold concVal at e
    split at e
    · cases ho' : o.own <;> simp [ho'] at e
    · cases e
    · rename_i c r hc; exact ⟨c, r, hc⟩
    all_goals cases e
  obtain ⟨c, r, hcr⟩ := hface
  have hrt : r = true := by
    cases r
    · simp only [concVal, hcr, Val.boxFn.injEq] at e
      have : o.own ≠ .box := by intro h; simp [FaceOk, h, hcr] at hf
      simp [e, this, BoxFn.foreign] at hc
    · rfl
  subst hrt
  have hb : w.borrow = none := by unfold FaceOk at hf; rw [hcr] at hf; exact hf.2
  have hobj : f.env = w.obj := hobj
  have hl := W.live hw
  have h0 : (a.setVar i none).owners w.obj = 0 := by
    rcases Nat.eq_zero_or_pos ((a.setVar i none).owners w.obj) with h | h
    · exact h
    · obtain ⟨j, u, h1, h2, h3⟩ := owners_pos.1 h
      rw [var_setVar hw] at h1
      split at h1
      · cases h1
      · rename_i hij
        have := W.alias i j w u o hij hw h1 h2.symm hb h3 ho
        simp [canMut, hcr] at this
  have hdel := owners_del hw w.obj
  simp only [AVal.own1, hb, and_self, if_true, h0] at hdel
  have hlk := W.notLeaked hw ho
  obtain ⟨f1, -⟩ := step_ok S W (.drop i)
  have hs : a.step S (.drop i) = (a.setVar i none, .dropped (some o.st)) := by
    simp only [Abs.step, hw, ho, hu, hcr]
    simp [hb, h0]
  rw [hs] at f1
  refine ⟨concObj a w.obj o, _, by rw [hobj]; exact heap_conc ho, by simp [concObj]; omega, f1, ?_⟩
  rw [conc_del hw ho hb, hobj]
  simp [State.set, concObj, ← hdel, hlk]

/-- C32: calling a `BoxDynFnMut` whose `call` is null panics, without any effect; dropping one whose
`free` is null panics, and releases nothing. -/
theorem C32_null {s : State σ V} {i : Nat} {f : BoxFn} {lt : Option Bool} (hv : s.var i = some ⟨.boxFn f, lt⟩)
    (hu : s.usable i ⟨.boxFn f, lt⟩ true = true) :
    (f.call = none → ∀ args mt, step S s (.enter i "" args mt) = .ok (s, .panicked)) ∧
    (f.free = none → ∃ s', step S s (.drop i) = .ok (s', .panicked) ∧ s'.heap = s.heap) := by
  constructor
  · intro h args mt
    simp [step, hv, Val.callee, h, hu]
  · intro h
    exact ⟨s.set s.heap i none, by simp [step, State.drop, hv, hu, h], rfl⟩

/-! ## C33 -/

/-- C33: the object behind a variable (owning it or borrowing it) is alive. -/
theorem C33_alive {s : State σ V} (h : Reach S s) {i : Nat} {v : Var} (hv : s.var i = some v) :
    ∃ o, s.heap[v.val.obj]? = some o ∧ 0 < o.cnt := by
  obtain ⟨a, W, rfl⟩ := h.abs
  obtain ⟨w, hw, e, hobj, hlt⟩ := var_conc hv
  obtain ⟨o, ho, hf⟩ := W.obj i w hw
  have := W.live hw
  exact ⟨_, by rw [hobj]; exact heap_conc ho, by simp [concObj]; omega⟩

/-- C33: dropping a `VirtualPtr` made from a reference leaves memory as it is. -/
theorem C33_borrowed {s s' : State σ V} (h : Reach S s) {i : Nat} {v : Var} {x : Option σ} {ex : Bool}
    (hv : s.var i = some v) (hb : v.lt = some ex) (hd : step S s (.drop i) = .ok (s', .dropped x)) :
    x = none ∧ s'.heap = s.heap := by
  obtain ⟨a, W, rfl⟩ := h.abs
  obtain ⟨w, hw, e, hobj, hlt⟩ := var_conc hv
  obtain ⟨o, ho, hf⟩ := W.obj i w hw
  rw [hb] at hlt
  obtain ⟨f1, W1⟩ := step_ok S W (.drop i)
  rw [hd] at f1
  simp only [Except.ok.injEq, Prod.mk.injEq] at f1
  obtain ⟨g1, g2⟩ := f1
  have hstep : a.step S (.drop i) = (a.setVar i none, .dropped none) := by
    revert g2
    simp only [Abs.step, hw, ho]
    split
    · intro h; cases h
    · split
      · intro h; cases h
      · intro _; simp [← hlt]
  rw [hstep] at g1 g2
  refine ⟨by simpa using g2, ?_⟩
  rw [g1, conc_del_ref hw (by rw [← hlt]; simp)]
  rfl

/-- C33: when no variable is left, every object has been destroyed (but for foreign closures that have
no `free`). -/
theorem C33_leak_free {s : State σ V} (h : Reach S s) (hv : ∀ i, s.var i = none) {k : Nat} {o : Obj σ}
    (hk : s.heap[k]? = some o) (ho : o.own ≠ .foreign) : o.cnt = 0 := by
  rcases C31_counts S h hk with h1 | h1
  · rw [h1, State.ownersOf, List.countP_eq_zero]
    intro x hx
    cases x with
    | none => simp
    | some v =>
      obtain ⟨i, hi⟩ := List.mem_iff_getElem?.1 hx
      have := hv i
      simp [State.var, hi] at this
  · exact absurd h1.1 ho

/-- C33: cloning a clonable `VirtualPtr` made from a `Box` makes a new object, the `Clone` of the old one
in its current state, and leaves all other objects alone; the two share nothing. -/
theorem C33_deep_clone {s : State σ V} (h : Reach S s) {i : Nat} {p : VPtr} {d : Decl} {lt : Option Bool} {o : Obj σ}
    (hv : s.var i = some ⟨.vptr p d, lt⟩) (hu : s.usable i ⟨.vptr p d, lt⟩ false = true) (hd : d.clone = true)
    (hk : s.heap[p.ptr]? = some o) (ho : o.own = .box) :
    step S s (.clone i) = .ok (s.push (s.heap ++ [⟨o.ty, .box, S.clone o.ty o.st, 1⟩]) (.vptr ⟨s.heap.length, p.vtable⟩ d) none, .unit) := by
  obtain ⟨a, W, rfl⟩ := h.abs
  obtain ⟨w, hw, e, hobj, hlt⟩ := var_conc hv
  obtain ⟨q, hq, hf⟩ := W.obj i w hw
  rw [e, conc_usable] at hu
  rw [concVar_eq hq] at e
  simp only [Var.mk.injEq] at e
  obtain ⟨e, e'⟩ := e
  have hobj : p.ptr = w.obj := hobj
  rw [hobj, heap_conc hq] at hk
  cases hk
  obtain ⟨k, fc, b⟩ := w
  have hob : q.own = .box := ho
  clear ho
  have hface : fc = .vptr d := by
    unfold concVal at e
    split at e
    · rw [hob] at e; cases e
    · cases e
    · cases e
    · cases e
    · rename_i d' hd'
      simp only at hd'
      rw [hd']
      cases e; rfl
  subst hface
  have hb : b = none := by
    simp only [FaceOk] at hf
    rcases hf with ⟨_, _, h, _⟩ | h
    · rw [hob] at h; cases h
    · exact h.1
  subst hb
  obtain ⟨f1, -⟩ := step_ok S W (.clone i)
  have hs : a.step S (.clone i) = (a.create q.ty .box (S.clone q.ty q.st) (.vptr d), .unit) := by
    simp [Abs.step, hw, hq, hu, hd, hob]
  rw [hs, conc_create W] at f1
  rw [f1]
  simp only [concVal, Val.vptr.injEq] at e
  simp [e.1, concVal, concObj, hob, intoVirtualPtr, srcOf]

/-- C33: cloning one made from an `Rc` or `Arc` shares the object, and adds one to its count. -/
theorem C33_shared_clone {s : State σ V} (h : Reach S s) {i : Nat} {p : VPtr} {d : Decl} {lt : Option Bool} {o : Obj σ}
    (hv : s.var i = some ⟨.vptr p d, lt⟩) (hu : s.usable i ⟨.vptr p d, lt⟩ false = true) (hd : d.clone = true)
    (hk : s.heap[p.ptr]? = some o) (ho : o.own = .rc ∨ o.own = .arc) :
    step S s (.clone i) = .ok (s.push (s.heap.set p.ptr { o with cnt := o.cnt + 1 }) (.vptr p d) none, .unit) := by
  obtain ⟨a, W, rfl⟩ := h.abs
  obtain ⟨w, hw, e, hobj, hlt⟩ := var_conc hv
  obtain ⟨q, hq, hf⟩ := W.obj i w hw
  rw [e, conc_usable] at hu
  rw [concVar_eq hq] at e
  simp only [Var.mk.injEq] at e
  obtain ⟨e, e'⟩ := e
  have hobj : p.ptr = w.obj := hobj
  rw [hobj, heap_conc hq] at hk
  cases hk
  obtain ⟨k, fc, b⟩ := w
  have hob : q.own = .rc ∨ q.own = .arc := ho
  clear ho
  have hface : fc = .vptr d := by
    unfold concVal at e
    split at e
    · rcases hob with hob | hob <;> rw [hob] at e <;> cases e
    · cases e
    · cases e
    · cases e
    · rename_i d' hd'
      simp only at hd'
      rw [hd']
      cases e; rfl
  subst hface
  have hb : b = none := by
    simp only [FaceOk] at hf
    rcases hf with ⟨_, _, h, _⟩ | h
    · rcases hob with hob | hob <;> rw [hob] at h <;> cases h
    · exact h.1
  subst hb
  obtain ⟨f1, -⟩ := step_ok S W (.clone i)
  have hs : a.step S (.clone i) = (a.push ⟨k, .vptr d, none⟩, .unit) := by
    rcases hob with hob | hob <;> simp [Abs.step, hw, hq, hu, hd, hob]
  rw [hs, conc_push hq rfl] at f1
  rw [f1, hobj, e]

/-! ## C35 -/

/-- C35: the arguments of a virtual call reach the callee unchanged and in the same order, for any
number of them. -/
theorem C35_arguments (args : List V) : (forwardArgs args).bind thunkArgs = some args := by
  simp [forwardArgs_eq, thunkArgs_eq]

/-- C35: calling the `j`-th method of a `VirtualPtr` runs the method of that name of the type of the
object inside, on that object, with the arguments given, and returns its result.  (Rust rejects traits
with two methods of the same name.) -/
theorem C35_dispatch {s : State σ V} (h : Reach S s) {i j : Nat} {p : VPtr} {d : Decl} {lt : Option Bool}
    {name : String} {m : Bool} (hv : s.var i = some ⟨.vptr p d, lt⟩) (hj : d.methods[j]? = some (name, m))
    (hn : (d.methods.map (·.1)).Nodup) (hu : s.usable i ⟨.vptr p d, lt⟩ m = true) (args : List V) (mt : Bool) :
    ∃ o s1 s2, s.heap[p.ptr]? = some o ∧ 0 < o.cnt ∧
      step S s (.enter i name args mt) = .ok (s1, .unit) ∧
      step S s1 (.leave s.acts.length) = .ok (s2, .returned (S.call o.ty name o.st args).2) ∧
      s2.heap = s.heap.set p.ptr { o with st := (S.call o.ty name o.st args).1 } ∧ s2.vars = s.vars := by
  obtain ⟨a, W, rfl⟩ := h.abs
  obtain ⟨w, hw, e, hobj, hlt⟩ := var_conc hv
  obtain ⟨o, ho, hf⟩ := W.obj i w hw
  rw [e, conc_usable] at hu
  rw [concVar_eq ho] at e
  have hface : w.face = .vptr d := by
    simp only [Var.mk.injEq] at e
    have e := e.1
    unfold concVal at e
    split at e
    · cases ho' : o.own <;> simp [ho'] at e
    · cases e
    · cases e
    · cases e
    · rename_i d' hd'
      rw [hd']
      cases e; rfl
  have hfind : d.methods.find? (·.1 == name) = some (name, m) := by
    have : ∀ (l : List (String × Bool)) (j : Nat), l[j]? = some (name, m) → (l.map (·.1)).Nodup →
        l.find? (·.1 == name) = some (name, m) := by
      intro l
      induction l with
      | nil => intro j hj; simp at hj
      | cons x l ih =>
        intro j hj hn
        simp only [List.map_cons, List.nodup_cons] at hn
        cases j with
        | zero => simp at hj; subst hj; simp
        | succ j =>
          have hj : l[j]? = some (name, m) := by simpa using hj
          have hx : x.1 ≠ name := by
            intro e
            apply hn.1
            rw [e]
            exact List.mem_map.2 ⟨(name, m), List.mem_of_getElem? hj, rfl⟩
          rw [List.find?_cons]
          have : (x.1 == name) = false := by simp [hx]
          rw [this]
          exact ih j hj hn.2
    exact this _ j hj hn
  have hobj : p.ptr = w.obj := hobj
  obtain ⟨s1, s2, h1, h2, h3, h4⟩ := call_conc S W (name := name) (mt := mt) (m := m) args hw ho
    (by simp [AVal.receiver, hface, hfind]) (by simp [hface]) hu
  have hl := W.live hw
  exact ⟨concObj a w.obj o, s1, s2, by rw [hobj]; exact heap_conc ho, by simp [concObj]; omega, h1, h2,
    by rw [hobj]; exact h3, h4⟩

/-! ### Examples

Objects of type 0 are counters: `""` adds its arguments and returns the new value, `"get"` returns it.
Objects of type 1 answer `""` and `"get"` with the number of arguments, and count the calls. -/
def demo : Sem Nat Nat where
  call t name st args :=
    if t = 0 then (if name = "get" then (st, st) else (st + args.sum, st + args.sum))
    else (st + 1, args.length)
  clone _ st := st

/-- `trait Counter { fn add(&mut self, …); fn get(&self) }` -/
def counter : Decl := ⟨[("add", true), ("get", false)], false, false, false⟩
/-- `#[clonable] trait Get : Send + Sync { fn get(&self) }` -/
def getter : Decl := ⟨[("get", false)], true, true, true⟩
/-- `#[clonable] trait Local { fn get(&self) }` -/
def localGet : Decl := ⟨[("add", true), ("get", false)], true, false, false⟩

-- Shared closures: the count goes up and down, overlapping calls, last drop destroys.
example : (run demo .init [.newArc 0 5, .clone 0, .toArcFn 0, .clone 0, .enter 0 "" [1, 2] false, .enter 2 "" [10] false,
      .leave 1, .drop 0, .leave 0, .drop 0, .drop 2, .drop 1]).map Prod.snd =
    .ok [.unit, .unit, .unit, .unit, .unit, .unit, .returned 15, .illTyped, .returned 18, .dropped none,
      .dropped none, .dropped (some 18)] := by decide +kernel

-- Foreign closures, without and with `retain`.
example : (run demo .init [.foreignArc 1 0 false, .clone 0, .enter 0 "" [4] false, .leave 0, .drop 0,
      .foreignArc 1 7 true, .clone 1, .drop 1, .drop 2]).map Prod.snd =
    .ok [.unit, .panicked, .unit, .returned 1, .dropped (some 1), .unit, .unit, .dropped none, .dropped (some 7)] := by
  decide +kernel

-- Boxed closures; null functions.
example : (run demo .init [.newBox 0 1, .toBoxFn 0, .enter 0 "" [1] true, .leave 0, .enter 0 "" [2] true, .leave 1, .drop 0,
      .foreignBox 0 3 false true, .enter 1 "" [] true, .drop 1, .foreignBox 0 4 true false, .drop 2]).map Prod.snd =
    .ok [.unit, .unit, .unit, .returned 2, .unit, .returned 4, .dropped (some 4), .unit, .panicked, .dropped (some 3),
      .unit, .panicked] := by decide +kernel

-- Virtual pointers: from a `Box` (deep clone), an `Arc` (shared), a reference (nothing released).
example : (run demo .init [.newBox 0 1, .toVptr 0 localGet, .clone 0, .enter 0 "add" [5] true, .leave 0, .enter 1 "get" [] false,
      .leave 1, .drop 0, .drop 1, .newArc 0 8, .toVptr 2 getter, .clone 2, .drop 2, .drop 3,
      .newStack 0 2, .refVptr 4 counter true, .enter 5 "add" [1] true, .leave 2, .drop 4, .drop 5, .drop 4]).map Prod.snd =
    .ok [.unit, .unit, .unit, .unit, .returned 6, .unit, .returned 1, .dropped (some 6), .dropped (some 1),
      .unit, .unit, .unit, .dropped none, .dropped (some 8),
      .unit, .unit, .unit, .returned 3, .illTyped, .dropped none, .dropped (some 3)] := by decide +kernel


-- The hypotheses of C31_counts, C31_released_with_last, C31_call and C31_clone.
example : ∃ s f g, Reach demo s ∧ s.var 1 = some ⟨.arcFn f, none⟩ ∧ s.usable 1 ⟨.arcFn f, none⟩ false = true ∧
    f.retain = some g ∧ s.heap[f.env]? = some ⟨0, .arc, 6, 2⟩ ∧ s.ownersOf f.env = 2 ∧
    (∃ s', step demo s (.drop 1) = .ok (s', .dropped none)) ∧
    (step demo s (.drop 1) >>= fun r => step demo r.1 (.drop 0)).map Prod.snd = .ok (.dropped (some 6)) := by
  refine ⟨_, _, _, ⟨[.newArc 0 5, .toArcFn 0, .clone 0, .enter 0 "" [1] false, .leave 0], _, rfl⟩, rfl, ?_, rfl, ?_, ?_, ⟨_, rfl⟩, ?_⟩
  all_goals decide +kernel
-- Those of C31_null_retain.
example : ∃ s f, Reach demo s ∧ s.var 0 = some ⟨.arcFn f, none⟩ ∧ s.usable 0 ⟨.arcFn f, none⟩ false = true ∧ f.retain = none := by
  refine ⟨_, _, ⟨[.foreignArc 0 5 false], _, rfl⟩, rfl, ?_, rfl⟩
  decide +kernel
-- Those of C32_threaded and C32_freed; three calls.
example : ∃ s f c g, Reach demo s ∧ s.var 0 = some ⟨.boxFn f, none⟩ ∧ s.usable 0 ⟨.boxFn f, none⟩ true = true ∧
    f.call = some c ∧ f.free = some g ∧
    (run demo s (callAll 0 "" s.acts.length [[1], [2, 3], []])).map Prod.snd =
      .ok [.unit, .returned 6, .unit, .returned 11, .unit, .returned 11] := by
  refine ⟨_, _, _, _, ⟨[.newBox 0 5, .toBoxFn 0], _, rfl⟩, rfl, ?_, rfl, rfl, ?_⟩
  all_goals decide +kernel
-- Those of C32_null.
example : ∃ s f, Reach demo s ∧ s.var 0 = some ⟨.boxFn f, none⟩ ∧ s.usable 0 ⟨.boxFn f, none⟩ true = true ∧
    f.call = none ∧ f.free = none := by
  refine ⟨_, _, ⟨[.foreignBox 0 5 false false], _, rfl⟩, rfl, ?_, rfl, rfl⟩
  decide +kernel
-- Those of C33_borrowed and C35_dispatch.
example : ∃ s p ex, Reach demo s ∧ s.var 1 = some ⟨.vptr p counter, some ex⟩ ∧ s.usable 1 ⟨.vptr p counter, some ex⟩ true = true ∧
    counter.methods[0]? = some ("add", true) ∧ (counter.methods.map (·.1)).Nodup ∧
    (∃ s', step demo s (.drop 1) = .ok (s', .dropped none)) := by
  refine ⟨_, _, _, ⟨[.newStack 0 5, .refVptr 0 counter true], _, rfl⟩, rfl, ?_, ?_, ?_, ⟨_, rfl⟩⟩
  all_goals decide +kernel
-- Those of C33_leak_free.
example : ∃ s, Reach demo s ∧ (∀ i, s.var i = none) ∧ s.heap = [⟨0, .rc, 5, 0⟩, ⟨1, .box, 0, 0⟩] := by
  refine ⟨_, ⟨[.newRc 0 5, .clone 0, .newBox 1 0, .drop 0, .drop 1, .drop 2], _, rfl⟩, ?_, ?_⟩
  · intro i
    match i with
    | 0 => rfl
    | 1 => rfl
    | 2 => rfl
    | _ + 3 => rfl
  · decide +kernel
-- Those of C33_deep_clone and C33_shared_clone.
example : ∃ s p, Reach demo s ∧ s.var 0 = some ⟨.vptr p localGet, none⟩ ∧ s.usable 0 ⟨.vptr p localGet, none⟩ false = true ∧
    localGet.clone = true ∧ s.heap[p.ptr]? = some ⟨0, .box, 5, 1⟩ := by
  refine ⟨_, _, ⟨[.newBox 0 5, .toVptr 0 localGet], _, rfl⟩, rfl, ?_, rfl, ?_⟩
  all_goals decide +kernel
example : ∃ s p, Reach demo s ∧ s.var 0 = some ⟨.vptr p getter, none⟩ ∧ s.usable 0 ⟨.vptr p getter, none⟩ false = true ∧
    getter.clone = true ∧ s.heap[p.ptr]? = some ⟨0, .arc, 5, 1⟩ := by
  refine ⟨_, _, ⟨[.newArc 0 5, .toVptr 0 getter], _, rfl⟩, rfl, ?_, rfl, ?_⟩
  all_goals decide +kernel
example : (forwardArgs ["x", "y", "z"]).bind thunkArgs = some ["x", "y", "z"] := by decide +kernel
end

/-! ## C34 -/

/-- Rust's auto traits of the five pointer kinds, in terms of those of the pointee (standard library). -/
def ptrSend (tSend tSync : Bool) : Coercible → Bool
  | .box => tSend
  | .rc false => false
  | .rc true => tSend && tSync
  | .ref false => tSync
  | .ref true => tSend
def ptrSync (tSend tSync : Bool) : Coercible → Bool
  | .box => tSync
  | .rc false => false
  | .rc true => tSend && tSync
  | .ref _ => tSync

/-- The pointer kinds which give `&mut` access to the pointee. -/
def givesMut : Coercible → Bool
  | .box | .ref true => true
  | _ => false

/-- For every trait, whatever its methods and markers, and every pointee type that has the traits
which the generated impl requires of it (`impl_Trait : Send` and `: Sync` if the markers say so): if a
conversion is generated, the `VirtualPtr` is `Send` (`Sync`) only if the pointer converted was; `&mut
self` methods come with a pointer that gives exclusive access; and only pointers that can be duplicated
become a clonable `VirtualPtr`. -/
private theorem C34_sound_aux (d : Decl) (src : Coercible) (hg : d.generated = true) (he : src.isEligible d = true)
    (tSend tSync : Bool) (h1 : d.send = true → tSend = true) (h2 : d.sync = true → tSync = true) :
    (d.send = true → ptrSend tSend tSync src = true) ∧
    (d.sync = true → ptrSync tSend tSync src = true) ∧
    (∀ name, (name, true) ∈ d.methods → givesMut src = true) ∧
    (d.clone = true → src ≠ .ref true) := by
  obtain ⟨ms, cl, se, sy⟩ := d
  have hm : ∀ name, (name, true) ∈ ms → Decl.hasMut ⟨ms, cl, se, sy⟩ = true := by
    intro name h
    simp only [Decl.hasMut, List.any_eq_true]
    exact ⟨_, h, rfl⟩
  have hm' : Decl.hasMut ⟨ms, cl, se, sy⟩ = false → ∀ name, (name, true) ∉ ms := by
    intro h name hn
    rw [hm name hn] at h; cases h
  refine ⟨?_, ?_, ?_, ?_⟩
  · intro h; simp only at h; subst h
    have := h1 rfl; subst this
    rcases src with _ | _ | _ | _ | _ <;> simp_all [Coercible.isEligible, ptrSend]
  · intro h; simp only at h; subst h
    have := h2 rfl; subst this
    have hse : se = true := by cases se <;> simp_all [Decl.generated]
    subst hse
    have := h1 rfl; subst this
    rcases src with _ | _ | _ | _ | _ <;> simp_all [Coercible.isEligible, ptrSync]
  · intro name hn
    rcases src with _ | _ | _ | _ | _
    · rfl
    all_goals (try rfl)
    all_goals (simp only [Coercible.isEligible, Bool.and_eq_true, Bool.not_eq_true'] at he
               exact absurd hn (hm' he.1 name))
  · intro h e
    subst e
    simp only at h; subst h
    simp [Coercible.isEligible] at he

/-- C34, for traits without the supertraits `Send` and `Sync`, or whose `dyn` type names these: for every such trait, whatever its
methods and markers, and every pointee type that has the traits which the generated impl requires of it (`impl_Trait : Send` and
`: Sync` if the markers say so): if a conversion is generated, the `VirtualPtr` is `Send` (`Sync`) only if the pointer converted was;
`&mut self` methods come with a pointer that gives exclusive access; and only pointers that can be duplicated become a clonable
`VirtualPtr`. The last two hold for all traits. With supertraits the first is false: `C34_fails_supertrait`. -/
theorem C34_sound_partial (d : Decl) (superSend superSync : Bool) (src : Coercible) (hg : d.generated = true) (he : src.isEligible d = true)
    (tSend tSync : Bool) (h1 : d.valueSend superSend = true → tSend = true) (h2 : d.valueSync superSync = true → tSync = true) :
    ((superSend = true → d.send = true) → d.valueSend superSend = true → ptrSend tSend tSync src = true) ∧
    ((superSync = true → d.sync = true) → d.valueSync superSync = true → ptrSync tSend tSync src = true) ∧
    (∀ name, (name, true) ∈ d.methods → givesMut src = true) ∧
    (d.clone = true → src ≠ .ref true) := by
  have key := C34_sound_aux d src hg he tSend tSync (fun h => h1 (by simp [Decl.valueSend, h])) (fun h => h2 (by simp [Decl.valueSync, h]))
  refine ⟨fun hs h => key.1 ?_, fun hs h => key.2.1 ?_, key.2.2⟩
  · cases hd : d.send
    · rw [hd] at hs
      cases superSend
      · simp [Decl.valueSend, hd] at h
      · exact hs rfl
    · rfl
  · cases hd : d.sync
    · rw [hd] at hs
      cases superSync
      · simp [Decl.valueSync, hd] at h
      · exact hs rfl
    · rfl

/-- The library's own `#[derive_ReprC(dyn, Clone)] trait FfiFutureExecutor : Send + Sync`, and `VirtualPtr<dyn FfiFutureExecutor>`:
`/repo/src/dyn_traits/futures/executor.rs` lines 6-31. (`StaticDropGlue`, `/repo/src/dyn_traits/dyn_drop.rs` lines 37-39, is another,
without methods.) -/
def executor : Decl := ⟨[("dyn_spawn", false), ("dyn_spawn_blocking", false), ("dyn_block_on", false), ("dyn_enter", false)], true, false, false⟩

/-- C34 fails for traits with the supertraits `Send` and `Sync`, such as `FfiFutureExecutor`: an `Rc` of an executor, which is neither
`Send` nor `Sync`, converts to a `VirtualPtr<dyn FfiFutureExecutor>`, which is both and can be cloned: its clones in other
threads update the count of the `Rc` without synchronization. And for a trait with the supertrait `Send` alone, and a type that is
`Send` and not `Sync` (a `Cell`), `&T` converts to a `VirtualPtr` that is `Send`, and gives other threads access to the `Cell`. -/
theorem C34_fails_supertrait :
    (executor.generated = true ∧ Coercible.isEligible executor (.rc false) = true ∧ executor.clone = true ∧
      executor.valueSend true = true ∧ executor.valueSync true = true ∧
      ∀ tSend tSync, ptrSend tSend tSync (.rc false) = false ∧ ptrSync tSend tSync (.rc false) = false) ∧
    (∀ d : Decl, (∀ name, (name, true) ∉ d.methods) → d.send = false → d.sync = false →
      d.generated = true ∧ Coercible.isEligible d (.ref false) = true ∧ d.valueSend true = true ∧ ptrSend true false (.ref false) = false) := by
  refine ⟨⟨by decide, by decide, rfl, rfl, rfl, fun _ _ => ⟨rfl, rfl⟩⟩, ?_⟩
  intro d hm hs hy
  have : d.hasMut = false := by
    rw [Decl.hasMut, List.any_eq_false]
    rintro ⟨n, b⟩ h
    cases b
    · simp
    · exact absurd h (hm n)
  refine ⟨by simp [Decl.generated, hs, hy], by simp [Coercible.isEligible, this, hs, hy], by simp [Decl.valueSend], rfl⟩

/-- C34: exactly which conversions exist. `Sync` without `Send` never does; `Send` without `Sync` only for
traits without `&self` methods. -/
theorem C34_exact (d : Decl) (src : Coercible) :
    (d.generated = true ∧ src.isEligible d = true) ↔
      (d.sync = true → d.send = true) ∧ ((∃ name, (name, false) ∈ d.methods) → d.send = true → d.sync = true) ∧
      (match src with
       | .box => True
       | .rc atomic => (∀ name, (name, true) ∉ d.methods) ∧ d.send = atomic ∧ d.sync = atomic
       | .ref true => d.clone = false
       | .ref false => (∀ name, (name, true) ∉ d.methods) ∧ d.send = d.sync) := by
  obtain ⟨ms, cl, se, sy⟩ := d
  have hm : Decl.hasMut ⟨ms, cl, se, sy⟩ = false ↔ ∀ name, (name, true) ∉ ms := by
    simp [Decl.hasMut]
  have hr : Decl.hasRef ⟨ms, cl, se, sy⟩ = true ↔ ∃ name, (name, false) ∈ ms := by
    simp [Decl.hasRef]
  have hgen : Decl.generated ⟨ms, cl, se, sy⟩ = true ↔
      (sy = true → se = true) ∧ ((∃ name, (name, false) ∈ ms) → se = true → sy = true) := by
    rw [← hr]
    simp only [Decl.generated]
    cases se <;> cases sy <;> cases Decl.hasRef ⟨ms, cl, _, _⟩ <;> simp
  rw [hgen, and_assoc]
  refine and_congr_right fun _ => and_congr_right fun _ => ?_
  rcases src with _ | b | b
  · simp [Coercible.isEligible]
  · simp only [Coercible.isEligible, Bool.and_eq_true, Bool.not_eq_true', beq_iff_eq, hm]
    cases b <;> cases se <;> cases sy <;> simp
  · cases b
    · simp only [Coercible.isEligible, Bool.and_eq_true, Bool.not_eq_true', beq_iff_eq, hm]
      cases se <;> cases sy <;> simp
    · simp [Coercible.isEligible]

-- `#[derive_ReprC(dyn, Clone)] trait Get { fn get(&self) }`, and `dyn Get + Send + Sync`: `Box`, `Arc`, `&T`; neither `Rc` nor `&mut T`.
example : getter.generated = true ∧
    [Coercible.box, .rc false, .rc true, .ref false, .ref true].map (·.isEligible getter) = [true, false, true, true, false] := by
  decide
-- `trait Counter { fn add(&mut self); fn get(&self) }`: `Box` and `&mut T` only.
example : counter.generated = true ∧
    [Coercible.box, .rc false, .rc true, .ref false, .ref true].map (·.isEligible counter) = [true, false, false, false, true] := by
  decide
-- `Send` alone, with a `&self` method: no impl.
example : (Decl.mk [("get", false)] false true false).generated = false := by decide
end Verif.Dyn
