import Verif.Js.WrapLemmas
/-!
# Properties of the callbacks

`run C ops` is the history of one closure `C` under an arbitrary schedule `ops` of native calls, event loop
turns, JavaScript activity, receptions, timeouts and garbage collection. Histories are written the latest
event first: `(e :: past) <:+ log` says that `e` happened after exactly `past`.
-/
namespace Verif.Js
open Text Headers

/-- C60: whatever the schedule, each event is one that its past allows (see `Allowed`). -/
theorem C60_allowed (C : Cfg) (ops : List Op) {e : Ev} {past : List Ev} (h : (e :: past) <:+ (run C ops).log) : Allowed C past e :=
  ((rel_run C ops).good.allowed h).1

/-- C60: nothing happens twice for a call. -/
theorem C60_once (C : Cfg) (ops : List Op) : ((run C ops).log.filterMap Ev.key).Nodup := good_once (rel_run C ops).good

/-- C60: what a waiting call returns comes from its own invocation, made with its own arguments: the value
returned by the function if the call was made on the JavaScript thread, else the value sent. -/
theorem C60_result (C : Cfg) (hC : C.detached = false) (ops : List Op) {c : Nat} {v : Val} (h : Ev.returned c v ∈ (run C ops).log) :
    ∃ t args js j, Ev.called c t args ∈ (run C ops).log ∧ C.toArgs args = .ok js ∧ Ev.invoked c js ∈ (run C ops).log ∧
      fromJs C.E C.b C.narrow C.ret j = .ok v ∧
      if t = C.main then Ev.finished c (some j) ∈ (run C ops).log else Ev.sent c j ∈ (run C ops).log := by
  obtain ⟨past, hp, ha⟩ := (rel_run C ops).good.mem h
  obtain ⟨-, t, args, h1, h2⟩ := ha
  rw [hC] at h2
  obtain ⟨⟨js, h3, h4⟩, h5⟩ := h2
  by_cases ht : t = C.main
  · rw [if_pos ht] at h5
    obtain ⟨j, h6, h7⟩ := h5
    exact ⟨t, args, js, j, suffix_mem hp h1, h3, suffix_mem hp h4, h7, by rw [if_pos ht]; exact suffix_mem hp h6⟩
  · rw [if_neg ht] at h5
    obtain ⟨j, h6, h7⟩ := h5
    exact ⟨t, args, js, j, suffix_mem hp h1, h3, suffix_mem hp h4, h7, by rw [if_neg ht]; exact suffix_mem hp h6⟩

theorem toAll_get {E : Env} {b : Nat → Text} {tys : List JTy} {vs : List Val} {js : List Js} (h : toAll E b tys vs = .ok js) :
    vs.length = tys.length ∧ js.length = tys.length ∧
    ∀ (i : Nat) ty v j, tys[i]? = some ty → vs[i]? = some v → js[i]? = some j → toJs E b ty v = .ok j := by
  induction tys generalizing vs js with
  | nil =>
    cases vs with
    | nil => cases h; exact ⟨rfl, rfl, fun i ty v j h => by simp at h⟩
    | cons v vs => cases h
  | cons ty tys ih =>
    cases vs with
    | nil => cases h
    | cons v vs =>
      rw [toAll] at h
      cases h1 : toJs E b ty v with
      | ok j =>
        cases h2 : toAll E b tys vs with
        | ok js' =>
          rw [h1, h2] at h
          cases h
          obtain ⟨e1, e2, e3⟩ := ih h2
          refine ⟨by simp [e1], by simp [e2], fun i ty' v' j' a1 a2 a3 => ?_⟩
          cases i with
          | zero => simp at a1 a2 a3; subst a1 a2 a3; exact h1
          | succ i => simp at a1 a2 a3; exact e3 i ty' v' j' a1 a2 a3
        | err e => rw [h1, h2] at h; cases h
        | panic => rw [h1, h2] at h; cases h
      | err e => rw [h1] at h; cases h
      | panic => rw [h1] at h; cases h

/-- C60: a call is made with one JavaScript argument for each of its own arguments, in their order: the conversion
of this argument (see C66). -/
theorem C60_arguments (C : Cfg) (ops : List Op) {c t : Nat} {args : List Val} {js : List Js} (h1 : Ev.called c t args ∈ (run C ops).log)
    (h2 : Ev.invoked c js ∈ (run C ops).log) :
    args.length = C.params.length ∧ js.length = C.params.length ∧
    ∀ (i : Nat) ty v j, C.params[i]? = some ty → args[i]? = some v → js[i]? = some j → toJs C.E C.b ty v = .ok j := by
  obtain ⟨past, hp, ha⟩ := (rel_run C ops).good.mem h2
  obtain ⟨t', args', h3, h4, -⟩ := ha
  have := unique_of_nodup (p := (0, c)) rfl rfl (C60_once C ops) h1 (suffix_mem hp h3)
  cases this
  exact toAll_get h4

/-- C60: results are not mixed up: a call has one argument list, one invocation, one sent value, one end, one result. -/
theorem C60_unique (C : Cfg) (ops : List Op) {a b : Ev} (ha : a ∈ (run C ops).log) (hb : b ∈ (run C ops).log)
    {p : Nat × Nat} (hka : a.key = some p) (hkb : b.key = some p) : a = b := unique_of_nodup hka hkb (C60_once C ops) ha hb

/-- C60: a native thread other than JavaScript's is blocked until its call returns. -/
theorem C60_blocks (C : Cfg) (hC : C.detached = false) (ops : List Op) {c c' t : Nat} {args args' : List Val} {past : List Ev}
    (ht : t ≠ C.main) (h : (Ev.called c t args :: past) <:+ (run C ops).log) (hc : Ev.called c' t args' ∈ past) :
    ∃ v, Ev.returned c' v ∈ past := (C60_allowed C ops h).2 hC ht c' args' hc

/-- C60: with no value to return, the process ends; nothing happens afterwards. -/
theorem C60_end (C : Cfg) (ops : List Op) {e : Ev} {past : List Ev} (h : (e :: past) <:+ (run C ops).log) : Ev.aborted ∉ past :=
  (rel_run C ops).good.ended h

/-- C60: with the function wrapped by `wrap_cb_for_ffi`, a waiting call returns the value of the wrapped
function in its own invocation. The exception: the type is `void`, the call was made on the JavaScript thread,
and the function threw. -/
theorem C60_wrapped_partial (C : Cfg) (hC : C.detached = false) {ops : List Op} (ho : ∀ op ∈ ops, op.wrapped = true) {c : Nat} {v : Val}
    (h : Ev.returned c v ∈ (run C ops).log) :
    ∃ t args js, Ev.called c t args ∈ (run C ops).log ∧ C.toArgs args = .ok js ∧ Ev.invoked c js ∈ (run C ops).log ∧
      ((∃ j, Ev.inner c (some j) ∈ (run C ops).log ∧ C.fromRet j = .ok v) ∨
        (t = C.main ∧ Ev.inner c none ∈ (run C ops).log ∧ C.ret = .void ∧ v = .void)) := by
  obtain ⟨t, args, js, j, h1, h2, h3, h4, h5⟩ := C60_result C hC ops h
  refine ⟨t, args, js, h1, h2, h3, ?_⟩
  have hw := wrap_run C ho
  by_cases ht : t = C.main
  · rw [if_pos ht] at h5
    obtain ⟨k, hk, e1, e2⟩ := (rel_run C ops).called' c t args h1
    rcases hw.finished hC c k _ hk (e1.trans ht) h5 with ⟨j', e, hi⟩ | ⟨e, hi⟩
    · cases e; exact .inl ⟨j, hi, h4⟩
    · cases e; exact .inr ⟨ht, hi, fromRet_undefined h4⟩
  · rw [if_neg ht] at h5
    exact .inl ⟨j, hw.sent c j h5, h4⟩

/-- C60: with another type than `void`, there is no exception. -/
theorem C60_wrapped_value (C : Cfg) (hC : C.detached = false) (hr : C.ret ≠ .void) {ops : List Op} (ho : ∀ op ∈ ops, op.wrapped = true)
    {c : Nat} {v : Val} (h : Ev.returned c v ∈ (run C ops).log) : ∃ j, Ev.inner c (some j) ∈ (run C ops).log ∧ C.fromRet j = .ok v := by
  obtain ⟨_, _, _, _, _, _, h | h⟩ := C60_wrapped_partial C hC ho h
  · exact h
  · exact absurd h.2.2.1 hr

/-- C60: a waiting call returns once the event loop has made the calls queued before it and its own: if no
timeout strikes, it returns the value of the function. -/
theorem C60_progress (C : Cfg) (hC : C.detached = false) (ops : List Op) (hd : Ev.aborted ∉ (run C ops).log) (hs : (run C ops).stack = [])
    (f : Nat → Option Js) {before after : List Nat} {c t : Nat} {args : List Val} {js : List Js} {j : Js} {v : Val}
    (hq : (pending C (run C ops).log).reverse = before ++ c :: after)
    (hp : ∀ c' t' args', Ev.called c' t' args' ∈ (run C ops).log → C.toArgs args' ≠ .panic)
    (hc : Ev.called c t args ∈ (run C ops).log) (ha : C.toArgs args = .ok js) (hf : f c = some j) (hv : C.fromRet j = .ok v) :
    Ev.returned c v ∈ (run C (ops ++ (loopOps f (before ++ [c]) ++ [.recv c]))).log := by
  have hr := rel_run C ops
  have hsn := senders_run C ops
  have hd' := alive_run hd
  rw [run_append]
  generalize run C ops = s at *
  have hq' := (hr.queue_eq hd').trans hq
  have hn : (before ++ c :: after).Nodup := hq' ▸ hr.sorted.imp (fun h => Nat.ne_of_lt h)
  have hin : ∀ c' ∈ before ++ c :: after, ∃ k, s.calls[c']? = some k ∧ Queued C k.thread ∧ C.toArgs k.args ≠ .panic := by
    intro c' hc'
    obtain ⟨-, k, hk, hm⟩ := hr.queueIn c' (hq' ▸ hc')
    exact ⟨k, hk, hm, hp _ _ _ (hr.called c' k hk)⟩
  obtain ⟨i1, i2, i3, i4, i5, -⟩ := loop_all f before (c :: after) hd' hs hq' hn (fun c' h => hin c' (List.mem_append_left _ h))
  obtain ⟨k, hk, hm, hpk⟩ := hin c (by simp)
  have hargs : k.args = args := by
    obtain ⟨k', hk', -, e⟩ := hr.called' c t args hc
    rw [hk] at hk'; cases hk'; exact e
  have hmain : k.thread ≠ C.main := hm.resolve_left (by simp [hC])
  have hnh := (hr.queueIn c (hq' ▸ by simp)).1
  have hcb : c ∉ before := by
    intro h
    exact (List.nodup_append.1 hn).2.2 c h c (by simp) rfl
  have hinv : k.invoked = false := by
    cases h : k.invoked with
    | false => rfl
    | true => exact absurd (.inl (hr.invoked c k hk h)) hnh
  have hsend : k.sender = true := by
    cases h : k.sender with
    | true => rfl
    | false =>
      rcases hsn c k hk h with h | h
      · rw [hinv] at h; cases h
      · exact absurd (.inr (.inl h)) hnh
  have hsent : k.sent = none := by
    cases h : k.sent with
    | none => rfl
    | some r =>
      obtain ⟨j', hj', -⟩ := hr.sent c k r hk h
      obtain ⟨k', hk', -, hi⟩ := hr.sent' c j' hj'
      rw [hk] at hk'; cases hk'; rw [hinv] at hi; cases hi
  have hdone : k.done = false := by
    cases h : k.done with
    | false => rfl
    | true =>
      obtain ⟨v', hv'⟩ := hr.done c k hk h
      obtain ⟨past, hpast, hall⟩ := hr.good.mem hv'
      obtain ⟨-, t', args', -, h2⟩ := hall
      rw [hC] at h2
      obtain ⟨⟨js', -, h4⟩, -⟩ := h2
      exact absurd (.inl ⟨js', suffix_mem hpast h4⟩) hnh
  have hl : loopOps f (before ++ [c]) = loopOps f before ++ [.dequeue, .inner (f c)] := by simp [loopOps]
  rw [hl, List.foldl_append, List.foldl_append]
  generalize List.foldl (step C) s (loopOps f before) = s1 at *
  have hk1 : s1.calls[c]? = some k := (i5 c hcb).trans hk
  obtain ⟨l1, l2, l3, l4, l5, l6, l7⟩ := loop_one i1 i2 i3 hk1 hm hpk (f c)
  have hfin := l7 js v j (hargs ▸ ha) hC hsend hsent hf hv
  simp only [List.foldl_cons, List.foldl_nil]
  generalize step C (step C s1 .dequeue) (.inner (f c)) = s2 at *
  unfold step
  simp only [l1, Bool.false_eq_true, if_false, stepWait]
  rw [hfin]
  have hw : waits C { k with invoked := true, sent := some (.ok v) } = true := by simp [waits, hC, hmain, hdone]
  simp only [hw, if_true]
  exact List.mem_cons_self

/-- C68: queued calls are made in the order of the native calls: before one is made, the earlier ones have been
made or given up. -/
theorem C68_order (C : Cfg) (ops : List Op) {c c' t t' : Nat} {args args' : List Val} {js : List Js} {past past' : List Ev}
    (h1 : (Ev.called c t args :: past) <:+ (run C ops).log) (h2 : Ev.called c' t' args' ∈ past) (ht : Queued C t) (ht' : Queued C t')
    (h3 : (Ev.invoked c js :: past') <:+ (run C ops).log) : Handled past' c' := by
  have hr := rel_run C ops
  have hm : Ev.called c t args ∈ (run C ops).log := h1.subset (by simp)
  have hm' : Ev.called c' t' args' ∈ (run C ops).log := suffix_mem h1 h2
  have hlt : c' < c := by
    have hn := numbered_suffix hr.numbered h1
    exact hn.1 _ _ _ h2
  obtain ⟨t0, args0, i1, i2, i3, i4⟩ := C60_allowed C ops h3
  have e := C60_unique C ops hm (suffix_mem h3 i1) (p := (0, c)) rfl rfl
  cases e
  refine i4 ht c' t' args' hlt ?_ ht'
  -- The earlier call comes before the later one, which comes before its invocation.
  rcases List.suffix_or_suffix_of_suffix h1 h3 with h | h
  · rcases List.suffix_cons_iff.1 h with h | h
    · cases h
    · exact suffix_mem h h2
  · rcases List.suffix_cons_iff.1 h with h | h
    · cases h
    · -- `called` would come after `invoked`: but `invoked` has `called c` in its past.
      exact absurd (suffix_mem h i1) ((C60_allowed C ops h1).1 _ _)

/-- C68: a detached call returns at once; it is dropped if 1024 calls are pending, else it joins them. -/
theorem C68_detached (C : Cfg) (hC : C.detached = true) (ops : List Op) (hd : Ev.aborted ∉ (run C ops).log) (t : Nat) (args : List Val) :
    ∃ c, (run C (ops ++ [.call t args])).log =
      if 1024 ≤ (pending C (run C ops).log).length then .returned c .void :: .dropped c :: .called c t args :: (run C ops).log
      else .returned c .void :: .called c t args :: (run C ops).log := by
  have hr := rel_run C ops
  have hd' := alive_run hd
  rw [run_append]
  have hq := congrArg List.length (hr.queue_eq hd')
  rw [List.length_reverse] at hq
  refine ⟨(run C ops).calls.length, ?_⟩
  simp only [List.foldl_cons, List.foldl_nil, step, hd', Bool.false_eq_true, if_false, stepCall, hC, if_true, queueBound, hq]
  split <;> rfl

/-- C68: at most 1024 detached calls are pending. -/
theorem C68_bounded (C : Cfg) (hC : C.detached = true) (ops : List Op) (hd : Ev.aborted ∉ (run C ops).log) :
    (pending C (run C ops).log).length ≤ 1024 := by
  have hq := congrArg List.length ((rel_run C ops).queue_eq (alive_run hd))
  rw [List.length_reverse] at hq
  rw [← hq]
  exact queue_run hC ops

/-- C68: the event loop makes, or gives up, all pending calls. -/
theorem C68_drained (C : Cfg) (ops : List Op) (hd : Ev.aborted ∉ (run C ops).log) (hs : (run C ops).stack = []) (f : Nat → Option Js)
    (hp : ∀ c t args, Ev.called c t args ∈ (run C ops).log → C.toArgs args ≠ .panic) :
    pending C (run C (ops ++ loopOps f (pending C (run C ops).log).reverse)).log = [] := by
  have hr := rel_run C ops
  have hd' := alive_run hd
  have hq := hr.queue_eq hd'
  have hn : (run C ops).queue.Nodup := hr.sorted.imp (fun h => Nat.ne_of_lt h)
  obtain ⟨i1, i2, i3, -⟩ := loop_all f (run C ops).queue [] hd' hs (by simp) (by simpa using hn) (fun c hc => by
    obtain ⟨-, k, hk, hm⟩ := hr.queueIn c hc
    exact ⟨k, hk, hm, hp _ _ _ (hr.called c k hk)⟩)
  have hr' := rel_run C (ops ++ loopOps f (pending C (run C ops).log).reverse)
  rw [run_append, ← hq] at hr' ⊢
  have := hr'.queue_eq i1
  rw [i3] at this
  simpa using this.symm

/-! ### Concrete cases -/

private def cfg (detached : Bool) (ret : JTy) : Cfg :=
  { E := ⟨false, true, true⟩, b := fun _ => t!"T", narrow := id, detached, params := [.bool], ret, main := 0, timeout := true }

/-- Two threads wait, JavaScript calls back on its own thread, the results come back in another order. -/
private def sched : List Op :=
  [.call 1 [.bool true], .call 2 [.bool false], .dequeue, .call 0 [.bool true], .inner (some (.bool true)), .inner (some (.bool false)),
   .dequeue, .inner (some (.bool true)), .recv 1, .recv 0]

example : (run (cfg false .bool) sched).log =
    [.returned 0 (.bool false), .returned 1 (.bool true),
     .finished 1 (some .undefined), .sent 1 (.bool true), .inner 1 (some (.bool true)), .invoked 1 [.bool false],
     .finished 0 (some .undefined), .sent 0 (.bool false), .inner 0 (some (.bool false)),
     .returned 2 (.bool true), .finished 2 (some (.bool true)), .inner 2 (some (.bool true)),
     .invoked 2 [.bool true], .called 2 0 [.bool true], .invoked 0 [.bool true],
     .called 1 2 [.bool false], .called 0 1 [.bool true]] := rfl
example : (cfg false .bool).detached = false ∧ (cfg false .bool).ret ≠ .void ∧ ∀ op ∈ sched, op.wrapped = true :=
  ⟨rfl, nofun, by simp [sched, Op.wrapped]⟩
/-- After the first two calls: both are pending, nothing runs, the arguments convert. -/
example : let s := run (cfg false .bool) (sched.take 2)
    s.stack = [] ∧ (pending (cfg false .bool) s.log).reverse = [0] ++ 1 :: [] ∧
      (cfg false .bool).toArgs [.bool false] = .ok [.bool false] ∧ (cfg false .bool).fromRet (.bool true) = .ok (.bool true) :=
  ⟨rfl, rfl, rfl, rfl⟩
/-- A detached call returns before it is made. -/
example : (run (cfg true .void) [.call 0 [.bool true], .call 1 [.bool false], .dequeue]).log =
    [.invoked 0 [.bool true], .returned 1 .void, .called 1 1 [.bool false], .returned 0 .void, .called 0 0 [.bool true]] := rfl

/-- C60: a wrapped function that throws: on the JavaScript thread the native call returns as if the function
had returned; on another thread the process ends. -/
theorem C60_fails_exception : ∃ C : Cfg, C.detached = false ∧
    Ev.returned 0 .void ∈ (run C [.call C.main [.bool true], .inner none]).log ∧
    Ev.aborted ∈ (run C [.call (C.main + 1) [.bool true], .dequeue, .inner none, .collect 0, .closed 0]).log :=
  ⟨cfg false .void, rfl, List.mem_cons_self, List.mem_cons_self⟩

end Verif.Js
