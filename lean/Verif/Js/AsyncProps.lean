import Verif.Js.AsyncLemmas
/-!
# Asynchronous exports to JavaScript: C72

For every schedule of JavaScript, of the worker pool and of the runtime.
-/
namespace Verif.Js
open Text Headers

/-! ### `js(async_worker)` -/

/-- **C72 (partial).** Of every call that gave a promise, only this happens, in this order: the promise is given;
the function is called, with the converted arguments; it returns; the promise is settled with the JavaScript form
of the returned value (rejected if it has none). Missing: JavaScript may change the contents of the buffers
that it passed before the function is called, see `C72_fails_buffer`; and if the pool runs a task again, which
it never should, then the promise may be rejected. -/
theorem C72_worker_partial (S : Sig) (ops : List PoolOp) (i : Nat) (h : i < (Pool.run S {} ops).works.length) :
    ∃ js args a v r, fromArgs S.E S.b S.narrow S.params js = .ok args ∧ shapes a = shapes args ∧
      steps i (Pool.run S {} ops).log <+: [.promised i js, .called i a, .returned i v, .settled i r] ∧
      (r = toJs S.E S.b S.ret v ∨ r = .err .genericFailure ∧ .refused i ∈ (Pool.run S {} ops).log) := by
  have hw := (pool_inv S ops).work i _ (List.getElem?_eq_getElem h)
  generalize steps i (Pool.run S {} ops).log = l at hw ⊢
  generalize (Pool.run S {} ops).works[i] = w at hw
  cases hw with
  | @queued js args a hc hs hb => exact ⟨js, args, a, .void, _, hc, hs, ⟨_, rfl⟩, .inl rfl⟩
  | @running js args a hc hs hb => exact ⟨js, args, a, .void, _, hc, hs, ⟨_, rfl⟩, .inl rfl⟩
  | @returned js args a v o hc hs hb ho => exact ⟨js, args, a, v, _, hc, hs, ⟨_, rfl⟩, .inl rfl⟩
  | @settled js args a v o r hc hs hb hr => exact ⟨js, args, a, v, r, hc, hs, ⟨[], rfl⟩, hr⟩

/-- **C72.** The same if no parameter accepts a buffer without copying it, and no task is run twice: the function
is called with exactly the converted arguments, and the promise settled with exactly the JavaScript form of its
result. -/
theorem C72_worker (S : Sig) (hS : takeBuffer S.params = false) (ops : List PoolOp) (i : Nat)
    (hi : ops.countP (·.runs i) ≤ 1) (h : i < (Pool.run S {} ops).works.length) :
    ∃ js args v, fromArgs S.E S.b S.narrow S.params js = .ok args ∧
      steps i (Pool.run S {} ops).log <+:
        [.promised i js, .called i args, .returned i v, .settled i (toJs S.E S.b S.ret v)] := by
  have hw := (pool_inv S ops).work i _ (List.getElem?_eq_getElem h)
  have hr : AEv.refused i ∉ (Pool.run S {} ops).log := by
    intro hr
    have := pool_counts S i ops {} ⟨nofun, fun _ _ => rfl, nofun⟩ hr (by simp)
    rw [if_neg (by simp)] at this
    omega
  generalize steps i (Pool.run S {} ops).log = l at hw ⊢
  generalize (Pool.run S {} ops).works[i] = w at hw
  cases hw with
  | @queued js args a hc hs hb => exact ⟨js, args, .void, hc, ⟨_, rfl⟩⟩
  | @running js args a hc hs hb =>
    rw [hb fun f => fromArgs_fixed S.E S.b S.narrow f S.params js args hS hc]
    exact ⟨js, args, .void, hc, ⟨_, rfl⟩⟩
  | @returned js args a v o hc hs hb ho =>
    rw [hb fun f => fromArgs_fixed S.E S.b S.narrow f S.params js args hS hc]
    exact ⟨js, args, v, hc, ⟨_, rfl⟩⟩
  | @settled js args a v o r hc hs hb ho =>
    rw [hb fun f => fromArgs_fixed S.E S.b S.narrow f S.params js args hS hc]
    rcases ho with rfl | ⟨_, ho⟩
    · exact ⟨js, args, v, hc, ⟨[], rfl⟩⟩
    · exact absurd ho hr

/-- **C72.** A call throws exactly if an argument has no conversion, and then nothing else happens; otherwise it
gives the next promise. -/
theorem C72_worker_call (S : Sig) (ops : List PoolOp) (js : List Js) :
    let s := Pool.run S {} ops
    let s' := Pool.run S {} (ops ++ [.call js])
    ((∃ args, fromArgs S.E S.b S.narrow S.params js = .ok args) →
      s'.works.length = s.works.length + 1 ∧ s'.log = s.log ++ [.promised s.works.length js]) ∧
    ((∀ args, fromArgs S.E S.b S.narrow S.params js ≠ .ok args) →
      s'.works = s.works ∧ s'.log = s.log ++ [.threw js]) := by
  intro s s'
  have hs' : s' = s.step S (.call js) := by simp [s', s, Pool.run, List.foldl_append]
  rw [hs']
  constructor
  · rintro ⟨args, ha⟩
    simp [Pool.step, ha]
  · intro hn
    simp only [Pool.step]
    cases hc : fromArgs S.E S.b S.narrow S.params js with
    | ok args => exact absurd hc (hn args)
    | err e => simp
    | panic => simp

/-- **C72.** No call is stuck: as soon as the pool runs the task of a call that is waiting, its function is
called; and as soon as the JavaScript thread handles a call whose function has returned, its promise is
settled. -/
theorem C72_worker_progress (S : Sig) (ops : List PoolOp) (i : Nat) (h : i < (Pool.run S {} ops).works.length) :
    let log := steps i (Pool.run S {} ops).log
    (log.length = 1 → ∃ a, steps i (Pool.run S {} (ops ++ [.compute i])).log = log ++ [.called i a]) ∧
    (log.length = 2 → ∀ v, steps i (Pool.run S {} (ops ++ [.finish i v])).log = log ++ [.returned i v]) ∧
    (log.length = 3 → ∃ r, steps i (Pool.run S {} (ops ++ [.settle i])).log = log ++ [.settled i r]) := by
  have hk := List.getElem?_eq_getElem h
  have hw := (pool_inv S ops).work i _ hk
  have hrun : ∀ op, Pool.run S {} (ops ++ [op]) = (Pool.run S {} ops).step S op := fun op => by
    simp [Pool.run, List.foldl_append]
  simp only [hrun]
  generalize Pool.run S {} ops = s at *
  generalize s.works[i] = w at hw hk
  generalize hl : steps i s.log = l at hw ⊢
  have hs : ∀ w' e, e.of i = true → steps i (s.put i w' [e]).log = l ++ [e] := by
    intro w' e he
    simp only [Pool.put, steps_append, hl]
    simp [steps, he]
  refine ⟨fun hn => ?_, fun hn v => ?_, fun hn => ?_⟩
  · cases hw with
    | queued hc hs' hb => exact ⟨_, by rw [Pool.step, hk]; exact hs _ _ (by simp [AEv.of])⟩
    | _ => simp at hn
  · cases hw with
    | running hc hs' hb => rw [Pool.step, hk]; exact hs _ _ (by simp [AEv.of])
    | _ => simp at hn
  · cases hw with
    | returned hc hs' hb ho => exact ⟨_, by rw [Pool.step, hk]; exact hs _ _ (by simp [AEv.of])⟩
    | _ => simp at hn

/-! ### `async fn` -/

section
variable {W τ : Type}

/-- **C72.** Of every call that gave a promise, only this happens, in this order: the promise is given and the
statements before `ffi_await!` are executed, with the converted arguments; the future completes; the promise is
settled with the JavaScript form of its output (rejected if it has none). -/
theorem C72_async (S : Sig) (F : AsyncFn W τ) (ops : List (LoopOp W)) (i : Nat) (h : i < (Loop.run S F {} ops).tasks.length) :
    ∃ js args v, fromArgs S.E S.b S.narrow S.params js = .ok args ∧
      steps i (Loop.run S F {} ops).log <+:
        [.promised i js, .called i args, .returned i v, .settled i (toJs S.E S.b S.ret v)] := by
  have hw := (loop_inv S F ops).task i _ (List.getElem?_eq_getElem h)
  generalize steps i (Loop.run S F {} ops).log = l at hw ⊢
  generalize (Loop.run S F {} ops).tasks[i] = w at hw
  cases hw with
  | @pending js args t₀ f hc => exact ⟨js, args, .void, hc, ⟨_, rfl⟩⟩
  | @returned js args t₀ v hc => exact ⟨js, args, v, hc, ⟨_, rfl⟩⟩
  | @settled js args t₀ v hc => exact ⟨js, args, v, hc, ⟨[], rfl⟩⟩

/-- **C72.** A call throws exactly if an argument has no conversion, or if the statements before `ffi_await!`
panic; otherwise it gives the next promise. -/
theorem C72_async_call (S : Sig) (F : AsyncFn W τ) (ops : List (LoopOp W)) (js : List Js) :
    let s := Loop.run S F {} ops
    let s' := Loop.run S F {} (ops ++ [.call js])
    (∀ args t, fromArgs S.E S.b S.narrow S.params js = .ok args → F.prelude args = some t →
      s'.tasks = s.tasks ++ [⟨.suspended t, none, false⟩] ∧
      s'.log = s.log ++ [.promised s.tasks.length js, .called s.tasks.length args]) ∧
    ((∀ args, fromArgs S.E S.b S.narrow S.params js = .ok args → F.prelude args = none) →
      s'.tasks = s.tasks ∧ s'.log = s.log ++ [.threw js]) := by
  intro s s'
  have hs' : s' = s.step S F (.call js) := by simp [s', s, Loop.run, List.foldl_append]
  rw [hs']
  constructor
  · intro args t ha ht
    simp [Loop.step, ha, ht]
  · intro hn
    simp only [Loop.step]
    cases hc : fromArgs S.E S.b S.narrow S.params js with
    | ok args => simp [hn args hc]
    | err e => simp
    | panic => simp

/-- What the polls `ws` make of the future in state `t`: the first output, if any. -/
def firstOutput (F : Fut.Fut W τ Val) (t : τ) : List W → Option Val
  | [] => none
  | w :: ws => match F.poll w t with
    | (_, .ready v) => some v
    | (t, .pending) => firstOutput F t ws
    | (_, .panic) => none

/-- The polls of task `i`. -/
def LoopOp.pollOf (i : Nat) : LoopOp W → Option W
  | .poll k w => if k = i then some w else none
  | _ => none

theorem pollOf_run (S : Sig) (F : AsyncFn W τ) (i : Nat) (ops : List (LoopOp W)) :
    ∀ s : Loop τ, (∀ t₀, s.tasks[i]? = some ⟨.suspended t₀, none, false⟩ →
        ∃ t, (Loop.run S F s ops).tasks[i]? = some t ∧ t.output = firstOutput F.fut t₀ (ops.filterMap (·.pollOf i))) ∧
      (∀ t₁, s.tasks[i]? = some t₁ → (t₁.fut = .poisoned ∨ t₁.fut = .returned) →
        ∃ t, (Loop.run S F s ops).tasks[i]? = some t ∧ t.output = t₁.output) := by
  induction ops with
  | nil => exact fun s => ⟨fun t₀ h => ⟨_, h, rfl⟩, fun t₁ h _ => ⟨_, h, rfl⟩⟩
  | cons op ops ih =>
    intro s
    have hrun : Loop.run S F s (op :: ops) = Loop.run S F (s.step S F op) ops := rfl
    rw [hrun]
    have hother : ∀ x, s.tasks[i]? = some x → op.pollOf i = none → op ≠ .settle i → (s.step S F op).tasks[i]? = some x := by
      intro x hx ho hne
      have hlt := (List.getElem?_eq_some_iff.1 hx).1
      cases op with
      | call js =>
        simp only [Loop.step]
        split
        · split
          · simp only; rw [List.getElem?_append_left hlt]; exact hx
          · exact hx
        · exact hx
      | poll k w =>
        have hk : k ≠ i := by simpa [LoopOp.pollOf] using ho
        simp only [Loop.step]
        split
        · split <;> (simp only [Loop.put]; rw [List.getElem?_set_ne hk]; exact hx)
        · exact hx
      | settle k =>
        have hk : k ≠ i := fun h => hne (by rw [h])
        simp only [Loop.step]
        split
        · split
          · simp only [Loop.put]; rw [List.getElem?_set_ne hk]; exact hx
          · exact hx
        · exact hx
    constructor
    · intro t₀ h
      have hlt := (List.getElem?_eq_some_iff.1 h).1
      cases hp : op.pollOf i with
      | none =>
        rw [List.filterMap_cons_none hp]
        by_cases hs : op = .settle i
        · subst hs
          refine (ih _).1 t₀ ?_
          simp only [Loop.step, h]
        · exact (ih _).1 t₀ (hother _ h hp hs)
      | some w =>
        rw [List.filterMap_cons_some hp]
        obtain rfl : op = .poll i w := by
          cases op with
          | poll k w' =>
            simp only [LoopOp.pollOf] at hp
            split at hp
            · next hk => subst hk; simp at hp; rw [hp]
            · simp at hp
          | _ => simp [LoopOp.pollOf] at hp
        simp only [Loop.step, h, Fut.Async.poll]
        rw [firstOutput]
        cases hx : F.fut.poll w t₀ with
        | mk t p =>
          cases p with
          | pending =>
            refine (ih _).1 t ?_
            simp [Fut.Async.settle, Loop.put, hlt]
          | ready v =>
            refine (ih _).2 ⟨.returned, some v, false⟩ ?_ (.inr rfl)
            simp [Fut.Async.settle, Loop.put, hlt]
          | panic =>
            refine (ih _).2 ⟨.poisoned, none, false⟩ ?_ (.inl rfl)
            simp [Fut.Async.settle, Loop.put, hlt]
    · intro t₁ h hf
      have hlt := (List.getElem?_eq_some_iff.1 h).1
      have : ∃ t₂, (s.step S F op).tasks[i]? = some t₂ ∧ (t₂.fut = .poisoned ∨ t₂.fut = .returned) ∧ t₂.output = t₁.output := by
        cases hp : op.pollOf i with
        | none =>
          by_cases hs : op = .settle i
          · subst hs
            simp only [Loop.step, h]
            split
            · exact ⟨{ t₁ with settled := true }, by simp [Loop.put, hlt], hf, rfl⟩
            · exact ⟨_, h, hf, rfl⟩
          · exact ⟨_, hother _ h hp hs, hf, rfl⟩
        | some w =>
          obtain rfl : op = .poll i w := by
            cases op with
            | poll k w' =>
              simp only [LoopOp.pollOf] at hp
              split at hp
              · next hk => subst hk; simp at hp; rw [hp]
              · simp at hp
            | _ => simp [LoopOp.pollOf] at hp
          simp only [Loop.step, h]
          rcases hf with hf | hf <;> rw [hf] <;> simp only [Fut.Async.poll]
          · exact ⟨{ t₁ with fut := .poisoned }, by simp [Loop.put, hlt], .inl rfl, rfl⟩
          · exact ⟨{ t₁ with fut := .returned }, by simp [Loop.put, hlt], .inr rfl, rfl⟩
      obtain ⟨t₂, h1, h2, h3⟩ := this
      obtain ⟨t, h4, h5⟩ := (ih _).2 t₂ h1 h2
      exact ⟨t, h4, by rw [h5, h3]⟩

/-- **C72.** The promise is settled with the output of the future that the call made: after a call that gave
promise `i` and any further operations, the value that is (or can be) delivered is the first output of that
future when polled as the runtime polled it, and there is none before. -/
theorem C72_async_output (S : Sig) (F : AsyncFn W τ) (ops ops' : List (LoopOp W)) (js : List Js) (args : List Val) (t : τ)
    (ha : fromArgs S.E S.b S.narrow S.params js = .ok args) (ht : F.prelude args = some t) (v : Val) :
    let i := (Loop.run S F {} ops).tasks.length
    let s := Loop.run S F {} (ops ++ .call js :: ops')
    .returned i v ∈ s.log ↔ firstOutput F.fut t (ops'.filterMap (·.pollOf i)) = some v := by
  intro i s
  have hs : s = Loop.run S F ((Loop.run S F {} ops).step S F (.call js)) ops' := by
    simp [s, Loop.run, List.foldl_append]
  have h0 : ((Loop.run S F {} ops).step S F (.call js)).tasks[i]? = some ⟨.suspended t, none, false⟩ := by
    simp [Loop.step, ha, ht, i]
  obtain ⟨t', h1, h2⟩ := (pollOf_run S F i ops' _).1 t h0
  rw [← hs] at h1
  rw [← h2]
  have hinv := (loop_inv S F (ops ++ .call js :: ops')).task i t' h1
  have hmem : AEv.returned i v ∈ s.log ↔ AEv.returned i v ∈ steps i s.log := by
    simp [steps, AEv.of]
  rw [hmem]
  change SpawnInv S F i (steps i s.log) t' at hinv
  generalize steps i s.log = l at hinv
  cases hinv with
  | pending => simp
  | returned => simp [eq_comm]
  | settled => simp [eq_comm]

/-- **C72.** No call is stuck: as soon as the JavaScript thread handles a call whose future has completed, its
promise is settled. -/
theorem C72_async_progress (S : Sig) (F : AsyncFn W τ) (ops : List (LoopOp W)) (i : Nat) (v : Val)
    (h : .returned i v ∈ (Loop.run S F {} ops).log) :
    .settled i (toJs S.E S.b S.ret v) ∈ (Loop.run S F {} (ops ++ [.settle i])).log := by
  have hrun : Loop.run S F {} (ops ++ [.settle i]) = (Loop.run S F {} ops).step S F (.settle i) := by
    simp [Loop.run, List.foldl_append]
  rw [hrun]
  have hinv := loop_inv S F ops
  generalize Loop.run S F {} ops = s at *
  have hm : AEv.returned i v ∈ steps i s.log := by simp [steps, AEv.of, h]
  by_cases hi : i < s.tasks.length
  · have hk := List.getElem?_eq_getElem hi
    have ht := hinv.task i _ hk
    have hsub : ∀ e, e ∈ steps i s.log → e ∈ s.log := fun e he => (List.mem_filter.1 he).1
    generalize s.tasks[i] = t at ht hk
    generalize steps i s.log = l at ht hm hsub
    cases ht with
    | pending => simp at hm
    | @returned js args t₀ v' hc hp =>
      obtain rfl : v' = v := by simpa [eq_comm] using hm
      simp [Loop.step, hk, Loop.put]
    | @settled js args t₀ v' hc hp =>
      obtain rfl : v' = v := by simpa [eq_comm] using hm
      simp only [Loop.step, hk]
      exact hsub _ (by simp)
  · rw [hinv.fresh i (by omega)] at hm; simp at hm
end

/-! ### Concrete cases -/

private def sig (params : List JTy) : Sig := ⟨⟨false, true, true⟩, fun _ => [], id, params, .bool⟩
private def sliceRef : JTy := .struct true [t!"ptr", t!"len", t!"_lt"] [.ptr true .void, .int .usize, .void]

/-- **C72 fails** for functions that take a buffer: JavaScript passes the bytes `1, 2`, and may change them to
`9, 9` while the call is waiting for a worker: the function sees the changed bytes. -/
theorem C72_fails_buffer : ∃ (S : Sig) (ops : List PoolOp),
    (Pool.run S {} ops).log = [.promised 0 [.buf [1, 2]], .called 0 [.struct [.ptr (.mem [9, 9]), .int 2, .void]]] ∧
    fromArgs S.E S.b S.narrow S.params [.buf [1, 2]] = .ok [.struct [.ptr (.mem [1, 2]), .int 2, .void]] :=
  ⟨sig [sliceRef], [.call [.buf [1, 2]], .scribble 0 fun _ _ => 9, .compute 0], rfl, rfl⟩

/-- Two calls, the second of which finishes first, and one that throws. -/
example : (Pool.run (sig [.bool]) {} [.call [.bool true], .call [.num (.fin 0 0)], .call [.bool false], .compute 0, .compute 1,
      .finish 1 (.bool true), .settle 0, .settle 1, .finish 0 (.bool false), .compute 1]).log =
    [.promised 0 [.bool true], .threw [.num (.fin 0 0)], .promised 1 [.bool false], .called 0 [.bool true], .called 1 [.bool false],
     .returned 1 (.bool true), .settled 1 (.ok (.bool true)), .returned 0 (.bool false), .refused 1] := rfl
example : takeBuffer (sig [.bool, .ptr false .cchar, .bytes 4]).params = false := rfl

/-- A future that is ready at the third poll. -/
private def fut : AsyncFn Unit Nat :=
  ⟨fun _ => some 2, ⟨fun _ n => match n with | 0 => (0, .ready (.bool true)) | n + 1 => (n, .pending)⟩⟩
example : (Loop.run (sig [.bool]) fut {} [.call [.bool true], .poll 0 (), .settle 0, .poll 0 (), .poll 0 (), .poll 0 (), .settle 0, .settle 0]).log =
    [.promised 0 [.bool true], .called 0 [.bool true], .returned 0 (.bool true), .settled 0 (.ok (.bool true))] := rfl
example : firstOutput fut.fut 2 [(), (), ()] = some (.bool true) ∧ firstOutput fut.fut 2 [(), ()] = none := ⟨rfl, rfl⟩

end Verif.Js
