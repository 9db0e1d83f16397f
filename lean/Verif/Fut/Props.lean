import Verif.Fut.Inv
/-!
# Properties of futures and executors: C36 - C38

`outcome F t ws` (Spec.lean) is what a future gives when it is polled with `ws` in turn until it is
ready or panics.
-/
namespace Verif.Fut
variable {W τ R : Type}

/-! ## C36 -/

/-- C36: `dyn_poll` gives `Completed` (0) exactly when the future is ready, `Pending` (-1) exactly when it
is pending, and panics exactly when it panics. -/
theorem C36_dyn_poll (F : Fut W τ Unit) (w : W) (t : τ) :
    (dynPoll (F.poll w t).2 = .val 0 ↔ (F.poll w t).2 = .ready ()) ∧
    (dynPoll (F.poll w t).2 = .val (-1) ↔ (F.poll w t).2 = .pending) ∧
    (dynPoll (F.poll w t).2 = .panic ↔ (F.poll w t).2 = .panic) := by
  rcases (F.poll w t).2 with _ | ⟨⟨⟩⟩ | _ <;> simp [dynPoll, PollFuture.pending, PollFuture.completed] <;> decide

theorem intoFuture_block (F : Fut W τ Unit) (t : τ) (pre : List W) (w : W) :
    intoFuturePoll F w (block F t pre) =
      (block F t (pre ++ [w]), match outcome F t pre with
        | .pending => outcome F t (pre ++ [w])
        | _ => .panic) := by
  simp only [intoFuturePoll, block, outcome_snoc, after_snoc]
  cases outcome F t pre with
  | pending =>
    simp only [Async.poll]
    rcases F.poll w (after F t pre) with ⟨t', _ | ⟨⟨⟩⟩ | _⟩
    · simp [dynPoll, undynPoll, Async.settle]
    · have : PollFuture.completed ≠ PollFuture.pending := by decide
      simp [dynPoll, undynPoll, this, Async.settle]
    · simp [dynPoll, undynPoll, Async.settle]
  | ready r => simp [Async.poll]
  | panic => simp [Async.poll]

/-- C36: however often a future is polled through `VirtualPtr::into_future`, the `i`-th poll gives what
polling the future itself would give (with the same contexts), up to the poll at which it completes; it
never completes earlier or later.  Polls after completion panic. -/
theorem C36_into_future (F : Fut W τ Unit) (t : τ) (ws : List W) (i : Nat) (hi : i < ws.length) :
    (polls (intoFuturePoll F) (.suspended t) ws)[i]? = some
      (match outcome F t (ws.take i) with
       | .pending => outcome F t (ws.take (i + 1))
       | _ => .panic) := by
  have key : ∀ (ws pre : List W) (i : Nat), i < ws.length →
      (polls (intoFuturePoll F) (block F t pre) ws)[i]? = some
        (match outcome F t (pre ++ ws.take i) with
         | .pending => outcome F t (pre ++ ws.take (i + 1))
         | _ => .panic) := by
    intro ws
    induction ws with
    | nil => intro _ i h; simp at h
    | cons w ws ih =>
      intro pre i hi
      simp only [polls, intoFuture_block]
      cases i with
      | zero => simp
      | succ i =>
        have := ih (pre ++ [w]) i (by simpa using hi)
        simpa using this
  exact key ws [] i hi

/-! ## C37 -/

/-- C37: at every moment when the future returned by `spawn` has neither completed nor been dropped,
polling it gives: "pending" as long as the executor's handle does; then the output of the spawned future,
if the polls which the executor made so far brought it to completion; a panic if the spawned future
panicked, was dropped by the executor before it completed, or if the handle panics; "pending" otherwise.
There is no assumption on the executor. -/
theorem C37_spawn (F : Fut W τ R) (t : τ) (ops : List (SpawnOp W)) (ans : Call PollFuture)
    (h1 : ∀ p, .join p ∈ (Spawn.run F (.new t) ops).2 → p = .pending) (h2 : .dropJoin ∉ ops) :
    ((Spawn.run F (.new t) ops).1.step F (.pollJoin ans)).2 =
      .join (joinResult (handleDone ops) (.dropTask ∈ ops) ans (outcome F t (taskPolls ops))) := by
  have I := (SInv.init F t).run ops
  simp only [List.nil_append] at I
  obtain ⟨e1, e2⟩ := I.alive ⟨h1, h2⟩
  obtain ⟨c', j, e, -⟩ := join_poll (outcome F t (taskPolls ops)) (SpawnOp.dropTask ∈ ops) (handleDone ops) ans
  simp only [Spawn.step, e1, e2, e]

/-- C37: in particular, whatever it gives is the output of the spawned future. -/
theorem C37_spawn_only_output (F : Fut W τ R) (t : τ) (ops : List (SpawnOp W)) (ans : Call PollFuture) (r : R)
    (h1 : ∀ p, .join p ∈ (Spawn.run F (.new t) ops).2 → p = .pending) (h2 : .dropJoin ∉ ops)
    (h : ((Spawn.run F (.new t) ops).1.step F (.pollJoin ans)).2 = .join (.ready r)) :
    outcome F t (taskPolls ops) = .ready r := by
  rw [C37_spawn F t ops ans h1 h2] at h
  simp only [SpawnOut.join.injEq, joinResult] at h
  split at h
  · cases h
  · split at h
    · cases h
    · revert h
      cases outcome F t (taskPolls ops) with
      | ready x => exact id
      | panic => exact fun h => h
      | pending => dsimp only; split <;> exact fun h => by cases h

/-- C37: once it has completed or panicked, it never gives anything again. -/
theorem C37_spawn_once (F : Fut W τ R) (t : τ) (ops ops' : List (SpawnOp W)) (p : Poll R)
    (h : .join p ∈ (Spawn.run F (.new t) ops).2) (hp : p ≠ .pending) (q : Poll R)
    (hq : .join q ∈ (Spawn.run F (Spawn.run F (.new t) ops).1 ops').2) : q = .panic := by
  have I := (SInv.init F t).run ops
  simp only [List.nil_append] at I
  have hl : ¬ live ops (Spawn.run F (.new t) ops).2 := fun hl => hp (hl.1 p h)
  generalize (Spawn.run F (.new t) ops).2 = outs at I hl
  generalize (Spawn.run F (.new t) ops).1 = s at I hq
  clear h
  induction ops' generalizing ops outs s with
  | nil => simp [Spawn.run] at hq
  | cons op ops' ih =>
    simp only [Spawn.run, List.mem_cons] at hq
    rcases hq with hq | hq
    · cases op with
      | pollTask w => simp only [Spawn.step] at hq; split at hq <;> cases hq
      | dropTask => simp only [Spawn.step] at hq; split at hq <;> cases hq
      | dropJoin => simp only [Spawn.step] at hq; split at hq <;> cases hq
      | pollJoin ans =>
        rcases I.dead hl with hj | hj | hj <;> simp only [Spawn.step, hj, Async.poll] at hq <;> cases hq
        · rfl
        · rfl
    · exact ih (ops ++ [op]) _ (fun h' => hl (live_snoc.1 h').1) _ (I.step op) hq

/-- C37: the executor's polls of the task poll the spawned future, and report its completion. -/
theorem C37_spawn_task (F : Fut W τ R) (t : τ) (ops : List (SpawnOp W)) (w : W) (h : .dropTask ∉ ops) :
    ((Spawn.run F (.new t) ops).1.step F (.pollTask w)).2 = .task
      (match outcome F t (taskPolls ops) with
       | .pending =>
          (match outcome F t (taskPolls ops ++ [w]) with
           | .pending => .val .pending
           | .ready _ => .val .completed
           | .panic => .panic)
       | _ => .panic) := by
  have I := (SInv.init F t).run ops
  simp only [List.nil_append] at I
  have ht := I.task
  rw [if_neg h] at ht
  simp only [Spawn.step, ht, block, outcome_snoc]
  cases outcome F t (taskPolls ops) with
  | pending =>
    simp only [Async.poll, taskBody]
    rcases F.poll w (after F t (taskPolls ops)) with ⟨t', _ | r | _⟩ <;> rfl
  | ready r => rfl
  | panic => rfl

theorem blockPolls_block (F : Fut W τ R) (t : τ) (pre ws : List W) :
    blockPolls F (match outcome F t pre with | .ready r => some r | _ => none) (block F t pre) ws =
      (match outcome F t (pre ++ ws) with | .ready r => some r | _ => none) := by
  induction ws generalizing pre with
  | nil => simp [blockPolls]
  | cons w ws ih =>
    have := ih (pre ++ [w])
    rw [List.append_assoc, List.singleton_append] at this
    rw [← this]
    simp only [blockPolls, block, outcome_snoc, after_snoc]
    cases outcome F t pre with
    | pending =>
      simp only [Async.poll, blockBody]
      rcases F.poll w (after F t pre) with ⟨t', _ | r | _⟩ <;> rfl
    | ready r => rfl
    | panic => rfl

/-- C37: `block_on` returns the future's output if the executor polled the future to completion before it
returned, and panics otherwise, for every executor. -/
theorem C37_block_on (F : Fut W τ R) (t : τ) (ws : List W) :
    blockOn F t ws = match outcome F t ws with
      | .ready r => .val r
      | _ => .panic := by
  have := blockPolls_block F t [] ws
  simp only [List.nil_append, outcome, block, after] at this
  simp only [blockOn, this]
  cases outcome F t ws <;> rfl

/-! ## C38 -/

/-- C38: the action starts at most once, whatever the executor does. -/
theorem C38_at_most_once (ops : List (BlockingOp R)) :
    (Blocking.run .new ops).2.countP (fun | .started => true | _ => false) ≤ 1 := by
  have I := BInv.init.run (R := R) ops
  simp only [List.nil_append] at I
  exact I.once

/-- C38: as long as the executor has neither called the closure nor dropped it, calling it runs the action, and
dropping it drops the action; an action that runs can end in any way, and its end is then the result. -/
theorem C38_first_call (ops : List (BlockingOp R)) :
    (.started ∉ (Blocking.run .new ops).2 → .dropped ∉ (Blocking.run .new ops).2 →
      ((Blocking.run .new ops).1.step .call).2 = .started ∧ ((Blocking.run .new ops).1.step .dropClosure).2 = .dropped)
    ∧ (.started ∈ (Blocking.run .new ops).2 → ending (Blocking.run .new ops).2 = none →
      ∀ r, ((Blocking.run .new ops).1.step (.finish r)).2 = .finished r) := by
  have I := BInv.init.run (R := R) ops
  simp only [List.nil_append] at I
  have hc := I.closure
  constructor
  · intro h1 h2
    have hr : (Blocking.run (R := R) .new ops).1.running = false := by
      cases hr : (Blocking.run (R := R) .new ops).1.running with
      | false => rfl
      | true => exact absurd (I.running.1 hr).1 h1
    simp only [h1, h2, if_false, not_false_eq_true, decide_true] at hc
    simp [Blocking.step, hr, hc]
  · intro h1 h2 r
    have hr := I.running.2 ⟨h1, h2⟩
    cases r <;> simp [Blocking.step, hr]

/-- C38: calling the closure again, once the action has started, panics (if the closure can be called at
all: it has not been dropped, and the first call is over). -/
theorem C38_second_call (ops : List (BlockingOp R)) (h : .started ∈ (Blocking.run .new ops).2) :
    ((Blocking.run .new ops).1.step .call).2 = .panicked ∨
      (((Blocking.run .new ops).1.step .call).2 = .gone ∧
        (.dropped ∈ (Blocking.run .new ops).2 ∨ ending (Blocking.run .new ops).2 = none)) := by
  have I := BInv.init.run (R := R) ops
  simp only [List.nil_append] at I
  have hc := I.closure
  simp only [Blocking.step]
  split
  · rename_i hr
    exact .inr ⟨rfl, .inr (I.running.1 hr).2⟩
  · by_cases hd : BlockingOut.dropped ∈ (Blocking.run (R := R) .new ops).2
    · simp only [hd, if_true] at hc
      simp [hc, hd]
    · simp only [hd, if_false, h, not_true, decide_false] at hc
      simp [hc]

/-- C38: at every moment when the future returned by `spawn_blocking` has neither completed nor been
dropped, polling it gives: "pending" as long as the executor's handle does; then `Ok` of the action's result
if it has returned; `Canceled` if it has panicked, or if the executor has dropped it without calling it;
"pending" if it may still run. -/
theorem C38_result (ops : List (BlockingOp R)) (ans : Call PollFuture)
    (h1 : ∀ p, .join p ∈ (Blocking.run .new ops).2 → p = .pending) (h2 : .dropJoin ∉ ops) :
    ((Blocking.run .new ops).1.step (.pollJoin ans)).2 =
      .join (joinResultB (handleDoneB ops) ans (actionResult (Blocking.run .new ops).2)) := by
  have I := BInv.init.run (R := R) ops
  simp only [List.nil_append] at I
  obtain ⟨e1, e2⟩ := I.alive ⟨h1, h2⟩
  obtain ⟨c', j, e, -⟩ := join_pollB (actionResult (Blocking.run .new ops).2) (actionResult_ne _) (handleDoneB ops) ans
  simp only [Blocking.step, e1, e2, e]

/-- C38: `Ok` if and only if the action ran to completion; the value is its result. -/
theorem C38_ok_iff_completed (ops : List (BlockingOp R)) (ans : Call PollFuture) (r : Option R)
    (h1 : ∀ p, .join p ∈ (Blocking.run .new ops).2 → p = .pending) (h2 : .dropJoin ∉ ops)
    (h : ((Blocking.run .new ops).1.step (.pollJoin ans)).2 = .join (.ready r)) (x : R) :
    r = some x ↔ ending (Blocking.run .new ops).2 = some (some x) := by
  rw [C38_result ops ans h1 h2] at h
  simp only [BlockingOut.join.injEq, joinResultB] at h
  split at h
  · cases h
  · split at h
    · cases h
    · simp only [actionResult] at h
      split at h
      · rename_i q hq
        cases h
        rw [hq]; simp
      · rename_i hq
        rw [hq]
        split at h <;> cases h
        simp

/-- C38: with `tokio`'s executor, an action that is cancelled before it runs (the runtime shuts down)
gives `Canceled`. -/
theorem C38_tokio_cancelled (ops : List (BlockingOp R))
    (h1 : ∀ p, .join p ∈ (Blocking.run .new ops).2 → p = .pending) (h2 : .dropJoin ∉ ops)
    (hd : .dropped ∈ (Blocking.run .new ops).2) (hs : ending (Blocking.run .new ops).2 = none) :
    ((Blocking.run .new ops).1.step (.pollJoin (tokioSpawnBlocking (some .cancelled)))).2 = .join (.ready none) := by
  rw [C38_result ops _ h1 h2]
  have e : tokioSpawnBlocking (some .cancelled) = .val .completed := rfl
  have : PollFuture.completed ≠ PollFuture.pending := by decide
  simp [joinResultB, actionResult, hs, hd, e, this]

/-- C37: with `tokio`'s executor, a task whose handle reports a panic or a cancellation makes the future
returned by `spawn` panic. -/
theorem C37_tokio_failed (F : Fut W τ R) (t : τ) (ops : List (SpawnOp W)) (x : Joined) (hx : x ≠ .ok)
    (h1 : ∀ p, .join p ∈ (Spawn.run F (.new t) ops).2 → p = .pending) (h2 : .dropJoin ∉ ops) (h3 : ¬ handleDone ops) :
    ((Spawn.run F (.new t) ops).1.step F (.pollJoin (tokioSpawn (some x)))).2 = .join .panic := by
  rw [C37_spawn F t ops _ h1 h2]
  have e : tokioSpawn (some x) = .panic := by cases x <;> first | rfl | exact absurd rfl hx
  simp [joinResult, e, h3]

/-- C37: with `tokio`'s executor, the future returned by `spawn` is pending as long as tokio's handle is, and gives
the output of the task once the task has completed and the handle says so. -/
theorem C37_tokio (F : Fut W τ R) (t : τ) (ops : List (SpawnOp W))
    (h1 : ∀ p, .join p ∈ (Spawn.run F (.new t) ops).2 → p = .pending) (h2 : .dropJoin ∉ ops) (h3 : ¬ handleDone ops) :
    ((Spawn.run F (.new t) ops).1.step F (.pollJoin (tokioSpawn none))).2 = .join .pending ∧
    ∀ r, outcome F t (taskPolls ops) = .ready r →
      ((Spawn.run F (.new t) ops).1.step F (.pollJoin (tokioSpawn (some .ok)))).2 = .join (.ready r) := by
  have e1 : tokioSpawn none = .val .pending := rfl
  have e2 : tokioSpawn (some .ok) = .val .completed := rfl
  have : PollFuture.completed ≠ PollFuture.pending := by decide
  refine ⟨?_, fun r hr => ?_⟩ <;> rw [C37_spawn F t ops _ h1 h2]
  · simp [joinResult, e1, h3]
  · simp [joinResult, e2, h3, hr, this]

/-- C38: with `tokio`'s executor, the future returned by `spawn_blocking` is pending as long as tokio's handle is;
gives how the action ended once it has ended and the handle says so; and panics if the handle reports a panic. -/
theorem C38_tokio (ops : List (BlockingOp R))
    (h1 : ∀ p, .join p ∈ (Blocking.run .new ops).2 → p = .pending) (h2 : .dropJoin ∉ ops) (h3 : ¬ handleDoneB ops) :
    ((Blocking.run .new ops).1.step (.pollJoin (tokioSpawnBlocking none))).2 = .join .pending ∧
    ((Blocking.run .new ops).1.step (.pollJoin (tokioSpawnBlocking (some .panicked)))).2 = .join .panic ∧
    ∀ r, ending (Blocking.run .new ops).2 = some r →
      ((Blocking.run .new ops).1.step (.pollJoin (tokioSpawnBlocking (some .ok)))).2 = .join (.ready r) := by
  have e1 : tokioSpawnBlocking none = .val .pending := rfl
  have e2 : tokioSpawnBlocking (some .ok) = .val .completed := rfl
  have e3 : tokioSpawnBlocking (some .panicked) = .panic := rfl
  have : PollFuture.completed ≠ PollFuture.pending := by decide
  refine ⟨?_, ?_, fun r hr => ?_⟩ <;> rw [C38_result ops _ h1 h2]
  · simp [joinResultB, e1, h3]
  · simp [joinResultB, e3, h3]
  · simp [joinResultB, actionResult, e2, hr, this]

/-! ### Examples: a future that is ready at the poll with context `true` after at least two polls, with
the number of polls as its output; it panics if polled again. -/
def demo : Fut Bool (Option Nat) Nat where
  poll w
    | some n => if w && 2 ≤ n then (none, .ready n) else (some (n + 1), .pending)
    | none => (none, .panic)
def demoU : Fut Bool (Option Nat) Unit where
  poll w t := ((demo.poll w t).1, match (demo.poll w t).2 with | .pending => .pending | .ready _ => .ready () | .panic => .panic)

example : polls (intoFuturePoll demoU) (.suspended (some 0)) [true, false, false, true, true] =
    [.pending, .pending, .pending, .ready (), .panic] := by decide
example : outcome demo (some 0) [true, false, false, true, true] = .ready 3 := by decide
example : blockOn demo (some 0) [true, false, false, true] = .val 3 ∧ blockOn demo (some 0) [true, false, false] = .panic := by
  decide

-- A history meeting the hypotheses of C37_spawn, C37_spawn_only_output: the handle reports completion
-- early, the task completes later.
example : (Spawn.run demo (.new (some 0)) [.pollTask true, .pollJoin (.val .pending), .pollTask true,
      .pollJoin (.val .completed), .pollTask true, .dropTask, .pollJoin (.val .pending), .pollJoin (.val .pending)]).2 =
    [.task (.val (-1)), .join .pending, .task (.val (-1)), .join .pending, .task (.val 0), .unit, .join (.ready 2), .join .panic] := by
  decide
-- A history meeting the hypotheses of C37_tokio.
example : (Spawn.run demo (.new (some 0)) [.pollTask true, .pollJoin (tokioSpawn none), .pollTask true, .pollTask true,
      .pollJoin (tokioSpawn (some .ok))]).2 =
    [.task (.val (-1)), .join .pending, .task (.val (-1)), .task (.val 0), .join (.ready 2)] := by decide
-- A history meeting the hypotheses of C38_tokio.
example : (Blocking.run .new [.pollJoin (tokioSpawnBlocking none), .call, .finish (some 7),
      .pollJoin (tokioSpawnBlocking (some .ok))]).2 =
    [.join .pending, .started, .finished (some 7), .join (.ready (some 7))] := by decide
-- The executor drops the task.
example : (Spawn.run demo (.new (some 0)) [.pollTask true, .dropTask, .pollJoin (.val .completed)]).2 =
    [.task (.val (-1)), .unit, .join .panic] := by decide
-- The user drops the future; the task goes on.
example : (Spawn.run demo (.new (some 0)) [.pollTask true, .dropJoin, .pollTask true, .pollTask true]).2 =
    [.task (.val (-1)), .unit, .task (.val (-1)), .task (.val 0)] := by decide

-- Histories meeting the hypotheses of C38_result, C38_second_call, C38_tokio_cancelled.
example : (Blocking.run .new [.pollJoin (.val .pending), .call, .pollJoin (.val .completed), .finish (some 7), .call,
      .pollJoin (.val .pending), .dropClosure]).2 =
    [.join .pending, .started, .join .pending, .finished (some 7), .panicked, .join (.ready (some 7)), .dropped] := by decide
example : (Blocking.run .new [.dropClosure, .pollJoin (tokioSpawnBlocking (some .cancelled))]).2 =
    [(.dropped : BlockingOut Nat), .join (.ready none)] := by decide
example : (Blocking.run .new [.call, .finish none, .pollJoin (.val .completed)]).2 =
    [(.started : BlockingOut Nat), .finished none, .join (.ready none)] := by decide
end Verif.Fut
