import Verif.Fut.Spec
namespace Verif.Fut
variable {W τ R : Type}

/-! ### Outcomes -/

/-- The state of the future after these polls. -/
def after (F : Fut W τ R) (t : τ) : List W → τ
  | [] => t
  | w :: ws => after F (F.poll w t).1 ws

theorem outcome_snoc (F : Fut W τ R) (t : τ) (ws : List W) (w : W) :
    outcome F t (ws ++ [w]) =
      match outcome F t ws with
      | .pending => (F.poll w (after F t ws)).2
      | p => p := by
  induction ws generalizing t with
  | nil =>
    simp only [List.nil_append, outcome, after]
    rcases F.poll w t with ⟨t', _ | _ | _⟩ <;> rfl
  | cons x xs ih =>
    simp only [List.cons_append, outcome, after]
    rcases h : F.poll x t with ⟨t', _ | _ | _⟩
    · exact ih t'
    · rfl
    · rfl

theorem after_snoc (F : Fut W τ R) (t : τ) (ws : List W) (w : W) :
    after F t (ws ++ [w]) = (F.poll w (after F t ws)).1 := by
  induction ws generalizing t with
  | nil => rfl
  | cons x xs ih => exact ih _

/-- The `async` block around a future, as a function of its outcome. -/
def block (F : Fut W τ R) (t : τ) (ws : List W) : Async τ :=
  match outcome F t ws with
  | .pending => .suspended (after F t ws)
  | .ready _ => .returned
  | .panic => .poisoned

/-! ### `spawn` -/

open Classical in
theorem taskPolls_snoc (ops : List (SpawnOp W)) (op : SpawnOp W) :
    taskPolls (ops ++ [op]) =
      if .dropTask ∈ ops then taskPolls ops
      else match op with
        | .pollTask w => taskPolls ops ++ [w]
        | _ => taskPolls ops := by
  induction ops with
  | nil => cases op <;> simp [taskPolls]
  | cons x xs ih =>
    cases x <;> simp only [List.cons_append, taskPolls, ih]
    · by_cases h : SpawnOp.dropTask ∈ xs
      · simp [h]
      · simp only [h, List.mem_cons, reduceCtorEq, or_self, if_false]
        cases op <;> rfl
    · simp
    · simp
    · simp

open Classical in
noncomputable def chanOf (o : Poll R) (dropped : Prop) : Chan R :=
  match o with
  | .ready r => ⟨true, some r⟩
  | .panic => ⟨true, none⟩
  | .pending => if dropped then ⟨true, none⟩ else ⟨false, none⟩

def live (ops : List (SpawnOp W)) (outs : List (SpawnOut R)) : Prop :=
  (∀ p, .join p ∈ outs → p = .pending) ∧ .dropJoin ∉ ops

open Classical in
structure SInv (F : Fut W τ R) (t : τ) (ops : List (SpawnOp W)) (outs : List (SpawnOut R)) (s : Spawn τ R) : Prop where
  task : s.task = if .dropTask ∈ ops then none else some (block F t (taskPolls ops))
  alive : live ops outs → s.join = some (.suspended (if handleDone ops then .rx else .handle (.suspended ()))) ∧
    s.chan = chanOf (outcome F t (taskPolls ops)) (.dropTask ∈ ops)
  dead : ¬ live ops outs → s.join = none ∨ s.join = some .returned ∨ s.join = some .poisoned

theorem SInv.init (F : Fut W τ R) (t : τ) : SInv F t [] [] (.new t) :=
  ⟨by simp [Spawn.new, block, taskPolls, outcome, after],
   fun _ => ⟨by simp [Spawn.new, handleDone], by simp [Spawn.new, chanOf, taskPolls, outcome, Chan.new]⟩,
   fun h => absurd ⟨by simp, by simp⟩ h⟩

theorem live_snoc {ops : List (SpawnOp W)} {outs : List (SpawnOut R)} {op : SpawnOp W} {out : SpawnOut R} :
    live (ops ++ [op]) (outs ++ [out]) ↔ live ops outs ∧ (∀ p, out = .join p → p = .pending) ∧ op ≠ .dropJoin := by
  simp only [live, List.mem_append, List.mem_singleton]
  constructor
  · rintro ⟨h1, h2⟩
    exact ⟨⟨fun p hp => h1 p (.inl hp), fun h => h2 (.inl h)⟩, fun p hp => h1 p (.inr hp.symm), fun h => h2 (.inr h.symm)⟩
  · rintro ⟨⟨h1, h2⟩, h3, h4⟩
    exact ⟨fun p hp => hp.elim (h1 p) fun e => h3 p e.symm, fun h => h.elim h2 fun e => h4 e.symm⟩

theorem handleDone_snoc {ops : List (SpawnOp W)} {op : SpawnOp W} :
    handleDone (ops ++ [op]) ↔ handleDone ops ∨ ∃ ans, op = .pollJoin ans ∧ ans ≠ .val .pending := by
  simp only [handleDone, List.mem_append, List.mem_singleton]
  constructor
  · rintro ⟨a, h | h, h'⟩
    · exact .inl ⟨a, h, h'⟩
    · exact .inr ⟨a, h.symm, h'⟩
  · rintro (⟨a, h, h'⟩ | ⟨a, h, h'⟩)
    · exact ⟨a, .inl h, h'⟩
    · exact ⟨a, .inr h.symm, h'⟩

open Classical in
theorem join_rx (o : Poll R) (d : Prop) :
    ∃ c' : Chan R, joinBody.rx expectSent (chanOf o d) = (c', .rx, joinResult True d (.val 0) o) ∧
      (joinResult True d (.val 0) o = .pending → c' = chanOf o d) := by
  cases o with
  | ready r => exact ⟨⟨true, none⟩, by simp [joinBody.rx, Chan.recv, chanOf, expectSent, joinResult], by simp [joinResult]⟩
  | panic => exact ⟨⟨true, none⟩, by simp [joinBody.rx, Chan.recv, chanOf, expectSent, joinResult], by simp [joinResult]⟩
  | pending =>
    by_cases h : d
    · exact ⟨⟨true, none⟩, by simp [joinBody.rx, Chan.recv, chanOf, expectSent, joinResult, h], by simp [joinResult, h]⟩
    · exact ⟨⟨false, none⟩, by simp [joinBody.rx, Chan.recv, chanOf, joinResult, h], by simp [chanOf, h]⟩

open Classical in
theorem join_poll (o : Poll R) (d done : Prop) (ans : Call PollFuture) :
    ∃ (c' : Chan R) (j : Async Join),
      Async.poll (joinBody expectSent ans) (chanOf o d) (.suspended (if done then .rx else .handle (.suspended ()))) =
        (c', j, joinResult done d ans o) ∧
      (joinResult done d ans o = .pending → c' = chanOf o d ∧
        j = .suspended (if done ∨ ans ≠ .val .pending then .rx else .handle (.suspended ()))) ∧
      (joinResult done d ans o ≠ .pending → j = .returned ∨ j = .poisoned) := by
  have key : ∀ p : Poll R, p = joinResult True d (.val 0) o →
      ∃ (c' : Chan R) (j : Async Join),
        Async.settle (joinBody.rx expectSent (chanOf o d) : Chan R × Join × Poll R) = (c', j, p) ∧
        (p = .pending → c' = chanOf o d ∧ j = .suspended .rx) ∧
        (p ≠ .pending → j = .returned ∨ j = .poisoned) := by
    intro p hp
    obtain ⟨c', h1, h2⟩ := join_rx o d
    rw [← hp] at h1 h2
    rw [h1]
    cases p with
    | pending => exact ⟨c', _, rfl, fun _ => ⟨h2 rfl, rfl⟩, by simp⟩
    | ready r => exact ⟨c', _, rfl, by simp, fun _ => .inl rfl⟩
    | panic => exact ⟨c', _, rfl, by simp, fun _ => .inr rfl⟩
  by_cases hd : done
  · simp only [hd, if_true, Async.poll, joinBody, true_or]
    exact key (joinResult True d ans o) (by simp [joinResult])
  · simp only [hd, if_false, Async.poll, joinBody, false_or]
    by_cases hp : ans = .val .pending
    · subst hp
      refine ⟨chanOf o d, .suspended (.handle (.suspended ())), ?_, ?_, ?_⟩
      · simp [undynPoll, Async.settle, joinResult]
      · simp
      · simp [joinResult]
    · cases ans with
      | panic =>
        refine ⟨(chanOf o d).close, .poisoned, ?_, ?_, ?_⟩
        · simp [undynPoll, Async.settle, joinResult]
        · simp [joinResult]
        · simp
      | val x =>
        have hx : x ≠ .pending := fun h => hp (by rw [h])
        simp only [undynPoll, Async.settle, hx, if_false, hp, ne_eq, not_false_eq_true, if_true]
        exact key (joinResult False d (.val x) o) (by simp [joinResult, hx])

open Classical in
theorem SInv.step {F : Fut W τ R} {t : τ} {ops : List (SpawnOp W)} {outs : List (SpawnOut R)} {s : Spawn τ R}
    (h : SInv F t ops outs s) (op : SpawnOp W) :
    SInv F t (ops ++ [op]) (outs ++ [(s.step F op).2]) (s.step F op).1 := by
  cases op with
  | pollTask w =>
    have hm : (SpawnOp.dropTask ∈ ops ++ [SpawnOp.pollTask w]) ↔ SpawnOp.dropTask ∈ ops := by simp
    have hhd : handleDone (ops ++ [SpawnOp.pollTask w]) ↔ handleDone ops := by rw [handleDone_snoc]; simp
    by_cases hd : SpawnOp.dropTask ∈ ops
    · have ht := h.task
      rw [if_pos hd] at ht
      have hlv : live (ops ++ [SpawnOp.pollTask w]) (outs ++ [SpawnOut.gone (R := R)]) ↔ live ops outs := by
        rw [live_snoc]; simp
      simp only [Spawn.step, ht]
      refine ⟨by simp [ht, hd], fun hl => ?_, fun hl => h.dead (fun h' => hl (hlv.2 h'))⟩
      obtain ⟨h1, h2⟩ := h.alive (hlv.1 hl)
      refine ⟨by rw [h1]; simp [hhd], ?_⟩
      rw [h2, taskPolls_snoc, if_pos hd]
      simp only [hm]
    · have ht := h.task
      rw [if_neg hd] at ht
      have hlv : ∀ p, live (ops ++ [SpawnOp.pollTask w]) (outs ++ [SpawnOut.task (R := R) p]) ↔ live ops outs := by
        intro p; rw [live_snoc]; simp
      simp only [Spawn.step, ht]
      have hb : ∀ c, c = chanOf (outcome F t (taskPolls ops)) (SpawnOp.dropTask ∈ ops) ∨ True →
          (Async.poll (taskBody F w) c (block F t (taskPolls ops))).2.1 = block F t (taskPolls ops ++ [w]) ∧
          (c = chanOf (outcome F t (taskPolls ops)) (SpawnOp.dropTask ∈ ops) →
           (Async.poll (taskBody F w) c (block F t (taskPolls ops))).1
              = chanOf (outcome F t (taskPolls ops ++ [w])) (SpawnOp.dropTask ∈ ops)) := by
        intro c _
        simp only [block, outcome_snoc, after_snoc]
        cases ho : outcome F t (taskPolls ops) with
        | pending =>
          simp only [Async.poll, taskBody, Async.settle]
          rcases hp : F.poll w (after F t (taskPolls ops)) with ⟨t', _ | r | _⟩
          · simp [chanOf]
          · simp [chanOf, hd, Chan.send]; intro e; simp [e]
          · simp [chanOf, hd, Chan.close]; intro e; simp [e]
        | ready r => simp [Async.poll, chanOf]
        | panic => simp [Async.poll, chanOf]
      obtain ⟨hb1, -⟩ := hb s.chan (.inr trivial)
      refine ⟨?_, fun hl => ?_, fun hl => h.dead (fun h' => hl ((hlv _).2 h'))⟩
      · simp only [hm, if_neg hd, taskPolls_snoc, hb1]
      · obtain ⟨h1, h2⟩ := h.alive ((hlv _).1 hl)
        refine ⟨by simp only [h1, hhd], ?_⟩
        simp only [taskPolls_snoc, if_neg hd, hm]
        exact (hb s.chan (.inr trivial)).2 h2
  | dropTask =>
    have hhd : handleDone (ops ++ [SpawnOp.dropTask]) ↔ handleDone ops := by rw [handleDone_snoc]; simp
    have htp : taskPolls (ops ++ [SpawnOp.dropTask]) = taskPolls ops := by rw [taskPolls_snoc]; split <;> rfl
    by_cases hd : SpawnOp.dropTask ∈ ops
    · have ht := h.task
      rw [if_pos hd] at ht
      have hlv : live (ops ++ [SpawnOp.dropTask]) (outs ++ [SpawnOut.gone (R := R)]) ↔ live ops outs := by
        rw [live_snoc]; simp
      simp only [Spawn.step, ht]
      refine ⟨by simp [ht], fun hl => ?_, fun hl => h.dead (fun h' => hl (hlv.2 h'))⟩
      obtain ⟨h1, h2⟩ := h.alive (hlv.1 hl)
      refine ⟨by rw [h1]; simp [hhd], ?_⟩
      rw [h2, htp]
      simp [hd]
    · have ht := h.task
      rw [if_neg hd] at ht
      have hlv : live (ops ++ [SpawnOp.dropTask]) (outs ++ [SpawnOut.unit (R := R)]) ↔ live ops outs := by
        rw [live_snoc]; simp
      simp only [Spawn.step, ht]
      refine ⟨by simp, fun hl => ?_, fun hl => h.dead (fun h' => hl (hlv.2 h'))⟩
      obtain ⟨h1, h2⟩ := h.alive (hlv.1 hl)
      refine ⟨by simp only [h1, hhd], ?_⟩
      simp only [htp, h2, block]
      cases outcome F t (taskPolls ops) <;> simp [dropBlock, chanOf, hd, Chan.close]
  | pollJoin ans =>
    have hm : (SpawnOp.dropTask ∈ ops ++ [SpawnOp.pollJoin ans]) ↔ SpawnOp.dropTask ∈ ops := by simp
    have htp : taskPolls (ops ++ [SpawnOp.pollJoin ans]) = taskPolls ops := by rw [taskPolls_snoc]; split <;> rfl
    have hhd : handleDone (ops ++ [SpawnOp.pollJoin ans]) ↔ handleDone ops ∨ ans ≠ .val .pending := by
      rw [handleDone_snoc]; simp
    by_cases hl0 : live ops outs
    · obtain ⟨h1, h2⟩ := h.alive hl0
      obtain ⟨c', j, e, e1, e2⟩ := join_poll (outcome F t (taskPolls ops)) (SpawnOp.dropTask ∈ ops) (handleDone ops) ans
      simp only [Spawn.step, h1, h2, e]
      refine ⟨by simp only [hm, htp]; exact h.task, fun hl => ?_, fun hl => ?_⟩
      · have hp := (live_snoc.1 hl).2.1 _ rfl
        obtain ⟨rfl, rfl⟩ := e1 hp
        refine ⟨by simp only [hhd], by simp only [htp, hm]⟩
      · have hp : joinResult (handleDone ops) (SpawnOp.dropTask ∈ ops) ans (outcome F t (taskPolls ops)) ≠ .pending := by
          intro hp
          apply hl
          rw [live_snoc]
          refine ⟨hl0, ?_, by simp⟩
          intro p e
          simp only [SpawnOut.join.injEq] at e
          rw [← e, hp]
        rcases e2 hp with rfl | rfl
        · exact .inr (.inl rfl)
        · exact .inr (.inr rfl)
    · have hl : ∀ o, ¬ live (ops ++ [SpawnOp.pollJoin ans]) (outs ++ [o]) := fun o h' => hl0 (live_snoc.1 h').1
      rcases h.dead hl0 with hj | hj | hj
      · simp only [Spawn.step, hj]
        exact ⟨by simp only [hm, htp]; exact h.task, fun h' => absurd h' (hl _), fun _ => .inl hj⟩
      · simp only [Spawn.step, hj, Async.poll]
        exact ⟨by simp only [hm, htp]; exact h.task, fun h' => absurd h' (hl _), fun _ => .inr (.inl rfl)⟩
      · simp only [Spawn.step, hj, Async.poll]
        exact ⟨by simp only [hm, htp]; exact h.task, fun h' => absurd h' (hl _), fun _ => .inr (.inr rfl)⟩
  | dropJoin =>
    have hm : (SpawnOp.dropTask ∈ ops ++ [SpawnOp.dropJoin]) ↔ SpawnOp.dropTask ∈ ops := by simp
    have htp : taskPolls (ops ++ [SpawnOp.dropJoin]) = taskPolls ops := by rw [taskPolls_snoc]; split <;> rfl
    have hl : ∀ o, ¬ live (ops ++ [SpawnOp.dropJoin]) (outs ++ [o]) := fun o h' => (live_snoc.1 h').2.2 rfl
    cases hj : s.join with
    | none =>
      simp only [Spawn.step, hj]
      exact ⟨by simp only [hm, htp]; exact h.task, fun h' => absurd h' (hl _), fun _ => .inl hj⟩
    | some j =>
      simp only [Spawn.step, hj]
      exact ⟨by simp only [hm, htp]; exact h.task, fun h' => absurd h' (hl _), fun _ => .inl rfl⟩

theorem SInv.run {F : Fut W τ R} {t : τ} {ops : List (SpawnOp W)} {outs : List (SpawnOut R)} {s : Spawn τ R}
    (h : SInv F t ops outs s) (ops' : List (SpawnOp W)) :
    SInv F t (ops ++ ops') (outs ++ (s.run F ops').2) (s.run F ops').1 := by
  induction ops' generalizing ops outs s with
  | nil => simpa [Spawn.run] using h
  | cons op ops' ih =>
    have := ih (h.step op)
    simpa [Spawn.run] using this

/-! ### `spawn_blocking` -/

theorem ending_snoc (outs : List (BlockingOut R)) (out : BlockingOut R) :
    ending (outs ++ [out]) = match ending outs with
      | some r => some r
      | none => match out with
        | .finished r => some r
        | _ => none := by
  induction outs with
  | nil => cases out <;> rfl
  | cons x xs ih => cases x <;> simp only [List.cons_append, ending, ih]

def liveB (ops : List (BlockingOp R)) (outs : List (BlockingOut R)) : Prop :=
  (∀ p, .join p ∈ outs → p = .pending) ∧ .dropJoin ∉ ops

theorem liveB_snoc {ops : List (BlockingOp R)} {outs : List (BlockingOut R)} {op : BlockingOp R} {out : BlockingOut R} :
    liveB (ops ++ [op]) (outs ++ [out]) ↔ liveB ops outs ∧ (∀ p, out = .join p → p = .pending) ∧ op ≠ .dropJoin := by
  simp only [liveB, List.mem_append, List.mem_singleton]
  constructor
  · rintro ⟨h1, h2⟩
    exact ⟨⟨fun p hp => h1 p (.inl hp), fun h => h2 (.inl h)⟩, fun p hp => h1 p (.inr hp.symm), fun h => h2 (.inr h.symm)⟩
  · rintro ⟨⟨h1, h2⟩, h3, h4⟩
    exact ⟨fun p hp => hp.elim (h1 p) fun e => h3 p e.symm, fun h => h.elim h2 fun e => h4 e.symm⟩

theorem handleDoneB_snoc {ops : List (BlockingOp R)} {op : BlockingOp R} :
    handleDoneB (ops ++ [op]) ↔ handleDoneB ops ∨ ∃ ans, op = .pollJoin ans ∧ ans ≠ .val .pending := by
  simp only [handleDoneB, List.mem_append, List.mem_singleton]
  constructor
  · rintro ⟨a, h | h, h'⟩
    · exact .inl ⟨a, h, h'⟩
    · exact .inr ⟨a, h.symm, h'⟩
  · rintro (⟨a, h, h'⟩ | ⟨a, h, h'⟩)
    · exact ⟨a, .inl h, h'⟩
    · exact ⟨a, .inr h.symm, h'⟩

def chanOfB (o : Poll (Option R)) : Chan R :=
  match o with
  | .ready r => ⟨true, r⟩
  | .panic => ⟨true, none⟩
  | .pending => ⟨false, none⟩

open Classical in
theorem join_pollB (o : Poll (Option R)) (ho : o ≠ .panic) (done : Prop) (ans : Call PollFuture) :
    ∃ (c' : Chan R) (j : Async Join),
      Async.poll (joinBody .ready ans) (chanOfB o) (.suspended (if done then .rx else .handle (.suspended ()))) =
        (c', j, joinResultB done ans o) ∧
      (joinResultB done ans o = .pending → c' = chanOfB o ∧
        j = .suspended (if done ∨ ans ≠ .val .pending then .rx else .handle (.suspended ()))) ∧
      (joinResultB done ans o ≠ .pending → j = .returned ∨ j = .poisoned) := by
  by_cases hd : done
  · simp only [hd, if_true, Async.poll, joinBody, true_or, joinResultB, not_true, false_and, if_false]
    cases o with
    | pending => exact ⟨_, _, rfl, by simp [chanOfB], by simp⟩
    | ready r => exact ⟨_, _, rfl, by simp, by simp⟩
    | panic => exact absurd rfl ho
  · simp only [hd, if_false, Async.poll, joinBody, false_or]
    by_cases hp : ans = .val .pending
    · subst hp
      exact ⟨chanOfB o, .suspended (.handle (.suspended ())), by simp [undynPoll, Async.settle, joinResultB], by simp, by simp [joinResultB]⟩
    · cases ans with
      | panic => exact ⟨(chanOfB o).close, .poisoned, by simp [undynPoll, Async.settle, joinResultB], by simp [joinResultB], by simp⟩
      | val x =>
        have hx : x ≠ .pending := fun h => hp (by rw [h])
        simp only [undynPoll, Async.settle, hx, if_false, hp, ne_eq, not_false_eq_true, if_true, joinResultB, and_false, reduceCtorEq]
        cases o with
        | pending => exact ⟨_, _, rfl, by simp [chanOfB], by simp⟩
        | ready r => exact ⟨_, _, rfl, by simp, by simp⟩
        | panic => exact absurd rfl ho

theorem actionResult_ne (outs : List (BlockingOut R)) : actionResult outs ≠ .panic := by
  unfold actionResult; split
  · simp
  · split <;> simp

open Classical in
structure BInv (ops : List (BlockingOp R)) (outs : List (BlockingOut R)) (s : Blocking R) : Prop where
  /-- the closure is intact as long as the action has not started and it is not dropped -/
  closure : s.closure = if .dropped ∈ outs then none else some (decide (.started ∉ outs))
  running : s.running = true ↔ .started ∈ outs ∧ ending outs = none
  notRun : .started ∉ outs → ending outs = none
  ended : .started ∈ outs → .dropped ∈ outs → ending outs ≠ none
  once : outs.countP (fun | .started => true | _ => false) ≤ 1
  alive : liveB ops outs → s.join = some (.suspended (if handleDoneB ops then .rx else .handle (.suspended ()))) ∧
    s.chan = chanOfB (actionResult outs)
  dead : ¬ liveB ops outs → s.join = none ∨ s.join = some .returned ∨ s.join = some .poisoned

theorem BInv.init : BInv (R := R) [] [] .new where
  closure := by simp [Blocking.new]
  running := by simp [Blocking.new]
  notRun _ := rfl
  ended h := by simp at h
  once := by simp
  alive _ := ⟨by simp [Blocking.new, handleDoneB], by simp [Blocking.new, actionResult, ending, chanOfB, Chan.new]⟩
  dead h := absurd ⟨by simp, by simp⟩ h

open Classical in
/-- Operations that only add an irrelevant output. -/
theorem BInv.quiet {ops : List (BlockingOp R)} {outs : List (BlockingOut R)} {s : Blocking R}
    (h : BInv ops outs s) {op : BlockingOp R} {out : BlockingOut R} (ho : out = .gone ∨ out = .panicked)
    (hop : ∀ a, op ≠ .pollJoin a) (hop' : op = .dropJoin → s.join = none) : BInv (ops ++ [op]) (outs ++ [out]) s := by
  have e1 : ∀ x, x = BlockingOut.started ∨ x = BlockingOut.dropped → (x ∈ outs ++ [out] ↔ x ∈ outs) := by
    rintro x (rfl | rfl) <;> rcases ho with rfl | rfl <;> simp
  have e2 : ending (outs ++ [out]) = ending outs := by
    rw [ending_snoc]; rcases ho with rfl | rfl <;> cases ending outs <;> rfl
  refine ⟨?_, ?_, ?_, ?_, ?_, ?_, ?_⟩
  · simp only [e1 _ (.inl rfl), e1 _ (.inr rfl)]; exact h.closure
  · simp only [e1 _ (.inl rfl), e2]; exact h.running
  · simp only [e1 _ (.inl rfl), e2]; exact h.notRun
  · simp only [e1 _ (.inl rfl), e1 _ (.inr rfl), e2]; exact h.ended
  · have := h.once
    rcases ho with rfl | rfl <;> simpa [List.countP_append] using this
  · intro hl
    obtain ⟨h1, h2⟩ := h.alive (liveB_snoc.1 hl).1
    refine ⟨by rw [h1]; simp [handleDoneB_snoc, hop], ?_⟩
    rw [h2]; simp only [actionResult, e2, e1 _ (.inr rfl)]
  · intro hl
    by_cases hl0 : liveB ops outs
    · by_cases hd : op = .dropJoin
      · exact .inl (hop' hd)
      · exact absurd (liveB_snoc.2 ⟨hl0, by rcases ho with rfl | rfl <;> simp, hd⟩) hl
    · exact h.dead hl0

open Classical in
theorem BInv.step {ops : List (BlockingOp R)} {outs : List (BlockingOut R)} {s : Blocking R}
    (h : BInv ops outs s) (op : BlockingOp R) :
    BInv (ops ++ [op]) (outs ++ [(s.step op).2]) (s.step op).1 := by
  cases op with
  | call =>
    simp only [Blocking.step]
    split
    · exact h.quiet (.inl rfl) (by simp) (by simp)
    · rename_i hr
      split
      · rename_i hc
        rw [h.closure] at hc
        have hd : BlockingOut.dropped ∉ outs := by intro h; rw [if_pos h] at hc; cases hc
        have hs : BlockingOut.started ∉ outs := by simpa [hd] using hc
        have he := h.notRun hs
        have e2 : ending (outs ++ [.started]) = none := by rw [ending_snoc, he]
        refine ⟨by simp [hd], by simp [e2], by simp, by simp [hd], ?_, ?_, ?_⟩
        · have : outs.countP (fun | .started => true | _ => false) = 0 := by
            rw [List.countP_eq_zero]
            intro x hx
            cases x <;> simp
            exact hs hx
          simp [List.countP_append, this]
        · intro hl
          obtain ⟨h1, h2⟩ := h.alive (liveB_snoc.1 hl).1
          refine ⟨by simp [h1, handleDoneB_snoc], ?_⟩
          simp [h2, actionResult, e2, he]
        · intro hl
          exact h.dead fun h' => hl (liveB_snoc.2 ⟨h', by simp, by simp⟩)
      · exact h.quiet (.inr rfl) (by simp) (by simp)
      · exact h.quiet (.inl rfl) (by simp) (by simp)
  | finish r =>
    simp only [Blocking.step]
    split
    · rename_i hr
      obtain ⟨hs, he⟩ := h.running.1 hr
      have hd : BlockingOut.dropped ∉ outs := fun hd => h.ended hs hd he
      have e2 : ending (outs ++ [.finished r]) = some r := by rw [ending_snoc, he]
      have hgen : ∀ s' : Blocking R, s'.closure = s.closure → s'.running = false → s'.join = s.join →
          (liveB ops outs → s'.chan = ⟨true, r⟩) → BInv (ops ++ [.finish r]) (outs ++ [.finished r]) s' := by
        intro s' k1 k2 k3 k4
        refine ⟨by rw [k1, h.closure]; simp, by simp [k2, e2], fun hn => absurd (by simp [hs]) hn, by simp [e2], ?_, ?_, ?_⟩
        · simpa [List.countP_append] using h.once
        · intro hl
          obtain ⟨h1, h2⟩ := h.alive (liveB_snoc.1 hl).1
          refine ⟨by simp [k3, h1, handleDoneB_snoc], ?_⟩
          rw [k4 (liveB_snoc.1 hl).1]; simp [actionResult, e2, chanOfB]
        · intro hl
          rw [k3]
          exact h.dead fun h' => hl (liveB_snoc.2 ⟨h', by simp, by simp⟩)
      have hch : liveB ops outs → s.chan = ⟨false, none⟩ := by
        intro hl
        rw [(h.alive hl).2]; simp [actionResult, he, hd, chanOfB]
      cases r with
      | some x =>
        exact hgen _ rfl rfl rfl (fun hl => by simp [hch hl, Chan.send])
      | none =>
        exact hgen _ rfl rfl rfl (fun hl => by simp [hch hl, Chan.close])
    · exact h.quiet (.inl rfl) (by simp) (by simp)
  | dropClosure =>
    simp only [Blocking.step]
    split
    · exact h.quiet (.inl rfl) (by simp) (by simp)
    · rename_i hr
      have e2 : ending (outs ++ [.dropped]) = ending outs := by
        rw [ending_snoc]; cases ending outs <;> rfl
      have hgen : ∀ s' : Blocking R, s'.closure = none → s'.running = s.running → s'.join = s.join →
          (BlockingOut.started ∈ outs → ending outs ≠ none) →
          (liveB ops outs → s'.chan = chanOfB (actionResult (outs ++ [.dropped]))) →
          BInv (ops ++ [.dropClosure]) (outs ++ [.dropped]) s' := by
        intro s' k1 k2 k3 k5 k4
        refine ⟨by simp [k1], by rw [k2, e2]; simpa using h.running, by rw [e2]; simpa using h.notRun,
          by rw [e2]; simpa using k5, ?_, ?_, ?_⟩
        · simpa [List.countP_append] using h.once
        · intro hl
          obtain ⟨h1, h2⟩ := h.alive (liveB_snoc.1 hl).1
          exact ⟨by simp [k3, h1, handleDoneB_snoc], k4 (liveB_snoc.1 hl).1⟩
        · intro hl
          rw [k3]
          exact h.dead fun h' => hl (liveB_snoc.2 ⟨h', by simp, by simp⟩)
      have k5 : BlockingOut.started ∈ outs → ending outs ≠ none := by
        intro h1 h2; exact hr (h.running.2 ⟨h1, h2⟩)
      split
      · rename_i hc
        rw [h.closure] at hc
        have hd : BlockingOut.dropped ∉ outs := by intro h; rw [if_pos h] at hc; cases hc
        have hs : BlockingOut.started ∉ outs := by simpa [hd] using hc
        refine hgen _ rfl rfl rfl k5 fun hl => ?_
        simp [(h.alive hl).2, actionResult, e2, h.notRun hs, hd, chanOfB, Chan.close]
      · rename_i hc
        rw [h.closure] at hc
        have hd : BlockingOut.dropped ∉ outs := by intro h; rw [if_pos h] at hc; cases hc
        have hs : BlockingOut.started ∈ outs := by simpa [hd] using hc
        refine hgen _ rfl rfl rfl k5 fun hl => ?_
        have := k5 hs
        simp only [(h.alive hl).2, actionResult, e2]
        cases he : ending outs with
        | none => exact absurd he this
        | some r => rfl
      · exact h.quiet (.inl rfl) (by simp) (by simp)
  | pollJoin ans =>
    have e1 : ∀ p, (∀ x, x = BlockingOut.started ∨ x = BlockingOut.dropped →
        (x ∈ outs ++ [BlockingOut.join p] ↔ x ∈ outs)) ∧ ending (outs ++ [.join p]) = ending outs := by
      intro p
      refine ⟨by rintro x (rfl | rfl) <;> simp, ?_⟩
      rw [ending_snoc]; cases ending outs <;> rfl
    have hgen : ∀ (p : Poll (Option R)) (s' : Blocking R), s'.closure = s.closure → s'.running = s.running →
        (liveB (ops ++ [.pollJoin ans]) (outs ++ [.join p]) →
          s'.join = some (.suspended (if handleDoneB (ops ++ [.pollJoin ans]) then .rx else .handle (.suspended ()))) ∧
          s'.chan = chanOfB (actionResult outs)) →
        (¬ liveB (ops ++ [.pollJoin ans]) (outs ++ [.join p]) →
          s'.join = none ∨ s'.join = some .returned ∨ s'.join = some .poisoned) →
        BInv (ops ++ [.pollJoin ans]) (outs ++ [.join p]) s' := by
      intro p s' k1 k2 k3 k4
      obtain ⟨e1, e2⟩ := e1 p
      refine ⟨?_, ?_, ?_, ?_, ?_, ?_, k4⟩
      · simp only [k1, e1 _ (.inl rfl), e1 _ (.inr rfl)]; exact h.closure
      · simp only [k2, e1 _ (.inl rfl), e2]; exact h.running
      · simp only [e1 _ (.inl rfl), e2]; exact h.notRun
      · simp only [e1 _ (.inl rfl), e1 _ (.inr rfl), e2]; exact h.ended
      · simpa [List.countP_append] using h.once
      · intro hl
        obtain ⟨h1, h2⟩ := k3 hl
        refine ⟨h1, ?_⟩
        rw [h2]; simp only [actionResult, e2, e1 _ (.inr rfl)]
    have hhd : handleDoneB (ops ++ [BlockingOp.pollJoin ans]) ↔ handleDoneB ops ∨ ans ≠ .val .pending := by
      rw [handleDoneB_snoc]; simp
    by_cases hl0 : liveB ops outs
    · obtain ⟨h1, h2⟩ := h.alive hl0
      obtain ⟨c', j, e, e1, e2⟩ := join_pollB (actionResult outs) (actionResult_ne outs) (handleDoneB ops) ans
      simp only [Blocking.step, h1, h2, e]
      refine hgen _ _ rfl rfl (fun hl => ?_) (fun hl => ?_)
      · have hp := (liveB_snoc.1 hl).2.1 _ rfl
        obtain ⟨rfl, rfl⟩ := e1 hp
        exact ⟨by simp only [hhd], rfl⟩
      · have hp : joinResultB (handleDoneB ops) ans (actionResult outs) ≠ .pending := by
          intro hp
          apply hl
          rw [liveB_snoc]
          refine ⟨hl0, ?_, by simp⟩
          intro p e
          simp only [BlockingOut.join.injEq] at e
          rw [← e, hp]
        rcases e2 hp with rfl | rfl
        · exact .inr (.inl rfl)
        · exact .inr (.inr rfl)
    · have hl : ∀ o, ¬ liveB (ops ++ [BlockingOp.pollJoin ans]) (outs ++ [o]) := fun o h' => hl0 (liveB_snoc.1 h').1
      rcases h.dead hl0 with hj | hj | hj
      · simp only [Blocking.step, hj]
        have e1 : ∀ x, x = BlockingOut.started ∨ x = BlockingOut.dropped → (x ∈ outs ++ [BlockingOut.gone] ↔ x ∈ outs) := by
          rintro x (rfl | rfl) <;> simp
        have e2 : ending (outs ++ [.gone]) = ending outs := by
          rw [ending_snoc]; cases ending outs <;> rfl
        refine ⟨?_, ?_, ?_, ?_, ?_, fun h' => absurd h' (hl _), fun _ => .inl hj⟩
        · simp only [e1 _ (.inl rfl), e1 _ (.inr rfl)]; exact h.closure
        · simp only [e1 _ (.inl rfl), e2]; exact h.running
        · simp only [e1 _ (.inl rfl), e2]; exact h.notRun
        · simp only [e1 _ (.inl rfl), e1 _ (.inr rfl), e2]; exact h.ended
        · simpa [List.countP_append] using h.once
      · simp only [Blocking.step, hj, Async.poll]
        exact hgen _ _ rfl rfl (fun h' => absurd h' (hl _)) fun _ => .inr (.inl rfl)
      · simp only [Blocking.step, hj, Async.poll]
        exact hgen _ _ rfl rfl (fun h' => absurd h' (hl _)) fun _ => .inr (.inr rfl)
  | dropJoin =>
    cases hj : s.join with
    | none =>
      simp only [Blocking.step, hj]
      exact h.quiet (.inl rfl) (by simp) (fun _ => hj)
    | some j =>
      simp only [Blocking.step, hj]
      have hl : ∀ o, ¬ liveB (ops ++ [BlockingOp.dropJoin]) (outs ++ [o]) := fun o h' => (liveB_snoc.1 h').2.2 rfl
      have e1 : ∀ x, x = BlockingOut.started ∨ x = BlockingOut.dropped → (x ∈ outs ++ [BlockingOut.unit] ↔ x ∈ outs) := by
        rintro x (rfl | rfl) <;> simp
      have e2 : ending (outs ++ [.unit]) = ending outs := by
        rw [ending_snoc]; cases ending outs <;> rfl
      refine ⟨?_, ?_, ?_, ?_, ?_, fun h' => absurd h' (hl _), fun _ => .inl rfl⟩
      · simp only [e1 _ (.inl rfl), e1 _ (.inr rfl)]; exact h.closure
      · simp only [e1 _ (.inl rfl), e2]; exact h.running
      · simp only [e1 _ (.inl rfl), e2]; exact h.notRun
      · simp only [e1 _ (.inl rfl), e1 _ (.inr rfl), e2]; exact h.ended
      · simpa [List.countP_append] using h.once

theorem BInv.run {ops : List (BlockingOp R)} {outs : List (BlockingOut R)} {s : Blocking R}
    (h : BInv ops outs s) (ops' : List (BlockingOp R)) :
    BInv (ops ++ ops') (outs ++ (s.run ops').2) (s.run ops').1 := by
  induction ops' generalizing ops outs s with
  | nil => simpa [Blocking.run] using h
  | cons op ops' ih =>
    have := ih (h.step op)
    simpa [Blocking.run] using this
end Verif.Fut
