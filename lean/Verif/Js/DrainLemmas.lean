import Verif.Js.QueueLemmas
/-!
# Lemmas about the event loop of the callback model
-/
namespace Verif.Js

def Senders (s : State) : Prop :=
  ∀ (c : Nat) (k : Call), s.calls[c]? = some k → k.sender = false → k.invoked = true ∨ Ev.skipped c ∈ s.log

theorem senders_finish {C : Cfg} {s : State} (h : Senders s) (r : Option Js) : Senders (stepFinish C s r) := by
  unfold Senders at *
  unfold stepFinish
  simp only [State.update, abort]
  grind

theorem senders_send {C : Cfg} {s : State} (h : Senders s) (c : Nat) (j : Option Js) : Senders (stepSend C s c j) := by
  unfold Senders at *
  unfold stepSend
  simp only [State.update]
  grind

theorem senders_log {s : State} (h : Senders s) (e : Ev) : Senders { s with log := e :: s.log } :=
  fun c k hk hs => (h c k hk hs).imp_right (List.mem_cons_of_mem _)

theorem senders_step {C : Cfg} {s : State} (h : Senders s) (op : Op) : Senders (step C s op) := by
  unfold step
  split
  · exact h
  · split
    · unfold Senders at *
      unfold stepCall
      simp only [abort]
      grind
    · unfold Senders at *
      unfold stepDequeue
      simp only [abort, State.update]
      grind
    · exact senders_send h _ _
    · exact senders_finish h _
    · unfold stepInner
      split
      · exact h
      · dsimp only
        split
        · exact h
        · split
          · exact senders_finish (senders_log h _) _
          · exact senders_finish (senders_send (senders_log h _) _ _) _
        · exact senders_finish (senders_log h _) _
    · unfold Senders at *
      simp only [State.update]
      grind
    · unfold Senders at *
      unfold stepWait
      simp only [State.update, abort]
      grind
    · unfold Senders at *
      unfold stepWait
      simp only [abort]
      grind
    · unfold Senders at *
      unfold stepWait
      simp only [abort]
      grind
    · unfold Senders at *
      simp only [abort]
      grind

theorem senders_run (C : Cfg) (ops : List Op) : Senders (run C ops) := by
  unfold run
  suffices ∀ s, Senders s → Senders (ops.foldl (step C) s) from this _ (by intro c k hk; simp at hk)
  induction ops with
  | nil => exact fun s h => h
  | cons op ops ih => exact fun s h => ih _ (senders_step h op)

/-- The event loop makes the first call of the queue. -/
theorem loop_one {C : Cfg} {s : State} {c : Nat} {rest : List Nat} {k : Call} (hd : s.dead = false) (hs : s.stack = [])
    (hq : s.queue = c :: rest) (hk : s.calls[c]? = some k) (hm : Queued C k.thread) (hp : C.toArgs k.args ≠ .panic) (r : Option Js) :
    let s' := step C (step C s .dequeue) (.inner r)
    s'.dead = false ∧ s'.stack = [] ∧ s'.queue = rest ∧ s.log <:+ s'.log ∧ (∀ c', c' ≠ c → s'.calls[c']? = s.calls[c']?) ∧
      Handled s'.log c ∧
      (∀ js v j, C.toArgs k.args = .ok js → C.detached = false → k.sender = true → k.sent = none → r = some j → C.fromRet j = .ok v →
        s'.calls[c]? = some { k with invoked := true, sent := some (.ok v) }) := by
  have hdir : ∀ k' : Call, k'.thread = k.thread → direct C k' = false := by
    intro k' e
    rcases hm with h | h <;> simp [direct, h, e]
  have hdir1 : direct C { k with invoked := true } = false := hdir _ rfl
  have hdir2 : ∀ x, direct C { k with invoked := true, sent := x } = false := fun _ => hdir _ rfl
  have h0 : step C s .dequeue = stepDequeue C s := by simp [step, hd]
  dsimp only
  rw [h0]
  unfold stepDequeue
  simp only [hs, hq, hk]
  cases ha : C.toArgs k.args with
  | panic => exact absurd ha hp
  | err e =>
    simp only [step, State.update, hd, Bool.false_eq_true, if_false, stepInner, hs]
    refine ⟨trivial, trivial, trivial, List.suffix_cons _ _, fun c' hc => ?_, ?_, ?_⟩
    · grind
    · exact .inr (.inl (by simp))
    · rintro js v j h; simp at h
  | ok js =>
    have hget : (s.calls.modify c ({ · with invoked := true }))[c]? = some { k with invoked := true } := by simp [hk]
    simp only [step, State.update, hd, Bool.false_eq_true, if_false, stepInner]
    rw [hget]
    cases r with
    | none =>
      simp only [stepFinish, hget, hdir1, Bool.false_eq_true, if_false]
      refine ⟨trivial, trivial, trivial, ⟨[_, _, _], rfl⟩, fun c' hc => ?_, .inl ⟨js, by simp⟩, ?_⟩
      · grind
      · rintro js v j _ _ _ _ h; simp at h
    | some j =>
      dsimp only
      split
      · rename_i hor
        simp only [stepFinish, hget, hdir1, Bool.false_eq_true, if_false]
        refine ⟨trivial, trivial, trivial, ⟨[_, _, _], rfl⟩, fun c' hc => ?_, .inl ⟨js, by simp⟩, ?_⟩
        · grind
        · intro js v j' _ hdet
          rcases hm with h | h
          · simp [h] at hdet
          · simp [hdet, h] at hor
      · rename_i hor
        obtain ⟨hor1, hor2⟩ : C.detached = false ∧ k.thread ≠ C.main := by simpa using hor
        simp only [stepSend, hget, hor1, Bool.false_or, Bool.not_true]
        split
        · rename_i hc
          simp only [stepFinish, hget, hdir1, Bool.false_eq_true, if_false]
          refine ⟨trivial, trivial, trivial, ⟨[_, _, _], rfl⟩, fun c' hc => ?_, .inl ⟨js, by simp⟩, ?_⟩
          · grind
          · intro js v j' _ _ h1 h2
            simp [h1, h2, hor2] at hc
        · rename_i hc
          split
          · rename_i hf
            simp only [stepFinish, hget, hdir1, Bool.false_eq_true, if_false]
            refine ⟨trivial, trivial, trivial, ⟨[_, _, _], rfl⟩, fun c' hc => ?_, .inl ⟨js, by simp⟩, ?_⟩
            · grind
            · intro js v j' _ _ _ _ e h
              cases e; rw [hf] at h; cases h
          · have hget' : ((s.calls.modify c ({ · with invoked := true })).modify c ({ · with sent := some (C.fromRet j) }))[c]? =
                some { k with invoked := true, sent := some (C.fromRet j) } := by
              simp [hk]
            simp only [stepFinish, State.update]
            rw [hget']
            simp only [hdir2, Bool.false_eq_true, if_false]
            refine ⟨trivial, trivial, trivial, ⟨[_, _, _, _], rfl⟩, fun c' hc => ?_, .inl ⟨js, by simp⟩, ?_⟩
            · grind
            · intro js v j' _ _ _ _ e h
              cases e; rw [hget', h]

/-- The event loop makes the first calls of the queue. -/
def loopOps (f : Nat → Option Js) (cs : List Nat) : List Op := cs.flatMap fun c => [.dequeue, .inner (f c)]

theorem loop_all {C : Cfg} (f : Nat → Option Js) : ∀ (pre rest : List Nat) {s : State}, s.dead = false → s.stack = [] →
    s.queue = pre ++ rest → (pre ++ rest).Nodup →
    (∀ c ∈ pre, ∃ k, s.calls[c]? = some k ∧ Queued C k.thread ∧ C.toArgs k.args ≠ .panic) →
    let s' := (loopOps f pre).foldl (step C) s
    s'.dead = false ∧ s'.stack = [] ∧ s'.queue = rest ∧ s.log <:+ s'.log ∧ (∀ c', c' ∉ pre → s'.calls[c']? = s.calls[c']?) ∧
      ∀ c ∈ pre, Handled s'.log c
  | [], rest, s, hd, hs, hq, hn, hc => ⟨hd, hs, hq, List.suffix_rfl, fun _ _ => rfl, by simp⟩
  | c :: pre, rest, s, hd, hs, hq, hn, hc => by
      obtain ⟨k, hk, hm, hp⟩ := hc c (by simp)
      obtain ⟨h1, h2, h3, h4, h5, h6, -⟩ := loop_one hd hs hq hk hm hp (f c)
      rw [List.cons_append, List.nodup_cons] at hn
      obtain ⟨i1, i2, i3, i4, i5, i6⟩ := loop_all f pre rest h1 h2 h3 hn.2 (fun c' hc' => by
        rw [h5 c' fun e => hn.1 (e ▸ List.mem_append_left _ hc')]
        exact hc c' (List.mem_cons_of_mem _ hc'))
      refine ⟨i1, i2, i3, h4.trans i4, fun c' hc' => ?_, fun c' hc' => ?_⟩
      · rw [List.mem_cons, not_or] at hc'
        exact (i5 c' hc'.2).trans (h5 c' hc'.1)
      · rcases List.mem_cons.1 hc' with rfl | hc'
        · exact h6.imp (fun ⟨js, h⟩ => ⟨js, i4.subset h⟩) (Or.imp (i4.subset ·) (i4.subset ·))
        · exact i6 c' hc'

theorem run_append (C : Cfg) (a b : List Op) : run C (a ++ b) = b.foldl (step C) (run C a) := List.foldl_append

end Verif.Js
