import Verif.Js.DrainLemmas
/-!
# Lemmas about functions wrapped by `wrap_cb_for_ffi`
-/
namespace Verif.Js

structure Wrap (C : Cfg) (s : State) : Prop where
  sent : ∀ c j, Ev.sent c j ∈ s.log → Ev.inner c (some j) ∈ s.log
  finished : C.detached = false → ∀ (c : Nat) (k : Call) (r : Option Js), s.calls[c]? = some k → k.thread = C.main →
    Ev.finished c r ∈ s.log → (∃ j, r = some j ∧ Ev.inner c (some j) ∈ s.log) ∨ (r = some .undefined ∧ Ev.inner c none ∈ s.log)
  dom : ∀ c r, Ev.finished c r ∈ s.log → c < s.calls.length

theorem wrap_finish {C : Cfg} {s : State} (h : Wrap C s) {c : Nat} {st : List Nat} {k : Call} {r : Option Js} (hs : s.stack = c :: st)
    (hk : s.calls[c]? = some k)
    (hr : C.detached = false → k.thread = C.main → (∃ j, r = some j ∧ Ev.inner c (some j) ∈ s.log) ∨ (r = some .undefined ∧ Ev.inner c none ∈ s.log)) :
    Wrap C (stepFinish C s r) := by
  have hc : c < s.calls.length := by
    rcases List.getElem?_eq_some_iff.1 hk with ⟨h, _⟩; exact h
  obtain ⟨h1, h2, h3⟩ := h
  unfold stepFinish
  simp only [hs, hk, State.update, abort]
  constructor <;> grind

theorem wrap_step {C : Cfg} {s : State} (h : Wrap C s) {op : Op} (ho : op.wrapped = true) : Wrap C (step C s op) := by
  unfold step
  split
  · exact h
  · split
    · obtain ⟨h1, h2, h3⟩ := h
      unfold stepCall
      simp only [abort]
      constructor <;> grind
    · obtain ⟨h1, h2, h3⟩ := h
      unfold stepDequeue
      simp only [abort, State.update]
      constructor <;> grind
    · cases ho
    · cases ho
    · rename_i r
      unfold stepInner
      split
      · exact h
      · rename_i c st hs
        have hi : Wrap C { s with log := .inner c r :: s.log } := by
          obtain ⟨h1, h2, h3⟩ := h
          constructor <;> grind
        dsimp only
        split
        · exact h
        · rename_i k j hk
          split
          · refine wrap_finish hi hs hk fun _ _ => .inl ⟨j, rfl, by simp⟩
          · rename_i hn
            have hn : C.detached = false ∧ k.thread ≠ C.main := by simpa using hn
            have : Wrap C (stepSend C { s with log := .inner c (some j) :: s.log } c (some j)) ∧
                (stepSend C { s with log := .inner c (some j) :: s.log } c (some j)).stack = c :: st ∧
                ∃ k', (stepSend C { s with log := .inner c (some j) :: s.log } c (some j)).calls[c]? = some k' ∧ k'.thread = k.thread := by
              obtain ⟨h1, h2, h3⟩ := hi
              unfold stepSend
              simp only [hk, State.update]
              refine ⟨?_, ?_, ?_⟩
              · constructor <;> grind
              · grind
              · grind
            obtain ⟨t1, t2, k', t3, t4⟩ := this
            exact wrap_finish t1 t2 t3 fun _ e => absurd (t4 ▸ e) hn.2
        · rename_i k hk
          exact wrap_finish hi hs hk fun _ _ => .inr ⟨rfl, by simp⟩
    · obtain ⟨h1, h2, h3⟩ := h
      simp only [State.update]
      constructor <;> grind
    · obtain ⟨h1, h2, h3⟩ := h
      unfold stepWait
      simp only [abort, State.update]
      constructor <;> grind
    · obtain ⟨h1, h2, h3⟩ := h
      unfold stepWait
      simp only [abort]
      constructor <;> grind
    · obtain ⟨h1, h2, h3⟩ := h
      unfold stepWait
      simp only [abort]
      constructor <;> grind
    · obtain ⟨h1, h2, h3⟩ := h
      simp only [abort]
      constructor <;> grind

theorem wrap_run (C : Cfg) {ops : List Op} (ho : ∀ op ∈ ops, op.wrapped = true) : Wrap C (run C ops) := by
  unfold run
  suffices ∀ s, Wrap C s → Wrap C (ops.foldl (step C) s) from this _ (by constructor <;> simp)
  induction ops with
  | nil => exact fun s h => h
  | cons op ops ih =>
    exact fun s h => ih (fun o h => ho o (List.mem_cons_of_mem _ h)) _ (wrap_step h (ho op (by simp)))

theorem dead_finish {C : Cfg} {s : State} (h : s.dead = true → Ev.aborted ∈ s.log) (r : Option Js) :
    (stepFinish C s r).dead = true → Ev.aborted ∈ (stepFinish C s r).log := by
  unfold stepFinish
  simp only [State.update, abort]
  grind

theorem dead_send {C : Cfg} {s : State} (h : s.dead = true → Ev.aborted ∈ s.log) (c : Nat) (j : Option Js) :
    (stepSend C s c j).dead = true → Ev.aborted ∈ (stepSend C s c j).log := by
  unfold stepSend
  simp only [State.update]
  grind

theorem dead_step {C : Cfg} {s : State} (h : s.dead = true → Ev.aborted ∈ s.log) (op : Op) :
    (step C s op).dead = true → Ev.aborted ∈ (step C s op).log := by
  unfold step
  split
  · exact h
  · split
    · unfold stepCall
      simp only [abort]
      grind
    · unfold stepDequeue
      simp only [abort, State.update]
      grind
    · exact dead_send h _ _
    · exact dead_finish h _
    · unfold stepInner
      split
      · exact h
      · have h' : ∀ e, s.dead = true → Ev.aborted ∈ e :: s.log := fun e hd => List.mem_cons_of_mem _ (h hd)
        dsimp only
        split
        · exact h
        · split
          · exact dead_finish (h' _) _
          · exact dead_finish (dead_send (h' _) _ _) _
        · exact dead_finish (h' _) _
    · simp only [State.update]
      grind
    · unfold stepWait
      simp only [abort, State.update]
      grind
    · unfold stepWait
      simp only [abort]
      grind
    · unfold stepWait
      simp only [abort]
      grind
    · simp only [abort]
      grind

theorem dead_log (C : Cfg) (ops : List Op) : (run C ops).dead = true → Ev.aborted ∈ (run C ops).log := by
  unfold run
  suffices ∀ s : State, (s.dead = true → Ev.aborted ∈ s.log) →
      (ops.foldl (step C) s).dead = true → Ev.aborted ∈ (ops.foldl (step C) s).log from this _ (by simp)
  induction ops with
  | nil => exact fun s h => h
  | cons op ops ih => exact fun s h => ih _ (dead_step h op)

theorem numbered_suffix : ∀ {log : List Ev}, Numbered log → ∀ {m : List Ev}, m <:+ log → Numbered m
  | [], _, m, h => by rw [List.suffix_nil.1 h]; trivial
  | a :: log, hg, m, h => by
      rcases List.suffix_cons_iff.1 h with h | h
      · rw [h]; exact hg
      · refine numbered_suffix ?_ h
        cases a <;> first | exact hg.2 | exact hg

/-- `undefined` is only a value of `void`. -/
theorem fromRet_undefined {C : Cfg} {v : Val} (h : C.fromRet .undefined = .ok v) : C.ret = .void ∧ v = .void := by
  unfold Cfg.fromRet at h
  cases hr : C.ret with
  | void => rw [hr, fromJs] at h; cases h; exact ⟨rfl, rfl⟩
  | int k =>
    rw [hr, fromJs] at h
    unfold fromInt at h
    split at h <;> simp [fromSmall, from64, Res.map, Res.bind] at h
  | f32 => rw [hr, fromJs] at h; simp [fromFloat, Res.map, Res.bind] at h
  | f64 => rw [hr, fromJs] at h; simp [fromFloat, Res.map, Res.bind] at h
  | bool => rw [hr] at h; simp [fromJs] at h
  | ptr c to => rw [hr, fromJs] at h; simp [fromPtr, Res.map, Res.bind] at h
  | bytes n => rw [hr, fromJs] at h; simp [fromBytes, Res.map, Res.bind] at h
  | enum vs => rw [hr, fromJs] at h; simp [fromEnum, Res.map, Res.bind] at h
  | struct b names fields => rw [hr] at h; cases b <;> simp [fromJs, isObject] at h

theorem queue_finish {C : Cfg} {s : State} (r : Option Js) : (stepFinish C s r).queue = s.queue := by
  unfold stepFinish
  simp only [State.update, abort]
  grind

theorem queue_send {C : Cfg} {s : State} (c : Nat) (j : Option Js) : (stepSend C s c j).queue = s.queue := by
  unfold stepSend
  simp only [State.update]
  grind

theorem queue_step {C : Cfg} (hC : C.detached = true) {s : State} (h : s.queue.length ≤ 1024) (op : Op) :
    (step C s op).queue.length ≤ 1024 := by
  unfold step
  split
  · exact h
  · split
    · unfold stepCall
      simp only [abort, hC, queueBound]
      grind
    · unfold stepDequeue
      simp only [abort, State.update]
      grind
    · rw [queue_send]; exact h
    · rw [queue_finish]; exact h
    · unfold stepInner
      split
      · exact h
      · dsimp only
        split
        · exact h
        · split
          · rw [queue_finish]; exact h
          · rw [queue_finish, queue_send]; exact h
        · rw [queue_finish]; exact h
    · simp only [State.update]
      grind
    · unfold stepWait
      simp only [abort, State.update]
      grind
    · unfold stepWait
      simp only [abort]
      grind
    · unfold stepWait
      simp only [abort]
      grind
    · simp only [abort]
      grind

theorem queue_run {C : Cfg} (hC : C.detached = true) (ops : List Op) : (run C ops).queue.length ≤ 1024 := by
  unfold run
  suffices ∀ s : State, s.queue.length ≤ 1024 → (ops.foldl (step C) s).queue.length ≤ 1024 from this _ (by simp)
  induction ops with
  | nil => exact fun s h => h
  | cons op ops ih => exact fun s h => ih _ (queue_step hC h op)

theorem alive_run {C : Cfg} {ops : List Op} (hd : Ev.aborted ∉ (run C ops).log) : (run C ops).dead = false := by
  cases h : (run C ops).dead with
  | false => rfl
  | true => exact absurd (dead_log C ops h) hd

end Verif.Js
