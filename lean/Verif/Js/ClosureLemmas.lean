import Verif.Js.ClosureSpec
/-!
# The states of the callback model agree with their log
-/
namespace Verif.Js

/-- The call that the event is about. -/
def Ev.call : Ev → Option Nat
  | .called c _ _ | .dropped c | .skipped c | .invoked c _ | .sent c _ | .inner c _ | .finished c _ | .returned c _ => some c
  | .aborted => none

/-- `x`: the call whose inner function has just ended. -/
structure Rel (C : Cfg) (x : Option Nat) (s : State) : Prop where
  good : Good C s.log
  numbered : Numbered s.log
  dom : ∀ e ∈ s.log, ∀ c, e.call = some c → c < s.calls.length
  called : ∀ (c : Nat) (k : Call), s.calls[c]? = some k → Ev.called c k.thread k.args ∈ s.log
  called' : ∀ c t args, Ev.called c t args ∈ s.log → ∃ k, s.calls[c]? = some k ∧ k.thread = t ∧ k.args = args
  invoked : ∀ (c : Nat) (k : Call), s.calls[c]? = some k → k.invoked = true → ∃ js, Ev.invoked c js ∈ s.log
  invoked' : ∀ c js, Ev.invoked c js ∈ s.log → ∃ k, s.calls[c]? = some k ∧ k.invoked = true ∧ C.toArgs k.args = .ok js
  sent : ∀ (c : Nat) (k : Call) r, s.calls[c]? = some k → k.sent = some r → ∃ j, Ev.sent c j ∈ s.log ∧ C.fromRet j = r
  sent' : ∀ c j, Ev.sent c j ∈ s.log → ∃ k, s.calls[c]? = some k ∧ k.sent.isSome = true ∧ k.invoked = true
  done : ∀ (c : Nat) (k : Call), s.calls[c]? = some k → k.done = true → ∃ v, Ev.returned c v ∈ s.log
  done' : ∀ c v, Ev.returned c v ∈ s.log → ∃ k, s.calls[c]? = some k ∧ k.done = true
  queueIn : ∀ c ∈ s.queue, ¬ Handled s.log c ∧ ∃ k, s.calls[c]? = some k ∧ Queued C k.thread
  queueAll : s.dead = false → ∀ (c : Nat) (k : Call), s.calls[c]? = some k → Queued C k.thread → c ∈ s.queue ∨ Handled s.log c
  sorted : s.queue.Pairwise (· < ·)
  stackIn : ∀ c ∈ s.stack, (∃ js, Ev.invoked c js ∈ s.log) ∧ (some c ≠ x → ∀ r, Ev.inner c r ∉ s.log) ∧ ∀ r, Ev.finished c r ∉ s.log
  stackDone : ∀ c ∈ s.stack, ∀ k : Call, s.calls[c]? = some k → direct C k = true → k.done = false
  nodup : s.stack.Nodup
  alive : s.dead = false → Ev.aborted ∉ s.log
  sentMode : ∀ (c : Nat) (k : Call), s.calls[c]? = some k → k.sent.isSome = true → C.detached = false ∧ k.thread ≠ C.main
  detachedDone : C.detached = true → ∀ (c : Nat) (k : Call), s.calls[c]? = some k → k.done = true
  innerInvoked : ∀ c r, Ev.inner c r ∈ s.log → ∃ js, Ev.invoked c js ∈ s.log
  finishedInvoked : ∀ c r, Ev.finished c r ∈ s.log → ∃ js, Ev.invoked c js ∈ s.log

theorem rel_init (C : Cfg) : Rel C none {} := by
  constructor <;> simp [Good, Numbered]

theorem rel_abort {C : Cfg} {s : State} (h : Rel C none s) (hd : s.dead = false) : Rel C none (abort s) := by
  have ha := h.alive hd
  constructor <;> simp only [abort]
  case good => exact ⟨trivial, ha, h.good⟩
  case numbered => exact h.numbered
  case dom => intro e he c hc; rcases List.mem_cons.1 he with rfl | he; · simp [Ev.call] at hc
              exact h.dom e he c hc
  case called => intro c k hk; exact List.mem_cons_of_mem _ (h.called c k hk)
  case called' => intro c t args he; exact h.called' c t args (by simpa using he)
  case invoked => intro c k hk hi; obtain ⟨js, hj⟩ := h.invoked c k hk hi; exact ⟨js, by simp [hj]⟩
  case invoked' => intro c js he; exact h.invoked' c js (by simpa using he)
  case sent => intro c k r hk hs; obtain ⟨j, hj, e⟩ := h.sent c k r hk hs; exact ⟨j, by simp [hj], e⟩
  case sent' => intro c j he; exact h.sent' c j (by simpa using he)
  case done => intro c k hk hi; obtain ⟨v, hv⟩ := h.done c k hk hi; exact ⟨v, by simp [hv]⟩
  case done' => intro c v he; exact h.done' c v (by simpa using he)
  case queueIn => simpa [Handled] using h.queueIn
  case queueAll => simp
  case sorted => exact h.sorted
  case stackIn => simpa using h.stackIn
  case stackDone => exact h.stackDone
  case nodup => exact h.nodup
  case alive => simp
  case sentMode => exact h.sentMode
  case detachedDone => exact h.detachedDone
  case innerInvoked => simpa using h.innerInvoked
  case finishedInvoked => simpa using h.finishedInvoked

theorem rel_recv {C : Cfg} {s : State} (h : Rel C none s) (hd : s.dead = false) {c : Nat} {k : Call} {v : Val} (hk : s.calls[c]? = some k)
    (hw : waits C k = true) (hs : k.sent = some (.ok v)) :
    Rel C none { s.update c ({ · with done := true }) with log := .returned c v :: s.log } := by
  obtain ⟨g1, g2, g3, g4, g5, g6, g7, g8, g9, g10, g11, g12, g13, g14, g15, g16, g17, g18, g19, g20, g21, g22⟩ := h
  constructor <;> simp only [State.update] <;> grind [Handled, waits, direct, Ev.call, Numbered, Good, Allowed, Queued]

theorem Rel.fresh {C : Cfg} {s : State} (h : Rel C none s) :
    (∀ t args, Ev.called s.calls.length t args ∉ s.log) ∧ Ev.dropped s.calls.length ∉ s.log ∧ Ev.skipped s.calls.length ∉ s.log ∧
    (∀ js, Ev.invoked s.calls.length js ∉ s.log) ∧ (∀ j, Ev.sent s.calls.length j ∉ s.log) ∧
    (∀ r, Ev.inner s.calls.length r ∉ s.log) ∧ (∀ r, Ev.finished s.calls.length r ∉ s.log) ∧
    (∀ v, Ev.returned s.calls.length v ∉ s.log) ∧ s.calls.length ∉ s.queue ∧ s.calls.length ∉ s.stack := by
  have key : ∀ e ∈ s.log, e.call ≠ some s.calls.length := fun e he hc => Nat.lt_irrefl _ (h.dom e he _ hc)
  refine ⟨fun _ _ he => key _ he rfl, fun he => key _ he rfl, fun he => key _ he rfl, fun _ he => key _ he rfl, fun _ he => key _ he rfl,
    fun _ he => key _ he rfl, fun _ he => key _ he rfl, fun _ he => key _ he rfl, fun hq => ?_, fun hq => ?_⟩
  · obtain ⟨k, hk, _⟩ := (h.queueIn _ hq).2
    simp at hk
  · obtain ⟨js, hj⟩ := (h.stackIn _ hq).1
    exact key _ hj rfl

theorem rel_dropped {C : Cfg} {s : State} (h : Rel C none s) (hd : s.dead = false) (hc : C.detached = true) (t : Nat) (args : List Val) :
    Rel C none { s with calls := s.calls ++ [{ thread := t, args, done := true }],
                        log := .returned s.calls.length .void :: .dropped s.calls.length :: .called s.calls.length t args :: s.log } := by
  obtain ⟨f1, f2, f3, f4, f5, f6, f7, f8, f9, f10⟩ := h.fresh
  have f11 : (s.calls ++ [({ thread := t, args, done := true } : Call)])[s.calls.length]? = some { thread := t, args, done := true } := List.getElem?_concat_length
  obtain ⟨g1, g2, g3, g4, g5, g6, g7, g8, g9, g10, g11, g12, g13, g14, g15, g16, g17, g18, g19, g20, g21, g22⟩ := h
  constructor <;> simp only [State.update] <;> grind [Handled, waits, direct, Ev.call, Numbered, Good, Allowed, Queued]

theorem rel_queued {C : Cfg} {s : State} (h : Rel C none s) (hd : s.dead = false) (hc : C.detached = true) (t : Nat) (args : List Val) :
    Rel C none { s with calls := s.calls ++ [{ thread := t, args, done := true }], queue := s.queue ++ [s.calls.length],
                        log := .returned s.calls.length .void :: .called s.calls.length t args :: s.log } := by
  obtain ⟨f1, f2, f3, f4, f5, f6, f7, f8, f9, f10⟩ := h.fresh
  have f11 : (s.calls ++ [({ thread := t, args, done := true } : Call)])[s.calls.length]? = some { thread := t, args, done := true } := List.getElem?_concat_length
  obtain ⟨g1, g2, g3, g4, g5, g6, g7, g8, g9, g10, g11, g12, g13, g14, g15, g16, g17, g18, g19, g20, g21, g22⟩ := h
  constructor <;> simp only [State.update] <;> grind [Handled, waits, direct, Ev.call, Numbered, Good, Allowed, Queued]

theorem rel_direct {C : Cfg} {s : State} (h : Rel C none s) (hd : s.dead = false) (hc : C.detached = false) (args : List Val) (js : List Js)
    (hj : C.toArgs args = .ok js) :
    Rel C none { s with calls := s.calls ++ [{ thread := C.main, args, invoked := true }], stack := s.calls.length :: s.stack,
                        log := .invoked s.calls.length js :: .called s.calls.length C.main args :: s.log } := by
  obtain ⟨f1, f2, f3, f4, f5, f6, f7, f8, f9, f10⟩ := h.fresh
  have f11 : (s.calls ++ [({ thread := C.main, args, invoked := true } : Call)])[s.calls.length]? = some { thread := C.main, args, invoked := true } := List.getElem?_concat_length
  obtain ⟨g1, g2, g3, g4, g5, g6, g7, g8, g9, g10, g11, g12, g13, g14, g15, g16, g17, g18, g19, g20, g21, g22⟩ := h
  constructor <;> simp only [State.update] <;> grind [Handled, waits, direct, Ev.call, Numbered, Good, Allowed, Queued]

theorem rel_wait {C : Cfg} {s : State} (h : Rel C none s) (hd : s.dead = false) (hc : C.detached = false) (t : Nat) (ht : t ≠ C.main)
    (args : List Val) (hw : s.calls.any (fun k => k.thread == t && waits C k) = false) :
    Rel C none { s with calls := s.calls ++ [{ thread := t, args }], queue := s.queue ++ [s.calls.length],
                        log := .called s.calls.length t args :: s.log } := by
  obtain ⟨f1, f2, f3, f4, f5, f6, f7, f8, f9, f10⟩ := h.fresh
  have f11 : (s.calls ++ [({ thread := t, args } : Call)])[s.calls.length]? = some { thread := t, args } := List.getElem?_concat_length
  obtain ⟨g1, g2, g3, g4, g5, g6, g7, g8, g9, g10, g11, g12, g13, g14, g15, g16, g17, g18, g19, g20, g21, g22⟩ := h
  constructor <;> simp only [State.update] <;> grind [Handled, waits, direct, Ev.call, Numbered, Good, Allowed, Queued]

theorem rel_called {C : Cfg} {s : State} (h : Rel C none s) (hd : s.dead = false) (hc : C.detached = false) (args : List Val) :
    Rel C none { s with calls := s.calls ++ [{ thread := C.main, args }], log := .called s.calls.length C.main args :: s.log } := by
  obtain ⟨f1, f2, f3, f4, f5, f6, f7, f8, f9, f10⟩ := h.fresh
  have f11 : (s.calls ++ [({ thread := C.main, args } : Call)])[s.calls.length]? = some { thread := C.main, args } := List.getElem?_concat_length
  obtain ⟨g1, g2, g3, g4, g5, g6, g7, g8, g9, g10, g11, g12, g13, g14, g15, g16, g17, g18, g19, g20, g21, g22⟩ := h
  constructor <;> simp only [State.update] <;> grind [Handled, waits, direct, Ev.call, Numbered, Good, Allowed, Queued]

theorem rel_dequeue {C : Cfg} {s : State} (h : Rel C none s) (hd : s.dead = false) (hs : s.stack = []) {c : Nat} {q : List Nat}
    (hq : s.queue = c :: q) {k : Call} (hk : s.calls[c]? = some k) {js : List Js} (hj : C.toArgs k.args = .ok js) :
    Rel C none { s.update c ({ · with invoked := true }) with queue := q, stack := [c], log := .invoked c js :: s.log } := by
  have f1 := h.sorted
  rw [hq] at f1
  obtain ⟨f2, f3⟩ := List.pairwise_cons.1 f1
  have f4 := h.queueIn c (by simp [hq])
  have f5 := h.called c k hk
  obtain ⟨g1, g2, g3, g4, g5, g6, g7, g8, g9, g10, g11, g12, g13, g14, g15, g16, g17, g18, g19, g20, g21, g22⟩ := h
  constructor <;> simp only [State.update] <;> grind [Handled, waits, direct, Ev.call, Numbered, Good, Allowed, Queued]

theorem rel_skip {C : Cfg} {s : State} (h : Rel C none s) (hd : s.dead = false) (hs : s.stack = []) {c : Nat} {q : List Nat}
    (hq : s.queue = c :: q) {k : Call} (hk : s.calls[c]? = some k) {e : Err} (hj : C.toArgs k.args = .err e) :
    Rel C none { s.update c ({ · with sender := false }) with queue := q, log := .skipped c :: s.log } := by
  have f1 := h.sorted
  rw [hq] at f1
  obtain ⟨f2, f3⟩ := List.pairwise_cons.1 f1
  have f4 := h.queueIn c (by simp [hq])
  have f5 := h.called c k hk
  obtain ⟨g1, g2, g3, g4, g5, g6, g7, g8, g9, g10, g11, g12, g13, g14, g15, g16, g17, g18, g19, g20, g21, g22⟩ := h
  constructor <;> simp only [State.update] <;> grind [Handled, waits, direct, Ev.call, Numbered, Good, Allowed, Queued]

theorem rel_send {C : Cfg} {x : Option Nat} {s : State} (h : Rel C x s) (hd : s.dead = false) {c : Nat} {k : Call} (hk : s.calls[c]? = some k)
    (hc : C.detached = false) (ht : k.thread ≠ C.main) (hi : k.invoked = true) (hs : k.sent = none) (j : Js) :
    Rel C x { s.update c ({ · with sent := some (C.fromRet j) }) with log := .sent c j :: s.log } := by
  obtain ⟨g1, g2, g3, g4, g5, g6, g7, g8, g9, g10, g11, g12, g13, g14, g15, g16, g17, g18, g19, g20, g21, g22⟩ := h
  constructor <;> simp only [State.update] <;> grind [Handled, waits, direct, Ev.call, Numbered, Good, Allowed, Queued]

theorem rel_finish {C : Cfg} {x : Option Nat} {s : State} (h : Rel C x s) (hd : s.dead = false) {c : Nat} (hx : x = none ∨ x = some c) {st : List Nat} (hs : s.stack = c :: st)
    (r : Option Js) : Rel C none { s with stack := st, log := .finished c r :: s.log } := by
  obtain ⟨g1, g2, g3, g4, g5, g6, g7, g8, g9, g10, g11, g12, g13, g14, g15, g16, g17, g18, g19, g20, g21, g22⟩ := h
  constructor <;> simp only [State.update] <;> grind [Handled, waits, direct, Ev.call, Numbered, Good, Allowed, Queued]

theorem rel_return {C : Cfg} {x : Option Nat} {s : State} (h : Rel C x s) (hd : s.dead = false) {c : Nat} (hx : x = none ∨ x = some c) {st : List Nat} (hs : s.stack = c :: st)
    {k : Call} (hk : s.calls[c]? = some k) (hk' : direct C k = true) {j : Js} {v : Val} (hv : C.fromRet j = .ok v) :
    Rel C none { { s with stack := st, log := .finished c (some j) :: s.log }.update c ({ · with done := true }) with
      log := .returned c v :: .finished c (some j) :: s.log } := by
  obtain ⟨g1, g2, g3, g4, g5, g6, g7, g8, g9, g10, g11, g12, g13, g14, g15, g16, g17, g18, g19, g20, g21, g22⟩ := h
  constructor <;> simp only [State.update] <;> grind [Handled, waits, direct, Ev.call, Numbered, Good, Allowed, Queued]

theorem rel_collect {C : Cfg} {s : State} (h : Rel C none s) (c : Nat) : Rel C none (s.update c ({ · with sender := false })) := by
  obtain ⟨g1, g2, g3, g4, g5, g6, g7, g8, g9, g10, g11, g12, g13, g14, g15, g16, g17, g18, g19, g20, g21, g22⟩ := h
  constructor <;> simp only [State.update] <;> grind [Handled, waits, direct, Ev.call, Numbered, Good, Allowed, Queued]

theorem rel_inner {C : Cfg} {s : State} (h : Rel C none s) (hd : s.dead = false) {c : Nat} {st : List Nat} (hs : s.stack = c :: st)
    (r : Option Js) : Rel C (some c) { s with log := .inner c r :: s.log } := by
  obtain ⟨g1, g2, g3, g4, g5, g6, g7, g8, g9, g10, g11, g12, g13, g14, g15, g16, g17, g18, g19, g20, g21, g22⟩ := h
  constructor <;> simp only [State.update] <;> grind [Handled, waits, direct, Ev.call, Numbered, Good, Allowed, Queued]

theorem rel_popped {C : Cfg} {s : State} (h : Rel C none s) (hd : s.dead = false) {c : Nat} {q : List Nat} (hq : s.queue = c :: q) :
    Rel C none (abort { s with queue := q }) := by
  have f1 := h.sorted
  rw [hq] at f1
  obtain ⟨f2, f3⟩ := List.pairwise_cons.1 f1
  obtain ⟨g1, g2, g3, g4, g5, g6, g7, g8, g9, g10, g11, g12, g13, g14, g15, g16, g17, g18, g19, g20, g21, g22⟩ := h
  constructor <;> simp only [abort] <;> grind [Handled, waits, direct, Ev.call, Numbered, Good, Allowed, Queued]

theorem rel_stepCall {C : Cfg} {s : State} (h : Rel C none s) (hd : s.dead = false) (t : Nat) (args : List Val) :
    Rel C none (stepCall C s t args) := by
  unfold stepCall
  split
  · rename_i hc
    split
    · exact rel_dropped h hd hc t args
    · exact rel_queued h hd hc t args
  · rename_i hc
    have hc : C.detached = false := by simpa using hc
    split
    · rename_i ht
      subst ht
      split
      · rename_i js hj
        exact rel_direct h hd hc args js hj
      · exact rel_abort (rel_called h hd hc args) hd
    · rename_i ht
      split
      · exact h
      · rename_i hw
        exact rel_wait h hd hc t ht args (by simpa using hw)

theorem rel_stepDequeue {C : Cfg} {s : State} (h : Rel C none s) (hd : s.dead = false) : Rel C none (stepDequeue C s) := by
  unfold stepDequeue
  split
  · rename_i c q hs hq
    split
    · exact h
    · rename_i k hk
      split
      · rename_i js hj
        exact rel_dequeue h hd hs hq hk hj
      · rename_i e hj
        exact rel_skip h hd hs hq hk hj
      · exact rel_popped h hd hq
  · exact h

theorem rel_stepSend {C : Cfg} {x : Option Nat} {s : State} (h : Rel C x s) (hd : s.dead = false) (c : Nat) (j : Option Js) :
    Rel C x (stepSend C s c j) ∧ (stepSend C s c j).dead = false ∧ (stepSend C s c j).stack = s.stack := by
  unfold stepSend
  split
  · rename_i k j hk
    split
    · exact ⟨h, hd, rfl⟩
    · rename_i hn
      simp only [Bool.or_eq_true, not_or, Bool.not_eq_true, Bool.not_eq_false', Option.isSome_eq_false_iff, beq_eq_false_iff_ne,
        Option.isNone_iff_eq_none] at hn
      obtain ⟨⟨⟨⟨h1, h2⟩, h3⟩, h4⟩, h5⟩ := hn
      split
      · exact ⟨h, hd, rfl⟩
      · exact ⟨rel_send h hd hk h1 h2 h3 h5 j, hd, rfl⟩
  · exact ⟨h, hd, rfl⟩

theorem rel_stepFinish {C : Cfg} {x : Option Nat} {s : State} (h : Rel C x s) (hd : s.dead = false)
    (hx : x = none ∨ ∃ c st, x = some c ∧ s.stack = c :: st) (r : Option Js) :
    Rel C none (stepFinish C s r) := by
  unfold stepFinish
  split
  · rename_i hs
    rcases hx with rfl | ⟨c, st, _, hc⟩
    · exact h
    · simp [hs] at hc
  · rename_i c st hs
    have hx' : x = none ∨ x = some c := by
      rcases hx with hx | ⟨c', st', hx, hc⟩
      · exact .inl hx
      · rw [hs] at hc; cases hc; exact .inr hx
    have hc : c < s.calls.length := by
      obtain ⟨js, hj⟩ := (h.stackIn c (by simp [hs])).1
      exact h.dom _ hj c rfl
    split
    · rename_i hn; simp at hn; omega
    · rename_i k hk
      split
      · rename_i hk'
        split
        · rename_i v hv
          cases r with
          | none => cases hv
          | some j => exact rel_return h hd hx' hs hk hk' (by simpa using hv)
        · exact rel_abort (rel_finish h hd hx' hs r) hd
      · exact rel_finish h hd hx' hs r

theorem rel_stepInner {C : Cfg} {s : State} (h : Rel C none s) (hd : s.dead = false) (r : Option Js) : Rel C none (stepInner C s r) := by
  unfold stepInner
  split
  · exact h
  · rename_i c st hs
    have hi := rel_inner h hd hs r
    have hx : some c = none ∨ ∃ c' st', some c = some c' ∧ ({ s with log := .inner c r :: s.log } : State).stack = c' :: st' :=
      .inr ⟨c, st, rfl, hs⟩
    dsimp only
    split
    · exact h
    · split
      · exact rel_stepFinish hi hd hx _
      · rename_i k j hk hn
        obtain ⟨h1, h2, h3⟩ := rel_stepSend hi hd c (some j)
        exact rel_stepFinish h1 h2 (.inr ⟨c, st, rfl, h3.trans hs⟩) _
    · exact rel_stepFinish hi hd hx _

theorem rel_step {C : Cfg} {s : State} (h : Rel C none s) (op : Op) : Rel C none (step C s op) := by
  unfold step
  split
  · exact h
  · rename_i hd
    have hd : s.dead = false := by simpa using hd
    split
    · exact rel_stepCall h hd _ _
    · exact rel_stepDequeue h hd
    · exact (rel_stepSend h hd _ _).1
    · exact rel_stepFinish h hd (.inl rfl) _
    · exact rel_stepInner h hd _
    · split
      · split
        · exact rel_collect h _
        · exact h
      · exact h
    · unfold stepWait
      split
      · rename_i k hk
        split
        · rename_i hw
          dsimp only
          split
          · exact h
          · rename_i v hv
            exact rel_recv h hd hk hw hv
          · exact rel_abort h hd
        · exact h
      · exact h
    · unfold stepWait
      dsimp only
      repeat' split
      all_goals first | exact h | exact rel_abort h hd
    · unfold stepWait
      dsimp only
      repeat' split
      all_goals first | exact h | exact rel_abort h hd
    · exact rel_abort h hd

theorem rel_run (C : Cfg) (ops : List Op) : Rel C none (run C ops) := by
  unfold run
  suffices ∀ s, Rel C none s → Rel C none (ops.foldl (step C) s) from this _ (rel_init C)
  induction ops with
  | nil => exact fun s h => h
  | cons op ops ih => exact fun s h => ih _ (rel_step h op)

end Verif.Js
