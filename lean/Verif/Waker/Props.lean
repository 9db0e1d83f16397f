import Verif.Waker.Spec
/-!
# Wakers handed to foreign code: C84
-/
namespace Verif.Waker

attribute [grind] upd

/-! ## Lemmas -/

theorem aliveFor_upd_ge (clos : Nat → Clo) (t c : Nat) (k : Clo) : ∀ n, n ≤ c → aliveFor (upd clos c k) t n = aliveFor clos t n := by
  intro n
  induction n with
  | zero => intro _; rfl
  | succ n ih =>
    intro h
    simp only [aliveFor]
    rw [ih (by omega)]
    simp only [upd, if_neg (show ¬ n = c by omega)]

theorem aliveFor_upd (clos : Nat → Clo) (t c : Nat) (k : Clo) : ∀ n, c < n →
    aliveFor (upd clos c k) t n + (if (clos c).freed = false ∧ (clos c).task = t then 1 else 0)
      = aliveFor clos t n + (if k.freed = false ∧ k.task = t then 1 else 0) := by
  intro n
  induction n with
  | zero => intro h; omega
  | succ n ih =>
    intro h
    simp only [aliveFor]
    by_cases hc : n = c
    · subst hc
      rw [aliveFor_upd_ge _ _ _ _ _ (Nat.le_refl _)]
      simp only [upd, if_true]
      omega
    · have := ih (by omega)
      simp only [upd, if_neg hc]
      omega

/-- What holds at all times. -/
structure Inv (s : State) : Prop where
  safe : Ev.useFreed ∉ s.log
  rc : ∀ t, t < s.nt → (s.tasks t).rc = (if (s.tasks t).owned = true then 1 else 0) + aliveFor s.clos t s.nc
  freed : ∀ t, t < s.nt → ((s.tasks t).freed = true ↔ (s.tasks t).rc = 0)
  polling : ∀ t, t < s.nt → (s.tasks t).polling = true → (s.tasks t).owned = true
  clo : ∀ c, c < s.nc → (s.clos c).rc = (s.clos c).held
  cloFreed : ∀ c, c < s.nc → ((s.clos c).freed = true ↔ (s.clos c).rc = 0)
  cloTask : ∀ c, c < s.nc → (s.clos c).task < s.nt
  /-- a waker is freed once, and only if it is marked so -/
  once : ∀ t, s.log.count (.freeWaker t) ≤ 1
  logged : ∀ t, Ev.freeWaker t ∈ s.log → t < s.nt ∧ (s.tasks t).freed = true
  /-- the same for closures -/
  onceClo : ∀ c, s.log.count (.freeClo c) ≤ 1
  loggedClo : ∀ c, Ev.freeClo c ∈ s.log → c < s.nc ∧ (s.clos c).freed = true

theorem Inv.init : Inv State.init := by
  constructor <;> simp [State.init]

theorem aliveFor_pos {clos : Nat → Clo} {t c n : Nat} (h : c < n) (hf : (clos c).freed = false) (ht : (clos c).task = t) :
    0 < aliveFor clos t n := by
  induction n with
  | zero => omega
  | succ n ih =>
    simp only [aliveFor]
    by_cases hc : c = n
    · subst hc; simp [hf, ht]
    · have := ih (by omega); omega

theorem aliveFor_fresh {clos : Nat → Clo} {t n : Nat} (h : ∀ c, c < n → (clos c).task < t) : aliveFor clos t n = 0 := by
  induction n with
  | zero => rfl
  | succ n ih =>
    simp only [aliveFor]
    rw [ih fun c hc => h c (by omega)]
    have := h n (by omega)
    rw [if_neg]; omega

theorem alive_of {s : State} (h : Inv s) {c : Nat} (hc : c < s.nc) (hh : 0 < (s.clos c).held) :
    (s.clos c).freed = false ∧ (s.tasks (s.clos c).task).freed = false := by
  have h1 : (s.clos c).freed = false := by
    have := h.cloFreed c hc; have := h.clo c hc
    cases hf : (s.clos c).freed <;> simp_all
  refine ⟨h1, ?_⟩
  have ht := h.cloTask c hc
  have := h.rc _ ht
  have := h.freed _ ht
  have := aliveFor_pos hc h1 rfl
  cases hf : (s.tasks (s.clos c).task).freed
  · rfl
  · have := (h.freed _ ht).mp hf; omega

theorem notFreed_of_owned {s : State} (h : Inv s) {t : Nat} (ht : t < s.nt) (ho : (s.tasks t).owned = true) :
    (s.tasks t).freed = false := by
  have := h.rc t ht
  cases hf : (s.tasks t).freed
  · rfl
  · have := (h.freed _ ht).mp hf; simp [ho] at *; omega

theorem Inv.wakeByRef {s : State} (h : Inv s) {t : Nat} (ht : t < s.nt) (hf : (s.tasks t).freed = false) :
    Inv (Verif.Waker.wakeByRef s t) := by
  unfold Verif.Waker.wakeByRef
  simp only [hf, Bool.false_eq_true, if_false]
  constructor
  case safe => have := h.safe; simpa using this
  case rc => have := h.rc; grind
  case freed => have := h.freed; grind
  case polling => have := h.polling; grind
  case clo => exact h.clo
  case cloFreed => exact h.cloFreed
  case cloTask => exact h.cloTask
  case once => intro t'; have := h.once t'; simpa [List.count_append] using this
  case logged => intro t' ht'; have := h.logged t' (by simpa using ht'); grind
  case onceClo => intro t'; have := h.onceClo t'; simpa [List.count_append] using this
  case loggedClo => intro t' ht'; exact h.loggedClo t' (by simpa using ht')

theorem Inv.step {s : State} (h : Inv s) {op : Op} (ha : Allowed s op) : Inv (Verif.Waker.step s op) := by
  cases op with
  | spawn =>
    simp only [Verif.Waker.step]
    have fresh := aliveFor_fresh (t := s.nt) h.cloTask
    constructor
    case safe => exact h.safe
    case rc => have := h.rc; grind
    case freed => have := h.freed; grind
    case polling => have := h.polling; grind
    case clo => exact h.clo
    case cloFreed => exact h.cloFreed
    case cloTask => have := h.cloTask; grind
    case once => exact h.once
    case logged => have := h.logged; grind
    case onceClo => exact h.onceClo
    case loggedClo => exact h.loggedClo
  | poll t =>
    simp only [Allowed] at ha
    simp only [Verif.Waker.step]
    constructor
    case safe => exact h.safe
    case rc => have := h.rc; grind
    case freed => have := h.freed; grind
    case polling => have := h.polling; grind
    case clo => exact h.clo
    case cloFreed => exact h.cloFreed
    case cloTask => exact h.cloTask
    case once => exact h.once
    case logged => have := h.logged; grind
    case onceClo => exact h.onceClo
    case loggedClo => exact h.loggedClo
  | endPoll t =>
    simp only [Allowed] at ha
    simp only [Verif.Waker.step]
    constructor
    case safe => exact h.safe
    case rc => have := h.rc; grind
    case freed => have := h.freed; grind
    case polling => have := h.polling; grind
    case clo => exact h.clo
    case cloFreed => exact h.cloFreed
    case cloTask => exact h.cloTask
    case once => exact h.once
    case logged => have := h.logged; grind
    case onceClo => exact h.onceClo
    case loggedClo => exact h.loggedClo
  | complete t =>
    simp only [Allowed] at ha
    have hf := notFreed_of_owned h ha.1 ha.2.1
    have hrc := h.rc t ha.1
    simp only [ha.2.1, if_true] at hrc
    simp only [Verif.Waker.step, dropWaker, upd, if_true, hf, Bool.false_eq_true, if_false]
    split
    · rename_i h1
      constructor
      case safe => have := h.safe; simpa using this
      case rc => have := h.rc; grind
      case freed => have := h.freed; grind
      case polling => have := h.polling; grind
      case clo => exact h.clo
      case cloFreed => exact h.cloFreed
      case cloTask => exact h.cloTask
      case once =>
        intro t'
        have h1 := h.once t'
        have h2 := h.logged t
        by_cases ht : t' = t
        · subst ht
          have : Ev.freeWaker t' ∉ s.log := fun c => by have := (h2 c).2; simp [hf] at this
          simp [List.count_append, List.count_eq_zero.mpr this]
        · have : Ev.freeWaker t ≠ Ev.freeWaker t' := by simpa using fun c => ht c.symm
          simpa [List.count_append, List.count_cons, this] using h1
      case logged => have := h.logged; grind
      case onceClo => intro t'; have := h.onceClo t'; simpa [List.count_append] using this
      case loggedClo => intro t' ht'; exact h.loggedClo t' (by simpa using ht')
    · rename_i h1
      constructor
      case safe => exact h.safe
      case rc => have := h.rc; grind
      case freed => have := h.freed; grind
      case polling => have := h.polling; grind
      case clo => exact h.clo
      case cloFreed => exact h.cloFreed
      case cloTask => exact h.cloTask
      case once => exact h.once
      case logged => have := h.logged; grind
      case onceClo => exact h.onceClo
      case loggedClo => exact h.loggedClo
  | contextWake t =>
    simp only [Allowed] at ha
    simp only [Verif.Waker.step, contextWake, context, ha.2, if_true]
    exact h.wakeByRef ha.1 (notFreed_of_owned h ha.1 (h.polling t ha.1 ha.2))
  | getWaker t =>
    simp only [Allowed] at ha
    have hf := notFreed_of_owned h ha.1 (h.polling t ha.1 ha.2)
    simp only [Verif.Waker.step, getWaker, context, ha.2, if_true, cloneWaker, hf, Bool.false_eq_true, if_false]
    have keep : ∀ t', aliveFor (upd s.clos s.nc ⟨t, 1, false, 1⟩) t' (s.nc + 1)
        = aliveFor s.clos t' s.nc + if t = t' then 1 else 0 := by
      intro t'
      simp only [aliveFor, aliveFor_upd_ge _ _ _ _ _ (Nat.le_refl _)]
      simp [upd]
    constructor
    case safe => exact h.safe
    case rc =>
      intro t' ht'
      rw [keep]
      have := h.rc t' ht'
      grind
    case freed => have := h.freed; grind
    case polling => have := h.polling; grind
    case clo => have := h.clo; grind
    case cloFreed => have := h.cloFreed; grind
    case cloTask => have := h.cloTask; grind
    case once => exact h.once
    case logged => have := h.logged; grind
    case onceClo => exact h.onceClo
    case loggedClo => have := h.loggedClo; grind
  | call c =>
    simp only [Allowed] at ha
    obtain ⟨h1, h2⟩ := alive_of h ha.1 ha.2
    simp only [Verif.Waker.step, callClo, h1, Bool.false_eq_true, if_false]
    exact h.wakeByRef (h.cloTask c ha.1) h2
  | retain c =>
    simp only [Allowed] at ha
    obtain ⟨h1, h2⟩ := alive_of h ha.1 ha.2
    simp only [Verif.Waker.step, retain, h1, Bool.false_eq_true, if_false]
    have keep : ∀ t', aliveFor (upd s.clos c ⟨(s.clos c).task, (s.clos c).rc + 1, false, (s.clos c).held + 1⟩) t' s.nc
        = aliveFor s.clos t' s.nc := by
      intro t'
      have := aliveFor_upd s.clos t' c ⟨(s.clos c).task, (s.clos c).rc + 1, false, (s.clos c).held + 1⟩ s.nc ha.1
      simp only [h1] at this; omega
    constructor
    case safe => exact h.safe
    case rc => intro t' ht'; rw [keep]; exact h.rc t' ht'
    case freed => exact h.freed
    case polling => exact h.polling
    case clo => have := h.clo; grind
    case cloFreed => have := h.cloFreed; grind
    case cloTask => have := h.cloTask; grind
    case once => exact h.once
    case logged => exact h.logged
    case onceClo => exact h.onceClo
    case loggedClo => have := h.loggedClo; grind
  | release c =>
    simp only [Allowed] at ha
    obtain ⟨h1, h2⟩ := alive_of h ha.1 ha.2
    have hrc := h.clo c ha.1
    have hfr := h.cloFreed c ha.1
    have htk := h.cloTask c ha.1
    have hpos := aliveFor_pos ha.1 h1 rfl
    have hk := h.rc _ htk
    have hnf := h.freed _ htk
    simp only [Verif.Waker.step, release, h1, Bool.false_eq_true, if_false]
    split
    · rename_i hone
      have keep : ∀ t', aliveFor (upd s.clos c { s.clos c with rc := 0, freed := true, held := (s.clos c).held - 1 }) t' s.nc
          + (if (s.clos c).task = t' then 1 else 0) = aliveFor s.clos t' s.nc := by
        intro t'
        have := aliveFor_upd s.clos t' c { s.clos c with rc := 0, freed := true, held := (s.clos c).held - 1 } s.nc ha.1
        simp only [h1] at this
        simpa using this
      simp only [dropWaker, h2, Bool.false_eq_true, if_false]
      have onceC : ∀ c', (s.log ++ [Ev.freeClo c]).count (.freeClo c') ≤ 1 := by
        intro c'
        have h3 := h.onceClo c'
        by_cases hc : c' = c
        · subst hc
          have : Ev.freeClo c' ∉ s.log := fun d => by have := (h.loggedClo c' d).2; simp [h1] at this
          simp [List.count_append, List.count_eq_zero.mpr this]
        · have : Ev.freeClo c ≠ Ev.freeClo c' := by simpa using fun d => hc d.symm
          simpa [List.count_append, List.count_cons, this] using h3
      have onceW : ∀ t', (s.log ++ [Ev.freeClo c]).count (.freeWaker t') ≤ 1 := by
        intro t'; have := h.once t'; simpa [List.count_append] using this
      split
      · rename_i hlast
        constructor
        case safe => have := h.safe; simpa using this
        case rc =>
          intro t' ht'
          have := h.rc t' ht'
          have := keep t'
          grind
        case freed => have := h.freed; grind
        case polling => have := h.polling; grind
        case clo => have := h.clo; grind
        case cloFreed => have := h.cloFreed; grind
        case cloTask => have := h.cloTask; grind
        case once =>
          intro t'
          have h3 := onceW t'
          by_cases ht : t' = (s.clos c).task
          · subst ht
            have : Ev.freeWaker (s.clos c).task ∉ s.log := fun d => by have := (h.logged _ d).2; simp [h2] at this
            simp [List.count_append, List.count_eq_zero.mpr this]
          · have : Ev.freeWaker (s.clos c).task ≠ Ev.freeWaker t' := by simpa using fun d => ht d.symm
            rw [List.count_append]
            simpa [List.count_cons, this] using h3
        case logged =>
          intro t' ht'
          have := h.logged t'
          simp only [List.mem_append, List.mem_singleton, reduceCtorEq, or_false, Ev.freeWaker.injEq] at ht'
          grind
        case onceClo =>
          intro c'
          rw [List.count_append]
          simpa using onceC c'
        case loggedClo =>
          intro c' hc'
          have := h.loggedClo c'
          simp only [List.mem_append, List.mem_singleton, reduceCtorEq, or_false, Ev.freeClo.injEq] at hc'
          grind
      · rename_i hmore
        constructor
        case safe => have := h.safe; simpa using this
        case rc =>
          intro t' ht'
          have := h.rc t' ht'
          have := keep t'
          grind
        case freed => have := h.freed; grind
        case polling => have := h.polling; grind
        case clo => have := h.clo; grind
        case cloFreed => have := h.cloFreed; grind
        case cloTask => have := h.cloTask; grind
        case once => exact onceW
        case logged =>
          intro t' ht'
          have := h.logged t' (by simpa using ht')
          grind
        case onceClo => exact onceC
        case loggedClo =>
          intro c' hc'
          have := h.loggedClo c'
          simp only [List.mem_append, List.mem_singleton, Ev.freeClo.injEq] at hc'
          grind
    · rename_i hmore
      have keep : ∀ t', aliveFor (upd s.clos c ⟨(s.clos c).task, (s.clos c).rc - 1, false, (s.clos c).held - 1⟩) t' s.nc
          = aliveFor s.clos t' s.nc := by
        intro t'
        have := aliveFor_upd s.clos t' c ⟨(s.clos c).task, (s.clos c).rc - 1, false, (s.clos c).held - 1⟩ s.nc ha.1
        simp only [h1] at this; omega
      constructor
      case safe => exact h.safe
      case rc => intro t' ht'; rw [keep]; exact h.rc t' ht'
      case freed => exact h.freed
      case polling => exact h.polling
      case clo => have := h.clo; grind
      case cloFreed => have := h.cloFreed; grind
      case cloTask => have := h.cloTask; grind
      case once => exact h.once
      case logged => exact h.logged
      case onceClo => exact h.onceClo
      case loggedClo => have := h.loggedClo; grind

theorem Inv.run {s : State} (h : Inv s) {ops : List Op} (hl : Lawful s ops) : Inv (Verif.Waker.run s ops) := by
  induction ops generalizing s with
  | nil => exact h
  | cons op ops ih => exact ih (h.step hl.1) hl.2

theorem run_append (s : State) (a b : List Op) : Verif.Waker.run s (a ++ b) = Verif.Waker.run (Verif.Waker.run s a) b := by
  induction a generalizing s with
  | nil => rfl
  | cons op a ih => exact ih _

theorem lawful_append {s : State} {a b : List Op} : Lawful s (a ++ b) ↔ Lawful s a ∧ Lawful (Verif.Waker.run s a) b := by
  induction a generalizing s with
  | nil => simp [Lawful, Verif.Waker.run]
  | cons op a ih => simp [Lawful, Verif.Waker.run, ih, and_assoc]

/-- The task of a closure never changes. -/
theorem task_step (s : State) (op : Op) (c : Nat) (hc : c < s.nc) :
    c < (Verif.Waker.step s op).nc ∧ ((Verif.Waker.step s op).clos c).task = (s.clos c).task := by
  cases op <;> simp only [Verif.Waker.step, contextWake, getWaker, context, callClo, retain, release, wakeByRef, cloneWaker, dropWaker] <;>
    (repeat' split) <;> grind

theorem task_run (s : State) (ops : List Op) (c : Nat) (hc : c < s.nc) :
    c < (Verif.Waker.run s ops).nc ∧ ((Verif.Waker.run s ops).clos c).task = (s.clos c).task := by
  induction ops generalizing s with
  | nil => exact ⟨hc, rfl⟩
  | cons op ops ih =>
    have h1 := task_step s op c hc
    have h2 := ih (Verif.Waker.step s op) h1.1
    exact ⟨h2.1, h2.2.trans h1.2⟩

/-- A queued task stays in the queue until it is polled or dropped. -/
theorem sched_step (s : State) (op : Op) (t : Nat) (ht : t < s.nt) (hp : op ≠ .poll t) (hd : op ≠ .complete t)
    (h : (s.tasks t).sched = true) :
    t < (Verif.Waker.step s op).nt ∧ ((Verif.Waker.step s op).tasks t).sched = true := by
  cases op <;> simp only [Verif.Waker.step, contextWake, getWaker, context, callClo, retain, release, wakeByRef, cloneWaker, dropWaker] <;>
    (repeat' split) <;> grind

/-- A history with a task polled twice, whose waker is kept by C, called from elsewhere, and outlives the task. -/
def demo : List Op :=
  [.spawn, .spawn, .poll 1, .contextWake 1, .getWaker 1, .endPoll 1, .retain 0, .poll 1, .call 0, .endPoll 1, .release 0,
   .complete 1, .call 0]

/-! ## C84 -/

/-- Whatever the executor and C do within their contracts, in any interleaving: nothing is used after its end, and each waker and
each closure is freed at most once. -/
theorem C84_safe (ops : List Op) (h : Lawful State.init ops) :
    Ev.useFreed ∉ (run State.init ops).log
    ∧ (∀ t, (run State.init ops).log.count (.freeWaker t) ≤ 1) ∧ ∀ c, (run State.init ops).log.count (.freeClo c) ≤ 1 :=
  have I := Inv.init.run h
  ⟨I.safe, I.once, I.onceClo⟩

example : Lawful State.init demo := by decide +kernel

/-- A closure obtained during a poll wakes the task of that poll, each time it is called, as long as C owns a reference to it:
after the poll is over, and after the executor dropped the task. -/
theorem C84_wakes (ops : List Op) (t : Nat) (ops' : List Op)
    (h : Lawful State.init (ops ++ .getWaker t :: ops' ++ [.call (run State.init ops).nc])) :
    (run State.init (ops ++ .getWaker t :: ops' ++ [.call (run State.init ops).nc])).log
      = (run State.init (ops ++ .getWaker t :: ops')).log ++ [.wake t] := by
  rw [lawful_append] at h
  obtain ⟨h1, h2⟩ := h
  have I := Inv.init.run h1
  have hg := (lawful_append.mp h1).2.1
  have I0 := Inv.init.run (lawful_append.mp h1).1
  simp only [Lawful, Allowed, and_true] at h2 hg
  obtain ⟨a1, a2⟩ := alive_of I h2.1 h2.2
  have hk : ((run State.init (ops ++ .getWaker t :: ops')).clos (run State.init ops).nc).task = t := by
    rw [run_append]
    simp only [run]
    generalize hs : run State.init ops = s at *
    have hf := notFreed_of_owned I0 hg.1 (I0.polling t hg.1 hg.2)
    have e : (step s (.getWaker t)).nc = s.nc + 1 ∧ ((step s (.getWaker t)).clos s.nc).task = t := by
      simp [step, getWaker, context, hg.2, cloneWaker, hf, upd]
    rw [(task_run _ ops' s.nc (by rw [e.1]; omega)).2, e.2]
  rw [run_append]
  simp only [run, step, callClo, a1, Bool.false_eq_true, if_false, wakeByRef, a2]
  rw [hk]

example : (run State.init demo).log = [.wake 1, .wake 1, .wake 1] := by decide +kernel

/-- No wake-up is lost: after a call of a closure, the task it wakes is in the executor's queue until the executor starts to poll
it again or drops it. -/
theorem C84_not_lost (ops : List Op) (c : Nat) (ops' : List Op) (h : Lawful State.init (ops ++ [.call c]))
    (t : Nat) (ht : ((run State.init ops).clos c).task = t) (ho : ((run State.init ops).tasks t).owned = true)
    (hp : Op.poll t ∉ ops') (hd : Op.complete t ∉ ops') :
    ((run State.init (ops ++ .call c :: ops')).tasks t).sched = true := by
  rw [lawful_append] at h
  obtain ⟨h1, h2⟩ := h
  have I := Inv.init.run h1
  simp only [Lawful, Allowed, and_true] at h2
  obtain ⟨a1, a2⟩ := alive_of I h2.1 h2.2
  rw [run_append]
  simp only [run]
  generalize hs : run State.init ops = s at *
  have base : t < (step s (.call c)).nt ∧ ((step s (.call c)).tasks t).sched = true := by
    have := I.cloTask c h2.1
    subst ht
    simp only [step, callClo, a1, Bool.false_eq_true, if_false, wakeByRef, a2]
    simp [upd, ho, this]
  generalize step s (.call c) = s' at base
  clear hs h1 h2 I a1 a2 ht ho
  induction ops' generalizing s' with
  | nil => exact base.2
  | cons op ops' ih =>
    simp only [List.mem_cons, not_or] at hp hd
    exact ih hp.2 hd.2 _ (sched_step _ op t base.1 (fun c => hp.1 c.symm) (fun c => hd.1 c.symm) base.2)

/-- The same for a wake-up during the poll itself. -/
theorem C84_context_wake (ops : List Op) (t : Nat) (ops' : List Op) (h : Lawful State.init (ops ++ [.contextWake t]))
    (hp : Op.poll t ∉ ops') (hd : Op.complete t ∉ ops') :
    ((run State.init (ops ++ .contextWake t :: ops')).tasks t).sched = true := by
  rw [lawful_append] at h
  obtain ⟨h1, h2⟩ := h
  have I := Inv.init.run h1
  simp only [Lawful, Allowed, and_true] at h2
  have ho := I.polling t h2.1 h2.2
  have hf := notFreed_of_owned I h2.1 ho
  rw [run_append]
  simp only [run]
  generalize hs : run State.init ops = s at *
  have base : t < (step s (.contextWake t)).nt ∧ ((step s (.contextWake t)).tasks t).sched = true := by
    simp only [step, contextWake, context, h2.2, if_true, wakeByRef, hf, Bool.false_eq_true, if_false]
    simp [upd, ho, h2.1]
  generalize step s (.contextWake t) = s' at base
  clear hs h1 h2 I hf ho
  induction ops' generalizing s' with
  | nil => exact base.2
  | cons op ops' ih =>
    simp only [List.mem_cons, not_or] at hp hd
    exact ih hp.2 hd.2 _ (sched_step _ op t base.1 (fun c => hp.1 c.symm) (fun c => hd.1 c.symm) base.2)

/-- Nothing leaks: when C has released all its references and the executor has dropped its tasks, all wakers and closures are
freed. -/
theorem C84_no_leak (ops : List Op) (h : Lawful State.init ops)
    (hc : ∀ c, c < (run State.init ops).nc → ((run State.init ops).clos c).held = 0)
    (ht : ∀ t, t < (run State.init ops).nt → ((run State.init ops).tasks t).owned = false) :
    (∀ c, c < (run State.init ops).nc → ((run State.init ops).clos c).freed = true)
    ∧ ∀ t, t < (run State.init ops).nt → ((run State.init ops).tasks t).freed = true := by
  have I := Inv.init.run h
  generalize run State.init ops = s at *
  have h1 : ∀ c, c < s.nc → (s.clos c).freed = true := by
    intro c h
    exact (I.cloFreed c h).mpr ((I.clo c h).trans (hc c h))
  refine ⟨h1, fun t h => (I.freed t h).mpr ?_⟩
  rw [I.rc t h, ht t h]
  have : ∀ n, n ≤ s.nc → aliveFor s.clos t n = 0 := by
    intro n
    induction n with
    | zero => intro _; rfl
    | succ n ih =>
      intro hn
      simp [aliveFor, ih (by omega), h1 n (by omega)]
  simp [this s.nc (Nat.le_refl _)]

example : Lawful State.init (demo ++ [.release 0, .complete 0])
    ∧ (run State.init (demo ++ [.release 0, .complete 0])).log
      = [.wake 1, .wake 1, .wake 1, .freeClo 0, .freeWaker 1, .freeWaker 0] := by decide +kernel

/-- The contract about `Context`s is needed: the exported functions take `&'static Context<'static>`, but a context used after
its poll is a use after free. -/
theorem C84_context_needed : Ev.useFreed ∈ (run State.init [.spawn, .poll 0, .endPoll 0, .contextWake 0]).log := by decide +kernel

end Verif.Waker
