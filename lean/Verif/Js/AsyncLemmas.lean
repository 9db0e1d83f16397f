import Verif.Js.AsyncSpec
import Verif.Js.ValidProps
/-!
# Lemmas about the asynchronous exports
-/
namespace Verif.Js
open Headers

mutual
theorem shape_scribble (f : Nat → UInt8 → UInt8) : ∀ v : Val, (v.scribble f).shape = v.shape
  | .ptr (.mem bs) => by
    simp only [Val.scribble, Val.shape, Val.ptr.injEq, Ptr.mem.injEq]
    apply List.ext_getElem <;> simp
  | .ptr (.addr _) => rfl
  | .struct vs => by simp only [Val.scribble, Val.shape, shapes_scribbles f vs]
  | .int _ | .float _ | .bool _ | .void | .bytes _ | .disc _ => rfl
theorem shapes_scribbles (f : Nat → UInt8 → UInt8) : ∀ vs : List Val, shapes (scribbles f vs) = shapes vs
  | [] => rfl
  | v :: vs => by simp only [scribbles, shapes, shape_scribble f v, shapes_scribbles f vs]
end

mutual
theorem scribble_fixed (E : Env) (b : Nat → Text) (narrow : Num → Num) (f : Nat → UInt8 → UInt8) :
    ∀ (ty : JTy) (j : Js) (v : Val), ty.takesBuffer = false → fromJs E b narrow ty j = .ok v → v.scribble f = v
  | .int k, j, v, _, h => by rw [fromJs] at h; obtain ⟨a, _, rfl⟩ := Res.map_ok h; rfl
  | .f32, j, v, _, h => by rw [fromJs] at h; obtain ⟨a, _, rfl⟩ := Res.map_ok h; rfl
  | .f64, j, v, _, h => by rw [fromJs] at h; obtain ⟨a, _, rfl⟩ := Res.map_ok h; rfl
  | .bool, j, v, _, h => by
    cases j with
    | bool x => simp only [fromJs, Res.ok.injEq] at h; rw [← h]; rfl
    | _ => simp [fromJs] at h
  | .void, j, v, _, h => by
    cases j with
    | undefined => simp only [fromJs, Res.ok.injEq] at h; rw [← h]; rfl
    | _ => simp [fromJs] at h
  | .ptr const to, j, v, ht, h => by
    rw [fromJs] at h
    obtain ⟨p, h1, rfl⟩ := Res.map_ok h
    rcases fromPtr_valid E b const to j p h1 with ⟨a, rfl, _⟩ | ⟨rfl, rfl, _⟩
    · rfl
    · simp [JTy.takesBuffer] at ht
  | .bytes n, j, v, _, h => by rw [fromJs] at h; obtain ⟨bs, _, rfl⟩ := Res.map_ok h; rfl
  | .enum variants, j, v, _, h => by rw [fromJs] at h; obtain ⟨d, _, rfl⟩ := Res.map_ok h; rfl
  | .struct true names fields, j, v, ht, h => by simp [JTy.takesBuffer] at ht
  | .struct false names fields, j, v, ht, h => by
    simp only [JTy.takesBuffer, Bool.false_or] at ht
    simp only [fromJs] at h
    by_cases ho : isObject j = true
    · rw [if_pos ho] at h
      obtain ⟨vs, h1, rfl⟩ := Res.map_ok h
      rw [Val.scribble, scribbles_fixed E b narrow f fields names j vs ht h1]
    · rw [if_neg ho] at h; simp at h
theorem scribbles_fixed (E : Env) (b : Nat → Text) (narrow : Num → Num) (f : Nat → UInt8 → UInt8) :
    ∀ (tys : List JTy) (names : List Text) (j : Js) (vs : List Val), takeBuffer tys = false →
      fromProps E b narrow names tys j = .ok vs → scribbles f vs = vs
  | [], [], j, vs, _, h => by simp only [fromProps, Res.ok.injEq] at h; rw [← h]; rfl
  | [], _ :: _, j, vs, _, h => by simp only [fromProps, Res.ok.injEq] at h; rw [← h]; rfl
  | _ :: _, [], j, vs, _, h => by simp only [fromProps, Res.ok.injEq] at h; rw [← h]; rfl
  | ty :: tys, name :: names, j, vs, ht, h => by
    rw [takeBuffer, Bool.or_eq_false_iff] at ht
    simp only [fromProps] at h
    obtain ⟨v, h1, h2⟩ := Res.bind_ok h
    obtain ⟨ws, h3, rfl⟩ := Res.map_ok h2
    rw [scribbles, scribble_fixed E b narrow f ty _ v ht.1 h1, scribbles_fixed E b narrow f tys names j ws ht.2 h3]
end

theorem fromArgs_fixed (E : Env) (b : Nat → Text) (narrow : Num → Num) (f : Nat → UInt8 → UInt8) :
    ∀ (tys : List JTy) (js : List Js) (vs : List Val), takeBuffer tys = false →
      fromArgs E b narrow tys js = .ok vs → scribbles f vs = vs
  | [], [], vs, _, h => by simp only [fromArgs, Res.ok.injEq] at h; rw [← h]; rfl
  | [], _ :: _, vs, _, h => by simp [fromArgs] at h
  | _ :: _, [], vs, _, h => by simp [fromArgs] at h
  | ty :: tys, j :: js, vs, ht, h => by
    rw [takeBuffer, Bool.or_eq_false_iff] at ht
    simp only [fromArgs] at h
    obtain ⟨v, h1, h2⟩ := Res.bind_ok h
    obtain ⟨ws, h3, rfl⟩ := Res.map_ok h2
    rw [scribbles, scribble_fixed E b narrow f ty _ v ht.1 h1, fromArgs_fixed E b narrow f tys js ws ht.2 h3]

/-! ### Worker tasks -/

/-- The steps of a call, and the task. -/
inductive WorkInv (S : Sig) (i : Nat) (refused : Prop) : List AEv → Work → Prop
  | queued {js args a} : fromArgs S.E S.b S.narrow S.params js = .ok args → shapes a = shapes args →
      ((∀ f, scribbles f args = args) → a = args) →
      WorkInv S i refused [.promised i js] ⟨some a, false, none, false⟩
  | running {js args a} : fromArgs S.E S.b S.narrow S.params js = .ok args → shapes a = shapes args →
      ((∀ f, scribbles f args = args) → a = args) →
      WorkInv S i refused [.promised i js, .called i a] ⟨none, true, none, false⟩
  | returned {js args a v o} : fromArgs S.E S.b S.narrow S.params js = .ok args → shapes a = shapes args →
      ((∀ f, scribbles f args = args) → a = args) → (o = .ok v ∨ o = .err .genericFailure ∧ refused) →
      WorkInv S i refused [.promised i js, .called i a, .returned i v] ⟨none, false, some o, false⟩
  | settled {js args a v o r} : fromArgs S.E S.b S.narrow S.params js = .ok args → shapes a = shapes args →
      ((∀ f, scribbles f args = args) → a = args) →
      (r = toJs S.E S.b S.ret v ∨ r = .err .genericFailure ∧ refused) →
      WorkInv S i refused [.promised i js, .called i a, .returned i v, .settled i r] ⟨none, false, some o, true⟩

theorem WorkInv.mono {S : Sig} {i : Nat} {p q : Prop} (h : p → q) {l : List AEv} {w : Work} (hw : WorkInv S i p l w) : WorkInv S i q l w := by
  cases hw with
  | queued h1 h2 h3 => exact .queued h1 h2 h3
  | running h1 h2 h3 => exact .running h1 h2 h3
  | returned h1 h2 h3 h4 => exact .returned h1 h2 h3 (h4.imp id (And.imp_right h))
  | settled h1 h2 h3 h4 => exact .settled h1 h2 h3 (h4.imp id (And.imp_right h))

structure PoolInv (S : Sig) (s : Pool) : Prop where
  work : ∀ i w, s.works[i]? = some w → WorkInv S i (.refused i ∈ s.log) (steps i s.log) w
  fresh : ∀ i, s.works.length ≤ i → steps i s.log = []
  threw : ∀ js, .threw js ∈ s.log → ∀ args, fromArgs S.E S.b S.narrow S.params js ≠ .ok args

theorem steps_append (i : Nat) (l l' : List AEv) : steps i (l ++ l') = steps i l ++ steps i l' := List.filter_append ..

/-- Replacing task `k`, with steps of that call. -/
theorem PoolInv.put {S : Sig} {s : Pool} (h : PoolInv S s) {k : Nat} {w : Work} (hk : k < s.works.length) (evs : List AEv)
    (hev : ∀ e ∈ evs, (∀ i, i ≠ k → e.of i = false) ∧ ∀ js, e ≠ .threw js)
    (hw : WorkInv S k (.refused k ∈ s.log ++ evs) (steps k s.log ++ steps k evs) w) : PoolInv S (s.put k w evs) := by
  have hne : ∀ i, i ≠ k → steps i evs = [] := by
    intro i hi
    rw [steps, List.filter_eq_nil_iff]
    intro e he
    simp [(hev e he).1 i hi]
  refine ⟨?_, ?_, ?_⟩
  · intro i w' hw'
    simp only [Pool.put, steps_append] at hw' ⊢
    rw [List.getElem?_set] at hw'
    by_cases hik : k = i
    · subst hik
      rw [if_pos rfl, if_pos hk] at hw'
      simp only [Option.some.injEq] at hw'
      rw [← hw']
      exact hw
    · rw [if_neg hik] at hw'
      rw [hne i (Ne.symm hik), List.append_nil]
      exact (h.work i w' hw').mono (fun hm => List.mem_append_left _ hm)
  · intro i hi
    simp only [Pool.put, List.length_set, steps_append] at hi ⊢
    rw [h.fresh i hi, hne i (by omega)]
    rfl
  · intro js hjs
    simp only [Pool.put, List.mem_append] at hjs
    rcases hjs with h' | h'
    · exact h.threw js h'
    · exact absurd rfl ((hev _ h').2 js)

theorem pool_step {S : Sig} {s : Pool} (h : PoolInv S s) (op : PoolOp) : PoolInv S (s.step S op) := by
  cases op with
  | call js =>
    have reject : (∀ args, fromArgs S.E S.b S.narrow S.params js ≠ .ok args) → PoolInv S { s with log := s.log ++ [.threw js] } := by
      intro hr
      refine ⟨?_, ?_, ?_⟩
      · intro i w hw
        simp only [steps_append]
        rw [show steps i [AEv.threw js] = [] from rfl, List.append_nil]
        exact (h.work i w hw).mono (fun hm => List.mem_append_left _ hm)
      · intro i hi
        simp only [steps_append]
        rw [show steps i [AEv.threw js] = [] from rfl, List.append_nil]
        exact h.fresh i hi
      · intro js' hjs'
        simp only [List.mem_append, List.mem_singleton, AEv.threw.injEq] at hjs'
        rcases hjs' with h' | rfl
        · exact h.threw js' h'
        · exact hr
    simp only [Pool.step]
    cases hc : fromArgs S.E S.b S.narrow S.params js with
    | ok args =>
      have hne : ∀ i, i ≠ s.works.length → steps i [AEv.promised s.works.length js] = [] := by
        intro i hi
        simp [steps, AEv.of, Ne.symm hi]
      refine ⟨?_, ?_, ?_⟩
      · intro i w hw
        simp only [steps_append] at hw ⊢
        by_cases hi : i < s.works.length
        · rw [List.getElem?_append_left hi] at hw
          rw [hne i (by omega), List.append_nil]
          exact (h.work i w hw).mono (fun hm => List.mem_append_left _ hm)
        · rw [List.getElem?_append_right (by omega), List.getElem?_singleton] at hw
          split at hw
          · simp only [Option.some.injEq] at hw
            obtain rfl : i = s.works.length := by omega
            rw [← hw, h.fresh _ (Nat.le_refl _)]
            rw [show steps s.works.length [AEv.promised s.works.length js] = [.promised s.works.length js] by simp [steps, AEv.of]]
            exact .queued hc rfl (fun _ => rfl)
          · simp at hw
      · intro i hi
        simp only [List.length_append, List.length_singleton, steps_append] at hi ⊢
        rw [h.fresh i (by omega), hne i (by omega)]
        rfl
      · intro js' hjs'
        simp only [List.mem_append, List.mem_singleton, reduceCtorEq, or_false] at hjs'
        exact h.threw js' hjs'
    | err e => exact reject (by simp [hc])
    | panic => exact reject (by simp [hc])
  | compute k =>
    simp only [Pool.step]
    cases hk : s.works[k]? with
    | none => exact h
    | some w =>
      have hl : k < s.works.length := (List.getElem?_eq_some_iff.1 hk).1
      have hw := h.work k w hk
      have h1 : ∀ a, steps k [AEv.called k a] = [.called k a] := fun a => by simp [steps, AEv.of]
      have h2 : ∀ e ∈ [AEv.refused k], (∀ i, i ≠ k → e.of i = false) ∧ ∀ js, e ≠ .threw js := by
        intro e he; rw [List.mem_singleton] at he; subst he; exact ⟨fun _ _ => rfl, nofun⟩
      generalize hlog : steps k s.log = l at hw
      cases hw with
      | queued hc hs hb =>
        refine h.put hl _ ?_ ?_
        · intro e he
          rw [List.mem_singleton] at he
          subst he
          exact ⟨fun i hi => by simp [AEv.of, Ne.symm hi], nofun⟩
        · rw [hlog, h1]
          exact .running hc hs hb
      | running => exact h
      | returned hc hs hb ho =>
        refine h.put hl _ h2 ?_
        rw [hlog]
        exact .returned hc hs hb (.inr ⟨rfl, by simp⟩)
      | settled hc hs hb hr =>
        refine h.put hl _ h2 ?_
        rw [hlog]
        exact .settled hc hs hb (hr.imp id (And.imp_right (fun hm => List.mem_append_left _ hm)))
  | finish k v =>
    simp only [Pool.step]
    cases hk : s.works[k]? with
    | none => exact h
    | some w =>
      have hl : k < s.works.length := (List.getElem?_eq_some_iff.1 hk).1
      have hw := h.work k w hk
      generalize hlog : steps k s.log = l at hw
      cases hw with
      | running hc hs hb =>
        refine h.put hl _ ?_ ?_
        · intro e he
          rw [List.mem_singleton] at he
          subst he
          exact ⟨fun i hi => by simp [AEv.of, Ne.symm hi], nofun⟩
        · rw [hlog, show steps k [AEv.returned k v] = [.returned k v] by simp [steps, AEv.of]]
          exact .returned hc hs hb (.inl rfl)
      | _ => exact h
  | settle k =>
    simp only [Pool.step]
    cases hk : s.works[k]? with
    | none => exact h
    | some w =>
      have hl : k < s.works.length := (List.getElem?_eq_some_iff.1 hk).1
      have hw := h.work k w hk
      generalize hlog : steps k s.log = l at hw
      cases hw with
      | @returned js args a v o hc hs hb ho =>
        refine h.put hl _ ?_ ?_
        · intro e he
          rw [List.mem_singleton] at he
          subst he
          exact ⟨fun i hi => by simp [AEv.of, Ne.symm hi], nofun⟩
        · rw [hlog, show ∀ r, steps k [AEv.settled k r] = [.settled k r] from fun r => by simp [steps, AEv.of]]
          refine .settled hc hs hb ?_
          rcases ho with rfl | ⟨rfl, hr⟩
          · exact .inl rfl
          · exact .inr ⟨rfl, List.mem_append_left _ hr⟩
      | _ => exact h
  | scribble k f =>
    simp only [Pool.step]
    cases hk : s.works[k]? with
    | none => exact h
    | some w =>
      have hl : k < s.works.length := (List.getElem?_eq_some_iff.1 hk).1
      have hw := h.work k w hk
      refine h.put hl [] nofun ?_
      rw [show steps k [] = [] from rfl, List.append_nil, List.append_nil]
      generalize hlog : steps k s.log = l at hw ⊢
      cases hw with
      | queued hc hs hb =>
        exact .queued hc (by rw [shapes_scribbles, hs]) (fun hf => by rw [hb hf, hf])
      | running hc hs hb => exact .running hc hs hb
      | returned hc hs hb ho => exact .returned hc hs hb ho
      | settled hc hs hb ho => exact .settled hc hs hb ho

theorem pool_inv (S : Sig) (ops : List PoolOp) : PoolInv S (Pool.run S {} ops) := by
  have key : ∀ (ops : List PoolOp) (s : Pool), PoolInv S s → PoolInv S (Pool.run S s ops) := by
    intro ops
    induction ops with
    | nil => exact fun _ h => h
    | cons op ops ih => exact fun s h => ih _ (pool_step h op)
  exact key ops _ ⟨nofun, fun _ _ => rfl, nofun⟩

/-! ### How often the pool runs a task -/

open Classical in
theorem pool_counts (S : Sig) (i : Nat) (ops : List PoolOp) :
    ∀ s : Pool, PoolInv S s →
      (.refused i ∈ (Pool.run S s ops).log → .refused i ∉ s.log →
        (if ∃ a, AEv.called i a ∈ s.log then 1 else 2) ≤ ops.countP (·.runs i)) := by
  induction ops with
  | nil => exact fun s _ h h' => absurd h h'
  | cons op ops ih =>
    intro s hs h h'
    have hs' := pool_step hs op
    by_cases hr : AEv.refused i ∈ (s.step S op).log
    · -- this operation is refused
      have : ∃ w, op = .compute i ∧ s.works[i]? = some w ∧ w.running = false ∧ w.onWorker = none := by
        cases op with
        | call js =>
          simp only [Pool.step] at hr
          split at hr <;> simp_all
        | compute k =>
          simp only [Pool.step] at hr
          split at hr
          · next w hw =>
            split at hr
            · exact absurd hr h'
            · next hrun =>
              split at hr
              · simp [Pool.put, h'] at hr
              · next hon =>
                simp only [Pool.put, List.mem_append, List.mem_singleton, AEv.refused.injEq] at hr
                rcases hr with hr | rfl
                · exact absurd hr h'
                · exact ⟨w, rfl, hw, by simpa using hrun, hon⟩
          · exact absurd hr h'
        | finish k v =>
          simp only [Pool.step] at hr
          split at hr
          · split at hr
            · simp [Pool.put, h'] at hr
            · exact absurd hr h'
          · exact absurd hr h'
        | settle k =>
          simp only [Pool.step] at hr
          split at hr
          · split at hr
            · simp [Pool.put, h'] at hr
            · exact absurd hr h'
          · exact absurd hr h'
        | scribble k f =>
          simp only [Pool.step] at hr
          split at hr
          · simp [Pool.put, h'] at hr
          · exact absurd hr h'
      obtain ⟨w, rfl, hw, hrun, hon⟩ := this
      have hinv := hs.work i w hw
      have hc : ∃ a, AEv.called i a ∈ s.log := by
        have mem : ∀ a, AEv.called i a ∈ steps i s.log → AEv.called i a ∈ s.log := fun a ha => (List.mem_filter.1 ha).1
        generalize steps i s.log = l at hinv mem
        cases hinv with
        | queued => simp at hon
        | running => simp at hrun
        | @returned js args a => exact ⟨a, mem a (by simp)⟩
        | @settled js args a => exact ⟨a, mem a (by simp)⟩
      rw [if_pos hc, List.countP_cons_of_pos (by simp [PoolOp.runs])]
      omega
    · have := ih _ hs' h hr
      by_cases hc : ∃ a, AEv.called i a ∈ s.log
      · rw [if_pos hc]
        have hc' : ∃ a, AEv.called i a ∈ (s.step S op).log := by
          obtain ⟨a, ha⟩ := hc
          refine ⟨a, ?_⟩
          cases op <;> simp only [Pool.step]
          all_goals (repeat' split) <;> simp [Pool.put, ha]
        rw [if_pos hc'] at this
        exact Nat.le_trans this (by rw [List.countP_cons]; omega)
      · rw [if_neg hc]
        by_cases hc' : ∃ a, AEv.called i a ∈ (s.step S op).log
        · rw [if_pos hc'] at this
          have hop : op.runs i = true := by
            obtain ⟨a, ha⟩ := hc'
            have hn : AEv.called i a ∉ s.log := fun hm => hc ⟨a, hm⟩
            cases op <;> simp only [Pool.step] at ha
            all_goals (repeat' split at ha) <;> simp_all [Pool.put, PoolOp.runs]
          rw [List.countP_cons_of_pos hop]
          exact Nat.succ_le_succ this
        · rw [if_neg hc'] at this
          refine Nat.le_trans this ?_
          rw [List.countP_cons]
          omega

/-! ### Spawned futures -/

section
variable {W τ : Type}

/-- The steps of a call, and the task. -/
inductive SpawnInv (S : Sig) (F : AsyncFn W τ) (i : Nat) : List AEv → Spawned τ → Prop
  | pending {js args t₀ f} : fromArgs S.E S.b S.narrow S.params js = .ok args → F.prelude args = some t₀ → f ≠ .returned →
      SpawnInv S F i [.promised i js, .called i args] ⟨f, none, false⟩
  | returned {js args t₀ v} : fromArgs S.E S.b S.narrow S.params js = .ok args → F.prelude args = some t₀ →
      SpawnInv S F i [.promised i js, .called i args, .returned i v] ⟨.returned, some v, false⟩
  | settled {js args t₀ v} : fromArgs S.E S.b S.narrow S.params js = .ok args → F.prelude args = some t₀ →
      SpawnInv S F i [.promised i js, .called i args, .returned i v, .settled i (toJs S.E S.b S.ret v)] ⟨.returned, some v, true⟩

structure LoopInv (S : Sig) (F : AsyncFn W τ) (s : Loop τ) : Prop where
  task : ∀ i t, s.tasks[i]? = some t → SpawnInv S F i (steps i s.log) t
  fresh : ∀ i, s.tasks.length ≤ i → steps i s.log = []
  threw : ∀ js, .threw js ∈ s.log → ∀ args, fromArgs S.E S.b S.narrow S.params js = .ok args → F.prelude args = none

theorem LoopInv.put {S : Sig} {F : AsyncFn W τ} {s : Loop τ} (h : LoopInv S F s) {k : Nat} {t : Spawned τ} (hk : k < s.tasks.length)
    (evs : List AEv) (hev : ∀ e ∈ evs, (∀ i, i ≠ k → e.of i = false) ∧ ∀ js, e ≠ .threw js)
    (ht : SpawnInv S F k (steps k s.log ++ steps k evs) t) : LoopInv S F (s.put k t evs) := by
  have hne : ∀ i, i ≠ k → steps i evs = [] := by
    intro i hi
    rw [steps, List.filter_eq_nil_iff]
    intro e he
    simp [(hev e he).1 i hi]
  refine ⟨?_, ?_, ?_⟩
  · intro i t' ht'
    simp only [Loop.put, steps_append] at ht' ⊢
    rw [List.getElem?_set] at ht'
    by_cases hik : k = i
    · subst hik
      rw [if_pos rfl, if_pos hk] at ht'
      simp only [Option.some.injEq] at ht'
      rw [← ht']
      exact ht
    · rw [if_neg hik] at ht'
      rw [hne i (Ne.symm hik), List.append_nil]
      exact h.task i t' ht'
  · intro i hi
    simp only [Loop.put, List.length_set, steps_append] at hi ⊢
    rw [h.fresh i hi, hne i (by omega)]
    rfl
  · intro js hjs
    simp only [Loop.put, List.mem_append] at hjs
    rcases hjs with h' | h'
    · exact h.threw js h'
    · exact absurd rfl ((hev _ h').2 js)

theorem loop_step {S : Sig} {F : AsyncFn W τ} {s : Loop τ} (h : LoopInv S F s) (op : LoopOp W) : LoopInv S F (s.step S F op) := by
  cases op with
  | call js =>
    have reject : (∀ args, fromArgs S.E S.b S.narrow S.params js = .ok args → F.prelude args = none) →
        LoopInv S F { s with log := s.log ++ [.threw js] } := by
      intro hr
      refine ⟨?_, ?_, ?_⟩
      · intro i w hw
        simp only [steps_append]
        rw [show steps i [AEv.threw js] = [] from rfl, List.append_nil]
        exact h.task i w hw
      · intro i hi
        simp only [steps_append]
        rw [show steps i [AEv.threw js] = [] from rfl, List.append_nil]
        exact h.fresh i hi
      · intro js' hjs'
        simp only [List.mem_append, List.mem_singleton, AEv.threw.injEq] at hjs'
        rcases hjs' with h' | rfl
        · exact h.threw js' h'
        · exact hr
    simp only [Loop.step]
    cases hc : fromArgs S.E S.b S.narrow S.params js with
    | ok args =>
      simp only
      cases hp : F.prelude args with
      | none => exact reject (fun args' ha => by rw [hc] at ha; cases ha; exact hp)
      | some t₀ =>
        simp only
        have hne : ∀ i, i ≠ s.tasks.length → steps i [AEv.promised s.tasks.length js, .called s.tasks.length args] = [] := by
          intro i hi
          simp [steps, AEv.of, Ne.symm hi]
        refine ⟨?_, ?_, ?_⟩
        · intro i w hw
          simp only [steps_append] at hw ⊢
          by_cases hi : i < s.tasks.length
          · rw [List.getElem?_append_left hi] at hw
            rw [hne i (by omega), List.append_nil]
            exact h.task i w hw
          · rw [List.getElem?_append_right (by omega), List.getElem?_singleton] at hw
            split at hw
            · simp only [Option.some.injEq] at hw
              obtain rfl : i = s.tasks.length := by omega
              rw [← hw, h.fresh _ (Nat.le_refl _)]
              rw [show steps s.tasks.length [AEv.promised s.tasks.length js, .called s.tasks.length args]
                = [.promised s.tasks.length js, .called s.tasks.length args] by simp [steps, AEv.of]]
              exact .pending hc hp (by simp)
            · simp at hw
        · intro i hi
          simp only [List.length_append, List.length_singleton, steps_append] at hi ⊢
          rw [h.fresh i (by omega), hne i (by omega)]
          rfl
        · intro js' hjs'
          simp only [List.mem_append, List.mem_cons, reduceCtorEq, List.not_mem_nil, or_false] at hjs'
          exact h.threw js' hjs'
    | err e => exact reject (by simp [hc])
    | panic => exact reject (by simp [hc])
  | poll k w =>
    simp only [Loop.step]
    cases hk : s.tasks[k]? with
    | none => exact h
    | some t =>
      have hl : k < s.tasks.length := (List.getElem?_eq_some_iff.1 hk).1
      have ht := h.task k t hk
      have one : ∀ v, ∀ e ∈ [AEv.returned k v], (∀ i, i ≠ k → e.of i = false) ∧ ∀ js, e ≠ .threw js := by
        intro v e he
        rw [List.mem_singleton] at he
        subst he
        exact ⟨fun i hi => by simp [AEv.of, Ne.symm hi], nofun⟩
      generalize hlog : steps k s.log = l at ht
      cases ht with
      | @pending js args t₀ f hc hp hf =>
        cases f with
        | suspended x =>
          simp only [Fut.Async.poll]
          cases hx : F.fut.poll w x with
          | mk x' p =>
            cases p with
            | ready v =>
              refine h.put hl _ (one v) ?_
              rw [hlog, show steps k [AEv.returned k v] = [.returned k v] by simp [steps, AEv.of]]
              exact .returned hc hp
            | pending => exact h.put hl [] nofun (by rw [hlog]; exact .pending hc hp (by simp))
            | panic => exact h.put hl [] nofun (by rw [hlog]; exact .pending hc hp (by simp))
        | returned => exact absurd rfl hf
        | poisoned => exact h.put hl [] nofun (by rw [hlog]; exact .pending hc hp (by simp))
      | returned hc hp => exact h.put hl [] nofun (by rw [hlog]; exact .returned hc hp)
      | settled hc hp => exact h.put hl [] nofun (by rw [hlog]; exact .settled hc hp)
  | settle k =>
    simp only [Loop.step]
    cases hk : s.tasks[k]? with
    | none => exact h
    | some t =>
      have hl : k < s.tasks.length := (List.getElem?_eq_some_iff.1 hk).1
      have ht := h.task k t hk
      generalize hlog : steps k s.log = l at ht
      cases ht with
      | returned hc hp =>
        refine h.put hl _ ?_ ?_
        · intro e he
          rw [List.mem_singleton] at he
          subst he
          exact ⟨fun i hi => by simp [AEv.of, Ne.symm hi], nofun⟩
        · rw [hlog, show ∀ r, steps k [AEv.settled k r] = [.settled k r] from fun r => by simp [steps, AEv.of]]
          exact .settled hc hp
      | _ => exact h

theorem loop_inv (S : Sig) (F : AsyncFn W τ) (ops : List (LoopOp W)) : LoopInv S F (Loop.run S F {} ops) := by
  have key : ∀ (ops : List (LoopOp W)) (s : Loop τ), LoopInv S F s → LoopInv S F (Loop.run S F s ops) := by
    intro ops
    induction ops with
    | nil => exact fun _ h => h
    | cons op ops ih => exact fun s h => ih _ (loop_step h op)
  exact key ops _ ⟨nofun, fun _ _ => rfl, nofun⟩
end

end Verif.Js
