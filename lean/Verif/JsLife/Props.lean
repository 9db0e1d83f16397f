import Verif.JsLife.Order
/-!
# C81: JavaScript callbacks live as long as they are needed, and no longer
-/
namespace Verif.JsLife

/-- Whatever is done with closures, by any threads, with the event loop and the garbage collector in between:
no closure, reference or function is used after its end. -/
theorem C81_safe (C : Cfg) (ops : List Op) (hl : Lawful C {} ops) : .bad ∉ (run C ops).log :=
  (inv_run hl).good

/-- As long as somebody has a handle of a closure, its JavaScript function is not collected, even if JavaScript
itself does not use it any more. -/
theorem C81_alive (C : Cfg) (ops : List Op) (hl : Lawful C {} ops) {c f r : Nat}
    (hc : .created c f r ∈ (run C ops).log) (hh : 0 < handles c (run C ops).log) : f ∉ (run C ops).gone := by
  have h := inv_run hl
  obtain ⟨h1, h2, h3⟩ := (h.made c f r).1 hc
  have hf : ((run C ops).objs c).freed = false := by have := h.hand c; grind
  have hr := h.ref c hf
  intro hg
  exact h.goneR f hg _ hr (by rw [(h.rfn c h1).2, h2])

/-- The reference of a closure is deleted once, when its last handle goes, and not before. -/
theorem C81_deleted (C : Cfg) (ops : List Op) (hl : Lawful C {} ops) {c f r : Nat}
    (hc : .created c f r ∈ (run C ops).log) :
    deletions r (run C ops).log = if handles c (run C ops).log = 0 then 1 else 0 := by
  have h := inv_run hl
  obtain ⟨h1, h2, h3⟩ := (h.made c f r).1 hc
  have hN := (h.rfn c h1).1
  rw [h.rdel r, h.hand c, ← h3]
  cases hf : ((run C ops).objs c).freed with
  | false =>
    have := h.ref c hf
    have := (h.pos c hf).1
    grind
  | true =>
    have : ((run C ops).refs ((run C ops).objs c).ref).live = false := by
      cases hv : ((run C ops).refs ((run C ops).objs c).ref).live with
      | false => rfl
      | true =>
        obtain ⟨-, d, hd, he⟩ := h.rown _ hv
        have := h.rinj d c (h.pos d hd).2 h1 he
        subst this
        rw [hf] at hd; cases hd
    grind

/-- Every reference that was made is deleted, once, unless somebody has a handle of its closure: also if the
conversion from JavaScript fails after the reference was made. -/
theorem C81_no_leak (C : Cfg) (ops : List Op) (hl : Lawful C {} ops) {r f : Nat}
    (hr : .reference r f ∈ (run C ops).log) :
    deletions r (run C ops).log = 1 ∨
      ∃ c, .created c f r ∈ (run C ops).log ∧ 0 < handles c (run C ops).log := by
  have h := inv_run hl
  obtain ⟨h1, h2⟩ := h.rev r f hr
  cases hv : ((run C ops).refs r).live with
  | false => left; rw [h.rdel r, if_pos ⟨h1, hv⟩]
  | true =>
    right
    obtain ⟨-, c, hc, he⟩ := h.rown r hv
    have hp := h.pos c hc
    refine ⟨c, (h.made c f r).2 ⟨hp.2, ?_, he⟩, ?_⟩
    · rw [← (h.rfn c hp.2).2, he, h2]
    · rw [h.hand c, hc]; exact hp.1

/-- On Node.js, the event loop goes on as long as somebody has a handle of a closure for which it was last
asked to wait. If none has, it ends as soon as it has dealt with what was left to it. By default it does not
wait. -/
theorem C81_waits (C : Cfg) (hn : C.host = .node) (ops : List Op) (hl : Lawful C {} ops) :
    ((∃ c, 0 < handles c (run C ops).log ∧ asked c (run C ops).log = true) → KeptAlive (run C ops)) ∧
    (Quiet (run C ops) → KeptAlive (run C ops) →
      ∃ c, 0 < handles c (run C ops).log ∧ asked c (run C ops).log = true) := by
  have h := inv_run hl
  constructor
  · rintro ⟨c, hh, ha⟩
    have hf : ((run C ops).objs c).freed = false := by have := h.hand c; grind
    obtain ⟨h1, h2⟩ := h.ts hn c hf
    refine ⟨_, h2.trans ha, ?_⟩
    cases hk : ((run C ops).tsfns ((run C ops).objs c).tsfn).closed with
    | false => rfl
    | true => rw [(h.tcl _ hk).1] at h1; cases h1
  · rintro hq ⟨k, h1, h2⟩
    have hr : ((run C ops).tsfns k).released = false := by
      cases hr : ((run C ops).tsfns k).released with
      | false => rfl
      | true => rw [(hq k).2 hr] at h2; cases h2
    obtain ⟨-, c, hc, he⟩ := h.town k hr
    refine ⟨c, ?_, ?_⟩
    · rw [h.hand c, hc]; exact (h.pos c hc).1
    · rw [← (h.ts hn c hc).2, he, h1]

/-- Whatever was done so far, the event loop can deal with everything that is left to it. Then every call
that was queued has been made, once, with the function of its closure, whether or not the closure still
exists; and if no handle of any closure is left the event loop does not wait for any of them. -/
theorem C81_drains (C : Cfg) (ops : List Op) (hl : Lawful C {} ops) (hd : (run C ops).dead = false) :
    ∃ ks : List Nat, let s := run C (ops ++ ks.map Op.turn)
      Lawful C {} (ops ++ ks.map Op.turn) ∧ Quiet s ∧
      (∀ n c f r, .queued n c ∈ (run C ops).log → .created c f r ∈ (run C ops).log →
        .invoked n f ∈ s.log ∧ runs n s.log = 1) ∧
      (∀ c, handles c s.log = handles c (run C ops).log) ∧
      ((∀ c, handles c (run C ops).log = 0) → ¬ KeptAlive s) := by
  have h := inv_run hl
  obtain ⟨ks, h1, h2, h3, h4, h5⟩ := drain_all C h hd (run C ops).ntsfns
  have e : run C (ops ++ ks.map Op.turn) = (ks.map Op.turn).foldl (step C) (run C ops) := by
    rw [run, List.foldl_append, ← run]
  refine ⟨ks, ?_⟩
  simp only [e]
  have hq := quiet_of h1 (by rw [h3]; exact h5)
  refine ⟨lawful_append C _ _ _ hl (lawful_turns C _ _), hq, fun n c f r hn hc => ?_, h4.1, fun h0 => ?_⟩
  · obtain ⟨-, -, -, hx⟩ := h1.qrun n c (h4.2.2.1 _ hn)
    have hm := (h1.made c f r).1 (h4.2.2.1 _ hc)
    rw [(hq _).1] at hx
    have hi := hx.resolve_left (by simp)
    rw [hm.2.1] at hi
    refine ⟨hi, ?_⟩
    have := h1.run1 n
    have := runs_of_mem hi
    omega
  · rintro ⟨k, k1, k2⟩
    have hr : (((ks.map Op.turn).foldl (step C) (run C ops)).tsfns k).released = false := by
      cases hr : (((ks.map Op.turn).foldl (step C) (run C ops)).tsfns k).released with
      | false => rfl
      | true => rw [(hq k).2 hr] at k2; cases k2
    obtain ⟨-, c, hc, -⟩ := h1.town k hr
    have hh := h1.hand c
    rw [h4.1 c, h0 c, hc] at hh
    have := (h1.pos c hc).1
    simp at hh; omega

/-- Every allowed operation does what it is for, and nothing else: as long as the process lives, a closure is
made from a function that exists unless N-API fails, handles are added and taken away, a call is made at once
or queued, the event loop makes calls that were queued and no others. -/
theorem C81_effects (C : Cfg) (ops : List Op) (op : Op) (hl : Lawful C {} (ops ++ [op]))
    (hd : (run C ops).dead = false) (hg : ∀ f a b u, op = .create f a b u → f ∉ (run C ops).gone) :
    Effect C (run C ops).log (run C (ops ++ [op])).log op := by
  have hl' := lawful_split C ops [op] {} hl
  have e : run C (ops ++ [op]) = step C (run C ops) op := by rw [run, List.foldl_append, ← run]; rfl
  rw [e]
  exact (effect_step (inv_run hl'.1) (ord_run hl'.1) hd op hl'.2.1 hg).1

/-- The process is aborted only if there were more handles of one closure than can be counted. -/
theorem C81_aborts (C : Cfg) (ops : List Op) (hl : Lawful C {} ops) (hd : (run C ops).dead = true) :
    ∃ c, C.limit < handles c (run C ops).log :=
  dead_run ops (inv_init C) ord_init hl (by simp) hd

/-- The queued calls of a closure are made in the order in which they were queued: at no moment has a call
been made while one that was queued before it is waiting. -/
theorem C81_in_order (C : Cfg) (ops : List Op) (hl : Lawful C {} ops) {c n m : Nat} {later earlier : List Ev}
    (hlog : (run C ops).log = later ++ .queued m c :: earlier) (hn : .queued n c ∈ earlier)
    (hm : runs m (run C ops).log = 1) : runs n (run C ops).log = 1 := by
  have h := inv_run hl
  have o := ord_run hl
  have hnm : n < m := by
    have := o.desc
    rw [hlog, List.pairwise_append] at this
    exact (List.pairwise_cons.1 this.2.1).1 _ hn m c n c rfl rfl
  have hn' : .queued n c ∈ (run C ops).log := by rw [hlog]; simp [hn]
  have hm' : .queued m c ∈ (run C ops).log := by rw [hlog]; simp
  have hnq : n ∉ ((run C ops).tsfns ((run C ops).objs c).tsfn).queue := by
    intro hq
    by_cases hmq : m ∈ ((run C ops).tsfns ((run C ops).objs c).tsfn).queue
    · have := (h.qlt _ m hmq).2; omega
    · have := o.past c m n hm' hmq hq; omega
  have hi := (h.qrun n c hn').2.2.2.resolve_left hnq
  have := runs_of_mem hi
  have := h.run1 n
  omega

/-- Once no handle of a closure of a function is left and the event loop is done, the garbage collector may
collect the function. -/
theorem C81_collected (C : Cfg) (ops : List Op) (hl : Lawful C {} ops) (hd : (run C ops).dead = false)
    (hq : Quiet (run C ops)) (f : Nat)
    (hf : ∀ c r, .created c f r ∈ (run C ops).log → handles c (run C ops).log = 0) :
    f ∈ (run C (ops ++ [.gc f])).gone := by
  have h := inv_run hl
  have e : run C (ops ++ [.gc f]) = step C (run C ops) (.gc f) := by rw [run, List.foldl_append, ← run]; rfl
  have dead : ∀ c, c < (run C ops).nobjs → ((run C ops).objs c).fn = f → ((run C ops).objs c).freed = true := by
    intro c hc hx
    have := hf c _ ((h.made _ _ _).2 ⟨hc, hx, rfl⟩)
    rw [h.hand c] at this
    cases hy : ((run C ops).objs c).freed with
    | true => rfl
    | false => rw [hy] at this; have := (h.pos c hy).1; simp at *; omega
  have h1 : (List.range (run C ops).nrefs).any (fun r => ((run C ops).refs r).live && ((run C ops).refs r).fn == f) = false := by
    rw [List.any_eq_false]
    intro r _ hr
    simp only [Bool.and_eq_true, beq_iff_eq] at hr
    obtain ⟨-, c, hc, he⟩ := h.rown r hr.1
    have hp := (h.pos c hc).2
    have := dead c hp (by rw [← (h.rfn c hp).2, he, hr.2])
    rw [hc] at this; cases this
  have h2 : (List.range (run C ops).ntsfns).any (fun k => !((run C ops).tsfns k).closed && ((run C ops).tsfns k).fn == f) = false := by
    rw [List.any_eq_false]
    intro k _ hk
    simp only [Bool.and_eq_true, beq_iff_eq, Bool.not_eq_true'] at hk
    have hr : ((run C ops).tsfns k).released = false := by
      cases hr : ((run C ops).tsfns k).released with
      | false => rfl
      | true => rw [(hq k).2 hr] at hk; cases hk.1
    obtain ⟨hN, c, hc, he⟩ := h.town k hr
    have hp := (h.pos c hc).2
    have := dead c hp (by rw [← (h.tfn hN c hp).2, he, hk.2])
    rw [hc] at this; cases this
  rw [e, step]
  simp [hd, h1, h2]

/-- No call is made twice. -/
theorem C81_once (C : Cfg) (ops : List Op) (hl : Lawful C {} ops) (n : Nat) : runs n (run C ops).log ≤ 1 :=
  (inv_run hl).run1 n

/-- On wasm, a closure that is given back to JavaScript is the function it was made from. -/
theorem C81_return_partial (C : Cfg) (hw : C.host = .wasm) (ops : List Op) (hl : Lawful C {} ops)
    (hd : (run C ops).dead = false) {c f r : Nat} (hc : .created c f r ∈ (run C ops).log)
    (ha : Allowed (run C ops).log (.giveBack c)) :
    (run C (ops ++ [.giveBack c])).log.head? = some (.returned c f) := by
  have h := inv_run hl
  have hm := (h.made c f r).1 hc
  have hf : ((run C ops).objs c).freed = false := by have := h.hand c; have := ha.1; grind
  have hb : ((run C ops).objs c).boxed = false := by have := h.shar c; have := ha.2; grind
  have e : run C (ops ++ [.giveBack c]) = step C (run C ops) (.giveBack c) := by
    rw [run, List.foldl_append, ← run]; rfl
  rw [e]
  simp [step, hd, hf, hb, hw, hm.2.1]

/-- On Node.js the conversion of a closure to JavaScript panics: what was passed cannot be given back. -/
theorem C81_fails_return (C : Cfg) (hn : C.host = .node) :
    ∃ ops, Lawful C {} ops ∧ Ev.panicked ∈ (run C ops).log ∧ ∀ c f, Ev.returned c f ∉ (run C ops).log := by
  obtain ⟨host, det, main, limit⟩ := C
  cases hn
  refine ⟨[.create 7 true true true, .giveBack 0], ⟨trivial, ⟨rfl, ?_⟩, trivial⟩, ?_, ?_⟩
  · simp [isShared, step, create, newObj, newRef, newTsfn]
  · simp [run, step, create, newObj, newRef, newTsfn, dropObj, deleteRef, releaseTs, upd]
  · simp [run, step, create, newObj, newRef, newTsfn, dropObj, deleteRef, releaseTs, upd]

/-- N-API allows references to be deleted, and thread-safe functions to be referenced, on the JavaScript
thread only. A closure may be moved to another thread and dropped there: the code deletes its reference
there. The same for the request to wait. -/
theorem C81_fails_thread (C : Cfg) (hn : C.host = .node) (t : Nat) :
    ∃ ops, Lawful C {} ops ∧ Ev.deleted 0 t ∈ (run C ops).log ∧ Ev.waits 0 true t ∈ (run C ops).log := by
  obtain ⟨host, det, main, limit⟩ := C
  cases hn
  refine ⟨[.create 7 true true true, .wait 0 true t true, .drop 0 t], ⟨trivial, rfl, ⟨rfl, ?_⟩, trivial⟩, ?_, ?_⟩
  · simp [isShared, step, create, newObj, newRef, newTsfn, upd]
  · simp [run, step, create, newObj, newRef, newTsfn, dropObj, deleteRef, releaseTs, upd]
  · simp [run, step, create, newObj, newRef, newTsfn, dropObj, deleteRef, releaseTs, upd]

/-! ## Examples -/

/-- A waiting closure, on Node.js. -/
def exC : Cfg := { host := .node, detached := false, main := 0, limit := 1000 }

/-- Two closures; the first is shared with C code, called from two threads, and released by thread 3; the
conversion of a third one fails. -/
def exOps : List Op :=
  [.create 7 true true true, .wait 0 true 0 true, .create 8 true true true, .create 9 true false true, .share 0,
    .retain 0, .call 0 3, .call 0 0, .gc 7, .release 0 0, .call 0 4, .release 0 3, .turn 0, .gc 7]

instance (c : Nat) (l : List Ev) : Decidable (isShared c l) := inferInstanceAs (Decidable (_ ∈ _))

instance (l : List Ev) (op : Op) : Decidable (Allowed l op) := by
  cases op <;> simp only [Allowed] <;> infer_instance

instance Lawful.dec (C : Cfg) : ∀ (s : State) (ops : List Op), Decidable (Lawful C s ops)
  | _, [] => .isTrue trivial
  | s, op :: ops => have := Lawful.dec C (step C s op) ops; inferInstanceAs (Decidable (_ ∧ _))

theorem exOps_lawful : Lawful exC {} exOps := by decide +kernel

example : handles 0 (run exC exOps).log = 0 ∧ handles 1 (run exC exOps).log = 1 ∧
    Ev.created 0 7 0 ∈ (run exC exOps).log ∧ Ev.created 1 8 1 ∈ (run exC exOps).log ∧
    Ev.reference 2 9 ∈ (run exC exOps).log ∧ deletions 2 (run exC exOps).log = 1 ∧
    Ev.deleted 0 3 ∈ (run exC exOps).log ∧ (run exC exOps).gone = [] ∧ (run exC exOps).dead = false ∧
    asked 0 (run exC exOps).log = true ∧ Ev.queued 2 0 ∈ (run exC exOps).log := by
  decide +kernel

/-- The first closure is gone, one of its calls is still to be made: the event loop goes on. Two turns later
the function can be collected. -/
example : ((run exC exOps).tsfns 0).queue = [2] ∧ KeptAlive (run exC exOps) ∧
    (run exC (exOps ++ [.turn 0, .turn 0, .gc 7])).gone = [7] := by
  refine ⟨by decide +kernel, ⟨0, by decide +kernel, by decide +kernel⟩, by decide +kernel⟩

/-- The two calls of other threads that were queued: the first has been made, the second not. The closure of
function 9 was refused, so nothing keeps it: it is collected. -/
example : runs 0 (run exC exOps).log = 1 ∧ runs 2 (run exC exOps).log = 0 ∧
    Lawful exC {} (exOps ++ [.call 1 5]) ∧
    (run exC (exOps ++ [.call 1 5])).log = .queued 3 1 :: (run exC exOps).log ∧
    (run exC (exOps ++ [.turn 0, .turn 0, .gc 9])).gone = [9] := by
  decide +kernel

/-- With room for one handle only, the second retain aborts. -/
example : Lawful { exC with limit := 1 } {} [.create 7 true true true, .share 0, .retain 0, .retain 0] ∧
    (run { exC with limit := 1 } [.create 7 true true true, .share 0, .retain 0, .retain 0]).dead = true := by
  decide +kernel

/-- On wasm. -/
example : Lawful { exC with host := .wasm } {} [.create 7 true true true, .call 0 0, .giveBack 0] ∧
    (run { exC with host := .wasm } [.create 7 true true true, .call 0 0, .giveBack 0]).log.head? =
      some (.returned 0 7) := by
  refine ⟨by decide +kernel, by decide +kernel⟩

end Verif.JsLife
