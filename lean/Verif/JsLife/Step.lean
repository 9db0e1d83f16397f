import Verif.JsLife.Lemmas
/-! # Every allowed step keeps the invariant -/
namespace Verif.JsLife

theorem upd_upd {α : Type} (f : Nat → α) (i : Nat) (a b : α) : upd (upd f i a) i b = upd f i b := by
  funext j; simp only [upd]; split <;> rfl

theorem upd_at {α : Type} (f : Nat → α) (i : Nat) (a : α) : upd f i a i = a := by simp [upd]

section
variable {C : Cfg} {s : State} (h : Inv C s)
include h

/-- A closure with one handle is dropped. -/
theorem Inv.dropped {c : Nat} (t : Nat) (hc : (s.objs c).freed = false) (h1 : (s.objs c).strong = 1) :
    Inv C { dropObj C s c t with log := .released c :: (dropObj C s c t).log } ∧
    (dropObj C s c t).log = .deleted (s.objs c).ref t :: s.log := by
  have hr := h.ref c hc
  cases hn : C.host with
  | node =>
    have ht := (h.ts hn c hc).1
    refine ⟨?_, ?_⟩
    · have := h.gone t hn hc h1
      simpa [dropObj, deleteRef, releaseTs, hr, hn, ht] using this
    · simp [dropObj, deleteRef, releaseTs, hr, hn, ht]
  | wasm =>
    refine ⟨?_, ?_⟩
    · have := h.goneW t hn hc h1
      simpa [dropObj, deleteRef, hr, hn] using this
    · simp [dropObj, deleteRef, hr, hn]

theorem Inv.create (f : Nat) (a b u : Bool) (hf : f ∉ s.gone) : Inv C (create C s f a b u) := by
  unfold Verif.JsLife.create
  cases hn : C.host with
  | wasm => exact h.newW f hn hf
  | node =>
    cases a
    · exact h.skip _ (by simp)
    · cases b
      · have := (h.fresh0 f C.main).skip .refused (by simp)
        simpa [newRef, deleteRef, upd_at, upd_upd] using this
      · cases u
        · have := (h.fresh1 f C.main true hf).skip .refused (by simp)
          simpa [newRef, newTsfn, deleteRef, releaseTs, upd_at, upd_upd] using this
        · have := h.new f hn hf
          simpa [newRef, newTsfn, newObj, upd_at, upd_upd] using this

theorem Inv.step (op : Op) (ha : Allowed s.log op) : Inv C (step C s op) := by
  have live : ∀ c, 0 < handles c s.log → (s.objs c).freed = false := by
    intro c hc; have := h.hand c; grind
  have one : ∀ c, handles c s.log = 1 → (s.objs c).freed = false ∧ (s.objs c).strong = 1 := by
    intro c hc; have := h.hand c; grind
  unfold Verif.JsLife.step
  by_cases hd : s.dead
  · rw [if_pos hd]; exact h
  rw [if_neg hd]
  cases op with
  | create f a b u =>
    by_cases hf : f ∈ s.gone
    · simpa [hf] using h
    · simpa [hf] using h.create f a b u hf
  | wait c b t ok =>
    obtain ⟨hc, -⟩ := one c ha
    cases hn : C.host with
    | wasm => simpa [hc] using h
    | node =>
      cases ok
      · simpa [hc] using h
      · simpa [hc] using h.wait b t hn hc
  | share c =>
    obtain ⟨hc, -⟩ := one c ha.1
    simpa [hc] using h.share hc
  | retain c =>
    have hc := live c ha.1
    have hb := (h.shar c).1 ha.2
    by_cases hl : C.limit < (s.objs c).strong
    · simpa [hc, hb, hl] using (h.skip .aborted (by simp)).dead true
    · simpa [hc, hb, hl] using h.retain hc
  | release c t =>
    have hc := live c ha.1
    have hb := (h.shar c).1 ha.2
    by_cases h1 : (s.objs c).strong = 1
    · simpa [hc, hb, h1] using (h.dropped t hc h1).1
    · simpa [hc, hb, h1] using h.less hc h1
  | drop c t =>
    obtain ⟨hc, h1⟩ := one c ha.1
    have hb : (s.objs c).boxed = false := by have := h.shar c; have := ha.2; grind
    simpa [hc, hb] using (h.dropped t hc h1).1
  | giveBack c =>
    obtain ⟨hc, h1⟩ := one c ha.1
    have hb : (s.objs c).boxed = false := by have := h.shar c; have := ha.2; grind
    cases hn : C.host with
    | wasm =>
      have hw := (h.goneW C.main hn hc h1)
      have : Inv C _ := (hw.skip (.returned c (s.objs c).fn) (by simp))
      simpa [hc, hb] using this
    | node =>
      have hw := (h.dropped C.main hc h1)
      have : Inv C _ := hw.1.skip .panicked (by simp)
      simpa [hc, hb] using this
  | call c t =>
    have hc := live c ha
    by_cases hq : C.host = .node ∧ (C.detached = true ∨ t ≠ C.main)
    · simpa [hc, hq] using h.queue hq.1 hc
    · have hr := h.ref c hc
      have hf : (s.refs (s.objs c).ref).fn ∉ s.gone := fun hf => h.goneR _ hf _ hr rfl
      simpa [hc, hq, hr, Verif.JsLife.invoke, hf] using h.invoke (s.refs (s.objs c).ref).fn
  | turn k =>
    by_cases hk : (s.tsfns k).closed = true
    · simpa [hk] using h
    · cases hq : (s.tsfns k).queue with
      | nil =>
        by_cases hr : (s.tsfns k).released = true
        · have := h.close hq hr
          simpa [hk, hq, hr] using this
        · simpa [hk, hq, hr] using h
      | cons n q =>
        have hf : (s.tsfns k).fn ∉ s.gone := fun hf => h.goneT _ hf _ (by simpa using hk) rfl
        have hk' : (s.tsfns k).closed = false := by simpa using hk
        simpa [hk', hq, Verif.JsLife.invoke, hf] using h.pop hq
  | gc f =>
    dsimp only
    split
    · exact h
    · rename_i hg
      simp only [Bool.or_eq_true, List.any_eq_true, List.mem_range, Bool.and_eq_true, beq_iff_eq, Bool.not_eq_true', not_or, not_exists, not_and] at hg
      exact h.collect (fun r hr => hg.1 r (h.rown r hr).1 hr) (fun k hk => hg.2 k (h.tN k hk) hk)
end

theorem Inv.run {C : Cfg} {s : State} (h : Inv C s) : ∀ ops, Lawful C s ops → Inv C (ops.foldl (Verif.JsLife.step C) s)
  | [], _ => h
  | op :: ops, hl => (h.step op hl.1).run ops hl.2

theorem inv_run {C : Cfg} {ops : List Op} (hl : Lawful C {} ops) : Inv C (run C ops) := (inv_init C).run ops hl

end Verif.JsLife
