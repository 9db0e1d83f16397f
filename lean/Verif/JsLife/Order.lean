import Verif.JsLife.Drain
/-! # Where queued calls come from, and their order -/
namespace Verif.JsLife

/-- What holds between the queues and the events. -/
structure Ord (s : State) : Prop where
  qev : ∀ k n, n ∈ (s.tsfns k).queue → ∃ c, .queued n c ∈ s.log ∧ c < s.nobjs ∧ (s.objs c).tsfn = k
  asc : ∀ k, (s.tsfns k).queue.Pairwise (· < ·)
  past : ∀ c m n, .queued m c ∈ s.log → m ∉ (s.tsfns (s.objs c).tsfn).queue →
    n ∈ (s.tsfns (s.objs c).tsfn).queue → m < n
  desc : s.log.Pairwise (fun e e' => ∀ n c m d, e = .queued n c → e' = .queued m d → m < n)

theorem ord_init : Ord {} := by
  constructor <;> simp

/-- Only other events have been added, and other parts of the state changed. -/
theorem Ord.keep {C : Cfg} {s s' : State} (h : Inv C s) (o : Ord s)
    (hq : ∀ k, (s'.tsfns k).queue = (s.tsfns k).queue)
    (ht : ∀ c, c < s.nobjs → (s'.objs c).tsfn = (s.objs c).tsfn)
    (hn : s.nobjs ≤ s'.nobjs) {es : List Ev} (hl : s'.log = es ++ s.log)
    (he : ∀ n c, .queued n c ∉ es) : Ord s' := by
  have hm : ∀ n c, .queued n c ∈ s'.log ↔ .queued n c ∈ s.log := by
    intro n c; rw [hl, List.mem_append]; have := he n c; grind
  constructor
  case qev =>
    intro k n hk
    rw [hq] at hk
    obtain ⟨c, h1, h2, h3⟩ := o.qev k n hk
    exact ⟨c, (hm n c).2 h1, by omega, by rw [ht c h2, h3]⟩
  case asc => intro k; rw [hq]; exact o.asc k
  case past =>
    intro c m n h1 h2 h3
    have h1 := (hm m c).1 h1
    have hc := (h.qrun m c h1).2.1
    rw [hq, ht c hc] at h2 h3
    exact o.past c m n h1 h2 h3
  case desc =>
    rw [hl, List.pairwise_append]
    refine ⟨?_, o.desc, ?_⟩
    · have : ∀ e ∈ es, ∀ n c, e ≠ .queued n c := by intro e h n c hx; subst hx; exact he n c h
      exact List.Pairwise.imp_of_mem (R := fun _ _ => True) (fun h1 h2 _ n c m d hx => absurd hx (this _ h1 n c))
        (by rw [List.pairwise_iff_forall_sublist]; simp)
    · intro a ha b hb n c m d hx hy
      subst hx; exact absurd ha (he n c)

/-- No thread-safe function has the next number yet. -/
theorem Inv.noQueue {C : Cfg} {s : State} (h : Inv C s) : (s.tsfns s.ntsfns).queue = [] := by
  cases hk : (s.tsfns s.ntsfns).closed with
  | true => exact (h.tcl _ hk).2
  | false => have := h.tN _ hk; omega

theorem Ord.queue {C : Cfg} {s : State} (h : Inv C s) (o : Ord s) {c : Nat} (hc : c < s.nobjs) : Ord { s with
      ncalls := s.ncalls + 1
      tsfns := upd s.tsfns (s.objs c).tsfn
        { s.tsfns (s.objs c).tsfn with queue := (s.tsfns (s.objs c).tsfn).queue ++ [s.ncalls] }
      log := .queued s.ncalls c :: s.log } := by
  constructor
  case qev =>
    intro k n hk
    by_cases he : k = (s.objs c).tsfn
    · subst he
      simp only [upd_at, List.mem_append, List.mem_singleton] at hk
      rcases hk with hk | rfl
      · obtain ⟨d, h1, h2, h3⟩ := o.qev _ n hk
        exact ⟨d, List.mem_cons_of_mem _ h1, h2, h3⟩
      · exact ⟨c, List.mem_cons_self, hc, rfl⟩
    · simp only [upd, if_neg he] at hk
      obtain ⟨d, h1, h2, h3⟩ := o.qev k n hk
      exact ⟨d, List.mem_cons_of_mem _ h1, h2, h3⟩
  case asc =>
    intro k
    by_cases he : k = (s.objs c).tsfn
    · subst he
      simp only [upd_at, List.pairwise_append]
      refine ⟨o.asc _, by simp, fun a ha b hb => ?_⟩
      rw [List.mem_singleton] at hb; subst hb
      exact (h.qlt _ a ha).1
    · simpa only [upd, if_neg he] using o.asc k
  case past =>
    intro d m n h1 h2 h3
    by_cases he : (s.objs d).tsfn = (s.objs c).tsfn
    · simp only [he, upd_at, List.mem_append, List.mem_cons, List.not_mem_nil, or_false, not_or] at h1 h2 h3
      rcases h1 with h1 | h1
      · simp only [Ev.queued.injEq] at h1; exact absurd h1.1 h2.2
      · rcases h3 with h3 | rfl
        · exact o.past d m n h1 (by rw [he]; exact h2.1) (by rw [he]; exact h3)
        · exact (h.qrun m d h1).2.2.1
    · simp only [upd, if_neg he, List.mem_cons] at h1 h2 h3
      rcases h1 with h1 | h1
      · simp only [Ev.queued.injEq] at h1; obtain ⟨-, rfl⟩ := h1; exact absurd rfl he
      · exact o.past d m n h1 h2 h3
  case desc =>
    refine List.Pairwise.cons ?_ o.desc
    intro e he n d m d' hx hy
    subst hy
    cases hx
    exact (h.qrun m d' he).2.2.1

theorem Ord.pop {s : State} (o : Ord s) {k n : Nat} {q : List Nat}
    (hq : (s.tsfns k).queue = n :: q) (f : Nat) :
    Ord { s with tsfns := upd s.tsfns k { s.tsfns k with queue := q }, log := .invoked n f :: s.log } := by
  have ha := o.asc k
  rw [hq, List.pairwise_cons] at ha
  constructor
  case qev =>
    intro j m hj
    have : m ∈ (s.tsfns j).queue := by
      by_cases he : j = k
      · subst he; simp only [upd_at] at hj; rw [hq]; exact List.mem_cons_of_mem _ hj
      · simpa only [upd, if_neg he] using hj
    obtain ⟨d, h1, h2, h3⟩ := o.qev j m this
    exact ⟨d, List.mem_cons_of_mem _ h1, h2, h3⟩
  case asc =>
    intro j
    by_cases he : j = k
    · subst he; simpa only [upd_at] using ha.2
    · simpa only [upd, if_neg he] using o.asc j
  case past =>
    intro d a b h1 h2 h3
    have h1 : .queued a d ∈ s.log := by simpa using h1
    by_cases he : (s.objs d).tsfn = k
    · simp only [he, upd_at] at h2 h3
      by_cases hn : a = n
      · subst hn; exact ha.1 b h3
      · exact o.past d a b h1 (by rw [he, hq]; simp [hn, h2]) (by rw [he, hq]; simp [h3])
    · simp only [upd, if_neg he] at h2 h3
      exact o.past d a b h1 h2 h3
  case desc =>
    refine List.Pairwise.cons ?_ o.desc
    intro e he n d m d' hx hy
    cases hx

section
variable {C : Cfg} {s : State} (h : Inv C s)
include h

/-- What an allowed operation does. -/
theorem effect_step (o : Ord s) (hd : s.dead = false) (op : Op) (ha : Allowed s.log op)
    (hg : ∀ f a b u, op = .create f a b u → f ∉ s.gone) :
    Effect C s.log (Verif.JsLife.step C s op).log op ∧ Ord (Verif.JsLife.step C s op) ∧
    ((Verif.JsLife.step C s op).dead = true → ∃ c, op = .retain c ∧ C.limit < handles c s.log) := by
  have live : ∀ c, 0 < handles c s.log → (s.objs c).freed = false := by
    intro c hc; have := h.hand c; grind
  have one : ∀ c, handles c s.log = 1 → (s.objs c).freed = false ∧ (s.objs c).strong = 1 := by
    intro c hc; have := h.hand c; grind
  have made : ∀ c, (s.objs c).freed = false → .created c (s.objs c).fn (s.objs c).ref ∈ s.log :=
    fun c hc => (h.made c _ _).2 ⟨(h.pos c hc).2, rfl, rfl⟩
  have hdrop : ∀ c t es, (s.objs c).freed = false → (s.objs c).strong = 1 → (∀ n d, .queued n d ∉ es) →
      Ord { dropObj C s c t with log := es ++ .released c :: (dropObj C s c t).log } := by
    intro c t es hc h1 hes
    refine o.keep h (es := es ++ [.released c, .deleted (s.objs c).ref t]) ?_ ?_ ?_ ?_ ?_
    · intro k
      have hr := h.ref c hc
      cases hn : C.host with
      | wasm => simp [dropObj, deleteRef, hr, hn]
      | node =>
        have ht := (h.ts hn c hc).1
        simp [dropObj, deleteRef, releaseTs, hr, hn, ht, upd]; split <;> simp [*]
    · intro d _
      have hr := h.ref c hc
      cases hn : C.host with
      | wasm => simp [dropObj, deleteRef, hr, hn, upd]; split <;> simp [*]
      | node =>
        have ht := (h.ts hn c hc).1
        simp [dropObj, deleteRef, releaseTs, hr, hn, ht, upd]; split <;> simp [*]
    · have hr := h.ref c hc
      cases hn : C.host with
      | wasm => simp [dropObj, deleteRef, hr, hn]
      | node =>
        have ht := (h.ts hn c hc).1
        simp [dropObj, deleteRef, releaseTs, hr, hn, ht]
    · simp [(h.dropped t hc h1).2]
    · simp [hes]
  have ddead : ∀ c t, (s.objs c).freed = false → (dropObj C s c t).dead = false := by
    intro c t hc
    have hr := h.ref c hc
    cases hn : C.host with
    | wasm => simp [dropObj, deleteRef, hr, hn, hd]
    | node =>
      have ht := (h.ts hn c hc).1
      simp [dropObj, deleteRef, releaseTs, hr, hn, ht, hd]
  cases op with
  | create f a b u =>
    have hf := hg f a b u rfl
    have hun : Unused s.nobjs s.nrefs s.log := by
      constructor
      · intro f q hm; have := ((h.made _ _ _).1 hm).1; omega
      · intro f hm; have := (h.rev _ _ hm).1; omega
    cases hn : C.host with
    | wasm =>
      refine ⟨?_, ?_, ?_⟩
      · simp only [Effect, hn, true_or, if_true]
        exact ⟨_, _, hun, by simp [step, hd, hf, create, hn, newObj, newRef]⟩
      · refine o.keep h (es := [.created s.nobjs f s.nrefs, .reference s.nrefs f]) ?_ ?_ ?_ ?_ ?_
        · simp [step, hd, hf, create, hn, newObj, newRef]
        · intro c hc
          have : c ≠ s.nobjs := by omega
          simp [step, hd, hf, create, hn, newObj, newRef, upd, this]
        · simp [step, hd, hf, create, hn, newObj, newRef]
        · simp [step, hd, hf, create, hn, newObj, newRef]
        · simp
      · simp [step, hd, hf, create, hn, newObj, newRef]
    | node =>
      have hq0 := h.noQueue
      cases a
      · refine ⟨by simp [Effect, hn, step, hd, hf, create], ?_, by simp [step, hd, hf, create, hn]⟩
        exact o.keep h (es := [.panicked]) (by simp [step, hd, hf, create, hn]) (by simp [step, hd, hf, create, hn])
          (by simp [step, hd, hf, create, hn]) (by simp [step, hd, hf, create, hn]) (by simp)
      · cases b
        · refine ⟨?_, ?_, by simp [step, hd, hf, create, hn, newRef, deleteRef, upd_at]⟩
          · simp [Effect, hn, step, hd, hf, create, newRef, deleteRef, upd_at]
          · exact o.keep h (es := [.refused, .deleted s.nrefs C.main, .reference s.nrefs f])
              (by simp [step, hd, hf, create, hn, newRef, deleteRef, upd_at])
              (by simp [step, hd, hf, create, hn, newRef, deleteRef, upd_at])
              (by simp [step, hd, hf, create, hn, newRef, deleteRef, upd_at])
              (by simp [step, hd, hf, create, hn, newRef, deleteRef, upd_at]) (by simp)
        · cases u
          · refine ⟨?_, ?_, by simp [step, hd, hf, create, hn, newRef, newTsfn, releaseTs, deleteRef, upd_at]⟩
            · simp [Effect, hn, step, hd, hf, create, newRef, newTsfn, releaseTs, deleteRef, upd_at]
            · refine o.keep h (es := [.refused, .deleted s.nrefs C.main, .reference s.nrefs f]) ?_
                (by simp [step, hd, hf, create, hn, newRef, newTsfn, releaseTs, deleteRef, upd_at])
                (by simp [step, hd, hf, create, hn, newRef, newTsfn, releaseTs, deleteRef, upd_at])
                (by simp [step, hd, hf, create, hn, newRef, newTsfn, releaseTs, deleteRef, upd_at]) (by simp)
              intro k
              by_cases hk : k = s.ntsfns
              · subst hk
                simp [step, hd, hf, create, hn, newRef, newTsfn, releaseTs, deleteRef, upd_at, hq0]
              · simp [step, hd, hf, create, hn, newRef, newTsfn, releaseTs, deleteRef, upd_at]; simp [upd, hk]
          · refine ⟨?_, ?_, by simp [step, hd, hf, create, hn, newRef, newTsfn, newObj]⟩
            · simp only [Effect, hn]
              exact ⟨_, _, hun, by simp [step, hd, hf, create, hn, newRef, newTsfn, newObj]⟩
            · refine o.keep h (es := [.created s.nobjs f s.nrefs, .reference s.nrefs f]) ?_ ?_
                (by simp [step, hd, hf, create, hn, newRef, newTsfn, newObj])
                (by simp [step, hd, hf, create, hn, newRef, newTsfn, newObj]) (by simp)
              · intro k
                by_cases hk : k = s.ntsfns
                · subst hk
                  simp [step, hd, hf, create, hn, newRef, newTsfn, newObj, upd_at, hq0]
                · simp [step, hd, hf, create, hn, newRef, newTsfn, newObj, upd, hk]
              · intro c hc
                have : c ≠ s.nobjs := by omega
                simp [step, hd, hf, create, hn, newRef, newTsfn, newObj, upd, this]
  | wait c b t ok =>
    obtain ⟨hc, -⟩ := one c ha
    cases hn : C.host with
    | wasm =>
      have e : step C s (.wait c b t ok) = s := by simp [step, hd, hc, hn]
      rw [e]; exact ⟨by simp [Effect, hn], o, by simp [hd]⟩
    | node =>
      cases ok
      · have e : step C s (.wait c b t false) = s := by simp [step, hd, hc, hn]
        rw [e]; exact ⟨by simp [Effect], o, by simp [hd]⟩
      · refine ⟨by simp [Effect, step, hd, hc, hn], ?_, by simp [step, hd, hc, hn]⟩
        refine o.keep h (es := [.waits c b t]) ?_ (by simp [step, hd, hc, hn]) (by simp [step, hd, hc, hn])
          (by simp [step, hd, hc, hn]) (by simp)
        intro k
        simp [step, hd, hc, hn, upd]; split <;> simp [*]
  | share c =>
    obtain ⟨hc, -⟩ := one c ha.1
    refine ⟨by simp [Effect, step, hd, hc], ?_, by simp [step, hd, hc]⟩
    refine o.keep h (es := [.shared c]) (by simp [step, hd, hc]) ?_ (by simp [step, hd, hc])
      (by simp [step, hd, hc]) (by simp)
    intro d _
    simp [step, hd, hc, upd]; split <;> simp [*]
  | retain c =>
    have hc := live c ha.1
    have hb := (h.shar c).1 ha.2
    have hh : handles c s.log = (s.objs c).strong := by rw [h.hand c, hc]; simp
    by_cases hl : C.limit < (s.objs c).strong
    · refine ⟨by simp [Effect, step, hd, hc, hb, hl, hh], ?_, fun _ => ⟨c, rfl, hh ▸ hl⟩⟩
      exact o.keep h (es := [.aborted]) (by simp [step, hd, hc, hb, hl]) (by simp [step, hd, hc, hb, hl])
        (by simp [step, hd, hc, hb, hl]) (by simp [step, hd, hc, hb, hl]) (by simp)
    · refine ⟨by simp [Effect, step, hd, hc, hb, hl, hh], ?_, by simp [step, hd, hc, hb, hl]⟩
      refine o.keep h (es := [.retained c]) (by simp [step, hd, hc, hb, hl]) ?_
        (by simp [step, hd, hc, hb, hl]) (by simp [step, hd, hc, hb, hl]) (by simp)
      intro d _
      simp [step, hd, hc, hb, hl, upd]; split <;> simp [*]
  | release c t =>
    have hc := live c ha.1
    have hb := (h.shar c).1 ha.2
    have hh : handles c s.log = (s.objs c).strong := by rw [h.hand c, hc]; simp
    by_cases h1 : (s.objs c).strong = 1
    · refine ⟨?_, ?_, by simp [step, hd, hc, hb, h1, ddead]⟩
      · simp only [Effect, hh, h1, if_true]
        exact ⟨_, _, made c hc, by simp [step, hd, hc, hb, h1, (h.dropped t hc h1).2]⟩
      · simpa [step, hd, hc, hb, h1] using hdrop c t [] hc h1 (by simp)
    · refine ⟨by simp [Effect, hh, h1, step, hd, hc, hb], ?_, by simp [step, hd, hc, hb, h1]⟩
      refine o.keep h (es := [.released c]) (by simp [step, hd, hc, hb, h1]) ?_
        (by simp [step, hd, hc, hb, h1]) (by simp [step, hd, hc, hb, h1]) (by simp)
      intro d _
      simp [step, hd, hc, hb, h1, upd]; split <;> simp [*]
  | drop c t =>
    obtain ⟨hc, h1⟩ := one c ha.1
    have hb : (s.objs c).boxed = false := by have := h.shar c; have := ha.2; grind
    refine ⟨?_, ?_, by simp [step, hd, hc, hb, ddead]⟩
    · simp only [Effect, ha.1, if_true]
      exact ⟨_, _, made c hc, by simp [step, hd, hc, hb, (h.dropped t hc h1).2]⟩
    · simpa [step, hd, hc, hb] using hdrop c t [] hc h1 (by simp)
  | giveBack c =>
    obtain ⟨hc, h1⟩ := one c ha.1
    have hb : (s.objs c).boxed = false := by have := h.shar c; have := ha.2; grind
    cases hn : C.host with
    | wasm =>
      refine ⟨⟨_, _, made c hc, by simp [step, hd, hc, hb, hn]⟩, ?_, by simp [step, hd, hc, hb, hn]⟩
      refine o.keep h (es := [.returned c (s.objs c).fn, .released c, .deleted (s.objs c).ref C.main])
        (by simp [step, hd, hc, hb, hn]) ?_ (by simp [step, hd, hc, hb, hn]) (by simp [step, hd, hc, hb, hn]) (by simp)
      intro d _
      simp [step, hd, hc, hb, hn, upd]; split <;> simp [*]
    | node =>
      refine ⟨⟨_, _, made c hc, by simp [step, hd, hc, hb, hn, (h.dropped C.main hc h1).2]⟩, ?_, by simp [step, hd, hc, hb, hn, ddead]⟩
      simpa [step, hd, hc, hb, hn] using hdrop c C.main [.panicked] hc h1 (by simp)
  | call c t =>
    have hc := live c ha
    have h0 : runs s.ncalls s.log = 0 := h.runN _ (Nat.le_refl _)
    have hnew : ∀ d, .queued s.ncalls d ∉ s.log := by
      intro d hm; have := (h.qrun _ _ hm).2.2.1; omega
    by_cases hq : C.host = .node ∧ (C.detached = true ∨ t ≠ C.main)
    · refine ⟨⟨_, _, _, h0, hnew, made c hc, by simp [step, hd, hc, hq]⟩, ?_, by simp [step, hd, hc, hq]⟩
      simpa [step, hd, hc, hq] using o.queue h (h.pos c hc).2
    · have hr := h.ref c hc
      have hf : (s.refs (s.objs c).ref).fn ∉ s.gone := fun hf => h.goneR _ hf _ hr rfl
      have he := (h.rfn c (h.pos c hc).2).2
      rw [he] at hf
      refine ⟨⟨_, _, _, h0, hnew, made c hc, by simp [step, hd, hc, hq, hr, invoke, hf, he]⟩, ?_,
        by simp [step, hd, hc, hq, hr, invoke, hf, he]⟩
      refine o.keep h (es := [.invoked s.ncalls (s.objs c).fn]) (by simp [step, hd, hc, hq, hr, invoke, hf, he])
        (by simp [step, hd, hc, hq, hr, invoke, hf, he]) (by simp [step, hd, hc, hq, hr, invoke, hf, he])
        (by simp [step, hd, hc, hq, hr, invoke, hf, he]) (by simp)
  | turn k =>
    by_cases hk : (s.tsfns k).closed = true
    · have e : step C s (.turn k) = s := by simp [step, hd, hk]
      rw [e]; exact ⟨.inl rfl, o, by simp [hd]⟩
    · cases hq : (s.tsfns k).queue with
      | nil =>
        by_cases hr : (s.tsfns k).released = true
        · refine ⟨.inl (by simp [step, hd, hk, hq, hr]), ?_, by simp [step, hd, hk, hq, hr]⟩
          refine o.keep h (es := []) ?_ (by simp [step, hd, hk, hq, hr]) (by simp [step, hd, hk, hq, hr])
            (by simp [step, hd, hk, hq, hr]) (by simp)
          intro j
          simp [step, hd, hk, hq, hr, upd]; split <;> simp [*]
        · have e : step C s (.turn k) = s := by simp [step, hd, hk, hq, hr]
          rw [e]; exact ⟨.inl rfl, o, by simp [hd]⟩
      | cons n q =>
        have hf : (s.tsfns k).fn ∉ s.gone := fun hf => h.goneT _ hf _ (by simpa using hk) rfl
        have hm : n ∈ (s.tsfns k).queue := by rw [hq]; simp
        obtain ⟨c, h1, h2, h3⟩ := o.qev k n hm
        have hN := (h.qrun n c h1).1
        have hfn := (h.tfn hN c h2).2
        rw [h3] at hfn
        refine ⟨.inr ⟨n, c, (s.objs c).fn, (s.objs c).ref, h1, (h.qlt k n hm).2, (h.made _ _ _).2 ⟨h2, rfl, rfl⟩, ?_⟩, ?_, ?_⟩
        · simp [step, hd, hk, hq, invoke, hf, ← hfn]
        · simpa [step, hd, hk, hq, invoke, hf] using o.pop hq (s.tsfns k).fn
        · simp [step, hd, hk, hq, invoke, hf]
  | gc f =>
    have e : (step C s (.gc f)).log = s.log ∧ (step C s (.gc f)).dead = false ∧ Ord (step C s (.gc f)) := by
      simp only [step, hd]
      simp only [Bool.false_eq_true, if_false]
      split
      · exact ⟨rfl, hd, o⟩
      · exact ⟨rfl, rfl, o.keep h (es := []) (by simp) (by simp) (by simp) (by simp) (by simp)⟩
    exact ⟨e.1, e.2.2, by simp [e.2.1]⟩
end

theorem lawful_split (C : Cfg) : ∀ (a b : List Op) (s : State),
    Lawful C s (a ++ b) → Lawful C s a ∧ Lawful C (a.foldl (step C) s) b
  | [], _, _, h => ⟨trivial, h⟩
  | _ :: a, b, _, h => ⟨⟨h.1, (lawful_split C a b _ h.2).1⟩, (lawful_split C a b _ h.2).2⟩

theorem step_gone {C : Cfg} {s : State} {f : Nat} {a b u : Bool} (hf : f ∈ s.gone) :
    step C s (.create f a b u) = s := by
  unfold step; split
  · rfl
  · simp [hf]

theorem step_dead {C : Cfg} {s : State} {op : Op} (hd : s.dead = true) : step C s op = s := by
  unfold step; rw [if_pos hd]

theorem Ord.step {C : Cfg} {s : State} (h : Inv C s) (o : Ord s) (op : Op) (ha : Allowed s.log op) :
    Ord (Verif.JsLife.step C s op) ∧
    ((Verif.JsLife.step C s op).dead = true → s.dead = true ∨ ∃ c, op = .retain c ∧ C.limit < handles c s.log) := by
  by_cases hd : s.dead = true
  · rw [step_dead hd]; exact ⟨o, fun h => .inl h⟩
  have hd : s.dead = false := by simpa using hd
  by_cases hg : ∃ f a b u, op = .create f a b u ∧ f ∈ s.gone
  · obtain ⟨f, a, b, u, rfl, hf⟩ := hg
    rw [step_gone hf]; exact ⟨o, fun h => .inl h⟩
  · have := effect_step h o hd op ha (fun f a b u e hf => hg ⟨f, a, b, u, e, hf⟩)
    exact ⟨this.2.1, fun hx => .inr (this.2.2 hx)⟩

theorem Ord.run {C : Cfg} : ∀ (ops : List Op) {s : State}, Inv C s → Ord s → Lawful C s ops →
    Ord (ops.foldl (Verif.JsLife.step C) s)
  | [], _, _, o, _ => o
  | op :: ops, _, h, o, hl => Ord.run ops (h.step op hl.1) (o.step h op hl.1).1 hl.2

theorem ord_run {C : Cfg} {ops : List Op} (hl : Lawful C {} ops) : Ord (run C ops) :=
  Ord.run ops (inv_init C) ord_init hl

/-- An aborted process had too many handles. -/
theorem dead_run {C : Cfg} : ∀ (ops : List Op) {s : State}, Inv C s → Ord s → Lawful C s ops →
    (s.dead = true → ∃ c, C.limit < handles c s.log) →
    (ops.foldl (Verif.JsLife.step C) s).dead = true → ∃ c, C.limit < handles c (ops.foldl (Verif.JsLife.step C) s).log
  | [], _, _, _, _, hs => hs
  | op :: ops, s, h, o, hl, hs => by
    refine dead_run ops (h.step op hl.1) (o.step h op hl.1).1 hl.2 ?_
    intro hx
    by_cases hd : s.dead = true
    · rw [step_dead hd]; exact hs hd
    obtain ⟨c, rfl, hc⟩ := ((o.step h op hl.1).2 hx).resolve_left hd
    refine ⟨c, ?_⟩
    have he := (effect_step h o (by simpa using hd) (.retain c) hl.1 (by simp)).1
    simp only [Effect, hc, if_true] at he
    rw [he]; exact hc

end Verif.JsLife
