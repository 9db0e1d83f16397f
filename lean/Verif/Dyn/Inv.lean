import Verif.Dyn.Conc

/-! # Preservation of the invariant, and the concrete image of each abstract update -/
namespace Verif.Dyn

section
variable {σ V : Type}

theorem concVar_eq {a : Abs σ V} {v : AVal} {o : AObj σ} (h : a.objs[v.obj]? = some o) :
    concVar a.sig v = ⟨concVal o.own o.ty v, v.borrow⟩ := by
  simp [concVar, Abs.sig, h]

theorem concVar_congr {g g' : Nat → Option (Own × Nat)} {v : AVal} (h : g v.obj = g' v.obj) :
    concVar g v = concVar g' v := by unfold concVar; rw [h]

theorem concAct_congr {g g' : Nat → Option (Own × Nat)} {x : AAct V} (h : g x.obj = g' x.obj) :
    concAct g x = concAct g' x := by unfold concAct; rw [h]

theorem concObj_congr {a b : Abs σ V} {k : Nat} (h : a.owners k = b.owners k) : concObj a k = concObj b k := by
  funext o; simp [concObj, h]

theorem heap_length (a : Abs σ V) : (conc a).heap.length = a.objs.length := by simp [conc]

theorem WF.lt {a : Abs σ V} (W : WF a) {i : Nat} {v : AVal} (h : a.var i = some v) : v.obj < a.objs.length := by
  obtain ⟨o, h1, _⟩ := W.obj i v h
  exact (List.getElem?_eq_some_iff.1 h1).1

theorem WF.actLt {a : Abs σ V} (W : WF a) {c : Nat} {x : AAct V} (h : a.act c = some x) : x.obj < a.objs.length := by
  obtain ⟨v, o, h1, h2, h3, _⟩ := W.acts c x h
  rw [← h2]; exact (List.getElem?_eq_some_iff.1 h3).1

theorem map_vars_congr {a : Abs σ V} {g g' : Nat → Option (Own × Nat)}
    (h : ∀ i v, a.var i = some v → g v.obj = g' v.obj) :
    a.vars.map (Option.map (concVar g)) = a.vars.map (Option.map (concVar g')) := by
  apply List.map_congr_left
  intro x hx
  cases x with
  | none => rfl
  | some v => obtain ⟨i, hi⟩ := mem_var.1 hx; simp [concVar_congr (h i v hi)]

theorem map_acts_congr {a : Abs σ V} {g g' : Nat → Option (Own × Nat)}
    (h : ∀ i x, a.act i = some x → g x.obj = g' x.obj) :
    a.acts.map (Option.map (concAct g)) = a.acts.map (Option.map (concAct g')) := by
  apply List.map_congr_left
  intro x hx
  cases x with
  | none => rfl
  | some v => obtain ⟨i, hi⟩ := mem_act.1 hx; simp [concAct_congr (h i v hi)]

theorem owners_fresh {a : Abs σ V} (W : WF a) {k : Nat} (hk : a.objs.length ≤ k) : a.owners k = 0 := by
  rcases Nat.eq_zero_or_pos (a.owners k) with h | h
  · exact h
  · obtain ⟨i, v, h1, h2, _⟩ := owners_pos.1 h
    have := W.lt h1
    omega

/-! ## `create` -/

theorem create_var (a : Abs σ V) (t : Nat) (own : Own) (st : σ) (f : Face) (j : Nat) :
    (a.create t own st f).var j = if j = a.vars.length then some ⟨a.objs.length, f, none⟩ else a.var j :=
  join_push' _ _ _

theorem create_owners (a : Abs σ V) (t : Nat) (own : Own) (st : σ) (f : Face) (k : Nat) :
    (a.create t own st f).owners k = a.owners k + (if a.objs.length = k then 1 else 0) := by
  have := owners_push a ⟨a.objs.length, f, none⟩ k
  simp only [AVal.own1, and_true] at this
  exact this

theorem create_sig {a : Abs σ V} {t : Nat} {own : Own} {st : σ} {f : Face} {k : Nat} (h : k < a.objs.length) :
    (a.create t own st f).sig k = a.sig k := by
  simp [Abs.sig, Abs.create, List.getElem?_append_left h]

theorem conc_create {a : Abs σ V} (W : WF a) (t : Nat) (own : Own) (st : σ) (f : Face) :
    conc (a.create t own st f) = (conc a).push ((conc a).heap ++ [⟨t, own, st, 1⟩])
      (concVal own t ⟨(conc a).heap.length, f, none⟩) none := by
  have h1 : (conc (a.create t own st f)).heap = (conc a).heap ++ [⟨t, own, st, 1⟩] := by
    apply List.ext_getElem?
    intro k
    rw [conc_heap]
    rcases Nat.lt_trichotomy k a.objs.length with h | h | h
    · rw [List.getElem?_append_left (by rw [heap_length]; exact h), conc_heap]
      simp only [Abs.create, List.getElem?_append_left h]
      cases a.objs[k]? with
      | none => rfl
      | some o =>
        have := create_owners a t own st f k
        rw [if_neg (by omega)] at this
        simp only [Abs.create] at this
        simp [concObj, this]
    · subst h
      have := create_owners a t own st f a.objs.length
      rw [if_pos rfl, owners_fresh W (Nat.le_refl _)] at this
      simp only [Abs.create] at this
      simp [Abs.create, concObj, this, heap_length]
    · rw [List.getElem?_eq_none (by simp [Abs.create]; omega), List.getElem?_eq_none (by simp [heap_length]; omega)]
      rfl
  have h2 : (conc (a.create t own st f)).vars = (conc a).vars ++ [some ⟨concVal own t ⟨(conc a).heap.length, f, none⟩, none⟩] := by
    have e : (a.create t own st f).vars = a.vars ++ [some ⟨a.objs.length, f, none⟩] := rfl
    simp only [conc, e, List.map_append, List.length_mapIdx]
    rw [map_vars_congr (g := (a.create t own st f).sig) (g' := a.sig) fun i v hv => create_sig (W.lt hv)]
    congr 1
    have : (a.create t own st f).objs[a.objs.length]? = some ⟨t, own, st, false⟩ := by simp [Abs.create]
    simp only [List.map_cons, List.map_nil, Option.map_some]
    rw [concVar_eq (o := ⟨t, own, st, false⟩) this]
  have h3 : (conc (a.create t own st f)).acts = (conc a).acts := by
    simp only [conc]
    rw [show (a.create t own st f).acts = a.acts from rfl]
    exact map_acts_congr fun i x hx => create_sig (W.actLt hx)
  generalize conc (a.create t own st f) = s at *
  cases s
  simp only at h1 h2 h3
  subst h1; subst h2; subst h3
  rfl

theorem WF.create {a : Abs σ V} (W : WF a) (t : Nat) (own : Own) (st : σ) (f : Face)
    (hf : FaceOk own ⟨a.objs.length, f, none⟩) : WF (a.create t own st f) := by
  have hv := create_var a t own st f
  have hown := create_owners a t own st f
  have hobj : ∀ (k : Nat) (o : AObj σ), a.objs[k]? = some o → (a.create t own st f).objs[k]? = some o := by
    intro k o h
    have := (List.getElem?_eq_some_iff.1 h).1
    simp [Abs.create, List.getElem?_append_left this, h]
  have hnew : (a.create t own st f).objs[a.objs.length]? = some ⟨t, own, st, false⟩ := by simp [Abs.create]
  have old : ∀ {i v}, a.var i = some v → (a.create t own st f).var i = some v := by
    intro i v h
    rw [hv, if_neg]; exact h
    have := join_lt' h; omega
  have hact : ∀ c, (a.create t own st f).act c = a.act c := fun _ => rfl
  constructor
  · intro i v h
    rw [hv] at h
    split at h
    · cases h; exact ⟨_, hnew, hf⟩
    · obtain ⟨o, h1, h2⟩ := W.obj i v h
      exact ⟨o, hobj _ _ h1, h2⟩
  · intro k o h hl
    rw [hown]
    rcases Nat.lt_trichotomy k a.objs.length with hk | hk | hk
    · have : a.objs[k]? = some o := by simpa [Abs.create, List.getElem?_append_left hk] using h
      rw [(W.leak k o this hl).1, if_neg (by omega)]
      exact ⟨rfl, (W.leak k o this hl).2⟩
    · subst hk; rw [hnew] at h; cases h; cases hl
    · rw [List.getElem?_eq_none (by simp [Abs.create]; omega)] at h; cases h
  · intro i v h hb
    rw [hv] at h
    rw [hown]
    split at h
    · cases h; exact absurd rfl hb
    · have := W.borrowed i v h hb; omega
  · intro i j v w b c hij h h' ho hb hc
    rw [hv] at h h'
    split at h
    · cases h; cases hb
    · split at h'
      · cases h'; cases hc
      · exact W.excl i j v w b c hij h h' ho hb hc
  · intro i j v w o hij h h' ho hb hc hk
    rw [hv] at h h'
    split at h
    · split at h'
      · omega
      · cases h; have := W.lt h'; simp only at ho; omega
    · split at h'
      · cases h'; have := W.lt h; simp only at ho; omega
      · refine W.alias i j v w o hij h h' ho hb hc ?_
        simpa [Abs.create, List.getElem?_append_left (W.lt h)] using hk
  · intro c x h
    obtain ⟨v, o, h1, h2, h3, h4⟩ := W.acts c x h
    exact ⟨v, o, old h1, h2, hobj _ _ h3, h4⟩
  · exact W.actAlias
  · intro c x v j w ex h1 h2 h3 h4 h5 h6
    have h1 : a.act c = some x := h1
    obtain ⟨v', o, e1, e2, e3, _⟩ := W.acts c x h1
    have : v' = v := by rw [old e1] at h2; cases h2; rfl
    subst this
    rw [hv] at h4
    split at h4
    · cases h4; cases h6
    · exact W.actOwner c x v' j w ex h1 e1 h3 h4 h5 h6

/-! ## `push` -/

theorem push_sig (a : Abs σ V) (v : AVal) : (a.push v).sig = a.sig := rfl

theorem State.ext' {s t : State σ V} (h1 : s.heap = t.heap) (h2 : s.vars = t.vars) (h3 : s.acts = t.acts) : s = t := by
  cases s; cases t; simp only at h1 h2 h3; subst h1; subst h2; subst h3; rfl

theorem conc_push {a : Abs σ V} {v : AVal} {o : AObj σ} (h : a.objs[v.obj]? = some o) (hb : v.borrow = none) :
    conc (a.push v) = (conc a).push
      ((conc a).heap.set v.obj { concObj a v.obj o with cnt := (concObj a v.obj o).cnt + 1 })
      (concVal o.own o.ty v) none := by
  refine State.ext' ?_ ?_ rfl
  · apply List.ext_getElem?
    intro k
    simp only [State.push]
    rw [conc_heap, List.getElem?_set, conc_heap]
    have hown := owners_push a v k
    by_cases hk : v.obj = k
    · subst hk
      have hl : v.obj < (conc a).heap.length := by rw [heap_length]; exact (List.getElem?_eq_some_iff.1 h).1
      simp only [AVal.own1, hb, and_self, if_true] at hown
      simp [hl, Abs.push, h, concObj]
      simp only [Abs.push] at hown
      omega
    · simp only [AVal.own1, hk, false_and, if_false] at hown
      rw [if_neg hk, concObj_congr (b := a) (by omega)]
      rfl
  · simp only [conc, State.push, push_sig]
    simp [Abs.push, concVar_eq h, hb]

theorem conc_push_ref {a : Abs σ V} {v : AVal} {o : AObj σ} (h : a.objs[v.obj]? = some o) {ex : Bool}
    (hb : v.borrow = some ex) :
    conc (a.push v) = (conc a).push (conc a).heap (concVal o.own o.ty v) (some ex) := by
  refine State.ext' ?_ ?_ rfl
  · apply List.ext_getElem?
    intro k
    simp only [State.push]
    rw [conc_heap, conc_heap]
    have hown := owners_push a v k
    simp only [AVal.own1, hb, reduceCtorEq, and_false, if_false] at hown
    rw [concObj_congr (b := a) (by omega)]
    rfl
  · simp only [conc, State.push, push_sig]
    simp [Abs.push, concVar_eq h, hb]

theorem WF.push {a : Abs σ V} (W : WF a) {w : AVal} {o : AObj σ} (ho : a.objs[w.obj]? = some o) (hf : FaceOk o.own w)
    (hl : 0 < a.owners w.obj)
    (hexcl : ∀ j u b c, a.var j = some u → u.obj = w.obj → u.borrow = some b → w.borrow = some c → b = false ∧ c = false)
    (halias : w.borrow = none → ∀ j u, a.var j = some u → u.obj = w.obj → u.borrow = none →
      canMut o.own u = false ∧ canMut o.own w = false)
    (hact : ∀ c x v ex, a.act c = some x → a.var x.var = some v → v.borrow = none → v.obj = w.obj →
      w.borrow = some ex → x.mt = false ∧ ex = false) : WF (a.push w) := by
  have hv := var_push' a w
  have hown := owners_push a w
  have old : ∀ {i v}, a.var i = some v → (a.push w).var i = some v := by
    intro i v h
    rw [hv, if_neg]; exact h
    have := join_lt' h; omega
  constructor
  · intro i v h
    rw [hv] at h
    split at h
    · cases h; exact ⟨o, ho, hf⟩
    · exact W.obj i v h
  · intro k o' h hlk
    obtain ⟨h0, hfo⟩ := W.leak k o' h hlk
    rw [hown, h0]
    have : w.obj ≠ k := by intro e; subst e; omega
    simp [AVal.own1, this, hfo]
  · intro i v h hb
    rw [hv] at h
    rw [hown]
    split at h
    · cases h; omega
    · have := W.borrowed i v h hb; omega
  · intro i j v u b c hij h h' hk hb hc
    rw [hv] at h h'
    split at h
    · split at h'
      · omega
      · cases h
        have := hexcl j u c b h' hk.symm hc hb
        exact ⟨this.2, this.1⟩
    · split at h'
      · cases h'
        exact hexcl i v b c h hk hb hc
      · exact W.excl i j v u b c hij h h' hk hb hc
  · intro i j v u o' hij h h' hk hb hc hko
    rw [hv] at h h'
    split at h
    · split at h'
      · omega
      · cases h
        have e : o' = o := by
          have hko : a.objs[w.obj]? = some o' := hko
          rw [ho] at hko; cases hko; rfl
        subst e
        exact (halias hb j u h' hk.symm hc).2
    · split at h'
      · cases h'
        have e : o' = o := by
          have hko : a.objs[v.obj]? = some o' := hko
          rw [hk, ho] at hko; cases hko; rfl
        subst e
        exact (halias hc i v h hk hb).1
      · exact W.alias i j v u o' hij h h' hk hb hc hko
  · intro c x h
    obtain ⟨v, o', h1, h2, h3, h4⟩ := W.acts c x h
    exact ⟨v, o', old h1, h2, h3, h4⟩
  · exact W.actAlias
  · intro c x v j u ex h1 h2 h3 h4 h5 h6
    have h1 : a.act c = some x := h1
    obtain ⟨v', _, e1, e2, e3, _⟩ := W.acts c x h1
    have : v' = v := by rw [old e1] at h2; cases h2; rfl
    subst this
    rw [hv] at h4
    split at h4
    · cases h4; exact hact c x v' ex h1 e1 h3 h5.symm h6
    · exact W.actOwner c x v' j u ex h1 e1 h3 h4 h5 h6

/-! ## Changing what a variable looks like -/

theorem conc_setVar {a : Abs σ V} {i : Nat} {v w : AVal} {o : AObj σ} (h : a.var i = some v)
    (ho : a.objs[v.obj]? = some o) (hk : w.obj = v.obj) (hb : w.borrow = v.borrow) :
    conc (a.setVar i (some w)) = (conc a).set (conc a).heap i (some ⟨concVal o.own o.ty w, v.borrow⟩) := by
  refine State.ext' ?_ ?_ rfl
  · apply List.ext_getElem?
    intro k
    simp only [State.set]
    rw [conc_heap, conc_heap]
    have hown := owners_setVar (w := w) h k
    simp only [AVal.own1, hk, hb] at hown
    have hown : (a.setVar i (some w)).owners k = a.owners k := by omega
    rw [concObj_congr (b := a) (by omega)]
    rfl
  · simp only [conc, State.set]
    have e : (a.setVar i (some w)).sig = a.sig := rfl
    rw [e]
    simp only [Abs.setVar, List.map_set]
    congr 1
    simp [concVar_eq (v := w) (by rw [hk]; exact ho), hb]

theorem WF.setVar {a : Abs σ V} (W : WF a) {i : Nat} {v w : AVal} {o : AObj σ} (h : a.var i = some v)
    (ho : a.objs[v.obj]? = some o) (hk : w.obj = v.obj) (hb : v.borrow = none) (hb' : w.borrow = none)
    (hu : a.usable i v true = true) (hf : FaceOk o.own w) (hm : canMut o.own v = false → canMut o.own w = false) :
    WF (a.setVar i (some w)) := by
  have hv := var_setVar h (some w)
  have hown : ∀ k, (a.setVar i (some w)).owners k = a.owners k := by
    intro k
    have hown := owners_setVar (w := w) h k
    simp only [AVal.own1, hk, hb, hb'] at hown
    omega
  obtain ⟨u1, u2⟩ := usable_iff.1 hu
  have noact : ∀ c x, a.act c = some x → x.var ≠ i := by
    intro c x hx e
    have := u1 c x hx e
    simp at this
  constructor
  · intro j u h'
    rw [hv] at h'
    split at h'
    · cases h'; exact ⟨o, by rw [hk]; exact ho, hf⟩
    · exact W.obj j u h'
  · intro k o' h' hl
    rw [hown]; exact W.leak k o' h' hl
  · intro j u h' hbu
    rw [hown]
    rw [hv] at h'
    split at h'
    · cases h'; exact absurd hb' hbu
    · exact W.borrowed j u h' hbu
  · intro j l u u' b c hjl h1 h2 hkk hb1 hb2
    rw [hv] at h1 h2
    split at h1
    · cases h1; rw [hb'] at hb1; cases hb1
    · split at h2
      · cases h2; rw [hb'] at hb2; cases hb2
      · exact W.excl j l u u' b c hjl h1 h2 hkk hb1 hb2
  · intro j l u u' o' hjl h1 h2 hkk hb1 hb2 hko
    have hko : a.objs[u.obj]? = some o' := hko
    rw [hv] at h1 h2
    split at h1
    · split at h2
      · omega
      · rename_i e1 _
        cases h1
        rw [hk, ho] at hko; cases hko
        subst e1
        exact hm (W.alias i l v u' o hjl h h2 (by rw [← hk, hkk]) hb hb2 ho)
    · split at h2
      · rename_i e1
        cases h2
        subst e1
        exact W.alias j i u v o' hjl h1 h (by rw [hkk, hk]) hb1 hb hko
      · exact W.alias j l u u' o' hjl h1 h2 hkk hb1 hb2 hko
  · intro c x hx
    have hx : a.act c = some x := hx
    obtain ⟨u, o', h1, h2, h3, h4⟩ := W.acts c x hx
    refine ⟨u, o', ?_, h2, h3, h4⟩
    rw [hv, if_neg (Ne.symm (noact c x hx))]; exact h1
  · exact W.actAlias
  · intro c x u j u' ex h1 h2 h3 h4 h5 h6
    have h1 : a.act c = some x := h1
    rw [hv, if_neg (Ne.symm (noact c x h1))] at h2
    rw [hv] at h4
    split at h4
    · cases h4; rw [hb'] at h6; cases h6
    · exact W.actOwner c x u j u' ex h1 h2 h3 h4 h5 h6

/-! ## Removing a variable -/

theorem conc_del_ref {a : Abs σ V} {i : Nat} {v : AVal} (h : a.var i = some v) (hb : v.borrow ≠ none) :
    conc (a.setVar i none) = (conc a).set (conc a).heap i none := by
  refine State.ext' ?_ ?_ rfl
  · apply List.ext_getElem?
    intro k
    simp only [State.set]
    rw [conc_heap, conc_heap]
    have hown := owners_del h k
    simp only [AVal.own1, hb, and_false, if_false] at hown
    have hown : (a.setVar i none).owners k = a.owners k := by omega
    rw [concObj_congr (b := a) (by omega)]
    rfl
  · simp only [conc, State.set]
    have e : (a.setVar i none).sig = a.sig := rfl
    rw [e]
    simp [Abs.setVar, List.map_set]

theorem conc_del {a : Abs σ V} {i : Nat} {v : AVal} {o : AObj σ} (h : a.var i = some v)
    (ho : a.objs[v.obj]? = some o) (hb : v.borrow = none) :
    conc (a.setVar i none) = (conc a).set
      ((conc a).heap.set v.obj { concObj a v.obj o with cnt := (concObj a v.obj o).cnt - 1 }) i none := by
  refine State.ext' ?_ ?_ rfl
  · apply List.ext_getElem?
    intro k
    simp only [State.set]
    rw [conc_heap, List.getElem?_set, conc_heap]
    have hown := owners_del h k
    by_cases hk : v.obj = k
    · subst hk
      have hl : v.obj < (conc a).heap.length := by rw [heap_length]; exact (List.getElem?_eq_some_iff.1 ho).1
      simp only [AVal.own1, hb, and_self, if_true] at hown
      simp [hl, Abs.setVar, ho, concObj]
      simp only [Abs.setVar] at hown
      omega
    · simp only [AVal.own1, hk, false_and, if_false] at hown
      have hown : (a.setVar i none).owners k = a.owners k := by omega
      rw [if_neg hk, concObj_congr (b := a) (by omega)]
      rfl
  · simp only [conc, State.set]
    have e : (a.setVar i none).sig = a.sig := rfl
    rw [e]
    simp [Abs.setVar, List.map_set]

theorem WF.del {a : Abs σ V} (W : WF a) {i : Nat} {v : AVal} (h : a.var i = some v)
    (hu : a.usable i v true = true) : WF (a.setVar i none) := by
  have hv := var_setVar h none
  have hown := fun k => owners_del h k
  obtain ⟨u1, u2⟩ := usable_iff.1 hu
  have noact : ∀ c x, a.act c = some x → x.var ≠ i := by
    intro c x hx e
    have := u1 c x hx e
    simp at this
  have old : ∀ {j u}, (a.setVar i none).var j = some u → j ≠ i ∧ a.var j = some u := by
    intro j u hj
    rw [hv] at hj
    split at hj
    · cases hj
    · exact ⟨by omega, hj⟩
  constructor
  · intro j u h'
    exact W.obj j u (old h').2
  · intro k o' h' hl
    obtain ⟨h0, hfo⟩ := W.leak k o' h' hl
    have := hown k
    exact ⟨by omega, hfo⟩
  · intro j u h' hbu
    have hj := old h'
    have hp := W.borrowed j u hj.2 hbu
    have := hown u.obj
    by_cases hk : v.obj = u.obj
    · cases hb : v.borrow with
      | none =>
        cases hbu' : u.borrow with
        | none => exact absurd hbu' hbu
        | some ex =>
          have := u2 hb j u ex hj.2 hbu' hk.symm
          simp at this
      | some b =>
        simp only [AVal.own1, hb, reduceCtorEq, and_false, if_false] at this
        omega
    · simp only [AVal.own1, hk, false_and, if_false] at this
      omega
  · intro j l u u' b c hjl h1 h2 hkk hb1 hb2
    exact W.excl j l u u' b c hjl (old h1).2 (old h2).2 hkk hb1 hb2
  · intro j l u u' o' hjl h1 h2 hkk hb1 hb2 hko
    exact W.alias j l u u' o' hjl (old h1).2 (old h2).2 hkk hb1 hb2 hko
  · intro c x hx
    have hx : a.act c = some x := hx
    obtain ⟨u, o', h1, h2, h3, h4⟩ := W.acts c x hx
    refine ⟨u, o', ?_, h2, h3, h4⟩
    rw [hv, if_neg (Ne.symm (noact c x hx))]; exact h1
  · exact W.actAlias
  · intro c x u j u' ex h1 h2 h3 h4 h5 h6
    exact W.actOwner c x u j u' ex h1 (old h2).2 h3 (old h4).2 h5 h6

/-! ## Changing an object, and calls -/

theorem WF.setObj {a : Abs σ V} (W : WF a) {k : Nat} {o o' : AObj σ} (ho : a.objs[k]? = some o)
    (hown : o'.own = o.own) (hl : o'.leaked = true → a.owners k = 0 ∧ o.own = .foreign) : WF { a with objs := a.objs.set k o' } := by
  have hget : ∀ (l : Nat) (p : AObj σ), a.objs[l]? = some p →
      ∃ p', (a.objs.set k o')[l]? = some p' ∧ p'.own = p.own := by
    intro l p h
    rw [List.getElem?_set]
    by_cases hk : k = l
    · subst hk
      rw [ho] at h; cases h
      exact ⟨o', by simp [(List.getElem?_eq_some_iff.1 ho).1], hown⟩
    · exact ⟨p, by simp [hk, h], rfl⟩
  have hback : ∀ (l : Nat) (p' : AObj σ), (a.objs.set k o')[l]? = some p' →
      ∃ p, a.objs[l]? = some p ∧ p'.own = p.own := by
    intro l p h
    rw [List.getElem?_set] at h
    by_cases hk : k = l
    · subst hk
      rw [if_pos rfl] at h
      split at h
      · cases h; exact ⟨o, ho, hown⟩
      · cases h
    · rw [if_neg hk] at h; exact ⟨p, h, rfl⟩
  constructor
  · intro i v h
    obtain ⟨p, h1, h2⟩ := W.obj i v h
    obtain ⟨p', h3, h4⟩ := hget _ _ h1
    exact ⟨p', h3, by rw [h4]; exact h2⟩
  · intro l p h hp
    have h : (a.objs.set k o')[l]? = some p := h
    rw [List.getElem?_set] at h
    by_cases hk : k = l
    · subst hk
      rw [if_pos rfl] at h
      split at h
      · cases h; rw [hown]; exact hl hp
      · cases h
    · rw [if_neg hk] at h; exact W.leak l p h hp
  · exact W.borrowed
  · exact W.excl
  · intro i j v w p' hij h1 h2 h3 h4 h5 h6
    obtain ⟨p, h7, h8⟩ := hback _ _ h6
    rw [h8]
    exact W.alias i j v w p hij h1 h2 h3 h4 h5 h7
  · intro c x hx
    obtain ⟨u, p, h1, h2, h3, h4⟩ := W.acts c x hx
    obtain ⟨p', h5, h6⟩ := hget _ _ h3
    exact ⟨u, p', h1, h2, h5, by rw [h6]; exact h4⟩
  · exact W.actAlias
  · exact W.actOwner

theorem WF.enter {a : Abs σ V} (W : WF a) {i : Nat} {v : AVal} {o : AObj σ} {mt : Bool} (h : a.var i = some v)
    (ho : a.objs[v.obj]? = some o) (hu : a.usable i v mt = true) (hm : mt = true → canMut o.own v = true)
    (name : String) (args : List V) : WF { a with acts := a.acts ++ [some ⟨i, v.obj, name, args, mt⟩] } := by
  have hq := quiet_iff.1 (W.quiet h ho hu hm)
  obtain ⟨u1, u2⟩ := usable_iff.1 hu
  have hact : ∀ c, ({ a with acts := a.acts ++ [some ⟨i, v.obj, name, args, mt⟩] } : Abs σ V).act c =
      if c = a.acts.length then some ⟨i, v.obj, name, args, mt⟩ else a.act c := fun c => join_push' _ _ _
  constructor
  · exact W.obj
  · exact W.leak
  · exact W.borrowed
  · exact W.excl
  · exact W.alias
  · intro c x hx
    rw [hact] at hx
    split at hx
    · cases hx; exact ⟨v, o, h, rfl, ho, hm⟩
    · exact W.acts c x hx
  · intro c d x y hcd hx hy hk
    rw [hact] at hx hy
    split at hx
    · split at hy
      · omega
      · cases hx; exact (hq d y hy hk.symm).1
    · split at hy
      · cases hy; exact (hq c x hx hk).2
      · exact W.actAlias c d x y hcd hx hy hk
  · intro c x u j w ex hx h2 h3 h4 h5 h6
    rw [hact] at hx
    split at hx
    · cases hx
      have h2 : a.var i = some u := h2
      rw [h] at h2; cases h2
      exact u2 h3 j w ex h4 h6 h5
    · exact W.actOwner c x u j w ex hx h2 h3 h4 h5 h6

theorem WF.leave {a : Abs σ V} (W : WF a) {c : Nat} {x : AAct V} (h : a.act c = some x) :
    WF { a with acts := a.acts.set c none } := by
  have old : ∀ {d y}, ({ a with acts := a.acts.set c none } : Abs σ V).act d = some y → a.act d = some y := by
    intro d y hd
    have hd : (((a.acts.set c none)[d]?).join) = some y := hd
    rw [join_set' (join_lt' h)] at hd
    split at hd
    · cases hd
    · exact hd
  constructor
  · exact W.obj
  · exact W.leak
  · exact W.borrowed
  · exact W.excl
  · exact W.alias
  · intro d y hy; exact W.acts d y (old hy)
  · intro d e y z hde hy hz; exact W.actAlias d e y z hde (old hy) (old hz)
  · intro d y u j w ex hy; exact W.actOwner d y u j w ex (old hy)

/-! ## Memory -/

theorem object_ok {a : Abs σ V} {k : Nat} {o : AObj σ} (ho : a.objs[k]? = some o) (hl : 0 < a.owners k) :
    (conc a).object k o.ty = .ok (concObj a k o) := by
  simp only [State.object, conc_heap, ho, Option.map_some]
  rw [if_neg (by simp [concObj]; omega), if_pos (by rfl)]

theorem incr_ok {a : Abs σ V} {k : Nat} {o : AObj σ} (ho : a.objs[k]? = some o) (hl : 0 < a.owners k) :
    (conc a).incr o.own k o.ty = .ok ((conc a).heap.set k { concObj a k o with cnt := (concObj a k o).cnt + 1 }) := by
  simp only [State.incr, object_ok ho hl, bind, Except.bind]
  rw [if_pos (by rfl)]

theorem decr_ok {a : Abs σ V} (W : WF a) {i : Nat} {v : AVal} {o : AObj σ} (h : a.var i = some v)
    (ho : a.objs[v.obj]? = some o) (hb : v.borrow = none) (hu : a.usable i v true = true) :
    (conc a).decr o.own v.obj o.ty =
      .ok ((conc a).heap.set v.obj { concObj a v.obj o with cnt := (concObj a v.obj o).cnt - 1 },
        if v.borrow.isNone && (a.setVar i none).owners v.obj == 0 then some o.st else none) := by
  have hl := W.live h
  have hown := owners_del h v.obj
  simp only [AVal.own1, hb, and_self, if_true] at hown
  have hlk := W.notLeaked h ho
  simp only [State.decr, object_ok ho hl, bind, Except.bind]
  rw [if_pos (by rfl)]
  have hc : (concObj a v.obj o).cnt = a.owners v.obj := by simp [concObj, hlk]
  by_cases h1 : a.owners v.obj = 1
  · rw [if_pos (by omega)]
    have hq : (conc a).quiet v.obj true = true := by
      rw [conc_quiet, quiet_iff]
      obtain ⟨u1, u2⟩ := usable_iff.1 hu
      intro c x hx hk
      obtain ⟨w, o', hw, hwk, _, _⟩ := W.acts c x hx
      by_cases hi : x.var = i
      · exact u1 c x hx hi
      · exfalso
        cases hbw : w.borrow with
        | none =>
          have : 0 < (a.setVar i none).owners v.obj :=
            owners_pos.2 ⟨x.var, w, by rw [var_setVar h, if_neg (Ne.symm hi)]; exact hw, by rw [hwk, hk], hbw⟩
          omega
        | some ex =>
          have := u2 hb x.var w ex hw hbw (by rw [hwk, hk])
          simp at this
    rw [if_pos hq]
    have : (a.setVar i none).owners v.obj = 0 := by omega
    simp [this, hb, hc, h1]
    rfl
  · rw [if_neg (by omega)]
    have : (a.setVar i none).owners v.obj ≠ 0 := by omega
    simp [this]
end
end Verif.Dyn
