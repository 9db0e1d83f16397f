import Verif.Dyn.Spec

/-!
# Refinement: the concrete state is a function of the abstract one

`conc a` computes, from an abstract state, the reference counts and the function pointers which the
code keeps.  `WF a` is the invariant of abstract states; it has the facts about aliasing.
-/
namespace Verif.Dyn

section
variable {σ V : Type}

def srcOf (own : Own) : Option Bool → Coercible
  | some ex => .ref ex
  | none => match own with
    | .box => .box
    | .rc => .rc false
    | .arc => .rc true
    | _ => .ref false

def concVal (own : Own) (t : Nat) (v : AVal) : Val :=
  match v.face with
  | .rust => match own with
    | .box => .box v.obj t
    | .rc => .rc v.obj t
    | .arc => .arc v.obj t
    | .stack => .stack v.obj t
    | .foreign => .stack v.obj t
  | .arcFn c => .arcFn (if own = .arc then ArcFn.new t v.obj else ArcFn.foreign t v.obj c)
  | .boxFn c f => .boxFn (if own = .box then BoxFn.new t v.obj else BoxFn.foreign t v.obj c f)
  | .refFn => .refFn (RefFn.new t v.obj)
  | .vptr d => .vptr (intoVirtualPtr (srcOf own v.borrow) d t v.obj) d

theorem concVal_obj (own : Own) (t : Nat) (v : AVal) : (concVal own t v).obj = v.obj := by
  unfold concVal
  split
  · cases own <;> rfl
  · simp only [Val.obj]; split <;> rfl
  · simp only [Val.obj]; split <;> rfl
  · rfl
  · rfl

/-- Type and storage of an object. -/
def Abs.sig (a : Abs σ V) (k : Nat) : Option (Own × Nat) := (a.objs[k]?).map fun o => (o.own, o.ty)

def concVar (g : Nat → Option (Own × Nat)) (v : AVal) : Var :=
  match g v.obj with
  | some (own, t) => ⟨concVal own t v, v.borrow⟩
  | none => ⟨.refFn ⟨v.obj, .noOp⟩, v.borrow⟩

theorem concVar_obj (g : Nat → Option (Own × Nat)) (v : AVal) : (concVar g v).val.obj = v.obj := by
  unfold concVar; split
  · exact concVal_obj _ _ _
  · rfl
theorem concVar_lt (g : Nat → Option (Own × Nat)) (v : AVal) : (concVar g v).lt = v.borrow := by
  unfold concVar; split <;> rfl

def concAct (g : Nat → Option (Own × Nat)) (x : AAct V) : Act V :=
  ⟨x.var, x.obj, ((g x.obj).map (·.2)).getD 0, x.name, x.args, x.mt⟩

def concObj (a : Abs σ V) (k : Nat) (o : AObj σ) : Obj σ := ⟨o.ty, o.own, o.st, a.owners k + o.leaked.toNat⟩

def conc (a : Abs σ V) : State σ V where
  heap := a.objs.mapIdx (concObj a)
  vars := a.vars.map (Option.map (concVar a.sig))
  acts := a.acts.map (Option.map (concAct a.sig))

theorem conc_var (a : Abs σ V) (i : Nat) : (conc a).var i = (a.var i).map (concVar a.sig) := by
  simp only [State.var, conc, Abs.var, List.getElem?_map]
  cases a.vars[i]? with
  | none => rfl
  | some x => cases x <;> rfl

theorem conc_heap (a : Abs σ V) (k : Nat) : (conc a).heap[k]? = (a.objs[k]?).map (concObj a k) := by
  simp [conc, List.getElem?_mapIdx]

theorem conc_act (a : Abs σ V) (c : Nat) : ((conc a).acts[c]?).join = (a.act c).map (concAct a.sig) := by
  simp only [conc, Abs.act, List.getElem?_map]
  cases a.acts[c]? with
  | none => rfl
  | some x => cases x <;> rfl

theorem conc_usable (a : Abs σ V) (i : Nat) (v : AVal) (mt : Bool) :
    (conc a).usable i (concVar a.sig v) mt = a.usable i v mt := by
  simp only [State.usable, Abs.usable, conc, List.all_map, concVar_lt]
  congr 1
  · congr 1; funext x; cases x <;> rfl
  · congr 1
    congr 1; funext x
    cases x with
    | none => rfl
    | some w =>
      have h1 := concVar_obj a.sig w
      have h2 := concVar_lt a.sig w
      have h3 := concVar_obj a.sig v
      simp only [Function.comp, Option.map]
      generalize concVar a.sig w = w' at *
      obtain ⟨wv, wl⟩ := w'
      obtain ⟨k, f, b⟩ := w
      simp only at h1 h2
      subst h2; subst h1
      cases wl with
      | none => rfl
      | some ex => simp [h3]

/-- No call in progress has (exclusive) access to the object. -/
def Abs.quiet (a : Abs σ V) (k : Nat) (mt : Bool) : Bool :=
  a.acts.all fun
    | some c => !(c.obj == k && (mt || c.mt))
    | none => true

theorem conc_quiet (a : Abs σ V) (k : Nat) (mt : Bool) : (conc a).quiet k mt = a.quiet k mt := by
  simp only [State.quiet, Abs.quiet, conc, List.all_map]
  congr 1; funext x; cases x <;> rfl

/-! ## Reading `usable` and `quiet` -/

theorem mem_var {a : Abs σ V} {v : AVal} : some v ∈ a.vars ↔ ∃ i, a.var i = some v := by
  rw [List.mem_iff_getElem?]
  constructor
  · rintro ⟨i, h⟩; exact ⟨i, by simp [Abs.var, h]⟩
  · rintro ⟨i, h⟩
    refine ⟨i, ?_⟩
    simp only [Abs.var] at h
    cases h' : a.vars[i]? with
    | none => simp [h'] at h
    | some x => simp [h'] at h; rw [h]

theorem mem_act {a : Abs σ V} {x : AAct V} : some x ∈ a.acts ↔ ∃ c, a.act c = some x := by
  rw [List.mem_iff_getElem?]
  constructor
  · rintro ⟨i, h⟩; exact ⟨i, by simp [Abs.act, h]⟩
  · rintro ⟨i, h⟩
    refine ⟨i, ?_⟩
    simp only [Abs.act] at h
    cases h' : a.acts[i]? with
    | none => simp [h'] at h
    | some x => simp [h'] at h; rw [h]

theorem usable_iff {a : Abs σ V} {i : Nat} {v : AVal} {mt : Bool} :
    a.usable i v mt = true ↔
      (∀ c x, a.act c = some x → x.var = i → mt = false ∧ x.mt = false) ∧
      (v.borrow = none → ∀ j w ex, a.var j = some w → w.borrow = some ex → w.obj = v.obj →
        mt = false ∧ ex = false) := by
  simp only [Abs.usable, Bool.and_eq_true, Bool.or_eq_true, List.all_eq_true]
  constructor
  · rintro ⟨h1, h2⟩
    refine ⟨fun c x hx hv => ?_, fun hb j w ex hj hw hk => ?_⟩
    · have := h1 (some x) (mem_act.2 ⟨c, hx⟩)
      simpa [hv] using this
    · rcases h2 with h2 | h2
      · simp [hb] at h2
      · have := h2 (some w) (mem_var.2 ⟨j, hj⟩)
        obtain ⟨k, f, b⟩ := w
        simp only at hw hk
        subst hw
        simpa [hk] using this
  · rintro ⟨h1, h2⟩
    refine ⟨fun x hx => ?_, ?_⟩
    · cases x with
      | none => rfl
      | some x =>
        obtain ⟨c, hc⟩ := mem_act.1 hx
        by_cases hv : x.var = i
        · have := h1 c x hc hv; simp [this]
        · simp [hv]
    · cases hb : v.borrow with
      | some _ => simp
      | none =>
        refine .inr fun x hx => ?_
        cases x with
        | none => rfl
        | some w =>
          obtain ⟨j, hj⟩ := mem_var.1 hx
          obtain ⟨k, f, b⟩ := w
          cases b with
          | none => rfl
          | some ex =>
            by_cases hk : k = v.obj
            · have := h2 hb j _ ex hj rfl hk; simp [this]
            · simp [hk]

theorem quiet_iff {a : Abs σ V} {k : Nat} {mt : Bool} :
    a.quiet k mt = true ↔ ∀ c x, a.act c = some x → x.obj = k → mt = false ∧ x.mt = false := by
  simp only [Abs.quiet, List.all_eq_true]
  constructor
  · intro h c x hx hk
    have := h (some x) (mem_act.2 ⟨c, hx⟩)
    simpa [hk] using this
  · intro h x hx
    cases x with
    | none => rfl
    | some x =>
      obtain ⟨c, hc⟩ := mem_act.1 hx
      by_cases hk : x.obj = k
      · have := h c x hc hk; simp [this]
      · simp [hk]

/-! ## Lists with holes -/

theorem join_set' {α : Type} {l : List (Option α)} {i : Nat} (hi : i < l.length) (x : Option α) (j : Nat) :
    ((l.set i x)[j]?).join = if i = j then x else (l[j]?).join := by
  rw [List.getElem?_set]
  by_cases h : i = j
  · subst h; simp [hi]
  · simp [h]

theorem join_push' {α : Type} (l : List (Option α)) (x : Option α) (j : Nat) :
    ((l ++ [x])[j]?).join = if j = l.length then x else (l[j]?).join := by
  rcases Nat.lt_trichotomy j l.length with h | h | h
  · rw [List.getElem?_append_left h, if_neg (by omega)]
  · subst h; simp
  · rw [List.getElem?_eq_none (by simp; omega), if_neg (by omega), List.getElem?_eq_none (by omega)]

theorem join_lt' {α : Type} {l : List (Option α)} {i : Nat} {x : α} (h : (l[i]?).join = some x) : i < l.length := by
  rcases Nat.lt_or_ge i l.length with h1 | h1
  · exact h1
  · rw [List.getElem?_eq_none h1] at h; cases h

theorem var_setVar {a : Abs σ V} {i : Nat} {w : AVal} (h : a.var i = some w) (v : Option AVal) (j : Nat) :
    (a.setVar i v).var j = if i = j then v else a.var j := join_set' (join_lt' h) v j

theorem var_push' (a : Abs σ V) (v : AVal) (j : Nat) :
    (a.push v).var j = if j = a.vars.length then some v else a.var j := join_push' _ _ _

/-! ## Counting owners -/

def AVal.own1 (v : AVal) (k : Nat) : Nat := if v.obj = k ∧ v.borrow = none then 1 else 0

theorem owns_toNat (v : AVal) (k : Nat) : (if AVal.owns k (some v) = true then 1 else 0) = v.own1 k := by
  unfold AVal.owns AVal.own1
  by_cases h : v.obj = k <;> cases hb : v.borrow <;> simp [h, hb]

theorem owners_push (a : Abs σ V) (v : AVal) (k : Nat) :
    (a.push v).owners k = a.owners k + v.own1 k := by
  simp only [Abs.owners, Abs.push, List.countP_append, List.countP_cons, List.countP_nil, Nat.zero_add, owns_toNat]

theorem countP_set {α : Type} (p : Option α → Bool) {l : List (Option α)} {i : Nat} {v : α}
    (h : (l[i]?).join = some v) (w : Option α) :
    (l.set i w).countP p + (if p (some v) then 1 else 0) = l.countP p + (if p w then 1 else 0) := by
  induction l generalizing i with
  | nil => simp at h
  | cons x l ih =>
    cases i with
    | zero =>
      simp at h; subst h
      simp only [List.set_cons_zero, List.countP_cons]; omega
    | succ i =>
      have := ih (i := i) (by simpa using h)
      simp only [List.set_cons_succ, List.countP_cons]; omega

theorem owners_setVar {a : Abs σ V} {i : Nat} {v w : AVal} (h : a.var i = some v) (k : Nat) :
    (a.setVar i (some w)).owners k + v.own1 k = a.owners k + w.own1 k := by
  have := countP_set (AVal.owns k) h (some w)
  rw [owns_toNat, owns_toNat] at this
  exact this

theorem owners_del {a : Abs σ V} {i : Nat} {v : AVal} (h : a.var i = some v) (k : Nat) :
    (a.setVar i none).owners k + v.own1 k = a.owners k := by
  have := countP_set (AVal.owns k) h none
  rw [owns_toNat] at this
  rw [if_neg (by simp [AVal.owns])] at this
  exact this

theorem owners_pos {a : Abs σ V} {k : Nat} : 0 < a.owners k ↔ ∃ i v, a.var i = some v ∧ v.obj = k ∧ v.borrow = none := by
  simp only [Abs.owners, List.countP_pos_iff]
  constructor
  · rintro ⟨x, hx, h⟩
    cases x with
    | none => cases h
    | some v =>
      obtain ⟨i, hi⟩ := mem_var.1 hx
      simp only [AVal.owns, Bool.and_eq_true, beq_iff_eq, Option.isNone_iff_eq_none] at h
      exact ⟨i, v, hi, h.1, h.2⟩
  · rintro ⟨i, v, hi, h1, h2⟩
    exact ⟨some v, mem_var.2 ⟨i, hi⟩, by simp [AVal.owns, h1, h2]⟩

/-! ## The invariant -/

/-- The handle may be used to get exclusive access. -/
def canMut (own : Own) (v : AVal) : Bool :=
  match v.face with
  | .rust => own == .box || own == .stack
  | .arcFn _ => false
  | .boxFn _ _ | .refFn => true
  | .vptr d => d.hasMut

def FaceOk (own : Own) (v : AVal) : Prop :=
  match v.face with
  | .rust => own ≠ .foreign ∧ v.borrow = none
  | .arcFn c => (own = .arc ∧ c = true ∨ own = .foreign) ∧ v.borrow = none
  | .boxFn c f => (own = .box ∧ c = true ∧ f = true ∨ own = .foreign) ∧ v.borrow = none
  | .refFn => own = .stack ∧ v.borrow = some true
  | .vptr d => (∃ ex, v.borrow = some ex ∧ own = .stack ∧ (Coercible.ref ex).isEligible d = true) ∨
      (v.borrow = none ∧ ∃ src, coercion own = some src ∧ src.isEligible d = true)

structure WF (a : Abs σ V) : Prop where
  obj : ∀ i v, a.var i = some v → ∃ o, a.objs[v.obj]? = some o ∧ FaceOk o.own v
  leak : ∀ k o, a.objs[k]? = some o → o.leaked = true → a.owners k = 0 ∧ o.own = .foreign
  borrowed : ∀ i v, a.var i = some v → v.borrow ≠ none → 0 < a.owners v.obj
  excl : ∀ i j v w b c, i ≠ j → a.var i = some v → a.var j = some w → v.obj = w.obj →
    v.borrow = some b → w.borrow = some c → b = false ∧ c = false
  alias : ∀ i j v w o, i ≠ j → a.var i = some v → a.var j = some w → v.obj = w.obj →
    v.borrow = none → w.borrow = none → a.objs[v.obj]? = some o → canMut o.own v = false
  acts : ∀ c x, a.act c = some x → ∃ v o, a.var x.var = some v ∧ v.obj = x.obj ∧ a.objs[v.obj]? = some o ∧
    (x.mt = true → canMut o.own v = true)
  actAlias : ∀ c d x y, c ≠ d → a.act c = some x → a.act d = some y → x.obj = y.obj → x.mt = false
  actOwner : ∀ c x v j w ex, a.act c = some x → a.var x.var = some v → v.borrow = none → a.var j = some w →
    w.obj = v.obj → w.borrow = some ex → x.mt = false ∧ ex = false

theorem WF.init : WF (Abs.init : Abs σ V) where
  obj i v h := by simp [Abs.init, Abs.var] at h
  leak k o h := by simp [Abs.init] at h
  borrowed i v h := by simp [Abs.init, Abs.var] at h
  excl i j v w b c _ h := by simp [Abs.init, Abs.var] at h
  alias i j v w o _ h := by simp [Abs.init, Abs.var] at h
  acts c x h := by simp [Abs.init, Abs.act] at h
  actAlias c d x y _ h := by simp [Abs.init, Abs.act] at h
  actOwner c x v j w ex h := by simp [Abs.init, Abs.act] at h

theorem eligible_ref_false {d : Decl} (h : (Coercible.ref false).isEligible d = true) : d.hasMut = false := by
  simp [Coercible.isEligible] at h; exact h.1
theorem eligible_rc {d : Decl} {b : Bool} (h : (Coercible.rc b).isEligible d = true) : d.hasMut = false := by
  simp [Coercible.isEligible] at h; exact h.1

theorem shared_canMut {own : Own} {v : AVal} (h : FaceOk own v) (hb : v.borrow = some false) : canMut own v = false := by
  unfold FaceOk at h
  unfold canMut
  cases hf : v.face <;> simp only [hf] at h ⊢
  · rw [hb] at h; cases h.2
  · rw [hb] at h; cases h.2
  · rw [hb] at h; cases h.2
  · rcases h with ⟨ex, h1, _, h2⟩ | ⟨h1, _⟩
    · rw [hb] at h1; cases h1; exact eligible_ref_false h2
    · rw [hb] at h1; cases h1

theorem borrow_stack {own : Own} {v : AVal} (h : FaceOk own v) (hb : v.borrow ≠ none) : own = .stack := by
  unfold FaceOk at h
  split at h
  · exact absurd h.2 hb
  · exact absurd h.2 hb
  · exact absurd h.2 hb
  · exact h.1
  · rcases h with ⟨ex, _, h2, _⟩ | ⟨h1, _⟩
    · exact h2
    · exact absurd h1 hb

theorem WF.live {a : Abs σ V} (W : WF a) {i : Nat} {v : AVal} (h : a.var i = some v) : 0 < a.owners v.obj := by
  by_cases hb : v.borrow = none
  · exact owners_pos.2 ⟨i, v, h, rfl, hb⟩
  · exact W.borrowed i v h hb

theorem WF.notLeaked {a : Abs σ V} (W : WF a) {i : Nat} {v : AVal} {o : AObj σ} (h : a.var i = some v)
    (ho : a.objs[v.obj]? = some o) : o.leaked = false := by
  cases hl : o.leaked
  · rfl
  · have := (W.leak _ _ ho hl).1
    have := W.live h
    omega

/-- What the borrow checker admits does not overlap with any other access. -/
theorem WF.quiet {a : Abs σ V} (W : WF a) {i : Nat} {v : AVal} {o : AObj σ} {mt : Bool} (h : a.var i = some v)
    (ho : a.objs[v.obj]? = some o) (hu : a.usable i v mt = true) (hm : mt = true → canMut o.own v = true) :
    a.quiet v.obj mt = true := by
  rw [quiet_iff]
  intro c x hx hk
  obtain ⟨w, o', hw, hwk, hwo, hwm⟩ := W.acts c x hx
  obtain ⟨u1, u2⟩ := usable_iff.1 hu
  by_cases hij : x.var = i
  · exact u1 c x hx hij
  · have hobj : v.obj = w.obj := by rw [hwk, hk]
    have hoo : o' = o := by rw [← hobj, ho] at hwo; cases hwo; rfl
    subst hoo
    obtain ⟨_, e1, hfv⟩ := W.obj i v h
    rw [ho] at e1; cases e1
    obtain ⟨_, e2, hfw⟩ := W.obj _ w hw
    rw [hwo] at e2; cases e2
    have no : ∀ {b : Bool} {z : AVal}, (b = true → canMut o'.own z = true) → canMut o'.own z = false → b = false := by
      intro b z h1 h2
      cases b
      · rfl
      · rw [h1 rfl] at h2; cases h2
    cases hb : v.borrow with
    | none =>
      cases hc : w.borrow with
      | none =>
        exact ⟨no hm (W.alias i x.var v w o' (Ne.symm hij) h hw hobj hb hc ho),
          no hwm (W.alias x.var i w v o' hij hw h hobj.symm hc hb hwo)⟩
      | some ex =>
        have h1 := u2 hb x.var w ex hw hc hobj.symm
        rw [h1.2] at hc
        exact ⟨h1.1, no hwm (shared_canMut hfw hc)⟩
    | some ex =>
      cases hc : w.borrow with
      | none =>
        have h1 := W.actOwner c x w i v ex hx hw hc h hobj hb
        rw [h1.2] at hb
        exact ⟨no hm (shared_canMut hfv hb), h1.1⟩
      | some ex' =>
        have h1 := W.excl i x.var v w ex ex' (Ne.symm hij) h hw hobj hb hc
        rw [h1.1] at hb; rw [h1.2] at hc
        exact ⟨no hm (shared_canMut hfv hb), no hwm (shared_canMut hfw hc)⟩
end
end Verif.Dyn
