import Verif.OpaqueBox.Spec
/-!
# Lemmas: the invariant of histories of boxes
-/
namespace Verif.OpaqueBox

theorem layout_core (t : Ty) : t.core.layout = t.layout := by
  induction t with
  | base s a => rfl
  | «opaque» t ih => exact ih

theorem core_base (t : Ty) : ∃ s a, t.core = .base s a := by
  induction t with
  | base s a => exact ⟨s, a, rfl⟩
  | «opaque» t ih => exact ih

theorem wraps_core (t : Ty) : Wraps t t.core := by
  induction t with
  | base s a => exact .self _
  | «opaque» t ih => exact .opaque ih

theorem core_of_wraps {t : Ty} {s a : Nat} (h : Wraps t (.base s a)) : t.core = .base s a := by
  generalize he : Ty.base s a = u at h
  induction h with
  | self t => subst he; rfl
  | «opaque» _ ih => exact ih he

theorem alike_iff {t u : Ty} : Alike t u ↔ t.core = u.core := by
  constructor
  · rintro ⟨v, ⟨s, a, rfl⟩, h1, h2⟩
    rw [core_of_wraps h1, core_of_wraps h2]
  · intro h
    exact ⟨t.core, core_base t, wraps_core t, h ▸ wraps_core u⟩

theorem layout_of_core {t u : Ty} (h : t.core = u.core) : t.layout = u.layout := by
  rw [← layout_core t, ← layout_core u, h]

/-- The memory of a value, while it is allocated. -/
def full (t : Ty) : Option (Nat × Nat) := if t.layout.1 = 0 then none else some t.layout

theorem var_lt {s : State} {i : Nat} {p : Ptr} (h : s.var i = some p) : i < s.vars.length := by
  rw [State.var] at h
  by_cases hi : i < s.vars.length
  · exact hi
  · rw [List.getElem?_eq_none (by omega)] at h
    cases h

theorem var_set {objs : List Obj} {vars : List (Option Ptr)} {i : Nat} (hi : i < vars.length) (p : Option Ptr) (j : Nat) :
    (State.mk objs (vars.set i p)).var j = if i = j then p else (State.mk objs vars).var j := by
  simp only [State.var]
  by_cases h : i = j
  · subst h
    rw [List.getElem?_set_self hi, if_pos rfl]; rfl
  · rw [List.getElem?_set_ne h, if_neg h]

theorem has_var {s : State} {i : Nat} {ks : List Kind} {p : Ptr} (h : s.has i ks = some p) : s.var i = some p ∧ p.kind ∈ ks := by
  rw [State.has, Option.filter_eq_some_iff] at h
  exact ⟨h.1, by simpa using h.2⟩

theorem set_same {α : Type} {l : List α} {i : Nat} {x : α} (h : l[i]? = some x) : l.set i x = l := by
  apply List.ext_getElem?
  intro j
  by_cases e : i = j
  · subst e
    rw [List.getElem?_set_self (by
      by_cases hi : i < l.length
      · exact hi
      · rw [List.getElem?_eq_none (by omega)] at h; cases h), h]
  · rw [List.getElem?_set_ne e]

theorem lt_of_some {α : Type} {l : List α} {i : Nat} {x : α} (h : l[i]? = some x) : i < l.length := by
  by_cases hi : i < l.length
  · exact hi
  · rw [List.getElem?_eq_none (by omega)] at h; cases h

/-- Every value is held at most once; those that are held are alive and allocated, and boxes have their type. -/
structure BoxInv (s : State) : Prop where
  lin : ∀ i j p q, s.var i = some p → s.var j = some q → p.obj = q.obj → i = j
  held : ∀ i p, s.var i = some p → ∃ x : Obj, s.objs[p.obj]? = some x ∧ x.drops = 0 ∧ x.mem = full x.ty ∧
    (p.kind ≠ .owned → x.ty.core = p.ty.core)
  once : ∀ (o : Nat) (x : Obj), s.objs[o]? = some x → x.drops ≤ 1 ∧ (x.mem = none ∨ x.mem = some x.ty.layout)

theorem inv_init : BoxInv ⟨[], []⟩ :=
  ⟨by intro i j p q h; simp [State.var] at h, by intro i p h; simp [State.var] at h, by intro o x h; simp at h⟩

/-- A variable is given another view of its value. -/
theorem BoxInv.rebind {s : State} (I : BoxInv s) {i : Nat} {p p' : Ptr} (h : s.var i = some p) (ho : p'.obj = p.obj)
    (hk : p'.kind ≠ .owned → ∀ x, s.objs[p.obj]? = some x → x.ty.core = p'.ty.core) : BoxInv (s.put i (some p')) := by
  have hv : ∀ j q, (s.put i (some p')).var j = some q → (i = j ∧ q = p') ∨ (i ≠ j ∧ s.var j = some q) := by
    intro j q hq
    rw [State.put, var_set (var_lt h)] at hq
    split at hq
    next e => left; exact ⟨e, (Option.some.inj hq).symm⟩
    next e => right; exact ⟨e, hq⟩
  refine ⟨?_, ?_, I.once⟩
  · intro a b q r ha hb hr
    rcases hv a q ha with ⟨e1, rfl⟩ | ⟨e1, h1⟩ <;> rcases hv b r hb with ⟨e2, rfl⟩ | ⟨e2, h2⟩
    · exact e1.symm.trans e2
    · subst e1; exact I.lin _ _ _ _ h h2 (ho ▸ hr)
    · subst e2; exact I.lin _ _ _ _ h1 h (hr.trans ho)
    · exact I.lin _ _ _ _ h1 h2 hr
  · intro a q ha
    rcases hv a q ha with ⟨_, rfl⟩ | ⟨_, h1⟩
    · obtain ⟨x, h1, h2, h3, _⟩ := I.held i p h
      exact ⟨x, by rw [ho]; exact h1, h2, h3, fun hn => hk hn x h1⟩
    · exact I.held a q h1

/-- A variable gives up its value. -/
theorem BoxInv.consume {s : State} (I : BoxInv s) {i : Nat} {p : Ptr} (h : s.var i = some p) {x x' : Obj} (hx : s.objs[p.obj]? = some x)
    (ht : x'.ty = x.ty) (hd : x'.drops ≤ 1) (hm : x'.mem = none ∨ x'.mem = some x.ty.layout) :
    BoxInv ⟨s.objs.set p.obj x', s.vars.set i none⟩ := by
  have hv : ∀ j q, (State.mk (s.objs.set p.obj x') (s.vars.set i none)).var j = some q → i ≠ j ∧ s.var j = some q := by
    intro j q hq
    rw [var_set (var_lt h)] at hq
    split at hq
    · cases hq
    next e => exact ⟨e, hq⟩
  refine ⟨?_, ?_, ?_⟩
  · intro a b q r ha hb hr
    exact I.lin _ _ _ _ (hv a q ha).2 (hv b r hb).2 hr
  · intro a q ha
    obtain ⟨h1, h2⟩ := hv a q ha
    have hne : p.obj ≠ q.obj := fun e => h1 (I.lin _ _ _ _ h h2 e)
    obtain ⟨y, h3, h4⟩ := I.held a q h2
    exact ⟨y, by show (s.objs.set p.obj x')[q.obj]? = _; rw [List.getElem?_set_ne hne]; exact h3, h4⟩
  · intro o y hy
    have hy : (s.objs.set p.obj x')[o]? = some y := hy
    by_cases e : p.obj = o
    · subst e
      rw [List.getElem?_set_self (lt_of_some hx)] at hy
      cases hy
      exact ⟨hd, by rw [ht]; exact hm⟩
    · rw [List.getElem?_set_ne e] at hy
      exact I.once o y hy

theorem BoxInv.new {s : State} (I : BoxInv s) (k : Kind) (t : Ty) (v : Nat) :
    BoxInv ⟨s.objs ++ [⟨t, full t, 0, v⟩], s.vars ++ [some ⟨k, t, s.objs.length⟩]⟩ := by
  have hv : ∀ j q, (State.mk (s.objs ++ [⟨t, full t, 0, v⟩]) (s.vars ++ [some ⟨k, t, s.objs.length⟩])).var j = some q →
      (j = s.vars.length ∧ q = ⟨k, t, s.objs.length⟩) ∨ s.var j = some q := by
    intro j q hq
    simp only [State.var] at hq
    by_cases hj : j < s.vars.length
    · rw [List.getElem?_append_left hj] at hq; right; exact hq
    · rw [List.getElem?_append_right (by omega)] at hq
      cases hk : j - s.vars.length with
      | zero => rw [hk] at hq; left; exact ⟨by omega, by simpa using hq.symm⟩
      | succ k => rw [hk] at hq; simp at hq
  have hlt : ∀ i p, s.var i = some p → p.obj < s.objs.length := by
    intro i p h
    obtain ⟨x, h1, _⟩ := I.held i p h
    exact lt_of_some h1
  refine ⟨?_, ?_, ?_⟩
  · intro a b q r ha hb hr
    rcases hv a q ha with ⟨e1, rfl⟩ | h1 <;> rcases hv b r hb with ⟨e2, rfl⟩ | h2
    · omega
    · have := hlt _ _ h2; simp only at hr; omega
    · have := hlt _ _ h1; simp only at hr; omega
    · exact I.lin _ _ _ _ h1 h2 hr
  · intro a q ha
    rcases hv a q ha with ⟨_, rfl⟩ | h1
    · exact ⟨⟨t, full t, 0, v⟩, by simp, rfl, rfl, fun _ => rfl⟩
    · obtain ⟨x, h2, h3⟩ := I.held a q h1
      exact ⟨x, by show (s.objs ++ _)[q.obj]? = _; rw [List.getElem?_append_left (hlt _ _ h1)]; exact h2, h3⟩
  · intro o x hx
    have hx : (s.objs ++ [⟨t, full t, 0, v⟩])[o]? = some x := hx
    by_cases ho : o < s.objs.length
    · rw [List.getElem?_append_left ho] at hx; exact I.once o x hx
    · rw [List.getElem?_append_right (by omega)] at hx
      cases hk : o - s.objs.length with
      | zero =>
        rw [hk] at hx
        simp at hx
        subst hx
        refine ⟨by simp, ?_⟩
        simp only [full]
        split
        · exact .inl rfl
        · exact .inr rfl
      | succ k => rw [hk] at hx; simp at hx

theorem BoxInv.write {s : State} (I : BoxInv s) {o v : Nat} {x : Obj} (hx : s.objs[o]? = some x) :
    BoxInv ⟨s.objs.set o { x with val := v }, s.vars⟩ := by
  refine ⟨I.lin, ?_, ?_⟩
  · intro i p h
    obtain ⟨y, h1, h2, h3, h4⟩ := I.held i p h
    by_cases e : o = p.obj
    · subst e
      rw [hx] at h1; cases h1
      exact ⟨_, List.getElem?_set_self (lt_of_some hx), h2, h3, h4⟩
    · exact ⟨y, by show (s.objs.set o _)[p.obj]? = _; rw [List.getElem?_set_ne e]; exact h1, h2, h3, h4⟩
  · intro a y hy
    have hy : (s.objs.set o { x with val := v })[a]? = some y := hy
    by_cases e : o = a
    · subst e
      rw [List.getElem?_set_self (lt_of_some hx)] at hy
      cases hy
      exact I.once o x hx
    · rw [List.getElem?_set_ne e] at hy
      exact I.once a y hy

theorem dropValue_eq {s : State} {o : Nat} {t : Ty} {x : Obj} (hx : s.objs[o]? = some x) (hc : x.ty.core = t.core) (hd : x.drops = 0) :
    dropValue s o t = .ok { s with objs := s.objs.set o { x with drops := 1 } } := by
  rw [dropValue, hx]
  simp [hc, hd]

theorem freeMemory_eq {s : State} {o : Nat} {t : Ty} {x : Obj} (hx : s.objs[o]? = some x) (hc : x.ty.core = t.core) (hm : x.mem = full x.ty) :
    freeMemory s o t = .ok { s with objs := s.objs.set o { x with mem := none } } := by
  have hl := layout_of_core hc
  rw [freeMemory]
  by_cases h0 : t.layout.1 = 0
  · rw [if_pos h0]
    rw [full, if_pos (by rw [hl]; exact h0)] at hm
    have : ({ x with mem := none } : Obj) = x := by cases x; cases hm; rfl
    rw [this, set_same hx]
  · rw [full, if_neg (by rw [hl]; exact h0)] at hm
    rw [if_neg h0, hx]
    simp [hm, hl]

theorem dropBox_eq {s : State} {o : Nat} {t : Ty} {x : Obj} (hx : s.objs[o]? = some x) (hc : x.ty.core = t.core) (hd : x.drops = 0)
    (hm : x.mem = full x.ty) : dropBox s o t = .ok { s with objs := s.objs.set o { x with drops := 1, mem := none } } := by
  rw [dropBox, dropValue_eq hx hc hd]
  show freeMemory { s with objs := s.objs.set o { x with drops := 1 } } o t = _
  rw [freeMemory_eq (x := { x with drops := 1 }) (List.getElem?_set_self (lt_of_some hx)) hc hm]
  simp

/-- What an operation does, where it is not refused. -/
inductive Did (panics : Nat → Bool) (s : State) : Op → State → Out → Prop
  | new {op : Op} (k : Kind) (t : Ty) (v : Nat) : Did panics s op ⟨s.objs ++ [⟨t, full t, 0, v⟩], s.vars ++ [some ⟨k, t, s.objs.length⟩]⟩ .unit
  | rebind {op : Op} {i : Nat} {p p' : Ptr} : op.on = some i → s.var i = some p → p'.obj = p.obj →
      (p'.kind ≠ .owned → ∀ x, s.objs[p.obj]? = some x → x.ty.core = p'.ty.core) → Did panics s op (s.put i (some p')) .unit
  | same {op : Op} {o : Out} : Did panics s op s o
  | write {op : Op} {i v : Nat} {p : Ptr} {x : Obj} : op.on = some i → s.var i = some p → s.objs[p.obj]? = some x →
      Did panics s op ⟨s.objs.set p.obj { x with val := v }, s.vars⟩ .unit
  | consume {op : Op} {i : Nat} {p : Ptr} {x x' : Obj} {o : Out} : op.on = some i → s.var i = some p → s.objs[p.obj]? = some x → x'.ty = x.ty →
      (x'.drops = 0 ∨ x'.drops = 1) → (x'.mem = none ∨ x'.mem = full x.ty) →
      (Tidy op → x'.drops = 1 ∧ (panics p.obj = false → x'.mem = none)) →
      Did panics s op ⟨s.objs.set p.obj x', s.vars.set i none⟩ o

theorem full_or {t : Ty} {m : Option (Nat × Nat)} (h : m = none ∨ m = full t) : m = none ∨ m = some t.layout := by
  rcases h with h | h
  · exact .inl h
  · rw [full] at h
    split at h
    · exact .inl h
    · exact .inr h

theorem Did.inv {panics : Nat → Bool} {s s' : State} {op : Op} {o : Out} (I : BoxInv s) (h : Did panics s op s' o) : BoxInv s' := by
  cases h with
  | new k t v => exact I.new k t v
  | rebind _ h1 h2 h3 => exact I.rebind h1 h2 h3
  | write _ _ h2 => exact I.write h2
  | same => exact I
  | consume _ h1 h2 h3 h4 h5 _ => exact I.consume h1 h2 h3 (by omega) (full_or h5)

/-- Every operation whose promise is kept succeeds. -/
theorem did {panics : Nat → Bool} {s : State} (I : BoxInv s) (op : Op) (hp : Promise s op) :
    ∃ s' o, step panics s op = .ok (s', o) ∧ Did panics s op s' o := by
  have core : ∀ i p, s.var i = some p → p.kind ≠ .owned → ∀ x, s.objs[p.obj]? = some x → x.ty.core = p.ty.core := by
    intro i p h hk x hx
    obtain ⟨y, h1, _, _, h4⟩ := I.held i p h
    rw [hx] at h1; cases h1
    exact h4 hk
  cases op with
  | new t v => exact ⟨_, _, rfl, .new .box t v⟩
  | toOpaque i =>
    rw [step]
    cases h : s.has i [.box] with
    | none => exact ⟨_, _, rfl, .same⟩
    | some p =>
      obtain ⟨h1, h2⟩ := has_var h
      have h2 : p.kind = .box := by simpa using h2
      exact ⟨_, _, rfl, .rebind rfl h1 rfl fun _ => core i p h1 (by rw [h2]; decide)⟩
  | toReprC i =>
    rw [step]
    cases h : s.has i [.box] with
    | none => exact ⟨_, _, rfl, .same⟩
    | some p =>
      obtain ⟨h1, h2⟩ := has_var h
      have h2 : p.kind = .box := by simpa using h2
      exact ⟨_, _, rfl, .rebind rfl h1 rfl fun _ => core i p h1 (by rw [h2]; decide)⟩
  | toOpaqueReprC i =>
    rw [step]
    cases h : s.has i [.box] with
    | none => exact ⟨_, _, rfl, .same⟩
    | some p =>
      obtain ⟨h1, h2⟩ := has_var h
      have h2 : p.kind = .box := by simpa using h2
      exact ⟨_, _, rfl, .rebind rfl h1 rfl fun _ => core i p h1 (by rw [h2]; decide)⟩
  | intoBox i =>
    rw [step]
    cases h : s.has i [.reprBox] with
    | none => exact ⟨_, _, rfl, .same⟩
    | some p =>
      obtain ⟨h1, h2⟩ := has_var h
      have h2 : p.kind = .reprBox := by simpa using h2
      exact ⟨_, _, rfl, .rebind rfl h1 rfl fun _ => core i p h1 (by rw [h2]; decide)⟩
  | intoOwned i =>
    rw [step]
    cases h : s.has i [.box] with
    | none => exact ⟨_, _, rfl, .same⟩
    | some p => exact ⟨_, _, rfl, .rebind rfl (has_var h).1 rfl fun hn => absurd rfl hn⟩
  | cast i t =>
    rw [step]
    cases h : s.has i [.owned] with
    | none => exact ⟨_, _, rfl, .same⟩
    | some p =>
      obtain ⟨h1, h2⟩ := has_var h
      have h2 : p.kind = .owned := by simpa using h2
      exact ⟨_, _, rfl, .rebind rfl h1 rfl fun hn => absurd h2 hn⟩
  | fromOwned i t =>
    rw [step]
    cases h : s.has i [.owned] with
    | none => exact ⟨_, _, rfl, .same⟩
    | some p =>
      exact ⟨_, _, rfl, .rebind rfl (has_var h).1 rfl fun _ x hx => alike_iff.1 (hp p x (has_var h).1 hx)⟩
  | deref i =>
    rw [step]
    cases h : s.has i [.box, .reprBox] with
    | none => exact ⟨_, _, rfl, .same⟩
    | some p =>
      obtain ⟨h1, h2⟩ := has_var h
      obtain ⟨x, h3, h4, _, h5⟩ := I.held i p h1
      have hk : p.kind ≠ .owned := by
        intro e; rw [e] at h2; simp at h2
      refine ⟨s, .value p.obj x.val, ?_, .same⟩
      simp [h3, h4, h5 hk]
  | set i v =>
    rw [step]
    cases h : s.has i [.box, .reprBox] with
    | none => exact ⟨_, _, rfl, .same⟩
    | some p =>
      obtain ⟨h1, h2⟩ := has_var h
      obtain ⟨x, h3, h4, _, h5⟩ := I.held i p h1
      have hk : p.kind ≠ .owned := by
        intro e; rw [e] at h2; simp at h2
      refine ⟨_, .unit, ?_, .write (v := v) rfl h1 h3⟩
      simp [h3, h4, h5 hk]
  | clone i =>
    rw [step]
    cases h : s.has i [.reprBox] with
    | none => exact ⟨_, _, rfl, .same⟩
    | some p =>
      obtain ⟨h1, h2⟩ := has_var h
      obtain ⟨x, h3, h4, _, h5⟩ := I.held i p h1
      have hk : p.kind ≠ .owned := by
        intro e; rw [e] at h2; simp at h2
      have h6 := h5 hk
      cases ht : p.ty with
      | «opaque» t => exact ⟨s, .refused, by simp [ht], .same⟩
      | base sz al =>
        rw [ht] at h6
        refine ⟨_, .unit, ?_, .new .reprBox (.base sz al) x.val⟩
        simp [ht, h3, h4, h6, full]
  | drop i =>
    rw [step]
    cases h : s.has i [.box, .reprBox] with
    | none => exact ⟨_, _, rfl, .same⟩
    | some p =>
      obtain ⟨h1, h2⟩ := has_var h
      obtain ⟨x, h3, h4, h6, h5⟩ := I.held i p h1
      have hk : p.kind ≠ .owned := by
        intro e; rw [e] at h2; simp at h2
      simp only
      rw [dropBox_eq (s := s.put i none) h3 (h5 hk) h4 h6]
      exact ⟨_, _, rfl, .consume rfl h1 h3 rfl (.inr rfl) (.inl rfl) fun _ => ⟨rfl, fun _ => rfl⟩⟩
  | forget i =>
    rw [step]
    cases h : s.has i [.owned] with
    | none => exact ⟨_, _, rfl, .same⟩
    | some p =>
      obtain ⟨x, h3, h4, h6, _⟩ := I.held i p (has_var h).1
      refine ⟨_, _, rfl, ?_⟩
      have := Did.consume (panics := panics) (op := .forget i) (o := .unit) rfl (has_var h).1 h3 (x' := x) rfl (.inl h4) (.inr h6) nofun
      rw [set_same h3] at this
      exact this
  | release i t =>
    rw [step]
    cases h : s.has i [.owned] with
    | none => exact ⟨_, _, rfl, .same⟩
    | some p =>
      obtain ⟨x, h3, h4, h6, _⟩ := I.held i p (has_var h).1
      have hc := alike_iff.1 (hp p x (has_var h).1 h3)
      simp only
      rw [releaseOwned, dropValue_eq (s := s.put i none) h3 hc h4]
      by_cases hpn : panics p.obj = true
      · simp only [hpn, if_true]
        exact ⟨_, _, rfl, .consume rfl (has_var h).1 h3 rfl (.inr rfl) (.inr h6) fun _ => ⟨rfl, fun e => by rw [hpn] at e; cases e⟩⟩
      · simp only [hpn, if_false, Bool.false_eq_true]
        rw [freeMemory_eq (x := { x with drops := 1 }) (List.getElem?_set_self (lt_of_some h3)) hc h6]
        simp only [List.set_set]
        exact ⟨_, _, rfl, .consume rfl (has_var h).1 h3 rfl (.inr rfl) (.inl rfl) fun _ => ⟨rfl, fun _ => rfl⟩⟩
  | dropInPlace i t =>
    rw [step]
    cases h : s.has i [.owned] with
    | none => exact ⟨_, _, rfl, .same⟩
    | some p =>
      obtain ⟨x, h3, h4, h6, _⟩ := I.held i p (has_var h).1
      have hc := alike_iff.1 (hp p x (has_var h).1 h3)
      simp only
      rw [dropValue_eq (s := s.put i none) h3 hc h4]
      exact ⟨_, _, rfl, .consume rfl (has_var h).1 h3 rfl (.inr rfl) (.inr h6) nofun⟩
  | dealloc i t =>
    rw [step]
    cases h : s.has i [.owned] with
    | none => exact ⟨_, _, rfl, .same⟩
    | some p =>
      obtain ⟨x, h3, h4, h6, _⟩ := I.held i p (has_var h).1
      have hc := alike_iff.1 (hp p x (has_var h).1 h3)
      simp only
      rw [freeMemory_eq (s := s.put i none) h3 hc h6]
      exact ⟨_, _, rfl, .consume rfl (has_var h).1 h3 rfl (.inl h4) (.inl rfl) nofun⟩

theorem Reach.inv {panics : Nat → Bool} {s : State} (r : Reach panics s) : BoxInv s := by
  induction r with
  | init => exact inv_init
  | step _ hp hs ih =>
    obtain ⟨s1, o1, h1, h2⟩ := did (panics := panics) ih _ hp
    rw [hs] at h1; cases h1
    exact h2.inv ih

theorem TidyReach.reach {panics : Nat → Bool} {s : State} (r : TidyReach panics s) : Reach panics s := by
  induction r with
  | init => exact .init
  | step _ hp _ hs ih => exact .step ih hp hs

end Verif.OpaqueBox
