import Verif.OpaqueBox.Lemmas
/-!
# C99: boxes of opaque values and owned pointers
-/
namespace Verif.OpaqueBox

/-- A struct of 24 bytes is boxed, made opaque and C, back to a Rust box, leaked to an owned pointer. -/
def demo : List Op := [.new (.base 24 8) 7, .toOpaqueReprC 0, .intoBox 0, .intoOwned 0]

/-- The state after a list of operations, if none is undefined. -/
def after (panics : Nat → Bool) : State → List Op → Option State
  | s, [] => some s
  | s, op :: rest => match step panics s op with
      | .ok (s', _) => after panics s' rest
      | .error _ => none

/-- In no history in which the promises of the `unsafe` functions are kept is there undefined behaviour: no memory is
freed that is not allocated, or with another layout than it was allocated with; no value is dropped twice, or as one
of another type; none is used after it was dropped. A value boxed as `T` may be dropped and freed as `Opaque<T>`, and
one boxed as `Opaque<T>` as `T`. -/
theorem C99_safe (panics : Nat → Bool) (s : State) (op : Op) (r : Reach panics s) (hp : Promise s op) :
    ∃ s' o, step panics s op = .ok (s', o) := by
  obtain ⟨s', o, h, _⟩ := did (panics := panics) r.inv op hp
  exact ⟨s', o, h⟩

example : ∃ s, after (fun _ => false) ⟨[], []⟩ demo = some s ∧ Promise s (.release 0 (.base 24 8)) ∧
    Promise s (.release 0 (.opaque (.base 24 8))) ∧ s.objs = [⟨.base 24 8, some (24, 8), 0, 7⟩] := by
  refine ⟨_, rfl, ?_, ?_, rfl⟩ <;> intro p x h1 h2 <;> cases h1 <;> cases h2
  · exact ⟨.base 24 8, ⟨_, _, rfl⟩, .self _, .self _⟩
  · exact ⟨.base 24 8, ⟨_, _, rfl⟩, .self _, .opaque (.self _)⟩

-- without the promise: the pointer is released as a value of another type, or of the same size and another alignment
example : ∃ s, after (fun _ => false) ⟨[], []⟩ demo = some s ∧
    step (fun _ => false) s (.dealloc 0 (.base 24 4)) = .error .badLayout ∧
    step (fun _ => false) s (.release 0 (.base 8 8)) = .error .wrongType := ⟨_, rfl, rfl, rfl⟩

/-- A value is dropped at most once. While a variable holds it, it has not been dropped and its memory, if it has a
size, is allocated with its layout; and no two variables hold it. -/
theorem C99_once (panics : Nat → Bool) (s : State) (r : Reach panics s) :
    (∀ (o : Nat) (x : Obj), s.objs[o]? = some x → x.drops ≤ 1) ∧
    (∀ (o : Nat) (x : Obj), s.objs[o]? = some x → Held s o → x.drops = 0 ∧ (x.ty.layout.1 ≠ 0 → x.mem = some x.ty.layout)) ∧
    (∀ i j p q, s.var i = some p → s.var j = some q → p.obj = q.obj → i = j) := by
  refine ⟨fun o x h => (r.inv.once o x h).1, ?_, r.inv.lin⟩
  rintro o x h ⟨i, p, h1, rfl⟩
  obtain ⟨y, h2, h3, h4, _⟩ := r.inv.held i p h1
  rw [h] at h2; cases h2
  refine ⟨h3, fun h0 => ?_⟩
  rw [h4, full, if_neg h0]

/-- Where owned pointers are not forgotten and their values and memory are released together, a value that is held no
longer was dropped, once, and its memory is freed — but for values whose drop panics. -/
theorem C99_released (panics : Nat → Bool) (s : State) (r : TidyReach panics s) (o : Nat) (x : Obj) (hx : s.objs[o]? = some x)
    (hh : ¬ Held s o) : x.drops = 1 ∧ (panics o = false → x.mem = none) := by
  induction r generalizing o x with
  | init => simp at hx
  | @step s s' op out r hp ht hs ih =>
    obtain ⟨s1, o1, h1, h2⟩ := did (panics := panics) r.reach.inv op hp
    rw [hs] at h1; cases h1
    cases h2 with
    | new k t v =>
      have hx : (s.objs ++ [(⟨t, full t, 0, v⟩ : Obj)])[o]? = some x := hx
      by_cases ho : o < s.objs.length
      · rw [List.getElem?_append_left ho] at hx
        refine ih o x hx fun ⟨i, p, h3, h4⟩ => hh ⟨i, p, ?_, h4⟩
        have hi := var_lt h3
        simp only [State.var] at h3 ⊢
        rw [List.getElem?_append_left hi]; exact h3
      · exfalso
        have : o < (s.objs ++ [(⟨t, full t, 0, v⟩ : Obj)]).length := lt_of_some hx
        simp at this
        exact hh ⟨s.vars.length, ⟨k, t, s.objs.length⟩, by simp [State.var], by simp only; omega⟩
    | @rebind i p p' _ h3 h4 h5 =>
      refine ih o x hx fun ⟨j, q, h6, h7⟩ => ?_
      by_cases e : i = j
      · subst e
        rw [h3] at h6; cases h6
        exact hh ⟨i, p', by rw [State.put, var_set (var_lt h3), if_pos rfl], h4.trans h7⟩
      · exact hh ⟨j, q, by rw [State.put, var_set (var_lt h3), if_neg e]; exact h6, h7⟩
    | same => exact ih o x hx hh
    | @write i v p y _ h3 h4 =>
      have hx : (s.objs.set p.obj { y with val := v })[o]? = some x := hx
      by_cases e : p.obj = o
      · exact absurd ⟨i, p, h3, e⟩ hh
      · rw [List.getElem?_set_ne e] at hx
        exact ih o x hx hh
    | @consume i p y y' _ _ h3 h4 h5 h6 h7 h8 =>
      have hx : (s.objs.set p.obj y')[o]? = some x := hx
      by_cases e : p.obj = o
      · subst e
        rw [List.getElem?_set_self (lt_of_some h4)] at hx
        cases hx
        exact h8 ht
      · rw [List.getElem?_set_ne e] at hx
        refine ih o x hx fun ⟨j, q, h9, h10⟩ => hh ⟨j, q, ?_, h10⟩
        have hne : i ≠ j := by
          rintro rfl
          rw [h3] at h9; cases h9
          exact e h10
        rw [var_set (var_lt h3), if_neg hne]; exact h9

example : ∃ s, after (fun _ => false) ⟨[], []⟩ (demo ++ [.release 0 (.opaque (.base 24 8))]) = some s ∧
    s.objs = [⟨.base 24 8, none, 1, 7⟩] ∧ s.vars = [none] := ⟨_, rfl, rfl, rfl⟩

/-- The drop of a box, Rust's or C's, opaque or not, drops the value and frees its memory, also if the drop of the value
panics. -/
theorem C99_box_drop (panics : Nat → Bool) (s : State) (r : Reach panics s) (i : Nat) (p : Ptr) (h : s.var i = some p)
    (hk : p.kind = .box ∨ p.kind = .reprBox) :
    ∃ s' x, step panics s (.drop i) = .ok (s', if panics p.obj then .panicked else .unit) ∧ s'.objs[p.obj]? = some x ∧
      x.drops = 1 ∧ x.mem = none ∧ s'.var i = none ∧ ∀ o, o ≠ p.obj → s'.objs[o]? = s.objs[o]? := by
  obtain ⟨x, h1, h2, h3, h4⟩ := r.inv.held i p h
  have hn : p.kind ≠ .owned := by rcases hk with e | e <;> rw [e] <;> decide
  have hh : s.has i [.box, .reprBox] = some p := by
    rw [State.has, Option.filter_eq_some_iff]
    exact ⟨h, by rcases hk with e | e <;> simp [e]⟩
  refine ⟨⟨s.objs.set p.obj { x with drops := 1, mem := none }, s.vars.set i none⟩, { x with drops := 1, mem := none }, ?_,
    List.getElem?_set_self (lt_of_some h1), rfl, rfl, ?_, ?_⟩
  · rw [step, hh]
    simp only
    rw [dropBox_eq (s := s.put i none) h1 (h4 hn) h2 h3]
    rfl
  · rw [var_set (var_lt h), if_pos rfl]
  · intro o ho
    exact List.getElem?_set_ne (fun e => ho e.symm)

/-- `drop_in_place_and_dealloc` drops the value of a pointer, once, and frees its memory unless the drop panics. -/
theorem C99_owned_release_partial (panics : Nat → Bool) (s : State) (r : Reach panics s) (i : Nat) (p : Ptr) (t : Ty)
    (h : s.var i = some p) (hk : p.kind = .owned) (hp : Promise s (.release i t)) :
    ∃ s' x, step panics s (.release i t) = .ok (s', if panics p.obj then .panicked else .unit) ∧ s'.objs[p.obj]? = some x ∧
      x.drops = 1 ∧ (panics p.obj = false → x.mem = none) ∧ s'.var i = none ∧ ∀ o, o ≠ p.obj → s'.objs[o]? = s.objs[o]? := by
  obtain ⟨x, h1, h2, h3, _⟩ := r.inv.held i p h
  have hc := alike_iff.1 (hp p x h h1)
  have hh : s.has i [.owned] = some p := by
    rw [State.has, Option.filter_eq_some_iff]
    exact ⟨h, by simp [hk]⟩
  by_cases hpn : panics p.obj = true
  · refine ⟨⟨s.objs.set p.obj { x with drops := 1 }, s.vars.set i none⟩, { x with drops := 1 }, ?_,
      List.getElem?_set_self (lt_of_some h1), rfl, (by rw [hpn]; nofun), ?_, ?_⟩
    · rw [step, hh]
      simp only
      rw [releaseOwned, dropValue_eq (s := s.put i none) h1 hc h2]
      simp only [hpn, if_true]
      simp [ended, hpn, State.put, Except.map]
    · rw [var_set (var_lt h), if_pos rfl]
    · intro o ho
      exact List.getElem?_set_ne (fun e => ho e.symm)
  · refine ⟨⟨s.objs.set p.obj { x with drops := 1, mem := none }, s.vars.set i none⟩, { x with drops := 1, mem := none }, ?_,
      List.getElem?_set_self (lt_of_some h1), rfl, fun _ => rfl, ?_, ?_⟩
    · rw [step, hh]
      simp only
      rw [releaseOwned, dropValue_eq (s := s.put i none) h1 hc h2]
      simp only [hpn, if_false, Bool.false_eq_true]
      rw [freeMemory_eq (x := { x with drops := 1 }) (List.getElem?_set_self (lt_of_some h1)) hc h3]
      simp [ended, hpn, State.put, Except.map]
    · rw [var_set (var_lt h), if_pos rfl]
    · intro o ho
      exact List.getElem?_set_ne (fun e => ho e.symm)

/-- Where the drop of the value panics, `drop_in_place_and_dealloc` never frees its memory: the pointer was consumed. -/
theorem C99_fails_leak : ∃ s s', TidyReach (fun _ => true) s ∧ Promise s (.release 0 (.base 24 8)) ∧
    step (fun _ => true) s (.release 0 (.base 24 8)) = .ok (s', .panicked) ∧
    s'.objs = [⟨.base 24 8, some (24, 8), 1, 7⟩] ∧ ¬ Held s' 0 := by
  refine ⟨_, _, .step (op := .intoOwned 0) (.step (op := .new (.base 24 8) 7) .init trivial trivial rfl) trivial trivial rfl, ?_, rfl, rfl, ?_⟩
  · intro p x h1 h2
    cases h1; cases h2
    exact ⟨.base 24 8, ⟨_, _, rfl⟩, .self _, .self _⟩
  · rintro ⟨i, p, h, _⟩
    cases i with
    | zero => cases h
    | succ i => cases h

theorem deref_of_held {panics : Nat → Bool} {s : State} (I : BoxInv s) {i : Nat} {p : Ptr} (h : s.var i = some p) (hk : p.kind ≠ .owned) :
    ∃ x, s.objs[p.obj]? = some x ∧ step panics s (.deref i) = .ok (s, .value p.obj x.val) := by
  obtain ⟨x, h1, h2, _, h4⟩ := I.held i p h
  refine ⟨x, h1, ?_⟩
  have hh : s.has i [.box, .reprBox] = some p := by
    rw [State.has, Option.filter_eq_some_iff]
    refine ⟨h, ?_⟩
    cases e : p.kind with
    | owned => exact absurd e hk
    | box => simp
    | reprBox => simp
  rw [step, hh]
  simp [h1, h2, h4 hk]

theorem held_of_deref {panics : Nat → Bool} {s s' : State} {i o v : Nat} (h : step panics s (.deref i) = .ok (s', .value o v)) :
    ∃ p x, s.var i = some p ∧ p.obj = o ∧ p.kind ≠ .owned ∧ s.objs[o]? = some x ∧ x.val = v := by
  rw [step] at h
  cases hh : s.has i [.box, .reprBox] with
  | none => rw [hh] at h; cases h
  | some p =>
    obtain ⟨h1, h2⟩ := has_var hh
    have hk : p.kind ≠ .owned := by intro e; rw [e] at h2; simp at h2
    rw [hh] at h
    simp only at h
    split at h
    · cases h
    next x hx =>
      split at h
      · cases h
      · split at h
        · cases h
        · cases h; exact ⟨p, x, h1, rfl, hk, hx, rfl⟩

theorem var_put {s : State} {i : Nat} {p : Ptr} (h : s.var i = some p) (q : Option Ptr) : (s.put i q).var i = q := by
  rw [State.put, var_set (var_lt h), if_pos rfl]

/-- The conversions between boxes keep the value, and its memory: the box that results refers to the same value, and nothing
is dropped, freed or allocated. -/
theorem C99_same (panics : Nat → Bool) (s s' : State) (r : Reach panics s) (i : Nat) (op : Op) (hc : Conversion i op)
    (hs : step panics s op = .ok (s', .unit)) :
    s'.objs = s.objs ∧ ∃ o v, step panics s (.deref i) = .ok (s, .value o v) ∧ step panics s' (.deref i) = .ok (s', .value o v) := by
  have go : ∀ (p p' : Ptr), s.var i = some p → p.kind ≠ .owned → p'.kind ≠ .owned → p'.obj = p.obj → p'.ty.core = p.ty.core →
      (s.put i (some p')).objs = s.objs ∧ ∃ o v, step panics s (.deref i) = .ok (s, .value o v) ∧
        step panics (s.put i (some p')) (.deref i) = .ok (s.put i (some p'), .value o v) := by
    intro p p' h hk hk' ho ht
    have I' : BoxInv (s.put i (some p')) := r.inv.rebind h ho fun _ x hx => by
      obtain ⟨y, h1, _, _, h4⟩ := r.inv.held i p h
      rw [hx] at h1; cases h1
      rw [h4 hk, ht]
    obtain ⟨x, h1, h2⟩ := deref_of_held (panics := panics) r.inv h hk
    obtain ⟨y, h3, h4⟩ := deref_of_held (panics := panics) I' (var_put h _) hk'
    have h3 : s.objs[p'.obj]? = some y := h3
    rw [ho, h1] at h3; cases h3
    exact ⟨rfl, p.obj, x.val, h2, ho ▸ h4⟩
  rcases hc with rfl | rfl | rfl | rfl
  · cases h : s.has i [.box] with
    | none => rw [step, h] at hs; cases hs
    | some p =>
      obtain ⟨h1, h2⟩ := has_var h
      have h2 : p.kind = .box := by simpa using h2
      rw [step, h] at hs; cases hs
      exact go p _ h1 (by rw [h2]; decide) (by show p.kind ≠ _; rw [h2]; decide) rfl rfl
  · cases h : s.has i [.box] with
    | none => rw [step, h] at hs; cases hs
    | some p =>
      obtain ⟨h1, h2⟩ := has_var h
      have h2 : p.kind = .box := by simpa using h2
      rw [step, h] at hs; cases hs
      exact go p _ h1 (by rw [h2]; decide) (by simp) rfl rfl
  · cases h : s.has i [.box] with
    | none => rw [step, h] at hs; cases hs
    | some p =>
      obtain ⟨h1, h2⟩ := has_var h
      have h2 : p.kind = .box := by simpa using h2
      rw [step, h] at hs; cases hs
      exact go p _ h1 (by rw [h2]; decide) (by simp) rfl rfl
  · cases h : s.has i [.reprBox] with
    | none => rw [step, h] at hs; cases hs
    | some p =>
      obtain ⟨h1, h2⟩ := has_var h
      have h2 : p.kind = .reprBox := by simpa using h2
      rw [step, h] at hs; cases hs
      exact go p _ h1 (by rw [h2]; decide) (by simp) rfl rfl

example : Conversion 0 (.toOpaqueReprC 0) ∧ ∃ s s', after (fun _ => false) ⟨[], []⟩ [.new (.base 24 8) 7] = some s ∧
    step (fun _ => false) s (.toOpaqueReprC 0) = .ok (s', .unit) ∧ s'.vars = [some ⟨.reprBox, .opaque (.base 24 8), 0⟩] :=
  ⟨by simp [Conversion], _, _, rfl, rfl, rfl⟩

/-- A box made an owned pointer, cast to any type, and made a box again at the type of its value is the same box: it refers
to the same value. -/
theorem C99_round_trip (panics : Nat → Bool) (s s1 s2 : State) (r : Reach panics s) (i o v : Nat) (t u : Ty)
    (hd : step panics s (.deref i) = .ok (s, .value o v)) (h1 : step panics s (.intoOwned i) = .ok (s1, .unit))
    (h2 : step panics s1 (.cast i u) = .ok (s2, .unit)) (ht : ∀ x, s.objs[o]? = some x → Alike x.ty t) :
    ∃ s3, step panics s2 (.fromOwned i t) = .ok (s3, .unit) ∧ step panics s3 (.deref i) = .ok (s3, .value o v) ∧ s3.objs = s.objs := by
  obtain ⟨p, x, hp, rfl, hk, hx, rfl⟩ := held_of_deref hd
  have e1 : s1 = s.put i (some { p with kind := .owned }) := by
    rw [step] at h1
    cases h : s.has i [.box] with
    | none => rw [h] at h1; cases h1
    | some q =>
      rw [h] at h1
      have := (has_var h).1
      rw [hp] at this; cases this
      cases h1; rfl
  subst e1
  have v1 := var_put hp (some { p with kind := .owned })
  have e2 : s2 = (s.put i (some { p with kind := .owned })).put i (some { p with kind := .owned, ty := u }) := by
    rw [step] at h2
    cases h : (s.put i (some { p with kind := .owned })).has i [.owned] with
    | none => rw [h] at h2; cases h2
    | some q =>
      rw [h] at h2
      have := (has_var h).1
      rw [v1] at this; cases this
      cases h2; rfl
  subst e2
  have v2 := var_put v1 (some { p with kind := .owned, ty := u })
  have I1 : BoxInv (s.put i (some { p with kind := .owned })) := r.inv.rebind hp rfl fun hn => absurd rfl hn
  have I2 := I1.rebind v1 (p' := { p with kind := .owned, ty := u }) rfl fun hn => absurd rfl hn
  have I3 := I2.rebind v2 (p' := { p with kind := .box, ty := t }) rfl fun _ x hx => alike_iff.1 (ht x hx)
  have hh : ((s.put i (some { p with kind := .owned })).put i (some { p with kind := .owned, ty := u })).has i [.owned] =
      some { p with kind := .owned, ty := u } := by
    rw [State.has, v2]; rfl
  refine ⟨((s.put i (some { p with kind := .owned })).put i (some { p with kind := .owned, ty := u })).put i
    (some { p with kind := .box, ty := t }), ?_, ?_, rfl⟩
  · rw [step, hh]
  · obtain ⟨y, h3, h4⟩ := deref_of_held (panics := panics) (p := ⟨.box, t, p.obj⟩) I3 (var_put v2 _) (by simp)
    have h3 : s.objs[p.obj]? = some y := h3
    rw [hx] at h3; cases h3
    exact h4

/-- A new box refers to its value, a new one, with the contents it was made with. -/
theorem C99_new (panics : Nat → Bool) (s : State) (r : Reach panics s) (t : Ty) (v : Nat) :
    ∃ s', step panics s (.new t v) = .ok (s', .unit) ∧ step panics s' (.deref s.vars.length) = .ok (s', .value s.objs.length v) ∧
      (∀ i, i < s.vars.length → s'.var i = s.var i) ∧ s.objs[s.objs.length]? = none := by
  refine ⟨_, rfl, ?_, ?_, by simp⟩
  · obtain ⟨x, h1, h2⟩ := deref_of_held (panics := panics) (p := ⟨.box, t, s.objs.length⟩) (r.inv.new .box t v)
      (i := s.vars.length) (by simp [State.var]) (by simp)
    simp at h1
    subst h1
    exact h2
  · intro i hi
    simp only [State.var]
    rw [List.getElem?_append_left hi]

/-- What is written through a box is read through it. -/
theorem C99_write (panics : Nat → Bool) (s : State) (r : Reach panics s) (i o v w : Nat)
    (hd : step panics s (.deref i) = .ok (s, .value o v)) :
    ∃ s', step panics s (.set i w) = .ok (s', .unit) ∧ step panics s' (.deref i) = .ok (s', .value o w) := by
  obtain ⟨p, x, hp, rfl, hk, hx, rfl⟩ := held_of_deref hd
  obtain ⟨y, h1, h2, _, h4⟩ := r.inv.held i p hp
  rw [hx] at h1; cases h1
  have hh : s.has i [.box, .reprBox] = some p := by
    rw [State.has, Option.filter_eq_some_iff]
    refine ⟨hp, ?_⟩
    cases e : p.kind with
    | owned => exact absurd e hk
    | box => simp
    | reprBox => simp
  refine ⟨⟨s.objs.set p.obj { x with val := w }, s.vars⟩, ?_, ?_⟩
  · rw [step, hh]
    simp [hx, h2, h4 hk]
  · obtain ⟨y, h5, h6⟩ := deref_of_held (panics := panics) (r.inv.write (v := w) hx) (p := p) (i := i) hp hk
    have h5 : (s.objs.set p.obj { x with val := w })[p.obj]? = some y := h5
    rw [List.getElem?_set_self (lt_of_some hx)] at h5
    cases h5
    exact h6

/-- An operation on other variables, whatever it is, leaves a box as it is: it refers to the same value, with the same
contents. -/
theorem C99_frame (panics : Nat → Bool) (s s' : State) (r : Reach panics s) (op : Op) (out : Out) (hp : Promise s op) (i o v : Nat)
    (hd : step panics s (.deref i) = .ok (s, .value o v)) (ho : op.on ≠ some i) (hs : step panics s op = .ok (s', out)) :
    step panics s' (.deref i) = .ok (s', .value o v) := by
  obtain ⟨p, x, hv, rfl, hk, hx, rfl⟩ := held_of_deref hd
  obtain ⟨s1, o1, h1, h2⟩ := did (panics := panics) r.inv op hp
  rw [hs] at h1; cases h1
  have I' := h2.inv r.inv
  have go : s'.var i = some p → s'.objs[p.obj]? = some x → step panics s' (.deref i) = .ok (s', .value p.obj x.val) := by
    intro h3 h4
    obtain ⟨y, h5, h6⟩ := deref_of_held (panics := panics) I' h3 hk
    rw [h4] at h5; cases h5
    exact h6
  cases h2 with
  | new k t w =>
    refine go ?_ ?_
    · have hi := var_lt hv
      simp only [State.var] at hv ⊢
      rw [List.getElem?_append_left hi]; exact hv
    · show (s.objs ++ _)[p.obj]? = _
      rw [List.getElem?_append_left (lt_of_some hx)]; exact hx
  | @rebind j q q' h3 h4 h5 h6 =>
    refine go ?_ hx
    have hne : j ≠ i := fun e => ho (e ▸ h3)
    rw [State.put, var_set (var_lt h4), if_neg hne]; exact hv
  | same => exact hd
  | @write j w q y h3 h4 h5 =>
    refine go hv ?_
    have hne : q.obj ≠ p.obj := fun e => ho (by rw [h3, r.inv.lin _ _ _ _ h4 hv e])
    show (s.objs.set q.obj _)[p.obj]? = _
    rw [List.getElem?_set_ne hne]; exact hx
  | @consume j q y y' _ h3 h4 h5 h6 h7 h8 h9 =>
    have hj : j ≠ i := fun e => ho (e ▸ h3)
    have hne : q.obj ≠ p.obj := fun e => hj (r.inv.lin _ _ _ _ h4 hv e)
    refine go ?_ ?_
    · rw [var_set (var_lt h4), if_neg hj]; exact hv
    · show (s.objs.set q.obj _)[p.obj]? = _
      rw [List.getElem?_set_ne hne]; exact hx

example : ∃ s, after (fun _ => false) ⟨[], []⟩ [.new (.base 24 8) 7, .new (.base 4 4) 3, .toOpaqueReprC 0, .set 0 9] = some s ∧
    step (fun _ => false) s (.deref 0) = .ok (s, .value 0 9) ∧ step (fun _ => false) s (.deref 1) = .ok (s, .value 1 3) ∧
    Op.on (.drop 1) ≠ some 0 := ⟨_, rfl, rfl, rfl, by simp [Op.on]⟩

/-- A clone of a C box is a C box of a new value with the same contents, and the box it was made of is as it was. -/
theorem C99_clone (panics : Nat → Bool) (s s' : State) (r : Reach panics s) (i o v : Nat)
    (hd : step panics s (.deref i) = .ok (s, .value o v)) (hs : step panics s (.clone i) = .ok (s', .unit)) :
    step panics s' (.deref s.vars.length) = .ok (s', .value s.objs.length v) ∧ step panics s' (.deref i) = .ok (s', .value o v) ∧
    (∃ t, s'.var s.vars.length = some ⟨.reprBox, t, s.objs.length⟩) ∧ o ≠ s.objs.length := by
  have hf := C99_frame panics s s' r (.clone i) .unit trivial i o v hd (by simp [Op.on]) hs
  have r' : Reach panics s' := .step r (op := .clone i) trivial hs
  obtain ⟨p, x, hv, rfl, hk, hx, rfl⟩ := held_of_deref hd
  have hn : ∃ t, s' = ⟨s.objs ++ [⟨t, full t, 0, x.val⟩], s.vars ++ [some ⟨.reprBox, t, s.objs.length⟩]⟩ := by
    rw [step] at hs
    cases h : s.has i [.reprBox] with
    | none => rw [h] at hs; cases hs
    | some q =>
      have hq := (has_var h).1
      rw [hv] at hq; cases hq
      rw [h] at hs
      simp only [hx] at hs
      split at hs
      · cases hs
      · cases hs
      · next heq _ =>
        cases heq
        split at hs
        · cases hs
        · split at hs
          · cases hs
          · cases hs; exact ⟨_, rfl⟩
  obtain ⟨t, rfl⟩ := hn
  refine ⟨?_, hf, ⟨t, by simp [State.var]⟩, fun e => by have := lt_of_some hx; omega⟩
  obtain ⟨y, h1, h2⟩ := deref_of_held (panics := panics) (p := ⟨.reprBox, t, s.objs.length⟩) r'.inv (i := s.vars.length) (by simp [State.var]) (by simp)
  simp at h1
  subst h1
  exact h2

example : ∃ s s', after (fun _ => false) ⟨[], []⟩ [.new (.base 24 8) 7, .toReprC 0] = some s ∧
    step (fun _ => false) s (.clone 0) = .ok (s', .unit) ∧ step (fun _ => false) s (.deref 0) = .ok (s, .value 0 7) := ⟨_, _, rfl, rfl, rfl⟩

end Verif.OpaqueBox
