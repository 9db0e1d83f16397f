import Verif.Bytes.Fn3
/-! Every operation preserves the invariant and refines the value-level specification. -/
namespace Verif.Bytes

/-- Live variables. -/
def live {α : Type} (l : List (Option α)) : List α := l.filterMap id

theorem live_append {α : Type} (l m : List (Option α)) : live (l ++ m) = live l ++ live m := by
  unfold live; rw [List.filterMap_append]

theorem live_split {α : Type} (l : List (Option α)) (i : Nat) (x : α) (h : (l[i]?).join = some x) :
    (live l).Perm (x :: live (l.set i none)) := by
  induction l generalizing i with
  | nil => simp at h
  | cons y l ih =>
    cases i with
    | zero => simp at h; subst h; simp [live]
    | succ i =>
      simp at h
      have := ih i (by simpa using h)
      cases y with
      | none => simpa [live] using this
      | some y =>
        simp only [live, List.set_cons_succ, List.filterMap_cons, id] at this ⊢
        exact (List.Perm.cons _ this).trans (List.Perm.swap _ _ _)

theorem live_set {α : Type} (l : List (Option α)) (i : Nat) (x : α) (h : i < l.length) :
    (live (l.set i (some x))).Perm (x :: live (l.set i none)) := by
  have := live_split (l.set i (some x)) i x (by simp [h])
  simpa using this

theorem mem_live {α : Type} {l : List (Option α)} {x : α} : x ∈ live l ↔ some x ∈ l := by
  unfold live; rw [List.mem_filterMap]; simp

/-- The invariant on program states. -/
def Inv (e : Env) (s : State) : Prop := InvC e s.heap s.next (live s.handles) (live s.arcs)

/-- Contents of a variable, as the program can observe with `as_slice`. -/
def cont (e : Env) (hp : List Alloc) : Option Handle → Option (List Byte)
  | none => none
  | some h => (asSlice e.toTarget hp h.raw).toOption

/-- Contents of an `Arc` variable. -/
def contArc (hp : List Alloc) : Option Nat → Option (List Byte)
  | none => none
  | some b => (findBase hp b).map (·.data)

/-- The value-level state of a program state. -/
def abs (e : Env) (s : State) : Spec.St :=
  { bytes := s.handles.map (cont e s.heap), arcs := s.arcs.map (contArc s.heap) }

variable {e : Env}

theorem frame {hp hp' : List Alloc} {n n' : Nat} {L L' : List Handle} {A A' : List Nat}
    (I : InvC e hp n L A) (I' : InvC e hp' n' L' A') (x : Ext hp hp') {h : Handle} (h1 : h ∈ L)
    (h2 : h ∈ L') : cont e hp' (some h) = cont e hp (some h) := by
  obtain ⟨d, H⟩ := I.ok h h1
  simp only [cont, I.asSlice h1 H, I'.asSlice h2 (H.mono x)]

theorem frameArc {hp hp' : List Alloc} {n n' : Nat} {L L' : List Handle} {A A' : List Nat}
    (I : InvC e hp n L A) (I' : InvC e hp' n' L' A') (x : Ext hp hp') {b : Nat} (h1 : b ∈ A) :
    contArc hp' (some b) = contArc hp (some b) := by
  obtain ⟨a, ha, hb, _⟩ := I.arcs b h1
  obtain ⟨a', ha', e1, e2, _⟩ := x a ha
  simp [contArc, I.heap.findBase ha hb, I'.heap.findBase ha' (e1.trans hb), e2]

theorem cont_ok {hp : List Alloc} {n : Nat} {L : List Handle} {A : List Nat} (I : InvC e hp n L A)
    {h : Handle} {d : List Byte} (hm : h ∈ L) (H : HandleOk e hp h d) : cont e hp (some h) = some d := by
  simp only [cont, I.asSlice hm H]; rfl

theorem frame_map {hp hp' : List Alloc} {n n' : Nat} {L L' : List Handle} {A A' : List Nat}
    (I : InvC e hp n L A) (I' : InvC e hp' n' L' A') (x : Ext hp hp') (hs : List (Option Handle))
    (h1 : ∀ h, some h ∈ hs → h ∈ L ∧ h ∈ L') : hs.map (cont e hp') = hs.map (cont e hp) := by
  apply List.map_congr_left
  intro y hy
  cases y with
  | none => rfl
  | some h => exact frame I I' x (h1 h hy).1 (h1 h hy).2

theorem frameArc_map {hp hp' : List Alloc} {n n' : Nat} {L L' : List Handle} {A A' : List Nat}
    (I : InvC e hp n L A) (I' : InvC e hp' n' L' A') (x : Ext hp hp') (bs : List (Option Nat))
    (h1 : ∀ b, some b ∈ bs → b ∈ A) : bs.map (contArc hp') = bs.map (contArc hp) := by
  apply List.map_congr_left
  intro y hy
  cases y with
  | none => rfl
  | some b => exact frameArc I I' x (h1 b hy)

/-- A variable and the rest. -/
theorem Inv.split {s : State} (I : Inv e s) {i : Nat} {h : Handle} (hi : s.handle i = some h) :
    InvC e s.heap s.next (h :: live (s.handles.set i none)) (live s.arcs) :=
  I.perm (live_split s.handles i h hi) (List.Perm.refl _)

theorem handle_lt {s : State} {i : Nat} {h : Handle} (hi : s.handle i = some h) : i < s.handles.length := by
  unfold State.handle at hi
  cases hc : s.handles[i]? with
  | none => simp [hc] at hi
  | some y => exact (List.getElem?_eq_some_iff.mp hc).1

theorem Inv.get {s : State} (I : Inv e s) {i : Nat} {h : Handle} {d : List Byte} (hi : s.handle i = some h)
    (H : HandleOk e s.heap h d) : (abs e s).get i = some d := by
  unfold State.handle at hi
  cases hc : s.handles[i]? with
  | none => simp [hc] at hi
  | some y =>
    simp [hc] at hi
    subst hi
    have hm : h ∈ live s.handles := mem_live.mpr (List.mem_of_getElem? hc)
    unfold Spec.St.get abs
    simp only [List.getElem?_map, hc, Option.map, cont_ok I hm H, Option.join]
    rfl

theorem get_none {s : State} {i : Nat} (hi : s.handle i = none) : (abs e s).get i = none := by
  unfold State.handle at hi
  unfold Spec.St.get abs
  rw [List.getElem?_map]
  cases hc : s.handles[i]? with
  | none => rfl
  | some y => simp [hc] at hi; subst hi; rfl

theorem getArc_none {s : State} {j : Nat} (hj : s.arcAt j = none) : (abs e s).getArc j = none := by
  unfold State.arcAt at hj
  unfold Spec.St.getArc abs
  rw [List.getElem?_map]
  cases hc : s.arcs[j]? with
  | none => rfl
  | some y => simp [hc] at hj; subst hj; rfl

theorem Inv.splitArc {s : State} (I : Inv e s) {j b : Nat} (hj : s.arcAt j = some b) :
    InvC e s.heap s.next (live s.handles) (b :: live (s.arcs.set j none)) :=
  I.perm (List.Perm.refl _) (live_split s.arcs j b hj)

theorem getArc_some {s : State} {j b : Nat} {a : Alloc} (hj : s.arcAt j = some b)
    (hf : findBase s.heap b = some a) : (abs e s).getArc j = some a.data := by
  unfold State.arcAt at hj
  unfold Spec.St.getArc abs
  rw [List.getElem?_map]
  cases hc : s.arcs[j]? with
  | none => simp [hc] at hj
  | some y => simp [hc] at hj; subst hj; simp [contArc, hf]

/-- Adding a variable. -/
theorem push_ok {s s' : State} (I : Inv e s) {h : Handle} {d : List Byte}
    (I' : InvC e s'.heap s'.next (h :: live s.handles) (live s.arcs)) (H : HandleOk e s'.heap h d)
    (x : Ext s.heap s'.heap) (h1 : s'.handles = s.handles) (h2 : s'.arcs = s.arcs) :
    ∃ s'' o, s'.push h = (s'', o) ∧ Inv e s'' ∧ s''.heap = s'.heap
      ∧ abs e s'' = (abs e s).push d ∧ o = .bytes (abs e s).bytes.length := by
  have I'' : InvC e s'.heap s'.next (live (s.handles ++ [some h])) (live s.arcs) := by
    refine I'.perm ?_ (List.Perm.refl _)
    rw [live_append]
    exact List.perm_append_comm (l₁ := [h])
  refine ⟨_, _, rfl, ?_, rfl, ?_, by simp [abs, h1]⟩
  · unfold Inv
    simp only [h1, h2]
    exact I''
  unfold abs Spec.St.push
  simp only [h1, h2, List.map_append, List.map_cons, List.map_nil]
  rw [frame_map I I' x s.handles (fun g hg => ⟨mem_live.mpr hg, List.mem_cons_of_mem _ (mem_live.mpr hg)⟩),
    frameArc_map I I' x s.arcs (fun b hb => mem_live.mpr hb), cont_ok I' (by simp) H]

theorem mem_set_none {α : Type} {l : List (Option α)} {i : Nat} {x : α} (h : some x ∈ l.set i none) :
    some x ∈ l := by
  rcases List.mem_or_eq_of_mem_set h with h | h
  · exact h
  · cases h

/-- Replacing a variable. -/
theorem put_ok {s s' : State} (I : Inv e s) {i : Nat} {h0 h : Handle} {d : List Byte}
    (hi : s.handle i = some h0)
    (I' : InvC e s'.heap s'.next (h :: live (s.handles.set i none)) (live s.arcs))
    (H : HandleOk e s'.heap h d)
    (x : Ext s.heap s'.heap) (h1 : s'.handles = s.handles) (h2 : s'.arcs = s.arcs) :
    Inv e (s'.put i (some h)) ∧ abs e (s'.put i (some h)) = (abs e s).set i (some d) := by
  have hlt := handle_lt hi
  have I'' : InvC e s'.heap s'.next (live (s.handles.set i (some h))) (live s.arcs) :=
    I'.perm (live_set s.handles i h hlt).symm (List.Perm.refl _)
  unfold State.put Inv
  simp only [h1, h2]
  refine ⟨I'', ?_⟩
  unfold abs Spec.St.set
  simp only [h1, h2]
  rw [frameArc_map I I' x s.arcs (fun b hb => mem_live.mpr hb)]
  have hset : s.handles.set i (some h) = (s.handles.set i none).set i (some h) := by simp
  rw [hset, List.map_set, frame_map I I' x (s.handles.set i none)
    (fun g hg => ⟨mem_live.mpr (mem_set_none hg), List.mem_cons_of_mem _ (mem_live.mpr hg)⟩),
    cont_ok I' (by simp) H, List.map_set]
  simp

/-- Moving out of a variable. -/
theorem del_ok {s s' : State} (I : Inv e s) {i : Nat}
    (I' : InvC e s'.heap s'.next (live (s.handles.set i none)) (live s.arcs))
    (x : Ext s.heap s'.heap) (h1 : s'.handles = s.handles) (h2 : s'.arcs = s.arcs) :
    Inv e (s'.put i none) ∧ abs e (s'.put i none) = (abs e s).set i none := by
  unfold State.put Inv
  simp only [h1, h2]
  refine ⟨I', ?_⟩
  unfold abs Spec.St.set
  simp only [h1, h2]
  rw [frameArc_map I I' x s.arcs (fun b hb => mem_live.mpr hb),
    frame_map I I' x (s.handles.set i none)
    (fun g hg => ⟨mem_live.mpr (mem_set_none hg), mem_live.mpr hg⟩), List.map_set]
  rfl

/-- Variable `i` is live and holds its bytes inline. -/
def inlinedVar (e : Env) (s : State) (i : Nat) : Bool :=
  match s.handle i with | some h => isInlined e.toTarget h.raw | none => false

/-- Variable `i` is live and points to bytes borrowed from somebody else. -/
def borrowedVar (e : Env) (s : State) (i : Nat) : Bool :=
  match s.handle i with | some h => isBorrowedRaw e h.raw | none => false

/-- The one unsound call: `noalloc_upgrade` of a borrowing value. -/
def unsoundUse (e : Env) (s : State) : Op → Bool
  | .noallocUpgrade i => borrowedVar e s i
  | _ => false

/-- Calls whose answer is wrong in the code: shrinking an inlined value, or bounds that wrap. -/
def wrongUse (e : Env) (s : State) : Op → Bool
  | .shrinkTo i lo hi => inlinedVar e s i || wraps e.toTarget lo hi
  | .subsliced i lo hi => inlinedVar e s i || wraps e.toTarget lo hi
  | .splitAt i _ => inlinedVar e s i
  | .read i _ => inlinedVar e s i
  | _ => false

theorem abs_set_get {s : State} (I : Inv e s) {i : Nat} {h : Handle} {d : List Byte}
    (hi : s.handle i = some h) (H : HandleOk e s.heap h d) : (abs e s).set i (some d) = abs e s := by
  have hg := I.get hi H
  have hlt := handle_lt hi
  unfold Spec.St.set
  have : (abs e s).bytes.set i (some d) = (abs e s).bytes := by
    apply List.ext_getElem?
    intro k
    rw [List.getElem?_set]
    split
    · rename_i hk
      subst hk
      unfold Spec.St.get at hg
      have hl : i < (abs e s).bytes.length := by unfold abs; simpa using hlt
      rw [List.getElem?_eq_getElem hl] at hg ⊢
      simp at hg
      simp [hg, hl]
    · rfl
  rw [this]

/-- One operation, from a consistent state. -/
theorem step_ok (s : State) (op : Op) (I : Inv e s) (hu : unsoundUse e s op = false) :
    ∃ s' o, step e s op = .ok (s', o) ∧ Inv e s' ∧ Ext s.heap s'.heap
      ∧ (wrongUse e s op = false → Spec.Step (abs e s) op o (abs e s')) := by
  have hw := e.w_lo
  cases op with
  | fromStatic data =>
    simp only [step, newRegion]
    by_cases hm : s.next + data.length + 2 * e.w < wordMax e.toTarget
    · simp only [hm, if_true]
      have I1 := InvC.growPlain I data .static (.inl rfl) (s.next + data.length + 2 * e.w) (by omega) hm
      have hf : Fields.Ok e.toTarget ⟨s.next, data.length, s.next, data.length, e.vtAddr .static⟩ :=
        ⟨by show s.next < _; omega, by show data.length < _; omega, by show s.next < _; omega,
         by show data.length < _; omega, e.vt_lt _⟩
      have HO := HandleOk.out (e := e) (hp := s.heap ++ [⟨s.next, data, .static, 1⟩]) (lt := none) (k := .static)
        (a := ⟨s.next, data, .static, 1⟩) hf rfl (by simp) rfl rfl (Nat.le_refl _) (Nat.le_refl _) rfl (by simp) (by simp)
      simp only [Nat.sub_self, List.drop_zero, List.take_length] at HO
      have I2 := I1.addPlain HO (ownerOf_out e _ .static hf rfl) (LtOk.none _)
      obtain ⟨s'', o'', pe, J, ph, a1, a2⟩ := push_ok (s' := { s with heap := s.heap ++ [⟨s.next, data, .static, 1⟩], next := s.next + data.length + 2 * e.w }) I I2 HO (Ext.append _ _) rfl rfl
      refine ⟨s'', o'', congrArg Except.ok pe, J, by rw [ph]; exact Ext.append _ _, fun _ => ?_⟩
      · rw [a1, a2]; exact .fromStatic
    · simp only [hm, if_false]
      exact ⟨_, _, rfl, I, Ext.refl _, fun _ => .oom⟩
  | fromSlice data =>
    simp only [step, newRegion]
    by_cases hm : s.next + data.length + 2 * e.w < wordMax e.toTarget
    · simp only [hm, if_true]
      have I1 := InvC.growPlain I data .borrowed (.inr rfl) (s.next + data.length + 2 * e.w) (by omega) hm
      have hlt : LtOk (s.heap ++ [⟨s.next, data, .borrowed, 1⟩]) (some s.next) := by
        intro b hb; cases hb
        exact ⟨⟨s.next, data, .borrowed, 1⟩, by simp, rfl, rfl, by simp⟩
      by_cases hl : data.length ≤ maxInline e.toTarget
      · simp only [hl, if_true]
        have HO := HandleOk.inline (e := e) (hp := s.heap ++ [⟨s.next, data, .borrowed, 1⟩]) data hl (some s.next)
        have I2 := I1.addPlain HO (ownerOf_inl (isInlined_inline e.toTarget _ hl)) hlt
        obtain ⟨s'', o'', pe, J, ph, a1, a2⟩ := push_ok (s' := { s with heap := s.heap ++ [⟨s.next, data, .borrowed, 1⟩], next := s.next + data.length + 2 * e.w }) I I2 HO (Ext.append _ _) rfl rfl
        refine ⟨s'', o'', congrArg Except.ok pe, J, by rw [ph]; exact Ext.append _ _, fun _ => ?_⟩
        · rw [a1, a2]; exact .fromSlice
      · simp only [hl, if_false]
        have hf : Fields.Ok e.toTarget ⟨s.next, data.length, s.next, data.length, e.vtAddr .slice⟩ :=
          ⟨by show s.next < _; omega, by show data.length < _; omega, by show s.next < _; omega,
           by show data.length < _; omega, e.vt_lt _⟩
        have HO := HandleOk.out (e := e) (hp := s.heap ++ [⟨s.next, data, .borrowed, 1⟩]) (lt := some s.next) (k := .slice)
          (a := ⟨s.next, data, .borrowed, 1⟩) hf rfl (by simp) rfl rfl (Nat.le_refl _) (Nat.le_refl _) rfl (by simp) (by simp)
        simp only [Nat.sub_self, List.drop_zero, List.take_length] at HO
        have I2 := I1.addPlain HO (ownerOf_out e _ .slice hf rfl) hlt
        obtain ⟨s'', o'', pe, J, ph, a1, a2⟩ := push_ok (s' := { s with heap := s.heap ++ [⟨s.next, data, .borrowed, 1⟩], next := s.next + data.length + 2 * e.w }) I I2 HO (Ext.append _ _) rfl rfl
        refine ⟨s'', o'', congrArg Except.ok pe, J, by rw [ph]; exact Ext.append _ _, fun _ => ?_⟩
        · rw [a1, a2]; exact .fromSlice
    · simp only [hm, if_false]
      exact ⟨_, _, rfl, I, Ext.refl _, fun _ => .oom⟩
  | inlineSlice data =>
    simp only [step]
    by_cases hl : maxInline e.toTarget < data.length
    · simp only [hl, if_true]
      exact ⟨_, _, rfl, I, Ext.refl _, fun _ => .inlineSlice_none⟩
    · simp only [hl, if_false]
      have hl' : data.length ≤ maxInline e.toTarget := by omega
      have HO := HandleOk.inline (e := e) (hp := s.heap) data hl' none
      have I2 := InvC.addPlain I HO (ownerOf_inl (isInlined_inline e.toTarget _ hl')) (LtOk.none _)
      obtain ⟨s'', o'', pe, J, ph, a1, a2⟩ := push_ok (s' := s) I I2 HO (Ext.refl _) rfl rfl
      refine ⟨s'', o'', congrArg Except.ok pe, J, by rw [ph]; exact Ext.refl _, fun _ => ?_⟩
      rw [a1, a2]; exact .inlineSlice
  | copied data =>
    simp only [step]
    rcases copied_spec s I data none (LtOk.none _) with ⟨c, _⟩ | ⟨s', r, c, I', HO, x, h1, h2, h3, h4⟩
    · rw [c]; exact ⟨_, _, rfl, I, Ext.refl _, fun _ => .oom⟩
    · rw [c]
      obtain ⟨s'', o'', pe, J, ph, a1, a2⟩ := push_ok I I' HO x h1 h2
      refine ⟨s'', o'', congrArg Except.ok pe, J, by rw [ph]; exact x, fun _ => ?_⟩
      · rw [a1, a2]; exact .copied
  | arcNew data =>
    simp only [step, allocate, newRegion]
    by_cases hm : s.next + data.length + 2 * e.w < wordMax e.toTarget
    · simp only [hm, if_true, Option.map]
      have I1 := InvC.growArc I data (s.next + data.length + 2 * e.w) (by omega) hm
      have x := Ext.append s.heap [⟨s.next, data, .arc, 1⟩]
      have I2 : InvC e (s.heap ++ [⟨s.next, data, .arc, 1⟩]) (s.next + data.length + 2 * e.w) (live s.handles) (live (s.arcs ++ [some s.next])) := by
        refine I1.perm (List.Perm.refl _) ?_
        rw [live_append]
        exact List.perm_append_comm (l₁ := [s.next])
      refine ⟨_, _, rfl, I2, x, fun _ => ?_⟩
      · have ha : abs e { s with heap := s.heap ++ [⟨s.next, data, .arc, 1⟩], next := s.next + data.length + 2 * e.w, allocs := s.allocs + 1, arcs := s.arcs ++ [some s.next] } = (abs e s).pushArc data := by
          unfold abs Spec.St.pushArc
          simp only [List.map_append, List.map_cons, List.map_nil]
          rw [frame_map I I1 x s.handles (fun g hg => ⟨mem_live.mpr hg, mem_live.mpr hg⟩),
            frameArc_map I I1 x s.arcs (fun b hb => mem_live.mpr hb)]
          have := I1.heap.findBase (a := ⟨s.next, data, .arc, 1⟩) (by simp) rfl
          simp [contArc, this]
        have hlen : s.arcs.length = (abs e s).arcs.length := by simp [abs]
        rw [ha, hlen]
        exact .arcNew
    · simp only [hm, if_false]
      exact ⟨_, _, rfl, I, Ext.refl _, fun _ => .oom⟩
  | arcClone j =>
    simp only [step]
    cases hj : s.arcAt j with
    | none =>
      exact ⟨_, _, rfl, I, Ext.refl _, fun _ => .moved_arc (getArc_none hj) (by simp)⟩
    | some b =>
      have I0 := I.splitArc hj
      obtain ⟨a, ha, hb, hk⟩ := I0.arcs b (by simp)
      have fb := I0.heap.findBase ha hb
      have hl : 0 < a.refs := by
        rw [I0.counted a ha (by simp [hk]) (by simp [hk]), hb]; simp; omega
      simp only [fb, hl, if_true]
      have su := setRefs_eq_upd I0.heap ha (· + 1)
      rw [hb] at su
      simp only [su]
      have I1 : InvC e (upd s.heap b (· + 1)) s.next (live s.handles) (b :: live s.arcs) :=
        { heap := I.heap.upd _ _, nextLo := I.nextLo, nextHi := I.nextHi
          ok := fun h' hh => (I.ok h' hh).imp fun _ H => H.mono (upd_ext _ _ _)
          lts := fun h' hh c hc => by
            obtain ⟨a', ha', e1, e2, e3⟩ := I.lts h' hh c hc
            refine ⟨_, List.mem_map.mpr ⟨a', ha', rfl⟩, ?_⟩
            split <;> simp_all
          arcs := fun c hc => by
            rcases List.mem_cons.mp hc with rfl | hc
            · obtain ⟨a', ha', f1, f2, f3⟩ := upd_ext s.heap c (· + 1) a ha
              exact ⟨a', ha', by rw [f1, hb], by rw [f3, hk]⟩
            · obtain ⟨a1, ha1, e1, e2⟩ := I.arcs c hc
              obtain ⟨a', ha', f1, f2, f3⟩ := upd_ext s.heap b (· + 1) a1 ha1
              exact ⟨a', ha', by rw [f1, e1], by rw [f3, e2]⟩
          counted := fun a ha g1 g2 => by
            obtain ⟨a0, h0, e1, e2, e3, e4⟩ := mem_upd ha
            rw [e4, e1, I.counted a0 h0 (e3 ▸ g1) (e3 ▸ g2), List.count_cons]
            by_cases hb : a0.base = b
            · simp [hb]; omega
            · have : b ≠ a0.base := fun h => hb h.symm
              simp [hb, this]
          static := fun a' ha' g => by
            obtain ⟨a0, h0, e1, e2, e3, e4⟩ := mem_upd ha'
            rw [e4, if_neg, I.static a0 h0 (e3 ▸ g)]
            intro hbb
            have := I.heap.uniqBase ha h0 (by omega)
            subst this
            rw [e3, hk] at g; cases g }
      have x := upd_ext s.heap b (· + 1)
      have I2 : InvC e (upd s.heap b (· + 1)) s.next (live s.handles) (live (s.arcs ++ [some b])) := by
        refine I1.perm (List.Perm.refl _) ?_
        rw [live_append]
        exact List.perm_append_comm (l₁ := [b])
      refine ⟨_, _, rfl, I2, x, fun _ => ?_⟩
      have hg := getArc_some (e := e) hj fb
      have haa : abs e { s with heap := upd s.heap b (· + 1), arcs := s.arcs ++ [some b] } = (abs e s).pushArc a.data := by
        unfold abs Spec.St.pushArc
        simp only [List.map_append, List.map_cons, List.map_nil]
        rw [frame_map I I1 x s.handles (fun g hg => ⟨mem_live.mpr hg, mem_live.mpr hg⟩),
          frameArc_map I I1 x s.arcs (fun b hb => mem_live.mpr hb), frameArc I0 I1 x (by simp)]
        simp [contArc, fb]
      have hlen : s.arcs.length = (abs e s).arcs.length := by simp [abs]
      rw [haa, hlen]
      exact .arcClone hg
  | arcDrop j =>
    simp only [step]
    cases hj : s.arcAt j with
    | none =>
      exact ⟨_, _, rfl, I, Ext.refl _, fun _ => .moved_arc (getArc_none hj) (by simp)⟩
    | some b =>
      have I0 := I.splitArc hj
      obtain ⟨a, ha, hb, hk⟩ := I0.arcs b (by simp)
      have fb := I0.heap.findBase ha hb
      have hl : 0 < a.refs := by
        rw [I0.counted a ha (by simp [hk]) (by simp [hk]), hb]; simp; omega
      simp only [fb, hl, if_true]
      have su := setRefs_eq_upd I0.heap ha (· - 1)
      rw [hb] at su
      simp only [su]
      have I1 : InvC e (upd s.heap b (· - 1)) s.next (live s.handles) (live (s.arcs.set j none)) :=
        { heap := I.heap.upd _ _, nextLo := I.nextLo, nextHi := I.nextHi
          ok := fun h' hh => (I.ok h' hh).imp fun _ H => H.mono (upd_ext _ _ _)
          lts := fun h' hh c hc => by
            obtain ⟨a', ha', e1, e2, e3⟩ := I.lts h' hh c hc
            refine ⟨_, List.mem_map.mpr ⟨a', ha', rfl⟩, ?_⟩
            rw [if_neg]
            · exact ⟨e1, e2, e3⟩
            · intro hbb
              have := I.heap.uniqBase ha' ha (by omega)
              subst this
              rw [e2] at hk; cases hk
          arcs := fun c hc => by
            obtain ⟨a1, ha1, e1, e2⟩ := I0.arcs c (List.mem_cons_of_mem _ hc)
            obtain ⟨a', ha', f1, f2, f3⟩ := upd_ext s.heap b (· - 1) a1 ha1
            exact ⟨a', ha', by rw [f1, e1], by rw [f3, e2]⟩
          counted := fun a ha g1 g2 => by
            obtain ⟨a0, h0, e1, e2, e3, e4⟩ := mem_upd ha
            rw [e4, e1, I0.counted a0 h0 (e3 ▸ g1) (e3 ▸ g2), List.count_cons]
            by_cases hb : a0.base = b
            · simp [hb]
            · have : b ≠ a0.base := fun h => hb h.symm
              simp [hb, this]
          static := fun a' ha' g => by
            obtain ⟨a0, h0, e1, e2, e3, e4⟩ := mem_upd ha'
            rw [e4, if_neg, I.static a0 h0 (e3 ▸ g)]
            intro hbb
            have := I.heap.uniqBase ha h0 (by omega)
            subst this
            rw [e3, hk] at g; cases g }
      have x := upd_ext s.heap b (· - 1)
      refine ⟨_, _, rfl, I1, x, fun _ => ?_⟩
      have hg := getArc_some (e := e) hj fb
      have haa : abs e { s with heap := upd s.heap b (· - 1), arcs := s.arcs.set j none } = { abs e s with arcs := (abs e s).arcs.set j none } := by
        unfold abs
        simp only
        rw [frame_map I I1 x s.handles (fun g hg => ⟨mem_live.mpr hg, mem_live.mpr hg⟩),
          frameArc_map I I1 x (s.arcs.set j none) (fun b hb => mem_live.mpr (mem_set_none hb)), List.map_set]
        rfl
      rw [haa]
      exact .arcDrop hg
  | fromArc j =>
    simp only [step]
    cases hj : s.arcAt j with
    | none =>
      exact ⟨_, _, rfl, I, Ext.refl _, fun _ => .moved_arc (getArc_none hj) (by simp)⟩
    | some b =>
      have I0 := I.splitArc hj
      obtain ⟨a, ha, fb, hb, I1, HO⟩ := I0.ofArc
      simp only [fb]
      have I2 : InvC e s.heap s.next (live (s.handles ++ [some ⟨fromArcRaw e b a.data.length, none⟩])) (live (s.arcs.set j none)) := by
        refine I1.perm ?_ (List.Perm.refl _)
        rw [live_append]
        exact List.perm_append_comm (l₁ := [_])
      refine ⟨(State.push { s with arcs := s.arcs.set j none } ⟨fromArcRaw e b a.data.length, none⟩).1, .bytes s.handles.length, rfl, I2, Ext.refl _, fun _ => ?_⟩
      have hg := getArc_some (e := e) hj fb
      have haa : abs e (State.push { s with arcs := s.arcs.set j none } ⟨fromArcRaw e b a.data.length, none⟩).1
          = { (abs e s).push a.data with arcs := (abs e s).arcs.set j none } := by
        unfold abs Spec.St.push State.push
        simp only [List.map_append, List.map_cons, List.map_nil]
        rw [cont_ok I1 (by simp) HO, List.map_set]
        rfl
      have hlen : s.handles.length = (abs e s).bytes.length := by simp [abs]
      rw [haa]
      rw [hlen]
      exact .fromArc hg
  | fromArcT data =>
    simp only [step, allocate, newRegion]
    by_cases hm : s.next + data.length + 2 * e.w < wordMax e.toTarget
    · simp only [hm, if_true, Option.map]
      obtain ⟨I1, HO⟩ := InvC.growBytes I data .arcT (s.next + data.length + 2 * e.w) (.inr (.inl rfl)) (by omega) hm
      obtain ⟨s'', o'', pe, J, ph, a1, a2⟩ := push_ok (s' := { s with heap := s.heap ++ [⟨s.next, data, .arcT, 1⟩], next := s.next + data.length + 2 * e.w, allocs := s.allocs + 1 }) I I1 HO (Ext.append _ _) rfl rfl
      refine ⟨s'', o'', congrArg Except.ok pe, J, by rw [ph]; exact Ext.append _ _, fun _ => ?_⟩
      · rw [a1, a2]; exact .fromArcT
    · simp only [hm, if_false]
      exact ⟨_, _, rfl, I, Ext.refl _, fun _ => .oom⟩
  | fromBox data =>
    simp only [step, fromBox]
    by_cases h0 : data.length = 0
    · simp only [h0, if_true]
      have hd : data = [] := List.length_eq_zero_iff.mp h0
      subst hd
      have HO : HandleOk e s.heap ⟨Fields.raw e.toTarget ⟨1, 0, 1, 0, e.vtAddr .box⟩, none⟩ [] := .emptyBox
      have I1 := InvC.addPlain I HO (ownerOf_out e _ .box (emptyBox_ok e) rfl) (LtOk.none _)
      obtain ⟨s'', o'', pe, J, ph, a1, a2⟩ := push_ok (s' := s) I I1 HO (Ext.refl _) rfl rfl
      refine ⟨s'', o'', congrArg Except.ok pe, J, by rw [ph]; exact Ext.refl _, fun _ => ?_⟩
      rw [a1, a2]; exact .fromBox
    · simp only [h0, if_false]
      unfold allocate newRegion
      by_cases hm : s.next + data.length + 2 * e.w < wordMax e.toTarget
      · simp only [hm, if_true, Option.map]
        obtain ⟨I1, HO⟩ := InvC.growBytes I data .box (s.next + data.length + 2 * e.w) (.inr (.inr ⟨rfl, by omega⟩)) (by omega) hm
        obtain ⟨s'', o'', pe, J, ph, a1, a2⟩ := push_ok (s' := { s with heap := s.heap ++ [⟨s.next, data, .box, 1⟩], next := s.next + data.length + 2 * e.w, allocs := s.allocs + 1 }) I I1 HO (Ext.append _ _) rfl rfl
        refine ⟨s'', o'', congrArg Except.ok pe, J, by rw [ph]; exact Ext.append _ _, fun _ => ?_⟩
        · rw [a1, a2]; exact .fromBox
      · simp only [hm, if_false]
        exact ⟨_, _, rfl, I, Ext.refl _, fun _ => .oom⟩
  | clone i =>
    simp only [step]
    cases hi : s.handle i with
    | none =>
      exact ⟨_, _, rfl, I, Ext.refl _, fun _ => .moved_bytes (get_none hi) (by simp)⟩
    | some h =>
      have I0 := I.split hi
      obtain ⟨d, H⟩ := I0.ok h (by simp)
      rcases clone_spec s I0 H with c | ⟨s', r, c, I', HO, x, h1, h2, h3, _⟩
      · refine ⟨s, .oom, ?_, I, Ext.refl _, fun _ => .oom⟩
        simp only [c]; rfl
      · have I1 : InvC e s'.heap s'.next (⟨r, h.lt⟩ :: live s.handles) (live s.arcs) :=
          I'.perm (List.Perm.cons _ (live_split s.handles i h hi).symm) (List.Perm.refl _)
        obtain ⟨s'', o'', pe, J, ph, a1, a2⟩ := push_ok I I1 HO x h1 h2
        refine ⟨s'', o'', by simp only [c]; exact congrArg Except.ok pe, J, by rw [ph]; exact x, fun _ => ?_⟩
        · rw [a1, a2]; exact .clone (I.get hi H)
  | noallocClone i =>
    simp only [step]
    cases hi : s.handle i with
    | none =>
      exact ⟨_, _, rfl, I, Ext.refl _, fun _ => .moved_bytes (get_none hi) (by simp)⟩
    | some h =>
      have I0 := I.split hi
      obtain ⟨d, H⟩ := I0.ok h (by simp)
      rcases noallocClone_spec I0 with ⟨hp', c, I', x, _⟩ | ⟨c, _⟩
      · have I1 : InvC e hp' s.next (h :: live s.handles) (live s.arcs) :=
          I'.perm (List.Perm.cons _ (live_split s.handles i h hi).symm) (List.Perm.refl _)
        obtain ⟨s'', o'', pe, J, ph, a1, a2⟩ := push_ok (s' := { s with heap := hp' }) I I1 (H.mono x) x rfl rfl
        refine ⟨s'', o'', by simp only [c]; exact congrArg Except.ok pe, J, by rw [ph]; exact x, fun _ => ?_⟩
        rw [a1, a2]; exact .noallocClone (I.get hi H)
      · exact ⟨_, _, by simp only [c]; rfl, I, Ext.refl _, fun _ => .noallocClone_none (I.get hi H)⟩
  | drop i =>
    simp only [step]
    cases hi : s.handle i with
    | none =>
      exact ⟨_, _, rfl, I, Ext.refl _, fun _ => .moved_bytes (get_none hi) (by simp)⟩
    | some h =>
      have I0 := I.split hi
      obtain ⟨d, H⟩ := I0.ok h (by simp)
      obtain ⟨hp', c, I', x⟩ := drop_spec I0
      obtain ⟨J, a1⟩ := del_ok (s' := { s with heap := hp' }) I I' x rfl rfl
      refine ⟨_, _, by simp only [c]; rfl, J, x, fun _ => ?_⟩
      rw [a1]; exact .drop (I.get hi H)
  | shrinkTo i lo hi' =>
    simp only [step]
    cases hi : s.handle i with
    | none =>
      exact ⟨_, _, rfl, I, Ext.refl _, fun _ => .moved_bytes (get_none hi) (by simp)⟩
    | some h =>
      have I0 := I.split hi
      obtain ⟨d, H⟩ := I0.ok h (by simp)
      cases hwu : wrongUse e s (.shrinkTo i lo hi') with
      | true =>
        rcases shrink_safe I0 lo hi' with c | ⟨hp', r', c, I', x⟩
        · exact ⟨_, _, by simp only [c]; rfl, I, Ext.refl _, by simp⟩
        · obtain ⟨d', H'⟩ := I'.ok ⟨r', h.lt⟩ (by simp)
          obtain ⟨J, a1⟩ := put_ok (s' := { s with heap := hp' }) I hi I' H' x rfl rfl
          exact ⟨_, _, by simp only [c]; rfl, J, x, by simp⟩
      | false =>
        simp only [wrongUse, inlinedVar, hi, Bool.or_eq_false_iff] at hwu
        rcases shrink_spec I0 H hwu.1 lo hi' hwu.2 with ⟨v, c⟩ | ⟨v, hp', r', c, I', H', x⟩
        · exact ⟨_, _, by simp only [c]; rfl, I, Ext.refl _, fun _ => .shrinkTo_panic (I.get hi H) v⟩
        · obtain ⟨J, a1⟩ := put_ok (s' := { s with heap := hp' }) I hi I' H' x rfl rfl
          refine ⟨_, _, by simp only [c]; rfl, J, x, fun _ => ?_⟩
          rw [a1]; exact .shrinkTo (I.get hi H) v
  | subsliced i lo hi' =>
    simp only [step]
    cases hi : s.handle i with
    | none =>
      exact ⟨_, _, rfl, I, Ext.refl _, fun _ => .moved_bytes (get_none hi) (by simp)⟩
    | some h =>
      have I0 := I.split hi
      obtain ⟨d, H⟩ := I0.ok h (by simp)
      cases hwu : wrongUse e s (.subsliced i lo hi') with
      | true =>
        rcases subsliced_safe I0 lo hi' with ⟨hp', c, I', x⟩ | ⟨hp', r', c, I', x⟩
        · obtain ⟨J, a1⟩ := del_ok (s' := { s with heap := hp' }) I I' x rfl rfl
          exact ⟨_, _, by simp only [c]; rfl, J, x, by simp⟩
        · obtain ⟨d', H'⟩ := I'.ok ⟨r', h.lt⟩ (by simp)
          obtain ⟨J, a1⟩ := put_ok (s' := { s with heap := hp' }) I hi I' H' x rfl rfl
          exact ⟨_, _, by simp only [c]; rfl, J, x, by simp⟩
      | false =>
        simp only [wrongUse, inlinedVar, hi, Bool.or_eq_false_iff] at hwu
        rcases subsliced_spec I0 H hwu.1 lo hi' hwu.2 with ⟨v, hp', c, I', x⟩ | ⟨v, hp', r', c, I', H', x⟩
        · obtain ⟨J, a1⟩ := del_ok (s' := { s with heap := hp' }) I I' x rfl rfl
          refine ⟨_, _, by simp only [c]; rfl, J, x, fun _ => ?_⟩
          rw [a1]; exact .subsliced_panic (I.get hi H) v
        · obtain ⟨J, a1⟩ := put_ok (s' := { s with heap := hp' }) I hi I' H' x rfl rfl
          refine ⟨_, _, by simp only [c]; rfl, J, x, fun _ => ?_⟩
          rw [a1]; exact .subsliced (I.get hi H) v
  | splitAt i k =>
    simp only [step]
    cases hi : s.handle i with
    | none =>
      exact ⟨_, _, rfl, I, Ext.refl _, fun _ => .moved_bytes (get_none hi) (by simp)⟩
    | some h =>
      have I0 := I.split hi
      obtain ⟨d, H⟩ := I0.ok h (by simp)
      rcases split_spec s I0 H k with ⟨v, c⟩ | ⟨v, _, c⟩ | ⟨v, hin, hp', c, I', x⟩ | ⟨v, s', l, r, c, I', x, h1, h2, HL, HR⟩
      · exact ⟨_, _, by simp only [c]; rfl, I, Ext.refl _, fun _ => .splitAt_err (I.get hi H) v⟩
      · exact ⟨_, _, by simp only [c]; rfl, I, Ext.refl _, fun _ => .oom⟩
      · obtain ⟨J, a1⟩ := del_ok (s' := { s with heap := hp' }) I I' x rfl rfl
        refine ⟨_, _, by simp only [c]; rfl, J, x, fun hwu => ?_⟩
        simp [wrongUse, inlinedVar, hi, hin] at hwu
      · have I2 : InvC e s'.heap s'.next (live (s.handles.set i none ++ [some ⟨l, h.lt⟩, some ⟨r, h.lt⟩])) (live s.arcs) := by
          refine I'.perm ?_ (List.Perm.refl _)
          rw [live_append]
          exact List.perm_append_comm (l₁ := [(⟨l, h.lt⟩ : Handle), ⟨r, h.lt⟩])
        refine ⟨{ (s'.put i none) with handles := (s'.put i none).handles ++ [some ⟨l, h.lt⟩, some ⟨r, h.lt⟩] },
          .bytes2 (s'.put i none).handles.length ((s'.put i none).handles.length + 1), by simp only [c]; rfl, ?_, x, fun _ => ?_⟩
        · unfold Inv State.put
          simp only [h1, h2]
          exact I2
        · have haa : abs e { (s'.put i none) with handles := (s'.put i none).handles ++ [some ⟨l, h.lt⟩, some ⟨r, h.lt⟩] }
              = (((abs e s).set i none).push (d.take k)).push (d.drop k) := by
            unfold abs Spec.St.set Spec.St.push State.put
            simp only [h1, h2, List.map_append, List.map_cons, List.map_nil]
            rw [frame_map I I' x (s.handles.set i none) (fun g hg => ⟨mem_live.mpr (mem_set_none hg), List.mem_cons_of_mem _ (List.mem_cons_of_mem _ (mem_live.mpr hg))⟩),
              frameArc_map I I' x s.arcs (fun b hb => mem_live.mpr hb), cont_ok I' (by simp) HL, cont_ok I' (by simp) HR, List.map_set]
            simp [cont]
          rw [haa]
          have hlen : (s'.put i none).handles.length = (abs e s).bytes.length := by simp [abs, State.put, h1]
          rw [hlen]
          exact .splitAt (I.get hi H) v
  | upgrade i =>
    simp only [step]
    cases hi : s.handle i with
    | none =>
      exact ⟨_, _, rfl, I, Ext.refl _, fun _ => .moved_bytes (get_none hi) (by simp)⟩
    | some h =>
      have I0 := I.split hi
      obtain ⟨d, H⟩ := I0.ok h (by simp)
      rcases upgrade_spec s I0 H with ⟨c, _⟩ | ⟨s', r, c, I', HO, x, h1, h2, h3, h4⟩
      · exact ⟨_, _, by simp only [c]; rfl, I, Ext.refl _, fun _ => .oom⟩
      · obtain ⟨J, a1⟩ := put_ok I hi I' HO x h1 h2
        refine ⟨_, _, by simp only [c]; rfl, J, x, fun _ => ?_⟩
        rw [a1, abs_set_get I hi H]; exact .upgrade (I.get hi H)
  | noallocUpgrade i =>
    simp only [step]
    cases hi : s.handle i with
    | none =>
      exact ⟨_, _, rfl, I, Ext.refl _, fun _ => .moved_bytes (get_none hi) (by simp)⟩
    | some h =>
      have I0 := I.split hi
      obtain ⟨d, H⟩ := I0.ok h (by simp)
      simp only [unsoundUse, borrowedVar, hi] at hu
      rcases noallocUpgrade_spec I0 H hu with ⟨c, _⟩ | ⟨_, hp', r, c, I', HO, x⟩
      · exact ⟨_, _, by simp only [c]; rfl, I, Ext.refl _, fun _ => .noallocUpgrade_err (I.get hi H)⟩
      · obtain ⟨J, a1⟩ := put_ok (s' := { s with heap := hp' }) I hi I' HO x rfl rfl
        refine ⟨_, _, by simp only [c]; rfl, J, x, fun _ => ?_⟩
        rw [a1, abs_set_get I hi H]; exact .noallocUpgrade (I.get hi H)
  | tryIntoArc i =>
    simp only [step]
    cases hi : s.handle i with
    | none =>
      exact ⟨_, _, rfl, I, Ext.refl _, fun _ => .moved_bytes (get_none hi) (by simp)⟩
    | some h =>
      have I0 := I.split hi
      obtain ⟨d, H⟩ := I0.ok h (by simp)
      cases hb : tryIntoArc e h.raw with
      | none =>
        simp only [hb]
        exact ⟨_, _, rfl, I, Ext.refl _, fun _ => .tryIntoArc_err (I.get hi H)⟩
      | some b =>
        simp only [hb]
        obtain ⟨ho, a, ha, e1, e2, e3⟩ := tryIntoArc_spec H hb
        have I1 := I0.toArc ho ⟨a, ha, e1, e2⟩
        have I2 : InvC e s.heap s.next (live (s.handles.set i none)) (live (s.arcs ++ [some b])) := by
          refine I1.perm (List.Perm.refl _) ?_
          rw [live_append]
          exact List.perm_append_comm (l₁ := [b])
        refine ⟨_, _, rfl, I2, Ext.refl _, fun _ => ?_⟩
        have haa : abs e { s.put i none with arcs := s.arcs ++ [some b] } = ((abs e s).set i none).pushArc d := by
          unfold abs Spec.St.set Spec.St.pushArc State.put
          simp only [List.map_append, List.map_cons, List.map_nil, List.map_set]
          have fb := I.heap.findBase ha e1
          simp [contArc, fb, e3, cont]
        have hlen : s.arcs.length = (abs e s).arcs.length := by simp [abs]
        rw [haa, hlen]
        exact .tryIntoArc (I.get hi H)
  | read i m =>
    simp only [step]
    cases hi : s.handle i with
    | none =>
      exact ⟨_, _, rfl, I, Ext.refl _, fun _ => .moved_bytes (get_none hi) (by simp)⟩
    | some h =>
      have I0 := I.split hi
      obtain ⟨d, H⟩ := I0.ok h (by simp)
      cases hwu : wrongUse e s (.read i m) with
      | true =>
        rcases read_safe I0 m with c | ⟨hp', r', g, c, I', x⟩
        · exact ⟨_, _, by simp only [c]; rfl, I, Ext.refl _, by simp⟩
        · obtain ⟨d', H'⟩ := I'.ok ⟨r', h.lt⟩ (by simp)
          obtain ⟨J, a1⟩ := put_ok (s' := { s with heap := hp' }) I hi I' H' x rfl rfl
          exact ⟨_, _, by simp only [c]; rfl, J, x, by simp⟩
      | false =>
        simp only [wrongUse, inlinedVar, hi] at hwu
        obtain ⟨hp', r', c, I', H', x⟩ := read_spec I0 H hwu m
        obtain ⟨J, a1⟩ := put_ok (s' := { s with heap := hp' }) I hi I' H' x rfl rfl
        refine ⟨_, _, by simp only [c]; rfl, J, x, fun _ => ?_⟩
        rw [a1]; exact .read (I.get hi H)
  | asSlice i =>
    simp only [step]
    cases hi : s.handle i with
    | none =>
      exact ⟨_, _, rfl, I, Ext.refl _, fun _ => .moved_bytes (get_none hi) (by simp)⟩
    | some h =>
      have I0 := I.split hi
      obtain ⟨d, H⟩ := I0.ok h (by simp)
      have hd := I0.asSlice (by simp) H
      exact ⟨_, _, by simp only [hd]; rfl, I, Ext.refl _, fun _ => .asSlice (I.get hi H)⟩
  | endBorrow b =>
    simp only [step]
    split
    · exact ⟨_, _, rfl, I, Ext.refl _, fun _ => .endBorrow_live⟩
    · rename_i hno
      split
      · rename_i a hf
        obtain ⟨ha, hb⟩ := findBase_mem hf
        split
        · rename_i hc
          have su := setRefs_eq_upd I.heap ha (fun _ => 0)
          rw [hb] at su
          simp only [su]
          have x := upd_ext s.heap b (fun _ => 0)
          have I1 : InvC e (upd s.heap b (fun _ => 0)) s.next (live s.handles) (live s.arcs) :=
            { heap := I.heap.upd _ _, nextLo := I.nextLo, nextHi := I.nextHi
              ok := fun h' hh => (I.ok h' hh).imp fun _ H => H.mono x
              lts := fun h' hh c hc => by
                obtain ⟨a', ha', e1, e2, e3⟩ := I.lts h' hh c hc
                refine ⟨_, List.mem_map.mpr ⟨a', ha', rfl⟩, ?_⟩
                rw [if_neg]
                · exact ⟨e1, e2, e3⟩
                · intro hbb
                  apply hno
                  rw [List.any_eq_true]
                  exact ⟨some h', mem_live.mp hh, by simp [hc]; omega⟩
              arcs := fun c hc => by
                obtain ⟨a1, ha1, e1, e2⟩ := I.arcs c hc
                obtain ⟨a', ha', f1, f2, f3⟩ := x a1 ha1
                exact ⟨a', ha', by rw [f1, e1], by rw [f3, e2]⟩
              counted := fun a' ha' g1 g2 => by
                obtain ⟨a0, h0, e1, e2, e3, e4⟩ := mem_upd ha'
                rw [e4, if_neg, e1]
                · exact I.counted a0 h0 (e3 ▸ g1) (e3 ▸ g2)
                · intro hbb
                  have := I.heap.uniqBase ha h0 (by omega)
                  subst this
                  rw [e3, hc.1] at g2; exact g2 rfl
              static := fun a' ha' g => by
                obtain ⟨a0, h0, e1, e2, e3, e4⟩ := mem_upd ha'
                rw [e4, if_neg, I.static a0 h0 (e3 ▸ g)]
                intro hbb
                have := I.heap.uniqBase ha h0 (by omega)
                subst this
                rw [e3, hc.1] at g; cases g }
          refine ⟨_, _, rfl, I1, x, fun _ => ?_⟩
          have haa : abs e { s with heap := upd s.heap b (fun _ => 0) } = abs e s := by
            unfold abs
            simp only
            rw [frame_map I I1 x s.handles (fun g hg => ⟨mem_live.mpr hg, mem_live.mpr hg⟩),
              frameArc_map I I1 x s.arcs (fun b hb => mem_live.mpr hb)]
          rw [haa]
          exact .endBorrow
        · exact ⟨_, _, rfl, I, Ext.refl _, fun _ => .endBorrow_live⟩
      · exact ⟨_, _, rfl, I, Ext.refl _, fun _ => .endBorrow_live⟩

end Verif.Bytes
