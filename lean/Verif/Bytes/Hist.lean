import Verif.Bytes.Step
/-! Histories: reachable states, frames, inlined values. -/
namespace Verif.Bytes

/-- States reached by programs that never call `noalloc_upgrade` on a borrowing value (see C08). -/
inductive Reach (e : Env) : State → Prop
  | init : Reach e State.init
  | step {s op s' o} (r : Reach e s) (hu : unsoundUse e s op = false)
      (h : step e s op = .ok (s', o)) : Reach e s'

theorem Inv.init (e : Env) : Inv e State.init := by
  have := wordMax_ge e.toTarget
  exact
  { heap := ⟨List.Pairwise.nil, (by intro a ha; cases ha), (by intro a ha; cases ha)⟩
    nextLo := Nat.le_refl _
    nextHi := by show 16 < _; omega
    ok := by intro h hh; cases hh
    lts := by intro h hh; cases hh
    arcs := by intro b hb; cases hb
    counted := by intro a ha; cases ha
    static := by intro a ha; cases ha }

variable {e : Env}

theorem Inv.step {s s' : State} {op : Op} {o : Out} (I : Inv e s) (hu : unsoundUse e s op = false)
    (h : step e s op = .ok (s', o)) : Inv e s' ∧ Ext s.heap s'.heap ∧
      (wrongUse e s op = false → Spec.Step (abs e s) op o (abs e s')) := by
  obtain ⟨s1, o1, e1, J, x, sp⟩ := step_ok s op I hu
  rw [h] at e1
  cases e1
  exact ⟨J, x, sp⟩

theorem Reach.inv {s : State} (r : Reach e s) : Inv e s := by
  induction r with
  | init => exact Inv.init e
  | step r hu h ih => exact (ih.step hu h).1

/-- Does the operation change or consume variable `j`? (`clone` and `as_slice` take `&self`.) -/
def touches (j : Nat) : Op → Bool
  | .drop i | .shrinkTo i _ _ | .subsliced i _ _ | .splitAt i _ | .upgrade i | .noallocUpgrade i
  | .tryIntoArc i | .read i _ => i == j
  | _ => false

theorem handle_append {s : State} {j : Nat} (l : List (Option Handle)) (hj : j < s.handles.length) :
    ((s.handles ++ l)[j]?).join = s.handle j := by
  unfold State.handle; rw [List.getElem?_append_left hj]

theorem handle_set {s : State} {i j : Nat} (x : Option Handle) (hij : i ≠ j) :
    ((s.handles.set i x)[j]?).join = s.handle j := by
  unfold State.handle; rw [List.getElem?_set_ne hij]

theorem cloneRaw_handles {s s' : State} {r r' : Raw} (c : cloneRaw e s r = .ok (some (s', r'))) :
    s'.handles = s.handles := by
  unfold cloneRaw at c
  cases hn : noallocClone e s.heap r with
  | error f => simp [hn, bind, Except.bind] at c
  | ok v =>
    cases v with
    | some v => simp [hn, bind, Except.bind] at c; obtain ⟨c, _⟩ := c; subst c; rfl
    | none =>
      simp only [hn, bind, Except.bind] at c
      cases hd : asSlice e.toTarget s.heap r with
      | error f => simp [hd] at c
      | ok dd =>
        simp only [hd, copiedFromSlice, allocate, newRegion] at c
        split at c
        · cases c; rfl
        · split at c
          · cases c; rfl
          · cases c

theorem copied_handles {s s' : State} {d : List Byte} {r' : Raw} (c : copiedFromSlice e s d = some (s', r')) :
    s'.handles = s.handles := by
  simp only [copiedFromSlice, allocate, newRegion] at c
  split at c
  · cases c; rfl
  · split at c
    · cases c; rfl
    · cases c

/-- Operations that do not use variable `j` leave it as it is. -/
theorem step_frame {s s' : State} {op : Op} {o : Out} (I : Inv e s) (hu : unsoundUse e s op = false)
    (h : step e s op = .ok (s', o)) {j : Nat} (hj : j < s.handles.length) (ht : touches j op = false) :
    s'.handle j = s.handle j ∧ j < s'.handles.length := by
  have key : ∀ hs, s'.handles = hs → (hs[j]?).join = s.handle j → j < hs.length →
      s'.handle j = s.handle j ∧ j < s'.handles.length := by
    intro hs e1 e2 e3
    unfold State.handle
    rw [e1]; exact ⟨e2, e3⟩
  have same : s'.handles = s.handles → s'.handle j = s.handle j ∧ j < s'.handles.length :=
    fun h => key _ h rfl hj
  have app : ∀ l, s'.handles = s.handles ++ l → s'.handle j = s.handle j ∧ j < s'.handles.length :=
    fun l h => key _ h (handle_append l hj) (by simp; omega)
  have set : ∀ i x, i ≠ j → s'.handles = s.handles.set i x → s'.handle j = s.handle j ∧ j < s'.handles.length :=
    fun i x hij h => key _ h (handle_set x hij) (by simpa using hj)
  cases op with
  | fromStatic data =>
    simp only [step, newRegion] at h
    split at h
    · cases h; exact same rfl
    · rename_i heq
      split at heq
      · cases heq; cases h; exact app _ rfl
      · cases heq
  | fromSlice data =>
    simp only [step, newRegion] at h
    split at h
    · cases h; exact same rfl
    · rename_i heq
      split at heq
      · cases heq
        split at h <;> (cases h; exact app _ rfl)
      · cases heq
  | inlineSlice data =>
    simp only [step] at h
    split at h
    · cases h; exact same rfl
    · cases h; exact app _ rfl
  | copied data =>
    simp only [step] at h
    split at h
    · cases h; exact same rfl
    · rename_i c
      cases h
      exact app _ (congrArg (· ++ _) (copied_handles c))
  | arcNew data =>
    simp only [step, allocate, newRegion] at h
    split at h
    · cases h; exact same rfl
    · rename_i heq
      split at heq
      · cases heq; cases h; exact same rfl
      · cases heq
  | arcClone k =>
    simp only [step] at h
    split at h
    · cases h; exact same rfl
    · split at h
      · cases h
      · split at h
        · cases h; exact same rfl
        · cases h
  | arcDrop k =>
    simp only [step] at h
    split at h
    · cases h; exact same rfl
    · split at h
      · cases h
      · split at h
        · cases h; exact same rfl
        · cases h
  | fromArc k =>
    simp only [step] at h
    split at h
    · cases h; exact same rfl
    · split at h
      · cases h
      · cases h; exact app _ rfl
  | fromArcT data =>
    simp only [step, allocate, newRegion] at h
    split at h
    · cases h; exact same rfl
    · rename_i heq
      split at heq
      · cases heq; cases h; exact app _ rfl
      · cases heq
  | fromBox data =>
    simp only [step, fromBox, allocate, newRegion] at h
    split at h
    · cases h; exact same rfl
    · rename_i heq
      split at heq
      · cases heq; cases h; exact app _ rfl
      · split at heq
        · cases heq; cases h; exact app _ rfl
        · cases heq
  | clone i =>
    simp only [step] at h
    split at h
    · cases h; exact same rfl
    · rename_i hd hi
      cases c : cloneRaw e s hd.raw with
      | error f => simp [c, bind, Except.bind] at h
      | ok v =>
        cases v with
        | none => simp [c, bind, Except.bind] at h; exact same (by rw [← h.1])
        | some v =>
          simp [c, bind, Except.bind, State.push] at h
          exact app [some ⟨v.2, hd.lt⟩] (by rw [← h.1]; simp [cloneRaw_handles (s' := v.1) (r' := v.2) c])
  | noallocClone i =>
    simp only [step] at h
    split at h
    · cases h; exact same rfl
    · rename_i hd hi
      cases c : noallocClone e s.heap hd.raw with
      | error f => simp [c, bind, Except.bind] at h
      | ok v =>
        cases v with
        | none => simp [c, bind, Except.bind] at h; exact same (by rw [← h.1])
        | some v =>
          simp [c, bind, Except.bind, State.push] at h
          exact app [some ⟨v.2, hd.lt⟩] (by rw [← h.1])
  | asSlice i =>
    simp only [step] at h
    split at h
    · cases h; exact same rfl
    · rename_i hd hi
      cases c : asSlice e.toTarget s.heap hd.raw with
      | error f => simp [c, bind, Except.bind] at h
      | ok v => simp [c, bind, Except.bind] at h; exact same (by rw [← h.1])
  | endBorrow b =>
    simp only [step] at h
    split at h
    · cases h; exact same rfl
    · split at h
      · split at h
        · cases h; exact same rfl
        · cases h; exact same rfl
      · cases h; exact same rfl
  | drop i =>
    have hij : i ≠ j := by simpa [touches] using ht
    simp only [step] at h
    split at h
    · cases h; exact same rfl
    · rename_i hd hi
      cases c : dropRaw e s.heap hd.raw with
      | error f => simp [c, bind, Except.bind] at h
      | ok v => simp [c, bind, Except.bind] at h; exact set i none hij (by rw [← h.1]; rfl)
  | shrinkTo i lo hi' =>
    have hij : i ≠ j := by simpa [touches] using ht
    simp only [step] at h
    split at h
    · cases h; exact same rfl
    · rename_i hd hi
      cases c : shrinkTo e s.heap hd.raw lo hi' with
      | error f => simp [c, bind, Except.bind] at h
      | ok v =>
        cases v with
        | panic => simp [c, bind, Except.bind] at h; exact same (by rw [← h.1])
        | ok v => simp [c, bind, Except.bind] at h; exact set i (some ⟨v.2, hd.lt⟩) hij (by rw [← h.1]; rfl)
  | subsliced i lo hi' =>
    have hij : i ≠ j := by simpa [touches] using ht
    simp only [step] at h
    split at h
    · cases h; exact same rfl
    · rename_i hd hi
      cases c : subsliced e s.heap hd.raw lo hi' with
      | error f => simp [c, bind, Except.bind] at h
      | ok v =>
        obtain ⟨v1, v2⟩ := v
        cases v2 with
        | none => simp [c, bind, Except.bind] at h; exact set i none hij (by rw [← h.1]; rfl)
        | some v => simp [c, bind, Except.bind] at h; exact set i (some ⟨v, hd.lt⟩) hij (by rw [← h.1]; rfl)
  | read i m =>
    have hij : i ≠ j := by simpa [touches] using ht
    simp only [step] at h
    split at h
    · cases h; exact same rfl
    · rename_i hd hi
      cases c : readInto e s.heap hd.raw m with
      | error f => simp [c, bind, Except.bind] at h
      | ok v =>
        cases v with
        | panic => simp [c, bind, Except.bind] at h; exact same (by rw [← h.1])
        | ok v => simp [c, bind, Except.bind] at h; exact set i (some ⟨v.2.1, hd.lt⟩) hij (by rw [← h.1]; rfl)
  | splitAt i k =>
    have hij : i ≠ j := by simpa [touches] using ht
    cases hi : s.handle i with
    | none => simp only [step, hi] at h; cases h; exact same rfl
    | some hd =>
      have I0 := I.split hi
      obtain ⟨d, H⟩ := I0.ok hd (by simp)
      rcases split_spec s I0 H k with ⟨v, c⟩ | ⟨v, _, c⟩ | ⟨v, hin, hp', c, _⟩ | ⟨v, s1, l, r, c, _, _, h1, _⟩
      · simp [step, hi, c, bind, Except.bind] at h; exact same (by rw [← h.1])
      · simp [step, hi, c, bind, Except.bind] at h; exact same (by rw [← h.1])
      · simp [step, hi, c, bind, Except.bind] at h; exact set i none hij (by rw [← h.1]; rfl)
      · simp [step, hi, c, bind, Except.bind] at h
        refine key (s.handles.set i none ++ [some ⟨l, hd.lt⟩, some ⟨r, hd.lt⟩]) (by rw [← h.1]; simp [State.put, h1]) ?_ (by simp; omega)
        rw [List.getElem?_append_left (by simpa using hj)]
        exact handle_set none hij
  | upgrade i =>
    have hij : i ≠ j := by simpa [touches] using ht
    cases hi : s.handle i with
    | none => simp only [step, hi] at h; cases h; exact same rfl
    | some hd =>
      have I0 := I.split hi
      obtain ⟨d, H⟩ := I0.ok hd (by simp)
      rcases upgrade_spec s I0 H with ⟨c, _⟩ | ⟨s1, r, c, _, _, _, h1, _⟩
      · simp [step, hi, c, bind, Except.bind] at h; exact same (by rw [← h.1])
      · simp [step, hi, c, bind, Except.bind] at h
        exact set i (some ⟨r, none⟩) hij (by rw [← h.1]; simp [State.put, h1])
  | noallocUpgrade i =>
    have hij : i ≠ j := by simpa [touches] using ht
    simp only [step] at h
    split at h
    · cases h; exact same rfl
    · rename_i hd hi
      cases c : noallocUpgrade e s.heap hd.raw with
      | error f => simp [c, bind, Except.bind] at h
      | ok v =>
        cases v with
        | none => simp [c, bind, Except.bind] at h; exact same (by rw [← h.1])
        | some v => simp [c, bind, Except.bind] at h; exact set i (some ⟨v.2, none⟩) hij (by rw [← h.1]; rfl)
  | tryIntoArc i =>
    have hij : i ≠ j := by simpa [touches] using ht
    simp only [step] at h
    split at h
    · cases h; exact same rfl
    · split at h
      · cases h; exact same rfl
      · cases h; exact set i none hij rfl

/-- What a program sees of variable `i`: the answer of `as_slice`. -/
def Sees (e : Env) (s : State) (i : Nat) (d : List Byte) : Prop :=
  step e s (.asSlice i) = .ok (s, .data d)

theorem sees_iff {s : State} (I : Inv e s) {i : Nat} {d : List Byte} :
    Sees e s i d ↔ ∃ h, s.handle i = some h ∧ HandleOk e s.heap h d := by
  unfold Sees
  constructor
  · intro h
    cases hi : s.handle i with
    | none => simp [step, hi] at h
    | some hd =>
      obtain ⟨d', H⟩ := (I.split hi).ok hd (by simp)
      have hd' := (I.split hi).asSlice (by simp) H
      simp [step, hi, hd', bind, Except.bind] at h
      subst h
      exact ⟨hd, rfl, H⟩
  · rintro ⟨hd, hi, H⟩
    have hd' := (I.split hi).asSlice (by simp) H
    simp [step, hi, hd', bind, Except.bind]

theorem sees_abs {s : State} (I : Inv e s) {i : Nat} {d : List Byte} :
    Sees e s i d ↔ (abs e s).get i = some d := by
  rw [sees_iff I]
  constructor
  · rintro ⟨h, hi, H⟩; exact I.get hi H
  · intro hg
    cases hi : s.handle i with
    | none => rw [get_none hi] at hg; cases hg
    | some h =>
      obtain ⟨d', H⟩ := (I.split hi).ok h (by simp)
      rw [I.get hi H] at hg; cases hg
      exact ⟨h, rfl, H⟩

/-- A later history: any operations, except the unsound one, that do not use variable `j`. -/
inductive Later (e : Env) (j : Nat) : State → State → Prop
  | refl {s} : Later e j s s
  | step {s op s' o s''} (hu : unsoundUse e s op = false) (ht : touches j op = false)
      (h : step e s op = .ok (s', o)) (t : Later e j s' s'') : Later e j s s''

theorem Later.sees {j : Nat} {s s' : State} (l : Later e j s s') (I : Inv e s) {d : List Byte}
    (h : Sees e s j d) : Sees e s' j d ∧ Inv e s' ∧ s'.handle j = s.handle j := by
  induction l with
  | refl => exact ⟨h, I, rfl⟩
  | step hu ht hs t ih =>
    obtain ⟨J, x, _⟩ := I.step hu hs
    obtain ⟨hd, hi, H⟩ := (sees_iff I).mp h
    obtain ⟨f1, f2⟩ := step_frame I hu hs (handle_lt hi) ht
    have := ih J ((sees_iff J).mpr ⟨hd, f1.trans hi, H.mono x⟩)
    exact ⟨this.1, this.2.1, this.2.2.trans f1⟩

/-- Operations of the shrinking family, on an inlined value and in range: right answer or panic. -/
theorem inlined_ok (s : State) (I : Inv e s) (i : Nat) (hin : inlinedVar e s i = true) (d : List Byte)
    (hs : Sees e s i d) (op : Op)
    (hop : (∃ lo hi, op = .shrinkTo i lo hi ∧ Spec.validRange d.length lo hi) ∨ (∃ lo hi, op = .subsliced i lo hi ∧ Spec.validRange d.length lo hi)
      ∨ (∃ k, op = .splitAt i k) ∨ (∃ n, op = .read i n)) :
    ∃ s' o, step e s op = .ok (s', o) ∧ Inv e s' ∧
      ((o = .panic ∧ (abs e s' = abs e s ∨ (abs e s' = (abs e s).set i none ∧ ∀ n, op ≠ .read i n)))
        ∨ Spec.Step (abs e s) op o (abs e s')) := by
  obtain ⟨h, hi, H⟩ := (sees_iff I).mp hs
  have hin' : isInlined e.toTarget h.raw = true := by simpa [inlinedVar, hi] using hin
  have I0 := I.split hi
  have hlen := H.len
  have hltw := H.len_lt I.heap I.nextHi
  have hdd : d = h.raw.take (lenOf e.toTarget h.raw) := by
    have h1 := I0.asSlice (by simp) H
    have h2 : asSlice e.toTarget s.heap h.raw = .ok (h.raw.take (lenOf e.toTarget h.raw)) := by
      unfold asSlice; rw [hin']; rfl
    rw [h1] at h2; exact Except.ok.inj h2
  -- the bounds of a valid range do not wrap
  have bnd : ∀ lo hi', Spec.validRange d.length lo hi' →
      startOf e.toTarget lo = some (Spec.lower lo) ∧ endOf e.toTarget h.raw hi' = some (Spec.upper d.length hi') := by
    intro lo hi' hv
    have hw : wraps e.toTarget lo hi' = false := by
      unfold Spec.validRange Spec.lower Spec.upper at hv
      unfold wraps
      cases lo <;> cases hi' <;> simp at hv ⊢ <;> omega
    rcases bounds_spec e.toTarget h.raw lo hi' hw (by omega) with b | ⟨_, b⟩
    · rw [hlen] at b; exact b
    · rw [hlen] at b; exact absurd hv b
  have shr : ∀ lo hi', Spec.validRange d.length lo hi' →
      shrinkTo e s.heap h.raw lo hi' = .ok .panic ∨
      ∃ r', shrinkTo e s.heap h.raw lo hi' = .ok (.ok (s.heap, r')) ∧ HandleOk e s.heap ⟨r', h.lt⟩ (Spec.slice d lo hi')
        ∧ InvC e s.heap s.next (⟨r', h.lt⟩ :: live (s.handles.set i none)) (live s.arcs) := by
    intro lo hi' hv
    obtain ⟨b1, b2⟩ := bnd lo hi' hv
    rcases shrink_inl (hp := s.heap) (lt := h.lt) H.length hin' (H.inl_max hin') lo hi' with e1 | ⟨r', d', e1, i1, HO, hh⟩
    · exact .inl e1
    · right
      have := hh _ _ b1 b2 hv.1 (by rw [hlen]; exact hv.2)
      rw [← hdd] at this
      subst this
      exact ⟨r', e1, HO, I0.replace HO (by rw [ownerOf_inl hin', ownerOf_inl i1]) (I0.lts h (by simp))⟩
  rcases hop with ⟨lo, hi', rfl, hv⟩ | ⟨lo, hi', rfl, hv⟩ | ⟨k, rfl⟩ | ⟨m, rfl⟩
  · rcases shr lo hi' hv with c | ⟨r', c, HO, I'⟩
    · exact ⟨s, .panic, by simp [step, hi, c, bind, Except.bind], I, .inl ⟨rfl, .inl rfl⟩⟩
    · obtain ⟨J, a1⟩ := put_ok (s' := s) I hi I' HO (Ext.refl _) rfl rfl
      exact ⟨_, .unit, by simp [step, hi, c, bind, Except.bind], J, .inr (by rw [a1]; exact .shrinkTo (I.get hi H) hv)⟩
  · rcases shr lo hi' hv with c | ⟨r', c, HO, I'⟩
    · obtain ⟨hp', c2, I', x⟩ := drop_spec I0
      obtain ⟨J, a1⟩ := del_ok (s' := { s with heap := hp' }) I I' x rfl rfl
      exact ⟨_, .panic, by simp [step, subsliced, hi, c, c2, bind, Except.bind], J, .inl ⟨rfl, .inr ⟨a1, by simp⟩⟩⟩
    · obtain ⟨J, a1⟩ := put_ok (s' := s) I hi I' HO (Ext.refl _) rfl rfl
      exact ⟨_, .unit, by simp [step, subsliced, hi, c, bind, Except.bind], J, .inr (by rw [a1]; exact .subsliced (I.get hi H) hv)⟩
  · rcases split_spec s I0 H k with ⟨v, c⟩ | ⟨v, _, c⟩ | ⟨v, _, hp', c, I', x⟩ | ⟨v, s', l, r, c, I', x, h1, h2, HL, HR⟩
    · exact ⟨s, .err, by simp [step, hi, c, bind, Except.bind], I, .inr (.splitAt_err (I.get hi H) v)⟩
    · exact ⟨s, .oom, by simp [step, hi, c, bind, Except.bind], I, .inr .oom⟩
    · obtain ⟨J, a1⟩ := del_ok (s' := { s with heap := hp' }) I I' x rfl rfl
      exact ⟨_, .panic, by simp [step, hi, c, bind, Except.bind], J, .inl ⟨rfl, .inr ⟨a1, by simp⟩⟩⟩
    · have I2 : InvC e s'.heap s'.next (live (s.handles.set i none ++ [some ⟨l, h.lt⟩, some ⟨r, h.lt⟩])) (live s.arcs) := by
        refine I'.perm ?_ (List.Perm.refl _)
        rw [live_append]
        exact List.perm_append_comm (l₁ := [(⟨l, h.lt⟩ : Handle), ⟨r, h.lt⟩])
      refine ⟨{ (s'.put i none) with handles := (s'.put i none).handles ++ [some ⟨l, h.lt⟩, some ⟨r, h.lt⟩] },
          .bytes2 (s'.put i none).handles.length ((s'.put i none).handles.length + 1), by simp [step, hi, c, bind, Except.bind], ?_, .inr ?_⟩
      · unfold Inv State.put
        simp only [h1, h2]
        exact I2
      · have haa : abs e { (s'.put i none) with handles := (s'.put i none).handles ++ [some ⟨l, h.lt⟩, some ⟨r, h.lt⟩] }
            = (((abs e s).set i none).push (d.take k)).push (d.drop k) := by
          unfold abs Spec.St.set Spec.St.push State.put
          simp only [h1, h2, List.map_append, List.map_cons, List.map_nil]
          rw [frame_map I I' x (s.handles.set i none) (fun g hg => ⟨mem_live.mpr (mem_set_none hg), List.mem_cons_of_mem _ (List.mem_cons_of_mem _ (mem_live.mpr hg))⟩),
            frameArc_map I I' x s.arcs (fun b hb => mem_live.mpr hb), cont_ok I' (by simp) HL, cont_ok I' (by simp) HR, List.map_set]
          simp [cont]
        rw [haa]
        have hl2 : (s'.put i none).handles.length = (abs e s).bytes.length := by simp [abs, State.put, h1]
        rw [hl2]
        exact .splitAt (I.get hi H) v
  · have hd := I0.asSlice (by simp) H
    have hv : Spec.validRange d.length (.incl (min d.length m)) .unb := by
      simp only [Spec.validRange, Spec.lower, Spec.upper]; omega
    have ht : d.take (min d.length m) = d.take m := by
      rw [List.take_eq_take_iff]; omega
    have hdr : Spec.slice d (.incl (min d.length m)) .unb = d.drop m := by
      unfold Spec.slice Spec.lower Spec.upper
      simp only
      rw [List.take_of_length_le (by simp)]
      by_cases hc : d.length ≤ m
      · rw [Nat.min_eq_left hc, List.drop_of_length_le (Nat.le_refl _), List.drop_of_length_le hc]
      · rw [Nat.min_eq_right (by omega)]
    have hm : min d.length m ≤ d.length := Nat.min_le_left _ _
    rcases shr _ _ hv with c | ⟨r', c, HO, I'⟩
    · refine ⟨s, .panic, ?_, I, .inl ⟨rfl, .inl rfl⟩⟩
      simp only [step, hi, readInto, hd, bind, Except.bind, hlen, hm, not_true_eq_false, if_false, c]
    · rw [hdr] at HO
      obtain ⟨J, a1⟩ := put_ok (s' := s) I hi I' HO (Ext.refl _) rfl rfl
      refine ⟨s.put i (some ⟨r', h.lt⟩), .data (d.take m), ?_, J, .inr (by rw [a1]; exact .read (I.get hi H))⟩
      simp only [step, hi, readInto, hd, bind, Except.bind, hlen, hm, not_true_eq_false, if_false, c, ht]

end Verif.Bytes
