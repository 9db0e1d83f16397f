import Verif.BytesVt.Model
import Verif.Bytes.Fn2
/-! The invariant of histories, and the effect of each function on it. -/
namespace Verif.BytesVt
open Verif.Bytes (Byte Target Raw Fields Bound R Fault Split getWord setWord fieldsOf wordMax maxInline isInlined lenOf
  inlineUnchecked startOf endOf dec_enc getWord_raw fieldsOf_raw raw_fieldsOf setWord0_raw setWord1_raw isInlined_raw
  inline_length isInlined_inline lenOf_inline take_inline maxInline_le maxInline_ge maxInline_lt wordMax_ge lenByte_eq)

/-- The contents of a value. -/
def contents (e : Env) (mem : Nat → Byte) (r : Raw) : List Byte :=
  if isInlined e.toTarget r then r.take (lenOf e.toTarget r)
  else readMem mem (getWord e.toTarget r 0) (getWord e.toTarget r 1)

/-- The slice lies within a slice given to `from_raw_parts` with the same owner. -/
def Covered (log : List Ev) (o : Own) (start len : Nat) : Prop :=
  ∃ st ln, Ev.made o st ln ∈ log ∧ st ≤ start ∧ start + len ≤ st + ln

/-- A consistent image. -/
inductive Rep (e : Env) (log : List Ev) : Raw → Prop
  | inl {r : Raw} (hl : r.length = 5 * e.w) (hi : isInlined e.toTarget r = true)
      (hm : lenOf e.toTarget r ≤ maxInline e.toTarget) : Rep e log r
  | out (f : Fields) (hf : f.Ok e.toTarget) (hv : (e.vts f.vt).isSome = true)
      (hs : f.start + f.len < wordMax e.toTarget)
      (hc : Covered log ⟨f.vt, f.owner, f.cap⟩ f.start f.len) : Rep e log (f.raw e.toTarget)

/-- The value is responsible for one call of `release`, for this owner. -/
def claims (e : Env) (o : Own) (r : Raw) : Bool := !isInlined e.toTarget r && decide (ownOf e r = o)

/-- An event is as the contract wants, after these. -/
def Fine (e : Env) (log : List Ev) : Ev → Prop
  | .made _ _ _ => True
  | .retain o => (∃ h, e.vts o.vt = some h ∧ h.retain = true) ∧ (e.rel o = true → 0 < due o log)
  | .release o => e.rel o = true ∧ 0 < due o log
  | .read o st ln => Covered log o st ln ∧ (e.rel o = true → 0 < due o log)

def Good (e : Env) (log : List Ev) : Prop := ∀ pre x suf, log = pre ++ x :: suf → Fine e pre x

structure Inv (e : Env) (m : Mach) (L : List Raw) : Prop where
  rep : ∀ r ∈ L, Rep e m.log r
  bal : ∀ o, e.rel o = true → due o m.log = (L.countP (claims e o) : Int)
  good : Good e m.log

variable {e : Env} {m : Mach} {L : List Raw} {r : Raw}

theorem due_append (o : Own) (a b : List Ev) : due o (a ++ b) = due o a + due o b := by
  induction a with
  | nil => simp [due]
  | cons x a ih => simp [due, ih, Int.add_assoc]

theorem due_ev (o : Own) (a : List Ev) (x : Ev) : due o (a ++ [x]) = due o a + due1 o x := by
  rw [due_append]; simp [due]

theorem Covered.mono {log : List Ev} {o : Own} {s n : Nat} (h : Covered log o s n) (x : Ev) : Covered (log ++ [x]) o s n := by
  obtain ⟨a, b, h1, h2⟩ := h
  exact ⟨a, b, List.mem_append_left _ h1, h2⟩

theorem Rep.mono {log : List Ev} (h : Rep e log r) (x : Ev) : Rep e (log ++ [x]) r := by
  cases h with
  | inl a b c => exact .inl a b c
  | out f a b c d => exact .out f a b c (d.mono x)

theorem Good.ev {log : List Ev} (h : Good e log) {x : Ev} (hx : Fine e log x) : Good e (log ++ [x]) := by
  intro pre y suf he
  rcases List.eq_nil_or_concat suf with rfl | ⟨suf', z, rfl⟩
  · obtain ⟨h1, h2⟩ := List.append_inj' he rfl
    cases h2; subst h1; exact hx
  · have : log ++ [x] = (pre ++ y :: suf') ++ [z] := by rw [he]; simp
    obtain ⟨h1, _⟩ := List.append_inj' this rfl
    exact h pre y suf' h1

/-- A new event. -/
theorem Inv.ev {L' : List Raw} (I : Inv e m L) {x : Ev} (hx : Fine e m.log x)
    (hr : ∀ r ∈ L', Rep e (m.log ++ [x]) r)
    (hd : ∀ o, e.rel o = true → (L.countP (claims e o) : Int) + due1 o x = (L'.countP (claims e o) : Int)) :
    Inv e (m.ev x) L' where
  rep := hr
  bal o ho := by
    show due o (m.log ++ [x]) = _
    rw [due_ev, I.bal o ho, hd o ho]
  good := I.good.ev hx

theorem Inv.perm {L' : List Raw} (I : Inv e m L) (p : L.Perm L') : Inv e m L' where
  rep r hr := I.rep r (p.symm.subset hr)
  bal o ho := by rw [I.bal o ho, p.countP_eq]
  good := I.good

/-- Adding, changing or removing values without any event. -/
theorem Inv.swap {L' : List Raw} (I : Inv e m L) (hr : ∀ r ∈ L', Rep e m.log r)
    (hd : ∀ o, L'.countP (claims e o) = L.countP (claims e o)) : Inv e m L' where
  rep := hr
  bal o ho := by rw [I.bal o ho, hd o]
  good := I.good

theorem claims_inl (h : isInlined e.toTarget r = true) (o : Own) : claims e o r = false := by simp [claims, h]

theorem Inv.pos (I : Inv e m (r :: L)) (h : isInlined e.toTarget r = false) (ho : e.rel (ownOf e r) = true) :
    0 < due (ownOf e r) m.log := by
  rw [I.bal _ ho, List.countP_cons]
  simp [claims, h]

theorem rep_inline {log : List Ev} {d : List Byte} (h : d.length ≤ maxInline e.toTarget) :
    Rep e log (inlineUnchecked e.toTarget d) :=
  .inl (inline_length _ _ h) (isInlined_inline _ _ h) (by rw [lenOf_inline _ _ h]; exact h)

theorem contents_inline (mem : Nat → Byte) {d : List Byte} (h : d.length ≤ maxInline e.toTarget) :
    contents e mem (inlineUnchecked e.toTarget d) = d := by
  unfold contents
  rw [isInlined_inline _ _ h, if_pos rfl, lenOf_inline _ _ h, take_inline _ _ h]

theorem vts_even {f : Fields} (hv : (e.vts f.vt).isSome = true) : f.vt % 2 = 0 := by
  obtain ⟨h, hh⟩ := Option.isSome_iff_exists.mp hv
  exact e.vt_even _ _ hh

theorem words {f : Fields} (hf : f.Ok e.toTarget) :
    getWord e.toTarget (f.raw e.toTarget) 0 = f.start ∧ getWord e.toTarget (f.raw e.toTarget) 1 = f.len
    ∧ getWord e.toTarget (f.raw e.toTarget) 2 = f.owner ∧ getWord e.toTarget (f.raw e.toTarget) 3 = f.cap
    ∧ getWord e.toTarget (f.raw e.toTarget) 4 = f.vt := by
  obtain ⟨h0, h1, h2, h3, h4⟩ := getWord_raw e.toTarget f
  exact ⟨by rw [h0, dec_enc _ _ hf.start], by rw [h1, dec_enc _ _ hf.len], by rw [h2, dec_enc _ _ hf.owner],
    by rw [h3, dec_enc _ _ hf.cap], by rw [h4, dec_enc _ _ hf.vt]⟩

theorem own_raw {f : Fields} (hf : f.Ok e.toTarget) : ownOf e (f.raw e.toTarget) = ⟨f.vt, f.owner, f.cap⟩ := by
  obtain ⟨-, -, h2, h3, h4⟩ := words hf
  simp [ownOf, h2, h3, h4]

theorem readMem_length (mem : Nat → Byte) (s n : Nat) : (readMem mem s n).length = n := by simp [readMem]

theorem readMem_slice (mem : Nat → Byte) (s n a b : Nat) (h : b ≤ n) :
    ((readMem mem s n).drop a).take (b - a) = readMem mem (s + a) (b - a) := by
  apply List.ext_getElem
  · simp [readMem]; omega
  · intro i h1 h2
    simp [readMem, Nat.add_assoc]

theorem contents_raw (mem : Nat → Byte) {f : Fields} (hf : f.Ok e.toTarget) (hv : (e.vts f.vt).isSome = true) :
    contents e mem (f.raw e.toTarget) = readMem mem f.start f.len := by
  obtain ⟨h0, h1, -⟩ := words hf
  unfold contents
  rw [isInlined_raw _ _ (vts_even hv), h0, h1]; rfl

theorem Rep.len {log : List Ev} (h : Rep e log r) (mem : Nat → Byte) : (contents e mem r).length = lenOf e.toTarget r := by
  cases h with
  | inl hl hi hm =>
    have := maxInline_lt e.toTarget
    unfold contents; rw [hi, if_pos rfl, List.length_take, hl]
    have : e.toTarget.w = e.w := rfl
    omega
  | out f hf hv hs hc =>
    rw [contents_raw mem hf hv, readMem_length]
    unfold lenOf
    rw [isInlined_raw _ _ (vts_even hv), (words hf).2.1]; rfl

/-! ### The functions -/

theorem asSlice_spec (I : Inv e m (r :: L)) :
    Inv e (asSlice e m r).1 (r :: L) ∧ (asSlice e m r).1.mem = m.mem ∧ (asSlice e m r).2 = contents e m.mem r := by
  unfold asSlice contents
  cases hi : isInlined e.toTarget r with
  | true => exact ⟨I, rfl, rfl⟩
  | false =>
    refine ⟨I.ev ?_ (fun r' hr' => (I.rep r' hr').mono _) (by intro o _; simp [due1]), rfl, rfl⟩
    refine ⟨?_, I.pos hi⟩
    cases I.rep r (by simp) with
    | inl _ h => rw [h] at hi; cases hi
    | out f hf hv hs hc => rw [own_raw hf, (words hf).1, (words hf).2.1]; exact hc

theorem vtable_spec {log : List Ev} (h : Rep e log r) :
    (isInlined e.toTarget r = true ∧ vtableOf e r = .ok none) ∨
    (isInlined e.toTarget r = false ∧ ∃ hk, e.vts (ownOf e r).vt = some hk ∧ vtableOf e r = .ok (some hk)) := by
  unfold vtableOf
  cases h with
  | inl hl hi hm => left; simp [hi]
  | out f hf hv hs hc =>
    right
    obtain ⟨hk, hh⟩ := Option.isSome_iff_exists.mp hv
    rw [isInlined_raw _ _ (vts_even hv), own_raw hf, (words hf).2.2.2.2, hh]
    exact ⟨rfl, hk, rfl, rfl⟩

theorem drop_spec (I : Inv e m (r :: L)) : ∃ m', dropRaw e m r = .ok m' ∧ m'.mem = m.mem ∧ Inv e m' L := by
  unfold dropRaw
  have hL : ∀ r' ∈ L, Rep e m.log r' := fun r' h => I.rep r' (by simp [h])
  rcases vtable_spec (I.rep r (by simp)) with ⟨hi, hv⟩ | ⟨hi, hk, h1, hv⟩
  · refine ⟨m, by simp [hv, bind, Except.bind], rfl, I.swap hL ?_⟩
    intro o; rw [List.countP_cons, claims_inl hi]; simp
  · have hrel : e.rel (ownOf e r) = hk.release := by unfold Env.rel; rw [h1]
    cases hr : hk.release with
    | true =>
      rw [hr] at hrel
      refine ⟨m.ev (.release (ownOf e r)), by simp [hv, bind, Except.bind, hr], rfl, I.ev ⟨hrel, I.pos hi hrel⟩ (fun r' h => (hL r' h).mono _) ?_⟩
      intro o ho
      rw [List.countP_cons]
      simp only [claims, hi, due1]
      by_cases h : ownOf e r = o <;> simp [h] <;> omega
    | false =>
      rw [hr] at hrel
      refine ⟨m, by simp [hv, bind, Except.bind, hr], rfl, ⟨hL, ?_, I.good⟩⟩
      intro o ho
      rw [I.bal o ho, List.countP_cons]
      have : ¬ ownOf e r = o := by rintro rfl; rw [hrel] at ho; cases ho
      simp [claims, this]

theorem Rep.len_eq {log : List Ev} (h : Rep e log r) : r.length = 5 * e.w := by
  cases h with
  | inl hl _ _ => exact hl
  | out f => exact Verif.Bytes.Fields.raw_length _ f

theorem noalloc_spec (I : Inv e m (r :: L)) :
    noallocClone e m r = .ok none ∨
    ∃ m', noallocClone e m r = .ok (some (m', r)) ∧ m'.mem = m.mem ∧ Inv e m' (r :: r :: L) := by
  unfold noallocClone
  have hR := I.rep r (by simp)
  have hL : ∀ r' ∈ r :: r :: L, Rep e m.log r' := fun r' h => I.rep r' (by simpa using h)
  rcases vtable_spec hR with ⟨hi, hv⟩ | ⟨hi, hk, h1, hv⟩
  · right
    refine ⟨m, by simp [hv, bind, Except.bind], rfl, I.swap hL ?_⟩
    intro o; rw [List.countP_cons, claims_inl hi]; simp
  · cases hr : hk.retain with
    | false => left; simp [hv, bind, Except.bind, hr]
    | true =>
      right
      refine ⟨m.ev (.retain (ownOf e r)), by simp [hv, bind, Except.bind, hr]; exact raw_fieldsOf _ _ hR.len_eq, rfl,
        I.ev ⟨⟨hk, h1, hr⟩, I.pos hi⟩ (fun r' h => (hL r' h).mono _) ?_⟩
      intro o ho
      rw [List.countP_cons (a := r) (l := r :: L)]
      simp only [claims, hi, due1]
      by_cases h : ownOf e r = o <;> simp [h]

/-- Memory that the contract lets its owner reuse is not read by any value. -/
theorem keep_write (I : Inv e m L) {mem' : Nat → Byte}
    (h : ∀ a, mem' a ≠ m.mem a → mayWrite e m.log a = true) : ∀ r ∈ L, contents e mem' r = contents e m.mem r := by
  intro r hr
  unfold contents
  cases hi : isInlined e.toTarget r with
  | true => rfl
  | false =>
    simp only [Bool.false_eq_true, if_false]
    cases I.rep r hr with
    | inl _ h => rw [h] at hi; cases hi
    | out f hf hv hs hc =>
      rw [(words hf).1, (words hf).2.1]
      unfold readMem
      apply List.map_congr_left
      intro i hi2
      rw [List.mem_range] at hi2
      apply Classical.byContradiction
      intro hne
      have hw := h _ hne
      obtain ⟨st, ln, hmem, h1, h2⟩ := hc
      unfold mayWrite at hw
      rw [List.all_eq_true] at hw
      have hx := hw _ hmem
      simp only [Bool.or_eq_true, Bool.and_eq_true, Bool.not_eq_true', decide_eq_false_iff_not, decide_eq_true_eq] at hx
      rcases hx with hx | ⟨hx1, hx2⟩
      · exact hx ⟨by omega, by omega⟩
      · rw [I.bal _ hx1] at hx2
        have : 0 < L.countP (claims e ⟨f.vt, f.owner, f.cap⟩) :=
          List.countP_pos_iff.mpr ⟨_, hr, by simp [claims, hi, own_raw hf]⟩
        omega

theorem writeMem_ne {mem : Nat → Byte} {a : Nat} {d : List Byte} {x : Nat} (h : writeMem mem a d x ≠ mem x) :
    a ≤ x ∧ x < a + d.length := by
  unfold writeMem at h
  split at h
  · assumption
  · exact absurd rfl h

theorem readMem_write (mem : Nat → Byte) (a : Nat) (d : List Byte) : readMem (writeMem mem a d) a d.length = d := by
  apply List.ext_getElem
  · simp [readMem]
  · intro i h1 h2
    simp [readMem, writeMem, h2]

/-- Contents are kept. -/
def Keep (e : Env) (m m' : Mach) (L : List Raw) : Prop := ∀ r ∈ L, contents e m'.mem r = contents e m.mem r

theorem Keep.of_mem {m m' : Mach} (h : m'.mem = m.mem) (L : List Raw) : Keep e m m' L := by
  intro r _; rw [h]

theorem Keep.trans {m m1 m2 : Mach} {L : List Raw} (a : Keep e m m1 L) (b : Keep e m1 m2 L) : Keep e m m2 L :=
  fun r h => (b r h).trans (a r h)

theorem Keep.sub {m m1 : Mach} {L L' : List Raw} (a : Keep e m m1 L) (h : L' ⊆ L) : Keep e m m1 L' :=
  fun r hr => a r (h hr)

theorem parts_spec (I : Inv e m L) {st ln : Nat} {o : Own} (h : okParts e st ln o = true) :
    Inv e (fromRawParts e m st ln o).1 ((fromRawParts e m st ln o).2 :: L)
    ∧ (fromRawParts e m st ln o).1.mem = m.mem
    ∧ isInlined e.toTarget (fromRawParts e m st ln o).2 = false
    ∧ ∀ mem, contents e mem (fromRawParts e m st ln o).2 = readMem mem st ln := by
  simp only [okParts, okSlice, Bool.and_eq_true, decide_eq_true_eq] at h
  obtain ⟨⟨⟨h1, h2⟩, h3⟩, h4⟩ := h
  obtain ⟨hk, hh⟩ := Option.isSome_iff_exists.mp h4
  have hf : Fields.Ok e.toTarget ⟨st, ln, o.owner, o.cap, o.vt⟩ :=
    ⟨by show st < _; omega, by show ln < _; omega, h2, h3, e.vt_lt _ _ hh⟩
  have hi := isInlined_raw e.toTarget ⟨st, ln, o.owner, o.cap, o.vt⟩ (e.vt_even _ _ hh)
  unfold fromRawParts
  refine ⟨I.ev (x := .made o st ln) trivial ?_ ?_, rfl, hi, fun mem => contents_raw mem hf h4⟩
  · intro r' hr'
    rcases List.mem_cons.mp hr' with rfl | hr'
    · exact .out _ hf h4 h1 ⟨st, ln, by simp, Nat.le_refl _, Nat.le_refl _⟩
    · exact (I.rep r' hr').mono _
  · intro o' ho
    rw [List.countP_cons]
    simp only [claims, hi, due1, own_raw hf]
    by_cases h : o = o'
    · subst h; simp
    · simp [h]

theorem newArc_spec (I : Inv e m L) (a : Nat) (d : List Byte) :
    newArc e m a d = none ∨
    ∃ m' r', newArc e m a d = some (m', r') ∧ Inv e m' (r' :: L) ∧ Keep e m m' L
      ∧ contents e m'.mem r' = d ∧ isInlined e.toTarget r' = false := by
  unfold newArc
  by_cases hc : a + d.length < wordMax e.toTarget ∧ (List.range d.length).all (fun i => mayWrite e m.log (a + i)) = true
  · right
    rw [if_pos hc]
    have hk : ∀ x, writeMem m.mem a d x ≠ m.mem x → mayWrite e m.log x = true := by
      intro x hx
      obtain ⟨h1, h2⟩ := writeMem_ne hx
      have := List.all_eq_true.mp hc.2 (x - a) (List.mem_range.mpr (by omega))
      rwa [show a + (x - a) = x by omega] at this
    have I1 : Inv e { m with mem := writeMem m.mem a d } L := ⟨I.rep, I.bal, I.good⟩
    have hp : okParts e a d.length ⟨e.arcVt, a, d.length⟩ = true := by
      simp only [okParts, okSlice, Bool.and_eq_true, decide_eq_true_eq, e.arc_vt]
      exact ⟨⟨⟨hc.1, by omega⟩, by omega⟩, rfl⟩
    obtain ⟨p1, p2, p3, p4⟩ := parts_spec I1 hp
    refine ⟨_, _, rfl, p1, ?_, ?_, p3⟩
    · intro r hr
      exact keep_write I hk r hr
    · exact (p4 _).trans (readMem_write _ _ _)
  · left; rw [if_neg hc]

theorem copied_spec (I : Inv e m L) (a : Nat) (d : List Byte) :
    copiedFromSlice e m a d = none ∨
    ∃ m' r', copiedFromSlice e m a d = some (m', r') ∧ Inv e m' (r' :: L) ∧ Keep e m m' L
      ∧ contents e m'.mem r' = d ∧ (maxInline e.toTarget < d.length → isInlined e.toTarget r' = false) := by
  unfold copiedFromSlice
  by_cases hl : d.length ≤ maxInline e.toTarget
  · right
    rw [if_pos hl]
    refine ⟨_, _, rfl, I.swap ?_ ?_, Keep.of_mem rfl L, contents_inline _ hl, by omega⟩
    · intro r' hr'
      rcases List.mem_cons.mp hr' with rfl | hr'
      · exact rep_inline hl
      · exact I.rep r' hr'
    · intro o; rw [List.countP_cons, claims_inl (isInlined_inline _ _ hl)]; simp
  · rw [if_neg hl]
    rcases newArc_spec I a d with h | ⟨m', r', h1, h2, h3, h4, h5⟩
    · exact .inl h
    · exact .inr ⟨m', r', h1, h2, h3, h4, fun _ => h5⟩

theorem clone_spec (I : Inv e m (r :: L)) (a : Nat) :
    cloneRaw e m a r = .ok none ∨
    ∃ m' r', cloneRaw e m a r = .ok (some (m', r')) ∧ Inv e m' (r' :: r :: L) ∧ Keep e m m' (r :: L)
      ∧ contents e m'.mem r' = contents e m.mem r
      ∧ (maxInline e.toTarget < (contents e m.mem r).length → isInlined e.toTarget r' = false) := by
  unfold cloneRaw
  rcases noalloc_spec I with h | ⟨m', h1, h2, h3⟩
  · obtain ⟨s1, s2, s3⟩ := asSlice_spec I
    simp only [h, bind, Except.bind]
    rcases copied_spec s1 a (asSlice e m r).2 with h | ⟨m', r', h1, h2, h3, h4, h5⟩
    · left; simp [h]
    · right
      rw [s3] at h4 h5
      exact ⟨m', r', by simp [h1], h2, (Keep.of_mem s2 _).trans h3, h4, h5⟩
  · right
    refine ⟨m', r, by simp [h1, bind, Except.bind], h3, Keep.of_mem h2 _, by rw [h2], ?_⟩
    intro hl
    cases hi : isInlined e.toTarget r with
    | false => rfl
    | true =>
      cases I.rep r (by simp) with
      | inl a b c =>
        have := (Rep.inl (log := m.log) a b c).len m.mem
        omega
      | out f hf hv => rw [isInlined_raw _ _ (vts_even hv)] at hi; cases hi

/-- Narrowing an out-of-line value in place, as `shrink_to` and `split_at` do. -/
theorem narrow {log : List Ev} (h : Rep e log r) (hi : isInlined e.toTarget r = false) {st ln : Nat}
    (hb : st + ln ≤ lenOf e.toTarget r) (mem : Nat → Byte) :
    let r' := setWord e.toTarget (setWord e.toTarget r 0 ((getWord e.toTarget r 0 + st) % wordMax e.toTarget)) 1 ln
    Rep e log r' ∧ (∀ o, claims e o r' = claims e o r) ∧ isInlined e.toTarget r' = false
    ∧ contents e mem r' = ((contents e mem r).drop st).take ln := by
  cases h with
  | inl _ h => rw [h] at hi; cases hi
  | out f hf hv hs hc =>
    obtain ⟨w0, w1, -⟩ := words hf
    have hlen : lenOf e.toTarget (f.raw e.toTarget) = f.len := by unfold lenOf; rw [hi, w1]; rfl
    rw [hlen] at hb
    rw [w0, setWord0_raw, setWord1_raw, Nat.mod_eq_of_lt (by omega)]
    have hf' : Fields.Ok e.toTarget { f with start := f.start + st, len := ln } :=
      ⟨by show f.start + st < _; omega, by show ln < _; omega, hf.owner, hf.cap, hf.vt⟩
    have hc' : Covered log ⟨f.vt, f.owner, f.cap⟩ (f.start + st) ln := by
      obtain ⟨a, b, h1, h2, h3⟩ := hc
      exact ⟨a, b, h1, by omega, by omega⟩
    have hi' := isInlined_raw e.toTarget { f with start := f.start + st, len := ln } (vts_even hv)
    refine ⟨.out _ hf' hv (by show f.start + st + ln < _; omega) hc', ?_, hi', ?_⟩
    · intro o; unfold claims; rw [hi', hi, own_raw hf', own_raw hf]
    · have h1 := contents_raw mem hf' hv
      have h2 := contents_raw mem hf hv
      have h3 := readMem_slice mem f.start f.len st (st + ln) hb
      rw [Nat.add_sub_cancel_left] at h3
      rw [h1, h2, h3]

theorem setWord_comm {r : Raw} (h : r.length = 5 * e.w) (a b : Nat) :
    setWord e.toTarget (setWord e.toTarget r 1 b) 0 a = setWord e.toTarget (setWord e.toTarget r 0 a) 1 b := by
  rw [← raw_fieldsOf e.toTarget r h]
  simp only [setWord0_raw, setWord1_raw]

theorem getWord0_set1 {r : Raw} (h : r.length = 5 * e.w) (b : Nat) :
    getWord e.toTarget (setWord e.toTarget r 1 b) 0 = getWord e.toTarget r 0 := by
  rw [← raw_fieldsOf e.toTarget r h, setWord1_raw]
  rw [(getWord_raw e.toTarget _).1, (getWord_raw e.toTarget _).1]

/-- `setWord` on an inlined image, beyond its contents: /repo/src/bytes.rs:241-242 reached by an inlined value. -/
theorem narrow_inl {log : List Ev} (hl : r.length = 5 * e.w) (hi : isInlined e.toTarget r = true)
    (hm : lenOf e.toTarget r ≤ maxInline e.toTarget) (a b : Nat) :
    Rep e log (setWord e.toTarget (setWord e.toTarget r 0 a) 1 b)
    ∧ isInlined e.toTarget (setWord e.toTarget (setWord e.toTarget r 0 a) 1 b) = true := by
  rw [← raw_fieldsOf e.toTarget r hl] at hi hm ⊢
  generalize fieldsOf e.toTarget r = f at hi hm ⊢
  rw [setWord0_raw, setWord1_raw]
  have hb : Verif.Bytes.lenByte e.toTarget (Fields.raw e.toTarget ⟨a, b, f.owner, f.cap, f.vt⟩)
      = Verif.Bytes.lenByte e.toTarget (f.raw e.toTarget) := by rw [lenByte_eq, lenByte_eq]
  have hI : isInlined e.toTarget (Fields.raw e.toTarget ⟨a, b, f.owner, f.cap, f.vt⟩) = true := by
    unfold isInlined at hi ⊢; rw [hb]; exact hi
  refine ⟨.inl (Verif.Bytes.Fields.raw_length _ _) hI ?_, hI⟩
  unfold lenOf at hm ⊢
  rw [hI, if_pos rfl, hb]
  rw [hi, if_pos rfl] at hm
  exact hm

/-- Replace the first value. -/
theorem Inv.replace {r' : Raw} (I : Inv e m (r :: L)) (h : Rep e m.log r') (hc : ∀ o, claims e o r' = claims e o r) :
    Inv e m (r' :: L) :=
  I.swap (by
    intro x hx
    rcases List.mem_cons.mp hx with rfl | hx
    · exact h
    · exact I.rep x (by simp [hx])) (by intro o; rw [List.countP_cons, List.countP_cons, hc])

/-- Add an inlined value. -/
theorem Inv.addInline (I : Inv e m L) {d : List Byte} (h : d.length ≤ maxInline e.toTarget) :
    Inv e m (inlineUnchecked e.toTarget d :: L) :=
  I.swap (by
    intro x hx
    rcases List.mem_cons.mp hx with rfl | hx
    · exact rep_inline h
    · exact I.rep x hx) (by intro o; rw [List.countP_cons, claims_inl (isInlined_inline _ _ h)]; simp)

theorem shrinkBetween_spec (I : Inv e m (r :: L)) (st en : Nat) :
    (shrinkBetween e m r st en = .ok .panic
      ∧ (isInlined e.toTarget r = false → ¬ (st ≤ en ∧ en ≤ lenOf e.toTarget r))) ∨
    ∃ m' r', shrinkBetween e m r st en = .ok (.ok (m', r')) ∧ Inv e m' (r' :: L) ∧ m'.mem = m.mem
      ∧ (st ≤ en → en ≤ lenOf e.toTarget r → ∀ mem, mem = m.mem →
          contents e mem r' = ((contents e m.mem r).drop st).take (en - st)) := by
  unfold shrinkBetween
  have hR := I.rep r (by simp)
  have hout : isInlined e.toTarget r = false → lenOf e.toTarget r = getWord e.toTarget r 1 := by
    intro h; unfold lenOf; rw [h]; rfl
  by_cases h1 : st ≤ en
  · by_cases h2 : en ≤ getWord e.toTarget r 1
    · simp only [h1, h2, not_true_eq_false, if_false]
      by_cases h3 : en - st ≤ maxInline e.toTarget
      · simp only [h3, if_true]
        obtain ⟨s1, s2, s3⟩ := asSlice_spec I
        by_cases h4 : en ≤ (asSlice e m r).2.length
        · right
          simp only [h4, not_true_eq_false, if_false]
          obtain ⟨m', d1, d2, d3⟩ := drop_spec s1
          have hl : (((asSlice e m r).2.drop st).take (en - st)).length ≤ maxInline e.toTarget := by
            rw [List.length_take]; omega
          refine ⟨m', _, by simp only [d1, bind, Except.bind], d3.addInline hl, d2.trans s2, ?_⟩
          intro _ _ mem _
          rw [contents_inline mem hl, s3]
        · left
          simp only [h4, not_false_eq_true, if_true, true_and]
          intro _ hv
          rw [s3, hR.len] at h4
          exact h4 hv
      · right
        simp only [h3, if_false]
        cases hi : isInlined e.toTarget r with
        | false =>
          have hn := fun mem => narrow hR hi (st := st) (ln := en - st) (by rw [hout hi]; omega) mem
          refine ⟨m, _, rfl, I.replace (hn m.mem).1 (hn m.mem).2.1, rfl, ?_⟩
          intro _ _ mem hmem
          subst hmem; exact (hn _).2.2.2
        | true =>
          cases hR with
          | out f hf hv => rw [isInlined_raw _ _ (vts_even hv)] at hi; cases hi
          | inl hl _ hm =>
            obtain ⟨n1, n2⟩ := narrow_inl (log := m.log) hl hi hm ((getWord e.toTarget r 0 + st) % wordMax e.toTarget) (en - st)
            refine ⟨m, _, rfl, I.replace n1 (fun o => by rw [claims_inl n2, claims_inl hi]), rfl, ?_⟩
            intro _ h5; omega
    · left
      simp only [h1, h2, not_true_eq_false, not_false_eq_true, if_true, if_false, true_and]
      intro hi hv
      rw [hout hi] at hv; exact h2 hv
  · left
    simp only [h1, not_false_eq_true, if_true, true_and]
    intro _ hv; exact hv.1

theorem shrink_spec (I : Inv e m (r :: L)) (lo hi : Bound) :
    shrinkTo e m r lo hi = .ok .panic ∨
    ∃ m' r', shrinkTo e m r lo hi = .ok (.ok (m', r')) ∧ Inv e m' (r' :: L) ∧ m'.mem = m.mem
      ∧ (∀ st en, startOf e.toTarget lo = some st → endOf e.toTarget r hi = some en →
          st ≤ en → en ≤ lenOf e.toTarget r →
          contents e m'.mem r' = ((contents e m.mem r).drop st).take (en - st)) := by
  unfold shrinkTo
  cases h1 : startOf e.toTarget lo with
  | none => left; simp
  | some st =>
    cases h2 : endOf e.toTarget r hi with
    | none => left; simp
    | some en =>
      rcases shrinkBetween_spec I st en with ⟨h, _⟩ | ⟨m', r', a, b, c, d⟩
      · left; exact h
      · right
        refine ⟨m', r', a, b, c, ?_⟩
        rintro _ _ ⟨⟩ ⟨⟩ h3 h4
        exact d h3 h4 _ c

theorem subsliced_spec (I : Inv e m (r :: L)) (lo hi : Bound) :
    (∃ m', subsliced e m r lo hi = .ok (m', none) ∧ Inv e m' L ∧ m'.mem = m.mem) ∨
    ∃ m' r', subsliced e m r lo hi = .ok (m', some r') ∧ Inv e m' (r' :: L) ∧ m'.mem = m.mem
      ∧ (∀ st en, startOf e.toTarget lo = some st → endOf e.toTarget r hi = some en →
          st ≤ en → en ≤ lenOf e.toTarget r →
          contents e m'.mem r' = ((contents e m.mem r).drop st).take (en - st)) := by
  unfold subsliced
  rcases shrink_spec I lo hi with h | ⟨m', r', a, b⟩
  · left
    obtain ⟨m', d1, d2, d3⟩ := drop_spec I
    exact ⟨m', by simp [h, d1, bind, Except.bind], d3, d2⟩
  · right
    exact ⟨m', r', by simp [a, bind, Except.bind], b⟩

theorem splitClones_spec (I : Inv e m (r :: L)) (a b k : Nat) (hk : k ≤ lenOf e.toTarget r)
    (hl : maxInline e.toTarget < lenOf e.toTarget r) :
    (∃ m', splitClones e m a b r k = .ok (m', .oom)) ∨
    ∃ m' l r', splitClones e m a b r k = .ok (m', .ok l r') ∧ Inv e m' (l :: r' :: L) ∧ Keep e m m' L
      ∧ contents e m'.mem l = (contents e m.mem r).take k ∧ contents e m'.mem r' = (contents e m.mem r).drop k := by
  unfold splitClones
  have hR := I.rep r (by simp)
  have hlen := hR.len m.mem
  rcases clone_spec I a with h | ⟨m1, l, c1, I1, k1, v1, o1⟩
  · left; exact ⟨m, by simp [h, bind, Except.bind]⟩
  · have o1 := o1 (by omega)
    rcases clone_spec I1 b with h | ⟨m2, q, c2, I2, k2, v2, o2⟩
    · left; exact ⟨m, by simp [c1, h, bind, Except.bind]⟩
    · right
      have o2 := o2 (by rw [v1]; omega)
      have hl' := I2.rep l (by simp)
      have hq := I2.rep q (by simp)
      have cl : contents e m2.mem l = contents e m.mem r := by rw [k2 l (by simp), v1]
      have cq : contents e m2.mem q = contents e m.mem r := by rw [v2, v1]
      have ll := hl'.len m2.mem; rw [cl, hlen] at ll
      have lq := hq.len m2.mem; rw [cq, hlen] at lq
      have gq : getWord e.toTarget q 1 = lenOf e.toTarget q := by unfold lenOf; rw [o2]; rfl
      obtain ⟨n1, n2, -, n4⟩ := narrow hl' o1 (st := 0) (ln := k) (by omega) m2.mem
      obtain ⟨p1, p2, -, p4⟩ := narrow hq o2 (st := k) (ln := lenOf e.toTarget q - k) (by omega) m2.mem
      have hzero : setWord e.toTarget l 0 ((getWord e.toTarget l 0 + 0) % wordMax e.toTarget) = l := by
        have := raw_fieldsOf e.toTarget l hl'.len_eq
        have h0 : getWord e.toTarget l 0 < wordMax e.toTarget := Verif.Bytes.getWord_lt _ _ hl'.len_eq 0 (by omega)
        rw [Nat.add_zero, Nat.mod_eq_of_lt h0]
        conv => lhs; rw [← this]
        rw [setWord0_raw]
        have : (fieldsOf e.toTarget l).start = getWord e.toTarget (Fields.raw e.toTarget (fieldsOf e.toTarget l)) 0 := by
          rw [this]; rfl
        rw [← this]; exact raw_fieldsOf e.toTarget l hl'.len_eq
      rw [hzero] at n1 n2 n4
      have hq2 : setWord e.toTarget (setWord e.toTarget q 1 (getWord e.toTarget q 1 - k)) 0
          ((getWord e.toTarget (setWord e.toTarget q 1 (getWord e.toTarget q 1 - k)) 0 + k) % wordMax e.toTarget)
          = setWord e.toTarget (setWord e.toTarget q 0 ((getWord e.toTarget q 0 + k) % wordMax e.toTarget)) 1
              (lenOf e.toTarget q - k) := by
        rw [getWord0_set1 hq.len_eq, setWord_comm hq.len_eq, gq]
      -- I2 : q :: l :: r :: L
      have I3 := (I2.replace p1 p2).perm (List.Perm.swap _ _ _)
      have I4 := (I3.replace n1 n2)
      have I5 := I4.perm (L' := r :: setWord e.toTarget l 1 k :: _ :: L) (by
        refine (List.Perm.cons _ (List.Perm.swap _ _ _)).trans (List.Perm.swap _ _ _))
      obtain ⟨m3, d1, d2, d3⟩ := drop_spec I5
      refine ⟨m3, _, _, by simp only [c1, c2, d1, hq2, bind, Except.bind], d3, ?_, ?_, ?_⟩
      · intro x hx
        rw [d2, k2 x (by simp [hx]), k1 x (by simp [hx])]
      · rw [d2, n4, cl]; simp
      · rw [d2, p4, cq, ← lq, ← hlen]
        rw [List.take_of_length_le (by simp)]

theorem splitAt_spec (I : Inv e m (r :: L)) (a b k : Nat) :
    (∃ m', splitAt e m a b r k = .ok (m', .oom)) ∨
    (∃ m', splitAt e m a b r k = .ok (m', .panic) ∧ Inv e m' L ∧ Keep e m m' L) ∨
    (splitAt e m a b r k = .ok (m, .err) ∧ lenOf e.toTarget r < k) ∨
    ∃ m' l r', splitAt e m a b r k = .ok (m', .ok l r') ∧ Inv e m' (l :: r' :: L) ∧ Keep e m m' L
      ∧ k ≤ lenOf e.toTarget r
      ∧ contents e m'.mem l = (contents e m.mem r).take k ∧ contents e m'.mem r' = (contents e m.mem r).drop k := by
  unfold splitAt
  have hR := I.rep r (by simp)
  have hlen := hR.len m.mem
  by_cases h1 : k ≤ lenOf e.toTarget r
  · simp only [h1, if_true]
    obtain ⟨s1, s2, s3⟩ := asSlice_spec I
    by_cases h2 : k ≤ maxInline e.toTarget
    · simp only [h2, if_true]
      rcases subsliced_spec s1 (.incl k) .unb with ⟨m', p1, p2, p3⟩ | ⟨m', r', p1, p2, p3, p4⟩
      · right; left
        exact ⟨m', by simp only [p1, bind, Except.bind], p2, Keep.of_mem (p3.trans s2) _⟩
      · right; right; right
        have hl : ((asSlice e m r).2.take k).length ≤ maxInline e.toTarget := by rw [List.length_take]; omega
        refine ⟨m', _, r', by simp only [p1, bind, Except.bind], p2.addInline hl, Keep.of_mem (p3.trans s2) _, trivial, ?_, ?_⟩
        · rw [contents_inline _ hl, s3]
        · rw [p4 k (lenOf e.toTarget r) rfl rfl h1 (Nat.le_refl _), s2]
          rw [List.take_of_length_le (by simp [hlen])]
    · simp only [h2, if_false]
      by_cases h3 : lenOf e.toTarget r - k ≤ maxInline e.toTarget
      · simp only [h3, if_true]
        rcases subsliced_spec s1 .unb (.excl k) with ⟨m', p1, p2, p3⟩ | ⟨m', l, p1, p2, p3, p4⟩
        · right; left
          exact ⟨m', by simp only [p1, bind, Except.bind], p2, Keep.of_mem (p3.trans s2) _⟩
        · right; right; right
          have hl : ((asSlice e m r).2.drop k).length ≤ maxInline e.toTarget := by rw [List.length_drop, s3, hlen]; omega
          refine ⟨m', l, _, by simp only [p1, bind, Except.bind], (p2.addInline hl).perm (List.Perm.swap _ _ _),
            Keep.of_mem (p3.trans s2) _, trivial, ?_, ?_⟩
          · rw [p4 0 k rfl rfl (by omega) h1, s2]; simp
          · rw [contents_inline _ hl, s3]
      · simp only [h3, if_false]
        rcases splitClones_spec I a b k h1 (by omega) with h | ⟨m', l, r', p1, p2, p3, p4, p5⟩
        · left; exact h
        · right; right; right; exact ⟨m', l, r', p1, p2, p3, trivial, p4, p5⟩
  · right; right; left
    simp only [h1, if_false, true_and]; omega

theorem upgrade_spec (I : Inv e m (r :: L)) (a : Nat) :
    upgrade e m a r = .ok none ∨
    ∃ m' r', upgrade e m a r = .ok (some (m', r')) ∧ Inv e m' (r' :: L) ∧ Keep e m m' L
      ∧ contents e m'.mem r' = contents e m.mem r ∧ (isInlined e.toTarget r' = true ∨ e.rel (ownOf e r') = true) := by
  unfold upgrade
  rcases vtable_spec (I.rep r (by simp)) with ⟨hi, hv⟩ | ⟨hi, hk, h1, hv⟩
  · right; exact ⟨m, r, by simp [hv, bind, Except.bind], I, Keep.of_mem rfl _, rfl, .inl hi⟩
  · simp only [hv, bind, Except.bind]
    cases hr : hk.release with
    | true => right; exact ⟨m, r, by simp, I, Keep.of_mem rfl _, rfl, .inr (by unfold Env.rel; rw [h1]; exact hr)⟩
    | false =>
      simp only [Bool.false_eq_true, if_false]
      obtain ⟨s1, s2, s3⟩ := asSlice_spec I
      rcases copied_spec s1 a (asSlice e m r).2 with h | ⟨m', r', c1, c2, c3, c4, c5⟩
      · left; simp [h]
      · right
        obtain ⟨m3, d1, d2, d3⟩ := drop_spec (c2.perm (List.Perm.swap _ _ _))
        refine ⟨m3, r', by simp only [c1, d1], d3, ?_, by rw [d2, c4, s3], ?_⟩
        · intro x hx; rw [d2, c3 x (by simp [hx]), s2]
        · unfold copiedFromSlice at c1
          split at c1
          · cases c1; left; exact isInlined_inline _ _ (by assumption)
          · right
            unfold newArc at c1
            split at c1
            · rename_i hc
              cases c1
              have hf : Fields.Ok e.toTarget ⟨a, (asSlice e m r).2.length, a, (asSlice e m r).2.length, e.arcVt⟩ :=
                ⟨by show a < _; omega, by show List.length _ < _; omega, by show a < _; omega,
                 by show List.length _ < _; omega, e.vt_lt _ _ e.arc_vt⟩
              dsimp only
              rw [own_raw hf]
              unfold Env.rel; simp [e.arc_vt]
            · cases c1

end Verif.BytesVt
