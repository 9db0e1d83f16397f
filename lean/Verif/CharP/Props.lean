import Verif.CharP.SharedInv

/-!
# Properties of C strings: C14 - C19

`utf8 cs` is the UTF-8 encoding of the text `cs` (Spec.lean); `'\x00'` is the NUL character.
-/
namespace Verif.CharP

instance {ε α : Type} [DecidableEq ε] [DecidableEq α] : DecidableEq (Except ε α)
  | .ok a, .ok b => if h : a = b then isTrue (by rw [h]) else isFalse (by intro e; cases e; exact h rfl)
  | .error a, .error b => if h : a = b then isTrue (by rw [h]) else isFalse (by intro e; cases e; exact h rfl)
  | .ok _, .error _ => isFalse (by intro e; cases e)
  | .error _, .ok _ => isFalse (by intro e; cases e)

/-- All the reading functions of the C string at memory `m` give the text `t`, staying in bounds. -/
def Reads (m : Bytes) (t : List Char) : Prop :=
  bytesOf m = .ok (utf8 t) ∧ toBytes m = .ok (utf8 t) ∧ toStr m = .ok (utf8 t) ∧
  toBytesWithNull m = .ok (utf8 t ++ [0]) ∧ toStrWithNull m = .ok (utf8 t ++ [0])

theorem reads_app {t : List Char} (h : '\x00' ∉ t) (rest : Bytes) : Reads (utf8 t ++ 0 :: rest) t := by
  have h0 : 0 ∉ utf8 t := fun e => h ((zero_mem_utf8 t).1 e)
  exact ⟨bytesOf_app h0, toBytes_app h0, toStr_app h0 (valid_utf8 t), toBytesWithNull_app h0,
    toStrWithNull_app h0 (valid_utf8 t)⟩

/-! ## C14 -/

/-- C14: the empty string is accepted and reads as the empty text. -/
theorem C14_empty (rest : Bytes) : ∃ m, refTryFrom (utf8 []) rest = .ok m ∧ Reads m [] :=
  ⟨[0], rfl, reads_app (t := []) (by simp) []⟩

/-- C14: a string whose only NUL is its last character is accepted and reads as what precedes it,
whatever comes after the string in memory. -/
theorem C14_terminated (t : List Char) (h : '\x00' ∉ t) (rest : Bytes) :
    ∃ m, refTryFrom (utf8 (t ++ ['\x00'])) rest = .ok m ∧ Reads m t := by
  have h0 : 0 ∉ utf8 t := fun e => h ((zero_mem_utf8 t).1 e)
  refine ⟨utf8 t ++ 0 :: rest, ?_, reads_app h rest⟩
  rw [utf8_nul]
  have hl : (utf8 t ++ [0]).length = (utf8 t).length + 1 := by simp
  have hp : position (utf8 t ++ [0]) = some (utf8 t).length := by
    rw [position_last hl]; simpa using h0
  simp [refTryFrom, checkedSub1, hp]

/-- C14: every other string is rejected. -/
theorem C14_rejected (cs : List Char) (rest : Bytes) (h1 : cs ≠ [])
    (h2 : ¬ ∃ t, '\x00' ∉ t ∧ cs = t ++ ['\x00']) : refTryFrom (utf8 cs) rest = .error () := by
  cases hl : (utf8 cs).length with
  | zero => exact absurd (utf8_eq_nil.1 (List.length_eq_zero_iff.1 hl)) h1
  | succ n =>
    simp only [refTryFrom, hl, checkedSub1]
    rw [if_pos]
    intro hp
    obtain ⟨e1, e2⟩ := (position_last hl).1 hp
    have e3 := utf8_getLast (getLast?_eq_some_iff'.2 e1)
    refine h2 ⟨cs.dropLast, ?_, e3⟩
    rw [e3, utf8_nul] at e2
    simp only [List.dropLast_concat] at e2
    exact fun hm => e2 ((zero_mem_utf8 _).2 hm)

/-- C14, conversions from `&CStr`: accepted exactly when the bytes are UTF-8 text, which is then read
back; a panic otherwise. -/
theorem C14_from_cstr (c rest : Bytes) (h0 : 0 ∉ c) :
    (∀ t, c = utf8 t → ∃ m, refFromCStr c rest = .ok m ∧ Reads m t) ∧
    ((¬ ∃ t, c = utf8 t) → refFromCStr c rest = .panic) := by
  constructor
  · rintro t rfl
    refine ⟨_, by simp [refFromCStr, valid_utf8], reads_app (fun e => h0 ((zero_mem_utf8 t).2 e)) rest⟩
  · intro h
    have : validUtf8 c = false := by
      rw [← Bool.not_eq_true, validUtf8_iff]; exact h
    simp [refFromCStr, this]

-- "hé" followed by NUL, then other memory
example : ∃ m, refTryFrom (utf8 ['h', 'é', '\x00']) [1, 2] = .ok m ∧ Reads m ['h', 'é'] :=
  C14_terminated ['h', 'é'] (by decide) [1, 2]
example : refTryFrom (utf8 ['h', '\x00', 'i', '\x00']) [] = .error () :=
  C14_rejected _ _ (by decide) (by
    rintro ⟨t, h, e⟩
    have : t = ['h', '\x00', 'i'] := by
      have := congrArg List.dropLast e; simpa using this.symm
    subst this; simp at h)

/-! ## Reachable states of programs using owned C strings -/

/-- States reached by some program. -/
def Reach (s : State) : Prop := ∃ ops outs, run .init ops = .ok (s, outs)

theorem run_append (s : State) (a b : List Op) : run s (a ++ b) = (do
    let (s1, x) ← run s a
    let (s2, y) ← run s1 b
    .ok (s2, x ++ y)) := by
  induction a generalizing s with
  | nil =>
    simp only [List.nil_append, run, bind, Except.bind]
    cases run s b <;> simp
  | cons o os ih =>
    simp only [List.cons_append, run, bind, Except.bind]
    cases step s o with
    | error e => rfl
    | ok p =>
      simp only [ih, bind, Except.bind]
      cases run p.1 os with
      | error e => rfl
      | ok q => simp only; cases run q.1 b <;> simp

theorem Reach.rel {s : State} (h : Reach s) : ∃ a, Rel s a := by
  obtain ⟨ops, outs, e⟩ := h
  obtain ⟨s', e', R⟩ := run_ok Rel.init ops
  rw [e] at e'; cases e'
  exact ⟨_, R⟩

/-! ## C15 -/

/-- C15: conversion of a `String` variable holding the bytes `c`. It fails exactly when some byte other than
the last is NUL, changing nothing (the string is handed back); otherwise the C string holds `c`
without its trailing NUL, if any, then one NUL. -/
theorem C15_try_from_string (s : State) (hs : Reach s) (v : Nat) (c : Bytes)
    (hv : step s (.readBuf v) = .ok (s, .data c)) :
    (0 ∈ c.dropLast → step s (.tryFrom v) = .ok (s, .err)) ∧
    (0 ∉ c.dropLast → ∃ s' i, step s (.tryFrom v) = .ok (s', .box i) ∧
      step s' (.readNul i) = .ok (s', .data (strip c ++ [0]))) := by
  obtain ⟨a, R⟩ := hs.rel
  have hc : (a.bufs[v]?).join = some c := by
    obtain ⟨s', e, _⟩ := step_ok R (.readBuf v)
    rw [hv] at e
    simp only [Abs.step] at e
    split at e <;> cases e
    assumption
  constructor
  · intro hz
    cases hj : (s.bufs[v]?).join with
    | none => rw [none_buf R hj] at hc; cases hc
    | some b =>
      obtain ⟨c', hc', hb⟩ := get_buf R hj
      rw [hc] at hc'; cases hc'
      simp only [step, hj, tryFrom_err hb hz, bind, Except.bind, set_self hj]
  · intro hz
    obtain ⟨s', e, R'⟩ := step_ok R (.tryFrom v)
    simp only [Abs.step, hc, if_neg hz] at e R'
    refine ⟨s', _, e, ?_⟩
    obtain ⟨s'', e2, _⟩ := step_ok R' (.readNul a.boxes.length)
    have hl : (a.boxes ++ [some (strip c)])[a.boxes.length]?.join = some (strip c) := by simp
    simp only [Abs.step, hl] at e2
    rw [e2]
    have : s'' = s' := by
      simp only [step] at e2
      split at e2
      · cases e2
      · simp only [bind, Except.bind] at e2
        repeat' split at e2
        all_goals first | (cases e2; done) | (cases e2; rfl)
    rw [this]

/-- C15 for `char_p::new`: panics exactly in the failing case. -/
theorem C15_new (s : State) (hs : Reach s) (v : Nat) (c : Bytes)
    (hv : step s (.readBuf v) = .ok (s, .data c)) :
    (0 ∈ c.dropLast → ∃ s', step s (.new v) = .ok (s', .panic)) ∧
    (0 ∉ c.dropLast → ∃ s' i, step s (.new v) = .ok (s', .box i) ∧
      step s' (.readNul i) = .ok (s', .data (strip c ++ [0]))) := by
  obtain ⟨a, R⟩ := hs.rel
  have hc : (a.bufs[v]?).join = some c := by
    obtain ⟨s', e, _⟩ := step_ok R (.readBuf v)
    rw [hv] at e
    simp only [Abs.step] at e
    split at e <;> cases e
    assumption
  obtain ⟨s', e, R'⟩ := step_ok R (.new v)
  constructor
  · intro hz
    simp only [Abs.step, hc, if_pos hz] at e
    exact ⟨s', e⟩
  · intro hz
    simp only [Abs.step, hc, if_neg hz] at e R'
    refine ⟨s', _, e, ?_⟩
    obtain ⟨s'', e2, _⟩ := step_ok R' (.readNul a.boxes.length)
    have hl : (a.boxes ++ [some (strip c)])[a.boxes.length]?.join = some (strip c) := by simp
    simp only [Abs.step, hl] at e2
    rw [e2]
    have : s'' = s' := by
      simp only [step] at e2
      split at e2
      · cases e2
      · simp only [bind, Except.bind] at e2
        repeat' split at e2
        all_goals first | (cases e2; done) | (cases e2; rfl)
    rw [this]

-- a String with spare capacity, converted, with and without trailing or inner NUL
example : (run .init [.newString ['h', 'i'] [7, 7, 7], .tryFrom 0, .readNul 0]).map (·.2)
    = .ok [.buf 0, .box 0, .data [104, 105, 0]] := by decide +kernel
example : (run .init [.newString ['h', 'i', '\x00'] [], .tryFrom 0, .readNul 0]).map (·.2)
    = .ok [.buf 0, .box 0, .data [104, 105, 0]] := by decide +kernel
example : (run .init [.newString ['h', '\x00', 'i'] [], .tryFrom 0, .readBuf 0]).map (·.2)
    = .ok [.buf 0, .err, .data [104, 0, 105]] := by decide +kernel

/-! ## C16, C17 -/

/-- C16/C17: whatever a program does with C strings, it observes what it would observe if they were plain
values, without undefined behaviour. -/
theorem C16_values (ops : List Op) :
    ∃ s, run .init ops = .ok (s, (Abs.init.run ops).2) := by
  obtain ⟨s, e, _⟩ := run_ok Rel.init ops
  exact ⟨s, e⟩

/-- C16: from any reachable state, a NUL-free text goes to a C string and back unchanged, whatever the spare
capacity of the string. -/
theorem C16_round_trip (s : State) (hs : Reach s) (cs : List Char) (spare : Bytes) (h : '\x00' ∉ cs) :
    ∃ s', run s [.newString cs spare, .tryFrom s.bufs.length, .intoVec s.boxes.length,
        .readBuf (s.bufs.length + 1)] =
      .ok (s', [.buf s.bufs.length, .box s.boxes.length, .buf (s.bufs.length + 1), .data (utf8 cs)]) := by
  obtain ⟨a, R⟩ := hs.rel
  obtain ⟨s', e, _⟩ := run_ok R [.newString cs spare, .tryFrom s.bufs.length, .intoVec s.boxes.length,
        .readBuf (s.bufs.length + 1)]
  have h0 : 0 ∉ utf8 cs := fun e => h ((zero_mem_utf8 cs).1 e)
  have hz : 0 ∉ (utf8 cs).dropLast := fun e => h0 (List.dropLast_subset _ e)
  have hst : strip (utf8 cs) = utf8 cs := by
    unfold strip; rw [if_neg]; exact fun hl => h0 (List.mem_of_getLast? hl)
  refine ⟨s', ?_⟩
  rw [e, R.lbox, R.lbuf]
  simp [Abs.run, Abs.step, if_neg hz, hst]

/-- C16: a clone (or `to_owned`) is equal to the original and reads the same. -/
theorem C16_clone (s : State) (hs : Reach s) (i : Nat) (d : Bytes)
    (hi : step s (.read i) = .ok (s, .data d)) :
    ∃ s', run s [.clone i, .read s.boxes.length, .eq i s.boxes.length] =
      .ok (s', [.box s.boxes.length, .data d, .bool true]) := by
  obtain ⟨a, R⟩ := hs.rel
  have hd : (a.boxes[i]?).join = some d := by
    obtain ⟨s', e, _⟩ := step_ok R (.read i)
    rw [hi] at e
    simp only [Abs.step] at e
    split at e <;> cases e
    assumption
  obtain ⟨s', e, _⟩ := run_ok R [.clone i, .read s.boxes.length, .eq i s.boxes.length]
  refine ⟨s', ?_⟩
  rw [e, R.lbox]
  have hne : i ≠ a.boxes.length := by
    intro e; rw [e] at hd; simp at hd
  simp [Abs.run, Abs.step, hd, join_push, hne]

/-- C16: equality of C strings is equality of their text. -/
theorem C16_eq (s : State) (hs : Reach s) (i j : Nat) (d d' : Bytes)
    (hi : step s (.read i) = .ok (s, .data d)) (hj : step s (.read j) = .ok (s, .data d')) :
    step s (.eq i j) = .ok (s, .bool (decide (d = d'))) := by
  obtain ⟨a, R⟩ := hs.rel
  have key : ∀ i d, step s (.read i) = .ok (s, .data d) →
      ∃ p, (s.boxes[i]?).join = some p ∧ ValIs s.heap (.p p) d := by
    intro i d hi
    cases hv : (s.boxes[i]?).join with
    | none => simp [step, hv] at hi
    | some p =>
      obtain ⟨d', hd, hp⟩ := get_box R hv
      simp only [step, hv, mem_ok hp, toBytes_app hp.noNul, bind, Except.bind] at hi
      cases hi
      exact ⟨p, rfl, hp⟩
  obtain ⟨p, h1, hp⟩ := key i d hi
  obtain ⟨q, h2, hq⟩ := key j d' hj
  simp only [step, h1, h2, mem_ok hp, mem_ok hq, refEq, toStr_app hp.noNul hp.valid,
    toStr_app hq.noNul hq.valid, bind, Except.bind]
  rw [show (d == d') = decide (d = d') by by_cases e : d = d' <;> simp [e]]

/-- C17: no history of conversions, clones and drops reads or frees wrongly: no out-of-bounds
read, use after free, double free, free with a wrong size or free of the static sentinel. -/
theorem C17_memory_safe (ops : List Op) : ∃ s outs, run .init ops = .ok (s, outs) := by
  obtain ⟨s, e, _⟩ := run_ok Rel.init ops
  exact ⟨s, _, e⟩

/-- The block (if any) owned by a variable. -/
def boxBlk (s : State) (i : Nat) : Option Nat :=
  match (s.boxes[i]?).join with
  | some (.blk k) => some k
  | _ => none
def bufBlk (s : State) (v : Nat) : Option Nat := (s.bufs[v]?).join.bind (·.blk)

/-- C17: a block is live exactly when some variable owns it, and no two variables own the same block. So each
allocation is freed when its owner is dropped: not before, not twice, and always. -/
theorem C17_ownership (s : State) (hs : Reach s) :
    (∀ k, (∃ b, s.heap[k]? = some b ∧ b.live = true) ↔ (∃ i, boxBlk s i = some k) ∨ (∃ v, bufBlk s v = some k)) ∧
    (∀ i j k, boxBlk s i = some k → boxBlk s j = some k → i = j) ∧
    (∀ i j k, bufBlk s i = some k → bufBlk s j = some k → i = j) ∧
    (∀ i j k, boxBlk s i = some k → bufBlk s j ≠ some k) := by
  obtain ⟨a, R⟩ := hs.rel
  have hbox : ∀ i k, boxBlk s i = some k → ∃ v, s.tbl (.box i) = some v ∧ v.blk = some k := by
    intro i k h
    simp only [boxBlk] at h
    split at h
    · rename_i e
      cases h
      exact ⟨.p (.blk k), by simp [State.tbl, e], rfl⟩
    · cases h
  have hbuf : ∀ i k, bufBlk s i = some k → ∃ v, s.tbl (.buf i) = some v ∧ v.blk = some k := by
    intro i k h
    simp only [bufBlk, Option.bind_eq_some_iff] at h
    obtain ⟨b, e, h⟩ := h
    exact ⟨.b b, by simp [State.tbl, e], h⟩
  refine ⟨fun k => ⟨?_, ?_⟩, ?_, ?_, ?_⟩
  · rintro ⟨b, h1, h2⟩
    obtain ⟨o, v, e1, e2⟩ := R.inv.owned k b h1 h2
    cases o with
    | box i =>
      left; refine ⟨i, ?_⟩
      simp only [State.tbl, Option.map_eq_some_iff] at e1
      obtain ⟨p, e1, rfl⟩ := e1
      cases p with
      | sentinel => cases e2
      | blk j => cases e2; simp [boxBlk, e1]
    | buf i =>
      right; refine ⟨i, ?_⟩
      simp only [State.tbl, Option.map_eq_some_iff] at e1
      obtain ⟨p, e1, rfl⟩ := e1
      simp only [bufBlk, e1, Option.bind_some]; exact e2
  · rintro (⟨i, h⟩ | ⟨i, h⟩)
    · obtain ⟨v, e1, e2⟩ := hbox i k h
      obtain ⟨d, _, h3⟩ := R.inv.rep _ _ e1
      exact (h3.lt e2).2
    · obtain ⟨v, e1, e2⟩ := hbuf i k h
      obtain ⟨d, _, h3⟩ := R.inv.rep _ _ e1
      exact (h3.lt e2).2
  · intro i j k h1 h2
    obtain ⟨v, e1, e2⟩ := hbox i k h1
    obtain ⟨w, f1, f2⟩ := hbox j k h2
    have := R.inv.uniq _ _ _ _ _ e1 f1 e2 f2
    cases this; rfl
  · intro i j k h1 h2
    obtain ⟨v, e1, e2⟩ := hbuf i k h1
    obtain ⟨w, f1, f2⟩ := hbuf j k h2
    have := R.inv.uniq _ _ _ _ _ e1 f1 e2 f2
    cases this; rfl
  · intro i j k h1 h2
    obtain ⟨v, e1, e2⟩ := hbox i k h1
    obtain ⟨w, f1, f2⟩ := hbuf j k h2
    have := R.inv.uniq _ _ _ _ _ e1 f1 e2 f2
    cases this

/-- C17: once all variables are gone, everything has been freed. -/
theorem C17_leak_free (s : State) (hs : Reach s) (h1 : ∀ i : Nat, (s.boxes[i]?).join = none)
    (h2 : ∀ v : Nat, (s.bufs[v]?).join = none) (k : Nat) (b : Block) (hb : s.heap[k]? = some b) : b.live = false := by
  cases hl : b.live with
  | false => rfl
  | true =>
    rcases ((C17_ownership s hs).1 k).1 ⟨b, hb, hl⟩ with ⟨i, h⟩ | ⟨i, h⟩
    · simp [boxBlk, h1] at h
    · simp [bufBlk, h2] at h

/-- C17: converting into a `Vec`/`String` frees and allocates nothing: the heap is untouched and the vector owns
the block of the string, its capacity being the size of that block. -/
theorem C17_into_vec (s : State) (hs : Reach s) (i : Nat) (s' : State) (o : Out)
    (h : step s (.intoVec i) = .ok (s', o)) (hv : (s.boxes[i]?).join.isSome) :
    s'.heap = s.heap ∧ bufBlk s' s.bufs.length = boxBlk s i ∧
    (∀ v k b, (s'.bufs[s.bufs.length]?).join = some v → v.blk = some k → s'.heap[k]? = some b →
      v.cap = b.data.length) := by
  obtain ⟨a, R⟩ := hs.rel
  cases hp : (s.boxes[i]?).join with
  | none => simp [hp] at hv
  | some p =>
    obtain ⟨d, hd, hpd⟩ := get_box R hp
    obtain ⟨v, e, g1, g2⟩ := intoVec_ok hpd
    simp only [step, hp, e, bind, Except.bind] at h
    cases h
    refine ⟨rfl, ?_, ?_⟩
    · simp only [bufBlk, boxBlk, hp]
      simp [g2]
      cases p <;> rfl
    · intro v' k b h1 h2 h3
      simp at h1; subst h1
      match v, g1, h2 with
      | ⟨some k', len, cap⟩, ⟨sp, f1, f2, f3, _⟩, h2 =>
        cases h2
        rw [h3] at f1; cases f1
        exact f3.symm

-- a history with clones, conversions both ways, the empty string, an error and a panic
example : (run .init [.newString ['a', 'b'] [1], .tryFrom 0, .clone 0, .drop 0, .intoVec 1, .readBuf 1, .dropBuf 1,
    .newString [] [], .tryFrom 2, .clone 2, .drop 2, .readNul 3, .intoVec 3, .fromCString [255], .fromCString [65],
    .read 4, .drop 4, .newString ['x', '\x00', 'y'] [], .tryFrom 4, .new 4, .dropBuf 3]).map (fun r =>
      (r.2, r.1.heap.map (·.live)))
    = .ok ([.buf 0, .box 0, .box 1, .unit, .buf 1, .data [97, 98], .unit, .buf 2, .box 2, .box 3, .unit, .data [0],
      .buf 3, .panic, .box 4, .data [65], .unit, .buf 4, .err, .panic, .unit],
      [false, false, false, false, false, false]) := by decide +kernel

/-! ## C18 -/

/-- C18: `c!()` is the empty C string. -/
theorem C18_empty : cStr none = some (.ok [0]) ∧ Reads [0] [] := ⟨rfl, reads_app (t := []) (by simp) []⟩

/-- C18: a literal without NUL, or with a single NUL at the end, is accepted, and the static memory is exactly the
text and one NUL. -/
theorem C18_accepted (t : List Char) (h : '\x00' ∉ t) :
    cStr (some (utf8 t)) = some (.ok (utf8 t ++ [0])) ∧
    cStr (some (utf8 (t ++ ['\x00']))) = some (.ok (utf8 t ++ [0])) ∧ Reads (utf8 t ++ [0]) t := by
  have h0 : 0 ∉ utf8 t := fun e => h ((zero_mem_utf8 t).1 e)
  refine ⟨?_, ?_, reads_app h []⟩
  · simp [cStr, position_none.2 h0]
  · rw [utf8_nul]
    have hl : (utf8 t ++ [0]).length = (utf8 t).length + 1 := by simp
    have hp : position (utf8 t ++ [0]) = some (utf8 t).length := by
      rw [position_last hl]; simpa using h0
    simp [cStr, checkedSub1, hp]

/-- C18: every other literal is a compile error naming the position of the first NUL byte; the macro never
panics. -/
theorem C18_rejected (cs : List Char) (h1 : '\x00' ∈ cs) (h2 : ¬ ∃ t, '\x00' ∉ t ∧ cs = t ++ ['\x00']) :
    ∃ n t u, cStr (some (utf8 cs)) = some (.error n) ∧ utf8 cs = t ++ 0 :: u ∧ 0 ∉ t ∧ t.length = n := by
  have hz := (zero_mem_utf8 cs).2 h1
  cases hp : position (utf8 cs) with
  | none => exact absurd hz (position_none.1 hp)
  | some n =>
    obtain ⟨d, rest, e, hd, hn⟩ := position_some.1 hp
    refine ⟨n, d, rest, ?_, e, hd, hn⟩
    cases hl : (utf8 cs).length with
    | zero => rw [List.length_eq_zero_iff.1 hl] at hz; simp at hz
    | succ l =>
      simp only [cStr, hp, hl, checkedSub1]
      rw [if_neg]
      rintro rfl
      obtain ⟨e1, e2⟩ := (position_last hl).1 hp
      have e3 := utf8_getLast (getLast?_eq_some_iff'.2 e1)
      refine h2 ⟨cs.dropLast, ?_, e3⟩
      rw [e3, utf8_nul] at e2
      simp only [List.dropLast_concat] at e2
      exact fun hm => e2 ((zero_mem_utf8 _).2 hm)

example : cStr (some (utf8 ['é', '!'])) = some (.ok [195, 169, 33, 0]) := by decide +kernel
example : cStr (some (utf8 ['a', '\x00', 'b'])) = some (.error 1) := by decide +kernel

/-! ## C19 -/
namespace Shared

/-- States reached by some program using shared C strings. -/
def Reach (s : State) : Prop := ∃ ops outs, run .init ops = .ok (s, outs)

theorem Reach.rel {s : State} (h : Reach s) : ∃ a, Rel s a := by
  obtain ⟨ops, outs, e⟩ := h
  obtain ⟨s', e', R⟩ := run_ok Rel.init ops
  rw [e] at e'; cases e'
  exact ⟨_, R⟩

/-- C19: over every history, no undefined behaviour, and every read gives the text that would be read if
the strings were plain values. -/
theorem C19_values (ops : List Op) : ∃ s, run .init ops = .ok (s, (Abs.init.run ops).2) := by
  obtain ⟨s, e, _⟩ := run_ok Rel.init ops
  exact ⟨s, e⟩

/-- C19: a shared C string built from a text without NUL reads back as that text. -/
theorem C19_read_back (s : State) (hs : Reach s) (cs : List Char) (h : '\x00' ∉ cs) :
    ∃ s', run s [.fromStr cs, .deref s.shared.length] = .ok (s', [.shared s.shared.length, .str (utf8 cs)]) := by
  obtain ⟨a, R⟩ := hs.rel
  obtain ⟨s', e, _⟩ := run_ok R [.fromStr cs, .deref s.shared.length]
  refine ⟨s', ?_⟩
  rw [e, R.ls]
  simp [Abs.run, Abs.step, h]

/-- C19: in every reachable state the count of each allocation is the number of handles (shared C
strings and `Arc<CStr>`s) to it, and every handle's allocation exists. So the storage is released (count 0)
exactly when its last handle is dropped. -/
theorem C19_counts (s : State) (hs : Reach s) :
    (∀ k b, s.heap[k]? = some b → b.refs = s.shared.count (some k) + s.arcs.count (some k)) ∧
    (∀ k, 0 < s.shared.count (some k) + s.arcs.count (some k) → k < s.heap.length) := by
  obtain ⟨a, R⟩ := hs.rel
  refine ⟨R.refs, fun k hk => ?_⟩
  rcases Nat.lt_or_ge k s.heap.length with h | h
  · exact h
  · have := R.dom k h; simp only [cnt] at this; omega

/-- C19: dropping a handle that is the last one releases the storage; dropping another one does
not. -/
theorem C19_release (s : State) (hs : Reach s) (i k : Nat) (h : (s.shared[i]?).join = some k) :
    ∃ s' b, step s (.drop i) = .ok (s', .unit) ∧ s'.heap[k]? = some b ∧
      (b.refs = 0 ↔ s.shared.count (some k) + s.arcs.count (some k) = 1) := by
  obtain ⟨a, R⟩ := hs.rel
  obtain ⟨d, b, h1, h2, h3, h4, hu, h5⟩ := R.getShared h
  refine ⟨⟨s.heap.set k { b with refs := b.refs - 1 }, s.shared.set i none, s.arcs⟩,
    { b with refs := b.refs - 1 }, ?_, ?_, ?_⟩
  · simp only [step, h, dropS, cstr_ok h2 h5 h3 h4, addRefs_ok h2 h3 h5, bind, Except.bind]
  · have hlt : k < s.heap.length := dataAt_lt (d := b.data) (by simp [dataAt, h2])
    exact List.getElem?_set_self hlt
  · have := R.refs k b h2
    simp only [cnt] at this
    simp only; omega

example : (run .init [.fromStr ['h', 'i'], .clone 0, .drop 0, .deref 1, .arcNew [120], .arcClone 0, .fromArc 0,
    .deref 2, .arcDrop 1, .drop 1, .drop 2, .fromStr ['\x00'], .fromCString [200]]).map (fun r => (r.2, r.1.heap.map (·.refs)))
    = .ok ([.shared 0, .shared 1, .unit, .str [104, 105], .arc 0, .arc 1, .shared 2, .str [120], .unit, .unit, .unit,
      .panic, .panic], [0, 0, 0]) := by decide +kernel

end Shared
end Verif.CharP
