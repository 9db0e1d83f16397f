import Verif.CharP.Own

/-! # Refinement of the specification by the heap model, over all histories -/
namespace Verif.CharP

/-- Owners: program variables. -/
inductive Own
  | box (i : Nat) | buf (v : Nat)
deriving DecidableEq

def State.tbl (s : State) : Own → Option Val
  | .box i => (s.boxes[i]?).join.map .p
  | .buf v => (s.bufs[v]?).join.map .b

def Abs.tbl (a : Abs) : Own → Option Bytes
  | .box i => (a.boxes[i]?).join
  | .buf v => (a.bufs[v]?).join

/-- The heap holds exactly what the variables own. -/
structure Inv (h : Heap) (t : Own → Option Val) (a : Own → Option Bytes) : Prop where
  rep : ∀ o v, t o = some v → ∃ d, a o = some d ∧ ValIs h v d
  none_ : ∀ o, t o = none → a o = none
  uniq : ∀ o o' v v' k, t o = some v → t o' = some v' → v.blk = some k → v'.blk = some k → o = o'
  owned : ∀ k b, h[k]? = some b → b.live = true → ∃ o v, t o = some v ∧ v.blk = some k

theorem ValIs.lt {h : Heap} {v : Val} {d : Bytes} {k : Nat} (hv : ValIs h v d) (e : v.blk = some k) :
    k < h.length ∧ ∃ b, h[k]? = some b ∧ b.live = true := by
  match v, hv, e with
  | .p (.blk i), hv, e => cases e; exact ⟨lt_of_some hv.1, _, hv.1, rfl⟩
  | .b ⟨some i, len, cap⟩, ⟨_, h1, _⟩, e => cases e; exact ⟨lt_of_some h1, _, h1, rfl⟩

theorem ValIs.frame {h h' : Heap} {v : Val} {d : Bytes} (hv : ValIs h v d)
    (hf : ∀ k, v.blk = some k → h'[k]? = h[k]?) : ValIs h' v d := by
  match v, hv, hf with
  | .p .sentinel, hv, _ => exact hv
  | .p (.blk i), hv, hf => exact ⟨by rw [hf i rfl]; exact hv.1, hv.2⟩
  | .b ⟨none, len, cap⟩, hv, _ => exact hv
  | .b ⟨some i, len, cap⟩, ⟨sp, h1, h2⟩, hf => exact ⟨sp, by rw [hf i rfl]; exact h1, h2⟩

/-- Table update: the variable `r` is consumed, the variable `n` receives a value. -/
def upd {α : Type} (t : Own → Option α) (r : Option Own) (n : Option (Own × α)) : Own → Option α := fun o =>
  match n with
  | some (o', v) => if o = o' then some v else if some o = r then none else t o
  | none => if some o = r then none else t o

/-- Consume the variable `r` (if any), whose block is `inp`. -/
theorem Inv.consume {h h' : Heap} {t : Own → Option Val} {a : Own → Option Bytes}
    (I : Inv h t a) {r : Option Own} {inp : Option Nat} (E : Eff h h' inp none)
    (hr : ∀ k, inp = some k → ∃ o v, r = some o ∧ t o = some v ∧ v.blk = some k)
    (hi : ∀ o v, r = some o → t o = some v → v.blk = inp) :
    Inv h' (upd t r none) (upd a r none) where
  rep o v hv := by
    simp only [upd] at hv ⊢
    split at hv
    · cases hv
    · rename_i hne
      obtain ⟨d, h1, h2⟩ := I.rep o v hv
      refine ⟨d, by rw [if_neg hne]; exact h1, h2.frame ?_⟩
      intro k hk
      refine E.frame k (h2.lt hk).1 ?_
      intro e
      obtain ⟨o', v', g1, g2, g3⟩ := hr k e.symm
      exact hne (by rw [g1, I.uniq o o' v v' k hv g2 hk g3])
  none_ o ho := by
    simp only [upd] at ho ⊢
    split
    · rfl
    · rename_i hne; rw [if_neg hne] at ho; exact I.none_ o ho
  uniq o o' v v' k h1 h2 h3 h4 := by
    simp only [upd] at h1 h2
    split at h1
    · cases h1
    · split at h2
      · cases h2
      · exact I.uniq o o' v v' k h1 h2 h3 h4
  owned k b hb hl := by
    rcases E.lives k b hb hl with ⟨g1, g2⟩ | g1
    · rw [E.frame k g1 g2] at hb
      obtain ⟨o, v, e1, e2⟩ := I.owned k b hb hl
      refine ⟨o, v, ?_, e2⟩
      simp only [upd]
      rw [if_neg]
      · exact e1
      · intro hne
        exact g2 (by rw [← hi o v hne.symm e1, e2])
    · cases g1

/-- Consume `r` and define the new variable `n`. -/
theorem Inv.produce {h h' : Heap} {t : Own → Option Val} {a : Own → Option Bytes}
    (I : Inv h t a) {r : Option Own} {inp : Option Nat} {n : Own} {v : Val} {d : Bytes}
    (E : Eff h h' inp v.blk)
    (hr : ∀ k, inp = some k → ∃ o v, r = some o ∧ t o = some v ∧ v.blk = some k)
    (hi : ∀ o v, r = some o → t o = some v → v.blk = inp)
    (hn : t n = none) (hv : ValIs h' v d) :
    Inv h' (upd t r (some (n, v))) (upd a r (some (n, d))) where
  rep o w hw := by
    simp only [upd] at hw ⊢
    split at hw
    · rename_i he
      cases hw
      exact ⟨d, by rw [if_pos he], hv⟩
    · rename_i hne0
      split at hw
      · cases hw
      · rename_i hne
        obtain ⟨d', h1, h2⟩ := I.rep o w hw
        refine ⟨d', by rw [if_neg hne0, if_neg hne]; exact h1, h2.frame ?_⟩
        intro k hk
        refine E.frame k (h2.lt hk).1 ?_
        intro e
        obtain ⟨o', v', g1, g2, g3⟩ := hr k e.symm
        exact hne (by rw [g1, I.uniq o o' w v' k hw g2 hk g3])
  none_ o ho := by
    simp only [upd] at ho ⊢
    split at ho
    · cases ho
    · rename_i h0
      rw [if_neg h0]
      split
      · rfl
      · rename_i hne; rw [if_neg hne] at ho; exact I.none_ o ho
  uniq o o' w w' k h1 h2 h3 h4 := by
    have key : ∀ o w, o ≠ n → upd t r (some (n, v)) o = some w → w.blk = some k → v.blk = some k → False := by
      intro o w ho hw hk hvk
      simp only [upd, if_neg ho] at hw
      split at hw
      · cases hw
      · rename_i hne
        obtain ⟨d', _, g2⟩ := I.rep o w hw
        rcases E.fresh k hvk with e | e
        · obtain ⟨o2, v2, f1, f2, f3⟩ := hr k e
          exact hne (by rw [f1, I.uniq o o2 w v2 k hw f2 hk f3])
        · have := (g2.lt hk).1; omega
    by_cases e1 : o = n
    · by_cases e2 : o' = n
      · rw [e1, e2]
      · simp only [upd, if_pos e1] at h1
        cases h1
        exact (key o' w' e2 h2 h4 h3).elim
    · by_cases e2 : o' = n
      · simp only [upd, if_pos e2] at h2
        cases h2
        exact (key o w e1 h1 h3 h4).elim
      · simp only [upd, if_neg e1] at h1
        simp only [upd, if_neg e2] at h2
        split at h1
        · cases h1
        · split at h2
          · cases h2
          · exact I.uniq o o' w w' k h1 h2 h3 h4
  owned k b hb hl := by
    rcases E.lives k b hb hl with ⟨g1, g2⟩ | g1
    · rw [E.frame k g1 g2] at hb
      obtain ⟨o, w, e1, e2⟩ := I.owned k b hb hl
      refine ⟨o, w, ?_, e2⟩
      simp only [upd]
      rw [if_neg, if_neg]
      · exact e1
      · intro hne
        exact g2 (by rw [← hi o w hne.symm e1, e2])
      · rintro rfl; rw [hn] at e1; cases e1
    · exact ⟨n, v, by simp [upd], g1.symm⟩

/-- The refinement relation. -/
structure Rel (s : State) (a : Abs) : Prop where
  inv : Inv s.heap s.tbl a.tbl
  lbox : s.boxes.length = a.boxes.length
  lbuf : s.bufs.length = a.bufs.length

theorem Rel.init : Rel .init .init where
  inv := {
    rep := by intro o v h; cases o <;> simp [State.tbl, State.init] at h
    none_ := by intro o _; cases o <;> simp [Abs.tbl, Abs.init]
    uniq := by intro o o' v v' k h; cases o <;> simp [State.tbl, State.init] at h
    owned := by intro k b h; simp [State.init] at h }
  lbox := rfl
  lbuf := rfl

theorem join_none {α : Type} {l : List (Option α)} {i : Nat} (h : (l[i]?).join = none) :
    ∀ x, l[i]? ≠ some (some x) := by
  intro x e; rw [e] at h; cases h

/-! Table updates of the list operations. -/
section
variable {α : Type}

theorem join_push (l : List (Option α)) (x : α) (i : Nat) :
    ((l ++ [some x])[i]?).join = if i = l.length then some x else (l[i]?).join := by
  split
  · rename_i h; subst h; simp
  · rename_i h
    rcases Nat.lt_or_ge i l.length with h1 | h1
    · rw [List.getElem?_append_left h1]
    · rw [List.getElem?_eq_none (by simp; omega), List.getElem?_eq_none h1]

theorem join_set (l : List (Option α)) (v i : Nat) :
    ((l.set v none)[i]?).join = if i = v then none else (l[i]?).join := by
  split
  · rename_i h; subst h
    rcases Nat.lt_or_ge i l.length with h1 | h1
    · simp [h1]
    · rw [List.getElem?_eq_none (by simpa using h1)]; rfl
  · rename_i h
    rw [List.getElem?_set_ne (fun e => h e.symm)]
end

theorem get_box {s : State} {a : Abs} (R : Rel s a) {i : Nat} {p : Ptr} (h : (s.boxes[i]?).join = some p) :
    ∃ d, (a.boxes[i]?).join = some d ∧ ValIs s.heap (.p p) d :=
  R.inv.rep (.box i) (.p p) (by simp [State.tbl, h])

theorem get_buf {s : State} {a : Abs} (R : Rel s a) {i : Nat} {p : Buf} (h : (s.bufs[i]?).join = some p) :
    ∃ d, (a.bufs[i]?).join = some d ∧ ValIs s.heap (.b p) d :=
  R.inv.rep (.buf i) (.b p) (by simp [State.tbl, h])

theorem none_box {s : State} {a : Abs} (R : Rel s a) {i : Nat} (h : (s.boxes[i]?).join = none) :
    (a.boxes[i]?).join = none := R.inv.none_ (.box i) (by simp [State.tbl, h])

theorem none_buf {s : State} {a : Abs} (R : Rel s a) {i : Nat} (h : (s.bufs[i]?).join = none) :
    (a.bufs[i]?).join = none := R.inv.none_ (.buf i) (by simp [State.tbl, h])

theorem fresh_box (s : State) : s.tbl (.box s.boxes.length) = none := by simp [State.tbl]
theorem fresh_buf (s : State) : s.tbl (.buf s.bufs.length) = none := by simp [State.tbl]

/-- Side conditions of `Inv.consume`/`Inv.produce` when the variable `o` holds `v`. -/
theorem side_r {t : Own → Option Val} {o : Own} {v : Val} (h : t o = some v) :
    (∀ k, v.blk = some k → ∃ o' v', some o = some o' ∧ t o' = some v' ∧ v'.blk = some k) ∧
    (∀ o' v', some o = some o' → t o' = some v' → v'.blk = v.blk) := by
  refine ⟨fun k hk => ⟨o, v, rfl, h, hk⟩, ?_⟩
  intro o' v' e h'
  cases e
  rw [h] at h'; cases h'; rfl

theorem side_none {t : Own → Option Val} :
    (∀ k, (none : Option Nat) = some k → ∃ o v, (none : Option Own) = some o ∧ t o = some v ∧ v.blk = some k) ∧
    (∀ o v, (none : Option Own) = some o → t o = some v → v.blk = (none : Option Nat)) :=
  ⟨fun _ h => (by cases h), fun _ _ h => (by cases h)⟩

macro "tbl_ext" : tactic => `(tactic| (
  funext o
  cases o <;> simp only [State.tbl, Abs.tbl, upd, join_push, join_set, Own.box.injEq, Own.buf.injEq,
    reduceCtorEq, Option.some.injEq, if_false] <;> (repeat' split) <;> simp_all))

theorem upd_none {α : Type} (t : Own → Option α) : upd t none none = t := by
  funext o; simp [upd]


theorem Inv.congr {h : Heap} {t t' : Own → Option Val} {a a' : Own → Option Bytes} (I : Inv h t a)
    (e1 : t' = t) (e2 : a' = a) : Inv h t' a' := by rw [e1, e2]; exact I

theorem Rel.addBox {s : State} {a : Abs} (R : Rel s a) {h : Heap} {p : Ptr} {d : Bytes}
    (E : Eff s.heap h none (Val.p p).blk) (hv : ValIs h (.p p) d) :
    Rel ⟨h, s.boxes ++ [some p], s.bufs⟩ ⟨a.boxes ++ [some d], a.bufs⟩ where
  inv := by
    refine (R.inv.produce (r := none) E side_none.1 side_none.2 (fresh_box s) hv).congr ?_ ?_
    · tbl_ext
    · rw [R.lbox]; tbl_ext
  lbox := by simp [R.lbox]
  lbuf := R.lbuf

theorem Rel.addBuf {s : State} {a : Abs} (R : Rel s a) {h : Heap} {v : Buf} {d : Bytes}
    (E : Eff s.heap h none v.blk) (hv : ValIs h (.b v) d) :
    Rel ⟨h, s.boxes, s.bufs ++ [some v]⟩ ⟨a.boxes, a.bufs ++ [some d]⟩ where
  inv := by
    refine (R.inv.produce (r := none) (v := .b v) E side_none.1 side_none.2 (fresh_buf s) hv).congr ?_ ?_
    · tbl_ext
    · rw [R.lbuf]; tbl_ext
  lbox := R.lbox
  lbuf := by simp [R.lbuf]

theorem Rel.dropBox {s : State} {a : Abs} (R : Rel s a) {h : Heap} {i : Nat} {p : Ptr}
    (hi : (s.boxes[i]?).join = some p) (E : Eff s.heap h (Val.p p).blk none) :
    Rel ⟨h, s.boxes.set i none, s.bufs⟩ ⟨a.boxes.set i none, a.bufs⟩ where
  inv := by
    have ht : s.tbl (.box i) = some (.p p) := by simp [State.tbl, hi]
    refine (R.inv.consume (r := some (.box i)) E (side_r ht).1 (side_r ht).2).congr ?_ ?_
    · tbl_ext
    · tbl_ext
  lbox := by simp [R.lbox]
  lbuf := R.lbuf

theorem Rel.dropBuf {s : State} {a : Abs} (R : Rel s a) {h : Heap} {i : Nat} {v : Buf}
    (hi : (s.bufs[i]?).join = some v) (E : Eff s.heap h v.blk none) :
    Rel ⟨h, s.boxes, s.bufs.set i none⟩ ⟨a.boxes, a.bufs.set i none⟩ where
  inv := by
    have ht : s.tbl (.buf i) = some (.b v) := by simp [State.tbl, hi]
    refine (R.inv.consume (r := some (.buf i)) E (side_r ht).1 (side_r ht).2).congr ?_ ?_
    · tbl_ext
    · tbl_ext
  lbox := R.lbox
  lbuf := by simp [R.lbuf]

theorem Rel.bufToBox {s : State} {a : Abs} (R : Rel s a) {h : Heap} {i : Nat} {v : Buf} {p : Ptr} {d : Bytes}
    (hi : (s.bufs[i]?).join = some v) (E : Eff s.heap h v.blk (Val.p p).blk) (hv : ValIs h (.p p) d) :
    Rel ⟨h, s.boxes ++ [some p], s.bufs.set i none⟩ ⟨a.boxes ++ [some d], a.bufs.set i none⟩ where
  inv := by
    have ht : s.tbl (.buf i) = some (.b v) := by simp [State.tbl, hi]
    refine (R.inv.produce (r := some (.buf i)) E (side_r ht).1 (side_r ht).2 (fresh_box s) hv).congr ?_ ?_
    · tbl_ext
    · rw [R.lbox]; tbl_ext
  lbox := by simp [R.lbox]
  lbuf := by simp [R.lbuf]

theorem Rel.boxToBuf {s : State} {a : Abs} (R : Rel s a) {h : Heap} {i : Nat} {v : Buf} {p : Ptr} {d : Bytes}
    (hi : (s.boxes[i]?).join = some p) (E : Eff s.heap h (Val.p p).blk v.blk) (hv : ValIs h (.b v) d) :
    Rel ⟨h, s.boxes.set i none, s.bufs ++ [some v]⟩ ⟨a.boxes.set i none, a.bufs ++ [some d]⟩ where
  inv := by
    have ht : s.tbl (.box i) = some (.p p) := by simp [State.tbl, hi]
    refine (R.inv.produce (r := some (.box i)) (v := .b v) E (side_r ht).1 (side_r ht).2 (fresh_buf s) hv).congr ?_ ?_
    · tbl_ext
    · rw [R.lbuf]; tbl_ext
  lbox := by simp [R.lbox]
  lbuf := by simp [R.lbuf]

/-- Changing the heap without touching what is owned. -/
theorem Rel.heap {s : State} {a : Abs} (R : Rel s a) {h : Heap} (E : Eff s.heap h none none) :
    Rel ⟨h, s.boxes, s.bufs⟩ a where
  inv := by
    refine (R.inv.consume (r := none) E side_none.1 side_none.2).congr ?_ ?_ <;> rw [upd_none] <;> rfl
  lbox := R.lbox
  lbuf := R.lbuf

theorem set_self {α : Type} {l : List (Option α)} {v : Nat} {b : α} (h : (l[v]?).join = some b) :
    l.set v (some b) = l := by
  apply List.ext_getElem?
  intro i
  by_cases hi : v = i
  · subst hi
    have h2 : l[v]? = some (some b) := by
      cases h3 : l[v]? with
      | none => rw [h3] at h; cases h
      | some x => rw [h3] at h; simp at h; rw [h]
    have : v < l.length := by
      rcases Nat.lt_or_ge v l.length with h1 | h1
      · exact h1
      · rw [List.getElem?_eq_none h1] at h2; cases h2
    rw [List.getElem?_set_self this, h2]
  · rw [List.getElem?_set_ne hi]

/-- One operation: no undefined behaviour, the specified observation, and the invariant again. -/
theorem step_ok {s : State} {a : Abs} (R : Rel s a) (op : Op) :
    ∃ s', step s op = .ok (s', (a.step op).2) ∧ Rel s' (a.step op).1 := by
  have lb := R.lbox
  have lv := R.lbuf
  cases op with
  | newString cs spare =>
    obtain ⟨h1, h2⟩ := mk'_ok s.heap spare (valid_utf8 cs)
    refine ⟨_, ?_, R.addBuf h2 h1⟩
    simp only [step, Abs.step, lv]; rfl
  | tryFrom v =>
    cases hv : (s.bufs[v]?).join with
    | none => exact ⟨s, by simp only [step, hv, Abs.step, none_buf R hv],
        by simp only [Abs.step, none_buf R hv]; exact R⟩
    | some b =>
      obtain ⟨c, hc, hb⟩ := get_buf R hv
      by_cases hz : 0 ∈ c.dropLast
      · refine ⟨s, ?_, ?_⟩
        · simp only [step, hv, tryFrom_err hb hz, bind, Except.bind, Abs.step, hc, if_pos hz, set_self hv]
        · simp only [Abs.step, hc, if_pos hz]; exact R
      · obtain ⟨h', p, e, g1, g2⟩ := tryFrom_ok hb hz
        refine ⟨⟨h', s.boxes ++ [some p], s.bufs.set v none⟩, ?_, ?_⟩
        · simp only [step, hv, e, bind, Except.bind, Abs.step, hc, if_neg hz, lb]
        · simp only [Abs.step, hc, if_neg hz]; exact R.bufToBox hv g2 g1
  | new v =>
    cases hv : (s.bufs[v]?).join with
    | none => exact ⟨s, by simp only [step, hv, Abs.step, none_buf R hv],
        by simp only [Abs.step, none_buf R hv]; exact R⟩
    | some b =>
      obtain ⟨c, hc, hb⟩ := get_buf R hv
      by_cases hz : 0 ∈ c.dropLast
      · obtain ⟨h', e, g⟩ := boxNew_panic hb hz
        refine ⟨⟨h', s.boxes, s.bufs.set v none⟩, ?_, ?_⟩
        · simp only [step, hv, e, bind, Except.bind, Abs.step, hc, if_pos hz]
        · simp only [Abs.step, hc, if_pos hz]; exact R.dropBuf hv g
      · obtain ⟨h', p, e, g1, g2⟩ := boxNew_ok hb hz
        refine ⟨⟨h', s.boxes ++ [some p], s.bufs.set v none⟩, ?_, ?_⟩
        · simp only [step, hv, e, bind, Except.bind, Abs.step, hc, if_neg hz, lb]
        · simp only [Abs.step, hc, if_neg hz]; exact R.bufToBox hv g2 g1
  | fromCString c =>
    by_cases h0 : 0 ∈ c
    · refine ⟨s, ?_, ?_⟩
      · simp [step, Abs.step, h0]
      · simp only [Abs.step, if_pos h0]; exact R
    · have h0' : ¬ (c.contains 0 = true) := by simpa using h0
      cases hu : validUtf8 c with
      | true =>
        obtain ⟨e, g⟩ := fromC_ok s.heap h0 hu
        refine ⟨⟨(alloc s.heap (c ++ [0])).1, s.boxes ++ [some (.blk (alloc s.heap (c ++ [0])).2)], s.bufs⟩, ?_, ?_⟩
        · simp only [step, if_neg h0', e, bind, Except.bind, Abs.step, if_neg h0, hu, if_true, lb]
        · simp only [Abs.step, if_neg h0, hu, if_true]; exact R.addBox (alloc_eff _ _) g
      | false =>
        obtain ⟨h', e, g⟩ := fromC_panic s.heap hu
        refine ⟨⟨h', s.boxes, s.bufs⟩, ?_, ?_⟩
        · simp only [step, if_neg h0', e, bind, Except.bind, Abs.step, if_neg h0, hu, Bool.false_eq_true, if_false]
        · simp only [Abs.step, if_neg h0, hu, Bool.false_eq_true, if_false]; exact R.heap g
  | clone i =>
    cases hv : (s.boxes[i]?).join with
    | none => exact ⟨s, by simp only [step, hv, Abs.step, none_box R hv],
        by simp only [Abs.step, none_box R hv]; exact R⟩
    | some p =>
      obtain ⟨d, hd, hp⟩ := get_box R hv
      obtain ⟨h', p', e, g1, g2⟩ := cloneBox_ok hp
      refine ⟨⟨h', s.boxes ++ [some p'], s.bufs⟩, ?_, ?_⟩
      · simp only [step, hv, e, bind, Except.bind, Abs.step, hd, lb]
      · simp only [Abs.step, hd]; exact R.addBox g2 g1
  | read i =>
    cases hv : (s.boxes[i]?).join with
    | none => exact ⟨s, by simp only [step, hv, Abs.step, none_box R hv],
        by simp only [Abs.step, none_box R hv]; exact R⟩
    | some p =>
      obtain ⟨d, hd, hp⟩ := get_box R hv
      refine ⟨s, ?_, ?_⟩
      · simp only [step, hv, mem_ok hp, toBytes_app hp.noNul, bind, Except.bind, Abs.step, hd]
      · simp only [Abs.step, hd]; exact R
  | readStr i =>
    cases hv : (s.boxes[i]?).join with
    | none => exact ⟨s, by simp only [step, hv, Abs.step, none_box R hv],
        by simp only [Abs.step, none_box R hv]; exact R⟩
    | some p =>
      obtain ⟨d, hd, hp⟩ := get_box R hv
      refine ⟨s, ?_, ?_⟩
      · simp only [step, hv, mem_ok hp, toStr_app hp.noNul hp.valid, bind, Except.bind, Abs.step, hd]
      · simp only [Abs.step, hd]; exact R
  | readNul i =>
    cases hv : (s.boxes[i]?).join with
    | none => exact ⟨s, by simp only [step, hv, Abs.step, none_box R hv],
        by simp only [Abs.step, none_box R hv]; exact R⟩
    | some p =>
      obtain ⟨d, hd, hp⟩ := get_box R hv
      refine ⟨s, ?_, ?_⟩
      · simp only [step, hv, mem_ok hp, toBytesWithNull_app hp.noNul, bind, Except.bind, Abs.step, hd]
      · simp only [Abs.step, hd]; exact R
  | eq i j =>
    cases hv : (s.boxes[i]?).join with
    | none => exact ⟨s, by simp only [step, hv, Abs.step, none_box R hv],
        by simp only [Abs.step, none_box R hv]; exact R⟩
    | some p =>
      obtain ⟨d, hd, hp⟩ := get_box R hv
      cases hw : (s.boxes[j]?).join with
      | none => exact ⟨s, by simp only [step, hv, hw, Abs.step, hd, none_box R hw],
        by simp only [Abs.step, none_box R hw, hd]; exact R⟩
      | some q =>
        obtain ⟨d', hd', hq⟩ := get_box R hw
        refine ⟨s, ?_, ?_⟩
        · simp only [step, hv, hw, mem_ok hp, mem_ok hq, refEq, toStr_app hp.noNul hp.valid,
            toStr_app hq.noNul hq.valid, bind, Except.bind, Abs.step, hd, hd']
        · simp only [Abs.step, hd, hd']; exact R
  | drop i =>
    cases hv : (s.boxes[i]?).join with
    | none => exact ⟨s, by simp only [step, hv, Abs.step, none_box R hv],
        by simp only [Abs.step, none_box R hv]; exact R⟩
    | some p =>
      obtain ⟨d, hd, hp⟩ := get_box R hv
      obtain ⟨h', e, g⟩ := dropBox_ok hp
      refine ⟨⟨h', s.boxes.set i none, s.bufs⟩, ?_, ?_⟩
      · simp only [step, hv, e, bind, Except.bind, Abs.step, hd]
      · simp only [Abs.step, hd]; exact R.dropBox hv g
  | intoVec i =>
    cases hv : (s.boxes[i]?).join with
    | none => exact ⟨s, by simp only [step, hv, Abs.step, none_box R hv],
        by simp only [Abs.step, none_box R hv]; exact R⟩
    | some p =>
      obtain ⟨d, hd, hp⟩ := get_box R hv
      obtain ⟨v, e, g1, g2⟩ := intoVec_ok hp
      refine ⟨⟨s.heap, s.boxes.set i none, s.bufs ++ [some v]⟩, ?_, ?_⟩
      · simp only [step, hv, e, bind, Except.bind, Abs.step, hd, lv]
      · simp only [Abs.step, hd]; exact R.boxToBuf hv (by rw [g2]; exact Eff.refl _ _) g1
  | readBuf v =>
    cases hv : (s.bufs[v]?).join with
    | none => exact ⟨s, by simp only [step, hv, Abs.step, none_buf R hv],
        by simp only [Abs.step, none_buf R hv]; exact R⟩
    | some b =>
      obtain ⟨c, hc, hb⟩ := get_buf R hv
      refine ⟨s, ?_, ?_⟩
      · simp only [step, hv, read_ok hb, bind, Except.bind, Abs.step, hc]
      · simp only [Abs.step, hc]; exact R
  | dropBuf v =>
    cases hv : (s.bufs[v]?).join with
    | none => exact ⟨s, by simp only [step, hv, Abs.step, none_buf R hv],
        by simp only [Abs.step, none_buf R hv]; exact R⟩
    | some b =>
      obtain ⟨c, hc, hb⟩ := get_buf R hv
      obtain ⟨h', e, g⟩ := drop_ok hb
      refine ⟨⟨h', s.boxes, s.bufs.set v none⟩, ?_, ?_⟩
      · simp only [step, hv, e, bind, Except.bind, Abs.step, hc]
      · simp only [Abs.step, hc]; exact R.dropBuf hv g

theorem run_ok {s : State} {a : Abs} (R : Rel s a) (ops : List Op) :
    ∃ s', run s ops = .ok (s', (a.run ops).2) ∧ Rel s' (a.run ops).1 := by
  induction ops generalizing s a with
  | nil => exact ⟨s, rfl, R⟩
  | cons o os ih =>
    obtain ⟨s1, e1, R1⟩ := step_ok R o
    obtain ⟨s2, e2, R2⟩ := ih R1
    exact ⟨s2, by simp only [run, e1, bind, Except.bind, e2, Abs.run], R2⟩

end Verif.CharP
