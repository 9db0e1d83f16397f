import Verif.Owned.Own

/-! # Refinement of the specification by the heap model, over all histories -/
set_option linter.unusedSectionVars false
namespace Verif.Owned

section
variable {α : Type} [Inhabited α] {E : Elem α}

/-- The heap holds exactly what the variables own. -/
structure Inv (E : Elem α) (h : Heap α) (t : Nat → Option Val) (a : Nat → Option (AVal α)) : Prop where
  rep : ∀ o v, t o = some v → ∃ d, a o = some d ∧ ValIs E h v d
  none_ : ∀ o, t o = none → a o = none
  uniq : ∀ o o' v v' k, t o = some v → t o' = some v' → v.blk = some k → v'.blk = some k → o = o'
  owned : ∀ (k : Nat) (b : Block α), h[k]? = some b → b.live = true → ∃ o v, t o = some v ∧ v.blk = some k

theorem ValIs.lt {h : Heap α} {v : Val} {d : AVal α} {k : Nat} (hv : ValIs E h v d) (e : v.blk = some k) :
    k < h.length ∧ ∃ b, h[k]? = some b ∧ b.live = true := hv.parts.rep.lt e

theorem PartsIs.frame {h h' : Heap α} {q : Option Nat × Nat × Nat} {d : List α} {c : Nat}
    (hv : PartsIs E h q d c) (hf : ∀ k, q.1 = some k → h'[k]? = h[k]?) : PartsIs E h' q d c :=
  ⟨hv.rep.frame hf, hv.len, hv.cap⟩

theorem ValIs.frame {h h' : Heap α} {v : Val} {d : AVal α} (hv : ValIs E h v d)
    (hf : ∀ k, v.blk = some k → h'[k]? = h[k]?) : ValIs E h' v d :=
  ⟨hv.kind, hv.parts.frame hf, hv.text⟩

def upd {β : Type} (t : Nat → Option β) (n : Nat) (x : Option β) : Nat → Option β := fun o =>
  if o = n then x else t o

theorem upd_upd {β : Type} (t : Nat → Option β) (n : Nat) (x y : Option β) :
    upd (upd t n x) n y = upd t n y := by
  funext o; simp only [upd]; split <;> rfl

theorem upd_same {β : Type} {t : Nat → Option β} {n : Nat} {x : Option β} (h : t n = x) : upd t n x = t := by
  funext o; simp only [upd]; split
  · rename_i e; rw [e, h]
  · rfl

/-- Replace what the variable `n` holds. -/
theorem Inv.replace {h h' : Heap α} {t : Nat → Option Val} {a : Nat → Option (AVal α)}
    (I : Inv E h t a) {n : Nat} {new : Option Val} {anew : Option (AVal α)}
    (F : Eff h h' ((t n).bind Val.blk) (new.bind Val.blk))
    (hv : match new, anew with | some v, some d => ValIs E h' v d | none, none => True | _, _ => False) :
    Inv E h' (upd t n new) (upd a n anew) where
  rep o w hw := by
    simp only [upd] at hw ⊢
    split at hw
    · rename_i he
      subst hw
      rw [if_pos he]
      cases anew with
      | none => exact hv.elim
      | some d => exact ⟨d, rfl, hv⟩
    · rename_i hne
      obtain ⟨d', h1, h2⟩ := I.rep o w hw
      refine ⟨d', by rw [if_neg hne]; exact h1, h2.frame ?_⟩
      intro k hk
      refine F.frame k (h2.lt hk).1 ?_
      intro e
      cases hn : t n with
      | none => rw [hn] at e; cases e
      | some v => rw [hn] at e; exact hne (I.uniq o n w v k hw hn hk e.symm)
  none_ o ho := by
    simp only [upd] at ho ⊢
    split at ho
    · rename_i h0
      rw [if_pos h0]
      subst ho
      cases anew with
      | none => rfl
      | some d => exact hv.elim
    · rename_i h0
      rw [if_neg h0]
      exact I.none_ o ho
  uniq o o' w w' k h1 h2 h3 h4 := by
    have key : ∀ o w, o ≠ n → upd t n new o = some w → w.blk = some k → new.bind Val.blk = some k → False := by
      intro o w ho hw hk hvk
      simp only [upd, if_neg ho] at hw
      obtain ⟨d', _, g2⟩ := I.rep o w hw
      rcases F.fresh k hvk with e | e
      · cases hn : t n with
        | none => rw [hn] at e; cases e
        | some v => rw [hn] at e; exact ho (I.uniq o n w v k hw hn hk e)
      · have := (g2.lt hk).1; omega
    by_cases e1 : o = n
    · by_cases e2 : o' = n
      · rw [e1, e2]
      · simp only [upd, if_pos e1] at h1
        exact (key o' w' e2 h2 h4 (by rw [h1]; exact h3)).elim
    · by_cases e2 : o' = n
      · simp only [upd, if_pos e2] at h2
        exact (key o w e1 h1 h3 (by rw [h2]; exact h4)).elim
      · simp only [upd, if_neg e1] at h1
        simp only [upd, if_neg e2] at h2
        exact I.uniq o o' w w' k h1 h2 h3 h4
  owned k b hb hl := by
    rcases F.lives k b hb hl with ⟨g1, g2⟩ | g1
    · rw [F.frame k g1 g2] at hb
      obtain ⟨o, w, e1, e2⟩ := I.owned k b hb hl
      refine ⟨o, w, ?_, e2⟩
      simp only [upd]
      rw [if_neg]
      · exact e1
      · rintro rfl
        exact g2 (by rw [e1]; exact e2.symm)
    · cases new with
      | none => cases g1
      | some v => exact ⟨n, v, by simp [upd], g1.symm⟩

theorem Inv.congr {h : Heap α} {t t' : Nat → Option Val} {a a' : Nat → Option (AVal α)} (I : Inv E h t a)
    (e1 : t' = t) (e2 : a' = a) : Inv E h t' a' := by rw [e1, e2]; exact I

theorem Inv.perm {h : Heap α} {t : Nat → Option Val} {a : Nat → Option (AVal α)} (I : Inv E h t a)
    (σ : Nat → Nat) (hσ : ∀ o, σ (σ o) = o) : Inv E h (fun o => t (σ o)) (fun o => a (σ o)) where
  rep o v hv := I.rep (σ o) v hv
  none_ o ho := I.none_ (σ o) ho
  uniq o o' v v' k h1 h2 h3 h4 := by
    have := I.uniq _ _ v v' k h1 h2 h3 h4
    rw [← hσ o, this, hσ]
  owned k b hb hl := by
    obtain ⟨o, v, h1, h2⟩ := I.owned k b hb hl
    exact ⟨σ o, v, by rw [hσ]; exact h1, h2⟩

/-! ## Tables of lists -/

theorem join_push {β : Type} (l : List (Option β)) (x : β) :
    (fun i => ((l ++ [some x])[i]?).join) = upd (fun i => (l[i]?).join) l.length (some x) := by
  funext i
  simp only [upd]
  split
  · rename_i h; subst h; simp
  · rename_i h
    rcases Nat.lt_or_ge i l.length with h1 | h1
    · rw [List.getElem?_append_left h1]
    · rw [List.getElem?_eq_none (by simp; omega), List.getElem?_eq_none h1]

theorem join_set {β : Type} (l : List (Option β)) {v : Nat} (x : Option β) (hv : v < l.length) :
    (fun i => ((l.set v x)[i]?).join) = upd (fun i => (l[i]?).join) v x := by
  funext i
  simp only [upd]
  split
  · rename_i h; subst h; simp [hv]
  · rename_i h
    rw [List.getElem?_set_ne (fun e => h e.symm)]

theorem join_lt {β : Type} {l : List (Option β)} {i : Nat} {x : β} (h : (l[i]?).join = some x) : i < l.length := by
  rcases Nat.lt_or_ge i l.length with h1 | h1
  · exact h1
  · rw [List.getElem?_eq_none h1] at h; cases h

/-- The refinement relation. -/
structure Rel (E : Elem α) (s : State α) (a : Abs α) : Prop where
  inv : Inv E s.heap s.var a.var
  len : s.vars.length = a.length

theorem Rel.init : Rel E (.init : State α) [] where
  inv := {
    rep := by intro o v h; simp [State.var, State.init] at h
    none_ := by intro o _; simp [Abs.var]
    uniq := by intro o o' v v' k h; simp [State.var, State.init] at h
    owned := by intro k b h; simp [State.init] at h }
  len := rfl

theorem Rel.get {s : State α} {a : Abs α} (R : Rel E s a) {i : Nat} {v : Val} (h : s.var i = some v) :
    ∃ d, a.var i = some d ∧ ValIs E s.heap v d := R.inv.rep i v h

theorem Rel.get_none {s : State α} {a : Abs α} (R : Rel E s a) {i : Nat} (h : s.var i = none) :
    a.var i = none := R.inv.none_ i h

theorem Rel.push {s : State α} {a : Abs α} (R : Rel E s a) {h : Heap α} {v : Val} {d : AVal α}
    (F : Eff s.heap h none v.blk) (hv : ValIs E h v d) : Rel E (s.push h v) (a ++ [some d]) where
  inv := by
    have h0 : s.var s.vars.length = none := by simp [State.var]
    have := R.inv.replace (n := s.vars.length) (new := some v) (anew := some d) (h' := h)
      (by rw [h0]; exact F) hv
    refine this.congr (join_push s.vars v) ?_
    rw [R.len]; exact join_push a d
  len := by simp [State.push, R.len]

theorem Rel.set {s : State α} {a : Abs α} (R : Rel E s a) {h : Heap α} {i : Nat} {v v0 : Val} {d : AVal α}
    (h0 : s.var i = some v0) (F : Eff s.heap h v0.blk v.blk) (hv : ValIs E h v d) :
    Rel E (s.set h i (some v)) (a.set i (some d)) where
  inv := by
    have := R.inv.replace (n := i) (new := some v) (anew := some d) (h' := h)
      (by rw [h0]; exact F) hv
    have hi := join_lt h0
    refine this.congr (join_set s.vars _ hi) (join_set a _ (by rw [← R.len]; exact hi))
  len := by simp [State.set, R.len]

theorem Rel.del {s : State α} {a : Abs α} (R : Rel E s a) {h : Heap α} {i : Nat} {v0 : Val}
    (h0 : s.var i = some v0) (F : Eff s.heap h v0.blk none) :
    Rel E (s.set h i none) (a.set i none) where
  inv := by
    have := R.inv.replace (n := i) (new := none) (anew := none) (h' := h) (by rw [h0]; exact F) trivial
    have hi := join_lt h0
    refine this.congr (join_set s.vars _ hi) (join_set a _ (by rw [← R.len]; exact hi))
  len := by simp [State.set, R.len]

/-- A change of contents in place. -/
theorem Rel.inPlace {s : State α} {a : Abs α} (R : Rel E s a) {h : Heap α} {i : Nat} {v : Val} {d : AVal α}
    (h0 : s.var i = some v) (F : Eff s.heap h v.blk v.blk) (hv : ValIs E h v d) :
    Rel E ⟨h, s.vars⟩ (a.set i (some d)) where
  inv := by
    have := R.inv.replace (n := i) (new := some v) (anew := some d) (h' := h) (by rw [h0]; exact F) hv
    have hi := join_lt h0
    refine this.congr ?_ (join_set a _ (by rw [← R.len]; exact hi))
    exact (upd_same h0).symm
  len := by simp [R.len]

/-! ## Edits of a borrowed vector -/

def wrapR (str : Bool) (v : RVec) : Val := if str then .rstr v else .rvec v
def kindR (str : Bool) : Kind := if str then .rstr else .rvec

/-- While the variable `i` is borrowed: its vector is in the local `v`, its slot is stale. -/
structure RelL (E : Elem α) (str : Bool) (i : Nat) (s : State α) (v : RVec) (a : Abs α) (d : List α × Nat) :
    Prop where
  inv : Inv E s.heap (upd s.var i (some (wrapR str v))) (upd a.var i (some ⟨kindR str, d.1, d.2⟩))
  len : s.vars.length = a.length

theorem RelL.val {str : Bool} {i : Nat} {s : State α} {v : RVec} {a : Abs α} {d : List α × Nat}
    (R : RelL E str i s v a d) : PartsIs E s.heap v.parts d.1 d.2 ∧ (str = true → E.text d.1 = true) := by
  obtain ⟨x, h1, h2⟩ := R.inv.rep i (wrapR str v) (by simp [upd])
  simp only [upd, if_true, Option.some.injEq] at h1
  subst h1
  refine ⟨?_, fun h => h2.text (by subst h; rfl)⟩
  have := h2.parts
  cases str <;> exact this

theorem wrapR_blk (str : Bool) (v : RVec) : (wrapR str v).blk = v.ptr := by cases str <;> rfl

theorem mkVal {str : Bool} {h : Heap α} {v : RVec} {d : List α} {c : Nat} (hp : PartsIs E h v.parts d c)
    (ht : str = true → E.text d = true) : ValIs E h (wrapR str v) ⟨kindR str, d, c⟩ := by
  cases str
  · exact ⟨rfl, hp, fun h => by cases h⟩
  · exact ⟨rfl, hp, fun _ => ht rfl⟩

theorem RelL.update {str : Bool} {i : Nat} {s : State α} {v v' : RVec} {a : Abs α} {d : List α × Nat}
    (R : RelL E str i s v a d) {h : Heap α} {d' : List α} {c' : Nat} (F : Eff s.heap h v.ptr v'.ptr)
    (hp : PartsIs E h v'.parts d' c') (ht : str = true → E.text d' = true) :
    RelL E str i ⟨h, s.vars⟩ v' a (d', c') where
  inv := by
    have := R.inv.replace (n := i) (new := some (wrapR str v')) (anew := some ⟨kindR str, d', c'⟩) (h' := h)
      (by simp only [upd, if_true, Option.bind]; rw [wrapR_blk, wrapR_blk]; exact F) (mkVal hp ht)
    rw [upd_upd, upd_upd] at this
    exact this
  len := R.len

theorem Eff.par {h h1 h2 : Heap α} {p n : Option Nat} (x : Eff h h1 none n) (y : Eff h1 h2 p none) :
    Eff h h2 p n where
  frame k hk hp := by
    rw [y.frame k (Nat.lt_of_lt_of_le hk x.grow) hp, x.frame k hk (by simp)]
  grow := Nat.le_trans x.grow y.grow
  lives k b hb hl := by
    rcases y.lives k b hb hl with ⟨g1, g2⟩ | g1
    · rw [y.frame k g1 g2] at hb
      rcases x.lives k b hb hl with ⟨g3, g4⟩ | g3
      · exact .inl ⟨g3, g2⟩
      · exact .inr g3
    · cases g1
  fresh k e := by
    rcases x.fresh k e with e' | e'
    · cases e'
    · exact .inr e'

theorem take_one {d : List α} {k : Nat} (h : k < d.length) (x : α) : (d.drop k).take 1 = [d.getD k x] := by
  rw [List.drop_eq_getElem_cons h, List.take_succ_cons, List.take_zero]
  simp [List.getD, List.getElem?_eq_getElem h]

theorem set_eq {d : List α} {k : Nat} (x : α) (h : k < d.length) :
    d.take k ++ [x] ++ d.drop (k + [x].length) = d.set k x := by
  simp [List.set_eq_take_append_cons_drop, h]

theorem edit_ok {str : Bool} {i : Nat} {s : State α} {v : RVec} {a : Abs α} {d : List α × Nat}
    (R : RelL E str i s v a d) (e : Edit α) :
    ∃ s' v', editLocal E str i s v e = .ok (s', v', (e.spec E str i a d.1 d.2).2.2) ∧
      RelL E str i s' v' (e.spec E str i a d.1 d.2).1 (e.spec E str i a d.1 d.2).2.1 := by
  obtain ⟨hp, ht⟩ := R.val
  have hl : v.len = d.1.length := hp.len
  by_cases hok : (str && !e.okText E) = true
  · exact ⟨s, v, by simp only [editLocal, Edit.spec, hok, if_true], by simp only [Edit.spec, hok, if_true]; exact R⟩
  have hok' : str = true → e.okText E = true := by
    intro h; subst h; cases h2 : e.okText E <;> simp_all
  have e3 := readN_ok hp.rep
  simp only [RVec.parts] at e3
  rw [← hl] at e3
  simp only [editLocal, Edit.spec, if_neg hok]
  cases e with
  | extend xs g =>
    obtain ⟨h', v', e1, e2, e4⟩ := extend_ok hp xs g
    refine ⟨⟨h', s.vars⟩, v', by simp [e1, bind, Except.bind], R.update e4 e2 ?_⟩
    intro h
    exact E.text_append _ _ (ht h) (hok' h)
  | pop =>
    have hns : str = true → False := fun h => by have := hok' h; cases this
    refine ⟨s, { v with len := v.len - 1 }, by simp [e3, bind, Except.bind],
      R.update (h := s.heap) (v' := { v with len := v.len - 1 }) (Eff.refl _ _) ⟨?_, ?_, hp.cap⟩ (fun h => (hns h).elim)⟩
    · rw [List.dropLast_eq_take]; exact hp.rep.take _
    · simp [RVec.parts, hl]
  | truncate n =>
    refine ⟨s, { v with len := min n v.len }, by simp [e3, bind, Except.bind],
      R.update (h := s.heap) (v' := { v with len := min n v.len }) (Eff.refl _ _) ⟨hp.rep.take _, ?_, hp.cap⟩ ?_⟩
    · simp [RVec.parts, hl]
    · intro h
      have := hok' h
      simp only [Edit.okText, beq_iff_eq] at this
      subst this
      simpa using E.text_nil
  | set k x =>
    have hns : str = true → False := fun h => by have := hok' h; cases this
    dsimp only
    by_cases hk : k < v.len
    · have hx : E.zst = true ∨ k + [x].length ≤ v.cap := by
        cases hz : E.zst
        · have := hp.rep.le hz
          simp only [RVec.parts] at this
          simp; omega
        · exact .inl rfl
      obtain ⟨h', f1, f2, f3⟩ := writeAt_ok hp.rep k [x] (by omega) hx
      simp only [RVec.parts] at f1 f2
      rw [if_pos hk, if_pos (hl ▸ hk)]
      refine ⟨⟨h', s.vars⟩, v, ?_, R.update f3 ⟨?_, ?_, hp.cap⟩ (fun h => (hns h).elim)⟩
      · simp [e3, f1, bind, Except.bind, take_one (hl ▸ hk) x]
      · rw [set_eq x (hl ▸ hk)] at f2; exact f2
      · simp [RVec.parts, hl]
    · rw [if_neg hk, if_neg (hl ▸ hk)]
      exact ⟨s, v, rfl, R⟩
  | realloc n =>
    obtain ⟨h', v', e1, e2, e4⟩ := realloc_ok hp n
    exact ⟨⟨h', s.vars⟩, v', by simp [e1, bind, Except.bind], R.update e4 e2 ht⟩
  | replace c extra =>
    obtain ⟨n1, n2⟩ := new_ok (E := E) s.heap c extra
    have hold : PartsIs E (RVec.new E s.heap c extra).1 v.parts d.1 d.2 :=
      hp.frame (fun k hk => n2.frame k (hp.rep.lt hk).1 (by simp))
    obtain ⟨h2, f1, f2⟩ := drop_ok (p := v.ptr) (len := v.len) (cap := v.cap) hold
    have f1' : v.drop E (RVec.new E s.heap c extra).1 = .ok (h2, d.1) := f1
    refine ⟨⟨h2, s.vars⟩, (RVec.new E s.heap c extra).2, ?_, R.update (n2.par f2) ?_ ?_⟩
    · simp [f1', bind, Except.bind]
    · refine n1.frame (fun k hk => f2.frame k (n1.rep.lt hk).1 ?_)
      intro hk2
      have h3 := (hp.rep.lt hk2.symm).1
      rcases n2.fresh k hk with h4 | h4
      · cases h4
      · omega
    · intro h; exact hok' h
  | swap j =>
    by_cases hji : j = i
    · simp only [if_pos hji]
      exact ⟨s, v, rfl, R⟩
    simp only [if_neg hji]
    cases hj : s.var j with
    | none =>
      have := R.inv.none_ j (by simp [upd, hji, hj])
      simp only [upd, if_neg hji] at this
      rw [this]
      exact ⟨s, v, by simp, R⟩
    | some w =>
      obtain ⟨aw, g1, g2⟩ := R.inv.rep j w (by simp [upd, hji, hj])
      simp only [upd, if_neg hji] at g1
      rw [g1]
      have key : ∀ w', w = wrapR str w' → RelL E str i (s.set s.heap j (some (wrapR str v))) w'
          (a.set j (some ⟨kindR str, d.1, d.2⟩)) (aw.data, aw.cap) := by
        rintro w' rfl
        have hk : aw.kind = kindR str := by rw [← g2.kind]; cases str <;> rfl
        have hσ : ∀ o : Nat, (if (if o = i then j else if o = j then i else o) = i then j
            else if (if o = i then j else if o = j then i else o) = j then i
            else (if o = i then j else if o = j then i else o)) = o := by
          intro o; repeat' split
          all_goals omega
        refine ⟨(R.inv.perm (fun o => if o = i then j else if o = j then i else o) hσ).congr ?_ ?_, ?_⟩
        · have := join_set s.vars (v := j) (some (wrapR str v)) (join_lt hj)
          rw [show (s.set s.heap j (some (wrapR str v))).var = _ from this]
          funext o
          simp only [upd]
          by_cases h1 : o = i
          · simp only [if_pos h1, if_neg hji]; exact hj.symm
          · simp only [if_neg h1]
            by_cases h2 : o = j
            · simp only [if_pos h2, if_true]
            · simp only [if_neg h2, if_neg h1]; rfl
        · have := join_set a (v := j) (some (⟨kindR str, d.1, d.2⟩ : AVal α)) (by rw [← R.len]; exact join_lt hj)
          rw [show (Abs.var (a.set j (some ⟨kindR str, d.1, d.2⟩))) = _ from this]
          funext o
          simp only [upd]
          by_cases h1 : o = i
          · simp only [if_pos h1, if_neg hji, g1, ← hk]
          · simp only [if_neg h1]
            by_cases h2 : o = j
            · simp only [if_pos h2, if_true]
            · simp only [if_neg h2, if_neg h1]; rfl
        · simp [State.set, R.len]
      have hkind := g2.kind
      cases w <;> cases str <;> simp only [Val.kind] at hkind <;> simp only [← hkind, reduceCtorEq, if_false, if_true, Bool.false_eq_true]
      case rvec.false w' => exact ⟨_, w', rfl, key w' rfl⟩
      case rstr.true w' => exact ⟨_, w', rfl, key w' rfl⟩
      all_goals exact ⟨s, v, rfl, R⟩

theorem edits_ok {str : Bool} {i : Nat} (es : List (Edit α)) {s : State α} {v : RVec} {a : Abs α}
    {d : List α × Nat} (R : RelL E str i s v a d) :
    ∃ s' v', editsLocal E str i s v es = .ok (s', v', (editsSpec E str i a d es).2.2) ∧
      RelL E str i s' v' (editsSpec E str i a d es).1 (editsSpec E str i a d es).2.1 := by
  induction es generalizing s v a d with
  | nil => exact ⟨s, v, rfl, R⟩
  | cons e es ih =>
    obtain ⟨s1, v1, e1, R1⟩ := edit_ok R e
    obtain ⟨s2, v2, e2, R2⟩ := ih R1
    exact ⟨s2, v2, by simp [editsLocal, e1, e2, bind, Except.bind, editsSpec], R2⟩

/-- The local vector is written back to the variable `i`. -/
theorem RelL.writeBack {str : Bool} {i : Nat} {s : State α} {v : RVec} {a : Abs α} {d : List α × Nat}
    (R : RelL E str i s v a d) (hi : i < s.vars.length) {w : Val} {x : AVal α} (hb : w.blk = v.ptr)
    (hw : PartsIs E s.heap v.parts d.1 d.2 → (str = true → E.text d.1 = true) → ValIs E s.heap w x) :
    Rel E (s.set s.heap i (some w)) (a.set i (some x)) where
  inv := by
    obtain ⟨hp, ht⟩ := R.val
    have := R.inv.replace (n := i) (new := some w) (anew := some x) (h' := s.heap)
      (by simp only [upd, if_true, Option.bind]; rw [wrapR_blk, hb]; exact Eff.refl _ _) (hw hp ht)
    rw [upd_upd, upd_upd] at this
    exact this.congr (join_set s.vars _ hi) (join_set a _ (by rw [← R.len]; exact hi))
  len := by simp [State.set, R.len]

/-- The variable `i` is borrowed. -/
theorem Rel.borrow {s : State α} {a : Abs α} (R : Rel E s a) {str : Bool} {i : Nat} {w : Val} {v : RVec} {x : AVal α}
    (h0 : s.var i = some w) (ha : a.var i = some x) (hb : w.blk = v.ptr)
    (hw : ValIs E s.heap w x → ValIs E s.heap (wrapR str v) ⟨kindR str, x.data, x.cap⟩) :
    RelL E str i s v a (x.data, x.cap) where
  inv := by
    obtain ⟨x', g1, g2⟩ := R.get h0
    rw [ha] at g1; cases g1
    refine R.inv.replace (h' := s.heap) ?_ (hw g2)
    rw [h0]
    simp only [Option.bind]
    rw [wrapR_blk, hb]
    exact Eff.refl _ _
  len := R.len

theorem spec_len {str : Bool} {i : Nat} {a : Abs α} {d : List α} {c : Nat} {e : Edit α} :
    (e.spec E str i a d c).1.length = a.length := by
  unfold Edit.spec
  split
  · rfl
  · cases e with
    | swap j =>
      simp only
      split
      · rfl
      · split
        · split <;> split <;> (first | rfl | exact List.length_set)
        · rfl
    | set k x => simp only; split <;> rfl
    | _ => rfl

theorem editsSpec_len {str : Bool} {i : Nat} {es : List (Edit α)} {a : Abs α} {d : List α × Nat} :
    (editsSpec E str i a d es).1.length = a.length := by
  induction es generalizing a d with
  | nil => rfl
  | cons e es ih => simp only [editsSpec]; rw [ih, spec_len]

end
end Verif.Owned
