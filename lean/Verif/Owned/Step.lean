import Verif.Owned.Hist

/-! # Every step of the heap model is the step of the specification -/
set_option linter.unusedSectionVars false
namespace Verif.Owned

section
variable {α : Type} [Inhabited α] {E : Elem α}

/-- The statement proved for every operation. -/
def StepOk (E : Elem α) (s : State α) (a : Abs α) (op : Op α) : Prop :=
  ∃ s', step E s op = .ok (s', (a.step E op).2) ∧ Rel E s' (a.step E op).1

theorem PartsIs.recap {h : Heap α} {p : Option Nat} {len cap cap' : Nat} {d : List α} {c : Nat}
    (hv : PartsIs E h (p, len, cap) d c) (hc : E.zst = false → cap' = cap) : PartsIs E h (p, len, cap') d c := by
  cases hz : E.zst
  · rw [hc hz]; exact hv
  · exact ⟨hv.rep.zst hz, hv.len, fun h => by rw [hz] at h; cases h⟩

theorem ofRust_parts {h : Heap α} {v : RVec} {d : List α} {c : Nat} (hv : PartsIs E h v.parts d c) :
    PartsIs E h ((CVec.ofRust E v).ptr, (CVec.ofRust E v).len, (CVec.ofRust E v).cap) d c :=
  hv.recap (fun hz => by simp [CVec.ofRust, RVec.capacity, hz])

theorem box_new_ok (h : Heap α) (c : List α) :
    PartsIs E (RBox.new E h c).1 ((RBox.new E h c).2.ptr, (RBox.new E h c).2.len, (RBox.new E h c).2.len) c c.length ∧
    Eff h (RBox.new E h c).1 none (RBox.new E h c).2.ptr := by
  have := alloc_ok (E := E) h (c := c) (cap := c.length) (by omega)
  exact ⟨⟨this.1, rfl, fun _ => rfl⟩, this.2⟩

theorem box1_new_ok (h : Heap α) (x : α) :
    PartsIs E (CBox1.new E h x).1 ((CBox1.new E h x).2.ptr, 1, 1) [x] 1 ∧
    Eff h (CBox1.new E h x).1 none (CBox1.new E h x).2.ptr := by
  have := alloc_ok (E := E) h (c := [x]) (cap := 1) (by simp)
  exact ⟨⟨this.1, rfl, fun _ => rfl⟩, this.2⟩

theorem empty_parts (h : Heap α) : PartsIs E h (none, 0, 0) [] 0 := by
  refine ⟨?_, rfl, fun _ => rfl⟩
  cases hz : E.zst
  · exact .inr (.inl ⟨hz, rfl, rfl, rfl⟩)
  · exact .inl ⟨hz, rfl⟩

theorem clone_vec_ok {h : Heap α} {v : CVec} {d : List α} {c : Nat} (hv : PartsIs E h (v.ptr, v.len, v.cap) d c) :
    ∃ h' v', v.clone E h = .ok (h', v') ∧ PartsIs E h' (v'.ptr, v'.len, v'.cap) d d.length ∧
      Eff h h' none v'.ptr := by
  have e1 := readN_ok hv.rep
  have hl : v.len = d.length := hv.len
  simp only at e1
  rw [← hl] at e1
  obtain ⟨n1, n2⟩ := new_ok (E := E) h d 0
  exact ⟨(RVec.new E h d 0).1, CVec.ofRust E (RVec.new E h d 0).2,
    by simp [CVec.clone, CVec.deref, e1, bind, Except.bind], ofRust_parts n1, n2⟩

theorem clone_box_ok {h : Heap α} {b : CBox} {d : List α} {c : Nat} (hv : PartsIs E h (b.ptr, b.len, b.len) d c) :
    ∃ h' b', b.clone E h = .ok (h', b') ∧ PartsIs E h' (b'.ptr, b'.len, b'.len) d d.length ∧
      Eff h h' none b'.ptr := by
  have e1 := readN_ok hv.rep
  have hl : b.len = d.length := hv.len
  simp only at e1
  rw [← hl] at e1
  obtain ⟨n1, n2⟩ := new_ok (E := E) h d 0
  obtain ⟨h', b', f1, f2, f3⟩ := intoBox_ok n1
  exact ⟨h', CBox.ofRust b',
    by simp [CBox.clone, CBox.deref, e1, f1, bind, Except.bind], f2, n2.trans f3⟩

theorem clone_box1_ok {h : Heap α} {b : CBox1} {d : List α} {c : Nat} (hv : PartsIs E h (b.ptr, 1, 1) d c) :
    ∃ h' b', b.clone E h = .ok (h', b') ∧ PartsIs E h' (b'.ptr, 1, 1) d d.length ∧
      Eff h h' none b'.ptr := by
  have e1 := readN_ok hv.rep
  have hl : 1 = d.length := hv.len
  simp only at e1
  rw [← hl] at e1
  obtain ⟨n1, n2⟩ := box1_new_ok (E := E) h (d.headD default)
  have hd : d = [d.headD default] := by
    match d, hl with
    | [x], _ => rfl
  refine ⟨(CBox1.new E h (d.headD default)).1, (CBox1.new E h (d.headD default)).2,
    by simp [CBox1.clone, CBox1.deref, e1, bind, Except.bind], ?_, n2⟩
  rw [← hd] at n1
  rw [← hl]
  exact n1

theorem read_val {h : Heap α} {p : Option Nat} {len cap : Nat} {d : List α} {c : Nat}
    (hv : PartsIs E h (p, len, cap) d c) : readN E h p len = .ok d := by
  have e1 := readN_ok hv.rep
  have hl : len = d.length := hv.len
  rw [hl]; exact e1

/-- Ill-typed operations change nothing. -/
theorem stepOk_same {s : State α} {a : Abs α} {op : Op α} {o : Out α} (R : Rel E s a)
    (h1 : step E s op = .ok (s, o)) (h2 : a.step E op = (a, o)) : StepOk E s a op :=
  ⟨s, by rw [h1, h2], by rw [h2]; exact R⟩

theorem step_toC {s : State α} {a : Abs α} (R : Rel E s a) (i : Nat) : StepOk E s a (.toC i) := by
  cases hv : s.var i with
  | none => exact stepOk_same R (o := .illTyped) (by simp only [step, hv]) (by simp only [Abs.step, R.get_none hv])
  | some w =>
    obtain ⟨⟨k, d, c⟩, g1, g2⟩ := R.get hv
    have hk := g2.kind
    have hp := g2.parts
    have ht := g2.text
    cases w <;> simp only [Val.kind] at hk <;> subst hk
    case rvec v =>
      exact ⟨s.set s.heap i (some (.cvec (CVec.ofRust E v))), by simp only [step, hv, Abs.step, g1, Kind.toC],
        by simp only [Abs.step, g1, Kind.toC]; exact R.set hv (Eff.refl _ _) ⟨rfl, ofRust_parts hp, ht⟩⟩
    case rstr v =>
      exact ⟨s.set s.heap i (some (.cstr (CVec.ofRust E v))), by simp only [step, hv, Abs.step, g1, Kind.toC],
        by simp only [Abs.step, g1, Kind.toC]; exact R.set hv (Eff.refl _ _) ⟨rfl, ofRust_parts hp, ht⟩⟩
    case rbs b =>
      exact ⟨s.set s.heap i (some (.cbs (CBox.ofRust b))), by simp only [step, hv, Abs.step, g1, Kind.toC],
        by simp only [Abs.step, g1, Kind.toC]; exact R.set hv (Eff.refl _ _) ⟨rfl, hp, ht⟩⟩
    case rbstr b =>
      exact ⟨s.set s.heap i (some (.cbstr (CBox.ofRust b))), by simp only [step, hv, Abs.step, g1, Kind.toC],
        by simp only [Abs.step, g1, Kind.toC]; exact R.set hv (Eff.refl _ _) ⟨rfl, hp, ht⟩⟩
    case rb b =>
      exact ⟨s.set s.heap i (some (.cb (CBox1.ofRust b))), by simp only [step, hv, Abs.step, g1, Kind.toC],
        by simp only [Abs.step, g1, Kind.toC]; exact R.set hv (Eff.refl _ _) ⟨rfl, hp, ht⟩⟩
    all_goals exact stepOk_same R (o := .illTyped) (by simp only [step, hv]) (by simp only [Abs.step, g1, Kind.toC])

theorem step_toRust {s : State α} {a : Abs α} (R : Rel E s a) (i : Nat) : StepOk E s a (.toRust i) := by
  cases hv : s.var i with
  | none => exact stepOk_same R (o := .illTyped) (by simp only [step, hv]) (by simp only [Abs.step, R.get_none hv])
  | some w =>
    obtain ⟨⟨k, d, c⟩, g1, g2⟩ := R.get hv
    have hk := g2.kind
    have hp := g2.parts
    have ht := g2.text
    cases w <;> simp only [Val.kind] at hk <;> subst hk
    case cvec v =>
      exact ⟨s.set s.heap i (some (.rvec v.toRust)), by simp only [step, hv, Abs.step, g1, Kind.toRust],
        by simp only [Abs.step, g1, Kind.toRust]; exact R.set hv (Eff.refl _ _) ⟨rfl, hp, ht⟩⟩
    case cstr v =>
      exact ⟨s.set s.heap i (some (.rstr v.toRust)), by simp only [step, hv, Abs.step, g1, Kind.toRust],
        by simp only [Abs.step, g1, Kind.toRust]; exact R.set hv (Eff.refl _ _) ⟨rfl, hp, ht⟩⟩
    case cbs b =>
      exact ⟨s.set s.heap i (some (.rbs b.toRust)), by simp only [step, hv, Abs.step, g1, Kind.toRust],
        by simp only [Abs.step, g1, Kind.toRust]; exact R.set hv (Eff.refl _ _) ⟨rfl, hp, ht⟩⟩
    case cbstr b =>
      exact ⟨s.set s.heap i (some (.rbstr b.toRust)), by simp only [step, hv, Abs.step, g1, Kind.toRust],
        by simp only [Abs.step, g1, Kind.toRust]; exact R.set hv (Eff.refl _ _) ⟨rfl, hp, ht⟩⟩
    case cb b =>
      exact ⟨s.set s.heap i (some (.rb b.toRust)), by simp only [step, hv, Abs.step, g1, Kind.toRust],
        by simp only [Abs.step, g1, Kind.toRust]; exact R.set hv (Eff.refl _ _) ⟨rfl, hp, ht⟩⟩
    all_goals exact stepOk_same R (o := .illTyped) (by simp only [step, hv]) (by simp only [Abs.step, g1, Kind.toRust])

theorem step_strToBoxC {s : State α} {a : Abs α} (R : Rel E s a) (i : Nat) : StepOk E s a (.strToBoxC i) := by
  cases hv : s.var i with
  | none => exact stepOk_same R (o := .illTyped) (by simp only [step, hv]) (by simp only [Abs.step, R.get_none hv])
  | some w =>
    obtain ⟨⟨k, d, c⟩, g1, g2⟩ := R.get hv
    have hk := g2.kind
    have hp := g2.parts
    have ht := g2.text
    cases w <;> simp only [Val.kind] at hk <;> subst hk
    case rstr v =>
      obtain ⟨h', b, f1, f2, f3⟩ := intoBox_ok (v := v) hp
      refine ⟨s.set h' i (some (.cbstr (CBox.ofRust b))), by simp [step, hv, Abs.step, g1, f1, bind, Except.bind], ?_⟩
      simp only [Abs.step, g1, if_true]
      exact R.set hv f3 ⟨rfl, f2, ht⟩
    all_goals exact stepOk_same R (o := .illTyped) (by simp only [step, hv]) (by simp [Abs.step, g1])

theorem step_boxCToStr {s : State α} {a : Abs α} (R : Rel E s a) (i : Nat) : StepOk E s a (.boxCToStr i) := by
  cases hv : s.var i with
  | none => exact stepOk_same R (o := .illTyped) (by simp only [step, hv]) (by simp only [Abs.step, R.get_none hv])
  | some w =>
    obtain ⟨⟨k, d, c⟩, g1, g2⟩ := R.get hv
    have hk := g2.kind
    have hp := g2.parts
    have ht := g2.text
    cases w <;> simp only [Val.kind] at hk <;> subst hk
    case cbstr b =>
      refine ⟨s.set s.heap i (some (.rstr b.toRust.intoVec)), by simp [step, hv, Abs.step, g1], ?_⟩
      simp only [Abs.step, g1, if_true]
      exact R.set hv (Eff.refl _ _) ⟨rfl, ⟨hp.rep, hp.len, fun _ => hp.len⟩, ht⟩
    all_goals exact stepOk_same R (o := .illTyped) (by simp only [step, hv]) (by simp [Abs.step, g1])

theorem step_clone {s : State α} {a : Abs α} (R : Rel E s a) (i : Nat) : StepOk E s a (.clone i) := by
  cases hv : s.var i with
  | none => exact stepOk_same R (o := .illTyped) (by simp only [step, hv]) (by simp only [Abs.step, R.get_none hv])
  | some w =>
    obtain ⟨⟨k, d, c⟩, g1, g2⟩ := R.get hv
    have hk := g2.kind
    have hp := g2.parts
    have ht := g2.text
    cases w <;> simp only [Val.kind] at hk <;> subst hk
    case cvec v =>
      obtain ⟨h', v', f1, f2, f3⟩ := clone_vec_ok (v := v) hp
      refine ⟨s.push h' (.cvec v'), by simp [step, hv, Abs.step, g1, f1, bind, Except.bind, Kind.cloneable], ?_⟩
      simp only [Abs.step, g1, Kind.cloneable, if_true]
      exact R.push f3 ⟨rfl, f2, ht⟩
    case cstr v =>
      obtain ⟨h', v', f1, f2, f3⟩ := clone_vec_ok (v := v) hp
      refine ⟨s.push h' (.cstr v'), by simp [step, hv, Abs.step, g1, f1, bind, Except.bind, Kind.cloneable], ?_⟩
      simp only [Abs.step, g1, Kind.cloneable, if_true]
      exact R.push f3 ⟨rfl, f2, ht⟩
    case cbs v =>
      obtain ⟨h', v', f1, f2, f3⟩ := clone_box_ok (b := v) hp
      refine ⟨s.push h' (.cbs v'), by simp [step, hv, Abs.step, g1, f1, bind, Except.bind, Kind.cloneable], ?_⟩
      simp only [Abs.step, g1, Kind.cloneable, if_true]
      exact R.push f3 ⟨rfl, f2, ht⟩
    case cb v =>
      obtain ⟨h', v', f1, f2, f3⟩ := clone_box1_ok (b := v) hp
      refine ⟨s.push h' (.cb v'), by simp [step, hv, Abs.step, g1, f1, bind, Except.bind, Kind.cloneable], ?_⟩
      simp only [Abs.step, g1, Kind.cloneable, if_true]
      exact R.push f3 ⟨rfl, f2, ht⟩
    all_goals exact stepOk_same R (o := .illTyped) (by simp only [step, hv]) (by simp [Abs.step, g1, Kind.cloneable])

theorem step_read {s : State α} {a : Abs α} (R : Rel E s a) (i : Nat) : StepOk E s a (.read i) := by
  cases hv : s.var i with
  | none => exact stepOk_same R (o := .illTyped) (by simp only [step, hv]) (by simp only [Abs.step, R.get_none hv])
  | some w =>
    obtain ⟨⟨k, d, c⟩, g1, g2⟩ := R.get hv
    have hk := g2.kind
    have hp := g2.parts
    cases w <;> simp only [Val.parts] at hp
    all_goals
      refine stepOk_same R (o := .contents d) ?_ (by simp only [Abs.step, g1])
      have hr := read_val hp
      simp [step, hv, CVec.deref, CBox.deref, CBox1.deref, hr, bind, Except.bind, pure, Except.pure]

theorem step_capacity {s : State α} {a : Abs α} (R : Rel E s a) (i : Nat) : StepOk E s a (.capacity i) := by
  cases hv : s.var i with
  | none => exact stepOk_same R (o := .illTyped) (by simp only [step, hv]) (by simp only [Abs.step, R.get_none hv])
  | some w =>
    obtain ⟨⟨k, d, c⟩, g1, g2⟩ := R.get hv
    have hk := g2.kind
    have hp := g2.parts
    have hcap : ∀ v : RVec, PartsIs E s.heap (v.ptr, v.len, v.cap) d c → v.capacity E = if E.zst then usizeMax else c := by
      intro v h
      simp only [RVec.capacity]
      split
      · rfl
      · rename_i hz; exact h.cap (by simpa using hz)
    cases w <;> simp only [Val.kind] at hk <;> subst hk <;> simp only [Val.parts] at hp
    case rvec v =>
      exact stepOk_same R (o := .num (v.capacity E)) (by simp only [step, hv]) (by simp [Abs.step, g1, hcap v hp])
    case rstr v =>
      exact stepOk_same R (o := .num (v.capacity E)) (by simp only [step, hv]) (by simp [Abs.step, g1, hcap v hp])
    all_goals exact stepOk_same R (o := .illTyped) (by simp only [step, hv]) (by simp [Abs.step, g1])

theorem write_ok {h : Heap α} {p : Option Nat} {len cap : Nat} {d : List α} {c k : Nat} {x : α}
    (hv : PartsIs E h (p, len, cap) d c) (hk : k < len) :
    ∃ h', writeAt E h p k [x] = .ok h' ∧ PartsIs E h' (p, len, cap) (d.set k x) c ∧ Eff h h' p p := by
  have hl : len = d.length := hv.len
  have hx : E.zst = true ∨ k + [x].length ≤ cap := by
    cases hz : E.zst
    · have := hv.rep.le hz
      simp only at this
      simp; omega
    · exact .inl rfl
  obtain ⟨h', f1, f2, f3⟩ := writeAt_ok hv.rep k [x] (by omega) hx
  refine ⟨h', f1, ⟨?_, by simpa using hl, hv.cap⟩, f3⟩
  rw [set_eq x (hl ▸ hk)] at f2; exact f2

theorem step_write {s : State α} {a : Abs α} (R : Rel E s a) (i k : Nat) (x : α) : StepOk E s a (.write i k x) := by
  cases hv : s.var i with
  | none => exact stepOk_same R (o := .illTyped) (by simp only [step, hv]) (by simp only [Abs.step, R.get_none hv])
  | some w =>
    obtain ⟨⟨kd, d, c⟩, g1, g2⟩ := R.get hv
    have hk := g2.kind
    have hp := g2.parts
    have ht := g2.text
    have key : kd.writable = true → (∀ p len cap, w.parts = (p, len, cap) →
        step E s (.write i k x) = (if k < len then do
          let xs ← readN E s.heap p len
          let h ← writeAt E s.heap p k [x]
          .ok (⟨h, s.vars⟩, .dropped ((xs.drop k).take 1))
        else .ok (s, .oob))) → StepOk E s a (.write i k x) := by
      intro hw hs
      obtain ⟨p, len, cap, hq⟩ : ∃ p len cap, w.parts = (p, len, cap) := ⟨_, _, _, rfl⟩
      have hs := hs p len cap hq
      rw [hq] at hp
      have hl : len = d.length := hp.len
      by_cases hlt : k < len
      · obtain ⟨h', f1, f2, f3⟩ := write_ok (x := x) hp hlt
        have hb : w.blk = p := by simp [Val.blk, hq]
        refine ⟨⟨h', s.vars⟩, ?_, ?_⟩
        · rw [hs, if_pos hlt]
          simp [read_val hp, f1, bind, Except.bind, Abs.step, g1, hw, ← hl, hlt, take_one (hl ▸ hlt) x]
        · simp only [Abs.step, g1, hw, if_true, if_pos (hl ▸ hlt)]
          refine R.inPlace hv (by rw [hb]; exact f3) ⟨g2.kind, by rw [hq]; exact f2, ?_⟩
          intro h
          cases kd <;> simp_all [Kind.isText, Kind.writable]
      · refine stepOk_same R (o := .oob) (by rw [hs, if_neg hlt]) ?_
        simp only [Abs.step, g1, hw, if_true, if_neg (hl ▸ hlt)]
    cases w <;> simp only [Val.kind] at hk <;> subst hk
    case cvec v => exact key rfl (fun p len cap hq => by cases hq; simp only [step, hv])
    case cbs v => exact key rfl (fun p len cap hq => by cases hq; simp only [step, hv])
    case cb v => exact key rfl (fun p len cap hq => by cases hq; simp only [step, hv])
    all_goals exact stepOk_same R (o := .illTyped) (by simp only [step, hv]) (by simp [Abs.step, g1, Kind.writable])

theorem step_edit {s : State α} {a : Abs α} (R : Rel E s a) (i : Nat) (e : Edit α) : StepOk E s a (.edit i e) := by
  cases hv : s.var i with
  | none => exact stepOk_same R (o := .illTyped) (by simp only [step, hv]) (by simp only [Abs.step, R.get_none hv])
  | some w =>
    obtain ⟨⟨kd, d, c⟩, g1, g2⟩ := R.get hv
    have hk := g2.kind
    cases w <;> simp only [Val.kind] at hk <;> subst hk
    case rvec v =>
      have RL : RelL E false i s v a (d, c) := R.borrow hv g1 rfl (fun h => h)
      obtain ⟨s', v', f1, f2⟩ := edit_ok RL e
      have hlen : i < s'.vars.length := by
        rw [f2.len, spec_len, ← R.len]; exact join_lt hv
      refine ⟨s'.set s'.heap i (some (.rvec v')), ?_, ?_⟩
      · simp only [step, hv, f1, bind, Except.bind, Abs.step, g1, true_or, if_true]; rfl
      · simp only [Abs.step, g1, true_or, if_true]
        exact f2.writeBack hlen rfl (fun hp ht => ⟨rfl, hp, fun h => by cases h⟩)
    case rstr v =>
      have RL : RelL E true i s v a (d, c) := R.borrow hv g1 rfl (fun h => h)
      obtain ⟨s', v', f1, f2⟩ := edit_ok RL e
      have hlen : i < s'.vars.length := by
        rw [f2.len, spec_len, ← R.len]; exact join_lt hv
      refine ⟨s'.set s'.heap i (some (.rstr v')), ?_, ?_⟩
      · simp only [step, hv, f1, bind, Except.bind, Abs.step, g1, or_true, if_true]; rfl
      · simp only [Abs.step, g1, or_true, if_true]
        exact f2.writeBack hlen rfl (fun hp ht => ⟨rfl, hp, fun _ => ht rfl⟩)
    all_goals exact stepOk_same R (o := .illTyped) (by simp only [step, hv]) (by simp [Abs.step, g1])

/-- `with_rust_mut` for an arbitrary closure which, lent a vector with contents `d`, leaves one with
the contents `d'` there. -/
theorem withRustMut_ok {Ret : Type} {str : Bool} {s : State α} {a a' : Abs α} (R : Rel E s a) {i : Nat}
    {c : CVec} {x : AVal α} {d' : List α × Nat} {r : Ret} {panicked : Bool}
    {f : State α → RVec → Except Fault (State α × RVec × Ret × Bool)}
    (hv : s.var i = some (if str then .cstr c else .cvec c)) (hx : a.var i = some x)
    (hf : RelL E str i s c.toRust a (x.data, x.cap) →
      ∃ s' v', f s c.toRust = .ok (s', v', r, panicked) ∧ RelL E str i s' v' a' d' ∧ a'.length = a.length) :
    ∃ s', withRustMut E s i c (fun c => if str then .cstr c else .cvec c) f = .ok (s', r, panicked) ∧
      Rel E s' (a'.set i (some ⟨if str then .cstr else .cvec, d'.1, d'.2⟩)) := by
  have RL : RelL E str i s c.toRust a (x.data, x.cap) := by
    refine R.borrow hv hx (by cases str <;> rfl) (fun h => mkVal ?_ ?_)
    · have := h.parts; cases str <;> exact this
    · intro hs; subst hs
      exact h.text (by rw [← h.kind]; rfl)
  obtain ⟨s', v', f1, f2, f3⟩ := hf RL
  have hlen : i < s'.vars.length := by
    rw [f2.len, f3, ← R.len]; exact join_lt hv
  refine ⟨s'.set s'.heap i (some (if str then .cstr (CVec.ofRust E v') else .cvec (CVec.ofRust E v'))),
    by simp only [withRustMut, f1, bind, Except.bind], ?_⟩
  refine f2.writeBack hlen (by cases str <;> rfl) (fun hp ht => ?_)
  cases str
  · exact ⟨rfl, ofRust_parts hp, fun h => by cases h⟩
  · exact ⟨rfl, ofRust_parts hp, fun _ => ht rfl⟩

theorem step_withMut {s : State α} {a : Abs α} (R : Rel E s a) (i : Nat) (es : List (Edit α)) (panics : Bool) :
    StepOk E s a (.withMut i es panics) := by
  cases hv : s.var i with
  | none => exact stepOk_same R (o := .illTyped) (by simp only [step, hv]) (by simp only [Abs.step, R.get_none hv])
  | some w =>
    obtain ⟨⟨kd, d, c⟩, g1, g2⟩ := R.get hv
    have hk := g2.kind
    cases w <;> simp only [Val.kind] at hk <;> subst hk
    case cvec v =>
      obtain ⟨s', f1, f2⟩ := withRustMut_ok (str := false) R (d' := (editsSpec E false i a (d, c) es).2.1)
        (a' := (editsSpec E false i a (d, c) es).1) (r := (editsSpec E false i a (d, c) es).2.2)
        (panicked := panics) (f := fun s v => do
            let (s', v', os) ← editsLocal E false i s v es
            .ok (s', v', os, panics)) hv g1 (fun RL => by
          obtain ⟨s', v', k1, k2⟩ := edits_ok es RL
          exact ⟨s', v', by simp only [k1, bind, Except.bind], k2, editsSpec_len⟩)
      refine ⟨s', ?_, ?_⟩
      · have f1' : withRustMut E s i v Val.cvec _ = _ := f1
        simp only [bind, Except.bind] at f1'
        simp only [step, hv, f1', bind, Except.bind, Abs.step, g1, true_or, if_true]
        rfl
      · simp only [Abs.step, g1, true_or, if_true]
        exact f2
    case cstr v =>
      obtain ⟨s', f1, f2⟩ := withRustMut_ok (str := true) R (d' := (editsSpec E true i a (d, c) es).2.1)
        (a' := (editsSpec E true i a (d, c) es).1) (r := (editsSpec E true i a (d, c) es).2.2)
        (panicked := panics) (f := fun s v => do
            let (s', v', os) ← editsLocal E true i s v es
            .ok (s', v', os, panics)) hv g1 (fun RL => by
          obtain ⟨s', v', k1, k2⟩ := edits_ok es RL
          exact ⟨s', v', by simp only [k1, bind, Except.bind], k2, editsSpec_len⟩)
      refine ⟨s', ?_, ?_⟩
      · have f1' : withRustMut E s i v Val.cstr _ = _ := f1
        simp only [bind, Except.bind] at f1'
        simp only [step, hv, f1', bind, Except.bind, Abs.step, g1, or_true, if_true]
        rfl
      · simp only [Abs.step, g1, or_true, if_true]
        exact f2
    all_goals exact stepOk_same R (o := .illTyped) (by simp only [step, hv]) (by simp [Abs.step, g1])

theorem step_drop {s : State α} {a : Abs α} (R : Rel E s a) (i : Nat) : StepOk E s a (.drop i) := by
  cases hv : s.var i with
  | none => exact stepOk_same R (o := .illTyped) (by simp only [step, hv]) (by simp only [Abs.step, R.get_none hv])
  | some w =>
    obtain ⟨⟨kd, d, c⟩, g1, g2⟩ := R.get hv
    have hp := g2.parts
    have key : ∀ p len cap, w.parts = (p, len, cap) →
        (step E s (.drop i) = do
          let (h, xs) ← (do let xs ← readN E s.heap p len; let h' ← dealloc E s.heap p cap; (.ok (h', xs) : Except Fault _))
          .ok (s.set h i none, .dropped xs)) → StepOk E s a (.drop i) := by
      intro p len cap hq hs
      rw [hq] at hp
      obtain ⟨h', f1, f2⟩ := drop_ok hp
      refine ⟨s.set h' i none, ?_, ?_⟩
      · rw [hs, f1]; simp [bind, Except.bind, Abs.step, g1]
      · simp only [Abs.step, g1]
        exact R.del hv (by simp only [Val.blk, hq]; exact f2)
    cases w
    all_goals exact key _ _ _ rfl (by simp only [step, hv]; rfl)

theorem step_ok {s : State α} {a : Abs α} (R : Rel E s a) (op : Op α) : StepOk E s a op := by
  cases op with
  | newVec c extra =>
    obtain ⟨n1, n2⟩ := new_ok (E := E) s.heap c extra
    exact ⟨_, rfl, R.push n2 ⟨rfl, n1, fun h => by cases h⟩⟩
  | newStr c extra =>
    by_cases ht : E.text c = true
    · obtain ⟨n1, n2⟩ := new_ok (E := E) s.heap c extra
      refine ⟨s.push (RVec.new E s.heap c extra).1 (.rstr (RVec.new E s.heap c extra).2), by simp [step, Abs.step, ht], ?_⟩
      simp only [Abs.step, ht, if_true]
      exact R.push n2 ⟨rfl, n1, fun _ => ht⟩
    · exact stepOk_same R (o := .illTyped) (by simp [step, ht]) (by simp [Abs.step, ht])
  | newBoxSlice c =>
    obtain ⟨n1, n2⟩ := box_new_ok (E := E) s.heap c
    exact ⟨_, rfl, R.push n2 ⟨rfl, n1, fun h => by cases h⟩⟩
  | newBoxStr c =>
    by_cases ht : E.text c = true
    · obtain ⟨n1, n2⟩ := box_new_ok (E := E) s.heap c
      refine ⟨s.push (RBox.new E s.heap c).1 (.rbstr (RBox.new E s.heap c).2), by simp [step, Abs.step, ht], ?_⟩
      simp only [Abs.step, ht, if_true]
      exact R.push n2 ⟨rfl, n1, fun _ => ht⟩
    · exact stepOk_same R (o := .illTyped) (by simp [step, ht]) (by simp [Abs.step, ht])
  | newBox x =>
    obtain ⟨n1, n2⟩ := box1_new_ok (E := E) s.heap x
    exact ⟨_, rfl, R.push n2 ⟨rfl, n1, fun h => by cases h⟩⟩
  | emptyVec => exact ⟨_, rfl, R.push (Eff.refl _ _) ⟨rfl, empty_parts _, fun h => by cases h⟩⟩
  | emptyStr => exact ⟨_, rfl, R.push (Eff.refl _ _) ⟨rfl, empty_parts _, fun _ => E.text_nil⟩⟩
  | defaultBoxSlice =>
    obtain ⟨n1, n2⟩ := box_new_ok (E := E) s.heap []
    exact ⟨_, rfl, R.push n2 ⟨rfl, n1, fun h => by cases h⟩⟩
  | toC i => exact step_toC R i
  | toRust i => exact step_toRust R i
  | strToBoxC i => exact step_strToBoxC R i
  | boxCToStr i => exact step_boxCToStr R i
  | clone i => exact step_clone R i
  | read i => exact step_read R i
  | capacity i => exact step_capacity R i
  | write i k x => exact step_write R i k x
  | edit i e => exact step_edit R i e
  | withMut i es p => exact step_withMut R i es p
  | drop i => exact step_drop R i

theorem run_ok (ops : List (Op α)) {s : State α} {a : Abs α} (R : Rel E s a) :
    ∃ s', run E s ops = .ok (s', (a.run E ops).2) ∧ Rel E s' (a.run E ops).1 := by
  induction ops generalizing s a with
  | nil => exact ⟨s, rfl, R⟩
  | cons op ops ih =>
    obtain ⟨s1, e1, R1⟩ := step_ok R op
    obtain ⟨s2, e2, R2⟩ := ih R1
    exact ⟨s2, by simp [run, e1, e2, bind, Except.bind, Abs.run], R2⟩

end
end Verif.Owned
