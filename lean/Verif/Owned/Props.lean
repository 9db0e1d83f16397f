import Verif.Owned.Step
import Verif.Owned.Slice
import Verif.CharP.Text
import Verif.Layout.Props

/-!
# Properties of the owning containers and the slices: C27 - C30

`Abs.run` (Spec.lean) is the specification machine: every container is a plain list, every variable
independent of the others.
-/
set_option linter.unusedSectionVars false
namespace Verif.Owned

instance {ε α : Type} [DecidableEq ε] [DecidableEq α] : DecidableEq (Except ε α)
  | .ok a, .ok b => if h : a = b then isTrue (by rw [h]) else isFalse (by intro e; cases e; exact h rfl)
  | .error a, .error b => if h : a = b then isTrue (by rw [h]) else isFalse (by intro e; cases e; exact h rfl)
  | .ok _, .error _ => isFalse (by intro e; cases e)
  | .error _, .ok _ => isFalse (by intro e; cases e)

section
variable {α : Type} [Inhabited α] (E : Elem α)

/-- The states a program can be in. -/
def Reach (s : State α) : Prop := ∃ ops outs, run E .init ops = .ok (s, outs)

theorem Reach.rel {s : State α} (h : Reach E s) : ∃ a, Rel E s a := by
  obtain ⟨ops, outs, h⟩ := h
  obtain ⟨s', e, R⟩ := run_ok (E := E) ops Rel.init
  rw [h] at e; cases e
  exact ⟨_, R⟩

/-! ## C27 -/

/-- C27: converting a `Vec` into a `repr_c::Vec` and back gives the same pointer, length and capacity
(and hence the same contents in the same allocation); for elements that are not zero-sized it is the
identity in both directions. -/
theorem C27_round_trip (v : RVec) (c : CVec) :
    ((CVec.ofRust E v).toRust.ptr = v.ptr ∧ (CVec.ofRust E v).toRust.len = v.len ∧
      (CVec.ofRust E v).toRust.capacity E = v.capacity E) ∧
    (E.zst = false → (CVec.ofRust E v).toRust = v ∧ CVec.ofRust E c.toRust = c) := by
  refine ⟨⟨rfl, rfl, ?_⟩, fun h => ⟨?_, ?_⟩⟩
  · simp only [RVec.capacity, CVec.toRust, CVec.ofRust]; split <;> rfl
  · simp [CVec.toRust, CVec.ofRust, RVec.capacity, h]
  · simp [CVec.toRust, CVec.ofRust, RVec.capacity, h]

/-- C27, C28, C29: a program which builds, converts, clones, edits, lends and drops these containers
never runs into undefined behaviour, and observes (contents, capacities, dropped elements, results of
closures) exactly what it would observe if every container were a plain list. -/
theorem C27_history (ops : List (Op α)) :
    ∃ s, run E .init ops = .ok (s, (Abs.run E [] ops).2) := by
  obtain ⟨s, h, _⟩ := run_ok (E := E) ops Rel.init
  exact ⟨s, h⟩

/-- C27: at any time each allocation that is not yet freed belongs to exactly one variable, and is
exactly as large as that variable's capacity says; when all variables are gone, everything has been
freed.  (A second release, or a release with another size, is a fault, which `C27_history` excludes.) -/
theorem C27_freed_once {s : State α} (h : Reach E s) :
    (∀ (k : Nat) (b : Block α), s.heap[k]? = some b → b.live = true →
      ∃ i v, s.var i = some v ∧ v.blk = some k ∧ b.mem.length = v.parts.2.2 ∧
        ∀ i' v', s.var i' = some v' → v'.blk = some k → i' = i) ∧
    ((∀ i, s.var i = none) → ∀ (k : Nat) (b : Block α), s.heap[k]? = some b → b.live = false) := by
  obtain ⟨a, R⟩ := h.rel
  constructor
  · intro k b hb hl
    obtain ⟨i, v, h1, h2⟩ := R.inv.owned k b hb hl
    refine ⟨i, v, h1, h2, ?_, fun i' v' g1 g2 => R.inv.uniq i' i v' v k g1 h1 g2 h2⟩
    obtain ⟨d, _, hv⟩ := R.inv.rep i v h1
    have h2' : v.parts.1 = some k := h2
    rcases hv.parts.rep with ⟨_, e⟩ | ⟨_, _, e, _⟩ | ⟨_, _, i', sp, e1, e2, e3⟩
    · rw [e] at h2'; cases h2'
    · rw [e] at h2'; cases h2'
    · rw [h2'] at e1; cases e1
      rw [hb] at e2; cases e2
      simpa using e3
  · intro hn k b hb
    cases hl : b.live
    · rfl
    · obtain ⟨i, v, h1, _⟩ := R.inv.owned k b hb hl
      rw [hn i] at h1; cases h1

/-- C27, C29: the conversions between the Rust and the C types touch no memory at all and keep the
allocation. -/
theorem C27_same_allocation {s s' : State α} {i : Nat} {o : Out α} :
    (step E s (.toC i) = .ok (s', o) ∨ step E s (.toRust i) = .ok (s', o)) →
    s'.heap = s.heap ∧ ∀ j, (s'.var j).map Val.blk = (s.var j).map Val.blk := by
  have key : ∀ v w : Val, s.var i = some v → v.blk = w.blk →
      (s.set s.heap i (some w)).heap = s.heap ∧
      ∀ j, ((s.set s.heap i (some w)).var j).map Val.blk = (s.var j).map Val.blk := by
    intro v w hv hb
    refine ⟨rfl, fun j => ?_⟩
    have := congrFun (join_set s.vars (some w) (join_lt hv)) j
    simp only [State.var, State.set] at this ⊢
    rw [this]
    simp only [upd]
    split
    · rename_i e; subst e
      have hv' : (s.vars[j]?).join = some v := hv
      rw [hv']; simp [hb]
    · rfl
  intro hs
  rcases hs with hs | hs
  all_goals
    cases hv : s.var i with
    | none => simp only [step, hv] at hs; cases hs; exact ⟨rfl, fun _ => rfl⟩
    | some v =>
      cases v <;> simp only [step, hv] at hs <;> cases hs
      all_goals first
        | exact ⟨rfl, fun _ => rfl⟩
        | exact key _ _ hv rfl

/-! ## C28 -/

/-- C28: after `x.with_rust_mut(f)`, at any point of any program, the variable holds the vector that
`f` left there: the result of `f`'s edits (`editsSpec`, on plain lists) on the contents it held before,
whether `f` returned or panicked; the state afterwards does not depend on which. -/
theorem C28_writes_back {s : State α} {ops : List (Op α)} {outs : List (Out α)}
    (h : run E .init ops = .ok (s, outs)) {i : Nat} {c : List α} {cap : Nat}
    (hc : Abs.var (Abs.run E [] ops).1 i = some ⟨.cvec, c, cap⟩) (es : List (Edit α)) (panics : Bool) :
    ∃ s', step E s (.withMut i es panics) =
        .ok (s', .closure (editsSpec E false i (Abs.run E [] ops).1 (c, cap) es).2.2 panics) ∧
      step E s' (.read i) =
        .ok (s', .contents (editsSpec E false i (Abs.run E [] ops).1 (c, cap) es).2.1.1) ∧
      step E s (.withMut i es (!panics)) =
        .ok (s', .closure (editsSpec E false i (Abs.run E [] ops).1 (c, cap) es).2.2 (!panics)) := by
  obtain ⟨s0, e0, R⟩ := run_ok (E := E) ops Rel.init
  rw [h] at e0; cases e0
  generalize (Abs.run E [] ops).1 = a at R hc
  cases hv : s.var i with
  | none => rw [R.get_none hv] at hc; cases hc
  | some v =>
  obtain ⟨x, g1, g2⟩ := R.get hv
  rw [hc] at g1; cases g1
  have hk := g2.kind
  obtain ⟨s', e1, R1⟩ := step_withMut R i es panics
  obtain ⟨s2, e2, R2⟩ := step_withMut R i es (!panics)
  simp only [Abs.step, hc, true_or, if_true] at e1 e2 R1
  have hi : i < (editsSpec E (Kind.cvec == Kind.cstr) i a (c, cap) es).1.length := by
    rw [editsSpec_len, ← R.len]; exact join_lt hv
  have hs2 : s2 = s' := by
    cases v <;> simp only [Val.kind, reduceCtorEq] at hk
    rename_i v
    simp only [step, hv, withRustMut, bind, Except.bind] at e1 e2
    cases hE : editsLocal E false i s v.toRust es with
    | error f => rw [hE] at e1; cases e1
    | ok r =>
      rw [hE] at e1 e2
      simp only [Except.ok.injEq, Prod.mk.injEq] at e1 e2
      rw [← e1.1, ← e2.1]
  refine ⟨s', e1, ?_, by rw [← hs2]; exact e2⟩
  obtain ⟨s3, e3, R3⟩ := step_read R1 i
  simp only [Abs.step, Abs.var, List.getElem?_set_self hi, Option.join] at e3
  have : s3 = s' := by
    have hs : ∀ (t : State α) (r : State α × Out α), step E t (.read i) = .ok r → r.1 = t := by
      intro t r hr
      cases hw : t.var i with
      | none => simp only [step, hw] at hr; cases hr; rfl
      | some w =>
        cases w <;> simp only [step, hw, CVec.deref, CBox.deref, CBox1.deref, bind, Except.bind] at hr <;>
          (split at hr <;> cases hr <;> rfl)
    exact hs _ _ e3
  rw [this] at e3
  exact e3

/-- C28 for an arbitrary closure.  `Lent s v d` (`RelL`): the vector of the variable `i` is the local
`v`, with contents `d`, and every other variable is intact.  Whatever a closure does to the vector it
is lent, if it leaves things in such a state then `with_rust_mut` leaves the program in a good state in
which the variable holds the closure's last version, whether the closure returned or panicked. -/
theorem C28_any_closure {Ret : Type} {s : State α} {a a' : Abs α} (R : Rel E s a) {i : Nat}
    {c : CVec} {x : AVal α} {d' : List α × Nat} {r : Ret} {panicked : Bool}
    {f : State α → RVec → Except Fault (State α × RVec × Ret × Bool)}
    (hv : s.var i = some (.cvec c)) (hx : a.var i = some x)
    (hf : RelL E false i s c.toRust a (x.data, x.cap) →
      ∃ s' v', f s c.toRust = .ok (s', v', r, panicked) ∧ RelL E false i s' v' a' d' ∧
        a'.length = a.length) :
    ∃ s', withRustMut E s i c .cvec f = .ok (s', r, panicked) ∧
      Rel E s' (a'.set i (some ⟨.cvec, d'.1, d'.2⟩)) :=
  withRustMut_ok (str := false) R hv hx hf

/-! ## C29 -/

/-- C29: the conversions of boxed slices, boxed strings and boxes are the identity on the pointer and
the length, in both directions. -/
theorem C29_round_trip (b : RBox) (c : CBox) (b1 : RBox1) (c1 : CBox1) :
    (CBox.ofRust b).toRust = b ∧ CBox.ofRust c.toRust = c ∧
    (CBox1.ofRust b1).toRust = b1 ∧ CBox1.ofRust c1.toRust = c1 := ⟨rfl, rfl, rfl, rfl⟩

/-- C29: an empty boxed slice or vector owns no allocation. -/
theorem C29_empty {s : State α} (h : Reach E s) {i : Nat} {v : Val} (hv : s.var i = some v)
    (h0 : v.parts.2.2 = 0) : v.blk = none := by
  obtain ⟨a, R⟩ := h.rel
  obtain ⟨d, _, g⟩ := R.get hv
  rcases g.parts.rep with ⟨_, e⟩ | ⟨_, _, e, _⟩ | ⟨_, e, _⟩
  · exact e
  · exact e
  · exact absurd h0 e

/-- The variable `i` occurs in the operation. -/
def Edit.uses (i : Nat) : Edit α → Bool
  | .swap j => j == i
  | _ => false

def Op.uses (i : Nat) : Op α → Bool
  | .newVec _ _ | .newStr _ _ | .newBoxSlice _ | .newBoxStr _ | .newBox _ => false
  | .emptyVec | .emptyStr | .defaultBoxSlice => false
  | .toC j | .toRust j | .strToBoxC j | .boxCToStr j | .clone j | .read j | .capacity j
  | .write j _ _ | .drop j => j == i
  | .edit j e => j == i || e.uses i
  | .withMut j es _ => j == i || es.any (Edit.uses i)

theorem var_push {a : Abs α} {i : Nat} (hi : i < a.length) (x : Option (AVal α)) : Abs.var (a ++ [x]) i = a.var i := by
  simp [Abs.var, List.getElem?_append_left hi]

theorem var_set {a : Abs α} {i j : Nat} (h : j ≠ i) (x : Option (AVal α)) : Abs.var (a.set j x) i = a.var i := by
  simp [Abs.var, List.getElem?_set_ne h]

theorem spec_other {str : Bool} {i j : Nat} {a : Abs α} {d : List α} {c : Nat} {e : Edit α} (h : e.uses i = false) :
    Abs.var (e.spec E str j a d c).1 i = a.var i := by
  unfold Edit.spec
  split
  · rfl
  · cases e with
    | swap k =>
      have hk : k ≠ i := by simpa [Edit.uses] using h
      simp only
      split
      · rfl
      · split
        · split <;> split <;> first | rfl | exact var_set hk _
        · rfl
    | set k x => simp only; split <;> rfl
    | _ => rfl

theorem editsSpec_other {str : Bool} {i j : Nat} (es : List (Edit α)) {a : Abs α} {d : List α × Nat}
    (h : es.any (Edit.uses i) = false) :
    Abs.var (editsSpec E str j a d es).1 i = a.var i := by
  induction es generalizing a d with
  | nil => rfl
  | cons e es ih =>
    simp only [List.any_cons, Bool.or_eq_false_iff] at h
    simp only [editsSpec]
    rw [ih h.2, spec_other E h.1]

theorem abs_other {a : Abs α} {i : Nat} (hi : i < a.length) {op : Op α} (h : op.uses i = false) :
    Abs.var (a.step E op).1 i = a.var i := by
  cases op <;> simp only [Op.uses, beq_eq_false_iff_ne, Bool.or_eq_false_iff] at h <;>
    simp only [Abs.step] <;> (repeat' split) <;>
    first
      | rfl
      | exact var_push hi _
      | exact var_set h _
      | (rw [var_set h.1]; first | exact spec_other E h.2 | exact editsSpec_other E _ h.2)

/-- C29: no operation on other variables — drops, writes, edits, conversions, clones — changes what a
variable holds.  In particular a clone and its original are independent. -/
theorem C29_independent {s s' : State α} (h : Reach E s) {i : Nat} {op : Op α} {o : Out α} {c : List α}
    (hc : step E s (.read i) = .ok (s, .contents c)) (hop : op.uses i = false)
    (hs : step E s op = .ok (s', o)) : ∃ s'', step E s' (.read i) = .ok (s'', .contents c) := by
  obtain ⟨a, R⟩ := h.rel
  obtain ⟨s1, e1, R1⟩ := step_ok R op
  rw [hs] at e1; cases e1
  cases hv : s.var i with
  | none => simp only [step, hv] at hc; cases hc
  | some v =>
    obtain ⟨x, g1, _⟩ := R.get hv
    have hi : i < a.length := by rw [← R.len]; exact join_lt hv
    obtain ⟨s2, e2, _⟩ := step_read R i
    rw [hc] at e2
    simp only [Abs.step, g1] at e2
    cases e2
    obtain ⟨s3, e3, _⟩ := step_read R1 i
    refine ⟨s3, ?_⟩
    have hx := abs_other E hi hop
    generalize (a.step E op).1 = a1 at e3 hx
    simp only [Abs.step, hx, g1] at e3
    exact e3

/-- C29: a clone has the contents of the original, in an allocation of its own (with no spare room). -/
theorem C29_clone {s : State α} (h : Reach E s) {i : Nat} {c : List α} {v : Val}
    (hv : s.var i = some v) (hcl : v.kind.cloneable = true)
    (hc : step E s (.read i) = .ok (s, .contents c)) :
    ∃ s' w, step E s (.clone i) = .ok (s', .unit) ∧ s'.var s.vars.length = some w ∧ w.kind = v.kind ∧
      (∃ s'', step E s' (.read s.vars.length) = .ok (s'', .contents c)) ∧
      (∀ k, w.blk = some k → ∀ j u, s'.var j = some u → u.blk = some k → j = s.vars.length) := by
  obtain ⟨a, R⟩ := h.rel
  obtain ⟨x, g1, g2⟩ := R.get hv
  obtain ⟨s2, e2, _⟩ := step_read R i
  rw [hc] at e2
  simp only [Abs.step, g1] at e2
  cases e2
  obtain ⟨s1, e1, R1⟩ := step_clone R i
  have hcl' : x.kind.cloneable = true := by rw [← g2.kind]; exact hcl
  simp only [Abs.step, g1, hcl', if_true] at e1 R1
  have hx : Abs.var (a ++ [some { x with cap := x.data.length }]) s.vars.length
      = some { x with cap := x.data.length } := by
    rw [R.len]; simp [Abs.var]
  cases hw : s1.var s.vars.length with
  | none => rw [R1.get_none hw] at hx; cases hx
  | some w =>
    obtain ⟨y, k1, k2⟩ := R1.get hw
    rw [hx] at k1; cases k1
    refine ⟨s1, w, e1, hw, by rw [k2.kind, g2.kind], ?_, ?_⟩
    · obtain ⟨s3, e3, _⟩ := step_read R1 s.vars.length
      simp only [Abs.step, hx] at e3
      exact ⟨s3, e3⟩
    · intro k hk j u hj hu
      exact R1.inv.uniq _ _ _ _ _ hj hw hu hk
end

/-! ## Examples for C27 - C29 -/

/-- Bytes, with Rust's notion of text. -/
def u8 : Elem UInt8 where
  zst := false
  text := CharP.validUtf8
  zst_eq h := by cases h
  text_nil := CharP.valid_nil
  text_append a b ha hb := by
    obtain ⟨x, rfl⟩ := (CharP.validUtf8_iff a).1 ha
    obtain ⟨y, rfl⟩ := (CharP.validUtf8_iff b).1 hb
    exact (CharP.validUtf8_iff _).2 ⟨x ++ y, by simp [CharP.utf8]⟩

/-- `()`. -/
def unit : Elem Unit where
  zst := true
  text _ := true
  zst_eq _ _ _ := rfl
  text_nil := rfl
  text_append _ _ _ _ := rfl

-- A vector crosses to C, is grown past its capacity by a panicking closure, cloned, and both dropped.
example : (run u8 .init [.newVec [1, 2] 1, .toC 0, .withMut 0 [.extend [3, 4] 5, .set 0 9] true, .clone 0,
      .write 1 0 7, .read 0, .drop 0, .read 1, .toRust 1, .capacity 1, .drop 1]).map Prod.snd =
    .ok [.unit, .unit, .closure [.unit, .dropped [1]] true, .unit, .dropped [9], .contents [9, 2, 3, 4],
      .dropped [9, 2, 3, 4], .contents [7, 2, 3, 4], .unit, .num 4, .dropped [7, 2, 3, 4]] := by decide +kernel

-- A closure that swaps the lent vector with another one, then replaces it.
example : (run u8 .init [.newVec [1] 0, .newVec [2, 3] 0, .toC 0, .withMut 0 [.swap 1, .pop] false, .read 0,
      .read 1, .withMut 0 [.replace [] 0, .truncate 0] true, .drop 0, .drop 1]).map Prod.snd =
    .ok [.unit, .unit, .unit, .closure [.unit, .popped (some 3)] false, .contents [2], .contents [1],
      .closure [.dropped [2], .dropped []] true, .dropped [], .dropped [1]] := by decide +kernel

-- Strings and boxed strings: "hé".
example : (run u8 .init [.newStr [104, 0xC3, 0xA9] 10, .strToBoxC 0, .read 0, .boxCToStr 0, .toC 0, .clone 0,
      .withMut 0 [.extend [33] 0] false, .read 0, .read 1, .drop 0, .drop 1, .newStr [0xFF] 0]).map Prod.snd =
    .ok [.unit, .unit, .contents [104, 0xC3, 0xA9], .unit, .unit, .unit, .closure [.unit] false,
      .contents [104, 0xC3, 0xA9, 33], .contents [104, 0xC3, 0xA9], .dropped [104, 0xC3, 0xA9, 33],
      .dropped [104, 0xC3, 0xA9], .illTyped] := by decide +kernel

-- Zero-sized elements: no allocation, a capacity of `usize::MAX`, three drops.
example : (run unit .init [.newVec [(), ()] 0, .toC 0, .withMut 0 [.extend [()] 0] true, .toRust 0, .capacity 0,
      .drop 0]) =
    .ok (⟨[], [none]⟩, [.unit, .unit, .closure [.unit] true, .unit, .num (2 ^ 64 - 1), .dropped [(), (), ()]]) := by
  decide +kernel

-- A non-trivial reachable state for the hypotheses of C27_freed_once, C28_writes_back and C29_clone.
example : ∃ s, Reach u8 s ∧ (∃ v, s.var 0 = some (.cvec v)) ∧
    step u8 s (.read 0) = .ok (s, .contents [1, 2, 3]) ∧
    (∃ b, s.heap[0]? = some b ∧ b.live = true) := by
  refine ⟨_, ⟨[.newVec [1, 2, 3] 4, .toC 0], _, rfl⟩, ⟨_, rfl⟩, by decide +kernel, ⟨_, rfl, rfl⟩⟩

/-! ## C30 -/
namespace Slice
variable {α : Type}

theorem conv_fat {c : Conv} {v v' : View} (h : conv c v = some v') : v'.fat = v.fat := by
  cases c <;> cases v <;> simp only [conv, Option.some.injEq, reduceCtorEq] at h <;> subst h <;> rfl

theorem convs_fat {cs : List Conv} {v v' : View} (h : convs cs v = some v') : v'.fat = v.fat := by
  induction cs generalizing v with
  | nil => cases h; rfl
  | cons c cs ih =>
    simp only [convs] at h
    cases hc : conv c v with
    | none => rw [hc] at h; cases h
    | some w => rw [hc] at h; rw [ih h, conv_fat hc]

/-- C30: along any chain of conversions between the slice types the elements denoted, their order
and their addresses stay the same. -/
theorem C30_same_memory {cs : List Conv} {v v' : View} (h : convs cs v = some v') :
    v'.fat.ptr = v.fat.ptr ∧ v'.fat.len = v.fat.len ∧
    ∀ (sz : Nat) (m : Mem α), elems sz m v'.fat = elems sz m v.fat := by
  rw [convs_fat h]; exact ⟨rfl, rfl, fun _ _ => rfl⟩

/-- C30: writing through one view is seen through all views of the same slice: exactly the written
element changes. -/
theorem C30_write_through {cs cs' : List Conv} {v v1 v2 : View} (h1 : convs cs v = some v1)
    (h2 : convs cs' v = some v2) {sz : Nat} (hsz : 0 < sz) {m m' : Mem α} {k : Nat} {x : α}
    (hw : write sz m v1.fat k x = some m') :
    k < v.fat.len ∧ elems sz m' v2.fat = (elems sz m v.fat).set k x := by
  rw [convs_fat h1] at hw
  rw [convs_fat h2]
  unfold write at hw
  split at hw
  · rename_i hk
    cases hw
    refine ⟨hk, ?_⟩
    apply List.ext_getElem
    · simp [elems]
    · intro n hn1 hn2
      simp only [elems, List.getElem_map, List.getElem_range, List.getElem_set]
      by_cases e : k = n
      · subst e; simp
      · rw [if_neg e, if_neg]
        intro he
        have : n * sz = k * sz := by omega
        exact e (Nat.eq_of_mul_eq_mul_right hsz this).symm
  · cases hw

theorem sliceEq_iff {eq : α → α → Bool} (he : ∀ a b, eq a b = true ↔ a = b) (l r : List α) :
    sliceEq eq l r = true ↔ l = r := by
  induction l generalizing r with
  | nil => cases r <;> simp [sliceEq]
  | cons a l ih => cases r with
    | nil => simp [sliceEq]
    | cons b r => simp [sliceEq, he, ih]

theorem sliceCmp_lt {cmp : α → α → Ordering} (he : ∀ a b, cmp a b = .eq ↔ a = b) (l r : List α) :
    sliceCmp cmp l r = .lt ↔
      ∃ p l' r', l = p ++ l' ∧ r = p ++ r' ∧
        ((l' = [] ∧ r' ≠ []) ∨ ∃ a b l'' r'', l' = a :: l'' ∧ r' = b :: r'' ∧ cmp a b = .lt) := by
  induction l generalizing r with
  | nil =>
    cases r with
    | nil => simp [sliceCmp]
    | cons b r =>
      simp only [sliceCmp, true_iff]
      exact ⟨[], [], b :: r, rfl, rfl, .inl ⟨rfl, by simp⟩⟩
  | cons a l ih =>
    cases r with
    | nil =>
      simp only [sliceCmp, reduceCtorEq, false_iff]
      rintro ⟨p, l', r', h1, h2, h3⟩
      have h4 := List.append_eq_nil_iff.1 h2.symm
      rcases h3 with ⟨_, h5⟩ | ⟨_, _, _, _, _, h5, _⟩
      · exact h5 h4.2
      · rw [h4.2] at h5; cases h5
    | cons b r =>
      have e : sliceCmp cmp (a :: l) (b :: r) = .lt ↔ cmp a b = .lt ∨ (a = b ∧ sliceCmp cmp l r = .lt) := by
        rw [← he a b]
        simp only [sliceCmp]
        cases cmp a b <;> simp
      rw [e, ih]
      constructor
      · rintro (h | ⟨rfl, p, l', r', rfl, rfl, h⟩)
        · exact ⟨[], a :: l, b :: r, rfl, rfl, .inr ⟨a, b, l, r, rfl, rfl, h⟩⟩
        · exact ⟨a :: p, l', r', rfl, rfl, h⟩
      · rintro ⟨p, l', r', h1, h2, h3⟩
        cases p with
        | nil =>
          simp only [List.nil_append] at h1 h2
          subst h1; subst h2
          rcases h3 with ⟨h3, _⟩ | ⟨_, _, _, _, h4, h5, h6⟩
          · cases h3
          · cases h4; cases h5; exact .inl h6
        | cons c p =>
          simp only [List.cons_append, List.cons.injEq] at h1 h2
          exact .inr ⟨h1.1.trans h2.1.symm, p, l', r', h1.2, h2.2, h3⟩

/-- C30: two slices of any of the three types are equal exactly when their contents are, wherever
they are in memory (for element types whose `==` is equality). -/
theorem C30_equality {eq : α → α → Bool} (he : ∀ a b, eq a b = true ↔ a = b) (sz : Nat) (m : Mem α) :
    (∀ a b : SliceRef, refEq eq sz m a b = true ↔ elems sz m ⟨a.ptr, a.len⟩ = elems sz m ⟨b.ptr, b.len⟩) ∧
    (∀ a b : SliceMut, mutEq eq sz m a b = true ↔ elems sz m ⟨a.ptr, a.len⟩ = elems sz m ⟨b.ptr, b.len⟩) ∧
    (∀ a b : SliceBoxed, boxEq eq sz m a b = true ↔ elems sz m ⟨a.ptr, a.len⟩ = elems sz m ⟨b.ptr, b.len⟩) :=
  ⟨fun _ _ => sliceEq_iff he _ _, fun _ _ => sliceEq_iff he _ _, fun _ _ => sliceEq_iff he _ _⟩

/-- `l` comes before `r` in lexicographic order. -/
def LexLt (cmp : α → α → Ordering) (l r : List α) : Prop :=
  ∃ p l' r', l = p ++ l' ∧ r = p ++ r' ∧
    ((l' = [] ∧ r' ≠ []) ∨ ∃ a b l'' r'', l' = a :: l'' ∧ r' = b :: r'' ∧ cmp a b = .lt)

/-- C30: the order on slices is the lexicographic order of their contents. -/
theorem C30_order {cmp : α → α → Ordering} (he : ∀ a b, cmp a b = .eq ↔ a = b) (sz : Nat) (m : Mem α) :
    (∀ a b : SliceRef, refCmp cmp sz m a b = .lt ↔ LexLt cmp (elems sz m ⟨a.ptr, a.len⟩) (elems sz m ⟨b.ptr, b.len⟩)) ∧
    (∀ a b : SliceMut, mutCmp cmp sz m a b = .lt ↔ LexLt cmp (elems sz m ⟨a.ptr, a.len⟩) (elems sz m ⟨b.ptr, b.len⟩)) ∧
    (∀ a b : SliceBoxed, boxCmp cmp sz m a b = .lt ↔ LexLt cmp (elems sz m ⟨a.ptr, a.len⟩) (elems sz m ⟨b.ptr, b.len⟩)) :=
  ⟨fun _ _ => sliceCmp_lt he _ _, fun _ _ => sliceCmp_lt he _ _, fun _ _ => sliceCmp_lt he _ _⟩

open Layout in
/-- C30: an `Option` of a slice (two fields, and for the borrowed ones a `PhantomData`) received from C
with a null pointer is accepted whatever its length field holds, and it is `None`; with a non-null
pointer it is never `None`. -/
theorem C30_null_is_none (tg : Target) (k : RefKind) (t : Ty) (ht : 0 < alignOf' tg t) (bs : List UInt8)
    (phantom : List Ty) (hp : phantom = [] ∨ phantom = [.unit])
    (hl : bs.length = sizeOf' tg (.option (.struct true (.ref k t :: .int .usize :: phantom)))) :
    (natOf tg (slice bs 0 tg.ptrSize) = 0 →
      fromRaw tg (.option (.struct true (.ref k t :: .int .usize :: phantom))) bs = .ok (some bs)) ∧
    (Enc tg true (.option (.struct true (.ref k t :: .int .usize :: phantom))) .none bs ↔
      natOf tg (slice bs 0 tg.ptrSize) = 0) := by
  have h2 : Enc tg true (.option (.struct true (.ref k t :: .int .usize :: phantom))) .none bs ↔
      natOf tg (slice bs 0 tg.ptrSize) = 0 := by
    simp only [Enc, NoneImage]
    exact ⟨fun h => h.2, fun h => ⟨hl, h⟩⟩
  refine ⟨fun h0 => ?_, h2⟩
  refine (C20_never_rejects_partial tg _ _ bs ?_ (h2.2 h0)).2.1
  rcases hp with rfl | rfl <;> simp [supported, supportedFields, hasNiche, ht]

-- A chain through all the types, and a write through a mutable view.
example : convs [.asMut, .toRaw, .asMut, .asMut, .toRef, .clone, .toRaw, .asRef, .toSlice] (.vec ⟨64, 3, 5⟩) =
    some (.rref ⟨64, 3⟩) := by decide
example : ∃ m', write 4 (fun p => p) (View.cmut ⟨64, 3⟩).fat 1 7 = some m' ∧ elems 4 m' ⟨64, 3⟩ = [64, 7, 72] :=
  ⟨_, rfl, rfl⟩
example : refCmp compare 1 (fun p => if p < 10 then p else p - 10) ⟨0, 3⟩ ⟨10, 4⟩ = .lt := by decide
open Layout in
example : fromRaw x86_64 (.option (.struct true [.ref .ref (.int .u32), .int .usize]))
    ([0, 0, 0, 0, 0, 0, 0, 0] ++ [255, 1, 2, 3, 4, 5, 6, 7]) = .ok (some
    ([0, 0, 0, 0, 0, 0, 0, 0] ++ [255, 1, 2, 3, 4, 5, 6, 7])) := by decide +kernel
end Slice
end Verif.Owned
