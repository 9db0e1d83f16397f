import Verif.Owned.Spec

/-! # What each function does to the heap -/
set_option linter.unusedSectionVars false
namespace Verif.Owned

section
variable {α : Type}

theorem lt_of_some {β : Type} {h : List β} {k : Nat} {b : β} (e : h[k]? = some b) : k < h.length := by
  rcases Nat.lt_or_ge k h.length with h1 | h1
  · exact h1
  · rw [List.getElem?_eq_none h1] at e; cases e

/-- `h'` differs from `h` only by having released block `inp` and by owning block `out`. -/
structure Eff (h h' : Heap α) (inp out : Option Nat) : Prop where
  frame : ∀ k, k < h.length → some k ≠ inp → h'[k]? = h[k]?
  grow : h.length ≤ h'.length
  lives : ∀ (k : Nat) (b : Block α), h'[k]? = some b → b.live = true → (k < h.length ∧ some k ≠ inp) ∨ some k = out
  fresh : ∀ k, out = some k → inp = some k ∨ h.length ≤ k

theorem Eff.refl (h : Heap α) (a : Option Nat) : Eff h h a a where
  frame _ _ _ := rfl
  grow := Nat.le_refl _
  lives k b hb _ := by
    by_cases e : some k = a
    · exact .inr e
    · exact .inl ⟨lt_of_some hb, e⟩
  fresh k e := .inl e

theorem Eff.trans {h h' h'' : Heap α} {a b c : Option Nat} (x : Eff h h' a b) (y : Eff h' h'' b c) :
    Eff h h'' a c where
  frame k hk ha := by
    have hb : some k ≠ b := by
      intro e
      rcases x.fresh k e.symm with e' | e'
      · exact ha e'.symm
      · omega
    rw [y.frame k (Nat.lt_of_lt_of_le hk x.grow) hb, x.frame k hk ha]
  grow := Nat.le_trans x.grow y.grow
  lives k blk hk hl := by
    rcases y.lives k blk hk hl with ⟨h1, h2⟩ | h1
    · rw [y.frame k h1 h2] at hk
      rcases x.lives k blk hk hl with h3 | h3
      · exact .inl h3
      · exact absurd h3 h2
    · exact .inr h1
  fresh k e := by
    rcases y.fresh k e with e' | e'
    · exact x.fresh k e'
    · exact .inr (Nat.le_trans x.grow e')

theorem free_eff {h : Heap α} {i : Nat} {m : List (Option α)} (e : h[i]? = some ⟨m, true⟩) :
    Eff h (h.set i ⟨m, false⟩) (some i) none where
  frame k _ hne := by
    have : i ≠ k := fun e => hne (by rw [e])
    simp [this]
  grow := by simp
  lives k b hb hl := by
    by_cases hk : i = k
    · subst hk
      rw [List.getElem?_set_self (lt_of_some e)] at hb
      cases hb; simp at hl
    · rw [List.getElem?_set_ne hk] at hb
      exact .inl ⟨lt_of_some hb, fun e => hk (by cases e; rfl)⟩
  fresh k e := by cases e

theorem push_eff (h : Heap α) (b : Block α) : Eff h (h ++ [b]) none (some h.length) where
  frame k hk _ := by rw [List.getElem?_append_left hk]
  grow := by simp
  lives k b' hb _ := by
    rcases Nat.lt_or_ge k h.length with h1 | h1
    · exact .inl ⟨h1, by simp⟩
    · have := lt_of_some hb
      simp at this
      exact .inr (by rw [show k = h.length by omega])
  fresh k e := by simp only [Option.some.injEq] at e; exact .inr (by omega)

theorem set_eff {h : Heap α} {i : Nat} {b' : Block α} :
    Eff h (h.set i b') (some i) (some i) where
  frame k _ hne := by
    have : i ≠ k := fun e => hne (by rw [e])
    simp [this]
  grow := by simp
  lives k b hb hl := by
    by_cases hk : i = k
    · exact .inr (by rw [hk])
    · rw [List.getElem?_set_ne hk] at hb
      exact .inl ⟨lt_of_some hb, fun e => hk (by cases e; rfl)⟩
  fresh k e := .inl e

variable [Inhabited α] (E : Elem α)

/-- Storage for `cap` elements at `p`, the first of which are initialised to `c`. -/
def Rep (h : Heap α) (p : Option Nat) (cap : Nat) (c : List α) : Prop :=
  (E.zst = true ∧ p = none) ∨
  (E.zst = false ∧ cap = 0 ∧ p = none ∧ c = []) ∨
  (E.zst = false ∧ cap ≠ 0 ∧ ∃ i spare, p = some i ∧ h[i]? = some ⟨c.map some ++ spare, true⟩ ∧
    c.length + spare.length = cap)

variable {E}

theorem Rep.le {h : Heap α} {p : Option Nat} {cap : Nat} {c : List α} (r : Rep E h p cap c)
    (hz : E.zst = false) : c.length ≤ cap := by
  rcases r with ⟨h1, _⟩ | ⟨_, h1, _, h2⟩ | ⟨_, _, i, sp, _, _, h1⟩
  · rw [hz] at h1; cases h1
  · simp [h2]
  · omega

theorem zst_list (hz : E.zst = true) {a b : List α} (h : a.length = b.length) : a = b := by
  induction a generalizing b with
  | nil => exact (List.length_eq_zero_iff.1 h.symm).symm
  | cons x a ih =>
    cases b with
    | nil => cases h
    | cons y b => rw [E.zst_eq hz x y, ih (by simpa using h)]

theorem Rep.zst {h h' : Heap α} {p : Option Nat} {cap cap' : Nat} {c c' : List α} (r : Rep E h p cap c)
    (hz : E.zst = true) : Rep E h' p cap' c' := by
  rcases r with ⟨h1, h2⟩ | ⟨h1, _⟩ | ⟨h1, _⟩
  · exact .inl ⟨h1, h2⟩
  · rw [hz] at h1; cases h1
  · rw [hz] at h1; cases h1

theorem allSome_map (c : List α) : allSome (c.map some) = .ok c := by
  induction c with
  | nil => rfl
  | cons x c ih => simp [allSome, ih, Functor.map, Except.map]

theorem readN_ok {h : Heap α} {p : Option Nat} {cap : Nat} {c : List α} (r : Rep E h p cap c) :
    readN E h p c.length = .ok c := by
  unfold readN
  split
  · rename_i h0; rw [List.length_eq_zero_iff.1 h0]
  · rename_i h0
    rcases r with ⟨h1, h2⟩ | ⟨_, _, _, h1⟩ | ⟨h1, h2, i, sp, rfl, h4, h5⟩
    · rw [if_pos h1]
      congr 1
      exact zst_list h1 (by simp)
    · simp [h1] at h0
    · rw [if_neg (by simp [h1])]
      simp only [memAt, h4, bind, Except.bind, if_true]
      rw [if_neg (by simp)]
      rw [List.take_append_of_le_length (by simp), List.take_of_length_le (by simp), allSome_map]

theorem dealloc_ok {h : Heap α} {p : Option Nat} {cap : Nat} {c : List α} (r : Rep E h p cap c) :
    ∃ h', dealloc E h p cap = .ok h' ∧ Eff h h' p none := by
  rcases r with ⟨h1, h2⟩ | ⟨h1, h2, h3, h4⟩ | ⟨h1, h2, i, sp, rfl, h4, h5⟩
  · exact ⟨h, by simp [dealloc, h1], by rw [h2]; exact Eff.refl _ _⟩
  · exact ⟨h, by simp [dealloc, h2], by rw [h3]; exact Eff.refl _ _⟩
  · refine ⟨h.set i ⟨c.map some ++ sp, false⟩, ?_, free_eff h4⟩
    simp [dealloc, h1, h2, h4, h5]

theorem alloc_ok (h : Heap α) {c : List α} {cap : Nat} (hc : c.length ≤ cap) :
    Rep E (alloc E h c cap).1 (alloc E h c cap).2 cap c ∧
    Eff h (alloc E h c cap).1 none (alloc E h c cap).2 := by
  unfold alloc
  cases hz : E.zst
  · by_cases h0 : cap = 0
    · subst h0
      refine ⟨.inr (.inl ⟨hz, rfl, by simp, ?_⟩), by simp; exact Eff.refl _ _⟩
      exact List.length_eq_zero_iff.1 (by omega)
    · rw [if_neg (by simp [h0])]
      refine ⟨.inr (.inr ⟨hz, h0, h.length, List.replicate (cap - c.length) none, rfl, by simp, ?_⟩), push_eff _ _⟩
      simp; omega
  · exact ⟨.inl ⟨hz, by simp⟩, by simp; exact Eff.refl _ _⟩

theorem writeAt_ok {h : Heap α} {p : Option Nat} {cap : Nat} {c : List α} (r : Rep E h p cap c)
    (k : Nat) (xs : List α) (hk : k ≤ c.length) (hx : E.zst = true ∨ k + xs.length ≤ cap) :
    ∃ h', writeAt E h p k xs = .ok h' ∧ Rep E h' p cap (c.take k ++ xs ++ c.drop (k + xs.length)) ∧
      Eff h h' p p := by
  have r0 := r
  rcases r with ⟨h1, h2⟩ | ⟨h1, h2, h3, h4⟩ | ⟨h1, h2, i, sp, rfl, h4, h5⟩
  · exact ⟨h, by simp [writeAt, h1], r0.zst h1, Eff.refl _ _⟩
  · have h6 : k + xs.length ≤ cap := by rcases hx with hx | hx; · rw [h1] at hx; cases hx
                                        · exact hx
    have : xs = [] := List.length_eq_zero_iff.1 (by omega)
    subst this
    refine ⟨h, by simp [writeAt], ?_, Eff.refl _ _⟩
    subst h4; simp at hk; subst hk; simpa using r0
  · have h6 : k + xs.length ≤ cap := by rcases hx with hx | hx; · rw [h1] at hx; cases hx
                                        · exact hx
    by_cases h0 : xs.length = 0
    · have : xs = [] := List.length_eq_zero_iff.1 h0
      subst this
      refine ⟨h, by simp [writeAt], ?_, Eff.refl _ _⟩
      simpa using r0
    · refine ⟨h.set i ⟨(c.map some ++ sp).take k ++ xs.map some ++ (c.map some ++ sp).drop (k + xs.length), true⟩,
        ?_, .inr (.inr ⟨h1, h2, i, sp.drop (k + xs.length - c.length), rfl, ?_, ?_⟩), set_eff⟩
      · simp only [writeAt, h1, h0, memAt, h4, bind, Except.bind, if_true, Bool.false_or, beq_iff_eq, if_false]
        rw [if_neg (by simp; omega)]
      · rw [List.getElem?_set_self (lt_of_some h4)]
        simp only [List.take_append_of_le_length (show k ≤ (c.map some).length by simpa using hk),
          List.map_append, List.append_assoc, List.drop_append, List.map_take, List.map_drop, List.length_map]
      · simp; omega

theorem Rep.frame {h h' : Heap α} {p : Option Nat} {cap : Nat} {c : List α} (r : Rep E h p cap c)
    (hf : ∀ k, p = some k → h'[k]? = h[k]?) : Rep E h' p cap c := by
  rcases r with h1 | h1 | ⟨h1, h2, i, sp, h3, h4, h5⟩
  · exact .inl h1
  · exact .inr (.inl h1)
  · exact .inr (.inr ⟨h1, h2, i, sp, h3, by rw [hf i h3]; exact h4, h5⟩)

theorem Rep.lt {h : Heap α} {p : Option Nat} {cap : Nat} {c : List α} (r : Rep E h p cap c) {k : Nat}
    (e : p = some k) : k < h.length ∧ ∃ b, h[k]? = some b ∧ b.live = true := by
  rcases r with ⟨_, h2⟩ | ⟨_, _, h2, _⟩ | ⟨h1, h2, i, sp, h3, h4, h5⟩
  · rw [e] at h2; cases h2
  · rw [e] at h2; cases h2
  · rw [e] at h3; cases h3
    exact ⟨lt_of_some h4, _, h4, rfl⟩

/-- Keeping only a prefix of the contents. -/
theorem Rep.take {h : Heap α} {p : Option Nat} {cap : Nat} {c : List α} (r : Rep E h p cap c) (n : Nat) :
    Rep E h p cap (c.take n) := by
  rcases r with h1 | ⟨h1, h2, h3, h4⟩ | ⟨h1, h2, i, sp, h3, h4, h5⟩
  · exact .inl h1
  · exact .inr (.inl ⟨h1, h2, h3, by simp [h4]⟩)
  · refine .inr (.inr ⟨h1, h2, i, (c.drop n).map some ++ sp, h3, ?_, ?_⟩)
    · rw [h4, ← List.append_assoc, ← List.map_append, List.take_append_drop]
    · simp; omega

/-! ## The containers -/

def Val.kind : Val → Kind
  | .rvec _ => .rvec | .cvec _ => .cvec | .rstr _ => .rstr | .cstr _ => .cstr
  | .rbs _ => .rbs | .cbs _ => .cbs | .rbstr _ => .rbstr | .cbstr _ => .cbstr
  | .rb _ => .rb | .cb _ => .cb

/-- Pointer, length, capacity. -/
def Val.parts : Val → Option Nat × Nat × Nat
  | .rvec v => (v.ptr, v.len, v.cap) | .cvec v => (v.ptr, v.len, v.cap)
  | .rstr v => (v.ptr, v.len, v.cap) | .cstr v => (v.ptr, v.len, v.cap)
  | .rbs b => (b.ptr, b.len, b.len) | .cbs b => (b.ptr, b.len, b.len)
  | .rbstr b => (b.ptr, b.len, b.len) | .cbstr b => (b.ptr, b.len, b.len)
  | .rb b => (b.ptr, 1, 1) | .cb b => (b.ptr, 1, 1)

def Val.blk (v : Val) : Option Nat := v.parts.1

def Kind.isText : Kind → Bool
  | .rstr | .cstr | .rbstr | .cbstr => true
  | _ => false

/-- The parts hold these contents and this capacity. -/
structure PartsIs (E : Elem α) (h : Heap α) (q : Option Nat × Nat × Nat) (d : List α) (cap : Nat) : Prop where
  rep : Rep E h q.1 q.2.2 d
  len : q.2.1 = d.length
  cap : E.zst = false → q.2.2 = cap

/-- The variable holds this container. -/
structure ValIs (E : Elem α) (h : Heap α) (v : Val) (a : AVal α) : Prop where
  kind : v.kind = a.kind
  parts : PartsIs E h v.parts a.data a.cap
  text : a.kind.isText = true → E.text a.data = true

def RVec.parts (v : RVec) : Option Nat × Nat × Nat := (v.ptr, v.len, v.cap)

theorem new_ok (h : Heap α) (c : List α) (extra : Nat) :
    PartsIs E (RVec.new E h c extra).1 (RVec.new E h c extra).2.parts c (c.length + extra) ∧
    Eff h (RVec.new E h c extra).1 none (RVec.new E h c extra).2.ptr := by
  have := alloc_ok (E := E) h (c := c) (cap := c.length + extra) (by omega)
  exact ⟨⟨this.1, rfl, fun _ => rfl⟩, this.2⟩

theorem drop_ok {h : Heap α} {p : Option Nat} {len cap : Nat} {d : List α} {k : Nat}
    (r : PartsIs E h (p, len, cap) d k) :
    ∃ h', (do let xs ← readN E h p len; let h' ← dealloc E h p cap; (.ok (h', xs) : Except Fault _)) = .ok (h', d) ∧
      Eff h h' p none := by
  obtain ⟨h', e1, e2⟩ := dealloc_ok r.rep
  have e3 := readN_ok r.rep
  have hl := r.len
  simp only at e1 e3 hl
  subst hl
  exact ⟨h', by simp [e3, e1, bind, Except.bind], e2⟩

theorem realloc_ok {h : Heap α} {v : RVec} {d : List α} {k : Nat} (r : PartsIs E h v.parts d k) (n : Nat) :
    ∃ h' v', v.realloc E h n = .ok (h', v') ∧ PartsIs E h' v'.parts d (max n d.length) ∧
      Eff h h' v.ptr v'.ptr := by
  obtain ⟨h1, e1, e2⟩ := dealloc_ok r.rep
  have e3 := readN_ok r.rep
  have hl := r.len
  simp only [RVec.parts] at e1 e3 hl e2
  have ha := alloc_ok (E := E) h1 (c := d) (cap := max n d.length) (by omega)
  refine ⟨(alloc E h1 d (max n d.length)).1, ⟨(alloc E h1 d (max n d.length)).2, v.len, max n v.len⟩,
    by simp [RVec.realloc, hl, e3, e1, bind, Except.bind], ?_, ?_⟩
  · exact ⟨by simpa only [RVec.parts, hl] using ha.1, hl, fun _ => by simp only [RVec.parts, hl]⟩
  · exact e2.trans ha.2

theorem extend_ok {h : Heap α} {v : RVec} {d : List α} {k : Nat} (r : PartsIs E h v.parts d k)
    (xs : List α) (g : Nat) :
    ∃ h' v', v.extend E h xs g = .ok (h', v') ∧
      PartsIs E h' v'.parts (d ++ xs) (if d.length + xs.length ≤ k then k else d.length + xs.length + g) ∧
      Eff h h' v.ptr v'.ptr := by
  have hl : v.len = d.length := r.len
  unfold RVec.extend
  by_cases hc : E.zst = true ∨ v.len + xs.length ≤ v.cap
  · obtain ⟨h', e1, e2, e3⟩ := writeAt_ok r.rep v.len xs (by omega) hc
    simp only [RVec.parts] at e1 e2 e3
    refine ⟨h', { v with len := v.len + xs.length }, ?_, ⟨?_, ?_, ?_⟩, e3⟩
    · rw [if_pos (by simpa using hc)]
      simp [e1, bind, Except.bind]
    · have e4 : d.drop (v.len + xs.length) = [] := List.drop_eq_nil_of_le (by omega)
      rw [e4, List.take_of_length_le (by omega), List.append_nil] at e2
      exact e2
    · simp [RVec.parts, hl]
    · intro hz
      have h1 : v.cap = k := r.cap hz
      have h2 : v.len + xs.length ≤ v.cap := by
        rcases hc with hc | hc
        · rw [hz] at hc; cases hc
        · exact hc
      rw [if_pos (by omega)]
      exact h1
  · have hz : E.zst = false := by cases h : E.zst <;> simp_all
    have hlt : ¬ (v.len + xs.length ≤ v.cap) := fun h => hc (.inr h)
    have h1 : v.cap = k := r.cap hz
    obtain ⟨h1', v1, e1, e2, e3⟩ := realloc_ok r (v.len + xs.length + g)
    have hl1 : v1.len = d.length := e2.len
    obtain ⟨h2', f1, f2, f3⟩ := writeAt_ok e2.rep v1.len xs (by omega) (.inr (by
      rw [e2.cap hz]; omega))
    simp only [RVec.parts] at f1 f2 f3
    refine ⟨h2', { v1 with len := v1.len + xs.length }, ?_, ⟨?_, ?_, ?_⟩, e3.trans f3⟩
    · rw [if_neg (by simp [hz]; omega)]
      simp [e1, f1, bind, Except.bind]
    · have e4 : d.drop (v1.len + xs.length) = [] := List.drop_eq_nil_of_le (by omega)
      rw [e4, List.take_of_length_le (by omega), List.append_nil] at f2
      exact f2
    · simp [RVec.parts, hl1]
    · intro _
      rw [if_neg (by omega)]
      have := e2.cap hz
      simp only [RVec.parts] at this ⊢
      rw [this]; omega

theorem intoBox_ok {h : Heap α} {v : RVec} {d : List α} {k : Nat} (r : PartsIs E h v.parts d k) :
    ∃ h' b, v.intoBox E h = .ok (h', b) ∧ PartsIs E h' (b.ptr, b.len, b.len) d d.length ∧
      Eff h h' v.ptr b.ptr := by
  have hl : v.len = d.length := r.len
  unfold RVec.intoBox
  by_cases hc : v.len < v.cap ∧ E.zst = false
  · obtain ⟨h1, v1, e1, e2, e3⟩ := realloc_ok r v.len
    have hl1 : v1.len = d.length := e2.len
    have hc1 := e2.cap hc.2
    refine ⟨h1, ⟨v1.ptr, v1.len⟩, ?_, ⟨?_, hl1, fun _ => hl1⟩, e3⟩
    · rw [if_pos (by simpa using hc)]
      simp [e1, bind, Except.bind]
    · have := e2.rep
      rw [hc1] at this
      simp only [RVec.parts, hl] at this ⊢
      rw [hl1]; simpa using this
  · refine ⟨h, ⟨v.ptr, v.len⟩, ?_, ⟨?_, hl, fun _ => hl⟩, Eff.refl _ _⟩
    · rw [if_neg (by simpa using hc)]
    · have := r.rep
      cases hz : E.zst
      · have h1 := this.le hz
        have h2 : ¬ v.len < v.cap := fun h => hc ⟨h, hz⟩
        simp only [RVec.parts] at h1
        have h3 : v.len = v.cap := by omega
        simpa only [RVec.parts, h3] using this
      · exact this.zst hz

end
end Verif.Owned
