import Verif.CharP.Text

/-! # What each function does to the heap -/
namespace Verif.CharP

inductive Val
  | p (p : Ptr) | b (v : Buf)

def Val.blk : Val → Option Nat
  | .p .sentinel => none
  | .p (.blk i) => some i
  | .b v => v.blk

/-- The variable holds exactly these contents, in storage of exactly the right size. -/
def ValIs (h : Heap) : Val → Bytes → Prop
  | .p .sentinel, d => d = []
  | .p (.blk i), d => h[i]? = some ⟨d ++ [0], true⟩ ∧ 0 ∉ d ∧ validUtf8 d = true
  | .b ⟨none, len, cap⟩, c => len = 0 ∧ cap = 0 ∧ c = []
  | .b ⟨some i, len, cap⟩, c =>
      ∃ spare, h[i]? = some ⟨c ++ spare, true⟩ ∧ c.length = len ∧ (c ++ spare).length = cap ∧
        validUtf8 c = true

theorem ValIs.valid {h : Heap} {v : Val} {c : Bytes} (hv : ValIs h v c) : validUtf8 c = true := by
  match v, hv with
  | .p .sentinel, hv => rw [show c = [] from hv]; exact valid_nil
  | .p (.blk i), hv => exact hv.2.2
  | .b ⟨none, len, cap⟩, hv => rw [hv.2.2]; exact valid_nil
  | .b ⟨some i, len, cap⟩, ⟨_, _, _, _, h⟩ => exact h

theorem ValIs.noNul {h : Heap} {p : Ptr} {c : Bytes} (hv : ValIs h (.p p) c) : 0 ∉ c := by
  match p, hv with
  | .sentinel, hv => rw [show c = [] from hv]; simp
  | .blk i, hv => exact hv.2.1

/-- `h'` differs from `h` only by having released block `inp` and by owning block `out`. -/
structure Eff (h h' : Heap) (inp out : Option Nat) : Prop where
  frame : ∀ k, k < h.length → some k ≠ inp → h'[k]? = h[k]?
  grow : h.length ≤ h'.length
  lives : ∀ k b, h'[k]? = some b → b.live = true → (k < h.length ∧ some k ≠ inp) ∨ some k = out
  fresh : ∀ k, out = some k → inp = some k ∨ h.length ≤ k

theorem lt_of_some {h : Heap} {k : Nat} {b : Block} (e : h[k]? = some b) : k < h.length := by
  rcases Nat.lt_or_ge k h.length with h1 | h1
  · exact h1
  · rw [List.getElem?_eq_none h1] at e; cases e

theorem Eff.refl (h : Heap) (a : Option Nat) : Eff h h a a where
  frame _ _ _ := rfl
  grow := Nat.le_refl _
  lives k b hb _ := by
    by_cases e : some k = a
    · exact .inr e
    · exact .inl ⟨lt_of_some hb, e⟩
  fresh k e := .inl e

theorem Eff.trans {h h' h'' : Heap} {a b c : Option Nat} (x : Eff h h' a b) (y : Eff h' h'' b c) :
    Eff h h'' a c where
  frame k hk ha := by
    have hb : some k ≠ b := by
      intro e
      rcases x.fresh k e.symm with e' | e'
      · exact ha e'.symm
      · omega
    rw [y.frame k (Nat.lt_of_lt_of_le hk x.grow) hb, x.frame k hk ha]
  grow := Nat.le_trans x.grow y.grow
  lives k blk hk hl := by
    rcases y.lives k blk hk hl with ⟨h1, h2⟩ | h1
    · rw [y.frame k h1 h2] at hk
      rcases x.lives k blk hk hl with h3 | h3
      · exact .inl h3
      · exact absurd h3 h2
    · exact .inr h1
  fresh k e := by
    rcases y.fresh k e with e' | e'
    · exact x.fresh k e'
    · exact .inr (Nat.le_trans x.grow e')

theorem free_ok {h : Heap} {i : Nat} {m : Bytes} (e : h[i]? = some ⟨m, true⟩) :
    ∃ h', free h i m.length = .ok h' ∧ Eff h h' (some i) none := by
  refine ⟨h.set i ⟨m, false⟩, by simp [free, e], ?_, by simp, ?_, by simp⟩
  · intro k _ hne
    have : i ≠ k := fun e => hne (by rw [e])
    simp [this]
  · intro k b hb hl
    by_cases hk : i = k
    · subst hk
      rw [List.getElem?_set_self (lt_of_some e)] at hb
      cases hb; simp at hl
    · rw [List.getElem?_set_ne hk] at hb
      exact .inl ⟨lt_of_some hb, fun e => hk (by cases e; rfl)⟩

theorem alloc_eff (h : Heap) (d : Bytes) : Eff h (alloc h d).1 none (some (alloc h d).2) where
  frame k hk _ := by simp [alloc, List.getElem?_append_left hk]
  grow := by simp [alloc]
  lives k b hb _ := by
    simp only [alloc] at hb ⊢
    rcases Nat.lt_or_ge k h.length with h1 | h1
    · exact .inl ⟨h1, by simp⟩
    · have := lt_of_some hb
      simp at this
      exact .inr (by rw [show k = h.length by omega])
  fresh k e := by simp only [alloc, Option.some.injEq] at e; exact .inr (by omega)

theorem alloc_get (h : Heap) (d : Bytes) : (alloc h d).1[(alloc h d).2]? = some ⟨d, true⟩ := by
  simp [alloc]

theorem set_eff {h : Heap} {i : Nat} {m' : Bytes} :
    Eff h (h.set i ⟨m', true⟩) (some i) (some i) where
  frame k _ hne := by
    have : i ≠ k := fun e => hne (by rw [e])
    simp [this]
  grow := by simp
  lives k b hb hl := by
    by_cases hk : i = k
    · exact .inr (by rw [hk])
    · rw [List.getElem?_set_ne hk] at hb
      exact .inl ⟨lt_of_some hb, fun e => hk (by cases e; rfl)⟩
  fresh k e := .inl e

theorem memAt_ok {h : Heap} {i : Nat} {m : Bytes} (e : h[i]? = some ⟨m, true⟩) : memAt h i = .ok m := by
  simp [memAt, e]

theorem read_ok {h : Heap} {v : Buf} {c : Bytes} (hv : ValIs h (.b v) c) : v.read h = .ok c := by
  match v, hv with
  | ⟨none, len, cap⟩, hv => simp [Buf.read, hv.2.2]
  | ⟨some i, len, cap⟩, ⟨spare, h1, h2, h3, h4⟩ =>
    subst h2
    simp [Buf.read, memAt_ok h1, readN, bind, Except.bind]

theorem drop_ok {h : Heap} {v : Buf} {c : Bytes} (hv : ValIs h (.b v) c) :
    ∃ h', v.drop h = .ok h' ∧ Eff h h' v.blk none := by
  match v, hv with
  | ⟨none, len, cap⟩, hv => exact ⟨h, rfl, Eff.refl _ _⟩
  | ⟨some i, len, cap⟩, ⟨spare, h1, h2, h3, h4⟩ =>
    subst h3
    exact free_ok h1

theorem mk'_ok (h : Heap) {c : Bytes} (spare : Bytes) (hc : validUtf8 c = true) :
    ValIs (Buf.mk' h c spare).1 (.b (Buf.mk' h c spare).2) c ∧
    Eff h (Buf.mk' h c spare).1 none (Buf.mk' h c spare).2.blk := by
  unfold Buf.mk'
  split
  · rename_i h0
    exact ⟨⟨rfl, rfl, List.length_eq_zero_iff.1 (by omega)⟩, Eff.refl _ _⟩
  · exact ⟨⟨spare, alloc_get _ _, rfl, by simp, hc⟩, alloc_eff _ _⟩

theorem realloc_ok {h : Heap} {v : Buf} {c : Bytes} {n : Nat} (hv : ValIs h (.b v) c) (hn : c.length ≤ n) :
    ∃ h' v', v.realloc h n = .ok (h', v') ∧ ValIs h' (.b v') c ∧ Eff h h' v.blk v'.blk ∧
      v'.len = v.len ∧ v'.cap = n ∧ v'.blk.isSome := by
  obtain ⟨h1, e1, f1⟩ := drop_ok hv
  have hlen : c.length = v.len := by
    match v, hv with
    | ⟨none, len, cap⟩, hv => simp [hv.1, hv.2.2]
    | ⟨some i, len, cap⟩, ⟨spare, _, h2, _⟩ => exact h2
  refine ⟨(alloc h1 (c ++ List.replicate (n - c.length) 0xAA)).1,
    ⟨some (alloc h1 (c ++ List.replicate (n - c.length) 0xAA)).2, v.len, n⟩, ?_, ?_, ?_, rfl, rfl, rfl⟩
  · simp [Buf.realloc, read_ok hv, e1, bind, Except.bind]
  · exact ⟨_, alloc_get _ _, hlen, by simp; omega, hv.valid⟩
  · exact f1.trans (alloc_eff _ _)

theorem buf_len {h : Heap} {v : Buf} {c : Bytes} (hv : ValIs h (.b v) c) : c.length = v.len := by
  match v, hv with
  | ⟨none, len, cap⟩, hv => simp [hv.1, hv.2.2]
  | ⟨some i, len, cap⟩, ⟨spare, _, h2, _⟩ => exact h2

theorem buf_some {h : Heap} {v : Buf} {c : Bytes} (hv : ValIs h (.b v) c) (hc : c ≠ []) :
    ∃ i, v.blk = some i := by
  match v, hv with
  | ⟨none, len, cap⟩, hv => exact absurd hv.2.2 hc
  | ⟨some i, len, cap⟩, _ => exact ⟨i, rfl⟩

theorem reserve_ok {h : Heap} {v : Buf} {c : Bytes} (hv : ValIs h (.b v) c) (hc : c ≠ []) :
    ∃ h' v', v.reserveExact1 h = .ok (h', v') ∧ ValIs h' (.b v') c ∧ Eff h h' v.blk v'.blk ∧
      c.length + 1 ≤ v'.cap ∧ v'.blk.isSome := by
  unfold Buf.reserveExact1
  have hl := buf_len hv
  split
  · rename_i h1
    obtain ⟨i, hi⟩ := buf_some hv hc
    exact ⟨h, v, rfl, hv, Eff.refl _ _, by omega, by simp [hi]⟩
  · obtain ⟨h', v', e, h1, h2, _, h4, h5⟩ := realloc_ok (n := v.len + 1) hv (by omega)
    exact ⟨h', v', e, h1, h2, by omega, h5⟩

theorem pushNul_ok {h : Heap} {v : Buf} {c : Bytes} (hv : ValIs h (.b v) c) (hs : v.blk.isSome)
    (hcap : c.length + 1 ≤ v.cap) :
    ∃ h' v', v.pushNul h = .ok (h', v') ∧ ValIs h' (.b v') (c ++ [0]) ∧ Eff h h' v.blk v'.blk ∧
      v'.blk.isSome := by
  match v, hv, hs, hcap with
  | ⟨some i, len, cap⟩, ⟨spare, h1, h2, h3, h4⟩, _, hcap =>
    subst h2
    simp only at hcap
    cases spare with
    | nil => simp at h3; omega
    | cons x spare =>
      refine ⟨h.set i ⟨(c ++ x :: spare).set c.length 0, true⟩, ⟨some i, c.length + 1, cap⟩, ?_, ?_, ?_, rfl⟩
      · simp [Buf.pushNul, memAt_ok h1, bind, Except.bind]
      · refine ⟨spare, ?_, by simp, ?_, valid_append_nul h4⟩
        · rw [List.getElem?_set_self (lt_of_some h1)]
          simp
        · simp at h3 ⊢; omega
      · exact set_eff

theorem intoBoxed_ok {h : Heap} {v : Buf} {d : Bytes} (hv : ValIs h (.b v) (d ++ [0])) (hd : 0 ∉ d)
    (hu : validUtf8 d = true) :
    ∃ h' p, v.intoBoxed h = .ok (h', p) ∧ ValIs h' (.p p) d ∧ Eff h h' v.blk (Val.p p).blk := by
  have hl := buf_len hv
  by_cases hcap : v.len = v.cap
  · match v, hv, hcap, hl with
    | ⟨some i, len, cap⟩, ⟨spare, h1, h2, h3, h4⟩, hcap, hl =>
      simp only at hcap hl
      have : spare = [] := by
        rw [List.length_append] at h3
        exact List.length_eq_zero_iff.1 (by omega)
      subst this
      refine ⟨h, .blk i, ?_, ⟨by simpa using h1, hd, hu⟩, Eff.refl _ _⟩
      simp [Buf.intoBoxed, hcap, bind, Except.bind, pure, Except.pure]
    | ⟨none, len, cap⟩, hv, _, _ => simp [ValIs] at hv
  · obtain ⟨h', v', e, h1, h2, h3, h4, h5⟩ := realloc_ok (n := v.len) hv (by omega)
    match v', h1, h2, h3, h4, h5 with
    | ⟨some i, len, cap⟩, ⟨spare, g1, g2, g3, g4⟩, h2, h3, h4, _ =>
      simp only at h3 h4
      have : spare = [] := by
        rw [List.length_append] at g3
        exact List.length_eq_zero_iff.1 (by omega)
      subst this
      refine ⟨h', .blk i, ?_, ⟨by simpa using g1, hd, hu⟩, h2⟩
      simp [Buf.intoBoxed, hcap, e, bind, Except.bind]

theorem strip_nil : strip [] = [] := by simp [strip]

/-- The last byte, as the code tests it. -/
theorem last_iff {c : Bytes} : c[c.length - 1]? = some 0 ↔ c.getLast? = some 0 := by
  rw [List.getLast?_eq_getElem?]

theorem tryFrom_err {h : Heap} {v : Buf} {c : Bytes} (hv : ValIs h (.b v) c) (hz : 0 ∈ c.dropLast) :
    tryFromString h v = .ok (h, .error v) := by
  have hl := buf_len hv
  have h1 : ¬ (c = [] ∨ c = [0]) := by
    rintro (rfl | rfl) <;> simp at hz
  have h2 : (c.take (v.len - 1)).contains 0 = true := by
    rw [← hl, ← List.dropLast_eq_take]; simpa using hz
  simp only [tryFromString, read_ok hv, bind, Except.bind, if_neg h1, h2, if_true]

theorem tryFrom_ok {h : Heap} {v : Buf} {c : Bytes} (hv : ValIs h (.b v) c) (hz : 0 ∉ c.dropLast) :
    ∃ h' p, tryFromString h v = .ok (h', .ok p) ∧ ValIs h' (.p p) (strip c) ∧
      Eff h h' v.blk (Val.p p).blk := by
  have hl := buf_len hv
  by_cases h1 : c = [] ∨ c = [0]
  · obtain ⟨h', e, f⟩ := drop_ok hv
    refine ⟨h', .sentinel, ?_, ?_, f⟩
    · simp only [tryFromString, read_ok hv, bind, Except.bind, if_pos h1, e]
    · rcases h1 with rfl | rfl <;> rfl
  · have hne : c ≠ [] := fun e => h1 (.inl e)
    have h2 : (c.take (v.len - 1)).contains 0 = false := by
      rw [← hl, ← List.dropLast_eq_take]; simpa using hz
    have hlast := last_iff (c := c)
    rw [hl] at hlast
    by_cases h3 : c.getLast? = some 0
    · have hs : strip c = c.dropLast := by simp [strip, h3]
      have hc := getLast?_eq_some_iff'.1 h3
      have hu := valid_strip hv.valid
      rw [hs] at hu
      rw [hc] at hv
      obtain ⟨h', p, e, g1, g2⟩ := intoBoxed_ok hv hz hu
      refine ⟨h', p, ?_, by rw [hs]; exact g1, g2⟩
      rw [← hc] at hv
      have h4 : ¬ c[v.len - 1]? ≠ some 0 := by simp [hlast.2 h3]
      simp only [tryFromString, read_ok hv, bind, Except.bind, if_neg h1, h2, Bool.false_eq_true,
        if_false, if_neg h4, pure, Except.pure, e]
    · have hs : strip c = c := by simp [strip, h3]
      have h0 : 0 ∉ c := by
        intro hm
        rcases List.eq_nil_or_concat c with rfl | ⟨l, x, rfl⟩
        · exact hne rfl
        · simp at hm hz h3
          rcases hm with hm | hm
          · exact hz hm
          · exact h3 hm.symm
      obtain ⟨ha, va, ea, a1, a2, a3, a4⟩ := reserve_ok hv hne
      obtain ⟨hb, vb, eb, b1, b2, b3⟩ := pushNul_ok a1 a4 a3
      obtain ⟨h', p, e, g1, g2⟩ := intoBoxed_ok b1 h0 hv.valid
      refine ⟨h', p, ?_, by rw [hs]; exact g1, a2.trans (b2.trans g2)⟩
      have h4 : c[v.len - 1]? ≠ some 0 := by rw [Ne, hlast]; exact h3
      simp only [tryFromString, read_ok hv, bind, Except.bind, if_neg h1, h2, Bool.false_eq_true,
        if_false, if_pos h4, ea, eb, e]

theorem boxNew_panic {h : Heap} {v : Buf} {c : Bytes} (hv : ValIs h (.b v) c) (hz : 0 ∈ c.dropLast) :
    ∃ h', boxNew h v = .ok (h', .panic) ∧ Eff h h' v.blk none := by
  obtain ⟨h', e, f⟩ := drop_ok hv
  exact ⟨h', by simp only [boxNew, tryFrom_err hv hz, bind, Except.bind, e], f⟩

theorem boxNew_ok {h : Heap} {v : Buf} {c : Bytes} (hv : ValIs h (.b v) c) (hz : 0 ∉ c.dropLast) :
    ∃ h' p, boxNew h v = .ok (h', .ok p) ∧ ValIs h' (.p p) (strip c) ∧
      Eff h h' v.blk (Val.p p).blk := by
  obtain ⟨h', p, e, f⟩ := tryFrom_ok hv hz
  exact ⟨h', p, by simp only [boxNew, e, bind, Except.bind], f⟩

theorem mem_ok {h : Heap} {p : Ptr} {d : Bytes} (hv : ValIs h (.p p) d) : p.mem h = .ok (d ++ 0 :: []) := by
  match p, hv with
  | .sentinel, hv => simp [Ptr.mem, show d = [] from hv]
  | .blk i, hv => exact memAt_ok hv.1

theorem dropBox_ok {h : Heap} {p : Ptr} {d : Bytes} (hv : ValIs h (.p p) d) :
    ∃ h', dropBox h p = .ok h' ∧ Eff h h' (Val.p p).blk none := by
  match p, hv with
  | .sentinel, hv => exact ⟨h, rfl, Eff.refl _ _⟩
  | .blk i, hv =>
    obtain ⟨h', e, f⟩ := free_ok hv.1
    refine ⟨h', ?_, f⟩
    simp only [dropBox, memAt_ok hv.1, toBytesWithNull_app hv.2.1, bind, Except.bind, e]

theorem intoVec_ok {h : Heap} {p : Ptr} {d : Bytes} (hv : ValIs h (.p p) d) :
    ∃ v, intoVec h p = .ok v ∧ ValIs h (.b v) d ∧ v.blk = (Val.p p).blk := by
  match p, hv with
  | .sentinel, hv => exact ⟨_, rfl, ⟨rfl, rfl, hv⟩, rfl⟩
  | .blk i, hv =>
    refine ⟨⟨some i, (d ++ [0]).length - 1, (d ++ [0]).length⟩, ?_, ⟨[0], hv.1, by simp, rfl, hv.2.2⟩, rfl⟩
    simp only [intoVec, memAt_ok hv.1, toBytesWithNull_app hv.2.1, bind, Except.bind]

theorem cloneBox_ok {h : Heap} {p : Ptr} {d : Bytes} (hv : ValIs h (.p p) d) :
    ∃ h' p', cloneBox h p = .ok (h', .ok p') ∧ ValIs h' (.p p') d ∧ Eff h h' none (Val.p p').blk := by
  have h0 := hv.noNul
  obtain ⟨m1, m2⟩ := mk'_ok h [] hv.valid
  have hz : 0 ∉ d.dropLast := fun hm => h0 (List.dropLast_subset _ hm)
  obtain ⟨h', p', e, f, g⟩ := boxNew_ok m1 hz
  have hs : strip d = d := by
    unfold strip
    rw [if_neg]
    intro hl
    exact h0 (List.mem_of_getLast? hl)
  rw [hs] at f
  refine ⟨h', p', ?_, f, m2.trans g⟩
  simp only [cloneBox, mem_ok hv, toStr_app h0 hv.valid, bind, Except.bind]
  exact e

theorem fromC_ok (h : Heap) {c : Bytes} (h0 : 0 ∉ c) (hu : validUtf8 c = true) :
    boxFromCString (alloc h (c ++ [0])).1 (alloc h (c ++ [0])).2 =
      .ok ((alloc h (c ++ [0])).1, .ok (.blk (alloc h (c ++ [0])).2)) ∧
    ValIs (alloc h (c ++ [0])).1 (.p (.blk (alloc h (c ++ [0])).2)) c := by
  refine ⟨?_, alloc_get _ _, h0, hu⟩
  simp [boxFromCString, memAt_ok (alloc_get _ _), bind, Except.bind, hu]

theorem fromC_panic (h : Heap) {c : Bytes} (hu : validUtf8 c = false) :
    ∃ h', boxFromCString (alloc h (c ++ [0])).1 (alloc h (c ++ [0])).2 = .ok (h', .panic) ∧
      Eff h h' none none := by
  obtain ⟨h', e, f⟩ := free_ok (alloc_get h (c ++ [0]))
  refine ⟨h', ?_, (alloc_eff _ _).trans f⟩
  simp only [List.length_append, List.length_cons, List.length_nil, Nat.zero_add] at e
  simp [boxFromCString, memAt_ok (alloc_get _ _), bind, Except.bind, hu, e]

end Verif.CharP
