import Verif.Bytes.Inv
/-! Effect of the internal functions of `Bytes` in a consistent state. -/
namespace Verif.Bytes

variable {e : Env} {hp : List Alloc} {n : Nat} {L : List Handle} {A : List Nat}

/-- A ghost lifetime that is still running. -/
def LtOk (hp : List Alloc) (lt : Option Nat) : Prop :=
  ∀ b, lt = some b → ∃ a ∈ hp, a.base = b ∧ a.kind = .borrowed ∧ 0 < a.refs

theorem LtOk.none (hp : List Alloc) : LtOk hp none := by intro b hb; cases hb

theorem HandleOk.length {h : Handle} {d : List Byte} (H : HandleOk e hp h d) : h.raw.length = 5 * e.w := by
  cases H with
  | inl h1 h2 h3 => exact h1
  | out => exact Fields.raw_length _ _
  | emptyBox => exact Fields.raw_length _ _

/-- How a well-formed value looks from its vtable. -/
theorem HandleOk.vtable {h : Handle} {d : List Byte} (H : HandleOk e hp h d) :
    (isInlined e.toTarget h.raw = true ∧ vtableOf e h.raw = .ok none) ∨
    (∃ k, isInlined e.toTarget h.raw = false ∧ getWord e.toTarget h.raw 4 = e.vtAddr k
      ∧ vtableOf e h.raw = .ok (some k.vt)) := by
  cases H with
  | inl h1 h2 h3 => left; exact ⟨h2, by unfold vtableOf; rw [h2]; rfl⟩
  | @out f k lt a hf hvt ha hk hb h1 h2 hc hbox hlt =>
    right
    obtain ⟨g0, _, _, _, _, g5, g4⟩ := out_facts e f k hf hvt
    exact ⟨k, g0, by rw [← hvt]; exact g5, by unfold vtableOf; rw [g0, g4]; rfl⟩
  | emptyBox =>
    right
    obtain ⟨g0, _, _, _, _, g5, g4⟩ := out_facts e _ .box (emptyBox_ok e) rfl
    exact ⟨.box, g0, g5, by unfold vtableOf; rw [g0, g4]; rfl⟩

/-- Dropping a live value succeeds and gives back exactly its count. -/
theorem drop_spec {h : Handle} (I : InvC e hp n (h :: L) A) :
    ∃ hp', dropRaw e hp h.raw = .ok hp' ∧ InvC e hp' n L A ∧ Ext hp hp' := by
  obtain ⟨d, H⟩ := I.ok h (by simp)
  cases H with
  | inl h1 h2 h3 =>
    refine ⟨hp, ?_, I.delPlain (ownerOf_inl h2), Ext.refl _⟩
    unfold dropRaw vtableOf
    rw [h2]; rfl
  | @out f k lt a hf hvt ha hk hb h1 h2 hc hbox hlt =>
    obtain ⟨g0, _, _, g2, g3, _, g4⟩ := out_facts e f k hf hvt
    have hl := I.live (by simp) hf hvt ha hk hb hbox hlt
    have oo := ownerOf_out e f k hf hvt
    have fb := I.heap.findBase ha hb
    have su := setRefs_eq_upd I.heap ha (· - 1)
    rw [hb] at su
    unfold dropRaw vtableOf
    simp only [g0, g4, g2, g3]
    cases k with
    | static => exact ⟨hp, rfl, I.delPlain oo, Ext.refl _⟩
    | slice => exact ⟨hp, rfl, I.delPlain oo, Ext.refl _⟩
    | arc =>
      refine ⟨upd hp f.owner (· - 1), ?_, I.decBytes oo, upd_ext _ _ _⟩
      simp only [kindOf] at hk
      simp [bind, Except.bind, VtKind.vt, callHook, fb, hl, hk, hc, su]
    | arcT =>
      refine ⟨upd hp f.owner (· - 1), ?_, I.decBytes oo, upd_ext _ _ _⟩
      simp only [kindOf] at hk
      simp [bind, Except.bind, VtKind.vt, callHook, fb, hl, hk, su]
    | box =>
      have hp0 := hbox rfl
      have hne : f.cap ≠ 0 := by omega
      refine ⟨upd hp f.owner (· - 1), ?_, I.decBytes (by rw [oo]; simp [hne]), upd_ext _ _ _⟩
      simp only [kindOf] at hk
      have hne' : a.data.length ≠ 0 := by omega
      have hne'' : ¬ a.data = [] := fun hh => hne' (by simp [hh])
      simp [bind, Except.bind, VtKind.vt, callHook, fb, hl, hk, hc, su, hne'']
  | emptyBox =>
    obtain ⟨g0, _, _, g2, g3, _, g4⟩ := out_facts e _ .box (emptyBox_ok e) rfl
    refine ⟨hp, ?_, I.delPlain ?_, Ext.refl _⟩
    · unfold dropRaw vtableOf
      simp only [g0, g4, g2, g3]
      rfl
    · show ownerOf e (Fields.raw e.toTarget _) = none
      rw [ownerOf_out e _ .box (emptyBox_ok e) rfl]; rfl

/-- `noalloc_clone` of a live value. It answers `None` exactly for box-backed values. -/
theorem noallocClone_spec {h : Handle} (I : InvC e hp n (h :: L) A) :
    (∃ hp', noallocClone e hp h.raw = .ok (some (hp', h.raw)) ∧ InvC e hp' n (h :: h :: L) A ∧ Ext hp hp'
      ∧ ¬ (isInlined e.toTarget h.raw = false ∧ getWord e.toTarget h.raw 4 = e.vtAddr .box))
    ∨ (noallocClone e hp h.raw = .ok none
      ∧ isInlined e.toTarget h.raw = false ∧ getWord e.toTarget h.raw 4 = e.vtAddr .box) := by
  obtain ⟨d, H⟩ := I.ok h (by simp)
  have hlts := I.lts h (by simp)
  have hlen := H.length
  have rf := raw_fieldsOf e.toTarget h.raw hlen
  have H0 := H
  cases H with
  | inl h1 h2 h3 =>
    left
    refine ⟨hp, ?_, I.addPlain H0 (ownerOf_inl h2) hlts, Ext.refl _, by simp [h2]⟩
    unfold noallocClone vtableOf
    rw [h2]; rfl
  | @out f k lt a hf hvt ha hk hb h1 h2 hc hbox hlt =>
    obtain ⟨g0, _, _, g2, g3, g5, g4⟩ := out_facts e f k hf hvt
    have hl := I.live (by simp) hf hvt ha hk hb hbox hlt
    have oo := ownerOf_out e f k hf hvt
    have fb := I.heap.findBase ha hb
    have su := setRefs_eq_upd I.heap ha (· + 1)
    rw [hb] at su
    have vinj : ∀ k', k ≠ k' → e.vtAddr k ≠ e.vtAddr k' := fun k' hne hh => hne (e.vt_inj _ _ hh)
    have go : fieldsOf e.toTarget (f.raw e.toTarget) = f := fieldsOf_raw _ f hf
    cases k with
    | static =>
      left
      refine ⟨hp, ?_, I.addPlain H0 oo hlts, Ext.refl _, by simp [g5, hvt, vinj]⟩
      unfold noallocClone vtableOf
      simp only [g0, g4, go]; rfl
    | slice =>
      left
      refine ⟨hp, ?_, I.addPlain H0 oo hlts, Ext.refl _, by simp [g5, hvt, vinj]⟩
      unfold noallocClone vtableOf
      simp only [g0, g4, go]; rfl
    | arc =>
      left
      refine ⟨upd hp f.owner (· + 1), ?_, I.incBytes H0 oo hlts, upd_ext _ _ _, by simp [g5, hvt, vinj]⟩
      unfold noallocClone vtableOf
      simp only [kindOf] at hk
      simp [g0, g4, go, bind, Except.bind, VtKind.vt, callHook, fb, hl, hk, hc, su]
    | arcT =>
      left
      refine ⟨upd hp f.owner (· + 1), ?_, I.incBytes H0 oo hlts, upd_ext _ _ _, by simp [g5, hvt, vinj]⟩
      unfold noallocClone vtableOf
      simp only [kindOf] at hk
      simp [g0, g4, go, bind, Except.bind, VtKind.vt, callHook, fb, hl, hk, su]
    | box =>
      right
      refine ⟨?_, g0, by rw [g5, hvt]⟩
      unfold noallocClone vtableOf
      simp only [g0, g4]; rfl
  | emptyBox =>
    right
    obtain ⟨g0, _, _, g2, g3, g5, g4⟩ := out_facts e _ .box (emptyBox_ok e) rfl
    refine ⟨?_, g0, g5⟩
    unfold noallocClone vtableOf
    simp only [g0, g4]; rfl

/-- Inlined contents. -/
theorem HandleOk.inline (s : List Byte) (hs : s.length ≤ maxInline e.toTarget) (lt : Option Nat) :
    HandleOk e hp ⟨inlineUnchecked e.toTarget s, lt⟩ s := by
  have := HandleOk.inl (e := e) (hp := hp) (lt := lt) (inline_length e.toTarget s hs)
    (isInlined_inline e.toTarget s hs) (by rw [lenOf_inline e.toTarget s hs]; exact hs)
  rwa [lenOf_inline e.toTarget s hs, take_inline e.toTarget s hs] at this

/-- The lifetime of a value that does not borrow is free. -/
theorem HandleOk.relt {r : Raw} {lt lt' : Option Nat} {d : List Byte} (H : HandleOk e hp ⟨r, lt⟩ d)
    (hb : lt' = lt ∨ ¬ (isInlined e.toTarget r = false ∧ getWord e.toTarget r 4 = e.vtAddr .slice)) :
    HandleOk e hp ⟨r, lt'⟩ d := by
  cases H with
  | inl h1 h2 h3 => exact .inl h1 h2 h3
  | @out f k _ a hf hvt ha hk hbb h1 h2 hc hbox hlt =>
    refine .out hf hvt ha hk hbb h1 h2 hc hbox ?_
    intro hs
    subst hs
    rcases hb with rfl | hb
    · exact hlt rfl
    · obtain ⟨g0, _, _, g2, g3, g5, g4⟩ := out_facts e f _ hf hvt
      exact absurd ⟨g0, by rw [g5, hvt]⟩ hb
  | emptyBox => exact .emptyBox

/-- `copied_from_slice`. -/
theorem copied_spec (s : State) (I : InvC e s.heap s.next L A) (data : List Byte) (lt : Option Nat)
    (hlt : LtOk s.heap lt) :
    (copiedFromSlice e s data = none ∧ maxInline e.toTarget < data.length) ∨
    ∃ s' r, copiedFromSlice e s data = some (s', r) ∧ InvC e s'.heap s'.next (⟨r, lt⟩ :: L) A
      ∧ HandleOk e s'.heap ⟨r, lt⟩ data ∧ Ext s.heap s'.heap
      ∧ s'.handles = s.handles ∧ s'.arcs = s.arcs
      ∧ s'.allocs = s.allocs + (if data.length ≤ maxInline e.toTarget then 0 else 1)
      ∧ ((isInlined e.toTarget r = true ∧ s'.heap = s.heap ∧ s'.next = s.next) ∨
          (isInlined e.toTarget r = false ∧ getWord e.toTarget r 4 = e.vtAddr .arc
            ∧ s'.heap = s.heap ++ [⟨s.next, data, .arc, 1⟩])) := by
  unfold copiedFromSlice
  by_cases hl : data.length ≤ maxInline e.toTarget
  · right
    simp only [hl, if_true]
    exact ⟨_, _, rfl, I.addPlain (HandleOk.inline data hl lt)
      (ownerOf_inl (isInlined_inline e.toTarget data hl)) hlt,
      HandleOk.inline data hl lt, Ext.refl _, rfl, rfl, rfl, .inl ⟨isInlined_inline e.toTarget data hl, rfl, rfl⟩⟩
  · simp only [hl, if_false]
    unfold allocate newRegion
    have hw := e.w_lo
    by_cases hm : s.next + data.length + 2 * e.w < wordMax e.toTarget
    · right
      simp only [hm, if_true, Option.map]
      obtain ⟨I', HO⟩ := I.growBytes data .arc (s.next + data.length + 2 * e.w) (.inl rfl) (by omega) hm
      have hf : Fields.Ok e.toTarget ⟨s.next, data.length, s.next, data.length, e.vtAddr .arc⟩ :=
        ⟨by show s.next < _; omega, by show data.length < _; omega, by show s.next < _; omega,
         by show data.length < _; omega, e.vt_lt .arc⟩
      obtain ⟨g0, _, _, g2, g3, g5, g4⟩ := out_facts e _ .arc hf rfl
      have HO' := HO.relt (lt' := lt) (.inr (by
        intro hh
        have := g5.symm.trans hh.2
        exact absurd (e.vt_inj _ _ this) (by simp)))
      refine ⟨_, _, rfl, I'.replace HO' rfl ?_, HO', Ext.append _ _, rfl, rfl, rfl, .inr ⟨g0, g5, rfl⟩⟩
      intro b hb
      obtain ⟨a, ha, r⟩ := hlt b hb
      exact ⟨a, List.mem_append_left _ ha, r⟩
    · left; simp [hm]; omega

/-- `clone`. -/
theorem clone_spec (s : State) {h : Handle} {d : List Byte} (I : InvC e s.heap s.next (h :: L) A)
    (H : HandleOk e s.heap h d) :
    cloneRaw e s h.raw = .ok none ∨
    ∃ s' r, cloneRaw e s h.raw = .ok (some (s', r)) ∧ InvC e s'.heap s'.next (⟨r, h.lt⟩ :: h :: L) A
      ∧ HandleOk e s'.heap ⟨r, h.lt⟩ d ∧ Ext s.heap s'.heap ∧ s'.handles = s.handles ∧ s'.arcs = s.arcs
      ∧ s'.allocs = s.allocs + (if isInlined e.toTarget h.raw = false ∧ getWord e.toTarget h.raw 4 = e.vtAddr .box
          ∧ maxInline e.toTarget < d.length then 1 else 0)
      ∧ (maxInline e.toTarget < d.length →
          isInlined e.toTarget r = false ∧ getWord e.toTarget r 4 ≠ e.vtAddr .box ∧ getWord e.toTarget r 1 = d.length) := by
  have hd := I.asSlice (by simp) H
  unfold cloneRaw
  rcases noallocClone_spec I with ⟨hp', e1, I', x, hnb⟩ | ⟨e1, hb1, hb2⟩
  · right
    rw [e1]
    refine ⟨_, _, rfl, I', H.mono x, x, rfl, rfl, ?_, ?_⟩
    · rw [if_neg]; · rfl
      intro hh; exact hnb ⟨hh.1, hh.2.1⟩
    · intro hlong
      have hl := H.len
      have hni : isInlined e.toTarget h.raw = false := by
        cases H with
        | inl h1 h2 h3 =>
          exfalso
          rw [List.length_take] at hlong
          omega
        | out hf hvt => exact (out_facts e _ _ hf hvt).1
        | emptyBox => exact (out_facts e _ _ (emptyBox_ok e) rfl).1
      refine ⟨hni, fun hh => hnb ⟨hni, hh⟩, ?_⟩
      rw [← hl]; unfold lenOf; rw [hni]; rfl
  · rw [e1]
    show (do let data ← asSlice e.toTarget s.heap h.raw; Except.ok (copiedFromSlice e s data)) = _ ∨ _
    simp only [bind, Except.bind, hd]
    rcases copied_spec s I d h.lt (I.lts h (by simp)) with ⟨c, _⟩ | ⟨s', r, c, I', HO, x, c1, c2, c3, c4⟩
    · left; rw [c]
    · right
      refine ⟨s', r, by rw [c], I', HO, x, c1, c2, ?_, ?_⟩
      · rw [c3]; simp only [hb1, hb2, true_and]; split <;> split <;> omega
      · intro hlong
        have hl := HO.len
        rcases c4 with ⟨c4, _⟩ | ⟨c4, c5, _⟩
        · exfalso
          cases HO with
          | inl h1 h2 h3 =>
            rw [List.length_take] at hlong
            omega
          | out hf hvt => exact absurd c4 (by simp [(out_facts e _ _ hf hvt).1])
          | emptyBox => exact absurd c4 (by simp [(out_facts e _ _ (emptyBox_ok e) rfl).1])
        · refine ⟨c4, ?_, ?_⟩
          · rw [c5]; intro hh; exact absurd (e.vt_inj _ _ hh) (by simp)
          · rw [← hl]; unfold lenOf; rw [c4]; rfl

end Verif.Bytes
