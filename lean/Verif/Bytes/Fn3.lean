import Verif.Bytes.Fn2
/-! Effect of `split_at`, upgrades, `Arc` recovery and reads in a consistent state. -/
namespace Verif.Bytes

variable {e : Env} {hp : List Alloc} {n : Nat} {L : List Handle} {A : List Nat}

/-- Narrowing the window of an out-of-line value. -/
theorem HandleOk.reslice {r : Raw} {lt : Option Nat} {d : List Byte} (H : HandleOk e hp ⟨r, lt⟩ d)
    (hh : HeapOk hp n) (hn : n < wordMax e.toTarget)
    (hout : isInlined e.toTarget r = false) (hpos : 0 < d.length) :
    ∃ f : Fields, r = f.raw e.toTarget ∧ f.Ok e.toTarget ∧ f.len = d.length ∧
      ∀ st len, st + len ≤ d.length → f.start + st < wordMax e.toTarget ∧
        HandleOk e hp ⟨Fields.raw e.toTarget { f with start := f.start + st, len := len }, lt⟩ ((d.drop st).take len)
        ∧ ownerOf e (Fields.raw e.toTarget { f with start := f.start + st, len := len }) = ownerOf e r := by
  cases H with
  | inl a1 a2 a3 => simp [a2] at hout
  | emptyBox => simp at hpos
  | @out f k _ a hf hvt ha hk hb c1 c2 hc hbox hlt =>
    have hhi := hh.hi a ha
    refine ⟨f, rfl, hf, ?_, ?_⟩
    · rw [List.length_take, List.length_drop]; omega
    · intro st len hle
      rw [List.length_take, List.length_drop] at hle
      have hf' : Fields.Ok e.toTarget { f with start := f.start + st, len := len } := by
        obtain ⟨p1, p2, p3, p4, p5⟩ := hf
        exact ⟨by show f.start + st < _; omega, by show len < _; omega, p3, p4, p5⟩
      have HO := HandleOk.out (e := e) (hp := hp) (lt := lt) (k := k) (a := a) hf' hvt ha hk hb
        (by show a.base ≤ f.start + st; omega) (by show f.start + st + len ≤ _; omega) hc hbox hlt
      have heq : (a.data.drop (f.start + st - a.base)).take len
          = (((a.data.drop (f.start - a.base)).take f.len).drop st).take len := by
        rw [List.drop_take, List.take_take, List.drop_drop, Nat.min_eq_left (by omega)]
        congr 2; omega
      simp only [heq] at HO
      refine ⟨by omega, HO, ?_⟩
      rw [ownerOf_out e _ k hf' hvt, ownerOf_out e f k hf hvt]
      cases k <;> rfl

theorem HandleOk.inl_max {h : Handle} {d : List Byte} (H : HandleOk e hp h d)
    (hin : isInlined e.toTarget h.raw = true) : lenOf e.toTarget h.raw ≤ maxInline e.toTarget := by
  cases H with
  | inl a1 a2 a3 => exact a3
  | out hf hvt => simp [(out_facts e _ _ hf hvt).1] at hin
  | emptyBox => simp [(out_facts e _ _ (emptyBox_ok e) rfl).1] at hin

/-- `split_at`, for every live value and index: it never goes wrong; unless the value is inlined,
it yields the two halves. -/
theorem split_spec (s : State) {h : Handle} {d : List Byte} (I : InvC e s.heap s.next (h :: L) A)
    (H : HandleOk e s.heap h d) (k : Nat) :
    (¬ k ≤ d.length ∧ splitAt e s h.raw k = .ok (s, .err)) ∨
    (k ≤ d.length ∧ maxInline e.toTarget < d.length ∧ splitAt e s h.raw k = .ok (s, .oom)) ∨
    (k ≤ d.length ∧ isInlined e.toTarget h.raw = true ∧ ∃ hp', splitAt e s h.raw k = .ok ({ s with heap := hp' }, .panic)
      ∧ InvC e hp' s.next L A ∧ Ext s.heap hp') ∨
    (k ≤ d.length ∧ ∃ s' l r, splitAt e s h.raw k = .ok (s', .ok l r)
      ∧ InvC e s'.heap s'.next (⟨l, h.lt⟩ :: ⟨r, h.lt⟩ :: L) A ∧ Ext s.heap s'.heap
      ∧ s'.handles = s.handles ∧ s'.arcs = s.arcs
      ∧ HandleOk e s'.heap ⟨l, h.lt⟩ (d.take k) ∧ HandleOk e s'.heap ⟨r, h.lt⟩ (d.drop k)) := by
  have hd := I.asSlice (by simp) H
  have hlen := H.len
  have hltw := H.len_lt I.heap I.nextHi
  unfold splitAt
  simp only [hlen]
  by_cases hk : k ≤ d.length
  · right
    simp only [hk, if_true]
    by_cases hk1 : k ≤ maxInline e.toTarget
    · simp only [hk1, if_true, hd, bind, Except.bind]
      have hsl : (d.take k).length ≤ maxInline e.toTarget := by rw [List.length_take]; omega
      cases hin : isInlined e.toTarget h.raw with
      | false =>
        right; right
        have I1 := (I.addPlain (HandleOk.inline (hp := s.heap) _ hsl h.lt)
          (ownerOf_inl (isInlined_inline e.toTarget _ hsl)) (I.lts h (by simp))).perm
          (List.Perm.swap _ _ _) (List.Perm.refl _)
        rcases subsliced_spec I1 H hin (.incl k) .unb (by simp [wraps]) with ⟨c, _⟩ | ⟨_, hp', r', e1, I', H', x⟩
        · exact absurd c (by simp [Spec.validRange, Spec.lower, Spec.upper, hk])
        · refine ⟨trivial, { s with heap := hp' }, _, _, by rw [e1], I'.perm (List.Perm.swap _ _ _) (List.Perm.refl _), x, rfl, rfl, HandleOk.inline _ hsl _, ?_⟩
          have : Spec.slice d (.incl k) .unb = d.drop k := by
            simp [Spec.slice, Spec.lower, Spec.upper, List.take_of_length_le]
          rwa [this] at H'
      | true =>
        have I1 := (I.addPlain (HandleOk.inline (hp := s.heap) _ hsl h.lt)
          (ownerOf_inl (isInlined_inline e.toTarget _ hsl)) (I.lts h (by simp))).perm
          (List.Perm.swap _ _ _) (List.Perm.refl _)
        right
        unfold subsliced
        rcases shrink_inl (hp := s.heap) (lt := h.lt) H.length hin (H.inl_max hin) (.incl k) .unb with e1 | ⟨r', d', e1, i1, HO, hh⟩
        · left
          obtain ⟨hp', e2, I', x⟩ := drop_spec I
          exact ⟨trivial, rfl, hp', by simp [e1, e2, bind, Except.bind], I', x⟩
        · right
          have hd' := hh k (lenOf e.toTarget h.raw) rfl rfl (by omega) (by omega)
          have hdd : d = h.raw.take (lenOf e.toTarget h.raw) := by
            have hd2 : asSlice e.toTarget s.heap h.raw = .ok (h.raw.take (lenOf e.toTarget h.raw)) := by
              unfold asSlice; rw [hin]; rfl
            rw [hd] at hd2; exact Except.ok.inj hd2
          rw [← hdd, hlen] at hd'
          have hd'' : d' = d.drop k := by
            rw [hd', List.take_of_length_le (by simp)]
          refine ⟨trivial, s, _, r', by simp [e1, bind, Except.bind], ?_, Ext.refl _, rfl, rfl, HandleOk.inline _ hsl _, hd'' ▸ HO⟩
          exact (I1.replace HO (by rw [ownerOf_inl hin, ownerOf_inl i1]) (I1.lts h (by simp))).perm
            (List.Perm.swap _ _ _) (List.Perm.refl _)
    · have hin : isInlined e.toTarget h.raw = false := by
        cases hin : isInlined e.toTarget h.raw with
        | false => rfl
        | true => have := H.inl_max hin; omega
      simp only [hk1, if_false]
      by_cases hk2 : d.length - k ≤ maxInline e.toTarget
      · right; right
        simp only [hk2, if_true, hd, bind, Except.bind]
        have hsl : (d.drop k).length ≤ maxInline e.toTarget := by rw [List.length_drop]; omega
        have I1 := (I.addPlain (HandleOk.inline (hp := s.heap) _ hsl h.lt)
          (ownerOf_inl (isInlined_inline e.toTarget _ hsl)) (I.lts h (by simp))).perm
          (List.Perm.swap _ _ _) (List.Perm.refl _)
        rcases subsliced_spec I1 H hin .unb (.excl k) (by simp [wraps]) with ⟨c, _⟩ | ⟨_, hp', r', e1, I', H', x⟩
        · exact absurd c (by simp [Spec.validRange, Spec.lower, Spec.upper, hk])
        · refine ⟨trivial, { s with heap := hp' }, _, _, by rw [e1], I', x, rfl, rfl, ?_, HandleOk.inline _ hsl _⟩
          have : Spec.slice d .unb (.excl k) = d.take k := by
            simp [Spec.slice, Spec.lower, Spec.upper]
          rwa [this] at H'
      · simp only [hk2, if_false, bind, Except.bind]
        rcases clone_spec s I H with c1 | ⟨s1, l, c1, I1, H1, x1, a1, a2, _, b1⟩
        · left
          exact ⟨trivial, by omega, by simp [c1]⟩
        · rw [c1]
          rcases clone_spec s1 I1 H1 with c2 | ⟨s2, r, c2, I2, H2, x2, a3, a4, _, b2⟩
          · left
            simp only at c2
            exact ⟨trivial, by omega, by simp [c2]⟩
          · right; right
            simp only at c2 I2 H2
            simp only [c2]
            have hlong : maxInline e.toTarget < d.length := by omega
            obtain ⟨nl, _, ll⟩ := b1 hlong
            obtain ⟨nr, _, lr⟩ := b2 hlong
            obtain ⟨fl, rfl, okl, lenl, kl⟩ := (H1.mono x2).reslice I2.heap I2.nextHi nl (by omega)
            obtain ⟨fr, rfl, okr, lenr, kr⟩ := H2.reslice I2.heap I2.nextHi nr (by omega)
            obtain ⟨_, HL, ol⟩ := kl 0 k (by omega)
            obtain ⟨hwr, HR, orr⟩ := kr k (d.length - k) (by omega)
            simp only [List.drop_zero, Nat.add_zero] at HL ol
            rw [List.take_of_length_le (by simp)] at HR
            have e1 : setWord e.toTarget (fl.raw e.toTarget) 1 k = Fields.raw e.toTarget { fl with start := fl.start, len := k } := by
              rw [setWord1_raw]
            have g1 : getWord e.toTarget (fr.raw e.toTarget) 1 = fr.len := congrArg Fields.len (fieldsOf_raw _ fr okr)
            have okr' : Fields.Ok e.toTarget { fr with len := fr.len - k } := by
              obtain ⟨p1, p2, p3, p4, p5⟩ := okr
              exact ⟨p1, by show fr.len - k < _; omega, p3, p4, p5⟩
            have g0 : getWord e.toTarget (Fields.raw e.toTarget { fr with len := fr.len - k }) 0 = fr.start :=
              congrArg Fields.start (fieldsOf_raw _ _ okr')
            have e2 : setWord e.toTarget (setWord e.toTarget (fr.raw e.toTarget) 1 (getWord e.toTarget (fr.raw e.toTarget) 1 - k)) 0
                ((getWord e.toTarget (setWord e.toTarget (fr.raw e.toTarget) 1 (getWord e.toTarget (fr.raw e.toTarget) 1 - k)) 0 + k) % wordMax e.toTarget)
                = Fields.raw e.toTarget { fr with start := fr.start + k, len := d.length - k } := by
              rw [g1, setWord1_raw, g0, setWord0_raw, Nat.mod_eq_of_lt hwr, lenr]
            rw [e1, e2]
            -- bookkeeping: right, left, self
            have J1 := I2.replace HR orr (I2.lts ⟨fr.raw e.toTarget, h.lt⟩ (by simp))
            have J2 := (J1.perm (List.Perm.swap _ _ _) (List.Perm.refl _)).replace HL ol
              (J1.lts ⟨fl.raw e.toTarget, h.lt⟩ (by simp))
            have pm : List.Perm (⟨Fields.raw e.toTarget { fl with start := fl.start, len := k }, h.lt⟩ ::
                ⟨Fields.raw e.toTarget { fr with start := fr.start + k, len := d.length - k }, h.lt⟩ :: h :: L)
                (h :: ⟨Fields.raw e.toTarget { fl with start := fl.start, len := k }, h.lt⟩ ::
                ⟨Fields.raw e.toTarget { fr with start := fr.start + k, len := d.length - k }, h.lt⟩ :: L) :=
              (List.Perm.cons _ (List.Perm.swap _ _ _)).trans (List.Perm.swap _ _ _)
            obtain ⟨hp', e3, J3, x3⟩ := drop_spec (J2.perm pm (List.Perm.refl _))
            rw [e3]
            exact ⟨trivial, { s2 with heap := hp' }, _, _, rfl, J3, x1.trans (x2.trans x3), a3.trans a1, a4.trans a2, HL.mono x3, HR.mono x3⟩
  · left
    exact ⟨hk, by simp [hk]⟩

theorem isBorrowed_iff (k : VtKind) : k.vt.isBorrowed = true ↔ k = .slice := by
  cases k <;> simp [VtKind.vt, Vt.isBorrowed]

/-- Does the value point to somebody else's bytes? -/
def isBorrowedRaw (e : Env) (r : Raw) : Bool :=
  ! isInlined e.toTarget r && (getWord e.toTarget r 4 == e.vtAddr .slice)

theorem borrowed_not {r : Raw} (h : isBorrowedRaw e r = false) :
    ¬ (isInlined e.toTarget r = false ∧ getWord e.toTarget r 4 = e.vtAddr .slice) := by
  intro hh
  simp [isBorrowedRaw, hh.1, hh.2] at h

/-- `upgrade`: contents kept, no lifetime left; a copy is made exactly when the value borrows. -/
theorem upgrade_spec (s : State) {h : Handle} {d : List Byte} (I : InvC e s.heap s.next (h :: L) A)
    (H : HandleOk e s.heap h d) :
    (upgrade e s h.raw = .ok none ∧ isBorrowedRaw e h.raw = true ∧ maxInline e.toTarget < d.length) ∨
    ∃ s' r, upgrade e s h.raw = .ok (some (s', r)) ∧ InvC e s'.heap s'.next (⟨r, none⟩ :: L) A
      ∧ HandleOk e s'.heap ⟨r, none⟩ d ∧ Ext s.heap s'.heap ∧ s'.handles = s.handles ∧ s'.arcs = s.arcs
      ∧ s'.allocs = s.allocs + (if isBorrowedRaw e h.raw = true ∧ maxInline e.toTarget < d.length then 1 else 0)
      ∧ (isBorrowedRaw e h.raw = false → r = h.raw ∧ s' = s) := by
  have hd := I.asSlice (by simp) H
  unfold upgrade
  rcases H.vtable with ⟨v1, v2⟩ | ⟨k, v0, v1, v2⟩
  · right
    have hb : isBorrowedRaw e h.raw = false := by simp [isBorrowedRaw, v1]
    have H' := HandleOk.relt (lt' := none) H (.inr (borrowed_not hb))
    refine ⟨s, h.raw, by rw [v2]; rfl, I.replace H' rfl (LtOk.none _), H', Ext.refl _, rfl, rfl, by simp [hb], fun _ => ⟨rfl, rfl⟩⟩
  · rw [v2]
    simp only [bind, Except.bind]
    by_cases hk : k = .slice
    · subst hk
      have hb : isBorrowedRaw e h.raw = true := by simp [isBorrowedRaw, v0, v1]
      have : VtKind.slice.vt.isBorrowed = true := rfl
      simp only [this, not_true_eq_false, if_false, hd]
      rcases copied_spec s I d none (LtOk.none _) with ⟨c, c0⟩ | ⟨s', r, c, I', HO, x, a1, a2, a3, a4⟩
      · left
        exact ⟨by simp [c], hb, c0⟩
      · right
        obtain ⟨hp', e2, I2, x2⟩ := drop_spec (I'.perm (List.Perm.swap _ _ _) (List.Perm.refl _))
        refine ⟨{ s' with heap := hp' }, r, by simp [c, e2], I2, HO.mono x2, x.trans x2, a1, a2, ?_, by simp [hb]⟩
        show s'.allocs = _
        rw [a3]; simp only [hb, true_and]; split <;> split <;> omega
    · right
      have hnb : k.vt.isBorrowed = false := by
        cases hkb : k.vt.isBorrowed with
        | false => rfl
        | true => exact absurd ((isBorrowed_iff k).mp hkb) hk
      have hb : isBorrowedRaw e h.raw = false := by
        have : e.vtAddr k ≠ e.vtAddr .slice := fun hh => hk (e.vt_inj _ _ hh)
        simp [isBorrowedRaw, v1, this]
      have H' := HandleOk.relt (lt' := none) H (.inr (borrowed_not hb))
      refine ⟨s, h.raw, by simp [hnb], I.replace H' rfl (LtOk.none _), H', Ext.refl _, rfl, rfl, by simp [hb], fun _ => ⟨rfl, rfl⟩⟩

/-- `noalloc_upgrade` on a value that does not borrow. -/
theorem noallocUpgrade_spec {h : Handle} {d : List Byte} (I : InvC e hp n (h :: L) A)
    (H : HandleOk e hp h d) (hb : isBorrowedRaw e h.raw = false) :
    (noallocUpgrade e hp h.raw = .ok none ∧ maxInline e.toTarget < d.length) ∨
    (d.length ≤ maxInline e.toTarget ∧ ∃ hp' r, noallocUpgrade e hp h.raw = .ok (some (hp', r))
      ∧ InvC e hp' n (⟨r, none⟩ :: L) A ∧ HandleOk e hp' ⟨r, none⟩ d ∧ Ext hp hp') := by
  have hd := I.asSlice (by simp) H
  have main : ∀ res, res = (do
        let data ← asSlice e.toTarget hp h.raw
        if data.length ≤ maxInline e.toTarget then do
          let h' ← dropRaw e hp h.raw
          Except.ok (some (h', inlineUnchecked e.toTarget data))
        else .ok none : Except Fault (Option (List Alloc × Raw))) →
      (res = .ok none ∧ maxInline e.toTarget < d.length) ∨
      (d.length ≤ maxInline e.toTarget ∧ ∃ hp' r, res = .ok (some (hp', r))
      ∧ InvC e hp' n (⟨r, none⟩ :: L) A ∧ HandleOk e hp' ⟨r, none⟩ d ∧ Ext hp hp') := by
    intro res hr
    simp only [hd, bind, Except.bind] at hr
    by_cases hl : d.length ≤ maxInline e.toTarget
    · right
      have I1 := (I.addPlain (HandleOk.inline (hp := hp) d hl none)
        (ownerOf_inl (isInlined_inline e.toTarget _ hl)) (LtOk.none _)).perm
        (List.Perm.swap _ _ _) (List.Perm.refl _)
      obtain ⟨hp', e1, I2, x⟩ := drop_spec I1
      simp only [hl, if_true, e1] at hr
      exact ⟨hl, hp', _, hr, I2, HandleOk.inline d hl none, x⟩
    · left
      simp only [hl, if_false] at hr
      exact ⟨hr, by omega⟩
  apply main
  unfold noallocUpgrade
  rcases H.vtable with ⟨v1, v2⟩ | ⟨k, v0, v1, v2⟩
  · rw [v2]; rfl
  · rw [v2]
    have hk : k ≠ .slice := by
      intro hh; subst hh; simp [isBorrowedRaw, v0, v1] at hb
    have : k.vt.isBorrowed = false := by
      cases hkb : k.vt.isBorrowed with
      | false => rfl
      | true => exact absurd ((isBorrowed_iff k).mp hkb) hk
    simp only [bind, Except.bind, this]
    rfl

/-- `read` on an out-of-line value. -/
theorem read_spec {h : Handle} {d : List Byte} (I : InvC e hp n (h :: L) A) (H : HandleOk e hp h d)
    (hout : isInlined e.toTarget h.raw = false) (m : Nat) :
    ∃ hp' r', readInto e hp h.raw m = .ok (.ok (hp', r', d.take m)) ∧ InvC e hp' n (⟨r', h.lt⟩ :: L) A
      ∧ HandleOk e hp' ⟨r', h.lt⟩ (d.drop m) ∧ Ext hp hp' := by
  have hd := I.asSlice (by simp) H
  have hlen := H.len
  unfold readInto
  simp only [hd, bind, Except.bind, hlen]
  have hm : min d.length m ≤ d.length := Nat.min_le_left _ _
  simp only [hm, not_true_eq_false, if_false]
  have ht : d.take (min d.length m) = d.take m := by
    rw [List.take_eq_take_iff]; omega
  have hdr : Spec.slice d (.incl (min d.length m)) .unb = d.drop m := by
    unfold Spec.slice Spec.lower Spec.upper
    simp only
    rw [List.take_of_length_le (by simp)]
    by_cases hc : d.length ≤ m
    · rw [Nat.min_eq_left hc, List.drop_of_length_le (Nat.le_refl _), List.drop_of_length_le hc]
    · rw [Nat.min_eq_right (by omega)]
  rcases shrink_spec I H hout (.incl (min d.length m)) .unb (by simp [wraps]) with ⟨c, _⟩ | ⟨_, hp', r', e1, I', H', x⟩
  · exact absurd c (by simp only [Spec.validRange, Spec.lower, Spec.upper]; omega)
  · rw [hdr] at H'
    rw [e1, ht]
    exact ⟨hp', r', rfl, I', H', x⟩

/-- Memory safety of `read`. -/
theorem read_safe {h : Handle} (I : InvC e hp n (h :: L) A) (m : Nat) :
    readInto e hp h.raw m = .ok .panic ∨
    ∃ hp' r' g, readInto e hp h.raw m = .ok (.ok (hp', r', g)) ∧ InvC e hp' n (⟨r', h.lt⟩ :: L) A
      ∧ Ext hp hp' := by
  obtain ⟨d, H⟩ := I.ok h (by simp)
  have hd := I.asSlice (by simp) H
  unfold readInto
  simp only [hd, bind, Except.bind]
  split
  · exact .inl rfl
  · rcases shrink_safe I (.incl (min (lenOf e.toTarget h.raw) m)) .unb with e1 | ⟨hp', r', e1, I', x⟩
    · left; rw [e1]
    · right; exact ⟨hp', r', _, by rw [e1], I', x⟩

/-- Recovering the `Arc`: only from an `Arc`-backed value showing the whole of it. -/
theorem tryIntoArc_spec {h : Handle} {d : List Byte} (H : HandleOk e hp h d) {b : Nat}
    (hb : tryIntoArc e h.raw = some b) :
    ownerOf e h.raw = some b ∧ ∃ a ∈ hp, a.base = b ∧ a.kind = .arc ∧ a.data = d := by
  unfold tryIntoArc at hb
  simp only at hb
  split at hb
  · cases hb
  · rename_i hni
    split at hb
    · rename_i hc
      obtain ⟨c1, c2, c3⟩ := hc
      cases hb
      cases H with
      | inl a1 a2 a3 => exact absurd a2 hni
      | emptyBox =>
        rw [fieldsOf_raw _ _ (emptyBox_ok e)] at c1
        exact absurd (e.vt_inj _ _ c1) (by simp)
      | @out f k lt a hf hvt ha hk hbb h1 h2 hcc hbox hlt =>
        simp only [fieldsOf_raw _ f hf] at c1 c2 c3 ⊢
        have : k = .arc := e.vt_inj _ _ (hvt.symm.trans c1)
        subst this
        refine ⟨ownerOf_out e f .arc hf hvt, a, ha, hbb, hk, ?_⟩
        rw [c2, ← hbb, Nat.sub_self, c3, hcc]
        simp
    · cases hb

/-- Conversely. -/
theorem tryIntoArc_none {h : Handle} {d : List Byte} (H : HandleOk e hp h d)
    (hb : tryIntoArc e h.raw = none) :
    ¬ (isInlined e.toTarget h.raw = false ∧ getWord e.toTarget h.raw 4 = e.vtAddr .arc
        ∧ ∃ a ∈ hp, a.base = getWord e.toTarget h.raw 2 ∧ getWord e.toTarget h.raw 0 = a.base
          ∧ a.data.length = d.length ∧ a.data.length = getWord e.toTarget h.raw 3) := by
  intro ⟨c0, c1, a, ha, c2, c3, c4, c5⟩
  have hl := H.len
  unfold lenOf at hl
  rw [c0] at hl
  simp only [Bool.false_eq_true, if_false] at hl
  unfold tryIntoArc fieldsOf at hb
  simp [c0, c1] at hb
  exact hb (by omega) (by omega)

/-- Turning a `Bytes` into the `Arc` it holds moves one unit of the count. -/
theorem InvC.toArc {h : Handle} (I : InvC e hp n (h :: L) A) {b : Nat} (ho : ownerOf e h.raw = some b)
    (ha : ∃ a ∈ hp, a.base = b ∧ a.kind = .arc) : InvC e hp n L (b :: A) :=
  { heap := I.heap, nextLo := I.nextLo, nextHi := I.nextHi
    ok := fun h' hh => I.ok h' (List.mem_cons_of_mem _ hh)
    lts := fun h' hh => I.lts h' (List.mem_cons_of_mem _ hh)
    arcs := fun c hc => by
      rcases List.mem_cons.mp hc with rfl | hc
      · exact ha
      · exact I.arcs c hc
    counted := fun a ha g1 g2 => by
      rw [I.counted a ha g1 g2, List.countP_cons, List.count_cons, ho]
      by_cases hb : b = a.base
      · simp [hb]; omega
      · simp [hb]
    static := I.static }

/-- And back (`From<Arc<[u8]>>`). -/
theorem InvC.ofArc {b : Nat} (I : InvC e hp n L (b :: A)) :
    ∃ a ∈ hp, findBase hp b = some a ∧ a.base = b ∧
      let h : Handle := ⟨fromArcRaw e b a.data.length, none⟩
      InvC e hp n (h :: L) A ∧ HandleOk e hp h a.data := by
  obtain ⟨a, ha, hb, hk⟩ := I.arcs b (by simp)
  refine ⟨a, ha, I.heap.findBase ha hb, hb, ?_⟩
  intro h
  have hhi := I.heap.hi a ha
  have hn := I.nextHi
  have hf : Fields.Ok e.toTarget ⟨b, a.data.length, b, a.data.length, e.vtAddr .arc⟩ :=
    ⟨by show b < _; omega, by show a.data.length < _; omega, by show b < _; omega,
     by show a.data.length < _; omega, e.vt_lt .arc⟩
  have HO : HandleOk e hp h a.data := by
    have := HandleOk.out (e := e) (hp := hp) (lt := none) (k := .arc) (a := a) hf rfl ha hk hb
      (Nat.le_of_eq hb) (Nat.le_of_eq (by show b + a.data.length = _; omega)) rfl (by simp) (by simp)
    simp [hb] at this
    exact this
  have ho : ownerOf e h.raw = some b := ownerOf_out e _ .arc hf rfl
  refine ⟨?_, HO⟩
  exact
  { heap := I.heap, nextLo := I.nextLo, nextHi := I.nextHi
    ok := fun h' hh => by
      rcases List.mem_cons.mp hh with rfl | hh
      · exact ⟨_, HO⟩
      · exact I.ok h' hh
    lts := fun h' hh => by
      rcases List.mem_cons.mp hh with rfl | hh
      · exact LtOk.none _
      · exact I.lts h' hh
    arcs := fun c hc => I.arcs c (List.mem_cons_of_mem _ hc)
    counted := fun a ha g1 g2 => by
      rw [I.counted a ha g1 g2, List.countP_cons, List.count_cons, ho]
      by_cases hb : b = a.base
      · simp [hb]; omega
      · simp [hb]
    static := I.static }

end Verif.Bytes
