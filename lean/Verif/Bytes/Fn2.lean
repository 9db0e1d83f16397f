import Verif.Bytes.Fn
import Verif.Bytes.Spec
/-! Effect of shrinking, splitting and upgrading in a consistent state. -/
namespace Verif.Bytes

variable {e : Env} {hp : List Alloc} {n : Nat} {L : List Handle} {A : List Nat}

/-- The bound computation of `shrink_to` wraps around `usize` (profile without overflow checks). -/
def wraps (t : Target) (lo hi : Bound) : Bool :=
  !t.ovf && ((match lo with | .excl i => decide (wordMax t ≤ i + 1) | _ => false)
    || (match hi with | .incl i => decide (wordMax t ≤ i + 1) | _ => false))

theorem HandleOk.len_lt {h : Handle} {d : List Byte} (H : HandleOk e hp h d) (hh : HeapOk hp n)
    (hn : n < wordMax e.toTarget) : d.length < wordMax e.toTarget := by
  have hw := wordMax_ge e.toTarget
  cases H with
  | inl h1 h2 h3 =>
    have := maxInline_le e.toTarget
    rw [List.length_take]; omega
  | @out f k lt a hf hvt ha hk hb h1 h2 hc hbox hlt =>
    have := hh.hi a ha
    rw [List.length_take, List.length_drop]; omega
  | emptyBox => simp; omega

/-- Bounds, when they do not wrap. -/
theorem bounds_spec (t : Target) (r : Raw) (lo hi : Bound) (hw : wraps t lo hi = false)
    (hl : lenOf t r < wordMax t) :
    (startOf t lo = some (Spec.lower lo) ∧ endOf t r hi = some (Spec.upper (lenOf t r) hi))
    ∨ ((startOf t lo = none ∨ endOf t r hi = none) ∧ ¬ Spec.validRange (lenOf t r) lo hi) := by
  unfold wraps at hw
  unfold startOf endOf succWord Spec.validRange Spec.lower Spec.upper
  cases lo <;> cases hi <;> cases ho : t.ovf <;> simp [ho] at hw ⊢ <;> (repeat' split) <;>
    (try simp) <;> omega

/-- The match in `shrink_to`, once the bounds are known. -/
theorem shrinkTo_eq (e : Env) (hp : List Alloc) (r : Raw) (lo hi : Bound) (st en : Nat)
    (h1 : startOf e.toTarget lo = some st) (h2 : endOf e.toTarget r hi = some en) :
    shrinkTo e hp r lo hi =
      if ¬ st ≤ en then .ok .panic
      else if ¬ en ≤ getWord e.toTarget r 1 then .ok .panic
      else if en - st ≤ maxInline e.toTarget then do
        let data ← asSlice e.toTarget hp r
        if ¬ en ≤ data.length then .ok .panic
        else do
          let h' ← dropRaw e hp r
          .ok (.ok (h', inlineUnchecked e.toTarget ((data.drop st).take (en - st))))
      else .ok (.ok (hp, setWord e.toTarget (setWord e.toTarget r 0 ((getWord e.toTarget r 0 + st) % wordMax e.toTarget)) 1 (en - st))) := by
  unfold shrinkTo
  simp only [h1, h2]

theorem shrinkTo_none (e : Env) (hp : List Alloc) (r : Raw) (lo hi : Bound)
    (h : startOf e.toTarget lo = none ∨ endOf e.toTarget r hi = none) :
    shrinkTo e hp r lo hi = .ok .panic := by
  unfold shrinkTo
  rcases h with h | h
  · simp [h]
  · cases h1 : startOf e.toTarget lo <;> simp [h]

/-- `shrink_to` on an out-of-line value: exactly Rust's slice indexing on `[st, en)`. -/
theorem shrink_out {h : Handle} {d : List Byte} (I : InvC e hp n (h :: L) A) (H : HandleOk e hp h d)
    (hout : isInlined e.toTarget h.raw = false) (lo hi : Bound) (st en : Nat)
    (h1 : startOf e.toTarget lo = some st) (h2 : endOf e.toTarget h.raw hi = some en) :
    (¬ (st ≤ en ∧ en ≤ d.length) ∧ shrinkTo e hp h.raw lo hi = .ok .panic) ∨
    ((st ≤ en ∧ en ≤ d.length) ∧ ∃ hp' r', shrinkTo e hp h.raw lo hi = .ok (.ok (hp', r'))
      ∧ InvC e hp' n (⟨r', h.lt⟩ :: L) A ∧ HandleOk e hp' ⟨r', h.lt⟩ ((d.drop st).take (en - st))
      ∧ Ext hp hp') := by
  have hd := I.asSlice (by simp) H
  have hlen : getWord e.toTarget h.raw 1 = d.length := by
    have := H.len; unfold lenOf at this; rw [hout] at this; exact this
  rw [shrinkTo_eq e hp h.raw lo hi st en h1 h2, hlen]
  by_cases hv : st ≤ en
  · by_cases hv2 : en ≤ d.length
    · right
      refine ⟨⟨hv, hv2⟩, ?_⟩
      simp only [hv, hv2, not_true_eq_false, if_false]
      by_cases hs : en - st ≤ maxInline e.toTarget
      · have hsl : ((d.drop st).take (en - st)).length ≤ maxInline e.toTarget := by
          rw [List.length_take]; omega
        simp only [hs, if_true, hd, bind, Except.bind, hv2, not_true_eq_false, if_false]
        have I1 := I.addPlain (HandleOk.inline (hp := hp) _ hsl h.lt)
          (ownerOf_inl (isInlined_inline e.toTarget _ hsl)) (I.lts h (by simp))
        obtain ⟨hp', e1, I2, x⟩ := drop_spec (I1.perm (List.Perm.swap _ _ _) (List.Perm.refl _))
        rw [e1]
        exact ⟨hp', _, rfl, I2, HandleOk.inline _ hsl _, x⟩
      · simp only [hs, if_false]
        have H0 := H
        cases H with
        | inl a1 a2 a3 => simp [a2] at hout
        | emptyBox => simp at hv2; omega
        | @out f k lt a hf hvt ha hk hb c1 c2 hc hbox hlt =>
          obtain ⟨g0, g1, g2, _⟩ := out_facts e f k hf hvt
          have hhi := I.heap.hi a ha
          have hnh := I.nextHi
          rw [List.length_take, List.length_drop] at hv2
          have hmod : (f.start + st) % wordMax e.toTarget = f.start + st := Nat.mod_eq_of_lt (by omega)
          simp only [g1, setWord0_raw, setWord1_raw, hmod]
          have hf' : Fields.Ok e.toTarget ⟨f.start + st, en - st, f.owner, f.cap, f.vt⟩ := by
            obtain ⟨p1, p2, p3, p4, p5⟩ := hf
            exact ⟨by show f.start + st < _; omega, by show en - st < _; omega, p3, p4, p5⟩
          have HO := HandleOk.out (e := e) (hp := hp) (lt := lt) (k := k) (a := a) hf' hvt ha hk hb
            (by show a.base ≤ f.start + st; omega) (by show f.start + st + (en - st) ≤ _; omega) hc hbox hlt
          have heq : (a.data.drop (f.start + st - a.base)).take (en - st)
              = (((a.data.drop (f.start - a.base)).take f.len).drop st).take (en - st) := by
            rw [List.drop_take, List.take_take, List.drop_drop, Nat.min_eq_left (by omega)]
            congr 2; omega
          simp only [heq] at HO
          refine ⟨hp, _, rfl, I.replace HO ?_ (I.lts ⟨f.raw e.toTarget, lt⟩ (by simp)), HO, Ext.refl _⟩
          show ownerOf e (Fields.raw _ _) = ownerOf e (Fields.raw _ _)
          rw [ownerOf_out e _ k hf' hvt, ownerOf_out e f k hf hvt]
          cases k <;> rfl
    · left
      exact ⟨fun hh => hv2 hh.2, by simp [hv, hv2]⟩
  · left
    exact ⟨fun hh => hv hh.1, by simp [hv]⟩

/-- `shrink_to` on an inlined value never touches the heap and keeps the value well-formed; on a
valid range it yields the right contents or panics. -/
theorem shrink_inl {r : Raw} {lt : Option Nat} (hlen : r.length = 5 * e.w)
    (hin : isInlined e.toTarget r = true) (hmax : lenOf e.toTarget r ≤ maxInline e.toTarget)
    (lo hi : Bound) :
    shrinkTo e hp r lo hi = .ok .panic ∨
    ∃ r' d', shrinkTo e hp r lo hi = .ok (.ok (hp, r')) ∧ isInlined e.toTarget r' = true
      ∧ HandleOk e hp ⟨r', lt⟩ d'
      ∧ (∀ st en, startOf e.toTarget lo = some st → endOf e.toTarget r hi = some en →
          st ≤ en → en ≤ lenOf e.toTarget r → d' = ((r.take (lenOf e.toTarget r)).drop st).take (en - st)) := by
  cases h1 : startOf e.toTarget lo with
  | none => left; exact shrinkTo_none e hp r lo hi (.inl h1)
  | some st =>
    cases h2 : endOf e.toTarget r hi with
    | none => left; exact shrinkTo_none e hp r lo hi (.inr h2)
    | some en =>
      rw [shrinkTo_eq e hp r lo hi st en h1 h2]
      have hml := maxInline_lt e.toTarget
      have hd : asSlice e.toTarget hp r = .ok (r.take (lenOf e.toTarget r)) := by
        unfold asSlice; rw [hin]; rfl
      have hdr : dropRaw e hp r = .ok hp := by
        unfold dropRaw vtableOf; rw [hin]; rfl
      have hdl : (r.take (lenOf e.toTarget r)).length = lenOf e.toTarget r := by
        rw [List.length_take, hlen]; omega
      by_cases hv : st ≤ en
      · by_cases hv2 : en ≤ getWord e.toTarget r 1
        · simp only [hv, hv2, not_true_eq_false, if_false]
          by_cases hs : en - st ≤ maxInline e.toTarget
          · simp only [hs, if_true, hd, hdr, bind, Except.bind, hdl]
            by_cases hv3 : en ≤ lenOf e.toTarget r
            · right
              have hsl : (((r.take (lenOf e.toTarget r)).drop st).take (en - st)).length ≤ maxInline e.toTarget := by
                rw [List.length_take]; omega
              simp only [hv3, not_true_eq_false, if_false]
              refine ⟨_, _, rfl, isInlined_inline _ _ hsl, HandleOk.inline _ hsl lt, ?_⟩
              intro st' en' a1 a2 _ _
              cases a1; cases a2; rfl
            · left; simp [hv3]
          · right
            simp only [hs, if_false]
            have rf := raw_fieldsOf e.toTarget r hlen
            have hin' := hin
            have hmax' := hmax
            generalize hff : fieldsOf e.toTarget r = f at rf
            have hset : setWord e.toTarget (setWord e.toTarget r 0 ((getWord e.toTarget r 0 + st) % wordMax e.toTarget)) 1 (en - st)
                = Fields.raw e.toTarget ⟨(getWord e.toTarget r 0 + st) % wordMax e.toTarget, en - st, f.owner, f.cap, f.vt⟩ := by
              generalize (getWord e.toTarget r 0 + st) % wordMax e.toTarget = q
              rw [← rf, setWord0_raw, setWord1_raw]
            rw [hset]
            generalize hg : (⟨(getWord e.toTarget r 0 + st) % wordMax e.toTarget, en - st, f.owner, f.cap, f.vt⟩ : Fields) = g
            have hb : lenByte e.toTarget (g.raw e.toTarget) = lenByte e.toTarget r := by
              rw [← rf, lenByte_eq, lenByte_eq, ← hg]
            have hI : isInlined e.toTarget (g.raw e.toTarget) = true := by
              unfold isInlined at hin ⊢
              rw [hb]; exact hin
            have hL : lenOf e.toTarget (g.raw e.toTarget) = lenOf e.toTarget r := by
              unfold lenOf; rw [hI, hin, hb]; rfl
            have HO := HandleOk.inl (e := e) (hp := hp) (lt := lt) (Fields.raw_length e.toTarget g) hI (by rw [hL]; exact hmax)
            refine ⟨_, _, rfl, hI, HO, ?_⟩
            intro st' en' a1 a2 _ a4
            cases a1; cases a2
            omega
        · left; simp [hv, hv2]
      · left; simp [hv]

/-- Memory safety of `shrink_to`, for every live value and every range. -/
theorem shrink_safe {h : Handle} (I : InvC e hp n (h :: L) A) (lo hi : Bound) :
    shrinkTo e hp h.raw lo hi = .ok .panic ∨
    ∃ hp' r', shrinkTo e hp h.raw lo hi = .ok (.ok (hp', r')) ∧ InvC e hp' n (⟨r', h.lt⟩ :: L) A
      ∧ Ext hp hp' := by
  obtain ⟨d, H⟩ := I.ok h (by simp)
  cases hin : isInlined e.toTarget h.raw with
  | true =>
    have hm : lenOf e.toTarget h.raw ≤ maxInline e.toTarget := by
      cases H with
      | inl a1 a2 a3 => exact a3
      | out hf hvt => simp [(out_facts e _ _ hf hvt).1] at hin
      | emptyBox => simp [(out_facts e _ _ (emptyBox_ok e) rfl).1] at hin
    rcases shrink_inl (hp := hp) (lt := h.lt) H.length hin hm lo hi with hh | ⟨r', d', e1, i1, HO, _⟩
    · exact .inl hh
    · exact .inr ⟨hp, r', e1, I.replace HO (by rw [ownerOf_inl hin, ownerOf_inl i1]) (I.lts h (by simp)), Ext.refl _⟩
  | false =>
    cases h1 : startOf e.toTarget lo with
    | none => exact .inl (shrinkTo_none e hp h.raw lo hi (.inl h1))
    | some st =>
      cases h2 : endOf e.toTarget h.raw hi with
      | none => exact .inl (shrinkTo_none e hp h.raw lo hi (.inr h2))
      | some en =>
        rcases shrink_out I H hin lo hi st en h1 h2 with ⟨_, hh⟩ | ⟨_, hp', r', e1, I', _, x⟩
        · exact .inl hh
        · exact .inr ⟨hp', r', e1, I', x⟩

/-- `shrink_to` on an out-of-line value, in terms of Rust's range rules. -/
theorem shrink_spec {h : Handle} {d : List Byte} (I : InvC e hp n (h :: L) A) (H : HandleOk e hp h d)
    (hout : isInlined e.toTarget h.raw = false) (lo hi : Bound) (hw : wraps e.toTarget lo hi = false) :
    (¬ Spec.validRange d.length lo hi ∧ shrinkTo e hp h.raw lo hi = .ok .panic) ∨
    (Spec.validRange d.length lo hi ∧ ∃ hp' r', shrinkTo e hp h.raw lo hi = .ok (.ok (hp', r'))
      ∧ InvC e hp' n (⟨r', h.lt⟩ :: L) A ∧ HandleOk e hp' ⟨r', h.lt⟩ (Spec.slice d lo hi)
      ∧ Ext hp hp') := by
  have hl := H.len
  have hlt := H.len_lt I.heap I.nextHi
  rcases bounds_spec e.toTarget h.raw lo hi hw (by omega) with ⟨b1, b2⟩ | ⟨b1, b2⟩
  · rw [hl] at b2
    exact shrink_out I H hout lo hi _ _ b1 b2
  · left
    rw [hl] at b2
    exact ⟨b2, shrinkTo_none e hp h.raw lo hi b1⟩

/-- `subsliced` on an out-of-line value. -/
theorem subsliced_spec {h : Handle} {d : List Byte} (I : InvC e hp n (h :: L) A) (H : HandleOk e hp h d)
    (hout : isInlined e.toTarget h.raw = false) (lo hi : Bound) (hw : wraps e.toTarget lo hi = false) :
    (¬ Spec.validRange d.length lo hi ∧ ∃ hp', subsliced e hp h.raw lo hi = .ok (hp', none)
      ∧ InvC e hp' n L A ∧ Ext hp hp') ∨
    (Spec.validRange d.length lo hi ∧ ∃ hp' r', subsliced e hp h.raw lo hi = .ok (hp', some r')
      ∧ InvC e hp' n (⟨r', h.lt⟩ :: L) A ∧ HandleOk e hp' ⟨r', h.lt⟩ (Spec.slice d lo hi)
      ∧ Ext hp hp') := by
  unfold subsliced
  rcases shrink_spec I H hout lo hi hw with ⟨c, e1⟩ | ⟨c, hp', r', e1, I', H', x⟩
  · left
    obtain ⟨hp', e2, I', x⟩ := drop_spec I
    exact ⟨c, hp', by simp [e1, e2, bind, Except.bind], I', x⟩
  · right
    exact ⟨c, hp', r', by simp [e1, bind, Except.bind], I', H', x⟩

/-- Memory safety of `subsliced`. -/
theorem subsliced_safe {h : Handle} (I : InvC e hp n (h :: L) A) (lo hi : Bound) :
    (∃ hp', subsliced e hp h.raw lo hi = .ok (hp', none) ∧ InvC e hp' n L A ∧ Ext hp hp') ∨
    ∃ hp' r', subsliced e hp h.raw lo hi = .ok (hp', some r') ∧ InvC e hp' n (⟨r', h.lt⟩ :: L) A
      ∧ Ext hp hp' := by
  unfold subsliced
  rcases shrink_safe I lo hi with e1 | ⟨hp', r', e1, I', x⟩
  · left
    obtain ⟨hp', e2, I', x⟩ := drop_spec I
    exact ⟨hp', by simp [e1, e2, bind, Except.bind], I', x⟩
  · right
    exact ⟨hp', r', by simp [e1, bind, Except.bind], I', x⟩

end Verif.Bytes
