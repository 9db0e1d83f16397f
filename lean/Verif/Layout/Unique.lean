import Verif.Layout.Valid
/-
A byte image represents at most one value.
-/
namespace Verif.Layout

theorem none_not_some {tg : Target} {al : Bool} : ∀ (t : Ty) (v : Val) (bs : List UInt8),
    supported tg t = true → hasNiche t = true → NoneImage tg t bs → ¬ Enc tg al t v bs
  | .ref _ _, v, bs, _, _, hn, h => by
    cases v <;> simp only [Enc] at h
    simp only [NoneImage] at hn
    exact h.2.2.1 (h.2.1.symm.trans hn)
  | .out _, v, bs, _, _, hn, h => by
    cases v <;> simp only [Enc] at h
    simp only [NoneImage] at hn
    exact h.2.2.1 (h.2.1.symm.trans hn)
  | .fnPtr, v, bs, _, _, hn, h => by
    cases v <;> simp only [Enc] at h
    simp only [NoneImage] at hn
    exact h.2.2 (h.2.1.symm.trans hn)
  | .struct true (.ref k t :: fs), v, bs, _, _, hn, h => by
    cases v <;> simp only [Enc] at h
    rename_i vs
    simp only [NoneImage] at hn
    cases vs with
    | nil => simp [lays, offsetsFrom, EncFields] at h
    | cons v vs =>
      simp only [lays, lay, offsetsFrom, roundUp_zero tg.ptrAlign_pos, EncFields] at h
      cases v <;> simp only [Enc] at h
      · exact h.2.1.elim
      · exact h.2.1.elim
      · exact h.2.1.elim
      · exact h.2.1.elim
      · refine h.2.1.2.2.1 (h.2.1.2.1.symm.trans ?_)
        simpa only [sizeOf', lay] using hn
      all_goals exact h.2.1.elim
  | .transparent (f :: fs), v, bs, hs, hc, hn, h => by
    simp only [hasNiche] at hc
    simp only [supported, Bool.and_eq_true] at hs
    simp only [NoneImage] at hn
    cases v <;> simp only [Enc] at h
    rename_i vs
    have hlay := lay_transparent hs.2 (align_pos tg f hs.1)
    cases vs with
    | nil => simp [EncFields] at h
    | cons v vs =>
      simp only [List.map_cons, EncFields] at h
      have hl : bs.length = sizeOf' tg f := by rw [h.1]; simp only [sizeOf', hlay]
      have h2 := h.2.1
      rw [slice_zero_of_length hl] at h2
      exact none_not_some f v bs hs.1 hc hn h2
  | .int _, _, _, _, h, _, _ | .float _, _, _, _, h, _, _ | .bool, _, _, _, h, _, _
  | .enum _ _, _, _, _, h, _, _ | .rawPtr, _, _, _, h, _, _
  | .array _ _, _, _, _, h, _, _ | .option _, _, _, _, h, _, _ | .tagged _, _, _, _, h, _, _
  | .unit, _, _, _, h, _, _ | .opaque _ _, _, _, _, h, _, _
  | .struct false _, _, _, _, h, _, _ | .struct true [], _, _, _, h, _, _
  | .transparent [], _, _, _, h, _, _ => by
    simp [hasNiche] at h
  | .struct true (.int _ :: _), _, _, _, h, _, _ | .struct true (.float _ :: _), _, _, _, h, _, _
  | .struct true (.bool :: _), _, _, _, h, _, _ | .struct true (.enum _ _ :: _), _, _, _, h, _, _
  | .struct true (.rawPtr :: _), _, _, _, h, _, _ | .struct true (.out _ :: _), _, _, _, h, _, _
  | .struct true (.fnPtr :: _), _, _, _, h, _, _ | .struct true (.array _ _ :: _), _, _, _, h, _, _
  | .struct true (.struct _ _ :: _), _, _, _, h, _, _
  | .struct true (.transparent _ :: _), _, _, _, h, _, _
  | .struct true (.option _ :: _), _, _, _, h, _, _ | .struct true (.tagged _ :: _), _, _, _, h, _, _
  | .struct true (.unit :: _), _, _, _, h, _, _
  | .struct true (.opaque _ _ :: _), _, _, _, h, _, _ => by
    simp [hasNiche] at h

theorem units_unique {tg : Target} {al : Bool} {bs : List UInt8} : ∀ {fs : List Ty} {vs vs' : List Val}
    {os : List Nat}, (fs.all fun | .unit => true | _ => false) = true →
      EncFields tg al fs os vs bs → EncFields tg al fs os vs' bs → vs = vs'
  | [], vs, vs', os, _, h, h' => by
    cases os <;> cases vs <;> cases vs' <;> simp_all [EncFields]
  | f :: fs, vs, vs', os, hu, h, h' => by
    rw [List.all_cons, Bool.and_eq_true] at hu
    cases os with
    | nil => cases vs <;> simp [EncFields] at h
    | cons o os =>
      cases vs with
      | nil => simp [EncFields] at h
      | cons v vs =>
        cases vs' with
        | nil => simp [EncFields] at h'
        | cons v' vs' =>
          simp only [EncFields] at h h'
          rw [units_unique hu.2 h.2 h'.2]
          cases f <;> simp at hu
          cases v <;> cases v' <;> simp_all [Enc]

mutual
theorem enc_unique {tg : Target} {al : Bool} : ∀ (t : Ty) (v v' : Val) (bs : List UInt8),
    supported tg t = true → Enc tg al t v bs → Enc tg al t v' bs → v = v'
  | .int k, v, v', bs, _, h, h' => by
    cases v <;> simp only [Enc] at h
    cases v' <;> simp only [Enc] at h'
    rw [← (intImage_iff h.1).mp h, ← (intImage_iff h'.1).mp h']
  | .float k, v, v', bs, _, h, h' => by
    cases v <;> simp only [Enc] at h
    cases v' <;> simp only [Enc] at h'
    rw [← h.2, ← h'.2]
  | .bool, v, v', bs, _, h, h' => by
    cases v <;> simp only [Enc] at h
    cases v' <;> simp only [Enc] at h'
    rename_i b b'
    subst h
    cases b <;> cases b' <;> simp_all
  | .enum k vs, v, v', bs, hs, h, h' => by
    cases v <;> simp only [Enc] at h
    cases v' <;> simp only [Enc] at h'
    simp only [supported] at hs
    rename_i i i'
    obtain ⟨d, h1, h2⟩ := h
    obtain ⟨d', h1', h2'⟩ := h'
    have hd : d = d' := ((intImage_iff h2.1).mp h2).symm.trans ((intImage_iff h2.1).mp h2')
    subst hd
    rw [hasDisc_iff] at h1 h1'
    have hn := (discsOk_spec hs).2
    obtain ⟨hi, _⟩ := List.getElem?_eq_some_iff.mp h1
    exact congrArg Val.variant ((List.getElem?_inj hi hn).mp (h1.trans h1'.symm))
  | .rawPtr, v, v', bs, _, h, h' => by
    cases v <;> simp only [Enc] at h
    cases v' <;> simp only [Enc] at h'
    rw [← h.2, ← h'.2]
  | .ref _ _, v, v', bs, _, h, h' => by
    cases v <;> simp only [Enc] at h
    cases v' <;> simp only [Enc] at h'
    rw [← h.2.1, ← h'.2.1]
  | .out _, v, v', bs, _, h, h' => by
    cases v <;> simp only [Enc] at h
    cases v' <;> simp only [Enc] at h'
    rw [← h.2.1, ← h'.2.1]
  | .fnPtr, v, v', bs, _, h, h' => by
    cases v <;> simp only [Enc] at h
    cases v' <;> simp only [Enc] at h'
    rw [← h.2.1, ← h'.2.1]
  | .array t n, v, v', bs, hs, h, h' => by
    simp only [supported, Bool.and_eq_true] at hs
    cases v <;> simp only [Enc] at h
    cases v' <;> simp only [Enc] at h'
    rename_i vs vs'
    refine congrArg Val.arr (List.ext_getElem? fun i => ?_)
    by_cases hi : i < vs.length
    · have hi' : i < vs'.length := by omega
      rw [List.getElem?_eq_getElem hi, List.getElem?_eq_getElem hi']
      exact congrArg some (enc_unique t _ _ _ hs.2 (h.2.2 i _ (List.getElem?_eq_getElem hi))
        (h'.2.2 i _ (List.getElem?_eq_getElem hi')))
    · rw [List.getElem?_eq_none (by omega), List.getElem?_eq_none (by omega)]
  | .struct n fs, v, v', bs, hs, h, h' => by
    simp only [supported] at hs
    cases v <;> simp only [Enc] at h
    cases v' <;> simp only [Enc] at h'
    exact congrArg Val.tup (encFields_unique fs _ _ _ bs hs h.2 h'.2)
  | .transparent [], v, v', bs, hs, h, h' => by simp [supported] at hs
  | .transparent (f :: fs), v, v', bs, hs, h, h' => by
    simp only [supported, Bool.and_eq_true] at hs
    cases v <;> simp only [Enc] at h
    cases v' <;> simp only [Enc] at h'
    rename_i vs vs'
    cases vs with
    | nil => simp [EncFields] at h
    | cons v vs =>
      cases vs' with
      | nil => simp [EncFields] at h'
      | cons v' vs' =>
        simp only [List.map_cons, EncFields] at h h'
        rw [enc_unique f v v' _ hs.1 h.2.1 h'.2.1, units_unique hs.2 h.2.2 h'.2.2]
  | .option t, v, v', bs, hs, h, h' => by
    simp only [supported, Bool.and_eq_true] at hs
    cases v <;> simp only [Enc] at h <;> cases v' <;> simp only [Enc] at h'
    · rfl
    · exact (none_not_some t _ bs hs.1 hs.2 h.2 h').elim
    · exact (none_not_some t _ bs hs.1 hs.2 h'.2 h).elim
    · exact congrArg Val.some (enc_unique t _ _ bs hs.1 h h')
  | .tagged t, v, v', bs, hs, h, h' => by
    simp only [supported] at hs
    cases v <;> simp only [Enc] at h <;> cases v' <;> simp only [Enc] at h'
    · rfl
    · rw [h.2] at h'; simp at h'
    · rw [h'.2] at h; simp at h
    · exact congrArg Val.some (enc_unique t _ _ _ hs h.2.2 h'.2.2)
  | .unit, _, _, _, hs, _, _ => by simp [supported] at hs
  | .opaque _ _, _, _, _, hs, _, _ => by simp [supported] at hs

theorem encFields_unique {tg : Target} {al : Bool} : ∀ (fs : List Ty) (os : List Nat) (vs vs' : List Val)
    (bs : List UInt8), supportedFields tg fs = true → EncFields tg al fs os vs bs →
      EncFields tg al fs os vs' bs → vs = vs'
  | [], os, vs, vs', bs, _, h, h' => by
    cases os <;> cases vs <;> cases vs' <;> simp_all [EncFields]
  | f :: fs, [], vs, vs', bs, _, h, _ => by simp [EncFields] at h
  | f :: fs, o :: os, [], vs', bs, _, h, _ => by simp [EncFields] at h
  | f :: fs, o :: os, v :: vs, [], bs, _, _, h' => by simp [EncFields] at h'
  | f :: fs, o :: os, v :: vs, v' :: vs', bs, hs, h, h' => by
    have hs := supportedFields_cons hs
    simp only [EncFields] at h h'
    rw [encFields_unique fs os vs vs' bs hs.2 h.2 h'.2]
    rcases hs.1 with rfl | hf
    · cases v <;> cases v' <;> simp_all [Enc]
    · rw [enc_unique f v v' _ hf h.1 h'.1]
end

end Verif.Layout
