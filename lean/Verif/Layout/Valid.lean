import Verif.Layout.Lemmas
/-
`is_valid` decides representability, for every supported type.
-/
namespace Verif.Layout

theorem natOf_single (tg : Target) (b : UInt8) : natOf tg [b] = b.toNat := by
  unfold natOf
  split <;> simp [leNat]

theorem length_one {bs : List UInt8} (h : bs.length = 1) : ∃ b, bs = [b] := by
  match bs, h with
  | [b], _ => exact ⟨b, rfl⟩

theorem single_zero {bs : List UInt8} {tg : Target} (h : bs.length = 1) (hn : natOf tg bs = 0) :
    bs = [0] := by
  obtain ⟨b, rfl⟩ := length_one h
  rw [natOf_single] at hn
  rw [show b = 0 from UInt8.toNat_inj.mp hn]

theorem single_one {bs : List UInt8} {tg : Target} (h : bs.length = 1) (hn : natOf tg bs = 1) :
    bs = [1] := by
  obtain ⟨b, rfl⟩ := length_one h
  rw [natOf_single] at hn
  rw [show b = 1 from UInt8.toNat_inj.mp hn]

theorem bool_valid (tg : Target) (b : UInt8) :
    (natOf tg [b] &&& 0xfe == 0) = true ↔ b = 0 ∨ b = 1 := by
  rw [natOf_single, ← UInt8.toNat_inj, ← UInt8.toNat_inj]
  have h : b.toNat < 256 := b.toNat_lt
  generalize b.toNat = n at h
  have : ∀ n : Fin 256, (n.val &&& 0xfe == 0) = true ↔ n.val = 0 ∨ n.val = 1 := by
    decide +kernel
  exact this ⟨n, h⟩

theorem slice_slice_zero (bs : List UInt8) (n m : Nat) (h : n ≤ m) :
    slice (slice bs 0 m) 0 n = slice bs 0 n := by
  simp [slice, List.take_take, Nat.min_eq_left h]

/-! ### Lengths -/

mutual
theorem enc_length {tg : Target} {al : Bool} : ∀ (t : Ty) (v : Val) (bs : List UInt8),
    supported tg t = true → Enc tg al t v bs → bs.length = sizeOf' tg t
  | .int k, v, bs, _, h => by cases v <;> simp only [Enc] at h; exact h.1
  | .float k, v, bs, _, h => by cases v <;> simp only [Enc] at h; exact h.1
  | .bool, v, bs, _, h => by cases v <;> simp only [Enc] at h; subst h; rfl
  | .enum k vs, v, bs, _, h => by
    cases v <;> simp only [Enc] at h
    obtain ⟨d, _, h⟩ := h
    exact h.1
  | .rawPtr, v, bs, _, h => by cases v <;> simp only [Enc] at h; exact h.1
  | .ref _ _, v, bs, _, h => by cases v <;> simp only [Enc] at h; exact h.1
  | .out _, v, bs, _, h => by cases v <;> simp only [Enc] at h; exact h.1
  | .fnPtr, v, bs, _, h => by cases v <;> simp only [Enc] at h; exact h.1
  | .array t n, v, bs, _, h => by cases v <;> simp only [Enc] at h; exact h.2.1
  | .struct _ fs, v, bs, _, h => by cases v <;> simp only [Enc] at h; exact h.1
  | .transparent fs, v, bs, _, h => by cases v <;> simp only [Enc] at h; exact h.1
  | .option t, v, bs, hs, h => by
    simp only [supported, Bool.and_eq_true] at hs
    cases v <;> simp only [Enc] at h
    · exact h.1
    · exact enc_length t _ bs hs.1 h
  | .tagged t, v, bs, _, h => by cases v <;> simp only [Enc] at h <;> exact h.1
  | .unit, _, _, hs, _ => by simp [supported] at hs
  | .opaque _ _, _, _, hs, _ => by simp [supported] at hs
end

/-! ### Niches -/

theorem isNiche_iff {tg : Target} : ∀ (t : Ty) (bs : List UInt8), hasNiche t = true →
    ∃ b, isNiche tg t bs = .ok b ∧ (b = true ↔ NoneImage tg t bs)
  | .ref _ _, bs, _ => ⟨natOf tg bs == 0, by simp [isNiche], by simp [NoneImage]⟩
  | .out _, bs, _ => ⟨natOf tg bs == 0, by simp [isNiche], by simp [NoneImage]⟩
  | .fnPtr, bs, _ => ⟨!(natOf tg bs != 0), by simp [isNiche, fnPtrValid, Except.map], by simp [NoneImage]⟩
  | .struct true (.ref k t :: fs), bs, _ => by
    refine ⟨natOf tg (slice bs 0 tg.ptrSize) == 0, ?_, by simp [NoneImage]⟩
    have h0 : roundUp 0 tg.ptrAlign = 0 := roundUp_zero tg.ptrAlign_pos
    simp [isNiche, clayouts, clayout, clays, clay, offsetsFrom, h0]
  | .transparent (f :: fs), bs, h => by
    simp only [hasNiche] at h
    obtain ⟨b, h1, h2⟩ := isNiche_iff f bs h
    exact ⟨b, by simpa only [isNiche] using h1, by simpa only [NoneImage] using h2⟩
  | .int _, _, h | .float _, _, h | .bool, _, h | .enum _ _, _, h | .rawPtr, _, h
  | .array _ _, _, h | .option _, _, h | .tagged _, _, h | .unit, _, h | .opaque _ _, _, h
  | .struct false _, _, h | .struct true [], _, h | .transparent [], _, h => by
    simp [hasNiche] at h
  | .struct true (.int _ :: _), _, h | .struct true (.float _ :: _), _, h
  | .struct true (.bool :: _), _, h | .struct true (.enum _ _ :: _), _, h
  | .struct true (.rawPtr :: _), _, h | .struct true (.out _ :: _), _, h
  | .struct true (.fnPtr :: _), _, h | .struct true (.array _ _ :: _), _, h
  | .struct true (.struct _ _ :: _), _, h | .struct true (.transparent _ :: _), _, h
  | .struct true (.option _ :: _), _, h | .struct true (.tagged _ :: _), _, h
  | .struct true (.unit :: _), _, h | .struct true (.opaque _ _ :: _), _, h => by
    simp [hasNiche] at h

/-! ### `is_valid` does not panic -/

theorem allItems_ok {f : List UInt8 → Except Panic Bool} {sz : Nat} {bs : List UInt8} :
    ∀ (n i : Nat), (∀ j, i ≤ j → j < i + n → ∃ b, f (slice bs (j * sz) sz) = .ok b) →
      ∃ b, allItems f sz bs i n = .ok b ∧
        (b = true ↔ ∀ j, i ≤ j → j < i + n → f (slice bs (j * sz) sz) = .ok true)
  | 0, i, _ => ⟨true, rfl, by simp; omega⟩
  | n + 1, i, h => by
    obtain ⟨b0, h0⟩ := h i (Nat.le_refl _) (by omega)
    obtain ⟨b, h1, h2⟩ := allItems_ok n (i + 1) (fun j hj hj' => h j (by omega) (by omega))
    cases b0 with
    | false =>
      refine ⟨false, by simp [allItems, h0, bind, Except.bind, pure, Except.pure], by simp; exact ⟨i, by omega, by omega, by simp [h0]⟩⟩
    | true =>
      refine ⟨b, by simp [allItems, h0, bind, Except.bind, h1], h2.trans ?_⟩
      constructor
      · intro hh j hj hj'
        rcases Nat.eq_or_lt_of_le hj with rfl | hlt
        · exact h0
        · exact hh j hlt (by omega)
      · intro hh j hj hj'
        exact hh j (by omega) (by omega)

mutual
theorem isValid_ok {tg : Target} : ∀ (t : Ty) (bs : List UInt8),
    supported tg t = true → ∃ b, isValid tg t bs = .ok b
  | .int _, bs, _ => by simp [isValid]
  | .float _, bs, _ => by simp [isValid]
  | .bool, bs, _ => by simp [isValid]
  | .enum _ _, bs, _ => by simp [isValid]
  | .rawPtr, bs, _ => by simp [isValid]
  | .ref _ _, bs, _ => by simp [isValid]
  | .out _, bs, _ => by simp [isValid]
  | .fnPtr, bs, _ => by simp [isValid, fnPtrValid]
  | .array t n, bs, h => by
    simp only [supported, Bool.and_eq_true] at h
    obtain ⟨b, hb, _⟩ := allItems_ok (f := isValid tg t) (sz := (clay tg (clayout t)).1) (bs := bs) n 0
      (fun j _ _ => isValid_ok t _ h.2)
    exact ⟨b, by simp only [isValid, hb]⟩
  | .struct _ fs, bs, h => by
    simp only [supported] at h
    simp only [isValid]
    exact fieldsValid_ok fs _ bs h
  | .transparent [], bs, h => by simp [supported] at h
  | .transparent (f :: fs), bs, h => by
    simp only [supported, Bool.and_eq_true] at h
    simp only [isValid]
    exact isValid_ok f bs h.1
  | .option t, bs, h => by
    simp only [supported, Bool.and_eq_true] at h
    obtain ⟨b, hb, _⟩ := isNiche_iff (tg := tg) t bs h.2
    obtain ⟨c, hc⟩ := isValid_ok t bs h.1
    cases b <;> simp [isValid, hb, hc, bind, Except.bind, pure, Except.pure]
  | .tagged t, bs, h => by
    simp only [supported] at h
    simp only [isValid]
    split
    · exact ⟨_, rfl⟩
    · exact isValid_ok t _ h
    · exact ⟨_, rfl⟩
  | .unit, _, h => by simp [supported] at h
  | .opaque _ _, _, h => by simp [supported] at h

theorem fieldsValid_ok {tg : Target} : ∀ (fs : List Ty) (os : List Nat) (bs : List UInt8),
    supportedFields tg fs = true → ∃ b, fieldsValid tg fs os bs = .ok b
  | [], os, bs, _ => ⟨true, by simp [fieldsValid]⟩
  | _ :: _, [], bs, _ => ⟨true, by simp [fieldsValid]⟩
  | f :: fs, o :: os, bs, h => by
    have h := supportedFields_cons h
    obtain ⟨b, hb⟩ := fieldsValid_ok fs os bs h.2
    by_cases hz : sizeOf' tg f = 0
    · exact ⟨b, by simp [fieldsValid, hz, hb, bind, Except.bind, pure, Except.pure]⟩
    · rcases h.1 with rfl | hf
      · simp [sizeOf', lay] at hz
      · obtain ⟨a, ha⟩ := isValid_ok f (slice bs o (clay tg (clayout f)).1) hf
        exact ⟨a && b, by simp [fieldsValid, hz, ha, hb, bind, Except.bind, pure, Except.pure]⟩
end

/-- One step of the loop over fields. -/
theorem fieldsValid_cons {tg : Target} {f : Ty} {fs : List Ty} {o : Nat} {os : List Nat}
    {bs : List UInt8} (h : supportedFields tg (f :: fs) = true) :
    fieldsValid tg (f :: fs) (o :: os) bs = .ok true ↔
      (sizeOf' tg f ≠ 0 → isValid tg f (slice bs o (sizeOf' tg f)) = .ok true) ∧
      fieldsValid tg fs os bs = .ok true := by
  have h := supportedFields_cons h
  obtain ⟨b, hb⟩ := fieldsValid_ok fs os bs h.2
  by_cases hz : sizeOf' tg f = 0
  · simp [fieldsValid, hz, hb, bind, Except.bind, pure, Except.pure]
  · rcases h.1 with rfl | hf
    · simp [sizeOf', lay] at hz
    · rw [show sizeOf' tg f = (clay tg (clayout f)).1 by rw [clay_clayout tg f hf]; rfl] at hz ⊢
      obtain ⟨a, ha⟩ := isValid_ok f (slice bs o (clay tg (clayout f)).1) hf
      have hz' : sizeOf' tg f ≠ 0 := by
        rwa [show sizeOf' tg f = (clay tg (clayout f)).1 by rw [clay_clayout tg f hf]; rfl]
      simp [fieldsValid, hz', hz, ha, hb, bind, Except.bind, pure, Except.pure]

theorem enumDisc_range {tg : Target} {k : IntTy} {vs : List (Option Int)}
    (h : supported tg (.enum k vs) = true) {d : Int} (hd : d ∈ discsFrom 0 vs) : InRange tg k d := by
  simp only [supported] at h
  exact ((discsOk_spec h).1 d hd).1

/-! ### Representations are valid -/

mutual
theorem valid_of_enc {tg : Target} : ∀ (t : Ty) (v : Val) (bs : List UInt8),
    supported tg t = true → Enc tg true t v bs → isValid tg t bs = .ok true
  | .int _, v, bs, _, _ => by simp [isValid]
  | .float _, v, bs, _, _ => by simp [isValid]
  | .bool, v, bs, _, h => by
    cases v <;> simp only [Enc] at h
    rename_i b
    subst h
    simp only [isValid, Except.ok.injEq]
    rw [bool_valid]
    cases b <;> simp
  | .enum k vs, v, bs, _, h => by
    cases v <;> simp only [Enc] at h
    obtain ⟨d, h1, h2⟩ := h
    simp only [isValid, Except.ok.injEq, decide_eq_true_eq]
    rw [(intImage_iff h2.1).mp h2]
    exact (mem_discs_iff _ _).mpr ⟨_, h1⟩
  | .rawPtr, v, bs, _, _ => by simp [isValid]
  | .ref k t, v, bs, _, h => by
    cases v <;> simp only [Enc] at h
    obtain ⟨_, rfl, h1, h2⟩ := h
    simp only [isValid, Except.ok.injEq, Bool.and_eq_true, bne_iff_ne, ne_eq, beq_iff_eq]
    exact ⟨h1, Nat.mod_eq_zero_of_dvd (h2 (.inr trivial))⟩
  | .out t, v, bs, _, h => by
    cases v <;> simp only [Enc] at h
    obtain ⟨_, rfl, h1, h2⟩ := h
    simp only [isValid, Except.ok.injEq, beq_iff_eq]
    exact Nat.mod_eq_zero_of_dvd h2
  | .fnPtr, v, bs, _, h => by
    cases v <;> simp only [Enc] at h
    obtain ⟨_, rfl, h1⟩ := h
    simp only [isValid, fnPtrValid, Except.ok.injEq, bne_iff_ne, ne_eq]
    exact h1
  | .array t n, v, bs, hs, h => by
    cases v <;> simp only [Enc] at h
    rename_i vs
    simp only [supported, Bool.and_eq_true] at hs
    obtain ⟨hn, hl, h⟩ := h
    obtain ⟨b, hb, hb'⟩ := allItems_ok (f := isValid tg t) (sz := (clay tg (clayout t)).1) (bs := bs) n 0
      (fun j _ _ => isValid_ok t _ hs.2)
    simp only [isValid, hb, Except.ok.injEq]
    rw [hb']
    intro j _ hj
    rw [clay_clayout tg t hs.2]
    have hj' : j < vs.length := by omega
    exact valid_of_enc t _ _ hs.2 (h j vs[j] (List.getElem?_eq_getElem hj'))
  | .struct n fs, v, bs, hs, h => by
    cases v <;> simp only [Enc] at h
    simp only [supported] at hs
    simp only [isValid, clays_clayouts tg fs hs]
    exact fieldsValid_of_enc fs _ _ bs hs h.2
  | .transparent [], v, bs, hs, h => by simp [supported] at hs
  | .transparent (f :: fs), v, bs, hs, h => by
    cases v <;> simp only [Enc] at h
    rename_i vs
    simp only [supported, Bool.and_eq_true] at hs
    simp only [isValid]
    have hlay := lay_transparent hs.2 (align_pos tg f hs.1)
    cases vs with
    | nil => simp [EncFields] at h
    | cons v vs =>
      simp only [List.map_cons, EncFields] at h
      have hl : bs.length = sizeOf' tg f := by rw [h.1]; simp only [sizeOf', hlay]
      have h2 := h.2.1
      rw [slice_zero_of_length hl] at h2
      exact valid_of_enc f v bs hs.1 h2
  | .option t, v, bs, hs, h => by
    simp only [supported, Bool.and_eq_true] at hs
    obtain ⟨b, hb, hb'⟩ := isNiche_iff (tg := tg) t bs hs.2
    cases v <;> simp only [Enc] at h
    · have := hb'.mpr h.2
      subst this
      simp [isValid, hb, bind, Except.bind, pure, Except.pure]
    · have := valid_of_enc t _ bs hs.1 h
      cases b <;> simp [isValid, hb, this, bind, Except.bind, pure, Except.pure]
  | .tagged t, v, bs, hs, h => by
    simp only [supported] at hs
    cases v <;> simp only [Enc] at h
    · simp only [isValid, h.2]
      rw [natOf_single]
      rfl
    · simp only [isValid, h.2.1]
      rw [natOf_single]
      show isValid tg t _ = _
      have h3 := h.2.2
      rw [show roundUp 1 (alignOf' tg t) = alignOf' tg t from roundUp_one (align_pos tg t hs)] at h3
      rw [clay_clayout tg t hs]
      exact valid_of_enc t _ _ hs h3
  | .unit, _, _, hs, _ => by simp [supported] at hs
  | .opaque _ _, _, _, hs, _ => by simp [supported] at hs

theorem fieldsValid_of_enc {tg : Target} : ∀ (fs : List Ty) (os : List Nat) (vs : List Val)
    (bs : List UInt8), supportedFields tg fs = true → EncFields tg true fs os vs bs →
      fieldsValid tg fs os bs = .ok true
  | [], os, vs, bs, _, _ => by simp [fieldsValid]
  | _ :: _, [], vs, bs, _, _ => by simp [fieldsValid]
  | f :: fs, o :: os, [], bs, _, h => by simp [EncFields] at h
  | f :: fs, o :: os, v :: vs, bs, hs, h => by
    have hs' := supportedFields_cons hs
    simp only [EncFields] at h
    rw [fieldsValid_cons hs]
    refine ⟨fun hz => ?_, fieldsValid_of_enc fs os vs bs hs'.2 h.2⟩
    rcases hs'.1 with rfl | hf
    · simp [sizeOf', lay] at hz
    · exact valid_of_enc f v _ hf h.1
end

/-! ### Valid images are representations -/

theorem units_enc {tg : Target} {bs : List UInt8} : ∀ {fs : List Ty},
    (fs.all fun | .unit => true | _ => false) = true →
      EncFields tg true fs (fs.map fun _ => 0) (fs.map fun _ => Val.unit) bs
  | [], _ => by simp [EncFields]
  | f :: fs, h => by
    rw [List.all_cons, Bool.and_eq_true] at h
    have h2 := units_enc (tg := tg) (bs := bs) h.2
    cases f <;> simp_all [EncFields, Enc, sizeOf', lay, slice]

theorem array_choice {P : Nat → Val → Prop} : ∀ n, (∀ i, i < n → ∃ v, P i v) →
    ∃ vs : List Val, vs.length = n ∧ ∀ i v, vs[i]? = some v → P i v
  | 0, _ => ⟨[], rfl, by simp⟩
  | n + 1, h => by
    obtain ⟨vs, hl, hv⟩ := array_choice n (fun i hi => h i (by omega))
    obtain ⟨v, hv'⟩ := h n (by omega)
    refine ⟨vs ++ [v], by simp [hl], fun i w hw => ?_⟩
    by_cases hi : i < n
    · rw [List.getElem?_append_left (by omega)] at hw
      exact hv i w hw
    · rw [List.getElem?_append_right (by omega)] at hw
      have : i - vs.length = 0 := by
        rcases Nat.eq_zero_or_pos (i - vs.length) with h | h
        · exact h
        · rw [List.getElem?_eq_none (by simpa using Nat.succ_le_of_lt h)] at hw; cases hw
      rw [this] at hw
      simp only [List.getElem?_cons_zero, Option.some.injEq] at hw
      subst hw
      rw [show i = n by omega]
      exact hv'

theorem lays_getElem? (tg : Target) : ∀ (fs : List Ty) (i : Nat),
    (lays tg fs)[i]? = fs[i]?.map (lay tg)
  | [], i => by simp [lays]
  | f :: fs, 0 => by simp [lays]
  | f :: fs, i + 1 => by simp [lays, lays_getElem? tg fs i]

theorem length_lays (tg : Target) : ∀ fs : List Ty, (lays tg fs).length = fs.length
  | [] => rfl
  | _ :: fs => by simp [lays, length_lays tg fs]

theorem tagged_bounds {tg : Target} {t : Ty} (hs : supported tg t = true) :
    1 ≤ sizeOf' tg (.tagged t) ∧ alignOf' tg t + sizeOf' tg t ≤ sizeOf' tg (.tagged t) := by
  have ha := align_pos tg t hs
  have hp : ∀ p ∈ [((1 : Nat), (1 : Nat)), lay tg t], 0 < p.2 := by
    intro p hp
    simp only [List.mem_cons, List.not_mem_nil, or_false] at hp
    rcases hp with rfl | rfl
    · decide
    · exact ha
  have h0 := offsets_in hp (i := 0) (o := 0) (p := (1, 1)) (by simp [offsetsFrom, roundUp]) rfl
  have h1 := offsets_in hp (i := 1) (o := alignOf' tg t) (p := lay tg t)
    (by
      simp only [offsetsFrom, List.getElem?_cons_succ, List.getElem?_cons_zero]
      rw [show roundUp 0 1 + 1 = 1 by decide]
      exact congrArg some (roundUp_one ha)) rfl
  simp only [sizeOf', lay]
  exact ⟨by simpa using h0, h1⟩

theorem niche_size {tg : Target} : ∀ t : Ty, supported tg t = true → hasNiche t = true →
    0 < sizeOf' tg t
  | .ref _ _, _, _ => by simpa only [sizeOf', lay] using tg.ptrSize_pos
  | .out _, _, _ => by simpa only [sizeOf', lay] using tg.ptrSize_pos
  | .fnPtr, _, _ => by simpa only [sizeOf', lay] using tg.ptrSize_pos
  | .struct true (.ref k t :: fs), hs, _ => by
    simp only [supported] at hs
    have h := offsets_in (aligns_pos tg _ hs) (i := 0) (o := 0) (p := (tg.ptrSize, tg.ptrAlign))
      (by simp [lays, lay, offsetsFrom, roundUp_zero tg.ptrAlign_pos]) (by simp [lays, lay])
    have := tg.ptrSize_pos
    simp only [sizeOf', lay]
    simp only [] at h
    omega
  | .transparent (f :: fs), hs, h => by
    simp only [hasNiche] at h
    simp only [supported, Bool.and_eq_true] at hs
    have := niche_size f hs.1 h
    simpa only [sizeOf', lay_transparent hs.2 (align_pos tg f hs.1)] using this
  | .int _, _, h | .float _, _, h | .bool, _, h | .enum _ _, _, h | .rawPtr, _, h
  | .array _ _, _, h | .option _, _, h | .tagged _, _, h | .unit, _, h | .opaque _ _, _, h
  | .struct false _, _, h | .struct true [], _, h | .transparent [], _, h => by
    simp [hasNiche] at h
  | .struct true (.int _ :: _), _, h | .struct true (.float _ :: _), _, h
  | .struct true (.bool :: _), _, h | .struct true (.enum _ _ :: _), _, h
  | .struct true (.rawPtr :: _), _, h | .struct true (.out _ :: _), _, h
  | .struct true (.fnPtr :: _), _, h | .struct true (.array _ _ :: _), _, h
  | .struct true (.struct _ _ :: _), _, h | .struct true (.transparent _ :: _), _, h
  | .struct true (.option _ :: _), _, h | .struct true (.tagged _ :: _), _, h
  | .struct true (.unit :: _), _, h | .struct true (.opaque _ _ :: _), _, h => by
    simp [hasNiche] at h

theorem fieldsValid_zst {tg : Target} {bs : List UInt8} : ∀ (fs : List Ty) (os : List Nat),
    (∀ f ∈ fs, sizeOf' tg f = 0) → fieldsValid tg fs os bs = .ok true
  | [], os, _ => by simp [fieldsValid]
  | _ :: _, [], _ => by simp [fieldsValid]
  | f :: fs, o :: os, h => by
    have h1 := fieldsValid_zst (bs := bs) fs os (fun f hf => h f (by simp [hf]))
    simp [fieldsValid, h f (by simp), h1, bind, Except.bind, pure, Except.pure]

/-- A zero-sized supported type is a struct of such, and always valid. -/
theorem zst_valid {tg : Target} : ∀ (t : Ty) (bs : List UInt8), supported tg t = true →
    sizeOf' tg t = 0 → isValid tg t bs = .ok true
  | .int k, _, _, hz => by
    have := k.size_pos tg
    simp only [sizeOf', lay] at hz; omega
  | .float k, _, _, hz => by cases k <;> simp [sizeOf', lay, FloatTy.size] at hz
  | .bool, _, _, hz => by simp [sizeOf', lay] at hz
  | .enum k _, _, _, hz => by
    have := k.size_pos tg
    simp only [sizeOf', lay] at hz; omega
  | .rawPtr, _, _, hz => by have := tg.ptrSize_pos; simp only [sizeOf', lay] at hz; omega
  | .ref _ _, _, _, hz => by have := tg.ptrSize_pos; simp only [sizeOf', lay] at hz; omega
  | .out _, _, _, hz => by have := tg.ptrSize_pos; simp only [sizeOf', lay] at hz; omega
  | .fnPtr, _, _, hz => by have := tg.ptrSize_pos; simp only [sizeOf', lay] at hz; omega
  | .array t n, bs, hs, hz => by
    simp only [supported, Bool.and_eq_true, bne_iff_ne, ne_eq] at hs
    have hz' : sizeOf' tg t = 0 := by
      simp only [sizeOf', lay] at hz ⊢
      rcases Nat.mul_eq_zero.mp hz with h | h
      · exact absurd h hs.1
      · exact h
    obtain ⟨b, hb, hb'⟩ := allItems_ok (f := isValid tg t) (sz := (clay tg (clayout t)).1) (bs := bs) n 0
      (fun j _ _ => isValid_ok t _ hs.2)
    simp only [isValid, hb, Except.ok.injEq]
    rw [hb']
    exact fun j _ _ => zst_valid t _ hs.2 hz'
  | .struct n fs, bs, hs, hz => by
    simp only [supported] at hs
    simp only [isValid]
    refine fieldsValid_zst fs _ (fun f hf => ?_)
    obtain ⟨i, hi, rfl⟩ := List.mem_iff_getElem.mp hf
    have hlt : i < (offsetsFrom 0 (lays tg fs)).length := by rwa [length_offsetsFrom, length_lays]
    have h := offsets_in (aligns_pos tg _ hs) (i := i) (p := lay tg fs[i])
      (List.getElem?_eq_getElem hlt) (by rw [lays_getElem?, List.getElem?_eq_getElem hi]; rfl)
    simp only [sizeOf', lay] at hz ⊢
    omega
  | .transparent [], _, hs, _ => by simp [supported] at hs
  | .transparent (f :: fs), bs, hs, hz => by
    simp only [supported, Bool.and_eq_true] at hs
    simp only [isValid]
    refine zst_valid f bs hs.1 ?_
    simpa only [sizeOf', lay_transparent hs.2 (align_pos tg f hs.1)] using hz
  | .option t, _, hs, hz => by
    simp only [supported, Bool.and_eq_true] at hs
    have := niche_size t hs.1 hs.2
    simp only [sizeOf', lay] at hz this
    omega
  | .tagged t, _, hs, hz => by
    simp only [supported] at hs
    have := (tagged_bounds hs).1
    omega
  | .unit, _, hs, _ => by simp [supported] at hs
  | .opaque _ _, _, hs, _ => by simp [supported] at hs

mutual
theorem enc_of_valid {tg : Target} : ∀ (t : Ty) (bs : List UInt8),
    supported tg t = true → noOut t = true → bs.length = sizeOf' tg t →
    isValid tg t bs = .ok true → ∃ v, Enc tg true t v bs
  | .int k, bs, _, _, hl, _ => ⟨.int (decodeInt tg k bs), (intImage_iff hl).mpr rfl⟩
  | .float k, bs, _, _, hl, _ => ⟨.float (natOf tg bs), hl, rfl⟩
  | .bool, bs, _, _, hl, h => by
    obtain ⟨b, rfl⟩ := length_one hl
    simp only [isValid, Except.ok.injEq] at h
    rw [bool_valid] at h
    rcases h with rfl | rfl
    · exact ⟨.bool false, by simp [Enc]⟩
    · exact ⟨.bool true, by simp [Enc]⟩
  | .enum k vs, bs, _, _, hl, h => by
    simp only [isValid, Except.ok.injEq, decide_eq_true_eq] at h
    obtain ⟨i, hi⟩ := (mem_discs_iff _ _).mp h
    exact ⟨.variant i, _, hi, (intImage_iff hl).mpr rfl⟩
  | .rawPtr, bs, _, _, hl, _ => ⟨.addr (natOf tg bs), hl, rfl⟩
  | .ref k t, bs, _, _, hl, h => by
    simp only [isValid, Except.ok.injEq, Bool.and_eq_true, bne_iff_ne, ne_eq, beq_iff_eq] at h
    exact ⟨.addr (natOf tg bs), hl, rfl, h.1, fun _ => Nat.dvd_of_mod_eq_zero h.2⟩
  | .out t, bs, _, ho, _, _ => by simp [noOut] at ho
  | .fnPtr, bs, _, _, hl, h => by
    simp only [isValid, fnPtrValid, Except.ok.injEq, bne_iff_ne, ne_eq] at h
    exact ⟨.addr (natOf tg bs), hl, rfl, h⟩
  | .array t n, bs, hs, ho, hl, h => by
    simp only [supported, Bool.and_eq_true] at hs
    simp only [noOut] at ho
    obtain ⟨b, hb, hb'⟩ := allItems_ok (f := isValid tg t) (sz := (clay tg (clayout t)).1) (bs := bs) n 0
      (fun j _ _ => isValid_ok t _ hs.2)
    simp only [isValid, hb, Except.ok.injEq] at h
    have h := hb'.mp h
    rw [clay_clayout tg t hs.2] at h
    have hl : bs.length = n * sizeOf' tg t := hl
    obtain ⟨vs, hv1, hv2⟩ := array_choice (P := fun i v =>
        Enc tg true t v (slice bs (i * sizeOf' tg t) (sizeOf' tg t))) n (fun i hi => by
      refine enc_of_valid t _ hs.2 ho (length_slice ?_) (h i (Nat.zero_le _) (by omega))
      rw [hl, ← Nat.succ_mul]
      exact Nat.mul_le_mul_right _ hi)
    exact ⟨.arr vs, hv1, hl, hv2⟩
  | .struct n fs, bs, hs, ho, hl, h => by
    simp only [supported] at hs
    simp only [noOut] at ho
    simp only [isValid, clays_clayouts tg fs hs] at h
    obtain ⟨vs, hv⟩ := encFields_of_valid fs (offsetsFrom 0 (lays tg fs)) bs hs ho
      (by rw [length_offsetsFrom, length_lays])
      (fun i o f ho hf => by
        rw [hl]
        refine offsets_in (aligns_pos tg fs hs) ho (p := lay tg f) ?_
        rw [lays_getElem?, hf]; rfl) h
    exact ⟨.tup vs, hl, hv⟩
  | .transparent [], bs, hs, _, _, _ => by simp [supported] at hs
  | .transparent (f :: fs), bs, hs, ho, hl, h => by
    simp only [supported, Bool.and_eq_true] at hs
    simp only [noOut, noOuts, Bool.and_eq_true] at ho
    simp only [isValid] at h
    have hlay := lay_transparent hs.2 (align_pos tg f hs.1)
    have hl' : bs.length = sizeOf' tg f := by rw [hl]; simp only [sizeOf', hlay]
    obtain ⟨v, hv⟩ := enc_of_valid f bs hs.1 ho.1 hl' h
    refine ⟨.tup (v :: fs.map fun _ => .unit), hl, ?_⟩
    simp only [List.map_cons, EncFields]
    exact ⟨by rwa [slice_zero_of_length hl'], units_enc hs.2⟩
  | .option t, bs, hs, ho, hl, h => by
    simp only [supported, Bool.and_eq_true] at hs
    simp only [noOut] at ho
    obtain ⟨b, hb, hb'⟩ := isNiche_iff (tg := tg) t bs hs.2
    cases b with
    | true => exact ⟨.none, hl, hb'.mp rfl⟩
    | false =>
      simp only [isValid, hb, bind, Except.bind] at h
      obtain ⟨v, hv⟩ := enc_of_valid t bs hs.1 ho hl h
      exact ⟨.some v, hv⟩
  | .tagged t, bs, hs, ho, hl, h => by
    simp only [supported] at hs
    simp only [noOut] at ho
    have hb := tagged_bounds hs
    have h1 : (slice bs 0 1).length = 1 := length_slice (by omega)
    simp only [isValid] at h
    split at h
    · rename_i h0
      exact ⟨.none, hl, single_zero h1 h0⟩
    · rename_i h0
      rw [clay_clayout tg t hs] at h
      obtain ⟨v, hv⟩ := enc_of_valid t _ hs ho (length_slice (by rw [hl]; exact hb.2)) h
      refine ⟨.some v, hl, single_one h1 h0, ?_⟩
      rwa [show roundUp 1 (alignOf' tg t) = alignOf' tg t from roundUp_one (align_pos tg t hs)]
    · simp at h
  | .unit, _, hs, _, _, _ => by simp [supported] at hs
  | .opaque _ _, _, hs, _, _, _ => by simp [supported] at hs

theorem encFields_of_valid {tg : Target} : ∀ (fs : List Ty) (os : List Nat) (bs : List UInt8),
    supportedFields tg fs = true → noOuts fs = true → os.length = fs.length →
    (∀ (i o : Nat) (f : Ty), os[i]? = some o → fs[i]? = some f → o + sizeOf' tg f ≤ bs.length) →
    fieldsValid tg fs os bs = .ok true → ∃ vs, EncFields tg true fs os vs bs
  | [], [], bs, _, _, _, _, _ => ⟨[], by simp [EncFields]⟩
  | [], _ :: _, bs, _, _, hl, _, _ => by simp at hl
  | _ :: _, [], bs, _, _, hl, _, _ => by simp at hl
  | f :: fs, o :: os, bs, hs, ho, hl, hb, h => by
    have hs' := supportedFields_cons hs
    simp only [noOuts, Bool.and_eq_true] at ho
    rw [fieldsValid_cons hs] at h
    obtain ⟨vs, hvs⟩ := encFields_of_valid fs os bs hs'.2 ho.2 (by simpa using hl)
      (fun i o f h1 h2 => hb (i + 1) o f (by simpa using h1) (by simpa using h2)) h.2
    have hlen : (slice bs o (sizeOf' tg f)).length = sizeOf' tg f :=
      length_slice (hb 0 o f (by simp) (by simp))
    rcases hs'.1 with rfl | hf
    · refine ⟨.unit :: vs, ?_, hvs⟩
      simp only [Enc]
      exact List.eq_nil_of_length_eq_zero hlen
    · by_cases hz : sizeOf' tg f = 0
      · obtain ⟨v, hv⟩ := enc_of_valid f _ hf ho.1 hlen (zst_valid f _ hf hz)
        exact ⟨v :: vs, hv, hvs⟩
      · obtain ⟨v, hv⟩ := enc_of_valid f _ hf ho.1 hlen (h.1 hz)
        exact ⟨v :: vs, hv, hvs⟩
end

end Verif.Layout
