import Verif.Stabby.Model
import Verif.Stabby.Spec
import Verif.Layout.Unique
/- Lemmas for C93. -/
namespace Verif.Stabby
open Verif.Layout

theorem alignOffset_zero {a size align : Nat} (h : 0 < align) :
    (alignOffset a size align == some 0) = true ↔ align ∣ a := by
  obtain ⟨n, rfl⟩ : ∃ n, align = n + 1 := ⟨align - 1, by omega⟩
  simp only [alignOffset, List.range_succ_eq_map, List.find?_cons, Nat.zero_mul, Nat.add_zero, beq_iff_eq]
  by_cases hm : a % (n + 1) = 0
  · simp [hm, Nat.dvd_of_mod_eq_zero hm]
  · have hd : ¬ (n + 1) ∣ a := fun h => hm (Nat.mod_eq_zero_of_dvd h)
    have : (a % (n + 1) == 0) = false := by simpa using hm
    simp only [this, hd, iff_false]
    intro hf
    have := List.mem_of_find?_eq_some hf
    simp at this

theorem ptrLay_pos (tg : Target) : 0 < (ptrLay tg).2 := tg.ptrAlign_pos

/-! ### Layout of pairs -/

theorem pair_bounds {a b : Nat × Nat} (ha : 0 < a.2) (hb : 0 < b.2) :
    a.1 ≤ (structLay [a, b]).1 ∧ roundUp a.1 b.2 + b.1 ≤ (structLay [a, b]).1 := by
  have h : ∀ p ∈ [a, b], 0 < p.2 := by simp [ha, hb]
  have h0 := offsets_in h (i := 0) (o := 0) (p := a)
    (by simp [offsetsFrom, roundUp_zero ha]) (by simp)
  have h1 := offsets_in h (i := 1) (o := roundUp a.1 b.2) (p := b)
    (by simp [offsetsFrom, roundUp_zero ha]) (by simp)
  omega

theorem slay_pos {tg : Target} : ∀ t : STy, ssupported tg t = true → 0 < (slay tg t).2
  | .of t, h => by
    simp only [ssupported, Bool.and_eq_true] at h
    exact align_pos tg t h.1
  | .ptr _ _, _ => tg.ptrAlign_pos
  | .slice _ _, _ | .str _, _ | .dyn _ _, _ | .dynRef _, _ | .vtDrop, _ | .vtable _ _, _ => by
    simp only [slay, structLay]; exact maxAlign_pos _
  | .alias _ t, h => by
    simp only [ssupported] at h
    exact slay_pos t h
  | .option t, h => by
    simp only [ssupported, Bool.and_eq_true] at h
    exact slay_pos t h.1

theorem clay_sclayout {tg : Target} : ∀ t : STy, ssupported tg t = true →
    clay tg (sclayout t) = slay tg t
  | .of t, h => by
    simp only [ssupported, Bool.and_eq_true] at h
    exact clay_clayout tg t h.1
  | .ptr _ _, _ => by simp [sclayout, clay, slay, ptrLay]
  | .slice _ _, _ | .str _, _ | .dynRef _, _ | .vtDrop, _ => by
    simp [sclayout, clay, clays, slay, ptrLay]
  | .dyn data vt, h => by
    simp only [ssupported, Bool.and_eq_true] at h
    simp only [sclayout, clay, clays, slay, clay_sclayout data h.1]
    rfl
  | .vtable head tail, h => by
    simp only [ssupported, Bool.and_eq_true] at h
    simp only [sclayout, clay, clays, slay, clay_sclayout head h.1, clay_sclayout tail h.2]
  | .alias _ t, h => by
    simp only [ssupported] at h
    simpa only [sclayout, slay] using clay_sclayout t h
  | .option t, h => by
    simp only [ssupported, Bool.and_eq_true] at h
    simpa only [sclayout, slay] using clay_sclayout t h.1

/-! ### Values by type -/

theorem senc_slice {tg : Target} {st : Bool} {k : PtrKind} {t : STy} {v : Val} {bs : List UInt8} :
    SEnc tg st (.slice k t) v bs ↔ ∃ s e, v = Val.tup [.addr s, .addr e] ∧ SliceImage tg st (ssize tg t) (salign tg t) s e bs := by
  cases v with
  | tup vs =>
    match vs with
    | [] => simp [SEnc]
    | [_] => simp [SEnc]
    | [x, y] =>
      cases x <;> cases y <;> simp [SEnc] <;>
        exact ⟨fun h => ⟨_, _, ⟨rfl, rfl⟩, h⟩, fun ⟨_, _, ⟨h1, h2⟩, h⟩ => by subst h1 h2; exact h⟩
    | _ :: _ :: _ :: _ => simp [SEnc]
  | _ => simp [SEnc]

theorem senc_str {tg : Target} {st : Bool} {k : PtrKind} {v : Val} {bs : List UInt8} :
    SEnc tg st (.str k) v bs ↔ ∃ s e, v = Val.tup [.addr s, .addr e] ∧ SliceImage tg st 1 1 s e bs := by
  cases v with
  | tup vs =>
    match vs with
    | [] => simp [SEnc]
    | [_] => simp [SEnc]
    | [x, y] =>
      cases x <;> cases y <;> simp [SEnc] <;>
        exact ⟨fun h => ⟨_, _, ⟨rfl, rfl⟩, h⟩, fun ⟨_, _, ⟨h1, h2⟩, h⟩ => by subst h1 h2; exact h⟩
    | _ :: _ :: _ :: _ => simp [SEnc]
  | _ => simp [SEnc]

theorem senc_dyn {tg : Target} {st : Bool} {data vt : STy} {v : Val} {bs : List UInt8} :
    SEnc tg st (.dyn data vt) v bs ↔ ∃ d a, v = Val.tup [d, .addr a] ∧ bs.length = ssize tg (.dyn data vt) ∧
      SEnc tg st data d (slice bs 0 (ssize tg data)) ∧
      PtrImage tg (salign tg vt) a (second (slay tg data) (ptrLay tg) bs) := by
  cases v with
  | tup vs =>
    match vs with
    | [] => simp [SEnc]
    | [_] => simp [SEnc]
    | [x, y] =>
      cases x <;> cases y <;> simp [SEnc] <;>
        exact ⟨fun h => ⟨_, _, ⟨rfl, rfl⟩, h⟩, fun ⟨_, _, ⟨h1, h2⟩, h⟩ => by subst h1 h2; exact h⟩
    | _ :: _ :: _ :: _ => simp [SEnc]
  | _ => simp [SEnc]

theorem senc_dynRef {tg : Target} {st : Bool} {vt : STy} {v : Val} {bs : List UInt8} :
    SEnc tg st (.dynRef vt) v bs ↔ ∃ p a, v = Val.tup [.addr p, .addr a] ∧ bs.length = ssize tg (.dynRef vt) ∧
      PtrImage tg 1 p (slice bs 0 tg.ptrSize) ∧
      PtrImage tg (salign tg vt) a (second (ptrLay tg) (ptrLay tg) bs) := by
  cases v with
  | tup vs =>
    match vs with
    | [] => simp [SEnc]
    | [_] => simp [SEnc]
    | [x, y] =>
      cases x <;> cases y <;> simp [SEnc] <;>
        exact ⟨fun h => ⟨_, _, ⟨rfl, rfl⟩, h⟩, fun ⟨_, _, ⟨h1, h2⟩, h⟩ => by subst h1 h2; exact h⟩
    | _ :: _ :: _ :: _ => simp [SEnc]
  | _ => simp [SEnc]

theorem senc_vtable {tg : Target} {st : Bool} {head tail : STy} {v : Val} {bs : List UInt8} :
    SEnc tg st (.vtable head tail) v bs ↔ ∃ h t, v = Val.tup [h, t] ∧ bs.length = ssize tg (.vtable head tail) ∧
      SEnc tg st tail t (slice bs 0 (ssize tg tail)) ∧
      SEnc tg st head h (second (slay tg tail) (slay tg head) bs) := by
  cases v with
  | tup vs =>
    match vs with
    | [] => simp [SEnc]
    | [_] => simp [SEnc]
    | [x, y] =>
      cases x <;> cases y <;> simp [SEnc] <;>
        exact ⟨fun h => ⟨_, _, ⟨rfl, rfl⟩, h⟩, fun ⟨_, _, ⟨h1, h2⟩, h⟩ => by subst h1 h2; exact h⟩
    | _ :: _ :: _ :: _ => simp [SEnc]
  | _ => simp [SEnc]

/-! ### Pieces of the check -/

theorem refValid_iff {tg : Target} {align : Nat} {bs : List UInt8} (hl : bs.length = tg.ptrSize) :
    ∃ b, refValid tg align bs = .ok b ∧ (b = true ↔ ∃ a, PtrImage tg align a bs) := by
  refine ⟨_, rfl, ?_⟩
  simp only [Bool.and_eq_true, bne_iff_ne, ne_eq, beq_iff_eq, PtrImage]
  constructor
  · intro ⟨h1, h2⟩
    exact ⟨_, hl, rfl, h1, Nat.dvd_of_mod_eq_zero h2⟩
  · rintro ⟨a, _, rfl, h1, h2⟩
    exact ⟨h1, Nat.mod_eq_zero_of_dvd h2⟩

theorem ptrValid_iff {tg : Target} {k : PtrKind} {t : STy} {bs : List UInt8} (hl : bs.length = tg.ptrSize)
    (ha : 0 < salign tg t) : ptrValid tg k t bs = true ↔ ∃ a, PtrImage tg (salign tg t) a bs := by
  simp only [ptrValid, Bool.and_eq_true, bne_iff_ne, ne_eq, alignOffset_zero ha, PtrImage]
  constructor
  · intro ⟨h1, h2⟩
    exact ⟨_, hl, rfl, h1, h2⟩
  · rintro ⟨a, _, rfl, h1, h2⟩
    exact ⟨h1, h2⟩

theorem sliceValid_iff {tg : Target} {size size' align : Nat} {bs : List UInt8}
    (hl : bs.length = (structLay [ptrLay tg, ptrLay tg]).1) (ha : 0 < align) :
    sliceValid tg size align bs = true ↔ ∃ s e, SliceImage tg false size' align s e bs := by
  simp only [sliceValid, Bool.and_eq_true, Bool.not_eq_true', Bool.or_eq_false_iff, beq_eq_false_iff_ne,
    ne_eq, alignOffset_zero ha, SliceImage, Ends, second, ptrLay]
  constructor
  · intro ⟨⟨⟨h1, h2⟩, h3⟩, h4⟩
    exact ⟨_, _, hl, rfl, rfl, h1, h3, by simp [h2, h4]⟩
  · rintro ⟨s, e, _, rfl, rfl, h1, h2, h3⟩
    simp only [Bool.false_eq_true, ↓reduceIte] at h3
    exact ⟨⟨⟨h1, h3.1⟩, h2⟩, h3.2⟩

theorem pairValid_iff {tg : Target} {a b : Nat × Nat} {ca cb : CTy} {fa fb : List UInt8 → Except Panic Bool}
    {P Q : List UInt8 → Prop} {bs : List UInt8} (hl : bs.length = (structLay [a, b]).1)
    (ha : 0 < a.2) (hb : 0 < b.2) (hca : clay tg ca = a) (hcb : clay tg cb = b)
    (hP : ∀ x : List UInt8, x.length = a.1 → ∃ c, fa x = .ok c ∧ (c = true ↔ P x))
    (hQ : ∀ x : List UInt8, x.length = b.1 → ∃ c, fb x = .ok c ∧ (c = true ↔ Q x))
    (hP0 : a.1 = 0 → ∀ x, fa x = .ok true) (hQ0 : b.1 = 0 → ∀ x, fb x = .ok true) :
    ∃ c, pairValid tg a b ca cb fa fb bs = .ok c ∧
      (c = true ↔ P (slice bs 0 a.1) ∧ Q (second a b bs)) := by
  have hbd := pair_bounds ha hb
  obtain ⟨x, hx, hx'⟩ := hP (slice bs 0 a.1) (length_slice (by omega))
  obtain ⟨y, hy, hy'⟩ := hQ (second a b bs) (length_slice (by omega))
  refine ⟨x && y, ?_, by simp [hx', hy']⟩
  by_cases hz : a.1 = 0
  · rw [hP0 hz] at hx
    cases hx
    by_cases hw : b.1 = 0
    · rw [hQ0 hw] at hy
      cases hy
      simp [pairValid, hz, hw, bind, Except.bind, pure, Except.pure]
    · have hy : fb (slice bs (roundUp a.1 b.2) b.1) = .ok y := hy
      simp [pairValid, hz, hw, hca, hcb, bind, Except.bind, pure, Except.pure]
      rw [← hz, hy]
  · by_cases hw : b.1 = 0
    · rw [hQ0 hw] at hy
      cases hy
      simp [pairValid, hz, hw, hca, hx, bind, Except.bind, pure, Except.pure]
    · have hy : fb (slice bs (roundUp a.1 b.2) b.1) = .ok y := hy
      simp [pairValid, hz, hw, hca, hcb, hx, hy, bind, Except.bind, pure, Except.pure]

/-! ### Types without a size -/

theorem szst_valid {tg : Target} : ∀ (t : STy) (bs : List UInt8), ssupported tg t = true →
    (slay tg t).1 = 0 → sIsValid tg t bs = .ok true
  | .of t, bs, h, hz => by
    simp only [ssupported, Bool.and_eq_true] at h
    exact zst_valid t bs h.1 hz
  | .ptr _ _, _, _, hz => by
    have := tg.ptrSize_pos
    simp [slay, ptrLay] at hz
    omega
  | .slice _ _, _, _, hz | .str _, _, _, hz | .dynRef _, _, _, hz => by
    have h1 := pair_bounds (ptrLay_pos tg) (ptrLay_pos tg)
    have h2 := tg.ptrSize_pos
    simp only [slay, ptrLay] at hz h1
    omega
  | .dyn data vt, _, h, hz => by
    simp only [ssupported, Bool.and_eq_true] at h
    have h1 := pair_bounds (slay_pos data h.1) (ptrLay_pos tg)
    have h2 := tg.ptrSize_pos
    simp only [slay, ptrLay] at hz h1
    omega
  | .vtDrop, _, _, hz => by
    have h2 := tg.ptrSize_pos
    have h3 := tg.ptrAlign_pos
    simp only [slay, ptrLay, structLay, endFrom, roundUp_zero h3] at hz
    have := le_roundUp (0 + tg.ptrSize) (maxAlign_pos [(tg.ptrSize, tg.ptrAlign)])
    omega
  | .vtable head tail, bs, h, hz => by
    simp only [ssupported, Bool.and_eq_true] at h
    have h1 := pair_bounds (slay_pos tail h.2) (slay_pos head h.1)
    simp only [slay] at hz
    have z1 : (slay tg tail).1 = 0 := by omega
    have z2 : (slay tg head).1 = 0 := by omega
    simp [sIsValid, pairValid, z1, z2, bind, Except.bind, pure, Except.pure]
  | .alias _ t, bs, h, hz => by
    simp only [ssupported] at h
    exact szst_valid t bs h hz
  | .option t, bs, h, hz => by
    simp only [ssupported, Bool.and_eq_true] at h
    have hv := szst_valid t bs h.1 hz
    cases t <;> simp only [shasNiche, Bool.false_eq_true, and_false] at h
    · rename_i t
      obtain ⟨c, hc, _⟩ := isNiche_iff (tg := tg) t bs h.2
      cases c <;> simp [sIsValid, sIsNiche, hc, bind, Except.bind, pure, Except.pure]
      simpa only [sIsValid] using hv
    · have := tg.ptrSize_pos
      simp [slay, ptrLay] at hz
      omega

/-! ### The check decides what it should -/

theorem svalid_iff {tg : Target} : ∀ (t : STy) (bs : List UInt8), ssupported tg t = true →
    bs.length = ssize tg t → ∃ b, sIsValid tg t bs = .ok b ∧ (b = true ↔ ∃ v, SEnc tg false t v bs)
  | .of t, bs, h, hl => by
    simp only [ssupported, Bool.and_eq_true] at h
    obtain ⟨b, hb⟩ := isValid_ok (tg := tg) t bs h.1
    refine ⟨b, hb, fun hb' => ?_, fun ⟨v, hv⟩ => ?_⟩
    · exact enc_of_valid t bs h.1 h.2 hl (hb' ▸ hb)
    · have := valid_of_enc t v bs h.1 hv
      rw [hb] at this
      exact Except.ok.inj this
  | .ptr k t, bs, h, hl => by
    simp only [ssupported, decide_eq_true_eq] at h
    refine ⟨_, rfl, (ptrValid_iff hl h).trans ⟨fun ⟨a, ha⟩ => ⟨.addr a, ha⟩, fun ⟨v, hv⟩ => ?_⟩⟩
    cases v <;> simp only [SEnc] at hv
    exact ⟨_, hv⟩
  | .slice k t, bs, h, hl => by
    simp only [ssupported, decide_eq_true_eq] at h
    refine ⟨_, rfl, (sliceValid_iff (size' := ssize tg t) hl h).trans
      ⟨fun ⟨s, e, he⟩ => ⟨.tup [.addr s, .addr e], he⟩, fun ⟨v, hv⟩ => ?_⟩⟩
    obtain ⟨s, e, _, he⟩ := senc_slice.mp hv
    exact ⟨s, e, he⟩
  | .str k, bs, h, hl => by
    refine ⟨_, rfl, (sliceValid_iff (size' := 1) hl (by decide)).trans
      ⟨fun ⟨s, e, he⟩ => ⟨.tup [.addr s, .addr e], he⟩, fun ⟨v, hv⟩ => ?_⟩⟩
    obtain ⟨s, e, _, he⟩ := senc_str.mp hv
    exact ⟨s, e, he⟩
  | .dyn data vt, bs, h, hl => by
    simp only [ssupported, Bool.and_eq_true, decide_eq_true_eq] at h
    obtain ⟨c, hc, hc'⟩ := pairValid_iff (tg := tg) (a := slay tg data) (b := ptrLay tg) (ca := sclayout data) (cb := .ptr)
      (fa := sIsValid tg data) (fb := refValid tg (salign tg vt))
      (P := fun x => ∃ v, SEnc tg false data v x) (Q := fun x => ∃ a, PtrImage tg (salign tg vt) a x)
      hl (slay_pos data h.1) (ptrLay_pos tg) (clay_sclayout data h.1) (by simp [clay, ptrLay])
      (fun x hx => svalid_iff data x h.1 hx) (fun x hx => refValid_iff hx)
      (fun hz x => szst_valid data x h.1 hz) (fun hz => absurd hz (Nat.ne_of_gt tg.ptrSize_pos))
    refine ⟨c, hc, hc'.trans ⟨fun ⟨⟨v, hv⟩, a, ha⟩ => ⟨.tup [v, .addr a], hl, hv, ha⟩, fun ⟨v, hv⟩ => ?_⟩⟩
    obtain ⟨_, _, _, hv⟩ := senc_dyn.mp hv
    exact ⟨⟨_, hv.2.1⟩, _, hv.2.2⟩
  | .dynRef vt, bs, h, hl => by
    simp only [ssupported, decide_eq_true_eq] at h
    obtain ⟨c, hc, hc'⟩ := pairValid_iff (tg := tg) (a := ptrLay tg) (b := ptrLay tg) (ca := .ptr) (cb := .ptr)
      (fa := refValid tg 1) (fb := refValid tg (salign tg vt))
      (P := fun x => ∃ a, PtrImage tg 1 a x) (Q := fun x => ∃ a, PtrImage tg (salign tg vt) a x)
      hl (ptrLay_pos tg) (ptrLay_pos tg) (by simp [clay, ptrLay]) (by simp [clay, ptrLay])
      (fun x hx => refValid_iff hx) (fun x hx => refValid_iff hx)
      (fun hz => absurd hz (Nat.ne_of_gt tg.ptrSize_pos)) (fun hz => absurd hz (Nat.ne_of_gt tg.ptrSize_pos))
    refine ⟨c, hc, hc'.trans ⟨fun ⟨⟨p, hp⟩, a, ha⟩ => ⟨.tup [.addr p, .addr a], hl, hp, ha⟩, fun ⟨v, hv⟩ => ?_⟩⟩
    obtain ⟨_, _, _, hv⟩ := senc_dynRef.mp hv
    exact ⟨⟨_, hv.2.1⟩, _, hv.2.2⟩
  | .vtDrop, bs, h, hl => by
    have hlen : (slice bs 0 tg.ptrSize).length = tg.ptrSize := by
      refine length_slice ?_
      have h3 := tg.ptrAlign_pos
      have := le_roundUp (0 + tg.ptrSize) (maxAlign_pos [(tg.ptrSize, tg.ptrAlign)])
      simp only [ssize, slay, ptrLay, structLay, endFrom, roundUp_zero h3] at hl
      omega
    refine ⟨_, rfl, ?_⟩
    simp only [bne_iff_ne, ne_eq]
    constructor
    · intro h1
      exact ⟨.addr _, hl, hlen, rfl, h1, Nat.one_dvd _⟩
    · rintro ⟨v, hv⟩
      cases v <;> simp only [SEnc] at hv
      exact hv.2.2.1 ▸ hv.2.2.2.1
  | .vtable head tail, bs, h, hl => by
    simp only [ssupported, Bool.and_eq_true] at h
    obtain ⟨c, hc, hc'⟩ := pairValid_iff (tg := tg) (a := slay tg tail) (b := slay tg head) (ca := sclayout tail)
      (cb := sclayout head) (fa := sIsValid tg tail) (fb := sIsValid tg head)
      (P := fun x => ∃ v, SEnc tg false tail v x) (Q := fun x => ∃ v, SEnc tg false head v x)
      hl (slay_pos tail h.2) (slay_pos head h.1) (clay_sclayout tail h.2) (clay_sclayout head h.1)
      (fun x hx => svalid_iff tail x h.2 hx) (fun x hx => svalid_iff head x h.1 hx)
      (fun hz x => szst_valid tail x h.2 hz) (fun hz x => szst_valid head x h.1 hz)
    refine ⟨c, hc, hc'.trans ⟨fun ⟨⟨v, hv⟩, w, hw⟩ => ⟨.tup [w, v], hl, hv, hw⟩, fun ⟨v, hv⟩ => ?_⟩⟩
    obtain ⟨_, _, _, hv⟩ := senc_vtable.mp hv
    exact ⟨⟨_, hv.2.1⟩, _, hv.2.2⟩
  | .alias _ t, bs, h, hl => by
    simp only [ssupported] at h
    simpa only [sIsValid, SEnc] using svalid_iff t bs h hl
  | .option t, bs, h, hl => by
    simp only [ssupported, Bool.and_eq_true] at h
    have hl : bs.length = ssize tg t := hl
    obtain ⟨c, hc, hc'⟩ := svalid_iff t bs h.1 hl
    have hn : ∃ n, sIsNiche tg t bs = .ok n ∧ (n = true ↔ SNoneImage tg t bs) := by
      cases t <;> simp only [shasNiche, Bool.false_eq_true, and_false] at h
      · exact isNiche_iff _ bs h.2
      · exact ⟨_, rfl, by simp [SNoneImage]⟩
    obtain ⟨n, hn, hn'⟩ := hn
    have key : (∃ v, SEnc tg false (.option t) v bs) ↔ SNoneImage tg t bs ∨ ∃ v, SEnc tg false t v bs := by
      constructor
      · rintro ⟨v, hv⟩
        cases v <;> simp only [SEnc] at hv
        · exact .inl hv.2
        · exact .inr ⟨_, hv⟩
      · rintro (h | ⟨v, hv⟩)
        · exact ⟨.none, hl, h⟩
        · exact ⟨.some v, hv⟩
    rw [key, ← hn', ← hc']
    cases n <;> simp [sIsValid, hn, hc, bind, Except.bind, pure, Except.pure]

/-! ### Values of the strict kind -/

theorem Ends.loose {size align s e : Nat} (h : Ends true size align s e)
    (hs : align ∣ size) (hz : size = 0 → align = 1) : Ends false size align s e := by
  obtain ⟨h1, h2, h3⟩ := h
  simp only [↓reduceIte] at h3
  obtain ⟨n, rfl⟩ := h3
  refine ⟨h1, h2, ?_⟩
  simp only [Bool.false_eq_true, ↓reduceIte]
  refine ⟨by omega, Nat.dvd_add h2 ?_⟩
  by_cases h0 : size = 0
  · rw [hz h0]; exact Nat.one_dvd _
  · rw [if_neg h0]; exact Nat.dvd_trans hs (Nat.dvd_mul_left _ _)

theorem SEnc.loose {tg : Target} : ∀ (t : STy) (v : Val) (bs : List UInt8), sizedItems tg t = true →
    SEnc tg true t v bs → SEnc tg false t v bs
  | .of _, _, _, _, h => h
  | .ptr _ _, v, _, _, h => by cases v <;> simp only [SEnc] at h ⊢; exact h
  | .slice _ t, v, bs, hz, h => by
    simp only [sizedItems, Bool.and_eq_true, decide_eq_true_eq, Bool.or_eq_true, bne_iff_ne, ne_eq,
      beq_iff_eq] at hz
    obtain ⟨_, _, rfl, h⟩ := senc_slice.mp h
    exact ⟨h.1, h.2.1, h.2.2.1, h.2.2.2.loose hz.1 (fun h0 => hz.2.resolve_left (fun h => h h0))⟩
  | .str _, v, bs, hz, h => by
    obtain ⟨_, _, rfl, h⟩ := senc_str.mp h
    exact ⟨h.1, h.2.1, h.2.2.1, h.2.2.2.loose (Nat.dvd_refl _) (by decide)⟩
  | .dyn data vt, v, bs, hz, h => by
    simp only [sizedItems] at hz
    obtain ⟨_, _, rfl, h⟩ := senc_dyn.mp h
    exact ⟨h.1, SEnc.loose _ _ _ hz h.2.1, h.2.2⟩
  | .dynRef vt, v, bs, hz, h => by
    obtain ⟨_, _, rfl, h⟩ := senc_dynRef.mp h
    exact h
  | .vtDrop, v, _, _, h => by cases v <;> simp only [SEnc] at h ⊢; exact h
  | .vtable head tail, v, bs, hz, h => by
    simp only [sizedItems, Bool.and_eq_true] at hz
    obtain ⟨_, _, rfl, h⟩ := senc_vtable.mp h
    exact ⟨h.1, SEnc.loose _ _ _ hz.2 h.2.1, SEnc.loose _ _ _ hz.1 h.2.2⟩
  | .alias _ t, v, bs, hz, h => by
    simp only [sizedItems] at hz
    simp only [SEnc] at h ⊢
    exact SEnc.loose t v bs hz h
  | .option t, v, bs, hz, h => by
    simp only [sizedItems] at hz
    cases v <;> simp only [SEnc] at h ⊢
    · exact h
    · exact SEnc.loose t _ bs hz h

theorem SEnc.length {tg : Target} {st : Bool} : ∀ (t : STy) (v : Val) (bs : List UInt8), ssupported tg t = true →
    SEnc tg st t v bs → bs.length = ssize tg t
  | .of t, v, bs, hs, h => by
    simp only [ssupported, Bool.and_eq_true] at hs
    exact enc_length t v bs hs.1 h
  | .ptr _ _, v, _, _, h => by cases v <;> simp only [SEnc] at h; exact h.1
  | .slice _ t, v, bs, hz, h => by
    obtain ⟨_, _, _, h⟩ := senc_slice.mp h
    exact h.1
  | .str _, v, bs, hz, h => by
    obtain ⟨_, _, _, h⟩ := senc_str.mp h
    exact h.1
  | .dyn data vt, v, bs, hz, h => by
    obtain ⟨_, _, _, h⟩ := senc_dyn.mp h
    exact h.1
  | .dynRef vt, v, bs, hz, h => by
    obtain ⟨_, _, _, h⟩ := senc_dynRef.mp h
    exact h.1
  | .vtDrop, v, _, _, h => by cases v <;> simp only [SEnc] at h; exact h.1
  | .vtable head tail, v, bs, hz, h => by
    obtain ⟨_, _, _, h⟩ := senc_vtable.mp h
    exact h.1
  | .alias _ t, v, bs, hz, h => by
    simp only [ssupported] at hz
    simp only [SEnc] at h
    exact SEnc.length t v bs hz h
  | .option t, v, bs, hz, h => by
    simp only [ssupported, Bool.and_eq_true] at hz
    cases v <;> simp only [SEnc] at h
    · exact h.1
    · exact SEnc.length t _ bs hz.1 h

theorem PtrImage.unique {tg : Target} {al a a' : Nat} {bs : List UInt8} (h : PtrImage tg al a bs)
    (h' : PtrImage tg al a' bs) : a = a' := h.2.1.symm.trans h'.2.1

theorem SEnc.unique {tg : Target} {st : Bool} : ∀ (t : STy) (v v' : Val) (bs : List UInt8), ssupported tg t = true →
    SEnc tg st t v bs → SEnc tg st t v' bs → v = v'
  | .of t, v, v', bs, hs, h, h' => by
    simp only [ssupported, Bool.and_eq_true] at hs
    exact enc_unique t v v' bs hs.1 h h'
  | .ptr _ _, v, v', _, _, h, h' => by
    cases v <;> simp only [SEnc] at h
    cases v' <;> simp only [SEnc] at h'
    rw [h.unique h']
  | .slice _ t, v, v', bs, _, h, h' => by
    obtain ⟨s, e, rfl, h⟩ := senc_slice.mp h
    obtain ⟨s', e', rfl, h'⟩ := senc_slice.mp h'
    rw [← h.2.1, ← h'.2.1, ← h.2.2.1, ← h'.2.2.1]
  | .str _, v, v', bs, _, h, h' => by
    obtain ⟨s, e, rfl, h⟩ := senc_str.mp h
    obtain ⟨s', e', rfl, h'⟩ := senc_str.mp h'
    rw [← h.2.1, ← h'.2.1, ← h.2.2.1, ← h'.2.2.1]
  | .dyn data vt, v, v', bs, hs, h, h' => by
    simp only [ssupported, Bool.and_eq_true] at hs
    obtain ⟨d, a, rfl, h⟩ := senc_dyn.mp h
    obtain ⟨d', a', rfl, h'⟩ := senc_dyn.mp h'
    rw [SEnc.unique data d d' _ hs.1 h.2.1 h'.2.1, h.2.2.unique h'.2.2]
  | .dynRef vt, v, v', bs, _, h, h' => by
    obtain ⟨d, a, rfl, h⟩ := senc_dynRef.mp h
    obtain ⟨d', a', rfl, h'⟩ := senc_dynRef.mp h'
    rw [h.2.1.unique h'.2.1, h.2.2.unique h'.2.2]
  | .vtDrop, v, v', _, _, h, h' => by
    cases v <;> simp only [SEnc] at h
    cases v' <;> simp only [SEnc] at h'
    rw [h.2.unique h'.2]
  | .vtable head tail, v, v', bs, hs, h, h' => by
    simp only [ssupported, Bool.and_eq_true] at hs
    obtain ⟨d, a, rfl, h⟩ := senc_vtable.mp h
    obtain ⟨d', a', rfl, h'⟩ := senc_vtable.mp h'
    rw [SEnc.unique head d d' _ hs.1 h.2.2 h'.2.2, SEnc.unique tail a a' _ hs.2 h.2.1 h'.2.1]
  | .alias _ t, v, v', bs, hs, h, h' => by
    simp only [ssupported] at hs
    simp only [SEnc] at h h'
    exact SEnc.unique t v v' bs hs h h'
  | .option t, v, v', bs, hs, h, h' => by
    simp only [ssupported, Bool.and_eq_true] at hs
    have hn : ∀ w, SNoneImage tg t bs → ¬ SEnc tg st t w bs := by
      intro w h0 hw
      cases t <;> simp only [shasNiche, Bool.false_eq_true, and_false] at hs
      · simp only [ssupported, Bool.and_eq_true] at hs
        exact none_not_some _ w bs hs.1.1 hs.2 h0 hw
      · cases w <;> simp only [SEnc] at hw
        simp only [SNoneImage] at h0
        exact hw.2.2.1 (hw.2.1.symm.trans h0)
    cases v <;> simp only [SEnc] at h <;> cases v' <;> simp only [SEnc] at h'
    · rfl
    · exact absurd h' (hn _ h.2)
    · exact absurd h (hn _ h'.2)
    · rw [SEnc.unique t _ _ bs hs.1 h h']

end Verif.Stabby
