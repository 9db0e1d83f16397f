import Verif.Layout.Model
import Verif.Layout.Spec
/-
Lemmas for C20-C25: the C layout has the size and alignment of the Rust type,
and `is_valid` decides representability.
-/
namespace Verif.Layout

/-! ### Arithmetic of layouts -/

theorem le_roundUp (n : Nat) {a : Nat} (h : 0 < a) : n ≤ roundUp n a := by
  unfold roundUp
  have h1 := Nat.div_add_mod (n + a - 1) a
  have h2 := Nat.mod_lt (n + a - 1) h
  rw [Nat.mul_comm] at h1
  omega

theorem roundUp_one {a : Nat} (h : 0 < a) : roundUp 1 a = a := by
  unfold roundUp
  rw [show 1 + a - 1 = a by omega, Nat.div_self h, Nat.one_mul]

theorem roundUp_zero {a : Nat} (h : 0 < a) : roundUp 0 a = 0 := by
  unfold roundUp
  rw [Nat.div_eq_of_lt (by omega), Nat.zero_mul]

theorem dvd_roundUp (n a : Nat) : a ∣ roundUp n a := ⟨_, Nat.mul_comm _ _⟩

theorem maxAlign_pos : ∀ fs, 0 < maxAlign fs
  | [] => by decide
  | (_, _) :: fs => Nat.lt_of_lt_of_le (maxAlign_pos fs) (Nat.le_max_right _ _)

theorem le_endFrom : ∀ {fs : List (Nat × Nat)} (pos : Nat), (∀ p ∈ fs, 0 < p.2) → pos ≤ endFrom pos fs
  | [], _, _ => Nat.le_refl _
  | (s, a) :: fs, pos, h => by
    have h1 : pos ≤ roundUp pos a := le_roundUp pos (h (s, a) (by simp))
    have h2 := le_endFrom (fs := fs) (roundUp pos a + s) (fun p hp => h p (by simp [hp]))
    simp only [endFrom]
    omega

/-- Every field lies within the struct. -/
theorem offsets_end : ∀ {fs : List (Nat × Nat)} (pos : Nat), (∀ p ∈ fs, 0 < p.2) →
    ∀ {i o : Nat} {p : Nat × Nat}, (offsetsFrom pos fs)[i]? = some o → fs[i]? = some p →
      o + p.1 ≤ endFrom pos fs
  | [], _, _, i, o, p, h1, _ => by simp [offsetsFrom] at h1
  | (s, a) :: fs, pos, h, i, o, p, h1, h2 => by
    have ht : ∀ p ∈ fs, 0 < p.2 := fun p hp => h p (by simp [hp])
    cases i with
    | zero =>
      simp only [offsetsFrom, List.getElem?_cons_zero, Option.some.injEq] at h1 h2
      subst h1 h2
      exact le_endFrom _ ht
    | succ i =>
      simp only [offsetsFrom, List.getElem?_cons_succ] at h1 h2
      exact offsets_end _ ht h1 h2

theorem offsets_in {fs : List (Nat × Nat)} (h : ∀ p ∈ fs, 0 < p.2)
    {i o : Nat} {p : Nat × Nat} (h1 : (offsetsFrom 0 fs)[i]? = some o) (h2 : fs[i]? = some p) :
    o + p.1 ≤ (structLay fs).1 :=
  Nat.le_trans (offsets_end 0 h h1 h2) (le_roundUp _ (maxAlign_pos fs))

theorem length_offsetsFrom : ∀ (fs : List (Nat × Nat)) (pos : Nat),
    (offsetsFrom pos fs).length = fs.length
  | [], _ => rfl
  | (_, _) :: fs, _ => by simp [offsetsFrom, length_offsetsFrom fs]

theorem length_slice {bs : List UInt8} {o n : Nat} (h : o + n ≤ bs.length) :
    (slice bs o n).length = n := by
  simp only [slice, List.length_take, List.length_drop]
  omega

theorem slice_zero_of_length {bs : List UInt8} {n : Nat} (h : bs.length = n) : slice bs 0 n = bs := by
  simp [slice, ← h]

/-! ### The C layout has the layout of the Rust type -/

theorem supported_unit {tg : Target} : supported tg .unit = false := by simp [supported]

theorem supportedFields_cons {tg : Target} {f : Ty} {fs : List Ty}
    (h : supportedFields tg (f :: fs) = true) :
    (f = .unit ∨ supported tg f = true) ∧ supportedFields tg fs = true := by
  cases f <;> simp_all [supportedFields]

theorem units_lays {tg : Target} : ∀ {fs : List Ty},
    (fs.all fun | .unit => true | _ => false) = true → lays tg fs = fs.map fun _ => (0, 1)
  | [], _ => rfl
  | f :: fs, h => by
    rw [List.all_cons, Bool.and_eq_true] at h
    have h2 := units_lays (tg := tg) h.2
    cases f <;> simp_all [lays, lay]

theorem max_units : ∀ fs : List Ty,
    maxSize (fs.map fun _ => (0, 1)) = 0 ∧ maxAlign (fs.map fun _ => (0, 1)) = 1
  | [] => ⟨rfl, rfl⟩
  | _ :: fs => by
    have h := max_units fs
    simp [maxSize, maxAlign, h.1, h.2]

theorem lay_transparent {tg : Target} {f : Ty} {fs : List Ty}
    (h : (fs.all fun | .unit => true | _ => false) = true) (hp : 0 < (lay tg f).2) :
    lay tg (.transparent (f :: fs)) = lay tg f := by
  simp only [lay, lays, units_lays h]
  have hm := max_units fs
  simp only [maxSize, maxAlign, hm.1, hm.2]
  ext
  · simp
  · simp only; omega

mutual
theorem align_pos (tg : Target) : ∀ t, supported tg t = true → 0 < (lay tg t).2
  | .int k, _ => tg.intAlign_pos k
  | .float k, _ => tg.floatAlign_pos k
  | .bool, _ => by simp [lay]
  | .enum k _, _ => tg.intAlign_pos k
  | .rawPtr, _ => tg.ptrAlign_pos
  | .ref _ _, _ => tg.ptrAlign_pos
  | .out _, _ => tg.ptrAlign_pos
  | .fnPtr, _ => tg.ptrAlign_pos
  | .array t n, h => by
    simp only [supported, Bool.and_eq_true] at h
    exact align_pos tg t h.2
  | .struct _ fs, _ => maxAlign_pos _
  | .transparent fs, _ => maxAlign_pos _
  | .option t, h => by
    simp only [supported, Bool.and_eq_true] at h
    exact align_pos tg t h.1
  | .tagged t, _ => maxAlign_pos _
  | .unit, h => by simp [supported] at h
  | .opaque _ _, h => by simp [supported] at h

theorem aligns_pos (tg : Target) : ∀ fs, supportedFields tg fs = true → ∀ p ∈ lays tg fs, 0 < p.2
  | [], _, p, hp => by simp [lays] at hp
  | f :: fs, h, p, hp => by
    have h := supportedFields_cons h
    simp only [lays, List.mem_cons] at hp
    rcases hp with rfl | hp
    · rcases h.1 with rfl | hf
      · simp [lay]
      · exact align_pos tg f hf
    · exact aligns_pos tg fs h.2 p hp
end

mutual
theorem clay_clayout (tg : Target) : ∀ t, supported tg t = true → clay tg (clayout t) = lay tg t
  | .int k, _ => by simp [clayout, clay, lay]
  | .float k, _ => by simp [clayout, clay, lay]
  | .bool, _ => by simp [clayout, clay, lay]
  | .enum k _, _ => by simp [clayout, clay, lay]
  | .rawPtr, _ => by simp [clayout, clay, lay]
  | .ref _ _, _ => by simp [clayout, clay, lay]
  | .out _, _ => by simp [clayout, clay, lay]
  | .fnPtr, _ => by simp [clayout, clay, lay]
  | .array t n, h => by
    simp only [supported, Bool.and_eq_true] at h
    simp only [clayout, clay, lay, clay_clayout tg t h.2]
  | .struct _ fs, h => by
    simp only [supported] at h
    simp only [clayout, clay, lay, clays_clayouts tg fs h]
  | .transparent [], h => by simp [supported] at h
  | .transparent (f :: fs), h => by
    simp only [supported, Bool.and_eq_true] at h
    rw [lay_transparent h.2 (align_pos tg f h.1)]
    simp only [clayout]
    exact clay_clayout tg f h.1
  | .option t, h => by
    simp only [supported, Bool.and_eq_true] at h
    simp only [clayout, lay, clay_clayout tg t h.1]
  | .tagged t, h => by
    simp only [supported] at h
    simp only [clayout, clay, clays, lay, clay_clayout tg t h]
  | .unit, h => by simp [supported] at h
  | .opaque _ _, h => by simp [supported] at h

theorem clays_clayouts (tg : Target) : ∀ fs, supportedFields tg fs = true →
    clays tg (clayouts fs) = lays tg fs
  | [], _ => rfl
  | f :: fs, h => by
    have h := supportedFields_cons h
    simp only [clayouts, clays, lays, clays_clayouts tg fs h.2]
    rcases h.1 with rfl | hf
    · simp [clayout, clay, lay]
    · rw [clay_clayout tg f hf]
end

/-! ### Integers -/

theorem leNat_lt : ∀ bs : List UInt8, leNat bs < 256 ^ bs.length
  | [] => by simp [leNat]
  | b :: bs => by
    have h1 := leNat_lt bs
    have h2 : b.toNat < 256 := b.toNat_lt
    simp only [leNat, List.length_cons, Nat.pow_succ]
    omega

theorem natOf_lt (tg : Target) (bs : List UInt8) : natOf tg bs < 2 ^ (8 * bs.length) := by
  have h : natOf tg bs < 256 ^ bs.length := by
    unfold natOf
    split
    · simpa using leNat_lt bs.reverse
    · exact leNat_lt bs
  rwa [show (256 : Nat) = 2 ^ 8 by decide, ← Nat.pow_mul] at h

theorem leNat_surj : ∀ (len n : Nat), n < 256 ^ len → ∃ bs : List UInt8, bs.length = len ∧ leNat bs = n
  | 0, n, h => ⟨[], rfl, by simp at h; simp [leNat, h]⟩
  | len + 1, n, h => by
    obtain ⟨bs, h1, h2⟩ := leNat_surj len (n / 256) (by
      rw [Nat.pow_succ] at h
      exact (Nat.div_lt_iff_lt_mul (by decide)).mpr h)
    refine ⟨UInt8.ofNat (n % 256) :: bs, by simp [h1], ?_⟩
    simp only [leNat, h2, UInt8.toNat_ofNat']
    omega

/-- Every number that fits has an image. -/
theorem natOf_surj (tg : Target) (len n : Nat) (h : n < 2 ^ (8 * len)) :
    ∃ bs : List UInt8, bs.length = len ∧ natOf tg bs = n := by
  rw [Nat.pow_mul] at h
  obtain ⟨bs, h1, h2⟩ := leNat_surj len n h
  unfold natOf
  cases tg.bigEndian with
  | false => exact ⟨bs, h1, by simpa using h2⟩
  | true => exact ⟨bs.reverse, by simpa using h1, by simpa using h2⟩

theorem IntTy.size_pos (tg : Target) (k : IntTy) : 0 < k.size tg := by
  cases k <;> simp [IntTy.size, tg.ptrSize_pos]

/-- `decodeInt` reads the number of which the bytes are the image. -/
theorem intImage_iff {tg : Target} {k : IntTy} {i : Int} {bs : List UInt8}
    (hl : bs.length = k.size tg) : IntImage tg k i bs ↔ decodeInt tg k bs = i := by
  have hlt := natOf_lt tg bs
  rw [hl] at hlt
  have hs := k.size_pos tg
  have hp : (2 : Nat) ^ (8 * k.size tg) = 2 * 2 ^ (8 * k.size tg - 1) := by
    rw [← Nat.pow_succ']; congr 1; omega
  have hpz : ((2 : Int) ^ (8 * k.size tg)) = ((2 ^ (8 * k.size tg) : Nat) : Int) := by
    simp
  have hpz' : ((2 : Int) ^ (8 * k.size tg - 1)) = ((2 ^ (8 * k.size tg - 1) : Nat) : Int) := by
    simp
  simp only [IntImage, InRange, decodeInt, hl, true_and, hpz, hpz']
  generalize 2 ^ (8 * k.size tg) = M at *
  generalize 2 ^ (8 * k.size tg - 1) = H at *
  generalize natOf tg bs = n at *
  subst hp
  by_cases hsg : k.signed = true
  · simp only [hsg, if_true, true_and]
    constructor
    · rintro ⟨⟨h1, h2⟩, h3⟩
      by_cases hi : 0 ≤ i
      · rw [Int.emod_eq_of_lt hi (by omega)] at h3
        rw [if_neg (by omega)]
        exact h3
      · have : i % ((2 * H : Nat) : Int) = i + (2 * H : Nat) := by
          rw [← Int.add_emod_right, Int.emod_eq_of_lt (by omega) (by omega)]
        rw [this] at h3
        rw [if_pos (by omega)]
        omega
    · intro h
      split at h
      · refine ⟨by omega, ?_⟩
        have : i % ((2 * H : Nat) : Int) = i + (2 * H : Nat) := by
          rw [← Int.add_emod_right, Int.emod_eq_of_lt (by omega) (by omega)]
        rw [this]; omega
      · refine ⟨by omega, ?_⟩
        rw [Int.emod_eq_of_lt (by omega) (by omega)]
        exact h
  · simp only [Bool.not_eq_true] at hsg
    simp only [hsg, Bool.false_eq_true, if_false, false_and]
    constructor
    · rintro ⟨⟨h1, h2⟩, h3⟩
      rw [Int.emod_eq_of_lt h1 (by omega)] at h3
      exact h3
    · intro h
      refine ⟨by omega, ?_⟩
      rw [Int.emod_eq_of_lt (by omega) (by omega)]
      exact h

/-! ### Discriminants -/

theorem hasDisc_get {vs : List (Option Int)} {i : Nat} {d : Int} (h : HasDisc vs i d) :
    i < vs.length := by
  cases h with
  | explicit h => exact (List.getElem?_eq_some_iff.mp h).1
  | first h => exact (List.getElem?_eq_some_iff.mp h).1
  | next h _ => exact (List.getElem?_eq_some_iff.mp h).1

/-- What `discsFrom` computes, per index. -/
theorem discsFrom_get : ∀ (vs : List (Option Int)) (n : Int) (i : Nat),
    (discsFrom n vs)[i]? =
      match vs[i]? with
      | none => none
      | some (some d) => some d
      | some none => if i = 0 then some n else (discsFrom n vs)[i - 1]?.map (· + 1)
  | [], n, i => by simp [discsFrom]
  | none :: vs, n, 0 => by simp [discsFrom]
  | some d :: vs, n, 0 => by simp [discsFrom]
  | none :: vs, n, 1 => by
    rw [discsFrom, List.getElem?_cons_succ, discsFrom_get vs (n + 1) 0]
    simp
  | some d :: vs, n, 1 => by
    rw [discsFrom, List.getElem?_cons_succ, discsFrom_get vs (d + 1) 0]
    simp
  | none :: vs, n, i + 2 => by
    rw [discsFrom, List.getElem?_cons_succ, discsFrom_get vs (n + 1) (i + 1)]
    simp
  | some d :: vs, n, i + 2 => by
    rw [discsFrom, List.getElem?_cons_succ, discsFrom_get vs (d + 1) (i + 1)]
    simp

theorem hasDisc_iff (vs : List (Option Int)) (i : Nat) (d : Int) :
    HasDisc vs i d ↔ (discsFrom 0 vs)[i]? = some d := by
  constructor
  · intro h
    induction h with
    | explicit h => rw [discsFrom_get, h]
    | first h => rw [discsFrom_get, h]; rfl
    | next h _ ih => rw [discsFrom_get, h]; simp [ih]
  · intro h
    induction i generalizing d with
    | zero =>
      rw [discsFrom_get] at h
      split at h
      · cases h
      · rename_i d' hd; cases h; exact .explicit hd
      · rename_i hd; simp at h; subst h; exact .first hd
    | succ i ih =>
      rw [discsFrom_get] at h
      split at h
      · cases h
      · rename_i d' hd; cases h; exact .explicit hd
      · rename_i hd
        simp only [Nat.add_one_ne_zero, if_false, Nat.add_sub_cancel, Option.map_eq_some_iff] at h
        obtain ⟨e, he, rfl⟩ := h
        exact .next hd (ih e he)

theorem mem_discs_iff (vs : List (Option Int)) (d : Int) :
    d ∈ discsFrom 0 vs ↔ ∃ i, HasDisc vs i d := by
  rw [List.mem_iff_getElem?]
  exact exists_congr fun i => (hasDisc_iff vs i d).symm

theorem discsOk_spec {tg : Target} {k : IntTy} : ∀ {vs : List (Option Int)} {n : Int} {seen : List Int},
    discsOk tg k n seen vs = true →
      (∀ d ∈ discsFrom n vs, InRange tg k d ∧ d ∉ seen) ∧ (discsFrom n vs).Nodup
  | [], _, _, _ => by simp [discsFrom]
  | v :: vs, n, seen, h => by
    simp only [discsOk, Bool.and_eq_true, decide_eq_true_eq, Bool.not_eq_true',
      List.contains_eq_mem, decide_eq_false_iff_not] at h
    have ih := discsOk_spec (vs := vs) h.2
    have hd : discsFrom n (v :: vs) = v.getD n :: discsFrom (v.getD n + 1) vs := by
      cases v <;> rfl
    rw [hd]
    refine ⟨?_, ?_⟩
    · intro d hd
      rcases List.mem_cons.mp hd with rfl | hd
      · exact h.1
      · exact ⟨(ih.1 d hd).1, fun hs => (ih.1 d hd).2 (List.mem_cons_of_mem _ hs)⟩
    · rw [List.nodup_cons]
      exact ⟨fun hm => (ih.1 _ hm).2 List.mem_cons_self, ih.2⟩

end Verif.Layout
