import Verif.Headers.AbiSpec
import Verif.Headers.StructProps
import Verif.Headers.TypeNames
import Verif.Headers.AbiItems
import Verif.Layout.Lemmas
/-! # Layouts of the C types and the Rust types -/
namespace Verif.Headers
open Text Layout

/-! ### Layouts -/

mutual
theorem Shape.lay_good (A : Abi) : ∀ s : Shape, 0 < (s.lay A).2 ∧ (s.lay A).2 ∣ (s.lay A).1
  | .scalar s => ⟨A.pos s, A.dvd s⟩
  | .array _ s => ⟨(Shape.lay_good A s).1, Nat.dvd_trans (Shape.lay_good A s).2 (Nat.dvd_mul_left _ _)⟩
  | .struct _ => ⟨maxAlign_pos _, dvd_roundUp _ _⟩
theorem lays_good (A : Abi) : ∀ ss : List Shape, ∀ p ∈ lays A ss, 0 < p.2 ∧ p.2 ∣ p.1
  | [], _, h => nomatch h
  | s :: ss, p, h => by
    rw [lays, List.mem_cons] at h
    rcases h with rfl | h
    · exact Shape.lay_good A s
    · exact lays_good A ss p h
end

theorem roundUp_dvd {n a : Nat} (ha : 0 < a) (h : a ∣ n) : roundUp n a = n := by
  obtain ⟨q, rfl⟩ := h
  rw [roundUp]
  have : (a * q + a - 1) / a = q := by
    rw [Nat.add_sub_assoc (by omega), Nat.mul_add_div ha, Nat.div_eq_of_lt (by omega), Nat.add_zero]
  rw [this, Nat.mul_comm]

theorem roundUp_by_one (n : Nat) : roundUp n 1 = n := roundUp_dvd (by decide) (Nat.one_dvd n)

theorem SameAbi.refl (A : Abi) (s : Shape) : SameAbi A s s := ⟨rfl, fun _ => rfl⟩

theorem SameAbi.array {A : Abi} {s s' : Shape} (h : SameAbi A s s') (n : Nat) : SameAbi A (.array n s) (.array n s') := by
  refine ⟨?_, fun a => ?_⟩
  · rw [Shape.lay, Shape.lay, h.1]
  · rw [Shape.scalars, Shape.scalars, h.1]
    exact congrArg (List.flatMap · _) (funext fun i => h.2 _)

/-- A struct with one member. -/
theorem SameAbi.wrap {A : Abi} {s s' : Shape} (h : SameAbi A s s') : SameAbi A s (.struct [s']) := by
  obtain ⟨hp, hd⟩ := Shape.lay_good A s'
  have e : lays A [s'] = [s'.lay A] := rfl
  refine ⟨?_, fun a => ?_⟩
  · rw [Shape.lay, e, structLay, h.1]
    show s'.lay A = (roundUp (roundUp 0 (s'.lay A).2 + (s'.lay A).1) (max (s'.lay A).2 1), max (s'.lay A).2 1)
    rw [roundUp_zero hp, Nat.max_eq_left hp, Nat.zero_add, roundUp_dvd hp hd]
  · rw [Shape.scalars, e, h.2]
    show _ = s'.scalars A (a + roundUp 0 (s'.lay A).2) ++ []
    rw [roundUp_zero hp, List.append_nil, Nat.add_zero]

/-- Some members, left out, have no bytes. -/
inductive Drops (A : Abi) : List Text → List Shape → List Text → List Shape → Prop
  | nil : Drops A [] [] [] []
  | keep {n s s' ns ss ns' ss'} : (s.lay A).1 ≠ 0 → SameAbi A s s' → Drops A ns ss ns' ss' → Drops A (n :: ns) (s :: ss) (n :: ns') (s' :: ss')
  | drop {n s ns ss ns' ss'} : s.lay A = (0, 1) → (∀ a, s.scalars A a = []) → Drops A ns ss ns' ss' → Drops A (n :: ns) (s :: ss) ns' ss'

theorem Drops.same {A : Abi} {ns ns' : List Text} {ss ss' : List Shape} (h : Drops A ns ss ns' ss') (pos : Nat) :
    endFrom pos (lays A ss) = endFrom pos (lays A ss') ∧ maxAlign (lays A ss) = maxAlign (lays A ss') ∧
      (∀ a, scalarsAll A ss (offsetsFrom pos (lays A ss)) a = scalarsAll A ss' (offsetsFrom pos (lays A ss')) a) ∧
      All₂ (SameMember A) ((placed A pos ns ss).filter fun m => (m.2.2.lay A).1 ≠ 0) (placed A pos ns' ss') := by
  induction h generalizing pos with
  | nil => exact ⟨rfl, rfl, fun _ => rfl, .nil⟩
  | @keep n s s' ns ss ns' ss' h0 h _ ih =>
    obtain ⟨h1, h2, h3, h4⟩ := ih (roundUp pos (s'.lay A).2 + (s'.lay A).1)
    refine ⟨?_, ?_, fun a => ?_, ?_⟩
    · rw [lays, lays, h.1]; exact h1
    · rw [lays, lays, h.1, maxAlign, maxAlign, h2]
    · rw [lays, lays, h.1, offsetsFrom, offsetsFrom, scalarsAll, scalarsAll, h.2, h3]
    · rw [placed, placed, lays, lays, h.1, offsetsFrom, offsetsFrom, List.zip_cons_cons, List.zip_cons_cons, List.zip_cons_cons, List.zip_cons_cons,
        List.filter_cons_of_pos (by simpa using h0)]
      exact .cons ⟨rfl, rfl, h⟩ h4
  | @drop n s ns ss ns' ss' h hs _ ih =>
    obtain ⟨h1, h2, h3, h4⟩ := ih pos
    refine ⟨?_, ?_, fun a => ?_, ?_⟩
    · rw [lays, h, endFrom, roundUp_by_one]; exact h1
    · rw [lays, h, maxAlign, h2]; exact Nat.max_eq_right (maxAlign_pos _)
    · rw [lays, h, offsetsFrom, scalarsAll, hs, roundUp_by_one, Nat.add_zero, h3]; rfl
    · rw [placed, lays, h, offsetsFrom, roundUp_by_one, List.zip_cons_cons, List.zip_cons_cons, List.filter_cons_of_neg (by simp [h])]
      exact h4

theorem Drops.struct {A : Abi} {ns ns' : List Text} {ss ss' : List Shape} (h : Drops A ns ss ns' ss') : SameAbi A (.struct ss) (.struct ss') := by
  obtain ⟨h1, h2, h3, _⟩ := h.same 0
  refine ⟨?_, fun a => ?_⟩
  · rw [Shape.lay, Shape.lay, structLay, structLay, h1, h2]
  · rw [Shape.scalars, Shape.scalars]; exact h3 a

/-! ### Types without bytes -/

theorem intScalar_pos (A : Abi) (k : IntTy) : (intScalar A k).size A.word ≠ 0 := by
  have := A.wordPos
  cases k <;> simp [intScalar, Scalar.size] <;> omega

theorem end_zero {l : List (Nat × Nat)} {pos : Nat} (hp : ∀ p ∈ l, 0 < p.2) (h : endFrom pos l = 0) : pos = 0 ∧ ∀ p ∈ l, p.1 = 0 := by
  induction l generalizing pos with
  | nil => exact ⟨h, nofun⟩
  | cons p l ih =>
    obtain ⟨s, a⟩ := p
    rw [endFrom] at h
    obtain ⟨h1, h2⟩ := ih (fun p hp' => hp p (by simp [hp'])) h
    have := le_roundUp pos (hp (s, a) (by simp))
    dsimp only at this
    refine ⟨by omega, fun p hp' => ?_⟩
    rcases List.mem_cons.1 hp' with rfl | hp'
    · dsimp only; omega
    · exact h2 p hp'

mutual
theorem RShape.empty {A : Abi} {P : Prog} {ty : CTy} {s : Shape} (h : RShape A P ty s) (h0 : (s.lay A).1 = 0) : ∀ a, s.scalars A a = [] := by
  have hw := A.wordPos
  match h with
  | .int k => exact absurd h0 (intScalar_pos A k)
  | .float | .double | .bool | .cint | .cchar => simp [Shape.lay, Scalar.size] at h0
  | .fptr | .constPtr | .mutPtr => simp [Shape.lay, Scalar.size] at h0; omega
  | .void => intro a; rfl
  | .array (n := n) (s := s) h =>
    intro a
    rw [Shape.scalars]
    rw [Shape.lay] at h0
    rcases Nat.mul_eq_zero.1 h0 with rfl | h0
    · rfl
    · simp [RShape.empty h h0]
  | .alias h => exact RShape.empty h h0
  | .enum _ => exact absurd h0 (intScalar_pos A _)
  | .struct (ss := ss) _ h =>
    intro a
    rw [Shape.scalars]
    rw [Shape.lay, structLay] at h0
    have h1 := le_roundUp (endFrom 0 (lays A ss)) (maxAlign_pos (lays A ss))
    dsimp only at h0
    exact RShapes.empty h (end_zero (pos := 0) (fun p hp => (lays_good A ss p hp).1) (by omega)).2 _ a
theorem RShapes.empty {A : Abi} {P : Prog} {fs : List Field} {ss : List Shape} (h : RShapes A P fs ss) (h0 : ∀ p ∈ lays A ss, p.1 = 0) :
    ∀ os a, scalarsAll A ss os a = [] := by
  intro os a
  match h with
  | .nil => rw [scalarsAll]; simp
  | .cons h _ hs =>
    cases os with
    | nil => rw [scalarsAll]; simp
    | cons o os =>
      rw [scalarsAll, RShape.empty h (h0 _ (by rw [lays]; simp)), RShapes.empty hs (fun p hp => h0 p (by rw [lays]; simp [hp]))]
      rfl
end

/-! ### C types -/

mutual
theorem CShape.unique {A : Abi} {env : Env} {t : CT} {s s' : Shape} (h : CShape A env t s) (h' : CShape A env t s') : s = s' := by
  match h with
  | .base e => cases h' <;> simp_all
  | .const h => cases h' with | const h' => exact h.unique h'
  | .ptr => cases h'; rfl
  | .array h => 
    generalize ht : CT.array _ _ = t at h'
    cases h' with
    | array h' =>
      injection ht with e1 e2
      subst e2
      rw [nat_inj e1, h.unique h']
    | _ => cases ht
  | .enum e1 e2 => cases h' <;> simp_all
  | .alias e1 e2 h =>
    cases h' with
    | alias f1 f2 h' =>
      rw [e2] at f2
      injection f2 with f2; injection f2 with f2
      subst f2
      exact h.unique h'
    | _ => simp_all
  | .struct e1 e2 h =>
    cases h' with
    | struct f1 f2 h' =>
      rw [e2] at f2
      injection f2 with f2; injection f2 with f2
      subst f2
      rw [h.unique h']
    | _ => simp_all
theorem CShapes.unique {A : Abi} {env : Env} {ms : List (Text × CT)} {s s' : List Shape} (h : CShapes A env ms s) (h' : CShapes A env ms s') : s = s' := by
  match h with
  | .nil => cases h'; rfl
  | .cons h hs => cases h' with | cons h' hs' => rw [h.unique h', hs.unique hs']
end

/-! ### Both -/

/-- What the header must declare. -/
structure Defines (A : Abi) (P : Prog) (es : List Export) (env : Env) : Prop where
  base : ∀ t, Reach P es t → hasDef t = true → (baseTypes A).lookup (cName P.base t) = none
  array : ∀ n item, Reach P es (.array n item) →
    env.lookup (cName P.base (.array n item)) = some (.struct [(t!"idx", .array (nat n) (ctype P.base item))])
  alias : ∀ rn docs inner, Reach P es (.alias rn docs inner) →
    env.lookup (cName P.base (.alias rn docs inner)) = some (.alias (ctype P.base inner))
  enum : ∀ i g docs int vs, Reach P es (.adt i g) → P.decl i g = .enum docs int vs →
    env.lookup (cName P.base (.adt i g)) = some (match int with | none => .enum | some k => .alias (.name (cInt k)))
  struct : ∀ i g docs size fs, Reach P es (.adt i g) → P.decl i g = .struct docs size fs →
    env.lookup (cName P.base (.adt i g)) = some (.struct ((kept fs).map fun f => (f.name, ctype P.base f.ty))) ∧
      ∀ f ∈ fs, f.size = 0 → f.align ≤ 1

theorem base_int (A : Abi) (k : IntTy) : (baseTypes A).lookup (cInt k) = some (intScalar A k) := by cases k <;> rfl

theorem ctype_named {b : Nat → Text} {t : CTy} (h : hasDef t = true) : ctype b t = .name (cName b t) := by
  cases t with
  | array n item => rw [cName_array]; rfl
  | alias r d i => rw [cName_alias]; rfl
  | adt i g => rw [cName_adt]; rfl
  | _ => cases h

mutual
theorem RShape.same {A : Abi} {P : Prog} {es : List Export} {env : Env} (hd : Defines A P es env) {ty : CTy} {s : Shape} (h : RShape A P ty s)
    (hr : Reach P es ty) (h0 : (s.lay A).1 ≠ 0) : ∃ s', CShape A env (ctype P.base ty) s' ∧ SameAbi A s s' := by
  match h with
  | .int k => exact ⟨_, .base (base_int A k), .refl ..⟩
  | .float => exact ⟨_, .base rfl, .refl ..⟩
  | .double => exact ⟨_, .base rfl, .refl ..⟩
  | .bool => exact ⟨_, .base rfl, .refl ..⟩
  | .cint => exact ⟨_, .base rfl, .refl ..⟩
  | .cchar => exact ⟨_, .base rfl, .refl ..⟩
  | .fptr => exact ⟨_, .ptr, .refl ..⟩
  | .constPtr => exact ⟨_, .ptr, .refl ..⟩
  | .mutPtr => exact ⟨_, .ptr, .refl ..⟩
  | .void => simp [Shape.lay, lays, structLay, endFrom, maxAlign, roundUp] at h0
  | .array (n := n) (s := s) h =>
    obtain ⟨s', h1, h2⟩ := RShape.same hd h hr.item (by rw [Shape.lay] at h0; intro e; rw [e] at h0; exact h0 rfl)
    rw [ctype_named rfl]
    exact ⟨_, .struct (hd.base _ hr rfl) (hd.array _ _ hr) (.cons (.array h1) .nil), (h2.array n).wrap⟩
  | .alias h =>
    obtain ⟨s', h1, h2⟩ := RShape.same hd h hr.inner h0
    rw [ctype_named rfl]
    exact ⟨_, .alias (hd.base _ hr rfl) (hd.alias _ _ _ hr) h1, h2⟩
  | .enum (int := int) e =>
    have h1 := hd.enum _ _ _ _ _ hr e
    rw [ctype_named rfl]
    cases int with
    | none => exact ⟨_, .enum (hd.base _ hr rfl) h1, .refl ..⟩
    | some k => exact ⟨_, .alias (hd.base _ hr rfl) h1 (.base (base_int A k)), .refl ..⟩
  | .struct e h =>
    obtain ⟨h1, h2⟩ := hd.struct _ _ _ _ _ hr e
    obtain ⟨ss', h3, h4⟩ := RShapes.same hd h (fun f hf => hr.field e hf) h2
    rw [ctype_named rfl]
    exact ⟨_, .struct (hd.base _ hr rfl) h1 h3, h4.struct⟩
theorem RShapes.same {A : Abi} {P : Prog} {es : List Export} {env : Env} (hd : Defines A P es env) {fs : List Field} {ss : List Shape} (h : RShapes A P fs ss)
    (hr : ∀ f ∈ fs, Reach P es f.ty) (hz : ∀ f ∈ fs, f.size = 0 → f.align ≤ 1) :
    ∃ ss', CShapes A env ((kept fs).map fun f => (f.name, ctype P.base f.ty)) ss' ∧
      Drops A (fs.map (·.name)) ss ((kept fs).map (·.name)) ss' := by
  match h with
  | .nil => exact ⟨[], .nil, .nil⟩
  | .cons (f := f) (s := s) (fs := fs) h hl hs =>
    obtain ⟨ss', h1, h2⟩ := RShapes.same hd hs (fun f hf => hr f (by simp [hf])) (fun f hf => hz f (by simp [hf]))
    by_cases h0 : f.size = 0
    · have e : kept (f :: fs) = kept fs := by simp [kept, h0]
      have ha := hz f (by simp) h0
      have hp := (Shape.lay_good A s).1
      rw [← hl] at hp
      dsimp only at hp
      rw [e]
      refine ⟨ss', h1, .drop ?_ ?_ h2⟩
      · rw [← hl, h0]; congr; omega
      · exact RShape.empty h (by rw [← hl]; exact h0)
    · have e : kept (f :: fs) = f :: kept fs := by simp [kept, h0]
      have h0' : (s.lay A).1 ≠ 0 := by rw [← hl]; exact h0
      obtain ⟨s', h3, h4⟩ := RShape.same hd h (hr f (by simp)) h0'
      rw [e]
      exact ⟨s' :: ss', .cons h3 h1, .keep h0' h4 h2⟩
end

end Verif.Headers
