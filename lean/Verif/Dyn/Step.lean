import Verif.Dyn.Inv
import Verif.Util.Dec

/-! # The code refines the specification -/
namespace Verif.Dyn

section
variable {σ V : Type}

def Ok (S : Sem σ V) (a : Abs σ V) (op : Op σ V) : Prop :=
  step S (conc a) op = .ok (conc (a.step S op).1, (a.step S op).2) ∧ WF (a.step S op).1

theorem ok_illTyped {S : Sem σ V} {a : Abs σ V} {op : Op σ V} (W : WF a) {out : Out σ V}
    (h1 : step S (conc a) op = .ok (conc a, out)) (h2 : a.step S op = (a, out)) : Ok S a op := by
  unfold Ok; rw [h2]; exact ⟨h1, W⟩

theorem ok_of {S : Sem σ V} {a a' : Abs σ V} {op : Op σ V} {out : Out σ V} (h2 : a.step S op = (a', out))
    (h1 : step S (conc a) op = .ok (conc a', out)) (W : WF a') : Ok S a op := by
  unfold Ok; rw [h2]; exact ⟨h1, W⟩

theorem toArcFn_ok (S : Sem σ V) {a : Abs σ V} (W : WF a) (i : Nat) : Ok S a (.toArcFn i) := by
  cases hv : a.var i with
  | none => exact ok_illTyped (out := .illTyped) W (by simp [step, conc_var, hv]) (by simp [Abs.step, hv])
  | some v =>
    obtain ⟨o, ho, hf⟩ := W.obj i v hv
    have hcv := concVar_eq ho
    obtain ⟨k, f, b⟩ := v
    obtain ⟨t, own, st, l⟩ := o
    have hus := conc_usable a i ⟨k, f, b⟩ true
    cases hu : a.usable i ⟨k, f, b⟩ true with
    | false =>
      refine ok_illTyped (out := .illTyped) W ?_ ?_
      · simp [step, conc_var, hv, hus, hu]
      · simp only [Abs.step, hv, ho, hu]
        split <;> simp_all
    | true =>
      rw [hu] at hus
      cases f <;> (try cases own) <;> (try (
        refine ok_illTyped (out := .illTyped) W ?_ ?_
        · simp only [step, conc_var, hv, Option.map_some, hus]; simp [hcv, concVal]; done
        · simp [Abs.step, hv, ho]; done))
      simp only [FaceOk] at hf
      obtain ⟨_, hb⟩ := hf
      simp only at ho hb
      subst hb
      refine ok_of (a' := a.setVar i (some ⟨k, .arcFn true, none⟩)) (out := .unit) ?_ ?_ ?_
      · simp [Abs.step, hv, ho, hu]
      · rw [conc_setVar (w := ⟨k, .arcFn true, none⟩) hv ho rfl rfl]
        (simp only [step, conc_var, hv, Option.map_some, hus]; simp [hcv, concVal])
      · exact W.setVar hv ho rfl rfl rfl hu (by simp [FaceOk]) (by simp [canMut])

theorem toBoxFn_ok (S : Sem σ V) {a : Abs σ V} (W : WF a) (i : Nat) : Ok S a (.toBoxFn i) := by
  cases hv : a.var i with
  | none => exact ok_illTyped (out := .illTyped) W (by simp [step, conc_var, hv]) (by simp [Abs.step, hv])
  | some v =>
    obtain ⟨o, ho, hf⟩ := W.obj i v hv
    have hcv := concVar_eq ho
    obtain ⟨k, f, b⟩ := v
    obtain ⟨t, own, st, l⟩ := o
    have hus := conc_usable a i ⟨k, f, b⟩ true
    cases hu : a.usable i ⟨k, f, b⟩ true with
    | false =>
      refine ok_illTyped (out := .illTyped) W ?_ ?_
      · simp [step, conc_var, hv, hus, hu]
      · simp only [Abs.step, hv, ho, hu]
        split <;> simp_all
    | true =>
      rw [hu] at hus
      cases f <;> (try cases own) <;> (try (
        refine ok_illTyped (out := .illTyped) W ?_ ?_
        · simp only [step, conc_var, hv, Option.map_some, hus]; simp [hcv, concVal]; done
        · simp [Abs.step, hv, ho]; done))
      simp only [FaceOk] at hf
      obtain ⟨_, hb⟩ := hf
      simp only at ho hb
      subst hb
      refine ok_of (a' := a.setVar i (some ⟨k, .boxFn true true, none⟩)) (out := .unit) ?_ ?_ ?_
      · simp [Abs.step, hv, ho, hu]
      · rw [conc_setVar (w := ⟨k, .boxFn true true, none⟩) hv ho rfl rfl]
        (simp only [step, conc_var, hv, Option.map_some, hus]; simp [hcv, concVal])
      · exact W.setVar hv ho rfl rfl rfl hu (by simp [FaceOk]) (by simp [canMut])

/-- A new borrow of a local variable. -/
theorem WF.borrow {a : Abs σ V} (W : WF a) {i : Nat} {k t : Nat} {st : σ} {l : Bool} {f : Face} {ex : Bool}
    (hv : a.var i = some ⟨k, .rust, none⟩) (ho : a.objs[k]? = some ⟨t, .stack, st, l⟩)
    (hu : a.usable i ⟨k, .rust, none⟩ ex = true) (hf : FaceOk .stack ⟨k, f, some ex⟩) :
    WF (a.push ⟨k, f, some ex⟩) := by
  obtain ⟨u1, u2⟩ := usable_iff.1 hu
  refine W.push ho hf (W.live (v := ⟨k, .rust, none⟩) hv) ?_ (fun h => by cases h) ?_
  · intro j u b c hj hk hb hc
    cases hc
    have := u2 rfl j u b hj hb hk
    exact ⟨this.2, this.1⟩
  · intro c x v ex' hx hxv hb hk he
    cases he
    by_cases hi : x.var = i
    · have := u1 c x hx hi
      exact ⟨this.2, this.1⟩
    · exfalso
      have := W.alias i x.var _ v _ (Ne.symm hi) hv hxv hk.symm rfl hb ho
      simp [canMut] at this

theorem toRefFn_ok (S : Sem σ V) {a : Abs σ V} (W : WF a) (i : Nat) : Ok S a (.toRefFn i) := by
  cases hv : a.var i with
  | none => exact ok_illTyped (out := .illTyped) W (by simp [step, conc_var, hv]) (by simp [Abs.step, hv])
  | some v =>
    obtain ⟨o, ho, hf⟩ := W.obj i v hv
    have hcv := concVar_eq ho
    obtain ⟨k, f, b⟩ := v
    obtain ⟨t, own, st, l⟩ := o
    have hus := conc_usable a i ⟨k, f, b⟩ true
    cases hu : a.usable i ⟨k, f, b⟩ true with
    | false =>
      refine ok_illTyped (out := .illTyped) W ?_ ?_
      · simp [step, conc_var, hv, hus, hu]
      · simp only [Abs.step, hv, ho, hu]
        split <;> simp_all
    | true =>
      rw [hu] at hus
      cases f <;> (try cases own) <;> (try (
        refine ok_illTyped (out := .illTyped) W ?_ ?_
        · simp only [step, conc_var, hv, Option.map_some, hus]; simp [hcv, concVal]; done
        · simp [Abs.step, hv, ho]; done))
      · simp only [FaceOk] at hf
        obtain ⟨_, hb⟩ := hf
        simp only at ho hb
        subst hb
        refine ok_of (a' := a.push ⟨k, .refFn, some true⟩) (out := .unit) ?_ ?_ ?_
        · simp [Abs.step, hv, ho, hu]
        · rw [conc_push_ref (v := ⟨k, .refFn, some true⟩) ho rfl]
          (simp only [step, conc_var, hv, Option.map_some, hus]; simp [hcv, concVal])
        · exact W.borrow hv ho hu (by simp [FaceOk])
      · simp [FaceOk] at hf

theorem toVptr_ok (S : Sem σ V) {a : Abs σ V} (W : WF a) (i : Nat) (d : Decl) : Ok S a (.toVptr i d) := by
  cases hv : a.var i with
  | none => exact ok_illTyped (out := .illTyped) W (by simp [step, conc_var, hv]) (by simp [Abs.step, hv])
  | some v =>
    obtain ⟨o, ho, hf⟩ := W.obj i v hv
    have hcv := concVar_eq ho
    obtain ⟨k, f, b⟩ := v
    obtain ⟨t, own, st, l⟩ := o
    have hus := conc_usable a i ⟨k, f, b⟩ true
    cases hu : a.usable i ⟨k, f, b⟩ true with
    | false =>
      refine ok_illTyped (out := .illTyped) W ?_ ?_
      · simp [step, conc_var, hv, hus, hu]
      · simp only [Abs.step, hv, ho, hu]
        split
        · split <;> simp_all
        · rfl
    | true =>
      rw [hu] at hus
      cases f
      case rust =>
        have hb : b = none := by simp only [FaceOk] at hf; exact hf.2
        simp only at ho
        subst hb
        cases hc : coercion own with
        | none =>
          refine ok_illTyped (out := .illTyped) W ?_ ?_
          · cases own <;> simp [coercion] at hc <;> (simp only [step, conc_var, hv, Option.map_some, hus]; simp [hcv, concVal])
          · simp [Abs.step, hv, ho, hc]
        | some src =>
          cases he : d.generated && src.isEligible d with
          | false =>
            refine ok_illTyped (out := .illTyped) W ?_ ?_
            · cases own <;> simp [coercion] at hc <;> subst hc <;>
                (simp only [step, conc_var, hv, Option.map_some, hus]; simp [hcv, concVal]) <;>
                intro h1 <;> simpa [h1] using he
            · simp only [Abs.step, hv, ho, hc, he, hu]
              simp
          | true =>
            have he' := he
            simp only [Bool.and_eq_true] at he'
            refine ok_of (a' := a.setVar i (some ⟨k, .vptr d, none⟩)) (out := .unit) ?_ ?_ ?_
            · simp only [Abs.step, hv, ho, hc, he, hu]
              simp
            · rw [conc_setVar (w := ⟨k, .vptr d, none⟩) hv ho rfl rfl]
              cases own <;> simp [coercion] at hc <;> subst hc <;>
                (simp only [step, conc_var, hv, Option.map_some, hus]; simp [hcv, concVal, he', srcOf])
            · refine W.setVar hv ho rfl rfl rfl hu (by simp [FaceOk, hc, he'.2]) ?_
              cases own <;> simp [coercion] at hc <;> subst hc <;> simp [canMut]
              all_goals (simp [Coercible.isEligible] at he'; simp [he'])
      all_goals
        exact ok_illTyped (out := .illTyped) W (by (simp only [step, conc_var, hv, Option.map_some, hus]; simp [hcv, concVal]))
          (by simp [Abs.step, hv, ho])

theorem refVptr_ok (S : Sem σ V) {a : Abs σ V} (W : WF a) (i : Nat) (d : Decl) (mt : Bool) :
    Ok S a (.refVptr i d mt) := by
  cases hv : a.var i with
  | none => exact ok_illTyped (out := .illTyped) W (by simp [step, conc_var, hv]) (by simp [Abs.step, hv])
  | some v =>
    obtain ⟨o, ho, hf⟩ := W.obj i v hv
    have hcv := concVar_eq ho
    obtain ⟨k, f, b⟩ := v
    obtain ⟨t, own, st, l⟩ := o
    have hus := conc_usable a i ⟨k, f, b⟩ mt
    cases hu : a.usable i ⟨k, f, b⟩ mt with
    | false =>
      refine ok_illTyped (out := .illTyped) W ?_ ?_
      · simp [step, conc_var, hv, hus, hu]
      · simp only [Abs.step, hv, ho, hu]
        split <;> simp_all
    | true =>
      rw [hu] at hus
      cases f <;> (try cases own) <;> (try (
        refine ok_illTyped (out := .illTyped) W ?_ ?_
        · simp only [step, conc_var, hv, Option.map_some, hus]; simp [hcv, concVal]; done
        · simp [Abs.step, hv, ho]; done))
      · simp only [FaceOk] at hf
        obtain ⟨_, hb⟩ := hf
        simp only at ho hb
        subst hb
        cases he : d.generated && (Coercible.ref mt).isEligible d with
        | false =>
          refine ok_illTyped (out := .illTyped) W ?_ ?_
          · simp only [step, conc_var, hv, Option.map_some, hus]; simp [hcv, concVal]; simpa using he
          · simp only [Abs.step, hv, ho, he, hu]; simp
        | true =>
          refine ok_of (a' := a.push ⟨k, .vptr d, some mt⟩) (out := .unit) ?_ ?_ ?_
          · simp only [Abs.step, hv, ho, he, hu]; simp
          · rw [conc_push_ref (v := ⟨k, .vptr d, some mt⟩) ho rfl]
            simp only [step, conc_var, hv, Option.map_some, hus]; simp [hcv, concVal, srcOf]; simpa using he
          · simp only [Bool.and_eq_true] at he
            exact W.borrow hv ho hu (by simp [FaceOk, he.2])
      · simp [FaceOk] at hf

/-- A copy of a handle which never gives exclusive access. -/
theorem WF.dup {a : Abs σ V} (W : WF a) {i : Nat} {v : AVal} {o : AObj σ} (hv : a.var i = some v)
    (ho : a.objs[v.obj]? = some o) (hf : FaceOk o.own v) (hb : v.borrow ≠ some true) (hm : canMut o.own v = false) :
    WF (a.push v) := by
  refine W.push ho hf (W.live hv) ?_ ?_ ?_
  · intro j u b c hj hk h1 h2
    cases c with
    | true => exact absurd h2 hb
    | false =>
      by_cases hij : j = i
      · subst hij; rw [hv] at hj; cases hj; rw [h1] at h2; cases h2; exact ⟨rfl, rfl⟩
      · exact W.excl j i u v b false hij hj hv hk h1 h2
  · intro h1 j u hj hk h2
    by_cases hij : j = i
    · subst hij; rw [hv] at hj; cases hj; exact ⟨hm, hm⟩
    · exact ⟨W.alias j i u v o hij hj hv hk h2 h1 (by rw [hk]; exact ho), hm⟩
  · intro c x u ex hx hu h1 hk h2
    exact W.actOwner c x u i v ex hx hu h1 hv hk.symm h2

theorem clone_ok (S : Sem σ V) {a : Abs σ V} (W : WF a) (i : Nat) : Ok S a (.clone i) := by
  cases hv : a.var i with
  | none => exact ok_illTyped (out := .illTyped) W (by simp [step, conc_var, hv]) (by simp [Abs.step, hv])
  | some v =>
    obtain ⟨o, ho, hf⟩ := W.obj i v hv
    have hcv := concVar_eq ho
    have hus := conc_usable a i v false
    cases hu : a.usable i v false with
    | false =>
      exact ok_illTyped (out := .illTyped) W (by simp [step, State.clone, conc_var, hv, hus, hu])
        (by simp [Abs.step, hv, ho, hu])
    | true =>
      rw [hu] at hus
      have hl := W.live hv
      have hinc := incr_ok ho hl
      have hobj := object_ok ho hl
      have hq := W.quiet hv ho hu (by simp)
      rw [← conc_quiet] at hq
      have hdup := W.dup hv ho hf
      have hconc := conc_push ho
      have hconcr := fun ex => conc_push_ref ho (ex := ex)
      obtain ⟨k, f, b⟩ := v
      obtain ⟨t, own, st, l⟩ := o
      simp only at ho hinc hobj hq hdup hconc hconcr
      cases f with
      | rust =>
        have hb : b = none := by simp only [FaceOk] at hf; exact hf.2
        subst hb
        cases own
        case rc | arc =>
          refine ok_of (a' := a.push _) (out := .unit) (by simp [Abs.step, hv, ho, hu]) ?_ (hdup (by simp) (by simp [canMut]))
          rw [hconc rfl]
          (simp only [step, State.clone, conc_var, hv, Option.map_some, hus]; simp [hcv, concVal, hinc, bind, Except.bind])
        all_goals
          exact ok_illTyped (out := .illTyped) W
            (by (simp only [step, State.clone, conc_var, hv, Option.map_some, hus]; simp [hcv, concVal])) (by simp [Abs.step, hv, ho, hu])
      | arcFn c =>
        have hb : b = none := by simp only [FaceOk] at hf; exact hf.2
        subst hb
        cases c with
        | true =>
          refine ok_of (a' := a.push _) (out := .unit) (by simp [Abs.step, hv, ho, hu]) ?_ (hdup (by simp) (by simp [canMut]))
          rw [hconc rfl]
          have : own = .arc ∨ own = .foreign := by simpa [FaceOk] using hf
          rcases this with rfl | rfl <;>
            (simp only [step, State.clone, conc_var, hv, Option.map_some, hus]; simp [hcv, concVal, hinc, bind, Except.bind, ArcFn.new,
              ArcFn.foreign, State.retain, pure, Except.pure])
        | false =>
          have : own = .foreign := by simpa [FaceOk] using hf
          subst this
          exact ok_illTyped (out := .panicked) W
            (by (simp only [step, State.clone, conc_var, hv, Option.map_some, hus]; simp [hcv, concVal, ArcFn.foreign]))
            (by simp [Abs.step, hv, ho, hu])
      | boxFn c f =>
        exact ok_illTyped (out := .illTyped) W
          (by (simp only [step, State.clone, conc_var, hv, Option.map_some, hus]; simp [hcv, concVal])) (by simp [Abs.step, hv, ho, hu])
      | refFn =>
        exact ok_illTyped (out := .illTyped) W
          (by (simp only [step, State.clone, conc_var, hv, Option.map_some, hus]; simp [hcv, concVal])) (by simp [Abs.step, hv, ho, hu])
      | vptr d =>
        cases hd : d.clone with
        | false =>
          exact ok_illTyped (out := .illTyped) W
            (by (simp only [step, State.clone, conc_var, hv, Option.map_some, hus]; simp [hcv, concVal, intoVirtualPtr, vtable, hd]))
            (by simp [Abs.step, hv, ho, hu, hd])
        | true =>
          simp only [FaceOk] at hf
          rcases hf with ⟨ex, hb, ho', he⟩ | ⟨hb, src, hc, he⟩
          · subst hb; subst ho'
            cases ex with
            | true => simp [Coercible.isEligible, hd] at he
            | false =>
              refine ok_of (a' := a.push _) (out := .unit) (by simp [Abs.step, hv, ho, hu, hd]) ?_
                (hdup (by simp) (by simp [canMut, eligible_ref_false he]))
              rw [hconcr false rfl]
              (simp only [step, State.clone, conc_var, hv, Option.map_some, hus]; simp [hcv, concVal, bind, Except.bind, intoVirtualPtr,
                vtable, hd, srcOf, Coercible.retain, State.retain])
          · subst hb
            cases own <;> simp [coercion] at hc <;> subst hc
            case box =>
              refine ok_of (a' := a.create t .box (S.clone t st) (.vptr d)) (out := .unit) (by simp [Abs.step, hv, ho, hu, hd]) ?_
                (W.create _ _ _ _ (by simp [FaceOk, coercion, he]))
              rw [conc_create W]
              (simp only [step, State.clone, conc_var, hv, Option.map_some, hus]; simp [hcv, concVal, bind, Except.bind, intoVirtualPtr,
                vtable, hd, srcOf, Coercible.retain, State.retain, hobj, hq])
              simp [concObj]
            all_goals
              refine ok_of (a' := a.push _) (out := .unit) (by simp [Abs.step, hv, ho, hu, hd]) ?_
                (hdup (by simp) (by simp [canMut, eligible_rc he]))
              rw [hconc rfl]
              (simp only [step, State.clone, conc_var, hv, Option.map_some, hus]; simp [hcv, concVal, bind, Except.bind, intoVirtualPtr,
                vtable, hd, srcOf, Coercible.retain, State.retain, hinc, pure, Except.pure])

/-! ## Calls -/

theorem lookupArg_cons_ne {names : List String} {args : List V} {x y : String} {v : V} (h : y ≠ x) :
    lookupArg (y :: names) (v :: args) x = lookupArg names args x := by
  simp [lookupArg, h]

theorem lookup_all (names : List String) (args : List V) (hn : names.Nodup) (hl : names.length = args.length) :
    names.mapM (lookupArg names args) = some args := by
  induction names generalizing args with
  | nil => cases args with
    | nil => rfl
    | cons _ _ => simp at hl
  | cons y names ih =>
    cases args with
    | nil => simp at hl
    | cons v args =>
      rw [List.nodup_cons] at hn
      have e : names.mapM (lookupArg (y :: names) (v :: args)) = names.mapM (lookupArg names args) := by
        rw [← List.mapM'_eq_mapM, ← List.mapM'_eq_mapM]
        have : ∀ l : List String, (∀ x ∈ l, y ≠ x) →
            l.mapM' (lookupArg (y :: names) (v :: args)) = l.mapM' (lookupArg names args) := by
          intro l
          induction l with
          | nil => intro _; rfl
          | cons z l ih =>
            intro h
            simp only [List.mapM'_cons, lookupArg_cons_ne (h z (by simp)), ih (fun x hx => h x (by simp [hx]))]
        exact this names (fun x hx e => hn.1 (e ▸ hx))
      have h1 : lookupArg (y :: names) (v :: args) y = some v := by simp [lookupArg]
      simp [List.mapM_cons, e, ih args hn.2 (by simpa using hl), h1]

theorem argNames_nodup (n : Nat) : (argNames n).Nodup := by
  refine List.Pairwise.map _ ?_ List.nodup_range
  intro a b hab h
  apply hab
  have := toString_inj ((String.append_right_inj _).1 h)
  omega

theorem forwardArgs_eq (args : List V) : forwardArgs args = some args :=
  lookup_all _ _ (argNames_nodup _) (by simp [argNames])

theorem thunkArgs_eq (args : List V) : thunkArgs args = some args :=
  lookup_all _ _ (argNames_nodup _) (by simp [argNames])

theorem passed_eq (v : Val) (args : List V) : v.passed args = some args := by
  cases v <;> simp [Val.passed, forwardArgs_eq, thunkArgs_eq]

theorem find_methods (l : List (String × Bool)) (t : Nat) (name : String) :
    ((l.map fun m => (m.1, FnPtr.method t m.1)).find? (·.1 == name)) =
      (l.find? (·.1 == name)).map fun m => (m.1, FnPtr.method t m.1) := by
  induction l with
  | nil => rfl
  | cons x l ih =>
    simp only [List.map_cons, List.find?_cons]
    split <;> simp_all

/-- The receiver of a call is exclusive only on handles that allow it. -/
theorem receiver_canMut {own : Own} {v : AVal} {name : String} {mt : Bool}
    (h : v.receiver own name mt = some true) : canMut own v = true := by
  obtain ⟨k, f, b⟩ := v
  simp only [AVal.receiver] at h
  simp only [canMut]
  cases f with
  | rust => cases own <;> simp_all
  | arcFn _ => simp_all
  | boxFn _ _ => rfl
  | refFn => rfl
  | vptr d =>
    simp only [Option.map_eq_some_iff] at h
    obtain ⟨m, h1, h2⟩ := h
    simp only [Decl.hasMut, List.any_eq_true]
    exact ⟨m, List.mem_of_find?_eq_some h1, h2⟩

/-- Which function a call expression jumps to. -/
def AVal.target (own : Own) (t : Nat) (v : AVal) (name : String) : FnPtr :=
  match v.face with
  | .rust | .vptr _ => .method t name
  | .arcFn _ => if own = .arc then .arcCall t else .foreignCall t
  | .boxFn _ _ => if own = .box then .boxCall t else .foreignCall t
  | .refFn => .refCall t

theorem callee_none {own : Own} {t : Nat} {v : AVal} {name : String} {mt : Bool} (hf : FaceOk own v)
    (h : v.receiver own name mt = none) : (concVal own t v).callee name mt = .illTyped := by
  obtain ⟨k, f, b⟩ := v
  cases f with
  | rust => cases own <;> simp_all [AVal.receiver, concVal, Val.callee, FaceOk]
  | arcFn c => simp_all [AVal.receiver, concVal, Val.callee]
  | boxFn c f => simp_all [AVal.receiver, concVal, Val.callee]
  | refFn => simp_all [AVal.receiver, concVal, Val.callee]
  | vptr d =>
    simp only [AVal.receiver, Option.map_eq_none_iff] at h
    simp [concVal, Val.callee, h]

theorem callee_some {own : Own} {t : Nat} {v : AVal} {name : String} {mt m : Bool} (hf : FaceOk own v)
    (h : v.receiver own name mt = some m) (hn : ∀ f, v.face ≠ .boxFn false f) :
    (concVal own t v).callee name mt = .jump (v.target own t name) v.obj m ∧
    (v.target own t name).code = .ok (t, name) := by
  obtain ⟨k, f, b⟩ := v
  cases f with
  | rust => cases own <;> simp_all [AVal.receiver, concVal, Val.callee, FaceOk, AVal.target, FnPtr.code]
  | arcFn c =>
    have : own = .arc ∨ own = .foreign := by
      simp only [FaceOk] at hf; rcases hf.1 with h | h <;> simp [h]
    rcases this with rfl | rfl <;>
      simp_all [AVal.receiver, concVal, Val.callee, AVal.target, FnPtr.code, ArcFn.new, ArcFn.foreign]
  | boxFn c f =>
    have hc : c = true := by
      cases c
      · exact absurd rfl (hn f)
      · rfl
    subst hc
    have : own = .box ∨ own = .foreign := by
      simp only [FaceOk] at hf; rcases hf.1 with h | h <;> simp [h]
    rcases this with rfl | rfl <;>
      simp_all [AVal.receiver, concVal, Val.callee, AVal.target, FnPtr.code, BoxFn.new, BoxFn.foreign]
  | refFn => simp_all [AVal.receiver, concVal, Val.callee, AVal.target, FnPtr.code, RefFn.new]
  | vptr d =>
    simp only [AVal.receiver, Option.map_eq_some_iff] at h
    obtain ⟨x, h1, h2⟩ := h
    have hx := List.find?_some h1
    simp only [beq_iff_eq] at hx
    have e := find_methods d.methods t name
    rw [h1] at e
    obtain ⟨x1, x2⟩ := x
    simp only at hx h2
    subst hx; subst h2
    simp [concVal, Val.callee, h1, AVal.target, FnPtr.code, intoVirtualPtr, vtable, e]

theorem callee_panic {own : Own} {t k : Nat} {b : Option Bool} {g : Bool} {name : String} {mt m : Bool}
    (hf : FaceOk own ⟨k, .boxFn false g, b⟩) (h : AVal.receiver own ⟨k, .boxFn false g, b⟩ name mt = some m) :
    (concVal own t ⟨k, .boxFn false g, b⟩).callee name mt = .panic ∧ m = true := by
  have : own = .foreign := by simp only [FaceOk] at hf; rcases hf.1 with h | h; exact absurd h.2.1 (by simp); exact h
  subst this
  simp_all [AVal.receiver, concVal, Val.callee, BoxFn.foreign]

theorem enter_ok (S : Sem σ V) {a : Abs σ V} (W : WF a) (i : Nat) (name : String) (args : List V) (mt : Bool) :
    Ok S a (.enter i name args mt) := by
  cases hv : a.var i with
  | none => exact ok_illTyped (out := .illTyped) W (by simp [step, conc_var, hv]) (by simp [Abs.step, hv])
  | some v =>
    obtain ⟨o, ho, hf⟩ := W.obj i v hv
    have hcv := concVar_eq ho
    cases hr : v.receiver o.own name mt with
    | none =>
      exact ok_illTyped (out := .illTyped) W (by simp [step, conc_var, hv, hcv, callee_none hf hr])
        (by simp [Abs.step, hv, ho, hr])
    | some m =>
      have hus := conc_usable a i v m
      cases hp : v.face == .boxFn false true || v.face == .boxFn false false with
      | true =>
        obtain ⟨k, f, b⟩ := v
        have : ∃ g, f = .boxFn false g := by
          simp only [Bool.or_eq_true, beq_iff_eq] at hp
          rcases hp with h | h
          · exact ⟨true, h⟩
          · exact ⟨false, h⟩
        obtain ⟨g, rfl⟩ := this
        obtain ⟨h1, h2⟩ := callee_panic (t := o.ty) hf hr
        subst h2
        rw [hcv] at hus
        simp only at ho
        cases hu : a.usable i ⟨k, .boxFn false g, b⟩ true with
        | false =>
          exact ok_illTyped (out := .illTyped) W (by simp [step, conc_var, hv, hcv, h1, hus, hu])
            (by simp [Abs.step, hv, ho, hr, hu])
        | true =>
          exact ok_illTyped (out := .panicked) W (by simp [step, conc_var, hv, hcv, h1, hus, hu])
            (by simp [Abs.step, hv, ho, hr, hu])
      | false =>
        have hn : ∀ f, v.face ≠ .boxFn false f := by
          intro f h
          rw [h] at hp
          cases f <;> simp at hp
        obtain ⟨h1, h2⟩ := callee_some (t := o.ty) hf hr hn
        cases hu : a.usable i v m with
        | false =>
          rw [hcv, hu] at hus
          exact ok_illTyped (out := .illTyped) W (by simp [step, conc_var, hv, hcv, h1, hus, passed_eq])
            (by simp [Abs.step, hv, ho, hr, hu])
        | true =>
          have hm : m = true → canMut o.own v = true := by rintro rfl; exact receiver_canMut hr
          have hq := W.quiet hv ho hu hm
          rw [← conc_quiet] at hq
          refine ok_of (a' := { a with acts := a.acts ++ [some ⟨i, v.obj, name, args, m⟩] }) (out := .unit) ?_ ?_
            (W.enter hv ho hu hm name args)
          · simp [Abs.step, hv, ho, hr, hu]
          · rw [hcv, hu] at hus
            simp only [step, conc_var, hv, Option.map_some, hcv, h1, passed_eq, hus, if_true, State.jump, h2, bind,
              Except.bind, object_ok ho (W.live hv), hq]
            congr 1
            congr 1
            refine State.ext' rfl rfl ?_
            simp [conc, concAct, Abs.sig, ho]
            intro x _
            cases x <;> rfl

theorem conc_setObj {a : Abs σ V} {k : Nat} {o : AObj σ} (ho : a.objs[k]? = some o) (st : σ) :
    conc { a with objs := a.objs.set k { o with st := st } } =
      { conc a with heap := (conc a).heap.set k { concObj a k o with st := st } } := by
  have hs : Abs.sig { a with objs := a.objs.set k { o with st := st } } = a.sig := by
    funext l
    simp only [Abs.sig, List.getElem?_set]
    by_cases hk : k = l
    · subst hk; rw [ho]; simp [(List.getElem?_eq_some_iff.1 ho).1]
    · simp [hk]
  refine State.ext' ?_ ?_ ?_
  · apply List.ext_getElem?
    intro l
    rw [conc_heap]
    simp only [List.getElem?_set, heap_length]
    by_cases hk : k = l
    · subst hk; simp [(List.getElem?_eq_some_iff.1 ho).1, concObj]; rfl
    · simp only [hk, if_false, conc_heap]; rfl
  · simp only [conc, hs]
  · simp only [conc, hs]

theorem leave_ok (S : Sem σ V) {a : Abs σ V} (W : WF a) (c : Nat) : Ok S a (.leave c) := by
  cases hx : a.act c with
  | none => exact ok_illTyped (out := .illTyped) W (by simp [step, conc_act, hx]) (by simp [Abs.step, hx])
  | some x =>
    obtain ⟨v, o, hv, hk, ho, _⟩ := W.acts c x hx
    rw [hk] at ho
    have hl := W.live hv
    rw [hk] at hl
    refine ok_of (a' := { a with objs := a.objs.set x.obj { o with st := (S.call o.ty x.name o.st x.args).1 }, acts := a.acts.set c none })
      (out := .returned (S.call o.ty x.name o.st x.args).2) ?_ ?_ ?_
    · simp [Abs.step, hx, ho]
    · have hty : (concAct a.sig x).ty = o.ty := by simp [concAct, Abs.sig, ho]
      simp only [step, conc_act, hx, Option.map_some, hty, bind, Except.bind]
      rw [show (concAct a.sig x).obj = x.obj from rfl, object_ok ho hl]
      have e := conc_setObj ho (S.call o.ty x.name o.st x.args).1
      dsimp only
      refine congrArg Except.ok (Prod.ext ?_ rfl)
      have h1 := congrArg State.heap e
      have h2 := congrArg State.vars e
      have h3 := congrArg State.acts e
      refine State.ext' ?_ ?_ ?_
      · exact h1.symm
      · exact h2.symm
      · have : (conc { a with objs := a.objs.set x.obj { o with st := (S.call o.ty x.name o.st x.args).1 }, acts := a.acts.set c none }).acts
            = ((conc { a with objs := a.objs.set x.obj { o with st := (S.call o.ty x.name o.st x.args).1 } }).acts).set c none := by
          simp only [conc, List.map_set]; rfl
        rw [this, h3]
    · have W1 := W.setObj (o' := { o with st := (S.call o.ty x.name o.st x.args).1 }) ho rfl (fun h => W.leak _ _ ho h)
      exact WF.leave W1 (c := c) (x := x) hx

theorem conc_leak {a : Abs σ V} {k : Nat} {o : AObj σ} (ho : a.objs[k]? = some o) (hl : o.leaked = false) :
    conc { a with objs := a.objs.set k { o with leaked := true } } =
      { conc a with heap := (conc a).heap.set k { concObj a k o with cnt := (concObj a k o).cnt + 1 } } := by
  have hs : Abs.sig { a with objs := a.objs.set k { o with leaked := true } } = a.sig := by
    funext l
    simp only [Abs.sig, List.getElem?_set]
    by_cases hk : k = l
    · subst hk; rw [ho]; simp [(List.getElem?_eq_some_iff.1 ho).1]
    · simp [hk]
  refine State.ext' ?_ ?_ ?_
  · apply List.ext_getElem?
    intro l
    rw [conc_heap]
    simp only [List.getElem?_set, heap_length]
    by_cases hk : k = l
    · subst hk; simp [(List.getElem?_eq_some_iff.1 ho).1, concObj, hl]; rfl
    · simp only [hk, if_false, conc_heap]; rfl
  · simp only [conc, hs]
  · simp only [conc, hs]

theorem drop_ok (S : Sem σ V) {a : Abs σ V} (W : WF a) (i : Nat) : Ok S a (.drop i) := by
  cases hv : a.var i with
  | none => exact ok_illTyped (out := .illTyped) W (by simp [step, conc_var, hv]) (by simp [Abs.step, hv])
  | some v =>
    obtain ⟨o, ho, hf⟩ := W.obj i v hv
    have hcv := concVar_eq ho
    have hus := conc_usable a i v true
    cases hu : a.usable i v true with
    | false =>
      exact ok_illTyped (out := .illTyped) W (by simp [step, State.drop, conc_var, hv, hus, hu])
        (by simp [Abs.step, hv, ho, hu])
    | true =>
      rw [hu] at hus
      have W' := W.del hv hu
      by_cases hp : ∃ c, v.face = .boxFn c false
      · obtain ⟨c, hp⟩ := hp
        have hfb : o.own = .foreign ∧ v.borrow = none := by
          unfold FaceOk at hf; rw [hp] at hf; simpa using hf
        have hl := W.notLeaked hv ho
        have hown := owners_del hv v.obj
        simp only [AVal.own1, hfb.2, and_self, if_true] at hown
        have h0 : (a.setVar i none).owners v.obj = 0 := by
          rcases Nat.eq_zero_or_pos ((a.setVar i none).owners v.obj) with h | h
          · exact h
          · obtain ⟨j, w, h1, h2, h3⟩ := owners_pos.1 h
            rw [var_setVar hv] at h1
            split at h1
            · cases h1
            · rename_i hij
              have := W.alias i j v w o hij hv h1 h2.symm hfb.2 h3 ho
              simp [canMut, hp] at this
        have ho' : (a.setVar i none).objs[v.obj]? = some o := ho
        refine ok_of (a' := { a.setVar i none with objs := a.objs.set v.obj { o with leaked := true } }) (out := .panicked) ?_ ?_
          (W'.setObj ho' rfl (fun _ => ⟨h0, hfb.1⟩))
        · simp [Abs.step, hv, ho, hu, hp]
        · have e := conc_leak ho' hl
          rw [show ({ a.setVar i none with objs := a.objs.set v.obj { o with leaked := true } } : Abs σ V)
            = { a.setVar i none with objs := (a.setVar i none).objs.set v.obj { o with leaked := true } } from rfl, e]
          obtain ⟨k, f, b⟩ := v
          simp only at hp hfb ho
          subst hp
          obtain ⟨rfl⟩ := hfb.2
          (simp only [step, State.drop, conc_var, hv, Option.map_some, hus]; simp [hcv, concVal, hfb.1, BoxFn.foreign])
          refine State.ext' ?_ ?_ ?_
          · have := congrArg State.heap (conc_del hv ho rfl)
            simp only [State.set] at this ⊢
            rw [this]
            apply List.ext_getElem?
            intro l
            simp only [List.getElem?_set, List.length_set, heap_length, conc_heap]
            by_cases hk : k = l
            · subst hk
              simp only [(List.getElem?_eq_some_iff.1 ho).1, if_true, ho, Option.map_some, concObj, h0, hl]
              simp only [Bool.toNat_false]
              simp only at hown
              rw [← hown, h0]
            · simp [hk]
          · rw [conc_del hv ho rfl]; rfl
          · rw [conc_del hv ho rfl]; rfl
      · have hstep : a.step S (.drop i) = (a.setVar i none,
            .dropped (if v.borrow.isNone && (a.setVar i none).owners v.obj == 0 then some o.st else none)) := by
          simp only [Abs.step, hv, ho, hu]
          simp only [Bool.not_true, Bool.false_eq_true, if_false]
          split
          · rename_i c h; exact absurd ⟨c, h⟩ hp
          · rfl
        refine ok_of hstep ?_ W'
        cases hb : v.borrow with
        | some ex =>
          rw [conc_del_ref hv (by rw [hb]; simp)]
          obtain ⟨k, f, b⟩ := v
          simp only at hb ho
          subst hb
          cases f with
          | refFn => (simp only [step, State.drop, conc_var, hv, Option.map_some, hus]; simp [hcv, concVal])
          | vptr d =>
            (simp only [step, State.drop, conc_var, hv, Option.map_some, hus]; simp [hcv, concVal, srcOf, intoVirtualPtr, vtable,
              Coercible.release, State.release, bind, Except.bind])
          | _ => simp [FaceOk] at hf
        | none =>
          rw [conc_del hv ho hb]
          have hd := decr_ok W hv ho hb hu
          rw [hb] at hd
          obtain ⟨k, f, b⟩ := v
          obtain ⟨t, own, st, l⟩ := o
          simp only at hb ho hd
          subst hb
          cases f with
          | rust =>
            cases own <;> simp [FaceOk] at hf <;>
              (simp only [step, State.drop, conc_var, hv, Option.map_some, hus]; simp [hcv, concVal, bind, Except.bind, hd])
          | arcFn c =>
            have : own = .arc ∨ own = .foreign := by
              simp only [FaceOk] at hf; rcases hf.1 with h | h <;> simp [h]
            rcases this with rfl | rfl <;>
              (simp only [step, State.drop, conc_var, hv, Option.map_some, hus]; simp [hcv, concVal, bind, Except.bind, hd, ArcFn.new,
                ArcFn.foreign, State.release])
          | boxFn c g =>
            have hg : g = true := by
              cases g
              · exact absurd ⟨c, rfl⟩ hp
              · rfl
            subst hg
            have : own = .box ∨ own = .foreign := by
              simp only [FaceOk] at hf; rcases hf.1 with h | h <;> simp [h]
            rcases this with rfl | rfl <;>
              (simp only [step, State.drop, conc_var, hv, Option.map_some, hus]; simp [hcv, concVal, bind, Except.bind, hd, BoxFn.new,
                BoxFn.foreign, State.release])
          | refFn => simp [FaceOk] at hf
          | vptr d =>
            simp only [FaceOk] at hf
            rcases hf with ⟨ex, hb, _⟩ | ⟨_, src, hc, he⟩
            · cases hb
            · cases own <;> simp [coercion] at hc <;> subst hc <;>
              (simp only [step, State.drop, conc_var, hv, Option.map_some, hus]; simp [hcv, concVal, bind, Except.bind, hd, srcOf,
                intoVirtualPtr, vtable, Coercible.release, State.release])

theorem step_ok (S : Sem σ V) {a : Abs σ V} (W : WF a) (op : Op σ V) : Ok S a op := by
  cases op with
  | newBox t st => exact ok_of rfl (by rw [conc_create W]; rfl) (W.create _ _ _ _ (by simp [FaceOk]))
  | newRc t st => exact ok_of rfl (by rw [conc_create W]; rfl) (W.create _ _ _ _ (by simp [FaceOk]))
  | newArc t st => exact ok_of rfl (by rw [conc_create W]; rfl) (W.create _ _ _ _ (by simp [FaceOk]))
  | newStack t st => exact ok_of rfl (by rw [conc_create W]; rfl) (W.create _ _ _ _ (by simp [FaceOk]))
  | foreignArc t st r => exact ok_of rfl (by rw [conc_create W]; rfl) (W.create _ _ _ _ (by simp [FaceOk]))
  | foreignBox t st c f => exact ok_of rfl (by rw [conc_create W]; rfl) (W.create _ _ _ _ (by simp [FaceOk]))
  | toArcFn i => exact toArcFn_ok S W i
  | toBoxFn i => exact toBoxFn_ok S W i
  | toRefFn i => exact toRefFn_ok S W i
  | toVptr i d => exact toVptr_ok S W i d
  | refVptr i d mt => exact refVptr_ok S W i d mt
  | clone i => exact clone_ok S W i
  | enter i name args mt => exact enter_ok S W i name args mt
  | leave c => exact leave_ok S W c
  | drop i => exact drop_ok S W i

theorem run_ok (S : Sem σ V) {a : Abs σ V} (W : WF a) (ops : List (Op σ V)) :
    run S (conc a) ops = .ok (conc (a.run S ops).1, (a.run S ops).2) ∧ WF (a.run S ops).1 := by
  induction ops generalizing a with
  | nil => exact ⟨rfl, W⟩
  | cons op ops ih =>
    obtain ⟨h1, W1⟩ := step_ok S W op
    obtain ⟨h2, W2⟩ := ih W1
    simp only [run, h1, h2, bind, Except.bind, Abs.run]
    exact ⟨trivial, W2⟩
end
end Verif.Dyn
