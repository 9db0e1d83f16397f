import Verif.Headers.RecLemmas
/-!
# Header generation for recursive types ends
-/
namespace Verif.Headers
open Text

/-- How many of the names are not registered. -/
def missing (ns : List Text) (st : St) : Nat := (ns.filter (· ∉ st.defined)).length

/-- With a writer that never fails, and fewer than `m` names of declared types to register: the run succeeds, registers no names
of functions, and keeps those that are registered. -/
def Ends (o : Order) (ns : List Text) (m : Nat) (a : Act) : Prop := ∀ st, missing ns st < m → (a okSink st).2 = none ∧
  (∀ n, n ∈ (a okSink st).1.defined → (o.kind n = .function ∧ n ∉ st.defined) → False) ∧ ∀ n ∈ st.defined, n ∈ (a okSink st).1.defined

theorem missing_le {ns : List Text} {st st' : St} (h : ∀ n ∈ st.defined, n ∈ st'.defined) : missing ns st' ≤ missing ns st := by
  unfold missing
  induction ns with
  | nil => exact Nat.le_refl _
  | cons x xs ih =>
    rw [List.filter_cons, List.filter_cons]
    by_cases h1 : x ∈ st'.defined
    · by_cases h2 : x ∈ st.defined
      · simpa [h1, h2] using ih
      · simp only [h1, h2, not_true_eq_false, not_false_eq_true, decide_true, decide_false, Bool.false_eq_true, if_false, if_true,
          List.length_cons]
        omega
    · have h2 : x ∉ st.defined := fun hc => h1 (h x hc)
      simpa [h1, h2] using ih

theorem missing_lt {ns : List Text} {st : St} {n : Text} (hn : n ∈ ns) (hd : n ∉ st.defined) :
    missing ns { st with defined := n :: st.defined } < missing ns st := by
  unfold missing
  induction ns with
  | nil => cases hn
  | cons x xs ih =>
    rw [List.filter_cons, List.filter_cons]
    by_cases hx : x = n
    · subst hx
      have := missing_le (ns := xs) (st := st) (st' := { st with defined := x :: st.defined }) (fun y hy => List.mem_cons.2 (.inr hy))
      unfold missing at this
      simp only [hd, List.mem_cons, true_or, not_true_eq_false, not_false_eq_true, decide_true, decide_false, Bool.false_eq_true, if_false,
        if_true, List.length_cons] at this ⊢
      omega
    · have ih' := ih ((List.mem_cons.1 hn).resolve_left fun h => hx h.symm)
      by_cases h1 : x ∈ st.defined
      · have h2 : x ∈ n :: st.defined := List.mem_cons.2 (.inr h1)
        simpa only [h1, h2, not_true_eq_false, decide_false, Bool.false_eq_true, if_false] using ih'
      · have h2 : x ∉ n :: st.defined := fun hc => (List.mem_cons.1 hc).elim hx h1
        simpa only [h1, h2, not_false_eq_true, decide_true, if_true, List.length_cons, Nat.add_lt_add_iff_right] using ih'

section
variable {P : Prog} {o : Order} {ns : List Text} {m : Nat}

theorem Ends.done : Ends o ns m done := fun _ _ => ⟨rfl, fun _ h1 h2 => h2.2 h1, fun _ h => h⟩

theorem Ends.seq {a b : Act} (ha : Ends o ns m a) (hb : Ends o ns m b) : Ends o ns m (a ;; b) := by
  intro st hm
  obtain ⟨h1, h2, h3⟩ := ha st hm
  rw [andThen_ok h1]
  obtain ⟨i1, i2, i3⟩ := hb (a okSink st).1 (Nat.lt_of_le_of_lt (missing_le h3) hm)
  refine ⟨i1, fun n hn hk => ?_, fun n hn => i3 n (h3 n hn)⟩
  by_cases hd : n ∈ (a okSink st).1.defined
  · exact h2 n hd hk
  · exact i2 n hn ⟨hk.1, hd⟩

theorem Ends.emit {it : Item} (h : (render P it).panics = false) : Ends o ns m (emit P it) := by
  intro st _
  have e := (emit_st P it okSink st).2.1
  refine ⟨(Safe.emit (o := o) h st).1, fun n hn hk => hk.2 (by rw [e] at hn; exact hn), fun n hn => by rw [e]; exact hn⟩

theorem Ends.once {n : Text} {a : Act} (hk : o.kind n ≠ .function) (ha : Ends o ns m a) : Ends o ns m (defineOnce n a) := by
  intro st hm
  by_cases h : n ∈ st.defined
  · rw [defineOnce, if_pos h]
    exact ⟨rfl, fun _ h1 h2 => h2.2 h1, fun _ h => h⟩
  · rw [defineOnce, if_neg h]
    obtain ⟨h1, h2, h3⟩ := ha { st with defined := n :: st.defined } (Nat.lt_of_le_of_lt (missing_le fun y hy => List.mem_cons.2 (.inr hy)) hm)
    refine ⟨h1, fun x hx hkx => h2 x hx ⟨hkx.1, fun hc => ?_⟩, fun x hx => h3 x (List.mem_cons.2 (.inr hx))⟩
    rcases List.mem_cons.1 hc with rfl | hc
    · exact hk hkx.1
    · exact hkx.2 hc

/-- A declared type: its name is one of those to register. -/
theorem Ends.adt {n : Text} {a : Act} (hk : o.kind n ≠ .function) (hn : n ∈ ns) (ha : Ends o ns m a) : Ends o ns (m + 1) (defineOnce n a) := by
  intro st hm
  by_cases h : n ∈ st.defined
  · rw [defineOnce, if_pos h]
    exact ⟨rfl, fun _ h1 h2 => h2.2 h1, fun _ h => h⟩
  · rw [defineOnce, if_neg h]
    have := missing_lt hn h
    obtain ⟨h1, h2, h3⟩ := ha { st with defined := n :: st.defined } (by omega)
    refine ⟨h1, fun x hx hkx => h2 x hx ⟨hkx.1, fun hc => ?_⟩, fun x hx => h3 x (List.mem_cons.2 (.inr hx))⟩
    rcases List.mem_cons.1 hc with rfl | hc
    · exact hk hkx.1
    · exact hkx.2 hc

mutual
theorem define_ends {adt : Lang → Nat → List CTy → Act}
    (hadt : ∀ lang i g B, within P.base o lang B (.adt i g) → Ends o ns m (adt lang i g))
    (lang : Lang) (ty : CTy) {B : Nat} (hf : within P.base o lang B ty) : Ends o ns m (define P adt lang ty) := by
  match ty, hf with
  | .int k, hf =>
    rw [define_int]; split
    · exact Ends.done
    next hl => exact Ends.once (kind_type (hf.resolve_left hl).2.2) (Ends.emit rfl)
  | .bool, hf =>
    rw [define_bool]; split
    · exact Ends.done
    next hl => exact Ends.once (kind_type (hf.resolve_left hl).2) (Ends.emit rfl)
  | .float, _ => exact Ends.done
  | .double, _ => exact Ends.done
  | .cint, _ => exact Ends.done
  | .cchar, _ => exact Ends.done
  | .void, _ => exact Ends.done
  | .array n item, ⟨h1, h2, h3, h4⟩ =>
    have ih := fun l (hl : legacy lang = l) => define_ends hadt l item (B := o.rank (short P.base (.array n item) ++ t!"_t")) (hl ▸ h4)
    rw [define_array]
    by_cases hl : lang = .csharp
    · subst hl
      rw [if_pos rfl, show csName P.base (.array n item) = _ from cArray_name P.base n item]
      exact Ends.seq (ih _ rfl) (Ends.once (kind_type h2) (Ends.emit rfl))
    · rw [if_neg hl, cArray_name]
      exact Ends.once (kind_type h2) (Ends.seq (ih _ (legacy_ne hl)) (Ends.emit rfl))
  | .fptr ret args, ⟨h0, h1, h2, h3⟩ =>
    rw [define_fptr]
    by_cases hl : lang = .csharp
    · subst hl
      rw [if_pos rfl]
      exact Ends.seq (define_ends hadt _ ret h2) (Ends.seq (defineAll_ends hadt _ args h3) (Ends.once (kind_type (h0 rfl).2) (Ends.emit rfl)))
    · rw [if_neg hl]
      rw [legacy_ne hl] at h2 h3
      exact Ends.seq (define_ends hadt _ ret h2) (defineAll_ends hadt _ args h3)
  | .constPtr to, hf => exact define_ends hadt _ to hf
  | .mutPtr to, hf => exact define_ends hadt _ to hf
  | .alias rename docs inner, ⟨h1, h2, h3⟩ =>
    rw [define_alias, cAlias_name]
    refine Ends.once (by rw [h2]; split <;> nofun) (Ends.seq (define_ends hadt lang inner h3) ?_)
    split
    · exact Ends.emit rfl
    · exact Ends.done
  | .adt i g, hf => exact hadt lang i g B hf
theorem defineAll_ends {adt : Lang → Nat → List CTy → Act}
    (hadt : ∀ lang i g B, within P.base o lang B (.adt i g) → Ends o ns m (adt lang i g))
    (lang : Lang) (tys : List CTy) {B : Nat} (hf : withinAll P.base o lang B tys) : Ends o ns m (defineAll P adt lang tys) := by
  match tys, hf with
  | [], _ => exact Ends.done
  | x :: xs, ⟨_, h1, h2⟩ => exact Ends.seq (define_ends hadt lang x h1) (defineAll_ends hadt lang xs h2)
end

theorem defineAdt_ends (hd : ∀ lang i g, o.used lang i g →
      withinAll P.base o lang (o.rank (short P.base (.adt i g) ++ t!"_t")) (parts (P.decl i g)))
    (hp : ∀ lang i g, o.used lang i g → (renderDecl P lang (.adt i g) (P.decl i g)).panics = false)
    (hns : ∀ lang i g, o.used lang i g → short P.base (.adt i g) ++ t!"_t" ∈ ns)
    (m : Nat) (lang : Lang) (i : Nat) (g : List CTy) (B : Nat) (hf : within P.base o lang B (.adt i g)) :
    Ends o ns m (defineAdt P m lang i g) := by
  induction m generalizing lang i g B with
  | zero => exact fun st h => absurd h (Nat.not_lt_zero _)
  | succ m ih =>
    obtain ⟨h1, h2, h3⟩ := hf
    rw [defineAdt, name_adt]
    exact Ends.adt (kind_type h2) (hns lang i g h3) (Ends.seq (defineAll_ends (fun l i g B hf => ih l i g B hf) lang _ (hd lang i g h3))
      (Ends.emit (hp lang i g h3)))

theorem genAll_ends {lang : Lang} {bound : Nat} {all es : List Export} (h : Levelled P o lang bound all)
    (hp : ∀ lang i g, o.used lang i g → (renderDecl P lang (.adt i g) (P.decl i g)).panics = false)
    (hns : ∀ lang i g, o.used lang i g → short P.base (.adt i g) ++ t!"_t" ∈ ns)
    (hs : ∀ e ∈ es, e ∈ all) (hn : (es.filterMap fnName).Nodup) (st : St) (hm : missing ns st < m)
    (hst : ∀ f, .fn f ∈ es → f.name ∉ st.defined) : (genAll P m lang es okSink st).2 = none := by
  have hadt := fun l i g B hf => defineAdt_ends (P := P) h.decls hp hns m l i g B hf
  induction es generalizing st with
  | nil => rfl
  | cons e es ih =>
    have hx := h.exports e (hs e (by simp))
    have hs' : ∀ e ∈ es, e ∈ all := fun x hx => hs x (by simp [hx])
    rw [genAll]
    cases e with
    | fn f =>
      obtain ⟨hx1, hx2⟩ := withinAll_append.1 hx
      have hsafe := Ends.seq (defineAll_ends (P := P) hadt lang _ hx1) (Ends.seq (define_ends hadt lang f.ret hx2.2.1) (Ends.emit (P := P) (it := .func lang f) rfl))
      have hi : insertFn f.name okSink st = ({ st with defined := f.name :: st.defined }, none) := by
        rw [insertFn, if_neg (hst f (by simp))]
      have hg : genDef P m lang (.fn f) okSink st = (defineAll P (defineAdt P m) lang (f.args.map (·.ty)) ;;
          define P (defineAdt P m) lang f.ret ;; emit P (.func lang f)) okSink { st with defined := f.name :: st.defined } := by
        rw [genDef, andThen_ok (by rw [hi]), hi]; rfl
      have hm' : missing ns { st with defined := f.name :: st.defined } ≤ missing ns st := missing_le fun y hy => List.mem_cons.2 (.inr hy)
      obtain ⟨h1, h2, h3⟩ := hsafe { st with defined := f.name :: st.defined } (by omega)
      rw [← hg] at h1 h2 h3
      rw [andThen_ok h1]
      simp only [List.filterMap_cons, fnName, List.nodup_cons] at hn
      refine ih hs' hn.2 _ (Nat.lt_of_le_of_lt (missing_le fun x hx => h3 x (List.mem_cons.2 (.inr hx))) hm) fun f' hf' hc => ?_
      refine h2 _ hc ⟨h.functions f' (hs' _ hf'), fun hc' => ?_⟩
      rcases List.mem_cons.1 hc' with hc' | hc'
      · exact hn.1 (List.mem_filterMap.2 ⟨_, hf', by rw [fnName, hc']⟩)
      · exact hst f' (by simp [hf']) hc'
    | const c =>
      have hsafe : Ends o ns m (genDef P m lang (.const c)) := Ends.seq (define_ends hadt lang c.ty hx.2.1) (Ends.emit rfl)
      obtain ⟨h1, h2, h3⟩ := hsafe st hm
      rw [andThen_ok h1]
      exact ih hs' hn _ (Nat.lt_of_le_of_lt (missing_le h3) hm) fun f' hf' hc => h2 _ hc ⟨h.functions f' (hs' _ hf'), hst f' (by simp [hf'])⟩
    | type n ty =>
      have hsafe : Ends o ns m (genDef P m lang (.type n ty)) := define_ends hadt lang ty hx.2.1
      obtain ⟨h1, h2, h3⟩ := hsafe st hm
      rw [andThen_ok h1]
      exact ih hs' hn _ (Nat.lt_of_le_of_lt (missing_le h3) hm) fun f' hf' hc => h2 _ hc ⟨h.functions f' (hs' _ hf'), hst f' (by simp [hf'])⟩

end

end Verif.Headers
