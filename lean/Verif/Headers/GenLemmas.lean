import Verif.Headers.GenSpec
import Verif.Headers.MarshalProps
/-!
# Lemmas on header generation
-/
namespace Verif.Headers
open Text

/-! ### Equations of `define` -/

section
variable (P : Prog) (adt : Lang → Nat → List CTy → Act) (lang : Lang)

theorem define_int (k : IntTy) : define P adt lang (.int k) =
    if lang = .csharp then done else defineOnce t!"__int_headers__" (emit P .intHeaders) := rfl
theorem define_bool : define P adt lang .bool =
    if lang = .csharp then done else defineOnce t!"bool" (emit P .boolHeader) := rfl
theorem define_array (n : Nat) (item : CTy) : define P adt lang (.array n item) =
    if lang = .csharp then
      define P adt .csharp item ;; defineOnce (csName P.base (.array n item)) (emit P (.type .csharp (.array n item)))
    else
      defineOnce (cName P.base (.array n item)) (define P adt .c item ;; emit P (.type .c (.array n item))) := rfl
theorem define_fptr (ret : CTy) (args : List CTy) : define P adt lang (.fptr ret args) =
    if lang = .csharp then
      define P adt .csharp ret ;; defineAll P adt .csharp args ;;
      defineOnce (csName P.base (.fptr ret args)) (emit P (.type .csharp (.fptr ret args)))
    else define P adt .c ret ;; defineAll P adt .c args := rfl
theorem define_constPtr (to : CTy) : define P adt lang (.constPtr to) = define P adt (legacy lang) to := rfl
theorem define_mutPtr (to : CTy) : define P adt lang (.mutPtr to) = define P adt (legacy lang) to := rfl
theorem define_alias (rename : Text) (docs : List Text) (inner : CTy) : define P adt lang (.alias rename docs inner) =
    defineOnce (cName P.base (.alias rename docs inner))
      (define P adt lang inner ;; if lang = .c then emit P (.type .c (.alias rename docs inner)) else done) := rfl
theorem define_adt (i : Nat) (g : List CTy) : define P adt lang (.adt i g) = adt lang i g := rfl
theorem defineAll_nil : defineAll P adt lang [] = done := rfl
theorem defineAll_cons (x : CTy) (xs : List CTy) :
    defineAll P adt lang (x :: xs) = (define P adt lang x ;; defineAll P adt lang xs) := rfl
end

theorem name_adt (b : Nat → Text) (lang : Lang) (i : Nat) (g : List CTy) : name b lang (.adt i g) = short b (.adt i g) ++ t!"_t" := by
  have : cVar b (.adt i g) [] = short b (.adt i g) ++ t!"_t" := by rw [cVar_adt]; simp [sep]
  cases lang
  · exact this
  · rfl
  · exact this

theorem andThen_assoc (a b c : Act) : ((a ;; b) ;; c) = (a ;; b ;; c) := by
  funext k st
  simp only [andThen]
  rcases a k st with ⟨st', _ | e⟩ <;> rfl

/-- Induction principle: a property of actions that holds for the parts of `define` holds for it. -/
structure Closed (P : Prog) (C : Act → Prop) : Prop where
  done : C done
  seq : ∀ a b, C a → C b → C (a ;; b)
  once : ∀ n a it, C a → exported it = none → declaredName P it = some n ∨ declaredName P it = none → C (defineOnce n (a ;; emit P it))
  silent : ∀ n a, C a → C (defineOnce n a)

section
variable {P : Prog} {C : Act → Prop} (hC : Closed P C)
include hC

theorem Closed.once' {n : Text} {it : Item} (hx : exported it = none) (h : declaredName P it = some n ∨ declaredName P it = none) :
    C (defineOnce n (emit P it)) := by
  have := hC.once n Verif.Headers.done it hC.done hx h
  exact this

mutual
theorem Closed.define {adt : Lang → Nat → List CTy → Act} (hadt : ∀ lang i g, C (adt lang i g)) (lang : Lang) (ty : CTy) :
    C (define P adt lang ty) := by
  match ty with
  | .int k =>
    rw [define_int]; split
    · exact hC.done
    · exact hC.once' rfl (.inr rfl)
  | .bool =>
    rw [define_bool]; split
    · exact hC.done
    · exact hC.once' rfl (.inr rfl)
  | .float => exact hC.done
  | .double => exact hC.done
  | .cint => exact hC.done
  | .cchar => exact hC.done
  | .void => exact hC.done
  | .array n item =>
    have e : cName P.base (.array n item) = short P.base (.array n item) ++ t!"_t" := by
      show cVar _ _ [] = _
      rw [cVar_array]; simp [sep]
    rw [define_array]; split
    · exact hC.seq _ _ (Closed.define hadt _ item) (hC.once' rfl (.inl (by show some _ = some (cVar _ _ []); exact congrArg some e.symm)))
    · exact hC.once _ _ _ (Closed.define hadt _ item) rfl (.inl (by rw [e]; rfl))
  | .fptr ret args =>
    rw [define_fptr]; split
    · exact hC.seq _ _ (Closed.define hadt _ ret) (hC.seq _ _ (Closed.defineAll hadt _ args) (hC.once' rfl (.inl rfl)))
    · exact hC.seq _ _ (Closed.define hadt _ ret) (Closed.defineAll hadt _ args)
  | .constPtr to => exact Closed.define hadt _ to
  | .mutPtr to => exact Closed.define hadt _ to
  | .alias rename docs inner =>
    have e : cName P.base (.alias rename docs inner) = rename ++ t!"_t" := by
      show cVar _ _ [] = _
      rw [cVar_alias]; simp [sep]
    rw [define_alias]; split
    · exact hC.once _ _ _ (Closed.define hadt _ inner) rfl (.inl (by rw [e]; rfl))
    · exact hC.silent _ _ (hC.seq _ _ (Closed.define hadt _ inner) hC.done)
  | .adt i g => exact hadt lang i g
theorem Closed.defineAll {adt : Lang → Nat → List CTy → Act} (hadt : ∀ lang i g, C (adt lang i g)) (lang : Lang) (tys : List CTy) :
    C (defineAll P adt lang tys) := by
  match tys with
  | [] => exact hC.done
  | x :: xs => exact hC.seq _ _ (Closed.define hadt lang x) (Closed.defineAll hadt lang xs)
end

theorem Closed.defineAdt (hd : C (fail .diverge)) (m : Nat) (lang : Lang) (i : Nat) (g : List CTy) : C (defineAdt P m lang i g) := by
  induction m generalizing lang i g with
  | zero => exact hd
  | succ m ih =>
    have := hC.once (name P.base lang (.adt i g)) _ (.type lang (.adt i g)) (Closed.defineAll hC (fun l i g => ih l i g) lang (parts (P.decl i g))) rfl
      (.inl (by rw [name_adt]; rfl))
    exact this

theorem Closed.genDef (hd : C (fail .diverge)) (m : Nat) (lang : Lang)
    (hf : ∀ f a, C a → C (insertFn f.name ;; a ;; emit P (.func lang f)))
    (hc : ∀ c, C (emit P (.const lang c))) (e : Export) : C (genDef P m lang e) := by
  have ha := Closed.defineAdt hC hd m
  cases e with
  | fn f =>
    have := hf f _ (hC.seq _ _ (Closed.defineAll hC (fun l i g => ha l i g) lang (f.args.map (·.ty))) (Closed.define hC (fun l i g => ha l i g) lang f.ret))
    rw [andThen_assoc] at this
    exact this
  | const c => exact hC.seq _ _ (Closed.define hC (fun l i g => ha l i g) lang c.ty) (hc c)
  | type n ty => exact Closed.define hC (fun l i g => ha l i g) lang ty

end

/-! ### What every run does -/

theorem andThen_ok {a b : Act} {k : Sink} {st : St} (h : (a k st).2 = none) : (a ;; b) k st = b k (a k st).1 := by
  simp only [andThen]
  rcases hr : a k st with ⟨st', _ | e⟩
  · rfl
  · rw [hr] at h; cases h

theorem andThen_err {a b : Act} {k : Sink} {st : St} {e : Err} (h : (a k st).2 = some e) : (a ;; b) k st = a k st := by
  simp only [andThen]
  rcases hr : a k st with ⟨st', _ | e⟩
  · rw [hr] at h; cases h
  · rfl

theorem write_st (s : Text) (k : Sink) (st : St) : (write s k st).1.items = st.items ∧ (write s k st).1.defined = st.defined ∧
    ((write s k st).2 = none → (write s k st).1.out = st.out ++ s) := by
  rw [write]; split <;> exact ⟨rfl, rfl, fun h => by first | rfl | cases h⟩

theorem writes_st (ss : List Text) (k : Sink) (st : St) :
    (writes ss k st).1.items = st.items ∧ (writes ss k st).1.defined = st.defined ∧
    ((writes ss k st).2 = none → (writes ss k st).1.out = st.out ++ flat ss) := by
  induction ss generalizing st with
  | nil => exact ⟨rfl, rfl, fun _ => by simp [writes, done, flat]⟩
  | cons s ss ih =>
    rw [writes]
    obtain ⟨h1, h2, h3⟩ := write_st s k st
    cases h : (write s k st).2 with
    | none =>
      rw [andThen_ok h]
      obtain ⟨i1, i2, i3⟩ := ih (write s k st).1
      refine ⟨i1.trans h1, i2.trans h2, fun hn => ?_⟩
      rw [i3 hn, h3 h]
      simp [flat]
    | some e =>
      rw [andThen_err h]
      exact ⟨h1, h2, fun hn => by rw [h] at hn; cases hn⟩

theorem emit_st (P : Prog) (it : Item) (k : Sink) (st : St) :
    (emit P it k st).1.items = st.items ++ [it] ∧ (emit P it k st).1.defined = st.defined ∧
    ((emit P it k st).2 = none → (emit P it k st).1.out = st.out ++ flat (render P it).writes ∧ (render P it).panics = false) := by
  rw [emit, andThen_ok (show (log it k st).2 = none from rfl)]
  obtain ⟨h1, h2, h3⟩ := writes_st (render P it).writes k (log it k st).1
  cases h : (writes (render P it).writes k (log it k st).1).2 with
  | none =>
    rw [andThen_ok h]
    split
    next hp => exact ⟨h1, h2, fun hn => by cases hn⟩
    next hp => exact ⟨h1, h2, fun _ => ⟨h3 h, by simpa using hp⟩⟩
  | some e =>
    rw [andThen_err h]
    exact ⟨h1, h2, fun hn => by rw [h] at hn; cases hn⟩

/-- The items begun during a run are new ones; the text of all of them has been written if it succeeds. -/
structure Trace (P : Prog) (st : St) (r : St × Option Err) (new : List Item) : Prop where
  items : r.1.items = st.items ++ new
  mono : ∀ n ∈ st.defined, n ∈ r.1.defined
  nodup : (new.filterMap (declaredName P)).Nodup
  fresh : ∀ n ∈ new.filterMap (declaredName P), n ∉ st.defined ∧ n ∈ r.1.defined
  out : r.2 = none → r.1.out = st.out ++ flat (new.flatMap fun it => (render P it).writes)

def Traced (P : Prog) (a : Act) : Prop := ∀ k st, ∃ new, Trace P st (a k st) new

theorem Trace.seq {P : Prog} {st st' : St} {r : St × Option Err} {n1 n2 : List Item} (h : Trace P st (st', none) n1)
    (h' : Trace P st' r n2) : Trace P st r (n1 ++ n2) where
  items := by rw [h'.items, h.items, List.append_assoc]
  mono n hn := h'.mono n (h.mono n hn)
  nodup := by
    rw [List.filterMap_append, List.nodup_append]
    refine ⟨h.nodup, h'.nodup, fun a ha b hb hab => ?_⟩
    subst hab
    exact (h'.fresh a hb).1 (h.fresh a ha).2
  fresh n hn := by
    rw [List.filterMap_append, List.mem_append] at hn
    rcases hn with hn | hn
    · exact ⟨(h.fresh n hn).1, h'.mono n (h.fresh n hn).2⟩
    · exact ⟨fun hd => (h'.fresh n hn).1 (h.mono n hd), (h'.fresh n hn).2⟩
  out hr := by
    rw [h'.out hr, h.out rfl, List.flatMap_append, flat_append, List.append_assoc]

theorem Traced.seq {P : Prog} {a b : Act} (ha : Traced P a) (hb : Traced P b) : Traced P (a ;; b) := by
  intro k st
  obtain ⟨n1, h1⟩ := ha k st
  cases h : (a k st).2 with
  | none =>
    obtain ⟨n2, h2⟩ := hb k (a k st).1
    rw [andThen_ok h]
    exact ⟨n1 ++ n2, Trace.seq (by rw [← h]; exact h1) h2⟩
  | some e =>
    rw [andThen_err h]
    exact ⟨n1, h1⟩

theorem Trace.refl (P : Prog) (st : St) (e : Option Err) : Trace P st (st, e) [] :=
  ⟨by simp, fun _ h => h, .nil, nofun, fun _ => by simp [flat]⟩

theorem traced_text {P : Prog} {it : Item} (h : declaredName P it = none) : Traced P (emit P it) := by
  intro k st
  obtain ⟨h1, h2, h3⟩ := emit_st P it k st
  refine ⟨[it], h1, fun n hn => by rw [h2]; exact hn, ?_, ?_, fun hr => ?_⟩
  · simp [h]
  · simp [h]
  · simpa using (h3 hr).1

/-- A definition under its own name. -/
theorem traced_named {P : Prog} {n : Text} {a : Act} {it : Item} (ha : Traced P a) (h : declaredName P it = some n)
    {k : Sink} {st : St} (hn : n ∉ st.defined) : ∃ new, Trace P st ((a ;; emit P it) k { st with defined := n :: st.defined }) new := by
  obtain ⟨n1, h1⟩ := ha k { st with defined := n :: st.defined }
  have hd : n ∈ (a k { st with defined := n :: st.defined }).1.defined := h1.mono n (by simp)
  have hnew : n ∉ n1.filterMap (declaredName P) := fun hc => (h1.fresh n hc).1 (by simp)
  cases hr : (a k { st with defined := n :: st.defined }).2 with
  | some e =>
    rw [andThen_err hr]
    exact ⟨n1, h1.items, fun x hx => h1.mono x (by simp [hx]), h1.nodup,
      fun x hx => ⟨fun hc => (h1.fresh x hx).1 (by simp [hc]), (h1.fresh x hx).2⟩, fun hc => by rw [hr] at hc; cases hc⟩
  | none =>
    rw [andThen_ok hr]
    obtain ⟨h2, h3, h4⟩ := emit_st P it k (a k { st with defined := n :: st.defined }).1
    refine ⟨n1 ++ [it], ?_, ?_, ?_, ?_, ?_⟩
    · rw [h2, h1.items, List.append_assoc]
    · intro x hx; rw [h3]; exact h1.mono x (by simp [hx])
    · rw [List.filterMap_append, List.nodup_append]
      refine ⟨h1.nodup, by simp [h], fun x hx y hy hxy => ?_⟩
      subst hxy
      simp [h] at hy
      exact hnew (hy ▸ hx)
    · intro x hx
      rw [List.filterMap_append, List.mem_append] at hx
      rcases hx with hx | hx
      · exact ⟨fun hc => (h1.fresh x hx).1 (by simp [hc]), by rw [h3]; exact (h1.fresh x hx).2⟩
      · simp [h] at hx
        subst hx
        exact ⟨hn, by rw [h3]; exact hd⟩
    · intro hc
      rw [(h4 hc).1, h1.out hr, List.flatMap_append, flat_append]
      simp

theorem traced_silent {P : Prog} {n : Text} {a : Act} (ha : Traced P a) {k : Sink} {st : St} :
    ∃ new, Trace P st (a k { st with defined := n :: st.defined }) new := by
  obtain ⟨n1, h1⟩ := ha k { st with defined := n :: st.defined }
  exact ⟨n1, h1.items, fun x hx => h1.mono x (by simp [hx]), h1.nodup,
    fun x hx => ⟨fun hc => (h1.fresh x hx).1 (by simp [hc]), (h1.fresh x hx).2⟩, h1.out⟩

theorem closed_traced (P : Prog) : Closed P (Traced P) where
  done k st := ⟨[], Trace.refl P st none⟩
  seq _ _ := Traced.seq
  once n a it ha _ h := by
    intro k st
    rw [defineOnce]
    split
    · exact ⟨[], Trace.refl P st none⟩
    next hn =>
      rcases h with h | h
      · exact traced_named ha h hn
      · exact traced_silent (Traced.seq ha (traced_text h))
  silent n a ha := by
    intro k st
    rw [defineOnce]
    split
    · exact ⟨[], Trace.refl P st none⟩
    · exact traced_silent ha

theorem traced_fn {P : Prog} {lang : Lang} (f : Fn) {a : Act} (ha : Traced P a) :
    Traced P (insertFn f.name ;; a ;; emit P (.func lang f)) := by
  intro k st
  by_cases h : f.name ∈ st.defined
  · have : insertFn f.name k st = (st, some .alreadyExists) := by rw [insertFn, if_pos h]
    rw [andThen_err (by rw [this]), this]
    exact ⟨[], Trace.refl P st _⟩
  · have : insertFn f.name k st = ({ st with defined := f.name :: st.defined }, none) := by rw [insertFn, if_neg h]
    rw [andThen_ok (by rw [this]), this]
    exact traced_named ha rfl h

theorem traced_genAll (P : Prog) (m : Nat) (lang : Lang) (es : List Export) : Traced P (genAll P m lang es) := by
  induction es with
  | nil => exact (closed_traced P).done
  | cons e es ih =>
    exact Traced.seq ((closed_traced P).genDef (fun k st => ⟨[], Trace.refl P st _⟩) m lang (fun f a ha => traced_fn f ha) (fun c => traced_text rfl) e) ih

theorem traced_writeText (P : Prog) (s : Option Text) : Traced P (writeText P s) := by
  cases s with
  | none => exact (closed_traced P).done
  | some s => exact traced_text rfl

theorem traced_generate (P : Prog) (m : Nat) (c : Config) (es : List Export) : Traced P (generate P m c es) :=
  Traced.seq (traced_text rfl) (Traced.seq (traced_writeText P _) (Traced.seq (traced_genAll P m _ _) (traced_writeText P _)))

/-! ### Failing writers -/

/-- A run with any writer does what it does with one that never fails, up to the first failing call;
there it stops with the error of the writer. -/
def Obeys (a : Act) : Prop := ∀ k st,
  st.calls ≤ (a k st).1.calls ∧ st.out <+: (a okSink st).1.out ∧
  ((a k st = a okSink st ∧ ∀ i, st.calls ≤ i → i < (a k st).1.calls → k i = none) ∨
   ∃ j e, st.calls < (a k st).1.calls ∧ (a k st).1.calls ≤ (a okSink st).1.calls ∧ k ((a k st).1.calls - 1) = some (j, e) ∧ (a k st).2 = some (.io e) ∧
     (a k st).1.out <+: (a okSink st).1.out ∧ ∀ i, st.calls ≤ i → i + 1 < (a k st).1.calls → k i = none)

theorem obeys_pure {a : Act} (h : ∀ k st, (a k st) = (a okSink st) ∧ (a k st).1.calls = st.calls ∧ (a k st).1.out = st.out) : Obeys a := by
  intro k st
  obtain ⟨h1, h2, h3⟩ := h k st
  refine ⟨by omega, ?_, .inl ⟨h1, fun i _ _ => by omega⟩⟩
  rw [(h okSink st).2.2]; exact List.prefix_refl _

theorem Obeys.seq {a b : Act} (ha : Obeys a) (hb : Obeys b) : Obeys (a ;; b) := by
  intro k st
  obtain ⟨a1, a2, a3⟩ := ha k st
  have hcalls : (a okSink st).1.calls ≤ ((a ;; b) okSink st).1.calls := by
    cases h : (a okSink st).2 with
    | none => rw [andThen_ok h]; exact (hb okSink (a okSink st).1).1
    | some e => rw [andThen_err h]; exact Nat.le_refl _
  have hpre : (a okSink st).1.out <+: ((a ;; b) okSink st).1.out := by
    cases h : (a okSink st).2 with
    | none => rw [andThen_ok h]; exact (hb okSink (a okSink st).1).2.1
    | some e => rw [andThen_err h]; exact List.prefix_refl _
  rcases a3 with ⟨e, hk⟩ | ⟨j, e, h1, h0, h2, h3, h4, h5⟩
  · cases h : (a k st).2 with
    | some er =>
      have h' : (a okSink st).2 = some er := by rw [← e, h]
      rw [andThen_err h, andThen_err h']
      exact ⟨a1, a2, .inl ⟨e, hk⟩⟩
    | none =>
      have h' : (a okSink st).2 = none := by rw [← e, h]
      rw [andThen_ok h, andThen_ok h', ← e]
      obtain ⟨b1, b2, b3⟩ := hb k (a k st).1
      refine ⟨by omega, ?_, ?_⟩
      · exact List.IsPrefix.trans (by rw [e]; exact a2) b2
      · rcases b3 with ⟨e', hk'⟩ | ⟨j, er, h1, h0, h2, h3, h4, h5⟩
        · refine .inl ⟨e', fun i hi hi' => ?_⟩
          by_cases hc : i < (a k st).1.calls
          · exact hk i hi hc
          · exact hk' i (by omega) hi'
        · refine .inr ⟨j, er, by omega, h0, h2, h3, h4, fun i hi hi' => ?_⟩
          by_cases hc : i < (a k st).1.calls
          · exact hk i hi hc
          · exact h5 i (by omega) hi'
  · rw [andThen_err h3]
    exact ⟨a1, a2.trans hpre, .inr ⟨j, e, h1, Nat.le_trans h0 hcalls, h2, h3, h4.trans hpre, h5⟩⟩

theorem obeys_write (s : Text) : Obeys (write s) := by
  intro k st
  have e : write s okSink st = ({ st with out := st.out ++ s, calls := st.calls + 1 }, none) := rfl
  rw [e]
  cases h : k st.calls with
  | none =>
    have e' : write s k st = ({ st with out := st.out ++ s, calls := st.calls + 1 }, none) := by rw [write, h]
    rw [e']
    refine ⟨by simp, by simp, .inl ⟨rfl, fun i h1 h2 => ?_⟩⟩
    have : i = st.calls := by simp at h2; omega
    rw [this, h]
  | some je =>
    obtain ⟨j, er⟩ := je
    have e' : write s k st = ({ st with out := st.out ++ s.take j, calls := st.calls + 1 }, some (.io er)) := by rw [write, h]
    rw [e']
    refine ⟨by simp, by simp, .inr ⟨j, er, by simp, by simp, by simpa using h, rfl, ?_, fun i h1 h2 => by simp at h2; omega⟩⟩
    exact (List.prefix_append_right_inj _).2 (List.take_prefix j s)

theorem obeys_writes (ss : List Text) : Obeys (writes ss) := by
  induction ss with
  | nil => exact obeys_pure fun _ _ => ⟨rfl, rfl, rfl⟩
  | cons s ss ih => exact (obeys_write s).seq ih

theorem obeys_emit (P : Prog) (it : Item) : Obeys (emit P it) := by
  refine Obeys.seq (obeys_pure fun _ _ => ⟨rfl, rfl, rfl⟩) (Obeys.seq (obeys_writes _) ?_)
  split <;> exact obeys_pure fun _ _ => ⟨rfl, rfl, rfl⟩

theorem Obeys.once {a : Act} (ha : Obeys a) (n : Text) : Obeys (defineOnce n a) := by
  intro k st
  by_cases h : n ∈ st.defined
  · have : ∀ k, defineOnce n a k st = (st, none) := fun k => by rw [defineOnce, if_pos h]
    rw [this, this]
    exact ⟨Nat.le_refl _, List.prefix_refl _, .inl ⟨rfl, fun i h1 h2 => by simp at h2; omega⟩⟩
  · have : ∀ k, defineOnce n a k st = a k { st with defined := n :: st.defined } := fun k => by rw [defineOnce, if_neg h]
    rw [this, this]
    exact ha k { st with defined := n :: st.defined }

theorem closed_obeys (P : Prog) : Closed P Obeys where
  done := obeys_pure fun _ _ => ⟨rfl, rfl, rfl⟩
  seq _ _ := Obeys.seq
  once n _ it ha _ _ := Obeys.once (ha.seq (obeys_emit P it)) n
  silent n _ ha := ha.once n

theorem obeys_insertFn (n : Text) : Obeys (insertFn n) := by
  refine obeys_pure fun k st => ?_
  rw [insertFn, insertFn]
  split <;> exact ⟨rfl, rfl, rfl⟩

theorem obeys_genAll (P : Prog) (m : Nat) (lang : Lang) (es : List Export) : Obeys (genAll P m lang es) := by
  induction es with
  | nil => exact (closed_obeys P).done
  | cons e es ih =>
    exact Obeys.seq ((closed_obeys P).genDef (obeys_pure fun _ _ => ⟨rfl, rfl, rfl⟩) m lang
      (fun f a ha => Obeys.seq (obeys_insertFn _) (ha.seq (obeys_emit P _))) (fun c => obeys_emit P _) e) ih

theorem obeys_writeText (P : Prog) (s : Option Text) : Obeys (writeText P s) := by
  cases s with
  | none => exact (closed_obeys P).done
  | some s => exact obeys_emit P _

theorem obeys_generate (P : Prog) (m : Nat) (c : Config) (es : List Export) : Obeys (generate P m c es) :=
  Obeys.seq (obeys_emit P _) (Obeys.seq (obeys_writeText P _) (Obeys.seq (obeys_genAll P m _ _) (obeys_writeText P _)))

end Verif.Headers
