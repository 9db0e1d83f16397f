import Verif.Headers.RecSpec
import Verif.Headers.GenExports
/-!
# The order of the items of a header with recursive types
-/
namespace Verif.Headers
open Text

/-! ### Runs -/

/-- The name of a type that is registered, and whose definition has begun but is not written. -/
def Pending (o : Order) (prog : Text → Prop) (x : Text) : Prop := prog x ∧ o.kind x = .type

def HasP (P : Prog) (o : Order) (prog : Text → Prop) (l : List Item) (x : Text) : Prop := Has P l x ∨ Pending o prog x

def ReadyP (P : Prog) (o : Order) (prog : Text → Prop) (n : Text) (l : List Item) : Prop :=
  match o.kind n with
  | .type => ∃ it ∈ l, regName P it = some n
  | .alias lang inner => ∀ x ∈ leaf P.base lang inner, HasP P o prog l x
  | .function => True

def KnownP (P : Prog) (o : Order) (prog : Text → Prop) (st : St) : Prop :=
  ∀ n ∈ st.defined, prog n ∨ ReadyP P o prog n st.items

/-- What is mentioned is there, or in progress. -/
def CompleteP (P : Prog) (o : Order) (prog : Text → Prop) (items : List Item) : Prop :=
  ∀ it ∈ items, ∀ x ∈ uses P it, HasP P o prog items x

def MonoP (Q : (Text → Prop) → List Item → Prop) : Prop := ∀ prog l new, Q prog l → Q prog (l ++ new)

/-- As `Run` of `GenOrder.lean`, but names in progress may be mentioned. All levels are below `T`. -/
def RunP (P : Prog) (o : Order) (T : Nat) (a : Act) (B : Nat) (Q : (Text → Prop) → List Item → Prop) : Prop :=
  ∀ k st (prog : Text → Prop), (∀ n, prog n → B ≤ o.rank n ∧ o.rank n < T) → KnownP P o prog st →
    OrderedByLevel P o st.items → CompleteP P o prog st.items →
    OrderedByLevel P o (a k st).1.items ∧ (∃ new, (a k st).1.items = st.items ++ new) ∧
    ((a k st).2 = none → KnownP P o prog (a k st).1 ∧ CompleteP P o prog (a k st).1.items ∧ Q prog (a k st).1.items)

section
variable {P : Prog} {o : Order} {T : Nat}

theorem HasP.mono {prog : Text → Prop} {l new : List Item} {x : Text} (h : HasP P o prog l x) : HasP P o prog (l ++ new) x :=
  h.imp Has.mono id

theorem ReadyP.mono (n : Text) : MonoP fun prog l => ReadyP P o prog n l := by
  intro prog l new h
  unfold ReadyP at h ⊢
  split at h
  next => exact let ⟨it, h1, h2⟩ := h; ⟨it, List.mem_append.2 (.inl h1), h2⟩
  next => exact fun x hx => (h x hx).mono
  next => trivial

theorem orderedByLevel_append {items : List Item} {it : Item} (h : OrderedByLevel P o items)
    (hu : ∀ n ∈ uses P it, Has P items n ∨ ∃ m, typeName P it = some m ∧ o.rank m ≤ o.rank n) : OrderedByLevel P o (items ++ [it]) := by
  intro pre x post e n hn
  rcases List.eq_nil_or_concat post with rfl | ⟨post', y, rfl⟩
  · obtain ⟨rfl, e2⟩ := List.append_inj' e rfl
    simp at e2
    subst e2
    exact hu n hn
  · have e' : items ++ [it] = (pre ++ x :: post') ++ [y] := by rw [e]; simp
    exact h pre x post' (List.append_inj' e' rfl).1 n hn

theorem RunP.done {B : Nat} : RunP P o T done B fun _ _ => True :=
  fun _ st _ _ hk ho hc => ⟨ho, ⟨[], by simp [Headers.done]⟩, fun _ => ⟨hk, hc, trivial⟩⟩

theorem RunP.fail {e : Err} {B : Nat} {Q : (Text → Prop) → List Item → Prop} : RunP P o T (fail e) B Q :=
  fun _ st _ _ _ hw _ => ⟨hw, ⟨[], by simp [Headers.fail]⟩, fun h => by cases h⟩

theorem RunP.weaken {a : Act} {B B' : Nat} {Q Q' : (Text → Prop) → List Item → Prop} (h : RunP P o T a B Q) (hB : B ≤ B')
    (hQ : ∀ prog l, Q prog l → Q' prog l) : RunP P o T a B' Q' := by
  intro k st prog hp hk hw hc
  obtain ⟨h1, h2, h3⟩ := h k st prog (fun n hn => ⟨Nat.le_trans hB (hp n hn).1, (hp n hn).2⟩) hk hw hc
  exact ⟨h1, h2, fun hn => ⟨(h3 hn).1, (h3 hn).2.1, hQ _ _ (h3 hn).2.2⟩⟩

theorem RunP.seq {a b : Act} {B : Nat} {Q R : (Text → Prop) → List Item → Prop} (ha : RunP P o T a B Q) (hQ : MonoP Q) (hb : RunP P o T b B R) :
    RunP P o T (a ;; b) B fun prog l => Q prog l ∧ R prog l := by
  intro k st prog hp hk hw hc
  obtain ⟨h1, ⟨n1, h2⟩, h3⟩ := ha k st prog hp hk hw hc
  cases h : (a k st).2 with
  | none =>
    rw [andThen_ok h]
    obtain ⟨hk', hc', hq⟩ := h3 h
    obtain ⟨i1, ⟨n2, i2⟩, i3⟩ := hb k (a k st).1 prog hp hk' h1 hc'
    refine ⟨i1, ⟨n1 ++ n2, by rw [i2, h2, List.append_assoc]⟩, fun hn => ⟨(i3 hn).1, (i3 hn).2.1, ?_, (i3 hn).2.2⟩⟩
    rw [i2]; exact hQ _ _ _ hq
  | some e =>
    rw [andThen_err h]
    exact ⟨h1, ⟨n1, h2⟩, fun hn => by rw [h] at hn; cases hn⟩

/-- One item: either of a type of a level up to `B`, or nothing is in progress. -/
theorem RunP.emit {it : Item} {B : Nat} (hm : (∃ m, typeName P it = some m ∧ o.rank m ≤ B) ∨ T ≤ B) (k : Sink) (st : St) (prog : Text → Prop)
    (hp : ∀ n, prog n → B ≤ o.rank n ∧ o.rank n < T) (hk : KnownP P o prog st) (hw : OrderedByLevel P o st.items)
    (hc : CompleteP P o prog st.items) (hu : ∀ x ∈ uses P it, HasP P o prog st.items x) :
    OrderedByLevel P o (emit P it k st).1.items ∧ (emit P it k st).1.items = st.items ++ [it] ∧
    KnownP P o prog (emit P it k st).1 ∧ CompleteP P o prog (emit P it k st).1.items := by
  obtain ⟨e1, e2, _⟩ := emit_st P it k st
  refine ⟨?_, e1, fun n hn => ?_, fun x hx y hy => ?_⟩
  · rw [e1]
    refine orderedByLevel_append hw fun n hn => (hu n hn).imp id fun h => ?_
    obtain ⟨h1, h2⟩ := hp n h.1
    rcases hm with ⟨m, hm1, hm2⟩ | hm
    · exact ⟨m, hm1, by omega⟩
    · omega
  · rw [e2] at hn
    rw [e1]
    exact (hk n hn).imp id fun hr => ReadyP.mono n _ _ _ hr
  · rw [e1] at hx ⊢
    rcases List.mem_append.1 hx with hx | hx
    · exact (hc x hx y hy).mono
    · rw [List.mem_singleton.1 hx] at hy
      exact (hu y hy).mono

/-- An item after its parts. -/
theorem RunP.item {a : Act} {it : Item} {B : Nat} {Q : (Text → Prop) → List Item → Prop} (ha : RunP P o T a B Q)
    (hm : (∃ m, typeName P it = some m ∧ o.rank m ≤ B) ∨ T ≤ B)
    (hu : ∀ prog l, Q prog l → ∀ x ∈ uses P it, HasP P o prog l x) : RunP P o T (a ;; Headers.emit P it) B fun _ l => it ∈ l := by
  intro k st prog hp hk hw hc
  obtain ⟨h1, ⟨n1, h2⟩, h3⟩ := ha k st prog hp hk hw hc
  cases h : (a k st).2 with
  | some e =>
    rw [andThen_err h]
    exact ⟨h1, ⟨n1, h2⟩, fun hn => by rw [h] at hn; cases hn⟩
  | none =>
    rw [andThen_ok h]
    obtain ⟨hk', hc', hq⟩ := h3 h
    obtain ⟨i1, i2, i3, i4⟩ := RunP.emit hm k (a k st).1 prog hp hk' h1 hc' (hu _ _ hq)
    exact ⟨i1, ⟨n1 ++ [it], by rw [i2, h2, List.append_assoc]⟩, fun _ => ⟨i3, i4, by rw [i2]; simp⟩⟩

/-- A definition. `R`: what its body achieves, while it is itself in progress. -/
theorem RunP.once {n : Text} {a : Act} {B : Nat} {Q R : (Text → Prop) → List Item → Prop} (hr : o.rank n ≤ B) (hT : o.rank n < T)
    (ha : RunP P o T a (o.rank n) R)
    (hs : ∀ prog l, R (fun x => prog x ∨ x = n) l → ReadyP P o prog n l ∧ ∀ x, HasP P o (fun x => prog x ∨ x = n) l x → HasP P o prog l x)
    (hQ : ∀ prog l, ReadyP P o prog n l → Q prog l) (hq : ∀ prog l, prog n → B ≤ o.rank n → Q prog l) :
    RunP P o T (defineOnce n a) B Q := by
  intro k st prog hp hkn hw hc
  by_cases h : n ∈ st.defined
  · have e : defineOnce n a k st = (st, none) := by rw [defineOnce, if_pos h]
    rw [e]
    refine ⟨hw, ⟨[], by simp⟩, fun _ => ⟨hkn, hc, ?_⟩⟩
    rcases hkn n h with h' | h'
    · exact hq _ _ h' (hp n h').1
    · exact hQ _ _ h'
  · have e : defineOnce n a k st = a k { st with defined := n :: st.defined } := by rw [defineOnce, if_neg h]
    rw [e]
    obtain ⟨h1, h2, h3⟩ := ha k { st with defined := n :: st.defined } (fun x => prog x ∨ x = n)
      (by rintro x (hx | rfl)
          · have := hp x hx; omega
          · exact ⟨Nat.le_refl _, hT⟩)
      (by intro x hx
          rcases List.mem_cons.1 hx with rfl | hx
          · exact .inl (.inr rfl)
          · refine (hkn x hx).imp .inl fun hr => ?_
            unfold ReadyP at hr ⊢
            split at hr
            next => exact hr
            next => exact fun y hy => (hr y hy).imp id fun hz => ⟨.inl hz.1, hz.2⟩
            next => trivial)
      hw
      (fun it hi x hx => (hc it hi x hx).imp id fun hz => ⟨.inl hz.1, hz.2⟩)
    refine ⟨h1, h2, fun hn => ?_⟩
    obtain ⟨i1, i2, i3⟩ := h3 hn
    obtain ⟨j1, j2⟩ := hs _ _ i3
    refine ⟨fun x hx => ?_, fun it hi x hx => j2 x (i2 it hi x hx), hQ _ _ j1⟩
    rcases i1 x hx with (h' | rfl) | h'
    · exact .inl h'
    · exact .inr j1
    · refine .inr ?_
      unfold ReadyP at h' ⊢
      split at h'
      next => exact h'
      next => exact fun y hy => j2 y (h' y hy)
      next => trivial

theorem readyP_has {prog : Text → Prop} {n : Text} {l : List Item} (hk : o.kind n = .type) (hi : n ≠ t!"__int_headers__")
    (hr : ReadyP P o prog n l) : Has P l n := by
  refine ready_has (o := o) hk hi ?_
  unfold ReadyP at hr
  unfold Ready
  rw [hk] at hr ⊢
  exact hr

theorem readyP_of_mem {prog : Text → Prop} {n : Text} {it : Item} {l : List Item} (hk : o.kind n = .type) (hreg : regName P it = some n)
    (h : it ∈ l) : ReadyP P o prog n l := by
  unfold ReadyP
  rw [hk]
  exact ⟨it, h, hreg⟩

theorem shrink {prog : Text → Prop} {n : Text} {l : List Item} (h : Has P l n) (x : Text) (hx : HasP P o (fun x => prog x ∨ x = n) l x) :
    HasP P o prog l x := by
  rcases hx with hx | ⟨hx | rfl, hk⟩
  · exact .inl hx
  · exact .inr ⟨hx, hk⟩
  · exact .inl h

/-- A definition of a type. -/
theorem RunP.type {n : Text} {a : Act} {it : Item} {B : Nat} {Q : (Text → Prop) → List Item → Prop} (hr : o.rank n ≤ B) (hT : o.rank n < T)
    (hk : o.kind n = .type) (hi : n ≠ t!"__int_headers__")
    (ha : RunP P o T a (o.rank n) Q) (hu : ∀ prog l, Q prog l → ∀ x ∈ uses P it, HasP P o prog l x) (hreg : typeName P it = some n)
    (hreg' : regName P it = some n) :
    RunP P o T (defineOnce n (a ;; Headers.emit P it)) B fun prog l => HasP P o prog l n := by
  refine RunP.once hr hT (RunP.item ha (.inl ⟨n, hreg, Nat.le_refl _⟩) hu) (fun prog l hl => ?_) (fun prog l h => .inl (readyP_has hk hi h))
    fun prog l h _ => .inr ⟨h, hk⟩
  have hready := readyP_of_mem (prog := prog) hk hreg' hl
  exact ⟨hready, shrink (readyP_has hk hi hready)⟩

/-- The headers of integers and of `bool`. -/
theorem RunP.header {n : Text} {it : Item} {B : Nat} (hr : o.rank n < B) (hT : o.rank n < T) (hk : o.kind n = .type)
    (hu : uses P it = []) (hreg : regName P it = some n) :
    RunP P o T (defineOnce n (Headers.emit P it)) B fun _ l => ∃ it ∈ l, regName P it = some n := by
  intro k st prog hp hkn hw hc
  by_cases h : n ∈ st.defined
  · have e : defineOnce n (Headers.emit P it) k st = (st, none) := by rw [defineOnce, if_pos h]
    rw [e]
    refine ⟨hw, ⟨[], by simp⟩, fun _ => ⟨hkn, hc, ?_⟩⟩
    rcases hkn n h with h' | h'
    · have := (hp n h').1; omega
    · unfold ReadyP at h'
      rw [hk] at h'
      exact h'
  · have e : defineOnce n (Headers.emit P it) k st = Headers.emit P it k { st with defined := n :: st.defined } := by rw [defineOnce, if_neg h]
    rw [e]
    obtain ⟨e1, e2, _⟩ := emit_st P it k { st with defined := n :: st.defined }
    rw [e1]
    refine ⟨orderedByLevel_append hw (by rw [hu]; nofun), ⟨[it], rfl⟩, fun _ => ⟨fun x hx => ?_, fun x hx y hy => ?_, ⟨it, by simp, hreg⟩⟩⟩
    · rw [e2] at hx
      rw [e1]
      rcases List.mem_cons.1 hx with rfl | hx
      · exact .inr (readyP_of_mem hk hreg (by simp))
      · exact (hkn x hx).imp id fun hr => ReadyP.mono x _ _ _ hr
    · rcases List.mem_append.1 hx with hx | hx
      · exact (hc x hx y hy).mono
      · rw [List.mem_singleton.1 hx, hu] at hy
        cases hy

/-- A definition whose parts come before it is registered. -/
theorem RunP.after {n : Text} {a : Act} {it : Item} {B : Nat} {Q : (Text → Prop) → List Item → Prop} (hr : o.rank n ≤ B) 
    (hk : o.kind n = .type) (hi : n ≠ t!"__int_headers__")
    (ha : RunP P o T a B Q) (hu : ∀ prog l, Q prog l → ∀ x ∈ uses P it, HasP P o prog l x) (hreg : typeName P it = some n)
    (hreg' : regName P it = some n) :
    RunP P o T (a ;; defineOnce n (Headers.emit P it)) B fun prog l => HasP P o prog l n := by
  intro k st prog hp hkn hw hc
  obtain ⟨h1, ⟨n1, h2⟩, h3⟩ := ha k st prog hp hkn hw hc
  cases h : (a k st).2 with
  | some e =>
    rw [andThen_err h]
    exact ⟨h1, ⟨n1, h2⟩, fun hn => by rw [h] at hn; cases hn⟩
  | none =>
    rw [andThen_ok h]
    obtain ⟨hk', hc', hq⟩ := h3 h
    by_cases hd : n ∈ (a k st).1.defined
    · have e : defineOnce n (Headers.emit P it) k (a k st).1 = ((a k st).1, none) := by rw [defineOnce, if_pos hd]
      rw [e]
      refine ⟨h1, ⟨n1, h2⟩, fun _ => ⟨hk', hc', ?_⟩⟩
      rcases hk' n hd with h' | h'
      · exact .inr ⟨h', hk⟩
      · exact .inl (readyP_has hk hi h')
    · have e : defineOnce n (Headers.emit P it) k (a k st).1 = Headers.emit P it k { (a k st).1 with defined := n :: (a k st).1.defined } := by
        rw [defineOnce, if_neg hd]
      rw [e]
      obtain ⟨e1, e2, _⟩ := emit_st P it k { (a k st).1 with defined := n :: (a k st).1.defined }
      have hn : ReadyP P o prog n ((a k st).1.items ++ [it]) := readyP_of_mem hk hreg' (by simp)
      rw [e1]
      refine ⟨orderedByLevel_append h1 fun x hx => (hu _ _ hq x hx).imp id fun hz => ⟨n, hreg, ?_⟩,
        ⟨n1 ++ [it], by show (a k st).1.items ++ [it] = _; rw [h2, List.append_assoc]⟩,
        fun _ => ⟨fun x hx => ?_, fun x hx y hy => ?_, .inl (readyP_has hk hi hn)⟩⟩
      · have := (hp x hz.1).1; omega
      · rw [e2] at hx
        rw [e1]
        rcases List.mem_cons.1 hx with rfl | hx
        · exact .inr hn
        · exact (hk' x hx).imp id fun hr => ReadyP.mono x _ _ _ hr
      · rcases List.mem_append.1 hx with hx | hx
        · exact (hc' x hx y hy).mono
        · rw [List.mem_singleton.1 hx] at hy
          exact (hu _ _ hq y hy).mono

theorem RunP.insertFn {n : Text} {B : Nat} (hk : o.kind n = .function) : RunP P o T (insertFn n) B fun _ _ => True := by
  intro k st prog hp hkn hw hc
  rw [Headers.insertFn]
  split
  · exact ⟨hw, ⟨[], by simp⟩, fun h => by cases h⟩
  · refine ⟨hw, ⟨[], by simp⟩, fun _ => ⟨fun x hx => ?_, hc, trivial⟩⟩
    rcases List.mem_cons.1 hx with rfl | hx
    · exact .inr (by unfold ReadyP; rw [hk]; trivial)
    · exact hkn x hx

/-! ### `define` -/

def HasAllP (P : Prog) (o : Order) (ns : List Text) : (Text → Prop) → List Item → Prop := fun prog l => ∀ n ∈ ns, HasP P o prog l n

theorem HasAllP.mono (ns : List Text) : MonoP (HasAllP P o ns) := fun _ _ _ h n hn => (h n hn).mono

theorem withinAll_words {b : Nat → Text} {lang : Lang} {B : Nat} {tys : List CTy} (h : withinAll b o lang B tys) {a : CTy} (ha : a ∈ tys) :
    lang = .csharp → csWords b a = true := by
  induction tys with
  | nil => cases ha
  | cons x xs ih =>
    rcases List.mem_cons.1 ha with rfl | ha
    · exact h.1
    · exact ih h.2.2 ha

mutual
theorem define_runP {adt : Lang → Nat → List CTy → Act}
    (hadt : ∀ lang i g B, B < T → within P.base o lang B (.adt i g) → RunP P o T (adt lang i g) B (HasAllP P o (leaf P.base lang (.adt i g))))
    (lang : Lang) (B : Nat) (hT : B < T) (ty : CTy) (hf : within P.base o lang B ty) :
    RunP P o T (define P adt lang ty) B (HasAllP P o (leaf P.base lang ty)) := by
  match ty, hf with
  | .int k, hf =>
    rw [define_int]
    by_cases hl : lang = .csharp
    · subst hl
      rw [if_pos rfl]
      exact RunP.done.weaken (Nat.le_refl _) fun _ l _ n hn => by cases hn
    · rw [if_neg hl]
      obtain ⟨h1, h2, h3⟩ := hf.resolve_left hl
      refine (RunP.header h2 (by omega) h3 rfl rfl).weaken (Nat.le_refl _) fun _ l hr n hn => .inl (ready_int h3 (by unfold Ready; rw [h3]; exact hr) ?_)
      have hn' : n ∈ (ctype P.base (.int k)).names := by
        have := (leaf_base P.base hl hn).1
        cases lang <;> first | exact this | exact absurd rfl hl
      rw [ctype_int] at hn'
      rw [List.mem_singleton.1 hn']
      cases k <;> first | exact absurd rfl h1 | decide
  | .bool, hf =>
    rw [define_bool]
    by_cases hl : lang = .csharp
    · subst hl
      rw [if_pos rfl]
      exact RunP.done.weaken (Nat.le_refl _) fun _ l _ n hn => by cases hn
    · rw [if_neg hl]
      obtain ⟨h2, h3⟩ := hf.resolve_left hl
      refine (RunP.header h2 (by omega) h3 rfl rfl).weaken (Nat.le_refl _) fun _ l hr n hn => ?_
      have hn' : n ∈ (ctype P.base .bool).names := by
        have := (leaf_base P.base hl hn).1
        cases lang <;> first | exact this | exact absurd rfl hl
      rw [List.mem_singleton.1 hn']
      exact .inl (ready_has h3 (by decide) (by unfold Ready; rw [h3]; exact hr))
  | .float, _ => exact RunP.done.weaken (Nat.le_refl _) fun _ l _ n hn => by cases lang <;> exact absurd hn (by simp [leaf, intended, unalias, ctype_float, CT.names, keywords, csLeaf])
  | .double, _ => exact RunP.done.weaken (Nat.le_refl _) fun _ l _ n hn => by cases lang <;> exact absurd hn (by simp [leaf, intended, unalias, ctype_double, CT.names, keywords, csLeaf])
  | .cint, _ => exact RunP.done.weaken (Nat.le_refl _) fun _ l _ n hn => by cases lang <;> exact absurd hn (by simp [leaf, intended, unalias, ctype_cint, CT.names, keywords, csLeaf])
  | .cchar, _ => exact RunP.done.weaken (Nat.le_refl _) fun _ l _ n hn => by cases lang <;> exact absurd hn (by simp [leaf, intended, unalias, ctype_cchar, CT.names, keywords, csLeaf])
  | .void, _ => exact RunP.done.weaken (Nat.le_refl _) fun _ l _ n hn => by cases lang <;> exact absurd hn (by simp [leaf, intended, unalias, ctype_void, CT.names, keywords, csLeaf, kvoid])
  | .array n item, ⟨h1, h2, h3, h4⟩ =>
    have hleaf : ∀ prog l, HasP P o prog l (short P.base (.array n item) ++ t!"_t") → HasAllP P o (leaf P.base lang (.array n item)) prog l := by
      intro prog l hr x hx
      have : x = short P.base (.array n item) ++ t!"_t" := by
        cases lang with
        | csharp => exact List.mem_singleton.1 hx
        | c => exact List.mem_singleton.1 (leaf_base P.base (by decide) hx).1
        | python => exact List.mem_singleton.1 (leaf_base P.base (by decide) hx).1
      rw [this]
      exact hr
    rw [define_array]
    by_cases hl : lang = .csharp
    · subst hl
      rw [if_pos rfl, show csName P.base (.array n item) = _ from cArray_name P.base n item]
      exact (RunP.after (it := .type .csharp (.array n item)) h1 h2 (word_t_ne _)
        ((define_runP hadt .csharp _ (by omega) item h4).weaken h1 fun _ _ h => h)
        (fun _ l hq x hx => hq x (mentions_leaf P.base h3 hx)) rfl rfl).weaken (Nat.le_refl _) hleaf
    · rw [if_neg hl, cArray_name]
      rw [legacy_ne hl] at h4
      exact (RunP.type (it := .type .c (.array n item)) h1 (by omega) h2 (word_t_ne _) (define_runP hadt .c _ (by omega) item h4)
        (fun _ l hq x hx => hq x (mentions_leaf P.base (lang := .c) nofun hx)) rfl rfl).weaken (Nat.le_refl _) hleaf
  | .fptr ret args, ⟨h0, h1, h2, h3⟩ =>
    rw [define_fptr]
    by_cases hl : lang = .csharp
    · subst hl
      rw [if_pos rfl] at h2 h3
      have hr := (h0 rfl).1
      rw [if_pos rfl, ← andThen_assoc]
      refine (RunP.after (it := .type .csharp (.fptr ret args)) hr (h0 rfl).2 (fptr_ne _ _ _)
        (RunP.seq ((define_runP hadt .csharp _ (by omega) ret h2).weaken hr fun _ _ h => h) (HasAllP.mono _)
        ((defineAll_runP hadt .csharp _ (by omega) args h3).weaken hr fun _ _ h => h)) (fun _ l hq x hx => ?_) rfl rfl).weaken (Nat.le_refl _) fun _ l hr x hx => ?_
      · rcases List.mem_append.1 hx with hx | hx
        · exact hq.1 x (mentions_leaf P.base h1 hx)
        · obtain ⟨a, ha, hx⟩ := List.mem_flatMap.1 hx
          exact hq.2 a ha x (mentions_leaf P.base (withinAll_words h3 ha) hx)
      · rw [show x = short P.base (.fptr ret args) from List.mem_singleton.1 hx]
        exact hr
    · rw [if_neg hl]
      rw [legacy_ne hl, if_neg hl] at h2 h3
      refine (RunP.seq (define_runP hadt .c B hT ret h2) (HasAllP.mono _) (defineAll_runP hadt .c B hT args h3)).weaken (Nat.le_refl _) fun _ l hq x hx => ?_
      obtain ⟨hx, hnk⟩ := leaf_base P.base hl hx
      have hx' : x ∈ (ctype P.base ret).names ++ paramNames (ctypes P.base args) := by
        cases lang <;> first | exact hx | exact absurd rfl hl
      rcases List.mem_append.1 hx' with hx | hx
      · exact hq.1 x (List.mem_filter.2 ⟨hx, by simpa using hnk⟩)
      · obtain ⟨a, ha, hx⟩ := mem_paramNames P.base hx
        exact hq.2 a ha x (List.mem_filter.2 ⟨hx, by simpa using hnk⟩)
  | .constPtr to, hf =>
    rw [define_constPtr, (leaf_ptr P.base).1]
    exact define_runP hadt _ B hT to hf
  | .mutPtr to, hf =>
    rw [define_mutPtr, (leaf_ptr P.base).2]
    exact define_runP hadt _ B hT to hf
  | .alias rename docs inner, ⟨h1, h2, h3⟩ =>
    rw [define_alias, cAlias_name]
    by_cases hl : lang = .c
    · subst hl
      rw [if_pos rfl]
      rw [if_pos rfl] at h1 h2
      refine (RunP.type (it := .type .c (.alias rename docs inner)) h1 (by omega) h2 (word_t_ne _) (define_runP hadt .c _ (by omega) inner h3)
        (fun _ l hq x hx => hq x (mentions_leaf P.base (lang := .c) nofun hx)) rfl rfl).weaken
        (Nat.le_refl _) fun _ l hr x hx => ?_
      rw [show x = rename ++ t!"_t" from List.mem_singleton.1 (leaf_base P.base (by decide) hx).1]
      exact hr
    · rw [if_neg hl] at h1 h2
      rw [if_neg hl, leaf_alias P.base hl]
      have hready : ∀ prog l, ReadyP P o prog (rename ++ t!"_t") l ↔ HasAllP P o (leaf P.base lang inner) prog l := by
        intro prog l
        unfold ReadyP
        rw [h2]
        rfl
      have hsh : ∀ (prog : Text → Prop) l x, HasP P o (fun x => prog x ∨ x = rename ++ t!"_t") l x → HasP P o prog l x := by
        rintro prog l x (hx | ⟨hx | rfl, hk⟩)
        · exact .inl hx
        · exact .inr ⟨hx, hk⟩
        · rw [h2] at hk; cases hk
      exact RunP.once (Nat.le_of_lt h1) (by omega) ((RunP.seq (define_runP hadt lang _ (by omega) inner h3) (HasAllP.mono _) RunP.done))
        (fun prog l hq => ⟨(hready prog l).2 fun x hx => hsh _ _ _ (hq.1 x hx), hsh prog l⟩)
        (fun prog l h => (hready prog l).1 h) fun _ _ _ hB => by omega
  | .adt i g, hf => exact hadt lang i g B hT hf
theorem defineAll_runP {adt : Lang → Nat → List CTy → Act}
    (hadt : ∀ lang i g B, B < T → within P.base o lang B (.adt i g) → RunP P o T (adt lang i g) B (HasAllP P o (leaf P.base lang (.adt i g))))
    (lang : Lang) (B : Nat) (hT : B < T) (tys : List CTy) (hf : withinAll P.base o lang B tys) :
    RunP P o T (defineAll P adt lang tys) B fun prog l => ∀ ty ∈ tys, HasAllP P o (leaf P.base lang ty) prog l := by
  match tys, hf with
  | [], _ => exact RunP.done.weaken (Nat.le_refl _) fun _ l _ n hn => by cases hn
  | x :: xs, ⟨_, h1, h2⟩ =>
    rw [defineAll_cons]
    refine (RunP.seq (define_runP hadt lang B hT x h1) (HasAllP.mono _) (defineAll_runP hadt lang B hT xs h2)).weaken (Nat.le_refl _) fun _ l hl ty ht => ?_
    rcases List.mem_cons.1 ht with rfl | ht
    · exact hl.1
    · exact hl.2 ty ht
end

theorem defineAdt_runP (hd : ∀ lang i g, o.used lang i g →
      withinAll P.base o lang (o.rank (short P.base (.adt i g) ++ t!"_t")) (parts (P.decl i g)))
    (m : Nat) (lang : Lang) (i : Nat) (g : List CTy) (B : Nat) (hT : B < T) (hf : within P.base o lang B (.adt i g)) :
    RunP P o T (defineAdt P m lang i g) B (HasAllP P o (leaf P.base lang (.adt i g))) := by
  induction m generalizing lang i g B with
  | zero => exact RunP.fail
  | succ m ih =>
    obtain ⟨h1, h2, h3⟩ := hf
    have hp := hd lang i g h3
    rw [defineAdt, name_adt]
    refine (RunP.type h1 (by omega) h2 (word_t_ne _) (defineAll_runP (fun l i g B hT h => ih l i g B hT h) lang _ (by omega) (parts (P.decl i g)) hp)
      (fun prog l hq x hx => ?_) rfl rfl).weaken (Nat.le_refl _) fun _ l hr x hx => ?_
    · have hx' : x ∈ declMentions P.base lang (P.decl i g) := hx
      cases hdcl : P.decl i g with
      | struct docs size fs =>
        rw [hdcl] at hx' hq hp
        obtain ⟨f, hf, hx⟩ := List.mem_flatMap.1 hx'
        have hm : f.ty ∈ parts (.struct docs size fs) := List.mem_map.2 ⟨f, (List.mem_filter.1 hf).1, rfl⟩
        exact hq f.ty hm x (mentions_leaf P.base (withinAll_words hp hm) hx)
      | enum docs int vs =>
        rw [hdcl] at hx' hq
        cases lang with
        | csharp => cases int <;> cases hx'
        | python => cases int <;> cases hx'
        | c =>
          cases int with
          | none => cases hx'
          | some k =>
            refine hq (.int k) (List.mem_singleton.2 rfl) x ?_
            rw [List.mem_singleton.1 hx']
            cases k <;> exact List.mem_filter.2 ⟨List.mem_singleton.2 rfl, by decide⟩
      | «opaque» docs => rw [hdcl] at hx'; cases hx'
    · have : x = short P.base (.adt i g) ++ t!"_t" := by
        cases lang with
        | csharp => exact List.mem_singleton.1 hx
        | c => exact List.mem_singleton.1 (leaf_base P.base (by decide) hx).1
        | python => exact List.mem_singleton.1 (leaf_base P.base (by decide) hx).1
      rw [this]
      exact hr

/-! ### Exports -/

theorem withinAll_append {b : Nat → Text} {lang : Lang} {B : Nat} {xs ys : List CTy} :
    withinAll b o lang B (xs ++ ys) ↔ withinAll b o lang B xs ∧ withinAll b o lang B ys := by
  induction xs with
  | nil => simp [withinAll]
  | cons x xs ih =>
    show _ ∧ _ ∧ withinAll b o lang B (xs ++ ys) ↔ (_ ∧ _ ∧ _) ∧ _
    rw [ih]
    constructor
    · rintro ⟨a, b, c, d⟩; exact ⟨⟨a, b, c⟩, d⟩
    · rintro ⟨⟨a, b, c⟩, d⟩; exact ⟨a, b, c, d⟩

theorem MonoP.true : MonoP fun _ _ => True := fun _ _ _ _ => trivial

/-- What an exported type leads to. -/
def DeclaredP (P : Prog) (o : Order) (lang : Lang) : Export → (Text → Prop) → List Item → Prop
  | .type _ ty => HasAllP P o (mentions P.base lang ty)
  | _ => fun _ _ => True

theorem DeclaredP.mono (lang : Lang) (e : Export) : MonoP (DeclaredP P o lang e) := by
  cases e with
  | type n ty => exact HasAllP.mono _
  | _ => exact MonoP.true

theorem genDef_runP {lang : Lang} {bound : Nat} {es : List Export} (h : Levelled P o lang bound es) (m : Nat) {e : Export} (he : e ∈ es) :
    RunP P o (bound + 1) (genDef P m lang e) (bound + 1) (DeclaredP P o lang e) := by
  have hadt := defineAdt_runP (T := bound + 1) h.decls m
  have hx := h.exports e he
  have hb : bound < bound + 1 := by omega
  have up : ∀ {a Q}, RunP P o (bound + 1) a bound Q → RunP P o (bound + 1) a (bound + 1) Q := fun h => h.weaken (by omega) fun _ _ h => h
  cases e with
  | fn f =>
    obtain ⟨hx1, hx2⟩ := withinAll_append.1 hx
    have hr := RunP.seq (P := P) (B := bound + 1) (T := bound + 1) (RunP.insertFn (h.functions f he)) MonoP.true
      (RunP.seq (up (defineAll_runP hadt lang bound hb _ hx1)) (fun _ l new hl ty ht => HasAllP.mono _ _ _ _ (hl ty ht))
        (up (define_runP hadt lang bound hb f.ret hx2.2.1)))
    have := (RunP.item (it := .func lang f) hr (.inr (Nat.le_refl _)) fun _ l hq x hx => by
      rcases List.mem_append.1 hx with hx | hx
      · obtain ⟨a, ha, hx⟩ := List.mem_flatMap.1 hx
        have hm : a.ty ∈ f.args.map (·.ty) := List.mem_map.2 ⟨a, ha, rfl⟩
        exact hq.2.1 a.ty hm x (mentions_leaf P.base (withinAll_words hx1 hm) hx)
      · exact hq.2.2 x (mentions_leaf P.base hx2.1 hx)).weaken (Nat.le_refl _) (Q' := fun _ _ => True) fun _ _ _ => trivial
    rw [andThen_assoc, andThen_assoc] at this
    exact this
  | const c =>
    exact (RunP.item (it := .const lang c) (up (define_runP hadt lang bound hb c.ty hx.2.1)) (.inr (Nat.le_refl _)) fun _ l hq x hx' => by
      rw [uses] at hx'
      split at hx'
      · cases hx'
      · exact hq x (mentions_leaf P.base hx.1 hx')).weaken (Nat.le_refl _) fun _ _ _ => trivial
  | type n ty =>
    exact (up (define_runP hadt lang bound hb ty hx.2.1)).weaken (Nat.le_refl _) fun _ l hq x hx' => hq x (mentions_leaf P.base hx.1 hx')

theorem genAll_runP {lang : Lang} {bound : Nat} {es es' : List Export} (h : Levelled P o lang bound es) (m : Nat) (hs : ∀ e ∈ es', e ∈ es) :
    RunP P o (bound + 1) (genAll P m lang es') (bound + 1) fun prog l => ∀ e ∈ es', DeclaredP P o lang e prog l := by
  induction es' with
  | nil => exact RunP.done.weaken (Nat.le_refl _) fun _ l _ n hn => by cases hn
  | cons e es' ih =>
    refine (RunP.seq (genDef_runP h m (hs e (by simp))) (DeclaredP.mono _ _) (ih fun x hx => hs x (by simp [hx]))).weaken (Nat.le_refl _) fun _ l hl x hx => ?_
    rcases List.mem_cons.1 hx with rfl | hx
    · exact hl.1
    · exact hl.2 x hx

theorem writeText_runP (s : Option Text) (B : Nat) (hT : T ≤ B) : RunP P o T (writeText P s) B fun _ _ => True := by
  cases s with
  | none => exact RunP.done
  | some s => exact (RunP.item (a := done) RunP.done (.inr hT) fun _ l _ x hx => by cases hx).weaken (Nat.le_refl _) fun _ _ _ => trivial

theorem generate_runP {c : Config} {bound : Nat} {es : List Export} (h : Levelled P o c.lang bound es) (m : Nat)
    (hs : ∀ e ∈ ordered c.stable es, e ∈ es) :
    RunP P o (bound + 1) (generate P m c es) (bound + 1) fun prog l => ∀ e ∈ ordered c.stable es, DeclaredP P o c.lang e prog l := by
  refine (RunP.seq (writeText_runP (some c.writeBanner) _ (Nat.le_refl _)) MonoP.true (RunP.seq (writeText_runP c.prelude _ (Nat.le_refl _)) MonoP.true
    (RunP.seq (genAll_runP h m hs) (fun _ l new hl e he => DeclaredP.mono _ e _ _ _ (hl e he)) (writeText_runP c.epilogue _ (Nat.le_refl _))))).weaken
    (Nat.le_refl _) fun _ l hl => hl.2.2.1

end

end Verif.Headers
