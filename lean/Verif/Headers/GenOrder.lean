import Verif.Headers.GenLemmas
/-!
# The order of the items of a header
-/
namespace Verif.Headers
open Text

/-! ### Mentions -/

/-- The type whose name a C# declaration mentions. -/
def csLeaf (b : Nat → Text) : CTy → List Text
  | .constPtr to => csLeaf b to
  | .mutPtr to => csLeaf b to
  | .alias _ _ inner => csLeaf b inner
  | .array n item => [short b (.array n item) ++ t!"_t"]
  | .fptr ret args => [short b (.fptr ret args)]
  | .adt i g => [short b (.adt i g) ++ t!"_t"]
  | _ => []

theorem subset_of_nil {l m : List Text} (h : l = []) : l ⊆ m := by rw [h]; exact List.nil_subset _

theorem cs_leaf (b : Nat → Text) (ty : CTy) (h : csWords b ty = true) :
    [pointee (csPlain b ty)].filter (· ∉ csKeywords) ⊆ csLeaf b ty := by
  match ty, h with
  | .int k, _ => cases k <;> exact subset_of_nil (by rfl)
  | .float, _ => exact subset_of_nil (by rfl)
  | .double, _ => exact subset_of_nil (by rfl)
  | .bool, _ => exact subset_of_nil (by rfl)
  | .cint, _ => exact subset_of_nil (by rfl)
  | .cchar, _ => exact subset_of_nil (by rfl)
  | .void, _ => exact subset_of_nil (by rfl)
  | .array n item, h =>
    have e : csPlain b (.array n item) = short b (.array n item) ++ t!"_t" := by
      show cVar _ _ [] = _
      rw [cVar_array]; simp [sep]
    rw [e, pointee_word (named_word b (ty := .array n item) h)]
    exact fun x hx => (List.mem_filter.1 hx).1
  | .fptr ret args, h =>
    have e : csPlain b (.fptr ret args) = short b (.fptr ret args) := rfl
    rw [e, pointee_word (short_word b (.fptr ret args) h)]
    exact fun x hx => (List.mem_filter.1 hx).1
  | .constPtr to, h =>
    have e : csPlain b (.constPtr to) = csPlain b to ++ t!"  *" := rfl
    rw [e, pointee_star _ _ (by decide)]
    exact cs_leaf b to h
  | .mutPtr to, h =>
    have e : csPlain b (.mutPtr to) = csPlain b to ++ t!" *" := rfl
    rw [e, pointee_star _ _ (by decide)]
    exact cs_leaf b to h
  | .alias _ _ inner, h => exact cs_leaf b inner h
  | .adt i g, h =>
    have e : csPlain b (.adt i g) = short b (.adt i g) ++ t!"_t" := rfl
    rw [e, pointee_word (named_word b (ty := .adt i g) h)]
    exact fun x hx => (List.mem_filter.1 hx).1

/-- The names that are registered for a type, directly or within. -/
def leaf (b : Nat → Text) : Lang → CTy → List Text
  | .csharp, ty => csLeaf b ty
  | lang, ty => (ctype b (intended lang ty)).names.filter (· ∉ keywords)

theorem mentions_leaf (b : Nat → Text) {lang : Lang} {ty : CTy} (h : lang = .csharp → csWords b ty = true) :
    mentions b lang ty ⊆ leaf b lang ty := by
  cases lang with
  | csharp =>
    rw [mentions, code_csName' b (h rfl)]
    exact cs_leaf b ty (h rfl)
  | c => exact List.Subset.refl _
  | python => exact List.Subset.refl _

/-! ### Runs that keep the order -/

def Has (P : Prog) (items : List Item) (n : Text) : Prop := ∃ it ∈ items, n ∈ provides P it

theorem Has.mono {P : Prog} {items new : List Item} {n : Text} (h : Has P items n) : Has P (items ++ new) n :=
  let ⟨it, h1, h2⟩ := h
  ⟨it, List.mem_append.2 (.inl h1), h2⟩

/-- The name that an item is registered under. -/
def regName (P : Prog) : Item → Option Text
  | .intHeaders => some t!"__int_headers__"
  | .boolHeader => some t!"bool"
  | it => typeName P it

/-- The item that the name stands for is there. -/
def Ready (P : Prog) (o : Order) (n : Text) (items : List Item) : Prop :=
  match o.kind n with
  | .type => ∃ it ∈ items, regName P it = some n
  | .alias lang inner => ∀ x ∈ leaf P.base lang inner, Has P items x
  | .function => True

def Known (P : Prog) (o : Order) (prog : Text → Prop) (st : St) : Prop :=
  ∀ n ∈ st.defined, prog n ∨ Ready P o n st.items

theorem wellOrdered_append {P : Prog} {items : List Item} {it : Item} (h : WellOrdered P items) (hu : ∀ n ∈ uses P it, Has P items n) :
    WellOrdered P (items ++ [it]) := by
  intro pre x post e n hn
  rcases List.eq_nil_or_concat post with rfl | ⟨post', y, rfl⟩
  · have := List.append_inj' e rfl
    obtain ⟨rfl, e2⟩ := this
    simp at e2
    subst e2
    exact hu n hn
  · have e' : items ++ [it] = (pre ++ x :: post') ++ [y] := by rw [e]; simp
    have := List.append_inj' e' rfl
    exact h pre x post' this.1 n hn

/-- From a state where every registered name has its item, unless it is in progress, with names in
progress not below `B`: the run keeps the order, and if it succeeds the state is such again and `Q` holds
of the items. -/
def Run (P : Prog) (o : Order) (a : Act) (B : Nat) (Q : List Item → Prop) : Prop :=
  ∀ k st (prog : Text → Prop), (∀ n, prog n → B ≤ o.rank n) → Known P o prog st → WellOrdered P st.items →
    WellOrdered P (a k st).1.items ∧ (∃ new, (a k st).1.items = st.items ++ new) ∧
    ((a k st).2 = none → Known P o prog (a k st).1 ∧ Q (a k st).1.items)

def Mono (Q : List Item → Prop) : Prop := ∀ l new, Q l → Q (l ++ new)

section
variable {P : Prog} {o : Order}

theorem Run.done {B : Nat} : Run P o done B fun _ => True :=
  fun _ st _ _ hk hw => ⟨hw, ⟨[], by simp [Headers.done]⟩, fun _ => ⟨hk, trivial⟩⟩

theorem Run.weaken {a : Act} {B B' : Nat} {Q Q' : List Item → Prop} (h : Run P o a B Q) (hB : B ≤ B') (hQ : ∀ l, Q l → Q' l) :
    Run P o a B' Q' := by
  intro k st prog hp hk hw
  obtain ⟨h1, h2, h3⟩ := h k st prog (fun n hn => Nat.le_trans hB (hp n hn)) hk hw
  exact ⟨h1, h2, fun hn => ⟨(h3 hn).1, hQ _ (h3 hn).2⟩⟩

theorem Run.seq {a b : Act} {B : Nat} {Q R : List Item → Prop} (ha : Run P o a B Q) (hQ : Mono Q) (hb : Run P o b B R) :
    Run P o (a ;; b) B fun l => Q l ∧ R l := by
  intro k st prog hp hk hw
  obtain ⟨h1, ⟨n1, h2⟩, h3⟩ := ha k st prog hp hk hw
  cases h : (a k st).2 with
  | none =>
    rw [andThen_ok h]
    obtain ⟨hk', hq⟩ := h3 h
    obtain ⟨i1, ⟨n2, i2⟩, i3⟩ := hb k (a k st).1 prog hp hk' h1
    refine ⟨i1, ⟨n1 ++ n2, by rw [i2, h2, List.append_assoc]⟩, fun hn => ⟨(i3 hn).1, ?_, (i3 hn).2⟩⟩
    rw [i2]; exact hQ _ _ hq
  | some e =>
    rw [andThen_err h]
    exact ⟨h1, ⟨n1, h2⟩, fun hn => by rw [h] at hn; cases hn⟩

theorem Ready.mono (P : Prog) (o : Order) (n : Text) : Mono (Ready P o n) := by
  intro l new h
  unfold Ready at h ⊢
  split at h
  next => exact let ⟨it, h1, h2⟩ := h; ⟨it, List.mem_append.2 (.inl h1), h2⟩
  next => exact fun x hx => (h x hx).mono
  next => trivial

/-- An item after its parts. -/
theorem Run.item {a : Act} {it : Item} {B : Nat} {Q : List Item → Prop} (ha : Run P o a B Q)
    (hu : ∀ l, Q l → ∀ x ∈ uses P it, Has P l x) : Run P o (a ;; emit P it) B fun l => it ∈ l := by
  intro k st prog hp hk hw
  obtain ⟨h1, ⟨n1, h2⟩, h3⟩ := ha k st prog hp hk hw
  cases h : (a k st).2 with
  | some e =>
    rw [andThen_err h]
    exact ⟨h1, ⟨n1, h2⟩, fun hn => by rw [h] at hn; cases hn⟩
  | none =>
    rw [andThen_ok h]
    obtain ⟨hk', hq⟩ := h3 h
    obtain ⟨e1, e2, _⟩ := emit_st P it k (a k st).1
    refine ⟨?_, ⟨n1 ++ [it], by rw [e1, h2, List.append_assoc]⟩, fun _ => ⟨fun n hn => ?_, ?_⟩⟩
    · rw [e1]; exact wellOrdered_append h1 (hu _ hq)
    · rw [e2] at hn
      rw [e1]
      exact (hk' n hn).imp id fun hr => Ready.mono P o n _ _ hr
    · rw [e1]; simp

/-- A definition. -/
theorem Run.once {n : Text} {a : Act} {B : Nat} (hr : o.rank n < B) (ha : Run P o a (o.rank n) (Ready P o n)) :
    Run P o (defineOnce n a) B (Ready P o n) := by
  intro k st prog hp hkn hw
  by_cases h : n ∈ st.defined
  · have e : defineOnce n a k st = (st, none) := by rw [defineOnce, if_pos h]
    rw [e]
    refine ⟨hw, ⟨[], by simp⟩, fun _ => ⟨hkn, ?_⟩⟩
    rcases hkn n h with h' | h'
    · have := hp n h'; omega
    · exact h'
  · have e : defineOnce n a k st = a k { st with defined := n :: st.defined } := by rw [defineOnce, if_neg h]
    rw [e]
    obtain ⟨h1, h2, h3⟩ := ha k { st with defined := n :: st.defined } (fun x => prog x ∨ x = n)
      (by rintro x (hx | rfl)
          · have := hp x hx; omega
          · exact Nat.le_refl _)
      (by intro x hx
          rcases List.mem_cons.1 hx with rfl | hx
          · exact .inl (.inr rfl)
          · exact (hkn x hx).imp .inl id)
      hw
    refine ⟨h1, h2, fun hn => ⟨?_, (h3 hn).2⟩⟩
    intro x hx
    rcases (h3 hn).1 x hx with (h' | rfl) | h'
    · exact .inl h'
    · exact .inr (h3 hn).2
    · exact .inr h'

/-- A definition of a type. -/
theorem Run.type {n : Text} {a : Act} {it : Item} {B : Nat} {Q : List Item → Prop} (hr : o.rank n < B) (hk : o.kind n = .type)
    (ha : Run P o a (o.rank n) Q) (hu : ∀ l, Q l → ∀ x ∈ uses P it, Has P l x) (hreg : regName P it = some n) :
    Run P o (defineOnce n (a ;; emit P it)) B (Ready P o n) := by
  refine Run.once hr ((Run.item ha hu).weaken (Nat.le_refl _) fun l hl => ?_)
  unfold Ready
  rw [hk]
  exact ⟨it, hl, hreg⟩

theorem Run.type' {n : Text} {it : Item} {B : Nat} (hr : o.rank n < B) (hk : o.kind n = .type)
    (hu : uses P it = []) (hreg : regName P it = some n) : Run P o (defineOnce n (emit P it)) B (Ready P o n) := by
  have := Run.type (a := Headers.done) (P := P) hr hk Run.done (it := it) (fun l _ x hx => by rw [hu] at hx; cases hx) hreg
  exact this

/-- A definition whose parts come before it is registered. -/
theorem Run.after {n : Text} {a : Act} {it : Item} {B : Nat} {Q : List Item → Prop} (hr : o.rank n < B) (hk : o.kind n = .type)
    (ha : Run P o a B Q) (hu : ∀ l, Q l → ∀ x ∈ uses P it, Has P l x) (hreg : regName P it = some n) :
    Run P o (a ;; defineOnce n (emit P it)) B (Ready P o n) := by
  intro k st prog hp hkn hw
  obtain ⟨h1, ⟨n1, h2⟩, h3⟩ := ha k st prog hp hkn hw
  cases h : (a k st).2 with
  | some e =>
    rw [andThen_err h]
    exact ⟨h1, ⟨n1, h2⟩, fun hn => by rw [h] at hn; cases hn⟩
  | none =>
    rw [andThen_ok h]
    obtain ⟨hk', hq⟩ := h3 h
    by_cases hd : n ∈ (a k st).1.defined
    · have e : defineOnce n (emit P it) k (a k st).1 = ((a k st).1, none) := by rw [defineOnce, if_pos hd]
      rw [e]
      refine ⟨h1, ⟨n1, h2⟩, fun _ => ⟨hk', ?_⟩⟩
      rcases hk' n hd with h' | h'
      · have := hp n h'; omega
      · exact h'
    · have e : defineOnce n (emit P it) k (a k st).1 = emit P it k { (a k st).1 with defined := n :: (a k st).1.defined } := by
        rw [defineOnce, if_neg hd]
      rw [e]
      obtain ⟨e1, e2, _⟩ := emit_st P it k { (a k st).1 with defined := n :: (a k st).1.defined }
      have hn : Ready P o n ((a k st).1.items ++ [it]) := by
        unfold Ready
        rw [hk]
        exact ⟨it, by simp, hreg⟩
      refine ⟨?_, ⟨n1 ++ [it], by rw [e1]; show (a k st).1.items ++ [it] = _; rw [h2, List.append_assoc]⟩, fun _ => ⟨fun x hx => ?_, ?_⟩⟩
      · rw [e1]; exact wellOrdered_append h1 (hu _ hq)
      · rw [e2] at hx
        rw [e1]
        rcases List.mem_cons.1 hx with rfl | hx
        · exact .inr hn
        · exact (hk' x hx).imp id fun hr => Ready.mono P o x _ _ hr
      · rw [e1]; exact hn

theorem Run.fail {e : Err} {B : Nat} {Q : List Item → Prop} : Run P o (fail e) B Q :=
  fun _ st _ _ _ hw => ⟨hw, ⟨[], by simp [Headers.fail]⟩, fun h => by cases h⟩

theorem Run.insertFn {n : Text} {B : Nat} (hk : o.kind n = .function) : Run P o (insertFn n) B fun _ => True := by
  intro k st prog hp hkn hw
  rw [Headers.insertFn]
  split
  · exact ⟨hw, ⟨[], by simp⟩, fun h => by cases h⟩
  · refine ⟨hw, ⟨[], by simp⟩, fun _ => ⟨fun x hx => ?_, trivial⟩⟩
    rcases List.mem_cons.1 hx with rfl | hx
    · exact .inr (by unfold Ready; rw [hk]; trivial)
    · exact hkn x hx

end

/-! ### Registered names -/

theorem last_ne {x s y : Text} {a c : Char} (hs : s.getLast? = some a) (hy : y.getLast? = some c) (h : a ≠ c) : x ++ s ≠ y := fun hx => by
  have := congrArg List.getLast? hx
  rw [List.getLast?_append, hs, hy] at this
  exact h (Option.some.inj this)

theorem int_reg {P : Prog} {it : Item} (h : regName P it = some t!"__int_headers__") : it = .intHeaders := by
  have hl : ∀ x : Text, x ++ t!"_t" ≠ t!"__int_headers__" := fun x => last_ne rfl rfl (by decide)
  cases it with
  | intHeaders => rfl
  | type lang ty =>
    cases ty <;> first | cases h | skip
    all_goals (have h' := Option.some.inj h)
    · exact absurd h' (hl _)
    · rw [short_fptr] at h'
      exact absurd h' (last_ne rfl rfl (by decide))
    · exact absurd h' (hl _)
    · exact absurd h' (hl _)
  | _ => cases h

theorem bool_reg {P : Prog} {it : Item} (h : regName P it = some t!"bool") : it = .boolHeader := by
  have hl : ∀ x : Text, x ++ t!"_t" ≠ t!"bool" := fun x => last_ne rfl rfl (by decide)
  cases it with
  | boolHeader => rfl
  | type lang ty =>
    cases ty <;> first | cases h | skip
    all_goals (have h' := Option.some.inj h)
    · exact absurd h' (hl _)
    · rw [short_fptr] at h'
      exact absurd h' (last_ne rfl rfl (by decide))
    · exact absurd h' (hl _)
    · exact absurd h' (hl _)
  | _ => cases h

theorem ready_has {P : Prog} {o : Order} {n : Text} {l : List Item} (hk : o.kind n = .type)
    (hi : n ≠ t!"__int_headers__") (hr : Ready P o n l) : Has P l n := by
  unfold Ready at hr
  rw [hk] at hr
  obtain ⟨it, h1, h2⟩ := hr
  refine ⟨it, h1, ?_⟩
  cases it with
  | intHeaders => exact absurd (Option.some.inj h2).symm hi
  | boolHeader => rw [← Option.some.inj h2]; exact List.mem_singleton.2 rfl
  | type lang ty =>
    have e : provides P (.type lang ty) = (typeName P (.type lang ty)).toList := rfl
    rw [e, show typeName P (.type lang ty) = some n from h2]
    simp
  | func _ _ => cases h2
  | const _ _ => cases h2
  | text _ => cases h2

theorem ready_int {P : Prog} {o : Order} {l : List Item} (hk : o.kind t!"__int_headers__" = .type)
    (hr : Ready P o t!"__int_headers__" l) {n : Text} (hn : n ∈ intNames) : Has P l n := by
  unfold Ready at hr
  rw [hk] at hr
  obtain ⟨it, h1, h2⟩ := hr
  rw [int_reg h2] at h1
  exact ⟨_, h1, hn⟩

theorem word_t_ne (x : Text) : x ++ t!"_t" ≠ t!"__int_headers__" := last_ne rfl rfl (by decide)

theorem fptr_ne (b : Nat → Text) (ret : CTy) (args : List CTy) : short b (.fptr ret args) ≠ t!"__int_headers__" := by
  rw [short_fptr]; exact last_ne rfl rfl (by decide)

/-! ### What the leaves are -/

section
variable (b : Nat → Text)

theorem leaf_base {lang : Lang} {ty : CTy} {n : Text} (hl : lang ≠ .csharp) (hn : n ∈ leaf b lang ty) :
    n ∈ (ctype b (intended lang ty)).names ∧ n ∉ keywords := by
  cases lang with
  | csharp => exact absurd rfl hl
  | c => exact ⟨(List.mem_filter.1 hn).1, by simpa using (List.mem_filter.1 hn).2⟩
  | python => exact ⟨(List.mem_filter.1 hn).1, by simpa using (List.mem_filter.1 hn).2⟩

theorem leaf_ptr {lang : Lang} {to : CTy} : leaf b lang (.constPtr to) = leaf b (legacy lang) to ∧ leaf b lang (.mutPtr to) = leaf b (legacy lang) to := by
  cases lang <;> exact ⟨rfl, rfl⟩

theorem leaf_alias {lang : Lang} {rn : Text} {d : List Text} {inner : CTy} (h : lang ≠ .c) :
    leaf b lang (.alias rn d inner) = leaf b lang inner := by
  cases lang with
  | c => exact absurd rfl h
  | csharp => rfl
  | python => rfl

theorem mem_paramNames {args : List CTy} {n : Text} (h : n ∈ paramNames (ctypes b args)) :
    ∃ a ∈ args, n ∈ (ctype b a).names := by
  induction args with
  | nil => cases h
  | cons x xs ih =>
    rw [ctypes_cons, paramNames] at h
    rcases List.mem_append.1 h with h | h
    · exact ⟨x, by simp, h⟩
    · obtain ⟨a, h1, h2⟩ := ih h
      exact ⟨a, by simp [h1], h2⟩

end

theorem cArray_name (b : Nat → Text) (n : Nat) (item : CTy) : cName b (.array n item) = short b (.array n item) ++ t!"_t" := by
  show cVar _ _ [] = _
  rw [cVar_array]; simp [sep]

theorem cAlias_name (b : Nat → Text) (rn : Text) (d : List Text) (inner : CTy) : cName b (.alias rn d inner) = rn ++ t!"_t" := by
  show cVar _ _ [] = _
  rw [cVar_alias]; simp [sep]

/-! ### `define` -/

section
variable {P : Prog} {o : Order}

def HasAll (P : Prog) (ns : List Text) : List Item → Prop := fun l => ∀ n ∈ ns, Has P l n

theorem HasAll.mono (ns : List Text) : Mono (HasAll P ns) := fun _ _ h n hn => (h n hn).mono

theorem legacy_ne {lang : Lang} (h : lang ≠ .csharp) : legacy lang = .c := by cases lang <;> first | rfl | exact absurd rfl h

theorem fitsAll_words {b : Nat → Text} {B : Nat} {tys : List CTy} (h : fitsAll b o .csharp B tys) : ∀ a ∈ tys, csWords b a = true := by
  induction tys with
  | nil => nofun
  | cons x xs ih =>
    intro a ha
    rcases List.mem_cons.1 ha with rfl | ha
    · exact h.1 rfl
    · exact ih h.2.2 a ha

mutual
theorem define_run {adt : Lang → Nat → List CTy → Act}
    (hadt : ∀ lang i g B, fits P.base o lang B (.adt i g) → Run P o (adt lang i g) B (HasAll P (leaf P.base lang (.adt i g))))
    (lang : Lang) (B : Nat) (ty : CTy) (hf : fits P.base o lang B ty) :
    Run P o (define P adt lang ty) B (HasAll P (leaf P.base lang ty)) := by
  match ty, hf with
  | .int k, hf =>
    rw [define_int]
    by_cases hl : lang = .csharp
    · subst hl
      rw [if_pos rfl]
      exact Run.done.weaken (Nat.le_refl _) fun l _ n hn => by cases hn
    · rw [if_neg hl]
      obtain ⟨h1, h2, h3⟩ := hf.resolve_left hl
      refine (Run.type' h2 h3 rfl rfl).weaken (Nat.le_refl _) fun l hr n hn => ready_int h3 hr ?_
      have hn' : n ∈ (ctype P.base (.int k)).names := by
        have := (leaf_base P.base hl hn).1
        cases lang <;> first | exact this | exact absurd rfl hl
      rw [ctype_int] at hn'
      rw [List.mem_singleton.1 hn']
      cases k <;> first | exact absurd rfl h1 | decide
  | .bool, hf =>
    rw [define_bool]
    by_cases hl : lang = .csharp
    · subst hl
      rw [if_pos rfl]
      exact Run.done.weaken (Nat.le_refl _) fun l _ n hn => by cases hn
    · rw [if_neg hl]
      obtain ⟨h2, h3⟩ := hf.resolve_left hl
      refine (Run.type' h2 h3 rfl rfl).weaken (Nat.le_refl _) fun l hr n hn => ?_
      have hn' : n ∈ (ctype P.base .bool).names := by
        have := (leaf_base P.base hl hn).1
        cases lang <;> first | exact this | exact absurd rfl hl
      rw [List.mem_singleton.1 hn']
      exact ready_has h3 (by decide) hr
  | .float, _ => exact Run.done.weaken (Nat.le_refl _) fun l _ n hn => by cases lang <;> exact absurd hn (by simp [leaf, intended, unalias, ctype_float, CT.names, keywords, csLeaf])
  | .double, _ => exact Run.done.weaken (Nat.le_refl _) fun l _ n hn => by cases lang <;> exact absurd hn (by simp [leaf, intended, unalias, ctype_double, CT.names, keywords, csLeaf])
  | .cint, _ => exact Run.done.weaken (Nat.le_refl _) fun l _ n hn => by cases lang <;> exact absurd hn (by simp [leaf, intended, unalias, ctype_cint, CT.names, keywords, csLeaf])
  | .cchar, _ => exact Run.done.weaken (Nat.le_refl _) fun l _ n hn => by cases lang <;> exact absurd hn (by simp [leaf, intended, unalias, ctype_cchar, CT.names, keywords, csLeaf])
  | .void, _ => exact Run.done.weaken (Nat.le_refl _) fun l _ n hn => by cases lang <;> exact absurd hn (by simp [leaf, intended, unalias, ctype_void, CT.names, keywords, csLeaf, kvoid])
  | .array n item, ⟨h1, h2, h3, h4⟩ =>
    have hleaf : ∀ l, Ready P o (short P.base (.array n item) ++ t!"_t") l → HasAll P (leaf P.base lang (.array n item)) l := by
      intro l hr x hx
      have : x = short P.base (.array n item) ++ t!"_t" := by
        cases lang with
        | csharp => exact List.mem_singleton.1 hx
        | c => exact List.mem_singleton.1 (leaf_base P.base (by decide) hx).1
        | python => exact List.mem_singleton.1 (leaf_base P.base (by decide) hx).1
      rw [this]
      exact ready_has h2 (word_t_ne _) hr
    rw [define_array]
    by_cases hl : lang = .csharp
    · subst hl
      rw [if_pos rfl, show csName P.base (.array n item) = _ from cArray_name P.base n item]
      exact (Run.after (it := .type .csharp (.array n item)) h1 h2 ((define_run hadt .csharp _ item h4).weaken (Nat.le_of_lt h1) fun _ h => h)
        (fun l hq x hx => hq x (mentions_leaf P.base h3 hx)) rfl).weaken (Nat.le_refl _) hleaf
    · rw [if_neg hl, cArray_name]
      rw [legacy_ne hl] at h4
      exact (Run.type (it := .type .c (.array n item)) h1 h2 (define_run hadt .c _ item h4) (fun l hq x hx => hq x (mentions_leaf P.base (lang := .c) nofun hx)) rfl).weaken
        (Nat.le_refl _) hleaf
  | .fptr ret args, ⟨h0, h1, h2, h3⟩ =>
    rw [define_fptr]
    by_cases hl : lang = .csharp
    · subst hl
      rw [if_pos rfl, ← andThen_assoc]
      refine (Run.after (it := .type .csharp (.fptr ret args)) (h0 rfl).1 (h0 rfl).2 (Run.seq (define_run hadt .csharp B ret h2) (HasAll.mono _)
        (defineAll_run hadt .csharp B args h3)) (fun l hq x hx => ?_) rfl).weaken (Nat.le_refl _) fun l hr x hx => ?_
      · rcases List.mem_append.1 hx with hx | hx
        · exact hq.1 x (mentions_leaf P.base h1 hx)
        · obtain ⟨a, ha, hx⟩ := List.mem_flatMap.1 hx
          exact hq.2 a ha x (mentions_leaf P.base (fun _ => fitsAll_words h3 a ha) hx)
      · rw [show x = short P.base (.fptr ret args) from List.mem_singleton.1 hx]
        exact ready_has (h0 rfl).2 (fptr_ne _ _ _) hr
    · rw [if_neg hl]
      rw [legacy_ne hl] at h2 h3
      refine (Run.seq (define_run hadt .c B ret h2) (HasAll.mono _) (defineAll_run hadt .c B args h3)).weaken (Nat.le_refl _) fun l hq x hx => ?_
      obtain ⟨hx, hnk⟩ := leaf_base P.base hl hx
      have hx' : x ∈ (ctype P.base ret).names ++ paramNames (ctypes P.base args) := by
        cases lang <;> first | exact hx | exact absurd rfl hl
      rcases List.mem_append.1 hx' with hx | hx
      · exact hq.1 x (List.mem_filter.2 ⟨hx, by simpa using hnk⟩)
      · obtain ⟨a, ha, hx⟩ := mem_paramNames P.base hx
        exact hq.2 a ha x (List.mem_filter.2 ⟨hx, by simpa using hnk⟩)
  | .constPtr to, hf =>
    rw [define_constPtr, (leaf_ptr P.base).1]
    exact define_run hadt _ B to hf
  | .mutPtr to, hf =>
    rw [define_mutPtr, (leaf_ptr P.base).2]
    exact define_run hadt _ B to hf
  | .alias rename docs inner, ⟨h1, h2, h3⟩ =>
    rw [define_alias, cAlias_name]
    have ih := define_run hadt lang _ inner h3
    by_cases hl : lang = .c
    · subst hl
      rw [if_pos rfl]
      rw [if_pos rfl] at h2
      refine (Run.type (it := .type .c (.alias rename docs inner)) h1 h2 ih (fun l hq x hx => hq x (mentions_leaf P.base (lang := .c) nofun hx)) rfl).weaken
        (Nat.le_refl _) fun l hr x hx => ?_
      rw [show x = rename ++ t!"_t" from List.mem_singleton.1 (leaf_base P.base (by decide) hx).1]
      exact ready_has h2 (word_t_ne _) hr
    · rw [if_neg hl] at h2
      rw [if_neg hl, leaf_alias P.base hl]
      have hready : ∀ l, Ready P o (rename ++ t!"_t") l ↔ HasAll P (leaf P.base lang inner) l := by
        intro l
        unfold Ready
        rw [h2]
        rfl
      refine (Run.once h1 ((Run.seq ih (HasAll.mono _) Run.done).weaken (Nat.le_refl _) fun l hq => (hready l).2 hq.1)).weaken
        (Nat.le_refl _) fun l hq => (hready l).1 hq
  | .adt i g, hf => exact hadt lang i g B hf
theorem defineAll_run {adt : Lang → Nat → List CTy → Act}
    (hadt : ∀ lang i g B, fits P.base o lang B (.adt i g) → Run P o (adt lang i g) B (HasAll P (leaf P.base lang (.adt i g))))
    (lang : Lang) (B : Nat) (tys : List CTy) (hf : fitsAll P.base o lang B tys) :
    Run P o (defineAll P adt lang tys) B fun l => ∀ ty ∈ tys, HasAll P (leaf P.base lang ty) l := by
  match tys, hf with
  | [], _ => exact Run.done.weaken (Nat.le_refl _) fun l _ n hn => by cases hn
  | x :: xs, ⟨_, h1, h2⟩ =>
    rw [defineAll_cons]
    refine (Run.seq (define_run hadt lang B x h1) (HasAll.mono _) (defineAll_run hadt lang B xs h2)).weaken (Nat.le_refl _) fun l hl ty ht => ?_
    rcases List.mem_cons.1 ht with rfl | ht
    · exact hl.1
    · exact hl.2 ty ht
end


theorem fitsAll_words' {b : Nat → Text} {lang : Lang} {B : Nat} {tys : List CTy} (h : fitsAll b o lang B tys) {a : CTy} (ha : a ∈ tys) :
    lang = .csharp → csWords b a = true := fun hl => by
  subst hl; exact fitsAll_words h a ha

theorem defineAdt_run (hd : ∀ lang i g, o.used lang i g →
      fitsAll P.base o lang (o.rank (short P.base (.adt i g) ++ t!"_t")) (parts (P.decl i g)))
    (m : Nat) (lang : Lang) (i : Nat) (g : List CTy) (B : Nat) (hf : fits P.base o lang B (.adt i g)) :
    Run P o (defineAdt P m lang i g) B (HasAll P (leaf P.base lang (.adt i g))) := by
  induction m generalizing lang i g B with
  | zero => exact Run.fail
  | succ m ih =>
    obtain ⟨h1, h2, h3⟩ := hf
    have hp := hd lang i g h3
    rw [defineAdt, name_adt]
    refine (Run.type h1 h2 (defineAll_run (fun l i g B h => ih l i g B h) lang _ (parts (P.decl i g)) hp) (fun l hq x hx => ?_) rfl).weaken
      (Nat.le_refl _) fun l hr x hx => ?_
    · have hx' : x ∈ declMentions P.base lang (P.decl i g) := hx
      cases hdcl : P.decl i g with
      | struct docs size fs =>
        rw [hdcl] at hx' hq hp
        obtain ⟨f, hf, hx⟩ := List.mem_flatMap.1 hx'
        have hm : f.ty ∈ parts (.struct docs size fs) := List.mem_map.2 ⟨f, (List.mem_filter.1 hf).1, rfl⟩
        exact hq f.ty hm x (mentions_leaf P.base (fitsAll_words' hp hm) hx)
      | enum docs int vs =>
        rw [hdcl] at hx' hq
        cases lang with
        | csharp => cases int <;> cases hx'
        | python => cases int <;> cases hx'
        | c =>
          cases int with
          | none => cases hx'
          | some k =>
            refine hq (.int k) (List.mem_singleton.2 rfl) x ?_
            rw [List.mem_singleton.1 hx']
            cases k <;> exact List.mem_filter.2 ⟨List.mem_singleton.2 rfl, by decide⟩
      | «opaque» docs => rw [hdcl] at hx'; cases hx'
    · have : x = short P.base (.adt i g) ++ t!"_t" := by
        cases lang with
        | csharp => exact List.mem_singleton.1 hx
        | c => exact List.mem_singleton.1 (leaf_base P.base (by decide) hx).1
        | python => exact List.mem_singleton.1 (leaf_base P.base (by decide) hx).1
      rw [this]
      exact ready_has h2 (word_t_ne _) hr

/-! ### Exports -/

theorem fitsAll_append {b : Nat → Text} {lang : Lang} {B : Nat} {xs ys : List CTy} :
    fitsAll b o lang B (xs ++ ys) ↔ fitsAll b o lang B xs ∧ fitsAll b o lang B ys := by
  induction xs with
  | nil => simp [fitsAll]
  | cons x xs ih =>
    show _ ∧ _ ∧ fitsAll b o lang B (xs ++ ys) ↔ (_ ∧ _ ∧ _) ∧ _
    rw [ih]
    constructor
    · rintro ⟨a, b, c, d⟩; exact ⟨⟨a, b, c⟩, d⟩
    · rintro ⟨⟨a, b, c⟩, d⟩; exact ⟨a, b, c, d⟩

theorem Mono.true : Mono fun _ => True := fun _ _ _ => trivial

/-- What an exported type leads to. -/
def Declared (P : Prog) (lang : Lang) : Export → List Item → Prop
  | .type _ ty => HasAll P (mentions P.base lang ty)
  | _ => fun _ => True

theorem Declared.mono (lang : Lang) (e : Export) : Mono (Declared P lang e) := by
  cases e with
  | type n ty => exact HasAll.mono _
  | _ => exact Mono.true

theorem genDef_run {lang : Lang} {bound : Nat} {es : List Export} (h : NonRecursive P o lang bound es) (m : Nat) {e : Export} (he : e ∈ es) :
    Run P o (genDef P m lang e) bound (Declared P lang e) := by
  have hadt := defineAdt_run h.decls m
  have hx := h.exports e he
  cases e with
  | fn f =>
    obtain ⟨hx1, hx2⟩ := fitsAll_append.1 hx
    have hr := Run.seq (P := P) (B := bound) (Run.insertFn (h.functions f he)) Mono.true
      (Run.seq (defineAll_run hadt lang bound _ hx1) (fun l new hl ty ht => HasAll.mono _ _ _ (hl ty ht))
        (define_run hadt lang bound f.ret hx2.2.1))
    have := (Run.item (it := .func lang f) hr fun l hq x hx => by
      rcases List.mem_append.1 hx with hx | hx
      · obtain ⟨a, ha, hx⟩ := List.mem_flatMap.1 hx
        have hm : a.ty ∈ f.args.map (·.ty) := List.mem_map.2 ⟨a, ha, rfl⟩
        exact hq.2.1 a.ty hm x (mentions_leaf P.base (fitsAll_words' hx1 hm) hx)
      · exact hq.2.2 x (mentions_leaf P.base hx2.1 hx)).weaken (Nat.le_refl _) (Q' := fun _ => True) fun _ _ => trivial
    rw [andThen_assoc, andThen_assoc] at this
    exact this
  | const c =>
    exact (Run.item (it := .const lang c) (define_run hadt lang bound c.ty hx.2.1) fun l hq x hx' => by
      rw [uses] at hx'
      split at hx'
      · cases hx'
      · exact hq x (mentions_leaf P.base hx.1 hx')).weaken (Nat.le_refl _) fun _ _ => trivial
  | type n ty =>
    exact (define_run hadt lang bound ty hx.2.1).weaken (Nat.le_refl _) fun l hq x hx' => hq x (mentions_leaf P.base hx.1 hx')

theorem genAll_run {lang : Lang} {bound : Nat} {es es' : List Export} (h : NonRecursive P o lang bound es) (m : Nat) (hs : ∀ e ∈ es', e ∈ es) :
    Run P o (genAll P m lang es') bound fun l => ∀ e ∈ es', Declared P lang e l := by
  induction es' with
  | nil => exact Run.done.weaken (Nat.le_refl _) fun l _ n hn => by cases hn
  | cons e es' ih =>
    refine (Run.seq (genDef_run h m (hs e (by simp))) (Declared.mono _ _) (ih fun x hx => hs x (by simp [hx]))).weaken (Nat.le_refl _) fun l hl x hx => ?_
    rcases List.mem_cons.1 hx with rfl | hx
    · exact hl.1
    · exact hl.2 x hx

theorem writeText_run (s : Option Text) (B : Nat) : Run P o (writeText P s) B fun _ => True := by
  cases s with
  | none => exact Run.done
  | some s => exact (Run.item (a := done) Run.done fun l _ x hx => by cases hx).weaken (Nat.le_refl _) fun _ _ => trivial

theorem generate_run {c : Config} {bound : Nat} {es : List Export} (h : NonRecursive P o c.lang bound es) (m : Nat)
    (hs : ∀ e ∈ ordered c.stable es, e ∈ es) :
    Run P o (generate P m c es) bound fun l => ∀ e ∈ ordered c.stable es, Declared P c.lang e l := by
  refine (Run.seq (writeText_run (some c.writeBanner) bound) Mono.true (Run.seq (writeText_run c.prelude bound) Mono.true
    (Run.seq (genAll_run h m hs) (fun l new hl e he => Declared.mono _ e _ _ (hl e he)) (writeText_run c.epilogue bound)))).weaken
    (Nat.le_refl _) fun l hl => hl.2.2.1

end

end Verif.Headers
