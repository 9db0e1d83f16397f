import Verif.Headers.CsItems
import Verif.Headers.AbiCover
/-! # A C# header declares every type that the exports mention, also behind pointers -/
namespace Verif.Headers.Cs
open Text

/-- The registered types that a type mentions, outside of other definitions. -/
def marks : CTy → List CTy
  | .array n t => [.array n t]
  | .fptr r as => [.fptr r as]
  | .alias rn docs t => [.alias rn docs t]
  | .adt i g => [.adt i g]
  | .constPtr t => marks t
  | .mutPtr t => marks t
  | _ => []

def marksAll (ts : List CTy) : List CTy := ts.flatMap marks

/-- Those that a definition mentions. -/
def inner (P : Prog) : CTy → List CTy
  | .array _ t => marks t
  | .fptr r as => marks r ++ marksAll as
  | .alias _ _ t => marks t
  | .adt i g => marksAll (parts (P.decl i g))
  | _ => []

theorem mem_marksAll {l : CTy} {ts : List CTy} : l ∈ marksAll ts ↔ ∃ x ∈ ts, l ∈ marks x := List.mem_flatMap

theorem marks_self {t : CTy} (h : isReg t = true) : t ∈ marks t := by
  cases t <;> first | (cases h; done) | simp [marks]

section
variable {P : Prog} {es : List Export}

/-! ### Items and what is registered -/

/-- The item is that of a reachable type whose parts are registered, or of an export. -/
def Fits (P : Prog) (es : List Export) (defined : List Text) : Item → Prop
  | .type lang t => lang = .csharp ∧ isItem t = true ∧ Reach P es t ∧ ∀ l ∈ inner P t, reg P.base l ∈ defined
  | .func lang f => lang = .csharp ∧ .fn f ∈ es
  | .const lang c => lang = .csharp ∧ .const c ∈ es
  | _ => False

theorem Fits.mono {d d' : List Text} (hd : ∀ n ∈ d, n ∈ d') {it : Item} (h : Fits P es d it) : Fits P es d' it := by
  cases it with
  | type lang t => exact ⟨h.1, h.2.1, h.2.2.1, fun l hl => hd _ (h.2.2.2 l hl)⟩
  | _ => exact h

/-- The name belongs to an item, or to an alias whose type is registered. -/
def Owned (P : Prog) (es : List Export) (defined : List Text) (items : List Item) (n : Text) : Prop :=
  (∃ t, .type .csharp t ∈ items ∧ n = reg P.base t) ∨
  (∃ t, Reach P es t ∧ isReg t = true ∧ isItem t = false ∧ n = reg P.base t ∧ ∀ l ∈ inner P t, reg P.base l ∈ defined) ∨
  ∃ f, .func .csharp f ∈ items ∧ n = f.name

theorem Owned.mono {d d' : List Text} {a b : List Item} (hd : ∀ n ∈ d, n ∈ d') (h : ∀ it ∈ a, it ∈ b) {n : Text} (ho : Owned P es d a n) :
    Owned P es d' b n := by
  rcases ho with ⟨t, h1, h2⟩ | ⟨t, h1, h2, h3, h4, h5⟩ | ⟨f, h1, h2⟩
  · exact .inl ⟨t, h _ h1, h2⟩
  · exact .inr (.inl ⟨t, h1, h2, h3, h4, fun l hl => hd _ (h5 l hl)⟩)
  · exact .inr (.inr ⟨f, h _ h1, h2⟩)

/-- What a successful action does. -/
structure Covers (P : Prog) (es : List Export) (L : List CTy) (st st' : St) (new : List Item) : Prop where
  items : st'.items = st.items ++ new
  mono : ∀ n ∈ st.defined, n ∈ st'.defined
  marks : ∀ l ∈ L, reg P.base l ∈ st'.defined
  fits : ∀ it ∈ new, Fits P es st'.defined it ∧ (render P it).panics = false
  owned : ∀ n ∈ st'.defined, n ∈ st.defined ∨ Owned P es st'.defined new n

def Cov (P : Prog) (es : List Export) (a : Act) (L : List CTy) : Prop := ∀ k st, (a k st).2 = none → ∃ new, Covers P es L st (a k st).1 new

theorem Cov.done : Cov P es done [] := fun _ st _ => ⟨[], by simp [Verif.Headers.done], fun _ h => h, nofun, nofun, fun _ h => .inl h⟩

theorem Covers.trans {L M : List CTy} {s1 s2 s3 : St} {a b : List Item} (h : Covers P es L s1 s2 a) (h' : Covers P es M s2 s3 b) :
    Covers P es (L ++ M) s1 s3 (a ++ b) where
  items := by rw [h'.items, h.items, List.append_assoc]
  mono n hn := h'.mono n (h.mono n hn)
  marks l hl := (List.mem_append.1 hl).elim (fun hl => h'.mono _ (h.marks l hl)) (h'.marks l)
  fits it hit := (List.mem_append.1 hit).elim (fun hi => ⟨(h.fits it hi).1.mono h'.mono, (h.fits it hi).2⟩) (h'.fits it)
  owned n hn := (h'.owned n hn).elim
    (fun hn => (h.owned n hn).imp_right (Owned.mono h'.mono fun it hi => by simp [hi])) fun ho => .inr (ho.mono (fun _ h => h) fun it hi => by simp [hi])

theorem Cov.seq {a b : Act} {L M : List CTy} (ha : Cov P es a L) (hb : Cov P es b M) : Cov P es (a ;; b) (L ++ M) := by
  intro k st h
  obtain ⟨h1, e, h2⟩ := Verif.Headers.seq_ok h
  obtain ⟨n1, c1⟩ := ha k st h1
  obtain ⟨n2, c2⟩ := hb k _ h2
  rw [e]
  exact ⟨_, c1.trans c2⟩

/-- An item without a name of its own. -/
theorem covers_emit {it : Item} {k : Sink} {st : St} (h : (emit P it k st).2 = none) (hf : Fits P es st.defined it) :
    Covers P es [] st (emit P it k st).1 [it] := by
  obtain ⟨h1, h2, h3⟩ := emit_st P it k st
  refine ⟨h1, fun n hn => by rw [h2]; exact hn, nofun, fun x hx => ?_, fun n hn => by rw [h2] at hn; exact .inl hn⟩
  rw [List.mem_singleton.1 hx, h2]
  exact ⟨hf, (h3 h).2⟩

theorem reg_item {b : Nat → Text} {t : CTy} (h : isItem t = true) : reg b t = csName b t := by cases t <;> first | (cases h; done) | rfl

/-- A type whose parts are defined first. -/
theorem Cov.after {a : Act} {t : CTy} (ha : Cov P es a (inner P t)) (hn : isItem t = true) (hr : Reach P es t) :
    Cov P es (a ;; defineOnce (reg P.base t) (emit P (.type .csharp t))) [t] := by
  intro k st h
  obtain ⟨h1, e, h2⟩ := Verif.Headers.seq_ok h
  obtain ⟨n1, c1⟩ := ha k _ h1
  rw [e]
  rw [defineOnce] at h2 ⊢
  split at h2
  · next hm =>
    rw [if_pos hm]
    exact ⟨_, c1.items, c1.mono, fun l hl => by rw [List.mem_singleton.1 hl]; exact hm, c1.fits, c1.owned⟩
  · next hm =>
    rw [if_neg hm]
    obtain ⟨d1, d2, d3⟩ := emit_st P (.type .csharp t) k { (a k st).1 with defined := reg P.base t :: (a k st).1.defined }
    have hmono : ∀ n ∈ (a k st).1.defined, n ∈ (emit P (.type .csharp t) k { (a k st).1 with defined := reg P.base t :: (a k st).1.defined }).1.defined := by
      intro n hn; rw [d2]; exact List.mem_cons.2 (.inr hn)
    refine ⟨n1 ++ [.type .csharp t], ?_, fun x hx => hmono x (c1.mono x hx), fun l hl => ?_, fun it hit => ?_, fun x hx => ?_⟩
    · rw [d1]; simp only; rw [c1.items, List.append_assoc]
    · rw [List.mem_singleton.1 hl, d2]; exact List.mem_cons_self
    · rcases List.mem_append.1 hit with hi | hi
      · exact ⟨(c1.fits it hi).1.mono hmono, (c1.fits it hi).2⟩
      · rw [List.mem_singleton.1 hi]
        exact ⟨⟨rfl, hn, hr, fun l hl => hmono _ (c1.marks l hl)⟩, (d3 h2).2⟩
    · rw [d2] at hx
      rcases List.mem_cons.1 hx with e | hx
      · exact .inr (.inl ⟨t, by simp, e⟩)
      · exact (c1.owned x hx).imp_right (Owned.mono hmono fun it hi => by simp [hi])

/-- A type whose parts are defined inside. -/
theorem Cov.once {a : Act} {t : CTy} (ha : Cov P es a (inner P t)) (hn : isItem t = true) (hr : Reach P es t) :
    Cov P es (defineOnce (reg P.base t) (a ;; emit P (.type .csharp t))) [t] := by
  intro k st h
  rw [defineOnce] at h ⊢
  split at h
  · next hm =>
    rw [if_pos hm]
    exact ⟨[], by simp, fun _ h => h, fun l hl => by rw [List.mem_singleton.1 hl]; exact hm, nofun, fun _ h => .inl h⟩
  · next hm =>
    rw [if_neg hm]
    obtain ⟨h1, e, h2⟩ := Verif.Headers.seq_ok h
    obtain ⟨n1, c1⟩ := ha k _ h1
    have c := c1.trans (covers_emit (es := es) (it := .type .csharp t) h2 ⟨rfl, hn, hr, c1.marks⟩)
    rw [e]
    refine ⟨_, c.items, fun x hx => c.mono x (by simp [hx]), fun l hl => ?_, c.fits, fun x hx => ?_⟩
    · rw [List.mem_singleton.1 hl]; exact c.mono _ (by simp)
    · rcases c.owned x hx with hx | hx
      · rcases List.mem_cons.1 hx with e | hx
        · exact .inr (.inl ⟨t, by simp, e⟩)
        · exact .inl hx
      · exact .inr hx

/-- An alias: its type is defined, it is not. -/
theorem Cov.alias {a : Act} {t : CTy} (ha : Cov P es a (inner P t)) (hn : isReg t = true) (hi : isItem t = false) (hr : Reach P es t) :
    Cov P es (defineOnce (reg P.base t) (a ;; Verif.Headers.done)) [t] := by
  intro k st h
  rw [defineOnce] at h ⊢
  split at h
  · next hm =>
    rw [if_pos hm]
    exact ⟨[], by simp, fun _ h => h, fun l hl => by rw [List.mem_singleton.1 hl]; exact hm, nofun, fun _ h => .inl h⟩
  · next hm =>
    rw [if_neg hm]
    obtain ⟨h1, e, h2⟩ := Verif.Headers.seq_ok h
    obtain ⟨n1, c⟩ := ha k _ h1
    rw [e]
    refine ⟨n1, c.items, fun x hx => c.mono x (by simp [hx]), fun l hl => ?_, c.fits, fun x hx => ?_⟩
    · rw [List.mem_singleton.1 hl]; exact c.mono _ (by simp)
    · rcases c.owned x hx with hx | hx
      · rcases List.mem_cons.1 hx with e | hx
        · exact .inr (.inr (.inl ⟨t, hr, hn, hi, e, c.marks⟩))
        · exact .inl hx
      · exact .inr hx

mutual
theorem define_cov {adt : Lang → Nat → List CTy → Act} (hadt : ∀ i g, Reach P es (.adt i g) → Cov P es (adt .csharp i g) [.adt i g]) {ty : CTy}
    (h : Reach P es ty) : Cov P es (define P adt .csharp ty) (marks ty) := by
  match ty, h with
  | .int k, _ => rw [define_int, if_pos rfl]; exact .done
  | .bool, _ => rw [define_bool, if_pos rfl]; exact .done
  | .float, _ => exact .done
  | .double, _ => exact .done
  | .cint, _ => exact .done
  | .cchar, _ => exact .done
  | .void, _ => exact .done
  | .array n item, h =>
    rw [define_array, if_pos rfl]
    exact Cov.after (t := .array n item) (define_cov hadt h.item) rfl h
  | .fptr ret args, h =>
    rw [define_fptr, if_pos rfl, ← andThen_assoc]
    exact Cov.after (t := .fptr ret args) ((define_cov hadt h.ret).seq (defineAll_cov hadt (tys := args) fun t ht => h.arg ht)) rfl h
  | .constPtr to, h => rw [define_constPtr]; exact define_cov (ty := to) hadt h.constPtr
  | .mutPtr to, h => rw [define_mutPtr]; exact define_cov (ty := to) hadt h.mutPtr
  | .alias rename docs inner, h =>
    rw [define_alias, if_neg (by decide)]
    exact Cov.alias (t := .alias rename docs inner) (define_cov hadt h.inner) rfl rfl h
  | .adt i g, h => exact hadt i g h
theorem defineAll_cov {adt : Lang → Nat → List CTy → Act} (hadt : ∀ i g, Reach P es (.adt i g) → Cov P es (adt .csharp i g) [.adt i g]) {tys : List CTy}
    (h : ∀ t ∈ tys, Reach P es t) : Cov P es (defineAll P adt .csharp tys) (marksAll tys) := by
  match tys, h with
  | [], _ => exact .done
  | x :: xs, h => exact (define_cov hadt (h x (by simp))).seq (defineAll_cov hadt (tys := xs) fun t ht => h t (by simp [ht]))
end

/-- Of the integers of enums, too. -/
theorem parts_cov {adt : Lang → Nat → List CTy → Act} (hadt : ∀ i g, Reach P es (.adt i g) → Cov P es (adt .csharp i g) [.adt i g]) {i : Nat} {g : List CTy}
    (h : Reach P es (.adt i g)) : Cov P es (defineAll P adt .csharp (parts (P.decl i g))) (marksAll (parts (P.decl i g))) := by
  cases hd : P.decl i g with
  | struct docs size fs =>
    refine defineAll_cov hadt fun t ht => ?_
    obtain ⟨f, hf, rfl⟩ := List.mem_map.1 ht
    exact h.field hd hf
  | enum docs int vs =>
    rw [parts, defineAll_cons, defineAll_nil, define_int, if_pos rfl]
    exact Cov.done.seq .done
  | «opaque» docs => exact .done

theorem defineAdt_cov (m : Nat) (i : Nat) (g : List CTy) (h : Reach P es (.adt i g)) : Cov P es (defineAdt P m .csharp i g) [.adt i g] := by
  induction m generalizing i g with
  | zero => exact fun _ _ h => nomatch h
  | succ m ih => exact Cov.once (t := .adt i g) (parts_cov ih h) rfl h

theorem Cov.sub {a : Act} {L M : List CTy} (h : Cov P es a L) (hs : ∀ l ∈ M, l ∈ L) : Cov P es a M := by
  intro k st hk
  obtain ⟨new, c⟩ := h k st hk
  exact ⟨new, c.items, c.mono, fun l hl => c.marks l (hs l hl), c.fits, c.owned⟩

theorem Cov.emit {it : Item} (hf : ∀ d, Fits P es d it) : Cov P es (emit P it) [] := fun _ _ h => ⟨_, covers_emit h (hf _)⟩

theorem Cov.fn {f : Fn} {a : Act} {L : List CTy} (ha : Cov P es a L) (hf : .fn f ∈ es) : Cov P es (insertFn f.name ;; a ;; Verif.Headers.emit P (.func .csharp f)) L := by
  intro k st h
  obtain ⟨h1, e1, h2⟩ := Verif.Headers.seq_ok h
  obtain ⟨h3, e2, h4⟩ := Verif.Headers.seq_ok h2
  rw [e1, e2] at *
  have e3 : (insertFn f.name k st).1 = { st with defined := f.name :: st.defined } := by
    rw [insertFn] at h1 ⊢
    split at h1
    · cases h1
    · next hm => rw [if_neg hm]
  rw [e3] at h3 h4 ⊢
  obtain ⟨n1, c1⟩ := ha k _ h3
  have c := c1.trans (covers_emit (es := es) (it := .func .csharp f) h4 ⟨rfl, hf⟩)
  refine ⟨_, c.items, fun x hx => c.mono x (by simp [hx]), fun l hl => c.marks l (by simp [hl]), c.fits, fun x hx => ?_⟩
  rcases c.owned x hx with hx | hx
  · rcases List.mem_cons.1 hx with e | hx
    · exact .inr (.inr (.inr ⟨f, by simp, e⟩))
    · exact .inl hx
  · exact .inr hx

theorem genDef_cov (m : Nat) {e : Export} (he : e ∈ es) : Cov P es (genDef P m .csharp e) (marksAll e.types) := by
  have hr : ∀ t ∈ e.types, Reach P es t := fun t ht => .export he ht
  cases e with
  | fn f =>
    have h := (defineAll_cov (defineAdt_cov m) (tys := f.args.map (·.ty)) fun t ht => hr t (by rw [Export.types]; simp [ht])).seq
      (define_cov (defineAdt_cov m) (hr f.ret (by rw [Export.types]; simp)))
    have := (h.fn he).sub (M := marksAll (Export.types (.fn f))) (by
      intro l hl
      obtain ⟨x, hx, hl⟩ := mem_marksAll.1 hl
      rw [Export.types, List.mem_append] at hx
      rcases hx with hx | hx
      · exact List.mem_append.2 (.inl (mem_marksAll.2 ⟨x, hx, hl⟩))
      · rw [List.mem_singleton.1 hx] at hl; exact List.mem_append.2 (.inr hl))
    rw [genDef, defineSelf]
    rw [andThen_assoc] at this
    exact this
  | const c =>
    refine ((define_cov (defineAdt_cov m) (hr c.ty (by simp [Export.types]))).seq (.emit (it := .const .csharp c) fun _ => ⟨rfl, he⟩)).sub fun l hl => ?_
    simpa [Export.types, marksAll] using hl
  | type n ty =>
    refine (define_cov (defineAdt_cov m) (hr ty (by simp [Export.types]))).sub fun l hl => ?_
    simpa [Export.types, marksAll] using hl

theorem genAll_cov (m : Nat) {l : List Export} (hl : ∀ e ∈ l, e ∈ es) : Cov P es (genAll P m .csharp l) (l.flatMap fun e => marksAll e.types) := by
  induction l with
  | nil => exact .done
  | cons e l ih => exact (genDef_cov m (hl e (by simp))).seq (ih fun e he => hl e (by simp [he]))

end

/-- The items of a C# header, and the names that are registered. -/
theorem header_cov {P : Prog} {m : Nat} {c : Config} {es : List Export} {k : Sink} (hc : c.lang = .csharp) (hs : c.stable = true → DistinctNames es)
    (h : (generated P m c es k).2 = none) :
    ∃ p e body defined, c.prelude = some p ∧ c.epilogue = some e ∧
      (generated P m c es k).1.items = .text c.writeBanner :: .text p :: (body ++ [.text e]) ∧
      (∀ it ∈ body, Fits P es defined it ∧ (render P it).panics = false) ∧ (∀ n ∈ defined, Owned P es defined body n) ∧
      ∀ t, (∃ e ∈ es, t ∈ e.types) → ∀ l ∈ marks t, reg P.base l ∈ defined := by
  obtain ⟨p, hp⟩ : ∃ p, c.prelude = some p := by rw [Config.prelude, hc]; exact ⟨_, rfl⟩
  obtain ⟨e, he⟩ : ∃ e, c.epilogue = some e := by rw [Config.epilogue, hc]; exact ⟨_, rfl⟩
  refine ⟨p, e, ?_⟩
  rw [generated, generate, hp, he, hc] at h ⊢
  simp only [writeText] at h ⊢
  obtain ⟨h1, e1, h⟩ := Verif.Headers.seq_ok h
  obtain ⟨h2, e2, h⟩ := Verif.Headers.seq_ok h
  obtain ⟨h3, e3, h⟩ := Verif.Headers.seq_ok h
  rw [e1, e2, e3, (emit_st P (.text e) k _).1]
  obtain ⟨body, cv⟩ := genAll_cov (P := P) (es := es) m (l := ordered c.stable es) ordered_subset k _ h3
  refine ⟨body, _, by simp, by simp, ?_, cv.fits, ?_, ?_⟩
  · rw [cv.items, (emit_st P (.text p) k _).1, (emit_st P (.text c.writeBanner) k _).1]
    simp
  · intro n hn
    refine (cv.owned n hn).elim (fun hx => ?_) id
    rw [(emit_st P (.text p) k _).2.1, (emit_st P (.text c.writeBanner) k _).2.1] at hx
    cases hx
  · rintro t ⟨x, hx, ht⟩ l hl
    exact cv.marks l (List.mem_flatMap.2 ⟨x, (mem_ordered hs x).2 hx, mem_marksAll.2 ⟨t, ht, hl⟩⟩)

/-- Every type that is mentioned has an item. -/
theorem reach_item {P : Prog} {es : List Export} {body : List Item} {defined : List Text} (hu : Unambiguous P es)
    (hf : ∀ it ∈ body, Fits P es defined it) (ho : ∀ n ∈ defined, Owned P es defined body n)
    (hl : ∀ t, (∃ e ∈ es, t ∈ e.types) → ∀ l ∈ marks t, reg P.base l ∈ defined) {t : CTy} (hr : Reach P es t) :
    isItem t = true → .type .csharp t ∈ body := by
  have itemReg : ∀ {t}, isItem t = true → isReg t = true := by
    intro t h; cases t <;> first | (cases h; done) | rfl
  have key : ∀ t, Reach P es t → isReg t = true → reg P.base t ∈ defined → (isItem t = true → .type .csharp t ∈ body) ∧ ∀ l ∈ inner P t, reg P.base l ∈ defined := by
    intro t hr hn hd
    rcases ho _ hd with ⟨t', h1, h2⟩ | ⟨t', h1, h2, h3, h4, h5⟩ | ⟨f, h1, h2⟩
    · obtain ⟨_, hn', hr', hi⟩ := hf _ h1
      rw [hu.types t t' hr hr' hn (itemReg hn') h2]
      exact ⟨fun _ => h1, hi⟩
    · have e := hu.types t t' hr h1 hn h2 h4
      rw [← e] at h3 h5
      exact ⟨fun h => (nomatch h3.symm.trans h), h5⟩
    · exact absurd h2 (hu.fns t f hr hn (hf _ h1).2)
  have main : ∀ t, Reach P es t → ∀ l ∈ marks t, reg P.base l ∈ defined := by
    intro t hr
    induction hr with
    | «export» he ht => exact hl _ ⟨_, he, ht⟩
    | item h ih => exact (key _ h rfl (ih _ (marks_self rfl))).2
    | constPtr h ih => exact ih
    | mutPtr h ih => exact ih
    | ret h ih => exact fun l hl => (key _ h rfl (ih _ (marks_self rfl))).2 l (List.mem_append.2 (.inl hl))
    | arg h ht ih => exact fun l hl => (key _ h rfl (ih _ (marks_self rfl))).2 l (List.mem_append.2 (.inr (mem_marksAll.2 ⟨_, ht, hl⟩)))
    | inner h ih => exact (key _ h rfl (ih _ (marks_self rfl))).2
    | field h hd hm ih =>
      refine fun l hl => (key _ h rfl (ih _ (marks_self rfl))).2 l ?_
      rw [inner, hd, parts]
      exact mem_marksAll.2 ⟨_, List.mem_map.2 ⟨_, hm, rfl⟩, hl⟩
  exact fun hi => (key t hr (itemReg hi) (main t hr t (marks_self (itemReg hi)))).1 hi

end Verif.Headers.Cs
