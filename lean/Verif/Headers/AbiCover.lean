import Verif.Headers.AbiItems
/-! # A C header defines every type that the exports mention, also behind pointers -/
namespace Verif.Headers
open Text

mutual
/-- The defined types that a type mentions, outside of other definitions. -/
def leafs : CTy → List CTy
  | .array n t => [.array n t]
  | .alias rn docs t => [.alias rn docs t]
  | .adt i g => [.adt i g]
  | .constPtr t => leafs t
  | .mutPtr t => leafs t
  | .fptr r args => leafs r ++ leafsAll args
  | _ => []
def leafsAll : List CTy → List CTy
  | [] => []
  | x :: xs => leafs x ++ leafsAll xs
end

/-- Those that a definition mentions. -/
def inner (P : Prog) : CTy → List CTy
  | .array _ t => leafs t
  | .alias _ _ t => leafs t
  | .adt i g => leafsAll (parts (P.decl i g))
  | _ => []

theorem mem_leafsAll {l : CTy} {ts : List CTy} : l ∈ leafsAll ts ↔ ∃ x ∈ ts, l ∈ leafs x := by
  induction ts with
  | nil => simp [leafsAll]
  | cons x xs ih => simp [leafsAll, ih]

mutual
theorem leafs_named {t : CTy} : ∀ l ∈ leafs t, hasDef l = true := by
  intro l hl
  match t, hl with
  | .array _ _, hl => rw [leafs, List.mem_singleton] at hl; rw [hl]; rfl
  | .alias _ _ _, hl => rw [leafs, List.mem_singleton] at hl; rw [hl]; rfl
  | .adt _ _, hl => rw [leafs, List.mem_singleton] at hl; rw [hl]; rfl
  | .constPtr t, hl => exact leafs_named (t := t) l hl
  | .mutPtr t, hl => exact leafs_named (t := t) l hl
  | .fptr r args, hl =>
    rw [leafs, List.mem_append] at hl
    exact hl.elim (leafs_named (t := r) l) (leafsAll_named (ts := args) l)
theorem leafsAll_named {ts : List CTy} : ∀ l ∈ leafsAll ts, hasDef l = true := by
  intro l hl
  match ts, hl with
  | x :: xs, hl =>
    rw [leafsAll, List.mem_append] at hl
    exact hl.elim (leafs_named (t := x) l) (leafsAll_named (ts := xs) l)
end

section
variable {P : Prog} {es : List Export}

mutual
theorem reach_leafs {t : CTy} (h : Reach P es t) : ∀ l ∈ leafs t, Reach P es l := by
  intro l hl
  match t, h, hl with
  | .array _ _, h, hl => rw [leafs, List.mem_singleton] at hl; rw [hl]; exact h
  | .alias _ _ _, h, hl => rw [leafs, List.mem_singleton] at hl; rw [hl]; exact h
  | .adt _ _, h, hl => rw [leafs, List.mem_singleton] at hl; rw [hl]; exact h
  | .constPtr t, h, hl => exact reach_leafs h.constPtr l hl
  | .mutPtr t, h, hl => exact reach_leafs h.mutPtr l hl
  | .fptr r args, h, hl =>
    rw [leafs, List.mem_append] at hl
    exact hl.elim (reach_leafs h.ret l) (reach_leafsAll (ts := args) (fun t ht => h.arg ht) l)
theorem reach_leafsAll {ts : List CTy} (h : ∀ t ∈ ts, Reach P es t) : ∀ l ∈ leafsAll ts, Reach P es l := by
  intro l hl
  match ts, h, hl with
  | x :: xs, h, hl =>
    rw [leafsAll, List.mem_append] at hl
    exact hl.elim (reach_leafs (h x (by simp)) l) (reach_leafsAll (ts := xs) (fun t ht => h t (by simp [ht])) l)
end

/-! ### Items and what is registered -/

/-- The item is that of a reachable type whose parts are registered, or of an export. -/
def Fits (P : Prog) (es : List Export) (defined : List Text) : Item → Prop
  | .type lang t => lang = .c ∧ hasDef t = true ∧ Reach P es t ∧ ∀ l ∈ inner P t, cName P.base l ∈ defined
  | .func lang f => lang = .c ∧ .fn f ∈ es
  | .const lang c => lang = .c ∧ .const c ∈ es
  | .text _ => False
  | _ => True

theorem Fits.mono {d d' : List Text} (hd : ∀ n ∈ d, n ∈ d') {it : Item} (h : Fits P es d it) : Fits P es d' it := by
  cases it with
  | type lang t => exact ⟨h.1, h.2.1, h.2.2.1, fun l hl => hd _ (h.2.2.2 l hl)⟩
  | _ => exact h

/-- The name belongs to an item. -/
def Owned (P : Prog) (items : List Item) (n : Text) : Prop :=
  n = t!"__int_headers__" ∨ n = t!"bool" ∨ (∃ t, .type .c t ∈ items ∧ n = cName P.base t) ∨ ∃ f, .func .c f ∈ items ∧ n = f.name

theorem Owned.mono {a b : List Item} (h : ∀ it ∈ a, it ∈ b) {n : Text} (ho : Owned P a n) : Owned P b n := by
  rcases ho with e | e | ⟨t, h1, h2⟩ | ⟨f, h1, h2⟩
  · exact .inl e
  · exact .inr (.inl e)
  · exact .inr (.inr (.inl ⟨t, h _ h1, h2⟩))
  · exact .inr (.inr (.inr ⟨f, h _ h1, h2⟩))

/-- What a successful action does. -/
structure Covers (P : Prog) (es : List Export) (L : List CTy) (st st' : St) (new : List Item) : Prop where
  items : st'.items = st.items ++ new
  mono : ∀ n ∈ st.defined, n ∈ st'.defined
  leafs : ∀ l ∈ L, cName P.base l ∈ st'.defined
  fits : ∀ it ∈ new, Fits P es st'.defined it ∧ (render P it).panics = false
  owned : ∀ n ∈ st'.defined, n ∈ st.defined ∨ Owned P new n

def Cov (P : Prog) (es : List Export) (a : Act) (L : List CTy) : Prop := ∀ k st, (a k st).2 = none → ∃ new, Covers P es L st (a k st).1 new

theorem Cov.done : Cov P es done [] := fun _ st _ => ⟨[], by simp [Verif.Headers.done], fun _ h => h, nofun, nofun, fun _ h => .inl h⟩

theorem Covers.trans {L M : List CTy} {s1 s2 s3 : St} {a b : List Item} (h : Covers P es L s1 s2 a) (h' : Covers P es M s2 s3 b) :
    Covers P es (L ++ M) s1 s3 (a ++ b) where
  items := by rw [h'.items, h.items, List.append_assoc]
  mono n hn := h'.mono n (h.mono n hn)
  leafs l hl := (List.mem_append.1 hl).elim (fun hl => h'.mono _ (h.leafs l hl)) (h'.leafs l)
  fits it hit := (List.mem_append.1 hit).elim (fun hi => ⟨(h.fits it hi).1.mono h'.mono, (h.fits it hi).2⟩) (h'.fits it)
  owned n hn := (h'.owned n hn).elim
    (fun hn => (h.owned n hn).imp_right (Owned.mono fun it hi => by simp [hi])) fun ho => .inr (ho.mono fun it hi => by simp [hi])

theorem seq_ok {a b : Act} {k : Sink} {st : St} (h : ((a ;; b) k st).2 = none) :
    (a k st).2 = none ∧ (a ;; b) k st = b k (a k st).1 ∧ (b k (a k st).1).2 = none := by
  have h1 : (a k st).2 = none := by
    cases h1 : (a k st).2 with
    | none => rfl
    | some e => rw [andThen_err h1, h1] at h; cases h
  rw [andThen_ok h1] at h
  exact ⟨h1, andThen_ok h1, h⟩

theorem Cov.seq {a b : Act} {L M : List CTy} (ha : Cov P es a L) (hb : Cov P es b M) : Cov P es (a ;; b) (L ++ M) := by
  intro k st h
  obtain ⟨h1, e, h2⟩ := seq_ok h
  obtain ⟨n1, c1⟩ := ha k st h1
  obtain ⟨n2, c2⟩ := hb k _ h2
  rw [e]
  exact ⟨_, c1.trans c2⟩

/-- An item without a name of its own. -/
theorem covers_emit {it : Item} {k : Sink} {st : St} (h : (emit P it k st).2 = none) (hf : Fits P es st.defined it) :
    Covers P es [] st (emit P it k st).1 [it] := by
  obtain ⟨h1, h2, h3⟩ := emit_st P it k st
  refine ⟨h1, fun n hn => by rw [h2]; exact hn, nofun, fun x hx => ?_, fun n hn => by rw [h2] at hn; exact .inl hn⟩
  rw [List.mem_singleton.1 hx, h2]
  exact ⟨hf, (h3 h).2⟩

theorem Cov.header {it : Item} {n : Text} (hn : n = t!"__int_headers__" ∨ n = t!"bool") (hf : ∀ d, Fits P es d it) :
    Cov P es (defineOnce n (emit P it)) [] := by
  intro k st h
  rw [defineOnce] at h ⊢
  split at h
  · next hm => rw [if_pos hm]; exact ⟨[], by simp, fun _ h => h, nofun, nofun, fun _ h => .inl h⟩
  · next hm =>
    rw [if_neg hm]
    have c := covers_emit (es := es) h (hf _)
    refine ⟨[it], c.items, fun x hx => c.mono x (by simp [hx]), nofun, c.fits, fun x hx => ?_⟩
    rcases c.owned x hx with hx | hx
    · rcases List.mem_cons.1 hx with e | hx
      · exact .inr (hn.elim (fun hn => .inl (e.trans hn)) fun hn => .inr (.inl (e.trans hn)))
      · exact .inl hx
    · exact .inr hx

/-- A definition: what it mentions, then itself. -/
theorem Cov.once {a : Act} {t : CTy} (ha : Cov P es a (inner P t)) (hn : hasDef t = true) (hr : Reach P es t) :
    Cov P es (defineOnce (cName P.base t) (a ;; emit P (.type .c t))) [t] := by
  intro k st h
  rw [defineOnce] at h ⊢
  split at h
  · next hm =>
    rw [if_pos hm]
    exact ⟨[], by simp, fun _ h => h, fun l hl => by rw [List.mem_singleton.1 hl]; exact hm, nofun, fun _ h => .inl h⟩
  · next hm =>
    rw [if_neg hm]
    obtain ⟨h1, e, h2⟩ := seq_ok h
    obtain ⟨n1, c1⟩ := ha k _ h1
    have c := c1.trans (covers_emit (es := es) (it := .type .c t) h2 ⟨rfl, hn, hr, c1.leafs⟩)
    rw [e]
    refine ⟨_, c.items, fun x hx => c.mono x (by simp [hx]), fun l hl => ?_, c.fits, fun x hx => ?_⟩
    · rw [List.mem_singleton.1 hl]; exact c.mono _ (by simp)
    · rcases c.owned x hx with hx | hx
      · rcases List.mem_cons.1 hx with e | hx
        · exact .inr (.inr (.inr (.inl ⟨t, by simp, e⟩)))
        · exact .inl hx
      · exact .inr hx

mutual
theorem define_cov {adt : Lang → Nat → List CTy → Act} (hadt : ∀ i g, Reach P es (.adt i g) → Cov P es (adt .c i g) [.adt i g]) {ty : CTy}
    (h : Reach P es ty) : Cov P es (define P adt .c ty) (leafs ty) := by
  match ty, h with
  | .int k, _ => rw [define_int, if_neg (by decide)]; exact .header (.inl rfl) fun _ => trivial
  | .bool, _ => rw [define_bool, if_neg (by decide)]; exact .header (.inr rfl) fun _ => trivial
  | .float, _ => exact .done
  | .double, _ => exact .done
  | .cint, _ => exact .done
  | .cchar, _ => exact .done
  | .void, _ => exact .done
  | .array n item, h =>
    rw [define_array, if_neg (by decide)]
    exact .once (define_cov hadt h.item) rfl h
  | .fptr ret args, h =>
    rw [define_fptr, if_neg (by decide)]
    exact (define_cov hadt h.ret).seq (defineAll_cov hadt (tys := args) fun t ht => h.arg ht)
  | .constPtr to, h => rw [define_constPtr]; exact define_cov (ty := to) hadt h.constPtr
  | .mutPtr to, h => rw [define_mutPtr]; exact define_cov (ty := to) hadt h.mutPtr
  | .alias rename docs inner, h =>
    rw [define_alias, if_pos rfl]
    exact .once (define_cov hadt h.inner) rfl h
  | .adt i g, h => exact hadt i g h
theorem defineAll_cov {adt : Lang → Nat → List CTy → Act} (hadt : ∀ i g, Reach P es (.adt i g) → Cov P es (adt .c i g) [.adt i g]) {tys : List CTy}
    (h : ∀ t ∈ tys, Reach P es t) : Cov P es (defineAll P adt .c tys) (leafsAll tys) := by
  match tys, h with
  | [], _ => exact .done
  | x :: xs, h => exact (define_cov hadt (h x (by simp))).seq (defineAll_cov hadt (tys := xs) fun t ht => h t (by simp [ht]))
end

/-- Of the integers of enums, too. -/
theorem parts_cov {adt : Lang → Nat → List CTy → Act} (hadt : ∀ i g, Reach P es (.adt i g) → Cov P es (adt .c i g) [.adt i g]) {i : Nat} {g : List CTy}
    (h : Reach P es (.adt i g)) : Cov P es (defineAll P adt .c (parts (P.decl i g))) (leafsAll (parts (P.decl i g))) := by
  cases hd : P.decl i g with
  | struct docs size fs =>
    refine defineAll_cov hadt fun t ht => ?_
    obtain ⟨f, hf, rfl⟩ := List.mem_map.1 ht
    exact h.field hd hf
  | enum docs int vs =>
    rw [parts, defineAll_cons, defineAll_nil, define_int, if_neg (by decide)]
    exact (Cov.header (it := .intHeaders) (.inl rfl) fun _ => trivial).seq .done
  | «opaque» docs => exact .done

theorem defineAdt_cov (m : Nat) (i : Nat) (g : List CTy) (h : Reach P es (.adt i g)) : Cov P es (defineAdt P m .c i g) [.adt i g] := by
  induction m generalizing i g with
  | zero => exact fun _ _ h => nomatch h
  | succ m ih => exact .once (parts_cov ih h) rfl h

theorem Cov.sub {a : Act} {L M : List CTy} (h : Cov P es a L) (hs : ∀ l ∈ M, l ∈ L) : Cov P es a M := by
  intro k st hk
  obtain ⟨new, c⟩ := h k st hk
  exact ⟨new, c.items, c.mono, fun l hl => c.leafs l (hs l hl), c.fits, c.owned⟩

theorem Cov.emit {it : Item} (hf : ∀ d, Fits P es d it) : Cov P es (emit P it) [] := fun _ _ h => ⟨_, covers_emit h (hf _)⟩

theorem Cov.fn {f : Fn} {a : Act} {L : List CTy} (ha : Cov P es a L) (hf : .fn f ∈ es) : Cov P es (insertFn f.name ;; a ;; Verif.Headers.emit P (.func .c f)) L := by
  intro k st h
  obtain ⟨h1, e1, h2⟩ := seq_ok h
  obtain ⟨h3, e2, h4⟩ := seq_ok h2
  rw [e1, e2] at *
  have e3 : (insertFn f.name k st).1 = { st with defined := f.name :: st.defined } := by
    rw [insertFn] at h1 ⊢
    split at h1
    · cases h1
    · next hm => rw [if_neg hm]
  rw [e3] at h3 h4 ⊢
  obtain ⟨n1, c1⟩ := ha k _ h3
  have c := c1.trans (covers_emit (es := es) (it := .func .c f) h4 ⟨rfl, hf⟩)
  refine ⟨_, c.items, fun x hx => c.mono x (by simp [hx]), fun l hl => c.leafs l (by simp [hl]), c.fits, fun x hx => ?_⟩
  rcases c.owned x hx with hx | hx
  · rcases List.mem_cons.1 hx with e | hx
    · exact .inr (.inr (.inr (.inr ⟨f, by simp, e⟩)))
    · exact .inl hx
  · exact .inr hx

theorem genDef_cov (m : Nat) {e : Export} (he : e ∈ es) : Cov P es (genDef P m .c e) (leafsAll e.types) := by
  have hr : ∀ t ∈ e.types, Reach P es t := fun t ht => .export he ht
  cases e with
  | fn f =>
    have h := (defineAll_cov (defineAdt_cov m) (tys := f.args.map (·.ty)) fun t ht => hr t (by rw [Export.types]; simp [ht])).seq
      (define_cov (defineAdt_cov m) (hr f.ret (by rw [Export.types]; simp)))
    have := (h.fn he).sub (M := leafsAll (Export.types (.fn f))) (by
      intro l hl
      obtain ⟨x, hx, hl⟩ := mem_leafsAll.1 hl
      rw [Export.types, List.mem_append] at hx
      rcases hx with hx | hx
      · exact List.mem_append.2 (.inl (mem_leafsAll.2 ⟨x, hx, hl⟩))
      · rw [List.mem_singleton.1 hx] at hl; exact List.mem_append.2 (.inr hl))
    rw [genDef, defineSelf]
    rw [andThen_assoc] at this
    exact this
  | const c =>
    refine ((define_cov (defineAdt_cov m) (hr c.ty (by simp [Export.types]))).seq (.emit (it := .const .c c) fun _ => ⟨rfl, he⟩)).sub fun l hl => ?_
    simpa [Export.types, leafsAll] using hl
  | type n ty =>
    refine (define_cov (defineAdt_cov m) (hr ty (by simp [Export.types]))).sub fun l hl => ?_
    simpa [Export.types, leafsAll] using hl

theorem genAll_cov (m : Nat) {l : List Export} (hl : ∀ e ∈ l, e ∈ es) : Cov P es (genAll P m .c l) (l.flatMap fun e => leafsAll e.types) := by
  induction l with
  | nil => exact .done
  | cons e l ih => exact (genDef_cov m (hl e (by simp))).seq (ih fun e he => hl e (by simp [he]))

end

/-- The items of a C header, and the names that are registered. -/
theorem header_cov {P : Prog} {m : Nat} {c : Config} {es : List Export} {k : Sink} (hc : c.lang = .c) (hs : c.stable = true → DistinctNames es)
    (h : (generated P m c es k).2 = none) :
    ∃ p e body defined, c.prelude = some p ∧ c.epilogue = some e ∧
      (generated P m c es k).1.items = .text c.writeBanner :: .text p :: (body ++ [.text e]) ∧
      (∀ it ∈ body, Fits P es defined it ∧ (render P it).panics = false) ∧ (∀ n ∈ defined, Owned P body n) ∧
      ∀ t, (∃ e ∈ es, t ∈ e.types) → ∀ l ∈ leafs t, cName P.base l ∈ defined := by
  obtain ⟨p, hp⟩ : ∃ p, c.prelude = some p := ⟨_, prelude_c hc⟩
  obtain ⟨e, he⟩ : ∃ e, c.epilogue = some e := ⟨_, epilogue_c hc⟩
  refine ⟨p, e, ?_⟩
  rw [generated, generate, hp, he, hc] at h ⊢
  simp only [writeText] at h ⊢
  obtain ⟨h1, e1, h⟩ := seq_ok h
  obtain ⟨h2, e2, h⟩ := seq_ok h
  obtain ⟨h3, e3, h⟩ := seq_ok h
  rw [e1, e2, e3, (emit_st P (.text e) k _).1]
  obtain ⟨body, cv⟩ := genAll_cov (P := P) (es := es) m (l := ordered c.stable es) ordered_subset k _ h3
  refine ⟨body, _, by simp, by simp, ?_, cv.fits, ?_, ?_⟩
  · rw [cv.items, (emit_st P (.text p) k _).1, (emit_st P (.text c.writeBanner) k _).1]
    simp
  · intro n hn
    refine (cv.owned n hn).elim (fun hx => ?_) id
    rw [(emit_st P (.text p) k _).2.1, (emit_st P (.text c.writeBanner) k _).2.1] at hx
    cases hx
  · rintro t ⟨x, hx, ht⟩ l hl
    exact cv.leafs l (List.mem_flatMap.2 ⟨x, (mem_ordered hs x).2 hx, mem_leafsAll.2 ⟨t, ht, hl⟩⟩)

/-- Every type that is mentioned has an item. -/
theorem reach_item {P : Prog} {es : List Export} {body : List Item} {defined : List Text} (hu : Unambiguous P es)
    (hf : ∀ it ∈ body, Fits P es defined it) (ho : ∀ n ∈ defined, Owned P body n)
    (hl : ∀ t, (∃ e ∈ es, t ∈ e.types) → ∀ l ∈ leafs t, cName P.base l ∈ defined) {t : CTy} (hr : Reach P es t) :
    (∀ l ∈ leafs t, cName P.base l ∈ defined) ∧ (hasDef t = true → .type .c t ∈ body) := by
  have key : ∀ t, Reach P es t → hasDef t = true → cName P.base t ∈ defined → .type .c t ∈ body := by
    intro t hr hn hd
    have hne : ∃ x, cName P.base t = x ++ t!"_t" := by
      cases t with
      | array n item => exact ⟨_, cName_array ..⟩
      | alias r d i => exact ⟨_, cName_alias ..⟩
      | adt i g => exact ⟨_, cName_adt ..⟩
      | _ => cases hn
    obtain ⟨x, hx⟩ := hne
    rcases ho _ hd with e | e | ⟨t', h1, h2⟩ | ⟨f, h1, h2⟩
    · rw [hx] at e; exact absurd e (word_t_ne x)
    · rw [hx] at e; exact absurd e (last_ne rfl rfl (by decide))
    · obtain ⟨_, hn', hr', _⟩ := hf _ h1
      rw [hu.types t t' hr hr' hn hn' h2]
      exact h1
    · exact absurd h2.symm (hu.fns t f hr hn (hf _ h1).2)
  have self : ∀ t, Reach P es t → hasDef t = true → (∀ l ∈ leafs t, cName P.base l ∈ defined) → .type .c t ∈ body := by
    intro t hr hn h
    refine key t hr hn (h t ?_)
    cases t with
    | array n item => simp [leafs]
    | alias r d i => simp [leafs]
    | adt i g => simp [leafs]
    | _ => cases hn
  have main : ∀ t, Reach P es t → ∀ l ∈ leafs t, cName P.base l ∈ defined := by
    intro t hr
    induction hr with
    | «export» he ht => exact hl _ ⟨_, he, ht⟩
    | item h ih => exact (hf _ (self _ h rfl ih)).2.2.2
    | constPtr h ih => exact ih
    | mutPtr h ih => exact ih
    | ret h ih => exact fun l hl => ih l (by rw [leafs]; simp [hl])
    | arg h ht ih => exact fun l hl => ih l (by rw [leafs]; exact List.mem_append.2 (.inr (mem_leafsAll.2 ⟨_, ht, hl⟩)))
    | inner h ih => exact (hf _ (self _ h rfl ih)).2.2.2
    | field h hd hm ih =>
      refine fun l hl => (hf _ (self _ h rfl ih)).2.2.2 l ?_
      rw [inner, hd, parts]
      exact mem_leafsAll.2 ⟨_, List.mem_map.2 ⟨_, hm, rfl⟩, hl⟩
  exact ⟨main t hr, fun hn => self t hr hn (main t hr)⟩

end Verif.Headers
