import Verif.Headers.CffiItems
/-! # A Python header has the items of the C header -/
namespace Verif.Headers
open Text

/-- The item of the C header. -/
def toC : Item → Item
  | .type _ t => .type .c t
  | .func _ f => .func .c f
  | .const _ c => .const .c c
  | it => it

/-- Some type needs `<stdint.h>`: an integer or an enum. -/
def NeedsInt (P : Prog) (es : List Export) : Prop :=
  (∃ k, Reach P es (.int k)) ∨ ∃ i g docs int vs, Reach P es (.adt i g) ∧ P.decl i g = .enum docs int vs

/-- The items of Python headers. -/
def PyItem (P : Prog) (es : List Export) : Item → Prop
  | .type lang (.array _ _) => lang = .c
  | .type lang _ => Like lang
  | .func lang _ => Like lang
  | .const lang _ => lang = .python
  | .intHeaders => NeedsInt P es
  | .boolHeader => Reach P es .bool
  | .text _ => False

/-- The second action does for C what the first does for Python. -/
def Sim (P : Prog) (es : List Export) (a b : Act) : Prop :=
  ∀ k st st', st'.defined = st.defined → (a k st).2 = none →
    (b okSink st').2 = none ∧ (b okSink st').1.defined = (a k st).1.defined ∧
      ∃ new, (a k st).1.items = st.items ++ new ∧ (b okSink st').1.items = st'.items ++ new.map toC ∧
        ∀ it ∈ new, PyItem P es it ∧ (render P it).panics = false

section
variable {P : Prog} {es : List Export}

theorem Sim.done : Sim P es done done := fun _ _ _ h _ => ⟨rfl, h, [], by simp [Verif.Headers.done], by simp [Verif.Headers.done], nofun⟩

theorem ok_first {a b : Act} {k : Sink} {st : St} (h : ((a ;; b) k st).2 = none) : (a k st).2 = none := by
  cases h1 : (a k st).2 with
  | none => rfl
  | some e => rw [andThen_err h1, h1] at h; cases h

theorem Sim.seq {a b a' b' : Act} (h : Sim P es a b) (h' : Sim P es a' b') : Sim P es (a ;; a') (b ;; b') := by
  intro k st st' hd hok
  have h1 := ok_first hok
  rw [andThen_ok h1] at hok ⊢
  obtain ⟨e1, e2, new, e3, e4, e5⟩ := h k st st' hd h1
  obtain ⟨f1, f2, new', f3, f4, f5⟩ := h' k _ _ e2 hok
  rw [andThen_ok e1]
  exact ⟨f1, f2, new ++ new', by rw [f3, e3, List.append_assoc], by rw [f4, e4, List.map_append, List.append_assoc],
    fun it hit => (List.mem_append.1 hit).elim (e5 it) (f5 it)⟩

theorem Sim.once {a b : Act} (n : Text) (h : Sim P es a b) : Sim P es (defineOnce n a) (defineOnce n b) := by
  intro k st st' hd hok
  rw [defineOnce] at hok ⊢
  rw [defineOnce, hd]
  split at hok
  · next hm => rw [if_pos hm, if_pos hm]; exact ⟨rfl, hd, [], by simp, by simp, nofun⟩
  · next hm =>
    rw [if_neg hm, if_neg hm]
    exact h k _ { st' with defined := n :: st.defined } rfl hok

theorem emit_okSink {it : Item} (h : (render P it).panics = false) (st : St) : (emit P it okSink st).2 = none := by
  rw [emit, andThen_ok (show (log it okSink st).2 = none from rfl), andThen_ok (writes_ok _ _), h]
  rfl

theorem Sim.emit {it : Item} (hi : PyItem P es it) (h : (render P it).panics = false → (render P (toC it)).panics = false) :
    Sim P es (emit P it) (emit P (toC it)) := by
  intro k st st' hd hok
  obtain ⟨h1, h2, h3⟩ := emit_st P it k st
  obtain ⟨g1, g2, _⟩ := emit_st P (toC it) okSink st'
  have hp := (h3 hok).2
  exact ⟨emit_okSink (h hp) _, by rw [g2, h2, hd], [it], h1, g1, fun x hx => by rw [List.mem_singleton.1 hx]; exact ⟨hi, hp⟩⟩

theorem panics_toC (it : Item) (hi : PyItem P es it) (h : (render P it).panics = false) : (render P (toC it)).panics = false := by
  cases it with
  | type lang ty =>
    cases ty with
    | adt i g =>
      change (renderDecl P lang (.adt i g) (P.decl i g)).panics = false at h
      change (renderDecl P .c (.adt i g) (P.decl i g)).panics = false
      cases hd : P.decl i g with
      | struct docs size fs =>
        rw [hd] at h
        change (emitStruct P.base lang docs (.adt i g) size fs).panics = false at h
        change (emitStruct P.base .c docs (.adt i g) size fs).panics = false
        cases hc : (emitStruct P.base .c docs (.adt i g) size fs).panics with
        | false => rfl
        | true =>
          have := (C63_refuses P.base lang docs (.adt i g) size fs).2 ((C63_refuses P.base .c docs (.adt i g) size fs).1 hc)
          rw [this] at h
          cases h
      | _ => rfl
    | array n item => rfl
    | _ => rfl
  | _ => rfl

theorem Sim.item {it : Item} (hi : PyItem P es it) : Sim P es (Verif.Headers.emit P it) (Verif.Headers.emit P (toC it)) :=
  .emit hi (panics_toC it hi)

/-- The type is not an alias, and nor are those in it. -/
def Seen (P : Prog) (es : List Export) (t : CTy) : Prop := Reach P es t ∨ (∃ k, t = .int k) ∧ NeedsInt P es

mutual
theorem sim_define (hna : ∀ rn docs t, ¬ Reach P es (.alias rn docs t)) {adt : Lang → Nat → List CTy → Act}
    (hadt : ∀ lang i g, Like lang → Reach P es (.adt i g) → Sim P es (adt lang i g) (adt .c i g)) {lang : Lang} (hl : Like lang)
    (t : CTy) (ht : Seen P es t) : Sim P es (define P adt lang t) (define P adt .c t) := by
  match t, ht with
  | .int k, ht =>
    have hn : NeedsInt P es := ht.elim (fun h => .inl ⟨k, h⟩) (·.2)
    have := Sim.once t!"__int_headers__" (Sim.item (P := P) (es := es) (it := .intHeaders) hn)
    rcases hl with rfl | rfl <;> exact this
  | .bool, ht =>
    have hb : Reach P es .bool := ht.elim id fun ⟨⟨_, e⟩, _⟩ => by cases e
    have := Sim.once t!"bool" (Sim.item (P := P) (es := es) (it := .boolHeader) hb)
    rcases hl with rfl | rfl <;> exact this
  | .float, _ => rcases hl with rfl | rfl <;> exact .done
  | .double, _ => rcases hl with rfl | rfl <;> exact .done
  | .cint, _ => rcases hl with rfl | rfl <;> exact .done
  | .cchar, _ => rcases hl with rfl | rfl <;> exact .done
  | .void, _ => rcases hl with rfl | rfl <;> exact .done
  | .array n item, ht =>
    have hr : Reach P es (.array n item) := ht.elim id fun ⟨⟨_, e⟩, _⟩ => by cases e
    have h1 := sim_define hna hadt (lang := .c) (.inl rfl) item (.inl hr.item)
    have := Sim.once (cName P.base (.array n item)) (h1.seq (Sim.item (P := P) (es := es) (it := .type .c (.array n item)) rfl))
    rcases hl with rfl | rfl <;> exact this
  | .fptr ret args, ht =>
    have hr : Reach P es (.fptr ret args) := ht.elim id fun ⟨⟨_, e⟩, _⟩ => by cases e
    have h1 := sim_define hna hadt (lang := .c) (.inl rfl) ret (.inl hr.ret)
    have h2 := sim_defineAll hna hadt (lang := .c) (.inl rfl) args fun t ht => .inl (hr.arg ht)
    rcases hl with rfl | rfl <;> exact h1.seq h2
  | .constPtr to, ht =>
    have hr : Reach P es (.constPtr to) := ht.elim id fun ⟨⟨_, e⟩, _⟩ => by cases e
    have h1 := sim_define hna hadt (lang := .c) (.inl rfl) to (.inl hr.constPtr)
    rcases hl with rfl | rfl <;> exact h1
  | .mutPtr to, ht =>
    have hr : Reach P es (.mutPtr to) := ht.elim id fun ⟨⟨_, e⟩, _⟩ => by cases e
    have h1 := sim_define hna hadt (lang := .c) (.inl rfl) to (.inl hr.mutPtr)
    rcases hl with rfl | rfl <;> exact h1
  | .alias rn docs inner, ht => exact absurd (ht.elim id fun ⟨⟨_, e⟩, _⟩ => by cases e) (hna rn docs inner)
  | .adt i g, ht =>
    have hr : Reach P es (.adt i g) := ht.elim id fun ⟨⟨_, e⟩, _⟩ => by cases e
    rw [define, define]
    exact hadt lang i g hl hr
theorem sim_defineAll (hna : ∀ rn docs t, ¬ Reach P es (.alias rn docs t)) {adt : Lang → Nat → List CTy → Act}
    (hadt : ∀ lang i g, Like lang → Reach P es (.adt i g) → Sim P es (adt lang i g) (adt .c i g)) {lang : Lang} (hl : Like lang)
    (ts : List CTy) (ht : ∀ t ∈ ts, Seen P es t) : Sim P es (defineAll P adt lang ts) (defineAll P adt .c ts) := by
  match ts, ht with
  | [], _ => rw [defineAll, defineAll]; exact .done
  | x :: xs, ht =>
    rw [defineAll, defineAll]
    exact (sim_define hna hadt hl x (ht x (by simp))).seq (sim_defineAll hna hadt hl xs fun t h => ht t (by simp [h]))
end

theorem sim_defineAdt (hna : ∀ rn docs t, ¬ Reach P es (.alias rn docs t)) (m : Nat) :
    ∀ lang i g, Like lang → Reach P es (.adt i g) → Sim P es (defineAdt P m lang i g) (defineAdt P m .c i g) := by
  induction m with
  | zero => intro lang i g _ _ k st st' _ hok; cases hok
  | succ m ih =>
    intro lang i g hl hr
    rw [defineAdt, defineAdt, name_like hl, name_like (.inl rfl)]
    refine .once _ (.seq (sim_defineAll hna ih hl _ ?_) (.item (it := .type lang (.adt i g)) hl))
    intro t ht
    cases hd : P.decl i g with
    | struct docs size fs =>
      rw [hd, parts, List.mem_map] at ht
      obtain ⟨f, hf, rfl⟩ := ht
      exact .inl (hr.field hd hf)
    | enum docs int vs =>
      rw [hd, parts, List.mem_singleton] at ht
      exact .inr ⟨⟨_, ht⟩, .inr ⟨i, g, docs, int, vs, hr, hd⟩⟩
    | «opaque» docs => rw [hd, parts] at ht; cases ht

theorem Sim.insertFn (n : Text) : Sim P es (insertFn n) (insertFn n) := by
  intro k st st' hd hok
  rw [Verif.Headers.insertFn] at hok ⊢
  rw [Verif.Headers.insertFn, hd]
  split at hok
  · cases hok
  · next hm => rw [if_neg hm, if_neg hm]; exact ⟨rfl, rfl, [], by simp, by simp, nofun⟩

theorem sim_genDef (hna : ∀ rn docs t, ¬ Reach P es (.alias rn docs t)) (m : Nat) {e : Export} (he : e ∈ es) :
    Sim P es (genDef P m .python e) (genDef P m .c e) := by
  have hr : ∀ t ∈ e.types, Seen P es t := fun t ht => .inl (.export he ht)
  have hadt := sim_defineAdt (es := es) hna m
  cases e with
  | fn f =>
    have ha : ∀ t ∈ f.args.map (·.ty), Seen P es t := fun t ht => hr t (by
      obtain ⟨a, ha, rfl⟩ := List.mem_map.1 ht
      rw [Export.types]; simp; exact .inl ⟨a, ha, rfl⟩)
    rw [genDef, genDef]
    exact (Sim.insertFn f.name).seq ((sim_defineAll hna hadt (.inr rfl) _ ha).seq ((sim_define hna hadt (.inr rfl) _
      (hr _ (by rw [Export.types]; simp))).seq (.item (it := .func .python f) (.inr rfl))))
  | const c =>
    rw [genDef, genDef]
    exact (sim_define hna hadt (.inr rfl) _ (hr _ (by simp [Export.types]))).seq (.item (it := .const .python c) rfl)
  | type n ty =>
    rw [genDef, genDef]
    exact sim_define hna hadt (.inr rfl) _ (hr _ (by simp [Export.types]))

theorem sim_genAll (hna : ∀ rn docs t, ¬ Reach P es (.alias rn docs t)) (m : Nat) (xs : List Export) (h : ∀ e ∈ xs, e ∈ es) :
    Sim P es (genAll P m .python xs) (genAll P m .c xs) := by
  induction xs with
  | nil => exact .done
  | cons e xs ih =>
    rw [genAll, genAll]
    exact (sim_genDef hna m (h e (by simp))).seq (ih fun e he => h e (by simp [he]))

theorem entry_toC (it : Item) : entry P (toC it) = entry P it := by
  cases it with
  | type lang t => cases t <;> rfl
  | _ => rfl

/-- The C header of the same program has the same items. -/
theorem header_twin {m : Nat} {c c' : Config} {k : Sink} (hf : CdefFine P c es) (hc : c'.lang = .c) (hs : c'.stable = c.stable)
    (h : (generated P m c es k).2 = none) :
    (generated P m c' es okSink).2 = none ∧ ∃ body p e, (generated P m c es k).1.items = .text c.writeBanner :: body ∧
      (∀ it ∈ body, PyItem P es it ∧ (render P it).panics = false) ∧ c'.prelude = some p ∧ c'.epilogue = some e ∧
      (generated P m c' es okSink).1.items = .text c'.writeBanner :: .text p :: (body.map toC ++ [.text e]) := by
  obtain ⟨p, hp⟩ : ∃ p, c'.prelude = some p := ⟨_, prelude_c hc⟩
  obtain ⟨e, he⟩ : ∃ e, c'.epilogue = some e := ⟨_, epilogue_c hc⟩
  have hp' : c.prelude = none := by rw [Config.prelude, hf.lang]
  have he' : c.epilogue = none := by rw [Config.epilogue, hf.lang]
  have hsim := sim_genAll (P := P) hf.aliases m (ordered c.stable es) fun e he => (mem_ordered hf.sorted e).1 he
  have okText : ∀ s st, (emit P (.text s) okSink st).2 = none := fun s st => emit_okSink rfl st
  have hpy : generated P m c es k = (emit P (.text c.writeBanner) ;; done ;; genAll P m .python (ordered c.stable es) ;; done) k ⟨[], [], 0, []⟩ := by
    rw [generated, generate, hp', he', hf.lang]
    rfl
  rw [hpy] at h ⊢
  have h1 := ok_first h
  rw [andThen_ok h1, andThen_ok (show (done k _).2 = none from rfl)] at h ⊢
  have h2 := ok_first h
  rw [andThen_ok h2]
  obtain ⟨e1, e2, new, e3, e4, e5⟩ := hsim k _ (emit P (.text p) okSink (emit P (.text c'.writeBanner) okSink ⟨[], [], 0, []⟩).1).1
    (by rw [(emit_st P _ _ _).2.1, (emit_st P _ _ _).2.1]; exact (emit_st P _ _ _).2.1.symm) h2
  have hgen : generated P m c' es okSink = emit P (.text e) okSink (genAll P m .c (ordered c.stable es) okSink
      (emit P (.text p) okSink (emit P (.text c'.writeBanner) okSink ⟨[], [], 0, []⟩).1).1).1 := by
    rw [generated, generate, hp, he, hc, hs]
    simp only [writeText]
    rw [andThen_ok (okText _ _), andThen_ok (okText _ _), andThen_ok e1]
  rw [hgen]
  refine ⟨okText _ _, new, p, e, ?_, e5, hp, he, ?_⟩
  · refine e3.trans ?_
    show (emit P (.text c.writeBanner) k ⟨[], [], 0, []⟩).1.items ++ new = _
    rw [(emit_st P _ _ _).1]
    rfl
  · rw [(emit_st P (.text e) _ _).1, e4, (emit_st P _ _ _).1, (emit_st P _ _ _).1]
    simp

end

end Verif.Headers
