import Verif.Dyn.DeriveSpec
/-! Lemmas for C78. -/
namespace Verif.DynDerive

open Verif.Dyn (Coercible FnPtr)

theorem isSelf_iff (t : RTy) : t.isSelf = true ↔ t = Self' := by
  constructor
  · intro h; unfold RTy.isSelf at h; split at h
    · rfl
    · simp at h
  · rintro rfl; rfl

theorem fromSelfTy_ok {t : RTy} {r : Receiver} (h : fromSelfTy true t = .ok r) :
    r.pinned = true ∧ ∀ mt, r.kind = .reference mt → t = .ref mt Self' := by
  rw [fromSelfTy.eq_def] at h
  split at h
  · simp at h
  · split at h
    · split at h
      · rename_i hs
        simp only [Except.ok.injEq] at h
        subst h
        refine ⟨rfl, fun mt e => ?_⟩
        simp only [Kind.reference.injEq] at e
        rw [(isSelf_iff _).1 hs, e]
      · simp at h
    · split at h
      · simp only [Except.ok.injEq] at h; subst h; exact ⟨rfl, fun _ e => by simp at e⟩
      · split at h
        · simp only [Except.ok.injEq] at h; subst h; exact ⟨rfl, fun _ e => by simp at e⟩
        · simp at h
    · simp at h
    · simp at h

theorem receiverTy_of {t : RTy} {r : Receiver} {mt : Bool} (h : fromSelfTy false t = .ok r)
    (hk : r.kind = .reference mt) : ReceiverTy t mt r.pinned := by
  rw [fromSelfTy.eq_def] at h
  split at h
  · simp at h
  · split at h
    · split at h
      · rename_i hs
        simp only [Except.ok.injEq] at h
        subst h
        simp only [Kind.reference.injEq] at hk
        subst hk
        rw [(isSelf_iff _).1 hs]
        exact .ref _
      · simp at h
    · split at h
      · simp only [Except.ok.injEq] at h; subst h; simp at hk
      · split at h
        · simp only [Except.ok.injEq] at h; subst h; simp at hk
        · simp only [Bool.false_eq_true, ↓reduceIte] at h
          split at h
          · rename_i hp
            have ⟨h1, h2⟩ := fromSelfTy_ok h
            rw [h1, h2 mt hk, hp]
            exact .pin _ _ _
          · simp at h
    · simp at h
    · simp at h

theorem fromSelfTy_of {t : RTy} {mt pinned : Bool} (h : ReceiverTy t mt pinned) :
    fromSelfTy false t = .ok ⟨.reference mt, pinned⟩ := by
  cases h with
  | ref mt => rfl
  | pin colon init mt => cases colon <;> cases init <;> rfl

theorem isReceiver_of {a : FnArg} {r : Receiver} {mt : Bool} (h : fromFnArg a = .ok r) (hk : r.kind = .reference mt) :
    IsReceiver a mt r.pinned := by
  unfold fromFnArg at h
  split at h
  · rename_i ref m
    cases ref
    · simp [fromSelfTy, selfTy, RTy.isSelf] at h
    · have : r = ⟨.reference m, false⟩ := by
        have e : fromSelfTy false (.ref m Self') = .ok ⟨.reference m, false⟩ := fromSelfTy_of (.ref m)
        have h' : fromSelfTy false (.ref m Self') = .ok r := h
        rw [e] at h'
        exact (Except.ok.inj h').symm
      subst this
      simp only [Kind.reference.injEq] at hk
      subst hk
      exact .short _
  · exact .long (receiverTy_of h hk)
  · simp at h

theorem fromFnArg_of {a : FnArg} {mt pinned : Bool} (h : IsReceiver a mt pinned) :
    fromFnArg a = .ok ⟨.reference mt, pinned⟩ := by
  cases h with
  | short mt => rfl
  | long h => exact fromSelfTy_of h

theorem typedArgs_ok {as : List FnArg} {tys : List RTy} : typedArgs as = .ok tys ↔ as.map (·.ty?) = tys.map some := by
  induction as generalizing tys with
  | nil => cases tys <;> simp [typedArgs]
  | cons a as ih =>
    cases a with
    | receiver r m => cases tys <;> simp [typedArgs, FnArg.ty?]
    | typed p ty =>
      simp only [typedArgs, bind, Except.bind]
      cases tys with
      | nil =>
        constructor
        · intro h; split at h <;> simp at h
        · intro h; simp at h
      | cons t tys =>
        constructor
        · intro h
          split at h
          · simp at h
          · rename_i x hx
            simp only [Except.ok.injEq, List.cons.injEq] at h
            obtain ⟨rfl, rfl⟩ := h
            simp only [List.map_cons, FnArg.ty?, List.cons.injEq, true_and]
            exact ih.1 hx
        · intro h
          simp only [List.map_cons, FnArg.ty?, List.cons.injEq, Option.some.injEq] at h
          rw [ih.2 h.2, h.1]

/-- The entry for such a method. -/
def entryOf (m : Method) (mt pinned : Bool) (tys : List RTy) : Entry where
  name := m.name
  receiver := ⟨.reference mt, pinned⟩
  argNames := Verif.Dyn.argNames tys.length
  erased := if mt then .exclusive else .shared
  argTys := tys
  out := m.output

theorem range_tail (n : Nat) : (List.range (n + 1)).tail = (List.range n).map (· + 1) := by
  rw [List.range_succ_eq_map]; rfl

theorem names_eq {m : Method} {self : FnArg} {args : List FnArg} {tys : List RTy} (h : m.inputs = self :: args)
    (ht : args.map (·.ty?) = tys.map some) :
    ((List.range m.inputs.length).tail.map fun i => "__arg" ++ toString i) = Verif.Dyn.argNames tys.length := by
  have hl : args.length = tys.length := by simpa using congrArg List.length ht
  rw [h, List.length_cons, range_tail, List.map_map, hl]
  rfl

theorem methodEntry_of {m : Method} {mt pinned : Bool} {tys : List RTy} (h : IsMethod m mt pinned tys) :
    methodEntry m = .ok (entryOf m mt pinned tys) := by
  obtain ⟨h1, h2, h3, self, args, hi, hr, ht⟩ := h
  rw [methodEntry.eq_def]
  simp only [h1, h2, h3, Bool.false_eq_true, ↓reduceIte]
  rw [names_eq hi ht, hi]
  simp only [fromFnArg_of hr, typedArgs_ok.2 ht, bind, Except.bind, entryOf]
  cases mt <;> rfl

theorem isMethod_of {m : Method} {e : Entry} (h : methodEntry m = .ok e) :
    ∃ mt pinned tys, IsMethod m mt pinned tys ∧ e = entryOf m mt pinned tys := by
  have h0 := h
  rw [methodEntry.eq_def] at h
  split at h
  · simp at h
  · split at h
    · simp at h
    · split at h
      · simp at h
      · rename_i h1 h2 h3
        split at h
        · simp at h
        · rename_i self args hi
          simp only [bind, Except.bind] at h
          split at h
          · simp at h
          · rename_i r hr
            split at h
            · rename_i mt hk
              split at h
              · simp at h
              · rename_i tys ht
                have hm : IsMethod m mt r.pinned tys :=
                  ⟨by simpa using h1, by simpa using h2, by simpa using h3, self, args, hi, isReceiver_of hr hk,
                    typedArgs_ok.1 ht⟩
                refine ⟨mt, r.pinned, tys, hm, ?_⟩
                rw [methodEntry_of hm] at h0
                exact (Except.ok.inj h0).symm
            · simp at h

/-- The entries of the items. -/
inductive Entries : List Item → List Entry → Prop
  | nil : Entries [] []
  | cons {m mt pinned tys its es} : IsMethod m mt pinned tys → Entries its es →
    Entries (.method m :: its) (entryOf m mt pinned tys :: es)

theorem entries_of {items : List Item} {es : List Entry} (h : vtableEntries items = .ok es) : Entries items es := by
  induction items generalizing es with
  | nil => simp [vtableEntries] at h; subst h; exact .nil
  | cons it its ih =>
    simp only [vtableEntries, bind, Except.bind] at h
    split at h
    · simp at h
    · rename_i e he
      split at h
      · simp at h
      · rename_i es' hes
        simp only [Except.ok.injEq] at h
        subst h
        cases it with
        | method m =>
          obtain ⟨mt, pinned, tys, hm, rfl⟩ := isMethod_of (m := m) he
          exact .cons hm (ih hes)
        | type n => simp [itemEntry] at he
        | const n => simp [itemEntry] at he
        | other => simp [itemEntry] at he

theorem Entries.ok {items : List Item} {es : List Entry} (h : Entries items es) : vtableEntries items = .ok es := by
  induction h with
  | nil => rfl
  | cons hm _ ih => simp only [vtableEntries, itemEntry, methodEntry_of hm, ih, bind, Except.bind]

theorem Entries.simple {items : List Item} {es : List Entry} (h : Entries items es) : Simple items := by
  induction h with
  | nil => intro it hit; simp at hit
  | cons hm _ ih =>
    intro it hit
    rcases List.mem_cons.1 hit with rfl | hit
    · exact ⟨_, _, _, _, rfl, hm⟩
    · exact ih it hit

theorem Simple.entries {items : List Item} (h : Simple items) : ∃ es, Entries items es := by
  induction items with
  | nil => exact ⟨[], .nil⟩
  | cons it its ih =>
    obtain ⟨m, mt, pinned, tys, rfl, hm⟩ := h it (by simp)
    obtain ⟨es, hes⟩ := ih fun it hit => h it (by simp [hit])
    exact ⟨_, .cons hm hes⟩

/-- A method has one receiver. -/
theorem IsMethod.unique {m : Method} {mt pinned mt' pinned' : Bool} {tys tys' : List RTy} (h : IsMethod m mt pinned tys)
    (h' : IsMethod m mt' pinned' tys') : mt = mt' ∧ pinned = pinned' ∧ tys = tys' := by
  have e := (methodEntry_of h).symm.trans (methodEntry_of h')
  simp only [Except.ok.injEq, entryOf, Entry.mk.injEq, Receiver.mk.injEq, Kind.reference.injEq] at e
  exact ⟨e.2.1.1, e.2.1.2, e.2.2.2.2.1⟩

theorem Entries.has {items : List Item} {es : List Entry} (h : Entries items es) (mt pinned : Bool) :
    Has items mt pinned ↔ ⟨.reference mt, pinned⟩ ∈ es.map (·.receiver) := by
  induction h with
  | nil => simp [Has]
  | @cons m mt' pinned' tys its es hm _ ih =>
    rw [List.map_cons, List.mem_cons, ← ih]
    constructor
    · rintro ⟨m', tys', hmem, hm'⟩
      rcases List.mem_cons.1 hmem with e | hmem
      · cases e
        obtain ⟨rfl, rfl, _⟩ := hm.unique hm'
        exact .inl rfl
      · exact .inr ⟨m', tys', hmem, hm'⟩
    · rintro (e | ⟨m', tys', hmem, hm'⟩)
      · simp only [entryOf, Receiver.mk.injEq, Kind.reference.injEq] at e
        obtain ⟨rfl, rfl⟩ := e
        exact ⟨m, tys, by simp, hm⟩
      · exact ⟨m', tys', by simp [hmem], hm'⟩

theorem Entries.reference {items : List Item} {es : List Entry} (h : Entries items es) {e : Entry} (he : e ∈ es) :
    ∃ mt pinned, e.receiver = ⟨.reference mt, pinned⟩ := by
  induction h with
  | nil => simp at he
  | cons hm _ ih =>
    rcases List.mem_cons.1 he with rfl | he
    · exact ⟨_, _, rfl⟩
    · exact ih he

theorem Entries.mutability {items : List Item} {es : List Entry} (h : Entries items es) (mt : Bool) :
    hasMutability mt es = true ↔ Has items mt false ∨ Has items mt true := by
  rw [h.has, h.has]
  simp only [hasMutability, List.any_eq_true, List.mem_map]
  constructor
  · rintro ⟨e, he, hk⟩
    obtain ⟨m, p, hr⟩ := h.reference he
    rw [hr] at hk
    simp only [beq_iff_eq] at hk
    subst hk
    cases p
    · exact .inl ⟨e, he, hr⟩
    · exact .inr ⟨e, he, hr⟩
  · rintro (⟨e, he, hr⟩ | ⟨e, he, hr⟩) <;> exact ⟨e, he, by rw [hr]; simp⟩

theorem Entries.pin {items : List Item} {es : List Entry} (h : Entries items es) :
    hasPin es = true ↔ HasPin items := by
  rw [HasPin, h.has, h.has]
  simp only [hasPin, List.any_eq_true, List.mem_map]
  constructor
  · rintro ⟨e, he, hk⟩
    obtain ⟨m, p, hr⟩ := h.reference he
    rw [hr] at hk
    simp only at hk
    subst hk
    cases m
    · exact .inl ⟨e, he, hr⟩
    · exact .inr ⟨e, he, hr⟩
  · rintro (⟨e, he, hr⟩ | ⟨e, he, hr⟩) <;> exact ⟨e, he, by rw [hr]⟩

theorem Entries.nonPin {items : List Item} {es : List Entry} (h : Entries items es) :
    hasNonPinNonRef es = true ↔ Has items true false := by
  rw [h.has]
  simp only [hasNonPinNonRef, List.any_eq_true, List.mem_map]
  constructor
  · rintro ⟨e, he, hk⟩
    obtain ⟨m, p, hr⟩ := h.reference he
    rw [hr] at hk
    cases m <;> cases p <;> simp at hk
    exact ⟨e, he, hr⟩
  · rintro ⟨e, he, hr⟩
    exact ⟨e, he, by rw [hr]⟩

/-! ### Arguments -/

theorem parseRest_ok {ts : List Tok} {c0 c : Bool} (h : parseRest c0 ts = .ok c) :
    .dyn ∉ ts ∧ .other ∉ ts ∧ (c = true ↔ c0 = true ∨ .clone ∈ ts) := by
  fun_induction parseRest c0 ts with
  | case1 => simp_all
  | case2 => simp at h
  | case3 _ ts ih => have := ih h; simp_all
  | case4 _ ts _ ih => have := ih h; simp_all
  | case5 => simp at h

theorem parseArgs_ok {ts : List Tok} {c : Bool} (h : parseArgs ts = .ok c) :
    ∃ rest, ts = .dyn :: rest ∧ .dyn ∉ rest ∧ .other ∉ rest ∧ (c = true ↔ .clone ∈ rest) := by
  unfold parseArgs at h
  split at h
  · have := parseRest_ok h; exact ⟨_, rfl, by simp_all⟩
  · have := parseRest_ok h; exact ⟨_, rfl, by simp_all⟩
  · simp at h

/-! ### The expansion -/

/-- The expansion of a trait with these entries. -/
def expansion (clone : Bool) (es : List Entry) : Expansion where
  vtable := vtableDef clone es
  impls := (markers (hasMutability false es)).map fun (send, sync) =>
    { send, sync
      dynClone := clone
      methods := es.map (·.forward)
      from_ := conversions ⟨clone, send, sync, hasMutability true es, hasPin es⟩ es }

theorem expand_ok {args : List Tok} {items : List Item} {x : Expansion} (h : expand args items = .ok x) :
    ∃ clone es, parseArgs args = .ok clone ∧ Entries items es ∧ ¬(HasPin items ∧ Has items true false) ∧
      x = expansion clone es := by
  simp only [expand, bind, Except.bind] at h
  split at h
  · simp at h
  · rename_i clone hc
    split at h
    · simp at h
    · rename_i es hes
      have he := entries_of hes
      split at h
      · simp at h
      · rename_i hp
        refine ⟨clone, es, hc, he, ?_, (Except.ok.inj h).symm⟩
        rintro ⟨h1, h2⟩
        exact hp (by rw [he.pin.2 h1, he.nonPin.2 h2]; rfl)

theorem expand_of {args : List Tok} {items : List Item} {clone : Bool} {es : List Entry} (hc : parseArgs args = .ok clone)
    (he : Entries items es) (hp : ¬(HasPin items ∧ Has items true false)) :
    expand args items = .ok (expansion clone es) := by
  have : (hasPin es && hasNonPinNonRef es) = false := by
    rw [Bool.eq_false_iff]
    intro h
    rw [Bool.and_eq_true] at h
    exact hp ⟨he.pin.1 h.1, he.nonPin.1 h.2⟩
  simp only [expand, bind, Except.bind, hc, he.ok, this, Bool.false_eq_true, ↓reduceIte]
  rfl

end Verif.DynDerive
