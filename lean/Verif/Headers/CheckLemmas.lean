import Verif.Headers.CheckSpec
import Verif.Headers.AbiProps
/-!
# Lemmas for C86
-/
namespace Verif.Headers
open Text

/-! ### Names -/

def Named (env : Env) (n : Text) : Prop := n ∈ stdTypes ∨ n = kvoid ∨ ∃ d, env.lookup n = some d ∧ d.isType = true

theorem Named.usable {env : Env} {n : Text} (h : Named env n) : Usable env (.name n) := by
  rcases h with h | h | ⟨d, h1, h2⟩
  · exact .std h
  · rw [h]; exact .void
  · exact .name h1 h2

mutual
theorem usable_of {env : Env} {b : Nat → Text} : ∀ t : CTy, (∀ n ∈ (ctype b t).names, Named env n) → Usable env (ctype b t)
  | .int _, h | .float, h | .double, h | .bool, h | .cint, h | .cchar, h | .void, h | .array _ _, h | .alias _ _ _, h | .adt _ _, h =>
    (h _ (by simp [ctype, CT.names])).usable
  | .constPtr t, h => .ptr (.const (usable_of t (by simpa [ctype, CT.names] using h)))
  | .mutPtr t, h => .ptr (usable_of t (by simpa [ctype, CT.names] using h))
  | .fptr r args, h => by
    rw [ctype, CT.names, CT.names] at h
    exact .ptr (.fn (usable_of r fun n hn => h n (by simp [hn])) (usables_of args fun n hn => h n (by simp [hn])))
theorem usables_of {env : Env} {b : Nat → Text} : ∀ ts : List CTy, (∀ n ∈ paramNames (ctypes b ts), Named env n) →
    ∀ p ∈ ctypes b ts, Usable env p.2
  | [], _, p, hp => by simp [ctypes] at hp
  | t :: ts, h, p, hp => by
    rw [ctypes, paramNames] at h
    rw [ctypes, List.mem_cons] at hp
    rcases hp with rfl | hp
    · exact usable_of t fun n hn => h n (by simp [hn])
    · exact usables_of ts (fun n hn => h n (by simp [hn])) p hp
end

section
variable {P : Prog} {es : List Export} {D : List Text}

/-- The names of the type are provided. -/
def Provided (P : Prog) (pre : List Item) (t : CTy) : Prop := ∀ n ∈ mentions P.base .c t, ∃ it ∈ pre, n ∈ provides P it

theorem named_of {pre : List Item} (hf : ∀ it ∈ pre, Fits P es D it) (hn : ((pre.flatMap (entry P)).map (·.1)).Nodup) {n : Text}
    (h : ∃ it ∈ pre, n ∈ provides P it) : Named (pre.flatMap (entry P)) n := by
  obtain ⟨it, hit, hp⟩ := h
  have hfit := hf it hit
  cases it with
  | intHeaders => exact .inl ((by decide : ∀ n ∈ intNames, n ∈ stdTypes) n hp)
  | boolHeader => exact .inl ((by decide : ∀ n ∈ [t!"bool"], n ∈ stdTypes) n hp)
  | type lang t =>
    obtain ⟨_, h2, _⟩ := hfit
    have key : ∀ d, (n, d) ∈ entry P (.type lang t) → d.isType = true → Named (pre.flatMap (entry P)) n := fun d hd ht =>
      .inr (.inr ⟨d, lookup_nodup hn (List.mem_flatMap.2 ⟨_, hit, hd⟩), ht⟩)
    cases t with
    | adt i g =>
      have e : n = cName P.base (.adt i g) := by simpa [provides, typeName, cName_adt] using hp
      cases hd : P.decl i g with
      | struct docs size fs => exact key _ (by rw [entry, hd, e]; exact List.mem_singleton.2 rfl) rfl
      | «opaque» docs => exact key _ (by rw [entry, hd, e]; exact List.mem_singleton.2 rfl) rfl
      | enum docs int vs =>
        cases int with
        | none => exact key _ (by rw [entry, hd, e]; exact List.mem_singleton.2 rfl) rfl
        | some k => exact key _ (by rw [entry, hd, e]; exact List.mem_singleton.2 rfl) rfl
    | array m item =>
      have e : n = cName P.base (.array m item) := by simpa [provides, typeName, cName_array] using hp
      exact key _ (by rw [entry, e]; exact List.mem_singleton.2 rfl) rfl
    | alias r docs inner =>
      have e : n = cName P.base (.alias r docs inner) := by simpa [provides, typeName, cName_alias] using hp
      exact key _ (by rw [entry, e]; exact List.mem_singleton.2 rfl) rfl
    | _ => cases h2
  | func lang f => simp [provides, typeName] at hp
  | const lang c => simp [provides, typeName] at hp
  | text s => simp [provides, typeName] at hp

theorem usable_provided {pre : List Item} (hf : ∀ it ∈ pre, Fits P es D it) (hn : ((pre.flatMap (entry P)).map (·.1)).Nodup)
    {t : CTy} (h : Provided P pre t) : Usable (pre.flatMap (entry P)) (ctype P.base t) := by
  refine usable_of t fun n hm => ?_
  by_cases hk : n ∈ keywords
  · simp only [keywords, List.mem_cons, List.not_mem_nil, or_false] at hk
    rcases hk with rfl | rfl | rfl | rfl | rfl
    · exact .inr (.inl rfl)
    all_goals exact .inl (by decide)
  · exact named_of hf hn (h n (by rw [mentions]; exact List.mem_filter.2 ⟨hm, by simpa using hk⟩; simp))

/-- The item that defines a type. -/
theorem item_of {pre : List Item} (hf : ∀ it ∈ pre, Fits P es D it) (hu : Unambiguous P es) {t : CTy} (hr : Reach P es t)
    (hd : hasDef t = true) (h : ∃ it ∈ pre, cName P.base t ∈ provides P it) : .type .c t ∈ pre := by
  obtain ⟨it, hit, hp⟩ := h
  have hfit := hf it hit
  have hb := hu.base ⟨8, fun s => 1, by decide, by intro; decide, by intro; exact Nat.one_dvd _⟩ t hr hd
  have hbase : ∀ n ∈ intNames ++ [t!"bool"], cName P.base t ≠ n := by
    intro n hn e
    rw [e] at hb
    clear e
    exact (by decide : ∀ n ∈ intNames ++ [t!"bool"],
      (baseTypes ⟨8, fun s => 1, by decide, by intro; decide, by intro; exact Nat.one_dvd _⟩).lookup n ≠ none) n hn hb
  cases it with
  | intHeaders => exact absurd rfl (hbase _ (List.mem_append_left _ hp))
  | boolHeader => exact absurd rfl (hbase _ (List.mem_append_right _ hp))
  | type lang t' =>
    obtain ⟨rfl, h2, h3, _⟩ := hfit
    have e : cName P.base t = cName P.base t' := by
      cases t' with
      | adt i g => simpa [provides, typeName, cName_adt] using hp
      | array m item => simpa [provides, typeName, cName_array] using hp
      | alias r docs inner => simpa [provides, typeName, cName_alias] using hp
      | _ => cases h2
    rw [hu.types t t' hr h3 hd h2 e]
    exact hit
  | func lang f => simp [provides, typeName] at hp
  | const lang c => simp [provides, typeName] at hp
  | text s => simp [provides, typeName] at hp

theorem cInt_std {pre : List Item} (hf : ∀ it ∈ pre, Fits P es D it)
    (hu : Unambiguous P es) {k : IntTy} (h : ∃ it ∈ pre, cInt k ∈ provides P it) : cInt k ∈ stdTypes := by
  by_cases hk : k = .isize
  · subst hk
    obtain ⟨it, hit, hp⟩ := h
    have hfit := hf it hit
    have hb : ∀ t, Reach P es t → hasDef t = true → cName P.base t ≠ cInt .isize := by
      intro t hr hd e
      have hb := hu.base ⟨8, fun s => 1, by decide, by intro; decide, by intro; exact Nat.one_dvd _⟩ t hr hd
      rw [e] at hb
      exact (by decide : (baseTypes ⟨8, fun s => 1, by decide, by intro; decide, by intro; exact Nat.one_dvd _⟩).lookup (cInt .isize) ≠ none) hb
    cases it with
    | intHeaders => exact absurd hp (by decide : cInt .isize ∉ intNames)
    | boolHeader => exact absurd hp (by decide : cInt .isize ∉ [t!"bool"])
    | type lang t' =>
      obtain ⟨rfl, h2, h3, _⟩ := hfit
      refine absurd ?_ (hb t' h3 h2)
      cases t' with
      | adt i g => rw [cName_adt]; simpa [provides, typeName, eq_comm] using hp
      | array m item => rw [cName_array]; simpa [provides, typeName, eq_comm] using hp
      | alias r docs inner => rw [cName_alias]; simpa [provides, typeName, eq_comm] using hp
      | _ => cases h2
    | func lang f => simp [provides, typeName] at hp
    | const lang c => simp [provides, typeName] at hp
    | text s => simp [provides, typeName] at hp
  · clear h
    cases k <;> first | decide | exact absurd rfl hk

theorem complete_provided {pre : List Item} (hf : ∀ it ∈ pre, Fits P es D it) (hn : ((pre.flatMap (entry P)).map (·.1)).Nodup)
    (hu : Unambiguous P es) (hw : WellOrdered P pre) (t : CTy) : Reach P es t → unsized P t = false → Provided P pre t →
    Complete (pre.flatMap (entry P)) (ctype P.base t) := by
  have hname : ∀ {t x}, ctype P.base t = .name (x ++ t!"_t") → Provided P pre t → ∃ it ∈ pre, x ++ t!"_t" ∈ provides P it := by
    intro t x e h
    refine h _ ?_
    rw [mentions, intended, e]
    · refine List.mem_filter.2 ⟨by simp [CT.names], ?_⟩
      have : ∀ k ∈ keywords, ¬ (x ++ t!"_t" = k) := by
        intro k hk e
        have h2 : (x ++ t!"_t").getLast? = some 't' ∧ (x ++ t!"_t").dropLast.getLast? = some '_' := by
          rw [show x ++ t!"_t" = (x ++ t!"_") ++ t!"t" from by simp]
          simp
        rw [e] at h2
        clear e
        revert h2
        revert k
        decide
      simpa using fun hk => this _ hk rfl
    · simp
    · simp
  have hpre : ∀ {it : Item}, it ∈ pre → ∀ n ∈ uses P it, ∃ it' ∈ pre, n ∈ provides P it' := by
    intro it hit n hu
    obtain ⟨a, b, e⟩ := List.append_of_mem hit
    obtain ⟨it', h1, h2⟩ := hw a it b e n hu
    exact ⟨it', by rw [e]; simp [h1], h2⟩
  match t with
  | .int k =>
    intro _ _ h
    exact .std (cInt_std hf hu (h _ (by rw [mentions]; exact List.mem_filter.2 ⟨by simp [intended, ctype, CT.names], by cases k <;> decide⟩; simp)))
  | .float | .double | .bool | .cint | .cchar => exact fun _ _ _ => .std (by decide)
  | .void => exact fun _ h => by simp [unsized] at h
  | .fptr _ _ | .constPtr _ | .mutPtr _ => exact fun _ _ _ => .ptr
  | .array n item =>
    intro hr _ h
    have := item_of hf hu hr rfl (by rw [cName_array]; exact hname (ctype_array ..) h)
    exact .struct (lookup_nodup hn (List.mem_flatMap.2 ⟨_, this, by rw [entry, cName_array]; exact List.mem_singleton.2 rfl⟩))
  | .alias r docs inner =>
    intro hr hs h
    have hi := item_of hf hu hr rfl (by rw [cName_alias]; exact hname (ctype_alias ..) h)
    exact .alias (lookup_nodup hn (List.mem_flatMap.2 ⟨_, hi, by rw [entry, cName_alias]; exact List.mem_singleton.2 rfl⟩))
      (complete_provided hf hn hu hw inner hr.inner hs (hpre hi))
  | .adt i g =>
    intro hr hs h
    have hi := item_of hf hu hr rfl (by rw [cName_adt]; exact hname (ctype_adt ..) h)
    cases hd : P.decl i g with
    | struct docs size fs =>
      exact .struct (lookup_nodup hn (List.mem_flatMap.2 ⟨_, hi, by rw [entry, hd, cName_adt]; exact List.mem_singleton.2 rfl⟩))
    | «opaque» docs => simp [unsized, hd] at hs
    | enum docs int vs =>
      cases int with
      | none => exact .enum (lookup_nodup hn (List.mem_flatMap.2 ⟨_, hi, by rw [entry, hd, cName_adt]; exact List.mem_singleton.2 rfl⟩))
      | some k =>
        refine .alias (lookup_nodup hn (List.mem_flatMap.2 ⟨_, hi, by rw [entry, hd, cName_adt]; exact List.mem_singleton.2 rfl⟩)) (.std ?_)
        exact cInt_std hf hu (hpre hi _ (by rw [uses, hd]; simp [declMentions, enumMentions]))

/-- Each item is accepted after those in front of it. -/
theorem accepts_item {pre : List Item} {it : Item} (hf : ∀ it ∈ pre, Fits P es D it) (hfi : Fits P es D it)
    (hn : ((pre.flatMap (entry P)).map (·.1)).Nodup) (hu : Unambiguous P es) (hs : Solid P es) (hw : WellOrdered P pre)
    (huse : ∀ n ∈ uses P it, ∃ it' ∈ pre, n ∈ provides P it') : ∀ p ∈ entry P it, Accepts (pre.flatMap (entry P)) p.2 := by
  have both : ∀ t, Reach P es t → unsized P t = false → Provided P pre t →
      Usable (pre.flatMap (entry P)) (ctype P.base t) ∧ Complete (pre.flatMap (entry P)) (ctype P.base t) :=
    fun t hr ht h => ⟨usable_provided hf hn h, complete_provided hf hn hu hw t hr ht h⟩
  intro p hp
  cases it with
  | type lang t =>
    obtain ⟨rfl, h2, hr, _⟩ := hfi
    cases t with
    | adt i g =>
      rw [entry] at hp
      cases hd : P.decl i g with
      | struct docs size fs =>
        rw [hd, List.mem_singleton] at hp
        rw [hp]
        intro m hm
        obtain ⟨f, hf', rfl⟩ := List.mem_map.1 hm
        obtain ⟨hf1, hf2⟩ := List.mem_filter.1 hf'
        have h0 : f.size ≠ 0 := by simpa using hf2
        obtain ⟨s1, s2⟩ := hs.fields i g docs size fs f hr hd hf1 h0
        refine ⟨s2, both f.ty (hr.field hd hf1) s1 fun n hn => huse n ?_⟩
        rw [uses, hd, declMentions]
        exact List.mem_flatMap.2 ⟨f, hf', hn⟩
      | «opaque» docs => rw [hd, List.mem_singleton] at hp; rw [hp]; trivial
      | enum docs int vs =>
        rw [hd] at hp
        cases int with
        | none => rw [List.mem_singleton.1 hp]; trivial
        | some k =>
          rw [List.mem_singleton.1 hp]
          exact .std (cInt_std hf hu (huse _ (by rw [uses, hd]; simp [declMentions, enumMentions])))
    | array n item =>
      rw [entry, List.mem_singleton] at hp
      rw [hp]
      intro m hm
      rw [List.mem_singleton] at hm
      rw [hm]
      obtain ⟨s1, s2⟩ := hs.items n item hr
      obtain ⟨u, c⟩ := both item hr.item s1 huse
      exact ⟨(by decide : t!"idx" ∉ cReserved), .array (fun e => s2 (nat_inj (m := 0) e)) u c, .array c⟩
    | alias r docs inner =>
      rw [entry, List.mem_singleton] at hp
      rw [hp]
      exact usable_provided hf hn huse
    | _ => cases h2
  | func lang f =>
    rw [entry, List.mem_singleton] at hp
    rw [hp]
    obtain ⟨_, _, s3, s4⟩ := hs.fns f hfi.2
    have hrr : Reach P es f.ret := .export hfi.2 (by rw [Export.types]; simp)
    have hra : ∀ a ∈ f.args, Reach P es a.ty := fun a ha => .export hfi.2 (by rw [Export.types]; simp; exact .inl ⟨a, ha, rfl⟩)
    rw [hfi.1] at huse
    have hret : Provided P pre f.ret := fun n hn => huse n (by rw [uses]; simp [hn])
    refine ⟨usable_provided hf hn hret, ?_, ?_⟩
    · rcases s3 with e | e
      · exact .inl (by rw [e]; rfl)
      · exact .inr (both _ hrr e hret).2
    · intro q hq
      obtain ⟨a, ha, rfl⟩ := List.mem_map.1 hq
      obtain ⟨s5, s6⟩ := s4 a ha
      refine ⟨fun n e => by injection e with e; exact e ▸ s6, both _ (hra a ha) s5 fun n hn => huse n ?_⟩
      rw [uses]
      exact List.mem_append_left _ (List.mem_flatMap.2 ⟨a, ha, hn⟩)
  | _ => cases hp

theorem entry_short (P : Prog) (it : Item) : (entry P it).length ≤ 1 := by
  cases it with
  | type lang t =>
    cases t with
    | adt i g =>
      rw [entry]
      cases P.decl i g with
      | enum docs int vs => cases int <;> exact Nat.le_refl 1
      | _ => exact Nat.le_refl 1
    | _ => simp [entry]
  | _ => simp [entry]

/-- A declaration belongs to an item. -/
theorem split_env {body : List Item} {pre : Env} {x : Text × CDef} {post : Env} (h : body.flatMap (entry P) = pre ++ x :: post) :
    ∃ a it b, body = a ++ it :: b ∧ pre = a.flatMap (entry P) ∧ x ∈ entry P it := by
  induction body generalizing pre with
  | nil => simp at h
  | cons it body ih =>
    rw [List.flatMap_cons] at h
    have hl := entry_short P it
    cases he : entry P it with
    | nil =>
      rw [he] at h
      obtain ⟨a, it', b, h1, h2, h3⟩ := ih h
      exact ⟨it :: a, it', b, by rw [h1]; rfl, by rw [List.flatMap_cons, he]; exact h2, h3⟩
    | cons y ys =>
      rw [he] at h hl
      have : ys = [] := by cases ys with
        | nil => rfl
        | cons => simp at hl
      subst this
      cases pre with
      | nil =>
        injection h with h1 _
        exact ⟨[], it, body, rfl, rfl, by rw [he, h1]; exact List.mem_singleton.2 rfl⟩
      | cons z pre =>
        injection h with h1 h2
        obtain ⟨a, it', b, h3, h4, h5⟩ := ih h2
        exact ⟨it :: a, it', b, by rw [h3]; rfl, by rw [List.flatMap_cons, he, h4, h1]; rfl, h5⟩

theorem cName_plain {t : CTy} (hd : hasDef t = true) : cName P.base t ∉ cReserved := by
  obtain ⟨x, hx⟩ : ∃ x, cName P.base t = x ++ t!"_t" := by
    cases t with
    | array n item => exact ⟨_, cName_array ..⟩
    | alias r d i => exact ⟨_, cName_alias ..⟩
    | adt i g => exact ⟨_, cName_adt ..⟩
    | _ => cases hd
  intro hk
  have h2 : (cName P.base t).getLast? = some 't' ∧ (cName P.base t).dropLast.getLast? = some '_' := by
    rw [hx, show x ++ t!"_t" = (x ++ t!"_") ++ t!"t" from by simp]
    simp
  exact (by decide : ∀ k ∈ cReserved, ¬ (k.getLast? = some 't' ∧ k.dropLast.getLast? = some '_')) _ hk h2

theorem entry_names_ok (hu : Unambiguous P es) (hs : Solid P es) {it : Item} (hf : Fits P es D it) :
    ∀ p ∈ entry P it, p.1 ∉ cReserved ∧ p.1 ∉ stdTypes := by
  intro p hp
  have hm : p.1 ∈ (declaredName P it).toList := by rw [← entry_names hf]; exact List.mem_map.2 ⟨p, hp, rfl⟩
  cases it with
  | type lang t =>
    obtain ⟨_, h2, hr, _⟩ := hf
    have e : p.1 = cName P.base t := by
      cases t with
      | adt i g => rw [cName_adt]; simpa [declaredName, typeName] using hm
      | array m item => rw [cName_array]; simpa [declaredName, typeName] using hm
      | alias r docs inner => rw [cName_alias]; simpa [declaredName, typeName] using hm
      | _ => cases h2
    rw [e]
    refine ⟨cName_plain h2, fun hb => ?_⟩
    have := hu.base ⟨8, fun s => 1, by decide, by intro; decide, by intro; exact Nat.one_dvd _⟩ t hr h2
    exact (by decide : ∀ n ∈ stdTypes,
      (baseTypes ⟨8, fun s => 1, by decide, by intro; decide, by intro; exact Nat.one_dvd _⟩).lookup n ≠ none) _ hb this
  | func lang f =>
    have e : p.1 = f.name := by simpa [declaredName] using hm
    rw [e]
    exact ⟨(hs.fns f hf.2).1, (hs.fns f hf.2).2.1⟩
  | _ => cases hp

end

/-! ### Programs that C compilers reject

A test that everything that compiles passes. -/

def usableTest (env : Env) : CT → Bool
  | .name n => stdTypes.contains n || n == kvoid || match env.lookup n with
    | some d => d.isType
    | none => false
  | .const t => usableTest env t
  | .ptr t => usableTest env t
  | .array _ t => usableTest env t
  | .fn ret _ => usableTest env ret

def completeTest (env : Env) : CT → Bool
  | .name n => stdTypes.contains n || match env.lookup n with
    | some .enum | some (.struct _) | some (.alias _) => true
    | _ => false
  | .const t => completeTest env t
  | .array _ t => completeTest env t
  | _ => true

def acceptTest (env : Env) : CDef → Bool
  | .struct ms => ms.all fun m => !cReserved.contains m.1 && usableTest env m.2 && completeTest env m.2
  | .fn _ ps => ps.all fun p => usableTest env p.2 && completeTest env p.2
  | _ => true

def test (env : Env) : Env → Bool
  | [] => true
  | (n, d) :: rest => acceptTest env d && test (env ++ [(n, d)]) rest

theorem Usable.test {env : Env} {t : CT} (h : Usable env t) : usableTest env t = true := by
  induction h with
  | std h => simp [usableTest, h]
  | void => simp [usableTest]
  | name h1 h2 => simp [usableTest, h1, h2]
  | const _ ih => exact ih
  | ptr _ ih => exact ih
  | array _ _ _ ih => exact ih
  | fn _ _ ih _ => exact ih

theorem Complete.test {env : Env} {t : CT} (h : Complete env t) : completeTest env t = true := by
  induction h with
  | std h => simp [completeTest, h]
  | enum h => simp [completeTest, h]
  | struct h => simp [completeTest, h]
  | alias h => simp [completeTest, h]
  | const _ ih => exact ih
  | ptr => rfl
  | array _ ih => exact ih

theorem Accepts.test {env : Env} {d : CDef} (h : Accepts env d) : acceptTest env d = true := by
  cases d with
  | struct ms =>
    rw [acceptTest, List.all_eq_true]
    intro m hm
    obtain ⟨h1, h2, h3⟩ := h m hm
    simp [h1, h2.test, h3.test]
  | fn ret ps =>
    rw [acceptTest, List.all_eq_true]
    intro p hp
    obtain ⟨_, h2, h3⟩ := h.2.2 p hp
    simp [h2.test, h3.test]
  | _ => rfl

theorem Compiles.test {env : Env} (h : Compiles env) : test [] env = true := by
  have key : ∀ rest pre, env = pre ++ rest → Verif.Headers.test pre rest = true := by
    intro rest
    induction rest with
    | nil => intros; rfl
    | cons x rest ih =>
      intro pre e
      rw [Verif.Headers.test, (h pre x.1 x.2 rest e).2.2.2.test, ih (pre ++ [x]) (by rw [e]; simp)]
      rfl
  exact key env [] rfl

/-- The types in such a set are all that are reachable. -/
theorem reach_closed {P : Prog} {es : List Export} (L : List CTy) (h0 : ∀ e ∈ es, ∀ t ∈ e.types, t ∈ L)
    (h1 : ∀ t ∈ L, match t with
      | .array _ t => t ∈ L
      | .constPtr t => t ∈ L
      | .mutPtr t => t ∈ L
      | .alias _ _ t => t ∈ L
      | .fptr r args => r ∈ L ∧ ∀ t ∈ args, t ∈ L
      | .adt i g => match P.decl i g with
        | .struct _ _ fs => ∀ f ∈ fs, f.ty ∈ L
        | _ => True
      | _ => True) {t : CTy} (h : Reach P es t) : t ∈ L := by
  induction h with
  | «export» he ht => exact h0 _ he _ ht
  | item _ ih => exact h1 _ ih
  | constPtr _ ih => exact h1 _ ih
  | mutPtr _ ih => exact h1 _ ih
  | ret _ ih => exact (h1 _ ih).1
  | arg _ h ih => exact (h1 _ ih).2 _ h
  | inner _ ih => exact h1 _ ih
  | field _ hd hf ih =>
    have := h1 _ ih
    simp only [hd] at this
    exact this _ hf

/-- The texts of the type and of its definition are fine. -/
def fineTest (P : Prog) (t : CTy) : Bool := wordsOk P.base t && declOk t && match t with
  | .alias _ docs inner => docs.isEmpty && plain inner
  | .adt i g => match P.decl i g with
    | .struct docs _ fs => docs.isEmpty && fs.all fun f => f.docs.isEmpty && decide (IsWord f.name) && f.name != kconst
    | .enum _ _ _ => false
    | .opaque docs => docs.isEmpty
  | _ => true

theorem fineTest_types {P : Prog} {t : CTy} (h : fineTest P t = true) : wordsOk P.base t = true ∧ declOk t = true ∧ TypeFine P t := by
  obtain ⟨h12, h3⟩ := Bool.and_eq_true_iff.1 h
  obtain ⟨h1, h2⟩ := Bool.and_eq_true_iff.1 h12
  refine ⟨h1, h2, ?_⟩
  cases t with
  | alias r docs inner =>
    simp only [Bool.and_eq_true] at h3
    exact ⟨docsOk_nil h3.1, h3.2⟩
  | adt i g =>
    simp only at h3
    show DeclFine (P.decl i g)
    cases hd : P.decl i g with
    | struct docs size fs =>
      rw [hd] at h3
      simp only [Bool.and_eq_true, List.all_eq_true] at h3
      refine ⟨docsOk_nil h3.1, fun f hf => ?_⟩
      have := h3.2 f hf
      exact ⟨docsOk_nil this.1.1, of_decide_eq_true this.1.2, by simpa using this.2⟩
    | enum docs int vs => rw [hd] at h3; cases h3
    | «opaque» docs => rw [hd] at h3; exact docsOk_nil h3
  | _ => trivial

/-- A program whose only export is `fn f(x: ty)`. -/
theorem fine_one {P : Prog} {ty : CTy} (hv : isVoid ty = false) (L : List CTy) (hL : ∀ t, Reach P (Sample.one ty) t → t ∈ L)
    (h : L.all (fineTest P) = true) : Fine P (Sample.cfg .c true) (Sample.one ty) where
  lang := rfl
  banner := rfl
  after := rfl
  guard := ⟨C74_guard _ rfl (by decide), by decide, by decide⟩
  sorted _ := by
    intro e he e' he' _
    simp only [Sample.one, List.mem_cons, List.not_mem_nil, or_false] at he he'
    rw [he, he']
  declarable := {
    types := fun t ht => fineTest_types (List.all_eq_true.1 h t (hL t ht))
    exports := by
      intro e he
      simp only [Sample.one, List.mem_cons, List.not_mem_nil, or_false] at he
      subst he
      exact ⟨nofun, (by decide : IsWord t!"f"), (by decide : t!"f" ≠ kconst), fun a ha => by
        simp only [List.mem_cons, List.not_mem_nil, or_false] at ha
        subst ha; exact ⟨(by decide : IsWord t!"x"), (by decide : t!"x" ≠ kconst), hv⟩⟩ }

end Verif.Headers
