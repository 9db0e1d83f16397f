import Verif.Derive.Spec
/-
Lemmas for C75 and C76.
-/
namespace Verif.Derive

open Verif.Layout

/-- The `#[repr]` lists, in order. -/
def reprs (as : List Attr) : List (List Hint) :=
  as.filterMap fun
    | .repr hs => some hs
    | _ => none

@[simp] theorem reprs_nil : reprs [] = [] := rfl
@[simp] theorem reprs_repr (hs as) : reprs (.repr hs :: as) = hs :: reprs as := rfl
@[simp] theorem reprs_doc (as) : reprs (.doc :: as) = reprs as := rfl
@[simp] theorem reprs_other (as) : reprs (.other :: as) = reprs as := rfl

theorem reprs_none {as : List Attr} (h : ∀ a ∈ as, ∀ hs, a ≠ .repr hs) : reprs as = [] := by
  induction as with
  | nil => rfl
  | cons a as ih =>
    have := ih fun b hb => h b (List.mem_cons_of_mem _ hb)
    cases a with
    | repr hs => exact absurd rfl (h _ (List.mem_cons_self ..) hs)
    | doc => exact this
    | other => exact this

theorem OneRepr.reprs {it : Item} (h : OneRepr it) : ∃ hs, reprs it.attrs = [hs] := by
  obtain ⟨pre, hs, post, h, hn⟩ := h
  refine ⟨hs, ?_⟩
  have h1 := reprs_none fun a ha => hn a (List.mem_append_left _ ha)
  have h2 := reprs_none fun a ha => hn a (List.mem_append_right _ ha)
  unfold Derive.reprs at h1 h2 ⊢
  rw [h, List.filterMap_append, h1]
  simp [h2]

theorem hints_eq (it : Item) : hints it = (reprs it.attrs).flatten := by
  unfold hints
  induction it.attrs with
  | nil => rfl
  | cons a as ih => cases a <;> simpa using ih

theorem firstRepr_eq (as : List Attr) : firstRepr as = (reprs as).head? := by
  induction as with
  | nil => rfl
  | cons a as ih => cases a <;> simp [firstRepr, ih]

theorem soleWord_mem {as : List Attr} {w : String} (h : soleWord as = some w) :
    [.word w] ∈ reprs as := by
  induction as with
  | nil => cases h
  | cons a as ih =>
    unfold soleWord at h
    split at h
    · cases h
    · cases h; rename_i e; cases e; simp
    · rename_i e; cases e
      cases a with
      | repr hs => exact List.mem_cons_of_mem _ (ih h)
      | doc => exact ih h
      | other => exact ih h

theorem soleWord_hint {it : Item} {w : String} (h : soleWord it.attrs = some w) :
    .word w ∈ hints it := by
  rw [hints_eq]
  exact List.mem_flatten.mpr ⟨_, soleWord_mem h, List.mem_singleton_self _⟩

theorem words_eq {hs : List Hint} {ws : List String} (h : words hs = some ws) :
    hs = ws.map .word := by
  induction hs generalizing ws with
  | nil => cases h; rfl
  | cons a hs ih =>
    cases a with
    | call s n => cases h
    | word s =>
      cases hw : words hs with
      | none => simp [words, hw] at h
      | some ws' =>
        simp only [words, hw, Option.map_some, Option.some.injEq] at h
        rw [← h, List.map_cons, ih hw]

theorem words_map (ws : List String) : words (ws.map .word) = some ws := by
  induction ws with
  | nil => rfl
  | cons w ws ih => simp [words, ih]

theorem setFirstRepr_self {as : List Attr} {hs : List Hint} (h : firstRepr as = some hs) :
    setFirstRepr hs as = as := by
  induction as with
  | nil => cases h
  | cons a as ih => cases a <;> simp_all [firstRepr, setFirstRepr]

theorem reprs_setFirst {as : List Attr} {hs : List Hint} (hs' : List Hint)
    (rest : List (List Hint)) (h : reprs as = hs :: rest) :
    reprs (setFirstRepr hs' as) = hs' :: rest := by
  induction as with
  | nil => cases h
  | cons a as ih =>
    cases a with
    | repr hs => simp only [reprs_repr, List.cons.injEq] at h; simp [setFirstRepr, h.2]
    | doc => exact ih h
    | other => exact ih h

theorem reprs_legacy {as as' : List Attr} (h : legacyAttrs as = some as') :
    ∃ x rest hs, reprs as' = [.word x] :: rest ∧ reprs as = hs :: rest ∧ .word x ∈ hs := by
  induction as generalizing as' with
  | nil => simp [legacyAttrs] at h
  | cons a as ih =>
    unfold legacyAttrs at h
    split at h
    · rename_i e; cases e
      cases hl : legacyAttrs as with
      | none => simp [hl] at h
      | some l =>
        simp only [hl, Option.map_some, Option.some.injEq] at h
        subst h
        obtain ⟨x, rest, hs, h1, h2, h3⟩ := ih hl
        exact ⟨x, rest, hs, h1, h2, h3⟩
    · rename_i e; cases e; cases h
      exact ⟨_, _, _, rfl, rfl, by simp⟩
    · rename_i e; cases e; cases h
      exact ⟨_, _, _, rfl, rfl, by simp⟩
    · cases h

/-! ### Layouts -/

theorem map_mapIdx_snd (fs : List Field) (i : Nat) :
    (mapIdx (fun i f => (layoutName i f, f.ty.ty)) i fs).map (·.2) = fieldTys fs := by
  induction fs generalizing i with
  | nil => rfl
  | cons f fs ih => simp [mapIdx, fieldTys, ih]

theorem clays_eq {tg : Target} {ts : List Ty} (h : ∀ t ∈ ts, clay tg (clayout t) = lay tg t) :
    clays tg (clayouts ts) = lays tg ts := by
  induction ts with
  | nil => rfl
  | cons t ts ih =>
    simp only [clayouts, clays, lays]
    rw [h t (List.mem_cons_self ..), ih fun u hu => h u (List.mem_cons_of_mem _ hu)]

theorem maxAlign_pos (fs : List (Nat × Nat)) : 1 ≤ maxAlign fs := by
  induction fs with
  | nil => exact Nat.le_refl _
  | cons f fs ih => obtain ⟨s, a⟩ := f; simp only [maxAlign]; omega

theorem cStruct_plain (fs : List (Nat × Nat)) :
    cStruct none none fs = ((structLay fs).1, (structLay fs).2, offsetsFrom 0 fs) := by
  have h1 : fs.map (fun x : Nat × Nat => (x.1, x.2)) = fs := by simp
  have h2 := maxAlign_pos fs
  have h3 : max (maxAlign fs) 1 = maxAlign fs := by omega
  simp [cStruct, structLay, h3]

/-- The other fields are trivial when the first is not. -/
theorem trivial_rest {tg : Target} {t : Ty} {ts : List Ty} (h : nontrivial tg t = true)
    (hl : ((t :: ts).filter (nontrivial tg)).length ≤ 1) : ∀ u ∈ ts, lay tg u = (0, 1) := by
  rw [List.filter_cons, if_pos h, List.length_cons] at hl
  intro u hu
  cases hn : nontrivial tg u with
  | false => simpa [nontrivial] using hn
  | true =>
    have : u ∈ ts.filter (nontrivial tg) := List.mem_filter.mpr ⟨hu, hn⟩
    have : 0 < (ts.filter (nontrivial tg)).length := List.length_pos_of_mem this
    omega

theorem lays_trivial {tg : Target} {ts : List Ty} (h : ∀ u ∈ ts, lay tg u = (0, 1)) :
    maxSize (lays tg ts) = 0 ∧ maxAlign (lays tg ts) = 1 := by
  induction ts with
  | nil => exact ⟨rfl, rfl⟩
  | cons t ts ih =>
    obtain ⟨h1, h2⟩ := ih fun u hu => h u (List.mem_cons_of_mem _ hu)
    simp [lays, maxSize, maxAlign, h t (List.mem_cons_self ..), h1, h2]

mutual
theorem clay_pos (tg : Target) : ∀ c : CTy, 1 ≤ (clay tg c).2
  | .int k => tg.intAlign_pos k
  | .float k => tg.floatAlign_pos k
  | .bool => Nat.le_refl _
  | .enum k => tg.intAlign_pos k
  | .ptr | .optFn => tg.ptrAlign_pos
  | .array t _ => clay_pos tg t
  | .struct _ => maxAlign_pos _
  | .void | .opaque => Nat.le_refl _
end

/-! ### Inversion -/

theorem tryFptr_ok {it : Item} {g : Generated} (h : tryFptr it = some (.ok g)) :
    ∃ sh f abi v, it.data = .struct sh [f] ∧ sh ≠ .unit ∧
      firstRepr it.attrs = some [.word "transparent"] ∧ it.isPub = true ∧
      f.ty = .bareFn abi v ∧ g = .fnPtr "0" := by
  unfold tryFptr at h
  split at h
  any_goals cases h
  rename_i sh fs hu hd
  split at h
  rotate_left
  · cases h
  rename_i f
  split at h
  any_goals cases h
  rename_i hr
  split at h
  · cases h
  rename_i hp
  split at h
  · cases h
  rename_i abi v hf
  have hg : g = .fnPtr "0" := by
    repeat' split at h
    all_goals first
      | (cases h; rfl)
      | (cases h)
  exact ⟨sh, f, abi, v, hd, hu, hr, by simpa using hp, hf, hg⟩

/-- What `derive` can do on a struct or an enum. -/
inductive Derived (cfg : Cfg) (it : Item) : Item → Generated → Prop
  | fptr {g} : tryFptr it = some (.ok g) → Derived cfg it it g
  | struct {sh fs a attrs g} : tryFptr it = none → it.data = .struct sh fs →
      deriveStruct cfg a it.attrs fs = .ok (attrs, g) → Derived cfg it { it with attrs } g
  | enum {vs attrs g} : it.data = .enum vs → deriveEnum it vs = .ok (attrs, g) →
      Derived cfg it { it with attrs } g

theorem derive_ok {cfg : Cfg} {args : List Arg} {it it' : Item} {g : Generated}
    (h : derive cfg args it = .ok (it', g)) : Derived cfg it it' g := by
  unfold derive at h
  simp only [bind, Except.bind, pure, Except.pure] at h
  split at h
  · cases h
  rename_i a _
  split at h
  · rename_i r hr
    cases r with
    | error e => cases h
    | ok g' => cases h; exact .fptr hr
  · rename_i hr
    split at h
    · rename_i sh fs hd
      split at h
      · cases h
      · rename_i p hp
        obtain ⟨attrs, g'⟩ := p
        cases h
        exact .struct hr hd hp
    · rename_i vs hd
      split at h
      · cases h
      · rename_i p hp
        obtain ⟨attrs, g'⟩ := p
        cases h
        exact .enum hd hp
    · cases h

theorem mem_swapRemove {ws : List String} {i : Nat} {w : String} (h : w ∈ swapRemove ws i) :
    w ∈ ws := by
  unfold swapRemove at h
  split at h
  · rename_i l hl
    have hl := List.mem_of_getLast? hl
    have h := (List.dropLast_sublist _).mem h
    rcases List.mem_or_eq_of_mem_set h with h | h
    · exact h
    · rw [h]; exact hl
  · cases h

/-- The attributes `new` come from `old`: no hint is added, and one `#[repr]`
stays one. -/
def From (old new : List Attr) : Prop :=
  (∀ h ∈ (reprs new).flatten, h ∈ (reprs old).flatten) ∧
  ∀ hs, reprs old = [hs] → ∃ hs', reprs new = [hs']

theorem deriveReprC_ok {cfg : Cfg} {args : List Arg} {it it' : Item} {g : Generated}
    (h : deriveReprC cfg args it = .ok (it', g)) :
    ∃ attrs, From it.attrs attrs ∧ Derived cfg { it with attrs } it' g := by
  unfold deriveReprC at h
  have hself : From it.attrs it.attrs := ⟨fun _ h => h, fun hs h => ⟨hs, h⟩⟩
  split at h
  · exact ⟨it.attrs, hself, derive_ok h⟩
  rename_i hs hf
  split at h
  · cases h
  rename_i ws hw
  have hw := words_eq hw
  obtain ⟨rest, hr⟩ : ∃ rest, reprs it.attrs = hs :: rest := by
    rw [firstRepr_eq] at hf
    cases hr : reprs it.attrs with
    | nil => simp [hr] at hf
    | cons x xs => simp [hr] at hf; exact ⟨xs, by rw [hf]⟩
  split at h
  · rename_i i hi
    split at h
    · simp only [bind, Except.bind] at h
      split at h
      · cases h
      unfold legacy at h
      split at h
      · rename_i r ht
        simp only [bind, Except.bind, pure, Except.pure] at h
        cases r with
        | error e => cases h
        | ok g' => cases h; exact ⟨it.attrs, hself, .fptr ht⟩
      · split at h
        any_goals cases h
        split at h
        · rename_i attrs ha
          obtain ⟨x, rest', hs', h1, h2, h3⟩ := reprs_legacy ha
          refine ⟨attrs, ⟨fun b hb => ?_, fun l hl => ?_⟩, derive_ok h⟩
          · rw [h1, List.flatten_cons, List.mem_append] at hb
            rw [h2, List.flatten_cons, List.mem_append]
            rcases hb with hb | hb
            · rw [List.mem_singleton] at hb; rw [hb]; exact .inl h3
            · exact .inr hb
          · rw [h2] at hl; cases hl; exact ⟨_, h1⟩
        · cases h
    · refine ⟨_, ⟨fun b hb => ?_, fun l hl => ?_⟩, derive_ok h⟩
      · rw [reprs_setFirst _ rest hr, List.flatten_cons, List.mem_append] at hb
        rw [hr, List.flatten_cons, List.mem_append, hw]
        rcases hb with hb | hb
        · obtain ⟨w, hw, rfl⟩ := List.mem_map.mp hb
          exact .inl (List.mem_map.mpr ⟨w, mem_swapRemove hw, rfl⟩)
        · exact .inr hb
      · rw [hr] at hl; cases hl; exact ⟨_, reprs_setFirst _ [] hr⟩
  · rw [← hw, setFirstRepr_self hf] at h
    exact ⟨it.attrs, hself, derive_ok h⟩

theorem deriveStruct_ok {cfg : Cfg} {a : Args} {as as' : List Attr} {fs : List Field}
    {g : Generated} (h : deriveStruct cfg a as fs = .ok (as', g)) :
    (soleWord as = some "transparent" ∧ as' = as ∧ ∃ f rest, fs = f :: rest ∧
      ∃ b, g = .newtype f.ty.ty b) ∨
    (soleWord as = some "opaque" ∧ g = .opaque) ∨
    (soleWord as = some "C" ∧ as' = as ∧ fs ≠ [] ∧
      g = .struct (mapIdx (fun i f => (layoutName i f, f.ty.ty)) 0 fs) (mapIdx accessName 0 fs)) := by
  unfold deriveStruct at h
  split at h
  · cases h
  · rename_i hw
    simp only [bind, Except.bind, pure, Except.pure, deriveTransparent] at h
    cases fs with
    | nil => cases h
    | cons f rest => cases h; exact .inl ⟨hw, rfl, f, rest, rfl, _, rfl⟩
  · rename_i hw; cases h; exact .inr (.inl ⟨hw, rfl⟩)
  · rename_i hw
    split at h
    · cases h
    rename_i hne
    split at h
    · cases h
    · cases h
      exact .inr (.inr ⟨hw, rfl, fun e => hne (by rw [e]; rfl), rfl⟩)
  · cases h

theorem parseDiscriminantType_ok {as : List Attr} {k : Option String}
    (h : parseDiscriminantType as = .ok k) :
    ∃ ws, firstRepr as = some (ws.map .word) ∧ ws ≠ [] ∧ (∀ w ∈ ws, w ∈ knownReprs) ∧
      k = ws.find? (· != "C") := by
  unfold parseDiscriminantType at h
  split at h
  · cases h
  rename_i hs hf
  split at h
  · cases h
  · cases h
  · rename_i ws hne hw
    split at h
    · cases h
    rename_i hk
    refine ⟨ws, by rw [hf, words_eq hw], hne, fun w hm => ?_, ?_⟩
    · simp only [List.any_eq_true, not_exists, not_and] at hk
      simpa using hk w hm
    · split at h <;> (rename_i hfd; cases h; exact hfd.symm)

theorem deriveEnum_ok {it : Item} {vs : List Variant} {as' : List Attr} {g : Generated}
    (h : deriveEnum it vs = .ok (as', g)) :
    (soleWord it.attrs = some "opaque" ∧ g = .opaque) ∨
    (vs ≠ [] ∧ (∀ v ∈ vs, v.fieldless = true) ∧ as' = it.attrs ∧
      it.lifetimes = 0 ∧ it.params = 0 ∧ it.whereClause = false ∧
      ∃ k, g = .enum k ∧ parseDiscriminantType it.attrs = .ok k) := by
  unfold deriveEnum at h
  split at h
  · rename_i ho; cases h; exact .inl ⟨ho, rfl⟩
  split at h
  · cases h
  rename_i hf
  split at h
  · cases h
  rename_i hg
  split at h
  · cases h
  rename_i hw
  split at h
  · cases h
  rename_i he
  simp only [bind, Except.bind, pure, Except.pure] at h
  split at h
  · cases h
  rename_i k hk
  cases h
  simp only [Bool.or_eq_true, decide_eq_true_eq, not_or] at hg
  refine .inr ⟨fun e => he (by rw [e]; rfl), fun v hv => ?_, rfl, by simpa using hg.1,
    by simpa using hg.2, by simpa using hw, k, rfl, hk⟩
  simp only [List.any_eq_true, not_exists, not_and] at hf
  simpa using hf v hv

/-! ### Acceptance -/

theorem soleWord_eq (as : List Attr) :
    soleWord as = (reprs as).findSome? fun | [.word s] => some s | _ => none := by
  induction as with
  | nil => rfl
  | cons a as ih =>
    cases a with
    | doc => exact ih
    | other => exact ih
    | repr hs =>
      rw [reprs_repr, List.findSome?_cons, ← ih]
      match hs with
      | [] => simp [soleWord]
      | [.word s] => simp [soleWord]
      | [.call s n] => simp [soleWord]
      | _ :: _ :: _ => simp [soleWord]

theorem SoleRepr.reprs {it : Item} {w : String} (h : SoleRepr it w) :
    reprs it.attrs = [[.word w]] := by
  obtain ⟨pre, post, h, hn⟩ := h
  have h1 := reprs_none fun a ha => hn a (List.mem_append_left _ ha)
  have h2 := reprs_none fun a ha => hn a (List.mem_append_right _ ha)
  unfold Derive.reprs at h1 h2 ⊢
  rw [h, List.filterMap_append, h1]
  simp [h2]

theorem SoleRepr.first {it : Item} {w : String} (h : SoleRepr it w) :
    firstRepr it.attrs = some [.word w] := by rw [firstRepr_eq, h.reprs]; rfl

theorem SoleRepr.sole {it : Item} {w : String} (h : SoleRepr it w) :
    soleWord it.attrs = some w := by rw [soleWord_eq, h.reprs]; rfl

theorem SoleRepr.derive {it : Item} {w : String} (h : SoleRepr it w) (hw : w ≠ "js")
    (cfg : Cfg) (args : List Arg) : deriveReprC cfg args it = Derive.derive cfg args it := by
  have hws : words [.word w] = some [w] := rfl
  have hi : [w].findIdx? (· == "js") = none := by simp [List.findIdx?_cons, hw]
  simp only [deriveReprC, h.first, hws, hi]
  rw [show [w].map Hint.word = [.word w] from rfl, setFirstRepr_self h.first]

theorem parseArgs_ok : ∀ (args : List Arg) (r : Args),
    (∀ a ∈ args, a = .js ∨ ∃ s, a = .rename s) →
    args.countP isJs + (if r.js then 1 else 0) ≤ 1 →
    args.countP isRename + (if r.rename.isSome then 1 else 0) ≤ 1 →
    ∃ a, parseArgs r args = .ok a
  | [], r, _, _, _ => ⟨r, rfl⟩
  | .other :: as, r, h, _, _ => by
    rcases h _ (List.mem_cons_self ..) with h | ⟨s, h⟩ <;> cases h
  | .js :: as, r, h, h1, h2 => by
    have hj : r.js = false := by
      cases hj : r.js with
      | false => rfl
      | true => simp [List.countP_cons, isJs, hj] at h1
    simp only [parseArgs, hj]
    refine parseArgs_ok as _ (fun a ha => h a (List.mem_cons_of_mem _ ha)) ?_ ?_
    · simpa [List.countP_cons, isJs, isRename, hj] using h1
    · simpa [List.countP_cons, isJs, isRename] using h2
  | .rename s :: as, r, h, h1, h2 => by
    have hj : r.rename.isSome = false := by
      cases hj : r.rename.isSome with
      | false => rfl
      | true => simp [List.countP_cons, isRename, hj] at h2
    simp only [parseArgs, hj]
    refine parseArgs_ok as _ (fun a ha => h a (List.mem_cons_of_mem _ ha)) ?_ ?_
    · simpa [List.countP_cons, isJs, isRename] using h1
    · simpa [List.countP_cons, isJs, isRename, hj] using h2

theorem GoodArgs.parse {args : List Arg} (h : GoodArgs args) : ∃ a, parseArgs {} args = .ok a :=
  parseArgs_ok args {} h.1 (by simpa using h.2.1) (by simpa using h.2.2)

theorem mem_accesses {fs : List Field} (i j : Nat) {a : String}
    (h : a ∈ mapIdx accessName i fs) (hn : ∀ f ∈ fs, f.name.isSome) :
    a ∈ (mapIdx (fun i f => (layoutName i f, f.ty.ty)) j fs).map (·.1) := by
  induction fs generalizing i j with
  | nil => cases h
  | cons f fs ih =>
    simp only [mapIdx, List.map_cons, List.mem_cons] at h ⊢
    rcases h with rfl | h
    · left
      have := hn f (List.mem_cons_self ..)
      obtain ⟨n, hn⟩ := Option.isSome_iff_exists.mp this
      simp [accessName, layoutName, hn]
    · exact .inr (ih _ _ h fun f hf => hn f (List.mem_cons_of_mem _ hf))

end Verif.Derive
