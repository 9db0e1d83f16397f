import Verif.Shim.Model
import Verif.Layout.Props
import Verif.Util.Dec
/-!
# Properties of exported functions: C50, C53, C54
-/
namespace Verif.Shim
open Verif.Layout (Target Ty Val Enc supported fromRawUnchecked fromRaw intoRaw x86_64 C20_never_rejects_partial)

/-! ## C50 -/

/-- The identifiers among the patterns. -/
def identOf : Pat → Option String
  | .ident x => some x
  | .other => none

theorem generatedName_reserved (i : Nat) : reserved (generatedName i) = true := by
  simp [reserved, generatedName]

theorem generatedName_inj {i j : Nat} (h : generatedName i = generatedName j) : i = j := by
  have h' : "__arg_".toList ++ (toString i).toList = "__arg_".toList ++ (toString j).toList := by
    rw [← String.toList_append, ← String.toList_append]
    exact congrArg String.toList h
  exact toString_inj (String.toList_injective (List.append_cancel_left h'))

/-- C50: the names of the exported function's parameters are pairwise distinct, whatever the patterns (Rust
requires the identifiers among them to be distinct). -/
theorem C50_distinct (ps : List Pat) (h : (ps.filterMap identOf).Nodup) : (paramNames ps).Nodup := by
  rw [List.nodup_iff_pairwise_ne, List.pairwise_iff_getElem]
  intro i j hi hj hij
  simp only [paramNames, List.length_mapIdx] at hi hj
  simp only [paramNames, List.getElem_mapIdx]
  intro e
  have hgen : ∀ k p, reserved (paramName k p) = true → paramName k p = generatedName k := by
    intro k p
    cases p with
    | ident x =>
      simp only [paramName]
      split
      · intro; rfl
      · intro h'; contradiction
    | other => intro; rfl
  have hkeep : ∀ k p, reserved (paramName k p) = false → p = .ident (paramName k p) := by
    intro k p
    cases p with
    | ident x =>
      simp only [paramName]
      split
      · rw [generatedName_reserved]; intro h'; cases h'
      · intro; rfl
    | other => simp only [paramName, generatedName_reserved]; intro h'; cases h'
  cases hr : reserved (paramName i ps[i]) with
  | true =>
    have h1 := hgen _ _ hr
    have h2 := hgen _ _ (e ▸ hr)
    rw [h1, h2] at e
    exact absurd (generatedName_inj e) (by omega)
  | false =>
    have h1 := hkeep _ _ hr
    have h2 := hkeep _ _ (e ▸ hr)
    rw [← e] at h2
    generalize paramName i ps[i] = x at h1 h2
    -- the same identifier twice
    have hsplit : ps = ps.take j ++ ps[j] :: ps.drop (j + 1) := by simp
    have hmem : Pat.ident x ∈ ps.take j := by
      rw [← h1]
      exact List.mem_iff_getElem.2 ⟨i, by simp; omega, by simp⟩
    rw [hsplit, List.filterMap_append, List.nodup_append] at h
    have h3 := h.2.2 x (List.mem_filterMap.2 ⟨_, hmem, rfl⟩) x (by rw [h2]; simp [identOf])
    exact h3 rfl

/-- C50: every parameter has a name; those that are not kept are numbered, by their place. -/
theorem C50_all (ps : List Pat) : (paramNames ps).length = ps.length
    ∧ ∀ (i : Nat) p, ps[i]? = some p → (∀ x, p = .ident x → "__arg_".toList <+: x.toList) →
      (paramNames ps)[i]? = some ("__arg_" ++ toString i) := by
  refine ⟨by simp [paramNames], ?_⟩
  intro i p h hp
  cases p with
  | other => simp [paramNames, List.getElem?_mapIdx, h, paramName, generatedName]
  | ident x =>
    have : reserved x = true := by rw [reserved, List.isPrefixOf_iff_prefix]; exact hp x rfl
    simp [paramNames, List.getElem?_mapIdx, h, paramName, this, generatedName]

/-- C50: an identifier that does not start with `__arg_` is kept. -/
theorem C50_kept (ps : List Pat) (i : Nat) (x : String) (h : ps[i]? = some (.ident x))
    (hx : ¬ "__arg_".toList <+: x.toList) : (paramNames ps)[i]? = some x := by
  have : reserved x = false := by
    rw [reserved, Bool.eq_false_iff, ne_eq, List.isPrefixOf_iff_prefix]; exact hx
  simp [paramNames, List.getElem?_mapIdx, h, paramName, this]

-- `fn f(a: A, _: B, __arg_1: C, (x, y): D, mut b: E)`
example : paramNames [.ident "a", .other, .ident "__arg_1", .other, .ident "b"] =
    ["a", "__arg_1", "__arg_2", "__arg_3", "b"] := by decide
example : (List.filterMap identOf [.ident "a", .other, .ident "__arg_1", .other, .ident "b"]).Nodup := by decide

/-! ## C53 -/

theorem exec_armed {tg : Target} {debug : Bool} {ret : Ty} {f : List Bytes → Option Bytes} {s : State} (is : List Instr)
    (h : s.guard = .armed) (hf : ∀ i ∈ is, ∀ s s', s.guard = .armed →
      (step tg debug ret f s i = .ok s' → s'.guard = .armed) ∧ (step tg debug ret f s i = .error (.panic s') → s'.guard = .armed)) :
    (exec tg debug ret f s (is ++ [.forget])).1 ≠ .unwinds := by
  induction is generalizing s with
  | nil => simp [exec, step]
  | cons i is ih =>
    simp only [List.cons_append, exec]
    have hi := hf i (by simp) s
    split
    · rename_i s' hs
      exact ih ((hi s' h).1 hs) (fun j hj => hf j (by simp [hj]))
    · rename_i s' hs
      simp [unwind, (hi s' h).2 hs, dropGuard]
    · simp

theorem step_guard {tg : Target} {debug : Bool} {ret : Ty} {f : List Bytes → Option Bytes} {i : Instr} (hi : i ≠ .forget)
    (s s' : State) (h : s.guard = .armed) :
    (step tg debug ret f s i = .ok s' → s'.guard = .armed) ∧
    (step tg debug ret f s i = .error (.panic s') → s'.guard = .armed) := by
  cases i with
  | forget => exact absurd rfl hi
  | arm => simp only [step]; exact ⟨fun e => by cases e; rfl, nofun⟩
  | convert x t =>
    simp only [step]
    split
    · split
      · exact ⟨fun e => by cases e; exact h, nofun⟩
      · exact ⟨nofun, nofun⟩
      · exact ⟨nofun, fun e => by cases e; exact h⟩
    · exact ⟨nofun, nofun⟩
  | call =>
    simp only [step]
    split
    · exact ⟨fun e => by cases e; exact h, nofun⟩
    · exact ⟨nofun, fun e => by cases e; exact h⟩
  | intoRaw =>
    simp only [step]
    split
    · exact ⟨fun e => by cases e; exact h, nofun⟩
    · exact ⟨nofun, fun e => by cases e; exact h⟩

/-- C53: a call of an exported function never unwinds into its caller: for every signature, function,
arguments (valid or not), and wherever a panic occurs. -/
theorem C53_no_unwind (tg : Target) (debug : Bool) (ps : List Pat) (tys : List Ty) (ret : Ty)
    (f : List Bytes → Option Bytes) (raws : List Bytes) :
    (shim tg debug ps tys ret f raws).1 ≠ .unwinds := by
  simp only [shim, program, List.cons_append, List.nil_append, exec, step]
  have h2 : ((paramNames ps).zip tys).map (fun p => Instr.convert p.1 p.2) ++ [.call, .intoRaw, .forget] =
      (((paramNames ps).zip tys).map (fun p => Instr.convert p.1 p.2) ++ [.call, .intoRaw]) ++ [.forget] := by simp
  rw [h2]
  refine exec_armed _ rfl ?_
  intro i hi s s' hs
  refine step_guard ?_ s s' hs
  intro e
  subst e
  simp at hi

/-! ## C54 -/

theorem find_param (params : List (String × Bytes)) (q : String × Bytes) (hn : (params.map (·.1)).Nodup)
    (hm : q ∈ params) : params.find? (·.1 == q.1) = some q := by
  induction params with
  | nil => simp at hm
  | cons p params ih =>
    simp only [List.map_cons, List.nodup_cons] at hn
    rw [List.find?_cons]
    simp only [List.mem_cons] at hm
    rcases hm with hm | hm
    · rw [hm]; simp
    · have : (p.1 == q.1) = false := by
        rw [beq_eq_false_iff_ne]
        intro e
        exact hn.1 (e ▸ List.mem_map.2 ⟨q, hm, rfl⟩)
      rw [this]
      exact ih hn.2 hm

/-- The conversions, when all of them succeed: the arguments in order. -/
theorem exec_converts {tg : Target} {debug : Bool} {ret : Ty} {f : List Bytes → Option Bytes} (is : List Instr)
    (params : List (String × Bytes)) (todo : List ((String × Bytes) × Ty))
    (hn : (params.map (·.1)).Nodup) (hp : ∀ p ∈ todo, p.1 ∈ params) (g : Guard) (args : List Bytes) (r : Bytes) (tr : List Event)
    (hc : ∀ p ∈ todo, fromRawUnchecked tg debug p.2 p.1.2 = .ok p.1.2) :
    exec tg debug ret f ⟨params, g, args, r, tr⟩ (todo.map (fun p => Instr.convert p.1.1 p.2) ++ is) =
      exec tg debug ret f ⟨params, g, args ++ todo.map (·.1.2), r, tr⟩ is := by
  induction todo generalizing args with
  | nil => simp
  | cons p todo ih =>
    have hfind := find_param params p.1 hn (hp p (by simp))
    simp only [List.map_cons, List.cons_append, exec, step, hfind, hc p (by simp)]
    rw [ih (fun q hq => hp q (by simp [hq])) (args ++ [p.1.2]) (fun q hq => hc q (by simp [hq]))]
    simp

theorem exec_converts_any {tg : Target} {debug : Bool} {ret : Ty} {f : List Bytes → Option Bytes} (is : List Instr)
    (params : List (String × Bytes)) (todo : List ((String × Bytes) × Ty))
    (hn : (params.map (·.1)).Nodup) (hp : ∀ p ∈ todo, p.1 ∈ params) (args : List Bytes) (r : Bytes) (tr : List Event) :
    (exec tg debug ret f ⟨params, .armed, args, r, tr⟩ (todo.map (fun p => Instr.convert p.1.1 p.2) ++ is)).1 = .aborted ∨
    ((exec tg debug ret f ⟨params, .armed, args, r, tr⟩ (todo.map (fun p => Instr.convert p.1.1 p.2) ++ is)).1 = .ub ∧
      ∃ p ∈ todo, fromRawUnchecked tg debug p.2 p.1.2 = .error .ub) ∨
    exec tg debug ret f ⟨params, .armed, args, r, tr⟩ (todo.map (fun p => Instr.convert p.1.1 p.2) ++ is) =
      exec tg debug ret f ⟨params, .armed, args ++ todo.map (·.1.2), r, tr⟩ is := by
  induction todo generalizing args with
  | nil => simp
  | cons p todo ih =>
    cases hc : fromRawUnchecked tg debug p.2 p.1.2 with
    | ok v =>
      have hv : v = p.1.2 := by
        simp only [fromRawUnchecked, fromRaw, bind, Except.bind, pure, Except.pure, throw, throwThe,
          MonadExceptOf.throw] at hc
        split at hc
        · cases hc
        · rename_i o ho
          split at ho
          · cases ho
          · split at ho
            · split at ho
              · cases ho; cases hc; rfl
              · cases ho
            · cases ho; cases hc
      subst hv
      have h1 := exec_converts (tg := tg) (debug := debug) (ret := ret) (f := f)
        (todo.map (fun p => Instr.convert p.1.1 p.2) ++ is) params [p] hn (by simpa using hp p (by simp)) .armed args r tr
        (by simpa using hc)
      simp only [List.map_cons, List.map_nil, List.cons_append, List.nil_append] at h1 ⊢
      rw [h1]
      rcases ih (fun q hq => hp q (by simp [hq])) (args ++ [p.1.2]) with h | ⟨h, q, hq, hq'⟩ | h
      · exact .inl h
      · exact .inr (.inl ⟨h, q, by simp [hq], hq'⟩)
      · exact .inr (.inr (by rw [h]; simp))
    | error e =>
      have hfind := find_param params p.1 hn (hp p (by simp))
      simp only [List.map_cons, List.cons_append, exec, step, hfind, hc]
      cases e with
      | ub => exact .inr (.inl ⟨rfl, p, by simp, hc⟩)
      | _ => exact .inl rfl

/-- How the parameters, raw arguments and types line up. -/
theorem program_eq (names : List String) (raws : List Bytes) (tys : List Ty) (h1 : raws.length = names.length)
    : (names.zip tys).map (fun p => Instr.convert p.1 p.2) =
      ((names.zip raws).zip tys).map (fun p => Instr.convert p.1.1 p.2) := by
  induction names generalizing raws tys with
  | nil => simp
  | cons x names ih =>
    cases raws with
    | nil => simp at h1
    | cons r raws =>
      cases tys with
      | nil => simp
      | cons t tys => simpa using ih raws tys (by simpa using h1)

theorem values_eq (names : List String) (raws : List Bytes) (tys : List Ty) (h1 : raws.length = names.length)
    (h2 : tys.length = names.length) : ((names.zip raws).zip tys).map (·.1.2) = raws := by
  induction names generalizing raws tys with
  | nil => cases raws with
    | nil => rfl
    | cons => simp at h1
  | cons x names ih =>
    cases raws with
    | nil => simp at h1
    | cons r raws =>
      cases tys with
      | nil => simp at h2
      | cons t tys => simpa using ih raws tys (by simpa using h1) (by simpa using h2)

/-- The raw arguments represent Rust values of the parameters' types. -/
inductive Represent (tg : Target) : List Ty → List Val → List Bytes → Prop
  | nil : Represent tg [] [] []
  | cons {t ts v vs b bs} : supported tg t = true → Enc tg true t v b → Represent tg ts vs bs →
      Represent tg (t :: ts) (v :: vs) (b :: bs)

theorem Represent.length {tg : Target} {ts : List Ty} {vs : List Val} {bs : List Bytes} (h : Represent tg ts vs bs) :
    ts.length = bs.length := by
  induction h with
  | nil => rfl
  | cons _ _ _ ih => simp [ih]

theorem Represent.zip {tg : Target} {ts : List Ty} {vs : List Val} {bs : List Bytes} (h : Represent tg ts vs bs)
    (names : List String) : ∀ p ∈ (names.zip bs).zip ts, ∃ v, supported tg p.2 = true ∧ Enc tg true p.2 v p.1.2 := by
  induction h generalizing names with
  | nil => simp
  | cons hs he _ ih =>
    intro p hp
    cases names with
    | nil => simp at hp
    | cons x names =>
      simp only [List.zip_cons_cons, List.mem_cons] at hp
      rcases hp with rfl | hp
      · exact ⟨_, hs, he⟩
      · exact ih names p hp

theorem names_length (ps : List Pat) : (paramNames ps).length = ps.length := by simp [paramNames]

theorem shim_valid (tg : Target) (debug : Bool) (ps : List Pat) (tys : List Ty) (ret : Ty) (f : List Bytes → Option Bytes)
    (raws : List Bytes) (vs : List Val) (hd : (ps.filterMap identOf).Nodup) (hl : tys.length = ps.length)
    (ha : Represent tg tys vs raws) :
    shim tg debug ps tys ret f raws =
      exec tg debug ret f ⟨(paramNames ps).zip raws, .armed, raws, [], []⟩ [.call, .intoRaw, .forget] := by
  have h1 : raws.length = (paramNames ps).length := by rw [names_length, ← hl, ha.length]
  have h2 : tys.length = (paramNames ps).length := by rw [names_length, hl]
  simp only [shim, program, List.cons_append, List.nil_append]
  rw [exec]
  simp only [step]
  rw [program_eq _ raws tys h1, exec_converts, values_eq _ _ _ h1 h2]
  · rfl
  · have : ((paramNames ps).zip raws).map (·.1) = paramNames ps := by
      rw [List.map_fst_zip]; omega
    rw [this]
    exact C50_distinct ps hd
  · intro p hp; exact (List.of_mem_zip hp).1
  · intro p hp
    obtain ⟨v, h3, h4⟩ := ha.zip _ p hp
    exact (C20_never_rejects_partial tg p.2 v p.1.2 h3 h4).2.2 debug

/-- C54: called with the representations of Rust values, the exported function calls the Rust function
exactly once, with these values in order, and returns the representation of its result. -/
theorem C54_call (tg : Target) (debug : Bool) (ps : List Pat) (tys : List Ty) (ret : Ty) (f : List Bytes → Option Bytes)
    (raws : List Bytes) (vs : List Val) (hd : (ps.filterMap identOf).Nodup) (hl : tys.length = ps.length)
    (ha : Represent tg tys vs raws) (r : Bytes) (v : Val) (hf : f raws = some r)
    (hr : (supported tg ret = true ∧ Enc tg true ret v r) ∨ (ret = .unit ∧ r = [])) :
    shim tg debug ps tys ret f raws = (.returned r, [.body raws]) := by
  rw [shim_valid tg debug ps tys ret f raws vs hd hl ha]
  have hi : intoRaw tg ret r = .ok r := by
    rcases hr with ⟨h1, h2⟩ | ⟨rfl, rfl⟩
    · exact (C20_never_rejects_partial tg ret v r h1 h2).1
    · rfl
  simp [exec, step, hf, hi]

/-- C53, C54: if the Rust function panics, the process aborts. -/
theorem C53_panic_aborts (tg : Target) (debug : Bool) (ps : List Pat) (tys : List Ty) (ret : Ty) (f : List Bytes → Option Bytes)
    (raws : List Bytes) (vs : List Val) (hd : (ps.filterMap identOf).Nodup) (hl : tys.length = ps.length)
    (ha : Represent tg tys vs raws) (hf : f raws = none) :
    shim tg debug ps tys ret f raws = (.aborted, [.body raws]) := by
  rw [shim_valid tg debug ps tys ret f raws vs hd hl ha]
  simp [exec, step, hf, unwind, dropGuard]

/-- C53: the only outcomes of a call are an abort and a return of the converted result of the one call of
the Rust function; except that, in a build without checks, an argument that represents no value is undefined
behaviour (`from_raw_unchecked`'s contract). -/
theorem C53_outcomes (tg : Target) (debug : Bool) (ps : List Pat) (tys : List Ty) (ret : Ty) (f : List Bytes → Option Bytes)
    (raws : List Bytes) (hd : (ps.filterMap identOf).Nodup) (hl : tys.length = ps.length) (hr : raws.length = ps.length) :
    (shim tg debug ps tys ret f raws).1 = .aborted ∨
    (∃ r, f raws = some r ∧ shim tg debug ps tys ret f raws = (.returned r, [.body raws])) ∨
    (∃ p ∈ raws.zip tys, fromRawUnchecked tg debug p.2 p.1 = .error .ub) := by
  have h1 : raws.length = (paramNames ps).length := by rw [names_length, hr]
  have h2 : tys.length = (paramNames ps).length := by rw [names_length, hl]
  have h3 : shim tg debug ps tys ret f raws =
      exec tg debug ret f ⟨(paramNames ps).zip raws, .armed, [], [], []⟩
        ((((paramNames ps).zip raws).zip tys).map (fun p => Instr.convert p.1.1 p.2) ++ [.call, .intoRaw, .forget]) := by
    simp only [shim, program, List.cons_append, List.nil_append]
    rw [exec]
    simp only [step]
    rw [program_eq _ raws tys h1]
  have hn : (((paramNames ps).zip raws).map (·.1)).Nodup := by
    have : ((paramNames ps).zip raws).map (·.1) = paramNames ps := by rw [List.map_fst_zip]; omega
    rw [this]
    exact C50_distinct ps hd
  rw [h3]
  rcases exec_converts_any (tg := tg) (debug := debug) (ret := ret) (f := f) [.call, .intoRaw, .forget]
      ((paramNames ps).zip raws) (((paramNames ps).zip raws).zip tys) hn (fun p hp => (List.of_mem_zip hp).1) [] [] [] with
    h | ⟨hu, p, hp, hp'⟩ | h
  · exact .inl h
  · refine .inr (.inr ⟨(p.1.2, p.2), ?_, hp'⟩)
    generalize paramNames ps = names at hp
    clear hn h3 h1 h2 hp' hd hl hr hu
    induction names generalizing raws tys with
    | nil => simp at hp
    | cons x names ih =>
      cases raws with
      | nil => simp at hp
      | cons b raws =>
        cases tys with
        | nil => simp at hp
        | cons t tys =>
          simp only [List.zip_cons_cons, List.mem_cons] at hp ⊢
          rcases hp with rfl | hp
          · exact .inl rfl
          · exact .inr (ih tys raws hp)
  · rw [h, values_eq _ _ _ h1 h2]
    simp only [List.nil_append, exec, step]
    cases hf : f raws with
    | none => exact .inl (by simp [unwind, dropGuard])
    | some r =>
      simp only [intoRaw]
      split
      · rename_i s' hs
        split at hs
        · rename_i hi
          split at hi
          · cases hi
            simp only [Except.ok.injEq] at hs
            subst hs
            exact .inr (.inl ⟨r, rfl, rfl⟩)
          · cases hi
        · cases hs
      · rename_i s' hs
        split at hs
        · cases hs
        · simp only [Except.error.injEq, Stop.panic.injEq] at hs
          subst hs
          exact .inl rfl
      · rename_i hs
        split at hs
        · cases hs
        · simp at hs

/-- C54: with checks enabled, if an argument does not represent a value of its type, the process aborts
before the Rust function is called; the values converted before (and only those) are dropped. -/
theorem C54_invalid (tg : Target) (ps : List Pat) (tys : List Ty) (ret : Ty) (f : List Bytes → Option Bytes)
    (good bad : List Bytes) (b : Bytes) (ts ts' : List Ty) (t : Ty) (vs : List Val)
    (hd : (ps.filterMap identOf).Nodup) (ht : tys = ts ++ t :: ts') (hl : tys.length = ps.length)
    (hl' : bad.length = ts'.length) (ha : Represent tg ts vs good) (hb : fromRaw tg t b = .ok none) :
    shim tg true ps tys ret f (good ++ b :: bad) = (.aborted, good.reverse.map .dropped) := by
  subst ht
  have hlg := ha.length
  have h1 : (good ++ b :: bad).length = (paramNames ps).length := by
    rw [names_length, ← hl]; simp [hlg, hl']
  simp only [shim, program, List.cons_append, List.nil_append]
  rw [exec]
  simp only [step]
  rw [program_eq _ (good ++ b :: bad) (ts ++ t :: ts') h1]
  -- split the names
  generalize hN : paramNames ps = names at h1
  have hnd : names.Nodup := hN ▸ C50_distinct ps hd
  have hln : names.length = good.length + (bad.length + 1) := by rw [← h1]; simp
  obtain ⟨n1, x, n2, rfl, hn1⟩ : ∃ n1 x n2, names = n1 ++ x :: n2 ∧ n1.length = good.length := by
    refine ⟨names.take good.length, names[good.length], names.drop (good.length + 1), by simp, by simp; omega⟩
  have hz : (n1 ++ x :: n2).zip (good ++ b :: bad) = n1.zip good ++ (x, b) :: n2.zip bad := by
    rw [List.zip_append hn1]; rfl
  rw [hz]
  have hz2 : (n1.zip good ++ (x, b) :: n2.zip bad).zip (ts ++ t :: ts') =
      (n1.zip good).zip ts ++ ((x, b), t) :: (n2.zip bad).zip ts' := by
    rw [List.zip_append (by simp; omega)]; rfl
  rw [hz2, List.map_append, List.append_assoc]
  rw [exec_converts]
  · have hv : ((n1.zip good).zip ts).map (·.1.2) = good := values_eq _ _ _ (by omega) (by omega)
    rw [hv]
    simp only [List.map_cons, List.cons_append, exec, step]
    have hfind : (n1.zip good ++ (x, b) :: n2.zip bad).find? (·.1 == x) = some (x, b) := by
      rw [List.find?_append]
      have : (n1.zip good).find? (·.1 == x) = none := by
        rw [List.find?_eq_none]
        intro p hp
        simp only [beq_iff_eq]
        intro e
        rw [List.nodup_append] at hnd
        exact hnd.2.2 p.1 (List.of_mem_zip hp).1 x (by simp) e
      rw [this]
      simp
    have hu : fromRawUnchecked tg true t b = .error .notValid := by
      simp [fromRawUnchecked, hb, bind, Except.bind, throw, throwThe, MonadExceptOf.throw]
    rw [hfind]
    simp [hu, unwind, dropGuard]
  · rw [← hz, List.map_fst_zip (by omega)]; exact hnd
  · intro p hp; exact List.mem_append_left _ (List.of_mem_zip hp).1
  · intro p hp
    obtain ⟨v, h3, h4⟩ := ha.zip _ p hp
    exact (C20_never_rejects_partial tg p.2 v p.1.2 h3 h4).2.2 true

/-! ### Examples

`fn f(a: u16, (x, y): Pair, __arg_0: bool) -> u16`, where `Pair` is the example struct of `Verif.Layout`.
The values are `258`, `{ true, Green, PhantomData, [-2, 258] }` and `true`. -/
def exPats : List Pat := [.ident "a", .other, .ident "__arg_0"]
def exTys : List Ty := [.int .u16, Layout.exStruct, .bool]
def exRaws : List Bytes := [[2, 1], Layout.exImage, [1]]
/-- Returns its first argument, and panics when that is zero. -/
def exFn : List Bytes → Option Bytes
  | [0, 0] :: _ => none
  | a :: _ => some a
  | [] => none

theorem exRepresent : ∃ vs, Represent x86_64 exTys vs exRaws :=
  ⟨_, .cons (v := .int 258) (by decide +kernel) ⟨by decide +kernel, by decide +kernel, by decide +kernel⟩
    (.cons Layout.exStruct_supported Layout.exStruct_enc
      (.cons (v := .bool true) (by decide +kernel) (by simp only [Enc]; decide +kernel) .nil))⟩

example : (exPats.filterMap identOf).Nodup ∧ exTys.length = exPats.length := by decide
example : shim x86_64 true exPats exTys (.int .u16) exFn exRaws = (.returned [2, 1], [.body exRaws]) := by decide +kernel
example : shim x86_64 true exPats exTys (.int .u16) exFn [[0, 0], Layout.exImage, [1]] =
    (.aborted, [.body [[0, 0], Layout.exImage, [1]]]) := by decide +kernel
-- The third argument is not a `bool`: the two others are dropped, the function is not called.
example : shim x86_64 true exPats exTys (.int .u16) exFn [[2, 1], Layout.exImage, [2]] =
    (.aborted, [.dropped Layout.exImage, .dropped [2, 1]]) := by decide +kernel
example : fromRaw x86_64 .bool [2] = .ok none := by decide +kernel
end Verif.Shim
