import Verif.Export.Model
/-!
# The parameters of `#[ffi_export]`: C73
-/
namespace Verif.Export

/-! ### Specification -/

/-- The documented parameters. -/
inductive Param
  | executor (e : Nat)
  | js (worker : Bool)
  | rename (name : String)
  deriving DecidableEq

/-- How a parameter is written. -/
inductive Written : Param → List Tok → Prop
  | executor (e) : Written (.executor e) [.ident "executor", .eq, .expr e]
  | js : Written (.js false) [.ident "js"]
  | js_ : Written (.js false) [.ident "js", .paren []]
  | worker : Written (.js true) [.ident "js", .paren [.ident "async_worker"]]
  | worker_ : Written (.js true) [.ident "js", .paren [.ident "async_worker", .comma]]
  | rename (name) : Written (.rename name) [.ident "rename", .eq, .str name true]

/-- How a list of parameters is written: in any order, the commas after each being optional. -/
inductive WrittenAll : List Param → List Tok → Prop
  | nil : WrittenAll [] []
  | cons {p ps ts rest} : Written p ts → WrittenAll ps rest → WrittenAll (p :: ps) (ts ++ rest)
  | comma {p ps ts rest} : Written p ts → WrittenAll ps rest → WrittenAll (p :: ps) (ts ++ .comma :: rest)

/-- The parameters of the same kind. -/
def Param.kind : Param → Nat
  | .executor _ => 0
  | .js _ => 1
  | .rename _ => 2

/-- What the parameters say. -/
def executorOf (ps : List Param) : Option Nat := ps.findSome? fun | .executor e => some e | _ => none
def jsOf (ps : List Param) : Option Bool := ps.findSome? fun | .js w => some w | _ => none
def renameOf (ps : List Param) : Option String := ps.findSome? fun | .rename n => some n | _ => none

/-! ### Lemmas -/

/-- Not yet given. -/
def Args.lacks (a : Args) : Param → Bool
  | .executor _ => a.executor.isNone
  | .js _ => a.js.isNone
  | .rename _ => a.rename.isNone
def Args.add (a : Args) : Param → Args
  | .executor e => { a with executor := some e }
  | .js w => { a with js := some w }
  | .rename n => { a with rename := some n }

/-- The input does not start with parentheses. -/
def noParen : List Tok → Prop
  | .paren _ :: _ => False
  | _ => True

theorem parseOne_complete {a : Args} {p : Param} {ts : List Tok} (hw : Written p ts) (hl : a.lacks p = true) (rest : List Tok)
    (hr : noParen rest) : parseOne a (ts ++ rest) = some (a.add p, rest) := by
  cases hw with
  | executor e => simp_all [parseOne, Args.lacks, Args.add, Option.isNone_iff_eq_none]
  | js =>
    cases rest with
    | nil => simp_all [parseOne, Args.lacks, Args.add, Option.isNone_iff_eq_none]
    | cons t rest => cases t <;> simp_all [parseOne, Args.lacks, Args.add, Option.isNone_iff_eq_none, noParen]
  | js_ => simp_all [parseOne, parseWorker, Args.lacks, Args.add, Option.isNone_iff_eq_none]
  | worker => simp_all [parseOne, parseWorker, skipComma, Args.lacks, Args.add, Option.isNone_iff_eq_none]
  | worker_ => simp_all [parseOne, parseWorker, skipComma, Args.lacks, Args.add, Option.isNone_iff_eq_none]
  | rename n => simp_all [parseOne, Args.lacks, Args.add, Option.isNone_iff_eq_none]

theorem parseWorker_sound {ts : List Tok} {w : Bool} (h : parseWorker ts = some w) :
    Written (.js w) [.ident "js", .paren ts] := by
  unfold parseWorker at h
  split at h
  · simp at h; subst h; exact .js_
  · next s rest =>
    split at h
    · next hc =>
      obtain ⟨rfl, hc⟩ := hc
      simp at h; subst h
      cases rest with
      | nil => exact .worker
      | cons t rest =>
        cases t <;> simp [skipComma] at hc
        subst hc
        exact .worker_
    · simp at h
  · simp at h

theorem parseOne_sound {a a' : Args} {ts rest : List Tok} (h : parseOne a ts = some (a', rest)) :
    ∃ p ts', ts = ts' ++ rest ∧ Written p ts' ∧ a.lacks p = true ∧ a' = a.add p ∧ (ts' = [.ident "js"] → noParen rest) := by
  unfold parseOne at h
  split at h
  · next s rest₀ =>
    split at h
    · next hs =>
      subst hs
      split at h
      · simp at h
      · next hn =>
        split at h
        · next e rest₁ =>
          simp only [Option.some.injEq, Prod.mk.injEq] at h
          obtain ⟨rfl, rfl⟩ := h
          exact ⟨.executor e, _, rfl, .executor e, by simpa [Args.lacks] using hn, rfl, by simp⟩
        · simp at h
    · split at h
      · next hs =>
        subst hs
        split at h
        · simp at h
        · next hn =>
          split at h
          · next ts₁ rest₁ =>
            split at h
            · next w hw =>
              simp only [Option.some.injEq, Prod.mk.injEq] at h
              obtain ⟨rfl, rfl⟩ := h
              exact ⟨.js w, [.ident "js", .paren ts₁], rfl, parseWorker_sound hw, by simpa [Args.lacks] using hn, rfl, by simp⟩
            · simp at h
          · next hp =>
            simp only [Option.some.injEq, Prod.mk.injEq] at h
            obtain ⟨rfl, rfl⟩ := h
            refine ⟨.js false, [.ident "js"], rfl, .js, by simpa [Args.lacks] using hn, rfl, fun _ => ?_⟩
            cases rest₀ with
            | nil => trivial
            | cons t rest₀ =>
              cases t <;> first | trivial | exact absurd rfl (hp _ _)
      · split at h
        · next hs =>
          subst hs
          split at h
          · simp at h
          · next hn =>
            split at h
            · next n rest₁ =>
              simp only [Option.some.injEq, Prod.mk.injEq] at h
              obtain ⟨rfl, rfl⟩ := h
              exact ⟨.rename n, _, rfl, .rename n, by simpa [Args.lacks] using hn, rfl, by simp⟩
            · simp at h
        · simp at h
  · simp at h

theorem WrittenAll.noPar {ps : List Param} {ts : List Tok} (h : WrittenAll ps ts) : noParen ts := by
  cases h with
  | nil => trivial
  | cons hw _ => cases hw <;> trivial
  | comma hw _ => cases hw <;> trivial

theorem WrittenAll.skip {ps : List Param} {ts : List Tok} (h : WrittenAll ps ts) : skipComma ts = ts := by
  cases h with
  | nil => rfl
  | cons hw _ => cases hw <;> rfl
  | comma hw _ => cases hw <;> rfl

theorem Written.ne_nil {p : Param} {ts : List Tok} (h : Written p ts) : ts ≠ [] := by cases h <;> simp

theorem parseGo_cons {a a' : Args} {ts rest : List Tok} (hne : ts ≠ []) (h : parseOne a ts = some (a', rest)) :
    parseGo a ts = parseGo a' (skipComma rest) := by
  cases ts with
  | nil => exact absurd rfl hne
  | cons t ts =>
    rw [parseGo]
    split
    · next h' => rw [h] at h'; cases h'; rfl
    · next h' => rw [h] at h'; simp at h'

theorem lacks_add {a : Args} {p q : Param} : (a.add p).lacks q = (a.lacks q && decide (p.kind ≠ q.kind)) := by
  cases p <;> cases q <;> simp [Args.add, Args.lacks, Param.kind]

theorem parseGo_iff : ∀ (n : Nat) (ts : List Tok), ts.length ≤ n → ∀ (a a' : Args), parseGo a ts = some a' ↔
    ∃ ps, WrittenAll ps ts ∧ (ps.map Param.kind).Nodup ∧ (∀ p ∈ ps, a.lacks p = true) ∧ a' = ps.foldl Args.add a := by
  intro n
  induction n with
  | zero =>
    intro ts hn a a'
    have : ts = [] := List.eq_nil_of_length_eq_zero (by omega)
    subst this
    rw [parseGo]
    constructor
    · intro h; simp at h; subst h; exact ⟨[], .nil, by simp, by simp, rfl⟩
    · rintro ⟨ps, hw, _, _, rfl⟩
      generalize hts : ([] : List Tok) = ts at hw
      cases hw with
      | nil => rfl
      | cons hw _ => cases hw <;> simp at hts
      | comma hw _ => cases hw <;> simp at hts
  | succ n ih =>
    intro ts hn a a'
    cases ts with
    | nil =>
      rw [parseGo]
      constructor
      · intro h; simp at h; subst h; exact ⟨[], .nil, by simp, by simp, rfl⟩
      · rintro ⟨ps, hw, _, _, rfl⟩
        generalize hts : ([] : List Tok) = ts at hw
        cases hw with
        | nil => rfl
        | cons hw _ => cases hw <;> simp at hts
        | comma hw _ => cases hw <;> simp at hts
    | cons t ts =>
      constructor
      · intro h
        cases ho : parseOne a (t :: ts) with
        | none =>
          rw [parseGo] at h
          split at h
          · next h' => rw [ho] at h'; simp at h'
          · simp at h
        | some x =>
          obtain ⟨a₁, rest⟩ := x
          rw [parseGo_cons (by simp) ho] at h
          have hlen := parseOne_length ho
          have hlen' := skipComma_length rest
          obtain ⟨ps, h1, h2, h3, h4⟩ := (ih (skipComma rest) (by simp at hn hlen; omega) a₁ a').1 h
          obtain ⟨p, ts', h5, h6, h7, rfl, h8⟩ := parseOne_sound ho
          refine ⟨p :: ps, ?_, ?_, ?_, h4⟩
          · rw [h5]
            cases rest with
            | nil => exact .cons h6 h1
            | cons c rest =>
              cases c with
              | comma => exact .comma h6 h1
              | _ => exact .cons h6 h1
          · rw [List.map_cons, List.nodup_cons]
            refine ⟨?_, h2⟩
            intro hm
            obtain ⟨q, hq, hk⟩ := List.mem_map.1 hm
            have := h3 q hq
            rw [lacks_add] at this
            simp [hk] at this
          · intro q hq
            rcases List.mem_cons.1 hq with rfl | hq
            · exact h7
            · have := h3 q hq
              rw [lacks_add] at this
              simp at this
              exact this.1
      · rintro ⟨ps, hw, hnd, hl, rfl⟩
        generalize htt : t :: ts = tts at hw
        have hpos : tts.length ≤ n + 1 := by rw [← htt]; exact hn
        have key : ∀ {p ps ts' rest rest'}, Written p ts' → WrittenAll ps rest → skipComma rest' = rest → noParen rest' →
            tts = ts' ++ rest' → ((p :: ps).map Param.kind).Nodup → (∀ q ∈ p :: ps, a.lacks q = true) →
            parseGo a tts = some ((p :: ps).foldl Args.add a) := by
          intro p ps ts' rest rest' hw hws hsk hnp heq hnd hl
          have ho := parseOne_complete hw (hl p (by simp)) rest' hnp
          rw [← heq] at ho
          have hlen := parseOne_length ho
          have hlen' := skipComma_length rest'
          rw [parseGo_cons (by rw [heq]; simp [hw.ne_nil]) ho, hsk]
          rw [hsk] at hlen'
          refine (ih rest (by omega) _ _).2 ⟨ps, hws, (List.nodup_cons.1 hnd).2, ?_, rfl⟩
          intro q hq
          rw [lacks_add, hl q (by simp [hq])]
          have hnk : p.kind ≠ q.kind := fun hk => (List.nodup_cons.1 hnd).1 (by rw [hk]; exact List.mem_map_of_mem hq)
          simp [hnk]
        cases hw with
        | nil => simp at htt
        | cons hw hws => exact key hw hws hws.skip hws.noPar rfl hnd hl
        | @comma p ps ts' rest hw hws => exact key (rest' := .comma :: rest) hw hws rfl trivial rfl hnd hl

theorem executor_absent : ∀ (ps : List Param) (a : Args), (∀ p ∈ ps, p.kind ≠ 0) → (ps.foldl Args.add a).executor = a.executor
  | [], _, _ => rfl
  | p :: ps, a, h => by
    rw [List.foldl_cons, executor_absent ps _ fun q hq => h q (by simp [hq])]
    have := h p (by simp)
    cases p <;> simp_all [Args.add, Param.kind]
theorem js_absent : ∀ (ps : List Param) (a : Args), (∀ p ∈ ps, p.kind ≠ 1) → (ps.foldl Args.add a).js = a.js
  | [], _, _ => rfl
  | p :: ps, a, h => by
    rw [List.foldl_cons, js_absent ps _ fun q hq => h q (by simp [hq])]
    have := h p (by simp)
    cases p <;> simp_all [Args.add, Param.kind]
theorem rename_absent : ∀ (ps : List Param) (a : Args), (∀ p ∈ ps, p.kind ≠ 2) → (ps.foldl Args.add a).rename = a.rename
  | [], _, _ => rfl
  | p :: ps, a, h => by
    rw [List.foldl_cons, rename_absent ps _ fun q hq => h q (by simp [hq])]
    have := h p (by simp)
    cases p <;> simp_all [Args.add, Param.kind]

theorem foldl_add : ∀ (ps : List Param) (a : Args), (ps.map Param.kind).Nodup →
    ps.foldl Args.add a = ⟨(executorOf ps).or a.executor, (jsOf ps).or a.js, (renameOf ps).or a.rename⟩
  | [], a, _ => by simp [executorOf, jsOf, renameOf]
  | p :: ps, a, h => by
    rw [List.map_cons, List.nodup_cons] at h
    rw [List.foldl_cons, foldl_add ps _ h.2]
    have hk : ∀ q ∈ ps, q.kind ≠ p.kind := fun q hq he => h.1 (by rw [← he]; exact List.mem_map_of_mem hq)
    cases p with
    | executor e =>
      have : executorOf ps = none := by
        rw [executorOf, List.findSome?_eq_none_iff]
        intro q hq
        have := hk q hq
        cases q <;> simp_all [Param.kind]
      simp only [Args.add, this]
      simp [executorOf, jsOf, renameOf]
    | js w =>
      have : jsOf ps = none := by
        rw [jsOf, List.findSome?_eq_none_iff]
        intro q hq
        have := hk q hq
        cases q <;> simp_all [Param.kind]
      simp only [Args.add, this]
      simp [executorOf, jsOf, renameOf]
    | rename n =>
      have : renameOf ps = none := by
        rw [renameOf, List.findSome?_eq_none_iff]
        intro q hq
        have := hk q hq
        cases q <;> simp_all [Param.kind]
      simp only [Args.add, this]
      simp [executorOf, jsOf, renameOf]

/-! ### Properties -/

/-- **C73.** The parameters of `#[ffi_export]` are accepted exactly if they are written as documented, in any
order, each at most once; and they mean what they say. -/
theorem C73_parameters (ts : List Tok) (a : Args) : parseArgs ts = some a ↔
    ∃ ps, WrittenAll ps ts ∧ (ps.map Param.kind).Nodup ∧ a.executor = executorOf ps ∧ a.js = jsOf ps ∧ a.rename = renameOf ps := by
  rw [parseArgs, parseGo_iff ts.length ts (Nat.le_refl _)]
  constructor
  · rintro ⟨ps, h1, h2, _, rfl⟩
    exact ⟨ps, h1, h2, by simp [foldl_add ps _ h2], by simp [foldl_add ps _ h2], by simp [foldl_add ps _ h2]⟩
  · rintro ⟨ps, h1, h2, h3, h4, h5⟩
    refine ⟨ps, h1, h2, fun p _ => by cases p <;> rfl, ?_⟩
    rw [foldl_add ps _ h2]
    cases a
    simp_all

theorem written_unique {p q : Param} {ts us rest rest' : List Tok} (hp : Written p ts) (hq : Written q us)
    (hr : noParen rest) (hr' : noParen rest') (h : ts ++ rest = us ++ rest') : p = q ∧ rest = rest' := by
  cases hp <;> cases hq <;> simp_all [noParen]
  all_goals (subst_vars; simp_all)

theorem WrittenAll.unique {ps : List Param} {ts : List Tok} (h : WrittenAll ps ts) : ∀ qs, WrittenAll qs ts → ps = qs := by
  have head : ∀ {p ps ts}, WrittenAll (p :: ps) ts → ∃ ts' rest rest', Written p ts' ∧ WrittenAll ps rest ∧ noParen rest' ∧
      ts = ts' ++ rest' ∧ skipComma rest' = rest := by
    intro p ps ts h
    cases h with
    | cons hw hws => exact ⟨_, _, _, hw, hws, hws.noPar, rfl, hws.skip⟩
    | @comma _ _ _ rest hw hws => exact ⟨_, _, .comma :: rest, hw, hws, trivial, rfl, rfl⟩
  have empty : ∀ {ps}, WrittenAll ps [] → ps = [] := by
    intro ps h
    generalize hts : ([] : List Tok) = ts at h
    cases h with
    | nil => rfl
    | cons hw _ => cases hw <;> simp at hts
    | comma hw _ => cases hw <;> simp at hts
  have key : ∀ (ps : List Param) (ts : List Tok), WrittenAll ps ts → ∀ qs, WrittenAll qs ts → ps = qs := by
    intro ps
    induction ps with
    | nil =>
      intro ts h qs hq
      cases h
      exact (empty hq).symm
    | cons p ps ih =>
      intro ts h qs hq
      obtain ⟨ts', rest, rest', h1, h2, h3, rfl, h5⟩ := head h
      cases qs with
      | nil => cases h1 <;> generalize hts : (_ ++ rest' : List Tok) = us at hq <;> cases hq <;> simp at hts
      | cons q qs =>
        obtain ⟨us', rest₁, rest₁', g1, g2, g3, g4, g5⟩ := head hq
        obtain ⟨rfl, rfl⟩ := written_unique h1 g1 h3 g3 g4
        rw [h5] at g5
        subst g5
        rw [ih rest h2 qs g2]
  exact fun qs => key ps ts h qs

/-- **C73.** A parameter that is given twice is an error. -/
theorem C73_duplicate (ps : List Param) (ts : List Tok) (h : WrittenAll ps ts) (hd : ¬ (ps.map Param.kind).Nodup) :
    parseArgs ts = none := by
  cases ha : parseArgs ts with
  | none => rfl
  | some a =>
    obtain ⟨qs, h1, h2, _⟩ := (C73_parameters ts a).1 ha
    rw [h.unique qs h1] at hd
    exact absurd h2 hd

/-- How the parameter of constants is written. -/
theorem C73_constants (ts : List Tok) (u : Bool) : parseConst ts = some u ↔
    (ts = [] ∧ u = false) ∨ ((ts = [.ident "untyped"] ∨ ts = [.ident "untyped", .comma]) ∧ u = true) := by
  have again : ∀ ts, parseConstGo true ts = some u ↔ ts = [] ∧ u = true := by
    intro ts
    rcases ts with _ | ⟨t, ts⟩
    · cases u <;> simp [parseConstGo]
    · cases t with
      | ident s =>
        rcases ts with _ | ⟨t', ts⟩
        · simp [parseConstGo]
        · cases t' <;> simp [parseConstGo]
      | _ => simp [parseConstGo]
  rw [parseConst]
  rcases ts with _ | ⟨t, ts⟩
  · cases u <;> simp [parseConstGo]
  · cases t with
    | ident s =>
      by_cases hs : s = "untyped"
      · subst hs
        rcases ts with _ | ⟨t', ts⟩
        · cases u <;> simp [parseConstGo]
        · cases t' <;> simp [parseConstGo, again]
      · rcases ts with _ | ⟨t', ts⟩
        · simp [parseConstGo, hs]
        · cases t' <;> simp [parseConstGo, hs]
    | _ => simp [parseConstGo]

/-- **C73.** A function that is not `async` is accepted exactly if it is not a method, its ABI is C's, and no
`executor` is given; it is then exported to C, to the headers and (with `js`) to JavaScript under one name: the
one given by `rename`, or else its own. -/
theorem C73_names (F : Features) (a : Args) (f : Fn) (hf : f.isAsync = false) (x : Exports) :
    handle F a f = some x ↔
      a.executor = none ∧ f.receiver = false ∧ f.abi ∈ [none, some none, some (some "C")] ∧
      x.c = some (a.rename.getD f.name) ∧
      x.header = (if F.headers then some (a.rename.getD f.name) else none) ∧
      x.js = (match F.js, a.js with
        | true, some true => some (a.rename.getD f.name, .worker)
        | true, some false => some (a.rename.getD f.name, .sync)
        | _, _ => none) := by
  obtain ⟨c, h, j⟩ := x
  unfold handle
  cases he : a.executor with
  | some e =>
    simp only [Option.isSome_some, Bool.true_or, if_true, exportAsync, hf, Bool.and_false, Bool.not_false]
    simp
  | none =>
    simp only [hf, Option.isSome_none, Bool.or_self, Bool.false_eq_true, if_false, handleSync, true_and]
    cases hr : f.receiver with
    | true => cases badAbi f.abi <;> simp
    | false =>
      have abi : badAbi f.abi = true ↔
          f.abi ∉ [none, some none, some (some "C")] := by
        cases f.abi with
        | none => simp [badAbi]
        | some y => cases y <;> simp [badAbi, supportedAbis]
      by_cases ha : f.abi ∈ [none, some none, some (some "C")]
      · rw [if_neg (fun h' => absurd ha (abi.1 h'))]
        have : (if F.js then a.js.map fun worker => (a.rename.getD f.name, if worker then JsKind.worker else .sync) else none) =
            (match F.js, a.js with
              | true, some true => some (a.rename.getD f.name, JsKind.worker)
              | true, some false => some (a.rename.getD f.name, JsKind.sync)
              | _, _ => none) := by
          cases F.js <;> rcases a.js with _ | _ | _ <;> rfl
        simp only [Bool.false_eq_true, if_false, this]
        simp only [Option.some.injEq, Exports.mk.injEq, ha, true_and]
        exact ⟨fun ⟨h1, h2, h3⟩ => ⟨h1.symm, h2.symm, h3.symm⟩, fun ⟨h1, h2, h3⟩ => ⟨h1.symm, h2.symm, h3.symm⟩⟩
      · rw [if_pos (abi.2 ha)]
        simp [ha]

theorem badAbi_false (abi : Option (Option String)) : badAbi abi = false ↔ abi ∈ [none, some none, some (some "C")] := by
  cases abi with
  | none => simp [badAbi]
  | some y => cases y <;> simp [badAbi, supportedAbis]

/-- **C73 (partial).** An `async fn` is accepted exactly if the feature `async-fn` is enabled, an `executor` is given, its body ends with
`ffi_await!`, and it is not a method. It is exported either to C and to the headers, or to JavaScript. Missing:
the name in C is the function's own, whatever `rename` says; and if the feature `js` is enabled, then it is
exported to JavaScript only, or not at all. -/
theorem C73_async_partial (F : Features) (a : Args) (f : Fn) (hf : f.isAsync = true) (x : Exports) :
    handle F a f = some x ↔
      F.asyncFn = true ∧ a.executor.isSome = true ∧ f.awaits = true ∧
      if F.js then
        (a.js = none ∧ x = {}) ∨ (a.js.isSome = true ∧ f.receiver = false ∧ x = { js := some (a.rename.getD f.name, .promise) })
      else f.receiver = false ∧ f.abi ∈ [none, some none, some (some "C")] ∧
        x = { c := some f.name, header := if F.headers then some f.name else none } := by
  unfold handle
  cases hF : F.asyncFn with
  | false => simp [hf]
  | true =>
  simp only [hf, Bool.or_true, if_true, exportAsync, Bool.and_true, true_and]
  cases he : a.executor with
  | none => simp
  | some e =>
    cases hw : f.awaits with
    | false => simp
    | true =>
      cases hj : F.js with
      | true =>
        cases ha : a.js with
        | none => simp; exact eq_comm
        | some w =>
          cases hr : f.receiver with
          | true => simp
          | false => simp; exact eq_comm
      | false =>
        have hb := badAbi_false f.abi
        cases hr : f.receiver with
        | true => simp [handleSync]
        | false =>
          cases hbad : badAbi f.abi with
          | true =>
            have : ¬ f.abi ∈ [none, some none, some (some "C")] := fun h => by rw [hb.2 h] at hbad; cases hbad
            simp only [handleSync, hbad, if_true, this, false_and, and_false]
            simp
          | false =>
            have := hb.1 hbad
            simp only [handleSync, hbad, Bool.false_eq_true, if_false, this, true_and, hj]
            simp
            exact eq_comm

/-- **C73.** Other items. A struct or an enum is accepted exactly if it is not generic and no parameter is given, a
constant exactly if at most the parameter `untyped` is; they are then in the headers, under their own names, and
nowhere else. Anything else that is not a function is refused. -/
theorem C73_items (F : Features) (ts : List Tok) (it : Item) (hf : ∀ f, it ≠ .fn f) (x : Exports) (untyped : Bool) :
    exportItem F ts it = some (x, untyped) ↔
      x.c = none ∧ x.js = none ∧
      ∃ name, x.header = (if F.headers then some name else none) ∧
        (((it = .struct name false false ∨ it = .enum name false false) ∧ ts = [] ∧ untyped = false) ∨
          (it = .const name ∧
            ((ts = [] ∧ untyped = false) ∨
              ((ts = [.ident "untyped"] ∨ ts = [.ident "untyped", .comma]) ∧ untyped = F.headers)))) := by
  have he : ∀ h : Option String, (({ header := h } : Exports) = x) ↔ x.c = none ∧ x.js = none ∧ x.header = h := by
    intro h; cases x; simp only [Exports.mk.injEq]; grind
  cases it with
  | fn f => exact absurd rfl (hf f)
  | static n => simp [exportItem]
  | other => simp [exportItem]
  | struct n g w => cases ts <;> cases g <;> cases w <;> simp [exportItem, handleType] <;> grind
  | enum n g w => cases ts <;> cases g <;> cases w <;> simp [exportItem, handleType] <;> grind
  | const n =>
    simp only [exportItem, handleConst]
    cases hp : parseConst ts with
    | none =>
      have h1 : ∀ u, ¬ _ := fun u h => by have := (C73_constants ts u).2 h; simp [hp] at this
      have h2 := h1 false; have h3 := h1 true
      simp; grind
    | some u =>
      have h1 := (C73_constants ts u).1 hp
      simp [he]
      grind

/-- **C73.** A function is handled as the theorems above say. -/
theorem C73_function (F : Features) (ts : List Tok) (f : Fn) (x : Exports) (untyped : Bool) :
    exportItem F ts (.fn f) = some (x, untyped) ↔
      untyped = false ∧ ∃ a, parseArgs ts = some a ∧ handle F a f = some x := by
  simp only [exportItem, ffiExport]
  cases parseArgs ts with
  | none => simp
  | some a => cases h : handle F a f <;> simp [h]; grind

/-- **C73 fails** for `rename` on an `async fn`: `#[ffi_export(executor = e, rename = "short")] async fn long() { ffi_await!(…) }`
is exported to C as `long`. -/
theorem C73_fails_async_rename : ∃ (ts : List Tok) (f : Fn),
    parseArgs ts = some { executor := some 0, rename := some "short" } ∧
    ffiExport ⟨true, false, true⟩ ts f = some { c := some "long", header := some "long" } := by
  have hp : parseArgs [.ident "executor", .eq, .expr 0, .comma, .ident "rename", .eq, .str "short" true] =
      some { executor := some 0, rename := some "short" } :=
    (C73_parameters _ _).2 ⟨[.executor 0, .rename "short"], .comma (.executor 0) (.cons (.rename "short") .nil), by decide, rfl, rfl, rfl⟩
  refine ⟨_, ⟨"long", true, none, false, true⟩, hp, ?_⟩
  rw [ffiExport, hp]
  rfl

/-- **C73 fails** for the ABI of an `async fn`: `#[ffi_export(executor = e, js)] async extern "Rust" fn` is accepted if the feature
`js` is enabled, whatever the ABI. -/
theorem C73_fails_async_abi (abi : String) : ∃ (a : Args) (f : Fn) (x : Exports),
    f.abi = some (some abi) ∧ handle ⟨true, true, true⟩ a f = some x ∧ x.js.isSome = true :=
  ⟨{ executor := some 0, js := some false }, { name := "f", isAsync := true, abi := some (some abi), receiver := false, awaits := true }, _, rfl, rfl, rfl⟩

/-- **C73 fails** for an `async fn` without `js` if the feature `js` is enabled: the annotation is accepted, and
nothing is exported. -/
theorem C73_fails_async_dropped : ∃ (a : Args) (f : Fn), handle ⟨true, true, true⟩ a f = some {} :=
  ⟨{ executor := some 0 }, ⟨"f", true, none, false, true⟩, rfl⟩

/-! ### Concrete cases -/

-- `rename = "b" js(async_worker,),`
example : parseArgs [.ident "rename", .eq, .str "b" true, .ident "js", .paren [.ident "async_worker", .comma], .comma] =
    some { js := some true, rename := some "b" } :=
  (C73_parameters _ _).2 ⟨[.rename "b", .js true], .cons (.rename "b") (.comma .worker_ .nil), by decide, rfl, rfl, rfl⟩
-- `js, js`
example : parseArgs [.ident "js", .comma, .ident "js"] = none :=
  C73_duplicate [.js false, .js false] _ (.comma .js (.cons .js .nil)) (by decide)
example : handle ⟨true, true, false⟩ { js := some true, rename := some "b" } ⟨"a", false, some (some "C"), false, false⟩ =
    some { c := some "b", header := some "b", js := some ("b", .worker) } := rfl
example : handle ⟨true, true, false⟩ {} ⟨"a", false, some (some "system"), false, false⟩ = none := rfl
-- `#[ffi_export(untyped)] pub const ANSWER: i32 = 42;`, `#[ffi_export] struct Point { … }`, `#[ffi_export] static …`
example : exportItem ⟨true, false, false⟩ [.ident "untyped"] (.const "ANSWER") = some ({ header := some "ANSWER" }, true) := by decide
example : exportItem ⟨true, false, false⟩ [] (.struct "Point" false false) = some ({ header := some "Point" }, false) := rfl
example : exportItem ⟨true, false, false⟩ [] (.struct "Pair" true false) = none ∧ exportItem ⟨true, false, false⟩ [] (.static "S") = none := ⟨rfl, rfl⟩

end Verif.Export
