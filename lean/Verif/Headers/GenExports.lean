import Verif.Headers.GenOrder
/-!
# The order of the exports, and when generation succeeds
-/
namespace Verif.Headers
open Text

/-! ### The order of names -/

theorem ltText_cons {a b : Char} {as bs : Text} : ltText (a :: as) (b :: bs) = true ↔ a.toNat < b.toNat ∨ a = b ∧ ltText as bs = true := by
  rw [ltText, Bool.or_eq_true, Bool.and_eq_true, decide_eq_true_iff, beq_iff_eq]

theorem ltText_irrefl (a : Text) : ltText a a = false := by
  induction a with
  | nil => rfl
  | cons x xs ih =>
    cases h : ltText (x :: xs) (x :: xs) with
    | false => rfl
    | true =>
      rcases ltText_cons.1 h with h | h
      · omega
      · rw [ih] at h; cases h.2

theorem ltText_trans {a b c : Text} (h1 : ltText a b = true) (h2 : ltText b c = true) : ltText a c = true := by
  induction a generalizing b c with
  | nil =>
    cases b with
    | nil => cases h1
    | cons y ys =>
      cases c with
      | nil => cases h2
      | cons z zs => rfl
  | cons x xs ih =>
    cases b with
    | nil => cases h1
    | cons y ys =>
      cases c with
      | nil => cases h2
      | cons z zs =>
        rw [ltText_cons] at h1 h2 ⊢
        rcases h1 with h1 | ⟨rfl, h1⟩
        · rcases h2 with h2 | ⟨rfl, h2⟩
          · exact .inl (by omega)
          · exact .inl h1
        · rcases h2 with h2 | ⟨rfl, h2⟩
          · exact .inl h2
          · exact .inr ⟨rfl, ih h1 h2⟩

theorem ltText_total {a b : Text} (h1 : ltText a b = false) (h2 : a ≠ b) : ltText b a = true := by
  induction a generalizing b with
  | nil =>
    cases b with
    | nil => exact absurd rfl h2
    | cons y ys => cases h1
  | cons x xs ih =>
    cases b with
    | nil => rfl
    | cons y ys =>
      rw [ltText_cons]
      have h1' : ¬ (x.toNat < y.toNat ∨ x = y ∧ ltText xs ys = true) := fun hc => by rw [ltText_cons.2 hc] at h1; cases h1
      by_cases hxy : x = y
      · subst hxy
        refine .inr ⟨rfl, ih ?_ fun hc => h2 (by rw [hc])⟩
        cases h : ltText xs ys with
        | false => rfl
        | true => exact absurd (.inr ⟨rfl, h⟩) h1'
      · refine .inl ?_
        have : x.toNat ≠ y.toNat := fun hc => hxy (Char.toNat_inj.1 hc)
        have : ¬ x.toNat < y.toNat := fun hc => h1' (.inl hc)
        omega

theorem ltText_before {a b : Text} : ltText a b = true ↔ Before a b := by
  induction a generalizing b with
  | nil => cases b <;> simp [ltText, Before]
  | cons x xs ih =>
    cases b with
    | nil => simp [ltText, Before]
    | cons y ys =>
      rw [ltText_cons, Before, List.map_cons, List.map_cons, List.cons_lt_cons_iff, ih]
      exact or_congr Iff.rfl (and_congr Char.toNat_inj.symm Iff.rfl)

/-! ### The map -/

/-- By name, strictly increasing. -/
def Sorted (es : List Export) : Prop := es.Pairwise fun a b => ltText a.name b.name = true

theorem mem_insertMap {e x : Export} {l : List Export} (hs : Sorted l) : x ∈ insertMap e l ↔ x = e ∨ x ∈ l ∧ x.name ≠ e.name := by
  induction l with
  | nil => simp [insertMap]
  | cons y ys ih =>
    obtain ⟨h1, h2⟩ := List.pairwise_cons.1 hs
    rw [insertMap]
    split
    next hlt =>
      have hne : ∀ z ∈ y :: ys, z.name ≠ e.name := by
        intro z hz hc
        have : ltText e.name z.name = true := by
          rcases List.mem_cons.1 hz with rfl | hz
          · exact hlt
          · exact ltText_trans hlt (h1 z hz)
        rw [hc, ltText_irrefl] at this
        cases this
      rw [List.mem_cons]
      exact or_congr Iff.rfl ⟨fun h => ⟨h, hne x h⟩, fun h => h.1⟩
    next hlt =>
      split
      next heq =>
        have hne : ∀ z ∈ ys, z.name ≠ e.name := by
          intro z hz hc
          have := h1 z hz
          rw [hc, heq, ltText_irrefl] at this
          cases this
        simp only [List.mem_cons]
        refine or_congr Iff.rfl ⟨fun h => ⟨.inr h, hne x h⟩, ?_⟩
        rintro ⟨rfl | h, h'⟩
        · exact absurd heq.symm h'
        · exact h
      next heq =>
        rw [List.mem_cons, ih h2, List.mem_cons]
        constructor
        · rintro (rfl | rfl | ⟨h, h'⟩)
          · exact .inr ⟨.inl rfl, fun hc => heq hc.symm⟩
          · exact .inl rfl
          · exact .inr ⟨.inr h, h'⟩
        · rintro (rfl | ⟨rfl | h, h'⟩)
          · exact .inr (.inl rfl)
          · exact .inl rfl
          · exact .inr (.inr ⟨h, h'⟩)

theorem insertMap_sorted {e : Export} {l : List Export} (hs : Sorted l) : Sorted (insertMap e l) := by
  induction l with
  | nil => simp [insertMap, Sorted]
  | cons y ys ih =>
    obtain ⟨h1, h2⟩ := List.pairwise_cons.1 hs
    rw [insertMap]
    split
    next hlt =>
      refine List.pairwise_cons.2 ⟨fun z hz => ?_, hs⟩
      rcases List.mem_cons.1 hz with rfl | hz
      · exact hlt
      · exact ltText_trans hlt (h1 z hz)
    next hlt =>
      split
      next heq => exact List.pairwise_cons.2 ⟨fun z hz => by rw [heq]; exact h1 z hz, h2⟩
      next heq =>
        refine List.pairwise_cons.2 ⟨fun z hz => ?_, ih h2⟩
        rcases (mem_insertMap h2).1 hz with rfl | ⟨hz, _⟩
        · exact ltText_total (by simpa using hlt) heq
        · exact h1 z hz

theorem foldl_insert {l es : List Export} (hs : Sorted l) :
    Sorted (es.foldl (fun m e => insertMap e m) l) ∧
    ∀ x, x ∈ es.foldl (fun m e => insertMap e m) l ↔
      (x ∈ l ∧ ∀ e ∈ es, e.name ≠ x.name) ∨ ∃ pre post, es = pre ++ x :: post ∧ ∀ e ∈ post, e.name ≠ x.name := by
  induction es generalizing l with
  | nil => exact ⟨hs, fun x => by simp⟩
  | cons e es ih =>
    obtain ⟨h1, h2⟩ := ih (insertMap_sorted (e := e) hs)
    refine ⟨h1, fun x => (h2 x).trans ?_⟩
    rw [mem_insertMap hs]
    constructor
    · rintro (⟨rfl | ⟨h, h'⟩, h''⟩ | ⟨pre, post, rfl, h⟩)
      · exact .inr ⟨[], es, rfl, h''⟩
      · refine .inl ⟨h, fun z hz => ?_⟩
        rcases List.mem_cons.1 hz with rfl | hz
        · exact fun hc => h' hc.symm
        · exact h'' z hz
      · exact .inr ⟨e :: pre, post, rfl, h⟩
    · rintro (⟨h, h'⟩ | ⟨pre, post, he, h⟩)
      · exact .inl ⟨.inr ⟨h, fun hc => h' e (by simp) hc.symm⟩, fun z hz => h' z (by simp [hz])⟩
      · cases pre with
        | nil =>
          obtain ⟨rfl, rfl⟩ := List.cons.inj he
          exact .inl ⟨.inl rfl, h⟩
        | cons p ps =>
          obtain ⟨rfl, rfl⟩ := List.cons.inj he
          exact .inr ⟨ps, post, rfl, h⟩

theorem toMap_sorted (es : List Export) : Sorted (toMap es) := (foldl_insert .nil).1

/-- The last of each name. -/
theorem mem_toMap {es : List Export} {x : Export} :
    x ∈ toMap es ↔ ∃ pre post, es = pre ++ x :: post ∧ ∀ e ∈ post, e.name ≠ x.name := by
  refine ((foldl_insert (es := es) .nil).2 x).trans ?_
  simp

theorem last_of_name {es : List Export} {x : Export} (h : x ∈ es) (hd : DistinctNames es) :
    ∃ pre post, es = pre ++ x :: post ∧ ∀ e ∈ post, e.name ≠ x.name := by
  induction es with
  | nil => cases h
  | cons e es ih =>
    by_cases hx : x ∈ es
    · obtain ⟨pre, post, rfl, h'⟩ := ih hx fun a ha b hb => hd a (by simp [ha]) b (by simp [hb])
      exact ⟨e :: pre, post, rfl, h'⟩
    · rcases List.mem_cons.1 h with rfl | h
      · exact ⟨[], es, rfl, fun e he hc => hx (hd e (by simp [he]) x (by simp) hc ▸ he)⟩
      · exact absurd h hx

theorem mem_toMap_distinct {es : List Export} (hd : DistinctNames es) (x : Export) : x ∈ toMap es ↔ x ∈ es := by
  rw [mem_toMap]
  constructor
  · rintro ⟨pre, post, rfl, _⟩; simp
  · exact fun h => last_of_name h hd

theorem sorted_ext {l m : List Export} (hl : Sorted l) (hm : Sorted m) (h : ∀ x, x ∈ l ↔ x ∈ m) : l = m := by
  induction l generalizing m with
  | nil =>
    cases m with
    | nil => rfl
    | cons y ys => exact absurd ((h y).2 (by simp)) (by simp)
  | cons x xs ih =>
    cases m with
    | nil => exact absurd ((h x).1 (by simp)) (by simp)
    | cons y ys =>
      obtain ⟨h1, h2⟩ := List.pairwise_cons.1 hl
      obtain ⟨h3, h4⟩ := List.pairwise_cons.1 hm
      have hxy : x = y := by
        rcases List.mem_cons.1 ((h x).1 (by simp)) with e | hx
        · exact e
        · rcases List.mem_cons.1 ((h y).2 (by simp)) with e | hy
          · exact e.symm
          · have := ltText_trans (h1 y hy) (h3 x hx)
            rw [ltText_irrefl] at this
            cases this
      subst hxy
      refine congrArg _ (ih h2 h4 fun z => ?_)
      have hz := h z
      constructor
      · intro hzx
        rcases List.mem_cons.1 (hz.1 (by simp [hzx])) with rfl | h'
        · have := h1 z hzx
          rw [ltText_irrefl] at this
          cases this
        · exact h'
      · intro hzy
        rcases List.mem_cons.1 (hz.2 (by simp [hzy])) with rfl | h'
        · have := h3 z hzy
          rw [ltText_irrefl] at this
          cases this
        · exact h'

theorem ordered_subset {stable : Bool} {es : List Export} : ∀ e ∈ ordered stable es, e ∈ es := by
  intro e he
  cases stable with
  | false => exact List.mem_reverse.1 he
  | true =>
    obtain ⟨pre, post, rfl, _⟩ := mem_toMap.1 he
    simp

theorem mem_ordered {stable : Bool} {es : List Export} (hd : stable = true → DistinctNames es) (e : Export) : e ∈ ordered stable es ↔ e ∈ es := by
  cases stable with
  | false => exact List.mem_reverse
  | true => exact mem_toMap_distinct (hd rfl) e

/-! ### What is exported -/

/-- A run declares these exports, in this order; if it fails, a prefix of them. -/
def Exports (a : Act) (xs : List (Lang × Export)) : Prop := ∀ k st, ∃ p, (a k st).1.items.filterMap exported = st.items.filterMap exported ++ p ∧
  p <+: xs ∧ ((a k st).2 = none → p = xs)

theorem Exports.seq {a b : Act} {xs ys : List (Lang × Export)} (ha : Exports a xs) (hb : Exports b ys) : Exports (a ;; b) (xs ++ ys) := by
  intro k st
  obtain ⟨p, h1, h2, h3⟩ := ha k st
  cases h : (a k st).2 with
  | none =>
    rw [andThen_ok h]
    obtain ⟨q, i1, i2, i3⟩ := hb k (a k st).1
    have := h3 h
    subst this
    exact ⟨p ++ q, by rw [i1, h1, List.append_assoc], (List.prefix_append_right_inj _).2 i2, fun hn => by rw [i3 hn]⟩
  | some e =>
    rw [andThen_err h]
    exact ⟨p, h1, h2.trans (List.prefix_append _ _), fun hn => by rw [h] at hn; cases hn⟩

theorem exports_done : Exports done [] := fun _ _ => ⟨[], by simp [done], List.prefix_refl _, fun _ => rfl⟩

theorem exports_fail (e : Err) : Exports (fail e) [] := fun _ _ => ⟨[], by simp [fail], List.prefix_refl _, fun _ => rfl⟩

theorem exports_emit (P : Prog) (it : Item) : Exports (emit P it) (exported it).toList := by
  intro k st
  obtain ⟨h1, _, _⟩ := emit_st P it k st
  refine ⟨(exported it).toList, ?_, List.prefix_refl _, fun _ => rfl⟩
  rw [h1, List.filterMap_append]
  cases h : exported it <;> simp [h]

theorem exports_once {n : Text} {a : Act} (ha : Exports a []) : Exports (defineOnce n a) [] := by
  intro k st
  rw [defineOnce]
  split
  · exact ⟨[], by simp, List.prefix_refl _, fun _ => rfl⟩
  · exact ha k { st with defined := n :: st.defined }

theorem exports_insertFn (n : Text) : Exports (insertFn n) [] := by
  intro k st
  rw [insertFn]
  split <;> exact ⟨[], by simp, List.prefix_refl _, fun _ => rfl⟩

theorem closed_exports (P : Prog) : Closed P (Exports · []) where
  done := exports_done
  seq _ _ ha hb := Exports.seq ha hb
  once n a it ha hx _ := by
    have := exports_emit P it
    rw [hx] at this
    exact exports_once (Exports.seq ha this)
  silent n a ha := exports_once ha

theorem exports_define (P : Prog) (m : Nat) (lang : Lang) (ty : CTy) : Exports (defineSelf P m lang ty) [] :=
  Closed.define (closed_exports P) (fun l i g => Closed.defineAdt (closed_exports P) (exports_fail _) m l i g) lang ty

theorem exports_defineAll (P : Prog) (m : Nat) (lang : Lang) (tys : List CTy) : Exports (defineAll P (defineAdt P m) lang tys) [] :=
  Closed.defineAll (closed_exports P) (fun l i g => Closed.defineAdt (closed_exports P) (exports_fail _) m l i g) lang tys

theorem exports_genDef (P : Prog) (m : Nat) (lang : Lang) (e : Export) : Exports (genDef P m lang e) (([e].filter isValue).map (lang, ·)) := by
  cases e with
  | fn f =>
    exact Exports.seq (exports_insertFn _) (Exports.seq (exports_defineAll P m lang _) (Exports.seq (exports_define P m lang _) (exports_emit P (.func lang f))))
  | const c => exact Exports.seq (exports_define P m lang _) (exports_emit P (.const lang c))
  | type n ty => exact exports_define P m lang ty

theorem exports_genAll (P : Prog) (m : Nat) (lang : Lang) (es : List Export) : Exports (genAll P m lang es) ((es.filter isValue).map (lang, ·)) := by
  induction es with
  | nil => exact exports_done
  | cons e es ih =>
    have := Exports.seq (exports_genDef P m lang e) ih
    rw [← List.map_append, ← List.filter_append] at this
    exact this

theorem exports_writeText (P : Prog) (s : Option Text) : Exports (writeText P s) [] := by
  cases s with
  | none => exact exports_done
  | some s => exact exports_emit P (.text s)

theorem exports_generate (P : Prog) (m : Nat) (c : Config) (es : List Export) : Exports (generate P m c es) (((ordered c.stable es).filter isValue).map (c.lang, ·)) := by
  have := Exports.seq (exports_emit P (.text c.writeBanner)) (Exports.seq (exports_writeText P c.prelude)
    (Exports.seq (exports_genAll P m c.lang (ordered c.stable es)) (exports_writeText P c.epilogue)))
  simp only [exported, Option.toList, List.nil_append, List.append_nil] at this
  exact this

/-! ### Success -/

/-- With a writer that never fails, the run succeeds, and registers no names of functions. -/
def Safe (o : Order) (a : Act) : Prop := ∀ st, (a okSink st).2 = none ∧
  ∀ n, n ∈ (a okSink st).1.defined → (o.kind n = .function ∧ n ∉ st.defined) → False

theorem writes_ok (ss : List Text) (st : St) : (writes ss okSink st).2 = none := by
  induction ss generalizing st with
  | nil => rfl
  | cons s ss ih =>
    rw [writes, andThen_ok (show (write s okSink st).2 = none from rfl)]
    exact ih _

section
variable {P : Prog} {o : Order}

theorem Safe.done : Safe o done := fun _ => ⟨rfl, fun _ h1 h2 => h2.2 h1⟩

theorem Safe.seq {a b : Act} (ha : Safe o a) (hb : Safe o b) : Safe o (a ;; b) := by
  intro st
  obtain ⟨h1, h2⟩ := ha st
  rw [andThen_ok h1]
  obtain ⟨i1, i2⟩ := hb (a okSink st).1
  refine ⟨i1, fun n hn hk => ?_⟩
  by_cases hd : n ∈ (a okSink st).1.defined
  · exact h2 n hd hk
  · exact i2 n hn ⟨hk.1, hd⟩

theorem Safe.emit {it : Item} (h : (render P it).panics = false) : Safe o (emit P it) := by
  intro st
  refine ⟨?_, fun n hn hk => hk.2 (by rw [(emit_st P it okSink st).2.1] at hn; exact hn)⟩
  rw [Headers.emit, andThen_ok (show (log it okSink st).2 = none from rfl), andThen_ok (writes_ok _ _), h]
  rfl

theorem Safe.once {n : Text} {a : Act} (hk : o.kind n ≠ .function) (ha : Safe o a) : Safe o (defineOnce n a) := by
  intro st
  by_cases h : n ∈ st.defined
  · rw [defineOnce, if_pos h]
    exact ⟨rfl, fun _ h1 h2 => h2.2 h1⟩
  · rw [defineOnce, if_neg h]
    refine ⟨(ha _).1, fun x hx hkx => (ha _).2 x hx ⟨hkx.1, fun hc => ?_⟩⟩
    rcases List.mem_cons.1 hc with rfl | hc
    · exact hk hkx.1
    · exact hkx.2 hc

theorem kind_type {n : Text} (h : o.kind n = .type) : o.kind n ≠ .function := by rw [h]; nofun

mutual
theorem define_safe {adt : Lang → Nat → List CTy → Act} {B : Nat}
    (hadt : ∀ lang i g B', B' ≤ B → fits P.base o lang B' (.adt i g) → Safe o (adt lang i g))
    (lang : Lang) (ty : CTy) {B' : Nat} (hB : B' ≤ B) (hf : fits P.base o lang B' ty) : Safe o (define P adt lang ty) := by
  match ty, hf with
  | .int k, hf =>
    rw [define_int]; split
    · exact Safe.done
    next hl => exact Safe.once (kind_type (hf.resolve_left hl).2.2) (Safe.emit rfl)
  | .bool, hf =>
    rw [define_bool]; split
    · exact Safe.done
    next hl => exact Safe.once (kind_type (hf.resolve_left hl).2) (Safe.emit rfl)
  | .float, _ => exact Safe.done
  | .double, _ => exact Safe.done
  | .cint, _ => exact Safe.done
  | .cchar, _ => exact Safe.done
  | .void, _ => exact Safe.done
  | .array n item, ⟨h1, h2, h3, h4⟩ =>
    have ih := fun l (hl : legacy lang = l) => define_safe hadt l item (B' := o.rank (short P.base (.array n item) ++ t!"_t")) (by omega) (hl ▸ h4)
    rw [define_array]
    by_cases hl : lang = .csharp
    · subst hl
      rw [if_pos rfl, show csName P.base (.array n item) = _ from cArray_name P.base n item]
      exact Safe.seq (ih _ rfl) (Safe.once (kind_type h2) (Safe.emit rfl))
    · rw [if_neg hl, cArray_name]
      exact Safe.once (kind_type h2) (Safe.seq (ih _ (legacy_ne hl)) (Safe.emit rfl))
  | .fptr ret args, ⟨h0, h1, h2, h3⟩ =>
    rw [define_fptr]
    by_cases hl : lang = .csharp
    · subst hl
      rw [if_pos rfl]
      exact Safe.seq (define_safe hadt _ ret hB h2) (Safe.seq (defineAll_safe hadt _ args hB h3) (Safe.once (kind_type (h0 rfl).2) (Safe.emit rfl)))
    · rw [if_neg hl]
      rw [legacy_ne hl] at h2 h3
      exact Safe.seq (define_safe hadt _ ret hB h2) (defineAll_safe hadt _ args hB h3)
  | .constPtr to, hf => exact define_safe hadt _ to hB hf
  | .mutPtr to, hf => exact define_safe hadt _ to hB hf
  | .alias rename docs inner, ⟨h1, h2, h3⟩ =>
    rw [define_alias, cAlias_name]
    refine Safe.once (by rw [h2]; split <;> nofun) (Safe.seq (define_safe hadt lang inner (by omega) h3) ?_)
    split
    · exact Safe.emit rfl
    · exact Safe.done
  | .adt i g, hf => exact hadt lang i g B' hB hf
theorem defineAll_safe {adt : Lang → Nat → List CTy → Act} {B : Nat}
    (hadt : ∀ lang i g B', B' ≤ B → fits P.base o lang B' (.adt i g) → Safe o (adt lang i g))
    (lang : Lang) (tys : List CTy) {B' : Nat} (hB : B' ≤ B) (hf : fitsAll P.base o lang B' tys) : Safe o (defineAll P adt lang tys) := by
  match tys, hf with
  | [], _ => exact Safe.done
  | x :: xs, ⟨_, h1, h2⟩ => exact Safe.seq (define_safe hadt lang x hB h1) (defineAll_safe hadt lang xs hB h2)
end

theorem defineAdt_safe (hd : ∀ lang i g, o.used lang i g →
      fitsAll P.base o lang (o.rank (short P.base (.adt i g) ++ t!"_t")) (parts (P.decl i g)))
    (hp : ∀ lang i g, o.used lang i g → (renderDecl P lang (.adt i g) (P.decl i g)).panics = false)
    (m : Nat) (lang : Lang) (i : Nat) (g : List CTy) (B : Nat) (hB : B ≤ m) (hf : fits P.base o lang B (.adt i g)) :
    Safe o (defineAdt P m lang i g) := by
  induction m generalizing lang i g B with
  | zero => obtain ⟨h, _⟩ := hf; omega
  | succ m ih =>
    obtain ⟨h1, h2, h3⟩ := hf
    rw [defineAdt, name_adt]
    exact Safe.once (kind_type h2) (Safe.seq (defineAll_safe (B := m) (fun l i g B' hB' hf => ih l i g B' hB' hf) lang _ (by omega) (hd lang i g h3))
      (Safe.emit (hp lang i g h3)))

theorem genAll_ok {lang : Lang} {bound m : Nat} {all es : List Export} (h : NonRecursive P o lang bound all) (hm : bound ≤ m)
    (hp : ∀ lang i g, o.used lang i g → (renderDecl P lang (.adt i g) (P.decl i g)).panics = false)
    (hs : ∀ e ∈ es, e ∈ all) (hn : (es.filterMap fnName).Nodup) (st : St)
    (hst : ∀ f, .fn f ∈ es → f.name ∉ st.defined) : (genAll P m lang es okSink st).2 = none := by
  have hadt := fun l i g B' (hB' : B' ≤ m) hf => defineAdt_safe (P := P) h.decls hp m l i g B' hB' hf
  induction es generalizing st with
  | nil => rfl
  | cons e es ih =>
    have hx := h.exports e (hs e (by simp))
    have hs' : ∀ e ∈ es, e ∈ all := fun x hx => hs x (by simp [hx])
    rw [genAll]
    cases e with
    | fn f =>
      obtain ⟨hx1, hx2⟩ := fitsAll_append.1 hx
      have hsafe := Safe.seq (defineAll_safe (P := P) hadt lang _ hm hx1) (Safe.seq (define_safe hadt lang f.ret hm hx2.2.1) (Safe.emit (P := P) (it := .func lang f) rfl))
      have hi : insertFn f.name okSink st = ({ st with defined := f.name :: st.defined }, none) := by
        rw [insertFn, if_neg (hst f (by simp))]
      have hg : genDef P m lang (.fn f) okSink st = (defineAll P (defineAdt P m) lang (f.args.map (·.ty)) ;;
          define P (defineAdt P m) lang f.ret ;; emit P (.func lang f)) okSink { st with defined := f.name :: st.defined } := by
        rw [genDef, andThen_ok (by rw [hi]), hi]; rfl
      obtain ⟨h1, h2⟩ := hsafe { st with defined := f.name :: st.defined }
      rw [← hg] at h1 h2
      rw [andThen_ok h1]
      simp only [List.filterMap_cons, fnName, List.nodup_cons] at hn
      refine ih hs' hn.2 _ fun f' hf' hc => ?_
      refine h2 _ hc ⟨h.functions f' (hs' _ hf'), fun hc' => ?_⟩
      rcases List.mem_cons.1 hc' with hc' | hc'
      · exact hn.1 (List.mem_filterMap.2 ⟨_, hf', by rw [fnName, hc']⟩)
      · exact hst f' (by simp [hf']) hc'
    | const c =>
      have hsafe : Safe o (genDef P m lang (.const c)) := Safe.seq (define_safe hadt lang c.ty hm hx.2.1) (Safe.emit rfl)
      rw [andThen_ok (hsafe st).1]
      exact ih hs' hn _ fun f' hf' hc => (hsafe st).2 _ hc ⟨h.functions f' (hs' _ hf'), hst f' (by simp [hf'])⟩
    | type n ty =>
      have hsafe : Safe o (genDef P m lang (.type n ty)) := define_safe hadt lang ty hm hx.2.1
      rw [andThen_ok (hsafe st).1]
      exact ih hs' hn _ fun f' hf' hc => (hsafe st).2 _ hc ⟨h.functions f' (hs' _ hf'), hst f' (by simp [hf'])⟩

theorem genAll_err {lang : Lang} {bound m : Nat} {all es : List Export} (h : NonRecursive P o lang bound all) (hm : bound ≤ m)
    (hp : ∀ lang i g, o.used lang i g → (renderDecl P lang (.adt i g) (P.decl i g)).panics = false)
    (hs : ∀ e ∈ es, e ∈ all) (st : St) : (genAll P m lang es okSink st).2 = none ∨ (genAll P m lang es okSink st).2 = some .alreadyExists := by
  have hadt := fun l i g B' (hB' : B' ≤ m) hf => defineAdt_safe (P := P) h.decls hp m l i g B' hB' hf
  induction es generalizing st with
  | nil => exact .inl rfl
  | cons e es ih =>
    have hx := h.exports e (hs e (by simp))
    have hs' : ∀ e ∈ es, e ∈ all := fun x hx => hs x (by simp [hx])
    rw [genAll]
    have key : (genDef P m lang e okSink st).2 = none ∨ (genDef P m lang e okSink st).2 = some .alreadyExists := by
      cases e with
      | fn f =>
        obtain ⟨hx1, hx2⟩ := fitsAll_append.1 hx
        have hsafe := Safe.seq (defineAll_safe (P := P) hadt lang _ hm hx1) (Safe.seq (define_safe hadt lang f.ret hm hx2.2.1) (Safe.emit (P := P) (it := .func lang f) rfl))
        by_cases hd : f.name ∈ st.defined
        · have hi : insertFn f.name okSink st = (st, some .alreadyExists) := by rw [insertFn, if_pos hd]
          refine .inr ?_
          rw [genDef, andThen_err (by rw [hi]), hi]
        · have hi : insertFn f.name okSink st = ({ st with defined := f.name :: st.defined }, none) := by rw [insertFn, if_neg hd]
          refine .inl ?_
          rw [genDef, andThen_ok (by rw [hi]), hi]
          exact (hsafe _).1
      | const c =>
        have hsafe : Safe o (genDef P m lang (.const c)) := Safe.seq (define_safe hadt lang c.ty hm hx.2.1) (Safe.emit rfl)
        exact .inl (hsafe st).1
      | type n ty =>
        have hsafe : Safe o (genDef P m lang (.type n ty)) := define_safe hadt lang ty hm hx.2.1
        exact .inl (hsafe st).1
    rcases key with key | key
    · rw [andThen_ok key]; exact ih hs' _
    · rw [andThen_err key]; exact .inr key

end

theorem writeText_ok (P : Prog) (s : Option Text) (st : St) :
    (writeText P s okSink st).2 = none ∧ (writeText P s okSink st).1.defined = st.defined := by
  cases s with
  | none => exact ⟨rfl, rfl⟩
  | some s => exact ⟨rfl, rfl⟩

theorem generate_ok (P : Prog) (m : Nat) (c : Config) (es : List Export) :
    ∃ st, st.defined = [] ∧ (generated P m c es okSink).2 = (genAll P m c.lang (ordered c.stable es) okSink st).2 := by
  obtain ⟨h1, d1⟩ := writeText_ok P (some c.writeBanner) ⟨[], [], 0, []⟩
  obtain ⟨h2, d2⟩ := writeText_ok P c.prelude (writeText P (some c.writeBanner) okSink ⟨[], [], 0, []⟩).1
  refine ⟨_, d2.trans d1, ?_⟩
  have e : generated P m c es okSink = (genAll P m c.lang (ordered c.stable es) ;; writeText P c.epilogue) okSink
      (writeText P c.prelude okSink (writeText P (some c.writeBanner) okSink ⟨[], [], 0, []⟩).1).1 :=
    (andThen_ok h1).trans (andThen_ok h2)
  rw [e]
  cases h : (genAll P m c.lang (ordered c.stable es) okSink (writeText P c.prelude okSink (writeText P (some c.writeBanner) okSink ⟨[], [], 0, []⟩).1).1).2 with
  | none => rw [andThen_ok h]; exact (writeText_ok P _ _).1
  | some er => rw [andThen_err h]; exact h

theorem sorted_fnNames {es : List Export} (h : Sorted es) : (es.filterMap fnName).Nodup := by
  induction es with
  | nil => exact .nil
  | cons e es ih =>
    obtain ⟨h1, h2⟩ := List.pairwise_cons.1 h
    cases e with
    | fn f =>
      refine List.nodup_cons.2 ⟨fun hc => ?_, ih h2⟩
      obtain ⟨e', h3, h4⟩ := List.mem_filterMap.1 hc
      cases e' with
      | fn f' =>
        have := h1 _ h3
        rw [show (Export.fn f).name = (Export.fn f').name from (Option.some.inj h4).symm, ltText_irrefl] at this
        cases this
      | const _ => cases h4
      | type _ _ => cases h4
    | const _ => exact ih h2
    | type _ _ => exact ih h2

end Verif.Headers
