import Verif.Headers.CffiCover
/-!
# The `#include` lines of Python headers
-/
namespace Verif.Headers
open Text

section
variable {P : Prog} {n : Text} {it : Item}

/-- After the action, if the name is registered then the item is written; and no item is lost. -/
def Keeps (n : Text) (it : Item) (a : Act) : Prop := ∀ k st, (a k st).2 = none → (n ∈ st.defined → it ∈ st.items) →
  (n ∈ (a k st).1.defined → it ∈ (a k st).1.items) ∧ ∀ x ∈ st.items, x ∈ (a k st).1.items

/-- The action moreover writes the item, unless it is there. -/
def Puts (n : Text) (it : Item) (a : Act) : Prop := Keeps n it a ∧ ∀ k st, (a k st).2 = none → (n ∈ st.defined → it ∈ st.items) → it ∈ (a k st).1.items

theorem Keeps.done : Keeps n it done := fun _ _ _ h => ⟨h, fun _ h => h⟩

theorem Keeps.seq {a b : Act} (ha : Keeps n it a) (hb : Keeps n it b) : Keeps n it (a ;; b) := by
  intro k st h h0
  obtain ⟨h1, h3, h2⟩ := seq_ok h
  have x := ha k st h1 h0
  have y := hb k _ h2 x.1
  rw [h3]
  exact ⟨y.1, fun z hz => y.2 z (x.2 z hz)⟩

theorem Puts.first {a b : Act} (ha : Puts n it a) (hb : Keeps n it b) : Puts n it (a ;; b) := by
  refine ⟨ha.1.seq hb, fun k st h h0 => ?_⟩
  obtain ⟨h1, h3, h2⟩ := seq_ok h
  rw [h3]
  exact (hb k _ h2 (ha.1 k st h1 h0).1).2 _ (ha.2 k st h1 h0)

theorem Puts.second {a b : Act} (ha : Keeps n it a) (hb : Puts n it b) : Puts n it (a ;; b) := by
  refine ⟨ha.seq hb.1, fun k st h h0 => ?_⟩
  obtain ⟨h1, h3, h2⟩ := seq_ok h
  rw [h3]
  exact hb.2 k _ h2 (ha k st h1 h0).1

theorem Keeps.emit {x : Item} : Keeps n it (Verif.Headers.emit P x) := by
  intro k st h h0
  obtain ⟨h1, h2, _⟩ := emit_st P x k st
  rw [h1, h2]
  exact ⟨fun h => List.mem_append_left _ (h0 h), fun _ h => List.mem_append_left _ h⟩

theorem Keeps.once {m : Text} {a : Act} (hm : m ≠ n) (ha : Keeps n it a) : Keeps n it (defineOnce m a) := by
  intro k st h h0
  unfold defineOnce at h ⊢
  split
  · exact ⟨h0, fun _ h => h⟩
  · next hx =>
    rw [if_neg hx] at h
    exact ha k _ h fun hn => h0 ((List.mem_cons.1 hn).resolve_left hm.symm)

theorem Puts.once : Puts n it (defineOnce n (Verif.Headers.emit P it)) := by
  have key : ∀ k st, (defineOnce n (Verif.Headers.emit P it) k st).2 = none → (n ∈ st.defined → it ∈ st.items) →
      it ∈ (defineOnce n (Verif.Headers.emit P it) k st).1.items ∧ ∀ x ∈ st.items, x ∈ (defineOnce n (Verif.Headers.emit P it) k st).1.items := by
    intro k st h h0
    unfold defineOnce at h ⊢
    split
    · next hx => exact ⟨h0 hx, fun _ h => h⟩
    · next hx =>
      rw [if_neg hx] at h
      rw [(emit_st P it k _).1]
      exact ⟨by simp, fun _ h => List.mem_append_left _ h⟩
  exact ⟨fun k st h h0 => ⟨fun _ => (key k st h h0).1, (key k st h h0).2⟩, fun k st h h0 => (key k st h h0).1⟩

theorem Keeps.insertFn {m : Text} (hm : m ≠ n) : Keeps n it (insertFn m) := by
  intro k st h h0
  unfold Verif.Headers.insertFn at h ⊢
  split
  · next hx => rw [if_pos hx] at h; cases h
  · exact ⟨fun hn => h0 ((List.mem_cons.1 hn).resolve_left hm.symm), fun _ h => h⟩

/-- The headers for integers, or that for `bool`. -/
def Hdr (n : Text) (it : Item) : Prop := n = t!"__int_headers__" ∧ it = .intHeaders ∨ n = t!"bool" ∧ it = .boolHeader

theorem Hdr.ne (h : Hdr n it) (x : Text) : x ++ t!"_t" ≠ n := by
  rcases h with ⟨rfl, _⟩ | ⟨rfl, _⟩ <;> exact last_ne rfl rfl (by decide)

theorem Hdr.int (h : Hdr n it) {lang : Lang} (hl : Like lang) (adt : Lang → Nat → List CTy → Act) (k : IntTy) : Keeps n it (define P adt lang (.int k)) := by
  have : define P adt lang (.int k) = defineOnce t!"__int_headers__" (emit P .intHeaders) := by rcases hl with rfl | rfl <;> rfl
  rw [this]
  rcases h with ⟨rfl, rfl⟩ | ⟨rfl, rfl⟩
  · exact Puts.once.1
  · exact .once (by decide) .emit

theorem Hdr.bool (h : Hdr n it) {lang : Lang} (hl : Like lang) (adt : Lang → Nat → List CTy → Act) : Keeps n it (define P adt lang .bool) := by
  have : define P adt lang .bool = defineOnce t!"bool" (emit P .boolHeader) := by rcases hl with rfl | rfl <;> rfl
  rw [this]
  rcases h with ⟨rfl, rfl⟩ | ⟨rfl, rfl⟩
  · exact .once (by decide) .emit
  · exact Puts.once.1

mutual
theorem keeps_define (h : Hdr n it) {adt : Lang → Nat → List CTy → Act} (hadt : ∀ lang i g, Like lang → Keeps n it (adt lang i g)) {lang : Lang} (hl : Like lang)
    (t : CTy) : Keeps n it (define P adt lang t) := by
  match t with
  | .int k => exact h.int hl adt k
  | .bool => exact h.bool hl adt
  | .float => rcases hl with rfl | rfl <;> exact .done
  | .double => rcases hl with rfl | rfl <;> exact .done
  | .cint => rcases hl with rfl | rfl <;> exact .done
  | .cchar => rcases hl with rfl | rfl <;> exact .done
  | .void => rcases hl with rfl | rfl <;> exact .done
  | .array m item =>
    have e : cName P.base (.array m item) = short P.base (.array m item) ++ t!"_t" := by
      show cVar _ _ [] = _
      rw [cVar_array]; simp [sep]
    have := Keeps.once (e ▸ h.ne _) ((keeps_define h hadt (.inl rfl) item).seq (Keeps.emit (n := n) (it := it) (P := P) (x := .type .c (.array m item))))
    rcases hl with rfl | rfl <;> exact this
  | .fptr ret args =>
    have := (keeps_define h hadt (.inl rfl) ret).seq (keeps_defineAll h hadt (.inl rfl) args)
    rcases hl with rfl | rfl <;> exact this
  | .constPtr to =>
    have := keeps_define h hadt (lang := .c) (.inl rfl) to
    rcases hl with rfl | rfl <;> exact this
  | .mutPtr to =>
    have := keeps_define h hadt (lang := .c) (.inl rfl) to
    rcases hl with rfl | rfl <;> exact this
  | .alias rn docs inner =>
    have e : cName P.base (.alias rn docs inner) = rn ++ t!"_t" := by
      show cVar _ _ [] = _
      rw [cVar_alias]; simp [sep]
    rw [define]
    refine .once (e ▸ h.ne _) ((keeps_define h hadt hl inner).seq ?_)
    split
    · exact .emit
    · exact .done
  | .adt i g => rw [define]; exact hadt lang i g hl
theorem keeps_defineAll (h : Hdr n it) {adt : Lang → Nat → List CTy → Act} (hadt : ∀ lang i g, Like lang → Keeps n it (adt lang i g)) {lang : Lang} (hl : Like lang)
    (ts : List CTy) : Keeps n it (defineAll P adt lang ts) := by
  match ts with
  | [] => rw [defineAll]; exact .done
  | x :: xs => rw [defineAll]; exact (keeps_define h hadt hl x).seq (keeps_defineAll h hadt hl xs)
end

theorem keeps_adt (h : Hdr n it) (m : Nat) : ∀ lang i g, Like lang → Keeps n it (defineAdt P m lang i g) := by
  induction m with
  | zero => intro lang i g _ k st hok; cases hok
  | succ m ih =>
    intro lang i g hl
    have e : name P.base lang (.adt i g) = short P.base (.adt i g) ++ t!"_t" := by
      rw [name_like hl]
      show cVar _ _ [] = _
      rw [cVar_adt]; simp [sep]
    rw [defineAdt]
    exact .once (e ▸ h.ne _) ((keeps_defineAll h ih hl _).seq .emit)

/-- The type whose definition is the item. -/
def hdrOf : CTy → Option (Text × Item)
  | .int _ => some (t!"__int_headers__", .intHeaders)
  | .bool => some (t!"bool", .boolHeader)
  | _ => none

theorem puts_define {adt : Lang → Nat → List CTy → Act} {lang : Lang} (hl : Like lang) {t : CTy} (ht : hdrOf t = some (n, it)) :
    Puts n it (define P adt lang t) := by
  cases t with
  | int k => cases ht; rcases hl with rfl | rfl <;> exact Puts.once
  | bool => cases ht; rcases hl with rfl | rfl <;> exact Puts.once
  | _ => cases ht

theorem hdrOf_hdr {t : CTy} (ht : hdrOf t = some (n, it)) : Hdr n it := by
  cases t with
  | int k => cases ht; exact .inl ⟨rfl, rfl⟩
  | bool => cases ht; exact .inr ⟨rfl, rfl⟩
  | _ => cases ht

theorem puts_defineAll (m : Nat) {lang : Lang} (hl : Like lang) {t : CTy} (ht : hdrOf t = some (n, it)) (ts : List CTy) (h : t ∈ ts) :
    Puts n it (defineAll P (defineAdt P m) lang ts) := by
  induction ts with
  | nil => cases h
  | cons x xs ih =>
    rw [defineAll]
    rcases List.mem_cons.1 h with rfl | h
    · exact (puts_define hl ht).first (keeps_defineAll (hdrOf_hdr ht) (keeps_adt (hdrOf_hdr ht) m) hl xs)
    · exact .second (keeps_define (hdrOf_hdr ht) (keeps_adt (hdrOf_hdr ht) m) hl x) (ih h)

theorem keeps_genDef (h : Hdr n it) (m : Nat) {lang : Lang} (hl : Like lang) (e : Export) (hf : ∀ f, e = .fn f → f.name ≠ n) :
    Keeps n it (genDef P m lang e) := by
  cases e with
  | fn f => exact (Keeps.insertFn (hf f rfl)).seq ((keeps_defineAll h (keeps_adt h m) hl _).seq ((keeps_define h (keeps_adt h m) hl _).seq .emit))
  | const c => exact (keeps_define h (keeps_adt h m) hl _).seq .emit
  | type _ ty => exact keeps_define h (keeps_adt h m) hl _

theorem puts_genDef (m : Nat) {lang : Lang} (hl : Like lang) {t : CTy} (ht : hdrOf t = some (n, it)) (e : Export) (hf : ∀ f, e = .fn f → f.name ≠ n)
    (he : t ∈ e.types) : Puts n it (genDef P m lang e) := by
  have h := hdrOf_hdr ht
  cases e with
  | fn f =>
    refine .second (Keeps.insertFn (hf f rfl)) ?_
    simp only [Export.types, List.mem_append, List.mem_singleton] at he
    rcases he with he | rfl
    · exact (puts_defineAll m hl ht _ he).first ((keeps_define h (keeps_adt h m) hl _).seq .emit)
    · exact .second (keeps_defineAll h (keeps_adt h m) hl _) ((puts_define hl ht).first .emit)
  | const c =>
    simp only [Export.types, List.mem_singleton] at he
    subst he
    exact (puts_define hl ht).first .emit
  | type _ ty =>
    simp only [Export.types, List.mem_singleton] at he
    subst he
    exact puts_define hl ht

theorem keeps_genAll (h : Hdr n it) (m : Nat) {lang : Lang} (hl : Like lang) (es : List Export) (hf : ∀ f, .fn f ∈ es → f.name ≠ n) :
    Keeps n it (genAll P m lang es) := by
  induction es with
  | nil => exact .done
  | cons e es ih => exact (keeps_genDef h m hl e fun f hx => hf f (by simp [hx])).seq (ih fun f hx => hf f (by simp [hx]))

theorem puts_genAll (m : Nat) {lang : Lang} (hl : Like lang) {t : CTy} (ht : hdrOf t = some (n, it)) (es : List Export)
    (hf : ∀ f, .fn f ∈ es → f.name ≠ n) {e : Export} (he : e ∈ es) (hte : t ∈ e.types) : Puts n it (genAll P m lang es) := by
  induction es with
  | nil => cases he
  | cons x es ih =>
    have hf' : ∀ f, .fn f ∈ es → f.name ≠ n := fun f hx => hf f (by simp [hx])
    rcases List.mem_cons.1 he with rfl | he
    · exact (puts_genDef m hl ht e (fun f hx => hf f (by simp [hx])) hte).first (keeps_genAll (hdrOf_hdr ht) m hl es hf')
    · exact .second (keeps_genDef (hdrOf_hdr ht) m hl x fun f hx => hf f (by simp [hx])) (ih hf' he)

/-- The item is in the header. -/
theorem header_puts {m : Nat} {c : Config} {es : List Export} {k : Sink} (hl : c.lang = .python) (hs : c.stable = true → DistinctNames es)
    (h : (generated P m c es k).2 = none) {t : CTy} (ht : hdrOf t = some (n, it)) (hf : ∀ f, .fn f ∈ es → f.name ≠ n) {e : Export} (he : e ∈ es)
    (hte : t ∈ e.types) : it ∈ (generated P m c es k).1.items := by
  have h1 : c.prelude = none := by rw [Config.prelude, hl]
  have h2 : c.epilogue = none := by rw [Config.epilogue, hl]
  have key : Puts n it (generate P m c es) := by
    rw [generate, h1, h2, hl]
    exact .second .emit (.second .done ((puts_genAll m (.inr rfl) ht _ (fun f hx => hf f ((mem_ordered hs _).1 hx)) ((mem_ordered hs _).2 he) hte).first .done))
  exact key.2 k _ h nofun

/-- A line that cffi does not accept. -/
theorem cdefLines_reject {ls : List Text} {l k r : Text} (hl : l ∈ ls) (hd : directive l = some (k, r)) (hk : k ≠ t!"define") : cdefLines false ls = none := by
  induction ls with
  | nil => cases hl
  | cons x ls ih =>
    rw [cdefLines]
    rcases List.mem_cons.1 hl with rfl | hl
    · rw [hd]
      simp only
      rw [if_neg fun h => hk h.1, if_neg fun h => by cases h.2]
    · rw [ih hl]
      split
      · rfl
      · split
        · rfl
        · rw [if_neg fun h => by cases h.2]

end

end Verif.Headers
