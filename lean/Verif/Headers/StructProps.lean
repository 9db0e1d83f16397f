import Verif.Headers.StructSpec
import Verif.Headers.MarshalProps
import Verif.Headers.EnumProps
/-!
# C63: struct definitions list the fields
-/
namespace Verif.Headers
open Text

/-! ### The reader -/

/-- The body of a struct without its comments: white space, then a member, for each of them. -/
inductive MBody : List Text → Text → Prop
  | nil : MBody [] []
  | cons {m ms w s} : Ws w → MBody ms s → MBody (m :: ms) (w ++ m ++ ';' :: '\n' :: s)

theorem all₂_map {α β γ : Type} {R : α → β → Prop} {f : γ → β} {as : List α} {cs : List γ} (h : All₂ R as (cs.map f)) :
    All₂ (fun a c => R a (f c)) as cs := by
  induction cs generalizing as with
  | nil => cases h; exact .nil
  | cons c cs ih => cases h with | cons h hs => exact .cons h (ih hs)

theorem All₂.imp {α β : Type} {R S : α → β → Prop} {as : List α} {bs : List β} (h : All₂ R as bs)
    (hi : ∀ b ∈ bs, ∀ a, R a b → S a b) : All₂ S as bs := by
  induction h with
  | nil => exact .nil
  | cons h hs ih => exact .cons (hi _ (by simp) _ h) (ih fun b hb a => hi b (by simp [hb]) a)

theorem mbody_split {ms : List Text} {s : Text} (h : MBody ms s) (hm : ∀ m ∈ ms, ';' ∉ m) (w : Text) (hw : Ws w) :
    trim ((split ';' (w ++ s)).getLastD []) = [] ∧
      All₂ (fun p m => ∃ w, Ws w ∧ p = w ++ m) (split ';' (w ++ s)).dropLast ms := by
  induction h generalizing w with
  | nil =>
    have hc : ';' ∉ w ++ [] := by rw [List.append_nil]; exact hw.not_mem (by decide)
    rw [split_of_not_mem hc]
    refine ⟨?_, .nil⟩
    have := trim_pad hw Ws.nil (s := []) nofun
    simpa using this
  | @cons m ms w' s hw' hb ih =>
    obtain ⟨ih1, ih2⟩ := ih (fun x hx => hm x (List.mem_cons_of_mem _ hx)) ['\n'] (by decide)
    have e : w ++ (w' ++ m ++ ';' :: '\n' :: s) = (w ++ w' ++ m) ++ ';' :: (['\n'] ++ s) := by simp
    have hc : ';' ∉ w ++ w' ++ m := by
      have h1 := hw.not_mem (c := ';') (by decide)
      have h2 := hw'.not_mem (c := ';') (by decide)
      simp [h1, h2, hm m (by simp)]
    rw [e, split_append hc]
    have hne := split_ne_nil ';' (['\n'] ++ s)
    refine ⟨?_, ?_⟩
    · revert ih1
      rw [List.getLastD_cons]
      cases hs : split ';' (['\n'] ++ s) with
      | nil => exact absurd hs hne
      | cons p ps => exact id
    · rw [List.dropLast_cons_of_ne_nil hne]
      exact .cons ⟨w ++ w', hw.append hw', rfl⟩ ih2

theorem mbody_no_brace {ms : List Text} {s : Text} (h : MBody ms s) (hm : ∀ m ∈ ms, '}' ∉ m) : '}' ∉ s := by
  induction h with
  | nil => exact nofun
  | @cons m ms w s hw hb ih =>
    have h1 := hw.not_mem (c := '}') (by decide)
    have h4 := ih fun x hx => hm x (List.mem_cons_of_mem _ hx)
    simp [h1, hm m (by simp), h4]

theorem members_body {ms : List Text} {s pre text post : Text} (hb : MBody ms s) (hm : ∀ m ∈ ms, ';' ∉ m ∧ '}' ∉ m)
    (hp : '{' ∉ pre) (hc : code .code text = pre ++ '{' :: '\n' :: (s ++ '}' :: post)) :
    ∃ pieces, members text = some pieces ∧ All₂ (fun p m => ∃ w, Ws w ∧ p = w ++ m) pieces ms := by
  have h0 : '}' ∉ ['\n'] ++ s := by simp [mbody_no_brace hb fun m h => (hm m h).2]
  have e : '\n' :: (s ++ '}' :: post) = (['\n'] ++ s) ++ '}' :: post := by simp
  obtain ⟨h1, h2⟩ := mbody_split hb (fun m h => (hm m h).1) ['\n'] (by decide)
  refine ⟨_, ?_, h2⟩
  rw [members, hc, splitOnce_append hp, e]
  simp only
  rw [splitOnce_append h0]
  simp only
  rw [if_pos h1]

/-! ### The characters of declarations -/

/-- A word character, or one of those that declarators use. -/
def declChar (c : Char) : Bool := isWordChar c || c == ' ' || c == '*' || c == '(' || c == ')' || c == ','

def DeclText (s : Text) : Prop := ∀ c ∈ s, declChar c = true

instance (s : Text) : Decidable (DeclText s) := inferInstanceAs (Decidable (∀ _ ∈ _, _))

theorem DeclText.append {a c : Text} (h : DeclText a) (h' : DeclText c) : DeclText (a ++ c) :=
  fun x hx => (List.mem_append.1 hx).elim (h x) (h' x)

theorem DeclText.not_mem {s : Text} (h : DeclText s) {c : Char} (hc : declChar c = false) : c ∉ s := fun hm => by
  rw [h c hm] at hc; cases hc

theorem IsWord.declText {s : Text} (h : IsWord s) : DeclText s := fun c hc => by simp [declChar, h.2 c hc]

theorem sep_declText (v : Text) : DeclText (sep v) := by
  cases v with
  | nil => exact nofun
  | cons c cs =>
    have : sep (c :: cs) = [' '] := rfl
    rw [this]; decide

mutual
theorem cVar_declText (b : Nat → Text) (ty : CTy) (h : wordsOk b ty = true) {v : Text} (hv : DeclText v) : DeclText (cVar b ty v) := by
  match ty, h with
  | .int k, _ =>
    rw [cVar_int]
    exact ((IsWord.declText (by cases k <;> decide)).append (sep_declText v)).append hv
  | .float, _ => exact ((by decide : DeclText t!"float").append (sep_declText v)).append hv
  | .double, _ => exact ((by decide : DeclText t!"double").append (sep_declText v)).append hv
  | .bool, _ => exact ((by decide : DeclText t!"bool").append (sep_declText v)).append hv
  | .cint, _ => exact ((by decide : DeclText t!"int").append (sep_declText v)).append hv
  | .cchar, _ => exact ((by decide : DeclText t!"char").append (sep_declText v)).append hv
  | .void, _ => exact ((by decide : DeclText t!"void").append (sep_declText v)).append hv
  | .array n item, h =>
    rw [cVar_array]
    exact ((named_word b (ty := .array n item) h).declText.append (sep_declText v)).append hv
  | .fptr ret args, h =>
    rw [wordsOk, Bool.and_eq_true] at h
    rw [cVar_fptr]
    exact (((((cVar_declText b ret h.1 (v := []) nofun).append (by decide)).append (by decide)).append hv).append (by decide)).append
      (cArgs_declText b args h.2) |>.append (by decide)
  | .constPtr to, h =>
    rw [cVar_constPtr]
    exact (((cVar_declText b to h (v := []) nofun).append (by decide)).append (sep_declText v)).append hv
  | .mutPtr to, h =>
    rw [cVar_mutPtr]
    exact (((cVar_declText b to h (v := []) nofun).append (by decide)).append (sep_declText v)).append hv
  | .alias rename docs inner, h =>
    rw [cVar_alias]
    exact ((named_word b (ty := .alias rename docs inner) h).declText.append (sep_declText v)).append hv
  | .adt i generics, h =>
    rw [cVar_adt]
    exact ((named_word b (ty := .adt i generics) h).declText.append (sep_declText v)).append hv
theorem cArgs_declText (b : Nat → Text) (args : List CTy) (h : wordsOks b args = true) : DeclText (cArgs b args) := by
  match args, h with
  | [], _ => exact (by decide : DeclText t!"void")
  | x :: xs, h =>
    rw [wordsOks, Bool.and_eq_true] at h
    rw [cArgs_cons]
    exact (cVar_declText b x h.1 (v := []) nofun).append (cArgsTail_declText b xs h.2)
theorem cArgsTail_declText (b : Nat → Text) (args : List CTy) (h : wordsOks b args = true) : DeclText (cArgsTail b args) := by
  match args, h with
  | [], _ => exact nofun
  | x :: xs, h =>
    rw [wordsOks, Bool.and_eq_true] at h
    rw [cArgsTail_cons]
    exact ((by decide : DeclText t!", ").append (cVar_declText b x h.1 (v := []) nofun)).append (cArgsTail_declText b xs h.2)
end

theorem var_declText (b : Nat → Text) {lang : Lang} {ty : CTy} (h : declFine b lang ty = true) {v : Text} (hv : DeclText v) :
    DeclText (var b lang ty v) := by
  cases lang with
  | csharp => cases h
  | c =>
    rw [declFine, Bool.and_eq_true] at h
    exact cVar_declText b ty h.1 hv
  | python =>
    rw [declFine, Bool.and_eq_true, Bool.and_eq_true] at h
    rw [var]
    cases ha : isAlias ty with
    | false => rw [pyVar_not_alias b ha]; exact cVar_declText b _ h.1.1 hv
    | true =>
      have e : pyVar b ty v = pyName b ty ++ sep v ++ v := by
        match ty, ha with
        | .alias _ _ _, _ => rfl
      rw [e, pyName_unalias]
      exact ((cVar_declText b _ h.1.1 (v := []) nofun).append (sep_declText v)).append hv

theorem csPlain_declText (b : Nat → Text) (ty : CTy) (h : csWords b ty = true) : DeclText (csPlain b ty) := by
  match ty, h with
  | .int k, _ => exact (int_cs_word k).declText
  | .float, _ => exact (by decide : DeclText t!"float")
  | .double, _ => exact (by decide : DeclText t!"double")
  | .bool, _ => exact (by decide : DeclText t!"bool")
  | .cint, _ => exact (by decide : DeclText t!"int")
  | .cchar, _ => exact (by decide : DeclText t!"byte")
  | .void, _ => exact (by decide : DeclText t!"void")
  | .array n item, h => exact cVar_declText b (.array n item) h (v := []) nofun
  | .fptr ret args, h => exact (short_word b (.fptr ret args) h).declText
  | .constPtr to, h => exact (csPlain_declText b to h).append (c := t!"  *") (by decide)
  | .mutPtr to, h => exact (csPlain_declText b to h).append (c := t!" *") (by decide)
  | .alias _ _ inner, h => exact csPlain_declText b inner h
  | .adt i generics, h => exact (named_word b (ty := .adt i generics) h).declText

/-! ### The loop over the fields -/

/-- The attribute of a member and the newline after it. -/
def attrText (ty : CTy) : Text :=
  match csMarshaler ty with
  | some m => marshalAs m ++ t!"\n    "
  | none => []

/-- A member without comments. -/
def memberText (b : Nat → Text) : Lang → Field → Text
  | .csharp, f => attrText f.ty ++ t!"public " ++ csPlain b f.ty ++ t!" " ++ f.name
  | lang, f => var b lang f.ty f.name

/-- The fields whose members are proved right. -/
def fieldOk (b : Nat → Text) (lang : Lang) (f : Field) : Prop :=
  docsOk lang f.docs ∧ IsWord f.name ∧ f.name ≠ kconst ∧
    (if lang = .csharp then csWords b f.ty = true else declFine b lang f.ty = true)

instance (lang : Lang) (docs : List Text) : Decidable (docsOk lang docs) :=
  match lang with
  | .c => decidable_of_iff (∀ d ∈ docs, ¬ has d = true) (by simp only [docsOk, has_iff])
  | .csharp => inferInstanceAs (Decidable (∀ d ∈ docs, ∀ c ∈ trim d, isTerminator c = false))
  | .python => inferInstanceAs (Decidable True)

instance (b : Nat → Text) (lang : Lang) (f : Field) : Decidable (fieldOk b lang f) :=
  inferInstanceAs (Decidable (_ ∧ _))

/-- One field, without its documentation. -/
theorem code_field (b : Nat → Text) {lang : Lang} {f : Field} (h : fieldOk b lang f) (rest : Text) :
    code .code (flat (fieldLines b lang f) ++ rest) = indent 1 ++ memberText b lang f ++ ';' :: '\n' :: code .code rest := by
  obtain ⟨_, hn, _, hf⟩ := h
  have hnl : '\n' ∉ f.name := hn.not_mem (by decide)
  have hsl : '/' ∉ f.name := hn.not_mem (by decide)
  have hsc : '/' ∉ indent 1 := (ws_indent 1).not_mem (by decide)
  by_cases hl : lang = .csharp
  · subst hl
    rw [if_pos rfl] at hf
    have hcs := csName_type b f.ty hf
    have hline : flat (outLines 1 [t!"public " ++ csName b f.ty ++ t!" " ++ f.name ++ t!";"]) =
        (indent 1 ++ t!"public ") ++ (csName b f.ty ++ (t!" " ++ f.name ++ t!";\n")) := by
      rw [flat_outLine_visible 1 (by simp [hcs.2.2, hnl]) (by rw [List.getLast?_append]; rfl) (by simp)]
      simp
    have hc : ∀ r, code .code (flat (outLines 1 [t!"public " ++ csName b f.ty ++ t!" " ++ f.name ++ t!";"]) ++ r) =
        indent 1 ++ t!"public " ++ csPlain b f.ty ++ t!" " ++ f.name ++ ';' :: '\n' :: code .code r := by
      intro r
      have e : (indent 1 ++ t!"public ") ++ (csName b f.ty ++ (t!" " ++ f.name ++ t!";\n")) ++ r =
          (indent 1 ++ t!"public ") ++ (csName b f.ty ++ ((t!" " ++ f.name ++ t!";\n") ++ r)) := by simp
      rw [hline, e, code_plain (by simp [hsc]), code_csName b _ hf, code_plain (by simp [hsl])]
      simp
    rw [fieldLines, flat_append, memberText]
    have e : ∀ a c d : Text, a ++ c ++ d = a ++ (c ++ d) := by simp
    rw [e]
    rcases csMarshaler_cases f.ty with h | h | h | h
    · rw [attrLines, attrText, h]
      show code .code (flat (outLines 1 _) ++ rest) = _
      rw [hc]; simp
    all_goals
      rw [attrLines, attrText, h]
      simp only
      have key : ∀ m, flat (outLines 1 [marshalAs m]) = indent 1 ++ marshalAs m ++ ['\n'] → '/' ∉ marshalAs m →
          code .code (flat (outLines 1 [marshalAs m]) ++ (flat (outLines 1 [t!"public " ++ csName b f.ty ++ t!" " ++ f.name ++ t!";"]) ++ rest)) =
          indent 1 ++ (marshalAs m ++ t!"\n    " ++ t!"public " ++ csPlain b f.ty ++ t!" " ++ f.name) ++ ';' :: '\n' :: code .code rest := by
        intro m h1 h2
        rw [h1, code_plain (by simp [hsc, h2]), hc]
        simp [indent, List.replicate]
      exact key _ (by decide) (by decide)
  · rw [if_neg hl] at hf
    have e1 : fieldLines b lang f = outLines 1 [var b lang f.ty f.name ++ t!";"] := by
      cases lang
      · rfl
      · exact absurd rfl hl
      · rfl
    have e2 : memberText b lang f = var b lang f.ty f.name := by
      cases lang
      · rfl
      · exact absurd rfl hl
      · rfl
    have hd := var_declText b hf hn.declText
    rw [e1, e2, flat_outLine_visible 1 (by simp [hd.not_mem (c := '\n') (by decide)]) (by rw [List.getLast?_append]; rfl) (by simp),
      code_plain]
    · simp
    · simp [hsc, hd.not_mem (c := '/') (by decide)]

theorem fields_panics (b : Nat → Text) (lang : Lang) (first : Bool) (fs : List Field) :
    (fields b lang first fs).panics = fs.any fun f => f.size == 0 && decide (1 < f.align) := by
  induction fs generalizing first with
  | nil => rfl
  | cons f fs ih =>
    rw [fields, List.any_cons]
    split
    next h =>
      split
      next h' => simp [h, h']
      next h' => rw [ih]; simp [h, h']
    next h => rw [ih]; simp [h]

/-- The fields that have a member. -/
def kept (fs : List Field) : List Field := fs.filter fun f => f.size ≠ 0

theorem code_fields (b : Nat → Text) (lang : Lang) (first : Bool) (fs : List Field) (h : ∀ f ∈ fs, fieldOk b lang f)
    (hp : (fields b lang first fs).panics = false) (rest : Text) :
    ∃ s, MBody ((kept fs).map (memberText b lang)) s ∧
      code .code (flat (fields b lang first fs).writes ++ rest) = s ++ code .code rest := by
  induction fs generalizing first with
  | nil => exact ⟨[], .nil, rfl⟩
  | cons f fs ih =>
    have ih := fun first => ih first fun x hx => h x (List.mem_cons_of_mem _ hx)
    have hf := h f (by simp)
    rw [fields] at hp ⊢
    by_cases h0 : f.size = 0
    · rw [if_pos h0] at hp ⊢
      by_cases ha : 1 < f.align
      · rw [if_pos ha] at hp; cases hp
      · rw [if_neg ha] at hp ⊢
        have e : kept (f :: fs) = kept fs := by simp [kept, h0]
        rw [e]
        exact ih first hp
    · rw [if_neg h0] at hp ⊢
      obtain ⟨s, hs, hc⟩ := ih false hp
      have e : kept (f :: fs) = f :: kept fs := by simp [kept, h0]
      rw [e, List.map_cons]
      simp only [flat_append]
      generalize hr : flat (fields b lang false fs).writes = R at hc
      have hsep : ∃ w, Ws w ∧ flat (if first = true then [] else [nl]) = w := by
        cases first
        · exact ⟨['\n'], by decide, rfl⟩
        · exact ⟨[], by decide, rfl⟩
      obtain ⟨w0, hw0, e0⟩ := hsep
      obtain ⟨w, hw, hdoc⟩ := docs_code hf.1 1 (flat (fieldLines b lang f) ++ (R ++ rest))
      refine ⟨(w0 ++ w ++ indent 1) ++ memberText b lang f ++ ';' :: '\n' :: s, .cons ((hw0.append hw).append (ws_indent 1)) hs, ?_⟩
      have e : ∀ a c d e f : Text, a ++ c ++ d ++ e ++ f = a ++ (c ++ (d ++ (e ++ f))) := by simp
      rw [e0, e, code_plain (hw0.not_mem (by decide)), hdoc, code_field b hf, hc]
      simp

/-! ### Whole structs -/

theorem attrText_not_mem (ty : CTy) {c : Char} (h : c = ';' ∨ c = '}') : c ∉ attrText ty := by
  rcases h with rfl | rfl <;> rcases csMarshaler_cases ty with h | h | h | h <;> rw [attrText, h] <;> decide

theorem memberText_not_mem (b : Nat → Text) {lang : Lang} {f : Field} (h : fieldOk b lang f) {c : Char} (hc : c = ';' ∨ c = '}') :
    c ∉ memberText b lang f := by
  obtain ⟨_, hn, _, hf⟩ := h
  have hd : declChar c = false := by rcases hc with rfl | rfl <;> decide
  have h1 := hn.declText.not_mem hd
  by_cases hl : lang = .csharp
  · subst hl
    rw [if_pos rfl] at hf
    have h2 := (csPlain_declText b f.ty hf).not_mem hd
    have h3 := attrText_not_mem f.ty hc
    rw [memberText]
    have h4 : c ∉ t!"public " := by rcases hc with rfl | rfl <;> decide
    have h5 : c ∉ t!" " := by rcases hc with rfl | rfl <;> decide
    simp only [List.mem_append, not_or]
    exact ⟨⟨⟨⟨h3, h4⟩, h2⟩, h5⟩, h1⟩
  · rw [if_neg hl] at hf
    have e2 : memberText b lang f = var b lang f.ty f.name := by
      cases lang
      · rfl
      · exact absurd rfl hl
      · rfl
    rw [e2]
    exact (var_declText b hf hn.declText).not_mem hd

/-- A declared type. -/
def isAdt : CTy → Bool
  | .adt _ _ => true
  | _ => false

theorem adt_name (b : Nat → Text) (lang : Lang) {ty : CTy} (h : isAdt ty = true) : name b lang ty = short b ty ++ t!"_t" := by
  match ty, h with
  | .adt i g, _ =>
    have : cVar b (.adt i g) [] = short b (.adt i g) ++ t!"_t" := by rw [cVar_adt]; simp [sep]
    cases lang
    · exact this
    · rfl
    · exact this

/-- The head of a struct, without comments, is white space or words up to the brace. -/
theorem members_emit (b : Nat → Text) (lang : Lang) (docs : List Text) (ty : CTy) (size : Nat) (fs : List Field) (ws : List Text)
    (ht : isAdt ty = true) (hw : wordsOk b ty = true) (hd : docsOk lang docs) (hf : ∀ f ∈ fs, fieldOk b lang f)
    (h : emitStruct b lang docs ty size fs = ⟨ws, false⟩) :
    ∃ pieces, members (flat ws) = some pieces ∧
      All₂ (fun p m => ∃ w, Ws w ∧ p = w ++ m) pieces ((kept fs).map (memberText b lang)) := by
  have hshort := short_word b ty hw
  have hname := adt_name b lang ht
  have hnm : IsWord (name b lang ty) := by rw [hname]; exact named_word b hw
  have hms : ∀ m ∈ (kept fs).map (memberText b lang), ';' ∉ m ∧ '}' ∉ m := by
    intro m hm
    obtain ⟨f, hfm, rfl⟩ := List.mem_map.1 hm
    have := hf f (List.mem_filter.1 hfm |>.1)
    exact ⟨memberText_not_mem b this (.inl rfl), memberText_not_mem b this (.inr rfl)⟩
  unfold emitStruct at h
  split at h
  · cases h
  have main : ∀ (head : List Text) (last : Text) (pre : Text), '{' ∉ pre →
      (∀ rest, ∃ w, Ws w ∧ code .code (flat head ++ rest) = w ++ pre ++ '{' :: '\n' :: code .code rest) →
      '\n' ∉ last → (('}' :: last).getLast?.all fun c => !isWs c) = true →
      structEnd (outLines 0 ['}' :: last]) head (fields b lang true fs) = ⟨ws, false⟩ →
      ∃ pieces, members (flat ws) = some pieces ∧
        All₂ (fun p m => ∃ w, Ws w ∧ p = w ++ m) pieces ((kept fs).map (memberText b lang)) := by
    intro head last pre hpre hhead hl1 hl2 he
    rw [structEnd] at he
    cases hp : (fields b lang true fs).panics with
    | true => rw [hp] at he; cases he
    | false =>
      rw [hp] at he
      simp only [Bool.false_eq_true, if_false, Emitted.mk.injEq, and_true] at he
      subst he
      obtain ⟨post, hpost⟩ := code_close (ws := []) hl1 hl2 (flat [nl])
      obtain ⟨s, hs, hc⟩ := code_fields b lang true fs hf hp (flat (outLines 0 ['}' :: last]) ++ flat [nl])
      obtain ⟨w, hw, hh⟩ := hhead (flat (fields b lang true fs).writes ++ (flat (outLines 0 ['}' :: last]) ++ flat [nl]))
      have hb : '{' ∉ w ++ pre := by
        have := hw.not_mem (c := '{') (by decide)
        simp [this, hpre]
      refine members_body (post := post) (pre := w ++ pre) hs hms hb ?_
      have e : flat (head ++ (fields b lang true fs).writes ++ outLines 0 ['}' :: last] ++ [nl]) =
          flat head ++ (flat (fields b lang true fs).writes ++ (flat (outLines 0 ['}' :: last]) ++ flat [nl])) := by
        simp [flat_append]
      rw [e, hh, hc, hpost]
  have cLike : lang ≠ .csharp → structEnd (outLines 0 [t!"} " ++ name b lang ty ++ t!";"])
      (emitDocs lang 0 docs ++ outLines 0 [t!"typedef struct " ++ short b ty ++ t!" {"]) (fields b lang true fs) = ⟨ws, false⟩ →
      ∃ pieces, members (flat ws) = some pieces ∧
        All₂ (fun p m => ∃ w, Ws w ∧ p = w ++ m) pieces ((kept fs).map (memberText b lang)) := by
    intro _ he
    refine main _ (' ' :: name b lang ty ++ t!";") (t!"typedef struct " ++ short b ty ++ t!" ")
      (by simp [hshort.not_mem (c := '{') (by decide)]) ?_ (by simp [hnm.not_mem (c := '\n') (by decide)]) ?_ he
    · intro rest
      have hline : flat (outLines 0 [t!"typedef struct " ++ short b ty ++ t!" {"]) = t!"typedef struct " ++ short b ty ++ t!" {" ++ ['\n'] :=
        line0 (by simp [hshort.not_mem (c := '\n') (by decide)]) (by rw [List.getLast?_append]; rfl) (by simp)
      obtain ⟨w, hw, hdoc⟩ := docs_code hd 0 (flat (outLines 0 [t!"typedef struct " ++ short b ty ++ t!" {"]) ++ rest)
      refine ⟨w, hw, ?_⟩
      rw [flat_append, List.append_assoc, hdoc, hline, code_plain (by simp [hshort.not_mem (c := '/') (by decide)])]
      simp
    · show (('}' :: ' ' :: name b lang ty ++ t!";").getLast?.all _) = true
      rw [List.getLast?_append]; rfl
  cases lang with
  | c => exact cLike (by decide) h
  | python => exact cLike (by decide) h
  | csharp =>
    refine main _ [] (t!"[StructLayout(LayoutKind.Sequential, Size = " ++ nat size ++ t!")]\npublic unsafe struct " ++ csName b ty ++ t!" ")
      ?_ ?_ (by decide) (by decide) h
    · have h1 : '{' ∉ nat size := fun hc => absurd (nat_word size _ hc) (by decide)
      have h2 : '{' ∉ csName b ty := hnm.not_mem (by decide)
      simp [h1, h2]
    · intro rest
      have h1 : ∀ c, isWordChar c = false → c ∉ nat size := fun c hc hm => by rw [nat_word size _ hm] at hc; cases hc
      have hw2 : IsWord (csName b ty) := hnm
      have hline : flat (outLines 0 [t!"[StructLayout(LayoutKind.Sequential, Size = " ++ nat size ++ t!")]",
          t!"public unsafe struct " ++ csName b ty ++ t!" {"]) =
          (t!"[StructLayout(LayoutKind.Sequential, Size = " ++ nat size ++ t!")]" ++ ['\n']) ++
          (t!"public unsafe struct " ++ csName b ty ++ t!" {" ++ ['\n']) := by
        rw [flat_outLines_cons, line0 (by simp [h1 '\n' (by decide)]) (by rw [List.getLast?_append]; rfl) (by simp),
          line0 (by simp [hw2.not_mem (c := '\n') (by decide)]) (by rw [List.getLast?_append]; rfl) (by simp)]
      obtain ⟨w, hw, hdoc⟩ := docs_code (lang := .csharp) hd 0 (flat (outLines 0 [t!"[StructLayout(LayoutKind.Sequential, Size = " ++ nat size ++ t!")]",
          t!"public unsafe struct " ++ csName b ty ++ t!" {"]) ++ rest)
      refine ⟨w, hw, ?_⟩
      have hdoc' : code .code (flat (csDocs 0 docs) ++ (flat (outLines 0 [t!"[StructLayout(LayoutKind.Sequential, Size = " ++ nat size ++ t!")]",
          t!"public unsafe struct " ++ csName b ty ++ t!" {"]) ++ rest)) = _ := hdoc
      rw [flat_append, List.append_assoc, hdoc', hline, code_plain]
      · simp
      · simp [h1 '/' (by decide), hw2.not_mem (c := '/') (by decide)]

theorem lex_ws_append {w : Text} (h : Ws w) (s : Text) : lex (w ++ s) = lex s := by
  induction w with
  | nil => rfl
  | cons c cs ih => rw [List.cons_append, lex_ws_cons _ (h c (by simp))]; exact ih fun x hx => h x (by simp [hx])

/-! ### C63 -/

/-- C63, C and cffi, in part: the emitted definition has one member for each field that is not
zero-sized, in order, each with the name of the field and the intended type. (`fieldOk`: documentation
as for C47, types as for C44.) -/
theorem C63_c_partial (b : Nat → Text) (lang : Lang) (hl : lang ≠ .csharp) (docs : List Text) (ty : CTy) (size : Nat)
    (fs : List Field) (ws : List Text) (ht : isAdt ty = true) (hw : wordsOk b ty = true) (hd : docsOk lang docs)
    (hf : ∀ f ∈ fs, fieldOk b lang f) (h : emitStruct b lang docs ty size fs = ⟨ws, false⟩) :
    ∃ pieces, members (flat ws) = some pieces ∧
      All₂ (fun p f => Declares p (some f.name) (ctype b (intended lang f.ty))) pieces (fs.filter fun f => f.size ≠ 0) := by
  obtain ⟨pieces, h1, h2⟩ := members_emit b lang docs ty size fs ws ht hw hd hf h
  refine ⟨pieces, h1, ?_⟩
  refine (all₂_map h2).imp fun f hm p hp => ?_
  obtain ⟨w, hws, rfl⟩ := hp
  obtain ⟨_, hn, hc, hff⟩ := hf f (List.mem_filter.1 hm).1
  rw [if_neg hl] at hff
  have e2 : memberText b lang f = var b lang f.ty f.name := by
    cases lang
    · rfl
    · exact absurd rfl hl
    · rfl
  have := C44_declares_partial b lang f.ty hff f.name hn hc
  rw [Declares] at this
  rw [Declares, lex_ws_append hws, e2]
  exact this

theorem csDeclared_text {ty n : Text} (hn : IsWord n) : csDeclared (t!"public " ++ ty ++ t!" " ++ n) = some (ty, n) := by
  have e : t!"public " ++ ty ++ t!" " ++ n = 'p' :: 'u' :: 'b' :: 'l' :: 'i' :: 'c' :: ' ' :: (ty ++ ' ' :: n) := by simp
  rw [e, csDeclared, if_pos (by rfl)]
  exact rsplitOnce_append (hn.not_mem (by decide))

theorem trimStart_skip {w s : Text} (hw : Ws w) (hs : s.head?.all (fun c => !isWs c) = true) : trimStart (w ++ s) = s := by
  induction w with
  | nil =>
    cases s with
    | nil => rfl
    | cons c cs => simp only [List.head?_cons, Option.all_some] at hs; simp at hs; simp [trimStart, hs]
  | cons c cs ih =>
    have := hw c (by simp)
    have ih := ih fun x hx => hw x (by simp [hx])
    simp only [trimStart] at ih ⊢
    rw [List.cons_append, List.dropWhile_cons, if_pos this, ih]

theorem csMember_text (b : Nat → Text) {f : Field} (hn : IsWord f.name) {w : Text} (hw : Ws w) :
    csMember (w ++ memberText b .csharp f) = some ((csMarshaler f.ty).map marshalAs, csPlain b f.ty, f.name) := by
  have h0 := csDeclared_text (ty := csPlain b f.ty) hn
  have e : ∀ a c d : Text, memberText b .csharp f = attrText f.ty ++ (t!"public " ++ csPlain b f.ty ++ t!" " ++ f.name) := by
    intros; rw [memberText]; simp
  rw [e [] [] []]
  have ht : trimStart (t!"\n    " ++ (t!"public " ++ csPlain b f.ty ++ t!" " ++ f.name)) = t!"public " ++ csPlain b f.ty ++ t!" " ++ f.name :=
    trimStart_skip (by decide) (by simp; decide)
  rcases csMarshaler_cases f.ty with h | h | h | h
  · rw [attrText, h, csMember, List.nil_append, trimStart_skip hw (by simp; decide)]
    have : t!"public " ++ csPlain b f.ty ++ t!" " ++ f.name = 'p' :: (t!"ublic " ++ csPlain b f.ty ++ t!" " ++ f.name) := by simp
    rw [this] at h0 ⊢
    show (csDeclared _).map _ = _
    rw [h0]; rfl
  all_goals
    have key : ∀ m, ∀ a : Text, a = (marshalAs m).tail.dropLast → marshalAs m = '[' :: a ++ [']'] → ']' ∉ a →
        csMember (w ++ (marshalAs m ++ t!"\n    " ++ (t!"public " ++ csPlain b f.ty ++ t!" " ++ f.name))) =
          some (some (marshalAs m), csPlain b f.ty, f.name) := by
      intro m a _ h1 h2
      have e : marshalAs m ++ t!"\n    " ++ (t!"public " ++ csPlain b f.ty ++ t!" " ++ f.name) =
          '[' :: (a ++ ']' :: (t!"\n    " ++ (t!"public " ++ csPlain b f.ty ++ t!" " ++ f.name))) := by rw [h1]; simp
      rw [csMember, e, trimStart_skip hw (by rfl)]
      simp only
      rw [splitOnce_append h2]
      simp only
      rw [ht, h0, h1]; rfl
    rw [attrText, h]
    simp only
    exact key _ _ rfl (by decide) (by decide)

/-- A struct with a documented field, a zero-sized one and a pointer to a callback's data. -/
def exFields : List Field :=
  [⟨[t!"How many; /* really"], t!"len", .int .usize, 8, 8⟩, ⟨[], t!"_marker", .void, 0, 1⟩,
   ⟨[], t!"on_it", .fptr .bool [.mutPtr .void], 8, 8⟩, ⟨[], t!"ok", .bool, 1, 1⟩]

example : ∀ lang, ∀ f ∈ exFields, fieldOk (fun _ => t!"Foo") lang f := by
  intro lang; cases lang <;> decide

example : ∀ f ∈ exFields, csFine f.ty = true := by decide

example : ∃ ws, emitStruct (fun _ => t!"Foo") .c [t!"A foo"] (.adt 0 []) 24 exFields = ⟨ws, false⟩ ∧
    members (flat ws) = some [t!"\n    \n    size_t len", t!"\n\n    \n    bool (*on_it)(void *)", t!"\n\n    \n    bool ok"] :=
  ⟨_, rfl, by decide +kernel⟩

example : ∃ ws, emitStruct (fun _ => t!"Foo") .csharp [t!"A foo"] (.adt 0 []) 24 exFields = ⟨ws, false⟩ ∧
    (members (flat ws)).map (·.map csMember) = some [
      some (none, t!"UIntPtr", t!"len"),
      some (some t!"[MarshalAs(UnmanagedType.FunctionPtr)]", t!"bool_void_ptr_fptr", t!"on_it"),
      some (some t!"[MarshalAs(UnmanagedType.U1)]", t!"bool", t!"ok")] :=
  ⟨_, rfl, by decide +kernel⟩

/-- C63, C#, in part: the emitted struct has one public member for each field that is not zero-sized,
in order, with the name of the field, and of a type and with an attribute that the runtime marshals as
the type of the field. (`fieldOk`: documentation as for C47; `csFine`: types as for C62.) -/
theorem C63_csharp_partial (W : Nat) (b : Nat → Text) (docs : List Text) (ty : CTy) (size : Nat)
    (fs : List Field) (ws : List Text) (ht : isAdt ty = true) (hw : wordsOk b ty = true) (hd : docsOk .csharp docs)
    (hf : ∀ f ∈ fs, fieldOk b .csharp f) (hfine : ∀ f ∈ fs, csFine f.ty = true)
    (h : emitStruct b .csharp docs ty size fs = ⟨ws, false⟩) :
    ∃ pieces, members (flat ws) = some pieces ∧
      All₂ (fun p f => ∃ attr t, csMember p = some (attr, t, f.name) ∧ unmanaged W attr t = some (native W b f.ty))
        pieces (fs.filter fun f => f.size ≠ 0) := by
  obtain ⟨pieces, h1, h2⟩ := members_emit b .csharp docs ty size fs ws ht hw hd hf h
  refine ⟨pieces, h1, ?_⟩
  refine (all₂_map h2).imp fun f hm p hp => ?_
  obtain ⟨w, hws, rfl⟩ := hp
  have hm := (List.mem_filter.1 hm).1
  obtain ⟨_, hn, hc, hff⟩ := hf f hm
  rw [if_pos rfl] at hff
  exact ⟨_, _, csMember_text b hn hws, by rw [← code_csName' b hff]; exact unmanaged_fine W b f.ty hff (hfine f hm)⟩

/-- C63: when header generation refuses a struct. It does for the zero-sized ones, and when a
zero-sized field has an alignment that the definition could not express. -/
theorem C63_refuses (b : Nat → Text) (lang : Lang) (docs : List Text) (ty : CTy) (size : Nat) (fs : List Field) :
    (emitStruct b lang docs ty size fs).panics = true ↔ size = 0 ∨ ∃ f ∈ fs, f.size = 0 ∧ 1 < f.align := by
  have hp := fields_panics b lang true fs
  have he : ∀ (tl hd : List Text) (e : Emitted), (structEnd tl hd e).panics = e.panics := by
    intro tl hd e
    rw [structEnd]
    split <;> simp_all
  unfold emitStruct
  split
  · simp_all
  · cases lang <;> simp_all

example : (emitStruct (fun _ => t!"Foo") .c [] (.adt 0 []) 8 [⟨[], t!"a", .array 0 (.int .u64), 0, 8⟩]).panics = true := by decide

end Verif.Headers
