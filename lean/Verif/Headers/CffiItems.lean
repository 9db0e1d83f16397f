import Verif.Headers.CffiSpec
import Verif.Headers.AbiProps
/-! # Every item of a Python header, as cffi reads it -/
namespace Verif.Headers
open Text

/-! ### Tokens -/

theorem lex_no_bad {x : Char} {s : Text} (h : x ∉ s) : Tok.bad x ∉ lex s := by
  have key : ∀ (s cur : Text), x ∉ s → Tok.bad x ∉ lexFrom cur s := by
    intro s
    induction s with
    | nil => intro cur _; rw [lexFrom, word]; split <;> simp
    | cons c s ih =>
      intro cur h
      have h1 : c ≠ x := fun e => h (by simp [e])
      have h2 : x ∉ s := fun hm => h (by simp [hm])
      rw [lexFrom]
      split
      · exact ih _ h2
      · have hp : Tok.bad x ∉ punct c := by
          rw [punct]
          repeat' split
          all_goals simp
          exact fun e => h1 e.symm
        have hw : Tok.bad x ∉ word cur := by rw [word]; split <;> simp
        simp only [List.mem_append, not_or]
        exact ⟨hw, hp, ih _ h2⟩
  exact key s [] h

theorem dots_id {ts : List Tok} (h : Tok.bad '.' ∉ ts) : dots ts = ts := by
  fun_induction dots ts with
  | case1 r ih => exact absurd (by simp) h
  | case2 t r _ ih => rw [ih fun hm => h (by simp [hm])]
  | case3 => rfl

theorem mem_dots {t : Tok} {ts : List Tok} (h : t ∈ dots ts) : t ∈ ts ∨ t = .id kdots := by
  fun_induction dots ts with
  | case1 r ih =>
    rcases List.mem_cons.1 h with h | h
    · exact .inr h
    · rcases ih h with h | h
      · exact .inl (by simp [h])
      · exact .inr h
  | case2 t' r _ ih =>
    rcases List.mem_cons.1 h with h | h
    · exact .inl (by simp [h])
    · rcases ih h with h | h
      · exact .inl (by simp [h])
      · exact .inr h
  | case3 => cases h

/-- The tokens of lines. -/
def dtoks (ls : List Text) : List Tok := ls.flatMap fun l => dots (lex l)

theorem dtoks_append (a b : List Text) : dtoks (a ++ b) = dtoks a ++ dtoks b := List.flatMap_append ..

theorem dtoks_split {s : Text} (h : '.' ∉ s) : dtoks (split '\n' s) = lex s := by
  rw [← lex_split s, dtoks]
  have : ∀ l ∈ split '\n' s, '.' ∉ l := fun l hl hm => h (mem_of_mem_split hl hm)
  generalize split '\n' s = ls at this
  induction ls with
  | nil => rfl
  | cons l ls ih =>
    rw [List.flatMap_cons, List.flatMap_cons, dots_id (lex_no_bad (this l (by simp))), ih fun l hl => this l (by simp [hl])]

theorem dtoks_no_bad {x : Char} {ls : List Text} (h : ∀ l ∈ ls, x ∉ l) : Tok.bad x ∉ dtoks ls := by
  intro hm
  obtain ⟨l, hl, hm⟩ := List.mem_flatMap.1 hm
  rcases mem_dots hm with hm | hm
  · exact lex_no_bad (h l hl) hm
  · cases hm

/-! ### Lines -/

theorem cdefLines_append (s : Bool) (a b : List Text) :
    cdefLines s (a ++ b) = (cdefLines s a).bind fun x => (cdefLines s b).map fun y => (x.1 ++ y.1, x.2 ++ y.2) := by
  induction a with
  | nil => rw [List.nil_append]; cases cdefLines s b <;> simp [cdefLines]
  | cons l a ih =>
    rw [List.cons_append, cdefLines, cdefLines, ih]
    split
    · cases cdefLines s a <;> cases cdefLines s b <;> rfl
    · split
      · cases cdefLines s a <;> cases cdefLines s b <;> rfl
      · split
        · rfl
        · rfl

theorem cdefLines_plain (s : Bool) {ls : List Text} (h : ∀ l ∈ ls, '#' ∉ l) : cdefLines s ls = some (ls, []) := by
  induction ls with
  | nil => rfl
  | cons l ls ih => rw [cdefLines, directive_none (h l (by simp)), ih fun l hl => h l (by simp [hl])]; rfl

/-- The text stands on lines of its own, and cffi sees these tokens and constants of it. -/
def Ck (fl : Bool) (s : Text) (toks : List Tok) (ms : List Text) : Prop :=
  ∃ ls ks, (∀ rest, split '\n' (code .code (s ++ rest)) = ls ++ split '\n' (code .code rest)) ∧
    cdefLines fl ls = some (ks, ms) ∧ dtoks ks = toks

section
variable {fl : Bool}

theorem Ck.nil : Ck fl [] [] [] := ⟨[], [], fun _ => rfl, rfl, rfl⟩

theorem Ck.append {a b : Text} {x y : List Tok} {m n : List Text} (ha : Ck fl a x m) (hb : Ck fl b y n) : Ck fl (a ++ b) (x ++ y) (m ++ n) := by
  obtain ⟨as, ak, h1, h2, h3⟩ := ha
  obtain ⟨bs, bk, h4, h5, h6⟩ := hb
  refine ⟨as ++ bs, ak ++ bk, fun rest => by rw [List.append_assoc, h1, h4, List.append_assoc], ?_, by rw [dtoks_append, h3, h6]⟩
  rw [cdefLines_append, h2, h5]
  rfl

theorem Ck.cast {s : Text} {a b : List Tok} {m n : List Text} (h : Ck fl s a m) (e : a = b) (e' : m = n) : Ck fl s b n := e ▸ e' ▸ h

theorem ck_clean {s : Text} (h : Clean s) : Ck fl (s ++ ['\n']) (dtoks (split '\n' s)) [] :=
  ⟨_, _, (good_clean h).lines, cdefLines_plain _ fun _ hl hm => h.hash (mem_of_mem_split hl hm), rfl⟩

theorem ck_nl : Ck fl nl [] [] := ck_clean (s := []) nofun

/-- A clean line. -/
theorem ck_line (d : Nat) {l : Text} (h : Clean l) (hdot : '.' ∉ l) : Ck fl (flat (outLines d [l])) (lex l) [] := by
  rw [flat_outLines, List.flatMap_cons, List.flatMap_nil, List.append_nil]
  rw [← lex_indent d l, ← lex_split]
  have hp : ∀ p ∈ split '\n' (indent d ++ l), Clean p ∧ '.' ∉ p := by
    intro p hp
    refine ⟨fun c hc => ((clean_indent d).append h) c (mem_of_mem_split hp hc), fun hm => ?_⟩
    rcases List.mem_append.1 (mem_of_mem_split hp hm) with hm | hm
    · rw [indent, List.mem_replicate] at hm; exact absurd hm.2 (by decide)
    · exact hdot hm
  generalize split '\n' (indent d ++ l) = ps at hp
  induction ps with
  | nil => exact .nil
  | cons p ps ih =>
    rw [List.flatMap_cons, List.flatMap_cons, ← lex_trimEnd p, ← dtoks_split fun hm => (hp p (by simp)).2 (mem_trimEnd hm)]
    exact (ck_clean fun c hc => (hp p (by simp)).1 c (mem_trimEnd hc)).append (ih fun q hq => hp q (by simp [hq]))

/-- A clean line that may have dots. -/
theorem ck_line' (d : Nat) {l : Text} (h : Clean l) (hb : '}' ∉ l) : ∃ toks, Ck fl (flat (outLines d [l])) toks [] ∧ Tok.bad '}' ∉ toks := by
  rw [flat_outLines, List.flatMap_cons, List.flatMap_nil, List.append_nil]
  have hp : ∀ p ∈ split '\n' (indent d ++ l), Clean p ∧ '}' ∉ p := by
    intro p hp
    refine ⟨fun c hc => ((clean_indent d).append h) c (mem_of_mem_split hp hc), fun hm => ?_⟩
    rcases List.mem_append.1 (mem_of_mem_split hp hm) with hm | hm
    · rw [indent, List.mem_replicate] at hm; exact absurd hm.2 (by decide)
    · exact hb hm
  generalize split '\n' (indent d ++ l) = ps at hp
  induction ps with
  | nil => exact ⟨[], .nil, nofun⟩
  | cons p ps ih =>
    obtain ⟨ts, h1, h2⟩ := ih fun q hq => hp q (by simp [hq])
    rw [List.flatMap_cons]
    refine ⟨_, (ck_clean fun c hc => (hp p (by simp)).1 c (mem_trimEnd hc)).append h1, ?_⟩
    rw [List.mem_append, not_or]
    exact ⟨dtoks_no_bad fun q hq hm => (hp p (by simp)).2 (mem_trimEnd (mem_of_mem_split hq hm)), h2⟩

/-- The languages of the items of a Python header. -/
def Like (lang : Lang) : Prop := lang = .c ∨ lang = .python

theorem ck_docs {lang : Lang} (hl : Like lang) (d : Nat) {docs : List Text} (h : DocsOk docs) : Ck fl (flat (emitDocs lang d docs)) [] [] := by
  rcases hl with rfl | rfl
  · refine ⟨_, _, (good_docs d h).lines, cdefLines_plain _ (by simpa using (clean_indent d).hash), ?_⟩
    have : lex (indent d) = [] := by simpa [lex_nil] using lex_indent d []
    simp [dtoks, this, dots]
  · exact .nil

/-! ### Names -/

theorem short_no_dot {b : Nat → Text} {ty : CTy} (h : wordsOk b ty = true) : '.' ∉ short b ty := (short_word b ty h).not_mem (by decide)

theorem cVar_no_dot {b : Nat → Text} {ty : CTy} (h : wordsOk b ty = true) {v : Text} (hv : '.' ∉ v) : '.' ∉ cVar b ty v := by
  have h0 : '.' ∉ cVar b ty [] := (cVar_declText b ty h (v := []) nofun).not_mem (by decide)
  have hsep : '.' ∉ sep v := (sep_declText v).not_mem (by decide)
  cases ty with
  | fptr ret args =>
    rw [cVar_fptr] at h0 ⊢
    simp only [List.append_nil] at h0
    intro hc
    simp only [List.mem_append] at hc
    rcases hc with ((((hc | hc) | hc) | hc) | hc) | hc
    all_goals first
      | exact hv hc
      | (refine h0 ?_; simp only [List.mem_append]; simp only [hc, true_or, or_true])
  | _ =>
    simp only [cVar_int, cVar_float, cVar_double, cVar_bool, cVar_cint, cVar_cchar, cVar_void, cVar_array, cVar_constPtr, cVar_mutPtr, cVar_alias,
      cVar_adt, sep, List.isEmpty_nil, if_true, List.append_nil] at h0 hsep ⊢
    simp only [List.mem_append, not_or] at h0 ⊢
    simp_all

theorem cName_no_dot {b : Nat → Text} {ty : CTy} (h : wordsOk b ty = true) : '.' ∉ cName b ty := cVar_no_dot h nofun

theorem var_like {lang : Lang} (hl : Like lang) (b : Nat → Text) {ty : CTy} (h : isAlias ty = false) (v : Text) : var b lang ty v = cVar b ty v := by
  rcases hl with rfl | rfl
  · rfl
  · cases ty <;> first | rfl | cases h

theorem name_like {lang : Lang} (hl : Like lang) (b : Nat → Text) (i : Nat) (g : List CTy) : name b lang (.adt i g) = cName b (.adt i g) := by
  rcases hl with rfl | rfl <;> rfl

/-! ### Enums -/

theorem no_dot_append {a b : Text} (ha : '.' ∉ a) (hb : '.' ∉ b) : '.' ∉ a ++ b := by simp [ha, hb]

theorem ck_enum {lang : Lang} (hl : Like lang) {b : Nat → Text} {i : Nat} {g : List CTy} (h : wordsOk b (.adt i g) = true) {docs : List Text}
    {vs : List Variant} (hd : DeclFine (.enum docs none vs)) :
    ∃ toks, Ck fl (flat (emitEnum b lang docs (.adt i g) none vs)) toks [] ∧ Units toks [(cName b (.adt i g), .enum)] := by
  obtain ⟨hd, hv⟩ := hd
  have hs := short_clean h
  have hw := short_word b _ h
  have hopen : Ck fl (flat (outLines 0 [t!"typedef enum " ++ short b (.adt i g) ++ t!" {"])) [.id ktypedef, .id kenum, .id (short b (.adt i g)), .bad '{'] [] := by
    refine (ck_line 0 (((by decide : Clean t!"typedef enum ").append hs).append (by decide)) (by simp [short_no_dot h])).cast ?_ rfl
    have e : t!"typedef enum " ++ short b (.adt i g) ++ t!" {" = t!"typedef enum" ++ ' ' :: (short b (.adt i g) ++ t!" {") := by simp
    rw [e, lex_open _ _ [.id ktypedef, .id kenum] hw (by decide)]
    rfl
  have hclose : Ck fl (flat (outLines 0 [t!"} " ++ cName b (.adt i g) ++ t!";"])) [.bad '}', .id (cName b (.adt i g)), .semi] [] :=
    (ck_line 0 (((by decide : Clean t!"} ").append (cName_clean h)).append (by decide)) (by simp [cName_no_dot h])).cast
      (lex_close (cName_named_abi (ty := .adt i g) rfl h).1) rfl
  have hvs : ∀ disc : Variant → Option Text, (∀ v, disc v = v.disc ∨ disc v = none) →
      ∃ ts, Ck fl (flat (vs.flatMap fun v => emitDocs lang 1 v.docs ++ outLines 1 [enumLine (constName (short b (.adt i g)) v.name) (disc v)])) ts [] ∧
      Tok.bad '}' ∉ ts := by
    intro disc hdisc
    clear hd
    induction vs with
    | nil => exact ⟨[], .nil, nofun⟩
    | cons v vs ih =>
      obtain ⟨ts, h4, h5⟩ := ih fun v hv' => hv v (by simp [hv'])
      obtain ⟨h1, h2, h3⟩ := hv v (by simp)
      rw [List.flatMap_cons, flat_append, flat_append]
      have hc := constName_clean (short_clean h) h2.clean
      have hb : '}' ∉ constName (short b (.adt i g)) v.name := constName_no_brace (hw.not_mem (by decide)) (h2.not_mem (by decide))
      have hx : ∀ d, disc v = some d → ValueOk d ∧ '}' ∉ d := by
        intro d e
        rcases hdisc v with h | h
        · exact h3 d (h ▸ e)
        · rw [h] at e; cases e
      have hl2 : Clean (enumLine (constName (short b (.adt i g)) v.name) (disc v)) ∧ '}' ∉ enumLine (constName (short b (.adt i g)) v.name) (disc v) := by
        cases e : disc v with
        | none => exact ⟨hc.append (by decide), by simp [enumLine, hb]⟩
        | some d => exact ⟨((hc.append (by decide)).append (hx d e).1.clean).append (by decide), by simp [enumLine, hb, (hx d e).2]⟩
      obtain ⟨us, h6, h7⟩ := ck_line' 1 hl2.1 hl2.2
      refine ⟨_, ((ck_docs hl 1 h1).append h6).append h4, ?_⟩
      simp only [List.nil_append, List.mem_append, not_or]
      exact ⟨h7, h5⟩
  have hend : ∀ ts, Tok.bad '}' ∉ ts → Units ([.id ktypedef, .id kenum, .id (short b (.adt i g)), .bad '{'] ++ ts ++
      [.bad '}', .id (cName b (.adt i g)), .semi]) [(cName b (.adt i g), .enum)] := by
    intro ts h2
    have := Units.enum (s := short b (.adt i g)) (n := cName b (.adt i g)) h2
    simpa using this
  rcases hl with rfl | rfl
  · obtain ⟨ts, h1, h2⟩ := hvs (·.disc) fun _ => .inl rfl
    refine ⟨_, ?_, hend ts h2⟩
    show Ck fl (flat (cEnum b docs (.adt i g) none vs)) _ _
    rw [cEnum, flat_append, flat_append, flat_append, flat_append]
    exact (((((ck_docs (.inl rfl) 0 hd).append hopen).append h1).append hclose).append ck_nl).cast (by simp) rfl
  · obtain ⟨ts, h1, h2⟩ := hvs (fun _ => none) fun _ => .inr rfl
    refine ⟨_, ?_, hend ts h2⟩
    show Ck fl (flat (pyEnum b (.adt i g) vs)) _ _
    rw [pyEnum, flat_append, flat_append, flat_append]
    exact (((hopen.append h1).append hclose).append ck_nl).cast (by simp) rfl

/-! ### Structs -/

theorem ck_var (d : Nat) {b : Nat → Text} {ty : CTy} (hw : wordsOk b ty = true) (v : Text) (hv : Clean v) (hdot : '.' ∉ v) :
    Ck fl (flat (outLines d [cVar b ty v ++ t!";"])) (lex (cVar b ty v) ++ [.semi]) [] :=
  (ck_line d ((cVar_clean hw hv).append (by decide)) (by simp [cVar_no_dot hw hdot])).cast (by rw [lex_semi]; rfl) rfl

theorem fieldLines_like {lang : Lang} (hl : Like lang) (b : Nat → Text) (f : Field) (h : isAlias f.ty = false) :
    fieldLines b lang f = outLines 1 [cVar b f.ty f.name ++ t!";"] := by
  have := var_like hl b h f.name
  rcases hl with rfl | rfl <;> rw [← this] <;> rfl

theorem ck_fields {lang : Lang} (hl : Like lang) {b : Nat → Text} (first : Bool) {fs : List Field}
    (h : ∀ f ∈ fs, (DocsOk f.docs ∧ IsWord f.name ∧ f.name ≠ kconst) ∧ wordsOk b f.ty = true ∧ declOk f.ty = true ∧ isAlias f.ty = false)
    (hp : (fields b lang first fs).panics = false) :
    ∃ toks, Ck fl (flat (fields b lang first fs).writes) toks [] ∧ MemBody toks (memberEntries b fs) := by
  induction fs generalizing first with
  | nil => exact ⟨[], .nil, .nil⟩
  | cons f fs ih =>
    have ih' := fun first => ih first fun f hf => h f (by simp [hf])
    obtain ⟨⟨h1, h2, h3⟩, h4, h5, hal⟩ := h f (by simp)
    rw [fields] at hp ⊢
    by_cases h0 : f.size = 0
    · have e : memberEntries b (f :: fs) = memberEntries b fs := by simp [memberEntries, kept, h0]
      rw [if_pos h0] at hp ⊢
      rw [e]
      by_cases ha : 1 < f.align
      · rw [if_pos ha] at hp; cases hp
      · rw [if_neg ha] at hp ⊢; exact ih' first hp
    · have e : memberEntries b (f :: fs) = (f.name, ctype b f.ty) :: memberEntries b fs := by simp [memberEntries, kept, h0]
      rw [if_neg h0] at hp ⊢
      obtain ⟨ts, h6, h7⟩ := ih' false hp
      simp only
      rw [flat_append, flat_append, flat_append, e, fieldLines_like hl b f hal]
      have hn : Ck fl (flat (if first = true then [] else [nl])) [] [] := by
        cases first
        · exact ck_nl
        · exact .nil
      refine ⟨_, ((hn.append (ck_docs hl 1 h1)).append (ck_var 1 h4 _ h2.clean (h2.not_mem (by decide)))).append h6, ?_⟩
      refine MemBody.append (d := [(f.name, ctype b f.ty)]) (MemBody.one (cVar_starts b _ h4 _) fun r => ?_) h7
      exact declares_var b f.ty h4 h5 (v := f.name) (by rw [lex_word h2]; exact Direct.id h3) (r := .semi :: r) trivial

theorem ck_struct {lang : Lang} (hl : Like lang) {b : Nat → Text} {i : Nat} {g : List CTy} (h : wordsOk b (.adt i g) = true) {docs : List Text}
    {size : Nat} {fs : List Field} (hd : DeclFine (.struct docs size fs))
    (hf : ∀ f ∈ fs, wordsOk b f.ty = true ∧ declOk f.ty = true ∧ isAlias f.ty = false)
    (hp : (emitStruct b lang docs (.adt i g) size fs).panics = false) :
    ∃ toks, Ck fl (flat (emitStruct b lang docs (.adt i g) size fs).writes) toks [] ∧ Units toks [(cName b (.adt i g), .struct (memberEntries b fs))] := by
  by_cases hs : size = 0
  · rw [emitStruct.eq_def, if_pos hs] at hp; cases hp
  · have e : emitStruct b lang docs (.adt i g) size fs = structEnd (outLines 0 [t!"} " ++ cName b (.adt i g) ++ t!";"])
        (emitDocs lang 0 docs ++ outLines 0 [t!"typedef struct " ++ short b (.adt i g) ++ t!" {"]) (fields b lang true fs) := by
      rw [emitStruct.eq_def, if_neg hs, ← name_like hl]
      rcases hl with rfl | rfl <;> rfl
    rw [e, structEnd] at hp ⊢
    split at hp
    · cases hp
    · next hpf =>
      rw [if_neg hpf]
      obtain ⟨ts, h1, h2⟩ := ck_fields hl (b := b) true (fs := fs) (fun f hm => ⟨hd.2 f hm, hf f hm⟩) (by simpa using hpf)
      have h3 : Ck fl (flat (outLines 0 [t!"typedef struct " ++ short b (.adt i g) ++ t!" {"])) [.id ktypedef, .id kstruct, .id (short b (.adt i g)), .bad '{'] [] := by
        refine (ck_line 0 (((by decide : Clean t!"typedef struct ").append (short_clean h)).append (by decide)) (by simp [short_no_dot h])).cast ?_ rfl
        have e : t!"typedef struct " ++ short b (.adt i g) ++ t!" {" = t!"typedef struct" ++ ' ' :: (short b (.adt i g) ++ t!" {") := by simp
        rw [e, lex_open _ _ [.id ktypedef, .id kstruct] (short_word b _ h) (by decide)]
        rfl
      have h4 : Ck fl (flat (outLines 0 [t!"} " ++ cName b (.adt i g) ++ t!";"])) [.bad '}', .id (cName b (.adt i g)), .semi] [] :=
        (ck_line 0 (((by decide : Clean t!"} ").append (cName_clean h)).append (by decide)) (by simp [cName_no_dot h])).cast
          (lex_close (cName_named_abi (ty := .adt i g) rfl h).1) rfl
      simp only [flat_append]
      refine ⟨_, ((((ck_docs hl 0 hd.1).append h3).append h1).append h4).append ck_nl, ?_⟩
      have := Units.struct (s := short b (.adt i g)) (n := cName b (.adt i g)) h2
      simpa using this

/-! ### Opaque types -/

theorem ck_opaque_c {b : Nat → Text} {i : Nat} {g : List CTy} (h : wordsOk b (.adt i g) = true) {docs : List Text}
    (hd : DocsOk docs) : ∃ toks, Ck fl (flat (emitOpaque b .c docs (.adt i g))) toks [] ∧ Units toks [(cName b (.adt i g), .opaque)] := by
  rw [emitOpaque]
  simp only [flat_append]
  refine ⟨_, ((ck_docs (.inl rfl) 0 hd).append (ck_line 0 ((((by decide : Clean t!"typedef struct ").append (short_clean h)).append
    (by decide : Clean t!" ")).append (cName_clean h) |>.append (by decide)) (by simp [short_no_dot h, cName_no_dot h]))).append ck_nl, ?_⟩
  have e : t!"typedef struct " ++ short b (.adt i g) ++ t!" " ++ cName b (.adt i g) ++ t!";" =
      t!"typedef struct" ++ ' ' :: (short b (.adt i g) ++ ' ' :: (cName b (.adt i g) ++ t!";")) := by simp
  rw [e, lex_blank, lex_blank, lex_word (short_word b _ h), lex_name_semi (cName_named_abi (ty := .adt i g) rfl h).1,
    show lex t!"typedef struct" = [.id ktypedef, .id kstruct] by decide]
  exact Units.opaque _ _

theorem units_dots {n : Text} (hn : n ≠ kconst) : Units [.id ktypedef, .id kdots, .id n, .semi] [(n, .alias (.name kdots))] := by
  refine .one (by simp) fun r => ?_
  obtain ⟨l, hl⟩ := (Front.name (by decide : kdots ≠ kconst)).plain (.id n :: .semi :: r) (some n, .name kdots, .semi :: r) (by simp [hn])
    ((Direct.id hn).after (r := .semi :: r) trivial _)
  refine ⟨l, fun m hm => ?_⟩
  have := hl m hm
  simp only [List.singleton_append] at this
  show unit m (.id ktypedef :: .id kdots :: .id n :: .semi :: r) = _
  rw [unit, if_neg (by decide), if_pos rfl]
  simp only [if_neg (by decide : kdots ≠ kstruct), if_neg (by decide : kdots ≠ kenum), this]

theorem ck_opaque_py {b : Nat → Text} {i : Nat} {g : List CTy} (h : wordsOk b (.adt i g) = true) {docs : List Text} :
    ∃ toks, Ck fl (flat (emitOpaque b .python docs (.adt i g))) toks [] ∧ Units toks [(cName b (.adt i g), .alias (.name kdots))] := by
  have hn := cName_named_abi (ty := .adt i g) rfl h
  rw [emitOpaque, show pyName b (.adt i g) = cName b (.adt i g) from rfl]
  simp only [flat_append]
  have hc : Clean (t!"typedef ... " ++ cName b (.adt i g) ++ t!";") := ((by decide : Clean t!"typedef ... ").append (cName_clean h)).append (by decide)
  have hnl : '\n' ∉ t!"typedef ... " ++ cName b (.adt i g) ++ t!";" := by
    have := hn.1.not_mem (c := '\n') (by decide)
    simp [this]
  have hk := ck_clean (fl := fl) (s := trimEnd (t!"typedef ... " ++ cName b (.adt i g) ++ t!";")) fun c hm => hc c (mem_trimEnd hm)
  rw [split_of_not_mem fun hm => hnl (mem_trimEnd hm)] at hk
  have hk' : Ck fl (flat (outLines 0 [t!"typedef ... " ++ cName b (.adt i g) ++ t!";"])) [.id ktypedef, .id kdots, .id (cName b (.adt i g)), .semi] [] := by
    rw [flat_outLine 0 hnl]
    refine hk.cast ?_ rfl
    have e : t!"typedef ... " ++ cName b (.adt i g) ++ t!";" = t!"typedef ..." ++ ' ' :: (cName b (.adt i g) ++ t!";") := by simp
    rw [dtoks, List.flatMap_singleton, lex_trimEnd, e, lex_blank, lex_name_semi hn.1, show lex t!"typedef ..." = [.id ktypedef, .bad '.', .bad '.', .bad '.'] by decide]
    rfl
  exact ⟨_, hk'.append ck_nl, by simpa using units_dots hn.2.1⟩

/-! ### Arrays, functions and constants -/

theorem ck_array {b : Nat → Text} {n : Nat} {item : CTy} (h : wordsOk b (.array n item) = true) (hd : declOk item = true) :
    ∃ toks, Ck fl (flat (cArray b n item)) toks [] ∧
      Units toks [(cName b (.array n item), .struct [(t!"idx", .array (nat n) (ctype b item))])] := by
  have h' : wordsOk b item = true := h
  have e : flat (cArray b n item) = (t!"typedef struct {\n    " ++ cVar b item (t!"idx[" ++ nat n ++ t!"]") ++ t!";\n} " ++ cVar b (.array n item) [] ++ t!";\n") ++ ['\n'] := by
    simp [cArray, flat]
  have hnat : '.' ∉ nat n := fun hm => absurd (nat_word n '.' hm) (by decide)
  have hidx : '.' ∉ t!"idx[" ++ nat n ++ t!"]" := by simp [hnat]
  rw [e]
  refine ⟨_, ck_clean ?_, ?_⟩
  · exact ((((by decide : Clean t!"typedef struct {\n    ").append (cVar_clean h' (((by decide : Clean t!"idx[").append (nat_clean n)).append
      (by decide)))).append (by decide : Clean t!";\n} ")).append (cVar_clean h (by decide))).append (by decide)
  · have hw := (cName_named_abi (ty := .array n item) rfl h).1
    have hd1 : '.' ∉ cVar b item (t!"idx[" ++ nat n ++ t!"]") := cVar_no_dot h' hidx
    have hd2 : '.' ∉ cVar b (.array n item) [] := cVar_no_dot h nofun
    rw [dtoks_split (no_dot_append (no_dot_append (no_dot_append (no_dot_append (by decide) hd1) (by decide)) hd2) (by decide))]
    have e2 : t!"typedef struct {\n    " ++ cVar b item (t!"idx[" ++ nat n ++ t!"]") ++ t!";\n} " ++ cVar b (.array n item) [] ++ t!";\n" =
        t!"typedef struct {\n   " ++ ' ' :: (cVar b item (t!"idx[" ++ nat n ++ t!"]") ++ ';' :: ([] ++ '\n' :: (t!"} " ++ cName b (.array n item) ++ t!";" ++ '\n' :: []))) := by
      simp [cName]
    rw [e2, lex_blank, lex_semi, lex_newline, lex_newline, lex_close hw, lex_nil,
      show lex t!"typedef struct {\n   " = [.id ktypedef, .id kstruct, .bad '{'] by decide]
    have hb := MemBody.one (cVar_starts b item h' (t!"idx[" ++ nat n ++ t!"]")) (n := t!"idx") (ty := .array (nat n) (ctype b item)) fun r =>
      declares_var b item h' hd (v := t!"idx[" ++ nat n ++ t!"]") (n := some t!"idx") (g := fun c => .array (nat n) c)
        (by rw [lex_idx]; exact Direct.array (by decide)) (r := .semi :: r) trivial
    have := Units.struct' (n := cName b (.array n item)) hb
    simpa using this

theorem sigArgs_like {lang : Lang} (hl : Like lang) (b : Nat → Text) (first : Bool) (args : List Arg) (h : ∀ a ∈ args, isAlias a.ty = false) :
    sigArgs b lang first args = sigArgs b .c first args := by
  induction args generalizing first with
  | nil => cases first <;> rfl
  | cons a as ih =>
    rw [sigArgs, sigArgs, var_like hl b (h a (by simp)), ih false fun a ha => h a (by simp [ha])]
    rfl

theorem sigArgs_no_dot {b : Nat → Text} (first : Bool) {args : List Arg} (h : ∀ a ∈ args, IsWord a.name ∧ wordsOk b a.ty = true) :
    '.' ∉ sigArgs b .c first args := by
  induction args generalizing first with
  | nil => cases first <;> simp [sigArgs]
  | cons a as ih =>
    have h1 : '.' ∉ var b .c a.ty a.name := cVar_no_dot (h a (by simp)).2 ((h a (by simp)).1.not_mem (by decide))
    have h2 := ih false fun a ha => h a (by simp [ha])
    rw [sigArgs]
    cases first <;> simp [h1, h2, indent]

theorem ck_function {lang : Lang} (hl : Like lang) {b : Nat → Text} {f : Fn} (h1 : DocsOk f.docs) (h2 : IsWord f.name) (h3 : f.name ≠ kconst)
    (h4 : ∀ a ∈ f.args, (IsWord a.name ∧ a.name ≠ kconst ∧ isVoid a.ty = false) ∧ wordsOk b a.ty = true ∧ declOk a.ty = true)
    (h5 : wordsOk b f.ret = true) (h6 : declOk f.ret = true) (h7 : ∀ a ∈ f.args, isAlias a.ty = false) (h8 : isAlias f.ret = false) :
    ∃ toks, Ck fl (flat (emitFunction b lang f.docs f.name f.args f.ret)) toks [] ∧
      Units toks [(f.name, .fn (ctype b f.ret) (f.args.map fun a => (some a.name, ctype b a.ty)))] := by
  have e : emitFunction b lang f.docs f.name f.args f.ret =
      emitDocs lang 0 f.docs ++ outLines 0 [cVar b f.ret (sig b .c f.name f.args) ++ t!";"] ++ [nl] := by
    have e1 : sig b lang f.name f.args = sig b .c f.name f.args := by rw [sig, sig, sigArgs_like hl b true _ h7]
    rw [← e1, ← var_like hl b h8]
    rcases hl with rfl | rfl <;> rfl
  rw [e]
  simp only [flat_append]
  have hs : Clean (sig b .c f.name f.args) := by
    rw [sig]
    exact ((((by decide : Clean nl).append (clean_indent 0)).append h2.clean).append (by decide)).append
      (sigArgs_clean true fun a ha => ⟨(h4 a ha).1.1, (h4 a ha).2.1⟩) |>.append (by decide)
  have hsd : '.' ∉ sig b .c f.name f.args := by
    have n1 : '.' ∉ f.name := h2.not_mem (by decide)
    have n2 := sigArgs_no_dot (b := b) true (args := f.args) fun a ha => ⟨(h4 a ha).1.1, (h4 a ha).2.1⟩
    rw [sig]
    simp [n1, n2, indent]
  refine ⟨_, ((ck_docs hl 0 h1).append (ck_var 0 h5 _ hs hsd)).append ck_nl, ?_⟩
  have hargs : ∀ a ∈ f.args, argFine b .c a = true := by
    intro a ha
    obtain ⟨⟨w1, w2, w3⟩, w4, w5⟩ := h4 a ha
    have w3' : isVoid (intended .c a.ty) = false := w3
    simp [argFine, declFine, w1, w2, w3', w4, w5]
  have hd := Direct.fn h3 (parens_sig b .c f.args hargs)
  rw [← lex_sig b .c h2 f.args] at hd
  have := Units.fn (cVar_starts b f.ret h5 (sig b .c f.name f.args)) fun r => declares_var b f.ret h5 h6 hd (r := .semi :: r) trivial
  rw [List.nil_append, List.append_nil]
  exact this

theorem directive_define {nm : Text} (h : IsWord nm) (x : Text) : directive (t!"#define " ++ (nm ++ x)) = some (t!"define", nm ++ x) := by
  obtain ⟨c, cs, rfl⟩ := List.exists_cons_of_ne_nil h.1
  have hc := h.2 c (by simp)
  have hb : blank c = false := by
    cases hw : blank c with
    | false => rfl
    | true =>
      rw [blank] at hw
      rcases Bool.or_eq_true_iff.1 hw with h | h <;> rw [eq_of_beq h] at hc <;> exact absurd hc (by decide)
  show some (t!"define", List.dropWhile blank (' ' :: (c :: cs ++ x))) = _
  rw [List.dropWhile_cons, if_pos (by decide), List.cons_append, List.dropWhile_cons, hb]
  rfl

theorem ck_constant {b : Nat → Text} {docs : List Text} {nm : Text} {ty : CTy} {untyped : Bool} {value : Text} (h : IsWord nm) :
    Ck fl (flat (emitConstant b .python docs nm ty untyped value)) [] [nm] := by
  have e : flat (emitConstant b .python docs nm ty untyped value) = (t!"#define " ++ (nm ++ t!" ...")) ++ '\n' :: nl := by
    have n2 : '\n' ∉ t!"#define " ++ nm ++ t!" ..." := by
      have := h.not_mem (c := '\n') (by decide)
      simp [this]
    show flat (outLines 0 [t!"#define " ++ nm ++ t!" ..."] ++ [nl]) = _
    rw [flat_append, flat_outLine 0 n2]
    have : trimEnd (indent 0 ++ (t!"#define " ++ nm ++ t!" ...")) = t!"#define " ++ nm ++ t!" ..." := by
      show trimEnd (t!"#define " ++ nm ++ t!" ...") = _
      have := trimEnd_nonws (t!"#define " ++ nm ++ t!" ..") (c := '.') [] (by decide)
      simpa [trimEnd] using this
    rw [this]
    simp [flat]
  rw [e]
  have n1 : '/' ∉ t!"#define " ++ (nm ++ t!" ...") := by
    have := h.not_mem (c := '/') (by decide)
    simp [this]
  have n2 : '\n' ∉ t!"#define " ++ (nm ++ t!" ...") := by
    have := h.not_mem (c := '\n') (by decide)
    simp [this]
  refine ⟨[t!"#define " ++ (nm ++ t!" ..."), []], [[]], fun rest => ?_, ?_, rfl⟩
  · have e2 : (t!"#define " ++ (nm ++ t!" ...")) ++ '\n' :: nl ++ rest = (t!"#define " ++ (nm ++ t!" ...")) ++ '\n' :: ([] ++ '\n' :: rest) := by simp
    rw [e2, lines_line n1 n2, lines_line (by simp) (by simp)]
    rfl
  · rw [cdefLines, directive_define h]
    have e3 : (nm ++ t!" ...").dropWhile isWordChar = t!" ..." := by rw [List.dropWhile_append_of_pos h.2]; rfl
    have e4 : ident (nm ++ t!" ...") = nm := ident_word h ' ' (by decide) t!"..."
    simp only
    rw [e3, e4, if_pos ⟨trivial, by decide⟩]
    rfl

/-! ### Items -/

/-- What cffi's parser makes of an item. -/
def rawEntry (P : Prog) : Item → Env
  | .type lang (.adt i g) =>
      match P.decl i g with
      | .opaque _ => if lang = .python then [(cName P.base (.adt i g), .alias (.name kdots))] else [(cName P.base (.adt i g), .opaque)]
      | .enum _ int _ => if lang = .python then [(cName P.base (.adt i g), .enum)] else enumEntry (cName P.base (.adt i g)) int
      | _ => entry P (.type lang (.adt i g))
  | it => entry P it

/-- The constants of an item. -/
def itemMacros : Item → List Text
  | .const _ c => [c.name]
  | _ => []

/-- The items that are proved right. -/
def CdefItem (P : Prog) : Item → Prop
  | .type lang ty => Like lang ∧ hasDef ty = true ∧ isAlias ty = false ∧ wordsOk P.base ty = true ∧ TypeFine P ty ∧ match ty with
      | .adt i g => (∀ docs size fs, P.decl i g = .struct docs size fs → ∀ f ∈ fs, wordsOk P.base f.ty = true ∧ declOk f.ty = true ∧ isAlias f.ty = false) ∧
          ∀ docs int vs, P.decl i g = .enum docs int vs → lang = .python ∨ int = none
      | .array _ item => lang = .c ∧ declOk item = true
      | _ => True
  | .func lang f => Like lang ∧ ExportFine (.fn f) ∧ (∀ a ∈ f.args, wordsOk P.base a.ty = true ∧ declOk a.ty = true ∧ isAlias a.ty = false) ∧
      wordsOk P.base f.ret = true ∧ declOk f.ret = true ∧ isAlias f.ret = false
  | .const lang c => lang = .python ∧ ExportFine (.const c)
  | .text _ => False
  | _ => True

theorem ck_item {P : Prog} {it : Item} (hi : it = .intHeaders ∨ it = .boolHeader → fl = true) (h : CdefItem P it) (hp : (render P it).panics = false) :
    ∃ toks, Ck fl (flat (render P it).writes) toks (itemMacros it) ∧ Units toks (rawEntry P it) := by
  cases it with
  | intHeaders =>
    obtain rfl := hi (.inl rfl)
    refine ⟨[], ⟨[[], t!"#include <stddef.h>", t!"#include <stdint.h>", []], [[], []], fun rest => ?_, rfl, rfl⟩, .nil⟩
    have e : flat (render P .intHeaders).writes ++ rest = [] ++ '\n' :: (t!"#include <stddef.h>" ++ '\n' :: (t!"#include <stdint.h>" ++ '\n' :: ([] ++ '\n' :: rest))) := rfl
    rw [e, lines_line (by decide) (by decide), lines_line (by decide) (by decide), lines_line (by decide) (by decide), lines_line (by decide) (by decide)]
    rfl
  | boolHeader =>
    obtain rfl := hi (.inr rfl)
    refine ⟨[], ⟨[[], t!"#include <stdbool.h>", []], [[], []], fun rest => ?_, rfl, rfl⟩, .nil⟩
    have e : flat (render P .boolHeader).writes ++ rest = [] ++ '\n' :: (t!"#include <stdbool.h>" ++ '\n' :: ([] ++ '\n' :: rest)) := rfl
    rw [e, lines_line (by decide) (by decide), lines_line (by decide) (by decide), lines_line (by decide) (by decide)]
    rfl
  | type lang ty =>
    obtain ⟨hl, hn, ha, h1, h3, h4⟩ := h
    cases ty with
    | adt i g =>
      change (renderDecl P lang (.adt i g) (P.decl i g)).panics = false at hp
      change ∃ toks, Ck fl (flat (renderDecl P lang (.adt i g) (P.decl i g)).writes) toks [] ∧ Units toks (rawEntry P (.type lang (.adt i g)))
      change DeclFine (P.decl i g) at h3
      rw [rawEntry, entry]
      cases hd : P.decl i g with
      | struct docs size fs => rw [hd] at h3 hp; exact ck_struct hl h1 h3 (h4.1 docs size fs hd) hp
      | enum docs int vs =>
        rw [hd] at h3
        have h3' : DeclFine (.enum docs none vs) := h3
        rcases hl with rfl | rfl
        · obtain rfl : int = none := (h4.2 docs int vs hd).elim nofun fun h => h
          exact ck_enum (.inl rfl) h1 h3'
        · exact ck_enum (.inr rfl) h1 h3'
      | «opaque» docs =>
        rw [hd] at h3
        rcases hl with rfl | rfl
        · exact ck_opaque_c h1 h3
        · exact ck_opaque_py h1 (docs := docs)
    | array n item =>
      obtain ⟨rfl, h4⟩ := h4
      exact ck_array h1 h4
    | alias rn docs inner => cases ha
    | _ => cases hn
  | func lang f =>
    obtain ⟨hl, ⟨h1, h2, h3, h4⟩, h5, h6, h7, h8⟩ := h
    exact ck_function hl h1 h2 h3 (fun a ha => ⟨h4 a ha, (h5 a ha).1, (h5 a ha).2.1⟩) h6 h7 (fun a ha => (h5 a ha).2.2) h8
  | const lang c =>
    obtain ⟨rfl, _, h2, _⟩ := h
    exact ⟨[], ck_constant (b := P.base) (docs := c.docs) (ty := c.ty) (untyped := c.untyped) (value := c.value) h2, .nil⟩
  | text s => exact h.elim

theorem ck_items {P : Prog} {its : List Item} (h : ∀ it ∈ its, (it = .intHeaders ∨ it = .boolHeader → fl = true) ∧ CdefItem P it ∧ (render P it).panics = false) :
    ∃ toks, Ck fl (flat (its.flatMap fun it => (render P it).writes)) toks (its.flatMap itemMacros) ∧ Units toks (its.flatMap (rawEntry P)) := by
  induction its with
  | nil => exact ⟨[], .nil, .nil⟩
  | cons it its ih =>
    obtain ⟨a, h1, h2⟩ := ck_item (h it (by simp)).1 (h it (by simp)).2.1 (h it (by simp)).2.2
    obtain ⟨b, h3, h4⟩ := ih fun it hit => h it (by simp [hit])
    rw [List.flatMap_cons, flat_append, List.flatMap_cons, List.flatMap_cons]
    exact ⟨_, h1.append h3, h2.append h4⟩

end

/-- Without the dots, these are the entries of a C header. -/
theorem raw_undot {P : Prog} {it : Item} (h : CdefItem P it)
    (he : ∀ lang i g docs int vs, it = .type lang (.adt i g) → P.decl i g = .enum docs int vs → int = none) : (rawEntry P it).map undot = entry P it := by
  cases it with
  | type lang ty =>
    obtain ⟨hl, hn, ha, _, _, h4⟩ := h
    cases ty with
    | adt i g =>
      rw [rawEntry, entry]
      cases hd : P.decl i g with
      | struct docs size fs => rfl
      | enum docs int vs =>
        obtain rfl := he lang i g docs int vs rfl hd
        simp only
        split <;> rfl
      | «opaque» docs =>
        simp only
        split <;> rfl
    | array n item => rfl
    | alias rn docs inner => cases ha
    | _ => cases hn
  | text s => exact h.elim
  | _ => rfl

end Verif.Headers
